import Verif.Model.FieldFit
import Mathlib.Tactic.Linarith
import Mathlib.Tactic.FieldSimp
import Mathlib.Tactic.Positivity
import Mathlib.Tactic.NormNum
import Mathlib.Tactic.Ring
import Mathlib.Algebra.Order.BigOperators.Group.List
import Mathlib.Data.List.GetD

/-! C53, C54, C98-C102: calibration of PSFs over a field (tiles, candidates, extraction, interpolation). -/

namespace P3.FieldFit

/-! ### Tiles -/

theorem flatMap_range_getD {α : Type} (f : ℕ → ℕ → α) (d : α) (n : ℕ) : ∀ (m y x : ℕ), y < m → x < n →
    ((List.range m).flatMap fun y => (List.range n).map fun x => f y x).getD (y * n + x) d = f y x := by
  intro m
  induction m with
  | zero => intro y x hy; omega
  | succ m ih =>
    intro y x hy hx
    have hl : ((List.range m).flatMap fun y => (List.range n).map fun x => f y x).length = m * n := by
      simp [List.length_flatMap]
    rw [List.range_succ, List.flatMap_append]
    by_cases h : y < m
    · rw [List.getD_append _ _ _ _ (by rw [hl]; nlinarith)]
      exact ih y x h hx
    · have : y = m := by omega
      subst this
      rw [List.getD_append_right _ _ _ _ (by rw [hl]; omega), hl]
      simp only [Nat.add_sub_cancel_left, List.flatMap_cons, List.flatMap_nil, List.append_nil]
      rw [List.getD_eq_getElem _ _ (by simpa using hx)]
      simp

/-- C53: the cube holds `n*n` tiles of `nY/n` by `nX/n` pixels, in row order, and each is a contiguous part of the image. -/
theorem tiles_spec (im : Im) (nY nX n : ℕ) (hn : 0 < n) : ∃ cube, tiles im nY nX n = .ok (nY / n, nX / n, cube) ∧
    cube.length = n * n ∧ ∀ y x i j, y < n → x < n → i < nY / n → j < nX / n →
      (cube.getD (y * n + x) fun _ _ => 0) i j = im (y * (nY / n) + i) (x * (nX / n) + j) ∧
      y * (nY / n) + i < nY ∧ x * (nX / n) + j < nX := by
  refine ⟨_, by unfold tiles; rw [if_neg (by omega)], by simp [List.length_flatMap], ?_⟩
  intro y x i j hy hx hi hj
  have h1 := Nat.div_mul_le_self nY n
  have h2 := Nat.div_mul_le_self nX n
  refine ⟨?_, by nlinarith, by nlinarith⟩
  rw [flatMap_range_getD _ _ _ _ _ _ hy hx]
  rfl

/-- C53: a pixel belongs to at most one tile, and to one exactly when it is before the remainder of the division. -/
theorem tile_of_pixel (nY n a : ℕ) :
    (∃ y i, y < n ∧ i < nY / n ∧ a = y * (nY / n) + i) ↔ a < n * (nY / n) := by
  constructor
  · rintro ⟨y, i, hy, hi, rfl⟩; nlinarith
  · intro h
    have hp : 0 < nY / n := by
      rcases Nat.eq_zero_or_pos (nY / n) with h0 | h0
      · rw [h0] at h; omega
      · exact h0
    refine ⟨a / (nY / n), a % (nY / n), ?_, Nat.mod_lt _ hp, ?_⟩
    · rw [Nat.div_lt_iff_lt_mul hp]; exact h
    · exact (Nat.div_add_mod' a _).symm

theorem tile_unique (p y i y' i' : ℕ) (hi : i < p) (hi' : i' < p) (h : y * p + i = y' * p + i') : y = y' ∧ i = i' := by
  have h1 : (y * p + i) / p = y := by
    rw [mul_comm, Nat.mul_add_div (by omega), Nat.div_eq_of_lt hi]; rfl
  have h2 : (y' * p + i') / p = y' := by
    rw [mul_comm, Nat.mul_add_div (by omega), Nat.div_eq_of_lt hi']; rfl
  have h3 : y = y' := by rw [← h1, ← h2, h]
  exact ⟨h3, by subst h3; omega⟩

/-- C138: when the number of tiles does not divide the size of the image, the last pixels are in no tile. -/
theorem tiles_violation : ¬∃ y i, y < 2 ∧ i < 5 / 2 ∧ 4 = y * (5 / 2) + i := by
  rintro ⟨y, i, h1, h2, h3⟩; omega

theorem flat_eq (cube : List Im) (p k i j : ℕ) (hi : i < p) (hj : j < p) :
    flat cube p p ((k * p + i) * p + j) = (cube.getD k fun _ _ => 0) i j := by
  have e : (k * p + i) * p + j = (p * p) * k + (i * p + j) := by ring
  have hlt : i * p + j < p * p := by nlinarith
  have h1 : ((k * p + i) * p + j) / (p * p) = k := by
    rw [e, Nat.mul_add_div (by nlinarith), Nat.div_eq_of_lt hlt]; rfl
  have h2 : ((k * p + i) * p + j) % (p * p) = i * p + j := by
    rw [e, Nat.mul_add_mod, Nat.mod_eq_of_lt hlt]
  have h3 : ((k * p + i) * p + j) % p = j := by
    rw [Nat.mul_add_mod', Nat.mod_eq_of_lt hj]
  have h4 : (i * p + j) / p = i := by
    rw [mul_comm, Nat.mul_add_div (by omega), Nat.div_eq_of_lt hj]; rfl
  unfold flat
  rw [h1, h2, h3, h4]

/-- C53: a cube of `n*n` square images is put side by side: the pixel `(i, j)` of the image `y*n+x` goes to
`(y*p+i, x*p+j)`. -/
theorem cubeToImage_spec (cube : List Im) (p n : ℕ) (hc : cube.length = n * n) : ∃ big,
    cubeToImage cube p p = .ok (n * p, big) ∧ ∀ y x i j, y < n → x < n → i < p → j < p →
      big (y * p + i) (x * p + j) = (cube.getD (y * n + x) fun _ _ => 0) i j := by
  have hs : cube.length.sqrt = n := by rw [hc]; exact Nat.sqrt_eq n
  refine ⟨_, by unfold cubeToImage; simp only [hs]; rw [if_pos (by rw [hc])], ?_⟩
  intro y x i j hy hx hi hj
  have d : ∀ u v, v < p → (u * p + v) / p = u := fun u v h => by
    rw [mul_comm, Nat.mul_add_div (by omega), Nat.div_eq_of_lt h]; rfl
  have m : ∀ u v, v < p → (u * p + v) % p = v := fun u v h => by
    rw [Nat.mul_add_mod', Nat.mod_eq_of_lt h]
  rw [d y i hi, d x j hj, m y i hi, m x j hj]
  exact flat_eq _ _ _ _ _ hi hj

/-- C53: cutting a square image into tiles and putting them together gives back the image, exactly when the number of
tiles divides its size. -/
theorem tiles_roundtrip (im : Im) (N n : ℕ) (hn : 0 < n) (hd : n ∣ N) : ∃ cube big,
    tiles im N N n = .ok (N / n, N / n, cube) ∧ cubeToImage cube (N / n) (N / n) = .ok (N, big) ∧
    ∀ a b, a < N → b < N → big a b = im a b := by
  obtain ⟨cube, h1, h2, h3⟩ := tiles_spec im N N n hn
  obtain ⟨big, h4, h5⟩ := cubeToImage_spec cube (N / n) n h2
  have hN : n * (N / n) = N := Nat.mul_div_cancel' hd
  refine ⟨cube, big, h1, by rw [h4, hN], ?_⟩
  intro a b ha hb
  obtain ⟨y, i, hy, hi, rfl⟩ := (tile_of_pixel N n a).2 (by rw [hN]; exact ha)
  obtain ⟨x, j, hx, hj, rfl⟩ := (tile_of_pixel N n b).2 (by rw [hN]; exact hb)
  rw [h5 y x i j hy hx hi hj, (h3 y x i j hy hx hi hj).1]

/-- C53: otherwise the image that is put back together is smaller. -/
theorem roundtrip_smaller (im : Im) (N n : ℕ) (hn : 0 < n) (hd : ¬n ∣ N) : ∃ cube big M,
    tiles im N N n = .ok (N / n, N / n, cube) ∧ cubeToImage cube (N / n) (N / n) = .ok (M, big) ∧ M < N := by
  obtain ⟨cube, h1, h2, h3⟩ := tiles_spec im N N n hn
  obtain ⟨big, h4, h5⟩ := cubeToImage_spec cube (N / n) n h2
  refine ⟨cube, big, _, h1, h4, lt_of_le_of_ne (Nat.mul_div_le N n) fun h => hd ⟨N / n, h.symm⟩⟩

/-- C53: a number of images that is not a square is refused, for square images of at least one pixel. -/
theorem cubeToImage_not_square (cube : List Im) (p : ℕ) (hp : 0 < p) (hc : ¬IsSquare cube.length) :
    cubeToImage cube p p = .error .valueError := by
  unfold cubeToImage
  simp only
  rw [if_neg]
  intro h
  exact hc ⟨cube.length.sqrt, Nat.eq_of_mul_eq_mul_right (Nat.mul_pos hp hp) h⟩

/-- C138: six images of three by two pixels are accepted as four of three by three: the first image is mixed with the
second. -/
theorem cubeToImage_violation : ∃ (cube : List Im) (big : Im), cube.length = 6 ∧ cubeToImage cube 3 2 = .ok (6, big) ∧
    big 0 2 = 3 ∧ ∀ i j, (cube.getD 0 fun _ _ => 0) i j = 2 * i + j + 1 := by
  set cube : List Im := [fun i j => 2 * i + j + 1, fun _ _ => 0, fun _ _ => 0, fun _ _ => 0, fun _ _ => 0, fun _ _ => 0] with hc
  have hl : cube.length = 6 := rfl
  have hs : (6 : ℕ).sqrt = 2 := by decide +kernel
  refine ⟨cube, fun a b => flat cube 3 2 (((a / 3 * 2 + b / 3) * 3 + a % 3) * 3 + b % 3), hl, ?_, ?_, ?_⟩
  · unfold cubeToImage
    simp only [hl, hs]
    rfl
  · norm_num [flat, hc]
  · intro i j; simp [hc]

/-- C53: the centre of each tile is inside it, at half its size. -/
theorem centers_spec (nY nX n y x : ℕ) (hn : 0 < n) (hy : y < n) (hx : x < n) :
    (centers nY nX n).getD (y * n + x) (0, 0) = (y * (nY / n) + nY / n / 2, x * (nX / n) + nX / n / 2) := by
  unfold centers
  rw [flatMap_range_getD _ _ _ _ _ _ hy hx]
  have h : ∀ M z, z < n → min ((z + 1) * (M / n)) M - z * (M / n) = M / n := by
    intro M z hz
    have := Nat.div_mul_le_self M n
    have h2 : (z + 1) * (M / n) ≤ M := by nlinarith
    rw [min_eq_left h2, Nat.succ_mul, Nat.add_sub_cancel_left]
  rw [h nY y hy, h nX x hx]

/-! ### Interpolation -/

theorem sum_pos_of {l : List ℕ} {f : ℕ → ℝ} (hl : l ≠ []) (h : ∀ i ∈ l, 0 < f i) : 0 < (l.map f).sum := by
  apply List.sum_pos
  · simpa using h
  · simpa using hl

/-- C54: for PSFs at a non-zero distance, the weights of interpolation are positive and sum to one. -/
theorem weights_sum (d : ℕ → ℝ) (ids : List ℕ) (hl : ids ≠ []) (hd : ∀ i ∈ ids, 0 < d i) :
    ∃ w : ℕ → ℝ, (∀ k ∈ ids, wOut d ids k = some (w k)) ∧ (∀ k ∈ ids, 0 < w k) ∧ (ids.map w).sum = 1 := by
  have hne : ¬∃ i ∈ ids, d i = 0 := by rintro ⟨i, hi, h0⟩; have := hd i hi; linarith
  have hS : 0 < (ids.map fun i => 1 / d i).sum := sum_pos_of hl fun i hi => by have := hd i hi; positivity
  refine ⟨fun k => 1 / d k / (ids.map fun i => 1 / d i).sum, fun k _ => by unfold wOut; rw [if_neg hne], ?_, ?_⟩
  · intro k hk; have := hd k hk; positivity
  · have : (ids.map fun k => 1 / d k / (ids.map fun i => 1 / d i).sum) =
        ids.map fun k => 1 / d k * (1 / (ids.map fun i => 1 / d i).sum) := by
      apply List.map_congr_left; intro a _; rw [div_eq_mul_one_div (1 / d a)]
    rw [this, List.sum_map_mul_right]
    field_simp

theorem map_sum_swap (ids : List ℕ) (f : ℕ → ℕ → ℝ) (l : List ℕ) :
    (l.map fun a => (ids.map fun k => f k a).sum).sum = (ids.map fun k => (l.map fun a => f k a).sum).sum := by
  induction l with
  | nil => simp
  | cons a t ih =>
    simp only [List.map_cons, List.sum_cons, ih]
    rw [← List.sum_map_add]

/-- Total of an image of `n` by `n` pixels. -/
def total (n : ℕ) (im : Im) : ℝ := ((List.range n).map fun a : ℕ => ((List.range n).map fun b : ℕ => im a b).sum).sum

theorem total_interp (n : ℕ) (psfs : ℕ → Im) (w : ℕ → ℝ) (ids : List ℕ) :
    total n (fun a b => (ids.map fun k => psfs k a b * w k).sum) = (ids.map fun k => total n (psfs k) * w k).sum := by
  unfold total
  have : ∀ a : ℕ, ((List.range n).map fun b : ℕ => (ids.map fun k => psfs k a b * w k).sum).sum =
      (ids.map fun k => ((List.range n).map fun b : ℕ => psfs k a b * w k).sum).sum :=
    fun a => map_sum_swap ids (fun k b => psfs k a b * w k) _
  simp only [this]
  rw [map_sum_swap ids (fun k a => ((List.range n).map fun b : ℕ => psfs k a b * w k).sum)]
  congr 1
  apply List.map_congr_left
  intro k _
  rw [← List.sum_map_mul_right]
  congr 1
  apply List.map_congr_left
  intro a _
  rw [List.sum_map_mul_right]

/-- C54: the interpolated PSF has the flux shared by its references, and each of its pixels is between the bounds shared
by the references. -/
theorem interp_spec (n : ℕ) (psfs : ℕ → Im) (d : ℕ → ℝ) (ids : List ℕ) (hl : ids ≠ []) (hd : ∀ i ∈ ids, 0 < d i)
    (F : ℝ) (hF : ∀ i ∈ ids, total n (psfs i) = F) : ∃ out, interp psfs d ids = some out ∧ total n out = F ∧
    ∀ a b lo hi, (∀ i ∈ ids, lo ≤ psfs i a b ∧ psfs i a b ≤ hi) → lo ≤ out a b ∧ out a b ≤ hi := by
  have hne : ¬∃ i ∈ ids, d i = 0 := by rintro ⟨i, hi, h0⟩; have := hd i hi; linarith
  obtain ⟨w, hw, hp, h1⟩ := weights_sum d ids hl hd
  have hw' : ∀ k ∈ ids, w k = 1 / d k / (ids.map fun i => 1 / d i).sum := by
    intro k hk
    have := hw k hk
    unfold wOut at this
    rw [if_neg hne] at this
    exact (Option.some.inj this).symm
  have hout : (fun a b => (ids.map fun k => psfs k a b * (1 / d k / (ids.map fun i => 1 / d i).sum)).sum) =
      fun a b => (ids.map fun k => psfs k a b * w k).sum := by
    funext a b
    congr 1
    apply List.map_congr_left
    intro k hk
    rw [hw' k hk]
  refine ⟨_, by unfold interp; rw [if_neg hne, hout], ?_, ?_⟩
  · rw [total_interp]
    have : (ids.map fun k => total n (psfs k) * w k) = ids.map fun k => F * w k := by
      apply List.map_congr_left; intro k hk; rw [hF k hk]
    rw [this, List.sum_map_mul_left, h1, mul_one]
  · intro a b lo hi hb
    have e : ∀ c : ℝ, (ids.map fun k => c * w k).sum = c := fun c => by rw [List.sum_map_mul_left, h1, mul_one]
    constructor
    · rw [← e lo]
      exact List.sum_le_sum fun k hk => mul_le_mul_of_nonneg_right (hb k hk).1 (hp k hk).le
    · conv_rhs => rw [← e hi]
      exact List.sum_le_sum fun k hk => mul_le_mul_of_nonneg_right (hb k hk).2 (hp k hk).le

/-- C155: at the position of one of its references, there is no interpolated PSF (zero distance): the result is not a
number, instead of that reference. -/
theorem interp_violation (psfs : ℕ → Im) (w : ℕ → ℝ) (y x : ℕ → ℝ) (k : ℕ) (ids : List ℕ) (hk : k ∈ ids) :
    interp psfs (dOut w (y k) (x k) y x) ids = none := by
  unfold interp
  rw [if_pos]
  exact ⟨k, hk, by simp [dOut]⟩

open Classical in
/-- C54: the reference at the position is always among the nearest, when the weights are positive. -/
theorem nearest_spec (d : ℕ → ℝ) (nPSF n : ℕ) :
    (nearest d nPSF n).length = min n nPSF ∧ (nearest d nPSF n).Nodup ∧ (∀ i ∈ nearest d nPSF n, i < nPSF) ∧
    ∀ i ∈ nearest d nPSF n, ∀ j < nPSF, j ∉ nearest d nPSF n → d i ≤ d j := by
  unfold nearest
  set l := (List.range nPSF).insertionSort fun a b => d a ≤ d b with hl
  have hperm : l.Perm (List.range nPSF) := List.perm_insertionSort _ _
  have hlen : l.length = nPSF := by rw [hperm.length_eq, List.length_range]
  have hnd : l.Nodup := hperm.nodup_iff.2 List.nodup_range
  have hsorted : l.Pairwise fun a b => d a ≤ d b := by
    have : Std.Total (fun a b : ℕ => d a ≤ d b) := ⟨fun a b => le_total _ _⟩
    have : IsTrans ℕ (fun a b : ℕ => d a ≤ d b) := ⟨fun a b c => le_trans⟩
    exact List.pairwise_insertionSort _ _
  refine ⟨by rw [List.length_take, hlen], hnd.sublist (List.take_sublist _ _), ?_, ?_⟩
  · intro i hi
    exact List.mem_range.1 (hperm.mem_iff.1 (List.mem_of_mem_take hi))
  · intro i hi j hj hj'
    have hjl : j ∈ l := hperm.mem_iff.2 (List.mem_range.2 hj)
    rw [← List.take_append_drop n l] at hjl hsorted
    rcases List.mem_append.1 hjl with h | h
    · exact absurd h hj'
    · exact (List.pairwise_append.1 hsorted).2.2 i hi j h

/-- C98: with one PSF per tile the quality weights are all one, whatever the quality. -/
theorem wMse_single_partial (mse : ℕ → ℝ) (nSeg k : ℕ) (hk : k < nSeg) (h0 : mse k ≠ 0) : wMse mse 1 nSeg k = 1 := by
  unfold wMse
  simp [Nat.mod_eq_of_lt hk, h0]

/-- C98: for two PSFs of one tile (or any two whose errors share the same normalisation) at the same distance of the
target, the weights in the interpolation are in the ratio of their errors: the worse fit gets the larger weight. -/
theorem quality_inverted (mse : ℕ → ℝ) (nMax k l : ℕ) (yo xo : ℝ) (y x : ℕ → ℝ)
    (hm : ∀ i < nMax, 0 < mse i) (hk : k < nMax) (hl : l < nMax) (hdist : √((yo - y k) ^ 2 + (xo - x k) ^ 2) = √((yo - y l) ^ 2 + (xo - x l) ^ 2))
    (hpos : 0 < √((yo - y k) ^ 2 + (xo - x k) ^ 2)) :
    1 / dOut (wMse mse nMax 1) yo xo y x k * mse l = 1 / dOut (wMse mse nMax 1) yo xo y x l * mse k := by
  unfold dOut wMse
  rw [← hdist]
  simp only [Nat.mod_one, Nat.mul_one, Nat.add_zero]
  have hS : 0 < ((List.range nMax).map fun a : ℕ => 1 / mse a).sum := by
    apply sum_pos_of
    · intro h; rw [List.range_eq_nil] at h; omega
    · intro i hi; have := hm i (List.mem_range.1 hi); positivity
  have h1 := hm k hk
  have h2 := hm l hl
  set r := √((yo - y k) ^ 2 + (xo - x k) ^ 2)
  set S := ((List.range nMax).map fun a : ℕ => 1 / mse a).sum
  field_simp

/-- C98: with two PSFs per tile and two tiles, the errors are normalised across tiles: PSF 0 (first of tile 0) is paired
with PSF 2 (first of tile 1), although PSF 1 is the other of its tile. -/
theorem quality_pairing (mse : ℕ → ℝ) : wMse mse 2 2 0 = 1 / mse 0 / (1 / mse 0 + 1 / mse 2) := by
  unfold wMse
  simp [List.range_succ]

/-! ### Candidates -/

open Classical in
/-- C99: the selected candidates are stars of the list inside the tile without its border and in the range of magnitudes,
as many as asked, and no star left out of those is better placed by the criterion. -/
theorem select_spec (stars : List Star) (y0 x0 nY nX border n : ℕ) (lo hi : ℝ) (crit : Crit)
    (key : List Star → Star → ℝ) (out : List Star)
    (h : select stars y0 x0 nY nX border n (some lo) (some hi) crit key = .ok out) :
    out.length = n ∧ (∀ s ∈ out, s ∈ stars ∧ Keep y0 x0 nY nX border lo hi s) ∧
    ∃ rest kept, kept.Perm (out ++ rest) ∧ kept = stars.filter (fun s => decide (Keep y0 x0 nY nX border lo hi s)) ∧
      ∀ a ∈ out, ∀ b ∈ rest, (crit = .isolated → key kept b ≤ key kept a) ∧ (crit = .center → key kept a ≤ key kept b) := by
  unfold select at h
  simp only at h
  set kept := stars.filter fun s => decide (Keep y0 x0 nY nX border lo hi s) with hkept
  split_ifs at h with hn
  set l := kept.insertionSort fun a b => key kept a ≤ key kept b with hl
  have hperm : l.Perm kept := List.perm_insertionSort _ _
  have hlen : l.length = kept.length := hperm.length_eq
  have hsorted : l.Pairwise fun a b => key kept a ≤ key kept b := by
    have : Std.Total (fun a b : Star => key kept a ≤ key kept b) := ⟨fun a b => le_total _ _⟩
    have : IsTrans Star (fun a b : Star => key kept a ≤ key kept b) := ⟨fun a b c => le_trans⟩
    exact List.pairwise_insertionSort _ _
  have hk : ∀ s ∈ kept, s ∈ stars ∧ Keep y0 x0 nY nX border lo hi s := by
    intro s hs
    rw [hkept, List.mem_filter] at hs
    exact ⟨hs.1, of_decide_eq_true hs.2⟩
  cases crit with
  | isolated =>
    simp only at h
    have hout := Except.ok.inj h
    refine ⟨by rw [← hout, List.length_drop]; omega, fun s hs => hk s (hperm.mem_iff.1 (List.mem_of_mem_drop (hout ▸ hs))),
      l.take (l.length - n), kept, ?_, rfl, ?_⟩
    · rw [← hout]
      exact (hperm.symm.trans (by conv_lhs => rw [← List.take_append_drop (l.length - n) l])).trans List.perm_append_comm
    · intro a ha b hb
      refine ⟨fun _ => ?_, fun hc => by cases hc⟩
      rw [← List.take_append_drop (l.length - n) l] at hsorted
      exact (List.pairwise_append.1 hsorted).2.2 b hb a (hout ▸ ha)
  | center =>
    simp only at h
    have hout := Except.ok.inj h
    refine ⟨by rw [← hout, List.length_take]; omega, fun s hs => hk s (hperm.mem_iff.1 (List.mem_of_mem_take (hout ▸ hs))),
      l.drop n, kept, ?_, rfl, ?_⟩
    · rw [← hout, List.take_append_drop]
      exact hperm.symm
    · intro a ha b hb
      refine ⟨fun hc => (by cases hc), fun _ => ?_⟩
      rw [← List.take_append_drop n l] at hsorted
      exact (List.pairwise_append.1 hsorted).2.2 a (hout ▸ ha) b hb
  | other => simp at h

open Classical in
/-- C99: when there are enough stars and a known criterion, the selection succeeds. -/
theorem select_total (stars : List Star) (y0 x0 nY nX border n : ℕ) (lo hi : ℝ) (crit : Crit)
    (key : List Star → Star → ℝ) :
    (∃ out, select stars y0 x0 nY nX border n (some lo) (some hi) crit key = .ok out) ↔
      n ≤ (stars.filter fun s => decide (Keep y0 x0 nY nX border lo hi s)).length ∧ crit ≠ .other := by
  unfold select
  simp only
  set kept := stars.filter fun s => decide (Keep y0 x0 nY nX border lo hi s)
  by_cases hn : kept.length < n
  · simp [hn]
  · cases crit <;> simp [hn] <;> omega

/-- C147: the limits of magnitude that the calibration gives by default (none) raise, whatever the stars. -/
theorem select_default (stars : List Star) (y0 x0 nY nX border n : ℕ) (crit : Crit) (key : List Star → Star → ℝ) :
    select stars y0 x0 nY nX border n none none crit key = .error .typeError := rfl

/-! ### Extraction -/

theorem trunc_nonneg {x : ℝ} (h : 0 ≤ x) : trunc x = ⌊x⌋ := by
  unfold trunc; rw [if_neg (not_lt.2 h)]

/-- C100: for an even number of pixels, a star whose window is inside the image is extracted, with the pixel that holds
the star in the middle. -/
theorem extract_even (im : Im) (nY nX : ℕ) (y x : ℝ) (h : ℕ) (hy : (h : ℝ) ≤ y) (hy' : y + h < nY + 1) (hx : (h : ℝ) ≤ x)
    (hx' : x + h < nX + 1) : ∃ sub, extract im nY nX y x (2 * h) = .ok sub ∧
      ∀ i j, sub i j = im (⌊y⌋.toNat - h + i) (⌊x⌋.toNat - h + j) := by
  have hc : ∀ (N : ℕ) (c : ℝ), (h : ℝ) ≤ c → c + h < N + 1 → cut N c (2 * h) = (⌊c⌋.toNat - h, 2 * h) := by
    intro N c h1 h2
    have e : (((2 * h : ℕ) : ℝ)) / 2 = h := by push_cast; ring
    have f1 : trunc (c - h) = ⌊c⌋ - h := by
      rw [trunc_nonneg (by linarith), Int.floor_sub_natCast]
    have f2 : trunc (c + h) = ⌊c⌋ + h := by
      have : (0 : ℝ) ≤ h := Nat.cast_nonneg h
      rw [trunc_nonneg (by linarith), Int.floor_add_natCast]
    have g1 : (h : ℤ) ≤ ⌊c⌋ := Int.le_floor.2 (by exact_mod_cast h1)
    have g2 : ⌊c⌋ + h ≤ N := by
      have : ((⌊c⌋ : ℤ) : ℝ) ≤ c := Int.floor_le c
      have : ((⌊c⌋ + h : ℤ) : ℝ) < ((N + 1 : ℤ) : ℝ) := by push_cast; linarith
      have := Int.cast_lt.1 this
      omega
    unfold cut bound
    simp only [e, f1, f2]
    rw [if_neg (by omega), if_neg (by omega)]
    ext <;> simp only <;> omega
  refine ⟨_, by unfold extract; simp only [hc nY y hy hy', hc nX x hx hx']; rw [if_pos ⟨trivial, trivial⟩], ?_⟩
  intro i j
  rfl

/-- C469 (violation): a star `m` pixels before the first row and column, whose window is entirely outside the image, is not refused:
the window returned is that of the opposite corner. -/
theorem extract_outside_violation (im : Im) (N m h : ℕ) (h0 : 0 < h) (h1 : h < m) (h2 : m + h ≤ N) :
    ∃ sub, extract im N N (-(m : ℝ)) (-(m : ℝ)) (2 * h) = .ok sub ∧ ∀ i j, sub i j = im (N - m - h + i) (N - m - h + j) := by
  have ha : trunc (-(m : ℝ) - ((2 * h : ℕ) : ℝ) / 2) = -((m + h : ℕ) : ℤ) := by
    have : -(m : ℝ) - ((2 * h : ℕ) : ℝ) / 2 = ((-((m + h : ℕ) : ℤ) : ℤ) : ℝ) := by push_cast; ring
    rw [this]; unfold trunc; split_ifs
    · exact Int.ceil_intCast _
    · exact Int.floor_intCast _
  have hb : trunc (-(m : ℝ) + ((2 * h : ℕ) : ℝ) / 2) = -((m - h : ℕ) : ℤ) := by
    have : -(m : ℝ) + ((2 * h : ℕ) : ℝ) / 2 = ((-((m - h : ℕ) : ℤ) : ℤ) : ℝ) := by
      push_cast [Nat.cast_sub h1.le]; ring
    rw [this]; unfold trunc; split_ifs
    · exact Int.ceil_intCast _
    · exact Int.floor_intCast _
  have hc : cut N (-(m : ℝ)) (2 * h) = (N - m - h, 2 * h) := by
    unfold cut
    simp only [ha, hb]
    have b1 : bound N (-((m + h : ℕ) : ℤ)) = N - m - h := by
      unfold bound; rw [if_pos (by omega)]; omega
    have b2 : bound N (-((m - h : ℕ) : ℤ)) = N - m + h := by
      unfold bound; rw [if_pos (by omega)]; omega
    rw [b1, b2, Prod.mk.injEq]
    exact ⟨rfl, by omega⟩
  exact ⟨_, by unfold extract; simp only [hc]; rw [if_pos ⟨trivial, trivial⟩], fun i j => rfl⟩

/-- C469: one axis of a window of `2h` pixels. -/
theorem cut_iff (N h : ℕ) (c : ℝ) (h0 : 0 < h) :
    (cut N c (2 * h)).2 = 2 * h ↔ ((h : ℝ) ≤ c ∧ c < N + 1 - h) ∨ (-(N : ℝ) - 1 < c - h ∧ c + h ≤ -1) := by
  have e1 : c - ((2 * h : ℕ) : ℝ) / 2 = c - h := by push_cast; ring
  have e2 : c + ((2 * h : ℕ) : ℝ) / 2 = (c - h) + ((2 * h : ℤ) : ℝ) := by push_cast; ring
  have hA : (h : ℝ) ≤ c ↔ 0 ≤ c - h := by constructor <;> intro h <;> linarith
  have hB : c < N + 1 - h ↔ ⌊c - h⌋ + 2 * h < (N : ℤ) + 1 := by
    rw [show (⌊c - h⌋ + 2 * h < (N : ℤ) + 1) ↔ ⌊c - h⌋ < (N : ℤ) + 1 - 2 * h by omega, Int.floor_lt]
    push_cast
    constructor <;> intro h <;> linarith
  have hC : -(N : ℝ) - 1 < c - h ↔ -(N : ℤ) - 1 < ⌈c - h⌉ := by
    rw [Int.lt_ceil]; push_cast; rfl
  have hD : c + h ≤ -1 ↔ ⌈c - h⌉ + 2 * h ≤ (-1 : ℤ) := by
    rw [show (⌈c - h⌉ + 2 * h ≤ (-1 : ℤ)) ↔ ⌈c - h⌉ ≤ -1 - 2 * (h : ℤ) by omega, Int.ceil_le]
    push_cast
    constructor <;> intro h <;> linarith
  have hfc : ⌊c - h⌋ ≤ ⌈c - h⌉ ∧ ⌈c - h⌉ ≤ ⌊c - h⌋ + 1 := ⟨Int.floor_le_ceil _, Int.ceil_le_floor_add_one _⟩
  rw [hA, hB, hC, hD]
  unfold cut trunc
  simp only [e1, e2, Int.ceil_add_intCast, Int.floor_add_intCast]
  have s1 : c - h < 0 → ⌈c - h⌉ ≤ 0 ∧ ⌊c - h⌋ < 0 := fun q => ⟨Int.ceil_le.2 (by push_cast; linarith), Int.floor_lt.2 (by push_cast; linarith)⟩
  have s2 : ¬ c - h < 0 → 0 ≤ ⌊c - h⌋ := fun q => Int.floor_nonneg.2 (by linarith)
  have s3 : (c - h) + ((2 * h : ℤ) : ℝ) < 0 → ⌊c - h⌋ + 2 * h < 0 ∧ ⌈c - h⌉ + 2 * h ≤ 0 := fun q =>
    ⟨by have : ⌊c - h⌋ < -(2 * (h : ℤ)) := Int.floor_lt.2 (by push_cast at q ⊢; linarith)
        omega,
     by have : ⌈c - h⌉ ≤ -(2 * (h : ℤ)) := Int.ceil_le.2 (by push_cast at q ⊢; linarith)
        omega⟩
  have s4 : ¬ (c - h) + ((2 * h : ℤ) : ℝ) < 0 → 0 ≤ ⌊c - h⌋ + 2 * h := fun q => by
    have : -(2 * (h : ℤ)) ≤ ⌊c - h⌋ := Int.le_floor.2 (by push_cast at q ⊢; linarith)
    omega
  have s5 : 0 ≤ c - h ↔ ¬ c - h < 0 := not_lt.symm
  rw [s5]
  generalize ⌊c - (h:ℝ)⌋ = F at *
  generalize ⌈c - (h:ℝ)⌉ = G at *
  unfold bound
  by_cases q1 : c - h < 0
  · have := s1 q1
    by_cases q2 : (c - h) + ((2 * h : ℤ) : ℝ) < 0
    · have := s3 q2
      simp only [q1, q2, if_true]
      split_ifs <;> simp <;> omega
    · have := s4 q2
      simp only [q1, q2, if_true, if_false]
      split_ifs <;> simp <;> omega
  · have := s2 q1
    by_cases q2 : (c - h) + ((2 * h : ℤ) : ℝ) < 0
    · have := s3 q2
      omega
    · simp only [q1, q2, if_false]
      split_ifs <;> simp <;> omega

/-- C469 (partial): a window of `2h` pixels is extracted exactly when, on each axis, it is inside the image or wholly before its first
pixel, by less than the size of the image: a window that crosses a border is refused. -/
theorem extract_iff_partial (im : Im) (nY nX h : ℕ) (y x : ℝ) (h0 : 0 < h) :
    (∃ sub, extract im nY nX y x (2 * h) = .ok sub) ↔
      (((h : ℝ) ≤ y ∧ y < nY + 1 - h) ∨ (-(nY : ℝ) - 1 < y - h ∧ y + h ≤ -1)) ∧
      (((h : ℝ) ≤ x ∧ x < nX + 1 - h) ∨ (-(nX : ℝ) - 1 < x - h ∧ x + h ≤ -1)) := by
  rw [← cut_iff nY h y h0, ← cut_iff nX h x h0]
  unfold extract
  simp only
  split_ifs with q
  · exact ⟨fun _ => q, fun _ => ⟨_, rfl⟩⟩
  · exact ⟨fun ⟨s, hs⟩ => (by cases hs), fun hh => absurd hh q⟩
/-- C100: a candidate of a tile, with the border of half the (even) window, is always extracted. -/
theorem candidate_extracted (im : Im) (nY nX n yt xt h : ℕ) (hn : 0 < n) (hyt : yt < n) (hxt : xt < n) (lo hi : ℝ) (s : Star)
    (hk : Keep (yt * (nY / n) + nY / n / 2) (xt * (nX / n) + nX / n / 2) (nY / n) (nX / n) (2 * h / 2) lo hi s) :
    ∃ sub, extract im nY nX s.y s.x (2 * h) = .ok sub := by
  obtain ⟨⟨h1, h2⟩, ⟨h3, h4⟩, _⟩ := hk
  have hh : 2 * h / 2 = h := by omega
  rw [hh] at h1 h2 h3 h4
  have key : ∀ N z, z < n → (0:ℝ) ≤ ((z * (N / n) : ℕ) : ℝ) ∧ ((z * (N / n) + N / n / 2 + N / n / 2 : ℕ) : ℝ) ≤ N := by
    intro N z hz
    have := Nat.div_mul_le_self N n
    refine ⟨Nat.cast_nonneg _, ?_⟩
    exact_mod_cast (by
      have : (z + 1) * (N / n) ≤ N := by nlinarith
      have e : (z + 1) * (N / n) = z * (N / n) + N / n := by ring
      omega)
  obtain ⟨a1, a2⟩ := key nY yt hyt
  obtain ⟨b1, b2⟩ := key nX xt hxt
  push_cast at *
  obtain ⟨sub, hs, _⟩ := extract_even im nY nX s.y s.x h (by linarith) (by linarith) (by linarith) (by linarith)
  exact ⟨sub, hs⟩

/-- Rows cut for an odd window, for a star between `h` and `N - h`: all of them exactly from `h + 1/2` on. -/
theorem cut_odd_iff (N h : ℕ) (c : ℝ) (h1 : (h : ℝ) < c) (h2 : c < N - h) :
    (cut N c (2 * h + 1)).2 = 2 * h + 1 ↔ (h : ℝ) + 1 / 2 ≤ c := by
  have e1 : c - ((2 * h + 1 : ℕ) : ℝ) / 2 = c - h - 1 / 2 := by push_cast; ring
  have e2 : c + ((2 * h + 1 : ℕ) : ℝ) / 2 = (c - h - 1 / 2) + ((2 * h + 1 : ℤ) : ℝ) := by push_cast; ring
  have t2 : trunc ((c - h - 1 / 2) + ((2 * h + 1 : ℤ) : ℝ)) = ⌊c - h - 1 / 2⌋ + (2 * h + 1) := by
    unfold trunc
    rw [if_neg (by push_cast; have : (0:ℝ) ≤ h := Nat.cast_nonneg h; linarith), Int.floor_add_intCast]
  unfold cut
  simp only [e1, e2, t2]
  by_cases hc : (h : ℝ) + 1 / 2 ≤ c
  · have f0 : 0 ≤ ⌊c - h - 1 / 2⌋ := Int.floor_nonneg.2 (by linarith)
    have f1 : ⌊c - h - 1 / 2⌋ < (N : ℤ) - 2 * h := by rw [Int.floor_lt]; push_cast; linarith
    have t1 : trunc (c - h - 1 / 2) = ⌊c - h - 1 / 2⌋ := by unfold trunc; rw [if_neg (by linarith)]
    rw [t1]
    simp only [hc, iff_true]
    unfold bound
    rw [if_neg (by omega), if_neg (by omega)]
    omega
  · have f0 : ⌊c - h - 1 / 2⌋ = -1 := by
      rw [Int.floor_eq_iff]; push_cast; constructor <;> linarith
    have t1 : trunc (c - h - 1 / 2) = 0 := by
      unfold trunc
      rw [if_pos (by linarith), Int.ceil_eq_iff]; push_cast; constructor <;> linarith
    rw [t1, f0]
    simp only [hc, iff_false]
    unfold bound
    rw [if_neg (by omega), if_neg (by omega)]
    omega

/-- C292 (partial): a candidate of a tile, with the border of half the odd window, is extracted exactly when it is not in the half pixel
that follows the border of the image. -/
theorem candidate_odd_iff_partial (im : Im) (nY nX n yt xt h : ℕ) (hn : 0 < n) (hyt : yt < n) (hxt : xt < n) (lo hi : ℝ) (s : Star)
    (hk : Keep (yt * (nY / n) + nY / n / 2) (xt * (nX / n) + nX / n / 2) (nY / n) (nX / n) ((2 * h + 1) / 2) lo hi s) :
    (∃ sub, extract im nY nX s.y s.x (2 * h + 1) = .ok sub) ↔ (h : ℝ) + 1 / 2 ≤ s.y ∧ (h : ℝ) + 1 / 2 ≤ s.x := by
  obtain ⟨⟨h1, h2⟩, ⟨h3, h4⟩, _⟩ := hk
  have hh : (2 * h + 1) / 2 = h := by omega
  rw [hh] at h1 h2 h3 h4
  have key : ∀ N z, z < n → (0:ℝ) ≤ ((z * (N / n) : ℕ) : ℝ) ∧ ((z * (N / n) + N / n / 2 + N / n / 2 : ℕ) : ℝ) ≤ N := by
    intro N z hz
    have := Nat.div_mul_le_self N n
    refine ⟨Nat.cast_nonneg _, ?_⟩
    exact_mod_cast (by
      have : (z + 1) * (N / n) ≤ N := by nlinarith
      have e : (z + 1) * (N / n) = z * (N / n) + N / n := by ring
      omega)
  obtain ⟨a1, a2⟩ := key nY yt hyt
  obtain ⟨b1, b2⟩ := key nX xt hxt
  push_cast at *
  rw [← cut_odd_iff nY h s.y (by linarith) (by linarith), ← cut_odd_iff nX h s.x (by linarith) (by linarith)]
  unfold extract
  simp only
  split_ifs with q
  · exact ⟨fun _ => q, fun _ => ⟨_, rfl⟩⟩
  · exact ⟨fun ⟨s, hs⟩ => (by cases hs), fun hh => absurd hh q⟩

/-- C292: with an odd number of pixels the truncation can lose a pixel at the border: a star of the first tile, inside the
border, is not extracted. -/
theorem extract_odd_violation : ∃ (s : Star), Keep 4 4 8 8 (3 / 2) 0 10 s ∧
    ∀ im, extract im 8 8 s.y s.x 3 = .error .valueError := by
  refine ⟨⟨5/4, 5/4, 5⟩, ⟨⟨by norm_num, by norm_num⟩, ⟨by norm_num, by norm_num⟩, by norm_num, by norm_num⟩, fun im => ?_⟩
  have c : cut 8 (5/4) 3 = (0, 2) := by
    have e1 : (5/4 : ℝ) - ((3 : ℕ) : ℝ) / 2 = -(1/4) := by norm_num
    have e2 : (5/4 : ℝ) + ((3 : ℕ) : ℝ) / 2 = 11/4 := by norm_num
    have t1 : trunc (-(1/4 : ℝ)) = 0 := by
      unfold trunc; rw [if_pos (by norm_num), Int.ceil_eq_iff]; norm_num
    have t2 : trunc (11/4 : ℝ) = 2 := by
      unfold trunc; rw [if_neg (by norm_num), Int.floor_eq_iff]; norm_num
    unfold cut
    simp only [e1, e2, t1, t2]
    decide
  unfold extract
  simp [c]

/-! ### Grid -/

/-- C101: for an even tile size that divides the image (itself of even size), the points of interpolation are the centres
of the tiles, from the centre of the image. -/
theorem grid_centers (m n k : ℕ) (hn : 1 ≤ n) (hk : k < n) :
    gridPoint (2 * m * n) n k = ((k * (2 * m * n / n) + 2 * m * n / n / 2 : ℕ) : ℝ) - ((2 * m * n / 2 : ℕ) : ℝ) := by
  have hn0 : (n : ℝ) ≠ 0 := by positivity
  have e1 : ((2 * m * n : ℕ) : ℝ) / n / 2 = (m : ℕ) := by push_cast; field_simp
  have e2 : (-((2 * m * n : ℕ) : ℤ)) / 2 = -((m * n : ℕ) : ℤ) := by
    have : (-((2 * m * n : ℕ) : ℤ)) = 2 * (-((m * n : ℕ) : ℤ)) := by push_cast; ring
    rw [this]; omega
  have e3 : 2 * m * n / n = 2 * m := Nat.mul_div_cancel _ (by omega)
  have e4 : 2 * m * n / 2 = m * n := by rw [mul_assoc]; omega
  have e5 : 2 * m / 2 = m := by omega
  unfold gridPoint
  simp only [e1, e2, e3, e4, e5, Int.floor_natCast]
  split_ifs with h1
  · have : k = 0 := by omega
    subst this; subst h1
    push_cast; ring
  · have : (n : ℝ) - 1 ≠ 0 := by
      have : (2 : ℝ) ≤ n := by exact_mod_cast (by omega : 2 ≤ n)
      linarith
    push_cast
    field_simp
    ring

/-- C293: for an odd tile size, the points are not the centres: an image of six pixels cut in two tiles of three. -/
theorem grid_violation : gridPoint 6 2 1 = 2 ∧ ((1 * (6 / 2) + 6 / 2 / 2 : ℕ) : ℝ) - ((6 / 2 : ℕ) : ℝ) = 1 := by
  refine ⟨?_, by norm_num⟩
  have : ⌊((6 : ℕ) : ℝ) / (2 : ℕ) / 2⌋ = 1 := by rw [Int.floor_eq_iff]; norm_num
  unfold gridPoint
  simp only [this]
  norm_num

/-- C293 (partial): for a tile of `2m+1` pixels, the point of tile `k` is off the centre of the tile by `k/(n-1)` pixel when the number
of tiles is even, and by `k/(n-1) - 1` when it is odd: right at one end of the image, one pixel off at the other. -/
theorem grid_odd_partial (m n k : ℕ) (hn : 2 ≤ n) :
    gridPoint ((2 * m + 1) * n) n k = ((k * ((2 * m + 1) * n / n) + (2 * m + 1) * n / n / 2 : ℕ) : ℝ) - (((2 * m + 1) * n / 2 : ℕ) : ℝ) +
      (k / ((n : ℝ) - 1) - if n % 2 = 1 then 1 else 0) := by
  have hn0 : (n : ℝ) ≠ 0 := by positivity
  have hn2 : (2 : ℝ) ≤ n := by exact_mod_cast hn
  have hn1 : (n : ℝ) - 1 ≠ 0 := by linarith
  have e1 : ⌊(((2 * m + 1) * n : ℕ) : ℝ) / n / 2⌋ = m := by
    have : (((2 * m + 1) * n : ℕ) : ℝ) / n / 2 = m + 1 / 2 := by push_cast; field_simp
    rw [this, Int.floor_eq_iff]; push_cast; constructor <;> linarith
  have e3 : (2 * m + 1) * n / n = 2 * m + 1 := Nat.mul_div_cancel _ (by omega)
  have e5 : (2 * m + 1) / 2 = m := by omega
  unfold gridPoint
  simp only [e1, e3, e5]
  rw [if_neg (by omega)]
  rcases Nat.even_or_odd' n with ⟨q, hq | hq⟩
  · have a : (2 * m + 1) * n / 2 = (2 * m + 1) * q := by
      rw [hq, show (2 * m + 1) * (2 * q) = 2 * ((2 * m + 1) * q) by ring]; omega
    have b : (-(((2 * m + 1) * n : ℕ) : ℤ)) / 2 = -(((2 * m + 1) * q : ℕ) : ℤ) := by
      rw [hq, show (2 * m + 1) * (2 * q) = 2 * ((2 * m + 1) * q) by ring]; omega
    rw [a, b, if_neg (by omega)]
    have hq' : (n : ℝ) = 2 * q := by rw [hq]; push_cast; ring
    push_cast
    field_simp
    rw [hq']
    ring
  · have a : (2 * m + 1) * n / 2 = (2 * m + 1) * q + m := by
      rw [hq, show (2 * m + 1) * (2 * q + 1) = 2 * ((2 * m + 1) * q + m) + 1 by ring]; omega
    have b : (-(((2 * m + 1) * n : ℕ) : ℤ)) / 2 = -(((2 * m + 1) * q + m + 1 : ℕ) : ℤ) := by
      rw [hq, show (2 * m + 1) * (2 * q + 1) = 2 * ((2 * m + 1) * q + m) + 1 by ring]; omega
    rw [a, b, if_pos (by omega)]
    have hq' : (n : ℝ) = 2 * q + 1 := by rw [hq]; push_cast; ring
    push_cast
    field_simp
    rw [hq']
    ring

/-! ### Spatial variations -/

theorem zipWith_sum_bounds (lo hi : ℝ) : ∀ (v e : List ℝ), v.length = e.length → (∀ x ∈ e, 0 < x) → (∀ x ∈ v, lo ≤ x ∧ x ≤ hi) →
    lo * (e.map fun e => 1 / e).sum ≤ (List.zipWith (fun v e => v * 1 / e) v e).sum ∧
    (List.zipWith (fun v e => v * 1 / e) v e).sum ≤ hi * (e.map fun e => 1 / e).sum := by
  intro v
  induction v with
  | nil => intro e h _ _; have : e = [] := List.length_eq_zero_iff.1 h.symm; subst this; simp
  | cons a v ih =>
    intro e h he hv
    cases e with
    | nil => simp at h
    | cons b e =>
      obtain ⟨h1, h2⟩ := ih e (by simpa using h) (fun x hx => he x (by simp [hx])) (fun x hx => hv x (by simp [hx]))
      have hb := he b (by simp)
      obtain ⟨h3, h4⟩ := hv a (by simp)
      simp only [List.zipWith_cons_cons, List.sum_cons, List.map_cons]
      have hb' : 0 < 1 / b := by positivity
      have e' : a * 1 / b = a * (1 / b) := by ring
      rw [e']
      constructor <;> nlinarith

/-- C102: for positive errors, the field value of a parameter is between the bounds shared by its estimates. -/
theorem wMean_bounds (v e : List ℝ) (lo hi : ℝ) (hl : v.length = e.length) (h0 : e ≠ []) (he : ∀ x ∈ e, 0 < x)
    (hv : ∀ x ∈ v, lo ≤ x ∧ x ≤ hi) : ∃ m, wMean v e = some m ∧ lo ≤ m ∧ m ≤ hi := by
  have hne : ¬(0 : ℝ) ∈ e := fun h => lt_irrefl _ (he 0 h)
  have hS : 0 < (e.map fun e => 1 / e).sum := by
    apply List.sum_pos
    · intro x hx
      obtain ⟨y, hy, rfl⟩ := List.mem_map.1 hx
      have := he y hy
      positivity
    · simpa using h0
  obtain ⟨h1, h2⟩ := zipWith_sum_bounds lo hi v e hl he hv
  refine ⟨_, by unfold wMean; rw [if_neg hne], ?_, ?_⟩
  · rw [le_div_iff₀ hS]; exact h1
  · rw [div_le_iff₀ hS]; exact h2

/-- C294: an error of minus one (given when there is no confidence interval) beside a normal one takes the value out of the
range of the estimates. -/
theorem wMean_violation : wMean [1, 2] [-1, 1 / 2] = some 3 := by
  unfold wMean
  rw [if_neg (by norm_num)]
  norm_num

/-- C294 (violation): beside an error of minus one, any other estimate of error below one leaves a field value beyond itself: the
value is outside the range of the estimates for every pair of different estimates. -/
theorem wMean_outside_violation (a b e : ℝ) (h0 : 0 < e) (h1 : e < 1) (hab : a ≠ b) : ∃ m, wMean [a, b] [-1, e] = some m ∧
    (a < b → b < m) ∧ (b < a → m < b) := by
  have hne : ¬(0 : ℝ) ∈ [-1, e] := by simp [h0.ne]
  refine ⟨_, by unfold wMean; rw [if_neg hne], ?_⟩
  have hd : (0 : ℝ) < 1 - e := by linarith
  have key : (List.zipWith (fun v e : ℝ => v * 1 / e) [a, b] [-1, e]).sum / (([-1, e] : List ℝ).map fun e => 1 / e).sum = (b - a * e) / (1 - e) := by
    simp only [List.zipWith_cons_cons, List.zipWith_nil_left, List.sum_cons, List.sum_nil, List.map_cons, List.map_nil, List.zipWith_nil_right]
    have h2 : (1 : ℝ) / -1 + (1 / e + 0) ≠ 0 := by
      have : (1 : ℝ) < 1 / e := by rw [lt_div_iff₀ h0]; linarith
      have : (0 : ℝ) < 1 / -1 + (1 / e + 0) := by norm_num; simpa using this
      exact this.ne'
    rw [div_eq_div_iff h2 hd.ne']
    field_simp
    ring
  rw [key]
  constructor
  · intro h; rw [lt_div_iff₀ hd]; nlinarith
  · intro h; rw [div_lt_iff₀ hd]; nlinarith

/-- C294: a parameter that was kept fixed has an error of zero, and no field value. -/
theorem wMean_zero (v e : List ℝ) (h : (0 : ℝ) ∈ e) : wMean v e = none := by
  unfold wMean; rw [if_pos h]

/-- C102: a parameter without variation gets the same value at every position, whatever the order of the model. -/
theorem polyval_const (order : ℕ) (c r : ℝ) : polyval (List.replicate order 0 ++ [c]) r = c := by
  unfold polyval
  rw [List.foldl_append]
  have : ∀ n, List.foldl (fun acc c => acc * r + c) 0 (List.replicate n (0 : ℝ)) = 0 := by
    intro n
    induction n with
    | zero => rfl
    | succ n ih => rw [List.replicate_succ, List.foldl_cons]; simpa using ih
  rw [this]
  simp

/-! ### Cases that meet the hypotheses -/

example : ∃ cube big, tiles (fun i j => (i : ℝ) + 10 * j) 6 6 3 = .ok (2, 2, cube) ∧ cubeToImage cube 2 2 = .ok (6, big) ∧
    ∀ a b, a < 6 → b < 6 → big a b = a + 10 * b := tiles_roundtrip _ 6 3 (by norm_num) (by norm_num)

example : ∃ w : ℕ → ℝ, (∀ k ∈ [0, 1], wOut (fun i => i + 1) [0, 1] k = some (w k)) ∧ (∀ k ∈ [0, 1], 0 < w k) ∧
    ([0, 1].map w).sum = 1 := weights_sum _ _ (by simp) fun i _ => by positivity

example : ∃ m, wMean [1, 2, 3] [1, 2, 1] = some m ∧ 1 ≤ m ∧ m ≤ 3 :=
  wMean_bounds _ _ _ _ rfl (by simp) (by simp) (by norm_num)

example (im : Im) : ∃ sub, extract im 8 8 (5/2) 4 (2 * 2) = .ok sub ∧ ∀ i j, sub i j = im (⌊(5/2 : ℝ)⌋.toNat - 2 + i) (⌊(4 : ℝ)⌋.toNat - 2 + j) :=
  extract_even im 8 8 _ _ 2 (by norm_num) (by norm_num) (by norm_num) (by norm_num)

/-! ### Cases that meet the hypotheses -/

/-- A case meeting the hypotheses of `quality_inverted`. -/
example : 1 / dOut (wMse (fun i => (i : ℝ) + 1) 2 1) 0 0 (fun i => if i = 0 then 1 else 0) (fun i => if i = 0 then 0 else 1) 0 * 2 =
    1 / dOut (wMse (fun i => (i : ℝ) + 1) 2 1) 0 0 (fun i => if i = 0 then 1 else 0) (fun i => if i = 0 then 0 else 1) 1 * 1 := by
  have := quality_inverted (fun i => (i : ℝ) + 1) 2 0 1 0 0 (fun i => if i = 0 then 1 else 0) (fun i => if i = 0 then 0 else 1)
    (fun i _ => by positivity) (by norm_num) (by norm_num) (by norm_num) (by norm_num)
  norm_num at this ⊢
  linarith

/-! ### Cases that meet the hypotheses -/

/-- A case meeting the hypotheses of `centers_spec`. -/
example : (centers 100 60 2).getD (1 * 2 + 0) (0, 0) = (1 * 50 + 25, 0 * 30 + 15) :=
  centers_spec 100 60 2 1 0 (by norm_num) (by norm_num) (by norm_num)

/-- A case meeting the hypotheses of `interp_spec`. -/
example : ∃ out, interp (fun k _ _ => (k : ℝ) + 1 - k) (fun k => (k : ℝ) + 1) [0, 2, 3] = some out ∧ total 2 out = 4 := by
  obtain ⟨out, h, ht, -⟩ := interp_spec 2 (fun k _ _ => (k : ℝ) + 1 - k) (fun k => (k : ℝ) + 1) [0, 2, 3] (by simp)
    (by intro i _; positivity) 4 (by intro i _; norm_num [total, Finset.sum_range_succ])
  exact ⟨out, h, ht⟩

/-- A case meeting the hypotheses of `candidate_extracted`. -/
example : ∃ sub, extract (fun _ _ => 1) 100 100 26 24 (2 * 5) = .ok sub :=
  candidate_extracted (fun _ _ => 1) 100 100 2 0 0 5 (by norm_num) (by norm_num) (by norm_num) 10 15 ⟨26, 24, 12⟩
    (by norm_num [Keep])

/-- A star ten pixels before the image, taken from the other corner; a window that crosses the border, refused. -/
example (im : Im) : ∃ sub, extract im 100 100 (-((10 : ℕ) : ℝ)) (-((10 : ℕ) : ℝ)) (2 * 4) = .ok sub ∧ ∀ i j, sub i j = im (86 + i) (86 + j) :=
  extract_outside_violation im 100 10 4 (by norm_num) (by norm_num) (by norm_num)
example (im : Im) : ¬∃ sub, extract im 100 100 2 50 (2 * 4) = .ok sub := by
  rw [extract_iff_partial im 100 100 4 2 50 (by norm_num)]
  norm_num

end P3.FieldFit
