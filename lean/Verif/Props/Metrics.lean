import Verif.Model.Metrics
import Mathlib.Tactic.IntervalCases
import Verif.Props.Energy
import Mathlib.Algebra.BigOperators.Field
/-
Properties C68 (flux), C69 (wavelengths), C70 (interpolation), C71 (MSE), C72 (FWHM), C73 (in-place work).
-/
namespace P3.Metrics
open Finset P3.Images

/-! ### C68: flux and background -/

theorem flat_length (im : Img ℝ) : (flat im).length = im.nx * im.ny := by
  unfold flat; simp [List.length_flatMap]

theorem mem_flat (im : Img ℝ) (x : ℝ) : x ∈ flat im ↔ ∃ i < im.nx, ∃ j < im.ny, im.px i j = x := by
  unfold flat; simp [List.mem_flatMap]

theorem sorted_zero (s : List ℝ) (hs : s.Pairwise (· ≤ ·)) (hn : ∀ x ∈ s, 0 ≤ x) (k : ℕ) (hk : k < s.length)
    (hc : k < s.count 0) : s[k] = 0 := by
  by_contra hne
  have hpos : 0 < s[k] := lt_of_le_of_ne (hn _ (List.getElem_mem _)) (Ne.symm hne)
  have hd : (s.drop k).count 0 = 0 := by
    rw [List.count_eq_zero]
    intro h0
    obtain ⟨j, hj, e⟩ := List.getElem_of_mem h0
    rw [List.length_drop] at hj
    rw [List.getElem_drop] at e
    have : s[k] ≤ s[k + j] := by
      rcases Nat.eq_zero_or_pos j with rfl | h
      · exact le_rfl
      · exact List.pairwise_iff_getElem.1 hs k (k + j) _ _ (by omega)
    linarith
  have : s.count 0 = (s.take k).count 0 := by
    conv_lhs => rw [← List.take_append_drop k s]
    rw [List.count_append, hd, Nat.add_zero]
  have h2 : (s.take k).count 0 ≤ (s.take k).length := List.count_le_length
  rw [List.length_take] at h2
  omega

/-- The median of non-negative values more than half of which are zero is zero. -/
theorem median_zero (l : List ℝ) (hn : ∀ x ∈ l, 0 ≤ x) (hc : l.length < 2 * l.count 0) : median l = 0 := by
  unfold median
  set s := l.mergeSort (fun a b => decide (a ≤ b)) with hs
  have perm : s.Perm l := List.mergeSort_perm l _
  have sorted : s.Pairwise (· ≤ ·) := by
    have := List.pairwise_mergeSort (le := fun a b : ℝ => decide (a ≤ b))
      (fun a b c h1 h2 => by simp only [decide_eq_true_eq] at *; exact h1.trans h2)
      (fun a b => by simp only [Bool.or_eq_true, decide_eq_true_eq]; exact le_total a b) l
    exact this.imp (by simp)
  have len : s.length = l.length := perm.length_eq
  have cnt : s.count 0 = l.count 0 := perm.count_eq 0
  have nn : ∀ x ∈ s, 0 ≤ x := fun x hx => hn x (perm.mem_iff.1 hx)
  have at0 : ∀ k, k < l.count 0 → s.getD k 0 = 0 := by
    intro k hk
    have hk' : k < s.length := lt_of_lt_of_le (by rw [← cnt] at hk; exact hk) List.count_le_length
    rw [getD_eq hk']
    exact sorted_zero s sorted nn k hk' (by rw [cnt]; exact hk)
  have hpos : 0 < l.count 0 := by omega
  split_ifs
  · exact at0 _ (by omega)
  · simp only
    rw [at0 _ (by omega), at0 _ (by omega)]; norm_num

/-- Number of zero pixels of the masked image is at least the number of pixels inside the circle. -/
noncomputable def insideCount (n : ℕ) : ℕ :=
  open Classical in ((List.range n).flatMap fun i => (List.range n).map fun j => (i, j)).countP
    fun p => decide (¬ outside n p.1 p.2)

theorem flat_eq_map (im : Img ℝ) :
    flat im = ((List.range im.nx).flatMap fun i => (List.range im.ny).map fun j => (i, j)).map
      fun p => im.px p.1 p.2 := by
  unfold flat
  rw [List.map_flatMap]
  simp [Function.comp_def]

theorem inside_le_zero (im : Img ℝ) (h : im.nx = im.ny) :
    insideCount im.nx ≤ (flat (masked im)).count 0 := by
  classical
  rw [flat_eq_map]
  unfold insideCount
  rw [List.count, List.countP_map]
  have e1 : (masked im).nx = im.nx := rfl
  have e2 : (masked im).ny = im.nx := h.symm
  rw [e1, e2]
  refine List.countP_mono_left fun p _ hp => ?_
  simp only [decide_eq_true_eq, Function.comp_apply] at hp ⊢
  simp [masked, hp]

theorem sum_flat (im : Img ℝ) : (flat im).sum = flux im := by
  unfold flat flux
  rw [← list_range_sum]
  simp only [← list_range_sum]
  induction List.range im.nx with
  | nil => simp
  | cons i l ih => simp [List.flatMap_cons, List.sum_append, ih]

/-- C68 (violation): for a square non-negative image with more pixels inside the circle than outside, the
median is taken over the masked-out zeros too and the background is always zero, whatever the sky: the
flux is just the sum of the pixels. -/
theorem getFlux_background_zero (im : Img ℝ) (h : im.nx = im.ny)
    (hv : ∀ i < im.nx, ∀ j < im.ny, 0 ≤ im.px i j) (hc : im.nx * im.nx < 2 * insideCount im.nx) :
    getFlux im = .ok (flux im, 0) := by
  have hm : median (flat (masked im)) = 0 := by
    apply median_zero
    · intro x hx
      obtain ⟨i, hi, j, hj, rfl⟩ := (mem_flat _ _).1 hx
      unfold masked
      simp only
      split_ifs
      · exact hv i hi j hj
      · exact le_rfl
    · have := inside_le_zero im h
      rw [flat_length]
      have e1 : (masked im).nx = im.nx := rfl
      have e2 : (masked im).ny = im.nx := h.symm
      rw [e1, e2]
      omega
  unfold getFlux
  rw [if_neg (not_not.2 h)]
  simp only [hm, sub_zero]
  rfl

/-- C68 (violation): non-square images are refused. -/
theorem getFlux_rectangular (im : Img ℝ) (h : im.nx ≠ im.ny) : getFlux im = .error .broadcast := by
  unfold getFlux; rw [if_pos h]

/-- C68 (part): on square images the flux is the sum of the pixels minus the number of pixels times the
background reported. Missing: that the background is the level of the sky, which is false, see
`getFlux_background_zero`. -/
theorem getFlux_partial (im : Img ℝ) (h : im.nx = im.ny) :
    ∃ bg, getFlux im = .ok (flux im - im.nx * im.ny * bg, bg) := by
  refine ⟨median (flat (masked im)), ?_⟩
  unfold getFlux
  rw [if_neg (not_not.2 h)]
  simp only [sum_sub_distrib, sum_const, card_range, nsmul_eq_mul]
  congr 2
  unfold flux
  ring

theorem coord3 : coord 3 0 = -1 ∧ coord 3 1 = 0 ∧ coord 3 2 = 1 := by
  norm_num [coord, linspace, List.range_succ]

theorem outside3 (i j : ℕ) (hi : i < 3) (hj : j < 3) : outside 3 i j ↔ i ≠ 1 ∧ j ≠ 1 := by
  obtain ⟨c0, c1, c2⟩ := coord3
  unfold outside
  rw [Real.lt_sqrt (by norm_num)]
  obtain rfl | rfl | rfl : i = 0 ∨ i = 1 ∨ i = 2 := by omega
  all_goals obtain rfl | rfl | rfl : j = 0 ∨ j = 1 ∨ j = 2 := by omega
  all_goals simp only [c0, c1, c2]; norm_num

/-- C68 (violation, concrete): a 3x3 image of pure sky of level 7 has a flux of 63 instead of 0. -/
theorem getFlux_violation : getFlux ⟨3, 3, fun _ _ => 7⟩ = .ok (63, 0) := by
  have hc : insideCount 3 = 5 := by
    classical
    have : ∀ p ∈ ((List.range 3).flatMap fun i => (List.range 3).map fun j => (i, j)),
        ((decide (¬ outside 3 p.1 p.2)) = true ↔ decide (p.1 = 1 ∨ p.2 = 1) = true) := by
      intro p hp
      simp only [List.mem_flatMap, List.mem_map, List.mem_range] at hp
      obtain ⟨i, hi, j, hj, rfl⟩ := hp
      rw [decide_eq_true_iff, decide_eq_true_iff, outside3 i j hi hj]
      tauto
    unfold insideCount
    rw [show (5:ℕ) = ((List.range 3).flatMap fun i => (List.range 3).map fun j => (i, j)).countP
      (fun p => decide (p.1 = 1 ∨ p.2 = 1)) from by decide]
    exact List.countP_congr this
  rw [getFlux_background_zero _ rfl (fun _ _ _ _ => by norm_num) (by simp only [hc]; norm_num)]
  norm_num [flux]

/-! ### C71: mean square error -/

/-- The window compared: the `nbox` central pixels. -/
theorem mseWindow_size (x : Img ℝ) (nbox : ℕ) (h0 : 0 < nbox) (h1 : nbox ≤ x.nx) (h2 : nbox ≤ x.ny) :
    (mseWindow x x.nx x.ny nbox).nx = nbox ∧ (mseWindow x x.nx x.ny nbox).ny = nbox ∧
    ∃ a c, (∀ i j, (mseWindow x x.nx x.ny nbox).px i j = x.px (a + i) (c + j)) ∧
      a + nbox + a ≤ x.nx ∧ x.nx ≤ a + nbox + a + 1 ∧ c + nbox + c ≤ x.ny ∧ x.ny ≤ c + nbox + c + 1 := by
  have b0 : (0:ℝ) < nbox := by exact_mod_cast h0
  have k1 : (1:ℝ) ≤ (x.nx:ℝ) / nbox := by rw [le_div_iff₀ b0, one_mul]; exact_mod_cast h1
  have k2 : (1:ℝ) ≤ (x.ny:ℝ) / nbox := by rw [le_div_iff₀ b0, one_mul]; exact_mod_cast h2
  have x0 : (x.nx:ℝ) ≠ 0 := by have : 0 < x.nx := by omega
                               positivity
  have y0 : (x.ny:ℝ) ≠ 0 := by have : 0 < x.ny := by omega
                               positivity
  unfold mseWindow
  rw [if_pos (by omega)]
  obtain ⟨e1, e2, a, c, hp, b1, b2, b3, b4⟩ := crop_spec x _ _ k1 k2
  have f1 : ⌊(x.nx:ℝ) / ((x.nx:ℝ) / nbox)⌋₊ = nbox := by
    rw [show (x.nx:ℝ) / ((x.nx:ℝ) / nbox) = nbox by field_simp, Nat.floor_natCast]
  have f2 : ⌊(x.ny:ℝ) / ((x.ny:ℝ) / nbox)⌋₊ = nbox := by
    rw [show (x.ny:ℝ) / ((x.ny:ℝ) / nbox) = nbox by field_simp, Nat.floor_natCast]
  rw [e1.trans f1] at b1 b2; rw [e2.trans f2] at b3 b4
  exact ⟨e1.trans f1, e2.trans f2, a, c, hp, b1, b2, b3, b4⟩

/-- C71: the mean square error of two images of the same size is zero exactly when they agree on the
window compared (the whole image if `nbox = 0`); it is non-negative when the window has positive flux. -/
theorem getMSE_zero_iff (t e : Img ℝ) (nbox : ℕ) (L1 : Bool) (r : ℝ) (h : getMSE t e nbox L1 = some r) :
    (r = 0 ↔ (mseWindow e t.nx t.ny nbox).Same (mseWindow t t.nx t.ny nbox)) ∧
    (0 < flux (mseWindow t t.nx t.ny nbox) → 0 ≤ r) := by
  unfold getMSE at h
  simp only at h
  set T := mseWindow t t.nx t.ny nbox
  set E := mseWindow e t.nx t.ny nbox
  split_ifs at h with h0 hL
  · push Not at h0
    obtain ⟨hx, hy, hf⟩ := h0
    obtain rfl := Option.some.inj h
    have nn : 0 ≤ ∑ i ∈ range T.nx, ∑ j ∈ range T.ny, |E.px i j - T.px i j| :=
      sum_nonneg fun i _ => sum_nonneg fun j _ => abs_nonneg _
    refine ⟨?_, fun fp => div_nonneg (by positivity) fp.le⟩
    rw [div_eq_zero_iff, or_iff_left hf, mul_eq_zero, or_iff_right (by norm_num : (100:ℝ) ≠ 0),
      sum_eq_zero_iff_of_nonneg fun i _ => sum_nonneg fun j _ => abs_nonneg _]
    constructor
    · intro H
      refine ⟨hx.symm, hy.symm, fun i hi j hj => ?_⟩
      have := (sum_eq_zero_iff_of_nonneg fun j _ => abs_nonneg _).1 (H i (mem_range.2 (hx ▸ hi))) j
        (mem_range.2 (hy ▸ hj))
      rw [abs_eq_zero] at this; linarith
    · rintro ⟨-, -, H⟩ i hi
      refine sum_eq_zero fun j hj => ?_
      rw [H i (hx ▸ mem_range.1 hi) j (hy ▸ mem_range.1 hj), sub_self, abs_zero]
  · push Not at h0
    obtain ⟨hx, hy, hf⟩ := h0
    obtain rfl := Option.some.inj h
    have nn : 0 ≤ ∑ i ∈ range T.nx, ∑ j ∈ range T.ny, (E.px i j - T.px i j) ^ 2 :=
      sum_nonneg fun i _ => sum_nonneg fun j _ => sq_nonneg _
    refine ⟨?_, fun fp => div_nonneg (by positivity) fp.le⟩
    rw [div_eq_zero_iff, or_iff_left hf, mul_eq_zero, or_iff_right (by norm_num : (100:ℝ) ≠ 0),
      Real.sqrt_eq_zero nn, sum_eq_zero_iff_of_nonneg fun i _ => sum_nonneg fun j _ => sq_nonneg _]
    constructor
    · intro H
      refine ⟨hx.symm, hy.symm, fun i hi j hj => ?_⟩
      have := (sum_eq_zero_iff_of_nonneg fun j _ => sq_nonneg _).1 (H i (mem_range.2 (hx ▸ hi))) j
        (mem_range.2 (hy ▸ hj))
      rw [pow_eq_zero_iff (by norm_num)] at this; linarith
    · rintro ⟨-, -, H⟩ i hi
      refine sum_eq_zero fun j hj => ?_
      rw [H i (hx ▸ mem_range.1 hi) j (hy ▸ mem_range.1 hj)]; ring

/-- C71: the error does not depend on the flux unit: scaling both images by the same positive factor leaves
it unchanged. -/
theorem getMSE_scale (t e : Img ℝ) (L1 : Bool) (k : ℝ) (hk : 0 < k) :
    getMSE ⟨t.nx, t.ny, fun i j => k * t.px i j⟩ ⟨e.nx, e.ny, fun i j => k * e.px i j⟩ 0 L1 =
      getMSE t e 0 L1 := by
  unfold getMSE mseWindow
  simp only [ne_eq, not_true_eq_false, if_false]
  have hf : flux ⟨t.nx, t.ny, fun i j => k * t.px i j⟩ = k * flux t := by
    unfold flux; simp only [mul_sum]
  rw [hf]
  have h0 : k * flux t = 0 ↔ flux t = 0 := by rw [mul_eq_zero, or_iff_right hk.ne']
  simp only [h0]
  by_cases h : ¬ t.nx = e.nx ∨ ¬ t.ny = e.ny ∨ flux t = 0
  · rw [if_pos h, if_pos h]
  · rw [if_neg h, if_neg h]
    push Not at h
    have fne : flux t ≠ 0 := h.2.2
    cases L1
    · simp only [Bool.false_eq_true, if_false]
      have : ∑ i ∈ range t.nx, ∑ j ∈ range t.ny, (k * e.px i j - k * t.px i j) ^ 2 =
          k ^ 2 * ∑ i ∈ range t.nx, ∑ j ∈ range t.ny, (e.px i j - t.px i j) ^ 2 := by
        simp only [mul_sum]
        refine sum_congr rfl fun i _ => sum_congr rfl fun j _ => by ring
      rw [this, Real.sqrt_mul (sq_nonneg k), Real.sqrt_sq hk.le]
      congr 1; field_simp
    · simp only [if_true]
      have : ∑ i ∈ range t.nx, ∑ j ∈ range t.ny, |k * e.px i j - k * t.px i j| =
          k * ∑ i ∈ range t.nx, ∑ j ∈ range t.ny, |e.px i j - t.px i j| := by
        simp only [mul_sum]
        refine sum_congr rfl fun i _ => sum_congr rfl fun j _ => ?_
        rw [← mul_sub, abs_mul, abs_of_pos hk]
      rw [this]
      congr 1; field_simp

/-- Non-vacuity. -/
example : getMSE ⟨2, 2, fun _ _ => 1⟩ ⟨2, 2, fun i _ => i⟩ 0 true = some 50 := by
  norm_num [getMSE, mseWindow, flux, sum_range_succ]

/-! ### C69: wavelengths -/

theorem mem_unique (l : List ℝ) (x : ℝ) : x ∈ unique l ↔ x ∈ l := by
  unfold unique; rw [List.mem_dedup, (List.mergeSort_perm l _).mem_iff]

theorem unique_sorted (l : List ℝ) : (unique l).Pairwise (· < ·) := by
  have h1 : (unique l).Pairwise (· ≤ ·) := by
    have := List.pairwise_mergeSort (le := fun a b : ℝ => decide (a ≤ b))
      (fun a b c h1 h2 => by simp only [decide_eq_true_eq] at *; exact h1.trans h2)
      (fun a b => by simp only [Bool.or_eq_true, decide_eq_true_eq]; exact le_total a b) l
    exact (this.imp (by simp)).sublist (List.dedup_sublist _)
  have h2 : (unique l).Nodup := List.nodup_dedup _
  exact h1.imp₂ (fun _ _ => lt_of_le_of_ne) h2

theorem linspace_length (a b : ℝ) (n : ℕ) : (linspace a b n).length = n := by simp [linspace]

theorem wvlLoop_eq (bw : ℝ) (nBin : ℕ) (cs : List ℝ) (done : List ℝ) (j : ℕ) (hd : done.length = j * nBin) :
    wvlLoop bw nBin cs j (done ++ List.replicate (nBin * cs.length) 0) =
      .ok (done ++ cs.flatMap fun c => linspace (c - bw / 2) (c + bw / 2) nBin) := by
  induction cs generalizing done j with
  | nil => simp [wvlLoop]
  | cons c cs ih =>
    unfold wvlLoop
    have hlen : (done ++ List.replicate (nBin * (c :: cs).length) (0:ℝ)).length =
        j * nBin + nBin * (cs.length + 1) := by simp [hd]
    have hge : nBin ≤ nBin * (cs.length + 1) := Nat.le_mul_of_pos_right _ (by omega)
    have hj1 : (j + 1) * nBin = j * nBin + nBin := by ring
    have e : assignSlice (done ++ List.replicate (nBin * (c :: cs).length) 0) (j * nBin) ((j + 1) * nBin)
        (linspace (c - bw / 2) (c + bw / 2) nBin) =
        .ok (done ++ linspace (c - bw / 2) (c + bw / 2) nBin ++ List.replicate (nBin * cs.length) 0) := by
      unfold assignSlice
      simp only [hlen]
      rw [if_pos]
      · congr 1
        rw [min_eq_left (by omega), min_eq_left (by omega), max_eq_right (by omega)]
        congr 1
        · congr 1
          rw [List.take_append_of_le_length (by omega), ← hd, List.take_length]
        · rw [List.drop_append, List.drop_eq_nil_of_le (by omega), List.nil_append, List.drop_replicate]
          congr 1
          rw [hd, hj1, List.length_cons, Nat.mul_succ]; omega
      · rw [linspace_length, min_eq_left (by omega), min_eq_left (by omega)]; omega
    rw [e]
    show wvlLoop bw nBin cs (j + 1) _ = _
    rw [ih (done ++ linspace (c - bw / 2) (c + bw / 2) nBin) (j + 1)
      (by rw [List.length_append, hd, linspace_length]; ring)]
    simp [List.flatMap_cons]

/-- C69: the wavelength vector always exists and is, for each distinct source wavelength in increasing
order, the block of `nBin` evenly spaced wavelengths over the bandwidth centred on it. -/
theorem wavelengthVector_spec (src : List ℝ) (bw : ℝ) (nBin : ℕ) :
    ∃ cen : List ℝ, cen.Pairwise (· < ·) ∧ (∀ c, c ∈ cen ↔ c ∈ src) ∧
      wavelengthVector src bw nBin =
        .ok (cen.flatMap fun c => linspace (c - bw / 2) (c + bw / 2) nBin) := by
  refine ⟨unique src, unique_sorted src, mem_unique src, ?_⟩
  unfold wavelengthVector
  simpa using wvlLoop_eq bw nBin (unique src) [] 0 (by simp)

/-- C69: every wavelength of a block is within half the bandwidth of its centre; with at least two bins the
block starts and ends at the edges of the band and is symmetric about the centre. -/
theorem block_spec (c bw : ℝ) (hb : 0 ≤ bw) (n : ℕ) (hn : 2 ≤ n) (i : ℕ) (hi : i < n) :
    let b := linspace (c - bw / 2) (c + bw / 2) n
    |b.getD i 0 - c| ≤ bw / 2 ∧ b.getD 0 0 = c - bw / 2 ∧ b.getD (n - 1) 0 = c + bw / 2 ∧
      b.getD i 0 + b.getD (n - 1 - i) 0 = 2 * c := by
  have get : ∀ k, k < n → (linspace (c - bw / 2) (c + bw / 2) n).getD k 0 =
      c - bw / 2 + k * (bw / (n - 1)) := by
    intro k hk
    rw [getD_eq (by rw [linspace_length]; exact hk)]
    simp only [linspace, List.getElem_map, List.getElem_range, if_neg (by omega : n ≠ 1)]
    rw [show c + bw / 2 - (c - bw / 2) = bw by ring]
  have hn1 : (0:ℝ) < n - 1 := by
    have : (2:ℝ) ≤ n := by exact_mod_cast hn
    linarith
  have hcast : ((n - 1 : ℕ) : ℝ) = (n:ℝ) - 1 := by rw [Nat.cast_sub (by omega)]; simp
  simp only
  rw [get i hi, get 0 (by omega), get (n - 1) (by omega), get (n - 1 - i) (by omega)]
  have hi' : (i:ℝ) ≤ n - 1 := by rw [← hcast]; exact_mod_cast (by omega : i ≤ n - 1)
  have i0 : (0:ℝ) ≤ i := Nat.cast_nonneg i
  refine ⟨?_, by simp, ?_, ?_⟩
  · have q : (i:ℝ) * (bw / (n - 1)) ≤ bw := by
      rw [mul_div_assoc', div_le_iff₀ hn1]; nlinarith
    have q0 : 0 ≤ (i:ℝ) * (bw / (n - 1)) := mul_nonneg i0 (div_nonneg hb hn1.le)
    rw [abs_le]; constructor <;> linarith
  · rw [hcast, mul_div_cancel₀ _ hn1.ne']; ring
  · rw [Nat.cast_sub (by omega), hcast]
    field_simp; ring

/-- C69 (violation): with a single bin the wavelength used is the blue edge of the band, not its centre. -/
theorem wavelength_single_bin (c bw : ℝ) : wavelengthVector [c] bw 1 = .ok [c - bw / 2] := by
  obtain ⟨cen, hs, hm, h⟩ := wavelengthVector_spec [c] bw 1
  have : cen = [c] := by
    rcases cen with _ | ⟨a, _ | ⟨b, l⟩⟩
    · exact absurd ((hm c).2 (by simp)) (by simp)
    · have := (hm a).1 (by simp); simp at this; rw [this]
    · have h1 := (hm a).1 (by simp); have h2 := (hm b).1 (by simp)
      simp at h1 h2
      have := (List.pairwise_cons.1 hs).1 b (by simp)
      rw [h1, h2] at this; exact absurd this (lt_irrefl _)
  rw [h, this]; simp [linspace]

/-- Non-vacuity: two wavelengths, given twice and in disorder, three bins of a 2-unit band. -/
example : ∃ w, wavelengthVector [20, 10, 20] 2 3 = .ok w ∧ w = [9, 10, 11, 19, 20, 21] := by
  obtain ⟨cen, hs, hm, h⟩ := wavelengthVector_spec [20, 10, 20] 2 3
  have hc : cen = [10, 20] := by
    have p : cen.Perm [10, 20] := by
      refine (List.perm_ext_iff_of_nodup (hs.imp fun h => h.ne) (by norm_num)).2 fun x => ?_
      rw [hm]; simp; tauto
    exact p.eq_of_pairwise (le := fun a b => a < b) (fun a b _ _ h1 h2 => absurd (h1.trans h2) (lt_irrefl _)) hs (by norm_num)
  refine ⟨_, h, ?_⟩
  rw [hc]; norm_num [linspace, List.range_succ]

/-! ### C70: interpolation -/

/-- C70: the coordinate of pixel `i` of an axis of `n` pixels is its offset from pixel `⌊n/2⌋`, in units of
half the axis. -/
theorem axisGrid_spec (n : ℕ) (i : ℕ) (hi : i < n) :
    (axisGrid n).length = n ∧ (axisGrid n).getD i 0 = ((i:ℝ) - (n / 2 : ℕ)) * 2 / n := by
  have hlen : (axisGrid n).length = n := by
    unfold axisGrid; split_ifs <;> rw [List.length_map, linspace_length]
  refine ⟨hlen, ?_⟩
  rw [getD_eq (by rw [hlen]; exact hi)]
  unfold axisGrid
  by_cases h : n % 2 = 0
  · have h2 : n = 2 * (n / 2) := by omega
    have hc : (n:ℝ) = 2 * (n / 2 : ℕ) := by exact_mod_cast h2
    simp only [if_pos h, List.getElem_map, linspace, List.getElem_range, if_neg (by omega : n ≠ 1)]
    have hn1 : (n:ℝ) - 1 ≠ 0 := by
      have : (2:ℝ) ≤ n := by exact_mod_cast (by omega : 2 ≤ n)
      linarith
    rw [show (n:ℝ) / 2 - 1 - -n / 2 = n - 1 by ring, div_self hn1]
    congr 2
    rw [show -(n:ℝ) / 2 = -((n / 2 : ℕ):ℝ) by linarith]; ring
  · have h2 : n = 2 * (n / 2) + 1 := by omega
    have hc : (n:ℝ) = 2 * (n / 2 : ℕ) + 1 := by exact_mod_cast h2
    have hfl : ⌊(n:ℝ) / 2⌋ = ((n / 2 : ℕ) : ℤ) := by
      rw [Int.floor_eq_iff, Int.cast_natCast]; constructor <;> linarith
    simp only [if_neg h, hfl, List.getElem_map, linspace, List.getElem_range, Int.cast_natCast]
    by_cases h1 : n = 1
    · subst h1
      have : i = 0 := by omega
      subst this; norm_num
    · rw [if_neg h1]
      have hn1 : (n:ℝ) - 1 ≠ 0 := by
        have : (2:ℝ) ≤ n := by exact_mod_cast (by omega : 2 ≤ n)
        linarith
      rw [show ((n / 2 : ℕ):ℝ) - -((n / 2 : ℕ):ℝ) = n - 1 by linarith, div_self hn1]
      congr 2; ring

theorem axisGrid_nodup (n : ℕ) : (axisGrid n).Nodup := by
  have hlen : (axisGrid n).length = n := by
    unfold axisGrid; split_ifs <;> rw [List.length_map, linspace_length]
  rw [List.nodup_iff_injective_getElem]
  intro a b h
  have ha : (a : ℕ) < n := a.2.trans_eq hlen
  have hb : (b : ℕ) < n := b.2.trans_eq hlen
  have h1 := (axisGrid_spec n a ha).2
  have h2 := (axisGrid_spec n b hb).2
  rw [getD_eq a.2] at h1
  rw [getD_eq b.2] at h2
  have hn : (n : ℝ) ≠ 0 := by exact_mod_cast (by omega : n ≠ 0)
  have h3 : (((a:ℕ):ℝ) - (n / 2 : ℕ)) * 2 / n = (((b:ℕ):ℝ) - (n / 2 : ℕ)) * 2 / n := by
    rw [← h1, ← h2]; exact h
  field_simp at h3
  have h4 : ((a:ℕ):ℝ) = ((b:ℕ):ℝ) := by linarith
  exact Fin.ext (by exact_mod_cast h4)

/-- The interpolant of scipy goes through its samples when the abscissae are distinct (scipy refuses others). -/
def ThroughSamples (fit : List ℝ → List ℝ → Img ℝ → ℝ → ℝ → ℝ) : Prop :=
  ∀ xs ys im, xs.Nodup → ys.Nodup → xs.length = im.nx → ys.length = im.ny → ∀ i < im.nx, ∀ j < im.ny,
    fit xs ys im (xs.getD i 0) (ys.getD j 0) = im.px i j

open Classical in
/-- Non-vacuity of `ThroughSamples`: the sample found at the given abscissae. -/
noncomputable def lookupFit (xs ys : List ℝ) (im : Img ℝ) (u v : ℝ) : ℝ := im.px (xs.idxOf u) (ys.idxOf v)

theorem lookupFit_through : ThroughSamples lookupFit := by
  classical
  intro xs ys im hx hy lx ly i hi j hj
  unfold lookupFit
  have h1 : xs.idxOf (xs.getD i 0) = i := by
    rw [getD_eq (by omega : i < xs.length)]; exact hx.idxOf_getElem i _
  have h2 : ys.idxOf (ys.getD j 0) = j := by
    rw [getD_eq (by omega : j < ys.length)]; exact hy.idxOf_getElem j _
  congr 1

/-- C70: interpolating a square image on a grid `k` times finer succeeds, and every input pixel is
found again, at `k` times its offset from the centre; in particular the centre stays at the centre.  Also
for rectangular images with the 'linear' kind. The only assumption on scipy's interpolant is that it goes
through the samples.  Missing: rectangular images with the default kind, see `interpolate_rectangular`. -/
theorem interpolate_zoom (fit : List ℝ → List ℝ → Img ℝ → ℝ → ℝ → ℝ) (hfit : ThroughSamples fit)
    (spline : Bool) (im : Img ℝ) (hs : spline = true → im.nx = im.ny) (k : ℕ) (hk : 1 ≤ k) :
    ∃ out, interpolate fit spline im (k * im.nx) (k * im.ny) = .ok out ∧
      out.nx = k * im.nx ∧ out.ny = k * im.ny ∧
      ∀ i < im.nx, ∀ j < im.ny, ∀ a < out.nx, ∀ b < out.ny,
        ((a:ℤ) - (out.nx / 2 : ℕ) = k * ((i:ℤ) - (im.nx / 2 : ℕ))) →
        ((b:ℤ) - (out.ny / 2 : ℕ) = k * ((j:ℤ) - (im.ny / 2 : ℕ))) → out.px a b = im.px i j := by
  have hz : (0:ℝ) < k := by exact_mod_cast hk
  by_cases hsame : im.nx = k * im.nx ∧ im.ny = k * im.ny
  · refine ⟨im, ?_, hsame.1, hsame.2, ?_⟩
    · unfold interpolate; rw [if_pos hsame]
    · intro i hi j hj a ha b hb h1 h2
      have hk1 : k = 1 := by
        have : 1 * im.nx = k * im.nx := by rw [one_mul]; exact hsame.1
        exact (Nat.eq_of_mul_eq_mul_right (by omega) this).symm
      subst hk1
      rw [show a = i by omega, show b = j by omega]
  have key : ∀ n i a : ℕ, i < n → a < k * n →
      ((a:ℤ) - ((k * n) / 2 : ℕ) = k * ((i:ℤ) - (n / 2 : ℕ))) →
      (axisGrid (k * n)).getD a 0 = (axisGrid n).getD i 0 := by
    intro n i a hi ha h
    rw [(axisGrid_spec _ a ha).2, (axisGrid_spec n i hi).2]
    have h' : (a:ℝ) - ((k * n / 2 : ℕ) : ℝ) = k * ((i:ℝ) - ((n / 2 : ℕ) : ℝ)) := by exact_mod_cast h
    have hn : (0:ℝ) < n := by exact_mod_cast (by omega : 0 < n)
    rw [h']; push_cast; field_simp
  have lenA : ∀ n, (axisGrid n).length = n := by
    intro n
    unfold axisGrid; split_ifs <;> rw [List.length_map, linspace_length]
  unfold interpolate
  rw [if_neg (fun h => hsame ⟨h.1, h.2⟩)]
  have hl : (if spline = true then axisGrid im.ny else axisGrid im.nx) = axisGrid im.nx := by
    split_ifs with h
    · rw [hs h]
    · rfl
  have hr : (if spline = true then axisGrid im.nx else axisGrid im.ny) = axisGrid im.ny := by
    split_ifs with h
    · rw [hs h]
    · rfl
  simp only [hl, hr]
  rw [if_pos ⟨lenA _, lenA _⟩]
  refine ⟨_, rfl, rfl, rfl, ?_⟩
  intro i hi j hj a ha b hb h1 h2
  simp only at ha hb h1 h2 ⊢
  rw [key im.nx i a hi ha h1, key im.ny j b hj hb h2]
  exact hfit _ _ im (axisGrid_nodup _) (axisGrid_nodup _) (lenA _) (lenA _) i hi j hj

/-- Interpolating on the same grid returns the image itself. -/
theorem interpolate_same (fit : List ℝ → List ℝ → Img ℝ → ℝ → ℝ → ℝ) (spline : Bool) (im : Img ℝ) :
    interpolate fit spline im im.nx im.ny = .ok im := by
  unfold interpolate; rw [if_pos ⟨rfl, rfl⟩]

/-- C285 (violation): with the default kind any resampling of a rectangular image is refused, because the
two axes are swapped. -/
theorem interpolate_rectangular (fit : List ℝ → List ℝ → Img ℝ → ℝ → ℝ → ℝ) (im : Img ℝ) (mx my : ℕ)
    (h : im.nx ≠ im.ny) (h2 : ¬ (im.nx = mx ∧ im.ny = my)) :
    interpolate fit true im mx my = .error .broadcast := by
  have lenA : ∀ n, (axisGrid n).length = n := by
    intro n
    unfold axisGrid; split_ifs <;> rw [List.length_map, linspace_length]
  unfold interpolate
  rw [if_neg h2]
  simp only [if_true]
  rw [if_neg]
  rw [lenA]; exact fun hh => h hh.1.symm

/-- Non-vacuity: a rectangular image exists and is refused. -/
example (fit : List ℝ → List ℝ → Img ℝ → ℝ → ℝ → ℝ) :
    interpolate fit true ⟨4, 6, fun i j => i + j⟩ 8 12 = .error .broadcast :=
  interpolate_rectangular fit _ 8 12 (by norm_num) (by norm_num)

/-! ### C73: functions that modify their argument -/

/-- C73 (violation): asking a normalised radial profile divides the caller's image: its flux (peak) becomes
one. -/
theorem radialProfile_modifies (im : Img ℝ) (h : flux im ≠ 0) :
    flux (afterRadialProfile im .total) = 1 := by
  unfold afterRadialProfile
  have : ∀ c : ℝ, flux ⟨im.nx, im.ny, fun i j => im.px i j / c⟩ = flux im / c := by
    intro c
    unfold flux
    simp only [← sum_div]
  simp only [this, div_self h]

/-- C73 (violation): so does measuring the Strehl ratio with the 'max' method; the ratio itself is that of
the peaks over fluxes. -/
theorem strehlMax_modifies (psf dl : Img ℝ) (h : flux psf ≠ 0) : flux (strehlMax psf dl).2 = 1 := by
  exact radialProfile_modifies psf h

/-- C73 (part): the default radial profile leaves the image alone, and adding noise leaves non-negative
images alone. Missing: the other cases, false by `radialProfile_modifies`, `strehlMax_modifies` and
`addNoise_modifies`. -/
theorem unchanged_partial (im : Img ℝ) (hv : ∀ i j, 0 ≤ im.px i j) :
    afterRadialProfile im .none = im ∧ (afterAddNoise im).Same im := by
  refine ⟨rfl, rfl, rfl, fun i _ j _ => ?_⟩
  unfold afterAddNoise
  simp only
  rw [if_neg (not_lt.2 (hv i j))]

/-- C73 (violation): adding noise zeroes the negative pixels of the caller's image. -/
theorem addNoise_modifies (im : Img ℝ) (i j : ℕ) (h : im.px i j < 0) :
    (afterAddNoise im).px i j = 0 ∧ (afterAddNoise im).px i j ≠ im.px i j := by
  unfold afterAddNoise
  simp only [if_pos h]
  exact ⟨trivial, h.ne'⟩

/-- Non-vacuity: a 2x2 image of flux 10. -/
example : flux ⟨2, 2, fun i j => 1 + 2 * i + j⟩ = (10:ℝ) := by norm_num [flux, sum_range_succ]

/-! ### C72: full width at half maximum -/

theorem mem_above (p : List ℝ) (i : ℕ) : i ∈ above p ↔ i < p.length ∧ maxL p / 2 ≤ p.getD i 0 := by
  unfold above; rw [List.mem_filter, List.mem_range, decide_eq_true_iff]

theorem above_sorted (p : List ℝ) : (above p).Pairwise (· < ·) := List.pairwise_lt_range.filter _

/-- Length of the three-pixel slice around pixel `k`: complete only away from both ends. -/
theorem slice_length (p : List ℝ) (k : ℕ) (h3 : 3 ≤ p.length) (hk : k < p.length) :
    (pySlice p ((k:ℤ) - 1) ((k:ℤ) + 2)).length = 3 ↔ 1 ≤ k ∧ k + 2 ≤ p.length := by
  unfold pySlice
  rw [List.length_take, List.length_drop]
  unfold sliceBound
  rw [if_neg (by omega : ¬ ((k:ℤ) + 2 < 0))]
  by_cases h : (k:ℤ) - 1 < 0
  · rw [if_pos h]; omega
  · rw [if_neg h]; omega

theorem edge_ok_iff (p : List ℝ) (k : ℕ) (half : ℝ) (h3 : 3 ≤ p.length) (hk : k < p.length) :
    (1 ≤ k ∧ k + 2 ≤ p.length → ∃ x, edge p k half = .ok x) ∧
    (¬ (1 ≤ k ∧ k + 2 ≤ p.length) → edge p k half = .error .broadcast) := by
  have := slice_length p k h3 hk
  unfold edge
  constructor
  · intro h
    rw [if_pos (by rw [this.2 h]; rfl)]; exact ⟨_, rfl⟩
  · intro h
    rw [if_neg (by intro e; exact h (this.1 e))]

/-- First and last pixels at or above half maximum. -/
theorem above_ends (p : List ℝ) (h : above p ≠ []) :
    (above p).headD 0 ∈ above p ∧ (above p).getLastD 0 ∈ above p ∧
    ∀ i ∈ above p, (above p).headD 0 ≤ i ∧ i ≤ (above p).getLastD 0 := by
  have hs := above_sorted p
  revert hs h
  generalize above p = l
  intro h hs
  cases l with
  | nil => exact absurd rfl h
  | cons a l =>
    refine ⟨by simp, ?_, ?_⟩
    · rw [List.getLastD_eq_getLast?, List.getLast?_eq_getLast_of_ne_nil (by simp), Option.getD_some]
      exact List.getLast_mem _
    · intro i hi
      refine ⟨?_, ?_⟩
      · rcases List.mem_cons.1 hi with rfl | h'
        · exact le_rfl
        · exact ((List.pairwise_cons.1 hs).1 i h').le
      · rw [List.getLastD_eq_getLast?, List.getLast?_eq_getLast_of_ne_nil (by simp), Option.getD_some]
        obtain ⟨k, hk, rfl⟩ := List.getElem_of_mem hi
        rw [List.getLast_eq_getElem]
        rcases Nat.lt_or_ge k ((a :: l).length - 1) with h' | h'
        · exact (List.pairwise_iff_getElem.1 hs k _ _ _ h').le
        · have : k = (a :: l).length - 1 := by omega
          subst this; exact le_rfl

/-- C286 (violation, exact): the width of a profile raises an error exactly when at least two pixels, but not
all or all but one, are at or above half maximum and the first or the last pixel of the profile is one of
them. -/
theorem fwhm1d_raises_iff_partial (p : List ℝ) :
    (∃ e, fwhm1d p = .error e) ↔
      minL p < 0.5 * maxL p ∧ 2 ≤ (above p).length ∧ (above p).length + 1 < p.length ∧
      (maxL p / 2 ≤ p.getD 0 0 ∨ maxL p / 2 ≤ p.getD (p.length - 1) 0) := by
  unfold fwhm1d
  simp only
  by_cases h1 : 0.5 * maxL p ≤ minL p
  · rw [if_pos h1]
    constructor
    · rintro ⟨e, he⟩; cases he
    · rintro ⟨h, -⟩; linarith
  rw [if_neg h1]
  push Not at h1
  by_cases h2 : (above p).length < 2
  · rw [if_pos h2]
    constructor
    · rintro ⟨e, he⟩; cases he
    · rintro ⟨-, h, -⟩; omega
  rw [if_neg h2]
  by_cases h3 : p.length - 1 ≤ (above p).length
  · rw [if_pos h3]
    constructor
    · rintro ⟨e, he⟩; cases he
    · rintro ⟨-, -, h, -⟩; omega
  rw [if_neg h3]
  have hne : above p ≠ [] := by intro e; rw [e] at h2; simp at h2
  obtain ⟨m1, m2, m3⟩ := above_ends p hne
  have l1 := (mem_above p _).1 m1
  have l2 := (mem_above p _).1 m2
  have len3 : 3 ≤ p.length := by omega
  have hlt : (above p).headD 0 < (above p).getLastD 0 := by
    have hs := above_sorted p
    rcases hl : above p with _ | ⟨a, _ | ⟨b, l⟩⟩
    · exact absurd hl hne
    · rw [hl] at h2; simp at h2
    · rw [hl] at hs m3
      have := (List.pairwise_cons.1 hs).1 b (by simp)
      have := (m3 b (by simp)).2
      simp only [List.headD_cons] at *
      omega
  have z0 : maxL p / 2 ≤ p.getD 0 0 ↔ (above p).headD 0 = 0 := by
    constructor
    · intro h
      have := (m3 0 ((mem_above p 0).2 ⟨by omega, h⟩)).1
      omega
    · intro h
      have := l1.2
      rwa [h] at this
  have zn : maxL p / 2 ≤ p.getD (p.length - 1) 0 ↔ (above p).getLastD 0 = p.length - 1 := by
    constructor
    · intro h
      have := (m3 (p.length - 1) ((mem_above p _).2 ⟨by omega, h⟩)).2
      omega
    · intro h
      have := l2.2
      rwa [h] at this
  rw [z0, zn]
  obtain ⟨a1, a2⟩ := edge_ok_iff p ((above p).headD 0) (maxL p / 2) len3 l1.1
  obtain ⟨b1, b2⟩ := edge_ok_iff p ((above p).getLastD 0) (maxL p / 2) len3 l2.1
  have rest : minL p < 0.5 * maxL p ∧ 2 ≤ (above p).length ∧ (above p).length + 1 < p.length :=
    ⟨h1, by omega, by omega⟩
  by_cases ea : (above p).headD 0 = 0
  · rw [a2 (by omega)]
    exact ⟨fun _ => ⟨rest.1, rest.2.1, rest.2.2, Or.inl ea⟩, fun _ => ⟨_, rfl⟩⟩
  · obtain ⟨x, hx⟩ := a1 (by omega)
    rw [hx]
    by_cases eb : (above p).getLastD 0 = p.length - 1
    · rw [b2 (by omega)]
      exact ⟨fun _ => ⟨rest.1, rest.2.1, rest.2.2, Or.inr eb⟩, fun _ => ⟨_, rfl⟩⟩
    · obtain ⟨y, hy⟩ := b1 (by omega)
      rw [hy]
      constructor
      · rintro ⟨e, he⟩; cases he
      · rintro ⟨-, -, -, h | h⟩ <;> contradiction

/-- C286 (violation, concrete): a peak on the first pixel makes the width measurement raise. -/
theorem fwhm1d_violation : ∃ e, fwhm1d [4, 3, 1, 1, 0] = .error e := by
  have hM : maxL [4, 3, 1, 1, (0:ℝ)] = 4 := by norm_num [maxL]
  have hm : minL [4, 3, 1, 1, (0:ℝ)] = 0 := by norm_num [minL]
  have ha : above [4, 3, 1, 1, 0] = [0, 1] := by
    unfold above; rw [hM]; norm_num [List.range_succ]
  rw [fwhm1d_raises_iff_partial, hM, hm, ha]
  norm_num

theorem interp3_inc (a b c ya yb yc t : ℝ) (hab : a < b) (hbc : b ≤ c) (ht : t ≤ b) :
    interp3 [(a, ya), (b, yb), (c, yc)] t = ya + (t - a) * ((yb - ya) / (b - a)) := by
  have : ([(a, ya), (b, yb), (c, yc)] : List (ℝ × ℝ)).mergeSort (fun a b => decide (a.1 ≤ b.1)) =
      [(a, ya), (b, yb), (c, yc)] := by
    apply List.mergeSort_of_pairwise
    simp [hab.le, hbc, hab.le.trans hbc]
  unfold interp3
  rw [this]
  simp [ht]

theorem interp3_dec (a b c ya yb yc t : ℝ) (hab : b < a) (hbc : c < b) (ht : t ≤ b) :
    interp3 [(a, ya), (b, yb), (c, yc)] t = yc + (t - c) * ((yb - yc) / (b - c)) := by
  set s := ([(a, ya), (b, yb), (c, yc)] : List (ℝ × ℝ)).mergeSort (fun a b => decide (a.1 ≤ b.1)) with hs
  have perm : s.Perm [(a, ya), (b, yb), (c, yc)] := List.mergeSort_perm _ _
  have sorted : s.Pairwise fun a b => a.1 ≤ b.1 := by
    have := List.pairwise_mergeSort (le := fun a b : ℝ × ℝ => decide (a.1 ≤ b.1))
      (fun a b c h1 h2 => by simp only [decide_eq_true_eq] at *; exact h1.trans h2)
      (fun a b => by simp only [Bool.or_eq_true, decide_eq_true_eq]; exact le_total a.1 b.1)
      [(a, ya), (b, yb), (c, yc)]
    exact this.imp (by simp)
  unfold interp3
  rw [← hs]
  match hl : s, perm.length_eq with
  | [x, y, z], _ =>
    rw [hl] at perm sorted
    -- the smallest is the last point
    have hx : x = (c, yc) := by
      have hc : (c, yc) ∈ [x, y, z] := perm.mem_iff.2 (by simp)
      have hx : x ∈ [(a, ya), (b, yb), (c, yc)] := perm.mem_iff.1 (by simp)
      simp only [List.mem_cons, List.not_mem_nil, or_false] at hx hc
      have s1 := (List.pairwise_cons.1 sorted).1
      rcases hx with rfl | rfl | rfl
      · rcases hc with h | rfl | rfl
        · exact h.symm
        · have := s1 (c, yc) (by simp); simp only at this; linarith
        · have := s1 (c, yc) (by simp); simp only at this; linarith
      · rcases hc with h | rfl | rfl
        · exact h.symm
        · have := s1 (c, yc) (by simp); simp only at this; linarith
        · have := s1 (c, yc) (by simp); simp only at this; linarith
      · rfl
    subst hx
    have p2 : [y, z].Perm [(a, ya), (b, yb)] := by
      have h1 : ((c, yc) :: [y, z]).Perm ((c, yc) :: [(a, ya), (b, yb)]) :=
        perm.trans (List.perm_append_comm (l₁ := [(a, ya), (b, yb)]) (l₂ := [(c, yc)]))
      exact (List.perm_cons _).1 h1
    have s2 := (List.pairwise_cons.1 ((List.pairwise_cons.1 sorted).2)).1 z (by simp)
    have hy : y ∈ [(a, ya), (b, yb)] := p2.mem_iff.1 (by simp)
    simp only [List.mem_cons, List.not_mem_nil, or_false] at hy
    rcases hy with rfl | rfl
    · -- y = a: then z = b and a = b
      have hz : [z].Perm [(b, yb)] := (List.perm_cons _).1 p2
      have hz' : z = (b, yb) := by simpa using hz
      subst hz'
      simp only at s2
      linarith
    · show (if t ≤ b then _ else _) = _
      rw [if_pos ht]

theorem pySlice_mid (p : List ℝ) (k : ℕ) (h1 : 1 ≤ k) (h2 : k + 2 ≤ p.length) :
    pySlice p ((k:ℤ) - 1) ((k:ℤ) + 2) = [p.getD (k - 1) 0, p.getD k 0, p.getD (k + 1) 0] := by
  have hlen : (pySlice p ((k:ℤ) - 1) ((k:ℤ) + 2)).length = 3 :=
    (slice_length p k (by omega) (by omega)).2 ⟨h1, h2⟩
  have hb : sliceBound p.length ((k:ℤ) - 1) = k - 1 := by unfold sliceBound; rw [if_neg (by omega)]; omega
  have hg : ∀ i (h : i < (pySlice p ((k:ℤ) - 1) ((k:ℤ) + 2)).length),
      (pySlice p ((k:ℤ) - 1) ((k:ℤ) + 2))[i] = p.getD (k - 1 + i) 0 := by
    intro i h
    rw [hlen] at h
    rw [getD_eq (by omega)]
    simp only [pySlice, List.getElem_take, List.getElem_drop, hb]
  refine List.ext_getElem (by rw [hlen]; rfl) fun i h h' => ?_
  rw [hg i h]
  rw [hlen] at h
  obtain rfl | rfl | rfl : i = 0 ∨ i = 1 ∨ i = 2 := by omega
  · rfl
  · simp only [List.getElem_cons_succ, List.getElem_cons_zero]
    congr 1; omega
  · simp only [List.getElem_cons_succ, List.getElem_cons_zero]
    congr 1; omega

/-- C72: for a profile whose half-maximum region `[l, r]` is away from both ends, that keeps rising
after entering it on the left and was strictly falling before leaving it on the right, the width is the
distance between the two points where the profile, linearly interpolated between neighbouring pixels,
crosses half maximum.  Missing: regions touching an end (`fwhm1d_raises_iff_partial`) and flat tops
(`fwhm1d_flat_top`). -/
theorem fwhm1d_spec (p : List ℝ) (hpos : 0 < maxL p) (l r : ℕ) (hl : 1 ≤ l) (hlr : l < r)
    (hr : r + 2 ≤ p.length) (hin : ∀ i, i < p.length → (maxL p / 2 ≤ p.getD i 0 ↔ l ≤ i ∧ i ≤ r))
    (hup : p.getD l 0 ≤ p.getD (l + 1) 0) (hdown : p.getD r 0 < p.getD (r - 1) 0)
    (hmany : r - l + 2 < p.length) :
    ∃ x1 x2 : ℝ, fwhm1d p = .ok |x2 - x1| ∧
      x1 = (l - 1) + (maxL p / 2 - p.getD (l - 1) 0) / (p.getD l 0 - p.getD (l - 1) 0) ∧
      x2 = (r + 1) - (maxL p / 2 - p.getD (r + 1) 0) / (p.getD r 0 - p.getD (r + 1) 0) ∧
      (l:ℝ) - 1 < x1 ∧ x1 ≤ l ∧ (r:ℝ) ≤ x2 ∧ x2 < r + 1 := by
  have hpne : p ≠ [] := by rintro rfl; simp at hr
  have hab : above p = (List.range (r + 1 - l)).map (· + l) := by
    have h1 : (above p).Pairwise (· < ·) := above_sorted p
    have h2 : ((List.range (r + 1 - l)).map (· + l)).Pairwise (· < ·) := by
      rw [List.pairwise_map]
      exact List.pairwise_lt_range.imp fun h => by omega
    refine List.Perm.eq_of_pairwise (le := fun a b => a < b) (fun a b _ _ h1 h2 => by omega) h1 h2 ?_
    refine (List.perm_ext_iff_of_nodup (h1.imp fun h => h.ne) (h2.imp fun h => h.ne)).2 fun i => ?_
    rw [mem_above, List.mem_map]
    constructor
    · rintro ⟨a, b⟩
      have := (hin i a).1 b
      exact ⟨i - l, List.mem_range.2 (by omega), by omega⟩
    · rintro ⟨j, hj, rfl⟩
      rw [List.mem_range] at hj
      exact ⟨by omega, (hin (j + l) (by omega)).2 (by omega)⟩
  have hlen : (above p).length = r + 1 - l := by rw [hab]; simp
  have hne : above p ≠ [] := by intro e; rw [e] at hlen; simp at hlen; omega
  obtain ⟨m1, m2, m3⟩ := above_ends p hne
  have hl' : (above p).headD 0 = l := by
    have a := ((hin _ ((mem_above p _).1 m1).1).1 ((mem_above p _).1 m1).2).1
    have b := (m3 l ((mem_above p l).2 ⟨by omega, (hin l (by omega)).2 (by omega)⟩)).1
    omega
  have hr' : (above p).getLastD 0 = r := by
    have a := ((hin _ ((mem_above p _).1 m2).1).1 ((mem_above p _).1 m2).2).2
    have b := (m3 r ((mem_above p r).2 ⟨by omega, (hin r (by omega)).2 (by omega)⟩)).2
    omega
  set H := maxL p / 2 with hH
  have pl : H ≤ p.getD l 0 := (hin l (by omega)).2 (by omega)
  have pr : H ≤ p.getD r 0 := (hin r (by omega)).2 (by omega)
  have pl' : p.getD (l - 1) 0 < H := by
    by_contra h; push Not at h
    have := (hin (l - 1) (by omega)).1 h; omega
  have pr' : p.getD (r + 1) 0 < H := by
    by_contra h; push Not at h
    have := (hin (r + 1) (by omega)).1 h; omega
  have hmin : ¬ (0.5 * maxL p ≤ minL p) := by
    have h1 : minL p ≤ p.getD (l - 1) 0 := by
      apply minL_le; rw [getD_eq (by omega)]; exact List.getElem_mem _
    intro h
    have : 0.5 * maxL p = H := by rw [hH]; ring
    linarith
  have e1 : edge p l H = .ok ((l - 1) + (H - p.getD (l - 1) 0) / (p.getD l 0 - p.getD (l - 1) 0)) := by
    unfold edge
    rw [pySlice_mid p l hl (by omega)]
    simp only [List.length_cons, List.length_nil, if_true, List.zip_cons_cons, List.zip_nil_right]
    rw [interp3_inc _ _ _ _ _ _ _ (by linarith) hup pl]
    congr 1
    ring
  have e2 : edge p r H = .ok ((r + 1) - (H - p.getD (r + 1) 0) / (p.getD r 0 - p.getD (r + 1) 0)) := by
    unfold edge
    rw [pySlice_mid p r (by omega) hr]
    simp only [List.length_cons, List.length_nil, if_true, List.zip_cons_cons, List.zip_nil_right]
    rw [interp3_dec _ _ _ _ _ _ _ hdown (by linarith) pr]
    congr 1
    ring
  refine ⟨_, _, ?_, rfl, rfl, ?_, ?_, ?_, ?_⟩
  · unfold fwhm1d
    simp only
    rw [if_neg hmin, if_neg (by omega), if_neg (by omega), hl', hr', e1, e2]
    rfl
  · have : 0 < (H - p.getD (l - 1) 0) / (p.getD l 0 - p.getD (l - 1) 0) :=
      div_pos (by linarith) (by linarith)
    linarith
  · have : (H - p.getD (l - 1) 0) / (p.getD l 0 - p.getD (l - 1) 0) ≤ 1 := by
      rw [div_le_one (by linarith)]; linarith
    linarith
  · have : (H - p.getD (r + 1) 0) / (p.getD r 0 - p.getD (r + 1) 0) ≤ 1 := by
      rw [div_le_one (by linarith)]; linarith
    linarith
  · have : 0 < (H - p.getD (r + 1) 0) / (p.getD r 0 - p.getD (r + 1) 0) :=
      div_pos (by linarith) (by linarith)
    linarith

/-- Non-vacuity: a symmetric profile meets the hypotheses with `l = 2`, `r = 4`. -/
example : ∃ x1 x2 : ℝ, fwhm1d [0, 1, 3, 4, 3, 1, 0] = .ok |x2 - x1| ∧ x1 = 3/2 ∧ x2 = 9/2 := by
  have hM : maxL [0, 1, 3, 4, 3, 1, (0:ℝ)] = 4 := by norm_num [maxL]
  obtain ⟨x1, x2, h, e1, e2, -⟩ := fwhm1d_spec [0, 1, 3, 4, 3, 1, 0] (by rw [hM]; norm_num) 2 4
    (by norm_num) (by norm_num) (by simp) (by
      rw [hM]
      intro i hi
      simp only [List.length_cons, List.length_nil] at hi
      obtain rfl | rfl | rfl | rfl | rfl | rfl | rfl :
        i = 0 ∨ i = 1 ∨ i = 2 ∨ i = 3 ∨ i = 4 ∨ i = 5 ∨ i = 6 := by omega
      all_goals norm_num)
    (by norm_num) (by norm_num) (by norm_num)
  rw [hM] at e1 e2
  refine ⟨x1, x2, h, ?_, ?_⟩
  · rw [e1]; norm_num
  · rw [e2]; norm_num

/-- C286 (violation): for a flat-topped profile the right edge is interpolated between pixels that are two
apart: 1.5 instead of 2. -/
theorem fwhm1d_flat_top : fwhm1d [0, 0, 4, 4, 0, 0] = .ok (3/2) := by
  have hM : maxL [0, 0, 4, 4, 0, (0:ℝ)] = 4 := by norm_num [maxL]
  have hm : minL [0, 0, 4, 4, 0, (0:ℝ)] = 0 := by norm_num [minL]
  have ha : above [0, 0, 4, 4, 0, 0] = [2, 3] := by
    unfold above; rw [hM]; norm_num [List.range_succ]
  have e1 : edge [0, 0, 4, 4, 0, 0] 2 (4 / 2) = .ok (3/2) := by
    unfold edge
    rw [pySlice_mid _ 2 (by norm_num) (by norm_num)]
    simp only [List.length_cons, List.length_nil, if_true, List.zip_cons_cons, List.zip_nil_right]
    rw [interp3_inc _ _ _ _ _ _ _ (by norm_num) (by norm_num) (by norm_num)]
    norm_num
  have e2 : edge [0, 0, 4, 4, 0, 0] 3 (4 / 2) = .ok 3 := by
    unfold edge
    rw [pySlice_mid _ 3 (by norm_num) (by norm_num)]
    simp only [List.length_cons, List.length_nil, if_true, List.zip_cons_cons, List.zip_nil_right]
    have : ([(4, 2), (4, 3), (0, 4)] : List (ℝ × ℝ)).mergeSort (fun a b => decide (a.1 ≤ b.1)) =
        [(0, 4), (4, 2), (4, 3)] := by
      norm_num [List.mergeSort, List.MergeSort.Internal.splitInTwo, List.merge]
    have hh : interp3 [(4, 2), (4, 3), (0, 4)] (4 / 2) = 3 := by
      unfold interp3; rw [this]; norm_num
    congr 1
    rw [← hh]
    norm_num
  unfold fwhm1d
  simp only [hM, hm, ha]
  norm_num
  norm_num at e1 e2
  rw [e1, e2]
  show Except.ok _ = _
  norm_num

/-! ### Values of the in-place functions and of the Strehl ratio -/

theorem maxL_div (c : ℝ) (hc : 0 < c) (l : List ℝ) : maxL (l.map (· / c)) = maxL l / c := by
  have h : ∀ (l : List ℝ) (a : ℝ), (l.map (· / c)).foldr max (a / c) = l.foldr max a / c := by
    intro l a
    induction l with
    | nil => rfl
    | cons b t ih => simp only [List.map_cons, List.foldr_cons]; rw [ih, max_div_div_right hc.le]
  unfold maxL
  rw [← h]
  cases l with
  | nil => simp
  | cons a t => rfl

theorem peak_scale (im : Img ℝ) (c : ℝ) (hc : 0 < c) :
    peak ⟨im.nx, im.ny, fun i j => im.px i j / c⟩ = peak im / c := by
  unfold peak
  rw [← maxL_div c hc]
  congr 1
  unfold flat
  simp only [List.map_flatMap, List.map_map]
  rfl

/-- C73: after a peak-normalised radial profile the caller's image has peak one: every pixel was divided by the
peak. -/
theorem radialProfile_peak (im : Img ℝ) (h : 0 < peak im) :
    peak (afterRadialProfile im .peak) = 1 ∧
    ∀ i j, (afterRadialProfile im .peak).px i j * peak im = im.px i j := by
  refine ⟨?_, fun i j => ?_⟩
  · show peak ⟨im.nx, im.ny, fun i j => im.px i j / peak im⟩ = 1
    rw [peak_scale im _ h, div_self h.ne']
  · exact div_mul_cancel₀ _ h.ne'

/-- C73: the Strehl ratio of the method 'max' is the ratio of the peaks, both PSFs having unit flux: it does not
depend on the flux of either, is one for the diffraction-limited PSF itself, and grows with the peak of the PSF. -/
theorem strehlMax_value (psf dl : Img ℝ) (h : 0 < flux psf) (hd : 0 < flux dl) (hp : 0 < peak dl) :
    (strehlMax psf dl).1 = peak psf / flux psf / (peak dl / flux dl) ∧
    (strehlMax dl dl).1 = 1 ∧
    ∀ psf' : Img ℝ, flux psf' = flux psf → peak psf < peak psf' → (strehlMax psf dl).1 < (strehlMax psf' dl).1 := by
  have e : ∀ im : Img ℝ, 0 < flux im → (strehlMax im dl).1 = peak im / flux im / (peak dl / flux dl) := by
    intro im hi
    show peak ⟨im.nx, im.ny, fun i j => im.px i j / flux im⟩ / peak ⟨dl.nx, dl.ny, fun i j => dl.px i j / flux dl⟩ = _
    rw [peak_scale im _ hi, peak_scale dl _ hd]
  refine ⟨e psf h, ?_, fun psf' hf hlt => ?_⟩
  · rw [e dl hd]; exact div_self (by positivity)
  · rw [e psf h, e psf' (hf ▸ h), hf]
    gcongr

/-- Non-vacuity: a PSF with half of the light in the brightest pixel against one with all of it. -/
example : (strehlMax ⟨1, 2, fun _ _ => 3⟩ ⟨1, 2, fun _ j => if j = 0 then 4 else 0⟩).1 = 1/2 := by
  rw [(strehlMax_value _ _ (by norm_num [flux, Finset.sum_range_succ]) (by norm_num [flux, Finset.sum_range_succ])
    (by norm_num [peak, flat, maxL, List.range_succ])).1]
  norm_num [peak, flat, maxL, List.range_succ, flux, Finset.sum_range_succ]

/-- C72: a profile with a single bin at or above half of its maximum (and some bin below) has width one. -/
theorem fwhm1d_single (p : List ℝ) (hmin : minL p < 0.5 * maxL p) (k : ℕ)
    (h : ∀ i < p.length, maxL p / 2 ≤ p.getD i 0 → i = k) : fwhm1d p = .ok 1 := by
  unfold fwhm1d
  dsimp only
  rw [if_neg (not_le.2 hmin), if_pos]
  have hs := above_sorted p
  have hk : ∀ i ∈ above p, i = k := fun i hi => by
    rw [mem_above] at hi; exact h i hi.1 hi.2
  rcases ha : above p with _ | ⟨a, _ | ⟨b, t⟩⟩
  · simp
  · simp
  · exfalso
    rw [ha] at hs hk
    have := (List.pairwise_cons.1 hs).1 b (by simp)
    rw [hk a (by simp), hk b (by simp)] at this
    exact lt_irrefl _ this

example : fwhm1d [0, 1, 5, 1, 0, 0] = .ok 1 := by
  refine fwhm1d_single _ (by norm_num [minL, maxL]) 2 ?_
  intro i hi h
  have : maxL [0, 1, 5, 1, 0, 0] = 5 := by norm_num [maxL]
  rw [this] at h
  simp only [List.length_cons, List.length_nil] at hi
  interval_cases i <;> first | rfl | (norm_num at h)

/-! ### Cases that meet the hypotheses -/

/-- A case meeting the hypotheses of `mseWindow_size`. -/
example : (mseWindow ⟨7, 8, fun i j => (i + j : ℕ)⟩ 7 8 4).nx = 4 :=
  (mseWindow_size ⟨7, 8, fun i j => (i + j : ℕ)⟩ 4 (by norm_num) (by norm_num) (by norm_num)).1

end P3.Metrics
