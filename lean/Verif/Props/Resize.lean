import Verif.Model.Resize
import Verif.Props.Metrics
import Verif.Props.SegModes
import Verif.Model.Remaining
import Mathlib.Algebra.Order.Floor.Semifield

/-! Theorems about the resizing by linear interpolation (C493-C499). -/

namespace P3.Resize
open P3.Metrics

/-- The abscissas increase. -/
def Grows (xs : List ℝ) : Prop := ∀ a b, a < b → b < xs.length → xs.getD a 0 < xs.getD b 0

/-- Position used along an axis: an interval and a weight between zero and one, which do not depend on the samples. -/
theorem along_weight (xs : List ℝ) (hx : Grows xs) (h2 : 2 ≤ xs.length) (t : ℝ) :
    ∃ k w, k + 1 < xs.length ∧ 0 ≤ w ∧ w ≤ 1 ∧ ∀ f, along xs f t = (1 - w) * f k + w * f (k + 1) := by
  classical
  let s := max (xs.getD 0 0) (min t (xs.getD (xs.length - 1) 0))
  let k := Nat.findGreatest (fun k => xs.getD k 0 ≤ s) (xs.length - 2)
  have hs0 : xs.getD 0 0 ≤ s := le_max_left _ _
  have hs1 : s ≤ xs.getD (xs.length - 1) 0 := max_le (hx 0 _ (by omega) (by omega)).le (min_le_right _ _)
  have hk : k ≤ xs.length - 2 := Nat.findGreatest_le _
  have hks : xs.getD k 0 ≤ s := Nat.findGreatest_spec (P := fun k => xs.getD k 0 ≤ s) (Nat.zero_le _) hs0
  have hks' : s ≤ xs.getD (k + 1) 0 := by
    by_cases h : k + 1 ≤ xs.length - 2
    · exact (lt_of_not_ge (Nat.findGreatest_is_greatest (P := fun k => xs.getD k 0 ≤ s) (Nat.lt_succ_self k) h)).le
    · have : k + 1 = xs.length - 1 := by omega
      rw [this]; exact hs1
  have hd : 0 < xs.getD (k + 1) 0 - xs.getD k 0 := sub_pos.2 (hx k (k + 1) (Nat.lt_succ_self k) (by omega))
  refine ⟨k, (s - xs.getD k 0) / (xs.getD (k + 1) 0 - xs.getD k 0), by omega, div_nonneg (sub_nonneg.2 hks) hd.le,
    (div_le_one hd).2 (by linarith), fun f => ?_⟩
  show f k + (s - xs.getD k 0) / (xs.getD (k + 1) 0 - xs.getD k 0) * (f (k + 1) - f k) = _
  ring

theorem along_node (xs : List ℝ) (hx : Grows xs) (h2 : 2 ≤ xs.length) (f : ℕ → ℝ) (i : ℕ) (hi : i < xs.length) :
    along xs f (xs.getD i 0) = f i := by
  classical
  have mono : ∀ a b, a ≤ b → b < xs.length → xs.getD a 0 ≤ xs.getD b 0 := by
    intro a b h hb
    rcases h.lt_or_eq with h | h
    · exact (hx a b h hb).le
    · rw [h]
  have es : max (xs.getD 0 0) (min (xs.getD i 0) (xs.getD (xs.length - 1) 0)) = xs.getD i 0 := by
    rw [min_eq_left (mono i _ (by omega) (by omega)), max_eq_right (mono 0 i (by omega) hi)]
  unfold along
  simp only [es]
  by_cases h : i ≤ xs.length - 2
  · have ek : Nat.findGreatest (fun k => xs.getD k 0 ≤ xs.getD i 0) (xs.length - 2) = i := by
      apply le_antisymm
      · by_contra hc
        push Not at hc
        have h1 := Nat.findGreatest_spec (P := fun k => xs.getD k 0 ≤ xs.getD i 0) h le_rfl
        exact absurd h1 (not_le.2 (hx _ _ hc (by have := Nat.findGreatest_le (P := fun k => xs.getD k 0 ≤ xs.getD i 0) (xs.length - 2); omega)))
      · exact Nat.le_findGreatest h le_rfl
    rw [ek]; simp
  · have ei : i = xs.length - 2 + 1 := by omega
    have ek : Nat.findGreatest (fun k => xs.getD k 0 ≤ xs.getD i 0) (xs.length - 2) = xs.length - 2 :=
      le_antisymm (Nat.findGreatest_le _) (Nat.le_findGreatest le_rfl (mono _ _ (by omega) hi))
    rw [ek]
    have hd : xs.getD (xs.length - 2 + 1) 0 - xs.getD (xs.length - 2) 0 ≠ 0 :=
      (sub_pos.2 (hx _ _ (Nat.lt_succ_self _) (by omega))).ne'
    rw [ei, div_self hd]; ring

theorem grid_length (n : ℕ) : (axisGrid n).length = n := by
  unfold axisGrid; split_ifs <;> rw [List.length_map, linspace_length]

theorem grid_grows (n : ℕ) : Grows (axisGrid n) := by
  intro a b h hb
  rw [grid_length] at hb
  rw [(axisGrid_spec n a (by omega)).2, (axisGrid_spec n b hb).2]
  have hn : (0 : ℝ) < n := by exact_mod_cast (by omega : 0 < n)
  have : (a : ℝ) < b := by exact_mod_cast h
  gcongr

/-- What the resizing does: the image itself for the same shape; otherwise a refusal for fewer than two pixels along an axis, and the surface
at the new nodes. -/
theorem resize_eq (im : Img ℝ) (mx my : ℕ) : resize im mx my =
    if im.nx = mx ∧ im.ny = my then some im
    else if im.nx < 2 ∨ im.ny < 2 then none
    else some ⟨mx, my, fun i j => surface (axisGrid im.nx) (axisGrid im.ny) im ((axisGrid mx).getD i 0) ((axisGrid my).getD j 0)⟩ := by
  unfold resize interpolate
  by_cases h : im.nx = mx ∧ im.ny = my
  · simp [h, Except.toOption]
  · by_cases h' : im.nx < 2 ∨ im.ny < 2
    · rw [if_pos ⟨h, h'⟩, if_neg h, if_pos h']
    · rw [if_neg (fun c => h' c.2), if_neg h, if_neg h, if_neg h']
      simp [grid_length, Except.toOption]

/-- Each new pixel is a mean of four neighbours with fixed weights. -/
theorem surface_weights (n m : ℕ) (hn : 2 ≤ n) (hm : 2 ≤ m) (x y : ℝ) : ∃ a b u v, a + 1 < n ∧ b + 1 < m ∧ 0 ≤ u ∧ u ≤ 1 ∧ 0 ≤ v ∧ v ≤ 1 ∧
    ∀ im : Img ℝ, surface (axisGrid n) (axisGrid m) im x y = (1 - u) * ((1 - v) * im.px a b + v * im.px a (b + 1)) +
      u * ((1 - v) * im.px (a + 1) b + v * im.px (a + 1) (b + 1)) := by
  obtain ⟨a, u, ha, hu0, hu1, hu⟩ := along_weight (axisGrid n) (grid_grows n) (by rw [grid_length]; exact hn) x
  obtain ⟨b, v, hb, hv0, hv1, hv⟩ := along_weight (axisGrid m) (grid_grows m) (by rw [grid_length]; exact hm) y
  rw [grid_length] at ha hb
  refine ⟨a, b, u, v, ha, hb, hu0, hu1, hv0, hv1, fun im => ?_⟩
  unfold surface
  rw [hu, hv, hv]

/-- C493: resizing by linear interpolation succeeds for at least two pixels along each axis, gives the size asked for, and keeps every pixel
between the bounds of the image. -/
theorem resize_range (im : Img ℝ) (mx my : ℕ) (hx : 2 ≤ im.nx) (hy : 2 ≤ im.ny) (lo hi : ℝ)
    (h : ∀ i < im.nx, ∀ j < im.ny, lo ≤ im.px i j ∧ im.px i j ≤ hi) :
    ∃ out, resize im mx my = some out ∧ out.nx = mx ∧ out.ny = my ∧ ∀ i < mx, ∀ j < my, lo ≤ out.px i j ∧ out.px i j ≤ hi := by
  rw [resize_eq]
  by_cases hs : im.nx = mx ∧ im.ny = my
  · refine ⟨im, if_pos hs, hs.1, hs.2, fun i hi' j hj => h i (by omega) j (by omega)⟩
  · rw [if_neg hs, if_neg (by omega)]
    refine ⟨_, rfl, rfl, rfl, fun i _ j _ => ?_⟩
    obtain ⟨a, b, u, v, ha, hb, hu0, hu1, hv0, hv1, e⟩ := surface_weights im.nx im.ny hx hy ((axisGrid mx).getD i 0) ((axisGrid my).getD j 0)
    simp only [e]
    have c : ∀ w p q, 0 ≤ w → w ≤ 1 → lo ≤ p ∧ p ≤ hi → lo ≤ q ∧ q ≤ hi → lo ≤ (1 - w) * p + w * q ∧ (1 - w) * p + w * q ≤ hi := by
      intro w p q h0 h1 hp hq
      constructor <;> nlinarith [hp.1, hp.2, hq.1, hq.2]
    exact c u _ _ hu0 hu1 (c v _ _ hv0 hv1 (h a (by omega) b (by omega)) (h a (by omega) (b + 1) hb))
      (c v _ _ hv0 hv1 (h (a + 1) ha b (by omega)) (h (a + 1) ha (b + 1) hb))

/-- C493: the resizing of a combination of two images of the same shape is the combination of their resizings. -/
theorem resize_linear (p q r : Img ℝ) (s t : ℝ) (mx my : ℕ) (hp : 2 ≤ p.nx) (hp' : 2 ≤ p.ny) (hq : q.nx = p.nx) (hq' : q.ny = p.ny)
    (hr : r.nx = p.nx) (hr' : r.ny = p.ny) (e : ∀ i < p.nx, ∀ j < p.ny, r.px i j = s * p.px i j + t * q.px i j) :
    ∃ p' q' r', resize p mx my = some p' ∧ resize q mx my = some q' ∧ resize r mx my = some r' ∧
      ∀ i < mx, ∀ j < my, r'.px i j = s * p'.px i j + t * q'.px i j := by
  simp only [resize_eq, hq, hq', hr, hr']
  by_cases hs : p.nx = mx ∧ p.ny = my
  · simp only [if_pos hs]
    exact ⟨p, q, r, rfl, rfl, rfl, fun i hi j hj => e i (by omega) j (by omega)⟩
  · simp only [if_neg hs, if_neg (show ¬ (p.nx < 2 ∨ p.ny < 2) by omega)]
    refine ⟨_, _, _, rfl, rfl, rfl, fun i _ j _ => ?_⟩
    obtain ⟨a, b, u, v, ha, hb, -, -, -, -, w⟩ := surface_weights p.nx p.ny hp hp' ((axisGrid mx).getD i 0) ((axisGrid my).getD j 0)
    simp only [w, e a (by omega) b (by omega), e a (by omega) (b + 1) hb, e (a + 1) ha b (by omega), e (a + 1) ha (b + 1) hb]
    ring

/-- A new pixel whose position is that of a pixel of the image has its value. -/
theorem surface_node (n m : ℕ) (hn : 2 ≤ n) (hm : 2 ≤ m) (im : Img ℝ) (i j : ℕ) (hi : i < n) (hj : j < m) (x y : ℝ)
    (hx : x = (axisGrid n).getD i 0) (hy : y = (axisGrid m).getD j 0) : surface (axisGrid n) (axisGrid m) im x y = im.px i j := by
  subst hx hy
  unfold surface
  rw [along_node _ (grid_grows n) (by rw [grid_length]; exact hn) _ i (by rw [grid_length]; exact hi),
    along_node _ (grid_grows m) (by rw [grid_length]; exact hm) _ j (by rw [grid_length]; exact hj)]

/-- Pixel `i` of `n` is pixel `place k n i` of `k n`. -/
def place (k n i : ℕ) : ℕ := k * i + k * n / 2 - k * (n / 2)

theorem place_spec (k n i : ℕ) (hk : 0 < k) (hi : i < n) : place k n i < k * n ∧
    (axisGrid (k * n)).getD (place k n i) 0 = (axisGrid n).getD i 0 := by
  have h1 : k * (n / 2) ≤ k * n / 2 := Nat.mul_div_le_mul_div_assoc k n 2
  have h2 : k * n / 2 < k * (n / 2) + k := by
    have : n < 2 * (n / 2) + 2 := by omega
    have : k * n < 2 * (k * (n / 2) + k) := by nlinarith
    omega
  have hl : place k n i < k * n := by
    have : k * (i + 1) ≤ k * n := Nat.mul_le_mul le_rfl hi
    unfold place
    rw [mul_add] at this
    omega
  refine ⟨hl, ?_⟩
  rw [(axisGrid_spec _ _ hl).2, (axisGrid_spec _ _ hi).2]
  have hn : (0 : ℝ) < n := by exact_mod_cast (by omega : 0 < n)
  have hk' : (0 : ℝ) < k := by exact_mod_cast hk
  have e : ((place k n i : ℕ) : ℝ) = k * i + ((k * n / 2 : ℕ) : ℝ) - k * ((n / 2 : ℕ) : ℝ) := by
    unfold place
    rw [Nat.cast_sub (by omega)]
    push_cast; ring
  rw [e]
  push_cast
  field_simp
  ring

/-- C495 (partial): reduced by a whole factor, an image keeps exactly one pixel in each block, whatever the others are. Missing: means over
blocks. -/
theorem reduce_partial (k l nx ny : ℕ) (hk : 0 < k) (hl : 0 < l) (im : Img ℝ) (hx : im.nx = k * nx) (hy : im.ny = l * ny) (h2 : 2 ≤ im.nx)
    (h2' : 2 ≤ im.ny) : ∃ out, resize im nx ny = some out ∧ out.nx = nx ∧ out.ny = ny ∧
      ∀ i < nx, ∀ j < ny, place k nx i < im.nx ∧ place l ny j < im.ny ∧ out.px i j = im.px (place k nx i) (place l ny j) := by
  rw [resize_eq]
  by_cases hs : im.nx = nx ∧ im.ny = ny
  · refine ⟨im, if_pos hs, hs.1, hs.2, fun i hi j hj => ?_⟩
    have ek : k = 1 := by
      have : k * nx = 1 * nx := by rw [one_mul, ← hx]; exact hs.1
      exact Nat.eq_of_mul_eq_mul_right (by omega) this
    have el : l = 1 := by
      have : l * ny = 1 * ny := by rw [one_mul, ← hy]; exact hs.2
      exact Nat.eq_of_mul_eq_mul_right (by omega) this
    subst ek el
    have : ∀ n i, place 1 n i = i := by intro n i; unfold place; rw [one_mul, one_mul, one_mul]; omega
    rw [this, this]
    exact ⟨by omega, by omega, rfl⟩
  · rw [if_neg hs, if_neg (by omega)]
    refine ⟨_, rfl, rfl, rfl, fun i hi j hj => ?_⟩
    obtain ⟨p1, p2⟩ := place_spec k nx i hk hi
    obtain ⟨q1, q2⟩ := place_spec l ny j hl hj
    refine ⟨by omega, by omega, ?_⟩
    exact surface_node _ _ h2 h2' im _ _ (by omega) (by omega) _ _ (by rw [hx, p2]) (by rw [hy, q2])

/-- C495 (violation): reduced by a whole factor above one in a direction, an image that is dark but for one pixel can lose all of its light,
and one that is dark but for one pixel in each block gets entirely bright. -/
theorem reduce_violation (k nx ny : ℕ) (hk : 2 ≤ k) (hx : 1 ≤ nx) (hy : 2 ≤ ny) :
    ∃ a < k * nx, (∃ out, resize ⟨k * nx, ny, fun i j => if i = a ∧ j = 0 then 1 else 0⟩ nx ny = some out ∧
      ∀ i < nx, ∀ j < ny, out.px i j = 0) ∧
    ∃ lit : ℕ → ℝ, (∀ b, lit b = 0 ∨ lit b = 1) ∧ ∃ out, resize ⟨k * nx, ny, fun i _ => lit i⟩ nx ny = some out ∧
      (∀ i < nx, ∀ j < ny, out.px i j = 1) ∧ ∀ i < nx, ∃! b, (∃ r < k, b = place k nx i + r) ∧ lit b = 1 := by
  classical
  have h2 : 2 ≤ k * nx := le_trans hk (Nat.le_mul_of_pos_right k hx)
  have inj : ∀ i j r, r < k → place k nx i + r = place k nx j → r = 0 ∧ i = j := by
    intro i j r hr h
    have h1 : k * (nx / 2) ≤ k * nx / 2 := Nat.mul_div_le_mul_div_assoc k nx 2
    unfold place at h
    have h' : k * i + r = k * j := by omega
    have h3 : (k * i + r) % k = r := by rw [Nat.mul_add_mod, Nat.mod_eq_of_lt hr]
    rw [h', Nat.mul_mod_right] at h3
    subst h3
    exact ⟨rfl, Nat.eq_of_mul_eq_mul_left (by omega) h'⟩
  have one : ∀ i, place 1 ny i = i := by intro i; unfold place; rw [one_mul, one_mul, one_mul]; omega
  -- a pixel that is not kept
  obtain ⟨a, ha, hna⟩ : ∃ a < k * nx, ∀ i < nx, place k nx i ≠ a := by
    by_cases h0 : place k nx 0 = 0
    · refine ⟨1, by omega, fun i _ e => ?_⟩
      have := inj 0 i 1 (by omega) (by rw [h0]; omega)
      omega
    · refine ⟨0, by omega, fun i _ e => ?_⟩
      have h1 : k * (nx / 2) ≤ k * nx / 2 := Nat.mul_div_le_mul_div_assoc k nx 2
      unfold place at h0 e
      omega
  refine ⟨a, ha, ?_, fun b => if ∃ i < nx, b = place k nx i then 1 else 0, fun b => ?_, ?_⟩
  · obtain ⟨out, e, -, -, h⟩ := reduce_partial k 1 nx ny (by omega) (by omega) ⟨k * nx, ny, fun i j => if i = a ∧ j = 0 then 1 else 0⟩ rfl
      (one_mul ny).symm h2 hy
    refine ⟨out, e, fun i hi j hj => ?_⟩
    rw [(h i hi j hj).2.2]
    exact if_neg (fun c => hna i hi c.1)
  · dsimp only
    split_ifs <;> simp
  · obtain ⟨out, e, -, -, h⟩ := reduce_partial k 1 nx ny (by omega) (by omega)
      ⟨k * nx, ny, fun i _ => if ∃ t < nx, i = place k nx t then 1 else 0⟩ rfl (one_mul ny).symm h2 hy
    refine ⟨out, e, fun i hi j hj => ?_, fun i hi => ⟨place k nx i, ⟨⟨0, by omega, rfl⟩, if_pos ⟨i, hi, rfl⟩⟩, ?_⟩⟩
    · rw [(h i hi j hj).2.2]
      exact if_pos ⟨i, hi, rfl⟩
    · rintro b ⟨⟨r, hr, rfl⟩, hb⟩
      obtain ⟨j, hj, hb⟩ : ∃ j < nx, place k nx i + r = place k nx j := by
        by_contra hc
        dsimp only at hb
        rw [if_neg hc] at hb
        exact zero_ne_one hb
      obtain ⟨rfl, -⟩ := inj i j r hr hb
      rfl

/-- C494: an image enlarged by whole factors and reduced back is the same. -/
theorem enlarge_reduce (k l : ℕ) (hk : 0 < k) (hl : 0 < l) (im : Img ℝ) (hx : 2 ≤ im.nx) (hy : 2 ≤ im.ny) :
    ∃ big back, resize im (k * im.nx) (l * im.ny) = some big ∧ resize big im.nx im.ny = some back ∧ back.Same im := by
  obtain ⟨big, e, bx, b_y, -⟩ : ∃ big, resize im (k * im.nx) (l * im.ny) = some big ∧ big.nx = k * im.nx ∧ big.ny = l * im.ny ∧ True := by
    rw [resize_eq]
    by_cases hs : im.nx = k * im.nx ∧ im.ny = l * im.ny
    · exact ⟨im, if_pos hs, hs.1, hs.2, trivial⟩
    · rw [if_neg hs, if_neg (by omega)]
      exact ⟨_, rfl, rfl, rfl, trivial⟩
  obtain ⟨back, e', cx, cy, h⟩ := reduce_partial k l im.nx im.ny hk hl big bx b_y (by rw [bx]; nlinarith) (by rw [b_y]; nlinarith)
  refine ⟨big, back, e, e', cx, cy, fun i hi j hj => ?_⟩
  rw [cx] at hi
  rw [cy] at hj
  rw [(h i hi j hj).2.2]
  obtain ⟨p1, p2⟩ := place_spec k im.nx i hk hi
  obtain ⟨q1, q2⟩ := place_spec l im.ny j hl hj
  rw [resize_eq] at e
  by_cases hs : im.nx = k * im.nx ∧ im.ny = l * im.ny
  · rw [if_pos hs] at e
    obtain rfl := Option.some.inj e
    have ek : k = 1 := Nat.eq_of_mul_eq_mul_right (by omega : 0 < im.nx) (by rw [one_mul]; exact hs.1.symm)
    have el : l = 1 := Nat.eq_of_mul_eq_mul_right (by omega : 0 < im.ny) (by rw [one_mul]; exact hs.2.symm)
    subst ek el
    have : ∀ n i, place 1 n i = i := by intro n i; unfold place; rw [one_mul, one_mul, one_mul]; omega
    rw [this, this]
  · rw [if_neg hs, if_neg (by omega)] at e
    obtain rfl := Option.some.inj e
    exact surface_node _ _ hx hy im i j hi hj _ _ p2 q2

/-! ### Segmented modes at low resolution -/

theorem mapM_some {α β : Type} (g : α → β) (l : List α) : l.mapM (fun a => (some (g a) : Option β)) = some (l.map g) := by
  induction l with
  | nil => rfl
  | cons a l ih => rw [List.mapM_cons, ih]; rfl

/-- C496: segmented modes at low resolution are those at high resolution resized, and for segments without common pixel they stay within half a
turn. -/
theorem lowRes_spec (n m : ℕ) (hn : 2 ≤ n) {s : ℕ} (lit : Fin n × Fin n → Bool) (seg : Fin s → Fin n × Fin n → Bool) (z : Fin n × Fin n → ℝ) :
    ∃ low out, lowRes n m lit seg z = some low ∧
      resize ⟨n, n, fun a b => if h : a < n ∧ b < n then SegModes.mode lit seg z (⟨a, h.1⟩, ⟨b, h.2⟩) else 0⟩ m m = some out ∧
      (∀ a < m, ∀ b < m, low a b = out.px a b) ∧
      ((∀ i j p, seg i p = true → seg j p = true → i = j) → ∀ a < m, ∀ b < m, -Real.pi ≤ low a b ∧ low a b ≤ Real.pi) := by
  let angle (j : Fin s) : Img ℝ := ⟨n, n, fun a b =>
    if h : a < n ∧ b < n then (SegModes.piston lit (seg j) (SegModes.value lit (seg j) z) (⟨a, h.1⟩, ⟨b, h.2⟩)).arg else 0⟩
  let high : Img ℝ := ⟨n, n, fun a b => if h : a < n ∧ b < n then SegModes.mode lit seg z (⟨a, h.1⟩, ⟨b, h.2⟩) else 0⟩
  have tot : ∀ a b, high.px a b = ((List.finRange s).map fun j => (angle j).px a b).sum := by
    intro a b
    by_cases h : a < n ∧ b < n
    · simp only [high, angle, dif_pos h, SegModes.mode, Fin.sum_univ_def]
    · simp only [high, angle, dif_neg h]
      induction List.finRange s with
      | nil => rfl
      | cons _ _ ih => simpa using ih
  have main : ∃ low out, lowRes n m lit seg z = some low ∧ resize high m m = some out ∧ ∀ a < m, ∀ b < m, low a b = out.px a b := by
    have hl : lowRes n m lit seg z = ((List.finRange s).mapM fun j => resize (angle j) m m).map fun l a b => (l.map fun im => im.px a b).sum := rfl
    rw [hl]
    simp only [resize_eq]
    show ∃ low out, Option.map _ (List.mapM (fun j => if n = m ∧ n = m then some (angle j) else if n < 2 ∨ n < 2 then none else _) _) = some low ∧
      (if n = m ∧ n = m then some high else if n < 2 ∨ n < 2 then none else _) = some out ∧ _
    by_cases hs : n = m ∧ n = m
    · simp only [if_pos hs, mapM_some]
      refine ⟨_, _, rfl, rfl, fun a _ b _ => ?_⟩
      rw [tot]
      simp only [List.map_map, Function.comp_def]
    · simp only [if_neg hs, if_neg (show ¬ (n < 2 ∨ n < 2) by omega), mapM_some]
      refine ⟨_, _, rfl, rfl, fun a _ b _ => ?_⟩
      obtain ⟨c, d, u, v, hc, hd, -, -, -, -, w⟩ := surface_weights n n hn hn ((axisGrid m).getD a 0) ((axisGrid m).getD b 0)
      simp only [List.map_map, Function.comp_def]
      show (List.map (fun j => surface (axisGrid n) (axisGrid n) (angle j) _ _) _).sum = surface (axisGrid n) (axisGrid n) high _ _
      simp only [w, tot]
      induction List.finRange s with
      | nil => simp
      | cons j l ih => simp only [List.map_cons, List.sum_cons, ih]; ring
  obtain ⟨low, out, e1, e2, h⟩ := main
  refine ⟨low, out, e1, e2, h, fun disj a ha b hb => ?_⟩
  rw [h a ha b hb]
  obtain ⟨out', e3, -, -, h'⟩ := resize_range high m m hn hn (-Real.pi) Real.pi (by
    intro i hi j hj
    show -Real.pi ≤ high.px i j ∧ high.px i j ≤ Real.pi
    simp only [high, dif_pos (show i < n ∧ j < n from ⟨hi, hj⟩)]
    obtain ⟨h0, h1⟩ := SegModes.mode_partial lit seg z disj (⟨i, hi⟩, ⟨j, hj⟩)
    by_cases c : lit (⟨i, hi⟩, ⟨j, hj⟩) = true ∧ ∃ k, seg k (⟨i, hi⟩, ⟨j, hj⟩) = true
    · obtain ⟨c1, k, c2⟩ := c
      exact ⟨(h1 k c1 c2).2.2.1.le, (h1 k c1 c2).2.2.2⟩
    · rw [h0 (by
        by_contra hc
        push Not at hc
        obtain ⟨hc1, k, hc2⟩ := hc
        exact c ⟨by simpa using hc1, k, by simpa using hc2⟩)]
      exact ⟨by linarith [Real.pi_pos], Real.pi_pos.le⟩)
  rw [e2] at e3
  obtain rfl := Option.some.inj e3
  exact h' a ha b hb

/-! ### Cases -/

-- C493: two by two pixels enlarged to four by four
example : ∃ out, resize ⟨2, 2, fun i j => (i : ℝ) + j⟩ 4 4 = some out ∧ out.nx = 4 ∧ out.ny = 4 ∧
    ∀ i < 4, ∀ j < 4, 0 ≤ out.px i j ∧ out.px i j ≤ 2 := by
  refine resize_range _ 4 4 le_rfl le_rfl 0 2 fun i hi j hj => ?_
  have hi : i < 2 := hi
  have hj : j < 2 := hj
  interval_cases i <;> interval_cases j <;> norm_num

-- C494, C495: a pupil of four pixels reduced to two keeps one pixel in four
example : ∃ out, resize ⟨4, 4, fun i j => if i = 1 ∧ j = 1 then 1 else 0⟩ 2 2 = some out ∧ out.px 0 0 = 0 ∧ out.px 1 1 = 0 := by
  obtain ⟨out, e, -, -, h⟩ := reduce_partial 2 2 2 2 two_pos two_pos ⟨4, 4, fun i j => if i = 1 ∧ j = 1 then (1 : ℝ) else 0⟩ rfl rfl
    (by norm_num) (by norm_num)
  exact ⟨out, e, by rw [(h 0 two_pos 0 two_pos).2.2]; norm_num [place], by rw [(h 1 one_lt_two 1 one_lt_two).2.2]; norm_num [place]⟩

example : ∃ big back, resize ⟨3, 5, fun i j => (i : ℝ) * j⟩ 6 5 = some big ∧ resize big 3 5 = some back ∧
    back.Same ⟨3, 5, fun i j => (i : ℝ) * j⟩ :=
  enlarge_reduce 2 1 two_pos one_pos ⟨3, 5, fun i j => (i : ℝ) * j⟩ (by norm_num) (by norm_num)

-- C496: a single segment that covers the array, and a mode of one
example : ∃ low, lowRes 4 2 (s := 1) (fun _ => true) (fun _ _ => true) (fun _ => 1) = some low := by
  obtain ⟨low, -, e, -⟩ := lowRes_spec 4 2 (by norm_num) (s := 1) (fun _ => true) (fun _ _ => true) (fun _ => 1)
  exact ⟨low, e⟩

/-! ### The nearest pixel -/

/-- Whole position of pixel `i`: twice `i (n-1) / (m-1)`, plus one, over two. -/
theorem zoomPos_eq (n m i : ℕ) (hn : 1 ≤ n) (hm : 2 ≤ m) : zoomPos n m i = (2 * i * (n - 1) + (m - 1)) / (2 * (m - 1)) := by
  unfold zoomPos
  rw [if_neg (by omega)]
  obtain ⟨a, rfl⟩ := Nat.exists_eq_add_of_le' hn
  obtain ⟨b, rfl⟩ := Nat.exists_eq_add_of_le' (show 1 ≤ m by omega)
  have hb : (0 : ℝ) < b := by exact_mod_cast (by omega : 0 < b)
  have e : (i : ℝ) * ((((a + 1 : ℕ) : ℝ) - 1) / (((b + 1 : ℕ) : ℝ) - 1)) + 1 / 2 = ((2 * i * a + b : ℕ) : ℝ) / ((2 * b : ℕ) : ℝ) := by
    push_cast
    rw [add_sub_cancel_right, add_sub_cancel_right]
    field_simp
  rw [e, Nat.floor_div_eq_div]
  simp

theorem zoomPos_lt (n m i : ℕ) (hn : 1 ≤ n) (hi : i < m) : zoomPos n m i < n := by
  rcases Nat.lt_or_ge m 2 with h | h
  · have : i = 0 := by omega
    subst this
    have : zoomPos n m 0 = 0 := by unfold zoomPos; norm_num
    omega
  · rw [zoomPos_eq n m i hn h, Nat.div_lt_iff_lt_mul (by omega)]
    obtain ⟨a, rfl⟩ := Nat.exists_eq_add_of_le' hn
    obtain ⟨b, rfl⟩ := Nat.exists_eq_add_of_le' (show 1 ≤ m by omega)
    have : i * a ≤ b * a := Nat.mul_le_mul_right a (by omega)
    simp only [Nat.add_sub_cancel]
    nlinarith

/-- C497: resizing by the nearest pixel gives the size asked for, holds only values that the image has (a mask of zeros and ones stays one),
and keeps the four corners when there is more than one new pixel along each axis. -/
theorem nearest_values (im : Img ℝ) (mx my : ℕ) (hx : 1 ≤ im.nx) (hy : 1 ≤ im.ny) :
    (nearest im mx my).nx = mx ∧ (nearest im mx my).ny = my ∧
    (∀ i < mx, ∀ j < my, ∃ a < im.nx, ∃ b < im.ny, (nearest im mx my).px i j = im.px a b) ∧
    (2 ≤ mx → 2 ≤ my → (nearest im mx my).px 0 0 = im.px 0 0 ∧ (nearest im mx my).px (mx - 1) 0 = im.px (im.nx - 1) 0 ∧
      (nearest im mx my).px 0 (my - 1) = im.px 0 (im.ny - 1) ∧ (nearest im mx my).px (mx - 1) (my - 1) = im.px (im.nx - 1) (im.ny - 1)) := by
  unfold nearest
  by_cases h : im.nx = mx ∧ im.ny = my
  · rw [if_pos h]
    refine ⟨h.1, h.2, fun i hi j hj => ⟨i, by omega, j, by omega, rfl⟩, fun _ _ => ?_⟩
    rw [h.1, h.2]
    exact ⟨rfl, rfl, rfl, rfl⟩
  · rw [if_neg h]
    refine ⟨rfl, rfl, fun i hi j hj => ⟨_, zoomPos_lt _ _ _ hx hi, _, zoomPos_lt _ _ _ hy hj, rfl⟩, fun h1 h2 => ?_⟩
    have first : ∀ n m : ℕ, zoomPos n m 0 = 0 := by intro n m; unfold zoomPos; norm_num
    have last : ∀ n m : ℕ, 1 ≤ n → 2 ≤ m → zoomPos n m (m - 1) = n - 1 := by
      intro n m hn hm
      unfold zoomPos
      rw [if_neg (by omega)]
      obtain ⟨a, rfl⟩ := Nat.exists_eq_add_of_le' hn
      obtain ⟨b, rfl⟩ := Nat.exists_eq_add_of_le' (show 1 ≤ m by omega)
      have hb : (0 : ℝ) < b := by exact_mod_cast (by omega : 0 < b)
      have e : ((b + 1 - 1 : ℕ) : ℝ) * ((((a + 1 : ℕ) : ℝ) - 1) / (((b + 1 : ℕ) : ℝ) - 1)) + 1 / 2 = (a : ℝ) + 1 / 2 := by
        push_cast
        rw [add_sub_cancel_right, add_sub_cancel_right]
        field_simp
      rw [e, Nat.floor_eq_iff (by positivity)]
      rw [Nat.add_sub_cancel]
      constructor <;> linarith
    simp only [first, last _ _ hx h1, last _ _ hy h2, and_self]

/-- C498: with linear interpolation the centre of the image goes to the centre of the result. -/
theorem centre_linear_partial (im : Img ℝ) (mx my : ℕ) (hx : 2 ≤ im.nx) (hy : 2 ≤ im.ny) (hm : 1 ≤ mx) (hm' : 1 ≤ my) :
    ∃ out, resize im mx my = some out ∧ out.px (mx / 2) (my / 2) = im.px (im.nx / 2) (im.ny / 2) := by
  rw [resize_eq]
  by_cases hs : im.nx = mx ∧ im.ny = my
  · exact ⟨im, if_pos hs, by rw [hs.1, hs.2]⟩
  · rw [if_neg hs, if_neg (by omega)]
    refine ⟨_, rfl, ?_⟩
    refine surface_node _ _ hx hy im _ _ (by omega) (by omega) _ _ ?_ ?_
    · rw [(Metrics.axisGrid_spec mx _ (by omega)).2, (Metrics.axisGrid_spec im.nx _ (by omega)).2]
      simp
    · rw [(Metrics.axisGrid_spec my _ (by omega)).2, (Metrics.axisGrid_spec im.ny _ (by omega)).2]
      simp

/-- C498 (partial): with the nearest pixel, the centre goes to the centre along an axis exactly if the new size is odd, or the old one is
even and less than twice the new one less one, or the old one is odd and smaller. Missing: the other sizes. -/
theorem centre_nearest_partial (n m : ℕ) (hn : 1 ≤ n) (hm : 2 ≤ m) : zoomPos n m (m / 2) = n / 2 ↔
    m % 2 = 1 ∨ n % 2 = 0 ∧ n < 2 * m - 1 ∨ n % 2 = 1 ∧ n < m := by
  rw [zoomPos_eq n m _ hn hm]
  obtain ⟨a, rfl⟩ := Nat.exists_eq_add_of_le' hn
  obtain ⟨b, rfl⟩ := Nat.exists_eq_add_of_le' (show 1 ≤ m by omega)
  simp only [Nat.add_sub_cancel]
  have hb : 0 < b := by omega
  rw [Nat.div_eq_iff (by omega : 0 < 2 * b)]
  rcases Nat.even_or_odd' b with ⟨c, rfl | rfl⟩
  · -- new size odd
    have e : (2 * c + 1) / 2 = c := by omega
    rw [e]
    refine ⟨fun _ => Or.inl (by omega), fun _ => ?_⟩
    rcases Nat.even_or_odd' a with ⟨d, rfl | rfl⟩
    · have : (2 * d + 1) / 2 = d := by omega
      rw [this]
      have e1 : 2 * c * (2 * d) + 2 * c = d * (2 * (2 * c)) + 2 * c := by ring
      rw [e1]; constructor <;> omega
    · have : (2 * d + 1 + 1) / 2 = d + 1 := by omega
      rw [this]
      constructor
      · nlinarith
      · have : 2 * c * (2 * d + 1) + 2 * c < (d + 1) * (2 * (2 * c)) + 2 * (2 * c) := by nlinarith
        omega
  · have e : (2 * c + 1 + 1) / 2 = c + 1 := by omega
    rw [e]
    rcases Nat.even_or_odd' a with ⟨d, rfl | rfl⟩
    · have : (2 * d + 1) / 2 = d := by omega
      rw [this]
      have e1 : 2 * (c + 1) * (2 * d) + (2 * c + 1) = d * (2 * (2 * c + 1)) + (2 * d + (2 * c + 1)) := by ring
      rw [e1]
      constructor
      · rintro ⟨h1, h2⟩; right; right; omega
      · rintro (h | h | h) <;> omega
    · have : (2 * d + 1 + 1) / 2 = d + 1 := by omega
      rw [this]
      have e1 : 2 * (c + 1) * (2 * d + 1) + (2 * c + 1) = (d + 1) * (2 * (2 * c + 1)) + (2 * d + 1) := by ring
      rw [e1]
      constructor
      · rintro ⟨h1, h2⟩; right; left; omega
      · rintro (h | h | h) <;> omega

/-- C498 (violation): a square image reduced by the nearest pixel to an even size less than half of its own (or smaller than an odd one) shows
at its centre another pixel than the centre, so that the two kinds put the image at different places. -/
theorem centre_violation (n m : ℕ) (hn : 2 ≤ n) (hm : 1 ≤ m) (h : 2 * (2 * m) - 1 ≤ n ∨ n % 2 = 1 ∧ 2 * m < n) :
    ∃ im : Img ℝ, im.nx = n ∧ im.ny = n ∧ (nearest im (2 * m) (2 * m)).px m m = 0 ∧
      ∃ out, resize im (2 * m) (2 * m) = some out ∧ out.px m m = 1 := by
  refine ⟨⟨n, n, fun i j => if i = n / 2 ∧ j = n / 2 then 1 else 0⟩, rfl, rfl, ?_, ?_⟩
  · unfold nearest
    rw [if_neg (fun c : n = 2 * m ∧ n = 2 * m => by omega)]
    refine if_neg fun c => ?_
    have := (centre_nearest_partial n (2 * m) (by omega) (by omega)).1 (by rw [show 2 * m / 2 = m by omega]; exact c.1)
    omega
  · obtain ⟨out, e, h⟩ := centre_linear_partial ⟨n, n, fun i j => if i = n / 2 ∧ j = n / 2 then (1 : ℝ) else 0⟩ (2 * m) (2 * m) hn hn
      (by omega) (by omega)
    rw [show 2 * m / 2 = m by omega] at h
    exact ⟨out, e, by rw [h]; exact if_pos ⟨rfl, rfl⟩⟩

-- C497, C498: eight pixels to two
example : zoomPos 8 2 1 = 7 := by rw [zoomPos_eq 8 2 1 (by norm_num) le_rfl]

example : ∃ im : Img ℝ, im.nx = 8 ∧ im.ny = 8 ∧ (nearest im 2 2).px 1 1 = 0 ∧ ∃ out, resize im 2 2 = some out ∧ out.px 1 1 = 1 :=
  centre_violation 8 1 (by norm_num) le_rfl (Or.inl (by norm_num))

example : zoomPos 5 8 4 = 5 / 2 := (centre_nearest_partial 5 8 (by norm_num) (by norm_num)).2 (by norm_num)

/-! ### The pupil of a telescope -/

/-- C499 (partial): without rotation, a square map of at least two pixels across, whose values are numbers between `lo` and `hi` or not
numbers, is loaded with the resolution asked for and values between `lo` and `hi`, when zero is between them. Missing: with a rotation (the
spline of third degree of scipy is a parameter). -/
theorem loaded_range_partial (rot : ℝ → Img ℝ → ℕ → ℕ → ℝ) (res : ℕ) (im : Img (Option ℝ)) (hs : im.ny = im.nx) (h2 : 2 ≤ im.nx) (lo hi : ℝ)
    (h0 : lo ≤ 0 ∧ 0 ≤ hi) (h : ∀ i < im.nx, ∀ j < im.ny, ∀ x, im.px i j = some x → lo ≤ x ∧ x ≤ hi) :
    ∃ r, Remaining.load surface rot 0 res im = .ok r ∧ r.nx = res ∧ r.ny = res ∧ ∀ i < res, ∀ j < res, lo ≤ r.px i j ∧ r.px i j ≤ hi := by
  obtain ⟨out, e, hx, hy, hr⟩ := resize_range ⟨im.nx, im.ny, fun i j => (im.px i j).getD 0⟩ res res h2 (by rw [← hs] at h2; exact h2) lo hi (by
    intro i hi' j hj
    show lo ≤ (im.px i j).getD 0 ∧ (im.px i j).getD 0 ≤ hi
    cases c : im.px i j with
    | none => exact h0
    | some x => exact h i hi' j hj x c)
  refine ⟨out, ?_, hx, hy, hr⟩
  unfold Remaining.load
  simp only [ne_eq, not_true_eq_false, if_false]
  unfold resize at e
  by_cases c : im.nx = res
  · rw [if_neg (by rw [not_not]; exact c)]
    rw [if_neg (fun k => k.1 ⟨c, hs.trans c⟩)] at e
    unfold Metrics.interpolate at e
    rw [if_pos ⟨c, hs.trans c⟩] at e
    exact congrArg Except.ok (Option.some.inj e)
  · rw [if_pos c]
    rw [if_neg (fun k => by have := k.2; simp only at this; omega)] at e
    cases k : Metrics.interpolate surface false ⟨im.nx, im.ny, fun i j => (im.px i j).getD 0⟩ res res with
    | error x => rw [k] at e; cases e
    | ok y => rw [k] at e; exact congrArg Except.ok (Option.some.inj e)

-- C499: a map of three by three pixels with a hole
example : ∃ r, Remaining.load surface (fun _ _ _ _ => 7) 0 8 ⟨3, 3, fun i j => if i = 1 ∧ j = 1 then none else some 1⟩ = .ok r ∧ r.nx = 8 ∧ r.ny = 8 ∧
    ∀ i < 8, ∀ j < 8, 0 ≤ r.px i j ∧ r.px i j ≤ 1 := by
  refine loaded_range_partial _ 8 _ rfl (by norm_num) 0 1 ⟨le_rfl, zero_le_one⟩ fun i _ j _ x hx => ?_
  simp only at hx
  split_ifs at hx
  cases hx
  exact ⟨zero_le_one, le_rfl⟩

end P3.Resize
