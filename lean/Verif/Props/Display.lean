import Verif.Model.Display
import Verif.Props.Energy
/-! C471, C472: the figures of a simulation. -/
namespace P3.Display
open P3.Images Finset

theorem shown_eq {ee : List ℝ} {ps R v : ℝ} (h : shown ee ps R = some v) :
    ∃ hn : ⌊R / ps⌋₊ + 1 < ee.length, v = (R / ps - ⌊R / ps⌋₊) * ee[⌊R / ps⌋₊ + 1] +
      (⌊R / ps⌋₊ + 1 - R / ps) * ee[⌊R / ps⌋₊] := by
  unfold shown at h
  simp only at h
  split at h
  · rename_i lo hi h1 h2
    obtain ⟨l1, h1⟩ := List.getElem?_eq_some_iff.1 h1
    obtain ⟨l2, h2⟩ := List.getElem?_eq_some_iff.1 h2
    refine ⟨l2, ?_⟩
    rw [h1, h2]; exact (Option.some.inj h).symm
  · cases h

/-- C471: a value is drawn exactly when the radius and the next sample are inside the curve. -/
theorem shown_defined (ee : List ℝ) (ps R : ℝ) : (∃ v, shown ee ps R = some v) ↔ ⌊R / ps⌋₊ + 1 < ee.length := by
  constructor
  · rintro ⟨v, h⟩; exact (shown_eq h).1
  · intro h
    unfold shown
    simp only [List.getElem?_eq_getElem h, List.getElem?_eq_getElem (show ⌊R / ps⌋₊ < ee.length by omega)]
    exact ⟨_, rfl⟩

/-- C471: between two samples the value drawn is on the line that joins them. -/
theorem shown_line (ee : List ℝ) (ps t : ℝ) (hps : 0 < ps) (n : ℕ) (hn : n + 1 < ee.length) (h0 : 0 ≤ t) (h1 : t < 1) :
    shown ee ps ((n + t) * ps) = some ((1 - t) * ee[n] + t * ee[n + 1]) := by
  have e : (n + t) * ps / ps = n + t := by field_simp
  have f : ⌊(n:ℝ) + t⌋₊ = n := by
    rw [Nat.floor_eq_iff (by positivity)]
    constructor <;> linarith
  unfold shown
  simp only [e, f, List.getElem?_eq_getElem hn, List.getElem?_eq_getElem (show n < ee.length by omega)]
  congr 1
  ring

/-- C471: for a curve that grows, the value grows with the radius and stays between the two neighbouring samples. -/
theorem shown_mono (ee : List ℝ) (hm : ee.Pairwise (· ≤ ·)) (ps : ℝ) (hps : 0 < ps) (R S v w : ℝ) (hR : 0 ≤ R) (hRS : R ≤ S)
    (h : shown ee ps R = some v) (h' : shown ee ps S = some w) :
    v ≤ w ∧ ∃ n : ℕ, ∃ hn : n + 1 < ee.length, n * ps ≤ R ∧ R < (n + 1) * ps ∧ ee[n] ≤ v ∧ v ≤ ee[n + 1] := by
  obtain ⟨l, rfl⟩ := shown_eq h
  obtain ⟨l', rfl⟩ := shown_eq h'
  have key : ∀ i j (hij : i ≤ j) (hj : j < ee.length), ee[i] ≤ ee[j] := by
    intro i j hij hj
    rcases Nat.lt_or_eq_of_le hij with h | rfl
    · exact List.pairwise_iff_getElem.1 hm i j (by omega) hj h
    · exact le_rfl
  have q : R / ps ≤ S / ps := div_le_div_of_nonneg_right hRS hps.le
  have q0 : 0 ≤ R / ps := by positivity
  have a1 := Nat.floor_le q0
  have a2 := Nat.lt_floor_add_one (R / ps)
  have b1 := Nat.floor_le (q0.trans q)
  have b2 := Nat.lt_floor_add_one (S / ps)
  have fl : ⌊R / ps⌋₊ ≤ ⌊S / ps⌋₊ := Nat.floor_mono q
  refine ⟨?_, ⌊R / ps⌋₊, l, ?_, ?_, ?_, ?_⟩
  · rcases Nat.lt_or_eq_of_le fl with f | f
    · have k1 := key _ _ (show ⌊R / ps⌋₊ ≤ ⌊R / ps⌋₊ + 1 by omega) l
      have k2 := key (⌊R / ps⌋₊ + 1) ⌊S / ps⌋₊ f (by omega)
      have k3 := key _ _ (show ⌊S / ps⌋₊ ≤ ⌊S / ps⌋₊ + 1 by omega) l'
      have u : (R / ps - ⌊R / ps⌋₊) * ee[⌊R / ps⌋₊ + 1] + (⌊R / ps⌋₊ + 1 - R / ps) * ee[⌊R / ps⌋₊] ≤ ee[⌊R / ps⌋₊ + 1] := by
        nlinarith
      have v : ee[⌊S / ps⌋₊] ≤ (S / ps - ⌊S / ps⌋₊) * ee[⌊S / ps⌋₊ + 1] + (⌊S / ps⌋₊ + 1 - S / ps) * ee[⌊S / ps⌋₊] := by
        nlinarith
      exact u.trans (k2.trans v)
    · have k1 := key _ _ (show ⌊R / ps⌋₊ ≤ ⌊R / ps⌋₊ + 1 by omega) l
      have e1 : ee[⌊S / ps⌋₊] = ee[⌊R / ps⌋₊] := by congr 1; exact f.symm
      have e2 : ee[⌊S / ps⌋₊ + 1] = ee[⌊R / ps⌋₊ + 1] := by congr 2; exact f.symm
      rw [e1, e2, ← f]
      nlinarith
  · rwa [← le_div_iff₀ hps]
  · rwa [← div_lt_iff₀ hps]
  · have k1 := key _ _ (show ⌊R / ps⌋₊ ≤ ⌊R / ps⌋₊ + 1 by omega) l
    nlinarith
  · have k1 := key _ _ (show ⌊R / ps⌋₊ ≤ ⌊R / ps⌋₊ + 1 by omega) l
    nlinarith

/-- C471 (partial): what the figures of the ensquared energies have at `n` pixels is the energy of the square of `2n+1` pixels around
the peak, of side `2R+ps`; one title says `R`, the other `2R`. -/
theorem square_partial (im : Img ℝ) (y0 x0 n : ℕ) (hy : n ≤ y0) (hx : n ≤ x0) (hy' : y0 + n < im.nx) (hx' : x0 + n < im.ny)
    (hf : flux im ≠ 0) (ps : ℝ) (hps : 0 < ps) :
    ∃ e, ensquared im y0 x0 = some e ∧ squareSimple e [ps] (n * ps) = some ⟨n * ps, boxFlux im y0 x0 n / flux im⟩ ∧
      squareContour e [ps] 0 (n * ps) = some ⟨2 * (n * ps), boxFlux im y0 x0 n / flux im⟩ := by
  refine ⟨_, by unfold ensquared; rw [if_neg hf], ?_⟩
  have sh := fun h => shown_line ((List.range (min (im.nx - y0) (im.ny - x0) + 1)).map (fun n => boxSum im y0 x0 n / flux im)) ps 0
    hps n h le_rfl one_pos
  have sh := sh (by rw [List.length_map, List.length_range]; omega)
  simp only [add_zero, List.getElem_map, List.getElem_range, sub_zero, one_mul, zero_mul] at sh
  rw [ensquared_box im y0 x0 n (by omega) (by omega) hy hx] at sh
  unfold squareSimple squareContour
  simp only [List.getElem?_cons_zero, sh, Option.map_some]
  refine ⟨trivial, ?_⟩
  rw [mul_comm]

/-- Larger squares have more energy when the pixels of the image are positive. -/
theorem boxFlux_lt (im : Img ℝ) (y0 x0 m n : ℕ) (hmn : m < n) (hy' : y0 + n < im.nx) (hx' : x0 < im.ny)
    (hv : ∀ i < im.nx, ∀ j < im.ny, 0 < im.px i j) : boxFlux im y0 x0 m < boxFlux im y0 x0 n := by
  have le : ∀ i ∈ range im.nx, ∀ j ∈ range im.ny, (if |(i:ℤ) - y0| ≤ m ∧ |(j:ℤ) - x0| ≤ m then im.px i j else 0) ≤
      if |(i:ℤ) - y0| ≤ n ∧ |(j:ℤ) - x0| ≤ n then im.px i j else 0 := by
    intro i hi j hj
    have p := hv i (mem_range.1 hi) j (mem_range.1 hj)
    by_cases h : |(i:ℤ) - y0| ≤ m ∧ |(j:ℤ) - x0| ≤ m
    · rw [if_pos h, if_pos ⟨by omega, by omega⟩]
    · rw [if_neg h]; split_ifs <;> [exact p.le; exact le_rfl]
  unfold boxFlux
  refine sum_lt_sum (fun i hi => sum_le_sum (le i hi)) ⟨y0 + n, mem_range.2 hy', ?_⟩
  refine sum_lt_sum (le _ (mem_range.2 hy')) ⟨x0, mem_range.2 hx', ?_⟩
  have e : ((y0 + n : ℕ) : ℤ) - y0 = n := by push_cast; ring
  have p := hv _ hy' _ hx'
  rw [e, if_neg (by rintro ⟨h, -⟩; rw [Nat.abs_cast] at h; omega), if_pos (by constructor <;> simp)]
  exact p

/-- C471 (violation): under the title of a square of side `R = (2k+1)·ps` the energy shown is more than that of this square, for every
positive image with room around its peak. -/
theorem square_violation (im : Img ℝ) (y0 x0 k : ℕ) (hy : 2 * k + 1 ≤ y0) (hx : 2 * k + 1 ≤ x0) (hy' : y0 + (2 * k + 1) < im.nx)
    (hx' : x0 + (2 * k + 1) < im.ny) (hv : ∀ i < im.nx, ∀ j < im.ny, 0 < im.px i j) (ps : ℝ) (hps : 0 < ps) :
    ∃ e s, ensquared im y0 x0 = some e ∧ squareSimple e [ps] ((2 * k + 1 : ℕ) * ps) = some s ∧ s.side = (2 * k + 1) * ps ∧
      boxFlux im y0 x0 k / flux im < s.value := by
  have f : 0 < flux im := by
    unfold flux
    refine sum_pos (fun i hi => sum_pos (fun j hj => hv i (mem_range.1 hi) j (mem_range.1 hj)) ⟨x0, mem_range.2 (by omega)⟩)
      ⟨y0, mem_range.2 (by omega)⟩
  obtain ⟨e, he, hs, -⟩ := square_partial im y0 x0 (2 * k + 1) hy hx hy' hx' f.ne' ps hps
  refine ⟨e, _, he, hs, by push_cast; ring, ?_⟩
  exact div_lt_div_of_pos_right (boxFlux_lt im y0 x0 k (2 * k + 1) (by omega) hy' (by omega) hv) f

/-- The value depends on the radius in pixels. -/
theorem shown_scale (ee : List ℝ) (ps R : ℝ) : shown ee ps R = shown ee 1 (R / ps) := by
  unfold shown; simp only [div_one]

/-- C471 (violation): the contours of the ensquared energy at another wavelength than the first are read at the scale of the first: with
smaller pixels at the first wavelength a growing curve is overestimated. -/
theorem contour_scale_violation (ee : List ℝ) (hm : ee.Pairwise (· < ·)) (p0 p1 R : ℝ) (h0 : 0 < p0) (h01 : p0 < p1) (hR : 0 < R)
    (hd : ⌊R / p0⌋₊ + 1 < ee.length) :
    ∃ s c, squareContour ee [p0, p1] 1 R = some s ∧ circleContour ee [p0, p1] 1 R = some c ∧ s.side = c.side ∧ c.value < s.value := by
  have h1 : 0 < p1 := h0.trans h01
  have q : R / p1 < R / p0 := div_lt_div_of_pos_left hR h0 h01
  have q0 : 0 < R / p1 := by positivity
  have fl : ⌊R / p1⌋₊ ≤ ⌊R / p0⌋₊ := Nat.floor_mono q.le
  obtain ⟨v, hv⟩ := (shown_defined ee p1 R).2 (by omega)
  obtain ⟨w, hw⟩ := (shown_defined ee p0 R).2 hd
  refine ⟨⟨R * 2, w⟩, ⟨R * 2, v⟩, by simp [squareContour, hw], by simp [circleContour, hv], rfl, ?_⟩
  show v < w
  obtain ⟨l, rfl⟩ := shown_eq hv
  obtain ⟨l', rfl⟩ := shown_eq hw
  have key : ∀ i j (hij : i < j) (hj : j < ee.length), ee[i] < ee[j] := fun i j hij hj =>
    List.pairwise_iff_getElem.1 hm i j (by omega) hj hij
  have a1 := Nat.floor_le q0.le
  have a2 := Nat.lt_floor_add_one (R / p1)
  have b1 := Nat.floor_le (q0.trans q).le
  have b2 := Nat.lt_floor_add_one (R / p0)
  have k1 := key _ _ (show ⌊R / p1⌋₊ < ⌊R / p1⌋₊ + 1 by omega) l
  rcases Nat.lt_or_eq_of_le fl with f | f
  · have k2 : ee[⌊R / p1⌋₊ + 1] ≤ ee[⌊R / p0⌋₊] := by
      rcases Nat.lt_or_eq_of_le (Nat.succ_le_of_lt f) with g | g
      · exact (key _ _ g (by omega)).le
      · exact le_of_eq (by congr 1)
    have k3 := key _ _ (show ⌊R / p0⌋₊ < ⌊R / p0⌋₊ + 1 by omega) l'
    have u : (R / p1 - ⌊R / p1⌋₊) * ee[⌊R / p1⌋₊ + 1] + (⌊R / p1⌋₊ + 1 - R / p1) * ee[⌊R / p1⌋₊] < ee[⌊R / p1⌋₊ + 1] := by
      nlinarith
    have v : ee[⌊R / p0⌋₊] ≤ (R / p0 - ⌊R / p0⌋₊) * ee[⌊R / p0⌋₊ + 1] + (⌊R / p0⌋₊ + 1 - R / p0) * ee[⌊R / p0⌋₊] := by
      nlinarith
    exact u.trans_le (k2.trans v)
  · have e1 : ee[⌊R / p0⌋₊] = ee[⌊R / p1⌋₊] := by congr 1; exact f.symm
    have e2 : ee[⌊R / p0⌋₊ + 1] = ee[⌊R / p1⌋₊ + 1] := by congr 2; exact f.symm
    rw [e1, e2, ← f]
    nlinarith

/-! ### C472 -/

theorem argmin_spec : ∀ l : List ℝ, l ≠ [] → argmin l < l.length ∧ ∀ x ∈ l, l.getD (argmin l) 0 ≤ x
  | [], h => (h rfl).elim
  | [a], _ => by simp [argmin]
  | a :: b :: l, _ => by
    obtain ⟨h1, h2⟩ := argmin_spec (b :: l) (by simp)
    unfold argmin
    split_ifs with h
    · refine ⟨by simp, fun x hx => ?_⟩
      rcases List.mem_cons.1 hx with rfl | hx
      · simp
      · simpa using h.trans (h2 x hx)
    · refine ⟨by simpa using h1, fun x hx => ?_⟩
      rw [List.getD_cons_succ]
      rcases List.mem_cons.1 hx with rfl | hx
      · exact (not_le.1 h).le
      · exact h2 x hx

theorem argmax_spec (l : List ℝ) (hl : l ≠ []) : argmax l < l.length ∧ ∀ x ∈ l, x ≤ l.getD (argmax l) 0 := by
  obtain ⟨h1, h2⟩ := argmin_spec (l.map (- ·)) (by simpa using hl)
  rw [List.length_map] at h1
  refine ⟨h1, fun x hx => ?_⟩
  have := h2 (-x) (List.mem_map.2 ⟨x, hx, rfl⟩)
  unfold argmax
  rw [getD_eq (by rwa [List.length_map]), List.getElem_map] at this
  rw [getD_eq h1]
  linarith

/-- C472 (partial): with one wavelength the two images are of the sources nearest to and farthest from the axis, and the title has
their angles. -/
theorem pair_partial (zenith : List ℝ) (h : zenith ≠ []) (P : Pair) (hP : P = pair zenith 1) :
    ∃ (hl : P.left < zenith.length) (hr : P.right < zenith.length), P.leftAngle = zenith[P.left] ∧ P.rightAngle = zenith[P.right] ∧
      ∀ z ∈ zenith, zenith[P.left] ≤ z ∧ z ≤ zenith[P.right] := by
  obtain ⟨a1, a2⟩ := argmin_spec zenith h
  obtain ⟨b1, b2⟩ := argmax_spec zenith h
  subst hP
  unfold pair
  simp only [if_true]
  refine ⟨a1, b1, getD_eq a1, getD_eq b1, fun z hz => ⟨?_, ?_⟩⟩
  · rw [← getD_eq (d := 0) a1]; exact a2 z hz
  · rw [← getD_eq (d := 0) b1]; exact b2 z hz

/-- C472 (violation): with several wavelengths the images are the same, but the title is right only when the first source is as near to
the axis as any, and the last as far. -/
theorem pair_violation (zenith : List ℝ) (h : zenith ≠ []) (nWvl : ℕ) (hw : nWvl ≠ 1) (P : Pair) (hP : P = pair zenith nWvl) :
    P.left = (pair zenith 1).left ∧ P.right = (pair zenith 1).right ∧
    ((P.leftAngle = zenith.getD P.left 0 ∧ P.rightAngle = zenith.getD P.right 0) ↔
      ∀ z ∈ zenith, zenith.head h ≤ z ∧ z ≤ zenith.getLast h) := by
  obtain ⟨a1, a2⟩ := argmin_spec zenith h
  obtain ⟨b1, b2⟩ := argmax_spec zenith h
  have lp : 0 < zenith.length := List.length_pos_of_ne_nil h
  subst hP
  unfold pair
  simp only [if_true, if_neg hw, true_and]
  have e0 : zenith.getD 0 0 = zenith.head h := by rw [getD_eq lp, List.head_eq_getElem]
  have e1 : zenith.getD (zenith.length - 1) 0 = zenith.getLast h := by rw [getD_eq (by omega), List.getLast_eq_getElem]
  rw [e0, e1]
  constructor
  · rintro ⟨u, v⟩ z hz
    rw [u, v]; exact ⟨a2 z hz, b2 z hz⟩
  · intro k
    have m1 : zenith.getD (argmin zenith) 0 ∈ zenith := by rw [getD_eq a1]; exact List.getElem_mem a1
    have m2 : zenith.getD (argmax zenith) 0 ∈ zenith := by rw [getD_eq b1]; exact List.getElem_mem b1
    exact ⟨le_antisymm (k _ m1).1 (a2 _ (List.head_mem h)), le_antisymm (b2 _ (List.getLast_mem h)) (k _ m2).2⟩

/-- C472: contours are drawn exactly for a square number of sources, and then the sources fill the grid, each in its own cell, row by
row. -/
theorem contours_iff (n : ℕ) : (drawn n = true ↔ ∃ s, s * s = n) ∧ (drawn n = true → ∀ r c, r < Nat.sqrt n → c < Nat.sqrt n →
    ∃ k < n, cell n k = (r, c) ∧ ∀ k' < n, cell n k' = (r, c) → k' = k) := by
  have d : drawn n = true ↔ Nat.sqrt n * Nat.sqrt n = n := by unfold drawn; rw [beq_iff_eq, sq]
  refine ⟨?_, fun hd r c hr hc => ?_⟩
  · rw [d, Nat.exists_mul_self n]
  · rw [d] at hd
    have hp : 0 < Nat.sqrt n := by omega
    refine ⟨Nat.sqrt n * r + c, ?_, ?_, ?_⟩
    · calc Nat.sqrt n * r + c < Nat.sqrt n * r + Nat.sqrt n := by omega
        _ = Nat.sqrt n * (r + 1) := by ring
        _ ≤ Nat.sqrt n * Nat.sqrt n := Nat.mul_le_mul_left _ hr
        _ = n := hd
    · unfold cell
      rw [Nat.mul_add_div hp, Nat.div_eq_of_lt hc, Nat.mul_add_mod, Nat.mod_eq_of_lt hc, add_zero]
    · intro k' _ hk
      unfold cell at hk
      rw [Prod.mk.injEq] at hk
      have := Nat.div_add_mod k' (Nat.sqrt n)
      rw [hk.1, hk.2] at this
      exact this.symm

/-- A curve, a positive image with room around its peak, two pixels, and three sources whose first is not the nearest. -/
example : shown [0, 1, 3] 2 3 = some 2 := by
  have f : ⌊(3:ℝ) / 2⌋₊ = 1 := by rw [Nat.floor_eq_iff (by norm_num)]; norm_num
  unfold shown; simp only [f]; norm_num
example : ∃ im : Img ℝ, 1 ≤ (1:ℕ) ∧ 1 + (2 * 0 + 1) < im.nx ∧ 1 + (2 * 0 + 1) < im.ny ∧ ∀ i < im.nx, ∀ j < im.ny, 0 < im.px i j :=
  ⟨⟨3, 3, fun _ _ => 1⟩, le_rfl, by norm_num, by norm_num, fun _ _ _ _ => one_pos⟩
example : ([0, 1, 3, 4] : List ℝ).Pairwise (· < ·) ∧ ⌊(3:ℝ) / 2⌋₊ + 1 < ([0, 1, 3, 4] : List ℝ).length := by
  have f : ⌊(3:ℝ) / 2⌋₊ = 1 := by rw [Nat.floor_eq_iff (by norm_num)]; norm_num
  rw [f]; norm_num
example : ¬ ∀ z ∈ ([30, 0, 10] : List ℝ), ([30, 0, 10] : List ℝ).head (by simp) ≤ z ∧ z ≤ ([30, 0, 10] : List ℝ).getLast (by simp) := by
  norm_num
example : drawn 9 = true ∧ drawn 8 = false := by decide +kernel

end P3.Display
