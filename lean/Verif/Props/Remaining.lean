import Verif.Model.Remaining
import Verif.Spec.Remaining
import Mathlib.Tactic.Linarith
import Mathlib.Tactic.FieldSimp
import Mathlib.Tactic.NormNum
import Mathlib.Tactic.Positivity
/-
Properties C386-C394: dead pixels, rotation and size of pupils, files of telescopes, influence functions, diagonals, parameter
files of SPHERE.
-/
namespace P3.Remaining
open P3.Remaining.Spec

/-! ### Dead pixels (C386) -/

theorem fold_same (F : Frame) (im : List ℝ) (l : List ℕ) (h : ∀ i ∈ l, i < F.rows ∧ weight F i = 0) :
    l.foldlM (fix F) im = .ok im := by
  induction l with
  | nil => rfl
  | cons i l ih =>
    have h1 := h i (by simp)
    have : fix F im i = .ok im := by
      unfold fix
      rw [if_neg (by omega), if_pos h1.2]
    rw [List.foldlM_cons, this]
    exact ih fun j hj => h j (by simp [hj])

theorem mapM_len {α β : Type} (f : α → Except PyErr β) (l : List α) (r : List β) (h : l.mapM f = .ok r) : r.length = l.length := by
  induction l generalizing r with
  | nil =>
    simp only [List.mapM_nil] at h
    cases h; rfl
  | cons a l ih =>
    rw [List.mapM_cons] at h
    cases hf : f a with
    | error e => rw [hf] at h; cases h
    | ok b =>
      cases hl : l.mapM f with
      | error e => rw [hf, hl] at h; cases h
      | ok r' =>
        rw [hf, hl] at h
        cases h
        simp [ih r' hl]

theorem bcast_differ (f : ℝ → ℝ → ℝ) (xs ys : List ℝ) (hx : 2 ≤ xs.length) (hy : 2 ≤ ys.length) (h : xs.length ≠ ys.length) :
    bcast f xs ys = .error .broadcast := by
  match xs, ys, hx, hy with
  | a :: b :: xs, c :: d :: ys, _, _ =>
    unfold bcast
    simp only
    rw [if_neg h]

theorem fix_fails (F : Frame) (hc : 5 ≤ F.cols) (im : List ℝ) (i : ℕ) (hw : weight F i ≠ 0) : ∃ e, fix F im i = .error e := by
  unfold fix
  split_ifs with h
  · exact ⟨_, rfl⟩
  · cases hm : (List.range' 2 (F.cols - 2)).mapM fun j => getPix im (F.addr i j) with
    | error e => exact ⟨e, rfl⟩
    | ok v =>
      have hl := mapM_len _ _ _ hm
      rw [List.length_range'] at hl
      refine ⟨.broadcast, ?_⟩
      have := bcast_differ (· * ·) v ((List.range' 2 (F.cols - 1 - 2)).map (F.wt i)) (by omega) (by simp; omega) (by simp; omega)
      show (bcast (· * ·) v _).bind _ = _
      rw [this]; rfl

/-- C386 (partial): a list of dead pixels without neighbours (as many rows as columns at least, no weights) leaves the image as it
is. Missing: everything else (the violations below). -/
theorem dead_pixels_partial (im : List ℝ) (F : Frame) (hr : F.cols ≤ F.rows) (hw : ∀ i < F.cols, weight F i = 0) :
    correct im F = .ok im :=
  fold_same F im _ fun i hi => ⟨lt_of_lt_of_le (List.mem_range.1 hi) hr, hw i (List.mem_range.1 hi)⟩

/-- C386 (violation): with room for eight neighbours (or for three at least), the correction only ever succeeds by doing nothing:
it fails as soon as one pixel has neighbours with weights, and whenever there are fewer dead pixels than columns. -/
theorem dead_pixels_fails_violation (im im' : List ℝ) (F : Frame) (hc : 5 ≤ F.cols) :
    correct im F = .ok im' ↔ F.cols ≤ F.rows ∧ (∀ i < F.cols, weight F i = 0) ∧ im' = im := by
  constructor
  · intro h
    have key : ∀ (l : List ℕ) (im : List ℝ), l.foldlM (fix F) im = .ok im' → ∀ i ∈ l, i < F.rows ∧ weight F i = 0 := by
      intro l
      induction l with
      | nil => simp
      | cons i l ih =>
        intro im h
        rw [List.foldlM_cons] at h
        have hi : i < F.rows ∧ weight F i = 0 := by
          constructor
          · by_contra hn
            have : fix F im i = .error .indexError := by unfold fix; rw [if_pos (by omega)]
            rw [this] at h; cases h
          · by_contra hn
            obtain ⟨e, he⟩ := fix_fails F hc im i hn
            rw [he] at h; cases h
        have : fix F im i = .ok im := by
          unfold fix
          rw [if_neg (by omega), if_pos hi.2]
        rw [this] at h
        intro j hj
        rcases List.mem_cons.1 hj with rfl | hj
        · exact hi
        · exact ih im h j hj
    have hk := key _ _ h
    have hw : ∀ i < F.cols, weight F i = 0 := fun i hi => (hk i (List.mem_range.2 hi)).2
    have hr : F.cols ≤ F.rows := by
      have := (hk (F.cols - 1) (List.mem_range.2 (by omega))).1
      omega
    have := dead_pixels_partial im F hr hw
    rw [this] at h
    cases h
    exact ⟨hr, hw, rfl⟩
  · rintro ⟨hr, hw, rfl⟩
    exact dead_pixels_partial _ F hr hw

/-- C386 (violation): with room for two neighbours, a pixel is replaced by their sum, not by their mean. -/
theorem dead_pixels_sum_violation (im : List ℝ) (F : Frame) (hc : F.cols = 4) (i : ℕ) (hi : i < F.rows) (a b c : ℕ)
    (ha : a < im.length) (hb : b < im.length) (hcc : c < im.length) (h0 : F.addr i 0 = a) (h2 : F.addr i 2 = b) (h3 : F.addr i 3 = c)
    (hw : F.wt i 2 ≠ 0) : fix F im i = .ok (im.set a (im.getD b 0 + im.getD c 0)) := by
  have hp : ∀ k : ℕ, k < im.length → place im.length (k : ℤ) = some k := fun k hk => by
    unfold place
    rw [if_pos ⟨by omega, by omega⟩]; simp
  have hwt : weight F i = F.wt i 2 := by simp [weight, hc, List.range']
  unfold fix
  rw [if_neg (by omega), hwt, if_neg hw]
  have g : ∀ k : ℕ, k < im.length → getPix im (k : ℤ) = .ok (im.getD k 0) := fun k hk => by
    unfold getPix; rw [hp k hk]
  have hm : (List.range' 2 (F.cols - 2)).mapM (fun j => getPix im (F.addr i j)) = .ok [im.getD b 0, im.getD c 0] := by
    rw [hc]
    show (List.mapM (fun j => getPix im (F.addr i j)) [2, 3]) = _
    simp [h2, h3, g b hb, g c hcc]
    rfl
  rw [hm, hc]
  show setPix im (F.addr i 0) _ = _
  rw [h0]
  unfold setPix
  rw [hp a ha]
  simp only [List.map_cons, List.map_nil, List.sum_cons, List.sum_nil, add_zero]
  rw [← add_mul, mul_div_assoc, div_self hw, mul_one]

/-- C386 (violation): no list of dead pixels is made from any map. -/
theorem frame_violation (shape : List ℕ) (F : Frame) : createFrame shape ≠ .ok F := by
  unfold createFrame
  split_ifs <;> simp

/-! ### Rotation of a pupil (C387) -/

section
variable (rot : ℝ → (ℕ → ℕ → ℝ) → ℕ → ℕ → ℝ)

/-- C387 (partial): after a rotation by another angle than zero, map, reflexivity, phase and support agree with each other: the map
is the reflexivity times the phasor of the phase, its support is the pupil; where the rotated modulus is not negative the
reflexivity is that modulus, and zero elsewhere; the phase is the rotated one, or zero below a milliradian. Missing: the recorded angle and phases that are not stored (violations below). -/
theorem rotation_partial (a : ℝ) (ha : a ≠ 0) (p : Turned) (i j : ℕ) :
    (rotatePupil rot a p).st.mat i j =
      ((rotatePupil rot a p).st.refl i j : ℂ) * Complex.exp (Complex.I * ((rotatePupil rot a p).st.phase i j : ℂ)) ∧
    0 ≤ (rotatePupil rot a p).st.refl i j ∧ ‖(rotatePupil rot a p).st.mat i j‖ = (rotatePupil rot a p).st.refl i j ∧
    ((rotatePupil rot a p).st.pupil i j = 1 ↔ (rotatePupil rot a p).st.mat i j ≠ 0) ∧
    (0 ≤ rot a (fun i j => ‖p.st.mat i j‖) i j → (rotatePupil rot a p).st.refl i j = rot a (fun i j => ‖p.st.mat i j‖) i j) ∧
    (rot a (fun i j => ‖p.st.mat i j‖) i j < 0 → (rotatePupil rot a p).st.refl i j = 0) ∧
    (0.001 ≤ |rot a p.st.phase i j| → (rotatePupil rot a p).st.phase i j = rot a p.st.phase i j) ∧
    (|rot a p.st.phase i j| < 0.001 → (rotatePupil rot a p).st.phase i j = 0) ∧
    (rotatePupil rot a p).angle = a := by
  unfold rotatePupil
  rw [if_neg ha]
  simp only
  set x := rot a (fun i j => ‖p.st.mat i j‖) i j with hx
  set m : ℝ := if x < 0 then 0 else x with hm
  have hm0 : 0 ≤ m := by
    rw [hm]; split_ifs with h
    · exact le_refl _
    · exact not_lt.1 h
  have hn : ∀ y : ℝ, ‖(m : ℂ) * Complex.exp (Complex.I * (y : ℂ))‖ = m := fun y => by
    rw [norm_mul, mul_comm Complex.I, Complex.norm_exp_ofReal_mul_I, mul_one, Complex.norm_real, Real.norm_of_nonneg hm0]
  have h5 : 0 ≤ x → m = x := fun h => if_neg (not_lt.2 h)
  have h4 : ∀ y : ℝ, (if m = 0 then (0 : ℝ) else 1) = 1 ↔ (m : ℂ) * Complex.exp (Complex.I * (y : ℂ)) ≠ 0 := fun y => by
    rw [← norm_ne_zero_iff, hn]
    by_cases h : m = 0 <;> simp [h]
  exact ⟨trivial, hm0, hn _, h4 _, h5, fun h => if_pos h, fun h => if_neg (by norm_num at h ⊢; linarith),
    fun h => if_pos (by norm_num at h ⊢; linarith), trivial⟩

/-- C387: a rotation by zero changes the recorded angle only. -/
theorem rotation_zero (p : Turned) : (rotatePupil rot 0 p).st = p.st := by
  unfold rotatePupil
  rw [if_pos rfl]

/-- C387 (violation): the recorded angle is that of the last rotation: rotating by `a` and then by zero leaves the map rotated by
`a` and the angle zero; and for a rotation that composes and keeps signs, rotating by `a` and then by `b` rotates the
reflexivity by `a + b` while the recorded angle is `b`. -/
theorem rotation_angle_violation (a b : ℝ) (ha : a ≠ 0) (hb : b ≠ 0) (p : Turned) (hadd : ∀ f, rot b (rot a f) = rot (a + b) f)
    (hpos : ∀ c f, (∀ i j, 0 ≤ f i j) → ∀ i j, 0 ≤ rot c f i j) :
    (rotatePupil rot 0 (rotatePupil rot a p)).st = (rotatePupil rot a p).st ∧ (rotatePupil rot 0 (rotatePupil rot a p)).angle = 0 ∧
    (rotatePupil rot b (rotatePupil rot a p)).st.refl = rot (a + b) (fun i j => ‖p.st.mat i j‖) ∧
    (rotatePupil rot b (rotatePupil rot a p)).angle = b := by
  refine ⟨rotation_zero rot _, by unfold rotatePupil; rw [if_pos rfl], ?_, by unfold rotatePupil; rw [if_neg hb]⟩
  have h1 : (fun i j => ‖(rotatePupil rot a p).st.mat i j‖) = rot a (fun i j => ‖p.st.mat i j‖) := by
    funext i j
    obtain ⟨_, _, h3, _, h5, _⟩ := rotation_partial rot a ha p i j
    rw [h3, h5 (hpos a _ (fun i j => norm_nonneg _) i j)]
  funext i j
  obtain ⟨_, _, _, _, h5, _⟩ := rotation_partial rot b hb (rotatePupil rot a p) i j
  rw [h1, hadd] at h5
  exact h5 (hpos _ _ (fun i j => norm_nonneg _) i j)

/-- C387 (violation): a phase applied to petals is lost by the rotation: the pupil is as if it had never been applied. -/
theorem rotation_petals_violation (a : ℝ) (ha : a ≠ 0) (p : Turned) (modes : ℕ → ℕ → ℕ → ℕ → ℝ) (nPetal nModes : ℕ)
    (cmd : List (ℕ × List ℝ)) :
    rotatePupil rot a ⟨Petals.applyPetal modes nPetal nModes cmd p.st, p.angle⟩ = rotatePupil rot a p := by
  have h1 : (fun i j => ‖(Petals.applyPetal modes nPetal nModes cmd p.st).mat i j‖) = (fun i j => ‖p.st.mat i j‖) := by
    funext i j
    unfold Petals.applyPetal
    simp only
    split_ifs
    · rfl
    · simp only
      rw [norm_mul, mul_comm Complex.I, Complex.norm_exp_ofReal_mul_I, mul_one, Complex.norm_real, norm_norm]
    · rfl
  have h2 : (Petals.applyPetal modes nPetal nModes cmd p.st).phase = p.st.phase := by
    unfold Petals.applyPetal
    simp only
    split_ifs <;> rfl
  unfold rotatePupil
  rw [if_neg ha, if_neg ha]
  simp only [h1, h2]

end

/-! ### Size of a pupil (C388) -/

/-- C388 (partial): resizing a pupil whose records are consistent, with replacement, gives the size asked for, keeps the records
consistent and keeps the diameter in metres. Missing: without replacement, and the segments (violations below). -/
theorem resize_partial (p : Sized) (hp : p.side = p.N ∧ p.centre = (p.N : ℝ) / 2) (hN : 0 < p.N) (hr : p.ratio ≠ 0) (n : ℕ) (hn : 0 < n) :
    (resize p n true).side = n ∧ (resize p n true).N = n ∧ (resize p n true).centre = (n : ℝ) / 2 ∧
    (n : ℝ) / (resize p n true).ratio = p.N / p.ratio := by
  unfold resize
  by_cases h : n = p.N
  · rw [if_pos h, h]
    exact ⟨hp.1, rfl, hp.2, rfl⟩
  · rw [if_neg h]
    refine ⟨rfl, rfl, rfl, ?_⟩
    simp only [if_true]
    have h1 : (p.N : ℝ) ≠ 0 := by positivity
    have h2 : (n : ℝ) ≠ 0 := by positivity
    field_simp

/-- C388 (violation): without replacement (the default), resizing and resizing back does not give the former size: the map keeps
the size of the first call. -/
theorem resize_back_violation (p : Sized) (n : ℕ) (hn : n ≠ p.N) (r : Bool) :
    (resize (resize p n false) p.N r).side = n ∧ n ≠ p.N := by
  refine ⟨?_, hn⟩
  have h : resize p n false = { p with side := n } := by unfold resize; rw [if_neg hn]; rfl
  rw [h]
  unfold resize
  rw [if_pos rfl]

/-- C388 (violation): with replacement, segments keep their number of pixels: in metres their windows are smaller or larger, by the
factor between the sizes. -/
theorem resize_segments_violation (p : Sized) (hN : 0 < p.N) (hr : p.ratio ≠ 0) (n : ℕ) (hn : 0 < n) :
    ((resize p n true).seg : ℝ) / (resize p n true).ratio = (p.N : ℝ) / n * (p.seg / p.ratio) := by
  have h1 : (p.N : ℝ) ≠ 0 := by positivity
  have h2 : (n : ℝ) ≠ 0 := by positivity
  unfold resize
  by_cases h : n = p.N
  · rw [if_pos h, h]; field_simp
  · rw [if_neg h]
    simp only [if_true]
    field_simp

/-! ### Reference segment (C389) -/

theorem mid_lt (n : ℕ) (hn : 0 < n) : mid n < n := by
  unfold mid
  split_ifs <;> omega

theorem bestLoop_spec (n : ℕ) (lit : ℕ → ℕ → ℕ → Bool) (left k : ℕ) :
    (∃ s, k ≤ s ∧ s < k + left ∧ border n (lit s) = true ∧ bestLoop n lit left k = s ∧ ∀ t, k ≤ t → t < s → border n (lit t) = false) ∨
    ((∀ t, k ≤ t → t < k + left → border n (lit t) = false) ∧ bestLoop n lit left k = 0) := by
  induction left generalizing k with
  | zero => exact Or.inr ⟨fun t h1 h2 => by omega, rfl⟩
  | succ left ih =>
    by_cases hb : border n (lit k) = true
    · exact Or.inl ⟨k, le_refl _, by omega, hb, by simp [bestLoop, hb], fun t h1 h2 => by omega⟩
    · have e : bestLoop n lit (left + 1) k = bestLoop n lit left (k + 1) := by simp [bestLoop, hb]
      rw [e]
      rcases ih (k + 1) with ⟨s, h1, h2, h3, h4, h5⟩ | ⟨h1, h2⟩
      · refine Or.inl ⟨s, by omega, by omega, h3, h4, fun t ht1 ht2 => ?_⟩
        rcases Nat.eq_or_lt_of_le ht1 with rfl | ht
        · simpa using hb
        · exact h5 t ht ht2
      · refine Or.inr ⟨fun t ht1 ht2 => ?_, h2⟩
        rcases Nat.eq_or_lt_of_le ht1 with rfl | ht
        · simpa using hb
        · exact h1 t ht (by omega)

theorem border_iff (n : ℕ) (lit : ℕ → ℕ → Bool) : border n lit = true ↔ Surrounded n (mid n) lit := by
  unfold border Surrounded
  simp only [Bool.and_eq_true, List.mem_cons, List.not_mem_nil, or_false, forall_eq_or_imp, forall_eq]
  tauto

theorem mid_middle (n : ℕ) : Middle n (mid n) := by
  unfold mid Middle
  split_ifs <;> omega

/-- C389: the segment from which gaps are filled is the first one whose window has its corners and the middles of its sides lit,
and the first of all when there is none; the points looked at are inside the window. -/
theorem best_segment (nSeg n : ℕ) (hn : 0 < n) (lit : ℕ → ℕ → ℕ → Bool) :
    ∃ c < n, Middle n c ∧
    ((∃ s < nSeg, Surrounded n c (lit s)) →
      bestSegment nSeg n lit < nSeg ∧ Surrounded n c (lit (bestSegment nSeg n lit)) ∧
      ∀ t < bestSegment nSeg n lit, ¬ Surrounded n c (lit t)) ∧
    ((∀ s < nSeg, ¬ Surrounded n c (lit s)) → bestSegment nSeg n lit = 0) := by
  refine ⟨mid n, mid_lt n hn, mid_middle n, ?_, ?_⟩
  · rintro ⟨s, hs, hb⟩
    rw [← border_iff] at hb
    rcases bestLoop_spec n lit nSeg 0 with ⟨t, _, h2, h3, h4, h5⟩ | ⟨h1, _⟩
    · unfold bestSegment
      rw [h4]
      refine ⟨by omega, (border_iff _ _).1 h3, fun u hu hx => ?_⟩
      rw [← border_iff, h5 u (by omega) hu] at hx; cases hx
    · have := h1 s (by omega) (by omega)
      rw [this] at hb; cases hb
  · intro h
    rcases bestLoop_spec n lit nSeg 0 with ⟨t, _, h2, h3, _, _⟩ | ⟨_, h2⟩
    · exact absurd ((border_iff _ _).1 h3) (h t (by omega))
    · exact h2

/-! ### Files of a telescope (C390, C391) -/

theorem searchFits_spec (l : List Char) :
    searchFits l = true ↔ ∃ (a b : List Char) (c : Char), c ≠ '\n' ∧ l = a ++ c :: ("fits".toList ++ b) := by
  induction l with
  | nil => simp [searchFits]
  | cons x l ih =>
    unfold searchFits
    rw [Bool.or_eq_true, Bool.and_eq_true, decide_eq_true_eq, List.isPrefixOf_iff_prefix, ih]
    constructor
    · rintro (⟨hx, b, hb⟩ | ⟨a, b, c, hc, rfl⟩)
      · exact ⟨[], b, x, hx, by rw [← hb]; rfl⟩
      · exact ⟨x :: a, b, c, hc, rfl⟩
    · rintro ⟨a, b, c, hc, h⟩
      match a, h with
      | [], h =>
        rw [List.nil_append] at h
        injection h with h1 h2
        exact Or.inl ⟨h1 ▸ hc, b, h2.symm⟩
      | y :: a, h =>
        injection h with h1 h2
        exact Or.inr ⟨a, b, c, hc, h2⟩

/-- C390 (partial): a file that exists and whose name ends with `.fits` is used; without a path the pupil is the annulus. Missing:
files that are not found or have another name (violations below). -/
theorem telescope_files_partial (isFile : String → Bool) (p : String) :
    (isFile p = true → FitsName p → pupilSource isFile (some p) = .file p) ∧ pupilSource isFile none = .annulus := by
  refine ⟨fun hf hn => ?_, rfl⟩
  obtain ⟨s, hs⟩ := hn
  have : searchFits p.toList = true := by
    rw [searchFits_spec]
    exact ⟨s, [], '.', by decide, by rw [hs]; rfl⟩
  simp [pupilSource, checkPath, hf, this]

/-- C390 (violation): a file that is not there is not reported, the annulus is used; the same for existing files without a character
and `fits` in their name. -/
theorem telescope_missing_violation (isFile : String → Bool) (p : String) :
    pupilSource isFile (some p) = .annulus ↔ (isFile p = false ∨ ¬ AnyFits p) := by
  have h : searchFits p.toList = true ↔ AnyFits p := searchFits_spec _
  unfold pupilSource checkPath
  cases hf : isFile p <;> by_cases hn : searchFits p.toList = true <;> simp_all

/-- C390 (violation): any existing file with `fits` after some character is read as a FITS file, and a FITS file with a name in
capitals is not. -/
theorem telescope_names_violation (isFile : String → Bool) (h1 : isFile "benefits.txt" = true) (h2 : isFile "PUPIL.FITS" = true) :
    pupilSource isFile (some "benefits.txt") = .file "benefits.txt" ∧ pupilSource isFile (some "PUPIL.FITS") = .annulus := by
  have e1 : searchFits "benefits.txt".toList = true := by decide +kernel
  have e2 : searchFits "PUPIL.FITS".toList = false := by decide +kernel
  constructor
  · unfold pupilSource checkPath
    simp only [h1, e1, Bool.and_self, if_true]
  · unfold pupilSource checkPath
    simp only [h2, e2, Bool.and_false, Bool.false_eq_true, if_false]

section
variable (fit : List ℝ → List ℝ → Img ℝ → ℝ → ℝ → ℝ) (rot : ℝ → Img ℝ → ℕ → ℕ → ℝ)

/-- `interpolateSupport` with kind 'linear' always succeeds, with the size asked for. -/
theorem interpolate_size (im : Img ℝ) (mx my : ℕ) : ∃ r, Metrics.interpolate fit false im mx my = .ok r ∧ r.nx = mx ∧ r.ny = my := by
  have hl : ∀ n, (Metrics.axisGrid n).length = n := fun n => by
    unfold Metrics.axisGrid
    split_ifs <;> simp [linspace]
  unfold Metrics.interpolate
  by_cases h : im.nx = mx ∧ im.ny = my
  · rw [if_pos h]; exact ⟨im, rfl, h.1, h.2⟩
  · rw [if_neg h]
    simp only [hl, Bool.false_eq_true, if_false, and_self, if_true]
    exact ⟨_, rfl, rfl, rfl⟩

/-- C391 (partial): a square map from a file has the resolution of the telescope; a map that has it already and is not rotated
keeps its values, those that are not numbers become zero. Missing: maps that are not square (violation below). -/
theorem loaded_map_partial (angle : ℝ) (res : ℕ) (im : Img (Option ℝ)) :
    (im.nx = im.ny → ∃ r, load fit rot angle res im = .ok r ∧ r.nx = res ∧ r.ny = res) ∧
    (angle = 0 → im.nx = res → ∃ r, load fit rot angle res im = .ok r ∧ ∀ i j, r.px i j = (im.px i j).getD 0) := by
  constructor
  · intro h
    unfold load
    simp only
    by_cases ha : angle ≠ 0
    · rw [if_pos ha]
      by_cases hr : im.nx ≠ res
      · rw [if_pos hr]; exact interpolate_size fit _ res res
      · rw [if_neg hr]; exact ⟨_, rfl, not_not.1 hr, by rw [← not_not.1 hr, h]⟩
    · rw [if_neg ha]
      by_cases hr : im.nx ≠ res
      · rw [if_pos hr]; exact interpolate_size fit _ res res
      · rw [if_neg hr]; exact ⟨_, rfl, not_not.1 hr, by rw [← not_not.1 hr, h]⟩
  · intro ha h
    unfold load
    simp only
    rw [if_neg (not_not.2 ha), if_neg (not_not.2 h)]
    exact ⟨_, rfl, fun i j => rfl⟩

/-- C391 (violation): a map with the right number of rows is not resized, whatever its number of columns. -/
theorem loaded_columns_violation (angle : ℝ) (res : ℕ) (im : Img (Option ℝ)) (h : im.nx = res) :
    ∃ r, load fit rot angle res im = .ok r ∧ r.nx = res ∧ r.ny = im.ny := by
  unfold load
  simp only
  by_cases ha : angle ≠ 0
  · rw [if_pos ha, if_neg (not_not.2 h)]; exact ⟨_, rfl, h, rfl⟩
  · rw [if_neg ha, if_neg (not_not.2 h)]; exact ⟨_, rfl, h, rfl⟩

end

/-! ### Influence functions and example masks (C392) -/

/-- C392 (partial): without a resolution, no influence function is computed and the mirror is made; the constructor of spiders
accepts the arguments of the example of Keck when 600 is given as the number of pixels. Missing: everything else (violations
below). -/
theorem influence_partial (nDMs : ℕ) (modes : Modes) (coupling pitch : ℝ) :
    makeModes none nDMs modes coupling pitch = .ok () ∧
    bindCall spiderParams 2 2 ["nPixels", "symetric", "D", "cobs", "mskPup"] = .ok () ∧ spidersInit 3 (.points 0) = .ok 3 := by
  refine ⟨rfl, ?_, rfl⟩
  decide +kernel

/-- C392 (violation): with a resolution, no mirror is ever made; in particular one mirror with regular parameters ends with a
`TypeError`, with another name of influence functions with an `UnboundLocalError`, and two mirrors do not fit the table of radii. -/
theorem influence_violation (res nDMs : ℕ) (modes : Modes) (coupling pitch : ℝ) :
    makeModes (some res) nDMs modes coupling pitch ≠ .ok () ∧
    (nDMs = 1 → modes ≠ .other → 0 < coupling → coupling < 1 → 0 < pitch →
      makeModes (some res) nDMs modes coupling pitch = .error .typeError) ∧
    (nDMs = 1 → modes = .other → makeModes (some res) nDMs modes coupling pitch = .error .unboundLocal) ∧
    (nDMs = 2 → makeModes (some res) nDMs modes coupling pitch = .error .broadcast) := by
  unfold makeModes setInfluence
  simp only
  refine ⟨?_, ?_, fun h1 h2 => by rw [if_neg (by simp [h1]), if_pos h2], fun h1 => by rw [if_pos (by simp [h1])]⟩
  · split_ifs <;> simp
  · intro h1 h2 h3 h4 h5
    rw [if_neg (by simp [h1]), if_neg h2, if_neg (by simp [h3, h4, h5])]

/-- C392 (violation): both example masks raise a `TypeError`: the call for Keck is accepted but gives a number for points; the one for
the VLT gives the points twice, and a parameter that does not exist: without either of the two the call would still be refused. -/
theorem example_masks_violation : keckMask = .error .typeError ∧ vltMask = .error .typeError ∧
    bindCall spiderParams 2 3 ["symetric", "D", "cobs", "mskPup"] = .ok () ∧ spidersInit 3 .number = .error .typeError ∧
    bindCall spiderParams 2 3 ["D", "cobs", "mskPup", "symetric", "spidersInitCoor"] = .error .typeError ∧
    bindCall spiderParams 2 3 ["D", "cobs", "unit", "mskPup", "symetric"] = .error .typeError := by
  refine ⟨?_, ?_, ?_, rfl, ?_, ?_⟩ <;> decide +kernel

/-! ### Diagonals (C393) -/

theorem sum_const (l : List ℕ) (f : ℕ → ℝ) (c : ℝ) (h : ∀ x ∈ l, f x = c) : (l.map f).sum = l.length * c := by
  induction l with
  | nil => simp
  | cons a l ih =>
    rw [List.map_cons, List.sum_cons, h a (by simp), ih fun x hx => h x (by simp [hx]), List.length_cons]
    push_cast; ring

/-- C393: on a matrix whose entries depend on the distance to the diagonal only, the means along the diagonals are these values
and the sums are the values times the lengths of the diagonals. -/
theorem diagonals (n m : ℕ) (hn : 0 < n) (a : ℕ → ℕ → ℝ) (t : ℕ → ℝ) (h : Stationary n m a t) :
    diagMeans n m a = (List.range m).map t ∧ diagSums n m a = (List.range m).map fun i => (min n (m - i) : ℕ) * t i := by
  have hs : ∀ i < m, (diag n m a i).sum = (min n (m - i) : ℕ) * t i := fun i hi => by
    unfold diag
    rw [sum_const _ _ (t i) fun r hr => h r i (by have := List.mem_range.1 hr; omega) (by have := List.mem_range.1 hr; omega)]
    simp
  constructor
  · unfold diagMeans
    refine List.map_congr_left fun i hi => ?_
    have hi := List.mem_range.1 hi
    rw [hs i hi]
    have : ((diag n m a i).length : ℝ) = (min n (m - i) : ℕ) := by simp [diag]
    rw [this, mul_comm, mul_div_assoc, div_self, mul_one]
    have : 0 < min n (m - i) := by omega
    positivity
  · unfold diagSums
    exact List.map_congr_left fun i hi => hs i (List.mem_range.1 hi)

/-! ### Parameter files of SPHERE (C394) -/

theorem setOption_option (p q : Parser) (sec key val : String) (h : setOption p sec key val = .ok q) :
    option q sec key = some val := by
  unfold setOption at h
  split_ifs at h with hs
  have h := Except.ok.inj h
  subst h
  clear h
  unfold option
  induction p with
  | nil => simp at hs
  | cons s p ih =>
    by_cases he : s.1 = sec
    · rw [List.map_cons, if_pos he, List.find?_cons_of_pos (by simpa using he)]
      simp only [Option.map_some, Option.bind_some]
      split_ifs with hk
      · have : ∀ l : List (String × String), key ∈ l.map Prod.fst →
            ((l.map fun o => if o.1 = key then (o.1, val) else o).find? fun x => decide (x.1 = key)).map Prod.snd = some val := by
          intro l
          induction l with
          | nil => simp
          | cons o l ihl =>
            intro hm
            by_cases ho : o.1 = key
            · rw [List.map_cons, if_pos ho, List.find?_cons_of_pos (by simpa using ho)]; rfl
            · rw [List.map_cons, if_neg ho, List.find?_cons_of_neg (by simpa using ho)]
              refine ihl ?_
              rw [List.map_cons, List.mem_cons] at hm
              exact hm.resolve_left (Ne.symm ho)
        exact this _ hk
      · rw [List.find?_append]
        have : (s.2.find? fun x => decide (x.1 = key)) = none := by
          rw [List.find?_eq_none]
          intro x hx hxk
          exact hk (List.mem_map.2 ⟨x, hx, by simpa using hxk⟩)
        rw [this]
        simp
    · rw [List.map_cons, if_neg he, List.find?_cons_of_neg (by simpa using he)]
      refine ih ?_
      rw [List.map_cons, List.mem_cons] at hs
      exact hs.resolve_left (Ne.symm he)

/-- C394 (partial): reading a parameter file without another modal basis changes no file and gives its contents; with another basis
no other file is changed and the parser has this basis. Missing: the file itself is changed (violation below). -/
theorem read_ini_partial (disk : String → Option Parser) (path : String) :
    (∃ p, readIni disk path none = .ok (p, disk) ∧ ∀ c, disk path = some c → p = c) ∧
    (∀ m p disk', readIni disk path (some m) = .ok (p, disk') →
      (∀ x, x ≠ path → disk' x = disk x) ∧ option p "telescope" "PathStatModes" = some ("'" ++ m ++ "'")) := by
  constructor
  · refine ⟨(disk path).getD [], rfl, fun c hc => by rw [hc]; rfl⟩
  · intro m p disk' h
    unfold readIni at h
    simp only at h
    cases hs : setOption ((disk path).getD []) "telescope" "PathStatModes" ("'" ++ m ++ "'") with
    | error e => rw [hs] at h; cases h
    | ok q =>
      rw [hs] at h
      have h := Except.ok.inj h
      obtain ⟨rfl, rfl⟩ := Prod.mk.inj h
      exact ⟨fun x hx => if_neg hx, setOption_option _ _ _ _ _ hs⟩

/-- C394 (violation): the choice of a modal basis is written to the parameter file: reading the file again, without a choice, gives
the basis of the former call. -/
theorem read_ini_violation (disk disk' : String → Option Parser) (path m : String) (p : Parser)
    (h : readIni disk path (some m) = .ok (p, disk')) :
    ∃ p', readIni disk' path none = .ok (p', disk') ∧ option p' "telescope" "PathStatModes" = some ("'" ++ m ++ "'") := by
  unfold readIni at h
  simp only at h
  cases hs : setOption ((disk path).getD []) "telescope" "PathStatModes" ("'" ++ m ++ "'") with
  | error e => rw [hs] at h; cases h
  | ok q =>
    rw [hs] at h
    have h := Except.ok.inj h
    obtain ⟨rfl, rfl⟩ := Prod.mk.inj h
    refine ⟨q, ?_, setOption_option _ _ _ _ _ hs⟩
    unfold readIni
    simp

/-! ### Cases that meet the hypotheses -/

/-- Ten columns; one pixel (number 3) with neighbours 2 and 4. -/
def tenColumns : Frame := ⟨10, 10, fun i j => if i = 0 ∧ j = 0 then 3 else if j = 2 then 2 else 4, fun i j => if i = 0 ∧ (j = 2 ∨ j = 3) then 2 else 0⟩

/-- Ten pixels without neighbours. -/
example : correct [1, 2, 3, 4, 5] ⟨10, 10, fun _ _ => 0, fun _ _ => 0⟩ = .ok [1, 2, 3, 4, 5] :=
  dead_pixels_partial _ _ (by norm_num) (fun i _ => by simp [weight])

/-- A pixel with two good neighbours is not corrected: the call fails. -/
example (im' : List ℝ) : correct [1, 2, 3, 100, 5] tenColumns ≠ .ok im' := by
  intro h
  have := ((dead_pixels_fails_violation _ _ tenColumns (by simp [tenColumns])).1 h).2.1 0 (by simp [tenColumns])
  simp [weight, tenColumns, List.range'] at this

/-- Four columns: the pixel between 3 and 5 becomes 8. -/
example : fix ⟨1, 4, fun _ j => if j = 0 then 3 else if j = 2 then 2 else 4, fun _ _ => 2⟩ [1, 2, 3, 100, 5] 0 = .ok [1, 2, 3, 8, 5] := by
  rw [dead_pixels_sum_violation [1, 2, 3, 100, 5] _ rfl 0 (by norm_num) 3 2 4 (by norm_num) (by norm_num) (by norm_num) rfl rfl rfl
    (by norm_num)]
  norm_num

/-- A map of 8 by 8 pixels. -/
example (F : Frame) : createFrame [8, 8] ≠ .ok F := frame_violation _ F

/-- A uniform pupil. -/
noncomputable def uniform : Turned := ⟨⟨fun _ _ => 1, fun _ _ => 0, fun _ _ => 1, fun _ _ => 1⟩, 0⟩

/-- A rotation that composes and keeps signs (of maps that do not depend on the angle). -/
example : (rotatePupil (fun _ f => f) 30 uniform).st.refl 1 1 = 1 := by
  have := (rotation_partial (fun _ f => f) 30 (by norm_num) uniform 1 1).2.2.2.2.1 (norm_nonneg _)
  rw [this]; simp [uniform]

example : (rotatePupil (fun _ f => f) 0 uniform).st = uniform.st := rotation_zero _ _

example : (rotatePupil (fun _ f => f) 20 (rotatePupil (fun _ f => f) 30 uniform)).angle = 20 :=
  (rotation_angle_violation (fun _ f => f) 30 20 (by norm_num) (by norm_num) uniform (fun _ => rfl) (fun _ _ h => h)).2.2.2

/-- A half-wave piston on petal 0, which covers pixel 1, 1: before the rotation the map is -1 there, after it is 1. -/
example : (Petals.applyPetal (fun _ _ _ _ => 1) 1 1 [(0, [Real.pi])] uniform.st).mat 1 1 = -1 ∧
    (rotatePupil (fun _ f => f) 30 ⟨Petals.applyPetal (fun _ _ _ _ => 1) 1 1 [(0, [Real.pi])] uniform.st, 0⟩).st.mat 1 1 = 1 := by
  constructor
  · simp [Petals.applyPetal, Petals.existing, Petals.petalPhase, uniform]
    rw [mul_comm]; exact Complex.exp_pi_mul_I
  · have := rotation_petals_violation (fun _ f => f) 30 (by norm_num) uniform (fun _ _ _ _ => 1) 1 1 [(0, [Real.pi])]
    rw [show (⟨Petals.applyPetal (fun _ _ _ _ => 1) 1 1 [(0, [Real.pi])] uniform.st, 0⟩ : Turned) =
      ⟨Petals.applyPetal (fun _ _ _ _ => 1) 1 1 [(0, [Real.pi])] uniform.st, uniform.angle⟩ from rfl, this]
    simp [rotatePupil, uniform]

/-- A pupil of 300 pixels with segments of 50 pixels, 30 pixels per metre. -/
noncomputable def sized : Sized := ⟨300, 300, 30, 150, 50⟩

example : (resize sized 200 true).side = 200 :=
  (resize_partial sized ⟨rfl, by norm_num [sized]⟩ (by norm_num [sized]) (by norm_num [sized]) 200 (by norm_num)).1

/-- From 300 to 200 pixels and back: 200. -/
example : (resize (resize sized 200 false) 300 false).side = 200 := (resize_back_violation sized 200 (by norm_num [sized]) false).1

/-- Segments of 5/3 of a metre have 2.5 metres at 200 pixels. -/
example : ((resize sized 200 true).seg : ℝ) / (resize sized 200 true).ratio = 2.5 := by
  rw [resize_segments_violation sized (by norm_num [sized]) (by norm_num [sized]) 200 (by norm_num)]
  norm_num [sized]

/-- Three segments, the second one surrounded. -/
example : bestSegment 3 50 (fun k _ _ => k == 1) = 1 := by decide +kernel

example : ∃ c < 50, Middle 50 c ∧ Surrounded 50 c ((fun (k _ _ : ℕ) => k == 1) (bestSegment 3 50 (fun k _ _ => k == 1))) := by
  obtain ⟨c, hc, hm, h, -⟩ := best_segment 3 50 (by norm_num) (fun k _ _ => k == 1)
  exact ⟨c, hc, hm, (h ⟨1, by norm_num, by simp [Surrounded]⟩).2.1⟩

example : pupilSource (fun _ => true) (some "data/pupil.fits") = .file "data/pupil.fits" :=
  (telescope_files_partial (fun _ => true) "data/pupil.fits").1 rfl ⟨"data/pupil".toList, by decide +kernel⟩

example : pupilSource (fun _ => false) (some "data/pupil.fits") = .annulus :=
  (telescope_missing_violation (fun _ => false) "data/pupil.fits").2 (Or.inl rfl)

example : pupilSource (fun _ => true) (some "PUPIL.FITS") = .annulus := (telescope_names_violation (fun _ => true) rfl rfl).2

/-- Square map of 100 pixels at resolution 80, map of 80 by 100 pixels. -/
example (fit : List ℝ → List ℝ → Img ℝ → ℝ → ℝ → ℝ) (rot : ℝ → Img ℝ → ℕ → ℕ → ℝ) :
    (∃ r, load fit rot 10 80 ⟨100, 100, fun _ _ => some 1⟩ = .ok r ∧ r.nx = 80 ∧ r.ny = 80) ∧
    (∃ r, load fit rot 10 80 ⟨80, 100, fun _ _ => some 1⟩ = .ok r ∧ r.nx = 80 ∧ r.ny = 100) :=
  ⟨(loaded_map_partial fit rot 10 80 ⟨100, 100, fun _ _ => some 1⟩).1 rfl, loaded_columns_violation fit rot 10 80 _ rfl⟩

/-- One mirror of the default coupling. -/
example : makeModes (some 64) 1 .gaussian 0.2 0.5 = .error .typeError :=
  (influence_violation 64 1 .gaussian 0.2 0.5).2.1 rfl (by decide) (by norm_num) (by norm_num) (by norm_num)

/-- The covariance of a stationary signal. -/
example : diagMeans 3 3 (fun r c => (1 : ℝ) / 2 ^ (c - r)) = [1, 1 / 2, 1 / 4] := by
  rw [(diagonals 3 3 (by norm_num) _ (fun i => (1 : ℝ) / 2 ^ i) (fun r i _ _ => by simp)).1]
  norm_num [List.range_succ]

/-- A file with a telescope section. -/
example : ∃ p' disk', option p' "telescope" "PathStatModes" = some "'modes.fits'" ∧
    readIni disk' "sphere.ini" none = .ok (p', disk') := by
  obtain ⟨⟨p, disk'⟩, h⟩ : ∃ r, readIni (fun x => if x = "sphere.ini" then some [("telescope", [("PathStatModes", "''")])] else none)
      "sphere.ini" (some "modes.fits") = .ok r := ⟨_, rfl⟩
  obtain ⟨p', h1, h2⟩ := read_ini_violation _ _ _ _ _ h
  exact ⟨p', disk', h2, h1⟩

end P3.Remaining
