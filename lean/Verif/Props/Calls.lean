import Verif.Model.Calls
import Verif.Spec.Calls
import Verif.Props.Otf
import Verif.Props.PsdPsf
import Verif.Props.Psfao
/-
Calls of a PSF model one after the other (C409-C412).
-/
namespace P3.Calls
open Finset P3.Rec P3.Otf P3.Images P3.Params P3.Psf P3.Psfao
variable {N : ℕ} [NeZero N]

/-! ### C409: the result of a call does not depend on earlier calls -/

/-- A vector has static coefficients if and only if it is longer than the other parameters. -/
theorem coeffs_eq (M : Model N) (x : List ℝ) :
    coeffs M x = if M.ctx.endStellar < x.length then some (x.drop M.ctx.endStellar) else none := rfl

theorem coeffs_none (M : Model N) (x : List ℝ) (h : x.length ≤ M.ctx.endStellar) : coeffs M x = none := by
  rw [coeffs_eq, if_neg (not_lt.2 h)]

theorem coeffs_some (M : Model N) (x : List ℝ) (h : M.ctx.endStellar < x.length) :
    coeffs M x = some (x.drop M.ctx.endStellar) := by rw [coeffs_eq, if_pos h]

/-- The static OTF that a call of a model at one wavelength uses and leaves behind. -/
theorem call3_eq (M : Model N) (theta : ℝ) (s : Pix N → ℝ) (x : List ℝ) :
    call3 M theta s x =
      let s' := if M.ctx.endStellar < x.length then getStatic M M.wvlRef (some (x.drop M.ctx.endStellar)) 0 else s
      (s', out M s' 0 x) := by
  unfold call3
  by_cases h : M.ctx.endStellar < x.length
  · simp only [coeffs_some M x h, if_pos h]
  · simp only [coeffs_none M x (not_lt.1 h), if_neg h]

/-- The same at one wavelength for the Fourier model, which computes the static OTF at the wavelength of the loop. -/
theorem call4_one (M : Model N) (theta : ℝ) (w : ℝ) (hw : M.wvl = [w]) (s : Pix N → ℝ) (x : List ℝ) :
    call4 M theta s x =
      let s' := if M.ctx.endStellar < x.length then getStatic M w (some (x.drop M.ctx.endStellar)) theta else s
      (s', [out M s' 0 x]) := by
  unfold call4 turn
  rw [hw]
  by_cases h : M.ctx.endStellar < x.length
  · simp [coeffs_some M x h, if_pos h, List.range_succ]
  · simp [coeffs_none M x (not_lt.1 h), if_neg h, List.range_succ]

/-- At several wavelengths the static OTF is computed for each of them. -/
theorem call4_many (M : Model N) (theta : ℝ) (hw : 1 < M.wvl.length) (s : Pix N → ℝ) (x : List ℝ) :
    (call4 M theta s x).2 = ((List.range M.wvl.length).zip M.wvl).map fun jw =>
      out M (getStatic M jw.2 (coeffs M x) theta) jw.1 x := by
  unfold call4
  have key : ∀ (l : List (ℕ × ℝ)) (st : (Pix N → ℝ) × List (Except PyErr (Img ℝ) × ℝ)),
      (l.foldl (turn M theta x) st).2 = st.2 ++ l.map fun jw => out M (getStatic M jw.2 (coeffs M x) theta) jw.1 x := by
    intro l
    induction l with
    | nil => intro st; simp
    | cons a l ih =>
      intro st
      rw [List.foldl_cons, ih]
      unfold turn
      simp [if_pos (Or.inl hw : 1 < M.wvl.length ∨ (coeffs M x).isSome = true)]
  rw [key]
  simp

theorem after3_none (M : Model N) (theta : ℝ) (s : Pix N → ℝ) (h : List (List ℝ))
    (hs : ∀ y ∈ h, y.length ≤ M.ctx.endStellar) : h.foldl (fun s x => (call3 M theta s x).1) s = s := by
  induction h generalizing s with
  | nil => rfl
  | cons a l ih =>
    rw [List.foldl_cons, call3_eq]
    simp only [if_neg (not_lt.2 (hs a (by simp)))]
    exact ih s fun y hy => hs y (by simp [hy])

theorem after4_none (M : Model N) (theta : ℝ) (w : ℝ) (hw : M.wvl = [w]) (s : Pix N → ℝ) (h : List (List ℝ))
    (hs : ∀ y ∈ h, y.length ≤ M.ctx.endStellar) : h.foldl (fun s x => (call4 M theta s x).1) s = s := by
  induction h generalizing s with
  | nil => rfl
  | cons a l ih =>
    rw [List.foldl_cons, call4_one M theta w hw]
    simp only [if_neg (not_lt.2 (hs a (by simp)))]
    exact ih s fun y hy => hs y (by simp [hy])

/-- C409 (partial): PSFAO21 at one wavelength and the PSF reconstruction return the same image and Strehl ratio as a
new model, whatever was computed before, if the vector of the call has static coefficients or none of the earlier
vectors had any.  Missing: calls without static coefficients after calls with them; there the claim is false
(`stale_violation`). -/
theorem call3_fresh_partial (M : Model N) (theta : ℝ) (earlier : List (List ℝ)) (x : List ℝ)
    (h : M.ctx.endStellar < x.length ∨ ∀ y ∈ earlier, y.length ≤ M.ctx.endStellar) :
    (call3 M theta (after3 M theta earlier) x).2 = (call3 M theta (init M) x).2 := by
  unfold after3
  rcases h with h | h
  · simp only [call3_eq, if_pos h]
  · rw [after3_none M theta _ _ h]

/-- C409 (partial): the Fourier model returns the same images and Strehl ratios as a new model whatever was computed
before, at several wavelengths, or if the vector of the call has static coefficients or none of the earlier ones
had any. -/
theorem call4_fresh_partial (M : Model N) (theta : ℝ) (hl : M.wvl ≠ []) (earlier : List (List ℝ)) (x : List ℝ)
    (h : 1 < M.wvl.length ∨ M.ctx.endStellar < x.length ∨ ∀ y ∈ earlier, y.length ≤ M.ctx.endStellar) :
    (call4 M theta (after4 M theta earlier) x).2 = (call4 M theta (init M) x).2 := by
  by_cases h1 : 1 < M.wvl.length
  · rw [call4_many M theta h1, call4_many M theta h1]
  · obtain ⟨w, hw⟩ : ∃ w, M.wvl = [w] := by
      rcases e : M.wvl with _ | ⟨w, _ | ⟨v, l⟩⟩
      · exact absurd e hl
      · exact ⟨w, rfl⟩
      · rw [e] at h1; simp at h1
    unfold after4
    rcases h with h | h | h
    · exact absurd h h1
    · simp only [call4_one M theta w hw, if_pos h]
    · rw [after4_none M theta w hw _ _ h]

/-- C409 (partial): when all vectors have the same length, as in a fit, no call depends on the earlier ones. -/
theorem same_length_partial (M : Model N) (theta : ℝ) (hl : M.wvl ≠ []) (earlier : List (List ℝ)) (x : List ℝ)
    (h : ∀ y ∈ earlier, y.length = x.length) :
    (call3 M theta (after3 M theta earlier) x).2 = (call3 M theta (init M) x).2 ∧
    (call4 M theta (after4 M theta earlier) x).2 = (call4 M theta (init M) x).2 := by
  have : M.ctx.endStellar < x.length ∨ ∀ y ∈ earlier, y.length ≤ M.ctx.endStellar := by
    by_cases c : M.ctx.endStellar < x.length
    · exact Or.inl c
    · exact Or.inr fun y hy => by rw [h y hy]; exact not_lt.1 c
  exact ⟨call3_fresh_partial M theta earlier x this, call4_fresh_partial M theta hl earlier x (Or.inr this)⟩

/-- C409 (partial): a call made twice in a row returns the same twice, whatever came before. -/
theorem repeat_partial (M : Model N) (theta : ℝ) (hl : M.wvl ≠ []) (s : Pix N → ℝ) (x : List ℝ) :
    (call3 M theta (call3 M theta s x).1 x).2 = (call3 M theta s x).2 ∧
    (call4 M theta (call4 M theta s x).1 x).2 = (call4 M theta s x).2 := by
  refine ⟨?_, ?_⟩
  · rw [call3_eq, call3_eq]
    by_cases h : M.ctx.endStellar < x.length
    · simp only [if_pos h]
    · simp only [if_neg h]
  · by_cases h1 : 1 < M.wvl.length
    · rw [call4_many M theta h1, call4_many M theta h1]
    · obtain ⟨w, hw⟩ : ∃ w, M.wvl = [w] := by
        rcases e : M.wvl with _ | ⟨w, _ | ⟨v, l⟩⟩
        · exact absurd e hl
        · exact ⟨w, rfl⟩
        · rw [e] at h1; simp at h1
      rw [call4_one M theta w hw, call4_one M theta w hw]
      by_cases h : M.ctx.endStellar < x.length
      · simp only [if_pos h]
      · simp only [if_neg h]

/-- C409: what is returned in general at one wavelength: a call without static coefficients uses those of the last call
that had some. -/
theorem last_coefficients (M : Model N) (theta : ℝ) (w : ℝ) (hw : M.wvl = [w]) (h1 h2 : List (List ℝ)) (y x : List ℝ)
    (hy : M.ctx.endStellar < y.length) (h2s : ∀ z ∈ h2, z.length ≤ M.ctx.endStellar)
    (hx : x.length ≤ M.ctx.endStellar) :
    (call3 M theta (after3 M theta (h1 ++ y :: h2)) x).2 =
      out M (getStatic M M.wvlRef (some (y.drop M.ctx.endStellar)) 0) 0 x ∧
    (call4 M theta (after4 M theta (h1 ++ y :: h2)) x).2 =
      [out M (getStatic M w (some (y.drop M.ctx.endStellar)) theta) 0 x] := by
  unfold after3 after4
  rw [List.foldl_append, List.foldl_append, List.foldl_cons, List.foldl_cons, after3_none M theta _ _ h2s,
    after4_none M theta w hw _ _ h2s]
  constructor
  · rw [call3_eq, call3_eq]
    simp only [if_pos hy, if_neg (not_lt.2 hx)]
  · rw [call4_one M theta w hw, call4_one M theta w hw]
    simp only [if_pos hy, if_neg (not_lt.2 hx)]

/-! The concrete telescope of the violations: a square pupil of two by two samples and one static mode, a tilt. -/

theorem getElem_hi (ncpa : Pix 4 → ℝ) :
    (fftshift (idft (fftshift fun y : Pix 4 => (ncpa y : ℂ) * 1)) (centre 4)).re = (∑ y, ncpa y) / 16 := by
  unfold fftshift idft
  rw [sub_self]
  have e : ∀ k : Pix 4, dot k (0 : Pix 4) = 0 := fun k => by simp [dot]
  simp only [e, AddChar.map_zero_eq_one, mul_one]
  rw [show (∑ k : Pix 4, ((ncpa (k - centre 4) : ℝ) : ℂ)) = ((∑ y, ncpa y : ℝ) : ℂ) from by
    rw [Complex.ofReal_sum]
    exact (Equiv.subRight (centre 4)).sum_comp fun y => ((ncpa y : ℝ) : ℂ)]
  rw [show (1 / ((4 : ℕ) : ℂ) ^ 2 : ℂ) = ((1 / 16 : ℝ) : ℂ) from by norm_num, ← Complex.ofReal_mul, Complex.ofReal_re]
  ring

theorem sum_hi (ncpa : Pix 4 → ℝ) :
    ∑ x, (fftshift (idft (fftshift fun y : Pix 4 => (ncpa y : ℂ) * 1)) x).re = ncpa (centre 4) := by
  have h := sum_psfRaw (N := 4) (fun y => (ncpa y : ℂ) * 1) true
  unfold psfRaw at h
  simpa using h

/-- The tilt of the violations: a mode with one more nanometre at each sample. -/
def tilt : ℕ → ℕ → ℝ := fun i _ => i

/-- A telescope with a square pupil of two by two samples at one micron, the tilt as static mode, everything else
perfect, seen by the Fourier model. -/
def demo : Model 4 where
  n := 2
  p := 1
  pupil := fun _ _ => 1
  opd := none
  modes := [tilt]
  rot := fun _ m i j => m j i
  wvl := [1e-6]
  wvlRef := 1e-6
  ctx := fourierCtx 1 1 1 1 1 1
  other := fun _ _ _ => 1
  F := fun _ _ => 1
  bkg := fun _ _ => 0
  k := 1
  fov := 4
  nPix := 4

/-- All parameters and a tilt of a quarter of the wavelength per sample. -/
def withTilt : List ℝ := [0, 0, 0, 1, 0, 0, 0, 250]

theorem demo_end : demo.ctx.endStellar = 7 := by decide

theorem dl_next : 0 < dlOtf (N := 4) 2 1 (fun _ _ => 1) (at' 4 1 0) := by
  unfold dlOtf staticOtf
  rw [maxPix_otf 2 1 rfl _ _ (fun _ _ => zero_le_one),
    pupil2otf_linear 2 2 le_rfl 1 (by unfold padOf; norm_num [trunc]) rfl _ _ (fun _ _ => zero_le_one) 1 0 (by norm_num)
      (by norm_num)]
  simp only [Finset.sum_range_succ, Finset.sum_range_zero, Otf.ext, field, power]
  norm_num

theorem getStatic_tilt (a b : ℤ) (ha : |a| ≤ 2) (hb : |b| ≤ 2) :
    getStatic demo 1e-6 (some [250]) 0 (at' 4 a b) =
      Real.cos (Real.pi / 2 * a) * dlOtf (N := 4) 2 1 (fun _ _ => 1) (at' 4 a b) := by
  have := static_tilt_partial (N := 4) 2 2 le_rfl 1 (by unfold padOf; norm_num [trunc]) rfl (fun _ _ => 1)
    (fun _ _ => zero_le_one) (Real.pi / 2) 0 a b (by simpa using ha) (by simpa using hb)
  unfold getStatic
  rw [zero_mul, add_zero] at this
  rw [← this]
  show staticOtf 2 1 (fun _ _ => 1) _ _ = _
  congr 1
  funext i j
  simp only [staticPhase, demo, tilt, Option.map_none, Option.getD_some, List.length_cons, List.length_nil, if_true,
    List.zipWith_cons_cons, List.zipWith_nil_left, List.sum_cons, List.sum_nil]
  ring

theorem getStatic_centre (c : Option (List ℝ)) (theta : ℝ) : getStatic demo 1e-6 c theta (centre 4) = 1 :=
  (staticOtf_spec (N := 4) 2 1 rfl (fun _ _ => 1) _ (fun _ _ => zero_le_one) (by simp [power]) (centre 4)).1

theorem init_demo : init demo = dlOtf (N := 4) 2 1 (fun _ _ => 1) := by
  funext y
  unfold init getStatic dlOtf
  show staticOtf 2 1 (fun _ _ => 1) _ _ = _
  congr 1
  funext i j
  simp [staticPhase, demo]

/-- The tilt lowers the sum of the static OTF. -/
theorem tilt_lowers : ∑ y, |getStatic demo 1e-6 (some [250]) 0 y| < ∑ y, init demo y := by
  rw [init_demo]
  refine sum_lt_sum (fun y _ => (staticOtf_spec (N := 4) 2 1 rfl (fun _ _ => 1) _ (fun _ _ => zero_le_one)
    (by simp [power]) y).2.1) ⟨at' 4 1 0, mem_univ _, ?_⟩
  rw [getStatic_tilt 1 0 (by norm_num) (by norm_num)]
  have : Real.cos (Real.pi / 2 * ((1:ℤ):ℝ)) = 0 := by simp
  rw [this, zero_mul, abs_zero]
  exact dl_next

/-- What the telescope of the violations returns with a given static OTF: the pixel at the centre is the mean of the
static OTF and the Strehl ratio its sum over that of the perfect telescope. -/
theorem out_demo (ncpa : Pix 4 → ℝ) (h : ncpa (centre 4) = 1) (x : List ℝ) :
    (∃ im, (out demo ncpa 0 x).1 = .ok im ∧ im.nx = 4 ∧ im.ny = 4 ∧ im.px 2 2 = (∑ y, ncpa y) / 16) ∧
    (out demo ncpa 0 x).2 = 100 * (∑ y, |ncpa y|) / ∑ y, init demo y := by
  refine ⟨?_, ?_⟩
  · set hi : Pix 4 → ℝ := fun y => (fftshift (idft (fftshift fun y : Pix 4 => (ncpa y : ℂ) * 1)) y).re with hhi
    obtain ⟨im, a, c, e, e1, e2, e3, e4, -, e5, -⟩ :=
      detectorPsf_spec (Strehl.toImg hi) 4 1 4 4 rfl rfl le_rfl (by norm_num) (by norm_num) (by norm_num)
    rw [e1] at e4
    rw [e2] at e5
    have ha : a = 0 := by norm_num at e4; omega
    have hc : c = 0 := by norm_num at e5; omega
    subst ha hc
    have px : ∀ i j, im.px i j = hi ((i : ZMod 4), (j : ZMod 4)) := by
      intro i j; rw [e3]; simp [Strehl.toImg]
    have fl : flux im = 1 := by
      have : flux im = ∑ x, hi x := by
        unfold flux
        rw [e1, e2]
        simp only [px]
        rw [Fintype.sum_prod_type]
        rfl
      rw [this, hhi, sum_hi, h]
    refine ⟨scale im 1 0, ?_, e1, e2, ?_⟩
    · unfold out
      show (detectorPsf (Strehl.toImg hi) 1 4 4).map _ = _
      rw [e]
      rfl
    · show im.px 2 2 / flux im * 1 + 0 = _
      rw [fl, px, hhi]
      have := getElem_hi ncpa
      have c : ((((2:ℕ) : ZMod 4), ((2:ℕ) : ZMod 4)) : Pix 4) = centre 4 := by decide
      rw [c]
      simp only [this]
      ring
  · unfold out
    rw [init_demo]
    simp [demo]

/-- C409 (violation): after a call with static coefficients, a call without any returns another image and Strehl ratio
than a new model: here the coefficients are those of a tilt, and the pixel at the centre and the Strehl ratio are
lower.  For the Fourier model as for PSFAO21 and the PSF reconstruction. -/
theorem stale_violation :
    (∃ im im', (call3 demo 0 (after3 demo 0 [withTilt]) []).2.1 = .ok im ∧ (call3 demo 0 (init demo) []).2.1 = .ok im' ∧
      im.px 2 2 < im'.px 2 2) ∧
    (call3 demo 0 (after3 demo 0 [withTilt]) []).2.2 < (call3 demo 0 (init demo) []).2.2 ∧
    (∃ im im' sr sr', (fourierCall demo (after4 demo 0 [withTilt]) []).2 = [(.ok im, sr)] ∧
      (fourierCall demo (init demo) []).2 = [(.ok im', sr')] ∧ im.px 2 2 < im'.px 2 2 ∧ sr < sr') := by
  obtain ⟨l3, l4⟩ := last_coefficients demo 0 1e-6 rfl [] [] withTilt [] (by rw [demo_end]; decide) (by simp) (by simp)
  simp only [List.nil_append] at l3 l4
  have d : withTilt.drop demo.ctx.endStellar = [250] := rfl
  rw [d] at l3 l4
  have e3 : (call3 demo 0 (init demo) []).2 = out demo (init demo) 0 [] := by
    rw [call3_eq, if_neg (by simp)]
  have e4 : (fourierCall demo (init demo) []).2 = [out demo (init demo) 0 []] := by
    unfold fourierCall
    rw [call4_one demo 0 1e-6 rfl, if_neg (by simp)]
  obtain ⟨⟨im, i1, -, -, i2⟩, i3⟩ := out_demo (getStatic demo 1e-6 (some [250]) 0) (getStatic_centre _ _) []
  obtain ⟨⟨im', j1, -, -, j2⟩, j3⟩ := out_demo (init demo) (getStatic_centre none 0) []
  have T := tilt_lowers
  have le : ∑ y, getStatic demo 1e-6 (some [250]) 0 y ≤ ∑ y, |getStatic demo 1e-6 (some [250]) 0 y| :=
    sum_le_sum fun y _ => le_abs_self _
  have nn : ∀ y, 0 ≤ init demo y := fun y => by
    rw [init_demo]
    exact (abs_nonneg _).trans (staticOtf_spec (N := 4) 2 1 rfl (fun _ _ => 1) (fun _ _ => 0)
      (fun _ _ => zero_le_one) (by simp [power]) y).2.1
  have pos : 0 < ∑ y, init demo y := (sum_nonneg fun y _ => abs_nonneg _).trans_lt T
  have srlt : (out demo (getStatic demo 1e-6 (some [250]) 0) 0 []).2 < (out demo (init demo) 0 []).2 := by
    rw [i3, j3]
    refine div_lt_div_of_pos_right ?_ pos
    refine mul_lt_mul_of_pos_left (T.trans_eq ?_) (by norm_num)
    exact sum_congr rfl fun y _ => (abs_of_nonneg (nn y)).symm
  have pxlt : im.px 2 2 < im'.px 2 2 := by
    rw [i2, j2]; linarith
  have w : demo.wvlRef = 1e-6 := rfl
  rw [w] at l3
  refine ⟨⟨im, im', by rw [l3, i1], by rw [e3, j1], pxlt⟩, by rw [l3, e3]; exact srlt,
    im, im', _, _, ?_, ?_, pxlt, srlt⟩
  · show (call4 demo 0 _ _).2 = _
    rw [l4, ← i1]
  · rw [e4, ← j1]

/-- C409 (violation): none of the three models is memoryless. -/
theorem not_memoryless :
    ¬ Spec.Memoryless (init demo) (call3 demo 0) ∧ ¬ Spec.Memoryless (init demo) (fourierCall demo) := by
  obtain ⟨⟨im, im', h1, h2, h3⟩, -, im2, im2', sr, sr', g1, g2, g3, -⟩ := stale_violation
  refine ⟨fun h => ?_, fun h => ?_⟩
  · have := h [withTilt] []
    have e : (call3 demo 0 (after3 demo 0 [withTilt]) []).2 = (call3 demo 0 (init demo) []).2 := this
    rw [e, h2] at h1
    injection h1 with h1
    rw [h1] at h3
    exact lt_irrefl _ h3
  · have e : (fourierCall demo (after4 demo 0 [withTilt]) []).2 = (fourierCall demo (init demo) []).2 := h [withTilt] []
    rw [e, g2] at g1
    injection g1 with g1 _
    injection g1 with g1 _
    injection g1 with g1
    rw [g1] at g3
    exact lt_irrefl _ g3

/-! ### C410: the angle of the static map -/

/-- The same telescope with its map of static aberrations rotated beforehand. -/
noncomputable def turnedMap (M : Model N) (theta : ℝ) : Model N := { M with opd := M.opd.map (M.rot theta) }

theorem getStatic_turned (M : Model N) (theta w : ℝ) (ht : theta ≠ 0) (c : Option (List ℝ)) :
    getStatic M w c theta = getStatic (turnedMap M theta) w c 0 := by
  unfold getStatic turnedMap
  have : (M.opd.map (rotated M theta)) = (M.opd.map (M.rot theta)).map (rotated (turnedMap M theta) 0) := by
    cases M.opd with
    | none => rfl
    | some m => simp [rotated, ht]
  rw [this]
  rfl

/-- C410 (partial): the function for several wavelengths returns the images and Strehl ratios of the telescope whose
map was rotated by the angle given, when there are several wavelengths or static coefficients.  Missing: the other
cases, in which the angle is ignored (`rotation_ignored`). -/
theorem rotation_partial (M : Model N) (theta : ℝ) (ht : theta ≠ 0) (hl : M.wvl ≠ []) (s : Pix N → ℝ) (x : List ℝ)
    (h : 1 < M.wvl.length ∨ M.ctx.endStellar < x.length) :
    (call4 M theta s x).2 = (call4 (turnedMap M theta) 0 (init (turnedMap M theta)) x).2 := by
  by_cases h1 : 1 < M.wvl.length
  · rw [call4_many M theta h1, call4_many (turnedMap M theta) 0 h1]
    simp only [getStatic_turned M theta _ ht]
    rfl
  · obtain ⟨w, hw⟩ : ∃ w, M.wvl = [w] := by
      rcases e : M.wvl with _ | ⟨w, _ | ⟨v, l⟩⟩
      · exact absurd e hl
      · exact ⟨w, rfl⟩
      · rw [e] at h1; simp at h1
    have h2 := h.resolve_left h1
    rw [call4_one M theta w hw, call4_one (turnedMap M theta) 0 w hw]
    simp only [if_pos h2, show (turnedMap M theta).ctx.endStellar < x.length from h2, getStatic_turned M theta _ ht]
    rfl

/-- C410 (violation): in the function for one wavelength, in the function for several wavelengths with one
wavelength and no static coefficients, and in the PSF reconstruction, the angle changes nothing. -/
theorem rotation_ignored (M : Model N) (theta : ℝ) (s : Pix N → ℝ) (x : List ℝ) :
    call3 M theta s x = call3 M 0 s x ∧
    (∀ w, M.wvl = [w] → x.length ≤ M.ctx.endStellar → call4 M theta s x = call4 M 0 s x) ∧
    psfrCall M theta s x = psfrCall M 0 s x := by
  refine ⟨rfl, fun w hw hx => ?_, rfl⟩
  rw [call4_one M theta w hw, call4_one M 0 w hw]
  simp only [if_neg (not_lt.2 hx)]

/-- A telescope with a slit as pupil and a tilt of a quarter of the wavelength per sample along the slit in its map of
static aberrations; the rotation is by ninety degrees. -/
noncomputable def slit : Model 4 :=
  { demo with pupil := fun _ j => if j = 0 then 1 else 0, opd := some fun i _ => 250 * i, modes := [],
              rot := fun _ m i j => m j (1 - i) }

theorem slit_nonneg (i j : ℕ) : 0 ≤ slit.pupil i j := by
  show (0:ℝ) ≤ if j = 0 then 1 else 0
  split_ifs <;> norm_num

theorem slit_power : power 2 slit.pupil = 2 := by
  unfold power
  simp [slit]

theorem slit_next : 0 < dlOtf (N := 4) 2 1 slit.pupil (at' 4 1 0) := by
  unfold dlOtf staticOtf
  rw [maxPix_otf 2 1 rfl _ _ slit_nonneg,
    pupil2otf_linear 2 2 le_rfl 1 (by unfold padOf; norm_num [trunc]) rfl _ _ slit_nonneg 1 0 (by norm_num)
      (by norm_num), slit_power]
  simp only [Finset.sum_range_succ, Finset.sum_range_zero, Otf.ext, field]
  norm_num [slit]

/-- Turned by ninety degrees the tilt is across the slit and has no effect. -/
theorem slit_turned (y : Pix 4) : getStatic slit 1e-6 none 90 y = dlOtf (N := 4) 2 1 slit.pupil y := by
  have f : field slit.pupil (staticPhase 1e-6 (slit.opd.map (rotated slit 90)) slit.modes []) =
      field slit.pupil fun _ _ => 0 := by
    funext i j
    unfold field
    by_cases h : j = 0
    · subst h
      congr 4
      simp [staticPhase, slit, rotated]
    · have : slit.pupil i j = 0 := if_neg h
      rw [this]; simp
  have g : ∀ z : Pix 4, pupil2otf 2 1 slit.pupil (staticPhase 1e-6 (slit.opd.map (rotated slit 90)) slit.modes []) z =
      pupil2otf 2 1 slit.pupil (fun _ _ => 0) z := by
    intro z
    rw [pupil2otf_eq 2 1 _ _ slit_nonneg, pupil2otf_eq 2 1 _ _ slit_nonneg, f]
  unfold getStatic dlOtf staticOtf
  show (pupil2otf 2 1 slit.pupil _ y).re / _ = _
  simp only [Option.getD_none, g]
  congr 2
  funext z
  exact congrArg Complex.re (g z)

theorem slit_tilt (a b : ℤ) (ha : |a| ≤ 2) (hb : |b| ≤ 2) :
    init slit (at' 4 a b) = Real.cos (Real.pi / 2 * a) * dlOtf (N := 4) 2 1 slit.pupil (at' 4 a b) := by
  have := static_tilt_partial (N := 4) 2 2 le_rfl 1 (by unfold padOf; norm_num [trunc]) rfl slit.pupil
    slit_nonneg (Real.pi / 2) 0 a b (by simpa using ha) (by simpa using hb)
  unfold init getStatic
  rw [zero_mul, add_zero] at this
  rw [← this]
  show staticOtf 2 1 slit.pupil _ _ = _
  congr 1
  funext i j
  simp [staticPhase, slit, rotated, demo]
  ring

/-- C410 (violation): a telescope whose map must be turned by ninety degrees, at one wavelength: the Strehl ratio
returned for this angle is that of the map as it is, lower than that of the turned map (100 percent). -/
theorem rotation_violation :
    ∃ im sr im' sr', (call4 slit 90 (init slit) []).2 = [(im, sr)] ∧
      (call4 (turnedMap slit 90) 0 (init (turnedMap slit 90)) []).2 = [(im', sr')] ∧ sr' = 100 ∧ sr < 100 := by
  have e1 : (call4 slit 90 (init slit) []).2 = [out slit (init slit) 0 []] := by
    rw [call4_one slit 90 1e-6 rfl, if_neg (by simp)]
  have e2 : (call4 (turnedMap slit 90) 0 (init (turnedMap slit 90)) []).2 =
      [out (turnedMap slit 90) (init (turnedMap slit 90)) 0 []] := by
    rw [call4_one _ 0 1e-6 rfl, if_neg (by simp)]
  have i2 : init (turnedMap slit 90) = dlOtf (N := 4) 2 1 slit.pupil := by
    funext y
    rw [← slit_turned y, getStatic_turned slit 90 _ (by norm_num)]
    rfl
  have S := fun y : Pix 4 => staticOtf_spec (N := 4) 2 1 rfl slit.pupil
    (staticPhase 1e-6 (slit.opd.map (rotated slit 0)) slit.modes []) slit_nonneg (by rw [slit_power]; norm_num) y
  have nn : ∀ y, 0 ≤ dlOtf (N := 4) 2 1 slit.pupil y := fun y => (abs_nonneg _).trans (S y).2.1
  have lt : ∑ y, |init slit y| < ∑ y, dlOtf (N := 4) 2 1 slit.pupil y := by
    refine sum_lt_sum (fun y _ => (S y).2.1) ⟨at' 4 1 0, mem_univ _, ?_⟩
    rw [slit_tilt 1 0 (by norm_num) (by norm_num)]
    have : Real.cos (Real.pi / 2 * ((1:ℤ):ℝ)) = 0 := by simp
    rw [this, zero_mul, abs_zero]
    exact slit_next
  have pos : 0 < ∑ y, dlOtf (N := 4) 2 1 slit.pupil y := (sum_nonneg fun y _ => abs_nonneg _).trans_lt lt
  refine ⟨_, _, _, _, e1, e2, ?_, ?_⟩
  · rw [i2]
    show 100 * (∑ y, ‖((dlOtf (N := 4) 2 1 slit.pupil y : ℝ) : ℂ) * 1‖) / ∑ y, dlOtf (N := 4) 2 1 slit.pupil y = 100
    have : ∑ y, ‖((dlOtf (N := 4) 2 1 slit.pupil y : ℝ) : ℂ) * 1‖ = ∑ y, dlOtf (N := 4) 2 1 slit.pupil y :=
      sum_congr rfl fun y _ => by rw [mul_one, Complex.norm_real, Real.norm_eq_abs, abs_of_nonneg (nn y)]
    rw [this, mul_div_assoc, div_self pos.ne', mul_one]
  · show 100 * (∑ y, ‖((init slit y : ℝ) : ℂ) * 1‖) / ∑ y, dlOtf (N := 4) 2 1 slit.pupil y < 100
    have : ∑ y, ‖((init slit y : ℝ) : ℂ) * 1‖ = ∑ y, |init slit y| :=
      sum_congr rfl fun y _ => by rw [mul_one, Complex.norm_real, Real.norm_eq_abs]
    rw [this, div_lt_iff₀ pos]
    linarith

/-! ### C411: the arrays of PSFR -/

theorem bdim_self (a : ℕ) : bdim a a = .ok a := by simp [bdim]

theorem bdim_one (a : ℕ) : bdim a 1 = .ok a := by
  by_cases h : a = 1 <;> simp [bdim, h]

theorem one_bdim (a : ℕ) : bdim 1 a = .ok a := by
  by_cases h : 1 = a <;> simp [bdim, h]

/-- Reading an axis of length `d` at `i < d`. -/
theorem read_axis (d i : ℕ) (h : i < d) : (if d = 1 then 0 else i) = i := by
  split_ifs with e
  · omega
  · rfl

/-- C411 (reference): PSFAO21 at one wavelength returns one image per star, with the flux of the star. -/
theorem psfao_cube (fov nStar : ℕ) (psf : ℕ → ℕ → ℕ → ℝ) (F : ℕ → ℝ) (bkg : ℝ) :
    ∃ a, psfaoArray fov nStar psf F bkg = .ok a ∧ Spec.CubeOf fov nStar psf F bkg a.shape a.val := by
  refine ⟨_, by
    simp only [psfaoArray, scaleArr, mulA, addA, bshape, bshapeRev, bind, Except.bind, pure, Except.pure, List.reverse_cons,
      List.reverse_nil, List.nil_append, List.cons_append, bdim_self]
    rfl, rfl, ?_⟩
  intro i hi j hj s hs
  simp only [bidx, List.length_cons, List.length_nil, Nat.sub_self, List.drop_zero, List.zipWith_cons_cons,
    List.zipWith_nil_left, read_axis _ _ hi, read_axis _ _ hj, read_axis _ _ hs, List.getD_cons_zero, List.getD_cons_succ]
  simp [read_axis _ _ hi, read_axis _ _ hj, read_axis _ _ hs]

/-- C411 (partial): the PSF reconstruction returns the image of one star at one wavelength.  Missing: several stars
(`psfr_stars_violation`) or wavelengths (`psfr_wavelengths_violation`). -/
theorem psfr_one_partial (fov : ℕ) (psf : ℕ → ℕ → ℕ → ℝ) (F : ℕ → ℕ → ℝ) (bkg : ℕ → ℝ) :
    ∃ a, psfrArray fov 1 1 1 psf F bkg = .ok a ∧ Spec.CubeOf fov 1 psf (fun s => F s 0) (bkg 0) a.shape a.val := by
  refine ⟨_, by
    simp only [psfrArray, scaleArr, mulA, addA, bshape, bshapeRev, bind, Except.bind, pure, Except.pure, List.reverse_cons,
      List.reverse_nil, List.nil_append, List.cons_append, bdim_one]
    rfl, rfl, ?_⟩
  intro i hi j hj s hs
  obtain rfl : s = 0 := by omega
  simp [bidx, read_axis _ _ hi, read_axis _ _ hj]

/-- C411 (violation): with several stars, not as many as the image has pixels across, the PSF reconstruction fails
with a ValueError whatever the wavelengths. -/
theorem psfr_stars_violation (fov nStar nWvl nFrame : ℕ) (hs : 2 ≤ nStar) (hf : fov ≠ nStar) (h1 : fov ≠ 1)
    (psf : ℕ → ℕ → ℕ → ℝ) (F : ℕ → ℕ → ℝ) (bkg : ℕ → ℝ) :
    psfrArray fov nStar nWvl nFrame psf F bkg = .error .broadcast := by
  have e : bdim fov nStar = .error .broadcast := by
    unfold bdim; rw [if_neg hf, if_neg h1, if_neg (by omega)]
  have e2 : bdim nStar nWvl = .error .broadcast ∨ ∃ d, bdim nStar nWvl = .ok d := by
    unfold bdim; split_ifs <;> simp
  rcases e2 with e2 | ⟨d, e2⟩ <;>
  simp [psfrArray, scaleArr, mulA, bshape, bshapeRev, bind, Except.bind, e, e2]

/-- C411 (violation): with one star at several wavelengths the PSF reconstruction returns the same image at all of
them, that of the reference wavelength, multiplied by the flux of each wavelength. -/
theorem psfr_wavelengths_violation (fov nWvl : ℕ) (psf : ℕ → ℕ → ℕ → ℝ) (F : ℕ → ℕ → ℝ) (bkg : ℕ → ℝ) :
    ∃ a, psfrArray fov 1 nWvl nWvl psf F bkg = .ok a ∧ a.shape = [fov, fov, nWvl] ∧
      ∀ i < fov, ∀ j < fov, ∀ w < nWvl, a.val [i, j, w] =
        psf i j 0 / (∑ b ∈ range fov, ∑ c ∈ range fov, psf b c 0) * F 0 w + bkg w := by
  refine ⟨_, by
    simp only [psfrArray, scaleArr, mulA, addA, bshape, bshapeRev, bind, Except.bind, pure, Except.pure, List.reverse_cons,
      List.reverse_nil, List.nil_append, List.cons_append, bdim_one, one_bdim, bdim_self]
    rfl, rfl, ?_⟩
  intro i hi j hj w hw
  simp [bidx, read_axis _ _ hi, read_axis _ _ hj, read_axis _ _ hw]

/-! ### C412: Strehl ratios of PSFAO21 -/

/-- C412 (partial): at one wavelength the Strehl ratios kept are those of the call.  Missing: several wavelengths
(`kept_last_violation`). -/
theorem kept_one_partial (sr : List ℝ) : keptSR [sr] = some sr := rfl

/-- C412 (violation): at several wavelengths only the Strehl ratios of the last one are kept: two calls with other
Strehl ratios at the other wavelengths cannot be told apart. -/
theorem kept_last_violation (srs srs' : List (List ℝ)) (last : List ℝ) :
    keptSR (srs ++ [last]) = some last ∧ keptSR (srs ++ [last]) = keptSR (srs' ++ [last]) := by
  have h : ∀ l : List (List ℝ), keptSR (l ++ [last]) = some last := fun l => by
    unfold keptSR; rw [List.foldl_append]; rfl
  exact ⟨h _, by rw [h, h]⟩

/-! ### Cases that meet the hypotheses -/

example : (call3 demo 0 (after3 demo 0 [[0.1, 0, 0, 1, 0, 0, 0], []]) [0, 0.2, 0]).2 =
    (call3 demo 0 (init demo) [0, 0.2, 0]).2 :=
  call3_fresh_partial demo 0 _ _ (Or.inr (by rw [demo_end]; simp))

example : (call4 demo 0 (after4 demo 0 [withTilt, []]) withTilt).2 = (call4 demo 0 (init demo) withTilt).2 :=
  call4_fresh_partial demo 0 (by simp [demo]) _ _ (Or.inr (Or.inl (by rw [demo_end]; simp [withTilt])))

example : (call4 { demo with wvl := [1e-6, 2e-6] } 0 (after4 { demo with wvl := [1e-6, 2e-6] } 0 [withTilt]) []).2 =
    (call4 { demo with wvl := [1e-6, 2e-6] } 0 (init { demo with wvl := [1e-6, 2e-6] }) []).2 :=
  call4_fresh_partial _ 0 (by simp) _ _ (Or.inl (by simp))

example : (call3 demo 0 (after3 demo 0 [withTilt, withTilt]) [0, 0, 0, 1, 0, 0, 0, 20]).2 =
    (call3 demo 0 (init demo) [0, 0, 0, 1, 0, 0, 0, 20]).2 :=
  (same_length_partial demo 0 (by simp [demo]) _ _ (by simp [withTilt])).1

example : (call4 demo 0 (call4 demo 0 (init demo) withTilt).1 withTilt).2 = (call4 demo 0 (init demo) withTilt).2 :=
  (repeat_partial demo 0 (by simp [demo]) _ _).2

example : (call3 demo 0 (after3 demo 0 ([[]] ++ withTilt :: [[0, 0, 0]])) []).2 =
    out demo (getStatic demo 1e-6 (some [250]) 0) 0 [] :=
  (last_coefficients demo 0 1e-6 rfl [[]] [[0, 0, 0]] withTilt [] (by rw [demo_end]; simp [withTilt])
    (by rw [demo_end]; simp) (by simp)).1

example : (call4 slit 90 (init slit) withTilt).2 =
    (call4 (turnedMap slit 90) 0 (init (turnedMap slit 90)) withTilt).2 :=
  rotation_partial slit 90 (by norm_num) (by simp [slit, demo]) _ _
    (Or.inr (by rw [show slit.ctx.endStellar = 7 by decide]; simp [withTilt]))

example : psfrArray 8 2 1 1 (fun _ _ _ => 1) (fun _ _ => 1) (fun _ => 0) = .error .broadcast :=
  psfr_stars_violation 8 2 1 1 le_rfl (by norm_num) (by norm_num) _ _ _

end P3.Calls
