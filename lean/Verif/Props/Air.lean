import Verif.Model.Air
import Mathlib.Tactic.Linarith
import Mathlib.Tactic.NormNum
import Mathlib.Tactic.Positivity
import Mathlib.Tactic.FieldSimp
import Mathlib.Tactic.GCongr
import Mathlib.Tactic.IntervalCases
import Mathlib.Tactic.Ring
import Mathlib.Data.Real.Sqrt

/-! C49: refractive index of air. -/

namespace P3.Air

/-- The values returned, as a list. -/
def Result.toList : Result → List ℝ
  | .number x => [x]
  | .array xs => xs

/-- C49: a value is returned for each wavelength, in order, each depending only on its own wavelength; the only
refused input is the empty array. -/
theorem refractiveIndex_spec (s : State) (wvl : List ℝ) :
    (refractiveIndex s wvl = none ↔ wvl = []) ∧
    ∀ r, refractiveIndex s wvl = some r → r.toList = wvl.map fun w => index1 s (w * 1e6) := by
  rcases wvl with _ | ⟨a, _ | ⟨b, t⟩⟩
  · simp [refractiveIndex]
  · simp [refractiveIndex, Result.toList]
  · simp [refractiveIndex, Result.toList]

/-- The bands do not overlap. -/
theorem bands_disjoint (b b' : Band) (w : ℝ) (h : b.range.1 ≤ w ∧ w ≤ b.range.2) (h' : b'.range.1 ≤ w ∧ w ≤ b'.range.2) :
    b = b' := by
  cases b <;> cases b' <;> simp only [Band.range] at h h' <;> first | rfl | (exfalso; obtain ⟨h1, h2⟩ := h; obtain ⟨h3, h4⟩ := h'; norm_num at h1 h2 h3 h4; linarith)

/-- C49: the band that contains the wavelength is used. -/
theorem bandOf_spec (b : Band) (w : ℝ) (h : b.range.1 ≤ w ∧ w ≤ b.range.2) : bandOf w = b := by
  unfold bandOf
  generalize hf : List.find? _ allBands = o
  rcases o with _ | c
  · have := List.find?_eq_none.mp hf b (by cases b <;> simp [allBands])
    simp [h] at this
  · have := List.find?_some hf
    simp only [decide_eq_true_eq] at this
    exact bands_disjoint c b w this h

/-- C135 (violation): a wavelength outside all bands is computed with the table of the K band, extrapolated: this
happens in the four gaps and beyond 28 micrometres. -/
theorem bandOf_gap (w : ℝ) (h : ∀ b : Band, ¬ (b.range.1 ≤ w ∧ w ≤ b.range.2)) : bandOf w = .K := by
  unfold bandOf
  have : allBands.find? (fun b => decide (b.range.1 ≤ w ∧ w ≤ b.range.2)) = none := by
    rw [List.find?_eq_none]
    intro b _
    simp only [decide_eq_true_eq]
    exact h b
  rw [this]; rfl

/-- The gaps: a wavelength of at least 1.3 micrometres is in no band exactly in these intervals. -/
theorem gaps (w : ℝ) (hw : 1.3 ≤ w) :
    (∀ b : Band, ¬ (b.range.1 ≤ w ∧ w ≤ b.range.2)) ↔
      (2.5 < w ∧ w < 2.8) ∨ (4.2 < w ∧ w < 4.35) ∨ (5.3 < w ∧ w < 7.5) ∨ (14.1 < w ∧ w < 16) ∨ 28 < w := by
  constructor
  · intro h
    have hK := h .K; have hL := h .L; have hM := h .M; have hN := h .N; have hQ := h .Q
    simp only [Band.range, not_and, not_le] at hK hL hM hN hQ
    have h1 := hK hw
    by_cases a1 : w < 2.8
    · exact Or.inl ⟨h1, a1⟩
    have h2 := hL (not_lt.mp a1)
    by_cases a2 : w < 4.35
    · exact Or.inr (Or.inl ⟨h2, a2⟩)
    have h3 := hM (not_lt.mp a2)
    by_cases a3 : w < 7.5
    · exact Or.inr (Or.inr (Or.inl ⟨h3, a3⟩))
    have h4 := hN (not_lt.mp a3)
    by_cases a4 : w < 16
    · exact Or.inr (Or.inr (Or.inr (Or.inl ⟨h4, a4⟩)))
    have h5 := hQ (by norm_num at a4 ⊢; exact a4)
    refine Or.inr (Or.inr (Or.inr (Or.inr ?_)))
    norm_num at h5; exact h5
  · intro h b hb
    cases b <;> simp only [Band.range] at hb <;> obtain ⟨h1, h2⟩ := hb <;> norm_num at h1 h2 hw h <;>
      rcases h with ⟨h, h'⟩ | ⟨h, h'⟩ | ⟨h, h'⟩ | ⟨h, h'⟩ | h <;> linarith

/-- Bound on a polynomial with its coefficients. -/
theorem poly_bound (c0 c1 c2 c3 c4 c5 x X : ℝ) (hx : |x| ≤ X) :
    |c0 * x ^ 0 + (c1 * x ^ 1 + (c2 * x ^ 2 + (c3 * x ^ 3 + (c4 * x ^ 4 + (c5 * x ^ 5 + 0))))) - c0| ≤
      |c1| * X + |c2| * X ^ 2 + |c3| * X ^ 3 + |c4| * X ^ 4 + |c5| * X ^ 5 := by
  have e : c0 * x ^ 0 + (c1 * x ^ 1 + (c2 * x ^ 2 + (c3 * x ^ 3 + (c4 * x ^ 4 + (c5 * x ^ 5 + 0))))) - c0 =
      c1 * x + c2 * x ^ 2 + c3 * x ^ 3 + c4 * x ^ 4 + c5 * x ^ 5 := by ring
  have h0 : 0 ≤ |x| := abs_nonneg x
  have b1 : |c1 * x| ≤ |c1| * X := by rw [abs_mul]; gcongr
  have b2 : |c2 * x ^ 2| ≤ |c2| * X ^ 2 := by rw [abs_mul, abs_pow]; gcongr
  have b3 : |c3 * x ^ 3| ≤ |c3| * X ^ 3 := by rw [abs_mul, abs_pow]; gcongr
  have b4 : |c4 * x ^ 4| ≤ |c4| * X ^ 4 := by rw [abs_mul, abs_pow]; gcongr
  have b5 : |c5 * x ^ 5| ≤ |c5| * X ^ 5 := by rw [abs_mul, abs_pow]; gcongr
  rw [e]
  have t1 := abs_add_le (c1 * x + c2 * x ^ 2 + c3 * x ^ 3 + c4 * x ^ 4) (c5 * x ^ 5)
  have t2 := abs_add_le (c1 * x + c2 * x ^ 2 + c3 * x ^ 3) (c4 * x ^ 4)
  have t3 := abs_add_le (c1 * x + c2 * x ^ 2) (c3 * x ^ 3)
  have t4 := abs_add_le (c1 * x) (c2 * x ^ 2)
  linarith

/-- The reference state of the model: 17.5 degrees, 75000 pascal, 10 percent. -/
noncomputable def refState : State := ⟨17.5, 75000, 10⟩

theorem refState_vector : refState.vector = [1, 0, 0, 0, 0, 0, 0, 0, 0, 0] := by
  simp [State.vector, State.kelvin, refState]
  norm_num

/-- C49: in the reference atmosphere, at every wavelength of every infrared band, the refractivity is within
four millionths of 0.0002: the tables, in their own band, give a physical value. -/
theorem mathar_reference (b : Band) (w : ℝ) (h : b.range.1 ≤ w ∧ w ≤ b.range.2) :
    |matharIn (bandOf w) refState w - 2e-4| ≤ 4e-6 := by
  rw [bandOf_spec b w h]
  unfold matharIn
  simp only [refState_vector]
  have hr : List.range 6 = [0, 1, 2, 3, 4, 5] := rfl
  rw [hr]
  have hw : 0 < w := by
    refine lt_of_lt_of_le ?_ h.1
    cases b <;> norm_num [Band.range]
  have hx : ∀ lo hi : ℝ, 0 < lo → 0 < hi → lo ≤ w → w ≤ hi → 10000 / hi ≤ 10000 / w ∧ 10000 / w ≤ 10000 / lo := by
    intro lo hi h1 h2 h3 h4
    constructor <;> gcongr
  cases b
  all_goals
    simp only [Band.range] at h
    obtain ⟨h1, h2⟩ := hx _ _ (by norm_num) (by norm_num) h.1 h.2
    simp only [List.map_cons, List.map_nil, List.sum_cons, List.sum_nil, Band.coeffs, List.getD_cons_zero,
      List.getD_cons_succ, dot, List.zipWith_cons_cons, List.zipWith_nil_left, mul_zero, mul_one, add_zero]
  · have hb : |10000 / w - Band.K.nuRef| ≤ 3300 := by
      rw [abs_le]; simp only [Band.nuRef]; norm_num at h1 h2 ⊢; constructor <;> linarith
    have hp := abs_le.mp (poly_bound (0.200192e-3) (0.113474e-9) (-0.424595e-14) (0.100957e-16) (-0.293315e-20) (0.307228e-24) _ _ hb)
    have hS : |(0.113474e-9 : ℝ)| * 3300 + |(-0.424595e-14 : ℝ)| * 3300 ^ 2 + |(0.100957e-16 : ℝ)| * 3300 ^ 3 + |(-0.293315e-20 : ℝ)| * 3300 ^ 4 + |(0.307228e-24 : ℝ)| * 3300 ^ 5 ≤ 3e-6 := by
      norm_num [abs_of_pos, abs_of_neg]
    rw [abs_le]
    constructor <;> linarith [hp.1, hp.2]
  · have hb : |10000 / w - Band.L.nuRef| ≤ 640 := by
      rw [abs_le]; simp only [Band.nuRef]; norm_num at h1 h2 ⊢; constructor <;> linarith
    have hp := abs_le.mp (poly_bound (0.200049e-3) (0.145221e-9) (0.250951e-12) (-0.745834e-15) (-0.161432e-17) (0.352780e-20) _ _ hb)
    have hS : |(0.145221e-9 : ℝ)| * 640 + |(0.250951e-12 : ℝ)| * 640 ^ 2 + |(-0.745834e-15 : ℝ)| * 640 ^ 3 + |(-0.161432e-17 : ℝ)| * 640 ^ 4 + |(0.352780e-20 : ℝ)| * 640 ^ 5 ≤ 3e-6 := by
      norm_num [abs_of_pos, abs_of_neg]
    rw [abs_le]
    constructor <;> linarith [hp.1, hp.2]
  · have hb : |10000 / w - Band.M.nuRef| ≤ 220 := by
      rw [abs_le]; simp only [Band.nuRef]; norm_num at h1 h2 ⊢; constructor <;> linarith
    have hp := abs_le.mp (poly_bound (0.200020e-3) (0.275346e-9) (0.325702e-12) (-0.693603e-14) (0.285610e-17) (0.338758e-18) _ _ hb)
    have hS : |(0.275346e-9 : ℝ)| * 220 + |(0.325702e-12 : ℝ)| * 220 ^ 2 + |(-0.693603e-14 : ℝ)| * 220 ^ 3 + |(0.285610e-17 : ℝ)| * 220 ^ 4 + |(0.338758e-18 : ℝ)| * 220 ^ 5 ≤ 3e-6 := by
      norm_num [abs_of_pos, abs_of_neg]
    rw [abs_le]
    constructor <;> linarith [hp.1, hp.2]
  · have hb : |10000 / w - Band.N.nuRef| ≤ 350 := by
      rw [abs_le]; simp only [Band.nuRef]; norm_num at h1 h2 ⊢; constructor <;> linarith
    have hp := abs_le.mp (poly_bound (0.199885e-3) (0.344739e-9) (-0.273714e-12) (0.393383e-15) (-0.569488e-17) (0.164556e-19) _ _ hb)
    have hS : |(0.344739e-9 : ℝ)| * 350 + |(-0.273714e-12 : ℝ)| * 350 ^ 2 + |(0.393383e-15 : ℝ)| * 350 ^ 3 + |(-0.569488e-17 : ℝ)| * 350 ^ 4 + |(0.164556e-19 : ℝ)| * 350 ^ 5 ≤ 3e-6 := by
      norm_num [abs_of_pos, abs_of_neg]
    rw [abs_le]
    constructor <;> linarith [hp.1, hp.2]
  · have hb : |10000 / w - Band.Q.nuRef| ≤ 145 := by
      rw [abs_le]; simp only [Band.nuRef]; norm_num at h1 h2 ⊢; constructor <;> linarith
    have hp := abs_le.mp (poly_bound (0.199436e-3) (0.299123e-8) (-0.214862e-10) (0.143338e-12) (0.122398e-14) (-0.114628e-16) _ _ hb)
    have hS : |(0.299123e-8 : ℝ)| * 145 + |(-0.214862e-10 : ℝ)| * 145 ^ 2 + |(0.143338e-12 : ℝ)| * 145 ^ 3 + |(0.122398e-14 : ℝ)| * 145 ^ 4 + |(-0.114628e-16 : ℝ)| * 145 ^ 5 ≤ 3e-6 := by
      norm_num [abs_of_pos, abs_of_neg]
    rw [abs_le]
    constructor <;> linarith [hp.1, hp.2]

/-! ### Ciddor's model -/

/-- Longer than the resonance of the dry-air formula: the square of the wavenumber is below 57.362. -/
def AboveResonance (w : ℝ) : Prop := 0 < w ∧ (1 / w) ^ 2 < 57.362

/-- Wavelengths above 0.2 micrometres qualify. -/
theorem aboveResonance_of (w : ℝ) (h : 0.2 ≤ w) : AboveResonance w := by
  have hw : 0 < w := lt_of_lt_of_le (by norm_num) h
  have h5 : 1 / w ≤ 5 := by rw [div_le_iff₀ hw]; linarith
  have h0 : 0 ≤ 1 / w := by positivity
  exact ⟨hw, by nlinarith⟩

theorem dryStd_pos (x : ℝ) (h : x ^ 2 < 57.362) : 0 < dryStd x := by
  have h1 : 0 < 57.362 - x ^ 2 := by linarith
  have h2 : 0 < 238.0185 - x ^ 2 := by linarith
  unfold dryStd; positivity

theorem dryStd_mono (x y : ℝ) (hx : 0 ≤ x) (hxy : x < y) (h : y ^ 2 < 57.362) : dryStd x < dryStd y := by
  have hs : x ^ 2 < y ^ 2 := by nlinarith
  have h1 : 0 < 57.362 - y ^ 2 := by linarith
  have h2 : 0 < 238.0185 - y ^ 2 := by linarith
  unfold dryStd
  have e1 : (5792105.0 : ℝ) / (238.0185 - x ^ 2) < 5792105.0 / (238.0185 - y ^ 2) := by gcongr
  have e2 : (167917.0 : ℝ) / (57.362 - x ^ 2) < 167917.0 / (57.362 - y ^ 2) := by gcongr
  have : (0:ℝ) < 1e-8 := by norm_num
  exact mul_lt_mul_of_pos_right (add_lt_add e1 e2) this

theorem wetStd_pos (x : ℝ) : 0 < wetStd x := by
  unfold wetStd
  have h : 0 < 295.235 + 2.6422 * x ^ 2 + (-0.032380) * x ^ 4 + 0.004028 * x ^ 6 := by
    have e : 295.235 + 2.6422 * x ^ 2 + (-0.032380) * x ^ 4 + 0.004028 * x ^ 6 =
        295.235 + x ^ 2 * (2.6422 - 0.032380 * x ^ 2 + 0.004028 * (x ^ 2) ^ 2) := by ring
    rw [e]
    have : 0 < 2.6422 - 0.032380 * x ^ 2 + 0.004028 * (x ^ 2) ^ 2 := by nlinarith [sq_nonneg (x ^ 2 - 4)]
    have : 0 ≤ x ^ 2 * (2.6422 - 0.032380 * x ^ 2 + 0.004028 * (x ^ 2) ^ 2) := by positivity
    linarith
  have : (0:ℝ) < 1e-8 := by norm_num
  have : (0:ℝ) < 1.022 := by norm_num
  positivity

theorem wetStd_mono (x y : ℝ) (hx : 0 ≤ x) (hxy : x < y) : wetStd x < wetStd y := by
  have hs : x ^ 2 < y ^ 2 := by nlinarith
  have h : 295.235 + 2.6422 * x ^ 2 + (-0.032380) * x ^ 4 + 0.004028 * x ^ 6 <
      295.235 + 2.6422 * y ^ 2 + (-0.032380) * y ^ 4 + 0.004028 * y ^ 6 := by
    set a := x ^ 2
    set b := y ^ 2
    have ha : 0 ≤ a := sq_nonneg x
    have e1 : x ^ 4 = a ^ 2 := by ring
    have e2 : y ^ 4 = b ^ 2 := by ring
    have e3 : x ^ 6 = a ^ 3 := by ring
    have e4 : y ^ 6 = b ^ 3 := by ring
    rw [e1, e2, e3, e4]
    have hq : 0 < 2.6422 - 0.032380 * (a + b) + 0.004028 * (a ^ 2 + a * b + b ^ 2) := by
      nlinarith [sq_nonneg (a + b - 4), sq_nonneg (a - b)]
    have : 0 < (b - a) * (2.6422 - 0.032380 * (a + b) + 0.004028 * (a ^ 2 + a * b + b ^ 2)) :=
      mul_pos (by linarith) hq
    nlinarith
  unfold wetStd
  have h8 : (0:ℝ) < 1e-8 := by norm_num
  have h1 : (0:ℝ) < 1.022 := by norm_num
  exact mul_lt_mul_of_pos_right (mul_lt_mul_of_pos_left h h1) h8

/-- A physical state: above absolute zero, non-negative humidity, dry and wet partial pressures adding up to the
pressure with some dry air. -/
structure Physical (s : State) : Prop where
  T : 0 < s.kelvin
  H : 0 ≤ s.H
  P : 0 ≤ s.P
  dry : 0 < s.pa

theorem pw_nonneg (s : State) (h : Physical s) : 0 ≤ s.pw := by
  unfold State.pw svp
  have h1 := h.H
  have h2 := h.P
  have := Real.exp_pos (1.2378847e-5 * s.kelvin ^ 2 + (-1.9121316e-2) * s.kelvin + 33.93711047 + (-6.3431645e3) / s.kelvin)
  positivity

/-- C49: in the visible and near infrared air is denser than vacuum: the refractivity is positive. -/
theorem ciddor_pos (s : State) (h : Physical s) (w : ℝ) (hw : AboveResonance w) : 0 < ciddor s w := by
  have h1 := dryStd_pos (1 / w) hw.2
  have h2 := wetStd_pos (1 / w)
  have h3 := pw_nonneg s h
  have h4 := h.dry
  have h5 := h.T
  unfold ciddor
  have : 0 < s.pa / 101325 * (288.15 / s.kelvin) * dryStd (1 / w) := by positivity
  have : 0 ≤ s.pw / 1333 * (293.15 / s.kelvin) * wetStd (1 / w) := by positivity
  linarith

/-- C49: normal dispersion: the refractivity decreases with the wavelength, for every physical state. -/
theorem ciddor_decreasing (s : State) (h : Physical s) (w w' : ℝ) (hw : AboveResonance w) (hww : w < w') :
    ciddor s w' < ciddor s w := by
  have hp : 0 < w' := hw.1.trans hww
  have h1 : 1 / w' < 1 / w := one_div_lt_one_div_of_lt hw.1 hww
  have h0 : 0 ≤ 1 / w' := by positivity
  have d := dryStd_mono (1 / w') (1 / w) h0 h1 hw.2
  have e := (wetStd_mono (1 / w') (1 / w) h0 h1).le
  have h3 := pw_nonneg s h
  have h4 := h.dry
  have h5 := h.T
  unfold ciddor
  have c1 : 0 < s.pa / 101325 * (288.15 / s.kelvin) := by positivity
  have c2 : 0 ≤ s.pw / 1333 * (293.15 / s.kelvin) := by positivity
  linarith [mul_lt_mul_of_pos_left d c1, mul_le_mul_of_nonneg_left e c2]

/-- C49: dry air: the refractivity is proportional to the pressure and inversely to the temperature. -/
theorem ciddor_dry (T P w : ℝ) : ciddor ⟨T, P, 0⟩ w = P / 101325 * (288.15 / (T + 273.15)) * dryStd (1 / w) := by
  simp [ciddor, State.pa, State.pw, State.kelvin]

/-- C135 (violation): the formula has a pole in the far ultraviolet: the code divides by zero when the square of
the wavenumber is 57.362 (0.132 micrometres), and the refractivity of dry air is negative just below. -/
theorem ciddor_pole : (57.362 : ℝ) - (Real.sqrt 57.362) ^ 2 = 0 ∧ dryStd 7.7 < 0 := by
  constructor
  · rw [Real.sq_sqrt (by norm_num)]; norm_num
  · norm_num [dryStd]

/-- The default state (15 degrees, standard pressure, dry) is physical, and visible wavelengths are above the
resonance. -/
example : Physical ⟨15, 101325, 0⟩ ∧ AboveResonance 0.55 :=
  ⟨⟨by norm_num [State.kelvin], by norm_num, by norm_num, by norm_num [State.pa, State.pw]⟩,
    aboveResonance_of _ (by norm_num)⟩

/-- C49: which model gives the value: Ciddor's below 1.3 micrometres, Mathar's with the table of the band from
there on (in a band). -/
theorem index1_model (s : State) (w : ℝ) :
    (w < 1.3 → index1 s w = ciddor s w) ∧
    ∀ b : Band, b.range.1 ≤ w → w ≤ b.range.2 → index1 s w = matharIn b s w := by
  refine ⟨fun h => if_pos h, fun b h1 h2 => ?_⟩
  have h13 : (1.3:ℝ) ≤ w := by
    refine le_trans ?_ h1
    cases b <;> simp only [Band.range] <;> norm_num
  unfold index1
  rw [if_neg (not_lt.2 h13), bandOf_spec b w ⟨h1, h2⟩]

/-- C49: the partial pressures of dry air and water vapour add up to the pressure. -/
theorem partial_pressures (s : State) : s.pa + s.pw = s.P := by
  unfold State.pa; ring

/-- C49: a number is returned exactly for one wavelength, an array exactly for two or more. -/
theorem refractiveIndex_shape (s : State) (wvl : List ℝ) :
    ((∃ x, refractiveIndex s wvl = some (.number x)) ↔ wvl.length = 1) ∧
    ((∃ xs, refractiveIndex s wvl = some (.array xs)) ↔ 2 ≤ wvl.length) := by
  rcases wvl with _ | ⟨a, _ | ⟨b, t⟩⟩ <;> simp [refractiveIndex]

end P3.Air
