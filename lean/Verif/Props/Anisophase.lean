import Verif.Props.Isoplanatic
import Verif.Props.Focal
import Mathlib.MeasureTheory.Function.L2Space
/-! C457: the structure functions of the anisoplanatism are those of a field with the covariance of the turbulence; constant of the
spectrum. -/

namespace P3.Turbulence
open MeasureTheory Set Real Filter Topology P3.Atmosphere

theorem Gamma_eleven_sixths_value : 0.9388 < Gamma (11/6) ∧ Gamma (11/6) < 0.9424 := by
  obtain ⟨u, l⟩ := Gamma_between 40 (5/6) (by norm_num) (by norm_num) (by norm_num)
  have e := Gamma_shift (11/6) (by norm_num) 39
  rw [show (11/6 : ℝ) + (39:ℕ) = ((40:ℕ):ℝ) + 5/6 by norm_num] at e
  have hp : Gamma ((40:ℕ):ℝ) = (39:ℕ).factorial := by
    have := Gamma_nat_eq_factorial 39
    rw [← this]; norm_num
  rw [e, hp] at u l
  have r1 : (((40:ℕ):ℝ)) ^ ((5:ℝ)/6) ≤ 21.631 := by
    have : (21.631:ℝ) = ((21.631 ^ 6) ^ ((1:ℝ)/5)) ^ ((5:ℝ)/6) := by
      rw [← rpow_natCast, ← rpow_mul (by norm_num), ← rpow_mul (by norm_num)]; norm_num
    rw [this]
    refine rpow_le_rpow (by norm_num) ?_ (by norm_num)
    have : ((40:ℕ):ℝ) = (((40:ℕ):ℝ) ^ 5) ^ ((1:ℝ)/5) := by
      rw [← rpow_natCast, ← rpow_mul (by norm_num)]; norm_num
    rw [this]
    exact rpow_le_rpow (by norm_num) (by norm_num) (by norm_num)
  have r2 : (((40:ℕ):ℝ) + 5/6) ^ (1 - (5:ℝ)/6) ≤ 1.8557 := by
    have : (1.8557:ℝ) = (1.8557 ^ 6) ^ (1 - (5:ℝ)/6) := by rw [← rpow_natCast, ← rpow_mul (by norm_num)]; norm_num
    rw [this]
    exact rpow_le_rpow (by norm_num) (by norm_num) (by norm_num)
  have hG : 0 < Gamma (11/6) := Gamma_pos_of_pos (by norm_num)
  have hP : 0 < ∏ k ∈ Finset.range 39, ((11/6 : ℝ) + k) := Finset.prod_pos fun k _ => by positivity
  have u' := u.trans (mul_le_mul_of_nonneg_left r1 (by positivity))
  have l' := l.trans (mul_le_mul_of_nonneg_left r2 (by positivity))
  have ev : ∏ k ∈ Finset.range 39, ((11/6 : ℝ) + k) = (∏ k ∈ Finset.range 39, (11 + 6 * k : ℕ) : ℕ) / 6 ^ 39 := by
    push_cast
    rw [show (6:ℝ) ^ 39 = ∏ k ∈ Finset.range 39, (6:ℝ) by simp, ← Finset.prod_div_distrib]
    refine Finset.prod_congr rfl fun k _ => ?_
    ring
  have en : (∏ k ∈ Finset.range 39, (11 + 6 * k : ℕ) : ℕ) = 1043160638868825326191286909097592599249387122598341854039032607209676267578125 := by decide +kernel
  have ef : (39:ℕ).factorial = 20397882081197443358640281739902897356800000000 := by decide +kernel
  rw [ev, en, ef] at u' l'
  constructor
  · norm_num at l' ⊢; linarith
  · norm_num at u' ⊢; linarith

theorem pi_eight_thirds : 21.16 < π ^ ((8:ℝ)/3) ∧ π ^ ((8:ℝ)/3) < 21.18 := by
  have hp := pi_pos
  have e : (π ^ ((8:ℝ)/3)) ^ 3 = π ^ 8 := by
    rw [← rpow_natCast, ← rpow_mul hp.le, ← rpow_natCast]; norm_num
  have l : (3.1415:ℝ) ^ 8 < π ^ 8 := by gcongr; exact pi_gt_d4
  have u : π ^ 8 < (3.1416:ℝ) ^ 8 := by gcongr; exact pi_lt_d4
  constructor
  · refine lt_of_pow_lt_pow_left₀ 3 (by positivity) ?_
    rw [e]; refine lt_of_le_of_lt ?_ l; norm_num
  · refine lt_of_pow_lt_pow_left₀ 3 (by norm_num) ?_
    rw [e]; refine lt_of_lt_of_le u ?_; norm_num

/-- The constant of the spectrum of the turbulence is 0.0229 within one percent. -/
theorem spectrum_constant : |c1 * (Gamma (11/6) ^ 2 / (2 * π ^ ((11:ℝ)/3))) - 0.0229| ≤ 0.0002 := by
  obtain ⟨l, u⟩ := c1_value
  obtain ⟨gl, gu⟩ := Gamma_eleven_sixths_value
  obtain ⟨pl, pu⟩ := pi_eight_thirds
  have hp := pi_pos
  have e : π ^ ((11:ℝ)/3) = π ^ ((8:ℝ)/3) * π := by
    rw [← rpow_add_one hp.ne']; norm_num
  have p1 := pi_gt_d4
  have p2 := pi_lt_d4
  rw [e, ← mul_div_assoc]
  have n1 : 3.43 * 0.9388 ^ 2 ≤ c1 * Gamma (11/6) ^ 2 := by gcongr
  have n2 : c1 * Gamma (11/6) ^ 2 ≤ 3.45 * 0.9424 ^ 2 := by gcongr
  have d1 : 2 * (21.16 * 3.1415) ≤ 2 * (π ^ ((8:ℝ)/3) * π) := by gcongr
  have d2 : 2 * (π ^ ((8:ℝ)/3) * π) ≤ 2 * (21.18 * 3.1416) := by gcongr
  have hd : 0 < 2 * (π ^ ((8:ℝ)/3) * π) := by positivity
  rw [abs_le, le_sub_iff_add_le, sub_le_iff_le_add, le_div_iff₀ hd, div_le_iff₀ hd]
  constructor
  · refine le_trans (mul_le_mul_of_nonneg_left d2 (by norm_num)) (le_trans ?_ n1); norm_num
  · refine n2.trans (le_trans ?_ (mul_le_mul_of_nonneg_left d1 (by norm_num))); norm_num


open P3.Focal

/-- The distance between two points of the pupil. -/
noncomputable def dist2 (p : Pt) : ℝ := √(p.1 ^ 2 + p.2 ^ 2)

/-- `Ialpha` is the covariance of the turbulence in units of 5/3 of its variance. -/
theorem ialpha_covariance (a : Atm) (hL : 0 < a.L0) (p : Pt) :
    ialpha (besselK (5/6)) (2 * π / a.L0) p * (5/3 * variance a) = covariance (besselK (5/6)) a (dist2 p) := by
  have hp := pi_pos
  have hs : √((2 * π / a.L0 * p.1) ^ 2 + (2 * π / a.L0 * p.2) ^ 2) = 2 * π * dist2 p / a.L0 := by
    rw [show (2 * π / a.L0 * p.1) ^ 2 + (2 * π / a.L0 * p.2) ^ 2 = (2 * π / a.L0) ^ 2 * (p.1 ^ 2 + p.2 ^ 2) by ring,
      sqrt_mul (by positivity), sqrt_sq (by positivity)]
    unfold dist2; ring
  have g1 : Gamma (11/6) = 5/6 * Gamma (5/6) := by
    rw [show (11/6 : ℝ) = 5/6 + 1 by norm_num, Gamma_add_one (by norm_num)]
  have g0 : 0 < Gamma (5/6) := Gamma_pos_of_pos (by norm_num)
  unfold ialpha mcDonald
  rw [hs]
  by_cases h : dist2 p = 0
  · rw [h]; simp [covariance, variance]; ring
  · have hd : 2 * π * dist2 p / a.L0 ≠ 0 := by positivity
    rw [if_neg hd]
    unfold covariance variance c3 c2
    rw [if_neg h, g1]
    have h2 : (0:ℝ) < 2 ^ ((5:ℝ)/6) := by positivity
    have h3 : 0 < π ^ ((8:ℝ)/3) := by positivity
    simp only
    generalize (2 * π * dist2 p / a.L0) ^ ((5:ℝ)/6) = X
    generalize besselK (5/6) (2 * π * dist2 p / a.L0) = Y
    generalize (2:ℝ) ^ ((5:ℝ)/6) = Z at h2 ⊢
    generalize π ^ ((8:ℝ)/3) = U at h3 ⊢
    generalize (a.L0 / a.r0) ^ ((5:ℝ)/3) = V
    field_simp
    ring

/-- The point as a vector of the plane. -/
noncomputable def vec (p : Pt) : Plane := !₂[p.1, p.2]

theorem vec_norm (p : Pt) : ‖vec p‖ = dist2 p := by
  unfold vec dist2
  rw [EuclideanSpace.norm_eq]; simp
theorem vec_sub (p q : Pt) : vec p - vec q = vec (p - q) := by
  unfold vec
  ext i; fin_cases i <;> simp

theorem spectrum_pos (a : Atm) (hr : 0 < a.r0) (hL : 0 < a.L0) (k : ℝ) : 0 < Atmosphere.spectrum a k := by
  have hp := pi_pos
  have g0 : 0 < Gamma (11/6) := Gamma_pos_of_pos (by norm_num)
  have g1 : 0 < Gamma (6/5) := Gamma_pos_of_pos (by norm_num)
  unfold Atmosphere.spectrum
  positivity

theorem spectrum_meas (a : Atm) : Measurable fun v : Plane => Atmosphere.spectrum a ‖v‖ := by
  unfold Atmosphere.spectrum; fun_prop

theorem spectrum_integrable (a : Atm) (hr : 0 < a.r0) (hL : 0 < a.L0) : Integrable fun v : Plane => Atmosphere.spectrum a ‖v‖ := by
  by_contra h
  have h1 := variance_integral a hr hL
  rw [integral_undef h] at h1
  have : 0 < variance a := by
    have h2 := structure_spec a hr hL
    have := h2.2.2.2.1 0 le_rfl
    rw [h2.2.1] at this; linarith
  linarith

/-- The phase at a point, as a superposition of the plane waves of the spectrum. -/
noncomputable def wave (a : Atm) (x : Pt) (v : Plane) : ℂ :=
  (√(Atmosphere.spectrum a ‖v‖) : ℂ) * Complex.exp (((2 * π * inner ℝ (vec x) v : ℝ) : ℂ) * Complex.I)

theorem wave_norm (a : Atm) (x : Pt) (v : Plane) : ‖wave a x v‖ = √(Atmosphere.spectrum a ‖v‖) := by
  unfold wave
  rw [norm_mul, Complex.norm_exp_ofReal_mul_I, mul_one, Complex.norm_real, norm_of_nonneg (sqrt_nonneg _)]

theorem wave_memLp (a : Atm) (hr : 0 < a.r0) (hL : 0 < a.L0) (x : Pt) : MemLp (wave a x) 2 (volume : Measure Plane) := by
  have hm : AEStronglyMeasurable (wave a x) (volume : Measure Plane) := by
    apply Measurable.aestronglyMeasurable
    unfold wave
    have := spectrum_meas a
    fun_prop
  rw [memLp_two_iff_integrable_sq_norm hm]
  refine (spectrum_integrable a hr hL).congr (Eventually.of_forall fun v => ?_)
  simp only [wave_norm]
  rw [sq_sqrt (spectrum_pos a hr hL _).le]

/-- C457: there is a stationary field (of square-integrable functions) whose covariance is that of the turbulence. -/
theorem stationary_field (a : Atm) (hr : 0 < a.r0) (hL : 0 < a.L0) :
    Stationary (fun x => (wave_memLp a hr hL x).toLp) (fun p => covariance (besselK (5/6)) a (dist2 p)) := by
  intro x y
  show inner ℝ ((wave_memLp a hr hL x).toLp) ((wave_memLp a hr hL y).toLp) = covariance (besselK (5/6)) a (dist2 (x - y))
  rw [← vec_norm, ← vec_sub, ← wiener_khinchin a hr hL, L2.inner_def]
  refine integral_congr_ae ?_
  filter_upwards [(wave_memLp a hr hL x).coeFn_toLp, (wave_memLp a hr hL y).coeFn_toLp] with v h1 h2
  rw [h1, h2]
  unfold wave
  rw [Complex.inner]
  simp only [map_mul, Complex.conj_ofReal, ← Complex.exp_conj, Complex.conj_I]
  rw [show (√(Atmosphere.spectrum a ‖v‖) : ℂ) * Complex.exp (((2 * π * inner ℝ (vec y) v : ℝ) : ℂ) * Complex.I) *
    ((√(Atmosphere.spectrum a ‖v‖) : ℂ) * Complex.exp (((2 * π * inner ℝ (vec x) v : ℝ) : ℂ) * -Complex.I)) =
    ((√(Atmosphere.spectrum a ‖v‖) * √(Atmosphere.spectrum a ‖v‖) : ℝ) : ℂ) *
      Complex.exp (((-(2 * π * inner ℝ (vec x - vec y) v) : ℝ) : ℂ) * Complex.I) by
    rw [inner_sub_left]
    push_cast
    rw [mul_mul_mul_comm, ← Complex.exp_add]
    congr 2; ring]
  rw [mul_self_sqrt (spectrum_pos a hr hL _).le, Complex.re_ofReal_mul, Complex.exp_ofReal_mul_I_re, cos_neg]
  ring


theorem variance_pos (a : Atm) (hr : 0 < a.r0) (hL : 0 < a.L0) : 0 < variance a := by
  have h2 := structure_spec a hr hL
  have := h2.2.2.2.1 0 le_rfl
  rw [h2.2.1] at this; linarith

/-- `Ialpha` is the covariance of a stationary field: that of the turbulence in units of 5/3 of its variance. -/
theorem stationary_scaled {H : Type} [NormedAddCommGroup H] [InnerProductSpace ℝ H] (a : Atm) (hr : 0 < a.r0) (hL : 0 < a.L0)
    (φ : Pt → H) (hφ : Stationary φ (fun p => covariance (besselK (5/6)) a (dist2 p))) :
    Stationary (fun x => √(1 / (5/3 * variance a)) • φ x) (ialpha (besselK (5/6)) (2 * π / a.L0)) := by
  intro x y
  have hv := variance_pos a hr hL
  show inner ℝ (√(1 / (5/3 * variance a)) • φ x) (√(1 / (5/3 * variance a)) • φ y) = _
  rw [real_inner_smul_left, real_inner_smul_right, ← mul_assoc, mul_self_sqrt (by positivity), hφ x y]
  show _ * covariance (besselK (5/6)) a (dist2 (x - y)) = _
  rw [← ialpha_covariance a hL]
  field_simp

/-- The constant of the code over that of the turbulence. -/
noncomputable def kappa : ℝ := 0.12184 * 0.06 * (2 * π) ^ 2 / (2 * (5/3 * (c1 * c3)))

/-- C457: the constants of the code are those of the turbulence within 1.5 percent. -/
theorem kappa_value : |kappa - 1| ≤ 0.015 := by
  obtain ⟨l, u⟩ := c1_value
  obtain ⟨gl, gu⟩ := Gamma_eleven_sixths_value
  obtain ⟨pl, pu⟩ := pi_eight_thirds
  have hp := pi_pos
  have p1 := pi_gt_d4
  have p2 := pi_lt_d4
  have g1 : Gamma (11/6) = 5/6 * Gamma (5/6) := by
    rw [show (11/6 : ℝ) = 5/6 + 1 by norm_num, Gamma_add_one (by norm_num)]
  have e : kappa = 0.12184 * 0.06 * (2 * π) ^ 2 * π ^ ((8:ℝ)/3) / (2 * (c1 * Gamma (11/6) ^ 2)) := by
    unfold kappa c3
    have : Gamma (5/6) = 6/5 * Gamma (11/6) := by rw [g1]; ring
    rw [this]
    have h3 : 0 < π ^ ((8:ℝ)/3) := by positivity
    field_simp
    norm_num
  rw [e]
  have n1 : 3.43 * 0.9388 ^ 2 ≤ c1 * Gamma (11/6) ^ 2 := by gcongr
  have n2 : c1 * Gamma (11/6) ^ 2 ≤ 3.45 * 0.9424 ^ 2 := by gcongr
  have d1 : 0.12184 * 0.06 * (2 * 3.1415) ^ 2 * 21.16 ≤ 0.12184 * 0.06 * (2 * π) ^ 2 * π ^ ((8:ℝ)/3) := by gcongr
  have d2 : 0.12184 * 0.06 * (2 * π) ^ 2 * π ^ ((8:ℝ)/3) ≤ 0.12184 * 0.06 * (2 * 3.1416) ^ 2 * 21.18 := by gcongr
  have hd : 0 < 2 * (c1 * Gamma (11/6) ^ 2) := by
    have := c1_pos; positivity
  rw [abs_le, le_sub_iff_add_le, sub_le_iff_le_add, le_div_iff₀ hd, div_le_iff₀ hd]
  constructor
  · refine le_trans ?_ d1
    refine le_trans (mul_le_mul_of_nonneg_left (mul_le_mul_of_nonneg_left n2 (by norm_num)) (by norm_num)) ?_
    norm_num
  · refine d2.trans ?_
    refine le_trans ?_ (mul_le_mul_of_nonneg_left (mul_le_mul_of_nonneg_left n1 (by norm_num)) (by norm_num))
    norm_num

theorem cte_variance (a : Atm) (hr : 0 < a.r0) (hL : 0 < a.L0) :
    flickerCte a.L0 * a.r0 ^ (-(5:ℝ)/3) = kappa * (2 * (5/3 * variance a)) := by
  have hc := c1_pos
  have h3 : 0 < c3 := by
    have g0 : 0 < Gamma (11/6) := Gamma_pos_of_pos (by norm_num)
    have g1 : 0 < Gamma (5/6) := Gamma_pos_of_pos (by norm_num)
    have := pi_pos
    unfold c3; positivity
  unfold flickerCte kappa variance
  rw [div_rpow hL.le hr.le, show (-(5:ℝ)/3) = -(5/3) by norm_num, rpow_neg hr.le]
  field_simp

/-- C457: for a star at a finite height seen in the direction of the source, the focal function is, up to the constant above, the
mean square of the difference between two points of the phase of the source minus that of the star, whatever the field with the
covariance of the turbulence. -/
theorem focal_turbulence {H : Type} [NormedAddCommGroup H] [InnerProductSpace ℝ H] (a : Atm) (hr : 0 < a.r0) (hL : 0 < a.L0)
    (φ : Pt → H) (hφ : Stationary φ (fun p => covariance (besselK (5/6)) a (dist2 p))) (g zl : ℝ) (th P Q : Pt)
    (h : th = 0 ∨ g = 0) :
    flickerCte a.L0 * pairTerm (ialpha (besselK (5/6)) (2 * π / a.L0)) g zl th P (P - Q) * a.r0 ^ (-(5:ℝ)/3) =
      kappa * ‖diffPhase φ g zl th P - diffPhase φ g zl th Q‖ ^ 2 := by
  have hv := variance_pos a hr hL
  have hs := stationary_scaled a hr hL φ hφ
  have := (focal_onaxis _ _ hs (ialpha_zero _ _) g zl th P Q h).1
  have e : diffPhase (fun x => √(1 / (5/3 * variance a)) • φ x) g zl th P -
      diffPhase (fun x => √(1 / (5/3 * variance a)) • φ x) g zl th Q =
      √(1 / (5/3 * variance a)) • (diffPhase φ g zl th P - diffPhase φ g zl th Q) := by
    unfold diffPhase; module
  rw [e, norm_smul, norm_of_nonneg (sqrt_nonneg _), mul_pow, sq_sqrt (by positivity)] at this
  rw [mul_right_comm, cte_variance a hr hL, this]
  field_simp

/-- C457: the same for the angular function (method of Flicker), for every layer, direction and pair of points. -/
theorem flicker_turbulence {H : Type} [NormedAddCommGroup H] [InnerProductSpace ℝ H] (a : Atm) (hr : 0 < a.r0) (hL : 0 < a.L0)
    (φ : Pt → H) (hφ : Stationary φ (fun p => covariance (besselK (5/6)) a (dist2 p))) (zl : ℝ) (th P Q : Pt) :
    flicker (besselK (5/6)) a.L0 zl th (P - Q) * a.r0 ^ (-(5:ℝ)/3) =
      kappa * ‖(φ (P - zl • th) - φ P) - (φ (Q - zl • th) - φ Q)‖ ^ 2 := by
  by_cases hz : zl = 0
  · subst hz; simp [flicker, angularTerm]
  by_cases ht : th = 0
  · subst ht; simp [flicker, angularTerm]
  have := focal_turbulence a hr hL φ hφ 0 zl th P Q (Or.inr rfl)
  rw [focal_infinity _ (ialpha_even _ _) zl th P (P - Q) hz ht] at this
  unfold flicker
  rw [mul_comm (angularTerm _ _ _ _), this]
  simp [diffPhase]

/-- C457: so the angular function is never negative. -/
theorem flicker_nonneg (a : Atm) (hr : 0 < a.r0) (hL : 0 < a.L0) (zl : ℝ) (th rho : Pt) :
    0 ≤ flicker (besselK (5/6)) a.L0 zl th rho := by
  have h := flicker_turbulence a hr hL _ (stationary_field a hr hL) zl th rho 0
  rw [sub_zero] at h
  have hk : 0 ≤ kappa := by
    have := kappa_value
    rw [abs_le] at this; linarith
  have hp : 0 < a.r0 ^ (-(5:ℝ)/3) := by positivity
  by_contra hn
  push Not at hn
  have h1 := mul_neg_of_neg_of_pos hn hp
  rw [h] at h1
  exact absurd h1 (not_lt.2 (mul_nonneg hk (sq_nonneg _)))

/-- A concrete atmosphere and its field. -/
example : ∃ a : Atm, ∃ (_ : 0 < a.r0) (_ : 0 < a.L0), ∃ φ : Pt → Lp ℂ 2 (volume : Measure Plane),
    Stationary φ (fun p => covariance (besselK (5/6)) a (dist2 p)) :=
  ⟨Atmosphere.mk 5e-7 0.15 [1] [0] [10] [0] (.one 25), by norm_num [Atmosphere.mk], by norm_num [Atmosphere.mk], _,
    stationary_field _ (by norm_num [Atmosphere.mk]) (by norm_num [Atmosphere.mk])⟩

end P3.Turbulence
