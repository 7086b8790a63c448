import Verif.Spec.Turbulence
import Verif.Props.Atmosphere
import Mathlib.Analysis.SpecialFunctions.Gaussian.FourierTransform
import Mathlib.Analysis.SpecialFunctions.Gamma.Beta
import Mathlib.MeasureTheory.Integral.Prod
import Mathlib.Analysis.SpecialFunctions.ImproperIntegrals

/-! C451-C453: second-order statistics of the phase: spectrum, covariance, structure functions, outer scale, Fried parameter. -/

namespace P3.Turbulence
open MeasureTheory Set Real Filter Topology P3.Atmosphere

/-- `∫ t^(ν-1) exp(-a t - b/t)`. -/
noncomputable def J (ν a b : ℝ) : ℝ := ∫ t in Ioi (0:ℝ), t ^ (ν - 1) * exp (-(a * t + b / t))

theorem J_integrable0 (ν a : ℝ) (hν : 0 < ν) (ha : 0 < a) :
    IntegrableOn (fun t : ℝ => t ^ (ν - 1) * exp (-(a * t))) (Ioi 0) := by
  have := integrableOn_rpow_mul_exp_neg_mul_rpow (p := 1) (s := ν - 1) (b := a) (by linarith) (by norm_num) ha
  simpa [rpow_one] using this

theorem J_meas (ν a b : ℝ) : AEStronglyMeasurable (fun t : ℝ => t ^ (ν - 1) * exp (-(a * t + b / t))) (volume.restrict (Ioi 0)) := by
  apply Measurable.aestronglyMeasurable
  fun_prop

theorem J_integrable (ν a b : ℝ) (hν : 0 < ν) (ha : 0 < a) (hb : 0 ≤ b) :
    IntegrableOn (fun t : ℝ => t ^ (ν - 1) * exp (-(a * t + b / t))) (Ioi 0) := by
  refine Integrable.mono' (J_integrable0 ν a hν ha) (J_meas ν a b) ?_
  refine (ae_restrict_iff' measurableSet_Ioi).2 (Eventually.of_forall fun t ht => ?_)
  have ht0 : 0 < t := ht
  rw [norm_of_nonneg (by positivity)]
  have : 0 ≤ b / t := by positivity
  gcongr
  linarith

theorem J_zero (ν a : ℝ) (hν : 0 < ν) (ha : 0 < a) : J ν a 0 = (1 / a) ^ ν * Gamma ν := by
  unfold J
  simp only [zero_div, add_zero]
  exact integral_rpow_mul_exp_neg_mul_Ioi hν ha

/-- Change of scale. -/
theorem J_scale (ν a b c : ℝ) (hc : 0 < c) : J ν (a * c) (b / c) = c ^ (-ν) * J ν a b := by
  unfold J
  have h := integral_comp_mul_left_Ioi (fun t : ℝ => t ^ (ν - 1) * exp (-(a * t + b / t))) 0 hc
  rw [mul_zero, smul_eq_mul] at h
  have e : ∫ t in Ioi (0:ℝ), (c * t) ^ (ν - 1) * exp (-(a * (c * t) + b / (c * t))) =
      c ^ (ν - 1) * ∫ t in Ioi (0:ℝ), t ^ (ν - 1) * exp (-(a * c * t + b / c / t)) := by
    rw [← integral_const_mul]
    refine setIntegral_congr_fun measurableSet_Ioi fun t ht => ?_
    have ht0 : 0 < t := ht
    rw [mul_rpow hc.le ht0.le, div_div, mul_assoc a c t, mul_assoc]
  rw [e] at h
  have hp : c ^ (ν - 1) = c ^ ν * c⁻¹ := by rw [rpow_sub_one hc.ne', div_eq_mul_inv]
  rw [hp] at h
  rw [rpow_neg hc.le]
  have h1 : c ^ ν ≠ 0 := (rpow_pos_of_pos hc ν).ne'
  field_simp at h ⊢
  linarith

/-- `u^ν K_ν(u)` as an integral. -/
theorem besselK_J (ν u : ℝ) (hu : 0 < u) : u ^ ν * besselK ν u = 1 / 2 * J ν (1 / 2) (u ^ 2 / 2) := by
  have e : besselK ν u = 1 / 2 * J ν (1 / 2 * u) (u ^ 2 / 2 / u) := by
    unfold besselK J
    congr 1
    refine setIntegral_congr_fun measurableSet_Ioi fun t ht => ?_
    have ht0 : (t:ℝ) ≠ 0 := ne_of_gt ht
    congr 3
    field_simp
  rw [e, J_scale ν (1 / 2) (u ^ 2 / 2) u hu, rpow_neg hu.le]
  have h1 : u ^ ν ≠ 0 := (rpow_pos_of_pos hu ν).ne'
  field_simp

/-- The covariance at every separation, zero included, by one formula. -/
theorem covariance_J (a : Atm) (hL : 0 < a.L0) (rho : ℝ) (hr : 0 ≤ rho) :
    covariance (besselK (5/6)) a rho =
      c1 * c2 * (a.L0 / a.r0) ^ ((5:ℝ)/3) * (1 / 2 * J (5/6) (1/2) ((2 * π * rho / a.L0) ^ 2 / 2)) := by
  unfold covariance
  split_ifs with h
  · subst h
    simp only [mul_zero, zero_div, ne_eq, OfNat.ofNat_ne_zero, not_false_eq_true, zero_pow]
    rw [J_zero _ _ (by norm_num) (by norm_num)]
    unfold c3 c2
    have e : (2:ℝ) = 2 ^ ((5:ℝ)/6) * 2 ^ ((1:ℝ)/6) := by rw [← rpow_add (by norm_num)]; norm_num
    have h1 : (2:ℝ) ^ ((5:ℝ)/6) ≠ 0 := (rpow_pos_of_pos (by norm_num) _).ne'
    have hp : π ^ ((8:ℝ)/3) ≠ 0 := (rpow_pos_of_pos pi_pos _).ne'
    rw [show (1:ℝ) / (1 / 2) = 2 by norm_num]
    field_simp
  · have hu : 0 < 2 * π * rho / a.L0 := by have := lt_of_le_of_ne hr (Ne.symm h); have := pi_pos; positivity
    dsimp only
    rw [← besselK_J _ _ hu]
    ring

/-- Frequencies and separations of the plane. -/
abbrev Plane := EuclideanSpace ℝ (Fin 2)

theorem gauss_cos (t : ℝ) (ht : 0 < t) (w : Plane) :
    ∫ v : Plane, cos (2 * π * inner ℝ w v) * exp (-(t * ‖v‖ ^ 2)) = π / t * exp (-(π ^ 2 * ‖w‖ ^ 2 / t)) := by
  have hb : 0 < ((t : ℂ)).re := by simpa using ht
  have h := GaussianFourier.integral_cexp_neg_mul_sq_norm_add (V := Plane) hb (2 * π * Complex.I) w
  have hi := GaussianFourier.integrable_cexp_neg_mul_sq_norm_add (V := Plane) hb (2 * π * Complex.I) w
  have h2 := Complex.reCLM.integral_comp_comm hi
  rw [h] at h2
  have e1 : ∀ v : Plane, Complex.reCLM (Complex.exp (-(t:ℂ) * (‖v‖:ℂ) ^ 2 + 2 * π * Complex.I * (inner ℝ w v : ℝ))) =
      cos (2 * π * inner ℝ w v) * exp (-(t * ‖v‖ ^ 2)) := by
    intro v
    have : -(t:ℂ) * (‖v‖:ℂ) ^ 2 + 2 * π * Complex.I * ((inner ℝ w v : ℝ) : ℂ) =
        ((-(t * ‖v‖ ^ 2) : ℝ) : ℂ) + ((2 * π * inner ℝ w v : ℝ) : ℂ) * Complex.I := by push_cast; ring
    rw [this, Complex.exp_add, Complex.exp_ofReal_mul_I, ← Complex.ofReal_exp, Complex.reCLM_apply]
    rw [Complex.re_ofReal_mul, Complex.add_re, Complex.ofReal_re, Complex.mul_I_re, Complex.ofReal_im]
    ring
  rw [integral_congr_ae (Eventually.of_forall e1)] at h2
  rw [h2]
  have e2 : ((π:ℂ) / (t:ℂ)) ^ ((Module.finrank ℝ Plane : ℂ) / 2) = ((π / t : ℝ) : ℂ) := by
    rw [finrank_euclideanSpace_fin]
    norm_num
  have e3 : (2 * (π:ℂ) * Complex.I) ^ 2 * (‖w‖:ℂ) ^ 2 / (4 * (t:ℂ)) = ((-(π ^ 2 * ‖w‖ ^ 2 / t) : ℝ) : ℂ) := by
    rw [mul_pow, Complex.I_sq]
    push_cast
    ring
  rw [e2, e3, ← Complex.ofReal_exp, ← Complex.ofReal_mul, Complex.reCLM_apply, Complex.ofReal_re]

theorem gauss_int (t : ℝ) (ht : 0 < t) : Integrable (fun v : Plane => exp (-(t * ‖v‖ ^ 2))) := by
  have hb : 0 < ((t : ℂ)).re := by simpa using ht
  have hi := (GaussianFourier.integrable_cexp_neg_mul_sq_norm_add (V := Plane) hb 0 0).norm
  refine hi.congr (Eventually.of_forall fun v => ?_)
  simp only [zero_mul, add_zero, Complex.norm_exp]
  congr 1
  rw [show -(t:ℂ) * (‖v‖:ℂ) ^ 2 = ((-(t * ‖v‖ ^ 2) : ℝ) : ℂ) by push_cast; ring, Complex.ofReal_re]

theorem gauss_val (t : ℝ) (ht : 0 < t) : ∫ v : Plane, exp (-(t * ‖v‖ ^ 2)) = π / t := by
  have := gauss_cos t ht 0
  simpa using this

/-- The Fourier transform of a power of `|k|^2 + κ^2` in the plane. -/
theorem fourier_power (μ κ : ℝ) (hμ : 1 < μ) (hκ : 0 < κ) (w : Plane) :
    ∫ v : Plane, cos (2 * π * inner ℝ w v) * (‖v‖ ^ 2 + κ) ^ (-μ) = π / Gamma μ * J (μ - 1) κ (π ^ 2 * ‖w‖ ^ 2) := by
  have hG : 0 < Gamma μ := Gamma_pos_of_pos (by linarith)
  -- the two integrals
  let F : ℝ → Plane → ℝ := fun t v => cos (2 * π * inner ℝ w v) * (t ^ (μ - 1) * exp (-((‖v‖ ^ 2 + κ) * t)))
  let G : ℝ → Plane → ℝ := fun t v => t ^ (μ - 1) * exp (-(κ * t)) * exp (-(t * ‖v‖ ^ 2))
  have hGm : Measurable (Function.uncurry G) := by unfold Function.uncurry; simp only [G]; fun_prop
  have hFm : Measurable (Function.uncurry F) := by unfold Function.uncurry; simp only [F]; fun_prop
  have hpos : ∀ᵐ t ∂(volume.restrict (Ioi (0:ℝ))), 0 < t := (ae_restrict_iff' measurableSet_Ioi).2 (Eventually.of_forall fun t ht => ht)
  have hGi : Integrable (Function.uncurry G) ((volume.restrict (Ioi (0:ℝ))).prod (volume : Measure Plane)) := by
    rw [integrable_prod_iff hGm.aestronglyMeasurable]
    constructor
    · filter_upwards [hpos] with t ht
      exact (gauss_int t ht).const_mul (t ^ (μ - 1) * exp (-(κ * t)))
    · have hJ : IntegrableOn (fun t : ℝ => π * (t ^ (μ - 1 - 1) * exp (-(κ * t)))) (Ioi 0) :=
        (J_integrable0 (μ - 1) κ (by linarith) hκ).const_mul π
      refine hJ.congr ?_
      filter_upwards [hpos] with t ht
      simp only [Function.uncurry, G]
      rw [integral_congr_ae (g := fun v : Plane => t ^ (μ - 1) * exp (-(κ * t)) * exp (-(t * ‖v‖ ^ 2)))
        (Eventually.of_forall fun v => by simp only; rw [norm_of_nonneg (by positivity)])]
      rw [integral_const_mul, gauss_val t ht, rpow_sub_one ht.ne']
      field_simp
  have hFi : Integrable (Function.uncurry F) ((volume.restrict (Ioi (0:ℝ))).prod (volume : Measure Plane)) := by
    refine hGi.mono hFm.aestronglyMeasurable (Eventually.of_forall fun x => ?_)
    obtain ⟨t, v⟩ := x
    simp only [Function.uncurry, F, G]
    rw [norm_mul, norm_mul, norm_mul, norm_mul]
    have e : exp (-((‖v‖ ^ 2 + κ) * t)) = exp (-(κ * t)) * exp (-(t * ‖v‖ ^ 2)) := by rw [← exp_add]; congr 1; ring
    rw [e, norm_mul, ← mul_assoc (‖t ^ (μ - 1)‖)]
    have := abs_cos_le_one (2 * π * inner ℝ w v)
    rw [← norm_eq_abs] at this
    exact mul_le_of_le_one_left (by positivity) this
  have hsw := integral_integral_swap hFi
  have l : ∀ v : Plane, ∫ t in Ioi (0:ℝ), F t v = Gamma μ * (cos (2 * π * inner ℝ w v) * (‖v‖ ^ 2 + κ) ^ (-μ)) := by
    intro v
    simp only [F]
    have hk : 0 < ‖v‖ ^ 2 + κ := by positivity
    rw [integral_const_mul, integral_rpow_mul_exp_neg_mul_Ioi (by linarith) hk, one_div, inv_rpow hk.le, rpow_neg hk.le]
    ring
  have r : ∫ t in Ioi (0:ℝ), ∫ v : Plane, F t v = π * J (μ - 1) κ (π ^ 2 * ‖w‖ ^ 2) := by
    unfold J
    rw [← integral_const_mul]
    refine setIntegral_congr_fun measurableSet_Ioi fun t ht => ?_
    have ht0 : 0 < t := ht
    have e : ∀ v : Plane, F t v = t ^ (μ - 1) * exp (-(κ * t)) * (cos (2 * π * inner ℝ w v) * exp (-(t * ‖v‖ ^ 2))) := by
      intro v
      simp only [F]
      have e : exp (-((‖v‖ ^ 2 + κ) * t)) = exp (-(κ * t)) * exp (-(t * ‖v‖ ^ 2)) := by rw [← exp_add]; congr 1; ring
      rw [e]; ring
    simp only [e]
    rw [integral_const_mul, gauss_cos t ht0, neg_add, exp_add, rpow_sub_one ht0.ne' (μ - 1)]
    field_simp
  rw [r] at hsw
  simp only [l] at hsw
  rw [integral_const_mul] at hsw
  field_simp
  linarith

/-- C451: the covariance of the phase is the Fourier transform of its power spectrum over the plane of the spatial
frequencies, for every separation. -/
theorem wiener_khinchin (a : Atm) (hr : 0 < a.r0) (hL : 0 < a.L0) (w : Plane) :
    ∫ v : Plane, cos (2 * π * inner ℝ w v) * Atmosphere.spectrum a ‖v‖ = covariance (besselK (5/6)) a ‖w‖ := by
  rw [covariance_J a hL _ (norm_nonneg w)]
  unfold Atmosphere.spectrum
  have h := fourier_power (11/6) (1 / a.L0 ^ 2) (by norm_num) (by positivity) w
  have e : ∀ v : Plane, cos (2 * π * inner ℝ w v) * (a.r0 ^ (-(5:ℝ)/3) * ((24 * Gamma (6/5) / 5) ^ ((5:ℝ)/6) *
      (Gamma (11/6) ^ 2 / (2 * π ^ ((11:ℝ)/3)))) * (‖v‖ ^ 2 + 1 / a.L0 ^ 2) ^ (-(11:ℝ)/6)) =
      (a.r0 ^ (-(5:ℝ)/3) * (c1 * (Gamma (11/6) ^ 2 / (2 * π ^ ((11:ℝ)/3))))) *
        (cos (2 * π * inner ℝ w v) * (‖v‖ ^ 2 + 1 / a.L0 ^ 2) ^ (-(11/6 : ℝ))) := by
    intro v
    rw [show -(11:ℝ)/6 = -(11/6) by norm_num]
    unfold c1
    ring
  simp only [e]
  rw [integral_const_mul, h]
  have sc := J_scale (5/6) (1/2) ((2 * π * ‖w‖ / a.L0) ^ 2 / 2) (2 / a.L0 ^ 2) (by positivity)
  rw [show 1 / 2 * (2 / a.L0 ^ 2) = 1 / a.L0 ^ 2 by ring,
    show (2 * π * ‖w‖ / a.L0) ^ 2 / 2 / (2 / a.L0 ^ 2) = π ^ 2 * ‖w‖ ^ 2 by field_simp] at sc
  rw [show (11/6 - 1 : ℝ) = 5/6 by norm_num, sc]
  have p1 : (2 / a.L0 ^ 2) ^ (-(5/6 : ℝ)) = a.L0 ^ ((5:ℝ)/3) / 2 ^ ((5:ℝ)/6) := by
    rw [rpow_neg (by positivity), div_rpow (by norm_num) (by positivity), ← rpow_natCast a.L0 2, ← rpow_mul hL.le]
    norm_num
  have p2 : (a.L0 / a.r0) ^ ((5:ℝ)/3) = a.L0 ^ ((5:ℝ)/3) * a.r0 ^ (-(5:ℝ)/3) := by
    rw [div_rpow hL.le hr.le, show -(5:ℝ)/3 = -(5/3) by norm_num, rpow_neg hr.le, div_eq_mul_inv]
  have p3 : π ^ ((11:ℝ)/3) = π ^ ((8:ℝ)/3) * π := by
    rw [← rpow_add_one pi_pos.ne']; norm_num
  rw [p1, p2, p3]
  unfold c2
  have hG : Gamma (11/6) ≠ 0 := (Gamma_pos_of_pos (by norm_num)).ne'
  have hp : π ^ ((8:ℝ)/3) ≠ 0 := (rpow_pos_of_pos pi_pos _).ne'
  have h2 : (2:ℝ) ^ ((5:ℝ)/6) ≠ 0 := (rpow_pos_of_pos (by norm_num) _).ne'
  have := pi_pos.ne'
  field_simp


/-! ### The structure function -/

/-- `∫ t^(ν-1) exp(-ε t) (1 - exp(-b/t))`. -/
noncomputable def H (ν ε b : ℝ) : ℝ := ∫ t in Ioi (0:ℝ), t ^ (ν - 1) * exp (-(ε * t)) * (1 - exp (-(b / t)))

theorem H_J (ν ε b : ℝ) (hν : 0 < ν) (hε : 0 < ε) (hb : 0 ≤ b) : H ν ε b = J ν ε 0 - J ν ε b := by
  unfold H J
  rw [← integral_sub]
  · refine setIntegral_congr_fun measurableSet_Ioi fun t _ => ?_
    simp only [zero_div, add_zero, neg_add, exp_add]
    ring
  · exact J_integrable ν ε 0 hν hε le_rfl
  · exact J_integrable ν ε b hν hε hb

theorem J_lt (ν a b b' : ℝ) (hν : 0 < ν) (ha : 0 < a) (hb : 0 ≤ b) (hbb : b < b') : J ν a b' < J ν a b := by
  rw [← sub_pos]
  unfold J
  rw [← integral_sub (J_integrable ν a b hν ha hb) (J_integrable ν a b' hν ha (hb.trans hbb.le))]
  have hpos : ∀ t ∈ Ioi (0:ℝ), 0 < t ^ (ν - 1) * exp (-(a * t + b / t)) - t ^ (ν - 1) * exp (-(a * t + b' / t)) := by
    intro t ht
    have ht0 : (0:ℝ) < t := ht
    have h1 : exp (-(a * t + b' / t)) < exp (-(a * t + b / t)) := by
      apply exp_lt_exp.2
      have : b / t < b' / t := by gcongr
      linarith
    have h2 : 0 < t ^ (ν - 1) := rpow_pos_of_pos ht0 _
    nlinarith
  rw [setIntegral_pos_iff_support_of_nonneg_ae]
  · have : Ioi (0:ℝ) ⊆ Function.support (fun t => t ^ (ν - 1) * exp (-(a * t + b / t)) - t ^ (ν - 1) * exp (-(a * t + b' / t))) ∩ Ioi 0 :=
      fun t ht => ⟨(hpos t ht).ne', ht⟩
    refine lt_of_lt_of_le ?_ (measure_mono this)
    simp
  · exact (ae_restrict_iff' measurableSet_Ioi).2 (Eventually.of_forall fun t ht => (hpos t ht).le)
  · exact (J_integrable ν a b hν ha hb).sub (J_integrable ν a b' hν ha (hb.trans hbb.le))

theorem J_pos (ν a b : ℝ) (hν : 0 < ν) (ha : 0 < a) (hb : 0 ≤ b) : 0 < J ν a b := by
  have h1 := J_lt ν a b (b + 1) hν ha hb (by linarith)
  have h2 : 0 ≤ J ν a (b + 1) := setIntegral_nonneg measurableSet_Ioi fun t ht => by
    have : (0:ℝ) < t := ht
    positivity
  linarith

theorem J_tendsto (ν a b0 : ℝ) (hν : 0 < ν) (ha : 0 < a) : Tendsto (fun b => J ν a b) (𝓝[≥] b0) (𝓝 (J ν a b0)) ∨ b0 < 0 := by
  by_cases h0 : b0 < 0
  · exact Or.inr h0
  left
  push Not at h0
  unfold J
  refine tendsto_integral_filter_of_dominated_convergence (fun t => t ^ (ν - 1) * exp (-(a * t)))
    (Eventually.of_forall fun b => J_meas ν a b) ?_ (J_integrable0 ν a hν ha) ?_
  · filter_upwards [self_mem_nhdsWithin] with b hb
    refine (ae_restrict_iff' measurableSet_Ioi).2 (Eventually.of_forall fun t ht => ?_)
    have ht0 : 0 < t := ht
    have hb0 : 0 ≤ b := h0.trans hb
    rw [norm_of_nonneg (by positivity)]
    have : 0 ≤ b / t := by positivity
    gcongr
    linarith
  · refine Eventually.of_forall fun t => ?_
    apply Tendsto.mono_left _ nhdsWithin_le_nhds
    have : Continuous fun b : ℝ => t ^ (ν - 1) * exp (-(a * t + b / t)) := by fun_prop
    exact this.tendsto b0

theorem c2_pos : 0 < c2 := by
  unfold c2
  have h2 : 0 < Gamma (11/6) := Gamma_pos_of_pos (by norm_num)
  have := pi_pos
  positivity

/-- The structure function at every separation. -/
theorem structure_J (a : Atm) (hL : 0 < a.L0) (rho : ℝ) (hr : 0 ≤ rho) :
    structureFunction (besselK (5/6)) a rho = c1 * c2 * (a.L0 / a.r0) ^ ((5:ℝ)/3) *
      (J (5/6) (1/2) 0 - J (5/6) (1/2) ((2 * π * rho / a.L0) ^ 2 / 2)) := by
  unfold structureFunction
  have h0 := covariance_J a hL 0 le_rfl
  have : variance a = covariance (besselK (5/6)) a 0 := by simp [variance, covariance]
  rw [this, h0, covariance_J a hL rho hr]
  simp only [mul_zero, zero_div, ne_eq, OfNat.ofNat_ne_zero, not_false_eq_true, zero_pow]
  ring

/-- C451: the variance of the phase is the integral of its power spectrum. -/
theorem variance_integral (a : Atm) (hr : 0 < a.r0) (hL : 0 < a.L0) :
    ∫ v : Plane, Atmosphere.spectrum a ‖v‖ = variance a := by
  have := wiener_khinchin a hr hL 0
  simpa [covariance, variance] using this

/-- C451: the structure function is that of the spectrum; it is zero without separation and continuous there, increases
with the separation, and stays below twice the variance. -/
theorem structure_spec (a : Atm) (hr : 0 < a.r0) (hL : 0 < a.L0) :
    (∀ w : Plane, structureFunction (besselK (5/6)) a ‖w‖ = 2 * ((∫ v : Plane, Atmosphere.spectrum a ‖v‖) -
      ∫ v : Plane, cos (2 * π * inner ℝ w v) * Atmosphere.spectrum a ‖v‖)) ∧
    structureFunction (besselK (5/6)) a 0 = 0 ∧
    (∀ x y, 0 ≤ x → x < y → structureFunction (besselK (5/6)) a x < structureFunction (besselK (5/6)) a y) ∧
    (∀ x, 0 ≤ x → structureFunction (besselK (5/6)) a x < 2 * variance a) ∧
    Tendsto (structureFunction (besselK (5/6)) a) (𝓝[≥] 0) (𝓝 0) := by
  have hpi := pi_pos
  have hC : 0 < c1 * c2 * (a.L0 / a.r0) ^ ((5:ℝ)/3) := by
    have := c1_pos; have := c2_pos; positivity
  have hu : ∀ x : ℝ, 0 ≤ x → 0 ≤ (2 * π * x / a.L0) ^ 2 / 2 := fun x _ => by positivity
  refine ⟨fun w => ?_, ?_, ?_, ?_, ?_⟩
  · rw [variance_integral a hr hL, wiener_khinchin a hr hL]; rfl
  · rw [structure_J a hL 0 le_rfl]; simp
  · intro x y hx hxy
    rw [structure_J a hL x hx, structure_J a hL y (hx.trans hxy.le)]
    have hlt : (2 * π * x / a.L0) ^ 2 / 2 < (2 * π * y / a.L0) ^ 2 / 2 := by
      have : 2 * π * x / a.L0 < 2 * π * y / a.L0 := by gcongr
      have h0 : 0 ≤ 2 * π * x / a.L0 := by positivity
      nlinarith
    have := J_lt (5/6) (1/2) _ _ (by norm_num) (by norm_num) (hu x hx) hlt
    exact mul_lt_mul_of_pos_left (by linarith) hC
  · intro x hx
    unfold structureFunction
    rw [covariance_J a hL x hx]
    have := J_pos (5/6) (1/2) _ (by norm_num) (by norm_num) (hu x hx)
    have : 0 < c1 * c2 * (a.L0 / a.r0) ^ ((5:ℝ)/3) * (1 / 2 * J (5/6) (1/2) ((2 * π * x / a.L0) ^ 2 / 2)) := by positivity
    linarith
  · have h1 : Tendsto (fun x : ℝ => (2 * π * x / a.L0) ^ 2 / 2) (𝓝[≥] 0) (𝓝[≥] 0) := by
      apply tendsto_nhdsWithin_of_tendsto_nhds_of_eventually_within
      · apply Tendsto.mono_left _ nhdsWithin_le_nhds
        have : Continuous fun x : ℝ => (2 * π * x / a.L0) ^ 2 / 2 := by fun_prop
        simpa using this.tendsto 0
      · exact Eventually.of_forall fun x => by simp only [mem_Ici]; positivity
    have h2 := ((J_tendsto (5/6) (1/2) 0 (by norm_num) (by norm_num)).resolve_right (lt_irrefl 0)).comp h1
    have h3 := (h2.const_sub (J (5/6) (1/2) 0)).const_mul (c1 * c2 * (a.L0 / a.r0) ^ ((5:ℝ)/3))
    rw [sub_self, mul_zero] at h3
    refine h3.congr' ?_
    filter_upwards [self_mem_nhdsWithin] with x hx
    rw [structure_J a hL x hx]
    rfl


/-! ### Infinite outer scale -/

theorem split_Ioi (f : ℝ → ℝ) (h0 : IntegrableOn f (Ioc 0 1)) (h1 : IntegrableOn f (Ioi 1)) : IntegrableOn f (Ioi 0) := by
  rw [← Ioc_union_Ioi_eq_Ioi (zero_le_one' ℝ)]
  exact h0.union h1

theorem power_Ioc (ν : ℝ) (hν : 0 < ν) : IntegrableOn (fun t : ℝ => t ^ (ν - 1)) (Ioc 0 1) := by
  have := (intervalIntegral.intervalIntegrable_rpow' (a := 0) (b := 1) (r := ν - 1) (by linarith))
  rwa [intervalIntegrable_iff_integrableOn_Ioc_of_le zero_le_one] at this

theorem one_sub_exp_le (x : ℝ) (hx : 0 ≤ x) : 0 ≤ 1 - exp (-x) ∧ 1 - exp (-x) ≤ 1 ∧ 1 - exp (-x) ≤ x := by
  have h1 : exp (-x) ≤ 1 := exp_le_one_iff.2 (by linarith)
  have h2 := exp_pos (-x)
  have h3 := add_one_le_exp (-x)
  exact ⟨by linarith, by linarith, by linarith⟩

theorem H0_integrable (ν b : ℝ) (hν : 0 < ν) (hν1 : ν < 1) (hb : 0 ≤ b) :
    IntegrableOn (fun t : ℝ => t ^ (ν - 1) * (1 - exp (-(b / t)))) (Ioi 0) := by
  have hm : Measurable (fun t : ℝ => t ^ (ν - 1) * (1 - exp (-(b / t)))) := by fun_prop
  apply split_Ioi
  · refine Integrable.mono' (power_Ioc ν hν) hm.aestronglyMeasurable ?_
    refine (ae_restrict_iff' measurableSet_Ioc).2 (Eventually.of_forall fun t ht => ?_)
    have ht0 : 0 < t := ht.1
    obtain ⟨e1, e2, e3⟩ := one_sub_exp_le (b / t) (by positivity)
    have hp : 0 ≤ t ^ (ν - 1) := by positivity
    rw [norm_of_nonneg (mul_nonneg hp e1)]
    exact mul_le_of_le_one_right hp e2
  · refine Integrable.mono' ((integrableOn_Ioi_rpow_of_lt (show ν - 2 < -1 by linarith) zero_lt_one).const_mul b) hm.aestronglyMeasurable ?_
    refine (ae_restrict_iff' measurableSet_Ioi).2 (Eventually.of_forall fun t ht => ?_)
    have ht0 : (0:ℝ) < t := lt_trans zero_lt_one ht
    obtain ⟨e1, e2, e3⟩ := one_sub_exp_le (b / t) (by positivity)
    have hp : 0 ≤ t ^ (ν - 1) := by positivity
    rw [norm_of_nonneg (mul_nonneg hp e1)]
    refine (mul_le_mul_of_nonneg_left e3 hp).trans (le_of_eq ?_)
    rw [show ν - 2 = ν - 1 - 1 by ring, rpow_sub_one ht0.ne' (ν - 1)]
    ring

theorem tail_integrable (ν b : ℝ) (hν : 0 < ν) (hν1 : ν < 1) (hb : 0 < b) :
    IntegrableOn (fun t : ℝ => t ^ (ν - 2) * exp (-(b / t))) (Ioi 0) := by
  have hm : Measurable (fun t : ℝ => t ^ (ν - 2) * exp (-(b / t))) := by fun_prop
  apply split_Ioi
  · refine Integrable.mono' ((power_Ioc ν hν).const_mul (1 / b)) hm.aestronglyMeasurable ?_
    refine (ae_restrict_iff' measurableSet_Ioc).2 (Eventually.of_forall fun t ht => ?_)
    have ht0 : 0 < t := ht.1
    rw [norm_of_nonneg (by positivity)]
    have he : exp (-(b / t)) ≤ t / b := by
      rw [exp_neg, show t / b = (b / t)⁻¹ by rw [inv_div]]
      apply inv_anti₀ (by positivity)
      have := add_one_le_exp (b / t); linarith
    have hp : 0 ≤ t ^ (ν - 2) := by positivity
    refine (mul_le_mul_of_nonneg_left he hp).trans (le_of_eq ?_)
    rw [show ν - 2 = ν - 1 - 1 by ring, rpow_sub_one ht0.ne' (ν - 1)]
    field_simp
  · refine Integrable.mono' (integrableOn_Ioi_rpow_of_lt (show ν - 2 < -1 by linarith) zero_lt_one) hm.aestronglyMeasurable ?_
    refine (ae_restrict_iff' measurableSet_Ioi).2 (Eventually.of_forall fun t ht => ?_)
    have ht0 : (0:ℝ) < t := lt_trans zero_lt_one ht
    rw [norm_of_nonneg (by positivity)]
    have hp : 0 ≤ t ^ (ν - 2) := by positivity
    exact mul_le_of_le_one_right hp (exp_le_one_iff.2 (by have : 0 ≤ b / t := by positivity
                                                          linarith))

theorem tail_value (ν b : ℝ) (hν1 : ν < 1) (hb : 0 < b) :
    ∫ t in Ioi (0:ℝ), t ^ (ν - 2) * exp (-(b / t)) = b ^ (ν - 1) * Gamma (1 - ν) := by
  have h := integral_comp_rpow_Ioi (fun y : ℝ => y ^ (-ν) * exp (-(b * y))) (p := -1) (by norm_num)
  have e : ∫ t in Ioi (0:ℝ), t ^ (ν - 2) * exp (-(b / t)) =
      ∫ x in Ioi (0:ℝ), (|(-1:ℝ)| * x ^ ((-1:ℝ) - 1)) • ((x ^ (-1:ℝ)) ^ (-ν) * exp (-(b * x ^ (-1:ℝ)))) := by
    refine setIntegral_congr_fun measurableSet_Ioi fun t ht => ?_
    have ht0 : (0:ℝ) < t := ht
    simp only [abs_neg, abs_one, one_mul, smul_eq_mul]
    rw [← rpow_mul ht0.le, ← mul_assoc, ← rpow_add ht0, rpow_neg_one]
    rw [show (-1 - 1 + -1 * -ν : ℝ) = ν - 2 by ring, div_eq_mul_inv]
  rw [e, h]
  have g := integral_rpow_mul_exp_neg_mul_Ioi (a := 1 - ν) (r := b) (by linarith) hb
  rw [show (1 - ν - 1 : ℝ) = -ν by ring] at g
  rw [g, one_div, inv_rpow hb.le, ← rpow_neg hb.le]
  congr 2
  ring

theorem H0_value (ν b : ℝ) (hν : 0 < ν) (hν1 : ν < 1) (hb : 0 < b) : H ν 0 b = b ^ ν * Gamma (1 - ν) / ν := by
  have e : H ν 0 b = ∫ t in Ioi (0:ℝ), (1 - exp (-(b / t))) * t ^ (ν - 1) := by
    unfold H
    refine setIntegral_congr_fun measurableSet_Ioi fun t _ => ?_
    simp only [zero_mul, neg_zero, exp_zero, mul_one]
    ring
  have hu : ∀ x ∈ Ioi (0:ℝ), HasDerivAt (fun t : ℝ => 1 - exp (-(b / t))) (-(b / x ^ 2 * exp (-(b / x)))) x := by
    intro x hx
    have hx0 : (x:ℝ) ≠ 0 := ne_of_gt hx
    have h1 : HasDerivAt (fun t : ℝ => -(b / t)) (b / x ^ 2) x := by
      have := ((hasDerivAt_inv hx0).const_mul b).neg
      simp only [← div_eq_mul_inv] at this
      convert! this using 1
      field_simp
    have h2 := (h1.exp).const_sub 1
    convert! h2 using 1
    ring
  have hv : ∀ x ∈ Ioi (0:ℝ), HasDerivAt (fun t : ℝ => t ^ ν / ν) (x ^ (ν - 1)) x := by
    intro x hx
    have := (hasDerivAt_rpow_const (x := x) (p := ν) (Or.inl (ne_of_gt hx))).div_const ν
    convert! this using 1
    field_simp
  have i1 : IntegrableOn ((fun t : ℝ => 1 - exp (-(b / t))) * fun x => x ^ (ν - 1)) (Ioi 0) := by
    have := H0_integrable ν b hν hν1 hb.le
    refine this.congr (Eventually.of_forall fun t => ?_)
    simp only [Pi.mul_apply]; ring
  have ee : ∀ t ∈ Ioi (0:ℝ), -(b / t ^ 2 * exp (-(b / t))) * (t ^ ν / ν) = -(b / ν) * (t ^ (ν - 2) * exp (-(b / t))) := by
    intro t ht
    have ht0 : (0:ℝ) < t := ht
    rw [show ν - 2 = ν - (2:ℕ) by norm_num, rpow_sub_natCast ht0.ne']
    field_simp
  have i2 : IntegrableOn ((fun t : ℝ => -(b / t ^ 2 * exp (-(b / t)))) * fun t => t ^ ν / ν) (Ioi 0) := by
    have := (tail_integrable ν b hν hν1 hb).const_mul (-(b / ν))
    refine this.congr ((ae_restrict_iff' measurableSet_Ioi).2 (Eventually.of_forall fun t ht => ?_))
    simp only [Pi.mul_apply]
    rw [ee t ht]
  have z0 : Tendsto ((fun t : ℝ => 1 - exp (-(b / t))) * fun t => t ^ ν / ν) (𝓝[>] 0) (𝓝 0) := by
    have hz : Tendsto (fun t : ℝ => t ^ ν / ν) (𝓝[>] 0) (𝓝 0) := by
      have : Tendsto (fun t : ℝ => t ^ ν) (𝓝[>] 0) (𝓝 0) := by
        have := (continuousAt_rpow_const (0:ℝ) ν (Or.inr hν.le)).tendsto
        rw [zero_rpow hν.ne'] at this
        exact this.mono_left nhdsWithin_le_nhds
      simpa using this.div_const ν
    refine squeeze_zero' ?_ ?_ hz
    · filter_upwards [self_mem_nhdsWithin] with t ht
      have ht0 : (0:ℝ) < t := ht
      exact mul_nonneg (one_sub_exp_le (b / t) (by positivity)).1 (by positivity)
    · filter_upwards [self_mem_nhdsWithin] with t ht
      have ht0 : (0:ℝ) < t := ht
      exact mul_le_of_le_one_left (by positivity) (one_sub_exp_le (b / t) (by positivity)).2.1
  have zi : Tendsto ((fun t : ℝ => 1 - exp (-(b / t))) * fun t => t ^ ν / ν) atTop (𝓝 0) := by
    have hz : Tendsto (fun t : ℝ => b / ν * t ^ (-(1 - ν))) atTop (𝓝 0) := by
      simpa using (tendsto_rpow_neg_atTop (show 0 < 1 - ν by linarith)).const_mul (b / ν)
    refine squeeze_zero' ?_ ?_ hz
    · filter_upwards [eventually_gt_atTop 0] with t ht0
      exact mul_nonneg (one_sub_exp_le (b / t) (by positivity)).1 (by positivity)
    · filter_upwards [eventually_gt_atTop 0] with t ht0
      have h3 := (one_sub_exp_le (b / t) (by positivity)).2.2
      refine (mul_le_mul_of_nonneg_right h3 (by positivity)).trans (le_of_eq ?_)
      rw [show -(1 - ν) = ν - 1 by ring, rpow_sub_one ht0.ne']
      field_simp
  have := integral_Ioi_mul_deriv_eq_deriv_mul hu hv i1 i2 z0 zi
  rw [e, this, setIntegral_congr_fun measurableSet_Ioi ee, integral_const_mul, tail_value ν b hν1 hb, rpow_sub_one hb.ne']
  field_simp
  ring

theorem H_tendsto (ν b : ℝ) (hν : 0 < ν) (hν1 : ν < 1) (hb : 0 ≤ b) : Tendsto (fun ε => H ν ε b) (𝓝[≥] 0) (𝓝 (H ν 0 b)) := by
  unfold H
  refine tendsto_integral_filter_of_dominated_convergence (fun t => t ^ (ν - 1) * (1 - exp (-(b / t))))
    (Eventually.of_forall fun ε => ?_) ?_ (H0_integrable ν b hν hν1 hb) ?_
  · exact Measurable.aestronglyMeasurable (by fun_prop)
  · filter_upwards [self_mem_nhdsWithin] with ε hε
    refine (ae_restrict_iff' measurableSet_Ioi).2 (Eventually.of_forall fun t ht => ?_)
    have ht0 : 0 < t := ht
    have hε0 : 0 ≤ ε := hε
    obtain ⟨e1, e2, e3⟩ := one_sub_exp_le (b / t) (by positivity)
    have hp : 0 ≤ t ^ (ν - 1) := by positivity
    rw [norm_of_nonneg (mul_nonneg (by positivity) e1)]
    have : exp (-(ε * t)) ≤ 1 := exp_le_one_iff.2 (by have : 0 ≤ ε * t := by positivity
                                                      linarith)
    exact mul_le_mul_of_nonneg_right (mul_le_of_le_one_right hp this) e1
  · refine Eventually.of_forall fun t => ?_
    apply Tendsto.mono_left _ nhdsWithin_le_nhds
    have : Continuous fun ε : ℝ => t ^ (ν - 1) * exp (-(ε * t)) * (1 - exp (-(b / t))) := by fun_prop
    exact this.tendsto 0

/-- C452: the structure function for an infinite outer scale, which the code computes by another formula, is the limit of
the structure function when the outer scale grows, at every separation. -/
theorem infinite_outer_scale (a : Atm) (hr : 0 < a.r0) (rho : ℝ) (hrho : 0 ≤ rho) :
    Tendsto (fun L => structureFunction (besselK (5/6)) { a with L0 := L } rho) atTop (𝓝 (structureFunctionInf a.r0 rho)) := by
  have hpi := pi_pos
  rcases eq_or_lt_of_le hrho with h0 | h0
  · subst h0
    have : structureFunctionInf a.r0 0 = 0 := by
      unfold structureFunctionInf; rw [zero_div, zero_rpow (by norm_num), mul_zero]
    rw [this]
    refine tendsto_const_nhds.congr' ?_
    filter_upwards [eventually_gt_atTop 0] with L hL
    rw [structure_J _ hL 0 le_rfl]; simp
  -- the limit through the scaled integral
  have hl : Tendsto (fun L : ℝ => (2 * π * rho / L) ^ 2 / 2) atTop (𝓝[≥] 0) := by
    apply tendsto_nhdsWithin_of_tendsto_nhds_of_eventually_within
    · have : Tendsto (fun L : ℝ => 2 * π * rho / L) atTop (𝓝 0) := tendsto_const_nhds.div_atTop tendsto_id
      simpa using (this.pow 2).div_const 2
    · exact Eventually.of_forall fun L => by simp only [mem_Ici]; positivity
  have h1 := ((H_tendsto (5/6) (1/2) (by norm_num) (by norm_num) (by norm_num)).comp hl).const_mul
    (c1 * c2 * (2 * π * rho / a.r0) ^ ((5:ℝ)/3))
  rw [H0_value _ _ (by norm_num) (by norm_num) (by norm_num)] at h1
  have hval : c1 * c2 * (2 * π * rho / a.r0) ^ ((5:ℝ)/3) * ((1/2 : ℝ) ^ (5/6 : ℝ) * Gamma (1 - 5/6) / (5/6)) =
      structureFunctionInf a.r0 rho := by
    unfold structureFunctionInf c2
    have g1 : Gamma (11/6) = 5/6 * Gamma (5/6) := by
      rw [show (11/6 : ℝ) = 5/6 + 1 by norm_num, Gamma_add_one (by norm_num)]
    have g2 : Gamma (5/6) * Gamma (1 - 5/6) = 2 * π := by
      rw [Gamma_mul_Gamma_one_sub, show π * (5/6) = π - π / 6 by ring, sin_pi_sub, sin_pi_div_six]
      field_simp
    have p1 : (2 * π * rho / a.r0) ^ ((5:ℝ)/3) = 2 ^ ((5:ℝ)/3) * π ^ ((5:ℝ)/3) * (rho / a.r0) ^ ((5:ℝ)/3) := by
      rw [show 2 * π * rho / a.r0 = (2 * π) * (rho / a.r0) by ring, mul_rpow (by positivity) (by positivity),
        mul_rpow (by norm_num) pi_pos.le]
    have p2 : π ^ ((8:ℝ)/3) = π ^ ((5:ℝ)/3) * π := by
      rw [← rpow_add_one pi_pos.ne']; norm_num
    have p3 : (2:ℝ) ^ ((5:ℝ)/3) = 2 ^ ((5:ℝ)/6) * 2 ^ ((5:ℝ)/6) := by
      rw [← rpow_add (by norm_num)]; norm_num
    have p4 : (1/2 : ℝ) ^ (5/6 : ℝ) = 1 / 2 ^ ((5:ℝ)/6) := by
      rw [one_div, inv_rpow (by norm_num), one_div]
    have h2 : (2:ℝ) ^ ((5:ℝ)/6) ≠ 0 := (rpow_pos_of_pos (by norm_num) _).ne'
    have hp : π ^ ((5:ℝ)/3) ≠ 0 := (rpow_pos_of_pos pi_pos _).ne'
    rw [g1, p1, p2, p3, p4]
    have : c1 * (5 / 6 * Gamma (5 / 6) / (2 ^ ((5:ℝ) / 6) * (π ^ ((5:ℝ) / 3) * π))) *
        (2 ^ ((5:ℝ) / 6) * 2 ^ ((5:ℝ) / 6) * π ^ ((5:ℝ) / 3) * (rho / a.r0) ^ ((5:ℝ) / 3)) *
        (1 / 2 ^ ((5:ℝ) / 6) * Gamma (1 - 5 / 6) / (5 / 6)) =
        c1 * (rho / a.r0) ^ ((5:ℝ) / 3) * (Gamma (5 / 6) * Gamma (1 - 5 / 6)) / π := by
      field_simp
    rw [this, g2]
    field_simp
  rw [hval] at h1
  refine h1.congr' ?_
  filter_upwards [eventually_gt_atTop 0] with L hL
  have hu : 0 < 2 * π * rho / L := by positivity
  simp only [Function.comp_apply]
  rw [structure_J { a with L0 := L } hL rho hrho, H_J _ _ _ (by norm_num) (by positivity) (by norm_num)]
  have s1 := J_scale (5/6) (1/2) ((2 * π * rho / L) ^ 2 / 2) ((2 * π * rho / L) ^ 2) (by positivity)
  have s0 := J_scale (5/6) (1/2) 0 ((2 * π * rho / L) ^ 2) (by positivity)
  rw [zero_div] at s0
  rw [show 1 / 2 * (2 * π * rho / L) ^ 2 = (2 * π * rho / L) ^ 2 / 2 by ring] at s0 s1
  rw [show (2 * π * rho / L) ^ 2 / 2 / (2 * π * rho / L) ^ 2 = 1 / 2 by field_simp] at s1
  rw [s0, s1]
  have p5 : ((2 * π * rho / L) ^ 2) ^ (-(5/6 : ℝ)) = (L / a.r0) ^ ((5:ℝ)/3) / (2 * π * rho / a.r0) ^ ((5:ℝ)/3) := by
    rw [← div_rpow (by positivity) (by positivity), show L / a.r0 / (2 * π * rho / a.r0) = (2 * π * rho / L)⁻¹ by field_simp,
      inv_rpow hu.le, ← rpow_neg hu.le, ← rpow_natCast, ← rpow_mul hu.le]
    norm_num
  rw [p5]
  have : (2 * π * rho / a.r0) ^ ((5:ℝ)/3) ≠ 0 := (rpow_pos_of_pos (by positivity) _).ne'
  field_simp


/-! ### The Fried parameter -/

theorem Gamma_shift (x : ℝ) (hx : 0 < x) (n : ℕ) : Gamma (x + n) = (∏ k ∈ Finset.range n, (x + k)) * Gamma x := by
  induction n with
  | zero => simp
  | succ n ih =>
    rw [Finset.prod_range_succ, show x + ((n + 1 : ℕ) : ℝ) = (x + n) + 1 by push_cast; ring, Gamma_add_one (by positivity), ih]
    ring

/-- Bounds of the Gamma function between integers, from its logarithmic convexity. -/
theorem Gamma_between (n : ℕ) (s : ℝ) (h0 : 0 < s) (h1 : s < 1) (hn : 0 < n) :
    Gamma (n + s) ≤ Gamma n * (n:ℝ) ^ s ∧ Gamma n * n ≤ Gamma (n + s) * ((n:ℝ) + s) ^ (1 - s) := by
  have hn0 : (0:ℝ) < n := by exact_mod_cast hn
  have hG : 0 < Gamma n := Gamma_pos_of_pos hn0
  have hGs : 0 < Gamma (n + s) := Gamma_pos_of_pos (by positivity)
  constructor
  · have := Gamma_mul_add_mul_le_rpow_Gamma_mul_rpow_Gamma (s := n) (t := (n:ℝ) + 1) (a := 1 - s) (b := s) hn0 (by positivity)
      (by linarith) h0 (by ring)
    rw [show (1 - s) * (n:ℝ) + s * ((n:ℝ) + 1) = n + s by ring, Gamma_add_one hn0.ne', mul_rpow hn0.le hG.le] at this
    refine this.trans (le_of_eq ?_)
    have : Gamma n ^ (1 - s) * Gamma n ^ s = Gamma n := by rw [← rpow_add hG]; simp
    calc Gamma n ^ (1 - s) * ((n:ℝ) ^ s * Gamma n ^ s) = (Gamma n ^ (1 - s) * Gamma n ^ s) * (n:ℝ) ^ s := by ring
      _ = _ := by rw [this]
  · have := Gamma_mul_add_mul_le_rpow_Gamma_mul_rpow_Gamma (s := (n:ℝ) + s) (t := (n:ℝ) + s + 1) (a := s) (b := 1 - s)
      (by positivity) (by positivity) h0 (by linarith) (by ring)
    rw [show s * ((n:ℝ) + s) + (1 - s) * ((n:ℝ) + s + 1) = n + 1 by ring, Gamma_add_one hn0.ne',
      Gamma_add_one (by positivity), mul_rpow (by positivity) hGs.le] at this
    rw [mul_comm]
    refine this.trans (le_of_eq ?_)
    have : Gamma (n + s) ^ s * Gamma (n + s) ^ (1 - s) = Gamma (n + s) := by rw [← rpow_add hGs]; simp
    calc Gamma (n + s) ^ s * (((n:ℝ) + s) ^ (1 - s) * Gamma (n + s) ^ (1 - s)) =
        (Gamma (n + s) ^ s * Gamma (n + s) ^ (1 - s)) * ((n:ℝ) + s) ^ (1 - s) := by ring
      _ = _ := by rw [this]

theorem Gamma_six_fifths : 0.916 < Gamma (6/5) ∧ Gamma (6/5) < 0.9205 := by
  obtain ⟨u, l⟩ := Gamma_between 40 (1/5) (by norm_num) (by norm_num) (by norm_num)
  have e := Gamma_shift (6/5) (by norm_num) 39
  rw [show (6/5 : ℝ) + (39:ℕ) = ((40:ℕ):ℝ) + 1/5 by norm_num] at e
  have hp : Gamma ((40:ℕ):ℝ) = (39:ℕ).factorial := by
    have := Gamma_nat_eq_factorial 39
    rw [← this]; norm_num
  rw [e, hp] at u l
  have r1 : (((40:ℕ):ℝ)) ^ ((1:ℝ)/5) ≤ 2.0914 := by
    have : (2.0914:ℝ) = (2.0914 ^ 5) ^ ((1:ℝ)/5) := by rw [← rpow_natCast, ← rpow_mul (by norm_num)]; norm_num
    rw [this]
    exact rpow_le_rpow (by norm_num) (by norm_num) (by norm_num)
  have r2 : (((40:ℕ):ℝ) + 1/5) ^ (1 - (1:ℝ)/5) ≤ 19.206 := by
    have : (19.206:ℝ) = ((19.206 ^ 5) ^ ((1:ℝ)/4)) ^ (1 - (1:ℝ)/5) := by
      rw [← rpow_natCast, ← rpow_mul (by norm_num), ← rpow_mul (by norm_num)]; norm_num
    rw [this]
    refine rpow_le_rpow (by norm_num) ?_ (by norm_num)
    have : (((40:ℕ):ℝ) + 1/5) = ((((40:ℕ):ℝ) + 1/5) ^ 4) ^ ((1:ℝ)/4) := by
      rw [← rpow_natCast, ← rpow_mul (by norm_num)]; norm_num
    rw [this]
    exact rpow_le_rpow (by norm_num) (by norm_num) (by norm_num)
  have hG : 0 < Gamma (6/5) := Gamma_pos_of_pos (by norm_num)
  have hP : 0 < ∏ k ∈ Finset.range 39, ((6/5 : ℝ) + k) := Finset.prod_pos fun k _ => by positivity
  have u' := u.trans (mul_le_mul_of_nonneg_left r1 (by positivity))
  have l' := l.trans (mul_le_mul_of_nonneg_left r2 (by positivity))
  have ev : ∏ k ∈ Finset.range 39, ((6/5 : ℝ) + k) = (∏ k ∈ Finset.range 39, (6 + 5 * k : ℕ) : ℕ) / 5 ^ 39 := by
    push_cast
    rw [show (5:ℝ) ^ 39 = ∏ k ∈ Finset.range 39, (5:ℝ) by simp, ← Finset.prod_div_distrib]
    refine Finset.prod_congr rfl fun k _ => ?_
    ring
  have en : (∏ k ∈ Finset.range 39, (6 + 5 * k : ℕ) : ℕ) = 84340077280774450649043219982365677857500610725327650211410664550381387776 := by decide +kernel
  have ef : (39:ℕ).factorial = 20397882081197443358640281739902897356800000000 := by decide +kernel
  rw [ev, en, ef] at u' l'
  constructor
  · norm_num at l' ⊢; linarith
  · norm_num at u' ⊢; linarith

theorem c1_value : 3.43 < c1 ∧ c1 < 3.45 := by
  obtain ⟨l, u⟩ := Gamma_six_fifths
  have e : c1 ^ 6 = (24 * Gamma (6/5) / 5) ^ 5 := by
    unfold c1
    rw [← rpow_natCast, ← rpow_mul (by positivity), ← rpow_natCast]
    norm_num
  have l' : (24 * 0.916 / 5 : ℝ) ^ 5 < (24 * Gamma (6/5) / 5) ^ 5 := by gcongr
  have u' : (24 * Gamma (6/5) / 5) ^ 5 < (24 * 0.9205 / 5 : ℝ) ^ 5 := by gcongr
  have hc := c1_pos
  constructor
  · refine lt_of_pow_lt_pow_left₀ 6 hc.le ?_
    rw [e]; refine lt_of_le_of_lt ?_ l'; norm_num
  · refine lt_of_pow_lt_pow_left₀ 6 (by norm_num) ?_
    rw [e]; refine lt_of_lt_of_le u' ?_; norm_num

/-- C453: for an infinite outer scale the structure function is 6.88 (within three thousandths) times the separation in
units of the Fried parameter to the power 5/3: `r0` is the Fried parameter of the turbulence. -/
theorem fried (r0 rho : ℝ) (hr : 0 < r0) (hrho : 0 ≤ rho) :
    |structureFunctionInf r0 rho - 6.88 * (rho / r0) ^ ((5:ℝ)/3)| ≤ 0.02 * (rho / r0) ^ ((5:ℝ)/3) := by
  obtain ⟨l, u⟩ := c1_value
  have h : 0 ≤ (rho / r0) ^ ((5:ℝ)/3) := by positivity
  unfold structureFunctionInf
  rw [← sub_mul, abs_mul, abs_of_nonneg h]
  refine mul_le_mul_of_nonneg_right ?_ h
  rw [abs_le]; constructor <;> linarith

/-! ### Angular structure function -/

/-- The structure function depends on the strength and the outer scale only, and is proportional to the strength. -/
theorem structure_scale (a b : Atm) (hL : 0 < a.L0) (hr : 0 < a.r0) (hb : b.L0 = a.L0) (w : ℝ) (hw : 0 < w)
    (hr' : b.r0 = a.r0 * w ^ (-(3:ℝ)/5)) (rho : ℝ) (hrho : 0 ≤ rho) :
    structureFunction (besselK (5/6)) b rho = w * structureFunction (besselK (5/6)) a rho := by
  rw [structure_J b (hb ▸ hL) rho hrho, structure_J a hL rho hrho, hb]
  have e : (a.L0 / b.r0) ^ ((5:ℝ)/3) = w * (a.L0 / a.r0) ^ ((5:ℝ)/3) := by
    have h1 : a.L0 / b.r0 = w ^ ((3:ℝ)/5) * (a.L0 / a.r0) := by
      rw [hr', show -(3:ℝ)/5 = -(3/5) by norm_num, rpow_neg hw.le]
      have : w ^ ((3:ℝ)/5) ≠ 0 := (rpow_pos_of_pos hw _).ne'
      field_simp
    rw [h1, mul_rpow (by positivity) (by positivity), ← rpow_mul hw.le]
    norm_num
  rw [e]
  ring

/-- C451: the angular structure function is the sum over the layers of the structure function of the turbulence, weighted, at
the separation of the beams in the layer. -/
theorem angular_structure (wvl r0 : ℝ) (w h v d : List ℝ) (L0 : ℝ) (hr : 0 < r0) (hL : 0 < L0) (hw : ∀ x ∈ w, 0 < x)
    (hh : ∀ x ∈ h, 0 ≤ x) (hl : h.length = w.length) (theta : ℝ) (ht : 0 ≤ theta) (ht' : theta < π / 2) (a : Atm)
    (ha : a = Atmosphere.mk wvl r0 w h v d (.one L0)) :
    angularStructureFunction (besselK (5/6)) a theta =
      (List.zipWith (fun w h => w * structureFunction (besselK (5/6)) a (h * tan theta)) w h).sum := by
  unfold angularStructureFunction
  congr 1
  subst ha
  apply List.ext_getElem
  · simp [Atmosphere.mk, hl]
  · intro i h1 h2
    have hi : i < w.length := by simpa [hl] using h2
    have hi' : i < h.length := by omega
    have tn : 0 ≤ tan theta := by
      rcases eq_or_lt_of_le ht with e | e
      · rw [← e, tan_zero]
      · exact (tan_pos_of_pos_of_lt_pi_div_two e ht').le
    rw [List.getElem_mapIdx, List.getElem_zipWith]
    have hlay : ((Atmosphere.mk wvl r0 w h v d (.one L0)).layers[i]'(by simpa using h1)).height = h[i] := by
      simp [Atmosphere.mk, at', hi']
    have hl0 : ((Atmosphere.mk wvl r0 w h v d (.one L0)).layers[i]'(by simpa using h1)).L0 = L0 := by
      simp [Atmosphere.mk]
    rw [hlay]
    refine structure_scale (Atmosphere.mk wvl r0 w h v d (.one L0)) _ hL hr ?_ w[i] (hw _ (List.getElem_mem _)) ?_ _
      (mul_nonneg (hh _ (List.getElem_mem _)) tn)
    · simp [slabNow, Atmosphere.mk, at']
    · simp [slabNow, Atmosphere.mk, at', hi]

/-- C451: the angular structure function increases with the angle. -/
theorem angular_increasing (wvl r0 : ℝ) (w h v d : List ℝ) (L0 : ℝ) (hr : 0 < r0) (hL : 0 < L0) (hw : ∀ x ∈ w, 0 < x)
    (hh : ∀ x ∈ h, 0 ≤ x) (hl : h.length = w.length) (s t : ℝ) (hs : 0 ≤ s) (hst : s ≤ t) (ht : t < π / 2) :
    angularStructureFunction (besselK (5/6)) (Atmosphere.mk wvl r0 w h v d (.one L0)) s ≤
      angularStructureFunction (besselK (5/6)) (Atmosphere.mk wvl r0 w h v d (.one L0)) t := by
  rw [angular_structure wvl r0 w h v d L0 hr hL hw hh hl s hs (by linarith) _ rfl,
    angular_structure wvl r0 w h v d L0 hr hL hw hh hl t (hs.trans hst) ht _ rfl]
  have tn : 0 ≤ tan s := by
    rcases eq_or_lt_of_le hs with e | e
    · rw [← e, tan_zero]
    · exact (tan_pos_of_pos_of_lt_pi_div_two e (by linarith)).le
  have tm : tan s ≤ tan t := by
    rcases eq_or_lt_of_le hst with e | e
    · rw [e]
    · exact (tan_lt_tan_of_nonneg_of_lt_pi_div_two hs ht e).le
  have mono : ∀ x y, 0 ≤ x → x ≤ y → structureFunction (besselK (5/6)) (Atmosphere.mk wvl r0 w h v d (.one L0)) x ≤
      structureFunction (besselK (5/6)) (Atmosphere.mk wvl r0 w h v d (.one L0)) y := by
    intro x y hx hxy
    rcases eq_or_lt_of_le hxy with e | e
    · rw [e]
    · exact ((structure_spec (Atmosphere.mk wvl r0 w h v d (.one L0)) hr hL).2.2.1 x y hx e).le
  generalize structureFunction (besselK (5/6)) (Atmosphere.mk wvl r0 w h v d (.one L0)) = D at mono
  clear hl
  induction w generalizing h with
  | nil => simp
  | cons x w ih =>
    rcases h with _ | ⟨y, h⟩
    · simp
    · simp only [List.zipWith_cons_cons, List.sum_cons]
      have hy := hh y (List.mem_cons_self ..)
      have hx := hw x (List.mem_cons_self ..)
      have i := ih h (fun z hz => hw z (List.mem_cons_of_mem _ hz)) (fun z hz => hh z (List.mem_cons_of_mem _ hz))
      have := mul_le_mul_of_nonneg_left (mono (y * tan s) (y * tan t) (mul_nonneg hy tn) (mul_le_mul_of_nonneg_left tm hy)) hx.le
      linarith

/-- A concrete atmosphere: 15 centimetres at 500 nanometres, 25 metres of outer scale. -/
example : ∃ a : Atm, 0 < a.r0 ∧ 0 < a.L0 :=
  ⟨Atmosphere.mk 5e-7 0.15 [1] [0] [10] [0] (.one 25), by norm_num [Atmosphere.mk], by norm_num [Atmosphere.mk]⟩

end P3.Turbulence
