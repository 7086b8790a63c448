import Verif.Model.Jitter
import Verif.Spec.Jitter
import Verif.Props.Pixel
import Mathlib.Analysis.SpecialFunctions.Integrals.Basic
import Mathlib.Analysis.Complex.ExponentialBounds
import Mathlib.Analysis.Real.Pi.Bounds
/-
The residual jitter (C413-C414).
-/
namespace P3.Jitter
open Finset P3.Psf P3.Pixel P3.Jitter.Spec MeasureTheory ProbabilityTheory

/-! ### A Gaussian blur -/

theorem wave_add (n a : ℕ) (p s : ℝ) :
    wave n a (p + s) = wave n a p * Complex.exp ((Real.pi * angFreq n a * s : ℝ) * Complex.I) := by
  unfold wave
  rw [← Complex.exp_add]
  congr 1
  push_cast
  ring

/-- Mean of a harmonic over a standard normal. -/
theorem normal_harmonic (θ : ℝ) :
    ∫ t, Complex.exp ((θ * t : ℝ) * Complex.I) ∂(gaussianReal 0 1) = ((Real.exp (-θ ^ 2 / 2) : ℝ) : ℂ) := by
  have h := charFun_gaussianReal (μ := 0) (v := 1) θ
  rw [charFun_apply_real] at h
  have e : ∀ t : ℝ, Complex.exp ((θ * t : ℝ) * Complex.I) = Complex.exp (θ * t * Complex.I) := fun t => by push_cast; rfl
  simp only [e, h]
  push_cast
  congr 1
  simp
  ring

theorem harmonic_integrable (θ : ℝ) :
    Integrable (fun t : ℝ => Complex.exp ((θ * t : ℝ) * Complex.I)) (gaussianReal 0 1) := by
  refine Integrable.of_bound (C := 1) (by fun_prop : Continuous fun t : ℝ => Complex.exp ((θ * t : ℝ) * Complex.I)).aestronglyMeasurable ?_
  exact Filter.Eventually.of_forall fun t => by rw [Complex.norm_exp_ofReal_mul_I]

/-- Blurring the fine PSF by random displacements multiplies its OTF by a Gaussian. -/
theorem blurred_fine (n : ℕ) (otf : ℕ → ℕ → ℂ) (a b c p q : ℝ) :
    blurred a b c (fine n otf) p q = fine n (withPixel otf fun i j => Real.exp (-(Real.pi ^ 2 / 2) *
      (a ^ 2 * angFreq n i ^ 2 + 2 * (a * b) * (angFreq n i * angFreq n j) + (b ^ 2 + c ^ 2) * angFreq n j ^ 2))) p q := by
  unfold blurred
  -- the inner integral
  have hin : ∀ s : ℝ, ∫ t, fine n otf (p + a * s) (q + (b * s + c * t)) ∂(gaussianReal 0 1) =
      (∑ i ∈ range n, ∑ j ∈ range n, ((1 / (n:ℂ) ^ 2 * otf i j) * wave n i p * wave n j q *
        ((Real.exp (-(Real.pi * angFreq n j * c) ^ 2 / 2) : ℝ) : ℂ)) *
        Complex.exp (((Real.pi * (angFreq n i * a + angFreq n j * b)) * s : ℝ) * Complex.I)).re := by
    intro s
    have e : ∀ t : ℝ, hires n otf (p + a * s) (q + (b * s + c * t)) = ∑ i ∈ range n, ∑ j ∈ range n,
        ((1 / (n:ℂ) ^ 2 * otf i j) * wave n i p * wave n j q *
        Complex.exp (((Real.pi * (angFreq n i * a + angFreq n j * b)) * s : ℝ) * Complex.I)) *
        Complex.exp (((Real.pi * angFreq n j * c) * t : ℝ) * Complex.I) := by
      intro t
      rw [hires_waves]
      refine sum_congr rfl fun i _ => sum_congr rfl fun j _ => ?_
      rw [wave_add, wave_add]
      have : Complex.exp ((Real.pi * angFreq n i * (a * s) : ℝ) * Complex.I) *
          Complex.exp ((Real.pi * angFreq n j * (b * s + c * t) : ℝ) * Complex.I) =
          Complex.exp (((Real.pi * (angFreq n i * a + angFreq n j * b)) * s : ℝ) * Complex.I) *
          Complex.exp (((Real.pi * angFreq n j * c) * t : ℝ) * Complex.I) := by
        rw [← Complex.exp_add, ← Complex.exp_add]
        congr 1
        push_cast
        ring
      linear_combination (1 / (n:ℂ) ^ 2 * otf i j) * wave n i p * wave n j q * this
    unfold fine
    simp only [e]
    have hI : Integrable (fun t : ℝ => ∑ i ∈ range n, ∑ j ∈ range n,
        ((1 / (n:ℂ) ^ 2 * otf i j) * wave n i p * wave n j q *
        Complex.exp (((Real.pi * (angFreq n i * a + angFreq n j * b)) * s : ℝ) * Complex.I)) *
        Complex.exp (((Real.pi * angFreq n j * c) * t : ℝ) * Complex.I)) (gaussianReal 0 1) :=
      integrable_finsetSum _ fun i _ => integrable_finsetSum _ fun j _ => (harmonic_integrable _).const_mul _
    have hre := Complex.reCLM.integral_comp_comm hI
    simp only [Complex.reCLM_apply] at hre
    rw [hre]
    congr 1
    rw [integral_finsetSum _ fun i _ => integrable_finsetSum _ fun j _ => (harmonic_integrable _).const_mul _]
    refine sum_congr rfl fun i _ => ?_
    rw [integral_finsetSum _ fun j _ => (harmonic_integrable _).const_mul _]
    refine sum_congr rfl fun j _ => ?_
    rw [integral_const_mul, normal_harmonic]
    ring
  simp only [hin]
  have hI : Integrable (fun s : ℝ => ∑ i ∈ range n, ∑ j ∈ range n, ((1 / (n:ℂ) ^ 2 * otf i j) * wave n i p * wave n j q *
        ((Real.exp (-(Real.pi * angFreq n j * c) ^ 2 / 2) : ℝ) : ℂ)) *
        Complex.exp (((Real.pi * (angFreq n i * a + angFreq n j * b)) * s : ℝ) * Complex.I)) (gaussianReal 0 1) :=
    integrable_finsetSum _ fun i _ => integrable_finsetSum _ fun j _ => (harmonic_integrable _).const_mul _
  have hre := Complex.reCLM.integral_comp_comm hI
  simp only [Complex.reCLM_apply] at hre
  rw [hre]
  unfold fine
  rw [hires_waves]
  congr 1
  rw [integral_finsetSum _ fun i _ => integrable_finsetSum _ fun j _ => (harmonic_integrable _).const_mul _]
  refine sum_congr rfl fun i _ => ?_
  rw [integral_finsetSum _ fun j _ => (harmonic_integrable _).const_mul _]
  refine sum_congr rfl fun j _ => ?_
  rw [integral_const_mul, normal_harmonic]
  unfold withPixel
  have : ((Real.exp (-(Real.pi * angFreq n j * c) ^ 2 / 2) : ℝ) : ℂ) *
      ((Real.exp (-(Real.pi * (angFreq n i * a + angFreq n j * b)) ^ 2 / 2) : ℝ) : ℂ) =
      ((Real.exp (-(Real.pi ^ 2 / 2) * (a ^ 2 * angFreq n i ^ 2 + 2 * (a * b) * (angFreq n i * angFreq n j) +
        (b ^ 2 + c ^ 2) * angFreq n j ^ 2)) : ℝ) : ℂ) := by
    rw [← Complex.ofReal_mul, ← Real.exp_add]
    congr 2
    ring
  linear_combination (1 / (n:ℂ) ^ 2 * otf i j) * wave n i p * wave n j q * this

/-! ### C413: the size of the blur -/

/-- `√(8 ln 2)/π`: rms of the blur in mas for a jitter of one. -/
noncomputable def spread : ℝ := Real.sqrt (8 * Real.log 2) / Real.pi

theorem log2_pos : 0 < 8 * Real.log 2 := by
  have := Real.log_pos (by norm_num : (1:ℝ) < 2); linarith

theorem spread_pos : 0 < spread := div_pos (Real.sqrt_pos.2 log2_pos) Real.pi_pos

theorem spread_sq : spread ^ 2 = 8 * Real.log 2 / Real.pi ^ 2 := by
  unfold spread; rw [div_pow, Real.sq_sqrt log2_pos.le]

theorem scale_eq (um : ℝ) : jitterScale um = Real.pi ^ 2 * (spread ^ 2 * um ^ 2) := by
  have hp := Real.pi_pos
  have h : Real.sqrt (2 * Real.log 2) ^ 2 = 2 * Real.log 2 :=
    Real.sq_sqrt (by have := Real.log_pos (by norm_num : (1:ℝ) < 2); linarith)
  unfold jitterScale
  rw [mul_pow, h, spread_sq]
  field_simp
  ring

theorem ofMas_eq (x : ℝ) : ofMas x = x / rad2mas := by
  unfold ofMas rad2mas
  have := Real.pi_pos
  field_simp

/-- C413: `u_max` is the inverse of the fine pixel in mas: `wvl/(samp D)` radians. -/
theorem umax_pixel (samp D wvl : ℝ) (hs : 0 < samp) (hD : 0 < D) (hw : 0 < wvl) :
    ofMas (1 / umax samp D wvl) = wvl / (samp * D) := by
  have hr : 0 < rad2mas := by unfold rad2mas; have := Real.pi_pos; positivity
  rw [ofMas_eq]
  unfold umax
  field_simp

/-- C413: with the function for several wavelengths, a jitter `(jx, jy, jxy)` is exactly a blur by Gaussian random
displacements of covariance matrix `spread² [[jx², jxy], [jxy, jy²]]` in mas². -/
theorem jitter_gauss (n : ℕ) (otf : ℕ → ℕ → ℂ) (um jx jy jxy a b c p q : ℝ) (hj : jx ≠ 0 ∨ jy ≠ 0)
    (ha : a ^ 2 = spread ^ 2 * (um * jx) ^ 2) (hab : a * b = spread ^ 2 * um ^ 2 * jxy)
    (hc : b ^ 2 + c ^ 2 = spread ^ 2 * (um * jy) ^ 2) :
    fine n (withPixel otf (kernel4 um jx jy jxy n)) p q = blurred a b c (fine n otf) p q := by
  rw [blurred_fine, ha, hab, hc]
  congr 2
  funext i j
  unfold kernel4
  rw [if_pos hj]
  congr 1
  unfold jitter4
  rw [scale_eq]
  ring

/-- Every jitter with a consistent cross term is such a blur. -/
theorem jitter_gauss_exists (um jx jy jxy : ℝ) (hx : jx ≠ 0) (hu : um ≠ 0) (h : |jxy| ≤ |jx * jy|) :
    ∃ a b c, a ^ 2 = spread ^ 2 * (um * jx) ^ 2 ∧ a * b = spread ^ 2 * um ^ 2 * jxy ∧
      b ^ 2 + c ^ 2 = spread ^ 2 * (um * jy) ^ 2 := by
  have h2 : jxy ^ 2 ≤ (jx * jy) ^ 2 := sq_le_sq.2 h
  have hx2 : 0 < jx ^ 2 := by positivity
  have h3 : (jxy / jx) ^ 2 ≤ jy ^ 2 := by
    rw [div_pow, div_le_iff₀ hx2]; linarith [h2, mul_pow jx jy 2]
  refine ⟨spread * (um * jx), spread * um * (jxy / jx), spread * um * Real.sqrt (jy ^ 2 - (jxy / jx) ^ 2), by ring, ?_, ?_⟩
  · field_simp
  · rw [mul_pow _ (Real.sqrt _), Real.sq_sqrt (by linarith)]
    ring

/-- C413 (partial): a jitter `jx`, `jy` without cross term blurs the PSF by independent Gaussian displacements along
the axes, of rms `√(8 ln 2)/π` times `jx`, `jy`.  Missing: these numbers are not the FWHM of the blur
(`jitter_fwhm_violation`). -/
theorem jitter_axes_partial (n : ℕ) (otf : ℕ → ℕ → ℂ) (um jx jy p q : ℝ) :
    fine n (withPixel otf (kernel4 um jx jy 0 n)) p q =
      gaussBlur (spread * (um * jx)) (spread * (um * jy)) (fine n otf) p q := by
  unfold gaussBlur
  by_cases h : jx ≠ 0 ∨ jy ≠ 0
  · exact jitter_gauss n otf um jx jy 0 _ _ _ p q h (by ring) (by ring) (by ring)
  · push Not at h
    rw [blurred_fine]
    congr 2
    funext i j
    unfold kernel4
    rw [if_neg (by push Not; exact h), h.1, h.2]
    simp

/-- The FWHM of a Gaussian of rms `s`. -/
theorem fwhm_iff (s w : ℝ) (hs : 0 < s) : IsFwhm s w ↔ w = Real.sqrt (8 * Real.log 2) * s := by
  have L := log2_pos
  unfold IsFwhm
  have e : ∀ w : ℝ, Real.exp (-(w / 2) ^ 2 / (2 * s ^ 2)) = 1 / 2 ↔ w ^ 2 = 8 * Real.log 2 * s ^ 2 := by
    intro w
    rw [one_div, ← Real.exp_log (by norm_num : (0:ℝ) < 2⁻¹), Real.exp_eq_exp, Real.log_inv]
    constructor
    · intro h
      field_simp at h
      linarith
    · intro h
      rw [div_pow, h]
      field_simp
      ring
  constructor
  · rintro ⟨h0, h1⟩
    have h2 := (e w).1 h1
    have : w ^ 2 = (Real.sqrt (8 * Real.log 2) * s) ^ 2 := by
      rw [mul_pow, Real.sq_sqrt L.le, h2]
    exact (sq_eq_sq₀ h0 (by positivity)).1 this
  · intro h
    refine ⟨by rw [h]; positivity, (e w).2 ?_⟩
    rw [h, mul_pow, Real.sq_sqrt L.le]

theorem bounds : Real.pi < 8 * Real.log 2 ∧ 8 * Real.log 2 < Real.pi ^ 2 ∧ Real.pi ^ 2 < 16 * Real.log 2 := by
  have h1 := Real.log_two_gt_d9
  have h2 := Real.log_two_lt_d9
  have h3 := Real.pi_gt_d4
  have h4 := Real.pi_lt_d4
  refine ⟨by linarith, by nlinarith, by nlinarith⟩

/-- C413 (violation): the FWHM of the blur, in mas, is `8 ln 2/π` times the `SpotFWHM` of the parameter file: more than
three quarters too large, for every jitter. -/
theorem jitter_fwhm_violation (J : ℝ) (hJ : 0 < J) :
    IsFwhm (spread * J) (8 * Real.log 2 / Real.pi * J) ∧ 1.76 * J < 8 * Real.log 2 / Real.pi * J ∧
    ¬ IsFwhm (spread * J) J := by
  have hp := Real.pi_pos
  have hs := spread_pos
  have e : Real.sqrt (8 * Real.log 2) * (spread * J) = 8 * Real.log 2 / Real.pi * J := by
    unfold spread
    have := Real.mul_self_sqrt log2_pos.le
    field_simp
    rw [sq, this]
  have lt : 1.76 * J < 8 * Real.log 2 / Real.pi * J := by
    refine mul_lt_mul_of_pos_right ?_ hJ
    rw [lt_div_iff₀ hp]
    have := Real.log_two_gt_d9
    have := Real.pi_lt_d4
    linarith
  refine ⟨(fwhm_iff _ _ (by positivity)).2 e.symm, lt, fun h => ?_⟩
  have := (fwhm_iff _ _ (by positivity)).1 h
  rw [e] at this
  linarith

/-- C413 (violation): the contrast of a ripple of the PSF, whatever its period: with a jitter `J` it is lower than for a
blur of FWHM `J` mas, and higher than for a blur of rms `J` mas. -/
theorem jitter_contrast_violation (h : ℕ) (hh : 2 ≤ h) (um J : ℝ) (hu : 0 < um) (hJ : 0 < J) :
    let o := ripple h (((2 * h : ℕ) : ℂ) ^ 2)
    let code := fine (2 * h) (withPixel o (kernel4 um J J 0 (2 * h))) 0 0
    let s := um * (J / Real.sqrt (8 * Real.log 2))
    IsFwhm (J / Real.sqrt (8 * Real.log 2)) J ∧ code < gaussBlur s s (fine (2 * h) o) 0 0 ∧
      gaussBlur (um * J) (um * J) (fine (2 * h) o) 0 0 < code := by
  intro o code s
  have hL := log2_pos
  have hsq : 0 < Real.sqrt (8 * Real.log 2) := Real.sqrt_pos.2 hL
  have hh' : (0:ℝ) < h := by exact_mod_cast (by omega : 0 < h)
  have hc : ((2 * h : ℕ) : ℂ) ^ 2 ≠ 0 := pow_ne_zero 2 (by exact_mod_cast (by omega : 2 * h ≠ 0))
  have val : ∀ t : ℝ, gaussBlur t t (fine (2 * h) o) 0 0 = Real.exp (-(Real.pi ^ 2 / 2) * (t ^ 2 / h ^ 2)) := by
    intro t
    unfold gaussBlur
    rw [blurred_fine, ripple_fine h hh, div_self hc, angFreq_centre, angFreq_next h (by omega)]
    simp
    ring
  have hcode : code = Real.exp (-(Real.pi ^ 2 / 2) * ((spread * (um * J)) ^ 2 / h ^ 2)) := by
    show fine (2 * h) (withPixel o (kernel4 um J J 0 (2 * h))) 0 0 = _
    rw [jitter_axes_partial, val]
  obtain ⟨b1, b2, -⟩ := bounds
  have hp := Real.pi_pos
  have mono : ∀ x y : ℝ, x < y → Real.exp (-(Real.pi ^ 2 / 2) * (y / h ^ 2)) < Real.exp (-(Real.pi ^ 2 / 2) * (x / h ^ 2)) := by
    intro x y hxy
    rw [Real.exp_lt_exp]
    have : x / (h:ℝ) ^ 2 < y / (h:ℝ) ^ 2 := div_lt_div_of_pos_right hxy (by positivity)
    have hq : 0 < Real.pi ^ 2 / 2 := by positivity
    nlinarith
  refine ⟨(fwhm_iff _ _ (by positivity)).2 (by field_simp), ?_, ?_⟩
  · rw [hcode, val]
    apply mono
    show (um * (J / Real.sqrt (8 * Real.log 2))) ^ 2 < _
    rw [mul_pow spread, spread_sq, mul_pow um, div_pow, Real.sq_sqrt hL.le, mul_pow um]
    have : 1 / (8 * Real.log 2) < 8 * Real.log 2 / Real.pi ^ 2 := by
      rw [div_lt_div_iff₀ hL (by positivity)]
      nlinarith
    have hpos : 0 < um ^ 2 * J ^ 2 := by positivity
    calc um ^ 2 * (J ^ 2 / (8 * Real.log 2)) = 1 / (8 * Real.log 2) * (um ^ 2 * J ^ 2) := by ring
      _ < _ := mul_lt_mul_of_pos_right this hpos
  · rw [hcode, val]
    apply mono
    rw [mul_pow spread, spread_sq]
    have : 8 * Real.log 2 / Real.pi ^ 2 < 1 := by rw [div_lt_one (by positivity)]; exact b2
    have hpos : 0 < (um * J) ^ 2 := by positivity
    nlinarith

/-- C413 (part): the function for one wavelength blurs by independent Gaussian displacements whose variances, not rms,
are proportional to the numbers given. -/
theorem jitter_variance (n : ℕ) (otf : ℕ → ℕ → ℂ) (um vx vy p q : ℝ) (hx : 0 ≤ vx) (hy : 0 ≤ vy) :
    fine n (withPixel otf (kernel3 um vx vy 0 n)) p q =
      gaussBlur (spread / 2 * (um * Real.sqrt vx)) (spread / 2 * (um * Real.sqrt vy)) (fine n otf) p q := by
  unfold gaussBlur
  rw [blurred_fine]
  congr 2
  funext i j
  unfold kernel3 jitter3
  congr 1
  have h : Real.sqrt (2 * Real.log 2) ^ 2 = 2 * Real.log 2 :=
    Real.sq_sqrt (by have := Real.log_pos (by norm_num : (1:ℝ) < 2); linarith)
  have hp := Real.pi_pos
  simp only [mul_pow, div_pow, Real.sq_sqrt hx, Real.sq_sqrt hy, spread_sq, h]
  field_simp
  ring

/-- C413 (violation): for the function for one wavelength the number given is the FWHM of the blur in mas for one value
only, about 0.78. -/
theorem jitter_variance_violation (J : ℝ) (hJ : 0 < J) :
    IsFwhm (spread / 2 * Real.sqrt J) J ↔ J = (4 * Real.log 2 / Real.pi) ^ 2 := by
  have hp := Real.pi_pos
  have hs := spread_pos
  have hq := Real.sqrt_pos.2 hJ
  have hl := log2_pos
  have e : Real.sqrt (8 * Real.log 2) * (spread / 2 * Real.sqrt J) = 4 * Real.log 2 / Real.pi * Real.sqrt J := by
    unfold spread
    have := Real.mul_self_sqrt log2_pos.le
    field_simp
    rw [sq, this]
    ring
  rw [fwhm_iff _ _ (by positivity), e]
  constructor
  · intro h
    have h2 : Real.sqrt J = 4 * Real.log 2 / Real.pi := by
      have : Real.sqrt J * Real.sqrt J = 4 * Real.log 2 / Real.pi * Real.sqrt J := by
        rw [Real.mul_self_sqrt hJ.le]; exact h
      exact mul_right_cancel₀ hq.ne' this
    rw [← h2, Real.sq_sqrt hJ.le]
  · intro h
    have h2 : Real.sqrt J = 4 * Real.log 2 / Real.pi := by
      rw [h, Real.sqrt_sq (div_nonneg (by linarith) hp.le)]
    rw [h2, ← sq]
    exact h

/-! ### C414: the jitter in the error breakdown -/

theorem tiltMeanSquare_eq (D x y : ℝ) (hD : 0 < D) : tiltMeanSquare D x y = D ^ 2 / 16 * (x ^ 2 + y ^ 2) := by
  unfold tiltMeanSquare
  have inner : ∀ r : ℝ, ∫ φ in (0:ℝ)..(2 * Real.pi), (x * (r * Real.cos φ) + y * (r * Real.sin φ)) ^ 2 * r =
      (Real.pi * (x ^ 2 + y ^ 2)) * r ^ 3 := by
    intro r
    have e : ∀ φ : ℝ, (x * (r * Real.cos φ) + y * (r * Real.sin φ)) ^ 2 * r =
        (x ^ 2 * r ^ 3) * Real.cos φ ^ 2 + (y ^ 2 * r ^ 3) * Real.sin φ ^ 2 + (2 * x * y * r ^ 3) * (Real.sin φ * Real.cos φ) := by
      intro φ; ring
    simp only [e]
    have i1 : IntervalIntegrable (fun φ => (x ^ 2 * r ^ 3) * Real.cos φ ^ 2) volume 0 (2 * Real.pi) := by
      apply Continuous.intervalIntegrable; fun_prop
    have i2 : IntervalIntegrable (fun φ => (y ^ 2 * r ^ 3) * Real.sin φ ^ 2) volume 0 (2 * Real.pi) := by
      apply Continuous.intervalIntegrable; fun_prop
    have i3 : IntervalIntegrable (fun φ => (2 * x * y * r ^ 3) * (Real.sin φ * Real.cos φ)) volume 0 (2 * Real.pi) := by
      apply Continuous.intervalIntegrable; fun_prop
    rw [intervalIntegral.integral_add (i1.add i2) i3, intervalIntegral.integral_add i1 i2,
      intervalIntegral.integral_const_mul, intervalIntegral.integral_const_mul, intervalIntegral.integral_const_mul,
      integral_cos_sq, integral_sin_sq, integral_sin_mul_cos₁]
    simp
    ring
  simp only [inner, intervalIntegral.integral_const_mul, integral_pow]
  have hp := Real.pi_pos
  field_simp
  ring

/-- Mean square of the wavefront of a Gaussian jitter of rms `sx`, `sy` radians over a disc of diameter `D`. -/
theorem jitterMeanSquare_eq (D sx sy : ℝ) (hD : 0 < D) :
    jitterMeanSquare D sx sy = D ^ 2 / 16 * (sx ^ 2 + sy ^ 2) := by
  have sq : ∫ t : ℝ, t ^ 2 ∂(gaussianReal 0 1) = 1 := by
    have h := variance_id_gaussianReal (μ := 0) (v := 1)
    rw [variance_of_integral_eq_zero (by fun_prop) (by simp)] at h
    simpa using h
  have i2 : Integrable (fun t : ℝ => t ^ 2) (gaussianReal 0 1) := by
    have := (memLp_id_gaussianReal (μ := 0) (v := 1) 2).integrable_sq
    simpa using this
  unfold jitterMeanSquare
  simp only [tiltMeanSquare_eq D _ _ hD]
  have inner : ∀ s : ℝ, ∫ t : ℝ, D ^ 2 / 16 * ((sx * s) ^ 2 + (sy * t) ^ 2) ∂(gaussianReal 0 1) =
      D ^ 2 / 16 * (sx ^ 2 * s ^ 2 + sy ^ 2) := by
    intro s
    rw [integral_const_mul, integral_add (integrable_const _) (by simpa [mul_pow] using i2.const_mul (sy ^ 2))]
    simp [mul_pow, integral_const_mul, sq]
  simp only [inner]
  rw [integral_const_mul, integral_add (i2.const_mul _) (integrable_const _), integral_const_mul, sq]
  simp

/-- C414 (partial): the jitter of the breakdown, in nm, is between two thirds of the rms wavefront error of the jitter
in the PSF and this error.  Missing: equality, which never holds (`breakdown_violation`). -/
theorem breakdown_partial (D jx jy : ℝ) (hD : 0 < D) (hx : 0 ≤ jx) (hy : 0 ≤ jy) :
    let true := 1e9 * Real.sqrt (jitterMeanSquare D (ofMas (spread * jx)) (ofMas (spread * jy)))
    2 / 3 * true ≤ wfeJitter D jx jy ∧ wfeJitter D jx jy ≤ true := by
  intro tr
  have hr : 0 < rad2mas := by unfold rad2mas; have := Real.pi_pos; positivity
  have hp := Real.pi_pos
  obtain ⟨b1, b2, b3⟩ := bounds
  have e : tr = 1e9 * D / rad2mas / 4 * Real.sqrt (spread ^ 2 * (jx ^ 2 + jy ^ 2)) := by
    show 1e9 * Real.sqrt (jitterMeanSquare D (ofMas (spread * jx)) (ofMas (spread * jy))) = _
    rw [ofMas_eq, ofMas_eq, jitterMeanSquare_eq D _ _ hD,
      show D ^ 2 / 16 * ((spread * jx / rad2mas) ^ 2 + (spread * jy / rad2mas) ^ 2) =
        (D / rad2mas / 4) ^ 2 * (spread ^ 2 * (jx ^ 2 + jy ^ 2)) by field_simp; ring,
      Real.sqrt_mul (sq_nonneg _), Real.sqrt_sq (by positivity)]
    ring
  have e2 : wfeJitter D jx jy = 1e9 * D / rad2mas / 4 * ((jx + jy) / 2) := by unfold wfeJitter; ring
  have hc : 0 ≤ 1e9 * D / rad2mas / 4 := by positivity
  have k1 : spread ^ 2 ≤ 9 / 16 := by
    rw [spread_sq, div_le_iff₀ (by positivity)]
    have := Real.log_two_lt_d9
    have := Real.pi_gt_d4
    nlinarith
  have k2 : 1 / 2 ≤ spread ^ 2 := by
    rw [spread_sq, le_div_iff₀ (by positivity)]; linarith
  rw [e, e2]
  constructor
  · rw [← mul_assoc, mul_comm (2 / 3 : ℝ), mul_assoc]
    refine mul_le_mul_of_nonneg_left ?_ hc
    have : Real.sqrt (spread ^ 2 * (jx ^ 2 + jy ^ 2)) ≤ 3 / 4 * (jx + jy) := by
      apply Real.sqrt_le_iff.2
      refine ⟨by positivity, ?_⟩
      have : 0 ≤ jx * jy := mul_nonneg hx hy
      nlinarith [sq_nonneg jx, sq_nonneg jy]
    linarith
  · refine mul_le_mul_of_nonneg_left ?_ hc
    apply Real.le_sqrt_of_sq_le
    nlinarith [sq_nonneg (jx - jy), sq_nonneg jx, sq_nonneg jy]

/-- C414 (violation): the jitter of the breakdown underestimates the rms wavefront error of the jitter in the PSF, for
every jitter other than zero. -/
theorem breakdown_violation (D jx jy : ℝ) (hD : 0 < D) (h : jx ≠ 0 ∨ jy ≠ 0) :
    wfeJitter D jx jy < 1e9 * Real.sqrt (jitterMeanSquare D (ofMas (spread * jx)) (ofMas (spread * jy))) := by
  have hr : 0 < rad2mas := by unfold rad2mas; have := Real.pi_pos; positivity
  have hp := Real.pi_pos
  obtain ⟨b1, b2, b3⟩ := bounds
  have e : 1e9 * Real.sqrt (jitterMeanSquare D (ofMas (spread * jx)) (ofMas (spread * jy))) =
      1e9 * D / rad2mas / 4 * Real.sqrt (spread ^ 2 * (jx ^ 2 + jy ^ 2)) := by
    rw [ofMas_eq, ofMas_eq, jitterMeanSquare_eq D _ _ hD,
      show D ^ 2 / 16 * ((spread * jx / rad2mas) ^ 2 + (spread * jy / rad2mas) ^ 2) =
        (D / rad2mas / 4) ^ 2 * (spread ^ 2 * (jx ^ 2 + jy ^ 2)) by field_simp; ring,
      Real.sqrt_mul (sq_nonneg _), Real.sqrt_sq (by positivity)]
    ring
  have e2 : wfeJitter D jx jy = 1e9 * D / rad2mas / 4 * ((jx + jy) / 2) := by unfold wfeJitter; ring
  have hc : 0 < 1e9 * D / rad2mas / 4 := by positivity
  have k2 : 1 / 2 < spread ^ 2 := by
    rw [spread_sq, lt_div_iff₀ (by positivity)]; linarith
  have pos : 0 < jx ^ 2 + jy ^ 2 := by
    rcases h with h | h
    · have := sq_nonneg jy; positivity
    · have := sq_nonneg jx; positivity
  rw [e, e2]
  refine mul_lt_mul_of_pos_left ?_ hc
  apply Real.lt_sqrt_of_sq_lt
  nlinarith [sq_nonneg (jx - jy)]

/-! ### Cases that meet the hypotheses -/

example (otf : ℕ → ℕ → ℂ) (p q : ℝ) : fine 8 (withPixel otf (kernel4 (1 / 2) 3 3 0 8)) p q =
    blurred (spread * (1 / 2 * 3)) 0 (spread * (1 / 2 * 3)) (fine 8 otf) p q :=
  jitter_gauss 8 otf (1 / 2) 3 3 0 _ _ _ p q (Or.inl (by norm_num)) (by ring) (by ring) (by ring)

example : ∃ a b c, a ^ 2 = spread ^ 2 * (2 * 3) ^ 2 ∧ a * b = spread ^ 2 * 2 ^ 2 * 1 ∧
    b ^ 2 + c ^ 2 = spread ^ 2 * (2 * 1) ^ 2 :=
  jitter_gauss_exists 2 3 1 1 (by norm_num) (by norm_num) (by norm_num)

example : ¬ IsFwhm (spread * 10) 10 := (jitter_fwhm_violation 10 (by norm_num)).2.2

example : IsFwhm (6 / Real.sqrt (8 * Real.log 2)) 6 := (jitter_contrast_violation 2 le_rfl 1 6 one_pos (by norm_num)).1

example : ¬ IsFwhm (spread / 2 * Real.sqrt 1) 1 := by
  rw [jitter_variance_violation 1 one_pos]
  have h1 := Real.log_two_lt_d9
  have h2 := Real.pi_gt_d4
  have h3 : 4 * Real.log 2 / Real.pi < 1 := by rw [div_lt_one Real.pi_pos]; linarith
  have h4 : 0 < 4 * Real.log 2 / Real.pi := div_pos (by have := log2_pos; linarith) Real.pi_pos
  nlinarith

example : wfeJitter 8 6 6 < 1e9 * Real.sqrt (jitterMeanSquare 8 (ofMas (spread * 6)) (ofMas (spread * 6))) :=
  breakdown_violation 8 6 6 (by norm_num) (Or.inl (by norm_num))

example : wfeJitter 8 6 3 ≤ 1e9 * Real.sqrt (jitterMeanSquare 8 (ofMas (spread * 6)) (ofMas (spread * 3))) :=
  (breakdown_partial 8 6 3 (by norm_num) (by norm_num) (by norm_num)).2

end P3.Jitter
