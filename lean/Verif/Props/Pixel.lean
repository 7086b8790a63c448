import Verif.Model.Pixel
import Verif.Spec.Pixel
import Verif.Props.Reconstruction
import Verif.Model.Strehl
import Mathlib.Analysis.SpecialFunctions.Integrals.Basic
import Mathlib.Analysis.Convex.SpecificFunctions.Deriv
/-
The pixel of the detector (C405-C408).
-/
namespace P3.Pixel
open Finset P3.Psf P3.Pixel.Spec

/-- One harmonic. -/
noncomputable def wave (n a : ℕ) (s : ℝ) : ℂ := Complex.exp ((Real.pi * angFreq n a : ℝ) * Complex.I * s)

theorem hires_waves (n : ℕ) (otf : ℕ → ℕ → ℂ) (p q : ℝ) :
    hires n otf p q = ∑ a ∈ range n, ∑ b ∈ range n, (1 / (n:ℂ) ^ 2 * otf a b) * wave n a p * wave n b q := by
  unfold hires
  rw [mul_sum]
  refine sum_congr rfl fun a _ => ?_
  rw [mul_sum]
  refine sum_congr rfl fun b _ => ?_
  rw [← mul_assoc, mul_assoc _ (wave n a p)]
  congr 1
  unfold wave
  rw [← Complex.exp_add]
  congr 1
  unfold angFreq
  push_cast
  ring

theorem wave_continuous (n a : ℕ) : Continuous (wave n a) := by
  unfold wave; fun_prop

theorem hires_continuous (n : ℕ) (otf : ℕ → ℕ → ℂ) (p : ℝ) : Continuous (fun q => hires n otf p q) := by
  simp only [hires_waves]
  have := wave_continuous n
  fun_prop

/-- A box of width `w` multiplies a harmonic by a sinc. -/
theorem wave_box (n a : ℕ) (w p : ℝ) :
    ∫ s in (p - w / 2)..(p + w / 2), wave n a s = (w * Rec.npSinc (w * angFreq n a / 2) : ℝ) * wave n a p := by
  unfold wave
  by_cases h : angFreq n a = 0
  · simp [h, Rec.npSinc]
  by_cases hw : w = 0
  · simp [hw]
  have hc : ((Real.pi * angFreq n a : ℝ) : ℂ) * Complex.I ≠ 0 := by
    simp [h, Real.pi_ne_zero]
  rw [integral_exp_mul_complex hc]
  have hx : Real.pi * (w * angFreq n a / 2) ≠ 0 := by
    simp [h, hw, Real.pi_ne_zero]
  unfold Rec.npSinc
  rw [Real.sinc_of_ne_zero hx]
  have e1 : ((Real.pi * angFreq n a : ℝ) : ℂ) * Complex.I * ((p + w / 2 : ℝ) : ℂ) =
      ((Real.pi * angFreq n a : ℝ) : ℂ) * Complex.I * p + ((Real.pi * (w * angFreq n a / 2) : ℝ) : ℂ) * Complex.I := by
    push_cast; ring
  have e2 : ((Real.pi * angFreq n a : ℝ) : ℂ) * Complex.I * ((p - w / 2 : ℝ) : ℂ) =
      ((Real.pi * angFreq n a : ℝ) : ℂ) * Complex.I * p - ((Real.pi * (w * angFreq n a / 2) : ℝ) : ℂ) * Complex.I := by
    push_cast; ring
  rw [e1, e2, sub_eq_add_neg (_ * Complex.I * (p:ℂ)), Complex.exp_add, Complex.exp_add, ← neg_mul, Complex.exp_mul_I, Complex.exp_mul_I,
    Complex.cos_neg, Complex.sin_neg, Complex.ofReal_mul w, Complex.ofReal_div, Complex.ofReal_sin]
  generalize Complex.exp _ = e
  have hx' : ((Real.pi * (w * angFreq n a / 2) : ℝ) : ℂ) ≠ 0 := by exact_mod_cast hx
  have hr : ((Real.pi * angFreq n a : ℝ) : ℂ) ≠ 0 := by
    exact_mod_cast mul_ne_zero Real.pi_ne_zero h
  have hw' : (w : ℂ) ≠ 0 := by exact_mod_cast hw
  have hX : ((Real.pi * (w * angFreq n a / 2) : ℝ) : ℂ) = w * ((Real.pi * angFreq n a : ℝ) : ℂ) / 2 := by
    push_cast; ring
  generalize hs : Complex.sin _ = S
  generalize Complex.cos _ = C
  rw [hX]
  have hI := Complex.I_ne_zero
  field_simp
  ring

theorem int_re {f : ℝ → ℂ} (hf : Continuous f) (a b : ℝ) : ∫ t in a..b, (f t).re = (∫ t in a..b, f t).re := by
  have := Complex.reCLM.intervalIntegral_comp_comm (hf.intervalIntegrable (μ := MeasureTheory.volume) a b)
  exact this

/-- Flux of the fine PSF in a square. -/
theorem fine_flux (n : ℕ) (otf : ℕ → ℕ → ℂ) (w p q : ℝ) :
    squareFlux w (fine n otf) p q =
      (hires n (withPixel otf fun a b => w * Rec.npSinc (w * angFreq n a / 2) * (w * Rec.npSinc (w * angFreq n b / 2))) p q).re := by
  unfold squareFlux fine
  have inner : ∀ s : ℝ, ∫ t in (q - w / 2)..(q + w / 2), (hires n otf s t).re =
      (∑ a ∈ range n, ∑ b ∈ range n, ((1 / (n:ℂ) ^ 2 * otf a b) * ((w * Rec.npSinc (w * angFreq n b / 2) : ℝ) * wave n b q)) * wave n a s).re := by
    intro s
    rw [int_re (hires_continuous n otf s)]
    simp only [hires_waves]
    congr 1
    have hcont : ∀ a b, IntervalIntegrable (fun t => (1 / (n:ℂ) ^ 2 * otf a b) * wave n a s * wave n b t) MeasureTheory.volume (q - w / 2) (q + w / 2) :=
      fun a b => ((continuous_const.mul (wave_continuous n b))).intervalIntegrable _ _
    rw [intervalIntegral.integral_finsetSum (fun a _ => by
      exact (continuous_finsetSum _ fun b _ => continuous_const.mul (wave_continuous n b)).intervalIntegrable _ _)]
    refine sum_congr rfl fun a _ => ?_
    rw [intervalIntegral.integral_finsetSum (fun b _ => hcont a b)]
    refine sum_congr rfl fun b _ => ?_
    rw [intervalIntegral.integral_const_mul, wave_box]
    ring
  simp only [inner]
  have hc : Continuous fun s : ℝ => ∑ a ∈ range n, ∑ b ∈ range n, ((1 / (n:ℂ) ^ 2 * otf a b) * ((w * Rec.npSinc (w * angFreq n b / 2) : ℝ) * wave n b q)) * wave n a s :=
    continuous_finsetSum _ fun a _ => continuous_finsetSum _ fun b _ => continuous_const.mul (wave_continuous n a)
  rw [int_re hc]
  simp only [hires_waves]
  congr 1
  rw [intervalIntegral.integral_finsetSum (fun a _ => by
      exact (continuous_finsetSum _ fun b _ => continuous_const.mul (wave_continuous n a)).intervalIntegrable _ _)]
  refine sum_congr rfl fun a _ => ?_
  rw [intervalIntegral.integral_finsetSum (fun b _ => by exact (continuous_const.mul (wave_continuous n a)).intervalIntegrable _ _)]
  refine sum_congr rfl fun b _ => ?_
  rw [intervalIntegral.integral_const_mul, wave_box]
  unfold withPixel
  push_cast
  ring

theorem withPixel_smul (n : ℕ) (otf : ℕ → ℕ → ℂ) (f : ℕ → ℕ → ℝ) (c p q : ℝ) :
    (hires n (withPixel otf fun a b => c * f a b) p q).re = c * (hires n (withPixel otf f) p q).re := by
  rw [← Complex.re_ofReal_mul]
  congr 1
  simp only [hires_waves, mul_sum]
  refine sum_congr rfl fun a _ => sum_congr rfl fun b _ => ?_
  unfold withPixel; push_cast; ring

theorem fine_mean (n : ℕ) (otf : ℕ → ℕ → ℂ) {w : ℝ} (hw : w ≠ 0) (p q : ℝ) :
    squareMean w (fine n otf) p q =
      fine n (withPixel otf fun a b => Rec.npSinc (w * angFreq n a / 2) * Rec.npSinc (w * angFreq n b / 2)) p q := by
  unfold squareMean
  rw [fine_flux, show (fun a b => w * Rec.npSinc (w * angFreq n a / 2) * (w * Rec.npSinc (w * angFreq n b / 2))) =
    (fun a b => w ^ 2 * (Rec.npSinc (w * angFreq n a / 2) * Rec.npSinc (w * angFreq n b / 2))) by funext a b; ring,
    withPixel_smul, mul_div_cancel_left₀ _ (pow_ne_zero 2 hw)]
  rfl

/-! ### C405 -/

/-- C405: in a reconstructed PSF (telemetry of an instrument) the pixel option blurs the fine PSF by a square of exactly one detector pixel, `k`
fine pixels wide, whatever the transfer function, the position, the wavelength, the pixel scale and the binning factor `k`. -/
theorem pixel_of_reconstruction (n : ℕ) (otf : ℕ → ℕ → ℂ) (k : ℕ) (hk : 0 < k) (wvl ps D : ℝ) (hw : 0 < wvl) (hps : 0 < ps)
    (hD : 0 < D) (p q : ℝ) :
    fine n (withPixel otf (psfrPixel false k wvl ps D n)) p q = squareMean k (fine n otf) p q := by
  rw [fine_mean n otf (by positivity : (k:ℝ) ≠ 0)]
  congr 2
  funext a b
  have e : D / wvl * sampRef k wvl ps D / 2 * ps = k / 2 := by unfold sampRef; field_simp
  simp only [psfrPixel, Rec.otfPixel, Bool.false_eq_true, if_false]
  rw [mul_assoc (angFreq n a), mul_assoc (angFreq n b), e, show angFreq n a * ((k:ℝ) / 2) = k * angFreq n a / 2 by ring,
    show angFreq n b * ((k:ℝ) / 2) = k * angFreq n b / 2 by ring]

/-- The option of the Fourier model blurs by a square of two fine pixels. -/
theorem pixel_option (n : ℕ) (otf : ℕ → ℕ → ℂ) (p q : ℝ) :
    fine n (withPixel otf (fourierPixel true n)) p q = squareMean 2 (fine n otf) p q := by
  rw [fine_mean n otf (by norm_num : (2:ℝ) ≠ 0)]
  congr 2
  funext a b
  simp only [fourierPixel, if_true]
  rw [show (2:ℝ) * angFreq n a / 2 = angFreq n a by ring, show (2:ℝ) * angFreq n b / 2 = angFreq n b by ring]

/-- A single frequency next to the centre. -/
noncomputable def ripple (h : ℕ) (c : ℂ) (a b : ℕ) : ℂ := if a = h + 1 ∧ b = h then c else 0

theorem angFreq_centre (h : ℕ) : angFreq (2 * h) h = 0 := by unfold angFreq; push_cast; ring
theorem angFreq_next (h : ℕ) (hh : 0 < h) : angFreq (2 * h) (h + 1) = 1 / h := by
  unfold angFreq; push_cast; field_simp; ring

theorem ripple_fine (h : ℕ) (hh : 2 ≤ h) (c : ℂ) (pix : ℕ → ℕ → ℝ) (p q : ℝ) :
    fine (2 * h) (withPixel (ripple h c) pix) p q =
      pix (h + 1) h * (c / ((2 * h : ℕ) : ℂ) ^ 2 * Complex.exp ((Real.pi * p / h : ℝ) * Complex.I)).re := by
  unfold fine
  rw [hires_waves, sum_eq_single (h + 1), sum_eq_single h]
  · unfold withPixel ripple wave
    rw [if_pos ⟨rfl, rfl⟩, angFreq_centre, angFreq_next h (by omega)]
    rw [← Complex.re_ofReal_mul]
    congr 1
    simp only [mul_zero, Complex.ofReal_zero, zero_mul, Complex.exp_zero, mul_one]
    rw [show ((Real.pi * (1 / (h:ℝ)) : ℝ) : ℂ) * Complex.I * (p : ℂ) = ((Real.pi * p / h : ℝ) : ℂ) * Complex.I by push_cast; ring]
    ring
  · intro b _ hb
    simp [withPixel, ripple, hb]
  · intro hn; exact absurd (mem_range.mpr (by omega)) hn
  · intro a _ ha
    refine sum_eq_zero fun b _ => ?_
    simp [withPixel, ripple, ha]
  · intro hn; exact absurd (mem_range.mpr (by omega)) hn

theorem withPixel_one (otf : ℕ → ℕ → ℂ) : withPixel otf (fun _ _ => 1) = otf := by
  funext a b; simp [withPixel]

/-- The sinc decreases strictly up to its first zero. -/
theorem npSinc_lt {x y : ℝ} (hx : 0 < x) (hxy : x < y) (hy : y ≤ 1) : Rec.npSinc y < Rec.npSinc x := by
  have hp := Real.pi_pos
  unfold Rec.npSinc
  have hy0 : 0 < y := hx.trans hxy
  rw [Real.sinc_of_ne_zero (by positivity), Real.sinc_of_ne_zero (by positivity)]
  have hne : (0:ℝ) ≠ Real.pi * y := (by positivity : (0:ℝ) < Real.pi * y).ne
  have ha : 0 < 1 - x / y := by rw [sub_pos, div_lt_one hy0]; exact hxy
  have hb : 0 < x / y := by positivity
  have h0 : (0:ℝ) ∈ Set.Icc 0 Real.pi := ⟨le_refl _, hp.le⟩
  have h1 : Real.pi * y ∈ Set.Icc 0 Real.pi := ⟨by positivity, by nlinarith⟩
  have := strictConcaveOn_sin_Icc.2 h0 h1 hne ha hb (by ring)
  simp only [smul_eq_mul, mul_zero, Real.sin_zero, zero_add] at this
  rw [show x / y * (Real.pi * y) = Real.pi * x by field_simp] at this
  rw [div_lt_div_iff₀ (by positivity) (by positivity)]
  have h2 := mul_lt_mul_of_pos_right this (by positivity : 0 < Real.pi * y)
  rw [show x / y * Real.sin (Real.pi * y) * (Real.pi * y) = Real.sin (Real.pi * y) * (Real.pi * x) by field_simp] at h2
  exact h2

theorem option_ripple (h : ℕ) : fourierPixel true (2 * h) (h + 1) h = Rec.npSinc (angFreq (2 * h) (h + 1)) := by
  simp [fourierPixel, angFreq_centre, Rec.npSinc]

/-- C406 (partial): the pixel option of the Fourier model blurs the fine PSF by a square of one detector pixel when the binning factor is two. -/
theorem pixel_option_partial (n : ℕ) (otf : ℕ → ℕ → ℂ) (p q : ℝ) :
    fine n (withPixel otf (fourierPixel true n)) p q = squareMean ((2:ℕ):ℝ) (fine n otf) p q := by
  rw [pixel_option]; norm_num

/-- C406 (violation): for any other binning factor (one included) the blur is not that of one detector pixel: there is a transfer function for
which the fine PSF in the centre differs. -/
theorem pixel_option_violation (h k : ℕ) (hh : 2 ≤ h) (hk : 1 ≤ k) (hkn : k ≤ 2 * h) (h2 : k ≠ 2) :
    ∃ otf : ℕ → ℕ → ℂ, fine (2 * h) (withPixel otf (fourierPixel true (2 * h))) 0 0 ≠
      squareMean k (fine (2 * h) otf) 0 0 := by
  refine ⟨ripple h (((2 * h : ℕ) : ℂ) ^ 2), ?_⟩
  have hh' : (0:ℝ) < h := by exact_mod_cast (by omega : 0 < h)
  have hc : ((2 * h : ℕ) : ℂ) ^ 2 ≠ 0 := pow_ne_zero 2 (by exact_mod_cast (by omega : 2 * h ≠ 0))
  rw [fine_mean _ _ (by positivity : (k:ℝ) ≠ 0), ripple_fine h hh, ripple_fine h hh, div_self hc, option_ripple, angFreq_centre,
    angFreq_next h (by omega)]
  simp only [mul_zero, zero_div, Rec.npSinc_zero, mul_one, Complex.ofReal_zero, zero_mul, Complex.exp_zero, Complex.one_re]
  have e : (k:ℝ) * (1 / h) / 2 = k / (2 * h) := by field_simp
  rw [e]
  have hk' : (1:ℝ) ≤ k := by exact_mod_cast hk
  have hkn' : (k:ℝ) ≤ 2 * h := by exact_mod_cast hkn
  have hh2 : (2:ℝ) ≤ h := by exact_mod_cast hh
  rcases lt_or_gt_of_ne h2 with h3 | h3
  · have h3' : (k:ℝ) < 2 := by exact_mod_cast h3
    exact (npSinc_lt (by positivity) (by rw [div_lt_div_iff₀ (by positivity) hh']; nlinarith) (by rw [div_le_one hh']; linarith)).ne
  · have h3' : (2:ℝ) < k := by exact_mod_cast h3
    exact (npSinc_lt (by positivity) (by rw [div_lt_div_iff₀ hh' (by positivity)]; nlinarith) (by rw [div_le_one (by positivity)]; exact hkn')).ne'

theorem dirichlet (θ φ : ℝ) (k : ℕ) :
    (∑ i ∈ range k, Real.cos (θ * i - φ)) * (2 * Real.sin (θ / 2)) = Real.sin (θ * k - θ / 2 - φ) + Real.sin (θ / 2 + φ) := by
  induction k with
  | zero =>
    simp only [range_zero, sum_empty, zero_mul, Nat.cast_zero, mul_zero, zero_sub]
    rw [show -(θ / 2) - φ = -(θ / 2 + φ) by ring, Real.sin_neg]; ring
  | succ k ih =>
    rw [sum_range_succ, add_mul, ih]
    have h1 : Real.sin (θ * ((k + 1 : ℕ) : ℝ) - θ / 2 - φ) = Real.sin ((θ * k - φ) + θ / 2) := by push_cast; ring_nf
    have h2 : Real.sin (θ * k - θ / 2 - φ) = Real.sin ((θ * k - φ) - θ / 2) := by ring_nf
    rw [h1, h2, Real.sin_add (θ * k - φ), Real.sin_sub (θ * k - φ)]; ring

/-- The test pattern: the harmonic which is at its maximum in the middle of the detector pixel. -/
noncomputable def pattern (h k : ℕ) : ℕ → ℕ → ℂ :=
  ripple h (((2 * h : ℕ) : ℂ) ^ 2 * Complex.exp ((-(Real.pi * ((k - 1) / 2) / h) : ℝ) * Complex.I))

theorem pattern_fine (h k : ℕ) (hh : 2 ≤ h) (pix : ℕ → ℕ → ℝ) (p q : ℝ) :
    fine (2 * h) (withPixel (pattern h k) pix) p q = pix (h + 1) h * Real.cos (Real.pi / h * p - Real.pi / h * ((k - 1) / 2)) := by
  have hc : ((2 * h : ℕ) : ℂ) ^ 2 ≠ 0 := pow_ne_zero 2 (by exact_mod_cast (by omega : 2 * h ≠ 0))
  unfold pattern
  rw [ripple_fine h hh, mul_div_cancel_left₀ _ hc, ← Complex.exp_add, ← add_mul, ← Complex.ofReal_add, Complex.exp_ofReal_mul_I_re]
  congr 2; ring

theorem pattern_binned (h k : ℕ) (hh : 2 ≤ h) (pix : ℕ → ℕ → ℝ) :
    binnedAt (2 * h) k (withPixel (pattern h k) pix) 0 0 * Real.sin (Real.pi / h / 2) =
      k * pix (h + 1) h * Real.sin (Real.pi / h * k / 2) := by
  unfold binnedAt
  simp only [pattern_fine h k hh, sum_const, card_range, nsmul_eq_mul, Int.cast_zero, zero_add]
  rw [← mul_sum, ← mul_sum]
  have := dirichlet (Real.pi / h) (Real.pi / h * ((k - 1) / 2)) k
  rw [show Real.pi / h * k - Real.pi / h / 2 - Real.pi / h * (((k:ℝ) - 1) / 2) = Real.pi / h * k / 2 by ring,
    show Real.pi / h / 2 + Real.pi / h * (((k:ℝ) - 1) / 2) = Real.pi / h * k / 2 by ring] at this
  linear_combination (k * pix (h + 1) h / 2) * this

theorem pattern_recorded (h k : ℕ) (hh : 2 ≤ h) (hk : 1 ≤ k) :
    recorded k (fine (2 * h) (pattern h k)) 0 0 = k ^ 2 * Rec.npSinc (k / (2 * h)) := by
  have hk' : (k:ℝ) ≠ 0 := by exact_mod_cast (by omega : k ≠ 0)
  have hh' : (0:ℝ) < h := by exact_mod_cast (by omega : 0 < h)
  unfold recorded
  have := fine_mean (2 * h) (pattern h k) hk' ((0:ℤ) + (k - 1) / 2) ((0:ℤ) + (k - 1) / 2)
  unfold squareMean at this
  rw [div_eq_iff (pow_ne_zero 2 hk')] at this
  rw [this, pattern_fine h k hh, angFreq_centre, angFreq_next h (by omega)]
  simp only [mul_zero, zero_div, Rec.npSinc_zero, mul_one, Int.cast_zero, zero_add, sub_self, Real.cos_zero]
  rw [show (k:ℝ) * (1 / h) / 2 = k / (2 * h) by field_simp]; ring

/-- Sine of the angles in play. -/
theorem sin_angle {h k : ℕ} (hk : 1 ≤ k) (hkn : k < 2 * h) : 0 < Real.sin (Real.pi * (k / (2 * h))) := by
  have hh' : (0:ℝ) < h := by exact_mod_cast (by omega : 0 < h)
  have hk' : (0:ℝ) < k := by exact_mod_cast hk
  have hkn' : (k:ℝ) < 2 * h := by exact_mod_cast hkn
  have hp := Real.pi_pos
  refine Real.sin_pos_of_pos_of_lt_pi (by positivity) ?_
  have : (k:ℝ) / (2 * h) < 1 := by rw [div_lt_one (by positivity)]; exact hkn'
  nlinarith

theorem recorded_sinc {h k : ℕ} (hk : 1 ≤ k) (hkn : k < 2 * h) :
    0 < Rec.npSinc (k / (2 * h)) ∧ Rec.npSinc (k / (2 * h)) * (Real.pi * (k / (2 * h))) = Real.sin (Real.pi * (k / (2 * h))) := by
  have hh' : (0:ℝ) < h := by exact_mod_cast (by omega : 0 < h)
  have hk' : (0:ℝ) < k := by exact_mod_cast hk
  have hp := Real.pi_pos
  have hx : 0 < Real.pi * ((k:ℝ) / (2 * h)) := by positivity
  unfold Rec.npSinc
  rw [Real.sinc_of_ne_zero hx.ne']
  exact ⟨div_pos (sin_angle hk hkn) hx, div_mul_cancel₀ _ hx.ne'⟩

/-- C407 (partial): without binning (`k = 1`) a reconstructed PSF with pixel holds what a detector records. -/
theorem recorded_once_partial (n : ℕ) (otf : ℕ → ℕ → ℂ) (wvl ps D : ℝ) (hw : 0 < wvl) (hps : 0 < ps) (hD : 0 < D) (p q : ℤ) :
    binnedAt n 1 (withPixel otf (psfrPixel false 1 wvl ps D n)) p q = recorded 1 (fine n otf) p q := by
  have := pixel_of_reconstruction n otf 1 one_pos wvl ps D hw hps hD p q
  simp only [binnedAt, range_one, sum_singleton, Nat.cast_zero, add_zero, this, squareMean, recorded]
  norm_num

/-- C407 (violation): with any binning (`k ≥ 2`) the pixel of a reconstructed PSF is counted twice, in the transfer function and by the binning:
there is a transfer function for which the pixel receives less than what a detector records. -/
theorem recorded_twice_violation (h k : ℕ) (hh : 2 ≤ h) (hk : 2 ≤ k) (hkn : k < 2 * h) (wvl ps D : ℝ) (hw : 0 < wvl)
    (hps : 0 < ps) (hD : 0 < D) :
    ∃ otf : ℕ → ℕ → ℂ, binnedAt (2 * h) k (withPixel otf (psfrPixel false k wvl ps D (2 * h))) 0 0 <
      recorded k (fine (2 * h) otf) 0 0 := by
  refine ⟨pattern h k, ?_⟩
  have hh' : (0:ℝ) < h := by exact_mod_cast (by omega : 0 < h)
  have hk' : (2:ℝ) ≤ k := by exact_mod_cast hk
  have hpix : psfrPixel false k wvl ps D (2 * h) (h + 1) h = Rec.npSinc (k / (2 * h)) := by
    have e : D / wvl * sampRef k wvl ps D / 2 * ps = k / 2 := by unfold sampRef; field_simp
    simp only [psfrPixel, Rec.otfPixel, Bool.false_eq_true, if_false]
    rw [mul_assoc, mul_assoc, e, angFreq_centre, angFreq_next h (by omega), zero_mul, Rec.npSinc_zero, mul_one]
    congr 1; field_simp
  have hb := pattern_binned h k hh (psfrPixel false k wvl ps D (2 * h))
  rw [hpix] at hb
  have h1 := sin_angle (h := h) (k := 1) le_rfl (by omega)
  rw [show Real.pi * (((1:ℕ):ℝ) / (2 * h)) = Real.pi / h / 2 by push_cast; field_simp] at h1
  obtain ⟨hs, hse⟩ := recorded_sinc (h := h) (k := k) (by omega) hkn
  obtain ⟨_, hse1⟩ := recorded_sinc (h := h) (k := 1) le_rfl (by omega)
  have hlt : Rec.npSinc (k / (2 * h)) < Rec.npSinc (((1:ℕ):ℝ) / (2 * h)) := by
    refine npSinc_lt (by positivity) ?_ ?_
    · push_cast
      rw [div_lt_div_iff_of_pos_right (by positivity)]; linarith
    · rw [div_le_one (by positivity)]; exact_mod_cast hkn.le
  rw [show Real.pi * (((1:ℕ):ℝ) / (2 * h)) = Real.pi / h / 2 by push_cast; field_simp] at hse1
  rw [show Real.pi * ((k:ℝ) / (2 * h)) = Real.pi / h * k / 2 by field_simp] at hse
  rw [pattern_recorded h k hh (by omega)]
  refine lt_of_mul_lt_mul_right ?_ h1.le
  rw [hb, ← hse, ← hse1]
  have hp := Real.pi_pos
  have : (k:ℝ) ^ 2 * Rec.npSinc (k / (2 * h)) * (Real.pi / h / 2) * Rec.npSinc (k / (2 * h)) <
      (k:ℝ) ^ 2 * Rec.npSinc (k / (2 * h)) * (Real.pi / h / 2) * Rec.npSinc (((1:ℕ):ℝ) / (2 * h)) :=
    mul_lt_mul_of_pos_left hlt (by positivity)
  calc _ = (k:ℝ) ^ 2 * Rec.npSinc (k / (2 * h)) * (Real.pi / h / 2) * Rec.npSinc (k / (2 * h)) := by ring
    _ < _ := this
    _ = _ := by ring

/-- C407 (violation): with the option of the Fourier model this happens for every binning factor, one included. -/
theorem option_never_recorded_violation (h k : ℕ) (hh : 2 ≤ h) (hk : 1 ≤ k) (hkn : k < 2 * h) :
    ∃ otf : ℕ → ℕ → ℂ, binnedAt (2 * h) k (withPixel otf (fourierPixel true (2 * h))) 0 0 <
      recorded k (fine (2 * h) otf) 0 0 := by
  refine ⟨pattern h k, ?_⟩
  have hh' : (0:ℝ) < h := by exact_mod_cast (by omega : 0 < h)
  have hk' : (1:ℝ) ≤ k := by exact_mod_cast hk
  have hp := Real.pi_pos
  have hb := pattern_binned h k hh (fourierPixel true (2 * h))
  rw [option_ripple, angFreq_next h (by omega)] at hb
  have h1 := sin_angle (h := h) (k := 1) le_rfl (by omega)
  rw [show Real.pi * (((1:ℕ):ℝ) / (2 * h)) = Real.pi / h / 2 by push_cast; field_simp] at h1
  obtain ⟨hs, hse⟩ := recorded_sinc (h := h) (k := k) (by omega) hkn
  obtain ⟨hs1, hse1⟩ := recorded_sinc (h := h) (k := 1) le_rfl (by omega)
  rw [show Real.pi * (((1:ℕ):ℝ) / (2 * h)) = Real.pi / h / 2 by push_cast; field_simp] at hse1
  rw [show Real.pi * ((k:ℝ) / (2 * h)) = Real.pi / h * k / 2 by field_simp] at hse
  have hlt : Rec.npSinc (1 / (h:ℝ)) < Rec.npSinc (((1:ℕ):ℝ) / (2 * h)) := by
    refine npSinc_lt (by positivity) ?_ ?_
    · push_cast
      rw [div_lt_div_iff₀ (by positivity) (by positivity)]; linarith
    · rw [div_le_one (by positivity)]; exact_mod_cast (by omega : 1 ≤ h)
  rw [pattern_recorded h k hh (by omega)]
  refine lt_of_mul_lt_mul_right ?_ h1.le
  rw [hb, ← hse, ← hse1]
  have : (k:ℝ) ^ 2 * Rec.npSinc (k / (2 * h)) * (Real.pi / h / 2) * Rec.npSinc (1 / (h:ℝ)) <
      (k:ℝ) ^ 2 * Rec.npSinc (k / (2 * h)) * (Real.pi / h / 2) * Rec.npSinc (((1:ℕ):ℝ) / (2 * h)) :=
    mul_lt_mul_of_pos_left hlt (by positivity)
  calc _ = (k:ℝ) ^ 2 * Rec.npSinc (k / (2 * h)) * (Real.pi / h / 2) * Rec.npSinc (1 / (h:ℝ)) := by ring
    _ < _ := this
    _ = _ := by ring

/-! ### C408 -/

theorem npSinc_abs (x : ℝ) : |Rec.npSinc x| ≤ 1 := Real.abs_sinc_le_one _

/-- C408: the transfer function of the pixel is one at zero frequency and never amplifies, in the Fourier model and in the
reconstruction; without the option it is one everywhere. -/
theorem pixel_attenuates (on : Bool) (k : ℕ) (wvl ps D : ℝ) (n a b : ℕ) :
    |fourierPixel on n a b| ≤ 1 ∧ |psfrPixel on k wvl ps D n a b| ≤ 1 ∧ fourierPixel on (2 * a) a a = 1 ∧
      psfrPixel on k wvl ps D (2 * a) a a = 1 ∧ fourierPixel false n a b = 1 ∧ psfrPixel true k wvl ps D n a b = 1 := by
  refine ⟨?_, ?_, ?_, ?_, rfl, rfl⟩
  · cases on
    · simp [fourierPixel]
    · simp only [fourierPixel, if_true, abs_mul]
      exact mul_le_one₀ (npSinc_abs _) (abs_nonneg _) (npSinc_abs _)
  · cases on
    · simp only [psfrPixel, Rec.otfPixel, Bool.false_eq_true, if_false, abs_mul]
      exact mul_le_one₀ (npSinc_abs _) (abs_nonneg _) (npSinc_abs _)
    · simp [psfrPixel]
  · cases on <;> simp [fourierPixel, angFreq_centre, Rec.npSinc]
  · cases on <;> simp [psfrPixel, Rec.otfPixel, angFreq_centre, Rec.npSinc]

/-- The instrument with the pixel option of the Fourier model. -/
noncomputable def withOption {N : ℕ} (I : Strehl.Instr N) (on : Bool) : Strehl.Instr N :=
  { I with pixel := fun x => fourierPixel on N x.1.val x.2.val }

/-- C408: the pixel option never raises the Strehl ratio reported beside the PSF. -/
theorem pixel_strehl {N : ℕ} [NeZero N] (I : Strehl.Instr N) (sf : Rec.Pix N → ℝ) (wvl : ℝ) (otfDL : Rec.Pix N → ℝ)
    (hdl : 0 < ∑ x, otfDL x) :
    Strehl.sr (withOption I true) sf wvl otfDL ≤ Strehl.sr (withOption I false) sf wvl otfDL := by
  unfold Strehl.sr
  refine div_le_div_of_nonneg_right (mul_le_mul_of_nonneg_left (sum_le_sum fun x _ => ?_) (by norm_num)) hdl.le
  unfold Strehl.otfTot withOption
  simp only [norm_mul, Complex.norm_real]
  refine mul_le_mul_of_nonneg_right (mul_le_mul_of_nonneg_left ?_ (norm_nonneg _)) (norm_nonneg _)
  have h1 := (pixel_attenuates true 1 1 1 1 N x.1.val x.2.val).1
  refine mul_le_mul_of_nonneg_left ?_ (by positivity)
  simpa [fourierPixel] using h1

/-- The sinc is one at zero only. -/
theorem npSinc_lt_one {x : ℝ} (hx : x ≠ 0) : |Rec.npSinc x| < 1 := by
  have hp : Real.pi * x ≠ 0 := mul_ne_zero Real.pi_ne_zero hx
  unfold Rec.npSinc
  rw [Real.sinc_of_ne_zero hp, abs_div, div_lt_one (abs_pos.mpr hp)]
  exact Real.abs_sin_lt_abs hp

/-- C408: the Strehl ratio is strictly lower as soon as one frequency other than zero is transmitted. -/
theorem pixel_strehl_strict {h : ℕ} [NeZero (2 * h)] (I : Strehl.Instr (2 * h)) (sf : Rec.Pix (2 * h) → ℝ) (wvl : ℝ)
    (otfDL : Rec.Pix (2 * h) → ℝ) (hdl : 0 < ∑ x, otfDL x) (x : Rec.Pix (2 * h)) (hx : x.1.val ≠ h ∨ x.2.val ≠ h)
    (ht : Strehl.otfTot (withOption I false) sf wvl x ≠ 0) :
    Strehl.sr (withOption I true) sf wvl otfDL < Strehl.sr (withOption I false) sf wvl otfDL := by
  unfold Strehl.sr
  have key : ∀ y : Rec.Pix (2 * h), ‖Strehl.otfTot (withOption I true) sf wvl y‖ =
      |fourierPixel true (2 * h) y.1.val y.2.val| * ‖Strehl.otfTot (withOption I false) sf wvl y‖ := by
    intro y
    unfold Strehl.otfTot withOption
    simp only [norm_mul, Complex.norm_real, Real.norm_eq_abs, fourierPixel, if_true, Bool.false_eq_true, if_false, abs_mul, abs_one]
    ring
  have hn0 : (0:ℝ) < h := by
    have := NeZero.ne (2 * h)
    exact_mod_cast (by omega : 0 < h)
  have hf : ∀ a : ℕ, a ≠ h → angFreq (2 * h) a ≠ 0 := by
    intro a ha
    unfold angFreq
    have : (a:ℝ) - (2 * h : ℕ) / 2 ≠ 0 := by
      push_cast
      rw [mul_div_cancel_left₀ _ (by norm_num : (2:ℝ) ≠ 0), sub_ne_zero]
      exact_mod_cast ha
    have h2 : ((2 * h : ℕ) : ℝ) ≠ 0 := by push_cast; positivity
    exact div_ne_zero (mul_ne_zero this two_ne_zero) h2
  have hlt : |fourierPixel true (2 * h) x.1.val x.2.val| < 1 := by
    simp only [fourierPixel, if_true, abs_mul]
    rcases hx with h1 | h1
    · exact mul_lt_one_of_nonneg_of_lt_one_left (abs_nonneg _) (npSinc_lt_one (hf _ h1)) (npSinc_abs _)
    · exact mul_lt_one_of_nonneg_of_lt_one_right (npSinc_abs _) (abs_nonneg _) (npSinc_lt_one (hf _ h1))
  refine div_lt_div_of_pos_right (mul_lt_mul_of_pos_left (sum_lt_sum (fun y _ => ?_) ⟨x, mem_univ _, ?_⟩) (by norm_num)) hdl
  · rw [key]
    exact mul_le_of_le_one_left (norm_nonneg _) (pixel_attenuates true 1 1 1 1 (2 * h) y.1.val y.2.val).1
  · rw [key]
    exact mul_lt_of_lt_one_left (norm_pos_iff.mpr ht) hlt

/-! ### Cases that meet the hypotheses -/

example : fine 4 (withPixel (fun _ _ => 1) (psfrPixel false 3 1e-6 1e-8 8 4)) (1 / 2) 1 =
    squareMean ((3:ℕ):ℝ) (fine 4 fun _ _ => 1) (1 / 2) 1 :=
  pixel_of_reconstruction 4 _ 3 (by norm_num) _ _ _ (by norm_num) (by norm_num) (by norm_num) _ _

example : ∃ otf : ℕ → ℕ → ℂ, fine (2 * 8) (withPixel otf (fourierPixel true (2 * 8))) 0 0 ≠
    squareMean ((1:ℕ):ℝ) (fine (2 * 8) otf) 0 0 :=
  pixel_option_violation 8 1 (by norm_num) (by norm_num) (by norm_num) (by norm_num)

example : ∃ otf : ℕ → ℕ → ℂ, binnedAt (2 * 8) 2 (withPixel otf (psfrPixel false 2 1e-6 1e-8 8 (2 * 8))) 0 0 <
    recorded 2 (fine (2 * 8) otf) 0 0 :=
  recorded_twice_violation 8 2 (by norm_num) (by norm_num) (by norm_num) _ _ _ (by norm_num) (by norm_num) (by norm_num)

example : ∃ otf : ℕ → ℕ → ℂ, binnedAt (2 * 8) 1 (withPixel otf (fourierPixel true (2 * 8))) 0 0 <
    recorded 1 (fine (2 * 8) otf) 0 0 :=
  option_never_recorded_violation 8 1 (by norm_num) (by norm_num) (by norm_num)

example : Strehl.sr (withOption (⟨fun _ => 1, fun _ => 1, fun _ => 1, fun _ => 1⟩ : Strehl.Instr (2 * 2)) true) (fun _ => 0) 1e-6 (fun _ => 1) <
    Strehl.sr (withOption (⟨fun _ => 1, fun _ => 1, fun _ => 1, fun _ => 1⟩ : Strehl.Instr (2 * 2)) false) (fun _ => 0) 1e-6 (fun _ => 1) := by
  refine pixel_strehl_strict _ _ _ _ (sum_pos (fun _ _ => one_pos) univ_nonempty) (1, 1) (Or.inl (by decide)) ?_
  simp [Strehl.otfTot, withOption, fourierPixel, Strehl.otfTurb]

end P3.Pixel
