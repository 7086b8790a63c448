import Verif.Model.Atmosphere
import Verif.Model.Spectra
import Verif.Props.Controller
import Verif.Props.Psd
import Verif.Props.Psf
namespace P3.Spectra
open Finset P3.Fourier P3.Tomo
/-- The sensor measures the frequency: it is not zero and no sub-aperture averages it out. -/
def Seen (s : Sys) (k : ℝ × ℝ) : Prop :=
  s.dsub ≠ 0 ∧ k ≠ (0, 0) ∧ npSinc (s.dsub * k.1) ≠ 0 ∧ npSinc (s.dsub * k.2) ≠ 0

theorem norm_av (s : Sys) (k : ℝ × ℝ) : ‖s.av k‖ = |npSinc (s.dsub * k.1) * npSinc (s.dsub * k.2)| := by
  unfold Sys.av
  rw [norm_mul, Complex.norm_exp_ofReal_mul_I, mul_one, Complex.norm_real, Real.norm_eq_abs]

theorem gPSD_eq (s : Sys) (k : ℝ × ℝ) (r : ℝ) : gPSD (s.sx k) (s.sy k) r =
    (2 * Real.pi * s.dsub) ^ 2 * (k.1 ^ 2 + k.2 ^ 2) * ‖s.av k‖ ^ 2 + r := by
  unfold gPSD Sys.sx Sys.sy shResponse
  rw [norm_mul, norm_mul, norm_mul, norm_mul, Complex.norm_I, Complex.norm_real, Complex.norm_real, Real.norm_eq_abs,
    Real.norm_eq_abs, mul_one, mul_one, mul_pow, mul_pow, sq_abs, sq_abs]
  ring

theorem seen_pos (s : Sys) (k : ℝ × ℝ) (h : Seen s k) :
    0 < (2 * Real.pi * s.dsub) ^ 2 * (k.1 ^ 2 + k.2 ^ 2) * ‖s.av k‖ ^ 2 := by
  obtain ⟨hd, hk, h1, h2⟩ := h
  have hp := Real.pi_pos
  have a : 0 < ‖s.av k‖ := by
    rw [norm_av]; exact abs_pos.2 (mul_ne_zero h1 h2)
  have b : 0 < k.1 ^ 2 + k.2 ^ 2 := by
    by_contra hc
    apply hk
    have e1 : k.1 = 0 := by nlinarith [sq_nonneg k.1, sq_nonneg k.2]
    have e2 : k.2 = 0 := by nlinarith [sq_nonneg k.1, sq_nonneg k.2]
    exact Prod.ext e1 e2
  have : 2 * Real.pi * s.dsub ≠ 0 := by simp [hd, hp.ne']
  positivity

theorem reg_zero (s : Sys) (k : ℝ × ℝ) (h : s.mv = 0) : s.reg k = 0 := by simp [Sys.reg, h]

theorem rx_seen (s : Sys) (k : ℝ × ℝ) (h : Seen s k) (hm : s.mv = 0) :
    s.rx false k = some ((starRingEnd ℂ) (s.sx k) / gPSD (s.sx k) (s.sy k) 0) ∧
    s.ry false k = some ((starRingEnd ℂ) (s.sy k) / gPSD (s.sx k) (s.sy k) 0) := by
  have hg : gPSD (s.sx k) (s.sy k) 0 ≠ 0 := by rw [gPSD_eq, add_zero]; exact (seen_pos s k h).ne'
  unfold Sys.rx Sys.ry recon
  rw [reg_zero s k hm]
  simp [hg]

theorem loop_seen (s : Sys) (k : ℝ × ℝ) (h : Seen s k) (hm : s.mv = 0) (rx ry : ℂ) (hx : s.rx false k = some rx)
    (hy : s.ry false k = some ry) : loopF rx ry (s.sx k) (s.sy k) = 1 := by
  unfold Sys.rx at hx
  unfold Sys.ry at hy
  rw [reg_zero s k hm] at hx hy
  exact recon_inverse _ _ _ _ hx hy

theorem st_seen (s : Sys) (th k : ℝ × ℝ) (h : Seen s k) (hm : s.mv = 0) (hg : s.gain ≠ 0) :
    s.stPsd th false k = some (msk (s.inside k) * (1 + s.h2 k - 2 * (s.h1 k * s.decorr th k).re) * s.watm false k) := by
  obtain ⟨hx, hy⟩ := rx_seen s k h hm
  unfold Sys.stPsd
  have hF := loop_seen s k h hm _ _ hx hy
  rw [hx, hy]
  simp only [Option.bind_some]
  rw [hF]
  simp [spatioTemporal, hg]

theorem h_expand (s : Sys) (k : ℝ × ℝ) : s.h1 k = ∑ l ∈ range s.nL, (s.w l : ℂ) * s.atf k l ∧
    s.h2 k = ∑ l ∈ range s.nL, s.w l * ‖s.atf k l‖ ^ 2 := by
  unfold Sys.h1 Sys.h2 Fourier.h1 Fourier.h2
  constructor <;> refine sum_congr rfl fun l _ => ?_ <;> simp

/-- C353: towards the guide star, with the least-squares reconstructor, the residual turbulence of a frequency that the
sensor measures is that of the layers filtered by the rejection transfer function of the loop, each at the temporal
frequency at which the wind carries the pattern over the pupil. -/
theorem servoLag_rejection (s : Sys) (k : ℝ × ℝ) (h : Seen s k) (hm : s.mv = 0) (hg : s.gain ≠ 0) (he : 0 < s.eps)
    (hw : ∑ l ∈ range s.nL, s.w l = 1)
    (hd : ∀ l < s.nL, s.eps ≤ ‖1 + openLoop s.eps s.gain s.delay (s.z k l)‖) :
    s.stPsd (0, 0) false k = some (msk (s.inside k) *
      (∑ l ∈ range s.nL, s.w l * ‖rtf s.eps s.gain s.delay (s.z k l)‖ ^ 2) * s.watm false k) := by
  rw [st_seen s _ k h hm hg]
  have hA : s.decorr (0, 0) k = 1 := by simp [Sys.decorr, Fourier.decorr]
  congr 2
  congr 1
  obtain ⟨e1, e2⟩ := h_expand s k
  rw [hA, mul_one, e1, e2, Complex.re_sum]
  have : ∀ l ∈ range s.nL, s.w l * ‖rtf s.eps s.gain s.delay (s.z k l)‖ ^ 2 =
      s.w l + s.w l * ‖s.atf k l‖ ^ 2 - 2 * ((s.w l : ℂ) * s.atf k l).re := by
    intro l hl
    have hr : rtf s.eps s.gain s.delay (s.z k l) = 1 - s.atf k l :=
      eq_sub_of_add_eq ((rtf_add_atf _ _ _ _ he).1 (hd l (mem_range.1 hl)))
    rw [hr, ← Complex.normSq_eq_norm_sq, ← Complex.normSq_eq_norm_sq, Complex.normSq_apply, Complex.normSq_apply]
    simp
    ring
  rw [sum_congr rfl this, sum_sub_distrib, sum_add_distrib, hw, mul_sum]

theorem z_still (s : Sys) (k : ℝ × ℝ) (l : ℕ) (hv : s.speed l = 0) : s.z k l = 1 := by
  simp [Sys.z, Sys.tfreq, Sys.vx, Sys.vy, hv, zOf]

theorem still_loop (s : Sys) (k : ℝ × ℝ) (l : ℕ) (hv : s.speed l = 0) (he : 0 < s.eps) :
    openLoop s.eps s.gain s.delay (s.z k l) = (s.gain / s.eps : ℝ) := by
  rw [z_still s k l hv]
  simp [openLoop, hInt, guardD, he]

/-- C353: turbulence that does not move is corrected: the residual is the fraction `(eps/(eps+gain))²`, `eps` being the
machine precision. -/
theorem static_corrected (s : Sys) (k : ℝ × ℝ) (h : Seen s k) (hm : s.mv = 0) (hg : 0 < s.gain) (he : 0 < s.eps)
    (he1 : s.eps ≤ 1) (hw : ∑ l ∈ range s.nL, s.w l = 1) (hv : ∀ l < s.nL, s.speed l = 0) :
    s.stPsd (0, 0) false k = some (msk (s.inside k) * ((s.eps / (s.eps + s.gain)) ^ 2 * s.watm false k)) := by
  have hn : ∀ l < s.nL, ‖(1 : ℂ) + openLoop s.eps s.gain s.delay (s.z k l)‖ = (s.eps + s.gain) / s.eps := by
    intro l hl
    rw [still_loop s k l (hv l hl) he]
    have : (1 : ℂ) + ((s.gain / s.eps : ℝ) : ℂ) = ((1 + s.gain / s.eps : ℝ) : ℂ) := by push_cast; ring
    rw [this, Complex.norm_real, Real.norm_of_nonneg (by positivity)]
    field_simp
  have h1 : 1 ≤ (s.eps + s.gain) / s.eps := by rw [le_div_iff₀ he]; linarith
  have hd : ∀ l < s.nL, s.eps ≤ ‖1 + openLoop s.eps s.gain s.delay (s.z k l)‖ := by
    intro l hl
    rw [hn l hl]; linarith
  rw [servoLag_rejection s k h hm hg.ne' he hw hd]
  have : ∀ l ∈ range s.nL, s.w l * ‖rtf s.eps s.gain s.delay (s.z k l)‖ ^ 2 = s.w l * (s.eps / (s.eps + s.gain)) ^ 2 := by
    intro l hl
    have hl := mem_range.1 hl
    unfold rtf guardD
    rw [if_neg (not_lt.2 (hd l hl)), norm_div, hn l hl]
    simp
  rw [sum_congr rfl this, ← sum_mul, hw, one_mul, mul_assoc]

/-- C353: away from the guide star, turbulence that does not move leaves the anisoplanatism error that is reported
alone, up to the factor `gain/(gain+eps)`. -/
theorem static_off_axis (s : Sys) (th k : ℝ × ℝ) (h : Seen s k) (hm : s.mv = 0) (hg : 0 < s.gain) (he : 0 < s.eps)
    (he1 : s.eps ≤ 1) (hw : ∑ l ∈ range s.nL, s.w l = 1) (hv : ∀ l < s.nL, s.speed l = 0) :
    s.stPsd th false k = some (msk (s.inside k) * ((s.eps / (s.eps + s.gain)) ^ 2 * s.watm false k) +
      s.gain / (s.gain + s.eps) * s.aniPsd th false k) := by
  have ha : ∀ l ∈ range s.nL, s.atf k l = ((s.gain / (s.gain + s.eps) : ℝ) : ℂ) := by
    intro l hl
    have hl := mem_range.1 hl
    unfold Sys.atf Fourier.atf rtf guardD
    rw [still_loop s k l (hv l hl) he]
    have e : (1 : ℂ) + ((s.gain / s.eps : ℝ) : ℂ) = ((1 + s.gain / s.eps : ℝ) : ℂ) := by push_cast; ring
    have p : 0 < s.gain / s.eps := by positivity
    rw [e, Complex.norm_real, Real.norm_of_nonneg (by positivity), if_neg (by push Not; linarith)]
    norm_cast
    field_simp
    ring
  obtain ⟨e1, e2⟩ := h_expand s k
  have H1 : s.h1 k = ((s.gain / (s.gain + s.eps) : ℝ) : ℂ) := by
    rw [e1, sum_congr rfl fun l hl => by rw [ha l hl], ← sum_mul]
    have : ∑ l ∈ range s.nL, (s.w l : ℂ) = 1 := by exact_mod_cast congrArg (fun x : ℝ => (x : ℂ)) hw
    rw [this, one_mul]
  have H2 : s.h2 k = (s.gain / (s.gain + s.eps)) ^ 2 := by
    rw [e2, sum_congr rfl fun l hl => by rw [ha l hl, Complex.norm_real, Real.norm_eq_abs, sq_abs], ← sum_mul, hw, one_mul]
  rw [st_seen s th k h hm hg.ne', H1, H2]
  have hs : s.gain + s.eps ≠ 0 := by positivity
  have hs' : s.eps + s.gain ≠ 0 := by positivity
  congr 1
  by_cases ht : th = (0, 0)
  · subst ht
    have hA : s.decorr (0, 0) k = 1 := by simp [Sys.decorr, Fourier.decorr]
    rw [hA, mul_one, Complex.ofReal_re]
    simp only [Sys.aniPsd, anisoPsd, and_self, if_true]
    field_simp
    ring
  · have ht' : ¬ (th.1 = 0 ∧ th.2 = 0) := fun hh => ht (Prod.ext hh.1 hh.2)
    have hA : (s.decorr th k).re = 1 - ∑ l ∈ range s.nL, s.w l *
        (1 - Real.cos (2 * Real.pi * s.hs l * (k.1 * th.2 + k.2 * th.1))) := by
      simp only [Sys.decorr, Fourier.decorr, ht, decide_false, Bool.false_eq_true, if_false, Complex.re_sum, mul_sub, mul_one,
        sum_sub_distrib, hw, sub_sub_cancel]
      refine sum_congr rfl fun l _ => ?_
      rw [Complex.re_ofReal_mul, Complex.exp_ofReal_mul_I_re]
      ring_nf
    rw [Complex.re_ofReal_mul, hA]
    simp only [Sys.aniPsd, anisoPsd, ht', if_false]
    have e : ∑ l ∈ range s.nL, 2 * s.w l * (1 - Real.cos (2 * Real.pi * s.hs l * (k.1 * th.2 + k.2 * th.1))) =
        2 * ∑ l ∈ range s.nL, s.w l * (1 - Real.cos (2 * Real.pi * s.hs l * (k.1 * th.2 + k.2 * th.1))) := by
      rw [mul_sum]; exact sum_congr rfl fun l _ => by ring
    rw [e, add_comm s.eps s.gain]
    generalize ∑ l ∈ range s.nL, s.w l * (1 - Real.cos (2 * Real.pi * s.hs l * (k.1 * th.2 + k.2 * th.1))) = S
    field_simp
    ring


/-! ### Noise -/

/-- C354: the noise spectrum of a Shack-Hartmann sensor: the variance times the gain of the loop, divided by the squared
response of the sensor, so it falls with the square of the frequency and rises where the sub-apertures average. -/
theorem noise_shack (s : Sys) (ng : ℝ) (k : ℝ × ℝ) (h : Seen s k) (hm : s.mv = 0) :
    s.noisePsd ng false k = some (msk (s.inside k) *
      (s.var * ng / ((2 * s.kc) ^ 2 * ((2 * Real.pi * s.dsub) ^ 2 * (k.1 ^ 2 + k.2 ^ 2) *
        (npSinc (s.dsub * k.1) * npSinc (s.dsub * k.2)) ^ 2)) * Psf.pistonFilter s.D (kmod k))) := by
  obtain ⟨hx, hy⟩ := rx_seen s k h hm
  have hp := seen_pos s k h
  unfold Sys.noisePsd
  rw [hx, hy]
  simp only [Option.bind_some]
  congr 1
  have e : ((starRingEnd ℂ) (s.sx k) / gPSD (s.sx k) (s.sy k) 0) ^ 2 + ((starRingEnd ℂ) (s.sy k) / gPSD (s.sx k) (s.sy k) 0) ^ 2 =
      (starRingEnd ℂ) (-(((2 * Real.pi * s.dsub) ^ 2 * (k.1 ^ 2 + k.2 ^ 2) : ℝ) : ℂ) * s.av k ^ 2) / ((gPSD (s.sx k) (s.sy k) 0 : ℝ) : ℂ) ^ 2 := by
    rw [div_pow, div_pow, ← add_div, ← map_pow, ← map_pow, ← map_add]
    congr 2
    unfold Sys.sx Sys.sy shResponse
    push_cast
    linear_combination ((2 * Real.pi * k.1 * s.dsub) ^ 2 * s.av k ^ 2 + (2 * Real.pi * k.2 * s.dsub) ^ 2 * s.av k ^ 2 : ℂ) * Complex.I_sq
  unfold noiseScao
  rw [e, norm_div, RCLike.norm_conj, norm_mul, norm_neg, norm_pow, norm_pow, Complex.norm_real, Complex.norm_real, gPSD_eq, add_zero]
  rw [Real.norm_of_nonneg (show (0:ℝ) ≤ (2 * Real.pi * s.dsub) ^ 2 * (k.1 ^ 2 + k.2 ^ 2) by positivity),
    Real.norm_of_nonneg hp.le, ← sq_abs (npSinc (s.dsub * k.1) * npSinc (s.dsub * k.2)), ← norm_av]
  simp only [Sys.piston, Bool.false_eq_true, if_false]
  generalize (2 * Real.pi * s.dsub) ^ 2 * (k.1 ^ 2 + k.2 ^ 2) * ‖s.av k‖ ^ 2 = G at *
  by_cases hk : (2 * s.kc) ^ 2 = 0
  · rw [hk]; simp
  · field_simp

/-- C354: when a sub-aperture is as large as an actuator pitch (`2 kc d = 1`), this is the variance divided by the squared
gain of the sensor that the reconstruction with several guide stars uses. -/
theorem noise_convention (s : Sys) (ng : ℝ) (k : ℝ × ℝ) (h : Seen s k) (hm : s.mv = 0) (hp : 2 * s.kc * s.dsub = 1) :
    s.noisePsd ng false k = some (msk (s.inside k) * (s.var * ng / ‖meas s.dsub k‖ ^ 2 * Psf.pistonFilter s.D (kmod k))) := by
  rw [noise_shack s ng k h hm]
  congr 3
  congr 1
  have e : ‖meas s.dsub k‖ ^ 2 = (2 * Real.pi) ^ 2 * (k.1 ^ 2 + k.2 ^ 2) * (npSinc (s.dsub * k.1) * npSinc (s.dsub * k.2)) ^ 2 := by
    unfold meas
    rw [norm_mul, Complex.norm_I, mul_one, Complex.norm_real, Real.norm_eq_abs, sq_abs]
    unfold kmod
    rw [mul_pow, mul_pow, mul_pow, mul_pow, Real.sq_sqrt (by positivity)]
    ring
  have h2 : (2 * s.kc) ^ 2 * s.dsub ^ 2 = 1 := by rw [← mul_pow, hp, one_pow]
  have hden : (2 * s.kc) ^ 2 * ((2 * Real.pi * s.dsub) ^ 2 * (k.1 ^ 2 + k.2 ^ 2) *
      (npSinc (s.dsub * k.1) * npSinc (s.dsub * k.2)) ^ 2) =
      (2 * Real.pi) ^ 2 * (k.1 ^ 2 + k.2 ^ 2) * (npSinc (s.dsub * k.1) * npSinc (s.dsub * k.2)) ^ 2 := by
    linear_combination ((2 * Real.pi) ^ 2 * (k.1 ^ 2 + k.2 ^ 2) * (npSinc (s.dsub * k.1) * npSinc (s.dsub * k.2)) ^ 2) * h2
  rw [e, hden]

/-! ### Directions -/

/-- The factor by which the correction of a pattern decorrelates towards a source at `th`: the layers at height `h` are
crossed `h*th` away from where the sensor sees them, with the axes of the wind (`vx kx + vy ky`). -/
noncomputable def expectedDecorr (s : Sys) (th k : ℝ × ℝ) : ℂ :=
  ∑ l ∈ range s.nL, (s.w l : ℂ) * Complex.exp (2 * Real.pi * Complex.I * (s.hs l * th.1 * k.1 + s.hs l * th.2 * k.2))

/-- C355 (partial): the factor used is that of the direction with its two components exchanged. Missing: the direction
itself (see `separation_violation`). -/
theorem decorr_exchanged_partial (s : Sys) (th k : ℝ × ℝ) (hw : ∑ l ∈ range s.nL, s.w l = 1) :
    s.decorr th k = expectedDecorr s (th.2, th.1) k ∧ (th.1 = th.2 → s.decorr th k = expectedDecorr s th k) := by
  have e : s.decorr th k = expectedDecorr s (th.2, th.1) k := by
    unfold Sys.decorr Fourier.decorr expectedDecorr
    by_cases h : th = (0, 0)
    · subst h
      simp only [decide_true, if_true, Complex.ofReal_zero, mul_zero, zero_mul, add_zero, Complex.exp_zero, mul_one]
      exact_mod_cast (congrArg (fun x : ℝ => (x : ℂ)) hw).symm
    · simp only [h, decide_false, Bool.false_eq_true, if_false]
      refine sum_congr rfl fun l _ => ?_
      congr 2
      push_cast
      ring
  refine ⟨e, fun h => ?_⟩
  rw [e]
  congr 1
  exact Prod.ext h.symm h

/-- With several guide stars the direction is used as it is: the tomographic projector of a still layer is the factor
expected. -/
theorem tomography_direction (s : Sys) {g : ℕ} (v : Wind g 1) (hv : v.delay = 0) (h1 : s.nL = 1) (hw : s.w 0 = 1)
    (th k : ℝ × ℝ) : pBetaL v (fun _ => s.hs 0) th k 0 0 = expectedDecorr s th k := by
  unfold expectedDecorr pBetaL phasor
  rw [h1, sum_range_one, hw]
  simp only [Matrix.of_apply, hv]
  push_cast
  rw [one_mul]
  congr 1
  ring

/-- C355 (violation): a source separated from the guide star along x gets the spectrum of the guide star at the
frequencies along x, however far it is; with tomography (and the expected factor) these are the frequencies that
decorrelate. At the frequencies along y, which should not, the error is positive. -/
theorem separation_violation (s : Sys) (t q : ℝ) (hw : ∑ l ∈ range s.nL, s.w l = 1) :
    s.stPsd (t, 0) false (q, 0) = s.stPsd (0, 0) false (q, 0) ∧
    expectedDecorr s (t, 0) (0, q) = 1 ∧
    s.decorr (t, 0) (0, q) = expectedDecorr s (t, 0) (q, 0) ∧
    (s.nL = 1 → s.w 0 = 1 → s.hs 0 * t * q = 1 / 2 → s.decorr (t, 0) (0, q) = -1) := by
  have o : ∀ k, expectedDecorr s (0, 0) k = 1 := by
    intro k
    unfold expectedDecorr
    simp only [Complex.ofReal_zero, mul_zero, zero_mul, add_zero, Complex.exp_zero, mul_one]
    exact_mod_cast congrArg (fun x : ℝ => (x : ℂ)) hw
  have hd : s.decorr (t, 0) (q, 0) = s.decorr (0, 0) (q, 0) := by
    rw [(decorr_exchanged_partial s _ _ hw).1, (decorr_exchanged_partial s _ _ hw).1, o]
    unfold expectedDecorr
    simp only [Complex.ofReal_zero, mul_zero, zero_mul, add_zero, Complex.exp_zero, mul_one]
    exact_mod_cast congrArg (fun x : ℝ => (x : ℂ)) hw
  have hx : s.decorr (t, 0) (0, q) = expectedDecorr s (t, 0) (q, 0) := by
    rw [(decorr_exchanged_partial s _ _ hw).1]
    unfold expectedDecorr
    refine sum_congr rfl fun l _ => ?_
    congr 2
    push_cast
    ring
  refine ⟨?_, ?_, hx, ?_⟩
  · unfold Sys.stPsd; rw [hd]
  · unfold expectedDecorr
    simp only [Complex.ofReal_zero, mul_zero, zero_mul, add_zero, Complex.exp_zero, mul_one]
    exact_mod_cast congrArg (fun x : ℝ => (x : ℂ)) hw
  · intro h1 hw1 hh
    rw [hx]
    unfold expectedDecorr
    rw [h1, sum_range_one, hw1]
    have : (2 * Real.pi * Complex.I * (s.hs 0 * ((t, (0:ℝ)).1 : ℝ) * ((q, (0:ℝ)).1 : ℝ) + s.hs 0 * ((t, (0:ℝ)).2 : ℝ) * ((q, (0:ℝ)).2 : ℝ)) : ℂ) =
        Real.pi * Complex.I := by
      have hc : (s.hs 0 * t * q : ℂ) = 1 / 2 := by
        have := congrArg (fun x : ℝ => (x : ℂ)) hh
        push_cast at this
        exact this
      simp only [Complex.ofReal_zero, mul_zero, add_zero]
      rw [hc]; ring
    rw [this, Complex.exp_pi_mul_I]; simp

/-! ### Differential refraction -/

theorem kmod_cos_arg (k : ℝ × ℝ) (a : ℝ) : kmod k * Real.cos (Complex.arg ⟨k.1, k.2⟩ - a) =
    k.1 * Real.cos a + k.2 * Real.sin a := by
  have hn : ‖(⟨k.1, k.2⟩ : ℂ)‖ = kmod k := by
    rw [Complex.norm_def, Complex.normSq_mk]; unfold kmod; congr 1; ring
  have hc := Complex.norm_mul_cos_arg (⟨k.1, k.2⟩ : ℂ)
  have hs := Complex.norm_mul_sin_arg (⟨k.1, k.2⟩ : ℂ)
  rw [hn] at hc hs
  rw [Real.cos_sub, mul_add, ← mul_assoc, ← mul_assoc, hc, hs]

/-- What differential refraction should give for a source of azimuth `az` in degrees: the layer at height `h` is
crossed with an offset `h tan θ` along the azimuth. -/
noncomputable def expectedRefraction (s : Sys) (azDeg : ℝ) (k : ℝ × ℝ) : ℝ :=
  msk (s.inside k) * (∑ l ∈ range s.nL, 2 * s.w l * (1 - Real.cos (2 * Real.pi * s.hs l *
    Real.tan ((s.nRef - s.nGs) * Real.tan (s.zenith * Real.pi / 180)) *
    (k.1 * Real.cos (azDeg * Real.pi / 180) + k.2 * Real.sin (azDeg * Real.pi / 180))))) * s.watm false k

/-- C356 (partial): the refraction computed is that of the azimuth `180/π` times larger, so it is right for an azimuth of
zero; missing: other azimuths. -/
theorem refraction_azimuth_partial (s : Sys) (az : ℝ) (k : ℝ × ℝ) (hz : s.zenith ≠ 0) :
    s.diffRefPsd az false k = expectedRefraction s (az * 180 / Real.pi) k ∧
    s.diffRefPsd 0 false k = expectedRefraction s 0 k := by
  have h : ∀ az, s.diffRefPsd az false k = expectedRefraction s (az * 180 / Real.pi) k := by
    intro az
    unfold Sys.diffRefPsd Fourier.diffRefPsd expectedRefraction
    rw [if_neg hz]
    have e : az * 180 / Real.pi * Real.pi / 180 = az := by have := Real.pi_pos.ne'; field_simp
    simp only [e]
    congr 2
    refine sum_congr rfl fun l _ => ?_
    rw [← kmod_cos_arg]
    ring_nf
  refine ⟨h az, ?_⟩
  rw [h 0]; simp

theorem cos_ninety : Real.cos 90 < 0 := by
  have h1 := Real.pi_gt_d4
  have h2 := Real.pi_lt_d4
  have e : Real.cos 90 = Real.cos (90 - (14 : ℕ) * (2 * Real.pi)) := (Real.cos_sub_nat_mul_two_pi _ _).symm
  rw [e]
  push_cast
  apply Real.cos_neg_of_pi_div_two_lt_of_lt <;> linarith

/-- C356 (violation): for a source at 90 degrees the frequencies along x, perpendicular to the azimuth, should not be
affected, but they are. -/
theorem refraction_azimuth_violation (s : Sys) (q : ℝ) (hz : s.zenith ≠ 0) (h1 : s.nL = 1) (hw : 0 < s.w 0)
    (hin : s.inside (q, 0) = true) (ha : 0 < s.watm false (q, 0))
    (hh : 0 < |s.hs 0 * Real.tan ((s.nRef - s.nGs) * Real.tan (s.zenith * Real.pi / 180)) * q|)
    (hh' : |s.hs 0 * Real.tan ((s.nRef - s.nGs) * Real.tan (s.zenith * Real.pi / 180)) * q| < 1) :
    expectedRefraction s 90 (q, 0) = 0 ∧ 0 < s.diffRefPsd 90 false (q, 0) := by
  constructor
  · unfold expectedRefraction
    have : (90 * Real.pi / 180 : ℝ) = Real.pi / 2 := by ring
    simp [this]
  · rw [(refraction_azimuth_partial s 90 (q, 0) hz).1]
    unfold expectedRefraction
    have e : (90 * 180 / Real.pi * Real.pi / 180 : ℝ) = 90 := by have := Real.pi_pos.ne'; field_simp
    rw [h1, sum_range_one, hin, e]
    set x := s.hs 0 * Real.tan ((s.nRef - s.nGs) * Real.tan (s.zenith * Real.pi / 180)) * q with hx
    have arg : 2 * Real.pi * s.hs 0 * Real.tan ((s.nRef - s.nGs) * Real.tan (s.zenith * Real.pi / 180)) *
        ((q, (0:ℝ)).1 * Real.cos 90 + (q, (0:ℝ)).2 * Real.sin 90) = 2 * Real.pi * (x * Real.cos 90) := by
      rw [hx]; ring
    rw [arg]
    have c0 := cos_ninety
    have c1 : |Real.cos 90| ≤ 1 := Real.abs_cos_le_one _
    have y0 : x * Real.cos 90 ≠ 0 := mul_ne_zero (abs_pos.1 hh) c0.ne
    have y1 : |x * Real.cos 90| < 1 := by
      rw [abs_mul]
      nlinarith [abs_nonneg x, abs_nonneg (Real.cos 90)]
    have hc : Real.cos (2 * Real.pi * (x * Real.cos 90)) < 1 := by
      refine lt_of_le_of_ne (Real.cos_le_one _) fun hc => ?_
      obtain ⟨n, hn⟩ := (Real.cos_eq_one_iff _).1 hc
      have hpi := Real.pi_pos
      have : (n : ℝ) = x * Real.cos 90 := by
        have : (n : ℝ) * (2 * Real.pi) = (x * Real.cos 90) * (2 * Real.pi) := by rw [hn]; ring
        exact mul_right_cancel₀ (by positivity) this
      rw [← this] at y0 y1
      have h1 : |n| < 1 := by exact_mod_cast y1
      have : n = 0 := Int.abs_lt_one_iff.1 h1
      subst this
      simp at y0
    have : 0 < 1 - Real.cos (2 * Real.pi * (x * Real.cos 90)) := by linarith
    simp only [msk, if_true, one_mul]
    positivity

/-! ### Strength of the turbulence -/

/-- The same system under a turbulence of Fried parameter `x`. -/
def withR0 (s : Sys) (x : ℝ) : Sys := { s with r0 := x }

theorem rx_r0 (s : Sys) (x : ℝ) (hm : s.mv = 0) (c : Bool) (k : ℝ × ℝ) :
    (withR0 s x).rx c k = s.rx c k ∧ (withR0 s x).ry c k = s.ry c k := by
  have h : (withR0 s x).reg k = s.reg k := by rw [reg_zero s k hm, reg_zero (withR0 s x) k hm]
  constructor
  · unfold Sys.rx; rw [h]; rfl
  · unfold Sys.ry; rw [h]; rfl

theorem watm_r0 (s : Sys) (r : ℝ) (hr : 0 < r) (h0 : 0 < s.r0) (c : Bool) (k : ℝ × ℝ) :
    (withR0 s (r * s.r0)).watm c k = r ^ (-(5:ℝ)/3) * s.watm c k := by
  have e : (withR0 s (r * s.r0)).piston c k = s.piston c k := rfl
  unfold Sys.watm
  rw [e]
  unfold Sys.turb withR0
  simp only
  rw [Real.mul_rpow hr.le h0.le]; ring

theorem st_r0 (s : Sys) (r : ℝ) (hr : 0 < r) (h0 : 0 < s.r0) (hm : s.mv = 0) (th : ℝ × ℝ) (c : Bool) (k : ℝ × ℝ) :
    (withR0 s (r * s.r0)).stPsd th c k = (s.stPsd th c k).map (r ^ (-(5:ℝ)/3) * ·) := by
  unfold Sys.stPsd
  rw [(rx_r0 s _ hm c k).1, (rx_r0 s _ hm c k).2, watm_r0 s r hr h0]
  cases s.rx c k with
  | none => rfl
  | some rx =>
    cases s.ry c k with
    | none => rfl
    | some ry =>
      simp only [Option.bind_some, Option.map_some]
      congr 1
      unfold spatioTemporal
      show (if decide (s.gain = 0) = true then ‖1 - loopF rx ry (s.sx k) (s.sy k)‖ ^ 2 * _ else
        msk (s.inside k) * (1 + ‖loopF rx ry (s.sx k) (s.sy k)‖ ^ 2 * s.h2 k -
          2 * (loopF rx ry (s.sx k) (s.sy k) * s.h1 k * s.decorr th k).re) * _) = _
      split_ifs <;> ring

theorem alias_r0 (s : Sys) (r : ℝ) (hr : 0 < r) (h0 : 0 < s.r0) (hm : s.mv = 0) (c : Bool) (k : ℝ × ℝ) :
    (withR0 s (r * s.r0)).aliasPsd c k = (s.aliasPsd c k).map (r ^ (-(5:ℝ)/3) * ·) := by
  have e : ∀ b (sh : List (ℤ × ℤ)) pr w q avr, Fourier.aliasPsd b sh pr w q avr (r * s.r0) =
      r ^ (-(5:ℝ)/3) * Fourier.aliasPsd b sh pr w q avr s.r0 := by
    intro b sh pr w q avr
    unfold Fourier.aliasPsd
    rw [Real.mul_rpow hr.le h0.le, show (-(5/3:ℝ)) = -(5:ℝ)/3 by ring]; ring
  unfold Sys.aliasPsd
  rw [(rx_r0 s _ hm c k).1, (rx_r0 s _ hm c k).2]
  cases s.rx c k with
  | none => rfl
  | some rx =>
    cases s.ry c k with
    | none => rfl
    | some ry =>
      simp only [Option.bind_some, Option.map_some]
      exact congrArg some (e _ _ _ _ _ _)

/-- C357: with the least-squares reconstructor the residual spectrum, noise apart, is proportional to `r0^(-5/3)` and the
noise does not depend on `r0`. -/
theorem residual_scales (s : Sys) (r u ng : ℝ) (th : ℝ × ℝ) (az : ℝ) (c : Bool) (k : ℝ × ℝ) (hr : 0 < r) (h0 : 0 < s.r0)
    (hm : s.mv = 0) (t : Terms) (ht : s.terms ng th az c k = some t) :
    ∃ t', (withR0 s (r * s.r0)).terms ng th az c k = some t' ∧ t'.noise = t.noise ∧
      psdFinal u none true t' - t'.noise * u ^ 2 = r ^ (-(5:ℝ)/3) * (psdFinal u none true t - t.noise * u ^ 2) := by
  have hn : (withR0 s (r * s.r0)).noisePsd ng c k = s.noisePsd ng c k := by
    unfold Sys.noisePsd
    rw [(rx_r0 s _ hm c k).1, (rx_r0 s _ hm c k).2]; rfl
  have e2 : (withR0 s (r * s.r0)).diffRefPsd az c k = r ^ (-(5:ℝ)/3) * s.diffRefPsd az c k := by
    unfold Sys.diffRefPsd
    rw [watm_r0 s r hr h0]
    unfold Fourier.diffRefPsd
    show (if s.zenith = 0 then _ else msk (s.inside k) * (∑ l ∈ range s.nL, 2 * s.w l * (1 - Real.cos (2 * Real.pi * s.hs l *
      kmod k * Real.tan ((s.nRef - s.nGs) * Real.tan (s.zenith * Real.pi / 180)) * _))) * _) = _
    simp only
    split_ifs <;> ring
  have e3 : (withR0 s (r * s.r0)).chromPsd c k = r ^ (-(5:ℝ)/3) * s.chromPsd c k := by
    unfold Sys.chromPsd
    rw [watm_r0 s r hr h0]
    unfold Fourier.chromPsd withR0; simp only; ring
  have e4 : (withR0 s (r * s.r0)).fitPsd k = r ^ (-(5:ℝ)/3) * s.fitPsd k := by
    unfold Sys.fitPsd Freq.fittingPsd withR0
    simp only
    rw [Real.mul_rpow hr.le h0.le]
    split_ifs <;> ring
  unfold Sys.terms at ht ⊢
  rw [hn, e2, e3, e4, st_r0 s r hr h0 hm, alias_r0 s r hr h0 hm]
  cases ex : s.noisePsd ng c k with
  | none => simp [ex] at ht
  | some n =>
  cases ey : s.aliasPsd c k with
  | none => simp [ex, ey] at ht
  | some a =>
  cases ez : s.stPsd th c k with
  | none => simp [ex, ey, ez] at ht
  | some v =>
  simp only [ex, ey, ez, Option.bind_some, Option.some.injEq] at ht
  subst ht
  refine ⟨_, rfl, rfl, ?_⟩
  simp only [psdFinal, psdCore, psdAdd, if_true]
  ring

/-! ### Aliasing -/

theorem sinc_mul (x : ℝ) : Real.pi * x * npSinc x = Real.sin (Real.pi * x) := by
  unfold npSinc
  by_cases h : Real.pi * x = 0
  · rw [h]; simp
  · rw [Real.sinc_of_ne_zero h, mul_div_cancel₀ _ h]

theorem sin_shift (x : ℝ) (m : ℤ) : |Real.sin (Real.pi * (x - m))| = |Real.sin (Real.pi * x)| := by
  have : Real.pi * (x - m) = Real.pi * x - m * Real.pi := by ring
  rw [this, Real.sin_sub_int_mul_pi, abs_mul, abs_zpow]; simp

theorem shifted_mul (s : Sys) (hd : s.dsub ≠ 0) (k : ℝ × ℝ) (m : ℤ × ℤ) :
    s.dsub * (s.shifted k m).1 = s.dsub * k.1 - m.1 ∧ s.dsub * (s.shifted k m).2 = s.dsub * k.2 - m.2 := by
  unfold Sys.shifted
  constructor <;> field_simp

/-- Where the sensor sees `x` (scaled by the size of the sub-apertures), no replica falls on zero frequency. -/
theorem replica_ne_zero (x : ℝ) (m : ℤ) (hx : x ≠ 0) (h : npSinc x ≠ 0) : x - m ≠ 0 := by
  intro e
  have hs := sinc_mul x
  have : Real.sin (Real.pi * x) = 0 := by
    rw [show Real.pi * x = m * Real.pi by rw [sub_eq_zero.1 e]; ring, Real.sin_int_mul_pi]
  rw [this] at hs
  have hp := Real.pi_pos.ne'
  simp_all

theorem sinc_ratio (x : ℝ) (m : ℤ) (hx : x ≠ 0) (h : npSinc x ≠ 0) : |npSinc (x - m)| / |npSinc x| = |x| / |x - m| := by
  have h1 := congrArg abs (sinc_mul (x - m))
  have h2 := congrArg abs (sinc_mul x)
  rw [sin_shift, ← h2] at h1
  have hp := Real.pi_pos
  have hm := replica_ne_zero x m hx h
  rw [abs_mul, abs_mul, abs_mul, abs_mul, abs_of_pos hp] at h1
  have a := abs_pos.2 h
  have b := abs_pos.2 hm
  rw [div_eq_div_iff a.ne' b.ne']
  have := mul_left_cancel₀ hp.ne' (by linarith : Real.pi * (|x - m| * |npSinc (x - m)|) = Real.pi * (|x| * |npSinc x|))
  linarith

theorem sinc_int (m : ℤ) (hm : m ≠ 0) : npSinc (-(m:ℝ)) = 0 := by
  have h := sinc_mul (-(m:ℝ))
  rw [show Real.pi * -(m:ℝ) = -(m * Real.pi) by ring, Real.sin_neg, Real.sin_int_mul_pi, neg_zero] at h
  have : (m:ℝ) ≠ 0 := by exact_mod_cast hm
  have hp := Real.pi_pos.ne'
  simp_all

/-- The factor `Q` of a replica, in modulus. -/
theorem norm_qfac (s : Sys) (k : ℝ × ℝ) (h : Seen s k) (hm : s.mv = 0) (rx ry : ℂ) (hx : s.rx false k = some rx)
    (hy : s.ry false k = some ry) (q : ℝ × ℝ) :
    ‖s.qfac rx ry q‖ = |k.1 * q.1 + k.2 * q.2| / (k.1 ^ 2 + k.2 ^ 2) *
      ((|npSinc (s.dsub * q.1)| / |npSinc (s.dsub * k.1)|) * (|npSinc (s.dsub * q.2)| / |npSinc (s.dsub * k.2)|)) := by
  obtain ⟨e1, e2⟩ := rx_seen s k h hm
  rw [hx, Option.some.injEq] at e1
  rw [hy, Option.some.injEq] at e2
  have hp := seen_pos s k h
  have key : rx * ((2 * Real.pi * s.dsub : ℝ) * Complex.I) * q.1 + ry * ((2 * Real.pi * s.dsub : ℝ) * Complex.I) * q.2 =
      (starRingEnd ℂ) (s.av k) * (((2 * Real.pi * s.dsub) ^ 2 * (k.1 * q.1 + k.2 * q.2) : ℝ) : ℂ) / (gPSD (s.sx k) (s.sy k) 0 : ℝ) := by
    rw [e1, e2]
    unfold Sys.sx Sys.sy shResponse
    simp only [map_mul, Complex.conj_I, Complex.conj_ofReal]
    rw [div_mul_eq_mul_div, div_mul_eq_mul_div, div_mul_eq_mul_div, div_mul_eq_mul_div, ← add_div]
    congr 1
    push_cast
    linear_combination (-(2 * Real.pi * s.dsub) ^ 2 * (k.1 * q.1 + k.2 * q.2) * (starRingEnd ℂ) (s.av k) : ℂ) * Complex.I_sq
  unfold Sys.qfac
  rw [key, norm_mul, norm_div, norm_mul, RCLike.norm_conj, Complex.norm_real, Complex.norm_real, Complex.norm_real, gPSD_eq, add_zero,
    Real.norm_of_nonneg hp.le, Real.norm_eq_abs, Real.norm_eq_abs, abs_mul, abs_of_nonneg (sq_nonneg (2 * Real.pi * s.dsub))]
  have ha : 0 < ‖s.av k‖ := by
    by_contra hc
    have : ‖s.av k‖ = 0 := le_antisymm (not_lt.1 hc) (norm_nonneg _)
    rw [this] at hp; simp at hp
  have hk : 0 < k.1 ^ 2 + k.2 ^ 2 := by
    by_contra hc
    have : k.1 ^ 2 + k.2 ^ 2 = 0 := le_antisymm (not_lt.1 hc) (by positivity)
    rw [this] at hp; simp at hp
  have hd : 2 * Real.pi * s.dsub ≠ 0 := by simp [h.1, Real.pi_ne_zero]
  have e : ‖s.av k‖ = |npSinc (s.dsub * k.1)| * |npSinc (s.dsub * k.2)| := by rw [norm_av, abs_mul]
  have hd' := h.1
  rw [abs_mul, div_mul_div_comm, ← e]
  field_simp

/-- Rigaut's weight of the replica of the frequency `k` shifted by `m/d`. -/
noncomputable def rigaut (k q : ℝ × ℝ) : ℝ := ((k.1 * q.1 + k.2 * q.2) * (k.1 * k.2) / ((k.1 ^ 2 + k.2 ^ 2) * (q.1 * q.2))) ^ 2

/-- What the loop and the wind do to a replica: the exposure averages it while the wind carries it and the closed loop
filters it. -/
noncomputable def replicaGain (s : Sys) (k q : ℝ × ℝ) : ℝ :=
  ‖s.h1 k * ∑ l ∈ range s.nL, (s.w l : ℂ) * (npSinc (q.1 * s.vx l * (s.clock / s.rate)) *
    npSinc (q.2 * s.vy l * (s.clock / s.rate)) : ℝ) *
    Complex.exp (2 * Real.pi * Complex.I * ((q.1 * s.vx l + q.2 * s.vy l) * (s.clock / s.rate * s.delay)))‖ ^ 2

theorem avr_gain (s : Sys) (hn : 1 ≤ s.nL) (k q : ℝ × ℝ) :
    ‖chunkSum s.nL (min 5 s.nL) (s.avrTerm (s.h1 k) q)‖ ^ 2 = replicaGain s k q := by
  rw [chunkSum_code _ hn]
  unfold replicaGain
  congr 2
  rw [mul_sum]
  refine sum_congr rfl fun l _ => ?_
  unfold Sys.avrTerm phasor
  push_cast
  have : (2 * Real.pi * ((q.1 * s.vx l + q.2 * s.vy l) * (s.clock / s.rate * s.delay)) * Complex.I : ℂ) =
    2 * Real.pi * Complex.I * ((q.1 * s.vx l + q.2 * s.vy l) * (s.clock / s.rate * s.delay)) := by ring
  rw [this]; ring

/-- C358: with the least-squares reconstructor, off the axes, the aliasing of a frequency is the sum over its replicas of
the von Kármán spectrum at the replica, times Rigaut's weight, times the filter of piston and what the loop and the wind
do to it. -/
theorem aliasing_rigaut (s : Sys) (k : ℝ × ℝ) (h : Seen s k) (hm : s.mv = 0) (hn : 1 ≤ s.nL) (hx : k.1 ≠ 0) (hy : k.2 ≠ 0) :
    s.aliasPsd false k = some (msk (s.inside k) * 0.0229 * s.r0 ^ (-(5/3) : ℝ) *
      (((shifts s.nTimes).filter (· ≠ (0, 0))).map fun m => Psf.pistonFilter s.D (kmod (s.shifted k m)) *
        ((s.shifted k m).1 ^ 2 + (s.shifted k m).2 ^ 2 + 1 / s.L0 ^ 2) ^ (-(11:ℝ) / 6) * rigaut k (s.shifted k m) *
        replicaGain s k (s.shifted k m)).sum) := by
  obtain ⟨e1, e2⟩ := rx_seen s k h hm
  unfold Sys.aliasPsd
  have hq := fun q => norm_qfac s k h hm _ _ e1 e2 q
  rw [e1, e2]
  simp only [Option.bind_some]
  congr 1
  unfold Fourier.aliasPsd
  have hs : ∀ l : List (ℤ × ℤ), (l.map (fun m => Psf.pistonFilter s.D (kmod (s.shifted k m)) * s.wmn (s.shifted k m) *
      ‖s.qfac ((starRingEnd ℂ) (s.sx k) / gPSD (s.sx k) (s.sy k) 0) ((starRingEnd ℂ) (s.sy k) / gPSD (s.sx k) (s.sy k) 0)
        (s.shifted k m) * chunkSum s.nL (min 5 s.nL) (s.avrTerm (s.h1 k) (s.shifted k m))‖ ^ 2 *
      (if m = (0, 0) then 0 else 1))).sum = ((l.filter (· ≠ (0, 0))).map fun m => Psf.pistonFilter s.D (kmod (s.shifted k m)) *
        ((s.shifted k m).1 ^ 2 + (s.shifted k m).2 ^ 2 + 1 / s.L0 ^ 2) ^ (-(11:ℝ) / 6) * rigaut k (s.shifted k m) *
        replicaGain s k (s.shifted k m)).sum := by
    intro l
    induction l with
    | nil => rfl
    | cons m l ih =>
      rw [List.map_cons, List.sum_cons, ih]
      by_cases h0 : m = (0, 0)
      · rw [List.filter_cons_of_neg (by simp [h0]), if_pos h0]; ring
      · rw [List.filter_cons_of_pos (by simp [h0]), List.map_cons, List.sum_cons, if_neg h0, mul_one]
        congr 1
        rw [norm_mul, mul_pow, avr_gain s hn, hq, (shifted_mul s h.1 k m).1, (shifted_mul s h.1 k m).2,
          sinc_ratio _ _ (mul_ne_zero h.1 hx) h.2.2.1, sinc_ratio _ _ (mul_ne_zero h.1 hy) h.2.2.2,
          ← (shifted_mul s h.1 k m).1, ← (shifted_mul s h.1 k m).2]
        have r1 : (s.shifted k m).1 ≠ 0 := by
          intro e
          have := replica_ne_zero _ m.1 (mul_ne_zero h.1 hx) h.2.2.1
          rw [← (shifted_mul s h.1 k m).1, e] at this; simp at this
        have r2 : (s.shifted k m).2 ≠ 0 := by
          intro e
          have := replica_ne_zero _ m.2 (mul_ne_zero h.1 hy) h.2.2.2
          rw [← (shifted_mul s h.1 k m).2, e] at this; simp at this
        have : (|k.1 * (s.shifted k m).1 + k.2 * (s.shifted k m).2| / (k.1 ^ 2 + k.2 ^ 2) *
            (|s.dsub * k.1| / |s.dsub * (s.shifted k m).1| * (|s.dsub * k.2| / |s.dsub * (s.shifted k m).2|))) ^ 2 =
            rigaut k (s.shifted k m) := by
          unfold rigaut
          generalize (s.shifted k m) = q at *
          have hd := h.1
          rw [← sq_abs ((k.1 * q.1 + k.2 * q.2) * (k.1 * k.2) / ((k.1 ^ 2 + k.2 ^ 2) * (q.1 * q.2)))]
          congr 1
          simp only [abs_mul, abs_div]
          rw [abs_of_nonneg (show (0:ℝ) ≤ k.1 ^ 2 + k.2 ^ 2 by positivity)]
          have a1 := abs_pos.2 hd
          have a2 := abs_pos.2 r1
          have a3 := abs_pos.2 r2
          field_simp
        rw [this]
        unfold Sys.wmn
        ring
  rw [hs]
  ring

/-- No aliasing at the central frequency. -/
theorem aliasing_centre (s : Sys) (k : ℝ × ℝ) : s.aliasPsd true k = some 0 := by
  simp [Sys.aliasPsd, Sys.rx, Sys.ry, recon, Fourier.aliasPsd, Sys.qfac]


/-! ### Opposite frequencies -/

theorem npSinc_zero' : npSinc 0 = 1 := by simp [npSinc]

theorem npSinc_neg (x : ℝ) : npSinc (-x) = npSinc x := by unfold npSinc; rw [mul_neg, Real.sinc_neg]

theorem kmod_neg (k : ℝ × ℝ) : kmod (-k) = kmod k := by unfold kmod; simp

theorem av_neg (s : Sys) (k : ℝ × ℝ) : s.av (-k) = (starRingEnd ℂ) (s.av k) := by
  unfold Sys.av
  rw [map_mul, Complex.conj_ofReal, ← Complex.exp_conj, map_mul, Complex.conj_ofReal, Complex.conj_I, Prod.fst_neg, Prod.snd_neg,
    mul_neg, mul_neg, npSinc_neg, npSinc_neg]
  congr 2
  push_cast; ring

theorem sx_neg (s : Sys) (k : ℝ × ℝ) : s.sx (-k) = (starRingEnd ℂ) (s.sx k) ∧ s.sy (-k) = (starRingEnd ℂ) (s.sy k) := by
  unfold Sys.sx Sys.sy shResponse
  rw [av_neg]
  constructor <;>
  · simp only [map_mul, Complex.conj_ofReal, Complex.conj_I, Prod.fst_neg, Prod.snd_neg]
    push_cast; ring

theorem rx_neg (s : Sys) (c : Bool) (k : ℝ × ℝ) : s.rx c (-k) = (s.rx c k).map (starRingEnd ℂ) ∧
    s.ry c (-k) = (s.ry c k).map (starRingEnd ℂ) := by
  have hg : gPSD (s.sx (-k)) (s.sy (-k)) (s.reg (-k)) = gPSD (s.sx k) (s.sy k) (s.reg k) := by
    rw [(sx_neg s k).1, (sx_neg s k).2]
    unfold gPSD Sys.reg Sys.turb
    rw [RCLike.norm_conj, RCLike.norm_conj, kmod_neg]
  unfold Sys.rx Sys.ry recon
  rw [hg, (sx_neg s k).1, (sx_neg s k).2]
  constructor <;>
  · split_ifs <;> simp

theorem z_neg (s : Sys) (k : ℝ × ℝ) (l : ℕ) : s.z (-k) l = (starRingEnd ℂ) (s.z k l) := by
  unfold Sys.z zOf Sys.tfreq
  rw [← Complex.exp_conj]
  congr 1
  simp only [map_mul, Complex.conj_ofReal, Complex.conj_I, Prod.fst_neg, Prod.snd_neg]
  push_cast; ring

theorem guardD_conj (e : ℝ) (z : ℂ) : guardD e ((starRingEnd ℂ) z) = (starRingEnd ℂ) (guardD e z) := by
  unfold guardD
  rw [RCLike.norm_conj]
  split_ifs <;> simp

theorem atf_neg (s : Sys) (k : ℝ × ℝ) (l : ℕ) (hz : s.z k l ≠ -1) : s.atf (-k) l = (starRingEnd ℂ) (s.atf k l) := by
  have hn : ‖s.z k l‖ = 1 := norm_zOf _
  have ha : (s.z k l).arg ≠ Real.pi := by
    intro e
    apply hz
    have := Complex.norm_mul_exp_arg_mul_I (s.z k l)
    rw [e, hn, Complex.exp_pi_mul_I] at this
    simpa using this.symm
  have hp : ((starRingEnd ℂ) (s.z k l)) ^ (-(s.delay : ℂ)) = (starRingEnd ℂ) ((s.z k l) ^ (-(s.delay : ℂ))) := by
    rw [Complex.conj_cpow _ _ ha]; simp
  have ho : openLoop s.eps s.gain s.delay (s.z (-k) l) = (starRingEnd ℂ) (openLoop s.eps s.gain s.delay (s.z k l)) := by
    unfold openLoop hInt
    rw [z_neg, hp, map_mul, map_div₀, Complex.conj_ofReal, ← guardD_conj, map_sub, map_one, map_inv₀]
  unfold Sys.atf Fourier.atf rtf
  rw [ho, map_mul, map_div₀, map_one, ← guardD_conj, map_add, map_one]

theorem h_neg (s : Sys) (k : ℝ × ℝ) (hz : ∀ l < s.nL, s.z k l ≠ -1) :
    s.h1 (-k) = (starRingEnd ℂ) (s.h1 k) ∧ s.h2 (-k) = s.h2 k := by
  rw [(h_expand s k).1, (h_expand s k).2, (h_expand s (-k)).1, (h_expand s (-k)).2, map_sum]
  constructor
  · refine sum_congr rfl fun l hl => ?_
    rw [atf_neg s k l (hz l (mem_range.1 hl)), map_mul, Complex.conj_ofReal]
  · refine sum_congr rfl fun l hl => ?_
    rw [atf_neg s k l (hz l (mem_range.1 hl)), RCLike.norm_conj]

theorem watm_neg (s : Sys) (c : Bool) (k : ℝ × ℝ) : s.watm c (-k) = s.watm c k := by
  unfold Sys.watm Sys.turb Sys.piston
  rw [kmod_neg]

theorem inside_neg (s : Sys) (k : ℝ × ℝ) : s.inside (-k) = s.inside k := by
  unfold Sys.inside
  refine decide_eq_decide.2 ?_
  unfold Freq.mskIn
  simp only [Prod.fst_neg, Prod.snd_neg, abs_neg, neg_sq]

theorem decorr_neg (s : Sys) (th k : ℝ × ℝ) : s.decorr th (-k) = (starRingEnd ℂ) (s.decorr th k) := by
  unfold Sys.decorr Fourier.decorr
  split_ifs
  · simp
  · rw [map_sum]
    refine sum_congr rfl fun l _ => ?_
    rw [map_mul, Complex.conj_ofReal, ← Complex.exp_conj, map_mul, Complex.conj_ofReal, Complex.conj_I]
    congr 2
    simp only [Prod.fst_neg, Prod.snd_neg]
    push_cast; ring

/-- C359 (partial): every spectrum of the residual phase but aliasing is the same at opposite frequencies. Missing: aliasing
(`aliasing_opposite_violation`), and the frequencies for which a layer is at half the frequency of the loop, where the
fractional delay has no meaning. -/
theorem opposite_frequencies_partial (s : Sys) (ng : ℝ) (th : ℝ × ℝ) (az : ℝ) (c : Bool) (k : ℝ × ℝ)
    (hz : ∀ l < s.nL, s.z k l ≠ -1) :
    s.stPsd th c (-k) = s.stPsd th c k ∧ s.lagPsd c (-k) = s.lagPsd c k ∧ s.noisePsd ng c (-k) = s.noisePsd ng c k ∧
    s.aniPsd th c (-k) = s.aniPsd th c k ∧ s.diffRefPsd az c (-k) = s.diffRefPsd az c k ∧
    s.chromPsd c (-k) = s.chromPsd c k ∧ s.fitPsd (-k) = s.fitPsd k := by
  obtain ⟨hh1, hh2⟩ := h_neg s k hz
  obtain ⟨hx, hy⟩ := rx_neg s c k
  obtain ⟨sx, sy⟩ := sx_neg s k
  have hF : ∀ rx ry : ℂ, loopF ((starRingEnd ℂ) rx) ((starRingEnd ℂ) ry) ((starRingEnd ℂ) (s.sx k)) ((starRingEnd ℂ) (s.sy k)) =
      (starRingEnd ℂ) (loopF rx ry (s.sx k) (s.sy k)) := by
    intro rx ry; simp [loopF]
  refine ⟨?_, ?_, ?_, ?_, ?_, ?_, ?_⟩
  · unfold Sys.stPsd
    rw [hx, hy, hh1, hh2, sx, sy, watm_neg, inside_neg, decorr_neg]
    cases s.rx c k with
    | none => rfl
    | some rx =>
      cases s.ry c k with
      | none => rfl
      | some ry =>
        simp only [Option.map_some, Option.bind_some]
        rw [hF]
        congr 1
        unfold spatioTemporal
        have e1 : ‖1 - (starRingEnd ℂ) (loopF rx ry (s.sx k) (s.sy k))‖ = ‖1 - loopF rx ry (s.sx k) (s.sy k)‖ := by
          rw [← RCLike.norm_conj (1 - loopF rx ry (s.sx k) (s.sy k)), map_sub, map_one]
        rw [e1, RCLike.norm_conj, ← map_mul, ← map_mul, Complex.conj_re]
  · unfold Sys.lagPsd
    rw [hx, hy, hh1, hh2, sx, sy, watm_neg, inside_neg]
    cases s.rx c k with
    | none => rfl
    | some rx =>
      cases s.ry c k with
      | none => rfl
      | some ry =>
        simp only [Option.map_some, Option.bind_some]
        rw [hF]
        congr 1
        unfold servoLag
        have e1 : ‖1 - (starRingEnd ℂ) (loopF rx ry (s.sx k) (s.sy k))‖ = ‖1 - loopF rx ry (s.sx k) (s.sy k)‖ := by
          rw [← RCLike.norm_conj (1 - loopF rx ry (s.sx k) (s.sy k)), map_sub, map_one]
        rw [e1, RCLike.norm_conj, ← map_mul, Complex.conj_re]
  · unfold Sys.noisePsd
    rw [hx, hy, inside_neg]
    cases s.rx c k with
    | none => rfl
    | some rx =>
      cases s.ry c k with
      | none => rfl
      | some ry =>
        simp only [Option.map_some, Option.bind_some]
        congr 1
        unfold noiseScao
        rw [← map_pow, ← map_pow, ← map_add, RCLike.norm_conj]
        unfold Sys.piston
        rw [kmod_neg]
  · unfold Sys.aniPsd anisoPsd
    rw [watm_neg, inside_neg]
    have : ∀ l, Real.cos (2 * Real.pi * s.hs l * ((-k).1 * th.2 + (-k).2 * th.1)) =
        Real.cos (2 * Real.pi * s.hs l * (k.1 * th.2 + k.2 * th.1)) := by
      intro l
      rw [← Real.cos_neg]
      congr 1
      simp only [Prod.fst_neg, Prod.snd_neg]; ring
    simp only [this]
  · unfold Sys.diffRefPsd Fourier.diffRefPsd
    rw [watm_neg, inside_neg]
    have e : kmod (-k) * Real.cos (Complex.arg ⟨(-k).1, (-k).2⟩ - az) = -(kmod k * Real.cos (Complex.arg ⟨k.1, k.2⟩ - az)) := by
      rw [kmod_cos_arg, kmod_cos_arg]
      simp only [Prod.fst_neg, Prod.snd_neg]; ring
    have : ∀ l, Real.cos (2 * Real.pi * s.hs l * kmod (-k) * Real.tan ((s.nRef - s.nGs) * Real.tan (s.zenith * Real.pi / 180)) *
          Real.cos (Complex.arg ⟨(-k).1, (-k).2⟩ - az)) =
        Real.cos (2 * Real.pi * s.hs l * kmod k * Real.tan ((s.nRef - s.nGs) * Real.tan (s.zenith * Real.pi / 180)) *
          Real.cos (Complex.arg ⟨k.1, k.2⟩ - az)) := by
      intro l
      rw [← Real.cos_neg]
      congr 1
      linear_combination (-(2 * Real.pi * s.hs l * Real.tan ((s.nRef - s.nGs) * Real.tan (s.zenith * Real.pi / 180)))) * e
    simp only [this]
  · unfold Sys.chromPsd; rw [watm_neg]
  · unfold Sys.fitPsd Freq.fittingPsd
    have e : Freq.mskOut s.circle s.kc (-k.1) (-k.2) ↔ Freq.mskOut s.circle s.kc k.1 k.2 := by
      unfold Freq.mskOut
      simp only [neg_sq, abs_neg]
    simp only [Prod.fst_neg, Prod.snd_neg, neg_sq]
    exact if_congr e rfl rfl

/-- `|J1(x)/x| ≤ 1/|x|`. -/
theorem sombrero1_decay (x : ℝ) (hx : x ≠ 0) : |Psf.sombrero1 x| ≤ 1 / |x| := by
  have pi0 := Real.pi_pos
  have hparts : ∫ θ in (0:ℝ)..Real.pi, Real.cos (x * Real.cos θ) * Real.sin θ ^ 2 =
      (1 / x) * ∫ θ in (0:ℝ)..Real.pi, Real.sin (x * Real.cos θ) * Real.cos θ := by
    have hu : ∀ θ ∈ Set.uIcc (0:ℝ) Real.pi, HasDerivAt (fun θ => Real.sin θ) (Real.cos θ) θ := fun θ _ => Real.hasDerivAt_sin θ
    have hv : ∀ θ ∈ Set.uIcc (0:ℝ) Real.pi, HasDerivAt (fun θ => -(1 / x) * Real.sin (x * Real.cos θ))
        (Real.cos (x * Real.cos θ) * Real.sin θ) θ := by
      intro θ _
      have := (((Real.hasDerivAt_cos θ).const_mul x).sin).const_mul (-(1 / x))
      have e : Real.cos (x * Real.cos θ) * Real.sin θ = -(1 / x) * (Real.cos (x * Real.cos θ) * (x * -Real.sin θ)) := by
        field_simp
      rw [e]; exact this
    have := intervalIntegral.integral_mul_deriv_eq_deriv_mul hu hv
      (Continuous.intervalIntegrable (by fun_prop) _ _) (Continuous.intervalIntegrable (by fun_prop) _ _)
    rw [show (fun θ => Real.cos (x * Real.cos θ) * Real.sin θ ^ 2) = fun θ => Real.sin θ * (Real.cos (x * Real.cos θ) * Real.sin θ) by
      funext θ; ring, this]
    simp only [Real.sin_pi, Real.sin_zero, zero_mul, sub_self, zero_sub]
    rw [← intervalIntegral.integral_neg, ← intervalIntegral.integral_const_mul]
    congr 1
    funext θ; ring
  have hb : |∫ θ in (0:ℝ)..Real.pi, Real.sin (x * Real.cos θ) * Real.cos θ| ≤ Real.pi := by
    have := intervalIntegral.norm_integral_le_of_norm_le_const (a := 0) (b := Real.pi) (C := 1)
      (f := fun θ => Real.sin (x * Real.cos θ) * Real.cos θ) (by
        intro θ _
        rw [norm_mul, Real.norm_eq_abs, Real.norm_eq_abs]
        exact mul_le_one₀ (Real.abs_sin_le_one _) (abs_nonneg _) (Real.abs_cos_le_one _))
    rw [Real.norm_eq_abs] at this
    simpa [abs_of_pos pi0] using this
  unfold Psf.sombrero1
  rw [hparts, abs_mul, abs_mul, abs_of_pos (by positivity : 0 < 1 / Real.pi), abs_div, abs_one]
  have hx' := abs_pos.2 hx
  rw [one_div_mul_eq_div, div_le_iff₀ pi0]
  have := mul_le_mul_of_nonneg_left hb (by positivity : 0 ≤ 1 / |x|)
  linarith


theorem still_h1 (s : Sys) (k : ℝ × ℝ) (hg : 0 < s.gain) (he : 0 < s.eps) (he1 : s.eps ≤ 1)
    (hw : ∑ l ∈ range s.nL, s.w l = 1) (hv : ∀ l < s.nL, s.speed l = 0) :
    s.h1 k = ((s.gain / (s.gain + s.eps) : ℝ) : ℂ) := by
  have ha : ∀ l ∈ range s.nL, s.atf k l = ((s.gain / (s.gain + s.eps) : ℝ) : ℂ) := by
    intro l hl
    have hl := mem_range.1 hl
    unfold Sys.atf Fourier.atf rtf guardD
    rw [still_loop s k l (hv l hl) he]
    have e : (1 : ℂ) + ((s.gain / s.eps : ℝ) : ℂ) = ((1 + s.gain / s.eps : ℝ) : ℂ) := by push_cast; ring
    have p : 0 < s.gain / s.eps := by positivity
    rw [e, Complex.norm_real, Real.norm_of_nonneg (by positivity), if_neg (by push Not; linarith)]
    norm_cast
    field_simp
    ring
  rw [(h_expand s k).1, sum_congr rfl fun l hl => by rw [ha l hl], ← sum_mul]
  have : ∑ l ∈ range s.nL, (s.w l : ℂ) = 1 := by exact_mod_cast congrArg (fun x : ℝ => (x : ℂ)) hw
  rw [this, one_mul]

/-- The turbulence without piston at the frequency `f` along x, for `r0 = 1`. -/
noncomputable def along (s : Sys) (f : ℝ) : ℝ :=
  Psf.pistonFilter s.D |f| * (f ^ 2 + 1 / s.L0 ^ 2) ^ (-(11:ℝ) / 6)

theorem map_range_sum (n : ℕ) (f : ℕ → ℝ) : ((List.range n).map f).sum = ∑ i ∈ range n, f i := by
  induction n with
  | zero => simp
  | succ n ih => rw [List.range_succ, List.map_append, List.sum_append, ih, sum_range_succ]; simp

theorem arangeSym_sum (n : ℕ) (f : ℤ → ℝ) : ((arangeSym n).map f).sum = ∑ i ∈ range (2 * n), f ((i : ℤ) - n) := by
  unfold arangeSym
  rw [List.map_map, ← map_range_sum]
  rfl

theorem shifts_sum (n : ℕ) (f : ℤ × ℤ → ℝ) : ((shifts n).map f).sum =
    ∑ i ∈ range (2 * n), ∑ j ∈ range (2 * n), f ((i : ℤ) - n, (j : ℤ) - n) := by
  have : ∀ a b : List ℤ, ((a.flatMap fun m => b.map fun q => (m, q)).map f).sum = (a.map fun m => (b.map fun q => f (m, q)).sum).sum := by
    intro a b
    induction a with
    | nil => rfl
    | cons x a ih =>
      rw [List.flatMap_cons, List.map_append, List.sum_append, ih, List.map_cons, List.sum_cons, List.map_map]
      rfl
  unfold shifts
  rw [this, arangeSym_sum]
  exact sum_congr rfl fun i _ => arangeSym_sum n _

/-- Without wind, along x, the aliasing sums the turbulence at the replicas. -/
theorem aliasing_axis (s : Sys) (q : ℝ) (h : Seen s (q, 0)) (hm : s.mv = 0) (hn : 1 ≤ s.nL) (hN : 1 ≤ s.nTimes)
    (hg : 0 < s.gain) (he : 0 < s.eps) (he1 : s.eps ≤ 1)
    (hw : ∑ l ∈ range s.nL, s.w l = 1) (hv : ∀ l < s.nL, s.speed l = 0) :
    s.aliasPsd false (q, 0) = some (msk (s.inside (q, 0)) * 0.0229 * s.r0 ^ (-(5/3) : ℝ) * (s.gain / (s.gain + s.eps)) ^ 2 *
      ∑ i ∈ range (2 * s.nTimes), if (i : ℤ) - s.nTimes = 0 then 0 else along s (q - ((i : ℤ) - s.nTimes : ℤ) / s.dsub)) := by
  obtain ⟨e1, e2⟩ := rx_seen s _ h hm
  have hq0 : q ≠ 0 := by
    intro e; apply h.2.1; rw [e]
  have hq := fun x => norm_qfac s _ h hm _ _ e1 e2 x
  have hav : ∀ x, ‖chunkSum s.nL (min 5 s.nL) (s.avrTerm (s.h1 (q, 0)) x)‖ = s.gain / (s.gain + s.eps) := by
    intro x
    rw [chunkSum_code _ hn]
    have : ∀ l ∈ range s.nL, s.avrTerm (s.h1 (q, 0)) x l = (s.w l : ℂ) * ((s.gain / (s.gain + s.eps) : ℝ) : ℂ) := by
      intro l hl
      have hv := hv l (mem_range.1 hl)
      unfold Sys.avrTerm
      rw [still_h1 s _ hg he he1 hw ‹_›]
      simp [Sys.vx, Sys.vy, hv, npSinc, phasor]
    rw [sum_congr rfl this, ← sum_mul]
    have hc : ∑ l ∈ range s.nL, (s.w l : ℂ) = 1 := by exact_mod_cast congrArg (fun x : ℝ => (x : ℂ)) hw
    rw [hc, one_mul, Complex.norm_real, Real.norm_of_nonneg (by positivity)]
  unfold Sys.aliasPsd
  rw [e1, e2]
  simp only [Option.bind_some]
  congr 1
  unfold Fourier.aliasPsd
  rw [shifts_sum]
  have key : ∀ i ∈ range (2 * s.nTimes), ∑ j ∈ range (2 * s.nTimes),
      Psf.pistonFilter s.D (kmod (s.shifted (q, 0) ((i : ℤ) - s.nTimes, (j : ℤ) - s.nTimes))) *
        s.wmn (s.shifted (q, 0) ((i : ℤ) - s.nTimes, (j : ℤ) - s.nTimes)) *
        ‖s.qfac ((starRingEnd ℂ) (s.sx (q, 0)) / gPSD (s.sx (q, 0)) (s.sy (q, 0)) 0)
          ((starRingEnd ℂ) (s.sy (q, 0)) / gPSD (s.sx (q, 0)) (s.sy (q, 0)) 0)
          (s.shifted (q, 0) ((i : ℤ) - s.nTimes, (j : ℤ) - s.nTimes)) *
          chunkSum s.nL (min 5 s.nL) (s.avrTerm (s.h1 (q, 0)) (s.shifted (q, 0) ((i : ℤ) - s.nTimes, (j : ℤ) - s.nTimes)))‖ ^ 2 *
        (if ((i : ℤ) - s.nTimes, (j : ℤ) - (s.nTimes : ℤ)) = ((0 : ℤ), (0 : ℤ)) then 0 else 1) =
      (s.gain / (s.gain + s.eps)) ^ 2 *
        if (i : ℤ) - s.nTimes = 0 then 0 else along s (q - ((i : ℤ) - s.nTimes : ℤ) / s.dsub) := by
    intro i _
    rw [sum_eq_single s.nTimes]
    · rw [sub_self]
      by_cases h0 : (i : ℤ) - s.nTimes = 0
      · rw [if_pos (by rw [h0]), if_pos h0]; ring
      · rw [if_neg (by simpa using h0), if_neg h0, norm_mul, hav, hq, (shifted_mul s h.1 _ _).1, (shifted_mul s h.1 _ _).2]
        set m := (i : ℤ) - s.nTimes with hmdef
        have hr := sinc_ratio (s.dsub * q) m (mul_ne_zero h.1 hq0) h.2.2.1
        have hne := replica_ne_zero (s.dsub * q) m (mul_ne_zero h.1 hq0) h.2.2.1
        simp only [Sys.shifted, Int.cast_zero, zero_div, sub_zero, mul_zero, zero_mul, add_zero] at *
        rw [hr, npSinc_zero']
        have hd := h.1
        have hb : q - m / s.dsub ≠ 0 := by
          intro e
          apply hne
          have : s.dsub * (q - m / s.dsub) = 0 := by rw [e, mul_zero]
          rw [mul_sub, mul_div_cancel₀ _ hd] at this
          exact this
        have e3 : |s.dsub * q - m| = |s.dsub| * |q - m / s.dsub| := by
          rw [← abs_mul, mul_sub, mul_div_cancel₀ _ hd]
        have e4 : |q * (q - m / s.dsub)| / (q ^ 2 + 0 ^ 2) * (|s.dsub * q| / |s.dsub * q - m| * (|1| / |1|)) = 1 := by
          rw [e3, abs_mul, abs_mul, ← sq_abs q]
          have a := abs_pos.2 hq0
          have b := abs_pos.2 hd
          have c := abs_pos.2 hb
          rw [abs_one, div_one, mul_one, zero_pow two_ne_zero, add_zero]
          generalize |q - m / s.dsub| = x at *
          generalize |q| = y at *
          generalize |s.dsub| = w at *
          field_simp
        rw [e4]
        unfold along Sys.wmn kmod
        simp only [ne_eq, OfNat.ofNat_ne_zero, not_false_eq_true, zero_pow, add_zero, Real.sqrt_sq_eq_abs]
        ring
    · intro j _ hj
      have hj' : (j : ℤ) - s.nTimes ≠ 0 := by omega
      rw [norm_mul, hq, (shifted_mul s h.1 _ _).2]
      simp only [mul_zero, zero_sub]
      rw [sinc_int _ hj']
      simp
    · intro hc
      exact absurd (mem_range.2 (by omega)) hc
  rw [sum_congr rfl key, ← mul_sum]
  ring

theorem along_neg (s : Sys) (f : ℝ) : along s (-f) = along s f := by unfold along; simp

theorem seen_neg (s : Sys) (k : ℝ × ℝ) (h : Seen s k) : Seen s (-k) := by
  obtain ⟨a, b, c, d⟩ := h
  refine ⟨a, fun e => b (by rw [← neg_neg k, e]; simp), ?_, ?_⟩
  · rw [Prod.fst_neg, mul_neg, npSinc_neg]; exact c
  · rw [Prod.snd_neg, mul_neg, npSinc_neg]; exact d

/-- C359: by how much the aliasing of opposite frequencies along x differs when nothing moves: the replicas are taken from
`-nTimes` to `nTimes - 1`, so one side has one more. -/
theorem aliasing_opposite_difference (s : Sys) (q : ℝ) (h : Seen s (q, 0)) (hm : s.mv = 0) (hn : 1 ≤ s.nL) (hN : 1 ≤ s.nTimes)
    (hg : 0 < s.gain) (he : 0 < s.eps) (he1 : s.eps ≤ 1)
    (hw : ∑ l ∈ range s.nL, s.w l = 1) (hv : ∀ l < s.nL, s.speed l = 0) :
    ∃ a b, s.aliasPsd false (q, 0) = some a ∧ s.aliasPsd false (-q, 0) = some b ∧
      a - b = msk (s.inside (q, 0)) * 0.0229 * s.r0 ^ (-(5/3) : ℝ) * (s.gain / (s.gain + s.eps)) ^ 2 *
        (along s (q + s.nTimes / s.dsub) - along s (q - s.nTimes / s.dsub)) := by
  have en : (-q, (0:ℝ)) = -(q, (0:ℝ)) := by simp
  have h' : Seen s (-q, 0) := by rw [en]; exact seen_neg s _ h
  refine ⟨_, _, aliasing_axis s q h hm hn hN hg he he1 hw hv, aliasing_axis s (-q) h' hm hn hN hg he he1 hw hv, ?_⟩
  have hin : s.inside (-q, 0) = s.inside (q, 0) := by rw [en, inside_neg]
  rw [hin, ← mul_sub]
  congr 1
  set g : ℤ → ℝ := fun m => if m = 0 then 0 else along s (q - (m : ℤ) / s.dsub) with hgdef
  have e1 : ∑ i ∈ range (2 * s.nTimes), (if (i : ℤ) - s.nTimes = 0 then (0:ℝ) else along s (-q - ((i : ℤ) - s.nTimes : ℤ) / s.dsub)) =
      ∑ i ∈ range (2 * s.nTimes), g ((i : ℤ) + 1 - s.nTimes) := by
    rw [← sum_range_reflect]
    refine sum_congr rfl fun i hi => ?_
    have hi := mem_range.1 hi
    have c : ((2 * s.nTimes - 1 - i : ℕ) : ℤ) - s.nTimes = -((i : ℤ) + 1 - s.nTimes) := by omega
    rw [c, hgdef]
    simp only [neg_eq_zero]
    split_ifs
    · rfl
    · rw [← along_neg]
      congr 1
      push_cast; ring
  have e2 : ∑ i ∈ range (2 * s.nTimes), (if (i : ℤ) - s.nTimes = 0 then (0:ℝ) else along s (q - ((i : ℤ) - s.nTimes : ℤ) / s.dsub)) =
      ∑ i ∈ range (2 * s.nTimes), g ((i : ℤ) - s.nTimes) := rfl
  rw [e1, e2]
  have e3 := sum_range_succ' (fun i : ℕ => g ((i : ℤ) - s.nTimes)) (2 * s.nTimes)
  have e4 := sum_range_succ (fun i : ℕ => g ((i : ℤ) - s.nTimes)) (2 * s.nTimes)
  rw [e3] at e4
  push_cast at e4
  have g1 : g (2 * (s.nTimes : ℤ) - s.nTimes) = along s (q - s.nTimes / s.dsub) := by
    rw [hgdef]
    simp only
    rw [if_neg (by omega)]
    congr 1; push_cast; ring
  have g2 : g (0 - (s.nTimes : ℤ)) = along s (q + s.nTimes / s.dsub) := by
    rw [hgdef]
    simp only
    rw [if_neg (by omega)]
    congr 1; push_cast; ring
  rw [g1, g2] at e4
  linarith

/-- C359 (violation): the aliasing of opposite frequencies is not the same. On a telescope of two sub-apertures or more,
with an outer scale larger than a sub-aperture, along x and without wind, the frequency `0.4/d` has less than its
opposite. -/
theorem aliasing_opposite_violation (s : Sys) (h : Seen s (0.4 / s.dsub, 0)) (hm : s.mv = 0) (hn : 1 ≤ s.nL)
    (hN : 2 ≤ s.nTimes) (hN' : s.nTimes ≤ 4) (hg : 0 < s.gain) (he : 0 < s.eps) (he1 : s.eps ≤ 1)
    (hw : ∑ l ∈ range s.nL, s.w l = 1) (hv : ∀ l < s.nL, s.speed l = 0) (hin : s.inside (0.4 / s.dsub, 0) = true)
    (hd : 0 < s.dsub) (hD : 2 * s.dsub ≤ s.D) (hL : s.dsub ≤ s.L0) (hr : 0 < s.r0) :
    ∃ a b, s.aliasPsd false (0.4 / s.dsub, 0) = some a ∧ s.aliasPsd false (-(0.4 / s.dsub), 0) = some b ∧ a < b := by
  obtain ⟨a, b, ha, hb, e⟩ := aliasing_opposite_difference s _ h hm hn (by omega) hg he he1 hw hv
  refine ⟨a, b, ha, hb, ?_⟩
  rw [hin] at e
  have hN1 : (2:ℝ) ≤ s.nTimes := by exact_mod_cast hN
  have hN2 : (s.nTimes:ℝ) ≤ 4 := by exact_mod_cast hN'
  set N : ℝ := (s.nTimes : ℝ)
  have hlt : along s (0.4 / s.dsub + N / s.dsub) < along s (0.4 / s.dsub - N / s.dsub) := by
    have f1 : 0.4 / s.dsub + N / s.dsub = (N + 0.4) / s.dsub := by ring
    have f2 : along s (0.4 / s.dsub - N / s.dsub) = along s ((N - 0.4) / s.dsub) := by
      rw [← along_neg]; congr 1; ring
    rw [f1, f2]
    have p1 : 0 < (N + 0.4) / s.dsub := by positivity
    have p2 : 0 < (N - 0.4) / s.dsub := div_pos (by linarith) hd
    have pf := (Psf.pistonFilter_spec s.D |(N + 0.4) / s.dsub|).2.1
    have hDp : 0 < s.D := by linarith
    have pl : 0.95 ≤ Psf.pistonFilter s.D |(N - 0.4) / s.dsub| := by
      rw [abs_of_pos p2, Psf.pistonFilter_unclipped _ _ p2.ne']
      have hp := Real.pi_gt_three
      have hx : 9.6 ≤ Real.pi * s.D * ((N - 0.4) / s.dsub) := by
        have : 3.2 ≤ s.D * ((N - 0.4) / s.dsub) := by
          rw [← mul_div_assoc, le_div_iff₀ hd]
          nlinarith
        nlinarith
      have hdec := sombrero1_decay (Real.pi * s.D * ((N - 0.4) / s.dsub)) (by linarith)
      rw [abs_of_pos (by linarith : 0 < Real.pi * s.D * ((N - 0.4) / s.dsub))] at hdec
      have : 1 / (Real.pi * s.D * ((N - 0.4) / s.dsub)) ≤ 1 / 9.6 := one_div_le_one_div_of_le (by norm_num) hx
      have hb := abs_le.1 (le_trans hdec this)
      nlinarith
    unfold along
    set A := ((N + 0.4) / s.dsub) ^ 2 + 1 / s.L0 ^ 2
    set B := ((N - 0.4) / s.dsub) ^ 2 + 1 / s.L0 ^ 2
    have hLp : 0 < s.L0 := by linarith
    have hB : 0 < B := by positivity
    have hA : 0 < A := by positivity
    have hAB : 1.4 * B ≤ A := by
      have hl : 1 / s.L0 ^ 2 ≤ 1 / s.dsub ^ 2 := one_div_le_one_div_of_le (by positivity) (by nlinarith)
      have : 0 ≤ ((N + 0.4) ^ 2 - 1.4 * (N - 0.4) ^ 2 - 0.4) / s.dsub ^ 2 := by
        apply div_nonneg _ (by positivity)
        nlinarith
      have e5 : A - 1.4 * B = ((N + 0.4) ^ 2 - 1.4 * (N - 0.4) ^ 2 - 0.4) / s.dsub ^ 2 + 0.4 * (1 / s.dsub ^ 2 - 1 / s.L0 ^ 2) := by
        simp only [A, B]; ring
      nlinarith
    have hpow : A ^ (-(11:ℝ) / 6) ≤ (1.4 * B) ^ (-(11:ℝ) / 6) :=
      Real.rpow_le_rpow_of_nonpos (by positivity) hAB (by norm_num)
    rw [Real.mul_rpow (by norm_num) hB.le] at hpow
    have h14 : (1.4 : ℝ) ^ (-(11:ℝ) / 6) ≤ 1.4 ^ (-(1:ℝ)) :=
      Real.rpow_le_rpow_of_exponent_le (by norm_num) (by norm_num)
    rw [Real.rpow_neg_one] at h14
    have hBp : 0 < B ^ (-(11:ℝ) / 6) := Real.rpow_pos_of_pos hB _
    have hAp : 0 < A ^ (-(11:ℝ) / 6) := Real.rpow_pos_of_pos hA _
    calc Psf.pistonFilter s.D |(N + 0.4) / s.dsub| * A ^ (-(11:ℝ) / 6) ≤ 1 * A ^ (-(11:ℝ) / 6) :=
          mul_le_mul_of_nonneg_right pf hAp.le
      _ ≤ (1.4)⁻¹ * B ^ (-(11:ℝ) / 6) := by
          rw [one_mul]
          exact le_trans hpow (mul_le_mul_of_nonneg_right h14 hBp.le)
      _ < 0.95 * B ^ (-(11:ℝ) / 6) := mul_lt_mul_of_pos_right (by norm_num) hBp
      _ ≤ _ := mul_le_mul_of_nonneg_right pl hBp.le
  have hc : 0 < msk true * 0.0229 * s.r0 ^ (-(5/3) : ℝ) * (s.gain / (s.gain + s.eps)) ^ 2 := by
    have := Real.rpow_pos_of_pos hr (-(5/3) : ℝ)
    have : 0 < s.gain / (s.gain + s.eps) := by positivity
    simp only [msk, if_true]
    positivity
  nlinarith


/-! ### The hypotheses are met -/

/-- Every frequency below `1/d` is measured. -/
theorem seen_of (s : Sys) (k : ℝ × ℝ) (hd : s.dsub ≠ 0) (hk : k ≠ (0, 0)) (h1 : |s.dsub * k.1| < 1) (h2 : |s.dsub * k.2| < 1) :
    Seen s k := by
  have key : ∀ x : ℝ, |x| < 1 → npSinc x ≠ 0 := by
    intro x hx h0
    have := sinc_mul x
    rw [h0, mul_zero] at this
    obtain ⟨n, hn⟩ := Real.sin_eq_zero_iff.1 this.symm
    have hp := Real.pi_pos.ne'
    have e : x = n := by
      have : Real.pi * x = Real.pi * n := by rw [← hn]; ring
      exact mul_left_cancel₀ hp this
    rw [e] at hx h0
    have hn1 : |n| < 1 := by exact_mod_cast hx
    rw [Int.abs_lt_one_iff.1 hn1] at h0
    simp [npSinc] at h0
  exact ⟨hd, hk, key _ h1, key _ h2⟩

/-- An 8 m telescope with sub-apertures of 0.5 m under one layer at 10 km. -/
noncomputable def demo : Sys where
  nL := 1
  w := fun _ => 1
  hs := fun _ => 10000
  speed := fun _ => 0
  dirDeg := fun _ => 0
  r0 := 0.15
  L0 := 25
  D := 8
  gain := 0.5
  delay := 1
  rate := 1000
  eps := 2.2e-16
  dsub := 0.5
  clock := 1
  mv := 0
  var := 0.1
  wvlRatio := 1
  kc := 1
  circle := false
  nTimes := 2
  nRef := 1.00027
  nGs := 1.00028
  zenith := 30

example : ∃ v, demo.stPsd (0, 0) false (0.8, 0) = some (msk true * v) ∧
    v = (2.2e-16 / (2.2e-16 + 0.5)) ^ 2 * demo.watm false (0.8, 0) := by
  have h : Seen demo (0.8, 0) := seen_of _ _ (by norm_num [demo]) (by simp; norm_num) (by norm_num [demo, abs_lt]) (by norm_num [demo])
  have hin : demo.inside (0.8, 0) = true := by
    simp only [Sys.inside, demo, Freq.mskIn, decide_eq_true_eq, Bool.false_eq_true, if_false]
    rw [abs_lt]; norm_num
  rw [static_corrected demo (0.8, 0) h rfl (by norm_num [demo]) (by norm_num [demo]) (by norm_num [demo]) (by simp [demo])
    (fun _ _ => rfl), hin]
  exact ⟨_, rfl, rfl⟩

/-- The aliasing of the frequencies `0.8` and `-0.8` along x differ. -/
example : ∃ a b, demo.aliasPsd false (0.4 / 0.5, 0) = some a ∧ demo.aliasPsd false (-(0.4 / 0.5), 0) = some b ∧ a < b := by
  refine aliasing_opposite_violation demo ?_ rfl ?_ ?_ ?_ ?_ ?_ ?_ ?_ ?_ ?_ ?_ ?_ ?_ ?_
  · exact seen_of _ _ (by norm_num [demo]) (by norm_num [demo]) (by norm_num [demo, abs_lt]) (by norm_num [demo])
  · exact le_refl 1
  · exact le_refl 2
  · show 2 ≤ 4; norm_num
  · norm_num [demo]
  · norm_num [demo]
  · norm_num [demo]
  · simp [demo]
  · exact fun _ _ => rfl
  · simp only [Sys.inside, demo, Freq.mskIn, decide_eq_true_eq, Bool.false_eq_true, if_false]
    rw [abs_lt]; norm_num
  · norm_num [demo]
  · norm_num [demo]
  · norm_num [demo]
  · norm_num [demo]

/-- A wind that carries the pattern `(1, 0)` at half the frequency of the loop: the conditions of `servoLag_rejection`
hold, and the loop amplifies. -/
example : ∃ s : Sys, s.nL = 1 ∧ s.speed 0 = 0.5 ∧ Seen s (1, 0) ∧ s.mv = 0 ∧ ∑ l ∈ range s.nL, s.w l = 1 ∧
    (∀ l < s.nL, s.eps ≤ ‖1 + openLoop s.eps s.gain s.delay (s.z (1, 0) l)‖) := by
  refine ⟨{ demo with speed := fun _ => 0.5, rate := 1 }, rfl, rfl, ?_, rfl, by simp [demo], ?_⟩
  · exact seen_of _ _ (by norm_num [demo]) (by simp) (by norm_num [demo, abs_lt]) (by norm_num [demo])
  · intro l _
    have hz : Sys.z { demo with speed := fun _ => 0.5, rate := 1 } (1, 0) l = -1 := by
      have e : Sys.tfreq { demo with speed := fun _ => 0.5, rate := 1 } (1, 0) l * (1 / 1) = -(1 / 2) := by
        simp [Sys.tfreq, Sys.vx, Sys.vy, demo]; norm_num
      unfold Sys.z
      show zOf (Sys.tfreq _ _ _ * (1 / 1)) = -1
      rw [e]
      unfold zOf
      rw [← Complex.exp_pi_mul_I]
      congr 1
      push_cast; ring
    rw [hz]
    have ho : openLoop (2.2e-16) (0.5) 1 (-1) = ((-0.25 : ℝ) : ℂ) := by
      unfold openLoop hInt guardD
      have : ‖(1:ℂ) - (-1)⁻¹‖ = 2 := by norm_num
      rw [this, if_neg (by norm_num)]
      have : (-1 : ℂ) ^ (-((1:ℝ):ℂ)) = -1 := by
        rw [Complex.ofReal_one, Complex.cpow_neg, Complex.cpow_one]; norm_num
      rw [this]
      push_cast
      norm_num
    show (2.2e-16 : ℝ) ≤ ‖1 + openLoop (2.2e-16) (0.5) 1 (-1)‖
    rw [ho, show (1:ℂ) + ((-0.25 : ℝ) : ℂ) = ((0.75 : ℝ) : ℂ) by push_cast; norm_num, Complex.norm_real]
    norm_num

/-- `demo` towards a source: every contribution is defined, and the one of the refraction is in the case of
`refraction_azimuth_violation`. -/
example : (∃ t, demo.terms 0.3 (1e-5, 0) 90 false (0.8, 0.3) = some t) ∧
    0 < demo.diffRefPsd 90 false (0.8, 0) ∧ expectedRefraction demo 90 (0.8, 0) = 0 := by
  refine ⟨?_, ?_⟩
  · have h : Seen demo (0.8, 0.3) := seen_of _ _ (by norm_num [demo]) (by simp; norm_num) (by norm_num [demo, abs_lt]) (by norm_num [demo, abs_lt])
    obtain ⟨hx, hy⟩ := rx_seen demo _ h rfl
    unfold Sys.terms Sys.noisePsd Sys.aliasPsd Sys.stPsd
    rw [hx, hy]
    exact ⟨_, rfl⟩
  · have hin : demo.inside (0.8, 0) = true := by
      simp only [Sys.inside, demo, Freq.mskIn, decide_eq_true_eq, Bool.false_eq_true, if_false]
      rw [abs_lt]; norm_num
    have hw : 0 < demo.watm false (0.8, 0) := by
      unfold Sys.watm Sys.turb Sys.piston
      have g1 : 0 < Real.Gamma (6/5) := Real.Gamma_pos_of_pos (by norm_num)
      have g2 : 0 < Real.Gamma (11/6) := Real.Gamma_pos_of_pos (by norm_num)
      have p1 := Psf.pistonFilter_pos demo.D (kmod (0.8, 0)) (by norm_num [demo])
      have hr : (0:ℝ) < demo.r0 := by norm_num [demo]
      have hL : (0:ℝ) < demo.L0 := by norm_num [demo]
      have hp := Real.pi_pos
      simp only [Bool.false_eq_true, if_false]
      positivity
    have t30 : Real.tan (demo.zenith * Real.pi / 180) = 1 / √3 := by
      rw [show demo.zenith * Real.pi / 180 = Real.pi / 6 by simp only [demo]; ring, Real.tan_pi_div_six]
    set y := (demo.nRef - demo.nGs) * Real.tan (demo.zenith * Real.pi / 180) with hy
    have h3 : 1 < √3 := by rw [Real.lt_sqrt] <;> norm_num
    have hyv : y = -(1e-5 * (1 / √3)) := by rw [hy, t30]; simp only [demo]; ring
    have q1 : 0 < 1 / √3 := by positivity
    have q2 : 1 / √3 < 1 := by rw [div_lt_one (by linarith)]; exact h3
    have hy1 : y < 0 := by rw [hyv]; linarith
    have hy2 : -1e-5 < y := by rw [hyv]; nlinarith
    have hpi := Real.pi_gt_three
    have hcos : 1 / 2 < Real.cos y := by
      have := Real.one_sub_sq_div_two_le_cos (x := y)
      nlinarith
    have hsin : |Real.sin y| ≤ |y| := Real.abs_sin_le_abs
    have hs0 : Real.sin y < 0 := Real.sin_neg_of_neg_of_neg_pi_lt hy1 (by linarith)
    have ht : |Real.tan y| < 2e-5 := by
      rw [Real.tan_eq_sin_div_cos, abs_div, abs_of_pos (by linarith : 0 < Real.cos y), div_lt_iff₀ (by linarith)]
      have : |y| < 1e-5 := by rw [abs_lt]; constructor <;> linarith
      nlinarith
    have ht0 : Real.tan y ≠ 0 := by
      rw [Real.tan_eq_sin_div_cos]
      exact div_ne_zero hs0.ne (by linarith)
    have r := refraction_azimuth_violation demo 0.8 (by norm_num [demo]) rfl (by norm_num [demo]) hin hw
      (by rw [← hy]; apply abs_pos.2; refine mul_ne_zero (mul_ne_zero ?_ ht0) ?_ <;> norm_num [demo])
      (by
        rw [← hy, abs_mul, abs_mul]
        rw [show |demo.hs 0| = 10000 by norm_num [demo], show |(0.8:ℝ)| = 0.8 by norm_num]
        nlinarith)
    exact ⟨r.2, r.1⟩

/-! ### Corrected area -/

/-- The corrected area: a disc or a square of half-width `kc`. -/
def Corrected (s : Sys) (k : ℝ × ℝ) : Prop :=
  if s.circle = true then k.1 ^ 2 + k.2 ^ 2 < s.kc ^ 2 else |k.1| < s.kc ∧ |k.2| < s.kc

/-- C353: the turbulence is the spectrum of the atmosphere with its r0 and outer scale, without piston and zero at the
central pixel. -/
theorem watm_spectrum (s : Sys) (a : Atmosphere.Atm) (h1 : a.r0 = s.r0) (h2 : a.L0 = s.L0) (k : ℝ × ℝ) :
    s.watm true k = 0 ∧
    s.watm false k = Atmosphere.spectrum a (kmod k) * Psf.pistonFilter s.D (kmod k) := by
  constructor
  · simp [Sys.watm, Sys.piston]
  · simp [Sys.watm, Sys.piston, Sys.turb, Atmosphere.spectrum, h1, h2]

/-- C353: inside the corrected area there is no fitting error; outside there is only the fitting error, the chromatic
error and the whole turbulence (without loop, the spatio-temporal spectrum is not limited). -/
theorem corrected_area (s : Sys) (ng : ℝ) (th : ℝ × ℝ) (az : ℝ) (c : Bool) (k : ℝ × ℝ) (a : Atmosphere.Atm)
    (h1 : a.r0 = s.r0) (h2 : a.L0 = s.L0) :
    (Corrected s k → s.fitPsd k = 0) ∧
    (¬ Corrected s k → s.fitPsd k = Atmosphere.spectrum a (kmod k) ∧ s.aniPsd th c k = 0 ∧ s.diffRefPsd az c k = 0 ∧
      ∀ x, (s.noisePsd ng c k = some x ∨ (s.gain ≠ 0 ∧ (s.stPsd th c k = some x ∨ s.lagPsd c k = some x)) ∨ s.aliasPsd c k = some x) →
        x = 0) := by
  have hi : s.inside k = true ↔ Corrected s k := by
    unfold Sys.inside
    rw [decide_eq_true_iff]
    rfl
  have ho : Freq.mskOut s.circle s.kc k.1 k.2 ↔ ¬ Corrected s k := by
    unfold Freq.mskOut Corrected
    split_ifs
    · exact not_lt.symm
    · rw [not_and_or, not_lt, not_lt]
  constructor
  · intro h
    unfold Sys.fitPsd Freq.fittingPsd
    rw [if_neg (fun h' => ho.1 h' h)]
  · intro h
    have hf : s.inside k = false := by
      rw [← Bool.not_eq_true]; exact fun h' => h (hi.1 h')
    refine ⟨?_, ?_, ?_, ?_⟩
    · unfold Sys.fitPsd Freq.fittingPsd
      rw [if_pos (ho.2 h)]
      unfold Atmosphere.spectrum kmod
      rw [h1, h2]
    · simp [Sys.aniPsd, anisoPsd, hf, msk]
    · simp [Sys.diffRefPsd, Fourier.diffRefPsd, hf, msk]
    · rintro x (h | ⟨hg, h | h⟩ | h)
      · unfold Sys.noisePsd at h
        cases hx : s.rx c k <;> cases hy : s.ry c k <;> simp [hx, hy, noiseScao, hf, msk] at h; exact h.symm
      · unfold Sys.stPsd at h
        cases hx : s.rx c k <;> cases hy : s.ry c k <;> simp [hx, hy, spatioTemporal, hf, msk, hg] at h; exact h.symm
      · unfold Sys.lagPsd at h
        cases hx : s.rx c k <;> cases hy : s.ry c k <;> simp [hx, hy, servoLag, hf, msk, hg] at h; exact h.symm
      · unfold Sys.aliasPsd at h
        cases hx : s.rx c k <;> cases hy : s.ry c k <;> simp [hx, hy, Fourier.aliasPsd, hf, msk] at h; exact h.symm

/-- C353: the temporal frequency of a layer, for a spatial frequency of modulus `κ` in the direction `φ` (degrees): the wind
speed times the component of the spatial frequency along the wind. -/
theorem temporal_frequency (s : Sys) (l : ℕ) (κ φ : ℝ) :
    |s.tfreq (κ * Real.cos (φ * Real.pi / 180), κ * Real.sin (φ * Real.pi / 180)) l| =
      |s.speed l * κ * Real.cos ((s.dirDeg l - φ) * Real.pi / 180)| := by
  have e : (s.dirDeg l - φ) * Real.pi / 180 = s.dirDeg l * Real.pi / 180 - φ * Real.pi / 180 := by ring
  rw [e, Real.cos_sub, ← abs_neg]
  unfold Sys.tfreq Sys.vx Sys.vy
  congr 1
  simp only []
  ring

/-! ### Cases that meet the hypotheses -/

theorem demo_seen : Seen demo (0.8, 0) :=
  seen_of _ _ (by norm_num [demo]) (by simp; norm_num) (by norm_num [demo, abs_lt]) (by norm_num [demo])

theorem demo_seen' : Seen demo (0.8, 0.3) :=
  seen_of _ _ (by norm_num [demo]) (by simp; norm_num) (by norm_num [demo, abs_lt]) (by norm_num [demo, abs_lt])

theorem demo_inside : demo.inside (0.8, 0) = true := by
  simp only [Sys.inside, demo, Freq.mskIn, decide_eq_true_eq, Bool.false_eq_true, if_false]
  rw [abs_lt]; norm_num

/-- A case meeting the hypotheses of `static_off_axis`. -/
example : demo.stPsd (1e-5, 0) false (0.8, 0) = some (msk true * ((2.2e-16 / (2.2e-16 + 0.5)) ^ 2 * demo.watm false (0.8, 0)) +
    0.5 / (0.5 + 2.2e-16) * demo.aniPsd (1e-5, 0) false (0.8, 0)) := by
  have h := static_off_axis demo (1e-5, 0) (0.8, 0) demo_seen rfl (by norm_num [demo]) (by norm_num [demo])
    (by norm_num [demo]) (by simp [demo]) (fun _ _ => rfl)
  rw [demo_inside] at h
  exact h

/-- A case meeting the hypotheses of `residual_scales`. -/
example : ∃ t t', demo.terms 0.3 (1e-5, 0) 90 false (0.8, 0.3) = some t ∧
    (withR0 demo (2 * demo.r0)).terms 0.3 (1e-5, 0) 90 false (0.8, 0.3) = some t' ∧ t'.noise = t.noise ∧
      psdFinal 3 none true t' - t'.noise * 3 ^ 2 = 2 ^ (-(5:ℝ)/3) * (psdFinal 3 none true t - t.noise * 3 ^ 2) := by
  have ht : ∃ t, demo.terms 0.3 (1e-5, 0) 90 false (0.8, 0.3) = some t := by
    obtain ⟨hx, hy⟩ := rx_seen demo _ demo_seen' rfl
    unfold Sys.terms Sys.noisePsd Sys.aliasPsd Sys.stPsd
    rw [hx, hy]
    exact ⟨_, rfl⟩
  obtain ⟨t, ht⟩ := ht
  obtain ⟨t', h⟩ := residual_scales demo 2 3 0.3 (1e-5, 0) 90 false (0.8, 0.3) (by norm_num) (by norm_num [demo]) rfl t ht
  exact ⟨t, t', ht, h⟩

/-- A case meeting the hypotheses of `aliasing_rigaut`. -/
example : ∃ v, demo.aliasPsd false (0.8, 0.3) = some v :=
  ⟨_, aliasing_rigaut demo (0.8, 0.3) demo_seen' rfl (le_refl 1) (by norm_num) (by norm_num)⟩

/-- A case meeting the hypotheses of `aliasing_axis`. -/
example : ∃ v, demo.aliasPsd false (0.8, 0) = some v :=
  ⟨_, aliasing_axis demo 0.8 demo_seen rfl (le_refl 1) (by norm_num [demo]) (by norm_num [demo]) (by norm_num [demo])
    (by norm_num [demo]) (by simp [demo]) (fun _ _ => rfl)⟩

/-- A case meeting the hypotheses of `aliasing_opposite_difference`. -/
example : ∃ a b, demo.aliasPsd false (0.8, 0) = some a ∧ demo.aliasPsd false (-0.8, 0) = some b ∧
    a - b = 1 * 0.0229 * 0.15 ^ (-(5/3) : ℝ) * (0.5 / (0.5 + 2.2e-16)) ^ 2 *
      (along demo (0.8 + (2 : ℕ) / 0.5) - along demo (0.8 - (2 : ℕ) / 0.5)) := by
  have h := aliasing_opposite_difference demo 0.8 demo_seen rfl (le_refl 1) (by norm_num [demo]) (by norm_num [demo])
    (by norm_num [demo]) (by norm_num [demo]) (by simp [demo]) (fun _ _ => rfl)
  rw [demo_inside] at h
  exact h

end P3.Spectra
