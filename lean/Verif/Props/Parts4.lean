import Verif.Props.Reconstruction
import Verif.Props.Telemetry
import Verif.Props.Sphere

/-! Further theorems on telemetry, archives and reconstruction, found necessary by testing against wrong programs. -/

namespace P3.Rec
open Finset

/-- C112: the term of a pair of modes in the `Uij` formula is half the sum, over the pairs of pixels at the separation, of the
product of the differences of the two modes, weighted by the pupil at both pixels (any pupil, also grey). -/
theorem uij_spec {N : ℕ} [NeZero N] (P a b : Pix N → ℝ) (r : Pix N) :
    uij P a b r = 1 / 2 * ∑ y, P (y + r) * P y * ((a (y + r) - a y) * (b (y + r) - b y)) := by
  have : (fun k => (((dft (toC (fun y => a y * b y * P y)) k * (starRingEnd ℂ) (dft (toC P) k)).re -
      (dft (toC (fun y => a y * P y)) k * (starRingEnd ℂ) (dft (toC (fun y => b y * P y)) k)).re : ℝ) : ℂ)) = fun k =>
      (((dft (toC (fun y => a y * b y * P y)) k * (starRingEnd ℂ) (dft (toC P) k)).re : ℝ) : ℂ)
      + (-1 : ℂ) * (((dft (toC (fun y => a y * P y)) k * (starRingEnd ℂ) (dft (toC (fun y => b y * P y)) k)).re : ℝ) : ℂ) := by
    ext k; push_cast; ring
  rw [uij, this, idft_add, idft_smul, idft_re, idft_re]
  have : ∀ u v : ℝ, ((u : ℂ) + -1 * (v : ℂ)).re = u - v := by intro u v; simp; ring
  rw [this]
  unfold corr
  rw [← sum_add_distrib, ← sum_add_distrib, sum_div, sum_div, mul_sum, ← sum_sub_distrib]
  refine sum_congr rfl fun y _ => ?_
  ring

/-- C112: the shift of the loop is that of `fftshift` for every size: followed by a shift of half the size (rounded down) it is the
identity; it is its own inverse exactly for even sizes and size one. -/
theorem half_shift (N : ℕ) [NeZero N] (x : Pix N) :
    x + half N + (((N / 2 : ℕ) : ZMod N), ((N / 2 : ℕ) : ZMod N)) = x ∧ (x + half N + half N = x ↔ Even N ∨ N = 1) := by
  have hz : (((N - N / 2 : ℕ) : ZMod N) + ((N / 2 : ℕ) : ZMod N)) = 0 := by
    rw [← Nat.cast_add, Nat.sub_add_cancel (Nat.div_le_self _ _)]; simp
  have hN : 0 < N := Nat.pos_of_ne_zero (NeZero.ne N)
  have h2 : (((N - N / 2 : ℕ) : ZMod N) + ((N - N / 2 : ℕ) : ZMod N)) = 0 ↔ Even N ∨ N = 1 := by
    rw [← Nat.cast_add, ZMod.natCast_eq_zero_iff]
    constructor
    · rintro ⟨c, hc⟩
      by_contra hno
      push Not at hno
      have ho : ¬Even N := hno.1
      rw [Nat.even_iff] at ho
      have h1 : N - N / 2 + (N - N / 2) = N + 1 := by omega
      rw [h1] at hc
      have : N ∣ 1 := (Nat.dvd_add_right (dvd_refl N)).1 ⟨c, hc⟩
      exact hno.2 (Nat.dvd_one.1 this)
    · rintro (h | h)
      · rw [Nat.even_iff] at h
        exact ⟨1, by omega⟩
      · subst h; exact one_dvd _
  constructor
  · rw [add_assoc]
    simp [half, hz]
  · rw [add_assoc, add_eq_left, half, Prod.mk_add_mk, Prod.mk_eq_zero, and_self, h2]

/-- A case: five pixels, the shift applied twice moves the image. -/
example (x : Pix 5) : x + half 5 + half 5 ≠ x := by
  rw [Ne, (half_shift 5 x).2]; decide

end P3.Rec

namespace P3.Telemetry
open Finset

/-- C104: the time of a stamp in hours is the number of seconds since midnight over 3600. -/
theorem timeInHours_spec (s : Stamp) : 3600 * timeInHours s = ((3600 * s.hour + 60 * s.minute + s.second : ℕ) : ℝ) := by
  unfold timeInHours; push_cast; ring

/-- C105: the conversion between seeing and turbulence is that of a Fried parameter `r0 = (0.423 (2π/λ)² C)^(-3/5)` and of a seeing
of `0.976 λ/r0` in arcseconds. -/
theorem mu0_spec (wvl C : ℝ) (hw : 0 < wvl) (hC : 0 < C) :
    (0.976 * wvl / (0.423 * (2 * Real.pi / wvl) ^ 2 * C) ^ (-(3 / 5) : ℝ) * (3600 * 180 / Real.pi)) ^ (5 / 3 : ℝ) = mu0 wvl * C := by
  have hpi := Real.pi_pos
  have hb : 0 < 0.423 * (2 * Real.pi / wvl) ^ 2 * C := by positivity
  have e1 : 0.976 * wvl / (0.423 * (2 * Real.pi / wvl) ^ 2 * C) ^ (-(3 / 5) : ℝ) * (3600 * 180 / Real.pi) =
      (0.976 * (3600 * 180 / Real.pi)) * (wvl * (0.423 * (2 * Real.pi / wvl) ^ 2 * C) ^ (3 / 5 : ℝ)) := by
    rw [Real.rpow_neg hb.le]; field_simp
  rw [e1, Real.mul_rpow (by positivity) (by positivity), Real.mul_rpow hw.le (by positivity), ← Real.rpow_mul hb.le]
  have e2 : ((3 / 5 : ℝ) * (5 / 3)) = 1 := by norm_num
  have e3 : wvl ^ (5 / 3 : ℝ) = wvl ^ 2 / wvl ^ (1 / 3 : ℝ) := by
    rw [eq_div_iff (by positivity), ← Real.rpow_add hw, ← Real.rpow_natCast]; norm_num
  rw [e2, Real.rpow_one, e3, mu0]
  field_simp
  ring

/-- C148 (partial): the transfer function of the sensor is a mean of delays: times `2i f/fs` it is `1 - exp(-2i f/fs)`, and it is one at
zero frequency. Missing: the factor `2 pi` of the frequency. -/
theorem tfWfs_partial (f fs : ℝ) (h : 0 < fs) :
    tfWfs f fs * (2 * Complex.I * f / fs) = 1 - Complex.exp (-2 * Complex.I * f / fs) ∧ tfWfs 0 fs = 1 := by
  constructor
  · by_cases hf : f = 0
    · subst hf; simp
    · have hne : f / fs / Real.pi ≠ 0 := by have := Real.pi_pos; positivity
      have hx : Real.pi * (f / fs / Real.pi) = f / fs := by have := Real.pi_pos.ne'; field_simp
      have hfs : (fs : ℂ) ≠ 0 := by exact_mod_cast h.ne'
      have hfc : (f : ℂ) ≠ 0 := by exact_mod_cast hf
      unfold tfWfs sinc
      rw [if_neg hne, hx]
      push_cast
      rw [Complex.sin]
      have e1 : -1 * Complex.I * (f : ℂ) / fs = -(f / fs : ℂ) * Complex.I := by ring
      have e2 : -2 * Complex.I * (f : ℂ) / fs = -(f / fs : ℂ) * Complex.I + -(f / fs : ℂ) * Complex.I := by ring
      have e3 : Complex.exp ((f / fs : ℂ) * Complex.I) * Complex.exp (-(f / fs : ℂ) * Complex.I) = 1 := by
        rw [← Complex.exp_add]; simp
      rw [e1, e2, Complex.exp_add]
      have hI : Complex.I * Complex.I = -1 := Complex.I_mul_I
      set u := Complex.exp ((f / fs : ℂ) * Complex.I)
      set v := Complex.exp (-(f / fs : ℂ) * Complex.I)
      have : (v - u) * Complex.I / 2 / ((f : ℂ) / fs) * v * (2 * Complex.I * f / fs) = (v - u) * v * (Complex.I * Complex.I) := by
        field_simp
      rw [this, hI]
      linear_combination e3
  · simp [tfWfs, sinc]

/-- C107: the integral over the frequencies is exact for a straight line. -/
theorem trapz_line (n : ℕ) (x : ℕ → ℝ) (a b : ℝ) :
    trapz n (fun k => a * x k + b) x = a * (x n ^ 2 - x 0 ^ 2) / 2 + b * (x n - x 0) := by
  unfold trapz
  induction n with
  | zero => simp
  | succ n ih => rw [sum_range_succ, ih]; ring

/-- C110: keeping one frame in `d` and then one in `e` is keeping one in `d*e`; the first frame is kept; the kept frames are those
of the record. -/
theorem decimate_spec (d e : ℕ) (u : ℕ → ℕ → ℝ) (nF : ℕ) (hd : 0 < d) : decimate e (decimate d u) = decimate (e * d) u ∧
    decimate d u 0 = u 0 ∧ ∀ t, t < decimatedLen nF d ↔ t * d < nF := by
  refine ⟨?_, ?_, fun t => ?_⟩
  · funext t j; simp only [decimate]; rw [mul_assoc]
  · funext j; simp [decimate]
  · unfold decimatedLen
    rw [Nat.lt_iff_add_one_le, Nat.le_div_iff_mul_le hd, add_mul]
    omega

/-- C110: the covariance of the coefficients is symmetric, and its diagonal is the mean square of each. -/
theorem cov_spec (n nExp : ℕ) (c : ℕ → ℕ → ℝ) (i j : ℕ) : cov n nExp c i j = cov n nExp c j i ∧
    cov n nExp c i i = (∑ t ∈ range n, c t i ^ 2) / nExp := by
  constructor
  · unfold cov; congr 1; exact sum_congr rfl fun t _ => mul_comm _ _
  · unfold cov; congr 1; exact sum_congr rfl fun t _ => (sq _).symm

/-- C111: the delays (microseconds) of the eight camera programs with a natural star. -/
theorem loopDelay_values : (List.range 8).map (fun p => loopDelay p true) =
    [some (8040, 8203), some (2640, 2803), some (890, 1053), some (740, 903), some (28040, 28203), some (9540, 9703),
      some (2040, 2203), some (1390, 1553)] := by decide

/-- C483: the noise of a double correlated read is that of a multiple read with one read; sixteen reads give 15, and more reads never
more noise. -/
theorem readNoise_spec (m reads : ℕ) (hm : m ≠ 2) : readNoise 2 reads = readNoise m 1 ∧ readNoise m 16 = 15 ∧
    ∀ r r' : ℕ, 0 < r → r ≤ r' → readNoise m r' ≤ readNoise m r := by
  refine ⟨?_, ?_, fun r r' h0 h => ?_⟩
  · unfold readNoise
    rw [if_pos rfl, if_neg hm]
    have : ((16 : ℝ) / ((1 : ℕ) : ℝ)) ^ (1 / 2 : ℝ) = 4 := by
      rw [← Real.sqrt_eq_rpow]
      have : (16 : ℝ) / ((1 : ℕ) : ℝ) = 4 ^ 2 := by norm_num
      rw [this, Real.sqrt_sq (by norm_num)]
    rw [this]; norm_num
  · unfold readNoise
    rw [if_neg hm]; norm_num
  · unfold readNoise
    rw [if_neg hm, if_neg hm]
    have h1 : (0 : ℝ) < r := by exact_mod_cast h0
    have h2 : (r : ℝ) ≤ r' := by exact_mod_cast h
    have : (16 : ℝ) / r' ≤ 16 / r := div_le_div_of_nonneg_left (by norm_num) h1 h2
    exact mul_le_mul_of_nonneg_left (Real.rpow_le_rpow (div_nonneg (by norm_num) (h1.le.trans h2)) this (by norm_num)) (by norm_num)

end P3.Telemetry
