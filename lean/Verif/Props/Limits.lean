import Verif.Spec.Limits
import Verif.Props.Geometry
import Verif.Props.Controller
import Mathlib.Topology.Instances.Matrix
import Mathlib.Analysis.Matrix.Order
/-
Units of length and limits of the noise (C401-C404).
-/
namespace P3.Limits
open Finset P3.Fourier P3.Tomo P3.Limits.Spec
open P3.Spectra (Sys shifts)

/-! ### Unit of length, one guide star (C401) -/

theorem kmod_in (a : ℝ) (ha : 0 < a) (k : ℝ × ℝ) : kmod (freqIn a k) = kmod k / a := by
  unfold kmod freqIn
  rw [show (k.1 / a, k.2 / a).1 ^ 2 + (k.1 / a, k.2 / a).2 ^ 2 = (k.1 ^ 2 + k.2 ^ 2) / a ^ 2 by simp only; ring,
    Real.sqrt_div (by positivity), Real.sqrt_sq ha.le]

theorem power_unit (a : ℝ) (ha : 0 < a) (r X : ℝ) (hr : 0 < r) (hX : 0 ≤ X) :
    (a * r) ^ (-(5:ℝ)/3) * (X / a ^ 2) ^ (-(11:ℝ)/6) = a ^ 2 * (r ^ (-(5:ℝ)/3) * X ^ (-(11:ℝ)/6)) := by
  rw [Real.mul_rpow ha.le hr.le, Real.div_rpow hX (by positivity)]
  have h1 : (a ^ 2) ^ (-(11:ℝ)/6) = a ^ (-(11:ℝ)/3) := by
    rw [← Real.rpow_natCast, ← Real.rpow_mul ha.le]; norm_num
  have h2 : a ^ (-(5:ℝ)/3) / a ^ (-(11:ℝ)/3) = a ^ 2 := by
    rw [← Real.rpow_sub ha, ← Real.rpow_natCast]; norm_num
  rw [h1, ← h2]
  have : a ^ (-(11:ℝ)/3) ≠ 0 := (Real.rpow_pos_of_pos ha _).ne'
  field_simp

theorem pistonFilter_unit (D f a : ℝ) (ha : 0 < a) (hf : f ≠ 0) : Psf.pistonFilter (a * D) (f / a) = Psf.pistonFilter D f := by
  unfold Psf.pistonFilter
  have e : Real.pi * (a * D) * (f / a) = Real.pi * D * f := by field_simp
  simp only [if_neg (div_ne_zero hf ha.ne'), if_neg hf, e]

theorem mskIn_unit (b : Bool) (kc a : ℝ) (ha : 0 < a) (k : ℝ × ℝ) :
    Freq.mskIn b (kc / a) (freqIn a k).1 (freqIn a k).2 ↔ Freq.mskIn b kc k.1 k.2 := by
  unfold Freq.mskIn freqIn
  cases b
  · simp only [Bool.false_eq_true, if_false, abs_div, abs_of_pos ha, div_lt_div_iff_of_pos_right ha]
  · simp only [if_true, div_pow]
    rw [← add_div, div_lt_div_iff_of_pos_right (by positivity)]

theorem mskOut_unit (b : Bool) (kc a : ℝ) (ha : 0 < a) (k : ℝ × ℝ) :
    Freq.mskOut b (kc / a) (freqIn a k).1 (freqIn a k).2 ↔ Freq.mskOut b kc k.1 k.2 := by
  unfold Freq.mskOut freqIn
  cases b
  · simp only [Bool.false_eq_true, if_false, abs_div, abs_of_pos ha, div_le_div_iff_of_pos_right ha]
  · simp only [if_true, div_pow]
    rw [← add_div, div_le_div_iff_of_pos_right (by positivity)]

theorem kmod_ne (k : ℝ × ℝ) (h : k ≠ (0, 0)) : kmod k ≠ 0 := by
  intro h0
  unfold kmod at h0
  have := (Real.sqrt_eq_zero (by positivity)).1 h0
  apply h
  have h1 : k.1 ^ 2 = 0 := by nlinarith [sq_nonneg k.1, sq_nonneg k.2]
  have h2 : k.2 ^ 2 = 0 := by nlinarith [sq_nonneg k.1, sq_nonneg k.2]
  exact Prod.ext (by simpa using h1) (by simpa using h2)

section
variable (s : Sys) (a : ℝ) (ha : 0 < a)
include ha

theorem un_inside (k : ℝ × ℝ) : (inUnit s a).inside (freqIn a k) = s.inside k := by
  unfold Sys.inside
  exact decide_eq_decide.2 (mskIn_unit s.circle s.kc a ha k)

theorem un_turb (h0 : 0 < s.r0) (k : ℝ × ℝ) : (inUnit s a).turb (freqIn a k) = a ^ 2 * s.turb k := by
  unfold Sys.turb
  rw [kmod_in a ha]
  have e : (kmod k / a) ^ 2 + 1 / (inUnit s a).L0 ^ 2 = (kmod k ^ 2 + 1 / s.L0 ^ 2) / a ^ 2 := by
    simp only [inUnit]; ring
  have := power_unit a ha s.r0 (kmod k ^ 2 + 1 / s.L0 ^ 2) h0 (by positivity)
  rw [e]
  show (a * s.r0) ^ _ * _ * _ = _
  linear_combination ((24 * Real.Gamma (6/5) / 5) ^ ((5:ℝ)/6) * (Real.Gamma (11/6) ^ 2 / (2 * Real.pi ^ ((11:ℝ)/3)))) * this

theorem un_piston (c : Bool) (k : ℝ × ℝ) (hk : c = true ∨ k ≠ (0, 0)) : (inUnit s a).piston c (freqIn a k) = s.piston c k := by
  unfold Sys.piston
  cases c
  · have := kmod_ne k (by simpa using hk)
    simp only [Bool.false_eq_true, if_false]
    rw [kmod_in a ha]
    exact pistonFilter_unit s.D _ a ha this
  · rfl

theorem un_watm (h0 : 0 < s.r0) (c : Bool) (k : ℝ × ℝ) (hk : c = true ∨ k ≠ (0, 0)) :
    (inUnit s a).watm c (freqIn a k) = a ^ 2 * s.watm c k := by
  unfold Sys.watm
  rw [un_turb s a ha h0, un_piston s a ha c k hk]; ring

theorem un_sinc (d x : ℝ) : a * d * (x / a) = d * x := by field_simp

theorem un_av (k : ℝ × ℝ) : (inUnit s a).av (freqIn a k) = s.av k := by
  unfold Sys.av
  show ((npSinc (a * s.dsub * (k.1 / a)) * npSinc (a * s.dsub * (k.2 / a)) : ℝ) : ℂ) *
    Complex.exp ((Real.pi * (a * s.dsub) * (k.1 / a + k.2 / a) : ℝ) * Complex.I) = _
  rw [un_sinc a ha, un_sinc a ha, show Real.pi * (a * s.dsub) * (k.1 / a + k.2 / a) = Real.pi * s.dsub * (k.1 + k.2) by field_simp]

theorem un_s (k : ℝ × ℝ) : (inUnit s a).sx (freqIn a k) = s.sx k ∧ (inUnit s a).sy (freqIn a k) = s.sy k := by
  unfold Sys.sx Sys.sy shResponse
  rw [un_av s a ha]
  have e : ∀ x : ℝ, 2 * Real.pi * (x / a) * (a * s.dsub) = 2 * Real.pi * x * s.dsub := fun x => by field_simp
  constructor
  · show ((2 * Real.pi * (k.1 / a) * (a * s.dsub) : ℝ) : ℂ) * _ * _ = _
    rw [e]
  · show ((2 * Real.pi * (k.2 / a) * (a * s.dsub) : ℝ) : ℂ) * _ * _ = _
    rw [e]

theorem un_reg (h0 : 0 < s.r0) (k : ℝ × ℝ) : (inUnit s a).reg (freqIn a k) = s.reg k := by
  unfold Sys.reg
  rw [un_turb s a ha h0]
  show s.mv * (s.var / (2 * (s.kc / a)) ^ 2) / (a ^ 2 * s.turb k * s.wvlRatio ^ 2) = _
  have : s.mv * (s.var / (2 * (s.kc / a)) ^ 2) = a ^ 2 * (s.mv * (s.var / (2 * s.kc) ^ 2)) := by
    by_cases hk : s.kc = 0
    · simp [hk]
    · field_simp
  rw [this, mul_assoc, mul_div_mul_left _ _ (by positivity)]

theorem un_r (h0 : 0 < s.r0) (c : Bool) (k : ℝ × ℝ) :
    (inUnit s a).rx c (freqIn a k) = s.rx c k ∧ (inUnit s a).ry c (freqIn a k) = s.ry c k := by
  unfold Sys.rx Sys.ry
  rw [un_reg s a ha h0, (un_s s a ha k).1, (un_s s a ha k).2]; exact ⟨rfl, rfl⟩

theorem un_v (x y : ℝ) : a * x * y * (1 : ℝ) = a * (x * y) := by ring

theorem un_atf (k : ℝ × ℝ) (n : ℕ) : (inUnit s a).atf (freqIn a k) n = s.atf k n := by
  unfold Sys.atf Sys.z
  have : (inUnit s a).tfreq (freqIn a k) n = s.tfreq k n := by
    simp only [Sys.tfreq, Sys.vx, Sys.vy, inUnit, freqIn]
    field_simp
  rw [this]; rfl

theorem un_h (k : ℝ × ℝ) : (inUnit s a).h1 (freqIn a k) = s.h1 k ∧ (inUnit s a).h2 (freqIn a k) = s.h2 k := by
  unfold Sys.h1 Sys.h2
  simp only [un_atf s a ha]; exact ⟨rfl, rfl⟩

theorem un_decorr (th k : ℝ × ℝ) : (inUnit s a).decorr th (freqIn a k) = s.decorr th k := by
  unfold Sys.decorr
  have : (fun n => (inUnit s a).hs n * ((freqIn a k).1 * th.2 + (freqIn a k).2 * th.1)) = fun n => s.hs n * (k.1 * th.2 + k.2 * th.1) := by
    funext n
    simp only [inUnit, freqIn]
    field_simp
  rw [this]; rfl

theorem un_shifted (k : ℝ × ℝ) (m : ℤ × ℤ) : (inUnit s a).shifted (freqIn a k) m = freqIn a (s.shifted k m) := by
  unfold Sys.shifted freqIn inUnit
  simp only [Prod.mk.injEq]
  by_cases h : s.dsub = 0
  · simp [h]
  · constructor <;> field_simp

theorem un_qfac (rx ry : ℂ) (q : ℝ × ℝ) : (inUnit s a).qfac rx ry (freqIn a q) = s.qfac rx ry q := by
  unfold Sys.qfac
  show (rx * ((2 * Real.pi * (a * s.dsub) : ℝ) * Complex.I) * ((q.1 / a : ℝ) : ℂ) + ry * ((2 * Real.pi * (a * s.dsub) : ℝ) * Complex.I) * ((q.2 / a : ℝ) : ℂ)) *
    ((npSinc (a * s.dsub * (q.1 / a)) * npSinc (a * s.dsub * (q.2 / a)) : ℝ) : ℂ) = _
  rw [un_sinc a ha, un_sinc a ha]
  have hc : (a : ℂ) ≠ 0 := by exact_mod_cast ha.ne'
  push_cast
  field_simp

theorem un_avr (tf : ℂ) (q : ℝ × ℝ) : (inUnit s a).avrTerm tf (freqIn a q) = s.avrTerm tf q := by
  funext n
  unfold Sys.avrTerm
  have ex : (freqIn a q).1 * (inUnit s a).vx n = q.1 * s.vx n := by
    simp only [Sys.vx, inUnit, freqIn]; field_simp
  have ey : (freqIn a q).2 * (inUnit s a).vy n = q.2 * s.vy n := by
    simp only [Sys.vy, inUnit, freqIn]; field_simp
  rw [ex, ey]; rfl

theorem un_wmn (q : ℝ × ℝ) (h0 : 0 < s.r0) :
    (a * s.r0) ^ (-(5:ℝ)/3) * (inUnit s a).wmn (freqIn a q) = a ^ 2 * (s.r0 ^ (-(5:ℝ)/3) * s.wmn q) := by
  unfold Sys.wmn
  have e : (freqIn a q).1 ^ 2 + (freqIn a q).2 ^ 2 + 1 / (inUnit s a).L0 ^ 2 = (q.1 ^ 2 + q.2 ^ 2 + 1 / s.L0 ^ 2) / a ^ 2 := by
    simp only [inUnit, freqIn]; ring
  rw [e]
  exact power_unit a ha s.r0 _ h0 (by positivity)

theorem un_alias (h0 : 0 < s.r0) (c : Bool) (k : ℝ × ℝ) :
    (inUnit s a).aliasPsd c (freqIn a k) = (s.aliasPsd c k).map (a ^ 2 * ·) := by
  unfold Sys.aliasPsd
  rw [(un_r s a ha h0 c k).1, (un_r s a ha h0 c k).2, un_inside s a ha, (un_h s a ha k).1]
  cases s.rx c k with
  | none => rfl
  | some rx =>
    cases s.ry c k with
    | none => rfl
    | some ry =>
      simp only [Option.bind_some, Option.map_some, un_shifted s a ha, un_qfac s a ha, un_avr s a ha]
      congr 1
      unfold Fourier.aliasPsd
      show msk (s.inside k) * ((shifts s.nTimes).map fun m => Psf.pistonFilter (a * s.D) (kmod (freqIn a (s.shifted k m))) *
        (inUnit s a).wmn (freqIn a (s.shifted k m)) * ‖s.qfac rx ry (s.shifted k m) * chunkSum s.nL (min 5 s.nL) (s.avrTerm (s.h1 k) (s.shifted k m))‖ ^ 2 *
        (if m = (0, 0) then 0 else 1)).sum * (a * s.r0) ^ (-(5/3) : ℝ) * 0.0229 = _
      rw [show (-(5/3) : ℝ) = -(5:ℝ)/3 by ring]
      have key : ((shifts s.nTimes).map fun m => Psf.pistonFilter (a * s.D) (kmod (freqIn a (s.shifted k m))) *
        (inUnit s a).wmn (freqIn a (s.shifted k m)) * ‖s.qfac rx ry (s.shifted k m) * chunkSum s.nL (min 5 s.nL) (s.avrTerm (s.h1 k) (s.shifted k m))‖ ^ 2 *
        (if m = (0, 0) then 0 else 1)).sum * (a * s.r0) ^ (-(5:ℝ)/3) =
        a ^ 2 * (((shifts s.nTimes).map fun m => Psf.pistonFilter s.D (kmod (s.shifted k m)) *
        s.wmn (s.shifted k m) * ‖s.qfac rx ry (s.shifted k m) * chunkSum s.nL (min 5 s.nL) (s.avrTerm (s.h1 k) (s.shifted k m))‖ ^ 2 *
        (if m = (0, 0) then 0 else 1)).sum * s.r0 ^ (-(5:ℝ)/3)) := by
        rw [← List.sum_map_mul_right, ← List.sum_map_mul_right, ← List.sum_map_mul_left]
        congr 1
        apply List.map_congr_left
        intro m _
        by_cases hz : s.shifted k m = (0, 0)
        · have : s.qfac rx ry (s.shifted k m) = 0 := by rw [hz]; simp [Sys.qfac]
          rw [this]; simp
        · rw [kmod_in a ha, pistonFilter_unit s.D _ a ha (kmod_ne _ hz)]
          have := un_wmn s a ha (s.shifted k m) h0
          linear_combination (Psf.pistonFilter s.D (kmod (s.shifted k m)) *
            ‖s.qfac rx ry (s.shifted k m) * chunkSum s.nL (min 5 s.nL) (s.avrTerm (s.h1 k) (s.shifted k m))‖ ^ 2 *
            (if m = (0, 0) then 0 else 1)) * this
      linear_combination (msk (s.inside k) * 0.0229) * key

/-- C401 (one guide star): the values are the same whatever the unit of length in which the system is described: noise, aliasing,
spatio-temporal error, anisoplanatism, refraction, chromatism, fitting, in squared nanometres per sample. -/
theorem units_of_length (h0 : 0 < s.r0) (u ng : ℝ) (th : ℝ × ℝ) (az : ℝ) (c : Bool) (k : ℝ × ℝ) (hk : c = true ∨ k ≠ (0, 0)) :
    (inUnit s a).psd (u / a) ng th az c (freqIn a k) = s.psd u ng th az c k ∧
    (inUnit s a).noisePsd ng c (freqIn a k) = (s.noisePsd ng c k).map (a ^ 2 * ·) ∧
    (inUnit s a).aliasPsd c (freqIn a k) = (s.aliasPsd c k).map (a ^ 2 * ·) ∧
    (inUnit s a).stPsd th c (freqIn a k) = (s.stPsd th c k).map (a ^ 2 * ·) ∧
    (inUnit s a).lagPsd c (freqIn a k) = (s.lagPsd c k).map (a ^ 2 * ·) ∧
    (inUnit s a).aniPsd th c (freqIn a k) = a ^ 2 * s.aniPsd th c k := by
  have hn : (inUnit s a).noisePsd ng c (freqIn a k) = (s.noisePsd ng c k).map (a ^ 2 * ·) := by
    unfold Sys.noisePsd
    rw [(un_r s a ha h0 c k).1, (un_r s a ha h0 c k).2, un_inside s a ha, un_piston s a ha c k hk]
    cases s.rx c k with
    | none => rfl
    | some rx =>
      cases s.ry c k with
      | none => rfl
      | some ry =>
        simp only [Option.bind_some, Option.map_some]
        congr 1
        unfold noiseScao
        show msk (s.inside k) * (‖rx ^ 2 + ry ^ 2‖ / (2 * (s.kc / a)) ^ 2) * s.piston c k * ng * s.var = _
        by_cases hz : s.kc = 0
        · simp [hz]
        · field_simp
  have hst : (inUnit s a).stPsd th c (freqIn a k) = (s.stPsd th c k).map (a ^ 2 * ·) := by
    unfold Sys.stPsd
    rw [(un_r s a ha h0 c k).1, (un_r s a ha h0 c k).2, un_inside s a ha, un_watm s a ha h0 c k hk, (un_h s a ha k).1, (un_h s a ha k).2,
      (un_s s a ha k).1, (un_s s a ha k).2, un_decorr s a ha]
    cases s.rx c k with
    | none => rfl
    | some rx =>
      cases s.ry c k with
      | none => rfl
      | some ry =>
        simp only [Option.bind_some, Option.map_some]
        congr 1
        unfold spatioTemporal
        show (if decide (s.gain = 0) = true then _ else _) = _
        split_ifs <;> ring
  have hlag : (inUnit s a).lagPsd c (freqIn a k) = (s.lagPsd c k).map (a ^ 2 * ·) := by
    unfold Sys.lagPsd
    rw [(un_r s a ha h0 c k).1, (un_r s a ha h0 c k).2, un_inside s a ha, un_watm s a ha h0 c k hk, (un_h s a ha k).1, (un_h s a ha k).2,
      (un_s s a ha k).1, (un_s s a ha k).2]
    cases s.rx c k with
    | none => rfl
    | some rx =>
      cases s.ry c k with
      | none => rfl
      | some ry =>
        simp only [Option.bind_some, Option.map_some]
        congr 1
        unfold servoLag
        show msk (s.inside k) * |if decide (s.gain = 0) = true then _ else _| = _
        have h2 : |a ^ 2| = a ^ 2 := abs_of_pos (by positivity)
        split_ifs
        · rw [show ∀ x : ℝ, x * (a ^ 2 * s.watm c k) = a ^ 2 * (x * s.watm c k) from fun x => by ring, abs_mul, h2]; ring
        · rw [show ∀ x : ℝ, x * (a ^ 2 * s.watm c k) = a ^ 2 * (x * s.watm c k) from fun x => by ring, abs_mul, h2]; ring
  have hani : (inUnit s a).aniPsd th c (freqIn a k) = a ^ 2 * s.aniPsd th c k := by
    unfold Sys.aniPsd anisoPsd
    rw [un_watm s a ha h0 c k hk, un_inside s a ha]
    split_ifs
    · simp
    · have : ∀ n, 2 * Real.pi * (inUnit s a).hs n * ((freqIn a k).1 * th.2 + (freqIn a k).2 * th.1) =
          2 * Real.pi * s.hs n * (k.1 * th.2 + k.2 * th.1) := by
        intro n
        simp only [inUnit, freqIn]; field_simp
      simp only [this]
      show _ * (∑ n ∈ range s.nL, 2 * s.w n * _) * _ = _
      ring
  have hdr : (inUnit s a).diffRefPsd az c (freqIn a k) = a ^ 2 * s.diffRefPsd az c k := by
    unfold Sys.diffRefPsd
    rw [un_watm s a ha h0 c k hk, un_inside s a ha]
    have e0 : (⟨(freqIn a k).1, (freqIn a k).2⟩ : ℂ) = ((1 / a : ℝ) : ℂ) * ⟨k.1, k.2⟩ := by
      apply Complex.ext <;> simp [freqIn, div_eq_inv_mul, ← Complex.ofReal_inv]
    have e1 : Complex.arg ⟨(freqIn a k).1, (freqIn a k).2⟩ = Complex.arg ⟨k.1, k.2⟩ := by
      rw [e0, Complex.arg_real_mul _ (by positivity)]
    rw [e1]
    unfold Fourier.diffRefPsd
    show (if s.zenith = 0 then 0 else _) = _
    split_ifs
    · simp
    · simp only
      have : ∀ n, 2 * Real.pi * (inUnit s a).hs n * kmod (freqIn a k) = 2 * Real.pi * s.hs n * kmod k := by
        intro n
        rw [kmod_in a ha]
        simp only [inUnit]; field_simp
      simp only [this]
      show _ * (∑ n ∈ range s.nL, 2 * s.w n * (1 - Real.cos (_ * Real.tan ((s.nRef - s.nGs) * Real.tan (s.zenith * Real.pi / 180)) * _))) * _ = _
      ring
  have hch : (inUnit s a).chromPsd c (freqIn a k) = a ^ 2 * s.chromPsd c k := by
    unfold Sys.chromPsd Fourier.chromPsd
    rw [un_watm s a ha h0 c k hk]
    show ((s.nGs - s.nRef) / s.nGs) ^ 2 * _ = _
    ring
  have hfit : (inUnit s a).fitPsd (freqIn a k) = a ^ 2 * s.fitPsd k := by
    have := un_turb s a ha h0 k
    unfold Sys.fitPsd Freq.fittingPsd
    have e1 : Freq.mskOut (inUnit s a).circle (inUnit s a).kc (freqIn a k).1 (freqIn a k).2 ↔ Freq.mskOut s.circle s.kc k.1 k.2 :=
      mskOut_unit s.circle s.kc a ha k
    by_cases hx : Freq.mskOut s.circle s.kc k.1 k.2
    · rw [if_pos hx, if_pos (e1.2 hx)]; exact this
    · rw [if_neg hx, if_neg (fun h => hx (e1.1 h))]; simp
  refine ⟨?_, hn, un_alias s a ha h0 c k, hst, hlag, hani⟩
  unfold Sys.psd Sys.terms
  rw [hn, un_alias s a ha h0 c k, hst, hdr, hch, hfit]
  cases s.noisePsd ng c k with
  | none => rfl
  | some n =>
  cases s.aliasPsd c k with
  | none => rfl
  | some w =>
  cases s.stPsd th c k with
  | none => rfl
  | some v =>
  simp only [Option.bind_some, Option.map_some]
  congr 1
  simp only [psdFinal, psdCore, psdAdd, if_true]
  field_simp
  ring

end


/-! ### Unit of length, several guide stars (C401) -/

section
open Matrix P3.Observation
variable {g l lm m q : ℕ} (o : Obs g l lm m q) (a : ℝ) (ha : 0 < a)

include ha

theorem um_meas (d : ℝ) (k : ℝ × ℝ) : meas (a * d) (freqIn a k) = ((1 / a : ℝ) : ℂ) * meas d k := by
  unfold meas
  rw [kmod_in a ha]
  show ((2 * Real.pi * (kmod k / a) * npSinc (a * d * (k.1 / a)) * npSinc (a * d * (k.2 / a)) : ℝ) : ℂ) * _ = _
  rw [un_sinc a ha, un_sinc a ha, ← mul_assoc, ← Complex.ofReal_mul]
  congr 2; ring

theorem um_arg (h x : ℝ) (θ k : ℝ × ℝ) (hx : x = k.1 * θ.1 + k.2 * θ.2) :
    a * h * ((freqIn a k).1 * θ.1 + (freqIn a k).2 * θ.2) = h * x := by
  rw [hx]; simp only [freqIn]; field_simp

theorem um_arg' (h : ℝ) (θ k : ℝ × ℝ) :
    a * h * (θ.1 * (freqIn a k).1 + θ.2 * (freqIn a k).2) = h * (θ.1 * k.1 + θ.2 * k.2) := by
  simp only [freqIn]; field_simp

theorem um_mp (k : ℝ × ℝ) : mp (inUnitObs o a).stars (inUnitObs o a).hm (freqIn a k) = ((1 / a : ℝ) : ℂ) • mp o.stars o.hm k := by
  ext j n
  rw [Matrix.smul_apply]
  unfold mp
  rw [diagonal_mul, diagonal_mul]
  show meas (a * o.stars.d j) (freqIn a k) * phasor (a * o.hm n * ((freqIn a k).1 * (o.stars.dir j).1 + (freqIn a k).2 * (o.stars.dir j).2)) = _
  rw [um_meas a ha, um_arg a ha _ _ _ k rfl]
  simp only [of_apply, smul_eq_mul]; ring

theorem um_windFreq (k : ℝ × ℝ) (n : Fin l) (x : ℝ) : x * (a * o.wind.speed n) * windFreq (inUnitObs o a).wind (freqIn a k) n =
    x * o.wind.speed n * windFreq o.wind k n := by
  simp only [windFreq, inUnitObs, freqIn]; field_simp

theorem um_mpAlpha (k : ℝ × ℝ) : mpAlpha (inUnitObs o a).stars (inUnitObs o a).wind (inUnitObs o a).h (freqIn a k) =
    ((1 / a : ℝ) : ℂ) • mpAlpha o.stars o.wind o.h k := by
  ext j n
  rw [Matrix.smul_apply]
  simp only [mpAlpha, of_apply]
  show meas (a * o.stars.d j) (freqIn a k) * ((npSinc (1 / o.wind.rate * o.wind.clock j * (a * o.wind.speed n) *
    windFreq (inUnitObs o a).wind (freqIn a k) n) : ℝ) : ℂ) * phasor (a * o.h n * ((o.stars.dir j).1 * (freqIn a k).1 + (o.stars.dir j).2 * (freqIn a k).2)) = _
  rw [um_meas a ha, um_arg' a ha, um_windFreq o a ha, smul_eq_mul]; ring

theorem um_pBetaL (β k : ℝ × ℝ) : pBetaL (inUnitObs o a).wind (inUnitObs o a).h β (freqIn a k) = pBetaL o.wind o.h β k := by
  ext i n
  simp only [pBetaL, of_apply]
  show phasor (a * o.h n * (β.1 * (freqIn a k).1 + β.2 * (freqIn a k).2) - o.wind.delay / o.wind.rate * (a * o.wind.speed n) *
    windFreq (inUnitObs o a).wind (freqIn a k) n) = _
  rw [um_arg' a ha, um_windFreq o a ha]

theorem um_pdm (θ k : ℝ × ℝ) : pdm (inUnitObs o a).mirrors.h (inUnitObs o a).mirrors.kc θ (freqIn a k) = pdm o.mirrors.h o.mirrors.kc θ k := by
  ext i j
  simp only [pdm, of_apply]
  show (if kmod (freqIn a k) ≤ o.mirrors.kc j / a then phasor (a * o.mirrors.h j * (θ.1 * (freqIn a k).1 + θ.2 * (freqIn a k).2)) else 0) = _
  rw [kmod_in a ha, um_arg' a ha]
  simp only [div_le_div_iff_of_pos_right ha]

theorem um_pl (θ k : ℝ × ℝ) : pl (inUnitObs o a).hm θ (freqIn a k) = pl o.hm θ k := by
  ext i n
  simp only [pl, of_apply]
  show phasor (a * o.hm n * (θ.1 * (freqIn a k).1 + θ.2 * (freqIn a k).2)) = _
  rw [um_arg' a ha]

theorem um_popt {ι : Type} [Fintype ι] (pm : Matrix (Fin m) (Fin m) ℂ → Matrix (Fin m) (Fin m) ℂ) (S : Samples ι) (f : ι) :
    popt pm (inUnitObs o a).mirrors (inUnitObs o a).hm (samplesIn S a).k f = popt pm o.mirrors o.hm S.k f := by
  unfold popt
  have e1 : (fun f => mirrorCov (inUnitObs o a).mirrors.w
      (fun d => pdm (inUnitObs o a).mirrors.h (inUnitObs o a).mirrors.kc ((inUnitObs o a).mirrors.dir d) ((samplesIn S a).k f))) =
      fun f => mirrorCov o.mirrors.w (fun d => pdm o.mirrors.h o.mirrors.kc (o.mirrors.dir d) (S.k f)) := by
    funext f
    congr 1
    funext d
    exact um_pdm o a ha _ _
  have e2 : (fun d => pdm (inUnitObs o a).mirrors.h (inUnitObs o a).mirrors.kc ((inUnitObs o a).mirrors.dir d) ((samplesIn S a).k f)) =
      fun d => pdm o.mirrors.h o.mirrors.kc (o.mirrors.dir d) (S.k f) := by
    funext d; exact um_pdm o a ha _ _
  have e3 : (fun d => pl (inUnitObs o a).hm ((inUnitObs o a).mirrors.dir d) ((samplesIn S a).k f)) =
      fun d => pl o.hm (o.mirrors.dir d) (S.k f) := by
    funext d; exact um_pl o a ha _ _
  rw [e1, e2, e3]; rfl

theorem um_piston {ι : Type} (S : Samples ι) (f : ι) (hk : S.centre f = true ∨ S.k f ≠ (0, 0)) :
    (inUnitObs o a).piston (samplesIn S a) f = o.piston S f := by
  unfold Obs.piston
  show (if S.centre f then 0 else Psf.pistonFilter (a * o.D) (kmod (freqIn a (S.k f)))) = _
  by_cases hc : S.centre f = true
  · rw [if_pos hc, if_pos hc]
  · rw [if_neg hc, if_neg hc, kmod_in a ha, pistonFilter_unit o.D _ a ha (kmod_ne _ (hk.resolve_left hc))]

theorem um_kern {ι : Type} (h0 : 0 < o.r0) (S : Samples ι) (f : ι) (hk : S.centre f = true ∨ S.k f ≠ (0, 0)) :
    (inUnitObs o a).kern (samplesIn S a) f = a ^ 2 * o.kern S f := by
  unfold Obs.kern kernel
  rw [um_piston o a ha S f hk]
  show (a * o.r0) ^ _ * _ * ((freqIn a (S.k f)).1 ^ 2 + (freqIn a (S.k f)).2 ^ 2 + 1 / (a * o.L0) ^ 2) ^ _ * _ = _
  have e : (freqIn a (S.k f)).1 ^ 2 + (freqIn a (S.k f)).2 ^ 2 + 1 / (a * o.L0) ^ 2 = ((S.k f).1 ^ 2 + (S.k f).2 ^ 2 + 1 / o.L0 ^ 2) / a ^ 2 := by
    simp only [freqIn]; ring
  rw [e]
  have := power_unit a ha o.r0 ((S.k f).1 ^ 2 + (S.k f).2 ^ 2 + 1 / o.L0 ^ 2) h0 (by positivity)
  linear_combination ((24 * Real.Gamma (6/5) / 5) ^ ((5:ℝ)/6) * (Real.Gamma (11/6) ^ 2 / (2 * Real.pi ^ ((11:ℝ)/3)))) * o.piston S f * this

omit ha in
theorem cphi_smul (κ : ℝ) (w : Fin l → ℝ) : cphi (a ^ 2 * κ) w = ((a : ℂ) ^ 2) • cphi κ w := by
  unfold cphi
  rw [← diagonal_smul]
  congr 1; funext n
  simp only [Pi.smul_apply, smul_eq_mul]
  push_cast; ring

omit ha in
theorem cphiMod_smul (κ : ℝ) (w : Fin l → ℝ) (wm : Fin lm → ℝ) : cphiMod (a ^ 2 * κ) w wm = ((a : ℂ) ^ 2) • cphiMod κ w wm := by
  unfold cphiMod
  split_ifs <;> exact cphi_smul a _ _

theorem um_tomo {ι : Type} (h0 : 0 < o.r0) (pg : Matrix (Fin g) (Fin g) ℂ → Matrix (Fin g) (Fin g) ℂ) (S : Samples ι)
    (hk : ∀ f, S.centre f = true ∨ S.k f ≠ (0, 0)) (f : ι) :
    (inUnitObs o a).tomo pg (samplesIn S a) f = (a : ℂ) • o.tomo pg S f := by
  have hc : (a : ℂ) ≠ 0 := by exact_mod_cast ha.ne'
  have hs : ∀ f, system (mp (inUnitObs o a).stars (inUnitObs o a).hm ((samplesIn S a).k f))
      (cphiMod ((inUnitObs o a).kern (samplesIn S a) f) (inUnitObs o a).w (inUnitObs o a).wm) (inUnitObs o a).cb =
      system (mp o.stars o.hm (S.k f)) (cphiMod (o.kern S f) o.w o.wm) o.cb := by
    intro f
    unfold system
    rw [um_kern o a ha h0 S f (hk f)]
    show mp (inUnitObs o a).stars (inUnitObs o a).hm (freqIn a (S.k f)) * cphiMod (a ^ 2 * o.kern S f) o.w o.wm *
      (mp (inUnitObs o a).stars (inUnitObs o a).hm (freqIn a (S.k f)))ᴴ + o.cb = _
    rw [um_mp o a ha, cphiMod_smul]
    congr 1
    simp only [Matrix.conjTranspose_smul, Matrix.smul_mul, Matrix.mul_smul, smul_smul]
    have : (star ((1 / a : ℝ) : ℂ) * ((a : ℂ) ^ 2 * ((1 / a : ℝ) : ℂ))) = 1 := by
      rw [show star ((1 / a : ℝ) : ℂ) = ((1 / a : ℝ) : ℂ) from Complex.conj_ofReal _]
      push_cast; field_simp
    rw [this, one_smul]
  have hr : rhs (mp (inUnitObs o a).stars (inUnitObs o a).hm ((samplesIn S a).k f))
      (cphiMod ((inUnitObs o a).kern (samplesIn S a) f) (inUnitObs o a).w (inUnitObs o a).wm) =
      (a : ℂ) • rhs (mp o.stars o.hm (S.k f)) (cphiMod (o.kern S f) o.w o.wm) := by
    unfold rhs
    rw [um_kern o a ha h0 S f (hk f)]
    show cphiMod (a ^ 2 * o.kern S f) o.w o.wm * (mp (inUnitObs o a).stars (inUnitObs o a).hm (freqIn a (S.k f)))ᴴ = _
    rw [um_mp o a ha, cphiMod_smul, Matrix.conjTranspose_smul, Matrix.smul_mul, Matrix.mul_smul, smul_smul]
    congr 1
    rw [show star ((1 / a : ℝ) : ℂ) = ((1 / a : ℝ) : ℂ) from Complex.conj_ofReal _]
    push_cast; field_simp
  unfold Obs.tomo wtomo
  by_cases hu : ∀ f, IsUnit (system (mp o.stars o.hm (S.k f)) (cphiMod (o.kern S f) o.w o.wm) o.cb).det
  · rw [if_pos hu, if_pos (fun f => by rw [hs f]; exact hu f), hs f, hr, Matrix.transpose_smul, Matrix.mul_smul, Matrix.transpose_smul]
  · rw [if_neg hu, if_neg (fun h => hu fun f => by rw [← hs f]; exact h f), hs f, hr, Matrix.smul_mul]

/-- C401 (several guide stars): the same in another unit of length. -/
theorem units_of_length_field {ι : Type} [Fintype ι] (h0 : 0 < o.r0) (pg : Matrix (Fin g) (Fin g) ℂ → Matrix (Fin g) (Fin g) ℂ)
    (pm : Matrix (Fin m) (Fin m) ℂ → Matrix (Fin m) (Fin m) ℂ) (S : Samples ι) (hk : ∀ f, S.centre f = true ∨ S.k f ≠ (0, 0))
    (β : ℝ × ℝ) (f : ι) :
    (inUnitObs o a).residual pg pm (samplesIn S a) β f = a ^ 2 * o.residual pg pm S β f ∧
    (inUnitObs o a).noisePart pg pm (samplesIn S a) β f = a ^ 2 * o.noisePart pg pm S β f := by
  have hc : (a : ℂ) ≠ 0 := by exact_mod_cast ha.ne'
  have hcm : (inUnitObs o a).command pg pm (samplesIn S a) f = (a : ℂ) • o.command pg pm S f := by
    unfold Obs.command
    rw [um_popt o a ha, um_tomo o a ha h0 pg S hk f, Matrix.mul_smul]
  have hin : (inUnitObs o a).inside ((samplesIn S a).k f) = o.inside (S.k f) := by
    unfold Obs.inside
    exact decide_eq_decide.2 (mskIn_unit o.circle o.kc a ha (S.k f))
  constructor
  · unfold Obs.residual residualPsd
    rw [hin, hcm, um_piston o a ha S f (hk f), um_kern o a ha h0 S f (hk f)]
    show _ * (((pBetaL (inUnitObs o a).wind (inUnitObs o a).h β (freqIn a (S.k f)) - pdm (inUnitObs o a).mirrors.h (inUnitObs o a).mirrors.kc β (freqIn a (S.k f)) *
      ((a : ℂ) • o.command pg pm S f * mpAlpha (inUnitObs o a).stars (inUnitObs o a).wind (inUnitObs o a).h (freqIn a (S.k f)))) *
      (cphi (a ^ 2 * o.kern S f) o.w * (pBetaL (inUnitObs o a).wind (inUnitObs o a).h β (freqIn a (S.k f)) - pdm (inUnitObs o a).mirrors.h (inUnitObs o a).mirrors.kc β (freqIn a (S.k f)) *
      ((a : ℂ) • o.command pg pm S f * mpAlpha (inUnitObs o a).stars (inUnitObs o a).wind (inUnitObs o a).h (freqIn a (S.k f))))ᴴ)) 0 0).re * _ = _
    rw [um_pBetaL o a ha, um_pdm o a ha, um_mpAlpha o a ha, Matrix.smul_mul, Matrix.mul_smul (o.command pg pm S f), smul_smul]
    have : (a : ℂ) * ((1 / a : ℝ) : ℂ) = 1 := by push_cast; field_simp
    rw [this, one_smul, cphi_smul, Matrix.smul_mul, Matrix.mul_smul, Matrix.smul_apply, smul_eq_mul]
    rw [show ((a : ℂ) ^ 2) = ((a ^ 2 : ℝ) : ℂ) by push_cast; rfl, Complex.re_ofReal_mul]
    ring
  · unfold Obs.noisePart noisePsd
    rw [hin, hcm, um_piston o a ha S f (hk f)]
    show _ * (((pdm (inUnitObs o a).mirrors.h (inUnitObs o a).mirrors.kc β (freqIn a (S.k f)) * ((a : ℂ) • o.command pg pm S f)) *
      (o.cb * (pdm (inUnitObs o a).mirrors.h (inUnitObs o a).mirrors.kc β (freqIn a (S.k f)) * ((a : ℂ) • o.command pg pm S f))ᴴ)) 0 0).re * _ *
      (min 0.8 (0.4 + 0.1333 * o.wind.delay)) ^ 2 = _
    rw [um_pdm o a ha, Matrix.mul_smul, Matrix.conjTranspose_smul, Matrix.mul_smul, Matrix.smul_mul, Matrix.mul_smul, smul_smul, Matrix.smul_apply, smul_eq_mul]
    rw [show (a : ℂ) * star (a : ℂ) = ((a ^ 2 : ℝ) : ℂ) by
      rw [show star (a : ℂ) = (a : ℂ) from Complex.conj_ofReal _]; push_cast; ring, Complex.re_ofReal_mul]
    ring

end

/-! ### Faint stars (C402) -/

open Filter Topology

theorem turb_pos (s : Sys) (h0 : 0 < s.r0) (hL : 0 < s.L0) (k : ℝ × ℝ) : 0 < s.turb k := by
  unfold Sys.turb
  have h1 := Real.Gamma_pos_of_pos (show (0:ℝ) < 6/5 by norm_num)
  have h2 := Real.Gamma_pos_of_pos (show (0:ℝ) < 11/6 by norm_num)
  have hp := Real.pi_pos
  positivity

/-- `gPSD` with a noise variance `v` is `A + b v`. -/
noncomputable def slopes (s : Sys) (k : ℝ × ℝ) : ℝ := ‖s.sx k‖ ^ 2 + ‖s.sy k‖ ^ 2
noncomputable def regSlope (s : Sys) (k : ℝ × ℝ) : ℝ := s.mv / (2 * s.kc) ^ 2 / (s.turb k * s.wvlRatio ^ 2)
/-- `1/gPSD` -/
noncomputable def damp (s : Sys) (k : ℝ × ℝ) (v : ℝ) : ℝ := 1 / (slopes s k + regSlope s k * v)

theorem regSlope_pos (s : Sys) (h0 : 0 < s.r0) (hL : 0 < s.L0) (hm : 0 < s.mv) (hk : s.kc ≠ 0) (hw : s.wvlRatio ≠ 0) (k : ℝ × ℝ) :
    0 < regSlope s k := by
  have := turb_pos s h0 hL k
  unfold regSlope; positivity

theorem gPSD_noise (s : Sys) (k : ℝ × ℝ) (v : ℝ) :
    gPSD ((withNoise s v).sx k) ((withNoise s v).sy k) ((withNoise s v).reg k) = slopes s k + regSlope s k * v := by
  unfold gPSD slopes regSlope
  show ‖s.sx k‖ ^ 2 + ‖s.sy k‖ ^ 2 + s.mv * (v / (2 * s.kc) ^ 2) / (s.turb k * s.wvlRatio ^ 2) = _
  ring

theorem recon_noise (s : Sys) (h0 : 0 < s.r0) (hL : 0 < s.L0) (hm : 0 < s.mv) (hk : s.kc ≠ 0) (hw : s.wvlRatio ≠ 0) (c : Bool) (k : ℝ × ℝ)
    (v : ℝ) (hv : 0 < v) :
    (withNoise s v).rx c k = some (if c then 0 else (damp s k v : ℂ) * (starRingEnd ℂ) (s.sx k)) ∧
    (withNoise s v).ry c k = some (if c then 0 else (damp s k v : ℂ) * (starRingEnd ℂ) (s.sy k)) := by
  have hb := regSlope_pos s h0 hL hm hk hw k
  have hA : 0 ≤ slopes s k := by unfold slopes; positivity
  have hp : 0 < slopes s k + regSlope s k * v := by positivity
  unfold Sys.rx Sys.ry recon
  rw [gPSD_noise]
  cases c
  · simp only [Bool.false_eq_true, if_false, if_neg hp.ne']
    have e : ∀ z : ℂ, z / ((slopes s k + regSlope s k * v : ℝ) : ℂ) = (damp s k v : ℂ) * z := by
      intro z
      unfold damp
      push_cast; ring
    constructor
    · rw [e]; rfl
    · rw [e]; rfl
  · simp

theorem damp_tendsto (s : Sys) (k : ℝ × ℝ) (hb : 0 < regSlope s k) :
    Tendsto (damp s k) atTop (𝓝 0) ∧ Tendsto (fun v => v * damp s k v ^ 2) atTop (𝓝 0) := by
  have hA : 0 ≤ slopes s k := by unfold slopes; positivity
  have h1 : Tendsto (fun v => slopes s k + regSlope s k * v) atTop atTop :=
    tendsto_atTop_add_const_left _ _ (tendsto_id.const_mul_atTop hb)
  have h2 : Tendsto (damp s k) atTop (𝓝 0) := by
    have h3 := h1.inv_tendsto_atTop
    have e : damp s k = (fun v => slopes s k + regSlope s k * v)⁻¹ := by
      funext v; simp [damp]
    rw [e]; exact h3
  refine ⟨h2, ?_⟩
  have h3 : Tendsto (fun v => 1 / regSlope s k * damp s k v) atTop (𝓝 0) := by simpa using h2.const_mul (1 / regSlope s k)
  refine tendsto_of_tendsto_of_tendsto_of_le_of_le' tendsto_const_nhds h3 ?_ ?_
  · filter_upwards [eventually_gt_atTop 0] with v hv
    have : 0 ≤ damp s k v := by unfold damp; positivity
    positivity
  · filter_upwards [eventually_gt_atTop 0] with v hv
    have hp : 0 < slopes s k + regSlope s k * v := by positivity
    have hd : 0 ≤ damp s k v := by unfold damp; positivity
    have : v * damp s k v ≤ 1 / regSlope s k := by
      unfold damp
      rw [mul_one_div, div_le_div_iff₀ hp hb]
      nlinarith
    calc v * damp s k v ^ 2 = (v * damp s k v) * damp s k v := by ring
      _ ≤ _ := mul_le_mul_of_nonneg_right this hd

theorem qfac_scale (s : Sys) (e : ℂ) (rx ry : ℂ) (q : ℝ × ℝ) : s.qfac (e * rx) (e * ry) q = e * s.qfac rx ry q := by
  unfold Sys.qfac; ring

/-- C402 (partial): with the minimum-variance reconstructor, as the guide star gets fainter the noise and the aliasing vanish and the
spatio-temporal error tends to the turbulence: the spectrum tends to the one of the turbulence without correction, with what does not
depend on the sensor (refraction and chromatism). -/
theorem faint_star_partial (s : Sys) (h0 : 0 < s.r0) (hL : 0 < s.L0) (hm : 0 < s.mv) (hk : s.kc ≠ 0) (hw : s.wvlRatio ≠ 0) (hg : s.gain ≠ 0)
    (u ng : ℝ) (th : ℝ × ℝ) (az : ℝ) (c : Bool) (k : ℝ × ℝ) :
    ∃ t : ℝ → Terms, (∀ v, 0 < v → (withNoise s v).terms ng th az c k = some (t v)) ∧
      Tendsto (fun v => (t v).noise) atTop (𝓝 0) ∧ Tendsto (fun v => (t v).aliasing) atTop (𝓝 0) ∧
      Tendsto (fun v => (t v).st) atTop (𝓝 (if s.inside k then s.watm c k else 0)) ∧
      Tendsto (fun v => psdFinal u none true (t v)) atTop
        (𝓝 (((if s.inside k then s.watm c k else 0) + s.fitPsd k + s.diffRefPsd az c k + s.chromPsd c k) * u ^ 2)) := by
  have hb := regSlope_pos s h0 hL hm hk hw k
  obtain ⟨d1, d2⟩ := damp_tendsto s k hb
  let X : ℂ := if c then 0 else (starRingEnd ℂ) (s.sx k)
  let Y : ℂ := if c then 0 else (starRingEnd ℂ) (s.sy k)
  let N : ℝ := noiseScao (s.inside k) X Y s.kc (s.piston c k) ng 1
  let Al : ℝ := Fourier.aliasPsd (s.inside k) (shifts s.nTimes)
      (fun m => Psf.pistonFilter s.D (kmod (s.shifted k m)))
      (fun m => s.wmn (s.shifted k m))
      (fun m => s.qfac X Y (s.shifted k m))
      (fun m => chunkSum s.nL (min 5 s.nL) (s.avrTerm (s.h1 k) (s.shifted k m)))
      s.r0
  let F : ℂ := loopF X Y (s.sx k) (s.sy k)
  let St : ℝ → ℝ := fun v => msk (s.inside k) * (1 + ‖(damp s k v : ℂ) * F‖ ^ 2 * s.h2 k -
    2 * ((damp s k v : ℂ) * F * s.h1 k * s.decorr th k).re) * s.watm c k
  let t : ℝ → Terms := fun v => ⟨N * (v * damp s k v ^ 2), Al * damp s k v ^ 2, s.diffRefPsd az c k, s.chromPsd c k, St v, 0, fun _ => 0, s.fitPsd k, 0, 1, 0⟩
  have hn : Tendsto (fun v => N * (v * damp s k v ^ 2)) atTop (𝓝 0) := by simpa using d2.const_mul N
  have ha : Tendsto (fun v => Al * damp s k v ^ 2) atTop (𝓝 0) := by simpa using (d1.pow 2).const_mul Al
  have hs : Tendsto St atTop (𝓝 (if s.inside k then s.watm c k else 0)) := by
    have dc : Tendsto (fun v => (damp s k v : ℂ) * F) atTop (𝓝 0) := by
      have := ((Complex.continuous_ofReal.tendsto 0).comp d1).mul_const F
      simpa using this
    have e1 : Tendsto (fun v => ‖(damp s k v : ℂ) * F‖ ^ 2 * s.h2 k) atTop (𝓝 0) := by
      simpa using (dc.norm.pow 2).mul_const (s.h2 k)
    have e2 : Tendsto (fun v => ((damp s k v : ℂ) * F * s.h1 k * s.decorr th k).re) atTop (𝓝 0) := by
      have := (Complex.continuous_re.tendsto _).comp ((dc.mul_const (s.h1 k)).mul_const (s.decorr th k))
      rw [zero_mul, zero_mul, Complex.zero_re] at this
      exact this
    have := ((((tendsto_const_nhds (x := (1:ℝ))).add e1).sub (e2.const_mul 2)).const_mul (msk (s.inside k))).mul_const (s.watm c k)
    have hx : msk (s.inside k) * (1 + 0 - 2 * 0) * s.watm c k = if s.inside k then s.watm c k else 0 := by
      unfold msk; split_ifs <;> simp
    rw [hx] at this
    exact this
  refine ⟨t, ?_, hn, ha, hs, ?_⟩
  · intro v hv
    obtain ⟨rX, rY⟩ := recon_noise s h0 hL hm hk hw c k v hv
    have eX : (if c then (0:ℂ) else (damp s k v : ℂ) * (starRingEnd ℂ) (s.sx k)) = (damp s k v : ℂ) * X := by
      show _ = (damp s k v : ℂ) * (if c then 0 else (starRingEnd ℂ) (s.sx k))
      split_ifs <;> simp
    have eY : (if c then (0:ℂ) else (damp s k v : ℂ) * (starRingEnd ℂ) (s.sy k)) = (damp s k v : ℂ) * Y := by
      show _ = (damp s k v : ℂ) * (if c then 0 else (starRingEnd ℂ) (s.sy k))
      split_ifs <;> simp
    rw [eX] at rX
    rw [eY] at rY
    have hd : 0 ≤ damp s k v := by
      have hA : 0 ≤ slopes s k := by unfold slopes; positivity
      unfold damp; positivity
    have t1 : (withNoise s v).noisePsd ng c k = some (N * (v * damp s k v ^ 2)) := by
      unfold Sys.noisePsd
      rw [rX, rY]
      simp only [Option.bind_some]
      congr 1
      show noiseScao (s.inside k) _ _ s.kc (s.piston c k) ng v = noiseScao (s.inside k) X Y s.kc (s.piston c k) ng 1 * _
      unfold noiseScao
      rw [show ((damp s k v : ℂ) * X) ^ 2 + ((damp s k v : ℂ) * Y) ^ 2 = ((damp s k v ^ 2 : ℝ) : ℂ) * (X ^ 2 + Y ^ 2) by push_cast; ring,
        norm_mul, Complex.norm_real, Real.norm_of_nonneg (by positivity)]
      ring
    have t2 : (withNoise s v).aliasPsd c k = some (Al * damp s k v ^ 2) := by
      unfold Sys.aliasPsd
      rw [rX, rY]
      simp only [Option.bind_some]
      congr 1
      show Fourier.aliasPsd (s.inside k) (shifts s.nTimes) (fun m => Psf.pistonFilter s.D (kmod (s.shifted k m))) (fun m => s.wmn (s.shifted k m))
        (fun m => s.qfac ((damp s k v : ℂ) * X) ((damp s k v : ℂ) * Y) (s.shifted k m))
        (fun m => chunkSum s.nL (min 5 s.nL) (s.avrTerm (s.h1 k) (s.shifted k m))) s.r0 = _
      show _ = Fourier.aliasPsd _ _ _ _ _ _ _ * _
      unfold Fourier.aliasPsd
      simp only [qfac_scale]
      have key : ((shifts s.nTimes).map fun m => Psf.pistonFilter s.D (kmod (s.shifted k m)) * s.wmn (s.shifted k m) *
          ‖(damp s k v : ℂ) * s.qfac X Y (s.shifted k m) * chunkSum s.nL (min 5 s.nL) (s.avrTerm (s.h1 k) (s.shifted k m))‖ ^ 2 *
          (if m = (0, 0) then 0 else 1)).sum =
          ((shifts s.nTimes).map fun m => Psf.pistonFilter s.D (kmod (s.shifted k m)) * s.wmn (s.shifted k m) *
          ‖s.qfac X Y (s.shifted k m) * chunkSum s.nL (min 5 s.nL) (s.avrTerm (s.h1 k) (s.shifted k m))‖ ^ 2 *
          (if m = (0, 0) then 0 else 1)).sum * damp s k v ^ 2 := by
        rw [← List.sum_map_mul_right]
        congr 1
        apply List.map_congr_left
        intro m _
        rw [mul_assoc (damp s k v : ℂ), norm_mul, Complex.norm_real, Real.norm_of_nonneg hd]
        ring
      rw [key]; ring
    have t3 : (withNoise s v).stPsd th c k = some (St v) := by
      unfold Sys.stPsd
      rw [rX, rY]
      simp only [Option.bind_some]
      congr 1
      show spatioTemporal (decide (s.gain = 0)) (s.inside k) (loopF ((damp s k v : ℂ) * X) ((damp s k v : ℂ) * Y) (s.sx k) (s.sy k)) (s.h1 k)
        (s.decorr th k) (s.h2 k) (s.watm c k) = _
      have : loopF ((damp s k v : ℂ) * X) ((damp s k v : ℂ) * Y) (s.sx k) (s.sy k) = (damp s k v : ℂ) * F := by
        show _ = (damp s k v : ℂ) * loopF X Y (s.sx k) (s.sy k)
        unfold loopF; ring
      rw [this]
      unfold spatioTemporal
      rw [if_neg (by simp [hg])]
    unfold Sys.terms
    rw [t1, t2, t3]
    rfl
  · simp only [psdFinal, psdCore, psdAdd, if_true, t]
    have := (((((hn.add ha).add_const (s.diffRefPsd az c k)).add_const (s.chromPsd c k)).add hs).add_const (s.fitPsd k)).mul_const (u ^ 2)
    simp only [add_zero, mul_one, zero_add] at this ⊢
    convert this using 2
    ring


/-! ### Faint stars, several guide stars (C402) -/

section
open Matrix P3.Observation P3.Observation.Spec
open scoped ComplexOrder
variable {g l lm m q : ℕ}

/-- Measurements of the turbulence at a frequency, without noise. -/
noncomputable def signal {ι : Type} (o : Obs g l lm m q) (S : Samples ι) (f : ι) : Matrix (Fin g) (Fin g) ℂ :=
  mp o.stars o.hm (S.k f) * cphi (o.kern S f) (usedWeights o) * (mp o.stars o.hm (S.k f))ᴴ

theorem cphi_psd (κ : ℝ) (hκ : 0 ≤ κ) (w : Fin l → ℝ) (hw : ∀ n, 0 ≤ w n) : (cphi κ w).PosSemidef := by
  unfold cphi
  apply PosSemidef.diagonal
  intro n
  show (0:ℂ) ≤ ((κ * w n : ℝ) : ℂ)
  exact_mod_cast mul_nonneg hκ (hw n)

theorem cb_pd (o : Obs g l lm m q) (hn : ∀ j, 0 < o.noise j) : o.cb.PosDef := by
  unfold Obs.cb
  apply PosDef.diagonal
  intro j
  show (0:ℂ) < ((o.noise j : ℝ) : ℂ)
  exact_mod_cast hn j

theorem signal_psd {ι : Type} (o : Obs g l lm m q) (h0 : 0 ≤ o.r0) (hw : ∀ n, 0 ≤ usedWeights o n) (S : Samples ι) (f : ι) :
    (signal o S f).PosSemidef :=
  (cphi_psd _ (kern_nonneg o h0 S f) _ hw).mul_mul_conjTranspose_same _

theorem noisier_cb (o : Obs g l lm m q) (t : ℝ) : (noisier o t).cb = (t : ℂ) • o.cb := by
  unfold Obs.cb
  rw [← diagonal_smul]
  congr 1; funext j
  simp [noisier]

theorem system_pd {ι : Type} (o : Obs g l lm m q) (h0 : 0 ≤ o.r0) (hw : ∀ n, 0 ≤ usedWeights o n) (hn : ∀ j, 0 < o.noise j)
    (S : Samples ι) (f : ι) (t : ℝ) (ht : 0 < t) : (signal o S f + (t : ℂ) • o.cb).PosDef := by
  rw [← noisier_cb]
  exact PosDef.posSemidef_add (signal_psd o h0 hw S f) (cb_pd _ fun j => mul_pos ht (hn j))

theorem noisier_tomo {ι : Type} (o : Obs g l lm m q) (pg : Matrix (Fin g) (Fin g) ℂ → Matrix (Fin g) (Fin g) ℂ)
    (hp : ∀ A, A.IsHermitian → IsPinv A (pg A)) (h0 : 0 ≤ o.r0) (hw : ∀ n, 0 ≤ usedWeights o n) (hn : ∀ j, 0 < o.noise j)
    (S : Samples ι) (f : ι) (t : ℝ) (ht : 0 < t) :
    (noisier o t).tomo pg S f = cphi (o.kern S f) (usedWeights o) * (mp o.stars o.hm (S.k f))ᴴ * (signal o S f + (t : ℂ) • o.cb)⁻¹ := by
  have hu : IsUnit (signal o S f + (t : ℂ) • o.cb).det := (Matrix.isUnit_iff_isUnit_det _).1 (system_pd o h0 hw hn S f t ht).isUnit
  have h := tomo_normal pg hp (fun f => mp o.stars o.hm (S.k f)) (fun f => cphi (o.kern S f) (usedWeights o)) ((noisier o t).cb)
    (fun f => cphi_psd _ (kern_nonneg o h0 S f) _ hw) (cb_pd (noisier o t) fun j => mul_pos ht (hn j)).posSemidef f
  have e : (noisier o t).tomo pg S f = wtomo pg (fun f => mp o.stars o.hm (S.k f)) (fun f => cphi (o.kern S f) (usedWeights o)) ((noisier o t).cb) f := by
    unfold Obs.tomo
    show wtomo pg (fun f => mp o.stars o.hm (S.k f)) (fun f => cphiMod (o.kern S f) o.w o.wm) _ f = _
    simp only [cphiMod_eq]
  rw [e]
  simp only [noisier_cb] at h ⊢
  rw [← h]
  change _ = wtomo pg (fun f => mp o.stars o.hm (S.k f)) (fun f => cphi (o.kern S f) (usedWeights o)) ((t : ℂ) • o.cb) f *
    (signal o S f + (t : ℂ) • o.cb) * (signal o S f + (t : ℂ) • o.cb)⁻¹
  rw [Matrix.mul_assoc, mul_nonsing_inv _ hu, Matrix.mul_one]

theorem noisier_inv {ι : Type} (o : Obs g l lm m q) (h0 : 0 ≤ o.r0) (hw : ∀ n, 0 ≤ usedWeights o n) (hn : ∀ j, 0 < o.noise j)
    (S : Samples ι) (f : ι) :
    Tendsto (fun t : ℝ => (t : ℂ) • (signal o S f + (t : ℂ) • o.cb)⁻¹) atTop (𝓝 (o.cb⁻¹)) := by
  have hc : ContinuousAt Inv.inv o.cb := by
    apply continuousAt_matrix_inv
    rw [Ring.inverse_eq_inv']
    exact continuousAt_inv₀ ((Matrix.isUnit_iff_isUnit_det _).1 (cb_pd o hn).isUnit).ne_zero
  have h1 : Tendsto (fun t : ℝ => ((t⁻¹ : ℝ) : ℂ) • signal o S f + o.cb) atTop (𝓝 o.cb) := by
    have a : Tendsto (fun t : ℝ => ((t⁻¹ : ℝ) : ℂ)) atTop (𝓝 0) := by
      have := (Complex.continuous_ofReal.tendsto 0).comp (tendsto_inv_atTop_zero (𝕜 := ℝ))
      rw [Complex.ofReal_zero] at this
      exact this
    have := (a.smul_const (signal o S f)).add_const o.cb
    rwa [zero_smul, zero_add] at this
  have h2 := hc.tendsto.comp h1
  refine h2.congr' ?_
  filter_upwards [eventually_gt_atTop 0] with t ht
  have hu : IsUnit (signal o S f + (t : ℂ) • o.cb).det := (Matrix.isUnit_iff_isUnit_det _).1 (system_pd o h0 hw hn S f t ht).isUnit
  have htc : (t : ℂ) ≠ 0 := by exact_mod_cast ht.ne'
  show (((t⁻¹ : ℝ) : ℂ) • signal o S f + o.cb)⁻¹ = _
  apply Matrix.inv_eq_right_inv
  have e : ((t⁻¹ : ℝ) : ℂ) • signal o S f + o.cb = ((t⁻¹ : ℝ) : ℂ) • (signal o S f + (t : ℂ) • o.cb) := by
    rw [smul_add, smul_smul]; push_cast; rw [inv_mul_cancel₀ htc, one_smul]
  rw [e, Matrix.smul_mul, Matrix.mul_smul, mul_nonsing_inv _ hu, smul_smul]
  push_cast; rw [inv_mul_cancel₀ htc, one_smul]

theorem noisier_command {ι : Type} [Fintype ι] (o : Obs g l lm m q) (pg : Matrix (Fin g) (Fin g) ℂ → Matrix (Fin g) (Fin g) ℂ)
    (hp : ∀ A, A.IsHermitian → IsPinv A (pg A)) (pm : Matrix (Fin m) (Fin m) ℂ → Matrix (Fin m) (Fin m) ℂ) (h0 : 0 ≤ o.r0)
    (hw : ∀ n, 0 ≤ usedWeights o n) (hn : ∀ j, 0 < o.noise j) (S : Samples ι) (f : ι) :
    ∃ L, Tendsto (fun t : ℝ => (t : ℂ) • (noisier o t).command pg pm S f) atTop (𝓝 L) := by
  let K := popt pm o.mirrors o.hm S.k f * (cphi (o.kern S f) (usedWeights o) * (mp o.stars o.hm (S.k f))ᴴ)
  refine ⟨K * o.cb⁻¹, ?_⟩
  have h := noisier_inv o h0 hw hn S f
  have h2 : Tendsto (fun t : ℝ => K * ((t : ℂ) • (signal o S f + (t : ℂ) • o.cb)⁻¹)) atTop (𝓝 (K * o.cb⁻¹)) :=
    ((continuous_const.matrix_mul continuous_id).tendsto _).comp h
  refine h2.congr' ?_
  filter_upwards [eventually_gt_atTop 0] with t ht
  show _ = (t : ℂ) • (popt pm o.mirrors o.hm S.k f * (noisier o t).tomo pg S f)
  rw [noisier_tomo o pg hp h0 hw hn S f t ht, Matrix.mul_smul]
  simp only [K, Matrix.mul_assoc]

/-- C402 (several guide stars): as all the guide stars get fainter together, the noise vanishes and the residual tends to the whole
turbulence. -/
theorem faint_field {ι : Type} [Fintype ι] (o : Obs g l lm m q) (pg : Matrix (Fin g) (Fin g) ℂ → Matrix (Fin g) (Fin g) ℂ)
    (hp : ∀ A, A.IsHermitian → IsPinv A (pg A)) (pm : Matrix (Fin m) (Fin m) ℂ → Matrix (Fin m) (Fin m) ℂ) (h0 : 0 ≤ o.r0)
    (hw : ∀ n, 0 ≤ usedWeights o n) (hn : ∀ j, 0 < o.noise j) (S : Samples ι) (β : ℝ × ℝ) (f : ι) :
    Tendsto (fun t => (noisier o t).residual pg pm S β f) atTop
      (𝓝 (if o.inside (S.k f) then o.kern S f * (∑ n, o.w n) * o.piston S f else 0)) ∧
    Tendsto (fun t => (noisier o t).noisePart pg pm S β f) atTop (𝓝 0) := by
  obtain ⟨L, hL⟩ := noisier_command o pg hp pm h0 hw hn S f
  have hi : Tendsto (fun t : ℝ => ((t⁻¹ : ℝ) : ℂ)) atTop (𝓝 0) := by
    have := (Complex.continuous_ofReal.tendsto 0).comp (tendsto_inv_atTop_zero (𝕜 := ℝ))
    rw [Complex.ofReal_zero] at this
    exact this
  have hW : Tendsto (fun t : ℝ => (noisier o t).command pg pm S f) atTop (𝓝 0) := by
    have := hi.smul hL
    rw [zero_smul] at this
    refine this.congr' ?_
    filter_upwards [eventually_gt_atTop 0] with t ht
    have htc : (t : ℂ) ≠ 0 := by exact_mod_cast ht.ne'
    rw [smul_smul]; push_cast; rw [inv_mul_cancel₀ htc, one_smul]
  let pb := pdm o.mirrors.h o.mirrors.kc β (S.k f)
  let mA := mpAlpha o.stars o.wind o.h (S.k f)
  let pL := pBetaL o.wind o.h β (S.k f)
  constructor
  · have e : ∀ t, (noisier o t).residual pg pm S β f = (if o.inside (S.k f) then 1 else 0) *
        (o.kern S f * ∑ n, o.w n * ‖pL 0 n - (pb * ((noisier o t).command pg pm S f * mA)) 0 n‖ ^ 2) * o.piston S f := by
      intro t
      exact residualPsd_eq _ _ _ _ _ _ _ _
    simp only [e]
    have hz : ∀ n, Tendsto (fun t : ℝ => (pb * ((noisier o t).command pg pm S f * mA)) 0 n) atTop (𝓝 0) := by
      intro n
      have c : Continuous fun W : Matrix (Fin m) (Fin g) ℂ => (pb * (W * mA)) 0 n :=
        (continuous_const.matrix_mul (continuous_id.matrix_mul continuous_const)).matrix_elem 0 n
      have := (c.tendsto 0).comp hW
      rw [Matrix.zero_mul, Matrix.mul_zero, Matrix.zero_apply] at this
      exact this
    have hs : Tendsto (fun t : ℝ => ∑ n, o.w n * ‖pL 0 n - (pb * ((noisier o t).command pg pm S f * mA)) 0 n‖ ^ 2) atTop (𝓝 (∑ n, o.w n)) := by
      refine tendsto_finsetSum _ fun n _ => ?_
      have := (((tendsto_const_nhds (x := pL 0 n)).sub (hz n)).norm.pow 2).const_mul (o.w n)
      rw [sub_zero] at this
      have h1 : ‖pL 0 n‖ = 1 := norm_phasor _
      rw [h1, one_pow, mul_one] at this
      exact this
    have := ((hs.const_mul (o.kern S f)).const_mul (if o.inside (S.k f) then (1:ℝ) else 0)).mul_const (o.piston S f)
    convert this using 2
    split_ifs <;> simp
  · have e : ∀ t, (noisier o t).noisePart pg pm S β f = (if o.inside (S.k f) then 1 else 0) *
        (∑ j, t * o.noise j * ‖(pb * (noisier o t).command pg pm S f) 0 j‖ ^ 2) * o.piston S f * (min 0.8 (0.4 + 0.1333 * o.wind.delay)) ^ 2 := by
      intro t
      unfold Obs.noisePart noisePsd
      have hq := row_quad (pb * (noisier o t).command pg pm S f) 1 (fun j => t * o.noise j)
      unfold cphi at hq
      simp only [one_mul] at hq
      rw [← hq]; rfl
    simp only [e]
    have hz : ∀ j, Tendsto (fun t : ℝ => t * o.noise j * ‖(pb * (noisier o t).command pg pm S f) 0 j‖ ^ 2) atTop (𝓝 0) := by
      intro j
      have c : Continuous fun W : Matrix (Fin m) (Fin g) ℂ => (pb * W) 0 j :=
        (continuous_const.matrix_mul continuous_id).matrix_elem 0 j
      have a1 := (c.tendsto L).comp hL
      have a2 := (c.tendsto 0).comp hW
      simp only [Matrix.mul_zero, Matrix.zero_apply] at a2
      have a3 := (a1.norm.mul a2.norm).const_mul (o.noise j)
      rw [norm_zero, mul_zero, mul_zero] at a3
      refine a3.congr' ?_
      filter_upwards [eventually_gt_atTop 0] with t ht
      simp only [Function.comp]
      rw [Matrix.mul_smul, Matrix.smul_apply, smul_eq_mul, norm_mul, Complex.norm_real, Real.norm_of_nonneg ht.le]
      ring
    have hs := tendsto_finsetSum Finset.univ fun j _ => hz j
    rw [Finset.sum_const_zero] at hs
    have := ((hs.const_mul (if o.inside (S.k f) then (1:ℝ) else 0)).mul_const (o.piston S f)).mul_const ((min 0.8 (0.4 + 0.1333 * o.wind.delay)) ^ 2)
    simpa using this

end


/-! ### Fainter guide stars, and correction against no correction (C403, C404) -/

section
open Matrix P3.Observation P3.Observation.Spec
open scoped ComplexOrder
variable {g l lm m q : ℕ}

/-- With one direction to optimise, where some mirror acts, the mirrors reproduce in that direction any turbulence. -/
theorem optimised {ι : Type} [Fintype ι] (pm : Matrix (Fin m) (Fin m) ℂ → Matrix (Fin m) (Fin m) ℂ)
    (hm : ∀ A, A.IsHermitian → IsPinv A (pm A)) (M : Mirrors m 1) (hw : 0 < M.w 0) (h : Fin l → ℝ) (k : ι → ℝ × ℝ) (f : ι)
    (i : Fin m) (hi : kmod (k f) ≤ M.kc i) :
    pdm M.h M.kc (M.dir 0) (k f) * popt pm M h k f = pl h (M.dir 0) (k f) := by
  let p := pdm M.h M.kc (M.dir 0) (k f)
  let a := pl h (M.dir 0) (k f)
  have hpi : p 0 i ≠ 0 := by
    show pdm M.h M.kc (M.dir 0) (k f) 0 i ≠ 0
    simp only [pdm, of_apply, if_pos hi]
    intro e
    have := norm_phasor (M.h i * ((M.dir 0).1 * (k f).1 + (M.dir 0).2 * (k f).2))
    rw [e] at this; simp at this
  let X : Matrix (Fin m) (Fin l) ℂ := of fun j n => if j = i then a 0 n / p 0 i else 0
  have hX : p * X = a := by
    ext r n
    rw [Subsingleton.elim r 0, Matrix.mul_apply, Finset.sum_eq_single i]
    · simp only [X, of_apply, if_true]
      field_simp
    · intro b _ hb
      simp only [X, of_apply, if_neg hb, mul_zero]
    · simp
  have h1 := projector_one_direction pm hm M (fun d => by rw [Subsingleton.elim d 0]; exact hw.le) h k f X
  unfold Tomo.Spec.fieldErr at h1
  simp only [Fin.sum_univ_one] at h1
  have h2 : ∑ n, ‖(a - p * X) 0 n‖ ^ 2 = 0 := by
    rw [hX]; simp
  have h3 : M.w 0 * ∑ n, ‖(a - p * popt pm M h k f) 0 n‖ ^ 2 ≤ M.w 0 * ∑ n, ‖(a - p * X) 0 n‖ ^ 2 := h1
  rw [h2, mul_zero] at h3
  have h4 : ∑ n, ‖(a - p * popt pm M h k f) 0 n‖ ^ 2 = 0 := by
    have h5 : 0 ≤ ∑ n, ‖(a - p * popt pm M h k f) 0 n‖ ^ 2 := Finset.sum_nonneg fun n _ => sq_nonneg _
    nlinarith
  ext r n
  rw [Subsingleton.elim r 0]
  have h6 := (Finset.sum_eq_zero_iff_of_nonneg (fun n _ => sq_nonneg _)).1 h4 n (Finset.mem_univ n)
  have h7 : (a - p * popt pm M h k f) 0 n = 0 := by
    have := pow_eq_zero_iff (two_ne_zero) |>.1 h6
    exact norm_eq_zero.1 this
  have h8 : a 0 n - (p * popt pm M h k f) 0 n = 0 := h7
  exact (sub_eq_zero.1 h8).symm

/-- Where no mirror acts, nothing is corrected. -/
theorem nobody {hm kc : Fin m → ℝ} {θ k : ℝ × ℝ} (h : ∀ i, ¬ kmod k ≤ kc i) : pdm hm kc θ k = 0 := by
  ext r i
  simp only [pdm, of_apply, if_neg (h i), Matrix.zero_apply]

/-- Trade-off of residual and noise: a minimum of `r + t n` over the same set, for increasing `t`, has an increasing `r`, a decreasing
`n` and an increasing `r + φ t n` for any `φ` between 0 and 1. -/
theorem tradeoff (r n r' n' t t' φ : ℝ) (ht : 0 ≤ t) (hlt : t < t') (hn : 0 ≤ n') (hφ : 0 ≤ φ) (hφ1 : φ ≤ 1)
    (h1 : r + t * n ≤ r' + t * n') (h2 : r' + t' * n' ≤ r + t' * n) : r ≤ r' ∧ r + φ * (t * n) ≤ r' + φ * (t' * n') := by
  have a : n' ≤ n := by nlinarith
  have b : r ≤ r' := by nlinarith
  have c : r + t * n ≤ r' + t' * n' := by nlinarith
  exact ⟨b, by nlinarith⟩

/-- Residual of the direction `x` with the reconstructor `W`. -/
noncomputable def resQ (x : Matrix (Fin 1) (Fin l) ℂ) (B : Matrix (Fin g) (Fin l) ℂ) (C : Matrix (Fin l) (Fin l) ℂ)
    (W : Matrix (Fin l) (Fin g) ℂ) : ℝ := ((x - x * (W * B)) * (C * (x - x * (W * B))ᴴ) : Matrix (Fin 1) (Fin 1) ℂ) 0 0 |>.re
/-- Noise of the direction `x`. -/
noncomputable def noiQ (x : Matrix (Fin 1) (Fin l) ℂ) (N : Matrix (Fin g) (Fin g) ℂ) (W : Matrix (Fin l) (Fin g) ℂ) : ℝ :=
  ((x * W) * (N * (x * W)ᴴ) : Matrix (Fin 1) (Fin 1) ℂ) 0 0 |>.re

theorem psd_entry (P : Matrix (Fin 1) (Fin 1) ℂ) (h : P.PosSemidef) : 0 ≤ (P 0 0).re :=
  (Complex.nonneg_iff.1 (h.diag_nonneg (i := 0))).1

theorem noiQ_nonneg (x : Matrix (Fin 1) (Fin l) ℂ) (N : Matrix (Fin g) (Fin g) ℂ) (hN : N.PosSemidef) (W : Matrix (Fin l) (Fin g) ℂ) :
    0 ≤ noiQ x N W := by
  unfold noiQ
  rw [← Matrix.mul_assoc]
  exact psd_entry _ (hN.mul_mul_conjTranspose_same _)

theorem best {ι : Type} (pg : Matrix (Fin g) (Fin g) ℂ → Matrix (Fin g) (Fin g) ℂ)
    (hp : ∀ A, A.IsHermitian → IsPinv A (pg A)) (B : ι → Matrix (Fin g) (Fin l) ℂ) (C : ι → Matrix (Fin l) (Fin l) ℂ)
    (N : Matrix (Fin g) (Fin g) ℂ) (hC : ∀ f, (C f).PosSemidef) (hN : N.PosSemidef) (t : ℝ) (ht : 0 ≤ t) (f : ι)
    (x : Matrix (Fin 1) (Fin l) ℂ) (R : Matrix (Fin l) (Fin g) ℂ) :
    resQ x (B f) (C f) (wtomo pg B C ((t : ℂ) • N) f) + t * noiQ x N (wtomo pg B C ((t : ℂ) • N) f) ≤
      resQ x (B f) (C f) R + t * noiQ x N R := by
  have htN : ((t : ℂ) • N).PosSemidef := hN.smul (by exact_mod_cast ht)
  have h := (tomo_optimal pg hp B C ((t : ℂ) • N) hC htN f R).mul_mul_conjTranspose_same x
  have h0 := psd_entry _ h
  have key : ∀ W : Matrix (Fin l) (Fin g) ℂ, ((x * Tomo.Spec.errCov (B f) (C f) ((t : ℂ) • N) W * xᴴ) 0 0).re =
      resQ x (B f) (C f) W + t * noiQ x N W := by
    intro W
    unfold resQ noiQ Tomo.Spec.errCov
    rw [show (t : ℝ) * (((x * W) * (N * (x * W)ᴴ) : Matrix (Fin 1) (Fin 1) ℂ) 0 0).re =
      (((t : ℂ) • ((x * W) * (N * (x * W)ᴴ)) : Matrix (Fin 1) (Fin 1) ℂ) 0 0).re by
        rw [Matrix.smul_apply, smul_eq_mul, Complex.re_ofReal_mul], ← Complex.add_re, ← Matrix.add_apply]
    congr 2
    simp only [conjTranspose_sub, conjTranspose_mul, conjTranspose_one, Matrix.mul_add, Matrix.add_mul, Matrix.mul_sub, Matrix.sub_mul,
      Matrix.mul_one, Matrix.one_mul, Matrix.mul_assoc, Matrix.smul_mul, Matrix.mul_smul]
  rw [Matrix.mul_sub, Matrix.sub_mul, Matrix.sub_apply, Complex.sub_re, key, key] at h0
  linarith

/-- What the observation of an on-axis target of still air is made of. -/
theorem onAxis {ι : Type} [Fintype ι] (o : Obs g l l m 1) (hh : o.hm = o.h) (hv : ∀ n, o.wind.speed n = 0)
    (pg : Matrix (Fin g) (Fin g) ℂ → Matrix (Fin g) (Fin g) ℂ) (pm : Matrix (Fin m) (Fin m) ℂ → Matrix (Fin m) (Fin m) ℂ)
    (hm : ∀ A, A.IsHermitian → IsPinv A (pm A)) (hmw : 0 < o.mirrors.w 0) (S : Samples ι) (f : ι) (i : Fin m)
    (hi : kmod (S.k f) ≤ o.mirrors.kc i) (t : ℝ) :
    let x := pl o.h (o.mirrors.dir 0) (S.k f)
    let W := wtomo pg (fun f => mp o.stars o.h (S.k f)) (fun f => cphi (o.kern S f) o.w) ((t : ℂ) • o.cb) f
    (noisier o t).residual pg pm S (o.mirrors.dir 0) f =
      (if o.inside (S.k f) then 1 else 0) * resQ x (mp o.stars o.h (S.k f)) (cphi (o.kern S f) o.w) W * o.piston S f ∧
    (noisier o t).noisePart pg pm S (o.mirrors.dir 0) f =
      (if o.inside (S.k f) then 1 else 0) * (t * noiQ x o.cb W) * o.piston S f * (min 0.8 (0.4 + 0.1333 * o.wind.delay)) ^ 2 := by
  intro x W
  have hT : (noisier o t).tomo pg S f = W := by
    unfold Obs.tomo
    have : ∀ f, cphiMod ((noisier o t).kern S f) (noisier o t).w (noisier o t).wm = cphi (o.kern S f) o.w := by
      intro f
      unfold cphiMod
      rw [dif_pos rfl]
      rfl
    simp only [this, noisier_cb]
    show wtomo pg (fun f => mp o.stars o.hm (S.k f)) _ _ f = _
    rw [hh]
  have hopt := optimised pm hm o.mirrors hmw o.hm S.k f i hi
  rw [hh] at hopt
  have hcm : pdm o.mirrors.h o.mirrors.kc (o.mirrors.dir 0) (S.k f) * (noisier o t).command pg pm S f = x * W := by
    unfold Obs.command
    rw [hT]
    show _ * (popt pm o.mirrors o.hm S.k f * W) = _
    rw [← Matrix.mul_assoc, hh, hopt]
  have hst := mpAlpha_still o.stars o.wind o.h (o.mirrors.dir 0) (S.k f) hv
  constructor
  · unfold Obs.residual residualPsd
    show _ * (((pBetaL o.wind o.h (o.mirrors.dir 0) (S.k f) - pdm o.mirrors.h o.mirrors.kc (o.mirrors.dir 0) (S.k f) *
      ((noisier o t).command pg pm S f * mpAlpha o.stars o.wind o.h (S.k f))) * (cphi (o.kern S f) o.w *
      (pBetaL o.wind o.h (o.mirrors.dir 0) (S.k f) - pdm o.mirrors.h o.mirrors.kc (o.mirrors.dir 0) (S.k f) *
      ((noisier o t).command pg pm S f * mpAlpha o.stars o.wind o.h (S.k f)))ᴴ)) 0 0).re * o.piston S f = _
    rw [hst.1, hst.2, ← Matrix.mul_assoc (pdm _ _ _ _), hcm, Matrix.mul_assoc x]
    rfl
  · unfold Obs.noisePart noisePsd
    show _ * (((pdm o.mirrors.h o.mirrors.kc (o.mirrors.dir 0) (S.k f) * (noisier o t).command pg pm S f) * ((noisier o t).cb *
      (pdm o.mirrors.h o.mirrors.kc (o.mirrors.dir 0) (S.k f) * (noisier o t).command pg pm S f)ᴴ)) 0 0).re * o.piston S f *
      (min 0.8 (0.4 + 0.1333 * o.wind.delay)) ^ 2 = _
    rw [hcm, noisier_cb, Matrix.smul_mul, Matrix.mul_smul, Matrix.smul_apply, smul_eq_mul, Complex.re_ofReal_mul]
    rfl

/-- C403 (partial): in still air, when the reconstruction knows the layers and the mirrors are optimised for the direction of the target,
multiplying the noise of all guide stars by a larger factor never decreases the residual, nor the sum of residual and noise. -/
theorem fainter_stars_partial {ι : Type} [Fintype ι] (o : Obs g l l m 1) (hh : o.hm = o.h) (hv : ∀ n, o.wind.speed n = 0) (h0 : 0 ≤ o.r0)
    (hw : ∀ n, 0 ≤ o.w n) (hn : ∀ j, 0 ≤ o.noise j) (hd : 0 ≤ o.wind.delay)
    (pg : Matrix (Fin g) (Fin g) ℂ → Matrix (Fin g) (Fin g) ℂ) (hp : ∀ A, A.IsHermitian → IsPinv A (pg A))
    (pm : Matrix (Fin m) (Fin m) ℂ → Matrix (Fin m) (Fin m) ℂ) (hm : ∀ A, A.IsHermitian → IsPinv A (pm A)) (hmw : 0 < o.mirrors.w 0)
    (S : Samples ι) (f : ι) (t t' : ℝ) (ht : 0 ≤ t) (htt : t ≤ t') :
    (noisier o t).residual pg pm S (o.mirrors.dir 0) f ≤ (noisier o t').residual pg pm S (o.mirrors.dir 0) f ∧
    (noisier o t).residual pg pm S (o.mirrors.dir 0) f + (noisier o t).noisePart pg pm S (o.mirrors.dir 0) f ≤
      (noisier o t').residual pg pm S (o.mirrors.dir 0) f + (noisier o t').noisePart pg pm S (o.mirrors.dir 0) f := by
  rcases htt.eq_or_lt with e | hlt
  · rw [e]; exact ⟨le_rfl, le_rfl⟩
  by_cases ha : ∃ i, kmod (S.k f) ≤ o.mirrors.kc i
  · obtain ⟨i, hi⟩ := ha
    have e1 := onAxis o hh hv pg pm hm hmw S f i hi t
    have e2 := onAxis o hh hv pg pm hm hmw S f i hi t'
    simp only at e1 e2
    have hC : ∀ f, (cphi (o.kern S f) o.w).PosSemidef := fun f => cphi_psd _ (kern_nonneg o h0 S f) _ hw
    have hN : o.cb.PosSemidef := by
      unfold Obs.cb
      apply PosSemidef.diagonal
      intro j
      show (0:ℂ) ≤ ((o.noise j : ℝ) : ℂ)
      exact_mod_cast hn j
    set x := pl o.h (o.mirrors.dir 0) (S.k f)
    set W := wtomo pg (fun f => mp o.stars o.h (S.k f)) (fun f => cphi (o.kern S f) o.w) ((t : ℂ) • o.cb) f
    set W' := wtomo pg (fun f => mp o.stars o.h (S.k f)) (fun f => cphi (o.kern S f) o.w) ((t' : ℂ) • o.cb) f
    have b1 := best pg hp (fun f => mp o.stars o.h (S.k f)) (fun f => cphi (o.kern S f) o.w) o.cb hC hN t ht f x W'
    have b2 := best pg hp (fun f => mp o.stars o.h (S.k f)) (fun f => cphi (o.kern S f) o.w) o.cb hC hN t' (ht.trans htt) f x W
    have hpf : 0 ≤ o.piston S f := by
      unfold Obs.piston
      split_ifs
      · exact le_rfl
      · exact (Psf.pistonFilter_spec _ _).1
    set φ := (min 0.8 (0.4 + 0.1333 * o.wind.delay)) ^ 2 with hφ
    have hφ0 : 0 ≤ φ := sq_nonneg _
    have hφ1 : φ ≤ 1 := by
      have h1 : min 0.8 (0.4 + 0.1333 * o.wind.delay) ≤ 0.8 := min_le_left _ _
      have h2 : (0 : ℝ) ≤ min 0.8 (0.4 + 0.1333 * o.wind.delay) := le_min (by norm_num) (by linarith)
      rw [hφ]; nlinarith
    obtain ⟨r1, r2⟩ := tradeoff _ _ _ _ t t' φ ht hlt (noiQ_nonneg x o.cb hN W') hφ0 hφ1 b1 b2
    rw [e1.1, e1.2, e2.1, e2.2]
    constructor
    · split_ifs
      · rw [one_mul, one_mul]; exact mul_le_mul_of_nonneg_right r1 hpf
      · simp
    · split_ifs
      · have := mul_le_mul_of_nonneg_right r2 hpf
        linarith
      · simp
  · push Not at ha
    have hz : pdm o.mirrors.h o.mirrors.kc (o.mirrors.dir 0) (S.k f) = 0 := nobody fun i => not_le.2 (ha i)
    have a1 : ∀ t, (noisier o t).residual pg pm S (o.mirrors.dir 0) f = residualPsd (o.inside (S.k f)) (pBetaL o.wind o.h (o.mirrors.dir 0) (S.k f))
        (0 : Matrix (Fin 1) (Fin m) ℂ) (0 : Matrix (Fin m) (Fin g) ℂ) (mpAlpha o.stars o.wind o.h (S.k f)) (cphi (o.kern S f) o.w) (o.piston S f) := by
      intro t
      unfold Obs.residual residualPsd
      show _ * (((_ - pdm o.mirrors.h o.mirrors.kc (o.mirrors.dir 0) (S.k f) * _) * (_ * (_ - pdm o.mirrors.h o.mirrors.kc (o.mirrors.dir 0) (S.k f) * _)ᴴ) :
        Matrix (Fin 1) (Fin 1) ℂ) 0 0).re * _ = _
      rw [hz, Matrix.zero_mul, Matrix.zero_mul]
      rfl
    have a2 : ∀ t, (noisier o t).noisePart pg pm S (o.mirrors.dir 0) f = 0 := by
      intro t
      unfold Obs.noisePart noisePsd
      show _ * (((pdm o.mirrors.h o.mirrors.kc (o.mirrors.dir 0) (S.k f) * _) * (_ * (pdm o.mirrors.h o.mirrors.kc (o.mirrors.dir 0) (S.k f) * _)ᴴ) :
        Matrix (Fin 1) (Fin 1) ℂ) 0 0).re * _ * _ = _
      rw [hz, Matrix.zero_mul, Matrix.zero_mul]
      simp
    rw [a1 t, a1 t', a2 t, a2 t']
    exact ⟨le_rfl, le_rfl⟩

/-- C404 (partial): under the conditions of `fainter_stars_partial` residual and noise together never exceed the turbulence without
correction. -/
theorem correction_helps_partial {ι : Type} [Fintype ι] (o : Obs g l l m 1) (hh : o.hm = o.h) (hv : ∀ n, o.wind.speed n = 0) (h0 : 0 ≤ o.r0)
    (hw : ∀ n, 0 ≤ o.w n) (hn : ∀ j, 0 < o.noise j) (hd : 0 ≤ o.wind.delay)
    (pg : Matrix (Fin g) (Fin g) ℂ → Matrix (Fin g) (Fin g) ℂ) (hp : ∀ A, A.IsHermitian → IsPinv A (pg A))
    (pm : Matrix (Fin m) (Fin m) ℂ → Matrix (Fin m) (Fin m) ℂ) (hm : ∀ A, A.IsHermitian → IsPinv A (pm A)) (hmw : 0 < o.mirrors.w 0)
    (S : Samples ι) (f : ι) :
    o.residual pg pm S (o.mirrors.dir 0) f + o.noisePart pg pm S (o.mirrors.dir 0) f ≤
      if o.inside (S.k f) then o.kern S f * (∑ n, o.w n) * o.piston S f else 0 := by
  have hu : ∀ n, 0 ≤ usedWeights o n := by
    intro n
    unfold usedWeights
    rw [dif_pos rfl]
    exact hw _
  obtain ⟨l1, l2⟩ := faint_field o pg hp pm h0 hu hn S (o.mirrors.dir 0) f
  have hl := l1.add l2
  rw [add_zero] at hl
  refine ge_of_tendsto hl ?_
  filter_upwards [eventually_ge_atTop 1] with t ht
  have := (fainter_stars_partial o hh hv h0 hw (fun j => (hn j).le) hd pg hp pm hm hmw S f 1 t zero_le_one ht).2
  have e : noisier o 1 = o := by
    unfold noisier
    simp
  rwa [e] at this

end


section
open Matrix P3.Observation P3.Observation.Spec
open scoped ComplexOrder
variable {g l lm m q : ℕ}

/-- C404 (violation): one layer, known to the reconstruction, with a wind that carries it by half a period of the frequency during the
delay of the loop: the correction adds to the turbulence, towards the direction the mirrors are optimised for. -/
theorem correction_hurts_violation {ι : Type} [Fintype ι] (o : Obs g 1 1 m 1) (hg : 0 < g) (hh : o.hm = o.h) (N : ℝ) (hN : 0 < N)
    (hn : ∀ j, o.noise j = N) (hw : 0 < o.w 0) (c : ℝ) (hc : ∀ j, o.wind.clock j = c)
    (pg : Matrix (Fin g) (Fin g) ℂ → Matrix (Fin g) (Fin g) ℂ) (hp : ∀ A, A.IsHermitian → IsPinv A (pg A))
    (pm : Matrix (Fin m) (Fin m) ℂ → Matrix (Fin m) (Fin m) ℂ) (hm : ∀ A, A.IsHermitian → IsPinv A (pm A)) (hmw : 0 < o.mirrors.w 0)
    (S : Samples ι) (f : ι) (i : Fin m) (hi : kmod (S.k f) ≤ o.mirrors.kc i) (hin : o.inside (S.k f) = true) (hk : 0 < o.kern S f)
    (hpf : 0 < o.piston S f) (hmeas : ∀ j, meas (o.stars.d j) (S.k f) ≠ 0)
    (hlag : o.wind.delay / o.wind.rate * o.wind.speed 0 * windFreq o.wind (S.k f) 0 = 1 / 2)
    (hexp : 0 < npSinc (1 / o.wind.rate * c * o.wind.speed 0 * windFreq o.wind (S.k f) 0)) :
    o.kern S f * (∑ n, o.w n) * o.piston S f < o.residual pg pm S (o.mirrors.dir 0) f := by
  set s := npSinc (1 / o.wind.rate * c * o.wind.speed 0 * windFreq o.wind (S.k f) 0) with hs
  set E : ℝ := ∑ j, ‖meas (o.stars.d j) (S.k f)‖ ^ 2 with hE
  have hE0 : 0 < E := by
    rw [hE]
    apply Finset.sum_pos
    · intro j _
      have := norm_pos_iff.2 (hmeas j)
      positivity
    · exact ⟨⟨0, hg⟩, Finset.mem_univ _⟩
  set ρ : ℝ := o.kern S f * o.w 0 * E / (o.kern S f * o.w 0 * E + N) with hρ
  have hρ0 : 0 < ρ := by rw [hρ]; positivity
  have htm := Geometry.one_layer_tomo o N hN hn hw pg hp S f hk
  rw [hh, ← hE, ← hρ] at htm
  have hmA : mpAlpha o.stars o.wind o.h (S.k f) = (s : ℂ) • mp o.stars o.h (S.k f) := by
    ext j n
    rw [Matrix.smul_apply, mp_apply, Subsingleton.elim n 0]
    simp only [mpAlpha, of_apply, hc, smul_eq_mul]
    rw [← hs, show o.h 0 * ((o.stars.dir j).1 * (S.k f).1 + (o.stars.dir j).2 * (S.k f).2) =
      o.h 0 * ((S.k f).1 * (o.stars.dir j).1 + (S.k f).2 * (o.stars.dir j).2) by ring]
    ring
  have hopt := optimised pm hm o.mirrors hmw o.hm S.k f i hi
  rw [hh] at hopt
  set x := pl o.h (o.mirrors.dir 0) (S.k f) with hx
  have hcor : (pdm o.mirrors.h o.mirrors.kc (o.mirrors.dir 0) (S.k f) * (o.command pg pm S f * mpAlpha o.stars o.wind o.h (S.k f))) 0 0 =
      x 0 0 * ((s * ρ : ℝ) : ℂ) := by
    unfold Obs.command
    rw [hh, Matrix.mul_assoc, ← Matrix.mul_assoc (pdm _ _ _ _), hopt, hmA, Matrix.mul_smul, Matrix.mul_apply, Fin.sum_univ_one,
      Matrix.smul_apply, htm, smul_eq_mul]
    push_cast; ring
  have hpL : pBetaL o.wind o.h (o.mirrors.dir 0) (S.k f) 0 0 = - x 0 0 := by
    simp only [pBetaL, of_apply, hlag, hx, pl]
    rw [sub_eq_add_neg, Geometry.phasor_add]
    have : phasor (-(1 / 2)) = -1 := by
      unfold phasor
      rw [show ((2 * Real.pi * (-(1 / 2)) : ℝ) : ℂ) * Complex.I = -((Real.pi : ℂ) * Complex.I) by push_cast; ring, Complex.exp_neg,
        Complex.exp_pi_mul_I]
      norm_num
    rw [this]; ring
  have hx1 : ‖x 0 0‖ = 1 := norm_phasor _
  unfold Obs.residual
  rw [residualPsd_eq, Fin.sum_univ_one, Fin.sum_univ_one, hcor, hpL, hin, if_pos rfl, one_mul,
    show -x 0 0 - x 0 0 * ((s * ρ : ℝ) : ℂ) = -(x 0 0 * ((1 + s * ρ : ℝ) : ℂ)) by push_cast; ring, norm_neg, norm_mul, hx1, one_mul,
    Complex.norm_real, Real.norm_of_nonneg (by positivity)]
  apply mul_lt_mul_of_pos_right _ hpf
  apply mul_lt_mul_of_pos_left _ hk
  have h3 : 0 < s * ρ := by positivity
  have h4 : 1 < (1 + s * ρ) ^ 2 := by nlinarith
  exact lt_mul_of_one_lt_right hw h4

/-- C403 (violation): in the same conditions some fainter stars give less residual and noise. -/
theorem fainter_stars_violation {ι : Type} [Fintype ι] (o : Obs g 1 1 m 1) (hg : 0 < g) (h0 : 0 ≤ o.r0) (hh : o.hm = o.h) (N : ℝ) (hN : 0 < N)
    (hn : ∀ j, o.noise j = N) (hw : 0 < o.w 0) (c : ℝ) (hc : ∀ j, o.wind.clock j = c)
    (pg : Matrix (Fin g) (Fin g) ℂ → Matrix (Fin g) (Fin g) ℂ) (hp : ∀ A, A.IsHermitian → IsPinv A (pg A))
    (pm : Matrix (Fin m) (Fin m) ℂ → Matrix (Fin m) (Fin m) ℂ) (hm : ∀ A, A.IsHermitian → IsPinv A (pm A)) (hmw : 0 < o.mirrors.w 0)
    (S : Samples ι) (f : ι) (i : Fin m) (hi : kmod (S.k f) ≤ o.mirrors.kc i) (hin : o.inside (S.k f) = true) (hk : 0 < o.kern S f)
    (hpf : 0 < o.piston S f) (hmeas : ∀ j, meas (o.stars.d j) (S.k f) ≠ 0)
    (hlag : o.wind.delay / o.wind.rate * o.wind.speed 0 * windFreq o.wind (S.k f) 0 = 1 / 2)
    (hexp : 0 < npSinc (1 / o.wind.rate * c * o.wind.speed 0 * windFreq o.wind (S.k f) 0)) :
    ∃ t > 1, (noisier o t).residual pg pm S (o.mirrors.dir 0) f + (noisier o t).noisePart pg pm S (o.mirrors.dir 0) f <
      o.residual pg pm S (o.mirrors.dir 0) f + o.noisePart pg pm S (o.mirrors.dir 0) f := by
  have hu : ∀ n, 0 ≤ usedWeights o n := by
    intro n
    unfold usedWeights
    rw [dif_pos rfl, Subsingleton.elim (Fin.cast rfl n) 0]
    exact hw.le
  obtain ⟨l1, l2⟩ := faint_field o pg hp pm h0 hu (fun j => by rw [hn j]; exact hN) S (o.mirrors.dir 0) f
  have hl := l1.add l2
  rw [add_zero, hin, if_pos rfl] at hl
  have hv := correction_hurts_violation o hg hh N hN hn hw c hc pg hp pm hm hmw S f i hi hin hk hpf hmeas hlag hexp
  have hnn : 0 ≤ o.noisePart pg pm S (o.mirrors.dir 0) f := by
    unfold Obs.noisePart noisePsd
    have h1 : o.cb.PosSemidef := (cb_pd o fun j => by rw [hn j]; exact hN).posSemidef
    have h2 := psd_entry _ (h1.mul_mul_conjTranspose_same (pdm o.mirrors.h o.mirrors.kc (o.mirrors.dir 0) (S.k f) * o.command pg pm S f))
    rw [Matrix.mul_assoc] at h2
    have h3 : (0:ℝ) ≤ if o.inside (S.k f) then 1 else 0 := by split_ifs <;> norm_num
    exact mul_nonneg (mul_nonneg (mul_nonneg h3 h2) hpf.le) (sq_nonneg _)
  obtain ⟨t, ht, ht1⟩ := ((hl.eventually_lt_const (lt_of_lt_of_le hv (le_add_of_nonneg_right hnn))).and (eventually_gt_atTop 1)).exists
  exact ⟨t, ht1, ht⟩

end

/-! One guide star (C403, C404) -/

section

/-- Part of the turbulence that the reconstructor gives back: `A/(A + b v)`. -/
noncomputable def kept (s : Sys) (k : ℝ × ℝ) (v : ℝ) : ℝ := slopes s k * damp s k v

/-- Noise against turbulence: `noise gain * (wavelength ratio)² / MV`. -/
noncomputable def noiseRatio (s : Sys) (ng : ℝ) : ℝ := ng * s.wvlRatio ^ 2 / s.mv

theorem kept_range (s : Sys) (h0 : 0 < s.r0) (hL : 0 < s.L0) (hm : 0 < s.mv) (hk : s.kc ≠ 0) (hw : s.wvlRatio ≠ 0) (k : ℝ × ℝ) (v : ℝ) (hv : 0 < v) :
    0 ≤ kept s k v ∧ kept s k v ≤ 1 ∧ (0 < slopes s k → 0 < kept s k v) := by
  have hb := regSlope_pos s h0 hL hm hk hw k
  have hA : 0 ≤ slopes s k := by unfold slopes; positivity
  have hp : 0 < slopes s k + regSlope s k * v := by positivity
  unfold kept damp
  refine ⟨by positivity, ?_, fun h => by positivity⟩
  rw [mul_one_div, div_le_one hp]
  have : 0 ≤ regSlope s k * v := by positivity
  linarith

theorem kept_anti (s : Sys) (h0 : 0 < s.r0) (hL : 0 < s.L0) (hm : 0 < s.mv) (hk : s.kc ≠ 0) (hw : s.wvlRatio ≠ 0) (k : ℝ × ℝ) (v v' : ℝ) (hv : 0 < v)
    (hvv : v ≤ v') : kept s k v' ≤ kept s k v := by
  have hb := regSlope_pos s h0 hL hm hk hw k
  have hA : 0 ≤ slopes s k := by unfold slopes; positivity
  have hp : 0 < slopes s k + regSlope s k * v := by positivity
  unfold kept damp
  apply mul_le_mul_of_nonneg_left _ hA
  apply one_div_le_one_div_of_le hp
  have := mul_le_mul_of_nonneg_left hvv hb.le
  linarith

/-- Spatio-temporal error and noise of still air towards the guide star. -/
theorem still_axis (s : Sys) (h0 : 0 < s.r0) (hL : 0 < s.L0) (hm : 0 < s.mv) (hk : s.kc ≠ 0) (hw : s.wvlRatio ≠ 0) (hg : 0 < s.gain)
    (he : 0 < s.eps) (he1 : s.eps ≤ 1) (hsum : ∑ n ∈ range s.nL, s.w n = 1) (hv : ∀ n < s.nL, s.speed n = 0) (ng : ℝ) (k : ℝ × ℝ)
    (v : ℝ) (hvp : 0 < v) :
    (withNoise s v).stPsd (0, 0) false k =
      some (msk (s.inside k) * (1 - s.gain / (s.gain + s.eps) * kept s k v) ^ 2 * s.watm false k) ∧
    (withNoise s v).noisePsd ng false k =
      some (msk (s.inside k) * (noiseRatio s ng * (kept s k v * (1 - kept s k v))) * s.watm false k) := by
  obtain ⟨rX, rY⟩ := recon_noise s h0 hL hm hk hw false k v hvp
  have hb := regSlope_pos s h0 hL hm hk hw k
  have hA : 0 ≤ slopes s k := by unfold slopes; positivity
  have hp : 0 < slopes s k + regSlope s k * v := by positivity
  have hT := turb_pos s h0 hL k
  simp only [Bool.false_eq_true, if_false] at rX rY
  set ρ := s.gain / (s.gain + s.eps) with hρ
  have hF : loopF ((damp s k v : ℂ) * (starRingEnd ℂ) (s.sx k)) ((damp s k v : ℂ) * (starRingEnd ℂ) (s.sy k)) (s.sx k) (s.sy k) =
      ((kept s k v : ℝ) : ℂ) := by
    unfold loopF kept slopes
    rw [mul_assoc, mul_assoc, Complex.conj_mul', Complex.conj_mul']
    push_cast; ring
  constructor
  · unfold Sys.stPsd
    rw [rX, rY]
    simp only [Option.bind_some]
    congr 1
    show spatioTemporal (decide (s.gain = 0)) (s.inside k) (loopF ((damp s k v : ℂ) * (starRingEnd ℂ) (s.sx k))
      ((damp s k v : ℂ) * (starRingEnd ℂ) (s.sy k)) (s.sx k) (s.sy k)) (s.h1 k) (s.decorr (0, 0) k) (s.h2 k) (s.watm false k) = _
    rw [hF, Spectra.still_h1 s k hg he he1 hsum hv]
    have h2 : s.h2 k = ρ ^ 2 := by
      rw [(Spectra.h_expand s k).2]
      have ha : ∀ n ∈ range s.nL, s.w n * ‖s.atf k n‖ ^ 2 = s.w n * ρ ^ 2 := by
        intro n hn
        have hn := mem_range.1 hn
        have : s.atf k n = ((ρ : ℝ) : ℂ) := by
          unfold Sys.atf Fourier.atf rtf guardD
          rw [Spectra.still_loop s k n (hv n hn) he]
          have e : (1 : ℂ) + ((s.gain / s.eps : ℝ) : ℂ) = ((1 + s.gain / s.eps : ℝ) : ℂ) := by push_cast; ring
          have p : 0 < s.gain / s.eps := by positivity
          rw [e, Complex.norm_real, Real.norm_of_nonneg (by positivity), if_neg (by push Not; linarith), hρ]
          norm_cast
          field_simp
          ring
        rw [this, Complex.norm_real, Real.norm_eq_abs, sq_abs]
      rw [sum_congr rfl ha, ← sum_mul, hsum, one_mul]
    have hd : s.decorr (0, 0) k = 1 := by simp [Sys.decorr, Fourier.decorr]
    rw [h2, hd]
    unfold spatioTemporal
    rw [if_neg (by simp [hg.ne'])]
    rw [← hρ, mul_one, ← Complex.ofReal_mul, Complex.ofReal_re, Complex.norm_real, Real.norm_eq_abs, sq_abs]
    ring
  · unfold Sys.noisePsd
    rw [rX, rY]
    simp only [Option.bind_some]
    congr 1
    show noiseScao (s.inside k) _ _ s.kc (s.piston false k) ng v = _
    unfold noiseScao
    have hXY : ‖((damp s k v : ℂ) * (starRingEnd ℂ) (s.sx k)) ^ 2 + ((damp s k v : ℂ) * (starRingEnd ℂ) (s.sy k)) ^ 2‖ =
        damp s k v ^ 2 * slopes s k := by
      rw [show ((damp s k v : ℂ) * (starRingEnd ℂ) (s.sx k)) ^ 2 + ((damp s k v : ℂ) * (starRingEnd ℂ) (s.sy k)) ^ 2 =
        ((damp s k v ^ 2 : ℝ) : ℂ) * (starRingEnd ℂ) (s.sx k ^ 2 + s.sy k ^ 2) by
          push_cast; rw [map_add, map_pow, map_pow]; ring, norm_mul, Complex.norm_real, Real.norm_of_nonneg (by positivity), RCLike.norm_conj]
      congr 1
      unfold slopes
      unfold Sys.sx Sys.sy shResponse
      rw [show (((2 * Real.pi * k.1 * s.dsub : ℝ) : ℂ) * Complex.I * s.av k) ^ 2 + (((2 * Real.pi * k.2 * s.dsub : ℝ) : ℂ) * Complex.I * s.av k) ^ 2 =
        -((((2 * Real.pi * k.1 * s.dsub) ^ 2 + (2 * Real.pi * k.2 * s.dsub) ^ 2 : ℝ) : ℂ) * s.av k ^ 2) by
          have := Complex.I_sq
          push_cast
          linear_combination (((2 * Real.pi * k.1 * s.dsub : ℂ)) ^ 2 + ((2 * Real.pi * k.2 * s.dsub : ℂ)) ^ 2) * s.av k ^ 2 * this,
        norm_neg, norm_mul, Complex.norm_real, Real.norm_of_nonneg (by positivity), norm_pow, norm_mul, norm_mul, norm_mul, norm_mul,
        Complex.norm_I, Complex.norm_real, Complex.norm_real, Real.norm_eq_abs, Real.norm_eq_abs, mul_one, mul_one,
        mul_pow |2 * Real.pi * k.1 * s.dsub|, mul_pow |2 * Real.pi * k.2 * s.dsub|, sq_abs, sq_abs]
      ring
    rw [hXY]
    unfold Sys.watm noiseRatio kept
    have e1 : 1 - slopes s k * damp s k v = regSlope s k * v * damp s k v := by
      unfold damp; field_simp; ring
    have e2 : s.wvlRatio ^ 2 / s.mv * regSlope s k * s.turb k = 1 / (2 * s.kc) ^ 2 := by
      unfold regSlope; field_simp
    rw [e1]
    linear_combination -(msk (s.inside k) * damp s k v ^ 2 * slopes s k * s.piston false k * ng * v) * e2

theorem ratio_mono (ρ γ x y : ℝ) (hρ0 : 0 ≤ ρ) (hρ : ρ ≤ 1) (hγ0 : 0 ≤ γ) (hγ : γ ≤ 2 * ρ) (hx : 0 ≤ x) (hxy : x ≤ y) (hy : y ≤ 1) :
    (1 - ρ * y) ^ 2 + γ * (y * (1 - y)) ≤ (1 - ρ * x) ^ 2 + γ * (x * (1 - x)) := by
  have e : (1 - ρ * x) ^ 2 + γ * (x * (1 - x)) - ((1 - ρ * y) ^ 2 + γ * (y * (1 - y))) =
      (y - x) * (2 * ρ - γ - (ρ ^ 2 - γ) * (x + y)) := by ring
  have h : 0 ≤ 2 * ρ - γ - (ρ ^ 2 - γ) * (x + y) := by
    have h1 : 0 ≤ (2 * ρ - γ) * (2 - (x + y)) / 2 := by
      have : 0 ≤ 2 - (x + y) := by linarith
      have : 0 ≤ 2 * ρ - γ := by linarith
      positivity
    have h2 : 0 ≤ (x + y) / 2 * (2 * ρ - γ - 2 * (ρ ^ 2 - γ)) := by
      have : 0 ≤ x + y := by linarith
      have : 0 ≤ 2 * ρ - γ - 2 * (ρ ^ 2 - γ) := by nlinarith
      positivity
    nlinarith
  have : 0 ≤ (y - x) * (2 * ρ - γ - (ρ ^ 2 - γ) * (x + y)) := mul_nonneg (by linarith) h
  linarith

/-- C403 (partial), C404 (partial), one guide star: in still air, towards the guide star, with the minimum-variance reconstructor, a fainter
star never decreases the sum of spatio-temporal error and noise, and this sum never exceeds the turbulence, provided the noise gain times
the squared ratio of wavelengths does not exceed twice the gain at zero frequency. -/
theorem fainter_star_partial (s : Sys) (h0 : 0 < s.r0) (hL : 0 < s.L0) (hm : 0 < s.mv) (hk : s.kc ≠ 0) (hw : s.wvlRatio ≠ 0) (hg : 0 < s.gain)
    (he : 0 < s.eps) (he1 : s.eps ≤ 1) (hsum : ∑ n ∈ range s.nL, s.w n = 1) (hv : ∀ n < s.nL, s.speed n = 0) (ng : ℝ) (hng : 0 ≤ ng)
    (hr : ng * s.wvlRatio ^ 2 / s.mv ≤ 2 * (s.gain / (s.gain + s.eps))) (k : ℝ × ℝ) :
    ∃ st no : ℝ → ℝ, (∀ v, 0 < v → (withNoise s v).stPsd (0, 0) false k = some (st v) ∧ (withNoise s v).noisePsd ng false k = some (no v)) ∧
      (∀ v v', 0 < v → v ≤ v' → st v + no v ≤ st v' + no v') ∧
      ∀ v, 0 < v → st v + no v ≤ if s.inside k then s.watm false k else 0 := by
  refine ⟨_, _, fun v hvp => still_axis s h0 hL hm hk hw hg he he1 hsum hv ng k v hvp, ?_, ?_⟩
  all_goals
    have hwa : 0 ≤ s.watm false k := by
      unfold Sys.watm
      have := turb_pos s h0 hL k
      have h2 : 0 ≤ s.piston false k := by
        unfold Sys.piston
        simp only [Bool.false_eq_true, if_false]
        exact (Psf.pistonFilter_spec _ _).1
      positivity
    have hρ0 : 0 ≤ s.gain / (s.gain + s.eps) := by positivity
    have hρ1 : s.gain / (s.gain + s.eps) ≤ 1 := by rw [div_le_one (by positivity)]; linarith
    have hγ : 0 ≤ noiseRatio s ng := by unfold noiseRatio; positivity
  · intro v v' hvp hvv
    obtain ⟨a1, a2, _⟩ := kept_range s h0 hL hm hk hw k v hvp
    obtain ⟨b1, b2, _⟩ := kept_range s h0 hL hm hk hw k v' (hvp.trans_le hvv)
    have h := ratio_mono _ (noiseRatio s ng) _ _ hρ0 hρ1 hγ hr b1 (kept_anti s h0 hL hm hk hw k v v' hvp hvv) a2
    have hms : 0 ≤ msk (s.inside k) := by unfold msk; split_ifs <;> norm_num
    have := mul_le_mul_of_nonneg_left (mul_le_mul_of_nonneg_right h hwa) hms
    linarith
  · intro v hvp
    obtain ⟨a1, a2, _⟩ := kept_range s h0 hL hm hk hw k v hvp
    have h := ratio_mono _ (noiseRatio s ng) 0 _ hρ0 hρ1 hγ hr le_rfl a1 a2
    unfold msk
    split_ifs
    · have := mul_le_mul_of_nonneg_right h hwa
      linarith
    · simp

/-- C404 (violation), one guide star: when the noise gain times the squared ratio of wavelengths exceeds twice the gain at zero frequency,
some star gives more spatio-temporal error and noise than the turbulence has without correction. -/
theorem correction_hurts_one_violation (s : Sys) (h0 : 0 < s.r0) (hL : 0 < s.L0) (hm : 0 < s.mv) (hk : s.kc ≠ 0) (hw : s.wvlRatio ≠ 0) (hg : 0 < s.gain)
    (he : 0 < s.eps) (he1 : s.eps ≤ 1) (hsum : ∑ n ∈ range s.nL, s.w n = 1) (hv : ∀ n < s.nL, s.speed n = 0) (ng : ℝ)
    (hr : 2 * (s.gain / (s.gain + s.eps)) < ng * s.wvlRatio ^ 2 / s.mv) (k : ℝ × ℝ) (hin : s.inside k = true)
    (hseen : s.sx k ≠ 0 ∨ s.sy k ≠ 0) (hwa : 0 < s.watm false k) :
    ∃ v, 0 < v ∧ ∃ st no, (withNoise s v).stPsd (0, 0) false k = some st ∧ (withNoise s v).noisePsd ng false k = some no ∧
      s.watm false k < st + no := by
  have hb := regSlope_pos s h0 hL hm hk hw k
  have hA : 0 < slopes s k := by
    unfold slopes
    rcases hseen with h | h
    · have := norm_pos_iff.2 h; positivity
    · have := norm_pos_iff.2 h; positivity
  have hlim : Tendsto (kept s k) atTop (𝓝 0) := by
    have := ((damp_tendsto s k hb).1).const_mul (slopes s k)
    rw [mul_zero] at this
    exact this
  set ρ := s.gain / (s.gain + s.eps) with hρ
  have hr' : 2 * ρ < noiseRatio s ng := hr
  set γ := noiseRatio s ng with hγ
  have h1 : Tendsto (fun v => γ - 2 * ρ + (ρ ^ 2 - γ) * kept s k v) atTop (𝓝 (γ - 2 * ρ)) := by
    have := (hlim.const_mul (ρ ^ 2 - γ)).const_add (γ - 2 * ρ)
    rw [mul_zero, add_zero] at this
    exact this
  obtain ⟨v, h2, hvp⟩ := ((h1.eventually_const_lt (show 0 < γ - 2 * ρ by linarith)).and (eventually_gt_atTop 0)).exists
  obtain ⟨e1, e2⟩ := still_axis s h0 hL hm hk hw hg he he1 hsum hv ng k v hvp
  refine ⟨v, hvp, _, _, e1, e2, ?_⟩
  have h3 := (kept_range s h0 hL hm hk hw k v hvp).2.2 hA
  rw [hin, ← hρ, ← hγ]
  unfold msk
  rw [if_pos rfl]
  have h4 : 0 < kept s k v * (γ - 2 * ρ + (ρ ^ 2 - γ) * kept s k v) := mul_pos h3 h2
  have h5 := mul_pos h4 hwa
  nlinarith

end

/-! The least-squares reconstructor (`MV = 0`, the default of the constructor) (C402, C403) -/

section

/-- C402 (violation): with the least-squares reconstructor, the default, the correction is not given up: at a frequency that the sensor
measures the noise grows without bound with the variance. -/
theorem faint_star_violation (s : Sys) (hm : s.mv = 0) (hk : s.kc ≠ 0) (k : ℝ × ℝ) (h : Spectra.Seen s k) (hin : s.inside k = true)
    (ng : ℝ) (hng : 0 < ng) (hpf : 0 < s.piston false k) :
    ∃ no : ℝ → ℝ, (∀ v, (withNoise s v).noisePsd ng false k = some (no v)) ∧ Tendsto no atTop atTop := by
  refine ⟨_, fun v => Spectra.noise_shack (withNoise s v) ng k h hm, ?_⟩
  have hp := Spectra.seen_pos s k h
  rw [Spectra.norm_av, sq_abs] at hp
  have hpf' : 0 < Psf.pistonFilter s.D (kmod k) := by
    unfold Sys.piston at hpf
    simpa using hpf
  set A := (2 * s.kc) ^ 2 * ((2 * Real.pi * s.dsub) ^ 2 * (k.1 ^ 2 + k.2 ^ 2) * (npSinc (s.dsub * k.1) * npSinc (s.dsub * k.2)) ^ 2) with hA
  have hA0 : 0 < A := by
    have : 0 < (2 * s.kc) ^ 2 := by positivity
    exact mul_pos this hp
  have hc : 0 < ng / A * Psf.pistonFilter s.D (kmod k) := by positivity
  have := (tendsto_id (α := ℝ) (x := atTop)).const_mul_atTop hc
  refine this.congr fun v => ?_
  show ng / A * Psf.pistonFilter s.D (kmod k) * v = msk (s.inside k) * (v * ng / A * Psf.pistonFilter s.D (kmod k))
  rw [hin]; unfold msk; simp only [if_true]; ring

/-- C403 (partial): with the least-squares reconstructor the noise is proportional to the variance and nothing else depends on it, whatever
the wind and the direction of the source. -/
theorem fainter_star_default_partial (s : Sys) (hm : s.mv = 0) (ng : ℝ) (hng : 0 ≤ ng) (th : ℝ × ℝ) (c : Bool) (k : ℝ × ℝ) :
    (∀ v, (withNoise s v).stPsd th c k = s.stPsd th c k ∧ (withNoise s v).aliasPsd c k = s.aliasPsd c k) ∧
    ∀ n, (withNoise s 1).noisePsd ng c k = some n → 0 ≤ n ∧ ∀ v, (withNoise s v).noisePsd ng c k = some (v * n) := by
  have hr : ∀ v, (withNoise s v).reg k = s.reg k := by
    intro v
    rw [Spectra.reg_zero s k hm, Spectra.reg_zero (withNoise s v) k hm]
  have hx : ∀ v, (withNoise s v).rx c k = s.rx c k := by
    intro v
    unfold Sys.rx
    rw [hr v]; rfl
  have hy : ∀ v, (withNoise s v).ry c k = s.ry c k := by
    intro v
    unfold Sys.ry
    rw [hr v]; rfl
  refine ⟨fun v => ⟨?_, ?_⟩, ?_⟩
  · unfold Sys.stPsd
    rw [hx v, hy v]; rfl
  · unfold Sys.aliasPsd
    rw [hx v, hy v]; rfl
  · intro n hn
    unfold Sys.noisePsd at hn ⊢
    rw [hx, hy] at hn
    simp only [hx, hy]
    cases ex : s.rx c k with
    | none => rw [ex] at hn; simp at hn
    | some X =>
      cases ey : s.ry c k with
      | none => rw [ex, ey] at hn; simp at hn
      | some Y =>
        rw [ex, ey] at hn
        simp only [Option.bind_some, Option.some.injEq] at hn ⊢
        have e : n = noiseScao (s.inside k) X Y s.kc (s.piston c k) ng 1 := hn.symm
        constructor
        · rw [e]
          unfold noiseScao msk Sys.piston
          have := (Psf.pistonFilter_spec s.D (kmod k)).1
          split_ifs <;> positivity
        · intro v
          rw [e]
          show noiseScao (s.inside k) X Y s.kc (s.piston c k) ng v = _
          unfold noiseScao; ring

end

/-! ### Cases that meet the hypotheses -/

section
open P3.Observation P3.Geometry

/-- In centimetres. -/
example : (inUnit Spectra.demo 100).psd (1 / 100) 0.5 (1e-5, 0) 0 false (freqIn 100 (0.5, 0)) =
    Spectra.demo.psd 1 0.5 (1e-5, 0) 0 false (0.5, 0) :=
  (units_of_length Spectra.demo 100 (by norm_num) (by norm_num [Spectra.demo]) 1 0.5 (1e-5, 0) 0 false (0.5, 0) (Or.inr (by norm_num))).1

example (pg : Matrix (Fin 2) (Fin 2) ℂ → Matrix (Fin 2) (Fin 2) ℂ) (pm : Matrix (Fin 1) (Fin 1) ℂ → Matrix (Fin 1) (Fin 1) ℂ) :
    (inUnitObs Observation.demo 100).residual pg pm (samplesIn atHalf 100) (5e-5, 0) () = 100 ^ 2 * Observation.demo.residual pg pm atHalf (5e-5, 0) () :=
  (units_of_length_field Observation.demo 100 (by norm_num) (by norm_num [Observation.demo]) pg pm atHalf (fun _ => Or.inr (by norm_num [atHalf])) (5e-5, 0) ()).1

/-- The demonstration with the minimum-variance reconstructor. -/
noncomputable def demoMV : Sys := { Spectra.demo with mv := 1 }

example : ∃ t : ℝ → Fourier.Terms, (∀ v, 0 < v → (withNoise demoMV v).terms 0.5 (1e-5, 0) 0 false (0.5, 0) = some (t v)) ∧
    Tendsto (fun v => (t v).noise) atTop (𝓝 0) := by
  obtain ⟨t, h1, h2, _⟩ := faint_star_partial demoMV (by norm_num [demoMV, Spectra.demo]) (by norm_num [demoMV, Spectra.demo])
    (by norm_num [demoMV]) (by norm_num [demoMV, Spectra.demo]) (by norm_num [demoMV, Spectra.demo]) (by norm_num [demoMV, Spectra.demo])
    1 0.5 (1e-5, 0) 0 false (0.5, 0)
  exact ⟨t, h1, h2⟩

example (pg : Matrix (Fin 2) (Fin 2) ℂ → Matrix (Fin 2) (Fin 2) ℂ) (hg : ∀ A, A.IsHermitian → IsPinv A (pg A))
    (pm : Matrix (Fin 1) (Fin 1) ℂ → Matrix (Fin 1) (Fin 1) ℂ) :
    Tendsto (fun t => (noisier Observation.demo t).noisePart pg pm atHalf (5e-5, 0) ()) atTop (𝓝 0) :=
  (faint_field Observation.demo pg hg pm (by norm_num [Observation.demo])
    (fun n => by unfold Observation.Spec.usedWeights; rw [dif_pos rfl]; norm_num [Observation.demo])
    (fun j => by norm_num [Observation.demo]) atHalf (5e-5, 0) ()).2

/-- Two stars, one layer at 11 km, one mirror: doubling the noise. -/
example (pg : Matrix (Fin 2) (Fin 2) ℂ → Matrix (Fin 2) (Fin 2) ℂ) (hg : ∀ A, A.IsHermitian → IsPinv A (pg A))
    (pm : Matrix (Fin 1) (Fin 1) ℂ → Matrix (Fin 1) (Fin 1) ℂ) (hm : ∀ A, A.IsHermitian → IsPinv A (pm A)) :
    (noisier demoLaser 1).residual pg pm atHalf (0, 0) () ≤ (noisier demoLaser 2).residual pg pm atHalf (0, 0) () ∧
    demoLaser.residual pg pm atHalf (0, 0) () + demoLaser.noisePart pg pm atHalf (0, 0) () ≤
      (if demoLaser.inside (0.5, 0) then demoLaser.kern atHalf () * (∑ n, demoLaser.w n) * demoLaser.piston atHalf () else 0) :=
  ⟨(fainter_stars_partial demoLaser rfl (fun _ => rfl) (by norm_num [demoLaser]) (fun _ => by norm_num [demoLaser])
      (fun _ => by norm_num [demoLaser]) (by norm_num [demoLaser]) pg hg pm hm (by norm_num [demoLaser]) atHalf () 1 2 (by norm_num) (by norm_num)).1,
    correction_helps_partial demoLaser rfl (fun _ => rfl) (by norm_num [demoLaser]) (fun _ => by norm_num [demoLaser])
      (fun _ => by norm_num [demoLaser]) (by norm_num [demoLaser]) pg hg pm hm (by norm_num [demoLaser]) atHalf ()⟩

/-- The same with a wind of 50 m/s, at 100 Hz. -/
noncomputable def demoFast : Obs 2 1 1 1 1 := { demoLaser with wind := ⟨fun _ => 50, fun _ => 0, fun _ => 1, 100, 2⟩ }

example (pg : Matrix (Fin 2) (Fin 2) ℂ → Matrix (Fin 2) (Fin 2) ℂ) (hg : ∀ A, A.IsHermitian → IsPinv A (pg A))
    (pm : Matrix (Fin 1) (Fin 1) ℂ → Matrix (Fin 1) (Fin 1) ℂ) (hm : ∀ A, A.IsHermitian → IsPinv A (pm A)) :
    demoFast.kern atHalf () * (∑ n, demoFast.w n) * demoFast.piston atHalf () < demoFast.residual pg pm atHalf (0, 0) () ∧
    ∃ t > 1, (noisier demoFast t).residual pg pm atHalf (0, 0) () + (noisier demoFast t).noisePart pg pm atHalf (0, 0) () <
      demoFast.residual pg pm atHalf (0, 0) () + demoFast.noisePart pg pm atHalf (0, 0) () := by
  have hpf : 0 < demoFast.piston atHalf () := by
    unfold Obs.piston
    rw [if_neg (by simp [atHalf])]
    exact Psf.pistonFilter_pos _ _ (by norm_num [demoFast, demoLaser])
  have hk : 0 < demoFast.kern atHalf () := by
    unfold Obs.kern kernel
    have h1 : (0:ℝ) < demoFast.r0 := by norm_num [demoFast, demoLaser]
    have h2 : (0:ℝ) < (atHalf.k ()).1 ^ 2 + (atHalf.k ()).2 ^ 2 + 1 / demoFast.L0 ^ 2 := by norm_num [demoFast, demoLaser, atHalf]
    have g1 : 0 < Real.Gamma (6 / 5) := Real.Gamma_pos_of_pos (by norm_num)
    have g2 : 0 < Real.Gamma (11 / 6) := Real.Gamma_pos_of_pos (by norm_num)
    positivity
  have hi : kmod (atHalf.k ()) ≤ demoFast.mirrors.kc 0 := by show kmod (0.5, 0) ≤ 1; rw [kmod_half]; norm_num
  have hin : demoFast.inside (atHalf.k ()) = true := by unfold Obs.inside; norm_num [demoFast, demoLaser, atHalf, Freq.mskIn]
  have hwf : windFreq demoFast.wind (atHalf.k ()) 0 = 0.5 := by norm_num [windFreq, demoFast, atHalf]
  have hlag : demoFast.wind.delay / demoFast.wind.rate * demoFast.wind.speed 0 * windFreq demoFast.wind (atHalf.k ()) 0 = 1 / 2 := by
    rw [hwf]; norm_num [demoFast]
  have hexp : 0 < npSinc (1 / demoFast.wind.rate * 1 * demoFast.wind.speed 0 * windFreq demoFast.wind (atHalf.k ()) 0) := by
    rw [hwf, show 1 / demoFast.wind.rate * 1 * demoFast.wind.speed 0 * 0.5 = (1/4 : ℝ) by norm_num [demoFast]]
    unfold npSinc
    rw [Real.sinc_of_ne_zero (by positivity), show Real.pi * (1/4) = Real.pi / 4 by ring, Real.sin_pi_div_four]
    positivity
  exact ⟨correction_hurts_violation demoFast (by norm_num) rfl 0.1 (by norm_num) (fun _ => rfl) (by norm_num [demoFast, demoLaser]) 1 (fun _ => rfl)
      pg hg pm hm (by norm_num [demoFast, demoLaser]) atHalf () 0 hi hin hk hpf (fun _ => meas_half) hlag hexp,
    fainter_stars_violation demoFast (by norm_num) (by norm_num [demoFast, demoLaser]) rfl 0.1 (by norm_num) (fun _ => rfl)
      (by norm_num [demoFast, demoLaser]) 1 (fun _ => rfl)
      pg hg pm hm (by norm_num [demoFast, demoLaser]) atHalf () 0 hi hin hk hpf (fun _ => meas_half) hlag hexp⟩

example : ∃ st no : ℝ → ℝ, (∀ v, 0 < v → (withNoise demoMV v).stPsd (0, 0) false (0.8, 0) = some (st v) ∧
    (withNoise demoMV v).noisePsd 0.5 false (0.8, 0) = some (no v)) ∧ ∀ v v', 0 < v → v ≤ v' → st v + no v ≤ st v' + no v' := by
  obtain ⟨st, no, h1, h2, _⟩ := fainter_star_partial demoMV (by norm_num [demoMV, Spectra.demo]) (by norm_num [demoMV, Spectra.demo])
    (by norm_num [demoMV]) (by norm_num [demoMV, Spectra.demo]) (by norm_num [demoMV, Spectra.demo]) (by norm_num [demoMV, Spectra.demo])
    (by norm_num [demoMV, Spectra.demo]) (by norm_num [demoMV, Spectra.demo]) (by simp [demoMV, Spectra.demo]) (fun _ _ => rfl) 0.5 (by norm_num)
    (by norm_num [demoMV, Spectra.demo]) (0.8, 0)
  exact ⟨st, no, h1, h2⟩

theorem demo_positive (s : Sys) (h : s.D = 8 ∧ s.r0 = 0.15 ∧ s.L0 = 25) (k : ℝ × ℝ) : 0 < s.piston false k ∧ 0 < s.watm false k := by
  obtain ⟨h1, h2, h3⟩ := h
  have p : 0 < s.piston false k := by
    unfold Sys.piston
    simp only [Bool.false_eq_true, if_false]
    exact Psf.pistonFilter_pos _ _ (by rw [h1]; norm_num)
  exact ⟨p, mul_pos (turb_pos s (by rw [h2]; norm_num) (by rw [h3]; norm_num) k) p⟩

/-- Turbulence described at four times the wavelength of the guide star. -/
example : ∃ v, 0 < v ∧ ∃ st no, (withNoise { demoMV with wvlRatio := 4 } v).stPsd (0, 0) false (0.8, 0) = some st ∧
    (withNoise { demoMV with wvlRatio := 4 } v).noisePsd 0.5 false (0.8, 0) = some no ∧ Sys.watm { demoMV with wvlRatio := 4 } false (0.8, 0) < st + no := by
  apply correction_hurts_one_violation
  · norm_num [demoMV, Spectra.demo]
  · norm_num [demoMV, Spectra.demo]
  · norm_num [demoMV, Spectra.demo]
  · norm_num [demoMV, Spectra.demo]
  · norm_num
  · norm_num [demoMV, Spectra.demo]
  · norm_num [demoMV, Spectra.demo]
  · norm_num [demoMV, Spectra.demo]
  · simp [demoMV, Spectra.demo]
  · intro _ _; rfl
  · norm_num [demoMV, Spectra.demo]
  · exact Spectra.demo_inside
  · left
    intro h
    have := Spectra.seen_pos Spectra.demo (0.8, 0) Spectra.demo_seen
    have e := Spectra.gPSD_eq Spectra.demo (0.8, 0) 0
    have hx : Spectra.demo.sx (0.8, 0) = 0 := h
    have hy : Spectra.demo.sy (0.8, 0) = 0 := by simp [Sys.sy, shResponse]
    rw [hx, hy] at e
    simp only [gPSD, norm_zero] at e
    linarith
  · exact (demo_positive _ ⟨rfl, rfl, rfl⟩ _).2

example : ∃ no : ℝ → ℝ, (∀ v, (withNoise Spectra.demo v).noisePsd 0.5 false (0.8, 0) = some (no v)) ∧ Tendsto no atTop atTop :=
  faint_star_violation Spectra.demo rfl (by norm_num [Spectra.demo]) (0.8, 0) Spectra.demo_seen Spectra.demo_inside 0.5 (by norm_num)
    (demo_positive _ ⟨rfl, rfl, rfl⟩ _).1

example (v : ℝ) : (withNoise Spectra.demo v).stPsd (1e-5, 0) false (0.8, 0) = Spectra.demo.stPsd (1e-5, 0) false (0.8, 0) :=
  ((fainter_star_default_partial Spectra.demo rfl 0.5 (by norm_num) (1e-5, 0) false (0.8, 0)).1 v).1

end

end P3.Limits
