import Verif.Model.Cone
import Verif.Props.Limits
import Verif.Props.Psf
/-
C468: turning the loop off.
-/
namespace P3.Cone
open P3.Spectra P3.Fourier P3.Limits P3.Limits.Spec P3.Tomo Filter Topology

/-- C468: without correction the spectrum returned is that of the turbulence without its piston: at every frequency it is
between zero and the one of the atmosphere, it does not depend on guide stars, sensor, loop and sources, and it is
positive. -/
theorem open_loop (s s' : Spectra.Sys) (u : ℝ) (k : ℝ × ℝ) (hu : u ≠ 0) (h0 : 0 < s.r0) (hL : 0 < s.L0) (hD : s.D ≠ 0)
    (e1 : s'.r0 = s.r0) (e2 : s'.L0 = s.L0) (e3 : s'.D = s.D) :
    openPsd s' u k = openPsd s u k ∧ 0 < openPsd s u k ∧ openPsd s u k ≤ s.turb k * u ^ 2 := by
  have ht := turb_pos s h0 hL k
  have hp := Psf.pistonFilter_pos s.D (kmod k) hD
  have hp1 := (Psf.pistonFilter_spec s.D (kmod k)).2.1
  refine ⟨?_, by unfold openPsd; positivity, ?_⟩
  · unfold openPsd Sys.turb; rw [e1, e2, e3]
  · unfold openPsd
    have : s.turb k * Psf.pistonFilter s.D (kmod k) ≤ s.turb k := by nlinarith
    exact mul_le_mul_of_nonneg_right this (sq_nonneg u)

/-- C468 (partial): in the corrected area the spectrum of a loop that is off is the limit of that of a loop whose star gets
fainter and fainter, refraction and chromatism apart. -/
theorem open_limit_partial (s : Spectra.Sys) (h0 : 0 < s.r0) (hL : 0 < s.L0) (hm : 0 < s.mv) (hk : s.kc ≠ 0) (hw : s.wvlRatio ≠ 0)
    (hg : s.gain ≠ 0) (u ng : ℝ) (th : ℝ × ℝ) (az : ℝ) (k : ℝ × ℝ) (hi : s.inside k = true) :
    ∃ t : ℝ → Terms, (∀ v, 0 < v → (withNoise s v).terms ng th az false k = some (t v)) ∧
      Tendsto (fun v => psdFinal u none true (t v)) atTop
        (𝓝 (openPsd s u k + (s.diffRefPsd az false k + s.chromPsd false k) * u ^ 2)) := by
  obtain ⟨t, h1, -, -, -, h2⟩ := faint_star_partial s h0 hL hm hk hw hg u ng th az false k
  refine ⟨t, h1, ?_⟩
  convert h2 using 2
  have hf : s.fitPsd k = 0 := by
    unfold Sys.inside at hi
    simp only [decide_eq_true_eq] at hi
    unfold Sys.fitPsd Freq.fittingPsd
    rw [if_neg (fun h => (Freq.masks_partition _ _ _ _).1 h hi)]
  rw [if_pos hi, hf]
  unfold openPsd Sys.watm Sys.piston
  simp only [Bool.false_eq_true, if_false]
  ring

/-- C468 (violation): outside the corrected area the two differ: the loop that corrects nothing keeps the piston there, the
loop that is off does not. -/
theorem open_limit_violation (s : Spectra.Sys) (h0 : 0 < s.r0) (hL : 0 < s.L0) (hm : 0 < s.mv) (hk : s.kc ≠ 0) (hw : s.wvlRatio ≠ 0)
    (hg : s.gain ≠ 0) (u ng : ℝ) (hu : u ≠ 0) (th : ℝ × ℝ) (az : ℝ) (k : ℝ × ℝ) (hi : s.inside k = false)
    (hp : Psf.pistonFilter s.D (kmod k) < 1) :
    ∃ (t : ℝ → Terms) (l : ℝ), (∀ v, 0 < v → (withNoise s v).terms ng th az false k = some (t v)) ∧
      Tendsto (fun v => psdFinal u none true (t v)) atTop
        (𝓝 (l + (s.diffRefPsd az false k + s.chromPsd false k) * u ^ 2)) ∧ openPsd s u k < l := by
  obtain ⟨t, h1, -, -, -, h2⟩ := faint_star_partial s h0 hL hm hk hw hg u ng th az false k
  refine ⟨t, s.turb k * u ^ 2, h1, ?_, ?_⟩
  · convert h2 using 2
    have hf : s.fitPsd k = s.turb k := by
      unfold Sys.inside at hi
      simp only [decide_eq_false_iff_not] at hi
      unfold Sys.fitPsd Freq.fittingPsd Sys.turb
      rw [if_pos ((Freq.masks_partition _ _ _ _).2 hi)]; rfl
    rw [hi, hf]
    simp only [Bool.false_eq_true, if_false]
    ring
  · have ht := turb_pos s h0 hL k
    unfold openPsd
    have hu2 : 0 < u ^ 2 := by positivity
    have : s.turb k * Psf.pistonFilter s.D (kmod k) < s.turb k := by nlinarith
    exact mul_lt_mul_of_pos_right this hu2

/-- The loop of `demoMV` off. -/
example : 0 < openPsd demoMV 1 (0.5, 0) :=
  (open_loop demoMV demoMV 1 (0.5, 0) one_ne_zero (by norm_num [demoMV, Spectra.demo]) (by norm_num [demoMV, Spectra.demo])
    (by norm_num [demoMV, Spectra.demo]) rfl rfl rfl).2.1

/-- A frequency of the corrected area of `demoMV`. -/
example : demoMV.inside (0.5, 0) = true := by
  norm_num [Sys.inside, Freq.mskIn, demoMV, Spectra.demo]

/-- A frequency outside it, where the piston of a telescope of ten centimetres is felt. -/
example : ({demoMV with D := 0.1} : Spectra.Sys).inside (2, 0) = false ∧ Psf.pistonFilter 0.1 (kmod (2, 0)) < 1 := by
  constructor
  · norm_num [Sys.inside, Freq.mskIn, demoMV, Spectra.demo]
  · have hk : kmod (2, 0) = 2 := by
      unfold kmod; norm_num
      rw [show (4:ℝ) = 2 ^ 2 by norm_num, Real.sqrt_sq (by norm_num)]
    rw [hk, Psf.pistonFilter_unclipped _ _ (by norm_num)]
    have h := (Psf.sombrero1_bounds (Real.pi * 0.1 * 2)).2
    have p1 := Real.pi_gt_three
    have p2 := Real.pi_lt_d2
    have : (Real.pi * 0.1 * 2) ^ 2 ≤ 1 := by nlinarith
    have h2 : 0 < Psf.sombrero1 (Real.pi * 0.1 * 2) := by linarith
    nlinarith [pow_pos h2 2]

end P3.Cone
