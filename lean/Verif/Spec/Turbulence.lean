import Mathlib.MeasureTheory.Integral.IntegralEqImproper
import Mathlib.Analysis.SpecialFunctions.Pow.Real

/-! Specification of C451-C453: the modified Bessel function of the second kind, which the code takes from scipy
(`scipy.special.kv`), by its integral representation. -/

namespace P3.Turbulence

open MeasureTheory Set

/-- The modified Bessel function of the second kind, of order `ν`, at `x > 0`:
`K_ν(x) = 1/2 ∫_0^∞ t^(ν-1) exp(-x/2 (t + 1/t)) dt`. -/
noncomputable def besselK (ν x : ℝ) : ℝ := 1 / 2 * ∫ t in Ioi (0:ℝ), t ^ (ν - 1) * Real.exp (-(x / 2 * (t + 1 / t)))

end P3.Turbulence
