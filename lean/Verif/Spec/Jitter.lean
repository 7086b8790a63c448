import Mathlib.Probability.Distributions.Gaussian.Real
/-
Specification of C413-C414: an image that moves at random during the exposure.
-/
namespace P3.Jitter.Spec
open MeasureTheory ProbabilityTheory

/-- Mean of the image `f` over random displacements `(a S, b S + c T)`, with independent standard normal `S` and `T`:
displacements of variances `a²` and `b² + c²` and covariance `a b`. -/
noncomputable def blurred (a b c : ℝ) (f : ℝ → ℝ → ℝ) (p q : ℝ) : ℝ :=
  ∫ s, ∫ t, f (p + a * s) (q + (b * s + c * t)) ∂(gaussianReal 0 1) ∂(gaussianReal 0 1)

/-- The same with independent displacements of rms `sx` and `sy`. -/
noncomputable def gaussBlur (sx sy : ℝ) (f : ℝ → ℝ → ℝ) (p q : ℝ) : ℝ := blurred sx 0 sy f p q

/-- Full width at half maximum of the Gaussian of rms `s`: twice the distance at which `exp(-x²/(2 s²))` is one half. -/
def IsFwhm (s w : ℝ) : Prop := 0 ≤ w ∧ Real.exp (-(w / 2) ^ 2 / (2 * s ^ 2)) = 1 / 2

/-- Radians of an angle in milliarcseconds: a thousandth of an arcsecond, of which a degree has 3600. -/
noncomputable def ofMas (x : ℝ) : ℝ := x / 1000 / 3600 * (Real.pi / 180)

/-- Mean square over a disc of diameter `D` of the wavefront of a tilt `(x, y)` in radians. -/
noncomputable def tiltMeanSquare (D x y : ℝ) : ℝ :=
  (∫ r in (0:ℝ)..(D / 2), ∫ φ in (0:ℝ)..(2 * Real.pi), (x * (r * Real.cos φ) + y * (r * Real.sin φ)) ^ 2 * r) /
    (Real.pi * (D / 2) ^ 2)

/-- Mean square wavefront of random tilts of rms `sx` and `sy` radians. -/
noncomputable def jitterMeanSquare (D sx sy : ℝ) : ℝ :=
  ∫ s, ∫ t, tiltMeanSquare D (sx * s) (sy * t) ∂(gaussianReal 0 1) ∂(gaussianReal 0 1)

end P3.Jitter.Spec
