import Mathlib.MeasureTheory.Integral.IntervalIntegral.Basic
/-
Specification of C405-C407: what a square pixel does to an image.
-/
namespace P3.Pixel.Spec

/-- Flux of the intensity `f` in the square of side `w` centred at `(p, q)`. -/
noncomputable def squareFlux (w : ℝ) (f : ℝ → ℝ → ℝ) (p q : ℝ) : ℝ :=
  ∫ s in (p - w / 2)..(p + w / 2), ∫ t in (q - w / 2)..(q + w / 2), f s t

/-- Mean of the intensity in that square: the image blurred by a square pixel of side `w`. -/
noncomputable def squareMean (w : ℝ) (f : ℝ → ℝ → ℝ) (p q : ℝ) : ℝ := squareFlux w f p q / w ^ 2

/-- What a detector records whose pixels are `k` samples wide: the flux in the pixel which starts at sample `(p, q)`, i.e. half a
sample before it. -/
noncomputable def recorded (k : ℕ) (f : ℝ → ℝ → ℝ) (p q : ℤ) : ℝ :=
  squareFlux k f (p + (k - 1) / 2) (q + (k - 1) / 2)

end P3.Pixel.Spec
