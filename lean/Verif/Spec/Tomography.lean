import Mathlib.LinearAlgebra.Matrix.ConjTranspose
import Mathlib.Analysis.Complex.Basic
/-
Specification for the tomographic reconstruction, independent of the model.
-/
namespace P3.Tomo.Spec
open Matrix

/-- Layers with phase covariance `C` are measured as `y = B x + n`, with noise of covariance `N` independent of
the phase.  This is the covariance of the error `x - R y` of the linear estimate `R y`:
`(1 - R B) C (1 - R B)ᴴ + R N Rᴴ`. -/
def errCov {g l : ℕ} (B : Matrix (Fin g) (Fin l) ℂ) (C : Matrix (Fin l) (Fin l) ℂ) (N : Matrix (Fin g) (Fin g) ℂ)
    (R : Matrix (Fin l) (Fin g) ℂ) : Matrix (Fin l) (Fin l) ℂ :=
  (1 - R * B) * C * (1 - R * B)ᴴ + R * N * Rᴴ

/-- Weighted squared error over directions: layers seen through `a d` minus mirrors seen through `p d` driven by
the commands `X` (one column per layer). -/
noncomputable def fieldErr {q m l : ℕ} (w : Fin q → ℝ) (p : Fin q → Matrix (Fin 1) (Fin m) ℂ)
    (a : Fin q → Matrix (Fin 1) (Fin l) ℂ) (X : Matrix (Fin m) (Fin l) ℂ) : ℝ :=
  ∑ d, w d * ∑ n, ‖(a d - p d * X) 0 n‖ ^ 2

/-- Squared size of the commands. -/
noncomputable def cost {m l : ℕ} (X : Matrix (Fin m) (Fin l) ℂ) : ℝ := ∑ j, ∑ n, ‖X j n‖ ^ 2

end P3.Tomo.Spec
