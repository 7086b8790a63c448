import Mathlib.Data.List.Basic
import Mathlib.Data.Real.Basic
import Mathlib.Algebra.BigOperators.Group.Finset.Basic
/-
What a user expects of several calls of a PSF model.  Independent of the model.
-/
namespace P3.Calls.Spec
open Finset

/-- The results of a stateful function do not depend on the calls made before: after any calls it returns what it would
have returned first. -/
def Memoryless {S X R : Type} (new : S) (call : S → X → S × R) : Prop :=
  ∀ (earlier : List X) (x : X), (call (earlier.foldl (fun s y => (call s y).1) new) x).2 = (call new x).2

/-- An array of images, one for each star, each with the sum `F s` above the background `b`: `v [i, j, s]` is the
pixel `(i, j)` of star `s`. -/
def CubeOf (fov nStar : ℕ) (psf : ℕ → ℕ → ℕ → ℝ) (F : ℕ → ℝ) (b : ℝ) (shape : List ℕ) (v : List ℕ → ℝ) : Prop :=
  shape = [fov, fov, nStar] ∧ ∀ i < fov, ∀ j < fov, ∀ s < nStar,
    v [i, j, s] = psf i j s / (∑ a ∈ range fov, ∑ c ∈ range fov, psf a c s) * F s + b

end P3.Calls.Spec
