import Verif.Model.Grid
import Mathlib.Algebra.BigOperators.Field
/-
Specification of C415-C423: observations of the Keck telescope.
-/
namespace P3.Keck.Spec
open Finset

/-- `out` is the square of `n` pixels of `im` whose pixel `(n/2, n/2)` is the pixel `(y, x)` of `im`. -/
def Centred (im out : Img ℝ) (n y x : ℕ) : Prop :=
  out.nx = n ∧ out.ny = n ∧ n / 2 ≤ y ∧ n / 2 ≤ x ∧ y - n / 2 + n ≤ im.nx ∧ x - n / 2 + n ≤ im.ny ∧
    ∀ i < n, ∀ j < n, out.px i j = im.px (y - n / 2 + i) (x - n / 2 + j)

/-- Entries selected by a map, in order. -/
def selected (map : List Bool) : List ℕ := (List.range map.length).filter fun j => map.getD j false

/-- The columns of `u` selected by the map are those of `s`, in order, and the others vanish. -/
def Placed (map : List Bool) (s u : ℕ → ℕ → ℝ) (rows : ℕ) : Prop :=
  (∀ t < rows, ∀ k (h : k < (selected map).length), u t (selected map)[k] = s t k) ∧
    ∀ t < rows, ∀ j, j ∉ selected map → u t j = 0

/-- Variance of `n` numbers. -/
noncomputable def variance (n : ℕ) (x : ℕ → ℝ) : ℝ := (∑ t ∈ range n, x t ^ 2) / n - ((∑ t ∈ range n, x t) / n) ^ 2

/-- The numbers do not change. -/
def Still (n : ℕ) (x : ℕ → ℝ) : Prop := ∀ t < n, x t = x 0

end P3.Keck.Spec
