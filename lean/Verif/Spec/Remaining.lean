import Mathlib.Data.Real.Basic
import Mathlib.Algebra.BigOperators.Group.List.Basic
/-
Specification of C386-C394.
-/
namespace P3.Remaining.Spec

/-- A name of a FITS file: it ends with `.fits`. -/
def FitsName (p : String) : Prop := ∃ s : List Char, p.toList = s ++ ".fits".toList

/-- Somewhere in the name, a character that is not a line break is followed by `fits`. -/
def AnyFits (p : String) : Prop := ∃ (a b : List Char) (c : Char), c ≠ '\n' ∧ p.toList = a ++ c :: ("fits".toList ++ b)

/-- All entries of an `n` by `m` matrix depend only on the distance to the main diagonal (above it). -/
def Stationary (n m : ℕ) (a : ℕ → ℕ → ℝ) (t : ℕ → ℝ) : Prop := ∀ r i, r < n → r + i < m → a r (r + i) = t i

/-- Half of `n`, rounded to the even integer when `n` is odd. -/
def Middle (n c : ℕ) : Prop := 2 * c = n ∨ ((2 * c + 1 = n ∨ 2 * c = n + 1) ∧ c % 2 = 0)

/-- The corners of a window of `n` by `n` pixels and the middles of its sides are lit. -/
def Surrounded (n c : ℕ) (lit : ℕ → ℕ → Bool) : Prop :=
  (∀ i ∈ [0, n - 1], ∀ j ∈ [0, n - 1], lit i j = true) ∧ (∀ i ∈ [0, n - 1], lit i c = true ∧ lit c i = true)

end P3.Remaining.Spec
