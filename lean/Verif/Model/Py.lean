import Mathlib.Data.Rat.Defs
import Mathlib.Algebra.BigOperators.Group.List.Basic
/-
Small Python/numpy run-time library shared by the models: exception classes, `require`,
list broadcasting.
-/
namespace P3

/-- Python exception classes that the modelled code can raise.  A `ValueError` raised by P3 itself
carries a description of the check that failed; one raised inside numpy is `broadcast`. -/
inductive PyErr
  | typeError | indexError | keyError | zeroDivision | attributeError | nameError
  | unboundLocal
  | broadcast                      -- numpy `ValueError: operands could not be broadcast`
  | ambiguous                      -- numpy `ValueError: truth value of an array ... is ambiguous`
  deriving DecidableEq, Repr

/-- `if not c: raise e` -/
def require {ε : Type*} (c : Prop) [Decidable c] (e : ε) : Except ε Unit :=
  if c then .ok () else .error e

/-- numpy binary broadcasting of two one-dimensional arrays. -/
def bcast {α β γ : Type*} (f : α → β → γ) (xs : List α) (ys : List β) : Except PyErr (List γ) :=
  match xs, ys with
  | [x], ys => .ok (ys.map (f x))
  | xs, [y] => .ok (xs.map (fun x => f x y))
  | xs, ys => if xs.length = ys.length then .ok (List.zipWith f xs ys) else .error .broadcast

/-- numpy `row[:] = xs` for a row of length `n`. -/
def assignRow {α : Type*} (n : ℕ) (xs : List α) : Except PyErr (List α) :=
  match xs with
  | [x] => .ok (List.replicate n x)
  | xs => if xs.length = n then .ok xs else .error .broadcast

end P3
