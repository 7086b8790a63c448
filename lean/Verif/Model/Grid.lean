import Verif.Model.Py
import Mathlib.Data.Real.Basic
/-
Two-dimensional arrays and Python slices, shared by the image and PSD models.
-/
namespace P3

/-- An `nx` by `ny` array; values outside the bounds are irrelevant. -/
structure Img (α : Type) where
  nx : ℕ
  ny : ℕ
  px : ℕ → ℕ → α

namespace Img
variable {α : Type}

/-- Two arrays are equal as numpy arrays. -/
def Same (a b : Img α) : Prop :=
  a.nx = b.nx ∧ a.ny = b.ny ∧ ∀ i < a.nx, ∀ j < a.ny, a.px i j = b.px i j

end Img

/-- Bound of a Python slice: negative numbers count from the end, and the result is clipped to the array. -/
def sliceBound (n : ℕ) (i : ℤ) : ℕ := if i < 0 then (i + n).toNat else min i.toNat n

/-- `out[a:b, c:d] = x` (numpy): the block selected by the slices must have the shape of `x`, or `x` has
length one along the axis. -/
def assignBlock {α : Type} (out : Img α) (a b c d : ℤ) (x : Img α) : Except PyErr (Img α) :=
  let a' := sliceBound out.nx a
  let b' := sliceBound out.nx b
  let c' := sliceBound out.ny c
  let d' := sliceBound out.ny d
  if (x.nx = b' - a' ∨ x.nx = 1) ∧ (x.ny = d' - c' ∨ x.ny = 1) then
    .ok ⟨out.nx, out.ny, fun i j =>
      if a' ≤ i ∧ i < b' ∧ c' ≤ j ∧ j < d' then
        x.px (if x.nx = 1 then 0 else i - a') (if x.ny = 1 then 0 else j - c')
      else out.px i j⟩
  else .error .broadcast

/-- `arr[lo:hi] = v` on a one-dimensional array, `0 ≤ lo`, `0 ≤ hi` (numpy). -/
def assignSlice {α : Type} (arr : List α) (lo hi : ℕ) (v : List α) : Except PyErr (List α) :=
  let lo' := min lo arr.length
  let hi' := min hi arr.length
  let n := hi' - lo'
  if v.length = n then .ok (arr.take lo' ++ v ++ arr.drop (max lo' hi'))
  else match v with
    | [x] => .ok (arr.take lo' ++ List.replicate n x ++ arr.drop (max lo' hi'))
    | _ => .error .broadcast

/-- `np.linspace(a, b, num=n)` in exact arithmetic: one point is `a`. -/
noncomputable def linspace (a b : ℝ) (n : ℕ) : List ℝ :=
  (List.range n).map (fun i : ℕ => if n = 1 then a else a + i * ((b - a) / (n - 1)))

end P3
