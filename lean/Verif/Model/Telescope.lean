import Mathlib.Analysis.SpecialFunctions.Trigonometric.Basic
import Mathlib.Analysis.SpecialFunctions.Sqrt
import Mathlib.Data.Real.Sqrt
import Mathlib.Data.Finset.Basic
import Mathlib.Algebra.BigOperators.Group.Finset.Basic

/-! Model of p3/aoSystem/telescope.py. FITS files, rotation and resampling of user-given maps are not modelled. -/

namespace P3.Telescope

open Finset

/-- `linspace(-D/2, D/2, resolution)`, telescope.py 115. With one sample numpy returns the start value. -/
noncomputable def axis (D : ℝ) (res i : ℕ) : ℝ :=
  if res = 1 then -D / 2 else -D / 2 + i * (D / ((res : ℝ) - 1))

open Classical in
/-- The default pupil at row `i`, column `k`, telescope.py 113-121: coordinates rotated by the pupil angle (in
degrees), lit when `R <= D/2` and `R > D/2 * obsRatio`. -/
noncomputable def pupil (D obs angle : ℝ) (res i k : ℕ) : ℝ :=
  let th := angle * Real.pi / 180
  let X := axis D res k
  let Y := axis D res i
  let Xr := X * Real.cos th + Y * Real.sin th
  let Yr := Y * Real.cos th - X * Real.sin th
  let R := Real.sqrt (Xr ^ 2 + Yr ^ 2)
  (if R ≤ D / 2 then 1 else 0) * (if D / 2 * obs < R then 1 else 0)

/-- `area`, telescope.py 43-45. -/
noncomputable def area (D obs : ℝ) : ℝ := Real.pi * (D / 2) ^ 2 * (1 - obs ^ 2)

/-- `airmass`, telescope.py 50-52; the zenith angle is in degrees. -/
noncomputable def airmass (zenith : ℝ) : ℝ := 1 / Real.cos (zenith * Real.pi / 180)

/-- Normalisation of one masked Zernike mode over the `n` pixels of the square map, telescope.py 152-155. The
orthonormal matrix `Q` of the QR factorisation (lines 146-150) is computed and not used. -/
noncomputable def normaliseMode (n : ℕ) (z : ℕ → ℝ) (i : ℕ) : ℝ :=
  let c : ℕ → ℝ := fun p => z p - (∑ q ∈ range n, z q) / n
  c i / Real.sqrt ((∑ q ∈ range n, c q ^ 2) / n)

/-- The static phase map built from Zernike coefficients, telescope.py 157-160: `modes` are the masked modes. -/
noncomputable def staticMap (n nz : ℕ) (coef : ℕ → ℝ) (modes : ℕ → ℕ → ℝ) (i : ℕ) : ℝ :=
  ∑ m ∈ range nz, coef m * normaliseMode n (modes m) i

open Classical in
/-- Outcome of the comparison of the number of positions with the field-dependent maps, telescope.py 166-180.
`opdMap_pos.shape[0] != opdMap_off[0]` compares an integer with the first map, pixel by pixel; an array of more
than one truth value in an `if` is a `ValueError`, and so is the explicit refusal. `true` means accepted. -/
noncomputable def offAxisAccepted (nPos : ℕ) (firstMap : List ℝ) : Bool :=
  match firstMap with
  | [v] => decide ((nPos : ℝ) = v)
  | _ => false

/-- Which axis of the cube of static modes is taken as the mode index, telescope.py 189-195: the first when the
first two sizes differ, the last otherwise. -/
def modeAxis (s : ℕ × ℕ × ℕ) : ℕ := if s.1 ≠ s.2.1 then 0 else 2

/-- Number of modes found, telescope.py 197. -/
def nModes (s : ℕ × ℕ × ℕ) : ℕ := if s.1 ≠ s.2.1 then s.1 else s.2.2

end P3.Telescope
