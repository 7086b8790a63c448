import Mathlib.Analysis.SpecialFunctions.Trigonometric.Basic
import Mathlib.Analysis.SpecialFunctions.Sqrt
import Mathlib.Data.Real.Sqrt
import Mathlib.Algebra.Order.Floor.Ring

/-! Model of p3/aoSystem/zernike.py: Noll indices and Zernike polynomials. -/

namespace P3.Zernike

/-- Radial order of a Noll index: `int(np.sqrt(2*j - 1) + 0.5) - 1`, zernike.py 100. Exact square root; `int`
truncates, which for the positive argument is the floor. -/
noncomputable def findN (j : ℕ) : ℤ := ⌊Real.sqrt (2 * (j : ℝ) - 1) + 1 / 2⌋ - 1

/-- Azimuthal order of a Noll index given the radial order, zernike.py 101-104; `//` is the floor division. -/
def findM (n : ℤ) (j : ℤ) : ℤ :=
  if n % 2 ≠ 0 then 2 * ((2 * (j + 1) - n * (n + 1)) / 4) - 1 else 2 * ((2 * j + 1 - n * (n + 1)) / 4)

/-- `findNM`, zernike.py 74-107, for one index. -/
noncomputable def findNM (j : ℕ) : ℤ × ℤ := (findN j, findM (findN j) j)

/-- `findNM(jIndex)` on a list, zernike.py 86-107: an empty argument means the indices of the object, and the
loop runs over the number of modes of the object (line 94), whatever the length of the argument. `none` is the
`IndexError` of `jIndex[k]`. -/
noncomputable def findNMList (self arg : List ℕ) : Option (List (ℤ × ℤ)) :=
  let js := if arg = [] then self else arg
  (List.range self.length).mapM fun k => (js[k]?).map findNM

/-- `nModeFromRadialOrder`, zernike.py 109-115. -/
noncomputable def nModeFromRadialOrder (n : ℝ) : ℝ := (n + 1) * (n + 2) / 2

/-- `nmOrder` of `CoefficientsVariance`, zernike.py 188-194: the second implementation of the same indices.
`p` is the integer `j - n(n+1)/2`. -/
noncomputable def nmOrder (j : ℕ) : ℤ × ℤ :=
  let n : ℤ := ⌊(-1 + Real.sqrt (8 * ((j : ℝ) - 1) + 1)) / 2⌋
  let p : ℝ := (j : ℝ) - (n * (n + 1) : ℤ) / 2
  let k : ℤ := n % 2
  (n, ⌊(p + k) / 2⌋ * 2 - k)

/-- `R_fun`, zernike.py 126-138, with `s1 = (n+m)/2` and `s2 = (n-m)/2`. The `max(0, .)` are those of the
natural subtraction. -/
noncomputable def radial (n m : ℕ) (r : ℝ) : ℝ :=
  ((List.range ((n - m) / 2 + 1)).map fun s : ℕ =>
    (-1 : ℝ) ^ s * (((n - s).factorial : ℝ) /
      (((s.factorial * ((n + m) / 2 - s).factorial * ((n - m) / 2 - s).factorial : ℕ)) : ℝ)) * r ^ (n - 2 * s)).sum

/-- One mode at polar coordinates inside the pupil, zernike.py 151-179: null azimuthal order, even Noll index
(cosine), odd Noll index (sine). -/
noncomputable def mode (j : ℕ) (r o : ℝ) : ℝ :=
  let n := (findN j).toNat
  let m := (findM (findN j) j).toNat
  if m = 0 then Real.sqrt (n + 1) * radial n m r
  else if j % 2 = 0 then Real.sqrt (n + 1) * radial n m r * Real.sqrt 2 * Real.cos (m * o)
  else Real.sqrt (n + 1) * radial n m r * Real.sqrt 2 * Real.sin (m * o)

/-- The pupil of the modes, zernike.py 64-65: between the central obstruction and the unit circle. -/
def inPupil (cobs r : ℝ) : Prop := cobs ≤ r ∧ r ≤ 1

/-- The abscissa of pixel `i` on the default grid of `u` pixels, zernike.py 54-56:
`2*linspace(-(u-1)/2, (u-1)/2, u)/u`. -/
noncomputable def grid (u i : ℕ) : ℝ := 2 * (-((u : ℝ) - 1) / 2 + i) / u

open Classical in
/-- The stored map of mode `j` at pixel `(i, k)`, zernike.py 54-60, 64-65 and 147-179: zero outside the pupil. -/
noncomputable def modeMap (u : ℕ) (cobs : ℝ) (j i k : ℕ) (angle : ℝ → ℝ → ℝ) : ℝ :=
  let x := grid u k
  let y := grid u i
  let r := Real.sqrt (x ^ 2 + y ^ 2)
  if inPupil cobs r then mode j r (angle y x) else 0

/-- `nollNorm`, zernike.py 69. -/
noncomputable def nollNorm (n m : ℕ) : ℝ := Real.sqrt ((2 - (if m = 0 then 1 else 0)) * (n + 1))

/-- `modes * np.diag(1/self.nollNorm)`, zernike.py 181-182: numpy broadcasts the modes, of shape
`(nf, res, res)`, against the diagonal matrix, of shape `(nf, nf)`; `none` is the `ValueError` for shapes that
cannot be broadcast. The result maps `(mode, row, column)` to the value; when `res = 1` the result has `nf` rows
and columns. -/
noncomputable def unitNorm (nf res : ℕ) (modes : ℕ → ℕ → ℕ → ℝ) (norm : ℕ → ℝ) : Option (ℕ → ℕ → ℕ → ℝ) :=
  let diag : ℕ → ℕ → ℝ := fun i l => if i = l then 1 / norm i else 0
  if nf = res then some fun k i l => modes k i l * diag i l
  else if nf = 1 then some fun k i l => modes k i l * diag 0 0
  else if res = 1 then some fun k i l => modes k 0 0 * diag i l
  else none

end P3.Zernike
