import Mathlib.Analysis.Real.Sqrt
import Mathlib.Data.List.Sort
import Mathlib.Data.Nat.Sqrt
import Mathlib.Algebra.Order.Floor.Ring

/-! Model of the calibration of PSFs over a field: p3/psfFitting/fittingUtils.py. Images are functions of row and
column; arithmetic is exact. -/

namespace P3.FieldFit

/-- An image (row, column). -/
abbrev Im := ℕ → ℕ → ℝ

/-- Exceptions raised on the modelled paths. -/
inductive Err | valueError | typeError | zeroDivision | unboundLocal
  deriving DecidableEq, Repr

/-! ### Tiles -/

/-- Tile at row `y` and column `x`, fittingUtils.py 215-229: the upper limits are `min((y+1)*py, nY)`, which is
`(y+1)*py`. -/
def tile (im : Im) (py px y x : ℕ) : Im := fun i j => im (y * py + i) (x * px + j)

/-- `segment_image_in_tiles`, fittingUtils.py 194-231: the cube of tiles (with their height and width) in row order. -/
def tiles (im : Im) (nY nX n : ℕ) : Except Err (ℕ × ℕ × List Im) :=
  if n = 0 then .error .zeroDivision
  else .ok (nY / n, nX / n, (List.range n).flatMap fun y => (List.range n).map fun x => tile im (nY / n) (nX / n) y x)

/-- Centres of the tiles, fittingUtils.py 216, 221 and 226-227. -/
def centers (nY nX n : ℕ) : List (ℕ × ℕ) :=
  (List.range n).flatMap fun y => (List.range n).map fun x =>
    (y * (nY / n) + (min ((y + 1) * (nY / n)) nY - y * (nY / n)) / 2, x * (nX / n) + (min ((x + 1) * (nX / n)) nX - x * (nX / n)) / 2)

/-- Element of a cube in memory order, for tiles of height `py` and width `px`. -/
def flat (cube : List Im) (py px t : ℕ) : ℝ := (cube.getD (t / (py * px)) fun _ _ => 0) (t % (py * px) / px) (t % px)

/-- `psf_cube_to_image`, fittingUtils.py 452-480: the cube is seen as `s x s` images of `py x py` pixels, where `s` is
the integer square root of the number of images, and they are put side by side. -/
def cubeToImage (cube : List Im) (py px : ℕ) : Except Err (ℕ × Im) :=
  let s := cube.length.sqrt
  if cube.length * (py * px) = s * s * (py * py) then
    .ok (s * py, fun a b => flat cube py px (((a / py * s + b / py) * py + a % py) * py + b % py))
  else .error .valueError

/-! ### Interpolation -/

/-- `w_mse`, fittingUtils.py 435-436: `mse` is reshaped as `(nPSFMax, nSeg)` and normalised over the first axis. -/
noncomputable def wMse (mse : ℕ → ℝ) (nMax nSeg k : ℕ) : ℝ :=
  1 / mse k / ((List.range nMax).map fun a : ℕ => 1 / mse (a * nSeg + k % nSeg)).sum

/-- `d_out`, fittingUtils.py 442: the distance to each PSF times its weight. -/
noncomputable def dOut (w : ℕ → ℝ) (yo xo : ℝ) (y x : ℕ → ℝ) (k : ℕ) : ℝ := w k * √((yo - y k) ^ 2 + (xo - x k) ^ 2)

/-- `w_out`, fittingUtils.py 446, for the selected PSFs `ids`: `none` (not a number) when a distance is zero. -/
noncomputable def wOut (d : ℕ → ℝ) (ids : List ℕ) (k : ℕ) : Option ℝ :=
  open Classical in
  if ∃ i ∈ ids, d i = 0 then none else some (1 / d k / (ids.map fun i => 1 / d i).sum)

open Classical in
/-- `np.argsort(d)[:n]`, fittingUtils.py 444. -/
noncomputable def nearest (d : ℕ → ℝ) (nPSF n : ℕ) : List ℕ :=
  ((List.range nPSF).insertionSort fun a b => d a ≤ d b).take n

/-- One interpolated PSF, fittingUtils.py 447. -/
noncomputable def interp (psfs : ℕ → Im) (d : ℕ → ℝ) (ids : List ℕ) : Option Im :=
  open Classical in
  if ∃ i ∈ ids, d i = 0 then none
  else some fun a b => (ids.map fun k => psfs k a b * (1 / d k / (ids.map fun i => 1 / d i).sum)).sum

/-! ### Candidates -/

/-- A detected star: coordinates and magnitude. -/
structure Star where
  y : ℝ
  x : ℝ
  mag : ℝ

/-- Stars kept for a tile, fittingUtils.py 263-279: inside the tile without its border, and within the magnitudes. -/
def Keep (y0 x0 nY nX border : ℕ) (lo hi : ℝ) (s : Star) : Prop :=
  ((x0 : ℝ) - (nX / 2 : ℕ) + border < s.x ∧ s.x < (x0 : ℝ) + (nX / 2 : ℕ) - border) ∧
  ((y0 : ℝ) - (nY / 2 : ℕ) + border < s.y ∧ s.y < (y0 : ℝ) + (nY / 2 : ℕ) - border) ∧ lo < s.mag ∧ s.mag < hi

/-- The criterion of selection. -/
inductive Crit | isolated | center | other
  deriving DecidableEq

open Classical in
/-- `select_candidates_for_fitting` for one tile, fittingUtils.py 259-297. `key` is the mean distance to the other kept
stars for `isolated` (the largest are taken) and the distance to the centre for `center` (the smallest are taken). A
limit of magnitude that is `None` cannot be compared. -/
noncomputable def select (stars : List Star) (y0 x0 nY nX border n : ℕ) (lo hi : Option ℝ) (crit : Crit)
    (key : List Star → Star → ℝ) : Except Err (List Star) :=
  match lo, hi with
  | some lo, some hi =>
    let kept := stars.filter fun s => decide (Keep y0 x0 nY nX border lo hi s)
    if kept.length < n then .error .valueError
    else
      let sorted := kept.insertionSort fun a b => key kept a ≤ key kept b
      match crit with
      | .isolated => .ok (sorted.drop (sorted.length - n))
      | .center => .ok (sorted.take n)
      | .other => .error .unboundLocal
  | _, _ => .error .typeError

/-! ### Extraction -/

/-- Python's `int`: truncation towards zero. -/
noncomputable def trunc (x : ℝ) : ℤ := if x < 0 then ⌈x⌉ else ⌊x⌋

/-- A slice bound: negative counts from the end, and everything is clipped to the axis. -/
def bound (N : ℕ) (a : ℤ) : ℕ := if a < 0 then (max 0 (N + a)).toNat else min N a.toNat

/-- Rows of `im[int(c - nPx/2) : int(c + nPx/2)]`, fittingUtils.py 322: start and length. -/
noncomputable def cut (N : ℕ) (c : ℝ) (nPx : ℕ) : ℕ × ℕ :=
  let a := bound N (trunc (c - (nPx : ℝ) / 2))
  let b := bound N (trunc (c + (nPx : ℝ) / 2))
  (a, b - a)

/-- `extract_multiple_psf` for one star, fittingUtils.py 317-323: a sub-image of another size raises. (Sizes of one
pixel would be broadcast and are left out: `nPx` is at least two.) -/
noncomputable def extract (im : Im) (nY nX : ℕ) (y x : ℝ) (nPx : ℕ) : Except Err Im :=
  let cy := cut nY y nPx
  let cx := cut nX x nPx
  if cy.2 = nPx ∧ cx.2 = nPx then .ok fun i j => im (cy.1 + i) (cx.1 + j) else .error .valueError

/-! ### Grid of interpolation and spatial variations -/

/-- `np.linspace(-nX//2 + nX/nSeg//2, nX//2 - nX/nSeg//2, num=nSeg)[k]`, fittingUtils.py 120-121. -/
noncomputable def gridPoint (nX nSeg k : ℕ) : ℝ :=
  let a : ℝ := (((-(nX : ℤ)) / 2 : ℤ) : ℝ) + (⌊(nX : ℝ) / nSeg / 2⌋ : ℝ)
  let b : ℝ := ((nX / 2 : ℕ) : ℝ) - (⌊(nX : ℝ) / nSeg / 2⌋ : ℝ)
  if nSeg = 1 then a else a + k * ((b - a) / ((nSeg : ℝ) - 1))

/-- Mean of a parameter weighted by the inverse of its error, fittingUtils.py 497-528; a zero error gives no number. -/
noncomputable def wMean (v e : List ℝ) : Option ℝ :=
  open Classical in
  if 0 ∈ e then none
  else some ((List.zipWith (fun v e => v * 1 / e) v e).sum / (e.map fun e => 1 / e).sum)

/-- `np.polyval(M, r)`, used in fittingUtils.py 559, for a model with coefficients `M` from the highest degree. -/
def polyval (M : List ℝ) (r : ℝ) : ℝ := M.foldl (fun acc c => acc * r + c) 0

end P3.FieldFit
