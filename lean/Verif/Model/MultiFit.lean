import Verif.Model.FieldFit
import Verif.Model.Metrics

/-! Model of the fit of several sub-images of a field and of what the interpolation does with the sub-images that were
not fitted: p3/psfFitting/fittingUtils.py 322-449. The detection (photutils) and the fit of one sub-image are arguments;
arithmetic is exact. -/

namespace P3.MultiFit
open FieldFit (Im)

/-- A detected star: `ycentroid`, `xcentroid` and `flux`. -/
structure Found where
  y : ℝ
  x : ℝ
  flux : ℝ

/-- A sub-image of the field: the stars detected in it, its numbers of rows and columns, its coordinates in the field
(`coo_seg[k]`). -/
structure Tile where
  stars : List Found
  ny : ℕ
  nx : ℕ
  y : ℝ
  x : ℝ

/-- What the fit of one sub-image returns and is kept: `x`, `xerr` and the metrics of fittingUtils.py 396. -/
structure Fit where
  x : List ℝ
  xerr : List ℝ
  srSky : ℝ
  srFit : ℝ
  fwhmXSky : ℝ
  fwhmYSky : ℝ
  fwhmXFit : ℝ
  fwhmYFit : ℝ
  mse : ℝ

/-- `x0`, fittingUtils.py 353. -/
noncomputable def guess : List ℝ := [0.5, 0, 1, 1e-1, 0.5, 0, 1.8, 0, 0, 0]

/-- `x0 + xstars`, fittingUtils.py 376-380 and 388: fluxes divided by their sum, coordinates from the central pixel
(rows first), background. -/
noncomputable def start (t : Tile) : List ℝ :=
  guess ++ (t.stars.map fun s => s.flux / (t.stars.map Found.flux).sum) ++
    (t.stars.map fun s => s.y - ((t.ny / 2 : ℕ) : ℝ)) ++ (t.stars.map fun s => s.x - ((t.nx / 2 : ℕ) : ℝ)) ++ [0]

/-- `fixed`, fittingUtils.py 381. -/
def mask (nStars : ℕ) : List Bool :=
  [false, true, false, false, false, false, false] ++ List.replicate 3 true ++ List.replicate (3 * nStars + 1) false

/-- `coo_stars`, fittingUtils.py 384: the offsets of the stars in arcseconds, rows first. -/
noncomputable def cooStars (psArcsec : ℝ) (t : Tile) : List (ℝ × ℝ) :=
  t.stars.map fun s => ((s.y - ((t.ny / 2 : ℕ) : ℝ)) * psArcsec, (s.x - ((t.nx / 2 : ℕ) : ℝ)) * psArcsec)

/-- The fit of one sub-image, from the offsets of its stars (the model is built with them), the start and the mask;
`none` when it raises. -/
abbrev Solver := Tile → List (ℝ × ℝ) → List ℝ → List Bool → Option Fit

/-- One turn of the loop, fittingUtils.py 358-400: `none` when the fit raises, `some none` when nothing is detected. -/
noncomputable def fitTile (solver : Solver) (psArcsec : ℝ) (t : Tile) : Option (Option Fit) :=
  if t.stars = [] then some none
  else (solver t (cooStars psArcsec t) (start t) (mask t.stars.length)).map some

/-- A column of `X`, fittingUtils.py 349 and 391-399: zeros without a fit. -/
noncomputable def column (t : Tile) : Option Fit → List ℝ
  | none => List.replicate 24 0
  | some f => f.x.take 7 ++ f.xerr.take 7 ++ [t.y, t.x, √(t.y ^ 2 + t.x ^ 2)] ++
      [f.srSky, f.srFit, f.fwhmXSky, f.fwhmYSky, f.fwhmXFit, f.fwhmYFit, f.mse]

/-- `X[0, fit_ok]`, fittingUtils.py 406. -/
def seeing (fits : List (Option Fit)) : List ℝ := fits.filterMap fun f => f.map fun f => f.x.getD 0 0

/-- Parameters of a regenerated PSF, fittingUtils.py 409. -/
def regen (r0 : ℝ) (f : Fit) : List ℝ := r0 :: (f.x.take 7).drop 1 ++ [0, 0, 0, 1, 0, 0, 0]

/-- `fit_multiple_psfs`, fittingUtils.py 322-411: the columns of `X` and the PSFs, `none` when a fit raises. `build` is the
image of the model at the position of the parameter file. -/
noncomputable def run (solver : Solver) (build : List ℝ → Im) (psArcsec : ℝ) (tiles : List Tile) :
    Option (List (List ℝ) × List Im) :=
  match tiles.mapM (fitTile solver psArcsec) with
  | none => none
  | some fits =>
    let r0 := Metrics.median (seeing fits)
    some (List.zipWith column tiles fits, fits.map fun
      | none => fun _ _ => 0
      | some f => build (regen r0 f))

/-! ### Interpolation with sub-images that were not fitted -/

open Classical in
/-- `w_mse`, fittingUtils.py 435-436, with the division by zero of numpy: a mean square error of zero has an infinite
inverse; infinity over infinity is not a number (`none`) and a number over infinity is zero. -/
noncomputable def weight (mse : ℕ → ℝ) (nMax nSeg k : ℕ) : Option ℝ :=
  if mse k = 0 then none
  else if ∃ a < nMax, mse (a * nSeg + k % nSeg) = 0 then some 0
  else some (FieldFit.wMse mse nMax nSeg k)

/-- `d_out`, fittingUtils.py 442. -/
noncomputable def dist (mse : ℕ → ℝ) (nMax nSeg : ℕ) (yo xo : ℝ) (y x : ℕ → ℝ) (k : ℕ) : Option ℝ :=
  (weight mse nMax nSeg k).map fun w => w * √((yo - y k) ^ 2 + (xo - x k) ^ 2)

/-- The order of `np.argsort`: what is not a number is last. -/
def ordered (a b : Option ℝ) : Prop :=
  match a, b with
  | some u, some v => u ≤ v
  | _, none => True
  | none, some _ => False

open Classical in
/-- `np.argsort(d_out)[:nNeighbors]`, fittingUtils.py 444. -/
noncomputable def nearest (d : ℕ → Option ℝ) (nPSF n : ℕ) : List ℕ :=
  ((List.range nPSF).insertionSort fun a b => ordered (d a) (d b)).take n

open Classical in
/-- One interpolated PSF, fittingUtils.py 446-447: `none` (not a number) as soon as a selected distance is zero or is not
a number. -/
noncomputable def interp (psfs : ℕ → Im) (d : ℕ → Option ℝ) (ids : List ℕ) : Option Im :=
  if ∃ i ∈ ids, d i = none ∨ d i = some 0 then none else FieldFit.interp psfs (fun k => (d k).getD 0) ids

end P3.MultiFit
