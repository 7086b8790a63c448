import Verif.Model.Metrics
import Mathlib.Analysis.SpecialFunctions.Complex.Arg
import Mathlib.Analysis.SpecialFunctions.Log.Basic
/-
Contours and width of an image.  Source: /repo/p3/aoSystem/FourierUtils.py:1418-1667.  Real arithmetic; the fits of
`astropy` and the contour of `matplotlib` are parameters.
-/
namespace P3.Fwhm
open P3.Images P3.Metrics

/-- A point `(x, y)`. -/
abbrev Pt := ℝ × ℝ
/-- A pixel `(x, y)`: column and row. -/
abbrev Pix := ℕ × ℕ

/-- Distance of two points, `np.sqrt((...)**2 + (...)**2)`. -/
noncomputable def dist2 (a b : Pt) : ℝ := Real.sqrt ((a.1 - b.1) ^ 2 + (a.2 - b.2) ^ 2)
/-- The centre of a pixel. -/
def toPt (p : Pix) : Pt := (p.1, p.2)
/-- Value of a pixel (rows first). -/
def val (im : Img ℝ) (p : Pix) : ℝ := im.px p.2 p.1

/-! ### Contour points -/

/-- `np.unravel_index(np.argmax(image), image.shape)`, 1423: the first largest pixel in reading order. -/
noncomputable def peakPix (im : Img ℝ) : Pix :=
  let k := (flat im).idxOf (maxL (flat im))
  (k % im.ny, k / im.ny)

/-- Pixels in reading order. -/
def pixels (im : Img ℝ) : List Pix := (List.range im.nx).flatMap fun y => (List.range im.ny).map fun x => (x, y)

/-- `above_threshold`, 1427. -/
noncomputable def isAbove (im : Img ℝ) (level : ℝ) (p : Pix) : Bool :=
  open Classical in decide (p.1 < im.ny ∧ p.2 < im.nx ∧ level < val im p)

/-- `dilated & ~above_threshold`, 1430-1432, with the cross as structuring element. -/
noncomputable def isBoundary (im : Img ℝ) (level : ℝ) (p : Pix) : Bool :=
  !isAbove im level p && (isAbove im level (p.1 + 1, p.2) || isAbove im level (p.1, p.2 + 1) ||
    (decide (0 < p.1) && isAbove im level (p.1 - 1, p.2)) || (decide (0 < p.2) && isAbove im level (p.1, p.2 - 1)))

/-- The contour point of a boundary pixel `cur` and the pixel `far` above the level, 1461-1487. -/
noncomputable def contourPoint (peak cur far : Pt) (vc vf level : ℝ) : Option Pt :=
  open Classical in
  if vc < level ∧ level < vf then
    let n := dist2 far peak
    let dir : Pt := if 0 < n then ((far.1 - peak.1) / n, (far.2 - peak.2) / n) else (far.1 - peak.1, far.2 - peak.2)
    let t := (level - vc) / (vf - vc)
    let r := dist2 cur peak + t * (dist2 far peak - dist2 cur peak)
    some (peak.1 + dir.1 * r, peak.2 + dir.2 * r)
  else none

/-- All contour points, 1446-1487; `far p` is the pixel `far_point` chosen for the boundary pixel `p`, 1448-1464. -/
noncomputable def rawContour (im : Img ℝ) (level : ℝ) (far : Pix → Pix) : List Pt :=
  ((pixels im).filter (isBoundary im level)).filterMap fun p =>
    contourPoint (toPt (peakPix im)) (toPt p) (toPt (far p)) (val im p) (val im (far p)) level

/-- `np.std`. -/
noncomputable def std (l : List ℝ) : ℝ :=
  Real.sqrt ((l.map fun x => (x - l.sum / l.length) ^ 2).sum / l.length)

/-- Filter of the outliers, 1497-1502. -/
noncomputable def keep (peak : Pt) (pts : List Pt) : List Pt :=
  let ds := pts.map fun p => dist2 p peak
  open Classical in pts.filter fun p => decide (|dist2 p peak - median ds| < 2 * std ds)

/-- `find_contour_points`, 1418-1504.  `none` is the list `[0]` returned without any point (its length is 1). -/
noncomputable def findContour (im : Img ℝ) (level : ℝ) (far : Pix → Pix) : Option (List Pt) :=
  let pts := rawContour im level far
  if pts = [] then none else some (keep (toPt (peakPix im)) pts)

/-! ### Width -/

/-- `method` of `getFWHM`. -/
inductive Method | oldContour | contour | gaussian | moffat | cutting | other
  deriving DecidableEq

/-- Width, height and orientation. -/
structure W where
  x : ℝ
  y : ℝ
  theta : ℝ

/-- Centre of the bounding box, 1600-1603. -/
noncomputable def center (pts : List Pt) : Pt :=
  ((maxL (pts.map Prod.fst) + minL (pts.map Prod.fst)) / 2, (maxL (pts.map Prod.snd) + minL (pts.map Prod.snd)) / 2)

/-- Distances from the centre, 1604-1608. -/
noncomputable def radii (pts : List Pt) (ps rebin : ℝ) : List ℝ :=
  pts.map fun p => dist2 p (center pts) / rebin * ps

/-- Width of a contour, 1597-1617. -/
noncomputable def ofContour (pts : List Pt) (ps rebin : ℝ) : W :=
  let wr := radii pts ps rebin
  let p := pts.getD (wr.idxOf (maxL wr)) 0
  { x := 2 * maxL wr, y := 2 * minL wr,
    theta := 180 * Complex.arg ⟨p.1 - (center pts).1, p.2 - (center pts).2⟩ / Real.pi }

/-- Results of the fits on the image: `x_stddev`, `y_stddev`, `theta` of the Gaussian, `fwhm` of the Moffat. -/
structure Fits where
  sx : ℝ
  sy : ℝ
  th : ℝ
  moffat : ℝ

/-- Width of the fitted Gaussian, 1631-1633. -/
noncomputable def ofGauss (f : Fits) (ps : ℝ) : W :=
  { x := 2 * Real.sqrt (2 * Real.log 2) * |f.sx * ps|, y := 2 * Real.sqrt (2 * Real.log 2) * |f.sy * ps|,
    theta := f.th * 180 / Real.pi }
/-- Width of the fitted Moffat, 1647-1649. -/
noncomputable def ofMoffat (f : Fits) (ps : ℝ) : W := { x := f.moffat * ps, y := f.moffat * ps, theta := 0 }
/-- Cutting method, 1652-1655. -/
noncomputable def ofCut (cx cy ps rebin : ℝ) : W := { x := cx * ps / rebin, y := cy * ps / rebin, theta := 0 }

/-- Method used after the checks of the cut widths, 1551-1556. -/
noncomputable def select (m : Method) (cx cy : ℝ) (nx ny : ℕ) : Method :=
  open Classical in
  let m := if (nx : ℝ) - 1 ≤ cx ∨ (ny : ℝ) - 1 ≤ cy then .cutting else m
  if cx = 1 ∧ cy = 1 ∧ (m = .contour ∨ m = .oldContour) then .cutting else m

/-- Widths for the method, 1559-1655; `old` is the contour of `matplotlib` (`none`: an exception). -/
noncomputable def measure (m : Method) (pts : Option (List Pt)) (old : Option (List Pt)) (f : Fits) (cx cy ps rebin : ℝ) :
    Except PyErr W :=
  match m with
  | .oldContour => match old with
    | some c => .ok (ofContour c ps rebin)
    | none => .ok (ofCut cx cy ps rebin)
  | .contour => match pts with
    | some c => if c.length < 3 then .ok (ofCut cx cy ps rebin) else .ok (ofContour c ps rebin)
    | none => .ok (ofCut cx cy ps rebin)
  | .gaussian => .ok (ofGauss f ps)
  | .moffat => .ok (ofMoffat f ps)
  | .cutting => .ok (ofCut cx cy ps rebin)
  | .other => .error .unboundLocal

/-- The widths of `getFWHM`, 1507-1655, of the resampled image `im` (of an image of `Ny` rows and `Nx` columns). -/
noncomputable def widths (im : Img ℝ) (Ny Nx : ℕ) (ps rebin : ℝ) (m : Method) (far : Pix → Pix) (old : Option (List Pt))
    (f : Fits) : Except PyErr W :=
  open Classical in
  if 0.5 * maxL (flat im) ≤ minL (flat im) then
    .ok { x := Real.sqrt 2 * Nx * ps, y := Real.sqrt 2 * Ny * ps, theta := 0 }
  else do
    let pk := peakPix im
    let cx ← fwhm1d ((List.range im.ny).map fun x => im.px pk.2 x)
    let cy ← fwhm1d ((List.range im.nx).map fun y => im.px y pk.1)
    measure (select m cx cy im.ny im.nx) (findContour im (maxL (flat im) / 2) far) old f cx cy ps rebin

/-- `aRatio`, 1658. -/
noncomputable def aRatio (w : W) : ℝ := max (w.x / w.y) (w.y / w.x)

/-- Output of `getFWHM`, 1660-1667; any other value of `nargout` returns `None`. -/
noncomputable def output (nargout : ℕ) (w : W) : Option (List ℝ) :=
  match nargout with
  | 1 => some [0.5 * (w.x + w.y)]
  | 2 => some [w.x, w.y]
  | 3 => some [w.x, w.y, aRatio w]
  | 4 => some [w.x, w.y, aRatio w, w.theta]
  | _ => none

/-- `getFWHM`, 1507-1667. -/
noncomputable def getFWHM (im : Img ℝ) (Ny Nx : ℕ) (ps rebin : ℝ) (m : Method) (nargout : ℕ) (far : Pix → Pix)
    (old : Option (List Pt)) (f : Fits) : Except PyErr (Option (List ℝ)) :=
  (widths im Ny Nx ps rebin m far old f).map (output nargout)

end P3.Fwhm
