import Verif.Model.Images
import Mathlib.Data.List.Sort
/-
Photometry and image metrics.  Source: /repo/p3/aoSystem/FourierUtils.py.  Real arithmetic.
-/
namespace P3.Metrics
open Finset P3.Images

/-- Values of an image in reading order. -/
noncomputable def flat (im : Img ℝ) : List ℝ :=
  (List.range im.nx).flatMap fun i => (List.range im.ny).map fun j => im.px i j

/-- `np.median` of a non-empty array: the middle of the sorted values, or the mean of the two middle ones. -/
noncomputable def median (l : List ℝ) : ℝ :=
  let s := l.mergeSort (fun a b => decide (a ≤ b))
  if l.length % 2 = 1 then s.getD (l.length / 2) 0
  else (s.getD (l.length / 2 - 1) 0 + s.getD (l.length / 2) 0) / 2

/-- `np.linspace(-1, 1, n)[i]`. -/
noncomputable def coord (n i : ℕ) : ℝ := (linspace (-1) 1 n).getD i 0

/-- `r > 1` of `getFlux`, FourierUtils.py:1351-1355 (pixel `(i, j)` of a square image). -/
def outside (n i j : ℕ) : Prop := 1 < Real.sqrt (coord n j ^ 2 + coord n i ^ 2)

open Classical in
/-- `psf*msk`, FourierUtils.py:1357. -/
noncomputable def masked (im : Img ℝ) : Img ℝ :=
  ⟨im.nx, im.ny, fun i j => if outside im.nx i j then im.px i j else 0⟩

/-- `getFlux(psf)`, FourierUtils.py:1348-1369: (flux, background); for sizes of at least two, the mask has
the transposed shape, so a non-square image is refused by numpy. -/
noncomputable def getFlux (im : Img ℝ) : Except PyErr (ℝ × ℝ) :=
  if im.nx ≠ im.ny then .error .broadcast
  else
    let bg := median (flat (masked im))
    .ok (∑ i ∈ range im.nx, ∑ j ∈ range im.ny, (im.px i j - bg), bg)

/-- The images compared by `getMSE`, FourierUtils.py:1372-1375. -/
noncomputable def mseWindow (x : Img ℝ) (nx ny nbox : ℕ) : Img ℝ :=
  if nbox ≠ 0 then crop x (nx / nbox) (ny / nbox) else x

/-- `getMSE(xtrue, xest, nbox, norm)`, FourierUtils.py:1371-1383; `L1 = true` for `norm='L1'`, else
`'L2'`. `none`: shapes that cannot be subtracted, or zero flux. -/
noncomputable def getMSE (xtrue xest : Img ℝ) (nbox : ℕ) (L1 : Bool) : Option ℝ :=
  let t := mseWindow xtrue xtrue.nx xtrue.ny nbox
  let e := mseWindow xest xtrue.nx xtrue.ny nbox
  if t.nx ≠ e.nx ∨ t.ny ≠ e.ny ∨ flux t = 0 then none
  else some (
    if L1 then 100 * (∑ i ∈ range t.nx, ∑ j ∈ range t.ny, |e.px i j - t.px i j|) / flux t
    else 100 * Real.sqrt (∑ i ∈ range t.nx, ∑ j ∈ range t.ny, (e.px i j - t.px i j) ^ 2) / flux t)

/-! ### Wavelengths -/

/-- `np.unique`: sorted distinct values. -/
noncomputable def unique (l : List ℝ) : List ℝ := (l.mergeSort (fun a b => decide (a ≤ b))).dedup

/-- The loop of `create_wavelength_vector`, FourierUtils.py:669-674, from block `j` on. -/
noncomputable def wvlLoop (bw : ℝ) (nBin : ℕ) : List ℝ → ℕ → List ℝ → Except PyErr (List ℝ)
  | [], _, wvl => .ok wvl
  | c :: cs, j, wvl => do
    let wvl ← assignSlice wvl (j * nBin) ((j + 1) * nBin) (linspace (c - bw / 2) (c + bw / 2) nBin)
    wvlLoop bw nBin cs (j + 1) wvl

/-- `create_wavelength_vector`, FourierUtils.py:642-676: the source wavelengths, the bandwidth and the number
of bins of the camera. -/
noncomputable def wavelengthVector (src : List ℝ) (bw : ℝ) (nBin : ℕ) : Except PyErr (List ℝ) :=
  let cen := unique src
  wvlLoop bw nBin cen 0 (List.replicate (nBin * cen.length) 0)

/-! ### Interpolation grid -/

/-- `uinit`/`unew` of `interpolateSupport`, FourierUtils.py:756-774. -/
noncomputable def axisGrid (n : ℕ) : List ℝ :=
  if n % 2 = 0 then (linspace (-n / 2) (n / 2 - 1) n).map (· * 2 / n)
  else (linspace (-⌊(n:ℝ) / 2⌋) ⌊(n:ℝ) / 2⌋ n).map (· * 2 / n)

/-- `interpolateSupport(image, (mx, my), kind)` for a real image and kinds 'spline' (the default) and
'linear', FourierUtils.py:725-795. `fit xs ys im` is scipy's interpolant of the samples `im[i, j]` at
`(xs[i], ys[j])`; scipy requires the lengths to match.  The 'spline' branch passes the two axes swapped. -/
noncomputable def interpolate (fit : List ℝ → List ℝ → Img ℝ → ℝ → ℝ → ℝ) (spline : Bool) (im : Img ℝ)
    (mx my : ℕ) : Except PyErr (Img ℝ) :=
  if im.nx = mx ∧ im.ny = my then .ok im
  else
    let u := axisGrid im.nx
    let v := axisGrid im.ny
    let unew := axisGrid mx
    let vnew := axisGrid my
    let xs := if spline then v else u
    let ys := if spline then u else v
    if xs.length = im.nx ∧ ys.length = im.ny then
      .ok ⟨mx, my, fun i j => fit xs ys im (unew.getD i 0) (vnew.getD j 0)⟩
    else .error .broadcast

/-! ### Full width at half maximum -/

/-- `interp1d(x, y, kind='linear', fill_value="extrapolate")(t)` for three points: sorted by abscissa, the
first segment is used up to the second abscissa. -/
noncomputable def interp3 (pts : List (ℝ × ℝ)) (t : ℝ) : ℝ :=
  match pts.mergeSort (fun a b => decide (a.1 ≤ b.1)) with
  | [a, b, c] =>
    if t ≤ b.1 then a.2 + (t - a.1) * ((b.2 - a.2) / (b.1 - a.1))
    else b.2 + (t - b.1) * ((c.2 - b.2) / (c.1 - b.1))
  | _ => 0

/-- `profile[lo:hi]` with Python slice bounds. -/
def pySlice (l : List ℝ) (lo hi : ℤ) : List ℝ :=
  (l.drop (sliceBound l.length lo)).take (sliceBound l.length hi - sliceBound l.length lo)

/-- One edge of the profile, FourierUtils.py:1409-1413: `interp1d` refuses arrays of different lengths. -/
noncomputable def edge (p : List ℝ) (k : ℕ) (half : ℝ) : Except PyErr ℝ :=
  let xs := pySlice p ((k:ℤ) - 1) ((k:ℤ) + 2)
  let ys : List ℝ := [(k:ℝ) - 1, (k:ℝ), (k:ℝ) + 1]
  if xs.length = ys.length then .ok (interp3 (xs.zip ys) half) else .error .broadcast

/-- Indices at or above half the maximum, FourierUtils.py:1395. -/
noncomputable def above (p : List ℝ) : List ℕ :=
  (List.range p.length).filter fun i => decide (maxL p / 2 ≤ p.getD i 0)

/-- `fwhm_1d`, FourierUtils.py:1385-1416 (non-empty profile). -/
noncomputable def fwhm1d (p : List ℝ) : Except PyErr ℝ :=
  let half := maxL p / 2
  if 0.5 * maxL p ≤ minL p then .ok p.length
  else
    let idx := above p
    if idx.length < 2 then .ok 1
    else if p.length - 1 ≤ idx.length then .ok p.length
    else do
      let x1 ← edge p (idx.headD 0) half
      let x2 ← edge p (idx.getLastD 0) half
      pure |x2 - x1|

end P3.Metrics

namespace P3.Metrics
open Finset P3.Images

/-! ### Functions that work in place -/

/-- Normalisation asked from `radial_profile`, FourierUtils.py:1096-1104. -/
inductive Norm | none | peak | total

/-- Largest pixel of an image. -/
noncomputable def peak (im : Img ℝ) : ℝ := maxL (flat im)

/-- The caller's image after `radial_profile(image, normalize=...)`, FourierUtils.py:1096-1104: `image /= ...`
works in place. -/
noncomputable def afterRadialProfile (im : Img ℝ) : Norm → Img ℝ
  | .none => im
  | .peak => ⟨im.nx, im.ny, fun i j => im.px i j / peak im⟩
  | .total => ⟨im.nx, im.ny, fun i j => im.px i j / flux im⟩

/-- `getStrehl(psf, ..., method='max', recentering=False)`, FourierUtils.py:1690-1697: the Strehl ratio
before rounding and the caller's image afterwards (`psf /= psf.sum()`; the results of `clip` are dropped).
`psfDL` is the diffraction-limited PSF. -/
noncomputable def strehlMax (psf psfDL : Img ℝ) : ℝ × Img ℝ :=
  let n : Img ℝ := ⟨psf.nx, psf.ny, fun i j => psf.px i j / flux psf⟩
  let d : Img ℝ := ⟨psfDL.nx, psfDL.ny, fun i j => psfDL.px i j / flux psfDL⟩
  (peak n / peak d, n)

/-- The caller's image after `addNoise(im, ...)`, FourierUtils.py:854-860: `im[im<0] = 0`. -/
noncomputable def afterAddNoise (im : Img ℝ) : Img ℝ :=
  ⟨im.nx, im.ny, fun i j => if im.px i j < 0 then 0 else im.px i j⟩

end P3.Metrics
