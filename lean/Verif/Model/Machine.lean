import Verif.Model.Py
import Mathlib.Analysis.Real.Sqrt
import Mathlib.Algebra.Order.Floor.Ring
import Mathlib.Data.Int.Log
import Mathlib.Algebra.BigOperators.Group.List.Basic
/-
Floating-point arithmetic.  The other modules compute with reals; here each operation of the code is rounded.  Numbers have `p` significant
bits (24 for `float32`, 53 for `float64`, Python's float and numpy's default) and an unbounded exponent: overflow, underflow and NaN are
not modelled.  An operation (`+ - * /` and the square root, as IEEE 754 requires) returns a closest number of the format to the exact
result; which one, between two equally close, is left open.
-/
namespace P3.Machine

/-- Numbers with `p` significant bits. -/
def F (p : ℕ) : Set ℝ := {x | ∃ m e : ℤ, |m| < 2 ^ p ∧ x = m * (2 : ℝ) ^ e}

/-- Rounding to nearest: `fl x` is the machine number stored for the exact result `x`. -/
structure Rounding (p : ℕ) where
  fl : ℝ → ℝ
  mem : ∀ x, fl x ∈ F p
  near : ∀ x, ∀ y ∈ F p, |fl x - x| ≤ |y - x|
  neg : ∀ x, fl (-x) = -fl x

variable {p : ℕ} (R : Rounding p)

/-! ### Sizes -/

/-- `int(a / b)` of two integers: the side of a binned image, FourierUtils.py 634-635, the default size of a PSF, 430 and 528, the
number of segments, fittingUtils.py 431. -/
noncomputable def intQuot (a b : ℕ) : ℤ := ⌊R.fl ((a : ℝ) / b)⌋

/-- `int(np.sqrt(n))`: the side of a square map from its number of pixels, psfrUtils.py 32 and 123, FourierUtils.py 1757,
fittingUtils.py 462. -/
noncomputable def intSqrt (n : ℕ) : ℤ := ⌊R.fl (√(n : ℝ))⌋

/-- `nTimes`, frequencyDomain.py 80-83: two divisions. -/
noncomputable def nTimes (nOtf resAO : ℕ) : ℤ := min 4 (max 2 ⌈R.fl (R.fl ((nOtf : ℝ) / resAO) / 2)⌉)

/-- `round(D/dp + 1)`, psfrUtils.py 206 (also the number of actuators without the 1, aoSystem.py 684: `plus` is 0): Python and numpy round
to the nearest integer. -/
noncomputable def roundQuot (D dp plus : ℝ) : ℤ := round (R.fl (R.fl (D / dp) + plus))

/-! ### Crop of a PSF -/

/-- Side of `cropSupport(im, n)` for an image of side `nx`, FourierUtils.py 684 and 689-692. -/
noncomputable def cropSide (nx : ℕ) (n : ℝ) : ℤ := ⌊R.fl ((nx : ℝ) / n)⌋

/-- The side of the PSF returned when `nPix` pixels are asked for and the camera has `fov`, FourierUtils.py 488-493 and 606-611: the crop
factor is `fov/nPix`, the crop is stored in an array of side `nPix`; numpy refuses another side, except one, which it repeats.
`psf_.shape[0]` is `fov`, lines 476-486. -/
noncomputable def psfSide (fov nPix : ℕ) : Except PyErr ℕ :=
  if nPix < fov then
    let s := cropSide R fov (R.fl ((fov : ℝ) / nPix))
    if s = nPix ∨ s = 1 then .ok nPix else .error .broadcast
  else .ok fov

/-- The side of the box on which `getMSE(xtrue, xest, nbox=nbox)` compares two images of side `nx`, FourierUtils.py 1372-1375, and of the
images displayed by `displayResults(..., nBox=nbox)`, psfFitting.py 247-250. -/
noncomputable def boxSide (nx nbox : ℕ) : ℤ := cropSide R nx (R.fl ((nx : ℝ) / nbox))

/-! ### Zernike modes -/

/-- `findN`, zernike.py 102: `int(np.sqrt(2*j - 1) + 0.5) - 1`. -/
noncomputable def findN (j : ℕ) : ℤ := ⌊R.fl (R.fl (√(2 * (j : ℝ) - 1)) + 1 / 2)⌋ - 1

/-- `nmOrder`, zernike.py 188-194: `floor((-1 + sqrt(8*(j-1)+1))/2)`, then `p = j - (n*(n+1))/2`, `m = floor((p+k)/2)*2 - k`. -/
noncomputable def nmOrder (j : ℕ) : ℤ × ℤ :=
  let n : ℤ := ⌊R.fl (R.fl (-1 + R.fl (√(8 * ((j : ℝ) - 1) + 1))) / 2)⌋
  let q : ℝ := R.fl (j - R.fl ((n * (n + 1) : ℤ) / 2))
  let k : ℤ := n % 2
  (n, ⌊R.fl (R.fl (⌊R.fl (R.fl (q + k) / 2)⌋ * 2) - k)⌋)

/-! ### Frequency domain -/

/-- `freq_array(n, L, offset)`, FourierUtils.py 60-66, at row `i`: conversion, shift, scale, offset. -/
noncomputable def freqAt (n : ℕ) (L offset : ℝ) (i : ℕ) : ℝ :=
  R.fl (R.fl (R.fl (R.fl i - (n / 2 : ℕ)) * R.fl L) + R.fl offset)

/-- `self.k_`, frequencyDomain.py 149: `np.ceil(2.0/samp)`. -/
noncomputable def kFactor (samp : ℝ) : ℤ := ⌈R.fl (2 / samp)⌉

/-- `self.samp`, frequencyDomain.py 150. -/
noncomputable def sampOut (samp : ℝ) : ℝ := R.fl (kFactor R samp * samp)

/-- `int(np.max(2*kc/PSDstep))` for one mirror, frequencyDomain.py 42. -/
noncomputable def resAO (kc step : ℝ) : ℤ := ⌊R.fl (R.fl (2 * kc) / step)⌋

/-- `np.pi`: the double closest to the number. -/
noncomputable def npPi : ℝ := 884279719003555 / 2 ^ 48

/-- `rad2mas`, frequencyDomain.py 18. -/
noncomputable def rad2mas : ℝ := R.fl (3600 * 180 * 1000 / npPi)

/-- `PSDstep` for one wavelength with `nyquistSampling`, frequencyDomain.py 131 and 155-160: the pixel scale is `rad2mas*wvl/D/2`, the
factor `k` is one. -/
noncomputable def nyquistStep (D wvl : ℝ) : ℝ :=
  let ps := R.fl (R.fl (R.fl (rad2mas R * wvl) / D) / 2)
  R.fl (ps / R.fl (R.fl (wvl * rad2mas R) * 1))

/-- Size of the corrected area with `nyquistSampling`, frequencyDomain.py 37-42, 131 and 155-160; `D`, `wvl` and the pitch are the numbers
of the parameter file, rounded when they are read. -/
noncomputable def nyquistResAO (D wvl pitch : ℝ) : ℤ :=
  resAO R (R.fl (1 / R.fl (2 * R.fl pitch))) (nyquistStep R (R.fl D) (R.fl wvl))

/-! ### Positions of the actuators -/

/-- Number of points of `np.arange(-D/2, D/2+dp, dp)`, psfrUtils.py 188: numpy takes `ceil((stop - start)/step)`. `D` and `dp` are rounded
when they are given. -/
noncomputable def nPoints (D dp : ℝ) : ℤ :=
  let D := R.fl D
  let dp := R.fl dp
  ⌈R.fl (R.fl (R.fl (R.fl (D / 2) + dp) - R.fl (-D / 2)) / dp)⌉

/-- Size of the array filtered by the mask of the valid actuators in `pointWiseLocation`, psfrUtils.py 186-194: a mask of another size is
refused (`IndexError`). The result is the number of valid actuators. -/
noncomputable def pointWise (D dp : ℝ) (side valid : ℕ) : Except PyErr ℕ :=
  if (side : ℤ) = nPoints R D dp then .ok valid else .error .indexError

/-! ### Sums -/

/-- A sum computed in some order: Python adds from the left, numpy by blocks and pairs. -/
inductive Sum | leaf (x : ℝ) | add (a b : Sum)

/-- The terms. -/
def Sum.terms : Sum → List ℝ
  | .leaf x => [x]
  | .add a b => a.terms ++ b.terms

/-- Number of roundings on the longest path. -/
def Sum.depth : Sum → ℕ
  | .leaf _ => 0
  | .add a b => max a.depth b.depth + 1

/-- The computed value. -/
noncomputable def Sum.value : Sum → ℝ
  | .leaf x => x
  | .add a b => R.fl (a.value + b.value)

/-- Python's `sum` of a list: from the left, starting with zero. -/
noncomputable def pySum (l : List ℝ) : ℝ := l.foldl (fun s x => R.fl (s + x)) 0

/-- `psf / psf.sum() * F`, FourierUtils.py 496 and 614, at one pixel; `s` is the sum of the pixels in the order numpy takes. -/
noncomputable def scaled (s : Sum) (flux x : ℝ) : ℝ := R.fl (R.fl (x / s.value R) * flux)

/-- `Cn2eq[ii] = sum(Cn2[a:b]).astype(dtype)`, FourierUtils.py 1733: a sum in double precision, stored in the type of the result (single
precision unless told otherwise). -/
noncomputable def slabWeight {q : ℕ} (S : Rounding q) (l : List ℝ) : ℝ := S.fl (pySum R l)

end P3.Machine
