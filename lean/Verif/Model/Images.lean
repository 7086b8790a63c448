import Verif.Model.Grid
import Mathlib.Algebra.BigOperators.Group.Finset.Basic
import Mathlib.Algebra.Order.Round
import Mathlib.Analysis.Real.Pi.Bounds
/-
Image tools.  Source: /repo/p3/aoSystem/FourierUtils.py.  Pixels are reals.
-/
namespace P3.Images
open Finset

/-- Python's `int(x)`: truncation towards zero. -/
noncomputable def trunc (x : ℝ) : ℤ := if x < 0 then ⌈x⌉ else ⌊x⌋

/-- Number of elements of `a[lo:hi:step]` for `0 ≤ lo`, `hi` within the array. -/
def stridedLen (lo hi step : ℕ) : ℕ := (hi - lo + step - 1) / step

/-- `image[i:k*s0:k, j:k*s1:k]`: pixel `(a, b)` is `image[i + a*k, j + b*k]`. -/
noncomputable def strided (im : Img ℝ) (k s0 s1 i j : ℕ) : Img ℝ :=
  ⟨stridedLen i (k * s0) k, stridedLen j (k * s1) k, fun a b => im.px (i + a * k) (j + b * k)⟩

/-- `out += x` for two images; refused unless the shapes agree (numpy would also repeat an axis of length
one, which does not occur here). -/
noncomputable def addTo (out x : Img ℝ) : Except PyErr (Img ℝ) :=
  if x.nx = out.nx ∧ x.ny = out.ny then .ok ⟨out.nx, out.ny, fun a b => out.px a b + x.px a b⟩
  else .error .broadcast

/-- Inner loop of `binning`, FourierUtils.py:638-639. -/
noncomputable def binRow (im : Img ℝ) (k s0 s1 i : ℕ) (out : Img ℝ) (js : List ℕ) : Except PyErr (Img ℝ) :=
  js.foldlM (fun out j => addTo out (strided im k s0 s1 i j)) out

/-- `binning`, FourierUtils.py:623-640. -/
noncomputable def binning (im : Img ℝ) (k : ℕ) : Except PyErr (Img ℝ) :=
  if k = 0 then .error .zeroDivision
  else
    let s0 := im.nx / k
    let s1 := im.ny / k
    (List.range k).foldlM (fun out i => binRow im k s0 s1 i out (List.range k)) ⟨s0, s1, fun _ _ => 0⟩

/-- `cropSupport`, FourierUtils.py:678-692, with crop factors `n0`, `n1`. -/
noncomputable def crop (im : Img ℝ) (n0 n1 : ℝ) : Img ℝ :=
  let nx2 := trunc (im.nx / n0)
  let ny2 := trunc (im.ny / n1)
  let xi := trunc (0.5 * (im.nx - nx2))
  let yi := trunc (0.5 * (im.ny - ny2))
  let a := sliceBound im.nx xi
  let b := sliceBound im.nx (xi + nx2)
  let c := sliceBound im.ny yi
  let d := sliceBound im.ny (yi + ny2)
  ⟨b - a, d - c, fun i j => im.px (a + i) (c + j)⟩

/-- `enlargeSupport` of an image, FourierUtils.py:695-701 (`np.pad` refuses negative pads). -/
noncomputable def enlarge (im : Img ℝ) (n : ℝ) : Except PyErr (Img ℝ) :=
  let px := trunc ((n - 1) * im.nx / 2)
  let py := trunc ((n - 1) * im.ny / 2)
  if px < 0 ∨ py < 0 then .error .broadcast
  else
    let p := px.toNat
    let q := py.toNat
    .ok ⟨im.nx + 2 * p, im.ny + 2 * q, fun i j =>
      if p ≤ i ∧ i < p + im.nx ∧ q ≤ j ∧ j < q + im.ny then im.px (i - p) (j - q) else 0⟩

/-- Total intensity of an image. -/
noncomputable def flux (im : Img ℝ) : ℝ := ∑ i ∈ range im.nx, ∑ j ∈ range im.ny, im.px i j

/-! ### Normalisation -/

/-- The parameter returned by `normalizeImage`: a number or a (min, max) pair. -/
inductive Param | num (x : ℝ) | pair (lo hi : ℝ)

/-- Smallest / largest element of a non-empty list. -/
noncomputable def minL (l : List ℝ) : ℝ := l.foldr min (l.headD 0)
/-- See `minL`. -/
noncomputable def maxL (l : List ℝ) : ℝ := l.foldr max (l.headD 0)

/-- Division of an image by a number; a zero divisor gives `nan`/`inf` (`none`). -/
noncomputable def divO (l : List ℝ) (p : ℝ) : Option (List ℝ) :=
  if p = 0 then none else some (l.map (· / p))

/-- `normalizeImage(im, normType)` with `param=None`, FourierUtils.py:809-838; the image is flattened,
`getFlux` is a parameter. -/
noncomputable def normalize (getFlux : List ℝ → ℝ) (ty : ℝ) (l : List ℝ) : Option (List ℝ) × Param :=
  if ty = 0 then (some l, .num 1)
  else if ty = 1 then (divO l l.sum, .num l.sum)
  else if ty = 2 then
    let lo := minL l
    let hi := maxL l
    (if hi - lo = 0 then some (l.map (fun _ => 0)) else some (l.map (fun x => (x - lo) / (hi - lo))),
      .pair lo hi)
  else if ty = 3 then (divO l |getFlux l|, .num |getFlux l|)
  else if ty = 4 then (divO l (l.map (fun x => max x 0)).sum, .num (l.map (fun x => max x 0)).sum)
  else (divO l ty, .num ty)

/-- `normalizeImage(im, normType, param)`, FourierUtils.py:840-850; a wrong kind of parameter raises. -/
noncomputable def denormalize (ty : ℝ) (l : List ℝ) (p : Param) : Except PyErr (List ℝ) :=
  if ty = 0 then .ok l
  else if ty = 2 then
    match p with
    | .pair lo hi => .ok (l.map (fun x => x * (hi - lo) + lo))
    | .num _ => .error .typeError
  else
    match p with
    | .num q => .ok (l.map (· * q))
    | .pair _ _ => .error .broadcast

/-! ### Encircled and ensquared energy -/

/-- `getEnsquaredEnergy`, FourierUtils.py:1031-1042: value for box half-width `n`, with the peak at
`(y0, x0)`; the slices are Python slices. -/
noncomputable def boxSum (im : Img ℝ) (y0 x0 n : ℕ) : ℝ :=
  ∑ i ∈ Ico (sliceBound im.nx ((y0 : ℤ) - n)) (sliceBound im.nx ((y0 : ℤ) + n + 1)),
    ∑ j ∈ Ico (sliceBound im.ny ((x0 : ℤ) - n)) (sliceBound im.ny ((x0 : ℤ) + n + 1)), im.px i j

/-- `getEnsquaredEnergy`: the curve. `none` if the image has zero flux. -/
noncomputable def ensquared (im : Img ℝ) (y0 x0 : ℕ) : Option (List ℝ) :=
  if flux im = 0 then none
  else some ((List.range (min (im.nx - y0) (im.ny - x0) + 1)).map (fun n => boxSum im y0 x0 n / flux im))

/-- `rind`, FourierUtils.py:1149-1151: positions where the radius bin changes; `bin` is `np.round`. -/
noncomputable def rind (bin : ℝ → ℤ) (s : List (ℝ × ℝ)) : List ℕ :=
  (List.range (s.length - 1)).filter (fun i => bin (s.getD (i + 1) (0, 0)).1 ≠ bin (s.getD i (0, 0)).1)

/-- `csim[i]`: sum of the first `i+1` sorted values, FourierUtils.py:1153. -/
noncomputable def csim (s : List (ℝ × ℝ)) (i : ℕ) : ℝ := ((s.take (i + 1)).map Prod.snd).sum

/-- Encircled energy, FourierUtils.py:1044-1051 and 1211-1214: `csim[rind]/max`. `s` is the list of
(radius, value) pixels in the order given by `argsort` (any order that sorts the radii).  `none` if there
is a single bin (`max` of an empty array raises) or the maximum is zero. -/
noncomputable def encircled (bin : ℝ → ℤ) (s : List (ℝ × ℝ)) : Option (List ℝ) :=
  let e := (rind bin s).map (csim s)
  if e = [] ∨ maxL e = 0 then none else some (e.map (· / maxL e))

/-! ### Polar grid -/

/-- Number of azimuth samples at each radius of `precompute_polar_grid`, FourierUtils.py:1317-1346, with the
variable `n_theta` carried from one radius to the next. -/
noncomputable def polarCounts (step : ℝ) : List ℝ → Option ℤ → List ℤ
  | [], _ => []
  | r :: rs, nTheta =>
    if r = 0 then 1 :: polarCounts step rs nTheta
    else
      let adaptive := max 3 ⌈2 * Real.pi * r / step⌉
      let n := match nTheta with
        | some m => min adaptive m
        | none => adaptive
      n :: polarCounts step rs (some n)

end P3.Images
