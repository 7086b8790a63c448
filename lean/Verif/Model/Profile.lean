import Verif.Model.Images
import Mathlib.Analysis.SpecialFunctions.Complex.Arg
/-
Radial profiles of images.  Source: /repo/p3/aoSystem/FourierUtils.py:1044-1289.  Real arithmetic: `nan` pixels
(`nan_to_num`), rounding errors and the effects of a division by zero are left out.  The normalisation of the image
(lines 1096-1104) is in `Verif.Model.Metrics`: here the image is the one after it.
-/
namespace P3.Profile
open P3.Images

inductive Err | indexError | valueError
  deriving DecidableEq

/-- A pixel: radius in bins, position angle in degrees, value. -/
structure Pixel where
  r : ℝ
  pa : ℝ
  v : ℝ

/-- `center` (column, row), FourierUtils.py:1109-1112: by default the middle of the image. -/
noncomputable def centreOf (im : Img ℝ) (c : Option (ℝ × ℝ)) : ℝ × ℝ :=
  match c with
  | some c => c
  | none => (((im.ny : ℝ) - 1) / 2, ((im.nx : ℝ) - 1) / 2)

/-- `r` and `pa` of the pixel in row `i` and column `j`, FourierUtils.py:1138-1142 and 1152. -/
noncomputable def pixel (im : Img ℝ) (c : ℝ × ℝ) (ps bs : ℝ) (i j : ℕ) : Pixel :=
  ⟨Real.sqrt (((j : ℝ) - c.1) ^ 2 + ((i : ℝ) - c.2) ^ 2) * ps / bs,
   Complex.arg ⟨(i : ℝ) - c.2, -((j : ℝ) - c.1)⟩ * 180 / Real.pi, im.px i j⟩

/-- All pixels in reading order. -/
noncomputable def pixels (im : Img ℝ) (c : ℝ × ℝ) (ps bs : ℝ) : List Pixel :=
  (List.range im.nx).flatMap fun i => (List.range im.ny).map fun j => pixel im c ps bs i j

open Classical in
/-- `mask`, FourierUtils.py:1145-1156: the pixels in the range of position angles. -/
noncomputable def kept (range : Option (ℝ × ℝ)) (px : List Pixel) : List Pixel :=
  match range with
  | none => px
  | some (a, b) => px.filter fun p => decide (a ≤ p.pa ∧ p.pa ≤ b)

/-- Numerical routines of numpy and scipy used here: the sorting of pixels by radius (`argsort`, which need not be
stable), `round`, the cubic spline through a profile (knots, values, abscissa) and the bicubic spline through an image
(row, column). -/
structure Routines where
  argsort : List (ℝ × ℝ) → List (ℝ × ℝ)
  round : ℝ → ℤ
  spline : List ℝ → List ℝ → ℝ → ℝ
  ev : Img ℝ → ℝ → ℝ → ℝ

/-- `tbin / nr`, FourierUtils.py:1162-1166, for successive elements of `rind`. -/
noncomputable def ringMeans (s : List (ℝ × ℝ)) : List ℕ → List ℝ
  | a :: b :: l => (csim s b - csim s a) / ((b : ℝ) - a) :: ringMeans s (b :: l)
  | _ => []

/-- `radialprofile2`, FourierUtils.py:1159-1175. -/
noncomputable def discrete (bin : ℝ → ℤ) (s : List (ℝ × ℝ)) : Except Err (List ℝ) :=
  match rind bin s with
  | [] => .error .indexError
  | r0 :: l => .ok ((if r0 ≠ 0 then csim s r0 / ((r0 : ℝ) + 1) else csim s 0) :: ringMeans s (r0 :: l))

/-- Smallest radius, `r.min()`: over all pixels, even with a range of angles. -/
noncomputable def rMin (px : List Pixel) : ℝ := minL (px.map Pixel.r)

/-- `rr`, FourierUtils.py:1177. -/
noncomputable def radii (rmin bs : ℝ) (n : ℕ) : List ℝ := (List.range n).map fun k : ℕ => (rmin + (k : ℝ)) * bs

open Classical in
/-- `rr[crop]` and `radialprofile2[crop]`, FourierUtils.py:1178-1181. -/
noncomputable def crop (maxR : Option ℝ) (rr p : List ℝ) : List ℝ × List ℝ :=
  match maxR with
  | none => (rr, p)
  | some m => ((rr.zip p).filter fun x => decide (x.1 < m)).unzip

/-- `np.nanstd`; `none` for `nan` (no value). -/
noncomputable def std (l : List ℝ) : Option ℝ :=
  if l = [] then none
  else
    let m := l.sum / l.length
    some (Real.sqrt ((l.map fun x => (x - m) ^ 2).sum / l.length))

open Classical in
/-- Values of the pixels of ring number `i` with the option `stddev`, FourierUtils.py:1187-1193. -/
noncomputable def stdRing (px : List Pixel) (bs : ℝ) (i : ℕ) (radius : ℝ) : List ℝ :=
  (px.filter fun p =>
    if i = 0 then decide (p.r < radius + bs / 2)
    else decide (radius - bs / 2 ≤ p.r * bs ∧ p.r * bs < radius + bs / 2)).map Pixel.v

/-- `stddevs`, FourierUtils.py:1184-1194. -/
noncomputable def stddevs (px : List Pixel) (bs : ℝ) (rr : List ℝ) : List (Option ℝ) :=
  rr.mapIdx fun i radius => std (stdRing px bs i radius)

/-- `np.arange(a, b, step)` for a positive step. -/
noncomputable def arange (a b step : ℝ) : List ℝ :=
  (List.range ⌈(b - a) / step⌉.toNat).map fun k : ℕ => a + (k : ℝ) * step

/-- `np.clip(p, 0, None)` and the scaling by the square of the ratio of steps, FourierUtils.py:1239-1244 and
1282-1287. -/
noncomputable def clipScale (ps step : ℝ) (p : List ℝ) : List ℝ := p.map fun x => max x 0 * (step / ps) ^ 2

/-- `interpolate_1d`, FourierUtils.py:1219-1246; `CubicSpline` refuses less than two points. -/
noncomputable def interpolate1d (R : Routines) (r p : List ℝ) (ps step : ℝ) : Except Err (List ℝ × List ℝ) :=
  if r.length < 2 then .error .valueError
  else
    let ri := arange (r.getD 0 0) (r.getD (r.length - 1) 0) step
    .ok (ri, clipScale ps step (ri.map (R.spline r p)))

/-- Mean over one circle of the polar grid, FourierUtils.py:1277-1280. -/
noncomputable def circleMean (R : Routines) (im : Img ℝ) (g : List (ℝ × ℝ)) : ℝ :=
  (g.map fun q => R.ev im q.2 q.1).sum / g.length

/-- `interpolate_2d`, FourierUtils.py:1248-1289: `grid` is a list of circles, each a list of (column, row);
`RectBivariateSpline` refuses images of less than four rows or columns. -/
noncomputable def interpolate2d (R : Routines) (im : Img ℝ) (grid : List (List (ℝ × ℝ))) (rVals : List ℝ)
    (ps step : ℝ) : Except Err (List ℝ × List ℝ) :=
  if im.nx < 4 ∨ im.ny < 4 then .error .valueError
  else .ok (rVals, clipScale ps step (grid.map (circleMean R im)))

/-- `np.gradient`: centred differences, one-sided at the ends; refused for less than two values. -/
noncomputable def gradient (r : List ℝ) : Except Err (List ℝ) :=
  if r.length < 2 then .error .valueError
  else .ok ((List.range r.length).map fun i =>
    if i = 0 then r.getD 1 0 - r.getD 0 0
    else if i = r.length - 1 then r.getD i 0 - r.getD (i - 1) 0
    else (r.getD (i + 1) 0 - r.getD (i - 1) 0) / 2)

/-- `np.cumsum`. -/
noncomputable def cumsum (l : List ℝ) : List ℝ := (List.range l.length).map fun k => (l.take (k + 1)).sum

/-- Curve of energy with supersampling, FourierUtils.py:1132-1133 and 1204-1205 (the case of
a single circle, which numpy repeats, is left out). -/
noncomputable def superEe (r p : List ℝ) : Except Err (List ℝ) := do
  let g ← gradient r
  if p.length ≠ g.length then .error .valueError
  else
    let c := cumsum (List.zipWith (· * ·) p g)
    .ok (c.map (· / c.getD (c.length - 1) 0))

/-- What `radial_profile` returns. -/
inductive Out
  | profile (p : List ℝ)
  | two (r p : List ℝ)
  | three (r p e : List ℝ)
  | std (r : List ℝ) (s : List (Option ℝ))

structure Args where
  ps : ℝ
  binsize : Option ℝ := none
  centre : Option (ℝ × ℝ) := none
  ee : Bool := false
  stddev : Bool := false
  maxR : Option ℝ := none
  paRange : Option (ℝ × ℝ) := none
  nargout : ℕ := 2
  supersamp : Option (List ℝ) := none
  polar : Option (List (List (ℝ × ℝ)) × List ℝ) := none

/-- `binsize`, FourierUtils.py:1106-1107. -/
noncomputable def Args.bs (a : Args) : ℝ := a.binsize.getD a.ps

/-- The returned values with supersampling, FourierUtils.py:1130-1135 and 1202-1207. -/
noncomputable def superOut (a : Args) (rp : List ℝ × List ℝ) : Except Err Out :=
  if a.nargout = 1 then .ok (.profile rp.2)
  else if a.ee then do
    let e ← superEe rp.1 rp.2
    .ok (.three rp.1 rp.2 e)
  else .ok (.two rp.1 rp.2)

/-- `supersamp`, FourierUtils.py:1115-1120: step and `int(flag)`. -/
noncomputable def superFlag (a : Args) : Except Err (Option (ℝ × ℤ)) :=
  match a.supersamp with
  | none => .ok none
  | some [step, flag] => .ok (some (step, trunc flag))
  | some _ => .error .valueError

/-- The pixels of the image seen by `radial_profile`. -/
noncomputable def Args.px (a : Args) (im : Img ℝ) : List Pixel := pixels im (centreOf im a.centre) a.ps a.bs

/-- The sorted pixels used for the profile. -/
noncomputable def Args.sorted (R : Routines) (a : Args) (im : Img ℝ) : List (ℝ × ℝ) :=
  R.argsort ((kept a.paRange (a.px im)).map fun p => (p.r, p.v))

/-- `radial_profile` from line 1177 on, with the profile before cropping. -/
noncomputable def finish (R : Routines) (im : Img ℝ) (a : Args) (sup : Option (ℝ × ℤ)) (p0 : List ℝ) : Except Err Out :=
  let rp := crop a.maxR (radii (rMin (a.px im)) a.bs p0.length) p0
  if a.stddev then .ok (.std rp.1 (stddevs (a.px im) a.bs rp.1))
  else
    match sup with
    | some (step, 1) => do
      let q ← interpolate1d R rp.1 rp.2 a.ps step
      superOut a q
    | _ =>
      if a.nargout = 1 then .ok (.profile rp.2)
      else if a.ee then
        let e := (rind R.round (a.sorted R im)).map (csim (a.sorted R im))
        .ok (.three rp.1 rp.2 (e.map (· / maxL e)))
      else .ok (.two rp.1 rp.2)

/-- `radial_profile`, FourierUtils.py:1053-1216.  With the bicubic spline the image must come with a polar grid. -/
noncomputable def radialProfile (R : Routines) (im : Img ℝ) (a : Args) : Except Err Out := do
  let sup ← superFlag a
  match sup with
  | some (step, 2) =>
    match a.polar with
    | some (grid, rVals) => do
      let q ← interpolate2d R im grid rVals a.ps step
      superOut a q
    | none => .error .valueError
  | sup => do
    let p0 ← discrete R.round (a.sorted R im)
    finish R im a sup p0

end P3.Profile
