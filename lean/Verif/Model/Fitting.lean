import Verif.Model.Images
import Verif.Model.Params
import Mathlib.Data.EReal.Basic
import Mathlib.LinearAlgebra.Matrix.NonsingularInverse
import Mathlib.Analysis.Real.Sqrt

/-! Model of the fitting of a PSF model to an image: p3/psfFitting/psfFitting.py, confidenceInterval.py,
imageModel.py, and `update_bounds` of p3/psfao21/psfao21.py.

The minimiser of scipy is a parameter. Images are flattened lists; arithmetic is exact. -/

namespace P3.Fitting

open P3.Images (minL normalize denormalize Param)

/-- Exceptions raised on the modelled paths. -/
inductive Err | valueError | nameError | indexError | attributeError | typeError
  deriving DecidableEq, Repr

/-! ### Free and fixed parameters -/

/-- `INDFREE`, psfFitting.py 113-114. -/
def indFree (fixed : List Bool) : List ℕ := (List.range fixed.length).filter fun i => !(fixed.getD i false)

/-- Element type of the array `np.copy(x0)`: a list of Python integers gives an integer array. -/
inductive DType | float | int
  deriving DecidableEq

/-- Truncation towards zero, as numpy does when a float is stored in an integer array. -/
noncomputable def trunc (x : ℝ) : ℝ := if 0 ≤ x then (⌊x⌋ : ℝ) else (⌈x⌉ : ℝ)

/-- The value kept when `x` is stored in an array. -/
noncomputable def store : DType → ℝ → ℝ
  | .float, x => x
  | .int, x => trunc x

/-- One element of an array: an index out of range raises. -/
def look {α : Type} (x : List α) (i : ℕ) : Except Err α :=
  match x[i]? with
  | some v => .ok v
  | none => .error .indexError

/-- `np.take(x, ind)`, psfFitting.py 119-124 and 129. -/
def takeAt {α : Type} (x : List α) (ind : List ℕ) : Except Err (List α) := ind.mapM (look x)

/-- `input2mini`, psfFitting.py 126-130. -/
def input2mini (fixed : Option (List Bool)) (x : List ℝ) : Except Err (List ℝ) :=
  match fixed with
  | none => .ok x
  | some f => takeAt x (indFree f)

/-- The loop `xall[INDFREE[i]] = y[i]`, psfFitting.py 141-142, on pairs of an index and a value. -/
def scatter (x : List ℝ) (l : List (ℕ × ℝ)) : List ℝ := l.foldl (fun x p => x.set p.1 p.2) x

/-- `mini2input`, psfFitting.py 132-143; `base` is `x0`, or zeros for the confidence intervals. -/
noncomputable def mini2input (dt : DType) (fixed : Option (List Bool)) (base y : List ℝ) : Except Err (List ℝ) :=
  match fixed with
  | none => .ok y
  | some f =>
    if (indFree f).length < y.length then .error .indexError
    else .ok (scatter base ((indFree f).zip (y.map (store dt))))

/-! ### Bounds -/

/-- Bounds: lower and upper, possibly infinite. -/
abbrev Bounds := List EReal × List EReal

/-- `get_bounds`, psfFitting.py 116-124: bounds of the user without a mask read `INDFREE`, which is not defined. -/
def getBounds (fixed : Option (List Bool)) (user : Option Bounds) (model : Bounds) : Except Err Bounds :=
  match user, fixed with
  | none, none => .ok model
  | none, some f => do
    let lo ← takeAt model.1 (indFree f)
    let hi ← takeAt model.2 (indFree f)
    .ok (lo, hi)
  | some _, none => .error .nameError
  | some b, some f => do
    let lo ← takeAt b.1 (indFree f)
    let hi ← takeAt b.2 (indFree f)
    .ok (lo, hi)

/-- The start lies within the bounds, which are ordered and of the same length: what `scipy.optimize.least_squares`
requires. -/
def Admissible (start : List ℝ) (b : Bounds) : Prop :=
  b.1.length = start.length ∧ b.2.length = start.length ∧
  ∀ (i : ℕ) (v : ℝ) (lo hi : EReal), start[i]? = some v → b.1[i]? = some lo → b.2[i]? = some hi → lo < hi ∧ lo ≤ (v : EReal) ∧ (v : EReal) ≤ hi

/-! ### The fit -/

/-- Arguments of `psfFitting` and what it reads from the PSF model. -/
structure Task where
  image : List ℝ
  normType : ℝ
  x0 : List ℝ
  dtype : DType
  fixed : Option (List Bool)
  bounds : Option Bounds
  modelBounds : Bounds
  /-- `method == 'trf'` -/
  trf : Bool

/-- Values returned. -/
structure Result where
  x : List ℝ
  imSky : List ℝ
  imFit : List ℝ
  imDif : List ℝ

/-- The image of the caller after the call, psfFitting.py 79-80: `image -= image.min()` works in place. -/
noncomputable def shifted (im : List ℝ) : List ℝ := if minL im < 0 then im.map (· - minL im) else im

/-- The minimiser: start, bounds if any, solution. -/
abbrev Solver := List ℝ → Option Bounds → List ℝ

/-- The saturation level divided by the parameter of the normalisation, psfFitting.py 101 and 169: a list cannot
divide a number. -/
def checkParam : Param → Except Err ℝ
  | .num q => .ok q
  | .pair _ _ => .error .typeError

open Classical in
/-- The call to `least_squares`, psfFitting.py 146-163: bounds are given to `trf` only; any other method is `lm`,
which needs at least as many pixels as parameters. -/
noncomputable def minimise (solver : Solver) (t : Task) (start : List ℝ) : Except Err (List ℝ) :=
  if t.trf then
    match getBounds t.fixed t.bounds t.modelBounds with
    | .error e => .error e
    | .ok b => if Admissible start b then .ok (solver start (some b)) else .error .valueError
  else if t.image.length < start.length then .error .valueError
  else .ok (solver start none)

/-- The length check of the mask, psfFitting.py 111-112. -/
def checkFixed (t : Task) : Except Err Unit :=
  match t.fixed with
  | none => .ok ()
  | some f => if f.length ≠ t.x0.length then .error .valueError else .ok ()

/-- Un-normalised image, psfFitting.py 172. -/
noncomputable def scaleBack (ty : ℝ) (l : List ℝ) (p : Param) : Except Err (List ℝ) :=
  match denormalize ty l p with
  | .ok v => .ok v
  | .error _ => .error .typeError

/-- `psfFitting` up to line 174: the image left to the caller and the outcome. `model` is the normalised image model
as a function of all parameters. An image whose normalisation is not finite makes the minimiser raise `ValueError`. -/
noncomputable def fit (getFlux : List ℝ → ℝ) (solver : Solver) (model : List ℝ → List ℝ) (t : Task) :
    List ℝ × Except Err Result :=
  let im := shifted t.image
  let np := normalize getFlux t.normType im
  (im, do
    checkFixed t
    let start ← input2mini t.fixed t.x0
    let y ← minimise solver t start
    let _ ← checkParam np.2
    match np.1 with
    | none => .error .valueError
    | some _ =>
      let x ← mini2input t.dtype t.fixed t.x0 y
      let f ← scaleBack t.normType (model x) np.2
      .ok ⟨x, im, f, List.zipWith (· - ·) im f⟩)

/-- The weighted residual minimised, psfFitting.py 104-110 without the positivity term: `sqrt(w) * (im_norm - model)`. -/
noncomputable def residual (w imNorm m : List ℝ) : List ℝ :=
  List.zipWith (fun w d => √w * d) w (List.zipWith (· - ·) imNorm m)

/-- The parameters of the PSF returned as `result.psf`, psfFitting.py 177-181: the first flux is one and the next
`3 * n_src` parameters are zero. -/
def psfParams (c : Params.Ctx) (x : List ℝ) : Except Err (List ℝ) :=
  let k := Params.idFlux c
  if x.length ≤ k then .error .indexError
  else .ok (x.mapIdx fun i v => if i = k then 1 else if k < i ∧ i < k + 3 * c.nStar + 1 then 0 else v)

/-! ### Fit quality -/

/-- The metrics stored by `evaluateFittingQuality`. -/
inductive Field | srSky | srFit | fxSky | fySky | fxFit | fyFit | mse | mae | fvu
  deriving DecidableEq, Repr

/-- The array each name refers to in the hyperspectral case, psfFitting.py 225-228: the chained assignments create
four arrays for nine names. -/
def slot : Field → ℕ
  | .srSky => 0 | .srFit => 0
  | .fxSky => 1 | .fySky => 1
  | .fxFit => 2 | .fyFit => 2
  | .mse => 3 | .mae => 3 | .fvu => 3

/-- Order of the writes at each wavelength, psfFitting.py 233-237. -/
def writeOrder : List Field := [.srSky, .srFit, .fxSky, .fySky, .fxFit, .fyFit, .mse, .mae, .fvu]

/-- The arrays. -/
abbrev Heap := ℕ → ℕ → ℝ

/-- One write `result.<field>[j] = value`. -/
def write (h : Heap) (f : Field) (j : ℕ) (v : ℝ) : Heap :=
  fun a i => if a = slot f ∧ i = j then v else h a i

/-- The writes at one wavelength. -/
def writes (metric : Field → ℕ → ℝ) (j : ℕ) (h : Heap) : Heap :=
  writeOrder.foldl (fun h f => write h f j (metric f j)) h

/-- Outcome of `evaluateFittingQuality`. -/
inductive Quality
  | scalar (v : Field → ℝ)
  | perWvl (v : Field → ℕ → ℝ)
  | missing

/-- `evaluateFittingQuality`, psfFitting.py 203-239: `metric` gives the true metrics (wavelength 0 for a
two-dimensional image), `ndim` the dimension of the image, `freqList` whether the model has one frequency domain per
wavelength (psfao21 with several wavelengths) instead of one. -/
def evaluate (metric : Field → ℕ → ℝ) (ndim nWvl : ℕ) (freqList : Bool) : Except Err Quality :=
  if ndim = 2 then
    if freqList then .error .attributeError else .ok (.scalar fun f => metric f 0)
  else if ndim = 3 ∧ 1 < nWvl then
    if freqList then
      let h := (List.range nWvl).foldl (fun h j => writes metric j h) (fun _ _ => 0)
      .ok (.perWvl fun f j => h (slot f) j)
    else .error .typeError
  else .ok .missing

/-! ### Confidence intervals -/

/-- Outcome of `confidence_interval`: a singular matrix raises (and the caller stores -1), equal numbers of points
and parameters divide by zero. -/
inductive Interval (p : ℕ) | failed | notFinite | ok (v : Fin p → ℝ)

open Classical in
/-- `confidence_interval`, confidenceInterval.py 4-25: `1.96 sqrt |diag((JᵀJ)⁻¹ * rss/(n-p))|`. -/
noncomputable def confidence {n p : ℕ} (f : Fin n → ℝ) (J : Matrix (Fin n) (Fin p) ℝ) : Interval p :=
  let A := J.transpose * J
  if A.det = 0 then .failed
  else if n = p then .notFinite
  else .ok fun i => √|A⁻¹ i i * ((∑ k, f k ^ 2) / ((n : ℝ) - p))| * 1.96

/-! ### Bounds after a first fit -/

/-- `update_bounds`, psfao21.py 124-145: seven parameters of the power spectrum, then jitter (3), flux, position (2)
and background without bounds except the sign of the flux, then the static modes. -/
noncomputable def updateBounds (x err : ℕ → ℝ) (b : Bounds) (sig maxWvl : ℝ) (nModes : ℕ) : Bounds :=
  ((List.range 7).map (fun i => max (((x i - sig / 3 * err i : ℝ)) : EReal) (b.1.getD i ⊥)) ++ [⊥, ⊥, ⊥, 0, ⊥, ⊥, ⊥] ++
      List.replicate nModes ((-(maxWvl * 1e9 / 2) : ℝ) : EReal),
   (List.range 7).map (fun i => min (((x i + sig / 3 * err i : ℝ)) : EReal) (b.2.getD i ⊤)) ++ [⊤, ⊤, ⊤, ⊤, ⊤, ⊤, ⊤] ++
      List.replicate nModes ((maxWvl * 1e9 / 2 : ℝ) : EReal))

/-! ### Image model -/

/-- A PSF array: a single image, a cube over sources, or sources and wavelengths. Pixels are functions of row and
column. -/
inductive Psfs
  | im2 (f : ℕ → ℕ → ℝ)
  | im3 (n : ℕ) (f : ℕ → ℕ → ℕ → ℝ)
  | im4 (nS nW : ℕ) (f : ℕ → ℕ → ℕ → ℕ → ℝ)

/-- Stacking, imageModel.py 37-57, before the saturation: sources and wavelengths left (dimensions of one are
squeezed, which does not change the values). The flag tells whether the result is a view of the input array. -/
def stack (spectral spatial : Bool) : Psfs → Bool × Psfs
  | .im2 f => (true, .im2 f)
  | .im3 n f =>
    match spectral, spatial with
    | _, false => (true, .im3 n f)
    | _, true => (false, .im2 fun i j => ((List.range n).map fun k : ℕ => f i j k).sum)
  | .im4 nS nW f =>
    match spectral, spatial with
    | false, false => (true, .im4 nS nW f)
    | true, false => (false, .im3 nS fun i j s => ((List.range nW).map fun w : ℕ => f i j s w).sum)
    | false, true => (false, .im3 nW fun i j w => ((List.range nS).map fun s : ℕ => f i j s w).sum)
    | true, true => (false, .im2 fun i j => ((List.range nS).map fun s : ℕ => ((List.range nW).map fun w : ℕ => f i j s w).sum).sum)

open Classical in
/-- Clipping of one pixel, imageModel.py 59-60. -/
noncomputable def clip (sat : Option ℝ) (v : ℝ) : ℝ :=
  match sat with
  | none => v
  | some c => if c ≤ v then c else v

/-- Clipping of an array. -/
noncomputable def clipAll (sat : Option ℝ) : Psfs → Psfs
  | .im2 f => .im2 fun i j => clip sat (f i j)
  | .im3 n f => .im3 n fun i j k => clip sat (f i j k)
  | .im4 nS nW f => .im4 nS nW fun i j s w => clip sat (f i j s w)

/-- `imageModel`, imageModel.py 10-62: the array of the caller after the call and the image. A two-dimensional input
is returned at once; a view is clipped in place. -/
noncomputable def imageModel (spectral spatial : Bool) (sat : Option ℝ) (p : Psfs) : Psfs × Psfs :=
  match p with
  | .im2 f => (.im2 f, .im2 f)
  | p =>
    let r := stack spectral spatial p
    let out := clipAll sat r.2
    (if r.1 then clipAll sat p else p, out)

/-- Total intensity over an `N x M` support. -/
noncomputable def total (N M : ℕ) : Psfs → ℝ
  | .im2 f => ∑ i ∈ Finset.range N, ∑ j ∈ Finset.range M, f i j
  | .im3 n f => ∑ i ∈ Finset.range N, ∑ j ∈ Finset.range M, ∑ k ∈ Finset.range n, f i j k
  | .im4 nS nW f => ∑ i ∈ Finset.range N, ∑ j ∈ Finset.range M, ∑ s ∈ Finset.range nS, ∑ w ∈ Finset.range nW, f i j s w

end P3.Fitting
