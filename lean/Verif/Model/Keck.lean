import Verif.Model.Py
import Verif.Model.Grid
import Verif.Model.Layers
import Verif.Model.Archive
/-
Loading of an observation of the Keck telescope.  Source: /repo/p3/telemetry/telemetryKeck.py (the image 191-230, the compression of
the profile 336-348, the telemetry 350-453) and the header functions of /repo/p3/telemetry/keckUtils.py 71-95, 262-291.
Arithmetic is exact.  Reading FITS, IDL and text files is not modelled: their contents are the inputs.
-/
namespace P3.Keck
open Finset

/-- Exceptions: `ValueError` of numpy or of the reader, wrong index of an array, absent attribute, absent block of the IDL file. -/
inductive Err | value | index | attribute | missing | layers (e : Layers.LErr)
  deriving DecidableEq

/-! ### Header -/

inductive Mode | ngs | lgs
  deriving DecidableEq, Repr

/-- `getStagePositionWFS`, keckUtils.py 273-288: defocus of the stage (mm) and mode; `obwf` in mm, `fcl`, `fcn` (keywords `AOFCLGFO`,
`AOFCNGFO`) in metres, `prop` the keyword `LSPROP`. -/
noncomputable def stage (obwf fcl fcn : ℝ) (prop : List Char) : ℝ × Mode :=
  if prop.map Char.toUpper = "YES".toList then (|obwf - fcl * 1000|, .lgs) else (|obwf - fcn * 1000|, .ngs)

/-- `getInstAngle`, keckUtils.py 85-95. -/
noncomputable def instAngle (inst : String) (ang : ℝ) : ℝ :=
  if inst = "NIRC2" then ang else if inst = "OSIRIS" then ang - 42.5 else 0

/-- `getPA`, keckUtils.py 71-74. -/
noncomputable def posAngle (inst : String) (rot ang : ℝ) : ℝ := rot - instAngle inst ang

/-- `getSaturationLevel`, keckUtils.py 262-271; `none` is infinity. -/
noncomputable def saturation (inst : String) : Option ℝ :=
  if inst = "NIRC2" then some 12000 else if inst = "OSIRIS" then some 20000 else none

/-- Wavelengths of the wavefront sensor and of the tip-tilt sensor, telemetryKeck.py 364-368 with `getWFSwavelength`, keckUtils.py
290-291 (`guid` in microns); the tip-tilt sensor has none of its own in NGS mode. -/
noncomputable def wavelengths (m : Mode) (guid : ℝ) : ℝ × Option ℝ :=
  match m with
  | .ngs => (guid * 1e-6, none)
  | .lgs => (589e-9, some (guid * 1e-6))

/-! ### Image -/

/-- `tmp[a:b, c:d]`. -/
def sub (im : Img ℝ) (a b c d : ℤ) : Img ℝ :=
  ⟨sliceBound im.nx b - sliceBound im.nx a, sliceBound im.ny d - sliceBound im.ny c,
    fun i j => im.px (sliceBound im.nx a + i) (sliceBound im.ny c + j)⟩

/-- `int(c - fov/2)` and `int(c + fov/2)`: Python's `int` rounds towards zero. -/
def lower (c fov : ℕ) : ℤ := (2 * (c : ℤ) - fov).tdiv 2
def upper (c fov : ℕ) : ℤ := (2 * (c : ℤ) + fov).tdiv 2

/-- The image kept and `cam.fov`, telemetryKeck.py 202-211. `(y0, x0)` is the largest pixel of the filtered image (the median filter is
not modelled: the position is arbitrary); `fov = 0` stands for no field of view asked for. -/
def crop (im : Img ℝ) (fov y0 x0 : ℕ) : Img ℝ × ℕ :=
  if fov ≠ 0 ∧ fov < min im.nx im.ny then
    (sub im (lower y0 fov) (upper y0 fov) (lower x0 fov) (upper x0 fov), fov)
  else (im, im.nx)

/-- `image.max() > saturation*coadds`, telemetryKeck.py 228-233: the maximum of an empty image raises. -/
noncomputable def isSaturated (im : Img ℝ) (inst : String) (coadds : ℝ) : Except Err Bool :=
  open Classical in
  if im.nx = 0 ∨ im.ny = 0 then .error .value
  else .ok (match saturation inst with
    | none => false
    | some s => decide (∃ i < im.nx, ∃ j < im.ny, im.px i j > s * coadds))

/-- Image, field of view and flag, telemetryKeck.py 202-233. -/
noncomputable def image (im : Img ℝ) (fov y0 x0 : ℕ) (inst : String) (coadds : ℝ) : Except Err (Img ℝ × ℕ × Bool) :=
  (isSaturated (crop im fov y0 x0).1 inst coadds).map fun b => ((crop im fov y0 x0).1, (crop im fov y0 x0).2, b)

/-! ### Profile -/

/-- Weights of the layers: a list of Python floats (the median profile, lines 296 and 315) or of numpy scalars (line 324). -/
inductive Weights | plain (l : List ℝ) | numpy (l : List ℝ)

def Weights.val : Weights → List ℝ
  | .plain l => l
  | .numpy l => l

/-- Weights set at lines 293-324: `status` is zero without measurements; see `Archive.atmosphere`. `none` is not a number. -/
noncomputable def weights (status : ℕ) (seeing alt : ℝ) (prof : List (Option ℝ)) (wvl : ℝ) : Option Weights :=
  open Classical in
  if status = 0 then some (.plain Archive.medianWeights)
  else if (∀ c ∈ prof, c = some (-1)) ∨ none ∈ prof then some (.plain Archive.medianWeights)
  else (Archive.atmosphere seeing alt prof wvl).map fun r => .numpy r.2

/-- `eqLayers(w, x, n, p)` when `w` is the list itself: `sum(w[a:b]).astype(dtype)` (FourierUtils.py 1733) needs numpy scalars. -/
noncomputable def eqLayersOf (w : Weights) (x : List ℝ) (n : ℕ) (p : ℝ) : Except Err (List (ℝ × ℝ)) :=
  match w with
  | .plain l => if 0 < n ∧ n ≤ l.length then .error .attribute
      else (Layers.eqLayers l x n p).mapError .layers
  | .numpy l => (Layers.eqLayers l x n p).mapError .layers

/-- Winds, directions, and weights with heights after the compression, telemetryKeck.py 336-348: the first two calls convert the weights
to an array, the last one does not. -/
noncomputable def compress (w : Weights) (winds dirs heights : List ℝ) (nLayer : ℕ) :
    Except Err (List ℝ × List ℝ × List (ℝ × ℝ)) :=
  if nLayer < heights.length then do
    let v ← (Layers.eqLayers w.val winds nLayer (5 / 3)).mapError Err.layers
    let d ← (Layers.eqLayers w.val dirs nLayer 1).mapError Err.layers
    let h ← eqLayersOf w heights nLayer (5 / 3)
    .ok (v.map (·.2), d.map (·.2), h)
  else .ok (winds, dirs, List.zip w.val heights)

/-! ### Telemetry -/

/-- A series: rows are frames. -/
structure Series where
  rows : ℕ
  cols : ℕ
  at' : ℕ → ℕ → ℝ

/-- Columns from `a` on, `k` of them. -/
def Series.columns (s : Series) (a k : ℕ) : Series := ⟨s.rows, min k (s.cols - a), fun t j => s.at' t (a + j)⟩

/-- `c * s`. -/
def Series.scale (c : ℝ) (s : Series) : Series := ⟨s.rows, s.cols, fun t j => c * s.at' t j⟩

/-- Mean of a column. -/
noncomputable def Series.mean (s : Series) (j : ℕ) : ℝ := (∑ t ∈ range s.rows, s.at' t j) / s.rows

/-- `s -= np.mean(s, axis=0)`. -/
noncomputable def Series.centre (s : Series) : Series := ⟨s.rows, s.cols, fun t j => s.at' t j - s.mean j⟩

/-- `np.std` of a column, squared. -/
noncomputable def Series.var (s : Series) (j : ℕ) : ℝ := (∑ t ∈ range s.rows, (s.at' t j - s.mean j) ^ 2) / s.rows

/-- Number of selected entries before index `j` of a boolean map. -/
def rank (map : List Bool) (j : ℕ) : ℕ := (map.take j).count true

/-- `u = np.zeros((n, size)); u[:, map] = s`, telemetryKeck.py 359-360 and 418-425: the map must have `size` entries, and the series one
column per selected entry (or a single column, which numpy repeats). -/
def fill (n size : ℕ) (map : List Bool) (s : Series) : Except Err Series :=
  if map.length ≠ size then .error .index
  else if s.rows ≠ n ∧ s.rows ≠ 1 then .error .value
  else if s.cols ≠ map.count true ∧ s.cols ≠ 1 then .error .value
  else .ok ⟨n, size, fun t j =>
    if map.getD j false = true then s.at' (if s.rows = 1 then 0 else t) (if s.cols = 1 then 0 else rank map j) else 0⟩

/-- `if np.any(map)`: fill, else leave as it is. -/
def place (n size : ℕ) (map : List Bool) (s : Series) : Except Err Series :=
  if true ∈ map then fill n size map s else .ok s

/-- `s[::d, :]` for `d` above one, telemetryKeck.py 427-434. -/
def Series.keep (d : ℕ) (s : Series) : Series :=
  if 1 < d then ⟨(s.rows + d - 1) / d, s.cols, fun t j => s.at' (t * d) j⟩ else s

/-- The second block of the IDL file: tip-tilt sensor of its own. -/
structure BlockB where
  slopes : Series
  com : Series
  counts : ℕ → ℝ
  time : ℕ → ℝ
  nTime : ℕ

/-- Contents of the IDL file. `time` in units of 100 ns. -/
structure Trs where
  slopes : Series
  intensity : Series
  com : Series
  residual : Series
  ttcom : Series
  nTime : ℕ
  time : ℕ → ℝ
  rx : ℕ → ℕ → ℕ → ℝ
  nRec : ℕ
  rxSize : ℕ
  b : Option BlockB

/-- Calibration: maps of actuators and subapertures. -/
structure Calib where
  act : List Bool
  subap : List Bool
  nAct : ℕ
  nSub : ℕ
  D : ℝ

/-- What the object holds after `restoringTelemetry`. -/
structure Out where
  nExp : ℕ
  slopes : Series
  intensity : Series
  wfsWvl : ℝ
  ttWvl : Option ℝ
  com : Series
  nCom : ℕ
  ttSlopes : Series
  ttCom : Series
  ttNExp : ℕ
  rec' : Series
  focus : Series
  wfe : ℝ
  R : ℕ → ℕ → ℕ → ℝ
  Rtt : ℕ → ℕ → ℕ → ℝ
  freq : ℝ
  ttFreq : ℝ

/-- `dm.volt2meter`, telemetryKeck.py 143. -/
noncomputable def volt2meter : ℝ := 0.4095e-6

/-- `tipTilt.tilt2meter`, telemetryKeck.py 377 and 385. -/
noncomputable def tilt2meter (hasB : Bool) (D : ℝ) : ℝ :=
  if hasB then 3.2 * 1.268e-5 else Real.pi / 3600 / 180 * D

/-- `unit_tt`, telemetryKeck.py 382-384. -/
noncomputable def unitTt (hasB : Bool) : ℝ := if hasB then 0.18 else 1

/-- Tip-tilt measurements, telemetryKeck.py 379, 386 (columns after the commands), scaled and centred, 391-392. -/
noncomputable def ttSlopes (trs : Trs) (D : ℝ) : Series :=
  let u := match trs.b with
    | some b => b.slopes
    | none => trs.residual.columns trs.com.cols 2
  (u.scale (unitTt trs.b.isSome * tilt2meter trs.b.isSome D)).centre

/-- Tip-tilt commands, telemetryKeck.py 380, 388, 393-394. -/
noncomputable def ttCom (trs : Trs) (D : ℝ) : Series :=
  let u := match trs.b with
    | some b => b.com
    | none => trs.ttcom
  (u.scale (tilt2meter trs.b.isSome D)).centre

/-- Residual commands, telemetryKeck.py 407-408. -/
noncomputable def residual (trs : Trs) : Series := ((trs.residual.columns 0 trs.com.cols).scale volt2meter).centre

/-- Residual focus, telemetryKeck.py 409-410: the last column. -/
noncomputable def focus (trs : Trs) : Series := (trs.residual.columns (trs.residual.cols - 1) 1).centre

/-- `rec.wfe` (nm), telemetryKeck.py 413-415. -/
noncomputable def wfe (s : Series) : ℝ :=
  open Classical in
  let u := (range s.cols).filter fun j => s.var j ≠ 0
  √(∑ j ∈ u, s.var j / u.card) * 1e9

/-- `1/(100e-9*np.mean(np.diff(time)))`, telemetryKeck.py 441 and 444, for `n + 1` time stamps. -/
noncomputable def rate (n : ℕ) (time : ℕ → ℝ) : ℝ := 1 / (100e-9 * ((∑ k ∈ range n, (time (k + 1) - time k)) / n))

/-- `restoringTelemetry`, telemetryKeck.py 350-453 (the 400 subapertures of line 359 are the square of the 20 of `nSubap`), without the delays (`Telemetry.loopDelay`) and the coefficients of the controllers. -/
noncomputable def restore (cal : Calib) (m : Mode) (guid : ℝ) (trs : Trs) (d : ℕ) : Except Err Out := do
  let nExp := trs.slopes.rows
  let nCom := trs.com.cols
  let inten ← place nExp (cal.nSub * cal.nSub) cal.subap trs.intensity          -- 358-363
  if m = .lgs ∧ trs.b.isNone then .error .missing else .ok ()                    -- 369
  if trs.rxSize = (nCom + 3) * trs.slopes.cols * trs.nRec then .ok () else .error .value   -- 402
  let res ← place nExp (cal.nAct * cal.nAct) cal.act (residual trs)              -- 418-422
  let com ← place nExp (cal.nAct * cal.nAct) cal.act (trs.com.scale volt2meter)  -- 423-425
  .ok {
    nExp := nExp
    slopes := trs.slopes.keep d
    intensity := inten
    wfsWvl := (wavelengths m guid).1
    ttWvl := (wavelengths m guid).2
    com := com.keep d
    nCom := nCom
    ttSlopes := (ttSlopes trs cal.D).keep d
    ttCom := (ttCom trs cal.D).keep d
    ttNExp := (ttSlopes trs cal.D).rows
    rec' := res.keep d
    focus := (focus trs).keep d
    wfe := wfe (residual trs)
    R := fun i s r => volt2meter * trs.rx i s r                                  -- 403
    Rtt := fun i s r => tilt2meter trs.b.isSome cal.D * trs.rx (nCom + i) s r     -- 404
    freq := rate (trs.nTime - 1) trs.time
    ttFreq := match trs.b with
      | some b => rate (b.nTime - 1) b.time
      | none => rate (trs.nTime - 1) trs.time }

end P3.Keck
