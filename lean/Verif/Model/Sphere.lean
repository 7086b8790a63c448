import Verif.Model.Py
import Verif.Model.Grid
import Verif.Model.Diagnosis
import Verif.Model.Metrics
import Mathlib.Analysis.SpecialFunctions.Pow.Real
import Mathlib.Analysis.SpecialFunctions.Log.Basic
import Mathlib.Data.Matrix.Mul
import Mathlib.Data.List.Dedup
import Mathlib.Data.List.Infix
/-
Data of VLT/SPHERE.  Source: /repo/p3/telemetry/sphereUtils.py.  Real arithmetic; the archives of ESO, the reading of FITS and CSV
files and the plots are not modelled.
-/
namespace P3.Sphere

/-! ### Corrupted images -/

/-- Header: the value of a keyword, if present. -/
abbrev Hdr := String → Option ℝ

/-- `read_strehl_value`, sphereUtils.py:739-751: mean, minimum and maximum. -/
def readStrehl (h : Hdr) : Except PyErr (ℝ × ℝ × ℝ) :=
  match h "SRMEAN" with
  | none => .ok (-1, -1, -1)
  | some m => match h "SRMIN" with
    | none => .error .keyError
    | some lo => match h "SRMAX" with
      | none => .error .keyError
      | some hi => .ok (m, lo, hi)

/-- `is_corrupted`, sphereUtils.py:64-65: `a != b + F/ron < c + fwhm > d + mean < e + range > f` is one chain of comparisons
between sums. -/
def corrupted (centre peak F ron fwhm mean lo hi : ℝ) : Prop :=
  centre ≠ peak + F / ron ∧ peak + F / ron < 1e4 + fwhm ∧ 1e4 + fwhm > 2 + mean ∧ 2 + mean < 0.35 + (hi - lo) ∧ 0.35 + (hi - lo) > 0.2

/-- A data folder: is the SPARTA file there, the header and what is measured on the image (44-61). -/
structure Folder where
  name : String
  sparta : Bool
  hdr : Hdr
  centre : ℝ
  peak : ℝ
  flux : ℝ
  ron : ℝ
  fwhm : ℝ

/-- Is the folder moved away?  sphereUtils.py:46-70. -/
noncomputable def isMoved (f : Folder) : Except PyErr Bool :=
  open Classical in
  if f.sparta then
    match readStrehl f.hdr with
    | .error e => .error e
    | .ok (m, lo, hi) => .ok (decide (corrupted f.centre f.peak f.flux f.ron f.fwhm m lo hi))
  else .ok true

/-- `list_corr`, sphereUtils.py:42-71. -/
noncomputable def listCorr : List Folder → Except PyErr (List String)
  | [] => .ok []
  | f :: t => match isMoved f with
    | .error e => .error e
    | .ok b => match listCorr t with
      | .error e => .error e
      | .ok l => .ok (if b then f.name :: l else l)

/-- The disk: each data folder has an identity and contents; `out` is the folder `path_out`, if it exists, as a table of the
identities of what it contains. -/
structure Disk where
  data : String → Option (ℕ × (String → Option ℕ))
  out : Option (String → Option ℕ)

/-- `shutil.move(path_data + name, path_out)`, sphereUtils.py:75: into the folder if it exists (an error if there already is an
entry of this name), renamed to `path_out` otherwise. -/
def move1 (s : Disk) (name : String) : Option Disk :=
  match s.data name with
  | none => none
  | some (i, c) =>
    let data := fun n => if n = name then none else s.data n
    match s.out with
    | none => some ⟨data, some c⟩
    | some o => if (o name).isSome then none else some ⟨data, some fun n => if n = name then some i else o n⟩

/-- The moves one after the other, sphereUtils.py:73-75. -/
def moveAll (s : Disk) : List String → Option Disk
  | [] => some s
  | n :: t => (move1 s n).bind fun s' => moveAll s' t

/-! ### Stack of frames -/

/-- Row and column of the first largest pixel, sphereUtils.py:89. -/
noncomputable def peak (im : Img ℝ) : ℕ × ℕ :=
  let k := Diag.argmax (fun p => im.px (p / im.ny) (p % im.ny)) (im.nx * im.ny - 1)
  (k / im.ny, k % im.ny)

/-- `tmp[a:b, c:d]`. -/
def sub (im : Img ℝ) (a b c d : ℤ) : Img ℝ :=
  ⟨sliceBound im.nx b - sliceBound im.nx a, sliceBound im.ny d - sliceBound im.ny c,
    fun i j => im.px (sliceBound im.nx a + i) (sliceBound im.ny c + j)⟩

/-- One frame of `out`, sphereUtils.py:90. -/
noncomputable def crop (im : Img ℝ) (nPix : ℕ) : Except PyErr (Img ℝ) :=
  let x0 : ℤ := (peak im).1
  let y0 : ℤ := (peak im).2
  let h : ℤ := (nPix / 2 : ℕ)
  assignBlock ⟨nPix, nPix, fun _ _ => 0⟩ 0 nPix 0 nPix (sub im (x0 - h) (x0 + h) (y0 - h) (y0 + h))

/-- The crops of all frames. -/
noncomputable def crops (nPix : ℕ) : List (Img ℝ) → Except PyErr (List (Img ℝ))
  | [] => .ok []
  | im :: t => match crop im nPix with
    | .error e => .error e
    | .ok c => match crops nPix t with
      | .error e => .error e
      | .ok l => .ok (c :: l)

/-- `process_clean_data`, sphereUtils.py:77-98, of a cube with at least one frame; `nd comb name` is `irdis_nd`, which is given the
list of the keyword instead of the name of the filter: `lit` stands for it. -/
noncomputable def processClean {α β : Type} (nd : α → β → ℝ) (lit : β) (frames : List (Img ℝ)) (nPix : ℕ) (dit : ℝ) (comb : α) (_filt : β) :
    Except PyErr (Img ℝ) :=
  match crops nPix frames with
  | .error e => .error e
  | .ok l => .ok ⟨nPix, nPix, fun i j => (l.map fun c => c.px i j).sum / l.length / dit / nd comb lit⟩

/-! ### Telemetry files sorted by date -/

abbrev Name := List Char

/-- `str.split` at one character. -/
def split (c : Char) : Name → List Name
  | [] => [[]]
  | a :: t => if a = c then [] :: split c t else
    match split c t with
    | [] => [[a]]
    | h :: r => (a :: h) :: r

/-- `".fits" in file`, sphereUtils.py:114. -/
def isFits (f : Name) : Bool := decide (['.', 'f', 'i', 't', 's'] <:+: f)

/-- `file.split(".")[1].split("T")[0]`, sphereUtils.py:115. -/
def date (f : Name) : Except PyErr Name :=
  match (split '.' f)[1]? with
  | none => .error .indexError
  | some s => .ok ((split 'T' s).headD [])

/-- The folder of a year: files, by sub-folder and name, and sub-folders. -/
structure Year where
  files : Option Name × Name → Option ℕ
  dirs : Name → Bool

/-- Operations on the disk. -/
inductive Op
  | mkdir (d : Name)
  | mv (f d : Name)
  deriving DecidableEq

/-- One operation, sphereUtils.py:119-127.  `os.mkdir` raises when a file has this name; `os.rename` replaces a file. -/
def step (y : Year) : Op → Option Year
  | .mkdir d => if y.dirs d then some y else if (y.files (none, d)).isSome then none else some { y with dirs := fun e => if e = d then true else y.dirs e }
  | .mv f d => some { y with files := fun p => if p = (some d, f) then y.files (none, f) else if p = (none, f) then none else y.files p }

/-- Operations one after the other; an error leaves what was done before. -/
def run (y : Year) : List Op → Year
  | [] => y
  | o :: t => match step y o with
    | none => y
    | some y' => run y' t

/-- Date of a file with the extension. -/
def dateD (f : Name) : Name := match date f with
  | .ok d => d
  | .error _ => []

/-- The operations for one year, sphereUtils.py:112-127: `ls` is the list of the folder, `order` the order of the distinct dates. -/
def ops (ls : List Name) (order : List Name → List Name) : List Op :=
  let fits := ls.filter isFits
  (order (fits.map dateD)).flatMap fun d => Op.mkdir d :: (fits.filter fun f => dateD f = d).map fun f => Op.mv f d

/-! ### Fit of an image -/

/-- Initial `r0`, sphereUtils.py:203-204. -/
noncomputable def guessR0 (wvl : ℝ) (r0 : Option ℝ) : ℝ := r0.getD (0.16 * (wvl / 500e-9) ^ 2)

/-- Initial variance, sphereUtils.py:205-208; `none` is not finite. -/
noncomputable def guessSig2 (wvl : ℝ) (SR : Option ℝ) : Option ℝ :=
  open Classical in
  match SR with
  | none => some ((2 * Real.pi * 120e-9 / wvl) ^ 2)
  | some s => if 0 < s then some (-Real.log s) else none

/-- `define_initial_guess`, sphereUtils.py:199-217: `F` is the flux (212). -/
noncomputable def initialGuess (wvl : ℝ) (r0 SR : Option ℝ) (F : ℝ) (nModes : ℕ) : List (Option ℝ) :=
  [some (guessR0 wvl r0), some 0, guessSig2 wvl SR, some 1e-2, some 1, some 0, some 1.3, some 0, some 0, some 0,
    some F, some 0, some 0, some 0] ++ List.replicate nModes (some 0)

/-- `dm_cutoff`, sphereUtils.py:233. -/
noncomputable def dmCutoff (nActu : ℕ) (wvl D ps : ℝ) : ℝ := 3600 * 1e3 * 180 / Real.pi * nActu * wvl / D / ps

/-- `define_fixed_parameters`, sphereUtils.py:219-244. -/
noncomputable def fixedParams (nPx : ℕ) (D wvl : ℝ) (nActu : ℕ) (ps : ℝ) (fixC fixShift : Bool) (nModes : ℕ) : List Bool :=
  open Classical in
  [decide ((nPx : ℝ) < dmCutoff nActu wvl D ps), fixC, false, false, false, false, false, true, true, true,
    false, fixShift, fixShift, false] ++ List.replicate nModes false

/-- What `psfFitting` returns (only what is used). -/
structure Fit where
  x : List ℝ
  xerr : List ℝ
  srSky : ℝ
  srFit : ℝ
  fxSky : ℝ
  fySky : ℝ
  fxFit : ℝ
  fyFit : ℝ
  mse : ℝ
  mae : ℝ
  fvu : ℝ

/-- Instrument and image given to the fit. -/
structure Setup where
  nPx : ℕ
  D : ℝ
  wvl : ℝ
  nActu : ℕ
  ps : ℝ
  nModes : ℕ
  flux : ℝ

/-- Output of `fitting_image`: parameters, errors, Strehl ratios, widths, errors of the fit, and the number of fits that ran. -/
structure FitOut where
  x : List ℝ
  xerr : List ℝ
  SR : List ℝ
  FWHM : List ℝ
  err : List ℝ
  nFits : ℕ

/-- `not fit_stat or SR<0.4`, sphereUtils.py:257 and 277: comparing `None` raises. -/
noncomputable def atmOnly (fitStat : Bool) (SR : Option ℝ) : Except PyErr Bool :=
  open Classical in
  if !fitStat then .ok true else match SR with
    | none => .error .typeError
    | some s => .ok (decide (s < 0.4))

/-- `fitting_image`, sphereUtils.py:246-287. -/
noncomputable def fittingImage (psfFitting : List (Option ℝ) → List Bool → Fit) (u : Setup) (r0 SR : Option ℝ) (fitStat fixC : Bool) :
    Except PyErr FitOut :=
  match atmOnly fitStat SR with
  | .error e => .error e
  | .ok atm =>
    let n := if atm then 0 else u.nModes
    let res := psfFitting (initialGuess u.wvl r0 SR u.flux n) (fixedParams u.nPx u.D u.wvl u.nActu u.ps fixC (!atm) n)
    let pad : List ℝ := if atm then List.replicate u.nModes (-1) else []
    .ok { x := res.x ++ pad, xerr := res.xerr ++ pad, SR := [res.srSky, res.srFit],
          FWHM := [res.fxSky, res.fySky, res.fxFit, res.fxFit], err := [res.mse, res.mae, res.fvu],
          nFits := if atm then 2 else 1 }

/-- `update_data_struct`, sphereUtils.py:289-297. -/
def updateRow (data : List ℝ) (o : FitOut) : List ℝ :=
  data ++ (o.x.take 7 ++ o.x.drop 10 ++ o.xerr.take 7 ++ o.xerr.drop 10 ++ o.SR ++ o.FWHM ++ o.err)

/-- Columns describing the observation, sphereUtils.py:303-312. -/
def baseCols : List String :=
  ["TARGET", "OBS ID", "DATE", "EXP TIME", "RA", "DEC", "AIRMASS", "MEAN WAVELENGTH [µm]",
   "BANDWIDTH [µm]", "V MAG", "R MAG", "G MAG", "J MAG", "H MAG", "K MAG",
   "WFS NPH [#photons/aperture/frame]", "WFS frame rate [Hz]", "WFS FILTER", "WFS CENTRAL WAVELENGTH [nm]",
   "WFS SPECTRAL BANDWIDTH [nm]", "WFS COG WINDOW RADIUS [PX]", "LOOP DELAY [FRAME]", "LOOP GAIN",
   "FWHMLINOBS [as]", "tau0 [s]", "wSpeed [m/s]", "wDir [deg]", "RHUM [%]", "PRESSURE",
   "SRMIN", "SRMAX", "SRMEAN", "FWHM [mas]", "MIN SEEING SPARTA [as]",
   "MAX SEEING SPARTA [as]", "MEAN SEEING SPARTA [as]", "MIN WSPEED SPARTA [m/s]",
   "MAX WSPEED SPARTA [m/s]", "MEAN WSPEED SPARTA [m/s]", "MIN SR SPARTA",
   "MAX SR SPARTA", "MEAN SR SPARTA", "PIXEL SCALE [mas]", "gain [e-/ADU]",
   "ron [e-]", "DIT [s]", "NDIT"]

/-- Columns added by the fit, sphereUtils.py:314-322. -/
def fitCols (n : ℕ) : List String :=
  ["FIT R0", "FIT C", "FIT A", "FIT AX", "FIT P", "FIT THETA", "FIT BETA", "FIT F", "FIT DX", "FIT DY", "FIT BKG"]
  ++ (List.range n).map (fun k => "FIT MODE" ++ toString k)
  ++ ["ERR R0", "ERR C", "ERR A", "ERR AX", "ERR P", "ERR THETA", "ERR BETA", "ERR F", "ERR DX", "ERR DY", "ERR BKG"]
  ++ (List.range n).map (fun k => "ERR MODE" ++ toString k)
  ++ ["SR SKY", "SR FIT", "FWHMX SKY", "FWHMY SKY", "FWHMX FIT", "FWHMY FIT"] ++ ["MSE", "MAE", "FVU"]

/-- `define_database_colnames`, sphereUtils.py:299-324. -/
def colNames (fit : Bool) (n : ℕ) : List String := baseCols ++ (if fit then fitCols n else [])

/-- `get_number_modes`, sphereUtils.py:171-177, from the shape of the file. -/
def numberModes (s : ℕ × ℕ × ℕ) : ℕ := s.1

/-- `tel.nModes`, telescope.py:187-193, from the shape of the same file. -/
def telModes (s : ℕ × ℕ × ℕ) : ℕ := if s.1 ≠ s.2.1 then s.1 else s.2.2

/-! ### Tip and tilt removed from a phase, sphereUtils.py:327-361 -/

/-- What `np.linalg.pinv` computes for a real matrix. -/
structure IsPinv {m n : Type} [Fintype m] [Fintype n] (A : Matrix m n ℝ) (X : Matrix n m ℝ) : Prop where
  axa : A * X * A = A
  xax : X * A * X = X
  ax : (A * X).transpose = A * X
  xa : (X * A).transpose = X * A

/-- `H_filter`, sphereUtils.py:337, over the pixels `ι`: column `k` of `M` is the mode `k`. -/
def hFilter {ι κ : Type} [Fintype ι] [DecidableEq ι] [Fintype κ] (M : Matrix ι κ ℝ) (P : Matrix κ ι ℝ) : Matrix ι ι ℝ := 1 - M * P

/-- `remove_tiptilt_from_phase`, sphereUtils.py:347-361: phase and coefficients. -/
def removeTT {ι μ : Type} [Fintype ι] (H : Matrix ι ι ℝ) (P2C : Matrix μ ι ℝ) (phase : ι → ℝ) : (ι → ℝ) × (μ → ℝ) :=
  (H.mulVec phase, P2C.mulVec (H.mulVec phase))

/-! ### Low-wind effect, sphereUtils.py:363-408 -/

/-- `np.std(opd[opd!=0])`, sphereUtils.py:398, over the pixels `pix`; `none` is `nan`. -/
noncomputable def stdNonzero {ι : Type} (pix : List ι) (opd : ι → ℝ) : Option ℝ :=
  open Classical in
  let l := (pix.filter fun i => decide (opd i ≠ 0)).map opd
  if l = [] then none else some (Diag.std l)

/-- One row: the coefficients without tip-tilt (if asked for) and the error, sphereUtils.py:388-403; `modes` are the masked modes. -/
noncomputable def lweRow {ι μ : Type} [Fintype ι] [Fintype μ] (pix : List ι) (modes : Matrix ι μ ℝ) (tt : Option (Matrix ι ι ℝ × Matrix μ ι ℝ))
    (c : μ → ℝ) : Except PyErr (Option (μ → ℝ) × Option ℝ) :=
  open Classical in
  if ∃ k, c k ≠ 0 then
    let opd := modes.mulVec c
    match tt with
    | none => .ok (none, stdNonzero pix opd)
    | some (H, P2C) => .ok (some (removeTT H P2C opd).2, stdNonzero pix (removeTT H P2C opd).1)
  else match tt with
    | none => .error .unboundLocal
    | some _ => .ok (some fun _ => -1, some (-1))

/-! ### Wave-front sensor and loop -/

/-- `define_wfs_wavelength`, sphereUtils.py:549-560; any other filter returns `None`. -/
def wfsWavelength (filt : String) : Option (ℕ × ℕ) :=
  if filt = "OPEN" then some (700, 450)
  else if filt = "LP_780" then some (840, 120)
  else if filt = "LP_475" then some (700, 400)
  else none

/-- `define_wfs_window`, sphereUtils.py:562-572: the third branch has no `return`. -/
noncomputable def wfsWindow (g : ℝ) : ℝ :=
  open Classical in if g < 8 then 3 else if g < 10 then 2 else 1

/-- `define_loop_delay`, sphereUtils.py:574-583. -/
noncomputable def loopDelay (rate : ℝ) : ℕ :=
  open Classical in if rate < 333 then 1 else if rate < 667 then 2 else 3

/-- `define_loop_gain`, sphereUtils.py:585-598; `none` is `None`. -/
noncomputable def loopGain (g : ℝ) : Option ℝ :=
  open Classical in
  if g ≤ 6 then some 0.4 else if g < 8 then some 0.35 else if g < 10 then some 0.25 else if g < 10.5 then some 0.2
  else if g < 11.3 then some 0.6 else none

/-- `grab_wfs_parameters`, sphereUtils.py:538-547: unpacking `None` raises `TypeError`. -/
noncomputable def grabWfs (filt : String) (g rate : ℝ) : Except PyErr (String × ℕ × ℕ × ℝ × ℕ × Option ℝ) :=
  match wfsWavelength filt with
  | none => .error .typeError
  | some (w, b) => .ok (filt, w, b, wfsWindow g, loopDelay rate, loopGain g)

/-! ### SPARTA data -/

/-- `np.argmin(f(0), ..., f(n))`. -/
noncomputable def argmin (f : ℕ → ℝ) (n : ℕ) : ℕ := Diag.argmax (fun i => -f i) n

/-- `find_closest`, sphereUtils.py:651-658, for the `n + 1` dates `t` in seconds. -/
noncomputable def findClosest (t : ℕ → ℝ) (n : ℕ) (date texp : ℝ) : ℕ × ℕ :=
  let c := argmin (fun i => |t i - date|) n
  (argmin (fun i => |t i - (t c - texp / 2)|) n, argmin (fun i => |t i - (t c + texp / 2)|) n)

/-- What is in the night's table, if there is one. -/
structure Table where
  n : ℕ
  t : ℕ → ℝ
  flux : Option (ℕ → ℝ)
  rate : Option (ℕ → ℝ)

/-- `df[id_min:id_max+1].median()`; `none` is `nan`. -/
noncomputable def window (f : ℕ → ℝ) (n : ℕ) (w : ℕ × ℕ) : Option ℝ :=
  let l := (((List.range (n + 1)).take (w.2 + 1)).drop w.1).map f
  if l = [] then none else some (Metrics.median l)

/-- `read_sparta_data`, sphereUtils.py:618-681, with `which='last'`: `sparta` is the table of the last line if the file exists, `tab` the
table of the night if there is one; the number of photons and the rate are `nan` (`none`) otherwise.  Without the file the function
raises, here always `UnboundLocalError`; when there is a folder for the night, reading the header raises before. -/
noncomputable def readSparta {σ : Type} (sparta : Option σ) (tab : Option Table) (date texp : ℝ) (nSubap : ℕ) :
    Except PyErr (σ × Option ℝ × Option ℝ) :=
  match sparta with
  | none => .error .unboundLocal
  | some s => match tab with
    | none => .ok (s, none, none)
    | some T =>
      let w := findClosest T.t T.n date texp
      match T.flux, T.rate with
      | none, some _ => .error .unboundLocal
      | some fl, r => .ok (s, (window fl T.n w).map (· / nSubap), r.bind fun g => window g T.n w)
      | none, none => .ok (s, none, none)

/-! ### Headers -/

/-- A value in a header. -/
inductive Val | float (x : ℝ) | int (n : ℤ) | str (s : String)

/-- `get_temperature`, sphereUtils.py:790-803: keywords containing `TEMP` with a `float`. -/
noncomputable def temperatures (isTemp : String → Bool) (hdr : List (String × Val)) : List (ℝ × String) :=
  hdr.filterMap fun kv => if isTemp kv.1 then match kv.2 with
    | .float x => some (x, kv.1)
    | _ => none else none

/-- `ron` and pixel scale of `get_detector_config`, sphereUtils.py:717-737. -/
noncomputable def detector (pixscal : Option ℝ) (ron : ℝ) : ℝ × ℝ :=
  open Classical in (pixscal.getD 12.25, if ron = 0 then 4 else ron)

/-- `get_date`, sphereUtils.py:753-763. -/
def getDate (d : Name) : Name × Name := (d.take 10, d.drop 11)

/-- Line of sight seeing given to the model, sphereUtils.py:186-188. -/
noncomputable def seeingUsed (s : ℝ) : ℝ := open Classical in if s < 0 then 0.7 else s

end P3.Sphere
