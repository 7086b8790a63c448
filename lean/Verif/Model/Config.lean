import Verif.Model.Py
import Verif.Model.Paths
import Mathlib.Algebra.Order.Floor.Ring
import Mathlib.Data.Rat.Floor
/-
Model of the parameter-file handling of `aoSystem`.
Source: /repo/p3/aoSystem/aoSystem.py lines 30-1000, source.py 35-89, sensor.py 21-58,
detector.py 16-55, deformableMirror.py 27-90, rtc.py 15-33.

Simplifications (all stated again where they apply):
* numbers of the parameter file are rationals; lists are lists of rationals, and one level of nesting;
* an option that should hold a numeric list (number) and holds something else is a `TypeError` at its
  first use;
* reading FITS files and the numerical constructors of `telescope`/`atmosphere` are assumed to succeed;
* `errorBreakdown` (called last, aoSystem.py:842-843) is modelled in `Verif/Model/Breakdown.lean`.
-/
namespace P3.Config
open P3.Paths (Str)

/-- A value of the parsed parameter map (aoSystem.py:54-62 `_parse_config_value`, or YAML). -/
inductive Val
  | int (z : ℤ) | flt (q : ℚ) | str (s : String) | none
  | lst (l : List ℚ) | mat (l : List (List ℚ))
  deriving DecidableEq

/-- `self.my_data_map`: section -> option -> value (aoSystem.py:140-150). -/
abbrev Map := String → Option (String → Option Val)

/-- `check_section_key`, aoSystem.py:42-43. -/
def hasSec (m : Map) (s : String) : Bool := (m s).isSome

/-- `check_config_key` + `get_config_value`, aoSystem.py:45-52: `none` when the section or the option
is absent. -/
def get (m : Map) (s o : String) : Option Val := (m s).bind (fun f => f o)

/-- `self.my_data_map[s][o] = v` for an existing section (aoSystem.py:761). -/
def put (m : Map) (s o : String) (v : Val) : Map :=
  fun s' => if s' = s then (m s).map (fun f o' => if o' = o then some v else f o') else m s'

/-- Exceptions: the `ValueError`s raised by P3's own checks, or another Python exception. -/
inductive Err
  | missingSection (s : String)                     -- aoSystem.py:34-36
  | missingOption (s o : String)                    -- aoSystem.py:30-32
  | notSameLength (s : String) (opts : List String) -- aoSystem.py:38-40
  | badZenith                                       -- aoSystem.py:183
  | badWeights                                      -- aoSystem.py:362
  | fileNotFound (o : String)                       -- aoSystem.py:204 ... 332
  | badPrecision                                    -- telescope.py:98
  | dmSizes                                         -- deformableMirror.py:52
  | badFov                                          -- aoSystem.py:92, 102
  | dispersion                                      -- detector.py:43
  | py (e : PyErr)
  deriving DecidableEq

/-- `isinstance(e, ValueError)`. -/
def Err.isValueError : Err → Bool
  | .py .broadcast => true
  | .py .ambiguous => true
  | .py _ => false
  | _ => true

/-- `template.format(*args)` for the two-field template of aoSystem.py:39; `none` is the
`IndexError` raised when there are fewer than two arguments. -/
def format2 (pre mid post : String) (args : List String) : Option String :=
  match args with
  | a :: b :: _ => some (pre ++ a ++ mid ++ b ++ post)
  | _ => none

/-- Message of `raiseNotSameLength(sec, opt)`, aoSystem.py:38-40: `.format(*opt, sec)`. -/
def notSameLengthMsg (sec : String) (opt : List String) : Option String :=
  format2 "'" "' in section '" "' must have the same length" (opt ++ [sec])

/-- Message of `raiseMissingRequiredOpt(sec, opt)`, aoSystem.py:30-32: `.format(opt, sec)`. -/
def missingOptMsg (sec opt : String) : Option String :=
  format2 "'" "' is missing from section '" "'" [opt, sec]

/-- A numeric option with default (pattern of aoSystem.py:180-186, ...). -/
def numOpt (m : Map) (s o : String) (d : ℚ) : Except Err ℚ :=
  match get m s o with
  | none => .ok d
  | some (.int z) => .ok z
  | some (.flt q) => .ok q
  | some _ => .error (.py .typeError)

/-- A list option with default (pattern of aoSystem.py:358-379, ...). -/
def lstOpt (m : Map) (s o : String) (d : List ℚ) : Except Err (List ℚ) :=
  match get m s o with
  | none => .ok d
  | some (.lst l) => .ok l
  | some _ => .error (.py .typeError)

/-- A required wavelength passed through `np.atleast_1d` (aoSystem.py:399-402, 444-448, 852-855). -/
def wvlOpt (m : Map) (s : String) : Except Err (List ℚ) :=
  match get m s "Wavelength" with
  | none => .error (.missingOption s "Wavelength")
  | some (.int z) => .ok [(z : ℚ)]
  | some (.flt q) => .ok [q]
  | some (.lst l) => .ok l
  | some _ => .error (.py .typeError)

/-- What the outside world provides: the file system, installation paths, and the constructor
arguments of `aoSystem` (aoSystem.py:107-121).  `auto` is the automatic field of view
(aoSystem.py:64-81, modelled over the reals in `Verif/Model/FieldOfView.lean`) as a function of
wavelengths, pixel scale and pitches; `coo` is the pair (zenith, azimuth) of arrays computed from
`coo_stars` by `hypot`/`arctan2` (aoSystem.py:460-462). -/
structure Env where
  isfile : Str → Bool
  root : Str
  p3 : Str
  tiptop : Option Str
  getPSDatNGS : Bool
  psdExpansion : Bool
  coo : Option (List ℚ × List ℚ)
  auto : List ℚ → ℚ → List ℚ → ℕ

/-- An optional file option: `PathX = resolve_path(...)`; `if path and not isfile(path): raise`
(aoSystem.py:200-206 and the six similar blocks).  Only string values (and falsy `None`) are
modelled as valid. -/
def fileOpt (env : Env) (m : Map) (s o : String) : Except Err Unit :=
  match get m s o with
  | none => .ok ()
  | some .none => .ok ()
  | some (.str v) =>
    let p := Paths.resolve env.isfile v.toList env.root env.p3 env.tiptop
    require (p = [] ∨ env.isfile p = true) (.fileNotFound o)
  | some _ => .error (.py .typeError)

/-- Telescope part of the constructor, aoSystem.py:158-334, with the precision check of
telescope.py:91-98. Returns the zenith angle. The file checks at 200-257 come before the telescope is
built; `windPsdFile` (329-334) after. -/
def telescopeStage (env : Env) (m : Map) : Except Err ℚ := do
  require (hasSec m "telescope" = true) (.missingSection "telescope")          -- 172-173
  require ((get m "telescope" "TelescopeDiameter").isSome = true)
    (.missingOption "telescope" "TelescopeDiameter")                           -- 175-178
  let z ← numOpt m "telescope" "ZenithAngle" 0                                 -- 180-186
  require (z < 90) .badZenith
  fileOpt env m "telescope" "PathPupil"                                        -- 200-206
  fileOpt env m "telescope" "PathStaticOn"                                     -- 213-219
  fileOpt env m "telescope" "PathStaticOff"                                    -- 226-232
  fileOpt env m "telescope" "PathStaticPos"                                    -- 234-240
  fileOpt env m "telescope" "PathApodizer"                                     -- 243-249
  fileOpt env m "telescope" "PathStatModes"                                    -- 252-258
  match get m "COMPUTATION" "precision" with                                   -- 158-159
  | none => pure ()
  | some (.str p) => require (p.toLower = "single" ∨ p.toLower = "double") .badPrecision
  | some _ => throw .badPrecision                                              -- str(v) of a number
  fileOpt env m "telescope" "windPsdFile"                                      -- 328-334
  pure z

/-- The turbulence profile handed to `atmosphere`. -/
structure Profile where
  weights : List ℚ
  heights : List ℚ
  wSpeed : List ℚ
  wDir : List ℚ
  deriving DecidableEq

/-- Atmosphere part, aoSystem.py:337-393. -/
def atmosphereStage (m : Map) : Except Err Profile := do
  require (hasSec m "atmosphere" = true) (.missingSection "atmosphere")        -- 337-338
  let _ ← numOpt m "atmosphere" "Wavelength" (1/2000000)                       -- 340-343
  match get m "atmosphere" "Seeing" with                                       -- 345-352
  | some _ => do
    let s ← numOpt m "atmosphere" "Seeing" 1
    require (s ≠ 0) (.py .zeroDivision)
  | none =>
    require ((get m "atmosphere" "r0_value").isSome = true)
      (.missingOption "atmosphere" "Seeing")
  let w ← lstOpt m "atmosphere" "Cn2Weights" [1]                               -- 359-364
  require (¬ |w.sum - 1| > 1/1000) .badWeights
  let h ← lstOpt m "atmosphere" "Cn2Heights" [0]                               -- 366-369
  let v ← lstOpt m "atmosphere" "WindSpeed" [10]                               -- 371-374
  let d ← lstOpt m "atmosphere" "WindDirection" (v.map (· * 0))                -- 376-379
  require (w.length = h.length ∧ h.length = v.length ∧ v.length = d.length)
    (.notSameLength "atmosphere" ["Cn2Weights","Cn2Heights","WindSpeed","WindDirection"]) -- 382-384
  pure ⟨w, h, v, d⟩

/-- Attributes of a `source` object (source.py:35-89); `height` is one value per source. -/
structure Src (α : Type) where
  wvl : List α
  zenith : List α
  azimuth : List α
  height : List α
  nSrc : ℕ
  nWvl : ℕ

/-- `source.__init__`, source.py:35-89, for list arguments and a scalar height (the scalar
arguments of l. 39-46 become one-element lists). `x[0]*np.ones(n)` is `n` copies of `x[0]`. -/
def mkSource {α : Type} (wvl zenith azimuth : List α) (height : α) : Src α :=
  let (n, z, a) :=
    match zenith, azimuth, wvl with
    | [z], [a], [_] => (1, [z], [a])                                           -- 60-61
    | [z], as, [_] => (as.length, List.replicate as.length z, as)              -- 62-64
    | zs, [a], [_] => (zs.length, zs, List.replicate zs.length a)              -- 65-67
    | zs, as, _ => (zs.length, zs, as)                                         -- 68-69
  let (w, nw) :=
    match wvl with
    | [w] => if n > 1 then (List.replicate n w, 1) else ([w], 1)               -- 72-78
    | ws => (ws, ws.length)
  { wvl := w, zenith := z, azimuth := a, height := List.replicate n height,    -- 80-83
    nSrc := n, nWvl := nw }

/-- High-order guide stars, aoSystem.py:396-433: wavelength, zenith, azimuth, height. -/
def hoStage (m : Map) : Except Err (List ℚ × List ℚ × List ℚ × ℚ) := do
  require (hasSec m "sources_HO" = true) (.missingSection "sources_HO")        -- 396-397
  let w ← wvlOpt m "sources_HO"                                                -- 399-402
  let z ← lstOpt m "sources_HO" "Zenith" [0]                                   -- 404-407
  let a ← lstOpt m "sources_HO" "Azimuth" [0]                                  -- 409-412
  let h ← numOpt m "sources_HO" "Height" 0                                     -- 414-417
  require (z.length = a.length) (.notSameLength "sources_HO" ["Azimuth","Zenith"]) -- 420-421
  pure (w, z, a, h)

/-- Low-order guide stars, `configLO`, aoSystem.py:846-865: `none` without the section. `Zenith` and
`Azimuth` are read with `get_config_value`, so their absence is a `KeyError`. -/
def loStage (m : Map) : Except Err (Option (Src ℚ)) :=
  if hasSec m "sources_LO" = true then do
    let w ← wvlOpt m "sources_LO"
    require ((get m "sources_LO" "Zenith").isSome = true) (.py .keyError)
    let z ← lstOpt m "sources_LO" "Zenith" []
    require ((get m "sources_LO" "Azimuth").isSome = true) (.py .keyError)
    let a ← lstOpt m "sources_LO" "Azimuth" []
    require (z.length = a.length) (.notSameLength "sources_LO" ["Zenith","Azimuth"])
    pure (some (mkSource w z a 0))
  else pure none

/-- `zenithSrc + LO`, aoSystem.py:468-470: Python list concatenation when the science positions
are a list, numpy element-wise addition when they come from `coo_stars`. -/
def addLO (isArray : Bool) (sci lo : List ℚ) : Except Err (List ℚ) :=
  if isArray then
    match bcast (· + ·) sci lo with
    | .ok l => .ok l
    | .error e => .error (.py e)
  else .ok (sci ++ lo)

/-- Science sources, aoSystem.py:441-475. -/
def sciStage (env : Env) (m : Map) : Except Err (Src ℚ × List ℚ) := do
  require (hasSec m "sources_science" = true) (.missingSection "sources_science")
  let w ← wvlOpt m "sources_science"
  let z0 ← lstOpt m "sources_science" "Zenith" [0]
  let a0 ← lstOpt m "sources_science" "Azimuth" [0]
  let z := match env.coo with | some c => c.1 | none => z0                     -- 460-462
  let a := match env.coo with | some c => c.2 | none => a0
  require (z.length = a.length) (.notSameLength "sources_science" ["Zenith","Azimuth"])
  if env.getPSDatNGS = true ∧ (get m "sources_LO" "Wavelength").isSome = true then do
    require ((get m "sources_LO" "Zenith").isSome = true) (.py .keyError)
    let zl ← lstOpt m "sources_LO" "Zenith" []
    let z' ← addLO env.coo.isSome z zl
    require ((get m "sources_LO" "Azimuth").isSome = true) (.py .keyError)
    let al ← lstOpt m "sources_LO" "Azimuth" []
    let a' ← addLO env.coo.isSome a al
    pure (mkSource w z' a' 0, w)
  else pure (mkSource w z a 0, w)

/-- Length of the spectral lists read by `detector` (`len(dispersion[0])`, `len(transmittance)`,
detector.py:42). -/
def spectralCheck (m : Map) (s : String) : Except Err Unit := do
  let tr ← lstOpt m s "Transmittance" [1]
  let d ← (match get m s "Dispersion" with
    | none => .ok 1
    | some (.mat (r :: _)) => .ok r.length
    | some (.mat []) => .error (.py .indexError)
    | some (.lst []) => .error (.py .indexError)
    | some _ => .error (.py .typeError) : Except Err ℕ)
  require (d = tr.length) .dispersion

/-- Number of entries of the photon list after sensor.py:39-48: a `float` becomes a one-element
list, an `int` has no `len`, and a list that is too short gets ONE more entry (`append`, not `extend`). -/
def nphLen (v : Option Val) (nWfs : ℕ) : Except Err ℕ :=
  let pad (n : ℕ) : ℕ := if n < nWfs then n + 1 else n
  match v with
  | none => .ok (pad 1)
  | some .none => .ok (pad 1)
  | some (.flt _) => .ok (pad 1)
  | some (.lst l) => .ok (pad l.length)
  | some _ => .error (.py .typeError)

/-- Construction of one wavefront sensor section: required options (aoSystem.py:481-491 or
869-879) and `sensor.__init__` (sensor.py:21-58) with its detectors.
`nLdefault` is `[20]` (HO, l. 561) or `[1]` (LO, l. 933); `sizes` says whether `SizeLenslets` is read
(HO only).  Returns the number of WFS. -/
def wfsStage (m : Map) (s : String) (nLdefault : List ℚ) (sizes : Bool) : Except Err ℕ := do
  require ((get m s "PixelScale").isSome = true) (.missingOption s "PixelScale")
  require ((get m s "FieldOfView").isSome = true) (.missingOption s "FieldOfView")
  let nL ← lstOpt m s "NumberLenslets" nLdefault
  let dsub ← if sizes then lstOpt m s "SizeLenslets" nL else pure nL
  require (nL.length ≤ dsub.length) (.py .indexError)                          -- sensor.py:33
  let n ← nphLen (get m s "NumberPhotons") nL.length                           -- sensor.py:39-48
  if nL.length = 0 then pure 0
  else do
    spectralCheck m s                                                          -- detector of k = 0
    require (nL.length ≤ n) (.py .indexError)                                  -- nph[k]
    pure nL.length

/-- Is the option given for the tip-tilt loop: present, not `None`, and for the gain not `'optimize'`,
aoSystem.py:632-651. -/
def givenLO (m : Map) (o : String) : Bool := match get m "RTC" o with
  | none => false
  | some .none => false
  | some (.str s) => s ≠ "optimize" ∨ o ≠ "LoopGain_LO"
  | some _ => true

/-- Real-time computer options, aoSystem.py:618-655: HO gain and whether the tip-tilt loop exists
(rtc.py:28). -/
def rtcStage (m : Map) : Except Err (ℚ × Bool) := do
  let g ← numOpt m "RTC" "LoopGain_HO" (1/2)
  let _ ← numOpt m "RTC" "SensorFrameRate_HO" 500
  let _ ← numOpt m "RTC" "LoopDelaySteps_HO" 2
  pure (g, givenLO m "LoopGain_LO" && givenLO m "SensorFrameRate_LO" && givenLO m "LoopDelaySteps_LO")

/-- Attributes of `deformableMirror` that matter downstream. -/
structure DM where
  pitch : List ℚ
  heights : List ℚ
  coupling : List ℚ
  nRecLayers : ℚ
  deriving DecidableEq

/-- Padding of the mechanical coupling list, deformableMirror.py:56-64. -/
def padCoupling (c : List ℚ) (nDMs : ℕ) : Except Err (List ℚ) :=
  if c.length < nDMs then
    match c with
    | [] => .error (.py .indexError)
    | x :: _ => .ok (List.replicate nDMs x)
  else .ok (c.take nDMs)

/-- Deformable mirrors, aoSystem.py:660-742 and deformableMirror.py:27-90. When `NumberActuators` is
absent it is computed from heights and pitches by numpy broadcasting (aoSystem.py:679-684); when it is a
number it is a one-element list (deformableMirror.py:42-43). Returns also the pitches. -/
def dmStage (m : Map) : Except Err DM := do
  require (hasSec m "DM" = true) (.missingSection "DM")                        -- 660-661
  require ((get m "DM" "DmPitchs").isSome = true) (.missingOption "DM" "DmPitchs") -- 663-668
  let p ← lstOpt m "DM" "DmPitchs" []
  require ((get m "DM" "DmHeights").isSome = true ∨ ¬ p.length > 1)
    (.missingOption "DM" "DmHeights")                                          -- 670-677
  let h ← lstOpt m "DM" "DmHeights" [0]
  let nA ← (match get m "DM" "NumberActuators" with
    | none => match bcast (fun (_ _ : ℚ) => ()) h p with                       -- 682-684
      | .ok l => .ok l.length
      | .error e => .error (.py e)
    | some (.int _) => .ok 1
    | some (.flt _) => .ok 1
    | some (.lst l) => .ok l.length
    | some _ => .error (.py .typeError) : Except Err ℕ)
  let c ← lstOpt m "DM" "InfCoupling" [1/5]
  let w ← lstOpt m "DM" "OptimizationWeight" [0]
  let a ← lstOpt m "DM" "OptimizationAzimuth" [0]
  let z ← lstOpt m "DM" "OptimizationZenith" [0]
  require (z.length = a.length ∧ z.length = w.length)
    (.notSameLength "DM" ["OptimizationZenith","OptimizationAzimuth","OptimizationWeight"]) -- 712-714
  let nrec ← numOpt m "DM" "NumberReconstructedLayers" 10                      -- 721-724
  require (nA = p.length ∧ h.length = p.length) .dmSizes                       -- deformableMirror.py:51-53
  let c' ← padCoupling c p.length
  pure ⟨p, h, c', nrec⟩

/-- `get_science_field_of_view`, aoSystem.py:83-105. `np.isclose(x, -1.0)` is
`|x + 1| <= 1e-8 + 1e-5`. Numeric strings (accepted by Python's `float`) are not modelled. -/
def scienceFov (env : Env) (m : Map) (wvl : List ℚ) (ps : ℚ) (pitch : List ℚ) : Except Err ℤ :=
  let go (q : ℚ) : Except Err ℤ :=
    if |q + 1| ≤ 1/100000000 + 1/100000 then .ok (env.auto wvl ps pitch)
    else if q > 0 then .ok ⌈q⌉
    else .error .badFov
  match get m "sensor_science" "FieldOfView" with
  | none => .error (.missingOption "sensor_science" "FieldOfView")
  | some (.int z) => go z
  | some (.flt q) => go q
  | some _ => .error .badFov

/-- `np.max(wvl)/np.min(wvl)` rounded up (aoSystem.py:760); lists of at least two wavelengths. -/
def wvlRatio (wvl : List ℚ) : ℤ :=
  match wvl with
  | [] => 1
  | x :: xs => ⌈xs.foldl max x / xs.foldl min x⌉

/-- Science detector, aoSystem.py:745-823: field of view and the updated parameter map. -/
def camStage (env : Env) (m : Map) (wvl pitch : List ℚ) : Except Err (ℤ × Map) := do
  require (hasSec m "sensor_science" = true) (.missingSection "sensor_science")
  require ((get m "sensor_science" "PixelScale").isSome = true)
    (.missingOption "sensor_science" "PixelScale")
  let ps ← numOpt m "sensor_science" "PixelScale" 1
  let f0 ← scienceFov env m wvl ps pitch                                       -- 758
  let f := if env.psdExpansion = true ∧ wvl.length > 1 then f0 * wvlRatio wvl else f0  -- 759-760
  let m' := put m "sensor_science" "FieldOfView" (.int f)                      -- 761
  spectralCheck m' "sensor_science"                                            -- detector.py:42
  pure (f, m')

/-- The five AO modes. -/
inductive Mode | SCAO | SLAO | GLAO | LTAO | MCAO
  deriving DecidableEq, Repr

/-- AO mode, aoSystem.py:826-839. `lgs = none` when there is no laser guide star. -/
def aoMode (lgs : Option (Src ℚ)) (nDMs : ℕ) (nRec : ℚ) : Mode :=
  match lgs with
  | none => .SCAO
  | some l =>
    if l.nSrc > 1 then
      if nDMs > 1 then .MCAO
      else if nRec > 1 then .LTAO
      else .GLAO
    else .SLAO

/-- The attributes set on the `aoSystem` object. -/
structure System where
  map : Map
  zenithAngle : ℚ
  profile : Profile
  lgs : Option (Src ℚ)
  ngs : Option (Src ℚ)
  src : Src ℚ
  nWfs : ℕ
  nTts : Option ℕ
  gainHO : ℚ
  ttloop : Bool
  dms : DM
  fov : ℤ
  mode : Mode

/-- `configLO_SC`, aoSystem.py:439-843: (re)builds everything after the guide stars, on the current
parameter map. -/
def configLO_SC (env : Env) (m : Map) (z : ℚ) (prof : Profile) (lgs ngs : Option (Src ℚ)) :
    Except Err System := do
  let (src, wvl) ← sciStage env m                                              -- 441-475
  require (hasSec m "sensor_HO" = true) (.missingSection "sensor_HO")          -- 478-479
  let nWfs ← wfsStage m "sensor_HO" [20] true                                  -- 481-606
  let nTts ← (if hasSec m "sensor_LO" = true then
      (wfsStage m "sensor_LO" [1] false).map some else pure none : Except Err (Option ℕ)) -- 608-611
  let (g, tt) ← rtcStage m                                                     -- 615-655
  let dm ← dmStage m                                                           -- 657-742
  let (fov, m') ← camStage env m wvl dm.pitch                                  -- 744-823
  pure { map := m', zenithAngle := z, profile := prof, lgs := lgs, ngs := ngs, src := src,
         nWfs := nWfs, nTts := nTts, gainHO := g, ttloop := tt, dms := dm, fov := fov,
         mode := aoMode lgs dm.pitch.length dm.nRecLayers }

/-- `aoSystem.__init__`, aoSystem.py:118-437, from the parsed map on. The guide stars are NGS only when their
height is 0 and there is no `sources_LO` section (426-435); `configLO` then defines the NGS (437).
The height is recorded without the factor `airmass` (real-valued, l. 434). -/
def construct (env : Env) (m : Map) : Except Err System := do
  let z ← telescopeStage env m
  let prof ← atmosphereStage m
  let (w, zs, as, h) ← hoStage m
  let isNgs := h = 0 ∧ ¬ hasSec m "sources_LO" = true
  let lgs := if isNgs then none else some (mkSource w zs as h)
  let ngs0 := if isNgs then some (mkSource w zs as 0) else none
  let lo ← loStage m
  let ngs := match lo with | some s => some s | none => ngs0
  configLO_SC env m z prof lgs ngs

/-- Calling `configLO_SC` again on an already built object (as TIPTOP does), aoSystem.py:439. -/
def reconfigure (env : Env) (s : System) : Except Err System :=
  configLO_SC env s.map s.zenithAngle s.profile s.lgs s.ngs

/-- Threshold given to the low-order sensor, aoSystem.py:958-961: the key looked up is the string
`'ThresholdWCoG = 0.0'`. -/
def loThreshold (m : Map) : Val :=
  match get m "sensor_LO" "ThresholdWCoG = 0.0" with
  | some v => v
  | none => .flt 0

/-- Threshold given to the high-order sensor, aoSystem.py:581-584. -/
def hoThreshold (m : Map) : Val :=
  match get m "sensor_HO" "ThresholdWCoG" with
  | some v => v
  | none => .flt 0

end P3.Config
