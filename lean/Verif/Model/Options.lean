import Verif.Model.Config
/-
Model of the way the options of the parameter file reach the objects of the AO system: the blocks
`if self.check_config_key(...) ... else <default>` of aoSystem.py, the keyword arguments of the calls
and the constructors telescope.py:55-84, atmosphere.py:85-125, sensor.py:21-58, optics.py:15-24,
detector.py:16-55, processing.py:16-26, rtc.py:15-33 and deformableMirror.py:27-90.

Simplifications: values are those of `Config.Val`; the conversion of a list to an array keeps the value;
a division by a null number of lenslets (an infinite size in numpy) is 0 here.
-/
namespace P3.Options
open P3.Config
open P3.Paths (Str)

/-- What an attribute holds: a value of the file, or one of the defaults that the file syntax of
`Config.Val` does not express: `np.inf`, `[np.inf]` (aoSystem.py:506), `[None]` (aoSystem.py:569). -/
inductive Arg
  | val (v : Val) | inf | infs | nones
  deriving DecidableEq

/-- The pattern `if check_config_key(s,o): x = get_config_value(s,o) else: x = d`, e.g.
aoSystem.py:493-496. -/
def opt (m : Map) (s o : String) (d : Arg) : Arg :=
  match get m s o with
  | some v => .val v
  | none => d

/-- Shorthand for a float default. -/
def num (q : ℚ) : Arg := .val (.flt q)

/-- The telescope diameter, aoSystem.py:175-178. -/
def diameter (m : Map) : Except Err ℚ := do
  require ((get m "telescope" "TelescopeDiameter").isSome = true)
    (.missingOption "telescope" "TelescopeDiameter")
  numOpt m "telescope" "TelescopeDiameter" 0

/-! ### Detectors -/

/-- Keyword arguments of `detector`, detector.py:16-19. -/
structure DetectorArgs where
  pixel_scale : Arg
  fov : Arg
  binning : Arg
  spotFWHM : Arg
  saturation : Arg
  nph : Arg
  bandwidth : Arg
  transmittance : Arg
  dispersion : Arg
  ron : Arg
  gain : Arg
  dark : Arg
  sky : Arg
  excess : Arg
  tag : Arg

/-- Attributes of a `detector`, detector.py:21-54. -/
structure Detector where
  psInMas : Arg
  fovInPix : Arg
  fovInArcsec : List ℚ
  spotFWHM : Arg
  saturation : Arg
  bandwidth : Arg
  transmittance : Arg
  dispersion : Arg
  nWvl : ℕ
  nph : Arg
  ron : Arg
  dark : Arg
  sky : Arg
  excess : Arg
  gain : Arg
  binning : Arg
  tag : Arg

/-- A number or a list of numbers: `isinstance(x, list)` is the second component of the sum. -/
def scalarOrList : Arg → Except Err (ℚ ⊕ List ℚ)
  | .val (.int z) => .ok (.inl z)
  | .val (.flt q) => .ok (.inl q)
  | .val (.lst l) => .ok (.inr l)
  | _ => .error (.py .typeError)

/-- `fovInArcsec`, detector.py:26-33; a scalar result is a one-element list here. -/
def fovArcsec (ps fov : Arg) : Except Err (List ℚ) := do
  match ← scalarOrList ps, ← scalarOrList fov with
  | .inr p, .inr f =>
    require (f.length ≤ p.length) (.py .indexError)
    pure (List.zipWith (fun p f => p * f / 1000) p f)
  | .inl p, .inr f => pure (f.map fun f => p * f / 1000)
  | .inr p, .inl f => pure (p.map fun p => p * f / 1000)
  | .inl p, .inl f => pure [p * f / 1000]

/-- `len(transmittance)`. -/
def lenOf : Arg → Except Err ℕ
  | .val (.lst l) => .ok l.length
  | _ => .error (.py .typeError)

/-- `len(dispersion[0])`. -/
def lenOfFirst : Arg → Except Err ℕ
  | .val (.mat (r :: _)) => .ok r.length
  | .val (.mat []) => .error (.py .indexError)
  | .val (.lst []) => .error (.py .indexError)
  | _ => .error (.py .typeError)

/-- `detector.__init__`, detector.py:16-54. -/
def detector (a : DetectorArgs) : Except Err Detector := do
  let arcsec ← fovArcsec a.pixel_scale a.fov                                   -- 26-33
  let tr ← lenOf a.transmittance
  let d ← lenOfFirst a.dispersion
  require (d = tr) .dispersion                                                 -- 42-43
  pure { psInMas := a.pixel_scale, fovInPix := a.fov, fovInArcsec := arcsec, spotFWHM := a.spotFWHM,
         saturation := a.saturation, bandwidth := a.bandwidth, transmittance := a.transmittance,
         dispersion := a.dispersion, nWvl := tr, nph := a.nph, ron := a.ron, dark := a.dark,
         sky := a.sky, excess := a.excess, gain := a.gain, binning := a.binning, tag := a.tag }

/-! ### Wavefront sensors -/

/-- Attributes of an `optics` object, optics.py:15-24; `nSides` keeps its default. -/
structure Optics where
  nL : ℚ
  dsub : ℚ
  nSides : ℕ
  wfstype : Arg
  modulation : Arg

/-- Keyword arguments of `sensor`, sensor.py:21-25 (`nSides` and `clock_rate` are never given). -/
structure SensorArgs where
  pixel_scale : Arg
  fov : Arg
  binning : Arg
  spotFWHM : Arg
  nph : Arg
  bandwidth : Arg
  transmittance : Arg
  dispersion : Arg
  gain : Arg
  ron : Arg
  sky : Arg
  dark : Arg
  excess : Arg
  nL : List ℚ
  dsub : List ℚ
  wfstype : Arg
  modulation : Arg
  noiseVar : Arg
  algorithm : Arg
  algo_param : List Arg
  tag : String

/-- Attributes of a `sensor`, sensor.py:27-58, with those of its `processing` (processing.py:19-21). -/
structure Sensor where
  wfstype : Arg
  nWfs : ℕ
  tag : String
  optics : List Optics
  detector : List Detector
  algorithm : Arg
  settings : List Arg
  noiseVar : Arg

/-- The list of photons after sensor.py:39-48: a number becomes a list, `None` is infinite, and a list
that is too short gets one more entry, itself a list of zeros. -/
def photons (nph : Arg) (nWfs : ℕ) : Except Err (List Arg) :=
  let pad (l : List Arg) : List Arg :=
    if l.length < nWfs then l ++ [.val (.lst (List.replicate (nWfs - l.length) 0))] else l
  match nph with
  | .inf => .ok (pad [.inf])
  | .infs => .ok (pad [.inf])
  | .val (.flt q) => .ok (pad [num q])
  | .val .none => .ok (pad [.inf])
  | .val (.lst l) => .ok (pad (l.map num))
  | _ => .error (.py .typeError)

/-- `sensor.__init__`, sensor.py:21-58. All detectors have the same spectral lists: the first decides. -/
def sensor (a : SensorArgs) : Except Err Sensor := do
  let n := a.nL.length
  require (n ≤ a.dsub.length) (.py .indexError)                                -- dsub[k], 33
  let nph ← photons a.nph n                                                    -- 39-48
  let det (k : ℕ) : Except Err Detector := do
    require (k < nph.length) (.py .indexError)                                 -- nph[k], 51
    detector { pixel_scale := a.pixel_scale, fov := a.fov, binning := a.binning,
               spotFWHM := a.spotFWHM, saturation := .inf, nph := nph.getD k .inf,
               bandwidth := a.bandwidth, transmittance := a.transmittance,
               dispersion := a.dispersion, ron := a.ron, gain := a.gain, dark := a.dark,
               sky := a.sky, excess := a.excess, tag := .val (.str "DETECTOR") }
  let ds ← (List.range n).mapM det                                             -- 50-54
  pure { wfstype := a.wfstype, nWfs := n, tag := a.tag,
         optics := List.zipWith (fun nL d => ⟨nL, d, 4, a.wfstype, a.modulation⟩) a.nL a.dsub,  -- 32-36
         detector := ds, algorithm := a.algorithm, settings := a.algo_param, noiseVar := a.noiseVar }

/-- The high-order sensor `self.wfs` (and `self.detectorGainHO`), aoSystem.py:477-606. -/
def hoSensor (m : Map) : Except Err Sensor := do
  let D ← diameter m
  let s := "sensor_HO"
  require (hasSec m s = true) (.missingSection s)                              -- 478-479
  require ((get m s "PixelScale").isSome = true) (.missingOption s "PixelScale")   -- 481-485
  let psInMas := opt m s "PixelScale" (.val .none)
  require ((get m s "FieldOfView").isSome = true) (.missingOption s "FieldOfView") -- 487-491
  let fov := opt m s "FieldOfView" (.val .none)
  let binning := opt m s "Binning" (.val (.int 1))                             -- 493-496
  let spotFWHM := opt m s "SpotFWHM" (.val (.mat [[0, 0]]))                    -- 498-501
  let nphHO := opt m s "NumberPhotons" .infs                                   -- 503-506
  let ron := opt m s "SigmaRON" (num 0)                                        -- 508-511
  let gainHO := opt m s "Gain" (.val (.int 1))                                 -- 513-516
  let sky := opt m s "SkyBackground" (num 0)                                   -- 518-521
  let dark := opt m s "Dark" (num 0)                                           -- 523-526
  let bw := opt m s "SpectralBandwidth" (num 0)                                -- 533-536
  let tr := opt m s "Transmittance" (.val (.lst [1]))                          -- 537-540
  let disp := opt m s "Dispersion" (.val (.mat [[0], [0]]))                    -- 541-544
  let wfstype := opt m s "WfsType" (.val (.str "Shack-Hartmann"))              -- 546-549
  let nL ← lstOpt m s "NumberLenslets" [20]                                    -- 551-554
  let dsub ← lstOpt m s "SizeLenslets" (nL.map fun n => D / n)                 -- 556-559
  let modu := opt m s "Modulation" (.val .none)                                -- 561-564
  let noiseVar := opt m s "NoiseVariance" .nones                               -- 566-569
  let algorithm := opt m s "Algorithm" (.val (.str "wcog"))                    -- 571-574
  let wr := opt m s "WindowRadiusWCoG" (num 5)                                 -- 576-579
  let thr := opt m s "ThresholdWCoG" (num 0)                                   -- 581-584
  let nv := opt m s "NewValueThrPix" (num 0)                                   -- 586-589
  let excess := opt m s "ExcessNoiseFactor" (num 1)                            -- 528-531, 591-594
  sensor { pixel_scale := psInMas, fov := fov, binning := binning, spotFWHM := spotFWHM,
           nph := nphHO, bandwidth := bw, transmittance := tr, dispersion := disp, gain := gainHO,
           ron := ron, sky := sky, dark := dark, excess := excess, nL := nL, dsub := dsub,
           wfstype := wfstype, modulation := modu, noiseVar := noiseVar, algorithm := algorithm,
           algo_param := [wr, thr, nv], tag := "HO WFS" }                      -- 602-608

/-- `WindowRadiusWCoG` of the low-order section, aoSystem.py:949-956: `'optimize'` stands for 1. -/
def loWindow (m : Map) : Arg :=
  match opt m "sensor_LO" "WindowRadiusWCoG" (num 1) with
  | .val (.str t) => if t ≠ "optimize" then .val (.str t) else num 1
  | a => a

/-- The low-order sensor `self.tts`, `configLOsensor`, aoSystem.py:867-975: the sizes of the lenslets are
computed, the type is written in the call, and the threshold is looked up under `'ThresholdWCoG = 0.0'`. -/
def loSensor (m : Map) : Except Err Sensor := do
  let D ← diameter m
  let s := "sensor_LO"
  require ((get m s "PixelScale").isSome = true) (.missingOption s "PixelScale")   -- 869-873
  let psInMas := opt m s "PixelScale" (.val .none)
  require ((get m s "FieldOfView").isSome = true) (.missingOption s "FieldOfView") -- 875-879
  let fov := opt m s "FieldOfView" (.val .none)
  let binning := opt m s "Binning" (.val (.int 1))                             -- 881-884
  let spotFWHM := opt m s "SpotFWHM" (.val (.mat [[0, 0]]))                    -- 886-889
  let nphLO := opt m s "NumberPhotons" .inf                                    -- 891-894
  let gainLO := opt m s "Gain" (.val (.int 1))                                 -- 896-899
  let ron := opt m s "SigmaRON" (num 0)                                        -- 901-904
  let sky := opt m s "SkyBackground" (num 0)                                   -- 906-909
  let dark := opt m s "Dark" (num 0)                                           -- 911-914
  let excess := opt m s "ExcessNoiseFactor" (num 1)                            -- 916-919
  let bw := opt m s "SpectralBandwidth" (num 0)                                -- 921-924
  let tr := opt m s "Transmittance" (.val (.lst [1]))                          -- 925-928
  let disp := opt m s "Dispersion" (.val (.mat [[0], [0]]))                    -- 929-932
  let nL ← lstOpt m s "NumberLenslets" [1]                                     -- 934-937
  let noiseVar := opt m s "NoiseVariance" .nones                               -- 939-942
  let algorithm := opt m s "Algorithm" (.val (.str "wcog"))                    -- 944-947
  let wr := loWindow m                                                         -- 949-956
  let thr := opt m s "ThresholdWCoG = 0.0" (num 0)                             -- 958-961
  let nv := opt m s "NewValueThrPix" (num 0)                                   -- 963-966
  sensor { pixel_scale := psInMas, fov := fov, binning := binning, spotFWHM := spotFWHM,
           nph := nphLO, bandwidth := bw, transmittance := tr, dispersion := disp, gain := gainLO,
           ron := ron, sky := sky, dark := dark, excess := excess, nL := nL,
           dsub := nL.map (fun n => D / n), wfstype := .val (.str "Shack-Hartmann"),
           modulation := .val .none, noiseVar := noiseVar, algorithm := algorithm,
           algo_param := [wr, thr, nv], tag := "TT WFS" }                      -- 968-975

/-! ### Science camera -/

/-- The science camera `self.cam`, aoSystem.py:744-823, given the field of view settled at l. 758-761
(`Config.camStage`). -/
def camera (m : Map) (fov : ℤ) : Except Err Detector := do
  let s := "sensor_science"
  require (hasSec m s = true) (.missingSection s)
  let camName := opt m s "Name" (.val (.str "SCIENCE CAM"))                    -- 748-751
  require ((get m s "PixelScale").isSome = true) (.missingOption s "PixelScale")   -- 753-756
  let psInMas := opt m s "PixelScale" (.val .none)
  let binning := opt m s "Binning" (.val (.int 1))                             -- 763-766
  let spotFWHM := opt m s "SpotFWHM" (.val (.mat [[0, 0, 0]]))                 -- 768-771
  let bw := opt m s "SpectralBandwidth" (num 0)                                -- 773-776
  let tr := opt m s "Transmittance" (.val (.lst [1]))                          -- 777-780
  let disp := opt m s "Dispersion" (.val (.mat [[0], [0]]))                    -- 781-784
  let nphSC := opt m s "NumberPhotons" .inf                                    -- 786-789
  let saturation := opt m s "Saturation" .inf                                  -- 791-794
  let ron := opt m s "SigmaRON" (num 0)                                        -- 796-799
  let gain := opt m s "Gain" (.val (.int 1))                                   -- 801-804
  let sky := opt m s "SkyBackground" (num 0)                                   -- 806-809
  let dark := opt m s "Dark" (num 0)                                           -- 811-814
  let excess := opt m s "ExcessNoiseFactor" (num 1)                            -- 816-819
  detector { pixel_scale := psInMas, fov := .val (.int fov), binning := binning,
             spotFWHM := spotFWHM, saturation := saturation, nph := nphSC, bandwidth := bw,
             transmittance := tr, dispersion := disp, ron := ron, gain := gain, dark := dark,
             sky := sky, excess := excess, tag := camName }                    -- 821-824

/-! ### Telescope and atmosphere -/

/-- Attributes of the telescope that hold an option, telescope.py:62-84, and the two options that
aoSystem.py:322-334 keeps on the system itself. -/
structure Telescope where
  D : Arg
  zenith_angle : Arg
  obsRatio : Arg
  resolution : Arg
  pupilAngle : Arg
  path_pupil : Option Str
  path_static_on : Option Str
  zcoef_static_on : Arg
  path_static_off : Option Str
  path_static_pos : Option Str
  path_apodizer : Option Str
  path_statModes : Option Str
  extraErrorNm : Arg
  extraErrorExp : Arg
  extraErrorMin : Arg
  extraErrorMax : Arg
  extraErrorLoNm : Arg
  extraErrorLoExp : Arg
  extraErrorLoMin : Arg
  extraErrorLoMax : Arg
  technicalFoV : Arg
  windPsdFile : Option Str

/-- A path option: the text of the file resolved by `resolve_path` (aoSystem.py:107-116), or the default. -/
def pathOpt (env : Env) (m : Map) (o : String) (d : Option Str) : Option Str :=
  match get m "telescope" o with
  | some (.str v) => some (Paths.resolve env.isfile v.toList env.root env.p3 env.tiptop)
  | some _ => none
  | none => d

/-- The telescope `self.tel`, aoSystem.py:172-334, once its checks have passed (`Config.telescopeStage`).
`windPsdFile` is 0 (`none` here) without the option. -/
def telescope (env : Env) (m : Map) : Except Err Telescope := do
  let _ ← telescopeStage env m
  let s := "telescope"
  let extraNm := opt m s "extraErrorNm" (.val (.int 0))                        -- 261-264
  let extraExp := opt m s "extraErrorExp" (.val (.int (-2)))                   -- 266-269
  pure { D := opt m s "TelescopeDiameter" (.val .none)                         -- 175-178
         zenith_angle := opt m s "ZenithAngle" (num 0)                         -- 180-186
         obsRatio := opt m s "ObscurationRatio" (num 0)                        -- 190-193
         resolution := opt m s "Resolution" (.val (.int 256))                  -- 195-198
         path_pupil := pathOpt env m "PathPupil" (some [])                     -- 201-207
         pupilAngle := opt m s "PupilAngle" (num 0)                            -- 209-212
         path_static_on := pathOpt env m "PathStaticOn" none                   -- 214-220
         zcoef_static_on := opt m s "zCoefStaticOn" (.val (.lst []))           -- 222-225
         path_static_off := pathOpt env m "PathStaticOff" none                 -- 227-233
         path_static_pos := pathOpt env m "PathStaticPos" none                 -- 235-241
         path_apodizer := pathOpt env m "PathApodizer" (some [])               -- 244-250
         path_statModes := pathOpt env m "PathStatModes" (some [])             -- 253-259
         extraErrorNm := extraNm
         extraErrorExp := extraExp
         extraErrorMin := opt m s "extraErrorMin" (.val (.int 0))              -- 272-275
         extraErrorMax := opt m s "extraErrorMax" (.val (.int 0))              -- 277-280
         extraErrorLoNm := opt m s "extraErrorLoNm" extraNm                    -- 282-285
         extraErrorLoExp := opt m s "extraErrorLoExp" extraExp                 -- 287-290
         extraErrorLoMin := opt m s "extraErrorLoMin" (.val (.int 0))          -- 292-295
         extraErrorLoMax := opt m s "extraErrorLoMax" (.val (.int 0))          -- 297-300
         technicalFoV := opt m s "TechnicalFoV" (.val (.int 0))                -- 325-328
         windPsdFile := pathOpt env m "windPsdFile" none }                     -- 330-336

/-- Attributes of the atmosphere that hold an option as it is, atmosphere.py:100-113; the coherence length
and the heights depend on the airmass too (`Verif/Model/Zenith.lean`). -/
structure Atmosphere where
  wvl : Arg
  weights : Arg
  wSpeed : Arg
  wDir : Arg
  L0 : Arg

/-- The atmosphere `self.atm`, aoSystem.py:337-393, once its checks have passed. -/
def atmosphere (m : Map) : Except Err Atmosphere := do
  let p ← atmosphereStage m
  pure { wvl := opt m "atmosphere" "Wavelength" (num (1/2000000))
         weights := .val (.lst p.weights)
         wSpeed := .val (.lst p.wSpeed)
         wDir := .val (.lst p.wDir)
         L0 := opt m "atmosphere" "L0" (.val (.int 25)) }                      -- 354-357

/-! ### Loops and mirrors -/

/-- One control loop, rtc.py:20-33. -/
structure Loop where
  gain : Arg
  rate : Arg
  delay : Arg

/-- The real-time computer: the high-order loop with its residual error, and the tip-tilt loop if there is one. -/
structure Rtc where
  holoop : Loop
  wfe : Arg
  ttloop : Option Loop

/-- `LoopGain_LO`, aoSystem.py:632-639: `'optimize'` is `None`. -/
def loGain (m : Map) : Arg :=
  match opt m "RTC" "LoopGain_LO" (.val .none) with
  | .val (.str t) => if t ≠ "optimize" then .val (.str t) else .val .none
  | a => a

/-- `self.rtc`, aoSystem.py:617-658 and rtc.py:15-33 (`x != None` for the three options of the tip-tilt
loop). -/
def rtc (m : Map) : Rtc :=
  let gainLO := loGain m                                                       -- 632-639
  let rateLO := opt m "RTC" "SensorFrameRate_LO" (.val .none)                  -- 641-644
  let delayLO := opt m "RTC" "LoopDelaySteps_LO" (.val .none)                  -- 646-649
  { holoop := { gain := opt m "RTC" "LoopGain_HO" (num (1/2))                  -- 617-620
                rate := opt m "RTC" "SensorFrameRate_HO" (num 500)             -- 622-625
                delay := opt m "RTC" "LoopDelaySteps_HO" (.val (.int 2)) }     -- 627-630
    wfe := opt m "RTC" "ResidualError" (.val .none)                            -- 651-654
    ttloop := if gainLO ≠ .val .none ∧ rateLO ≠ .val .none ∧ delayLO ≠ .val .none then
        some ⟨gainLO, rateLO, delayLO⟩ else none }

/-- The attributes of the mirrors that hold an option as it is, deformableMirror.py:66-84. -/
structure Mirrors where
  modes : Arg
  nRecLayers : Arg
  opt_cond : Arg
  aoArea : Arg
  opt_zenith : List ℚ
  opt_azimuth : List ℚ
  opt_weights : List ℚ

/-- `self.dms`, aoSystem.py:660-742, once its checks have passed (`Config.dmStage`). -/
def mirrors (m : Map) : Except Err Mirrors := do
  let _ ← dmStage m
  let s := "DM"
  let w ← lstOpt m s "OptimizationWeight" [0]                                  -- 696-699
  let a ← lstOpt m s "OptimizationAzimuth" [0]                                 -- 701-704
  let z ← lstOpt m s "OptimizationZenith" [0]                                  -- 706-709
  let opt_dir := (z, a)
  pure { modes := opt m s "InfModel" (.val (.str "gaussian"))                  -- 686-689
         nRecLayers := opt m s "NumberReconstructedLayers" (.val (.int 10))    -- 721-724
         opt_cond := opt m s "OptimizationConditioning" (num 100)              -- 716-719
         aoArea := opt m s "AoArea" (.val (.str "circle"))                     -- 726-729
         opt_zenith := opt_dir.1
         opt_azimuth := opt_dir.2
         opt_weights := w }

end P3.Options
