import Verif.Model.Config
/-
Specification of "a complete and consistent parameter file" (C02), written without reference to the
constructor's control flow.
-/
namespace P3.Config

/-- The option, if present, is a number. -/
def IsNum (m : Map) (s o : String) : Prop :=
  ∀ v, get m s o = some v → (∃ z, v = .int z) ∨ (∃ q, v = .flt q)
/-- The option, if present, is a list of numbers. -/
def IsLst (m : Map) (s o : String) : Prop := ∀ v, get m s o = some v → ∃ l, v = .lst l
/-- The option, if present, is a number or a list of numbers. -/
def IsNumOrLst (m : Map) (s o : String) : Prop :=
  ∀ v, get m s o = some v → (∃ z, v = .int z) ∨ (∃ q, v = .flt q) ∨ (∃ l, v = .lst l)
/-- The option, if present, is a matrix with at least one row. -/
def IsMat (m : Map) (s o : String) : Prop :=
  ∀ v, get m s o = some v → ∃ r l, v = .mat (r :: l)
/-- The option, if present, is a file name (or `None`). -/
def IsFile (m : Map) (s o : String) : Prop :=
  ∀ v, get m s o = some v → v = .none ∨ ∃ n, v = .str n
/-- The option, if present, is a floating-point number, `None` or a list. -/
def IsPhotons (m : Map) (s o : String) : Prop :=
  ∀ v, get m s o = some v → v = .none ∨ (∃ q, v = .flt q) ∨ (∃ l, v = .lst l)

/-- Options holding a number. -/
def numOptions : List (String × String) :=
  [("telescope","ZenithAngle"), ("atmosphere","Wavelength"), ("atmosphere","Seeing"),
   ("sources_HO","Height"), ("RTC","LoopGain_HO"), ("RTC","SensorFrameRate_HO"),
   ("RTC","LoopDelaySteps_HO"), ("DM","NumberReconstructedLayers"),
   ("sensor_science","PixelScale")]
/-- Options holding a list of numbers. -/
def lstOptions : List (String × String) :=
  [("atmosphere","Cn2Weights"), ("atmosphere","Cn2Heights"), ("atmosphere","WindSpeed"),
   ("atmosphere","WindDirection"), ("sources_HO","Zenith"), ("sources_HO","Azimuth"),
   ("sources_LO","Zenith"), ("sources_LO","Azimuth"), ("sources_science","Zenith"),
   ("sources_science","Azimuth"), ("sensor_HO","NumberLenslets"), ("sensor_HO","SizeLenslets"),
   ("sensor_LO","NumberLenslets"), ("sensor_HO","Transmittance"), ("sensor_LO","Transmittance"),
   ("sensor_science","Transmittance"), ("DM","DmPitchs"), ("DM","DmHeights"), ("DM","InfCoupling"),
   ("DM","OptimizationWeight"), ("DM","OptimizationAzimuth"), ("DM","OptimizationZenith")]
/-- Options naming a file. -/
def fileOptions : List String :=
  ["PathPupil", "PathStaticOn", "PathStaticOff", "PathStaticPos", "PathApodizer", "PathStatModes",
   "windPsdFile"]

/-- Every option that is present has the expected type. -/
structure Typed (m : Map) : Prop where
  num : ∀ p ∈ numOptions, IsNum m p.1 p.2
  lst : ∀ p ∈ lstOptions, IsLst m p.1 p.2
  wvl : ∀ s ∈ ["sources_HO", "sources_LO", "sources_science"], IsNumOrLst m s "Wavelength"
  mat : ∀ s ∈ ["sensor_HO", "sensor_LO", "sensor_science"], IsMat m s "Dispersion"
  photons : ∀ s ∈ ["sensor_HO", "sensor_LO"], IsPhotons m s "NumberPhotons"
  actuators : IsNumOrLst m "DM" "NumberActuators"
  file : ∀ o ∈ fileOptions, IsFile m "telescope" o

/-- Value of a numeric option, or its default. -/
def numVal (m : Map) (s o : String) (d : ℚ) : ℚ :=
  match get m s o with | some (.int z) => z | some (.flt q) => q | _ => d
/-- Value of a list option, or its default. -/
def lstVal (m : Map) (s o : String) (d : List ℚ) : List ℚ :=
  match get m s o with | some (.lst l) => l | _ => d
/-- Wavelengths as a list. -/
def wvlVal (m : Map) (s : String) : List ℚ :=
  match get m s "Wavelength" with
  | some (.int z) => [(z : ℚ)] | some (.flt q) => [q] | some (.lst l) => l | _ => []
/-- Number of columns of a matrix option, default one. -/
def colsVal (m : Map) (s o : String) : ℕ :=
  match get m s o with | some (.mat (r :: _)) => r.length | _ => 1
/-- Number of photon counts supplied (one number counts for one; default one). -/
def photonsVal (m : Map) (s : String) : ℕ :=
  match get m s "NumberPhotons" with | some (.lst l) => l.length | _ => 1
/-- The option is present. -/
def Has (m : Map) (s o : String) : Prop := (get m s o).isSome = true

/-- Telescope: diameter given, zenith angle below 90 degrees, all named files exist, known precision. -/
structure WFTelescope (env : Env) (m : Map) : Prop where
  section_ : hasSec m "telescope" = true
  diameter : Has m "telescope" "TelescopeDiameter"
  zenith : numVal m "telescope" "ZenithAngle" 0 < 90
  files : ∀ o ∈ fileOptions, ∀ n, get m "telescope" o = some (.str n) →
    Paths.resolve env.isfile n.toList env.root env.p3 env.tiptop = [] ∨
    env.isfile (Paths.resolve env.isfile n.toList env.root env.p3 env.tiptop) = true
  precision : ∀ v, get m "COMPUTATION" "precision" = some v →
    ∃ p : String, v = .str p ∧ (p.toLower = "single" ∨ p.toLower = "double")

/-- Atmosphere: a (non-zero) seeing or an r0, weights summing to one, lists of equal length. -/
structure WFAtmosphere (m : Map) : Prop where
  section_ : hasSec m "atmosphere" = true
  strength : Has m "atmosphere" "Seeing" ∨ Has m "atmosphere" "r0_value"
  seeing : numVal m "atmosphere" "Seeing" 1 ≠ 0
  weights : |(lstVal m "atmosphere" "Cn2Weights" [1]).sum - 1| ≤ 1/1000
  heights : (lstVal m "atmosphere" "Cn2Heights" [0]).length =
    (lstVal m "atmosphere" "Cn2Weights" [1]).length
  speed : (lstVal m "atmosphere" "WindSpeed" [10]).length =
    (lstVal m "atmosphere" "Cn2Weights" [1]).length
  dir : ∀ l, get m "atmosphere" "WindDirection" = some (.lst l) →
    l.length = (lstVal m "atmosphere" "Cn2Weights" [1]).length

/-- Guide stars: a wavelength, and as many zenith as azimuth angles. -/
structure WFGuideStars (m : Map) : Prop where
  section_ : hasSec m "sources_HO" = true
  wvl : Has m "sources_HO" "Wavelength"
  pos : (lstVal m "sources_HO" "Zenith" [0]).length = (lstVal m "sources_HO" "Azimuth" [0]).length

/-- Low-order stars: nothing to check without the section; otherwise wavelength and positions. -/
structure WFLowOrder (m : Map) : Prop where
  wvl : hasSec m "sources_LO" = true → Has m "sources_LO" "Wavelength"
  zenith : hasSec m "sources_LO" = true → Has m "sources_LO" "Zenith"
  azimuth : hasSec m "sources_LO" = true → Has m "sources_LO" "Azimuth"
  pos : hasSec m "sources_LO" = true →
    (lstVal m "sources_LO" "Zenith" []).length = (lstVal m "sources_LO" "Azimuth" []).length

/-- Science targets: a wavelength, and as many zenith as azimuth angles. -/
structure WFScience (m : Map) : Prop where
  section_ : hasSec m "sources_science" = true
  wvl : Has m "sources_science" "Wavelength"
  pos : (lstVal m "sources_science" "Zenith" [0]).length =
    (lstVal m "sources_science" "Azimuth" [0]).length

/-- A wavefront sensor: pixel scale and field of view given; at most one photon count missing;
spectral lists of equal length (unless there is no sensor at all); a size for every lenslet array. -/
structure WFSensor (m : Map) (s : String) (nLdefault : List ℚ) : Prop where
  pixel : Has m s "PixelScale"
  fov : Has m s "FieldOfView"
  photons : (lstVal m s "NumberLenslets" nLdefault).length ≤ photonsVal m s + 1
  spectral : (lstVal m s "NumberLenslets" nLdefault) ≠ [] →
    colsVal m s "Dispersion" = (lstVal m s "Transmittance" [1]).length

/-- Deformable mirrors: pitches given, one height and one actuator count per pitch, at least one
coupling value, optimisation lists of equal length. -/
structure WFMirrors (m : Map) : Prop where
  section_ : hasSec m "DM" = true
  pitch : Has m "DM" "DmPitchs"
  heightsGiven : (lstVal m "DM" "DmPitchs" []).length ≤ 1 ∨ Has m "DM" "DmHeights"
  heights : (lstVal m "DM" "DmHeights" [0]).length = (lstVal m "DM" "DmPitchs" []).length
  actuatorsNum : (∀ v, get m "DM" "NumberActuators" = some v → ∀ l, v ≠ .lst l) →
    Has m "DM" "NumberActuators" → (lstVal m "DM" "DmPitchs" []).length = 1
  actuators : ∀ l, get m "DM" "NumberActuators" = some (.lst l) →
    l.length = (lstVal m "DM" "DmPitchs" []).length
  coupling : (lstVal m "DM" "DmPitchs" []) = [] ∨ lstVal m "DM" "InfCoupling" [1/5] ≠ []
  optAz : (lstVal m "DM" "OptimizationAzimuth" [0]).length =
    (lstVal m "DM" "OptimizationZenith" [0]).length
  optW : (lstVal m "DM" "OptimizationWeight" [0]).length =
    (lstVal m "DM" "OptimizationZenith" [0]).length

/-- Science detector: pixel scale, a field of view that is positive or -1 (to the tolerance of
`np.isclose`), spectral lists of equal length. -/
structure WFCamera (m : Map) : Prop where
  section_ : hasSec m "sensor_science" = true
  pixel : Has m "sensor_science" "PixelScale"
  fov : ∃ q : ℚ, (get m "sensor_science" "FieldOfView" = some (.flt q) ∨
      ∃ z : ℤ, get m "sensor_science" "FieldOfView" = some (.int z) ∧ q = z) ∧
    (0 < q ∨ |q - (-1)| ≤ 1001/100000000)
  spectral : colsVal m "sensor_science" "Dispersion" =
    (lstVal m "sensor_science" "Transmittance" [1]).length

/-- A complete and consistent parameter file. -/
structure WellFormed (env : Env) (m : Map) : Prop where
  tel : WFTelescope env m
  atm : WFAtmosphere m
  gs : WFGuideStars m
  lo : WFLowOrder m
  sci : WFScience m
  ho_section : hasSec m "sensor_HO" = true
  ho : WFSensor m "sensor_HO" [20]
  ho_sizes : ∀ l, get m "sensor_HO" "SizeLenslets" = some (.lst l) →
    (lstVal m "sensor_HO" "NumberLenslets" [20]).length ≤ l.length
  lo_sensor : hasSec m "sensor_LO" = true → WFSensor m "sensor_LO" [1]
  dm : WFMirrors m
  cam : WFCamera m

end P3.Config

namespace P3.Config

/-- Number of elements of a list option; an absent list stands for its one-element default. -/
def listLen (m : Map) (s o : String) : ℕ := (lstVal m s o [0]).length

/-- What a raised error says about the parameter file. -/
def Defect (env : Env) (m : Map) : Err → Prop
  | .missingSection s => hasSec m s = false
  | .missingOption s o => hasSec m s = true ∧ get m s o = none
  | .notSameLength s opts => ∃ o₁ ∈ opts, ∃ o₂ ∈ opts, listLen m s o₁ ≠ listLen m s o₂
  | .badZenith => 90 ≤ numVal m "telescope" "ZenithAngle" 0
  | .badWeights => 1/1000 < |(lstVal m "atmosphere" "Cn2Weights" [1]).sum - 1|
  | .fileNotFound o => ∃ n, get m "telescope" o = some (.str n) ∧
      env.isfile (Paths.resolve env.isfile n.toList env.root env.p3 env.tiptop) = false
  | .badPrecision => ∃ v, get m "COMPUTATION" "precision" = some v ∧
      ∀ p : String, v = .str p → p.toLower ≠ "single" ∧ p.toLower ≠ "double"
  | .dmSizes => listLen m "DM" "DmHeights" ≠ (lstVal m "DM" "DmPitchs" []).length ∨
      (∃ l, get m "DM" "NumberActuators" = some (.lst l) ∧
        l.length ≠ (lstVal m "DM" "DmPitchs" []).length) ∨
      (Has m "DM" "NumberActuators" ∧ (lstVal m "DM" "DmPitchs" []).length ≠ 1)
  | .badFov => ∀ q : ℚ, (get m "sensor_science" "FieldOfView" = some (.flt q) ∨
      ∃ z : ℤ, get m "sensor_science" "FieldOfView" = some (.int z) ∧ q = z) → q ≤ 0
  | .dispersion => ∃ s ∈ ["sensor_HO", "sensor_LO", "sensor_science"],
      colsVal m s "Dispersion" ≠ (lstVal m s "Transmittance" [1]).length
  | .py e => e = .zeroDivision ∧ numVal m "atmosphere" "Seeing" 1 = 0 ∨
      e = .keyError ∧ hasSec m "sources_LO" = true ∧
        (get m "sources_LO" "Zenith" = none ∨ get m "sources_LO" "Azimuth" = none) ∨
      e = .broadcast ∧ listLen m "DM" "DmHeights" ≠ (lstVal m "DM" "DmPitchs" []).length ∨
      e = .indexError ∧ (lstVal m "DM" "InfCoupling" [1/5] = [] ∨
        (lstVal m "sensor_HO" "NumberLenslets" [20]).length > photonsVal m "sensor_HO" + 1 ∨
        (lstVal m "sensor_LO" "NumberLenslets" [1]).length > photonsVal m "sensor_LO" + 1 ∨
        (lstVal m "sensor_HO" "NumberLenslets" [20]).length >
          (lstVal m "sensor_HO" "SizeLenslets" (lstVal m "sensor_HO" "NumberLenslets" [20])).length)

end P3.Config
