import Mathlib.Data.List.Basic

/-! Model of the generation of parameter files: p3/telemetry/configFile.py and p3/psfFitting/fittingUtils.py 566-624.
A parser is the set of its sections and the value of each option (`optionxform = str`: names are case-sensitive). Values
are strings without `%` and line breaks, which ConfigParser writes and reads back unchanged. -/

namespace P3.IniFile

/-- State of a ConfigParser: known sections, and value of each option. -/
structure Ini where
  sec : String → Bool
  get : String → String → Option String

/-- An empty parser (the file does not exist). -/
def Ini.empty : Ini := ⟨fun _ => false, fun _ _ => none⟩

/-- Operations of ConfigParser used by the writers. -/
inductive Op
  /-- `if not parser.has_section(s): parser.add_section(s)` -/
  | ensure (s : String)
  /-- `parser.set(s, k, v)` -/
  | set (s k v : String)
  /-- `parser.remove_option(s, k)` -/
  | remove (s k : String)

/-- One operation; `set` and `remove_option` raise NoSectionError (`none`) for an unknown section. -/
def step (p : Ini) : Op → Option Ini
  | .ensure s => some { p with sec := fun x => x == s || p.sec x }
  | .set s k v => if p.sec s then some { p with get := fun x y => if x = s ∧ y = k then some v else p.get x y } else none
  | .remove s k => if p.sec s then some { p with get := fun x y => if x = s ∧ y = k then none else p.get x y } else none

/-- A sequence of operations. -/
def run : List Op → Ini → Option Ini
  | [], p => some p
  | o :: l, p => (step p o).bind (run l)

/-! ### configFile -/

/-- What the writer takes from the telemetry: `str` of each attribute, the AO mode, the optional paths and whether there
is a tip-tilt loop. -/
structure Tel where
  str : String → String
  lgs : Bool
  pathPupil : Option String
  pathNcpa : Option String
  pathTelstat : Option String
  hasTT : Bool

/-- A path option is set or removed, configFile.py 36-47. -/
def pathOp (k : String) : Option String → Op
  | some v => .set "telescope" k ("'" ++ v ++ "'")
  | none => .remove "telescope" k

/-- Quotes added around a string value, as in configFile.py 92. -/
def quoted (v : String) : String := "'" ++ v ++ "'"

/-- configFile.py 28-66: sections telescope, atmosphere and sources_science. -/
def part1 (t : Tel) : List Op :=
  [.ensure "telescope", .set "telescope" "TelescopeDiameter" (t.str "tel.D"),
   .set "telescope" "ObscurationRatio" (t.str "tel.cobs"), .set "telescope" "ZenithAngle" (t.str "tel.zenith_angle"),
   .set "telescope" "Resolution" (t.str "tel.resolution"), .set "telescope" "PupilAngle" (t.str "tel.pupilAngle"),
   pathOp "PathPupil" t.pathPupil, pathOp "PathStaticOn" t.pathNcpa, pathOp "PathStatModes" t.pathTelstat,
   .ensure "atmosphere", .set "atmosphere" "Wavelength" (t.str "atm.wvl"), .set "atmosphere" "Seeing" (t.str "atm.seeing"),
   .set "atmosphere" "L0" (t.str "atm.L0"), .set "atmosphere" "Cn2Weights" (t.str "atm.Cn2Weights"),
   .set "atmosphere" "Cn2Heights" (t.str "atm.Cn2Heights"), .set "atmosphere" "WindSpeed" (t.str "atm.wSpeed"),
   .set "atmosphere" "WindDirection" (t.str "atm.wDir"),
   .ensure "sources_science", .set "sources_science" "Wavelength" (t.str "cam.wvl"),
   .set "sources_science" "Zenith" (t.str "cam.zenith"), .set "sources_science" "Azimuth" (t.str "cam.azimuth")]

/-- configFile.py 69-71: the wavelength of the guide stars is set only when the section is new. -/
def part2 (t : Tel) (p : Ini) : List Op :=
  if p.sec "sources_HO" then [] else [.ensure "sources_HO", .set "sources_HO" "Wavelength" (t.str "wfs.wvl")]

/-- configFile.py 73-86: positions of the guide stars. -/
def part3 (t : Tel) : List Op :=
  if t.lgs then
    [.set "sources_HO" "Zenith" (t.str "lgs.zenith"), .set "sources_HO" "Azimuth" (t.str "lgs.azimuth"),
     .set "sources_HO" "Height" (t.str "lgs.height"), .ensure "sources_LO",
     .set "sources_LO" "Wavelength" (t.str "tipTilt.wvl"), .set "sources_LO" "Zenith" (t.str "ngs.zenith"),
     .set "sources_LO" "Azimuth" (t.str "ngs.azimuth")]
  else
    [.set "sources_HO" "Zenith" (t.str "ngs.zenith"), .set "sources_HO" "Azimuth" (t.str "ngs.azimuth"),
     .set "sources_HO" "Height" "0"]

/-- configFile.py 90-113: section sensor_HO. -/
def part4 (t : Tel) : List Op :=
  [.ensure "sensor_HO", .set "sensor_HO" "WfsType" (quoted (t.str "wfs.type")),
   .set "sensor_HO" "Modulation" (t.str "wfs.modulation"), .set "sensor_HO" "PixelScale" (t.str "wfs.pixel_scale"),
   .set "sensor_HO" "FieldOfView" (t.str "wfs.fov"), .set "sensor_HO" "Binning" (t.str "wfs.binning"),
   .set "sensor_HO" "NumberPhotons" (t.str "wfs.nph"), .set "sensor_HO" "SpotFWHM" (t.str "wfs.spot_fwhm"),
   .set "sensor_HO" "SpectralBandwidth" (t.str "wfs.bw"), .set "sensor_HO" "Transmittance" (t.str "wfs.tr"),
   .set "sensor_HO" "Dispersion" (t.str "wfs.disp"), .set "sensor_HO" "SigmaRON" (t.str "wfs.ron"),
   .set "sensor_HO" "Dark" (t.str "wfs.dark"), .set "sensor_HO" "SkyBackground" (t.str "wfs.sky"),
   .set "sensor_HO" "Gain" (t.str "wfs.gain"), .set "sensor_HO" "ExcessNoiseFactor" (t.str "wfs.excess"),
   .set "sensor_HO" "NumberLenslets" (t.str "wfs.nSubap"), .set "sensor_HO" "SizeLenslets" (t.str "wfs.dsub"),
   .set "sensor_HO" "NoiseVariance" (t.str "wfs.noiseVar"), .set "sensor_HO" "Algorithm" (quoted (t.str "wfs.algo")),
   .set "sensor_HO" "WindowRadiusWCoG" (t.str "wfs.win"), .set "sensor_HO" "ThresholdWCoG" (t.str "wfs.thres"),
   .set "sensor_HO" "NewValueThrPix" (t.str "wfs.new")]

/-- configFile.py 115-137: section sensor_LO, for laser guide stars. -/
def part5 (t : Tel) : List Op :=
  if t.lgs then
    [.ensure "sensor_LO", .set "sensor_LO" "PixelScale" (t.str "tipTilt.pixel_scale"),
     .set "sensor_LO" "FieldOfView" (t.str "tipTilt.fov"), .set "sensor_LO" "Binning" (t.str "tipTilt.binning"),
     .set "sensor_LO" "NumberPhotons" (t.str "tipTilt.nph"), .set "sensor_LO" "SpotFWHM" (t.str "tipTilt.spot_fwhm"),
     .set "sensor_LO" "SpectralBandwidth" (t.str "tipTilt.bw"), .set "sensor_LO" "Transmittance" (t.str "tipTilt.tr"),
     .set "sensor_LO" "Dispersion" (t.str "tipTilt.disp"), .set "sensor_LO" "SigmaRON" (t.str "tipTilt.ron"),
     .set "sensor_LO" "Dark" (t.str "tipTilt.dark"), .set "sensor_LO" "SkyBackground" (t.str "tipTilt.sky"),
     .set "sensor_LO" "Gain" (t.str "tipTilt.gain"), .set "sensor_LO" "ExcessNoiseFactor" (t.str "tipTilt.excess"),
     .set "sensor_LO" "NumberLenslets" (t.str "tipTilt.nSubap"), .set "sensor_LO" "SizeLenslets" (t.str "tipTilt.dsub"),
     .set "sensor_LO" "NoiseVariance" (t.str "tipTilt.noiseVar"), .set "sensor_LO" "Algorithm" (quoted (t.str "tipTilt.algo")),
     .set "sensor_LO" "WindowRadiusWCoG" (t.str "tipTilt.win"), .set "sensor_LO" "ThresholdWCoG" (t.str "tipTilt.thres"),
     .set "sensor_LO" "NewValueThrPix" (t.str "tipTilt.new")]
  else []

/-- configFile.py 140-167: sections DM and RTC. -/
def part6 (t : Tel) : List Op :=
  [.ensure "DM", .set "DM" "NumberActuators" (t.str "dm.nActuators"), .set "DM" "DmPitchs" (t.str "dm.pitch"),
   .set "DM" "InfModel" (quoted (t.str "dm.modes")), .set "DM" "InfCoupling" (t.str "dm.mechCoupling"),
   .set "DM" "DmHeights" (t.str "dm.heights"), .set "DM" "OptimizationZenith" (t.str "dm.opt_zen"),
   .set "DM" "OptimizationAzimuth" (t.str "dm.opt_azi"), .set "DM" "OptimizationWeight" (t.str "dm.opt_weight"),
   .set "DM" "OptimizationConditioning" (t.str "dm.opt_cond"), .set "DM" "NumberReconstructedLayers" (t.str "dm.nrec"),
   .set "DM" "AoArea" (quoted (t.str "dm.area")),
   .ensure "RTC", .set "RTC" "LoopGain_HO" (t.str "holoop.gain"), .set "RTC" "SensorFrameRate_HO" (t.str "holoop.freq"),
   .set "RTC" "LoopDelaySteps_HO" (t.str "holoop.lat * holoop.freq"), .set "RTC" "ResidualError" (t.str "rec.wfe")] ++
  if t.hasTT then
    [.set "RTC" "LoopGain_LO" (t.str "ttloop.gain"), .set "RTC" "SensorFrameRate_LO" (t.str "ttloop.freq"),
     .set "RTC" "LoopDelaySteps_LO" (t.str "ttloop.lat * ttloop.freq")]
  else []

/-- configFile.py 170-196: sections sensor_science and external. -/
def part7 (t : Tel) : List Op :=
  [.ensure "sensor_science", .set "sensor_science" "Name" (quoted (t.str "cam.name")),
   .set "sensor_science" "FieldOfView" (t.str "cam.fov"), .set "sensor_science" "PixelScale" (t.str "cam.psInMas"),
   .set "sensor_science" "SigmaRON" (t.str "cam.ron"), .set "sensor_science" "Gain" (t.str "cam.gain"),
   .set "sensor_science" "Transmittance" (t.str "cam.transmission"), .set "sensor_science" "SpectralBandwidth" (t.str "cam.bw"),
   .set "sensor_science" "Dispersion" (t.str "cam.dispersion"), .set "sensor_science" "SpotFWHM" (t.str "jitter"),
   .ensure "external", .set "external" "Seeing" (t.str "atm.seeing_dimm"),
   .set "external" "SeeingAlt" (t.str "atm.seeing_mass"), .set "external" "Cn2Weights" (t.str "atm.Cn2_mass")]

/-- The operations of `configFile` after the section of the guide stars. -/
def tailOps (t : Tel) : List Op := part3 t ++ part4 t ++ part5 t ++ part6 t ++ part7 t

/-- `configFile(sysdiag)`: from the parser of the existing file (empty if none) to the one that is written. -/
def write (t : Tel) (p : Ini) : Option Ini :=
  (run (part1 t) p).bind fun q => (run (part2 t q) q).bind (run (tailOps t))

/-- Options of the telescope, guide stars and detectors that `aoSystem` reads, aoSystem.py (all `check_config_key` and
`get_config_value` calls). -/
def readKeys : List (String × String) :=
  ["TelescopeDiameter", "ObscurationRatio", "ZenithAngle", "Resolution", "PupilAngle", "PathPupil", "PathStaticOn",
   "PathStatModes", "PathStaticOff", "PathStaticPos", "PathApodizer", "TechnicalFoV", "zCoefStaticOn", "windPsdFile",
   "extraErrorNm", "extraErrorExp", "extraErrorMin", "extraErrorMax", "extraErrorLoNm", "extraErrorLoExp",
   "extraErrorLoMin", "extraErrorLoMax"].map (("telescope", ·)) ++
  ["Wavelength", "Seeing", "r0_value", "L0", "Cn2Weights", "Cn2Heights", "WindSpeed", "WindDirection"].map (("atmosphere", ·)) ++
  ["Wavelength", "Zenith", "Azimuth"].map (("sources_science", ·)) ++
  ["Wavelength", "Zenith", "Azimuth", "Height"].map (("sources_HO", ·)) ++
  ["Wavelength", "Zenith", "Azimuth"].map (("sources_LO", ·)) ++
  ["WfsType", "Modulation", "PixelScale", "FieldOfView", "Binning", "NumberPhotons", "SpotFWHM", "SpectralBandwidth",
   "Transmittance", "Dispersion", "SigmaRON", "Dark", "SkyBackground", "Gain", "ExcessNoiseFactor", "NumberLenslets",
   "SizeLenslets", "NoiseVariance", "Algorithm", "WindowRadiusWCoG", "ThresholdWCoG", "NewValueThrPix",
   "addMcaoWFsensConeError"].map (("sensor_HO", ·)) ++
  ["PixelScale", "FieldOfView", "Binning", "NumberPhotons", "SpotFWHM", "SpectralBandwidth", "Transmittance",
   "Dispersion", "SigmaRON", "Dark", "SkyBackground", "Gain", "ExcessNoiseFactor", "NumberLenslets", "NoiseVariance",
   "Algorithm", "WindowRadiusWCoG", "NewValueThrPix"].map (("sensor_LO", ·)) ++
  ["NumberActuators", "DmPitchs", "InfModel", "InfCoupling", "DmHeights", "OptimizationZenith", "OptimizationAzimuth",
   "OptimizationWeight", "OptimizationConditioning", "NumberReconstructedLayers", "AoArea"].map (("DM", ·)) ++
  ["LoopGain_HO", "SensorFrameRate_HO", "LoopDelaySteps_HO", "ResidualError", "LoopGain_LO", "SensorFrameRate_LO",
   "LoopDelaySteps_LO"].map (("RTC", ·)) ++
  ["Name", "FieldOfView", "PixelScale", "SigmaRON", "Gain", "Transmittance", "SpectralBandwidth", "Dispersion", "SpotFWHM",
   "Binning", "Dark", "ExcessNoiseFactor", "NumberPhotons", "Saturation", "SkyBackground"].map (("sensor_science", ·))

/-! ### Parameter file adjusted to an image -/

/-- Pupil file for the name of the mask, fittingUtils.py 604-608: another name leaves the variable unbound (`none`). -/
def pupilFile (pms : String) : Option String :=
  if pms = "OPEN" then some "aoSystem/data/KECK_CALIBRATION/NIRC2_MASK/keck_pupil_open_240px.fits"
  else if pms = "LARGEHEX" then some "aoSystem/data/KECK_CALIBRATION/NIRC2_MASK/keck_pupil_largeHex_272px.fits" else none

/-- Operations of `adjust_init_file`, fittingUtils.py 610-622. -/
def adjustOps (pup ncpa pa wvl nPix bw disp tr : String) : List Op :=
  [.set "telescope" "path_pupil" (quoted pup), .set "telescope" "Path_static" (quoted ncpa),
   .set "telescope" "pupilAngle" pa, .set "sources_HO" "Wavelength" wvl, .set "sensor_science" "FiedOfView" nPix,
   .set "sensor_HO" "SpectralBandwidth" bw, .set "sensor_HO" "Dispersion" disp, .set "sensor_HO" "Transmittance" tr]

/-- `adjust_init_file`. -/
def adjust (pms ncpa pa wvl nPix bw disp tr : String) (p : Ini) : Option Ini :=
  (pupilFile pms).bind fun pup => run (adjustOps pup ncpa pa wvl nPix bw disp tr) p

/-- Mode file, fittingUtils.py 567-570. -/
def modesFile (mode : String) : Option String :=
  if mode = "Piston" then some "aoSystem/data/KECK_CALIBRATION/KECK_STAT/keck_piston_modes_200px.fits"
  else if mode = "Zernike" then some "aoSystem/data/KECK_CALIBRATION/KECK_STAT/keck_piston_modes_200px_all_lr.fits" else none

/-- `choose_stat_modes`, fittingUtils.py 566-576. -/
def chooseModes (mode : String) (p : Ini) : Option Ini :=
  (modesFile mode).bind fun f => run [.set "telescope" "path_statModes" (quoted f)] p

end P3.IniFile
