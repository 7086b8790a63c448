import Mathlib.Analysis.SpecialFunctions.Trigonometric.Basic
import Verif.Model.Telemetry

/-! Model of the archive of seeing measurements and of the headers of the Keck telescope: `fetch_data`, `append_mass_dimm` and
`get_mass_dimm_for_image` of p3/telemetry/massdimm.py, the atmosphere of p3/telemetry/telemetryKeck.py 268-328, and
`samplingFilterProfile`, `getFilterName`, `getFilterProfile`, `getTelescopeAirmass` of p3/telemetry/keckUtils.py.
Arithmetic is exact. -/

namespace P3.Archive

open P3.Telemetry

/-! ### Downloads -/

/-- The three files of a night. -/
inductive Kind | dimm | mass | prof
  deriving DecidableEq, Repr

/-- What happens to one `urlretrieve`: it succeeds; it raises without having opened the output (refused by the server); it
raises after writing a part of the file (`ContentTooShortError`); or the process is killed there, with or without a part of the
file written. -/
inductive Dl | ok | refused | cut | killed (part : Bool)
  deriving DecidableEq, Repr

/-- The folder of a night: whether it exists, and its files (`some true` complete, `some false` truncated). -/
structure Disk where
  dir : Bool
  file : Kind → Option Bool

/-- Write a file. -/
def Disk.put (d : Disk) (k : Kind) (whole : Bool) : Disk :=
  { d with file := fun j => if j = k then some whole else d.file j }

/-- End of a call: a status, an exception, or the end of the process. -/
inductive End | status (n : ℕ) | raised | killed
  deriving DecidableEq, Repr

/-- One download: the new folder, and `none` if it succeeded, else how it ended. -/
def retrieve (d : Disk) (k : Kind) : Dl → Disk × Option End
  | .ok => (d.put k true, none)
  | .refused => (d, some .raised)
  | .cut => (d.put k false, some .raised)
  | .killed false => (d, some .killed)
  | .killed true => (d.put k false, some .killed)

/-- `fetch_data`, massdimm.py 230-275: the folder is made, then the DIMM file is downloaded (on an exception the status is zero),
then the MASS file and the profile (exceptions are not caught). -/
def fetch (d : Disk) (net : Kind → Dl) : Disk × End :=
  let d := { d with dir := true }
  match retrieve d .dimm (net .dimm) with
  | (d, some .raised) => (d, .status 0)
  | (d, some e) => (d, e)
  | (d, none) =>
    match retrieve d .mass (net .mass) with
    | (d, some e) => (d, e)
    | (d, none) =>
      match retrieve d .prof (net .prof) with
      | (d, some e) => (d, e)
      | (d, none) => (d, .status 1)

/-- Outcome of loading the atmosphere of an observation: median conditions, measurements (with the state of the three files),
an exception, or the end of the process. -/
inductive Atm | median | measured (whole : Bool) | raised | killed
  deriving DecidableEq, Repr

/-- Lines 293-327 seen from the files: with status zero the median conditions, else the three files are read (the DIMM, then the
MASS, then the profile), an absent one raises. The reading of a truncated file is not modelled further. -/
def use (d : Disk) : ℕ → Atm
  | 0 => .median
  | _ =>
    match d.file .dimm, d.file .mass, d.file .prof with
    | some a, some b, some c => .measured (a && b && c)
    | _, _, _ => .raised

/-- Loading the observation, telemetryKeck.py 270-327: the files are downloaded if the folder does not exist, else the status is
whether the DIMM file exists. -/
def load (d : Disk) (net : Kind → Dl) : Disk × Atm :=
  if d.dir then (d, use d (if (d.file .dimm).isSome then 1 else 0))
  else
    match fetch d net with
    | (d, .status n) => (d, use d n)
    | (d, .raised) => (d, .raised)
    | (d, .killed) => (d, .killed)

/-- Successive loads of observations of the same night, one state of the network each. -/
def loads (d : Disk) : List (Kind → Dl) → Disk × List Atm
  | [] => (d, [])
  | net :: l => let r := load d net; let s := loads r.1 l; (s.1, r.2 :: s.2)

/-- Nothing was ever loaded for the night. -/
def fresh : Disk := ⟨false, fun _ => none⟩

/-! ### The profile -/

/-- Heights and winds of the seven layers, telemetryKeck.py 283-286. -/
noncomputable def heights : List ℝ := [0, 500, 1000, 2000, 4000, 8000, 16000]
noncomputable def winds : List ℝ := [6.8, 6.9, 7.1, 7.5, 10, 26.9, 18.5]

/-- Median weights, line 296 (and 315). -/
noncomputable def medianWeights : List ℝ := [0.517, 0.119, 0.063, 0.061, 0.105, 0.081, 0.054]

/-- Conversion of an angle to arcseconds, used lines 295, 317. -/
noncomputable def rad2arc : ℝ := 3600 * 180 / Real.pi

/-- Median seeing, line 295. -/
noncomputable def medianSeeing : ℝ := rad2arc * 0.98 * 500e-9 / 0.16

/-- Seeing and weights of the layers from the measurements, telemetryKeck.py 305-328: `seeing` of the DIMM, `alt` of the MASS
(`-1` when missing), layers of the profile (`none` for not a number). The result is `none` if the weights are not numbers (the
power of a negative number, see `combine`, or a total of zero). -/
noncomputable def atmosphere (seeing alt : ℝ) (prof : List (Option ℝ)) (wvl : ℝ) : Option (ℝ × List ℝ) :=
  open Classical in
  if (∀ c ∈ prof, c = some (-1)) ∨ none ∈ prof then some (medianSeeing, medianWeights)
  else
    let cn2 := prof.filterMap id
    let alt := if alt = -1 then (mu0 wvl * cn2.sum) ^ (3 / 5 : ℝ) else alt
    (combine seeing alt cn2 wvl).bind fun c =>
      if c.sum = 0 then none else some (seeing, c.map (· / c.sum))

/-! ### Tables of images -/

/-- A monitor file: times in hours (UT) and columns of values; `n + 1` rows. -/
structure Table where
  n : ℕ
  time : ℕ → ℝ
  val : ℕ → ℕ → ℝ

/-- `indexTime` of one time for column `c`, massdimm.py 64-88 (also 131-156, 203-228), not verbose. -/
noncomputable def Table.at (t : Table) (c : ℕ) (h : ℝ) : ℝ × ℝ := indexTime t.time (t.val c) t.n false h

/-- A row of the table of images: date and time in hours. -/
structure Shot where
  date : String
  hour : ℝ

/-- The values appended to one row, massdimm.py 324-341: columns DIMM, DIMM_dt_hr, MASS, MASS_dt_hr, the six layers, Cn2dh_dt_hr
(order of lines 359-361). -/
noncomputable def values (t : Table × Table × Table) (h : ℝ) : List ℝ :=
  [(t.1.at 0 h).1, (t.1.at 0 h).2, (t.2.1.at 0 h).1, (t.2.1.at 0 h).2] ++
    (List.range 6).map (fun c => (t.2.2.at c h).1) ++ [(t.2.2.at 0 h).2]

/-- The loop of `append_mass_dimm`, massdimm.py 308-341. `prev` is `date_long_previous` and `cur` the tables loaded last; the loop
never assigns `date_long_previous`. `arch` gives the files of a date; a missing one raises (`none`). -/
noncomputable def appendLoop (arch : String → Option (Table × Table × Table)) (prev : Option String)
    (cur : Option (Table × Table × Table)) : List Shot → Option (List (List ℝ))
  | [] => some []
  | s :: l => do
    let t ← if some s.date ≠ prev then arch s.date else cur
    let rest ← appendLoop arch prev (some t) l
    pure (values t s.hour :: rest)

/-- `append_mass_dimm`: the loop starts without a previous date. -/
noncomputable def append (arch : String → Option (Table × Table × Table)) (l : List Shot) : Option (List (List ℝ)) :=
  appendLoop arch none none l

/-- Names of the appended columns, massdimm.py 344-361. -/
def appended : List String :=
  ["DIMM", "DIMM_dt_hr", "MASS", "MASS_dt_hr", "Cn2dh_005", "Cn2dh_010", "Cn2dh_020", "Cn2dh_040", "Cn2dh_080", "Cn2dh_160", "Cn2dh_dt_hr"]

/-! ### Date of an image -/

/-- A date and time: number of the day and second in the day. -/
structure When where
  day : ℤ
  sec : ℕ
  deriving DecidableEq, Repr

/-- `strptime` of a time on a twelve-hour clock (`%I:%M:%S %p`): hours from 1 to 12. -/
def parse12 (h m s : ℕ) (pm : Bool) : ℕ := ((h % 12) + if pm then 12 else 0) * 3600 + m * 60 + s

/-- Conversion from Hawaii to UT by `astimezone`: ten hours later. -/
def hawaiiToUT (w : When) : When := ⟨w.day + ((w.sec + 36000) / 86400 : ℕ), (w.sec + 36000) % 86400⟩

/-- `get_mass_dimm_for_image`, massdimm.py 384-404: with a header of the first kind (`shutter`) the local time is taken as it is;
otherwise one day is added to times before noon. -/
def imageUT (shutter : Bool) (w : When) : When :=
  hawaiiToUT (if shutter then w else if w.sec < 12 * 3600 then ⟨w.day + 1, w.sec⟩ else w)

/-! ### Filters -/

/-- `getFilterName` for NIRC2, keckUtils.py 106-115: the first wheel, unless it holds a `PK` element. -/
def filterName (fwi fwo : String) : String := if "PK".toList.isPrefixOf fwi.toList then fwo else fwi

/-- The filters whose curve is known, keckUtils.py 138-139. -/
def filters : List String := ["J", "H", "K", "Kcont", "Kp", "Ks", "Lp", "Ms", "Hcont", "Brgamma", "FeII"]

/-- `upper` of a string (as characters). -/
def upper (s : List Char) : List Char := s.map Char.toUpper

/-- The file read by `getFilterProfile`, keckUtils.py 136-149: underscores are removed and the case ignored; `none` if the filter is
not known. -/
def filterFile (s : List Char) : Option String :=
  let u := upper (s.filter (· != '_'))
  (filters.find? fun f => upper f.toList = u).map (· ++ ".dat")

/-- The curve returned, keckUtils.py 155-162: rows of wavelength (microns) and transmission (percent); those of at most one percent
are dropped. The correction of duplicates is `fixWaves` of the telemetry model. -/
noncomputable def curve (w t : ℕ → ℝ) (n : ℕ) : List (ℝ × ℝ) :=
  open Classical in
  ((List.range n).filter fun k => t k > 1).map fun k => (fixWaves 1e-7 w k * 1e-6, t k / 100)

/-- Largest value of a list of reals (zero for the empty one). -/
noncomputable def top : List ℝ → ℝ
  | [] => 0
  | [x] => x
  | x :: l => max x (top l)
noncomputable def bottom : List ℝ → ℝ
  | [] => 0
  | [x] => x
  | x :: l => min x (bottom l)

/-- The selection of line 226: rows above a fraction of the largest transmission. -/
noncomputable def selected (c : List (ℝ × ℝ)) (thr : ℝ) : List (ℝ × ℝ) :=
  open Classical in c.filter fun p => p.2 > thr * top (c.map (·.2))

/-- `np.polyfit(w, t, 1)` on the rows: the least-squares line, by its normal equations (`slope` and `offset` of the telemetry
model), then `np.polyval`. At least two wavelengths must differ. -/
noncomputable def line (l : List (ℝ × ℝ)) (x : ℝ) : ℝ :=
  let fx := fun k => (l.getD k (0, 0)).1
  let fy := fun k => (l.getD k (0, 0)).2
  slope l.length fx fy * x + offset l.length fx fy

/-- `np.linspace(a, b, n)` for `n` at least two. -/
noncomputable def linspace (a b : ℝ) (n : ℕ) : List ℝ :=
  (List.range n).map fun k : ℕ => a + k * ((b - a) / (n - 1))

/-- `samplingFilterProfile`, keckUtils.py 216-260: wavelengths, bandwidth, transmissions, and number of dispersions per axis.
`cen` is the central wavelength of the header. `nWvl` is not negative. -/
noncomputable def sampling (c : List (ℝ × ℝ)) (cen : ℝ) (nWvl : ℕ) (thr bwMin : ℝ) : List ℝ × ℝ × List ℝ × ℕ :=
  open Classical in
  let f := selected c thr
  let lo := bottom (f.map (·.1))
  let hi := top (f.map (·.1))
  let n := if hi - lo ≤ bwMin then 1 else nWvl
  let w := if n > 1 then linspace lo hi n else [cen]
  (w, if n > 1 then hi - lo else 0, w.map (line f), n)

/-! ### Pointing -/

/-- `getTelescopeAirmass`, keckUtils.py 76-80: zenith angle (degrees) and airmass from the elevation. -/
noncomputable def airmass (el : ℝ) : ℝ × ℝ := (90 - el, 1 / Real.cos ((90 - el) * Real.pi / 180))

end P3.Archive
