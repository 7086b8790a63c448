import Verif.Model.Sphere

/-! Model of the readers of headers of p3/telemetry/sphereUtils.py that are not in `Verif.Model.Sphere`, and of the
precision of the Fourier model (p3/aoSystem/fourierModel.py, aoSystem.py, frequencyDomain.py). Arithmetic is exact. -/

namespace P3.Headers

open P3.Sphere (Name Hdr split)

/-- `get_obs_id(file_name, hdr)`, sphereUtils.py 600-607: the identifier is the last field of the name. -/
def obsId (name : Name) : Name := (split '_' name).getLast?.getD []

/-- `get_wavelength`, sphereUtils.py 608-616, for the wavelengths of the file in microns: mean and width in metres;
an empty array is a `ValueError` of numpy (`none`). -/
noncomputable def wavelength (l : List ℝ) : Option (ℝ × ℝ) :=
  match l.map (1e-6 * ·) with
  | [] => none
  | a :: t => some ((a :: t).sum / (a :: t).length, (a :: t).foldl max a - (a :: t).foldl min a)

/-- `get_telescope_pointing`, sphereUtils.py 765-773: azimuth, altitude and airmass; a missing key is a `KeyError`. -/
noncomputable def pointing (h : Hdr) : Except PyErr (ℝ × ℝ × ℝ) :=
  match h "ESO TEL AZ", h "ESO TEL ALT", h "ESO TEL AIRM END", h "ESO TEL AIRM START" with
  | some az, some alt, some e, some s => .ok (az, alt, 0.5 * (e + s))
  | _, _, _, _ => .error .keyError

/-- `get_moon_position`, sphereUtils.py 804-808. -/
def moon (h : Hdr) : Except PyErr (ℝ × ℝ) :=
  match h "ESO TEL MOON RA", h "ESO TEL MOON DEC" with
  | some a, some d => .ok (a, d)
  | _, _ => .error .keyError

/-- `get_star_coordinates`, sphereUtils.py 683-688, without the name. -/
def star (h : Hdr) : Except PyErr (ℝ × ℝ) :=
  match h "RA", h "DEC" with
  | some a, some d => .ok (a, d)
  | _, _ => .error .keyError

/-! ### Precision -/

/-- Precision of an array. -/
inductive Prec | single | double
  deriving DecidableEq

/-- Bytes of a real number, fourierModel.py 1843-1847. -/
def Prec.bytes : Prec → ℕ
  | .single => 4
  | .double => 8

/-- What is kept of a Fourier model: the types used by the computations (fourierModel.py 109-110), the type of the
maps of the telescope (telescope.py 91-122) and the type of the grid of frequencies, once it exists. -/
structure Fm where
  dtype : Prec
  cdtype : Prec
  maps : Prec
  grid : Option Prec

/-- A precision by its name. -/
def named (s : String) : Option Prec := if s = "single" then some .single else if s = "double" then some .double else none

/-- The model as it is created with the precision of its parameter file, aoSystem.py 151-166, telescope.py 91-98 and
fourierModel.py 107-110, without computations; `none`: `ValueError`. -/
def create (s : String) : Option Fm := (named s).map fun p => ⟨p, p, p, none⟩

/-- `set_precision`, fourierModel.py 147-159; second component: `ValueError` was raised. -/
def setPrecision (m : Fm) (s : String) : Fm × Bool :=
  match named s with
  | some p => ({ m with dtype := p, cdtype := p }, false)
  | none => (m, true)

/-- `initComputations`, fourierModel.py 161-177: the grid is made with the type of the model if there is none
(`hasattr`), and kept otherwise. -/
def compute (m : Fm) : Fm := { m with grid := some (m.grid.getD m.dtype) }

/-- Calls on a model. -/
inductive Call | set (s : String) | compute

/-- Calls one after the other (an exception leaves the model as it is). -/
def run (m : Fm) : List Call → Fm
  | [] => m
  | .set s :: l => run (setPrecision m s).1 l
  | .compute :: l => run (compute m) l

/-- Memory of the grid announced, fourierModel.py 1843-1847 and 1904, for `n` pixels across. -/
def announced (m : Fm) (n : ℕ) : ℕ := 5 * n * n * m.dtype.bytes

/-- Memory that the five arrays of the grid take. -/
def taken (p : Prec) (n : ℕ) : ℕ := 5 * n * n * p.bytes

end P3.Headers
