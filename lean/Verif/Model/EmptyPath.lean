import Verif.Model.Options
import Verif.Model.Remaining
/-
The files that a system built from a parameter file reads: maps of the telescope (telescope.py:85-224) and spectrum of the
vibrations (fourierModel.py:872-873 and 1141-1143).
-/
namespace P3.Options
open P3.Config P3.Paths

/-- `check_path`, telescope.py:85-89, as the file that is read. -/
def readFile (isfile : Str → Bool) (p : Option Str) : Option Str :=
  match p with
  | none => none
  | some p => if isfile p && Remaining.searchFits p then some p else none

/-- The maps read by the telescope, telescope.py:109-224. -/
structure Maps where
  pupil : Option Str
  apodizer : Option Str
  staticOn : Option Str
  staticOff : Option Str
  staticPos : Option Str
  modes : Option Str

/-- Lines 110 (pupil), 128 (apodizer), 133 (static), 170 and 171 (field-dependent maps and their positions, read if there are
maps), 189 (modes). -/
def maps (isfile : Str → Bool) (T : Telescope) : Maps where
  pupil := readFile isfile T.path_pupil
  apodizer := readFile isfile T.path_apodizer
  staticOn := readFile isfile T.path_static_on
  staticOff := readFile isfile T.path_static_off
  staticPos := if (readFile isfile T.path_static_off).isSome then readFile isfile T.path_static_pos else none
  modes := readFile isfile T.path_statModes

/-- The file of the vibrations opened by `powerSpectrumDensity`, fourierModel.py:872 and 1143: whatever is not the number 0 is
opened, and astropy refuses an empty name (`ValueError`, here `.error ()`). -/
def vibrationFile (applyTiltFilter : Bool) (T : Telescope) : Except Unit (Option Str) :=
  if applyTiltFilter then .ok none
  else match T.windPsdFile with
    | none => .ok none
    | some [] => .error ()
    | some p => .ok (some p)

end P3.Options
