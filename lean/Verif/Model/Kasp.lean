import Mathlib.Analysis.SpecialFunctions.Pow.Real
import Mathlib.LinearAlgebra.Matrix.Notation
import Mathlib.Data.Matrix.Mul

/-! Model of the telemetry read from a simulation file: p3/telemetry/telemetryKASP.py.

The file is given: `Data` holds the entries that `populating_fields` computes with. Arithmetic is exact. There are at
least two frames, two slopes, two actuators and the two axes of tip and tilt, so that `np.squeeze` keeps the rows and
columns of an array stored with two axes. Parsing of the Matlab format and conversions by `float` and `int` are not
modelled. -/

namespace P3.Kasp

open Matrix

/-- Entries of the simulation file with `T` frames, `n` slopes and `c` actuators. Arrays are stored with the frames
along the columns (telemetryKASP.py 252, 258, 260 transpose them). -/
structure Data (T n c : ℕ) where
  /-- an LGS is described: `len(data_struct['lgs_azimuth'][0,0]) > 0` -/
  lgs : Bool
  /-- `wfs_algo` is "geometric" -/
  geometric : Bool
  slopes : Matrix (Fin n) (Fin T) ℝ
  com : Matrix (Fin c) (Fin T) ℝ
  recon : Matrix (Fin c) (Fin n) ℝ
  dmttrem : Matrix (Fin c) (Fin c) ℝ
  slttrem : Matrix (Fin n) (Fin n) ℝ
  ttSlopes : Matrix (Fin 2) (Fin T) ℝ
  ttCom : Matrix (Fin 2) (Fin T) ℝ
  /-- `dm_ncom` -/
  nCom : ℝ
  /-- `wfs_psInMas`, `tt_psInMas`, `D`, `ngs_wvl`, `wvl_atm`, `r0` -/
  wfsPs : ℝ
  ttPs : ℝ
  D : ℝ
  ngsWvl : ℝ
  lgsWvl : ℝ
  wvlAtm : ℝ
  r0 : ℝ
  weights : List ℝ
  /-- `src_zenith` in radians, `cam_fov` -/
  zenith : ℝ
  fov : ℤ
  gainHO : ℝ
  gainTT : ℝ

/-- The telemetry object: the fields set by `populating_fields`. -/
structure Tel (T n c : ℕ) where
  slopes : Matrix (Fin T) (Fin n) ℝ
  com : Matrix (Fin T) (Fin c) ℝ
  R : Matrix (Fin n) (Fin c) ℝ
  res : Matrix (Fin T) (Fin c) ℝ
  wfe : ℝ
  tilt2meter : ℝ
  ttSlopes : Matrix (Fin T) (Fin 2) ℝ
  ttCom : Matrix (Fin T) (Fin 2) ℝ
  wfsWvl : ℝ
  seeing : ℝ
  cn2 : List ℝ
  zenith : ℝ
  fov : ℤ
  numHO : List ℝ
  denHO : List ℝ
  numTT : List ℝ
  denTT : List ℝ

/-- `x -= np.mean(x, axis=0)` for frames along the rows. -/
noncomputable def centre {T m : ℕ} (x : Matrix (Fin T) (Fin m) ℝ) : Matrix (Fin T) (Fin m) ℝ :=
  fun t j => x t j - (∑ s, x s j) / (T : ℝ)

/-- The reconstructor applied to the slopes, telemetryKASP.py 272-276. -/
def recMatrix {T n c : ℕ} (d : Data T n c) : Matrix (Fin n) (Fin c) ℝ :=
  if d.lgs then (d.dmttrem * (d.recon * d.slttrem))ᵀ else d.reconᵀ

/-- The commands of the mirror, telemetryKASP.py 257-262. -/
noncomputable def commands {T n c : ℕ} (d : Data T n c) : Matrix (Fin T) (Fin c) ℝ :=
  centre (if d.lgs then (d.dmttrem * d.com)ᵀ else d.comᵀ)

/-- The residual commands, telemetryKASP.py 278-279. -/
noncomputable def residual {T n c : ℕ} (d : Data T n c) : Matrix (Fin T) (Fin c) ℝ :=
  centre (centre d.slopesᵀ * recMatrix d)

/-- `x.std(axis=0)**2` of a column (the mean is subtracted again by numpy). -/
noncomputable def varCol {T m : ℕ} (x : Matrix (Fin T) (Fin m) ℝ) (j : Fin m) : ℝ :=
  (∑ t, (x t j - (∑ s, x s j) / (T : ℝ)) ^ 2) / (T : ℝ)

/-- `rec.wfe` in nanometres, telemetryKASP.py 280. -/
noncomputable def wfe {T n c : ℕ} (d : Data T n c) : ℝ :=
  10 ^ 9 * Real.sqrt ((∑ j, varCol (residual d) j) / d.nCom)

/-- Metres per unit of tip-tilt measurement, telemetryKASP.py 292, 298, 301. -/
noncomputable def tilt2meter {T n c : ℕ} (d : Data T n c) : ℝ :=
  if d.lgs then d.ttPs * d.D / 1000 / 206264.8 / 4
  else if d.geometric then 1e-9 else d.wfsPs * d.D / 1000 / 206264.8

/-- Tip-tilt slopes, telemetryKASP.py 291-303: with a laser guide star they are scaled and not centred. -/
noncomputable def ttSlopes {T n c : ℕ} (d : Data T n c) : Matrix (Fin T) (Fin 2) ℝ :=
  if d.lgs then fun t j => d.ttSlopes j t * (tilt2meter d / (d.ngsWvl / 8))
  else centre (fun t j => tilt2meter d * d.ttSlopes j t)

/-- `populating_fields`, telemetryKASP.py 168-317. -/
noncomputable def populate {T n c : ℕ} (d : Data T n c) (fovFactor : ℤ) : Tel T n c where
  slopes := centre d.slopesᵀ
  com := commands d
  R := recMatrix d
  res := residual d
  wfe := wfe d
  tilt2meter := tilt2meter d
  ttSlopes := ttSlopes d
  ttCom := centre d.ttComᵀ
  wfsWvl := if d.lgs then d.lgsWvl else d.ngsWvl
  seeing := 3600 * 180 / Real.pi * 0.976 * d.wvlAtm / d.r0
  cn2 := d.weights.map fun w => w * d.r0 ^ (-(5 : ℝ) / 3)
  zenith := d.zenith * (3600 * 180 / Real.pi)
  fov := d.fov * fovFactor
  numHO := [d.gainHO, 0, 0, 0]
  denHO := [-1, 0, 0]
  numTT := [d.gainTT, 0, 0, 0]
  denTT := [-1, 0, 0]

/-- What `populating_fields` leaves in the entries it read: `np.squeeze` and `.T` are views, so that
`self.wfs.slopes -= mean` (telemetryKASP.py 252-253) and, without LGS, `self.dm.com -= mean` (260, 262) alter the
arrays of `data_struct`. The other fields are computed on copies. -/
noncomputable def after {T n c : ℕ} (d : Data T n c) : Data T n c :=
  { d with slopes := (centre d.slopesᵀ)ᵀ, com := if d.lgs then d.com else (centre d.comᵀ)ᵀ }

end P3.Kasp
