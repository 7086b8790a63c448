import Verif.Model.Config
import Mathlib.Analysis.SpecialFunctions.Pow.Real
import Mathlib.Analysis.SpecialFunctions.Trigonometric.Basic
/-
Automatic science field of view.  Source: /repo/p3/aoSystem/aoSystem.py lines 64-105, 187, 345-346,
386-387 and telescope.py 50-52.  Numbers are reals.
-/
namespace P3.FieldOfView
open Real

/-- `float(np.min(np.atleast_1d(l)))` (aoSystem.py:66-68): numpy raises `ValueError` on an empty array. -/
noncomputable def npMin (l : List ℝ) : Except PyErr ℝ :=
  match l with
  | [] => .error .broadcast
  | x :: xs => .ok (xs.foldl min x)

/-- `rad2mas`, aoSystem.py:65. -/
noncomputable def rad2mas : ℝ := 180 * 3600 * 1000 / π

/-- Airmass, aoSystem.py:187 and telescope.py:51-52 (zenith angle in degrees). -/
noncomputable def airmass (zenith : ℝ) : ℝ := 1 / cos (zenith * π / 180)

/-- Fried parameter at zenith deduced from the seeing, aoSystem.py:346. -/
noncomputable def r0OfSeeing (wvlAtm seeing : ℝ) : ℝ := 0.976 * wvlAtm / seeing * 3600 * 180 / π

/-- Line-of-sight Fried parameter given to `atmosphere`, aoSystem.py:387. -/
noncomputable def r0Los (r0 am : ℝ) : ℝ := r0 * am ^ (-(3:ℝ)/5)

/-- Seeing along the line of sight in arcsec, aoSystem.py:72-76: from the `Seeing` option when it is given,
else from `atm.wvl`, `atm.r0`. -/
noncomputable def seeingArcsec (seeing : Option ℝ) (am atmWvl atmR0 : ℝ) : ℝ :=
  match seeing with
  | some s => s * am ^ ((3:ℝ)/5)
  | none => 0.976 * atmWvl / atmR0 * 3600 * 180 / π

/-- `_compute_science_field_of_view`, aoSystem.py:64-81. `pix` is the pixel scale in mas.
A zero pitch or pixel scale (`inf` in numpy, refused by `int`) is outside the model. -/
noncomputable def autoFov (wvl pix pitch : List ℝ) (seeing : Option ℝ) (am atmWvl atmR0 : ℝ) :
    Except PyErr ℤ := do
  let wvlMin ← npMin wvl
  let pitchMin ← npMin pitch
  let pixScale ← npMin pix
  let corrected := rad2mas * wvlMin / (pitchMin * pixScale)
  let seeingFloor := 2 * seeingArcsec seeing am atmWvl atmR0 * 1000 / pixScale
  let half := max corrected (seeingFloor / 2)
  let fov := ⌈half⌉ * 2
  .ok (max fov 2)

end P3.FieldOfView
