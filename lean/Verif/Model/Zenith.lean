import Verif.Model.FieldOfView
import Verif.Model.Atmosphere
import Verif.Model.FourierRun
/-
The effect of the zenith angle of an observation: line-of-sight atmosphere and laser height (aoSystem.py:180-187, 337-394, 418-434),
isoplanatic angle (atmosphere.py:54-70).  Real arithmetic; `none` is a numpy `nan` or `inf` as said.
-/
namespace P3.Zenith
open P3.Atmosphere

/-- Options of the sections `telescope`, `atmosphere` and `sources_HO` that the zenith angle acts on; `none` is an option that is
not given.  The profile lists have been checked (C02). -/
structure Options where
  zenith : ℝ
  wvl : ℝ
  seeing : Option ℝ
  r0 : Option ℝ
  weights : List ℝ
  heights : List ℝ
  speed : List ℝ
  dir : List ℝ
  L0 : L0Arg
  /-- `Height` of `sources_HO`, 0 for natural guide stars -/
  laser : ℝ

/-- Fried parameter at the zenith, aoSystem.py:345-352: the seeing is looked up first. -/
noncomputable def zenithR0 (o : Options) : Except Config.Err ℝ :=
  match o.seeing with
  | some s => .ok (FieldOfView.r0OfSeeing o.wvl s)
  | none => match o.r0 with
    | some r => .ok r
    | none => .error (.missingOption "atmosphere" "Seeing")

/-- What is built: the atmosphere (`none` when its Fried parameter is `nan`) with its heights in any case, the airmass of the
telescope (telescope.py:50-52), and the height of the guide stars. -/
structure Built where
  atm : Option Atm
  heights : List ℝ
  airmass : ℝ
  laser : ℝ

/-- `aoSystem.__init__` as far as the zenith angle goes, aoSystem.py:180-187, 345-352, 387-394, 433: only angles of 90 degrees and
more are refused.  A negative airmass to the power `-3/5` is `nan`.  Angles with a cosine of zero (-90, -270, ...) are outside the
model. -/
noncomputable def build (o : Options) : Except Config.Err Built := do
  if 90 ≤ o.zenith then .error .badZenith
  else
    let a := FieldOfView.airmass o.zenith
    let r0 ← zenithR0 o
    let hs := o.heights.map (· * a)
    .ok { atm := if a < 0 then none else some (mk o.wvl (FieldOfView.r0Los r0 a) o.weights hs o.speed o.dir o.L0),
          heights := hs, airmass := a, laser := o.laser * a }

/-- `theta0` in arcseconds for an infinite outer scale, atmosphere.py:54-63 and 70; `none` is infinity, when all layers are
on the ground.  (When the layers above have no weight numpy also gives infinity; here the quotient by zero is 0.) -/
noncomputable def theta0 (a : Atm) : Option ℝ :=
  if ∀ h ∈ a.heights, h = 0 then none
  else some (((24 * Real.Gamma (6/5) / 5) ^ (-(5:ℝ)/6) * a.r0 ^ ((5:ℝ)/3) / wsum53 a.weights a.heights) ^ ((3:ℝ)/5) *
    3600 * 180 / Real.pi)

/-- `Hs = ao.atm.heights * strechFactor` of a layer at height `h` above the telescope, fourierModel.py:177-187 and 385: `a` is the
airmass, `laser` the height of the laser, if there are lasers. -/
noncomputable def seenHeight (a : ℝ) (laser : Option ℝ) (h : ℝ) : Option ℝ :=
  (FRun.stretch (laser.map (· * a)) (h * a)).map fun f => h * a * f

end P3.Zenith
