import Verif.Model.Breakdown
import Verif.Model.Source
/-
Anisoplanatism.  Source: /repo/p3/aoSystem/anisoplanatismModel.py.  (`focal_anisoplanatism_variance` is
`P3.Breakdown.focal`.)
-/
namespace P3.Aniso
open Real P3.Atmosphere P3.Breakdown

/-- `focal_anisoplanatism_wfe`, anisoplanatismModel.py:48-72. -/
noncomputable def focalWfe (D zLgs : ℝ) (a : Atm) : Option ℝ :=
  let var := (List.zipWith (fun w h => if h > 0 then w * (0.5 * (h / zLgs) ^ ((5:ℝ)/3)
      - 0.452 * (h / zLgs) ^ 2) / 0.423 else 0) a.weights a.heights).sum
  (sqrtO (var * (D / a.r0) ^ ((5:ℝ)/3))).map (fun y => y * (a.wvl * 10 ^ 9 / 2 / π))

/-- `cte`, anisoplanatismModel.py:31. -/
noncomputable def cte : ℝ :=
  (24 * Gamma (6/5) / 5) ^ ((5:ℝ)/6) * (Gamma (11/6) ^ 2 / (2 * π ^ ((11:ℝ)/3)))

/-- `Watm` away from the centre of the grid, anisoplanatismModel.py:32. -/
noncomputable def watm (a : Atm) (kx ky : ℝ) : ℝ :=
  cte * (1 / a.L0 ^ 2 + (kx ^ 2 + ky ^ 2)) ^ (-(11:ℝ)/6)

/-- The PSD of `anisoplanatism_wfe` at a frequency, anisoplanatismModel.py:18-43: `(thx, thy)` is the
separation of the source and the guide star; `airmass` is the telescope's. -/
noncomputable def angularPsd (a : Atm) (airmass thx thy kx ky : ℝ) : ℝ :=
  (a.heights.map (fun h =>
    let zl := h * airmass
    if zl ≠ 0 ∧ (thx ≠ 0 ∨ thy ≠ 0) then 2 * (1 - cos (2 * π * zl * (kx * thx + ky * thy))) * watm a kx ky
    else 0)).sum

/-- `np.sum(cn2*z_l**e)`, anisoplanatismModel.py:81, 87-91. -/
noncomputable def moment (a : Atm) (e : ℝ) : ℝ :=
  (List.zipWith (fun w z => a.r0 ^ (-(5:ℝ)/3) * w * z ^ e) a.weights a.heights).sum

/-- One axis of the Sasiela expansion, anisoplanatismModel.py:93-103, with coefficients `c`. -/
noncomputable def sasielaAxis (a : Atm) (D th : ℝ) (c1 c2 c3 c4 c5 : ℝ) : ℝ :=
  c1 * moment a 2 / D ^ ((1:ℝ)/3) * (th / D) ^ 2
  + c2 * moment a 4 / D ^ ((1:ℝ)/3) * (th / D) ^ 4
  + c3 * moment a (14/3) / D ^ ((1:ℝ)/3) * (th / D) ^ ((14:ℝ)/3)
  + c4 * moment a 6 / D ^ ((1:ℝ)/3) * (th / D) ^ 6
  + c5 * moment a (20/3) / D ^ ((1:ℝ)/3) * (th / D) ^ ((20:ℝ)/3)

/-- `anisokinetism_wfe` with the default method, anisoplanatismModel.py:74-106, for one source and one star
in directions `s` and `g`. -/
noncomputable def anisokinetism (a : Atm) (D : ℝ) (s g : ℝ × ℝ) : Option ℝ :=
  let thx := |s.1 - g.1|
  let thy := |s.2 - g.2|
  (sqrtO (sasielaAxis a D thx (2.67 * 3) (-3.68 * 5) (2.35 * (17/3)) (0.304 * 7) (0.306 * (23/3))
    + sasielaAxis a D thy 2.67 (-3.68) 2.35 0.304 0.306)).map (fun y => y * a.wvl * 10 ^ 9 / 2 / π)

/-! ### The guide star is moved on axis and back -/

/-- The mutable part of the laser-star object. -/
structure Star where
  zenith : List ℝ
  azimuth : List ℝ

/-- Laser branch of `anisoplanatism_structure_function`, anisoplanatismModel.py:171-187, as a program on
the star object.  `focal`, `angular` and `kinetic` are the three functions called, which may raise; the
first two read the star object.  Setting the angles to the scalar 0 is the list `[0]` here (same direction
after broadcasting).  Returns the star object left behind and the outcome. -/
def structureFunction {ε α : Type} (focal angular : Star → Except ε α) (kinetic : Except ε α)
    (plus : α → α → α) (st : Star) : Star × Except ε (α × α × α) :=
  let saved := st                                     -- 173
  let st := { st with azimuth := [0] }                -- 174
  let st := { st with zenith := [0] }                 -- 175
  match focal st with
  | .error e => (st, .error e)
  | .ok dfoc =>
    let st := { st with zenith := saved.zenith }      -- 180
    let st := { st with azimuth := saved.azimuth }    -- 181
    match angular st with
    | .error e => (st, .error e)
    | .ok dang =>
      match kinetic with
      | .error e => (st, .error e)
      | .ok dtt => (st, .ok (plus dfoc dang, dang, dtt))

/-! ### The structure function of the frequency domain -/

/-- Result of `anisoplanatism_structure_function`: a triple in both branches (lines 169 and 187). -/
structure Triple (α : Type) where
  first : α
  second : Option α     -- `none` is the integer 0
  third : Option α

/-- A Python value: an array or the whole triple. -/
inductive Val (α : Type) | array (a : α) | triple (t : Triple α)

/-- `v * Cn2[...]` followed by `.sum(axis=1)`: `weight` on an array; numpy (>= 1.24) cannot make an array of
the inhomogeneous tuple `(array, 0, 0)` (`ValueError`). -/
def weighted {α : Type} (weight : α → α) : Val α → Except PyErr α
  | .array a => .ok (weight a)
  | .triple _ => .error .broadcast

/-- `anisoplanatismPhaseStructureFunction`, frequencyDomain.py:221-264. `angular` is the NGS result
(l. 166-169), `laser` the outcome of the laser branch; `onAxis` tells that all the directions coincide. -/
def dphiAni {α : Type} (plus : α → α → α) (weight : α → α) (mode : String) (compute onAxis : Bool)
    (angular : Except PyErr α) (laser : Except PyErr (α × α × α)) : Except PyErr (Option α) :=
  if compute = false then .ok none
  else if mode = "SCAO" then
    if onAxis then .ok none
    else do
      let a ← angular
      let v := Val.triple ⟨a, none, none⟩           -- 238: the triple is not unpacked
      let r ← weighted weight v                       -- 249
      pure (some r)
  else if mode = "SLAO" then do
    let t ← laser
    let r ← weighted weight (.array (plus t.1 t.2.2))
    pure (some r)
  else .ok none

end P3.Aniso
