import Verif.Model.Py
import Mathlib.Analysis.SpecialFunctions.Pow.Real
import Mathlib.Analysis.SpecialFunctions.Gamma.Basic
import Mathlib.Analysis.SpecialFunctions.Trigonometric.Basic
/-
The `atmosphere` class.  Source: /repo/p3/aoSystem/atmosphere.py.  Numbers are reals; outer scales are
finite (the `inf` branches are noted where they are left out); the modified Bessel function `spc.kv(5/6, .)`
is a parameter `kv`.
-/
namespace P3.Atmosphere
open Real

/-- `layer`, atmosphere.py:19-26. -/
structure Layer where
  r0 : ℝ
  weight : ℝ
  height : ℝ
  L0 : ℝ
  wSpeed : ℝ
  wDir : ℝ

/-- Attributes of `atmosphere`, atmosphere.py:98-129. -/
structure Atm where
  r0 : ℝ
  wvl : ℝ
  weights : List ℝ
  heights : List ℝ
  wSpeed : List ℝ
  wDir : List ℝ
  L0 : ℝ
  layers : List Layer

/-- The outer-scale argument: a number (or one-element list) or a longer list. -/
inductive L0Arg | one (x : ℝ) | many (l : List ℝ)

/-- Element `i` of a list that is long enough. -/
def at' (l : List ℝ) (i : ℕ) : ℝ := l.getD i 0

/-- `np.sum(self.weights * x**(5/3))`. -/
noncomputable def wsum53 (w x : List ℝ) : ℝ := (List.zipWith (fun a b => a * b ^ ((5:ℝ)/3)) w x).sum

/-- `atmosphere.__init__`, atmosphere.py:87-129, for list wind arguments.  The lists are as long as `weights`
(checked before, aoSystem.py:382; shorter lists raise `IndexError` at l. 127). -/
noncomputable def mk (wvl r0 : ℝ) (weights heights wSpeed wDir : List ℝ) (L0 : L0Arg) : Atm :=
  let L0eff := match L0 with
    | .one x => x                                                                    -- 110
    | .many l => (wsum53 weights (l.take weights.length)) ^ ((3:ℝ)/5) / weights.sum  -- 113-114
  let L0l (i : ℕ) : ℝ := match L0 with
    | .one x => x                                                                    -- 111
    | .many l => at' l i
  { r0 := r0, wvl := wvl, weights := weights, heights := heights, wSpeed := wSpeed, wDir := wDir,
    L0 := L0eff,
    layers := (List.range weights.length).map (fun i =>
      { r0 := (at' weights i * r0 ^ (-(5:ℝ)/3)) ^ (-(3:ℝ)/5),                        -- 126
        weight := at' weights i, height := at' heights i, L0 := L0l i,
        wSpeed := at' wSpeed i, wDir := at' wDir i }) }

/-- `set_wvl`, atmosphere.py:44-47. -/
noncomputable def setWvl (a : Atm) (val : ℝ) : Atm :=
  { a with r0 := a.r0 * (val / a.wvl) ^ (1.2 : ℝ), wvl := val }

/-- `seeing`, atmosphere.py:49-52. -/
noncomputable def seeing (a : Atm) : ℝ := 3600 * 180 / π * 0.976 * a.wvl / a.r0

/-- `meanHeight`, atmosphere.py:72-75. -/
noncomputable def meanHeight (a : Atm) : ℝ := (wsum53 a.weights a.heights) ^ ((3:ℝ)/5)
/-- `meanWind`, atmosphere.py:77-80. -/
noncomputable def meanWind (a : Atm) : ℝ := (wsum53 a.weights a.wSpeed) ^ ((3:ℝ)/5)
/-- `tau0`, atmosphere.py:82-85. -/
noncomputable def tau0 (a : Atm) : ℝ := 0.314 * 1000 * a.r0 / meanWind a

/-- `slab`, atmosphere.py:133-143 (`IndexError` for an index outside the layers). -/
noncomputable def slab (a : Atm) (k : ℕ) : Except PyErr Atm :=
  match a.layers[k]? with
  | none => .error .indexError
  | some l => .ok (mk a.wvl l.r0 [1] [l.height] [l.wSpeed] [l.wDir] (.one l.L0))

/-! ### Phase statistics -/

/-- `c1`, atmosphere.py:195. -/
noncomputable def c1 : ℝ := (24 * Gamma (6/5) / 5) ^ ((5:ℝ)/6)
/-- `c2` of `variance`, `c3` of `covariance`, atmosphere.py:196, 207. -/
noncomputable def c3 : ℝ := Gamma (11/6) * Gamma (5/6) / (2 * π ^ ((8:ℝ)/3))
/-- `c2` of `covariance`, atmosphere.py:206. -/
noncomputable def c2 : ℝ := Gamma (11/6) / (2 ^ ((5:ℝ)/6) * π ^ ((8:ℝ)/3))

/-- `variance`, atmosphere.py:191-198. -/
noncomputable def variance (a : Atm) : ℝ := c1 * c3 * (a.L0 / a.r0) ^ ((5:ℝ)/3)

/-- `covariance` at one separation, atmosphere.py:200-222. -/
noncomputable def covariance (kv : ℝ → ℝ) (a : Atm) (rho : ℝ) : ℝ :=
  if rho = 0 then c1 * c3 * (a.L0 / a.r0) ^ ((5:ℝ)/3)
  else
    let u := 2 * π * rho / a.L0
    c1 * c2 * (a.L0 / a.r0) ^ ((5:ℝ)/3) * u ^ ((5:ℝ)/6) * kv u

/-- `structureFunction`, atmosphere.py:224-241, finite outer scale. -/
noncomputable def structureFunction (kv : ℝ → ℝ) (a : Atm) (rho : ℝ) : ℝ :=
  2 * (variance a - covariance kv a rho)

/-- `structureFunction` for an infinite outer scale, atmosphere.py:231-238. -/
noncomputable def structureFunctionInf (r0 rho : ℝ) : ℝ := 2 * c1 * (rho / r0) ^ ((5:ℝ)/3)

/-- `spectrum`, atmosphere.py:243-249. -/
noncomputable def spectrum (a : Atm) (k : ℝ) : ℝ :=
  a.r0 ^ (-(5:ℝ)/3) * ((24 * Gamma (6/5) / 5) ^ ((5:ℝ)/6) * (Gamma (11/6) ^ 2 / (2 * π ^ ((11:ℝ)/3)))) *
    (k ^ 2 + 1 / a.L0 ^ 2) ^ (-(11:ℝ)/6)

/-- The slab of layer `i` with the r0 reset as in atmosphere.py:262-263 and 280-281. -/
noncomputable def slabNow (a : Atm) (i : ℕ) (l : Layer) : Atm :=
  { mk a.wvl l.r0 [1] [l.height] [l.wSpeed] [l.wDir] (.one l.L0) with
    r0 := a.r0 * (at' a.weights i) ^ (-(3:ℝ)/5) }

/-- `angularCovariance`, atmosphere.py:251-266. -/
noncomputable def angularCovariance (kv : ℝ → ℝ) (a : Atm) (theta : ℝ) : ℝ :=
  (a.layers.mapIdx (fun i l => covariance kv (slabNow a i l) (l.height * tan theta))).sum

/-- `angularStructureFunction`, atmosphere.py:268-284. -/
noncomputable def angularStructureFunction (kv : ℝ → ℝ) (a : Atm) (theta : ℝ) : ℝ :=
  (a.layers.mapIdx (fun i l => 2 * (variance (slabNow a i l) -
    covariance kv (slabNow a i l) (l.height * tan theta)))).sum

/-- `temporalCovariance` at one delay, atmosphere.py:286-295: the covariance of the WHOLE atmosphere, once per
layer. -/
noncomputable def temporalCovariance (kv : ℝ → ℝ) (a : Atm) (tau : ℝ) : ℝ :=
  ((List.range a.layers.length).map (fun i => covariance kv a (at' a.wSpeed i * tau))).sum

end P3.Atmosphere
