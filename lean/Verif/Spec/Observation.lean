import Verif.Model.Observation
import Mathlib.Algebra.BigOperators.Fin
/-
Specification of C371-C375: two descriptions of the same observation.
-/
namespace P3.Observation.Spec
open P3.Tomo P3.Observation

variable {g g' l l' lm lm' m q q' : ℕ}

/-- The weights the reconstruction gives to the modelled layers. -/
noncomputable def usedWeights (o : Obs g l lm m q) : Fin lm → ℝ :=
  if h : lm = l then fun n => o.w (Fin.cast h n) else o.wm

/-- The description `o'` splits (or permutes, or drops without strength) the layers of `o`: layer `n` of `o'` is a part of
layer `φ n` of `o`, at the same height and with the same wind, and the strengths of the parts add up; likewise with `ψ`
for the layers the reconstruction is based on. -/
structure SplitsLayers (o' : Obs g l' lm' m q) (o : Obs g l lm m q) (φ : Fin l' → Fin l) (ψ : Fin lm' → Fin lm) :
    Prop where
  stars : o'.stars = o.stars
  mirrors : o'.mirrors = o.mirrors
  noise : o'.noise = o.noise
  r0 : o'.r0 = o.r0
  L0 : o'.L0 = o.L0
  D : o'.D = o.D
  kc : o'.kc = o.kc
  circle : o'.circle = o.circle
  clock : o'.wind.clock = o.wind.clock
  rate : o'.wind.rate = o.wind.rate
  delay : o'.wind.delay = o.wind.delay
  h : ∀ n, o'.h n = o.h (φ n)
  speed : ∀ n, o'.wind.speed n = o.wind.speed (φ n)
  dirDeg : ∀ n, o'.wind.dirDeg n = o.wind.dirDeg (φ n)
  w : ∀ n, o.w n = ∑ n' with φ n' = n, o'.w n'
  hm : ∀ n, o'.hm n = o.hm (ψ n)
  wm : ∀ n, usedWeights o n = ∑ n' with ψ n' = n, usedWeights o' n'

/-- The description `o'` has several sensors where `o` has one: sensor `j` of `o'` looks at the star of sensor `φ j` of `o`
with the same sub-apertures and clock, and the inverse noise variances add up. -/
structure SplitsSensors (o' : Obs g' l lm m q) (o : Obs g l lm m q) (φ : Fin g' → Fin g) : Prop where
  d : ∀ j, o'.stars.d j = o.stars.d (φ j)
  dir : ∀ j, o'.stars.dir j = o.stars.dir (φ j)
  clock : ∀ j, o'.wind.clock j = o.wind.clock (φ j)
  noisy : ∀ j, 0 < o.noise j
  noisy' : ∀ j, 0 < o'.noise j
  noise : ∀ j, 1 / o.noise j = ∑ j' with φ j' = j, 1 / o'.noise j'
  speed : o'.wind.speed = o.wind.speed
  dirDeg : o'.wind.dirDeg = o.wind.dirDeg
  rate : o'.wind.rate = o.wind.rate
  delay : o'.wind.delay = o.wind.delay
  mirrors : o'.mirrors = o.mirrors
  h : o'.h = o.h
  w : o'.w = o.w
  hm : o'.hm = o.hm
  wm : o'.wm = o.wm
  r0 : o'.r0 = o.r0
  L0 : o'.L0 = o.L0
  D : o'.D = o.D
  kc : o'.kc = o.kc
  circle : o'.circle = o.circle

/-- The eight symmetries of the square: exchange of the axes or not, then a sign for each axis. -/
structure Sym where
  swap : Bool
  sx : ℤˣ
  sy : ℤˣ

/-- Action on a frequency, a direction or a velocity. -/
def Sym.act (ρ : Sym) (v : ℝ × ℝ) : ℝ × ℝ :=
  if ρ.swap then ((ρ.sx : ℤ) * v.2, (ρ.sy : ℤ) * v.1) else ((ρ.sx : ℤ) * v.1, (ρ.sy : ℤ) * v.2)

/-- The quarter turn. -/
def quarter : Sym := ⟨true, -1, 1⟩

/-- The description `o'` is `o` seen through the symmetry `ρ`: stars, optimisation directions and winds are transformed. -/
structure Turned (ρ : Sym) (o' o : Obs g l lm m q) : Prop where
  d : o'.stars.d = o.stars.d
  dir : ∀ j, o'.stars.dir j = ρ.act (o.stars.dir j)
  odir : ∀ j, o'.mirrors.dir j = ρ.act (o.mirrors.dir j)
  wind : ∀ n, (Real.cos (o'.wind.dirDeg n * Real.pi / 180), Real.sin (o'.wind.dirDeg n * Real.pi / 180)) =
    ρ.act (Real.cos (o.wind.dirDeg n * Real.pi / 180), Real.sin (o.wind.dirDeg n * Real.pi / 180))
  speed : o'.wind.speed = o.wind.speed
  clock : o'.wind.clock = o.wind.clock
  rate : o'.wind.rate = o.wind.rate
  delay : o'.wind.delay = o.wind.delay
  mh : o'.mirrors.h = o.mirrors.h
  mkc : o'.mirrors.kc = o.mirrors.kc
  mw : o'.mirrors.w = o.mirrors.w
  cond : o'.mirrors.cond = o.mirrors.cond
  noise : o'.noise = o.noise
  h : o'.h = o.h
  w : o'.w = o.w
  hm : o'.hm = o.hm
  wm : o'.wm = o.wm
  r0 : o'.r0 = o.r0
  L0 : o'.L0 = o.L0
  D : o'.D = o.D
  kc : o'.kc = o.kc
  circle : o'.circle = o.circle

/-- The description `o'` gives the optimisation directions of `o` several times or in another order, the weights of the
copies adding up. -/
structure SplitsDirections (o' : Obs g l lm m q') (o : Obs g l lm m q) (φ : Fin q' → Fin q) : Prop where
  dir : ∀ d, o'.mirrors.dir d = o.mirrors.dir (φ d)
  ow : ∀ d, o.mirrors.w d = ∑ d' with φ d' = d, o'.mirrors.w d'
  mh : o'.mirrors.h = o.mirrors.h
  mkc : o'.mirrors.kc = o.mirrors.kc
  cond : o'.mirrors.cond = o.mirrors.cond
  stars : o'.stars = o.stars
  wind : o'.wind = o.wind
  noise : o'.noise = o.noise
  h : o'.h = o.h
  w : o'.w = o.w
  hm : o'.hm = o.hm
  wm : o'.wm = o.wm
  r0 : o'.r0 = o.r0
  L0 : o'.L0 = o.L0
  D : o'.D = o.D
  kc : o'.kc = o.kc
  circle : o'.circle = o.circle

/-- The same observation computed at another science wavelength: the atmosphere is rescaled (`set_wvl`, atmosphere.py:44-46,
called at fourierModel.py:274) and the noise of the sensors is expressed at this wavelength
(`computeNoiseVarianceAtWavelength`, sensor.py:202-207). -/
noncomputable def atWavelength (o : Obs g l lm m q) (wvl wvl' : ℝ) : Obs g l lm m q :=
  { o with r0 := o.r0 * (wvl' / wvl) ^ (1.2 : ℝ), noise := fun j => o.noise j * (wvl / wvl') ^ 2 }

/-- Squared phase in squared nanometres of wavefront, `rad2nm**2`, fourierModel.py:773 and 925. -/
noncomputable def inNm (wvl x : ℝ) : ℝ := x * (wvl * 1e9 / 2 / Real.pi) ^ 2

end P3.Observation.Spec
