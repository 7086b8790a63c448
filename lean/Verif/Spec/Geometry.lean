import Verif.Model.Observation
import Verif.Model.Spectra
/-
Specification of C381-C385: changes of an observation that leave relative directions, products of heights and angles, or
displacements in units of the loop period as they are.
-/
namespace P3.Observation.Spec
open P3.Tomo P3.Observation

variable {g l lm m q : ℕ}

/-- The observation with all directions (guide stars and optimisation directions) displaced by `δ`. -/
def pointed (o : Obs g l lm m q) (δ : ℝ × ℝ) : Obs g l lm m q :=
  { o with stars := { o.stars with dir := fun j => o.stars.dir j + δ },
           mirrors := { o.mirrors with dir := fun d => o.mirrors.dir d + δ } }

/-- The observation with heights (layers and mirrors) multiplied by `x` and angles divided by it. -/
noncomputable def stretchedBy (o : Obs g l lm m q) (x : ℝ) : Obs g l lm m q :=
  { o with h := fun n => x * o.h n, hm := fun n => x * o.hm n,
           stars := { o.stars with dir := fun j => ((o.stars.dir j).1 / x, (o.stars.dir j).2 / x) },
           mirrors := { o.mirrors with h := fun n => x * o.mirrors.h n,
                                       dir := fun d => ((o.mirrors.dir d).1 / x, (o.mirrors.dir d).2 / x) } }

/-- The observation with winds and loop `x` times faster. -/
noncomputable def faster (o : Obs g l lm m q) (x : ℝ) : Obs g l lm m q :=
  { o with wind := { o.wind with speed := fun n => x * o.wind.speed n, rate := x * o.wind.rate } }

/-- The single-star system with winds and loop `x` times faster. -/
noncomputable def fasterSys (s : P3.Spectra.Sys) (x : ℝ) : P3.Spectra.Sys :=
  { s with speed := fun n => x * s.speed n, rate := x * s.rate }

/-- The observation with another delay of the loop, in frames. -/
def delayed (o : Obs g l lm m q) (τ : ℝ) : Obs g l lm m q := { o with wind := { o.wind with delay := τ } }

/-- Displacement, in the pupil, of layer `n` seen towards `β` after the delay of the loop: position of the line of sight minus
the way of the wind. -/
noncomputable def displacement (o : Obs g l lm m q) (β : ℝ × ℝ) (n : Fin l) : ℝ × ℝ :=
  (o.h n * β.1 - o.wind.delay / o.wind.rate * o.wind.speed n * Real.cos (o.wind.dirDeg n * Real.pi / 180),
   o.h n * β.2 - o.wind.delay / o.wind.rate * o.wind.speed n * Real.sin (o.wind.dirDeg n * Real.pi / 180))

end P3.Observation.Spec
