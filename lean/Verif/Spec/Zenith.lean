import Verif.Model.Observation
import Verif.Model.Spectra
/-
Specification of C395-C400.
-/
namespace P3.Zenith.Spec
open P3.Observation P3.Spectra

/-- Cosine of an angle in degrees. -/
noncomputable def cosDeg (z : ℝ) : ℝ := Real.cos (z * Real.pi / 180)

variable {g l lm m q : ℕ}

/-- A tomographic observation seen through `a` times more air: layers `a` times further, turbulence `a` times stronger
(`r0^(-5/3)` times `a`). The mirrors are where they are in the instrument. -/
noncomputable def through (o : Obs g l lm m q) (a : ℝ) : Obs g l lm m q :=
  { o with h := fun n => o.h n * a, hm := fun n => o.hm n * a, r0 := o.r0 * a ^ (-(3:ℝ)/5) }

/-- The observation of a field `a` times larger, with turbulence `a` times stronger and mirrors `a` times lower. -/
noncomputable def wider (o : Obs g l lm m q) (a : ℝ) : Obs g l lm m q :=
  { o with stars := { o.stars with dir := fun j => (a * (o.stars.dir j).1, a * (o.stars.dir j).2) },
           mirrors := { o.mirrors with h := fun n => o.mirrors.h n / a,
                                       dir := fun d => (a * (o.mirrors.dir d).1, a * (o.mirrors.dir d).2) },
           r0 := o.r0 * a ^ (-(3:ℝ)/5) }

/-- A system with one guide star observing through `a` times more air. -/
noncomputable def throughSys (s : Sys) (a : ℝ) : Sys := { s with hs := fun n => s.hs n * a, r0 := s.r0 * a ^ (-(3:ℝ)/5) }

/-- A system with one guide star and turbulence `a` times stronger. -/
noncomputable def stronger (s : Sys) (a : ℝ) : Sys := { s with r0 := s.r0 * a ^ (-(3:ℝ)/5) }

end P3.Zenith.Spec
