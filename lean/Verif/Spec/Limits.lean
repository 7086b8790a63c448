import Verif.Model.Observation
import Verif.Model.Spectra
/-
Specification of C401-C404: other units of length, and other noises.
-/
namespace P3.Limits.Spec
open P3.Observation P3.Spectra

variable {g l lm m q : ℕ}

/-- A system with one guide star described in a unit of length `a` times smaller: lengths and speeds have values `a` times larger, the
cut-off frequency has a value `a` times smaller. -/
noncomputable def inUnit (s : Sys) (a : ℝ) : Sys :=
  { s with hs := fun n => a * s.hs n, speed := fun n => a * s.speed n, r0 := a * s.r0, L0 := a * s.L0, D := a * s.D,
           dsub := a * s.dsub, kc := s.kc / a }

/-- A frequency in this unit. -/
noncomputable def freqIn (a : ℝ) (k : ℝ × ℝ) : ℝ × ℝ := (k.1 / a, k.2 / a)

/-- Samples at the frequencies in another unit. -/
noncomputable def samplesIn {ι : Type} (S : Samples ι) (a : ℝ) : Samples ι := ⟨fun f => freqIn a (S.k f), S.centre⟩

/-- A tomographic observation in a unit of length `a` times smaller. -/
noncomputable def inUnitObs (o : Obs g l lm m q) (a : ℝ) : Obs g l lm m q :=
  { stars := { o.stars with d := fun j => a * o.stars.d j },
    wind := { o.wind with speed := fun n => a * o.wind.speed n },
    mirrors := { o.mirrors with h := fun i => a * o.mirrors.h i, kc := fun i => o.mirrors.kc i / a },
    h := fun n => a * o.h n, w := o.w, hm := fun n => a * o.hm n, wm := o.wm, noise := o.noise,
    r0 := a * o.r0, L0 := a * o.L0, D := a * o.D, kc := o.kc / a, circle := o.circle }

/-- A guide star with noise of variance `v`. -/
noncomputable def withNoise (s : Sys) (v : ℝ) : Sys := { s with var := v }

/-- Guide stars with all noise variances multiplied by `t`. -/
noncomputable def noisier (o : Obs g l lm m q) (t : ℝ) : Obs g l lm m q := { o with noise := fun j => t * o.noise j }

end P3.Limits.Spec
