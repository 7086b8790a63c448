import Verif.Model.Tomography
import Verif.Model.Psf
import Verif.Model.FrequencyDomain
/-
A whole tomographic observation: the reconstructor and the spectra of a target, from what the user gives
(fourierModel.py:358-422, 475-650, 1058-1090, 1185-1230).
-/
namespace P3.Observation
open Matrix P3.Tomo

/-- What the tomographic spectra depend on.  `h`, `w`: stretched heights and weights of the true layers
(fourierModel.py:385, 519-526); `hm`, `wm`: those of the modelled layers (487, 529-535); `noise`: `noiseVar` (512),
one per sensor; `kc`, `circle`: `freq.kcMax_` and the shape of the control area (frequencyDomain.py:57-68). -/
structure Obs (g l lm m q : ℕ) where
  stars : Stars g
  wind : Wind g l
  mirrors : Mirrors m q
  h : Fin l → ℝ
  w : Fin l → ℝ
  hm : Fin lm → ℝ
  wm : Fin lm → ℝ
  noise : Fin g → ℝ
  r0 : ℝ
  L0 : ℝ
  D : ℝ
  kc : ℝ
  circle : Bool

variable {g l lm m q : ℕ}

/-- `mskInAO_`, frequencyDomain.py:57-68. -/
noncomputable def Obs.inside (o : Obs g l lm m q) (k : ℝ × ℝ) : Bool := decide (Freq.mskIn o.circle o.kc k.1 k.2)

/-- The samples of the AO-corrected area, frequencyDomain.py:45-52: the frequencies `kxAO_`, `kyAO_` and the pixel
`[resAO//2, resAO//2]`, where the piston filter is set to zero. -/
structure Samples (ι : Type) where
  k : ι → ℝ × ℝ
  centre : ι → Bool

/-- `pistonFilterAO_`, frequencyDomain.py:50-52. -/
noncomputable def Obs.piston {ι : Type} (o : Obs g l lm m q) (S : Samples ι) (f : ι) : ℝ :=
  if S.centre f then 0 else Psf.pistonFilter o.D (kmod (S.k f))

/-- `kernel`, fourierModel.py:519-524. -/
noncomputable def Obs.kern {ι : Type} (o : Obs g l lm m q) (S : Samples ι) (f : ι) : ℝ :=
  kernel o.r0 o.L0 (o.piston S f) (S.k f)

/-- `Cb`, fourierModel.py:512-514, one variance per sensor. -/
noncomputable def Obs.cb (o : Obs g l lm m q) : Matrix (Fin g) (Fin g) ℂ := diagonal fun j => (o.noise j : ℂ)

/-- `Wtomo`, fourierModel.py:475-560, on the samples `S`. -/
noncomputable def Obs.tomo {ι : Type} (o : Obs g l lm m q) (pg : Matrix (Fin g) (Fin g) ℂ → Matrix (Fin g) (Fin g) ℂ)
    (S : Samples ι) : ι → Matrix (Fin lm) (Fin g) ℂ :=
  wtomo pg (fun f => mp o.stars o.hm (S.k f)) (fun f => cphiMod (o.kern S f) o.w o.wm) o.cb

/-- `W = matmul(Popt, Wtomo)`, fourierModel.py:370-372. -/
noncomputable def Obs.command {ι : Type} [Fintype ι] (o : Obs g l lm m q)
    (pg : Matrix (Fin g) (Fin g) ℂ → Matrix (Fin g) (Fin g) ℂ)
    (pm : Matrix (Fin m) (Fin m) ℂ → Matrix (Fin m) (Fin m) ℂ) (S : Samples ι) (f : ι) : Matrix (Fin m) (Fin g) ℂ :=
  popt pm o.mirrors o.hm S.k f * o.tomo pg S f

/-- `spatioTemporalPSD` of the source in direction `β`, fourierModel.py:1212-1226. -/
noncomputable def Obs.residual {ι : Type} [Fintype ι] (o : Obs g l lm m q)
    (pg : Matrix (Fin g) (Fin g) ℂ → Matrix (Fin g) (Fin g) ℂ)
    (pm : Matrix (Fin m) (Fin m) ℂ → Matrix (Fin m) (Fin m) ℂ) (S : Samples ι) (β : ℝ × ℝ) (f : ι) : ℝ :=
  residualPsd (o.inside (S.k f)) (pBetaL o.wind o.h β (S.k f)) (pdm o.mirrors.h o.mirrors.kc β (S.k f)) (o.command pg pm S f)
    (mpAlpha o.stars o.wind o.h (S.k f)) (cphi (o.kern S f) o.w) (o.piston S f)

/-- `noisePSD` of the source in direction `β` when the first noise variance is positive (1073), fourierModel.py:1076-1086. -/
noncomputable def Obs.noisePart {ι : Type} [Fintype ι] (o : Obs g l lm m q)
    (pg : Matrix (Fin g) (Fin g) ℂ → Matrix (Fin g) (Fin g) ℂ)
    (pm : Matrix (Fin m) (Fin m) ℂ → Matrix (Fin m) (Fin m) ℂ) (S : Samples ι) (β : ℝ × ℝ) (f : ι) : ℝ :=
  noisePsd (o.inside (S.k f)) (pdm o.mirrors.h o.mirrors.kc β (S.k f)) (o.command pg pm S f) o.cb (o.piston S f)
    o.wind.delay

end P3.Observation
