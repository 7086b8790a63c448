import Verif.Model.FourierModel
import Verif.Model.Breakdown
/-
The run of the Fourier model: error breakdown from the integrals of the PSD, repeated computation, heights of the
modelled layers.  Source: /repo/p3/aoSystem/fourierModel.py:161-303 and 1635-1735.  Real arithmetic; `none` is a numpy
`nan`.
-/
namespace P3.FRun
open Finset P3.Fourier P3.Breakdown

/-! ### What the breakdown reads -/

/-- The arrays left by `powerSpectrumDensity` (fourierModel.py:767-927) on a frequency grid `ι`, per source where the
code has a third axis, and the flags that decide which of them exist.  `block` is the central block `[id1:id2, id1:id2]`
of the AO-corrected area (786-788). -/
structure Run (ι : Type) where
  grid : Finset ι
  block : ι → Bool
  noise : ℕ → ι → ℝ
  aliasing : ι → ℝ
  diffRef : ℕ → ι → ℝ
  chrom : ℕ → ι → ℝ
  st : ℕ → ι → ℝ
  /-- `focalAnisoplanatismPSD()` -/
  cone : ι → ℝ
  /-- `mcaoWFsensConePSD(psd)`, as a function of the PSD so far -/
  mcao : ℕ → ι → ℝ → ℝ
  fit : ι → ℝ
  vib : ι → ℝ
  /-- `TiltFilter()` -/
  tilt : ι → ℝ
  /-- extra error added to each source, 883-900 -/
  extra : ℕ → ι → ℝ
  /-- `(2*kcMax_/resAO) * wvlRef*1e9/2/pi`, 1642 (the `dk*rad2nm` of 772-773 and 927) -/
  u : ℝ
  nGs : ℕ
  /-- `gs.height[0]` -/
  height : ℝ
  /-- `ao.addMcaoWFsensConeError` -/
  addMcao : Bool
  /-- `applyTiltFilter` -/
  tiltOn : Bool
  /-- `ao.windPsdFile != 0` -/
  wind : Bool
  /-- `ao.tel.opdMap_on[ao.tel.pupil != 0]`, or no map -/
  opd : Option (List ℝ)
  /-- `ao.tel.D` -/
  D : ℝ
  /-- `ao.cam.spotFWHM[0][0:2]` -/
  spot : ℝ × ℝ
  /-- `ao.tel.extraErrorNm` -/
  extraNm : ℝ
  /-- `freq.wvlRef` -/
  wvlRef : ℝ
  /-- `ao.rtc.holoop['gain'] != 0` -/
  closed : Bool

variable {ι : Type}

/-- The contributions at one frequency for one source, with the conditions of lines 826, 839, 863 and 872. -/
noncomputable def Run.terms (r : Run ι) (s : ℕ) (i : ι) : Terms where
  noise := r.noise s i
  aliasing := r.aliasing i
  diffRef := r.diffRef s i
  chrom := r.chrom s i
  st := r.st s i
  cone := if r.nGs = 1 ∧ r.height ≠ 0 then r.cone i else 0
  mcao := if r.addMcao = true ∧ r.nGs ≠ 1 ∧ r.height ≠ 0 then r.mcao s i else fun _ => 0
  fit := r.fit i
  vib := if r.tiltOn = false ∧ r.wind = true then r.vib i else 0
  tilt := if r.tiltOn then r.tilt i else 1
  extra := r.extra s i

/-- The PSD returned for a source, closed loop without normalisation. -/
noncomputable def Run.psd (r : Run ι) (s : ℕ) (i : ι) : ℝ := psdFinal r.u none (r.block i) (r.terms s i)

/-- Sum of an array of the AO-corrected area (`.sum()` or `.sum(axis=(0,1))`). -/
noncomputable def Run.sumAO (r : Run ι) (a : ι → ℝ) : ℝ := ∑ i ∈ r.grid, if r.block i then a i else 0
/-- Sum of an array of the full grid. -/
noncomputable def Run.sumAll (r : Run ι) (a : ι → ℝ) : ℝ := ∑ i ∈ r.grid, a i

/-- `psdMcaoWFsensCone[:, :, s]`, lines 839-843. -/
noncomputable def Run.mcaoArr (r : Run ι) (s : ℕ) (i : ι) : ℝ :=
  (r.terms s i).mcao ((if r.block i then (r.terms s i).noise + (r.terms s i).aliasing + (r.terms s i).diffRef +
    (r.terms s i).chrom + (r.terms s i).st else 0) + (r.terms s i).cone)

/-! ### The breakdown -/

/-- `np.std` of a list: `nan` if it is empty. -/
noncomputable def std (l : List ℝ) : Option ℝ :=
  if l = [] then none
  else
    let m := l.sum / l.length
    some (Real.sqrt ((l.map (fun x => (x - m) ^ 2)).sum / l.length))

/-- `np.sqrt(x) * rad2nm`, lines 1649-1654. -/
noncomputable def rms (u x : ℝ) : Option ℝ := (sqrtO x).map (fun y => y * u)

/-- `wfeNCPA`, lines 1644-1647. -/
noncomputable def Run.wfeNcpa (r : Run ι) : Option ℝ :=
  match r.opd with
  | some l => std l
  | none => some 0

/-- `wfeJitter`, line 1655, with `rad2mas = 3600*180*1000/pi`. -/
noncomputable def Run.wfeJitter (r : Run ι) : ℝ :=
  1e9 * r.D * ((r.spot.1 + r.spot.2) / 2) / (3600 * 180 * 1000 / Real.pi) / 4

/-- `wfeMcaoCone`, lines 1656-1659: the array exists only if it was computed (839); the first source is read for all. -/
noncomputable def Run.wfeMcao (r : Run ι) : Except PyErr (Option ℝ) :=
  if r.addMcao then
    if r.nGs ≠ 1 ∧ r.height ≠ 0 then .ok (rms r.u (r.sumAll (r.mcaoArr 0)))
    else .error .attributeError
  else .ok (some 0)

/-- `wfeWindShake`, lines 1660-1663. -/
noncomputable def Run.wfeWind (r : Run ι) : Option ℝ :=
  if r.tiltOn = false ∧ r.wind = true then rms r.u (r.sumAO r.vib) else some 0

/-- Root of the sum of the squares, lines 1679-1682. -/
noncomputable def quad (l : List (Option ℝ)) : Option ℝ := (l.foldl (fun a x => add a (sq x)) (some 0)).bind sqrtO

/-- What is reported for a source. -/
structure Report where
  ncpa : Option ℝ
  fit : Option ℝ
  aliasing : Option ℝ
  noise : Option ℝ
  st : Option ℝ
  diffRef : Option ℝ
  chrom : Option ℝ
  jitter : ℝ
  mcao : Option ℝ
  wind : Option ℝ
  extra : ℝ
  total : Option ℝ

/-- `errorBreakDown`, lines 1640-1682, for source `s`; nothing is computed in open loop (1640). -/
noncomputable def Run.breakdown (r : Run ι) (s : ℕ) : Except PyErr (Option Report) :=
  if r.closed then do
    let mc ← r.wfeMcao
    let ncpa := r.wfeNcpa
    let fit := rms r.u (r.sumAll r.fit)
    let al := rms r.u (r.sumAO r.aliasing)
    let n := rms r.u (r.sumAO (r.noise s))
    let st := rms r.u (r.sumAO (r.st s))
    let dr := rms r.u (r.sumAO (r.diffRef s))
    let ch := rms r.u (r.sumAO (r.chrom s))
    let j := r.wfeJitter
    let w := r.wfeWind
    pure (some ⟨ncpa, fit, al, n, st, dr, ch, j, mc, w, r.extraNm,
      quad [ncpa, fit, al, st, n, dr, ch, some j, mc, w, some r.extraNm]⟩)
  else pure none

/-- `SRmar`, line 1685. -/
noncomputable def marechal (wvlRef tot : ℝ) : ℝ := 100 * Real.exp (-(tot * 2 * Real.pi * 1e-9 / wvlRef) ^ 2)

/-- `wfeTomo`, line 1695, for the spatio-temporal error of a source and the servo-lag error. -/
noncomputable def wfeTomo (wst ws : ℝ) : Option ℝ := sqrtO (wst ^ 2 - ws ^ 2)

/-- `wfeR`, line 1690: `sqrt(max(0, sum)) * rad2nm`. -/
noncomputable def wfeRec (u x : ℝ) : Option ℝ := rms u (max 0 x)

/-! ### Running the computation again -/

/-- `noiseVar`: the list `[None]` or a numpy array. -/
inductive NoiseVar
  | unset
  | arr (v : List ℝ)

/-- The state kept in the AO system between two runs: the wavelength of the atmosphere and the noise variances. -/
structure State where
  wvl : ℝ
  noise : NoiseVar

/-- What a run can raise: the check of the field of view (251-253), or a numpy error. -/
inductive RunErr
  | fov
  | py (e : PyErr)

/-- `if noiseVar == [None]`, line 259: for an array the comparison is made element by element, and the truth value of
an array of several elements is refused. -/
def isUnset : NoiseVar → Except RunErr Bool
  | .unset => .ok true
  | .arr v => if 2 ≤ v.length then .error (.py .ambiguous) else .ok false

/-- `initComputations`, fourierModel.py:161-303, as far as it changes the AO system: field-of-view check with the
present wavelength of the atmosphere (242-253, frequencyDomain.py:74-78), noise variances (259-270; `computed` is the
value of the noise model for all sensors), wavelength of the atmosphere (274). -/
noncomputable def initRun (kcMax ps : ℝ) (nOtf : ℕ) (wvlRef : ℝ) (computed : List ℝ) (s : State) :
    Except RunErr State :=
  open Classical in
  if ¬ P3.Freq.fovCheck kcMax s.wvl ps nOtf then .error .fov
  else match isUnset s.noise with
    | .error e => .error e
    | .ok true => .ok ⟨wvlRef, .arr computed⟩
    | .ok false => .ok ⟨wvlRef, s.noise⟩

/-! ### Heights of the modelled layers -/

/-- A floating-point number after divisions: `nan` or a number (`inf` occurs only in between). -/
abbrev Fl := Option ℝ

/-- `strechFactor` of a true layer, fourierModel.py:177-187: `lgs` is the height of the laser guide star object if there
is one. -/
noncomputable def stretch (lgs : Option ℝ) (h : ℝ) : Fl :=
  match lgs with
  | none => some 1
  | some H => if H = 0 then some 1 else if 1 - h / H = 0 then none else some (1 / (1 - h / H))

/-- `strechFactor_mod` when the profile is compressed, fourierModel.py:220-224: the height of the guide star is not
tested.  With a height of zero, `h/0` is `inf` for `h > 0` (`1/(1 - inf) = -0`), `-inf` for `h < 0` (`0`) and `nan` for
`h = 0`. -/
noncomputable def stretchMod (lgs : Option ℝ) (h : ℝ) : Fl :=
  match lgs with
  | none => some 1
  | some H => if H = 0 then (if h = 0 then none else some 0) else if 1 - h / H = 0 then none else some (1 / (1 - h / H))

/-- `Hs_mod = atm_mod.heights * strechFactor_mod`, fourierModel.py:487, with 200-231: `strechFactor_mod` is that of the
true layers unless the profile is compressed. -/
noncomputable def heightMod (compressed : Bool) (lgs : Option ℝ) (h : ℝ) : Fl :=
  (if compressed then stretchMod lgs h else stretch lgs h).map (fun f => h * f)

/-! ### Noise of the sensor -/

/-- `r0_wfs`, sensor.py:198 with `r0_at_500nm = ao.atm.r0` (fourierModel.py:261-265): `r0` is the Fried parameter at
the wavelength of the atmosphere. -/
noncomputable def r0Wfs (r0 wvlWfs : ℝ) : ℝ := r0 * (wvlWfs / 500e-9) ^ (6/5 : ℝ)

end P3.FRun
