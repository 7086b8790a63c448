import Verif.Model.Noise
import Verif.Model.Atmosphere
import Verif.Model.Hardware
/-
`aoSystem.errorBreakdown`.  Source: /repo/p3/aoSystem/aoSystem.py lines 997-1068, and
`focal_anisoplanatism_variance`, /repo/p3/aoSystem/anisoplanatismModel.py lines 118-137.
numpy's `nan`/`inf` is `none`.
-/
namespace P3.Breakdown
open Real P3.Atmosphere P3.Hardware

/-- What `errorBreakdown` reads of the AO system.  `hoNoise`/`ttNoise` is the noise variance found in the
parameter file (`none` when absent, i.e. `[None]`). -/
structure Sys where
  D : ℝ
  atm : Atm
  pitch : ℝ
  nCtrl : ℤ
  wfs : Noise.Sensor
  hoNoise : Option (List ℝ)
  rtc : Rtc
  tts : Option (Noise.Sensor × Option (List ℝ))
  lgsHeight : Option ℝ
  srcWvl : ℝ

/-- Exceptions. -/
inductive Err | noise (e : Noise.Err) | py (e : PyErr)
  deriving DecidableEq

/-- The dictionary `self.wfe`. -/
structure Wfe where
  fitting : Option ℝ
  aliasing : Option ℝ
  hoLag : Option ℝ
  hoNoise : Option ℝ
  ttLag : Option ℝ
  ttNoise : Option ℝ
  focal : Option ℝ
  total : Option ℝ
  strehl : Option ℝ

/-- `np.sqrt`: `nan` for a negative argument. -/
noncomputable def sqrtO (x : ℝ) : Option ℝ := if x < 0 then none else some (sqrt x)

/-- `rad2nm`, aoSystem.py:1002. -/
noncomputable def rad2nm (wvl x : ℝ) : Option ℝ := (sqrtO x).map (fun y => y * wvl * 10 ^ 9 / 2 / π)

/-- `np.mean`: `nan` for an empty array or if an element is `nan`. -/
noncomputable def mean (l : List (Option ℝ)) : Option ℝ :=
  if l = [] then none else (l.mapM id).map (fun v => v.sum / v.length)

/-- `focal_anisoplanatism_variance`, anisoplanatismModel.py:118-137 (in nm, despite its name).
Division by a zero laser height does not occur: the caller tests `height > 0`. -/
noncomputable def focal (D zLgs : ℝ) (a : Atm) : Option ℝ :=
  let var := (List.zipWith (fun w h => if h > 0 then w * (0.5 * (h / zLgs) ^ ((5:ℝ)/3)
      - 0.425 * (h / zLgs) ^ 2) else 0) a.weights a.heights).sum
  (sqrtO (var * (D / a.r0) ^ ((5:ℝ)/3))).map (fun y => y * (a.wvl * 10 ^ 9 / 2 / π))

/-- `sum((nrad+1)**(-2/3))` over `range(nMin, nMax)`, aoSystem.py:1018-1027. `int` truncates a
non-negative number: `n + 1 ≥ 0`. -/
noncomputable def modesSum (nMin : ℕ) (nCtrl : ℤ) : ℝ :=
  let nMax := ⌊sqrt (π * 0.5 ^ 2) * (nCtrl + 1)⌋.toNat
  ((List.range' nMin (nMax - nMin)).map (fun n : ℕ => ((n : ℝ) + 1) ^ (-(2:ℝ)/3))).sum

/-- Servo-lag term: `rad2nm(0.04*(meanWind/D/bandwidth)*Dr053*s)`; a `nan` or zero bandwidth gives `nan`. -/
noncomputable def lag (S : Sys) (bw : Option ℝ) (s : ℝ) : Option ℝ :=
  bw.bind fun b => if b = 0 then none else
    rad2nm S.atm.wvl (0.04 * (meanWind S.atm / S.D / b) * (S.D / S.atm.r0) ^ ((5:ℝ)/3) * s)

/-- High-order noise variances, aoSystem.py:1029-1032.  The value from the file is a numpy array
(l. 567), so `== [None]` is an array: its truth value is an error with two elements or more. -/
noncomputable def hoNoiseVar (S : Sys) : Except Err (List (Option ℝ)) :=
  match S.hoNoise with
  | some l => if 2 ≤ l.length then .error (.py .ambiguous) else .ok (l.map some)
  | none => match Noise.noiseVariance S.wfs S.atm.r0 S.atm.wvl with
    | .error e => .error (.noise e)
    | .ok l => .ok l

/-- Tip-tilt noise variances, aoSystem.py:1041-1048: the value from the file is a Python list (l. 940);
otherwise the sensor is evaluated with `r0 = dsub`. -/
noncomputable def ttNoiseVar (S : Sys) (t : Noise.Sensor × Option (List ℝ)) :
    Except Err (List (Option ℝ)) :=
  match t.2 with
  | some l => .ok (l.map some)
  | none => match t.1.wfs with
    | [] => .error (.py .indexError)
    | w :: _ => match Noise.noiseVariance t.1 w.dsub S.atm.wvl with
      | .error e => .error (.noise e)
      | .ok l => .ok l

/-- `hasattr(self.rtc,'ttloop') and self.tts is not None`. -/
def ttPart (S : Sys) : Option (Loop × (Noise.Sensor × Option (List ℝ))) :=
  match S.rtc.ttloop, S.tts with
  | some l, some t => some (l, t)
  | _, _ => none

/-- Square of an option. -/
def sq (x : Option ℝ) : Option ℝ := x.map (fun v => v ^ 2)
/-- Sum of options. -/
def add (x y : Option ℝ) : Option ℝ := x.bind fun a => y.map fun b => a + b

/-- Lines 1061-1068: the total and the Strehl ratio. -/
noncomputable def finish (S : Sys) (f a hl hn tl tn fo : Option ℝ) : Wfe :=
  let t := (add (add (add (add (add (add (sq f) (sq a)) (sq hl)) (sq hn)) (sq tl)) (sq tn)) (sq fo)).bind sqrtO
  { fitting := f, aliasing := a, hoLag := hl, hoNoise := hn, ttLag := tl, ttNoise := tn, focal := fo,
    total := t
    strehl := t.map (fun T => exp (-T ^ 2 * (2 * π * (1 / 10 ^ 9) / S.srcWvl) ^ 2)) }

/-- Lines 1054-1058. -/
noncomputable def focalTerm (S : Sys) : Option ℝ :=
  match S.lgsHeight with
  | none => some 0
  | some z => if z > 0 then focal S.D z S.atm else some 0

/-- `errorBreakdown`, aoSystem.py:997-1068. -/
noncomputable def errorBreakdown (S : Sys) : Except Err Wfe :=
  match S.wfs.wfs with
  | [] => .error (.py .indexError)
  | w :: _ =>
    let f := rad2nm S.atm.wvl (0.23 * (S.pitch / S.atm.r0) ^ ((5:ℝ)/3))
    let a := rad2nm S.atm.wvl (0.07 * (w.dsub / S.atm.r0) ^ ((5:ℝ)/3))
    let nMin := if (ttPart S).isSome then 3 else 1
    let hl := lag S S.rtc.holoop.bandwidth (modesSum nMin S.nCtrl)
    let fo := focalTerm S
    match hoNoiseVar S with
    | .error e => .error e
    | .ok vn =>
      let hn := (mean vn).bind (rad2nm S.atm.wvl)
      match ttPart S with
      | none => .ok (finish S f a hl hn (some 0) (some 0) fo)
      | some (l, t) =>
        match ttNoiseVar S t with
        | .error e => .error e
        | .ok vt =>
          .ok (finish S f a hl hn (lag S l.bandwidth ((2:ℝ) ^ (-(2:ℝ)/3)))
            ((mean vt).bind (rad2nm S.atm.wvl)) fo)

end P3.Breakdown
