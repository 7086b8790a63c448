import Verif.Model.Py
import Mathlib.Analysis.SpecialFunctions.Sqrt
import Mathlib.Analysis.Real.Pi.Bounds
/-
Small hardware classes: actuator index conversion, `deformableMirror`, `detector`, `rtc`, and the photon counts
of `sensor`.  Sources under /repo/p3/aoSystem: deformableMirror.py 14-90, 182-195, detector.py 16-55,
rtc.py 15-33, sensor.py 21-54.
-/
namespace P3.Hardware
open Real

/-! ### Actuator indices -/

/-- `sub2ind`, deformableMirror.py:182-186, on one element (the code is element-wise on integer
arrays). -/
def sub2ind (R C : ℤ) (r c : ℤ) : ℤ :=
  let ind := r * C + c
  let ind := if ind < 0 then -1 else ind
  if ind ≥ R * C then -1 else ind

/-- `ind2sub`, deformableMirror.py:189-195, on one element: numpy `%` is the floored modulus, `/` the
true division, `astype('int')` truncation. -/
def ind2sub (R C : ℤ) (ind : ℤ) : ℤ × ℤ :=
  let ind := if ind < 0 then -1 else ind
  let ind := if ind ≥ R * C then -1 else ind
  let cols := Int.fmod ind C
  let rows := Int.tdiv (ind - cols) R
  (rows, cols)

/-! ### Deformable mirrors -/

/-- The errors of `deformableMirror.__init__`. -/
inductive DMErr | sizes | weights | inhomogeneous | noCoupling
  deriving DecidableEq

/-- Attributes of `deformableMirror` (deformableMirror.py:46-80). -/
structure DMs (α : Type) where
  nActu : List ℕ
  pitch : List α
  heights : List α
  coupling : List α
  optZen : List α
  optAz : List α
  optW : List α

/-- The mechanical couplings, deformableMirror.py:56-64. -/
def padCoupling {α : Type} (coupling : List α) (n : ℕ) : Except DMErr (List α) :=
  if coupling.length < n then
    match coupling with
    | [] => .error .noCoupling
    | x :: _ => .ok (List.replicate n x)
  else if coupling.length > n then .ok (coupling.take n)
  else .ok coupling

/-- `deformableMirror.__init__`, deformableMirror.py:27-90, with list arguments, default
`validActuator`, no resolution; the precision check is in `P3.Config.telescopeStage`. `np.array` of two
rows of unequal lengths raises (l. 76). -/
def mkDM {α : Type} (nActu : List ℕ) (pitch heights coupling optZen optAz optW : List α) :
    Except DMErr (DMs α) :=
  if ¬ (nActu.length = pitch.length ∧ heights.length = pitch.length) then .error .sizes  -- 51-53
  else match padCoupling coupling pitch.length with
  | .error e => .error e
  | .ok c =>
    if ¬ optZen.length = optAz.length then .error .inhomogeneous                     -- 76
    else if ¬ optZen.length = optW.length then .error .weights                       -- 78-79
    else .ok ⟨nActu, pitch, heights, c, optZen, optAz, optW⟩

/-- `nValidActuator`, deformableMirror.py:16-17 with the default all-true maps of l. 83-84. -/
def nValid {α : Type} (d : DMs α) : List ℕ := d.nActu.map (fun n => n * n)

/-- `nControlledRadialOrder`, deformableMirror.py:19-22: `np.sqrt(2*n).astype(int) - 1`; truncation of the
square root of a natural number is the integer square root. -/
def nControlledRadialOrder {α : Type} (d : DMs α) : List ℤ :=
  (nValid d).map (fun n => (Nat.sqrt (2 * n) : ℤ) - 1)

/-! ### Detector -/

/-- A scalar or a list argument. -/
inductive Scale | one (x : ℚ) | many (l : List ℚ)

/-- Errors of `detector.__init__`. -/
inductive DetErr | spectral | py (e : PyErr)
  deriving DecidableEq

/-- Attributes of `detector` used here. -/
structure Det where
  fovArcsec : Scale
  dispersion : List (List ℚ)
  transmittance : List ℚ
  nWvl : ℕ

/-- Field of view in arcsec, detector.py:25-32. -/
def fovArcsec (pix fov : Scale) : Except PyErr Scale :=
  match fov, pix with
  | .many f, .many p =>
      if f.length ≤ p.length then .ok (.many (List.zipWith (fun a b => a * b / 1000) p f))
      else .error .indexError
  | .many f, .one p => .ok (.many (f.map (fun x => p * x / 1000)))
  | .one f, .many p => .ok (.many (p.map (fun x => x * f / 1000)))
  | .one f, .one p => .ok (.one (p * f / 1000))

/-- `detector.__init__`, detector.py:16-55. -/
def mkDetector (pix fov : Scale) (transmittance : List ℚ) (dispersion : List (List ℚ)) :
    Except DetErr Det :=
  match fovArcsec pix fov with
  | .error e => .error (.py e)
  | .ok f =>
    match dispersion with
    | [] => .error (.py .indexError)
    | row :: _ =>
      if row.length ≠ transmittance.length then .error .spectral                     -- 42-43
      else .ok ⟨f, dispersion, transmittance, transmittance.length⟩

/-! ### RTC -/

/-- A control loop of `rtc`. `bandwidth` is `none` when numpy yields `nan`/`inf` or raises: the delay
is -1/2 or the ratio under the root is negative. -/
structure Loop where
  gain : ℝ
  rate : ℝ
  delay : ℝ
  bandwidth : Option ℝ

/-- Bandwidth, rtc.py:24 and 33: `rate/2/pi*sqrt(gain/(1 + 2*delay))`. -/
noncomputable def bandwidth (gain rate delay : ℝ) : Option ℝ :=
  if 1 + 2 * delay = 0 ∨ gain / (1 + 2 * delay) < 0 then none
  else some (rate / 2 / π * sqrt (gain / (1 + 2 * delay)))

/-- The attributes of `rtc`; `ttloop = none` when the attribute is not set. -/
structure Rtc where
  holoop : Loop
  ttloop : Option Loop

/-- `rtc.__init__`, rtc.py:15-33. -/
noncomputable def mkRtc (gH rH dH : ℝ) (gL rL dL : Option ℝ) : Rtc :=
  { holoop := ⟨gH, rH, dH, bandwidth gH rH dH⟩
    ttloop :=
      match gL, rL, dL with
      | some g, some r, some d => some ⟨g, r, d, bandwidth g r d⟩
      | _, _, _ => none }

/-! ### Photon counts of the wavefront sensors -/

/-- An element of the photon-count list: a number, or a list (put there by `append([0]*k)`). -/
inductive Count | num (q : ℚ) | lst (l : List ℚ)
  deriving DecidableEq

/-- Padding of the photon counts and their distribution, sensor.py:47-51. The argument is a Python list:
`append` changes the caller's object. Returns the caller's list afterwards and the counts given to
the sensors (`nph[k]` for `k < nWfs`). -/
def photonCounts (nWfs : ℕ) (l : List Count) : List Count × Except PyErr (List Count) :=
  let l' := if l.length < nWfs then l ++ [.lst (List.replicate (nWfs - l.length) 0)] else l
  (l', if nWfs ≤ l'.length then .ok (l'.take nWfs) else .error .indexError)

end P3.Hardware
