import Verif.Model.Grid
import Mathlib.Analysis.SpecialFunctions.Trigonometric.Basic
import Mathlib.Analysis.SpecialFunctions.Pow.Real
/-
The frequency domain.  Source: /repo/p3/aoSystem/frequencyDomain.py, and `freq_array`, `shift_array`,
`create_wavelength_vector` of /repo/p3/aoSystem/FourierUtils.py.  Numbers are reals.
-/
namespace P3.Freq
open Real

/-! ### Wavelengths -/

/-- `np.unique`: sorted without repetition. -/
noncomputable def unique (l : List ℝ) : List ℝ := l.dedup.mergeSort (· ≤ ·)

/-- One step of the loop of `create_wavelength_vector`, FourierUtils.py:670-674. -/
noncomputable def stepCreate (bw : ℝ) (nBin : ℕ) (arr : List ℝ) (p : ℕ × ℝ) : Except PyErr (List ℝ) :=
  assignSlice arr (p.1 * nBin) ((p.1 + 1) * nBin) (linspace (p.2 - bw / 2) (p.2 + bw / 2) nBin)

/-- `enumerate` of the centres. -/
def enum (cs : List ℝ) : List (ℕ × ℝ) := (List.range cs.length).zip cs

/-- `create_wavelength_vector`, FourierUtils.py:642-676, after `np.unique`. -/
noncomputable def createWvl (cs : List ℝ) (bw : ℝ) (nBin : ℕ) : Except PyErr (List ℝ) :=
  (enum cs).foldlM (stepCreate bw nBin) (List.replicate (nBin * cs.length) 0)

/-- One step of the loop of `frequencyDomain.__init__`, frequencyDomain.py:112-114: the slice starts at `j`
instead of `j*nBin`. -/
noncomputable def stepFreq (bw : ℝ) (nBin : ℕ) (arr : List ℝ) (p : ℕ × ℝ) : Except PyErr (List ℝ) :=
  assignSlice arr p.1 ((p.1 + 1) * nBin) (linspace (p.2 - bw / 2) (p.2 + bw / 2) nBin)

/-- Wavelengths of the frequency domain, frequencyDomain.py:106-114. -/
noncomputable def freqWvl (cs : List ℝ) (bw : ℝ) (nBin : ℕ) : Except PyErr (List ℝ) :=
  (enum cs).foldlM (stepFreq bw nBin) (List.replicate (nBin * cs.length) 0)

/-! ### Sampling -/

/-- `rad2mas`, frequencyDomain.py:18. -/
noncomputable def rad2mas : ℝ := 3600 * 180 * 1000 / π

/-- `samp` at one wavelength, frequencyDomain.py:130-140; pixel scale `ps` in mas. With `nyquistSampling`
the pixel scale is `rad2mas*wvl/D/2` and the sampling is 2. -/
noncomputable def pixScale (nyq : Bool) (psCam D wvl : ℝ) : ℝ :=
  if nyq then rad2mas * wvl / D / 2 else psCam
/-- See `pixScale`. -/
noncomputable def sampling (nyq : Bool) (psCam D wvl : ℝ) : ℝ :=
  if nyq then 2 else wvl * rad2mas / (psCam * D)

/-- `k_`, frequencyDomain.py:144: `np.ceil(2.0/samp).astype('int')`. -/
noncomputable def kFactor (samp : ℝ) : ℤ := ⌈2 / samp⌉

/-- `psdSteps`, frequencyDomain.py:150. -/
noncomputable def psdStepAt (nyq : Bool) (psCam D wvl : ℝ) : ℝ :=
  pixScale nyq psCam D wvl / (wvl * rad2mas * kFactor (sampling nyq psCam D wvl))

/-- `np.argmin`: the first index of the minimum; 0 for an empty list (numpy raises). -/
noncomputable def argmin : List ℝ → ℕ
  | [] => 0
  | [_] => 0
  | x :: y :: l => let r := argmin (y :: l); if x ≤ (y :: l).getD r 0 then 0 else r + 1

/-- `PSDstep`, frequencyDomain.py:150-155. -/
noncomputable def psdStep (nyq : Bool) (psCam D : ℝ) (wvl : List ℝ) : ℝ :=
  (wvl.map (psdStepAt nyq psCam D)).getD (argmin (wvl.map (psdStepAt nyq psCam D))) 0

/-- `kRef_`, frequencyDomain.py:157-160. -/
noncomputable def kRef (nyq expansion : Bool) (psCam D : ℝ) (wvl : List ℝ) : ℤ :=
  (wvl.map (fun w => kFactor (sampling nyq psCam D w))).getD
    (if expansion then argmin (wvl.map (psdStepAt nyq psCam D)) else argmin wvl) 0

/-- `nOtf`, frequencyDomain.py:163. -/
noncomputable def nOtf (nPix : ℕ) (nyq expansion : Bool) (psCam D : ℝ) (wvl : List ℝ) : ℤ :=
  nPix * kRef nyq expansion psCam D wvl

/-- The largest element of a non-empty list. -/
noncomputable def maxList : List ℝ → ℝ
  | [] => 0
  | [x] => x
  | x :: l => max x (maxList l)

/-- `kc_`, frequencyDomain.py:36-39: the external cut-off frequencies if none is zero, else `1/(2 pitch)`. -/
noncomputable def cutoffs (kcExt : Option (List ℝ)) (pitch : List ℝ) : List ℝ :=
  match kcExt with
  | some l => if ∀ x ∈ l, x ≠ 0 then l else pitch.map (fun p => 1 / (2 * p))
  | none => pitch.map (fun p => 1 / (2 * p))

/-- `resAO`, frequencyDomain.py:43: `int(np.max(2*kc/PSDstep))` (floor: the argument is positive). -/
noncomputable def resAO (kc : List ℝ) (step : ℝ) : ℕ := ⌊maxList (kc.map (fun k => 2 * k / step))⌋₊

/-- `nTimes`, frequencyDomain.py:80-83. -/
noncomputable def nTimes (nOtf resAO : ℕ) : ℤ := min 4 (max 2 ⌈(nOtf : ℝ) / resAO / 2⌉)

/-! ### Frequency arrays -/

/-- `freq_array`, FourierUtils.py:60-66, first coordinate at row `i` (the second coordinate is the same
function of the column). -/
noncomputable def freqAt (n : ℕ) (L offset : ℝ) (i : ℕ) : ℝ := ((i : ℝ) - (n / 2 : ℕ)) * L + offset

/-- `shift_array`, FourierUtils.py:282-288, at row `i`. -/
noncomputable def shiftAt (n : ℕ) (fact : ℝ) (i : ℕ) : ℝ := ((i : ℝ) - (n : ℝ) / 2) * fact / n

/-! ### Masks -/

/-- `mskIn_`/`mskInAO_`, frequencyDomain.py:57-68. -/
def mskIn (circle : Bool) (kcMax kx ky : ℝ) : Prop :=
  if circle then kx ^ 2 + ky ^ 2 < kcMax ^ 2 else |kx| < kcMax ∧ |ky| < kcMax
/-- `mskOut_`/`mskOutAO_`, frequencyDomain.py:57-68. -/
def mskOut (circle : Bool) (kcMax kx ky : ℝ) : Prop :=
  if circle then kcMax ^ 2 ≤ kx ^ 2 + ky ^ 2 else kcMax ≤ |kx| ∨ kcMax ≤ |ky|

noncomputable instance (c : Bool) (k x y : ℝ) : Decidable (mskIn c k x y) := Classical.dec _
noncomputable instance (c : Bool) (k x y : ℝ) : Decidable (mskOut c k x y) := Classical.dec _

/-- `fittingPSD`, fourierModel.py:929-937, at one frequency; `spectrum` is the atmosphere's. -/
noncomputable def fittingPsd (spectrum : ℝ → ℝ) (circle : Bool) (kcMax kx ky : ℝ) : ℝ :=
  if mskOut circle kcMax kx ky then spectrum (sqrt (kx ^ 2 + ky ^ 2)) else 0

/-! ### Placing the corrected area in the full grid -/

/-- `id1`, `id2`, fourierModel.py:787-788. -/
noncomputable def id1 (n r : ℕ) : ℤ := ⌈(n : ℝ) / 2 - (r : ℝ) / 2⌉
/-- See `id1`. -/
noncomputable def id2 (n r : ℕ) : ℤ := ⌈(n : ℝ) / 2 + (r : ℝ) / 2⌉

/-- Writing an AO-area array into the full grid, fourierModel.py:792 for one source:
`psd[id1:id2,id1:id2] = x` with `psd` of size `nOtf`. -/
noncomputable def embed {α : Type} (n : ℕ) (out : ℕ → ℕ → α) (x : Img α) : Except PyErr (Img α) :=
  assignBlock ⟨n, n, out⟩ (id1 n x.nx) (id2 n x.nx) (id1 n x.nx) (id2 n x.nx) x

/-- The field-of-view check, fourierModel.py:243-253 (one pixel scale): `kcInMas = kc*atm.wvl*rad2mas`,
frequencyDomain.py:74-78, with the atmosphere's wavelength at that time. -/
noncomputable def fovCheck (kcMax atmWvl ps : ℝ) (n : ℕ) : Prop :=
  2 * (kcMax * atmWvl * rad2mas) / ps ≤ n

/-- `dk`, fourierModel.py:772. -/
noncomputable def dk (kcMax : ℝ) (r : ℕ) : ℝ := 2 * kcMax / r

end P3.Freq
