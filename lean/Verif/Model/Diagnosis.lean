import Verif.Model.Py
import Verif.Model.Metrics
import Mathlib.Data.Matrix.Mul
import Mathlib.Analysis.Real.Sqrt
import Mathlib.Data.List.GetD
import Mathlib.Algebra.BigOperators.Fin
/-
Diagnosis of the telemetry: photons, selection of actuators, Zernike coefficients of the commands, noise.
Source: /repo/p3/telemetry/systemDiagnosis.py:135-318 and 471-480.  Real arithmetic.
-/
namespace P3.Diag
open Finset

/-! ### Photons -/

/-- `np.sort` of a vector. -/
noncomputable def sorted (l : List ℝ) : List ℝ := l.mergeSort (fun a b => decide (a ≤ b))

/-- `l[i:]` of Python for any integer `i`. -/
def sliceFrom {α : Type*} (l : List α) (i : ℤ) : List α :=
  if i < 0 then l.drop ((l.length : ℤ) + i).toNat else l.drop i.toNat

/-- `-n//2`, systemDiagnosis.py:146: the unary minus binds more tightly than the division, which rounds downwards. -/
def cut (n : ℕ) : ℤ := (-(n : ℤ)) / 2

/-- `pixCog` for one frame, systemDiagnosis.py:144-146: the intensities over the gain are sorted, the last ones are kept.
`n` is the number of non-zero coefficients in a row of the reconstructor. -/
noncomputable def pixCog (gain : ℝ) (n : ℕ) (frame : List ℝ) : List ℝ :=
  sliceFrom (sorted (frame.map (· / gain))) (cut n)

/-- Mean of a list. -/
noncomputable def mean (l : List ℝ) : ℝ := l.sum / l.length

/-- `np.std` of a list. -/
noncomputable def std (l : List ℝ) : ℝ := Real.sqrt (mean (l.map fun x => (x - mean l) ^ 2))

/-- Column `j` of a table. -/
def column (rows : List (List ℝ)) (j : ℕ) : List ℝ := rows.map fun r => r.getD j 0

/-- Number of photons and read-out noise when row 100 of the reconstructor has `n` non-zero coefficients,
systemDiagnosis.py:146-149. -/
noncomputable def photonStats (frames : List (List ℝ)) (gain : ℝ) (n : ℕ) : ℝ × ℝ :=
  let kept := frames.map (pixCog gain n)
  (mean kept.flatten, Metrics.median ((List.range (kept.headD []).length).map fun j => std (column kept j)))

/-- `get_number_photons`, systemDiagnosis.py:135-159, for the high-order sensor: number of photons and read-out noise.
`frames` is the table of intensities (one row per exposure), `R` the reconstructor at its first time (one row per
actuator).  The gain is not zero, there are exposures and they have pixels. -/
noncomputable def photons (frames : List (List ℝ)) (gain : ℝ) (R : List (List ℝ)) : Except PyErr (ℝ × ℝ) :=
  open Classical in
  if ∃ f ∈ frames, ∃ x ∈ f, x ≠ 0 then
    match R[100]? with
    | none => .error .indexError
    | some row => .ok (photonStats frames gain (row.countP fun x => decide (x ≠ 0)))
  else .ok (0, 0)

/-! ### Actuators -/

/-- `not x` for a number that may be `None`. -/
noncomputable def falsy : Option ℝ → Bool
  | none => true
  | some x => open Classical in decide (x = 0)

/-- `x/2` for a number that may be `None`. -/
noncomputable def half : Option ℝ → Except PyErr ℝ
  | none => .error .typeError
  | some x => .ok (x / 2)

/-- `argmax` of `f 0, ..., f n`: index of the first largest element. -/
noncomputable def argmax (f : ℕ → ℝ) : ℕ → ℕ
  | 0 => 0
  | n + 1 => open Classical in if f (argmax f n) < f (n + 1) then n + 1 else argmax f n

/-- `rad_pos[k]`, systemDiagnosis.py:238-245: distance of the highest pixel of the influence function `f` (on `nPix` by
`nPix` pixels) to the pixel `nPix/2`. -/
noncomputable def radPos (nPix : ℕ) (dTel : ℝ) (f : ℕ → ℝ) : ℝ :=
  let p := argmax f (nPix * nPix - 1)
  dTel / nPix * Real.sqrt ((((p / nPix : ℕ) : ℝ) - nPix / 2) ^ 2 + (((p % nPix : ℕ) : ℝ) - nPix / 2) ^ 2)

/-- Indices of the non-zero elements, `x.reshape(-1).nonzero()[0]`. -/
noncomputable def nonzero (l : List ℝ) : List ℕ :=
  open Classical in (List.range l.length).filter fun i => decide (l.getD i 0 ≠ 0)

/-- `actuInPupil`, systemDiagnosis.py:248: actuators at a distance between `i` and `o`. -/
noncomputable def ring (nPix nAct : ℕ) (iF : ℕ → ℕ → ℝ) (dTel i o : ℝ) : List ℕ :=
  open Classical in (List.range nAct).filter fun k =>
    decide (radPos nPix dTel (fun p => iF p k) ≤ o ∧ i ≤ radPos nPix dTel (fun p => iF p k))

/-- `select_actuators(Din, Dout)`, systemDiagnosis.py:226-256: the selected columns, in order.  `iF p k` is pixel `p` of
the influence function of actuator `k` of `nAct`; `valid` is the map of valid actuators; the pitch and the number of
actuators across give the diameter. -/
noncomputable def selectActuators (nPix nAct : ℕ) (iF : ℕ → ℕ → ℝ) (valid : List ℝ) (pitch : ℝ) (nAcross : ℕ)
    (din dout : Option ℝ) : Except PyErr (List ℕ) :=
  open Classical in
  if falsy din && falsy dout then
    if nAct = (nonzero valid).length then .ok (List.range nAct)
    else if ∀ i ∈ nonzero valid, i < nAct then .ok (nonzero valid) else .error .indexError
  else do
    let o ← half dout
    let i ← half din
    .ok (ring nPix nAct iF (pitch * ((nAcross : ℝ) - 1)) i o)

/-! ### Zernike coefficients -/

/-- `u2z`, systemDiagnosis.py:292-294: `P` is the pseudo-inverse of `ZᵀZ`. -/
def u2z {nPix nZ nAct : ℕ} (P : Matrix (Fin nZ) (Fin nZ) ℝ) (Z : Matrix (Fin nPix) (Fin nZ) ℝ)
    (iF : Matrix (Fin nPix) (Fin nAct) ℝ) : Matrix (Fin nZ) (Fin nAct) ℝ := P * (Z.transpose * iF)

/-- Open-loop commands without their mean over the actuators, systemDiagnosis.py:302-303: `com` and `delta` are tables of
`nU` actuators per frame. -/
noncomputable def openLoop (nU : ℕ) (com delta : ℕ → ℕ → ℝ) : ℕ → ℕ → ℝ := fun t j =>
  (com t j + delta t j) - (∑ i ∈ range nU, (com t i + delta t i)) / nU

/-- Coefficient `k` at frame `t`, minus its mean over the `nF` frames, systemDiagnosis.py:306-307; `sel` is the list of
selected actuators, `M k i` the reconstructor (its column `i` is for the actuator `sel[i]`). -/
noncomputable def coeffs (nF nU : ℕ) (M : ℕ → ℕ → ℝ) (sel : List ℕ) (com delta : ℕ → ℕ → ℝ) : ℕ → ℕ → ℝ :=
  let c := fun k t => ∑ i ∈ range sel.length, M k i * openLoop nU com delta t (sel.getD i 0)
  fun k t => c k t - (∑ s ∈ range nF, c k s) / nF

/-- `Cz_ho`, systemDiagnosis.py:308. -/
noncomputable def czHo (nF nExp nU : ℕ) (M : ℕ → ℕ → ℝ) (sel : List ℕ) (com delta : ℕ → ℕ → ℝ) (k l : ℕ) : ℝ :=
  (∑ t ∈ range nF, coeffs nF nU M sel com delta k t * coeffs nF nU M sel com delta l t) / nExp

/-- `Cz_tt`, systemDiagnosis.py:311-314, as a list of rows: in LGS mode the second moments of the two tip-tilt commands `tt`
(`nT` frames, `nExpTT` exposures), else `Cz_ho[0:1,0:1]`. -/
noncomputable def czTt (lgs : Bool) (nT nExpTT : ℕ) (tt : ℕ → ℕ → ℝ) (ho : ℕ → ℕ → ℝ) : List (List ℝ) :=
  if lgs then (List.range 2).map fun i => (List.range 2).map fun j => (∑ t ∈ range nT, tt t i * tt t j) / nExpTT
  else [[ho 0 0]]

/-- `jIndex`, systemDiagnosis.py:279-281: indices of the reconstructed modes; `nValid` valid actuators. -/
def jIndex (nZer : Option ℕ) (nValid j0 : ℕ) : List ℕ :=
  (List.range ((nZer.getD (3 * nValid / 4)))).map (· + j0)

/-- `average_radial_order`, systemDiagnosis.py:471-480: `n` the radial orders of the modes, `var` a value per mode. -/
noncomputable def averageOrder (n : List ℕ) (var : List ℝ) : List ℝ :=
  (n.mergeSort.dedup).map fun u => Metrics.median (((n.zip var).filter fun p => p.1 == u).map Prod.snd)

/-! ### Noise -/

/-- The `noiseMethod` argument. -/
inductive Method
  | nonoise | rtf | interpolation | autocorrelation | other
  deriving DecidableEq, Repr

/-- Result of the estimation: covariance and telemetry after the call. -/
structure Est where
  cov : ℕ → ℕ → ℝ
  u : ℕ → ℕ → ℝ

/-- Columns minus their mean, systemDiagnosis.py:171, in place. -/
noncomputable def centre (nF : ℕ) (u : ℕ → ℕ → ℝ) : ℕ → ℕ → ℝ := fun t j => u t j - (∑ s ∈ range nF, u s j) / nF

/-- The autocorrelation method on centred telemetry, systemDiagnosis.py:204-207. -/
noncomputable def autocorr (nF s : ℕ) (c : ℕ → ℕ → ℝ) (i j : ℕ) : ℝ :=
  (1 / 2) * (∑ t ∈ range nF, c t i * ((c t j - c ((t + s) % nF) j) + (c t j - c ((t + (nF - s % nF)) % nF) j))) / nF

/-- `get_noise_variance` for one of the two loops, systemDiagnosis.py:161-223: `nF` frames of `nU` commands; `L` the number
of frequencies of the transfer functions; `g` the estimate of the interpolation method for one row of the telemetry, of `nU`
values.  With `rtf` the spectrum, of `nF//2` by `nU`, is divided by `L` values, then sliced from a float.  The interpolation
loops over the commands but reads rows. -/
noncomputable def noise (m : Method) (nF nU L s : ℕ) (g : (ℕ → ℝ) → ℝ) (u : ℕ → ℕ → ℝ) : Except PyErr Est :=
  match m with
  | .nonoise => .ok ⟨fun _ _ => 0, u⟩
  | .rtf => if L = nU ∨ L = 1 ∨ nU = 1 then .error .typeError else .error .broadcast
  | .interpolation => if nU ≤ nF then .ok ⟨fun i j => if i = j then g (centre nF u i) else 0, centre nF u⟩ else .error .indexError
  | .autocorrelation => .ok ⟨autocorr nF s (centre nF u), centre nF u⟩
  | .other => .ok ⟨fun _ _ => 0, centre nF u⟩

end P3.Diag
