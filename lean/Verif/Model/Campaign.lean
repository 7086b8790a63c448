import Verif.Model.Fitting
import Verif.Model.Deep
import Verif.Model.Otf
import Verif.Model.Telemetry
import Mathlib.Analysis.SpecialFunctions.Log.Base

/-! Model of tests over many PSFs: `get_psf_metrics`, `measure_accuracy_metrics` and its version over folders
(p3/deepLoop/deepLoopPerformance.py), `split_fitting_psfao`, `joint_fit`, `fit_all_PSFs`, `fits_2_dict` and `read_catalog`
(p3/psfFitting/fittingUtils.py). Arithmetic is exact; fits and PSFs are parameters. -/

namespace P3.Campaign

open P3.Fitting (Bounds Admissible updateBounds)

/-! ### PSFs of a test -/

/-- `p2x`, deepLoopPerformance.py 447: from the parameters of a test to those of the PSF model. `x[6:-1]` leaves out the last. -/
def p2x (x : List ℝ) : List ℝ := x.take 5 ++ [0] ++ [x.getD 5 0] ++ [0, 0, 0, 1, 0, 0, 0] ++ (x.drop 6).dropLast

/-- Parameters kept of a fit, line 557. -/
def x2p (x : List ℝ) : List ℝ := x.take 5 ++ [x.getD 6 0] ++ x.drop 14

/-- Mask of the fit, line 551 (`true` is fixed). -/
def mask (nModes : ℕ) : List Bool :=
  List.replicate 5 false ++ [true, false] ++ List.replicate 3 true ++ List.replicate 4 false ++ List.replicate nModes false

/-- One fit of the loop, lines 493-496 and 521-557: the number of modes is zero for six parameters, else the one of the telescope; the mask must
have the length of the start; the parameters kept must be as many as those of the test. `solve` is the result of `psfFitting`. -/
def fitCase (solve : List ℝ → List ℝ) (nParam telModes : ℕ) (start : List ℝ) : Option (List ℝ) :=
  let nModes := if nParam = 6 then 0 else telModes
  let x0 := p2x start
  if (mask nModes).length ≠ x0.length then none
  else
    let r := x2p (solve x0)
    if r.length ≠ nParam then none else some r

/-- The argument `init`, lines 535-547. -/
inductive Init | truth | median | scatter (a : ℝ) | other

/-- The start of a fit, lines 535-547: `truths` are the parameter vectors of the test (columns), `t` the one fitted, `med` their median, and `g`
the random factors (of standard deviation 0.2, line 486). -/
noncomputable def start (init : Init) (lo hi : List ℝ) (med t g : List ℝ) : Option (List ℝ) :=
  match init with
  | .truth => some t
  | .median => some med
  | .scatter _ => some (List.zipWith min (List.zipWith max (List.zipWith (· * ·) t g) lo) hi)
  | .other => none

/-- Smallest and largest values of each parameter over the vectors of a test (`min(axis=1)`, `max(axis=1)`), at least one vector. -/
noncomputable def lows : List (List ℝ) → List ℝ
  | [] => []
  | [x] => x
  | x :: l => List.zipWith min x (lows l)
noncomputable def highs : List (List ℝ) → List ℝ
  | [] => []
  | [x] => x
  | x :: l => List.zipWith max x (highs l)

/-- Slope of `linregress(true, est)` over the pixels, line 505. -/
noncomputable def gain (truth est : List ℝ) : ℝ :=
  Telemetry.slope truth.length (fun k => truth.getD k 0) (fun k => est.getD k 0)

/-- Photometric error in magnitudes, line 506. -/
noncomputable def magErr (truth est : List ℝ) : ℝ := -2.5 * Real.logb 10 (gain truth est)

/-- Error of the PSF in percent, line 514. -/
noncomputable def mse (truth est : List ℝ) : ℝ :=
  100 * Real.sqrt ((List.zipWith (fun t e => (e - t) ^ 2) truth est).sum) / truth.sum

/-- Mean absolute and root-mean-square differences of one pixel over the PSFs of the test, lines 510-511 and 572. -/
noncomputable def meanAbs (d : List ℝ) : ℝ := (d.map fun x : ℝ => |x| / d.length).sum
noncomputable def rms (d : List ℝ) : ℝ := Real.sqrt ((d.map fun x : ℝ => x ^ 2 / d.length).sum)

/-! ### Tables of accuracy -/

/-- Error on the Strehl ratio or the width, lines 617-618. -/
noncomputable def relativeErr (truth est : ℝ) : ℝ := (truth - est) / truth

/-- `bias_and_std`, lines 613-616: `err t k` for `nT` tests of `nP` PSFs; means and standard deviations over the tests, then those over
the PSFs. -/
noncomputable def biasAndStd (nT nP : ℕ) (err : ℕ → ℕ → ℝ) : ℝ × ℝ × ℝ × ℝ :=
  let bias := (List.range nP).map fun k : ℕ => Deep.mean ((List.range nT).map fun t : ℕ => err t k)
  let std := (List.range nP).map fun k : ℕ => Deep.std ((List.range nT).map fun t : ℕ => err t k)
  (Deep.mean bias, Deep.std bias, Deep.mean std, Deep.std std)

/-- Order of the folders, lines 643-648: by the number that ends their name; a name without such a number raises. `parse` is
`int(fold.split('_')[-1])`. -/
def folders (parse : String → Option ℕ) (l : List String) : Option (List (String × ℕ)) :=
  (l.mapM fun f => (parse f).map fun n => (f, n)).map fun r => r.mergeSort (fun a b => a.2 ≤ b.2)

/-! ### Split fit -/

/-- Errors reported by a fit: an array, or (when the confidence interval failed) a Python list of `-1`, psfFitting.py 196-200. -/
inductive Errs | array (e : ℕ → ℝ) | list

/-- Start of the second stage, fittingUtils.py 49. -/
def secondStart (x : List ℝ) (nModes : ℕ) : List ℝ := x.take 7 ++ [0, 0, 0, 1, 0, 0, 0] ++ List.replicate nModes 0

/-- Mask of the second stage, fittingUtils.py 50. -/
def secondMask (nModes : ℕ) : List Bool :=
  List.replicate 7 false ++ List.replicate 3 true ++ List.replicate 4 false ++ List.replicate nModes false

/-- The second stage of `split_fitting_psfao`, fittingUtils.py 48-53: `x`, `err` are the result of the first, `b` the bounds of the model.
`update_bounds` multiplies a number by the errors, which raises on a list. The free parameters and their bounds are given to the minimiser;
the answer is put back in the start. `none` is an exception. -/
noncomputable def secondStage (solve : List ℝ → Bounds → List ℝ) (x : List ℝ) (err : Errs) (b : Bounds) (maxWvl : ℝ) (nModes : ℕ) :
    Option (List ℝ) :=
  open Classical in
  match err with
  | .list => none
  | .array e =>
    let nb := updateBounds (fun i => x.getD i 0) e b 5 maxWvl nModes
    let free := P3.Fitting.indFree (secondMask nModes)
    let y0 := free.map fun i => (secondStart x nModes).getD i 0
    let fb : Bounds := (free.map fun i => nb.1.getD i ⊥, free.map fun i => nb.2.getD i ⊤)
    if Admissible y0 fb then some (P3.Fitting.scatter (secondStart x nModes) (free.zip (solve y0 fb))) else none

/-- Arguments given by the caller to a fit. -/
structure Args where
  x0 : List ℝ
  fixed : List Bool
  weights : Option (List ℝ)

/-- What `joint_fit` gives to `psfFitting`, fittingUtils.py 57-61. -/
noncomputable def jointArgs (nModes : ℕ) (_ : Args) : Args :=
  ⟨[0.7, 4e-2, 0.5, 1e-2, 1, 0, 1.8, 0, 0, 0, 1.0, 0, 0, 0] ++ List.replicate nModes 0,
    List.replicate 7 false ++ List.replicate 3 true ++ List.replicate 4 false ++ List.replicate nModes false, none⟩

/-- What the first stage of `split_fitting_psfao` gives to `psfFitting`, fittingUtils.py 44-45. -/
def splitArgs (nModes : ℕ) (a : Args) : Args := ⟨a.x0 ++ List.replicate nModes 0, a.fixed, none⟩

/-! ### All PSFs of a folder -/

/-- Result of the fit of a file: eleven descriptors, parameters and errors. -/
structure Fitted where
  head : List ℝ
  x : List ℝ
  err : List ℝ

/-- `fit_all_PSFs`, fittingUtils.py 627-668: `draws` are the values of `floor(random()*len(files))`; `good` is the selection on the Strehl
ratio and the width (line 651). The table has 11 + 50 + 50 columns, and a row of another length raises. -/
def fitAll {F : Type} (files : List F) (nb : Option ℕ) (draws : ℕ → ℕ) (good : F → Bool) (fit : F → Fitted) : Option (List (List ℝ)) :=
  let n := nb.getD files.length
  let drawn := (List.range n).filterMap fun i => files[draws i]?
  (drawn.filter good).mapM fun f =>
    let r := (fit f).head ++ (fit f).x ++ (fit f).err
    if r.length = 11 + 50 + 50 then some r else none

/-- Names of `fits_2_dict`, fittingUtils.py 674-684. -/
def dictNames : List String :=
  ["psfNumber", "Day", "Month", "Year", "Wvl", "SRfit", "SRsky", "FWHMxsky", "FWHMysky", "FWHMxfit", "FWHMyfit"] ++
  ["r0", "C", "A", "ax", "p", "Theta", "Beta"] ++ ["jitterx", "jittery", "jitterz"] ++ ["flux", "posx", "posy", "bckgrnd"] ++
  (List.range 36).map (fun s => "StatMode_x" ++ toString s) ++
  ["r0err", "Cerr", "Aerr", "axerr", "perr", "Thetaerr", "Betaerr"] ++ ["jitterxerr", "jitteryerr", "jitterzerr"] ++
  ["fluxerr", "posxerr", "posyerr", "bckgrnderr"] ++ (List.range 36).map (fun s => "StatMode_xerr" ++ toString s)

/-- `fits_2_dict`, fittingUtils.py 686-690: the column of each name (a later equal name would replace it). -/
def dict (rows : List (List ℝ)) (name : String) : Option (List (Option ℝ)) :=
  match dictNames.reverse.idxOf? name with
  | none => none
  | some k => some (rows.map fun r => r[dictNames.length - 1 - k]?)

/-! ### Catalogues -/

/-- `read_catalog`, fittingUtils.py 158-189, on the lines of the file already split into words (floats are words here): labels and columns. At the end of
the file `readline` gives an empty line. An index out of range raises; so does a column of another length than `nLines`, but one of a single value,
which numpy repeats. (`skip` at most the number of lines; more raises.) -/
def catalog (file : List (List String)) (skip : ℕ) : Option (List String × List (List String)) :=
  let labels := file.getD 0 []
  let nLines := file.length - skip
  let lines := (List.range (nLines + 1)).map fun n => file.getD n []
  ((List.range labels.length).mapM fun k =>
    (((List.range (nLines + 1)).drop skip).mapM fun n => (lines.getD n [])[k]?).bind fun c =>
      if c.length = nLines then some c else match c with
        | [v] => some (List.replicate nLines v)
        | _ => none).map fun t => (labels, t)

end P3.Campaign
