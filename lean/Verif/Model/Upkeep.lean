import Verif.Model.Psfao
import Mathlib.Data.List.Infix
import Mathlib.Analysis.SpecialFunctions.Pow.Real

/-! Model of the positivity term and of the weights of a fit (p3/psfFitting/psfFitting.py), of the query of SPARTA
data folder by folder (p3/telemetry/sphereUtils.py) and of the delays printed by the real-time computer
(p3/aoSystem/rtc.py). Arithmetic is exact. -/

namespace P3.Upkeep

/-! ### Positivity -/

/-- `regularization_positivity`, psfFitting.py 92-95: `alpha` where the residual is not positive. -/
noncomputable def regularization (alpha d : ℝ) : ℝ := alpha * (if 0 < d then 0 else 1)

/-- The vector minimised with the positivity term, psfFitting.py 104-110. -/
noncomputable def residual (alpha : Option ℝ) (w im m : List ℝ) : List ℝ :=
  List.zipWith (fun w d => √w * d * (match alpha with | none => 1 | some a => √(1 + regularization a d)))
    w (List.zipWith (· - ·) im m)

/-! ### Weights -/

open P3.Psfao in
/-- `len(x)` of an array: its first axis; a `TypeError` without axis. -/
def len (a : Arr) : Except PyErr ℕ :=
  match a.shape with
  | [] => .error .typeError
  | d :: _ => .ok d

/-- What a fit does with the weights it is given. -/
inductive Outcome | refused | broadcast | typeError | cost (a : P3.Psfao.Arr)

open P3.Psfao in
/-- `sqrt(weights) * im_res` with the check of the weights, psfFitting.py 75-77 and 104-105; `d` is the residual, of
the shape of the image. -/
noncomputable def weighted (d weights : Arr) : Outcome :=
  match len d, len weights with
  | .ok a, .ok b =>
    if a ≠ b then .refused
    else match mulA ⟨weights.shape, fun i => √(weights.val i)⟩ d with
      | .ok r => .cost r
      | .error _ => .broadcast
  | _, _ => .typeError

/-! ### Query of SPARTA data -/

/-- An entry of the folder of a year: a directory with the names of its files, or something else. -/
structure Entry where
  name : String
  isDir : Bool
  files : List String
  deriving DecidableEq, Repr

/-- `"sparta_visible_WFS" in file`, sphereUtils.py 148. -/
def hasWfs (files : List String) : Bool := files.any fun f => decide ("sparta_visible_WFS".toList <:+: f.toList)

/-- The external script `plot_sparta_data` on a folder: the files it leaves there and whether it ends without
exception. -/
abbrev Script := Entry → List String × Bool

/-- Whether an entry is queried, sphereUtils.py 146-149. -/
def wanted (redo : Bool) (e : Entry) : Bool := e.isDir && (redo || !hasWfs e.files)

/-- State of the query: entries as they are now, names of the folders queried, and whether it goes on. -/
structure Run where
  entries : List Entry
  queried : List String
  alive : Bool
  deriving DecidableEq, Repr

/-- The loop over the folders of a year, sphereUtils.py 142-154. An exception of the script ends everything. -/
def queryYear (redo : Bool) (script : Script) : List Entry → Run
  | [] => ⟨[], [], true⟩
  | e :: l =>
    if wanted redo e then
      let r := script e
      let e' := { e with files := r.1 }
      if r.2 then
        let t := queryYear redo script l
        ⟨e' :: t.entries, e.name :: t.queried, t.alive⟩
      else ⟨e' :: l, [e.name], false⟩
    else
      let t := queryYear redo script l
      ⟨e :: t.entries, t.queried, t.alive⟩

/-- The entries of the telemetry folder: the folder of a year, or a file (`none`), on which `os.listdir` raises
(sphereUtils.py 138-141). Result: whether the query runs to its end, and the folders queried. -/
def queryAll (redo : Bool) (script : Script) : List (Option (List Entry)) → List String × Bool
  | [] => ([], true)
  | none :: _ => ([], false)
  | some y :: l =>
    let r := queryYear redo script y
    if r.alive then
      let t := queryAll redo script l
      (r.queried ++ t.1, t.2)
    else (r.queried, false)

/-! ### Printing -/

/-- The delays printed by `rtc.__repr__` in milliseconds, high order and low order, rtc.py 39-50. -/
noncomputable def printedDelays (rateHO delayHO delayLO : ℝ) : ℝ × ℝ :=
  (1000 * delayHO / rateHO, 1000 * delayLO / rateHO)

/-- Python values formatted by the objects. -/
inductive PyVal | int | float | str | none
  deriving DecidableEq, Repr

/-- Formatting errors of `f"{x:d}"` and `"%d" % x`: an f-string refuses a float for the code `d`; the `%` operator
takes any number. -/
def fstringD : PyVal → Bool
  | .int => true
  | _ => false
def percentD : PyVal → Bool
  | .int => true
  | .float => true
  | _ => false

/-- Printing a deformable mirror of `n` mirrors, deformableMirror.py 163-179: the number of actuators is an element of
an array of floats (line 49), the index and the number of valid actuators are integers. `true` when it succeeds. -/
def printMirrors (n : ℕ) : Bool := (List.range n).all fun _ => fstringD .int && fstringD .float && fstringD .int

/-- Printing the optics of a sensor, optics.py 23-31: `nL` and `nSides` are numbers, the modulation may be `None`. -/
def printOptics (shackHartmann : Bool) (modulation : PyVal) : Bool :=
  if shackHartmann then true else percentD modulation

/-- Printing the whole system, aoSystem.py 977-995, as far as the optics and the mirrors are concerned. -/
def printSystem (nDMs : ℕ) (shackHartmann : Bool) (modulation : PyVal) : Bool :=
  printOptics shackHartmann modulation && printMirrors nDMs

end P3.Upkeep
