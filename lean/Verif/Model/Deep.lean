import Verif.Model.Py
import Verif.Model.Metrics
import Mathlib.Analysis.SpecialFunctions.Pow.Real
import Mathlib.Data.List.GetD
import Mathlib.Logic.Equiv.Basic
/-
Training and test data for the networks.  Source: /repo/p3/deepLoop/dataGenerator.py, recover_list.py, dataBaseVerification.py
and deepLoopPerformance.py.  Real arithmetic.
-/
namespace P3.Deep

/-! ### Distribution of the test data over sub-folders -/

/-- What `split_test_data` raises: `ValueError` or `ZeroDivisionError`. -/
inductive Err | value | zeroDivision | index | attribute
  deriving DecidableEq, Repr

/-- First element of a list where `f` is smallest (`np.argmin`). -/
def firstMin (f : ℕ → ℤ) : List ℕ → Option ℕ
  | [] => none
  | a :: t => match firstMin f t with
    | none => some a
    | some b => if f b < f a then some b else some a

/-- Number of sub-folders used for `n` files when `k` are asked for, dataGenerator.py:257-269: if `k` does not divide `n`,
the closest divisor among 1, ..., 2k-1. -/
def chooseSub (n k : ℕ) : Except Err ℕ :=
  if k = 0 then .error .zeroDivision
  else
    let d := if n % k = 0 then k
      else (firstMin (fun v => |(v : ℤ) - k|) (((List.range (2 * k)).drop 1).filter fun v => n % v = 0)).getD 0
    if d = 1 then .error .value else .ok d

/-- A path under `test_data`: the sub-folder, if any, and the name. -/
abbrev Path := Option ℕ × String
/-- Contents of the files. -/
abbrev FS := Path → Option ℕ

/-- `os.rename` of an existing file: an existing file at the destination is replaced. -/
def rename (fs : FS) (src dst : Path) : FS := fun p => if p = dst then fs src else if p = src then none else fs p

/-- The moves, dataGenerator.py:271-289: `idx` is the sample of all indices; `m` files per sub-folder. -/
def moves (files : List String) (idx : List ℕ) (m : ℕ) : List (String × ℕ) :=
  (List.range idx.length).map fun i => (files.getD (idx.getD i 0) "", i / m)

/-- The files after a number of moves. -/
def runMoves (fs : FS) (l : List (String × ℕ)) : FS := l.foldl (fun fs p => rename fs (none, p.1) (some p.2, p.1)) fs

/-- `split_test_data` up to a crash after `t` moves (no crash for `t ≥ n`), dataGenerator.py:236-289. -/
def split (fs : FS) (files : List String) (k : ℕ) (idx : List ℕ) (t : ℕ) : Except Err FS :=
  match chooseSub files.length k with
  | .error e => .error e
  | .ok d => .ok (runMoves fs ((moves files idx (files.length / d)).take t))

/-! ### Values of the parameters -/

/-- Number of bounds checked first, dataGenerator.py:298-305. -/
def boundsOk (nLow nHigh : ℕ) (addStatic : Bool) : Bool :=
  nLow ≠ 0 ∧ nHigh ≠ 0 ∧ nLow = nHigh ∧ (if addStatic then 7 ≤ nLow else 6 ≤ nLow)

/-- Edges of the intervals, dataGenerator.py:345-346: `np.round(np.linspace(lo, hi, n + 1), nround)`; `rnd` is the rounding. -/
noncomputable def edge (rnd : ℝ → ℝ) (lo hi : ℝ) (n k : ℕ) : ℝ := rnd (lo + (hi - lo) * k / n)

/-- Column `t` of the main parameter and of `sig2`, dataGenerator.py:353-364, with their intervals: `u`, `v` are the uniform
samples in [0, 1).  Columns that the loops do not reach keep zero. -/
noncomputable def mainValue (rnd : ℝ → ℝ) (lo hi : ℝ) (n k : ℕ) (u : ℝ) : ℝ :=
  edge rnd lo hi n k + (edge rnd lo hi n (k + 1) - edge rnd lo hi n k) * u

/-- Intervals of column `t`, dataGenerator.py:353-365: `k` and `j` of the two loops over `n`. -/
def intervals (n t : ℕ) : Option (ℕ × ℕ) := if t < n * n then some (t / n, t % n) else none

/-- The main parameter and `sig2` of PSF `j` in the column `t` of `nSub`, dataGenerator.py:348-365; an assignment outside the
table raises `IndexError`. -/
noncomputable def columnValues (rnd : ℝ → ℝ) (lo1 hi1 lo2 hi2 : ℝ) (n nSub : ℕ) (u v : ℕ → ℕ → ℝ) (j t : ℕ) : Except Err (ℝ × ℝ) :=
  if nSub < n * n then .error .index
  else match intervals n t with
    | some (k, l) => .ok (mainValue rnd lo1 hi1 n k (u j t), mainValue rnd lo2 hi2 n l (v j t))
    | none => .ok (0, 0)

/-- The main parameter of a data base. -/
inductive Main | r0 | stat
  deriving DecidableEq

/-- The PSD of an image, dataGenerator.py:101-123: `psdIn` is the residual PSD of unit variance, `kolmo` that of the turbulence for
`r0 = 1`. -/
noncomputable def totalPsd {ι : Type} (m : Main) (msk psdIn kolmo : ι → ℝ) (r0 C sig2 : ℝ) (i : ι) : ℝ :=
  match m with
  | .r0 => msk i * (C + psdIn i * sig2)
  | .stat => msk i * (C + psdIn i * sig2) + r0 ^ (-5/3 : ℝ) * kolmo i

/-- `pe`, dataGenerator.py:373: `np.linspace(lo, hi, n)[j]`, `n ≥ 2`. -/
noncomputable def pe (lo hi : ℝ) (n j : ℕ) : ℝ := lo + (hi - lo) * j / ((n : ℝ) - 1)

/-- Test data per sub-folder, dataGenerator.py:208-211: `nTest` is a number, or a fraction when it is below one. -/
noncomputable def testPerFolder (nTest : ℝ) (nPsf nSub : ℕ) : ℕ :=
  open Classical in
  let n : ℝ := if nTest < 1 then (⌊nTest * nPsf * nSub⌋₊ : ℝ) else nTest
  ⌊n / nSub⌋₊

/-! ### Reading back -/

/-- Name of the sub-folder of an interval, split at the underscores, dataGenerator.py:368 and recover_list.py:44; `str` writes a
number. -/
def folderName (str : ℝ → String) (main : String) (x s : ℝ) : List String := [main, str x, "sig2", str s]

/-- `float(tmp[i])`, recover_list.py:47-48. -/
def token (parse : String → Option ℝ) (name : List String) (i : ℕ) : Except Err ℝ :=
  match name[i]? with
  | none => .error .index
  | some s => match parse s with
    | none => .error .value
    | some x => .ok x

/-- `recover_main_parameters_values_from_subfolders`, recover_list.py:24-49. -/
noncomputable def recover (parse : String → Option ℝ) (names : List (List String)) : Except Err (List ℝ × List ℝ) := do
  let r0 ← names.mapM fun n => token parse n 1
  let s ← names.mapM fun n => token parse n 3
  pure (Metrics.unique r0, Metrics.unique s)

/-! ### Verification of the data base -/

/-- Columns checked against the interval `k`, dataBaseVerification.py:96-98: `idk_m:idk_M` with `idk_M = (k+1)*nInter - 1`. -/
def checkedCols (nInter k : ℕ) : List ℕ := (List.range ((k + 1) * nInter - 1)).drop (k * nInter)

/-- Verification of one parameter, dataBaseVerification.py:95-103: `v j c` are the values of PSF `j`, sorted over the columns;
`lo k` is the rounded lower edge, `hi k` the upper edge of the interval `k`.  A single interval, or an empty folder, raises
`IndexError` before (38 and 62). -/
noncomputable def verified (nInter nPsf : ℕ) (v : ℕ → ℕ → ℝ) (lo hi : ℕ → ℝ) : Except Err Unit :=
  open Classical in
  if nInter = 1 ∨ nPsf = 0 then .error .index
  else if ∀ k < nInter, ∀ c ∈ checkedCols nInter k, ∀ j < nPsf, lo k ≤ v j c ∧ v j c ≤ hi k then .ok () else .error .value

/-! ### Results -/

/-- Rows of a result file, deepLoopPerformance.py:382-421: two lines of header, and `nData = sum(1 for line in tmp) - 1` rows. -/
def readRows {α : Type} (lines : List α) : List α := (lines.drop 2).take ((lines.drop 2).length - 1)

/-- Mean of a list. -/
noncomputable def mean (l : List ℝ) : ℝ := l.sum / l.length

/-- Standard deviation of a list. -/
noncomputable def std (l : List ℝ) : ℝ := Real.sqrt (mean (l.map fun x => (x - mean l) ^ 2))

/-- Relative errors in percent, deepLoopPerformance.py:435; `none` for a true value of zero (`inf` or `nan`). -/
noncomputable def relErr (truth est : ℝ) : Option ℝ := open Classical in if truth = 0 then none else some (100 * (est - truth) / truth)

/-- Pearson coefficient, deepLoopPerformance.py:438, of two lists of the same length. -/
noncomputable def pearson (x y : List ℝ) : ℝ :=
  (List.zipWith (fun a b => (a - mean x) * (b - mean y)) x y).sum /
    Real.sqrt ((x.map fun a => (a - mean x) ^ 2).sum * (y.map fun b => (b - mean y) ^ 2).sum)

end P3.Deep
