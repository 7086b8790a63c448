import Verif.Model.Py
import Verif.Model.Zernike
import Mathlib.Analysis.SpecialFunctions.Gamma.Basic
import Mathlib.Analysis.SpecialFunctions.Pow.Real
import Mathlib.Data.List.GetD
/-
Variances of the Zernike coefficients of turbulence.  Source: /repo/p3/aoSystem/zernike.py:186-310.  Real arithmetic.
-/
namespace P3.ZVar
open P3.Zernike

/-- `newGamma`, zernike.py:196-201. -/
noncomputable def newGamma (a b : List ℝ) : ℝ := (a.map Real.Gamma).prod / (b.map Real.Gamma).prod

/-- `np.prod(a+k)`, zernike.py:232. -/
def shiftProd (a : List ℝ) (k : ℕ) : ℝ := (a.map (· + (k : ℝ))).prod

/-- The loop of `pochammerSeries`, zernike.py:224-236, with `fuel` iterations left: `k`, the term `ck` and the sum `som`.
The loop stops after the term whose modulus differs from that of the preceding one by at most `tol`. -/
noncomputable def loop (a b : List ℝ) (z tol : ℝ) : ℕ → ℕ → ℝ → ℝ → ℝ
  | 0, _, _, som => som
  | fuel + 1, k, ck, som =>
    let ckp1 := shiftProd a k * z * ck / shiftProd b k
    open Classical in
    if |(|ck| - |ckp1|)| ≤ tol then som + ckp1 else loop a b z tol fuel (k + 1) ckp1 (som + ckp1)

/-- `pochammerSeries(len(a), len(b), a, b, z)` with `len(a) < len(b) + 1`, zernike.py:203-244: `k` runs from 0 to `nmax`
= 1000 at most. -/
noncomputable def pochammerSeries (a b : List ℝ) (z : ℝ) : ℝ :=
  open Classical in if z = 0 then 1 else loop a b z (1 / 10 ^ 6) 1001 0 1 1

/-- `UnParamEx4q2`, zernike.py:248-265. -/
noncomputable def unParam (mu alpha beta p a : ℝ) : ℝ :=
  let a1 := [(alpha + beta + 1) / 2, (2 + mu + alpha + beta) / 2, (mu + alpha + beta) / 2]
  let b1 := [1 + alpha + beta, 1 + alpha, 1 + beta]
  let a2 := [(1 - mu) / 2 + p, 1 + p, p]
  let b2 := [1 + (alpha + beta - mu) / 2 + p, 1 + (alpha - beta - mu) / 2 + p, 1 + (beta - alpha - mu) / 2 + p]
  let k := 1 / (2 * Real.sqrt Real.pi * Real.Gamma p)
  let f1 := newGamma (a1 ++ [p - (mu + alpha + beta) / 2]) b1 * a ^ (mu + alpha + beta) *
    pochammerSeries a1 ([1 - p + (mu + alpha + beta) / 2] ++ b1 ++ [1]) (a ^ 2)
  let f2 := newGamma ([(mu + alpha + beta) / 2 - p] ++ a2) b2 * a ^ (2 * p) *
    pochammerSeries a2 ([1 - (mu + alpha + beta) / 2 + p] ++ b2 ++ [1]) (a ^ 2)
  k * (f1 + f2)

/-- `zernCovCoef`, zernike.py:267-285; `none` is `inf`.  The exponents of `-1` are integers here. -/
noncomputable def covCoef (dr0 dL0 : ℝ) (i j : ℤ) (ni mi nj mj : ℤ) : Option ℝ :=
  open Classical in
  if mi = mj ∧ (|i - j| % 2 = 0 ∨ (mi = 0 ∧ mj = 0)) then
    if dL0 = 0 then
      if i = 1 ∧ j = 1 then none
      else some ((Real.Gamma (11/6) ^ 2 * Real.Gamma (14/3) / (2 ^ (8/3 : ℝ) * Real.pi)) * (24 * Real.Gamma (6/5) / 5) ^ (5/6 : ℝ) *
        dr0 ^ (5/3 : ℝ) * Real.sqrt (((ni : ℝ) + 1) * (nj + 1)) * (-1 : ℝ) ^ ((ni + nj - mi - mj) / 2) *
        newGamma [-5/6 + ((ni : ℝ) + nj) / 2] [23/6 + ((ni : ℝ) + nj) / 2, 17/6 + ((ni : ℝ) - nj) / 2, 17/6 + ((nj : ℝ) - ni) / 2])
    else
      some ((4 * Real.Gamma (11/6) ^ 2 / Real.pi ^ (14/3 : ℝ)) * (24 * Real.Gamma (6/5) / 5) ^ (5/6 : ℝ) *
        (dr0 / dL0) ^ (5/3 : ℝ) / dL0 ^ 2 * Real.sqrt (((ni : ℝ) + 1) * (nj + 1)) * (-1 : ℝ) ^ ((ni + nj - mi - mj) / 2) *
        unParam 0 (ni + 1) (nj + 1) (11/6) (Real.pi * dL0))
  else some 0

/-- Positions where the order changes, and the last one, zernike.py:294-298. -/
def runEnds (nv : List ℤ) : List ℕ :=
  (List.range (nv.length - 1)).filter (fun i => decide (nv.getD (i + 1) 0 ≠ nv.getD i 0)) ++ [nv.length - 1]

/-- `zern_var[index] = v` for the positions of order `n`, zernike.py:307-308. -/
def assign (nv : List ℤ) (n : ℤ) (v : Option ℝ) (out : List (Option ℝ)) : List (Option ℝ) :=
  List.zipWith (fun n' old => if n' = n then v else old) nv out

/-- `CoefficientsVariance((D/r0, D/L0))`, zernike.py:186-310; `jv[-1]` of an empty list raises (296). -/
noncomputable def coefficientsVariance (js : List ℕ) (dr0 dL0 : ℝ) : Except PyErr (List (Option ℝ)) :=
  if js = [] then .error .indexError
  else
    let nv := js.map fun j => (nmOrder j).1
    .ok ((runEnds nv).foldl (fun out k =>
      let j := js.getD k 0
      let nm := nmOrder j
      assign nv nm.1 (covCoef dr0 dL0 j j nm.1 nm.2 nm.1 nm.2) out) (js.map fun _ => some 0))

end P3.ZVar
