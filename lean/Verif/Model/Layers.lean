import Verif.Model.Py
import Mathlib.Analysis.SpecialFunctions.Pow.Real
/-
Compression of the turbulence profile and of the winds.  Source: /repo/p3/aoSystem/FourierUtils.py:1704-1737 and
/repo/p3/aoSystem/fourierModel.py:199-230.  Real arithmetic.
-/
namespace P3.Layers

/-- Errors raised by `eqLayers` itself. -/
inductive LErr | tooMany | nan
  deriving DecidableEq

/-- `l[a:b]` for non-negative bounds. -/
def slice {α : Type} (l : List α) (a b : ℕ) : List α := (l.take b).drop a

/-- The repair loop of `posSlab`, FourierUtils.py:1720-1722, one step at index `i`. -/
def repairStep (p : List ℕ) (i : ℕ) : List ℕ :=
  if p.getD (i + 1) 0 ≤ p.getD i 0 then p.set (i + 1) (p.getD i 0 + 1) else p

/-- The repair loop over `range(nEq - 1)`. -/
def repair (nEq : ℕ) (p : List ℕ) : List ℕ := (List.range (nEq - 1)).foldl repairStep p

/-- `posSlab` after the final concatenation and conversion to int, FourierUtils.py:1717-1727. -/
def posSlab (nCn2 nAlt nEq i : ℕ) : ℕ :=
  (repair nEq ((List.range nEq).map (· * (nCn2 / nEq))) ++ [nAlt]).getD i 0

/-- Strength of one equivalent layer, FourierUtils.py:1733. -/
noncomputable def slabCn2 (cn2 : List ℝ) (a b : ℕ) : ℝ := (slice cn2 a b).sum

/-- Altitude of one equivalent layer, FourierUtils.py:1734-1735. -/
noncomputable def slabAlt (cn2 alt : List ℝ) (p : ℝ) (a b : ℕ) : ℝ :=
  ((List.zipWith (fun h c => h ^ p * c) (slice alt a b) (slice cn2 a b)).sum / slabCn2 cn2 a b) ^ (1 / p)

/-- `eqLayers(Cn2, altitudes, nEqLayers, power)`, FourierUtils.py:1704-1737.  A slab without turbulence gives
0/0 (not a number); for profiles of different lengths see `slice`. -/
noncomputable def eqLayers (cn2 alt : List ℝ) (nEq : ℕ) (p : ℝ) : Except LErr (List (ℝ × ℝ)) :=
  if cn2.length < nEq then .error .tooMany
  else
    let pos := posSlab cn2.length alt.length nEq
    let slabs := (List.range nEq).map (fun i : ℕ => (pos i, pos (i + 1)))
    open Classical in
    if ∃ s ∈ slabs, slabCn2 cn2 s.1 s.2 = 0 then .error .nan
    else .ok (slabs.map (fun s => (slabCn2 cn2 s.1 s.2, slabAlt cn2 alt p s.1 s.2)))

/-- `np.linspace(a, b, num=n)[i]`. -/
noncomputable def linspace (a b : ℝ) (n i : ℕ) : ℝ := if n ≤ 1 then a else a + i * ((b - a) / (n - 1))

/-- Winds (speed or direction) of the modelled atmosphere, fourierModel.py:209-218:
`np.linspace(min(w), max(w), num=nRec)`. -/
noncomputable def windMod (lo hi : ℝ) (nRec : ℕ) : List ℝ := (List.range nRec).map (linspace lo hi nRec)

end P3.Layers
