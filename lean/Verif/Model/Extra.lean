import Verif.Model.FourierRun
import Verif.Model.Psf
import Mathlib.Analysis.SpecialFunctions.Pow.Real
/-
Extra errors at science targets and low-order guide stars.  Source: /repo/p3/aoSystem/fourierModel.py:883-912 and
1494-1574, /repo/p3/aoSystem/aoSystem.py:260-301.  Real arithmetic; `none` is a numpy `nan`.
-/
namespace P3.Extra
open Finset

/-- Exponent and limits of the band of an extra error. -/
structure Band where
  exp : ℝ
  kmin : ℝ
  kmax : ℝ

/-- The options of the telescope section that describe extra errors; `loNm` is a number or a list. -/
structure Opts where
  nm : Option ℝ
  exp : Option ℝ
  kmin : Option ℝ
  kmax : Option ℝ
  loNm : Option (ℝ ⊕ List ℝ)
  loExp : Option ℝ
  loMin : Option ℝ
  loMax : Option ℝ

/-- The values used. -/
structure Values where
  nm : ℝ
  band : Band
  loNm : ℝ ⊕ List ℝ
  loBand : Band

/-- Defaults, aoSystem.py:260-301. -/
noncomputable def Opts.values (o : Opts) : Values where
  nm := o.nm.getD 0
  band := ⟨o.exp.getD (-2), o.kmin.getD 0, o.kmax.getD 0⟩
  loNm := o.loNm.getD (.inl (o.nm.getD 0))
  loBand := ⟨o.loExp.getD (o.exp.getD (-2)), o.loMin.getD 0, o.loMax.getD 0⟩

/-- Weight of a frequency of modulus `k > 0`, fourierModel.py:1500-1508 and 1531-1540. -/
noncomputable def weight (D : ℝ) (b : Band) (k : ℝ) : ℝ :=
  if 0 < b.kmin ∧ k < b.kmin then 0
  else if 0 < b.kmax ∧ b.kmax < k then 0
  else k ^ b.exp * Psf.pistonFilter D k

/-- `extraErrorPSD`, fourierModel.py:1494-1524, at each frequency of the grid: nothing but `nan` if the band is empty
(0/0). -/
noncomputable def hoPsd {ι : Type} (grid : Finset ι) (D u : ℝ) (k : ι → ℝ) (b : Band) (nm : ℝ) (i : ι) : Option ℝ :=
  let S := ∑ j ∈ grid, weight D b (k j)
  if S = 0 then none else some (weight D b (k i) * nm ^ 2 / S * 1 / u ^ 2)

/-- `extraErrorLoPSD` for an error of `nm`, fourierModel.py:1531-1568. -/
noncomputable def loPsd {ι : Type} (grid : Finset ι) (D u : ℝ) (k : ι → ℝ) (b : Band) (nm : ℝ) (i : ι) : Option ℝ :=
  let S := ∑ j ∈ grid, weight D b (k j)
  if S = 0 then none else some (weight D b (k i) * (1 / S) * nm ^ 2 * (1 / u ^ 2))

/-- `np.interp(x, [0, a], [y0, y1])` for `a ≥ 0` (for `a = 0`, the default of `TechnicalFoV`, the search ends on the last
point whatever `x ≥ 0`). -/
noncomputable def interp2 (a y0 y1 x : ℝ) : ℝ :=
  if a ≤ x then y1 else if x ≤ 0 then y0 else y0 + (y1 - y0) / a * x

/-- Error in nm of the guide star at the zenith distance `z`, fourierModel.py:1543-1548 and 1562: a list must have two
values (`np.interp` raises otherwise). -/
noncomputable def loNmAt (fov : ℝ) (lo : ℝ ⊕ List ℝ) (z : ℝ) : Except PyErr ℝ :=
  match lo with
  | .inl x => .ok x
  | .inr [y0, y1] => .ok (interp2 (fov / 2) y0 y1 z)
  | .inr _ => .error .broadcast

/-- `errLOsum`, line 894. -/
def loSum : ℝ ⊕ List ℝ → ℝ
  | .inl x => x
  | .inr l => l.sum

/-- `nLO` of lines 895-899 with the errors in nm of the stars (`extraErrorLoPSD` is called for all of them, whatever the
source): `lo = some zenithGsLO` if the PSD is asked for at the guide stars. -/
noncomputable def loStars (fov : ℝ) (v : Values) (lo : Option (List ℝ)) : Except PyErr (List ℝ) :=
  open Classical in
  match lo with
  | some zen => if 0 ≤ loSum v.loNm then zen.mapM (loNmAt fov v.loNm) else .ok []
  | none => .ok []

/-- What is added to the PSD of source `s`, lines 892-908.  `.ok none`: `nan`. -/
noncomputable def extraAt {ι : Type} (grid : Finset ι) (D u : ℝ) (k : ι → ℝ) (fov : ℝ) (v : Values) (nSrc : ℕ)
    (lo : Option (List ℝ)) (s : ℕ) (i : ι) : Except PyErr (Option ℝ) := do
  let nms ← loStars fov v lo
  let nLO := nms.length
  pure (if 0 < nLO ∧ nSrc - s ≤ nLO then loPsd grid D u k v.loBand (nms.getD (s + nLO - nSrc) 0) i
    else open Classical in if 0 < v.nm then hoPsd grid D u k v.band v.nm i
    else some 0)

end P3.Extra
