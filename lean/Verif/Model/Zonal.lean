import Verif.Model.Reconstruction
import Verif.Model.Images
/-
Couples of points with the same separation, for the transfer function of a zonal covariance.  Source:
/repo/p3/psfr/psfrUtils.py.  Real arithmetic.  The type `np.object` used at lines 83-84 exists only in numpy before
1.24; the model is that of these versions.
-/
namespace P3.Zonal
open P3.Rec P3.Images

/-- `n1`, psfrUtils.py:74-76. -/
def n1 (nPh : ℕ) : ℤ :=
  let nc : ℤ := 3 * nPh
  let n := nc - nPh
  (n - n % 2) / 2 + 1 + (nPh : ℤ) % 2

/-- `loc2`, psfrUtils.py:71-79: positions (in pitches) moved into an array of `3 nPh` points across; `loc` is the list of
the columns of `loc/dp`. -/
noncomputable def loc2 (nPh : ℕ) (loc : List (ℝ × ℝ)) : List (ℤ × ℤ) :=
  let m1 := minL (loc.map Prod.fst) - (n1 nPh - 1)
  let m2 := minL (loc.map Prod.snd) - (n1 nPh - 1)
  loc.map fun p => (roundEven (p.1 - m1 + 1), roundEven (p.2 - m2 + 1))

/-- Linear index, psfrUtils.py:81 and 96. -/
def lin (nc : ℤ) (p : ℤ × ℤ) : ℤ := p.1 + (p.2 - 1) * nc - 1

/-- `np.unravel_index` refuses an index outside the array (`none`). -/
def unravel (nc : ℤ) (l : List ℤ) : Option (List ℤ) :=
  if ∀ k ∈ l, 0 ≤ k ∧ k < nc * nc then some l else none

/-- Positions of the elements of `l` that belong to `set` (`mask[idx].nonzero()`). -/
def members (l set : List ℤ) : List ℕ :=
  (List.range l.length).filter fun i => decide (l.getD i 0 ∈ set)

/-- `mkotf_indpts`, psfrUtils.py:69-105, at the separation `u` (in pitches): positions of the points whose translate is
a point, and of the points that are a translate. -/
noncomputable def indpts (nPh : ℕ) (loc : List (ℝ × ℝ)) (u : ℤ × ℤ) : Option (List ℕ × List ℕ) := do
  let nc : ℤ := 3 * nPh
  let l2 := loc2 nPh loc
  let emb ← unravel nc (l2.map (lin nc))
  let sh ← unravel nc (l2.map fun p => lin nc (p.1 + u.1, p.2 + u.2))
  some (members sh emb, members emb sh)

/-- A couple of positions among `n` points. -/
def couple (n : ℕ) (p : ℕ × ℕ) : Option (Fin n × Fin n) :=
  if h : p.1 < n ∧ p.2 < n then some (⟨p.1, h.1⟩, ⟨p.2, h.2⟩) else none

/-- `otf[ju, iu]` of `mkotf` for these couples, psfrUtils.py:43-66 and 211-218, before the interpolation. -/
noncomputable def otfAt {n : ℕ} (nPh : ℕ) (dp : ℝ) (Cphi : Matrix (Fin n) (Fin n) ℝ) (loc : List (ℝ × ℝ)) (u : ℤ × ℤ) :
    Option ℝ :=
  (indpts nPh loc u).bind fun ab => ((ab.1.zip ab.2).mapM (couple n)).map fun pairs => P3.Rec.zonalOtf dp Cphi pairs

/-- Points of `pointWiseLocation`, psfrUtils.py:186-194, with a mask: row `i` and column `j` of the grid give
`(xloc[i], xloc[j])`, in the order of the rows of the mask.  In pitches. -/
noncomputable def points (n : ℕ) (D dp : ℝ) (valid : ℕ → ℕ → Bool) : List (ℝ × ℝ) :=
  (List.range n).flatMap fun i : ℕ => ((List.range n).filter fun j : ℕ => valid i j).map fun j : ℕ =>
    ((-D / 2 + i * dp) / dp, (-D / 2 + j * dp) / dp)

/-- `otf[ju, iu]` without a mask, psfrUtils.py:43-66 and 186-218: the positions are then arrays of `2 x n x n` values, and
`indpts[0]` (line 54) is the list of the row numbers of the points, used as positions among the `n²` points. -/
noncomputable def otfNone (n : ℕ) (D dp : ℝ) (Cphi : Matrix (Fin (n * n)) (Fin (n * n)) ℝ) (u : ℤ × ℤ) : Option ℝ :=
  (indpts n (points n D dp fun _ _ => true) u).bind fun ab =>
    (((ab.1.map (· / n)).zip (ab.2.map (· / n))).mapM (couple (n * n))).map fun pairs => P3.Rec.zonalOtf dp Cphi pairs

end P3.Zonal
