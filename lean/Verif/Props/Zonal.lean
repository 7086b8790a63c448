import Verif.Model.Zonal
import Verif.Props.Images
import Verif.Props.Reconstruction
import Mathlib.Data.List.GetD
namespace P3.Zonal
open P3.Rec P3.Images

/-- Order of the points: rows, then columns. -/
def before (p q : ℤ × ℤ) : Prop := p.1 < q.1 ∨ (p.1 = q.1 ∧ p.2 < q.2)

theorem roundEven_int (k : ℤ) (x : ℝ) (h : x = k) : roundEven x = k := by
  subst h
  simp [roundEven]
  norm_num

theorem lin_inj (nc : ℤ) (p q : ℤ × ℤ) (hp : 1 ≤ p.1 ∧ p.1 ≤ nc) (hq : 1 ≤ q.1 ∧ q.1 ≤ nc) (h : lin nc p = lin nc q) :
    p = q := by
  unfold lin at h
  have h2 : (p.2 - q.2) * nc = q.1 - p.1 := by linarith
  have : p.2 - q.2 = 0 := by
    by_contra hne
    have hn : 0 < nc := by omega
    have h3 : nc ≤ |(p.2 - q.2) * nc| := by
      rw [abs_mul, abs_of_pos hn]
      have : 1 ≤ |p.2 - q.2| := Int.one_le_abs hne
      nlinarith
    rw [h2] at h3
    have : |q.1 - p.1| < nc := abs_lt.2 ⟨by omega, by omega⟩
    omega
  rw [this, zero_mul] at h2
  exact Prod.ext (by omega) (by omega)

theorem lin_range (nc : ℤ) (p : ℤ × ℤ) (hp : 1 ≤ p.1 ∧ p.1 ≤ nc) (hq : 1 ≤ p.2 ∧ p.2 ≤ nc) :
    0 ≤ lin nc p ∧ lin nc p < nc * nc := by
  unfold lin
  have h1 : 0 ≤ (p.2 - 1) * nc := mul_nonneg (by omega) (by omega)
  have h2 : (p.2 - 1) * nc ≤ (nc - 1) * nc := mul_le_mul_of_nonneg_right (by omega) (by omega)
  constructor
  · omega
  · nlinarith

/-- The points in the array of `3 nPh` points. -/
theorem loc2_eq (nPh : ℕ) (pts : List (ℤ × ℤ)) (a b : ℝ) (h : pts ≠ []) :
    ∃ m1 m2 : ℤ, (∃ p ∈ pts, p.1 = m1) ∧ (∃ p ∈ pts, p.2 = m2) ∧ (∀ p ∈ pts, m1 ≤ p.1 ∧ m2 ≤ p.2) ∧
      loc2 nPh (pts.map fun p => (a + p.1, b + p.2)) = pts.map fun p => (p.1 - m1 + n1 nPh, p.2 - m2 + n1 nPh) := by
  set loc : List (ℝ × ℝ) := pts.map fun p => (a + (p.1 : ℝ), b + (p.2 : ℝ)) with hloc
  have hne1 : loc.map Prod.fst ≠ [] := by simp [hloc, h]
  have hne2 : loc.map Prod.snd ≠ [] := by simp [hloc, h]
  have e1 := minL_mem _ hne1
  have e2 := minL_mem _ hne2
  simp only [hloc, List.map_map, List.mem_map, Function.comp_apply] at e1 e2
  obtain ⟨p, hp, e1⟩ := e1
  obtain ⟨q, hq, e2⟩ := e2
  refine ⟨p.1, q.2, ⟨p, hp, rfl⟩, ⟨q, hq, rfl⟩, ?_, ?_⟩
  · intro r hr
    have l1 := minL_le (loc.map Prod.fst) (a + r.1) (by simp only [hloc, List.map_map, List.mem_map, Function.comp_apply]; exact ⟨r, hr, rfl⟩)
    have l2 := minL_le (loc.map Prod.snd) (b + r.2) (by simp only [hloc, List.map_map, List.mem_map, Function.comp_apply]; exact ⟨r, hr, rfl⟩)
    simp only [hloc, List.map_map] at l1 l2
    rw [← e1] at l1
    rw [← e2] at l2
    constructor
    · have : (p.1 : ℝ) ≤ r.1 := by linarith
      exact_mod_cast this
    · have : (q.2 : ℝ) ≤ r.2 := by linarith
      exact_mod_cast this
  · unfold loc2
    simp only [hloc, List.map_map] at e1 e2 ⊢
    rw [← e1, ← e2]
    refine List.map_congr_left fun r _ => ?_
    simp only [Function.comp_apply]
    refine Prod.ext ?_ ?_
    · apply roundEven_int; push_cast; ring
    · apply roundEven_int; push_cast; ring

theorem zip_map_self {α β : Type} (f : α → β) (l : List α) : l.zip (l.map f) = l.map fun x => (x, f x) := by
  induction l with
  | nil => rfl
  | cons a t ih => simp [ih]

theorem before_irrefl (p : ℤ × ℤ) : ¬ before p p := by unfold before; omega

theorem before_trans_not (p q : ℤ × ℤ) (h : before p q) : ¬ before q p := by unfold before at *; omega

theorem before_add (p q u : ℤ × ℤ) (h : before p q) : before (p + u) (q + u) := by
  unfold before at *
  simp only [Prod.fst_add, Prod.snd_add]
  omega

/-- Alignment of the two lists for points in increasing order. -/
theorem aligned (pts : List (ℤ × ℤ)) (u : ℤ × ℤ) (hs : pts.Pairwise before) :
    ((List.range pts.length).filter fun j => decide (pts.getD j 0 - u ∈ pts)) =
      ((List.range pts.length).filter fun i => decide (pts.getD i 0 + u ∈ pts)).map
        fun i => pts.idxOf (pts.getD i 0 + u) := by
  have hlt : ∀ i j, i < j → j < pts.length → before (pts.getD i 0) (pts.getD j 0) := by
    intro i j hij hj
    rw [List.getD_eq_getElem _ _ (by omega), List.getD_eq_getElem _ _ hj]
    exact List.pairwise_iff_getElem.1 hs i j (by omega) hj hij
  have hnd : pts.Nodup := hs.imp fun {a b} h => by rintro rfl; exact before_irrefl _ h
  have hidx : ∀ x ∈ pts, pts.idxOf x < pts.length ∧ pts.getD (pts.idxOf x) 0 = x := by
    intro x hx
    have h := List.idxOf_lt_length_of_mem hx
    exact ⟨h, by rw [List.getD_eq_getElem _ _ h, List.getElem_idxOf]⟩
  have hidx2 : ∀ j < pts.length, pts.idxOf (pts.getD j 0) = j := by
    intro j hj
    rw [List.getD_eq_getElem _ _ hj]
    exact List.Nodup.idxOf_getElem hnd j hj
  have s1 : ((List.range pts.length).filter fun j => decide (pts.getD j 0 - u ∈ pts)).Pairwise (· < ·) :=
    List.Pairwise.filter _ List.pairwise_lt_range
  have s2 : (((List.range pts.length).filter fun i => decide (pts.getD i 0 + u ∈ pts)).map
        fun i => pts.idxOf (pts.getD i 0 + u)).Pairwise (· < ·) := by
    rw [List.pairwise_map]
    have h0 : ((List.range pts.length).filter fun i => decide (pts.getD i 0 + u ∈ pts)).Pairwise (· < ·) :=
      List.Pairwise.filter _ List.pairwise_lt_range
    refine List.Pairwise.imp_of_mem ?_ h0
    intro a b ha hb hab
    simp only [List.mem_filter, List.mem_range, decide_eq_true_eq] at ha hb
    obtain ⟨l1, e1⟩ := hidx _ ha.2
    obtain ⟨l2, e2⟩ := hidx _ hb.2
    have hbe := before_add _ _ u (hlt a b hab hb.1)
    by_contra hc
    rcases lt_or_eq_of_le (not_lt.1 hc) with c | c
    · have := hlt _ _ c l1
      rw [e1, e2] at this
      exact before_trans_not _ _ hbe this
    · rw [← e1, ← e2, c] at hbe
      exact before_irrefl _ hbe
  refine List.Perm.eq_of_pairwise (le := (· < ·)) ?_ s1 s2 ?_
  · intro a b _ _ h1 h2; omega
  · rw [List.perm_ext_iff_of_nodup (s1.imp fun h => ne_of_lt h) (s2.imp fun h => ne_of_lt h)]
    intro j
    simp only [List.mem_filter, List.mem_range, decide_eq_true_eq, List.mem_map]
    constructor
    · rintro ⟨hj, hm⟩
      obtain ⟨l, e⟩ := hidx _ hm
      refine ⟨_, ⟨l, ?_⟩, ?_⟩
      · rw [e, sub_add_cancel, List.getD_eq_getElem _ _ hj]; exact List.getElem_mem _
      · rw [e, sub_add_cancel, hidx2 j hj]
    · rintro ⟨i, ⟨hi, hm⟩, rfl⟩
      obtain ⟨l, e⟩ := hidx _ hm
      refine ⟨l, ?_⟩
      rw [e, add_sub_cancel_right, List.getD_eq_getElem _ _ hi]; exact List.getElem_mem _

/-- C237: the couples of points listed for a separation are all those at this separation, each once, and the two lists
match; no index leaves the array. -/
theorem indpts_spec (nPh : ℕ) (pts : List (ℤ × ℤ)) (a b : ℝ) (u : ℤ × ℤ) (hne : pts ≠ []) (hs : pts.Pairwise before)
    (hext : ∀ p ∈ pts, ∀ q ∈ pts, p.1 - q.1 < nPh ∧ p.2 - q.2 < nPh)
    (hu : -(nPh : ℤ) ≤ u.1 ∧ u.1 < nPh ∧ -(nPh : ℤ) ≤ u.2 ∧ u.2 < nPh) :
    ∃ l1 l2, indpts nPh (pts.map fun p => (a + p.1, b + p.2)) u = some (l1, l2) ∧ l1.length = l2.length ∧
      (l1.zip l2).Nodup ∧
      ∀ i j, (i, j) ∈ l1.zip l2 ↔ ∃ p q, pts[i]? = some p ∧ pts[j]? = some q ∧ q = p + u := by
  obtain ⟨m1, m2, ⟨p1, hp1, e1⟩, ⟨p2, hp2, e2⟩, hmin, hl⟩ := loc2_eq nPh pts a b hne
  have hn : n1 nPh = nPh + 1 + (nPh : ℤ) % 2 := by simp only [n1]; omega
  have hb : ∀ p ∈ pts, 0 ≤ p.1 - m1 ∧ p.1 - m1 < nPh ∧ 0 ≤ p.2 - m2 ∧ p.2 - m2 < nPh := by
    intro p hp
    have h1 := hmin p hp
    have h2 := (hext p hp p1 hp1).1
    have h3 := (hext p hp p2 hp2).2
    omega
  set f : ℤ × ℤ → ℤ × ℤ := fun p => (p.1 - m1 + n1 nPh, p.2 - m2 + n1 nPh) with hf
  set nc : ℤ := 3 * nPh with hnc
  have r1 : ∀ p ∈ pts, (1 ≤ (f p).1 ∧ (f p).1 ≤ nc) ∧ (1 ≤ (f p).2 ∧ (f p).2 ≤ nc) := by
    intro p hp
    have := hb p hp
    simp only [hf, hn, hnc]
    omega
  have r2 : ∀ p ∈ pts, (1 ≤ (f p).1 + u.1 ∧ (f p).1 + u.1 ≤ nc) ∧ (1 ≤ (f p).2 + u.2 ∧ (f p).2 + u.2 ≤ nc) := by
    intro p hp
    have := hb p hp
    simp only [hf, hn, hnc]
    omega
  have u1 : unravel nc ((pts.map f).map (lin nc)) = some ((pts.map f).map (lin nc)) := by
    unfold unravel
    rw [if_pos]
    intro k hk
    simp only [List.map_map, List.mem_map, Function.comp_apply] at hk
    obtain ⟨p, hp, rfl⟩ := hk
    exact lin_range nc _ (r1 p hp).1 (r1 p hp).2
  have u2 : unravel nc ((pts.map f).map fun p => lin nc (p.1 + u.1, p.2 + u.2)) =
      some ((pts.map f).map fun p => lin nc (p.1 + u.1, p.2 + u.2)) := by
    unfold unravel
    rw [if_pos]
    intro k hk
    simp only [List.map_map, List.mem_map, Function.comp_apply] at hk
    obtain ⟨p, hp, rfl⟩ := hk
    exact lin_range nc _ (r2 p hp).1 (r2 p hp).2
  have key : ∀ p ∈ pts, ∀ q ∈ pts, lin nc ((f p).1 + u.1, (f p).2 + u.2) = lin nc (f q) ↔ p + u = q := by
    intro p hp q hq
    constructor
    · intro h
      have := lin_inj nc _ _ (r2 p hp).1 (r1 q hq).1 h
      simp only [hf, Prod.mk.injEq] at this
      refine Prod.ext ?_ ?_
      · simp only [Prod.fst_add]; omega
      · simp only [Prod.snd_add]; omega
    · rintro rfl
      simp only [hf, Prod.fst_add, Prod.snd_add]
      congr 1
      refine Prod.ext ?_ ?_ <;> simp only [] <;> ring
  have m1' : members ((pts.map f).map fun p => lin nc (p.1 + u.1, p.2 + u.2)) ((pts.map f).map (lin nc)) =
      (List.range pts.length).filter fun i => decide (pts.getD i 0 + u ∈ pts) := by
    unfold members
    simp only [List.length_map, List.map_map]
    apply List.filter_congr
    intro i hi
    rw [List.mem_range] at hi
    congr 1
    rw [List.getD_eq_getElem _ _ (by simpa using hi), List.getD_eq_getElem _ _ hi, List.getElem_map]
    simp only [Function.comp_apply, List.mem_map, eq_iff_iff]
    constructor
    · rintro ⟨q, hq, e⟩
      rw [(key _ (List.getElem_mem hi) q hq).1 e.symm]; exact hq
    · intro hm
      exact ⟨_, hm, ((key _ (List.getElem_mem hi) _ hm).2 rfl).symm⟩
  have m2' : members ((pts.map f).map (lin nc)) ((pts.map f).map fun p => lin nc (p.1 + u.1, p.2 + u.2)) =
      (List.range pts.length).filter fun j => decide (pts.getD j 0 - u ∈ pts) := by
    unfold members
    simp only [List.length_map, List.map_map]
    apply List.filter_congr
    intro i hi
    rw [List.mem_range] at hi
    congr 1
    rw [List.getD_eq_getElem _ _ (by simpa using hi), List.getD_eq_getElem _ _ hi, List.getElem_map]
    simp only [Function.comp_apply, List.mem_map, eq_iff_iff]
    constructor
    · rintro ⟨p, hp, e⟩
      rw [← (key p hp _ (List.getElem_mem hi)).1 e, add_sub_cancel_right]; exact hp
    · intro hm
      exact ⟨_, hm, (key _ hm _ (List.getElem_mem hi)).2 (sub_add_cancel _ _)⟩
  have hind : indpts nPh (pts.map fun p => (a + p.1, b + p.2)) u =
      some ((List.range pts.length).filter fun i => decide (pts.getD i 0 + u ∈ pts),
        ((List.range pts.length).filter fun i => decide (pts.getD i 0 + u ∈ pts)).map
          fun i => pts.idxOf (pts.getD i 0 + u)) := by
    unfold indpts
    simp only [hl, ← hnc]
    rw [u1, u2]
    simp only [bind, Option.bind]
    rw [m1', m2', aligned pts u hs]
  refine ⟨_, _, hind, ?_, ?_, ?_⟩
  · simp
  · rw [zip_map_self]
    refine List.Nodup.map ?_ (List.Nodup.filter _ List.nodup_range)
    intro x y h
    exact congrArg Prod.fst h
  · intro i j
    rw [zip_map_self]
    simp only [List.mem_map, List.mem_filter, List.mem_range, decide_eq_true_eq, Prod.mk.injEq]
    constructor
    · rintro ⟨i', ⟨hi, hm⟩, rfl, rfl⟩
      have h := List.idxOf_lt_length_of_mem hm
      refine ⟨_, _, List.getElem?_eq_getElem hi, List.getElem?_eq_getElem h, ?_⟩
      rw [List.getElem_idxOf, List.getD_eq_getElem _ _ hi]
    · rintro ⟨p, q, hp, hq, rfl⟩
      obtain ⟨hi, hp⟩ := List.getElem?_eq_some_iff.1 hp
      obtain ⟨hj, hq⟩ := List.getElem?_eq_some_iff.1 hq
      have hnd : pts.Nodup := hs.imp fun {a b} h => by rintro rfl; exact before_irrefl _ h
      refine ⟨i, ⟨hi, ?_⟩, rfl, ?_⟩
      · rw [List.getD_eq_getElem _ _ hi, hp, ← hq]; exact List.getElem_mem _
      · rw [List.getD_eq_getElem _ _ hi, hp, ← hq]
        exact List.Nodup.idxOf_getElem hnd j hj

theorem couples_fin (n : ℕ) (l : List (ℕ × ℕ)) (h : ∀ p ∈ l, p.1 < n ∧ p.2 < n) :
    ∃ L : List (Fin n × Fin n), l.mapM (couple n) = some L ∧ L.map (fun p => (p.1.val, p.2.val)) = l := by
  induction l with
  | nil => exact ⟨[], rfl, rfl⟩
  | cons p t ih =>
    obtain ⟨L, e1, e2⟩ := ih fun q hq => h q (List.mem_cons_of_mem _ hq)
    have hp := h p List.mem_cons_self
    refine ⟨(⟨p.1, hp.1⟩, ⟨p.2, hp.2⟩) :: L, ?_, ?_⟩
    · simp [List.mapM_cons, couple, hp, e1]
    · simp [e2]

/-- C238: the transfer function at a separation is the sum over all couples of points at this separation of
`exp(-D/2)`, `D` the structure function between the two points, over the number of points. -/
theorem otfAt_spec (nPh : ℕ) (pts : List (ℤ × ℤ)) (a b dp : ℝ) (u : ℤ × ℤ) (hd : dp ≠ 0) (hne : pts ≠ [])
    (hs : pts.Pairwise before) (hext : ∀ p ∈ pts, ∀ q ∈ pts, p.1 - q.1 < nPh ∧ p.2 - q.2 < nPh)
    (hu : -(nPh : ℤ) ≤ u.1 ∧ u.1 < nPh ∧ -(nPh : ℤ) ≤ u.2 ∧ u.2 < nPh)
    (C : Matrix (Fin pts.length) (Fin pts.length) ℝ) :
    otfAt nPh dp C (pts.map fun p => (a + p.1, b + p.2)) u =
      some ((∑ p : Fin pts.length × Fin pts.length, if pts[p.2] = pts[p.1] + u then
        Real.exp (-(C p.1 p.1 + C p.2 p.2 - 2 * C p.1 p.2) / 2) else 0) / pts.length) := by
  classical
  obtain ⟨l1, l2, e1, -, hnd, hm⟩ := indpts_spec nPh pts a b u hne hs hext hu
  obtain ⟨L, f1, f2⟩ := couples_fin pts.length (l1.zip l2) (by
    intro p hp
    obtain ⟨x, y, hx, hy, -⟩ := (hm p.1 p.2).1 hp
    exact ⟨(List.getElem?_eq_some_iff.1 hx).1, (List.getElem?_eq_some_iff.1 hy).1⟩)
  have hn0 : (pts.length : ℝ) ≠ 0 := Nat.cast_ne_zero.2 (by simpa using hne)
  have hLnd : L.Nodup := by
    apply List.Nodup.of_map (fun p => (p.1.val, p.2.val))
    rw [f2]; exact hnd
  have hLm : ∀ p, p ∈ L ↔ pts[p.2] = pts[p.1] + u := by
    intro p
    have : p ∈ L ↔ (p.1.val, p.2.val) ∈ l1.zip l2 := by
      rw [← f2, List.mem_map]
      constructor
      · intro h; exact ⟨p, h, rfl⟩
      · rintro ⟨q, hq, e⟩
        simp only [Prod.mk.injEq] at e
        have : q = p := Prod.ext (Fin.ext e.1) (Fin.ext e.2)
        rwa [← this]
    rw [this, hm]
    constructor
    · rintro ⟨x, y, hx, hy, e⟩
      obtain ⟨_, hx⟩ := List.getElem?_eq_some_iff.1 hx
      obtain ⟨_, hy⟩ := List.getElem?_eq_some_iff.1 hy
      simp only [Fin.getElem_fin]
      rw [hx, hy, e]
    · intro h
      exact ⟨_, _, List.getElem?_eq_getElem p.1.2, List.getElem?_eq_getElem p.2.2, h⟩
  unfold otfAt
  rw [e1]
  simp only [Option.bind_some, f1, Option.map_some]
  congr 1
  have hsum : ∀ g : Fin pts.length × Fin pts.length → ℝ, (L.map g).sum =
      ∑ p, if pts[p.2] = pts[p.1] + u then g p else 0 := by
    intro g
    rw [← List.sum_toFinset g hLnd, ← Finset.sum_filter]
    refine Finset.sum_congr ?_ fun _ _ => rfl
    ext p
    rw [List.mem_toFinset, hLm, Finset.mem_filter]
    simp
  unfold P3.Rec.zonalOtf
  split_ifs with h0
  · have := hsum fun p => Real.exp (-(C p.1 p.1 + C p.2 p.2 - 2 * C p.1 p.2) / 2)
    rw [h0] at this
    rw [← this]; simp
  · rw [← hsum, mul_div_mul_right _ _ (pow_ne_zero 2 hd)]
    congr 2
    refine List.map_congr_left fun p _ => ?_
    rw [← Real.exp_add, ← Real.exp_add]
    congr 1; ring

/-- The points of the grid under a mask are in increasing order, at integer positions. -/
theorem points_spec (n : ℕ) (D dp : ℝ) (hd : dp ≠ 0) (valid : ℕ → ℕ → Bool) :
    ∃ pts : List (ℤ × ℤ), points n D dp valid = pts.map (fun p => (-D / 2 / dp + p.1, -D / 2 / dp + p.2)) ∧
      pts.Pairwise before ∧ (∀ p ∈ pts, ∀ q ∈ pts, p.1 - q.1 < n ∧ p.2 - q.2 < n) ∧
      ∀ i j : ℕ, ((i : ℤ), (j : ℤ)) ∈ pts ↔ i < n ∧ j < n ∧ valid i j = true := by
  refine ⟨(List.range n).flatMap fun i : ℕ => ((List.range n).filter fun j : ℕ => valid i j).map fun j : ℕ => ((i : ℤ), (j : ℤ)),
    ?_, ?_, ?_, ?_⟩
  · unfold points
    rw [List.map_flatMap]
    congr 1
    ext1 i
    rw [List.map_map]
    refine List.map_congr_left fun j _ => ?_
    simp only [Function.comp_apply, Int.cast_natCast, Prod.mk.injEq]
    constructor <;> field_simp
  · rw [List.pairwise_flatMap]
    constructor
    · intro i _
      rw [List.pairwise_map]
      refine List.Pairwise.filter _ ((List.pairwise_lt_range).imp fun {a b} h => ?_)
      unfold before
      right
      exact ⟨rfl, by simpa using h⟩
    · refine (List.pairwise_lt_range).imp fun {a b} h => ?_
      intro x hx y hy
      obtain ⟨_, _, rfl⟩ := List.mem_map.1 hx
      obtain ⟨_, _, rfl⟩ := List.mem_map.1 hy
      left
      simpa using h
  · intro p hp q hq
    simp only [List.mem_flatMap, List.mem_map, List.mem_filter, List.mem_range] at hp hq
    obtain ⟨i, hi, j, ⟨hj, _⟩, rfl⟩ := hp
    obtain ⟨i', hi', j', ⟨hj', _⟩, rfl⟩ := hq
    simp only
    omega
  · intro i j
    simp only [List.mem_flatMap, List.mem_map, List.mem_filter, List.mem_range, Prod.mk.injEq, Nat.cast_inj]
    constructor
    · rintro ⟨i', hi, j', ⟨hj, hv⟩, rfl, rfl⟩; exact ⟨hi, hj, hv⟩
    · rintro ⟨hi, hj, hv⟩; exact ⟨i, hi, j, ⟨hj, hv⟩, rfl, rfl⟩

/-- C239: the transfer function is one at the zero separation, at most one elsewhere for a covariance matrix, and even. -/
theorem otfAt_bounds (nPh : ℕ) (pts : List (ℤ × ℤ)) (a b dp : ℝ) (u : ℤ × ℤ) (hd : dp ≠ 0) (hne : pts ≠ [])
    (hs : pts.Pairwise before) (hext : ∀ p ∈ pts, ∀ q ∈ pts, p.1 - q.1 < nPh ∧ p.2 - q.2 < nPh)
    (hu : -(nPh : ℤ) < u.1 ∧ u.1 < nPh ∧ -(nPh : ℤ) < u.2 ∧ u.2 < nPh)
    (C : Matrix (Fin pts.length) (Fin pts.length) ℝ) (hC : C.PosSemidef) :
    otfAt nPh dp C (pts.map fun p => (a + p.1, b + p.2)) 0 = some 1 ∧
    ∃ v, otfAt nPh dp C (pts.map fun p => (a + p.1, b + p.2)) u = some v ∧
      otfAt nPh dp C (pts.map fun p => (a + p.1, b + p.2)) (-u) = some v ∧ 0 ≤ v ∧ v ≤ 1 ∧
      (v = 0 ↔ ∀ p ∈ pts, p + u ∉ pts) := by
  classical
  have hnd : pts.Nodup := hs.imp fun {a b} h => by rintro rfl; exact before_irrefl _ h
  have hn0 : (0 : ℝ) < pts.length := by
    have : 0 < pts.length := List.length_pos_iff.2 hne
    exact_mod_cast this
  have inj : ∀ i j : Fin pts.length, pts[i] = pts[j] → i = j := by
    intro i j h
    exact Fin.ext ((List.Nodup.getElem_inj_iff hnd).1 h)
  have hsym : ∀ i j, C i j = C j i := by
    intro i j
    have := congrFun (congrFun hC.isHermitian i) j
    simpa [Matrix.conjTranspose_apply] using this.symm
  have hsf : ∀ i j, 0 ≤ C i i + C j j - 2 * C i j := by
    intro i j
    rcases eq_or_ne i j with rfl | hij
    · linarith
    have h := hC.dotProduct_mulVec_nonneg (Pi.single i 1 - Pi.single j 1)
    have e : star (Pi.single i 1 - Pi.single j 1 : Fin pts.length → ℝ) ⬝ᵥ
        C.mulVec (Pi.single i 1 - Pi.single j 1) = C i i + C j j - 2 * C i j := by
      have : star (Pi.single i 1 - Pi.single j 1 : Fin pts.length → ℝ) = Pi.single i 1 - Pi.single j 1 := by
        ext k; simp
      rw [this, Matrix.mulVec_sub, sub_dotProduct, dotProduct_sub, dotProduct_sub]
      simp only [Matrix.mulVec_single_one, single_one_dotProduct, Matrix.col_apply]
      rw [hsym j i]; ring
    rwa [e] at h
  have hz := otfAt_spec nPh pts a b dp 0 hd hne hs hext (by
    have : 0 < nPh := by
      obtain ⟨p, hp⟩ := List.exists_mem_of_ne_nil _ hne
      have := (hext p hp p hp).1
      omega
    simp; omega) C
  have hp := otfAt_spec nPh pts a b dp u hd hne hs hext ⟨hu.1.le, hu.2.1, hu.2.2.1.le, hu.2.2.2⟩ C
  have hm := otfAt_spec nPh pts a b dp (-u) hd hne hs hext (by simp only [Prod.fst_neg, Prod.snd_neg]; omega) C
  refine ⟨?_, _, hp, ?_, ?_, ?_, ?_⟩
  · rw [hz]
    congr 1
    rw [div_eq_one_iff_eq hn0.ne', Fintype.sum_prod_type]
    have : ∀ i : Fin pts.length, (∑ j : Fin pts.length, if pts[j] = pts[i] + 0 then
        Real.exp (-(C i i + C j j - 2 * C i j) / 2) else 0) = 1 := by
      intro i
      rw [Finset.sum_eq_single i]
      · rw [if_pos (add_zero _).symm]
        rw [show -(C i i + C i i - 2 * C i i) / 2 = 0 by ring, Real.exp_zero]
      · intro j _ hj
        rw [if_neg]
        rw [add_zero]
        exact fun h => hj (inj _ _ h)
      · intro h; exact absurd (Finset.mem_univ _) h
    simp only
    rw [Finset.sum_congr rfl fun i _ => this i]
    simp
  · rw [hm]
    congr 2
    refine Fintype.sum_equiv (Equiv.prodComm _ _) _ _ fun p => ?_
    obtain ⟨i, j⟩ := p
    change (if pts[j] = pts[i] + -u then Real.exp (-(C i i + C j j - 2 * C i j) / 2) else 0) =
      (if pts[i] = pts[j] + u then Real.exp (-(C j j + C i i - 2 * C j i) / 2) else 0)
    have : pts[j] = pts[i] + -u ↔ pts[i] = pts[j] + u := by
      constructor
      · intro h; rw [h, neg_add_cancel_right]
      · intro h; rw [h, add_neg_cancel_right]
    by_cases h : pts[i] = pts[j] + u
    · rw [if_pos (this.2 h), if_pos h, hsym j i]; congr 1; ring
    · rw [if_neg (mt this.1 h), if_neg h]
  · refine div_nonneg (Finset.sum_nonneg fun p _ => ?_) hn0.le
    split_ifs
    · exact (Real.exp_pos _).le
    · exact le_rfl
  · rw [div_le_one hn0, Fintype.sum_prod_type]
    have : ∀ i : Fin pts.length, (∑ j : Fin pts.length, if pts[j] = pts[i] + u then
        Real.exp (-(C i i + C j j - 2 * C i j) / 2) else 0) ≤ 1 := by
      intro i
      by_cases h : ∃ j : Fin pts.length, pts[j] = pts[i] + u
      · obtain ⟨j, hj⟩ := h
        rw [Finset.sum_eq_single j]
        · rw [if_pos hj, Real.exp_le_one_iff]
          have := hsf i j
          linarith
        · intro k _ hk
          rw [if_neg]
          intro h
          exact hk (inj _ _ (h.trans hj.symm))
        · intro h; exact absurd (Finset.mem_univ _) h
      · rw [Finset.sum_eq_zero]
        · exact zero_le_one
        · intro j _
          rw [if_neg]
          exact fun hj => h ⟨j, hj⟩
    refine (Finset.sum_le_sum fun i _ => this i).trans ?_
    simp
  · rw [div_eq_zero_iff, or_iff_left hn0.ne', Finset.sum_eq_zero_iff_of_nonneg]
    · constructor
      · intro h p hp hq
        obtain ⟨i, hi, rfl⟩ := List.getElem_of_mem hp
        obtain ⟨j, hj, e⟩ := List.getElem_of_mem hq
        have := h (⟨i, hi⟩, ⟨j, hj⟩) (Finset.mem_univ _)
        simp only [Fin.getElem_fin] at this
        rw [if_pos e] at this
        exact (Real.exp_pos _).ne' this
      · intro h p _
        rw [if_neg]
        intro e
        refine h _ (List.getElem_mem p.1.2) ?_
        simp only [Fin.getElem_fin] at e
        rw [← e]
        exact List.getElem_mem p.2.2
    · intro p _
      split_ifs
      · exact (Real.exp_pos _).le
      · exact le_rfl

/-- C238, C239 for the points of a mask over the `N + 1` points across a telescope of `N` pitches. -/
theorem mask_otf (N : ℕ) (dp : ℝ) (hd : 0 < dp) (valid : ℕ → ℕ → Bool) (u : ℤ × ℤ)
    (hu : -((N : ℤ) + 1) < u.1 ∧ u.1 < N + 1 ∧ -((N : ℤ) + 1) < u.2 ∧ u.2 < N + 1)
    (hv : ∃ i ≤ N, ∃ j ≤ N, valid i j = true) :
    (P3.Rec.pointLoc (N * dp) dp).length = N + 1 ∧
    ∃ pts : List (ℤ × ℤ), pts.Nodup ∧ (∀ i j : ℕ, ((i : ℤ), (j : ℤ)) ∈ pts ↔ i ≤ N ∧ j ≤ N ∧ valid i j = true) ∧
      (points (N + 1) (N * dp) dp valid = pts.map fun p => (-(N * dp) / 2 / dp + p.1, -(N * dp) / 2 / dp + p.2)) ∧
      ∀ C : Matrix (Fin pts.length) (Fin pts.length) ℝ,
        otfAt (N + 1) dp C (points (N + 1) (N * dp) dp valid) u =
          some ((∑ p : Fin pts.length × Fin pts.length, if pts[p.2] = pts[p.1] + u then
            Real.exp (-(C p.1 p.1 + C p.2 p.2 - 2 * C p.1 p.2) / 2) else 0) / pts.length) := by
  obtain ⟨pts, e, hs, hext, hm⟩ := points_spec (N + 1) (N * dp) dp hd.ne' valid
  refine ⟨?_, pts, ?_, ?_, ?_, ?_⟩
  · unfold P3.Rec.pointLoc
    rw [List.length_map, List.length_range]
    have : ((N : ℝ) * dp / 2 + dp - -(N * dp) / 2) / dp = ((N + 1 : ℕ) : ℝ) := by
      push_cast; field_simp; ring
    rw [this, Nat.ceil_natCast]
  · exact hs.imp fun {a b} h => by rintro rfl; exact before_irrefl _ h
  · intro i j; rw [hm, Nat.lt_succ_iff, Nat.lt_succ_iff]
  · exact e
  · intro C
    rw [e]
    refine otfAt_spec (N + 1) pts _ _ dp u hd.ne' ?_ hs ?_ ?_ C
    · rintro rfl
      obtain ⟨i, hi, j, hj, h⟩ := hv
      have := (hm i j).2 ⟨by omega, by omega, h⟩
      simp at this
    · intro p hp q hq; have := hext p hp q hq; push_cast at this ⊢; exact this
    · push_cast; omega

theorem grid_getElem? {α : Type} (f : ℕ → ℕ → α) (m : ℕ) (hy : 0 < m) (n k : ℕ) (hk : k < n * m) :
    ((List.range n).flatMap fun i : ℕ => (List.range m).map fun j : ℕ => f i j)[k]? = some (f (k / m) (k % m)) := by
  induction n generalizing k with
  | zero => simp at hk
  | succ n ih =>
    have hl : ((List.range n).flatMap fun i : ℕ => (List.range m).map fun j : ℕ => f i j).length = n * m := by
      simp [List.length_flatMap]
    rw [List.range_succ, List.flatMap_append]
    by_cases h : k < n * m
    · rw [List.getElem?_append_left (by rw [hl]; exact h), ih k h]
    · push Not at h
      rw [List.getElem?_append_right (by rw [hl]; exact h), hl]
      have hlt : k - n * m < m := by rw [Nat.succ_mul] at hk; omega
      have e1 : k / m = n := by
        rw [Nat.div_eq_iff hy]
        rw [Nat.succ_mul] at hk; omega
      have e2 : k % m = k - n * m := by
        have := Nat.div_add_mod k m
        rw [e1, Nat.mul_comm] at this
        omega
      rw [e1, e2]
      simp [hlt]

/-- C240: without a mask, along one axis, the transfer function does not depend on the covariance. -/
theorem otfNone_refuted (n : ℕ) (hn : 0 < n) (D dp : ℝ) (hd : dp ≠ 0) (v : ℤ) (hv : -(n : ℤ) ≤ v ∧ v < n)
    (C : Matrix (Fin (n * n)) (Fin (n * n)) ℝ) :
    otfNone n D dp C (0, v) = otfNone n D dp 0 (0, v) ∧ ∃ x, otfNone n D dp C (0, v) = some x := by
  obtain ⟨pts, hpts, e, hs, hext⟩ : ∃ pts : List (ℤ × ℤ),
      pts = ((List.range n).flatMap fun i : ℕ => (List.range n).map fun j : ℕ => ((i : ℤ), (j : ℤ))) ∧
      points n D dp (fun _ _ => true) = pts.map (fun p => (-D / 2 / dp + p.1, -D / 2 / dp + p.2)) ∧
      pts.Pairwise before ∧ (∀ p ∈ pts, ∀ q ∈ pts, p.1 - q.1 < n ∧ p.2 - q.2 < n) := by
    refine ⟨_, rfl, ?_, ?_, ?_⟩
    · unfold points
      rw [List.map_flatMap]
      congr 1
      ext1 i
      rw [List.filter_true, List.map_map]
      refine List.map_congr_left fun j _ => ?_
      simp only [Function.comp_apply, Int.cast_natCast, Prod.mk.injEq]
      constructor <;> field_simp
    · rw [List.pairwise_flatMap]
      constructor
      · intro i _
        rw [List.pairwise_map]
        refine ((List.pairwise_lt_range).imp fun {a b} h => ?_)
        unfold before
        right
        exact ⟨rfl, by simpa using h⟩
      · refine (List.pairwise_lt_range).imp fun {a b} h => ?_
        intro x hx y hy
        obtain ⟨_, _, rfl⟩ := List.mem_map.1 hx
        obtain ⟨_, _, rfl⟩ := List.mem_map.1 hy
        left
        simpa using h
    · intro p hp q hq
      simp only [List.mem_flatMap, List.mem_map, List.mem_range] at hp hq
      obtain ⟨i, hi, j, hj, rfl⟩ := hp
      obtain ⟨i', hi', j', hj', rfl⟩ := hq
      simp only
      omega
  have hlen : pts.length = n * n := by rw [hpts]; simp [List.length_flatMap]
  have hget : ∀ k < n * n, pts[k]? = some (((k / n : ℕ) : ℤ), ((k % n : ℕ) : ℤ)) := by
    intro k hk
    rw [hpts]
    exact grid_getElem? (fun i j => ((i : ℤ), (j : ℤ))) n hn n k hk
  have hne : pts ≠ [] := by
    intro h
    rw [h] at hlen
    simp at hlen
    omega
  obtain ⟨l1, l2, e1, -, -, hm⟩ := indpts_spec n pts (-D / 2 / dp) (-D / 2 / dp) (0, v) hne hs hext (by simp; omega)
  have hpair : ∀ p ∈ (l1.map (· / n)).zip (l2.map (· / n)), p.1 = p.2 ∧ p.1 < n * n := by
    intro p hp
    rw [List.zip_map, List.mem_map] at hp
    obtain ⟨⟨i, j⟩, hij, rfl⟩ := hp
    obtain ⟨a, b, ha, hb, hab⟩ := (hm i j).1 hij
    have hi := (List.getElem?_eq_some_iff.1 ha).1
    have hj := (List.getElem?_eq_some_iff.1 hb).1
    rw [hlen] at hi hj
    rw [hget i hi] at ha
    rw [hget j hj] at hb
    obtain rfl := Option.some.inj ha
    obtain rfl := Option.some.inj hb
    have := congrArg Prod.fst hab
    simp only [Prod.fst_add, add_zero, Nat.cast_inj] at this
    refine ⟨this.symm, ?_⟩
    exact (Nat.div_le_self _ _).trans_lt hi
  obtain ⟨L, f1, f2⟩ := couples_fin (n * n) ((l1.map (· / n)).zip (l2.map (· / n))) (by
    intro p hp
    have := hpair p hp
    omega)
  have hL : ∀ p ∈ L, p.1 = p.2 := by
    intro p hp
    have : (p.1.val, p.2.val) ∈ (l1.map (· / n)).zip (l2.map (· / n)) := by
      rw [← f2]; exact List.mem_map_of_mem hp
    exact Fin.ext (hpair _ this).1
  have hz : ∀ C : Matrix (Fin (n * n)) (Fin (n * n)) ℝ, otfNone n D dp C (0, v) = some (P3.Rec.zonalOtf dp C L) := by
    intro C
    unfold otfNone
    rw [e, e1]
    simp only [Option.bind_some, f1, Option.map_some]
  rw [hz, hz]
  refine ⟨?_, _, rfl⟩
  congr 1
  unfold P3.Rec.zonalOtf
  split_ifs
  · rfl
  · congr 3
    refine List.map_congr_left fun p hp => ?_
    rw [hL p hp]
    simp only [Matrix.zero_apply]
    rw [← Real.exp_add, ← Real.exp_add, ← Real.exp_add, ← Real.exp_add]
    congr 1
    ring

/-- Non-vacuous: three points of a mask. -/
example : ∃ pts : List (ℤ × ℤ), pts ≠ [] ∧ pts.Pairwise before ∧
    (∀ p ∈ pts, ∀ q ∈ pts, p.1 - q.1 < (2 : ℕ) ∧ p.2 - q.2 < (2 : ℕ)) ∧ (1 : Matrix (Fin pts.length) (Fin pts.length) ℝ).PosSemidef := by
  refine ⟨[(0, 1), (1, 0), (1, 1)], by simp, by simp [before], by simp, Matrix.PosSemidef.one⟩

/-! ### Cases that meet the hypotheses -/

theorem demo_before : ([(0, 0), (0, 1), (1, 0)] : List (ℤ × ℤ)).Pairwise before := by
  simp [before]

theorem demo_extent : ∀ p ∈ ([(0, 0), (0, 1), (1, 0)] : List (ℤ × ℤ)), ∀ q ∈ ([(0, 0), (0, 1), (1, 0)] : List (ℤ × ℤ)),
    p.1 - q.1 < (2 : ℕ) ∧ p.2 - q.2 < (2 : ℕ) := by
  intro p hp q hq
  fin_cases hp <;> fin_cases hq <;> norm_num

/-- A case meeting the hypotheses of `indpts_spec`. -/
example : ∃ l1 l2, indpts 2 (([(0, 0), (0, 1), (1, 0)] : List (ℤ × ℤ)).map fun p => ((1/2 : ℝ) + p.1, (1/3 : ℝ) + p.2)) (0, 1) = some (l1, l2) ∧
    (0, 1) ∈ l1.zip l2 ∧ (0, 2) ∉ l1.zip l2 := by
  obtain ⟨l1, l2, h, -, -, hi⟩ := indpts_spec 2 [(0, 0), (0, 1), (1, 0)] (1/2) (1/3) (0, 1) (by simp) demo_before demo_extent (by norm_num)
  exact ⟨l1, l2, h, by rw [hi]; simp, by rw [hi]; simp⟩

/-- A case meeting the hypotheses of `otfAt_spec`. -/
example : ∃ v, otfAt 2 (1/4) (1 : Matrix (Fin 3) (Fin 3) ℝ) (([(0, 0), (0, 1), (1, 0)] : List (ℤ × ℤ)).map fun p => ((1/2 : ℝ) + p.1, (1/3 : ℝ) + p.2)) (0, 1) = some v :=
  ⟨_, otfAt_spec 2 [(0, 0), (0, 1), (1, 0)] (1/2) (1/3) (1/4) (0, 1) (by norm_num) (by simp) demo_before demo_extent (by norm_num) 1⟩

/-- A case meeting the hypotheses of `otfAt_bounds`. -/
example : otfAt 2 (1/4) (1 : Matrix (Fin 3) (Fin 3) ℝ) (([(0, 0), (0, 1), (1, 0)] : List (ℤ × ℤ)).map fun p => ((1/2 : ℝ) + p.1, (1/3 : ℝ) + p.2)) 0 = some 1 :=
  (otfAt_bounds 2 [(0, 0), (0, 1), (1, 0)] (1/2) (1/3) (1/4) (0, 1) (by norm_num) (by simp) demo_before demo_extent (by norm_num) 1
    Matrix.PosSemidef.one).1

/-! ### Cases that meet the hypotheses -/

/-- A case meeting the hypotheses of `mask_otf`. -/
example : ∃ pts : List (ℤ × ℤ), (∀ i j : ℕ, ((i : ℤ), (j : ℤ)) ∈ pts ↔ i ≤ 3 ∧ j ≤ 3 ∧ decide (i + j < 4) = true) ∧
    points (3 + 1) ((3 : ℕ) * (1/2)) (1/2) (fun i j => decide (i + j < 4)) =
      pts.map fun p => (-((3 : ℕ) * (1/2 : ℝ)) / 2 / (1/2) + p.1, -((3 : ℕ) * (1/2 : ℝ)) / 2 / (1/2) + p.2) :=
  let ⟨_, pts, _, h, h', _⟩ := mask_otf 3 (1/2) (by norm_num) (fun i j => decide (i + j < 4)) (1, 0) (by norm_num)
    ⟨0, by norm_num, 0, by norm_num, by simp⟩
  ⟨pts, h, h'⟩

end P3.Zonal
