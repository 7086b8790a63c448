import Verif.Model.Pupil
import Mathlib.Tactic.Linarith
import Mathlib.Tactic.NormNum
import Mathlib.Tactic.Positivity
import Mathlib.Tactic.FieldSimp
import Mathlib.Tactic.Ring

/-! C50, C87-C91: segmented pupils. -/

namespace P3.Pupil

/-! ### Windows -/

/-- The window of a segment has exactly the size of the segment, whatever its position. -/
theorem window_size (p : Pup) (s : Seg) : rowEnd p s = rowStart p s + s.n ∧ colEnd p s = colStart p s + s.n := by
  unfold rowEnd rowStart colEnd colStart
  constructor
  · rw [← Int.ceil_add_natCast]; congr 1; ring
  · rw [← Int.ceil_add_natCast]; congr 1; ring

/-- The window lies inside the map. -/
def Fits (p : Pup) (s : Seg) : Prop :=
  0 ≤ rowStart p s ∧ rowEnd p s ≤ p.N ∧ 0 ≤ colStart p s ∧ colEnd p s ≤ p.N

theorem window_fits (p : Pup) (s : Seg) (h : Fits p s) :
    window p s = some ((rowStart p s).toNat, (colStart p s).toNat) := by
  obtain ⟨h1, h2, h3, h4⟩ := h
  rw [(window_size p s).1] at h2
  rw [(window_size p s).2] at h4
  unfold window sliceOffset
  rw [if_pos ⟨h1, h2⟩, if_pos ⟨h3, h4⟩]

/-- What a segment contributes to the map. -/
noncomputable def contrib (p : Pup) (s : Seg) (i j : ℕ) : ℂ :=
  match window p s with
  | some w => placed s.n w s.mat i j
  | none => 0

/-- The map is the sum of the segments. -/
def Assembled (p : Pup) : Prop := ∀ i j, p.mat i j = (p.segs.map fun s => contrib p s i j).sum

/-- No pixel belongs to two segments. -/
def NoOverlap (p : Pup) : Prop :=
  p.segs.Pairwise fun s t => ∀ i j, contrib p s i j = 0 ∨ contrib p t i j = 0

/-- The pixels of a segment are dark or have modulus one. -/
def UnitSeg (s : Seg) : Prop := ∀ a b, s.mat a b = 0 ∨ ‖s.mat a b‖ = 1

/-- C50: building the pupil adds all the segments, or raises when one does not fit. -/
theorem makePupil_spec (p q : Pup) (h : makePupil p = .ok q) :
    Assembled q ∧ q.segs = p.segs ∧ q.N = p.N := by
  have main : ∀ (l : List Seg) (a b : Pup), l.foldlM (fun q s => addAt q s s.mat) a = Except.ok b →
      b = { a with mat := fun i j => a.mat i j + (l.map fun s => contrib a s i j).sum } := by
    intro l
    induction l with
    | nil =>
      intro a b hb
      have : a = b := by simpa [pure, Except.pure] using hb
      rw [← this]; simp
    | cons s t ih =>
      intro a b hb
      rw [List.foldlM_cons] at hb
      unfold addAt at hb
      rcases hw : window a s with _ | w
      · rw [hw] at hb; exact absurd hb (by simp [bind, Except.bind])
      · rw [hw] at hb
        have := ih _ _ hb
        rw [this]
        congr 1
        funext i j
        have hc : contrib a s i j = placed s.n w s.mat i j := by simp only [contrib, hw]
        have hsame : ∀ u : Seg, contrib { a with mat := fun i j => a.mat i j + placed s.n w s.mat i j } u i j = contrib a u i j :=
          fun _ => rfl
        simp only [List.map_cons, List.sum_cons, hsame, hc]
        ring
  have := main p.segs _ _ h
  refine ⟨?_, by rw [this], by rw [this]⟩
  intro i j
  rw [this]
  simp only [zero_add]
  rfl

theorem sum_eraseIdx (l : List Seg) (f : Seg → ℂ) (k : ℕ) (s : Seg) (h : l[k]? = some s) :
    (l.map f).sum = f s + ((l.eraseIdx k).map f).sum := by
  induction l generalizing k with
  | nil => simp at h
  | cons a t ih =>
    cases k with
    | zero =>
      have : a = s := by simpa using h
      simp [this]
    | succ k =>
      have := ih k (by simpa using h)
      simp only [List.map_cons, List.sum_cons, List.eraseIdx_cons_succ, this]
      ring

theorem overlap_zero (p : Pup) (hd : NoOverlap p) (k : ℕ) (s : Seg) (h : p.segs[k]? = some s) (i j : ℕ)
    (hne : contrib p s i j ≠ 0) : ((p.segs.eraseIdx k).map fun t => contrib p t i j).sum = 0 := by
  apply List.sum_eq_zero
  intro x hx
  obtain ⟨t, ht, rfl⟩ := List.mem_map.mp hx
  obtain ⟨m, hml, hmk, hget⟩ := List.mem_eraseIdx_iff_getElem.mp ht
  have hk : k < p.segs.length := by
    by_contra hc
    rw [List.getElem?_eq_none (by omega)] at h; simp at h
  have hs : p.segs[k] = s := by rw [List.getElem?_eq_getElem hk] at h; simpa using h
  rw [NoOverlap, List.pairwise_iff_getElem] at hd
  rcases Nat.lt_or_gt_of_ne hmk with hlt | hlt
  · have := hd m k hml hk hlt i j
    rw [hget, hs] at this
    tauto
  · have := hd k m hk hml hlt i j
    rw [hget, hs] at this
    tauto

/-- C50: removing a segment changes exactly the pixels of its window where its modulus is one: they become dark. -/
theorem remove1_spec (p : Pup) (s : Seg) (h : Fits p s) :
    ∃ q, remove1 p s = .ok q ∧ q.segs = p.segs ∧ q.N = p.N ∧
      ∀ i j, (‖contrib p s i j‖ = 1 → q.mat i j = 0) ∧ (‖contrib p s i j‖ ≠ 1 → q.mat i j = p.mat i j) := by
  classical
  have hw := window_fits p s h
  set w : ℕ × ℕ := ((rowStart p s).toNat, (colStart p s).toNat) with hwd
  have hc : ∀ i j, contrib p s i j = placed s.n w s.mat i j := fun i j => by simp only [contrib, hw]
  unfold remove1
  by_cases hx : ∃ a < s.n, ∃ b < s.n, ‖s.mat a b‖ = 1
  · rw [if_pos hx, hw]
    refine ⟨_, rfl, rfl, rfl, fun i j => ?_⟩
    rw [hc]
    unfold placed
    by_cases hin : w.1 ≤ i ∧ i < w.1 + s.n ∧ w.2 ≤ j ∧ j < w.2 + s.n
    · rw [if_pos hin]
      constructor
      · intro hn
        exact if_pos ⟨hin.1, hin.2.1, hin.2.2.1, hin.2.2.2, hn⟩
      · intro hn
        exact if_neg (fun hh => hn hh.2.2.2.2)
    · rw [if_neg hin]
      constructor
      · intro hn; simp at hn
      · intro _
        exact if_neg (fun hh => hin ⟨hh.1, hh.2.1, hh.2.2.1, hh.2.2.2.1⟩)
  · rw [if_neg hx]
    refine ⟨p, rfl, rfl, rfl, fun i j => ⟨fun hn => ?_, fun _ => rfl⟩⟩
    exfalso
    rw [hc] at hn
    unfold placed at hn
    split_ifs at hn with hin
    · exact hx ⟨i - w.1, by omega, j - w.2, by omega, hn⟩
    · simp at hn

theorem contrib_unit (p : Pup) (s : Seg) (hu : UnitSeg s) (i j : ℕ) : contrib p s i j = 0 ∨ ‖contrib p s i j‖ = 1 := by
  unfold contrib
  cases window p s with
  | none => exact Or.inl rfl
  | some w =>
    simp only [placed]
    split_ifs
    · exact hu _ _
    · exact Or.inl rfl

/-- C50: when segments do not overlap, removing one leaves the sum of all the others: no other segment is touched. -/
theorem remove_others (p : Pup) (k : ℕ) (s : Seg) (hk : p.segs[k]? = some s) (hf : Fits p s) (ha : Assembled p)
    (hd : NoOverlap p) (hu : UnitSeg s) :
    ∃ q, remove1 p s = .ok q ∧ q.segs = p.segs ∧ q.N = p.N ∧
      ∀ i j, q.mat i j = ((p.segs.eraseIdx k).map fun t => contrib p t i j).sum := by
  obtain ⟨q, h1, h2, h3, h4⟩ := remove1_spec p s hf
  refine ⟨q, h1, h2, h3, fun i j => ?_⟩
  obtain ⟨hz, hn⟩ := h4 i j
  rcases contrib_unit p s hu i j with h0 | h0
  · rw [hn (by rw [h0]; simp), ha i j, sum_eraseIdx p.segs _ k s hk, h0, zero_add]
  · have hne : contrib p s i j ≠ 0 := by intro hc; rw [hc] at h0; simp at h0
    rw [hz h0, overlap_zero p hd k s hk i j hne]

theorem remove1_frame (p q : Pup) (s : Seg) (h : remove1 p s = .ok q) : ∃ m, q = { p with mat := m } := by
  unfold remove1 at h
  split_ifs at h
  · split at h
    · exact ⟨_, (Except.ok.inj h).symm⟩
    · simp at h
  · exact ⟨p.mat, (Except.ok.inj h).symm⟩

/-- C50: a displacement within the limits of the code that keeps the segment inside the map removes it from its
place and adds it, unchanged, at the new one; the other segments stay; the masks are applied. -/
theorem shift_spec (p : Pup) (k : ℕ) (s : Seg) (hk : p.segs[k]? = some s) (hf : Fits p s) (ha : Assembled p)
    (hd : NoOverlap p) (hu : UnitSeg s) (dx dy : ℝ)
    (hlim : ¬ (((p.N : ℝ) - rowEnd p s) / p.ratio < dx ∨ dx < (-(p.N : ℝ) + rowStart p s) / p.ratio ∨
         ((p.N : ℝ) - colEnd p s) / p.ratio < dy ∨ dy < (-(p.N : ℝ) + colStart p s) / p.ratio))
    (s' : Seg) (hs' : s' = { s with posXError := s.posXError + dx, posYError := s.posYError + dy }) (hf' : Fits p s') :
    (shift1 p k dx dy).2 = none ∧ (shift1 p k dx dy).1.segs = p.segs.set k s' ∧
    ∀ i j, (shift1 p k dx dy).1.mat i j =
      (((p.segs.eraseIdx k).map fun t => contrib p t i j).sum + contrib p s' i j) * (p.mask i j : ℂ) := by
  obtain ⟨q, h1, h2, h3, h4⟩ := remove_others p k s hk hf ha hd hu
  obtain ⟨qm, hq⟩ := remove1_frame p q s h1
  have hlim' : ¬ (((q.N : ℝ) - rowEnd q s) / q.ratio < dx ∨ dx < (-(q.N : ℝ) + rowStart q s) / q.ratio ∨
         ((q.N : ℝ) - colEnd q s) / q.ratio < dy ∨ dy < (-(q.N : ℝ) + colStart q s) / q.ratio) := by
    rw [hq]; exact hlim
  have hw : window { q with segs := q.segs.set k s' } s' = some ((rowStart p s').toNat, (colStart p s').toNat) := by
    rw [hq]; exact window_fits p s' hf'
  have hc : ∀ i j, contrib p s' i j = placed s'.n ((rowStart p s').toNat, (colStart p s').toNat) s'.mat i j := by
    intro i j; simp only [contrib, window_fits p s' hf']
  unfold shift1
  simp only [hk, h1]
  rw [if_neg hlim', ← hs']
  unfold addAt
  rw [hw]
  refine ⟨rfl, ?_, ?_⟩
  · simp only [applyMasks, h2]
  · intro i j
    simp only [applyMasks]
    have hm : q.mask = p.mask := by rw [hq]
    rw [h4, hc, hm, hs']

/-- C50: shifting by zero gives back the same pupil (with its masks). -/
theorem shift_zero (p : Pup) (k : ℕ) (s : Seg) (hk : p.segs[k]? = some s) (hf : Fits p s) (ha : Assembled p)
    (hd : NoOverlap p) (hu : UnitSeg s) (hr : 0 < p.ratio) :
    (shift1 p k 0 0).2 = none ∧ ∀ i j, (shift1 p k 0 0).1.mat i j = p.mat i j * (p.mask i j : ℂ) := by
  have hs' : s = { s with posXError := s.posXError + 0, posYError := s.posYError + 0 } := by simp
  have hn : (0:ℤ) ≤ s.n := by positivity
  obtain ⟨f1, f2, f3, f4⟩ := hf
  have g1 : (rowStart p s : ℝ) ≤ p.N := by
    have : rowStart p s ≤ p.N := by rw [(window_size p s).1] at f2; omega
    exact_mod_cast this
  have g2 : (colStart p s : ℝ) ≤ p.N := by
    have : colStart p s ≤ p.N := by rw [(window_size p s).2] at f4; omega
    exact_mod_cast this
  have g3 : (rowEnd p s : ℝ) ≤ p.N := by exact_mod_cast f2
  have g4 : (colEnd p s : ℝ) ≤ p.N := by exact_mod_cast f4
  have hlim : ¬ (((p.N : ℝ) - rowEnd p s) / p.ratio < 0 ∨ 0 < (-(p.N : ℝ) + rowStart p s) / p.ratio ∨
         ((p.N : ℝ) - colEnd p s) / p.ratio < 0 ∨ 0 < (-(p.N : ℝ) + colStart p s) / p.ratio) := by
    rw [div_lt_iff₀ hr, lt_div_iff₀ hr, div_lt_iff₀ hr, lt_div_iff₀ hr]
    push Not
    refine ⟨?_, ?_, ?_, ?_⟩ <;> linarith
  obtain ⟨h1, -, h3⟩ := shift_spec p k s hk ⟨f1, f2, f3, f4⟩ ha hd hu 0 0 hlim s hs' ⟨f1, f2, f3, f4⟩
  refine ⟨h1, fun i j => ?_⟩
  rw [h3, ha i j, sum_eraseIdx p.segs _ k s hk]
  ring

/-- C136 (violation): rotating or shrinking a segment always raises `ValueError`, and leaves the pupil without it. -/
theorem rotate_violation (p : Pup) (k : ℕ) (s : Seg) (hk : p.segs[k]? = some s) (hf : Fits p s) (ha : Assembled p)
    (hd : NoOverlap p) (hu : UnitSeg s) :
    (rotate1 p k).2 = some .valueError ∧
    ∀ i j, (rotate1 p k).1.mat i j = ((p.segs.eraseIdx k).map fun t => contrib p t i j).sum := by
  obtain ⟨q, h1, -, -, h4⟩ := remove_others p k s hk hf ha hd hu
  unfold rotate1
  simp only [hk, h1]
  exact ⟨trivial, h4⟩

/-- A lit square segment of two pixels. -/
noncomputable def square (x y : ℝ) : Seg := ⟨2, fun a b => if a < 2 ∧ b < 2 then 1 else 0, fun a b => if a < 2 ∧ b < 2 then 1 else 0, 1, 0, x, y, 0, 0⟩

/-- A map of ten pixels with one square segment. -/
noncomputable def tenPix (x y : ℝ) (m : Arr) : Pup := ⟨10, 1, 5, 5, [square x y], m, fun _ _ => 1⟩

theorem ceil_of (x : ℝ) (k : ℤ) (h : x = k) : ⌈x⌉ = k := by rw [h, Int.ceil_intCast]

/-- C136 (violation): a segment next to the right edge can be moved further right: the limits are taken from the
other axis. The assignment fails and the segment has disappeared. -/
theorem shift_violation_axis (m : Arr) :
    (shift1 (tenPix 3 0 m) 0 3 0).2 = some .valueError ∧ (shift1 (tenPix 3 0 m) 0 3 0).1.mat 4 7 = 0 := by
  have hf : Fits (tenPix 3 0 m) (square 3 0) := by
    refine ⟨?_, ?_, ?_, ?_⟩
    · rw [rowStart, ceil_of _ 4 (by norm_num [tenPix, square])]; norm_num
    · rw [rowEnd, ceil_of _ 6 (by norm_num [tenPix, square])]; norm_num [tenPix]
    · rw [colStart, ceil_of _ 7 (by norm_num [tenPix, square])]; norm_num
    · rw [colEnd, ceil_of _ 9 (by norm_num [tenPix, square])]; norm_num [tenPix]
  obtain ⟨q, h1, h2, h3, h4⟩ := remove1_spec _ _ hf
  obtain ⟨qm, hq⟩ := remove1_frame _ _ _ h1
  have e1 : rowStart q (square 3 0) = 4 := by rw [hq]; exact ceil_of _ 4 (by norm_num [tenPix, square])
  have e2 : rowEnd q (square 3 0) = 6 := by rw [hq]; exact ceil_of _ 6 (by norm_num [tenPix, square])
  have e3 : colStart q (square 3 0) = 7 := by rw [hq]; exact ceil_of _ 7 (by norm_num [tenPix, square])
  have e4 : colEnd q (square 3 0) = 9 := by rw [hq]; exact ceil_of _ 9 (by norm_num [tenPix, square])
  have hN : q.N = 10 := h3
  have hr : q.ratio = 1 := by rw [hq]; rfl
  have hlim : ¬ (((q.N : ℝ) - rowEnd q (square 3 0)) / q.ratio < 3 ∨ 3 < (-(q.N : ℝ) + rowStart q (square 3 0)) / q.ratio ∨
         ((q.N : ℝ) - colEnd q (square 3 0)) / q.ratio < 0 ∨ 0 < (-(q.N : ℝ) + colStart q (square 3 0)) / q.ratio) := by
    rw [e1, e2, e3, e4, hN, hr]; norm_num
  have hk : (tenPix 3 0 m).segs[0]? = some (square 3 0) := rfl
  set s' : Seg := { square 3 0 with posXError := (square 3 0).posXError + 3, posYError := (square 3 0).posYError + 0 } with hs'
  have hw : window { q with segs := q.segs.set 0 s' } s' = none := by
    have c : colStart { q with segs := q.segs.set 0 s' } s' = 10 := by
      rw [hq]; exact ceil_of _ 10 (by norm_num [tenPix, square, hs'])
    unfold window
    have : sliceOffset q.N (10:ℤ) s'.n = none := by
      rw [hN]; simp [sliceOffset, hs', square]
    simp only [c, this]
    split <;> simp_all
  have hm : q.mat 4 7 = 0 := by
    refine (h4 4 7).1 ?_
    have hc : contrib (tenPix 3 0 m) (square 3 0) 4 7 = 1 := by
      unfold contrib
      have r1 : rowStart (tenPix 3 0 m) (square 3 0) = 4 := ceil_of _ 4 (by norm_num [tenPix, square])
      have r2 : colStart (tenPix 3 0 m) (square 3 0) = 7 := ceil_of _ 7 (by norm_num [tenPix, square])
      rw [window_fits _ _ hf, r1, r2]
      simp [placed, square]
    rw [hc]; simp
  unfold shift1
  simp only [hk, h1]
  rw [if_neg hlim]
  unfold addAt
  rw [hw]
  exact ⟨rfl, hm⟩

/-- C136 (violation): a segment in the corner moved out through the left edge comes back through the right one. -/
theorem shift_violation_wrap (m : Arr) (i j : ℕ) (hi : i < 2) (hj : 5 ≤ j) (hj' : j < 7) :
    (shift1 (tenPix (-4) (-4) m) 0 (-5) 0).2 = none ∧
    (shift1 (tenPix (-4) (-4) m) 0 (-5) 0).1.mat i j = m i j + 1 := by
  set s := square (-4) (-4) with hsd
  set p := tenPix (-4) (-4) m with hpd
  have r1 : rowStart p s = 0 := ceil_of _ 0 (by norm_num [tenPix, square, hpd, hsd])
  have r2 : rowEnd p s = 2 := ceil_of _ 2 (by norm_num [tenPix, square, hpd, hsd])
  have r3 : colStart p s = 0 := ceil_of _ 0 (by norm_num [tenPix, square, hpd, hsd])
  have r4 : colEnd p s = 2 := ceil_of _ 2 (by norm_num [tenPix, square, hpd, hsd])
  have hf : Fits p s := ⟨by rw [r1], by rw [r2]; norm_num [hpd, tenPix], by rw [r3], by rw [r4]; norm_num [hpd, tenPix]⟩
  obtain ⟨q, h1, h2, h3, h4⟩ := remove1_spec _ _ hf
  obtain ⟨qm, hq⟩ := remove1_frame _ _ _ h1
  have e1 : rowStart q s = 0 := by rw [hq]; exact r1
  have e2 : rowEnd q s = 2 := by rw [hq]; exact r2
  have e3 : colStart q s = 0 := by rw [hq]; exact r3
  have e4 : colEnd q s = 2 := by rw [hq]; exact r4
  have hN : q.N = 10 := h3
  have hr : q.ratio = 1 := by rw [hq]; rfl
  have hlim : ¬ (((q.N : ℝ) - rowEnd q s) / q.ratio < -5 ∨ -5 < (-(q.N : ℝ) + rowStart q s) / q.ratio ∨
         ((q.N : ℝ) - colEnd q s) / q.ratio < 0 ∨ 0 < (-(q.N : ℝ) + colStart q s) / q.ratio) := by
    rw [e1, e2, e3, e4, hN, hr]; norm_num
  have hk : p.segs[0]? = some s := rfl
  set s' : Seg := { s with posXError := s.posXError + (-5), posYError := s.posYError + 0 } with hs'
  have hw : window { q with segs := q.segs.set 0 s' } s' = some (0, 5) := by
    have c1 : rowStart { q with segs := q.segs.set 0 s' } s' = 0 := by
      rw [hq]; exact ceil_of _ 0 (by norm_num [tenPix, square, hs', hpd, hsd])
    have c2 : colStart { q with segs := q.segs.set 0 s' } s' = -5 := by
      rw [hq]; exact ceil_of _ (-5) (by norm_num [tenPix, square, hs', hpd, hsd])
    have o1 : sliceOffset q.N (0:ℤ) s'.n = some 0 := by rw [hN]; simp [sliceOffset, hs', hsd, square]
    have o2 : sliceOffset q.N (-5:ℤ) s'.n = some 5 := by rw [hN]; simp [sliceOffset, hs', hsd, square]
    unfold window
    simp only [c1, c2, o1, o2]
  have hm : q.mat i j = m i j := by
    refine (h4 i j).2 ?_
    have hc : contrib p s i j = 0 := by
      unfold contrib
      rw [window_fits _ _ hf, r1, r3]
      simp only [placed, Int.toNat_zero]
      rw [if_neg]
      rintro ⟨-, -, -, h⟩
      have : s.n = 2 := rfl
      omega
    rw [hc]; simp
  have hone : placed s'.n (0, 5) s'.mat i j = 1 := by
    have hn : s'.n = 2 := rfl
    unfold placed
    rw [hn, if_pos ⟨Nat.zero_le _, by omega, hj, by omega⟩]
    show (if i - 0 < 2 ∧ j - 5 < 2 then (1:ℂ) else 0) = 1
    rw [if_pos ⟨by omega, by omega⟩]
  unfold shift1
  simp only [hk, h1]
  rw [if_neg hlim]
  unfold addAt
  rw [hw]
  refine ⟨rfl, ?_⟩
  have hone' : placed s.n (0, 5) s.mat i j = 1 := hone
  simp only [applyMasks, hm, hone']
  have : q.mask i j = 1 := by rw [hq]; rfl
  rw [this]; simp

/-! ### C87: size of the map -/

/-- C87: when the extreme coordinates are opposite, every segment lies inside the map the constructor allocates. -/
theorem size_fits_partial (p : Pup) (s : Seg) (hi : ℝ) (hr : 0 < p.ratio) (h0 : 0 ≤ hi)
    (hN : p.N = pupilSize p.ratio (-hi) hi s.n) (hcx : p.cX = (p.N : ℝ) / 2) (hcy : p.cY = (p.N : ℝ) / 2)
    (hx : |s.posX + s.posXError| ≤ hi) (hy : |s.posY + s.posYError| ≤ hi) : Fits p s := by
  have hceil : 0 ≤ ⌈(hi - -hi) * p.ratio⌉ := Int.ceil_nonneg (mul_nonneg (by linarith) hr.le)
  have hNz : (p.N : ℤ) = ⌈(hi - -hi) * p.ratio⌉ + s.n := by
    rw [hN, pupilSize, Int.toNat_of_nonneg (by omega)]
  have hNr : (p.N : ℝ) = (⌈(hi - -hi) * p.ratio⌉ : ℝ) + s.n := by exact_mod_cast congrArg (Int.cast : ℤ → ℝ) hNz
  have hle : (hi - -hi) * p.ratio ≤ ⌈(hi - -hi) * p.ratio⌉ := Int.le_ceil _
  have key : ∀ c t : ℝ, c = (p.N : ℝ) / 2 → |t| ≤ hi →
      0 ≤ ⌈c + (-(s.n : ℝ) / 2) + p.ratio * t⌉ ∧ ⌈c + (s.n : ℝ) / 2 + p.ratio * t⌉ ≤ p.N := by
    intro c t hc ht
    obtain ⟨h1, h2⟩ := abs_le.mp ht
    have h3 : p.ratio * (-hi) ≤ p.ratio * t := mul_le_mul_of_nonneg_left h1 hr.le
    have h4 : p.ratio * t ≤ p.ratio * hi := mul_le_mul_of_nonneg_left h2 hr.le
    constructor
    · apply Int.ceil_nonneg
      rw [hc, hNr]; nlinarith
    · apply Int.ceil_le.mpr
      rw [hc]; push_cast; rw [hNr]; nlinarith
  exact ⟨(key _ _ hcy hy).1, (key _ _ hcy hy).2, (key _ _ hcx hx).1, (key _ _ hcx hx).2⟩

/-- C87 (violation): a pupil of one segment away from the axis cannot be built: the map has the size of the segment
but is centred on the axis. -/
theorem size_violation (p : Pup) (s : Seg) (x : ℝ) (hn : 0 < s.n) (hr : 0 < p.ratio) (hx : 0 < x)
    (hN : p.N = pupilSize p.ratio x x s.n) (hcx : p.cX = (p.N : ℝ) / 2) (hpx : s.posX = x) (he : s.posXError = 0)
    (hs : p.segs = [s]) : makePupil p = .error .valueError := by
  have hNn : p.N = s.n := by rw [hN]; simp [pupilSize]
  have hc : 0 < colStart p s := by
    unfold colStart
    apply Int.ceil_pos.mpr
    rw [hcx, hNn, hpx, he]
    have : 0 < p.ratio * (x + 0) := by positivity
    linarith
  have hw : window p s = none := by
    have : sliceOffset p.N (colStart p s) s.n = none := by
      unfold sliceOffset
      rw [if_neg (by rw [hNn]; omega), if_neg (by omega)]
    unfold window
    rw [this]
    cases sliceOffset p.N (rowStart p s) s.n <;> rfl
  have hadd : addAt { p with mat := fun _ _ => 0 } s s.mat = .error .valueError := by
    unfold addAt
    have hw' : window { p with mat := fun _ _ => 0 } s = none := hw
    rw [hw']
  have main : ∀ l : List Seg, l = [s] → l.foldlM (fun q s => addAt q s s.mat) { p with mat := fun _ _ => 0 } =
      Except.error Err.valueError := by
    intro l hl
    rw [hl, List.foldlM_cons, hadd]
    rfl
  exact main _ hs

example : ∃ (p : Pup) (s : Seg), Fits p s ∧ p.N = pupilSize p.ratio (-3) 3 s.n :=
  ⟨⟨8, 1, 4, 4, [square 3 0], fun _ _ => 0, fun _ _ => 1⟩, square 3 0,
    size_fits_partial _ _ 3 (by norm_num) (by norm_num)
      (by simp only [pupilSize, square]; rw [ceil_of _ 6 (by norm_num)]; rfl)
      (by norm_num) (by norm_num) (by norm_num [square]) (by norm_num [square]),
    by simp only [pupilSize, square]; rw [ceil_of _ 6 (by norm_num)]; rfl⟩

/-! ### C88: padding and trimming -/

/-- C88: padding surrounds the map by zeros. -/
theorem pad_map (p : Pup) (pad i j : ℕ) (hi : i < p.N) (hj : j < p.N) :
    (zeroPad p pad).mat (i + pad) (j + pad) = p.mat i j ∧ (zeroPad p pad).N = p.N + 2 * pad := by
  refine ⟨?_, rfl⟩
  simp only [zeroPad]
  rw [if_pos ⟨by omega, by omega, by omega, by omega⟩]
  simp

/-- C88 (partial): the window of a segment moves by twice the padding, so that it is still over its pixels only when
nothing is added. -/
theorem pad_window_partial (p : Pup) (s : Seg) (pad : ℕ) (hr : p.ratio ≠ 0) (hcx : p.cX = (p.N : ℝ) / 2)
    (hcy : p.cY = (p.N : ℝ) / 2) (s' : Seg)
    (hs' : s' = { s with posX := s.posX - (p.cX - ((p.N + 2 * pad : ℕ) : ℝ) / 2) / p.ratio,
                         posY := s.posY - (p.cY - ((p.N + 2 * pad : ℕ) : ℝ) / 2) / p.ratio })
    (hmem : s ∈ p.segs) :
    s' ∈ (zeroPad p pad).segs ∧ rowStart (zeroPad p pad) s' = rowStart p s + 2 * pad ∧
    colStart (zeroPad p pad) s' = colStart p s + 2 * pad := by
  refine ⟨?_, ?_, ?_⟩
  · simp only [zeroPad]
    exact List.mem_map.mpr ⟨s, hmem, hs'.symm⟩
  · have : (2 * (pad:ℤ)) = ((2 * pad : ℕ) : ℤ) := by push_cast; ring
    rw [this]
    unfold rowStart
    rw [← Int.ceil_add_natCast]
    congr 1
    simp only [zeroPad, hs', hcy]
    push_cast
    field_simp
    ring
  · have : (2 * (pad:ℤ)) = ((2 * pad : ℕ) : ℤ) := by push_cast; ring
    rw [this]
    unfold colStart
    rw [← Int.ceil_add_natCast]
    congr 1
    simp only [zeroPad, hs', hcx]
    push_cast
    field_simp
    ring

/-- C88 (violation): after padding by at least one pixel, the pixels of a segment are at the old window plus `pad`,
and the window the code uses is `pad` pixels further: removing the segment then removes other pixels. -/
theorem pad_violation (p : Pup) (s : Seg) (pad : ℕ) (hpad : 0 < pad) (hr : p.ratio ≠ 0) (hcx : p.cX = (p.N : ℝ) / 2)
    (hcy : p.cY = (p.N : ℝ) / 2) (hmem : s ∈ p.segs) :
    ∃ s' ∈ (zeroPad p pad).segs, rowStart (zeroPad p pad) s' ≠ rowStart p s + pad := by
  obtain ⟨h1, h2, -⟩ := pad_window_partial p s pad hr hcx hcy _ rfl hmem
  refine ⟨_, h1, ?_⟩
  rw [h2]; omega

/-- C88 (violation): trimming cuts the last lit row and column, and misplaces the segments: their windows should
move by the number of rows removed before them, and move by the number of all rows removed. -/
theorem trim_violation (p : Pup) (s : Seg) (z1 z2 : ℕ) (hz : z1 ≤ z2) (hz2 : z2 < p.N) (hr : p.ratio ≠ 0)
    (hcy : p.cY = (p.N : ℝ) / 2) (hmem : s ∈ p.segs) (hlit : ∃ i, p.mat z2 i ≠ 0) :
    (∀ i j, (removeZeroBorder p z1 z2).mat i j ≠ 0 → i + z1 < z2) ∧ (∃ i, p.mat z2 i ≠ 0) ∧
    ∃ s' ∈ (removeZeroBorder p z1 z2).segs,
      rowStart (removeZeroBorder p z1 z2) s' = rowStart p s - (p.N - z2 + z1) ∧
      rowStart (removeZeroBorder p z1 z2) s' ≠ rowStart p s - z1 := by
  refine ⟨?_, hlit, ?_⟩
  · intro i j h
    simp only [removeZeroBorder] at h
    split_ifs at h with hc
    · omega
    · exact absurd rfl h
  · obtain ⟨s', hs'⟩ : ∃ s' : Seg, s' = { s with posX := s.posX - (p.cX - ((z2 - z1 : ℕ) : ℝ) / 2) / p.ratio, posY := s.posY - (p.cY - ((z2 - z1 : ℕ) : ℝ) / 2) / p.ratio } := ⟨_, rfl⟩
    have hmem' : s' ∈ (removeZeroBorder p z1 z2).segs := List.mem_map.mpr ⟨s, hmem, hs'.symm⟩
    refine ⟨s', hmem', ?_⟩
    have e : rowStart (removeZeroBorder p z1 z2) s' = rowStart p s - (p.N - z2 + z1) := by
      have : ((p.N : ℤ) - z2 + z1) = (((p.N - z2 + z1 : ℕ)) : ℤ) := by push_cast [Nat.cast_sub hz2.le]; ring
      rw [this]
      unfold rowStart
      rw [← Int.ceil_sub_natCast]
      congr 1
      simp only [removeZeroBorder, hs', hcy]
      push_cast [Nat.cast_sub hz2.le, Nat.cast_sub hz]
      field_simp
      ring
    refine ⟨e, ?_⟩
    rw [e]
    omega

/-! ### C89: reflectivity and phase of one segment -/

/-- C89: changing the reflectivity of a segment replaces it by its shape times the new reflectivity and the phase
given to the constructor; the other segments stay; the masks are applied. -/
theorem reflect_spec (p : Pup) (k : ℕ) (s : Seg) (hk : p.segs[k]? = some s) (hf : Fits p s) (ha : Assembled p)
    (hd : NoOverlap p) (hu : UnitSeg s) (R : ℝ) :
    (reflect1 p k R).2 = none ∧ (reflect1 p k R).1.segs = p.segs ∧
    ∀ i j, (reflect1 p k R).1.mat i j = (((p.segs.eraseIdx k).map fun t => contrib p t i j).sum +
      placed s.n ((rowStart p s).toNat, (colStart p s).toNat)
        (fun a b => s.shape a b * R * Complex.exp (Complex.I * s.phaseError)) i j) * (p.mask i j : ℂ) := by
  obtain ⟨q, h1, h2, h3, h4⟩ := remove_others p k s hk hf ha hd hu
  obtain ⟨qm, hq⟩ := remove1_frame p q s h1
  have hw : window q s = some ((rowStart p s).toNat, (colStart p s).toNat) := by
    rw [hq]; exact window_fits p s hf
  unfold reflect1
  simp only [hk, h1]
  unfold addAt
  rw [hw]
  refine ⟨rfl, h2, fun i j => ?_⟩
  have hm : q.mask = p.mask := by rw [hq]
  simp only [applyMasks]
  rw [h4, hm]

/-- C89: a segment that is its shape with the constructor's phase is unchanged by reflectivity one. -/
theorem reflect_one (p : Pup) (k : ℕ) (s : Seg) (hk : p.segs[k]? = some s) (hf : Fits p s) (ha : Assembled p)
    (hd : NoOverlap p) (hu : UnitSeg s)
    (hm : ∀ a b, s.mat a b = s.shape a b * Complex.exp (Complex.I * s.phaseError)) :
    ∀ i j, (reflect1 p k 1).1.mat i j = p.mat i j * (p.mask i j : ℂ) := by
  obtain ⟨-, -, h⟩ := reflect_spec p k s hk hf ha hd hu 1
  intro i j
  rw [h, ha i j, sum_eraseIdx p.segs _ k s hk]
  have hc : contrib p s i j = placed s.n ((rowStart p s).toNat, (colStart p s).toNat) s.mat i j := by
    simp only [contrib, window_fits p s hf]
  have : s.mat = fun a b => s.shape a b * ((1:ℝ):ℂ) * Complex.exp (Complex.I * s.phaseError) := by
    funext a b; rw [hm]; push_cast; ring
  rw [hc, ← this]
  ring

/-- C89: applying a phase replaces the segment by its shape times its reflectivity times the phase, and remembers it. -/
theorem phase_spec (p : Pup) (k : ℕ) (s : Seg) (hk : p.segs[k]? = some s) (hf : Fits p s) (ha : Assembled p)
    (hd : NoOverlap p) (hu : UnitSeg s) (φ : ℕ → ℕ → ℝ) (s' : Seg)
    (hs' : s' = { s with mat := fun a b => s.shape a b * s.refl * Complex.exp (Complex.I * φ a b) }) :
    (phase1 p k φ).2 = none ∧ (phase1 p k φ).1.segs = p.segs.set k s' ∧
    ∀ i j, (phase1 p k φ).1.mat i j =
      (((p.segs.eraseIdx k).map fun t => contrib p t i j).sum + contrib p s' i j) * (p.mask i j : ℂ) := by
  obtain ⟨q, h1, h2, h3, h4⟩ := remove_others p k s hk hf ha hd hu
  obtain ⟨qm, hq⟩ := remove1_frame p q s h1
  have hf' : Fits p s' := by rw [hs']; exact hf
  have hw : window { q with segs := q.segs.set k s' } s' = some ((rowStart p s').toNat, (colStart p s').toNat) := by
    rw [hq]; exact window_fits p s' hf'
  unfold phase1
  simp only [hk, h1]
  rw [← hs']
  unfold addAt
  rw [hw]
  have hc : ∀ i j, contrib p s' i j = placed s'.n ((rowStart p s').toNat, (colStart p s').toNat) s'.mat i j := by
    intro i j; simp only [contrib, window_fits p s' hf']
  refine ⟨rfl, by simp only [applyMasks, h2], fun i j => ?_⟩
  have hm : q.mask = p.mask := by rw [hq]
  simp only [applyMasks]
  rw [h4, hm, hc, hs']

/-- C89: the phase applied to a segment of unit reflectivity does not change the modulus of any pixel it lights. -/
theorem phase_modulus (s : Seg) (φ : ℕ → ℕ → ℝ) (a b : ℕ) :
    ‖s.shape a b * s.refl * Complex.exp (Complex.I * φ a b)‖ = ‖s.shape a b‖ * |s.refl| := by
  rw [norm_mul, norm_mul, mul_comm Complex.I, Complex.norm_exp_ofReal_mul_I, mul_one, Complex.norm_real,
    Real.norm_eq_abs]

/-- C290 (violation): the reflectivity erases a phase applied before. A segment of unit shape and reflectivity with
half a wave of phase, given reflectivity one, comes back without its phase. -/
theorem reflect_violation (m : Arr) :
    ∃ (p : Pup) (s : Seg), p.segs = [s] ∧ (∀ a b, s.mat a b = s.shape a b * s.refl * Complex.exp (Complex.I * Real.pi)) ∧
      p.mat 4 4 = -1 ∧ (reflect1 p 0 1).1.mat 4 4 = 1 := by
  set s : Seg := { square 0 0 with mat := fun a b => (square 0 0).shape a b * (square 0 0).refl * Complex.exp (Complex.I * Real.pi) } with hsd
  set p : Pup := ⟨10, 1, 5, 5, [s], fun i j => if 4 ≤ i ∧ i < 6 ∧ 4 ≤ j ∧ j < 6 then -1 else m i j * 0, fun _ _ => 1⟩ with hpd
  have hpi : Complex.exp (Complex.I * Real.pi) = -1 := by rw [mul_comm]; exact Complex.exp_pi_mul_I
  have r1 : rowStart p s = 4 := ceil_of _ 4 (by norm_num [square, hpd, hsd])
  have r2 : rowEnd p s = 6 := ceil_of _ 6 (by norm_num [square, hpd, hsd])
  have r3 : colStart p s = 4 := ceil_of _ 4 (by norm_num [square, hpd, hsd])
  have r4 : colEnd p s = 6 := ceil_of _ 6 (by norm_num [square, hpd, hsd])
  have hf : Fits p s := ⟨by rw [r1]; norm_num, by rw [r2]; norm_num [hpd], by rw [r3]; norm_num, by rw [r4]; norm_num [hpd]⟩
  have hmat : ∀ a b, s.mat a b = if a < 2 ∧ b < 2 then -1 else 0 := by
    intro a b
    show (if a < 2 ∧ b < 2 then (1:ℂ) else 0) * ((1:ℝ):ℂ) * Complex.exp (Complex.I * Real.pi) = _
    rw [hpi]; split_ifs <;> simp
  have hu : UnitSeg s := by
    intro a b; rw [hmat]; split_ifs <;> simp
  have hcon : ∀ i j, contrib p s i j = if 4 ≤ i ∧ i < 6 ∧ 4 ≤ j ∧ j < 6 then -1 else 0 := by
    intro i j
    simp only [contrib, window_fits p s hf, r1, r3, placed, hmat]
    have hn : s.n = 2 := rfl
    rw [hn]
    have t : (4:ℤ).toNat = 4 := rfl
    rw [t]
    by_cases h : 4 ≤ i ∧ i < 6 ∧ 4 ≤ j ∧ j < 6
    · rw [if_pos (by omega), if_pos (by omega), if_pos h]
    · rw [if_neg (by omega), if_neg h]
  have ha : Assembled p := by
    intro i j
    have : p.segs = [s] := rfl
    rw [this]
    simp only [List.map_cons, List.map_nil, List.sum_cons, List.sum_nil, add_zero, hcon]
    show (if 4 ≤ i ∧ i < 6 ∧ 4 ≤ j ∧ j < 6 then (-1:ℂ) else m i j * 0) = _
    rw [mul_zero]
  have hd : NoOverlap p := List.pairwise_singleton _ _
  obtain ⟨-, -, h⟩ := reflect_spec p 0 s rfl hf ha hd hu 1
  refine ⟨p, s, rfl, fun _ _ => rfl, ?_, ?_⟩
  · show (if 4 ≤ 4 ∧ 4 < 6 ∧ 4 ≤ 4 ∧ 4 < 6 then (-1:ℂ) else m 4 4 * 0) = -1
    simp
  · rw [h, r1, r3]
    have : p.segs.eraseIdx 0 = [] := rfl
    have hmask : p.mask 4 4 = 1 := rfl
    rw [this, hmask]
    have hn : s.n = 2 := rfl
    have hsh : s.shape 0 0 = 1 := by show (if 0 < 2 ∧ 0 < 2 then (1:ℂ) else 0) = 1; simp
    have hpe : s.phaseError = 0 := rfl
    have t : (4:ℤ).toNat = 4 := rfl
    rw [t]
    simp [placed, hn, hsh, hpe]

/-! ### C90: filling the gaps -/

/-- C90: filling the gaps never darkens a pixel nor changes one that is lit, and lights only pixels that no segment
lights around the chosen segment. -/
theorem fillGap_spec (mid infX minY maxY : ℕ) (seg tmp : Arr) (hle : ∀ i j, seg i j ≠ 0 → tmp i j ≠ 0) (i j : ℕ) :
    (seg i j ≠ 0 → fillGapSeg mid infX minY maxY seg (gapMatrix tmp) i j = seg i j) ∧
    (seg i j = 0 → fillGapSeg mid infX minY maxY seg (gapMatrix tmp) i j ≠ 0 →
      tmp i j = 0 ∧ fillGapSeg mid infX minY maxY seg (gapMatrix tmp) i j = 1 ∧ i < max mid infX) := by
  constructor
  · intro h
    have := hle i j h
    simp [fillGapSeg, gapMatrix, this]
  · intro h h2
    unfold fillGapSeg at h2 ⊢
    by_cases ht : tmp i j = 0
    · refine ⟨ht, ?_⟩
      split_ifs at h2 ⊢ with c1 c2
      · exact ⟨by simp [h, gapMatrix, ht], by omega⟩
      · exact ⟨by simp [h, gapMatrix, ht], by omega⟩
      · exact absurd h h2
    · exfalso
      split_ifs at h2 with c1 c2 <;> simp [h, gapMatrix, ht] at h2

/-- C291 (violation): with a single segment there is no gap, yet the rows between its first lit row and its middle are
lit over the whole width. -/
theorem fillGap_violation (mid infX minY maxY : ℕ) (seg : Arr) (h01 : ∀ i j, seg i j = 0 ∨ seg i j = 1) (i j : ℕ)
    (h1 : infX ≤ i) (h2 : i < mid) : fillGapSeg mid infX minY maxY seg (gapMatrix seg) i j = 1 := by
  simp only [fillGapSeg, gapMatrix, if_pos (And.intro h1 h2)]
  rcases h01 i j with h | h <;> simp [h]

/-- C291 (violation): circular segments (`nSides = 0`) cannot be made. -/
theorem circle_violation (shape : Arr) (refl phase : ℝ) : makeSegment 0 shape refl phase = .error .attributeError := rfl

/-! ### C91: spiders and petals -/

/-- C91: the petals split the mask: each lit pixel belongs to exactly one petal, with value one, and the dark ones
to none. -/
theorem petals_partition (label : ℕ → ℕ → ℕ) (n : ℕ) (hn : ∀ i j, label i j ≤ n) (i j : ℕ) :
    (∀ k < n, petal label k i j = if label i j = k + 1 then 1 else 0) ∧
    ((List.range n).map fun k : ℕ => petal label k i j).sum = if label i j = 0 then 0 else 1 := by
  have h1 : ∀ k, petal label k i j = if label i j = k + 1 then 1 else 0 := by
    intro k
    unfold petal
    by_cases h : label i j = k + 1
    · rw [if_pos h, h]
      push_cast
      field_simp
    · rw [if_neg h]; simp
  refine ⟨fun k _ => h1 k, ?_⟩
  simp only [h1]
  have : ∀ m, label i j ≤ n → ((List.range m).map fun k : ℕ => (if label i j = k + 1 then (1:ℝ) else 0)).sum
      = if label i j = 0 ∨ m < label i j then 0 else 1 := by
    intro m _
    induction m with
    | zero => by_cases h : label i j = 0 <;> simp [h, Nat.pos_of_ne_zero]
    | succ m ih =>
      rw [List.range_succ, List.map_append, List.sum_append, ih]
      simp only [List.map_cons, List.map_nil, List.sum_cons, List.sum_nil, add_zero]
      split_ifs <;> first | omega | norm_num
  rw [this n (hn i j)]
  have := hn i j
  split_ifs <;> first | omega | rfl

/-- C144 (violation): spiders given by angles and coordinates but no resolution are not counted. -/
theorem spiders_violation (angles coords : ℕ) (h : coords ≠ 0) : nSpiders angles coords 0 = 0 := by
  unfold nSpiders
  rw [if_neg h]
  split_ifs <;> first | rfl | omega

/-- C144 (partial): otherwise every angle is one spider. -/
theorem spiders_partial (angles coords nPixels : ℕ) (h : coords = 0 ∨ (coords = angles ∧ nPixels ≠ 0)) :
    nSpiders angles coords nPixels = angles := by
  unfold nSpiders
  rcases h with h | ⟨h, h2⟩
  · rw [if_pos h]
  · by_cases hc : coords = 0
    · rw [if_pos hc]
    · rw [if_neg hc, if_neg (by simp [h]), if_neg h2]

/-- C144: exactly how many spiders the object has: all of them without coordinates, or with one coordinate each and a
resolution; none otherwise. -/
theorem nSpiders_iff (angles coords nPixels : ℕ) (ha : 0 < angles) :
    nSpiders angles coords nPixels = angles ↔ coords = 0 ∨ (coords = angles ∧ nPixels ≠ 0) := by
  unfold nSpiders
  split_ifs with h1 h2 h3 <;> omega

/-! ### Cases that meet the hypotheses -/

/-- A case meeting the hypotheses of `size_violation`. -/
example : makePupil ⟨2, 1, 1, 1, [square 3 0], fun _ _ => 0, fun _ _ => 1⟩ = .error .valueError :=
  size_violation _ (square 3 0) 3 (by norm_num [square]) (by norm_num) (by norm_num)
    (by simp only [pupilSize, square]; norm_num; rfl) (by norm_num) rfl rfl rfl

/-- A case meeting the hypotheses of `pad_violation`. -/
example : ∃ s' ∈ (zeroPad (tenPix 1 2 fun _ _ => 0) 3).segs, rowStart (zeroPad (tenPix 1 2 fun _ _ => 0) 3) s' ≠ rowStart (tenPix 1 2 fun _ _ => 0) (square 1 2) + 3 :=
  pad_violation _ (square 1 2) 3 (by norm_num) (by norm_num [tenPix]) (by norm_num [tenPix]) (by norm_num [tenPix]) (by simp [tenPix])

/-- A case meeting the hypotheses of `trim_violation`. -/
example := trim_violation (tenPix 1 2 fun i j => if 2 ≤ i ∧ i ≤ 6 ∧ 2 ≤ j ∧ j ≤ 6 then 1 else 0) (square 1 2) 2 6 (by norm_num) (by norm_num [tenPix])
  (by norm_num [tenPix]) (by norm_num [tenPix]) (by simp [tenPix]) ⟨3, by norm_num [tenPix]⟩

/-! ### Cases that meet the hypotheses -/

/-- A case meeting the hypotheses of `fillGap_violation`. -/
example : fillGapSeg 5 2 1 8 (fun i _ => if i = 3 then 1 else 0) (gapMatrix fun i _ => if i = 3 then 1 else 0) 4 0 = 1 :=
  fillGap_violation 5 2 1 8 _ (fun i _ => by by_cases h : i = 3 <;> simp [h]) 4 0 (by norm_num) (by norm_num)

/-- A case meeting the hypotheses of `shift_violation_wrap`. -/
example : (shift1 (tenPix (-4) (-4) fun _ _ => 2) 0 (-5) 0).1.mat 1 6 = 2 + 1 :=
  (shift_violation_wrap _ 1 6 (by norm_num) (by norm_num) (by norm_num)).2

end P3.Pupil
