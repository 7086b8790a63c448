import Verif.Model.Profile
import Verif.Model.Reconstruction
import Verif.Props.Images
import Mathlib.Data.Finset.Sort
import Mathlib.Data.List.GetD
import Mathlib.Analysis.SpecialFunctions.Pow.Real
namespace P3.Profile
open P3.Images

/-! ### Specification -/

/-- Arithmetic mean. -/
noncomputable def mean (l : List ℝ) : ℝ := l.sum / l.length

/-- Values of the pixels whose radius rounds to `b`. -/
noncomputable def ring (round : ℝ → ℤ) (px : List Pixel) (b : ℤ) : List ℝ :=
  (px.filter fun p => decide (round p.r = b)).map Pixel.v

/-- The rings that contain a pixel, from the centre outwards. -/
noncomputable def rings (round : ℝ → ℤ) (px : List Pixel) : List ℤ :=
  (px.map fun p => round p.r).toFinset.sort (· ≤ ·)

/-- The routines do what numpy documents: sorting permutes the pixels and orders the radii, rounding is monotone and
to a nearest integer. -/
structure Routines.Valid (R : Routines) : Prop where
  perm : ∀ l, (R.argsort l).Perm l
  sorted : ∀ l, (R.argsort l).Pairwise fun a b => a.1 ≤ b.1
  mono : Monotone R.round
  near : ∀ x, |x - R.round x| ≤ 1 / 2

/-! ### Rings -/

section Sorted
variable (bin : ℝ → ℤ) (s : List (ℝ × ℝ))

/-- Ring of the pixel number `i`. -/
noncomputable def b (i : ℕ) : ℤ := bin (s.getD i (0, 0)).1

theorem mem_rind (i : ℕ) : i ∈ rind bin s ↔ i + 1 < s.length ∧ b bin s (i + 1) ≠ b bin s i := by
  unfold rind b
  simp only [List.mem_filter, List.mem_range, ne_eq, decide_not, Bool.not_eq_eq_eq_not, Bool.not_true,
    decide_eq_false_iff_not]
  constructor
  · rintro ⟨h, h'⟩; exact ⟨by omega, h'⟩
  · rintro ⟨h, h'⟩; exact ⟨by omega, h'⟩

theorem rind_sorted : (rind bin s).Pairwise (· < ·) := by
  unfold rind
  exact List.Pairwise.filter _ List.pairwise_lt_range

variable {bin s}

theorem b_mono (hm : Monotone bin) (hs : s.Pairwise fun a b => a.1 ≤ b.1) {i j : ℕ} (hij : i ≤ j)
    (hj : j < s.length) : b bin s i ≤ b bin s j := by
  unfold b
  rw [List.getD_eq_getElem _ _ (by omega), List.getD_eq_getElem _ _ hj]
  rcases hij.eq_or_lt with h | h
  · subst h; exact le_rfl
  · exact hm (List.pairwise_iff_getElem.mp hs i j (by omega) hj h)

theorem b_eq_of_no_rind {i j : ℕ} (hij : i ≤ j) (hj : j < s.length)
    (h : ∀ t ∈ rind bin s, ¬ (i ≤ t ∧ t < j)) : b bin s i = b bin s j := by
  induction j, hij using Nat.le_induction with
  | base => rfl
  | succ j hij ih =>
    rw [ih (by omega) (fun t ht hc => h t ht ⟨hc.1, by omega⟩)]
    by_contra hne
    exact h j ((mem_rind bin s j).mpr ⟨hj, fun e => hne e.symm⟩) ⟨hij, by omega⟩

theorem b_lt_of_rind (hm : Monotone bin) (hs : s.Pairwise fun a b => a.1 ≤ b.1) {t j : ℕ}
    (ht : t ∈ rind bin s) (h : t < j) (hj : j < s.length) : b bin s t < b bin s j := by
  have h1 := (mem_rind bin s t).mp ht
  have h2 := b_mono hm hs (i := t) (j := t + 1) (by omega) (by omega)
  have h3 := b_mono hm hs (i := t + 1) (j := j) (by omega) hj
  exact lt_of_lt_of_le (lt_of_le_of_ne h2 (Ne.symm h1.2)) h3

/-- A ring delimited by indices is a slice of the sorted pixels. -/
theorem filter_slice {lo hi : ℕ} (hlo : lo ≤ hi) (hhi : hi ≤ s.length) (β : ℤ)
    (h : ∀ i < s.length, b bin s i = β ↔ lo ≤ i ∧ i < hi) :
    s.filter (fun x => decide (bin x.1 = β)) = (s.take hi).drop lo := by
  have key : s = s.take lo ++ ((s.take hi).drop lo ++ s.drop hi) := by
    have h1 : s.take lo = (s.take hi).take lo := by rw [List.take_take, min_eq_left hlo]
    rw [h1, ← List.append_assoc, List.take_append_drop, List.take_append_drop]
  have hget : ∀ i (hi : i < s.length), b bin s i = bin (s[i]).1 := by
    intro i hi'; unfold b; rw [List.getD_eq_getElem _ _ hi']
  conv_lhs => rw [key]
  rw [List.filter_append, List.filter_append]
  have e1 : (s.take lo).filter (fun x => decide (bin x.1 = β)) = [] := by
    rw [List.filter_eq_nil_iff]
    intro x hx
    obtain ⟨i, hi', rfl⟩ := List.mem_iff_getElem.mp hx
    rw [List.length_take] at hi'
    rw [List.getElem_take]
    have := (h i (by omega)).not
    rw [hget i (by omega)] at this
    simp only [decide_eq_true_eq]
    exact this.mpr (by omega)
  have e3 : (s.drop hi).filter (fun x => decide (bin x.1 = β)) = [] := by
    rw [List.filter_eq_nil_iff]
    intro x hx
    obtain ⟨i, hi', rfl⟩ := List.mem_iff_getElem.mp hx
    rw [List.length_drop] at hi'
    rw [List.getElem_drop]
    have := (h (hi + i) (by omega)).not
    rw [hget (hi + i) (by omega)] at this
    simp only [decide_eq_true_eq]
    exact this.mpr (by omega)
  have e2 : ((s.take hi).drop lo).filter (fun x => decide (bin x.1 = β)) = (s.take hi).drop lo := by
    rw [List.filter_eq_self]
    intro x hx
    obtain ⟨i, hi', rfl⟩ := List.mem_iff_getElem.mp hx
    rw [List.length_drop, List.length_take] at hi'
    rw [List.getElem_drop, List.getElem_take]
    have := (h (lo + i) (by omega))
    rw [hget (lo + i) (by omega)] at this
    simp only [decide_eq_true_eq]
    exact this.mpr (by omega)
  rw [e1, e2, e3, List.nil_append, List.append_nil]

theorem slice_mean {lo hi : ℕ} (hlo : lo ≤ hi) (hhi : hi ≤ s.length) :
    mean (((s.take hi).drop lo).map Prod.snd) =
      (((s.take hi).map Prod.snd).sum - ((s.take lo).map Prod.snd).sum) / ((hi : ℝ) - lo) := by
  unfold mean
  have h1 : ((s.take hi).map Prod.snd).sum = ((s.take lo).map Prod.snd).sum + (((s.take hi).drop lo).map Prod.snd).sum := by
    rw [← List.sum_append, ← List.map_append]
    congr 2
    have h1 : s.take lo = (s.take hi).take lo := by rw [List.take_take, min_eq_left hlo]
    rw [h1, List.take_append_drop]
  rw [h1]
  have h2 : ((((s.take hi).drop lo).map Prod.snd).length : ℝ) = (hi : ℝ) - lo := by
    rw [List.length_map, List.length_drop, List.length_take, min_eq_left hhi, Nat.cast_sub hlo]
  rw [h2]
  congr 1; ring

theorem ringMeans_length (l : List ℕ) : (ringMeans s l).length = l.length - 1 := by
  induction l with
  | nil => rfl
  | cons a l ih =>
    cases l with
    | nil => rfl
    | cons b l => simp only [ringMeans, List.length_cons] at *; omega

theorem ringMeans_get (l : List ℕ) (k : ℕ) (hk : k + 1 < l.length) :
    (ringMeans s l)[k]'(by rw [ringMeans_length]; omega) =
      (csim s l[k + 1] - csim s l[k]) / ((l[k + 1] : ℝ) - (l[k] : ℝ)) := by
  induction l generalizing k with
  | nil => simp at hk
  | cons a l ih =>
    cases l with
    | nil => simp at hk
    | cons b l =>
      cases k with
      | zero => simp [ringMeans]
      | succ k =>
        simp only [ringMeans, List.getElem_cons_succ]
        exact ih k (by simpa using hk)

/-- The profile is the mean over each ring, except the outermost one. -/
theorem discrete_mean (hm : Monotone bin) (hs : s.Pairwise fun a b => a.1 ≤ b.1) {p : List ℝ}
    (hp : discrete bin s = .ok p) :
    p.length = (rind bin s).length ∧
      ∀ k (hk : k < p.length) (hk' : k < (rind bin s).length),
        p[k] = mean ((s.filter fun x => decide (bin x.1 = b bin s (rind bin s)[k])).map Prod.snd) := by
  have hsort := rind_sorted bin s
  have hmem := mem_rind bin s
  unfold discrete at hp
  revert hp hsort hmem
  have hno := fun i j => b_eq_of_no_rind (bin := bin) (s := s) (i := i) (j := j)
  have hlt := fun t j => b_lt_of_rind hm hs (t := t) (j := j)
  revert hno hlt
  generalize rind bin s = rd
  intro hno hlt hp hsort hmem
  cases rd with
  | nil => simp at hp
  | cons r0 l =>
    simp only [Except.ok.injEq] at hp
    subst hp
    refine ⟨by simp [ringMeans_length], ?_⟩
    intro k hk hk'
    have hidx : ∀ i (hi : i < (r0 :: l).length) j (hj : j < (r0 :: l).length), i < j → (r0 :: l)[i] < (r0 :: l)[j] :=
      fun i hi j hj hij => List.pairwise_iff_getElem.mp hsort i j hi hj hij
    have hin : ∀ t ∈ r0 :: l, t + 1 < s.length := fun t ht => ((hmem t).mp ht).1
    cases k with
    | zero =>
      have hr0 := hin r0 (by simp)
      have hring : ∀ i < s.length, b bin s i = b bin s r0 ↔ 0 ≤ i ∧ i < r0 + 1 := by
        intro i hi
        constructor
        · intro he
          refine ⟨by omega, ?_⟩
          by_contra hc
          have := hlt r0 i (by simp) (by omega) hi
          omega
        · rintro ⟨_, hi'⟩
          refine hno i r0 (by omega) (by omega) ?_
          intro t ht hc
          obtain ⟨j, hj, rfl⟩ := List.mem_iff_getElem.mp ht
          rcases Nat.eq_zero_or_pos j with h0 | h0
          · subst h0; simp at hc
          · have := hidx 0 (by simp) j hj h0
            simp at this; omega
      simp only [List.getElem_cons_zero]
      rw [filter_slice (by omega) (by omega) _ hring, slice_mean (by omega) (by omega)]
      split_ifs with h0
      · unfold csim; simp
      · have : r0 = 0 := by simpa using h0
        subst this; simp [csim]
    | succ k =>
      have hk2 : k + 1 < (r0 :: l).length := hk'
      have hkk : k < (r0 :: l).length := by omega
      refine (ringMeans_get (s := s) (r0 :: l) k hk2).trans ?_
      set t1 := (r0 :: l)[k + 1] with ht1
      set t0 := (r0 :: l)[k] with ht0
      have hm1 : t1 ∈ r0 :: l := List.getElem_mem _
      have hm0 : t0 ∈ r0 :: l := List.getElem_mem _
      have h01 : t0 < t1 := hidx k hkk (k + 1) hk2 (by omega)
      have hl1 := hin t1 hm1
      have hring : ∀ i < s.length, b bin s i = b bin s t1 ↔ t0 + 1 ≤ i ∧ i < t1 + 1 := by
        intro i hi
        constructor
        · intro he
          constructor
          · by_contra hc
            have h1 := hlt t0 t1 hm0 h01 (by omega)
            have h2 := b_mono hm hs (i := i) (j := t0) (by omega) (by omega)
            omega
          · by_contra hc
            have := hlt t1 i hm1 (by omega) hi
            omega
        · rintro ⟨hi0, hi'⟩
          refine hno i t1 (by omega) (by omega) ?_
          intro t ht hc
          obtain ⟨j, hj, rfl⟩ := List.mem_iff_getElem.mp ht
          rcases Nat.lt_trichotomy j (k + 1) with h | h | h
          · rcases Nat.lt_or_ge j k with h' | h'
            · have := hidx j hj k hkk h'
              omega
            · have : j = k := by omega
              subst this; omega
          · subst h; omega
          · have := hidx (k + 1) hk2 j hj h
            omega
      rw [filter_slice (by omega) (by omega) _ hring, slice_mean (by omega) (by omega)]
      unfold csim; push_cast; ring_nf

/-- Strictly increasing bins at the ends of the rings, with the outermost ring, are all bins. -/
theorem bins_eq (hm : Monotone bin) (hs : s.Pairwise fun a b => a.1 ≤ b.1) (h0 : s ≠ []) :
    ((rind bin s).map (b bin s)) ++ [b bin s (s.length - 1)] = (s.map fun x => bin x.1).toFinset.sort (· ≤ ·) := by
  have hpos : 0 < s.length := List.length_pos_iff.mpr h0
  have hP : (((rind bin s).map (b bin s)) ++ [b bin s (s.length - 1)]).Pairwise (· < ·) := by
    rw [List.pairwise_append]
    refine ⟨?_, by simp, ?_⟩
    · rw [List.pairwise_map]
      refine (List.Pairwise.imp_of_mem ?_ (rind_sorted bin s))
      intro a c ha hc hac
      exact b_lt_of_rind hm hs ha hac (by have := ((mem_rind bin s c).mp hc).1; omega)
    · intro a ha c hc
      simp only [List.mem_singleton] at hc
      obtain ⟨t, ht, rfl⟩ := List.mem_map.mp ha
      subst hc
      have := ((mem_rind bin s t).mp ht).1
      exact b_lt_of_rind hm hs ht (by omega) (by omega)
  have hmem : ∀ x, x ∈ (((rind bin s).map (b bin s)) ++ [b bin s (s.length - 1)]) ↔
      x ∈ (s.map fun x => bin x.1).toFinset.sort (· ≤ ·) := by
    intro x
    rw [Finset.mem_sort, List.mem_toFinset]
    have hb : ∀ i (hi : i < s.length), b bin s i ∈ s.map fun x => bin x.1 := by
      intro i hi
      unfold b
      rw [List.getD_eq_getElem _ _ hi]
      exact List.mem_map.mpr ⟨_, List.getElem_mem hi, rfl⟩
    constructor
    · intro hx
      rcases List.mem_append.mp hx with h | h
      · obtain ⟨t, ht, rfl⟩ := List.mem_map.mp h
        exact hb t (by have := ((mem_rind bin s t).mp ht).1; omega)
      · simp only [List.mem_singleton] at h
        subst h; exact hb _ (by omega)
    · intro hx
      obtain ⟨y, hy, rfl⟩ := List.mem_map.mp hx
      obtain ⟨i, hi, rfl⟩ := List.mem_iff_getElem.mp hy
      have ei : bin (s[i]).1 = b bin s i := by unfold b; rw [List.getD_eq_getElem _ _ hi]
      rw [ei]
      by_cases hex : ∃ t, i ≤ t ∧ t ∈ rind bin s
      · classical
        have hsp := Nat.find_spec hex
        have hmin : ∀ t ∈ rind bin s, ¬ (i ≤ t ∧ t < Nat.find hex) := fun t ht hc =>
          Nat.find_min hex hc.2 ⟨hc.1, ht⟩
        have := ((mem_rind bin s _).mp hsp.2).1
        rw [b_eq_of_no_rind hsp.1 (by omega) hmin]
        exact List.mem_append_left _ (List.mem_map.mpr ⟨_, hsp.2, rfl⟩)
      · push Not at hex
        rw [b_eq_of_no_rind (j := s.length - 1) (by omega) (by omega) (fun t ht hc => hex t hc.1 ht)]
        simp
  have hs2 : ((s.map fun x => bin x.1).toFinset.sort (· ≤ ·)).Pairwise (· < ·) :=
    Finset.sortedLT_sort _ |>.pairwise
  have hn1 : (((rind bin s).map (b bin s)) ++ [b bin s (s.length - 1)]).Nodup := hP.imp fun h => ne_of_lt h
  have hn2 : ((s.map fun x => bin x.1).toFinset.sort (· ≤ ·)).Nodup := hs2.imp fun h => ne_of_lt h
  exact List.Perm.eq_of_pairwise (fun a b _ _ h1 h2 => (lt_asymm h1 h2).elim) hP hs2
    ((List.perm_ext_iff_of_nodup hn1 hn2).mpr hmem)
end Sorted

/-! ### The discrete profile -/

theorem kept_perm (R : Routines) (hR : R.Valid) (im : Img ℝ) (a : Args) :
    (a.sorted R im).Perm ((kept a.paRange (a.px im)).map fun p => (p.r, p.v)) := hR.perm _

theorem rings_eq (R : Routines) (hR : R.Valid) (im : Img ℝ) (a : Args) :
    rings R.round (kept a.paRange (a.px im)) = ((a.sorted R im).map fun x => R.round x.1).toFinset.sort (· ≤ ·) := by
  unfold rings
  congr 1
  ext x
  rw [List.mem_toFinset, List.mem_toFinset]
  have := ((kept_perm R hR im a).map fun x => R.round x.1).mem_iff (a := x)
  rw [this, List.map_map]
  rfl

theorem ring_perm (R : Routines) (hR : R.Valid) (im : Img ℝ) (a : Args) (β : ℤ) :
    mean (((a.sorted R im).filter fun x => decide (R.round x.1 = β)).map Prod.snd) =
      mean (ring R.round (kept a.paRange (a.px im)) β) := by
  have h := (((kept_perm R hR im a).filter fun x => decide (R.round x.1 = β)).map Prod.snd)
  have e : (((kept a.paRange (a.px im)).map fun p => (p.r, p.v)).filter fun x => decide (R.round x.1 = β)).map Prod.snd =
      ring R.round (kept a.paRange (a.px im)) β := by
    unfold ring
    rw [List.filter_map, List.map_map]; rfl
  rw [e] at h
  unfold mean
  rw [h.sum_eq, h.length_eq]

theorem discrete_rings (R : Routines) (hR : R.Valid) (im : Img ℝ) (a : Args) {p : List ℝ}
    (hp : discrete R.round (a.sorted R im) = .ok p) :
    p.length + 1 = (rings R.round (kept a.paRange (a.px im))).length ∧
      ∀ k (hk : k < p.length) (hk' : k < (rings R.round (kept a.paRange (a.px im))).length),
        p[k] = mean (ring R.round (kept a.paRange (a.px im)) ((rings R.round (kept a.paRange (a.px im)))[k])) := by
  obtain ⟨h1, h2⟩ := discrete_mean (bin := R.round) (s := a.sorted R im) hR.mono (hR.sorted _) hp
  have hne : a.sorted R im ≠ [] := by
    intro h
    rw [h] at hp
    simp [discrete, rind] at hp
  have hb := bins_eq (bin := R.round) (s := a.sorted R im) hR.mono (hR.sorted _) hne
  have hr := rings_eq R hR im a
  rw [← hb] at hr
  refine ⟨by rw [hr]; simp [h1], ?_⟩
  intro k hk hk'
  rw [h2 k hk (by omega), ring_perm R hR]
  congr 2
  have : (rings R.round (kept a.paRange (a.px im)))[k]? = some (b R.round (a.sorted R im) (rind R.round (a.sorted R im))[k]) := by
    rw [hr, List.getElem?_append_left (by simp; omega), List.getElem?_map, List.getElem?_eq_getElem (by omega)]
    rfl
  rw [List.getElem?_eq_getElem hk'] at this
  exact (Option.some.inj this).symm

theorem discrete_error (R : Routines) (hR : R.Valid) (im : Img ℝ) (a : Args) :
    discrete R.round (a.sorted R im) = .error .indexError ↔
      (rings R.round (kept a.paRange (a.px im))).length ≤ 1 := by
  have hr := rings_eq R hR im a
  by_cases hne : a.sorted R im = []
  · rw [hr, hne]
    simp [discrete, rind]
  · rw [hr, ← bins_eq (bin := R.round) (s := a.sorted R im) hR.mono (hR.sorted _) hne]
    unfold discrete
    cases rind R.round (a.sorted R im) with
    | nil => simp
    | cons r l => simp

/-- Cropping keeps the beginning. -/
theorem crop_spec (m : Option ℝ) (rmin bs : ℝ) (hb : 0 < bs) (p : List ℝ) :
    ∃ n ≤ p.length, crop m (radii rmin bs p.length) p = (radii rmin bs n, p.take n) ∧
      ∀ k < p.length, k < n ↔ ∀ m' ∈ m, (rmin + (k : ℝ)) * bs < m' := by
  cases m with
  | none => exact ⟨p.length, le_rfl, by simp [crop], by simp⟩
  | some m =>
    simp only [Option.mem_def, Option.some.injEq, forall_eq']
    have key : ∀ (q : List ℝ) (c : ℝ), ∃ n ≤ q.length,
        ((((List.range q.length).map fun k : ℕ => (c + (k : ℝ)) * bs).zip q).filter fun x => decide (x.1 < m)).unzip =
          ((List.range n).map fun k : ℕ => (c + (k : ℝ)) * bs, q.take n) ∧
        ∀ k < q.length, k < n ↔ (c + (k : ℝ)) * bs < m := by
      intro q
      induction q with
      | nil => exact fun c => ⟨0, le_rfl, by simp, by simp⟩
      | cons x q ih =>
        intro c
        obtain ⟨n, hn, e, hk⟩ := ih (c + 1)
        by_cases h : c * bs < m
        · refine ⟨n + 1, by simpa using hn, ?_, ?_⟩
          · rw [List.length_cons, List.range_succ_eq_map, List.range_succ_eq_map]
            simp only [List.map_cons, List.map_map, List.zip_cons_cons, Nat.cast_zero, add_zero]
            rw [List.filter_cons_of_pos (by simpa using h)]
            have e' : ((fun k : ℕ => (c + (k : ℝ)) * bs) ∘ Nat.succ) = fun k : ℕ => (c + 1 + (k : ℝ)) * bs := by
              funext k; simp only [Function.comp, Nat.succ_eq_add_one]; push_cast; ring
            rw [e', List.unzip_cons, e, List.take_succ_cons]
          · intro k hk'
            cases k with
            | zero => simpa using h
            | succ k =>
              have := hk k (by simpa using hk')
              rw [Nat.add_lt_add_iff_right, this]
              push_cast
              rw [show c + 1 + (k : ℝ) = c + (k + 1) by ring]
        · have hnone : ∀ k : ℕ, ¬ (c + (k : ℝ)) * bs < m := by
            intro k hc
            have : c * bs ≤ (c + (k : ℝ)) * bs := by
              have : (0 : ℝ) ≤ k := Nat.cast_nonneg k
              nlinarith
            exact h (lt_of_le_of_lt this hc)
          refine ⟨0, by simp, ?_, ?_⟩
          · rw [List.filter_eq_nil_iff.mpr]
            · simp
            · intro y hy
              have := (List.of_mem_zip hy).1
              obtain ⟨k, _, e⟩ := List.mem_map.mp this
              rw [← e]
              simpa using hnone k
          · intro k _
            simpa using hnone k
    obtain ⟨n, hn, e, hk⟩ := key p rmin
    exact ⟨n, hn, by unfold crop radii; exact e, hk⟩

/-- **C222.** Without supersampling, `radial_profile` returns for each ring, from the centre outwards, the mean of its
pixels; the outermost ring is left out, and with `maxradius` the rings beyond it. -/
theorem profile_spec (R : Routines) (hR : R.Valid) (im : Img ℝ) (a : Args) (hbs : 0 < a.bs) {rr p : List ℝ}
    (hsup : a.supersamp = none) (h : radialProfile R im a = .ok (.two rr p)) :
    rr.length = p.length ∧ p.length + 1 ≤ (rings R.round (kept a.paRange (a.px im))).length ∧
    (a.maxR = none → p.length + 1 = (rings R.round (kept a.paRange (a.px im))).length) ∧
    ∀ k (hk : k < p.length) (hk' : k < (rings R.round (kept a.paRange (a.px im))).length) (hk'' : k < rr.length),
      p[k] = mean (ring R.round (kept a.paRange (a.px im)) ((rings R.round (kept a.paRange (a.px im)))[k])) ∧
      rr[k] = (rMin (a.px im) + (k : ℝ)) * a.bs ∧ ∀ m ∈ a.maxR, rr[k] < m := by
  have hs : superFlag a = .ok none := by unfold superFlag; rw [hsup]
  unfold radialProfile at h
  rw [hs] at h
  simp only [bind, Except.bind] at h
  cases hd : discrete R.round (a.sorted R im) with
  | error e => rw [hd] at h; simp at h
  | ok p0 =>
    rw [hd] at h
    simp only [finish] at h
    obtain ⟨n, hn, hcrop, hk⟩ := crop_spec a.maxR (rMin (a.px im)) a.bs hbs p0
    rw [hcrop] at h
    have hrp : rr = radii (rMin (a.px im)) a.bs n ∧ p = p0.take n := by
      split_ifs at h <;> simp_all
    obtain ⟨rfl, rfl⟩ := hrp
    obtain ⟨hl, hv⟩ := discrete_rings R hR im a hd
    have hlen : (p0.take n).length = n := by rw [List.length_take]; omega
    refine ⟨by rw [hlen]; simp [radii], by omega, ?_, ?_⟩
    · intro hm
      have hall := fun k hk' => (hk k hk').mpr (by rw [hm]; simp)
      have : n = p0.length := by
        rcases Nat.lt_or_ge n p0.length with h' | h'
        · exact absurd (hall n h') (lt_irrefl _)
        · omega
      omega
    · intro k hk1 hk2 hk3
      have hkn : k < n := by omega
      refine ⟨?_, ?_, ?_⟩
      · rw [List.getElem_take]
        exact hv k (by omega) hk2
      · simp [radii]
      · intro m hm
        have := (hk k (by omega)).mp hkn m hm
        simpa [radii] using this

theorem kept_sub (range : Option (ℝ × ℝ)) (px : List Pixel) : ∀ p ∈ kept range px, p ∈ px := by
  intro p hp
  unfold kept at hp
  split at hp
  · exact hp
  · exact (List.mem_filter.mp hp).1

theorem ring_ne_nil {round : ℝ → ℤ} {px : List Pixel} {β : ℤ} (h : β ∈ rings round px) : ring round px β ≠ [] := by
  unfold rings at h
  rw [Finset.mem_sort, List.mem_toFinset] at h
  obtain ⟨p, hp, rfl⟩ := List.mem_map.mp h
  unfold ring
  intro hc
  have : p.v ∈ (px.filter fun q => decide (round q.r = round p.r)).map Pixel.v :=
    List.mem_map.mpr ⟨p, List.mem_filter.mpr ⟨hp, by simp⟩, rfl⟩
  rw [hc] at this
  simp at this

theorem mean_bounds {l : List ℝ} (h : l ≠ []) {lo hi : ℝ} (hb : ∀ x ∈ l, lo ≤ x ∧ x ≤ hi) :
    lo ≤ mean l ∧ mean l ≤ hi := by
  have hpos : (0 : ℝ) < l.length := by exact_mod_cast List.length_pos_iff.mpr h
  have h1 : (l.length : ℝ) * lo ≤ l.sum := by
    have := List.card_nsmul_le_sum l lo (fun x hx => (hb x hx).1)
    simpa using this
  have h2 : l.sum ≤ (l.length : ℝ) * hi := by
    have := List.sum_le_card_nsmul l hi (fun x hx => (hb x hx).2)
    simpa using this
  unfold mean
  constructor
  · rw [le_div_iff₀ hpos]; linarith
  · rw [div_le_iff₀ hpos]; linarith

theorem px_value (im : Img ℝ) (a : Args) {p : Pixel} (hp : p ∈ a.px im) :
    ∃ i < im.nx, ∃ j < im.ny, p = pixel im (centreOf im a.centre) a.ps a.bs i j := by
  unfold Args.px pixels at hp
  simp only [List.mem_flatMap, List.mem_range, List.mem_map] at hp
  obtain ⟨i, hi, j, hj, e⟩ := hp
  exact ⟨i, hi, j, hj, e.symm⟩

/-- **C222.** No value of the profile is above the brightest pixel or below the faintest one; a uniform image has a
uniform profile. -/
theorem profile_bounds (R : Routines) (hR : R.Valid) (im : Img ℝ) (a : Args) (hbs : 0 < a.bs) {rr p : List ℝ}
    (hsup : a.supersamp = none) (h : radialProfile R im a = .ok (.two rr p)) {lo hi : ℝ}
    (hb : ∀ i < im.nx, ∀ j < im.ny, lo ≤ im.px i j ∧ im.px i j ≤ hi) : ∀ x ∈ p, lo ≤ x ∧ x ≤ hi := by
  obtain ⟨h1, h2, h3, h4⟩ := profile_spec R hR im a hbs hsup h
  intro x hx
  obtain ⟨k, hk, rfl⟩ := List.mem_iff_getElem.mp hx
  rw [(h4 k hk (by omega) (by omega)).1]
  refine mean_bounds (ring_ne_nil (List.getElem_mem _)) ?_
  intro y hy
  unfold ring at hy
  obtain ⟨q, hq, rfl⟩ := List.mem_map.mp hy
  have := kept_sub _ _ q (List.mem_filter.mp hq).1
  obtain ⟨i, hi', j, hj, e⟩ := px_value im a this
  rw [e]
  exact hb i hi' j hj

/-- **C270.** The call fails exactly when all pixels are in one ring. -/
theorem profile_fails (R : Routines) (hR : R.Valid) (im : Img ℝ) (a : Args) (hsup : a.supersamp = none) :
    (∃ e, radialProfile R im a = .error e) ↔ (rings R.round (kept a.paRange (a.px im))).length ≤ 1 := by
  have hs : superFlag a = .ok none := by unfold superFlag; rw [hsup]
  rw [← discrete_error R hR im a]
  unfold radialProfile
  rw [hs]
  simp only [bind, Except.bind]
  cases hd : discrete R.round (a.sorted R im) with
  | error e =>
    cases e with
    | indexError => simp
    | valueError =>
      exfalso
      unfold discrete at hd
      split at hd <;> simp at hd
  | ok p0 =>
    simp only [finish, reduceCtorEq, iff_false, not_exists]
    intro e
    split_ifs <;> simp

/-- **C222.** The flux of the rings of the profile is that of the pixels, less the outermost ring. -/
theorem profile_flux (R : Routines) (hR : R.Valid) (im : Img ℝ) (a : Args) (hbs : 0 < a.bs) {rr p : List ℝ}
    (hsup : a.supersamp = none) (h : radialProfile R im a = .ok (.two rr p)) :
    ((rings R.round (kept a.paRange (a.px im))).map fun β => (ring R.round (kept a.paRange (a.px im)) β).sum).sum =
        ((kept a.paRange (a.px im)).map Pixel.v).sum ∧
    ∀ k (hk : k < p.length) (hk' : k < (rings R.round (kept a.paRange (a.px im))).length),
      p[k] * ((ring R.round (kept a.paRange (a.px im)) (rings R.round (kept a.paRange (a.px im)))[k]).length : ℝ) =
        (ring R.round (kept a.paRange (a.px im)) (rings R.round (kept a.paRange (a.px im)))[k]).sum := by
  obtain ⟨h1, h2, h3, h4⟩ := profile_spec R hR im a hbs hsup h
  constructor
  · generalize kept a.paRange (a.px im) = px
    have hnd : (rings R.round px).Nodup := Finset.sort_nodup _ _
    have hmem : ∀ q ∈ px, R.round q.r ∈ rings R.round px := by
      intro q hq
      unfold rings
      rw [Finset.mem_sort, List.mem_toFinset]
      exact List.mem_map.mpr ⟨q, hq, rfl⟩
    revert hnd hmem
    generalize rings R.round px = B
    intro hnd hmem
    induction px with
    | nil =>
      simp [ring]
    | cons q px ih =>
      have ih' := ih (fun x hx => hmem x (List.mem_cons_of_mem _ hx))
      rw [List.map_cons, List.sum_cons, ← ih']
      have hq := hmem q (by simp)
      have e : ∀ β, (ring R.round (q :: px) β).sum =
          (if β = R.round q.r then q.v else 0) + (ring R.round px β).sum := by
        intro β
        unfold ring
        by_cases hβ : R.round q.r = β
        · rw [List.filter_cons_of_pos (by simpa using hβ), if_pos hβ.symm]; simp
        · rw [List.filter_cons_of_neg (by simpa using hβ), if_neg (fun hc => hβ hc.symm)]; simp
      simp only [e]
      rw [List.sum_map_add]
      congr 1
      clear ih ih' hmem e
      induction B with
      | nil => simp at hq
      | cons β B ih =>
        rw [List.map_cons, List.sum_cons]
        rw [List.nodup_cons] at hnd
        by_cases hβ : β = R.round q.r
        · rw [if_pos hβ]
          have : (B.map fun x => if x = R.round q.r then q.v else 0).sum = 0 := by
            apply List.sum_eq_zero
            intro y hy
            obtain ⟨x, hx, rfl⟩ := List.mem_map.mp hy
            rw [if_neg]
            intro hc; rw [hc, ← hβ] at hx; exact hnd.1 hx
          rw [this, add_zero]
        · rw [if_neg hβ, zero_add]
          refine ih hnd.2 ?_
          rcases List.mem_cons.mp hq with hc | hc
          · exact absurd hc.symm hβ
          · exact hc
  · intro k hk hk'
    rw [(h4 k hk hk' (by omega)).1]
    unfold mean
    have hne := ring_ne_nil (List.getElem_mem hk')
    rw [div_mul_cancel₀]
    have := List.length_pos_iff.mpr hne
    positivity

/-! ### Radii -/

/-- The centre of the profile is a pixel or a corner between pixels, inside the image; `cx2`, `cy2` are twice its
coordinates. -/
structure CentreOk (im : Img ℝ) (a : Args) (cx2 cy2 : ℤ) : Prop where
  x : (centreOf im a.centre).1 = (cx2 : ℝ) / 2
  y : (centreOf im a.centre).2 = (cy2 : ℝ) / 2
  x0 : 0 ≤ cx2
  y0 : 0 ≤ cy2
  x1 : cx2 ≤ 2 * ((im.ny : ℤ) - 1)
  y1 : cy2 ≤ 2 * ((im.nx : ℤ) - 1)
  par : cx2 % 2 = cy2 % 2

/-- Radius in bins at an offset of `X/2`, `Y/2` pixels. -/
noncomputable def rad (q : ℝ) (X Y : ℤ) : ℝ := Real.sqrt (((X : ℝ) / 2) ^ 2 + ((Y : ℝ) / 2) ^ 2) * q

theorem round_int (R : Routines) (hR : R.Valid) (m : ℤ) : R.round m = m := by
  have h := hR.near m
  rw [abs_le] at h
  have h1 : ((m - R.round m : ℤ) : ℝ) ≤ 1 / 2 := by push_cast; linarith [h.2]
  have h2 : (-(1 / 2) : ℝ) ≤ ((m - R.round m : ℤ) : ℝ) := by push_cast; linarith [h.1]
  have h3 : m - R.round m < 1 := by
    have : ((m - R.round m : ℤ) : ℝ) < 1 := by linarith
    exact_mod_cast this
  have h4 : -1 < m - R.round m := by
    have : (-1 : ℝ) < ((m - R.round m : ℤ) : ℝ) := by linarith
    exact_mod_cast this
  omega

theorem round_step (R : Routines) (hR : R.Valid) {x y : ℝ} (h : x - y < 1) : R.round x ≤ R.round y + 1 := by
  have h1 := abs_le.mp (hR.near x)
  have h2 := abs_le.mp (hR.near y)
  have : (R.round x : ℝ) < (R.round y : ℝ) + 2 := by linarith [h1.1, h2.2]
  have : R.round x < R.round y + 2 := by exact_mod_cast this
  omega

/-- Moving one pixel towards the centre goes back by at most one ring. -/
theorem rad_step (R : Routines) (hR : R.Valid) {q : ℝ} (hq0 : 0 < q) (hq1 : q ≤ 1) {X Y : ℤ} (hX : 2 ≤ |X|)
    (hpar : X % 2 = Y % 2) : R.round (rad q X Y) ≤ R.round (rad q (|X| - 2) Y) + 1 := by
  set u : ℝ := |(X : ℝ)| / 2 with hu
  set w : ℝ := (Y : ℝ) / 2 with hw
  have hu1 : 1 ≤ u := by
    have : (2 : ℝ) ≤ |(X : ℝ)| := by exact_mod_cast hX
    rw [hu]; linarith
  have e1 : rad q X Y = Real.sqrt (u ^ 2 + w ^ 2) * q := by
    unfold rad
    rw [hu, div_pow |(X : ℝ)|, sq_abs, ← div_pow]
  have e2 : rad q (|X| - 2) Y = Real.sqrt ((u - 1) ^ 2 + w ^ 2) * q := by
    unfold rad
    have : (((|X| - 2 : ℤ) : ℝ) / 2) = u - 1 := by push_cast; rw [hu]; ring
    rw [this]
  rw [e1, e2]
  by_cases hY : Y = 0
  · have hw0 : w = 0 := by rw [hw, hY]; simp
    have s1 : Real.sqrt (u ^ 2 + w ^ 2) = u := by rw [hw0]; simp [Real.sqrt_sq (by linarith : 0 ≤ u)]
    have s2 : Real.sqrt ((u - 1) ^ 2 + w ^ 2) = u - 1 := by
      rw [hw0]; simp [Real.sqrt_sq (by linarith : 0 ≤ u - 1)]
    rw [s1, s2]
    rcases hq1.lt_or_eq with h | h
    · exact round_step R hR (by nlinarith)
    · obtain ⟨m, hm⟩ : ∃ m : ℤ, |X| = 2 * m := by
        refine ⟨|X| / 2, ?_⟩
        rcases abs_choice X with h | h <;> rw [h] <;> omega
      have hum : u = (m : ℝ) := by
        rw [hu]
        have : |(X : ℝ)| = 2 * (m : ℝ) := by exact_mod_cast hm
        rw [this]; ring
      rw [h, mul_one, mul_one, hum]
      have : (m : ℝ) - 1 = ((m - 1 : ℤ) : ℝ) := by push_cast; ring
      rw [this, round_int R hR, round_int R hR]
      omega
  · have hw2 : 0 < w ^ 2 := by
      have : w ≠ 0 := by rw [hw]; simpa using hY
      positivity
    refine round_step R hR ?_
    have hlt : Real.sqrt (u ^ 2 + w ^ 2) < Real.sqrt ((u - 1) ^ 2 + w ^ 2) + 1 := by
      have hs := Real.sq_sqrt (by positivity : 0 ≤ (u - 1) ^ 2 + w ^ 2)
      have hgt : u - 1 < Real.sqrt ((u - 1) ^ 2 + w ^ 2) := by
        rw [Real.lt_sqrt (by linarith)]; linarith
      rw [Real.sqrt_lt' (by positivity)]
      nlinarith
    have hpos : 0 ≤ Real.sqrt ((u - 1) ^ 2 + w ^ 2) := Real.sqrt_nonneg _
    nlinarith

theorem rad_comm (q : ℝ) (X Y : ℤ) : rad q X Y = rad q Y X := by unfold rad; rw [add_comm]

theorem rad_abs (q : ℝ) (X Y : ℤ) : rad q |X| |Y| = rad q X Y := by
  unfold rad
  push_cast
  rw [div_pow, sq_abs, ← div_pow, div_pow |(Y : ℝ)|, sq_abs, ← div_pow]

/-- Offsets of the pixels of the image. -/
def Inside (im : Img ℝ) (cx2 cy2 X Y : ℤ) : Prop :=
  ∃ i < im.nx, ∃ j < im.ny, X = 2 * (j : ℤ) - cx2 ∧ Y = 2 * (i : ℤ) - cy2

theorem pixel_rad {im : Img ℝ} {a : Args} {cx2 cy2 : ℤ} (hc : CentreOk im a cx2 cy2) (i j : ℕ) :
    (pixel im (centreOf im a.centre) a.ps a.bs i j).r =
      rad (a.ps / a.bs) (2 * (j : ℤ) - cx2) (2 * (i : ℤ) - cy2) := by
  unfold pixel rad
  rw [hc.x, hc.y]
  have e1 : ((j : ℝ) - (cx2 : ℝ) / 2) = (((2 * (j : ℤ) - cx2 : ℤ) : ℝ) / 2) := by push_cast; ring
  have e2 : ((i : ℝ) - (cy2 : ℝ) / 2) = (((2 * (i : ℤ) - cy2 : ℤ) : ℝ) / 2) := by push_cast; ring
  rw [e1, e2, mul_div_assoc]

theorem inside_step {im : Img ℝ} {a : Args} {cx2 cy2 : ℤ} (hc : CentreOk im a cx2 cy2) {X Y : ℤ}
    (h : Inside im cx2 cy2 X Y) (hX : 2 ≤ |X|) :
    ∃ X', |X'| = |X| - 2 ∧ Inside im cx2 cy2 X' Y := by
  obtain ⟨i, hi, j, hj, rfl, rfl⟩ := h
  have h0 := hc.x0
  have h1 := hc.x1
  rcases le_or_gt 0 (2 * (j : ℤ) - cx2) with hs | hs
  · rw [abs_of_nonneg hs] at hX ⊢
    refine ⟨2 * ((j - 1 : ℕ) : ℤ) - cx2, ?_, i, hi, j - 1, by omega, rfl, rfl⟩
    rw [abs_of_nonneg (by omega)]; omega
  · rw [abs_of_neg hs] at hX ⊢
    refine ⟨2 * ((j + 1 : ℕ) : ℤ) - cx2, ?_, i, hi, j + 1, by omega, rfl, rfl⟩
    rw [abs_of_nonpos (by push_cast; omega)]; push_cast; omega

theorem inside_step' {im : Img ℝ} {a : Args} {cx2 cy2 : ℤ} (hc : CentreOk im a cx2 cy2) {X Y : ℤ}
    (h : Inside im cx2 cy2 X Y) (hY : 2 ≤ |Y|) :
    ∃ Y', |Y'| = |Y| - 2 ∧ Inside im cx2 cy2 X Y' := by
  obtain ⟨i, hi, j, hj, rfl, rfl⟩ := h
  have h0 := hc.y0
  have h1 := hc.y1
  rcases le_or_gt 0 (2 * (i : ℤ) - cy2) with hs | hs
  · rw [abs_of_nonneg hs] at hY ⊢
    refine ⟨2 * ((i - 1 : ℕ) : ℤ) - cy2, ?_, i - 1, by omega, j, hj, rfl, rfl⟩
    rw [abs_of_nonneg (by omega)]; omega
  · rw [abs_of_neg hs] at hY ⊢
    refine ⟨2 * ((i + 1 : ℕ) : ℤ) - cy2, ?_, i + 1, by omega, j, hj, rfl, rfl⟩
    rw [abs_of_nonpos (by push_cast; omega)]; push_cast; omega

theorem inside_par {im : Img ℝ} {a : Args} {cx2 cy2 : ℤ} (hc : CentreOk im a cx2 cy2) {X Y : ℤ}
    (h : Inside im cx2 cy2 X Y) : X % 2 = Y % 2 ∧ X % 2 = cx2 % 2 := by
  obtain ⟨i, hi, j, hj, rfl, rfl⟩ := h
  have := hc.par
  omega

/-- Radius of the innermost pixels. -/
noncomputable def rad0 (q : ℝ) (cx2 : ℤ) : ℝ := rad q (cx2 % 2) (cx2 % 2)

theorem rad_min {q : ℝ} (hq : 0 ≤ q) {cx2 X Y : ℤ} (h1 : X % 2 = Y % 2) (h2 : X % 2 = cx2 % 2) :
    rad0 q cx2 ≤ rad q X Y := by
  unfold rad0 rad
  apply mul_le_mul_of_nonneg_right _ hq
  apply Real.sqrt_le_sqrt
  have key : ∀ Z : ℤ, Z % 2 = cx2 % 2 → (((cx2 % 2 : ℤ) : ℝ) / 2) ^ 2 ≤ ((Z : ℝ) / 2) ^ 2 := by
    intro Z hZ
    have h3 : (cx2 % 2) ^ 2 ≤ Z ^ 2 := by
      rcases Int.emod_two_eq_zero_or_one cx2 with h | h
      · rw [h]; positivity
      · rw [h]
        have : Z ≠ 0 := by rintro rfl; omega
        have := sq_nonneg Z
        have : 0 < Z ^ 2 := by positivity
        omega
    have h4 : (((cx2 % 2 : ℤ) : ℝ)) ^ 2 ≤ (Z : ℝ) ^ 2 := by exact_mod_cast h3
    rw [div_pow, div_pow]
    linarith
  exact add_le_add (key X h2) (key Y (h1 ▸ h2))

/-- Every ring between the innermost and that of a pixel contains a pixel. -/
theorem rings_between (R : Routines) (hR : R.Valid) {im : Img ℝ} {a : Args} {cx2 cy2 : ℤ}
    (hc : CentreOk im a cx2 cy2) {q : ℝ} (hq0 : 0 < q) (hq1 : q ≤ 1) (n : ℕ) :
    ∀ X Y : ℤ, Inside im cx2 cy2 X Y → (|X| + |Y|).toNat = n → ∀ t : ℤ, R.round (rad0 q cx2) ≤ t →
      t ≤ R.round (rad q X Y) → ∃ X' Y', Inside im cx2 cy2 X' Y' ∧ R.round (rad q X' Y') = t := by
  induction n using Nat.strong_induction_on with
  | _ n ih =>
    intro X Y hin hn t ht0 ht1
    rcases ht1.lt_or_eq with hlt | heq
    · obtain ⟨hp1, hp2⟩ := inside_par hc hin
      have hXn := abs_nonneg X
      have hYn := abs_nonneg Y
      by_cases hX : 2 ≤ |X|
      · obtain ⟨X', hX', hin'⟩ := inside_step hc hin hX
        have hst := rad_step R hR hq0 hq1 hX hp1
        rw [← hX'] at hst
        have e : rad q |X'| Y = rad q X' Y := by
          rw [← rad_abs q X' Y, ← rad_abs q |X'| Y, abs_abs]
        rw [e] at hst
        exact ih (|X'| + |Y|).toNat (by omega) X' Y hin' rfl t ht0 (by omega)
      · by_cases hY : 2 ≤ |Y|
        · obtain ⟨Y', hY', hin'⟩ := inside_step' hc hin hY
          have hst := rad_step R hR hq0 hq1 hY hp1.symm
          rw [← hY', rad_comm, rad_comm q |Y'|] at hst
          have e : rad q X |Y'| = rad q X Y' := by
            rw [← rad_abs q X Y', ← rad_abs q X |Y'|, abs_abs]
          rw [e] at hst
          exact ih (|X| + |Y'|).toNat (by omega) X Y' hin' rfl t ht0 (by omega)
        · exfalso
          have hXe : |X| = cx2 % 2 := by
            rcases abs_cases X with ⟨h, _⟩ | ⟨h, _⟩ <;> rw [h] at hX ⊢ <;> omega
          have hYe : |Y| = cx2 % 2 := by
            rcases abs_cases Y with ⟨h, _⟩ | ⟨h, _⟩ <;> rw [h] at hY ⊢ <;> omega
          have : rad q X Y = rad0 q cx2 := by
            rw [← rad_abs, hXe, hYe]; rfl
          rw [this] at hlt
          omega
    · exact ⟨X, Y, hin, heq.symm⟩

theorem px_inside {im : Img ℝ} {a : Args} {cx2 cy2 : ℤ} (hc : CentreOk im a cx2 cy2) (x : ℝ) :
    (∃ p ∈ a.px im, p.r = x) ↔ ∃ X Y, Inside im cx2 cy2 X Y ∧ rad (a.ps / a.bs) X Y = x := by
  constructor
  · rintro ⟨p, hp, rfl⟩
    obtain ⟨i, hi, j, hj, rfl⟩ := px_value im a hp
    exact ⟨_, _, ⟨i, hi, j, hj, rfl, rfl⟩, (pixel_rad hc i j).symm⟩
  · rintro ⟨X, Y, ⟨i, hi, j, hj, rfl, rfl⟩, rfl⟩
    refine ⟨pixel im (centreOf im a.centre) a.ps a.bs i j, ?_, pixel_rad hc i j⟩
    unfold Args.px pixels
    exact List.mem_flatMap.mpr ⟨i, List.mem_range.mpr hi, List.mem_map.mpr ⟨j, List.mem_range.mpr hj, rfl⟩⟩

theorem inside_centre {im : Img ℝ} {a : Args} {cx2 cy2 : ℤ} (hc : CentreOk im a cx2 cy2) :
    Inside im cx2 cy2 (-(cx2 % 2)) (-(cx2 % 2)) := by
  have h0 := hc.x0
  have h1 := hc.x1
  have h2 := hc.y0
  have h3 := hc.y1
  have h4 := hc.par
  exact ⟨(cy2 / 2).toNat, by omega, (cx2 / 2).toNat, by omega, by omega, by omega⟩

theorem rMin_eq {im : Img ℝ} {a : Args} {cx2 cy2 : ℤ} (hc : CentreOk im a cx2 cy2) (hps : 0 < a.ps) (hbs : 0 < a.bs) :
    rMin (a.px im) = rad0 (a.ps / a.bs) cx2 := by
  have hq : 0 ≤ a.ps / a.bs := by positivity
  obtain ⟨p, hp, e⟩ := (px_inside hc (rad (a.ps / a.bs) (-(cx2 % 2)) (-(cx2 % 2)))).mpr
    ⟨_, _, inside_centre hc, rfl⟩
  have e0 : rad (a.ps / a.bs) (-(cx2 % 2)) (-(cx2 % 2)) = rad0 (a.ps / a.bs) cx2 := by
    unfold rad0
    rw [← rad_abs, abs_neg, rad_abs]
  unfold rMin
  apply le_antisymm
  · rw [← e0, ← e]
    exact minL_le _ _ (List.mem_map.mpr ⟨p, hp, rfl⟩)
  · have hne : (a.px im).map Pixel.r ≠ [] := by
      intro hc'
      have : p.r ∈ (a.px im).map Pixel.r := List.mem_map.mpr ⟨p, hp, rfl⟩
      rw [hc'] at this; simp at this
    obtain ⟨p', hp', e'⟩ := List.mem_map.mp (minL_mem _ hne)
    rw [← e']
    obtain ⟨X, Y, hin, e''⟩ := (px_inside hc p'.r).mp ⟨p', hp', rfl⟩
    rw [← e'']
    exact rad_min hq (inside_par hc hin).1 (inside_par hc hin).2

/-- A strictly increasing list of integers without gap. -/
theorem consecutive {L : List ℤ} (hs : L.Pairwise (· < ·)) {b0 : ℤ} (h0 : b0 ∈ L) (hlo : ∀ z ∈ L, b0 ≤ z)
    (hgap : ∀ z ∈ L, ∀ t, b0 ≤ t → t ≤ z → t ∈ L) : ∀ k (hk : k < L.length), L[k] = b0 + k := by
  have hidx : ∀ i (hi : i < L.length) j (hj : j < L.length), i < j → L[i] < L[j] :=
    fun i hi j hj hij => List.pairwise_iff_getElem.mp hs i j hi hj hij
  intro k
  induction k with
  | zero =>
    intro hk
    obtain ⟨m, hm, e⟩ := List.mem_iff_getElem.mp h0
    have h1 := hlo L[0] (List.getElem_mem _)
    rcases Nat.eq_zero_or_pos m with h | h
    · subst h; simpa using e
    · have := hidx 0 hk m hm h
      push_cast; omega
  | succ k ih =>
    intro hk
    have e := ih (by omega)
    have h1 := hidx k (by omega) (k + 1) hk (by omega)
    have h2 := hgap L[k + 1] (List.getElem_mem _) (b0 + k + 1) (by omega) (by omega)
    obtain ⟨m, hm, e'⟩ := List.mem_iff_getElem.mp h2
    push_cast
    rcases Nat.lt_trichotomy m (k + 1) with h | h | h
    · rcases Nat.lt_or_ge m k with h' | h'
      · have := hidx m hm k (by omega) h'; omega
      · have : m = k := by omega
        subst this; omega
    · subst h; omega
    · have := hidx (k + 1) hk m hm h; omega

/-- **C223.** If the bins are not smaller than the pixels and the centre is a pixel or a corner, no ring is missing. -/
theorem rings_consecutive (R : Routines) (hR : R.Valid) {im : Img ℝ} {a : Args} {cx2 cy2 : ℤ}
    (hc : CentreOk im a cx2 cy2) (hps : 0 < a.ps) (hbs : a.ps ≤ a.bs) (hpa : a.paRange = none) :
    ∀ k (hk : k < (rings R.round (kept a.paRange (a.px im))).length),
      (rings R.round (kept a.paRange (a.px im)))[k] = R.round (rMin (a.px im)) + k := by
  have hb : 0 < a.bs := lt_of_lt_of_le hps hbs
  have hq0 : 0 < a.ps / a.bs := by positivity
  have hq1 : a.ps / a.bs ≤ 1 := by rw [div_le_one hb]; exact hbs
  rw [rMin_eq hc hps hb, hpa]
  simp only [kept]
  have hmem : ∀ z, z ∈ rings R.round (a.px im) ↔ ∃ X Y, Inside im cx2 cy2 X Y ∧ R.round (rad (a.ps / a.bs) X Y) = z := by
    intro z
    unfold rings
    rw [Finset.mem_sort, List.mem_toFinset, List.mem_map]
    constructor
    · rintro ⟨p, hp, rfl⟩
      obtain ⟨X, Y, hin, e⟩ := (px_inside hc p.r).mp ⟨p, hp, rfl⟩
      exact ⟨X, Y, hin, by rw [e]⟩
    · rintro ⟨X, Y, hin, rfl⟩
      obtain ⟨p, hp, e⟩ := (px_inside hc _).mpr ⟨X, Y, hin, rfl⟩
      exact ⟨p, hp, by rw [e]⟩
  apply consecutive
  · exact Finset.sortedLT_sort _ |>.pairwise
  · rw [hmem]
    refine ⟨_, _, inside_centre hc, ?_⟩
    unfold rad0
    rw [← rad_abs, abs_neg, rad_abs]
  · intro z hz
    obtain ⟨X, Y, hin, rfl⟩ := (hmem z).mp hz
    exact hR.mono (rad_min hq0.le (inside_par hc hin).1 (inside_par hc hin).2)
  · intro z hz t h0 h1
    obtain ⟨X, Y, hin, rfl⟩ := (hmem z).mp hz
    rw [hmem]
    exact rings_between R hR hc hq0 hq1 _ X Y hin rfl t h0 h1

/-- **C223.** The radius returned with a value is, within one bin, that of all pixels it is the mean of; within half a
bin if the centre is a pixel. -/
theorem radius_of_ring (R : Routines) (hR : R.Valid) {im : Img ℝ} {a : Args} {cx2 cy2 : ℤ}
    (hc : CentreOk im a cx2 cy2) (hps : 0 < a.ps) (hbs : a.ps ≤ a.bs) (hpa : a.paRange = none) {rr p : List ℝ}
    (hsup : a.supersamp = none) (h : radialProfile R im a = .ok (.two rr p)) :
    ∀ k (_ : k < p.length) (hk' : k < (rings R.round (a.px im)).length) (hk'' : k < rr.length),
      ∀ q ∈ a.px im, R.round q.r = (rings R.round (a.px im))[k] →
        |q.r * a.bs - rr[k]| ≤ a.bs ∧ (cx2 % 2 = 0 → |q.r * a.bs - rr[k]| ≤ a.bs / 2) := by
  have hb : 0 < a.bs := lt_of_lt_of_le hps hbs
  obtain ⟨h1, h2, h3, h4⟩ := profile_spec R hR im a hb hsup h
  have hcons := rings_consecutive R hR hc hps hbs hpa
  rw [hpa] at h4 hcons
  simp only [kept] at h4 hcons
  intro k hk hk' hk'' q hq hqr
  rw [(h4 k hk hk' hk'').2.1]
  rw [hcons k hk'] at hqr
  have n1 := abs_le.mp (hR.near q.r)
  have n2 := abs_le.mp (hR.near (rMin (a.px im)))
  rw [hqr] at n1
  push_cast at n1
  have e : q.r * a.bs - (rMin (a.px im) + (k : ℝ)) * a.bs = (q.r - (rMin (a.px im) + (k : ℝ))) * a.bs := by ring
  rw [e, abs_mul, abs_of_pos hb]
  constructor
  · have : |q.r - (rMin (a.px im) + (k : ℝ))| ≤ 1 := by
      rw [abs_le]; constructor <;> linarith [n1.1, n1.2, n2.1, n2.2]
    nlinarith
  · intro he
    have hz : rMin (a.px im) = 0 := by
      rw [rMin_eq hc hps hb]
      unfold rad0 rad
      rw [he]; simp
    have hz' : R.round (0 : ℝ) = 0 := by
      have := round_int R hR 0
      simpa using this
    rw [hz, hz'] at n1
    rw [hz]
    push_cast at n1
    have : |q.r - (0 + (k : ℝ))| ≤ 1 / 2 := by
      rw [abs_le]; constructor <;> linarith [n1.1, n1.2]
    nlinarith

/-- **C223.** The default centre of a square image is a pixel or a corner. -/
theorem centre_default (im : Img ℝ) (a : Args) (h : a.centre = none) (hn : im.nx = im.ny) (h0 : 0 < im.nx) :
    CentreOk im a ((im.ny : ℤ) - 1) ((im.nx : ℤ) - 1) := by
  constructor
  · rw [h]; simp [centreOf]
  · rw [h]; simp [centreOf]
  all_goals omega

/-- `np.round` and sorting by insertion meet the assumptions. -/
noncomputable def sample : Routines where
  argsort l := l.mergeSort fun a b => decide (a.1 ≤ b.1)
  round := P3.Rec.roundEven
  spline r p x := (p.getD (r.idxOf x) 0)
  ev im i j := im.px ⌊i⌋₊ ⌊j⌋₊

theorem roundEven_near (x : ℝ) : |x - P3.Rec.roundEven x| ≤ 1 / 2 := by
  unfold P3.Rec.roundEven
  have h1 := Int.floor_le x
  have h2 := Int.lt_floor_add_one x
  rw [abs_le]
  split_ifs with h h'
  · constructor <;> linarith
  · push_cast; constructor <;> linarith
  · have h3 := Int.floor_le (x + 1 / 2)
    have h4 := Int.lt_floor_add_one (x + 1 / 2)
    constructor <;> linarith

theorem roundEven_mono : Monotone P3.Rec.roundEven := by
  intro x y hxy
  by_contra hc
  push Not at hc
  have h1 := abs_le.mp (roundEven_near x)
  have h2 := abs_le.mp (roundEven_near y)
  have hc' : (P3.Rec.roundEven y : ℝ) + 1 ≤ P3.Rec.roundEven x := by exact_mod_cast hc
  have hx : x - P3.Rec.roundEven x = -(1 / 2) := by linarith [h1.1, h1.2, h2.1, h2.2]
  have hy : y = x := by linarith [h1.1, h1.2, h2.1, h2.2]
  rw [hy] at hc
  exact lt_irrefl _ hc

theorem sample_valid : sample.Valid where
  perm l := List.mergeSort_perm l _
  sorted l := by
    have := List.pairwise_mergeSort (le := fun a b : ℝ × ℝ => decide (a.1 ≤ b.1))
      (fun a b c h1 h2 => by simp only [decide_eq_true_eq] at *; exact le_trans h1 h2)
      (fun a b => by simp only [Bool.or_eq_true, decide_eq_true_eq]; exact le_total _ _) l
    simpa [sample] using this
  mono := roundEven_mono
  near := roundEven_near

/-- With two rings or more a profile is returned. -/
theorem profile_two_partial (R : Routines) (hR : R.Valid) (im : Img ℝ) (a : Args) (hsup : a.supersamp = none)
    (hst : a.stddev = false) (hee : a.ee = false) (hn : a.nargout ≠ 1)
    (h2 : 2 ≤ (rings R.round (kept a.paRange (a.px im))).length) :
    ∃ rr p, radialProfile R im a = .ok (.two rr p) := by
  have hs : superFlag a = .ok none := by unfold superFlag; rw [hsup]
  have hne := (discrete_error R hR im a).not.mpr (by omega)
  unfold radialProfile
  rw [hs]
  simp only [bind, Except.bind]
  cases hd : discrete R.round (a.sorted R im) with
  | error e =>
    exfalso
    cases e with
    | indexError => exact hne hd
    | valueError =>
      unfold discrete at hd
      split at hd <;> simp at hd
  | ok p0 => simp [finish, hst, hee, hn]

theorem round_near (R : Routines) (hR : R.Valid) {x : ℝ} {n : ℤ} (h1 : (n : ℝ) - 1 / 2 < x) (h2 : x < n + 1 / 2) :
    R.round x = n := by
  have h := abs_le.mp (hR.near x)
  have h3 : (R.round x : ℝ) < n + 1 := by linarith [h.1]
  have h4 : (n : ℝ) < R.round x + 1 := by linarith [h.2]
  have h3' : R.round x < n + 1 := by exact_mod_cast h3
  have h4' : n < R.round x + 1 := by exact_mod_cast h4
  omega

/-- A `3 x 3` image. -/
def im3 (f : ℕ → ℕ → ℝ) : Img ℝ := ⟨3, 3, f⟩

theorem px3 (f : ℕ → ℕ → ℝ) (a : Args) (hc : a.centre = none) :
    (a.px (im3 f)) = [pixel (im3 f) (1, 1) a.ps a.bs 0 0, pixel (im3 f) (1, 1) a.ps a.bs 0 1,
      pixel (im3 f) (1, 1) a.ps a.bs 0 2, pixel (im3 f) (1, 1) a.ps a.bs 1 0, pixel (im3 f) (1, 1) a.ps a.bs 1 1,
      pixel (im3 f) (1, 1) a.ps a.bs 1 2, pixel (im3 f) (1, 1) a.ps a.bs 2 0, pixel (im3 f) (1, 1) a.ps a.bs 2 1,
      pixel (im3 f) (1, 1) a.ps a.bs 2 2] := by
  unfold Args.px
  have : centreOf (im3 f) a.centre = (1, 1) := by rw [hc]; simp [centreOf, im3]; norm_num
  rw [this]
  rfl

theorem r3 (f : ℕ → ℕ → ℝ) (ps bs : ℝ) :
    (∀ i j, (i = 0 ∨ i = 2) → (j = 0 ∨ j = 2) → (pixel (im3 f) (1, 1) ps bs i j).r = Real.sqrt 2 * ps / bs) ∧
    (∀ i j, (i = 1 ∧ (j = 0 ∨ j = 2) ∨ (i = 0 ∨ i = 2) ∧ j = 1) → (pixel (im3 f) (1, 1) ps bs i j).r = ps / bs) ∧
    (pixel (im3 f) (1, 1) ps bs 1 1).r = 0 := by
  refine ⟨?_, ?_, ?_⟩
  · rintro i j (rfl | rfl) (rfl | rfl) <;> simp [pixel] <;> norm_num
  · rintro i j (⟨rfl, rfl | rfl⟩ | ⟨rfl | rfl, rfl⟩) <;> simp [pixel] <;> norm_num
  · simp [pixel]

theorem rings3 (R : Routines) (hR : R.Valid) (f : ℕ → ℕ → ℝ) (a : Args) (hc : a.centre = none) (n1 n2 : ℤ)
    (h1 : R.round (a.ps / a.bs) = n1) (h2 : R.round (Real.sqrt 2 * a.ps / a.bs) = n2) :
    (a.px (im3 f)).map (fun p => R.round p.r) = [n2, n1, n2, n1, 0, n1, n2, n1, n2] := by
  obtain ⟨c, e, z⟩ := r3 f a.ps a.bs
  have hz : R.round (0 : ℝ) = 0 := by simpa using round_int R hR 0
  rw [px3 f a hc]
  simp [c, e, z, h1, h2, hz]

theorem sqrt2_bounds : (1.4 : ℝ) < Real.sqrt 2 ∧ Real.sqrt 2 < 1.5 := by
  constructor
  · rw [Real.lt_sqrt (by norm_num)]; norm_num
  · rw [Real.sqrt_lt' (by norm_num)]; norm_num

/-- **C271 is false of the code for bins smaller than the pixels.** With bins of half a pixel the second radius of the
profile of a `3 x 3` image is half a pixel, but the value is the mean of the four pixels at a distance of one pixel. -/
theorem small_bins_wrong_radius (R : Routines) (hR : R.Valid) (f : ℕ → ℕ → ℝ) :
    ∃ rr p, radialProfile R (im3 f) { ps := 1, binsize := some (1 / 2) } = .ok (.two rr p) ∧
      rr = [0, 1 / 2] ∧ p = [f 1 1, (f 0 1 + f 1 0 + f 1 2 + f 2 1) / 4] := by
  set a : Args := { ps := 1, binsize := some (1 / 2) } with ha
  have hbs : a.bs = 1 / 2 := rfl
  have hps : a.ps = 1 := rfl
  have hsq := sqrt2_bounds
  have e1 : R.round (a.ps / a.bs) = 2 := by
    rw [hbs, hps]
    have : (1 : ℝ) / (1 / 2) = ((2 : ℤ) : ℝ) := by norm_num
    rw [this, round_int R hR]
  have e2 : R.round (Real.sqrt 2 * a.ps / a.bs) = 3 := by
    apply round_near R hR <;> rw [hbs, hps] <;> push_cast <;> linarith
  have hmap := rings3 R hR f a rfl 2 3 e1 e2
  have hrings : rings R.round (kept a.paRange (a.px (im3 f))) = [0, 2, 3] := by
    show rings R.round (a.px (im3 f)) = _
    unfold rings
    rw [hmap, show [3, 2, 3, 2, 0, 2, 3, 2, 3].toFinset = ([0, 2, 3] : List ℤ).toFinset by decide +kernel]
    exact (List.toFinset_sort (· ≤ ·) (by decide)).mpr (by decide)
  obtain ⟨rr, p, h⟩ := profile_two_partial R hR (im3 f) a rfl rfl rfl (by decide) (by rw [hrings]; decide)
  refine ⟨rr, p, h, ?_⟩
  obtain ⟨h1, h2, h3, h4⟩ := profile_spec R hR (im3 f) a (by rw [hbs]; norm_num) rfl h
  have hl : p.length = 2 := by
    have := h3 rfl
    rw [hrings] at this
    simpa using this
  obtain ⟨c, e, z⟩ := r3 f a.ps a.bs
  have hz : R.round (0 : ℝ) = 0 := by simpa using round_int R hR 0
  have hmin : rMin (a.px (im3 f)) = 0 := by
    rw [rMin_eq (centre_default (im3 f) a rfl rfl (by simp [im3])) (by rw [hps]; norm_num) (by rw [hbs]; norm_num)]
    unfold rad0 rad; simp [im3]
  have hring : ∀ β, ring R.round (kept a.paRange (a.px (im3 f))) β =
      ring R.round [pixel (im3 f) (1, 1) a.ps a.bs 0 0, pixel (im3 f) (1, 1) a.ps a.bs 0 1,
      pixel (im3 f) (1, 1) a.ps a.bs 0 2, pixel (im3 f) (1, 1) a.ps a.bs 1 0, pixel (im3 f) (1, 1) a.ps a.bs 1 1,
      pixel (im3 f) (1, 1) a.ps a.bs 1 2, pixel (im3 f) (1, 1) a.ps a.bs 2 0, pixel (im3 f) (1, 1) a.ps a.bs 2 1,
      pixel (im3 f) (1, 1) a.ps a.bs 2 2] β := by
    intro β
    show ring R.round (a.px (im3 f)) β = _
    rw [px3 f a rfl]
  have k0 := h4 0 (by omega) (by rw [hrings]; decide) (by omega)
  have k1 := h4 1 (by omega) (by rw [hrings]; decide) (by omega)
  simp only [hrings, hring, hmin, hbs, List.getElem_cons_zero, List.getElem_cons_succ] at k0 k1
  have rc : ∀ i j, (i = 0 ∨ i = 2) → (j = 0 ∨ j = 2) → R.round (pixel (im3 f) (1, 1) a.ps (1 / 2) i j).r = 3 := by
    intro i j hi hj; rw [← hbs, c i j hi hj, e2]
  have re : ∀ i j, (i = 1 ∧ (j = 0 ∨ j = 2) ∨ (i = 0 ∨ i = 2) ∧ j = 1) →
      R.round (pixel (im3 f) (1, 1) a.ps (1 / 2) i j).r = 2 := by
    intro i j hi; rw [← hbs, e i j hi, e1]
  have rz : R.round (pixel (im3 f) (1, 1) a.ps (1 / 2) 1 1).r = 0 := by rw [← hbs, z, hz]
  have r00 := rc 0 0 (by simp) (by simp)
  have r02 := rc 0 2 (by simp) (by simp)
  have r20 := rc 2 0 (by simp) (by simp)
  have r22 := rc 2 2 (by simp) (by simp)
  have r01 := re 0 1 (by simp)
  have r10 := re 1 0 (by simp)
  have r12 := re 1 2 (by simp)
  have r21 := re 2 1 (by simp)
  have p0 : p[0] = f 1 1 := by
    rw [k0.1]
    simp only [ring, List.filter_cons, List.filter_nil, r00, r01, r02, r10, rz, r12, r20, r21, r22]
    simp [mean, pixel, im3]
  have p1 : p[1] = (f 0 1 + f 1 0 + f 1 2 + f 2 1) / 4 := by
    rw [k1.1]
    simp only [ring, List.filter_cons, List.filter_nil, r00, r01, r02, r10, rz, r12, r20, r21, r22]
    simp [mean, pixel, im3]
    ring
  constructor
  · apply List.ext_getElem (by simp; omega)
    intro k hk1 hk2
    have : k = 0 ∨ k = 1 := by simp at hk2; omega
    rcases this with rfl | rfl
    · rw [k0.2.1]; simp
    · rw [k1.2.1]; simp
  · apply List.ext_getElem (by simp; omega)
    intro k hk1 hk2
    have : k = 0 ∨ k = 1 := by simp at hk2; omega
    rcases this with rfl | rfl
    · simpa using p0
    · simpa using p1

/-- Non-vacuity of C222 and C223: the profile of a `3 x 3` image with the default bins. -/
theorem default_bins_radius (R : Routines) (hR : R.Valid) (f : ℕ → ℕ → ℝ) :
    ∃ rr p, radialProfile R (im3 f) { ps := 1, binsize := none, maxR := some 5 } = .ok (.two rr p) := by
  set a : Args := { ps := 1, binsize := none, maxR := some 5 } with ha
  have hbs : a.bs = 1 := rfl
  have hps : a.ps = 1 := rfl
  have hmem : ∀ z : ℤ, z ∈ (a.px (im3 f)).map (fun p => R.round p.r) → z ∈ rings R.round (a.px (im3 f)) := by
    intro z hz; unfold rings; rw [Finset.mem_sort, List.mem_toFinset]; exact hz
  have e1 : R.round (a.ps / a.bs) = 1 := by
    rw [hbs, hps]
    have : (1 : ℝ) / 1 = ((1 : ℤ) : ℝ) := by norm_num
    rw [this, round_int R hR]
  have hmap := rings3 R hR f a rfl 1 _ e1 rfl
  refine profile_two_partial R hR (im3 f) a rfl rfl rfl (by decide) ?_
  show 2 ≤ (rings R.round (a.px (im3 f))).length
  have m0 := hmem 0 (by rw [hmap]; simp)
  have m1 := hmem 1 (by rw [hmap]; simp)
  rcases hL : rings R.round (a.px (im3 f)) with _ | ⟨x, _ | ⟨y, l⟩⟩
  · rw [hL] at m0; simp at m0
  · rw [hL] at m0 m1; simp at m0 m1; omega
  · simp

/-! ### Supersampling -/

/-- A spline passes through its points. -/
def Interpolates (R : Routines) : Prop :=
  ∀ r p : List ℝ, r.Pairwise (· < ·) → r.length = p.length → ∀ k (hk : k < r.length) (hk' : k < p.length),
    R.spline r p r[k] = p[k]

theorem radii_sorted (rmin bs : ℝ) (hb : 0 < bs) (n : ℕ) : (radii rmin bs n).Pairwise (· < ·) := by
  unfold radii
  rw [List.pairwise_map]
  refine List.pairwise_lt_range.imp ?_
  intro i j hij
  have : (i : ℝ) < j := by exact_mod_cast hij
  nlinarith

theorem arange_spec (a b step : ℝ) (hs : 0 < step) :
    ∀ k (hk : k < (arange a b step).length), (arange a b step)[k] = a + (k : ℝ) * step ∧
      a ≤ (arange a b step)[k] ∧ (arange a b step)[k] < b := by
  intro k hk
  have e : (arange a b step)[k] = a + (k : ℝ) * step := by simp [arange]
  refine ⟨e, ?_, ?_⟩
  · rw [e]
    have : (0 : ℝ) ≤ k := Nat.cast_nonneg k
    nlinarith
  · rw [e]
    have hk' : k < ⌈(b - a) / step⌉.toNat := by simpa [arange] using hk
    have h1 : (k : ℤ) < ⌈(b - a) / step⌉ := by omega
    have h2 : (k : ℝ) < (b - a) / step := by
      have := Int.lt_ceil.mp h1
      simpa using this
    rw [lt_div_iff₀ hs] at h2
    linarith

/-- **C224.** Supersampling along the profile (flag 1): the radii advance by the step, from the first radius and below
the last; the values are not negative, and at the radii of the profile they are its values, scaled by the square of the
ratio of step and pixel. -/
theorem super1d_spec (R : Routines) (hI : Interpolates R) (im : Img ℝ) (a : Args) (hbs : 0 < a.bs) (step : ℝ)
    (hstep : 0 < step) {rr p0 : List ℝ} (hn : a.nargout ≠ 1) (hee : a.ee = false) (hst : a.stddev = false)
    (hsup : a.supersamp = some [step, 1])
    (h0 : radialProfile R im { a with supersamp := none } = .ok (.two rr p0)) (h2 : 2 ≤ rr.length) :
    ∃ r p, radialProfile R im a = .ok (.two r p) ∧ r.length = p.length ∧
      (∀ m (hm : m < r.length), r[m] = rr[0] + (m : ℝ) * step ∧ r[m] < rr[rr.length - 1]) ∧
      (∀ x ∈ p, 0 ≤ x) ∧
      ∀ m (hm : m < p.length) (hm' : m < r.length) k (hk : k < rr.length) (hk' : k < p0.length),
        r[m] = rr[k] → p[m] = max p0[k] 0 * (step / a.ps) ^ 2 := by
  have hflag : superFlag a = .ok (some (step, 1)) := by
    unfold superFlag; rw [hsup]; simp [trunc]
  generalize ha0 : ({ a with supersamp := none } : Args) = a0 at h0
  have hflag0 : superFlag a0 = .ok none := by rw [← ha0]; rfl
  unfold radialProfile at h0 ⊢
  rw [hflag0] at h0
  rw [hflag]
  simp only [bind, Except.bind] at h0 ⊢
  have hsrt : a0.sorted R im = a.sorted R im := by rw [← ha0]; rfl
  have hpx : a0.px im = a.px im := by rw [← ha0]; rfl
  have hbse : a0.bs = a.bs := by rw [← ha0]; rfl
  have hmx : a0.maxR = a.maxR := by rw [← ha0]
  have hn' : a0.nargout ≠ 1 := by rw [← ha0]; exact hn
  have hee' : a0.ee = false := by rw [← ha0]; exact hee
  have hst' : a0.stddev = false := by rw [← ha0]; exact hst
  rw [hsrt] at h0
  cases hd : discrete R.round (a.sorted R im) with
  | error e => rw [hd] at h0; simp at h0
  | ok q0 =>
    rw [hd] at h0
    simp only [finish, hpx, hbse, hmx, hst', hee', hn', hst] at h0 ⊢
    obtain ⟨n, hnl, hcrop, -⟩ := crop_spec a.maxR (rMin (a.px im)) a.bs hbs q0
    rw [hcrop] at h0 ⊢
    simp only [Bool.false_eq_true, if_false, Except.ok.injEq, Out.two.injEq] at h0 ⊢
    obtain ⟨rfl, rfl⟩ := h0
    have hlen : (q0.take n).length = n := by rw [List.length_take]; omega
    have hrl : (radii (rMin (a.px im)) a.bs n).length = n := by simp [radii]
    have hsorted := radii_sorted (rMin (a.px im)) a.bs hbs n
    revert hsorted hrl h2
    generalize radii (rMin (a.px im)) a.bs n = rr
    intro h2 hrl hsorted
    have hnot : ¬ rr.length < 2 := by omega
    simp only [interpolate1d, if_neg hnot, superOut, hn, hee, if_false, Bool.false_eq_true]
    refine ⟨_, _, rfl, by simp [clipScale], ?_, ?_, ?_⟩
    · intro m hm
      obtain ⟨e1, -, e3⟩ := arange_spec (rr.getD 0 0) (rr.getD (rr.length - 1) 0) step hstep m hm
      rw [e1] at e3 ⊢
      rw [List.getD_eq_getElem _ _ (by omega)] at e3 ⊢
      rw [List.getD_eq_getElem _ _ (by omega)] at e3
      exact ⟨rfl, e3⟩
    · intro x hx
      unfold clipScale at hx
      obtain ⟨y, -, rfl⟩ := List.mem_map.mp hx
      have := le_max_right y 0
      positivity
    · intro m hm hm' k hk hk' he
      have : (clipScale a.ps step ((arange (rr.getD 0 0) (rr.getD (rr.length - 1) 0) step).map (R.spline rr (q0.take n))))[m] =
          max (R.spline rr (q0.take n) ((arange (rr.getD 0 0) (rr.getD (rr.length - 1) 0) step)[m])) 0 * (step / a.ps) ^ 2 := by
        simp [clipScale]
      rw [this, he, hI rr (q0.take n) hsorted (by omega) k hk hk']

theorem sample_interpolates : Interpolates sample := by
  intro r p hr hl k hk hk'
  have hnd : r.Nodup := hr.imp fun h => ne_of_lt h
  show p.getD (r.idxOf r[k]) 0 = p[k]
  rw [List.Nodup.idxOf_getElem hnd, List.getD_eq_getElem _ _ hk']

/-- **C224.** Supersampling on a polar grid (flag 2): one value per circle, the mean of the image over the circle scaled
by the square of the ratio of step and pixel, and zero where it is negative; without grid the call is refused. -/
theorem super2d_spec (R : Routines) (im : Img ℝ) (a : Args) (step : ℝ)
    (hn : a.nargout ≠ 1) (hee : a.ee = false) (hsup : a.supersamp = some [step, 2]) :
    (a.polar = none → radialProfile R im a = .error .valueError) ∧
    ∀ grid rVals, a.polar = some (grid, rVals) → 4 ≤ im.nx → 4 ≤ im.ny →
      ∃ p, radialProfile R im a = .ok (.two rVals p) ∧ p.length = grid.length ∧
        ∀ k (hk : k < p.length) (hk' : k < grid.length),
          p[k] = max (mean (grid[k].map fun q => R.ev im q.2 q.1)) 0 * (step / a.ps) ^ 2 := by
  have hflag : superFlag a = .ok (some (step, 2)) := by
    unfold superFlag; rw [hsup]; simp [trunc]
  unfold radialProfile
  rw [hflag]
  simp only [bind, Except.bind]
  constructor
  · intro h; rw [h]
  · intro grid rVals h hx hy
    rw [h]
    simp only
    have hnot : ¬ (im.nx < 4 ∨ im.ny < 4) := by omega
    simp only [interpolate2d, if_neg hnot, superOut, hn, hee, if_false, Bool.false_eq_true]
    refine ⟨_, rfl, by simp [clipScale], ?_⟩
    intro k hk hk'
    simp [clipScale, circleMean, mean]

/-! ### Encircled energy -/

theorem cumsum_getElem (l : List ℝ) (k : ℕ) (hk : k < (cumsum l).length) : (cumsum l)[k] = (l.take (k + 1)).sum := by
  simp [cumsum]

theorem gradient_arith (c step : ℝ) (n : ℕ) (hn : 2 ≤ n) :
    gradient ((List.range n).map fun k : ℕ => c + (k : ℝ) * step) = .ok (List.replicate n step) := by
  unfold gradient
  have hl : ((List.range n).map fun k : ℕ => c + (k : ℝ) * step).length = n := by simp
  rw [if_neg (by omega), hl]
  congr 1
  have hget : ∀ i < n, ((List.range n).map fun k : ℕ => c + (k : ℝ) * step).getD i 0 = c + (i : ℝ) * step := by
    intro i hi
    rw [List.getD_eq_getElem _ _ (by omega)]; simp
  apply List.ext_getElem (by simp)
  intro i h1 h2
  have hi : i < n := by simpa using h1
  simp only [List.getElem_map, List.getElem_range, List.getElem_replicate]
  split_ifs with ha hb
  · rw [hget 1 (by omega), hget 0 (by omega)]; push_cast; ring
  · rw [hget i hi, hget (i - 1) (by omega), Nat.cast_sub (by omega)]; push_cast; ring
  · rw [hget (i + 1) (by omega), hget (i - 1) (by omega), Nat.cast_sub (by omega)]; push_cast; ring

/-- **C225 is false of the code with supersampling.** The curve is the integral of the profile along the radius, not over
the disc: for a uniform image it grows in proportion to the radius, where the energy in a disc grows with its area. -/
theorem superEe_uniform (c step v : ℝ) (hs : 0 < step) (hv : 0 < v) (n : ℕ) (hn : 2 ≤ n) :
    superEe ((List.range n).map fun k : ℕ => c + (k : ℝ) * step) (List.replicate n v) =
      .ok ((List.range n).map fun k : ℕ => ((k : ℝ) + 1) / n) := by
  unfold superEe
  rw [gradient_arith c step n hn]
  simp only [bind, Except.bind, List.length_replicate, ne_eq, not_true_eq_false, if_false]
  congr 1
  have hz : List.zipWith (· * ·) (List.replicate n v) (List.replicate n step) = List.replicate n (v * step) := by
    rw [List.zipWith_replicate]; simp
  rw [hz]
  have hcl : (cumsum (List.replicate n (v * step))).length = n := by simp [cumsum]
  have hget : ∀ k (hk : k < n), (cumsum (List.replicate n (v * step)))[k]'(by omega) = ((k : ℝ) + 1) * (v * step) := by
    intro k hk
    rw [cumsum_getElem, List.take_replicate, List.sum_replicate, min_eq_left (by omega)]
    simp [nsmul_eq_mul]
  rw [hcl, List.getD_eq_getElem _ _ (by omega), hget (n - 1) (by omega)]
  apply List.ext_getElem (by simp [hcl])
  intro k h1 h2
  have hk : k < n := by simpa using h2
  simp only [List.getElem_map, List.getElem_range]
  rw [hget k hk, Nat.cast_sub (by omega)]
  have : (n : ℝ) ≠ 0 := by positivity
  rw [Nat.cast_one, sub_add_cancel]
  field_simp

/-- **C225.** With supersampling the curve never decreases and ends at one. -/
theorem superEe_spec_partial {r p e : List ℝ} (hr : r.Pairwise (· ≤ ·)) (hp : ∀ x ∈ p, 0 ≤ x) (h : superEe r p = .ok e)
    (hpos : ∃ g, gradient r = .ok g ∧ 0 < (List.zipWith (· * ·) p g).sum) :
    e.length = r.length ∧ (∀ x ∈ e, 0 ≤ x ∧ x ≤ 1) ∧ e.Pairwise (· ≤ ·) ∧ e.getLast? = some 1 := by
  obtain ⟨g, hg, hgs⟩ := hpos
  unfold superEe at h
  rw [hg] at h
  simp only [bind, Except.bind] at h
  split_ifs at h with hl
  have hl' : p.length = g.length := by simpa using hl
  simp only [Except.ok.injEq] at h
  subst h
  unfold gradient at hg
  split_ifs at hg with h2
  simp only [Except.ok.injEq] at hg
  have hgl : g.length = r.length := by rw [← hg]; simp
  have hidx : ∀ i j, i ≤ j → j < r.length → r.getD i 0 ≤ r.getD j 0 := by
    intro i j hij hj
    rw [List.getD_eq_getElem _ _ (by omega), List.getD_eq_getElem _ _ hj]
    rcases hij.eq_or_lt with h | h
    · subst h; exact le_rfl
    · exact List.pairwise_iff_getElem.mp hr i j (by omega) hj h
  have hg0 : ∀ x ∈ g, 0 ≤ x := by
    intro x hx
    rw [← hg] at hx
    obtain ⟨i, hi, rfl⟩ := List.mem_map.mp hx
    rw [List.mem_range] at hi
    split_ifs with ha hb
    · linarith [hidx 0 1 (by omega) (by omega)]
    · linarith [hidx (i - 1) i (by omega) hi]
    · linarith [hidx (i - 1) (i + 1) (by omega) (by omega)]
  set w := List.zipWith (· * ·) p g with hw
  have hw0 : ∀ x ∈ w, 0 ≤ x := by
    intro x hx
    rw [hw] at hx
    obtain ⟨i, hi, rfl⟩ := List.mem_iff_getElem.mp hx
    simp only [List.getElem_zipWith]
    have hi' : i < p.length ∧ i < g.length := by simpa using hi
    exact mul_nonneg (hp _ (List.getElem_mem _)) (hg0 _ (List.getElem_mem _))
  have hwl : w.length = r.length := by rw [hw]; simp; omega
  have hcl : (cumsum w).length = r.length := by simp [cumsum, hwl]
  have hlast : (cumsum w).getD ((cumsum w).length - 1) 0 = w.sum := by
    rw [hcl, List.getD_eq_getElem _ _ (by omega), cumsum_getElem, List.take_of_length_le (by omega)]
  rw [hlast]
  have hmono : ∀ i j (hij : i ≤ j), (w.take i).sum ≤ (w.take j).sum := by
    intro i j hij
    have : w.take j = w.take i ++ (w.take j).drop i := by
      have h1 : w.take i = (w.take j).take i := by rw [List.take_take, min_eq_left hij]
      rw [h1, List.take_append_drop]
    rw [this, List.sum_append]
    have : 0 ≤ ((w.take j).drop i).sum :=
      List.sum_nonneg fun x hx => hw0 x (List.mem_of_mem_take (List.mem_of_mem_drop hx))
    linarith
  refine ⟨by simp [hcl], ?_, ?_, ?_⟩
  · intro x hx
    obtain ⟨y, hy, rfl⟩ := List.mem_map.mp hx
    obtain ⟨k, hk, rfl⟩ := List.mem_iff_getElem.mp hy
    rw [cumsum_getElem]
    have h1 : 0 ≤ (w.take (k + 1)).sum := List.sum_nonneg fun x hx => hw0 x (List.mem_of_mem_take hx)
    have h3 := hmono (k + 1) w.length (by omega)
    rw [List.take_length] at h3
    exact ⟨by positivity, by rw [div_le_one hgs]; exact h3⟩
  · rw [List.pairwise_map, List.pairwise_iff_getElem]
    intro i j hi hj hij
    rw [cumsum_getElem, cumsum_getElem]
    exact div_le_div_of_nonneg_right (hmono _ _ (by omega)) hgs.le
  · rw [List.getLast?_map, List.getLast?_eq_getElem?, hcl, List.getElem?_eq_getElem (by omega), cumsum_getElem]
    simp only [Option.map_some, Option.some.injEq]
    rw [List.take_of_length_le (by omega), div_self hgs.ne']

/-- **C226.** Without supersampling the curve of energy has one value per ring but the outermost; `maxradius` shortens
the radii and the profile, not this curve: the lengths agree exactly when nothing is cut. -/
theorem ee_lengths_partial (R : Routines) (hR : R.Valid) (im : Img ℝ) (a : Args) (hbs : 0 < a.bs) {rr p e : List ℝ}
    (hsup : a.supersamp = none) (h : radialProfile R im a = .ok (.three rr p e)) :
    e.length + 1 = (rings R.round (kept a.paRange (a.px im))).length ∧ rr.length = p.length ∧
      (p.length = e.length ↔ ∀ k < e.length, ∀ m ∈ a.maxR, (rMin (a.px im) + (k : ℝ)) * a.bs < m) ∧
      (∀ e', encircled R.round (a.sorted R im) = some e' → e = e') := by
  have hs : superFlag a = .ok none := by unfold superFlag; rw [hsup]
  unfold radialProfile at h
  rw [hs] at h
  simp only [bind, Except.bind] at h
  cases hd : discrete R.round (a.sorted R im) with
  | error e => rw [hd] at h; simp at h
  | ok p0 =>
    rw [hd] at h
    simp only [finish] at h
    obtain ⟨n, hn, hcrop, hk⟩ := crop_spec a.maxR (rMin (a.px im)) a.bs hbs p0
    rw [hcrop] at h
    have hrp : rr = radii (rMin (a.px im)) a.bs n ∧ p = p0.take n ∧
        e = ((rind R.round (a.sorted R im)).map (csim (a.sorted R im))).map
          (· / maxL ((rind R.round (a.sorted R im)).map (csim (a.sorted R im)))) := by
      split_ifs at h <;> simp_all
    obtain ⟨rfl, rfl, rfl⟩ := hrp
    obtain ⟨hl, -⟩ := discrete_rings R hR im a hd
    obtain ⟨hl2, -⟩ := discrete_mean (bin := R.round) (s := a.sorted R im) hR.mono (hR.sorted _) hd
    have hlen : (p0.take n).length = n := by rw [List.length_take]; omega
    refine ⟨by simp; omega, by rw [hlen]; simp [radii], ?_, ?_⟩
    · simp only [List.length_map, hlen, ← hl2]
      constructor
      · rintro rfl k hk' 
        exact (hk k hk').mp hk'
      · intro hall
        by_contra hne
        have := (hk n (by omega)).mpr (hall n (by omega))
        omega
    · intro e' he'
      unfold encircled at he'
      simp only at he'
      split_ifs at he' with hz
      exact Option.some.inj he'

/-! ### Standard deviation -/

/-- **C227.** With `stddev` every ring but the first holds the pixels within half a bin of its radius; the first one holds
those whose distance is below `(rr[0] + binsize/2) * binsize`, the right limit only if the bin is one unit long. -/
theorem std_rings_partial (px : List Pixel) (bs : ℝ) (hb : 0 < bs) (i : ℕ) (radius : ℝ) :
    stdRing px bs i radius = (px.filter fun p => if i = 0 then decide (p.r * bs < (radius + bs / 2) * bs)
      else decide (radius - bs / 2 ≤ p.r * bs ∧ p.r * bs < radius + bs / 2)).map Pixel.v := by
  classical
  unfold stdRing
  congr 1
  apply List.filter_congr
  intro p _
  by_cases hi : i = 0
  · simp only [hi, if_true]
    congr 1
    rw [mul_lt_mul_iff_left₀ hb]
  · simp only [hi, if_false]

theorem sum_centred (l : List ℝ) (m : ℝ) :
    (l.map fun x => (x - m) ^ 2).sum = (l.map fun x => x ^ 2).sum - 2 * m * l.sum + l.length * m ^ 2 := by
  induction l with
  | nil => simp
  | cons a t ih =>
    simp only [List.map_cons, List.sum_cons, List.length_cons, ih]
    push_cast
    ring

/-- **C227.** The value of a ring with pixels is a standard deviation: its square is the mean of the squares minus the
square of the mean, and adding a constant to the pixels leaves it unchanged; an empty ring has none. -/
theorem std_spec (l : List ℝ) :
    (std l = none ↔ l = []) ∧ (∀ c, std (l.map fun x => x + c) = std l) ∧
    ∀ s, std l = some s → 0 ≤ s ∧ s ^ 2 = (l.map fun x => x ^ 2).sum / l.length - (l.sum / l.length) ^ 2 := by
  refine ⟨by unfold std; split_ifs with h <;> simp [h], fun c => ?_, fun s hs => ?_⟩
  · unfold std
    by_cases h : l = []
    · simp [h]
    · have hl : (l.length : ℝ) ≠ 0 := Nat.cast_ne_zero.2 (by simpa using h)
      have hsum : (l.map fun x => x + c).sum = l.sum + l.length * c := by
        clear h hl
        induction l with
        | nil => simp
        | cons a t ih => simp only [List.map_cons, List.sum_cons, List.length_cons, ih]; push_cast; ring
      rw [if_neg (by simpa using h), if_neg h]
      simp only [List.length_map, hsum, List.map_map]
      congr 4
      refine List.map_congr_left fun x _ => ?_
      simp only [Function.comp_apply]
      congr 1
      field_simp
      ring
  · unfold std at hs
    split_ifs at hs with h
    have hl : (l.length : ℝ) ≠ 0 := Nat.cast_ne_zero.2 (by simpa using h)
    simp only [Option.some.injEq] at hs
    subst hs
    refine ⟨Real.sqrt_nonneg _, ?_⟩
    rw [Real.sq_sqrt]
    · rw [sum_centred]
      field_simp
      ring
    · refine div_nonneg (List.sum_nonneg ?_) (Nat.cast_nonneg _)
      intro x hx
      obtain ⟨y, -, rfl⟩ := List.mem_map.1 hx
      positivity

/-- **C227 is false of the code.** With pixels of ten units, the first ring of a `3 x 3` image, centred on its middle
pixel, holds all nine pixels, although all but one are at ten units or more and the ring has a radius of five. -/
theorem std_first_ring_wrong (R : Routines) (hR : R.Valid) (f : ℕ → ℕ → ℝ) :
    ∃ rr s, radialProfile R (im3 f) { ps := 10, stddev := true } = .ok (.std rr s) ∧ rr[0]? = some 0 ∧
      s[0]? = some (std [f 0 0, f 0 1, f 0 2, f 1 0, f 1 1, f 1 2, f 2 0, f 2 1, f 2 2]) := by
  set a : Args := { ps := 10, stddev := true } with ha
  have hbs : a.bs = 10 := rfl
  have hps : a.ps = 10 := rfl
  have hs : superFlag a = .ok none := rfl
  have hmem : ∀ z : ℤ, z ∈ (a.px (im3 f)).map (fun p => R.round p.r) → z ∈ rings R.round (a.px (im3 f)) := by
    intro z hz; unfold rings; rw [Finset.mem_sort, List.mem_toFinset]; exact hz
  have e1 : R.round (a.ps / a.bs) = 1 := by
    rw [hbs, hps]
    have : (10 : ℝ) / 10 = ((1 : ℤ) : ℝ) := by norm_num
    rw [this, round_int R hR]
  have hmap := rings3 R hR f a rfl 1 _ e1 rfl
  have hlen : 2 ≤ (rings R.round (kept a.paRange (a.px (im3 f)))).length := by
    show 2 ≤ (rings R.round (a.px (im3 f))).length
    have m0 := hmem 0 (by rw [hmap]; simp)
    have m1 := hmem 1 (by rw [hmap]; simp)
    rcases hL : rings R.round (a.px (im3 f)) with _ | ⟨x, _ | ⟨y, l⟩⟩
    · rw [hL] at m0; simp at m0
    · rw [hL] at m0 m1; simp at m0 m1; omega
    · simp
  have hne := (discrete_error R hR (im3 f) a).not.mpr (by omega)
  have hmin : rMin (a.px (im3 f)) = 0 := by
    rw [rMin_eq (centre_default (im3 f) a rfl rfl (by simp [im3])) (by rw [hps]; norm_num) (by rw [hbs]; norm_num)]
    unfold rad0 rad; simp [im3]
  unfold radialProfile
  rw [hs]
  simp only [bind, Except.bind]
  cases hd : discrete R.round (a.sorted R (im3 f)) with
  | error e =>
    exfalso
    cases e with
    | indexError => exact hne hd
    | valueError =>
      unfold discrete at hd
      split at hd <;> simp at hd
  | ok p0 =>
    obtain ⟨hl, -⟩ := discrete_rings R hR (im3 f) a hd
    have hstd : a.stddev = true := rfl
    have hmr : a.maxR = none := rfl
    simp only [finish, hstd, if_true, hmr, crop, hmin]
    refine ⟨_, _, rfl, ?_, ?_⟩
    · have : 0 < p0.length := by omega
      simp [radii, this]
    · have hpos : 0 < p0.length := by omega
      unfold stddevs
      rw [List.getElem?_mapIdx]
      have : (radii 0 a.bs p0.length)[0]? = some 0 := by simp [radii, hpos]
      rw [this]
      simp only [Option.map_some, Option.some.injEq]
      congr 1
      have hsq := sqrt2_bounds
      unfold stdRing
      rw [List.filter_eq_self.mpr]
      · rw [px3 f a rfl]; simp [pixel, im3]
      · intro p hp
        obtain ⟨c, e, z⟩ := r3 f a.ps a.bs
        simp only [if_true, decide_eq_true_eq, hbs]
        rw [px3 f a rfl] at hp
        have c' : Real.sqrt 2 * a.ps / a.bs < 0 + 10 / 2 := by rw [hps, hbs]; linarith
        have e' : a.ps / a.bs < 0 + 10 / 2 := by rw [hps, hbs]; norm_num
        simp only [List.mem_cons, List.not_mem_nil, or_false] at hp
        rcases hp with rfl | rfl | rfl | rfl | rfl | rfl | rfl | rfl | rfl
        · rw [c 0 0 (by simp) (by simp)]; exact c'
        · rw [e 0 1 (by simp)]; exact e'
        · rw [c 0 2 (by simp) (by simp)]; exact c'
        · rw [e 1 0 (by simp)]; exact e'
        · rw [z]; norm_num
        · rw [e 1 2 (by simp)]; exact e'
        · rw [c 2 0 (by simp) (by simp)]; exact c'
        · rw [e 2 1 (by simp)]; exact e'
        · rw [c 2 2 (by simp) (by simp)]; exact c'

/-! ### Position angles -/

/-- **C228.** A range of position angles from -180 to 180 degrees selects the whole image. -/
theorem full_range (R : Routines) (im : Img ℝ) (a : Args) (h : a.paRange = some (-180, 180)) :
    radialProfile R im a = radialProfile R im { a with paRange := none } := by
  have hpx : Args.px { a with paRange := none } im = a.px im := rfl
  have hk : kept a.paRange (a.px im) = a.px im := by
    rw [h]
    unfold kept
    simp only
    rw [List.filter_eq_self]
    intro p hp
    obtain ⟨i, hi, j, hj, rfl⟩ := px_value im a hp
    apply decide_eq_true
    simp only [pixel]
    have hpi := Real.pi_pos
    have h1 := Complex.neg_pi_lt_arg ⟨(i : ℝ) - (centreOf im a.centre).2, -((j : ℝ) - (centreOf im a.centre).1)⟩
    have h2 := Complex.arg_le_pi ⟨(i : ℝ) - (centreOf im a.centre).2, -((j : ℝ) - (centreOf im a.centre).1)⟩
    constructor
    · rw [le_div_iff₀ hpi]; linarith
    · rw [div_le_iff₀ hpi]; linarith
  have hs : a.sorted R im = Args.sorted R { a with paRange := none } im := by
    unfold Args.sorted
    rw [hk, hpx]
    rfl
  unfold radialProfile finish
  rw [hs]
  rfl

/-- **C228.** With a range of position angles, the rings hold the pixels of the range only: the value of a ring does not
change if the image changes outside of it. -/
theorem range_local (R : Routines) (im im' : Img ℝ) (a : Args) (lo hi : ℝ) (h : a.paRange = some (lo, hi))
    (hx : im'.nx = im.nx) (hy : im'.ny = im.ny)
    (hsame : ∀ i < im.nx, ∀ j < im.ny, lo ≤ (pixel im (centreOf im a.centre) a.ps a.bs i j).pa →
      (pixel im (centreOf im a.centre) a.ps a.bs i j).pa ≤ hi → im'.px i j = im.px i j) :
    a.sorted R im' = a.sorted R im := by
  unfold Args.sorted
  congr 2
  rw [h]
  unfold kept Args.px pixels
  simp only
  have hc : centreOf im' a.centre = centreOf im a.centre := by
    unfold centreOf; rw [hx, hy]
  rw [hc, hx, hy, List.filter_flatMap, List.filter_flatMap]
  apply List.flatMap_congr
  intro i hi'
  rw [List.mem_range] at hi'
  rw [List.filter_map, List.filter_map]
  have e : (List.range im.ny).filter ((fun p : Pixel => decide (lo ≤ p.pa ∧ p.pa ≤ hi)) ∘
        fun j => pixel im' (centreOf im a.centre) a.ps a.bs i j) =
      (List.range im.ny).filter ((fun p : Pixel => decide (lo ≤ p.pa ∧ p.pa ≤ hi)) ∘
        fun j => pixel im (centreOf im a.centre) a.ps a.bs i j) := rfl
  rw [e]
  apply List.map_congr_left
  intro j hj
  rw [List.mem_filter, List.mem_range] at hj
  have := hj.2
  simp only [Function.comp, decide_eq_true_eq] at this
  have hv := hsame i hi' j hj.1 this.1 this.2
  unfold pixel
  rw [hv]

theorem px_radii (im im' : Img ℝ) (a : Args) (hx : im'.nx = im.nx) (hy : im'.ny = im.ny) :
    rMin (a.px im') = rMin (a.px im) := by
  unfold rMin Args.px pixels
  have hc : centreOf im' a.centre = centreOf im a.centre := by unfold centreOf; rw [hx, hy]
  rw [hc, hx, hy, List.map_flatMap, List.map_flatMap]
  congr 1
  apply List.flatMap_congr
  intro i _
  rw [List.map_map, List.map_map]
  rfl

/-- **C228.** With a range of position angles, the result does not depend on the image outside of it (without the option
`stddev`). -/
theorem range_only (R : Routines) (im im' : Img ℝ) (a : Args) (lo hi : ℝ) (h : a.paRange = some (lo, hi))
    (hx : im'.nx = im.nx) (hy : im'.ny = im.ny) (hst : a.stddev = false) (hsup : a.supersamp = none)
    (hsame : ∀ i < im.nx, ∀ j < im.ny, lo ≤ (pixel im (centreOf im a.centre) a.ps a.bs i j).pa →
      (pixel im (centreOf im a.centre) a.ps a.bs i j).pa ≤ hi → im'.px i j = im.px i j) :
    radialProfile R im' a = radialProfile R im a := by
  have hs : superFlag a = .ok none := by unfold superFlag; rw [hsup]
  have e := range_local R im im' a lo hi h hx hy hsame
  have e2 := px_radii im im' a hx hy
  unfold radialProfile finish
  rw [hs, e, e2]
  simp [hst, bind, Except.bind]

/-- **C272 is false of the code with `stddev`.** The standard deviation of a ring is that of the whole ring, whatever the
range of position angles. -/
theorem std_ignores_range (R : Routines) (im : Img ℝ) (a : Args) (range : Option (ℝ × ℝ)) {rr rr' : List ℝ}
    {s s' : List (Option ℝ)} (hbs : 0 < a.bs)
    (hsup : a.supersamp = none) (h : radialProfile R im a = .ok (.std rr s))
    (h' : radialProfile R im { a with paRange := range } = .ok (.std rr' s')) :
    ∀ k (hk : k < s.length) (hk' : k < s'.length), s[k] = s'[k] := by
  have key : ∀ (a : Args) (rr : List ℝ) (s : List (Option ℝ)), 0 < a.bs → a.supersamp = none →
      radialProfile R im a = .ok (.std rr s) →
      ∃ n, s = stddevs (a.px im) a.bs (radii (rMin (a.px im)) a.bs n) := by
    intro a rr s hb hsup h
    have hs : superFlag a = .ok none := by unfold superFlag; rw [hsup]
    unfold radialProfile at h
    rw [hs] at h
    simp only [bind, Except.bind] at h
    cases hd : discrete R.round (a.sorted R im) with
    | error e => rw [hd] at h; simp at h
    | ok p0 =>
      rw [hd] at h
      simp only [finish] at h
      obtain ⟨n, hn, hcrop, hk⟩ := crop_spec a.maxR (rMin (a.px im)) a.bs hb p0
      rw [hcrop] at h
      refine ⟨n, ?_⟩
      split_ifs at h
      · simp only [Except.ok.injEq, Out.std.injEq] at h
        exact h.2.symm
      all_goals simp at h
  obtain ⟨n, e⟩ := key a rr s hbs hsup h
  obtain ⟨n', e'⟩ := key { a with paRange := range } rr' s' hbs hsup h'
  have e'' : s' = stddevs (a.px im) a.bs (radii (rMin (a.px im)) a.bs n') := e'
  intro k hk hk'
  subst e e''
  simp [stddevs, radii]
/-! ### Cases that meet the hypotheses -/

/-- A case meeting the hypotheses of `profile_bounds`. -/
example : ∃ rr p, radialProfile sample (im3 fun i j => i + j) { ps := 1, binsize := none, maxR := some 5 } = .ok (.two rr p) ∧ ∀ x ∈ p, 0 ≤ x ∧ x ≤ 4 := by
  obtain ⟨rr, p, h⟩ := default_bins_radius sample sample_valid fun i j => (i : ℝ) + j
  refine ⟨rr, p, h, profile_bounds sample sample_valid _ _ (by norm_num [Args.bs]) rfl h ?_⟩
  intro i hi j hj
  have h1 : (i : ℝ) ≤ 2 := by exact_mod_cast Nat.lt_succ_iff.1 hi
  have h2 : (j : ℝ) ≤ 2 := by exact_mod_cast Nat.lt_succ_iff.1 hj
  exact ⟨by simp only [im3]; positivity, by simp only [im3]; linarith⟩

/-- A case meeting the hypotheses of `radius_of_ring`. -/
example : ∃ rr p, radialProfile sample (im3 fun i j => i + j) { ps := 1, binsize := none, maxR := some 5 } = .ok (.two rr p) ∧
    ∀ k (_ : k < p.length) (hk' : k < (rings sample.round (({ ps := 1, binsize := none, maxR := some 5 } : Args).px (im3 fun i j => i + j))).length)
      (hk'' : k < rr.length), ∀ q ∈ ({ ps := 1, binsize := none, maxR := some 5 } : Args).px (im3 fun i j => i + j),
      sample.round q.r = (rings sample.round (({ ps := 1, binsize := none, maxR := some 5 } : Args).px (im3 fun i j => i + j)))[k] → |q.r * 1 - rr[k]| ≤ 1 := by
  obtain ⟨rr, p, h⟩ := default_bins_radius sample sample_valid fun i j => (i : ℝ) + j
  refine ⟨rr, p, h, fun k hk hk' hk'' q hq hr => ?_⟩
  exact (radius_of_ring sample sample_valid (im := im3 fun i j => i + j) (a := { ps := 1, binsize := none, maxR := some 5 }) (cx2 := 2) (cy2 := 2)
    ⟨by norm_num [centreOf, im3], by norm_num [centreOf, im3], by norm_num, by norm_num, by norm_num [im3], by norm_num [im3], rfl⟩ (by norm_num)
    (by norm_num [Args.bs]) rfl rfl h k hk hk' hk'' q hq hr).1

/-- A case meeting the hypotheses of `super1d_spec`. -/
example : ∃ r p, radialProfile sample (im3 fun i j => i + j) { ps := 1, binsize := some (1 / 2), supersamp := some [1 / 4, 1] } = .ok (.two r p) ∧
    r.length = p.length := by
  obtain ⟨rr, p, h, hr, _⟩ := small_bins_wrong_radius sample sample_valid fun i j => (i : ℝ) + j
  obtain ⟨r, p, h1, h2, _⟩ := super1d_spec sample sample_interpolates (im3 fun i j => i + j)
    { ps := 1, binsize := some (1 / 2), supersamp := some [1 / 4, 1] } (by norm_num [Args.bs]) (1 / 4) (by norm_num) (by decide) rfl rfl rfl h
    (by rw [hr]; simp)
  exact ⟨r, p, h1, h2⟩

/-- A case meeting the hypotheses of `superEe_spec_partial`. -/
example : ∃ e, superEe [0, 1, 2] [4, 2, 1] = .ok e ∧ e.getLast? = some 1 := by
  have hg : gradient [0, 1, 2] = .ok [1, 1, 1] := by
    unfold gradient; rw [if_neg (by simp)]; norm_num [List.range_succ]
  have h : superEe [0, 1, 2] [4, 2, 1] = .ok ((cumsum (List.zipWith (· * ·) [4, 2, 1] [1, 1, 1])).map
      (· / (cumsum (List.zipWith (· * ·) [4, 2, 1] [1, 1, 1])).getD ((cumsum (List.zipWith (· * ·) [4, 2, 1] [1, 1, 1])).length - 1) 0)) := by
    unfold superEe; rw [hg]; rfl
  exact ⟨_, h, (superEe_spec_partial (by norm_num) (by norm_num) h ⟨_, hg, by norm_num⟩).2.2.2⟩

/-- A case meeting the hypotheses of `range_only`. -/
example : radialProfile sample (im3 fun i j => if i = 0 then 7 else i + j) { ps := 1, paRange := some (-80, 80) } =
    radialProfile sample (im3 fun i j => i + j) { ps := 1, paRange := some (-80, 80) } := by
  refine range_only sample _ _ _ (-80) 80 rfl rfl rfl rfl rfl ?_
  intro i hi j hj h1 h2
  simp only [im3]
  rw [if_neg]
  rintro rfl
  have hc : centreOf (im3 fun i j => (i : ℝ) + j) none = (1, 1) := by norm_num [centreOf, im3]
  rw [hc] at h1 h2
  simp only [pixel] at h1 h2
  have hpi := Real.pi_pos
  have harg : Real.pi / 2 < |Complex.arg ⟨((0 : ℕ) : ℝ) - 1, -((j : ℝ) - 1)⟩| := by
    rw [← not_le, Complex.abs_arg_le_pi_div_two_iff]; norm_num
  rw [le_div_iff₀ hpi] at h1
  rw [div_le_iff₀ hpi] at h2
  have h1' : (-80 : ℝ) * Real.pi ≤ Complex.arg ⟨((0 : ℕ) : ℝ) - 1, -((j : ℝ) - 1)⟩ * 180 := h1
  have h2' : Complex.arg ⟨((0 : ℕ) : ℝ) - 1, -((j : ℝ) - 1)⟩ * 180 ≤ 80 * Real.pi := h2
  generalize Complex.arg ⟨((0 : ℕ) : ℝ) - 1, -((j : ℝ) - 1)⟩ = t at harg h1' h2'
  rcases lt_abs.1 harg with e | e <;> linarith

/-! ### Cases that meet the hypotheses -/

/-- A case meeting the hypotheses of `superEe_uniform`. -/
example : superEe ((List.range 3).map fun k : ℕ => 1 + (k : ℝ) * 2) [5, 5, 5] = .ok ((List.range 3).map fun k : ℕ => ((k : ℝ) + 1) / (3 : ℕ)) :=
  superEe_uniform 1 2 5 (by norm_num) (by norm_num) 3 (by norm_num)

/-- A case meeting the hypotheses of `centre_default`. -/
example : CentreOk (im3 fun i j => i + j) { ps := 1 } (3 - 1) (3 - 1) :=
  centre_default _ _ rfl rfl (by simp [im3])

end P3.Profile
