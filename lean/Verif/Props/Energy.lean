import Verif.Props.Images
import Mathlib.Data.List.Sort
/-
Properties C30 (encircled energy) and C31 (ensquared energy).
-/
namespace P3.Images
open Finset

/-! ### C30: encircled energy -/

theorem getD_eq {α : Type} {l : List α} {i : ℕ} {d : α} (h : i < l.length) : l.getD i d = l[i] := by
  rw [List.getD_eq_getElem?_getD, List.getElem?_eq_getElem h, Option.getD_some]

/-- Specification: flux of the pixels whose radius bin is at most `b`. -/
noncomputable def within (bin : ℝ → ℤ) (px : List (ℝ × ℝ)) (b : ℤ) : ℝ :=
  ((px.filter (fun p => decide (bin p.1 ≤ b))).map Prod.snd).sum

theorem within_mono (bin : ℝ → ℤ) (px : List (ℝ × ℝ)) (hv : ∀ p ∈ px, 0 ≤ p.2) {b c : ℤ} (h : b ≤ c) :
    within bin px b ≤ within bin px c := by
  unfold within
  induction px with
  | nil => simp
  | cons p px ih =>
    have ih' := ih fun q hq => hv q (by simp [hq])
    have hp := hv p (by simp)
    by_cases h1 : bin p.1 ≤ b
    · have h2 : bin p.1 ≤ c := h1.trans h
      simp only [List.filter_cons, h1, h2, decide_true, if_true, List.map_cons, List.sum_cons]
      linarith
    · by_cases h2 : bin p.1 ≤ c
      · simp only [List.filter_cons, h1, h2, decide_true, decide_false, if_true, List.map_cons, List.sum_cons]
        simp only [Bool.false_eq_true, if_false]
        linarith
      · simp only [List.filter_cons, h1, h2, decide_false, Bool.false_eq_true, if_false]
        exact ih'

theorem within_nonneg (bin : ℝ → ℤ) (px : List (ℝ × ℝ)) (hv : ∀ p ∈ px, 0 ≤ p.2) (b : ℤ) :
    0 ≤ within bin px b := by
  unfold within
  refine List.sum_nonneg ?_
  simp only [List.mem_map, List.mem_filter]
  rintro _ ⟨p, ⟨hp, -⟩, rfl⟩
  exact hv p hp

theorem within_perm (bin : ℝ → ℤ) {s px : List (ℝ × ℝ)} (h : s.Perm px) (b : ℤ) :
    within bin s b = within bin px b := by
  unfold within
  exact ((h.filter _).map _).sum_eq

/-- In a sorted list, a boundary between two bins separates the pixels by their bin. -/
theorem take_eq_filter (bin : ℝ → ℤ) (hb : Monotone bin) (s : List (ℝ × ℝ))
    (hs : s.Pairwise fun a b => a.1 ≤ b.1) (i : ℕ) (hi : i + 1 < s.length)
    (hne : bin (s[i + 1]).1 ≠ bin (s[i]).1) :
    s.take (i + 1) = s.filter (fun p => decide (bin p.1 ≤ bin (s[i]).1)) := by
  have h1 : (s.take (i + 1)).filter (fun p => decide (bin p.1 ≤ bin (s[i]).1)) = s.take (i + 1) := by
    rw [List.filter_eq_self]
    intro p hp
    obtain ⟨k, hk, rfl⟩ := List.getElem_of_mem hp
    rw [List.length_take] at hk
    rw [List.getElem_take, decide_eq_true_iff]
    apply hb
    rcases Nat.lt_or_ge k i with h | h
    · exact List.pairwise_iff_getElem.1 hs k i _ _ h
    · have : k = i := by omega
      subst this; exact le_rfl
  have h2 : (s.drop (i + 1)).filter (fun p => decide (bin p.1 ≤ bin (s[i]).1)) = [] := by
    rw [List.filter_eq_nil_iff]
    intro p hp
    obtain ⟨k, hk, rfl⟩ := List.getElem_of_mem hp
    rw [List.length_drop] at hk
    rw [List.getElem_drop, decide_eq_true_iff, not_le]
    have a : bin (s[i]).1 < bin (s[i + 1]).1 :=
      lt_of_le_of_ne (hb (List.pairwise_iff_getElem.1 hs i (i+1) _ _ (by omega))) (Ne.symm hne)
    refine a.trans_le (hb ?_)
    rcases Nat.eq_zero_or_pos k with rfl | h
    · exact le_rfl
    · exact List.pairwise_iff_getElem.1 hs (i+1) (i+1+k) _ _ (by omega)
  have h3 := List.filter_append (p := fun p => decide (bin p.1 ≤ bin (s[i]).1)) (s.take (i + 1)) (s.drop (i + 1))
  rw [List.take_append_drop, h1, h2, List.append_nil] at h3
  exact h3.symm

theorem mem_rind (bin : ℝ → ℤ) (s : List (ℝ × ℝ)) (i : ℕ) :
    i ∈ rind bin s ↔ ∃ h : i + 1 < s.length, bin (s[i + 1]).1 ≠ bin (s[i]).1 := by
  unfold rind
  rw [List.mem_filter, List.mem_range, decide_eq_true_iff]
  constructor
  · rintro ⟨h, hne⟩
    refine ⟨by omega, ?_⟩
    rw [getD_eq (by omega), getD_eq (by omega)] at hne
    exact hne
  · rintro ⟨h, hne⟩
    refine ⟨by omega, ?_⟩
    rw [getD_eq (by omega), getD_eq (by omega)]
    exact hne

theorem rind_sorted (bin : ℝ → ℤ) (s : List (ℝ × ℝ)) : (rind bin s).Pairwise (· < ·) :=
  List.pairwise_lt_range.filter _

/-- The bins whose boundary is inside the image: all the bins but the last one. -/
noncomputable def bins (bin : ℝ → ℤ) (s : List (ℝ × ℝ)) : List ℤ :=
  (rind bin s).map fun i => bin (s.getD i (0, 0)).1

theorem bins_sorted (bin : ℝ → ℤ) (hb : Monotone bin) (s : List (ℝ × ℝ))
    (hs : s.Pairwise fun a b => a.1 ≤ b.1) : (bins bin s).Pairwise (· < ·) := by
  unfold bins
  rw [List.pairwise_map]
  refine List.Pairwise.imp_of_mem ?_ (rind_sorted bin s)
  intro i j hi hj hij
  obtain ⟨h1, hne⟩ := (mem_rind bin s i).1 hi
  obtain ⟨h2, -⟩ := (mem_rind bin s j).1 hj
  rw [getD_eq (by omega), getD_eq (by omega)]
  have a : bin (s[i]).1 < bin (s[i + 1]).1 :=
      lt_of_le_of_ne (hb (List.pairwise_iff_getElem.1 hs i (i+1) _ _ (by omega))) (Ne.symm hne)
  refine a.trans_le (hb ?_)
  rcases Nat.lt_or_ge (i + 1) j with h | h
  · exact List.pairwise_iff_getElem.1 hs (i+1) j _ _ h
  · have : j = i + 1 := by omega
    subst this; exact le_rfl

theorem csim_eq_within (bin : ℝ → ℤ) (hb : Monotone bin) (s : List (ℝ × ℝ))
    (hs : s.Pairwise fun a b => a.1 ≤ b.1) (i : ℕ) (hi : i ∈ rind bin s) :
    csim s i = within bin s (bin (s.getD i (0, 0)).1) := by
  obtain ⟨h, hne⟩ := (mem_rind bin s i).1 hi
  rw [getD_eq (by omega)]
  unfold csim within
  rw [take_eq_filter bin hb s hs i h hne]

/-- The bins found are exactly the bins of the image except the outermost one. -/
theorem mem_bins (bin : ℝ → ℤ) (hb : Monotone bin) (s : List (ℝ × ℝ))
    (hs : s.Pairwise fun a b => a.1 ≤ b.1) (b : ℤ) :
    b ∈ bins bin s ↔ (∃ p ∈ s, bin p.1 = b) ∧ ∃ p ∈ s, b < bin p.1 := by
  unfold bins
  rw [List.mem_map]
  constructor
  · rintro ⟨i, hi, rfl⟩
    obtain ⟨h, hne⟩ := (mem_rind bin s i).1 hi
    rw [getD_eq (by omega)]
    refine ⟨⟨s[i], List.getElem_mem _, rfl⟩, s[i + 1], List.getElem_mem _, ?_⟩
    exact lt_of_le_of_ne (hb (List.pairwise_iff_getElem.1 hs i (i+1) _ _ (by omega))) (Ne.symm hne)
  · rintro ⟨⟨p, hp, rfl⟩, q, hq, hlt⟩
    obtain ⟨k, hk, rfl⟩ := List.getElem_of_mem hp
    obtain ⟨m, hm, rfl⟩ := List.getElem_of_mem hq
    -- the last index of the bin of `s[k]`
    have hex : ∃ i, ∃ h : i + 1 < s.length, bin (s[i]).1 = bin (s[k]).1 ∧ bin (s[i + 1]).1 ≠ bin (s[k]).1 := by
      by_contra hno
      push Not at hno
      have : ∀ i (h : k + i < s.length), bin (s[k + i]).1 = bin (s[k]).1 := by
        intro i
        induction i with
        | zero => intro h; rfl
        | succ i ih => intro h; exact hno (k + i) (by omega) (ih (by omega))
      have hkm : k < m := by
        by_contra hle
        have : bin (s[m]).1 ≤ bin (s[k]).1 := by
          apply hb
          rcases Nat.lt_or_ge m k with h | h
          · exact List.pairwise_iff_getElem.1 hs m k _ _ h
          · have : m = k := by omega
            subst this; exact le_rfl
        omega
      have e := this (m - k) (by omega)
      have : k + (m - k) = m := by omega
      simp only [this] at e
      omega
    obtain ⟨i, h, e1, e2⟩ := hex
    refine ⟨i, (mem_rind bin s i).2 ⟨h, by rw [e1]; exact e2⟩, ?_⟩
    rw [getD_eq (by omega), e1]

theorem maxL_of_sorted (l : List ℝ) (h : l.Pairwise (· ≤ ·)) (hne : l ≠ []) :
    maxL l = l.getLast hne := by
  apply le_antisymm
  · have hm := maxL_mem l hne
    obtain ⟨k, hk, e⟩ := List.getElem_of_mem hm
    rw [← e, List.getLast_eq_getElem]
    rcases Nat.lt_or_ge k (l.length - 1) with h' | h'
    · exact List.pairwise_iff_getElem.1 h k _ _ _ h'
    · have : k = l.length - 1 := by omega
      subst this; exact le_rfl
  · exact le_maxL l _ (List.getLast_mem hne)

/-- C30: for a non-negative image the encircled-energy curve is non-decreasing, lies in [0,1] and ends at
one; there is one value per radius bin except the outermost, in increasing order of radius, and each is
the flux within that bin divided by the flux within the last of them.  `s` is the image sorted by radius,
in any order that sorts the radii. -/
theorem encircled_spec (bin : ℝ → ℤ) (hb : Monotone bin) (px s : List (ℝ × ℝ)) (hp : s.Perm px)
    (hs : s.Pairwise fun a b => a.1 ≤ b.1) (hv : ∀ p ∈ px, 0 ≤ p.2) (e : List ℝ)
    (h : encircled bin s = some e) :
    e.Pairwise (· ≤ ·) ∧ (∀ x ∈ e, 0 ≤ x ∧ x ≤ 1) ∧ e.getLast? = some 1 ∧
    ∃ bs : List ℤ, bs.Pairwise (· < ·) ∧
      (∀ b, b ∈ bs ↔ (∃ p ∈ px, bin p.1 = b) ∧ ∃ p ∈ px, b < bin p.1) ∧
      ∃ last, bs.getLast? = some last ∧ e = bs.map fun b => within bin px b / within bin px last := by
  have hc : (rind bin s).map (csim s) = (bins bin s).map (within bin px) := by
    unfold bins
    rw [List.map_map]
    refine List.map_congr_left fun i hi => ?_
    rw [csim_eq_within bin hb s hs i hi, Function.comp_apply, within_perm bin hp]
  unfold encircled at h
  simp only [hc] at h
  split_ifs at h with h0
  push Not at h0
  obtain ⟨hne, hmax⟩ := h0
  have hsb := bins_sorted bin hb s hs
  have hbne : bins bin s ≠ [] := fun e => hne (by rw [e]; rfl)
  set bs := bins bin s with hbs
  have hsort : (bs.map (within bin px)).Pairwise (· ≤ ·) := by
    rw [List.pairwise_map]
    exact hsb.imp fun hlt => within_mono bin px hv hlt.le
  have hM : maxL (bs.map (within bin px)) = within bin px (bs.getLast hbne) := by
    rw [maxL_of_sorted _ hsort hne, List.getLast_map]
  have he : e = bs.map fun b => within bin px b / within bin px (bs.getLast hbne) := by
    rw [← Option.some.inj h, hM, List.map_map]; rfl
  rw [hM] at hmax
  have hpos : 0 < within bin px (bs.getLast hbne) :=
    lt_of_le_of_ne (within_nonneg bin px hv _) (Ne.symm hmax)
  have hle : ∀ b ∈ bs, b ≤ bs.getLast hbne := by
    intro b hb'
    obtain ⟨k, hk, rfl⟩ := List.getElem_of_mem hb'
    rw [List.getLast_eq_getElem]
    rcases Nat.lt_or_ge k (bs.length - 1) with h' | h'
    · exact (List.pairwise_iff_getElem.1 hsb k _ _ _ h').le
    · have : k = bs.length - 1 := by omega
      subst this; exact le_rfl
  refine ⟨?_, ?_, ?_, bs, hsb, ?_, bs.getLast hbne, List.getLast?_eq_getLast_of_ne_nil hbne, he⟩
  · rw [he, List.pairwise_map]
    exact hsb.imp fun hlt => div_le_div_of_nonneg_right (within_mono bin px hv hlt.le) hpos.le
  · rw [he]; simp only [List.mem_map]
    rintro _ ⟨b, hb', rfl⟩
    refine ⟨div_nonneg (within_nonneg bin px hv b) hpos.le, ?_⟩
    rw [div_le_one hpos]
    exact within_mono bin px hv (hle b hb')
  · rw [he, List.getLast?_map, List.getLast?_eq_getLast_of_ne_nil hbne, Option.map_some, div_self hpos.ne']
  · intro b
    rw [hbs, mem_bins bin hb s hs b]
    constructor
    · rintro ⟨⟨p, h1, h2⟩, q, h3, h4⟩
      exact ⟨⟨p, hp.mem_iff.1 h1, h2⟩, q, hp.mem_iff.1 h3, h4⟩
    · rintro ⟨⟨p, h1, h2⟩, q, h3, h4⟩
      exact ⟨⟨p, hp.mem_iff.2 h1, h2⟩, q, hp.mem_iff.2 h3, h4⟩

/-- C30 (violation of "fraction of the total flux"): the flux of the outermost bin is left out of the
total.  A bright pixel of 1 at the centre and a ring of 3 beyond: the curve is already 1 at the first
radius, though a quarter of the flux is within it. -/
theorem encircled_ignores_last_bin :
    encircled (fun r => ⌊r⌋) [(0, 1), (1, 3)] = some [1] ∧
    within (fun r => ⌊r⌋) [(0, 1), (1, 3)] 0 / within (fun r => ⌊r⌋) [(0, 1), (1, 3)] 1 = 1 / 4 := by
  constructor
  · have : rind (fun r : ℝ => ⌊r⌋) [(0, 1), (1, 3)] = [0] := by
      simp [rind, List.range_succ]
    simp [encircled, this, csim, maxL]
  · norm_num [within]

/-- Non-vacuity of `encircled_spec`: three bins. -/
example : ∃ e, encircled (fun r => ⌊r⌋) [(0, 1), (1, 3), (2, 1)] = some e ∧ e = [1/4, 1] := by
  have : rind (fun r : ℝ => ⌊r⌋) [(0, 1), (1, 3), (2, 1)] = [0, 1] := by
    simp [rind, List.range_succ]
  refine ⟨_, ?_, rfl⟩
  simp [encircled, this, csim, maxL]
  norm_num

/-! ### C31: ensquared energy -/

/-- Specification: flux of the pixels at most `n` pixels away from `(y0, x0)` along each axis. -/
noncomputable def boxFlux (im : Img ℝ) (y0 x0 n : ℕ) : ℝ :=
  ∑ i ∈ range im.nx, ∑ j ∈ range im.ny,
    if |(i:ℤ) - y0| ≤ n ∧ |(j:ℤ) - x0| ≤ n then im.px i j else 0

theorem slice_box (N y n : ℕ) (h : n ≤ y) (hy : y < N) (f : ℕ → ℝ) :
    ∑ i ∈ Ico (sliceBound N ((y : ℤ) - n)) (sliceBound N ((y : ℤ) + n + 1)), f i =
      ∑ i ∈ range N, if |(i:ℤ) - y| ≤ n then f i else 0 := by
  rw [← sum_filter]
  apply sum_congr _ fun _ _ => rfl
  ext i
  rw [mem_Ico, mem_filter, mem_range, abs_le]
  unfold sliceBound
  rw [if_neg (by omega), if_neg (by omega)]
  omega

/-- C31: for half-widths that do not reach the lower edges of the image, each value of the curve is
the fraction of the flux within the box around the peak (clipped at the upper edges).  Missing: larger
half-widths, where Python's negative slice bounds wrap around, see `ensquared_wraps`. -/
theorem ensquared_box (im : Img ℝ) (y0 x0 n : ℕ) (hy : y0 < im.nx) (hx : x0 < im.ny)
    (h1 : n ≤ y0) (h2 : n ≤ x0) :
    boxSum im y0 x0 n = boxFlux im y0 x0 n := by
  unfold boxSum boxFlux
  rw [slice_box im.nx y0 n h1 hy]
  refine sum_congr rfl fun i _ => ?_
  rw [slice_box im.ny x0 n h2 hx]
  by_cases hi : |(i:ℤ) - y0| ≤ n
  · simp [hi]
  · simp [hi]

/-- C31: over these half-widths the curve of a non-negative image with some flux is non-decreasing
and lies in [0,1]. -/
theorem ensquared_mono (im : Img ℝ) (y0 x0 m n : ℕ) (hy : y0 < im.nx) (hx : x0 < im.ny)
    (hmn : m ≤ n) (h1 : n ≤ y0) (h2 : n ≤ x0) (hv : ∀ i < im.nx, ∀ j < im.ny, 0 ≤ im.px i j)
    (hf : flux im ≠ 0) (e : List ℝ) (he : ensquared im y0 x0 = some e)
    (hn : n < e.length) :
    0 ≤ e.getD m 0 ∧ e.getD m 0 ≤ e.getD n 0 ∧ e.getD n 0 ≤ 1 ∧
      e.getD n 0 = boxFlux im y0 x0 n / flux im := by
  unfold ensquared at he
  rw [if_neg hf] at he
  have he' := (Option.some.inj he).symm
  have get : ∀ k ≤ n, e.getD k 0 = boxFlux im y0 x0 k / flux im := by
    intro k hk
    rw [getD_eq (by omega), List.getElem_of_eq he', List.getElem_map, List.getElem_range,
      ensquared_box im y0 x0 k hy hx (by omega) (by omega)]
  have fpos : 0 < flux im := by
    refine lt_of_le_of_ne (sum_nonneg fun i hi => sum_nonneg fun j hj => ?_) (Ne.symm hf)
    exact hv i (mem_range.1 hi) j (mem_range.1 hj)
  have nn : ∀ k, 0 ≤ boxFlux im y0 x0 k := by
    intro k
    refine sum_nonneg fun i hi => sum_nonneg fun j hj => ?_
    split_ifs
    · exact hv i (mem_range.1 hi) j (mem_range.1 hj)
    · exact le_rfl
  have mono : boxFlux im y0 x0 m ≤ boxFlux im y0 x0 n := by
    refine sum_le_sum fun i hi => sum_le_sum fun j hj => ?_
    have := hv i (mem_range.1 hi) j (mem_range.1 hj)
    split_ifs <;> first | exact le_rfl | exact this | omega
  have top : boxFlux im y0 x0 n ≤ flux im := by
    refine sum_le_sum fun i hi => sum_le_sum fun j hj => ?_
    have := hv i (mem_range.1 hi) j (mem_range.1 hj)
    split_ifs
    · exact le_rfl
    · exact this
  rw [get m hmn, get n le_rfl]
  exact ⟨div_nonneg (nn m) fpos.le, div_le_div_of_nonneg_right mono fpos.le, by rwa [div_le_one fpos], rfl⟩

/-- C281 (violation): a half-width that goes over the lower edge, but not yet half the size, gives an empty
box: the energy drops to zero. -/
theorem ensquared_wraps (im : Img ℝ) (y0 x0 n : ℕ) (h : y0 < n) (h2 : 2 * n + 1 ≤ im.nx) :
    boxSum im y0 x0 n = 0 := by
  unfold boxSum
  have : Ico (sliceBound im.nx ((y0 : ℤ) - n)) (sliceBound im.nx ((y0 : ℤ) + n + 1)) = ∅ := by
    rw [Ico_eq_empty_iff]
    unfold sliceBound
    rw [if_pos (by omega), if_neg (by omega)]
    omega
  rw [this, sum_empty]

/-- C281 (violation): even for a peak at the exact centre of an odd-sized image the last value of the curve
is the energy of the far corner pixel instead of the whole. -/
theorem ensquared_last_centred (m : ℕ) (px : ℕ → ℕ → ℝ) (hf : flux ⟨2 * m + 1, 2 * m + 1, px⟩ ≠ 0) :
    ∃ e, ensquared ⟨2 * m + 1, 2 * m + 1, px⟩ m m = some e ∧
      e.getLast? = some (px (2 * m) (2 * m) / flux ⟨2 * m + 1, 2 * m + 1, px⟩) := by
  unfold ensquared
  rw [if_neg hf]
  refine ⟨_, rfl, ?_⟩
  have e : min (2 * m + 1 - m) (2 * m + 1 - m) = m + 1 := by omega
  simp only [e]
  rw [List.range_succ, List.map_append, List.map_singleton, List.getLast?_concat]
  congr 2
  unfold boxSum
  have : Ico (sliceBound (2 * m + 1) ((m : ℤ) - (m + 1 : ℕ))) (sliceBound (2 * m + 1) ((m : ℤ) + (m + 1 : ℕ) + 1))
      = {2 * m} := by
    ext i
    unfold sliceBound
    rw [if_pos (by omega), if_neg (by omega), mem_Ico, mem_singleton]
    omega
  simp only [this, sum_singleton]

/-- Non-vacuity and the violation on a 3x3 image of ones except a peak of 4 in the middle: the curve is
1/3, 1, 1/12. -/
theorem ensquared_violation : ∃ im : Img ℝ, im.nx = 3 ∧ im.ny = 3 ∧ (∀ i j, 0 < im.px i j) ∧
    (∀ i j, im.px i j ≤ im.px 1 1) ∧ ensquared im 1 1 = some [1/3, 1, 1/12] := by
  refine ⟨⟨3, 3, fun i j => if i = 1 ∧ j = 1 then 4 else 1⟩, rfl, rfl, ?_, ?_, ?_⟩
  · intro i j; simp only; split_ifs <;> norm_num
  · intro i j; simp only; split_ifs <;> simp_all
  · have hf : flux ⟨3, 3, fun i j => if i = 1 ∧ j = 1 then (4:ℝ) else 1⟩ = 12 := by
      norm_num [flux, sum_range_succ]
    have b0 : boxSum ⟨3, 3, fun i j => if i = 1 ∧ j = 1 then (4:ℝ) else 1⟩ 1 1 0 = 4 := by
      rw [ensquared_box _ _ _ _ (by norm_num) (by norm_num) (by norm_num) (by norm_num)]
      norm_num [boxFlux, sum_range_succ]
    have b1 : boxSum ⟨3, 3, fun i j => if i = 1 ∧ j = 1 then (4:ℝ) else 1⟩ 1 1 1 = 12 := by
      rw [ensquared_box _ _ _ _ (by norm_num) (by norm_num) (by norm_num) (by norm_num)]
      norm_num [boxFlux, sum_range_succ]
    have b2 : boxSum ⟨3, 3, fun i j => if i = 1 ∧ j = 1 then (4:ℝ) else 1⟩ 1 1 2 = 1 := by
      have : Ico (sliceBound 3 (((1:ℕ):ℤ) - (2:ℕ))) (sliceBound 3 (((1:ℕ):ℤ) + (2:ℕ) + 1)) = {2} := by decide
      unfold boxSum
      simp only [this]
      norm_num
    unfold ensquared
    rw [if_neg (by rw [hf]; norm_num)]
    simp only [show min (3 - 1) (3 - 1) + 1 = 3 from rfl]
    norm_num [List.range_succ, b0, b1, b2, hf]

/-! ### Cases that meet the hypotheses -/

/-- A case meeting the hypotheses of `encircled_spec`. -/
example : ∃ e, encircled (fun r => ⌊r⌋) [(0, 4), (1, 1), (1, 1), (2, 1)] = some e ∧ e.getLast? = some 1 := by
  have hr : rind (fun r => ⌊r⌋) [(0, 4), (1, 1), (1, 1), (2, 1)] = [0, 2] := by
    simp [rind, List.range_succ]
  have hc : (rind (fun r => ⌊r⌋) [(0, 4), (1, 1), (1, 1), (2, 1)]).map (csim [(0, 4), (1, 1), (1, 1), (2, 1)]) = [4, 6] := by
    rw [hr]; norm_num [csim]
  have h : encircled (fun r => ⌊r⌋) [(0, 4), (1, 1), (1, 1), (2, 1)] = some ([4, 6].map (· / maxL [4, 6])) := by
    unfold encircled
    rw [hc, if_neg]
    simp [maxL]; norm_num
  exact ⟨_, h, (encircled_spec (fun r => ⌊r⌋) Int.floor_mono [(1, 1), (0, 4), (2, 1), (1, 1)] _ (by
    rw [List.perm_iff_count]; intro a; simp [List.count_cons]; ring) (by norm_num) (by norm_num) _ h).2.2.1⟩

/-- A case meeting the hypotheses of `ensquared_box`. -/
example : boxSum ⟨5, 5, fun i j => (i : ℝ) + j⟩ 2 2 1 = boxFlux ⟨5, 5, fun i j => (i : ℝ) + j⟩ 2 2 1 :=
  ensquared_box _ 2 2 1 (by norm_num) (by norm_num) (by norm_num) (by norm_num)

/-- A case meeting the hypotheses of `ensquared_mono`. -/
example : ∃ e, ensquared ⟨5, 5, fun _ _ => 1⟩ 2 2 = some e ∧ e.getD 1 0 ≤ e.getD 2 0 := by
  have hf : flux ⟨5, 5, fun _ _ => 1⟩ ≠ 0 := by norm_num [flux, List.range_succ]
  have h : ensquared ⟨5, 5, fun _ _ => 1⟩ 2 2 = some ((List.range (min (5 - 2) (5 - 2) + 1)).map
      (fun n => boxSum ⟨5, 5, fun _ _ => 1⟩ 2 2 n / flux ⟨5, 5, fun _ _ => 1⟩)) := by unfold ensquared; rw [if_neg hf]
  exact ⟨_, h, (ensquared_mono _ 2 2 1 2 (by norm_num) (by norm_num) (by norm_num) (by norm_num) (by norm_num) (by norm_num) hf _ h (by simp)).2.1⟩

end P3.Images
