import Verif.Model.Diagnosis
import Verif.Model.Telemetry
import Mathlib.LinearAlgebra.Matrix.NonsingularInverse
import Mathlib.Tactic.Linarith
import Mathlib.Tactic.Ring
import Mathlib.Tactic.FieldSimp
import Mathlib.Tactic.NormNum
import Mathlib.Tactic.FinCases
import Mathlib.LinearAlgebra.Matrix.ToLin
import Mathlib.LinearAlgebra.Matrix.DotProduct
/-
Properties C194 to C199.
-/
namespace P3.Diag
open Finset

/-! ### Specification -/

/-- `top` are `k` largest elements of `l`. -/
def IsTop (k : ℕ) (l top : List ℝ) : Prop :=
  top.length = k ∧ ∃ rest, (top ++ rest).Perm l ∧ ∀ x ∈ top, ∀ y ∈ rest, y ≤ x

/-! ### C194 photons -/

theorem sorted_perm (l : List ℝ) : (sorted l).Perm l := List.mergeSort_perm _ _

theorem sorted_pairwise (l : List ℝ) : (sorted l).Pairwise (· ≤ ·) := by
  have := List.pairwise_mergeSort (le := fun a b : ℝ => decide (a ≤ b)) (by intro a b c; simpa using le_trans)
    (by intro a b; simpa using le_total a b) l
  simpa [sorted] using this

theorem cut_eq (n : ℕ) : cut n = -(((n + 1) / 2 : ℕ) : ℤ) := by
  unfold cut; omega

theorem slice_cut {α : Type*} (l : List α) (n : ℕ) (h : 0 < n) :
    sliceFrom l (cut n) = l.drop (l.length - (n + 1) / 2) := by
  have : 0 < (n + 1) / 2 := by omega
  rw [cut_eq, sliceFrom, if_pos (by omega)]
  congr 1
  omega

theorem slice_cut_zero {α : Type*} (l : List α) : sliceFrom l (cut 0) = l := by
  simp [sliceFrom, cut]

theorem pixCog_top (gain : ℝ) (n : ℕ) (f : List ℝ) (hn : 0 < n) :
    IsTop (min f.length ((n + 1) / 2)) (f.map (· / gain)) (pixCog gain n f) := by
  have hl : (sorted (f.map (· / gain))).length = f.length := by rw [(sorted_perm _).length_eq, List.length_map]
  rw [pixCog, slice_cut _ _ hn, hl]
  set s := sorted (f.map (· / gain)) with hs
  refine ⟨by rw [List.length_drop, hl]; omega, s.take (f.length - (n + 1) / 2), ?_, ?_⟩
  · refine (List.perm_append_comm).trans ?_
    rw [List.take_append_drop]
    exact sorted_perm _
  · intro x hx y hy
    have := sorted_pairwise (f.map (· / gain))
    rw [← hs, ← List.take_append_drop (f.length - (n + 1) / 2) s, List.pairwise_append] at this
    exact this.2.2 y hy x hx

/-- The sum of the largest elements is largest. -/
theorem top_sum {k : ℕ} {l top other rest : List ℝ} (h : IsTop k l top) (ho : other.length = k)
    (hp : (other ++ rest).Perm l) : other.sum ≤ top.sum := by
  obtain ⟨hk, r, hr, hle⟩ := h
  rcases Nat.eq_zero_or_pos k with h0 | h0
  · subst h0
    rw [List.length_eq_zero_iff.mp hk, List.length_eq_zero_iff.mp ho]
  -- threshold: the smallest element of `top`
  obtain ⟨m, hm, hmin⟩ : ∃ m ∈ top, ∀ x ∈ top, m ≤ x := by
    have hne : top ≠ [] := by intro h; rw [h] at hk; simp at hk; omega
    exact ⟨_, List.min_mem hne, fun x hx => List.min_le_of_mem hx⟩
  have e : ((top.map (· - m)).map fun x => max x 0) = top.map (· - m) := by
    rw [List.map_map]
    refine List.map_congr_left fun x hx => ?_
    simp [hmin x hx]
  have key : ∀ l : List ℝ, (l.map (· - m)).sum ≤ ((l.map (· - m)).map fun x => max x 0).sum := by
    intro l
    induction l with
    | nil => simp
    | cons a t ih => simp only [List.map_cons, List.sum_cons]; exact add_le_add (le_max_left _ _) ih
  have nn : ∀ l : List ℝ, 0 ≤ ((l.map (· - m)).map fun x => max x 0).sum := by
    intro l
    induction l with
    | nil => simp
    | cons a t ih => simp only [List.map_cons, List.sum_cons]; exact add_nonneg (le_max_right _ _) ih
  have hz : ((r.map (· - m)).map fun x => max x 0).sum = 0 := by
    apply List.sum_eq_zero
    intro x hx
    simp only [List.mem_map] at hx
    obtain ⟨y, ⟨z, hz, rfl⟩, rfl⟩ := hx
    have := hle m hm z hz
    exact max_eq_right (by linarith)
  have tot : ((other.map (· - m)).map fun x => max x 0).sum + ((rest.map (· - m)).map fun x => max x 0).sum =
      ((top.map (· - m)).map fun x => max x 0).sum + ((r.map (· - m)).map fun x => max x 0).sum := by
    rw [← List.sum_append, ← List.sum_append, ← List.map_append, ← List.map_append, ← List.map_append, ← List.map_append]
    exact (((hp.trans hr.symm).map _).map _).sum_eq
  have shift : ∀ l : List ℝ, (l.map (· - m)).sum = l.sum - l.length * m := by
    intro l
    induction l with
    | nil => simp
    | cons a t ih => simp only [List.map_cons, List.sum_cons, ih, List.length_cons]; push_cast; ring
  have h1 := key other
  have h2 := nn rest
  rw [e] at tot
  have h3 : (other.map (· - m)).sum ≤ (top.map (· - m)).sum := by linarith
  rw [shift, shift, ho, hk] at h3
  linarith

theorem flatten_mean (ls : List (List ℝ)) (k : ℕ) (h : ∀ l ∈ ls, l.length = k) :
    mean ls.flatten = mean (ls.map mean) := by
  have hlen : (ls.flatten.length : ℝ) = ls.length * k := by
    rw [List.length_flatten]
    have : ls.map List.length = List.replicate ls.length k := by
      rw [List.eq_replicate_iff]; simpa using h
    rw [this, List.sum_replicate]; simp
  have hs : ∀ ls : List (List ℝ), (∀ l ∈ ls, l.length = k) → (ls.map mean).sum = ls.flatten.sum / k := by
    intro ls
    induction ls with
    | nil => simp
    | cons a t ih =>
      intro h
      simp only [List.map_cons, List.sum_cons, List.flatten_cons, List.sum_append]
      rw [ih fun l hl => h l (List.mem_cons_of_mem _ hl), mean, h a (by simp)]
      ring
  rw [mean, mean, hs ls h, hlen, List.length_map]
  rw [div_div, mul_comm]

/-- **C194**: the number of photons is the mean, over the exposures, of the mean of the brightest pixels: half the number of
non-zero coefficients of row 100 of the reconstructor, rounded up. -/
theorem photons_spec (frames : List (List ℝ)) (gain : ℝ) (R : List (List ℝ)) (row : List ℝ) (n p : ℕ) (hR : R[100]? = some row)
    (hn : (row.filter fun x => decide (x ≠ 0)).length = n) (h0 : 0 < n) (hp : ∀ f ∈ frames, f.length = p)
    (hne : ∃ f ∈ frames, ∃ x ∈ f, x ≠ 0) :
    ∃ (tops : List (List ℝ)) (ron : ℝ), photons frames gain R = .ok (mean (tops.map mean), ron) ∧
      List.Forall₂ (fun f t => IsTop (min p ((n + 1) / 2)) (f.map (· / gain)) t) frames tops := by
  have hm : (photonStats frames gain n).1 = mean ((frames.map (pixCog gain n)).map mean) := by
    show mean (frames.map (pixCog gain n)).flatten = _
    rw [flatten_mean _ (min p ((n + 1) / 2))]
    intro l hl
    obtain ⟨f, hf, rfl⟩ := List.mem_map.mp hl
    rw [← hp f hf]
    exact (pixCog_top gain n f h0).1
  refine ⟨frames.map (pixCog gain n), (photonStats frames gain n).2, ?_, ?_⟩
  · rw [photons, if_pos hne, hR, ← hm]
    simp only [List.countP_eq_length_filter, ← hn]
  · rw [List.forall₂_map_right_iff, List.forall₂_same]
    intro f hf
    rw [← hp f hf]
    exact pixCog_top gain n f h0

/-- The mean of the largest elements is not below the mean. -/
theorem top_mean {k : ℕ} {l top : List ℝ} (h : IsTop k l top) (hk : 0 < k) : mean l ≤ mean top := by
  obtain ⟨hl, rest, hp, hle⟩ := h
  obtain ⟨m, hm, hmin⟩ : ∃ m ∈ top, ∀ x ∈ top, m ≤ x := by
    have hne : top ≠ [] := by intro h; rw [h] at hl; simp at hl; omega
    exact ⟨_, List.min_mem hne, fun x hx => List.min_le_of_mem hx⟩
  have h1 : (k : ℝ) * m ≤ top.sum := by
    have := List.card_nsmul_le_sum top m hmin
    rw [hl, nsmul_eq_mul] at this; exact this
  have h2 : rest.sum ≤ rest.length * m := by
    have := List.sum_le_card_nsmul rest m (fun y hy => hle m hm y hy)
    rw [nsmul_eq_mul] at this; exact this
  have hk' : (0 : ℝ) < k := by exact_mod_cast hk
  rw [mean, mean, ← hp.sum_eq, ← hp.length_eq, List.sum_append, List.length_append, hl, div_le_div_iff₀ (by positivity) hk']
  push_cast
  have hr : (0:ℝ) ≤ rest.length := by positivity
  nlinarith

theorem flatten_perm {α : Type*} (l : List α) (f g : α → List ℝ) (h : ∀ x ∈ l, (f x).Perm (g x)) :
    (l.map f).flatten.Perm (l.map g).flatten := by
  induction l with
  | nil => simp
  | cons a t ih =>
    simp only [List.map_cons, List.flatten_cons]
    exact (h a (by simp)).append (ih fun x hx => h x (List.mem_cons_of_mem _ hx))

/-- **C194**: without any light, zero; with too small a reconstructor, an error, however many photons; a row of zeros keeps all
pixels. -/
theorem photons_cases (frames : List (List ℝ)) (gain : ℝ) (R : List (List ℝ)) :
    ((∀ f ∈ frames, ∀ x ∈ f, x = 0) → photons frames gain R = .ok (0, 0)) ∧
    ((∃ f ∈ frames, ∃ x ∈ f, x ≠ 0) → (photons frames gain R = .error .indexError ↔ R.length ≤ 100)) ∧
    ((∃ f ∈ frames, ∃ x ∈ f, x ≠ 0) → (∀ row, R[100]? = some row → (∀ x ∈ row, x = 0) →
      ∃ ron, photons frames gain R = .ok (mean (frames.map fun f => f.map (· / gain)).flatten, ron))) := by
  refine ⟨fun h => ?_, fun h => ?_, fun h row hr h0 => ?_⟩
  · rw [photons, if_neg]
    rintro ⟨f, hf, x, hx, hne⟩
    exact hne (h f hf x hx)
  · rw [photons, if_pos h]
    rw [← List.getElem?_eq_none_iff]
    cases hR : R[100]? <;> simp
  · have hc : (row.countP fun x => decide (x ≠ 0)) = 0 := by
      rw [List.countP_eq_zero]; intro x hx; simp [h0 x hx]
    refine ⟨(photonStats frames gain 0).2, ?_⟩
    rw [photons, if_pos h, hr]
    show Except.ok (photonStats frames gain (row.countP fun x => decide (x ≠ 0))) = _
    have hm : (photonStats frames gain 0).1 = mean (frames.map fun f => f.map (· / gain)).flatten := by
      show mean (frames.map (pixCog gain 0)).flatten = _
      have := flatten_perm frames (pixCog gain 0) (fun f => f.map (· / gain)) fun f _ => by
        rw [pixCog, slice_cut_zero]; exact sorted_perm _
      rw [mean, mean, this.sum_eq, this.length_eq]
    rw [← hm]
    convert rfl using 3 <;> rw [hc]

theorem std_const (x : ℝ) (l : List ℝ) (h : ∀ y ∈ l, y = x) : std l = 0 := by
  have e : l = List.replicate l.length x := List.eq_replicate_iff.mpr ⟨rfl, h⟩
  rw [std, mean]
  rw [List.sum_eq_zero, zero_div, Real.sqrt_zero]
  intro z hz
  obtain ⟨y, hy, rfl⟩ := List.mem_map.mp hz
  have hl : (l.length : ℝ) ≠ 0 := by
    have := List.length_pos_of_mem hy
    positivity
  have hm : mean l = x := by
    rw [mean, e, List.sum_replicate, List.length_replicate, nsmul_eq_mul]; field_simp
  rw [hm, h y hy]; simp

theorem median_const (x : ℝ) (l : List ℝ) (h : ∀ y ∈ l, y = x) (hl : l ≠ []) : Metrics.median l = x := by
  have hs : l.mergeSort (fun a b => decide (a ≤ b)) = List.replicate l.length x := by
    rw [List.eq_replicate_iff]
    exact ⟨List.length_mergeSort l, fun y hy => h y (List.mem_mergeSort.mp hy)⟩
  have hp := List.length_pos_iff.mpr hl
  have g : ∀ i, i < l.length → (List.replicate l.length x).getD i 0 = x := by
    intro i hi; rw [List.getD_eq_getElem _ _ (by simpa using hi), List.getElem_replicate]
  rw [Metrics.median]
  simp only [hs]
  split
  · exact g _ (by omega)
  · rw [g _ (by omega), g _ (by omega)]; ring

/-- **C255 (what fails)**: the read-out noise is taken after the pixels of each exposure have been sorted: when the
exposures are rearrangements of one another it is zero, whatever each pixel does. -/
theorem ron_violation (frames : List (List ℝ)) (gain : ℝ) (R : List (List ℝ)) (row f0 : List ℝ) (hR : R[100]? = some row)
    (hp : ∀ f ∈ frames, f.Perm f0) (hne : ∃ f ∈ frames, ∃ x ∈ f, x ≠ 0) :
    ∃ nph, photons frames gain R = .ok (nph, 0) := by
  set n := row.countP fun x => decide (x ≠ 0) with hn
  refine ⟨(photonStats frames gain n).1, ?_⟩
  rw [photons, if_pos hne, hR]
  show Except.ok (photonStats frames gain (row.countP fun x => decide (x ≠ 0))) = _
  have e : ∀ f ∈ frames, pixCog gain n f = pixCog gain n f0 := by
    intro f hf
    have : sorted (f.map (· / gain)) = sorted (f0.map (· / gain)) := by
      refine List.Perm.eq_of_pairwise ?_ (sorted_pairwise _) (sorted_pairwise _)
        ((sorted_perm _).trans (((hp f hf).map _).trans (sorted_perm _).symm))
      intro a b _ _ h1 h2; exact le_antisymm h1 h2
    rw [pixCog, pixCog, this]
  have hk : frames.map (pixCog gain n) = List.replicate frames.length (pixCog gain n f0) := by
    rw [List.eq_replicate_iff]
    refine ⟨List.length_map _, fun l hl => ?_⟩
    obtain ⟨f, hf, rfl⟩ := List.mem_map.mp hl
    exact e f hf
  have h2 : (photonStats frames gain n).2 = 0 := by
    show Metrics.median _ = 0
    by_cases hz : ((List.range ((frames.map (pixCog gain n)).headD []).length).map
        fun j => std (column (frames.map (pixCog gain n)) j)) = []
    · rw [hz]; simp [Metrics.median]
    · refine median_const 0 _ ?_ hz
      intro y hy
      obtain ⟨j, _, rfl⟩ := List.mem_map.mp hy
      refine std_const ((pixCog gain n f0).getD j 0) _ ?_
      intro z hz
      rw [column, hk] at hz
      obtain ⟨r, hr, rfl⟩ := List.mem_map.mp hz
      rw [List.eq_of_mem_replicate hr]
  have : photonStats frames gain n = ((photonStats frames gain n).1, 0) := Prod.ext rfl h2
  rw [← hn] at *
  convert congrArg Except.ok this

/-- A case: two exposures of three pixels, three coefficients in row 100; the two brightest pixels are kept. -/
example : ∃ ron : ℝ, ∃ tops, photons [[1, 4, 2], [0, 2, 4]] 2 (List.replicate 101 [1, 0, 1, 1]) = .ok (mean (tops.map mean), ron) ∧
    List.Forall₂ (fun f t => IsTop 2 (f.map (· / 2)) t) [[1, 4, 2], [0, 2, 4]] tops := by
  obtain ⟨t, r, h1, h2⟩ := photons_spec [[1, 4, 2], [0, 2, 4]] 2 (List.replicate 101 [1, 0, 1, 1]) [1, 0, 1, 1] 3 3
    (by rw [List.getElem?_replicate]; simp) (by simp) (by norm_num) (by simp) ⟨[1, 4, 2], by simp, 1, by simp, by norm_num⟩
  exact ⟨r, t, h1, h2⟩

/-! ### C195 actuators -/

theorem argmax_spec (f : ℕ → ℝ) (n : ℕ) : argmax f n ≤ n ∧ (∀ k ≤ n, f k ≤ f (argmax f n)) ∧ ∀ k < argmax f n, f k < f (argmax f n) := by
  induction n with
  | zero => simp [argmax]
  | succ n ih =>
    obtain ⟨h1, h2, h3⟩ := ih
    rw [argmax]
    by_cases h : f (argmax f n) < f (n + 1)
    · rw [if_pos h]
      refine ⟨le_rfl, fun k hk => ?_, fun k hk => ?_⟩
      · rcases Nat.lt_or_ge k (n + 1) with hk' | hk'
        · exact (h2 k (by omega)).trans h.le
        · rw [show k = n + 1 by omega]
      · exact (h2 k (by omega)).trans_lt h
    · rw [if_neg h]
      push Not at h
      refine ⟨by omega, fun k hk => ?_, h3⟩
      rcases Nat.lt_or_ge k (n + 1) with hk' | hk'
      · exact h2 k (by omega)
      · rw [show k = n + 1 by omega]; exact h

theorem argmax_unique (f : ℕ → ℝ) (n p : ℕ) (hp : p ≤ n) (h : ∀ k ≤ n, k ≠ p → f k < f p) : argmax f n = p := by
  obtain ⟨h1, h2, _⟩ := argmax_spec f n
  by_contra hne
  exact absurd (h2 p hp) (not_le.mpr (h _ h1 hne))

theorem radPos_eq (nPix : ℕ) (dTel : ℝ) (f : ℕ → ℝ) (i j : ℕ) (hi : i < nPix) (hj : j < nPix)
    (h : ∀ p < nPix * nPix, p ≠ i * nPix + j → f p < f (i * nPix + j)) :
    radPos nPix dTel f = dTel / nPix * Real.sqrt (((i : ℝ) - nPix / 2) ^ 2 + ((j : ℝ) - nPix / 2) ^ 2) := by
  have hlt : i * nPix + j < nPix * nPix := by
    calc i * nPix + j < i * nPix + nPix := by omega
      _ = (i + 1) * nPix := by ring
      _ ≤ nPix * nPix := Nat.mul_le_mul_right _ (by omega)
  have hp : argmax f (nPix * nPix - 1) = i * nPix + j :=
    argmax_unique f _ _ (by omega) fun k hk hne => h k (by omega) hne
  have h1 : (i * nPix + j) / nPix = i := by
    rw [Nat.mul_comm, Nat.mul_add_div (by omega), Nat.div_eq_of_lt hj, Nat.add_zero]
  have h2 : (i * nPix + j) % nPix = j := by
    rw [Nat.mul_comm, Nat.mul_add_mod, Nat.mod_eq_of_lt hj]
  simp only [radPos, hp, h1, h2]

theorem nonzero_length (l : List ℝ) : (nonzero l).length = (l.filter fun x => decide (x ≠ 0)).length := by
  classical
  have : ∀ l : List ℝ, ((List.range l.length).filter fun i => decide (l.getD i 0 ≠ 0)).length = (l.filter fun x => decide (x ≠ 0)).length := by
    intro l
    induction l with
    | nil => simp
    | cons a t ih =>
      rw [List.length_cons, List.range_succ_eq_map, List.filter_cons, List.filter_cons, List.filter_map]
      have e : ((fun i => decide ((a :: t).getD i 0 ≠ 0)) ∘ Nat.succ) = fun i => decide (t.getD i 0 ≠ 0) := by
        funext i; simp
      rw [e]
      by_cases ha : a = 0
      · simpa [ha] using ih
      · simpa [ha] using ih
  rw [nonzero]
  convert this l

/-- **C195**: with two diameters the actuators of the ring are selected: those whose highest pixel lies between the two radii
around the pixel `nPix/2`. -/
theorem select_ring (nPix nAct : ℕ) (iF : ℕ → ℕ → ℝ) (valid : List ℝ) (pitch : ℝ) (nAcross : ℕ) (din dout : ℝ)
    (h : din ≠ 0 ∨ dout ≠ 0) (row col : ℕ → ℕ)
    (hpos : ∀ k < nAct, row k < nPix ∧ col k < nPix ∧ ∀ p < nPix * nPix, p ≠ row k * nPix + col k → iF p k < iF (row k * nPix + col k) k) :
    ∃ sel, selectActuators nPix nAct iF valid pitch nAcross (some din) (some dout) = .ok sel ∧ sel.Pairwise (· < ·) ∧
      ∀ k, k ∈ sel ↔ k < nAct ∧ din / 2 ≤ pitch * ((nAcross : ℝ) - 1) / nPix * Real.sqrt (((row k : ℝ) - nPix / 2) ^ 2 + ((col k : ℝ) - nPix / 2) ^ 2) ∧
        pitch * ((nAcross : ℝ) - 1) / nPix * Real.sqrt (((row k : ℝ) - nPix / 2) ^ 2 + ((col k : ℝ) - nPix / 2) ^ 2) ≤ dout / 2 := by
  refine ⟨ring nPix nAct iF (pitch * ((nAcross : ℝ) - 1)) (din / 2) (dout / 2), ?_, ?_, ?_⟩
  · rw [selectActuators, if_neg]
    · rfl
    · simp only [falsy, Bool.and_eq_true, decide_eq_true_eq]; tauto
  · exact List.Pairwise.filter _ List.pairwise_lt_range
  · intro k
    rw [ring, List.mem_filter, List.mem_range, decide_eq_true_eq]
    by_cases hk : k < nAct
    · obtain ⟨h1, h2, h3⟩ := hpos k hk
      rw [radPos_eq nPix _ _ (row k) (col k) h1 h2 h3]
      tauto
    · tauto

/-- **C195**: without diameters the valid actuators are selected, and all of them when their number is that of the influence
functions. -/
theorem select_valid (nPix nAct : ℕ) (iF : ℕ → ℕ → ℝ) (valid : List ℝ) (pitch : ℝ) (nAcross : ℕ) (din dout : Option ℝ)
    (hi : din = none ∨ din = some 0) (ho : dout = none ∨ dout = some 0) :
    (nAct = (valid.filter fun x => decide (x ≠ 0)).length →
      selectActuators nPix nAct iF valid pitch nAcross din dout = .ok (List.range nAct)) ∧
    (nAct ≠ (valid.filter fun x => decide (x ≠ 0)).length → valid.length ≤ nAct →
      ∃ sel, selectActuators nPix nAct iF valid pitch nAcross din dout = .ok sel ∧ sel.Pairwise (· < ·) ∧
        ∀ k, k ∈ sel ↔ ∃ x, valid[k]? = some x ∧ x ≠ 0) := by
  have hf : (falsy din && falsy dout) = true := by
    rcases hi with rfl | rfl <;> rcases ho with rfl | rfl <;> simp [falsy]
  have hm : ∀ k, k ∈ nonzero valid ↔ ∃ x, valid[k]? = some x ∧ x ≠ 0 := by
    intro k
    rw [nonzero, List.mem_filter, List.mem_range, decide_eq_true_eq]
    constructor
    · rintro ⟨h1, h2⟩
      rw [List.getD_eq_getElem _ _ h1] at h2
      exact ⟨_, List.getElem?_eq_getElem h1, h2⟩
    · rintro ⟨x, h1, h2⟩
      obtain ⟨h3, h4⟩ := List.getElem?_eq_some_iff.mp h1
      refine ⟨h3, ?_⟩
      rw [List.getD_eq_getElem _ _ h3, h4]; exact h2
  rw [selectActuators, if_pos hf, nonzero_length]
  constructor
  · intro h; rw [if_pos h]
  · intro h hv
    rw [if_neg h, if_pos]
    · exact ⟨_, rfl, List.Pairwise.filter _ List.pairwise_lt_range, hm⟩
    · intro i hi
      rw [nonzero, List.mem_filter, List.mem_range] at hi
      omega

/-- **C256 (what fails)**: with one diameter only the call fails, although both have a default value. -/
theorem select_one_violation (nPix nAct : ℕ) (iF : ℕ → ℕ → ℝ) (valid : List ℝ) (pitch : ℝ) (nAcross : ℕ) (d : ℝ) (hd : d ≠ 0) :
    selectActuators nPix nAct iF valid pitch nAcross (some d) none = .error .typeError ∧
    selectActuators nPix nAct iF valid pitch nAcross none (some d) = .error .typeError := by
  constructor <;> rw [selectActuators, if_neg (by simp [falsy, hd])] <;> rfl

/-- **C256 (what fails)**: the centre is taken half a pixel away from the centre of the influence functions: of two actuators
at opposite corners of the pupil, one is selected and the other is not. -/
theorem select_centre_violation (n : ℕ) (hn : 1 ≤ n) (iF : ℕ → ℕ → ℝ) (valid : List ℝ) (pitch : ℝ) (hp : 0 < pitch)
    (h0 : ∀ p < (2 * n) * (2 * n), p ≠ 0 → iF p 0 < iF 0 0)
    (h1 : ∀ p < (2 * n) * (2 * n), p ≠ (2 * n - 1) * (2 * n) + (2 * n - 1) → iF p 1 < iF ((2 * n - 1) * (2 * n) + (2 * n - 1)) 1) :
    ∃ dout : ℝ, selectActuators (2 * n) 2 iF valid pitch 2 (some 0) (some dout) = .ok [1] := by
  have hn' : (0:ℝ) < n := by exact_mod_cast hn
  have hpos : ∀ k < 2, (if k = 0 then 0 else 2 * n - 1) < 2 * n ∧ (if k = 0 then 0 else 2 * n - 1) < 2 * n ∧
      ∀ p < (2 * n) * (2 * n), p ≠ (if k = 0 then 0 else 2 * n - 1) * (2 * n) + (if k = 0 then 0 else 2 * n - 1) →
        iF p k < iF ((if k = 0 then 0 else 2 * n - 1) * (2 * n) + (if k = 0 then 0 else 2 * n - 1)) k := by
    intro k hk
    rcases (by omega : k = 0 ∨ k = 1) with rfl | rfl
    · simp only [if_true]; refine ⟨by omega, by omega, fun p hp h => ?_⟩; simpa using h0 p hp (by simpa using h)
    · simp only [one_ne_zero, if_false]; exact ⟨by omega, by omega, h1⟩
  -- radii: √2 n and √2 (n - 1) pixels
  have hsp : (0:ℝ) < pitch * (((2:ℕ):ℝ) - 1) / ((2 * n : ℕ) : ℝ) := by push_cast; norm_num; positivity
  have hr0 : pitch * (((2:ℕ):ℝ) - 1) / ((2 * n : ℕ) : ℝ) * Real.sqrt (2 * ((n:ℝ) - 1 / 2) ^ 2) <
      pitch * (((2:ℕ):ℝ) - 1) / ((2 * n : ℕ) : ℝ) * Real.sqrt (2 * (n:ℝ) ^ 2) := by
    refine mul_lt_mul_of_pos_left (Real.sqrt_lt_sqrt (by positivity) ?_) hsp
    have : (1:ℝ) ≤ n := by exact_mod_cast hn
    nlinarith
  have hr1 : pitch * (((2:ℕ):ℝ) - 1) / ((2 * n : ℕ) : ℝ) * Real.sqrt (2 * ((n:ℝ) - 1) ^ 2) ≤
      pitch * (((2:ℕ):ℝ) - 1) / ((2 * n : ℕ) : ℝ) * Real.sqrt (2 * ((n:ℝ) - 1 / 2) ^ 2) := by
    refine mul_le_mul_of_nonneg_left (Real.sqrt_le_sqrt ?_) hsp.le
    have : (1:ℝ) ≤ n := by exact_mod_cast hn
    nlinarith
  have hd : 0 < pitch * (((2:ℕ):ℝ) - 1) / ((2 * n : ℕ) : ℝ) * Real.sqrt (2 * ((n:ℝ) - 1 / 2) ^ 2) := by
    refine mul_pos hsp (Real.sqrt_pos.mpr ?_)
    have : (1:ℝ) ≤ n := by exact_mod_cast hn
    have : (0:ℝ) < n - 1 / 2 := by linarith
    positivity
  generalize hD : pitch * (((2:ℕ):ℝ) - 1) / ((2 * n : ℕ) : ℝ) * Real.sqrt (2 * ((n:ℝ) - 1 / 2) ^ 2) = D at hr0 hr1 hd
  refine ⟨2 * D, ?_⟩
  obtain ⟨sel, h, hs, hm⟩ := select_ring (2 * n) 2 iF valid pitch 2 0 (2 * D) (Or.inr (by positivity)) _ _ hpos
  rw [h]
  have e0 : (((0:ℕ):ℝ) - ((2 * n : ℕ) : ℝ) / 2) ^ 2 + (((0:ℕ):ℝ) - ((2 * n : ℕ) : ℝ) / 2) ^ 2 = 2 * (n:ℝ) ^ 2 := by push_cast; ring
  have e1 : (((2 * n - 1:ℕ):ℝ) - ((2 * n : ℕ) : ℝ) / 2) ^ 2 + (((2 * n - 1:ℕ):ℝ) - ((2 * n : ℕ) : ℝ) / 2) ^ 2 = 2 * ((n:ℝ) - 1) ^ 2 := by
    rw [Nat.cast_sub (by omega)]; push_cast; ring
  have m0 : 0 ∉ sel := by
    rw [hm 0]
    simp only [if_true]
    rw [e0]
    rintro ⟨_, _, h2⟩
    linarith
  have m1 : 1 ∈ sel := by
    rw [hm 1]
    simp only [one_ne_zero, if_false]
    rw [e1]
    exact ⟨by norm_num, by rw [zero_div]; positivity, by linarith⟩
  congr 1
  refine List.Perm.eq_of_pairwise (le := (· < ·)) (fun a b _ _ h1 h2 => absurd h1 (by omega)) hs (by simp) ?_
  rw [List.perm_ext_iff_of_nodup (hs.imp (fun h => h.ne)) (by simp)]
  intro k
  rw [List.mem_singleton]
  constructor
  · intro hk
    have := ((hm k).mp hk).1
    rcases (by omega : k = 0 ∨ k = 1) with rfl | rfl
    · exact absurd hk m0
    · rfl
  · rintro rfl; exact m1

/-- A case: two influence functions, peaks in opposite corners of four by four pixels. -/
example : ∃ dout : ℝ, selectActuators 4 2 (fun p k => if p = (if k = 0 then 0 else 15) then 1 else 0) [1, 1] 1 2 (some 0) (some dout) = .ok [1] := by
  refine select_centre_violation 2 (by norm_num) _ _ _ one_pos ?_ ?_
  · intro p _ h; simp [h]
  · intro p _ h; simp at h; simp [h]

theorem median_perm (l l' : List ℝ) (h : l.Perm l') : Metrics.median l = Metrics.median l' := by
  have hs : sorted l = sorted l' := List.Perm.eq_of_pairwise (fun a b _ _ h1 h2 => le_antisymm h1 h2)
    (sorted_pairwise _) (sorted_pairwise _) ((sorted_perm _).trans (h.trans (sorted_perm _).symm))
  unfold sorted at hs
  rw [Metrics.median, Metrics.median, hs, h.length_eq]

/-! ### C196 average over the radial orders -/

theorem averageOrder_mem (n : List ℕ) (u : ℕ) : u ∈ n.mergeSort.dedup ↔ u ∈ n := by
  rw [List.mem_dedup, List.mem_mergeSort]

theorem orders_sorted (n : List ℕ) : n.mergeSort.dedup.Pairwise (· < ·) := by
  have h1 : n.mergeSort.Pairwise (· ≤ ·) := by
    have := List.pairwise_mergeSort (le := fun a b : ℕ => decide (a ≤ b)) (by intro a b c; simpa using le_trans)
      (by intro a b; simpa using le_total a b) n
    simpa using this
  have h2 : n.mergeSort.dedup.Pairwise (· ≤ ·) := h1.sublist (List.dedup_sublist _)
  have h3 : n.mergeSort.dedup.Pairwise (· ≠ ·) := List.nodup_dedup _
  exact (h2.and h3).imp fun h => lt_of_le_of_ne h.1 h.2

/-- **C196**: one value per distinct radial order, in increasing order; it is the median of the values of the modes of that
order, and the value itself when it depends on the order only. -/
theorem averageOrder_spec (n : List ℕ) (var : List ℝ) :
    ∃ orders : List ℕ, orders.Pairwise (· < ·) ∧ (∀ u, u ∈ orders ↔ u ∈ n) ∧
      averageOrder n var = orders.map (fun u => Metrics.median (((n.zip var).filter fun p => p.1 == u).map Prod.snd)) ∧
      ∀ f : ℕ → ℝ, var = n.map f → averageOrder n var = orders.map f := by
  refine ⟨n.mergeSort.dedup, orders_sorted n, averageOrder_mem n, rfl, ?_⟩
  intro f hf
  refine List.map_congr_left fun u hu => ?_
  rw [averageOrder_mem] at hu
  refine median_const (f u) _ ?_ ?_
  · intro y hy
    obtain ⟨⟨a, b⟩, h1, rfl⟩ := List.mem_map.mp hy
    rw [List.mem_filter] at h1
    obtain ⟨h1, h2⟩ := h1
    rw [hf, List.zip_map_right] at h1
    obtain ⟨⟨c, d⟩, h3, h4⟩ := List.mem_map.mp h1
    have hcd : c = d := by
      rw [← List.map_id n] at h3
      rw [List.zip_map'] at h3
      obtain ⟨w, _, hw⟩ := List.mem_map.mp h3
      simp only [Prod.mk.injEq, id] at hw
      rw [← hw.1, ← hw.2]
    simp only [Prod.map, Prod.mk.injEq, id] at h4
    simp only [beq_iff_eq] at h2
    rw [← h4.2, ← hcd, h4.1, h2]
  · intro h
    rw [List.map_eq_nil_iff, List.filter_eq_nil_iff] at h
    have : (u, f u) ∈ n.zip var := by
      rw [hf, ← List.map_id n, List.map_map, List.zip_map']
      exact List.mem_map.mpr ⟨u, hu, rfl⟩
    exact h _ this (by simp)

/-- **C196**: the modes may come in any order. -/
theorem averageOrder_perm (l l' : List (ℕ × ℝ)) (h : l.Perm l') :
    averageOrder (l.map Prod.fst) (l.map Prod.snd) = averageOrder (l'.map Prod.fst) (l'.map Prod.snd) := by
  have hz : ∀ l : List (ℕ × ℝ), (l.map Prod.fst).zip (l.map Prod.snd) = l := by
    intro l
    rw [List.zip_map']; simp
  have ho : (l.map Prod.fst).mergeSort.dedup = (l'.map Prod.fst).mergeSort.dedup := by
    refine List.Perm.eq_of_pairwise (le := (· < ·)) (fun a b _ _ h1 h2 => absurd h1 (by omega)) (orders_sorted _) (orders_sorted _) ?_
    rw [List.perm_ext_iff_of_nodup (List.nodup_dedup _) (List.nodup_dedup _)]
    intro u
    rw [averageOrder_mem, averageOrder_mem, (h.map _).mem_iff]
  rw [averageOrder, averageOrder, hz, hz, ho]
  refine List.map_congr_left fun u _ => ?_
  exact median_perm _ _ ((h.filter _).map _)

/-! ### C197 covariance of the coefficients -/

theorem openLoop_offset (nU : ℕ) (com delta : ℕ → ℕ → ℝ) (a b : ℕ → ℝ) (t j : ℕ) (hU : 0 < nU) :
    openLoop nU (fun t j => com t j + a j + b t) delta t j =
      openLoop nU com delta t j + (a j - (∑ i ∈ range nU, a i) / nU) := by
  have hU' : (nU : ℝ) ≠ 0 := by positivity
  simp only [openLoop]
  have : ∑ i ∈ range nU, (com t i + a i + b t + delta t i) =
      ∑ i ∈ range nU, (com t i + delta t i) + ∑ i ∈ range nU, a i + nU * b t := by
    rw [show (nU : ℝ) * b t = ∑ i ∈ range nU, b t by simp, ← sum_add_distrib, ← sum_add_distrib]
    exact sum_congr rfl fun i _ => by ring
  rw [this]
  field_simp
  ring

/-- **C197**: the coefficients do not depend on a static command of the mirror nor on the piston of each frame. -/
theorem coeffs_offset (nF nU : ℕ) (M : ℕ → ℕ → ℝ) (sel : List ℕ) (com delta : ℕ → ℕ → ℝ) (a b : ℕ → ℝ) (k t : ℕ)
    (hU : 0 < nU) (hF : 0 < nF) :
    coeffs nF nU M sel (fun t j => com t j + a j + b t) delta k t = coeffs nF nU M sel com delta k t := by
  have hF' : (nF : ℝ) ≠ 0 := by positivity
  simp only [coeffs]
  set A := ∑ i ∈ range sel.length, M k i * (a (sel.getD i 0) - (∑ i ∈ range nU, a i) / nU) with hA
  have e : ∀ s, ∑ i ∈ range sel.length, M k i * openLoop nU (fun t j => com t j + a j + b t) delta s (sel.getD i 0) =
      (∑ i ∈ range sel.length, M k i * openLoop nU com delta s (sel.getD i 0)) + A := by
    intro s
    rw [hA, ← sum_add_distrib]
    refine sum_congr rfl fun i _ => ?_
    rw [openLoop_offset nU com delta a b s _ hU]; ring
  rw [e t, sum_congr rfl fun s _ => e s, sum_add_distrib, sum_const, card_range, nsmul_eq_mul]
  field_simp
  ring

/-- **C197**: the covariance of the coefficients is the same whether or not the noise has been estimated before, which centres
the commands in place. -/
theorem czHo_centre (nF nExp nU : ℕ) (M : ℕ → ℕ → ℝ) (sel : List ℕ) (com delta : ℕ → ℕ → ℝ) (k l : ℕ) (hU : 0 < nU) :
    czHo nF nExp nU M sel (centre nF com) delta k l = czHo nF nExp nU M sel com delta k l := by
  rcases Nat.eq_zero_or_pos nF with h | hF
  · subst h; simp [czHo]
  have e : centre nF com = fun t j => com t j + (-((∑ s ∈ range nF, com s j) / nF)) + 0 := by
    funext t j; rw [centre]; ring
  have c := fun k t => coeffs_offset nF nU M sel com delta (fun j => -((∑ s ∈ range nF, com s j) / nF)) (fun _ => 0) k t hU hF
  simp only [czHo, e, c]

/-- **C197**: it is symmetric, and no combination of the coefficients has a negative variance; each coefficient has mean zero. -/
theorem czHo_psd (nF nExp nU nZ : ℕ) (M : ℕ → ℕ → ℝ) (sel : List ℕ) (com delta : ℕ → ℕ → ℝ) (x : ℕ → ℝ) :
    (∀ k l, czHo nF nExp nU M sel com delta k l = czHo nF nExp nU M sel com delta l k) ∧
    0 ≤ ∑ k ∈ range nZ, ∑ l ∈ range nZ, x k * czHo nF nExp nU M sel com delta k l * x l ∧
    ∀ k, ∑ t ∈ range nF, coeffs nF nU M sel com delta k t = 0 := by
  refine ⟨fun k l => ?_, ?_, fun k => ?_⟩
  · simp only [czHo]
    congr 1
    exact sum_congr rfl fun t _ => mul_comm _ _
  · have : ∑ k ∈ range nZ, ∑ l ∈ range nZ, x k * czHo nF nExp nU M sel com delta k l * x l =
        (∑ t ∈ range nF, (∑ k ∈ range nZ, x k * coeffs nF nU M sel com delta k t) ^ 2) / nExp := by
      calc _ = ∑ k ∈ range nZ, ∑ l ∈ range nZ, ∑ t ∈ range nF,
            (x k * coeffs nF nU M sel com delta k t) * (x l * coeffs nF nU M sel com delta l t) / nExp := by
            refine sum_congr rfl fun k _ => sum_congr rfl fun l _ => ?_
            rw [czHo, sum_div, mul_sum, sum_mul]
            exact sum_congr rfl fun t _ => by ring
        _ = ∑ k ∈ range nZ, ∑ t ∈ range nF, ∑ l ∈ range nZ,
            (x k * coeffs nF nU M sel com delta k t) * (x l * coeffs nF nU M sel com delta l t) / nExp :=
            sum_congr rfl fun k _ => sum_comm
        _ = _ := by
            rw [sum_comm, sum_div]
            refine sum_congr rfl fun t _ => ?_
            rw [sq, sum_mul_sum, sum_div]
            exact sum_congr rfl fun k _ => by rw [sum_div]
    rw [this]
    exact div_nonneg (sum_nonneg fun t _ => sq_nonneg _) (Nat.cast_nonneg _)
  · rcases Nat.eq_zero_or_pos nF with h | hF
    · subst h; simp
    have hF' : (nF : ℝ) ≠ 0 := by positivity
    simp only [coeffs]
    rw [sum_sub_distrib, sum_const, card_range, nsmul_eq_mul]
    field_simp
    ring

/-- **C197**: the modes are numbered from `j0`, and three quarters of the valid actuators by default. -/
theorem jIndex_spec (nValid j0 : ℕ) : (∀ n, (jIndex (some n) nValid j0).length = n) ∧
    (jIndex none nValid j0).length = (3 * nValid) / 4 ∧ ∀ z i, i < (jIndex z nValid j0).length → (jIndex z nValid j0)[i]? = some (j0 + i) := by
  refine ⟨fun n => by simp [jIndex], by simp [jIndex], fun z i hi => ?_⟩
  simp only [jIndex, List.length_map, List.length_range] at hi
  simp [jIndex, hi, add_comm]

/-- **C257 (what fails)**: without laser the "tip-tilt" covariance is the variance of the first reconstructed mode alone, whatever
the modes are: it is neither a two by two matrix, nor about tip and tilt for the default index of the first mode, 4. -/
theorem czTt_violation (nT nExpTT : ℕ) (tt ho : ℕ → ℕ → ℝ) : czTt false nT nExpTT tt ho = [[ho 0 0]] ∧
    (czTt true nT nExpTT tt ho).length = 2 ∧ (∀ r ∈ czTt true nT nExpTT tt ho, r.length = 2) := by
  simp [czTt]

/-! ### C198 projection onto the modes -/

theorem gram_injective {nPix nZ : ℕ} (Z : Matrix (Fin nPix) (Fin nZ) ℝ) (hZ : ∀ a : Fin nZ → ℝ, Z.mulVec a = 0 → a = 0)
    (a : Fin nZ → ℝ) (h : (Z.transpose * Z).mulVec a = 0) : a = 0 := by
  apply hZ
  rw [← dotProduct_self_eq_zero, Matrix.dotProduct_mulVec, Matrix.vecMul_mulVec, ← Matrix.mulVec_transpose]
  rw [Matrix.transpose_mul, Matrix.transpose_transpose, h]
  simp

/-- **C198**: when the modes are independent (and `P` is a generalised inverse of their Gram matrix), a shape of the mirror that
is a combination of modes is decomposed exactly. -/
theorem u2z_exact {nPix nZ nAct : ℕ} (P : Matrix (Fin nZ) (Fin nZ) ℝ) (Z : Matrix (Fin nPix) (Fin nZ) ℝ)
    (iF : Matrix (Fin nPix) (Fin nAct) ℝ) (hP : Z.transpose * Z * P * (Z.transpose * Z) = Z.transpose * Z)
    (hZ : ∀ a : Fin nZ → ℝ, Z.mulVec a = 0 → a = 0) (c : Fin nAct → ℝ) (a : Fin nZ → ℝ) (h : iF.mulVec c = Z.mulVec a) :
    (u2z P Z iF).mulVec c = a := by
  have e : (u2z P Z iF).mulVec c = P.mulVec ((Z.transpose * Z).mulVec a) := by
    rw [u2z, ← Matrix.mulVec_mulVec, ← Matrix.mulVec_mulVec, h, ← Matrix.mulVec_mulVec a Z.transpose Z]
  rw [e]
  refine sub_eq_zero.mp (gram_injective Z hZ _ ?_)
  rw [Matrix.mulVec_sub, Matrix.mulVec_mulVec, Matrix.mulVec_mulVec, hP, sub_self]

/-- **C198**: in general the shape of the mirror minus its decomposition is orthogonal to every mode, and no other coefficients
are closer to it: they are those of least squares. -/
theorem u2z_least {nPix nZ nAct : ℕ} (P : Matrix (Fin nZ) (Fin nZ) ℝ) (Z : Matrix (Fin nPix) (Fin nZ) ℝ)
    (iF : Matrix (Fin nPix) (Fin nAct) ℝ) (hP : Z.transpose * Z * P * (Z.transpose * Z) = Z.transpose * Z)
    (hZ : ∀ a : Fin nZ → ℝ, Z.mulVec a = 0 → a = 0) (c : Fin nAct → ℝ) :
    Z.transpose.mulVec (iF.mulVec c - Z.mulVec ((u2z P Z iF).mulVec c)) = 0 ∧
    ∀ a : Fin nZ → ℝ, ∑ p, (iF.mulVec c p - Z.mulVec ((u2z P Z iF).mulVec c) p) ^ 2 ≤ ∑ p, (iF.mulVec c p - Z.mulVec a p) ^ 2 := by
  have hinj : Function.Injective (Z.transpose * Z).mulVec := by
    intro a b hab
    refine sub_eq_zero.mp (gram_injective Z hZ _ ?_)
    rw [Matrix.mulVec_sub, hab, sub_self]
  have hsurj : Function.Surjective (Z.transpose * Z).mulVec :=
    Matrix.mulVec_surjective_iff_isUnit.mpr (Matrix.mulVec_injective_iff_isUnit.mp hinj)
  obtain ⟨w, hw⟩ := hsurj (Z.transpose.mulVec (iF.mulVec c))
  have horth : Z.transpose.mulVec (iF.mulVec c - Z.mulVec ((u2z P Z iF).mulVec c)) = 0 := by
    rw [Matrix.mulVec_sub, u2z, ← Matrix.mulVec_mulVec, ← Matrix.mulVec_mulVec, ← hw, Matrix.mulVec_mulVec,
      Matrix.mulVec_mulVec, Matrix.mulVec_mulVec, hP, sub_self]
  refine ⟨horth, fun a => ?_⟩
  set r := iF.mulVec c - Z.mulVec ((u2z P Z iF).mulVec c) with hr
  set d := Z.mulVec ((u2z P Z iF).mulVec c - a) with hd
  have hx : ∑ p, r p * d p = 0 := by
    show r ⬝ᵥ d = 0
    rw [hd, Matrix.dotProduct_mulVec, ← Matrix.mulVec_transpose, horth, zero_dotProduct]
  have e : ∀ p, iF.mulVec c p - Z.mulVec a p = r p + d p := by
    intro p; rw [hr, hd, Matrix.mulVec_sub]; simp
  have e2 : ∑ p, (iF.mulVec c p - Z.mulVec a p) ^ 2 = ∑ p, r p ^ 2 + 2 * (∑ p, r p * d p) + ∑ p, d p ^ 2 := by
    rw [mul_sum, ← sum_add_distrib, ← sum_add_distrib]
    exact sum_congr rfl fun p _ => by rw [e]; ring
  rw [e2, hx]
  have : 0 ≤ ∑ p, d p ^ 2 := sum_nonneg fun p _ => sq_nonneg _
  have e3 : ∑ p, (iF.mulVec c p - Z.mulVec ((u2z P Z iF).mulVec c) p) ^ 2 = ∑ p, r p ^ 2 := rfl
  rw [e3]; linarith

/-- A case: one mode over two pixels. -/
example : (u2z (Matrix.of ![![1/2]]) (Matrix.of ![![1], ![-1]]) (Matrix.of ![![1, 0], ![0, 1]] : Matrix (Fin 2) (Fin 2) ℝ)).mulVec ![3, -3] = ![3] := by
  refine u2z_exact _ _ _ ?_ ?_ _ _ ?_
  · ext i j
    fin_cases i; fin_cases j
    simp [Matrix.mul_apply]; norm_num
  · intro a h
    have := congrFun h 0
    simp [Matrix.mulVec, dotProduct] at this
    ext i; fin_cases i; simpa using this
  · ext i; fin_cases i <;> simp [Matrix.mulVec, dotProduct]

/-! ### C199 noise -/

/-- **C199**: the autocorrelation is that of C106 and leaves centred commands; a second call changes nothing. -/
theorem noise_autocorrelation_partial (nF nU L s : ℕ) (g : (ℕ → ℝ) → ℝ) (u : ℕ → ℕ → ℝ) : ∃ e,
    noise .autocorrelation nF nU L s g u = .ok e ∧ (∀ i j, e.cov i j = Telemetry.noiseCov nF s u i j) ∧
      (∀ j, ∑ t ∈ range nF, e.u t j = 0) ∧ (∀ t t' j, e.u t j - e.u t' j = u t j - u t' j) ∧
      ∃ e', noise .autocorrelation nF nU L s g e.u = .ok e' ∧ e'.cov = e.cov ∧ e'.u = e.u := by
  have hz : ∀ j, ∑ t ∈ range nF, centre nF u t j = 0 := by
    intro j
    rcases Nat.eq_zero_or_pos nF with h | hF
    · subst h; simp
    have hF' : (nF : ℝ) ≠ 0 := by positivity
    simp only [centre]
    rw [sum_sub_distrib, sum_const, card_range, nsmul_eq_mul]
    field_simp
    ring
  have hc : centre nF (centre nF u) = centre nF u := by
    funext t j
    rw [centre, hz, zero_div, sub_zero]
  refine ⟨_, rfl, fun i j => rfl, hz, fun t t' j => by simp [centre], ⟨_, rfl, ?_, ?_⟩⟩
  · simp only [hc]
  · simp only [hc]

/-- **C199 (what fails)**: the method with the transfer function always raises. -/
theorem noise_rtf_violation (nF nU L s : ℕ) (g : (ℕ → ℝ) → ℝ) (u : ℕ → ℕ → ℝ) : ∃ e, noise .rtf nF nU L s g u = .error e := by
  rw [noise]; split <;> exact ⟨_, rfl⟩

/-- **C199 (what fails)**: an unknown method gives no noise, without error, and changes the telemetry. -/
theorem noise_other_violation (nF nU L s : ℕ) (g : (ℕ → ℝ) → ℝ) (u : ℕ → ℕ → ℝ) :
    noise .other nF nU L s g u = .ok ⟨fun _ _ => 0, centre nF u⟩ ∧ noise .nonoise nF nU L s g u = .ok ⟨fun _ _ => 0, u⟩ :=
  ⟨rfl, rfl⟩

/-- **C199 (what fails)**: the interpolation works on the frames instead of the commands: the noise of command `i` is that of
frame `i`, and with more commands than frames it raises. -/
theorem noise_interpolation_violation (nF nU L s : ℕ) (g : (ℕ → ℝ) → ℝ) (u : ℕ → ℕ → ℝ) :
    (nF < nU → noise .interpolation nF nU L s g u = .error .indexError) ∧
    (nU ≤ nF → ∃ e, noise .interpolation nF nU L s g u = .ok e ∧ ∀ i, e.cov i i = g fun j => u i j - (∑ t ∈ range nF, u t j) / nF) := by
  constructor
  · intro h; rw [noise, if_neg (by omega)]
  · intro h
    rw [noise, if_pos h]
    exact ⟨_, rfl, fun i => by simp only [if_true]; rfl⟩

end P3.Diag
