import Verif.Model.SegModes
import Mathlib.Analysis.Real.Pi.Bounds
import Mathlib.Tactic.Linarith

/-! Theorems about segmented modes (C492). -/

namespace P3.SegModes
open Real

theorem piston_arg {P : Type} (lit S : P → Bool) (v : ℝ) (p : P) :
    (piston lit S v p).arg = if lit p = true ∧ S p = true then toIocMod two_pi_pos (-π) v else 0 := by
  unfold piston
  by_cases h : lit p = true <;> by_cases h' : S p = true <;> simp [h, h', Complex.arg_exp_mul_I]

theorem shape_eq {P : Type} (lit S : P → Bool) (p : P) : shape lit S p = if lit p = true ∧ S p = true then 1 else 0 := by
  have h1 : toIocMod two_pi_pos (-π) 1 = 1 := by
    rw [toIocMod_eq_self]
    constructor <;> linarith [pi_gt_three]
  unfold shape
  rw [piston_arg, h1]
  split_ifs with h h' h'
  · rfl
  · exact absurd one_pos h'
  · exact absurd h' (lt_irrefl _)
  · rfl

/-- The mean of `z` over the lit pixels of a segment. -/
noncomputable def segMean {P : Type} [Fintype P] (lit S : P → Bool) (z : P → ℝ) : ℝ :=
  (∑ p with lit p = true ∧ S p = true, z p) / ((Finset.univ.filter fun p => lit p = true ∧ S p = true).card : ℝ)

theorem value_eq {P : Type} [Fintype P] (lit S : P → Bool) (z : P → ℝ) : value lit S z = segMean lit S z := by
  classical
  have e : ((Finset.univ : Finset P).filter fun p => 0 < shape lit S p) = Finset.univ.filter fun p => lit p = true ∧ S p = true := by
    ext p
    simp only [Finset.mem_filter, Finset.mem_univ, true_and, shape_eq]
    split_ifs with h <;> simp [h]
  unfold value segMean
  simp only
  rw [e]
  congr 1
  refine Finset.sum_congr rfl fun p hp => ?_
  rw [shape_eq, if_pos (Finset.mem_filter.1 hp).2, one_mul]

theorem mode_eq {P : Type} [Fintype P] {n : ℕ} (lit : P → Bool) (seg : Fin n → P → Bool) (z : P → ℝ)
    (disj : ∀ i j p, seg i p = true → seg j p = true → i = j) (p : P) (j : Fin n) (hl : lit p = true) (hj : seg j p = true) :
    mode lit seg z p = toIocMod two_pi_pos (-π) (segMean lit (seg j) z) := by
  unfold mode
  rw [Finset.sum_eq_single j]
  · rw [piston_arg, if_pos ⟨hl, hj⟩, value_eq]
  · intro i _ hi
    rw [piston_arg, if_neg]
    exact fun h => hi (disj i j p h.2 hj)
  · exact fun h => absurd (Finset.mem_univ j) h

/-- C492 (partial): for segments without common pixel, a segmented mode is zero outside the lit segments and constant on each of them;
there it is the mean of the mode over the lit pixels of the segment up to turns of `2π`, and exactly that mean if and only if
the mean is within half a turn. Missing: means beyond half a turn. -/
theorem mode_partial {P : Type} [Fintype P] {n : ℕ} (lit : P → Bool) (seg : Fin n → P → Bool) (z : P → ℝ)
    (disj : ∀ i j p, seg i p = true → seg j p = true → i = j) (p : P) :
    ((lit p = false ∨ ∀ j, seg j p = false) → mode lit seg z p = 0) ∧
    ∀ j, lit p = true → seg j p = true →
      (mode lit seg z p = segMean lit (seg j) z ↔ -π < segMean lit (seg j) z ∧ segMean lit (seg j) z ≤ π) ∧
      (∃ k : ℤ, mode lit seg z p = segMean lit (seg j) z + k * (2 * π)) ∧ -π < mode lit seg z p ∧ mode lit seg z p ≤ π := by
  constructor
  · intro h
    unfold mode
    refine Finset.sum_eq_zero fun j _ => ?_
    rw [piston_arg, if_neg]
    rintro ⟨h1, h2⟩
    rcases h with h | h
    · rw [h1] at h; cases h
    · rw [h j] at h2; cases h2
  · intro j hl hj
    rw [mode_eq lit seg z disj p j hl hj]
    have hm := toIocMod_mem_Ioc two_pi_pos (-π) (segMean lit (seg j) z)
    refine ⟨?_, ⟨-toIocDiv two_pi_pos (-π) (segMean lit (seg j) z), ?_⟩, hm.1, by linarith [hm.2]⟩
    · rw [toIocMod_eq_self, Set.mem_Ioc]
      constructor
      · rintro ⟨a, b⟩; exact ⟨a, by linarith⟩
      · rintro ⟨a, b⟩; exact ⟨a, by linarith⟩
    · have := self_sub_toIocDiv_zsmul two_pi_pos (-π) (segMean lit (seg j) z)
      rw [← this, zsmul_eq_mul]
      push_cast
      ring

/-- C492 (violation): whenever the mean over a segment is between a half and one and a half turn, the mode is one turn
lower. -/
theorem mode_violation {P : Type} [Fintype P] {n : ℕ} (lit : P → Bool) (seg : Fin n → P → Bool) (z : P → ℝ)
    (disj : ∀ i j p, seg i p = true → seg j p = true → i = j) (p : P) (j : Fin n) (hl : lit p = true) (hj : seg j p = true)
    (h1 : π < segMean lit (seg j) z) (h2 : segMean lit (seg j) z ≤ 3 * π) : mode lit seg z p = segMean lit (seg j) z - 2 * π := by
  rw [mode_eq lit seg z disj p j hl hj]
  rw [← toIocMod_sub two_pi_pos (-π) (segMean lit (seg j) z), toIocMod_eq_self]
  constructor <;> linarith

-- C492: one segment of two lit pixels out of three, and modes with means of one and four
example (m : ℝ) : segMean (P := Fin 3) (fun p => p.val != 2) (fun _ => true) (fun _ => m) = m ∧
    (∀ i j : Fin 1, true = true → true = true → i = j) := by
  refine ⟨?_, fun i j _ _ => Subsingleton.elim i j⟩
  have : ((Finset.univ : Finset (Fin 3)).filter fun p => (p.val != 2) = true ∧ true = true).card = 2 := by decide
  unfold segMean
  rw [Finset.sum_const, this]
  simp

example : mode (P := Fin 3) (n := 1) (fun p => p.val != 2) (fun _ _ => true) (fun _ => 4) 0 = 4 - 2 * π := by
  have e : segMean (P := Fin 3) (fun p => p.val != 2) (fun _ => true) (fun _ => 4) = 4 := by
    have : ((Finset.univ : Finset (Fin 3)).filter fun p => (p.val != 2) = true ∧ true = true).card = 2 := by decide
    unfold segMean
    rw [Finset.sum_const, this]
    simp
  have := mode_violation (P := Fin 3) (n := 1) (fun p => p.val != 2) (fun _ _ => true) (fun _ => 4)
    (fun i j _ _ _ => Subsingleton.elim i j) 0 0 rfl rfl (by rw [e]; linarith [pi_le_four, pi_lt_d2]) (by rw [e]; linarith [pi_gt_three])
  rw [this, e]

end P3.SegModes
