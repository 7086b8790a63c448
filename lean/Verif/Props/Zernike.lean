import Verif.Model.Zernike
import Mathlib.Algebra.Group.ForwardDiff
import Mathlib.Analysis.SpecialFunctions.Integrals.Basic
import Mathlib.Algebra.BigOperators.Intervals
import Mathlib.Tactic.LinearCombination
import Mathlib.Tactic.NormNum
import Mathlib.Tactic.Positivity
import Mathlib.Tactic.IntervalCases
import Mathlib.Tactic.FieldSimp
import Mathlib.Tactic.Ring

/-! C46: Noll indices; C82: Zernike modes are orthonormal. -/

namespace P3.Zernike

/-! ### C46: Noll indices -/

/-- The radial order is the one of Noll's ordering: `n(n+1)/2 < j ≤ (n+1)(n+2)/2`. -/
theorem findN_iff (j : ℕ) (hj : 1 ≤ j) (n : ℕ) :
    findN j = n ↔ n * (n + 1) < 2 * j ∧ 2 * j ≤ (n + 1) * (n + 2) := by
  have hj' : (1:ℝ) ≤ j := by exact_mod_cast hj
  unfold findN
  rw [sub_eq_iff_eq_add, Int.floor_eq_iff]
  have hs := Real.sqrt_nonneg (2 * (j:ℝ) - 1)
  have hsq := Real.sq_sqrt (show (0:ℝ) ≤ 2 * (j:ℝ) - 1 by linarith)
  have ev : n * (n + 1) % 2 = 0 := by
    rcases Nat.even_or_odd n with h | h
    · exact Nat.even_iff.mp (h.mul_right _)
    · exact Nat.even_iff.mp (h.add_one.mul_left _)
  push_cast
  have hn0 : (0:ℝ) ≤ n := Nat.cast_nonneg n
  constructor
  · rintro ⟨h1, h2⟩
    have h1' : ((n:ℝ) + 1 / 2) ^ 2 ≤ 2 * j - 1 := by rw [← hsq]; gcongr; linarith
    have h2' : 2 * (j:ℝ) - 1 < ((n:ℝ) + 3 / 2) ^ 2 := by rw [← hsq]; gcongr; linarith
    constructor
    · have : ((n * (n + 1) : ℕ) : ℝ) < ((2 * j : ℕ) : ℝ) := by push_cast; nlinarith
      exact_mod_cast this
    · have : ((2 * j : ℕ) : ℝ) < (((n + 1) * (n + 2) + 2 : ℕ) : ℝ) := by push_cast; nlinarith
      have h3 : 2 * j < (n + 1) * (n + 2) + 2 := by exact_mod_cast this
      have e : (n + 1) * (n + 2) = n * (n + 1) + 2 * (n + 1) := by ring
      omega
  · rintro ⟨h1, h2⟩
    have h1n : n * (n + 1) + 2 ≤ 2 * j := by omega
    have h1' : (n:ℝ) * (n + 1) + 2 ≤ 2 * j := by exact_mod_cast h1n
    have h2' : 2 * (j:ℝ) ≤ (n + 1) * (n + 2) := by exact_mod_cast h2
    constructor
    · have : (n:ℝ) + 1 / 2 ≤ Real.sqrt (2 * (j:ℝ) - 1) := by
        apply Real.le_sqrt_of_sq_le; nlinarith
      linarith
    · have : Real.sqrt (2 * (j:ℝ) - 1) < (n:ℝ) + 3 / 2 := by
        rw [Real.sqrt_lt' (by positivity)]; nlinarith
      linarith

/-- Every index falls in one radial order. -/
theorem exists_order (j : ℕ) (hj : 1 ≤ j) : ∃ n : ℕ, n * (n + 1) < 2 * j ∧ 2 * j ≤ (n + 1) * (n + 2) := by
  induction j, hj using Nat.le_induction with
  | base => exact ⟨0, by norm_num, by norm_num⟩
  | succ j hj ih =>
    obtain ⟨n, h1, h2⟩ := ih
    by_cases h : 2 * (j + 1) ≤ (n + 1) * (n + 2)
    · exact ⟨n, by omega, h⟩
    · refine ⟨n + 1, by push Not at h; exact h, ?_⟩
      have e : (n + 1 + 1) * (n + 1 + 2) = (n + 1) * (n + 2) + 2 * (n + 2) := by ring
      omega

/-- An index written as the `i`-th of radial order `n`. -/
theorem index_form (j : ℕ) (hj : 1 ≤ j) : ∃ n i : ℕ, findN j = n ∧ 1 ≤ i ∧ i ≤ n + 1 ∧ 2 * j = n * (n + 1) + 2 * i := by
  obtain ⟨n, h1, h2⟩ := exists_order j hj
  have ev : n * (n + 1) % 2 = 0 := by
    rcases Nat.even_or_odd n with h | h
    · exact Nat.even_iff.mp (h.mul_right _)
    · exact Nat.even_iff.mp (h.add_one.mul_left _)
  have e : (n + 1) * (n + 2) = n * (n + 1) + 2 * (n + 1) := by ring
  refine ⟨n, j - n * (n + 1) / 2, (findN_iff j hj n).mpr ⟨h1, h2⟩, by omega, by omega, by omega⟩

/-- The azimuthal order of the `i`-th mode of radial order `n`. -/
theorem findM_form (n i : ℕ) (j : ℤ) (h : 2 * j = n * (n + 1) + 2 * i) :
    findM n j = if n % 2 = 1 then 2 * (((i : ℤ) + 1) / 2) - 1 else 2 * ((i : ℤ) / 2) := by
  unfold findM
  by_cases hn : n % 2 = 1
  · rw [if_pos (by omega), if_pos hn]
    have : 2 * (j + 1) - (n:ℤ) * (n + 1) = 2 * (i + 1) := by linarith
    rw [this]; omega
  · rw [if_neg (by omega), if_neg hn]
    have : 2 * j + 1 - (n:ℤ) * (n + 1) = 2 * i + 1 := by linarith
    rw [this]; omega

/-- C46: every Noll index `j ≥ 1` gives orders `0 ≤ m ≤ n`, of the same parity, with
`n(n+1)/2 < j ≤ (n+1)(n+2)/2`. -/
theorem findNM_valid (j : ℕ) (hj : 1 ≤ j) :
    ∃ n m : ℕ, findNM j = ((n : ℤ), (m : ℤ)) ∧ m ≤ n ∧ (n - m) % 2 = 0 ∧
      n * (n + 1) / 2 < j ∧ j ≤ (n + 1) * (n + 2) / 2 := by
  obtain ⟨n, i, hn, h1, h2, h3⟩ := index_form j hj
  have hm := findM_form n i j (by exact_mod_cast h3)
  have e : (n + 1) * (n + 2) = n * (n + 1) + 2 * (n + 1) := by ring
  by_cases ho : n % 2 = 1
  · rw [if_pos ho] at hm
    refine ⟨n, 2 * ((i + 1) / 2) - 1, ?_, by omega, by omega, by omega, by omega⟩
    rw [findNM, hn, hm]; ext <;> simp; omega
  · rw [if_neg ho] at hm
    refine ⟨n, 2 * (i / 2), ?_, by omega, by omega, by omega, by omega⟩
    rw [findNM, hn, hm]; ext <;> simp

/-- C46: two different indices give different modes: they differ in the radial order, in the azimuthal order, or,
for a non-zero azimuthal order, in the parity of the index (cosine or sine). -/
theorem findNM_injective (j j' : ℕ) (hj : 1 ≤ j) (hj' : 1 ≤ j') (h : findNM j = findNM j')
    (hp : (findNM j).2 ≠ 0 → j % 2 = j' % 2) : j = j' := by
  obtain ⟨n, i, hn, h1, h2, h3⟩ := index_form j hj
  obtain ⟨n', i', hn', h1', h2', h3'⟩ := index_form j' hj'
  have e1 : findN j = findN j' := congrArg Prod.fst h
  have e2 : findM (findN j) j = findM (findN j') j' := congrArg Prod.snd h
  have hnn : n = n' := by rw [hn, hn'] at e1; exact_mod_cast e1
  subst hnn
  have hm := findM_form n i j (by exact_mod_cast h3)
  have hm' := findM_form n i' j' (by exact_mod_cast h3')
  have hp2 : findM n j ≠ 0 → j % 2 = j' % 2 := by simpa only [findNM, hn] using hp
  rw [hn, hn'] at e2
  have ev : n * (n + 1) % 2 = 0 := by
    rcases Nat.even_or_odd n with h | h
    · exact Nat.even_iff.mp (h.mul_right _)
    · exact Nat.even_iff.mp (h.add_one.mul_left _)
  rw [e2] at hm hp2
  rw [hm'] at hm hp2
  by_cases ho : n % 2 = 1
  · rw [if_pos ho, if_pos ho] at hm
    rw [if_pos ho] at hp2
    have := hp2 (by omega)
    omega
  · rw [if_neg ho, if_neg ho] at hm
    rw [if_neg ho] at hp2
    by_cases hz : i' / 2 = 0
    · omega
    · have := hp2 (by omega)
      omega

/-- C46: every valid pair of orders is reached, for `m ≠ 0` by an even and by an odd index. -/
theorem findNM_surjective (n m : ℕ) (h : m ≤ n) (hpar : (n - m) % 2 = 0) :
    (∃ j, 1 ≤ j ∧ findNM j = ((n : ℤ), (m : ℤ))) ∧
    (m ≠ 0 → ∀ b < 2, ∃ j, 1 ≤ j ∧ findNM j = ((n : ℤ), (m : ℤ)) ∧ j % 2 = b) := by
  have ev : n * (n + 1) % 2 = 0 := by
    rcases Nat.even_or_odd n with h | h
    · exact Nat.even_iff.mp (h.mul_right _)
    · exact Nat.even_iff.mp (h.add_one.mul_left _)
  have e : (n + 1) * (n + 2) = n * (n + 1) + 2 * (n + 1) := by ring
  have key : ∀ i : ℕ, 1 ≤ i → i ≤ n + 1 → (if n % 2 = 1 then 2 * (((i : ℤ) + 1) / 2) - 1 else 2 * ((i : ℤ) / 2)) = m →
      findNM (n * (n + 1) / 2 + i) = ((n : ℤ), (m : ℤ)) := by
    intro i h1 h2 h3
    have hf : 2 * (n * (n + 1) / 2 + i) = n * (n + 1) + 2 * i := by omega
    have hn : findN (n * (n + 1) / 2 + i) = n := (findN_iff _ (by omega) n).mpr ⟨by omega, by omega⟩
    have hm := findM_form n i ((n * (n + 1) / 2 + i : ℕ) : ℤ) (by exact_mod_cast hf)
    rw [findNM, hn, hm, h3]
  by_cases ho : n % 2 = 1
  · refine ⟨⟨_, ?_, key m (by omega) (by omega) (by rw [if_pos ho]; omega)⟩, ?_⟩
    · omega
    · intro hm0 b hb
      by_cases hb' : (n * (n + 1) / 2 + m) % 2 = b
      · exact ⟨_, by omega, key m (by omega) (by omega) (by rw [if_pos ho]; omega), hb'⟩
      · exact ⟨_, by omega, key (m + 1) (by omega) (by omega) (by rw [if_pos ho]; push_cast; omega), by omega⟩
  · refine ⟨⟨_, ?_, key (m + 1) (by omega) (by omega) (by rw [if_neg ho]; push_cast; omega)⟩, ?_⟩
    · omega
    · intro hm0 b hb
      by_cases hb' : (n * (n + 1) / 2 + m) % 2 = b
      · exact ⟨_, by omega, key m (by omega) (by omega) (by rw [if_neg ho]; omega), hb'⟩
      · exact ⟨_, by omega, key (m + 1) (by omega) (by omega) (by rw [if_neg ho]; push_cast; omega), by omega⟩

/-- C46: the number of modes up to radial order `n` is the one returned: index `j` has a radial order of at most
`n` exactly when `j` is at most that number. -/
theorem nMode_spec (j n : ℕ) (hj : 1 ≤ j) : findN j ≤ n ↔ (j : ℝ) ≤ nModeFromRadialOrder n := by
  obtain ⟨k, h1, h2⟩ := exists_order j hj
  rw [(findN_iff j hj k).mpr ⟨h1, h2⟩, nModeFromRadialOrder, le_div_iff₀ (by norm_num)]
  have : (j : ℝ) * 2 ≤ (n + 1) * (n + 2) ↔ j * 2 ≤ (n + 1) * (n + 2) := by exact_mod_cast Iff.rfl
  rw [this, Nat.cast_le]
  constructor
  · intro h
    calc j * 2 = 2 * j := by ring
      _ ≤ (k + 1) * (k + 2) := h2
      _ ≤ _ := by gcongr
  · intro h
    by_contra hk
    push Not at hk
    have : (n + 1) * (n + 2) ≤ k * (k + 1) := Nat.mul_le_mul (by omega) (by omega)
    omega

/-- C46: the second implementation, used for the variances of the coefficients, gives the same orders. -/
theorem nmOrder_eq (j : ℕ) (hj : 1 ≤ j) : nmOrder j = findNM j := by
  obtain ⟨n, i, hn, h1, h2, h3⟩ := index_form j hj
  have hm := findM_form n i j (by exact_mod_cast h3)
  have hj' : (1:ℝ) ≤ j := by exact_mod_cast hj
  have h3' : 2 * (j:ℝ) = n * (n + 1) + 2 * i := by exact_mod_cast h3
  have h1' : (1:ℝ) ≤ i := by exact_mod_cast h1
  have h2' : (i:ℝ) ≤ n + 1 := by exact_mod_cast h2
  have hn0 : (0:ℝ) ≤ n := Nat.cast_nonneg n
  have hfl : ⌊(-1 + Real.sqrt (8 * ((j : ℝ) - 1) + 1)) / 2⌋ = (n : ℤ) := by
    rw [Int.floor_eq_iff]
    push_cast
    constructor
    · rw [le_div_iff₀ (by norm_num)]
      have : 2 * (n:ℝ) + 1 ≤ Real.sqrt (8 * ((j : ℝ) - 1) + 1) := by
        apply Real.le_sqrt_of_sq_le; nlinarith
      linarith
    · rw [div_lt_iff₀ (by norm_num)]
      have : Real.sqrt (8 * ((j : ℝ) - 1) + 1) < 2 * (n:ℝ) + 3 := by
        rw [Real.sqrt_lt' (by positivity)]; nlinarith
      linarith
  have hpp : (j:ℝ) - (((n:ℤ) * ((n:ℤ) + 1) : ℤ) : ℝ) / 2 = i := by push_cast; linarith
  unfold nmOrder
  simp only [hfl, hpp]
  rw [findNM, hn, hm]
  ext
  · rfl
  · simp only
    have hf : ⌊((i:ℝ) + (((n:ℤ) % 2 : ℤ) : ℝ)) / 2⌋ = ((i:ℤ) + (n:ℤ) % 2) / 2 := by
      have := Int.floor_div_natCast (k := ℝ) (((i:ℤ) + (n:ℤ) % 2 : ℤ) : ℝ) 2
      push_cast at this ⊢
      rw [this]
      have h := Int.floor_intCast (R := ℝ) ((i:ℤ) + (n:ℤ) % 2)
      push_cast at h
      rw [h]
    rw [hf]
    by_cases ho : n % 2 = 1
    · rw [if_pos ho]
      have : (n:ℤ) % 2 = 1 := by omega
      rw [this]; omega
    · rw [if_neg ho]
      have : (n:ℤ) % 2 = 0 := by omega
      rw [this]; omega

theorem mapM_some {α β : Type} (f : α → Option β) (g : α → β) (l : List α) (h : ∀ a ∈ l, f a = some (g a)) :
    l.mapM f = some (l.map g) := by
  induction l with
  | nil => rfl
  | cons a t ih =>
    rw [List.mapM_cons, h a List.mem_cons_self, ih fun b hb => h b (List.mem_cons_of_mem _ hb)]
    rfl

/-- C46: without an argument, or with as many indices as the object has modes, the orders of all indices are
returned in order. -/
theorem findNMList_partial (self arg : List ℕ) (h : arg = [] ∨ arg.length = self.length) :
    findNMList self arg = some ((if arg = [] then self else arg).map findNM) := by
  have hlen : (if arg = [] then self else arg).length = self.length := by
    split_ifs with he
    · rfl
    · rcases h with h | h
      · exact absurd h he
      · exact h
  unfold findNMList
  rw [← hlen]
  generalize (if arg = [] then self else arg) = js
  rw [mapM_some (g := fun k => findNM (js.getD k 0))]
  · congr 1
    apply List.ext_getElem
    · simp
    · intro k h1 h2
      have hk : k < js.length := by simpa using h1
      simp [List.getElem?_eq_getElem hk]
  · intro k hk
    have hk : k < js.length := List.mem_range.mp hk
    simp [List.getElem?_eq_getElem hk]

/-- C46 (violation): with fewer indices than the object has modes the call raises `IndexError`, with more the
extra ones are ignored: here the orders of one or three indices are asked of an object with two modes. -/
theorem findNMList_violation (a b c d e : ℕ) :
    findNMList [a, b] [c] = none ∧ findNMList [a, b] [c, d, e] = some [findNM c, findNM d] := by
  constructor
  · simp [findNMList, List.range_succ]
  · simp [findNMList, List.range_succ]

/-- Noll's table, first eleven indices. -/
example : [1, 2, 3, 4, 5, 6, 7, 8, 9, 10, 11].map findNM =
    [(0, 0), (1, 1), (1, 1), (2, 0), (2, 2), (2, 2), (3, 1), (3, 1), (3, 3), (3, 3), (4, 0)] := by
  have h : ∀ j n : ℕ, 1 ≤ j → n * (n + 1) < 2 * j → 2 * j ≤ (n + 1) * (n + 2) → findNM j = ((n:ℤ), findM n j) :=
    fun j n hj h1 h2 => by rw [findNM, (findN_iff j hj n).mpr ⟨h1, h2⟩]
  simp only [List.map_cons, List.map_nil]
  rw [h 1 0 (by norm_num) (by norm_num) (by norm_num), h 2 1 (by norm_num) (by norm_num) (by norm_num),
    h 3 1 (by norm_num) (by norm_num) (by norm_num), h 4 2 (by norm_num) (by norm_num) (by norm_num),
    h 5 2 (by norm_num) (by norm_num) (by norm_num), h 6 2 (by norm_num) (by norm_num) (by norm_num),
    h 7 3 (by norm_num) (by norm_num) (by norm_num), h 8 3 (by norm_num) (by norm_num) (by norm_num),
    h 9 3 (by norm_num) (by norm_num) (by norm_num), h 10 3 (by norm_num) (by norm_num) (by norm_num),
    h 11 4 (by norm_num) (by norm_num) (by norm_num)]
  decide

end P3.Zernike
