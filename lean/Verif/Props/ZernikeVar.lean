import Verif.Model.ZernikeVar
import Verif.Props.Zernike
import Mathlib.Algebra.BigOperators.Intervals
import Mathlib.Algebra.Order.BigOperators.Group.Finset
import Mathlib.Tactic.Linarith
import Mathlib.Tactic.FieldSimp
import Mathlib.Tactic.Positivity
import Mathlib.Tactic.LinearCombination
/-
Properties of the variances of the Zernike coefficients.
-/
namespace P3.ZVar
open P3.Zernike Finset

/-! ### C191: the variance of a coefficient depends on its radial order only -/

/-- Spec: the variance of the modes of radial order `n`: Noll's formula without outer scale (infinite for the piston),
Conan's integral otherwise. -/
noncomputable def orderVar (dr0 dL0 : ℝ) (n : ℤ) : Option ℝ :=
  open Classical in
  if dL0 = 0 then
    if n = 0 then none
    else some ((Real.Gamma (11/6) ^ 2 * Real.Gamma (14/3) / (2 ^ (8/3 : ℝ) * Real.pi)) * (24 * Real.Gamma (6/5) / 5) ^ (5/6 : ℝ) *
      dr0 ^ (5/3 : ℝ) * ((n : ℝ) + 1) * Real.Gamma (n - 5/6) / (Real.Gamma (n + 23/6) * Real.Gamma (17/6) ^ 2))
  else some ((4 * Real.Gamma (11/6) ^ 2 / Real.pi ^ (14/3 : ℝ)) * (24 * Real.Gamma (6/5) / 5) ^ (5/6 : ℝ) *
        (dr0 / dL0) ^ (5/3 : ℝ) / dL0 ^ 2 * ((n : ℝ) + 1) * unParam 0 (n + 1) (n + 1) (11/6) (Real.pi * dL0))

theorem covCoef_diag (dr0 dL0 : ℝ) (j : ℕ) (hj : 1 ≤ j) :
    covCoef dr0 dL0 j j (nmOrder j).1 (nmOrder j).2 (nmOrder j).1 (nmOrder j).2 = orderVar dr0 dL0 (findN j) := by
  rw [nmOrder_eq j hj]
  have v := findNM_valid j hj
  obtain ⟨n, i, hn, hi1, hi2, hji⟩ := index_form j hj
  have h1 : (findNM j).1 = findN j := rfl
  rw [h1]
  have hsgn : ((findN j + findN j - (findNM j).2 - (findNM j).2) / 2) = findN j - (findNM j).2 := by omega
  have heven : Even (findN j - (findNM j).2) := by
    obtain ⟨n', m', e, _, hpar, _⟩ := v
    have e1 : findN j = n' := congrArg Prod.fst e
    have e2 : (findNM j).2 = m' := congrArg Prod.snd e
    rw [e1, e2, Int.even_iff]
    omega
  have hpow : (-1 : ℝ) ^ ((findN j + findN j - (findNM j).2 - (findNM j).2) / 2) = 1 := by
    rw [hsgn]; exact heven.neg_one_zpow
  have hn0 : (0:ℝ) ≤ (findN j : ℝ) + 1 := by rw [hn]; positivity
  have hsq : Real.sqrt (((findN j : ℝ) + 1) * (findN j + 1)) = (findN j : ℝ) + 1 := Real.sqrt_mul_self hn0
  have hz : (findN j = 0) ↔ ((j : ℤ) = 1 ∧ (j : ℤ) = 1) := by
    rw [hn]
    constructor
    · intro h
      have : n = 0 := by exact_mod_cast h
      subst this
      have : j = 1 := by omega
      subst this; simp
    · rintro ⟨h, _⟩
      have hj1 : j = 1 := by exact_mod_cast h
      subst hj1
      have : n = 0 := by
        rcases Nat.eq_zero_or_pos n with h | h
        · exact h
        · exfalso; nlinarith
      simp [this]
  unfold covCoef orderVar
  rw [if_pos ⟨rfl, Or.inl (by simp)⟩]
  by_cases hL : dL0 = 0
  · rw [if_pos hL, if_pos hL]
    by_cases h0 : findN j = 0
    · rw [if_pos h0, if_pos (hz.1 h0)]
    · rw [if_neg h0, if_neg (fun h => h0 (hz.2 h)), hpow, hsq]
      congr 1
      unfold newGamma
      simp only [List.map_cons, List.map_nil, List.prod_cons, List.prod_nil, mul_one]
      rw [show -5/6 + ((findN j : ℝ) + findN j) / 2 = findN j - 5/6 by ring,
        show 23/6 + ((findN j : ℝ) + findN j) / 2 = findN j + 23/6 by ring,
        show 17/6 + ((findN j : ℝ) - findN j) / 2 = 17/6 by ring]
      ring
  · rw [if_neg hL, if_neg hL, hpow, hsq, mul_one]

theorem assign_length (nv : List ℤ) (n : ℤ) (v : Option ℝ) (out : List (Option ℝ)) (h : out.length = nv.length) :
    (assign nv n v out).length = nv.length := by
  unfold assign; simp [h]
theorem assign_getD (nv : List ℤ) (n : ℤ) (v : Option ℝ) (out : List (Option ℝ)) (h : out.length = nv.length) (i : ℕ)
    (hi : i < nv.length) : (assign nv n v out).getD i none = if nv.getD i 0 = n then v else out.getD i none := by
  unfold assign
  rw [List.getD_eq_getElem _ _ (by simp [h, hi]), List.getElem_zipWith, List.getD_eq_getElem _ _ hi,
    List.getD_eq_getElem _ _ (by omega)]

/-- Some end of a run has the order of any position. -/
theorem runEnds_cover (nv : List ℤ) (i : ℕ) (hi : i < nv.length) : ∃ k ∈ runEnds nv, k < nv.length ∧ nv.getD k 0 = nv.getD i 0 := by
  obtain ⟨d, hd⟩ : ∃ d, nv.length - 1 = i + d := ⟨nv.length - 1 - i, by omega⟩
  induction d generalizing i with
  | zero => exact ⟨i, by unfold runEnds; rw [hd]; simp, hi, rfl⟩
  | succ d ih =>
    by_cases h : nv.getD (i + 1) 0 = nv.getD i 0
    · obtain ⟨k, hk, hkl, e⟩ := ih (i + 1) (by omega) (by omega)
      exact ⟨k, hk, hkl, e.trans h⟩
    · refine ⟨i, ?_, hi, rfl⟩
      unfold runEnds
      rw [List.mem_append, List.mem_filter, List.mem_range]
      left
      exact ⟨by omega, by simpa using h⟩
theorem runEnds_lt (nv : List ℤ) (hne : nv ≠ []) : ∀ k ∈ runEnds nv, k < nv.length := by
  have := List.length_pos_of_ne_nil hne
  intro k hk
  unfold runEnds at hk
  rw [List.mem_append, List.mem_filter, List.mem_range, List.mem_singleton] at hk
  omega

theorem foldl_assign (nv : List ℤ) (v : ℤ → Option ℝ) (ks : List ℕ) (hk : ∀ k ∈ ks, k < nv.length) (out : List (Option ℝ))
    (ho : out.length = nv.length) :
    (ks.foldl (fun out k => assign nv (nv.getD k 0) (v (nv.getD k 0)) out) out).length = nv.length ∧
    ∀ i < nv.length, (ks.foldl (fun out k => assign nv (nv.getD k 0) (v (nv.getD k 0)) out) out).getD i none =
      if ∃ k ∈ ks, nv.getD k 0 = nv.getD i 0 then v (nv.getD i 0) else out.getD i none := by
  classical
  induction ks generalizing out with
  | nil => exact ⟨ho, fun i _ => by simp⟩
  | cons k t ih =>
    have hl := assign_length nv (nv.getD k 0) (v (nv.getD k 0)) out ho
    obtain ⟨h1, h2⟩ := ih (fun k hk' => hk k (List.mem_cons_of_mem _ hk')) _ hl
    refine ⟨h1, fun i hi => ?_⟩
    rw [List.foldl_cons, h2 i hi, assign_getD _ _ _ _ ho i hi]
    by_cases ht : ∃ k ∈ t, nv.getD k 0 = nv.getD i 0
    · rw [if_pos ht, if_pos]
      obtain ⟨k', hk', e⟩ := ht
      exact ⟨k', List.mem_cons_of_mem _ hk', e⟩
    · rw [if_neg ht]
      by_cases he : nv.getD i 0 = nv.getD k 0
      · rw [if_pos he, if_pos ⟨k, List.mem_cons_self, he.symm⟩, he]
      · rw [if_neg he, if_neg]
        rintro ⟨k', hk', e⟩
        rcases List.mem_cons.1 hk' with rfl | h
        · exact he e.symm
        · exact ht ⟨k', h, e⟩

/-- C191: for every non-empty list of indices, in any order, each coefficient gets the variance of its radial order; an
empty list raises. -/
theorem variance_order (js : List ℕ) (hj : ∀ j ∈ js, 1 ≤ j) (dr0 dL0 : ℝ) :
    coefficientsVariance js dr0 dL0 = if js = [] then .error .indexError
      else .ok (js.map fun j => orderVar dr0 dL0 (findN j)) := by
  unfold coefficientsVariance
  by_cases hne : js = []
  · rw [if_pos hne, if_pos hne]
  rw [if_neg hne, if_neg hne]
  set nv := js.map fun j => (nmOrder j).1 with hnv
  have hlen : nv.length = js.length := by rw [hnv, List.length_map]
  have hnvne : nv ≠ [] := by rw [hnv]; simpa using hne
  have hget : ∀ k < js.length, nv.getD k 0 = (nmOrder (js.getD k 0)).1 := by
    intro k hk
    rw [List.getD_eq_getElem _ _ (by omega), List.getD_eq_getElem _ _ hk, ← List.getElem_map (fun j => (nmOrder j).1)]
  have hval : ∀ k < js.length, covCoef dr0 dL0 (js.getD k 0 : ℕ) (js.getD k 0 : ℕ) (nmOrder (js.getD k 0)).1 (nmOrder (js.getD k 0)).2
      (nmOrder (js.getD k 0)).1 (nmOrder (js.getD k 0)).2 = orderVar dr0 dL0 (nv.getD k 0) := by
    intro k hk
    have h1 : 1 ≤ js.getD k 0 := by rw [List.getD_eq_getElem _ _ hk]; exact hj _ (List.getElem_mem hk)
    rw [covCoef_diag dr0 dL0 _ h1, hget k hk, nmOrder_eq _ h1]; rfl
  have hstep : ∀ (ks : List ℕ) (hk : ∀ k ∈ ks, k < js.length) (out : List (Option ℝ)),
      ks.foldl (fun out k => assign nv (nmOrder (js.getD k 0)).1 (covCoef dr0 dL0 (js.getD k 0 : ℕ) (js.getD k 0 : ℕ)
        (nmOrder (js.getD k 0)).1 (nmOrder (js.getD k 0)).2 (nmOrder (js.getD k 0)).1 (nmOrder (js.getD k 0)).2) out) out =
      ks.foldl (fun out k => assign nv (nv.getD k 0) (orderVar dr0 dL0 (nv.getD k 0)) out) out := by
    intro ks
    induction ks with
    | nil => intros; rfl
    | cons k t ih =>
      intro hk out
      rw [List.foldl_cons, List.foldl_cons, hval k (hk k List.mem_cons_self), ← hget k (hk k List.mem_cons_self)]
      exact ih (fun k' h => hk k' (List.mem_cons_of_mem _ h)) _
  have hends : ∀ k ∈ runEnds nv, k < js.length := fun k hk => by rw [← hlen]; exact runEnds_lt nv hnvne k hk
  simp only
  rw [hstep (runEnds nv) hends]
  obtain ⟨h1, h2⟩ := foldl_assign nv (orderVar dr0 dL0) (runEnds nv) (fun k hk => runEnds_lt nv hnvne k hk)
    (js.map fun _ => some 0) (by simp [hlen])
  congr 1
  apply List.ext_getElem
  · rw [h1]; simp [hlen]
  · intro i hi1 hi2
    have hi : i < nv.length := by rw [h1] at hi1; exact hi1
    have := h2 i hi
    rw [List.getD_eq_getElem _ _ hi1] at this
    rw [this]
    obtain ⟨k, hk, _, e⟩ := runEnds_cover nv i hi
    rw [if_pos ⟨k, hk, e⟩]
    have hijs : i < js.length := by omega
    rw [hget i hijs, List.getD_eq_getElem _ _ hijs, nmOrder_eq _ (hj _ (List.getElem_mem hijs))]
    simp [findNM]

/-! ### C192: Noll's variances -/

/-- C192: without outer scale the variances of all modes but the piston are positive, proportional to `(D/r0)^(5/3)` and
decrease strictly with the radial order, by the ratio `(n+2)(n-5/6)/((n+1)(n+23/6))`. -/
theorem noll_decreasing (dr0 : ℝ) (hd : 0 < dr0) (n : ℕ) (hn : 1 ≤ n) :
    ∃ v v' : ℝ, orderVar dr0 0 n = some v ∧ orderVar dr0 0 (n + 1 : ℕ) = some v' ∧ 0 < v' ∧ v' < v ∧
      v' = v * (((n : ℝ) + 2) * (n - 5/6) / ((n + 1) * (n + 23/6))) := by
  have hn' : (1:ℝ) ≤ n := by exact_mod_cast hn
  have hnz : ((n : ℤ)) ≠ 0 := by omega
  have hnz' : (((n + 1 : ℕ) : ℤ)) ≠ 0 := by omega
  set A := (Real.Gamma (11/6) ^ 2 * Real.Gamma (14/3) / (2 ^ (8/3 : ℝ) * Real.pi)) * (24 * Real.Gamma (6/5) / 5) ^ (5/6 : ℝ) *
      dr0 ^ (5/3 : ℝ) with hA
  have g1 : 0 < Real.Gamma (11/6) := Real.Gamma_pos_of_pos (by norm_num)
  have g2 : 0 < Real.Gamma (14/3) := Real.Gamma_pos_of_pos (by norm_num)
  have g3 : 0 < Real.Gamma (6/5) := Real.Gamma_pos_of_pos (by norm_num)
  have g4 : 0 < Real.Gamma (17/6) := Real.Gamma_pos_of_pos (by norm_num)
  have g5 : 0 < Real.Gamma ((n:ℝ) - 5/6) := Real.Gamma_pos_of_pos (by linarith)
  have g6 : 0 < Real.Gamma ((n:ℝ) + 23/6) := Real.Gamma_pos_of_pos (by linarith)
  have hpi := Real.pi_pos
  have hA0 : 0 < A := by positivity
  have e1 : orderVar dr0 0 n = some (A * ((n : ℝ) + 1) * Real.Gamma (n - 5/6) / (Real.Gamma (n + 23/6) * Real.Gamma (17/6) ^ 2)) := by
    unfold orderVar
    rw [if_pos rfl, if_neg hnz]; simp only [Int.cast_natCast, hA]
  have e2 : orderVar dr0 0 (n + 1 : ℕ) = some (A * ((n : ℝ) + 2) * ((n - 5/6) * Real.Gamma (n - 5/6)) /
      (((n + 23/6) * Real.Gamma (n + 23/6)) * Real.Gamma (17/6) ^ 2)) := by
    unfold orderVar
    rw [if_pos rfl, if_neg hnz']
    rw [← Real.Gamma_add_one (by linarith : (n:ℝ) - 5/6 ≠ 0 ), ← Real.Gamma_add_one (by linarith : (n:ℝ) + 23/6 ≠ 0)]
    simp only [Int.cast_natCast, hA]
    push_cast
    rw [show (n:ℝ) + 1 - 5/6 = n - 5/6 + 1 by ring, show (n:ℝ) + 1 + 23/6 = n + 23/6 + 1 by ring]
    congr 3; ring
  have hk : (0:ℝ) < n - 5/6 := by linarith
  have hv : 0 < A * ((n : ℝ) + 1) * Real.Gamma (n - 5/6) / (Real.Gamma (n + 23/6) * Real.Gamma (17/6) ^ 2) := by positivity
  have hr : A * ((n : ℝ) + 2) * ((n - 5/6) * Real.Gamma (n - 5/6)) / (((n + 23/6) * Real.Gamma (n + 23/6)) * Real.Gamma (17/6) ^ 2) =
      A * ((n : ℝ) + 1) * Real.Gamma (n - 5/6) / (Real.Gamma (n + 23/6) * Real.Gamma (17/6) ^ 2) *
        (((n : ℝ) + 2) * (n - 5/6) / ((n + 1) * (n + 23/6))) := by
    generalize Real.Gamma ((n:ℝ) - 5/6) = x at *
    generalize Real.Gamma ((n:ℝ) + 23/6) = y at *
    generalize (n:ℝ) - 5/6 = u at *
    have : (n:ℝ) + 23/6 ≠ 0 := by positivity
    generalize (n:ℝ) + 23/6 = w at *
    field_simp
  refine ⟨_, _, e1, e2, by positivity, ?_, hr⟩
  rw [hr]
  have : ((n : ℝ) + 2) * (n - 5/6) / ((n + 1) * (n + 23/6)) < 1 := by
    rw [div_lt_one (by positivity)]; nlinarith
  exact mul_lt_of_lt_one_right hv this

theorem noll_scale (dr0 c : ℝ) (hd : 0 < dr0) (hc : 0 < c) (n : ℤ) :
    orderVar (c * dr0) 0 n = (orderVar dr0 0 n).map (c ^ (5/3 : ℝ) * ·) := by
  unfold orderVar
  rw [if_pos rfl, if_pos rfl]
  split_ifs
  · rfl
  · rw [Real.mul_rpow hc.le hd.le]
    simp only [Option.map_some]
    congr 1; ring

/-! ### C193: the hypergeometric series -/

/-- Spec: the term of order `k` of the generalised hypergeometric series. -/
noncomputable def term (a b : List ℝ) (z : ℝ) (k : ℕ) : ℝ :=
  (∏ l ∈ range k, shiftProd a l) / (∏ l ∈ range k, shiftProd b l) * z ^ k

theorem term_succ (a b : List ℝ) (z : ℝ) (k : ℕ) : term a b z (k + 1) = shiftProd a k * z * term a b z k / shiftProd b k := by
  unfold term
  rw [prod_range_succ, prod_range_succ, pow_succ, mul_div_mul_comm]
  ring

theorem loop_spec (a b : List ℝ) (z tol : ℝ) (fuel k : ℕ) (hf : 0 < fuel) :
    ∃ K, k < K ∧ K ≤ k + fuel ∧ loop a b z tol fuel k (term a b z k) (∑ l ∈ range (k + 1), term a b z l) = ∑ l ∈ range (K + 1), term a b z l ∧
      (K = k + fuel ∨ |(|term a b z (K - 1)| - |term a b z K|)| ≤ tol) ∧
      ∀ l, k < l → l < K → tol < |(|term a b z (l - 1)| - |term a b z l|)| := by
  induction fuel generalizing k with
  | zero => exact absurd hf (by simp)
  | succ fuel ih =>
    unfold loop
    simp only
    rw [← term_succ, ← sum_range_succ]
    by_cases h : |(|term a b z k| - |term a b z (k + 1)|)| ≤ tol
    · rw [if_pos h]
      exact ⟨k + 1, by omega, by omega, rfl, Or.inr (by simpa using h), fun l h1 h2 => by omega⟩
    · rw [if_neg h]
      rcases Nat.eq_zero_or_pos fuel with rfl | hf'
      · exact ⟨k + 1, by omega, by omega, rfl, Or.inl rfl, fun l h1 h2 => by omega⟩
      · obtain ⟨K, h1, h2, h3, h4, h5⟩ := ih (k + 1) hf'
        refine ⟨K, by omega, by omega, h3, ?_, ?_⟩
        · rcases h4 with h4 | h4
          · left; omega
          · right; exact h4
        · intro l hl1 hl2
          rcases Nat.eq_or_lt_of_le (Nat.succ_le_of_lt hl1) with e | e
          · subst e
            simpa using h
          · exact h5 l e hl2

/-- C193 (part): the value is a partial sum of the series, of at most 1002 terms, up to the first term whose modulus is
within the tolerance of that of the preceding one. -/
theorem series_sum (a b : List ℝ) (z : ℝ) (hz : z ≠ 0) :
    ∃ K, 1 ≤ K ∧ K ≤ 1001 ∧ pochammerSeries a b z = ∑ l ∈ range (K + 1), term a b z l ∧
      (K = 1001 ∨ |(|term a b z (K - 1)| - |term a b z K|)| ≤ 1 / 10 ^ 6) ∧
      ∀ l, 1 ≤ l → l < K → 1 / 10 ^ 6 < |(|term a b z (l - 1)| - |term a b z l|)| := by
  obtain ⟨K, h1, h2, h3, h4, h5⟩ := loop_spec a b z (1 / 10 ^ 6) 1001 0 (by norm_num)
  have t0 : term a b z 0 = 1 := by unfold term; simp
  have s0 : ∑ l ∈ range (0 + 1), term a b z l = 1 := by simp [t0]
  rw [t0, s0] at h3
  refine ⟨K, h1, by omega, ?_, by simpa using h4, fun l hl1 hl2 => h5 l (by omega) hl2⟩
  unfold pochammerSeries
  rw [if_neg hz, h3]

theorem series_zero (a b : List ℝ) : pochammerSeries a b 0 = 1 ∧ ∀ M, ∑ l ∈ range (M + 1), term a b 0 l = 1 := by
  refine ⟨by unfold pochammerSeries; rw [if_pos rfl], fun M => ?_⟩
  rw [sum_range_succ', sum_eq_zero]
  · unfold term; simp
  · intro l _; unfold term; simp

/-- C193 (part): where the terms decrease at least geometrically (ratio `q`) from the last two terms on, the error of the
value is at most `10^-6 (q/(1-q))^2`. -/
theorem series_accurate_partial (a b : List ℝ) (z q : ℝ) (hz : z ≠ 0) (hq0 : 0 ≤ q) (hq : q < 1) :
    ∃ K, 1 ≤ K ∧ K ≤ 1001 ∧ pochammerSeries a b z = ∑ l ∈ range (K + 1), term a b z l ∧
      (K < 1001 → (∀ l, K - 1 ≤ l → |term a b z (l + 1)| ≤ q * |term a b z l|) →
        ∀ M, K ≤ M → |∑ l ∈ range (M + 1), term a b z l - pochammerSeries a b z| ≤ 1 / 10 ^ 6 * (q / (1 - q)) ^ 2) := by
  obtain ⟨K, h1, h2, h3, h4, _⟩ := series_sum a b z hz
  refine ⟨K, h1, h2, h3, fun hK hr M hM => ?_⟩
  have h4 := h4.resolve_left (by omega)
  set t := term a b z with ht
  have hq1 : 0 < 1 - q := by linarith
  have r0 := hr (K - 1) le_rfl
  rw [show K - 1 + 1 = K by omega] at r0
  have b0 : |t (K - 1)| * (1 - q) ≤ 1 / 10 ^ 6 := by
    have := le_abs_self (|t (K - 1)| - |t K|)
    linarith
  have b1 : |t K| ≤ q * (1 / 10 ^ 6 / (1 - q)) := by
    refine r0.trans (mul_le_mul_of_nonneg_left ?_ hq0)
    rw [le_div_iff₀ hq1]; exact b0
  obtain ⟨d, rfl⟩ : ∃ d, M = K + d := ⟨M - K, by omega⟩
  have geo : ∀ d, |t (K + d)| ≤ q ^ d * |t K| := by
    intro d
    induction d with
    | zero => simp
    | succ d ih =>
      have := hr (K + d) (by omega)
      calc |t (K + (d + 1))| ≤ q * |t (K + d)| := this
        _ ≤ q * (q ^ d * |t K|) := mul_le_mul_of_nonneg_left ih hq0
        _ = q ^ (d + 1) * |t K| := by ring
  rw [h3]
  have tail : ∀ d, |∑ l ∈ range (K + d + 1), t l - ∑ l ∈ range (K + 1), t l| ≤ |t K| * (q * (1 - q ^ d) / (1 - q)) := by
    intro d
    induction d with
    | zero => simp
    | succ d ih =>
      rw [show K + (d + 1) + 1 = (K + d + 1) + 1 by ring, sum_range_succ]
      have := geo (d + 1)
      rw [show K + (d + 1) = K + d + 1 by ring] at this
      calc |∑ l ∈ range (K + d + 1), t l + t (K + d + 1) - ∑ l ∈ range (K + 1), t l|
          = |(∑ l ∈ range (K + d + 1), t l - ∑ l ∈ range (K + 1), t l) + t (K + d + 1)| := by congr 1; ring
        _ ≤ |∑ l ∈ range (K + d + 1), t l - ∑ l ∈ range (K + 1), t l| + |t (K + d + 1)| := abs_add_le _ _
        _ ≤ |t K| * (q * (1 - q ^ d) / (1 - q)) + q ^ (d + 1) * |t K| := add_le_add ih this
        _ = |t K| * (q * (1 - q ^ (d + 1)) / (1 - q)) := by field_simp; ring
  refine (tail d).trans ?_
  have hp : q ^ d ≤ 1 := pow_le_one₀ hq0 hq.le
  have hp0 : 0 ≤ q ^ d := pow_nonneg hq0 d
  calc |t K| * (q * (1 - q ^ d) / (1 - q)) ≤ q * (1 / 10 ^ 6 / (1 - q)) * (q * 1 / (1 - q)) := by
        apply mul_le_mul b1 _ _ (by positivity)
        · apply div_le_div_of_nonneg_right _ hq1.le
          exact mul_le_mul_of_nonneg_left (by linarith) hq0
        · exact div_nonneg (mul_nonneg hq0 (by linarith)) hq1.le
    _ = 1 / 10 ^ 6 * (q / (1 - q)) ^ 2 := by field_simp

/-- C193 (violation): the loop stops when two consecutive terms have the same size, wherever this happens: if the second
term is 1 the value is 2, ... -/
theorem series_violation (a b : List ℝ) (z : ℝ) (hz : z ≠ 0) (h : shiftProd a 0 * z / shiftProd b 0 = 1) :
    pochammerSeries a b z = 2 := by
  unfold pochammerSeries
  rw [if_neg hz]
  unfold loop
  simp only [mul_one, h]
  rw [if_pos (by norm_num)]
  norm_num

/-- ... while every further partial sum of a series of positive terms is larger by the third term. -/
theorem series_violation_far (a b : List ℝ) (z : ℝ) (hz : 0 < z) (ha : ∀ x ∈ a, 0 < x) (hb : ∀ x ∈ b, 0 < x)
    (h : shiftProd a 0 * z / shiftProd b 0 = 1) (M : ℕ) (hM : 2 ≤ M) :
    pochammerSeries a b z + shiftProd a 1 * z / shiftProd b 1 ≤ ∑ l ∈ range (M + 1), term a b z l := by
  have sp : ∀ (l : List ℝ) (k : ℕ), (∀ x ∈ l, 0 < x) → 0 < shiftProd l k := by
    intro l k hl
    unfold shiftProd
    induction l with
    | nil => simp
    | cons x t ih =>
      rw [List.map_cons, List.prod_cons]
      exact mul_pos (add_pos_of_pos_of_nonneg (hl x List.mem_cons_self) (Nat.cast_nonneg k)) (ih fun y hy => hl y (List.mem_cons_of_mem _ hy))
  rw [series_violation a b z hz.ne' h]
  have t0 : term a b z 0 = 1 := by unfold term; simp
  have t1 : term a b z 1 = 1 := by rw [term_succ, t0, mul_one, h]
  have t2 : term a b z 2 = shiftProd a 1 * z / shiftProd b 1 := by rw [term_succ, t1, mul_one]
  have tp : ∀ k, 0 ≤ term a b z k := by
    intro k
    induction k with
    | zero => rw [t0]; norm_num
    | succ k ih =>
      rw [term_succ]
      exact div_nonneg (mul_nonneg (mul_nonneg (sp a k ha).le hz.le) ih) (sp b k hb).le
  have : ∑ l ∈ range 3, term a b z l ≤ ∑ l ∈ range (M + 1), term a b z l :=
    sum_le_sum_of_subset_of_nonneg (range_mono (by omega)) (fun i _ _ => tp i)
  rw [sum_range_succ, sum_range_succ, sum_range_one, t0, t1, t2] at this
  linarith

/-- The integral for tip and tilt (`n = 1`) uses the series below. -/
theorem unParam_tilt (a : ℝ) : unParam 0 (1 + 1) (1 + 1) (11/6) a = 1 / (2 * Real.sqrt Real.pi * Real.Gamma (11/6)) *
    (newGamma [5/2, 3, 2, -1/6] [5, 3, 3] * a ^ (4 : ℝ) * pochammerSeries [5/2, 3, 2] [7/6, 5, 3, 3, 1] (a ^ 2) +
     newGamma [1/6, 7/3, 17/6, 11/6] [29/6, 17/6, 17/6] * a ^ (11/3 : ℝ) *
      pochammerSeries [7/3, 17/6, 11/6] [5/6, 29/6, 17/6, 17/6, 1] (a ^ 2)) := by
  unfold unParam
  norm_num

/-- C193 (violation): the first series of the tip-tilt variance for `(π D/L0)^2 = 7/2`, a telescope of 0.6 outer scales. -/
theorem tilt_series : pochammerSeries [5/2, 3, 2] [7/6, 5, 3, 3, 1] (7/2) = 2 ∧
    ∀ M, 2 ≤ M → 2.35 < ∑ l ∈ range (M + 1), term [5/2, 3, 2] [7/6, 5, 3, 3, 1] (7/2) l := by
  have h : shiftProd [5/2, 3, 2] 0 * (7/2) / shiftProd [7/6, 5, 3, 3, 1] 0 = 1 := by
    unfold shiftProd; norm_num
  refine ⟨series_violation _ _ _ (by norm_num) h, fun M hM => ?_⟩
  have := series_violation_far [5/2, 3, 2] [7/6, 5, 3, 3, 1] (7/2) (by norm_num)
    (by simp) (by simp) h M hM
  rw [series_violation _ _ _ (by norm_num) h] at this
  have e : shiftProd [5/2, 3, 2] 1 * (7/2) / shiftProd [7/6, 5, 3, 3, 1] 1 = 147/416 := by
    unfold shiftProd; norm_num
  rw [e] at this
  norm_num at this ⊢
  linarith

/-! ### The hypotheses can be met -/

example : coefficientsVariance [4, 2, 3, 2] 10 (1/5) = .ok [orderVar 10 (1/5) (findN 4), orderVar 10 (1/5) (findN 2),
    orderVar 10 (1/5) (findN 3), orderVar 10 (1/5) (findN 2)] := by
  rw [variance_order _ (by simp)]; simp
/-- The exponential series: the ratio of its terms is at most `1/2` from the first term on for `z = 1/2`. -/
example : ∀ l, |term [] [1] (1/2) (l + 1)| ≤ 1/2 * |term [] [1] (1/2) l| := by
  intro l
  rw [term_succ]
  have : shiftProd [] l = 1 := by simp [shiftProd]
  have h2 : shiftProd [1] l = 1 + l := by simp [shiftProd]
  rw [this, h2, one_mul, abs_div, abs_mul, abs_of_pos (by positivity : (0:ℝ) < 1 + l), abs_of_pos (by norm_num : (0:ℝ) < 1/2)]
  apply div_le_self (by positivity)
  have : (0:ℝ) ≤ l := Nat.cast_nonneg l
  linarith

/-! ### Cases that meet the hypotheses -/

/-- A case meeting the hypotheses of `series_violation_far`. -/
example : pochammerSeries [2] [4] 2 + shiftProd [2] 1 * 2 / shiftProd [4] 1 ≤ ∑ l ∈ range (5 + 1), term [2] [4] 2 l :=
  series_violation_far [2] [4] 2 (by norm_num) (by simp) (by simp) (by norm_num [shiftProd]) 5 (by norm_num)

end P3.ZVar
