import Verif.Props.Anisophase
import Verif.Props.ZernikeVar
import Mathlib.Topology.Order.MonotoneConvergence
/-! C458: the sum of the variances of the Zernike coefficients. -/

namespace P3.ZVar
open P3.Zernike Finset Filter Topology Real P3.Turbulence

theorem root_le (x A : ℝ) (p q : ℕ) (hq : 0 < q) (hx : 0 ≤ x) (hA : 0 ≤ A) (h : x ^ p ≤ A ^ q) : x ^ ((p:ℝ)/q) ≤ A := by
  have hq' : (0:ℝ) < q := Nat.cast_pos.2 hq
  have e : (A:ℝ) = (A ^ q) ^ ((1:ℝ)/q) := by
    rw [← rpow_natCast, ← rpow_mul hA, mul_one_div_cancel hq'.ne', rpow_one]
  rw [e, show (p:ℝ)/q = p * (1/q) by ring, rpow_mul hx, rpow_natCast]
  exact rpow_le_rpow (pow_nonneg hx _) h (one_div_nonneg.2 hq'.le)

theorem Gamma_rat_aux (p q : ℕ) (hp : 0 < p) (hpq : p < q) :
    (∏ k ∈ range 39, (q + p + q * k) : ℕ) / (q:ℝ) ^ 39 * Gamma (1 + p / q) ≤ (39:ℕ).factorial * (40:ℝ) ^ ((p:ℝ)/q) ∧
    ((39:ℕ).factorial : ℝ) * 40 ≤ (∏ k ∈ range 39, (q + p + q * k) : ℕ) / (q:ℝ) ^ 39 * Gamma (1 + p / q) *
      ((40:ℝ) + p / q) ^ (((q - p : ℕ):ℝ) / q) := by
  have hq : (0:ℝ) < q := Nat.cast_pos.2 (hp.trans hpq)
  have hp' : (0:ℝ) < p := Nat.cast_pos.2 hp
  have hpq' : (p:ℝ) < q := Nat.cast_lt.2 hpq
  have hs0 : (0:ℝ) < p / q := div_pos hp' hq
  have hs1 : (p:ℝ) / q < 1 := by rw [div_lt_one hq]; exact hpq'
  obtain ⟨u, l⟩ := Gamma_between 40 ((p:ℝ)/q) hs0 hs1 (by norm_num)
  have e := Gamma_shift (1 + (p:ℝ)/q) (add_pos one_pos hs0) 39
  rw [show 1 + (p:ℝ)/q + (39:ℕ) = ((40:ℕ):ℝ) + (p:ℝ)/q by push_cast; ring] at e
  have hf : Gamma ((40:ℕ):ℝ) = (39:ℕ).factorial := by
    have := Gamma_nat_eq_factorial 39
    rw [← this]; norm_num
  have ev : ∏ k ∈ Finset.range 39, (1 + (p:ℝ)/q + k) = (∏ k ∈ range 39, (q + p + q * k) : ℕ) / (q:ℝ) ^ 39 := by
    rw [Nat.cast_prod, show (q:ℝ) ^ 39 = ∏ k ∈ Finset.range 39, (q:ℝ) by simp, ← Finset.prod_div_distrib]
    refine Finset.prod_congr rfl fun k _ => ?_
    push_cast
    field_simp
  rw [e, hf, ev] at u l
  have h1 : 1 - (p:ℝ)/q = ((q - p : ℕ):ℝ) / q := by
    rw [Nat.cast_sub hpq.le]; field_simp
  rw [h1] at l
  have h40 : ((40:ℕ):ℝ) = 40 := by norm_num
  rw [h40] at u l
  exact ⟨u, l⟩

/-- Bounds of the Gamma function at `1 + p/q`. -/
theorem Gamma_rat (p q : ℕ) (hp : 0 < p) (hpq : p < q) (A B : ℝ) (hA : 0 ≤ A) (hB : 0 ≤ B) (h1 : (40:ℝ) ^ p ≤ A ^ q)
    (h2 : ((40:ℝ) + p / q) ^ (q - p) ≤ B ^ q) (M : ℕ) (hM : ∏ k ∈ range 39, (q + p + q * k) = M) :
    (M:ℝ) / q ^ 39 * Gamma (1 + p / q) ≤ 20397882081197443358640281739902897356800000000 * A ∧
    20397882081197443358640281739902897356800000000 * 40 ≤ (M:ℝ) / q ^ 39 * Gamma (1 + p / q) * B := by
  obtain ⟨u, l⟩ := Gamma_rat_aux p q hp hpq
  have ef : (39:ℕ).factorial = 20397882081197443358640281739902897356800000000 := by decide +kernel
  rw [hM, ef] at u l
  have hq0 := hp.trans hpq
  have hs : (0:ℝ) ≤ (p:ℝ) / q := div_nonneg (Nat.cast_nonneg _) (Nat.cast_nonneg _)
  have r1 := root_le 40 A p q hq0 (by norm_num) hA h1
  have r2 := root_le (40 + p / q) B (q - p) q hq0 (add_nonneg (by norm_num) hs) hB h2
  have hG : 0 < Gamma (1 + (p:ℝ)/q) := Gamma_pos_of_pos (add_pos_of_pos_of_nonneg one_pos hs)
  have hM0 : (0:ℝ) ≤ (M:ℝ) / q ^ 39 := div_nonneg (Nat.cast_nonneg _) (pow_nonneg (Nat.cast_nonneg _) _)
  constructor
  · refine u.trans ?_
    rw [Nat.cast_ofNat]
    exact mul_le_mul_of_nonneg_left r1 (by norm_num)
  · rw [Nat.cast_ofNat] at l
    exact l.trans (mul_le_mul_of_nonneg_left r2 (mul_nonneg hM0 hG.le))

theorem Gamma_seven_sixths : 0.926 < Gamma (7/6) ∧ Gamma (7/6) < 0.9294 := by
  obtain ⟨u, l⟩ := Gamma_rat 1 6 (by norm_num) (by norm_num) 1.84932 21.7048 (by norm_num) (by norm_num) (by norm_num) (by norm_num)
    90431798094731777479600113835418288105107282663665389020032607168648837890625 (by decide +kernel)
  rw [show 1 + ((1:ℕ):ℝ) / ((6:ℕ):ℝ) = 7/6 by norm_num] at u l
  constructor
  · norm_num at l ⊢; linarith
  · norm_num at u ⊢; linarith

theorem Gamma_five_thirds : 0.9 < Gamma (5/3) ∧ Gamma (5/3) < 0.9054 := by
  obtain ⟨u, l⟩ := Gamma_rat 2 3 (by norm_num) (by norm_num) 11.6961 3.43885 (by norm_num) (by norm_num) (by norm_num) (by norm_num)
    1068031599446075309251007650814414433615407972635551727616000000000 (by decide +kernel)
  rw [show 1 + ((2:ℕ):ℝ) / ((3:ℕ):ℝ) = 5/3 by norm_num] at u l
  constructor
  · norm_num at l ⊢; linarith
  · norm_num at u ⊢; linarith

/-- Telescoping. -/
noncomputable def T (n : ℕ) : ℝ := 3/5 * n * (n + 1) * Gamma (n - 5/6) / Gamma (n + 17/6)

theorem T_step (n : ℕ) (hn : 1 ≤ n) : T n - T (n + 1) = ((n:ℝ) + 1) ^ 2 * Gamma (n - 5/6) / Gamma (n + 23/6) := by
  have hn' : (1:ℝ) ≤ n := by exact_mod_cast hn
  have g5 : 0 < Gamma ((n:ℝ) - 5/6) := Gamma_pos_of_pos (by linarith)
  have g6 : 0 < Gamma ((n:ℝ) + 17/6) := Gamma_pos_of_pos (by linarith)
  have a1 : Gamma ((n:ℝ) + 23/6) = (n + 17/6) * Gamma (n + 17/6) := by
    rw [← Gamma_add_one (by positivity)]; congr 1; ring
  have a2 : Gamma (((n + 1 : ℕ):ℝ) - 5/6) = (n - 5/6) * Gamma (n - 5/6) := by
    rw [← Gamma_add_one (by linarith)]; congr 1; push_cast; ring
  have a3 : Gamma (((n + 1 : ℕ):ℝ) + 17/6) = (n + 17/6) * Gamma (n + 17/6) := by
    rw [← a1]; congr 1; push_cast; ring
  unfold T
  rw [a1, a2, a3]
  push_cast
  generalize Gamma ((n:ℝ) - 5/6) = x at *
  generalize Gamma ((n:ℝ) + 17/6) = y at *
  field_simp
  ring

theorem T_pos (n : ℕ) (hn : 1 ≤ n) : 0 < T n := by
  have hn' : (1:ℝ) ≤ n := by exact_mod_cast hn
  have g5 : 0 < Gamma ((n:ℝ) - 5/6) := Gamma_pos_of_pos (by linarith)
  have g6 : 0 < Gamma ((n:ℝ) + 17/6) := Gamma_pos_of_pos (by linarith)
  unfold T; positivity

theorem T_decr (n : ℕ) (hn : 1 ≤ n) : ((n + 1 : ℕ) : ℝ) * T (n + 1) ≤ n * T n := by
  have hn' : (1:ℝ) ≤ n := by exact_mod_cast hn
  have g5 : 0 < Gamma ((n:ℝ) - 5/6) := Gamma_pos_of_pos (by linarith)
  have g6 : 0 < Gamma ((n:ℝ) + 17/6) := Gamma_pos_of_pos (by linarith)
  have a2 : Gamma (((n + 1 : ℕ):ℝ) - 5/6) = (n - 5/6) * Gamma (n - 5/6) := by
    rw [← Gamma_add_one (by linarith)]; congr 1; push_cast; ring
  have a3 : Gamma (((n + 1 : ℕ):ℝ) + 17/6) = (n + 17/6) * Gamma (n + 17/6) := by
    rw [← Gamma_add_one (by positivity)]; congr 1; push_cast; ring
  unfold T
  rw [a2, a3]
  push_cast
  generalize Gamma ((n:ℝ) - 5/6) = x at *
  generalize Gamma ((n:ℝ) + 17/6) = y at *
  have : ((n:ℝ) + 1) * ((n + 2) * (n - 5/6)) ≤ n * n * (n + 17/6) := by nlinarith
  rw [show ((n:ℝ) + 1) * (3/5 * (n + 1) * (n + 1 + 1) * ((n - 5/6) * x) / ((n + 17/6) * y)) =
      (3/5 * (n + 1) * x / ((n + 17/6) * y)) * (((n:ℝ) + 1) * ((n + 2) * (n - 5/6))) by ring,
    show (n:ℝ) * (3/5 * n * (n + 1) * x / y) = (3/5 * (n + 1) * x / ((n + 17/6) * y)) * (n * n * (n + 17/6)) by field_simp]
  exact mul_le_mul_of_nonneg_left this (by positivity)

theorem T_tendsto : Tendsto (fun n : ℕ => T (n + 1)) atTop (𝓝 0) := by
  have hb : ∀ n : ℕ, T (n + 1) ≤ T 1 * (1 / ((n:ℝ) + 1)) := by
    intro n
    have : ((n + 1 : ℕ) : ℝ) * T (n + 1) ≤ T 1 := by
      induction n with
      | zero => simp
      | succ n ih => exact (T_decr (n + 1) (by omega)).trans ih
    push_cast at this
    rw [mul_one_div, le_div_iff₀ (by positivity)]
    linarith
  refine squeeze_zero (fun n => (T_pos (n + 1) (by omega)).le) hb ?_
  have := (tendsto_one_div_add_atTop_nhds_zero_nat (𝕜 := ℝ)).const_mul (T 1)
  simpa using this

/-- The variance of the mode `j` for `D/r0 = dr0` without outer scale, from the code called on the list of this mode. -/
noncomputable def modeVar (dr0 : ℝ) (j : ℕ) : ℝ :=
  match coefficientsVariance [j] dr0 0 with
  | .ok [some v] => v
  | _ => 0

/-- The common factor of the variances. -/
noncomputable def nollA (dr0 : ℝ) : ℝ := (Gamma (11/6) ^ 2 * Gamma (14/3) / (2 ^ (8/3 : ℝ) * π)) * (24 * Gamma (6/5) / 5) ^ (5/6 : ℝ) *
      dr0 ^ (5/3 : ℝ) / Gamma (17/6) ^ 2

theorem modeVar_order (dr0 : ℝ) (n j : ℕ) (hn : 1 ≤ n) (hj : n * (n + 1) < 2 * j) (hj' : 2 * j ≤ (n + 1) * (n + 2)) :
    modeVar dr0 j = nollA dr0 * ((n:ℝ) + 1) * Gamma (n - 5/6) / Gamma (n + 23/6) := by
  have h1 : 1 ≤ j := by omega
  have hN := (findN_iff j h1 n).2 ⟨hj, hj'⟩
  unfold modeVar
  rw [variance_order [j] (by simpa using h1), if_neg (by simp)]
  have e : orderVar dr0 0 (findN j) = some (nollA dr0 * ((n:ℝ) + 1) * Gamma (n - 5/6) / Gamma (n + 23/6)) := by
    unfold orderVar nollA
    rw [if_pos rfl, hN, if_neg (by exact_mod_cast (by omega : n ≠ 0))]
    simp only [Int.cast_natCast]
    congr 1
    ring
  simp only [List.map_cons, List.map_nil, e]

theorem partial_sum (dr0 : ℝ) (N : ℕ) : ∑ j ∈ range (N * (N + 3) / 2), modeVar dr0 (j + 2) = nollA dr0 * (T 1 - T (N + 1)) := by
  induction N with
  | zero => simp
  | succ N ih =>
    have ev : N * (N + 3) % 2 = 0 := by
      rcases Nat.even_or_odd N with h | h
      · exact Nat.even_iff.mp (h.mul_right _)
      · exact Nat.even_iff.mp ((h.add_odd (by decide)).mul_left _)
    have e1 : (N + 1) * (N + 1 + 3) / 2 = N * (N + 3) / 2 + (N + 2) := by
      have : (N + 1) * (N + 1 + 3) = N * (N + 3) + 2 * (N + 2) := by ring
      omega
    rw [e1, sum_range_add, ih]
    have key : ∀ i ∈ range (N + 2), modeVar dr0 (N * (N + 3) / 2 + i + 2) =
        nollA dr0 * (((N + 1 : ℕ):ℝ) + 1) * Gamma ((N + 1 : ℕ) - 5/6) / Gamma ((N + 1 : ℕ) + 23/6) := by
      intro i hi
      rw [mem_range] at hi
      have a1 : (N + 1) * (N + 1 + 1) = N * (N + 3) + 2 := by ring
      have a2 : (N + 1 + 1) * (N + 1 + 2) = N * (N + 3) + 2 * N + 6 := by ring
      exact modeVar_order dr0 (N + 1) _ (by omega) (by omega) (by omega)
    rw [sum_congr rfl key, sum_const, card_range, nsmul_eq_mul]
    have := T_step (N + 1) (by omega)
    have h2 : T 1 - T (N + 1 + 1) = (T 1 - T (N + 1)) + (T (N + 1) - T (N + 1 + 1)) := by ring
    rw [h2, this]
    push_cast
    ring

theorem nollA_pos (dr0 : ℝ) (hd : 0 < dr0) : 0 < nollA dr0 := by
  have g1 : 0 < Real.Gamma (11/6) := Real.Gamma_pos_of_pos (by norm_num)
  have g2 : 0 < Real.Gamma (14/3) := Real.Gamma_pos_of_pos (by norm_num)
  have g3 : 0 < Real.Gamma (6/5) := Real.Gamma_pos_of_pos (by norm_num)
  have g4 : 0 < Real.Gamma (17/6) := Real.Gamma_pos_of_pos (by norm_num)
  have := Real.pi_pos
  unfold nollA; positivity

theorem modeVar_pos (dr0 : ℝ) (hd : 0 < dr0) (j : ℕ) : 0 < modeVar dr0 (j + 2) := by
  obtain ⟨n, i, hn, h1, h2, h3⟩ := index_form (j + 2) (by omega)
  have hn1 : 1 ≤ n := by
    rcases Nat.eq_zero_or_pos n with h | h
    · subst h; omega
    · exact h
  have hn' : (1:ℝ) ≤ n := by exact_mod_cast hn1
  have b := (findN_iff (j + 2) (by omega) n).1 hn
  rw [modeVar_order dr0 n (j + 2) hn1 b.1 b.2]
  have g5 : 0 < Real.Gamma ((n:ℝ) - 5/6) := Real.Gamma_pos_of_pos (by linarith)
  have g6 : 0 < Real.Gamma ((n:ℝ) + 23/6) := Real.Gamma_pos_of_pos (by linarith)
  have := nollA_pos dr0 hd
  positivity

theorem noll_hasSum (dr0 : ℝ) (hd : 0 < dr0) : HasSum (fun j => modeVar dr0 (j + 2)) (nollA dr0 * T 1) := by
  rw [hasSum_iff_tendsto_nat_of_nonneg (fun j => (modeVar_pos dr0 hd j).le)]
  have hmono : Monotone fun n => ∑ j ∈ range n, modeVar dr0 (j + 2) := by
    intro m n hmn
    exact sum_le_sum_of_subset_of_nonneg (range_mono hmn) fun j _ _ => (modeVar_pos dr0 hd j).le
  have ht : Tendsto (fun N : ℕ => N * (N + 3) / 2) atTop atTop := by
    refine tendsto_atTop_mono (fun N => ?_) tendsto_id
    rw [id, Nat.le_div_iff_mul_le (by norm_num)]
    nlinarith [Nat.zero_le N]
  rw [tendsto_iff_tendsto_subseq_of_monotone hmono ht]
  have : ((fun n => ∑ j ∈ range n, modeVar dr0 (j + 2)) ∘ fun N : ℕ => N * (N + 3) / 2) = fun N => nollA dr0 * (T 1 - T (N + 1)) := by
    funext N; exact partial_sum dr0 N
  rw [this]
  have := (T_tendsto.const_sub (T 1)).const_mul (nollA dr0)
  simpa using this


theorem two_eight_thirds : 6.349 < (2:ℝ) ^ (8/3 : ℝ) ∧ (2:ℝ) ^ (8/3 : ℝ) < 6.35 := by
  have e : ((2:ℝ) ^ (8/3 : ℝ)) ^ 3 = 256 := by
    rw [← rpow_natCast, ← rpow_mul (by norm_num)]
    rw [show (8/3 : ℝ) * (3:ℕ) = (8:ℕ) by norm_num, rpow_natCast]; norm_num
  constructor
  · refine lt_of_pow_lt_pow_left₀ 3 (by positivity) ?_
    rw [e]; norm_num
  · refine lt_of_pow_lt_pow_left₀ 3 (by norm_num) ?_
    rw [e]; norm_num

theorem total_value (dr0 : ℝ) (hd : 0 < dr0) : |nollA dr0 * T 1 - 1.03 * dr0 ^ ((5:ℝ)/3)| ≤ 0.02 * dr0 ^ ((5:ℝ)/3) := by
  have a0 : Gamma (17/6) = 11/6 * Gamma (11/6) := by
    rw [show (17/6:ℝ) = 11/6 + 1 by norm_num, Gamma_add_one (by norm_num)]
  have a1 : Gamma (23/6) = 17/6 * (11/6 * Gamma (11/6)) := by
    rw [show (23/6:ℝ) = 17/6 + 1 by norm_num, Gamma_add_one (by norm_num), a0]
  have a2 : Gamma (14/3) = 11/3 * (8/3 * (5/3 * Gamma (5/3))) := by
    rw [← Gamma_add_one (by norm_num : (5/3:ℝ) ≠ 0), show (5/3:ℝ) + 1 = 8/3 by norm_num,
      ← Gamma_add_one (by norm_num : (8/3:ℝ) ≠ 0), show (8/3:ℝ) + 1 = 11/3 by norm_num,
      ← Gamma_add_one (by norm_num : (11/3:ℝ) ≠ 0)]
    norm_num
  have a3 : Gamma (1/6) = 6 * Gamma (7/6) := by
    rw [show (7/6:ℝ) = 1/6 + 1 by norm_num, Gamma_add_one (by norm_num)]; ring
  obtain ⟨l1, u1⟩ := c1_value
  obtain ⟨l2, u2⟩ := Gamma_seven_sixths
  obtain ⟨l3, u3⟩ := Gamma_five_thirds
  obtain ⟨l4, u4⟩ := Gamma_eleven_sixths_value
  obtain ⟨l5, u5⟩ := two_eight_thirds
  have p1 := pi_gt_d4
  have p2 := pi_lt_d4
  have hX : 0 < dr0 ^ ((5:ℝ)/3) := by positivity
  have e : nollA dr0 * T 1 = (36/121 * (440/27) * (36/5) * (36/187) * (Gamma (5/3) * Atmosphere.c1 * Gamma (7/6)) /
      ((2:ℝ) ^ (8/3 : ℝ) * π * Gamma (11/6))) * dr0 ^ ((5:ℝ)/3) := by
    unfold nollA T Atmosphere.c1
    rw [a0, a2]
    norm_num only [Nat.cast_one]
    rw [a1, a3]
    generalize (24 * Gamma (6 / 5) / 5) ^ (5 / 6 : ℝ) = c
    generalize dr0 ^ (5/3 : ℝ) = X
    generalize (2:ℝ) ^ (8/3:ℝ) = Z at *
    field_simp
    ring
  rw [e, ← sub_mul, abs_mul, abs_of_pos hX]
  refine mul_le_mul_of_nonneg_right ?_ hX.le
  have hc := Atmosphere.c1_pos
  have n1 : 0.9 * 3.43 * 0.926 ≤ Gamma (5/3) * Atmosphere.c1 * Gamma (7/6) := by gcongr
  have n2 : Gamma (5/3) * Atmosphere.c1 * Gamma (7/6) ≤ 0.9054 * 3.45 * 0.9294 := by gcongr
  have d1 : 6.349 * 3.1415 * 0.9388 ≤ (2:ℝ) ^ (8/3 : ℝ) * π * Gamma (11/6) := by gcongr
  have d2 : (2:ℝ) ^ (8/3 : ℝ) * π * Gamma (11/6) ≤ 6.35 * 3.1416 * 0.9424 := by gcongr
  have hD : 0 < (2:ℝ) ^ (8/3 : ℝ) * π * Gamma (11/6) := by positivity
  generalize Gamma (5/3) * Atmosphere.c1 * Gamma (7/6) = N at *
  generalize (2:ℝ) ^ (8/3 : ℝ) * π * Gamma (11/6) = D at *
  rw [abs_le, le_sub_iff_add_le, sub_le_iff_le_add, le_div_iff₀ hD, div_le_iff₀ hD]
  constructor
  · norm_num at n1 d2 ⊢; linarith
  · norm_num at n2 d1 ⊢; linarith

theorem T_prod (N : ℕ) : T (N + 1) = T 1 * ∏ n ∈ range N, ((n:ℝ) + 3) * (n + 1/6) / ((n + 1) * (n + 23/6)) := by
  induction N with
  | zero => simp
  | succ N ih =>
    rw [prod_range_succ, ← mul_assoc, ← ih]
    have g5 : 0 < Gamma (((N + 1 : ℕ):ℝ) - 5/6) := Gamma_pos_of_pos (by push_cast; linarith [Nat.cast_nonneg (α := ℝ) N])
    have g6 : 0 < Gamma (((N + 1 : ℕ):ℝ) + 17/6) := Gamma_pos_of_pos (by positivity)
    have a2 : Gamma (((N + 1 + 1 : ℕ):ℝ) - 5/6) = ((N + 1 : ℕ) - 5/6) * Gamma ((N + 1 : ℕ) - 5/6) := by
      rw [← Gamma_add_one (by push_cast; linarith [Nat.cast_nonneg (α := ℝ) N])]; congr 1; push_cast; ring
    have a3 : Gamma (((N + 1 + 1 : ℕ):ℝ) + 17/6) = ((N + 1 : ℕ) + 17/6) * Gamma ((N + 1 : ℕ) + 17/6) := by
      rw [← Gamma_add_one (by positivity)]; congr 1; push_cast; ring
    unfold T
    rw [a2, a3]
    generalize Gamma (((N + 1 : ℕ):ℝ) - 5/6) = x at *
    generalize Gamma (((N + 1 : ℕ):ℝ) + 17/6) = y at *
    push_cast
    field_simp
    ring

/-- C458: without outer scale the variances of the coefficients of all modes but the piston sum to 1.03 `(D/r0)^(5/3)` (within
two percent), tip and tilt carry 10/23 of it each, and what is left after the correction of all the modes of the orders 1 to
`N` is the product below of it. -/
theorem noll_total (dr0 : ℝ) (hd : 0 < dr0) :
    ∃ V, HasSum (fun j => modeVar dr0 (j + 2)) V ∧ |V - 1.03 * dr0 ^ ((5:ℝ)/3)| ≤ 0.02 * dr0 ^ ((5:ℝ)/3) ∧
      modeVar dr0 2 = 10/23 * V ∧ modeVar dr0 3 = 10/23 * V ∧
      ∀ N, HasSum (fun j => modeVar dr0 (j + N * (N + 3) / 2 + 2))
        (V * ∏ n ∈ range N, ((n:ℝ) + 3) * (n + 1/6) / ((n + 1) * (n + 23/6))) := by
  have tilt : nollA dr0 * (((1:ℕ):ℝ) + 1) * Gamma ((1:ℕ) - 5/6) / Gamma ((1:ℕ) + 23/6) = 10/23 * (nollA dr0 * T 1) := by
    have a1 : Gamma (((1:ℕ):ℝ) + 23/6) = 23/6 * Gamma (23/6) := by
      rw [← Gamma_add_one (by norm_num)]; norm_num
    have g : 0 < Gamma (23/6) := Gamma_pos_of_pos (by norm_num)
    unfold T
    rw [a1, show ((1:ℕ):ℝ) + 17/6 = 23/6 by norm_num]
    push_cast
    field_simp
    ring
  refine ⟨nollA dr0 * T 1, noll_hasSum dr0 hd, total_value dr0 hd, ?_, ?_, ?_⟩
  · rw [modeVar_order dr0 1 2 le_rfl (by norm_num) (by norm_num), tilt]
  · rw [modeVar_order dr0 1 3 le_rfl (by norm_num) (by norm_num), tilt]
  · intro N
    have h1 := (hasSum_nat_add_iff' (f := fun j => modeVar dr0 (j + 2)) (N * (N + 3) / 2)).2 (noll_hasSum dr0 hd)
    rw [partial_sum, show nollA dr0 * T 1 - nollA dr0 * (T 1 - T (N + 1)) = nollA dr0 * T (N + 1) by ring, T_prod, ← mul_assoc] at h1
    exact h1

/-- What is left after tip and tilt: 13 percent. -/
example (dr0 : ℝ) (hd : 0 < dr0) : ∃ V, HasSum (fun j => modeVar dr0 (j + 2)) V ∧ HasSum (fun j => modeVar dr0 (j + 2 + 2)) (V * (3/23)) := by
  obtain ⟨V, h, -, -, -, hN⟩ := noll_total dr0 hd
  refine ⟨V, h, ?_⟩
  have := hN 1
  norm_num at this ⊢
  exact this

end P3.ZVar
