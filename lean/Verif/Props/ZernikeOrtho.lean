import Verif.Props.Zernike

/-! C82: the Zernike modes computed by the code are orthonormal over the unit disc. -/

namespace P3.Zernike

open Finset
open scoped fwdDiff Nat

/-! ### Alternating binomial sums -/

/-- An alternating binomial sum is a finite difference. -/
theorem alt_sum_eq (k : ℕ) (f : ℝ → ℝ) :
    ∑ s ∈ range (k + 1), (-1 : ℝ) ^ s * k.choose s * f s = (-1) ^ k * (Δ_[(1:ℝ)]^[k] f) 0 := by
  rw [fwdDiff_iter_eq_sum_shift, Finset.mul_sum]
  refine Finset.sum_congr rfl fun s hs => ?_
  have hs' : s ≤ k := Nat.lt_succ_iff.mp (mem_range.mp hs)
  rw [zsmul_eq_mul]
  push_cast
  rw [nsmul_eq_mul, mul_one, zero_add]
  have : (-1:ℝ) ^ k * (-1) ^ (k - s) = (-1) ^ s := by
    obtain ⟨t, rfl⟩ := Nat.exists_eq_add_of_le hs'
    rw [Nat.add_sub_cancel_left, pow_add, mul_assoc, ← mul_pow]
    norm_num
  rw [← this]; ring

/-- Alternating sums kill polynomials of small degree. -/
theorem alt_sum_poly (k : ℕ) (P : Polynomial ℝ) (h : P.natDegree < k) :
    ∑ s ∈ range (k + 1), (-1 : ℝ) ^ s * k.choose s * P.eval (s : ℝ) = 0 := by
  rw [alt_sum_eq k fun x => P.eval x]
  have := Polynomial.fwdDiff_iter_eq_zero_of_degree_lt h
  rw [this]; simp

/-- Finite differences of the inverse. -/
theorem fwdDiff_inv (k : ℕ) (y : ℝ) (hy : ∀ i : ℕ, y + i ≠ 0) :
    (Δ_[(1:ℝ)]^[k] fun x => x⁻¹) y = (-1) ^ k * (k ! : ℝ) * (∏ i ∈ range (k + 1), (y + i))⁻¹ := by
  induction k generalizing y with
  | zero => simp
  | succ k ih =>
    rw [Function.iterate_succ', Function.comp_apply, fwdDiff, ih y hy,
      ih (y + 1) (fun i => by have := hy (i + 1); push_cast at this; rwa [add_assoc, add_comm 1 (i:ℝ)])]
    have e1 : ∏ i ∈ range (k + 1 + 1), (y + (i:ℝ)) = (∏ i ∈ range (k + 1), (y + (i:ℝ))) * (y + (k + 1 : ℕ)) :=
      prod_range_succ _ _
    have e2 : ∏ i ∈ range (k + 1 + 1), (y + (i:ℝ)) = (∏ i ∈ range (k + 1), (y + 1 + (i:ℝ))) * y := by
      rw [prod_range_succ']
      simp only [Nat.cast_zero, add_zero]
      congr 1
      refine prod_congr rfl fun i _ => ?_
      push_cast; ring
    have h0 : y ≠ 0 := by simpa using hy 0
    have hk : y + (k + 1 : ℕ) ≠ 0 := hy (k + 1)
    have hP : ∏ i ∈ range (k + 1), (y + (i:ℝ)) ≠ 0 := prod_ne_zero_iff.mpr fun i _ => hy i
    have hQ : ∏ i ∈ range (k + 1), (y + 1 + (i:ℝ)) ≠ 0 := prod_ne_zero_iff.mpr fun i _ => by
      have := hy (i + 1); push_cast at this; rwa [add_assoc, add_comm 1 (i:ℝ)]
    have i1 : (∏ i ∈ range (k + 1), (y + (i:ℝ)))⁻¹ = (∏ i ∈ range (k + 1 + 1), (y + (i:ℝ)))⁻¹ * (y + (k + 1 : ℕ)) := by
      rw [e1]; field_simp
    have i2 : (∏ i ∈ range (k + 1), (y + 1 + (i:ℝ)))⁻¹ = (∏ i ∈ range (k + 1 + 1), (y + (i:ℝ)))⁻¹ * y := by
      rw [e2]; field_simp
    rw [i1, i2, Nat.factorial_succ]
    push_cast
    ring

/-- `Σ (-1)^s C(k,s) / (a+k+1-s) = (-1)^k k! a! / (a+k+1)!`. -/
theorem alt_sum_inv (a k : ℕ) :
    ∑ s ∈ range (k + 1), (-1 : ℝ) ^ s * k.choose s * ((a + k + 1 : ℝ) - s)⁻¹ =
      (-1) ^ k * ((k ! : ℝ) * a ! / (a + k + 1)!) := by
  have h := fwdDiff_inv k (a + 1 : ℝ) (fun i => by positivity)
  rw [fwdDiff_iter_eq_sum_shift] at h
  rw [← Finset.sum_range_reflect] at h
  have hp : ∏ i ∈ range (k + 1), ((a:ℝ) + 1 + i) = ((a + k + 1)! : ℝ) / a ! := by
    rw [eq_div_iff (by positivity)]
    have := Nat.factorial_mul_ascFactorial a (k + 1)
    rw [Nat.ascFactorial_eq_prod_range] at this
    have h2 : ((a + k + 1)! : ℝ) = ((a ! * ∏ i ∈ range (k + 1), (a + 1 + i) : ℕ) : ℝ) := by
      rw [this]; rfl
    rw [h2]; push_cast; ring
  rw [hp] at h
  have h3 : (-1:ℝ) ^ k * ((k ! : ℝ) * a ! / (a + k + 1)!) = (-1) ^ k * (k ! : ℝ) * (((a + k + 1)! : ℝ) / a !)⁻¹ := by
    rw [inv_div]; ring
  rw [h3, ← h]
  refine sum_congr rfl fun s hs => ?_
  have hs' : s ≤ k := Nat.lt_succ_iff.mp (mem_range.mp hs)
  have e1 : k + 1 - 1 - s = k - s := by omega
  have e2 : k - (k - s) = s := by omega
  rw [e1, e2, Nat.choose_symm hs', zsmul_eq_mul, nsmul_eq_mul, Nat.cast_sub hs']
  push_cast
  congr 2
  ring

/-! ### The radial polynomials -/

theorem range_sum (n : ℕ) (f : ℕ → ℝ) : ((List.range n).map f).sum = ∑ i ∈ range n, f i := by
  induction n with
  | zero => simp
  | succ n ih => rw [List.range_succ, List.map_append, List.sum_append, ih, sum_range_succ]; simp

/-- The polynomial `∏_{i=1..k} (a + i - x)`. -/
noncomputable def qPoly (a k : ℕ) : Polynomial ℝ := ∏ i ∈ range k, (Polynomial.C ((a : ℝ) + i + 1) - Polynomial.X)

theorem qPoly_eval (a k : ℕ) (x : ℝ) : (qPoly a k).eval x = ∏ i ∈ range k, ((a : ℝ) + i + 1 - x) := by
  simp [qPoly, Polynomial.eval_prod]

/-- At the integers up to `a` it is a quotient of factorials. -/
theorem qPoly_nat (a k s : ℕ) (h : s ≤ a) : (qPoly a k).eval (s : ℝ) = ((a + k - s)! : ℝ) / (a - s)! := by
  rw [qPoly_eval, eq_div_iff (by positivity)]
  obtain ⟨t, rfl⟩ := Nat.exists_eq_add_of_le h
  have e : s + t + k - s = t + k := by omega
  rw [e, Nat.add_sub_cancel_left, ← Nat.factorial_mul_ascFactorial t k, Nat.ascFactorial_eq_prod_range]
  push_cast
  rw [mul_comm]
  congr 1
  refine prod_congr rfl fun i _ => ?_
  ring

theorem natDegree_linear_le (c : ℝ) : (Polynomial.C c - Polynomial.X).natDegree ≤ 1 := by
  refine (Polynomial.natDegree_sub_le _ _).trans ?_
  simp

theorem natDegree_prod_le' (t : Finset ℕ) (c : ℕ → ℝ) :
    (∏ i ∈ t, (Polynomial.C (c i) - Polynomial.X)).natDegree ≤ t.card := by
  have h1 := Polynomial.natDegree_prod_le t (fun i : ℕ => Polynomial.C (c i) - Polynomial.X)
  have h2 : ∑ i ∈ t, (Polynomial.C (c i) - Polynomial.X).natDegree ≤ ∑ _i ∈ t, 1 :=
    sum_le_sum fun i _ => natDegree_linear_le (c i)
  rw [sum_const, smul_eq_mul, mul_one] at h2
  exact h1.trans h2

/-- Orthogonality of the coefficients to the lower powers. -/
theorem coef_orth (a k j : ℕ) (hj : j < k) (hk : k ≤ a) :
    ∑ s ∈ range (k + 1), (-1 : ℝ) ^ s * k.choose s * ((qPoly a k).eval (s : ℝ) * ((a + j + 1 : ℝ) - s)⁻¹) = 0 := by
  have h : ∀ s ∈ range (k + 1), (qPoly a k).eval (s : ℝ) * ((a + j + 1 : ℝ) - s)⁻¹ =
      (∏ i ∈ (range k).erase j, (Polynomial.C ((a : ℝ) + i + 1) - Polynomial.X)).eval (s : ℝ) := by
    intro s hs
    have hs' : (s:ℝ) ≤ k := by exact_mod_cast Nat.lt_succ_iff.mp (mem_range.mp hs)
    have hk' : (k:ℝ) ≤ a := by exact_mod_cast hk
    have hne : (a + j + 1 : ℝ) - s ≠ 0 := by
      have : (0:ℝ) ≤ j := Nat.cast_nonneg j
      apply ne_of_gt; linarith
    rw [qPoly_eval, Polynomial.eval_prod, ← mul_prod_erase (range k) _ (mem_range.mpr hj), mul_comm, ← mul_assoc,
      inv_mul_cancel₀ hne, one_mul]
    refine prod_congr rfl fun i _ => ?_
    simp
  rw [sum_congr rfl fun s hs => by rw [h s hs]]
  apply alt_sum_poly
  refine lt_of_le_of_lt (natDegree_prod_le' _ fun i => (a : ℝ) + i + 1) ?_
  rw [card_erase_of_mem (mem_range.mpr hj), card_range]
  omega

/-- The product with the highest power. -/
theorem coef_norm (a k : ℕ) :
    ∑ s ∈ range (k + 1), (-1 : ℝ) ^ s * k.choose s * ((qPoly a k).eval (s : ℝ) * ((a + k + 1 : ℝ) - s)⁻¹) =
      (k ! : ℝ) * ((k ! : ℝ) * a ! / (a + k + 1)!) := by
  obtain ⟨Q, hQ⟩ : ∃ Q : Polynomial ℝ, qPoly a k = Polynomial.C ((qPoly a k).eval (a + k + 1 : ℝ)) +
      (Polynomial.X - Polynomial.C (a + k + 1 : ℝ)) * Q := by
    obtain ⟨Q, h⟩ := Polynomial.X_sub_C_dvd_sub_C_eval (p := qPoly a k) (a := (a + k + 1 : ℝ))
    exact ⟨Q, by rw [← h]; ring⟩
  have hdeg : 0 < k → Q.natDegree < k := by
    intro hk
    by_cases hz : Q = 0
    · rw [hz]; simpa using hk
    have h1 : ((Polynomial.X - Polynomial.C (a + k + 1 : ℝ)) * Q).natDegree = 1 + Q.natDegree := by
      rw [Polynomial.natDegree_mul (Polynomial.X_sub_C_ne_zero _) hz, Polynomial.natDegree_X_sub_C]
    have h2 : ((Polynomial.X - Polynomial.C (a + k + 1 : ℝ)) * Q).natDegree ≤ k := by
      have : (Polynomial.X - Polynomial.C (a + k + 1 : ℝ)) * Q = qPoly a k - Polynomial.C ((qPoly a k).eval (a + k + 1 : ℝ)) := by
        rw [hQ]; simp
      rw [this]
      refine (Polynomial.natDegree_sub_le _ _).trans ?_
      rw [Polynomial.natDegree_C]
      have := natDegree_prod_le' (range k) fun i => (a : ℝ) + i + 1
      rw [card_range] at this
      simpa [qPoly] using this
    omega
  have hval : (qPoly a k).eval (a + k + 1 : ℝ) = (-1) ^ k * (k ! : ℝ) := by
    rw [qPoly_eval, ← Finset.prod_range_reflect]
    have : ∀ i ∈ range k, (a:ℝ) + ((k - 1 - i : ℕ) : ℝ) + 1 - (a + k + 1) = (-1) * ((i:ℝ) + 1) := by
      intro i hi
      have hi' := mem_range.mp hi
      have e : k - 1 - i = k - (i + 1) := by omega
      rw [e, Nat.cast_sub (by omega)]; push_cast; ring
    rw [prod_congr rfl this, prod_mul_distrib, prod_const, card_range, ← prod_range_add_one_eq_factorial]
    push_cast; rfl
  have hs : ∀ s ∈ range (k + 1), (-1 : ℝ) ^ s * k.choose s * ((qPoly a k).eval (s : ℝ) * ((a + k + 1 : ℝ) - s)⁻¹) =
      (qPoly a k).eval (a + k + 1 : ℝ) * ((-1 : ℝ) ^ s * k.choose s * ((a + k + 1 : ℝ) - s)⁻¹) -
      (-1 : ℝ) ^ s * k.choose s * Q.eval (s : ℝ) := by
    intro s hs
    have hs' : (s:ℝ) ≤ k := by exact_mod_cast Nat.lt_succ_iff.mp (mem_range.mp hs)
    have hne : (a + k + 1 : ℝ) - s ≠ 0 := by
      have : (0:ℝ) ≤ a := Nat.cast_nonneg a
      apply ne_of_gt; linarith
    have he : (qPoly a k).eval (s : ℝ) = (qPoly a k).eval (a + k + 1 : ℝ) + ((s:ℝ) - (a + k + 1)) * Q.eval (s:ℝ) := by
      conv_lhs => rw [hQ]
      simp
    rw [he]
    field_simp
    ring
  rw [sum_congr rfl hs, sum_sub_distrib, ← mul_sum, alt_sum_inv, hval]
  have hz : ∑ s ∈ range (k + 1), (-1 : ℝ) ^ s * k.choose s * Q.eval (s : ℝ) = 0 := by
    rcases Nat.eq_zero_or_pos k with h0 | h0
    · subst h0
      have : Q = 0 := by
        by_contra hz
        have h1 : ((Polynomial.X - Polynomial.C ((a:ℝ) + (0:ℕ) + 1)) * Q).natDegree = 1 + Q.natDegree := by
          rw [Polynomial.natDegree_mul (Polynomial.X_sub_C_ne_zero _) hz, Polynomial.natDegree_X_sub_C]
        have h2 : (Polynomial.X - Polynomial.C ((a:ℝ) + (0:ℕ) + 1)) * Q = 0 := by
          have h3 : qPoly a 0 = 1 := by simp [qPoly]
          rw [h3] at hQ
          simpa using hQ
        rw [h2] at h1
        simp at h1
        omega
      simp [this]
    · exact alt_sum_poly k Q (hdeg h0)
  rw [hz, sub_zero]
  have hk : (-1:ℝ) ^ k * (-1) ^ k = 1 := by rw [← mul_pow]; norm_num
  linear_combination ((k ! : ℝ) * ((k ! : ℝ) * a ! / (a + k + 1)!)) * hk

/-- The radial polynomial of orders `n = a + k`, `m = a - k`, as an alternating sum. -/
theorem radial_eq (a k : ℕ) (hk : k ≤ a) (r : ℝ) :
    radial (a + k) (a - k) r =
      ∑ s ∈ range (k + 1), (-1 : ℝ) ^ s * k.choose s * (qPoly a k).eval (s : ℝ) / k ! * r ^ (a + k - 2 * s) := by
  unfold radial
  have e1 : (a + k - (a - k)) / 2 = k := by omega
  have e2 : (a + k + (a - k)) / 2 = a := by omega
  rw [e1, e2, range_sum]
  refine sum_congr rfl fun s hs => ?_
  have hs' : s ≤ k := Nat.lt_succ_iff.mp (mem_range.mp hs)
  rw [qPoly_nat a k s (hs'.trans hk), Nat.cast_choose ℝ hs']
  push_cast
  have h1 : (s ! : ℝ) ≠ 0 := by positivity
  have h2 : ((a - s)! : ℝ) ≠ 0 := by positivity
  have h3 : ((k - s)! : ℝ) ≠ 0 := by positivity
  have h4 : (k ! : ℝ) ≠ 0 := by positivity
  field_simp

/-- Every radial polynomial is one at the edge of the pupil. -/
theorem radial_one (n m : ℕ) (h : m ≤ n) (hp : (n - m) % 2 = 0) : radial n m 1 = 1 := by
  obtain ⟨a, k, hk, rfl, rfl⟩ : ∃ a k : ℕ, k ≤ a ∧ n = a + k ∧ m = a - k :=
    ⟨(n + m) / 2, (n - m) / 2, by omega, by omega, by omega⟩
  rw [radial_eq a k hk]
  simp only [one_pow, mul_one]
  rw [← sum_div, div_eq_one_iff_eq (by positivity), alt_sum_eq k fun x => (qPoly a k).eval x]
  have hlead : qPoly a k = (-1) ^ k * ∏ i ∈ range k, (Polynomial.X - Polynomial.C ((a : ℝ) + i + 1)) := by
    unfold qPoly
    rw [show ((-1 : Polynomial ℝ)) ^ k = ∏ _i ∈ range k, (-1 : Polynomial ℝ) by simp, ← prod_mul_distrib]
    refine prod_congr rfl fun i _ => ?_
    ring
  have hm : (∏ i ∈ range k, (Polynomial.X - Polynomial.C ((a : ℝ) + i + 1))).Monic :=
    Polynomial.monic_prod_of_monic _ _ fun i _ => Polynomial.monic_X_sub_C _
  have hd : (∏ i ∈ range k, (Polynomial.X - Polynomial.C ((a : ℝ) + i + 1))).natDegree = k := by
    rw [Polynomial.natDegree_prod_of_monic _ _ fun i _ => Polynomial.monic_X_sub_C _,
      sum_congr rfl fun (i : ℕ) _ => Polynomial.natDegree_X_sub_C ((a : ℝ) + i + 1)]
    simp
  have hq : qPoly a k = Polynomial.C ((-1) ^ k) * ∏ i ∈ range k, (Polynomial.X - Polynomial.C ((a : ℝ) + i + 1)) := by
    rw [hlead]; simp
  have hd' : (qPoly a k).natDegree = k := by
    rw [hq, Polynomial.natDegree_C_mul (by positivity), hd]
  have hl' : (qPoly a k).leadingCoeff = (-1) ^ k := by
    rw [hq, Polynomial.leadingCoeff_mul, hm.leadingCoeff]; simp
  have hfd := Polynomial.fwdDiff_iter_degree_eq_factorial (qPoly a k)
  rw [hd', hl'] at hfd
  rw [hfd]
  have hkk : (-1:ℝ) ^ k * (-1) ^ k = 1 := by rw [← mul_pow]; norm_num
  simp only [Pi.smul_apply, Pi.natCast_apply, smul_eq_mul]
  rw [← mul_assoc, hkk, one_mul]

/-! ### Radial integrals -/

theorem int_pow_mul (p q : ℕ) : ∫ r in (0:ℝ)..1, r ^ p * r ^ q * r = ((p:ℝ) + q + 2)⁻¹ := by
  have : ∀ r : ℝ, r ^ p * r ^ q * r = r ^ (p + q + 1) := fun r => by ring
  simp only [this, integral_pow]
  push_cast
  norm_num
  ring

/-- The product of a radial polynomial with a power of the same azimuthal order. -/
theorem int_radial_pow (a k j : ℕ) (hk : k ≤ a) :
    ∫ r in (0:ℝ)..1, radial (a + k) (a - k) r * r ^ (a - k + 2 * j) * r =
      (∑ s ∈ range (k + 1), (-1 : ℝ) ^ s * k.choose s * ((qPoly a k).eval (s : ℝ) * ((a + j + 1 : ℝ) - s)⁻¹)) / (2 * k !) := by
  have h1 : ∀ r : ℝ, radial (a + k) (a - k) r * r ^ (a - k + 2 * j) * r =
      ∑ s ∈ range (k + 1), ((-1 : ℝ) ^ s * k.choose s * (qPoly a k).eval (s : ℝ) / k !) *
        (r ^ (a + k - 2 * s) * r ^ (a - k + 2 * j) * r) := by
    intro r
    rw [radial_eq a k hk, sum_mul, sum_mul]
    exact sum_congr rfl fun s _ => by ring
  simp only [h1]
  rw [intervalIntegral.integral_finsetSum]
  · rw [sum_div]
    refine sum_congr rfl fun s hs => ?_
    have hs' : s ≤ k := Nat.lt_succ_iff.mp (mem_range.mp hs)
    rw [intervalIntegral.integral_const_mul, int_pow_mul, Nat.cast_sub (show 2 * s ≤ a + k by omega)]
    push_cast
    rw [Nat.cast_sub hk]
    have hne : (a + j + 1 : ℝ) - s ≠ 0 := by
      have h1 : (s:ℝ) ≤ a := by exact_mod_cast hs'.trans hk
      have : (0:ℝ) ≤ j := Nat.cast_nonneg j
      apply ne_of_gt; linarith
    have e : ((a:ℝ) + k - 2 * s + (a - k + 2 * j) + 2) = 2 * ((a + j + 1 : ℝ) - s) := by ring
    rw [e, mul_inv]
    field_simp
  · intro s _
    exact Continuous.intervalIntegrable (by fun_prop) _ _

theorem radial_continuous (n m : ℕ) : Continuous (radial n m) := by
  unfold radial
  simp only [range_sum]
  fun_prop

/-- Different radial orders with the same azimuthal order are orthogonal; the squared norm is `1/(2(n+1))`. -/
theorem int_radial (n n' m : ℕ) (h : m ≤ n) (h' : m ≤ n') (hp : (n - m) % 2 = 0) (hp' : (n' - m) % 2 = 0) :
    ∫ r in (0:ℝ)..1, radial n m r * radial n' m r * r = if n = n' then 1 / (2 * ((n:ℝ) + 1)) else 0 := by
  -- without loss of generality the second order is the smaller one
  have main : ∀ n n' : ℕ, m ≤ n' → n' ≤ n → (n - m) % 2 = 0 → (n' - m) % 2 = 0 →
      ∫ r in (0:ℝ)..1, radial n m r * radial n' m r * r = if n = n' then 1 / (2 * ((n:ℝ) + 1)) else 0 := by
    intro n n' h1 h2 hp hp'
    obtain ⟨a, k, hk, hn, hm⟩ : ∃ a k : ℕ, k ≤ a ∧ n = a + k ∧ m = a - k :=
      ⟨(n + m) / 2, (n - m) / 2, by omega, by omega, by omega⟩
    obtain ⟨b, l, hl, hn', hm'⟩ : ∃ a k : ℕ, k ≤ a ∧ n' = a + k ∧ m = a - k :=
      ⟨(n' + m) / 2, (n' - m) / 2, by omega, by omega, by omega⟩
    have hlk : l ≤ k := by omega
    have hx : ∀ r : ℝ, radial n m r * radial n' m r * r =
        ∑ s ∈ range (l + 1), ((-1 : ℝ) ^ s * l.choose s * (qPoly b l).eval (s : ℝ) / l !) *
          (radial (a + k) (a - k) r * r ^ (a - k + 2 * (l - s)) * r) := by
      intro r
      have e : radial n' m r = radial (b + l) (b - l) r := by rw [hn', hm']
      rw [e, radial_eq b l hl, mul_sum, sum_mul]
      refine sum_congr rfl fun s hs => ?_
      have hs' : s ≤ l := Nat.lt_succ_iff.mp (mem_range.mp hs)
      have e2 : b + l - 2 * s = a - k + 2 * (l - s) := by omega
      rw [e2, hn, hm]; ring
    simp only [hx]
    rw [intervalIntegral.integral_finsetSum]
    · simp only [intervalIntegral.integral_const_mul, int_radial_pow a k _ hk]
      by_cases hnn : n = n'
      · rw [if_pos hnn]
        have hab : a = b := by omega
        have hkl : k = l := by omega
        rw [← hab, ← hkl, sum_eq_single 0]
        · rw [Nat.sub_zero, coef_norm a k, qPoly_nat a k 0 (Nat.zero_le a)]
          simp only [pow_zero, Nat.choose_zero_right, Nat.cast_one, Nat.sub_zero, one_mul]
          have hn2 : (n:ℝ) = a + k := by rw [hn]; push_cast; ring
          rw [Nat.factorial_succ, hn2]
          push_cast
          have h1 : ((a + k)! : ℝ) ≠ 0 := by positivity
          have h2 : (a ! : ℝ) ≠ 0 := by positivity
          have h3 : (k ! : ℝ) ≠ 0 := by positivity
          have h4 : (a:ℝ) + k + 1 ≠ 0 := by positivity
          field_simp
        · intro s hs h0
          have hs' := mem_range.mp hs
          rw [coef_orth a k (k - s) (by omega) hk]
          simp
        · intro h0
          exact absurd (mem_range.mpr (Nat.succ_pos k)) h0
      · rw [if_neg hnn]
        refine sum_eq_zero fun s hs => ?_
        rw [coef_orth a k (l - s) (by omega) hk]
        simp
    · intro s _
      have := radial_continuous (a + k) (a - k)
      exact Continuous.intervalIntegrable (by fun_prop) _ _
  rcases le_total n' n with hc | hc
  · exact main n n' h' hc hp hp'
  · have := main n' n h hc hp' hp
    have e : ∀ r : ℝ, radial n m r * radial n' m r * r = radial n' m r * radial n m r * r := fun r => by ring
    simp only [e]
    rw [this]
    by_cases hnn : n = n'
    · rw [if_pos hnn, if_pos hnn.symm, hnn]
    · rw [if_neg hnn, if_neg (Ne.symm hnn)]

/-! ### Angular integrals -/

theorem int_cos (k : ℤ) : ∫ o in (0:ℝ)..(2 * Real.pi), Real.cos (k * o) = if k = 0 then 2 * Real.pi else 0 := by
  split_ifs with h
  · subst h; simp
  · have hk : (k:ℝ) ≠ 0 := by exact_mod_cast h
    rw [intervalIntegral.integral_comp_mul_left (f := Real.cos) hk, integral_cos]
    have : Real.sin ((k:ℝ) * (2 * Real.pi)) = 0 := by
      have := Real.sin_int_mul_pi (2 * k)
      rw [← this]; push_cast; ring_nf
    rw [this]; simp

theorem int_sin (k : ℤ) : ∫ o in (0:ℝ)..(2 * Real.pi), Real.sin (k * o) = 0 := by
  by_cases h : k = 0
  · subst h; simp
  · have hk : (k:ℝ) ≠ 0 := by exact_mod_cast h
    rw [intervalIntegral.integral_comp_mul_left (f := Real.sin) hk, integral_sin]
    have : Real.cos ((k:ℝ) * (2 * Real.pi)) = 1 := by
      have := Real.cos_int_mul_two_pi k
      rw [← this]
    rw [this]; simp

theorem int_cos_cos (m m' : ℕ) : ∫ o in (0:ℝ)..(2 * Real.pi), Real.cos (m * o) * Real.cos (m' * o) =
    if m = m' then (if m = 0 then 2 * Real.pi else Real.pi) else 0 := by
  have h : ∀ o : ℝ, Real.cos (m * o) * Real.cos (m' * o) =
      (1 / 2) * (Real.cos (((m:ℤ) - m' : ℤ) * o) + Real.cos (((m:ℤ) + m' : ℤ) * o)) := by
    intro o
    push_cast
    rw [sub_mul, add_mul, Real.cos_sub, Real.cos_add]; ring
  simp only [h]
  rw [intervalIntegral.integral_const_mul, intervalIntegral.integral_add
    (Continuous.intervalIntegrable (by fun_prop) _ _) (Continuous.intervalIntegrable (by fun_prop) _ _), int_cos, int_cos]
  by_cases e : m = m'
  · subst e
    by_cases z : m = 0
    · subst z; simp; ring
    · rw [if_pos (by omega), if_neg (by omega), if_pos rfl, if_neg z]; ring
  · rw [if_neg (by omega), if_neg (by omega), if_neg e]; simp

theorem int_sin_sin (m m' : ℕ) : ∫ o in (0:ℝ)..(2 * Real.pi), Real.sin (m * o) * Real.sin (m' * o) =
    if m = m' ∧ m ≠ 0 then Real.pi else 0 := by
  have h : ∀ o : ℝ, Real.sin (m * o) * Real.sin (m' * o) =
      (1 / 2) * (Real.cos (((m:ℤ) - m' : ℤ) * o) - Real.cos (((m:ℤ) + m' : ℤ) * o)) := by
    intro o
    push_cast
    rw [sub_mul, add_mul, Real.cos_sub, Real.cos_add]; ring
  simp only [h]
  rw [intervalIntegral.integral_const_mul, intervalIntegral.integral_sub
    (Continuous.intervalIntegrable (by fun_prop) _ _) (Continuous.intervalIntegrable (by fun_prop) _ _), int_cos, int_cos]
  by_cases e : m = m'
  · subst e
    by_cases z : m = 0
    · subst z; simp
    · rw [if_pos (by omega), if_neg (by omega), if_pos ⟨rfl, z⟩]; ring
  · rw [if_neg (by omega), if_neg (by omega), if_neg (by tauto)]; simp

theorem int_sin_cos (m m' : ℕ) : ∫ o in (0:ℝ)..(2 * Real.pi), Real.sin (m * o) * Real.cos (m' * o) = 0 := by
  have h : ∀ o : ℝ, Real.sin (m * o) * Real.cos (m' * o) =
      (1 / 2) * (Real.sin (((m:ℤ) - m' : ℤ) * o) + Real.sin (((m:ℤ) + m' : ℤ) * o)) := by
    intro o
    push_cast
    rw [sub_mul, add_mul, Real.sin_sub, Real.sin_add]; ring
  simp only [h]
  rw [intervalIntegral.integral_const_mul, intervalIntegral.integral_add
    (Continuous.intervalIntegrable (by fun_prop) _ _) (Continuous.intervalIntegrable (by fun_prop) _ _), int_sin, int_sin]
  simp

/-! ### Orthonormality -/

/-- The scalar product of two functions over the unit disc, normalised by its area, in polar coordinates. -/
noncomputable def discMean (f g : ℝ → ℝ → ℝ) : ℝ :=
  (∫ o in (0:ℝ)..(2 * Real.pi), ∫ r in (0:ℝ)..1, f r o * g r o * r) / Real.pi

/-- The angular factor of a mode. -/
noncomputable def ang (j m : ℕ) (o : ℝ) : ℝ :=
  if m = 0 then 1 else Real.sqrt 2 * (if j % 2 = 0 then Real.cos (m * o) else Real.sin (m * o))

theorem int_ang (j j' m m' : ℕ) :
    ∫ o in (0:ℝ)..(2 * Real.pi), ang j m o * ang j' m' o =
      if m = m' ∧ (m ≠ 0 → j % 2 = j' % 2) then 2 * Real.pi else 0 := by
  have h2 : Real.sqrt 2 * Real.sqrt 2 = 2 := Real.mul_self_sqrt (by norm_num)
  have c0 : ∀ k : ℕ, ∫ o in (0:ℝ)..(2 * Real.pi), Real.cos (k * o) = if k = 0 then 2 * Real.pi else 0 := by
    intro k; have := int_cos (k:ℤ); push_cast at this; rw [this]; norm_cast
  have s0 : ∀ k : ℕ, ∫ o in (0:ℝ)..(2 * Real.pi), Real.sin (k * o) = 0 := by
    intro k; have := int_sin (k:ℤ); push_cast at this; exact this
  unfold ang
  by_cases hm : m = 0 <;> by_cases hm' : m' = 0
  · subst hm hm'; simp
  · rw [if_neg (by rintro ⟨h, _⟩; omega)]
    simp only [hm, hm', if_true, if_false, one_mul]
    split_ifs
    · rw [intervalIntegral.integral_const_mul, c0, if_neg hm']; simp
    · rw [intervalIntegral.integral_const_mul, s0]; simp
  · rw [if_neg (by rintro ⟨h, _⟩; omega)]
    simp only [hm, hm', if_true, if_false, mul_one]
    split_ifs
    · rw [intervalIntegral.integral_const_mul, c0, if_neg hm]; simp
    · rw [intervalIntegral.integral_const_mul, s0]; simp
  · simp only [hm, hm', if_false]
    have fac : ∀ x y : ℝ, Real.sqrt 2 * x * (Real.sqrt 2 * y) = 2 * (x * y) := fun x y => by
      calc _ = (Real.sqrt 2 * Real.sqrt 2) * (x * y) := by ring
        _ = _ := by rw [h2]
    simp only [fac, intervalIntegral.integral_const_mul]
    by_cases p : j % 2 = 0 <;> by_cases p' : j' % 2 = 0
    · simp only [p, p', if_true]
      rw [int_cos_cos]
      by_cases e : m = m'
      · rw [if_pos e, if_neg hm, if_pos ⟨e, fun _ => trivial⟩]
      · rw [if_neg e, if_neg (by tauto)]; simp
    · simp only [p, p', if_true, if_false]
      rw [if_neg (by rintro ⟨_, h⟩; have := h hm; omega)]
      have := int_sin_cos m' m
      simp only [mul_comm (Real.cos _) (Real.sin _)]
      rw [this]; simp
    · simp only [p, p', if_true, if_false]
      rw [if_neg (by rintro ⟨_, h⟩; have := h hm; omega), int_sin_cos]; simp
    · simp only [p, p', if_false]
      rw [int_sin_sin]
      by_cases e : m = m'
      · rw [if_pos ⟨e, hm⟩, if_pos ⟨e, fun _ => by omega⟩]
      · rw [if_neg (by tauto), if_neg (by tauto)]; simp

theorem mode_eq (j n m : ℕ) (h : findNM j = ((n:ℤ), (m:ℤ))) (r o : ℝ) :
    mode j r o = Real.sqrt (n + 1) * radial n m r * ang j m o := by
  have h1 : findN j = n := congrArg Prod.fst h
  have h2 : findM (findN j) j = m := congrArg Prod.snd h
  unfold mode ang
  simp only [h1] at h2 ⊢
  simp only [h2, Int.toNat_natCast]
  split_ifs <;> ring

/-- C82: the modes of two Noll indices have scalar product one over the unit disc when the indices are equal and
zero otherwise: each mode has unit variance and different modes are uncorrelated. -/
theorem zernike_orthonormal (i j : ℕ) (hi : 1 ≤ i) (hj : 1 ≤ j) :
    discMean (mode i) (mode j) = if i = j then 1 else 0 := by
  obtain ⟨n, m, hn, hm, hp, -, -⟩ := findNM_valid i hi
  obtain ⟨n', m', hn', hm', hp', -, -⟩ := findNM_valid j hj
  unfold discMean
  have hf : ∀ r o : ℝ, mode i r o * mode j r o * r =
      (ang i m o * ang j m' o) * (Real.sqrt (n + 1) * Real.sqrt (n' + 1) * (radial n m r * radial n' m' r * r)) := by
    intro r o
    rw [mode_eq i n m hn, mode_eq j n' m' hn']; ring
  simp only [hf, intervalIntegral.integral_const_mul, intervalIntegral.integral_mul_const]
  rw [int_ang]
  by_cases hmm : m = m' ∧ (m ≠ 0 → i % 2 = j % 2)
  · obtain ⟨he, hpar⟩ := hmm
    subst he
    rw [if_pos ⟨rfl, hpar⟩, int_radial n n' m hm hm' hp hp']
    by_cases hnn : n = n'
    · subst hnn
      have hij : i = j := findNM_injective i j hi hj (by rw [hn, hn']) (by rw [hn]; intro h; exact hpar (fun z => h (by simp [z])))
      rw [if_pos rfl, if_pos hij]
      have hs : Real.sqrt ((n:ℝ) + 1) * Real.sqrt (n + 1) = n + 1 := Real.mul_self_sqrt (by positivity)
      rw [hs]
      have := Real.pi_ne_zero
      have : (n:ℝ) + 1 ≠ 0 := by positivity
      field_simp
    · have hij : i ≠ j := fun h => hnn (by rw [h, hn'] at hn; simpa using (congrArg Prod.fst hn).symm)
      rw [if_neg hnn, if_neg hij]; simp
  · have hij : i ≠ j := by
      rintro rfl
      rw [hn'] at hn
      have : m' = m := by simpa using congrArg Prod.snd hn
      exact hmm ⟨this.symm, fun _ => rfl⟩
    rw [if_neg hmm, if_neg hij]; simp

/-- C82: piston is one everywhere, so every other mode has zero mean over the disc. -/
theorem zernike_piston (r o : ℝ) : mode 1 r o = 1 := by
  have h : findNM 1 = (((0:ℕ):ℤ), ((0:ℕ):ℤ)) := by
    rw [findNM, (findN_iff 1 le_rfl 0).mpr ⟨by norm_num, by norm_num⟩]; rfl
  rw [mode_eq 1 0 0 h]
  simp [radial, ang]

/-- C82: every mode other than piston has zero mean. -/
theorem zernike_zero_mean (j : ℕ) (hj : 2 ≤ j) :
    (∫ o in (0:ℝ)..(2 * Real.pi), ∫ r in (0:ℝ)..1, mode j r o * r) / Real.pi = 0 := by
  have := zernike_orthonormal j 1 (by omega) le_rfl
  rw [if_neg (by omega)] at this
  simpa only [discMean, zernike_piston, mul_one] using this

/-- C82: tip, tilt and focus are the usual polynomials. -/
theorem zernike_low (r o : ℝ) :
    mode 2 r o = 2 * (r * Real.cos o) ∧ mode 3 r o = 2 * (r * Real.sin o) ∧
    mode 4 r o = Real.sqrt 3 * (2 * r ^ 2 - 1) := by
  have h2 : findNM 2 = (((1:ℕ):ℤ), ((1:ℕ):ℤ)) := by
    rw [findNM, (findN_iff 2 (by norm_num) 1).mpr ⟨by norm_num, by norm_num⟩]; rfl
  have h3 : findNM 3 = (((1:ℕ):ℤ), ((1:ℕ):ℤ)) := by
    rw [findNM, (findN_iff 3 (by norm_num) 1).mpr ⟨by norm_num, by norm_num⟩]; rfl
  have h4 : findNM 4 = (((2:ℕ):ℤ), ((0:ℕ):ℤ)) := by
    rw [findNM, (findN_iff 4 (by norm_num) 2).mpr ⟨by norm_num, by norm_num⟩]; rfl
  have e : Real.sqrt 2 * Real.sqrt 2 = 2 := Real.mul_self_sqrt (by norm_num)
  rw [mode_eq 2 1 1 h2, mode_eq 3 1 1 h3, mode_eq 4 2 0 h4]
  have r1 : radial 1 1 r = r := by simp [radial]
  have r2 : radial 2 0 r = 2 * r ^ 2 - 1 := by
    simp [radial, List.range_succ, Nat.factorial]; ring
  rw [r1, r2]
  refine ⟨?_, ?_, ?_⟩
  · simp only [ang]; norm_num
    linear_combination (r * Real.cos o) * e
  · simp only [ang]; norm_num
    linear_combination (r * Real.sin o) * e
  · simp only [ang]; norm_num

/-! ### C83: modes on the pixel grid and unit normalisation -/

/-- C83: the default grid is symmetric, regular with step `2/u` and within the unit square. -/
theorem grid_spec (u i : ℕ) (h : i < u) :
    grid u (u - 1 - i) = - grid u i ∧ grid u (i + 1) - grid u i = 2 / u ∧ |grid u i| < 1 := by
  have hu : (0:ℝ) < u := by exact_mod_cast (by omega : 0 < u)
  have hi : (i:ℝ) + 1 ≤ u := by exact_mod_cast h
  have hi0 : (0:ℝ) ≤ i := Nat.cast_nonneg i
  have e : ((u - 1 - i : ℕ) : ℝ) = (u:ℝ) - 1 - i := by
    rw [Nat.cast_sub (by omega), Nat.cast_sub (by omega)]; simp
  refine ⟨?_, ?_, ?_⟩
  · unfold grid; rw [e]; field_simp; ring
  · unfold grid; push_cast; field_simp; ring
  · unfold grid
    rw [abs_lt, lt_div_iff₀ hu, div_lt_iff₀ hu]
    constructor <;> linarith

/-- C83: a stored map is the mode inside the pupil and zero outside. -/
theorem modeMap_spec (u : ℕ) (cobs : ℝ) (j i k : ℕ) (angle : ℝ → ℝ → ℝ) :
    let r := Real.sqrt (grid u k ^ 2 + grid u i ^ 2)
    (cobs ≤ r ∧ r ≤ 1 → modeMap u cobs j i k angle = mode j r (angle (grid u i) (grid u k))) ∧
    (r < cobs ∨ 1 < r → modeMap u cobs j i k angle = 0) := by
  constructor
  · intro h
    exact if_pos h
  · intro h
    refine if_neg ?_
    rintro ⟨h1, h2⟩
    rcases h with h | h <;> linarith

/-- C83: `nollNorm` is the amplitude of the modes: the angular part has maximum one. -/
theorem nollNorm_spec (j n m : ℕ) (h : findNM j = ((n:ℤ), (m:ℤ))) (r o : ℝ) :
    |mode j r o| ≤ nollNorm n m * |radial n m r| := by
  rw [mode_eq j n m h, abs_mul, abs_mul, abs_of_nonneg (Real.sqrt_nonneg _)]
  have hn : (0:ℝ) ≤ (n:ℝ) + 1 := by positivity
  have ha : |ang j m o| ≤ Real.sqrt (2 - (if m = 0 then 1 else 0)) := by
    unfold ang
    split_ifs with h1 h2
    · norm_num
    · rw [abs_mul, abs_of_nonneg (Real.sqrt_nonneg _), sub_zero]
      exact mul_le_of_le_one_right (Real.sqrt_nonneg _) (Real.abs_cos_le_one _)
    · rw [abs_mul, abs_of_nonneg (Real.sqrt_nonneg _), sub_zero]
      exact mul_le_of_le_one_right (Real.sqrt_nonneg _) (Real.abs_sin_le_one _)
  have hs : nollNorm n m = Real.sqrt (2 - (if m = 0 then 1 else 0)) * Real.sqrt (n + 1) := by
    unfold nollNorm
    rw [Real.sqrt_mul (by split_ifs <;> norm_num)]
  rw [hs]
  have := mul_le_mul_of_nonneg_left ha (mul_nonneg (Real.sqrt_nonneg ((n:ℝ) + 1)) (abs_nonneg (radial n m r)))
  linarith

/-- C143 (part): for one mode the unit normalisation divides the map by its norm. Missing: more than one mode,
see `unitNorm_violation`. -/
theorem unitNorm_partial (res : ℕ) (hr : 1 < res) (modes : ℕ → ℕ → ℕ → ℝ) (norm : ℕ → ℝ) :
    ∃ out, unitNorm 1 res modes norm = some out ∧ ∀ i l, out 0 i l = modes 0 i l / norm 0 := by
  refine ⟨_, by unfold unitNorm; rw [if_neg (by omega), if_pos rfl], fun i l => ?_⟩
  simp only [if_true]; ring

/-- C143 (violation): with several modes the call fails unless there are as many modes as pixels across, and then
every pixel off the diagonal is set to zero. -/
theorem unitNorm_violation (nf res : ℕ) (hf : 1 < nf) (hr : 1 < res) (modes : ℕ → ℕ → ℕ → ℝ) (norm : ℕ → ℝ) :
    (unitNorm nf res modes norm = none ↔ nf ≠ res) ∧
    (nf = res → ∃ out, unitNorm nf res modes norm = some out ∧ ∀ k i l, i ≠ l → out k i l = 0) := by
  constructor
  · unfold unitNorm
    simp only
    split_ifs with h1 h2 h3 <;> first | omega | simp_all
  · intro h
    refine ⟨_, by unfold unitNorm; rw [if_pos h], fun k i l hil => ?_⟩
    simp [hil]

end P3.Zernike
