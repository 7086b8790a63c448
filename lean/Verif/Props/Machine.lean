import Verif.Props.Rounding
import Verif.Model.Zernike
import Verif.Model.FrequencyDomain
namespace P3.Machine
variable {p : ℕ} (R : Rounding p)

theorem fl_nonneg {x : ℝ} (h : 0 ≤ x) : 0 ≤ R.fl x := by
  have := fl_mono R h; rwa [fl_zero] at this

theorem fl_lower (hp : 1 ≤ p) {x : ℝ} (h : 0 ≤ x) : x - x / 2 ^ p ≤ R.fl x := by
  have := (abs_le.1 (fl_err R hp x)).1; rw [abs_of_nonneg h] at this; linarith

theorem fl_upper (hp : 1 ≤ p) {x : ℝ} (h : 0 ≤ x) : R.fl x ≤ x + x / 2 ^ p := by
  have := (abs_le.1 (fl_err R hp x)).2; rw [abs_of_nonneg h] at this; linarith

/-! ### Sizes -/

theorem quot_le_iff (hp : 1 ≤ p) (a b : ℕ) (hb : 0 < b) (ha : a < 2 ^ p) (n : ℤ) : R.fl ((a : ℝ) / b) ≤ n ↔ (a : ℝ) / b ≤ n := by
  have hb' : (0 : ℝ) < b := by exact_mod_cast hb
  have ha' : (a : ℝ) < 2 ^ p := by exact_mod_cast ha
  have h0 : (0 : ℝ) ≤ (a : ℝ) / b := by positivity
  have hle : (a : ℝ) / b ≤ 2 ^ p := by
    rw [div_le_iff₀ hb']
    have : (1 : ℝ) ≤ b := by exact_mod_cast hb
    nlinarith
  constructor
  · intro h
    by_contra hc
    push Not at hc
    have h1 : (0 : ℝ) ≤ n := (fl_nonneg R h0).trans h
    rw [lt_div_iff₀ hb'] at hc
    have h2 : n * (b : ℤ) < a := by exact_mod_cast hc
    have h3 : n * (b : ℤ) + 1 ≤ a := h2
    have h4 : (n : ℝ) * b + 1 ≤ a := by exact_mod_cast h3
    have h5 := fl_lower R hp h0
    have h6 : (n : ℝ) + 1 / b ≤ a / b := by
      rw [← sub_nonneg, show (a : ℝ) / b - (n + 1 / b) = (a - (n * b + 1)) / b by field_simp]
      exact div_nonneg (by linarith) hb'.le
    have h7 : (a : ℝ) / b / 2 ^ p < 1 / b := by
      rw [div_div, div_lt_div_iff₀ (by positivity) hb']; nlinarith
    linarith
  · intro h
    rcases le_or_gt n (2 ^ p) with hn | hn
    · refine fl_le R (F_int hp n ?_) h
      have : (0 : ℝ) ≤ n := h0.trans h
      rw [abs_of_nonneg (by exact_mod_cast this)]
      exact hn
    · have h1 : R.fl ((a : ℝ) / b) ≤ (((2 : ℤ) ^ p : ℤ) : ℝ) :=
        fl_le R (F_int hp _ (by rw [abs_of_nonneg (by positivity)])) (by push_cast; exact hle)
      have h2 : (((2 : ℤ) ^ p : ℤ) : ℝ) ≤ n := by exact_mod_cast hn.le
      exact h1.trans h2

theorem le_quot_iff (hp : 1 ≤ p) (a b : ℕ) (hb : 0 < b) (ha : a < 2 ^ p) (n : ℤ) : n ≤ R.fl ((a : ℝ) / b) ↔ n ≤ (a : ℝ) / b := by
  have hb' : (0 : ℝ) < b := by exact_mod_cast hb
  have ha' : (a : ℝ) < 2 ^ p := by exact_mod_cast ha
  have h0 : (0 : ℝ) ≤ (a : ℝ) / b := by positivity
  have hle : (a : ℝ) / b ≤ 2 ^ p := by
    rw [div_le_iff₀ hb']
    have : (1 : ℝ) ≤ b := by exact_mod_cast hb
    nlinarith
  constructor
  · intro h
    by_contra hc
    push Not at hc
    rw [div_lt_iff₀ hb'] at hc
    have h2 : (a : ℤ) < n * b := by exact_mod_cast hc
    have h4 : (a : ℝ) + 1 ≤ n * b := by exact_mod_cast h2
    have h5 := fl_upper R hp h0
    have h6 : (a : ℝ) / b ≤ n - 1 / b := by
      rw [← sub_nonneg, show (n : ℝ) - 1 / b - a / b = (n * b - (a + 1)) / b by field_simp; ring]
      exact div_nonneg (by linarith) hb'.le
    have h7 : (a : ℝ) / b / 2 ^ p < 1 / b := by
      rw [div_div, div_lt_div_iff₀ (by positivity) hb']; nlinarith
    linarith
  · intro h
    rcases le_or_gt 0 n with hn | hn
    · refine le_fl R (F_int hp n ?_) h
      rw [abs_of_nonneg hn]
      have := h.trans hle
      exact_mod_cast this
    · exact le_trans (by exact_mod_cast hn.le) (fl_nonneg R h0)

/-- C426: for all sizes below `2 ^ p` (`2 ^ 53` in double precision), the truncated floating-point quotient of two integers is their
integer quotient. -/
theorem intQuot_eq (hp : 1 ≤ p) (a b : ℕ) (hb : 0 < b) (ha : a < 2 ^ p) : intQuot R a b = (a / b : ℕ) := by
  unfold intQuot
  rw [Int.floor_eq_iff]
  have hb' : (0 : ℝ) < b := by exact_mod_cast hb
  constructor
  · have := (le_quot_iff R hp a b hb ha ((a / b : ℕ) : ℤ)).2 (by
      rw [le_div_iff₀ hb']; exact_mod_cast Nat.div_mul_le_self a b)
    exact_mod_cast this
  · by_contra hc
    push Not at hc
    have := (le_quot_iff R hp a b hb ha (((a / b : ℕ) : ℤ) + 1)).1 (by push_cast; exact_mod_cast hc)
    rw [le_div_iff₀ hb'] at this
    have h1 : ((a / b + 1) * b : ℕ) ≤ a := by exact_mod_cast this
    have := Nat.lt_div_mul_add (a := a) hb
    have h2 : (a / b + 1) * b = a / b * b + b := by ring
    omega

theorem half_mem {x : ℝ} (h : x ∈ F p) : x / 2 ∈ F p := by
  have := F_scale h (-1)
  rwa [zpow_neg_one, ← div_eq_mul_inv] at this

theorem double_mem {x : ℝ} (h : x ∈ F p) : 2 * x ∈ F p := by
  have := F_scale h 1
  rwa [zpow_one, mul_comm] at this

/-- C426: so is the number of shifts of the aliasing term. -/
theorem nTimes_eq (hp : 1 ≤ p) (a b : ℕ) (hb : 0 < b) (ha : a < 2 ^ p) : nTimes R a b = Freq.nTimes a b := by
  unfold nTimes Freq.nTimes
  rw [fl_id R (half_mem (R.mem _))]
  congr 2
  have key : ∀ n : ℤ, R.fl ((a : ℝ) / b) / 2 ≤ n ↔ (a : ℝ) / b / 2 ≤ n := by
    intro n
    have := quot_le_iff R hp a b hb ha (2 * n)
    push_cast at this
    constructor <;> intro h
    · have := this.1 (by linarith); linarith
    · have := this.2 (by linarith); linarith
  apply le_antisymm
  · rw [Int.ceil_le, key]; exact Int.le_ceil _
  · rw [Int.ceil_le, ← key]; exact Int.le_ceil _

theorem sqrt_below {x K c : ℝ} (hK : 0 < K) (hx : 0 ≤ x) (h : x ≤ K ^ 2 - c) (hc : 0 < c) : √x ≤ K - c / (2 * K) := by
  apply Real.sqrt_le_iff.2
  have e : c / (2 * K) * K = c / 2 := by field_simp
  constructor
  · have : c / (2 * K) ≤ K := by rw [div_le_iff₀ (by positivity)]; nlinarith
    linarith
  · nlinarith [sq_nonneg (c / (2 * K))]

theorem flsqrt_lt (hp : 1 ≤ p) {x K c : ℝ} (hK : 0 < K) (hx : 0 ≤ x) (h : x ≤ K ^ 2 - c) (hc : 0 < c) :
    R.fl (√x) ≤ K - c / (2 * K) + K / 2 ^ p := by
  have h1 := sqrt_below hK hx h hc
  have h2 := fl_upper R hp (Real.sqrt_nonneg x)
  have h3 : √x / 2 ^ p ≤ K / 2 ^ p := by
    have : 0 < c / (2 * K) := by positivity
    gcongr; linarith
  linarith

/-- C426: and the truncated square root is the integer square root, below `2 ^ (p - 2)`. -/
theorem intSqrt_eq (hp : 3 ≤ p) (n : ℕ) (hn : n < 2 ^ (p - 2)) : intSqrt R n = n.sqrt := by
  unfold intSqrt
  set s := n.sqrt with hs
  have h1 : s * s ≤ n := Nat.sqrt_le n
  have h2 : n < (s + 1) * (s + 1) := Nat.lt_succ_sqrt n
  have hpp : 2 ^ p = 4 * 2 ^ (p - 2) := by
    rw [show p = 2 + (p - 2) by omega, pow_add]; norm_num
  rw [Int.floor_eq_iff]
  constructor
  · have hle : (s : ℝ) ≤ √n := by
      apply Real.le_sqrt_of_sq_le; rw [sq]; exact_mod_cast h1
    have := le_fl R (F_nat (by omega) s (by nlinarith)) hle
    exact_mod_cast this
  · have hx : (n : ℝ) ≤ ((s : ℝ) + 1) ^ 2 - 1 := by
      have : (n : ℝ) + 1 ≤ (s + 1) * (s + 1) := by exact_mod_cast h2
      rw [sq]; linarith
    have h3 := sqrt_below (by positivity) (by positivity) hx one_pos
    have h4 := fl_upper R (by omega : 1 ≤ p) (Real.sqrt_nonneg n)
    have h5 : √(n : ℝ) / 2 ^ p < 1 / (2 * ((s : ℝ) + 1)) := by
      have hlt : √(n : ℝ) < s + 1 := by
        have : (0 : ℝ) < 1 / (2 * ((s : ℝ) + 1)) := by positivity
        linarith
      rw [div_lt_div_iff₀ (by positivity) (by positivity)]
      have h6 : 2 * ((s + 1) * (s + 1)) ≤ 2 ^ p := by
        have : (s + 1) * (s + 1) ≤ 2 * (s * s) + 2 := by nlinarith [sq_nonneg ((s : ℤ) - 1)]
        omega
      have h7 : 2 * (((s : ℝ) + 1) * (s + 1)) ≤ 2 ^ p := by exact_mod_cast h6
      have h8 : (0 : ℝ) < (s : ℝ) + 1 := by positivity
      nlinarith
    push_cast
    linarith

/-! ### Zernike modes -/

theorem fl_int (hp : 1 ≤ p) (n : ℤ) (h : |n| ≤ 2 ^ p) : R.fl (n : ℝ) = n := fl_id R (F_int hp n h)

theorem pow_split (hp : 5 ≤ p) : (2 : ℕ) ^ p = 32 * 2 ^ (p - 5) := by
  conv_lhs => rw [show p = 5 + (p - 5) by omega, pow_add]
  norm_num

/-- C427: the radial order of a Zernike mode computed in floating point is the exact one, up to the index `2 ^ (p - 5)`. -/
theorem findN_eq (hp : 5 ≤ p) (j : ℕ) (h1 : 1 ≤ j) (hj : j ≤ 2 ^ (p - 5)) : findN R j = Zernike.findN j := by
  unfold findN Zernike.findN
  congr 1
  set N : ℤ := ⌊√(2 * (j : ℝ) - 1) + 1 / 2⌋ with hN
  have hpp := pow_split hp
  have hj1 : (1 : ℝ) ≤ j := by exact_mod_cast h1
  have hs1 : 1 ≤ √(2 * (j : ℝ) - 1) := Real.one_le_sqrt.2 (by linarith)
  have a1 : (N : ℝ) ≤ √(2 * (j : ℝ) - 1) + 1 / 2 := Int.floor_le _
  have a2 : √(2 * (j : ℝ) - 1) + 1 / 2 < N + 1 := Int.lt_floor_add_one _
  have hN1 : 1 ≤ N := Int.le_floor.2 (by push_cast; linarith)
  have hN1' : (1 : ℝ) ≤ N := by exact_mod_cast hN1
  have hsq : √(2 * (j : ℝ) - 1) ^ 2 = 2 * j - 1 := Real.sq_sqrt (by linarith)
  have b1 : ((N : ℝ) - 1 / 2) ^ 2 ≤ 2 * j - 1 := by rw [← hsq]; gcongr <;> linarith
  have hNj : (N : ℝ) ≤ 2 * j := by nlinarith
  have hNj' : N ≤ 2 * (j : ℤ) := by exact_mod_cast hNj
  have hjp : (32 : ℝ) * j ≤ 2 ^ p := by
    have : 32 * j ≤ 2 ^ p := by omega
    exact_mod_cast this
  have b2 : (2 * (j : ℝ) - 1) ≤ ((N : ℝ) + 1 / 2) ^ 2 - 5 / 4 := by
    have c1 : (2 * (j : ℝ) - 1) < ((N : ℝ) + 1 / 2) ^ 2 := by rw [← hsq]; gcongr; linarith
    have c2 : (2 * (j : ℝ) - 1) < (N : ℝ) * N + N + 1 := by nlinarith
    have c3 : 2 * (j : ℤ) - 1 < N * N + N + 1 := by exact_mod_cast c2
    have c4 : (N * N + N) % 2 = 0 := by
      rw [show N * N + N = N * (N + 1) by ring]
      exact Int.even_iff.1 (Int.even_mul_succ_self N)
    have c5 : 2 * (j : ℤ) ≤ N * N + N := by omega
    have c6 : 2 * (j : ℝ) ≤ N * N + N := by exact_mod_cast c5
    nlinarith
  rw [Int.floor_eq_iff]
  constructor
  · have c1 : ((N : ℝ) - 1 / 2) ∈ F p := by
      have := half_mem (F_int (by omega : 1 ≤ p) (2 * N - 1) (by
        rw [abs_of_nonneg (by omega)]
        have : (2 : ℤ) ^ p = 32 * 2 ^ (p - 5) := by exact_mod_cast hpp
        have : (j : ℤ) ≤ 2 ^ (p - 5) := by exact_mod_cast hj
        omega))
      have e : (((2 * N - 1 : ℤ) : ℝ)) / 2 = N - 1 / 2 := by push_cast; ring
      rwa [e] at this
    have c2 := le_fl R c1 (by linarith : (N : ℝ) - 1 / 2 ≤ √(2 * (j : ℝ) - 1))
    refine le_fl R (F_int (by omega : 1 ≤ p) N ?_) (by linarith)
    rw [abs_of_nonneg (by omega)]
    have : (2 : ℤ) ^ p = 32 * 2 ^ (p - 5) := by exact_mod_cast hpp
    have : (j : ℤ) ≤ 2 ^ (p - 5) := by exact_mod_cast hj
    omega
  · set K : ℝ := (N : ℝ) + 1 / 2 with hK
    have hKp : 0 < K := by linarith
    have d1 := flsqrt_lt R (by omega : 1 ≤ p) hKp (by linarith : (0 : ℝ) ≤ 2 * j - 1) b2 (by norm_num)
    have d2 := fl_nonneg R (Real.sqrt_nonneg (2 * (j : ℝ) - 1))
    have d3 := fl_upper R (by omega : 1 ≤ p) (by linarith : 0 ≤ R.fl (√(2 * (j : ℝ) - 1)) + 1 / 2)
    have hpos : (0 : ℝ) < 2 ^ p := by positivity
    have hKj : 16 * K ^ 2 + 8 * K < 5 * 2 ^ p := by
      have : 16 * K ^ 2 + 8 * K ≤ 16 * (2 * j - 1 + 2 * (2 * j)) + 8 * (2 * j + 1 / 2) := by nlinarith
      linarith
    have d4 : (2 * K + 1) / 2 ^ p < 5 / 4 / (2 * K) := by
      rw [div_lt_div_iff₀ hpos (by positivity)]; nlinarith
    have d5 : (R.fl (√(2 * (j : ℝ) - 1)) + 1 / 2) / 2 ^ p ≤ (K + 1) / 2 ^ p := by
      have : 0 < 5 / 4 / (2 * K) := by positivity
      have : K / 2 ^ p ≤ 1 / 2 := by
        rw [div_le_iff₀ hpos]; nlinarith
      exact div_le_div_of_nonneg_right (by linarith) hpos.le
    have d6 : (2 * K + 1) / 2 ^ p = K / 2 ^ p + (K + 1) / 2 ^ p := by ring
    linarith

/-- C427: so are the orders used for the variance of the coefficients. -/
theorem nmOrder_eq (hp : 5 ≤ p) (j : ℕ) (h1 : 1 ≤ j) (hj : j ≤ 2 ^ (p - 5)) : nmOrder R j = Zernike.nmOrder j := by
  have hpp := pow_split hp
  have hj1 : (1 : ℝ) ≤ j := by exact_mod_cast h1
  have hp1 : 1 ≤ p := by omega
  have hpz : (2 : ℤ) ^ p = 32 * 2 ^ (p - 5) := by exact_mod_cast hpp
  have hjz : (j : ℤ) ≤ 2 ^ (p - 5) := by exact_mod_cast hj
  have hjp : (32 : ℝ) * j ≤ 2 ^ p := by
    have : 32 * j ≤ 2 ^ p := by omega
    exact_mod_cast this
  set x : ℝ := 8 * ((j : ℝ) - 1) + 1 with hx
  have hx1 : 1 ≤ x := by linarith
  have hs1 : 1 ≤ √x := Real.one_le_sqrt.2 hx1
  have hsq : √x ^ 2 = x := Real.sq_sqrt (by linarith)
  set n : ℤ := ⌊(-1 + √x) / 2⌋ with hn
  have a1 : (n : ℝ) ≤ (-1 + √x) / 2 := Int.floor_le _
  have a2 : (-1 + √x) / 2 < n + 1 := Int.lt_floor_add_one _
  have hn0 : 0 ≤ n := Int.le_floor.2 (by push_cast; linarith)
  have hn0' : (0 : ℝ) ≤ n := by exact_mod_cast hn0
  have b1 : (2 * (n : ℝ) + 1) ^ 2 ≤ x := by rw [← hsq]; gcongr; linarith
  have b1' : (2 * n + 1) ^ 2 ≤ 8 * ((j : ℤ) - 1) + 1 := by rw [hx] at b1; exact_mod_cast b1
  have b3 : n * (n + 1) ≤ 2 * (j : ℤ) - 2 := by nlinarith
  have hnj : n ≤ 2 * (j : ℤ) := by nlinarith
  have b2 : x ≤ (2 * (n : ℝ) + 3) ^ 2 - 8 := by
    have c1 : x < (2 * (n : ℝ) + 3) ^ 2 := by rw [← hsq]; gcongr; linarith
    have c2 : 8 * ((j : ℤ) - 1) + 1 < (2 * n + 3) ^ 2 := by rw [hx] at c1; exact_mod_cast c1
    have c3 : (n * n + 3 * n) % 2 = 0 := by
      rw [show n * n + 3 * n = n * (n + 1) + 2 * n by ring]
      have := Int.even_iff.1 (Int.even_mul_succ_self n)
      omega
    have c4 : (2 * n + 3) ^ 2 = 4 * (n * n + 3 * n) + 9 := by ring
    have c5 : 8 * ((j : ℤ) - 1) + 1 ≤ (2 * n + 3) ^ 2 - 8 := by omega
    have : (8 * ((j : ℝ) - 1) + 1) ≤ (2 * (n : ℝ) + 3) ^ 2 - 8 := by exact_mod_cast c5
    exact this
  have hfl : ⌊R.fl (R.fl (-1 + R.fl (√x)) / 2)⌋ = n := by
    rw [fl_id R (half_mem (R.mem _)), Int.floor_eq_iff]
    constructor
    · have c1 : ((2 * n + 1 : ℤ) : ℝ) ∈ F p := F_int hp1 _ (by rw [abs_of_nonneg (by omega)]; omega)
      have c2 := le_fl R c1 (by push_cast; linarith : ((2 * n + 1 : ℤ) : ℝ) ≤ √x)
      have c3 : ((2 * n : ℤ) : ℝ) ∈ F p := F_int hp1 _ (by rw [abs_of_nonneg (by omega)]; omega)
      have c4 := le_fl R c3 (by push_cast at c2 ⊢; linarith : ((2 * n : ℤ) : ℝ) ≤ -1 + R.fl (√x))
      push_cast at c4
      linarith
    · set K : ℝ := 2 * (n : ℝ) + 3 with hK
      have hKp : 0 < K := by linarith
      have d1 := flsqrt_lt R hp1 hKp (by linarith : 0 ≤ x) b2 (by norm_num)
      have hpos : (0 : ℝ) < 2 ^ p := by positivity
      have d2 : 1 ≤ R.fl (√x) := by
        have := le_fl R (F_int hp1 1 (by simp; exact_mod_cast Nat.one_le_two_pow)) (by simpa using hs1 : ((1 : ℤ) : ℝ) ≤ √x)
        simpa using this
      have d3 := fl_upper R hp1 (by linarith : 0 ≤ -1 + R.fl (√x))
      have hnj' : (n : ℝ) ≤ 2 * j := by exact_mod_cast hnj
      have hKj : 2 * K ^ 2 < 4 * 2 ^ p := by nlinarith
      have d4 : 2 * K / 2 ^ p < 8 / (2 * K) := by
        rw [div_lt_div_iff₀ hpos (by positivity)]; nlinarith
      have d5 : (-1 + R.fl (√x)) / 2 ^ p ≤ K / 2 ^ p := by
        have : 0 < 8 / (2 * K) := by positivity
        have h3 : K / 2 ^ p ≤ 1 := by
          rw [div_le_one hpos]; nlinarith
        exact div_le_div_of_nonneg_right (by linarith) hpos.le
      have d6 : 2 * K / 2 ^ p = K / 2 ^ p + K / 2 ^ p := by ring
      have : R.fl (-1 + R.fl (√x)) < K - 1 := by linarith
      linarith
  unfold nmOrder Zernike.nmOrder
  simp only [← hx, hfl, ← hn]
  congr 1
  obtain ⟨T, hT⟩ : ∃ T : ℤ, n * (n + 1) = 2 * T := by
    obtain ⟨T, hT⟩ := Int.even_mul_succ_self n
    exact ⟨T, by omega⟩
  have hk : n % 2 = 0 ∨ n % 2 = 1 := by omega
  have hn1 : 0 ≤ n * (n + 1) := by positivity
  have e1 : (((n * (n + 1) : ℤ) : ℝ)) / 2 = (T : ℤ) := by rw [hT]; push_cast; ring
  have e2 : R.fl ((T : ℤ) : ℝ) = T := fl_int R hp1 T (by rw [abs_le]; constructor <;> omega)
  have e3 : ((j : ℝ) - (T : ℤ)) = ((j - T : ℤ) : ℝ) := by push_cast; ring
  have e4 : R.fl (((j : ℤ) - T : ℤ) : ℝ) = ((j : ℤ) - T : ℤ) := fl_int R hp1 _ (by rw [abs_le]; constructor <;> omega)
  rw [e1, e2, e3, e4]
  set k : ℤ := n % 2 with hk'
  have e5 : ((((j : ℤ) - T : ℤ) : ℝ) + k) = (((j : ℤ) - T + k : ℤ) : ℝ) := by push_cast; ring
  have e6 : R.fl (((j : ℤ) - T + k : ℤ) : ℝ) = ((j : ℤ) - T + k : ℤ) := fl_int R hp1 _ (by rw [abs_le]; constructor <;> omega)
  rw [e5, e6, fl_id R (half_mem (F_int hp1 _ (by rw [abs_le]; constructor <;> omega)))]
  have e7 : ⌊((((j : ℤ) - T + k : ℤ) : ℝ)) / 2⌋ = ((j : ℤ) - T + k) / 2 := by
    have := Int.floor_div_natCast ((((j : ℤ) - T + k : ℤ) : ℝ)) 2
    rw [Int.floor_intCast] at this
    exact_mod_cast this
  rw [e7]
  set z : ℤ := ((j : ℤ) - T + k) / 2 with hz
  have e8 : ((z : ℝ) * 2) = ((z * 2 : ℤ) : ℝ) := by push_cast; ring
  rw [e8, fl_int R hp1 _ (by rw [abs_le]; constructor <;> omega)]
  have e9 : (((z * 2 : ℤ) : ℝ) - k) = ((z * 2 - k : ℤ) : ℝ) := by push_cast; ring
  rw [e9, fl_int R hp1 _ (by rw [abs_le]; constructor <;> omega), Int.floor_intCast]

/-! ### Crop of a PSF -/

/-- C428 (partial): a PSF of `nPix` pixels is returned when the ratio of the field of view to `nPix` is a machine number, in particular
when `nPix` divides the field of view, or the quotient is a fraction over a power of two. -/
theorem psfSide_partial (hp : 1 ≤ p) (fov nPix : ℕ) (h0 : 0 < nPix) (h : nPix < fov) (hf : fov < 2 ^ p) (hr : ((fov : ℝ) / nPix) ∈ F p) :
    psfSide R fov nPix = .ok nPix ∧ boxSide R fov nPix = nPix := by
  have hn : (nPix : ℝ) ≠ 0 := by positivity
  have hf0 : (fov : ℝ) ≠ 0 := by have : 0 < fov := by omega
                                 positivity
  have key : cropSide R fov (R.fl ((fov : ℝ) / nPix)) = nPix := by
    unfold cropSide
    rw [fl_id R hr, div_div_eq_mul_div, mul_comm, mul_div_assoc, div_self hf0, mul_one, fl_id R (F_nat hp nPix (by omega))]
    simp
  unfold psfSide boxSide
  rw [if_pos h]
  exact ⟨by simp only [key]; simp, key⟩

/-- C428 (partial): in all cases the side of the crop is `nPix` or `nPix - 1`. -/
theorem boxSide_near_partial (hp : 2 ≤ p) (nx n : ℕ) (h0 : 0 < n) (h : n ≤ nx) (hx : nx < 2 ^ (p - 1)) :
    boxSide R nx n = n ∨ boxSide R nx n = n - 1 := by
  have hp1 : 1 ≤ p := by omega
  have hn : (0 : ℝ) < n := by positivity
  have hx0 : (0 : ℝ) < nx := by have : 0 < nx := by omega
                                positivity
  have hpp : (2 : ℕ) ^ p = 2 * 2 ^ (p - 1) := by conv_lhs => rw [show p = 1 + (p - 1) by omega, pow_add]
                                                 norm_num
  have hnp : (2 * n : ℝ) < 2 ^ p := by
    have : 2 * n < 2 ^ p := by omega
    exact_mod_cast this
  have hpos : (0 : ℝ) < 2 ^ p := by positivity
  set r := R.fl ((nx : ℝ) / n) with hr
  have h1 := fl_lower R hp1 (by positivity : (0 : ℝ) ≤ nx / n)
  have h2 := fl_upper R hp1 (by positivity : (0 : ℝ) ≤ nx / n)
  rw [← hr] at h1 h2
  have e1 : (nx : ℝ) / n - nx / n / 2 ^ p = nx * (2 ^ p - 1) / (n * 2 ^ p) := by field_simp
  have e2 : (nx : ℝ) / n + nx / n / 2 ^ p = nx * (2 ^ p + 1) / (n * 2 ^ p) := by field_simp
  rw [e1, div_le_iff₀ (by positivity)] at h1
  rw [e2, le_div_iff₀ (by positivity)] at h2
  have h4p : (2 : ℝ) ≤ 2 ^ p := by
    calc (2 : ℝ) = 2 ^ 1 := by norm_num
      _ ≤ 2 ^ p := pow_le_pow_right₀ (by norm_num) hp1
  have hrp : 0 < r := by
    by_contra hc
    push Not at hc
    have : nx * ((2 : ℝ) ^ p - 1) ≤ 0 := h1.trans (mul_nonpos_of_nonpos_of_nonneg hc (by positivity))
    have : 0 < nx * ((2 : ℝ) ^ p - 1) := mul_pos hx0 (by linarith)
    linarith
  have lo : (n : ℝ) - 1 ≤ nx / r := by
    rw [le_div_iff₀ hrp]
    have : ((n : ℝ) - 1) * (nx * (2 ^ p + 1)) ≤ nx * (n * 2 ^ p) := by nlinarith
    have : ((n : ℝ) - 1) * (r * (n * 2 ^ p)) ≤ nx * (n * 2 ^ p) := by
      refine le_trans ?_ this
      have : (0 : ℝ) ≤ (n : ℝ) - 1 := by
        have : (1 : ℝ) ≤ n := by exact_mod_cast h0
        linarith
      exact mul_le_mul_of_nonneg_left h2 this
    have hq : (0 : ℝ) < n * 2 ^ p := by positivity
    by_contra hc
    push Not at hc
    have := mul_lt_mul_of_pos_right hc hq
    linarith
  have hi : (nx : ℝ) / r ≤ n + n / (2 ^ p - 1) := by
    rw [div_le_iff₀ hrp]
    have hm : (0 : ℝ) < 2 ^ p - 1 := by linarith
    rw [show ((n : ℝ) + n / (2 ^ p - 1)) * r = r * (n * 2 ^ p) / (2 ^ p - 1) by field_simp; ring, le_div_iff₀ hm]
    exact h1
  have hlo : ((n : ℝ) - 1) ≤ R.fl (nx / r) := by
    have := le_fl R (F_int hp1 ((n : ℤ) - 1) (by rw [abs_of_nonneg (by omega)]; have : (n : ℤ) < 2 ^ p := by exact_mod_cast (by omega : n < 2 ^ p)
                                                 omega)) (by push_cast; exact lo)
    push_cast at this; exact this
  have hhi : R.fl (nx / r) < n + 1 := by
    have h5 := fl_upper R hp1 (by positivity : (0 : ℝ) ≤ nx / r)
    have h6 : (nx : ℝ) / r / 2 ^ p ≤ (n + n / (2 ^ p - 1)) / 2 ^ p := by gcongr
    have hm : (0 : ℝ) < 2 ^ p - 1 := by linarith
    have h7 : (n : ℝ) + n / (2 ^ p - 1) + (n + n / (2 ^ p - 1)) / 2 ^ p < n + 1 := by
      have e : (n : ℝ) + n / (2 ^ p - 1) + (n + n / (2 ^ p - 1)) / 2 ^ p = n + 2 * n / (2 ^ p - 1) := by
        field_simp; ring
      rw [e]
      have : 2 * (n : ℝ) / (2 ^ p - 1) < 1 := by
        rw [div_lt_one hm]
        have : 2 * n + 1 < 2 ^ p := by omega
        have : (2 * n + 1 : ℝ) < 2 ^ p := by exact_mod_cast this
        linarith
      linarith
    linarith
  unfold boxSide cropSide
  rw [← hr]
  have f1 : (n : ℤ) - 1 ≤ ⌊R.fl (nx / r)⌋ := Int.le_floor.2 (by push_cast; exact hlo)
  have f2 : ⌊R.fl (nx / r)⌋ < (n : ℤ) + 1 := Int.floor_lt.2 (by push_cast; exact hhi)
  omega

theorem crop_100_44 (R : Rounding 53) : boxSide R 100 44 = 43 := by
  unfold boxSide cropSide
  have h1 : R.fl (((100 : ℕ) : ℝ) / (44 : ℕ)) = (5117726849284655 : ℤ) * 2 ^ (-51 : ℤ) := by
    apply fl_val R _ _ _ (by norm_num) (by norm_num)
    rw [abs_lt]; constructor <;> norm_num [zpow_neg]
  rw [h1]
  have h2 : R.fl (((100 : ℕ) : ℝ) / ((5117726849284655 : ℤ) * 2 ^ (-51 : ℤ))) = (6192449487634431 : ℤ) * 2 ^ (-47 : ℤ) := by
    apply fl_val R _ _ _ (by norm_num) (by norm_num)
    rw [abs_lt]; constructor <;> norm_num [zpow_neg]
  rw [h2, Int.floor_eq_iff]
  constructor <;> norm_num [zpow_neg]

/-- C428 (violation): with a camera of 100 pixels, a PSF of 44 pixels cannot be computed: the crop has 43 pixels. -/
theorem psfSide_violation (R : Rounding 53) : psfSide R 100 44 = .error .broadcast := by
  have := crop_100_44 R
  unfold boxSide at this
  unfold psfSide
  rw [if_pos (by norm_num)]
  simp only [this]
  simp

/-! ### Number of actuators -/

/-- C429: a diameter of `n` pitches, both rounded when they are read, gives `n` (`n + 1` with the 1 added): the quotient is rounded to the nearest
integer. -/
theorem roundQuot_eq (hp : 8 ≤ p) (D dp : ℝ) (n k : ℕ) (hd : 0 < dp) (hD : D = n * dp) (hk : k ≤ 1) (hn : n + 1 ≤ 2 ^ (p - 6)) :
    roundQuot R (R.fl D) (R.fl dp) k = n + k := by
  have hp1 : 1 ≤ p := by omega
  have hpp : (2 : ℕ) ^ p = 64 * 2 ^ (p - 6) := by conv_lhs => rw [show p = 6 + (p - 6) by omega, pow_add]
                                                  norm_num
  have hnp : (64 * (n + 1) : ℝ) ≤ 2 ^ p := by
    have : 64 * (n + 1) ≤ 2 ^ p := by omega
    exact_mod_cast this
  have hpos : (0 : ℝ) < 2 ^ p := by positivity
  set u : ℝ := 1 / 2 ^ p with hu
  have hu0 : 0 < u := by positivity
  have hun : 64 * ((n : ℝ) + 1) * u ≤ 1 := by rw [hu, mul_one_div, div_le_one hpos]; exact hnp
  have hn0 : (0 : ℝ) ≤ n := by positivity
  have hu64 : 64 * u ≤ 1 := by nlinarith
  have hD0 : 0 ≤ D := by rw [hD]; positivity
  have a1 := fl_lower R hp1 hD0
  have a2 := fl_upper R hp1 hD0
  have b1 := fl_lower R hp1 hd.le
  have b2 := fl_upper R hp1 hd.le
  rw [show D / 2 ^ p = D * u by rw [hu]; ring] at a1 a2
  rw [show dp / 2 ^ p = dp * u by rw [hu]; ring] at b1 b2
  have hdp' : 0 < R.fl dp := by nlinarith
  set q := R.fl D / R.fl dp with hq
  have q1 : (n : ℝ) * (1 - 4 * u) ≤ q := by
    rw [hq, le_div_iff₀ hdp']
    calc (n : ℝ) * (1 - 4 * u) * R.fl dp ≤ n * (1 - 4 * u) * (dp + dp * u) := by
          gcongr
          nlinarith
      _ ≤ D - D * u := by
        rw [hD]
        have : 0 ≤ (n : ℝ) * dp * u := by positivity
        have : 0 ≤ (n : ℝ) * dp * u * u := by positivity
        nlinarith
      _ ≤ _ := a1
  have q2 : q ≤ (n : ℝ) * (1 + 4 * u) := by
    rw [hq, div_le_iff₀ hdp']
    calc R.fl D ≤ D + D * u := a2
      _ ≤ n * (1 + 4 * u) * (dp - dp * u) := by
        rw [hD]
        have : 0 ≤ (n : ℝ) * dp * u := by positivity
        nlinarith
      _ ≤ _ := by gcongr
  have q0 : 0 ≤ q := by nlinarith
  have c1 := fl_lower R hp1 q0
  have c2 := fl_upper R hp1 q0
  rw [show q / 2 ^ p = q * u by rw [hu]; ring] at c1 c2
  have hqn : q ≤ 2 * n := by nlinarith
  have hk1 : (k : ℝ) ≤ 1 := by exact_mod_cast hk
  have hk0 : (0 : ℝ) ≤ k := by positivity
  have s0 : 0 ≤ R.fl q + k := by have := fl_nonneg R q0; linarith
  have d1 := fl_lower R hp1 s0
  have d2 := fl_upper R hp1 s0
  rw [show (R.fl q + k) / 2 ^ p = (R.fl q + k) * u by rw [hu]; ring] at d1 d2
  have e1 : (n : ℝ) - 6 * n * u ≤ R.fl q := by nlinarith
  have e2 : R.fl q ≤ (n : ℝ) + 6 * n * u := by nlinarith
  have e3 : (R.fl q + k) * u ≤ (2 * n + 1) * u := by
    gcongr
    nlinarith
  unfold roundQuot
  rw [← hq]
  have : |R.fl (R.fl q + k) - ((n + k : ℤ) : ℝ)| < 1 / 2 := by
    push_cast
    rw [abs_lt]; constructor <;> nlinarith
  have h := abs_lt.1 this
  rw [round_eq, Int.floor_eq_iff]
  constructor <;> linarith [h.1, h.2]

/-! ### Frequencies -/

theorem fl_pos (hp : 1 ≤ p) {x : ℝ} (h : 0 < x) : 0 < R.fl x := by
  have := fl_lower R hp h.le
  have h2 : x / 2 ^ p < x := by
    rw [div_lt_iff₀ (by positivity)]
    have : (2 : ℝ) ≤ 2 ^ p := by
      calc (2 : ℝ) = 2 ^ 1 := by norm_num
        _ ≤ 2 ^ p := pow_le_pow_right₀ (by norm_num) hp
    nlinarith
  linarith

theorem fl_negative (hp : 1 ≤ p) {x : ℝ} (h : x < 0) : R.fl x < 0 := by
  have := fl_pos R hp (neg_pos.2 h); rw [R.neg] at this; linarith

theorem index_exact (hp : 1 ≤ p) (n i : ℕ) (hn : n ≤ 2 ^ p) (hi : i < n) : R.fl (R.fl (i : ℝ) - (n / 2 : ℕ)) =
    (((i : ℤ) - ((n / 2 : ℕ) : ℤ) : ℤ) : ℝ) := by
  rw [fl_id R (F_nat hp i (by omega))]
  have e : (i : ℝ) - ((n / 2 : ℕ) : ℝ) = (((i : ℤ) - ((n / 2 : ℕ) : ℤ) : ℤ) : ℝ) := by
    rw [Int.cast_sub, Int.cast_natCast, Int.cast_natCast]
  rw [e]
  apply fl_int R hp
  have h : (n : ℤ) ≤ 2 ^ p := by exact_mod_cast hn
  rw [abs_le]; constructor <;> omega

/-- C430: at every pixel, a computed frequency has the sign of the exact one, and none is zero: the central pixel has the offset, the
others a step above the offset. -/
theorem freqAt_sign (hp : 1 ≤ p) (n i : ℕ) (L offset : ℝ) (hn : n ≤ 2 ^ p) (hi : i < n) (ho : 0 < offset) (hL : R.fl offset < R.fl L) :
    (i < n / 2 → freqAt R n L offset i < 0) ∧ (i = n / 2 → freqAt R n L offset i = R.fl offset) ∧ (n / 2 ≤ i → 0 < freqAt R n L offset i) := by
  unfold freqAt
  rw [index_exact R hp n i hn hi]
  have hof := fl_pos R hp ho
  have hLp : 0 < R.fl L := by linarith
  refine ⟨fun h => ?_, fun h => ?_, fun h => ?_⟩
  · apply fl_negative R hp
    have h1 : (((i : ℤ) - ((n / 2 : ℕ) : ℤ) : ℤ) : ℝ) ≤ -1 := by
      have : (i : ℤ) - ((n / 2 : ℕ) : ℤ) ≤ -1 := by omega
      exact_mod_cast this
    have h2 := fl_le R (F_neg (R.mem L)) (by nlinarith : (((i : ℤ) - ((n / 2 : ℕ) : ℤ) : ℤ) : ℝ) * R.fl L ≤ -R.fl L)
    linarith
  · rw [h, sub_self]; simp only [Int.cast_zero, zero_mul]
    rw [fl_zero, zero_add, fl_id R (R.mem offset)]
  · apply fl_pos R hp
    have h1 : (0 : ℝ) ≤ (((i : ℤ) - ((n / 2 : ℕ) : ℤ) : ℤ) : ℝ) := by
      have : 0 ≤ (i : ℤ) - ((n / 2 : ℕ) : ℤ) := by omega
      exact_mod_cast this
    have := fl_nonneg R (mul_nonneg h1 hLp.le)
    linarith

/-- C431 (partial): with a step far above the offset, for the precision, the offset is lost outside the centre and the grid of frequencies is
symmetric. -/
theorem freqAt_symmetric_partial (hp : 1 ≤ p) (n k : ℕ) (L offset : ℝ) (hn : n ≤ 2 ^ p) (hk : 1 ≤ k) (hk1 : k ≤ n / 2) (hk2 : n / 2 + k < n)
    (hL : |R.fl offset| * 2 ^ (p + 2) ≤ R.fl L) :
    freqAt R n L offset (n / 2 - k) = -freqAt R n L offset (n / 2 + k) ∧ freqAt R n L offset (n / 2 + k) = R.fl (k * R.fl L) := by
  unfold freqAt
  rw [index_exact R hp n _ hn hk2, index_exact R hp n (n / 2 - k) hn (by omega)]
  have e1 : (((n / 2 + k : ℕ) : ℤ) - ((n / 2 : ℕ) : ℤ) : ℤ) = (k : ℤ) := by push_cast; ring
  have e2 : (((n / 2 - k : ℕ) : ℤ) - ((n / 2 : ℕ) : ℤ) : ℤ) = -(k : ℤ) := by rw [Nat.cast_sub hk1]; ring
  rw [e1, e2]
  have e3 : (((-(k : ℤ)) : ℤ) : ℝ) * R.fl L = -((k : ℝ) * R.fl L) := by push_cast; ring
  have e4 : (((k : ℤ)) : ℝ) * R.fl L = (k : ℝ) * R.fl L := by push_cast; ring
  have hL0 : 0 ≤ R.fl L := le_trans (by positivity) hL
  have h1 : R.fl L ≤ R.fl (k * R.fl L) := by
    apply le_fl R (R.mem L)
    have : (1 : ℝ) ≤ k := by exact_mod_cast hk
    nlinarith
  rw [e3, e4, R.neg]
  have f1 : R.fl (R.fl (k * R.fl L) + R.fl offset) = R.fl (k * R.fl L) := by
    apply fl_absorb R (R.mem _)
    rw [abs_of_nonneg (a := R.fl (k * R.fl L)) (by linarith)]; linarith
  have f2 : R.fl (-R.fl (k * R.fl L) + R.fl offset) = -R.fl (k * R.fl L) := by
    apply fl_absorb R (F_neg (R.mem _))
    rw [abs_neg, abs_of_nonneg (a := R.fl (k * R.fl L)) (by linarith)]; linarith
  rw [f1, f2]
  exact ⟨rfl, rfl⟩

/-- C431 (violation): with more digits the offset is kept, and the first frequencies on the two sides of the centre are not opposite: in
double precision this is so for all steps below `offset * 2 ^ 52` (450,000 cycles per metre). -/
theorem freqAt_symmetric_violation (hp : 2 ≤ p) (n : ℕ) (L offset : ℝ) (hn : n ≤ 2 ^ p) (h3 : 3 ≤ n) (ho : 0 < R.fl offset)
    (hL : 0 < R.fl L) (hL' : R.fl L < R.fl offset * 2 ^ (p - 1)) :
    -freqAt R n L offset (n / 2 - 1) < freqAt R n L offset (n / 2 + 1) := by
  have hp1 : 1 ≤ p := by omega
  unfold freqAt
  rw [index_exact R hp1 n (n / 2 + 1) hn (by omega), index_exact R hp1 n (n / 2 - 1) hn (by omega)]
  have e1 : (((n / 2 + 1 : ℕ) : ℤ) - ((n / 2 : ℕ) : ℤ) : ℤ) = 1 := by push_cast; ring
  have e2 : (((n / 2 - 1 : ℕ) : ℤ) - ((n / 2 : ℕ) : ℤ) : ℤ) = -1 := by rw [Nat.cast_sub (by omega)]; ring
  rw [e1, e2]
  simp only [Int.cast_one, one_mul, Int.cast_neg, neg_mul]
  rw [R.neg, fl_id R (R.mem L), ← R.neg (-R.fl L + R.fl offset), neg_add, neg_neg, ← sub_eq_add_neg]
  have hpp : (2 : ℝ) ^ p = 2 * 2 ^ (p - 1) := by conv_lhs => rw [show p = 1 + (p - 1) by omega, pow_add]
                                                 norm_num
  have h1p : (2 : ℝ) ≤ 2 ^ (p - 1) := by
    calc (2 : ℝ) = 2 ^ 1 := by norm_num
      _ ≤ 2 ^ (p - 1) := pow_le_pow_right₀ (by norm_num) (by omega)
  have up : R.fl L < R.fl (R.fl L + R.fl offset) := by
    have := fl_lower R hp1 (by linarith : 0 ≤ R.fl L + R.fl offset)
    have h2 : (R.fl L + R.fl offset) / 2 ^ p < R.fl offset := by
      rw [div_lt_iff₀ (by positivity), hpp]; nlinarith
    linarith
  have dn : R.fl (R.fl L - R.fl offset) ≤ R.fl L := fl_le R (R.mem L) (by linarith)
  linarith

/-! ### Sampling -/

theorem two_pow_ge (hp : 1 ≤ p) : (2 : ℝ) ≤ 2 ^ p := by
  calc (2 : ℝ) = 2 ^ 1 := by norm_num
    _ ≤ 2 ^ p := pow_le_pow_right₀ (by norm_num) hp

/-- C432: the sampling used for the computation is two pixels per `λ/D`, less two roundings at most, and at most one sampling of the camera
above. -/
theorem sampOut_near (hp : 1 ≤ p) (samp : ℝ) (hs : 0 < samp) :
    1 ≤ kFactor R samp ∧ 2 * (1 - 1 / 2 ^ p) ^ 2 ≤ sampOut R samp ∧ (kFactor R samp - 1 : ℝ) * samp ≤ 2 * (1 + 1 / 2 ^ p) := by
  have hp2 := two_pow_ge (p := p) hp
  have hpos : (0 : ℝ) < 2 ^ p := by positivity
  set u : ℝ := 1 / 2 ^ p with hu
  have hu0 : 0 < u := by positivity
  have hu1 : u ≤ 1 / 2 := by
    rw [hu]; exact one_div_le_one_div_of_le (by norm_num) hp2
  have h0 : 0 < 2 / samp := by positivity
  have a1 := fl_lower R hp h0.le
  have a2 := fl_upper R hp h0.le
  rw [show 2 / samp / 2 ^ p = 2 / samp * u by rw [hu]; ring] at a1 a2
  have c1 := Int.le_ceil (R.fl (2 / samp))
  have c2 := Int.ceil_lt_add_one (R.fl (2 / samp))
  have e : 2 / samp * samp = 2 := by field_simp
  have k1 : 2 * (1 - u) ≤ (kFactor R samp : ℝ) * samp := by
    have : 2 / samp * (1 - u) * samp ≤ (kFactor R samp : ℝ) * samp := by
      apply mul_le_mul_of_nonneg_right _ hs.le
      unfold kFactor; linarith
    nlinarith
  refine ⟨?_, ?_, ?_⟩
  · unfold kFactor
    rw [Int.one_le_ceil_iff]; exact fl_pos R hp h0
  · unfold sampOut
    have b1 := fl_lower R hp (x := (kFactor R samp : ℝ) * samp) (by nlinarith)
    rw [show (kFactor R samp : ℝ) * samp / 2 ^ p = (kFactor R samp : ℝ) * samp * u by rw [hu]; ring] at b1
    nlinarith
  · have : (kFactor R samp - 1 : ℝ) * samp ≤ (2 / samp * (1 + u)) * samp := by
      apply mul_le_mul_of_nonneg_right _ hs.le
      unfold kFactor; linarith
    nlinarith

/-! ### Size of the corrected area -/

theorem rad2mas_val (R : Rounding 53) : rad2mas R = (6921098415211370 : ℤ) * 2 ^ (-25 : ℤ) := by
  unfold rad2mas npPi
  apply fl_val R _ _ _ (by norm_num) (by norm_num)
  rw [abs_lt]; constructor <;> norm_num [zpow_neg]

theorem half_exact {x : ℝ} (h : x ∈ F p) : R.fl (x / 2) = x / 2 := fl_id R (half_mem h)

theorem mem_me {m e : ℤ} (h : |m| < 2 ^ p) : ((m : ℝ) * 2 ^ e) ∈ F p := ⟨m, e, h, rfl⟩

theorem kc_one (R : Rounding 53) : R.fl (2 * R.fl (1 / R.fl (2 * R.fl 1))) = 1 := by
  have h1 : (1 : ℝ) ∈ F 53 := by have := F_nat (p := 53) (by norm_num) 1 (by norm_num); simpa using this
  rw [fl_id R h1, fl_id R (double_mem h1)]
  rw [show (1 : ℝ) / (2 * 1) = 1 / 2 by norm_num, fl_id R (half_mem h1)]
  rw [show (2 : ℝ) * (1 / 2) = 1 by norm_num, fl_id R h1]

/-- C433 (violation): the size of the corrected area at Nyquist sampling depends on the wavelength: a telescope of 39 m with actuators of one metre has 78
elements at 2.2 microns and 77 at 1.25 microns. -/
theorem nyquistResAO_violation (R : Rounding 53) : nyquistResAO R 39 (1.25e-6) 1 = 77 ∧ nyquistResAO R 39 (2.2e-6) 1 = 78 := by
  have h39 : R.fl 39 = 39 := by
    have := fl_id R (F_nat (p := 53) (by norm_num) 39 (by norm_num)); simpa using this
  unfold nyquistResAO nyquistStep resAO
  rw [kc_one, h39, rad2mas_val]
  have fin : ∀ x : ℝ, R.fl (R.fl x * 1) = R.fl x := fun x => by rw [mul_one, fl_id R (R.mem x)]
  constructor
  · have w : R.fl (1.25e-6 : ℝ) = (5902958103587057 : ℤ) * 2 ^ (-72 : ℤ) := by
      apply fl_val R _ _ _ (by norm_num) (by norm_num)
      rw [abs_lt]; constructor <;> norm_num [zpow_neg]
    have x1 : R.fl (((6921098415211370 : ℤ) : ℝ) * 2 ^ (-25 : ℤ) * (((5902958103587057 : ℤ) : ℝ) * 2 ^ (-72 : ℤ))) = (4535811057392924 : ℤ) * 2 ^ (-44 : ℤ) := by
      apply fl_val R _ _ _ (by norm_num) (by norm_num)
      rw [abs_lt]; constructor <;> norm_num [zpow_neg]
    have x2 : R.fl (((4535811057392924 : ℤ) : ℝ) * 2 ^ (-44 : ℤ) / 39) = (7443382248029414 : ℤ) * 2 ^ (-50 : ℤ) := by
      apply fl_val R _ _ _ (by norm_num) (by norm_num)
      rw [abs_lt]; constructor <;> norm_num [zpow_neg]
    have x3 : R.fl (((7443382248029414 : ℤ) : ℝ) * 2 ^ (-50 : ℤ) / 2 / (((4535811057392924 : ℤ) : ℝ) * 2 ^ (-44 : ℤ))) = (7390522465428507 : ℤ) * 2 ^ (-59 : ℤ) := by
      apply fl_val R _ _ _ (by norm_num) (by norm_num)
      rw [abs_lt]; constructor <;> norm_num [zpow_neg]
    have x4 : R.fl (1 / (((7390522465428507 : ℤ) : ℝ) * 2 ^ (-59 : ℤ))) = (5488762045857791 : ℤ) * 2 ^ (-46 : ℤ) := by
      apply fl_val R _ _ _ (by norm_num) (by norm_num)
      rw [abs_lt]; constructor <;> norm_num [zpow_neg]
    simp only [w, fin, x1, mul_comm (((5902958103587057 : ℤ) : ℝ) * 2 ^ (-72 : ℤ)), x2]
    rw [half_exact R (mem_me (by norm_num)), mul_one, fl_id R (mem_me (by norm_num)), x3, x4, Int.floor_eq_iff]
    constructor <;> norm_num [zpow_neg]
  · have w : R.fl (2.2e-6 : ℝ) = (5194603131156610 : ℤ) * 2 ^ (-71 : ℤ) := by
      apply fl_val R _ _ _ (by norm_num) (by norm_num)
      rw [abs_lt]; constructor <;> norm_num [zpow_neg]
    have x1 : R.fl (((6921098415211370 : ℤ) : ℝ) * 2 ^ (-25 : ℤ) * (((5194603131156610 : ℤ) : ℝ) * 2 ^ (-71 : ℤ))) = (7983027461011546 : ℤ) * 2 ^ (-44 : ℤ) := by
      apply fl_val R _ _ _ (by norm_num) (by norm_num)
      rw [abs_lt]; constructor <;> norm_num [zpow_neg]
    have x2 : R.fl (((7983027461011546 : ℤ) : ℝ) * 2 ^ (-44 : ℤ) / 39) = (6550176378265884 : ℤ) * 2 ^ (-49 : ℤ) := by
      apply fl_val R _ _ _ (by norm_num) (by norm_num)
      rw [abs_lt]; constructor <;> norm_num [zpow_neg]
    have x3 : R.fl (((6550176378265884 : ℤ) : ℝ) * 2 ^ (-49 : ℤ) / 2 / (((7983027461011546 : ℤ) : ℝ) * 2 ^ (-44 : ℤ))) = (7390522465428506 : ℤ) * 2 ^ (-59 : ℤ) := by
      apply fl_val R _ _ _ (by norm_num) (by norm_num)
      rw [abs_lt]; constructor <;> norm_num [zpow_neg]
    have x4 : R.fl (1 / (((7390522465428506 : ℤ) : ℝ) * 2 ^ (-59 : ℤ))) = (5488762045857792 : ℤ) * 2 ^ (-46 : ℤ) := by
      apply fl_val R _ _ _ (by norm_num) (by norm_num)
      rw [abs_lt]; constructor <;> norm_num [zpow_neg]
    simp only [w, fin, x1, mul_comm (((5194603131156610 : ℤ) : ℝ) * 2 ^ (-71 : ℤ)), x2]
    rw [half_exact R (mem_me (by norm_num)), mul_one, fl_id R (mem_me (by norm_num)), x3, x4, Int.floor_eq_iff]
    constructor <;> norm_num [zpow_neg]

/-! ### Accumulated error -/

/-- `x` is `y` after at most `k` roundings. -/
def Near (p k : ℕ) (x y : ℝ) : Prop := y * (1 - 1 / 2 ^ p) ^ k ≤ x ∧ x * (1 - 1 / 2 ^ p) ^ k ≤ y

theorem v_pos (hp : 1 ≤ p) : (0 : ℝ) < 1 - 1 / 2 ^ p ∧ (1 : ℝ) - 1 / 2 ^ p ≤ 1 := by
  have := two_pow_ge (p := p) hp
  have h1 : (1 : ℝ) / 2 ^ p ≤ 1 / 2 := one_div_le_one_div_of_le (by norm_num) this
  have h2 : (0 : ℝ) < 1 / 2 ^ p := by positivity
  constructor <;> linarith

theorem Near.refl (x : ℝ) : Near p 0 x x := by simp [Near]

theorem Near.nonneg (hp : 1 ≤ p) {k : ℕ} {x y : ℝ} (hy : 0 ≤ y) (h : Near p k x y) : 0 ≤ x :=
  le_trans (mul_nonneg hy (pow_nonneg (v_pos hp).1.le k)) h.1

theorem Near.pos (hp : 1 ≤ p) {k : ℕ} {x y : ℝ} (hy : 0 < y) (h : Near p k x y) : 0 < x :=
  lt_of_lt_of_le (mul_pos hy (pow_pos (v_pos hp).1 k)) h.1

theorem Near.weak (hp : 1 ≤ p) {k l : ℕ} {x y : ℝ} (hy : 0 ≤ y) (h : Near p k x y) (hl : k ≤ l) : Near p l x y := by
  have hx := h.nonneg hp hy
  have hv := v_pos hp
  have := pow_le_pow_of_le_one hv.1.le hv.2 hl
  exact ⟨le_trans (mul_le_mul_of_nonneg_left this hy) h.1, le_trans (mul_le_mul_of_nonneg_left this hx) h.2⟩

theorem Near.fl (hp : 1 ≤ p) {k : ℕ} {x y : ℝ} (hy : 0 ≤ y) (h : Near p k x y) : Near p (k + 1) (R.fl x) y := by
  have hx := h.nonneg hp hy
  have hv := v_pos hp
  have hk := pow_pos hv.1 k
  have a1 := fl_lower R hp hx
  have a2 := fl_upper R hp hx
  have e : x / 2 ^ p = x * (1 / 2 ^ p) := by ring
  rw [e] at a1 a2
  have hw : (0 : ℝ) < 1 / 2 ^ p := by positivity
  have h1 := h.1
  have h2 := h.2
  unfold Near
  have hv1 := hv.1
  generalize (1 : ℝ) / 2 ^ p = w at *
  constructor
  · rw [pow_succ, ← mul_assoc]
    calc y * (1 - w) ^ k * (1 - w) ≤ x * (1 - w) := mul_le_mul_of_nonneg_right h1 hv1.le
      _ ≤ _ := by linarith
  · rw [pow_succ]
    calc R.fl x * ((1 - w) ^ k * (1 - w)) ≤ (x + x * w) * ((1 - w) ^ k * (1 - w)) := mul_le_mul_of_nonneg_right a2 (by positivity)
      _ = x * (1 - w) ^ k * (1 - w * w) := by ring
      _ ≤ x * (1 - w) ^ k * 1 := mul_le_mul_of_nonneg_left (by nlinarith) (by positivity)
      _ ≤ y := by linarith

theorem Near.mul (hp : 1 ≤ p) {k l : ℕ} {x y x' y' : ℝ} (hy : 0 ≤ y) (hy' : 0 ≤ y') (h : Near p k x y) (h' : Near p l x' y') :
    Near p (k + l) (x * x') (y * y') := by
  have hx := h.nonneg hp hy
  have hx' := h'.nonneg hp hy'
  have hv := v_pos hp
  have hk := pow_pos hv.1 k
  have hl := pow_pos hv.1 l
  constructor
  · rw [pow_add, show ∀ a b : ℝ, y * y' * (a * b) = y * a * (y' * b) by intros; ring]
    exact mul_le_mul h.1 h'.1 (by positivity) hx
  · rw [pow_add, show ∀ a b : ℝ, x * x' * (a * b) = x * a * (x' * b) by intros; ring]
    exact mul_le_mul h.2 h'.2 (by positivity) hy

theorem Near.div (hp : 1 ≤ p) {k l : ℕ} {x y x' y' : ℝ} (hy : 0 ≤ y) (hy' : 0 < y') (h : Near p k x y) (h' : Near p l x' y') :
    Near p (k + l) (x / x') (y / y') := by
  have hx' := h'.pos hp hy'
  have : Near p l x'⁻¹ y'⁻¹ := by
    constructor
    · rw [inv_mul_le_iff₀ hy', ← div_eq_mul_inv, le_div_iff₀ hx', mul_comm]; exact h'.2
    · rw [inv_mul_le_iff₀ hx', ← div_eq_mul_inv, le_div_iff₀ hy', mul_comm]; exact h'.1
  rw [div_eq_mul_inv, div_eq_mul_inv]
  exact h.mul hp hy (by positivity) this

theorem Near.add (hp : 1 ≤ p) {k l : ℕ} {x y x' y' : ℝ} (hy : 0 ≤ y) (hy' : 0 ≤ y') (h : Near p k x y) (h' : Near p l x' y') :
    Near p (max k l) (x + x') (y + y') := by
  have a := h.weak hp hy (le_max_left k l)
  have b := h'.weak hp hy' (le_max_right k l)
  constructor
  · rw [add_mul]; exact add_le_add a.1 b.1
  · rw [add_mul]; exact add_le_add a.2 b.2

theorem Near.of_fl (hp : 1 ≤ p) {y : ℝ} (hy : 0 ≤ y) : Near p 1 (R.fl y) y := (Near.refl y).fl R hp hy

/-- What `k` roundings amount to. -/
theorem Near.bound (hp : 1 ≤ p) {k : ℕ} {x y : ℝ} (hy : 0 ≤ y) (h : Near p k x y) (hk : 2 * k ≤ 2 ^ p) : |x - y| ≤ 2 * k * y / 2 ^ p := by
  have hv := v_pos hp
  have hx := h.nonneg hp hy
  have hpos : (0 : ℝ) < 2 ^ p := by positivity
  have hb : 1 - k * (1 / 2 ^ p : ℝ) ≤ (1 - 1 / 2 ^ p) ^ k := by
    have := one_add_mul_le_pow (a := -(1 / 2 ^ p : ℝ)) (by linarith [hv.1]) k
    rw [← sub_eq_add_neg] at this
    linarith
  have hk' : (k : ℝ) * (1 / 2 ^ p) ≤ 1 / 2 := by
    rw [mul_one_div, div_le_div_iff₀ hpos (by norm_num)]
    have : ((2 * k : ℕ) : ℝ) ≤ ((2 ^ p : ℕ) : ℝ) := by exact_mod_cast hk
    push_cast at this; linarith
  have e : 2 * (k : ℝ) * y / 2 ^ p = 2 * (k * (1 / 2 ^ p)) * y := by ring
  have hw : 0 ≤ (k : ℝ) * (1 / 2 ^ p) := by positivity
  rw [e]
  have h1 := h.1
  have h2 := h.2
  generalize (k : ℝ) * (1 / 2 ^ p) = w at *
  generalize (1 - 1 / 2 ^ p : ℝ) ^ k = b at *
  have s1 : y * (1 - w) ≤ x := le_trans (mul_le_mul_of_nonneg_left hb hy) h1
  have s2 : x * (1 - w) ≤ y := le_trans (mul_le_mul_of_nonneg_left hb hx) h2
  rw [abs_le]; constructor
  · nlinarith
  · have : x ≤ 2 * y := by nlinarith
    nlinarith

theorem floor_near {x y : ℝ} (h : |x - y| < 1) : |⌊x⌋ - ⌊y⌋| ≤ 1 := by
  have h' := abs_lt.1 h
  have a := Int.floor_le x
  have b := Int.lt_floor_add_one x
  have c := Int.floor_le y
  have d := Int.lt_floor_add_one y
  have e : (⌊x⌋ : ℝ) < ⌊y⌋ + 2 := by linarith
  have f : (⌊y⌋ : ℝ) < ⌊x⌋ + 2 := by linarith
  have e' : ⌊x⌋ < ⌊y⌋ + 2 := by exact_mod_cast e
  have f' : ⌊y⌋ < ⌊x⌋ + 2 := by exact_mod_cast f
  rw [abs_le]; constructor <;> omega

/-- C433 (partial): at Nyquist sampling the size of the corrected area is within one element of `2 D / pitch`, whatever the wavelength. -/
theorem nyquistResAO_partial (hp : 6 ≤ p) (D wvl pitch : ℝ) (hD : 0 < D) (hw : 0 < wvl) (hd : 0 < pitch) (hn : 2 * D / pitch ≤ 2 ^ (p - 5)) :
    |nyquistResAO R D wvl pitch - ⌊2 * D / pitch⌋| ≤ 1 := by
  have hp1 : 1 ≤ p := by omega
  have hr : 0 < rad2mas R := by
    apply fl_pos R hp1; unfold npPi; positivity
  unfold nyquistResAO resAO nyquistStep
  generalize rad2mas R = r at *
  apply floor_near
  have nD := Near.of_fl R hp1 hD.le
  have nw := Near.of_fl R hp1 hw.le
  have nd := Near.of_fl R hp1 hd.le
  have kc : Near p 4 (R.fl (2 * R.fl (1 / R.fl (2 * R.fl pitch)))) (2 * (1 / (2 * pitch))) := by
    have a := ((Near.refl (p := p) 2).mul hp1 (by norm_num) hd.le nd).fl R hp1 (by positivity)
    have b := ((Near.refl (p := p) 1).div hp1 (by norm_num) (by positivity) a).fl R hp1 (by positivity)
    exact ((Near.refl (p := p) 2).mul hp1 (by norm_num) (by positivity) b).fl R hp1 (by positivity)
  have st : Near p 9 (R.fl (R.fl (R.fl (R.fl (r * R.fl wvl) / R.fl D) / 2) / R.fl (R.fl (R.fl wvl * r) * 1)))
      (r * wvl / D / 2 / (wvl * r * 1)) := by
    have a := ((Near.refl (p := p) r).mul hp1 hr.le hw.le nw).fl R hp1 (by positivity)
    have b := (a.div hp1 (by positivity) hD nD).fl R hp1 (by positivity)
    have c := (b.div hp1 (by positivity) (by norm_num) (Near.refl (p := p) 2)).fl R hp1 (by positivity)
    have d := (nw.mul hp1 hw.le hr.le (Near.refl (p := p) r)).fl R hp1 (by positivity)
    have e := (d.mul hp1 (by positivity) (by norm_num) (Near.refl (p := p) 1)).fl R hp1 (by positivity)
    exact (c.div hp1 (by positivity) (by positivity) e).fl R hp1 (by positivity)
  have q := (kc.div hp1 (by positivity) (by positivity) st).fl R hp1 (by positivity)
  have ex : 2 * (1 / (2 * pitch)) / (r * wvl / D / 2 / (wvl * r * 1)) = 2 * D / pitch := by
    field_simp
  rw [ex] at q
  have h2 : (2 : ℕ) ^ p = 32 * 2 ^ (p - 5) := pow_split (by omega)
  have h2' : (2 : ℝ) ^ p = 32 * 2 ^ (p - 5) := by exact_mod_cast h2
  have h3 : 1 < 2 ^ (p - 5) := Nat.one_lt_two_pow (by omega)
  refine lt_of_le_of_lt (q.bound hp1 (by positivity) (by omega)) ?_
  rw [div_lt_one (by positivity), h2']
  have : (0 : ℝ) < 2 ^ (p - 5) := by positivity
  push_cast
  linarith

/-! ### Positions of the actuators -/

theorem nPoints_near (hp : 5 ≤ p) (D dp : ℝ) (n : ℕ) (hd : 0 < dp) (hD : D = n * dp) (hn : n + 1 ≤ 2 ^ (p - 5)) :
    nPoints R D dp = n + 1 ∨ nPoints R D dp = n + 2 := by
  have hp1 : 1 ≤ p := by omega
  have hD0 : 0 ≤ D := by rw [hD]; positivity
  have nD := Near.of_fl R hp1 hD0
  have nd := Near.of_fl R hp1 hd.le
  unfold nPoints
  simp only
  have e : ∀ x : ℝ, R.fl (-x / 2) = -R.fl (x / 2) := fun x => by rw [neg_div, R.neg]
  rw [e, sub_neg_eq_add]
  have a := (nD.div hp1 hD0 (by norm_num : (0 : ℝ) < 2) (Near.refl 2)).fl R hp1 (by positivity)
  have b := (a.add hp1 (by positivity) hd.le nd).fl R hp1 (by positivity)
  have c := (b.add hp1 (by positivity) (by positivity) a).fl R hp1 (by positivity)
  have q := (c.div hp1 (by positivity) hd nd).fl R hp1 (by positivity)
  have ex : (D / 2 + dp + D / 2) / dp = n + 1 := by rw [hD]; field_simp; ring
  rw [ex] at q
  replace q : Near p 6 _ _ := q
  have h2 : (2 : ℕ) ^ p = 32 * 2 ^ (p - 5) := pow_split hp
  have h2' : (2 : ℝ) ^ p = 32 * 2 ^ (p - 5) := by exact_mod_cast h2
  have h3 : 1 ≤ 2 ^ (p - 5) := Nat.one_le_two_pow
  have hn' : (n + 1 : ℝ) ≤ 2 ^ (p - 5) := by exact_mod_cast hn
  have l := lt_of_le_of_lt (q.bound hp1 (by positivity) (by omega)) (c := 1) (by
    rw [div_lt_one (by positivity), h2']
    have : (0 : ℝ) < 2 ^ (p - 5) := by positivity
    push_cast
    nlinarith)
  have l' := abs_lt.1 l
  have c1 : ((n : ℤ) : ℝ) < R.fl (R.fl (R.fl (R.fl (R.fl D / 2) + R.fl dp) + R.fl (R.fl D / 2)) / R.fl dp) := by push_cast; linarith
  have c2 : R.fl (R.fl (R.fl (R.fl (R.fl D / 2) + R.fl dp) + R.fl (R.fl D / 2)) / R.fl dp) ≤ ((n + 2 : ℤ) : ℝ) := by push_cast; linarith
  have d1 := Int.lt_ceil.2 c1
  have d2 := Int.ceil_le.2 c2
  omega

theorem nPoints_exact (hp : 1 ≤ p) (D dp : ℝ) (n : ℕ) (hd : 0 < dp) (hD : D = n * dp) (h1 : D ∈ F p) (h2 : dp ∈ F p) (h3 : D / 2 + dp ∈ F p)
    (h4 : D + dp ∈ F p) (hn : n + 1 ≤ 2 ^ p) : nPoints R D dp = n + 1 := by
  unfold nPoints
  simp only
  rw [neg_div, R.neg, sub_neg_eq_add, fl_id R h1, fl_id R h2, fl_id R (half_mem h1), fl_id R h3, show D / 2 + dp + D / 2 = D + dp by ring, fl_id R h4]
  have ex : (D + dp) / dp = ((n + 1 : ℕ) : ℝ) := by rw [hD]; push_cast; field_simp
  rw [ex, fl_id R (F_nat hp _ hn)]
  rw [show ((n + 1 : ℕ) : ℝ) = ((n + 1 : ℤ) : ℝ) by push_cast; ring, Int.ceil_intCast]

/-- C434 (partial): for a diameter of `n` pitches there are `n + 1` points, or one too many; the valid actuators are found, with a mask of `n + 1` points on
a side, when nothing is rounded (as for a diameter and a pitch that are small multiples of a same power of two). -/
theorem pointWise_partial (hp : 5 ≤ p) (D dp : ℝ) (n valid : ℕ) (hd : 0 < dp) (hD : D = n * dp) (hn : n + 1 ≤ 2 ^ (p - 5)) :
    (nPoints R D dp = n + 1 ∨ nPoints R D dp = n + 2) ∧
      (D ∈ F p → dp ∈ F p → D / 2 + dp ∈ F p → D + dp ∈ F p → pointWise R D dp (n + 1) valid = .ok valid) := by
  refine ⟨nPoints_near R hp D dp n hd hD hn, fun h1 h2 h3 h4 => ?_⟩
  have h5 : 2 ^ p = 32 * 2 ^ (p - 5) := pow_split hp
  unfold pointWise
  rw [nPoints_exact R (by omega) D dp n hd hD h1 h2 h3 h4 (by omega)]
  simp

/-- C434 (violation): 50 actuators of 7.2 cm over 3.6 m: 52 points instead of 51, and the mask of the 51 by 51 actuators cannot be used. -/
theorem pointWise_violation (R : Rounding 53) (valid : ℕ) :
    (3.6 : ℝ) = (50 : ℕ) * 0.072 ∧ nPoints R 3.6 0.072 = 52 ∧ pointWise R 3.6 0.072 51 valid = .error .indexError := by
  have h : nPoints R 3.6 0.072 = 52 := by
    have d : R.fl (3.6 : ℝ) = (8106479329266893 : ℤ) * 2 ^ (-51 : ℤ) := by
      apply fl_val R _ _ _ (by norm_num) (by norm_num)
      rw [abs_lt]; constructor <;> norm_num [zpow_neg]
    have x : R.fl (0.072 : ℝ) = (5188146770730811 : ℤ) * 2 ^ (-56 : ℤ) := by
      apply fl_val R _ _ _ (by norm_num) (by norm_num)
      rw [abs_lt]; constructor <;> norm_num [zpow_neg]
    have s : R.fl (((8106479329266893 : ℤ) : ℝ) * 2 ^ (-51 : ℤ) / 2 + ((5188146770730811 : ℤ) : ℝ) * 2 ^ (-56 : ℤ)) = (8430738502437569 : ℤ) * 2 ^ (-52 : ℤ) := by
      apply fl_val R _ _ _ (by norm_num) (by norm_num)
      rw [abs_lt]; constructor <;> norm_num [zpow_neg]
    have t : R.fl (((8430738502437569 : ℤ) : ℝ) * 2 ^ (-52 : ℤ) + ((8106479329266893 : ℤ) : ℝ) * 2 ^ (-51 : ℤ) / 2) = (8268608915852231 : ℤ) * 2 ^ (-51 : ℤ) := by
      apply fl_val R _ _ _ (by norm_num) (by norm_num)
      rw [abs_lt]; constructor <;> norm_num [zpow_neg]
    have q : R.fl (((8268608915852231 : ℤ) : ℝ) * 2 ^ (-51 : ℤ) / (((5188146770730811 : ℤ) : ℝ) * 2 ^ (-56 : ℤ))) = (7177611906121729 : ℤ) * 2 ^ (-47 : ℤ) := by
      apply fl_val R _ _ _ (by norm_num) (by norm_num)
      rw [abs_lt]; constructor <;> norm_num [zpow_neg]
    unfold nPoints
    simp only [d, x]
    rw [neg_div, R.neg, sub_neg_eq_add, half_exact R (mem_me (by norm_num)), s, t, q, Int.ceil_eq_iff]
    constructor <;> norm_num [zpow_neg]
  refine ⟨by norm_num, h, ?_⟩
  unfold pointWise
  rw [h, if_neg (by norm_num)]

/-! ### Sums -/

theorem sum_near (hp : 1 ≤ p) (s : Sum) (h : ∀ x ∈ s.terms, 0 ≤ x) : Near p s.depth (s.value R) s.terms.sum := by
  induction s with
  | leaf x => simpa [Sum.terms, Sum.depth, Sum.value] using Near.refl (p := p) x
  | add a b iha ihb =>
    have ha := iha (fun x hx => h x (by simp [Sum.terms, hx]))
    have hb := ihb (fun x hx => h x (by simp [Sum.terms, hx]))
    have na : 0 ≤ a.terms.sum := List.sum_nonneg (fun x hx => h x (by simp [Sum.terms, hx]))
    have nb : 0 ≤ b.terms.sum := List.sum_nonneg (fun x hx => h x (by simp [Sum.terms, hx]))
    simp only [Sum.terms, Sum.depth, Sum.value, List.sum_append]
    exact (ha.add hp na nb hb).fl R hp (by positivity)

theorem map_near {k : ℕ} (hp : 1 ≤ p) (l : List ℝ) (f g : ℝ → ℝ) (h : ∀ x ∈ l, 0 ≤ g x ∧ Near p k (f x) (g x)) :
    0 ≤ (l.map g).sum ∧ Near p k (l.map f).sum (l.map g).sum := by
  induction l with
  | nil => exact ⟨by simp, by simpa using (Near.refl (p := p) 0).weak hp le_rfl (Nat.zero_le k)⟩
  | cons x l ih =>
    have a := ih (fun y hy => h y (by simp [hy]))
    have b := h x (by simp)
    simp only [List.map_cons, List.sum_cons]
    exact ⟨by linarith [a.1, b.1], by simpa using b.2.add hp b.1 a.1 a.2⟩

/-- C435: a sum of non-negative terms, computed in any order, is the exact one within a factor `(1 - 2^-p)^depth`. -/
theorem sum_value (hp : 1 ≤ p) (s : Sum) (h : ∀ x ∈ s.terms, 0 ≤ x) :
    s.terms.sum * (1 - 1 / 2 ^ p) ^ s.depth ≤ s.value R ∧ s.value R * (1 - 1 / 2 ^ p) ^ s.depth ≤ s.terms.sum := sum_near R hp s h

/-- C435: the pixels of the PSF add up to the flux asked for, within two more roundings. -/
theorem scaled_flux (hp : 1 ≤ p) (s : Sum) (flux : ℝ) (h : ∀ x ∈ s.terms, 0 ≤ x) (h0 : 0 < s.terms.sum) (hf : 0 ≤ flux) :
    flux * (1 - 1 / 2 ^ p) ^ (s.depth + 2) ≤ (s.terms.map (scaled R s flux)).sum ∧
      (s.terms.map (scaled R s flux)).sum * (1 - 1 / 2 ^ p) ^ (s.depth + 2) ≤ flux := by
  have hs := sum_near R hp s h
  have := map_near (p := p) (k := s.depth + 2) hp s.terms (scaled R s flux) (fun x => x / s.terms.sum * flux) (fun x hx => by
    have hx0 := h x hx
    refine ⟨by positivity, ?_⟩
    have a := ((Near.refl (p := p) x).div hp hx0 h0 hs).fl R hp (by positivity)
    have b := (a.mul hp (by positivity) hf (Near.refl flux)).fl R hp (by positivity)
    rw [zero_add, add_zero] at b
    exact b)
  have e : (s.terms.map (fun x => x / s.terms.sum * flux)).sum = flux := by
    rw [List.sum_map_mul_right]
    have : (s.terms.map (fun x => x / s.terms.sum)).sum = 1 := by
      simp only [div_eq_mul_inv]
      rw [List.sum_map_mul_right]
      simp only [List.map_id']
      exact mul_inv_cancel₀ h0.ne'
    rw [this, one_mul]
  rw [e] at this
  exact this.2

/-- C435: the pixels have the sign and the order of the exact ones. -/
theorem scaled_mono (hp : 1 ≤ p) (s : Sum) (flux : ℝ) (h : ∀ x ∈ s.terms, 0 ≤ x) (h0 : 0 < s.terms.sum) (hf : 0 ≤ flux) (x y : ℝ) (hx : 0 ≤ x) (hxy : x ≤ y) :
    0 ≤ scaled R s flux x ∧ scaled R s flux x ≤ scaled R s flux y := by
  have hs := (sum_near R hp s h).pos hp h0
  unfold scaled
  have a := fl_nonneg R (by positivity : 0 ≤ x / s.value R)
  refine ⟨fl_nonneg R (mul_nonneg a hf), fl_mono R ?_⟩
  apply mul_le_mul_of_nonneg_right _ hf
  exact fl_mono R (by gcongr)

theorem foldl_near (hp : 1 ≤ p) (l : List ℝ) (h : ∀ x ∈ l, 0 ≤ x) (s y : ℝ) (k : ℕ) (hy : 0 ≤ y) (hs : Near p k s y) :
    Near p (k + l.length) (l.foldl (fun s x => R.fl (s + x)) s) (y + l.sum) := by
  induction l generalizing s y k with
  | nil => simpa using hs
  | cons x l ih =>
    have hx := h x (by simp)
    have a := (hs.add hp hy hx (Near.refl x)).fl R hp (by positivity)
    have := ih (fun z hz => h z (by simp [hz])) _ _ _ (by positivity) a
    simp only [List.foldl_cons, List.length_cons, List.sum_cons]
    rw [← add_assoc y x, show k + (l.length + 1) = max k 0 + 1 + l.length by simp; omega]
    exact this

/-- C436: the weight of an equivalent layer is a number of the type asked for, the exact sum within the errors of the sum in double
precision and one rounding to this type. -/
theorem slabWeight_near {q : ℕ} (S : Rounding q) (hp : 1 ≤ p) (hq : 1 ≤ q) (l : List ℝ) (h : ∀ x ∈ l, 0 ≤ x) :
    slabWeight R S l ∈ F q ∧
      l.sum * (1 - 1 / 2 ^ p) ^ l.length * (1 - 1 / 2 ^ q) ≤ slabWeight R S l ∧
      slabWeight R S l * (1 - 1 / 2 ^ q) * (1 - 1 / 2 ^ p) ^ l.length ≤ l.sum := by
  have hs := foldl_near R hp l h 0 0 0 le_rfl (Near.refl 0)
  simp only [zero_add] at hs
  have h0 : 0 ≤ l.sum := List.sum_nonneg h
  have n := hs.nonneg hp h0
  have t := Near.of_fl S hq n
  have v := v_pos hp
  have w := v_pos hq
  refine ⟨S.mem _, ?_, ?_⟩
  · have := t.1
    rw [pow_one] at this
    exact le_trans (mul_le_mul_of_nonneg_right hs.1 w.1.le) this
  · have := t.2
    rw [pow_one] at this
    exact le_trans (mul_le_mul_of_nonneg_right this (pow_nonneg v.1.le _)) hs.2

/-! ### Cases that meet the hypotheses -/

/-- Rounding to 53 bits, as in double precision. -/
noncomputable def double : Rounding 53 := someRounding 53 (by norm_num)

theorem one_mem : (1 : ℝ) ∈ F 53 := by have := F_nat (p := 53) (by norm_num) 1 (by norm_num); simpa using this

/-- A case meeting the hypotheses of `intQuot_eq`. -/
example : intQuot double 1201 7 = 171 := intQuot_eq double (by norm_num) 1201 7 (by norm_num) (by norm_num)

/-- A case meeting the hypotheses of `nTimes_eq`. -/
example : nTimes double 400 80 = Freq.nTimes 400 80 := nTimes_eq double (by norm_num) 400 80 (by norm_num) (by norm_num)

/-- A case meeting the hypotheses of `intSqrt_eq`. -/
example : intSqrt double 1024 = 32 := by
  rw [intSqrt_eq double (by norm_num) 1024 (by norm_num), show (1024 : ℕ) = 32 * 32 by norm_num, Nat.sqrt_eq]; norm_num

/-- A case meeting the hypotheses of `findN_eq`. -/
example : findN double 36 = Zernike.findN 36 := findN_eq double (by norm_num) 36 (by norm_num) (by norm_num)

/-- A case meeting the hypotheses of `nmOrder_eq`. -/
example : nmOrder double 36 = Zernike.nmOrder 36 := nmOrder_eq double (by norm_num) 36 (by norm_num) (by norm_num)

/-- A case meeting the hypotheses of `psfSide_partial`. -/
example : psfSide double 256 64 = .ok 64 := by
  refine (psfSide_partial double (by norm_num) 256 64 (by norm_num) (by norm_num) (by norm_num) ?_).1
  have := F_nat (p := 53) (by norm_num) 4 (by norm_num)
  norm_num at this ⊢; exact this

/-- A case meeting the hypotheses of `boxSide_near_partial`. -/
example := boxSide_near_partial double (by norm_num) 100 44 (by norm_num) (by norm_num) (by norm_num)

/-- A case meeting the hypotheses of `roundQuot_eq`. -/
example : roundQuot double (double.fl 8) (double.fl 0.1) 1 = 81 := by
  have := roundQuot_eq double (by norm_num) 8 0.1 80 1 (by norm_num) (by norm_num) (by norm_num) (by norm_num)
  simpa using this

/-- A case meeting the hypotheses of `freqAt_sign`. -/
example : 0 < freqAt double 200 1 (1 / 2) 100 := by
  have h := freqAt_sign double (by norm_num) 200 100 1 (1 / 2) (by norm_num) (by norm_num) (by norm_num)
    (by rw [fl_id double one_mem, fl_id double (half_mem one_mem)]; norm_num)
  exact h.2.2 (by norm_num)

/-- A case meeting the hypotheses of `freqAt_symmetric_partial`. -/
example : freqAt double 200 1 0 90 = -freqAt double 200 1 0 110 :=
  (freqAt_symmetric_partial double (by norm_num) 200 10 1 0 (by norm_num) (by norm_num) (by norm_num) (by norm_num) (by
    rw [fl_zero, fl_id double one_mem]; norm_num)).1

/-- A case meeting the hypotheses of `freqAt_symmetric_violation`. -/
example : -freqAt double 200 1 (1 / 2) 99 < freqAt double 200 1 (1 / 2) 101 :=
  freqAt_symmetric_violation double (by norm_num) 200 1 (1 / 2) (by norm_num) (by norm_num)
    (by rw [fl_id double (half_mem one_mem)]; norm_num) (by rw [fl_id double one_mem]; norm_num)
    (by rw [fl_id double one_mem, fl_id double (half_mem one_mem)]; norm_num)

/-- A case meeting the hypotheses of `sampOut_near`. -/
example := sampOut_near double (by norm_num) 0.7 (by norm_num)

/-- A case meeting the hypotheses of `nyquistResAO_partial`. -/
example := nyquistResAO_partial double (by norm_num) 8 (1.6e-6) 0.2 (by norm_num) (by norm_num) (by norm_num) (by norm_num)

/-- A case meeting the hypotheses of `pointWise_partial`. -/
example : pointWise double 10 (1 / 2) 21 340 = .ok 340 := by
  have h := (pointWise_partial double (by norm_num) 10 (1 / 2) 20 340 (by norm_num) (by norm_num) (by norm_num)).2
  have f : ∀ n : ℕ, n ≤ 100 → (n : ℝ) / 2 ∈ F 53 := fun n hn => half_mem (F_nat (by norm_num) n (by omega))
  have f20 := f 20 (by norm_num)
  have f1 := f 1 (by norm_num)
  have f11 := f 11 (by norm_num)
  have f21 := f 21 (by norm_num)
  norm_num at f20 f1 f11 f21 h
  exact h f20 f1 f11 f21

/-- Four pixels added by pairs. -/
noncomputable def four : Sum := .add (.add (.leaf 1) (.leaf (1 / 3))) (.add (.leaf (1 / 7)) (.leaf 0))

theorem four_nonneg : ∀ x ∈ four.terms, 0 ≤ x := by
  simp [four, Sum.terms]

/-- A case meeting the hypotheses of `sum_value`. -/
example := sum_value double (by norm_num) four four_nonneg

/-- A case meeting the hypotheses of `scaled_flux`. -/
example := scaled_flux double (by norm_num) four 100 four_nonneg (by norm_num [four, Sum.terms]) (by norm_num)

/-- A case meeting the hypotheses of `scaled_mono`. -/
example := scaled_mono double (by norm_num) four 100 four_nonneg (by norm_num [four, Sum.terms]) (by norm_num) (1 / 7) (1 / 3) (by norm_num) (by norm_num)

/-- A case meeting the hypotheses of `slabWeight_near`. -/
example := slabWeight_near double (someRounding 24 (by norm_num)) (by norm_num) (by norm_num) [0.5, 0.3] (by intro x hx; fin_cases hx <;> norm_num)

end P3.Machine
