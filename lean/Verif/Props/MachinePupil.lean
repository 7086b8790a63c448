import Verif.Model.MachinePupil
import Verif.Props.Machine
import Mathlib.Analysis.Complex.Exponential

/-! C449: segments with a phase, in floating point. -/

namespace P3.MachinePupil

open P3.Machine Finset

variable {p : ℕ} (R : Rounding p)

/-! ### Cosine and sine by their series -/

noncomputable def cosSum (n : ℕ) (x : ℝ) : ℝ := ∑ k ∈ range n, (-1) ^ k * x ^ (2 * k) / (2 * k).factorial
noncomputable def sinSum (n : ℕ) (x : ℝ) : ℝ := ∑ k ∈ range n, (-1) ^ k * x ^ (2 * k + 1) / (2 * k + 1).factorial

theorem exp_sum (n : ℕ) (x : ℝ) :
    ∑ m ∈ range (2 * n), ((x : ℂ) * Complex.I) ^ m / m.factorial = (cosSum n x : ℂ) + (sinSum n x : ℂ) * Complex.I := by
  induction n with
  | zero => simp [cosSum, sinSum]
  | succ n ih =>
    rw [show 2 * (n + 1) = 2 * n + 1 + 1 by ring, sum_range_succ, sum_range_succ, ih]
    have h1 : ((x : ℂ) * Complex.I) ^ (2 * n) = (-1) ^ n * (x : ℂ) ^ (2 * n) := by
      rw [mul_pow, pow_mul Complex.I, Complex.I_sq]; ring
    have h2 : ((x : ℂ) * Complex.I) ^ (2 * n + 1) = (-1) ^ n * (x : ℂ) ^ (2 * n + 1) * Complex.I := by
      rw [pow_succ, h1]; ring
    rw [h1, h2]
    simp only [cosSum, sinSum, sum_range_succ]
    push_cast
    ring

theorem trig_bound (n : ℕ) (hn : 0 < n) (x : ℝ) (hx : |x| ≤ 1) :
    |Real.cos x - cosSum n x| ≤ |x| ^ (2 * n) * (((2 * n).succ : ℝ) * ((2 * n).factorial * (2 * n : ℕ) : ℝ)⁻¹) ∧
    |Real.sin x - sinSum n x| ≤ |x| ^ (2 * n) * (((2 * n).succ : ℝ) * ((2 * n).factorial * (2 * n : ℕ) : ℝ)⁻¹) := by
  have hz : ‖(x : ℂ) * Complex.I‖ = |x| := by rw [norm_mul, Complex.norm_I, mul_one, Complex.norm_real, Real.norm_eq_abs]
  have h := Complex.exp_bound (x := (x : ℂ) * Complex.I) (by rw [hz]; exact hx) (n := 2 * n) (by omega)
  rw [exp_sum, hz, Complex.exp_mul_I] at h
  have e : Complex.cos x + Complex.sin x * Complex.I - ((cosSum n x : ℂ) + (sinSum n x : ℂ) * Complex.I) =
      ((Real.cos x - cosSum n x : ℝ) : ℂ) + ((Real.sin x - sinSum n x : ℝ) : ℂ) * Complex.I := by
    push_cast; ring
  rw [e] at h
  have h1 := Complex.abs_re_le_norm (((Real.cos x - cosSum n x : ℝ) : ℂ) + ((Real.sin x - sinSum n x : ℝ) : ℂ) * Complex.I)
  have h2 := Complex.abs_im_le_norm (((Real.cos x - cosSum n x : ℝ) : ℂ) + ((Real.sin x - sinSum n x : ℝ) : ℂ) * Complex.I)
  have er : ((((Real.cos x - cosSum n x : ℝ) : ℂ) + ((Real.sin x - sinSum n x : ℝ) : ℂ) * Complex.I)).re = Real.cos x - cosSum n x := by
    simp only [Complex.add_re, Complex.mul_re, Complex.ofReal_re, Complex.ofReal_im, Complex.I_re, Complex.I_im]; ring
  have ei : ((((Real.cos x - cosSum n x : ℝ) : ℂ) + ((Real.sin x - sinSum n x : ℝ) : ℂ) * Complex.I)).im = Real.sin x - sinSum n x := by
    simp only [Complex.add_im, Complex.mul_im, Complex.ofReal_re, Complex.ofReal_im, Complex.I_re, Complex.I_im]; ring
  rw [er] at h1
  rw [ei] at h2
  exact ⟨h1.trans h, h2.trans h⟩

theorem cos_near : |Real.cos (41 / 64) - 7221272990344468 * 2 ^ (-53 : ℤ)| < 2 ^ (-53 : ℤ) / 2 := by
  have h := (trig_bound 10 (by norm_num) (41 / 64) (by norm_num [abs_of_pos])).1
  have e : |cosSum 10 (41 / 64) - 7221272990344468 * 2 ^ (-53 : ℤ)| ≤ 2 ^ (-53 : ℤ) * 0.4 := by
    simp only [cosSum, sum_range_succ, sum_range_zero, Nat.factorial]
    rw [abs_le]
    constructor <;> norm_num
  have h2 : |(41 / 64 : ℝ)| ^ (2 * 10) * (((2 * 10).succ : ℝ) * ((2 * 10).factorial * (2 * 10 : ℕ) : ℝ)⁻¹) ≤ 2 ^ (-53 : ℤ) * 0.001 := by
    rw [abs_of_pos (by norm_num)]
    norm_num [Nat.factorial]
  calc _ = |(Real.cos (41 / 64) - cosSum 10 (41 / 64)) + (cosSum 10 (41 / 64) - 7221272990344468 * 2 ^ (-53 : ℤ))| := by congr 1; ring
    _ ≤ _ := abs_add_le _ _
    _ ≤ 2 ^ (-53 : ℤ) * 0.001 + 2 ^ (-53 : ℤ) * 0.4 := add_le_add (h.trans h2) e
    _ < _ := by norm_num

theorem sin_near : |Real.sin (41 / 64) - 5383572681178191 * 2 ^ (-53 : ℤ)| < 2 ^ (-53 : ℤ) / 2 := by
  have h := (trig_bound 10 (by norm_num) (41 / 64) (by norm_num [abs_of_pos])).2
  have e : |sinSum 10 (41 / 64) - 5383572681178191 * 2 ^ (-53 : ℤ)| ≤ 2 ^ (-53 : ℤ) * 0.495 := by
    simp only [sinSum, sum_range_succ, sum_range_zero, Nat.factorial]
    rw [abs_le]
    constructor <;> norm_num
  have h2 : |(41 / 64 : ℝ)| ^ (2 * 10) * (((2 * 10).succ : ℝ) * ((2 * 10).factorial * (2 * 10 : ℕ) : ℝ)⁻¹) ≤ 2 ^ (-53 : ℤ) * 0.001 := by
    rw [abs_of_pos (by norm_num)]
    norm_num [Nat.factorial]
  calc _ = |(Real.sin (41 / 64) - sinSum 10 (41 / 64)) + (sinSum 10 (41 / 64) - 5383572681178191 * 2 ^ (-53 : ℤ))| := by congr 1; ring
    _ ≤ _ := abs_add_le _ _
    _ ≤ 2 ^ (-53 : ℤ) * 0.001 + 2 ^ (-53 : ℤ) * 0.495 := add_le_add (h.trans h2) e
    _ < _ := by norm_num

/-! ### The property -/

theorem double_exact {x : ℝ} (h : x ∈ F p) : R.fl (x + x) = 2 * x := by
  rw [← two_mul]
  exact fl_id R (by have := F_scale h 1; rwa [zpow_one, mul_comm] at this)

/-- C449 (partial): moving a segment by zero leaves a pixel as it is exactly when its computed modulus is one (or it is
dark); otherwise the pixel is doubled. -/
theorem moved_partial (φ : ℝ) :
    (modulus R (phased R φ) = 1 → moved R (phased R φ) = phased R φ) ∧
    (modulus R (phased R φ) ≠ 1 → moved R (phased R φ) = (2 * (phased R φ).1, 2 * (phased R φ).2)) := by
  have m1 : (phased R φ).1 ∈ F p := R.mem _
  have m2 : (phased R φ).2 ∈ F p := R.mem _
  constructor
  · intro h
    unfold moved removed
    rw [if_pos h]
    simp only [zero_add, fl_id R m1, fl_id R m2]
  · intro h
    unfold moved removed
    rw [if_neg h]
    rw [double_exact R m1, double_exact R m2]

/-- C449 (partial): the computed modulus of a phase is one within two roundings. -/
theorem modulus_near_partial (hp : 1 ≤ p) (φ : ℝ) : |modulus R (phased R φ) - 1| ≤ 2 / 2 ^ p + 1 / 2 ^ p / 2 ^ p := by
  set u : ℝ := 1 / 2 ^ p with hu
  have hu0 : 0 < u := by positivity
  have hu1 : u ≤ 1 := by
    rw [hu, div_le_one (by positivity)]
    exact_mod_cast Nat.one_le_two_pow
  have sq : ∀ x : ℝ, (1 - u) ^ 2 * x ^ 2 ≤ R.fl x ^ 2 ∧ R.fl x ^ 2 ≤ (1 + u) ^ 2 * x ^ 2 := by
    intro x
    have h := fl_err R hp x
    rw [show |x| / 2 ^ p = |x| * u by rw [hu]; ring] at h
    have a1 : |R.fl x| ≤ (1 + u) * |x| := by
      have := abs_sub_abs_le_abs_sub (R.fl x) x; linarith
    have a2 : (1 - u) * |x| ≤ |R.fl x| := by
      have := abs_sub_abs_le_abs_sub x (R.fl x); rw [abs_sub_comm] at this; linarith
    rw [← sq_abs x, ← sq_abs (R.fl x), ← mul_pow, ← mul_pow]
    exact ⟨pow_le_pow_left₀ (mul_nonneg (by linarith) (abs_nonneg _)) a2 2, pow_le_pow_left₀ (abs_nonneg _) a1 2⟩
  have hc := sq (Real.cos φ)
  have hs := sq (Real.sin φ)
  have h1 := Real.sin_sq_add_cos_sq φ
  set t : ℝ := √(R.fl (Real.cos φ) ^ 2 + R.fl (Real.sin φ) ^ 2) with ht
  have t1 : 1 - u ≤ t := by
    refine Real.le_sqrt_of_sq_le ?_
    nlinarith [hc.1, hs.1]
  have t2 : t ≤ 1 + u := by
    rw [ht, Real.sqrt_le_left (by linarith)]
    nlinarith [hc.2, hs.2]
  have t0 : 0 ≤ t := Real.sqrt_nonneg _
  have h := fl_err R hp t
  rw [abs_of_nonneg t0, show t / 2 ^ p = t * u by rw [hu]; ring] at h
  have e : modulus R (phased R φ) = R.fl t := rfl
  rw [e]
  have b : (2:ℝ) / 2 ^ p + 1 / 2 ^ p / 2 ^ p = 2 * u + u * u := by rw [hu]; ring
  rw [b]
  rw [abs_le] at h ⊢
  constructor <;> nlinarith [h.1, h.2]

/-- C449 (partial): a phase of zero is safe. -/
theorem moved_zero_partial (hp : 1 ≤ p) : modulus R (phased R 0) = 1 ∧ moved R (phased R 0) = phased R 0 := by
  have h1 : R.fl 1 = 1 := fl_id R (by have := F_nat (p := p) hp 1 (Nat.one_le_two_pow); simpa using this)
  have h : modulus R (phased R 0) = 1 := by
    simp [modulus, phased, h1, fl_zero]
  exact ⟨h, (moved_partial R 0).1 h⟩

/-- C449 (violation): in double precision, whatever the rounding of ties, a segment with a phase of 41/64 radian has
a computed modulus below one: it is not removed, and moving it by zero doubles it. -/
theorem moved_violation (R : Rounding 53) :
    (41 / 64 : ℝ) ∈ F 53 ∧ modulus R (phased R (41 / 64)) < 1 ∧
    moved R (phased R (41 / 64)) = (2 * (phased R (41 / 64)).1, 2 * (phased R (41 / 64)).2) ∧
    0.8 < (phased R (41 / 64)).1 ∧ 0.59 < (phased R (41 / 64)).2 := by
  have hc : R.fl (Real.cos (41 / 64)) = 7221272990344468 * 2 ^ (-53 : ℤ) := by
    have := fl_val R (Real.cos (41 / 64)) 7221272990344468 (-53) (by norm_num) (by norm_num) (by exact_mod_cast cos_near)
    exact_mod_cast this
  have hs : R.fl (Real.sin (41 / 64)) = 5383572681178191 * 2 ^ (-53 : ℤ) := by
    have := fl_val R (Real.sin (41 / 64)) 5383572681178191 (-53) (by norm_num) (by norm_num) (by exact_mod_cast sin_near)
    exact_mod_cast this
  have hm : modulus R (phased R (41 / 64)) < 1 := by
    unfold modulus phased
    simp only [hc, hs]
    set y : ℝ := (7221272990344468 * 2 ^ (-53 : ℤ)) ^ 2 + (5383572681178191 * 2 ^ (-53 : ℤ)) ^ 2 with hy
    have y1 : √y < 1 - 2 ^ (-54 : ℤ) := by
      rw [Real.sqrt_lt' (by norm_num), hy]; norm_num
    have y2 : 1 - 3 * 2 ^ (-54 : ℤ) < √y := by
      rw [Real.lt_sqrt (by norm_num), hy]; norm_num
    have := fl_val R (√y) (2 ^ 53 - 1) (-53) (by norm_num) (by norm_num) (by
      rw [abs_lt]
      push_cast
      constructor
      · refine lt_of_le_of_lt ?_ (sub_lt_sub_right y2 _); norm_num
      · refine lt_of_lt_of_le (sub_lt_sub_right y1 _) ?_; norm_num)
    rw [this]
    push_cast
    norm_num
  refine ⟨⟨41, -6, by norm_num, by norm_num⟩, hm, (moved_partial R _).2 hm.ne, ?_, ?_⟩
  · simp only [phased, hc]; norm_num
  · simp only [phased, hs]; norm_num

end P3.MachinePupil
