import Verif.Model.Machine
import Mathlib.Tactic.Linarith
import Mathlib.Tactic.Ring
import Mathlib.Tactic.FieldSimp
import Mathlib.Tactic.Positivity
import Mathlib.Tactic.NormNum
import Mathlib.Tactic.Push
import Mathlib.Tactic.Zify
import Mathlib.Algebra.Order.Round
import Mathlib.Data.Sign.Basic
namespace P3.Machine

theorem two_zpow_pos (e : ℤ) : (0 : ℝ) < 2 ^ e := zpow_pos (by norm_num) e

/-- A machine number scaled by a power of two, or its opposite, is one. -/
theorem F_scale {p : ℕ} {x : ℝ} (h : x ∈ F p) (k : ℤ) : x * 2 ^ k ∈ F p := by
  obtain ⟨m, e, hm, rfl⟩ := h
  exact ⟨m, e + k, hm, by rw [zpow_add₀ (by norm_num), mul_assoc]⟩

theorem F_neg {p : ℕ} {x : ℝ} (h : x ∈ F p) : -x ∈ F p := by
  obtain ⟨m, e, hm, rfl⟩ := h
  exact ⟨-m, e, by rwa [abs_neg], by push_cast; ring⟩

theorem F_int {p : ℕ} (hp : 1 ≤ p) (n : ℤ) (h : |n| ≤ 2 ^ p) : (n : ℝ) ∈ F p := by
  rcases lt_or_eq_of_le h with h | h
  · exact ⟨n, 0, h, by simp⟩
  · rcases abs_choice n with h' | h'
    · refine ⟨1, p, by simpa using Nat.one_lt_two_pow (by omega : p ≠ 0) |> fun h => (by exact_mod_cast h : (1:ℤ) < 2 ^ p), ?_⟩
      have : n = 2 ^ p := by omega
      rw [this]; push_cast; simp
    · refine ⟨-1, p, by simpa using Nat.one_lt_two_pow (by omega : p ≠ 0) |> fun h => (by exact_mod_cast h : (1:ℤ) < 2 ^ p), ?_⟩
      have : n = -2 ^ p := by omega
      rw [this]; push_cast; simp

theorem F_nat {p : ℕ} (hp : 1 ≤ p) (n : ℕ) (h : n ≤ 2 ^ p) : (n : ℝ) ∈ F p := by
  have := F_int hp (n : ℤ) (by rw [abs_of_nonneg (by positivity)]; exact_mod_cast h)
  simpa using this

/-- Rounding to nearest, halves away from zero: there is one. -/
noncomputable def away (p : ℕ) (x : ℝ) : ℝ :=
  let e : ℤ := Int.log 2 |x| - p + 1
  SignType.sign x * (⌊|x| / 2 ^ e + 1 / 2⌋ * (2 : ℝ) ^ e)

theorem near_int (t : ℝ) (m : ℤ) : |(⌊t + 1 / 2⌋ : ℝ) - t| ≤ |m - t| := by
  have h1 := Int.floor_le (t + 1 / 2)
  have h2 := Int.lt_floor_add_one (t + 1 / 2)
  rcases eq_or_ne m ⌊t + 1 / 2⌋ with h | h
  · rw [h]
  · have h3 : |(⌊t + 1 / 2⌋ : ℝ) - t| ≤ 1 / 2 := by rw [abs_le]; constructor <;> linarith
    rcases lt_or_gt_of_ne h with h | h
    · have : (m : ℝ) + 1 ≤ ⌊t + 1 / 2⌋ := by exact_mod_cast h
      refine h3.trans ?_
      rw [abs_sub_comm, le_abs]; left; linarith
    · have : (⌊t + 1 / 2⌋ : ℝ) + 1 ≤ m := by exact_mod_cast h
      refine h3.trans ?_
      rw [le_abs]; left; linarith

theorem near_pos {p : ℕ} (hp : 1 ≤ p) (x : ℝ) (hx : 0 < x) :
    let e : ℤ := Int.log 2 x - p + 1
    (⌊x / 2 ^ e + 1 / 2⌋ * (2 : ℝ) ^ e) ∈ F p ∧ ∀ y ∈ F p, |⌊x / 2 ^ e + 1 / 2⌋ * (2 : ℝ) ^ e - x| ≤ |y - x| := by
  intro e
  have h2 : (2 : ℝ) ^ e ≠ 0 := (two_zpow_pos e).ne'
  have hlo : (2 : ℝ) ^ (Int.log 2 x) ≤ x := by have := Int.zpow_log_le_self (b := 2) (by norm_num) hx; exact_mod_cast this
  have hhi : x < (2 : ℝ) ^ (Int.log 2 x + 1) := by have := Int.lt_zpow_succ_log_self (b := 2) (by norm_num) x; exact_mod_cast this
  have hl : (2 : ℝ) ^ (Int.log 2 x) = 2 ^ (p - 1 : ℕ) * 2 ^ e := by
    rw [← zpow_natCast, ← zpow_add₀ (by norm_num)]; congr 1; omega
  have hh : (2 : ℝ) ^ (Int.log 2 x + 1) = 2 ^ p * 2 ^ e := by
    rw [← zpow_natCast, ← zpow_add₀ (by norm_num)]; congr 1; omega
  set t := x / 2 ^ e with ht
  have hxt : x = t * 2 ^ e := by rw [ht, div_mul_cancel₀ _ h2]
  have tlo : (2 : ℝ) ^ (p - 1) ≤ t := by rw [ht, le_div_iff₀ (two_zpow_pos e), ← hl]; exact hlo
  have thi : t < (2 : ℝ) ^ p := by rw [ht, div_lt_iff₀ (two_zpow_pos e), ← hh]; exact hhi
  have key : ∀ m : ℤ, |⌊t + 1 / 2⌋ * (2 : ℝ) ^ e - x| ≤ |m * (2 : ℝ) ^ e - x| := by
    intro m
    rw [hxt, ← sub_mul, ← sub_mul, abs_mul, abs_mul]
    exact mul_le_mul_of_nonneg_right (near_int t m) (abs_nonneg _)
  refine ⟨?_, ?_⟩
  · apply F_scale
    apply F_int hp
    have h0 : 0 ≤ ⌊t + 1 / 2⌋ := Int.floor_nonneg.2 (by
      have : (0 : ℝ) < 2 ^ (p - 1) := by positivity
      linarith)
    rw [abs_of_nonneg h0]
    have : (⌊t + 1 / 2⌋ : ℝ) < 2 ^ p + 1 := lt_of_le_of_lt (Int.floor_le _) (by linarith)
    have : ⌊t + 1 / 2⌋ < 2 ^ p + 1 := by exact_mod_cast this
    omega
  · rintro y ⟨m, e', hm, rfl⟩
    rcases le_or_gt e e' with he | he
    · have : (m : ℝ) * 2 ^ e' = ((m * 2 ^ (e' - e).toNat : ℤ) : ℝ) * 2 ^ e := by
        push_cast
        rw [mul_assoc, ← zpow_natCast, ← zpow_add₀ (by norm_num)]
        congr 2; omega
      rw [this]
      exact key _
    · have hy : (m : ℝ) * 2 ^ e' ≤ 2 ^ (p - 1 : ℕ) * 2 ^ e := by
        have h1 : (m : ℝ) ≤ 2 ^ p := by
          have : m ≤ 2 ^ p := (le_abs_self m).trans hm.le
          exact_mod_cast this
        calc (m : ℝ) * 2 ^ e' ≤ 2 ^ p * 2 ^ e' := mul_le_mul_of_nonneg_right h1 (two_zpow_pos _).le
          _ ≤ 2 ^ p * 2 ^ (e - 1) := mul_le_mul_of_nonneg_left (zpow_le_zpow_right₀ (by norm_num) (by omega)) (by positivity)
          _ = _ := by rw [← zpow_natCast, ← zpow_natCast, ← zpow_add₀ (by norm_num), ← zpow_add₀ (by norm_num)]; congr 1; omega
      have hk := key (2 ^ (p - 1))
      push_cast at hk
      refine hk.trans ?_
      rw [abs_of_nonpos (by rw [← hl]; linarith), abs_of_nonpos (by rw [← hl] at hy; linarith)]
      linarith

/-- There is a rounding. -/
noncomputable def someRounding (p : ℕ) (hp : 1 ≤ p) : Rounding p where
  fl := away p
  mem := by
    intro x
    rcases lt_trichotomy x 0 with h | h | h
    · have := (near_pos hp (-x) (by linarith)).1
      unfold away
      rw [abs_of_neg h, sign_neg h]
      simpa using F_neg this
    · subst h; exact ⟨0, 0, by positivity, by simp [away]⟩
    · have := (near_pos hp x h).1
      unfold away
      rw [abs_of_pos h, sign_pos h]
      simpa using this
  near := by
    intro x y hy
    rcases lt_trichotomy x 0 with h | h | h
    · have := (near_pos hp (-x) (by linarith)).2 (-y) (F_neg hy)
      unfold away
      rw [abs_of_neg h, sign_neg h]
      simp only [SignType.coe_neg_one, neg_mul, one_mul]
      rw [← abs_neg, ← abs_neg (y - x)]
      calc _ = _ := by congr 1; ring
        _ ≤ _ := this
        _ = _ := by congr 1; ring
    · subst h; simp [away]
    · have := (near_pos hp x h).2 y hy
      unfold away
      rw [abs_of_pos h, sign_pos h]
      simpa using this
  neg := by
    intro x
    unfold away
    rw [abs_neg, Left.sign_neg]
    push_cast; ring

variable {p : ℕ} (R : Rounding p)

theorem fl_id {x : ℝ} (h : x ∈ F p) : R.fl x = x := by
  have := R.near x x h
  rw [sub_self, abs_zero] at this
  have := abs_nonpos_iff.1 this
  linarith

theorem fl_mono {x y : ℝ} (h : x ≤ y) : R.fl x ≤ R.fl y := by
  by_contra hc
  push Not at hc
  rcases eq_or_lt_of_le h with h | h
  · rw [h] at hc; exact lt_irrefl _ hc
  have h1 := R.near x _ (R.mem y)
  have h2 := R.near y _ (R.mem x)
  rw [abs_le] at h1 h2
  rcases abs_cases (R.fl y - x) with ⟨e1, _⟩ | ⟨e1, _⟩ <;> rcases abs_cases (R.fl x - y) with ⟨e2, _⟩ | ⟨e2, _⟩ <;> rw [e1] at h1 <;> rw [e2] at h2 <;> linarith [h1.1, h1.2, h2.1, h2.2]

theorem fl_le {x y : ℝ} (hy : y ∈ F p) (h : x ≤ y) : R.fl x ≤ y := by
  have := fl_mono R h; rwa [fl_id R hy] at this

theorem le_fl {x y : ℝ} (hy : y ∈ F p) (h : y ≤ x) : y ≤ R.fl x := by
  have := fl_mono R h; rwa [fl_id R hy] at this

theorem fl_zero : R.fl 0 = 0 := fl_id R ⟨0, 0, by positivity, by simp⟩

/-- The relative error of a rounding. -/
theorem fl_err (hp : 1 ≤ p) (x : ℝ) : |R.fl x - x| ≤ |x| / 2 ^ p := by
  have pos : ∀ x : ℝ, 0 < x → |R.fl x - x| ≤ x / 2 ^ p := by
    intro x hx
    obtain ⟨h1, -⟩ := near_pos hp x hx
    refine (R.near x _ h1).trans ?_
    set e : ℤ := Int.log 2 x - p + 1 with he
    have h2 : (2 : ℝ) ^ e ≠ 0 := (two_zpow_pos e).ne'
    have hlo : (2 : ℝ) ^ (Int.log 2 x) ≤ x := by have := Int.zpow_log_le_self (b := 2) (by norm_num) hx; exact_mod_cast this
    have h3 : |(⌊x / 2 ^ e + 1 / 2⌋ : ℝ) - x / 2 ^ e| ≤ 1 / 2 := by
      have h1 := Int.floor_le (x / 2 ^ e + 1 / 2)
      have h2 := Int.lt_floor_add_one (x / 2 ^ e + 1 / 2)
      rw [abs_le]; constructor <;> linarith
    have e1 : (⌊x / 2 ^ e + 1 / 2⌋ : ℝ) * 2 ^ e - x = ((⌊x / 2 ^ e + 1 / 2⌋ : ℝ) - x / 2 ^ e) * 2 ^ e := by
      rw [sub_mul, div_mul_cancel₀ _ h2]
    rw [e1, abs_mul, abs_of_pos (two_zpow_pos e), le_div_iff₀ (by positivity)]
    calc |(⌊x / 2 ^ e + 1 / 2⌋ : ℝ) - x / 2 ^ e| * 2 ^ e * 2 ^ p ≤ 1 / 2 * 2 ^ e * 2 ^ p := by
          have := two_zpow_pos e
          gcongr
      _ = 2 ^ (Int.log 2 x) := by
          rw [show (1 / 2 : ℝ) = 2 ^ (-1 : ℤ) by norm_num, ← zpow_natCast, ← zpow_add₀ (by norm_num), ← zpow_add₀ (by norm_num)]; congr 1; omega
      _ ≤ x := hlo
  rcases lt_trichotomy x 0 with h | h | h
  · have := pos (-x) (by linarith)
    rw [R.neg] at this
    rw [abs_of_neg h, ← abs_neg, show -(R.fl x - x) = -R.fl x - -x by ring]; exact this
  · subst h; simp [fl_zero]
  · rw [abs_of_pos h]; exact pos x h

/-- A value given by its digits. -/
theorem fl_val (x : ℝ) (m e : ℤ) (h1 : 2 ^ p < 2 * m) (h2 : m < 2 ^ p) (h : |x - m * 2 ^ e| < 2 ^ e / 2) : R.fl x = m * 2 ^ e := by
  have h0 : 0 < m := by have : (0:ℤ) < 2 ^ p := by positivity
                        omega
  have hF : (m : ℝ) * 2 ^ e ∈ F p := ⟨m, e, by rw [abs_of_pos h0]; exact h2, rfl⟩
  have h3 := R.near x _ hF
  obtain ⟨m', e', hm, hy⟩ := R.mem x
  have hpos := two_zpow_pos e
  have h4 : |R.fl x - m * 2 ^ e| < 2 ^ e := by
    rw [abs_sub_comm (m * 2 ^ e : ℝ) x] at h3
    have : |R.fl x - m * 2 ^ e| ≤ |R.fl x - x| + |x - m * 2 ^ e| := abs_sub_le _ _ _
    linarith
  rcases le_or_gt e e' with he | he
  · have hM : (m' : ℝ) * 2 ^ e' = ((m' * 2 ^ (e' - e).toNat : ℤ) : ℝ) * 2 ^ e := by
      push_cast
      rw [mul_assoc, ← zpow_natCast, ← zpow_add₀ (by norm_num)]
      congr 2; omega
    rw [hy, hM, ← sub_mul, abs_mul, abs_of_pos hpos] at h4
    have h5 : |((m' * 2 ^ (e' - e).toNat : ℤ) : ℝ) - m| < 1 := by
      by_contra hc
      push Not at hc
      have := mul_le_mul_of_nonneg_right hc hpos.le
      linarith
    have h6 : |m' * 2 ^ (e' - e).toNat - m| < 1 := by exact_mod_cast h5
    have h7 : m' * 2 ^ (e' - e).toNat = m := by
      have := Int.abs_lt_one_iff.1 h6
      omega
    rw [hy, hM, h7]
  · exfalso
    have h5 : R.fl x < 2 ^ p * 2 ^ (e - 1) := by
      rw [hy]
      have h6 : (m' : ℝ) < 2 ^ p := by
        have : m' < 2 ^ p := (le_abs_self m').trans_lt hm
        exact_mod_cast this
      calc (m' : ℝ) * 2 ^ e' < 2 ^ p * 2 ^ e' := mul_lt_mul_of_pos_right h6 (two_zpow_pos _)
        _ ≤ _ := mul_le_mul_of_nonneg_left (zpow_le_zpow_right₀ (by norm_num) (by omega)) (by positivity)
    have h6 := (abs_lt.1 h4).1
    have h7 : (2 : ℝ) ^ (e - 1) = 2 ^ e / 2 := by rw [zpow_sub_one₀ (by norm_num)]; rfl
    rw [h7] at h5
    have h8 : (2 * (m - 1 : ℝ)) * 2 ^ e < 2 ^ p * 2 ^ e := by linarith
    have h9 : (2 * (m - 1 : ℝ)) < 2 ^ p := lt_of_mul_lt_mul_right h8 hpos.le
    have h10 : 2 * (m - 1) < 2 ^ p := by exact_mod_cast h9
    rcases Nat.eq_zero_or_pos p with hp | hp
    · subst hp; norm_num at h1 h2; omega
    · obtain ⟨k, rfl⟩ : ∃ k, p = k + 1 := ⟨p - 1, by omega⟩
      rw [pow_succ] at h1 h10
      omega

/-- Two machine numbers are apart. -/
theorem F_apart {y z : ℝ} (hy : y ∈ F p) (hz : z ∈ F p) (h : z ≠ y) : |y| < |z - y| * 2 ^ (p + 1) := by
  have h1p : (1 : ℝ) ≤ 2 ^ p := one_le_pow₀ (by norm_num)
  have key : ∀ a b : ℝ, ∀ m e m' e' : ℤ, |m| < 2 ^ p → e ≤ e' → a = m * 2 ^ e → b = m' * 2 ^ e' → a ≠ b → |a| < |a - b| * 2 ^ p := by
    intro a b m e m' e' hm he ha hb hab
    have hM : (m' : ℝ) * 2 ^ e' = ((m' * 2 ^ (e' - e).toNat : ℤ) : ℝ) * 2 ^ e := by
      push_cast
      rw [mul_assoc, ← zpow_natCast, ← zpow_add₀ (by norm_num)]
      congr 2; omega
    have hne : m - m' * 2 ^ (e' - e).toNat ≠ 0 := by
      intro h0
      apply hab
      rw [ha, hb, hM]
      congr 2
      exact_mod_cast (by omega : m = m' * 2 ^ (e' - e).toNat)
    have h1 : (1 : ℝ) ≤ |(m : ℝ) - ((m' * 2 ^ (e' - e).toNat : ℤ) : ℝ)| := by
      have : 1 ≤ |m - m' * 2 ^ (e' - e).toNat| := Int.one_le_abs hne
      exact_mod_cast this
    have hm' : |(m : ℝ)| < 2 ^ p := by exact_mod_cast hm
    rw [ha, hb, hM, ← sub_mul, abs_mul, abs_mul, abs_of_pos (two_zpow_pos e)]
    have h2 := two_zpow_pos e
    calc |(m : ℝ)| * 2 ^ e < 2 ^ p * 2 ^ e := mul_lt_mul_of_pos_right hm' h2
      _ = 1 * 2 ^ e * 2 ^ p := by ring
      _ ≤ _ := by gcongr
  obtain ⟨m, e, hm, ey⟩ := hy
  obtain ⟨m', e', hm', ez⟩ := hz
  have hpos : 0 < |z - y| := abs_pos.2 (sub_ne_zero.2 h)
  rcases le_total e e' with he | he
  · have := key y z m e m' e' hm he ey ez h.symm
    rw [abs_sub_comm] at this
    rw [pow_succ]
    have : 0 < |z - y| * 2 ^ p := by positivity
    linarith
  · have := key z y m' e' m e hm' he ez ey h
    have h3 : |y| ≤ |z| + |z - y| := by
      have := abs_sub_abs_le_abs_sub y z
      rw [abs_sub_comm] at this; linarith
    rw [pow_succ]
    nlinarith

/-- Small numbers added to a machine number are lost. -/
theorem fl_absorb {y d : ℝ} (hy : y ∈ F p) (hd : |d| * 2 ^ (p + 2) ≤ |y|) : R.fl (y + d) = y := by
  by_contra hc
  have h1 := F_apart hy (R.mem (y + d)) hc
  have h2 := R.near (y + d) y hy
  have h3 : |R.fl (y + d) - y| ≤ |R.fl (y + d) - (y + d)| + |d| := by
    have := abs_sub_le (R.fl (y + d)) (y + d) y
    simpa using this
  have h4 : |y - (y + d)| = |d| := by rw [← abs_neg]; congr 1; ring
  rw [h4] at h2
  have h5 : |R.fl (y + d) - y| * 2 ^ (p + 1) ≤ (2 * |d|) * 2 ^ (p + 1) := by gcongr; linarith
  have h6 : (2 * |d|) * 2 ^ (p + 1) = |d| * 2 ^ (p + 2) := by ring
  linarith

end P3.Machine
