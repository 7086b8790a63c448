import Mathlib.Tactic.IntervalCases
import Verif.Model.Telemetry
import Mathlib.Tactic.Linarith
import Mathlib.Tactic.FieldSimp
import Mathlib.Tactic.Positivity
import Mathlib.Tactic.NormNum
import Mathlib.Tactic.Ring
import Mathlib.Analysis.Real.Pi.Bounds
import Mathlib.Algebra.Order.BigOperators.Group.List

/-! C57, C58, C104-C111: reduction of telemetry. -/

namespace P3.Telemetry

open Finset

/-! ### Dates -/

/-- Leap years of the Gregorian calendar. -/
def leap (y : ℕ) : Bool := y % 4 == 0 && (y % 100 != 0 || y % 400 == 0)

/-- Days of a month. -/
def daysIn (y m : ℕ) : ℕ :=
  if m = 2 then (if leap y then 29 else 28) else if m = 4 ∨ m = 6 ∨ m = 9 ∨ m = 11 then 30 else 31

/-- A date and time of the calendar. -/
def Valid (s : Stamp) : Prop :=
  1 ≤ s.month ∧ s.month ≤ 12 ∧ 1 ≤ s.day ∧ s.day ≤ daysIn s.year s.month ∧ s.hour < 24 ∧ s.minute < 60 ∧ s.second < 60

/-- The next day of the calendar, at another hour. -/
def nextDay (s : Stamp) (h : ℕ) : Stamp :=
  if s.day < daysIn s.year s.month then { s with day := s.day + 1, hour := h }
  else if s.month < 12 then { s with day := 1, month := s.month + 1, hour := h }
  else { s with day := 1, month := 1, year := s.year + 1, hour := h }

/-- UT of a date in Hawaii: ten hours later. -/
def utSpec (s : Stamp) : Stamp := if s.hour < 14 then { s with hour := s.hour + 10 } else nextDay s (s.hour - 14)

/-- C57: the conversion is right, and gives a date of the calendar, exactly for times before 14 h or days that are not the
last of the month. -/
theorem toUT_iff (s : Stamp) (h : Valid s) : (toUT s = utSpec s ↔ s.hour < 14 ∨ s.day < daysIn s.year s.month) ∧
    (Valid (toUT s) ↔ s.hour < 14 ∨ s.day < daysIn s.year s.month) := by
  obtain ⟨h1, h2, h3, h4, h5, h6, h7⟩ := h
  by_cases c : s.hour < 14
  · have e : toUT s = { s with hour := s.hour + 10 } := by unfold toUT; rw [if_neg (by omega)]
    refine ⟨by simp [utSpec, c, e], ?_⟩
    rw [e]
    simp only [c, true_or, iff_true]
    exact ⟨h1, h2, h3, h4, by simp only; omega, h6, h7⟩
  · have e : toUT s = { s with hour := s.hour + 10 - 24, day := s.day + 1 } := by unfold toUT; rw [if_pos (by omega)]
    have e2 : s.hour + 10 - 24 = s.hour - 14 := by omega
    rw [e2] at e
    by_cases d : s.day < daysIn s.year s.month
    · refine ⟨by simp [utSpec, c, e, nextDay, d], ?_⟩
      rw [e]
      simp only [d, or_true, iff_true]
      exact ⟨h1, h2, by simp only; omega, by simp only; omega, by simp only; omega, h6, h7⟩
    · refine ⟨?_, ?_⟩
      · simp only [c, d, or_self, iff_false]
        rw [e]
        unfold utSpec nextDay
        rw [if_neg c, if_neg d]
        intro h
        split_ifs at h
        · have := congrArg Stamp.day h
          simp only at this
          omega
        · have := congrArg Stamp.day h
          simp only at this
          omega
      · simp only [c, d, or_self, iff_false]
        rw [e]
        rintro ⟨_, _, _, g, _⟩
        simp only at g
        omega

/-- C283: the last evening of January becomes the 32nd of January. -/
theorem toUT_violation : toUT ⟨2013, 1, 31, 20, 0, 0⟩ = ⟨2013, 1, 32, 6, 0, 0⟩ ∧ utSpec ⟨2013, 1, 31, 20, 0, 0⟩ = ⟨2013, 2, 1, 6, 0, 0⟩ ∧
    Valid ⟨2013, 1, 31, 20, 0, 0⟩ := by
  refine ⟨by decide, by decide, ?_⟩
  unfold Valid
  decide

/-- C57: the time of the day is right in all cases: ten hours later, modulo a day. -/
theorem toUT_time (s : Stamp) (h : Valid s) : 0 ≤ timeInHours (toUT s) ∧ timeInHours (toUT s) < 24 ∧
    (timeInHours (toUT s) = timeInHours s + 10 ∨ timeInHours (toUT s) = timeInHours s + 10 - 24) := by
  obtain ⟨h1, h2, h3, h4, h5, h6, h7⟩ := h
  have m1 : (s.minute : ℝ) ≤ 59 := by exact_mod_cast (by omega : s.minute ≤ 59)
  have m2 : (s.second : ℝ) ≤ 59 := by exact_mod_cast (by omega : s.second ≤ 59)
  have m3 : (0 : ℝ) ≤ s.minute := Nat.cast_nonneg _
  have m4 : (0 : ℝ) ≤ s.second := Nat.cast_nonneg _
  unfold toUT timeInHours
  split_ifs with c
  · have e : (((s.hour + 10 - 24 : ℕ)) : ℝ) = s.hour + 10 - 24 := by
      rw [Nat.cast_sub (by omega)]; push_cast; ring
    have e1 : (s.hour : ℝ) ≤ 23 := by exact_mod_cast (by omega : s.hour ≤ 23)
    have e2 : (14 : ℝ) ≤ s.hour := by exact_mod_cast (by omega : 14 ≤ s.hour)
    simp only [e]
    refine ⟨by linarith, by linarith, Or.inr (by ring)⟩
  · have e1 : (s.hour : ℝ) ≤ 13 := by exact_mod_cast (by omega : s.hour ≤ 13)
    have e2 : (0 : ℝ) ≤ s.hour := Nat.cast_nonneg _
    simp only
    push_cast
    refine ⟨by linarith, by linarith, Or.inl (by ring)⟩

/-! ### Closest row -/

theorem argmin_spec (f : ℕ → ℝ) (n : ℕ) : argmin f n ≤ n ∧ (∀ k ≤ n, f (argmin f n) ≤ f k) ∧ ∀ k < argmin f n, f (argmin f n) < f k := by
  induction n with
  | zero =>
    refine ⟨le_refl _, fun k hk => ?_, fun k hk => absurd hk (Nat.not_lt_zero _)⟩
    have : k = 0 := by omega
    subst this; rfl
  | succ n ih =>
    obtain ⟨h1, h2, h3⟩ := ih
    unfold argmin
    split_ifs with c
    · refine ⟨le_refl _, fun k hk => ?_, fun k hk => ?_⟩
      · rcases Nat.lt_or_ge k (n + 1) with g | g
        · exact le_trans c.le (h2 k (by omega))
        · have : k = n + 1 := by omega
          subst this; rfl
      · exact lt_of_lt_of_le c (h2 k (by omega))
    · refine ⟨by omega, fun k hk => ?_, h3⟩
      rcases Nat.lt_or_ge k (n + 1) with g | g
      · exact h2 k (by omega)
      · have : k = n + 1 := by omega
        subst this; exact not_lt.1 c

/-- C104: the value returned is the one of the first row that is closest in time of day, with its difference; in verbose
mode it is minus one beyond one hour. -/
theorem indexTime_spec_partial (times vals : ℕ → ℝ) (n : ℕ) (verbose : Bool) (item : ℝ) : ∃ k ≤ n,
    (∀ l ≤ n, |times k - item| ≤ |times l - item|) ∧ (∀ l < k, |times k - item| < |times l - item|) ∧
    (indexTime times vals n verbose item).2 = |times k - item| ∧
    (indexTime times vals n verbose item).1 = if |times k - item| > 1 ∧ verbose = true then -1 else vals k := by
  obtain ⟨h1, h2, h3⟩ := argmin_spec (fun k => |times k - item|) n
  refine ⟨argmin (fun k => |times k - item|) n, h1, h2, h3, rfl, ?_⟩
  unfold indexTime
  simp only

/-- C104: without the verbose mode, a measurement of any age is returned. -/
theorem indexTime_violation (vals : ℕ → ℝ) (t item : ℝ) : indexTime (fun _ => t) vals 0 false item = (vals 0, |t - item|) := by
  unfold indexTime argmin
  simp

/-- Time between two times of the day, in hours, midnight in between or not. -/
noncomputable def clock (a b : ℝ) : ℝ := min |a - b| (24 - |a - b|)

/-- C104 (violation): midnight is not crossed: when the row closest in time is on the other side of midnight, and another row is
closer on the same side, another row than the closest one is returned. -/
theorem midnight_violation (times vals : ℕ → ℝ) (n j : ℕ) (item : ℝ) (hj : j ≤ n)
    (hc : ∀ l ≤ n, l ≠ j → clock (times j) item < clock (times l) item)
    (hf : ∃ l ≤ n, |times l - item| < |times j - item|) :
    ∃ k ≤ n, (indexTime times vals n false item).1 = vals k ∧ clock (times j) item < clock (times k) item := by
  obtain ⟨k, hk, h1, -, -, h2⟩ := indexTime_spec_partial times vals n false item
  obtain ⟨l, hl, h3⟩ := hf
  refine ⟨k, hk, by simpa using h2, hc k hk ?_⟩
  rintro rfl
  exact absurd h3 (not_lt.2 (h1 l hl))

/-- A measurement made twelve minutes later, after midnight, is passed over for one made almost four hours earlier. -/
example : ∃ k ≤ 1, (indexTime (fun k => if k = 0 then 1/10 else 20) (fun k => if k = 0 then 7 else 9) 1 false (239/10)).1 =
    (if k = 0 then 7 else 9) ∧ clock (1/10) (239/10) < clock (if k = 0 then 1/10 else 20) (239/10) := by
  have h := midnight_violation (fun k => if k = 0 then 1/10 else 20) (fun k => if k = 0 then 7 else 9) 1 0 (239/10) (by norm_num)
    (fun l h1 h2 => by
      have : l = 1 := by omega
      subst this
      norm_num [clock, abs_of_neg, min_def])
    ⟨1, le_rfl, by norm_num [abs_of_neg]⟩
  simpa using h

/-! ### Ground layer -/

theorem mu0_pos (wvl : ℝ) (h : 0 < wvl) : 0 < mu0 wvl := by
  unfold mu0
  have := Real.pi_pos
  have h1 : 0 < wvl ^ (1 / 3 : ℝ) := Real.rpow_pos_of_pos h _
  positivity

/-- C105: for an upper seeing below the total one, the ground layer is non-negative and the profile integrates to the
total seeing when its upper part integrates to the upper seeing. -/
theorem combine_spec (seeing alt wvl : ℝ) (cn2 : List ℝ) (hw : 0 < wvl) (ha : 0 ≤ alt) (hs : alt ≤ seeing)
    (hc : mu0 wvl * cn2.sum = alt ^ (5 / 3 : ℝ)) : ∃ g, combine seeing alt cn2 wvl = some (g :: cn2) ∧ 0 ≤ g ∧
      mu0 wvl * (g :: cn2).sum = seeing ^ (5 / 3 : ℝ) := by
  have hm := mu0_pos wvl hw
  have hle : alt ^ (5 / 3 : ℝ) ≤ seeing ^ (5 / 3 : ℝ) := Real.rpow_le_rpow ha hs (by norm_num)
  have h0 : 0 ≤ seeing ^ (5 / 3 : ℝ) - alt ^ (5 / 3 : ℝ) := by linarith
  have e : ((seeing ^ (5 / 3 : ℝ) - alt ^ (5 / 3 : ℝ)) ^ (3 / 5 : ℝ)) ^ (5 / 3 : ℝ) = seeing ^ (5 / 3 : ℝ) - alt ^ (5 / 3 : ℝ) := by
    rw [← Real.rpow_mul h0]; norm_num
  refine ⟨_, by unfold combine; rw [if_neg (by linarith), e], by positivity, ?_⟩
  rw [List.sum_cons, mul_add, hc]
  field_simp
  ring

/-- C311: an upper seeing above the total one (two instruments with errors) gives no profile. -/
theorem combine_violation (seeing alt wvl : ℝ) (cn2 : List ℝ) (h0 : 0 ≤ seeing) (h : seeing < alt) : combine seeing alt cn2 wvl = none := by
  unfold combine
  rw [if_pos]
  have := Real.rpow_lt_rpow h0 h (by norm_num : (0 : ℝ) < 5 / 3)
  linarith

/-! ### Delayed commands -/

theorem roll_neg (n i : ℕ) (k : ℤ) (hk : 0 ≤ k) (a : ℕ → ℝ) : roll n (-k) a i = a ((i + k.toNat) % n) := by
  unfold roll
  congr 1
  have : (i : ℤ) - -k = ((i + k.toNat : ℕ) : ℤ) := by push_cast; rw [Int.toNat_of_nonneg hk]; ring
  rw [this, ← Int.natCast_mod]
  rfl

/-- C58: one actuator and a delay that is not a whole number of frames: the delayed command is the interpolation between
the two successive commands around the delay, with non-negative weights that sum to one. -/
theorem comDelta_single (nF : ℕ) (res : ℕ → ℝ) (dt : ℝ) (h0 : 0 ≤ dt) (hd : dt ≠ ⌊dt⌋) (t : ℕ) : ∃ w : ℝ, 0 ≤ w ∧ w ≤ 1 ∧
    w = dt - ⌊dt⌋ ∧ comDelta nF 1 res dt t = (1 - w) * res ((t + ⌊dt⌋.toNat) % nF) + w * res ((t + (⌊dt⌋.toNat + 1)) % nF) := by
  have hf : (0 : ℤ) ≤ ⌊dt⌋ := Int.floor_nonneg.2 h0
  have hc : ⌈dt⌉ = ⌊dt⌋ + 1 := by
    rw [Int.ceil_eq_iff]
    constructor
    · push_cast
      have := lt_of_le_of_ne (Int.floor_le dt) (Ne.symm hd)
      linarith
    · push_cast
      exact (Int.lt_floor_add_one dt).le
  refine ⟨dt - ⌊dt⌋, sub_nonneg.2 (Int.floor_le dt), by have := Int.lt_floor_add_one dt; linarith, rfl, ?_⟩
  unfold comDelta
  rw [roll_neg _ _ _ (by omega), roll_neg _ _ _ hf, hc]
  have e : (⌊dt⌋ + 1).toNat = ⌊dt⌋.toNat + 1 := by omega
  rw [e, mul_one]
  push_cast
  ring

/-- C284: a whole number of frames: the command counts twice. -/
theorem comDelta_integer (nF nU : ℕ) (res : ℕ → ℝ) (d i : ℕ) :
    comDelta nF nU res d i = 2 * res ((i + d) % (nF * nU)) := by
  unfold comDelta
  rw [Int.ceil_natCast, Int.floor_natCast, roll_neg _ _ _ (by omega)]
  simp only [Int.toNat_natCast, Int.cast_natCast]
  ring

/-- C284: several actuators and a delay below one frame: the command is mixed with the one of the next actuator in the
same frame, instead of the one of the next frame. -/
theorem comDelta_axis (nF nU : ℕ) (res : ℕ → ℝ) (dt : ℝ) (h0 : 0 < dt) (h1 : dt < 1) (t j : ℕ) (ht : t < nF) (hj : j + 1 < nU) :
    comDelta nF nU res dt (t * nU + j) = (1 - dt) * res (t * nU + j) + dt * res (t * nU + (j + 1)) := by
  have hf : ⌊dt⌋ = 0 := by rw [Int.floor_eq_iff]; constructor <;> push_cast <;> linarith
  have hc : ⌈dt⌉ = 1 := by rw [Int.ceil_eq_iff]; constructor <;> push_cast <;> linarith
  have hlt : t * nU + j + 1 < nF * nU := by
    have : (t + 1) * nU ≤ nF * nU := Nat.mul_le_mul_right _ ht
    have e : (t + 1) * nU = t * nU + nU := by ring
    omega
  unfold comDelta
  rw [hf, hc, roll_neg _ _ _ (by omega), roll_neg _ _ _ (by omega)]
  simp only [Int.toNat_one, Int.toNat_zero, Nat.add_zero]
  rw [Nat.mod_eq_of_lt hlt, Nat.mod_eq_of_lt (by omega)]
  push_cast
  rw [add_assoc]
  ring

/-! ### Noise -/

theorem sum_shift_one (n : ℕ) (f : ℕ → ℝ) : ∑ t ∈ range n, f ((t + 1) % n) = ∑ t ∈ range n, f t := by
  cases n with
  | zero => simp
  | succ m =>
    rw [sum_range_succ, sum_range_succ' (fun t => f t)]
    have : ∀ t ∈ range m, f ((t + 1) % (m + 1)) = f (t + 1) := by
      intro t ht
      rw [Nat.mod_eq_of_lt (by have := mem_range.1 ht; omega)]
    rw [sum_congr rfl this]
    simp

theorem sum_shift (n s : ℕ) (f : ℕ → ℝ) : ∑ t ∈ range n, f ((t + s) % n) = ∑ t ∈ range n, f t := by
  induction s with
  | zero =>
    apply sum_congr rfl
    intro t ht
    rw [Nat.add_zero, Nat.mod_eq_of_lt (mem_range.1 ht)]
  | succ s ih =>
    rw [← ih, ← sum_shift_one n fun t => f ((t + s) % n)]
    apply sum_congr rfl
    intro t _
    congr 1
    rw [Nat.mod_add_mod]
    congr 1
    omega

/-- Lagged product of two columns. -/
noncomputable def lag (nF s : ℕ) (c : ℕ → ℕ → ℝ) (i j : ℕ) : ℝ := ∑ t ∈ range nF, c t i * c ((t + s) % nF) j

theorem lag_neg (nF s : ℕ) (c : ℕ → ℕ → ℝ) (i j : ℕ) :
    ∑ t ∈ range nF, c t i * c ((t + (nF - s % nF)) % nF) j = lag nF s c j i := by
  rcases Nat.eq_zero_or_pos nF with h0 | hp
  · subst h0; simp [lag]
  unfold lag
  rw [← sum_shift nF s fun t => c t i * c ((t + (nF - s % nF)) % nF) j]
  apply sum_congr rfl
  intro t ht
  have ht := mem_range.1 ht
  have hs := Nat.mod_lt s hp
  have : ((t + s) % nF + (nF - s % nF)) % nF = t := by
    rw [Nat.mod_add_mod]
    have e : t + s + (nF - s % nF) = t + nF * (s / nF + 1) := by
      have := Nat.div_add_mod s nF
      rw [Nat.mul_add, Nat.mul_one]
      omega
    rw [e, Nat.add_mul_mod_self_left, Nat.mod_eq_of_lt ht]
  rw [this, mul_comm]

theorem noiseCov_eq (nF s : ℕ) (u : ℕ → ℕ → ℝ) (i j : ℕ) : noiseCov nF s u i j =
    (1 / 2) * (2 * lag nF 0 (fun t k => u t k - colMean nF u k) i j - lag nF s (fun t k => u t k - colMean nF u k) i j
      - lag nF s (fun t k => u t k - colMean nF u k) j i) / nF := by
  unfold noiseCov
  simp only
  set c := fun t k => u t k - colMean nF u k with hc
  have e : (∑ t ∈ range nF, c t i * ((c t j - c ((t + s) % nF) j) + (c t j - c ((t + (nF - s % nF)) % nF) j))) =
      2 * lag nF 0 c i j - lag nF s c i j - lag nF s c j i := by
    rw [← lag_neg nF s c i j]
    unfold lag
    rw [mul_sum, ← sum_sub_distrib, ← sum_sub_distrib]
    apply sum_congr rfl
    intro t ht
    rw [Nat.add_zero, Nat.mod_eq_of_lt (mem_range.1 ht)]
    ring
  have e' : (∑ t ∈ range nF, (u t i - colMean nF u i) * ((u t j - colMean nF u j - (u ((t + s) % nF) j - colMean nF u j)) +
      (u t j - colMean nF u j - (u ((t + (nF - s % nF)) % nF) j - colMean nF u j)))) =
      2 * lag nF 0 c i j - lag nF s c i j - lag nF s c j i := e
  rw [e']

/-- C106: the estimated noise covariance is symmetric. -/
theorem noiseCov_symm (nF s : ℕ) (u : ℕ → ℕ → ℝ) (i j : ℕ) : noiseCov nF s u i j = noiseCov nF s u j i := by
  rw [noiseCov_eq, noiseCov_eq]
  have : lag nF 0 (fun t k => u t k - colMean nF u k) i j = lag nF 0 (fun t k => u t k - colMean nF u k) j i := by
    unfold lag
    apply sum_congr rfl
    intro t ht
    rw [Nat.add_zero, Nat.mod_eq_of_lt (mem_range.1 ht), mul_comm]
  rw [this]
  ring

/-- C106: for every combination of actuators, the estimated noise variance is half the mean square of the difference
between frames separated by the shift. -/
theorem noiseCov_quad (nF nU s : ℕ) (u : ℕ → ℕ → ℝ) (x : ℕ → ℝ) :
    ∑ i ∈ range nU, ∑ j ∈ range nU, x i * noiseCov nF s u i j * x j =
      (1 / 2) * (∑ t ∈ range nF, (∑ i ∈ range nU, x i * (u t i - u ((t + s) % nF) i)) ^ 2) / nF := by
  set c := fun t k => u t k - colMean nF u k with hc
  set v := fun t => ∑ i ∈ range nU, x i * c t i with hv
  have hlag : ∀ s', ∑ i ∈ range nU, ∑ j ∈ range nU, x i * lag nF s' c i j * x j = ∑ t ∈ range nF, v t * v ((t + s') % nF) := by
    intro s'
    have h1 : ∀ t, v t * v ((t + s') % nF) = ∑ i ∈ range nU, ∑ j ∈ range nU, x i * (c t i * c ((t + s') % nF) j) * x j := by
      intro t
      rw [hv]
      simp only
      rw [sum_mul_sum]
      apply sum_congr rfl; intro i _
      apply sum_congr rfl; intro j _
      ring
    simp only [h1]
    symm
    rw [sum_comm]
    apply sum_congr rfl; intro i _
    rw [sum_comm]
    apply sum_congr rfl; intro j _
    unfold lag
    rw [mul_sum, sum_mul]
  have hswap : ∑ i ∈ range nU, ∑ j ∈ range nU, x i * lag nF s c j i * x j = ∑ i ∈ range nU, ∑ j ∈ range nU, x i * lag nF s c i j * x j := by
    rw [sum_comm]
    apply sum_congr rfl; intro i _
    apply sum_congr rfl; intro j _
    ring
  have hall : ∑ i ∈ range nU, ∑ j ∈ range nU, x i * noiseCov nF s u i j * x j =
      (1 / 2) * (2 * (∑ i ∈ range nU, ∑ j ∈ range nU, x i * lag nF 0 c i j * x j)
        - (∑ i ∈ range nU, ∑ j ∈ range nU, x i * lag nF s c i j * x j)
        - ∑ i ∈ range nU, ∑ j ∈ range nU, x i * lag nF s c j i * x j) / nF := by
    rw [mul_sum, ← sum_sub_distrib, ← sum_sub_distrib, mul_sum, sum_div]
    apply sum_congr rfl; intro i _
    rw [mul_sum, ← sum_sub_distrib, ← sum_sub_distrib, mul_sum, sum_div]
    apply sum_congr rfl; intro j _
    rw [noiseCov_eq]
    ring
  rw [hall, hswap, hlag 0, hlag s]
  have hd : ∀ t, (∑ i ∈ range nU, x i * (u t i - u ((t + s) % nF) i)) = v t - v ((t + s) % nF) := by
    intro t
    rw [hv]
    simp only
    rw [← sum_sub_distrib]
    apply sum_congr rfl; intro i _
    rw [hc]; ring
  have hsq : ∑ t ∈ range nF, (v t - v ((t + s) % nF)) ^ 2 =
      2 * (∑ t ∈ range nF, v t * v ((t + 0) % nF)) - 2 * ∑ t ∈ range nF, v t * v ((t + s) % nF) := by
    have h1 : ∑ t ∈ range nF, v ((t + s) % nF) ^ 2 = ∑ t ∈ range nF, v t ^ 2 := sum_shift nF s fun t => v t ^ 2
    have h2 : ∑ t ∈ range nF, v t * v ((t + 0) % nF) = ∑ t ∈ range nF, v t ^ 2 := by
      apply sum_congr rfl; intro t ht
      rw [Nat.add_zero, Nat.mod_eq_of_lt (mem_range.1 ht)]; ring
    have h3 : ∀ t, (v t - v ((t + s) % nF)) ^ 2 = v t ^ 2 + v ((t + s) % nF) ^ 2 - 2 * (v t * v ((t + s) % nF)) := fun t => by ring
    simp only [h3]
    rw [sum_sub_distrib, sum_add_distrib, h1, h2, ← mul_sum]
    ring
  simp only [hd]
  rw [hsq]
  ring

/-- C106: hence it is a covariance (non-negative), and it vanishes for commands that do not change. -/
theorem noiseCov_psd (nF nU s : ℕ) (u : ℕ → ℕ → ℝ) (x : ℕ → ℝ) :
    0 ≤ ∑ i ∈ range nU, ∑ j ∈ range nU, x i * noiseCov nF s u i j * x j := by
  rw [noiseCov_quad]
  positivity

theorem noiseCov_static (nF s : ℕ) (a : ℕ → ℝ) (i j : ℕ) : noiseCov nF s (fun _ k => a k) i j = 0 := by
  unfold noiseCov
  simp

/-! ### Transfer functions -/

/-- C107: the closed-loop and rejection transfer functions sum to one, and the rejection is `1/(1+ol)`. -/
theorem tf_sum (ol : ℂ) (h : 1 + ol ≠ 0) : tfClosed ol + tfReject ol = 1 ∧ tfReject ol = 1 / (1 + ol) := by
  unfold tfReject tfClosed
  refine ⟨by ring, ?_⟩
  field_simp
  ring

/-- C107: the noise transfer function is the servo times the rejection. -/
theorem tf_noise (servo ol : ℂ) (h : 1 + ol ≠ 0) : tfNoise servo ol = servo * tfReject ol := by
  rw [(tf_sum ol h).2]
  unfold tfNoise
  ring

/-- C107: the delay does not change amplitudes. -/
theorem tfDelay_norm (f fs delay : ℝ) : ‖tfDelay f fs delay‖ = 1 := by
  unfold tfDelay
  have : (-2 * Complex.I * f * delay / fs : ℂ) = ((-2 * f * delay / fs : ℝ) : ℂ) * Complex.I := by
    push_cast; ring
  rw [this, Complex.norm_exp_ofReal_mul_I]

/-- C148: a pure delay of `d` frames has the phase `-2 pi f d / fs`: at `f = fs/d` it changes nothing. The code leaves out
pi. -/
theorem delay_violation : tfDelay 1 1 1 ≠ 1 ∧ Complex.exp (-2 * Real.pi * Complex.I * 1 * 1 / 1) = 1 := by
  constructor
  · unfold tfDelay
    intro h
    have hre := congrArg Complex.im h
    have e : (-2 * Complex.I * ((1 : ℝ) : ℂ) * ((1 : ℝ) : ℂ) / ((1 : ℝ) : ℂ) : ℂ) = ((-2 : ℝ) : ℂ) * Complex.I := by push_cast; ring
    rw [e, Complex.exp_ofReal_mul_I_im] at hre
    rw [Complex.one_im, Real.sin_neg, neg_eq_zero] at hre
    have := Real.sin_pos_of_pos_of_lt_pi (by norm_num : (0 : ℝ) < 2) (by have := Real.pi_gt_three; linarith)
    linarith
  · have e : (-2 * (Real.pi : ℂ) * Complex.I * 1 * 1 / 1) = -(2 * Real.pi * Complex.I) := by ring
    rw [e, Complex.exp_neg, Complex.exp_two_pi_mul_I, inv_one]

/-- C148: averaging over one frame cancels the frequency of the frames; the code's function does not vanish there. -/
theorem wfs_violation (fs : ℝ) (h : 0 < fs) : tfWfs fs fs ≠ 0 := by
  have hp := Real.pi_pos
  unfold tfWfs
  apply mul_ne_zero
  · have e : fs / fs / Real.pi = 1 / Real.pi := by field_simp
    rw [e]
    have hne : (1 / Real.pi) ≠ 0 := by positivity
    unfold sinc
    rw [if_neg hne]
    have e2 : Real.pi * (1 / Real.pi) = 1 := by field_simp
    rw [e2]
    have : 0 < Real.sin 1 := Real.sin_pos_of_pos_of_lt_pi (by norm_num) (by have := Real.pi_gt_three; linarith)
    have h2 : Real.sin 1 / 1 ≠ 0 := by rw [div_one]; exact this.ne'
    exact_mod_cast h2
  · exact Complex.exp_ne_zero _

/-- C107: frequencies end at half the frame rate. -/
theorem freq_last (fs : ℝ) (n : ℕ) (hn : 4 ≤ n) (he : Even n) : freqAt fs n (n / 2 - 1) = fs / 2 := by
  obtain ⟨m, rfl⟩ := he
  have e : (m + m) / 2 = m := by omega
  unfold freqAt
  rw [e, Nat.cast_sub (by omega)]
  have h1 : (m : ℝ) - 1 ≠ 0 := by
    have : (2 : ℝ) ≤ m := by exact_mod_cast (by omega : 2 ≤ m)
    linarith
  have h2 : (m : ℝ) ≠ 0 := by
    have : (2 : ℝ) ≤ m := by exact_mod_cast (by omega : 2 ≤ m)
    linarith
  push_cast
  field_simp
  ring

/-- C148: the first frequency is the inverse of the duration only if the rate equals the number of frames. -/
theorem freq_first_partial (fs : ℝ) (n : ℕ) (hn : 0 < n) (hf : 0 < fs) : freqAt fs n 0 = fs / n ↔ fs = n := by
  have : (0 : ℝ) < n := by exact_mod_cast hn
  unfold freqAt
  simp only [Nat.cast_zero, zero_mul, add_zero]
  constructor
  · intro h
    field_simp at h
    nlinarith
  · rintro rfl
    field_simp

/-- C107: the noise gain is non-negative on increasing frequencies. -/
theorem trapz_nonneg (n : ℕ) (y x : ℕ → ℝ) (hy : ∀ k, 0 ≤ y k) (hx : ∀ k < n, x k ≤ x (k + 1)) : 0 ≤ trapz n y x := by
  unfold trapz
  apply sum_nonneg
  intro k hk
  have h1 := hx k (mem_range.1 hk)
  have h2 := hy k
  have h3 := hy (k + 1)
  have : 0 ≤ (x (k + 1) - x k) * (y (k + 1) + y k) := mul_nonneg (by linarith) (by linarith)
  linarith

/-! ### Wind speed -/

/-- C108: quantiles increase with the probability, for every number of degrees of freedom. -/
theorem student_increasing_partial : ∀ row ∈ student, row.Pairwise (· < ·) := by decide +kernel

/-- C108: quantiles must decrease with the number of degrees of freedom: the row for seven is that for five. -/
theorem student_violation : studentRow 7 = studentRow 5 ∧ (studentRow 6).getD 4 0 < (studentRow 7).getD 4 0 := by decide +kernel

/-- C108: beyond ten samples, the row is the one of seven whatever the number. -/
theorem student_large (n : ℕ) (h : 10 < n) : studentRow n = studentRow 7 := by
  unfold studentRow
  rw [if_pos h, min_eq_left (by omega), if_neg (by omega)]

/-- C109: on points of a line the regression gives that line. -/
theorem regression_exact (n : ℕ) (x : ℕ → ℝ) (a b : ℝ) (hn : 0 < n)
    (hx : (n : ℝ) * (∑ k ∈ range n, x k ^ 2) - (∑ k ∈ range n, x k) ^ 2 ≠ 0) :
    slope n x (fun k => a + b * x k) = b ∧ offset n x (fun k => a + b * x k) = a := by
  have hn' : (n : ℝ) ≠ 0 := by positivity
  have e1 : ∑ k ∈ range n, x k * (a + b * x k) = a * (∑ k ∈ range n, x k) + b * ∑ k ∈ range n, x k ^ 2 := by
    rw [mul_sum, mul_sum, ← sum_add_distrib]
    apply sum_congr rfl; intro k _; ring
  have e2 : ∑ k ∈ range n, (a + b * x k) = n * a + b * ∑ k ∈ range n, x k := by
    rw [sum_add_distrib, sum_const, card_range, nsmul_eq_mul, ← mul_sum]
  have hs : slope n x (fun k => a + b * x k) = b := by
    unfold slope
    rw [e1, e2, div_eq_iff hx]
    ring
  refine ⟨hs, ?_⟩
  unfold offset
  rw [hs, e2]
  field_simp
  ring

/-- C109: the decorrelation time is where that line crosses the threshold. -/
theorem crossing_exact (n : ℕ) (x : ℕ → ℝ) (a b thres fs : ℝ) (hn : 0 < n) (hb : b ≠ 0) (hf : fs ≠ 0)
    (hx : (n : ℝ) * (∑ k ∈ range n, x k ^ 2) - (∑ k ∈ range n, x k) ^ 2 ≠ 0) :
    a + b * (fs * crossing n x (fun k => a + b * x k) thres fs) = thres := by
  obtain ⟨h1, h2⟩ := regression_exact n x a b hn hx
  unfold crossing
  rw [h1, h2]
  field_simp
  ring

/-- C109: the wind speed is positive for positive times, and inversely proportional to them. -/
theorem windSpeed_pos (D coeff : ℝ) (orders : List ℝ) (tau : ℝ → ℝ) (hD : 0 < D) (hc : 0 < coeff) (h0 : orders ≠ [])
    (ho : ∀ n ∈ orders, 0 ≤ n) (ht : ∀ n ∈ orders, 0 < tau n) : 0 < windSpeed D coeff orders tau := by
  unfold windSpeed
  have hp := Real.pi_pos
  have s1 : 0 < (orders.map fun n => (n + 1) / tau n).sum := by
    apply List.sum_pos
    · intro y hy
      obtain ⟨n, hn, rfl⟩ := List.mem_map.1 hy
      have := ho n hn
      have := ht n hn
      positivity
    · simpa using h0
  have s2 : 0 < (orders.map fun n => (n + 1) ^ 2).sum := by
    apply List.sum_pos
    · intro y hy
      obtain ⟨n, hn, rfl⟩ := List.mem_map.1 hy
      have := ho n hn
      positivity
    · simpa using h0
  positivity

theorem windSpeed_scale (D coeff k : ℝ) (orders : List ℝ) (tau : ℝ → ℝ) :
    windSpeed D coeff orders (fun n => k * tau n) = windSpeed D coeff orders tau / k := by
  unfold windSpeed
  have : (orders.map fun n => (n + 1) / (k * tau n)) = orders.map fun n => (n + 1) / tau n * (1 / k) := by
    apply List.map_congr_left
    intro n _
    rw [mul_comm k, ← div_div]
    ring
  rw [this, List.sum_map_mul_right]
  ring

/-- C109: a wind speed from the law it inverts: if every radial order decorrelates after `0.3 D` over its speed times the
order plus one, the estimate is that speed over the calibration factor `1.15 pi 0.3^2`, whatever the orders. -/
theorem windSpeed_law (D coeff v c : ℝ) (orders : List ℝ) (hD : D ≠ 0) (hc : coeff ≠ 0) (hcc : c ≠ 0) (hv : v ≠ 0)
    (ho : ∀ n ∈ orders, (0:ℝ) ≤ n) (h0 : orders ≠ []) :
    windSpeed D coeff orders (fun n => c * D / (v * (n + 1))) = v / (c * coeff * Real.pi * 0.3) := by
  have hp := Real.pi_pos
  unfold windSpeed
  have e : (orders.map fun n => (n + 1) / (c * D / (v * (n + 1)))) = orders.map fun n => (n + 1) ^ 2 * (v / (c * D)) := by
    apply List.map_congr_left
    intro n hn
    have := ho n hn
    have : n + 1 ≠ 0 := by linarith
    field_simp
  rw [e, List.sum_map_mul_right]
  have s2 : 0 < (orders.map fun n => (n + 1) ^ 2).sum := by
    apply List.sum_pos
    · intro y hy
      obtain ⟨n, hn, rfl⟩ := List.mem_map.1 hy
      have := ho n hn
      positivity
    · simpa using h0
  field_simp

/-! ### Decimation -/

/-- C110: the number of frames is not updated by the decimation: the covariance is that of the kept frames times the
fraction of frames that is kept. -/
theorem decimated_cov_partial (nF d : ℕ) (c : ℕ → ℕ → ℝ) (i j : ℕ) (hd : 0 < d) (hF : 0 < nF) :
    cov (decimatedLen nF d) nF (decimate d c) i j =
      (decimatedLen nF d / nF : ℝ) * cov (decimatedLen nF d) (decimatedLen nF d) (decimate d c) i j := by
  have hpos : 0 < decimatedLen nF d := by
    unfold decimatedLen
    exact Nat.div_pos (by omega) hd
  have h1 : ((decimatedLen nF d : ℕ) : ℝ) ≠ 0 := by positivity
  have h2 : (nF : ℝ) ≠ 0 := by positivity
  unfold cov
  field_simp

/-- C110: constant coefficients of one, two frames out of three... with a decimation of two over four frames the variance
is half of what it is. -/
theorem decimated_violation : cov (decimatedLen 4 2) 4 (decimate 2 fun _ _ => 1) 0 0 = 1 / 2 ∧ cov 4 4 (fun _ _ => 1) 0 0 = 1 := by
  have : decimatedLen 4 2 = 2 := by decide
  rw [this]
  unfold cov decimate
  norm_num [sum_range_succ]

/-! ### Headers -/

/-- C111: the delay is known for the eight programs of the camera, and for them only; it exceeds the time of the camera. -/
theorem loopDelay_spec (prog : ℕ) (ngs : Bool) : ((∃ d, loopDelay prog ngs = some d) ↔ prog < 8) ∧
    ∀ d, loopDelay prog ngs = some d → ∃ t0, camTime prog = some t0 ∧ t0 < d.1 ∧ 0 < d.2 := by
  constructor
  · constructor
    · rintro ⟨d, h⟩
      by_contra hc
      have : camTime prog = none := by
        match prog, hc with
        | n + 8, _ => rfl
      unfold loopDelay at h
      rw [this] at h
      cases h
    · intro h
      unfold loopDelay
      interval_cases prog <;> simp [camTime]
  · intro d h
    unfold loopDelay at h
    cases hc : camTime prog with
    | none => rw [hc] at h; cases h
    | some t0 =>
      rw [hc] at h
      have := Option.some.inj h
      subst this
      refine ⟨t0, rfl, by simp only; omega, ?_⟩
      cases ngs <;> simp only <;> simp

/-- C149 (violation): outside February, March, August and September the name has no month: every such date of a year gets the same. -/
theorem ncpa_other_violation (y m m' d d' : String) (h : m ∉ ["02", "03", "08", "09"]) (h' : m' ∉ ["02", "03", "08", "09"]) :
    ncpaName y m d = "NCPA_Keck_" ++ ("" ++ "_" ++ y) ++ ".fits" ∧ ncpaName y m d = ncpaName y m' d' := by
  simp only [List.mem_cons, List.not_mem_nil, or_false, not_or] at h h'
  obtain ⟨a, b, c, e⟩ := h
  obtain ⟨a', b', c', e'⟩ := h'
  unfold ncpaName
  simp only [if_neg a, if_neg b, if_neg c, if_neg e, if_neg a', if_neg b', if_neg c', if_neg e', and_self]

/-- C149: the eight months without a calibration share one name, without a month. -/
theorem ncpa_violation : ncpaName "2013" "01" "15" = "NCPA_Keck__2013.fits" ∧ ncpaName "2013" "05" "15" = ncpaName "2013" "12" "01" := by
  decide +kernel

/-- C149: a name depends on the date through the year and the month, and on the day in March. -/
theorem ncpa_spec_partial (y d : String) : ncpaName y "02" d = "NCPA_Keck_" ++ ("Feb" ++ "_" ++ y) ++ ".fits" ∧
    ncpaName y "03" d = "NCPA_Keck_" ++ (d ++ "March" ++ y ++ "_PD1") ++ ".fits" := by
  unfold ncpaName
  simp

/-- C150: wavelengths with isolated duplicates become strictly increasing for a small enough correction. -/
theorem fixWaves_isolated (e : ℝ) (w : ℕ → ℝ) (n : ℕ) (he : 0 < e) (h1 : ∀ k < n, w k ≤ w (k + 1))
    (h2 : ∀ k < n, w k = w (k + 1) → k = 0 ∨ w (k - 1) < w k) (h3 : ∀ k < n, w k < w (k + 1) → w k + e < w (k + 1)) :
    ∀ k < n, fixWaves e w k < fixWaves e w (k + 1) := by
  intro k hk
  have hle : fixWaves e w k ≤ w k + e := by
    cases k with
    | zero => unfold fixWaves; linarith
    | succ k =>
      show (if w (k + 1) - w k ≤ 0 then w (k + 1) + e else w (k + 1)) ≤ _
      split_ifs <;> linarith
  rcases lt_or_eq_of_le (h1 k hk) with g | g
  · have : fixWaves e w (k + 1) = w (k + 1) := by
      show (if w (k + 1) - w k ≤ 0 then w (k + 1) + e else w (k + 1)) = _
      rw [if_neg (by linarith)]
    rw [this]
    have := h3 k hk g
    linarith
  · have hf : fixWaves e w (k + 1) = w (k + 1) + e := by
      show (if w (k + 1) - w k ≤ 0 then w (k + 1) + e else w (k + 1)) = _
      rw [if_pos (by linarith)]
    rw [hf]
    have : fixWaves e w k = w k := by
      rcases h2 k hk g with c | c
      · subst c; rfl
      · cases k with
        | zero => rfl
        | succ k =>
          simp only [Nat.add_sub_cancel] at c
          show (if w (k + 1) - w k ≤ 0 then w (k + 1) + e else w (k + 1)) = _
          rw [if_neg (by linarith)]
    rw [this]
    linarith

/-- C298: three equal wavelengths stay equal. -/
theorem fixWaves_violation (e : ℝ) : fixWaves e (fun _ => 1) 1 = fixWaves e (fun _ => 1) 2 := by
  simp [fixWaves]

/-! ### Cases that meet the hypotheses -/

example : toUT ⟨2013, 3, 15, 20, 30, 0⟩ = ⟨2013, 3, 16, 6, 30, 0⟩ ∧ utSpec ⟨2013, 3, 15, 20, 30, 0⟩ = ⟨2013, 3, 16, 6, 30, 0⟩ := by decide

example (res : ℕ → ℝ) : ∃ w : ℝ, 0 ≤ w ∧ w ≤ 1 ∧ w = 5/2 - ⌊(5/2 : ℝ)⌋ ∧ comDelta 10 1 res (5/2) 3 =
    (1 - w) * res ((3 + ⌊(5/2 : ℝ)⌋.toNat) % 10) + w * res ((3 + (⌊(5/2 : ℝ)⌋.toNat + 1)) % 10) :=
  comDelta_single 10 res (5/2) (by norm_num) (by
    have : ⌊(5/2 : ℝ)⌋ = 2 := by rw [Int.floor_eq_iff]; norm_num
    rw [this]; norm_num) 3

example : ∃ g, combine 2 0 [] 1 = some [g] ∧ 0 ≤ g ∧ mu0 1 * [g].sum = (2 : ℝ) ^ (5 / 3 : ℝ) :=
  combine_spec 2 0 1 [] (by norm_num) (le_refl _) (by norm_num) (by simp [Real.zero_rpow])

example : slope 3 (fun k => (k : ℝ)) (fun k => 1 + 2 * (k : ℝ)) = 2 :=
  (regression_exact 3 (fun k => (k : ℝ)) 1 2 (by norm_num) (by norm_num [sum_range_succ])).1

/-! ### Cases that meet the hypotheses -/

/-- A case meeting the hypotheses of `comDelta_axis`. -/
example : comDelta 3 4 (fun k => (k : ℝ) ^ 2) (1/4) (1 * 4 + 2) = (1 - 1/4) * 36 + 1/4 * 49 := by
  rw [comDelta_axis 3 4 _ (1/4) (by norm_num) (by norm_num) 1 2 (by norm_num) (by norm_num)]
  norm_num

/-- A case meeting the hypotheses of `crossing_exact`. -/
example : 3 + (-2) * (500 * crossing 3 (fun k => (k : ℝ)) (fun k => 3 + (-2) * k) (1/2) 500) = 1/2 :=
  crossing_exact 3 _ 3 (-2) (1/2) 500 (by norm_num) (by norm_num) (by norm_num) (by norm_num [sum_range_succ])

/-- A case meeting the hypotheses of `windSpeed_pos`. -/
example : 0 < windSpeed 10 0.8 [2, 3, 4] (fun n => 1 / (n + 1)) :=
  windSpeed_pos 10 0.8 _ _ (by norm_num) (by norm_num) (by simp) (by simp) (by intro n hn; fin_cases hn <;> norm_num)

/-- A case meeting the hypotheses of `windSpeed_law`. -/
example : windSpeed 10 0.8 [2, 3, 4] (fun n => 2 * 10 / (15 * (n + 1))) = 15 / (2 * 0.8 * Real.pi * 0.3) :=
  windSpeed_law 10 0.8 15 2 _ (by norm_num) (by norm_num) (by norm_num) (by norm_num) (by simp) (by simp)

/-- A case meeting the hypotheses of `fixWaves_isolated`. -/
example : ∀ k < 3, fixWaves (1/10) (fun k => ((k / 2 : ℕ) : ℝ)) k < fixWaves (1/10) (fun k => ((k / 2 : ℕ) : ℝ)) (k + 1) := by
  refine fixWaves_isolated (1/10) _ 3 (by norm_num) ?_ ?_ ?_ <;> intro k hk
  · exact_mod_cast Nat.div_le_div_right (Nat.le_succ k)
  · have : k = 0 ∨ k = 1 ∨ k = 2 := by omega
    rcases this with rfl | rfl | rfl <;> norm_num
  · have : k = 0 ∨ k = 1 ∨ k = 2 := by omega
    rcases this with rfl | rfl | rfl <;> norm_num

end P3.Telemetry
