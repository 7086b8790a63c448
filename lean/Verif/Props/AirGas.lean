import Verif.Props.Air
import Mathlib.Analysis.Complex.ExponentialBounds

/-! C49, C450: the refractive index of air in all observing conditions, against an ideal gas. -/

namespace P3.Air

/-! ### States other than the reference -/

/-- Ideal gas: the refractivity 2e-4 of the reference atmosphere, proportional to the pressure and inversely to the
absolute temperature. -/
noncomputable def idealGas (s : State) : ℝ := 2e-4 * (s.P / 75000) * (290.65 / (s.T + 273.15))

/-- Observing conditions: between 0 and 35 degrees, 60 to 90 kilopascal, at most half the humidity. -/
structure Conditions (s : State) : Prop where
  T : 0 ≤ s.T ∧ s.T ≤ 35
  P : 60000 ≤ s.P ∧ s.P ≤ 90000
  H : 0 ≤ s.H ∧ s.H ≤ 50

theorem dot_abs (c v V : List ℝ) (h : List.Forall₂ (fun x X => |x| ≤ X) v V) : |dot c v| ≤ dot (c.map (|·|)) V := by
  induction h generalizing c with
  | nil => cases c <;> simp [dot]
  | cons h1 _ ih =>
    rcases c with _ | ⟨a, c⟩
    · simp [dot]
    · have := ih c
      simp only [dot, List.map_cons, List.zipWith_cons_cons, List.sum_cons] at this ⊢
      refine (abs_add_le _ _).trans ?_
      rw [abs_mul]
      have := mul_le_mul_of_nonneg_left h1 (abs_nonneg a)
      linarith

theorem dot_sub (a b v : List ℝ) (h : a.length = b.length) : dot a v - dot b v = dot (List.zipWith (· - ·) a b) v := by
  induction a generalizing b v with
  | nil => rcases b with _ | _ <;> simp_all [dot]
  | cons x a ih =>
    rcases b with _ | ⟨y, b⟩
    · simp at h
    · rcases v with _ | ⟨z, v⟩
      · simp [dot]
      · have := ih b v (by simpa using h)
        simp only [dot, List.zipWith_cons_cons, List.sum_cons] at this ⊢
        linarith

theorem vector_bound (s : State) (h : Conditions s) :
    List.Forall₂ (fun x X => |x| ≤ X) s.vector
      [1, 0.00023, 0.00023 ^ 2, 40, 40 ^ 2, 15000, 15000 ^ 2, 0.00023 * 40, 0.00023 * 15000, 40 * 15000] := by
  obtain ⟨⟨t1, t2⟩, ⟨p1, p2⟩, h1, h2⟩ := h
  have ht : |1 / s.kelvin - 1 / (273.15 + 17.5)| ≤ 0.00023 := by
    have hk : s.kelvin = s.T + 273.15 := rfl
    have k0 : (0:ℝ) < s.kelvin := by rw [hk]; linarith
    have a1 : 1 / s.kelvin ≤ 1 / 273.15 := one_div_le_one_div_of_le (by norm_num) (by rw [hk]; linarith)
    have a2 : 1 / 308.15 ≤ 1 / s.kelvin := one_div_le_one_div_of_le k0 (by rw [hk]; linarith)
    rw [abs_le]
    norm_num at a1 a2 ⊢
    constructor <;> linarith
  have hp : |s.P - 75000| ≤ 15000 := by rw [abs_le]; constructor <;> linarith
  have hh : |s.H - 10| ≤ 40 := by rw [abs_le]; constructor <;> linarith
  simp only [State.vector, List.forall₂_cons, List.Forall₂.nil, and_true, abs_one, le_refl, true_and, abs_mul, abs_pow]
  refine ⟨ht, by gcongr, hh, by gcongr, hp, by gcongr, by gcongr, by gcongr, by gcongr⟩

/-- The ideal gas in the terms of the table. -/
theorem idealGas_dot (s : State) (h : Conditions s) :
    idealGas s = dot [2e-4, 2e-4 * 290.65, 0, 0, 0, 2e-4 / 75000, 0, 0, 2e-4 * 290.65 / 75000, 0] s.vector := by
  have hk : s.T + 273.15 ≠ 0 := by have := h.T.1; linarith
  simp only [idealGas, dot, State.vector, State.kelvin, List.zipWith_cons_cons, List.sum_cons, List.zipWith_nil_left, List.sum_nil]
  field_simp
  ring

theorem row_bound (b : Band) (s : State) (h : Conditions s) (X w : ℝ) (hX : |10000 / w - b.nuRef| ≤ X)
    (c0 c1 c2 c3 c4 c5 : List ℝ) (hc : b.coeffs = [c0, c1, c2, c3, c4, c5]) (h0 : c0.length = 10) (V : List ℝ)
    (hV : V = [1, 0.00023, 0.00023 ^ 2, 40, 40 ^ 2, 15000, 15000 ^ 2, 0.00023 * 40, 0.00023 * 15000, 40 * 15000]) :
    |matharIn b s w - idealGas s| ≤
      dot ((List.zipWith (· - ·) c0 [2e-4, 2e-4 * 290.65, 0, 0, 0, 2e-4 / 75000, 0, 0, 2e-4 * 290.65 / 75000, 0]).map (|·|)) V +
      dot (c1.map (|·|)) V * X + dot (c2.map (|·|)) V * X ^ 2 + dot (c3.map (|·|)) V * X ^ 3 + dot (c4.map (|·|)) V * X ^ 4 +
      dot (c5.map (|·|)) V * X ^ 5 := by
  have hb : ∀ c, |dot c s.vector| ≤ dot (c.map (|·|)) V := fun c => dot_abs c _ _ (hV ▸ vector_bound s h)
  set x := 10000 / w - b.nuRef with hx
  have hm : matharIn b s w - idealGas s =
      dot (List.zipWith (· - ·) c0 [2e-4, 2e-4 * 290.65, 0, 0, 0, 2e-4 / 75000, 0, 0, 2e-4 * 290.65 / 75000, 0]) s.vector +
      dot c1 s.vector * x + dot c2 s.vector * x ^ 2 + dot c3 s.vector * x ^ 3 + dot c4 s.vector * x ^ 4 + dot c5 s.vector * x ^ 5 := by
    rw [← dot_sub _ _ _ (by simp [h0]), idealGas_dot s h]
    unfold matharIn
    rw [show List.range 6 = [0, 1, 2, 3, 4, 5] from rfl, hc]
    simp only [List.map_cons, List.map_nil, List.sum_cons, List.sum_nil, List.getD_cons_zero, List.getD_cons_succ, ← hx]
    ring
  rw [hm]
  have hX0 : 0 ≤ X := (abs_nonneg _).trans hX
  have t : ∀ (c : List ℝ) (n : ℕ), |dot c s.vector * x ^ n| ≤ dot (c.map (|·|)) V * X ^ n := by
    intro c n
    rw [abs_mul, abs_pow]
    have := hb c
    have := (abs_nonneg _).trans this
    gcongr
  have t1 := t c1 1
  simp only [pow_one] at t1
  refine (abs_add_le _ _).trans (add_le_add ((abs_add_le _ _).trans (add_le_add ((abs_add_le _ _).trans (add_le_add
    ((abs_add_le _ _).trans (add_le_add ((abs_add_le _ _).trans (add_le_add (hb _) t1)) (t c2 2))) (t c3 3))) (t c4 4))) (t c5 5))

/-- C450 (partial): in observing conditions, at every wavelength of the bands K, L, M and N and between 18.2 and 22.2
micrometres, the refractivity is that of an ideal gas within twenty millionths (ten percent); within six millionths in L, M
and N. -/
theorem mathar_gas_partial (b : Band) (w : ℝ) (h : b.range.1 ≤ w ∧ w ≤ b.range.2) (hq : b = .Q → 18.2 ≤ w ∧ w ≤ 22.2)
    (s : State) (hs : Conditions s) :
    |index1 s w - idealGas s| ≤ if b = .K ∨ b = .Q then 2e-5 else 6e-6 := by
  rw [(index1_model s w).2 b h.1 h.2]
  have hw : 0 < w := by
    refine lt_of_lt_of_le ?_ h.1
    cases b <;> norm_num [Band.range]
  have hx : ∀ lo hi : ℝ, 0 < lo → 0 < hi → lo ≤ w → w ≤ hi → 10000 / hi ≤ 10000 / w ∧ 10000 / w ≤ 10000 / lo := by
    intro lo hi h1 h2 h3 h4
    constructor <;> gcongr
  by_cases hb : b = .Q
  · subst hb
    obtain ⟨h1, h2⟩ := hx _ _ (by norm_num) (by norm_num) (hq rfl).1 (hq rfl).2
    simp only [reduceCtorEq, or_true, if_true]
    have hb : |10000 / w - Band.Q.nuRef| ≤ 50 := by
      rw [abs_le]; simp only [Band.nuRef]; norm_num at h1 h2 ⊢; constructor <;> linarith
    refine (row_bound .Q s hs _ w hb _ _ _ _ _ _ rfl rfl _ rfl).trans ?_
    simp only [dot, List.map_cons, List.map_nil, List.zipWith_cons_cons, List.zipWith_nil_left, List.sum_cons, List.sum_nil]
    norm_num [abs_of_pos, abs_of_neg]
  cases b
  case' Q => exact absurd rfl hb
  all_goals
    simp only [Band.range] at h
    obtain ⟨h1, h2⟩ := hx _ _ (by norm_num) (by norm_num) h.1 h.2
    simp only [reduceCtorEq, or_self, or_false, or_true, if_true, if_false]
  · have hb : |10000 / w - Band.K.nuRef| ≤ 3300 := by
      rw [abs_le]; simp only [Band.nuRef]; norm_num at h1 h2 ⊢; constructor <;> linarith
    refine (row_bound .K s hs _ w hb _ _ _ _ _ _ rfl rfl _ rfl).trans ?_
    simp only [dot, List.map_cons, List.map_nil, List.zipWith_cons_cons, List.zipWith_nil_left, List.sum_cons, List.sum_nil]
    norm_num [abs_of_pos, abs_of_neg]
  · have hb : |10000 / w - Band.L.nuRef| ≤ 640 := by
      rw [abs_le]; simp only [Band.nuRef]; norm_num at h1 h2 ⊢; constructor <;> linarith
    refine (row_bound .L s hs _ w hb _ _ _ _ _ _ rfl rfl _ rfl).trans ?_
    simp only [dot, List.map_cons, List.map_nil, List.zipWith_cons_cons, List.zipWith_nil_left, List.sum_cons, List.sum_nil]
    norm_num [abs_of_pos, abs_of_neg]
  · have hb : |10000 / w - Band.M.nuRef| ≤ 220 := by
      rw [abs_le]; simp only [Band.nuRef]; norm_num at h1 h2 ⊢; constructor <;> linarith
    refine (row_bound .M s hs _ w hb _ _ _ _ _ _ rfl rfl _ rfl).trans ?_
    simp only [dot, List.map_cons, List.map_nil, List.zipWith_cons_cons, List.zipWith_nil_left, List.sum_cons, List.sum_nil]
    norm_num [abs_of_pos, abs_of_neg]
  · have hb : |10000 / w - Band.N.nuRef| ≤ 350 := by
      rw [abs_le]; simp only [Band.nuRef]; norm_num at h1 h2 ⊢; constructor <;> linarith
    refine (row_bound .N s hs _ w hb _ _ _ _ _ _ rfl rfl _ rfl).trans ?_
    simp only [dot, List.map_cons, List.map_nil, List.zipWith_cons_cons, List.zipWith_nil_left, List.sum_cons, List.sum_nil]
    norm_num [abs_of_pos, abs_of_neg]

/-- C450 (violation): at the ends of the Q band the refractivity is far from that of air, and negative, in states that are
usual otherwise: at 28 micrometres, 35 degrees and 10 percent, and at 16 micrometres, 17.5 degrees and 50 percent. -/
theorem mathar_violation :
    Conditions ⟨35, 75000, 10⟩ ∧ index1 ⟨35, 75000, 10⟩ 28 < -1e-4 ∧
    Conditions ⟨17.5, 75000, 50⟩ ∧ 3.8e-4 < index1 ⟨17.5, 75000, 50⟩ 16 := by
  refine ⟨⟨by norm_num, by norm_num, by norm_num⟩, ?_, ⟨by norm_num, by norm_num, by norm_num⟩, ?_⟩
  · rw [(index1_model _ 28).2 .Q (by norm_num [Band.range]) (by norm_num [Band.range])]
    unfold matharIn
    rw [show List.range 6 = [0, 1, 2, 3, 4, 5] from rfl]
    simp only [List.map_cons, List.map_nil, List.sum_cons, List.sum_nil, Band.coeffs, List.getD_cons_zero, Band.nuRef,
      List.getD_cons_succ, dot, List.zipWith_cons_cons, List.zipWith_nil_left, State.vector, State.kelvin]
    norm_num
  · rw [(index1_model _ 16).2 .Q (by norm_num [Band.range]) (by norm_num [Band.range])]
    unfold matharIn
    rw [show List.range 6 = [0, 1, 2, 3, 4, 5] from rfl]
    simp only [List.map_cons, List.map_nil, List.sum_cons, List.sum_nil, Band.coeffs, List.getD_cons_zero, Band.nuRef,
      List.getD_cons_succ, dot, List.zipWith_cons_cons, List.zipWith_nil_left, State.vector, State.kelvin]
    norm_num

/-- C49: the partial pressure of water vapour is the relative humidity times the saturation pressure, within six
thousandths. -/
theorem humidity_spec (s : State) (hT : |s.T| ≤ 50) (hP : 0 ≤ s.P ∧ s.P ≤ 110000) (hH : 0 ≤ s.H) :
    s.H / 100 * svp s.kelvin ≤ s.pw ∧ s.pw ≤ 1.006 * (s.H / 100 * svp s.kelvin) := by
  have h0 : 0 ≤ s.H / 100 * svp s.kelvin := mul_nonneg (by positivity) (Real.exp_pos _).le
  have hT2 : s.T ^ 2 ≤ 2500 := by have := sq_le_sq' (abs_le.mp hT).1 (abs_le.mp hT).2; linarith
  have e : s.pw = (1.00062 + 3.14e-8 * s.P + 5.6e-7 * s.T ^ 2) * (s.H / 100 * svp s.kelvin) := by
    unfold State.pw; ring
  rw [e]
  have a1 : 1 ≤ 1.00062 + 3.14e-8 * s.P + 5.6e-7 * s.T ^ 2 := by nlinarith [hP.1, sq_nonneg s.T]
  have a2 : 1.00062 + 3.14e-8 * s.P + 5.6e-7 * s.T ^ 2 ≤ 1.006 := by linarith [hP.2]
  exact ⟨by nlinarith, mul_le_mul_of_nonneg_right a2 h0⟩

/-- C49: the saturation pressure increases with the temperature, up to 50 degrees at least. -/
theorem svp_increasing (a b : ℝ) (ha : 0 < a) (hab : a < b) (hb : b ≤ 323.15) : svp a < svp b := by
  unfold svp
  apply Real.exp_lt_exp.mpr
  have hb0 : 0 < b := ha.trans hab
  have e : (-6.3431645e3) / b - (-6.3431645e3) / a = 6.3431645e3 * (b - a) / (a * b) := by
    field_simp; ring
  have l : 0.06 * (b - a) ≤ 6.3431645e3 * (b - a) / (a * b) := by
    rw [le_div_iff₀ (by positivity)]
    have : a * b ≤ 323.15 * 323.15 := by nlinarith
    have := mul_le_mul_of_nonneg_left this (sub_nonneg.2 hab.le)
    nlinarith
  have : b ^ 2 - a ^ 2 ≥ 0 := by nlinarith
  linarith

/-- C49: at 20 degrees the saturation pressure is 2.34 kilopascal, within two percent. -/
theorem svp_value : |svp 293.15 - 2340| ≤ 45 := by
  have e : svp 293.15 = Real.exp 7 * Real.exp (1.2378847e-5 * 293.15 ^ 2 + (-1.9121316e-2) * 293.15 + 33.93711047 + (-6.3431645e3) / 293.15 - 7) := by
    rw [← Real.exp_add]; unfold svp; congr 1; ring
  set y : ℝ := 1.2378847e-5 * 293.15 ^ 2 + (-1.9121316e-2) * 293.15 + 33.93711047 + (-6.3431645e3) / 293.15 - 7 with hy
  have y1 : 0.757 ≤ y := by rw [hy]; norm_num
  have y2 : y ≤ 0.758 := by rw [hy]; norm_num
  have e7 : Real.exp 7 = Real.exp 1 ^ 7 := by rw [← Real.exp_nat_mul]; norm_num
  have l1 := Real.exp_one_gt_d9
  have l2 := Real.exp_one_lt_d9
  have a1 : (1096:ℝ) ≤ Real.exp 7 := by
    rw [e7]; refine le_trans ?_ (pow_le_pow_left₀ (by norm_num) l1.le 7); norm_num
  have a2 : Real.exp 7 ≤ 1097 := by
    rw [e7]; refine le_trans (pow_le_pow_left₀ (Real.exp_pos 1).le l2.le 7) ?_; norm_num
  have b1 : (2.12:ℝ) ≤ Real.exp y := by
    have := Real.sum_le_exp_of_nonneg (x := y) (le_trans (by norm_num) y1) 6
    simp only [Finset.sum_range_succ, Finset.sum_range_zero, Nat.factorial] at this
    have p2 : (0.757:ℝ) ^ 2 ≤ y ^ 2 := pow_le_pow_left₀ (by norm_num) y1 2
    have p3 : (0.757:ℝ) ^ 3 ≤ y ^ 3 := pow_le_pow_left₀ (by norm_num) y1 3
    have p4 : (0.757:ℝ) ^ 4 ≤ y ^ 4 := pow_le_pow_left₀ (by norm_num) y1 4
    have p5 : (0.757:ℝ) ^ 5 ≤ y ^ 5 := pow_le_pow_left₀ (by norm_num) y1 5
    refine le_trans ?_ this
    clear_value y
    norm_num at y1 p2 p3 p4 p5 ⊢
    linarith
  have b2 : Real.exp y ≤ 2.17 := by
    have h1 : Real.exp y ≤ Real.exp 0.758 := Real.exp_le_exp.2 y2
    have h2 := Real.exp_bound' (x := 0.758) (by norm_num) (by norm_num) (n := 5) (by norm_num)
    simp only [Finset.sum_range_succ, Finset.sum_range_zero, Nat.factorial] at h2
    refine h1.trans (h2.trans ?_)
    norm_num
  rw [e, abs_le]
  have hE := Real.exp_pos y
  clear_value y
  have c1 : 1096 * 2.12 ≤ Real.exp 7 * Real.exp y := mul_le_mul a1 b1 (by norm_num) (Real.exp_pos 7).le
  have c2 : Real.exp 7 * Real.exp y ≤ 1097 * 2.17 := mul_le_mul a2 b2 hE.le (by norm_num)
  norm_num at c1 c2
  constructor <;> linarith


/-- C49: at 35 degrees the saturation pressure is below 6 kilopascal. -/
theorem svp_hot : svp 308.15 ≤ 6000 := by
  have e : svp 308.15 ≤ Real.exp 8.65 := Real.exp_le_exp.2 (by norm_num)
  have e2 : Real.exp 8.65 = Real.exp 1 ^ 8 * Real.exp 0.65 := by
    rw [← Real.exp_nat_mul, ← Real.exp_add]; norm_num
  have a : Real.exp 1 ^ 8 ≤ 2982 := by
    refine le_trans (pow_le_pow_left₀ (Real.exp_pos 1).le Real.exp_one_lt_d9.le 8) ?_; norm_num
  have b : Real.exp 0.65 ≤ 1.95 := by
    have h2 := Real.exp_bound' (x := 0.65) (by norm_num) (by norm_num) (n := 5) (by norm_num)
    simp only [Finset.sum_range_succ, Finset.sum_range_zero, Nat.factorial] at h2
    refine h2.trans ?_
    norm_num
  rw [e2] at e
  exact e.trans ((mul_le_mul a b (Real.exp_pos _).le (by norm_num)).trans (by norm_num))

/-- C49: in observing conditions, between 0.4 and 1.3 micrometres, the refractivity is that of an ideal gas within
twelve millionths (six percent). -/
theorem ciddor_gas (w : ℝ) (h : 0.4 ≤ w ∧ w < 1.3) (s : State) (hs : Conditions s) :
    |index1 s w - idealGas s| ≤ 1.2e-5 := by
  rw [(index1_model s w).1 h.2]
  obtain ⟨⟨t1, t2⟩, ⟨p1, p2⟩, h1, h2⟩ := hs
  have hw : 0 < w := lt_of_lt_of_le (by norm_num) h.1
  have s1 : 1 / 1.3 ≤ 1 / w := one_div_le_one_div_of_le hw h.2.le
  have s2 : 1 / w ≤ 2.5 := by rw [div_le_iff₀ hw]; linarith [h.1]
  have hk : s.kelvin = s.T + 273.15 := rfl
  have k0 : (0:ℝ) < s.kelvin := by rw [hk]; linarith
  have d1 : 2.73e-4 ≤ dryStd (1 / w) := by
    refine le_trans (b := dryStd (1 / 1.3)) (by norm_num [dryStd]) ?_
    rcases eq_or_lt_of_le s1 with e | e
    · rw [e]
    · exact (dryStd_mono _ _ (by norm_num) e (by nlinarith)).le
  have d2 : dryStd (1 / w) ≤ 2.83e-4 := by
    refine le_trans (b := dryStd 2.5) ?_ (by norm_num [dryStd])
    rcases eq_or_lt_of_le s2 with e | e
    · rw [e]
    · exact (dryStd_mono _ _ (by positivity) e (by norm_num)).le
  have w1 : 3e-6 ≤ wetStd (1 / w) := by
    refine le_trans (b := wetStd (1 / 1.3)) (by norm_num [wetStd]) ?_
    rcases eq_or_lt_of_le s1 with e | e
    · rw [e]
    · exact (wetStd_mono _ _ (by norm_num) e).le
  have w2 : wetStd (1 / w) ≤ 3.2e-6 := by
    refine le_trans (b := wetStd 2.5) ?_ (by norm_num [wetStd])
    rcases eq_or_lt_of_le s2 with e | e
    · rw [e]
    · exact (wetStd_mono _ _ (by positivity) e).le
  obtain ⟨q0, q1⟩ := humidity_spec s (by rw [abs_le]; constructor <;> linarith) ⟨by linarith, by linarith⟩ h1
  have sv : svp s.kelvin ≤ 6000 := by
    rcases eq_or_lt_of_le (show s.kelvin ≤ 308.15 by rw [hk]; linarith) with e | e
    · rw [e]; exact svp_hot
    · exact (svp_increasing _ _ k0 e (by norm_num)).le.trans svp_hot
  have sv0 : 0 ≤ svp s.kelvin := (Real.exp_pos _).le
  have r0 : 0 ≤ s.pw := le_trans (mul_nonneg (by positivity) sv0) q0
  have r1 : s.pw ≤ 3020 := by
    have : s.H / 100 * svp s.kelvin ≤ 0.5 * 6000 := mul_le_mul (by linarith) sv sv0 (by norm_num)
    linarith
  have e : ciddor s w - idealGas s = 1 / s.kelvin * (s.P * (288.15 / 101325 * dryStd (1 / w) - 2e-4 * 290.65 / 75000) -
      s.pw * (288.15 / 101325 * dryStd (1 / w) - 293.15 / 1333 * wetStd (1 / w))) := by
    unfold ciddor idealGas State.pa
    rw [← hk]
    field_simp
    ring
  rw [e, abs_mul, abs_of_pos (by positivity)]
  set A := dryStd (1 / w)
  set B := wetStd (1 / w)
  have x1 : 0 ≤ 288.15 / 101325 * A - 2e-4 * 290.65 / 75000 := by norm_num at d1 ⊢; linarith
  have x2 : 288.15 / 101325 * A - 2e-4 * 290.65 / 75000 ≤ 3.1e-8 := by norm_num at d2 ⊢; linarith
  have y1 : 0 ≤ 288.15 / 101325 * A - 293.15 / 1333 * B := by norm_num at d1 w2 ⊢; linarith
  have y2 : 288.15 / 101325 * A - 293.15 / 1333 * B ≤ 1.5e-7 := by norm_num at d2 w1 ⊢; linarith
  have m1 : s.P * (288.15 / 101325 * A - 2e-4 * 290.65 / 75000) ≤ 90000 * 3.1e-8 := mul_le_mul p2 x2 x1 (by norm_num)
  have m0 : 0 ≤ s.P * (288.15 / 101325 * A - 2e-4 * 290.65 / 75000) := mul_nonneg (by linarith) x1
  have n1 : s.pw * (288.15 / 101325 * A - 293.15 / 1333 * B) ≤ 3020 * 1.5e-7 := mul_le_mul r1 y2 y1 (by norm_num)
  have n0 : 0 ≤ s.pw * (288.15 / 101325 * A - 293.15 / 1333 * B) := mul_nonneg r0 y1
  have ik : 1 / s.kelvin ≤ 1 / 273.15 := one_div_le_one_div_of_le (by norm_num) (by rw [hk]; linarith)
  have ab : |s.P * (288.15 / 101325 * A - 2e-4 * 290.65 / 75000) - s.pw * (288.15 / 101325 * A - 293.15 / 1333 * B)| ≤ 3e-3 := by
    rw [abs_le]; norm_num at m1 n1 m0 n0 ⊢; constructor <;> linarith
  refine (mul_le_mul ik ab (abs_nonneg _) (by norm_num)).trans (by norm_num)

/-- C49: the two standard conditions of the model: dry air at 15 degrees and 101325 pascal; water vapour at 20 degrees and
1333 pascal, which adds to the dry air present. -/
theorem standard_conditions (s : State) (w : ℝ) :
    ciddor ⟨15, 101325, 0⟩ w = dryStd (1 / w) ∧
    (s.T = 20 → s.pw = 1333 → ciddor s w = ciddor ⟨20, s.P - 1333, 0⟩ w + wetStd (1 / w)) := by
  constructor
  · rw [ciddor_dry]; norm_num
  · intro hT hp
    rw [ciddor_dry]
    simp only [ciddor, State.pa, State.kelvin, hp, hT]
    norm_num

/-- A concrete case: 5 degrees, 70 kilopascal, 30 percent. -/
example : Conditions ⟨5, 70000, 30⟩ := ⟨by norm_num, by norm_num, by norm_num⟩

end P3.Air
