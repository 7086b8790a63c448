import Verif.Props.Turbulence
import Verif.Model.Zenith
import Mathlib.Topology.Order.IntermediateValue

/-! C454-C456: coherence time and isoplanatic angle, against the structure functions. -/

namespace P3.Turbulence
open MeasureTheory Set Real Filter Topology P3.Atmosphere

/-- Spec: mean square of the change of the phase when each layer moves by `c` times `x` (infinite outer scale): the sum over
the layers of the structure function, weighted. -/
noncomputable def moved (r0 : ℝ) (w x : List ℝ) (c : ℝ) : ℝ :=
  (List.zipWith (fun w x => w * structureFunctionInf r0 (x * c)) w x).sum

theorem moved_eq (r0 : ℝ) (hr : 0 < r0) (w x : List ℝ) (hx : ∀ y ∈ x, 0 ≤ y) (c : ℝ) (hc : 0 ≤ c) :
    moved r0 w x c = 2 * c1 * (c / r0) ^ ((5:ℝ)/3) * wsum53 w x := by
  unfold moved wsum53
  induction w generalizing x with
  | nil => simp
  | cons a w ih =>
    rcases x with _ | ⟨y, x⟩
    · simp
    · simp only [List.zipWith_cons_cons, List.sum_cons]
      rw [ih x fun z hz => hx z (List.mem_cons_of_mem _ hz)]
      have hy := hx y (List.mem_cons_self ..)
      unfold structureFunctionInf
      rw [mul_div_assoc, mul_rpow hy (by positivity)]
      ring

theorem rpow_35_53 (x : ℝ) (hx : 0 ≤ x) : (x ^ ((3:ℝ)/5)) ^ ((5:ℝ)/3) = x := by
  rw [← rpow_mul hx]; norm_num

/-- C454: during the coherence time the phase changes by one radian (mean square, within one percent), whatever the profile. -/
theorem coherence_time (a : Atm) (hr : 0 < a.r0) (hv : ∀ v ∈ a.wSpeed, 0 ≤ v) (hs : 0 < wsum53 a.weights a.wSpeed) :
    |moved a.r0 a.weights a.wSpeed (tau0 a / 1000) - 1| ≤ 0.01 := by
  have hm : 0 < meanWind a := rpow_pos_of_pos hs _
  have ht : tau0 a / 1000 = 0.314 * a.r0 / meanWind a := by unfold tau0; ring
  rw [ht, moved_eq a.r0 hr _ _ hv _ (by positivity)]
  have e : (0.314 * a.r0 / meanWind a / a.r0) ^ ((5:ℝ)/3) = 0.314 ^ ((5:ℝ)/3) / wsum53 a.weights a.wSpeed := by
    rw [show 0.314 * a.r0 / meanWind a / a.r0 = 0.314 / meanWind a by field_simp, div_rpow (by norm_num) hm.le]
    congr 1
    unfold meanWind
    exact rpow_35_53 _ hs.le
  rw [e]
  have e2 : 2 * c1 * (0.314 ^ ((5:ℝ)/3) / wsum53 a.weights a.wSpeed) * wsum53 a.weights a.wSpeed = 2 * c1 * 0.314 ^ ((5:ℝ)/3) := by
    field_simp
  rw [e2]
  obtain ⟨l, u⟩ := c1_value
  have hq : ((0.314:ℝ) ^ ((5:ℝ)/3)) ^ 3 = 0.314 ^ 5 := by
    rw [← rpow_natCast, ← rpow_mul (by norm_num), ← rpow_natCast]; norm_num
  have hq0 : (0:ℝ) ≤ 0.314 ^ ((5:ℝ)/3) := by positivity
  have q1 : (0.1450:ℝ) ≤ 0.314 ^ ((5:ℝ)/3) := by
    refine le_of_pow_le_pow_left₀ (n := 3) (by norm_num) hq0 ?_
    rw [hq]; norm_num
  have q2 : (0.314:ℝ) ^ ((5:ℝ)/3) ≤ 0.1451 := by
    refine le_of_pow_le_pow_left₀ (n := 3) (by norm_num) (by norm_num) ?_
    rw [hq]; norm_num
  rw [abs_le]
  constructor <;> nlinarith

/-- C455: for an infinite outer scale the mean square difference of the phases of two directions separated by the isoplanatic
angle is two square radians, whatever the profile. -/
theorem isoplanatic_infinite (a : Atm) (hr : 0 < a.r0) (hh : ∀ h ∈ a.heights, 0 ≤ h) (hs : 0 < wsum53 a.weights a.heights)
    (x : ℝ) (hx : Zenith.theta0 a = some x) :
    moved a.r0 a.weights a.heights (x * (π / 180 / 3600)) = 2 := by
  unfold Zenith.theta0 at hx
  split_ifs at hx
  rw [Option.some.injEq] at hx
  have hp := pi_pos
  set q := (24 * Gamma (6/5) / 5) ^ (-(5:ℝ)/6) * a.r0 ^ ((5:ℝ)/3) / wsum53 a.weights a.heights with hq
  have hG : 0 < Gamma (6/5) := Gamma_pos_of_pos (by norm_num)
  have hq0 : 0 < q := by positivity
  have e : x * (π / 180 / 3600) = q ^ ((3:ℝ)/5) := by
    rw [← hx]; field_simp
  rw [e, moved_eq a.r0 hr _ _ hh _ (by positivity), div_rpow (by positivity) hr.le, rpow_35_53 _ hq0.le, hq]
  have e1 : (24 * Gamma (6/5) / 5) ^ (-(5:ℝ)/6) = c1⁻¹ := by
    unfold c1
    rw [show -(5:ℝ)/6 = -(5/6) by norm_num, rpow_neg (by positivity)]
  rw [e1]
  have hc := c1_pos
  have : a.r0 ^ ((5:ℝ)/3) ≠ 0 := (rpow_pos_of_pos hr _).ne'
  field_simp

/-! ### Finite outer scale -/

theorem J_continuousOn (ν a : ℝ) (hν : 0 < ν) (ha : 0 < a) : ContinuousOn (J ν a) (Ici 0) := by
  intro b0 _
  unfold ContinuousWithinAt J
  refine tendsto_integral_filter_of_dominated_convergence (fun t => t ^ (ν - 1) * exp (-(a * t)))
    (Eventually.of_forall fun b => J_meas ν a b) ?_ (J_integrable0 ν a hν ha) ?_
  · filter_upwards [self_mem_nhdsWithin] with b hb
    refine (ae_restrict_iff' measurableSet_Ioi).2 (Eventually.of_forall fun t ht => ?_)
    have ht0 : 0 < t := ht
    have hb0 : 0 ≤ b := hb
    rw [norm_of_nonneg (by positivity)]
    have : 0 ≤ b / t := by positivity
    gcongr
    linarith
  · refine Eventually.of_forall fun t => ?_
    apply Tendsto.mono_left _ nhdsWithin_le_nhds
    have : Continuous fun b : ℝ => t ^ (ν - 1) * exp (-(a * t + b / t)) := by fun_prop
    exact this.tendsto b0

theorem J_atTop (ν a : ℝ) (hν : 0 < ν) (ha : 0 < a) : Tendsto (J ν a) atTop (𝓝 0) := by
  have h : Tendsto (fun b => ∫ t in Ioi (0:ℝ), t ^ (ν - 1) * exp (-(a * t + b / t))) atTop (𝓝 (∫ _ in Ioi (0:ℝ), (0:ℝ))) := by
    refine tendsto_integral_filter_of_dominated_convergence (fun t => t ^ (ν - 1) * exp (-(a * t)))
      (Eventually.of_forall fun b => J_meas ν a b) ?_ (J_integrable0 ν a hν ha) ?_
    · filter_upwards [eventually_ge_atTop 0] with b hb
      refine (ae_restrict_iff' measurableSet_Ioi).2 (Eventually.of_forall fun t ht => ?_)
      have ht0 : 0 < t := ht
      rw [norm_of_nonneg (by positivity)]
      have : 0 ≤ b / t := by positivity
      gcongr
      linarith
    · refine (ae_restrict_iff' measurableSet_Ioi).2 (Eventually.of_forall fun t ht => ?_)
      have ht0 : 0 < t := ht
      have h1 : Tendsto (fun b : ℝ => a * t + b / t) atTop atTop :=
        tendsto_atTop_add_const_left _ _ (tendsto_id.atTop_div_const ht0)
      simpa using (tendsto_exp_neg_atTop_nhds_zero.comp h1).const_mul (t ^ (ν - 1))
  rw [integral_zero] at h
  exact h

theorem structure_continuousOn (a : Atm) (hL : 0 < a.L0) : ContinuousOn (structureFunction (besselK (5/6)) a) (Ici 0) := by
  have h : ContinuousOn (fun rho : ℝ => c1 * c2 * (a.L0 / a.r0) ^ ((5:ℝ)/3) *
      (J (5/6) (1/2) 0 - J (5/6) (1/2) ((2 * π * rho / a.L0) ^ 2 / 2))) (Ici 0) := by
    apply ContinuousOn.mul continuousOn_const
    apply ContinuousOn.sub continuousOn_const
    refine (J_continuousOn (5/6) (1/2) (by norm_num) (by norm_num)).comp (by fun_prop) ?_
    intro x _
    simp only [mem_Ici]; positivity
  exact h.congr fun x hx => structure_J a hL x hx

theorem structure_atTop (a : Atm) (hL : 0 < a.L0) : Tendsto (structureFunction (besselK (5/6)) a) atTop (𝓝 (2 * variance a)) := by
  have hp := pi_pos
  have h1 : Tendsto (fun rho : ℝ => (2 * π * rho / a.L0) ^ 2 / 2) atTop atTop := by
    have : Tendsto (fun rho : ℝ => 2 * π * rho / a.L0) atTop atTop :=
      (tendsto_id.const_mul_atTop (by positivity : 0 < 2 * π)).atTop_div_const hL
    exact ((tendsto_pow_atTop (by norm_num : (2:ℕ) ≠ 0)).comp this).atTop_div_const (by norm_num)
  have h2 := (((J_atTop (5/6) (1/2) (by norm_num) (by norm_num)).comp h1).const_sub (J (5/6) (1/2) 0)).const_mul
    (c1 * c2 * (a.L0 / a.r0) ^ ((5:ℝ)/3))
  have hv : 2 * variance a = c1 * c2 * (a.L0 / a.r0) ^ ((5:ℝ)/3) * (J (5/6) (1/2) 0 - 0) := by
    have h0 := covariance_J a hL 0 le_rfl
    have : variance a = covariance (besselK (5/6)) a 0 := by simp [variance, covariance]
    rw [this, h0]
    simp only [mul_zero, zero_div, ne_eq, OfNat.ofNat_ne_zero, not_false_eq_true, zero_pow]
    ring
  rw [hv]
  refine h2.congr' ?_
  filter_upwards [eventually_ge_atTop 0] with x hx
  rw [structure_J a hL x hx]
  rfl

/-- Weighted sum of the structure function over layers at heights `h`, as a function of the tangent of the angle. -/
noncomputable def layered (D : ℝ → ℝ) (w h : List ℝ) (t : ℝ) : ℝ := (List.zipWith (fun w h => w * D (h * t)) w h).sum

/-- Total weight of the layers above the ground. -/
noncomputable def above (w h : List ℝ) : ℝ := (List.zipWith (fun w h : ℝ => if h = 0 then 0 else w) w h).sum

theorem layered_spec (D : ℝ → ℝ) (V : ℝ) (hc : ContinuousOn D (Ici 0)) (h0 : D 0 = 0) (hm : ∀ x y, 0 ≤ x → x < y → D x < D y)
    (hlim : Tendsto D atTop (𝓝 V)) (hb : ∀ x, 0 ≤ x → D x < V) (w h : List ℝ) (hw : ∀ x ∈ w, 0 < x) (hh : ∀ x ∈ h, 0 ≤ x) :
    ContinuousOn (layered D w h) (Ici 0) ∧ layered D w h 0 = 0 ∧ Tendsto (layered D w h) atTop (𝓝 (above w h * V)) ∧
    (∀ x, 0 ≤ x → layered D w h x ≤ above w h * V ∧ (0 < above w h → layered D w h x < above w h * V)) ∧
    (∀ x y, 0 ≤ x → x < y → layered D w h x ≤ layered D w h y ∧ (0 < above w h → layered D w h x < layered D w h y)) ∧
    0 ≤ above w h := by
  induction w generalizing h with
  | nil =>
    have e : layered D [] h = fun _ => 0 := by funext t; simp [layered]
    rw [e]; simp [above, continuousOn_const]
  | cons a w ih =>
    rcases h with _ | ⟨y, h⟩
    · have e : layered D (a :: w) [] = fun _ => 0 := by funext t; simp [layered]
      rw [e]; simp [above, continuousOn_const]
    · obtain ⟨i1, i2, i3, i4, i5, i6⟩ := ih h (fun z hz => hw z (List.mem_cons_of_mem _ hz)) (fun z hz => hh z (List.mem_cons_of_mem _ hz))
      have hy := hh y (List.mem_cons_self ..)
      have ha := hw a (List.mem_cons_self ..)
      have e : layered D (a :: w) (y :: h) = fun t => a * D (y * t) + layered D w h t := by
        funext t; simp [layered]
      have e' : above (a :: w) (y :: h) = (if y = 0 then 0 else a) + above w h := by simp [above]
      rw [e, e']
      by_cases h0y : y = 0
      · subst h0y
        simp only [zero_mul, h0, mul_zero, zero_add, if_true]
        exact ⟨i1, i2, i3, i4, i5, i6⟩
      · have hy' : 0 < y := lt_of_le_of_ne hy (Ne.symm h0y)
        rw [if_neg h0y]
        refine ⟨?_, ?_, ?_, ?_, ?_, by linarith⟩
        · refine ContinuousOn.add (ContinuousOn.mul continuousOn_const (hc.comp (by fun_prop) ?_)) i1
          intro x hx
          have : (0:ℝ) ≤ x := hx
          simp only [mem_Ici]; positivity
        · simp only [mul_zero, h0, i2, add_zero]
        · have : Tendsto (fun t : ℝ => y * t) atTop atTop := tendsto_id.const_mul_atTop hy'
          have := ((hlim.comp this).const_mul a).add i3
          rw [add_mul]
          exact this
        · intro x hx
          have b := mul_lt_mul_of_pos_left (hb (y * x) (by positivity)) ha
          have c := (i4 x hx).1
          rw [add_mul]
          exact ⟨by linarith, fun _ => by linarith⟩
        · intro x z hx hxz
          have b := mul_lt_mul_of_pos_left (hm (y * x) (y * z) (by positivity) (by gcongr)) ha
          have c := (i5 x z hx hxz).1
          exact ⟨by linarith, fun _ => by linarith⟩

/-- C456 (partial): for a finite outer scale, the equation that defines the isoplanatic angle has a solution exactly when the
variance of the phase of the layers above the ground exceeds one square radian; the solution is unique. -/
theorem isoplanatic_finite_partial (wvl r0 : ℝ) (w h v d : List ℝ) (L0 : ℝ) (hr : 0 < r0) (hL : 0 < L0) (hw : ∀ x ∈ w, 0 < x)
    (hh : ∀ x ∈ h, 0 ≤ x) (hl : h.length = w.length) (a : Atm) (ha : a = Atmosphere.mk wvl r0 w h v d (.one L0)) :
    ((∃ t, 0 ≤ t ∧ t < π / 2 ∧ angularStructureFunction (besselK (5/6)) a t = 2) ↔ 1 < above w h * variance a) ∧
    (∀ s t, 0 ≤ s → s < π / 2 → 0 ≤ t → t < π / 2 → angularStructureFunction (besselK (5/6)) a s = 2 →
      angularStructureFunction (besselK (5/6)) a t = 2 → s = t) := by
  have hr' : 0 < a.r0 := by rw [ha]; exact hr
  have hL' : 0 < a.L0 := by rw [ha]; exact hL
  have hang : ∀ t, 0 ≤ t → t < π / 2 → angularStructureFunction (besselK (5/6)) a t =
      layered (structureFunction (besselK (5/6)) a) w h (tan t) := fun t h1 h2 =>
    angular_structure wvl r0 w h v d L0 hr hL hw hh hl t h1 h2 a ha
  obtain ⟨-, s0, smono, sbound, -⟩ := structure_spec a hr' hL'
  obtain ⟨l1, l2, l3, l4, l5, l6⟩ := layered_spec (structureFunction (besselK (5/6)) a) (2 * variance a)
    (structure_continuousOn a hL') s0 smono (structure_atTop a hL') sbound w h hw hh
  have tn : ∀ t, 0 ≤ t → t < π / 2 → 0 ≤ tan t := by
    intro t h1 h2
    rcases eq_or_lt_of_le h1 with e | e
    · rw [← e, tan_zero]
    · exact (tan_pos_of_pos_of_lt_pi_div_two e h2).le
  have hV : 0 < variance a := by
    have := sbound 0 le_rfl
    rw [s0] at this; linarith
  constructor
  · constructor
    · rintro ⟨t, h1, h2, h3⟩
      rw [hang t h1 h2] at h3
      have hpos : 0 < above w h := by
        rcases eq_or_lt_of_le l6 with e | e
        · have := (l4 _ (tn t h1 h2)).1
          rw [← e] at this
          linarith
        · exact e
      have := (l4 _ (tn t h1 h2)).2 hpos
      linarith
    · intro h1
      have hev := (l3.eventually (lt_mem_nhds (show 2 < above w h * (2 * variance a) by linarith))).and (eventually_ge_atTop 0)
      obtain ⟨T, hT, hT0⟩ := hev.exists
      have ivt := intermediate_value_Icc hT0 (l1.mono Icc_subset_Ici_self)
      rw [l2] at ivt
      obtain ⟨x, hx, hx2⟩ := ivt ⟨by norm_num, hT.le⟩
      refine ⟨arctan x, arctan_nonneg.2 hx.1, arctan_lt_pi_div_two x, ?_⟩
      rw [hang _ (arctan_nonneg.2 hx.1) (arctan_lt_pi_div_two x), tan_arctan, hx2]
  · intro s t s1 s2 t1 t2 es et
    rw [hang _ s1 s2] at es
    rw [hang _ t1 t2] at et
    have hpos : 0 < above w h := by
      rcases eq_or_lt_of_le l6 with e | e
      · have := (l4 _ (tn t t1 t2)).1
        rw [← e] at this
        linarith
      · exact e
    have teq : tan s = tan t := by
      rcases lt_trichotomy (tan s) (tan t) with g | g | g
      · have := (l5 _ _ (tn s s1 s2) g).2 hpos; linarith
      · exact g
      · have := (l5 _ _ (tn t t1 t2) g).2 hpos; linarith
    exact injOn_tan ⟨by linarith [pi_pos], s2⟩ ⟨by linarith [pi_pos], t2⟩ teq

theorem Gamma_eleven_sixths : Gamma (11/6) ≤ 1 := by
  obtain ⟨u, -⟩ := Gamma_between 1 (5/6) (by norm_num) (by norm_num) (by norm_num)
  rw [show ((1:ℕ):ℝ) + 5/6 = 11/6 by norm_num] at u
  simpa using u

theorem c3_le : c3 ≤ 0.0613 := by
  have g := Gamma_eleven_sixths
  have g1 : Gamma (11/6) = 5/6 * Gamma (5/6) := by
    rw [show (11/6 : ℝ) = 5/6 + 1 by norm_num, Gamma_add_one (by norm_num)]
  have g0 : 0 < Gamma (11/6) := Gamma_pos_of_pos (by norm_num)
  have hp : π ^ 2 ≤ π ^ ((8:ℝ)/3) := by
    rw [← rpow_natCast]
    exact rpow_le_rpow_of_exponent_le (by linarith [pi_gt_three]) (by norm_num)
  have h3 := pi_gt_d2
  have hp2 : (9.8:ℝ) ≤ π ^ ((8:ℝ)/3) := by nlinarith
  unfold c3
  rw [div_le_iff₀ (by positivity)]
  nlinarith

theorem above_le (w h : List ℝ) (hw : ∀ x ∈ w, 0 < x) (hl : h.length = w.length) : above w h ≤ w.sum := by
  unfold above
  induction w generalizing h with
  | nil => simp
  | cons a w ih =>
    rcases h with _ | ⟨y, h⟩
    · simp at hl
    · have i := ih h (fun z hz => hw z (List.mem_cons_of_mem _ hz)) (by simpa using hl)
      have ha := hw a (List.mem_cons_self ..)
      simp only [List.zipWith_cons_cons, List.sum_cons]
      split_ifs <;> linarith

/-- C456 (violation): when the outer scale is at most twice the Fried parameter (in the thermal infrared), no angle solves the
equation, whatever the profile: the solver of the code is called on an equation without solution. -/
theorem isoplanatic_violation (wvl r0 : ℝ) (w h v d : List ℝ) (L0 : ℝ) (hr : 0 < r0) (hL : 0 < L0) (hLr : L0 ≤ 2 * r0)
    (hw : ∀ x ∈ w, 0 < x) (hs : w.sum = 1) (hh : ∀ x ∈ h, 0 ≤ x) (hl : h.length = w.length) :
    ¬ ∃ t, 0 ≤ t ∧ t < π / 2 ∧ angularStructureFunction (besselK (5/6)) (Atmosphere.mk wvl r0 w h v d (.one L0)) t = 2 := by
  rw [(isoplanatic_finite_partial wvl r0 w h v d L0 hr hL hw hh hl _ rfl).1, not_lt]
  have hA := above_le w h hw hl
  rw [hs] at hA
  have hv : variance (Atmosphere.mk wvl r0 w h v d (.one L0)) ≤ 1 := by
    have e : variance (Atmosphere.mk wvl r0 w h v d (.one L0)) = c1 * c3 * (L0 / r0) ^ ((5:ℝ)/3) := rfl
    rw [e]
    have q : (L0 / r0) ^ ((5:ℝ)/3) ≤ 3.2 := by
      have h1 : (L0 / r0) ^ ((5:ℝ)/3) ≤ 2 ^ ((5:ℝ)/3) :=
        rpow_le_rpow (by positivity) (by rw [div_le_iff₀ hr]; exact hLr) (by norm_num)
      have h2 : ((2:ℝ) ^ ((5:ℝ)/3)) ^ 3 = 32 := by
        rw [← rpow_natCast, ← rpow_mul (by norm_num)]; norm_num
      have h3 : (2:ℝ) ^ ((5:ℝ)/3) ≤ 3.2 := by
        refine le_of_pow_le_pow_left₀ (n := 3) (by norm_num) (by norm_num) ?_
        rw [h2]; norm_num
      exact h1.trans h3
    have q0 : 0 ≤ (L0 / r0) ^ ((5:ℝ)/3) := by positivity
    have h1 : c1 * c3 ≤ 3.45 * 0.0613 := mul_le_mul c1_value.2.le c3_le c3_pos.le (by norm_num)
    have := mul_le_mul h1 q q0 (by norm_num)
    refine this.trans (by norm_num)
  have hv0 : 0 < variance (Atmosphere.mk wvl r0 w h v d (.one L0)) := by
    have e : variance (Atmosphere.mk wvl r0 w h v d (.one L0)) = c1 * c3 * (L0 / r0) ^ ((5:ℝ)/3) := rfl
    rw [e]
    have := c1_pos; have := c3_pos; positivity
  nlinarith

/-- A concrete case: 20 micrometres, a Fried parameter of 12.5 metres and an outer scale of 25 metres, two layers. -/
example : (0:ℝ) < 12.5 ∧ (25:ℝ) ≤ 2 * 12.5 ∧ ([0.6, 0.4] : List ℝ).sum = 1 ∧ above [0.6, 0.4] [0, 10000] = 0.4 := by
  norm_num [above]

end P3.Turbulence
