import Verif.Props.Refine
import Verif.Props.Anisophase
import Verif.Props.BreakdownDefined
import Mathlib.Analysis.SpecialFunctions.PolarCoord
import Mathlib.Analysis.SpecialFunctions.JapaneseBracket
import Mathlib.MeasureTheory.Integral.IntegralEqImproper
namespace P3.Refine
open Filter Topology MeasureTheory Real

/-- The integral of `r (r² + b)^(-11/6)` from `k` to infinity. -/
theorem tail (k b : ℝ) (hk : 0 < k) (hb : 0 ≤ b) :
    ∫ r in Set.Ioi k, r * (r ^ 2 + b) ^ (-(11:ℝ)/6) = 3 / 5 * (k ^ 2 + b) ^ (-(5:ℝ)/6) := by
  have := integral_Ioi_of_hasDerivAt_of_nonneg' (a := k) (l := 0) (g := fun r : ℝ => -(3/5) * (r ^ 2 + b) ^ (-(5:ℝ)/6))
    (g' := fun r => r * (r ^ 2 + b) ^ (-(11:ℝ)/6)) ?_ ?_ ?_
  · rw [this]; ring
  · intro x hx
    have hx : k ≤ x := hx
    have p : 0 < x ^ 2 + b := by have : 0 < x := by linarith
                                 positivity
    have d1 : HasDerivAt (fun r : ℝ => r ^ 2 + b) (2 * x) x := by simpa using (hasDerivAt_pow 2 x).add_const b
    have d2 := (d1.rpow_const (p := -(5:ℝ)/6) (Or.inl p.ne')).const_mul (-(3/5))
    convert! d2 using 1
    rw [show (-(5:ℝ)/6 - 1) = -(11:ℝ)/6 by norm_num]
    ring
  · intro x hx
    have hx : k < x := hx
    have : 0 < x := by linarith
    positivity
  · have t : Tendsto (fun r : ℝ => r ^ 2 + b) atTop atTop := tendsto_atTop_add_const_right _ _ (tendsto_pow_atTop (by norm_num))
    have := (tendsto_rpow_neg_atTop (y := (5:ℝ)/6) (by norm_num)).comp t
    have := this.const_mul (-(3/5) : ℝ)
    rw [mul_zero] at this
    refine this.congr fun r => ?_
    simp only [Function.comp]
    norm_num

/-- What is left outside of the corrected area. -/
noncomputable def left (circle : Bool) (kc : ℝ) (spectrum : ℝ → ℝ) (p : ℝ × ℝ) : ℝ :=
  if Freq.mskIn circle kc p.1 p.2 then 0 else spectrum (sqrt (p.1 ^ 2 + p.2 ^ 2))

theorem left_polar (kc : ℝ) (hk : 0 < kc) (spectrum : ℝ → ℝ) :
    ∫ p, left true kc spectrum p = 2 * π * ∫ r in Set.Ioi kc, r * spectrum r := by
  rw [← integral_comp_polarCoord_symm]
  have tgt : polarCoord.target = Set.Ioi (0:ℝ) ×ˢ Set.Ioo (-π) π := rfl
  rw [tgt]
  have e : Set.EqOn (fun p : ℝ × ℝ => p.1 • left true kc spectrum (polarCoord.symm p)) (fun p => ((Set.Ici kc).indicator (fun r => r * spectrum r) p.1) * (1:ℝ))
      (Set.Ioi (0:ℝ) ×ˢ Set.Ioo (-π) π) := by
    rintro ⟨r, θ⟩ ⟨hr, -⟩
    have hr : 0 < r := hr
    have q : (r * cos θ) ^ 2 + (r * sin θ) ^ 2 = r ^ 2 := by
      have := sin_sq_add_cos_sq θ
      linear_combination r ^ 2 * this
    simp only [polarCoord_symm_apply, left, Freq.mskIn, if_true, q, smul_eq_mul, mul_one, sqrt_sq hr.le]
    by_cases h : kc ≤ r
    · rw [if_neg (not_lt.2 (pow_le_pow_left₀ hk.le h 2)), Set.indicator_of_mem (show r ∈ Set.Ici kc from h)]
    · rw [if_pos (pow_lt_pow_left₀ (not_le.1 h) hr.le (by norm_num)), Set.indicator_of_notMem (show r ∉ Set.Ici kc from h), mul_zero]
  rw [setIntegral_congr_fun (measurableSet_Ioi.prod measurableSet_Ioo) e, Measure.volume_eq_prod,
    setIntegral_prod_mul (fun r => (Set.Ici kc).indicator (fun r => r * spectrum r) r) (fun _ : ℝ => (1:ℝ)), setIntegral_indicator measurableSet_Ici,
    show Set.Ioi (0:ℝ) ∩ Set.Ici kc = Set.Ici kc from Set.inter_eq_right.2 fun x (hx : kc ≤ x) => lt_of_lt_of_le hk hx, integral_Ici_eq_integral_Ioi]
  have : ∫ _ in Set.Ioo (-π) π, (1:ℝ) = 2 * π := by
    rw [← integral_Ioc_eq_integral_Ioo, ← intervalIntegral.integral_of_le (by linarith [pi_pos])]
    simp; ring
  rw [this]; ring

/-- Spec: the constant of the spectrum. -/
noncomputable def c0 : ℝ := (24 * Gamma (6/5) / 5) ^ ((5:ℝ)/6) * (Gamma (11/6) ^ 2 / (2 * π ^ ((11:ℝ)/3)))

theorem left_spectrum (a : Atmosphere.Atm) (kc : ℝ) (hk : 0 < kc) :
    ∫ p, left true kc (Atmosphere.spectrum a) p = a.r0 ^ (-(5:ℝ)/3) * c0 * (6 * π / 5) * (kc ^ 2 + 1 / a.L0 ^ 2) ^ (-(5:ℝ)/6) := by
  rw [left_polar kc hk]
  have : ∀ r : ℝ, r * Atmosphere.spectrum a r = a.r0 ^ (-(5:ℝ)/3) * c0 * (r * (r ^ 2 + 1 / a.L0 ^ 2) ^ (-(11:ℝ)/6)) := by
    intro r; unfold Atmosphere.spectrum c0; ring
  simp only [this]
  rw [integral_const_mul, tail kc _ hk (by positivity)]
  ring

theorem left_far (circle : Bool) (kc : ℝ) (hk : 0 < kc) (p : ℝ × ℝ) (h : ¬ Freq.mskIn circle kc p.1 p.2) : kc ^ 2 ≤ p.1 ^ 2 + p.2 ^ 2 := by
  cases circle
  · simp only [Freq.mskIn, Bool.false_eq_true, if_false, not_and_or, not_lt] at h
    rcases h with h | h
    · nlinarith [sq_abs p.1, sq_nonneg p.2]
    · nlinarith [sq_abs p.2, sq_nonneg p.1]
  · simpa [Freq.mskIn] using h

theorem left_integrable (circle : Bool) (a : Atmosphere.Atm) (kc : ℝ) (hk : 0 < kc) : Integrable (left circle kc (Atmosphere.spectrum a)) := by
  have hI : Integrable (fun p : ℝ × ℝ => |a.r0 ^ (-(5:ℝ)/3) * c0| * (1 / kc + 1) ^ ((11:ℝ)/3) * (1 + ‖p‖) ^ (-((11:ℝ)/3))) := by
    refine Integrable.const_mul ?_ _
    refine integrable_one_add_norm ?_
    simp; norm_num
  refine hI.mono' ?_ ?_
  · refine Measurable.aestronglyMeasurable ?_
    unfold left
    refine Measurable.ite ?_ measurable_const ?_
    · cases circle
      · simp only [Freq.mskIn, Bool.false_eq_true, if_false]
        exact (measurableSet_lt (f := fun p : ℝ × ℝ => |p.1|) (by fun_prop) measurable_const).inter
          (measurableSet_lt (f := fun p : ℝ × ℝ => |p.2|) (by fun_prop) measurable_const)
      · simp only [Freq.mskIn, if_true]
        exact measurableSet_lt (by fun_prop) measurable_const
    · unfold Atmosphere.spectrum
      fun_prop
  · refine Eventually.of_forall fun p => ?_
    unfold left
    split_ifs with h
    · simp only [norm_zero]; positivity
    · have h := left_far circle kc hk p h
      set s := sqrt (p.1 ^ 2 + p.2 ^ 2) with hs
      have s2 : s ^ 2 = p.1 ^ 2 + p.2 ^ 2 := sq_sqrt (by positivity)
      have ks : kc ≤ s := le_sqrt_of_sq_le h
      have sp : 0 < s := by linarith
      have np : ‖p‖ ≤ s := by
        rw [Prod.norm_def, max_le_iff, Real.norm_eq_abs, Real.norm_eq_abs]
        exact ⟨abs_le_sqrt (by nlinarith [sq_nonneg p.2]), abs_le_sqrt (by nlinarith [sq_nonneg p.1])⟩
      have e : Atmosphere.spectrum a s = a.r0 ^ (-(5:ℝ)/3) * c0 * (s ^ 2 + 1 / a.L0 ^ 2) ^ (-(11:ℝ)/6) := by unfold Atmosphere.spectrum c0; ring
      rw [e, norm_mul, Real.norm_eq_abs, Real.norm_eq_abs, mul_assoc]
      refine mul_le_mul_of_nonneg_left ?_ (abs_nonneg _)
      have q : 0 < s ^ 2 + 1 / a.L0 ^ 2 := by positivity
      rw [abs_of_nonneg (rpow_nonneg q.le _)]
      have i1 : (s ^ 2 + 1 / a.L0 ^ 2) ^ (-(11:ℝ)/6) ≤ (s ^ 2) ^ (-(11:ℝ)/6) :=
        rpow_le_rpow_of_nonpos (by positivity) (by have : 0 ≤ 1 / a.L0 ^ 2 := by positivity
                                                   linarith) (by norm_num)
      have i2 : (s ^ 2) ^ (-(11:ℝ)/6) = s ^ (-((11:ℝ)/3)) := by
        rw [← rpow_natCast s 2, ← rpow_mul sp.le]; norm_num
      have i3 : (1 + ‖p‖) / (1 / kc + 1) ≤ s := by
        rw [div_le_iff₀ (by positivity)]
        have : 1 ≤ s * (1 / kc) := by rw [mul_one_div, le_div_iff₀ hk]; linarith
        linarith
      have n0 := norm_nonneg p
      have i4 : s ^ (-((11:ℝ)/3)) ≤ ((1 + ‖p‖) / (1 / kc + 1)) ^ (-((11:ℝ)/3)) := rpow_le_rpow_of_nonpos (by positivity) i3 (by norm_num)
      refine (i1.trans (i2.le.trans i4)).trans (le_of_eq ?_)
      rw [div_rpow (by positivity) (by positivity), rpow_neg (x := 1 / kc + 1) (by positivity), div_inv_eq_mul, mul_comm]

/-- On wide grids, the integral outside of the corrected area tends to its value on the whole plane. -/
theorem plane_limit (circle : Bool) (a : Atmosphere.Atm) (kc off : ℝ) (hk : 0 < kc) :
    Tendsto (fun K => outsideIntegral circle kc K off (Atmosphere.spectrum a)) atTop (𝓝 (∫ p, left circle kc (Atmosphere.spectrum a) p)) := by
  have cov : AECover (volume : Measure (ℝ × ℝ)) atTop (fun K : ℝ => Set.Ioc (-K + off) (K + off) ×ˢ Set.Ioc (-K + off) (K + off)) := by
    constructor
    · refine Eventually.of_forall fun p => ?_
      filter_upwards [eventually_gt_atTop (|p.1 - off| + |p.2 - off|)] with K hK
      have a1 := abs_le.1 (le_refl |p.1 - off|)
      have a2 := abs_le.1 (le_refl |p.2 - off|)
      have b1 := abs_nonneg (p.1 - off)
      have b2 := abs_nonneg (p.2 - off)
      exact ⟨⟨by linarith, by linarith⟩, ⟨by linarith, by linarith⟩⟩
    · exact fun K => measurableSet_Ioc.prod measurableSet_Ioc
  refine (cov.integral_tendsto_of_countably_generated (left_integrable circle a kc hk)).congr' ?_
  filter_upwards [eventually_ge_atTop 0] with K hK
  rw [Measure.volume_eq_prod, setIntegral_prod _ (by rw [← Measure.volume_eq_prod]; exact (left_integrable circle a kc hk).integrableOn), outsideIntegral]
  have inner : ∀ x : ℝ, ∫ y in Set.Ioc (-K + off) (K + off), left circle kc (Atmosphere.spectrum a) (x, y) =
      ∫ y in (-K)..K, left circle kc (Atmosphere.spectrum a) (x, y + off) := by
    intro x
    rw [intervalIntegral.integral_comp_add_right (fun y => left circle kc (Atmosphere.spectrum a) (x, y)), intervalIntegral.integral_of_le (by linarith)]
  simp only [inner]
  rw [← intervalIntegral.integral_of_le (by linarith),
    ← intervalIntegral.integral_comp_add_right (fun x => ∫ y in (-K)..K, left circle kc (Atmosphere.spectrum a) (x, y + off))]
  rfl

/-- Its value for a disc. -/
theorem wide_limit (a : Atmosphere.Atm) (kc off : ℝ) (hk : 0 < kc) :
    Tendsto (fun K => outsideIntegral true kc K off (Atmosphere.spectrum a)) atTop
      (𝓝 (a.r0 ^ (-(5:ℝ)/3) * c0 * (6 * π / 5) * (kc ^ 2 + 1 / a.L0 ^ 2) ^ (-(5:ℝ)/6))) := by
  rw [← left_spectrum a kc hk]
  exact plane_limit true a kc off hk

/-- The ratio of the two fitting errors for an infinite outer scale. -/
noncomputable def ratio : ℝ := sqrt (c0 * (6 * π / 5) * 2 ^ ((5:ℝ)/3) / 0.23)

theorem ratio_value : 1.08 < ratio ∧ ratio < 1.1 := by
  have h0 := abs_le.1 Turbulence.spectrum_constant
  have hc : c0 = Atmosphere.c1 * (Gamma (11/6) ^ 2 / (2 * π ^ ((11:ℝ)/3))) := by
    unfold c0 Atmosphere.c1; rfl
  rw [← hc] at h0
  have p1 := pi_gt_d4
  have p2 := pi_lt_d4
  have cube : ((2:ℝ) ^ ((5:ℝ)/3)) ^ 3 = 32 := by
    rw [← rpow_natCast, ← rpow_mul (by norm_num)]; norm_num
  have pos : (0:ℝ) < 2 ^ ((5:ℝ)/3) := by positivity
  have t1 : (3.17:ℝ) < 2 ^ ((5:ℝ)/3) := lt_of_pow_lt_pow_left₀ 3 pos.le (by rw [cube]; norm_num)
  have t2 : (2:ℝ) ^ ((5:ℝ)/3) < 3.18 := lt_of_pow_lt_pow_left₀ 3 (by norm_num) (by rw [cube]; norm_num)
  have c1 : 0.0227 ≤ c0 := by linarith [h0.1]
  have c2 : c0 ≤ 0.0231 := by linarith [h0.2]
  have u1 : 0.0855 ≤ c0 * (6 * π / 5) := by nlinarith
  have u2 : c0 * (6 * π / 5) ≤ 0.0871 := by nlinarith
  unfold ratio
  constructor
  · rw [lt_sqrt (by norm_num), lt_div_iff₀ (by norm_num)]
    nlinarith
  · rw [sqrt_lt' (by norm_num), div_lt_iff₀ (by norm_num)]
    nlinarith

/-- The root of the integral outside of the disc of a mirror of pitch `d`, and the formula `0.23 (d/r0)^(5/3)`. -/
theorem fitting_value (a : Atmosphere.Atm) (d : ℝ) (hd : 0 < d) (hr : 0 < a.r0) :
    sqrt (a.r0 ^ (-(5:ℝ)/3) * c0 * (6 * π / 5) * ((1 / (2 * d)) ^ 2 + 1 / a.L0 ^ 2) ^ (-(5:ℝ)/6)) =
    ratio * (1 + (2 * d / a.L0) ^ 2) ^ (-(5:ℝ)/12) * sqrt (0.23 * (d / a.r0) ^ ((5:ℝ)/3)) := by
  have e1 : (1 / (2 * d)) ^ 2 + 1 / a.L0 ^ 2 = (1 / (2 * d)) ^ 2 * (1 + (2 * d / a.L0) ^ 2) := by
    rw [mul_add, ← mul_pow, mul_one, one_div_mul_eq_div, div_div, div_pow, div_pow, mul_pow, mul_pow]
    congr 1
    by_cases h : a.L0 = 0
    · simp [h]
    · field_simp
  have hw : 0 < 1 + (2 * d / a.L0) ^ 2 := by positivity
  have e2 : ((1 / (2 * d)) ^ 2 : ℝ) ^ (-(5:ℝ)/6) = 2 ^ ((5:ℝ)/3) * d ^ ((5:ℝ)/3) := by
    rw [← mul_rpow (by norm_num) hd.le, ← rpow_natCast, ← rpow_mul (by positivity), one_div, inv_rpow (by positivity), ← rpow_neg (by positivity)]
    norm_num
  have e3 : (1 + (2 * d / a.L0) ^ 2) ^ (-(5:ℝ)/12) = sqrt ((1 + (2 * d / a.L0) ^ 2) ^ (-(5:ℝ)/6)) := by
    rw [sqrt_eq_rpow, ← rpow_mul hw.le]; norm_num
  have c0p : 0 ≤ c0 := by unfold c0; positivity
  rw [ratio, e3, ← sqrt_mul (by positivity), ← sqrt_mul (by positivity), e1, mul_rpow (by positivity) hw.le, e2, div_rpow hd.le hr.le,
    show (-(5:ℝ)/3) = -((5:ℝ)/3) by norm_num, rpow_neg hr.le]
  congr 1
  field_simp

/-- Spec: fitting errors `y h` reported by runs of the same observation, with a corrected area (round or square) set by the pitch `d` of the mirror, on
grids of step `h` whose half-width tends to `K`. -/
structure FittingRuns (circle : Bool) (a : Atmosphere.Atm) (d off K : ℝ) (y : ℝ → ℝ) : Prop where
  exists_run : ∃ (N : ℝ → ℕ) (s : ℕ) (r : ℝ → FRun.Run (ℕ × ℕ)) (rep : ℝ → FRun.Report),
    Tendsto (fun h => (N h : ℝ) * h) (𝓝[>] 0) (𝓝 (2 * K)) ∧
    ∀ h, (r h).closed = true ∧ (r h).u = 2 * (1 / (2 * d)) / Freq.resAO [1 / (2 * d)] h * (a.wvl * 1e9 / 2 / π) ∧
      (r h).sumAll (r h).fit = (∑ i ∈ Finset.range (N h), ∑ j ∈ Finset.range (N h),
        Freq.fittingPsd (Atmosphere.spectrum a) circle (1 / (2 * d)) (Freq.freqAt (N h) h off i) (Freq.freqAt (N h) h off j)) ∧
      (r h).breakdown s = .ok (some (rep h)) ∧ (rep h).fit = some (y h)

theorem fitting_run_limit (circle : Bool) (a : Atmosphere.Atm) (d off K : ℝ) (y : ℝ → ℝ) (hd : 0 < d) (hK : 0 < K) (h : FittingRuns circle a d off K y) :
    Tendsto y (𝓝[>] 0) (𝓝 (sqrt (outsideIntegral circle (1 / (2 * d)) K off (Atmosphere.spectrum a)) * (a.wvl * 1e9 / 2 / π))) := by
  obtain ⟨N, s, r, rep, hN, H⟩ := h.exists_run
  have hk : 0 < 1 / (2 * d) := by positivity
  refine rms_limit (1 / (2 * d)) a.wvl hk _ y _ _ (fun h => (H h).2.1)
    (outside_limit circle (1 / (2 * d)) K off _ _ hk hK (spectrum_meets a _ hk).1 (spectrum_meets a _ hk).2 N hN) fun h => ?_
  obtain ⟨h1, h2, h3, h4, h5⟩ := H h
  unfold FRun.Run.breakdown at h4
  rw [if_pos h1] at h4
  cases e : (r h).wfeMcao with
  | error x => rw [e] at h4; exact absurd h4 (by simp [Bind.bind, Except.bind])
  | ok mc =>
    rw [e] at h4
    simp only [Bind.bind, Except.bind, Pure.pure, Except.pure, Except.ok.injEq, Option.some.injEq] at h4
    rw [← h3, ← h5, ← h4]

/-- C475 (partial): on fine and wide grids the fitting error of the Fourier model with a round corrected area is that of the analytic
breakdown times `A (1 + (2 d / L0)²)^(-5/12)`, where `A` is a constant between 1.08 and 1.1. -/
theorem fitting_ratio_partial : ∃ A : ℝ, 1.08 < A ∧ A < 1.1 ∧
    ∀ (S : Breakdown.Sys) (e : Breakdown.Wfe) (off f : ℝ) (w : Noise.Wfs), 0 < S.atm.r0 → 0 < S.pitch → 0 < S.atm.wvl →
      S.wfs.wfs.head? = some w → 0 ≤ w.dsub → Breakdown.errorBreakdown S = .ok e → e.fitting = some f →
      ∀ ε, 0 < ε → ∃ K₀, ∀ K, K₀ ≤ K → 0 < K → ∀ y, FittingRuns true S.atm S.pitch off K y →
        ∀ᶠ h in 𝓝[>] 0, |y h - A * (1 + (2 * S.pitch / S.atm.L0) ^ 2) ^ (-(5:ℝ)/12) * f| < ε := by
  refine ⟨ratio, ratio_value.1, ratio_value.2, ?_⟩
  intro S e off f w hr hp hw hhead hds he hf ε hε
  have fe := (Breakdown.breakdown_fitting_aliasing S hr hp.le w hhead hds e he).1
  rw [hf] at fe
  have fe := Option.some.inj fe
  have hk : 0 < 1 / (2 * S.pitch) := by positivity
  have lim := (continuous_sqrt.tendsto _).comp (wide_limit S.atm (1 / (2 * S.pitch)) off hk) |>.mul_const (S.atm.wvl * 1e9 / 2 / π)
  have val : sqrt (S.atm.r0 ^ (-(5:ℝ)/3) * c0 * (6 * π / 5) * ((1 / (2 * S.pitch)) ^ 2 + 1 / S.atm.L0 ^ 2) ^ (-(5:ℝ)/6)) * (S.atm.wvl * 1e9 / 2 / π) =
      ratio * (1 + (2 * S.pitch / S.atm.L0) ^ 2) ^ (-(5:ℝ)/12) * f := by
    rw [fitting_value S.atm S.pitch hp hr, fe]
    ring
  rw [val] at lim
  obtain ⟨K₀, hK⟩ := eventually_atTop.1 (lim.eventually (Metric.ball_mem_nhds _ hε))
  refine ⟨K₀, fun K h1 h2 y hy => ?_⟩
  have b := hK K h1
  have := (fitting_run_limit true S.atm S.pitch off K y hp h2 hy).eventually (Metric.isOpen_ball.mem_nhds b)
  filter_upwards [this] with h hh
  rwa [dist_eq] at hh

/-- C475 (violation): when the outer scale is at least ten times the pitch, the Fourier model reports on fine and wide grids a fitting error
more than 5 % above that of the analytic breakdown of the same system. -/
theorem fitting_differs_violation (S : Breakdown.Sys) (e : Breakdown.Wfe) (off f : ℝ) (w : Noise.Wfs) (hr : 0 < S.atm.r0) (hp : 0 < S.pitch)
    (hw : 0 < S.atm.wvl) (hhead : S.wfs.wfs.head? = some w) (hds : 0 ≤ w.dsub) (he : Breakdown.errorBreakdown S = .ok e)
    (hf : e.fitting = some f) (hL : 10 * S.pitch ≤ S.atm.L0) :
    ∃ K₀, ∀ K, K₀ ≤ K → 0 < K → ∀ y, FittingRuns true S.atm S.pitch off K y → ∀ᶠ h in 𝓝[>] 0, 1.05 * f < y h := by
  obtain ⟨A, a1, a2, H⟩ := fitting_ratio_partial
  have fe := (Breakdown.breakdown_fitting_aliasing S hr hp.le w hhead hds e he).1
  rw [hf] at fe
  have fe := Option.some.inj fe
  have f0 : 0 < f := by
    rw [fe]
    have : 0 < sqrt (0.23 * (S.pitch / S.atm.r0) ^ ((5:ℝ)/3)) := sqrt_pos.2 (by positivity)
    have := pi_pos
    positivity
  have L0 : 0 < S.atm.L0 := by linarith
  have w0 : (2 * S.pitch / S.atm.L0) ^ 2 ≤ 0.04 := by
    have : 2 * S.pitch / S.atm.L0 ≤ 0.2 := by rw [div_le_iff₀ L0]; linarith
    have h0 : 0 ≤ 2 * S.pitch / S.atm.L0 := by positivity
    nlinarith
  have w1 : (0.98:ℝ) ≤ (1 + (2 * S.pitch / S.atm.L0) ^ 2) ^ (-(5:ℝ)/12) := by
    have b : (1.04:ℝ) ^ (-(5:ℝ)/12) ≤ (1 + (2 * S.pitch / S.atm.L0) ^ 2) ^ (-(5:ℝ)/12) :=
      rpow_le_rpow_of_nonpos (by positivity) (by linarith) (by norm_num)
    have c : (0.98:ℝ) ≤ (1.04:ℝ) ^ (-(5:ℝ)/12) := by
      have q : ((1.04:ℝ) ^ (-(5:ℝ)/12)) ^ 12 = (1.04 ^ 5)⁻¹ := by
        rw [← rpow_natCast, ← rpow_mul (by norm_num), show (-(5:ℝ)/12 * (12:ℕ)) = -(5:ℕ) by norm_num, rpow_neg (by norm_num), rpow_natCast]
      exact le_of_pow_le_pow_left₀ (n := 12) (by norm_num) (by positivity) (by rw [q]; norm_num)
    linarith
  have big : 1.058 * f ≤ A * (1 + (2 * S.pitch / S.atm.L0) ^ 2) ^ (-(5:ℝ)/12) * f := by
    refine mul_le_mul_of_nonneg_right ?_ f0.le
    nlinarith
  obtain ⟨K₀, hK⟩ := H S e off f w hr hp hw hhead hds he hf (0.005 * f) (by positivity)
  refine ⟨K₀, fun K h1 h2 y hy => ?_⟩
  filter_upwards [hK K h1 h2 y hy] with h hh
  have := (abs_lt.1 hh).1
  linarith

/-! ### Square areas -/

/-- The larger of the two coordinates of a direction. -/
noncomputable def M (θ : ℝ) : ℝ := max |cos θ| |sin θ|

theorem M_sq (θ : ℝ) : M θ ^ 2 = (1 + |cos (2 * θ)|) / 2 := by
  have h := sin_sq_add_cos_sq θ
  have c := cos_two_mul θ
  have h1 := sq_abs (cos θ)
  have h2 := sq_abs (sin θ)
  have n1 := abs_nonneg (cos θ)
  have n2 := abs_nonneg (sin θ)
  unfold M
  rcases le_total |sin θ| |cos θ| with g | g
  · rw [max_eq_left g, sq_abs, abs_of_nonneg (by nlinarith)]
    linarith
  · rw [max_eq_right g, sq_abs, abs_of_nonpos (by nlinarith)]
    linarith

theorem M_range (θ : ℝ) : 0 < M θ ∧ M θ ≤ 1 := by
  have h := M_sq θ
  have n : 0 ≤ M θ := (abs_nonneg _).trans (le_max_left _ _)
  have a := abs_nonneg (cos (2 * θ))
  have b := abs_cos_le_one (2 * θ)
  constructor
  · rcases n.lt_or_eq with g | g
    · exact g
    · rw [← g] at h; nlinarith
  · nlinarith

theorem M_continuous : Continuous M := by unfold M; fun_prop

theorem integral_M_sq : ∫ θ in (-π)..π, M θ ^ 2 = π + 2 := by
  have per : Function.Periodic (fun θ : ℝ => |cos (2 * θ)|) (π / 2) := by
    intro x
    simp only
    rw [show 2 * (x + π / 2) = 2 * x + π by ring, cos_add_pi, abs_neg]
  have cont : Continuous fun θ : ℝ => |cos (2 * θ)| := by fun_prop
  have one : ∫ θ in (-(π/4))..(π/4), |cos (2 * θ)| = 1 := by
    have e : ∫ θ in (-(π/4))..(π/4), |cos (2 * θ)| = ∫ θ in (-(π/4))..(π/4), cos (2 * θ) := by
      refine intervalIntegral.integral_congr fun θ hθ => ?_
      rw [Set.uIcc_of_le (by linarith [pi_pos])] at hθ
      exact abs_of_nonneg (cos_nonneg_of_mem_Icc ⟨by linarith [hθ.1], by linarith [hθ.2]⟩)
    rw [e, intervalIntegral.integral_comp_mul_left (fun x => cos x) (by norm_num : (2:ℝ) ≠ 0), integral_cos]
    rw [show 2 * (π / 4) = π / 2 by ring, show 2 * -(π / 4) = -(π / 2) by ring, sin_neg, sin_pi_div_two]
    norm_num
  have four : ∫ θ in (-π)..π, |cos (2 * θ)| = 4 := by
    have z := per.intervalIntegral_add_zsmul_eq 4 (-π) (fun _ _ => cont.intervalIntegrable _ _)
    have s := per.intervalIntegral_add_eq (-π) (-(π/4))
    rw [show -π + (4:ℤ) • (π / 2) = π by simp; ring] at z
    rw [show -(π/4) + π / 2 = π / 4 by ring, one] at s
    rw [z, s]; norm_num
  simp only [M_sq]
  rw [intervalIntegral.integral_div, intervalIntegral.integral_add (continuous_const.intervalIntegrable _ _) (cont.intervalIntegrable _ _), four,
    intervalIntegral.integral_const]
  simp
  ring

theorem radial_integrable (k b : ℝ) (hk : 0 < k) (hb : 0 ≤ b) : IntegrableOn (fun r : ℝ => r * (r ^ 2 + b) ^ (-(11:ℝ)/6)) (Set.Ioi k) := by
  by_contra h
  have t := tail k b hk hb
  rw [integral_undef h] at t
  have : 0 < 3 / 5 * (k ^ 2 + b) ^ (-(5:ℝ)/6) := by positivity
  linarith

/-- What is left outside of a square, by directions. -/
theorem left_square (a : Atmosphere.Atm) (kc : ℝ) (hk : 0 < kc) :
    ∫ p, left false kc (Atmosphere.spectrum a) p =
      a.r0 ^ (-(5:ℝ)/3) * c0 * ∫ θ in (-π)..π, 3 / 5 * ((kc / M θ) ^ 2 + 1 / a.L0 ^ 2) ^ (-(5:ℝ)/6) := by
  set b := 1 / a.L0 ^ 2 with hb
  have b0 : 0 ≤ b := by positivity
  set F : ℝ → ℝ := fun r => r * (r ^ 2 + b) ^ (-(11:ℝ)/6) with hF
  rw [← integral_comp_polarCoord_symm]
  have tgt : polarCoord.target = Set.Ioi (0:ℝ) ×ˢ Set.Ioo (-π) π := rfl
  rw [tgt]
  have e : Set.EqOn (fun p : ℝ × ℝ => p.1 • left false kc (Atmosphere.spectrum a) (polarCoord.symm p))
      (fun p => a.r0 ^ (-(5:ℝ)/3) * c0 * (if kc ≤ p.1 * M p.2 then F p.1 else 0)) (Set.Ioi (0:ℝ) ×ˢ Set.Ioo (-π) π) := by
    rintro ⟨r, θ⟩ ⟨hr, -⟩
    have hr : 0 < r := hr
    have q : (r * cos θ) ^ 2 + (r * sin θ) ^ 2 = r ^ 2 := by
      have := sin_sq_add_cos_sq θ
      linear_combination r ^ 2 * this
    simp only [polarCoord_symm_apply, left, q, smul_eq_mul, sqrt_sq hr.le]
    have iff : Freq.mskIn false kc (r * cos θ) (r * sin θ) ↔ ¬ kc ≤ r * M θ := by
      simp only [Freq.mskIn, Bool.false_eq_true, if_false, abs_mul, abs_of_pos hr, not_le, M]
      rw [mul_max_of_nonneg _ _ hr.le, max_lt_iff]
    by_cases h : kc ≤ r * M θ
    · rw [if_neg (fun c => (iff.1 c) h), if_pos h]
      simp only [hF, Atmosphere.spectrum, c0, hb]
      ring
    · rw [if_pos (iff.2 h), if_neg h]; ring
  rw [setIntegral_congr_fun (measurableSet_Ioi.prod measurableSet_Ioo) e, integral_const_mul]
  congr 1
  have meas : Measurable fun p : ℝ × ℝ => if kc ≤ p.1 * M p.2 then F p.1 else 0 := by
    refine Measurable.ite (measurableSet_le measurable_const ?_) ?_ measurable_const
    · exact measurable_fst.mul (M_continuous.measurable.comp measurable_snd)
    · simp only [hF]; fun_prop
  have integ : IntegrableOn (fun p : ℝ × ℝ => if kc ≤ p.1 * M p.2 then F p.1 else 0) (Set.Ioi (0:ℝ) ×ˢ Set.Ioo (-π) π) (volume.prod volume) := by
    have g : Integrable (fun p : ℝ × ℝ => (Set.Ici kc).indicator F p.1 * (1:ℝ)) ((volume.restrict (Set.Ioi 0)).prod (volume.restrict (Set.Ioo (-π) π))) := by
      refine Integrable.mul_prod (f := (Set.Ici kc).indicator F) (g := fun _ => (1:ℝ)) ?_ (integrable_const _)
      refine Integrable.mono_measure ?_ Measure.restrict_le_self
      rw [integrable_indicator_iff measurableSet_Ici, integrableOn_Ici_iff_integrableOn_Ioi]
      exact radial_integrable kc b hk b0
    rw [Measure.prod_restrict] at g
    refine Integrable.mono' g meas.aestronglyMeasurable ?_
    rw [ae_restrict_iff' (measurableSet_Ioi.prod measurableSet_Ioo)]
    refine Eventually.of_forall ?_
    rintro ⟨r, θ⟩ ⟨hr, -⟩
    have hr : 0 < r := hr
    have F0 : 0 ≤ F r := by simp only [hF]; positivity
    simp only [mul_one]
    split_ifs with h
    · have : kc ≤ r := by nlinarith [(M_range θ).2]
      rw [Set.indicator_of_mem (show r ∈ Set.Ici kc from this), Real.norm_eq_abs, abs_of_nonneg F0]
    · rw [norm_zero]
      by_cases c : r ∈ Set.Ici kc
      · rw [Set.indicator_of_mem c]; exact F0
      · rw [Set.indicator_of_notMem c]
  rw [IntegrableOn, ← Measure.prod_restrict] at integ
  rw [Measure.volume_eq_prod, ← Measure.prod_restrict, integral_prod_symm _ integ, intervalIntegral.integral_of_le (by linarith [pi_pos]),
    integral_Ioc_eq_integral_Ioo]
  refine setIntegral_congr_fun measurableSet_Ioo fun θ _ => ?_
  have m0 := (M_range θ).1
  have kp : 0 < kc / M θ := by positivity
  have : (fun r : ℝ => if kc ≤ r * M θ then F r else 0) = (Set.Ici (kc / M θ)).indicator F := by
    funext r
    by_cases h : kc ≤ r * M θ
    · rw [if_pos h, Set.indicator_of_mem (show r ∈ Set.Ici (kc / M θ) from (div_le_iff₀ m0).2 h)]
    · rw [if_neg h, Set.indicator_of_notMem (show r ∉ Set.Ici (kc / M θ) from fun c => h ((div_le_iff₀ m0).1 c))]
  simp only [this]
  rw [setIntegral_indicator measurableSet_Ici, show Set.Ioi (0:ℝ) ∩ Set.Ici (kc / M θ) = Set.Ici (kc / M θ) from
    Set.inter_eq_right.2 fun x (hx : kc / M θ ≤ x) => lt_of_lt_of_le kp hx, integral_Ici_eq_integral_Ioi]
  exact tail _ b kp b0

/-- Bounds of the integral by directions. -/
theorem square_bounds (q : ℝ) (hq : 0 ≤ q) :
    (π + 2) * (1 + q) ^ (-(5:ℝ)/6) ≤ ∫ θ in (-π)..π, M θ ^ ((5:ℝ)/3) * (1 + q * M θ ^ 2) ^ (-(5:ℝ)/6) ∧
    ∫ θ in (-π)..π, M θ ^ ((5:ℝ)/3) * (1 + q * M θ ^ 2) ^ (-(5:ℝ)/6) ≤ ((π + 2) * (5 / 9 + 2) + 9 / 10 * π) / 3 := by
  have pos : ∀ θ, 0 < 1 + q * M θ ^ 2 := fun θ => by positivity
  have cont : Continuous fun θ => M θ ^ ((5:ℝ)/3) * (1 + q * M θ ^ 2) ^ (-(5:ℝ)/6) := by
    refine (M_continuous.rpow_const fun θ => Or.inr (by norm_num)).mul ?_
    exact Continuous.rpow_const (by have := M_continuous; fun_prop) fun θ => Or.inl (pos θ).ne'
  have c2 : Continuous fun θ => M θ ^ 2 := M_continuous.pow 2
  have le : (-π) ≤ π := by linarith [pi_pos]
  constructor
  · rw [← integral_M_sq, ← intervalIntegral.integral_mul_const]
    refine intervalIntegral.integral_mono_on le ((c2.mul continuous_const).intervalIntegrable _ _) (cont.intervalIntegrable _ _) fun θ _ => ?_
    obtain ⟨m0, m1⟩ := M_range θ
    refine mul_le_mul ?_ ?_ (by positivity) (by positivity)
    · rw [← rpow_natCast]
      exact rpow_le_rpow_of_exponent_ge m0 m1 (by norm_num)
    · exact rpow_le_rpow_of_nonpos (pos θ) (by nlinarith [mul_le_mul_of_nonneg_left (pow_le_one₀ m0.le m1 : M θ ^ 2 ≤ 1) hq]) (by norm_num)
  · have up : ∀ θ, M θ ^ ((5:ℝ)/3) * (1 + q * M θ ^ 2) ^ (-(5:ℝ)/6) ≤ M θ ^ 2 * ((5 / 9 + 2) / 3) + 3 / 20 := by
      intro θ
      obtain ⟨m0, m1⟩ := M_range θ
      have a1 : (1 + q * M θ ^ 2) ^ (-(5:ℝ)/6) ≤ 1 := rpow_le_one_of_one_le_of_nonpos (by nlinarith [mul_nonneg hq (sq_nonneg (M θ))]) (by norm_num)
      have a2 : M θ ^ ((5:ℝ)/3) ≤ 1 / 3 * M θ + 2 / 3 * M θ ^ 2 := by
        have g := Real.geom_mean_le_arith_mean2_weighted (w₁ := 1/3) (w₂ := 2/3) (p₁ := M θ) (p₂ := M θ ^ 2) (by norm_num) (by norm_num) m0.le (by positivity) (by norm_num)
        refine le_trans (le_of_eq ?_) g
        rw [← rpow_natCast (M θ) 2, ← rpow_mul m0.le, ← rpow_add m0]
        norm_num
      have a3 : M θ ≤ (M θ ^ 2 + 81 / 100) * (5 / 9) := by
        nlinarith [sq_nonneg (M θ - 9 / 10)]
      have p5 : 0 ≤ M θ ^ ((5:ℝ)/3) := by positivity
      calc _ ≤ M θ ^ ((5:ℝ)/3) * 1 := mul_le_mul_of_nonneg_left a1 p5
        _ ≤ _ := by rw [mul_one]; refine a2.trans ?_; linarith
    have c3 : Continuous fun θ => M θ ^ 2 * ((5 / 9 + 2) / 3) := c2.mul continuous_const
    have c4 : Continuous fun θ => M θ ^ 2 * ((5 / 9 + 2) / 3) + 3 / 20 := c3.add continuous_const
    refine (intervalIntegral.integral_mono_on le (cont.intervalIntegrable _ _) (c4.intervalIntegrable _ _) fun θ _ => up θ).trans ?_
    rw [intervalIntegral.integral_add (c3.intervalIntegrable _ _) (continuous_const.intervalIntegrable _ _), intervalIntegral.integral_mul_const, integral_M_sq,
      intervalIntegral.integral_const, smul_eq_mul]
    linarith

/-- The root of the integral outside of the square of a mirror of pitch `d`, and the formula `0.23 (d/r0)^(5/3)`. -/
theorem square_value (a : Atmosphere.Atm) (d : ℝ) (hd : 0 < d) (hr : 0 < a.r0) :
    0.98 * (1 + (2 * d / a.L0) ^ 2) ^ (-(5:ℝ)/12) * sqrt (0.23 * (d / a.r0) ^ ((5:ℝ)/3)) <
      sqrt (∫ p, left false (1 / (2 * d)) (Atmosphere.spectrum a) p) ∧
    sqrt (∫ p, left false (1 / (2 * d)) (Atmosphere.spectrum a) p) < 1.01 * sqrt (0.23 * (d / a.r0) ^ ((5:ℝ)/3)) := by
  set q := (2 * d / a.L0) ^ 2 with hq
  have q0 : 0 ≤ q := sq_nonneg _
  have hk : 0 < 1 / (2 * d) := by positivity
  have point : ∀ θ, 3 / 5 * ((1 / (2 * d) / M θ) ^ 2 + 1 / a.L0 ^ 2) ^ (-(5:ℝ)/6) =
      3 / 5 * (2 ^ ((5:ℝ)/3) * d ^ ((5:ℝ)/3)) * (M θ ^ ((5:ℝ)/3) * (1 + q * M θ ^ 2) ^ (-(5:ℝ)/6)) := by
    intro θ
    have m0 := (M_range θ).1
    have e1 : (1 / (2 * d) / M θ) ^ 2 + 1 / a.L0 ^ 2 = (1 / (2 * d)) ^ 2 * ((1 / M θ) ^ 2 * (1 + q * M θ ^ 2)) := by
      by_cases h : a.L0 = 0
      · rw [hq, h]; simp; field_simp
      · rw [hq]; field_simp
    have pw : ∀ x : ℝ, 0 < x → ((1 / x) ^ 2 : ℝ) ^ (-(5:ℝ)/6) = x ^ ((5:ℝ)/3) := by
      intro x hx
      rw [← rpow_natCast, ← rpow_mul (by positivity), one_div, inv_rpow hx.le, ← rpow_neg hx.le]
      norm_num
    rw [e1, mul_rpow (by positivity) (by positivity), mul_rpow (by positivity) (by positivity), pw _ (by positivity), pw _ m0, mul_rpow (by norm_num) hd.le]
    ring
  rw [left_square a _ hk]
  simp only [point]
  rw [intervalIntegral.integral_const_mul]
  obtain ⟨b1, b2⟩ := square_bounds q q0
  set I := ∫ θ in (-π)..π, M θ ^ ((5:ℝ)/3) * (1 + q * M θ ^ 2) ^ (-(5:ℝ)/6) with hI
  have hc : c0 = Atmosphere.c1 * (Gamma (11/6) ^ 2 / (2 * π ^ ((11:ℝ)/3))) := by
    unfold c0 Atmosphere.c1; rfl
  have h0 := abs_le.1 Turbulence.spectrum_constant
  rw [← hc] at h0
  have p1 := pi_gt_d4
  have p2 := pi_lt_d4
  have cube : ((2:ℝ) ^ ((5:ℝ)/3)) ^ 3 = 32 := by
    rw [← rpow_natCast, ← rpow_mul (by norm_num)]; norm_num
  have pos : (0:ℝ) < 2 ^ ((5:ℝ)/3) := by positivity
  have t1 : (3.17:ℝ) < 2 ^ ((5:ℝ)/3) := lt_of_pow_lt_pow_left₀ 3 pos.le (by rw [cube]; norm_num)
  have t2 : (2:ℝ) ^ ((5:ℝ)/3) < 3.175 := lt_of_pow_lt_pow_left₀ 3 (by norm_num) (by rw [cube]; norm_num)
  have l1 : 0.0431 ≤ c0 * (3 / 5 * 2 ^ ((5:ℝ)/3)) := by nlinarith [h0.1]
  have l2 : c0 * (3 / 5 * 2 ^ ((5:ℝ)/3)) ≤ 0.04401 := by nlinarith [h0.1, h0.2]
  have w0 : 0 < (1 + q) ^ (-(5:ℝ)/6) := by positivity
  set Y := 0.23 * (d / a.r0) ^ ((5:ℝ)/3) with hY
  have Y0 : 0 < Y := by positivity
  have val : a.r0 ^ (-(5:ℝ)/3) * c0 * (3 / 5 * (2 ^ ((5:ℝ)/3) * d ^ ((5:ℝ)/3)) * I) = (c0 * (3 / 5 * 2 ^ ((5:ℝ)/3)) * I / 0.23) * Y := by
    rw [hY, div_rpow hd.le hr.le, show (-(5:ℝ)/3) = -((5:ℝ)/3) by norm_num, rpow_neg hr.le]
    field_simp
  rw [val]
  clear_value Y
  have I0 : 0 < I := lt_of_lt_of_le (by positivity) b1
  constructor
  · have e : 0.98 * (1 + q) ^ (-(5:ℝ)/12) * sqrt Y = sqrt (0.98 ^ 2 * (1 + q) ^ (-(5:ℝ)/6) * Y) := by
      rw [sqrt_mul (by positivity), sqrt_mul (by positivity), sqrt_sq (by norm_num)]
      congr 2
      rw [sqrt_eq_rpow, ← rpow_mul (by positivity)]
      norm_num
    rw [e]
    refine sqrt_lt_sqrt (by positivity) (mul_lt_mul_of_pos_right ?_ Y0)
    rw [lt_div_iff₀ (by norm_num)]
    have s1 : 5.1415 * (1 + q) ^ (-(5:ℝ)/6) ≤ I := le_trans (mul_le_mul_of_nonneg_right (by linarith) w0.le) b1
    calc _ < 0.0431 * (5.1415 * (1 + q) ^ (-(5:ℝ)/6)) := by nlinarith
      _ ≤ c0 * (3 / 5 * 2 ^ ((5:ℝ)/3)) * I := mul_le_mul l1 s1 (by positivity) (by linarith)
  · have e : 1.01 * sqrt Y = sqrt (1.01 ^ 2 * Y) := by
      rw [sqrt_mul (by positivity), sqrt_sq (by norm_num)]
    rw [e]
    refine sqrt_lt_sqrt (by positivity) (mul_lt_mul_of_pos_right ?_ Y0)
    rw [div_lt_iff₀ (by norm_num)]
    have s1 : I ≤ 5.323 := b2.trans (by rw [div_le_iff₀ (by norm_num)]; nlinarith)
    calc c0 * (3 / 5 * 2 ^ ((5:ℝ)/3)) * I ≤ 0.04401 * 5.323 := mul_le_mul l2 s1 I0.le (by norm_num)
      _ < _ := by norm_num

/-- C475 (partial): with a square corrected area, on fine and wide grids, the fitting error of the Fourier model is that of the analytic
breakdown within 2 % when the outer scale is large, and never more than 1 % above it. -/
theorem fitting_square_partial (S : Breakdown.Sys) (e : Breakdown.Wfe) (off f : ℝ) (w : Noise.Wfs) (hr : 0 < S.atm.r0) (hp : 0 < S.pitch)
    (hw : 0 < S.atm.wvl) (hhead : S.wfs.wfs.head? = some w) (hds : 0 ≤ w.dsub) (he : Breakdown.errorBreakdown S = .ok e)
    (hf : e.fitting = some f) :
    ∃ K₀, ∀ K, K₀ ≤ K → 0 < K → ∀ y, FittingRuns false S.atm S.pitch off K y →
      ∀ᶠ h in 𝓝[>] 0, 0.98 * (1 + (2 * S.pitch / S.atm.L0) ^ 2) ^ (-(5:ℝ)/12) * f < y h ∧ y h < 1.01 * f := by
  have fe := (Breakdown.breakdown_fitting_aliasing S hr hp.le w hhead hds e he).1
  rw [hf] at fe
  have fe := Option.some.inj fe
  have hk : 0 < 1 / (2 * S.pitch) := by positivity
  have u0 : 0 < S.atm.wvl * 1e9 / 2 / π := by have := pi_pos; positivity
  have ff : f = sqrt (0.23 * (S.pitch / S.atm.r0) ^ ((5:ℝ)/3)) * (S.atm.wvl * 1e9 / 2 / π) := by rw [fe]; ring
  obtain ⟨v1, v2⟩ := square_value S.atm S.pitch hp hr
  have lim := (continuous_sqrt.tendsto _).comp (plane_limit false S.atm (1 / (2 * S.pitch)) off hk) |>.mul_const (S.atm.wvl * 1e9 / 2 / π)
  have lo := mul_lt_mul_of_pos_right v1 u0
  have hi := mul_lt_mul_of_pos_right v2 u0
  rw [mul_assoc, ← ff] at lo hi
  obtain ⟨K₀, hK⟩ := eventually_atTop.1 (lim.eventually (Ioo_mem_nhds lo hi))
  refine ⟨K₀, fun K h1 h2 y hy => ?_⟩
  exact (fitting_run_limit false S.atm S.pitch off K y hp h2 hy).eventually (Ioo_mem_nhds (hK K h1).1 (hK K h1).2)

/-! ### A case that meets the hypotheses -/

/-- A run with no other error, on a grid of half-width `K`. -/
noncomputable def turbRun (circle : Bool) (a : Atmosphere.Atm) (d K h : ℝ) : FRun.Run (ℕ × ℕ) where
  grid := Finset.range (Freq.resAO [K] h) ×ˢ Finset.range (Freq.resAO [K] h)
  block := fun _ => false
  noise := fun _ _ => 0
  aliasing := fun _ => 0
  diffRef := fun _ _ => 0
  chrom := fun _ _ => 0
  st := fun _ _ => 0
  cone := fun _ => 0
  mcao := fun _ _ _ => 0
  fit := fun p => Freq.fittingPsd (Atmosphere.spectrum a) circle (1 / (2 * d)) (Freq.freqAt (Freq.resAO [K] h) h 0 p.1) (Freq.freqAt (Freq.resAO [K] h) h 0 p.2)
  vib := fun _ => 0
  tilt := fun _ => 1
  extra := fun _ _ => 0
  u := 2 * (1 / (2 * d)) / Freq.resAO [1 / (2 * d)] h * (a.wvl * 1e9 / 2 / π)
  nGs := 1
  height := 0
  addMcao := false
  tiltOn := false
  wind := false
  opd := none
  D := 8
  spot := (0, 0)
  extraNm := 0
  wvlRef := a.wvl
  closed := true

theorem turbRun_meets (circle : Bool) (a : Atmosphere.Atm) (d K : ℝ) (ha : 0 ≤ a.r0) (hK : 0 < K) : ∃ y, FittingRuns circle a d 0 K y := by
  have e : ∀ h, ∃ p, (turbRun circle a d K h).breakdown 0 = .ok (some p) ∧ ∃ y, p.fit = some y := by
    intro h
    refine ⟨_, rfl, ?_⟩
    refine ⟨sqrt ((turbRun circle a d K h).sumAll (turbRun circle a d K h).fit) * (turbRun circle a d K h).u, ?_⟩
    have n0 : 0 ≤ (turbRun circle a d K h).sumAll (turbRun circle a d K h).fit := by
      refine Finset.sum_nonneg fun p _ => ?_
      simp only [turbRun, Freq.fittingPsd]
      split_ifs
      · unfold Atmosphere.spectrum
        have := pi_pos
        have : 0 < Gamma (6/5) := Gamma_pos_of_pos (by norm_num)
        have : 0 < Gamma (11/6) := Gamma_pos_of_pos (by norm_num)
        positivity
      · exact le_rfl
    simp only [FRun.rms, Breakdown.sqrtO]
    rw [if_neg (not_lt.2 n0)]
    rfl
  choose rep h1 h2 using e
  choose y hy using h2
  exact ⟨y, ⟨Freq.resAO [K], 0, turbRun circle a d K, rep, resAO_width K hK, fun h => ⟨rfl, rfl, by
    simp only [FRun.Run.sumAll, turbRun, Finset.sum_product], h1 h, hy h⟩⟩⟩

/-- The hypotheses of the theorems above are met by an 8 m telescope with a pitch of 20 cm and an outer scale of 25 m. -/
example : ∃ (e : Breakdown.Wfe) (f K₀ : ℝ), Breakdown.errorBreakdown Breakdown.sys1 = .ok e ∧ e.fitting = some f ∧
    ∀ K, K₀ ≤ K → 0 < K → ∃ y, FittingRuns true Breakdown.sys1.atm Breakdown.sys1.pitch 0 K y ∧ ∀ᶠ h in 𝓝[>] 0, 1.05 * f < y h := by
  obtain ⟨e, T, h, hT⟩ := Breakdown.sys1_ok Breakdown.sys1.pitch Breakdown.sys1_physical.pitch
  have hd : (0:ℝ) ≤ Noise.wfs1.dsub := by norm_num [Noise.wfs1]
  obtain ⟨h1, h2⟩ := Breakdown.breakdown_fitting_aliasing Breakdown.sys1 Breakdown.sys1_physical.r0 Breakdown.sys1_physical.pitch Noise.wfs1 rfl hd e h
  obtain ⟨K₀, hK⟩ := fitting_differs_violation Breakdown.sys1 e 0 _ Noise.wfs1 Breakdown.sys1_physical.r0 (by norm_num [Breakdown.sys1])
    (by norm_num [Breakdown.sys1, Atmosphere.mk]) rfl hd h h1 (by norm_num [Breakdown.sys1, Atmosphere.mk])
  refine ⟨e, _, K₀, h, h1, fun K a b => ?_⟩
  obtain ⟨y, hy⟩ := turbRun_meets true Breakdown.sys1.atm Breakdown.sys1.pitch K Breakdown.sys1_physical.r0.le b
  exact ⟨y, hy, hK K a b y hy⟩

/-- The same telescope with a square area. -/
example : ∃ (e : Breakdown.Wfe) (f K₀ : ℝ), Breakdown.errorBreakdown Breakdown.sys1 = .ok e ∧ e.fitting = some f ∧
    ∀ K, K₀ ≤ K → 0 < K → ∃ y, FittingRuns false Breakdown.sys1.atm Breakdown.sys1.pitch 0 K y ∧ ∀ᶠ h in 𝓝[>] 0, y h < 1.01 * f := by
  obtain ⟨e, T, h, hT⟩ := Breakdown.sys1_ok Breakdown.sys1.pitch Breakdown.sys1_physical.pitch
  have hd : (0:ℝ) ≤ Noise.wfs1.dsub := by norm_num [Noise.wfs1]
  obtain ⟨h1, h2⟩ := Breakdown.breakdown_fitting_aliasing Breakdown.sys1 Breakdown.sys1_physical.r0 Breakdown.sys1_physical.pitch Noise.wfs1 rfl hd e h
  obtain ⟨K₀, hK⟩ := fitting_square_partial Breakdown.sys1 e 0 _ Noise.wfs1 Breakdown.sys1_physical.r0 (by norm_num [Breakdown.sys1])
    (by norm_num [Breakdown.sys1, Atmosphere.mk]) rfl hd h h1
  refine ⟨e, _, K₀, h, h1, fun K a b => ?_⟩
  obtain ⟨y, hy⟩ := turbRun_meets false Breakdown.sys1.atm Breakdown.sys1.pitch K Breakdown.sys1_physical.r0.le b
  exact ⟨y, hy, (hK K a b y hy).mono fun _ h => h.2⟩

end P3.Refine
