import Verif.Model.FrequencyDomain
import Verif.Model.FourierRun
import Verif.Model.Atmosphere
import Mathlib.Analysis.SpecialFunctions.Pow.Continuity
import Mathlib.MeasureTheory.Integral.DominatedConvergence
import Mathlib.MeasureTheory.Integral.IntervalIntegral.Basic
import Mathlib.MeasureTheory.Function.Floor
import Mathlib.MeasureTheory.Measure.Lebesgue.Basic
/-
Refining the grid of frequencies: the sums of the code tend to the integrals of the spectra.
-/
namespace P3.Refine
open Filter Topology MeasureTheory Finset

/-- The sum over a row of the grid is the integral of a step function. -/
theorem sum_step (φ : ℤ → ℝ) (h : ℝ) (hh : 0 < h) (N m : ℕ) :
    h * ∑ i ∈ range N, φ ((i : ℤ) - m) = ∫ x in (-(m * h))..((N : ℝ) - m) * h, φ ⌊x / h⌋ := by
  have piece : ∀ k : ℕ, ∫ x in (((k:ℕ):ℝ) - m) * h..(((k + 1 : ℕ):ℝ) - m) * h, φ ⌊x / h⌋ = h * φ ((k : ℤ) - m) := by
    intro k
    rw [intervalIntegral.integral_congr_Ioo_of_le (g := fun _ => φ ((k : ℤ) - m))]
    · rw [intervalIntegral.integral_const, smul_eq_mul]; push_cast; ring
    · push_cast; nlinarith
    · intro x hx
      have : ⌊x / h⌋ = (k : ℤ) - m := by
        rw [Int.floor_eq_iff]
        push_cast
        constructor
        · rw [le_div_iff₀ hh]; exact hx.1.le
        · rw [div_lt_iff₀ hh]; have := hx.2; push_cast at this; linarith
      simp only [this]
  have integ : ∀ k < N, IntervalIntegrable (fun x => φ ⌊x / h⌋) volume (((k:ℕ):ℝ) * h - m * h) (((k + 1 : ℕ):ℝ) * h - m * h) := by
    intro k _
    have c : IntervalIntegrable (fun _ : ℝ => φ ((k : ℤ) - m)) volume (((k:ℕ):ℝ) * h - m * h) (((k + 1 : ℕ):ℝ) * h - m * h) :=
      continuous_const.intervalIntegrable _ _
    refine c.congr_ae ?_
    have hle : ((k:ℕ):ℝ) * h - m * h ≤ ((k + 1 : ℕ):ℝ) * h - m * h := by push_cast; nlinarith
    rw [Set.uIoc_of_le hle]
    have : ∀ᵐ x ∂(volume : Measure ℝ), x ≠ ((k + 1 : ℕ):ℝ) * h - m * h := Measure.ae_ne volume _
    rw [Filter.EventuallyEq, ae_restrict_iff' measurableSet_Ioc]
    filter_upwards [this] with x hx hmem
    have : ⌊x / h⌋ = (k : ℤ) - m := by
      rw [Int.floor_eq_iff]
      push_cast
      constructor
      · rw [le_div_iff₀ hh]; linarith [hmem.1]
      · rw [div_lt_iff₀ hh]; have := lt_of_le_of_ne hmem.2 hx; push_cast at this; linarith
    simp only [this]
  have s := intervalIntegral.sum_integral_adjacent_intervals (a := fun k : ℕ => (k:ℝ) * h - m * h) (n := N) integ
  rw [Finset.mul_sum]
  have e0 : ((0:ℕ):ℝ) * h - m * h = -(m * h) := by push_cast; ring
  have e1 : (N:ℝ) * h - m * h = ((N : ℝ) - m) * h := by ring
  rw [e0, e1] at s
  rw [← s]
  refine Finset.sum_congr rfl fun k _ => ?_
  rw [← piece k]
  congr 1 <;> push_cast <;> ring

/-- Half of the points times the step: half of the width. -/
theorem half_width (N : ℝ → ℕ) (K : ℝ) (hN : Tendsto (fun h => (N h : ℝ) * h) (𝓝[>] 0) (𝓝 (2 * K))) :
    Tendsto (fun h => ((N h / 2 : ℕ) : ℝ) * h) (𝓝[>] 0) (𝓝 K) ∧
    Tendsto (fun h => ((N h : ℝ) - ((N h / 2 : ℕ) : ℝ)) * h) (𝓝[>] 0) (𝓝 K) := by
  have h0 : Tendsto (fun h : ℝ => h) (𝓝[>] 0) (𝓝 0) := tendsto_nhdsWithin_of_tendsto_nhds tendsto_id
  have a : Tendsto (fun h => ((N h / 2 : ℕ) : ℝ) * h) (𝓝[>] 0) (𝓝 K) := by
    have l1 : Tendsto (fun h => (N h : ℝ) * h / 2 - h) (𝓝[>] 0) (𝓝 K) := by
      have := (hN.div_const 2).sub h0
      simpa using this
    have l2 : Tendsto (fun h => (N h : ℝ) * h / 2) (𝓝[>] 0) (𝓝 K) := by
      have := hN.div_const 2
      simpa using this
    refine tendsto_of_tendsto_of_tendsto_of_le_of_le' l1 l2 ?_ ?_
    · filter_upwards [self_mem_nhdsWithin] with h hh
      have : (N h : ℝ) ≤ 2 * ((N h / 2 : ℕ) : ℝ) + 1 := by exact_mod_cast (by omega : N h ≤ 2 * (N h / 2) + 1)
      have hp : (0:ℝ) < h := hh
      nlinarith
    · filter_upwards [self_mem_nhdsWithin] with h hh
      have : 2 * ((N h / 2 : ℕ) : ℝ) ≤ (N h : ℝ) := by exact_mod_cast (by omega : 2 * (N h / 2) ≤ N h)
      have hp : (0:ℝ) < h := hh
      nlinarith
  refine ⟨a, ?_⟩
  have := hN.sub a
  have e : 2 * K - K = K := by ring
  rw [e] at this
  refine this.congr fun h => by ring

/-- Sums along one axis. -/
theorem lim_row (φ : ℝ → ℤ → ℝ) (N : ℝ → ℕ) (K C : ℝ) (G : ℝ → ℝ) (hK : 0 < K)
    (hN : Tendsto (fun h => (N h : ℝ) * h) (𝓝[>] 0) (𝓝 (2 * K)))
    (hC : ∀ᶠ h in 𝓝[>] 0, ∀ a : ℤ, |(a : ℝ) * h| ≤ K + 1 → |φ h a| ≤ C)
    (hlim : ∀ᵐ x : ℝ, |x| < K → Tendsto (fun h => φ h ⌊x / h⌋) (𝓝[>] 0) (𝓝 (G x))) :
    Tendsto (fun h => h * ∑ i ∈ range (N h), φ h ((i : ℤ) - (N h / 2 : ℕ))) (𝓝[>] 0) (𝓝 (∫ x in (-K)..K, G x)) := by
  obtain ⟨ha, hb⟩ := half_width N K hN
  have ea : ∀ᶠ h in 𝓝[>] (0:ℝ), ((N h / 2 : ℕ) : ℝ) * h < K + 1 := ha.eventually_lt_const (by linarith)
  have eb : ∀ᶠ h in 𝓝[>] (0:ℝ), ((N h : ℝ) - ((N h / 2 : ℕ) : ℝ)) * h < K + 1 := hb.eventually_lt_const (by linarith)
  have pos : ∀ᶠ h in 𝓝[>] (0:ℝ), 0 < h := self_mem_nhdsWithin
  set I : ℝ → Set ℝ := fun h => Set.Ioc (-(((N h / 2 : ℕ) : ℝ) * h)) (((N h : ℝ) - ((N h / 2 : ℕ) : ℝ)) * h) with hI
  have as : ∀ᶠ h in 𝓝[>] (0:ℝ), ∫ x in (-(K + 1))..(K + 1), (I h).indicator (fun x => φ h ⌊x / h⌋) x =
      h * ∑ i ∈ range (N h), φ h ((i : ℤ) - (N h / 2 : ℕ)) := by
    filter_upwards [ea, eb, pos] with h h1 h2 hp
    have m0 : (0:ℝ) ≤ ((N h / 2 : ℕ) : ℝ) := Nat.cast_nonneg _
    have m1 : ((N h / 2 : ℕ) : ℝ) ≤ N h := by exact_mod_cast (by omega : N h / 2 ≤ N h)
    have c0 : 0 ≤ ((N h / 2 : ℕ) : ℝ) * h := by positivity
    have c1 : 0 ≤ ((N h : ℝ) - ((N h / 2 : ℕ) : ℝ)) * h := mul_nonneg (by linarith) hp.le
    rw [sum_step _ h hp, intervalIntegral.integral_of_le (by linarith), intervalIntegral.integral_of_le (by linarith),
      setIntegral_indicator measurableSet_Ioc]
    congr 2
    rw [Set.inter_eq_right]
    exact Set.Ioc_subset_Ioc (by linarith) h2.le
  have lim : Tendsto (fun h => ∫ x in (-(K + 1))..(K + 1), (I h).indicator (fun x => φ h ⌊x / h⌋) x) (𝓝[>] 0)
      (𝓝 (∫ x in (-(K + 1))..(K + 1), (Set.Ioo (-K) K).indicator G x)) := by
    refine intervalIntegral.tendsto_integral_filter_of_dominated_convergence (fun _ => |C|) ?_ ?_ (continuous_const.intervalIntegrable _ _) ?_
    · refine Eventually.of_forall fun h => ?_
      refine (Measurable.indicator ?_ measurableSet_Ioc).aestronglyMeasurable
      exact (measurable_from_top (f := φ h)).comp (Int.measurable_floor.comp (measurable_id.div_const h))
    · filter_upwards [ea, eb, pos, hC] with h h1 h2 hp hc
      refine Eventually.of_forall fun x _ => ?_
      by_cases hx : x ∈ I h
      · rw [Set.indicator_of_mem hx, Real.norm_eq_abs]
        refine (hc _ ?_).trans (le_abs_self C)
        have f1 := Int.floor_le (x / h)
        have f2 : -(((N h / 2 : ℕ) : ℤ)) ≤ ⌊x / h⌋ := by
          rw [Int.le_floor, Int.cast_neg, Int.cast_natCast, le_div_iff₀ hp]
          have := hx.1
          linarith
        have f3 : -((N h / 2 : ℕ) : ℝ) ≤ (⌊x / h⌋ : ℝ) := by
          have : ((-((N h / 2 : ℕ) : ℤ) : ℤ) : ℝ) ≤ (⌊x / h⌋ : ℝ) := Int.cast_le.2 f2
          rwa [Int.cast_neg, Int.cast_natCast] at this
        rw [le_div_iff₀ hp] at f1
        rw [abs_le]
        constructor
        · nlinarith
        · linarith [hx.2]
      · rw [Set.indicator_of_notMem hx]; simp
    · filter_upwards [hlim, Measure.ae_ne volume K, Measure.ae_ne volume (-K)] with x hx n1 n2 _
      by_cases hm : |x| < K
      · have hm' := abs_lt.1 hm
        rw [Set.indicator_of_mem (show x ∈ Set.Ioo (-K) K from hm')]
        refine (hx hm).congr' ?_
        filter_upwards [ha.eventually_const_lt (show -x < K by linarith), hb.eventually_const_lt hm'.2] with h h1 h2
        rw [Set.indicator_of_mem]
        exact ⟨by linarith, h2.le⟩
      · rw [Set.indicator_of_notMem (show x ∉ Set.Ioo (-K) K from fun hc => hm (abs_lt.2 hc))]
        refine tendsto_const_nhds.congr' ?_
        rcases le_abs'.1 (not_lt.1 hm) with g | g
        · have g : x < -K := lt_of_le_of_ne g n2
          filter_upwards [ha.eventually_lt_const (show K < -x by linarith)] with h h1
          rw [Set.indicator_of_notMem]
          intro hc; linarith [hc.1]
        · have g : K < x := lt_of_le_of_ne g (Ne.symm n1)
          filter_upwards [hb.eventually_lt_const g] with h h1
          rw [Set.indicator_of_notMem]
          intro hc; linarith [hc.2]
  have fin : ∫ x in (-(K + 1))..(K + 1), (Set.Ioo (-K) K).indicator G x = ∫ x in (-K)..K, G x := by
    rw [intervalIntegral.integral_of_le (by linarith), intervalIntegral.integral_of_le (by linarith), setIntegral_indicator measurableSet_Ioo,
      Set.inter_eq_right.2 (show Set.Ioo (-K) K ⊆ Set.Ioc (-(K + 1)) (K + 1) from fun y hy => ⟨by linarith [hy.1], by linarith [hy.2]⟩), integral_Ioc_eq_integral_Ioo]
  rw [fin] at lim
  exact lim.congr' as

/-- Sums over the grid. -/
theorem lim_grid (f : ℝ → ℤ → ℤ → ℝ) (N : ℝ → ℕ) (K C : ℝ) (G : ℝ → ℝ → ℝ) (hK : 0 < K)
    (hN : Tendsto (fun h => (N h : ℝ) * h) (𝓝[>] 0) (𝓝 (2 * K)))
    (hC : ∀ᶠ h in 𝓝[>] 0, ∀ a b : ℤ, |(a : ℝ) * h| ≤ K + 1 → |(b : ℝ) * h| ≤ K + 1 → |f h a b| ≤ C)
    (hlim : ∀ᵐ x : ℝ, ∀ᵐ y : ℝ, |x| < K → |y| < K → Tendsto (fun h => f h ⌊x / h⌋ ⌊y / h⌋) (𝓝[>] 0) (𝓝 (G x y))) :
    Tendsto (fun h => h ^ 2 * ∑ i ∈ range (N h), ∑ j ∈ range (N h), f h ((i : ℤ) - (N h / 2 : ℕ)) ((j : ℤ) - (N h / 2 : ℕ))) (𝓝[>] 0)
      (𝓝 (∫ x in (-K)..K, ∫ y in (-K)..K, G x y)) := by
  have pos : ∀ᶠ h in 𝓝[>] (0:ℝ), 0 < h := self_mem_nhdsWithin
  obtain ⟨ha, hb⟩ := half_width N K hN
  have ea : ∀ᶠ h in 𝓝[>] (0:ℝ), ((N h / 2 : ℕ) : ℝ) * h < K + 1 := ha.eventually_lt_const (by linarith)
  have eb : ∀ᶠ h in 𝓝[>] (0:ℝ), ((N h : ℝ) - ((N h / 2 : ℕ) : ℝ)) * h < K + 1 := hb.eventually_lt_const (by linarith)
  have main := lim_row (fun h a => h * ∑ j ∈ range (N h), f h a ((j : ℤ) - (N h / 2 : ℕ))) N K ((2 * K + 1) * |C|)
    (fun x => ∫ y in (-K)..K, G x y) hK hN ?_ ?_
  · refine main.congr fun h => ?_
    rw [Finset.mul_sum, Finset.mul_sum]
    refine Finset.sum_congr rfl fun i _ => by ring
  · filter_upwards [pos, hC, ea, eb, hN.eventually_lt_const (show 2 * K < 2 * K + 1 by linarith)] with h hp hc h1 h2 h3 a ha'
    rw [abs_mul, abs_of_pos hp]
    have : |∑ j ∈ range (N h), f h a ((j : ℤ) - (N h / 2 : ℕ))| ≤ ∑ j ∈ range (N h), |C| := by
      refine (Finset.abs_sum_le_sum_abs _ _).trans (Finset.sum_le_sum fun j hj => (hc a _ ha' ?_).trans (le_abs_self C))
      have hj' : (j : ℝ) + 1 ≤ N h := by exact_mod_cast Finset.mem_range.1 hj
      have j0 : (0:ℝ) ≤ j := Nat.cast_nonneg j
      rw [Int.cast_sub, Int.cast_natCast, Int.cast_natCast, abs_le]
      constructor <;> nlinarith
    rw [Finset.sum_const, Finset.card_range, nsmul_eq_mul] at this
    calc h * |∑ j ∈ range (N h), f h a ((j : ℤ) - (N h / 2 : ℕ))| ≤ h * (N h * |C|) := mul_le_mul_of_nonneg_left this hp.le
      _ = (N h * h) * |C| := by ring
      _ ≤ (2 * K + 1) * |C| := mul_le_mul_of_nonneg_right h3.le (abs_nonneg C)
  · filter_upwards [hlim] with x hx hxK
    refine lim_row (fun h b => f h ⌊x / h⌋ b) N K C (fun y => G x y) hK hN ?_ ?_
    · filter_upwards [hC, pos, Ioo_mem_nhdsGT (show (0:ℝ) < 1 by norm_num)] with h hc hp h1 b hb'
      refine hc _ b ?_ hb'
      have f1 := Int.floor_le (x / h)
      have f2 := Int.lt_floor_add_one (x / h)
      rw [le_div_iff₀ hp] at f1
      rw [div_lt_iff₀ hp] at f2
      have := abs_lt.1 hxK
      have := h1.2
      rw [abs_le]
      constructor <;> nlinarith
    · filter_upwards [hx] with y hy hyK
      exact hy hxK hyK

/-! ### Frequencies and masks of the code -/

/-- The frequency of the cell of `x`. -/
theorem cell_tendsto (x off : ℝ) : Tendsto (fun h : ℝ => (⌊x / h⌋ : ℝ) * h + off) (𝓝[>] 0) (𝓝 (x + off)) := by
  have h0 : Tendsto (fun h : ℝ => h) (𝓝[>] 0) (𝓝 0) := tendsto_nhdsWithin_of_tendsto_nhds tendsto_id
  refine Tendsto.add_const off ?_
  have l1 : Tendsto (fun h : ℝ => x - h) (𝓝[>] 0) (𝓝 x) := by simpa using tendsto_const_nhds.sub h0
  refine tendsto_of_tendsto_of_tendsto_of_le_of_le' l1 tendsto_const_nhds ?_ ?_
  · filter_upwards [self_mem_nhdsWithin] with h hp
    have := Int.lt_floor_add_one (x / h)
    rw [div_lt_iff₀ hp] at this
    nlinarith
  · filter_upwards [self_mem_nhdsWithin] with h hp
    have := Int.floor_le (x / h)
    rwa [le_div_iff₀ hp] at this

/-- Points on the border of the corrected area. -/
def Border (circle : Bool) (kc x y : ℝ) : Prop :=
  if circle then x ^ 2 + y ^ 2 = kc ^ 2 else |x| = kc ∨ |y| = kc

theorem border_null (circle : Bool) (kc off : ℝ) : ∀ᵐ x : ℝ, ∀ᵐ y : ℝ, ¬ Border circle kc (x + off) (y + off) := by
  have ne : ∀ a : ℝ, ∀ᵐ x : ℝ, x ≠ a := fun a => Measure.ae_ne volume a
  cases circle
  · filter_upwards [ne (kc - off), ne (-kc - off)] with x h1 h2
    filter_upwards [ne (kc - off), ne (-kc - off)] with y h3 h4
    have key : ∀ z : ℝ, z ≠ kc - off → z ≠ -kc - off → |z + off| ≠ kc := by
      intro z a b c
      rcases abs_choice (z + off) with e | e
      · exact a (by linarith)
      · exact b (by linarith)
    simp only [Border, Bool.false_eq_true, if_false, not_or]
    exact ⟨key x h1 h2, key y h3 h4⟩
  · refine Eventually.of_forall fun x => ?_
    filter_upwards [ne (Real.sqrt (kc ^ 2 - (x + off) ^ 2) - off), ne (-Real.sqrt (kc ^ 2 - (x + off) ^ 2) - off)] with y h1 h2
    simp only [Border, if_true]
    intro hc
    have e : (y + off) ^ 2 = kc ^ 2 - (x + off) ^ 2 := by linarith
    have : Real.sqrt (kc ^ 2 - (x + off) ^ 2) = |y + off| := by rw [← e, Real.sqrt_sq_eq_abs]
    rcases abs_choice (y + off) with g | g
    · exact h1 (by rw [this, g]; ring)
    · exact h2 (by rw [this, g]; ring)

/-- Away from the border the mask is the same in a neighbourhood. -/
theorem mask_stable {α : Type} (l : Filter α) (circle : Bool) (kc : ℝ) (u v : α → ℝ) (x y : ℝ) (hb : ¬ Border circle kc x y)
    (hu : Tendsto u l (𝓝 x)) (hv : Tendsto v l (𝓝 y)) :
    ∀ᶠ h in l, (Freq.mskIn circle kc (u h) (v h) ↔ Freq.mskIn circle kc x y) := by
  cases circle
  · simp only [Border, Bool.false_eq_true, if_false, not_or] at hb
    have one : ∀ (w : α → ℝ) (z : ℝ), Tendsto w l (𝓝 z) → |z| ≠ kc → ∀ᶠ h in l, (|w h| < kc ↔ |z| < kc) := by
      intro w z hw hz
      rcases lt_or_gt_of_ne hz with g | g
      · filter_upwards [hw.abs.eventually_lt_const g] with h hh
        exact ⟨fun _ => g, fun _ => hh⟩
      · filter_upwards [hw.abs.eventually_const_lt g] with h hh
        exact ⟨fun c => absurd c (not_lt.2 hh.le), fun c => absurd c (not_lt.2 g.le)⟩
    filter_upwards [one u x hu hb.1, one v y hv hb.2] with h h1 h2
    simp only [Freq.mskIn, Bool.false_eq_true, if_false, h1, h2]
  · simp only [Border, if_true] at hb
    have hw : Tendsto (fun h => u h ^ 2 + v h ^ 2) l (𝓝 (x ^ 2 + y ^ 2)) := (hu.pow 2).add (hv.pow 2)
    simp only [Freq.mskIn, if_true]
    rcases lt_or_gt_of_ne hb with g | g
    · filter_upwards [hw.eventually_lt_const g] with h hh
      exact ⟨fun _ => g, fun _ => hh⟩
    · filter_upwards [hw.eventually_const_lt g] with h hh
      exact ⟨fun c => absurd c (not_lt.2 hh.le), fun c => absurd c (not_lt.2 g.le)⟩

/-- Spec: a density of frequencies, bounded where it is sampled (at `off` from a square of half-width `K` at most, and a margin of one) and
continuous almost everywhere. -/
structure Density (K off : ℝ) (F : ℝ → ℝ → ℝ) : Prop where
  bounded : ∃ C, ∀ x y, |x - off| ≤ K + 1 → |y - off| ≤ K + 1 → |F x y| ≤ C
  continuous : ∀ᵐ x : ℝ, ∀ᵐ y : ℝ, |x| < K → |y| < K → ContinuousAt (fun p : ℝ × ℝ => F p.1 p.2) (x + off, y + off)

/-- Grid sums of a density tend to its integral. -/
theorem density_limit (K off : ℝ) (F : ℝ → ℝ → ℝ) (hF : Density K off F) (hK : 0 < K) (N : ℝ → ℕ)
    (hN : Tendsto (fun h => (N h : ℝ) * h) (𝓝[>] 0) (𝓝 (2 * K))) :
    Tendsto (fun h => h ^ 2 * ∑ i ∈ range (N h), ∑ j ∈ range (N h), F (Freq.freqAt (N h) h off i) (Freq.freqAt (N h) h off j)) (𝓝[>] 0)
      (𝓝 (∫ x in (-K)..K, ∫ y in (-K)..K, F (x + off) (y + off))) := by
  obtain ⟨C, hC⟩ := hF.bounded
  have := lim_grid (fun h a b => F ((a:ℝ) * h + off) ((b:ℝ) * h + off)) N K C (fun x y => F (x + off) (y + off)) hK hN ?_ ?_
  · refine this.congr fun h => ?_
    simp only [Freq.freqAt, Int.cast_sub, Int.cast_natCast]
  · exact Eventually.of_forall fun h a b h1 h2 => hC _ _ (by simpa using h1) (by simpa using h2)
  · filter_upwards [hF.continuous] with x hx
    filter_upwards [hx] with y hy h1 h2
    have t : Tendsto (fun h : ℝ => ((⌊x / h⌋ : ℝ) * h + off, (⌊y / h⌋ : ℝ) * h + off)) (𝓝[>] 0) (𝓝 (x + off, y + off)) :=
      (cell_tendsto x off).prodMk_nhds (cell_tendsto y off)
    exact (hy h1 h2).tendsto.comp t

/-- A density kept inside the corrected area is a density. -/
theorem masked_density (circle : Bool) (kc K off : ℝ) (F : ℝ → ℝ → ℝ) (hF : Density K off F) :
    Density K off fun x y => if Freq.mskIn circle kc x y then F x y else 0 := by
  obtain ⟨C, hC⟩ := hF.bounded
  refine ⟨⟨|C|, fun x y hx hy => ?_⟩, ?_⟩
  · split_ifs
    · exact (hC x y hx hy).trans (le_abs_self C)
    · simp
  · filter_upwards [hF.continuous, border_null circle kc off] with x h1 h2
    filter_upwards [h1, h2] with y h3 h4 hx hy
    have st := mask_stable (𝓝 ((x + off, y + off) : ℝ × ℝ)) circle kc Prod.fst Prod.snd _ _ h4 continuousAt_fst continuousAt_snd
    by_cases hm : Freq.mskIn circle kc (x + off) (y + off)
    · refine (h3 hx hy).congr ?_
      filter_upwards [st] with p hp
      rw [if_pos (hp.2 hm)]
    · refine (continuousAt_const (y := (0:ℝ))).congr ?_
      filter_upwards [st] with p hp
      rw [if_neg (fun c => hm (hp.1 c))]

/-- The spectrum left outside of the corrected area is a density. -/
theorem fitting_density (circle : Bool) (kc K off C : ℝ) (spectrum : ℝ → ℝ) (hk : 0 < kc)
    (hc : ∀ k, kc ≤ k → ContinuousAt spectrum k) (hb : ∀ k, kc ≤ k → |spectrum k| ≤ C) :
    Density K off (Freq.fittingPsd spectrum circle kc) := by
  have out : ∀ x y, Freq.mskOut circle kc x y ↔ ¬ Freq.mskIn circle kc x y := by
    intro x y
    cases circle
    · simp only [Freq.mskOut, Freq.mskIn, Bool.false_eq_true, if_false, not_and_or, not_lt]
    · simp only [Freq.mskOut, Freq.mskIn, if_true, not_lt]
  have far : ∀ x y, Freq.mskOut circle kc x y → kc ≤ Real.sqrt (x ^ 2 + y ^ 2) := by
    intro x y h
    apply Real.le_sqrt_of_sq_le
    cases circle
    · simp only [Freq.mskOut, Bool.false_eq_true, if_false] at h
      rcases h with h | h
      · nlinarith [sq_abs x, sq_nonneg y]
      · nlinarith [sq_abs y, sq_nonneg x]
    · simpa [Freq.mskOut] using h
  refine ⟨⟨|C|, fun x y _ _ => ?_⟩, ?_⟩
  · unfold Freq.fittingPsd
    split_ifs with h
    · exact (hb _ (far x y h)).trans (le_abs_self C)
    · simp
  · filter_upwards [border_null circle kc off] with x h2
    filter_upwards [h2] with y h4 _ _
    have st := mask_stable (𝓝 ((x + off, y + off) : ℝ × ℝ)) circle kc Prod.fst Prod.snd _ _ h4 continuousAt_fst continuousAt_snd
    by_cases hm : Freq.mskIn circle kc (x + off) (y + off)
    · refine (continuousAt_const (y := (0:ℝ))).congr ?_
      filter_upwards [st] with p hp
      rw [Freq.fittingPsd, if_neg (fun c => (out _ _).1 c (hp.2 hm))]
    · have ho := (out _ _).2 hm
      have c1 : ContinuousAt (fun p : ℝ × ℝ => Real.sqrt (p.1 ^ 2 + p.2 ^ 2)) (x + off, y + off) := by fun_prop
      have c2 : ContinuousAt (fun p : ℝ × ℝ => spectrum (Real.sqrt (p.1 ^ 2 + p.2 ^ 2))) (x + off, y + off) :=
        ContinuousAt.comp (g := spectrum) (hc _ (far _ _ ho)) c1
      refine c2.congr ?_
      filter_upwards [st] with p hp
      rw [Freq.fittingPsd, if_pos ((out _ _).2 fun c => hm (hp.1 c))]

/-! ### The errors of the breakdown -/

theorem resAO_width (kc : ℝ) (hk : 0 < kc) : Tendsto (fun h => (Freq.resAO [kc] h : ℝ) * h) (𝓝[>] 0) (𝓝 (2 * kc)) := by
  have h0 : Tendsto (fun h : ℝ => h) (𝓝[>] 0) (𝓝 0) := tendsto_nhdsWithin_of_tendsto_nhds tendsto_id
  have l1 : Tendsto (fun h : ℝ => 2 * kc - h) (𝓝[>] 0) (𝓝 (2 * kc)) := by simpa using tendsto_const_nhds.sub h0
  refine tendsto_of_tendsto_of_tendsto_of_le_of_le' l1 tendsto_const_nhds ?_ ?_
  · filter_upwards [self_mem_nhdsWithin] with h hp
    have hp : (0:ℝ) < h := hp
    have := Nat.lt_floor_add_one (2 * kc / h)
    rw [div_lt_iff₀ hp] at this
    simp only [Freq.resAO, List.map, Freq.maxList]
    nlinarith
  · filter_upwards [self_mem_nhdsWithin] with h hp
    have hp : (0:ℝ) < h := hp
    have := Nat.floor_le (show 0 ≤ 2 * kc / h by positivity)
    rw [le_div_iff₀ hp] at this
    exact this

/-- The cell used by the code for the integrals, and that of the grid. -/
theorem cell_ratio (kc : ℝ) (hk : 0 < kc) : Tendsto (fun h => (Freq.dk kc (Freq.resAO [kc] h)) ^ 2 / h ^ 2) (𝓝[>] 0) (𝓝 1) := by
  have l := (tendsto_const_nhds (x := 2 * kc)).div (resAO_width kc hk) (by positivity)
  rw [div_self (by positivity)] at l
  have := l.pow 2
  rw [one_pow] at this
  refine this.congr fun h => ?_
  simp only [Freq.dk, Pi.div_apply]
  rw [← div_pow, div_div]

/-- Spec: the sum over the samples of the corrected area of a density cut at its border. -/
noncomputable def areaSum (circle : Bool) (kc off h : ℝ) (F : ℝ → ℝ → ℝ) : ℝ :=
  ∑ i ∈ range (Freq.resAO [kc] h), ∑ j ∈ range (Freq.resAO [kc] h),
    if Freq.mskIn circle kc (Freq.freqAt (Freq.resAO [kc] h) h off i) (Freq.freqAt (Freq.resAO [kc] h) h off j) then
      F (Freq.freqAt (Freq.resAO [kc] h) h off i) (Freq.freqAt (Freq.resAO [kc] h) h off j) else 0

/-- Spec: the integral of a density over the corrected area. -/
noncomputable def areaIntegral (circle : Bool) (kc off : ℝ) (F : ℝ → ℝ → ℝ) : ℝ :=
  ∫ x in (-kc)..kc, ∫ y in (-kc)..kc, if Freq.mskIn circle kc (x + off) (y + off) then F (x + off) (y + off) else 0

/-- Spec: the integral of the spectrum over a square of half-width `K`, outside of the corrected area. -/
noncomputable def outsideIntegral (circle : Bool) (kc K off : ℝ) (spectrum : ℝ → ℝ) : ℝ :=
  ∫ x in (-K)..K, ∫ y in (-K)..K, if Freq.mskIn circle kc (x + off) (y + off) then 0 else spectrum (Real.sqrt ((x + off) ^ 2 + (y + off) ^ 2))

theorem area_limit (circle : Bool) (kc off : ℝ) (F : ℝ → ℝ → ℝ) (hk : 0 < kc) (hF : Density kc off F) :
    Tendsto (fun h => Freq.dk kc (Freq.resAO [kc] h) ^ 2 * areaSum circle kc off h F) (𝓝[>] 0) (𝓝 (areaIntegral circle kc off F)) := by
  have := (cell_ratio kc hk).mul (density_limit kc off _ (masked_density circle kc kc off F hF) hk _ (resAO_width kc hk))
  rw [one_mul] at this
  refine this.congr' ?_
  filter_upwards [self_mem_nhdsWithin] with h hp
  have hp : (0:ℝ) < h := hp
  unfold areaSum
  field_simp

theorem outside_limit (circle : Bool) (kc K off C : ℝ) (spectrum : ℝ → ℝ) (hk : 0 < kc) (hK : 0 < K)
    (hc : ∀ k, kc ≤ k → ContinuousAt spectrum k) (hb : ∀ k, kc ≤ k → |spectrum k| ≤ C) (N : ℝ → ℕ)
    (hN : Tendsto (fun h => (N h : ℝ) * h) (𝓝[>] 0) (𝓝 (2 * K))) :
    Tendsto (fun h => Freq.dk kc (Freq.resAO [kc] h) ^ 2 * ∑ i ∈ range (N h), ∑ j ∈ range (N h),
      Freq.fittingPsd spectrum circle kc (Freq.freqAt (N h) h off i) (Freq.freqAt (N h) h off j)) (𝓝[>] 0)
      (𝓝 (outsideIntegral circle kc K off spectrum)) := by
  have := (cell_ratio kc hk).mul (density_limit K off _ (fitting_density circle kc K off C spectrum hk hc hb) hK N hN)
  rw [one_mul] at this
  have e : (∫ x in (-K)..K, ∫ y in (-K)..K, Freq.fittingPsd spectrum circle kc (x + off) (y + off)) = outsideIntegral circle kc K off spectrum := by
    unfold outsideIntegral Freq.fittingPsd
    congr 1; funext x; congr 1; funext y
    have out : Freq.mskOut circle kc (x + off) (y + off) ↔ ¬ Freq.mskIn circle kc (x + off) (y + off) := by
      cases circle
      · simp only [Freq.mskOut, Freq.mskIn, Bool.false_eq_true, if_false, not_and_or, not_lt]
      · simp only [Freq.mskOut, Freq.mskIn, if_true, not_lt]
    by_cases hm : Freq.mskIn circle kc (x + off) (y + off)
    · rw [if_pos hm, if_neg (fun c => out.1 c hm)]
    · rw [if_neg hm, if_pos (out.2 hm)]
  rw [e] at this
  refine this.congr' ?_
  filter_upwards [self_mem_nhdsWithin] with h hp
  have hp : (0:ℝ) < h := hp
  field_simp

/-- Spec: runs of the same observation on grids of step `h` with `N h` points: the arrays hold the densities at the frequencies of the
grid. -/
structure Runs (circle : Bool) (kc off wvl : ℝ) (Fn Fa Fs Fd Fc : ℝ → ℝ → ℝ) (spectrum : ℝ → ℝ) (N : ℝ → ℕ) (s : ℕ)
    (r : ℝ → FRun.Run (ℕ × ℕ)) : Prop where
  closed : ∀ h, (r h).closed = true
  u : ∀ h, (r h).u = 2 * kc / Freq.resAO [kc] h * (wvl * 1e9 / 2 / Real.pi)
  noise : ∀ h, (r h).sumAO ((r h).noise s) = areaSum circle kc off h Fn
  aliasing : ∀ h, (r h).sumAO (r h).aliasing = areaSum circle kc off h Fa
  st : ∀ h, (r h).sumAO ((r h).st s) = areaSum circle kc off h Fs
  diffRef : ∀ h, (r h).sumAO ((r h).diffRef s) = areaSum circle kc off h Fd
  chrom : ∀ h, (r h).sumAO ((r h).chrom s) = areaSum circle kc off h Fc
  fit : ∀ h, (r h).sumAll (r h).fit = ∑ i ∈ range (N h), ∑ j ∈ range (N h),
    Freq.fittingPsd spectrum circle kc (Freq.freqAt (N h) h off i) (Freq.freqAt (N h) h off j)

theorem rms_limit (kc wvl : ℝ) (hk : 0 < kc) (S y u : ℝ → ℝ) (I : ℝ)
    (hu : ∀ h, u h = 2 * kc / Freq.resAO [kc] h * (wvl * 1e9 / 2 / Real.pi))
    (hl : Tendsto (fun h => Freq.dk kc (Freq.resAO [kc] h) ^ 2 * S h) (𝓝[>] 0) (𝓝 I))
    (hy : ∀ h, FRun.rms (u h) (S h) = some (y h)) : Tendsto y (𝓝[>] 0) (𝓝 (Real.sqrt I * (wvl * 1e9 / 2 / Real.pi))) := by
  have := (Real.continuous_sqrt.tendsto I).comp hl |>.mul_const (wvl * 1e9 / 2 / Real.pi)
  refine this.congr fun h => ?_
  have hh := hy h
  unfold FRun.rms at hh
  have d0 : 0 ≤ Freq.dk kc (Freq.resAO [kc] h) := by unfold Freq.dk; positivity
  obtain ⟨z, hz, e⟩ := Option.map_eq_some_iff.1 hh
  unfold Breakdown.sqrtO at hz
  split_ifs at hz with hneg
  rw [← e, ← Option.some.inj hz, hu]
  simp only [Function.comp]
  rw [Real.sqrt_mul (sq_nonneg _), Real.sqrt_sq d0, Freq.dk]
  ring

/-- The spectrum of the atmosphere is continuous and bounded from any positive frequency on. -/
theorem spectrum_meets (a : Atmosphere.Atm) (kc : ℝ) (hk : 0 < kc) : (∀ k, kc ≤ k → ContinuousAt (Atmosphere.spectrum a) k) ∧
    ∀ k, kc ≤ k → |Atmosphere.spectrum a k| ≤ |Atmosphere.spectrum a kc| := by
  constructor
  · intro k h
    have : 0 < k ^ 2 + 1 / a.L0 ^ 2 := by have : 0 < k := by linarith
                                          positivity
    unfold Atmosphere.spectrum
    refine ContinuousAt.mul continuousAt_const ?_
    exact ContinuousAt.rpow_const (by fun_prop) (Or.inl this.ne')
  · intro k h
    unfold Atmosphere.spectrum
    rw [abs_mul, abs_mul _ ((kc ^ 2 + 1 / a.L0 ^ 2) ^ (-(11:ℝ)/6))]
    refine mul_le_mul_of_nonneg_left ?_ (abs_nonneg _)
    have h0 : 0 < kc ^ 2 + 1 / a.L0 ^ 2 := by positivity
    have h1 : kc ^ 2 + 1 / a.L0 ^ 2 ≤ k ^ 2 + 1 / a.L0 ^ 2 := by nlinarith
    rw [abs_of_nonneg (Real.rpow_nonneg (h0.le.trans h1) _), abs_of_nonneg (Real.rpow_nonneg h0.le _)]
    exact Real.rpow_le_rpow_of_nonpos h0 h1 (by norm_num)

/-- C473: when the grid of frequencies is refined (at a fixed width `2 K`), every error of the breakdown tends to the root of the integral
of its density over the corrected area, and the fitting error to that of the spectrum outside of it, in nanometres. -/
theorem breakdown_limit (circle : Bool) (kc K off wvl : ℝ) (Fn Fa Fs Fd Fc : ℝ → ℝ → ℝ) (a : Atmosphere.Atm) (N : ℝ → ℕ) (s : ℕ)
    (r : ℝ → FRun.Run (ℕ × ℕ)) (hk : 0 < kc) (hK : 0 < K)
    (hr : Runs circle kc off wvl Fn Fa Fs Fd Fc (Atmosphere.spectrum a) N s r)
    (hn : Density kc off Fn) (ha : Density kc off Fa) (hs : Density kc off Fs) (hd : Density kc off Fd) (hch : Density kc off Fc)
    (hN : Tendsto (fun h => (N h : ℝ) * h) (𝓝[>] 0) (𝓝 (2 * K)))
    (rep : ℝ → FRun.Report) (hrep : ∀ h, (r h).breakdown s = .ok (some (rep h))) :
    (∀ y : ℝ → ℝ, (∀ h, (rep h).noise = some (y h)) → Tendsto y (𝓝[>] 0) (𝓝 (Real.sqrt (areaIntegral circle kc off Fn) * (wvl * 1e9 / 2 / Real.pi)))) ∧
    (∀ y : ℝ → ℝ, (∀ h, (rep h).aliasing = some (y h)) → Tendsto y (𝓝[>] 0) (𝓝 (Real.sqrt (areaIntegral circle kc off Fa) * (wvl * 1e9 / 2 / Real.pi)))) ∧
    (∀ y : ℝ → ℝ, (∀ h, (rep h).st = some (y h)) → Tendsto y (𝓝[>] 0) (𝓝 (Real.sqrt (areaIntegral circle kc off Fs) * (wvl * 1e9 / 2 / Real.pi)))) ∧
    (∀ y : ℝ → ℝ, (∀ h, (rep h).diffRef = some (y h)) → Tendsto y (𝓝[>] 0) (𝓝 (Real.sqrt (areaIntegral circle kc off Fd) * (wvl * 1e9 / 2 / Real.pi)))) ∧
    (∀ y : ℝ → ℝ, (∀ h, (rep h).chrom = some (y h)) → Tendsto y (𝓝[>] 0) (𝓝 (Real.sqrt (areaIntegral circle kc off Fc) * (wvl * 1e9 / 2 / Real.pi)))) ∧
    (∀ y : ℝ → ℝ, (∀ h, (rep h).fit = some (y h)) →
      Tendsto y (𝓝[>] 0) (𝓝 (Real.sqrt (outsideIntegral circle kc K off (Atmosphere.spectrum a)) * (wvl * 1e9 / 2 / Real.pi)))) := by
  have key : ∀ h, ∃ mc, (r h).wfeMcao = .ok mc ∧ (rep h).noise = FRun.rms (r h).u ((r h).sumAO ((r h).noise s)) ∧
      (rep h).aliasing = FRun.rms (r h).u ((r h).sumAO (r h).aliasing) ∧ (rep h).st = FRun.rms (r h).u ((r h).sumAO ((r h).st s)) ∧
      (rep h).diffRef = FRun.rms (r h).u ((r h).sumAO ((r h).diffRef s)) ∧ (rep h).chrom = FRun.rms (r h).u ((r h).sumAO ((r h).chrom s)) ∧
      (rep h).fit = FRun.rms (r h).u ((r h).sumAll (r h).fit) := by
    intro h
    have := hrep h
    unfold FRun.Run.breakdown at this
    rw [if_pos (hr.closed h)] at this
    cases e : (r h).wfeMcao with
    | error x => rw [e] at this; exact absurd this (by simp [Bind.bind, Except.bind])
    | ok mc =>
      rw [e] at this
      simp only [Bind.bind, Except.bind, Pure.pure, Except.pure, Except.ok.injEq, Option.some.injEq] at this
      refine ⟨mc, rfl, ?_⟩
      rw [← this]
      exact ⟨rfl, rfl, rfl, rfl, rfl, rfl⟩
  refine ⟨fun y hy => ?_, fun y hy => ?_, fun y hy => ?_, fun y hy => ?_, fun y hy => ?_, fun y hy => ?_⟩
  · refine rms_limit kc wvl hk _ y _ _ hr.u (area_limit circle kc off Fn hk hn) fun h => ?_
    obtain ⟨_, _, a1, a2, a3, a4, a5, a6⟩ := key h
    rw [← hr.noise, ← a1, hy h]
  · refine rms_limit kc wvl hk _ y _ _ hr.u (area_limit circle kc off Fa hk ha) fun h => ?_
    obtain ⟨_, _, a1, a2, a3, a4, a5, a6⟩ := key h
    rw [← hr.aliasing, ← a2, hy h]
  · refine rms_limit kc wvl hk _ y _ _ hr.u (area_limit circle kc off Fs hk hs) fun h => ?_
    obtain ⟨_, _, a1, a2, a3, a4, a5, a6⟩ := key h
    rw [← hr.st, ← a3, hy h]
  · refine rms_limit kc wvl hk _ y _ _ hr.u (area_limit circle kc off Fd hk hd) fun h => ?_
    obtain ⟨_, _, a1, a2, a3, a4, a5, a6⟩ := key h
    rw [← hr.diffRef, ← a4, hy h]
  · refine rms_limit kc wvl hk _ y _ _ hr.u (area_limit circle kc off Fc hk hch) fun h => ?_
    obtain ⟨_, _, a1, a2, a3, a4, a5, a6⟩ := key h
    rw [← hr.chrom, ← a5, hy h]
  · refine rms_limit kc wvl hk _ y _ _ hr.u (outside_limit circle kc K off _ _ hk hK (spectrum_meets a kc hk).1 (spectrum_meets a kc hk).2 N hN) fun h => ?_
    obtain ⟨_, _, a1, a2, a3, a4, a5, a6⟩ := key h
    rw [← hr.fit, ← a6, hy h]

/-! ### A case that meets the hypotheses -/

/-- Noise of density one in the corrected area, nothing else but the turbulence left outside of it, on a grid twice as wide as the corrected area. -/
noncomputable def demoRun (a : Atmosphere.Atm) (h : ℝ) : FRun.Run (ℕ × ℕ) where
  grid := range (2 * Freq.resAO [1] h) ×ˢ range (2 * Freq.resAO [1] h)
  block := fun p => decide (p.1 < Freq.resAO [1] h ∧ p.2 < Freq.resAO [1] h)
  noise := fun _ p => if Freq.mskIn false 1 (Freq.freqAt (Freq.resAO [1] h) h 0 p.1) (Freq.freqAt (Freq.resAO [1] h) h 0 p.2) then 1 else 0
  aliasing := fun _ => 0
  diffRef := fun _ _ => 0
  chrom := fun _ _ => 0
  st := fun _ _ => 0
  cone := fun _ => 0
  mcao := fun _ _ _ => 0
  fit := fun p => Freq.fittingPsd (Atmosphere.spectrum a) false 1 (Freq.freqAt (2 * Freq.resAO [1] h) h 0 p.1) (Freq.freqAt (2 * Freq.resAO [1] h) h 0 p.2)
  vib := fun _ => 0
  tilt := fun _ => 1
  extra := fun _ _ => 0
  u := 2 * 1 / Freq.resAO [1] h * (1e-6 * 1e9 / 2 / Real.pi)
  nGs := 1
  height := 0
  addMcao := false
  tiltOn := false
  wind := false
  opd := none
  D := 8
  spot := (0, 0)
  extraNm := 0
  wvlRef := 1e-6
  closed := true

theorem demo_runs (a : Atmosphere.Atm) : Runs false 1 0 1e-6 (fun _ _ => 1) (fun _ _ => 0) (fun _ _ => 0) (fun _ _ => 0) (fun _ _ => 0)
    (Atmosphere.spectrum a) (fun h => 2 * Freq.resAO [1] h) 0 (demoRun a) := by
  have zero : ∀ h, areaSum false 1 0 h (fun _ _ => 0) = 0 := by intro h; simp [areaSum]
  refine ⟨fun _ => rfl, fun _ => rfl, fun h => ?_, fun h => ?_, fun h => ?_, fun h => ?_, fun h => ?_, fun h => ?_⟩
  · simp only [FRun.Run.sumAO, demoRun, areaSum, Finset.sum_product, decide_eq_true_eq]
    set n := Freq.resAO [1] h
    have out : ∀ F : ℕ → ℕ → ℝ, ∑ i ∈ range (2 * n), ∑ j ∈ range (2 * n), (if i < n ∧ j < n then F i j else 0) = ∑ i ∈ range n, ∑ j ∈ range n, F i j := by
      intro F
      have one : ∀ (g : ℕ → ℝ), ∑ i ∈ range (2 * n), (if i < n then g i else 0) = ∑ i ∈ range n, g i := by
        intro g
        rw [← Finset.sum_filter]
        congr 1
        ext i
        simp only [Finset.mem_filter, Finset.mem_range]
        omega
      rw [← one]
      refine Finset.sum_congr rfl fun i _ => ?_
      by_cases hi : i < n
      · rw [if_pos hi, ← one]
        refine Finset.sum_congr rfl fun j _ => by simp [hi]
      · rw [if_neg hi]
        refine Finset.sum_eq_zero fun j _ => by simp [hi]
    exact out _
  · rw [zero]; simp [FRun.Run.sumAO, demoRun]
  · rw [zero]; simp [FRun.Run.sumAO, demoRun]
  · rw [zero]; simp [FRun.Run.sumAO, demoRun]
  · rw [zero]; simp [FRun.Run.sumAO, demoRun]
  · simp only [FRun.Run.sumAll, demoRun, Finset.sum_product]

theorem const_density (K off c : ℝ) : Density K off fun _ _ => c :=
  ⟨⟨|c|, fun _ _ _ _ => le_rfl⟩, Eventually.of_forall fun _ => Eventually.of_forall fun _ _ _ => continuousAt_const⟩

/-- The hypotheses of `breakdown_limit` hold for `demoRun`, whose noise is a number. -/
example (a : Atmosphere.Atm) : ∃ rep : ℝ → FRun.Report, (∀ h, (demoRun a h).breakdown 0 = .ok (some (rep h))) ∧
    Tendsto (fun h => ((2 * Freq.resAO [1] h : ℕ) : ℝ) * h) (𝓝[>] 0) (𝓝 (2 * 2)) ∧ ∃ y : ℝ → ℝ, ∀ h, (rep h).noise = some (y h) := by
  have e : ∀ h, ∃ p, (demoRun a h).breakdown 0 = .ok (some p) ∧ ∃ y, p.noise = some y := by
    intro h
    refine ⟨_, rfl, ?_⟩
    refine ⟨Real.sqrt ((demoRun a h).sumAO ((demoRun a h).noise 0)) * (demoRun a h).u, ?_⟩
    · have n0 : 0 ≤ (demoRun a h).sumAO ((demoRun a h).noise 0) := by
        refine Finset.sum_nonneg fun p _ => ?_
        simp only [demoRun, decide_eq_true_eq]
        split_ifs <;> norm_num
      simp only [FRun.rms, Breakdown.sqrtO]
      rw [if_neg (not_lt.2 n0)]
      rfl
  choose rep h1 h2 using e
  choose y hy using h2
  refine ⟨rep, h1, ?_, y, hy⟩
  have := (resAO_width 1 one_pos).const_mul 2
  rw [show (2:ℝ) * (2 * 1) = 2 * 2 by norm_num] at this
  refine this.congr fun h => ?_
  push_cast
  ring

end P3.Refine
