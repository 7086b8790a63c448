import Verif.Props.Breakdown
import Mathlib.Tactic.NormNum.RealSqrt
import Mathlib.Tactic.Bound
/-
C08, C48: the breakdown exists for physical systems, its terms have the textbook form, and focal
anisoplanatism behaves physically.
-/
namespace P3.Breakdown
open Real P3.Atmosphere P3.Hardware

theorem rad2nm_of_nonneg {wvl x : ℝ} (h : 0 ≤ x) :
    rad2nm wvl x = some (sqrt x * wvl * 10 ^ 9 / 2 / π) := by
  unfold rad2nm; rw [sqrtO_of_nonneg h]; rfl

theorem add_some (a b : ℝ) : add (some a) (some b) = some (a + b) := rfl

theorem finish_total_some (S : Sys) (f a hl hn tl tn fo : ℝ) :
    (finish S (some f) (some a) (some hl) (some hn) (some tl) (some tn) (some fo)).total =
      some (sqrt (f ^ 2 + a ^ 2 + hl ^ 2 + hn ^ 2 + tl ^ 2 + tn ^ 2 + fo ^ 2)) := by
  simp only [finish, sq, add_some, Option.map_some, Option.bind_some]
  rw [sqrtO_of_nonneg (by positivity)]

/-- The relative contribution of a layer at `g` times the laser height. -/
noncomputable def layerFocal (c g : ℝ) : ℝ := 0.5 * g ^ ((5:ℝ)/3) - c * g ^ 2

theorem layerFocal_cube (c x : ℝ) (hx : 0 ≤ x) : layerFocal c (x ^ 3) = 0.5 * x ^ 5 - c * x ^ 6 := by
  unfold layerFocal
  have : (x ^ 3 : ℝ) ^ ((5:ℝ)/3) = x ^ 5 := by
    rw [← Real.rpow_natCast x 3, ← Real.rpow_mul hx]
    norm_num
  rw [this]; ring

theorem exists_cube (g : ℝ) (hg : 0 ≤ g) : ∃ x, 0 ≤ x ∧ x ^ 3 = g :=
  ⟨g ^ ((1:ℝ)/3), Real.rpow_nonneg hg _, by rw [← Real.rpow_natCast, ← Real.rpow_mul hg]; norm_num⟩

theorem layerFocal_nonneg (c g : ℝ) (hc : c ≤ 0.5) (h0 : 0 ≤ g) (h1 : g ≤ 1) :
    0 ≤ layerFocal c g := by
  obtain ⟨x, hx, rfl⟩ := exists_cube g h0
  rw [layerFocal_cube c x hx]
  have hx1 : x ≤ 1 := by
    by_contra h
    push Not at h
    have : (1:ℝ) < x ^ 3 := one_lt_pow₀ h (by norm_num)
    linarith
  have h5 : 0 ≤ x ^ 5 := by positivity
  have : x ^ 6 ≤ x ^ 5 := by
    calc x ^ 6 = x ^ 5 * x := by ring
      _ ≤ x ^ 5 * 1 := by gcongr
      _ = x ^ 5 := by ring
  by_cases hc0 : c ≤ 0
  · have : 0 ≤ (-c) * x ^ 6 := mul_nonneg (by linarith) (by positivity)
    nlinarith
  · push Not at hc0
    nlinarith

theorem layerFocal_mono (c a b : ℝ) (hc : 0 < c) (h0 : 0 ≤ a) (hab : a ≤ b)
    (hb : b ≤ (5 / (12 * c)) ^ 3) : layerFocal c a ≤ layerFocal c b := by
  obtain ⟨x, hx, rfl⟩ := exists_cube a h0
  obtain ⟨y, hy, rfl⟩ := exists_cube b (h0.trans hab)
  rw [layerFocal_cube c x hx, layerFocal_cube c y hy]
  have hxy : x ≤ y := (pow_le_pow_iff_left₀ hx hy (by norm_num)).mp hab
  have hyc : y ≤ 5 / (12 * c) := (pow_le_pow_iff_left₀ hy (by positivity) (by norm_num)).mp hb
  have hyc' : y * (12 * c) ≤ 5 := (le_div_iff₀ (by positivity)).mp hyc
  have key : 5 * (y ^ 6 - x ^ 6) ≤ 6 * y * (y ^ 5 - x ^ 5) := by
    have : 6 * y * (y ^ 5 - x ^ 5) - 5 * (y ^ 6 - x ^ 6) =
      (y - x) ^ 2 * (y ^ 4 + 2 * y ^ 3 * x + 3 * y ^ 2 * x ^ 2 + 4 * y * x ^ 3 + 5 * x ^ 4) := by ring
    have : 0 ≤ (y - x) ^ 2 * (y ^ 4 + 2 * y ^ 3 * x + 3 * y ^ 2 * x ^ 2 + 4 * y * x ^ 3 + 5 * x ^ 4) := by
      positivity
    linarith
  have h5 : x ^ 5 ≤ y ^ 5 := by gcongr
  nlinarith [mul_nonneg (sub_nonneg.mpr h5) (sub_nonneg.mpr hyc'), mul_le_mul_of_nonneg_left key hc.le]

/-- Spec: physical description of an AO system: positive sizes, non-negative profile, a
high-order loop with a bandwidth, layers below the laser star. -/
structure Physical (S : Sys) : Prop where
  D : 0 < S.D
  r0 : 0 < S.atm.r0
  wvl : 0 < S.atm.wvl
  pitch : 0 ≤ S.pitch
  weights : ∀ w ∈ S.atm.weights, 0 ≤ w
  speeds : ∀ v ∈ S.atm.wSpeed, 0 ≤ v
  bw : ∃ b, 0 < b ∧ S.rtc.holoop.bandwidth = some b
  ttbw : ∀ l, S.rtc.ttloop = some l → ∃ b, 0 < b ∧ l.bandwidth = some b
  lgs : ∀ z, S.lgsHeight = some z → ∀ h ∈ S.atm.heights, h ≤ z

theorem sum_zipWith_nonneg (f : ℝ → ℝ → ℝ) (l m : List ℝ) (h : ∀ a ∈ l, ∀ b ∈ m, 0 ≤ f a b) :
    0 ≤ (List.zipWith f l m).sum := by
  apply List.sum_nonneg
  intro x hx
  rw [List.mem_iff_getElem] at hx
  obtain ⟨i, hi, rfl⟩ := hx
  rw [List.getElem_zipWith]
  exact h _ (List.getElem_mem _) _ (List.getElem_mem _)

theorem meanWind_nonneg (a : Atm) (hw : ∀ w ∈ a.weights, 0 ≤ w) (hv : ∀ v ∈ a.wSpeed, 0 ≤ v) :
    0 ≤ meanWind a := by
  unfold meanWind wsum53
  refine Real.rpow_nonneg (sum_zipWith_nonneg _ _ _ fun w h v h' => ?_) _
  exact mul_nonneg (hw w h) (Real.rpow_nonneg (hv v h') _)

theorem modesSum_nonneg (n : ℕ) (c : ℤ) : 0 ≤ modesSum n c := by
  unfold modesSum
  apply List.sum_nonneg
  intro x hx
  obtain ⟨k, -, rfl⟩ := List.mem_map.mp hx
  positivity

theorem lag_some (S : Sys) (hS : Physical S) (b s : ℝ) (hb : 0 < b) (hs : 0 ≤ s) :
    lag S (some b) s = some (sqrt (0.04 * (meanWind S.atm / S.D / b) * (S.D / S.atm.r0) ^ ((5:ℝ)/3) * s)
      * S.atm.wvl * 10 ^ 9 / 2 / π) := by
  unfold lag
  rw [Option.bind_some, if_neg hb.ne']
  apply rad2nm_of_nonneg
  have := meanWind_nonneg _ hS.weights hS.speeds
  have := hS.D; have := hS.r0
  positivity

theorem focal_var_nonneg (S : Sys) (hS : Physical S) (z : ℝ) (hz : S.lgsHeight = some z) (hz0 : 0 < z) :
    0 ≤ (List.zipWith (fun w h => if h > 0 then w * (0.5 * (h / z) ^ ((5:ℝ)/3)
      - 0.425 * (h / z) ^ 2) else 0) S.atm.weights S.atm.heights).sum := by
  refine sum_zipWith_nonneg _ _ _ fun w hw h hh => ?_
  split_ifs with h0
  · refine mul_nonneg (hS.weights w hw) ?_
    exact layerFocal_nonneg 0.425 (h / z) (by norm_num) (by positivity)
      ((div_le_one hz0).mpr (hS.lgs z hz h hh))
  · exact le_rfl

theorem focal_some (S : Sys) (hS : Physical S) (z : ℝ) (hz : S.lgsHeight = some z) (hz0 : 0 < z) :
    ∃ y, focal S.D z S.atm = some y := by
  unfold focal
  have h1 := focal_var_nonneg S hS z hz hz0
  have h2 : 0 ≤ (S.D / S.atm.r0) ^ ((5:ℝ)/3) := Real.rpow_nonneg (div_pos hS.D hS.r0).le _
  dsimp only
  rw [sqrtO_of_nonneg (mul_nonneg h1 h2)]
  exact ⟨_, rfl⟩

/-- C124: a physical system whose noise variance is available gets a complete breakdown. -/
theorem breakdown_defined_partial (S : Sys) (hS : Physical S) (hwfs : ∃ w ws, S.wfs.wfs = w :: ws ∧ 0 ≤ w.dsub)
    (hn : ∃ v m, hoNoiseVar S = .ok v ∧ mean v = some m ∧ 0 ≤ m)
    (ht : ∀ l t, ttPart S = some (l, t) → ∃ v m, ttNoiseVar S t = .ok v ∧ mean v = some m ∧ 0 ≤ m) :
    ∃ e T, errorBreakdown S = .ok e ∧ e.total = some T := by
  obtain ⟨w, ws, hw, hd⟩ := hwfs
  obtain ⟨v, m, hv, hm, hm0⟩ := hn
  obtain ⟨b, hb, hbw⟩ := hS.bw
  have hr := hS.r0
  have hp : 0 ≤ (0.23:ℝ) * (S.pitch / S.atm.r0) ^ ((5:ℝ)/3) := by
    have := hS.pitch
    positivity
  have hda : 0 ≤ (0.07:ℝ) * (w.dsub / S.atm.r0) ^ ((5:ℝ)/3) := by positivity
  have hfo : ∃ y, focalTerm S = some y := by
    unfold focalTerm
    cases hz : S.lgsHeight with
    | none => exact ⟨_, rfl⟩
    | some z =>
      dsimp only
      split_ifs with h
      · exact focal_some S hS z hz h
      · exact ⟨_, rfl⟩
  obtain ⟨y, hy⟩ := hfo
  unfold errorBreakdown
  rw [hw]
  dsimp only
  rw [hv]
  dsimp only
  rw [hy, rad2nm_of_nonneg hp, rad2nm_of_nonneg hda, hbw, hm, Option.bind_some, rad2nm_of_nonneg hm0,
    lag_some S hS b _ hb (modesSum_nonneg _ _)]
  cases htt : ttPart S with
  | none => exact ⟨_, _, rfl, finish_total_some ..⟩
  | some lt =>
    obtain ⟨l, t⟩ := lt
    obtain ⟨v', m', hv', hm', hm0'⟩ := ht l t htt
    have hl : S.rtc.ttloop = some l := by
      unfold ttPart at htt
      split at htt
      · rename_i l' t' h1 h2
        cases htt; exact h1
      · cases htt
    obtain ⟨b', hb', hbw'⟩ := hS.ttbw l hl
    dsimp only
    rw [hv']
    dsimp only
    rw [hm', Option.bind_some, rad2nm_of_nonneg hm0', hbw', lag_some S hS b' _ hb' (by positivity)]
    exact ⟨_, _, rfl, finish_total_some ..⟩

/-- C08: the fitting and aliasing terms are the textbook formulas, `sqrt(0.23 (pitch/r0)^(5/3))` and
`sqrt(0.07 (dsub/r0)^(5/3))` radians at the atmosphere's wavelength, converted to nanometres. -/
theorem breakdown_fitting_aliasing (S : Sys) (hr : 0 < S.atm.r0) (hp : 0 ≤ S.pitch) (w : Noise.Wfs)
    (hw : S.wfs.wfs.head? = some w) (hd : 0 ≤ w.dsub) (e : Wfe) (h : errorBreakdown S = .ok e) :
    e.fitting = some (sqrt (0.23 * (S.pitch / S.atm.r0) ^ ((5:ℝ)/3)) / (2 * π) * (S.atm.wvl * 10 ^ 9)) ∧
    e.aliasing = some (sqrt (0.07 * (w.dsub / S.atm.r0) ^ ((5:ℝ)/3)) / (2 * π) * (S.atm.wvl * 10 ^ 9)) := by
  have hp' : 0 ≤ (0.23:ℝ) * (S.pitch / S.atm.r0) ^ ((5:ℝ)/3) := by positivity
  have hda : 0 ≤ (0.07:ℝ) * (w.dsub / S.atm.r0) ^ ((5:ℝ)/3) := by positivity
  cases hws : S.wfs.wfs with
  | nil => rw [hws] at hw; cases hw
  | cons w' ws =>
    rw [hws] at hw; cases hw
    unfold errorBreakdown at h
    rw [hws] at h
    dsimp only at h
    rw [rad2nm_of_nonneg hp', rad2nm_of_nonneg hda] at h
    split at h
    · cases h
    · split at h
      · cases h
        exact ⟨congrArg some (by ring), congrArg some (by ring)⟩
      · split at h
        · cases h
        · cases h
          exact ⟨congrArg some (by ring), congrArg some (by ring)⟩

/-- C08: a finer mirror lowers the fitting term and never raises the total (all the rest equal). -/
theorem breakdown_pitch_mono (S : Sys) (p : ℝ) (hw : 0 ≤ S.atm.wvl) (hr : 0 < S.atm.r0) (hp0 : 0 ≤ p)
    (hp : p ≤ S.pitch) (e e' : Wfe) (h : errorBreakdown S = .ok e)
    (h' : errorBreakdown { S with pitch := p } = .ok e') (T T' : ℝ) (hT : e.total = some T)
    (hT' : e'.total = some T') : T' ≤ T := by
  cases hws : S.wfs.wfs with
  | nil => unfold errorBreakdown at h; rw [hws] at h; cases h
  | cons w ws =>
    have hp1 : 0 ≤ (0.23:ℝ) * (S.pitch / S.atm.r0) ^ ((5:ℝ)/3) := by
      have : 0 ≤ S.pitch := hp0.trans hp
      positivity
    have hp2 : 0 ≤ (0.23:ℝ) * (p / S.atm.r0) ^ ((5:ℝ)/3) := by positivity
    have hle : sqrt (0.23 * (p / S.atm.r0) ^ ((5:ℝ)/3)) * S.atm.wvl * 10 ^ 9 / 2 / π ≤
        sqrt (0.23 * (S.pitch / S.atm.r0) ^ ((5:ℝ)/3)) * S.atm.wvl * 10 ^ 9 / 2 / π := by gcongr
    have h0 : 0 ≤ sqrt (0.23 * (p / S.atm.r0) ^ ((5:ℝ)/3)) * S.atm.wvl * 10 ^ 9 / 2 / π := by positivity
    have key : ∀ (a hl hn tl tn fo : Option ℝ) (f f' : ℝ), 0 ≤ f' → f' ≤ f →
        (finish S (some f) a hl hn tl tn fo).total = some T →
        (finish { S with pitch := p } (some f') a hl hn tl tn fo).total = some T' → T' ≤ T := by
      intro a hl hn tl tn fo f f' hf0 hf k1 k2
      obtain ⟨l, hl1, hl2, -⟩ := finish_spec _ _ _ _ _ _ _ _ _ k1
      obtain ⟨l', hl1', hl2', -⟩ := finish_spec _ _ _ _ _ _ _ _ _ k2
      have e1 : l.map some = some f :: [a, hl, hn, tl, tn, fo] := by rw [← hl1]; rfl
      have e2 : l'.map some = some f' :: [a, hl, hn, tl, tn, fo] := by rw [← hl1']; rfl
      cases l with
      | nil => cases e1
      | cons x xs => cases l' with
        | nil => cases e2
        | cons y ys =>
          simp only [List.map_cons, List.cons.injEq, Option.some.injEq] at e1 e2
          have : xs = ys := by
            have := e1.2.trans e2.2.symm
            exact List.map_injective_iff.mpr (Option.some_injective _) this
          subst this
          rw [hl2, hl2', e1.1, e2.1]
          apply Real.sqrt_le_sqrt
          simp only [List.map_cons, List.sum_cons]
          gcongr
    unfold errorBreakdown at h h'
    have hws' : ({ S with pitch := p } : Sys).wfs.wfs = w :: ws := hws
    rw [hws] at h
    rw [hws'] at h'
    dsimp only at h h'
    rw [rad2nm_of_nonneg hp1] at h
    rw [rad2nm_of_nonneg hp2] at h'
    have c1 : hoNoiseVar { S with pitch := p } = hoNoiseVar S := rfl
    have c2 : ttPart { S with pitch := p } = ttPart S := rfl
    have c3 : ∀ t, ttNoiseVar { S with pitch := p } t = ttNoiseVar S t := fun _ => rfl
    rw [c1, c2] at h'
    cases hv : hoNoiseVar S with
    | error e => rw [hv] at h; cases h
    | ok v =>
      rw [hv] at h h'
      dsimp only at h h'
      cases htt : ttPart S with
      | none =>
        rw [htt] at h h'
        cases h; cases h'
        exact key _ _ _ _ _ _ _ _ h0 hle hT hT'
      | some lt =>
        rw [htt] at h h'
        dsimp only at h h'
        rw [c3] at h'
        cases hvt : ttNoiseVar S lt.2 with
        | error e => rw [hvt] at h; cases h
        | ok vt =>
          rw [hvt] at h h'
          cases h; cases h'
          exact key _ _ _ _ _ _ _ _ h0 hle hT hT'

/-- A concrete 8 m system: hypotheses of the theorems above are met. -/
noncomputable def sys1 : Sys :=
  { D := 8, atm := Atmosphere.mk 5e-7 0.15 [1/2, 1/2] [0, 10000] [5, 20] [0, 90] (.one 25), pitch := 0.2, nCtrl := 40
    wfs := Noise.sensor1, hoNoise := some [0.1], rtc := mkRtc 0.5 500 2 none none none, tts := none
    lgsHeight := some 90000, srcWvl := 1.6e-6 }

theorem sys1_physical : Physical sys1 := by
  refine ⟨by norm_num [sys1], by norm_num [sys1, Atmosphere.mk], by norm_num [sys1, Atmosphere.mk], by norm_num [sys1],
    by norm_num [sys1, Atmosphere.mk], by norm_num [sys1, Atmosphere.mk], ?_, ?_, ?_⟩
  · refine ⟨500 / 2 / π * sqrt (0.5 / (1 + 2 * 2)), ?_, ?_⟩
    · have : (0:ℝ) < sqrt (0.5 / (1 + 2 * 2)) := Real.sqrt_pos.mpr (by norm_num)
      have := Real.pi_pos
      positivity
    · simp only [sys1, mkRtc, bandwidth]
      rw [if_neg (by norm_num)]
  · intro l hl; simp [sys1, mkRtc] at hl
  · intro z hz
    simp only [sys1, Option.some.injEq] at hz
    subst hz
    norm_num [sys1, Atmosphere.mk]

example : ∃ e T, errorBreakdown sys1 = .ok e ∧ e.total = some T := by
  refine breakdown_defined_partial sys1 sys1_physical ⟨Noise.wfs1, [], rfl, by norm_num [Noise.wfs1]⟩
    ⟨[some 0.1], 0.1, by simp [hoNoiseVar, sys1], by norm_num [mean], by norm_num⟩ ?_
  intro l t h
  simp [ttPart, sys1, mkRtc] at h

/-- C08: `np.mean` of numbers, and of anything with a missing value. -/
theorem mean_spec (v : List ℝ) (l : List (Option ℝ)) :
    (v ≠ [] → mean (v.map some) = some (v.sum / v.length)) ∧ mean [] = none ∧ (none ∈ l → mean l = none) := by
  have hm : ∀ v : List ℝ, (v.map some).mapM id = some v := by
    intro v
    induction v with
    | nil => rfl
    | cons a t ih => simp [List.mapM_cons, ih]
  have hn : ∀ l : List (Option ℝ), none ∈ l → l.mapM id = none := by
    intro l
    induction l with
    | nil => simp
    | cons a t ih =>
      intro h
      rcases List.mem_cons.1 h with h' | h'
      · subst h'; simp [List.mapM_cons]
      · cases a <;> simp [List.mapM_cons, ih h']
  refine ⟨fun h => ?_, by simp [mean], fun h => ?_⟩
  · unfold mean
    rw [if_neg (by simpa using h), hm]
    rfl
  · unfold mean
    rw [hn l h]
    simp

/-- C08: where every term comes from. The servo-lag sum starts at radial order 3 when a tip-tilt loop corrects the
first orders, at 1 otherwise; without tip-tilt part its two terms are zero; noise is the mean of the variances. -/
theorem breakdown_terms (S : Sys) (e : Wfe) (h : errorBreakdown S = .ok e) :
    (S.rtc.ttloop = none ∨ S.tts = none →
      e.hoLag = lag S S.rtc.holoop.bandwidth (modesSum 1 S.nCtrl) ∧ e.ttLag = some 0 ∧ e.ttNoise = some 0) ∧
    (∀ l t, S.rtc.ttloop = some l → S.tts = some t →
      e.hoLag = lag S S.rtc.holoop.bandwidth (modesSum 3 S.nCtrl) ∧
      e.ttLag = lag S l.bandwidth ((2:ℝ) ^ (-(2:ℝ)/3)) ∧
      ∃ v, ttNoiseVar S t = .ok v ∧ e.ttNoise = (mean v).bind (rad2nm S.atm.wvl)) ∧
    (∃ v, hoNoiseVar S = .ok v ∧ e.hoNoise = (mean v).bind (rad2nm S.atm.wvl)) ∧
    (∀ z, S.lgsHeight = some z → 0 < z → e.focal = focal S.D z S.atm) ∧
    ((∀ z, S.lgsHeight = some z → z ≤ 0) → e.focal = some 0) := by
  have hfo : (∀ z, S.lgsHeight = some z → 0 < z → focalTerm S = focal S.D z S.atm) ∧
      ((∀ z, S.lgsHeight = some z → z ≤ 0) → focalTerm S = some 0) := by
    unfold focalTerm
    constructor
    · intro z hz h0; rw [hz]; exact if_pos h0
    · intro hz
      cases hl : S.lgsHeight with
      | none => rfl
      | some z => exact if_neg (not_lt.2 (hz z hl))
  unfold errorBreakdown at h
  split at h
  · cases h
  · dsimp only at h
    split at h
    · cases h
    · rename_i vn hvn
      split at h
      · rename_i hp
        cases h
        have hp1 : (ttPart S).isSome = false := by rw [hp]; rfl
        refine ⟨fun _ => ⟨?_, rfl, rfl⟩, ?_, ⟨vn, hvn, rfl⟩, hfo.1, hfo.2⟩
        · show lag S _ (modesSum (if (ttPart S).isSome = true then 3 else 1) _) = _
          rw [hp1]; rfl
        · intro l t hl ht
          unfold ttPart at hp
          rw [hl, ht] at hp
          cases hp
      · rename_i l t hp
        split at h
        · cases h
        · rename_i vt hvt
          cases h
          have hp1 : (ttPart S).isSome = true := by rw [hp]; rfl
          refine ⟨?_, ?_, ⟨vn, hvn, rfl⟩, hfo.1, hfo.2⟩
          · unfold ttPart at hp
            rintro (hl | ht)
            · rw [hl] at hp; cases hp
            · rw [ht] at hp; split at hp <;> simp_all
          · intro l' t' hl ht
            have hp2 := hp
            unfold ttPart at hp2
            rw [hl, ht] at hp2
            cases hp2
            refine ⟨?_, rfl, vt, hvt, rfl⟩
            show lag S _ (modesSum (if (ttPart S).isSome = true then 3 else 1) _) = _
            rw [hp1]; rfl

/-- C08: the sum of the servo-lag term is that of the inverses of `(n+1)^(2/3)` over the radial orders from the first
one that is corrected to the largest one below `√π/2` times the controlled order plus one. -/
theorem modesSum_value (nMin : ℕ) (nCtrl : ℤ) :
    modesSum nMin nCtrl = ∑ n ∈ Finset.Ico nMin ⌊√π / 2 * (nCtrl + 1)⌋.toNat, 1 / ((n : ℝ) + 1) ^ ((2:ℝ)/3) := by
  have hs : √(π * 0.5 ^ 2) = √π / 2 := by
    rw [Real.sqrt_mul Real.pi_pos.le, Real.sqrt_sq (by norm_num)]; ring
  have key : ∀ N : ℕ, ((List.range' nMin (N - nMin)).map (fun n : ℕ => ((n : ℝ) + 1) ^ (-(2:ℝ)/3))).sum =
      ∑ n ∈ Finset.Ico nMin N, 1 / ((n : ℝ) + 1) ^ ((2:ℝ)/3) := by
    intro N
    have e : ∀ n : ℕ, ((n : ℝ) + 1) ^ (-(2:ℝ)/3) = 1 / ((n : ℝ) + 1) ^ ((2:ℝ)/3) := by
      intro n
      rw [neg_div, Real.rpow_neg (by positivity), one_div]
    simp only [e]
    rw [Finset.sum_Ico_eq_sum_range]
    generalize N - nMin = k
    rw [List.range'_eq_map_range, List.map_map, ← List.sum_toFinset _ List.nodup_range, List.toFinset_range]
    rfl
  unfold modesSum
  simp only [hs]
  exact key _

/-- C08: with more modes corrected by the tip-tilt loop, less servo-lag is left to the high-order one. -/
theorem modesSum_tt_le (nCtrl : ℤ) : modesSum 3 nCtrl ≤ modesSum 1 nCtrl := by
  rw [modesSum_value, modesSum_value]
  apply Finset.sum_le_sum_of_subset_of_nonneg
  · exact Finset.Ico_subset_Ico (by norm_num) le_rfl
  · intros; positivity

/-- C08: tip-tilt noise variances given in the parameter file are used: the term is the root of their mean, in
nanometres. -/
theorem tt_noise_given (S : Sys) (e : Wfe) (h : errorBreakdown S = .ok e) (l : Loop) (w : Noise.Sensor) (v : List ℝ)
    (hl : S.rtc.ttloop = some l) (ht : S.tts = some (w, some v)) (hv : v ≠ []) :
    e.ttNoise = rad2nm S.atm.wvl (v.sum / v.length) := by
  obtain ⟨-, h2, -⟩ := breakdown_terms S e h
  obtain ⟨-, -, v', hv', hn⟩ := h2 l _ hl ht
  simp only [ttNoiseVar, Except.ok.injEq] at hv'
  subst hv'
  rw [hn, (mean_spec v []).1 hv]
  rfl

/-! ### Cases that meet the hypotheses -/

theorem sys1_ok (p : ℝ) (hp : 0 ≤ p) : ∃ e T, errorBreakdown { sys1 with pitch := p } = .ok e ∧ e.total = some T := by
  have h := sys1_physical
  refine breakdown_defined_partial { sys1 with pitch := p } ⟨h.1, h.2, h.3, ?_, h.5, h.6, h.7, h.8, h.9⟩ ⟨Noise.wfs1, [], rfl, by norm_num [Noise.wfs1]⟩
    ⟨[some 0.1], 0.1, by simp [hoNoiseVar, sys1], by norm_num [mean], by norm_num⟩ ?_
  · exact hp
  · intro l t h
    simp [ttPart, sys1, mkRtc] at h

/-- A case meeting the hypotheses of `strehl_antitone`. -/
example : ∃ e e' T T' s s', errorBreakdown sys1 = .ok e ∧ errorBreakdown { sys1 with pitch := 1 } = .ok e' ∧ e.total = some T ∧
    e'.total = some T' ∧ e.strehl = some s ∧ e'.strehl = some s' ∧ (T < T' ↔ s' < s) := by
  have hw := sys1_physical
  obtain ⟨e, T, h, hT⟩ := sys1_ok sys1.pitch sys1_physical.pitch
  obtain ⟨e', T', h', hT'⟩ := sys1_ok 1 (by norm_num)
  have h0 : 0 ≤ sys1.atm.wvl := by norm_num [sys1, Atmosphere.mk]
  obtain ⟨_, _, _, _, _, s, hs, _⟩ := breakdown_spec sys1 h0 e h T hT
  obtain ⟨_, _, _, _, _, s', hs', _⟩ := breakdown_spec { sys1 with pitch := 1 } h0 e' h' T' hT'
  exact ⟨e, e', T, T', s, s', h, h', hT, hT', hs, hs', strehl_antitone sys1 { sys1 with pitch := 1 } e e' h h' h0 h0 rfl (by norm_num [sys1]) T T'
    s s' hT hT' hs hs'⟩

/-- A case meeting the hypotheses of `breakdown_fitting_aliasing`. -/
example : ∃ e x y, errorBreakdown sys1 = .ok e ∧ e.fitting = some x ∧ e.aliasing = some y := by
  obtain ⟨e, T, h, hT⟩ := sys1_ok sys1.pitch sys1_physical.pitch
  obtain ⟨h1, h2⟩ := breakdown_fitting_aliasing sys1 sys1_physical.r0 sys1_physical.pitch Noise.wfs1 rfl (by norm_num [Noise.wfs1]) e h
  exact ⟨e, _, _, h, h1, h2⟩

/-- A case meeting the hypotheses of `breakdown_pitch_mono`. -/
example : ∃ e e' T T', errorBreakdown { sys1 with pitch := 1 } = .ok e ∧ errorBreakdown { sys1 with pitch := 1 / 2 } = .ok e' ∧ e.total = some T ∧
    e'.total = some T' ∧ T' ≤ T := by
  obtain ⟨e, T, h, hT⟩ := sys1_ok 1 (by norm_num)
  obtain ⟨e', T', h', hT'⟩ := sys1_ok (1 / 2) (by norm_num)
  have h0 : 0 ≤ sys1.atm.wvl := by norm_num [sys1, Atmosphere.mk]
  exact ⟨e, e', T, T', h, h', hT, hT', breakdown_pitch_mono { sys1 with pitch := 1 } (1 / 2) h0 sys1_physical.r0 (by norm_num) (by norm_num) e e' h h'
    T T' hT hT'⟩

end P3.Breakdown
