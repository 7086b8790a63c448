import Verif.Model.Noise
import Mathlib.Tactic.Linarith
import Mathlib.Tactic.Ring
import Mathlib.Tactic.Positivity
import Mathlib.Tactic.NormNum
import Mathlib.Tactic.FieldSimp
/-
C13: wavefront-sensor noise.
-/
namespace P3.Noise
open Real

/-- Spec: the centroiding algorithms and sensor types of the documentation. -/
def knownAlgorithms : List String := ["cog", "tcog", "wcog", "qc"]
def IsSH (s : Sensor) : Prop := s.wfstype.toUpper = "SHACK-HARTMANN"
def IsPyramid (s : Sensor) : Prop := s.wfstype.toUpper = "PYRAMID"

/-- Spec: what is refused about one WFS. -/
def Bad (s : Sensor) (w : Wfs) : Prop :=
  w.ron < 0 ∨ (∃ n, w.nph = .fin n ∧ n < 0) ∨ w.dsub ≤ 0 ∨ (¬ IsSH s ∧ ¬ IsPyramid s) ∨
  (IsSH s ∧ (s.algorithm ∉ knownAlgorithms ∨ w.pixMas = 0))

theorem shTerms_none_iff (alg : String) (ron n nPix d t W : ℝ) :
    shTerms alg ron n nPix d t W = none ↔ alg ∉ knownAlgorithms := by
  unfold shTerms knownAlgorithms
  by_cases h1 : alg = "cog"
  · simp [h1]
  by_cases h2 : alg = "tcog"
  · simp [h2]
  by_cases h3 : alg = "wcog"
  · simp [h3]
  by_cases h4 : alg = "qc"
  · simp [h4]
  simp [h1, h2, h3, h4]

theorem one_error_iff (s : Sensor) (r0 wvl : ℝ) (w : Wfs) :
    (∃ e, one s r0 wvl w = .error e) ↔ Bad s w := by
  unfold one Bad
  by_cases h1 : w.ron < 0
  · simp [h1]
  rw [if_neg h1]
  by_cases h2 : w.nph.Neg
  · rw [if_pos h2]
    cases hn : w.nph with
    | fin n => simp [hn, Flux.Neg] at h2; simp [h2]
    | inf => simp [hn, Flux.Neg] at h2
  rw [if_neg h2]
  have h2' : ¬ ∃ n, w.nph = .fin n ∧ n < 0 := by
    rintro ⟨n, e, h⟩; rw [e] at h2; exact h2 h
  by_cases h3 : w.dsub ≤ 0
  · simp [h3]
  rw [if_neg h3]
  by_cases h4 : s.wfstype.toUpper = "SHACK-HARTMANN"
  · rw [if_pos h4]
    by_cases h5 : w.pixMas = 0
    · simp [h5, IsSH, h4]
    rw [if_neg h5]
    have : (¬ IsSH s ∧ ¬ IsPyramid s) ↔ False := by simp [IsSH, h4]
    simp only [this, h1, h2', h3, h5, false_or, or_false]
    cases hn : w.nph with
    | fin n =>
      simp only
      cases ht : shTerms s.algorithm w.ron n w.nPix (nD w wvl) (nT w r0 wvl)
          (nWeff s (nT w r0 wvl)) with
      | none =>
        have := (shTerms_none_iff _ _ _ _ _ _ _).mp ht
        simp [this, IsSH, h4]
      | some p =>
        have : ¬ s.algorithm ∉ knownAlgorithms := by
          rw [← shTerms_none_iff _ w.ron n w.nPix (nD w wvl) (nT w r0 wvl) (nWeff s (nT w r0 wvl)), ht]
          simp
        obtain ⟨a, b⟩ := p
        simp only
        split_ifs <;> simp [this]
    | inf =>
      simp only
      cases ht : shTerms s.algorithm w.ron 1 w.nPix (nD w wvl) (nT w r0 wvl)
          (nWeff s (nT w r0 wvl)) with
      | none =>
        have := (shTerms_none_iff _ _ _ _ _ _ _).mp ht
        simp [this, IsSH, h4]
      | some p =>
        have : ¬ s.algorithm ∉ knownAlgorithms := by
          rw [← shTerms_none_iff _ w.ron 1 w.nPix (nD w wvl) (nT w r0 wvl) (nWeff s (nT w r0 wvl)), ht]
          simp
        simp [this]
  · rw [if_neg h4]
    by_cases h5 : s.wfstype.toUpper = "PYRAMID"
    · rw [if_pos h5]
      have hb : ¬ IsSH s := h4
      have hp : IsPyramid s := h5
      cases hn : w.nph with
      | fin n =>
        have hn0 : ¬ n < 0 := fun h => h2' ⟨n, hn, h⟩
        simp only
        split_ifs <;> simp [h1, hn0, h3, hb, hp]
      | inf => simp [h1, h3, hb, hp]
    · rw [if_neg h5]
      simp [h1, h2', h3, IsSH, IsPyramid, h4, h5]

theorem mapM_error_iff {α β : Type} (f : α → Except Err β) (l : List α) :
    (∃ e, l.mapM f = .error e) ↔ ∃ x ∈ l, ∃ e, f x = .error e := by
  induction l with
  | nil => simp [pure, Except.pure]
  | cons x t ih =>
    simp only [List.mapM_cons, bind, Except.bind, List.mem_cons, exists_eq_or_imp]
    cases hx : f x with
    | error e => simp
    | ok y =>
      simp only [reduceCtorEq, exists_false, false_or]
      rw [← ih]
      cases ht : t.mapM f with
      | error e => simp
      | ok ys => simp [pure, Except.pure]

theorem mapM_ok {α β : Type} (f : α → Except Err β) (l : List α) (r : List β)
    (h : l.mapM f = .ok r) : r.length = l.length ∧ ∀ (k : ℕ) (hk : k < l.length) (hk' : k < r.length),
      f l[k] = .ok r[k] := by
  induction l generalizing r with
  | nil =>
    simp [pure, Except.pure] at h
    subst h; simp
  | cons x t ih =>
    simp only [List.mapM_cons, bind, Except.bind] at h
    cases hx : f x with
    | error e => simp [hx] at h
    | ok y =>
      simp only [hx] at h
      cases ht : t.mapM f with
      | error e => simp [ht] at h
      | ok ys =>
        simp only [ht, pure, Except.pure, Except.ok.injEq] at h
        subst h
        obtain ⟨h1, h2⟩ := ih ys ht
        refine ⟨by simp [h1], ?_⟩
        intro k hk hk'
        cases k with
        | zero => simpa using hx
        | succ k => simpa using h2 k (by simpa using hk) (by simpa using hk')

/-- C13: the computation is refused exactly for a non-positive r0 or wavelength, or when some WFS has a
negative readout noise or flux, a non-positive sub-aperture, an unknown type, or (Shack-Hartmann)
an unknown algorithm or a zero pixel scale. -/
theorem noise_refused_iff (s : Sensor) (r0 wvl : ℝ) :
    (∃ e, noiseVariance s r0 wvl = .error e) ↔
      (r0 ≤ 0 ∨ wvl ≤ 0 ∨ ∃ w ∈ s.wfs, Bad s w) := by
  unfold noiseVariance
  by_cases h1 : r0 ≤ 0
  · simp [h1]
  by_cases h2 : wvl ≤ 0
  · simp [h1, h2]
  rw [if_neg h1, if_neg h2, mapM_error_iff]
  simp [h1, h2, one_error_iff]

/-- C13: an accepted computation returns one value per WFS, each depending only on that WFS. -/
theorem noise_per_wfs (s : Sensor) (r0 wvl : ℝ) (r : List (Option ℝ))
    (h : noiseVariance s r0 wvl = .ok r) :
    r.length = s.wfs.length ∧ ∀ (k : ℕ) (hk : k < s.wfs.length) (hk' : k < r.length),
      noiseVariance { s with wfs := [s.wfs[k]] } r0 wvl = .ok [r[k]] := by
  unfold noiseVariance at h ⊢
  split_ifs at h with h1 h2
  obtain ⟨e1, e2⟩ := mapM_ok _ _ _ h
  refine ⟨e1, fun k hk hk' => ?_⟩
  rw [if_neg h1, if_neg h2]
  have : one { s with wfs := [s.wfs[k]] } r0 wvl = one s r0 wvl := rfl
  simp [this, e2 k hk hk', bind, Except.bind, pure, Except.pure]

/-- The shape shared by all formulas: `A ron²/n² + excess B/n` with non-negative `A`, `B` that depend neither
on the readout noise nor on the flux. -/
theorem shTerms_form (alg : String) (nPix d t W : ℝ) (hd : 0 < d) (ht : 0 < t) (hW : 0 < W)
    (ha : alg ∈ knownAlgorithms) :
    ∃ A B : ℝ, 0 ≤ A ∧ 0 < B ∧ ∀ ron n : ℝ, 0 < n →
      shTerms alg ron n nPix d t W = some (A * (ron / n) ^ 2, B / n) := by
  have hl : 0 < log 2 := log_pos (by norm_num)
  have hp := pi_pos
  simp only [knownAlgorithms, List.mem_cons, List.not_mem_nil, or_false] at ha
  rcases ha with rfl | rfl | rfl | rfl
  · refine ⟨π ^ 2 / 3 * (nPix ^ 2 / d) ^ 2, π ^ 2 / (2 * log 2) * (t / d) ^ 2, by positivity,
      by positivity, fun ron n hn => ?_⟩
    simp only [shTerms, if_true, Option.some.injEq, Prod.mk.injEq]
    constructor <;> field_simp
  · refine ⟨π ^ 2 / 3 * ((⌈t ^ 2 * π / 4⌉ : ℝ) / d) ^ 2, π ^ 2 / (2 * log 2) * (t / d) ^ 2,
      by positivity, by positivity, fun ron n hn => ?_⟩
    have e : ("tcog" = "cog") = False := by decide
    simp only [shTerms, e, if_false, if_true, Option.some.injEq, Prod.mk.injEq]
    constructor <;> field_simp
  · refine ⟨π ^ 3 / (32 * log 2 ^ 2) * (t ^ 2 + W ^ 2) ^ 4 / (d ^ 2 * W ^ 4),
      π ^ 2 / (2 * log 2) * (t / d) ^ 2 * (t ^ 2 + W ^ 2) ^ 4 / ((2 * t ^ 2 + W ^ 2) ^ 2 * W ^ 4),
      by positivity, by positivity, fun ron n hn => ?_⟩
    have e : ("wcog" = "cog") = False := by decide
    have e' : ("wcog" = "tcog") = False := by decide
    simp only [shTerms, e, e', if_false, if_true, Option.some.injEq, Prod.mk.injEq]
    constructor <;> field_simp
  · have hk : ∃ k : ℝ, 0 < k ∧
        k = (if t > d then sqrt (2 * π) * (t / (2 * sqrt (2 * log 2)) / d) else 1) := by
      refine ⟨_, ?_, rfl⟩
      split_ifs <;> positivity
    obtain ⟨k, hk0, hk⟩ := hk
    refine ⟨k * 4 * π ^ 2, k * π ^ 2, by positivity, by positivity, fun ron n hn => ?_⟩
    have e : ("qc" = "cog") = False := by decide
    have e' : ("qc" = "tcog") = False := by decide
    have e'' : ("qc" = "wcog") = False := by decide
    simp only [shTerms, e, e', e'', if_false, if_true, ← hk]

theorem one_sh_fin (s : Sensor) (r0 wvl : ℝ) (w : Wfs) (n : ℝ) (h1 : ¬ w.ron < 0) (hn : w.nph = .fin n)
    (h2 : ¬ n < 0) (h3 : ¬ w.dsub ≤ 0) (hs : IsSH s) (h6 : w.pixMas ≠ 0) :
    one s r0 wvl w = match shTerms s.algorithm w.ron n w.nPix (nD w wvl) (nT w r0 wvl)
        (nWeff s (nT w r0 wvl)) with
        | none => .error .algorithm
        | some (a, b) => if n = 0 then .ok none else .ok (some (a + w.excess * b)) := by
  have hs' : s.wfstype.toUpper = "SHACK-HARTMANN" := hs
  unfold one
  rw [if_neg h1, hn, if_neg (show ¬ (Flux.fin n).Neg from h2), if_neg h3, if_pos hs', if_neg h6]
  dsimp only
  cases shTerms s.algorithm w.ron n w.nPix (nD w wvl) (nT w r0 wvl) (nWeff s (nT w r0 wvl)) <;> rfl

theorem one_sh_inf (s : Sensor) (r0 wvl : ℝ) (w : Wfs) (h1 : ¬ w.ron < 0) (hn : w.nph = .inf)
    (h3 : ¬ w.dsub ≤ 0) (hs : IsSH s) (h6 : w.pixMas ≠ 0) :
    one s r0 wvl w = match shTerms s.algorithm w.ron 1 w.nPix (nD w wvl) (nT w r0 wvl)
        (nWeff s (nT w r0 wvl)) with
        | none => .error .algorithm
        | some _ => .ok (some 0) := by
  have hs' : s.wfstype.toUpper = "SHACK-HARTMANN" := hs
  unfold one
  rw [if_neg h1, hn, if_neg (show ¬ Flux.inf.Neg from id), if_neg h3, if_pos hs', if_neg h6]
  dsimp only
  cases shTerms s.algorithm w.ron 1 w.nPix (nD w wvl) (nT w r0 wvl) (nWeff s (nT w r0 wvl)) <;> rfl

theorem one_pyr (s : Sensor) (r0 wvl : ℝ) (w : Wfs) (h1 : ¬ w.ron < 0)
    (h2 : ¬ w.nph.Neg) (h3 : ¬ w.dsub ≤ 0) (hs : ¬ IsSH s) (hp : IsPyramid s) :
    one s r0 wvl w = match w.nph with
      | .fin n => if n = 0 then .ok none
          else .ok (some (4 * w.ron ^ 2 / n ^ 2 + w.excess * (n / n ^ 2)))
      | .inf => .ok none := by
  have hs' : ¬ s.wfstype.toUpper = "SHACK-HARTMANN" := hs
  have hp' : s.wfstype.toUpper = "PYRAMID" := hp
  unfold one
  rw [if_neg h1, if_neg h2, if_neg h3, if_neg hs', if_pos hp']
  generalize w.nph = x
  cases x <;> rfl

/-- The noise of one acceptable WFS with a positive flux. -/
theorem one_form (s : Sensor) (r0 wvl : ℝ) (w : Wfs) (hb : ¬ Bad s w) :
    ∃ A B : ℝ, 0 ≤ A ∧ 0 < B ∧ ∀ ron n : ℝ, 0 ≤ ron → 0 < n →
      one s r0 wvl { w with ron := ron, nph := .fin n } =
        .ok (some (A * (ron / n) ^ 2 + w.excess * (B / n))) := by
  simp only [Bad, not_or, not_and, not_not] at hb
  obtain ⟨-, -, h3, h4, h5⟩ := hb
  have hmax : ∀ x : ℝ, 0 < max 1 x := fun x => lt_max_of_lt_left one_pos
  by_cases hs : IsSH s
  · obtain ⟨h5, h6⟩ := h5 hs
    have hd : 0 < nD w wvl := hmax _
    have ht : 0 < nT w r0 wvl := hmax _
    have hW : 0 < nWeff s (nT w r0 wvl) := by
      unfold nWeff; split_ifs <;> linarith
    obtain ⟨A, B, hA, hB, H⟩ := shTerms_form s.algorithm w.nPix _ _ _ hd ht hW h5
    refine ⟨A, B, hA, hB, fun ron n hr hn => ?_⟩
    have hd' : nD { w with ron := ron, nph := .fin n } wvl = nD w wvl := rfl
    have ht' : nT { w with ron := ron, nph := .fin n } r0 wvl = nT w r0 wvl := rfl
    rw [one_sh_fin s r0 wvl { w with ron := ron, nph := .fin n } n (not_lt.mpr hr) rfl
      (not_lt.mpr hn.le) h3 hs h6]
    simp only [hd', ht', H ron n hn, if_neg hn.ne']
  · have hp : IsPyramid s := h4 hs
    refine ⟨4, 1, by norm_num, one_pos, fun ron n hr hn => ?_⟩
    have hneg : ¬ (Flux.fin n).Neg := not_lt.mpr hn.le
    rw [one_pyr s r0 wvl { w with ron := ron, nph := .fin n } (not_lt.mpr hr) hneg h3 hs hp]
    simp only [if_neg hn.ne', Except.ok.injEq, Option.some.injEq]
    field_simp

/-- C13: for every acceptable WFS and positive finite flux the noise variance is a non-negative number, does not decrease
with the readout noise and does not increase with the flux. -/
theorem noise_monotone (s : Sensor) (r0 wvl : ℝ) (w : Wfs) (hr : 0 < r0) (hw : 0 < wvl)
    (hb : ¬ Bad s w) (he : 0 ≤ w.excess) (ron ron' n n' : ℝ) (h0 : 0 ≤ ron) (h1 : ron ≤ ron')
    (h2 : 0 < n) (h3 : n ≤ n') :
    ∃ v v₁ v₂, noiseVariance { s with wfs := [{ w with ron := ron, nph := .fin n }] } r0 wvl = .ok [some v] ∧
      noiseVariance { s with wfs := [{ w with ron := ron', nph := .fin n }] } r0 wvl = .ok [some v₁] ∧
      noiseVariance { s with wfs := [{ w with ron := ron, nph := .fin n' }] } r0 wvl = .ok [some v₂] ∧
      0 ≤ v ∧ v ≤ v₁ ∧ v₂ ≤ v := by
  obtain ⟨A, B, hA, hB, H⟩ := one_form s r0 wvl w hb
  have key : ∀ ron n : ℝ, 0 ≤ ron → 0 < n →
      noiseVariance { s with wfs := [{ w with ron := ron, nph := .fin n }] } r0 wvl =
        .ok [some (A * (ron / n) ^ 2 + w.excess * (B / n))] := by
    intro ron n a b
    unfold noiseVariance
    rw [if_neg (not_le.mpr hr), if_neg (not_le.mpr hw)]
    have : one { s with wfs := [{ w with ron := ron, nph := .fin n }] } r0 wvl = one s r0 wvl := rfl
    simp only [List.mapM_cons, List.mapM_nil, bind, Except.bind, pure, Except.pure, this, H ron n a b]
  refine ⟨_, _, _, key ron n h0 h2, key ron' n (h0.trans h1) h2, key ron n' h0 (h2.trans_le h3),
    by positivity, by gcongr, ?_⟩
  have : 0 < n' := h2.trans_le h3
  gcongr

/-- A Shack-Hartmann meeting the hypotheses. -/
noncomputable def wfs1 : Wfs := ⟨800, 0.2, .fin 100, 6, 0.2, 0, 0, 1⟩
noncomputable def sensor1 : Sensor := ⟨"Shack-Hartmann", "wcog", 5, [wfs1]⟩
example : ¬ Bad sensor1 wfs1 ∧ 0 ≤ wfs1.excess := by
  have h : sensor1.wfstype.toUpper = "SHACK-HARTMANN" := by decide +kernel
  refine ⟨?_, by norm_num [wfs1]⟩
  simp only [Bad, IsSH, h, not_true_eq_false, false_and, true_and, false_or, not_or]
  refine ⟨by norm_num [wfs1], ?_, by norm_num [wfs1], ?_, by norm_num [wfs1]⟩
  · rintro ⟨n, hn, h0⟩
    simp only [wfs1, Flux.fin.injEq] at hn
    subst hn; norm_num at h0
  · simp [sensor1, knownAlgorithms]

/-- C13: strictly more photons mean strictly less noise, tending to zero like 1/flux. -/
theorem noise_photon_scaling (s : Sensor) (r0 wvl : ℝ) (w : Wfs) (hb : ¬ Bad s w) :
    ∃ B : ℝ, 0 < B ∧ ∀ n, 0 < n →
      one s r0 wvl { w with ron := 0, nph := .fin n } = .ok (some (w.excess * B / n)) := by
  obtain ⟨A, B, -, hB, H⟩ := one_form s r0 wvl w hb
  refine ⟨B, hB, fun n hn => ?_⟩
  rw [H 0 n le_rfl hn]
  simp [mul_div_assoc]

/-- C13: what happens at the ends of the flux range: an infinite flux is noiseless for a Shack-Hartmann,
but is not a number for a pyramid (`inf/inf`), although it is the default flux; a zero flux is not a
number. -/
theorem noise_infinite_flux (s : Sensor) (r0 wvl : ℝ) (w : Wfs) (hb : ¬ Bad s w) :
    (IsSH s → one s r0 wvl { w with nph := .inf } = .ok (some 0)) ∧
    (¬ IsSH s → one s r0 wvl { w with nph := .inf } = .ok none) ∧
    one s r0 wvl { w with nph := .fin 0 } = .ok none := by
  have hb' := hb
  simp only [Bad, not_or, not_and, not_not] at hb
  obtain ⟨h1, h2, h3, h4, h5⟩ := hb
  have hi : ¬ Flux.inf.Neg := id
  have hz : ¬ (Flux.fin 0).Neg := lt_irrefl _
  refine ⟨fun hs => ?_, fun hs => ?_, ?_⟩
  · obtain ⟨h5, h6⟩ := h5 hs
    rw [one_sh_inf s r0 wvl { w with nph := .inf } h1 rfl h3 hs h6]
    cases ht : shTerms s.algorithm w.ron 1 w.nPix (nD { w with nph := .inf } wvl)
        (nT { w with nph := .inf } r0 wvl) (nWeff s (nT { w with nph := .inf } r0 wvl)) with
    | none => exact absurd h5 ((shTerms_none_iff _ _ _ _ _ _ _).mp ht)
    | some p => simp only []
  · rw [one_pyr s r0 wvl { w with nph := .inf } h1 hi h3 hs (h4 hs)]
  · by_cases hs : IsSH s
    · obtain ⟨h5, h6⟩ := h5 hs
      rw [one_sh_fin s r0 wvl { w with nph := .fin 0 } 0 h1 rfl (lt_irrefl _) h3 hs h6]
      cases ht : shTerms s.algorithm w.ron 0 w.nPix (nD { w with nph := .fin 0 } wvl)
          (nT { w with nph := .fin 0 } r0 wvl) (nWeff s (nT { w with nph := .fin 0 } r0 wvl)) with
      | none => exact absurd h5 ((shTerms_none_iff _ _ _ _ _ _ _).mp ht)
      | some p => simp only [if_true]
    · rw [one_pyr s r0 wvl { w with nph := .fin 0 } h1 hz h3 hs (h4 hs)]
      simp only [if_true]

/-- C13: the noise at the science wavelength is the noise at the sensing wavelength times the squared ratio of
wavelengths, and is refused in the same cases. -/
theorem noiseAt_spec (s : Sensor) (wvlSci wvlWfs r0 : ℝ) :
    (∀ r, noiseAt s wvlSci wvlWfs r0 = .ok r →
      ∃ r', noiseVariance s (r0 * (wvlWfs / (500 / 10 ^ 9)) ^ ((6:ℝ)/5)) wvlWfs = .ok r' ∧
        r.length = r'.length ∧ ∀ k : ℕ, ∀ v, r'[k]? = some (some v) →
          r[k]? = some (some (v * (wvlWfs / wvlSci) ^ 2))) ∧
    ((∃ e, noiseAt s wvlSci wvlWfs r0 = .error e) ↔
      (r0 * (wvlWfs / (500 / 10 ^ 9)) ^ ((6:ℝ)/5) ≤ 0 ∨ wvlWfs ≤ 0 ∨ ∃ w ∈ s.wfs, Bad s w)) := by
  rw [← noise_refused_iff]
  unfold noiseAt
  cases h : noiseVariance s (r0 * (wvlWfs / (500 / 10 ^ 9)) ^ ((6:ℝ)/5)) wvlWfs with
  | error e => simp
  | ok r' =>
    simp only [Except.ok.injEq, reduceCtorEq, exists_false, iff_self, and_true]
    rintro r rfl
    exact ⟨r', rfl, by simp, fun k v hv => by simp [hv]⟩

/-! ### Cases that meet the hypotheses -/

/-- A case meeting the hypotheses of `noise_monotone`. -/
example : ∃ v v₁, noiseVariance { sensor1 with wfs := [{ wfs1 with ron := 1, nph := .fin 100 }] } 0.15 500e-9 = .ok [some v] ∧
    noiseVariance { sensor1 with wfs := [{ wfs1 with ron := 2, nph := .fin 100 }] } 0.15 500e-9 = .ok [some v₁] ∧ v ≤ v₁ := by
  have hb : ¬ Bad sensor1 wfs1 := by
    have h : sensor1.wfstype.toUpper = "SHACK-HARTMANN" := by decide +kernel
    simp only [Bad, IsSH, h, not_true_eq_false, false_and, true_and, false_or, not_or]
    refine ⟨by norm_num [wfs1], ?_, by norm_num [wfs1], ?_, by norm_num [wfs1]⟩
    · rintro ⟨n, hn, h0⟩
      simp only [wfs1, Flux.fin.injEq] at hn
      subst hn; norm_num at h0
    · decide +kernel
  obtain ⟨v, v₁, v₂, h1, h2, _, _, h3, _⟩ := noise_monotone sensor1 0.15 500e-9 wfs1 (by norm_num) (by norm_num) hb (by norm_num [wfs1]) 1 2 100 200
    (by norm_num) (by norm_num) (by norm_num) (by norm_num)
  exact ⟨v, v₁, h1, h2, h3⟩

/-! ### Textbook formulas -/

/-- Spec: an angle of `x` milliarcseconds in radians. -/
noncomputable def masToRad (x : ℝ) : ℝ := x * (π / 180 / 3600 / 1000)

/-- Spec: the diffraction core of a lenslet in pixels, at least one. -/
noncomputable def corePix (w : Wfs) (wvl : ℝ) : ℝ := max 1 (wvl / w.dsub / masToRad w.pixMas)

/-- Spec: the spot in pixels, at least one: the larger given width and the seeing without tilt, in quadrature. -/
noncomputable def spotPix (w : Wfs) (r0 wvl : ℝ) : ℝ :=
  max 1 (sqrt (masToRad (max w.spotA w.spotB) ^ 2 + (0.98 * (wvl / r0)) ^ 2 / 2) / masToRad w.pixMas)

theorem nD_eq (w : Wfs) (wvl : ℝ) : nD w wvl = corePix w wvl := by
  unfold nD corePix rad2arcsec masToRad
  congr 1
  have := pi_pos.ne'
  by_cases h : w.pixMas = 0
  · simp [h]
  · by_cases h2 : w.dsub = 0
    · simp [h2]
    · field_simp

theorem nT_eq (w : Wfs) (r0 wvl : ℝ) (hp : 0 < w.pixMas) : nT w r0 wvl = spotPix w r0 wvl := by
  unfold nT spotPix rad2arcsec masToRad
  simp only
  congr 1
  have hπ := pi_pos
  have k : (0:ℝ) < π / 180 / 3600 / 1000 := by positivity
  have e : (max w.spotA w.spotB * (π / 180 / 3600 / 1000)) ^ 2 + (0.98 * (wvl / r0)) ^ 2 / 2 =
      (π / 180 / 3600) ^ 2 * ((max w.spotA w.spotB / 1000) ^ 2 + (0.98 * (3600 * 180 / π) * wvl / r0 / sqrt 2) ^ 2) := by
    rw [div_pow (0.98 * (3600 * 180 / π) * wvl / r0) (sqrt 2), sq_sqrt (by norm_num : (0:ℝ) ≤ 2)]
    by_cases h : r0 = 0
    · simp [h]; ring
    · field_simp
  rw [e, sqrt_mul (sq_nonneg _), sqrt_sq (by positivity)]
  field_simp

/-- C476: the noise of a Shack-Hartmann, in square radians, with `N` and `T` the core and the spot in pixels and `W` the window (never
below the spot). -/
theorem noise_textbook (s : Sensor) (r0 wvl : ℝ) (w : Wfs) (n : ℝ) (hs : IsSH s) (hp : 0 < w.pixMas) (hr : 0 ≤ w.ron) (hd : 0 < w.dsub)
    (hn : w.nph = .fin n) (h0 : 0 < n) :
    let N := corePix w wvl
    let T := spotPix w r0 wvl
    let W := max T s.nW
    let photon := π ^ 2 / (2 * log 2 * n) * (T / N) ^ 2
    (s.algorithm = "cog" → one s r0 wvl w = .ok (some (π ^ 2 / 3 * (w.ron / n) ^ 2 * (w.nPix ^ 2 / N) ^ 2 + w.excess * photon))) ∧
    (s.algorithm = "tcog" → one s r0 wvl w = .ok (some (π ^ 2 / 3 * (w.ron / n) ^ 2 * (⌈T ^ 2 * π / 4⌉ / N) ^ 2 + w.excess * photon))) ∧
    (s.algorithm = "wcog" → one s r0 wvl w = .ok (some (π ^ 3 / (32 * log 2 ^ 2) * (w.ron / n) ^ 2 * ((T ^ 2 + W ^ 2) ^ 2 / (N * W ^ 2)) ^ 2 +
      w.excess * (photon * ((T ^ 2 + W ^ 2) ^ 2 / ((2 * T ^ 2 + W ^ 2) * W ^ 2)) ^ 2)))) ∧
    (s.algorithm = "qc" → one s r0 wvl w = .ok (some ((if N < T then sqrt (2 * π) * (T / (2 * sqrt (2 * log 2)) / N) else 1) *
      (4 * π ^ 2 * (w.ron / n) ^ 2 + w.excess * (π ^ 2 / n))))) := by
  intro N T W photon
  have h := one_sh_fin s r0 wvl w n (not_lt.2 hr) hn (not_lt.2 h0.le) (not_le.2 hd) hs hp.ne'
  rw [nD_eq, nT_eq w r0 wvl hp] at h
  have hW : nWeff s (spotPix w r0 wvl) = W := by
    unfold nWeff
    split_ifs with c
    · exact (max_eq_left c.le).symm
    · exact (max_eq_right (not_lt.1 c)).symm
  rw [hW] at h
  change one s r0 wvl w = match shTerms s.algorithm w.ron n w.nPix N T W with
    | none => .error .algorithm
    | some (a, b) => if n = 0 then .ok none else .ok (some (a + w.excess * b)) at h
  have e1 : ("tcog" = "cog") = False := by decide
  have e2 : ("wcog" = "cog") = False := by decide
  have e3 : ("wcog" = "tcog") = False := by decide
  have e4 : ("qc" = "cog") = False := by decide
  have e5 : ("qc" = "tcog") = False := by decide
  have e6 : ("qc" = "wcog") = False := by decide
  have N1 : N ≠ 0 := (lt_of_lt_of_le one_pos (le_max_left _ _)).ne'
  have T1 : 0 < T := lt_of_lt_of_le one_pos (le_max_left _ _)
  have W1 : W ≠ 0 := (lt_of_lt_of_le T1 (le_max_left _ _)).ne'
  refine ⟨fun ha => ?_, fun ha => ?_, fun ha => ?_, fun ha => ?_⟩
  · rw [h, ha]
    simp only [shTerms, if_true, if_neg h0.ne', ← div_pow]
    rfl
  · rw [h, ha]
    simp only [shTerms, e1, if_true, if_false, if_neg h0.ne', ← div_pow]
    rfl
  · rw [h, ha]
    simp only [shTerms, e2, e3, if_true, if_false, if_neg h0.ne', ← div_pow]
    have : 2 * T ^ 2 + W ^ 2 ≠ 0 := by positivity
    congr 3
    · field_simp
    · simp only [photon]
      have := h0.ne'
      have : log 2 ≠ 0 := (log_pos (by norm_num)).ne'
      field_simp
  · rw [h, ha]
    simp only [shTerms, e4, e5, e6, if_true, if_false, if_neg h0.ne', gt_iff_lt]
    congr 2
    ring

/-- A case meeting the hypotheses of `noise_textbook`. -/
example := (noise_textbook sensor1 0.15 5e-7 wfs1 100 (show sensor1.wfstype.toUpper = "SHACK-HARTMANN" by decide +kernel) (by norm_num [wfs1]) (by norm_num [wfs1])
  (by norm_num [wfs1]) rfl (by norm_num)).2.2.1 rfl

end P3.Noise
