import Verif.Model.Atmosphere
import Mathlib.Tactic.Linarith
import Mathlib.Tactic.Ring
import Mathlib.Tactic.Positivity
import Mathlib.Tactic.NormNum
import Mathlib.Tactic.FieldSimp
import Mathlib.Data.List.Basic
/-
C11 (Fried parameter and wavelength), C12 (layers), C61 (effective height, wind, coherence time),
C62 (phase statistics).
-/
namespace P3.Atmosphere
open Real

/-! ### C11 -/

/-- C11: whatever the sequence of wavelengths the atmosphere has been set to, r0 is the original one scaled
by (current/initial)^(6/5), and nothing else changes. -/
theorem r0_after_history (a : Atm) (ha : 0 < a.wvl) (ws : List ℝ) (hw : ∀ w ∈ ws, 0 < w) :
    (ws.foldl setWvl a).wvl = ws.getLastD a.wvl ∧
    (ws.foldl setWvl a).r0 = a.r0 * (ws.getLastD a.wvl / a.wvl) ^ ((6:ℝ)/5) := by
  induction ws generalizing a with
  | nil => simp [div_self ha.ne']
  | cons w t ih =>
    have hw0 : 0 < w := hw w (by simp)
    have hb : 0 < (setWvl a w).wvl := hw0
    obtain ⟨h1, h2⟩ := ih (setWvl a w) hb (fun x hx => hw x (by simp [hx]))
    have e : (setWvl a w).wvl = w := rfl
    simp only [List.foldl_cons, List.getLastD_cons]
    rw [e] at h1 h2
    refine ⟨h1, ?_⟩
    rw [h2]
    have hl : 0 < t.getLastD w := by
      cases t with
      | nil => simpa using hw0
      | cons b u =>
        rw [List.getLastD_eq_getLast?, List.getLast?_eq_some_getLast (by simp)]
        exact hw _ (by simp [List.getLast_mem])
    show a.r0 * (w / a.wvl) ^ (1.2:ℝ) * _ = _
    have : (1.2:ℝ) = 6/5 := by norm_num
    rw [this, mul_assoc, ← mul_rpow (by positivity) (by positivity)]
    congr 2
    field_simp

/-- C11: coming back to the original wavelength restores r0. -/
theorem r0_restored (a : Atm) (ha : 0 < a.wvl) (ws : List ℝ) (hw : ∀ w ∈ ws, 0 < w) :
    ((ws ++ [a.wvl]).foldl setWvl a).r0 = a.r0 := by
  have := (r0_after_history a ha (ws ++ [a.wvl]) (by
    intro w hm
    rcases List.mem_append.mp hm with h | h
    · exact hw w h
    · simp at h; rw [h]; exact ha)).2
  rw [this]
  simp [div_self ha.ne']

/-- C11: the seeing angle scales as wavelength^(-1/5). -/
theorem seeing_after_history (a : Atm) (ha : 0 < a.wvl) (ws : List ℝ) (hw : ∀ w ∈ ws, 0 < w) :
    seeing (ws.foldl setWvl a) = seeing a * (ws.getLastD a.wvl / a.wvl) ^ (-(1:ℝ)/5) := by
  obtain ⟨h1, h2⟩ := r0_after_history a ha ws hw
  have hl : 0 < ws.getLastD a.wvl := by
    cases ws with
    | nil => simpa using ha
    | cons b u =>
      rw [List.getLastD_eq_getLast?, List.getLast?_eq_some_getLast (by simp)]
      exact hw _ (List.getLast_mem _)
  simp only [seeing, h1, h2]
  generalize hx : ws.getLastD a.wvl / a.wvl = x
  have hx0 : 0 < x := by rw [← hx]; positivity
  have hlx : ws.getLastD a.wvl = x * a.wvl := by rw [← hx]; field_simp
  rw [hlx]
  have e : x ^ (-(1:ℝ)/5) = x / x ^ ((6:ℝ)/5) := by
    rw [eq_div_iff (by positivity), ← rpow_add hx0]
    norm_num
  rw [e]
  by_cases hr : a.r0 = 0
  · simp [hr]
  · have := pi_pos
    field_simp

example : ∃ a : Atm, 0 < a.wvl ∧ ∀ w ∈ [(1.6e-6:ℝ), 2.2e-6], 0 < w :=
  ⟨mk 5e-7 0.15 [1] [0] [10] [0] (.one 25), by norm_num [mk], by norm_num⟩

/-! ### C12 -/

/-- Spec: the turbulence strength associated with a Fried parameter. -/
noncomputable def strength (r0 : ℝ) : ℝ := r0 ^ (-(5:ℝ)/3)

theorem strength_layer {w r0 : ℝ} (hw : 0 ≤ w) (hr : 0 ≤ r0) :
    strength ((w * r0 ^ (-(5:ℝ)/3)) ^ (-(3:ℝ)/5)) = w * strength r0 := by
  unfold strength
  rw [← rpow_mul (by positivity)]
  norm_num

theorem map_range_at' (l : List ℝ) : (List.range l.length).map (at' l) = l := by
  apply List.ext_getElem
  · simp
  · intro i h1 h2
    simp [at', List.getD_eq_getElem?_getD, h2]

/-- C12: the layer strengths add up to the strength of the atmosphere. -/
theorem layers_strength (wvl r0 : ℝ) (w h v d : List ℝ) (L0 : L0Arg) (hr : 0 < r0)
    (hw : ∀ x ∈ w, 0 < x) (hs : w.sum = 1) :
    ((mk wvl r0 w h v d L0).layers.map (fun l => strength l.r0)).sum =
      strength (mk wvl r0 w h v d L0).r0 := by
  have e : ((mk wvl r0 w h v d L0).layers.map (fun l => strength l.r0)) =
      w.map (fun x => x * strength r0) := by
    conv_rhs => rw [← map_range_at' w]
    simp only [mk, List.map_map]
    apply List.map_congr_left
    intro i hi
    simp only [Function.comp]
    have hx : 0 < at' w i := by
      have hi' : i < w.length := by simpa using hi
      simp only [at', List.getD_eq_getElem?_getD, List.getElem?_eq_getElem hi', Option.getD_some]
      exact hw _ (List.getElem_mem _)
    exact strength_layer hx.le hr.le
  rw [e, List.sum_map_mul_right, List.map_id', hs, one_mul]
  rfl

/-- C12: as long as the wavelength has not been changed, extracting layer `k` gives a one-layer atmosphere at the same
wavelength with exactly that layer's strength (weight x total), height, wind and outer scale;
an index outside the profile is refused. -/
theorem slab_spec (wvl r0 : ℝ) (w h v d : List ℝ) (L0 : L0Arg) (k : ℕ) (hr : 0 < r0)
    (hw : ∀ x ∈ w, 0 < x) (hh : h.length = w.length) (hv : v.length = w.length)
    (hd : d.length = w.length) :
    (∀ (hk : k < w.length), ∃ s, slab (mk wvl r0 w h v d L0) k = .ok s ∧
      s.wvl = wvl ∧ strength s.r0 = w[k] * strength r0 ∧ s.weights = [1] ∧ s.heights = [h[k]] ∧
      s.wSpeed = [v[k]] ∧ s.wDir = [d[k]] ∧
      (∀ x, L0 = .one x → s.L0 = x) ∧ (∀ l, L0 = .many l → ∀ x, l[k]? = some x → s.L0 = x)) ∧
    (w.length ≤ k → slab (mk wvl r0 w h v d L0) k = .error .indexError) := by
  constructor
  · intro hk
    have hl : (mk wvl r0 w h v d L0).layers[k]? = some
      { r0 := (at' w k * r0 ^ (-(5:ℝ)/3)) ^ (-(3:ℝ)/5),
        weight := at' w k, height := at' h k,
        L0 := match L0 with | .one x => x | .many l => at' l k,
        wSpeed := at' v k, wDir := at' d k } := by
      cases L0 <;> simp [mk, hk]
    have ew : at' w k = w[k] := by simp [at', hk]
    have eh : at' h k = h[k] := by simp [at', hh, hk]
    have ev : at' v k = v[k] := by simp [at', hv, hk]
    have ed : at' d k = d[k] := by simp [at', hd, hk]
    refine ⟨_, by simp only [slab, hl]; rfl, rfl, ?_, rfl, by simp [mk, eh], by simp [mk, ev],
      by simp [mk, ed], ?_, ?_⟩
    · rw [ew]; exact strength_layer (hw _ (List.getElem_mem _)).le hr.le
    · rintro x rfl; rfl
    · rintro l rfl x hx; simp [mk, at', hx]
  · intro hk
    have : (mk wvl r0 w h v d L0).layers[k]? = none := by simp [mk, hk]
    simp [slab, this]

/-- C278 (violation): after a change of wavelength the extracted layer is labelled with the new wavelength but still has
the strength of the old one: for a single layer it differs from the atmosphere it comes from. -/
theorem slab_stale_after_setWvl (wvl r0 val : ℝ) (L0 : L0Arg) (hwvl : 0 < wvl) (hr : 0 < r0)
    (hv : 0 < val) (hne : val ≠ wvl) :
    ∃ s, slab (setWvl (mk wvl r0 [1] [0] [10] [0] L0) val) 0 = .ok s ∧ s.wvl = val ∧
      strength s.r0 = strength r0 ∧
      strength s.r0 ≠ strength (setWvl (mk wvl r0 [1] [0] [10] [0] L0) val).r0 := by
  have hs : ∃ s, slab (setWvl (mk wvl r0 [1] [0] [10] [0] L0) val) 0 = .ok s ∧ s.wvl = val ∧
      s.r0 = ((1:ℝ) * r0 ^ (-(5:ℝ)/3)) ^ (-(3:ℝ)/5) := ⟨_, rfl, rfl, rfl⟩
  obtain ⟨s, h1, h2, h3⟩ := hs
  have h4 : strength s.r0 = strength r0 := by
    rw [h3, strength_layer zero_le_one hr.le, one_mul]
  refine ⟨s, h1, h2, h4, ?_⟩
  · rw [h4]
    show strength r0 ≠ strength (r0 * (val / wvl) ^ (1.2:ℝ))
    unfold strength
    rw [mul_rpow hr.le (by positivity), ← rpow_mul (by positivity)]
    intro h
    have h1 : (val / wvl) ^ ((1.2:ℝ) * (-(5:ℝ)/3)) = 1 := by
      have hp : 0 < r0 ^ (-(5:ℝ)/3) := rpow_pos_of_pos hr _
      field_simp at h ⊢
      linarith
    have h2 : val / wvl = 1 := by
      have := rpow_left_injOn (x := (1.2:ℝ) * (-(5:ℝ)/3)) (by norm_num)
      exact this (show 0 ≤ val / wvl by positivity) (show (0:ℝ) ≤ 1 by norm_num)
        (by simpa using h1)
    exact hne ((div_eq_one_iff_eq hwvl.ne').mp h2)

/-! ### C61 -/

theorem wsum53_le (w x : List ℝ) (M : ℝ) (hl : w.length = x.length) (hw : ∀ a ∈ w, 0 ≤ a)
    (hx : ∀ b ∈ x, 0 ≤ b ∧ b ≤ M) : wsum53 w x ≤ w.sum * M ^ ((5:ℝ)/3) := by
  induction w generalizing x with
  | nil => simp [wsum53]
  | cons a t ih =>
    match x, hl with
    | b :: u, hl =>
      have := ih u (by simpa using hl) (fun a h => hw a (by simp [h])) (fun b h => hx b (by simp [h]))
      simp only [wsum53, List.zipWith_cons_cons, List.sum_cons] at this ⊢
      have h1 : b ^ ((5:ℝ)/3) ≤ M ^ ((5:ℝ)/3) := by
        have := hx b (by simp)
        exact rpow_le_rpow this.1 this.2 (by norm_num)
      have h2 := mul_le_mul_of_nonneg_left h1 (hw a (by simp))
      linarith

theorem le_wsum53 (w x : List ℝ) (m : ℝ) (hm : 0 ≤ m) (hl : w.length = x.length)
    (hw : ∀ a ∈ w, 0 ≤ a) (hx : ∀ b ∈ x, m ≤ b) : w.sum * m ^ ((5:ℝ)/3) ≤ wsum53 w x := by
  induction w generalizing x with
  | nil => simp [wsum53]
  | cons a t ih =>
    match x, hl with
    | b :: u, hl =>
      have := ih u (by simpa using hl) (fun a h => hw a (by simp [h])) (fun b h => hx b (by simp [h]))
      simp only [wsum53, List.zipWith_cons_cons, List.sum_cons] at this ⊢
      have h1 : m ^ ((5:ℝ)/3) ≤ b ^ ((5:ℝ)/3) := rpow_le_rpow hm (hx b (by simp)) (by norm_num)
      have h2 := mul_le_mul_of_nonneg_left h1 (hw a (by simp))
      linarith

/-- The 5/3-mean lies between the extreme values. -/
theorem mean53_between (w x : List ℝ) (m M : ℝ) (hm : 0 ≤ m) (hl : w.length = x.length)
    (hw : ∀ a ∈ w, 0 ≤ a) (hs : w.sum = 1) (hx : ∀ b ∈ x, m ≤ b ∧ b ≤ M) :
    m ≤ (wsum53 w x) ^ ((3:ℝ)/5) ∧ (wsum53 w x) ^ ((3:ℝ)/5) ≤ M := by
  have hM : 0 ≤ M := by
    match w, x, hl with
    | [], [], _ => simp at hs
    | a :: t, b :: u, _ => have := hx b (by simp); linarith
  have h1 := wsum53_le w x M hl hw (fun b hb => ⟨hm.trans (hx b hb).1, (hx b hb).2⟩)
  have h2 := le_wsum53 w x m hm hl hw (fun b hb => (hx b hb).1)
  rw [hs, one_mul] at h1 h2
  have e : ∀ y : ℝ, 0 ≤ y → (y ^ ((5:ℝ)/3)) ^ ((3:ℝ)/5) = y := by
    intro y hy
    rw [← rpow_mul hy]; norm_num
  have h0 : 0 ≤ m ^ ((5:ℝ)/3) := by positivity
  constructor
  · rw [← e m hm]; exact rpow_le_rpow h0 h2 (by norm_num)
  · conv_rhs => rw [← e M hM]
    exact rpow_le_rpow (h0.trans h2) h1 (by norm_num)

/-- C61: mean height and mean wind lie between the extreme layer values. -/
theorem meanHeight_meanWind_between (a : Atm) (hw : ∀ x ∈ a.weights, 0 ≤ x) (hs : a.weights.sum = 1)
    (hh : a.weights.length = a.heights.length) (hv : a.weights.length = a.wSpeed.length)
    (h₁ h₂ v₁ v₂ : ℝ) (hh1 : 0 ≤ h₁) (hv1 : 0 ≤ v₁)
    (hH : ∀ x ∈ a.heights, h₁ ≤ x ∧ x ≤ h₂) (hV : ∀ x ∈ a.wSpeed, v₁ ≤ x ∧ x ≤ v₂) :
    (h₁ ≤ meanHeight a ∧ meanHeight a ≤ h₂) ∧ (v₁ ≤ meanWind a ∧ meanWind a ≤ v₂) :=
  ⟨mean53_between _ _ _ _ hh1 hh hw hs hH, mean53_between _ _ _ _ hv1 hv hw hs hV⟩

/-- C61: the coherence time scales with r0, hence as wavelength^(6/5) over any history. -/
theorem tau0_after_history (a : Atm) (ha : 0 < a.wvl) (ws : List ℝ) (hw : ∀ w ∈ ws, 0 < w) :
    tau0 (ws.foldl setWvl a) = tau0 a * (ws.getLastD a.wvl / a.wvl) ^ ((6:ℝ)/5) := by
  have hi : ∀ (ws : List ℝ) (a : Atm), meanWind (ws.foldl setWvl a) = meanWind a := by
    intro ws
    induction ws with
    | nil => intro a; rfl
    | cons w t ih => intro a; rw [List.foldl_cons, ih]; rfl
  simp only [tau0, hi, (r0_after_history a ha ws hw).2]
  ring

/-- C61: a profile of identical outer scales has that outer scale. -/
theorem L0_uniform (wvl r0 x : ℝ) (w h v d : List ℝ) (hx : 0 ≤ x) (hw : ∀ a ∈ w, 0 ≤ a)
    (hs : w.sum = 1) :
    (mk wvl r0 w h v d (.many (List.replicate w.length x))).L0 = x ∧
    (mk wvl r0 w h v d (.one x)).L0 = x := by
  refine ⟨?_, rfl⟩
  have hm : ∀ b ∈ List.replicate w.length x, x ≤ b ∧ b ≤ x := by
    intro b hb; rw [List.eq_of_mem_replicate hb]; simp
  have := mean53_between w (List.replicate w.length x) x x hx (by simp) hw hs hm
  simp only [mk, hs, div_one]
  rw [List.take_of_length_le (by simp)]
  linarith [this.1, this.2]

/-! ### C62 -/

/-- C62: the structure function vanishes at zero separation, for finite and infinite outer scale. -/
theorem structureFunction_zero (kv : ℝ → ℝ) (a : Atm) (r0 : ℝ) :
    structureFunction kv a 0 = 0 ∧ structureFunctionInf r0 0 = 0 := by
  constructor
  · simp [structureFunction, variance, covariance]
  · simp [structureFunctionInf]

theorem c1_pos : 0 < c1 := by
  unfold c1
  have : 0 < Gamma (6/5) := Gamma_pos_of_pos (by norm_num)
  positivity
theorem c3_pos : 0 < c3 := by
  unfold c3
  have h1 : 0 < Gamma (11/6) := Gamma_pos_of_pos (by norm_num)
  have h2 : 0 < Gamma (5/6) := Gamma_pos_of_pos (by norm_num)
  have := pi_pos
  positivity

/-- C62: the phase variance is positive and scales linearly with the turbulence strength. -/
theorem variance_strength (a : Atm) (hr : 0 < a.r0) (hL : 0 < a.L0) :
    0 < variance a ∧ variance a = c1 * c3 * a.L0 ^ ((5:ℝ)/3) * strength a.r0 := by
  have := c1_pos
  have := c3_pos
  refine ⟨by unfold variance; positivity, ?_⟩
  unfold variance strength
  rw [div_rpow hL.le hr.le, neg_div, rpow_neg hr.le, div_eq_mul_inv]
  ring

/-- C62: the spatial power spectrum is positive, decreases with frequency, and scales with the strength. -/
theorem spectrum_spec (a : Atm) (hr : 0 < a.r0) (hL : 0 < a.L0) :
    (∀ k, 0 < spectrum a k) ∧ (∀ k k', 0 ≤ k → k ≤ k' → spectrum a k' ≤ spectrum a k) ∧
    (∀ c, 0 < c → ∀ k, spectrum { a with r0 := c ^ (-(3:ℝ)/5) * a.r0 } k = c * spectrum a k) := by
  have hp := pi_pos
  have h1 : 0 < Gamma (6/5) := Gamma_pos_of_pos (by norm_num)
  have h2 : 0 < Gamma (11/6) := Gamma_pos_of_pos (by norm_num)
  refine ⟨fun k => by unfold spectrum; positivity, ?_, ?_⟩
  · intro k k' h0 h
    unfold spectrum
    have : (k' ^ 2 + 1 / a.L0 ^ 2) ^ (-(11:ℝ)/6) ≤ (k ^ 2 + 1 / a.L0 ^ 2) ^ (-(11:ℝ)/6) := by
      apply rpow_le_rpow_of_nonpos (by positivity) _ (by norm_num)
      gcongr
    gcongr
  · intro c hc k
    unfold spectrum
    simp only
    rw [mul_rpow (by positivity) hr.le, ← rpow_mul hc.le]
    norm_num
    ring

theorem sum_mapIdx_zero {α : Type} (l : List α) (f : ℕ → α → ℝ) (h : ∀ i x, f i x = 0) :
    (l.mapIdx f).sum = 0 := by
  have : l.mapIdx f = l.map (fun _ => (0:ℝ)) := by
    apply List.ext_getElem
    · simp
    · intro i h1 h2; simp [h]
  rw [this]; simp

/-- C62: the angular structure function vanishes at zero angle. -/
theorem angularStructureFunction_zero (kv : ℝ → ℝ) (a : Atm) : angularStructureFunction kv a 0 = 0 := by
  unfold angularStructureFunction
  apply sum_mapIdx_zero
  intro i l
  simp [variance, covariance]

/-- C62: at zero angle the angular covariance is the total phase variance (common outer scale),
also after changes of wavelength. -/
theorem angularCovariance_zero (kv : ℝ → ℝ) (wvl r0 L0 : ℝ) (w h v d : List ℝ) (hr : 0 < r0)
    (hL : 0 < L0) (hw : ∀ x ∈ w, 0 < x) (hs : w.sum = 1) (hwvl : 0 < wvl) (ws : List ℝ)
    (hws : ∀ x ∈ ws, 0 < x) :
    angularCovariance kv (ws.foldl setWvl (mk wvl r0 w h v d (.one L0))) 0 =
      variance (ws.foldl setWvl (mk wvl r0 w h v d (.one L0))) := by
  have inv : ∀ (ws : List ℝ) (a : Atm), (∀ x ∈ ws, 0 < x) → 0 < a.wvl → 0 < a.r0 →
      (ws.foldl setWvl a).layers = a.layers ∧ (ws.foldl setWvl a).weights = a.weights ∧
      (ws.foldl setWvl a).L0 = a.L0 ∧ 0 < (ws.foldl setWvl a).r0 := by
    intro ws
    induction ws with
    | nil => intro a _ _ h; exact ⟨rfl, rfl, rfl, h⟩
    | cons x t ih =>
      intro a h1 h2 h3
      have hx := h1 x (by simp)
      have := ih (setWvl a x) (fun y hy => h1 y (by simp [hy])) hx (by
        show 0 < a.r0 * (x / a.wvl) ^ (1.2:ℝ); positivity)
      exact this
  obtain ⟨i1, i2, i3, i4⟩ := inv ws (mk wvl r0 w h v d (.one L0)) hws hwvl hr
  generalize ws.foldl setWvl (mk wvl r0 w h v d (.one L0)) = a at i1 i2 i3 i4 ⊢
  have hLa : a.L0 = L0 := i3
  have hwa : a.weights = w := i2
  have e : a.layers.mapIdx (fun i l => covariance kv (slabNow a i l) (l.height * tan 0)) =
      w.map (fun x => x * variance a) := by
    apply List.ext_getElem
    · simp [i1, mk]
    · intro i h1 h2
      have hi : i < w.length := by simpa using h2
      simp only [List.getElem_mapIdx, tan_zero, mul_zero, covariance, if_true, List.getElem_map]
      have hl0 : (a.layers[i]'(by simpa using h1)).L0 = L0 := by
        simp [i1, mk]
      have hat : at' a.weights i = w[i] := by simp [at', hwa, hi]
      have hs0 : (slabNow a i (a.layers[i]'(by simpa using h1))).L0 = L0 := by
        simp [slabNow, mk, hl0]
      have hs1 : (slabNow a i (a.layers[i]'(by simpa using h1))).r0 = a.r0 * w[i] ^ (-(3:ℝ)/5) := by
        simp [slabNow, hat]
      have hwi : 0 < w[i] := hw _ (List.getElem_mem _)
      have key : ∀ x : ℝ, 0 < x → c1 * c3 * (L0 / (a.r0 * x ^ (-(3:ℝ)/5))) ^ ((5:ℝ)/3) =
          x * variance a := by
        intro x hx
        rw [variance, hLa, ← div_div, div_rpow (by positivity) (by positivity), ← rpow_mul hx.le]
        norm_num
        rw [rpow_neg_one]
        field_simp
      rw [hs0, hs1]
      exact key _ hwi
  rw [angularCovariance, e, List.sum_map_mul_right, List.map_id', hs, one_mul]

/-- C140 (violation): at zero delay the temporal covariance is the phase variance times the NUMBER of
layers, because each layer contributes the covariance of the whole atmosphere. -/
theorem temporalCovariance_zero (kv : ℝ → ℝ) (a : Atm) :
    temporalCovariance kv a 0 = a.layers.length * variance a := by
  have : ∀ i ∈ List.range a.layers.length, covariance kv a (at' a.wSpeed i * 0) = variance a := by
    intro i _; simp [covariance, variance]
  rw [temporalCovariance, List.map_congr_left this]
  simp

/-- C140 (violation, concrete): two layers give twice the variance. -/
theorem temporalCovariance_two_layers (kv : ℝ → ℝ) : ∃ a : Atm, a.weights.sum = 1 ∧
    temporalCovariance kv a 0 ≠ variance a := by
  refine ⟨mk 5e-7 0.15 [1/2, 1/2] [0, 10000] [5, 20] [0, 90] (.one 25), by norm_num [mk], ?_⟩
  rw [temporalCovariance_zero]
  have : 0 < variance (mk 5e-7 0.15 [1/2, 1/2] [0, 10000] [5, 20] [0, 90] (.one 25)) :=
    (variance_strength _ (by norm_num [mk]) (by norm_num [mk])).1
  have e : (mk 5e-7 0.15 [1/2, 1/2] [0, 10000] [5, 20] [0, 90] (.one 25)).layers.length = 2 := by
    simp [mk]
  rw [e]
  push_cast
  linarith

/-- C140 (partial): for a single layer the temporal covariance at zero delay is the variance. -/
theorem temporalCovariance_one_layer_partial (kv : ℝ → ℝ) (a : Atm) (h : a.layers.length = 1) :
    temporalCovariance kv a 0 = variance a := by
  rw [temporalCovariance_zero, h]; simp

/-- C62: the structure function is the variance of a phase difference, `2 (variance - covariance)`: it is
non-negative exactly where the covariance does not exceed the variance, and at most twice the variance where the
covariance is non-negative; the infinite outer scale gives Kolmogorov's law, 32 times larger for 8 times the
separation. -/
theorem structureFunction_spec (kv : ℝ → ℝ) (a : Atm) (rho : ℝ) :
    structureFunction kv a rho = variance a + variance a - (covariance kv a rho + covariance kv a rho) ∧
    (0 ≤ structureFunction kv a rho ↔ covariance kv a rho ≤ variance a) ∧
    (structureFunction kv a rho ≤ 2 * variance a ↔ 0 ≤ covariance kv a rho) ∧
    ∀ r0, 0 < r0 → 0 ≤ rho → structureFunctionInf r0 (8 * rho) = 32 * structureFunctionInf r0 rho := by
  unfold structureFunction
  refine ⟨by ring, ⟨fun h => by linarith, fun h => by linarith⟩, ⟨fun h => by linarith, fun h => by linarith⟩, ?_⟩
  intro r0 h0 hr
  unfold structureFunctionInf
  have h8 : (8:ℝ) ^ ((5:ℝ)/3) = 32 := by
    rw [show (8:ℝ) = 2 ^ (3:ℝ) by norm_num, ← Real.rpow_mul (by norm_num)]
    norm_num
  rw [mul_div_assoc, Real.mul_rpow (by norm_num) (by positivity), h8]
  ring

/-! ### Cases that meet the hypotheses -/

/-- A case meeting the hypotheses of `slab_spec`. -/
example : ∃ s, slab (mk 500e-9 0.15 [0.7, 0.3] [0, 10000] [5, 20] [0, 90] (.many [25, 30])) 1 = .ok s ∧ s.heights = [10000] ∧ s.L0 = 30 := by
  obtain ⟨s, h, _, _, _, h1, _, _, _, h2⟩ := (slab_spec 500e-9 0.15 [0.7, 0.3] [0, 10000] [5, 20] [0, 90] (.many [25, 30]) 1 (by norm_num)
    (by norm_num) rfl rfl rfl).1 (by norm_num)
  exact ⟨s, h, h1, h2 _ rfl 30 rfl⟩

/-- A case meeting the hypotheses of `slab_stale_after_setWvl`. -/
example : ∃ s, slab (setWvl (mk 500e-9 0.15 [1] [0] [10] [0] (.one 25)) 1650e-9) 0 = .ok s ∧ s.wvl = 1650e-9 ∧ strength s.r0 = strength 0.15 := by
  obtain ⟨s, h, h1, h2, _⟩ := slab_stale_after_setWvl 500e-9 0.15 1650e-9 (.one 25) (by norm_num) (by norm_num) (by norm_num) (by norm_num)
  exact ⟨s, h, h1, h2⟩

/-- A case meeting the hypotheses of `meanHeight_meanWind_between`. -/
example : (0 ≤ meanHeight (mk 500e-9 0.15 [0.7, 0.3] [0, 10000] [5, 20] [0, 90] (.one 25)) ∧
      meanHeight (mk 500e-9 0.15 [0.7, 0.3] [0, 10000] [5, 20] [0, 90] (.one 25)) ≤ 10000) ∧
    5 ≤ meanWind (mk 500e-9 0.15 [0.7, 0.3] [0, 10000] [5, 20] [0, 90] (.one 25)) ∧
      meanWind (mk 500e-9 0.15 [0.7, 0.3] [0, 10000] [5, 20] [0, 90] (.one 25)) ≤ 20 :=
  meanHeight_meanWind_between (mk 500e-9 0.15 [0.7, 0.3] [0, 10000] [5, 20] [0, 90] (.one 25)) (by norm_num [mk]) (by norm_num [mk]) rfl rfl
    0 10000 5 20 (by norm_num) (by norm_num) (by norm_num [mk]) (by norm_num [mk])

/-- A case meeting the hypotheses of `angularCovariance_zero`. -/
example (kv : ℝ → ℝ) : angularCovariance kv ([1650e-9, 2200e-9].foldl setWvl (mk 500e-9 0.15 [0.7, 0.3] [0, 10000] [5, 20] [0, 90] (.one 25))) 0 =
    variance ([1650e-9, 2200e-9].foldl setWvl (mk 500e-9 0.15 [0.7, 0.3] [0, 10000] [5, 20] [0, 90] (.one 25))) :=
  angularCovariance_zero kv 500e-9 0.15 25 _ _ _ _ (by norm_num) (by norm_num) (by norm_num) (by norm_num) (by norm_num) _ (by norm_num)

/-! ### Cases that meet the hypotheses -/

/-- A case meeting the hypotheses of `layers_strength`. -/
example : ((mk 500e-9 0.15 [0.7, 0.3] [0, 10000] [5, 20] [0, 90] (.one 25)).layers.map (fun l => strength l.r0)).sum =
    strength (mk 500e-9 0.15 [0.7, 0.3] [0, 10000] [5, 20] [0, 90] (.one 25)).r0 :=
  layers_strength _ _ _ _ _ _ _ (by norm_num) (by intro x hx; fin_cases hx <;> norm_num) (by norm_num)

/-- A case meeting the hypotheses of `L0_uniform`. -/
example : (mk 500e-9 0.15 [0.7, 0.3] [0, 10000] [5, 20] [0, 90] (.many [25, 25])).L0 = 25 :=
  (L0_uniform 500e-9 0.15 25 [0.7, 0.3] [0, 10000] [5, 20] [0, 90] (by norm_num) (by intro x hx; fin_cases hx <;> norm_num)
    (by norm_num)).1

end P3.Atmosphere
