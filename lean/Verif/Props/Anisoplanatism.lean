import Verif.Model.Anisoplanatism
import Verif.Props.BreakdownDefined
/-
C48, C63-C65: anisoplanatism.
-/
namespace P3.Aniso
open Real P3.Atmosphere P3.Breakdown

/-- An atmosphere with a single layer. -/
noncomputable def oneLayer (wvl r0 L0 h : ℝ) : Atm := Atmosphere.mk wvl r0 [1] [h] [10] [0] (.one L0)

/-- Spec: the two reports. -/
noncomputable def reports (D z : ℝ) (a : Atm) : List (Option ℝ) := [focal D z a, focalWfe D z a]

/-- C48: without turbulence above the ground both reports are zero. -/
theorem focal_ground (D z : ℝ) (a : Atm) (hh : ∀ h ∈ a.heights, h ≤ 0) :
    ∀ r ∈ reports D z a, r = some 0 := by
  have zero : ∀ (f : ℝ → ℝ → ℝ) , (∀ w, ∀ h ∈ a.heights, f w h = 0) →
      (List.zipWith f a.weights a.heights).sum = 0 := by
    intro f hf
    apply List.sum_eq_zero
    intro x hx
    rw [List.mem_iff_getElem] at hx
    obtain ⟨i, hi, rfl⟩ := hx
    rw [List.getElem_zipWith]
    exact hf _ _ (List.getElem_mem _)
  intro r hr
  simp only [reports, List.mem_cons, List.not_mem_nil, or_false] at hr
  rcases hr with rfl | rfl
  · unfold focal
    dsimp only
    rw [zero _ (fun w h hm => if_neg (not_lt.mpr (hh h hm)))]
    simp [sqrtO]
  · unfold focalWfe
    dsimp only
    rw [zero _ (fun w h hm => if_neg (not_lt.mpr (hh h hm)))]
    simp [sqrtO]

/-- C48: with the layers below the laser star both reports are non-negative numbers. -/
theorem focal_nonneg_both (D z : ℝ) (a : Atm) (hD : 0 < D) (hr : 0 < a.r0) (hwv : 0 ≤ a.wvl)
    (hw : ∀ w ∈ a.weights, 0 ≤ w) (hz : 0 < z) (hh : ∀ h ∈ a.heights, h ≤ z) :
    ∀ r ∈ reports D z a, ∃ y, r = some y ∧ 0 ≤ y := by
  have h2 : 0 ≤ (D / a.r0) ^ ((5:ℝ)/3) := Real.rpow_nonneg (div_pos hD hr).le _
  have hlay : ∀ c : ℝ, c ≤ 0.5 → ∀ w ∈ a.weights, ∀ h ∈ a.heights, h > 0 →
      0 ≤ w * (0.5 * (h / z) ^ ((5:ℝ)/3) - c * (h / z) ^ 2) := by
    intro c hc w hwm h hm h0
    exact mul_nonneg (hw w hwm) (layerFocal_nonneg c (h / z) hc (by positivity)
      ((div_le_one hz).mpr (hh h hm)))
  intro r hr'
  simp only [reports, List.mem_cons, List.not_mem_nil, or_false] at hr'
  rcases hr' with rfl | rfl
  · unfold focal
    dsimp only
    rw [sqrtO_of_nonneg (mul_nonneg (sum_zipWith_nonneg _ _ _ ?_) h2)]
    · exact ⟨_, rfl, by positivity⟩
    · intro w hwm h hm
      split_ifs with h0
      · exact hlay 0.425 (by norm_num) w hwm h hm h0
      · exact le_rfl
  · unfold focalWfe
    dsimp only
    rw [sqrtO_of_nonneg (mul_nonneg (sum_zipWith_nonneg _ _ _ ?_) h2)]
    · exact ⟨_, rfl, by positivity⟩
    · intro w hwm h hm
      split_ifs with h0
      · exact div_nonneg (hlay 0.452 (by norm_num) w hwm h hm h0) (by norm_num)
      · exact le_rfl

theorem focal_oneLayer (wvl r0 L0 h D z : ℝ) (hh : 0 < h) (hz : 0 < z) (hhz : h ≤ z) (hD : 0 < D)
    (hr : 0 < r0) : focal D z (oneLayer wvl r0 L0 h) =
      some (sqrt (layerFocal 0.425 (h / z) * (D / r0) ^ ((5:ℝ)/3)) * (wvl * 10 ^ 9 / 2 / π)) := by
  have h1 := layerFocal_nonneg 0.425 (h / z) (by norm_num) (by positivity) ((div_le_one hz).mpr hhz)
  unfold focal
  dsimp only
  have e : (List.zipWith (fun w h => if h > 0 then w * (0.5 * (h / z) ^ ((5:ℝ)/3) - 0.425 * (h / z) ^ 2) else 0)
      (oneLayer wvl r0 L0 h).weights (oneLayer wvl r0 L0 h).heights).sum = layerFocal 0.425 (h / z) := by
    simp [oneLayer, Atmosphere.mk, hh, layerFocal]
  rw [e]
  have er : (oneLayer wvl r0 L0 h).r0 = r0 := rfl
  have ew : (oneLayer wvl r0 L0 h).wvl = wvl := rfl
  rw [er, ew, sqrtO_of_nonneg (by positivity)]
  rfl

theorem focalWfe_oneLayer (wvl r0 L0 h D z : ℝ) (hh : 0 < h) (hz : 0 < z) (hhz : h ≤ z) (hD : 0 < D)
    (hr : 0 < r0) : focalWfe D z (oneLayer wvl r0 L0 h) =
      some (sqrt (layerFocal 0.452 (h / z) / 0.423 * (D / r0) ^ ((5:ℝ)/3)) * (wvl * 10 ^ 9 / 2 / π)) := by
  have h1 := layerFocal_nonneg 0.452 (h / z) (by norm_num) (by positivity) ((div_le_one hz).mpr hhz)
  unfold focalWfe
  dsimp only
  have e : (List.zipWith (fun w h => if h > 0 then w * (0.5 * (h / z) ^ ((5:ℝ)/3) - 0.452 * (h / z) ^ 2) / 0.423 else 0)
      (oneLayer wvl r0 L0 h).weights (oneLayer wvl r0 L0 h).heights).sum = layerFocal 0.452 (h / z) / 0.423 := by
    simp [oneLayer, Atmosphere.mk, hh, layerFocal]
  rw [e]
  have er : (oneLayer wvl r0 L0 h).r0 = r0 := rfl
  have ew : (oneLayer wvl r0 L0 h).wvl = wvl := rfl
  rw [er, ew, sqrtO_of_nonneg (by positivity)]
  rfl

/-- C48: the error of one layer grows with its altitude, up to 94 % (resp. 78 %) of the laser height. -/
theorem focal_altitude (wvl r0 L0 D z h h' : ℝ) (hwv : 0 ≤ wvl) (hr : 0 < r0) (hD : 0 < D)
    (hz : 0 < z) (hh : 0 < h) (hhh : h ≤ h') :
    (h' ≤ 0.94 * z → ∃ y y', focal D z (oneLayer wvl r0 L0 h) = some y ∧
      focal D z (oneLayer wvl r0 L0 h') = some y' ∧ y ≤ y') ∧
    (h' ≤ 0.78 * z → ∃ y y', focalWfe D z (oneLayer wvl r0 L0 h) = some y ∧
      focalWfe D z (oneLayer wvl r0 L0 h') = some y' ∧ y ≤ y') := by
  have hh' : 0 < h' := hh.trans_le hhh
  have hdiv : h / z ≤ h' / z := by gcongr
  constructor
  · intro hb
    have hz' : h' ≤ z := by linarith
    refine ⟨_, _, focal_oneLayer _ _ _ _ _ _ hh hz (hhh.trans hz') hD hr,
      focal_oneLayer _ _ _ _ _ _ hh' hz hz' hD hr, ?_⟩
    have := layerFocal_mono 0.425 (h / z) (h' / z) (by norm_num) (by positivity) hdiv
      ((div_le_iff₀ hz).mpr (hb.trans (by gcongr; norm_num)))
    have h3 : 0 ≤ (D / r0) ^ ((5:ℝ)/3) := by positivity
    have h4 : 0 ≤ wvl * 10 ^ 9 / 2 / π := by positivity
    exact mul_le_mul_of_nonneg_right (Real.sqrt_le_sqrt (mul_le_mul_of_nonneg_right this h3)) h4
  · intro hb
    have hz' : h' ≤ z := by linarith
    refine ⟨_, _, focalWfe_oneLayer _ _ _ _ _ _ hh hz (hhh.trans hz') hD hr,
      focalWfe_oneLayer _ _ _ _ _ _ hh' hz hz' hD hr, ?_⟩
    have := layerFocal_mono 0.452 (h / z) (h' / z) (by norm_num) (by positivity) hdiv
      ((div_le_iff₀ hz).mpr (hb.trans (by gcongr; norm_num)))
    have h3 : 0 ≤ (D / r0) ^ ((5:ℝ)/3) := by positivity
    have h4 : 0 ≤ wvl * 10 ^ 9 / 2 / π := by positivity
    have h5 := div_le_div_of_nonneg_right this (show (0:ℝ) ≤ 0.423 by norm_num)
    exact mul_le_mul_of_nonneg_right (Real.sqrt_le_sqrt (mul_le_mul_of_nonneg_right h5 h3)) h4

/-- C282 (violation): near the laser star the reported error decreases with altitude: a layer at the laser's
height counts less than one at `0.97^3 = 91 %` of it. -/
theorem focal_not_monotone (wvl r0 L0 D z : ℝ) (hwv : 0 < wvl) (hr : 0 < r0) (hD : 0 < D) (hz : 0 < z) :
    ∃ y y', focal D z (oneLayer wvl r0 L0 (0.97 ^ 3 * z)) = some y ∧
      focal D z (oneLayer wvl r0 L0 z) = some y' ∧ y' < y := by
  refine ⟨_, _, focal_oneLayer _ _ _ _ _ _ (by positivity) hz (by nlinarith) hD hr,
      focal_oneLayer _ _ _ _ _ _ hz hz le_rfl hD hr, ?_⟩
  have h3 : 0 < (D / r0) ^ ((5:ℝ)/3) := by positivity
  have h4 : 0 < wvl * 10 ^ 9 / 2 / π := by positivity
  refine mul_lt_mul_of_pos_right (Real.sqrt_lt_sqrt ?_ (mul_lt_mul_of_pos_right ?_ h3)) h4
  · exact mul_nonneg (layerFocal_nonneg _ _ (by norm_num) (by positivity) (by rw [div_self hz.ne'])) h3.le
  · rw [mul_div_assoc, div_self hz.ne', mul_one, layerFocal_cube _ _ (by norm_num)]
    have := layerFocal_cube 0.425 1 (by norm_num)
    rw [one_pow] at this
    rw [this]; norm_num

/-- C282 (violation): the two reports disagree for every single layer between the ground and half the laser
height. -/
theorem focal_reports_disagree (wvl r0 L0 D z h : ℝ) (hwv : 0 < wvl) (hr : 0 < r0) (hD : 0 < D) (hz : 0 < z)
    (hh : 0 < h) (hhz : h ≤ z / 2) :
    focal D z (oneLayer wvl r0 L0 h) ≠ focalWfe D z (oneLayer wvl r0 L0 h) := by
  rw [focal_oneLayer _ _ _ _ _ _ hh hz (by linarith) hD hr,
    focalWfe_oneLayer _ _ _ _ _ _ hh hz (by linarith) hD hr]
  intro he
  have h3 : 0 < (D / r0) ^ ((5:ℝ)/3) := by positivity
  have h4 : 0 < wvl * 10 ^ 9 / 2 / π := by positivity
  have g0 : 0 < h / z := by positivity
  have g1 : h / z ≤ 1 / 2 := (div_le_iff₀ hz).mpr (by linarith)
  have e := mul_right_cancel₀ h4.ne' (Option.some.inj he)
  have n1 := layerFocal_nonneg 0.425 (h / z) (by norm_num) g0.le (by linarith)
  have n2 := layerFocal_nonneg 0.452 (h / z) (by norm_num) g0.le (by linarith)
  have e' := (Real.sqrt_inj (by positivity) (by positivity)).mp e
  have e'' := mul_right_cancel₀ h3.ne' e'
  generalize h / z = g at *
  obtain ⟨x, hx, rfl⟩ := exists_cube g g0.le
  rw [layerFocal_cube _ _ hx, layerFocal_cube _ _ hx] at e''
  have hx0 : 0 < x := by
    rcases hx.eq_or_lt with h | h
    · rw [← h] at g0; norm_num at g0
    · exact h
  have hx1 : x < 0.9 := by
    by_contra hc
    push Not at hc
    have : (0.9:ℝ) ^ 3 ≤ x ^ 3 := by gcongr
    norm_num at this
    linarith
  have h5 : 0 < x ^ 5 := by positivity
  have : x ^ 6 = x ^ 5 * x := by ring
  rw [this] at e''
  have e3 : x ^ 5 * (0.5 * 0.423 - 0.425 * 0.423 * x - 0.5 + 0.452 * x) = 0 := by
    have := e''
    field_simp at this
    linarith
  have e4 := (mul_eq_zero.mp e3).resolve_left h5.ne'
  norm_num at e4 hx1
  linarith

/-- Non-vacuity for the hypotheses above: sodium star, 10 km layer. -/
example : ∃ wvl r0 D z h : ℝ, 0 < wvl ∧ 0 < r0 ∧ 0 < D ∧ 0 < z ∧ 0 < h ∧ h ≤ z / 2 :=
  ⟨5e-7, 0.15, 8, 90000, 10000, by norm_num⟩

/-! ### C63: angular anisoplanatism -/

theorem cte_pos : 0 < cte := by
  unfold cte
  have h1 : 0 < Gamma (6/5) := Gamma_pos_of_pos (by norm_num)
  have h2 : 0 < Gamma (11/6) := Gamma_pos_of_pos (by norm_num)
  positivity

theorem watm_pos (a : Atm) (hL : a.L0 ≠ 0) (kx ky : ℝ) : 0 < watm a kx ky := by
  unfold watm
  have := cte_pos
  have h : 0 < 1 / a.L0 ^ 2 + (kx ^ 2 + ky ^ 2) := by positivity
  exact mul_pos this (Real.rpow_pos_of_pos h _)

/-- C63: the angular anisoplanatism spectrum is non-negative and at most four times the turbulence
spectrum per layer; it is zero towards the guide star, and for turbulence at the ground; opposite separations
give the same spectrum. -/
theorem angularPsd_spec (a : Atm) (hL : a.L0 ≠ 0) (airmass thx thy kx ky : ℝ) :
    0 ≤ angularPsd a airmass thx thy kx ky ∧
    angularPsd a airmass thx thy kx ky ≤ a.heights.length * (4 * watm a kx ky) ∧
    angularPsd a airmass 0 0 kx ky = 0 ∧
    angularPsd a airmass (-thx) (-thy) kx ky = angularPsd a airmass thx thy kx ky ∧
    ((∀ h ∈ a.heights, h = 0) → angularPsd a airmass thx thy kx ky = 0) := by
  have hw := watm_pos a hL kx ky
  refine ⟨?_, ?_, ?_, ?_, ?_⟩
  · apply List.sum_nonneg
    intro x hx
    obtain ⟨h, -, rfl⟩ := List.mem_map.mp hx
    dsimp only
    split_ifs
    · have := Real.cos_le_one (2 * π * (h * airmass) * (kx * thx + ky * thy))
      exact mul_nonneg (mul_nonneg (by norm_num) (by linarith)) hw.le
    · exact le_rfl
  · unfold angularPsd
    have := List.sum_le_card_nsmul (a.heights.map (fun h =>
      let zl := h * airmass
      if zl ≠ 0 ∧ (thx ≠ 0 ∨ thy ≠ 0) then
        2 * (1 - cos (2 * π * zl * (kx * thx + ky * thy))) * watm a kx ky else 0)) (4 * watm a kx ky) ?_
    · simpa using this
    · intro x hx
      obtain ⟨h, -, rfl⟩ := List.mem_map.mp hx
      dsimp only
      split_ifs
      · have := Real.neg_one_le_cos (2 * π * (h * airmass) * (kx * thx + ky * thy))
        nlinarith
      · positivity
  · apply List.sum_eq_zero
    intro x hx
    obtain ⟨h, -, rfl⟩ := List.mem_map.mp hx
    simp
  · unfold angularPsd
    congr 1
    apply List.map_congr_left
    intro h _
    dsimp only
    have : 2 * π * (h * airmass) * (kx * -thx + ky * -thy) =
      -(2 * π * (h * airmass) * (kx * thx + ky * thy)) := by ring
    simp only [neg_ne_zero, this, Real.cos_neg]
  · intro hz
    apply List.sum_eq_zero
    intro x hx
    obtain ⟨h, hm, rfl⟩ := List.mem_map.mp hx
    simp [hz h hm]

/-- C63: the spectrum used is that of the turbulence (`Atmosphere.spectrum`), for a Fried parameter of one metre. -/
theorem watm_turbulence (a : Atm) (hr : 0 < a.r0) (kx ky : ℝ) :
    watm a kx ky = a.r0 ^ ((5:ℝ)/3) * Atmosphere.spectrum a (sqrt (kx ^ 2 + ky ^ 2)) := by
  unfold watm Atmosphere.spectrum cte
  have e : a.r0 ^ ((5:ℝ)/3) * a.r0 ^ (-(5:ℝ)/3) = 1 := by
    rw [← rpow_add hr]; norm_num
  rw [sq_sqrt (by positivity), add_comm (kx ^ 2 + ky ^ 2)]
  rw [← mul_assoc, ← mul_assoc, e, one_mul]

/-- C141 (violation): the reported angular error does not depend on the strength of the turbulence nor on its
distribution over the layers: any `r0` and any weights give the same spectrum. -/
theorem angularPsd_ignores_strength (a : Atm) (r0' : ℝ) (w' : List ℝ) (airmass thx thy kx ky : ℝ) :
    angularPsd { a with r0 := r0', weights := w' } airmass thx thy kx ky =
      angularPsd a airmass thx thy kx ky := rfl

/-! ### C64: anisokinetism -/

/-- C64: the anisokinetism error is zero towards the tip-tilt star and does not depend on which of the two
directions is called the source. -/
theorem anisokinetism_spec (a : Atm) (D : ℝ) (s g : ℝ × ℝ) :
    anisokinetism a D s s = some 0 ∧ anisokinetism a D s g = anisokinetism a D g s := by
  constructor
  · unfold anisokinetism sasielaAxis
    have h1 : (0:ℝ) ^ ((14:ℝ)/3) = 0 := Real.zero_rpow (by norm_num)
    have h2 : (0:ℝ) ^ ((20:ℝ)/3) = 0 := Real.zero_rpow (by norm_num)
    simp [sqrtO, h1, h2]
  · unfold anisokinetism
    rw [abs_sub_comm s.1, abs_sub_comm s.2]

/-- Spec: the expansion of one axis in the displacement `x` of the beams at a layer, in diameters. -/
noncomputable def expansion (c1 c2 c3 c4 c5 x : ℝ) : ℝ :=
  c1 * x ^ 2 + c2 * x ^ 4 + c3 * x ^ ((14:ℝ)/3) + c4 * x ^ 6 + c5 * x ^ ((20:ℝ)/3)

/-- C64: each layer contributes in proportion to its weight, by the displacement of the beams at its height in
diameters of the telescope. -/
theorem sasiela_layers (a : Atm) (D th c1 c2 c3 c4 c5 : ℝ) (hD : 0 < D) (ht : 0 ≤ th) (hh : ∀ h ∈ a.heights, 0 ≤ h) :
    sasielaAxis a D th c1 c2 c3 c4 c5 = a.r0 ^ (-(5:ℝ)/3) / D ^ ((1:ℝ)/3) *
      (List.zipWith (fun w h => w * expansion c1 c2 c3 c4 c5 (h * th / D)) a.weights a.heights).sum := by
  unfold sasielaAxis moment
  generalize a.weights = ws
  revert hh
  generalize a.heights = hs
  intro hh
  induction ws generalizing hs with
  | nil => simp
  | cons w ws ih =>
    rcases hs with _ | ⟨h, hs⟩
    · simp
    · simp only [List.zipWith_cons_cons, List.sum_cons]
      have i := ih hs (fun x hx => hh x (List.mem_cons_of_mem _ hx))
      have h0 : 0 ≤ h := hh h (List.mem_cons_self ..)
      have td : 0 ≤ th / D := by positivity
      have r : ∀ e : ℝ, (h * th / D) ^ e = h ^ e * (th / D) ^ e := by
        intro e; rw [mul_div_assoc, mul_rpow h0 td]
      rw [mul_add (a.r0 ^ (-(5:ℝ)/3) / D ^ ((1:ℝ)/3)), ← i]
      unfold expansion
      rw [r, r]
      have e2 : h ^ (2:ℝ) = h ^ 2 := by exact_mod_cast rpow_natCast h 2
      have e4 : h ^ (4:ℝ) = h ^ 4 := by exact_mod_cast rpow_natCast h 4
      have e6 : h ^ (6:ℝ) = h ^ 6 := by exact_mod_cast rpow_natCast h 6
      rw [e2, e4, e6]
      ring

/-- C64: the squared error, in radians, is the sum of both axes over the layers, with the coefficients of Sasiela along the
separation in x and in y. -/
theorem anisokinetism_value (a : Atm) (D : ℝ) (hD : 0 < D) (hh : ∀ h ∈ a.heights, 0 ≤ h) (s g : ℝ × ℝ) (y : ℝ)
    (hy : anisokinetism a D s g = some y) (hw : 0 < a.wvl) :
    (y * (2 * π / (a.wvl * 10 ^ 9))) ^ 2 = a.r0 ^ (-(5:ℝ)/3) / D ^ ((1:ℝ)/3) *
      ((List.zipWith (fun w h => w * expansion 8.01 (-18.4) (2.35 * 17 / 3) 2.128 (0.306 * 23 / 3) (h * |s.1 - g.1| / D)) a.weights a.heights).sum +
       (List.zipWith (fun w h => w * expansion 2.67 (-3.68) 2.35 0.304 0.306 (h * |s.2 - g.2| / D)) a.weights a.heights).sum) := by
  unfold anisokinetism at hy
  dsimp only at hy
  rw [sasiela_layers a D _ _ _ _ _ _ hD (abs_nonneg _) hh, sasiela_layers a D _ _ _ _ _ _ hD (abs_nonneg _) hh, ← mul_add] at hy
  unfold sqrtO at hy
  split_ifs at hy with h0
  all_goals
    simp only [Option.map_some, Option.map_none, Option.some.injEq, reduceCtorEq] at hy
  all_goals
    rw [← hy]
    have hp := pi_pos
    have e : ∀ z : ℝ, (sqrt z * a.wvl * 10 ^ 9 / 2 / π * (2 * π / (a.wvl * 10 ^ 9))) = sqrt z := by
      intro z; field_simp
    rw [e, sq_sqrt (by first | exact h0 | exact not_lt.mp h0 | linarith)]
    norm_num [mul_div_assoc]

/-! ### C65: the guide star is put back -/

/-- C65 (partial): when the computation of the focal part succeeds, the laser star is left as it was,
whether or not the rest of the computation raises. -/
theorem star_restored_partial {ε α : Type} (focal angular : Star → Except ε α) (kinetic : Except ε α)
    (plus : α → α → α) (st : Star) (v : α) (h : focal ⟨[0], [0]⟩ = .ok v) :
    (structureFunction focal angular kinetic plus st).1 = st := by
  unfold structureFunction
  dsimp only
  rw [h]
  cases angular st with
  | error e => rfl
  | ok d => cases kinetic <;> rfl

/-- C65: on success the focal part was evaluated with the star on axis, the angular part with the star in
its place, and the first output is their sum. -/
theorem structureFunction_ok_iff {ε α : Type} (focal angular : Star → Except ε α) (kinetic : Except ε α)
    (plus : α → α → α) (st : Star) (r : α × α × α) :
    (structureFunction focal angular kinetic plus st).2 = .ok r ↔
      ∃ f a k, focal ⟨[0], [0]⟩ = .ok f ∧ angular st = .ok a ∧ kinetic = .ok k ∧ r = (plus f a, a, k) := by
  unfold structureFunction
  dsimp only
  cases hf : focal ⟨[0], [0]⟩ with
  | error e => simp
  | ok f =>
    dsimp only
    cases ha : angular st with
    | error e => simp
    | ok a =>
      cases hk : kinetic with
      | error e => simp
      | ok k => simp [eq_comm]

/-- C65 (violation): if the focal part raises, the star stays on axis. -/
theorem star_lost {ε α : Type} (focal angular : Star → Except ε α) (kinetic : Except ε α)
    (plus : α → α → α) (st : Star) (e : ε) (h : focal ⟨[0], [0]⟩ = .error e) :
    (structureFunction focal angular kinetic plus st).1 = ⟨[0], [0]⟩ := by
  unfold structureFunction
  dsimp only
  rw [h]

/-! ### C67: anisoplanatism of the frequency domain -/

/-- C67 (partial): a laser system gets the weighted sum of the focal-angular and tip-tilt functions; an
on-axis target, the other modes, or a disabled computation get none. -/
theorem dphiAni_partial {α : Type} (plus : α → α → α) (weight : α → α) (mode : String) (compute onAxis : Bool)
    (angular : Except PyErr α) (f a t : α) :
    (compute = true → mode = "SLAO" →
      dphiAni plus weight mode compute onAxis angular (.ok (f, a, t)) = .ok (some (weight (plus f t)))) ∧
    ((compute = false ∨ (mode = "SCAO" ∧ onAxis = true) ∨ (mode ≠ "SCAO" ∧ mode ≠ "SLAO")) →
      dphiAni plus weight mode compute onAxis angular (.ok (f, a, t)) = .ok none) := by
  constructor
  · rintro rfl rfl; rfl
  · rintro (rfl | ⟨rfl, rfl⟩ | ⟨h1, h2⟩)
    · rfl
    · cases compute <;> rfl
    · unfold dphiAni; rw [if_neg h1, if_neg h2]; simp

/-- C67 (violation): an NGS system with an off-axis target never gets a structure function. -/
theorem dphiAni_ngs_fails {α : Type} (plus : α → α → α) (weight : α → α) (angular : Except PyErr α)
    (laser : Except PyErr (α × α × α)) :
    ∃ e, dphiAni plus weight "SCAO" true false angular laser = .error e := by
  cases angular with
  | error e => exact ⟨e, rfl⟩
  | ok a => exact ⟨.broadcast, rfl⟩

/-! ### Cases that meet the hypotheses -/

/-- A case meeting the hypotheses of `focal_nonneg_both`. -/
example : ∀ r ∈ reports 8 90000 (Atmosphere.mk 500e-9 0.15 [0.7, 0.3] [0, 10000] [5, 20] [0, 90] (.one 25)), ∃ y, r = some y ∧ 0 ≤ y :=
  focal_nonneg_both 8 90000 _ (by norm_num) (by norm_num [Atmosphere.mk]) (by norm_num [Atmosphere.mk]) (by norm_num [Atmosphere.mk])
    (by norm_num) (by norm_num [Atmosphere.mk])

/-- A case meeting the hypotheses of `focal_altitude`. -/
example : ∃ y y', focal 8 90000 (oneLayer 500e-9 0.15 25 5000) = some y ∧ focal 8 90000 (oneLayer 500e-9 0.15 25 10000) = some y' ∧ y ≤ y' :=
  (focal_altitude 500e-9 0.15 25 8 90000 5000 10000 (by norm_num) (by norm_num) (by norm_num) (by norm_num) (by norm_num)
    (by norm_num)).1 (by norm_num)

/-- A case meeting the hypotheses of `focal_not_monotone`. -/
example : ∃ y y', focal 8 90000 (oneLayer 500e-9 0.15 25 (0.97 ^ 3 * 90000)) = some y ∧
    focal 8 90000 (oneLayer 500e-9 0.15 25 90000) = some y' ∧ y' < y :=
  focal_not_monotone 500e-9 0.15 25 8 90000 (by norm_num) (by norm_num) (by norm_num) (by norm_num)

/-- A case meeting the hypotheses of `focal_reports_disagree`. -/
example : focal 8 90000 (oneLayer 500e-9 0.15 25 10000) ≠ focalWfe 8 90000 (oneLayer 500e-9 0.15 25 10000) :=
  focal_reports_disagree 500e-9 0.15 25 8 90000 10000 (by norm_num) (by norm_num) (by norm_num) (by norm_num) (by norm_num) (by norm_num)

end P3.Aniso
