import Verif.Model.FieldOfView
import Mathlib.Tactic.Linarith
import Mathlib.Tactic.NormNum
import Mathlib.Tactic.FieldSimp
import Mathlib.Tactic.Ring
/-
C04: the science field of view.
-/
namespace P3.FieldOfView
open Real P3.Config

/-! ### Specification -/

/-- `x` is the least element of the list. -/
def IsLeastOf (x : ℝ) (l : List ℝ) : Prop := x ∈ l ∧ ∀ y ∈ l, x ≤ y

/-- Radius of the area corrected by the mirror, in pixels of `pix` mas: `λ/d` in radians, with 1 rad =
180*3600*1000/π mas. -/
noncomputable def correctedRadiusPix (wvl pitch pix : ℝ) : ℝ := wvl / pitch * (180 * 3600 * 1000 / π) / pix

/-- `n` is wide enough: even, at least 2, and half of it covers both radii. -/
def Covers (n : ℤ) (corrected seeingPix : ℝ) : Prop :=
  Even n ∧ 2 ≤ n ∧ corrected ≤ (n : ℝ) / 2 ∧ seeingPix ≤ (n : ℝ) / 2

/-! ### Theorems -/

theorem npMin_ok {l : List ℝ} {x : ℝ} (h : npMin l = .ok x) : IsLeastOf x l := by
  cases l with
  | nil => cases h
  | cons a t =>
    have h : t.foldl min a = x := Except.ok.inj h
    subst h
    clear h
    induction t generalizing a with
    | nil => simp [IsLeastOf]
    | cons b t ih =>
      obtain ⟨h1, h2⟩ := ih (min a b)
      simp only [List.foldl_cons]
      constructor
      · rcases List.mem_cons.mp h1 with h | h
        · rw [h]; rcases min_choice a b with e | e <;> simp [e]
        · simp [h]
      · intro y hy
        have h3 := h2 (min a b) (by simp)
        rcases List.mem_cons.mp hy with rfl | hy
        · exact h3.trans (min_le_left _ _)
        · rcases List.mem_cons.mp hy with rfl | hy
          · exact h3.trans (min_le_right _ _)
          · exact h2 y (by simp [hy])

theorem npMin_total {l : List ℝ} (h : l ≠ []) : ∃ x, npMin l = .ok x := by
  cases l with
  | nil => exact absurd rfl h
  | cons a t => exact ⟨_, rfl⟩

/-- C04: the automatic field of view is even, at least 2, covers the corrected radius (of the shortest
wavelength and the finest pitch) and the seeing, and is the smallest such. It exists whenever the lists
are non-empty. -/
theorem autoFov_spec (wvl pix pitch : List ℝ) (seeing : Option ℝ) (am atmWvl atmR0 : ℝ)
    (hw : wvl ≠ []) (hp : pix ≠ []) (hd : pitch ≠ []) :
    ∃ n w p d, autoFov wvl pix pitch seeing am atmWvl atmR0 = .ok n ∧
      IsLeastOf w wvl ∧ IsLeastOf p pix ∧ IsLeastOf d pitch ∧
      Covers n (correctedRadiusPix w d p) (seeingArcsec seeing am atmWvl atmR0 * 1000 / p) ∧
      ∀ k, Covers k (correctedRadiusPix w d p)
        (seeingArcsec seeing am atmWvl atmR0 * 1000 / p) → n ≤ k := by
  obtain ⟨w, ew⟩ := npMin_total hw
  obtain ⟨p, ep⟩ := npMin_total hp
  obtain ⟨d, ed⟩ := npMin_total hd
  have e1 : rad2mas * w / (d * p) = correctedRadiusPix w d p := by
    simp only [rad2mas, correctedRadiusPix, div_eq_mul_inv, mul_inv]; ring
  have e2 : 2 * seeingArcsec seeing am atmWvl atmR0 * 1000 / p / 2 =
      seeingArcsec seeing am atmWvl atmR0 * 1000 / p := by ring
  refine ⟨max (⌈max (correctedRadiusPix w d p)
    (seeingArcsec seeing am atmWvl atmR0 * 1000 / p)⌉ * 2) 2, w, p, d, ?_, npMin_ok ew, npMin_ok ep,
    npMin_ok ed, ?_, ?_⟩
  · simp only [autoFov, ew, ep, ed, bind, Except.bind]
    rw [e1, e2]
  · generalize correctedRadiusPix w d p = c
    generalize seeingArcsec seeing am atmWvl atmR0 * 1000 / p = s
    have hc := Int.le_ceil (max c s)
    refine ⟨?_, le_max_right _ _, ?_, ?_⟩
    · rcases max_choice (⌈max c s⌉ * 2) (2:ℤ) with e | e <;> rw [e]
      · exact ⟨⌈max c s⌉, by ring⟩
      · exact ⟨1, rfl⟩
    all_goals
      have : ((⌈max c s⌉ * 2 : ℤ) : ℝ) ≤ ((max (⌈max c s⌉ * 2) 2 : ℤ) : ℝ) := by
        exact_mod_cast le_max_left _ _
      push_cast at this ⊢
      have h1 := le_max_left c s
      have h2 := le_max_right c s
      linarith
  · generalize correctedRadiusPix w d p = c
    generalize seeingArcsec seeing am atmWvl atmR0 * 1000 / p = s
    rintro k ⟨⟨r, hr⟩, h2, h3, h4⟩
    refine max_le ?_ h2
    have : ⌈max c s⌉ ≤ r := by
      rw [Int.ceil_le]
      have hk : (k : ℝ) / 2 = r := by rw [hr]; push_cast; ring
      rw [← hk]
      exact max_le h3 h4
    omega

/-- Non-vacuity: H band, 20 cm pitch, 10 mas pixels, 0.8" seeing. -/
example : ∃ n, autoFov [1.6e-6, 2.2e-6] [10] [0.2] (some 0.8) 1 5e-7 0.15 = .ok n ∧ 160 ≤ n := by
  obtain ⟨n, w, p, d, h1, -, ⟨hp, -⟩, -, ⟨-, -, -, h2⟩, -⟩ :=
    autoFov_spec [1.6e-6, 2.2e-6] [10] [0.2] (some 0.8) 1 5e-7 0.15 (by simp) (by simp) (by simp)
  refine ⟨n, h1, ?_⟩
  simp only [List.mem_singleton] at hp
  subst hp
  simp only [seeingArcsec, one_rpow] at h2
  have : (160:ℝ) ≤ n := by norm_num at h2; linarith
  exact_mod_cast this

/-- C04: an empty list is the only other outcome, and it is an error. -/
theorem autoFov_error_iff (wvl pix pitch : List ℝ) (seeing : Option ℝ) (am atmWvl atmR0 : ℝ) :
    (∃ e, autoFov wvl pix pitch seeing am atmWvl atmR0 = .error e) ↔
      (wvl = [] ∨ pix = [] ∨ pitch = []) := by
  constructor
  · rintro ⟨e, he⟩
    by_contra hc
    push Not at hc
    obtain ⟨n, _, _, _, h, -⟩ := autoFov_spec wvl pix pitch seeing am atmWvl atmR0 hc.1 hc.2.1 hc.2.2
    rw [h] at he; cases he
  · intro h
    unfold autoFov
    cases wvl with
    | nil => exact ⟨_, rfl⟩
    | cons a t =>
      cases pitch with
      | nil => exact ⟨_, rfl⟩
      | cons b u =>
        cases pix with
        | nil => exact ⟨_, rfl⟩
        | cons c v => simp at h

/-- C04: the two ways of getting the seeing (from the option, or from the r0 computed with it) agree at
every zenith angle below 90 degrees. -/
theorem seeing_consistent (seeing atmWvl zenith : ℝ) (hs : 0 < seeing) (hl : 0 < atmWvl)
    (hz0 : 0 ≤ zenith) (hz : zenith < 90) :
    seeingArcsec none (airmass zenith) atmWvl
        (r0Los (r0OfSeeing atmWvl seeing) (airmass zenith)) =
      seeingArcsec (some seeing) (airmass zenith) atmWvl
        (r0Los (r0OfSeeing atmWvl seeing) (airmass zenith)) := by
  have hc : 0 < cos (zenith * π / 180) := by
    apply cos_pos_of_mem_Ioo
    constructor
    · have := pi_pos; nlinarith [mul_nonneg hz0 pi_pos.le]
    · have := pi_pos; nlinarith
  have ha : 0 < airmass zenith := by unfold airmass; positivity
  simp only [seeingArcsec, r0Los, r0OfSeeing]
  have e : airmass zenith ^ (-(3:ℝ)/5) = (airmass zenith ^ ((3:ℝ)/5))⁻¹ := by
    rw [← rpow_neg ha.le]; congr 1; ring
  rw [e]
  have hp : 0 < airmass zenith ^ ((3:ℝ)/5) := rpow_pos_of_pos ha _
  have := pi_pos
  field_simp

/-- C04: the explicit option. A value within 1e-5 (numpy `isclose`) of -1 selects the automatic value; another positive
value is rounded up, to at least 1; everything else is a `ValueError`. -/
theorem scienceFov_spec (env : Env) (m : Map) (wvl : List ℚ) (ps : ℚ) (pitch : List ℚ) (q : ℚ)
    (hq : get m "sensor_science" "FieldOfView" = some (.flt q)) :
    (|q - (-1)| ≤ 1001/100000000 → scienceFov env m wvl ps pitch = .ok (env.auto wvl ps pitch)) ∧
    (0 < q → ∃ n : ℤ, scienceFov env m wvl ps pitch = .ok n ∧ 1 ≤ n ∧ q ≤ n ∧ (n : ℚ) < q + 1) ∧
    (q ≤ 0 → ¬ |q - (-1)| ≤ 1001/100000000 →
      ∃ e, scienceFov env m wvl ps pitch = .error e ∧ e.isValueError = true) := by
  have e1 : q - (-1) = q + 1 := by ring
  have e2 : (1001/100000000 : ℚ) = 1/100000000 + 1/100000 := by norm_num
  simp only [scienceFov, hq, e1, e2]
  refine ⟨fun h => by rw [if_pos h], fun h => ?_, fun h h' => ?_⟩
  · rw [if_neg (by rw [abs_of_pos (by linarith)]; norm_num; linarith), if_pos h]
    exact ⟨⌈q⌉, rfl, Int.one_le_ceil_iff.mpr h, Int.le_ceil q, Int.ceil_lt_add_one q⟩
  · rw [if_neg h', if_neg (by linarith)]
    exact ⟨_, rfl, rfl⟩

example : ∃ m : Map, get m "sensor_science" "FieldOfView" = some (.flt (201/2)) :=
  ⟨fun _ => some fun _ => some (.flt (201/2)), rfl⟩

/-- C04: a missing option or one that is not a number is a `ValueError` too. -/
theorem scienceFov_other (env : Env) (m : Map) (wvl : List ℚ) (ps : ℚ) (pitch : List ℚ)
    (h : ∀ q z, get m "sensor_science" "FieldOfView" ≠ some (.flt q) ∧
      get m "sensor_science" "FieldOfView" ≠ some (.int z)) :
    ∃ e, scienceFov env m wvl ps pitch = .error e ∧ e.isValueError = true := by
  unfold scienceFov
  cases hg : get m "sensor_science" "FieldOfView" with
  | none => exact ⟨_, rfl, rfl⟩
  | some v =>
    cases v with
    | int z => exact absurd hg (h 0 z).2
    | flt q => exact absurd hg (h q 0).1
    | _ => exact ⟨_, rfl, rfl⟩

/-! ### Cases that meet the hypotheses -/

/-- A case meeting the hypotheses of `seeing_consistent`. -/
example : seeingArcsec none (airmass 30) 500e-9 (r0Los (r0OfSeeing 500e-9 0.8) (airmass 30)) =
    seeingArcsec (some 0.8) (airmass 30) 500e-9 (r0Los (r0OfSeeing 500e-9 0.8) (airmass 30)) :=
  seeing_consistent 0.8 500e-9 30 (by norm_num) (by norm_num) (by norm_num) (by norm_num)

end P3.FieldOfView
