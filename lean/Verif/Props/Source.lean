import Verif.Model.Source
import Mathlib.Tactic.Linarith
import Mathlib.Tactic.Ring
/-
C10: directions of sources. C60: star coordinates.
-/
namespace P3.Source
open Real P3.Config

/-- Spec: the value of source `i` in a list that holds one value per source, or one shared value. -/
def Shared (l : List ℝ) (i : ℕ) (v : ℝ) : Prop := l = [v] ∨ (l.length ≠ 1 ∧ l[i]? = some v)

/-- Spec: unit conversions written out: arcseconds and degrees to radians. -/
noncomputable def dirX (z a : ℝ) : ℝ := tan (z * π / 648000) * cos (a * π / 180)
noncomputable def dirY (z a : ℝ) : ℝ := tan (z * π / 648000) * sin (a * π / 180)

theorem tanZen_cosAz (z a : ℝ) : tanZen z * cosAz a = dirX z a := by
  unfold tanZen cosAz dirX
  congr 2 <;> ring
theorem tanZen_sinAz (z a : ℝ) : tanZen z * sinAz a = dirY z a := by
  unfold tanZen sinAz dirY
  congr 2 <;> ring

theorem assignRow_self {l : List ℝ} {n : ℕ} (h : l.length = n) : assignRow n l = .ok l := by
  unfold assignRow
  split
  · subst h; simp
  · rw [if_pos h]

theorem bcast_eqLen {f : ℝ → ℝ → ℝ} {xs ys : List ℝ} (h : xs.length = ys.length) :
    bcast f xs ys = .ok (List.zipWith f xs ys) := by
  match xs, ys, h with
  | [], [], _ => rfl
  | [x], [y], _ => rfl
  | x :: x' :: xs, y :: y' :: ys, h => simp only [bcast]; rw [if_pos h]

theorem bcast_right {f : ℝ → ℝ → ℝ} {xs : List ℝ} {y : ℝ} :
    bcast f xs [y] = .ok (xs.map (fun x => f x y)) := by
  unfold bcast
  split
  · rename_i x ys h; simp_all
  · rename_i h1 h2; simp_all
  · rename_i h1 h2; exact absurd rfl (h2 _)

/-- The zenith, azimuth and number of directions stored by the constructor. -/
theorem mkSource_fields (w z a : List ℝ) (h : ℝ) :
    (w.length = 1 → z.length = 1 → a.length ≠ 1 →
      (mkSource w z a h).zenith = List.replicate a.length (z.headD 0) ∧
      (mkSource w z a h).azimuth = a ∧ (mkSource w z a h).nSrc = a.length) ∧
    (w.length = 1 → z.length ≠ 1 → a.length = 1 →
      (mkSource w z a h).zenith = z ∧
      (mkSource w z a h).azimuth = List.replicate z.length (a.headD 0) ∧
      (mkSource w z a h).nSrc = z.length) ∧
    ((w.length ≠ 1 ∨ (z.length = 1 ↔ a.length = 1)) →
      (mkSource w z a h).zenith = z ∧ (mkSource w z a h).azimuth = a ∧
      (mkSource w z a h).nSrc = z.length) := by
  refine ⟨?_, ?_, ?_⟩
  · intro h1 h2 h3
    obtain ⟨x, rfl⟩ := List.length_eq_one_iff.mp h1
    obtain ⟨y, rfl⟩ := List.length_eq_one_iff.mp h2
    match a, h3 with
    | [], _ => simp [mkSource]
    | a :: b :: t, _ => simp [mkSource]
  · intro h1 h2 h3
    obtain ⟨x, rfl⟩ := List.length_eq_one_iff.mp h1
    obtain ⟨y, rfl⟩ := List.length_eq_one_iff.mp h3
    match z, h2 with
    | [], _ => simp [mkSource]
    | a :: b :: t, _ => simp [mkSource]
  · intro hh
    match w, z, a, hh with
    | [], z, a, _ =>
      match z, a with
      | [], _ => simp [mkSource]
      | [_], [] => simp [mkSource]
      | [_], [_] => simp [mkSource]
      | [_], _ :: _ :: _ => simp [mkSource]
      | _ :: _ :: _, [] => simp [mkSource]
      | _ :: _ :: _, [_] => simp [mkSource]
      | _ :: _ :: _, _ :: _ :: _ => simp [mkSource]
    | _ :: _ :: _, z, a, _ =>
      match z, a with
      | [], _ => simp [mkSource]
      | [_], [] => simp [mkSource]
      | [_], [_] => simp [mkSource]
      | [_], _ :: _ :: _ => simp [mkSource]
      | _ :: _ :: _, [] => simp [mkSource]
      | _ :: _ :: _, [_] => simp [mkSource]
      | _ :: _ :: _, _ :: _ :: _ => simp [mkSource]
    | [_], [], [], _ => simp [mkSource]
    | [_], [_], [_], _ => simp [mkSource]
    | [_], [], _ :: _ :: _, _ => simp [mkSource]
    | [_], _ :: _ :: _, [], _ => simp [mkSource]
    | [_], _ :: _ :: _, _ :: _ :: _, _ => simp [mkSource]
    | [_], [], [_], h => simp at h
    | [_], [_], [], h => simp at h
    | [_], [_], _ :: _ :: _, h => simp at h
    | [_], _ :: _ :: _, [_], h => simp at h

/-- C10: compatible lists give one direction per source at tan(zenith)(cos, sin)(azimuth), single
values being shared.  Missing: one zenith with several azimuths at several wavelengths, which is
refused (`source_multiwavelength_azimuths`). -/
theorem direction_spec (w z a : List ℝ) (h : ℝ)
    (hc : z.length = a.length ∨ a.length = 1 ∨ (z.length = 1 ∧ w.length = 1)) :
    ∃ xs ys, direction (mkSource w z a h) = .ok (xs, ys) ∧
      (mkSource w z a h).nSrc = (if z.length = 1 then a.length else z.length) ∧
      xs.length = (mkSource w z a h).nSrc ∧ ys.length = (mkSource w z a h).nSrc ∧
      ∀ i, i < (mkSource w z a h).nSrc → ∃ zi ai, Shared z i zi ∧ Shared a i ai ∧
        xs[i]? = some (dirX zi ai) ∧ ys[i]? = some (dirY zi ai) := by
  have key : ∀ (s : Src ℝ) (zs as : List ℝ), s.zenith = zs → s.azimuth = as →
      zs.length = s.nSrc → as.length = s.nSrc →
      direction s = .ok (List.zipWith dirX zs as, List.zipWith dirY zs as) := by
    intro s zs as h1 h2 h3 h4
    have hl : zs.length = as.length := by omega
    simp only [direction, h1, h2, bcast_eqLen hl, bind, Except.bind, tanZen_cosAz, tanZen_sinAz]
    rw [assignRow_self (by simp; omega)]
    simp only []
    rw [assignRow_self (by simp; omega)]
    rfl
  obtain ⟨f1, f2, f3⟩ := mkSource_fields w z a h
  by_cases hz : z.length = 1
  · by_cases ha : a.length = 1
    · obtain ⟨e1, e2, e3⟩ := f3 (Or.inr (by simp [hz, ha]))
      refine ⟨_, _, key _ _ _ e1 e2 e3.symm (by omega), by rw [e3, if_pos hz]; omega, by simp; omega,
        by simp; omega, fun i hi => ?_⟩
      obtain ⟨x, rfl⟩ := List.length_eq_one_iff.mp hz
      obtain ⟨y, rfl⟩ := List.length_eq_one_iff.mp ha
      have : i = 0 := by simp at e3; omega
      subst this
      exact ⟨x, y, Or.inl rfl, Or.inl rfl, rfl, rfl⟩
    · have hw : w.length = 1 := by omega
      obtain ⟨e1, e2, e3⟩ := f1 hw hz ha
      refine ⟨_, _, key _ _ _ e1 e2 (by simp; omega) e3.symm, by rw [e3, if_pos hz], by simp; omega,
        by simp; omega, fun i hi => ?_⟩
      obtain ⟨x, rfl⟩ := List.length_eq_one_iff.mp hz
      have hi' : i < a.length := by omega
      refine ⟨x, a[i], Or.inl rfl, Or.inr ⟨ha, by simp [hi']⟩, ?_, ?_⟩ <;>
        simp [hi']
  · by_cases ha : a.length = 1
    · obtain ⟨y, rfl⟩ := List.length_eq_one_iff.mp ha
      have hn : (mkSource w z [y] h).nSrc = z.length ∧
          direction (mkSource w z [y] h) = .ok (z.map (dirX · y), z.map (dirY · y)) := by
        by_cases hw : w.length = 1
        · obtain ⟨e1, e2, e3⟩ := f2 hw hz ha
          refine ⟨e3, ?_⟩
          rw [key _ _ _ e1 e2 (by omega) (by simp; omega)]
          have : ∀ f : ℝ → ℝ → ℝ, List.zipWith f z (List.replicate z.length y) =
              z.map (f · y) := by
            intro f
            apply List.ext_getElem <;> simp
          simp [this]
        · obtain ⟨e1, e2, e3⟩ := f3 (Or.inl hw)
          refine ⟨e3, ?_⟩
          simp only [direction, e1, e2, bcast_right, bind, Except.bind, tanZen_cosAz, tanZen_sinAz]
          rw [assignRow_self (by simp; omega)]
          simp only []
          rw [assignRow_self (by simp; omega)]
          rfl
      refine ⟨_, _, hn.2, by rw [hn.1, if_neg hz], by simp; omega, by simp; omega, fun i hi => ?_⟩
      have hi' : i < z.length := by omega
      exact ⟨z[i], y, Or.inr ⟨hz, by simp [hi']⟩, Or.inl rfl, by simp [hi'], by simp [hi']⟩
    · have hza : z.length = a.length := by omega
      obtain ⟨e1, e2, e3⟩ := f3 (Or.inr (by simp [hz, ha]))
      refine ⟨_, _, key _ _ _ e1 e2 e3.symm (by omega), by rw [e3, if_neg hz], by simp; omega,
        by simp; omega, fun i hi => ?_⟩
      have hi' : i < z.length := by omega
      have hi2 : i < a.length := by omega
      refine ⟨z[i], a[i], Or.inr ⟨hz, by simp [hi']⟩, Or.inr ⟨ha, by simp [hi2]⟩, ?_, ?_⟩ <;>
        simp [hi', hi2]

/-- Non-vacuity: three stars with one azimuth. -/
example : (3 : ℕ) = [1, 2, 3].length ∧ ([1, 2, 3] : List ℝ).length ≠ [(5:ℝ)].length ∧
    [(5 : ℝ)].length = 1 := by simp

/-- C277 (violation): the natural reading fails for one zenith distance, several azimuths and several
wavelengths: the object reports one source, and asking for its directions raises. -/
theorem source_multiwavelength_azimuths (w₁ w₂ z a₁ a₂ h : ℝ) (ws as : List ℝ) :
    (mkSource (w₁ :: w₂ :: ws) [z] (a₁ :: a₂ :: as) h).nSrc = 1 ∧
    direction (mkSource (w₁ :: w₂ :: ws) [z] (a₁ :: a₂ :: as) h) = .error .broadcast := by
  obtain ⟨e1, e2, e3⟩ := (mkSource_fields (w₁ :: w₂ :: ws) [z] (a₁ :: a₂ :: as) h).2.2
    (Or.inl (by simp))
  refine ⟨e3, ?_⟩
  simp only [direction, e1, e2, e3, bcast, assignRow, bind, Except.bind, List.map_cons]
  simp

/-- C10: one height and (for a single wavelength) one wavelength per source. -/
theorem source_height_wvl (w z a : List ℝ) (h : ℝ) :
    (mkSource w z a h).height = List.replicate (mkSource w z a h).nSrc h ∧
    (∀ x, w = [x] → (mkSource w z a h).nWvl = 1 ∧
      (mkSource w z a h).wvl = List.replicate (max 1 (mkSource w z a h).nSrc) x) ∧
    (w.length ≠ 1 → (mkSource w z a h).wvl = w ∧ (mkSource w z a h).nWvl = w.length) := by
  refine ⟨?_, ?_, ?_⟩
  · unfold mkSource; rfl
  · rintro x rfl
    unfold mkSource
    dsimp only
    split_ifs with hn
    · exact ⟨rfl, by rw [max_eq_right (by omega)]⟩
    · refine ⟨rfl, ?_⟩
      dsimp only
      rw [max_eq_left (by omega)]; rfl
  · intro hw
    match w, hw with
    | [], _ => simp [mkSource]
    | _ :: _ :: _, _ => simp [mkSource]

/-! ### C60: star coordinates -/

/-- C60 (violation): a star given by its coordinates (0, 1) arcsec is evaluated in the direction (tan 1", 0)
instead of (0, tan 1"): the arguments of `arctan2` are swapped. -/
theorem cooStar_swapped :
    dirX (cooStar 0 1).1 (cooStar 0 1).2 = tan (π / 648000) ∧
    dirY (cooStar 0 1).1 (cooStar 0 1).2 = 0 := by
  have h1 : (cooStar 0 1).1 = 1 := by simp [cooStar]
  have h2 : (cooStar 0 1).2 = 0 := by
    simp only [cooStar]
    have : (⟨1, 0⟩ : ℂ) = 1 := by apply Complex.ext <;> simp
    rw [this, Complex.arg_one]
  rw [h1, h2]
  simp [dirX, dirY]

/-- C60 (violation): the azimuth is produced in radians and consumed in degrees: whatever the coordinates, the
direction used makes an angle of at most π²/180 with the x axis, so a star on the negative x side
is evaluated on the positive side. -/
theorem cooStar_positive_side (c0 c1 : ℝ) (h : 0 < sqrt (c0 ^ 2 + c1 ^ 2))
    (hs : sqrt (c0 ^ 2 + c1 ^ 2) < 324000) :
    0 < dirX (cooStar c0 c1).1 (cooStar c0 c1).2 := by
  simp only [dirX, cooStar]
  have hp := pi_pos
  have hp4 := pi_le_four
  apply mul_pos
  · apply tan_pos_of_pos_of_lt_pi_div_two
    · positivity
    · have : sqrt (c0 ^ 2 + c1 ^ 2) * π < 324000 * π := by nlinarith
      linarith
  · apply cos_pos_of_mem_Ioo
    have h1 := Complex.neg_pi_lt_arg ⟨c1, c0⟩
    have h2 := Complex.arg_le_pi ⟨c1, c0⟩
    constructor <;> nlinarith

/-- C60 (partial): the zenith distance is the distance of the star to the axis. Missing: the azimuth, which
is wrong (previous two theorems). -/
theorem cooStar_distance_partial (c0 c1 : ℝ) :
    (cooStar c0 c1).1 = sqrt (c0 ^ 2 + c1 ^ 2) ∧ 0 ≤ (cooStar c0 c1).1 ∧
    (dirX (cooStar c0 c1).1 (cooStar c0 c1).2) ^ 2 + (dirY (cooStar c0 c1).1 (cooStar c0 c1).2) ^ 2 =
      tan (sqrt (c0 ^ 2 + c1 ^ 2) * π / 648000) ^ 2 := by
  refine ⟨rfl, sqrt_nonneg _, ?_⟩
  simp only [dirX, dirY, mul_pow, ← mul_add]
  simp [cooStar]

/-- C60 (partial): a star off the axis is evaluated in its own direction exactly when it has one particular azimuth: the one for which
the swap of the arguments and the confusion of units cancel. -/
theorem cooStar_right_iff_partial (c0 c1 : ℝ) (h : 0 < sqrt (c0 ^ 2 + c1 ^ 2)) (hs : sqrt (c0 ^ 2 + c1 ^ 2) < 324000) :
    (dirX (cooStar c0 c1).1 (cooStar c0 c1).2 = tan (sqrt (c0 ^ 2 + c1 ^ 2) * π / 648000) * (c0 / sqrt (c0 ^ 2 + c1 ^ 2)) ∧
      dirY (cooStar c0 c1).1 (cooStar c0 c1).2 = tan (sqrt (c0 ^ 2 + c1 ^ 2) * π / 648000) * (c1 / sqrt (c0 ^ 2 + c1 ^ 2))) ↔
    Complex.arg ⟨c1, c0⟩ = 90 * π / (180 + π) := by
  have hp := pi_pos
  have hp4 := pi_le_four
  set r := sqrt (c0 ^ 2 + c1 ^ 2) with hr
  set α := Complex.arg ⟨c1, c0⟩ with hα
  have nz : (⟨c1, c0⟩ : ℂ) ≠ 0 := by
    intro e
    have e1 : c1 = 0 := congrArg Complex.re e
    have e2 : c0 = 0 := congrArg Complex.im e
    rw [hr, e1, e2] at h
    simp at h
  have nr : ‖(⟨c1, c0⟩ : ℂ)‖ = r := by
    rw [Complex.norm_def, Complex.normSq_mk, hr]
    congr 1; ring
  have hc : cos α = c1 / r := by rw [hα, Complex.cos_arg nz, nr]
  have hsn : sin α = c0 / r := by rw [hα, Complex.sin_arg, nr]
  have ht : 0 < tan (r * π / 648000) := by
    apply tan_pos_of_pos_of_lt_pi_div_two
    · positivity
    · have : r * π < 324000 * π := by nlinarith
      linarith
  have k1 : dirX (cooStar c0 c1).1 (cooStar c0 c1).2 = tan (r * π / 648000) * cos (α * π / 180) := by
    simp only [dirX, cooStar, ← hr, ← hα]
  have k2 : dirY (cooStar c0 c1).1 (cooStar c0 c1).2 = tan (r * π / 648000) * sin (α * π / 180) := by
    simp only [dirY, cooStar, ← hr, ← hα]
  rw [k1, k2, ← hc, ← hsn, mul_right_inj' ht.ne', mul_right_inj' ht.ne']
  have b1 : -π < α := Complex.neg_pi_lt_arg _
  have b2 : α ≤ π := Complex.arg_le_pi _
  constructor
  · rintro ⟨e1, e2⟩
    have s1 : sin (α + α * π / 180) = 1 := by
      rw [sin_add, e1, e2]; nlinarith [sin_sq_add_cos_sq α]
    obtain ⟨k, hk⟩ := sin_eq_one_iff.1 s1
    have k0 : k = 0 := by
      have l1 : -(2 * π) < α + α * π / 180 - π / 2 + π / 4 := by nlinarith
      have l2 : α + α * π / 180 - π / 2 < 2 * π := by nlinarith
      have m1 : (k : ℝ) < 1 := by
        have : (k : ℝ) * (2 * π) < 1 * (2 * π) := by linarith
        exact lt_of_mul_lt_mul_right this (by positivity)
      have m2 : (-1 : ℝ) < k := by
        have : (-1 : ℝ) * (2 * π) < k * (2 * π) := by nlinarith
        exact lt_of_mul_lt_mul_right this (by positivity)
      have m1' : k < 1 := by exact_mod_cast m1
      have m2' : -1 < k := by exact_mod_cast m2
      omega
    rw [k0] at hk
    rw [eq_div_iff (by positivity)]
    push_cast at hk
    linarith
  · intro e
    have s : α * π / 180 = π / 2 - α := by
      rw [e]; field_simp; ring
    rw [s, cos_pi_div_two_sub, sin_pi_div_two_sub]
    exact ⟨rfl, rfl⟩

/-- C60 (violation): stars that are all on the axis are not evaluated: the positions of the file are, whatever they are. -/
theorem positions_axis_violation (n : ℕ) (zenith azimuth : List ℝ) :
    positions (List.replicate n 0) (List.replicate n 0) zenith azimuth = (zenith, azimuth) := by
  unfold positions
  rw [if_neg]
  rintro (⟨c, hc, h⟩ | ⟨c, hc, h⟩) <;> exact h (List.eq_of_mem_replicate hc)

/-- C60 (partial): as soon as one star is off the axis there is one source per star, in order, at its distance from the axis. -/
theorem positions_partial (c0 c1 zenith azimuth : List ℝ) (hl : c0.length = c1.length) (k : ℕ) (hk : k < c0.length)
    (h : c0[k] ≠ 0 ∨ c1[k] ≠ 0) (i : ℕ) (hi : i < c0.length) :
    (positions c0 c1 zenith azimuth).1.length = c0.length ∧ (positions c0 c1 zenith azimuth).2.length = c0.length ∧
    (positions c0 c1 zenith azimuth).1[i]? = some (sqrt (c0[i] ^ 2 + c1[i] ^ 2)) ∧
    (positions c0 c1 zenith azimuth).2[i]? = some (Complex.arg ⟨c1[i], c0[i]⟩) := by
  unfold positions
  rw [if_pos]
  · refine ⟨by simp [hl], by simp [hl], ?_, ?_⟩
    · rw [List.getElem?_eq_getElem (by simp; omega), List.getElem_zipWith]; rfl
    · rw [List.getElem?_eq_getElem (by simp; omega), List.getElem_zipWith]; rfl
  · rcases h with h | h
    · exact Or.inl ⟨_, List.getElem_mem hk, h⟩
    · exact Or.inr ⟨_, List.getElem_mem (by omega), h⟩

/-- A star at 45 degrees, and two stars of which one is on the axis. -/
example : 0 < sqrt ((1:ℝ) ^ 2 + 1 ^ 2) ∧ sqrt ((1:ℝ) ^ 2 + 1 ^ 2) < 324000 := by
  refine ⟨by positivity, ?_⟩
  rw [sqrt_lt' (by norm_num)]; norm_num
example : ([0, 2] : List ℝ)[1] ≠ 0 ∨ ([0, 0] : List ℝ)[1] ≠ 0 := by norm_num

end P3.Source
