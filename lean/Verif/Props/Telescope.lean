import Verif.Model.Telescope
import Mathlib.Algebra.BigOperators.Field
import Mathlib.Algebra.Order.BigOperators.Group.Finset
import Mathlib.Tactic.LinearCombination
import Mathlib.Tactic.Linarith
import Mathlib.Tactic.Positivity
import Mathlib.Tactic.FieldSimp
import Mathlib.Tactic.Ring
import Mathlib.Tactic.NormNum

/-! C47: pupil; C84: static aberrations; C85: field-dependent maps and static modes; C86: area and airmass. -/

namespace P3.Telescope

open Finset

/-! ### C47 -/

/-- The rotation does not change the distance to the centre. -/
theorem rotated_radius (X Y th : ℝ) :
    (X * Real.cos th + Y * Real.sin th) ^ 2 + (Y * Real.cos th - X * Real.sin th) ^ 2 = X ^ 2 + Y ^ 2 := by
  linear_combination (X ^ 2 + Y ^ 2) * Real.sin_sq_add_cos_sq th

/-- C47: a pixel of the default pupil is one when its distance to the centre is at most `D/2` and more than
`obscuration * D/2`, and zero otherwise, whatever the pupil angle. -/
theorem pupil_spec (D obs angle : ℝ) (res i k : ℕ) :
    let r := Real.sqrt (axis D res k ^ 2 + axis D res i ^ 2)
    (r ≤ D / 2 ∧ obs * (D / 2) < r → pupil D obs angle res i k = 1) ∧
    (¬ (r ≤ D / 2 ∧ obs * (D / 2) < r) → pupil D obs angle res i k = 0) := by
  unfold pupil
  simp only [rotated_radius, mul_comm (D / 2) obs]
  constructor
  · rintro ⟨h1, h2⟩
    rw [if_pos h1, if_pos h2]; norm_num
  · intro h
    split_ifs with h1 h2
    · exact absurd ⟨h1, h2⟩ h
    all_goals norm_num

/-- C47: more obstruction never adds light. -/
theorem pupil_antitone (D obs obs' angle : ℝ) (hD : 0 ≤ D) (h : obs ≤ obs') (res i k : ℕ) :
    pupil D obs' angle res i k ≤ pupil D obs angle res i k := by
  have h1 : D / 2 * obs ≤ D / 2 * obs' := by gcongr
  unfold pupil
  simp only
  split_ifs with a b c <;> first | (exfalso; linarith) | norm_num

/-- C47: the samples go from `-D/2` to `D/2`, evenly spaced and symmetric about the centre. -/
theorem axis_spec (D : ℝ) (res : ℕ) (h : 2 ≤ res) :
    axis D res 0 = -D / 2 ∧ axis D res (res - 1) = D / 2 ∧
    (∀ i < res, axis D res (res - 1 - i) = - axis D res i) := by
  have hr : (res:ℝ) - 1 ≠ 0 := by
    have : (2:ℝ) ≤ res := by exact_mod_cast h
    intro h0; linarith
  have hne : res ≠ 1 := by omega
  have e : ((res - 1 : ℕ) : ℝ) = (res:ℝ) - 1 := by rw [Nat.cast_sub (by omega)]; simp
  unfold axis
  simp only [if_neg hne]
  refine ⟨by simp, ?_, ?_⟩
  · rw [e]; field_simp; ring
  · intro i hi
    rw [Nat.cast_sub (by omega), e]
    field_simp
    ring

/-- C47: the pupil is symmetric about its centre. -/
theorem pupil_symmetric (D obs angle : ℝ) (res i k : ℕ) (h : 2 ≤ res) (hi : i < res) (hk : k < res) :
    pupil D obs angle res (res - 1 - i) (res - 1 - k) = pupil D obs angle res i k := by
  obtain ⟨-, -, hs⟩ := axis_spec D res h
  unfold pupil
  simp only [rotated_radius, hs i hi, hs k hk, neg_sq]

/-- C47 (limit case): without obstruction the central pixel of an odd grid is dark, because the inner edge is
excluded; and a pupil of one pixel is dark. -/
theorem pupil_dark (D angle : ℝ) (hD : 0 < D) (p : ℕ) (hp : 1 ≤ p) :
    pupil D 0 angle (2 * p + 1) p p = 0 ∧ pupil D 0 angle 1 0 0 = 0 := by
  constructor
  · refine (pupil_spec D 0 angle (2 * p + 1) p p).2 ?_
    have hc : axis D (2 * p + 1) p = 0 := by
      obtain ⟨-, -, hs⟩ := axis_spec D (2 * p + 1) (by omega)
      have := hs p (by omega)
      have e : 2 * p + 1 - 1 - p = p := by omega
      rw [e] at this
      linarith
    rw [hc]; simp
  · refine (pupil_spec D 0 angle 1 0 0).2 ?_
    rintro ⟨h1, -⟩
    have : D / 2 < Real.sqrt (axis D 1 0 ^ 2 + axis D 1 0 ^ 2) := by
      apply Real.lt_sqrt_of_sq_lt
      simp only [axis, if_true]
      nlinarith
    linarith

/-- A pixel that is lit and one that is not: D = 2, no rotation, three pixels across with obstruction 1/2. -/
example : pupil 2 (1/2) 0 3 1 0 = 1 ∧ pupil 2 (1/2) 0 3 0 0 = 0 := by
  have a0 : axis 2 3 0 = -1 := by norm_num [axis]
  have a1 : axis 2 3 1 = 0 := by norm_num [axis]
  constructor
  · refine (pupil_spec 2 (1/2) 0 3 1 0).1 ?_
    rw [a0, a1]; norm_num
  · refine (pupil_spec 2 (1/2) 0 3 0 0).2 ?_
    rw [a0]
    rintro ⟨h1, -⟩
    have : (1:ℝ) < Real.sqrt ((-1) ^ 2 + (-1) ^ 2) := by
      apply Real.lt_sqrt_of_sq_lt; norm_num
    norm_num at h1

/-! ### C86 -/

/-- C86: the area is between zero and that of the full disc, and decreases with the obstruction. -/
theorem area_spec (D obs obs' : ℝ) (h0 : 0 ≤ obs) (h : obs ≤ obs') (h1 : obs' ≤ 1) :
    0 ≤ area D obs' ∧ area D obs' ≤ area D obs ∧ area D obs ≤ Real.pi * (D / 2) ^ 2 := by
  have hp : 0 ≤ Real.pi * (D / 2) ^ 2 := by positivity
  have e1 : 0 ≤ 1 - obs' ^ 2 := by nlinarith
  have e2 : 1 - obs' ^ 2 ≤ 1 - obs ^ 2 := by nlinarith
  have e3 : 1 - obs ^ 2 ≤ 1 := by nlinarith
  unfold area
  exact ⟨mul_nonneg hp e1, mul_le_mul_of_nonneg_left e2 hp, by simpa using mul_le_mul_of_nonneg_left e3 hp⟩

/-- C86: the airmass is one at zenith, at least one above the horizon and increases with the zenith angle. -/
theorem airmass_spec (z z' : ℝ) (h0 : 0 ≤ z) (h : z ≤ z') (h1 : z' < 90) :
    airmass 0 = 1 ∧ 1 ≤ airmass z ∧ airmass z ≤ airmass z' := by
  have hpi := Real.pi_pos
  have lo : ∀ x, 0 ≤ x → 0 ≤ x * Real.pi / 180 := fun x hx => by positivity
  have hi : ∀ x, x < 90 → x * Real.pi / 180 < Real.pi / 2 := fun x hx => by nlinarith
  have c1 : 0 < Real.cos (z' * Real.pi / 180) :=
    Real.cos_pos_of_mem_Ioo ⟨by linarith [lo z' (h0.trans h)], hi z' h1⟩
  have c2 : 0 < Real.cos (z * Real.pi / 180) :=
    Real.cos_pos_of_mem_Ioo ⟨by linarith [lo z h0], hi z (by linarith)⟩
  have c3 : Real.cos (z' * Real.pi / 180) ≤ Real.cos (z * Real.pi / 180) := by
    refine Real.cos_le_cos_of_nonneg_of_le_pi (lo z h0) (by linarith [hi z' h1]) (by gcongr)
  unfold airmass
  refine ⟨by simp, ?_, ?_⟩
  · rw [le_div_iff₀ c2]; simpa using Real.cos_le_one _
  · exact one_div_le_one_div_of_le c1 c3

/-! ### C84 -/

/-- A mode is not constant over the map. -/
def NotConstant (n : ℕ) (z : ℕ → ℝ) : Prop := 0 < ∑ q ∈ range n, (z q - (∑ p ∈ range n, z p) / n) ^ 2

/-- C84 (part): the modes used for the static map have zero mean and unit mean square over the whole square map.
Missing: over the pupil, and the modes are not orthogonal; see `staticMap_violation`. -/
theorem normaliseMode_partial (n : ℕ) (hn : 1 ≤ n) (z : ℕ → ℝ) (h : NotConstant n z) :
    ∑ i ∈ range n, normaliseMode n z i = 0 ∧ (∑ i ∈ range n, normaliseMode n z i ^ 2) / n = 1 := by
  have hn' : (0:ℝ) < n := by exact_mod_cast hn
  unfold NotConstant at h
  unfold normaliseMode
  simp only
  set c : ℕ → ℝ := fun p => z p - (∑ q ∈ range n, z q) / n with hc
  set V := ∑ q ∈ range n, c q ^ 2 with hV
  have hVp : 0 < V := h
  constructor
  · rw [← sum_div]
    have : ∑ i ∈ range n, c i = 0 := by
      rw [hc, sum_sub_distrib, sum_const, card_range, nsmul_eq_mul]; field_simp; ring
    rw [this, zero_div]
  · simp only [div_pow, Real.sq_sqrt (show 0 ≤ V / n by positivity)]
    rw [← sum_div]
    change V / (V / n) / n = 1
    field_simp

/-- C84 (exact value): for a mode of zero mean that vanishes outside a pupil `P` among the `n` pixels of the
map, a single coefficient of `c` nanometres gives a mean square over the pupil of `c² n / |P|`: larger than asked
by the ratio of the square to the pupil. -/
theorem staticMap_rms (n : ℕ) (hn : 1 ≤ n) (z : ℕ → ℝ) (P : Finset ℕ) (hP : P ⊆ range n)
    (hz : ∀ i ∈ range n, i ∉ P → z i = 0) (hmean : ∑ i ∈ range n, z i = 0)
    (h : NotConstant n z) (c : ℝ) :
    (∑ i ∈ P, staticMap n 1 (fun _ => c) (fun _ => z) i ^ 2) / P.card = c ^ 2 * ((n:ℝ) / P.card) := by
  have hn' : (0:ℝ) < n := by exact_mod_cast hn
  have h1 := (normaliseMode_partial n hn z h).2
  have hs : ∑ i ∈ range n, normaliseMode n z i ^ 2 = n := by field_simp at h1; linarith
  have h0 : ∀ i ∈ range n, i ∉ P → normaliseMode n z i ^ 2 = 0 := by
    intro i hi hi'
    unfold normaliseMode
    simp only [hmean, hz i hi hi']; simp
  have hsub : ∑ i ∈ P, normaliseMode n z i ^ 2 = n := by rw [← hs]; exact sum_subset hP h0
  have : ∀ i, staticMap n 1 (fun _ => c) (fun _ => z) i ^ 2 = c ^ 2 * normaliseMode n z i ^ 2 := by
    intro i; simp [staticMap]; ring
  simp only [this, ← mul_sum, hsub]
  ring

/-- C84 (exact value): two coefficients do not add orthogonally: the mean square over the map has the cross term
of the correlation of the two masked modes, which the unused factor `Q` would have removed. -/
theorem staticMap_two (n : ℕ) (hn : 1 ≤ n) (z : ℕ → ℕ → ℝ) (h0 : NotConstant n (z 0)) (h1 : NotConstant n (z 1))
    (c : ℕ → ℝ) :
    (∑ i ∈ range n, staticMap n 2 c z i ^ 2) / n =
      c 0 ^ 2 + c 1 ^ 2 + 2 * c 0 * c 1 * ((∑ i ∈ range n, normaliseMode n (z 0) i * normaliseMode n (z 1) i) / n) := by
  have e0 := (normaliseMode_partial n hn (z 0) h0).2
  have e1 := (normaliseMode_partial n hn (z 1) h1).2
  have : ∀ i, staticMap n 2 c z i ^ 2 = c 0 ^ 2 * normaliseMode n (z 0) i ^ 2 + c 1 ^ 2 * normaliseMode n (z 1) i ^ 2 +
      2 * c 0 * c 1 * (normaliseMode n (z 0) i * normaliseMode n (z 1) i) := by
    intro i; simp [staticMap, sum_range_succ]; ring
  simp only [this, sum_add_distrib, ← mul_sum]
  linear_combination c 0 ^ 2 * e0 + c 1 ^ 2 * e1

/-- C84 (violation): on a map of four pixels of which two are in the pupil, a tilt of `c` nanometres has a mean
square of `2 c²` over the pupil. -/
theorem staticMap_violation (c : ℝ) :
    let z : ℕ → ℝ := fun i => if i = 1 then 1 else if i = 2 then -1 else 0
    (∑ i ∈ ({1, 2} : Finset ℕ), staticMap 4 1 (fun _ => c) (fun _ => z) i ^ 2) / 2 = 2 * c ^ 2 := by
  intro z
  have := staticMap_rms 4 (by norm_num) z {1, 2} (by decide)
    (by intro i hi hi'; simp at hi'; simp [z, hi']) (by simp [z, sum_range_succ])
    (by unfold NotConstant; simp [z, sum_range_succ]) c
  have hc : (({1, 2} : Finset ℕ).card : ℝ) = 2 := by norm_num
  rw [hc] at this
  rw [this]; push_cast; ring

/-! ### C85 -/

/-- C85 (part): the axis of the modes is recognised when the maps are square and the number of modes differs from
their size. Missing: cubes with as many modes as pixels across, see `modeAxis_violation`. -/
theorem modeAxis_partial (res n : ℕ) (h : n ≠ res) :
    modeAxis (n, res, res) = 0 ∧ nModes (n, res, res) = n ∧ modeAxis (res, res, n) = 2 ∧ nModes (res, res, n) = n := by
  simp [modeAxis, nModes, h]

/-- C85 (violation): a cube with the modes first and as many modes as pixels across is read along the wrong axis. -/
theorem modeAxis_violation (res : ℕ) : modeAxis (res, res, res) = 2 := by simp [modeAxis]

/-- C85 (violation): field-dependent maps of more than one pixel are refused whatever the number of positions,
and a map of one pixel is accepted according to its value, not to the number of maps. -/
theorem offAxis_violation (nPos : ℕ) (v w : ℝ) (rest : List ℝ) :
    offAxisAccepted nPos (v :: w :: rest) = false ∧ (offAxisAccepted nPos [v] = true ↔ (nPos : ℝ) = v) := by
  simp [offAxisAccepted]

/-! ### Cases that meet the hypotheses -/

/-- A case meeting the hypotheses of `pupil_symmetric`. -/
example : pupil 8 0.1 0 10 (10 - 1 - 2) (10 - 1 - 3) = pupil 8 0.1 0 10 2 3 :=
  pupil_symmetric 8 0.1 0 10 2 3 (by norm_num) (by norm_num) (by norm_num)

/-- A case meeting the hypotheses of `area_spec`. -/
example : area 8 0.3 ≤ area 8 0.1 := (area_spec 8 0.1 0.3 (by norm_num) (by norm_num) (by norm_num)).2.1

/-- A case meeting the hypotheses of `airmass_spec`. -/
example : airmass 30 ≤ airmass 60 := (airmass_spec 30 60 (by norm_num) (by norm_num) (by norm_num)).2.2

/-- A case meeting the hypotheses of `staticMap_rms`. -/
example : (∑ i ∈ Finset.range 2, staticMap 4 1 (fun _ => 5) (fun _ i => if i = 0 then 1 else if i = 1 then -1 else 0) i ^ 2) /
    (Finset.range 2).card = 5 ^ 2 * (((4 : ℕ) : ℝ) / (Finset.range 2).card) :=
  staticMap_rms 4 (by norm_num) (fun i => if i = 0 then 1 else if i = 1 then -1 else 0) (Finset.range 2)
    (by intro i hi; simp at hi ⊢; omega)
    (by intro i _ h; simp at h; rw [if_neg (by omega), if_neg (by omega)])
    (by norm_num [Finset.sum_range_succ])
    (by norm_num [NotConstant, Finset.sum_range_succ]) 5

end P3.Telescope
