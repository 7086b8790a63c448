import Verif.Model.Petals
import Mathlib.Tactic.Ring
import Mathlib.Tactic.FieldSimp
import Mathlib.Tactic.Positivity
import Mathlib.Tactic.Linarith
import Mathlib.Tactic.LinearCombination
import Mathlib.Tactic.FinCases
import Mathlib.Analysis.SpecialFunctions.Trigonometric.ArctanDeriv

/-! Properties of spiders, petal phases and histories of a segmented pupil (C341-C346). -/

namespace P3.Petals

open Real

/-! ### Spiders -/

/-- Coordinates of a point along and across a direction `a`, from an origin `o`. -/
noncomputable def along (o : ℝ × ℝ) (a : ℝ) (r : ℝ × ℝ) : ℝ := (r.1 - o.1) * cos a + (r.2 - o.2) * sin a
noncomputable def across (o : ℝ × ℝ) (a : ℝ) (r : ℝ × ℝ) : ℝ := -(r.1 - o.1) * sin a + (r.2 - o.2) * cos a

/-- Centre of the bar. -/
noncomputable def barCentre (symmetric : Bool) (c : ℝ × ℝ) (a : ℝ) : ℝ × ℝ :=
  if symmetric then c else (c.1 - 2 * cos a, c.2 - 2 * sin a)

theorem corner_eq (sym : Bool) (c : ℝ × ℝ) (a φ : ℝ) (i : Fin 4) :
    corner sym c a φ i = ((barCentre sym c a).1 + 2 * cos (theta φ i + a), (barCentre sym c a).2 + 2 * sin (theta φ i + a)) := by
  cases sym <;> simp [corner, barCentre] <;> constructor <;> ring

/-- The test against the four edges is the test against the length and the width. -/
theorem inPolygon_iff (sym : Bool) (c : ℝ × ℝ) (a φ : ℝ) (h0 : 0 < φ) (h1 : φ < π / 2) (r : ℝ × ℝ) :
    inPolygon (corner sym c a φ) r ↔
      |along (barCentre sym c a) a r| < 2 * cos φ ∧ |across (barCentre sym c a) a r| < 2 * sin φ := by
  have hs : 0 < sin φ := sin_pos_of_pos_of_lt_pi h0 (by linarith [pi_pos])
  have hc : 0 < cos φ := cos_pos_of_mem_Ioo ⟨by linarith [pi_pos], h1⟩
  set o := barCentre sym c a with ho
  have hsq : sin a ^ 2 + cos a ^ 2 = 1 := sin_sq_add_cos_sq a
  have e0 : cross (corner sym c a φ 0) (corner sym c a φ 1) r = 4 * sin φ * (2 * cos φ - along o a r) := by
    simp only [corner_eq, ← ho, cross, theta, along, Matrix.cons_val_zero, Matrix.cons_val_one, cos_add, sin_add, cos_neg, sin_neg]
    linear_combination (8 * sin φ * cos φ) * hsq
  have e1 : cross (corner sym c a φ 1) (corner sym c a φ 2) r = 4 * cos φ * (2 * sin φ - across o a r) := by
    simp only [corner_eq, ← ho, cross, theta, across, Matrix.cons_val_zero, Matrix.cons_val_one, Matrix.cons_val, cos_add, sin_add, cos_neg, sin_neg, cos_pi, sin_pi]
    linear_combination (8 * sin φ * cos φ) * hsq
  have e2 : cross (corner sym c a φ 2) (corner sym c a φ 3) r = 4 * sin φ * (2 * cos φ + along o a r) := by
    simp only [corner_eq, ← ho, cross, theta, along, Matrix.cons_val_zero, Matrix.cons_val_one, Matrix.cons_val, cos_add, sin_add, cos_neg, sin_neg, cos_pi, sin_pi]
    linear_combination (8 * sin φ * cos φ) * hsq
  have e3 : cross (corner sym c a φ 3) (corner sym c a φ 0) r = 4 * cos φ * (2 * sin φ + across o a r) := by
    simp only [corner_eq, ← ho, cross, theta, across, Matrix.cons_val_zero, Matrix.cons_val_one, Matrix.cons_val, cos_add, sin_add, cos_neg, sin_neg, cos_pi, sin_pi]
    linear_combination (8 * sin φ * cos φ) * hsq
  have hs4 : 0 < 4 * sin φ := by linarith
  have hc4 : 0 < 4 * cos φ := by linarith
  constructor
  · intro h
    have h0 := h 0; have h1 := h 1; have h2 := h 2; have h3 := h 3
    simp only [Fin.isValue, zero_add, show (1 : Fin 4) + 1 = 2 from rfl, show (2 : Fin 4) + 1 = 3 from rfl,
      show (3 : Fin 4) + 1 = 0 from rfl] at h0 h1 h2 h3
    rw [e0] at h0; rw [e1] at h1; rw [e2] at h2; rw [e3] at h3
    have := (mul_pos_iff_of_pos_left hs4).mp h0
    have := (mul_pos_iff_of_pos_left hc4).mp h1
    have := (mul_pos_iff_of_pos_left hs4).mp h2
    have := (mul_pos_iff_of_pos_left hc4).mp h3
    constructor <;> rw [abs_lt] <;> constructor <;> linarith
  · rintro ⟨ha, hb⟩ i
    rw [abs_lt] at ha hb
    fin_cases i
    · show 0 < cross (corner sym c a φ 0) (corner sym c a φ 1) r
      rw [e0]; exact mul_pos hs4 (by linarith)
    · show 0 < cross (corner sym c a φ 1) (corner sym c a φ 2) r
      rw [e1]; exact mul_pos hc4 (by linarith)
    · show 0 < cross (corner sym c a φ 2) (corner sym c a φ 3) r
      rw [e2]; exact mul_pos hs4 (by linarith)
    · show 0 < cross (corner sym c a φ 3) (corner sym c a φ 0) r
      rw [e3]; exact mul_pos hc4 (by linarith)

theorem phi_eq (w D : ℝ) (n : ℕ) (hD : 0 < D) (hn : 0 < n) : phi w D n = arctan (w / (2 * D)) := by
  have : (n : ℝ) ≠ 0 := by positivity
  unfold phi pixelRatio
  congr 1
  field_simp

theorem phi_range (w D : ℝ) (n : ℕ) (hw : 0 < w) (hD : 0 < D) (hn : 0 < n) : 0 < phi w D n ∧ phi w D n < π / 2 := by
  rw [phi_eq w D n hD hn]
  exact ⟨by rw [arctan_pos]; positivity, arctan_lt_pi_div_two _⟩

theorem start_eq (D : ℝ) (n : ℕ) (hD : 0 < D) (hn : 0 < n) (c : ℝ × ℝ) : start D n c = (c.1 / (D / 2), c.2 / (D / 2)) := by
  have : (n : ℝ) ≠ 0 := by positivity
  unfold start pixelRatio
  ext <;> simp <;> field_simp

/-- A pixel is dark exactly when it lies in the bar of one of the spiders. -/
theorem mask_zero_iff (sym : Bool) (w D : ℝ) (n : ℕ) (sp : List (ℝ × (ℝ × ℝ))) (i j : ℕ) (hp : ¬ w / pixelRatio D n < 1) :
    (spiderMask sym w D n sp i j = 0 ∨ spiderMask sym w D n sp i j = 1) ∧
    (spiderMask sym w D n sp i j = 0 ↔
      ∃ s ∈ sp, inPolygon (corner sym (start D n s.2) s.1 (phi w D n)) (lin n j, lin n i)) := by
  classical
  have gen : ∀ (l : List (ℝ × (ℝ × ℝ))) (m : ℝ), (m = 0 ∨ m = 1) →
      (l.foldl (fun m s => m * if inPolygon (corner sym (start D n s.2) s.1 (phi w D n)) (lin n j, lin n i) then 0 else 1) m = 0 ∨
       l.foldl (fun m s => m * if inPolygon (corner sym (start D n s.2) s.1 (phi w D n)) (lin n j, lin n i) then 0 else 1) m = 1) ∧
      (l.foldl (fun m s => m * if inPolygon (corner sym (start D n s.2) s.1 (phi w D n)) (lin n j, lin n i) then 0 else 1) m = 0 ↔
        m = 0 ∨ ∃ s ∈ l, inPolygon (corner sym (start D n s.2) s.1 (phi w D n)) (lin n j, lin n i)) := by
    intro l
    induction l with
    | nil => intro m hm; simpa using hm
    | cons s l ih =>
      intro m hm
      by_cases hs : inPolygon (corner sym (start D n s.2) s.1 (phi w D n)) (lin n j, lin n i)
      · have := ih 0 (Or.inl rfl)
        simp only [List.foldl_cons, hs, if_true, mul_zero]
        refine ⟨this.1, ?_⟩
        rw [this.2]
        simp [hs]
      · have := ih m hm
        simp only [List.foldl_cons, hs, if_false, mul_one]
        refine ⟨this.1, ?_⟩
        rw [this.2]
        simp [hs]
  have := gen sp 1 (Or.inr rfl)
  unfold spiderMask
  rw [if_neg hp]
  refine ⟨this.1, ?_⟩
  rw [this.2]
  simp

theorem lin_range (n i : ℕ) (hi : i < n) : -1 ≤ lin n i ∧ lin n i ≤ 1 := by
  unfold lin
  rcases Nat.lt_or_ge 1 n with h | h
  · have h1 : (0 : ℝ) < (n : ℝ) - 1 := by
      have : (1 : ℝ) < n := by exact_mod_cast h
      linarith
    have h2 : (i : ℝ) ≤ (n : ℝ) - 1 := by
      have : (i : ℝ) + 1 ≤ n := by exact_mod_cast hi
      linarith
    have h3 : (i : ℝ) * (2 / ((n : ℝ) - 1)) ≤ 2 := by
      rw [mul_div_assoc', div_le_iff₀ h1]; nlinarith
    have : 0 ≤ (i : ℝ) * (2 / ((n : ℝ) - 1)) := by positivity
    constructor <;> linarith
  · have : i = 0 := by omega
    subst this
    simp

/-- C341: Width of the bar in metres: `w cos φ`, below the width asked for by less than one part in
`8 (D/w)^2`. -/
theorem bar_width (w D : ℝ) (n : ℕ) (hw : 0 < w) (hD : 0 < D) (hn : 0 < n) :
    w * (1 - w ^ 2 / (8 * D ^ 2)) ≤ 2 * (2 * sin (phi w D n)) * (D / 2) ∧ 2 * (2 * sin (phi w D n)) * (D / 2) < w := by
  rw [phi_eq w D n hD hn, sin_arctan]
  set t := w / (2 * D) with ht
  have htp : 0 < t := by positivity
  have hwt : w = 2 * D * t := by rw [ht]; field_simp
  have hq : 1 < sqrt (1 + t ^ 2) := by
    rw [lt_sqrt (by norm_num)]
    nlinarith [pow_pos htp 2]
  have hq2 : sqrt (1 + t ^ 2) ≤ 1 + t ^ 2 / 2 := by
    rw [sqrt_le_left (by positivity)]
    nlinarith [sq_nonneg (t ^ 2)]
  have hqp : 0 < sqrt (1 + t ^ 2) := by linarith
  have e : 2 * (2 * (t / sqrt (1 + t ^ 2))) * (D / 2) = w / sqrt (1 + t ^ 2) := by rw [hwt]; ring
  have e2 : w ^ 2 / (8 * D ^ 2) = t ^ 2 / 2 := by rw [ht]; field_simp; ring
  rw [e, e2]
  constructor
  · rw [le_div_iff₀ hqp]
    have : (1 - t ^ 2 / 2) * sqrt (1 + t ^ 2) ≤ 1 := by
      rcases le_or_gt (1 - t ^ 2 / 2) 0 with h | h
      · nlinarith
      · calc (1 - t ^ 2 / 2) * sqrt (1 + t ^ 2) ≤ (1 - t ^ 2 / 2) * (1 + t ^ 2 / 2) :=
            mul_le_mul_of_nonneg_left hq2 h.le
          _ ≤ 1 := by nlinarith [sq_nonneg (t ^ 2)]
    calc w * (1 - t ^ 2 / 2) * sqrt (1 + t ^ 2) = w * ((1 - t ^ 2 / 2) * sqrt (1 + t ^ 2)) := by ring
      _ ≤ w * 1 := mul_le_mul_of_nonneg_left this hw.le
      _ = w := mul_one w
  · rw [div_lt_iff₀ hqp]; nlinarith

theorem proj_sq (o : ℝ × ℝ) (a : ℝ) (r : ℝ × ℝ) :
    along o a r ^ 2 + across o a r ^ 2 = (r.1 - o.1) ^ 2 + (r.2 - o.2) ^ 2 := by
  unfold along across
  linear_combination ((r.1 - o.1) ^ 2 + (r.2 - o.2) ^ 2) * sin_sq_add_cos_sq a

/-- Cosine of the half angle for bars narrower than the aperture. -/
theorem cos_phi_large (w D : ℝ) (n : ℕ) (hw : 0 < w) (hD : w ≤ D) (hn : 0 < n) : 4 / 5 < cos (phi w D n) := by
  have hD' : 0 < D := lt_of_lt_of_le hw hD
  rw [phi_eq w D n hD' hn, cos_arctan]
  set t := w / (2 * D) with ht
  have h1 : t ≤ 1 / 2 := by rw [ht, div_le_iff₀ (by positivity)]; linarith
  have h0 : 0 < t := by positivity
  have : sqrt (1 + t ^ 2) < 5 / 4 := by
    rw [sqrt_lt' (by norm_num)]; nlinarith
  rw [lt_div_iff₀ (by positivity)]
  linarith

/-- C341: A symmetric spider through the centre darkens exactly the pixels of the map whose distance to the line
through the centre, in the direction of its angle, is less than half the width. `across` of the unit map times `D/2`
is that distance in metres. -/
theorem symmetric_spider (w D : ℝ) (n : ℕ) (a : ℝ) (hw : 0 < w) (hD : w ≤ D) (hn : 0 < n)
    (hp : pixelRatio D n ≤ w) (i j : ℕ) (hi : i < n) (hj : j < n) :
    spiderMask true w D n [(a, (0, 0))] i j = 0 ↔ |across (0, 0) a (lin n j, lin n i)| < 2 * sin (phi w D n) := by
  have hD' : 0 < D := lt_of_lt_of_le hw hD
  have hpr : 0 < pixelRatio D n := by unfold pixelRatio; positivity
  have hp' : ¬ w / pixelRatio D n < 1 := by rw [not_lt, le_div_iff₀ hpr]; linarith
  rw [(mask_zero_iff true w D n [(a, (0, 0))] i j hp').2]
  simp only [List.mem_singleton, exists_eq_left]
  rw [inPolygon_iff true _ a _ (phi_range w D n hw hD' hn).1 (phi_range w D n hw hD' hn).2, start_eq D n hD' hn]
  simp only [barCentre, if_true, zero_div]
  constructor
  · exact fun h => h.2
  · intro h
    refine ⟨?_, h⟩
    have hx := lin_range n j hj
    have hy := lin_range n i hi
    have hsq := proj_sq (0, 0) a (lin n j, lin n i)
    have hc := cos_phi_large w D n hw hD hn
    simp only [sub_zero] at hsq
    have h2 : along (0, 0) a (lin n j, lin n i) ^ 2 ≤ 2 := by nlinarith [sq_nonneg (across (0, 0) a (lin n j, lin n i))]
    rw [abs_lt]
    constructor <;> nlinarith

/-- C341: A one-sided spider darkens the pixels within half the width of its line which lie on the side opposite
to its angle, as seen from its starting point (in metres from the centre), further than `2 - 2 cos φ` of half the
aperture from it. The starting point is inside the map. -/
theorem onesided_spider (w D : ℝ) (n : ℕ) (a : ℝ) (c : ℝ × ℝ) (hw : 0 < w) (hD : w ≤ D) (hn : 0 < n)
    (hp : pixelRatio D n ≤ w) (i j : ℕ) (hi : i < n) (hj : j < n) (hc1 : |c.1| ≤ D / 2) (hc2 : |c.2| ≤ D / 2) :
    spiderMask false w D n [(a, c)] i j = 0 ↔
      |across (c.1 / (D / 2), c.2 / (D / 2)) a (lin n j, lin n i)| < 2 * sin (phi w D n) ∧
      along (c.1 / (D / 2), c.2 / (D / 2)) a (lin n j, lin n i) < -(2 - 2 * cos (phi w D n)) := by
  have hD' : 0 < D := lt_of_lt_of_le hw hD
  have hpr : 0 < pixelRatio D n := by unfold pixelRatio; positivity
  have hp' : ¬ w / pixelRatio D n < 1 := by rw [not_lt, le_div_iff₀ hpr]; linarith
  rw [(mask_zero_iff false w D n [(a, c)] i j hp').2]
  simp only [List.mem_singleton, exists_eq_left]
  rw [inPolygon_iff false _ a _ (phi_range w D n hw hD' hn).1 (phi_range w D n hw hD' hn).2, start_eq D n hD' hn]
  set o : ℝ × ℝ := (c.1 / (D / 2), c.2 / (D / 2)) with ho
  set r : ℝ × ℝ := (lin n j, lin n i) with hr
  have e1 : along (barCentre false o a) a r = along o a r + 2 := by
    simp only [barCentre, along, Bool.false_eq_true, if_false]
    linear_combination 2 * sin_sq_add_cos_sq a
  have e2 : across (barCentre false o a) a r = across o a r := by
    simp only [barCentre, across, Bool.false_eq_true, if_false]
    ring
  rw [e1, e2]
  have hx := lin_range n j hj
  have hy := lin_range n i hi
  have ho1 : |o.1| ≤ 1 := by rw [ho, abs_div, abs_of_pos (by positivity : 0 < D / 2)]; exact div_le_one_of_le₀ hc1 (by positivity)
  have ho2 : |o.2| ≤ 1 := by rw [ho, abs_div, abs_of_pos (by positivity : 0 < D / 2)]; exact div_le_one_of_le₀ hc2 (by positivity)
  rw [abs_le] at ho1 ho2
  have hsq := proj_sq o a r
  have hc := cos_phi_large w D n hw hD hn
  have hb1 : (r.1 - o.1) ^ 2 ≤ 4 := by rw [hr]; simp only; nlinarith
  have hb2 : (r.2 - o.2) ^ 2 ≤ 4 := by rw [hr]; simp only; nlinarith
  have h8 : along o a r ^ 2 ≤ 8 := by nlinarith [sq_nonneg (across o a r)]
  constructor
  · rintro ⟨h, h'⟩
    rw [abs_lt] at h
    exact ⟨h', by linarith⟩
  · rintro ⟨h', h⟩
    refine ⟨?_, h'⟩
    rw [abs_lt]
    constructor <;> nlinarith

/-- C342 (partial): the number of petals can be read exactly when the spiders are at least one pixel wide. -/
theorem petals_iff_partial (w D : ℝ) (n l : ℕ) (hp : 0 < pixelRatio D n) : nPetal w D n true l = some l ↔ pixelRatio D n ≤ w := by
  unfold nPetal
  by_cases h : w / pixelRatio D n < 1
  · rw [if_pos h]
    have := (div_lt_one hp).1 h
    simp [not_le.2 this]
  · rw [if_neg h]
    have := not_lt.1 (fun g => h ((div_lt_one hp).2 g))
    simp [this]

/-- C342 (violation): Petals asked for with spiders thinner than a pixel: their number cannot be read. -/
theorem petals_thin_violation : ∃ (w D : ℝ) (n : ℕ), 0 < w ∧ w < D ∧ ∀ l, nPetal w D n true l = none := by
  refine ⟨1 / 2, 10, 10, by norm_num, by norm_num, fun l => ?_⟩
  unfold nPetal pixelRatio
  rw [if_pos (by norm_num)]

/-- C342: Otherwise all connected areas are available. -/
theorem petals_available_partial (w D : ℝ) (n l : ℕ) (hp : 0 < pixelRatio D n) (h : pixelRatio D n ≤ w) :
    nPetal w D n true l = some l := by
  unfold nPetal
  rw [if_neg (by rw [not_lt, le_div_iff₀ hp]; linarith)]
  rfl

/-! ### Petal phases -/

theorem exp_norm (x : ℝ) : ‖Complex.exp (Complex.I * (x : ℂ))‖ = 1 := by
  rw [mul_comm]; exact Complex.norm_exp_ofReal_mul_I x

/-- C343: A phase applied to petals keeps the amplitude of every pixel, the stored phase, reflexivity and
pupil. -/
theorem petal_amplitude (modes : ℕ → ℕ → ℕ → ℕ → ℝ) (P M : ℕ) (cmd : List (ℕ × List ℝ)) (s : State) (i j : ℕ) :
    ‖(applyPetal modes P M cmd s).mat i j‖ = ‖s.mat i j‖ ∧ (applyPetal modes P M cmd s).phase = s.phase ∧
    (applyPetal modes P M cmd s).refl = s.refl ∧ (applyPetal modes P M cmd s).pupil = s.pupil := by
  unfold applyPetal
  dsimp only
  split
  · simp
  split
  · refine ⟨?_, rfl, rfl, rfl⟩
    simp only [norm_mul, exp_norm, mul_one]
    simp
  · simp

/-- A command the function accepts: something to do, and one coefficient per mode for each petal. -/
def Accepted (M : ℕ) (cmd : List (ℕ × List ℝ)) : Prop := cmd ≠ [] ∧ 0 < M ∧ ∀ c ∈ cmd, c.2.length = M

theorem applyPetal_accepted (modes : ℕ → ℕ → ℕ → ℕ → ℝ) (P M : ℕ) (cmd : List (ℕ × List ℝ)) (s : State) (h : Accepted M cmd) :
    applyPetal modes P M cmd s = { s with
      mat := fun i j => (‖s.mat i j‖ : ℂ) *
        Complex.exp (Complex.I * ((s.phase i j + petalPhase modes (existing P cmd) i j : ℝ) : ℂ)) } := by
  unfold applyPetal
  dsimp only
  rw [if_neg (by rintro (h1 | h1); exact h.1 h1; exact absurd h1 h.2.1.ne'), if_pos h.2.2]

/-- C343: For every pixel of non-zero amplitude the phase of the map, modulo a turn, is the stored phase plus the
modes of the existing petals with their coefficients: `mat = |mat| exp(i phase) exp(i petal)`. Petals that do not exist
do not count. -/
theorem petal_phase (modes : ℕ → ℕ → ℕ → ℕ → ℝ) (P M : ℕ) (cmd : List (ℕ × List ℝ)) (s : State) (h : Accepted M cmd) (i j : ℕ) :
    (applyPetal modes P M cmd s).mat i j = (‖s.mat i j‖ : ℂ) * Complex.exp (Complex.I * (s.phase i j : ℂ)) *
      Complex.exp (Complex.I * ((((cmd.filter fun c => decide (c.1 < P)).map fun c =>
        ((List.range M).map fun q => c.2.getD q 0 * modes c.1 q i j).sum).sum : ℝ) : ℂ)) := by
  have hp : petalPhase modes (existing P cmd) i j =
      ((cmd.filter fun c => decide (c.1 < P)).map fun c =>
        ((List.range M).map fun q => c.2.getD q 0 * modes c.1 q i j).sum).sum := by
    unfold petalPhase existing
    congr 1
    apply List.map_congr_left
    intro c hc
    have hl := h.2.2 c (List.mem_filter.mp hc).1
    congr 1
    rw [← hl]
    apply List.ext_getElem
    · simp
    · intro k h1 h2
      simp at h1
      simp [List.getElem?_eq_getElem h1]
  rw [applyPetal_accepted modes P M cmd s h]
  simp only
  rw [hp, mul_assoc, ← Complex.exp_add, Complex.ofReal_add, mul_add]

/-- C343: The order in which the petals are given does not matter, nor does the order of petals and earlier
calls: a call replaces the petal phase of the call before. -/
theorem petal_order (modes : ℕ → ℕ → ℕ → ℕ → ℝ) (P M : ℕ) (cmd cmd' : List (ℕ × List ℝ)) (s : State)
    (h : cmd.Perm cmd') : applyPetal modes P M cmd s = applyPetal modes P M cmd' s := by
  have hp : ∀ i j, petalPhase modes (existing P cmd) i j = petalPhase modes (existing P cmd') i j :=
    fun i j => List.Perm.sum_eq ((h.filter _).map _)
  have he : cmd = [] ↔ cmd' = [] := ⟨fun e => by subst e; exact h.symm.eq_nil, fun e => by subst e; exact h.eq_nil⟩
  unfold applyPetal
  simp only [hp, he, h.mem_iff]

/-- C344: Whatever was applied before, a call replaces the petal phase: two calls are the second one. -/
theorem petal_replaces_partial (modes : ℕ → ℕ → ℕ → ℕ → ℝ) (P M : ℕ) (c1 c2 : List (ℕ × List ℝ)) (s : State) (h2 : Accepted M c2) :
    applyPetal modes P M c2 (applyPetal modes P M c1 s) = applyPetal modes P M c2 s := by
  rw [applyPetal_accepted modes P M c2 _ h2, applyPetal_accepted modes P M c2 _ h2]
  have := fun i j => petal_amplitude modes P M c1 s i j
  have hph := (this 0 0).2.1
  have hr := (this 0 0).2.2.1
  have hpu := (this 0 0).2.2.2
  simp only [fun i j => (this i j).1, hph, hr, hpu]

/-- C344 (violation): Phases given in two calls do not add up: a piston of a quarter turn given twice leaves a quarter
turn, where one call with half a turn gives half a turn. -/
theorem petal_accumulate_violation : ∃ (modes : ℕ → ℕ → ℕ → ℕ → ℝ) (s : State) (x : ℝ),
    applyPetal modes 1 1 [(0, [x])] (applyPetal modes 1 1 [(0, [x])] s) ≠ applyPetal modes 1 1 [(0, [x + x])] s := by
  refine ⟨fun _ _ _ _ => 1, ⟨fun _ _ => 1, fun _ _ => 0, fun _ _ => 1, fun _ _ => 1⟩, π, ?_⟩
  have acc : ∀ x : ℝ, Accepted 1 [(0, [x])] := fun x => ⟨by simp, by norm_num, by simp⟩
  rw [petal_replaces_partial _ _ _ _ _ _ (acc π), applyPetal_accepted _ _ _ _ _ (acc π), applyPetal_accepted _ _ _ _ _ (acc (π + π))]
  intro h
  have := congrFun (congrFun (congrArg State.mat h) 0) 0
  simp only [petalPhase, existing] at this
  simp at this
  rw [mul_comm, Complex.exp_pi_mul_I, mul_comm, ← two_mul, Complex.exp_two_pi_mul_I] at this
  norm_num at this

/-! ### Reset -/

/-- C345: After any petal phases, the reset of a pupil recorded by the constructor restores the map the
constructor recorded whenever its values are zero or one and the masks are zero-one; the stored phase is then that of
the map. -/
theorem reset_restores_partial (mask : ℕ → ℕ → ℝ) (asm : P3.Pupil.Arr) (modes : ℕ → ℕ → ℕ → ℕ → ℝ) (P M : ℕ)
    (hist : List (List (ℕ × List ℝ))) (hm : ∀ i j, mask i j = 0 ∨ mask i j = 1) (ha : ∀ i j, asm i j = 0 ∨ asm i j = 1) :
    let s := hist.foldl (fun s c => applyPetal modes P M c s) (record mask asm)
    (reset mask s).mat = (record mask asm).mat ∧ (reset mask s).phase = (record mask asm).phase ∧
    (reset mask s).refl = (record mask asm).refl := by
  have hpup : ∀ (l : List (List (ℕ × List ℝ))) (s : State), (l.foldl (fun s c => applyPetal modes P M c s) s).pupil = s.pupil := by
    intro l
    induction l with
    | nil => intro s; rfl
    | cons c l ih => intro s; rw [List.foldl_cons, ih]; exact (petal_amplitude modes P M c s 0 0).2.2.2
  intro s
  have hs : s.pupil = (record mask asm).pupil := hpup hist _
  simp only [reset, hs]
  refine ⟨?_, ?_, ?_⟩ <;>
  · funext i j
    rcases hm i j with h | h <;> rcases ha i j with h' | h' <;> simp [record, h, h']

/-- C345 (violation): Segments of reflexivity one half: the reset makes them perfect mirrors. -/
theorem reset_reflexivity_violation : ∃ (mask : ℕ → ℕ → ℝ) (asm : P3.Pupil.Arr),
    (∀ i j, mask i j = 1) ∧ (reset mask (record mask asm)).mat ≠ (record mask asm).mat := by
  refine ⟨fun _ _ => 1, fun _ _ => 1 / 2, fun _ _ => rfl, fun h => ?_⟩
  have := congrFun (congrFun h 0) 0
  simp [reset, record] at this

/-- C345 (partial): after any petal phases, the reset restores the recorded map exactly when every pixel that is neither masked nor dark
reflects everything. -/
theorem reset_restores_iff_partial (mask : ℕ → ℕ → ℝ) (asm : P3.Pupil.Arr) (modes : ℕ → ℕ → ℕ → ℕ → ℝ) (P M : ℕ)
    (hist : List (List (ℕ × List ℝ))) :
    (reset mask (hist.foldl (fun s c => applyPetal modes P M c s) (record mask asm))).mat = (record mask asm).mat ↔
      ∀ i j, mask i j ≠ 0 → asm i j ≠ 0 → asm i j = 1 := by
  have hpup : ∀ (l : List (List (ℕ × List ℝ))) (s : State), (l.foldl (fun s c => applyPetal modes P M c s) s).pupil = s.pupil := by
    intro l
    induction l with
    | nil => intro s; rfl
    | cons c l ih =>
      intro s
      rw [List.foldl_cons, ih]
      unfold applyPetal
      simp only
      split_ifs <;> rfl
  have e : (reset mask (hist.foldl (fun s c => applyPetal modes P M c s) (record mask asm))).mat =
      fun i j => ((record mask asm).pupil i j : ℂ) * (mask i j : ℂ) := by
    unfold reset; simp only [hpup]
  rw [e]
  unfold record
  simp only [funext_iff]
  refine forall_congr' fun i => forall_congr' fun j => ?_
  by_cases hm : mask i j = 0
  · simp [hm]
  · by_cases ha : asm i j = 0
    · simp [ha]
    · have hm' : (mask i j : ℂ) ≠ 0 := by exact_mod_cast hm
      rw [if_neg (mul_ne_zero ha hm')]
      simp only [ne_eq, hm, ha, not_false_iff, true_imp_iff, Complex.ofReal_one, one_mul]
      constructor
      · intro h
        have : (asm i j - 1) * (mask i j : ℂ) = 0 := by rw [sub_mul, ← h]; ring
        rcases mul_eq_zero.1 this with h | h
        · exact sub_eq_zero.1 h
        · exact absurd h hm'
      · intro h; rw [h, one_mul]

/-- C344 (partial): two accepted calls give the sum of their phases exactly when the first one moved every lit pixel by a whole number of
turns. -/
theorem petal_accumulate_iff_partial (modes : ℕ → ℕ → ℕ → ℕ → ℝ) (P M : ℕ) (c1 c2 : List (ℕ × List ℝ)) (s : State) (h2 : Accepted M c2) :
    (∀ i j, (applyPetal modes P M c2 (applyPetal modes P M c1 s)).mat i j = (‖s.mat i j‖ : ℂ) * Complex.exp (Complex.I *
        ((s.phase i j + petalPhase modes (existing P c1) i j + petalPhase modes (existing P c2) i j : ℝ) : ℂ))) ↔
      ∀ i j, s.mat i j ≠ 0 → ∃ k : ℤ, petalPhase modes (existing P c1) i j = k * (2 * π) := by
  rw [petal_replaces_partial _ _ _ _ _ _ h2, applyPetal_accepted _ _ _ _ _ h2]
  refine forall_congr' fun i => forall_congr' fun j => ?_
  simp only
  by_cases hs : s.mat i j = 0
  · simp [hs]
  · have hn : ((‖s.mat i j‖ : ℝ) : ℂ) ≠ 0 := by exact_mod_cast norm_ne_zero_iff.2 hs
    rw [mul_right_inj' hn, Complex.exp_eq_exp_iff_exists_int]
    simp only [ne_eq, hs, not_false_iff, true_imp_iff]
    constructor
    · rintro ⟨k, hk⟩
      have h' : Complex.I * ((petalPhase modes (existing P c1) i j : ℝ) : ℂ) = Complex.I * (((-k : ℤ) : ℝ) * (2 * π) : ℝ) := by
        push_cast at hk ⊢
        linear_combination -hk
      refine ⟨-k, ?_⟩
      exact_mod_cast mul_left_cancel₀ Complex.I_ne_zero h'
    · rintro ⟨k, hk⟩
      refine ⟨-k, ?_⟩
      rw [hk]; push_cast; ring

/-! ### Shared segments -/

/-- C346: Without filling of gaps the segment is left as it was and any number of pupils built from it are the
same. -/
theorem build_keeps_partial (n mid : ℕ) (seg : Map) (k : ℕ) :
    (Nat.iterate (fun s => (build n mid false s).2) k seg) = seg ∧ (build n mid false seg).1 = seg := by
  refine ⟨?_, rfl⟩
  induction k with
  | zero => rfl
  | succ k ih => exact ih

/-- C346: Filling of gaps never darkens a pixel of the segment, nor adds light to a lit one. -/
theorem fillRef_lit (n mid : ℕ) (seg : Map) (i j : ℕ) (h : seg i j ≠ 0) : fillRef n mid seg seg i j = seg i j := by
  simp [fillRef, h]

/-- A segment of four by four pixels, lit in the second row only. -/
def small : Map := fun i j => if i = 1 ∧ (j = 1 ∨ j = 2) then 1 else 0

/-- C346 (violation): Building a pupil with its gaps filled, the default, alters the caller's segment, and a second
pupil built from the same segment differs from the first. -/
theorem build_shared_violation :
    (build 4 2 true small).2 ≠ small ∧ (build 4 2 true (build 4 2 true small).2).1 ≠ (build 4 2 true small).1 := by
  constructor
  · intro h
    have := congrFun (congrFun h 1) 0
    revert this; decide
  · intro h
    have := congrFun (congrFun h 0) 3
    revert this; decide

/-! ### Non-vacuity -/

/-- A bar of one metre on an aperture of ten, a hundred pixels. -/
example : (0 : ℝ) < 1 ∧ (1 : ℝ) ≤ 10 ∧ pixelRatio 10 100 ≤ 1 := by norm_num [pixelRatio]

/-- An accepted command with a petal that does not exist. -/
example : Accepted 1 [(0, [1]), (7, [2])] ∧ existing 4 [(0, [1]), (7, [2])] = [(0, [1])] := by
  refine ⟨⟨by simp, by norm_num, by simp⟩, ?_⟩
  simp [existing]

/-! ### Cases that meet the hypotheses -/

/-- A case meeting the hypotheses of `symmetric_spider`. -/
example : spiderMask true 1 10 100 [(30, (0, 0))] 12 70 = 0 ↔ |across (0, 0) 30 (lin 100 70, lin 100 12)| < 2 * sin (phi 1 10 100) :=
  symmetric_spider 1 10 100 30 (by norm_num) (by norm_num) (by norm_num) (by norm_num [pixelRatio]) 12 70 (by norm_num) (by norm_num)

/-- A case meeting the hypotheses of `onesided_spider`. -/
example : spiderMask false 1 10 100 [(30, (1, -2))] 12 70 = 0 ↔
    |across (1 / (10 / 2), -2 / (10 / 2)) 30 (lin 100 70, lin 100 12)| < 2 * sin (phi 1 10 100) ∧
    along (1 / (10 / 2), -2 / (10 / 2)) 30 (lin 100 70, lin 100 12) < -(2 - 2 * cos (phi 1 10 100)) :=
  onesided_spider 1 10 100 30 (1, -2) (by norm_num) (by norm_num) (by norm_num) (by norm_num [pixelRatio]) 12 70 (by norm_num) (by norm_num)
    (by norm_num) (by norm_num)

/-- Spec: `k` is the first row with a lit pixel. -/
def FirstLit (n : ℕ) (seg : Map) (k : ℕ) : Prop := IsLeast {i | i < n ∧ ∃ j < n, seg i j ≠ 0} k

theorem firstRow_eq (n : ℕ) (seg : Map) (k : ℕ) (h : FirstLit n seg k) : firstRow n seg = k := by
  obtain ⟨⟨hk, j, hj, hs⟩, hmin⟩ := h
  unfold firstRow
  have p : ∀ i, (List.range n).any (fun j => seg i j != 0) = true ↔ ∃ j < n, seg i j ≠ 0 := by
    intro i; simp
  have : (List.range n).find? (fun i => (List.range n).any fun j => seg i j != 0) = some k := by
    rw [List.find?_range_eq_some]
    refine ⟨?_, by simpa using hk, ?_⟩
    · exact (p k).2 ⟨j, hj, hs⟩
    · intro i hi
      rw [Bool.not_eq_true', ← Bool.not_eq_true]
      intro c
      have := hmin ⟨hi.trans hk, (p i).1 c⟩
      exact absurd hi (not_lt.2 this)
  rw [this]
  rfl

/-- C346: Between its first lit row and the middle, the filling lights every dark pixel; after the middle it changes nothing. -/
theorem fillRef_rows (n mid k : ℕ) (seg : Map) (h : FirstLit n seg k) (i j : ℕ) :
    (k ≤ i → i < mid → seg i j = 0 → fillRef n mid seg seg i j = 1) ∧
    (k ≤ i → mid ≤ i → fillRef n mid seg seg i j = seg i j) := by
  unfold fillRef
  rw [firstRow_eq n seg k h]
  simp only
  refine ⟨fun h1 h2 h3 => ?_, fun h1 h2 => ?_⟩
  · rw [if_neg (by omega), if_pos ⟨h1, h2⟩, h3, if_pos rfl]
  · rw [if_neg (by omega), if_neg (by omega)]

/-- C346 (violation): Building a pupil with its gaps filled, the default, alters the caller's segment whenever this has a dark pixel between its
first lit row and the middle. -/
theorem build_alters_violation (n mid k i j : ℕ) (seg : Map) (h : FirstLit n seg k) (h1 : k ≤ i) (h2 : i < mid) (h3 : seg i j = 0) :
    (build n mid true seg).2 ≠ seg := by
  intro c
  have e := congrFun (congrFun c i) j
  have : (build n mid true seg).2 i j = fillRef n mid seg seg i j := rfl
  rw [this, (fillRef_rows n mid k seg h i j).1 h1 h2 h3, h3] at e
  exact absurd e (by norm_num)

/-- A case meeting the hypotheses of `build_alters_violation`. -/
example : (build 4 2 true small).2 ≠ small :=
  build_alters_violation 4 2 1 1 0 small ⟨⟨by norm_num, 1, by norm_num, by decide⟩, fun i hi => by
    obtain ⟨-, j, -, hj⟩ := hi
    by_contra c
    have : i = 0 := by omega
    subst this
    exact hj (by simp [small])⟩ le_rfl (by norm_num) (by decide)

end P3.Petals
