import Verif.Model.Cone
import Verif.Props.Psd
import Verif.Props.Psf
namespace P3.Cone
open Finset P3.Fourier P3.Tomo

/-! ### Standard deviations -/

theorem std_nonneg (n : ℕ) (v : ℕ → ℝ) : 0 ≤ std n v := Real.sqrt_nonneg _

/-- The standard deviation as a norm of the centred values. -/
theorem std_norm (n : ℕ) (v : ℕ → ℝ) : std n v =
    ‖WithLp.toLp 2 (fun i : Fin n => v i - (∑ j ∈ range n, v j) / n)‖ / √n := by
  unfold std
  rw [Real.sqrt_div (sum_nonneg fun i _ => sq_nonneg _), EuclideanSpace.norm_eq]
  congr 2
  rw [← Fin.sum_univ_eq_sum_range (fun i => (v i - (∑ j ∈ range n, v j) / n) ^ 2) n]
  refine sum_congr rfl fun i _ => ?_
  simp

theorem std_sub_le (n : ℕ) (v w : ℕ → ℝ) (c : ℝ) : std n (fun i => v i - c * w i) ≤ std n v + |c| * std n w := by
  rw [std_norm, std_norm, std_norm]
  have e : WithLp.toLp 2 (fun i : Fin n => v i - c * w i - (∑ j ∈ range n, (v j - c * w j)) / n) =
      WithLp.toLp 2 (fun i : Fin n => v i - (∑ j ∈ range n, v j) / n) -
        c • WithLp.toLp 2 (fun i : Fin n => w i - (∑ j ∈ range n, w j) / n) := by
    ext i
    simp [sum_sub_distrib, ← mul_sum]
    ring
  rw [e]
  have := norm_sub_le (WithLp.toLp 2 (fun i : Fin n => v i - (∑ j ∈ range n, v j) / n))
    (c • WithLp.toLp 2 (fun i : Fin n => w i - (∑ j ∈ range n, w j) / n))
  rw [norm_smul, Real.norm_eq_abs] at this
  rw [← mul_div_assoc, ← add_div]
  exact div_le_div_of_nonneg_right this (Real.sqrt_nonneg _)

theorem std_zero_iff (n : ℕ) (hn : 0 < n) (v : ℕ → ℝ) : std n v = 0 ↔ ∀ i < n, v i = (∑ j ∈ range n, v j) / n := by
  have h0 : 0 ≤ (∑ i ∈ range n, (v i - (∑ j ∈ range n, v j) / n) ^ 2) := sum_nonneg fun i _ => sq_nonneg _
  have hn' : (0:ℝ) < n := by exact_mod_cast hn
  unfold std
  rw [Real.sqrt_eq_zero (by positivity), div_eq_zero_iff, or_iff_left hn'.ne', sum_eq_zero_iff_of_nonneg fun i _ => sq_nonneg _]
  constructor
  · intro h i hi
    exact sub_eq_zero.1 (pow_eq_zero_iff two_ne_zero |>.1 (h i (mem_range.2 hi)))
  · intro h i hi
    rw [sub_eq_zero.2 (h i (mem_range.1 hi))]; simp

/-- A wave sampled more than twice per period is not constant. -/
theorem wave_varies (D f : ℝ) (p : ℕ) (hD : 0 < D) (h0 : 0 < |f|) (h1 : |f| * D < 500) : std 1001 (wave D f p) ≠ 0 := by
  intro h
  rw [std_zero_iff _ (by norm_num)] at h
  have e : ∀ i j, i < 1001 → j < 1001 → wave D f p i = wave D f p j := fun i j hi hj => by rw [h i hi, h j hj]
  have hp := Real.pi_pos
  set b := 2 * Real.pi * f * (D / 1000) with hb
  set a := 2 * Real.pi * f * (D * -(1/2)) + 2 * Real.pi * p / 5 with ha
  have hw : ∀ i : ℕ, wave D f p i = Real.sin (a + i * b) := by
    intro i; unfold wave xs; congr 1; rw [ha, hb]; ring
  have e1 := e 1 0 (by norm_num) (by norm_num)
  have e2 := e 2 1 (by norm_num) (by norm_num)
  rw [hw, hw] at e1 e2
  push_cast at e1 e2
  have babs : 0 < |b| ∧ |b| < Real.pi := by
    rw [hb, abs_mul, abs_mul, abs_of_pos (by positivity : 0 < 2 * Real.pi), abs_of_pos (by positivity : 0 < D / 1000)]
    constructor
    · positivity
    · have : |f| * D * (2 * Real.pi / 1000) < 500 * (2 * Real.pi / 1000) := mul_lt_mul_of_pos_right h1 (by positivity)
      nlinarith
  have d1 : 2 * Real.sin (b / 2) * Real.cos (a + b / 2) = 0 := by
    have := Real.sin_sub_sin (a + 1 * b) (a + 0 * b)
    rw [e1, sub_self] at this
    rw [show (a + 1 * b - (a + 0 * b)) / 2 = b / 2 by ring, show (a + 1 * b + (a + 0 * b)) / 2 = a + b / 2 by ring] at this
    exact this.symm
  have d2 : 2 * Real.sin (b / 2) * Real.cos (a + b / 2 + b) = 0 := by
    have := Real.sin_sub_sin (a + 2 * b) (a + 1 * b)
    rw [e2, sub_self] at this
    rw [show (a + 2 * b - (a + 1 * b)) / 2 = b / 2 by ring, show (a + 2 * b + (a + 1 * b)) / 2 = a + b / 2 + b by ring] at this
    exact this.symm
  have hs : ∀ x : ℝ, 0 < |x| → |x| < Real.pi → Real.sin x ≠ 0 := by
    intro x h0 h1 hx
    have h2 := abs_lt.1 h1
    exact (abs_pos.1 h0) ((Real.sin_eq_zero_iff_of_lt_of_lt h2.1 h2.2).1 hx)
  have s1 : Real.sin (b / 2) ≠ 0 := by
    apply hs
    · rw [abs_div]; have := babs.1; positivity
    · rw [abs_div, abs_two]; linarith [babs.2]
  have c1 : Real.cos (a + b / 2) = 0 := by
    rcases mul_eq_zero.1 d1 with h | h
    · exact absurd (by linarith) s1
    · exact h
  have c2 : Real.cos (a + b / 2 + b) = 0 := by
    rcases mul_eq_zero.1 d2 with h | h
    · exact absurd (by linarith) s1
    · exact h
  have : Real.sin b = Real.sin ((a + b / 2 + b) - (a + b / 2)) := by congr 1; ring
  rw [Real.sin_sub, c1, c2] at this
  exact hs b babs.1 babs.2 (by rw [this]; ring)

/-- The coefficient of a wave, when it is defined, is between 0 and 2. -/
theorem phaseCoeff_bounds (D f r : ℝ) (p : ℕ) (c : ℝ) (h : phaseCoeff D f r p = some c) : 0 ≤ c ∧ c ≤ 2 := by
  unfold phaseCoeff at h
  simp only at h
  split_ifs at h with hz
  push Not at hz
  obtain ⟨ha, hb⟩ := hz
  rw [Option.some.injEq] at h
  have a0 : 0 < std 1001 (wave D f p) := lt_of_le_of_ne (std_nonneg 1001 (wave D f p)) (Ne.symm ha)
  have b0 : 0 < std 1001 (wave D (f * r) p) := lt_of_le_of_ne (std_nonneg 1001 (wave D (f * r) p)) (Ne.symm hb)
  subst h
  refine ⟨div_nonneg (std_nonneg 1001 _) a0.le, ?_⟩
  rw [div_le_iff₀ a0]
  refine le_trans (std_sub_le 1001 (wave D f p) (wave D (f * r) p) _) ?_
  rw [abs_of_pos (div_pos a0 b0), div_mul_cancel₀ _ hb]
  linarith

theorem mapM_option_mem {α β : Type} (f : α → Option β) : ∀ (l : List α) (m : List β), l.mapM f = some m →
    m.length = l.length ∧ ∀ y ∈ m, ∃ x ∈ l, f x = some y := by
  intro l
  induction l with
  | nil => intro m h; simp at h; subst h; simp
  | cons a l ih =>
    intro m h
    rw [List.mapM_cons] at h
    cases ha : f a with
    | none => simp [ha] at h
    | some b =>
      cases hl : l.mapM f with
      | none => simp [ha, hl] at h
      | some t =>
        simp [ha, hl] at h
        subst h
        obtain ⟨i1, i2⟩ := ih t hl
        refine ⟨by simp [i1], fun y hy => ?_⟩
        rcases List.mem_cons.1 hy with rfl | hy
        · exact ⟨a, List.mem_cons_self, ha⟩
        · obtain ⟨x, hx, e⟩ := i2 y hy
          exact ⟨x, List.mem_cons_of_mem _ hx, e⟩

theorem sum_bounds (l : List ℝ) (a b : ℝ) (h : ∀ y ∈ l, a ≤ y ∧ y ≤ b) : a * l.length ≤ l.sum ∧ l.sum ≤ b * l.length := by
  induction l with
  | nil => simp
  | cons x l ih =>
    obtain ⟨i1, i2⟩ := ih fun y hy => h y (List.mem_cons_of_mem _ hy)
    obtain ⟨x1, x2⟩ := h x List.mem_cons_self
    rw [List.sum_cons, List.length_cons]
    push_cast
    constructor <;> linarith

theorem coneNode_bounds (D f r kc c : ℝ) (h : coneNode D f r kc = some c) : 0 ≤ c ∧ c ≤ 2 := by
  unfold coneNode at h
  split_ifs at h with hz
  · rw [Option.some.injEq] at h; subst h; norm_num
  · unfold coneCoeff at h
    cases hm : (List.range 5).mapM (phaseCoeff D f r) with
    | none => rw [hm] at h; simp at h
    | some l =>
      rw [hm, Option.map_some, Option.some.injEq] at h
      obtain ⟨hl, hmem⟩ := mapM_option_mem _ _ _ hm
      have := sum_bounds l 0 2 (fun y hy => by
        obtain ⟨x, _, hx⟩ := hmem y hy
        exact phaseCoeff_bounds D f r x y hx)
      rw [hl, List.length_range] at this
      push_cast at this
      subst h
      constructor <;> linarith

theorem mapM_option_of {α β : Type} (f : α → Option β) (g : α → β) : ∀ l : List α, (∀ x ∈ l, f x = some (g x)) →
    l.mapM f = some (l.map g) := by
  intro l
  induction l with
  | nil => intro _; rfl
  | cons a l ih =>
    intro h
    rw [List.mapM_cons, h a List.mem_cons_self, ih fun x hx => h x (List.mem_cons_of_mem _ hx)]
    rfl

/-- The coefficients are defined for layers below the laser and frequencies that the 1001 points sample. -/
theorem coneCoeff_defined (D f r : ℝ) (hD : 0 < D) (hf : 0 < f) (hf1 : f * D < 500) (hr : 0 < r) (hr1 : r ≤ 1) :
    ∃ c, coneCoeff D f r = some c := by
  have key : ∀ p ∈ List.range 5, phaseCoeff D f r p = some (std 1001 (fun i => wave D f p i -
      std 1001 (wave D f p) / std 1001 (wave D (f * r) p) * wave D (f * r) p i) / std 1001 (wave D f p)) := by
    intro p _
    have a := wave_varies D f p hD (by positivity) (by rw [abs_of_pos hf]; exact hf1)
    have b := wave_varies D (f * r) p hD (by positivity) (by rw [abs_of_pos (by positivity)]; nlinarith)
    unfold phaseCoeff
    simp only [a, b, or_self, if_false]
  unfold coneCoeff
  rw [mapM_option_of _ _ _ key]
  exact ⟨_, rfl⟩

/-- A layer on the ground has none. -/
theorem coneCoeff_ground (D f : ℝ) (c : ℝ) (h : coneCoeff D f 1 = some c) : c = 0 := by
  unfold coneCoeff at h
  cases hm : (List.range 5).mapM (phaseCoeff D f 1) with
  | none => rw [hm] at h; simp at h
  | some l =>
    rw [hm, Option.map_some, Option.some.injEq] at h
    obtain ⟨hl, hmem⟩ := mapM_option_mem _ _ _ hm
    have := sum_bounds l 0 0 (fun y hy => by
      obtain ⟨p, _, hp⟩ := hmem y hy
      unfold phaseCoeff at hp
      simp only [mul_one, or_self] at hp
      split_ifs at hp with hz
      rw [Option.some.injEq] at hp
      have e : (fun i => wave D f p i - std 1001 (wave D f p) / std 1001 (wave D f p) * wave D f p i) = fun _ => 0 := by
        funext i; rw [div_self hz]; ring
      rw [e] at hp
      have : std 1001 (fun _ => (0:ℝ)) = 0 := by simp [std]
      rw [this, zero_div] at hp
      rw [← hp]; simp)
    subst h
    linarith [this.1, this.2]

/-- A layer above the ground and below the laser has one, at every frequency that the points sample. -/
theorem coneCoeff_pos (D f r c : ℝ) (hD : 0 < D) (hf : 0 < f) (hf1 : f * D < 500) (hr : 0 < r) (hr1 : r < 1)
    (h : coneCoeff D f r = some c) : 0 < c := by
  unfold coneCoeff at h
  cases hm : (List.range 5).mapM (phaseCoeff D f r) with
  | none => rw [hm] at h; simp at h
  | some l =>
    rw [hm, Option.map_some, Option.some.injEq] at h
    subst h
    obtain ⟨hl, hmem⟩ := mapM_option_mem _ _ _ hm
    have hnn : ∀ y ∈ l, 0 ≤ y := fun y hy => by
      obtain ⟨x, _, hx⟩ := hmem y hy
      exact (phaseCoeff_bounds D f r x y hx).1
    -- the first phase
    have hr5 : List.range 5 = 0 :: [1, 2, 3, 4] := rfl
    rw [hr5, List.mapM_cons] at hm
    cases h0 : phaseCoeff D f r 0 with
    | none => simp [h0] at hm
    | some y =>
      cases ht : [1, 2, 3, 4].mapM (phaseCoeff D f r) with
      | none => rw [h0, ht] at hm; simp at hm
      | some t =>
        rw [h0, ht] at hm
        simp at hm
        subst hm
        have ht0 : 0 ≤ t.sum := List.sum_nonneg fun x hx => hnn x (List.mem_cons_of_mem _ hx)
        have hy : 0 < y := by
          refine lt_of_le_of_ne (hnn y List.mem_cons_self) fun hy => ?_
          unfold phaseCoeff at h0
          simp only at h0
          split_ifs at h0 with hz
          push Not at hz
          rw [Option.some.injEq, ← hy, div_eq_zero_iff, or_iff_left hz.1, std_zero_iff _ (by norm_num)] at h0
          set A := std 1001 (wave D f 0) / std 1001 (wave D (f * r) 0) with hA
          have hA0 : A ≠ 0 := div_ne_zero hz.1 hz.2
          have hp := Real.pi_pos
          set b := 2 * Real.pi * f * (D / 1000) with hb
          have w1 : ∀ n : ℕ, wave D f 0 (500 + n) = Real.sin (n * b) := by
            intro n; unfold wave xs; congr 1; rw [hb]; push_cast; ring
          have w2 : ∀ n : ℕ, wave D (f * r) 0 (500 + n) = Real.sin (n * (b * r)) := by
            intro n; unfold wave xs; congr 1; rw [hb]; push_cast; ring
          have z := h0 500 (by norm_num)
          have q0 := w1 0
          have q0' := w2 0
          simp only [add_zero, Nat.cast_zero, zero_mul, Real.sin_zero] at q0 q0'
          rw [q0, q0', mul_zero, sub_zero] at z
          have o := h0 (500 + 1) (by norm_num)
          have tw := h0 (500 + 2) (by norm_num)
          rw [← z, w1, w2] at o tw
          push_cast at o tw
          rw [one_mul, one_mul] at o
          rw [Real.sin_two_mul, Real.sin_two_mul] at tw
          have hb0 : 0 < b := by positivity
          have hb1 : b < Real.pi := by
            have : f * D * (2 * Real.pi / 1000) < 500 * (2 * Real.pi / 1000) := mul_lt_mul_of_pos_right hf1 (by positivity)
            rw [hb]; nlinarith
          have hs : Real.sin b ≠ 0 := (Real.sin_pos_of_pos_of_lt_pi hb0 hb1).ne'
          have hc : Real.cos b = Real.cos (b * r) := by
            have e : Real.sin b * (Real.cos b - Real.cos (b * r)) = 0 := by
              have o' : A * Real.sin (b * r) = Real.sin b := by linarith
              have : 2 * Real.sin b * Real.cos b - 2 * (A * Real.sin (b * r)) * Real.cos (b * r) = 0 := by linarith
              rw [o'] at this
              linarith
            rcases mul_eq_zero.1 e with h | h
            · exact absurd h hs
            · exact sub_eq_zero.1 h
          have hbr : b * r < b := by nlinarith
          have := Real.injOn_cos ⟨hb0.le, hb1.le⟩ ⟨by positivity, by linarith⟩ hc
          linarith
        rw [List.sum_cons]
        positivity


/-! ### Interpolation -/

theorem interp_bounds (a b x : ℝ) : ∀ pts : List (ℝ × ℝ), pts ≠ [] → pts.Pairwise (fun p q => p.1 < q.1) →
    (∀ p ∈ pts, a ≤ p.2 ∧ p.2 ≤ b) → a ≤ interp pts x ∧ interp pts x ≤ b := by
  intro pts
  induction pts with
  | nil => intro h; exact absurd rfl h
  | cons p t ih =>
    intro _ hs hb
    obtain ⟨x0, y0⟩ := p
    cases t with
    | nil => simpa [interp] using hb (x0, y0) List.mem_cons_self
    | cons q t =>
      obtain ⟨x1, y1⟩ := q
      unfold interp
      have h0 := hb (x0, y0) List.mem_cons_self
      have h1 := hb (x1, y1) (by simp)
      have hx : x0 < x1 := (List.pairwise_cons.1 hs).1 (x1, y1) List.mem_cons_self
      simp only at h0 h1
      split_ifs with c1 c2
      · exact h0
      · push Not at c2
        have hd : 0 < x1 - x0 := by linarith
        have e : (y1 - y0) / (x1 - x0) * (x - x0) + y0 = y0 * ((x1 - x) / (x1 - x0)) + y1 * ((x - x0) / (x1 - x0)) := by
          field_simp; ring
        have p1 : 0 ≤ (x1 - x) / (x1 - x0) := div_nonneg (by linarith) hd.le
        have p2 : 0 ≤ (x - x0) / (x1 - x0) := div_nonneg (by linarith) hd.le
        have p3 : (x1 - x) / (x1 - x0) + (x - x0) / (x1 - x0) = 1 := by field_simp; ring
        rw [e]
        generalize (x1 - x) / (x1 - x0) = α at *
        generalize (x - x0) / (x1 - x0) = β at *
        have q1 := mul_le_mul_of_nonneg_right h0.1 p1
        have q2 := mul_le_mul_of_nonneg_right h1.1 p2
        have q3 := mul_le_mul_of_nonneg_right h0.2 p1
        have q4 := mul_le_mul_of_nonneg_right h1.2 p2
        have e1 : a = a * α + a * β := by rw [← mul_add, p3, mul_one]
        have e2 : b = b * α + b * β := by rw [← mul_add, p3, mul_one]
        constructor <;> linarith
      · exact ih (by simp) (List.pairwise_cons.1 hs).2 fun p hp => hb p (List.mem_cons_of_mem _ hp)

theorem interp_node : ∀ (pts : List (ℝ × ℝ)), pts.Pairwise (fun p q => p.1 < q.1) → ∀ p ∈ pts, interp pts p.1 = p.2 := by
  intro pts
  induction pts with
  | nil => intro _ p h; simp at h
  | cons a t ih =>
    intro hs p hp
    obtain ⟨x0, y0⟩ := a
    cases t with
    | nil => simp at hp; subst hp; rfl
    | cons b t =>
      obtain ⟨x1, y1⟩ := b
      have hx : x0 < x1 := (List.pairwise_cons.1 hs).1 (x1, y1) List.mem_cons_self
      unfold interp
      rcases List.mem_cons.1 hp with rfl | hp
      · rw [if_pos hx, if_pos le_rfl]
      · have hge : x1 ≤ p.1 := by
          rcases List.mem_cons.1 hp with rfl | hp
          · exact le_rfl
          · exact ((List.pairwise_cons.1 (List.pairwise_cons.1 hs).2).1 p hp).le
        rw [if_neg (not_lt.2 hge)]
        exact ih (List.pairwise_cons.1 hs).2 p hp

theorem nodes_spec (D : ℝ) (freqs : List ℝ) (r kc : ℝ) (pts : List (ℝ × ℝ))
    (h : (freqs.mapM fun f => (coneNode D f r kc).map fun y => (f, y)) = some pts) :
    pts.map Prod.fst = freqs ∧ ∀ p ∈ pts, coneNode D p.1 r kc = some p.2 := by
  induction freqs generalizing pts with
  | nil => simp at h; subst h; simp
  | cons f t ih =>
    rw [List.mapM_cons] at h
    cases hf : coneNode D f r kc with
    | none => simp [hf] at h
    | some y =>
      cases ht : (t.mapM fun f => (coneNode D f r kc).map fun y => (f, y)) with
      | none => simp [hf, ht] at h
      | some q =>
        simp [hf, ht] at h
        subst h
        obtain ⟨i1, i2⟩ := ih q ht
        refine ⟨by simp [i1], fun p hp => ?_⟩
        rcases List.mem_cons.1 hp with rfl | hp
        · exact hf
        · exact i2 p hp

theorem nodes_sorted (pts : List (ℝ × ℝ)) (h : (pts.map Prod.fst).Pairwise (· < ·)) : pts.Pairwise (fun p q => p.1 < q.1) :=
  List.pairwise_map.1 h

theorem coneLayer_bounds (D : ℝ) (freqs : List ℝ) (r kc k c : ℝ) (hne : freqs ≠ []) (hs : freqs.Pairwise (· < ·))
    (h : coneLayer D freqs r kc k = some c) : 0 ≤ c ∧ c ≤ 2 := by
  unfold coneLayer at h
  cases hm : (freqs.mapM fun f => (coneNode D f r kc).map fun y => (f, y)) with
  | none => rw [hm] at h; simp at h
  | some pts =>
    rw [hm, Option.map_some, Option.some.injEq] at h
    obtain ⟨i1, i2⟩ := nodes_spec D freqs r kc pts hm
    subst h
    refine interp_bounds 0 2 k pts ?_ ?_ fun p hp => coneNode_bounds _ _ _ _ _ (i2 p hp)
    · rintro rfl; exact hne (by simpa using i1.symm)
    · exact nodes_sorted pts (by rw [i1]; exact hs)

/-- C360: the spectrum of the cone effect, when it is defined, is between zero and four times that of the turbulence. -/
theorem conePsd_bounds (D : ℝ) (freqs : List ℝ) (layers : List (ℝ × ℝ)) (hL kc k atmo v : ℝ) (hne : freqs ≠ [])
    (hs : freqs.Pairwise (· < ·)) (hw : ∀ l ∈ layers, 0 ≤ l.2) (hsum : (layers.map Prod.snd).sum = 1) (ha : 0 ≤ atmo)
    (h : conePsd D freqs layers hL kc k atmo = some v) : 0 ≤ v ∧ v ≤ 4 * atmo := by
  have key : ∀ (ls : List (ℝ × ℝ)) (m : List ℝ), (∀ l ∈ ls, 0 ≤ l.2) →
      (ls.mapM fun l => (coneLayer D freqs ((hL - l.1) / hL) kc k).map fun c => c ^ 2 * atmo * l.2) = some m →
      0 ≤ m.sum ∧ m.sum ≤ 4 * atmo * (ls.map Prod.snd).sum := by
    intro ls
    induction ls with
    | nil => intro m _ h; simp at h; subst h; simp
    | cons l t ih =>
      intro m hw h
      rw [List.mapM_cons] at h
      cases hc : coneLayer D freqs ((hL - l.1) / hL) kc k with
      | none => simp [hc] at h
      | some c =>
        cases ht : (t.mapM fun l => (coneLayer D freqs ((hL - l.1) / hL) kc k).map fun c => c ^ 2 * atmo * l.2) with
        | none => simp [hc, ht] at h
        | some q =>
          simp [hc, ht] at h
          subst h
          obtain ⟨i1, i2⟩ := ih q (fun l hl => hw l (List.mem_cons_of_mem _ hl)) ht
          obtain ⟨b0, b1⟩ := coneLayer_bounds D freqs _ kc k c hne hs hc
          have w0 := hw l List.mem_cons_self
          rw [List.sum_cons, List.map_cons, List.sum_cons]
          have a1 : 0 ≤ atmo * l.2 := mul_nonneg ha w0
          have a2 : c ^ 2 ≤ 4 := by nlinarith
          have a3 : 0 ≤ c ^ 2 := sq_nonneg c
          constructor <;> nlinarith
  unfold conePsd at h
  cases hm : (layers.mapM fun l => (coneLayer D freqs ((hL - l.1) / hL) kc k).map fun c => c ^ 2 * atmo * l.2) with
  | none => rw [hm] at h; simp at h
  | some m =>
    rw [hm, Option.map_some, Option.some.injEq] at h
    subst h
    have := key layers m hw hm
    rw [hsum, mul_one] at this
    exact this

/-- C360: it is zero when all the turbulence is on the ground. -/
theorem conePsd_ground (D : ℝ) (freqs : List ℝ) (layers : List (ℝ × ℝ)) (hL kc k atmo v : ℝ) (hne : freqs ≠ [])
    (hs : freqs.Pairwise (· < ·)) (hg : ∀ l ∈ layers, l.1 = 0) (hL0 : hL ≠ 0)
    (h : conePsd D freqs layers hL kc k atmo = some v) : v = 0 := by
  have hz : ∀ c, coneLayer D freqs 1 kc k = some c → c = 0 := by
    intro c h
    unfold coneLayer at h
    cases hm : (freqs.mapM fun f => (coneNode D f 1 kc).map fun y => (f, y)) with
    | none => rw [hm] at h; simp at h
    | some pts =>
      rw [hm, Option.map_some, Option.some.injEq] at h
      obtain ⟨i1, i2⟩ := nodes_spec D freqs 1 kc pts hm
      subst h
      have := interp_bounds 0 0 k pts (by rintro rfl; exact hne (by simpa using i1.symm))
        (nodes_sorted pts (by rw [i1]; exact hs)) (fun p hp => by
          have hn := i2 p hp
          unfold coneNode at hn
          split_ifs at hn with hc
          · rw [Option.some.injEq] at hn; rw [← hn]; simp
          · rw [coneCoeff_ground D p.1 p.2 hn]; simp)
      exact le_antisymm this.2 this.1
  unfold conePsd at h
  cases hm : (layers.mapM fun l => (coneLayer D freqs ((hL - l.1) / hL) kc k).map fun c => c ^ 2 * atmo * l.2) with
  | none => rw [hm] at h; simp at h
  | some m =>
    rw [hm, Option.map_some, Option.some.injEq] at h
    subst h
    obtain ⟨_, hmem⟩ := mapM_option_mem _ _ _ hm
    have := sum_bounds m 0 0 (fun y hy => by
      obtain ⟨l, hl, e⟩ := hmem y hy
      rw [hg l hl, sub_zero, div_self hL0] at e
      cases hc : coneLayer D freqs 1 kc k with
      | none => rw [hc] at e; simp at e
      | some c =>
        rw [hc, Option.map_some, Option.some.injEq, hz c hc] at e
        rw [← e]; simp)
    linarith [this.1, this.2]

/-- C362 (partial): the cone effect is defined when the layers are below the laser and the 1001 points sample the frequencies. -/
theorem conePsd_defined_partial (D : ℝ) (freqs : List ℝ) (layers : List (ℝ × ℝ)) (hL kc k atmo : ℝ) (hD : 0 < D)
    (hf : ∀ f ∈ freqs, f * D < 500) (hl : ∀ l ∈ layers, 0 ≤ l.1 ∧ l.1 < hL) :
    ∃ v, conePsd D freqs layers hL kc k atmo = some v := by
  have hn : ∀ r, 0 < r → r ≤ 1 → ∀ f ∈ freqs, ∃ y, coneNode D f r kc = some y := by
    intro r hr hr1 f hfm
    unfold coneNode
    split_ifs with hc
    · exact ⟨_, rfl⟩
    · push Not at hc
      exact coneCoeff_defined D f r hD (by linarith [hc.2]) (hf f hfm) hr hr1
  have hlay : ∀ r, 0 < r → r ≤ 1 → ∃ c, coneLayer D freqs r kc k = some c := by
    intro r hr hr1
    have := mapM_option_of (fun f => (coneNode D f r kc).map fun y => (f, y)) (fun f => (f, (coneNode D f r kc).getD 0)) freqs
      (fun f hfm => by obtain ⟨y, hy⟩ := hn r hr hr1 f hfm; rw [hy]; rfl)
    unfold coneLayer
    rw [this]
    exact ⟨_, rfl⟩
  have := mapM_option_of (fun l : ℝ × ℝ => (coneLayer D freqs ((hL - l.1) / hL) kc k).map fun c => c ^ 2 * atmo * l.2)
    (fun l => ((coneLayer D freqs ((hL - l.1) / hL) kc k).getD 0) ^ 2 * atmo * l.2) layers (fun l hlm => by
      obtain ⟨h0, h1⟩ := hl l hlm
      have hp : 0 < hL := by linarith
      obtain ⟨c, hc⟩ := hlay ((hL - l.1) / hL) (div_pos (by linarith) hp) (by rw [div_le_one hp]; linarith)
      rw [hc]; rfl)
  unfold conePsd
  rw [this]
  exact ⟨_, rfl⟩

/-- A frequency outside the corrected area: only the cone effect and the fitting error. -/
def coneTerms (cone fit : ℝ) : Terms where
  noise := 0
  aliasing := 0
  diffRef := 0
  chrom := 0
  st := 0
  cone := cone
  mcao := fun _ => 0
  fit := fit
  vib := 0
  tilt := 1
  extra := 0

/-- C361 (violation): with one laser, a frequency that the mirror does not correct is given more than the turbulence (which
is the fitting error, counted there entirely): a layer at the altitude `h` adds its cone effect up to the frequency
`kc/(1 - h/hL)`. -/
theorem cone_beyond_cutoff_violation (D : ℝ) (freqs : List ℝ) (h hL kc f atmo : ℝ) (hD : 0 < D)
    (hs : freqs.Pairwise (· < ·)) (hf : ∀ f ∈ freqs, f * D < 500) (hm : f ∈ freqs) (h0 : 0 < h) (h1 : h < hL) (hk : 0 < kc)
    (hk1 : kc < f) (hk2 : f * ((hL - h) / hL) ≤ kc) (hfp : 1e-5 ≤ f) (ha : 0 < atmo) :
    ∃ v, conePsd D freqs [(h, 1)] hL kc f atmo = some v ∧
      ∀ u ≠ 0, atmo * u ^ 2 < psdFinal u none false (coneTerms v atmo) := by
  obtain ⟨v, hv⟩ := conePsd_defined_partial D freqs [(h, 1)] hL kc f atmo hD hf (by simp; exact ⟨h0.le, h1⟩)
  have hLp : 0 < hL := by linarith
  have r0 : 0 < (hL - h) / hL := div_pos (by linarith) hLp
  have r1 : (hL - h) / hL < 1 := by rw [div_lt_one hLp]; linarith
  have vpos : 0 < v := by
    unfold conePsd at hv
    rw [List.mapM_cons] at hv
    cases hc : coneLayer D freqs ((hL - h) / hL) kc f with
    | none => simp [hc] at hv
    | some c =>
      simp [hc] at hv
      unfold coneLayer at hc
      cases hn : (freqs.mapM fun f => (coneNode D f ((hL - h) / hL) kc).map fun y => (f, y)) with
      | none => rw [hn] at hc; simp at hc
      | some pts =>
        rw [hn, Option.map_some, Option.some.injEq] at hc
        obtain ⟨i1, i2⟩ := nodes_spec D freqs _ kc pts hn
        obtain ⟨p, hp, e⟩ := List.mem_map.1 (show f ∈ pts.map Prod.fst by rw [i1]; exact hm)
        have := interp_node pts (nodes_sorted pts (by rw [i1]; exact hs)) p hp
        rw [e, hc] at this
        have hnode := i2 p hp
        rw [e] at hnode
        unfold coneNode at hnode
        rw [if_neg (by push Not; exact ⟨hk2, hfp⟩), ← this] at hnode
        have cp := coneCoeff_pos D f _ c hD (by linarith) (hf f hm) r0 r1 hnode
        rw [← hv]
        positivity
  refine ⟨v, hv, fun u hu => ?_⟩
  have : 0 < u ^ 2 := by positivity
  simp only [psdFinal, psdCore, psdAdd, coneTerms, Bool.false_eq_true, if_false]
  nlinarith

theorem interp_tail (f0 x : ℝ) (hx : f0 ≤ x) : ∀ pts : List (ℝ × ℝ), pts.Pairwise (fun p q => p.1 < q.1) →
    (∃ p ∈ pts, p.1 = f0) → (∀ p ∈ pts, f0 ≤ p.1 → p.2 = 0) → interp pts x = 0 := by
  intro pts
  induction pts with
  | nil => intro _ ⟨p, h, _⟩; simp at h
  | cons a t ih =>
    intro hs ⟨p, hp, hf⟩ hz
    obtain ⟨x0, y0⟩ := a
    cases t with
    | nil =>
      rw [List.mem_singleton] at hp
      subst hp
      exact hz _ List.mem_cons_self hf.ge
    | cons b t =>
      obtain ⟨x1, y1⟩ := b
      unfold interp
      rcases List.mem_cons.1 hp with rfl | hp
      · have z0 : y0 = 0 := hz _ List.mem_cons_self hf.ge
        have hx1 : x0 < x1 := (List.pairwise_cons.1 hs).1 (x1, y1) List.mem_cons_self
        simp only at hf
        have z1 : y1 = 0 := hz (x1, y1) (by simp) (by simp only; linarith)
        split_ifs with c1 c2
        · exact z0
        · rw [z0, z1]; simp
        · have := interp_bounds 0 0 x ((x1, y1) :: t) (by simp) (List.pairwise_cons.1 hs).2 (fun q hq => by
            have h1 : x0 < q.1 := (List.pairwise_cons.1 hs).1 q hq
            rw [hz q (List.mem_cons_of_mem _ hq) (by linarith)]; simp)
          exact le_antisymm this.2 this.1
      · have hge : x1 ≤ f0 := by
          rw [← hf]
          rcases List.mem_cons.1 hp with rfl | hp
          · exact le_rfl
          · exact ((List.pairwise_cons.1 (List.pairwise_cons.1 hs).2).1 p hp).le
        rw [if_neg (not_lt.2 (by linarith))]
        exact ih (List.pairwise_cons.1 hs).2 ⟨p, hp, hf⟩ fun q hq => hz q (List.mem_cons_of_mem _ hq)

/-- C361 (partial): there is no cone effect beyond a sampled frequency that is, for every layer, seen by the laser above the
cut-off frequency. -/
theorem cone_far_partial (D : ℝ) (freqs : List ℝ) (layers : List (ℝ × ℝ)) (hL kc f0 k atmo v : ℝ)
    (hs : freqs.Pairwise (· < ·)) (hm : f0 ∈ freqs) (hl : ∀ l ∈ layers, 0 ≤ (hL - l.1) / hL ∧ kc < f0 * ((hL - l.1) / hL))
    (hk : f0 ≤ k) (h : conePsd D freqs layers hL kc k atmo = some v) : v = 0 := by
  have hz : ∀ l ∈ layers, ∀ c, coneLayer D freqs ((hL - l.1) / hL) kc k = some c → c = 0 := by
    intro l hlm c h
    obtain ⟨r0, r1⟩ := hl l hlm
    generalize (hL - l.1) / hL = r at *
    unfold coneLayer at h
    cases hn : (freqs.mapM fun f => (coneNode D f r kc).map fun y => (f, y)) with
    | none => rw [hn] at h; simp at h
    | some pts =>
      rw [hn, Option.map_some, Option.some.injEq] at h
      obtain ⟨i1, i2⟩ := nodes_spec D freqs r kc pts hn
      subst h
      refine interp_tail f0 k hk pts (nodes_sorted pts (by rw [i1]; exact hs)) ?_ fun p hp hge => ?_
      · obtain ⟨p, hp, e⟩ := List.mem_map.1 (show f0 ∈ pts.map Prod.fst by rw [i1]; exact hm)
        exact ⟨p, hp, e⟩
      · have hnode := i2 p hp
        unfold coneNode at hnode
        rw [if_pos (Or.inl (lt_of_lt_of_le r1 (mul_le_mul_of_nonneg_right hge r0))), Option.some.injEq] at hnode
        exact hnode.symm
  unfold conePsd at h
  cases hm : (layers.mapM fun l => (coneLayer D freqs ((hL - l.1) / hL) kc k).map fun c => c ^ 2 * atmo * l.2) with
  | none => rw [hm] at h; simp at h
  | some m =>
    rw [hm, Option.map_some, Option.some.injEq] at h
    subst h
    obtain ⟨_, hmem⟩ := mapM_option_mem _ _ _ hm
    have := sum_bounds m 0 0 (fun y hy => by
      obtain ⟨l, hl, e⟩ := hmem y hy
      cases hc : coneLayer D freqs ((hL - l.1) / hL) kc k with
      | none => rw [hc] at e; simp at e
      | some c =>
        rw [hc, Option.map_some, Option.some.injEq, hz l hl c hc] at e
        rw [← e]; simp)
    linarith [this.1, this.2]

/-- C362 (violation): a layer at the altitude of the laser makes every spectrum undefined (`nan`). -/
theorem cone_at_laser_violation (D : ℝ) (freqs : List ℝ) (hL kc k atmo f : ℝ) (hk : 0 ≤ kc) (hm : f ∈ freqs)
    (hf : 1e-5 ≤ f) : conePsd D freqs [(hL, 1)] hL kc k atmo = none := by
  have hn : coneNode D f 0 kc = none := by
    unfold coneNode
    rw [mul_zero, if_neg (by push Not; exact ⟨hk, hf⟩)]
    unfold coneCoeff
    have : phaseCoeff D f 0 0 = none := by
      unfold phaseCoeff
      have : std 1001 (wave D (f * 0) 0) = 0 := by
        rw [std_zero_iff _ (by norm_num)]
        intro i _
        simp [wave]
      simp only [this, or_true, if_true]
    rw [show List.range 5 = 0 :: [1, 2, 3, 4] from rfl, List.mapM_cons, this]
    rfl
  have hall : ∀ l : List ℝ, f ∈ l → (l.mapM fun f => (coneNode D f 0 kc).map fun y => (f, y)) = none := by
    intro l
    induction l with
    | nil => intro h; simp at h
    | cons a t ih =>
      intro h
      rw [List.mapM_cons]
      rcases List.mem_cons.1 h with rfl | h
      · rw [hn]; rfl
      · rw [ih h]
        cases coneNode D a 0 kc <;> rfl
  unfold conePsd coneLayer
  simp only [List.mapM_cons, sub_self, zero_div, hall freqs hm]
  rfl

/-! ### Constellation of lasers -/

/-- C363: the sensed volume is reduced by an error that never brings the residual above the turbulence. -/
theorem lasers_bound (s : Lasers) (z k atmo res : ℝ) (hD : 0 < s.D) (hw : ∀ l ∈ s.layers, 0 ≤ l.2)
    (hs : (s.layers.map Prod.snd).sum ≤ 1) :
    0 ≤ s.psd z k atmo res ∧ res + s.psd z k atmo res ≤ max res atmo := by
  have hp := Psf.pistonFilter_spec s.D k
  refine mcaoPsd_spec _ _ _ _ _ hD ?_ ?_ hp.1 hp.2.1
  · intro l hl
    unfold Lasers.active at hl
    obtain ⟨a, ha, rfl⟩ := List.mem_map.1 hl
    rw [List.mem_filter, decide_eq_true_eq] at ha
    exact ⟨hw a ha.1, ha.2.2.2.2, min_le_right _ _⟩
  · refine le_trans ?_ hs
    unfold Lasers.active
    rw [List.map_map]
    have : ∀ (q : ℝ × ℝ → Bool) (ls : List (ℝ × ℝ)), (∀ l ∈ ls, 0 ≤ l.2) →
        ((ls.filter q).map Prod.snd).sum ≤ (ls.map Prod.snd).sum := by
      intro q ls
      induction ls with
      | nil => intro _; simp
      | cons a t ih =>
        intro hw
        have i := ih fun l hl => hw l (List.mem_cons_of_mem _ hl)
        have := hw a List.mem_cons_self
        rw [List.filter_cons]
        split_ifs
        · rw [List.map_cons, List.map_cons, List.sum_cons, List.sum_cons]; linarith
        · rw [List.map_cons, List.sum_cons]; linarith
    exact this _ _ hw

/-- C363: there is none towards the sources inside the field that all the lasers cover together. -/
theorem lasers_inside (s : Lasers) (z k atmo res : ℝ) (he : 0 < s.eFoV) (hz : z ≤ s.eFoV / 2) : s.psd z k atmo res = 0 := by
  have hd : ¬ s.dE z > 0 := by
    unfold Lasers.dE
    rw [if_pos he]
    have := min_le_left z s.zen
    push Not
    linarith
  unfold Lasers.psd Lasers.active
  have : (s.layers.filter fun l => open Classical in decide (l.1 > 0 ∧ s.dE z > 0 ∧ s.fCut z l.1 < s.kcMax ∧ s.eqD z l.1 > 0)) = [] := by
    rw [List.filter_eq_nil_iff]
    intro l _
    simp [hd]
  rw [this]
  simp [mcaoPsd]

theorem lp_normSq (s : Lasers) (fc k : ℝ) : ‖s.lp fc k‖ ^ 2 =
    (Real.exp (2 * Real.pi * fc / (s.kmax * 2)) - 1) ^ 2 / ((Real.exp (2 * Real.pi * fc / (s.kmax * 2)) - 1) ^ 2 +
      2 * Real.exp (2 * Real.pi * fc / (s.kmax * 2)) * (1 - Real.cos (k / (s.kmax * 2 / 2) * Real.pi))) := by
  unfold Lasers.lp
  simp only
  set x := k / (s.kmax * 2 / 2) * Real.pi
  set p := Real.exp (2 * Real.pi * fc / (s.kmax * 2))
  rw [norm_div, norm_mul, mul_comm Complex.I, Complex.norm_exp_ofReal_mul_I, one_mul, div_pow]
  congr 1
  · rw [show (1:ℂ) - (p:ℂ) = ((1 - p : ℝ) : ℂ) by push_cast; ring, Complex.norm_real, Real.norm_eq_abs, sq_abs]; ring
  · rw [← Complex.normSq_eq_norm_sq, Complex.normSq_apply, Complex.sub_re, Complex.sub_im, Complex.exp_ofReal_mul_I_re,
      Complex.exp_ofReal_mul_I_im, Complex.ofReal_re, Complex.ofReal_im, sub_zero]
    have := Real.sin_sq_add_cos_sq x
    nlinarith

/-- The filter passes more when its cut-off frequency is higher. -/
theorem lp_mono (s : Lasers) (a b k : ℝ) (hk : 0 < s.kmax) (ha : 0 < a) (hab : a ≤ b) : ‖s.lp a k‖ ^ 2 ≤ ‖s.lp b k‖ ^ 2 := by
  rw [lp_normSq, lp_normSq]
  have hpi := Real.pi_pos
  have hp : 1 < Real.exp (2 * Real.pi * a / (s.kmax * 2)) := Real.one_lt_exp_iff.2 (by positivity)
  have hpq : Real.exp (2 * Real.pi * a / (s.kmax * 2)) ≤ Real.exp (2 * Real.pi * b / (s.kmax * 2)) :=
    Real.exp_le_exp.2 (div_le_div_of_nonneg_right (by nlinarith) (by positivity))
  have hc : 0 ≤ 1 - Real.cos (k / (s.kmax * 2 / 2) * Real.pi) := by linarith [Real.cos_le_one (k / (s.kmax * 2 / 2) * Real.pi)]
  generalize Real.exp (2 * Real.pi * a / (s.kmax * 2)) = p at *
  generalize Real.exp (2 * Real.pi * b / (s.kmax * 2)) = q at *
  generalize 1 - Real.cos (k / (s.kmax * 2 / 2) * Real.pi) = c at *
  have d1 : 0 < (p - 1) ^ 2 := by have : 0 < p - 1 := by linarith
                                  positivity
  have d2 : 0 < (q - 1) ^ 2 := by have : 0 < q - 1 := by linarith
                                  positivity
  have e1 : 0 ≤ 2 * p * c := by have : 0 < p := by linarith
                                positivity
  have e2 : 0 ≤ 2 * q * c := by have : 0 < q := by linarith
                                positivity
  rw [div_le_div_iff₀ (by linarith) (by linarith)]
  have key : (p - 1) ^ 2 * q ≤ (q - 1) ^ 2 * p := by
    have : (q - 1) ^ 2 * p - (p - 1) ^ 2 * q = (q - p) * (p * q - 1) := by ring
    have h1 : 0 ≤ q - p := by linarith
    have h2 : 0 ≤ p * q - 1 := by nlinarith
    nlinarith [mul_nonneg h1 h2]
  nlinarith [mul_nonneg (sub_nonneg.2 key) hc]

/-- The effect as a sum over the layers. -/
theorem lasers_sum (s : Lasers) (z k atmo res : ℝ) : s.psd z k atmo res = (s.layers.map fun l =>
    open Classical in if l.1 > 0 ∧ s.dE z > 0 ∧ s.fCut z l.1 < s.kcMax ∧ s.eqD z l.1 > 0 then
      l.2 * mcaoFilter (s.lp (s.fCut z l.1) k) (s.eqD z l.1) s.D * (max (atmo - res) 0 * Psf.pistonFilter s.D k) else 0).sum := by
  classical
  unfold Lasers.psd Lasers.active mcaoPsd
  induction s.layers with
  | nil => simp
  | cons a t ih =>
    rw [List.filter_cons, List.map_cons, List.sum_cons, ← ih]
    by_cases hc : a.1 > 0 ∧ s.dE z > 0 ∧ s.fCut z a.1 < s.kcMax ∧ s.eqD z a.1 > 0
    · rw [if_pos hc, if_pos (by simpa using hc)]; rfl
    · rw [if_neg hc, if_neg (by simpa using hc), zero_add]

theorem mcaoFilter_nonneg (lp : ℂ) (e D : ℝ) : 0 ≤ mcaoFilter lp e D := le_max_right _ _

/-- C363: inside the constellation it grows with the distance of the source to the axis; outside it decreases. -/
theorem lasers_radial (s : Lasers) (z z' k atmo res : ℝ) (hD : 0 < s.D) (hr : 0 < s.rad2arc) (hk : 0 < s.kmax)
    (hw : ∀ l ∈ s.layers, 0 ≤ l.2) (hz : z ≤ z') :
    (z' ≤ s.zen → s.psd z k atmo res ≤ s.psd z' k atmo res) ∧ (s.zen ≤ z → s.psd z' k atmo res ≤ s.psd z k atmo res) := by
  classical
  have hX : 0 ≤ max (atmo - res) 0 * Psf.pistonFilter s.D k := mul_nonneg (le_max_right _ _) (Psf.pistonFilter_spec s.D k).1
  generalize hXd : max (atmo - res) 0 * Psf.pistonFilter s.D k = X at hX
  constructor
  · intro hin
    rw [lasers_sum, lasers_sum, hXd]
    refine List.sum_le_sum fun l hl => ?_
    have hw := hw l hl
    by_cases hc : l.1 > 0 ∧ s.dE z > 0 ∧ s.fCut z l.1 < s.kcMax ∧ s.eqD z l.1 > 0
    · have hdE : s.dE z ≤ s.dE z' := by
        unfold Lasers.dE
        have := min_le_min_right s.zen hz
        split_ifs <;> linarith
      have hdE' : 0 < s.dE z' := by linarith [hc.2.1]
      have hfc : s.fCut z' l.1 ≤ s.fCut z l.1 := by
        unfold Lasers.fCut
        exact div_le_div_of_nonneg_left hr.le (mul_pos hc.2.1 hc.1) (mul_le_mul_of_nonneg_right hdE hc.1.le)
      have hL : ∀ y ≤ s.zen, s.eqD y l.1 = s.D := by
        intro y hy
        unfold Lasers.eqD Lasers.dL
        rw [max_eq_right (by linarith)]; simp
      have h1 := hL z (by linarith)
      have h2 := hL z' hin
      rw [if_pos hc, if_pos ⟨hc.1, hdE', by linarith [hc.2.2.1], by rw [h2]; exact hD⟩, h1, h2]
      have hfp : 0 < s.fCut z' l.1 := by
        unfold Lasers.fCut
        exact div_pos hr (mul_pos hdE' hc.1)
      have hm := lp_mono s _ _ k hk hfp hfc
      have : mcaoFilter (s.lp (s.fCut z l.1) k) s.D s.D ≤ mcaoFilter (s.lp (s.fCut z' l.1) k) s.D s.D := by
        unfold mcaoFilter
        exact max_le_max (mul_le_mul_of_nonneg_right (by linarith) (sq_nonneg _)) le_rfl
      exact mul_le_mul_of_nonneg_right (mul_le_mul_of_nonneg_left this hw) hX
    · rw [if_neg hc]
      split_ifs
      · exact mul_nonneg (mul_nonneg hw (mcaoFilter_nonneg _ _ _)) hX
      · exact le_rfl
  · intro hout
    rw [lasers_sum, lasers_sum, hXd]
    refine List.sum_le_sum fun l hl => ?_
    have hw := hw l hl
    by_cases hc : l.1 > 0 ∧ s.dE z' > 0 ∧ s.fCut z' l.1 < s.kcMax ∧ s.eqD z' l.1 > 0
    · have e1 : s.dE z' = s.dE z := by
        unfold Lasers.dE
        rw [min_eq_right (by linarith), min_eq_right hout]
      have e2 : s.fCut z' l.1 = s.fCut z l.1 := by unfold Lasers.fCut; rw [e1]
      have e3 : s.eqD z' l.1 ≤ s.eqD z l.1 := by
        unfold Lasers.eqD Lasers.dL
        apply min_le_min_right
        have : max (z - 2 * s.zen / 2) 0 ≤ max (z' - 2 * s.zen / 2) 0 := max_le_max (by linarith) le_rfl
        have h1 : 0 < 1 / s.rad2arc := by positivity
        have := mul_le_mul_of_nonneg_right (mul_le_mul_of_nonneg_right this hc.1.le) h1.le
        linarith
      rw [if_pos hc, if_pos ⟨hc.1, by rw [← e1]; exact hc.2.1, by rw [← e2]; exact hc.2.2.1, by linarith [hc.2.2.2]⟩, e2]
      have h4 : (s.eqD z' l.1 / s.D) ^ 2 ≤ (s.eqD z l.1 / s.D) ^ 2 :=
        pow_le_pow_left₀ (div_nonneg (le_of_lt hc.2.2.2) hD.le) (div_le_div_of_nonneg_right e3 hD.le) 2
      have : mcaoFilter (s.lp (s.fCut z l.1) k) (s.eqD z' l.1) s.D ≤ mcaoFilter (s.lp (s.fCut z l.1) k) (s.eqD z l.1) s.D := by
        unfold mcaoFilter
        by_cases h1 : 0 ≤ 1 - ‖s.lp (s.fCut z l.1) k‖ ^ 2
        · exact max_le_max (mul_le_mul_of_nonneg_left h4 h1) le_rfl
        · push Not at h1
          rw [max_eq_right]
          · exact le_max_right _ _
          · exact mul_nonpos_of_nonpos_of_nonneg h1.le (sq_nonneg _)
      exact mul_le_mul_of_nonneg_right (mul_le_mul_of_nonneg_left this hw) hX
    · rw [if_neg hc]
      split_ifs
      · exact mul_nonneg (mul_nonneg hw (mcaoFilter_nonneg _ _ _)) hX
      · exact le_rfl

/-! ### Vibrations -/

/-- C364 (partial): the variance reported for the vibrations is the residual power, less the share of the frequencies of tilt that
are outside the corrected area. -/
theorem windVar_share_partial {ι : Type} (grid : Finset ι) (tilt pf : ι → ℝ) (inside : ι → Bool) (power u : ℝ) (hu : u ≠ 0)
    (hp : 0 ≤ power) (ht : ∀ i ∈ grid, tilt i ≤ 1) (hf : ∀ i ∈ grid, 0 ≤ pf i) (hS : ∑ j ∈ grid, (1 - tilt j) * pf j ≠ 0) :
    windVar grid tilt pf inside power u =
      some (power * ((∑ i ∈ grid with inside i = true, (1 - tilt i) * pf i) / ∑ i ∈ grid, (1 - tilt i) * pf i)) ∧
    (power ≠ 0 → (windVar grid tilt pf inside power u = some power ↔
      ∀ i ∈ grid, inside i = false → (1 - tilt i) * pf i = 0)) := by
  have hnn : ∀ i ∈ grid, 0 ≤ (1 - tilt i) * pf i := fun i hi => mul_nonneg (by linarith [ht i hi]) (hf i hi)
  have hSp : 0 < ∑ j ∈ grid, (1 - tilt j) * pf j := lt_of_le_of_ne (sum_nonneg hnn) (Ne.symm hS)
  have e : windVar grid tilt pf inside power u =
      some (power * ((∑ i ∈ grid with inside i = true, (1 - tilt i) * pf i) / ∑ i ∈ grid, (1 - tilt i) * pf i)) := by
    unfold windVar windPsd
    simp only [hS, if_false, Option.getD_some]
    congr 1
    have : ∀ i ∈ grid, msk (inside i) * |power * (1 / u ^ 2) * ((1 - tilt i) * pf i * (1 / ∑ j ∈ grid, (1 - tilt j) * pf j))| =
        power * (1 / u ^ 2) * (1 / ∑ j ∈ grid, (1 - tilt j) * pf j) * (if inside i = true then (1 - tilt i) * pf i else 0) := by
      intro i hi
      have h1 := hnn i hi
      rw [abs_of_nonneg (by positivity)]
      unfold msk
      split_ifs <;> ring
    rw [sum_congr rfl this, ← mul_sum, ← sum_filter]
    field_simp
  refine ⟨e, fun hp0 => ?_⟩
  rw [e, Option.some.injEq]
  have hsplit := sum_filter_add_sum_filter_not grid (fun i => inside i = true) (fun i => (1 - tilt i) * pf i)
  have hz : (∑ i ∈ grid with ¬ inside i = true, (1 - tilt i) * pf i) = 0 ↔
      ∀ i ∈ grid, inside i = false → (1 - tilt i) * pf i = 0 := by
    rw [sum_eq_zero_iff_of_nonneg fun i hi => hnn i (mem_filter.1 hi).1]
    simp only [mem_filter, Bool.not_eq_true, and_imp]
  rw [← hz]
  constructor
  · intro h
    have h2 : (∑ i ∈ grid with inside i = true, (1 - tilt i) * pf i) / (∑ i ∈ grid, (1 - tilt i) * pf i) = 1 := by
      have : power * ((∑ i ∈ grid with inside i = true, (1 - tilt i) * pf i) / ∑ i ∈ grid, (1 - tilt i) * pf i) = power * 1 := by
        rw [h, mul_one]
      exact mul_left_cancel₀ hp0 this
    rw [div_eq_one_iff_eq hS] at h2
    linarith
  · intro h
    rw [h, add_zero] at hsplit
    rw [hsplit, div_self hS, mul_one]


/-- C364 (violation): one frequency of tilt outside the corrected area is enough for the variance to be less than the
residual power. -/
theorem windVar_violation {ι : Type} (grid : Finset ι) (tilt pf : ι → ℝ) (inside : ι → Bool) (power u : ℝ) (hu : u ≠ 0)
    (hp : 0 < power) (ht : ∀ i ∈ grid, tilt i ≤ 1) (hf : ∀ i ∈ grid, 0 ≤ pf i) (i : ι) (hi : i ∈ grid) (ho : inside i = false)
    (hi0 : tilt i < 1) (hi1 : 0 < pf i) : ∃ v, windVar grid tilt pf inside power u = some v ∧ v < power := by
  have hnn : ∀ i ∈ grid, 0 ≤ (1 - tilt i) * pf i := fun i hi => mul_nonneg (by linarith [ht i hi]) (hf i hi)
  have hpos : 0 < (1 - tilt i) * pf i := mul_pos (by linarith) hi1
  have hSp : 0 < ∑ j ∈ grid, (1 - tilt j) * pf j := lt_of_lt_of_le hpos (single_le_sum hnn hi)
  obtain ⟨e, _⟩ := windVar_share_partial grid tilt pf inside power u hu hp.le ht hf hSp.ne'
  refine ⟨_, e, ?_⟩
  have hlt : (∑ i ∈ grid with inside i = true, (1 - tilt i) * pf i) < ∑ i ∈ grid, (1 - tilt i) * pf i := by
    refine sum_lt_sum_of_subset (filter_subset _ _) hi (by simp [ho]) hpos fun j hj _ => hnn j hj
  have : (∑ i ∈ grid with inside i = true, (1 - tilt i) * pf i) / (∑ i ∈ grid, (1 - tilt i) * pf i) < 1 := by
    rw [div_lt_one hSp]; exact hlt
  nlinarith

/-! ### Non-vacuity -/

example : ∃ v, conePsd 8 [1/16, 1/8, 1/4] [(0, 1/2), (10000, 1/2)] 90000 2 (1/8) 3 = some v :=
  conePsd_defined_partial 8 _ _ _ _ _ _ (by norm_num) (by intro f hf; fin_cases hf <;> norm_num) (by intro l hl; fin_cases hl <;> norm_num)

example (v : ℝ) (h : conePsd 8 [1/16, 1/8, 1/4] [(0, 1/2), (10000, 1/2)] 90000 2 (1/8) 3 = some v) : 0 ≤ v ∧ v ≤ 4 * 3 :=
  conePsd_bounds 8 _ _ _ _ _ _ v (by simp) (by norm_num) (by intro l hl; fin_cases hl <;> norm_num) (by norm_num) (by norm_num) h

example : ∃ v, conePsd 8 [1, 11/10] [(10000, 1)] 90000 1 (11/10) 3 = some v ∧
    ∀ u ≠ 0, 3 * u ^ 2 < psdFinal u none false (coneTerms v 3) :=
  cone_beyond_cutoff_violation 8 [1, 11/10] 10000 90000 1 (11/10) 3 (by norm_num) (by norm_num)
    (by intro f hf; fin_cases hf <;> norm_num) (by simp) (by norm_num) (by norm_num) (by norm_num) (by norm_num) (by norm_num)
    (by norm_num) (by norm_num)

/-- Lasers at 30 arcsec from the axis and 90 km, telescope of 8 m: they cover together a field of 41.6 arcsec. -/
noncomputable def demo : Lasers := ⟨30, 90000, 8, 206265, [(0, 1/2), (12000, 1/2)], 2, 8⟩

example : 0 < demo.eFoV ∧ demo.psd 20 1 3 1 = 0 := by
  have : demo.eFoV = 41.6653333333333333333333333 + 1/3 * 1e-25 := by unfold demo Lasers.eFoV; norm_num
  have h : 0 < demo.eFoV := by rw [this]; norm_num
  exact ⟨h, lasers_inside demo 20 1 3 1 h (by rw [this]; norm_num)⟩

example : windVar ({0, 1, 2} : Finset ℕ) (fun i => if i = 0 then 0 else 1/2) (fun _ => 1) (fun i => decide (i < 2)) 4 2 = some 3 := by
  rw [(windVar_share_partial _ _ _ _ 4 2 (by norm_num) (by norm_num) (by intro i _; split_ifs <;> norm_num) (by norm_num)
    (by norm_num [Finset.sum_insert])).1]
  have : (({0, 1, 2} : Finset ℕ).filter fun i => decide (i < 2) = true) = {0, 1} := by decide
  rw [this]
  norm_num [Finset.sum_insert]

/-! ### Cases that meet the hypotheses -/

/-- A case meeting the hypotheses of `conePsd_ground`. -/
example : ∃ v, conePsd 8 [1/16, 1/8] [(0, 1)] 90000 2 (1/8) 3 = some v ∧ v = 0 := by
  obtain ⟨v, h⟩ := conePsd_defined_partial 8 [1/16, 1/8] [(0, 1)] 90000 2 (1/8) 3 (by norm_num) (by intro f hf; fin_cases hf <;> norm_num)
    (by intro l hl; fin_cases hl; norm_num)
  exact ⟨v, h, conePsd_ground 8 _ _ _ _ _ _ v (by simp) (by norm_num) (by simp) (by norm_num) h⟩

/-- A case meeting the hypotheses of `cone_far_partial`. -/
example : ∃ v, conePsd 8 [1, 2, 3] [(0, 1/2), (10000, 1/2)] 90000 1 5 3 = some v ∧ v = 0 := by
  obtain ⟨v, h⟩ := conePsd_defined_partial 8 [1, 2, 3] [(0, 1/2), (10000, 1/2)] 90000 1 5 3 (by norm_num)
    (by intro f hf; fin_cases hf <;> norm_num) (by intro l hl; fin_cases hl <;> norm_num)
  exact ⟨v, h, cone_far_partial 8 _ _ _ _ 3 _ _ v (by norm_num) (by simp) (by intro l hl; fin_cases hl <;> norm_num) (by norm_num) h⟩

/-- A case meeting the hypotheses of `lasers_radial`. -/
example : demo.psd 22 1 3 1 ≤ demo.psd 28 1 3 1 :=
  (lasers_radial demo 22 28 1 3 1 (by norm_num [demo]) (by norm_num [demo]) (by norm_num [demo]) (by norm_num [demo]) (by norm_num)).1
    (by norm_num [demo])

/-- A case meeting the hypotheses of `windVar_violation`. -/
example : ∃ v, windVar ({0, 1, 2} : Finset ℕ) (fun i => if i = 0 then 0 else 1/2) (fun _ => 1) (fun i => decide (i < 2)) 4 2 = some v ∧ v < 4 :=
  windVar_violation _ _ _ _ 4 2 (by norm_num) (by norm_num) (by intro i _; split_ifs <;> norm_num) (by norm_num) 2 (by simp) (by simp)
    (by norm_num) (by norm_num)

/-! ### Cases that meet the hypotheses -/

/-- A case meeting the hypotheses of `cone_at_laser_violation`. -/
example : conePsd 8 [0, 1/8, 1] [(90000, 1)] 90000 1 (1/2) 3 = none :=
  cone_at_laser_violation 8 _ 90000 1 (1/2) 3 1 (by norm_num) (by simp) (by norm_num)

/-- A case meeting the hypotheses of `lasers_bound`. -/
example : 2 + (Lasers.psd ⟨45, 90000, 8, 206265, [(0, 0.7), (10000, 0.3)], 1, 4⟩ 30 (1/2) 3 2) ≤ max 2 3 :=
  (lasers_bound ⟨45, 90000, 8, 206265, [(0, 0.7), (10000, 0.3)], 1, 4⟩ 30 (1/2) 3 2 (by norm_num)
    (by intro x hx; fin_cases hx <;> norm_num) (by norm_num)).2

end P3.Cone
