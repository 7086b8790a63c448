import Verif.Model.Layers
import Mathlib.Tactic.Linarith
import Mathlib.Data.List.GetD
import Mathlib.Tactic.Positivity
import Mathlib.Tactic.NormNum
import Mathlib.Tactic.Ring
import Mathlib.Tactic.FieldSimp
import Mathlib.Algebra.BigOperators.Group.List.Lemmas
/-
Properties C32 (compression of the profile) and C79 (winds of the compressed layers).
-/
namespace P3.Layers

theorem slice_length {α : Type} (l : List α) (a b : ℕ) (h : b ≤ l.length) : (slice l a b).length = b - a := by
  unfold slice; rw [List.length_drop, List.length_take, min_eq_left h]

theorem slice_append {α : Type} (l : List α) (a b c : ℕ) (h : a ≤ b) (h' : b ≤ c) :
    slice l a b ++ slice l b c = slice l a c := by
  unfold slice
  by_cases hb : b ≤ l.length
  · have e : l.take c = l.take b ++ (l.take c).drop b := by
      conv_lhs => rw [← List.take_append_drop b (l.take c)]
      rw [List.take_take, min_eq_left h']
    conv_rhs => rw [e]
    rw [List.drop_append_of_le_length (by rw [List.length_take]; omega)]
  · have hb' : l.length ≤ b := by omega
    rw [List.take_of_length_le hb', List.take_of_length_le (by omega : l.length ≤ c), List.drop_of_length_le hb',
      List.append_nil]

theorem slice_zero {α : Type} (l : List α) : slice l 0 l.length = l := by
  unfold slice; simp

/-- The positions in closed form: multiples of `⌊n/e⌋`, then the number of altitudes. -/
def pos (nCn2 nAlt nEq i : ℕ) : ℕ := if i < nEq then i * (nCn2 / nEq) else nAlt

/-- The positions increase, so the repair loop of the code changes nothing. -/
theorem pos_lt (n m e i : ℕ) (h1 : 1 ≤ e) (h : e ≤ n) (hm : n ≤ m) (hi : i < e) :
    pos n m e i < pos n m e (i + 1) := by
  have q : 1 ≤ n / e := (Nat.one_le_div_iff (by omega)).2 h
  have qe : n / e * e ≤ n := Nat.div_mul_le_self n e
  unfold pos
  rw [if_pos hi]
  split_ifs with h2
  · rw [Nat.add_mul]; omega
  · have : i + 1 = e := by omega
    have : i * (n / e) + n / e = e * (n / e) := by rw [← this, Nat.add_mul, Nat.one_mul]
    rw [Nat.mul_comm] at qe
    omega

theorem repair_noop (e q : ℕ) (hq : 1 ≤ q) :
    repair e ((List.range e).map (· * q)) = (List.range e).map (· * q) := by
  unfold repair
  suffices ∀ is : List ℕ, (∀ i ∈ is, i + 1 < e) →
      is.foldl repairStep ((List.range e).map (· * q)) = (List.range e).map (· * q) from
    this _ (by intro i hi; rw [List.mem_range] at hi; omega)
  intro is
  induction is with
  | nil => intro _; rfl
  | cons a t ih =>
    intro h
    have ha := h a List.mem_cons_self
    have s : repairStep ((List.range e).map (· * q)) a = (List.range e).map (· * q) := by
      unfold repairStep
      rw [if_neg]
      rw [List.getD_eq_getElem _ _ (by simpa using ha), List.getD_eq_getElem _ _ (by simp; omega)]
      simp only [List.getElem_map, List.getElem_range, Nat.add_mul]
      omega
    rw [List.foldl_cons, s]
    exact ih fun i hi => h i (List.mem_cons_of_mem _ hi)

/-- The closed form is what the code computes. -/
theorem posSlab_eq (n m e i : ℕ) (h1 : 1 ≤ e) (h : e ≤ n) (hi : i ≤ e) : posSlab n m e i = pos n m e i := by
  have q : 1 ≤ n / e := (Nat.one_le_div_iff (by omega)).2 h
  unfold posSlab pos
  rw [repair_noop e _ q]
  split_ifs with h2
  · rw [List.getD_append _ _ _ _ (by simpa using h2), List.getD_eq_getElem _ _ (by simpa using h2)]
    simp
  · obtain rfl : i = e := by omega
    rw [List.getD_append_right _ _ _ _ (by simp)]
    simp

/-- Specification of the grouping: consecutive groups of `⌊n/e⌋` layers, the last one taking the rest. -/
def groups {α : Type} (l : List α) (e : ℕ) : List (List α) :=
  (List.range e).map (fun i => if i + 1 < e then (l.drop (i * (l.length / e))).take (l.length / e)
    else l.drop (i * (l.length / e)))

theorem slice_eq_group {α : Type} (l : List α) (e i : ℕ) (hi : i < e) :
    slice l (pos l.length l.length e i) (pos l.length l.length e (i + 1)) =
      if i + 1 < e then (l.drop (i * (l.length / e))).take (l.length / e) else l.drop (i * (l.length / e)) := by
  unfold slice pos
  rw [if_pos hi]
  split_ifs with h
  · rw [List.drop_take, Nat.add_mul, Nat.one_mul, Nat.add_sub_cancel_left]
  · rw [List.take_length]

/-- The groups put end to end are the whole profile: nothing is lost, repeated or reordered. -/
theorem groups_flatten {α : Type} (l : List α) (e : ℕ) (h1 : 1 ≤ e) (h : e ≤ l.length) :
    (groups l e).flatten = l := by
  have key : ∀ k ≤ e, (((List.range k).map fun i => slice l (pos l.length l.length e i)
      (pos l.length l.length e (i + 1)))).flatten = slice l 0 (pos l.length l.length e k) := by
    intro k hk
    induction k with
    | zero => simp [pos, slice, show 0 < e by omega]
    | succ k ih =>
      rw [List.range_succ, List.map_append, List.flatten_append, ih (by omega)]
      simp only [List.map_cons, List.map_nil, List.flatten_cons, List.flatten_nil, List.append_nil]
      exact slice_append _ _ _ _ (Nat.zero_le _) (pos_lt _ _ _ _ h1 h le_rfl (by omega)).le
  have e1 : groups l e = (List.range e).map fun i => slice l (pos l.length l.length e i)
      (pos l.length l.length e (i + 1)) := by
    unfold groups
    apply List.map_congr_left
    intro i hi
    exact (slice_eq_group l e i (List.mem_range.1 hi)).symm
  rw [e1, key e le_rfl]
  simp [pos, slice]

theorem zipWith_slice (f : ℝ → ℝ → ℝ) (l m : List ℝ) (a b : ℕ) :
    List.zipWith f (slice l a b) (slice m a b) = slice (List.zipWith f l m) a b := by
  unfold slice
  rw [List.take_zipWith, List.drop_zipWith]

theorem sum_slices (l : List ℝ) (e : ℕ) (h1 : 1 ≤ e) (h : e ≤ l.length) :
    ((List.range e).map fun i => (slice l (pos l.length l.length e i)
      (pos l.length l.length e (i + 1))).sum).sum = l.sum := by
  conv_rhs => rw [← groups_flatten l e h1 h, List.sum_flatten]
  unfold groups
  rw [List.map_map]
  congr 1
  apply List.map_congr_left
  intro i hi
  rw [slice_eq_group l e i (List.mem_range.1 hi)]
  rfl

theorem eqLayers_ok (cn2 alt : List ℝ) (e : ℕ) (p : ℝ) (out : List (ℝ × ℝ)) (h : eqLayers cn2 alt e p = .ok out) :
    e ≤ cn2.length ∧ out = (List.range e).map (fun i =>
      (slabCn2 cn2 (pos cn2.length alt.length e i) (pos cn2.length alt.length e (i + 1)),
       slabAlt cn2 alt p (pos cn2.length alt.length e i) (pos cn2.length alt.length e (i + 1)))) ∧
    ∀ i < e, slabCn2 cn2 (pos cn2.length alt.length e i) (pos cn2.length alt.length e (i + 1)) ≠ 0 := by
  unfold eqLayers at h
  split_ifs at h with h1
  simp only at h
  split_ifs at h with h2
  refine ⟨by omega, ?_, ?_⟩
  · injection h with h
    rw [← h, List.map_map]
    apply List.map_congr_left
    intro i hi
    rw [List.mem_range] at hi
    simp only [Function.comp]
    rw [posSlab_eq _ _ _ _ (by omega) (by omega) (by omega), posSlab_eq _ _ _ _ (by omega) (by omega) (by omega)]
  · intro i hi h0
    rw [← posSlab_eq _ _ _ _ (by omega) (by omega) (by omega),
      ← posSlab_eq _ _ _ _ (by omega) (by omega) (by omega)] at h0
    exact h2 ⟨_, List.mem_map.2 ⟨i, List.mem_range.2 hi, rfl⟩, h0⟩

/-- C32: asking for more layers than available is refused, with `ValueError`, and this is the only way to be
refused. -/
theorem eqLayers_refused_iff (cn2 alt : List ℝ) (e : ℕ) (p : ℝ) :
    eqLayers cn2 alt e p = .error .tooMany ↔ cn2.length < e := by
  unfold eqLayers
  constructor
  · intro h
    by_contra hn
    rw [if_neg hn] at h
    simp only at h
    split_ifs at h
    cases h
  · intro h; rw [if_pos h]

/-- C32: compression is defined for every profile with positive strengths. -/
theorem eqLayers_defined (cn2 alt : List ℝ) (e : ℕ) (p : ℝ) (hl : alt.length = cn2.length) (h : e ≤ cn2.length)
    (hpos : ∀ c ∈ cn2, 0 < c) : ∃ out, eqLayers cn2 alt e p = .ok out := by
  unfold eqLayers
  rw [if_neg (by omega)]
  simp only
  rw [if_neg]
  · exact ⟨_, rfl⟩
  · rintro ⟨s, hs, h0⟩
    rw [List.mem_map] at hs
    obtain ⟨i, hi, rfl⟩ := hs
    rw [List.mem_range] at hi
    rw [posSlab_eq _ _ _ _ (by omega) (by omega) (by omega),
      posSlab_eq _ _ _ _ (by omega) (by omega) (by omega)] at h0
    have hlt := pos_lt cn2.length alt.length e i (by omega) h (by omega) hi
    have hle : pos cn2.length alt.length e (i + 1) ≤ cn2.length := by
      unfold pos
      split_ifs with h2
      · calc (i + 1) * (cn2.length / e) ≤ e * (cn2.length / e) := Nat.mul_le_mul_right _ (by omega)
          _ ≤ cn2.length := Nat.mul_div_le _ _
      · omega
    simp only at h0
    have : 0 < slabCn2 cn2 (pos cn2.length alt.length e i) (pos cn2.length alt.length e (i + 1)) := by
      unfold slabCn2
      apply List.sum_pos
      · intro x hx
        exact hpos x (List.mem_of_mem_take (List.mem_of_mem_drop hx))
      · intro hnil
        have := slice_length cn2 (pos cn2.length alt.length e i) _ hle
        rw [hnil] at this
        simp only [List.length_nil] at this
        omega
    linarith

/-- C32: the compressed profile has the requested number of layers and the same total strength; layer `i` is
made of the `i`-th group of consecutive layers. -/
theorem eqLayers_total (cn2 alt : List ℝ) (e : ℕ) (p : ℝ) (out : List (ℝ × ℝ)) (hl : alt.length = cn2.length)
    (h1 : 1 ≤ e) (h : eqLayers cn2 alt e p = .ok out) :
    out.length = e ∧ (out.map Prod.fst).sum = cn2.sum ∧ out.map Prod.fst = (groups cn2 e).map List.sum := by
  obtain ⟨he, rfl, -⟩ := eqLayers_ok cn2 alt e p out h
  refine ⟨by simp, ?_, ?_⟩
  · rw [List.map_map, hl]
    exact sum_slices cn2 e h1 he
  · rw [List.map_map, hl]
    unfold groups
    rw [List.map_map]
    apply List.map_congr_left
    intro i hi
    simp only [Function.comp]
    unfold slabCn2
    rw [slice_eq_group cn2 e i (List.mem_range.1 hi)]

/-- C32: the altitude moment of the turbulence is conserved. -/
theorem eqLayers_moment (cn2 alt : List ℝ) (e : ℕ) (p : ℝ) (out : List (ℝ × ℝ)) (hl : alt.length = cn2.length)
    (h1 : 1 ≤ e) (hp : 0 < p) (hc : ∀ c ∈ cn2, 0 ≤ c) (ha : ∀ a ∈ alt, 0 ≤ a)
    (h : eqLayers cn2 alt e p = .ok out) :
    (out.map (fun l => l.2 ^ p * l.1)).sum = (List.zipWith (fun h c => h ^ p * c) alt cn2).sum := by
  obtain ⟨he, rfl, hne⟩ := eqLayers_ok cn2 alt e p out h
  have hz : (List.zipWith (fun h c => h ^ p * c) alt cn2).length = cn2.length := by
    rw [List.length_zipWith]; omega
  have hs := sum_slices (List.zipWith (fun h c => h ^ p * c) alt cn2) e h1 (by omega)
  rw [← hs, List.map_map, hz, hl]
  congr 1
  apply List.map_congr_left
  intro i hi
  rw [List.mem_range] at hi
  simp only [Function.comp]
  have hne' := hne i hi
  rw [hl] at hne'
  unfold slabAlt
  rw [zipWith_slice]
  have hnn : 0 ≤ (slice (List.zipWith (fun h c => h ^ p * c) alt cn2) (pos cn2.length cn2.length e i)
      (pos cn2.length cn2.length e (i + 1))).sum := by
    apply List.sum_nonneg
    intro x hx
    have hx' := List.mem_of_mem_take (List.mem_of_mem_drop hx)
    rw [← List.map_uncurry_zip_eq_zipWith, List.mem_map] at hx'
    obtain ⟨⟨a, c⟩, hac, rfl⟩ := hx'
    exact mul_nonneg (Real.rpow_nonneg (ha a (List.of_mem_zip hac).1) p) (hc c (List.of_mem_zip hac).2)
  have hsn : 0 ≤ slabCn2 cn2 (pos cn2.length cn2.length e i) (pos cn2.length cn2.length e (i + 1)) := by
    apply List.sum_nonneg
    intro x hx
    exact hc x (List.mem_of_mem_take (List.mem_of_mem_drop hx))
  rw [← Real.rpow_mul (div_nonneg hnn hsn), one_div, inv_mul_cancel₀ hp.ne', Real.rpow_one]
  field_simp

theorem weighted_bounds (p lo hi : ℝ) (hp : 0 ≤ p) (h0 : 0 ≤ lo) (zs : List (ℝ × ℝ))
    (hz : ∀ z ∈ zs, lo ≤ z.1 ∧ z.1 ≤ hi ∧ 0 ≤ z.2) :
    lo ^ p * (zs.map Prod.snd).sum ≤ (zs.map fun z => z.1 ^ p * z.2).sum ∧
    (zs.map fun z => z.1 ^ p * z.2).sum ≤ hi ^ p * (zs.map Prod.snd).sum := by
  induction zs with
  | nil => simp
  | cons z t ih =>
    obtain ⟨a, b, c⟩ := hz z List.mem_cons_self
    obtain ⟨i1, i2⟩ := ih fun z hz' => hz z (List.mem_cons_of_mem _ hz')
    simp only [List.map_cons, List.sum_cons]
    have l1 := mul_le_mul_of_nonneg_right (Real.rpow_le_rpow h0 a hp) c
    have l2 := mul_le_mul_of_nonneg_right (Real.rpow_le_rpow (h0.trans a) b hp) c
    constructor <;> nlinarith

/-- C32: the altitude of each equivalent layer lies between the lowest and the highest layer of its group. -/
theorem eqLayers_altitude (cn2 alt : List ℝ) (e : ℕ) (p : ℝ) (out : List (ℝ × ℝ)) (hl : alt.length = cn2.length)
    (hp : 0 < p) (hc : ∀ c ∈ cn2, 0 ≤ c) (h : eqLayers cn2 alt e p = .ok out) (i : ℕ) (hi : i < e) (lo up : ℝ)
    (h0 : 0 ≤ lo) (hb : ∀ a ∈ (groups alt e).getD i [], lo ≤ a ∧ a ≤ up) :
    lo ≤ (out.getD i (0, 0)).2 ∧ (out.getD i (0, 0)).2 ≤ up := by
  obtain ⟨he, rfl, hne⟩ := eqLayers_ok cn2 alt e p out h
  have hne' := hne i hi
  rw [List.getD_eq_getElem _ _ (by simpa using hi)]
  rw [List.getD_eq_getElem _ _ (by simpa [groups] using hi)] at hb
  simp only [groups, List.getElem_map, List.getElem_range] at hb ⊢
  rw [← slice_eq_group alt e i hi] at hb
  rw [hl] at hb hne' ⊢
  set a := pos cn2.length cn2.length e i
  set b := pos cn2.length cn2.length e (i + 1)
  unfold slabAlt
  have hlen : (slice alt a b).length = (slice cn2 a b).length := by
    unfold slice; simp only [List.length_drop, List.length_take, hl]
  have hsn : 0 < slabCn2 cn2 a b := by
    apply lt_of_le_of_ne _ (Ne.symm hne')
    apply List.sum_nonneg
    intro x hx
    exact hc x (List.mem_of_mem_take (List.mem_of_mem_drop hx))
  have hw := weighted_bounds p lo up hp.le h0 ((slice alt a b).zip (slice cn2 a b)) (by
    rintro ⟨x, y⟩ hxy
    have hx := hb x (List.of_mem_zip hxy).1
    exact ⟨hx.1, hx.2, hc y (List.mem_of_mem_take (List.mem_of_mem_drop (List.of_mem_zip hxy).2))⟩)
  rw [List.map_snd_zip (by omega)] at hw
  have e1 : ((slice alt a b).zip (slice cn2 a b)).map (fun z => z.1 ^ p * z.2) =
      List.zipWith (fun h c => h ^ p * c) (slice alt a b) (slice cn2 a b) := by
    rw [← List.map_uncurry_zip_eq_zipWith]; rfl
  rw [e1] at hw
  change lo ^ p * slabCn2 cn2 a b ≤ _ ∧ _ ≤ up ^ p * slabCn2 cn2 a b at hw
  set S := (List.zipWith (fun h c => h ^ p * c) (slice alt a b) (slice cn2 a b)).sum
  have d1 : lo ^ p ≤ S / slabCn2 cn2 a b := by rw [le_div_iff₀ hsn]; exact hw.1
  have d2 : S / slabCn2 cn2 a b ≤ up ^ p := by rw [div_le_iff₀ hsn]; exact hw.2
  have hlu : lo ≤ up := by
    rcases hsl : slice alt a b with _ | ⟨x, t⟩
    · exfalso
      have : slice cn2 a b = [] := List.length_eq_zero_iff.1 (by rw [← hlen, hsl]; rfl)
      unfold slabCn2 at hsn
      rw [this] at hsn
      simp at hsn
    · have := hb x (by rw [hsl]; exact List.mem_cons_self)
      exact this.1.trans this.2
  have q : 0 ≤ 1 / p := by positivity
  have r1 := Real.rpow_le_rpow (Real.rpow_nonneg h0 p) d1 q
  have r2 := Real.rpow_le_rpow ((Real.rpow_nonneg h0 p).trans d1) d2 q
  rw [← Real.rpow_mul h0, one_div, mul_inv_cancel₀ hp.ne', Real.rpow_one] at r1
  rw [← Real.rpow_mul (h0.trans hlu), one_div, mul_inv_cancel₀ hp.ne', Real.rpow_one] at r2
  rw [one_div]
  exact ⟨r1, r2⟩

/-- Non-vacuity: five layers compressed to two: groups of two and three. -/
example : ∃ out, eqLayers [0.5, 0.2, 0.1, 0.1, 0.1] [0, 1000, 4000, 8000, 16000] 2 (5/3) = .ok out ∧
    out.map Prod.fst = [0.7, 0.3] := by
  obtain ⟨out, h⟩ := eqLayers_defined [0.5, 0.2, 0.1, 0.1, 0.1] [0, 1000, 4000, 8000, 16000] 2 (5/3) (by simp)
    (by simp) (by intro c hc; simp only [List.mem_cons, List.not_mem_nil, or_false] at hc; rcases hc with rfl | rfl | rfl | rfl | rfl <;> norm_num)
  refine ⟨out, h, ?_⟩
  rw [(eqLayers_total [0.5, 0.2, 0.1, 0.1, 0.1] [0, 1000, 4000, 8000, 16000] 2 (5/3) out (by simp) (by norm_num) h).2.2]
  norm_num [groups, List.range_succ]

/-! ### C79: winds of the modelled layers -/

/-- C79 (part): the winds of the modelled layers are as many as the layers, between the smallest and the largest
wind, both of which are reached for two layers or more. Missing: they are unrelated to the layers of the group,
see `windMod_violation`. -/
theorem windMod_partial (lo hi : ℝ) (n : ℕ) (h : lo ≤ hi) :
    (windMod lo hi n).length = n ∧ (∀ w ∈ windMod lo hi n, lo ≤ w ∧ w ≤ hi) ∧
    (2 ≤ n → (windMod lo hi n).getD 0 0 = lo ∧ (windMod lo hi n).getD (n - 1) 0 = hi) := by
  unfold windMod
  refine ⟨by simp, ?_, ?_⟩
  · intro w hw
    rw [List.mem_map] at hw
    obtain ⟨i, hi', rfl⟩ := hw
    rw [List.mem_range] at hi'
    unfold linspace
    split_ifs with h1
    · exact ⟨le_rfl, h⟩
    · have n0 : (0:ℝ) < n - 1 := by
        have : (1:ℝ) < n := by exact_mod_cast (by omega : 1 < n)
        linarith
      have i0 : (0:ℝ) ≤ i := Nat.cast_nonneg i
      have i1 : (i:ℝ) ≤ n - 1 := by
        have : ((i + 1 : ℕ):ℝ) ≤ n := by exact_mod_cast hi'
        push_cast at this; linarith
      have s0 : 0 ≤ (hi - lo) / (n - 1) := div_nonneg (by linarith) n0.le
      have s1 : (n - 1 : ℝ) * ((hi - lo) / (n - 1)) = hi - lo := by field_simp
      constructor
      · nlinarith
      · have := mul_le_mul_of_nonneg_right i1 s0
        linarith
  · intro h2
    rw [List.getD_eq_getElem _ _ (by simp; omega), List.getD_eq_getElem _ _ (by simp; omega)]
    simp only [List.getElem_map, List.getElem_range]
    unfold linspace
    rw [if_neg (by omega), if_neg (by omega)]
    have n0 : (n:ℝ) - 1 ≠ 0 := by
      have : (1:ℝ) < n := by exact_mod_cast (by omega : 1 < n)
      linarith
    refine ⟨by simp, ?_⟩
    rw [Nat.cast_sub (by omega)]
    push_cast
    field_simp
    ring

/-- C79 (violation): strong wind at the ground, weak wind above: the two modelled layers get the winds of the
other one. -/
theorem windMod_violation :
    windMod 5 20 2 = [5, 20] ∧ groups [20, 20, 5, (5:ℝ)] 2 = [[20, 20], [5, 5]] := by
  refine ⟨?_, ?_⟩
  · norm_num [windMod, linspace, List.range_succ]
  · simp [groups, List.range_succ]

/-- C79 (violation): whatever the winds, the lowest modelled layer blows at least as strongly as one layer of its group only when the
weakest wind is in that group, and the highest one at most as strongly only when the strongest wind is in its group. -/
theorem windMod_ends_violation (ws : List ℝ) (lo hi : ℝ) (n : ℕ) (hn : 2 ≤ n) (hb : ∀ w ∈ ws, lo ≤ w ∧ w ≤ hi) :
    ((∃ w ∈ (groups ws n).getD 0 [], w ≤ (windMod lo hi n).getD 0 0) ↔ lo ∈ (groups ws n).getD 0 []) ∧
    ((∃ w ∈ (groups ws n).getD (n - 1) [], (windMod lo hi n).getD (n - 1) 0 ≤ w) ↔ hi ∈ (groups ws n).getD (n - 1) []) := by
  have sub : ∀ i, ∀ w ∈ (groups ws n).getD i [], w ∈ ws := by
    intro i w hw
    unfold groups at hw
    rw [List.getD_eq_getElem?_getD, List.getElem?_map] at hw
    by_cases hi : i < n
    · simp [List.getElem?_range hi] at hw
      split_ifs at hw
      · exact List.mem_of_mem_drop (List.mem_of_mem_take hw)
      · exact List.mem_of_mem_drop hw
    · rw [List.getElem?_eq_none (by simpa using hi)] at hw
      simp at hw
  have hlh : lo ≤ hi ∨ ws = [] := by
    cases ws with
    | nil => exact .inr rfl
    | cons w t => exact .inl ((hb w (by simp)).1.trans (hb w (by simp)).2)
  rcases hlh with hlh | rfl
  · obtain ⟨-, -, h⟩ := windMod_partial lo hi n hlh
    obtain ⟨e0, e1⟩ := h hn
    rw [e0, e1]
    constructor
    · constructor
      · rintro ⟨w, hw, hle⟩
        rw [le_antisymm (hb w (sub _ w hw)).1 hle]; exact hw
      · exact fun h => ⟨lo, h, le_rfl⟩
    · constructor
      · rintro ⟨w, hw, hle⟩
        rw [le_antisymm hle (hb w (sub _ w hw)).2]; exact hw
      · exact fun h => ⟨hi, h, le_rfl⟩
  · have no : ∀ i, ∀ w, w ∉ (groups ([] : List ℝ) n).getD i [] := fun i w hw => by simpa using sub i w hw
    constructor
    · constructor
      · rintro ⟨w, hw, -⟩; exact absurd hw (no _ w)
      · exact fun h => absurd h (no _ _)
    · constructor
      · rintro ⟨w, hw, -⟩; exact absurd hw (no _ w)
      · exact fun h => absurd h (no _ _)

example : ∀ w ∈ [20, 20, 5, (5:ℝ)], 5 ≤ w ∧ w ≤ 20 := by
  intro w hw; simp at hw; rcases hw with rfl | rfl <;> norm_num

/-! ### Cases that meet the hypotheses -/

theorem five_layers : ∃ out, eqLayers [0.5, 0.2, 0.1, 0.1, 0.1] [0, 1000, 4000, 8000, 16000] 2 (5/3) = .ok out :=
  eqLayers_defined [0.5, 0.2, 0.1, 0.1, 0.1] [0, 1000, 4000, 8000, 16000] 2 (5/3) (by simp) (by simp) (by norm_num)

/-- A case meeting the hypotheses of `eqLayers_moment`. -/
example : ∃ out, eqLayers [0.5, 0.2, 0.1, 0.1, 0.1] [0, 1000, 4000, 8000, 16000] 2 (5/3) = .ok out ∧
    (out.map (fun l => l.2 ^ (5/3 : ℝ) * l.1)).sum =
      (List.zipWith (fun h c => h ^ (5/3 : ℝ) * c) [0, 1000, 4000, 8000, 16000] [0.5, 0.2, 0.1, 0.1, 0.1]).sum := by
  obtain ⟨out, h⟩ := five_layers
  exact ⟨out, h, eqLayers_moment _ _ 2 (5/3) out (by simp) (by norm_num) (by norm_num) (by norm_num) (by norm_num) h⟩

/-- A case meeting the hypotheses of `eqLayers_altitude`. -/
example : ∃ out, eqLayers [0.5, 0.2, 0.1, 0.1, 0.1] [0, 1000, 4000, 8000, 16000] 2 (5/3) = .ok out ∧
    4000 ≤ (out.getD 1 (0, 0)).2 ∧ (out.getD 1 (0, 0)).2 ≤ 16000 := by
  obtain ⟨out, h⟩ := five_layers
  exact ⟨out, h, eqLayers_altitude _ _ 2 (5/3) out (by simp) (by norm_num) (by norm_num) h 1 (by norm_num) 4000 16000 (by norm_num)
    (by norm_num [groups, List.range_succ])⟩

/-! ### Cases that meet the hypotheses -/

/-- A case meeting the hypotheses of `posSlab_eq`. -/
example : posSlab 10 20 3 2 = pos 10 20 3 2 := posSlab_eq 10 20 3 2 (by norm_num) (by norm_num) (by norm_num)

end P3.Layers
