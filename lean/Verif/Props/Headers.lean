import Verif.Model.Headers
import Verif.Props.Download
import Mathlib.Tactic.Linarith
import Mathlib.Tactic.NormNum
import Mathlib.Tactic.Positivity
import Mathlib.Algebra.Order.BigOperators.Group.List

/-! C445: precision of the Fourier model; C447: values read in headers. -/

namespace P3.Headers

open P3.Sphere (Name Hdr split)

/-! ### C447 -/

/-- C447: the identifier of an observation has no underscore, and ends the name after its last underscore, if any. -/
theorem obsId_spec (name : Name) :
    '_' ∉ obsId name ∧ (name = obsId name ∨ ∃ p, name = p ++ '_' :: obsId name) := by
  by_cases h : '_' ∈ name
  · obtain ⟨p, x, rfl, hx⟩ : ∃ p x : Name, name = p ++ '_' :: x ∧ '_' ∉ x := by
      induction name with
      | nil => cases h
      | cons a t ih =>
        by_cases ht : '_' ∈ t
        · obtain ⟨p, x, rfl, hx⟩ := ih ht
          exact ⟨a :: p, x, rfl, hx⟩
        · have : a = '_' := by
            rcases List.mem_cons.mp h with h | h
            · exact h.symm
            · exact absurd h ht
          exact ⟨[], t, by rw [this]; rfl, ht⟩
    have e : obsId (p ++ '_' :: x) = x := by
      unfold obsId
      rw [P3.Download.split_join, P3.Download.split_plain _ _ hx]
      simp
    rw [e]
    exact ⟨hx, Or.inr ⟨p, rfl⟩⟩
  · have e : obsId name = name := by
      unfold obsId
      rw [P3.Download.split_plain _ _ h]
      simp
    rw [e]
    exact ⟨h, Or.inl rfl⟩

theorem foldl_max (l : List ℝ) : ∀ a : ℝ, a ≤ l.foldl max a ∧ (∀ x ∈ l, x ≤ l.foldl max a) ∧ (l.foldl max a = a ∨ l.foldl max a ∈ l) := by
  induction l with
  | nil => intro a; simp
  | cons b t ih =>
    intro a
    obtain ⟨h1, h2, h3⟩ := ih (max a b)
    simp only [List.foldl_cons]
    refine ⟨(le_max_left a b).trans h1, ?_, ?_⟩
    · intro x hx
      rcases List.mem_cons.mp hx with rfl | hx
      · exact (le_max_right a x).trans h1
      · exact h2 x hx
    · rcases h3 with h3 | h3
      · rw [h3]
        rcases max_choice a b with h | h
        · exact Or.inl h
        · exact Or.inr (by rw [h]; exact List.mem_cons_self ..)
      · exact Or.inr (List.mem_cons_of_mem _ h3)

theorem foldl_min (l : List ℝ) : ∀ a : ℝ, l.foldl min a ≤ a ∧ (∀ x ∈ l, l.foldl min a ≤ x) ∧ (l.foldl min a = a ∨ l.foldl min a ∈ l) := by
  induction l with
  | nil => intro a; simp
  | cons b t ih =>
    intro a
    obtain ⟨h1, h2, h3⟩ := ih (min a b)
    simp only [List.foldl_cons]
    refine ⟨h1.trans (min_le_left a b), ?_, ?_⟩
    · intro x hx
      rcases List.mem_cons.mp hx with rfl | hx
      · exact h1.trans (min_le_right a x)
      · exact h2 x hx
    · rcases h3 with h3 | h3
      · rw [h3]
        rcases min_choice a b with h | h
        · exact Or.inl h
        · exact Or.inr (by rw [h]; exact List.mem_cons_self ..)
      · exact Or.inr (List.mem_cons_of_mem _ h3)

/-- C447: the wavelength is the mean of those of the file, in metres; it lies between the shortest and the longest, and
the bandwidth is the distance between these two: it is never negative, and zero exactly for a single wavelength. -/
theorem wavelength_spec (l : List ℝ) (hl : l ≠ []) :
    ∃ w b lo hi, wavelength l = some (w, b) ∧ lo ∈ l ∧ hi ∈ l ∧ (∀ x ∈ l, lo ≤ x ∧ x ≤ hi) ∧
      w * 1e6 * l.length = l.sum ∧ b * 1e6 = hi - lo ∧ lo ≤ w * 1e6 ∧ w * 1e6 ≤ hi ∧ (b = 0 ↔ ∀ x ∈ l, ∀ y ∈ l, x = y) := by
  obtain ⟨a0, t0, rfl⟩ := List.exists_cons_of_ne_nil hl
  set m := (a0 :: t0).map (1e-6 * · : ℝ → ℝ) with hm
  have hmc : m = 1e-6 * a0 :: t0.map (1e-6 * ·) := rfl
  obtain ⟨M1, M2, M3⟩ := foldl_max m (1e-6 * a0)
  obtain ⟨N1, N2, N3⟩ := foldl_min m (1e-6 * a0)
  have hmem : (1e-6 * a0) ∈ m := by rw [hmc]; exact List.mem_cons_self ..
  have M4 : m.foldl max (1e-6 * a0) ∈ m := by rcases M3 with h | h; rw [h]; exact hmem; exact h
  have N4 : m.foldl min (1e-6 * a0) ∈ m := by rcases N3 with h | h; rw [h]; exact hmem; exact h
  obtain ⟨hi, hhi, ehi⟩ := List.mem_map.mp M4
  obtain ⟨lo, hlo, elo⟩ := List.mem_map.mp N4
  have hb : ∀ x ∈ a0 :: t0, lo ≤ x ∧ x ≤ hi := by
    intro x hx
    have h1 := M2 _ (List.mem_map_of_mem (f := (1e-6 * · : ℝ → ℝ)) hx)
    have h2 := N2 _ (List.mem_map_of_mem (f := (1e-6 * · : ℝ → ℝ)) hx)
    rw [← ehi] at h1
    rw [← elo] at h2
    constructor
    · exact le_of_mul_le_mul_left h2 (by norm_num)
    · exact le_of_mul_le_mul_left h1 (by norm_num)
  have hsum : m.sum = 1e-6 * (a0 :: t0).sum := by rw [hm, List.sum_map_mul_left]; simp
  have hlen : m.length = (a0 :: t0).length := by rw [hm, List.length_map]
  have hpos : (0:ℝ) < (a0 :: t0).length := by simp only [List.length_cons]; positivity
  have hw : m.sum / m.length * 1e6 * (a0 :: t0).length = (a0 :: t0).sum := by
    rw [hsum, hlen, div_mul_eq_mul_div, div_mul_cancel₀ _ hpos.ne']; ring
  have hS1 : (a0 :: t0).sum ≤ (a0 :: t0).length * hi := by
    have := List.sum_le_card_nsmul (a0 :: t0) hi (fun x hx => (hb x hx).2)
    simpa using this
  have hS2 : (a0 :: t0).length * lo ≤ (a0 :: t0).sum := by
    have := List.card_nsmul_le_sum (a0 :: t0) lo (fun x hx => (hb x hx).1)
    simpa using this
  refine ⟨m.sum / m.length, m.foldl max (1e-6 * a0) - m.foldl min (1e-6 * a0), lo, hi, rfl, hlo, hhi, hb, hw, ?_, ?_, ?_, ?_⟩
  · rw [← ehi, ← elo]; ring
  · by_contra hc
    push Not at hc
    have := mul_lt_mul_of_pos_right hc hpos
    rw [hw] at this
    linarith
  · by_contra hc
    push Not at hc
    have := mul_lt_mul_of_pos_right hc hpos
    rw [hw] at this
    linarith
  · rw [← ehi, ← elo]
    constructor
    · intro h x hx y hy
      have e : hi = lo := by
        have : (1e-6:ℝ) * (hi - lo) = 0 := by linarith
        rcases mul_eq_zero.mp this with h | h
        · norm_num at h
        · linarith
      have h1 := hb x hx
      have h2 := hb y hy
      linarith [h1.1, h1.2, h2.1, h2.2]
    · intro h
      rw [h hi hhi lo hlo]; ring

/-- C447: the airmass is half way between those of the start and of the end, whatever their order; a header without one
of the values is refused. -/
theorem pointing_spec (h : Hdr) :
    (∀ az alt e s, h "ESO TEL AZ" = some az → h "ESO TEL ALT" = some alt → h "ESO TEL AIRM END" = some e →
      h "ESO TEL AIRM START" = some s →
      ∃ x, pointing h = .ok (az, alt, x) ∧ x - s = e - x ∧ min s e ≤ x ∧ x ≤ max s e) ∧
    ((h "ESO TEL AZ" = none ∨ h "ESO TEL ALT" = none ∨ h "ESO TEL AIRM END" = none ∨ h "ESO TEL AIRM START" = none) →
      pointing h = .error .keyError) := by
  constructor
  · intro az alt e s h1 h2 h3 h4
    refine ⟨0.5 * (e + s), by simp only [pointing, h1, h2, h3, h4], by ring, ?_, ?_⟩
    · rcases le_total s e with h | h
      · rw [min_eq_left h]; linarith
      · rw [min_eq_right h]; linarith
    · rcases le_total s e with h | h
      · rw [max_eq_right h]; linarith
      · rw [max_eq_left h]; linarith
  · intro hn
    unfold pointing
    split
    · next az alt e s h1 h2 h3 h4 =>
      rw [h1, h2, h3, h4] at hn
      simp at hn
    · rfl

/-- C447: the coordinates of the star and of the Moon are those of the header, in this order. -/
theorem coordinates_spec (h : Hdr) (a d : ℝ) :
    (star h = .ok (a, d) ↔ h "RA" = some a ∧ h "DEC" = some d) ∧
    (moon h = .ok (a, d) ↔ h "ESO TEL MOON RA" = some a ∧ h "ESO TEL MOON DEC" = some d) := by
  constructor
  · unfold star
    cases h "RA" <;> cases h "DEC" <;> simp
  · unfold moon
    cases h "ESO TEL MOON RA" <;> cases h "ESO TEL MOON DEC" <;> simp

example : wavelength [1.593, 1.667] ≠ none ∧ obsId "GJ_1234".toList = "1234".toList := by
  constructor
  · simp [wavelength]
  · decide

/-! ### C445 -/

/-- C445: whatever the calls, real and complex numbers have the same precision, which is the last one asked for by a
name that is known; an unknown name raises and changes nothing. -/
theorem precision_pair (m : Fm) (h : m.dtype = m.cdtype) (l : List Call) :
    (run m l).dtype = (run m l).cdtype ∧
    ∀ s, (named s = none → setPrecision (run m l) s = (run m l, true)) ∧
      ∀ p, named s = some p → (setPrecision (run m l) s).1.dtype = p ∧ (setPrecision (run m l) s).1.cdtype = p ∧
        (setPrecision (run m l) s).2 = false := by
  constructor
  · induction l generalizing m with
    | nil => exact h
    | cons c l ih =>
      cases c with
      | set s =>
        refine ih _ ?_
        unfold setPrecision
        split
        · rfl
        · exact h
      | compute => exact ih _ h
  · intro s
    refine ⟨fun hs => by simp [setPrecision, hs], fun p hp => by simp [setPrecision, hp]⟩

/-- C445 (partial): a precision set before the computations is the one of the grid, and the memory announced for it is
the memory it takes. -/
theorem precision_partial (s0 s : String) (m : Fm) (hm : create s0 = some m) (p : Prec) (hp : named s = some p) (n : ℕ) :
    (compute (setPrecision m s).1).grid = some p ∧ announced (compute (setPrecision m s).1) n = taken p n := by
  unfold create at hm
  simp only [Option.map_eq_some_iff] at hm
  obtain ⟨q, -, rfl⟩ := hm
  simp [setPrecision, hp, compute, announced, taken]

/-- C445 (violation): once there is a grid it keeps its precision, whatever the calls; after `single` is asked of a
model computed in double precision the memory announced for the grid is half of what it takes. -/
theorem precision_violation (m : Fm) (q : Prec) (hg : m.grid = some q) :
    (∀ l, (run m l).grid = some q) ∧
    ∀ n, q = .double → 2 * announced (run m [.set "single", .compute]) n = taken q n := by
  have main : ∀ (l : List Call) (m : Fm), m.grid = some q → (run m l).grid = some q := by
    intro l
    induction l with
    | nil => intro m h; exact h
    | cons c l ih =>
      intro m h
      cases c with
      | set s =>
        refine ih _ ?_
        unfold setPrecision
        split <;> exact h
      | compute => exact ih _ (by simp [compute, h])
  refine ⟨fun l => main l m hg, fun n hq => ?_⟩
  subst hq
  simp [run, setPrecision, named, compute, announced, taken, Prec.bytes]
  ring

theorem run_maps (m : Fm) (l : List Call) : (run m l).maps = m.maps := by
  induction l generalizing m with
  | nil => rfl
  | cons c l ih =>
    cases c with
    | set s =>
      rw [run, ih]
      unfold setPrecision
      split <;> rfl
    | compute => rw [run, ih]; rfl

/-- C445 (violation): the maps of the telescope keep the precision of the parameter file, which is that of the new model. -/
theorem maps_violation (s0 : String) (q : Prec) (m : Fm) (hm : create s0 = some m) (hq : named s0 = some q) (l : List Call) :
    (run m l).maps = q ∧ m.dtype = q ∧ m.cdtype = q ∧ m.grid = none := by
  have e : m = ⟨q, q, q, none⟩ := by
    unfold create at hm
    rw [hq] at hm
    exact (Option.some.inj hm).symm
  subst e
  exact ⟨run_maps _ l, rfl, rfl, rfl⟩

example : ∃ m, create "double" = some m ∧ (compute m).grid = some .double ∧ named "single" = some .single ∧ named "half" = none := by
  refine ⟨_, rfl, rfl, rfl, rfl⟩

end P3.Headers
