import Verif.Model.Deep
import Mathlib.Tactic.Linarith
import Mathlib.Tactic.Ring
import Mathlib.Tactic.FieldSimp
import Mathlib.Tactic.NormNum
import Mathlib.Data.List.Nodup
import Mathlib.Algebra.Order.BigOperators.Group.List
/-
Properties C200 to C208.
-/
namespace P3.Deep

/-! ### C200 number of sub-folders -/

theorem firstMin_spec (f : ℕ → ℤ) (l : List ℕ) (hl : l.Pairwise (· < ·)) :
    (firstMin f l = none ↔ l = []) ∧ ∀ b, firstMin f l = some b → b ∈ l ∧ ∀ a ∈ l, f b ≤ f a ∧ (f b = f a → b ≤ a) := by
  induction l with
  | nil => simp [firstMin]
  | cons a t ih =>
    obtain ⟨h1, h2⟩ := ih (List.pairwise_cons.mp hl).2
    have ha := (List.pairwise_cons.mp hl).1
    rw [firstMin]
    cases hf : firstMin f t with
    | none =>
      have := h1.mp hf
      subst this
      simp
    | some b =>
      obtain ⟨hb, hm⟩ := h2 b hf
      have hab := ha b hb
      by_cases hlt : f b < f a
      · simp only [hlt, if_true]
        refine ⟨by simp, fun c hc => ?_⟩
        simp only [Option.some.injEq] at hc; subst hc
        refine ⟨List.mem_cons_of_mem _ hb, fun x hx => ?_⟩
        rcases List.mem_cons.mp hx with rfl | hx
        · exact ⟨hlt.le, fun h => by omega⟩
        · exact hm x hx
      · simp only [hlt, if_false]
        refine ⟨by simp, fun c hc => ?_⟩
        simp only [Option.some.injEq] at hc; subst hc
        refine ⟨by simp, fun x hx => ?_⟩
        rcases List.mem_cons.mp hx with rfl | hx
        · exact ⟨le_rfl, fun _ => le_rfl⟩
        · have := (hm x hx).1
          have := ha x hx
          exact ⟨by omega, fun _ => by omega⟩

/-- `d` is the divisor of `n` closest to `k` among 1, ..., 2k-1, the smaller one if there are two. -/
def IsClosest (n k d : ℕ) : Prop :=
  1 ≤ d ∧ d ∣ n ∧ ∀ e, 1 ≤ e → e < 2 * k → e ∣ n → |(d : ℤ) - k| ≤ |(e : ℤ) - k| ∧ (|(d : ℤ) - k| = |(e : ℤ) - k| → d ≤ e)

/-- **C200**: the number of sub-folders divides the number of files; it is the number asked for if that is a divisor, else the closest
divisor; the data are refused if that is one. -/
theorem chooseSub_spec (n k : ℕ) (hk : 1 ≤ k) :
    (∀ d, chooseSub n k = .ok d → IsClosest n k d ∧ d ≠ 1 ∧ (k ∣ n → d = k)) ∧
    (∀ e, chooseSub n k = .error e → e = .value ∧ IsClosest n k 1) := by
  obtain ⟨d, hd, hcl, hkd⟩ : ∃ d, chooseSub n k = (if d = 1 then .error .value else .ok d) ∧ IsClosest n k d ∧ (k ∣ n → d = k) := by
    rw [chooseSub, if_neg (by omega)]
    refine ⟨_, rfl, ?_, ?_⟩
    · by_cases h : n % k = 0
      · rw [if_pos h]
        refine ⟨hk, Nat.dvd_of_mod_eq_zero h, fun e _ _ _ => ⟨by simp, fun h' => ?_⟩⟩
        simp only [sub_self, abs_zero] at h'
        have := abs_eq_zero.mp h'.symm
        omega
      · rw [if_neg h]
        set l := ((List.range (2 * k)).drop 1).filter fun v => n % v = 0 with hl
        have hs : l.Pairwise (· < ·) := (List.Pairwise.drop List.pairwise_lt_range).filter _
        have hmem : ∀ e, e ∈ l ↔ (1 ≤ e ∧ e < 2 * k) ∧ e ∣ n := by
          intro e
          rw [hl, List.mem_filter, decide_eq_true_eq, Nat.dvd_iff_mod_eq_zero]
          have : e ∈ (List.range (2 * k)).drop 1 ↔ 1 ≤ e ∧ e < 2 * k := by
            rw [List.mem_iff_getElem]
            constructor
            · rintro ⟨i, hi, rfl⟩
              simp only [List.length_drop, List.length_range] at hi
              simp only [List.getElem_drop, List.getElem_range]
              omega
            · rintro ⟨h1, h2⟩
              refine ⟨e - 1, by simp only [List.length_drop, List.length_range]; omega, ?_⟩
              simp only [List.getElem_drop, List.getElem_range]
              omega
          rw [this]
        obtain ⟨h1, h2⟩ := firstMin_spec (fun v => |(v : ℤ) - k|) l hs
        have hne : l ≠ [] := by
          intro h0
          have : 1 ∈ l := (hmem 1).mpr ⟨⟨le_rfl, by omega⟩, one_dvd n⟩
          rw [h0] at this; simp at this
        cases hf : firstMin (fun v => |(v : ℤ) - k|) l with
        | none => exact absurd (h1.mp hf) hne
        | some b =>
          obtain ⟨hb, hm⟩ := h2 b hf
          rw [Option.getD_some]
          exact ⟨((hmem b).mp hb).1.1, ((hmem b).mp hb).2, fun e h1 h2 h3 => hm e ((hmem e).mpr ⟨⟨h1, h2⟩, h3⟩)⟩
    · intro h
      rw [if_pos (Nat.mod_eq_zero_of_dvd h)]
  rw [hd]
  by_cases h1 : d = 1
  · rw [if_pos h1]
    refine ⟨fun _ h => by simp at h, fun e h => ?_⟩
    simp only [Except.error.injEq] at h
    exact ⟨h.symm, h1 ▸ hcl⟩
  · rw [if_neg h1]
    refine ⟨fun d' h => ?_, fun e h => by simp at h⟩
    simp only [Except.ok.injEq] at h
    subst h
    exact ⟨hcl, h1, hkd⟩

/-- Cases: 100 files in 8 sub-folders go to 10, 7 files cannot be distributed over 3. -/
example : chooseSub 100 8 = .ok 10 ∧ chooseSub 100 10 = .ok 10 ∧ chooseSub 7 3 = .error .value ∧ chooseSub 12 5 = .ok 4 := by
  decide +kernel

/-! ### C201 files -/

theorem runMoves_spec (l : List (String × ℕ)) : ∀ (fs : FS), (l.map Prod.fst).Nodup →
    (∀ k s, runMoves fs l (some k, s) = if (s, k) ∈ l then fs (none, s) else fs (some k, s)) ∧
    ∀ s, runMoves fs l (none, s) = if s ∈ l.map Prod.fst then none else fs (none, s) := by
  induction l with
  | nil => intro fs _; simp [runMoves]
  | cons p t ih =>
    intro fs hn
    rw [List.map_cons, List.nodup_cons] at hn
    obtain ⟨h1, h2⟩ := ih (rename fs (none, p.1) (some p.2, p.1)) hn.2
    have hr : runMoves fs (p :: t) = runMoves (rename fs (none, p.1) (some p.2, p.1)) t := rfl
    have hpt : ∀ k, (p.1, k) ∉ t := fun k hk => hn.1 (List.mem_map.mpr ⟨_, hk, rfl⟩)
    rw [hr]
    refine ⟨fun k s => ?_, fun s => ?_⟩
    · rw [h1]
      by_cases hs : s = p.1
      · subst hs
        rw [if_neg (hpt k)]
        by_cases hk : k = p.2
        · subst hk; simp [rename]
        · have : (p.1, k) ∉ p :: t := by
            intro hm
            rcases List.mem_cons.mp hm with h | h
            · exact hk (by rw [← h])
            · exact hpt k h
          rw [if_neg this]
          simp [rename, hk]
      · have hne : (s, k) ∈ p :: t ↔ (s, k) ∈ t := by
          rw [List.mem_cons]
          constructor
          · rintro (h | h)
            · exact absurd (by rw [← h]) hs
            · exact h
          · exact Or.inr
        simp [rename, hs, hne]
    · rw [h2]
      by_cases hs : s = p.1
      · subst hs
        simp [rename, hn.1]
      · by_cases hm : s ∈ t.map Prod.fst
        · rw [if_pos hm, if_pos (show s ∈ (p :: t).map Prod.fst from List.mem_cons_of_mem _ hm)]
        · rw [if_neg hm, if_neg (by rw [List.map_cons, List.mem_cons]; tauto)]
          simp [rename, hs]

theorem moves_names (files : List String) (idx : List ℕ) (m : ℕ) (hi : idx.Perm (List.range files.length)) :
    ((moves files idx m).map Prod.fst).Perm files := by
  have e : (moves files idx m).map Prod.fst = idx.map fun i => files.getD i "" := by
    rw [moves, List.map_map]
    apply List.ext_getElem
    · simp
    · intro i h1 h2
      simp only [List.length_map, List.length_range] at h1 h2
      simp [h2]
  rw [e]
  refine (hi.map _).trans ?_
  have : (List.range files.length).map (fun i => files.getD i "") = files := by
    apply List.ext_getElem
    · simp
    · intro i h1 h2
      rw [List.getElem_map, List.getElem_range, List.getD_eq_getElem _ _ h2]
  rw [this]

/-- **C201**: at every moment of the distribution, whatever the sample and wherever it stops, each file is in exactly one place with
its contents, and no other file has changed. -/
theorem split_crash (fs fs' : FS) (files : List String) (k : ℕ) (idx : List ℕ) (t : ℕ) (hn : files.Nodup)
    (hi : idx.Perm (List.range files.length)) (hfresh : ∀ s ∈ files, ∀ j, fs (some j, s) = none)
    (h : split fs files k idx t = .ok fs') :
    (∀ s ∈ files, ∃ loc, fs' (loc, s) = fs (none, s) ∧ ∀ loc', loc' ≠ loc → fs' (loc', s) = none) ∧
    ∀ s ∉ files, ∀ loc, fs' (loc, s) = fs (loc, s) := by
  rw [split] at h
  cases hc : chooseSub files.length k with
  | error e => rw [hc] at h; simp at h
  | ok d =>
    rw [hc] at h
    simp only [Except.ok.injEq] at h
    set l := (moves files idx (files.length / d)) with hl
    have hp := moves_names files idx (files.length / d) hi
    rw [← hl] at hp
    have hnl : ((l.take t).map Prod.fst).Nodup := by
      rw [List.map_take]
      exact (hp.nodup_iff.mpr hn).sublist (List.take_sublist _ _)
    obtain ⟨h1, h2⟩ := runMoves_spec (l.take t) fs hnl
    rw [h] at h1 h2
    have hsub : ∀ s, s ∈ (l.take t).map Prod.fst → s ∈ files := by
      intro s hs
      rw [List.map_take] at hs
      exact hp.mem_iff.mp (List.mem_of_mem_take hs)
    refine ⟨fun s hs => ?_, fun s hs loc => ?_⟩
    · by_cases hm : s ∈ (l.take t).map Prod.fst
      · obtain ⟨⟨s', j⟩, hj, rfl⟩ := List.mem_map.mp hm
        refine ⟨some j, by rw [h1, if_pos hj], fun loc' hne => ?_⟩
        cases loc' with
        | none => rw [h2, if_pos hm]
        | some j' =>
          rw [h1, if_neg, hfresh _ hs]
          intro hj'
          have := List.inj_on_of_nodup_map hnl hj hj' rfl
          simp only [Prod.mk.injEq] at this
          exact hne (by rw [this.2])
      · refine ⟨none, by rw [h2, if_neg hm], fun loc' hne => ?_⟩
        cases loc' with
        | none => exact absurd rfl hne
        | some j' =>
          rw [h1, if_neg, hfresh _ hs]
          intro hj'
          exact hm (List.mem_map.mpr ⟨_, hj', rfl⟩)
    · cases loc with
      | none => rw [h2, if_neg fun hm => hs (hsub s hm)]
      | some j => rw [h1, if_neg fun hm => hs (hsub s (List.mem_map.mpr ⟨_, hm, rfl⟩))]

theorem count_div (d m k : ℕ) (hk : k < d) : ((List.range (d * m)).filter fun i => i / m = k).length = m := by
  rcases Nat.eq_zero_or_pos m with rfl | hm
  · simp
  have e : ((List.range (d * m)).filter fun i => i / m = k).Perm ((List.range m).map fun i => k * m + i) := by
    rw [List.perm_ext_iff_of_nodup (List.nodup_range.filter _)
      (List.nodup_range.map fun a b (h : k * m + a = k * m + b) => by omega)]
    intro i
    rw [List.mem_filter, List.mem_range, decide_eq_true_eq, List.mem_map]
    have hkm : (k + 1) * m ≤ d * m := Nat.mul_le_mul_right _ hk
    have hkm' : (k + 1) * m = k * m + m := by ring
    constructor
    · rintro ⟨_, h2⟩
      refine ⟨i % m, List.mem_range.mpr (Nat.mod_lt _ hm), ?_⟩
      rw [← h2, Nat.mul_comm]; exact Nat.div_add_mod i m
    · rintro ⟨r, hr, rfl⟩
      rw [List.mem_range] at hr
      refine ⟨by omega, ?_⟩
      rw [Nat.mul_comm, Nat.mul_add_div hm, Nat.div_eq_of_lt hr, Nat.add_zero]
  rw [e.length_eq]; simp

/-- **C201**: once done all files are in the sub-folders, as many in each. -/
theorem split_done (fs fs' : FS) (files : List String) (k d : ℕ) (idx : List ℕ) (t : ℕ) (hk : 1 ≤ k) (hn : files.Nodup)
    (hi : idx.Perm (List.range files.length)) (hfresh : ∀ s ∈ files, ∀ j, fs (some j, s) = none)
    (hex : ∀ s ∈ files, fs (none, s) ≠ none) (ht : files.length ≤ t)
    (hd : chooseSub files.length k = .ok d) (h : split fs files k idx t = .ok fs') :
    (∀ s ∈ files, fs' (none, s) = none ∧ ∃ j < d, fs' (some j, s) = fs (none, s)) ∧
    ∀ j < d, d * (files.filter fun s => decide (fs' (some j, s) ≠ none)).length = files.length := by
  obtain ⟨⟨hd1, hdv, _⟩, _, _⟩ := (chooseSub_spec files.length k hk).1 d hd
  obtain ⟨m, hm⟩ := hdv
  have hdm : files.length / d = m := by rw [hm, Nat.mul_div_cancel_left _ hd1]
  rw [split, hd] at h
  simp only [Except.ok.injEq] at h
  have hil : idx.length = files.length := by rw [hi.length_eq, List.length_range]
  rw [List.take_of_length_le (by simp [moves, hil, ht])] at h
  rw [hdm] at h
  set l := moves files idx m with hl
  have hp := moves_names files idx m hi
  rw [← hl] at hp
  have hnl : (l.map Prod.fst).Nodup := hp.nodup_iff.mpr hn
  obtain ⟨h1, h2⟩ := runMoves_spec l fs hnl
  rw [h] at h1 h2
  have hlt : ∀ q ∈ l, q.2 < d := by
    intro q hq
    rw [hl, moves] at hq
    obtain ⟨i, hi', rfl⟩ := List.mem_map.mp hq
    rw [List.mem_range, hil, hm] at hi'
    show i / m < d
    rcases Nat.eq_zero_or_pos m with rfl | hm0
    · simp at hi'
    · exact (Nat.div_lt_iff_lt_mul hm0).mpr hi'
  refine ⟨fun s hs => ?_, fun j hj => ?_⟩
  · have hs' := hp.mem_iff.mpr hs
    obtain ⟨⟨s', j⟩, hq, rfl⟩ := List.mem_map.mp hs'
    exact ⟨by rw [h2, if_pos hs'], j, hlt _ hq, by rw [h1, if_pos hq]⟩
  · have e1 : (files.filter fun s => decide (fs' (some j, s) ≠ none)).length =
        ((l.map Prod.fst).filter fun s => decide (fs' (some j, s) ≠ none)).length := (hp.symm.filter _).length_eq
    have e2 : ((l.map Prod.fst).filter fun s => decide (fs' (some j, s) ≠ none)).length = (l.filter fun q => q.2 = j).length := by
      rw [List.filter_map, List.length_map]
      congr 1
      refine List.filter_congr fun q hq => ?_
      have hqf : q.1 ∈ files := hp.mem_iff.mp (List.mem_map.mpr ⟨q, hq, rfl⟩)
      simp only [Function.comp]
      rw [h1]
      by_cases hqj : q.2 = j
      · subst hqj
        rw [if_pos (by exact hq)]
        simp [hex _ hqf]
      · rw [if_neg, hfresh _ hqf]
        · simp [hqj]
        · intro hmem
          have := List.inj_on_of_nodup_map hnl hq hmem rfl
          exact hqj (by rw [this])
    have e3 : (l.filter fun q => q.2 = j).length = m := by
      rw [hl, moves, List.filter_map, List.length_map, hil, hm]
      exact count_div d m j hj
    rw [e1, e2, e3, hm]

/-- **C258 (what fails)**: a file of the same name that was already in the sub-folder is silently replaced. -/
theorem split_overwrites : ∃ (fs fs' : FS), fs (some 0, "a.fits") = some 1 ∧ split fs ["a.fits", "b.fits"] 2 [0, 1] 2 = .ok fs' ∧
    ∀ loc s, fs' (loc, s) ≠ some 1 := by
  refine ⟨fun p => if p = (some 0, "a.fits") then some 1 else if p = (none, "a.fits") then some 2 else if p = (none, "b.fits") then some 3 else none,
    _, by simp, rfl, ?_⟩
  intro loc s
  have hn : ((moves ["a.fits", "b.fits"] [0, 1] 1).map Prod.fst).Nodup := by decide
  obtain ⟨h1, h2⟩ := runMoves_spec (moves ["a.fits", "b.fits"] [0, 1] 1) (fun p => if p = (some 0, "a.fits") then some 1 else if p = (none, "a.fits") then some 2 else if p = (none, "b.fits") then some 3 else none) hn
  cases loc with
  | none => 
    show runMoves _ (moves ["a.fits", "b.fits"] [0, 1] 1) (none, s) ≠ _
    rw [h2]; split <;> simp
    split <;> simp
  | some j =>
    show runMoves _ (moves ["a.fits", "b.fits"] [0, 1] 1) (some j, s) ≠ _
    rw [h1]
    split
    · simp; split <;> simp
    · rename_i hne
      simp
      rintro rfl rfl
      exact hne (by decide)

/-- C258 (violation): when the number of files left is a prime number of at least twice the sub-folders asked for, the distribution is
refused. -/
theorem resume_prime_violation (r k : ℕ) (hk : 1 ≤ k) (hr : r.Prime) (h : 2 * k ≤ r) : chooseSub r k = .error .value := by
  obtain ⟨h1, h2⟩ := chooseSub_spec r k hk
  cases e : chooseSub r k with
  | error x => rw [(h2 x e).1]
  | ok d =>
    obtain ⟨⟨d1, dd, cl⟩, dn, -⟩ := h1 d e
    rcases (Nat.dvd_prime hr).1 dd with g | g
    · exact absurd g dn
    · have c := cl 1 le_rfl (by omega) (one_dvd r)
      subst g
      have a1 : |(d : ℤ) - k| = (d : ℤ) - k := abs_of_nonneg (by omega)
      have a2 : |((1 : ℕ) : ℤ) - k| = (k : ℤ) - 1 := by rw [abs_sub_comm]; exact abs_of_nonneg (by push_cast; omega)
      rw [a1, a2] at c
      omega

example : Nat.Prime 7 ∧ 2 * 3 ≤ 7 := ⟨by decide, by norm_num⟩

/-- **C258 (what fails)**: an interrupted distribution cannot always be resumed: after one move out of eight, with three sub-folders asked
for, the remaining seven files are refused. -/
theorem split_resume_violation : chooseSub 8 3 = .ok 2 ∧ chooseSub (8 - 1) 3 = .error .value := by decide +kernel

/-- A case for the hypotheses: four files, two sub-folders. -/
example : ∃ fs', split (fun p => if p.1 = none then some 0 else none) ["a", "b", "c", "d"] 2 [2, 0, 3, 1] 4 = .ok fs' ∧
    ∀ j < 2, 2 * ((["a", "b", "c", "d"] : List String).filter fun s => decide (fs' (some j, s) ≠ none)).length = 4 :=
  ⟨_, rfl, (split_done _ _ ["a", "b", "c", "d"] 2 2 [2, 0, 3, 1] 4 (by norm_num) (by decide) (by decide) (by simp) (by simp) (by simp)
    (by decide) rfl).2⟩


/-! ### C202 values of the parameters -/

/-- Rounding to a number of digits: monotone, with an error of at most `δ`. -/
structure Rounding (rnd : ℝ → ℝ) (δ : ℝ) : Prop where
  mono : Monotone rnd
  err : ∀ x, |rnd x - x| ≤ δ

theorem edge_mono (rnd : ℝ → ℝ) (δ lo hi : ℝ) (n k l : ℕ) (hr : Rounding rnd δ) (h : lo ≤ hi) (hkl : k ≤ l) :
    edge rnd lo hi n k ≤ edge rnd lo hi n l := by
  apply hr.mono
  have h1 : (k : ℝ) ≤ l := by exact_mod_cast hkl
  have h2 : 0 ≤ hi - lo := by linarith
  gcongr

theorem edge_zero (rnd : ℝ → ℝ) (lo hi : ℝ) (n : ℕ) : edge rnd lo hi n 0 = rnd lo := by simp [edge]

theorem edge_last (rnd : ℝ → ℝ) (lo hi : ℝ) (n : ℕ) (hn : 0 < n) : edge rnd lo hi n n = rnd hi := by
  have : (n : ℝ) ≠ 0 := by positivity
  rw [edge]; congr 1; field_simp; ring

theorem mainValue_mem (rnd : ℝ → ℝ) (δ lo hi : ℝ) (n k : ℕ) (u : ℝ) (hr : Rounding rnd δ) (h : lo ≤ hi) (hk : k < n)
    (hu0 : 0 ≤ u) (hu1 : u < 1) :
    edge rnd lo hi n k ≤ mainValue rnd lo hi n k u ∧ mainValue rnd lo hi n k u ≤ edge rnd lo hi n (k + 1) ∧
    lo - δ ≤ mainValue rnd lo hi n k u ∧ mainValue rnd lo hi n k u ≤ hi + δ := by
  have h1 := edge_mono rnd δ lo hi n k (k + 1) hr h (by omega)
  have h2 := edge_mono rnd δ lo hi n 0 k hr h (by omega)
  have h3 := edge_mono rnd δ lo hi n (k + 1) n hr h (by omega)
  rw [edge_zero] at h2
  rw [edge_last rnd lo hi n (by omega)] at h3
  have h4 := abs_le.mp (hr.err lo)
  have h5 := abs_le.mp (hr.err hi)
  have h6 : edge rnd lo hi n k ≤ mainValue rnd lo hi n k u := by
    rw [mainValue]; nlinarith
  have h7 : mainValue rnd lo hi n k u ≤ edge rnd lo hi n (k + 1) := by
    rw [mainValue]; nlinarith
  exact ⟨h6, h7, by linarith, by linarith⟩

/-- **C202**: in a data base of `n*n` sub-folders each pair of intervals has exactly one sub-folder, and all its values lie in the
intervals, hence within the bounds up to the rounding of the labels. -/
theorem columnValues_spec (rnd : ℝ → ℝ) (δ lo1 hi1 lo2 hi2 : ℝ) (n : ℕ) (u v : ℕ → ℕ → ℝ) (hr : Rounding rnd δ)
    (h1 : lo1 ≤ hi1) (h2 : lo2 ≤ hi2) (hu : ∀ j t, 0 ≤ u j t ∧ u j t < 1) (hv : ∀ j t, 0 ≤ v j t ∧ v j t < 1) :
    (∀ k < n, ∀ l < n, ∃! t, t < n * n ∧ intervals n t = some (k, l)) ∧
    ∀ t < n * n, ∃ k < n, ∃ l < n, intervals n t = some (k, l) ∧ ∀ j, ∃ x s,
      columnValues rnd lo1 hi1 lo2 hi2 n (n * n) u v j t = .ok (x, s) ∧
      rnd (lo1 + (hi1 - lo1) * k / n) ≤ x ∧ x ≤ rnd (lo1 + (hi1 - lo1) * (k + 1 : ℕ) / n) ∧ lo1 - δ ≤ x ∧ x ≤ hi1 + δ ∧
      rnd (lo2 + (hi2 - lo2) * l / n) ≤ s ∧ s ≤ rnd (lo2 + (hi2 - lo2) * (l + 1 : ℕ) / n) ∧ lo2 - δ ≤ s ∧ s ≤ hi2 + δ := by
  refine ⟨fun k hk l hl => ⟨k * n + l, ⟨?_, ?_⟩, ?_⟩, fun t ht => ?_⟩
  · calc k * n + l < k * n + n := by omega
      _ = (k + 1) * n := by ring
      _ ≤ n * n := Nat.mul_le_mul_right _ hk
  · have hlt : k * n + l < n * n := by
      calc k * n + l < k * n + n := by omega
        _ = (k + 1) * n := by ring
        _ ≤ n * n := Nat.mul_le_mul_right _ hk
    rw [intervals, if_pos hlt]
    congr 2
    · rw [Nat.mul_comm, Nat.mul_add_div (by omega), Nat.div_eq_of_lt hl, Nat.add_zero]
    · rw [Nat.mul_comm, Nat.mul_add_mod, Nat.mod_eq_of_lt hl]
  · rintro t ⟨ht, h⟩
    rw [intervals, if_pos ht] at h
    simp only [Option.some.injEq, Prod.mk.injEq] at h
    rw [← h.1, ← h.2, Nat.mul_comm]
    exact (Nat.div_add_mod t n).symm
  · have hn : 0 < n := by
      rcases Nat.eq_zero_or_pos n with h | h
      · subst h; simp at ht
      · exact h
    have hk : t / n < n := (Nat.div_lt_iff_lt_mul hn).mpr ht
    have hl : t % n < n := Nat.mod_lt _ hn
    have hi : intervals n t = some (t / n, t % n) := by rw [intervals, if_pos ht]
    refine ⟨t / n, hk, t % n, hl, hi, fun j => ?_⟩
    obtain ⟨a1, a2, a3, a4⟩ := mainValue_mem rnd δ lo1 hi1 n (t / n) (u j t) hr h1 hk (hu j t).1 (hu j t).2
    obtain ⟨b1, b2, b3, b4⟩ := mainValue_mem rnd δ lo2 hi2 n (t % n) (v j t) hr h2 hl (hv j t).1 (hv j t).2
    refine ⟨mainValue rnd lo1 hi1 n (t / n) (u j t), mainValue rnd lo2 hi2 n (t % n) (v j t), ?_, a1, a2, a3, a4, b1, b2, b3, b4⟩
    rw [columnValues, if_neg (by omega), hi]

/-- **C202**: with fewer sub-folders than pairs of intervals the call fails; with more, the last ones get zero (an infinitely strong
turbulence for `r0`). -/
theorem columnValues_sizes (rnd : ℝ → ℝ) (lo1 hi1 lo2 hi2 : ℝ) (n nSub : ℕ) (u v : ℕ → ℕ → ℝ) (j t : ℕ) :
    (nSub < n * n → columnValues rnd lo1 hi1 lo2 hi2 n nSub u v j t = .error .index) ∧
    (n * n ≤ t → t < nSub → columnValues rnd lo1 hi1 lo2 hi2 n nSub u v j t = .ok (0, 0)) := by
  constructor
  · intro h; rw [columnValues, if_pos h]
  · intro h1 h2
    rw [columnValues, if_neg (by omega), intervals, if_neg (by omega)]

/-- **C259 (what fails)**: the edges are rounded before the values are drawn: a bound that is rounded down is exceeded, and bounds with the
same rounding give a single value in all sub-folders. -/
theorem bounds_violation (rnd : ℝ → ℝ) (δ lo hi : ℝ) (n : ℕ) (hr : Rounding rnd δ) (h : lo ≤ hi) :
    (rnd lo < lo → mainValue rnd lo hi n 0 0 < lo) ∧
    (rnd lo = rnd hi → ∀ k < n, ∀ u, mainValue rnd lo hi n k u = rnd lo) := by
  constructor
  · intro h1; simpa [mainValue, edge] using h1
  · intro h1 k hk u
    have e : ∀ i ≤ n, edge rnd lo hi n i = rnd lo := by
      intro i hin
      have a := edge_mono rnd δ lo hi n 0 i hr h (by omega)
      have b := edge_mono rnd δ lo hi n i n hr h hin
      rw [edge_zero] at a
      rw [edge_last rnd lo hi n (by omega)] at b
      linarith
    rw [mainValue, e k (by omega), e (k + 1) (by omega)]; ring

/-- The hypotheses on the rounding are met by rounding to integers. -/
example : Rounding (fun x => ((⌊x + 1 / 2⌋ : ℤ) : ℝ)) (1 / 2) where
  mono := fun x y h => by
    have : ⌊x + 1 / 2⌋ ≤ ⌊y + 1 / 2⌋ := Int.floor_mono (by linarith)
    show ((⌊x + 1 / 2⌋ : ℤ) : ℝ) ≤ ((⌊y + 1 / 2⌋ : ℤ) : ℝ)
    exact_mod_cast this
  err := fun x => by
    show |((⌊x + 1 / 2⌋ : ℤ) : ℝ) - x| ≤ 1 / 2
    rw [abs_le]
    have h1 := Int.floor_le (x + 1 / 2)
    have h2 := Int.lt_floor_add_one (x + 1 / 2)
    constructor <;> linarith

/-! ### C203 the images and r0 -/

/-- **C203**: with static aberrations as main parameter the PSD of an image is that of the model for its labels. -/
theorem totalPsd_stat {ι : Type} (msk psdIn kolmo : ι → ℝ) (r0 C sig2 : ℝ) (i : ι) :
    totalPsd .stat msk psdIn kolmo r0 C sig2 i = r0 ^ (-5/3 : ℝ) * kolmo i + msk i * (C + sig2 * psdIn i) := by
  rw [totalPsd]; ring

/-- **C304 (what fails)**: with `r0` as main parameter, the default, the images do not depend on the value of `r0` in their labels: the
turbulence outside the corrected area is missing. -/
theorem totalPsd_violation {ι : Type} (msk psdIn kolmo : ι → ℝ) (r0 r0' C sig2 : ℝ) (i : ι) (h : msk i = 0) (hk : kolmo i ≠ 0) (hr : 0 < r0) :
    totalPsd .r0 msk psdIn kolmo r0 C sig2 = totalPsd .r0 msk psdIn kolmo r0' C sig2 ∧
    totalPsd .r0 msk psdIn kolmo r0 C sig2 i = 0 ∧ (∀ j, totalPsd .r0 msk psdIn kolmo r0 C sig2 j = msk j * (C + sig2 * psdIn j)) ∧
    totalPsd .stat msk psdIn kolmo r0 C sig2 i ≠ 0 := by
  refine ⟨rfl, by simp [totalPsd, h], fun j => by rw [totalPsd]; ring, ?_⟩
  rw [totalPsd, h]
  have : r0 ^ (-5/3 : ℝ) ≠ 0 := (Real.rpow_pos_of_pos hr _).ne'
  simpa using ⟨this, hk⟩

/-! ### C204 names and test data -/

/-- **C204**: the PSFs of a sub-folder have different labels, and no file is replaced, if the step of the exponent exceeds the resolution
of the labels. -/
theorem labels_distinct (rnd : ℝ → ℝ) (δ lo hi : ℝ) (n : ℕ) (hr : Rounding rnd δ) (hn : 2 ≤ n)
    (hs : 2 * δ < (hi - lo) / ((n : ℝ) - 1)) (j j' : ℕ) (h : j ≠ j') : rnd (pe lo hi n j) ≠ rnd (pe lo hi n j') := by
  have key : ∀ a b : ℕ, a < b → rnd (pe lo hi n a) ≠ rnd (pe lo hi n b) := by
    intro a b hab he
    have hn1 : (0:ℝ) < (n : ℝ) - 1 := by
      have : (2:ℝ) ≤ n := by exact_mod_cast hn
      linarith
    have hab' : (a : ℝ) + 1 ≤ b := by exact_mod_cast hab
    have h1 := abs_le.mp (hr.err (pe lo hi n a))
    have h2 := abs_le.mp (hr.err (pe lo hi n b))
    have h0 : 0 ≤ δ := (abs_nonneg _).trans (hr.err 0)
    have e : pe lo hi n b - pe lo hi n a = (hi - lo) / ((n : ℝ) - 1) * (b - a) := by
      rw [pe, pe]; field_simp; ring
    have : (hi - lo) / ((n : ℝ) - 1) * 1 ≤ (hi - lo) / ((n : ℝ) - 1) * (b - a) :=
      mul_le_mul_of_nonneg_left (by linarith) (by linarith)
    linarith [h1.1, h1.2, h2.1, h2.2]
  rcases Nat.lt_or_gt_of_ne h with h | h
  · exact key j j' h
  · exact (key j' j h).symm

/-- **C204**: the test data are equally taken from the sub-folders, at most as many as asked for and less than one per sub-folder short;
a fraction is never more than there is. -/
theorem testPerFolder_spec (nTest : ℝ) (nPsf nSub : ℕ) (hs : 0 < nSub) :
    (1 ≤ nTest → (testPerFolder nTest nPsf nSub : ℝ) * nSub ≤ nTest ∧ nTest < (testPerFolder nTest nPsf nSub + 1 : ℝ) * nSub) ∧
    (0 ≤ nTest → nTest < 1 → (testPerFolder nTest nPsf nSub : ℝ) * nSub ≤ nTest * nPsf * nSub ∧
      nTest * nPsf * nSub - 1 < (testPerFolder nTest nPsf nSub + 1 : ℝ) * nSub ∧ testPerFolder nTest nPsf nSub ≤ nPsf) := by
  have hs' : (0:ℝ) < nSub := by exact_mod_cast hs
  constructor
  · intro h
    have e : testPerFolder nTest nPsf nSub = ⌊nTest / nSub⌋₊ := by
      unfold testPerFolder; rw [if_neg (by linarith)]
    rw [e]
    have h1 := Nat.floor_le (a := nTest / nSub) (by positivity)
    have h2 := Nat.lt_floor_add_one (nTest / nSub)
    rw [le_div_iff₀ hs'] at h1
    rw [div_lt_iff₀ hs'] at h2
    exact ⟨h1, h2⟩
  · intro h0 h
    have e : testPerFolder nTest nPsf nSub = ⌊(⌊nTest * nPsf * nSub⌋₊ : ℝ) / nSub⌋₊ := by
      unfold testPerFolder; rw [if_pos h]
    have hx : 0 ≤ nTest * nPsf * nSub := by positivity
    have h3 := Nat.floor_le hx
    have h4 := Nat.lt_floor_add_one (nTest * nPsf * nSub)
    rw [e]
    have h1 := Nat.floor_le (a := (⌊nTest * nPsf * nSub⌋₊ : ℝ) / nSub) (by positivity)
    have h2 := Nat.lt_floor_add_one ((⌊nTest * nPsf * nSub⌋₊ : ℝ) / nSub)
    rw [le_div_iff₀ hs'] at h1
    rw [div_lt_iff₀ hs'] at h2
    refine ⟨by linarith, by linarith, ?_⟩
    have h5 : (⌊(⌊nTest * nPsf * nSub⌋₊ : ℝ) / nSub⌋₊ : ℝ) * nSub ≤ nPsf * nSub := by
      have : nTest * nPsf * nSub ≤ 1 * (nPsf * nSub) := by
        rw [mul_assoc]; exact mul_le_mul_of_nonneg_right h.le (by positivity)
      linarith
    exact_mod_cast le_of_mul_le_mul_right h5 hs'

/-- **C260 (what fails)**: a number of test data below the number of sub-folders gives none; and a number that is too large makes the
sampling fail, after the images have been computed and possibly after some files have been moved. -/
theorem testPerFolder_violation (nTest : ℝ) (nPsf nSub : ℕ) (h1 : 1 ≤ nTest) (hs : 0 < nSub) :
    (nTest < nSub → testPerFolder nTest nPsf nSub = 0) ∧ ((nPsf + 1 : ℝ) * nSub ≤ nTest → nPsf < testPerFolder nTest nPsf nSub) := by
  obtain ⟨a, b⟩ := (testPerFolder_spec nTest nPsf nSub hs).1 h1
  have hs' : (0:ℝ) < nSub := by exact_mod_cast hs
  constructor
  · intro h
    have : (testPerFolder nTest nPsf nSub : ℝ) * nSub < 1 * nSub := by linarith
    have := lt_of_mul_lt_mul_right this hs'.le
    have : testPerFolder nTest nPsf nSub < 1 := by exact_mod_cast this
    omega
  · intro h
    have : ((nPsf : ℝ) + 1) * nSub < (testPerFolder nTest nPsf nSub + 1 : ℝ) * nSub := by linarith
    have := lt_of_mul_lt_mul_right this hs'.le
    have : nPsf < testPerFolder nTest nPsf nSub := by
      have h : (nPsf : ℝ) < testPerFolder nTest nPsf nSub := by linarith
      exact_mod_cast h
    exact this


/-! ### C205 reading back the intervals -/

theorem unique_eq (l xs : List ℝ) (hs : xs.Pairwise (· < ·)) (h : ∀ x, x ∈ l ↔ x ∈ xs) : Metrics.unique l = xs := by
  have h1 : (l.mergeSort fun a b => decide (a ≤ b)).Pairwise (· ≤ ·) := by
    have := List.pairwise_mergeSort (le := fun a b : ℝ => decide (a ≤ b)) (by intro a b c; simpa using le_trans)
      (by intro a b; simpa using le_total a b) l
    simpa using this
  have h2 : (Metrics.unique l).Pairwise (· ≤ ·) := by
    unfold Metrics.unique
    exact h1.sublist (List.dedup_sublist _)
  have h3 : (Metrics.unique l).Nodup := by unfold Metrics.unique; exact List.nodup_dedup _
  refine List.Perm.eq_of_pairwise (le := (· ≤ ·)) (fun a b _ _ h1 h2 => le_antisymm h1 h2) h2 (hs.imp fun h => h.le) ?_
  rw [List.perm_ext_iff_of_nodup h3 (hs.imp fun h => h.ne)]
  intro x
  unfold Metrics.unique
  rw [List.mem_dedup, List.mem_mergeSort, h]

theorem mapM_token (parse : String → Option ℝ) (i : ℕ) (f : List String → ℝ) (names : List (List String))
    (h : ∀ n ∈ names, token parse n i = .ok (f n)) : names.mapM (fun n => token parse n i) = .ok (names.map f) := by
  induction names with
  | nil => rfl
  | cons a t ih =>
    rw [List.mapM_cons, h a (by simp), ih fun n hn => h n (List.mem_cons_of_mem _ hn)]
    rfl

/-- **C205**: from the names of the sub-folders, in any order, the lower edges of the intervals are read back, sorted, if numbers are
written and read exactly and the edges differ. -/
theorem recover_spec (str : ℝ → String) (parse : String → Option ℝ) (main : String) (xs ss : List ℝ)
    (hpx : ∀ x ∈ xs, parse (str x) = some x) (hps : ∀ x ∈ ss, parse (str x) = some x) (hx : xs.Pairwise (· < ·)) (hs : ss.Pairwise (· < ·)) (hx0 : xs ≠ []) (hs0 : ss ≠ []) (names : List (List String))
    (hn : ∀ n, n ∈ names ↔ ∃ x ∈ xs, ∃ s ∈ ss, n = folderName str main x s) :
    recover parse names = .ok (xs, ss) := by
  classical
  let f1 : List String → ℝ := fun n => (parse (n.getD 1 "")).getD 0
  let f3 : List String → ℝ := fun n => (parse (n.getD 3 "")).getD 0
  have t1 : ∀ n ∈ names, token parse n 1 = .ok (f1 n) := by
    intro n h
    obtain ⟨x, h', s, _, rfl⟩ := (hn n).mp h
    simp [token, folderName, hpx x h', f1]
  have t3 : ∀ n ∈ names, token parse n 3 = .ok (f3 n) := by
    intro n h
    obtain ⟨x, _, s, h', rfl⟩ := (hn n).mp h
    simp [token, folderName, hps s h', f3]
  have u1 : Metrics.unique (names.map f1) = xs := by
    refine unique_eq _ _ hx fun x => ?_
    rw [List.mem_map]
    constructor
    · rintro ⟨n, h, rfl⟩
      obtain ⟨x, hx, s, _, rfl⟩ := (hn n).mp h
      simpa [f1, folderName, hpx x hx] using hx
    · intro h
      obtain ⟨s, hs⟩ := List.exists_mem_of_ne_nil ss hs0
      exact ⟨folderName str main x s, (hn _).mpr ⟨x, h, s, hs, rfl⟩, by simp [f1, folderName, hpx x h]⟩
  have u3 : Metrics.unique (names.map f3) = ss := by
    refine unique_eq _ _ hs fun s => ?_
    rw [List.mem_map]
    constructor
    · rintro ⟨n, h, rfl⟩
      obtain ⟨x, _, s, hs, rfl⟩ := (hn n).mp h
      simpa [f3, folderName, hps s hs] using hs
    · intro h
      obtain ⟨x, hx⟩ := List.exists_mem_of_ne_nil xs hx0
      exact ⟨folderName str main x s, (hn _).mpr ⟨x, hx, s, h, rfl⟩, by simp [f3, folderName, hps s h]⟩
  rw [recover, mapM_token parse 1 f1 names t1, mapM_token parse 3 f3 names t3]
  show Except.ok (Metrics.unique (names.map f1), Metrics.unique (names.map f3)) = _
  rw [u1, u3]

/-- Non-vacuity: two edges of each kind, written and read back. -/
example : ∃ (str : ℝ → String) (parse : String → Option ℝ), recover parse ([[1, 5], [1, 7], [2, 5], [2, 7]].map fun p : List ℝ =>
    folderName str "r0" (p.getD 0 0) (p.getD 1 0)) = .ok ([1, 2], [5, 7]) := by
  classical
  have d1 : ¬ "2" = "1" := by decide
  have d2 : ¬ "5" = "1" := by decide
  have d3 : ¬ "5" = "2" := by decide
  have d4 : ¬ "7" = "1" := by decide
  have d5 : ¬ "7" = "2" ∧ ¬ "7" = "5" := by decide
  refine ⟨fun x => if x = 1 then "1" else if x = 2 then "2" else if x = 5 then "5" else "7",
    fun s => if s = "1" then some 1 else if s = "2" then some 2 else if s = "5" then some 5 else some 7, ?_⟩
  refine recover_spec (fun x => if x = 1 then "1" else if x = 2 then "2" else if x = 5 then "5" else "7") _ "r0" _ _ ?_ ?_ (by norm_num) (by norm_num) (by simp) (by simp) _ ?_
  · intro x hx; simp at hx; rcases hx with rfl | rfl <;> norm_num [d1]
  · intro x hx; simp at hx; rcases hx with rfl | rfl <;> norm_num [d1, d2, d3, d4, d5]
  · intro n; simp; tauto

theorem mapM_error {α β : Type} (f : α → Except Err β) (l : List α) (a : α) (ha : a ∈ l) (e : Err) (h : f a = .error e) :
    ∃ e', l.mapM f = .error e' := by
  induction l with
  | nil => simp at ha
  | cons b t ih =>
    rw [List.mapM_cons]
    cases hb : f b with
    | error e' => exact ⟨e', rfl⟩
    | ok x =>
      have hat : a ∈ t := by
        rcases List.mem_cons.mp ha with rfl | h'
        · rw [hb] at h; simp at h
        · exact h'
      obtain ⟨e', he⟩ := ih hat
      exact ⟨e', by rw [he]; rfl⟩

/-- **C261 (what fails)**: the folder `test_data`, which the generation leaves there when it is interrupted, makes the reading fail. -/
theorem recover_violation (parse : String → Option ℝ) (hp : parse "data" = none) (names : List (List String)) (h : ["test", "data"] ∈ names) :
    ∃ e, recover parse names = .error e := by
  obtain ⟨e, he⟩ := mapM_error (fun n => token parse n 1) names _ h .value (by simp [token, hp])
  exact ⟨e, by rw [recover, he]; rfl⟩

/-- **C205 (what fails)**: so does any folder whose name has less than four parts. -/
theorem recover_short (parse : String → Option ℝ) (names : List (List String)) (n : List String) (h : n ∈ names) (hl : n.length < 4) :
    ∃ e, recover parse names = .error e := by
  rw [recover]
  cases h1 : names.mapM fun n => token parse n 1 with
  | error e => exact ⟨e, rfl⟩
  | ok l =>
    obtain ⟨e, he⟩ := mapM_error (fun n => token parse n 3) names n h .index (by
      simp [token, List.getElem?_eq_none (show n.length ≤ 3 by omega)])
    exact ⟨e, by rw [he]; rfl⟩

/-- **C202**: the bounds are accepted exactly when every entry that is read later (the first six, and the seventh for static
aberrations) exists in both rows, and the rows have the same length. -/
theorem bounds_accepted (nLow nHigh : ℕ) (addStatic : Bool) :
    boundsOk nLow nHigh addStatic = true ↔
      nLow = nHigh ∧ ∀ k, k < 6 ∨ (addStatic = true ∧ k = 6) → k < nLow ∧ k < nHigh := by
  cases addStatic
  · simp only [boundsOk, decide_eq_true_eq, Bool.false_eq_true, if_false, false_and, or_false]
    constructor
    · rintro ⟨_, _, h, h6⟩
      exact ⟨h, fun k hk => by omega⟩
    · rintro ⟨h, hk⟩
      have := hk 5 (by omega)
      omega
  · simp only [boundsOk, decide_eq_true_eq, if_true, true_and]
    constructor
    · rintro ⟨_, _, h, h6⟩
      exact ⟨h, fun k hk => by omega⟩
    · rintro ⟨h, hk⟩
      have := hk 6 (by omega)
      omega

/-! ### C206 verification -/

theorem mem_checked (n k c : ℕ) : c ∈ checkedCols n k ↔ k * n ≤ c ∧ c < (k + 1) * n - 1 := by
  rw [checkedCols, List.mem_iff_getElem]
  constructor
  · rintro ⟨i, hi, rfl⟩
    simp only [List.length_drop, List.length_range] at hi
    simp only [List.getElem_drop, List.getElem_range]
    omega
  · rintro ⟨h1, h2⟩
    refine ⟨c - k * n, by simp only [List.length_drop, List.length_range]; omega, ?_⟩
    simp only [List.getElem_drop, List.getElem_range]
    omega

/-- **C206**: in an accepted data base all values exceed the lower edge of their interval, and all but those of the last column of
each interval are under the upper edge; those of that column are under the upper edge of the next interval, if there is one.
Missing: the upper edge for the last column. -/
theorem verified_lower (n nPsf : ℕ) (v : ℕ → ℕ → ℝ) (lo hi : ℕ → ℝ) (hsort : ∀ j c d, c ≤ d → v j c ≤ v j d)
    (h : verified n nPsf v lo hi = .ok ()) (k r j : ℕ) (hk : k < n) (hr : r < n) (hj : j < nPsf) :
    lo k ≤ v j (k * n + r) ∧ (r + 1 < n → v j (k * n + r) ≤ hi k) ∧ (k + 1 < n → v j (k * n + r) ≤ hi (k + 1)) := by
  rw [verified] at h
  by_cases h1 : n = 1 ∨ nPsf = 0
  · rw [if_pos h1] at h; simp at h
  rw [if_neg h1] at h
  by_cases h2 : ∀ k < n, ∀ c ∈ checkedCols n k, ∀ j < nPsf, lo k ≤ v j c ∧ v j c ≤ hi k
  · have hn : 2 ≤ n := by omega
    have e : (k + 1) * n = k * n + n := by ring
    have e2 : (k + 1 + 1) * n = k * n + n + n := by ring
    refine ⟨?_, fun hr' => ?_, fun hk' => ?_⟩
    · have := (h2 k hk (k * n) ((mem_checked n k _).mpr (by omega)) j hj).1
      exact this.trans (hsort j _ _ (by omega))
    · exact (h2 k hk (k * n + r) ((mem_checked n k _).mpr (by omega)) j hj).2
    · have := (h2 (k + 1) hk' ((k + 1) * n) ((mem_checked n (k + 1) _).mpr (by omega)) j hj).2
      exact (hsort j _ _ (by omega)).trans this
  · rw [if_neg h2] at h; simp at h

/-- **C305 (what fails)**: a data base with arbitrarily wrong values in the last column of the last interval is accepted. -/
theorem verified_violation (n nPsf : ℕ) (hn : 2 ≤ n) (hp : 1 ≤ nPsf) (x : ℝ) :
    verified n nPsf (fun _ c => if c < n * n - 1 then 0 else x) (fun _ => 0) (fun _ => 1) = .ok () := by
  rw [verified, if_neg (by omega), if_pos]
  intro k hk c hc j hj
  have hc' := (mem_checked n k c).mp hc
  have : (k + 1) * n ≤ n * n := Nat.mul_le_mul_right _ hk
  have : c < n * n - 1 := by omega
  simp [this]

/-- A case where it accepts sorted values. -/
example : verified 2 1 (fun _ c => c) (fun k => 2 * k) (fun k => 2 * k + 1) = .ok () := by
  rw [verified, if_neg (by omega), if_pos]
  intro k hk c hc j hj
  have hc' := (mem_checked 2 k c).mp hc
  have : c = 2 * k := by omega
  subst this
  push_cast
  constructor <;> linarith

/-! ### C207 reading the results -/

/-- **C262 (what fails)**: the last row of a result file is ignored. -/
theorem readRows_violation {α : Type} (h1 h2 : α) (rows : List α) : readRows (h1 :: h2 :: rows) = rows.dropLast := by
  simp [readRows, List.dropLast_eq_take]

/-- **C207**: all rows are read if another line follows them. -/
theorem readRows_spec {α : Type} (h1 h2 last : α) (rows : List α) : readRows (h1 :: h2 :: (rows ++ [last])) = rows := by
  rw [readRows_violation]; simp

/-! ### C208 metrics -/

theorem zipWith_sum_sq_le (x y : List ℝ) (h : x.length = y.length) :
    (List.zipWith (fun a b => a * b) x y).sum ^ 2 ≤ (x.map fun a => a ^ 2).sum * (y.map fun b => b ^ 2).sum := by
  have key : ∀ (x y : List ℝ), x.length = y.length → ∀ t : ℝ, 0 ≤ (x.map fun a => a ^ 2).sum * t ^ 2 + 2 * (List.zipWith (fun a b => a * b) x y).sum * t + (y.map fun b => b ^ 2).sum := by
    intro x
    induction x with
    | nil =>
      intro y h t
      have : y = [] := List.length_eq_zero_iff.mp h.symm
      subst this; simp
    | cons a s ih =>
      intro y h t
      cases y with
      | nil => simp at h
      | cons b r =>
        have := ih r (by simpa using h) t
        simp only [List.map_cons, List.sum_cons, List.zipWith_cons_cons]
        nlinarith [sq_nonneg (a * t + b)]
  have k := key x y h
  set A := (x.map fun a => a ^ 2).sum
  set B := (List.zipWith (fun a b => a * b) x y).sum
  set C := (y.map fun b => b ^ 2).sum
  have hA : 0 ≤ A := List.sum_nonneg (by intro z hz; obtain ⟨w, _, rfl⟩ := List.mem_map.mp hz; positivity)
  rcases hA.eq_or_lt with h0 | h0
  · have hB : B = 0 := by
      by_contra hne
      have := k (-(C + 1) / (2 * B))
      rw [← h0] at this
      have e : 2 * B * (-(C + 1) / (2 * B)) = -(C + 1) := by field_simp
      rw [e] at this; linarith
    rw [hB, ← h0]; simp
  · have := k (-B / A)
    have e : A * (-B / A) ^ 2 + 2 * B * (-B / A) + C = (A * C - B ^ 2) / A := by field_simp; ring
    rw [e] at this
    have := (div_nonneg_iff.mp this)
    rcases this with h | h <;> nlinarith [h.1, h.2]

/-- **C208**: the Pearson coefficient lies between -1 and 1. -/
theorem pearson_le (x y : List ℝ) (h : x.length = y.length) : |pearson x y| ≤ 1 := by
  have e : List.zipWith (fun a b => (a - mean x) * (b - mean y)) x y =
      List.zipWith (fun a b => a * b) (x.map (· - mean x)) (y.map (· - mean y)) := by
    rw [List.zipWith_map]
  have key := zipWith_sum_sq_le (x.map (· - mean x)) (y.map (· - mean y)) (by simpa using h)
  rw [List.map_map, List.map_map] at key
  rw [pearson, e, abs_div, abs_of_nonneg (Real.sqrt_nonneg _)]
  refine div_le_one_of_le₀ ?_ (Real.sqrt_nonneg _)
  refine Real.abs_le_sqrt ?_
  exact key

theorem mean_affine (a b : ℝ) (x : List ℝ) (hx : x ≠ []) : mean (x.map fun t => a * t + b) = a * mean x + b := by
  have hl : (x.length : ℝ) ≠ 0 := by
    have := List.length_pos_iff.mpr hx; positivity
  have : (x.map fun t => a * t + b).sum = a * x.sum + x.length * b := by
    clear hl hx
    induction x with
    | nil => simp
    | cons c t ih => simp only [List.map_cons, List.sum_cons, ih, List.length_cons]; push_cast; ring
  rw [mean, mean, this, List.length_map]; field_simp

theorem sum_mul_left (c : ℝ) (l : List ℝ) (f : ℝ → ℝ) : (l.map fun x => c * f x).sum = c * (l.map f).sum := by
  induction l with
  | nil => simp
  | cons a t ih => simp only [List.map_cons, List.sum_cons, ih]; ring

/-- **C208**: estimates that are an increasing affine function of the true values have a coefficient of one, even when they are biased. -/
theorem pearson_affine (a b : ℝ) (x : List ℝ) (ha : 0 < a) (hx : ∃ t ∈ x, t ≠ mean x) : pearson x (x.map fun t => a * t + b) = 1 := by
  obtain ⟨t, ht, hne⟩ := hx
  have hx0 : x ≠ [] := List.ne_nil_of_mem ht
  set S := (x.map fun t => (t - mean x) ^ 2).sum with hS
  have hSpos : 0 < S := by
    have h1 : (t - mean x) ^ 2 ≤ S := List.single_le_sum
      (by intro z hz; obtain ⟨w, _, rfl⟩ := List.mem_map.mp hz; positivity) _ (List.mem_map.mpr ⟨t, ht, rfl⟩)
    have h2 : 0 < (t - mean x) ^ 2 := by
      have : t - mean x ≠ 0 := sub_ne_zero.mpr hne
      positivity
    linarith
  have e1 : (List.zipWith (fun p q => (p - mean x) * (q - mean (x.map fun t => a * t + b))) x (x.map fun t => a * t + b)).sum = a * S := by
    rw [List.zipWith_map_right, List.zipWith_self, mean_affine a b x hx0, hS, ← sum_mul_left]
    congr 1
    refine List.map_congr_left fun p _ => ?_
    ring
  have e2 : ((x.map fun t => a * t + b).map fun q => (q - mean (x.map fun t => a * t + b)) ^ 2).sum = a ^ 2 * S := by
    rw [List.map_map, mean_affine a b x hx0, hS, ← sum_mul_left]
    congr 1
    refine List.map_congr_left fun p _ => ?_
    simp only [Function.comp]; ring
  rw [pearson, e1, e2, ← hS]
  have : Real.sqrt (S * (a ^ 2 * S)) = a * S := by
    rw [show S * (a ^ 2 * S) = (a * S) ^ 2 by ring]
    exact Real.sqrt_sq (by positivity)
  rw [this]
  exact div_self (by positivity)

/-- **C208**: an estimate off by a factor `1 + ε` has a relative error of `100 ε` percent; it is undefined for a true value of zero. -/
theorem relErr_spec (truth ε : ℝ) : (truth ≠ 0 → relErr truth ((1 + ε) * truth) = some (100 * ε)) ∧ ∀ est, relErr 0 est = none := by
  constructor
  · intro h
    rw [relErr, if_neg h]
    congr 1; field_simp; ring
  · intro est; rw [relErr, if_pos rfl]

/-! ### Cases that meet the hypotheses -/

/-- A case meeting the hypotheses of `split_crash`. -/
example : ∃ fs', split (fun p => if p.1 = none then some 7 else none) ["a", "b", "c", "d"] 2 [2, 0, 3, 1] 3 = .ok fs' ∧
    ∀ s ∈ ["a", "b", "c", "d"], ∃ loc, fs' (loc, s) = some 7 := by
  refine ⟨_, rfl, ?_⟩
  have h := (split_crash (fun p => if p.1 = none then some 7 else none) _ ["a", "b", "c", "d"] 2 [2, 0, 3, 1] 3 (by decide +kernel) (by decide)
    (by intro s _ j; simp) rfl).1
  intro s hs
  obtain ⟨loc, h1, _⟩ := h s hs
  exact ⟨loc, by rw [h1]; simp⟩

/-- A case meeting the hypotheses of `columnValues_spec`. -/
example : ∀ t < 3 * 3, ∃ x s, columnValues id 0 3 0 6 3 (3 * 3) (fun _ _ => 1 / 2) (fun _ _ => 1 / 2) 0 t = .ok (x, s) := by
  intro t ht
  obtain ⟨k, _, l, _, _, h⟩ := (columnValues_spec id 0 0 3 0 6 3 (fun _ _ => 1 / 2) (fun _ _ => 1 / 2) ⟨monotone_id, by simp⟩ (by norm_num)
    (by norm_num) (by norm_num) (by norm_num)).2 t ht
  obtain ⟨x, s, h, _⟩ := h 0
  exact ⟨x, s, h⟩

/-- A case meeting the hypotheses of `verified_lower`. -/
example : verified 2 1 (fun _ c => c) (fun k => 2 * k) (fun k => 2 * k + 2) = .ok () ∧ (2 : ℝ) ≤ ((3 : ℕ) : ℝ) := by
  have h : verified 2 1 (fun _ c => c) (fun k => 2 * k) (fun k => 2 * k + 2) = .ok () := by
    unfold verified
    rw [if_neg (by norm_num), if_pos]
    intro k hk c hc j _
    have : k = 0 ∨ k = 1 := by omega
    rcases this with rfl | rfl <;> simp [checkedCols, List.range_succ] at hc <;> subst hc <;> norm_num
  refine ⟨h, ?_⟩
  have := (verified_lower 2 1 (fun _ c => c) (fun k => 2 * k) (fun k => 2 * k + 2) (by intro j c d hcd; exact_mod_cast hcd) h 1 1 0 (by norm_num)
    (by norm_num) (by norm_num)).1
  norm_num at this ⊢

/-! ### Cases that meet the hypotheses -/

/-- A case meeting the hypotheses of `totalPsd_violation`. -/
example : totalPsd .r0 (fun i : Bool => if i then 1 else 0) (fun _ => 1) (fun _ => 2) 0.15 1 1 false = 0 :=
  (totalPsd_violation (fun i : Bool => if i then 1 else 0) (fun _ => 1) (fun _ => 2) 0.15 0.2 1 1 false rfl (by norm_num)
    (by norm_num)).2.1

end P3.Deep
