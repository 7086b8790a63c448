import Verif.Model.Breakdown
import Verif.Props.Noise
import Mathlib.Tactic.Linarith
import Mathlib.Tactic.Ring
import Mathlib.Tactic.Positivity
import Mathlib.Tactic.NormNum
import Mathlib.Tactic.FieldSimp
/-
C08: the error breakdown of the AO system.
-/
namespace P3.Breakdown
open Real P3.Atmosphere P3.Hardware

/-- Spec: the reported terms, in the order of the report. -/
def terms (e : Wfe) : List (Option ℝ) :=
  [e.fitting, e.aliasing, e.hoLag, e.hoNoise, e.ttLag, e.ttNoise, e.focal]

/-- Spec: the Strehl ratio of a wavefront error of `T` nanometres at wavelength `l` (metres), Marechal. -/
noncomputable def marechal (T l : ℝ) : ℝ := exp (-(2 * π * (T / 10 ^ 9) / l) ^ 2)

theorem sqrtO_some {x y : ℝ} (h : sqrtO x = some y) : 0 ≤ x ∧ y = sqrt x := by
  unfold sqrtO at h
  split_ifs at h with h0
  exact ⟨not_lt.mp h0, by simpa using h.symm⟩

theorem sqrtO_of_nonneg {x : ℝ} (h : 0 ≤ x) : sqrtO x = some (sqrt x) := by
  unfold sqrtO; rw [if_neg (not_lt.mpr h)]

theorem finish_spec (S : Sys) (f a hl hn tl tn fo : Option ℝ) (T : ℝ)
    (h : (finish S f a hl hn tl tn fo).total = some T) :
    ∃ l : List ℝ, terms (finish S f a hl hn tl tn fo) = l.map some ∧
      T = sqrt ((l.map (· ^ 2)).sum) ∧
      (finish S f a hl hn tl tn fo).strehl = some (marechal T S.srcWvl) := by
  have hs : (finish S f a hl hn tl tn fo).strehl = some (marechal T S.srcWvl) := by
    have : (finish S f a hl hn tl tn fo).strehl = (finish S f a hl hn tl tn fo).total.map
      (fun T => exp (-T ^ 2 * (2 * π * (1 / 10 ^ 9) / S.srcWvl) ^ 2)) := rfl
    rw [this, h, Option.map_some, marechal]
    congr 2; ring
  cases f with
  | none => simp [finish, add, sq] at h
  | some f => cases a with
  | none => simp [finish, add, sq] at h
  | some a => cases hl with
  | none => simp [finish, add, sq] at h
  | some hl => cases hn with
  | none => simp [finish, add, sq] at h
  | some hn => cases tl with
  | none => simp [finish, add, sq] at h
  | some tl => cases tn with
  | none => simp [finish, add, sq] at h
  | some tn => cases fo with
  | none => simp [finish, add, sq] at h
  | some fo =>
    refine ⟨[f, a, hl, hn, tl, tn, fo], by simp [terms, finish], ?_, hs⟩
    simp only [finish, add, sq, Option.map_some, Option.bind_some] at h
    rw [(sqrtO_some h).2]
    congr 1
    simp only [List.map_cons, List.map_nil, List.sum_cons, List.sum_nil]
    ring

/-- Every result of `errorBreakdown` is built by `finish`. -/
theorem ok_form (S : Sys) (e : Wfe) (h : errorBreakdown S = .ok e) :
    ∃ f a hl hn tl tn fo, e = finish S f a hl hn tl tn fo := by
  unfold errorBreakdown at h
  split at h
  · cases h
  · dsimp only at h
    split at h
    · cases h
    · split at h
      · cases h; exact ⟨_, _, _, _, _, _, _, rfl⟩
      · split at h
        · cases h
        · cases h; exact ⟨_, _, _, _, _, _, _, rfl⟩

theorem rad2nm_nonneg {wvl x y : ℝ} (hw : 0 ≤ wvl) (h : rad2nm wvl x = some y) : 0 ≤ y := by
  unfold rad2nm at h
  rw [Option.map_eq_some_iff] at h
  obtain ⟨z, hz, rfl⟩ := h
  have := (sqrtO_some hz).2
  subst this
  positivity

theorem lag_nonneg {S : Sys} {b : Option ℝ} {s y : ℝ} (hw : 0 ≤ S.atm.wvl) (h : lag S b s = some y) :
    0 ≤ y := by
  unfold lag at h
  rw [Option.bind_eq_some_iff] at h
  obtain ⟨b, -, h⟩ := h
  split_ifs at h
  exact rad2nm_nonneg hw h

theorem focal_nonneg {D z : ℝ} {a : Atm} {y : ℝ} (hw : 0 ≤ a.wvl) (h : focal D z a = some y) : 0 ≤ y := by
  unfold focal at h
  rw [Option.map_eq_some_iff] at h
  obtain ⟨x, hx, rfl⟩ := h
  have := (sqrtO_some hx).2
  subst this
  positivity

/-- C08: whenever a total is reported, every term is a non-negative number, the total is the root of the
sum of their squares, no term exceeds it, and the Strehl ratio is the Marechal ratio of the total, in (0,1]. -/
theorem breakdown_spec (S : Sys) (hw : 0 ≤ S.atm.wvl) (e : Wfe) (h : errorBreakdown S = .ok e)
    (T : ℝ) (hT : e.total = some T) :
    ∃ l : List ℝ, terms e = l.map some ∧ (∀ t ∈ l, 0 ≤ t ∧ t ≤ T) ∧
      T ^ 2 = (l.map (· ^ 2)).sum ∧ 0 ≤ T ∧
      ∃ s, e.strehl = some s ∧ s = marechal T S.srcWvl ∧ 0 < s ∧ s ≤ 1 := by
  have hform := ok_form S e h
  obtain ⟨f, a, hl, hn, tl, tn, fo, rfl⟩ := hform
  obtain ⟨l, hl', hTl, hs⟩ := finish_spec S f a hl hn tl tn fo T hT
  have hsum : 0 ≤ (l.map (· ^ 2)).sum := List.sum_nonneg (by
    intro x hx
    obtain ⟨y, -, rfl⟩ := List.mem_map.mp hx
    positivity)
  have hle : ∀ t ∈ l, t ≤ T := by
    intro t ht
    rw [hTl]
    refine Real.le_sqrt_of_sq_le (List.single_le_sum ?_ _ (List.mem_map.mpr ⟨t, ht, rfl⟩))
    intro x hx
    obtain ⟨y, -, rfl⟩ := List.mem_map.mp hx
    positivity
  have hnn : ∀ x ∈ terms (finish S f a hl hn tl tn fo), ∀ y, x = some y → 0 ≤ y := by
    unfold errorBreakdown at h
    split at h
    · cases h
    · rename_i w ws hws
      dsimp only at h
      have hfo : ∀ y, focalTerm S = some y → 0 ≤ y := by
        intro y hy
        unfold focalTerm at hy
        split at hy
        · simp at hy; rw [← hy]
        · split_ifs at hy
          · exact focal_nonneg hw hy
          · simp at hy; rw [← hy]
      have hbind : ∀ (m : Option ℝ) y, m.bind (rad2nm S.atm.wvl) = some y → 0 ≤ y := by
        intro m y hy
        obtain ⟨x, -, hx⟩ := Option.bind_eq_some_iff.mp hy
        exact rad2nm_nonneg hw hx
      split at h
      · cases h
      · split at h
        · rw [← Except.ok.inj h]
          intro x hx y hy
          simp only [terms, finish, List.mem_cons, List.not_mem_nil, or_false] at hx
          rcases hx with rfl | rfl | rfl | rfl | rfl | rfl | rfl
          · exact rad2nm_nonneg hw hy
          · exact rad2nm_nonneg hw hy
          · exact lag_nonneg hw hy
          · exact hbind _ _ hy
          · simp at hy; rw [← hy]
          · simp at hy; rw [← hy]
          · exact hfo y hy
        · split at h
          · cases h
          · rw [← Except.ok.inj h]
            intro x hx y hy
            simp only [terms, finish, List.mem_cons, List.not_mem_nil, or_false] at hx
            rcases hx with rfl | rfl | rfl | rfl | rfl | rfl | rfl
            · exact rad2nm_nonneg hw hy
            · exact rad2nm_nonneg hw hy
            · exact lag_nonneg hw hy
            · exact hbind _ _ hy
            · exact lag_nonneg hw hy
            · exact hbind _ _ hy
            · exact hfo y hy
  refine ⟨l, hl', fun t ht => ⟨?_, hle t ht⟩, ?_, ?_, marechal T S.srcWvl, hs, rfl, exp_pos _, ?_⟩
  · exact hnn (some t) (by rw [hl']; exact List.mem_map.mpr ⟨t, ht, rfl⟩) t rfl
  · rw [hTl, Real.sq_sqrt hsum]
  · rw [hTl]; exact Real.sqrt_nonneg _
  · exact Real.exp_le_one_iff.mpr (neg_nonpos.mpr (sq_nonneg _))

/-- C08: the Strehl ratio decreases with the total, strictly at a non-zero science wavelength. -/
theorem strehl_antitone (S S' : Sys) (e e' : Wfe) (h : errorBreakdown S = .ok e)
    (h' : errorBreakdown S' = .ok e') (hw : 0 ≤ S.atm.wvl) (hw' : 0 ≤ S'.atm.wvl)
    (hl : S.srcWvl = S'.srcWvl) (hne : S.srcWvl ≠ 0) (T T' s s' : ℝ) (hT : e.total = some T)
    (hT' : e'.total = some T') (hs : e.strehl = some s) (hs' : e'.strehl = some s') :
    T < T' ↔ s' < s := by
  obtain ⟨-, -, -, -, h0, _, e1, rfl, -, -⟩ := breakdown_spec S hw e h T hT
  obtain ⟨-, -, -, -, h0', _, e2, rfl, -, -⟩ := breakdown_spec S' hw' e' h' T' hT'
  rw [hs] at e1; rw [hs'] at e2
  cases e1; cases e2
  unfold marechal
  rw [exp_lt_exp, ← hl, neg_lt_neg_iff]
  have k : (0:ℝ) < (2 * π / 10 ^ 9 / S.srcWvl) ^ 2 := by
    have := Real.pi_pos
    positivity
  have r : ∀ T : ℝ, (2 * π * (T / 10 ^ 9) / S.srcWvl) ^ 2 = (2 * π / 10 ^ 9 / S.srcWvl) ^ 2 * T ^ 2 := by
    intro T; ring
  rw [r, r, mul_lt_mul_iff_right₀ k]
  exact (sq_lt_sq₀ h0 h0').symm

/-- C124 (violation): with two or more noise variances in the parameter file the breakdown raises. -/
theorem breakdown_two_noise_variances (S : Sys) (l : List ℝ) (hl : 2 ≤ l.length)
    (hS : S.hoNoise = some l) (hne : S.wfs.wfs ≠ []) :
    errorBreakdown S = .error (.py .ambiguous) := by
  unfold errorBreakdown
  cases hw : S.wfs.wfs with
  | nil => exact absurd hw hne
  | cons w ws => simp [hoNoiseVar, hS, hl]

end P3.Breakdown
