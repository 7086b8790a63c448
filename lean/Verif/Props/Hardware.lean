import Verif.Model.Hardware
import Mathlib.Tactic.Linarith
import Mathlib.Tactic.Ring
import Mathlib.Tactic.Positivity
import Mathlib.Tactic.NormNum
/-
C14 (photon counts), C15 (actuator indices), C16 (mirrors), C17 (detector), C18 (control loops).
-/
namespace P3.Hardware
open Real

/-! ### C15 -/

/-- Spec: an in-range (row, column) pair of an R x C array. -/
def InRange (R C r c : ℤ) : Prop := 0 ≤ r ∧ r < R ∧ 0 ≤ c ∧ c < C

/-- The linear index of an in-range pair is the row-major index. -/
theorem sub2ind_inRange (R C r c : ℤ) (h : InRange R C r c) :
    sub2ind R C r c = r * C + c ∧ 0 ≤ r * C + c ∧ r * C + c < R * C := by
  obtain ⟨h1, h2, h3, h4⟩ := h
  have h5 : 0 ≤ r * C + c := add_nonneg (mul_nonneg h1 (by omega)) h3
  have h6 : r * C + c < R * C := by nlinarith
  refine ⟨?_, h5, h6⟩
  unfold sub2ind
  simp only [if_neg (not_lt.mpr h5), ge_iff_le, if_neg (not_le.mpr h6)]

/-- C15: distinct in-range pairs have distinct linear indices. -/
theorem sub2ind_injective (R C r c r' c' : ℤ) (h : InRange R C r c) (h' : InRange R C r' c')
    (he : sub2ind R C r c = sub2ind R C r' c') : r = r' ∧ c = c' := by
  rw [(sub2ind_inRange R C r c h).1, (sub2ind_inRange R C r' c' h').1] at he
  obtain ⟨h1, h2, h3, h4⟩ := h
  obtain ⟨h1', h2', h3', h4'⟩ := h'
  have : r = r' := by
    by_contra hne
    rcases lt_or_gt_of_ne hne with hl | hl <;> nlinarith
  subst this
  exact ⟨rfl, by linarith⟩

/-- C279: what converting back really gives: the column, and `r*C/R` as row (division by the number of rows
instead of columns). -/
theorem ind2sub_sub2ind (R C r c : ℤ) (h : InRange R C r c) :
    ind2sub R C (sub2ind R C r c) = (r * C / R, c) := by
  obtain ⟨e, h5, h6⟩ := sub2ind_inRange R C r c h
  obtain ⟨h1, h2, h3, h4⟩ := h
  rw [e]
  unfold ind2sub
  simp only [if_neg (not_lt.mpr h5), ge_iff_le, if_neg (not_le.mpr h6)]
  have hm : Int.fmod (r * C + c) C = c := by
    rw [Int.fmod_eq_emod_of_nonneg _ (by omega), add_comm, Int.add_mul_emod_self_right,
      Int.emod_eq_of_lt h3 h4]
  rw [hm, add_sub_cancel_right, Int.tdiv_eq_ediv_of_nonneg (mul_nonneg h1 (by omega))]

/-- C279: exactly which shapes round-trip. -/
theorem roundtrip_iff_partial (R C : ℤ) (hR : 0 < R) (hC : 0 < C) :
    (∀ r c, InRange R C r c → ind2sub R C (sub2ind R C r c) = (r, c)) ↔
      (R ≤ C ∧ (R - 1) * (C - R) < R) := by
  have key : ∀ r : ℤ, r * C / R = r ↔ r * R ≤ r * C ∧ r * C < (r + 1) * R := by
    intro r
    rw [← Int.le_ediv_iff_mul_le hR, ← Int.ediv_lt_iff_lt_mul hR]
    omega
  constructor
  · intro H
    have hl : (R - 1) * C / R = R - 1 := by
      have := H (R - 1) 0 ⟨by omega, by omega, le_refl _, hC⟩
      rw [ind2sub_sub2ind R C _ _ ⟨by omega, by omega, le_refl _, hC⟩] at this
      exact (Prod.mk.inj this).1
    rw [key] at hl
    constructor
    · rcases eq_or_lt_of_le (show 1 ≤ R from hR) with h | h
      · omega
      · exact le_of_mul_le_mul_left hl.1 (by omega)
    · nlinarith [hl.2]
  · rintro ⟨h1, h2⟩ r c hr
    rw [ind2sub_sub2ind R C r c hr, (key r).mpr]
    obtain ⟨a1, a2, -, -⟩ := hr
    constructor
    · exact mul_le_mul_of_nonneg_left h1 a1
    · have : r * (C - R) ≤ (R - 1) * (C - R) := mul_le_mul_of_nonneg_right (by omega) (by omega)
      nlinarith

/-- C15: the conversion round-trips on square arrays (the only ones P3 uses). Missing: other shapes. -/
theorem roundtrip_square (n r c : ℤ) (h : InRange n n r c) :
    ind2sub n n (sub2ind n n r c) = (r, c) := by
  obtain ⟨h1, h2, h3, h4⟩ := h
  exact (roundtrip_iff_partial n n (by omega) (by omega)).mpr ⟨le_refl _, by simp; omega⟩ r c ⟨h1, h2, h3, h4⟩

/-- C279 (violation): on a 3 x 2 array the pair (2, 1) comes back as (1, 1); and a column outside the array
aliases a valid index instead of giving -1. -/
theorem roundtrip_fails :
    InRange 3 2 2 1 ∧ ind2sub 3 2 (sub2ind 3 2 2 1) = (1, 1) ∧
    ¬ InRange 2 3 0 5 ∧ sub2ind 2 3 0 5 = 5 := by
  refine ⟨⟨by decide, by decide, by decide, by decide⟩, by decide, ?_, by decide⟩
  rintro ⟨-, -, -, h⟩; revert h; decide

/-- C15: -1 is returned exactly when the linear index falls outside the array. -/
theorem sub2ind_neg_one_iff (R C r c : ℤ) :
    sub2ind R C r c = -1 ↔ (r * C + c < 0 ∨ R * C ≤ r * C + c) := by
  unfold sub2ind
  simp only
  split_ifs <;> omega

/-! ### C16 -/

theorem padCoupling_ok {α : Type} (c : List α) (n : ℕ) (h : n ≠ 0 → c ≠ []) :
    ∃ c', padCoupling c n = .ok c' ∧ c'.length = n ∧
      (n ≤ c.length → ∀ k < n, c'[k]? = c[k]?) ∧
      (c.length < n → ∀ k < n, c'[k]? = c[0]?) := by
  unfold padCoupling
  by_cases hc : c.length < n
  · rw [if_pos hc]
    cases c with
    | nil => exact absurd rfl (h (by omega))
    | cons x t =>
      exact ⟨_, rfl, by simp, fun h' => by omega, fun _ k hk => by simp [List.getElem?_replicate, hk]⟩
  · rw [if_neg hc]
    by_cases hc2 : c.length > n
    · rw [if_pos hc2]
      exact ⟨_, rfl, by simp; omega, fun _ k hk => by simp [List.getElem?_take, hk],
        fun h' => absurd h' hc⟩
    · rw [if_neg hc2]
      exact ⟨_, rfl, by omega, fun _ k hk => rfl, fun h' => absurd h' hc⟩

theorem padCoupling_nil {α : Type} (n : ℕ) (h : n ≠ 0) :
    padCoupling ([] : List α) n = .error .noCoupling := by
  unfold padCoupling
  rw [if_pos (by simp; omega)]

/-- C16: the mirrors are accepted exactly when there is one height and actuator count per pitch, at least one coupling
value, and as many optimisation weights as directions. -/
theorem mkDM_ok_iff {α : Type} (nActu : List ℕ) (pitch heights coupling oz oa ow : List α) :
    (∃ d, mkDM nActu pitch heights coupling oz oa ow = .ok d) ↔
      (nActu.length = pitch.length ∧ heights.length = pitch.length ∧
       (pitch ≠ [] → coupling ≠ []) ∧ oz.length = oa.length ∧ oz.length = ow.length) := by
  unfold mkDM
  by_cases h1 : nActu.length = pitch.length ∧ heights.length = pitch.length
  · rw [if_neg (not_not.mpr h1)]
    by_cases h2 : pitch ≠ [] → coupling ≠ []
    · obtain ⟨c', e, -⟩ := padCoupling_ok coupling pitch.length
        (fun h => h2 (by rintro rfl; exact h rfl))
      rw [e]
      simp only
      split_ifs with h3 h4 <;> simp_all
    · push Not at h2
      obtain ⟨h2, rfl⟩ := h2
      rw [padCoupling_nil _ (by simp [h2])]
      simp [h2]
  · rw [if_pos h1]
    simp only [reduceCtorEq, exists_false, false_iff]
    tauto

/-- C16: an accepted set of mirrors has one height and coupling per pitch, the coupling being
the given one (extra values dropped) or, if too few are given, the first one for all mirrors. -/
theorem mkDM_spec {α : Type} (nActu : List ℕ) (pitch heights coupling oz oa ow : List α) (d : DMs α)
    (h : mkDM nActu pitch heights coupling oz oa ow = .ok d) :
    d.pitch = pitch ∧ d.heights = heights ∧ d.nActu = nActu ∧
    d.heights.length = pitch.length ∧ d.coupling.length = pitch.length ∧
    (pitch.length ≤ coupling.length → ∀ k < pitch.length, d.coupling[k]? = coupling[k]?) ∧
    (coupling.length < pitch.length → ∀ k < pitch.length, d.coupling[k]? = coupling[0]?) ∧
    d.optZen.length = d.optW.length ∧ d.optAz.length = d.optW.length := by
  obtain ⟨h1, h2, h3, h4, h5⟩ := (mkDM_ok_iff nActu pitch heights coupling oz oa ow).mp ⟨d, h⟩
  obtain ⟨c', e, e1, e2, e3⟩ := padCoupling_ok coupling pitch.length
    (fun h => h3 (by rintro rfl; exact h rfl))
  unfold mkDM at h
  rw [if_neg (not_not.mpr ⟨h1, h2⟩), e] at h
  simp only at h
  rw [if_neg (not_not.mpr h4), if_neg (not_not.mpr h5)] at h
  cases h
  exact ⟨rfl, rfl, rfl, h2, e1, e2, e3, h5, h4.symm.trans h5⟩

/-- C16: the number of controlled radial orders of an n x n mirror is the largest p with
(p+1)² ≤ 2n², so at least n-1. -/
theorem radialOrder_spec {α : Type} (d : DMs α) (k : ℕ) (n : ℕ) (hk : d.nActu[k]? = some n) :
    ∃ p : ℤ, (nControlledRadialOrder d)[k]? = some p ∧ (p + 1) ^ 2 ≤ 2 * n ^ 2 ∧
      2 * (n : ℤ) ^ 2 < (p + 2) ^ 2 ∧ (n : ℤ) - 1 ≤ p := by
  refine ⟨(Nat.sqrt (2 * (n * n)) : ℤ) - 1, ?_, ?_, ?_, ?_⟩
  · simp [nControlledRadialOrder, nValid, hk]
  · have := Nat.sqrt_le (2 * (n * n))
    have h : ((Nat.sqrt (2 * (n * n)) * Nat.sqrt (2 * (n * n)) : ℕ) : ℤ) ≤ ((2 * (n * n) : ℕ) : ℤ) := by
      exact_mod_cast this
    push_cast at h
    nlinarith
  · have := Nat.lt_succ_sqrt (2 * (n * n))
    have h : ((2 * (n * n) : ℕ) : ℤ) <
        ((Nat.sqrt (2 * (n * n)) + 1 : ℕ) : ℤ) * ((Nat.sqrt (2 * (n * n)) + 1 : ℕ) : ℤ) := by
      exact_mod_cast this
    push_cast at h
    nlinarith
  · have : n ≤ Nat.sqrt (2 * (n * n)) := by
      rw [Nat.le_sqrt]; omega
    omega

example : ∃ d : DMs ℚ, mkDM [41, 41] [1/4, 1/2] [0, 6000] [1/5] [0] [0] [1] = .ok d ∧
    d.coupling = [1/5, 1/5] ∧ nControlledRadialOrder d = [56, 56] :=
  ⟨_, rfl, rfl, by decide +kernel⟩
example : mkDM [41] [(1/4 : ℚ), 1/2] [0, 6000] [1/5] [0] [0] [1] = .error .sizes := rfl

/-! ### C17 -/

/-- C17: a detector is accepted exactly when the (first row of the) dispersion and the transmittance have the
same length (and a pixel scale exists for each field of view); it then has one wavelength per
transmittance. -/
theorem mkDetector_spec (pix fov : Scale) (tr : List ℚ) (disp : List (List ℚ)) :
    (∀ d, mkDetector pix fov tr disp = .ok d → d.nWvl = tr.length ∧ d.transmittance = tr ∧
      ∃ row, disp.head? = some row ∧ row.length = d.nWvl) ∧
    (∀ row, disp.head? = some row → row.length ≠ tr.length →
      ∃ e, mkDetector pix fov tr disp = .error e) ∧
    (∀ row f, disp.head? = some row → row.length = tr.length → fovArcsec pix fov = .ok f →
      ∃ d, mkDetector pix fov tr disp = .ok d ∧ d.fovArcsec = f) := by
  unfold mkDetector
  refine ⟨?_, ?_, ?_⟩
  · intro d h
    cases hf : fovArcsec pix fov with
    | error e => simp [hf] at h
    | ok f =>
      cases disp with
      | nil => simp [hf] at h
      | cons row t =>
        simp only [hf] at h
        split_ifs at h with hr
        cases h
        push Not at hr
        exact ⟨rfl, rfl, row, rfl, hr⟩
  · intro row h1 h2
    cases hf : fovArcsec pix fov with
    | error e => exact ⟨_, rfl⟩
    | ok f =>
      cases disp with
      | nil => exact ⟨_, rfl⟩
      | cons r t =>
        simp only [List.head?_cons, Option.some.injEq] at h1
        subst h1
        exact ⟨.spectral, by simp only [if_pos h2]⟩
  · intro row f h1 h2 h3
    cases disp with
    | nil => cases h1
    | cons r t =>
      simp only [List.head?_cons, Option.some.injEq] at h1
      subst h1
      exact ⟨⟨f, r :: t, tr, tr.length⟩, by simp [h3, h2], rfl⟩

/-- C17: the field of view in arcsec is pixel scale (mas) x pixels / 1000, element-wise. -/
theorem fovArcsec_spec (p : List ℚ) (f : List ℚ) (h : f.length ≤ p.length) (k : ℕ) (hk : k < f.length) :
    ∃ l, fovArcsec (.many p) (.many f) = .ok (.many l) ∧ l.length = f.length ∧
      l[k]? = some (p[k]'(by omega) * f[k] / 1000) := by
  refine ⟨List.zipWith (fun a b => a * b / 1000) p f, by simp only [fovArcsec, if_pos h],
    by simp; omega, ?_⟩
  simp only [List.getElem?_zipWith]
  rw [List.getElem?_eq_getElem hk, List.getElem?_eq_getElem (by omega)]

/-- C125 (not checked by the code): the second row of the dispersion is never compared. -/
theorem dispersion_second_row_unchecked : ∃ d, mkDetector (.one 10) (.one 100) [1, 1]
    [[0, 0], [0, 0, 0]] = .ok d := ⟨_, rfl⟩

/-! ### C18 -/

/-- C18: the tip-tilt loop exists exactly when gain, rate and delay are all given, and holds them. -/
theorem ttloop_iff (gH rH dH : ℝ) (gL rL dL : Option ℝ) :
    ((mkRtc gH rH dH gL rL dL).ttloop.isSome = true ↔
      gL.isSome = true ∧ rL.isSome = true ∧ dL.isSome = true) ∧
    (∀ l, (mkRtc gH rH dH gL rL dL).ttloop = some l →
      gL = some l.gain ∧ rL = some l.rate ∧ dL = some l.delay) := by
  cases gL <;> cases rL <;> cases dL <;> simp [mkRtc]

/-- C18: for a non-negative gain and delay and a positive rate the bandwidth is a non-negative number, increasing with the
rate (strictly for a positive gain), with the gain, and decreasing with the delay. -/
theorem bandwidth_mono (g r d : ℝ) (hg : 0 ≤ g) (hr : 0 ≤ r) (hd : 0 ≤ d) :
    ∃ b, bandwidth g r d = some b ∧ 0 ≤ b ∧
      (∀ r', r ≤ r' → ∃ b', bandwidth g r' d = some b' ∧ b ≤ b' ∧ (0 < g → r < r' → b < b')) ∧
      (∀ g', g ≤ g' → ∃ b', bandwidth g' r d = some b' ∧ b ≤ b') ∧
      (∀ d', d ≤ d' → ∃ b', bandwidth g r d' = some b' ∧ b' ≤ b) := by
  have hp := pi_pos
  have hb : ∀ g r d : ℝ, 0 ≤ g → 0 ≤ d → bandwidth g r d =
      some (r / 2 / π * sqrt (g / (1 + 2 * d))) := by
    intro g r d hg hd
    unfold bandwidth
    rw [if_neg]
    push Not
    exact ⟨by linarith, by positivity⟩
  refine ⟨_, hb g r d hg hd, by positivity, ?_, ?_, ?_⟩
  · intro r' h
    refine ⟨_, hb g r' d hg hd, by gcongr, fun hg' h' => ?_⟩
    have : 0 < sqrt (g / (1 + 2 * d)) := by positivity
    gcongr
  · intro g' h
    exact ⟨_, hb g' r d (by linarith) hd, by gcongr⟩
  · intro d' h
    exact ⟨_, hb g r d' hg (by linarith), by gcongr⟩

/-- C18: the high-order loop always exists with its own settings. -/
theorem holoop_spec (gH rH dH : ℝ) (gL rL dL : Option ℝ) :
    (mkRtc gH rH dH gL rL dL).holoop.gain = gH ∧ (mkRtc gH rH dH gL rL dL).holoop.rate = rH ∧
    (mkRtc gH rH dH gL rL dL).holoop.delay = dH ∧
    (mkRtc gH rH dH gL rL dL).holoop.bandwidth = bandwidth gH rH dH := ⟨rfl, rfl, rfl, rfl⟩

/-! ### C14 -/

/-- C14 (partial): with enough counts each sensor gets its own and the caller's list is untouched. Missing:
short lists, where the claim is false (below). -/
theorem photonCounts_enough_partial (n : ℕ) (l : List Count) (h : n ≤ l.length) :
    (photonCounts n l).1 = l ∧ ∃ r, (photonCounts n l).2 = .ok r ∧ r.length = n ∧
      ∀ k < n, r[k]? = l[k]? := by
  have h' : ¬ l.length < n := by omega
  simp only [photonCounts, if_neg h', if_pos h]
  exact ⟨trivial, _, rfl, by simp [h], fun k hk => by simp [hk]⟩

/-- C14 (violation): one missing count: the last sensor gets the list `[0]` instead of a number, and the caller's
list has been extended. -/
theorem photonCounts_one_missing (l : List Count) :
    photonCounts (l.length + 1) l = (l ++ [.lst [0]], .ok (l ++ [.lst [0]])) := by
  simp [photonCounts]

/-- C14 (violation): two or more missing counts: `IndexError`, and the caller's list has been extended. -/
theorem photonCounts_more_missing (n : ℕ) (l : List Count) (h : l.length + 1 < n) :
    (photonCounts n l).2 = .error .indexError ∧ (photonCounts n l).1.length = l.length + 1 ∧
    (photonCounts n l).1 ≠ l := by
  have h' : l.length < n := by omega
  simp only [photonCounts, if_pos h', List.length_append, List.length_singleton]
  refine ⟨by rw [if_neg (by omega)], trivial, ?_⟩
  intro he
  have := congrArg List.length he
  simp at this

/-- C14 (violation, over histories): retrying with the same list object changes the outcome: after `k` attempts the list
has `min n (l.length + k)` entries, so enough retries make the construction succeed. -/
theorem photonCounts_retry (n k : ℕ) (l : List Count) (h : l.length ≤ n) :
    ((fun x => (photonCounts n x).1)^[k] l).length = min n (l.length + k) ∧
    (n ≤ l.length + k + 1 → ∃ r, (photonCounts n ((fun x => (photonCounts n x).1)^[k] l)).2 = .ok r) := by
  have key : ∀ k, ((fun x => (photonCounts n x).1)^[k] l).length = min n (l.length + k) := by
    intro k
    induction k with
    | zero => simp [h]
    | succ k ih =>
      rw [Function.iterate_succ_apply']
      generalize ((fun x => (photonCounts n x).1)^[k] l) = x at ih ⊢
      simp only [photonCounts]
      split_ifs with hx
      · simp; omega
      · omega
  refine ⟨key k, fun hk => ?_⟩
  have := key k
  generalize ((fun x => (photonCounts n x).1)^[k] l) = x at this ⊢
  simp only [photonCounts]
  split_ifs with h1 h2 h3
  · exact ⟨_, rfl⟩
  · simp at h2; omega
  · exact ⟨_, rfl⟩
  · omega

example : (photonCounts 3 [.num 100]).2 = .error .indexError := rfl
example : (photonCounts 2 [.num 100, .num 50]).2 = .ok [.num 100, .num 50] := by decide +kernel

end P3.Hardware
