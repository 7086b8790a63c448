import Verif.Lemmas.Dft
import Mathlib.Analysis.SpecialFunctions.Trigonometric.Bounds
import Mathlib.Algebra.Order.Star.Real
import Mathlib.Analysis.Real.Pi.Bounds
import Mathlib.Analysis.SpecialFunctions.Pow.NNReal
import Mathlib.Tactic.NormNum
import Mathlib.Tactic.Linarith
import Mathlib.Tactic.FinCases
/-
PSF reconstruction: structure functions from modal covariances (C112), jitter (C114), pixel (C115), conversions of
Strehl ratios (C56), error breakdown (C113), total structure function (C116), zonal transfer function (C117),
pseudo-open-loop slopes (C118).
-/
namespace P3.Rec
open Finset

/-! ### C112: structure function from a modal covariance -/

/-- Specification: number of pairs of lit pixels at separation `r`. -/
def overlap {N : ℕ} [NeZero N] (P : Pix N → ℝ) (r : Pix N) : ℝ := ∑ y, P (y + r) * P y

/-- Specification: mean over the pairs of lit pixels at separation `r` of the variance of the difference of phase
`∑ c_j (mode_j(y+r) - mode_j(y))` for coefficients `c` of covariance `C`. -/
noncomputable def pairMean {N m : ℕ} [NeZero N] (P : Pix N → ℝ) (modes : Pix N → Fin m → ℝ)
    (C : Matrix (Fin m) (Fin m) ℝ) (r : Pix N) : ℝ :=
  (∑ y, P (y + r) * P y *
    ∑ i, ∑ j, (modes (y + r) i - modes y i) * C i j * (modes (y + r) j - modes y j)) / overlap P r

theorem pupilCorr_eq {N : ℕ} [NeZero N] (P : Pix N → ℝ) (r : Pix N) : pupilCorr P r = overlap P r := by
  unfold pupilCorr; rw [idft_normSq]; rfl

theorem overlap_zero {N : ℕ} [NeZero N] (P : Pix N → ℝ) (hP : ∀ x, P x = 0 ∨ P x = 1) : overlap P 0 = ∑ y, P y := by
  unfold overlap
  refine sum_congr rfl fun y _ => ?_
  rw [add_zero]; rcases hP y with h | h <;> rw [h] <;> norm_num

theorem overlap_le {N : ℕ} [NeZero N] (P : Pix N → ℝ) (hP : ∀ x, P x = 0 ∨ P x = 1) (r : Pix N) :
    0 ≤ overlap P r ∧ overlap P r ≤ overlap P 0 := by
  rw [overlap_zero P hP]; unfold overlap
  constructor
  · refine sum_nonneg fun y _ => ?_
    rcases hP y with h | h <;> rcases hP (y + r) with h' | h' <;> rw [h, h'] <;> norm_num
  · refine sum_le_sum fun y _ => ?_
    rcases hP y with h | h <;> rcases hP (y + r) with h' | h' <;> rw [h, h'] <;> norm_num

theorem gMax_eq {N : ℕ} [NeZero N] (P : Pix N → ℝ) (hP : ∀ x, P x = 0 ∨ P x = 1) : gMax P = overlap P 0 := by
  unfold gMax
  apply le_antisymm
  · exact sup'_le _ _ fun x _ => by rw [pupilCorr_eq]; exact (overlap_le P hP x).2
  · rw [← pupilCorr_eq]; exact le_sup' (pupilCorr P) (mem_univ 0)

theorem vk_corr {N : ℕ} [NeZero N] (P M : Pix N → ℝ) (r : Pix N) :
    idft (fun k => ((vk P M k : ℝ) : ℂ)) r
      = (((corr (fun x => M x ^ 2) P r + corr P (fun x => M x ^ 2) r) / 2 - corr M M r : ℝ) : ℂ) := by
  have : (fun k => ((vk P M k : ℝ) : ℂ)) = fun k =>
      (((dft (toC (fun x => M x ^ 2)) k * (starRingEnd ℂ) (dft (toC P) k)).re : ℝ) : ℂ)
      + (-1 : ℂ) * ((‖dft (toC M) k‖ ^ 2 : ℝ) : ℂ) := by
    ext k; unfold vk; push_cast; ring
  rw [this, idft_add, idft_smul, idft_re, idft_normSq]
  push_cast; ring

theorem vk_idft {N : ℕ} [NeZero N] (P f : Pix N → ℝ) (hP : ∀ x, P x = 0 ∨ P x = 1) (r : Pix N) :
    idft (fun k => ((vk P (fun x => f x * P x) k : ℝ) : ℂ)) r
      = ((1 / 2 * ∑ y, P (y + r) * P y * (f (y + r) - f y) ^ 2 : ℝ) : ℂ) := by
  rw [vk_corr]
  congr 1
  unfold corr
  rw [← sum_add_distrib, sum_div, mul_sum, ← sum_sub_distrib]
  refine sum_congr rfl fun y _ => ?_
  rcases hP y with h | h <;> rcases hP (y + r) with h' | h' <;> simp only [h, h'] <;> ring

theorem quad_expand {m : ℕ} (V : Matrix (Fin m) (Fin m) ℝ) (ss d : Fin m → ℝ) :
    ∑ l, ss l * (∑ j, d j * V j l) ^ 2 = ∑ i, ∑ j, d i * (V * Matrix.diagonal ss * V.transpose) i j * d j := by
  have h : ∀ i j, (V * Matrix.diagonal ss * V.transpose) i j = ∑ l, V i l * ss l * V j l := by
    intro i j
    rw [Matrix.mul_apply]
    refine sum_congr rfl fun l _ => ?_
    rw [Matrix.mul_diagonal, Matrix.transpose_apply]
  simp only [h, pow_two, mul_sum, sum_mul]
  rw [sum_comm]
  refine sum_congr rfl fun i _ => ?_
  rw [sum_comm]
  refine sum_congr rfl fun j _ => sum_congr rfl fun l _ => ?_
  ring

/-- C112: for every pupil made of lit and dark pixels, every set of modes and every orthogonal matrix and singular
values, the structure function returned by the `Vii` formula is, at each separation where at least a 1e-7 part of the
pupil overlaps, the mean over the pairs of lit pixels of the variance of the phase difference for the covariance
`V diag(s) Vᵀ`; elsewhere it is zero. -/
theorem dphiVii_spec {N m : ℕ} [NeZero N] (P : Pix N → ℝ) (hP : ∀ x, P x = 0 ∨ P x = 1)
    (modes : Pix N → Fin m → ℝ) (V : Matrix (Fin m) (Fin m) ℝ) (ss : Fin m → ℝ) (r : Pix N) :
    (1e-7 < overlap P r / overlap P 0 →
      dphiVii P modes V ss r = pairMean P modes (V * Matrix.diagonal ss * V.transpose) r) ∧
    (overlap P r / overlap P 0 ≤ 1e-7 → dphiVii P modes V ss r = 0) := by
  have key : (idft (fun k => ((2 * ∑ l, ss l * vk P (mAll P modes V l) k : ℝ) : ℂ)) r).re
      = ∑ y, P (y + r) * P y *
        ∑ i, ∑ j, (modes (y + r) i - modes y i) * (V * Matrix.diagonal ss * V.transpose) i j *
          (modes (y + r) j - modes y j) := by
    have e : (fun k => ((2 * ∑ l, ss l * vk P (mAll P modes V l) k : ℝ) : ℂ)) = fun k => ∑ l,
        ((2 * ss l : ℝ) : ℂ) * ((vk P (fun x => (∑ j, modes x j * V j l) * P x) k : ℝ) : ℂ) := by
      ext k
      rw [mul_sum]; push_cast
      refine sum_congr rfl fun l _ => ?_
      rw [← mul_assoc]; rfl
    rw [e, idft_sum]
    simp only [idft_smul, vk_idft P _ hP]
    simp only [← Complex.ofReal_mul, ← Complex.ofReal_sum, Complex.ofReal_re]
    simp only [← quad_expand, mul_sum]
    rw [sum_comm]
    refine sum_congr rfl fun y _ => sum_congr rfl fun l _ => ?_
    have : ∑ j, modes (y + r) j * V j l - ∑ j, modes y j * V j l = ∑ j, (modes (y + r) j - modes y j) * V j l := by
      rw [← sum_sub_distrib]; exact sum_congr rfl fun j _ => by ring
    rw [this]; ring
  constructor
  · intro h
    unfold dphiVii den pairMean
    rw [key, pupilCorr_eq, gMax_eq P hP, if_pos h]; ring
  · intro h
    unfold dphiVii den
    rw [pupilCorr_eq, gMax_eq P hP, if_neg (not_lt.2 h)]; ring

/-- C112: whatever the decomposition, the structure function is non-negative, and it vanishes at zero separation. -/
theorem dphiVii_nonneg {N m : ℕ} [NeZero N] (P : Pix N → ℝ) (hP : ∀ x, P x = 0 ∨ P x = 1)
    (modes : Pix N → Fin m → ℝ) (V : Matrix (Fin m) (Fin m) ℝ) (ss : Fin m → ℝ) (hs : ∀ l, 0 ≤ ss l) (r : Pix N) :
    0 ≤ dphiVii P modes V ss r ∧ dphiVii P modes V ss 0 = 0 := by
  have h := dphiVii_spec P hP modes V ss
  constructor
  · rcases lt_or_ge 1e-7 (overlap P r / overlap P 0) with hr | hr
    · rw [(h r).1 hr]
      unfold pairMean
      refine div_nonneg (sum_nonneg fun y _ => mul_nonneg ?_ ?_) (overlap_le P hP r).1
      · rcases hP y with h | h <;> rcases hP (y + r) with h' | h' <;> rw [h, h'] <;> norm_num
      · rw [← quad_expand]
        exact sum_nonneg fun l _ => mul_nonneg (hs l) (sq_nonneg _)
    · rw [(h r).2 hr]
  · rcases lt_or_ge 1e-7 (overlap P 0 / overlap P 0) with hr | hr
    · rw [(h 0).1 hr]; unfold pairMean; simp
    · exact (h 0).2 hr

/-- C112: the structure function is the one of the given covariance when the matrix returned by the decomposition
satisfies `V diag(s) Vᵀ = C`; in particular for a symmetric `V` and a positive semi-definite `C` (the case `U = Vᵀ`).
Missing from the full property: the other decompositions, for which it is false (`dphiVii_transposed`). -/
theorem dphiVii_covariance_partial {N m : ℕ} [NeZero N] (P : Pix N → ℝ) (hP : ∀ x, P x = 0 ∨ P x = 1)
    (modes : Pix N → Fin m → ℝ) (C U V : Matrix (Fin m) (Fin m) ℝ) (ss : Fin m → ℝ) (hsvd : IsSvd C U ss V)
    (hU : U = V.transpose) (hV : V.transpose = V) (r : Pix N) (hr : 1e-7 < overlap P r / overlap P 0) :
    dphiVii P modes V ss r = pairMean P modes C r := by
  rw [(dphiVii_spec P hP modes V ss r).1 hr]
  have e : V * Matrix.diagonal ss * V.transpose = C := by rw [hsvd.eq, hU, hV]
  rw [e]

theorem svd_rows {m : ℕ} (c : Fin m → ℝ) (U V : Matrix (Fin m) (Fin m) ℝ) (ss : Fin m → ℝ)
    (h : IsSvd (Matrix.diagonal c) U ss V) (k i : Fin m) : V k i * c i ^ 2 = ss k ^ 2 * V k i := by
  have hU : U.transpose * U = 1 := mul_eq_one_comm.1 h.u
  have e : V * ((Matrix.diagonal c).transpose * Matrix.diagonal c) = Matrix.diagonal (fun k => ss k * ss k) * V := by
    calc V * ((Matrix.diagonal c).transpose * Matrix.diagonal c)
        = (V * V.transpose) * Matrix.diagonal ss * (U.transpose * U) * Matrix.diagonal ss * V := by
          rw [h.eq]
          simp only [Matrix.transpose_mul, Matrix.diagonal_transpose, Matrix.mul_assoc]
      _ = _ := by
          rw [h.v, hU, Matrix.one_mul, Matrix.mul_one, Matrix.diagonal_mul_diagonal]
  have e2 := congrFun (congrFun e k) i
  rw [Matrix.diagonal_transpose, Matrix.diagonal_mul_diagonal, Matrix.mul_diagonal, Matrix.diagonal_mul] at e2
  rw [pow_two, pow_two]; exact e2

/-- C112 (violation): the matrix `V` of the decomposition is used by columns instead of by rows. For three
uncorrelated modes of variances 1, 3 and 2, every admissible decomposition makes the code use the variances 2, 1
and 3. -/
theorem dphiVii_transposed (U V : Matrix (Fin 3) (Fin 3) ℝ) (ss : Fin 3 → ℝ)
    (h : IsSvd (Matrix.diagonal ![1, 3, 2]) U ss V) :
    V * Matrix.diagonal ss * V.transpose = Matrix.diagonal ![2, 1, 3] := by
  have hr := svd_rows _ U V ss h
  have hV' : V.transpose * V = 1 := mul_eq_one_comm.1 h.v
  have hval : ∀ k i, V k i ≠ 0 → ss k = (![1, 3, 2] : Fin 3 → ℝ) i := by
    intro k i hne
    have := hr k i
    have h2 : (![1, 3, 2] : Fin 3 → ℝ) i ^ 2 = ss k ^ 2 := by
      apply mul_left_cancel₀ hne; rw [this]; ring
    have hc : 0 ≤ (![1, 3, 2] : Fin 3 → ℝ) i := by fin_cases i <;> simp
    exact ((sq_eq_sq₀ hc (h.nonneg k)).1 h2).symm
  have hcol : ∀ i, ∃ k, ss k = (![1, 3, 2] : Fin 3 → ℝ) i := by
    intro i
    by_contra hn
    push Not at hn
    have hz : ∀ k, V k i = 0 := fun k => by
      by_contra hne; exact hn k (hval k i hne)
    have := congrFun (congrFun hV' i) i
    rw [Matrix.mul_apply, Matrix.one_apply_eq] at this
    simp [hz] at this
  have h01 := h.sorted 0 1 (by decide)
  have h12 := h.sorted 1 2 (by decide)
  obtain ⟨a, ha⟩ := hcol 0
  obtain ⟨b, hb⟩ := hcol 1
  obtain ⟨c, hc⟩ := hcol 2
  have hs : ss 0 = 3 ∧ ss 1 = 2 ∧ ss 2 = 1 := by
    fin_cases a <;> fin_cases b <;> fin_cases c <;> simp_all <;> linarith
  obtain ⟨s0, s1, s2⟩ := hs
  have z : ∀ k i, ss k ≠ (![1, 3, 2] : Fin 3 → ℝ) i → V k i = 0 := by
    intro k i hne; by_contra h0; exact hne (hval k i h0)
  have z00 : V 0 0 = 0 := z 0 0 (by rw [s0]; norm_num)
  have z02 : V 0 2 = 0 := z 0 2 (by rw [s0]; show (3 : ℝ) ≠ 2; norm_num)
  have z10 : V 1 0 = 0 := z 1 0 (by rw [s1]; norm_num)
  have z11 : V 1 1 = 0 := z 1 1 (by rw [s1]; norm_num)
  have z21 : V 2 1 = 0 := z 2 1 (by rw [s2]; norm_num)
  have z22 : V 2 2 = 0 := z 2 2 (by rw [s2]; show (1 : ℝ) ≠ 2; norm_num)
  have d : ∀ k, ∑ i, V k i * V k i = 1 := by
    intro k
    have := congrFun (congrFun h.v k) k
    rw [Matrix.mul_apply, Matrix.one_apply_eq] at this
    simpa only [Matrix.transpose_apply] using this
  have d0 := d 0; have d1 := d 1; have d2 := d 2
  simp only [Fin.sum_univ_three, z00, z02, z10, z11, z21, z22] at d0 d1 d2
  ext i j
  rw [Matrix.mul_apply]
  simp only [Matrix.mul_diagonal, Matrix.transpose_apply, Fin.sum_univ_three]
  fin_cases i <;> fin_cases j <;>
    simp [z00, z02, z10, z11, z21, z22, s0, s1, s2, Matrix.diagonal] <;> linarith

/-- The hypotheses of `dphiVii_transposed` are met by the decomposition with a permutation matrix. -/
theorem svd_example : IsSvd (Matrix.diagonal ![1, 3, 2]) (!![0, 1, 0; 0, 0, 1; 1, 0, 0] : Matrix (Fin 3) (Fin 3) ℝ).transpose
    ![3, 2, 1] !![0, 1, 0; 0, 0, 1; 1, 0, 0] := by
  refine ⟨?_, ?_, ?_, ?_, ?_⟩
  · ext i j; fin_cases i <;> fin_cases j <;> simp [Matrix.mul_apply, Fin.sum_univ_three, Matrix.diagonal]
  · ext i j; fin_cases i <;> fin_cases j <;> simp [Matrix.mul_apply, Fin.sum_univ_three]
  · ext i j; fin_cases i <;> fin_cases j <;> simp [Matrix.mul_apply, Fin.sum_univ_three]
  · intro k; fin_cases k <;> simp
  · intro k l h; fin_cases k <;> fin_cases l <;> simp_all <;> norm_num

/-- C112 (violation): a negative variance (noise larger than the measurement) is used as a positive one: the
singular values of a symmetric matrix are the moduli of its eigenvalues. -/
theorem dphiVii_negative {N : ℕ} [NeZero N] (P : Pix N → ℝ) (hP : ∀ x, P x = 0 ∨ P x = 1)
    (modes : Pix N → Fin 1 → ℝ) (c : ℝ) (hc : c < 0) (U V : Matrix (Fin 1) (Fin 1) ℝ) (ss : Fin 1 → ℝ)
    (h : IsSvd (Matrix.diagonal (fun _ => c)) U ss V) (r : Pix N) (hr : 1e-7 < overlap P r / overlap P 0) :
    dphiVii P modes V ss r = pairMean P modes (Matrix.diagonal (fun _ => -c)) r := by
  rw [(dphiVii_spec P hP modes V ss r).1 hr]
  have hv : V 0 0 * V 0 0 = 1 := by
    have := congrFun (congrFun h.v 0) 0
    rw [Matrix.mul_apply, Matrix.one_apply_eq] at this
    simpa using this
  have h1 := svd_rows _ U V ss h 0 0
  have hne : V 0 0 ≠ 0 := fun h0 => by rw [h0] at hv; norm_num at hv
  have h2 : ss 0 ^ 2 = (-c) ^ 2 := by
    apply mul_left_cancel₀ hne; rw [neg_sq, h1]; ring
  have h3 : ss 0 = -c := (sq_eq_sq₀ (h.nonneg 0) (by linarith)).1 h2
  congr 1
  ext i j
  fin_cases i; fin_cases j
  simp only [Matrix.mul_apply, Matrix.transpose_apply, Matrix.diagonal]
  simp [h3]
  rw [mul_assoc, mul_comm c, ← mul_assoc, hv, one_mul]

/-- C112 (violation): with a pupil of transmission 1/2 everywhere, a pure piston gets the structure function -1 at
every separation (it should be zero). -/
theorem dphiVii_grey {N : ℕ} [NeZero N] (r : Pix N) :
    dphiVii (fun _ : Pix N => 1 / 2) (fun _ (_ : Fin 1) => 1) 1 (fun _ => 1) r = -1 := by
  have hN : (N : ℝ) ≠ 0 := Nat.cast_ne_zero.2 (NeZero.ne N)
  have hc : ∀ x : Pix N, pupilCorr (fun _ : Pix N => (1 / 2 : ℝ)) x = (N : ℝ) ^ 2 / 4 := by
    intro x; rw [pupilCorr_eq]; unfold overlap
    rw [sum_const, card_univ, Fintype.card_prod, ZMod.card, nsmul_eq_mul]; push_cast; ring
  have hM : mAll (fun _ : Pix N => (1 / 2 : ℝ)) (fun _ (_ : Fin 1) => (1 : ℝ)) 1 0 = fun _ => 1 / 2 := by
    ext x; simp [mAll]
  have hg : gMax (fun _ : Pix N => (1 / 2 : ℝ)) = (N : ℝ) ^ 2 / 4 := by
    unfold gMax; simp only [hc]; exact sup'_const _ _
  unfold dphiVii
  simp only [univ_unique, Fin.default_eq_zero, sum_singleton, one_mul, hM]
  have e : (fun k : Pix N => ((2 * vk (fun _ : Pix N => (1 / 2 : ℝ)) (fun _ => 1 / 2) k : ℝ) : ℂ))
      = fun k => (2 : ℂ) * ((vk (fun _ : Pix N => (1 / 2 : ℝ)) (fun _ => 1 / 2) k : ℝ) : ℂ) := by
    ext k; push_cast; ring
  rw [e, idft_smul, vk_corr]
  unfold den
  rw [hc, hg, if_pos (by rw [div_self (by positivity)]; norm_num)]
  unfold corr
  rw [sum_const, sum_const, sum_const, card_univ, Fintype.card_prod, ZMod.card]
  rw [show (2 : ℂ) = ((2 : ℝ) : ℂ) by norm_num, ← Complex.ofReal_mul, Complex.ofReal_re]
  simp only [nsmul_eq_mul]; push_cast; field_simp; norm_num

theorem uijPairs_spec (m : ℕ) (p : Fin m × Fin m) : p ∈ uijPairs m ↔ 1 ≤ p.2.val ∧ p.2.val < p.1.val := by
  unfold uijPairs
  simp only [List.mem_flatMap, List.mem_finRange, List.mem_map, List.mem_filter, true_and, Bool.and_eq_true,
    decide_eq_true_eq]
  constructor
  · rintro ⟨i, j, ⟨⟨_, h2⟩, h3⟩, rfl⟩; exact ⟨h2, h3⟩
  · rintro ⟨h1, h2⟩; exact ⟨p.1, p.2, ⟨⟨by omega, h1⟩, h2⟩, rfl⟩

/-- C112 (violation): the other formula (`Uij`) ignores every variance (the diagonal of the covariance) and the whole
first mode: two covariances that agree on the pairs of distinct modes other than the first give the same result. -/
theorem dphiUij_ignores {N m : ℕ} [NeZero N] (P : Pix N → ℝ) (modes : Pix N → Fin m → ℝ)
    (C C' : Matrix (Fin m) (Fin m) ℝ) (h : ∀ i j : Fin m, 1 ≤ j.val → j.val < i.val → C i j = C' i j) :
    dphiUij P modes C = dphiUij P modes C' := by
  unfold dphiUij
  have : ∀ l : List (Fin m × Fin m), (∀ p ∈ l, C p.1 p.2 = C' p.1 p.2) → ∀ d,
      l.foldl (uijStep P modes C) d = l.foldl (uijStep P modes C') d := by
    intro l
    induction l with
    | nil => intro _ d; rfl
    | cons p l ih =>
      intro hl d
      simp only [List.foldl_cons]
      have e : uijStep P modes C d p = uijStep P modes C' d p := by
        ext x; unfold uijStep; rw [hl p (by simp)]
      rw [e]; exact ih (fun q hq => hl q (by simp [hq])) _
  exact this _ (fun p hp => h p.1 p.2 ((uijPairs_spec m p).1 hp).1 ((uijPairs_spec m p).1 hp).2) _

/-- C112 (violation): in particular uncorrelated modes, and any two modes, give no phase error at all. -/
theorem dphiUij_two {N m : ℕ} [NeZero N] (P : Pix N → ℝ) (modes : Pix N → Fin m → ℝ)
    (C : Matrix (Fin m) (Fin m) ℝ) (h : m ≤ 2 ∨ ∀ i j, i ≠ j → C i j = 0) (x : Pix N) : dphiUij P modes C x = 0 := by
  have e : dphiUij P modes C = dphiUij P modes 0 := by
    apply dphiUij_ignores
    intro i j h1 h2
    rcases h with h | h
    · have := i.isLt; omega
    · rw [h i j (fun hij => by rw [hij] at h2; omega)]; rfl
  rw [e]
  unfold dphiUij
  have : ∀ l : List (Fin m × Fin m), l.foldl (uijStep P modes 0) (fun _ => 0) = fun _ => (0 : ℝ) := by
    intro l
    induction l with
    | nil => rfl
    | cons p l ih =>
      simp only [List.foldl_cons]
      have e : uijStep P modes 0 (fun _ => 0) p = fun _ => 0 := by ext x; simp [uijStep]
      rw [e, ih]
  rw [this]

/-- C112: the function returns exactly when the covariance is not zero and the basis is one of the two known. A
perfect correction (zero covariance) raises UnboundLocalError (violation: the structure function should be zero). -/
theorem modes2Dphi_ok_iff {N m : ℕ} [NeZero N]
    (svd : Matrix (Fin m) (Fin m) ℝ → (Fin m → ℝ) × Matrix (Fin m) (Fin m) ℝ) (basis : Basis)
    (C : Matrix (Fin m) (Fin m) ℝ) (modes : Pix N → Fin m → ℝ) (P : Pix N → ℝ) :
    ((∃ d, modes2Dphi svd basis C modes P = .ok d) ↔ C ≠ 0 ∧ basis ≠ .other) ∧
    modes2Dphi svd basis 0 modes P = .error .unboundLocal := by
  constructor
  · unfold modes2Dphi
    cases basis <;> by_cases hC : C = 0 <;> simp [hC]
  · unfold modes2Dphi; simp

/-- C112: with the `Vii` basis, any svd routine that keeps its promise and a pupil of lit and dark pixels, the
structure function returned for a non-zero covariance is non-negative and vanishes at zero separation. -/
theorem modes2Dphi_nonneg {N m : ℕ} [NeZero N]
    (svd : Matrix (Fin m) (Fin m) ℝ → (Fin m → ℝ) × Matrix (Fin m) (Fin m) ℝ)
    (C : Matrix (Fin m) (Fin m) ℝ) (hsvd : ∃ U, IsSvd C U (svd C).1 (svd C).2) (modes : Pix N → Fin m → ℝ) (P : Pix N → ℝ) (hP : ∀ x, P x = 0 ∨ P x = 1)
    (d : Pix N → ℝ) (h : modes2Dphi svd .vii C modes P = .ok d) (r : Pix N) : 0 ≤ d r ∧ d 0 = 0 := by
  unfold modes2Dphi at h
  by_cases hC : C = 0
  · simp [hC] at h
  · simp only [hC, ne_eq, not_false_eq_true, true_and, if_true, Except.ok.injEq] at h
    obtain ⟨U, hU⟩ := hsvd
    rw [← h]
    exact dphiVii_nonneg P hP modes _ _ hU.nonneg r

/-! ### C114: jitter -/

/-- Specification: `aᵀ C a`. -/
def quad2 (C : Matrix (Fin 2) (Fin 2) ℝ) (x y : ℝ) : ℝ := C 0 0 * x ^ 2 + (C 0 1 + C 1 0) * x * y + C 1 1 * y ^ 2

/-- C114: for a symmetric covariance of tip-tilt the structure function is the quadratic form of that covariance at
the separation rotated by the pupil angle, times `(2π/λ)² (samp/2)²`. -/
theorem jitterSF_spec (wvl samp ang : ℝ) (C : Matrix (Fin 2) (Fin 2) ℝ) (hC : C 0 1 = C 1 0) (u v : ℝ) :
    jitterSF wvl samp ang C u v = (2 * Real.pi / wvl) ^ 2 * (samp / 2) ^ 2 *
      quad2 C (u * Real.cos ang + v * Real.sin ang) (-u * Real.sin ang + v * Real.cos ang) := by
  unfold jitterSF rotU rotV quad2; rw [hC]; ring

theorem quad2_eq (C : Matrix (Fin 2) (Fin 2) ℝ) (x y : ℝ) : quad2 C x y = star ![x, y] ⬝ᵥ (C.mulVec ![x, y]) := by
  simp [quad2, Matrix.mulVec, dotProduct, Fin.sum_univ_two]; ring

/-- C114: it vanishes at zero separation, is even, and is non-negative at every separation for a positive
semi-definite covariance (in particular the covariance of measured slopes, `sampleCov_posSemidef`). -/
theorem jitterSF_nonneg (wvl samp ang : ℝ) (C : Matrix (Fin 2) (Fin 2) ℝ) (u v : ℝ) :
    jitterSF wvl samp ang C 0 0 = 0 ∧ jitterSF wvl samp ang C (-u) (-v) = jitterSF wvl samp ang C u v ∧
    (C.PosSemidef → 0 ≤ jitterSF wvl samp ang C u v) := by
  refine ⟨by simp [jitterSF, rotU, rotV], by unfold jitterSF rotU rotV; ring, fun h => ?_⟩
  have hs : C 0 1 = C 1 0 := by
    have := congrFun (congrFun h.1 1) 0
    rw [Matrix.conjTranspose_apply] at this; simpa using this
  rw [jitterSF_spec wvl samp ang C hs]
  refine mul_nonneg (by positivity) ?_
  rw [quad2_eq]
  exact h.dotProduct_mulVec_nonneg _

/-- C114: turning the pupil by a half turn changes nothing, and for an isotropic jitter no rotation does. -/
theorem jitterSF_rotation (wvl samp ang s : ℝ) (C : Matrix (Fin 2) (Fin 2) ℝ) (u v : ℝ) :
    jitterSF wvl samp (ang + Real.pi) C u v = jitterSF wvl samp ang C u v ∧
    jitterSF wvl samp ang (Matrix.diagonal fun _ => s) u v
      = (2 * Real.pi / wvl) ^ 2 * (samp / 2) ^ 2 * s * (u ^ 2 + v ^ 2) := by
  constructor
  · unfold jitterSF rotU rotV; rw [Real.cos_add_pi, Real.sin_add_pi]; ring
  · unfold jitterSF rotU rotV
    simp only [Matrix.diagonal_apply_eq, Matrix.diagonal_apply_ne _ (show (1 : Fin 2) ≠ 0 by decide)]
    have := Real.sin_sq_add_cos_sq ang
    have e : Real.cos ang ^ 2 = 1 - Real.sin ang ^ 2 := by linarith
    ring_nf; rw [e]; ring

/-- C114: more jitter gives a larger structure function: it is monotone in the covariance. -/
theorem jitterSF_mono (wvl samp ang : ℝ) (C C' : Matrix (Fin 2) (Fin 2) ℝ) (h : (C' - C).PosSemidef) (u v : ℝ) :
    jitterSF wvl samp ang C u v ≤ jitterSF wvl samp ang C' u v := by
  have := (jitterSF_nonneg wvl samp ang (C' - C) u v).2.2 h
  have e : jitterSF wvl samp ang (C' - C) u v = jitterSF wvl samp ang C' u v - jitterSF wvl samp ang C u v := by
    unfold jitterSF; simp only [Matrix.sub_apply]; ring
  linarith

/-- C114: the covariance computed from any series of measurements is positive semi-definite. -/
theorem sampleCov_posSemidef {t m : ℕ} (s : Matrix (Fin t) (Fin m) ℝ) (n : ℕ) : (sampleCov s n).PosSemidef := by
  have e : sampleCov s n = (1 / (n : ℝ)) • (s.conjTranspose * s) := by
    ext a b
    simp only [sampleCov, Matrix.smul_apply, Matrix.mul_apply, Matrix.conjTranspose_apply, star_trivial, smul_eq_mul]
    ring
  rw [e]
  exact (Matrix.posSemidef_conjTranspose_mul_self s).smul (by positivity)

/-- Without a tip-tilt noise estimate the structure function of measured slopes is non-negative everywhere. -/
example (s : Matrix (Fin 3) (Fin 2) ℝ) (u v : ℝ) : 0 ≤ jitterSF 1.6e-6 2 0.3 (sampleCov s 3) u v :=
  (jitterSF_nonneg _ _ _ _ u v).2.2 (sampleCov_posSemidef s 3)

/-- C151 (violation): after subtraction of the noise the covariance may lose positivity, and the structure function
is then negative (an OTF above one). -/
theorem jitterSF_noise_violation : jitterSF 1 2 0 (Matrix.diagonal (fun _ => 1) - Matrix.diagonal (fun _ => 2)) 1 0 < 0 := by
  unfold jitterSF rotU rotV
  simp [Matrix.diagonal]
  norm_num
  have := Real.pi_pos
  positivity

/-! ### C115: pixel -/

theorem npSinc_zero : npSinc 0 = 1 := by simp [npSinc]

/-- C115: the transfer function of the pixel is one at zero frequency and never exceeds one in modulus; it is even in
each direction. -/
theorem otfPixel_bound (D wvl samp ps u v : ℝ) :
    otfPixel D wvl samp ps 0 0 = 1 ∧ |otfPixel D wvl samp ps u v| ≤ 1 ∧
    otfPixel D wvl samp ps (-u) v = otfPixel D wvl samp ps u v := by
  refine ⟨by simp [otfPixel, npSinc], ?_, ?_⟩
  · unfold otfPixel npSinc
    rw [abs_mul]
    exact mul_le_one₀ (Real.abs_sinc_le_one _) (abs_nonneg _) (Real.abs_sinc_le_one _)
  · unfold otfPixel npSinc
    dsimp only
    rw [show Real.pi * (-u * (D / wvl * samp / 2) * ps) = -(Real.pi * (u * (D / wvl * samp / 2) * ps)) by ring,
      Real.sinc_neg]

theorem sinc_half {x : ℝ} (h : |x| ≤ 1 / 2) : 2 / Real.pi ≤ npSinc x := by
  wlog hx : 0 ≤ x with H
  · have := H (x := -x) (by rwa [abs_neg]) (by linarith)
    unfold npSinc at *
    rwa [mul_neg, Real.sinc_neg] at this
  rw [abs_of_nonneg hx] at h
  rcases hx.eq_or_lt with rfl | hx
  · rw [npSinc_zero, div_le_one Real.pi_pos]; exact le_of_lt (lt_trans (by norm_num) Real.pi_gt_three)
  · unfold npSinc
    have hp := Real.pi_pos
    rw [Real.sinc_of_ne_zero (by positivity)]
    rw [le_div_iff₀ (by positivity)]
    exact Real.mul_le_sin (by positivity) (by nlinarith)

/-- C115: when the sampling is the one of the camera (`samp = λ/(D ps)`), the transfer function of the pixel stays
above `(2/π)²` over the whole band `|u|, |v| ≤ 1`: no frequency is lost. -/
theorem otfPixel_band (D wvl ps u v : ℝ) (hD : 0 < D) (hw : 0 < wvl) (hp : 0 < ps) (hu : |u| ≤ 1) (hv : |v| ≤ 1) :
    (2 / Real.pi) ^ 2 ≤ otfPixel D wvl (wvl / (D * ps)) ps u v := by
  unfold otfPixel
  have e : ∀ x : ℝ, x * (D / wvl * (wvl / (D * ps)) / 2) * ps = x / 2 := by intro x; field_simp
  simp only [e]
  rw [pow_two]
  have h2 : 0 ≤ 2 / Real.pi := by have := Real.pi_pos; positivity
  refine mul_le_mul (sinc_half ?_) (sinc_half ?_) h2 (le_trans h2 (sinc_half ?_)) <;>
    rw [abs_div, abs_two] <;> linarith

example : (2 / Real.pi) ^ 2 ≤ otfPixel 10 1.6e-6 (1.6e-6 / (10 * 5e-8)) 5e-8 1 (-1 / 2) :=
  otfPixel_band _ _ _ _ _ (by norm_num) (by norm_num) (by norm_num) (by norm_num) (by rw [abs_le]; constructor <;> norm_num)

/-! ### C56: Strehl ratio and wavefront error -/

/-- Which Strehl ratios give a finite wavefront error: those in (0, 1]. -/
theorem sr2wfe_iff (S wvl : ℝ) : (∃ w, sr2wfe S wvl = some w) ↔ 0 < S ∧ S ≤ 1 := by
  unfold sr2wfe npSqrt
  by_cases h : 0 < S
  · have : 0 ≤ -Real.log S ↔ S ≤ 1 := by
      rw [neg_nonneg]; exact Real.log_nonpos_iff h.le
    by_cases h1 : S ≤ 1
    · simp [h, h1, this]
    · have : ¬ 0 ≤ -Real.log S := fun hh => h1 (this.1 hh)
      simp only [neg_nonneg] at this
      simp [h, h1, this]
  · simp [h]

/-- C56: from a Strehl ratio in (0,1] to a wavefront error and back. -/
theorem wfe2sr_sr2wfe (S wvl : ℝ) (h0 : 0 < S) (h1 : S ≤ 1) (hw : 0 < wvl) :
    ∃ w, sr2wfe S wvl = some w ∧ 0 ≤ w ∧ wfe2sr w wvl = S := by
  have hl : 0 ≤ -Real.log S := by rw [neg_nonneg]; exact Real.log_nonpos h0.le h1
  refine ⟨_, by simp only [sr2wfe, npSqrt]; rw [if_pos h0, if_pos hl]; rfl, ?_, ?_⟩
  · have := Real.pi_pos; positivity
  · unfold wfe2sr
    have hpi := Real.pi_pos
    have e : 2 * Real.pi * (1e9 * Real.sqrt (-Real.log S) * wvl / 2 / Real.pi) * 1e-9 / wvl = Real.sqrt (-Real.log S) := by
      field_simp; ring
    rw [e, Real.sq_sqrt hl, neg_neg, Real.exp_log h0]

/-- C56: from a non-negative wavefront error to a Strehl ratio and back. -/
theorem sr2wfe_wfe2sr (w wvl : ℝ) (h0 : 0 ≤ w) (hw : 0 < wvl) : sr2wfe (wfe2sr w wvl) wvl = some w := by
  have hpi := Real.pi_pos
  unfold sr2wfe wfe2sr npSqrt
  rw [if_pos (Real.exp_pos _), Real.log_exp, neg_neg, if_pos (sq_nonneg _), Option.map_some,
    Real.sqrt_sq (by positivity)]
  congr 1; field_simp; ring

/-- C56: a larger error is a smaller Strehl ratio. -/
theorem wfe2sr_anti (w w' wvl : ℝ) (h0 : 0 ≤ w) (h : w < w') (hw : 0 < wvl) : wfe2sr w' wvl < wfe2sr w wvl := by
  have hpi := Real.pi_pos
  unfold wfe2sr
  apply Real.exp_lt_exp.2
  apply neg_lt_neg
  apply pow_lt_pow_left₀ _ (by positivity) (by norm_num)
  apply div_lt_div_of_pos_right _ hw
  nlinarith

/-- A Strehl ratio of 60 % at 1.6 micron. -/
example : ∃ w, sr2wfe 0.6 1.6e-6 = some w ∧ 0 ≤ w ∧ wfe2sr w 1.6e-6 = 0.6 :=
  wfe2sr_sr2wfe _ _ (by norm_num) (by norm_num) (by norm_num)

/-! ### C113: error breakdown -/

theorem npSqrt_spec {x w : ℝ} (h : npSqrt x = some w) : 0 ≤ x ∧ 0 ≤ w ∧ w ^ 2 = x := by
  unfold npSqrt at h
  split_ifs at h with hx
  simp only [Option.some.injEq] at h
  rw [← h]; exact ⟨hx, Real.sqrt_nonneg _, Real.sq_sqrt hx⟩

theorem mapM_id {l : List (Option ℝ)} {v : List ℝ} (h : l.mapM id = some v) : l = v.map some := by
  induction l generalizing v with
  | nil => simp at h; simp [← h]
  | cons a l ih =>
    rw [List.mapM_cons] at h
    simp only [id_eq, Option.bind_eq_bind, Option.bind_eq_some_iff, Option.pure_def] at h
    obtain ⟨x, hx, y, hy, hv⟩ := h
    simp only [Option.some.injEq] at hv
    rw [← hv, hx, ih hy]; rfl

/-- The quadrature is defined exactly when all terms are, and its square is the sum of their squares. -/
theorem quadrature_iff (l : List (Option ℝ)) (w : ℝ) : quadrature l = some w ↔
    ∃ v : List ℝ, l = v.map some ∧ 0 ≤ w ∧ w ^ 2 = (v.map (fun x => x ^ 2)).sum := by
  unfold quadrature
  simp only [Option.bind_eq_bind, Option.bind_eq_some_iff]
  constructor
  · rintro ⟨v, hv, hq⟩
    exact ⟨v, mapM_id hv, (npSqrt_spec hq).2.1, (npSqrt_spec hq).2.2⟩
  · rintro ⟨v, rfl, h0, hs⟩
    refine ⟨v, ?_, ?_⟩
    · clear hs
      induction v with
      | nil => rfl
      | cons a v ih => rw [List.map_cons, List.mapM_cons, ih]; rfl
    · unfold npSqrt
      have : 0 ≤ (v.map (fun x => x ^ 2)).sum := by rw [← hs]; positivity
      rw [if_pos this, ← hs, Real.sqrt_sq h0]

/-- C113: whenever a total is reported, each of its seven terms is a number, its square is the sum of their squares,
it is at least each of them in modulus, and the total with pixel is `√(total² + pixel²)`. -/
theorem breakdown_total_partial {ι : Type} [Fintype ι] (a : RecIn ι) (w : ℝ) (h : (breakdown a).total = some w) :
    ∃ f n t s x q : ℝ, (breakdown a).fitting = some f ∧ (breakdown a).hoNoise = some n ∧
      (breakdown a).ttNoise = some t ∧ (breakdown a).servo = some s ∧ (breakdown a).tipTilt = some x ∧
      (breakdown a).totalAni = some q ∧ 0 ≤ w ∧
      w ^ 2 = a.ncpa ^ 2 + f ^ 2 + n ^ 2 + t ^ 2 + s ^ 2 + x ^ 2 + q ^ 2 ∧
      (∀ y ∈ [a.ncpa, f, n, t, s, x, q], |y| ≤ w) ∧
      (∀ p, (breakdown a).pixel = some p → ∃ wp, (breakdown a).totalPix = some wp ∧ 0 ≤ wp ∧ wp ^ 2 = w ^ 2 + p ^ 2) := by
  have h' := (quadrature_iff _ _).1 h
  obtain ⟨v, hv, h0, hs⟩ := h'
  match v, hv with
  | [], hv => simp at hv
  | [_], hv => simp at hv
  | [_, _], hv => simp at hv
  | [_, _, _], hv => simp at hv
  | [_, _, _, _], hv => simp at hv
  | [_, _, _, _, _], hv => simp at hv
  | [_, _, _, _, _, _], hv => simp at hv
  | _ :: _ :: _ :: _ :: _ :: _ :: _ :: _ :: _, hv => simp at hv
  | [c, f, n, t, s, x, q], hv =>
    simp only [List.map_cons, List.map_nil, List.cons.injEq, Option.some.injEq, and_true] at hv
    obtain ⟨hc, hf, hn, ht, hse, hx, hq⟩ := hv
    simp only [List.map_cons, List.map_nil, List.sum_cons, List.sum_nil, add_zero] at hs
    refine ⟨f, n, t, s, x, q, hf, hn, ht, hse, hx, hq, h0, ?_, ?_, ?_⟩
    · rw [hs, hc]; ring
    · intro y hy
      apply abs_le_of_sq_le_sq _ h0
      rw [hs]
      have := sq_nonneg c; have := sq_nonneg f; have := sq_nonneg n; have := sq_nonneg t
      have := sq_nonneg s; have := sq_nonneg x; have := sq_nonneg q
      simp only [List.mem_cons, List.not_mem_nil, or_false] at hy
      rcases hy with rfl | rfl | rfl | rfl | rfl | rfl | rfl <;> (try rw [hc]) <;> linarith
    · intro p hp
      refine ⟨Real.sqrt (w ^ 2 + p ^ 2), ?_, Real.sqrt_nonneg _, Real.sq_sqrt (by positivity)⟩
      refine (quadrature_iff _ _).2 ⟨[w, p], ?_, Real.sqrt_nonneg _, ?_⟩
      · have h1 : (breakdown a).total = some w := h
        have h2 : (breakdown a).pixel = some p := hp
        simp only [List.map_cons, List.map_nil]
        exact congrArg₂ _ h1 (congrArg₂ _ h2 rfl)
      · rw [Real.sq_sqrt (by positivity)]; simp

/-- C113: the Maréchal Strehl ratio is a percentage in (0, 100] that decreases as the total grows. -/
theorem breakdown_marechal {ι : Type} [Fintype ι] (a : RecIn ι) (w : ℝ) (h : (breakdown a).total = some w) :
    (breakdown a).marechal = some (100 * wfe2sr w a.wvl) ∧ 0 < 100 * wfe2sr w a.wvl ∧ 100 * wfe2sr w a.wvl ≤ 100 := by
  refine ⟨?_, ?_, ?_⟩
  · show marechal a.wvl (breakdown a).total = _
    rw [h]; unfold marechal wfe2sr
    simp only [Option.map_some]; congr 1
    rw [show w * 2 * Real.pi * 1e-9 / a.wvl = 2 * Real.pi * w * 1e-9 / a.wvl by ring]; norm_num
  · have := Real.exp_pos (-(2 * Real.pi * w * 1e-9 / a.wvl) ^ 2); unfold wfe2sr; positivity
  · have : wfe2sr w a.wvl ≤ 1 := Real.exp_le_one_iff.2 (by have := sq_nonneg (2 * Real.pi * w * 1e-9 / a.wvl); linarith)
    linarith

/-- C113: Strehl ratios of structure functions. With a non-negative diffraction-limited OTF that is not zero
everywhere: in (0,1] for a non-negative structure function, and smaller for a larger structure function. -/
theorem strehlSF_spec {ι : Type} [Fintype ι] (dl sf sf' : ι → ℝ) (hdl : ∀ i, 0 ≤ dl i) (hpos : ∃ i, 0 < dl i) :
    0 < strehlSF dl sf ∧ ((∀ i, 0 ≤ sf i) → strehlSF dl sf ≤ 1) ∧
    ((∀ i, sf i ≤ sf' i) → strehlSF dl sf' ≤ strehlSF dl sf) := by
  have hS : 0 < ∑ i, dl i := by
    obtain ⟨j, hj⟩ := hpos
    exact sum_pos' (fun i _ => hdl i) ⟨j, mem_univ j, hj⟩
  unfold strehlSF strehl
  refine ⟨?_, fun h => ?_, fun h => ?_⟩
  · apply div_pos _ hS
    obtain ⟨j, hj⟩ := hpos
    exact sum_pos' (fun i _ => mul_nonneg (hdl i) (Real.exp_pos _).le) ⟨j, mem_univ j, mul_pos hj (Real.exp_pos _)⟩
  · rw [div_le_one hS]
    refine sum_le_sum fun i _ => mul_le_of_le_one_right (hdl i) (Real.exp_le_one_iff.2 ?_)
    have := h i; linarith
  · apply div_le_div_of_nonneg_right _ hS.le
    refine sum_le_sum fun i _ => mul_le_mul_of_nonneg_left (Real.exp_le_exp.2 ?_) (hdl i)
    have := h i; linarith

theorem sr2wfe_anti {S S' wvl : ℝ} (hw : 0 < wvl) (h0 : 0 < S) (h : S ≤ S') (h1 : S' ≤ 1) :
    ∃ w w', sr2wfe S wvl = some w ∧ sr2wfe S' wvl = some w' ∧ 0 ≤ w' ∧ w' ≤ w := by
  obtain ⟨w, hw1, hw2, hw3⟩ := wfe2sr_sr2wfe S wvl h0 (h.trans h1) hw
  obtain ⟨w', hw1', hw2', hw3'⟩ := wfe2sr_sr2wfe S' wvl (h0.trans_le h) h1 hw
  refine ⟨w, w', hw1, hw1', hw2', ?_⟩
  by_contra hn
  have := wfe2sr_anti w w' wvl hw2 (not_le.1 hn) hw
  linarith

/-- C113: the breakdown of a physical system is complete: with a non-negative OTF, non-negative structure functions,
a noise covariance of tip-tilt that is positive semi-definite and a residual covariance exceeding `1 + pn` times the
noise (both for tip-tilt and, in trace, for the other modes), every entry of the report other than the focal one is a
number. -/
theorem breakdown_complete {ι : Type} [Fintype ι] (a : RecIn ι) (hdl : ∀ i, 0 ≤ a.dl i) (hpos : ∃ i, 0 < a.dl i)
    (hw : 0 < a.wvl) (hr : 0 < a.r0) (hfit : ∀ i, 0 ≤ a.fit i) (hali : ∀ i, 0 ≤ a.ali i)
    (hpn : 0 ≤ a.pnHo) (hpt : 0 ≤ a.pnTt) (hval : selectValid a.cnDiag a.valid ≠ [])
    (hcn : ∀ x ∈ selectValid a.cnDiag a.valid, 0 ≤ x)
    (hservo : (1 + a.pnHo) * a.cnDiag.sum ≤ a.caoDiag.sum)
    (hCn : a.cnTt.PosSemidef) (hC : (a.ctt - (1 + a.pnTt) • a.cnTt).PosSemidef)
    (hani : ∀ q, a.ani = some q → ∀ i, 0 ≤ q.1 i) :
    (∃ w, (breakdown a).fitting = some w) ∧ (∃ w, (breakdown a).aliasing = some w) ∧
    (∃ w, (breakdown a).hoNoise = some w) ∧ (∃ w, (breakdown a).ttNoise = some w) ∧
    (∃ w, (breakdown a).servo = some w) ∧ (∃ w, (breakdown a).tipTilt = some w) ∧
    (∃ w, (breakdown a).totalAni = some w) ∧ (∃ w, (breakdown a).total = some w) := by
  have hsf : ∀ sf : ι → ℝ, (∀ i, 0 ≤ sf i) → ∃ w, sr2wfe (strehlSF a.dl sf) a.wvl = some w := by
    intro sf h
    have := strehlSF_spec a.dl sf sf hdl hpos
    exact (sr2wfe_iff _ _).2 ⟨this.1, this.2.1 h⟩
  have hr0 : 0 < a.r0 ^ (-(5 / 3) : ℝ) := Real.rpow_pos_of_pos hr _
  have h1 : ∃ w, (breakdown a).fitting = some w := hsf _ fun i => mul_nonneg hr0.le (hfit i)
  have h2 : ∃ w, (breakdown a).aliasing = some w := hsf _ fun i => mul_nonneg hr0.le (hali i)
  have h3 : ∃ w, (breakdown a).hoNoise = some w := by
    have hm : 0 ≤ (selectValid a.cnDiag a.valid).sum / (selectValid a.cnDiag a.valid).length :=
      div_nonneg (List.sum_nonneg hcn) (by positivity)
    show ∃ w, hoNoise a = some w
    unfold hoNoise npMean npSqrt
    rw [if_neg hval]
    simp only [Option.bind_eq_bind, Option.bind_some]
    rw [if_pos (mul_nonneg hpn hm)]; exact ⟨_, rfl⟩
  have hn0 : ∀ i, 0 ≤ jitterSF a.wvl a.samp a.ang (a.pnTt • a.cnTt) (a.u i) (a.v i) := fun i =>
    (jitterSF_nonneg _ _ _ _ _ _).2.2 (hCn.smul hpt)
  have h4 : ∃ w, (breakdown a).ttNoise = some w := hsf _ hn0
  have h5 : ∃ w, (breakdown a).servo = some w := by
    show ∃ w, servo a = some w
    unfold servo npSqrt
    rw [if_pos (div_nonneg (by linarith) (by positivity))]; exact ⟨_, rfl⟩
  have h6 : ∃ w, (breakdown a).tipTilt = some w := by
    show ∃ w, tipTilt a = some w
    unfold tipTilt
    split_ifs with hj
    · have hle : ∀ i, jitterSF a.wvl a.samp a.ang (a.pnTt • a.cnTt) (a.u i) (a.v i) ≤
          jitterSF a.wvl a.samp a.ang (a.ctt - a.cnTt) (a.u i) (a.v i) := fun i => by
        apply jitterSF_mono
        have e : a.ctt - a.cnTt - a.pnTt • a.cnTt = a.ctt - (1 + a.pnTt) • a.cnTt := by
          rw [add_smul, one_smul]; abel
        rw [e]; exact hC
      have hs := (strehlSF_spec a.dl _ (fun i => jitterSF a.wvl a.samp a.ang (a.ctt - a.cnTt) (a.u i) (a.v i)) hdl hpos).2.2 hle
      have hs1 := (strehlSF_spec a.dl (fun i => jitterSF a.wvl a.samp a.ang (a.pnTt • a.cnTt) (a.u i) (a.v i)) (fun _ => 0) hdl hpos).2.1 hn0
      have hs0 := (strehlSF_spec a.dl (fun i => jitterSF a.wvl a.samp a.ang (a.ctt - a.cnTt) (a.u i) (a.v i)) (fun _ => 0) hdl hpos).1
      obtain ⟨w, w', e1, e2, h0, hww⟩ := sr2wfe_anti hw hs0 hs hs1
      unfold diffSq ttNoise
      rw [e1, e2]
      simp only [Option.bind_eq_bind, Option.bind_some]
      unfold npSqrt
      rw [if_pos (by nlinarith)]
      exact ⟨_, rfl⟩
    · exact ⟨0, rfl⟩
  have h7 : ∃ w, (breakdown a).totalAni = some w := by
    show ∃ w, aniTerm a (fun q => q.1) = some w
    unfold aniTerm
    rcases ha : a.ani with _ | q
    · exact ⟨0, rfl⟩
    · exact hsf _ (hani q ha)
  refine ⟨h1, h2, h3, h4, h5, h6, h7, ?_⟩
  obtain ⟨f, hf⟩ := h1; obtain ⟨n, hn⟩ := h3; obtain ⟨t, ht⟩ := h4; obtain ⟨s, hs⟩ := h5
  obtain ⟨x, hx⟩ := h6; obtain ⟨q, hq⟩ := h7
  refine ⟨_, (quadrature_iff _ (Real.sqrt (([a.ncpa, f, n, t, s, x, q].map (fun x => x ^ 2)).sum))).2
    ⟨[a.ncpa, f, n, t, s, x, q], ?_, Real.sqrt_nonneg _, ?_⟩⟩
  · exact congrArg₂ _ rfl (congrArg₂ _ hf (congrArg₂ _ hn (congrArg₂ _ ht (congrArg₂ _ hs (congrArg₂ _ hx
      (congrArg₂ _ hq rfl))))))
  · rw [Real.sq_sqrt]; apply List.sum_nonneg; intro x hx
    simp only [List.mem_map] at hx; obtain ⟨y, _, rfl⟩ := hx; positivity

/-- C113: the measurement noise and the servo-lag share the measured residual without loss: with every actuator
valid, `noise² + servo² = 1e18 (tr Cao - tr Cn)/n`. -/
theorem breakdown_noise_servo {ι : Type} [Fintype ι] (a : RecIn ι) (hall : selectValid a.cnDiag a.valid = a.cnDiag)
    (hn : a.nCom = a.cnDiag.length) (x y : ℝ) (hx : (breakdown a).hoNoise = some x) (hy : (breakdown a).servo = some y) :
    x ^ 2 + y ^ 2 = 1e18 * ((a.caoDiag.sum - a.cnDiag.sum) / a.nCom) := by
  have hx' : hoNoise a = some x := hx
  have hy' : servo a = some y := hy
  unfold hoNoise npMean at hx'
  rw [hall] at hx'
  by_cases he : a.cnDiag = []
  · rw [if_pos he] at hx'; simp at hx'
  rw [if_neg he] at hx'
  simp only [Option.bind_eq_bind, Option.bind_some, Option.bind_eq_some_iff, Option.pure_def, Option.some.injEq] at hx'
  obtain ⟨q, hq, hx2⟩ := hx'
  unfold servo at hy'
  rw [Option.map_eq_some_iff] at hy'
  obtain ⟨p, hp, hy2⟩ := hy'
  have e1 := (npSqrt_spec hq).2.2
  have e2 := (npSqrt_spec hp).2.2
  rw [← hx2, ← hy2, mul_pow, mul_pow, e1, e2, hn]
  ring

/-- C113 (violation): aliasing is reported but not counted: changing it does not change the total. -/
theorem breakdown_ignores_aliasing {ι : Type} [Fintype ι] (a : RecIn ι) (ali : ι → ℝ) :
    (breakdown { a with ali := ali }).total = (breakdown a).total := rfl

/-- A small system on one frequency: a structure function of fitting `2`, one actuator, no tip-tilt correction. -/
noncomputable def sample (ali : ℝ) : RecIn Unit where
  dl := fun _ => 1
  u := fun _ => 0
  v := fun _ => 0
  fit := fun _ => 2
  ali := fun _ => ali
  pix := fun _ => 1
  wvl := 1
  r0 := 1
  samp := 2
  ang := 0
  ncpa := 0
  caoDiag := [4]
  cnDiag := [1]
  valid := [true]
  nCom := 1
  pnHo := 1
  pnTt := 0
  jitter := true
  ctt := 0
  cnTt := 0
  lgs := false
  ani := none

/-- The hypotheses of `breakdown_complete` hold for the sample, so its total is a number. -/
theorem sample_total (ali : ℝ) (h : 0 ≤ ali) : ∃ w, (breakdown (sample ali)).total = some w := by
  have hz : (0 : Matrix (Fin 2) (Fin 2) ℝ).PosSemidef := Matrix.PosSemidef.zero
  refine (breakdown_complete (sample ali) (fun _ => by simp [sample]) ⟨(), by simp [sample]⟩ (by simp [sample])
    (by simp [sample]) (fun _ => by simp [sample]) (fun _ => h) (by simp [sample]) (by simp [sample])
    (by simp [sample, selectValid]) (by simp [sample, selectValid]) (by norm_num [sample]) ?_ ?_ (by simp [sample])).2.2.2.2.2.2.2
  · exact hz
  · show ((0 : Matrix (Fin 2) (Fin 2) ℝ) - _ • 0).PosSemidef
    rw [smul_zero, sub_zero]; exact hz

/-- C113 (violation): the total can be smaller than a reported term, namely the aliasing one. -/
theorem breakdown_total_violation : ∃ (a : RecIn Unit) (w x : ℝ), (breakdown a).total = some w ∧
    (breakdown a).aliasing = some x ∧ w < x := by
  obtain ⟨w, hw⟩ := sample_total 0 le_rfl
  -- an aliasing whose error is larger than the total
  obtain ⟨x, hx⟩ : ∃ x : ℝ, w < x ∧ 0 ≤ x := ⟨|w| + 1, by have := le_abs_self w; linarith, by positivity⟩
  have hpi := Real.pi_pos
  refine ⟨sample (2 * (2 * Real.pi * x * 1e-9 / 1) ^ 2), w, x, ?_, ?_, hx.1⟩
  · rw [← hw]; rfl
  · show sr2wfe (strehlSF _ _) _ = _
    have e : strehlSF (sample (2 * (2 * Real.pi * x * 1e-9 / 1) ^ 2)).dl
        (fun i => (sample (2 * (2 * Real.pi * x * 1e-9 / 1) ^ 2)).r0 ^ (-(5 / 3) : ℝ)
          * (sample (2 * (2 * Real.pi * x * 1e-9 / 1) ^ 2)).ali i) = wfe2sr x 1 := by
      simp only [strehlSF, strehl, sample, univ_unique, sum_singleton, Real.one_rpow, one_mul, div_one, wfe2sr]
      congr 1; ring
    rw [e]
    exact sr2wfe_wfe2sr x 1 hx.2 one_pos

/-- C113 (violation): when the noise estimate exceeds the measured residual, the servo-lag and the total are not
numbers. -/
theorem breakdown_servo_nan {ι : Type} [Fintype ι] (a : RecIn ι) (hn : 0 < a.nCom)
    (h : a.caoDiag.sum < (1 + a.pnHo) * a.cnDiag.sum) :
    (breakdown a).servo = none ∧ (breakdown a).total = none := by
  have h1 : (breakdown a).servo = none := by
    show servo a = none
    unfold servo npSqrt
    rw [if_neg (not_le.2 (div_neg_of_neg_of_pos (by linarith) (by positivity)))]; rfl
  refine ⟨h1, ?_⟩
  cases ht : (breakdown a).total with
  | none => rfl
  | some w =>
    obtain ⟨_, _, _, s, _, _, _, _, _, hs, _⟩ := breakdown_total_partial a w ht
    rw [h1] at hs; exact absurd hs (by simp)

example : ∃ a : RecIn Unit, 0 < a.nCom ∧ a.caoDiag.sum < (1 + a.pnHo) * a.cnDiag.sum :=
  ⟨{ sample 0 with caoDiag := [1] }, by simp [sample], by norm_num [sample]⟩

/-! ### C116: total structure function -/

/-- C116: without anisoplanatism the total structure function is the sum of the AO residual and of the jitter times
their gains, and of fitting and aliasing scaled by the strength of turbulence; with anisoplanatism and one strength per
layer the weighted structure functions of the layers are added. -/
theorem totalSF_spec (gho gtt r0 ao tt fit ali : ℝ) (d c : List ℝ) (h : c.length = d.length) :
    totalSF gho gtt r0 ao tt fit ali none (some c)
      = gho * ao + gtt * tt + (fit + ali) * r0 ^ (-(5 / 3) : ℝ) ∧
    totalSF gho gtt r0 ao tt fit ali (some d) (some c)
      = gho * ao + gtt * tt + (fit + ali) * r0 ^ (-(5 / 3) : ℝ) + ∑ l : Fin c.length, c.get l * d.get (l.cast h) := by
  constructor
  · unfold totalSF; ring
  · unfold totalSF
    simp only
    rw [if_pos h]
    have e : ((d.zip c).map (fun p => p.1 * p.2)).sum = ∑ l : Fin c.length, c.get l * d.get (l.cast h) := by
      clear gho gtt r0 ao tt fit ali
      induction c generalizing d with
      | nil => cases d with
        | nil => simp
        | cons _ _ => simp at h
      | cons a c ih => cases d with
        | nil => simp at h
        | cons b d =>
          simp only [List.length_cons, Nat.add_right_cancel_iff] at h
          simp only [List.zip_cons_cons, List.map_cons, List.sum_cons, List.length_cons]
          rw [Fin.sum_univ_succ, ih d h]
          simp [mul_comm]
    rw [e]; ring

/-- C116: it is non-negative for non-negative gains, strengths and structure functions, and vanishes where they do. -/
theorem totalSF_nonneg (gho gtt r0 ao tt fit ali : ℝ) (d c : Option (List ℝ)) (hr : 0 < r0) (h1 : 0 ≤ gho) (h2 : 0 ≤ gtt)
    (ha : 0 ≤ ao) (ht : 0 ≤ tt) (hf : 0 ≤ fit) (hl : 0 ≤ ali) (hd : ∀ l, d = some l → ∀ x ∈ l, 0 ≤ x)
    (hc : ∀ l, c = some l → ∀ x ∈ l, 0 ≤ x) :
    0 ≤ totalSF gho gtt r0 ao tt fit ali d c ∧
    totalSF gho gtt r0 0 0 0 0 (d.map (List.map (fun _ => 0))) c = 0 := by
  have hr0 : 0 < r0 ^ (-(5 / 3) : ℝ) := Real.rpow_pos_of_pos hr _
  have hb : 0 ≤ gho * ao + gtt * tt + r0 ^ (-(5 / 3) : ℝ) * (fit + ali) := by positivity
  constructor
  · unfold totalSF
    match d, c with
    | none, _ => exact hb
    | some d, none => exact hb
    | some d, some c =>
      simp only
      split_ifs
      · refine add_nonneg hb (List.sum_nonneg ?_)
        intro x hx
        obtain ⟨p, hp, rfl⟩ := List.mem_map.1 hx
        obtain ⟨a, b⟩ := p
        exact mul_nonneg (hd d rfl a (List.of_mem_zip hp).1) (hc c rfl b (List.of_mem_zip hp).2)
      · exact hb
  · unfold totalSF
    match d, c with
    | none, _ => simp
    | some d, none => simp
    | some d, some c =>
      simp only [Option.map_some]
      have : ∀ (d c : List ℝ), (((d.map (fun _ => (0 : ℝ))).zip c).map (fun p => p.1 * p.2)).sum = 0 := by
        intro d
        induction d with
        | nil => intro c; simp
        | cons a d ih =>
          intro c
          cases c with
          | nil => simp
          | cons b c => simp only [List.map_cons, List.zip_cons_cons, List.sum_cons, ih]; simp
      rw [this]; simp

/-- C152 (violation): with a single layer, or a single reconstructed layer, no profile is decoded and the
anisoplanatism of an off-axis source is silently left out. -/
theorem totalSF_drops_anisoplanatism (gho gtt r0 ao tt fit ali : ℝ) (d : List ℝ) :
    totalSF gho gtt r0 ao tt fit ali (some d) none = totalSF gho gtt r0 ao tt fit ali none none := rfl

/-- C152: the PSF computed with the breakdown uses the turbulence of the parameter file and unit gains, for one layer
or when several layers are reconstructed (weights sum to one). -/
theorem breakdownVector_decoded_partial (r0 : ℝ) (w : List ℝ) (nRec nStar nWvl nFrame nModes : ℕ) (hr : 0 < r0)
    (hw : w.sum = 1) (hL : w ≠ []) (h : w.length = 1 ∨ 1 < nRec) (hR : 1 ≤ nRec) :
    decodedR0 (Params.psfrCtx w.length nRec nStar nWvl nFrame nModes) (breakdownVector r0 w) = some r0 ∧
    (Params.sortParams (Params.psfrCtx w.length nRec nStar nWvl nFrame nModes) (breakdownVector r0 w)).dphi = [1, 1] := by
  have hLpos : 1 ≤ w.length := by
    cases w with
    | nil => simp at hL
    | cons a w => simp
  rcases eq_or_ne w.length 1 with h1 | h1
  · unfold decodedR0 breakdownVector
    rw [h1, if_pos rfl]
    have hat : (Params.psfrCtx 1 nRec nStar nWvl nFrame nModes).atm = 1 := by
      unfold Params.Ctx.atm Params.psfrCtx; simp; omega
    constructor
    · rw [if_neg (by simp [Params.psfrCtx])]
      simp [Params.sortParams, hat, Params.slice]
    · simp only [Params.sortParams, Params.slice, Params.Ctx.endDphi, hat]
      simp [Params.psfrCtx]
  · have hn : 1 < nRec := h.resolve_left h1
    have hl : 1 < w.length := by omega
    have hat : (Params.psfrCtx w.length nRec nStar nWvl nFrame nModes).atm = w.length := by
      unfold Params.Ctx.atm Params.psfrCtx
      simp only
      rw [if_pos (by omega), if_pos ⟨hl, hn⟩]
    have hr0 : 0 < r0 ^ (-(5 / 3) : ℝ) := Real.rpow_pos_of_pos hr _
    unfold decodedR0 breakdownVector
    rw [if_neg h1]
    constructor
    · rw [if_pos ⟨by simpa [Params.psfrCtx] using hl, by simpa [Params.psfrCtx] using hn⟩]
      simp only [Params.sortParams, hat, Params.slice]
      rw [List.take_append_of_le_length (by simp), List.take_of_length_le (by simp), List.drop_zero]
      rw [List.sum_map_mul_right, List.map_id', hw, one_mul, ← Real.rpow_mul hr.le]
      norm_num
    · simp only [Params.sortParams, Params.slice, Params.Ctx.endDphi, hat]
      rw [List.take_of_length_le (by simp [Params.psfrCtx])]
      rw [List.drop_append_of_le_length (by simp), List.drop_of_length_le (by simp), List.nil_append]

/-- C152 (violation): with several layers of which one is reconstructed, the strengths of the layers are read as
Fried parameter and gains. -/
theorem breakdownVector_misread (r0 a b c : ℝ) (l : List ℝ) (nStar nWvl nFrame nModes : ℕ) :
    decodedR0 (Params.psfrCtx (a :: b :: c :: l).length 1 nStar nWvl nFrame nModes) (breakdownVector r0 (a :: b :: c :: l))
      = some (a * r0 ^ (-(5 / 3) : ℝ)) ∧
    (Params.sortParams (Params.psfrCtx (a :: b :: c :: l).length 1 nStar nWvl nFrame nModes)
      (breakdownVector r0 (a :: b :: c :: l))).dphi = [b * r0 ^ (-(5 / 3) : ℝ), c * r0 ^ (-(5 / 3) : ℝ)] := by
  have hat : (Params.psfrCtx (a :: b :: c :: l).length 1 nStar nWvl nFrame nModes).atm = 1 := by
    unfold Params.Ctx.atm Params.psfrCtx; simp
  have hb : breakdownVector r0 (a :: b :: c :: l) = (a * r0 ^ (-(5 / 3) : ℝ)) :: (b * r0 ^ (-(5 / 3) : ℝ)) ::
      (c * r0 ^ (-(5 / 3) : ℝ)) :: (l.map (fun w => w * r0 ^ (-(5 / 3) : ℝ)) ++ [1, 1]) := by
    unfold breakdownVector; rw [if_neg (by simp)]; simp
  rw [hb]
  constructor
  · unfold decodedR0
    rw [if_neg (by simp [Params.psfrCtx])]
    simp only [Params.sortParams, hat, Params.slice]; rfl
  · simp only [Params.sortParams, Params.slice, Params.Ctx.endDphi, hat]
    simp [Params.psfrCtx]

/-! ### C117: transfer function from a covariance between points -/

/-- C117: at each separation, the transfer function is the sum over the couples of points of
`exp(-½ (C_ii + C_jj - 2 C_ij))`, over the number of points. -/
theorem zonalOtf_spec {n : ℕ} (dp : ℝ) (hdp : dp ≠ 0) (C : Matrix (Fin n) (Fin n) ℝ) (pairs : List (Fin n × Fin n)) :
    zonalOtf dp C pairs
      = (pairs.map (fun p => Real.exp (-(1 / 2) * (C p.1 p.1 + C p.2 p.2 - 2 * C p.1 p.2)))).sum / n := by
  unfold zonalOtf
  have e : ∀ p : Fin n × Fin n, Real.exp (-0.5 * C p.2 p.2) * Real.exp (-0.5 * C p.1 p.1)
      * Real.exp (-2 * (-0.5 * C p.1 p.2)) = Real.exp (-(1 / 2) * (C p.1 p.1 + C p.2 p.2 - 2 * C p.1 p.2)) := by
    intro p; rw [← Real.exp_add, ← Real.exp_add]; congr 1; ring
  simp only [e]
  split_ifs with h
  · rw [h]; simp
  · rw [mul_div_mul_right _ _ (pow_ne_zero 2 hdp)]

theorem posSemidef_pair {n : ℕ} (C : Matrix (Fin n) (Fin n) ℝ) (hC : C.PosSemidef) (i j : Fin n) :
    0 ≤ C i i + C j j - 2 * C i j := by
  have hs : C j i = C i j := by
    have := congrFun (congrFun hC.1 i) j
    rw [Matrix.conjTranspose_apply] at this; simpa using this
  have := hC.dotProduct_mulVec_nonneg (Pi.single i 1 - Pi.single j 1)
  simp only [star_trivial, Matrix.mulVec_sub, sub_dotProduct, dotProduct_sub, Matrix.mulVec_single_one,
    single_one_dotProduct, Matrix.col_apply] at this
  linarith

/-- C117: for a covariance (positive semi-definite) it is one at zero separation, and elsewhere between zero and the
fraction of points that have a partner. -/
theorem zonalOtf_bounds {n : ℕ} (dp : ℝ) (hdp : dp ≠ 0) (hn : 0 < n) (C : Matrix (Fin n) (Fin n) ℝ) (hC : C.PosSemidef)
    (pairs : List (Fin n × Fin n)) :
    zonalOtf dp C ((List.finRange n).map (fun i => (i, i))) = 1 ∧ 0 ≤ zonalOtf dp C pairs ∧
    zonalOtf dp C pairs ≤ pairs.length / n := by
  have hn' : (0 : ℝ) < n := Nat.cast_pos.2 hn
  refine ⟨?_, ?_, ?_⟩
  · rw [zonalOtf_spec dp hdp, List.map_map]
    have : ((fun p : Fin n × Fin n => Real.exp (-(1 / 2) * (C p.1 p.1 + C p.2 p.2 - 2 * C p.1 p.2))) ∘ fun i => (i, i))
        = fun _ => (1 : ℝ) := by
      ext i; simp only [Function.comp]; rw [Real.exp_eq_one_iff]; ring
    rw [this]; simp [hn'.ne']
  · rw [zonalOtf_spec dp hdp]
    refine div_nonneg (List.sum_nonneg ?_) hn'.le
    intro x hx; obtain ⟨p, _, rfl⟩ := List.mem_map.1 hx; exact (Real.exp_pos _).le
  · rw [zonalOtf_spec dp hdp]
    apply div_le_div_of_nonneg_right _ hn'.le
    have : ∀ l : List (Fin n × Fin n),
        (l.map (fun p => Real.exp (-(1 / 2) * (C p.1 p.1 + C p.2 p.2 - 2 * C p.1 p.2)))).sum ≤ l.length := by
      intro l
      induction l with
      | nil => simp
      | cons p l ih =>
        simp only [List.map_cons, List.sum_cons, List.length_cons, Nat.cast_add, Nat.cast_one]
        have : Real.exp (-(1 / 2) * (C p.1 p.1 + C p.2 p.2 - 2 * C p.1 p.2)) ≤ 1 :=
          Real.exp_le_one_iff.2 (by have := posSemidef_pair C hC p.1 p.2; linarith)
        linarith
    exact this pairs

theorem pointLoc_count (D dp : ℝ) (hp : 0 < dp) : ⌈(D / 2 + dp - -D / 2) / dp⌉₊ = ⌈D / dp + 1⌉₊ := by
  congr 1; field_simp; ring

/-- C153: when the aperture is a whole number `k` of pitches there are `k+1` points, from `-D/2` to `D/2`, as many as
the grid of separations assumes. Missing from the full property: other apertures. -/
theorem pointLoc_whole (dp : ℝ) (k : ℕ) (hp : 0 < dp) :
    (pointLoc (k * dp) dp).length = k + 1 ∧ nPh (k * dp) dp = k + 1 ∧
    (pointLoc (k * dp) dp)[0]? = some (-(k * dp) / 2) ∧ (pointLoc (k * dp) dp)[k]? = some (k * dp / 2) := by
  have hk : (k : ℝ) * dp / dp = k := by field_simp
  have hc : ⌈(k : ℝ) * dp / dp + 1⌉₊ = k + 1 := by
    rw [hk, show (k : ℝ) + 1 = ((k + 1 : ℕ) : ℝ) by push_cast; ring, Nat.ceil_natCast]
  refine ⟨?_, ?_, ?_, ?_⟩
  · unfold pointLoc; rw [pointLoc_count _ _ hp, hc]; simp
  · unfold nPh roundEven
    rw [hk]
    have hf : ⌊(k : ℝ) + 1⌋ = k + 1 := by
      rw [show (k : ℝ) + 1 = (((k + 1 : ℕ) : ℤ) : ℝ) by push_cast; ring, Int.floor_intCast]; push_cast; rfl
    rw [hf]
    rw [if_neg (by push_cast; norm_num)]
    rw [Int.floor_eq_iff]; push_cast; constructor <;> linarith
  · unfold pointLoc; rw [pointLoc_count _ _ hp, hc]
    rw [List.getElem?_map, List.getElem?_range (by omega)]
    simp
  · unfold pointLoc; rw [pointLoc_count _ _ hp, hc]
    rw [List.getElem?_map, List.getElem?_range (by omega)]
    simp only [Option.map_some]; congr 1; ring

/-- C299 (violation): an aperture of 2.25 pitches gets four points, the last one outside, while the grid of separations
is made for three. -/
theorem pointLoc_violation : (pointLoc 2.25 1).length = 4 ∧ nPh 2.25 1 = 3 ∧
    ∃ x ∈ pointLoc 2.25 1, 2.25 / 2 < x := by
  have hc : ⌈(2.25 : ℝ) / 1 + 1⌉₊ = 4 := by
    rw [Nat.ceil_eq_iff (by norm_num)]; norm_num
  refine ⟨?_, ?_, ?_⟩
  · unfold pointLoc; rw [pointLoc_count _ _ one_pos, hc]; simp
  · unfold nPh roundEven
    have h1 : ⌊(2.25 : ℝ) / 1 + 1⌋ = 3 := by rw [Int.floor_eq_iff]; norm_num
    rw [h1, if_neg (by norm_num)]
    rw [Int.floor_eq_iff]; norm_num
  · refine ⟨-2.25 / 2 + (3 : ℕ) * 1, ?_, by norm_num⟩
    unfold pointLoc; rw [pointLoc_count _ _ one_pos, hc]
    exact List.mem_map.2 ⟨3, by simp, rfl⟩

/-- C299 (partial): for an aperture of a whole number `q` of pitches and a fraction, there are `q+2` points, the last always outside the
aperture; the grid of separations has as many exactly when the fraction is rounded up. -/
theorem pointLoc_fraction_partial (D dp : ℝ) (hp : 0 < dp) (q : ℕ) (h1 : q < D / dp) (h2 : D / dp < q + 1) :
    (pointLoc D dp).length = q + 2 ∧ (∃ x, (pointLoc D dp).getLast? = some x ∧ D / 2 < x) ∧
    (nPh D dp = (pointLoc D dp).length ↔ 1 / 2 < D / dp - q ∨ (D / dp - q = 1 / 2 ∧ q % 2 = 0)) := by
  have hc : ⌈D / dp + 1⌉₊ = q + 2 := by
    rw [Nat.ceil_eq_iff (by omega)]; push_cast; constructor <;> [linarith; linarith]
  have len : (pointLoc D dp).length = q + 2 := by
    unfold pointLoc; rw [pointLoc_count _ _ hp, hc]; simp
  refine ⟨len, ⟨-D / 2 + ((q + 1 : ℕ) : ℝ) * dp, ?_, ?_⟩, ?_⟩
  · unfold pointLoc
    rw [pointLoc_count _ _ hp, hc, List.range_succ, List.map_append, List.map_singleton, List.getLast?_concat]
  · have := (div_lt_iff₀ hp).1 h2
    push_cast; linarith
  · rw [len]
    have f : ⌊D / dp + 1⌋ = (q : ℤ) + 1 := by rw [Int.floor_eq_iff]; push_cast; constructor <;> linarith
    unfold nPh roundEven
    rw [f]
    by_cases h : D / dp - q = 1 / 2
    · rw [if_pos (by push_cast; linarith)]
      by_cases hq : q % 2 = 0
      · rw [if_neg (by omega)]
        simp only [h, hq, and_self, or_true, iff_true]
        push_cast; ring
      · rw [if_pos (by omega)]
        simp only [h, lt_irrefl, hq, and_false, or_false, iff_false]
        push_cast; omega
    · rw [if_neg (by push_cast; intro e; exact h (by linarith))]
      by_cases g : 1 / 2 < D / dp - q
      · have : ⌊D / dp + 1 + 1 / 2⌋ = (q : ℤ) + 2 := by rw [Int.floor_eq_iff]; push_cast; constructor <;> linarith
        rw [this]
        simp only [g, true_or, iff_true]
        push_cast; ring
      · have l : D / dp - q < 1 / 2 := lt_of_le_of_ne (not_lt.1 g) h
        have : ⌊D / dp + 1 + 1 / 2⌋ = (q : ℤ) + 1 := by rw [Int.floor_eq_iff]; push_cast; constructor <;> linarith
        rw [this]
        simp only [g, h, false_and, or_self, iff_false]
        push_cast; omega

/-! ### C118: pseudo-open-loop slopes -/

theorem roll_zero {α : Type} (l : List α) : roll l 0 = l := by simp [roll]

/-- Rolling by one: element `i` of the result is element `i-1`, and the first is the last. -/
theorem roll_one {α : Type} (a : α) (l : List α) : roll (l ++ [a]) 1 = a :: l := by
  unfold roll
  have h : ((-1 : ℤ) % ((l ++ [a]).length : ℤ)).toNat = l.length := by
    simp only [List.length_append, List.length_cons, List.length_nil]
    rw [show (-1 : ℤ) = (l.length : ℤ) + -1 * ((l.length + (0 + 1) : ℕ) : ℤ) by push_cast; ring,
      Int.add_mul_emod_self_right, Int.emod_eq_of_lt (by positivity) (by push_cast; omega)]
    simp
  rw [h, List.rotate_eq_drop_append_take (by simp)]
  simp

/-- C118 (violation): the pseudo-open-loop slopes should add the commands applied one and two frames before; the code
adds the present command and the preceding element of the flattened array (for one actuator, the preceding frame; for
several, another actuator), and the first frame receives the last command. -/
theorem olSlopes_spec_partial (s u mi : List ℝ) (dt x : ℝ) (i : ℕ) (si ui ui1 m : ℝ)
    (hs : s[i + 1]? = some si) (hm : mi[i + 1]? = some m) (h1 : (u ++ [x])[i + 1]? = some ui) (h0 : u[i]? = some ui1) :
    (olSlopes s (u ++ [x]) mi dt)[i + 1]? = some (si + m * (dt * ui + (1 - dt) * ui1)) ∧
    (∀ s0 m0 u0, s[0]? = some s0 → mi[0]? = some m0 → (u ++ [x])[0]? = some u0 →
      (olSlopes s (u ++ [x]) mi dt)[0]? = some (s0 + m0 * (dt * u0 + (1 - dt) * x))) := by
  unfold olSlopes
  rw [show (-2 + 2 : ℤ) = 0 by norm_num, show (-1 + 2 : ℤ) = 1 by norm_num, roll_zero, roll_one]
  constructor
  · rw [List.getElem?_zipWith, List.getElem?_zipWith, List.getElem?_zipWith, hs, hm, h1, List.getElem?_cons_succ, h0]
  · intro s0 m0 u0 a b c
    rw [List.getElem?_zipWith, List.getElem?_zipWith, List.getElem?_zipWith, a, b, c]
    rfl

/-- Two actuators and two frames: the command of the second actuator at the second frame is mixed with that of the
first actuator of the same frame. -/
example : (olSlopes [0, 0, 0, 0] ([1, 2, 3] ++ [4]) [1, 1, 1, 1] 0)[2 + 1]? = some (0 + 1 * (0 * 4 + (1 - 0) * 3)) :=
  (olSlopes_spec_partial [0, 0, 0, 0] [1, 2, 3] [1, 1, 1, 1] 0 4 2 0 4 3 1 rfl rfl rfl rfl).1

/-! ### Tighter statements -/

/-- C115: the transfer function of the pixel is a product over the two axes; it vanishes on either axis where a pixel
holds a whole period. -/
theorem otfPixel_axes (D wvl samp ps u v : ℝ) :
    otfPixel D wvl samp ps u v = otfPixel D wvl samp ps u 0 * otfPixel D wvl samp ps 0 v ∧
    otfPixel D wvl samp ps u v = otfPixel D wvl samp ps v u ∧
    (u * (D / wvl * samp / 2) * ps = 1 → otfPixel D wvl samp ps u v = 0) ∧
    (v * (D / wvl * samp / 2) * ps = 1 → otfPixel D wvl samp ps u v = 0) := by
  have h1 : npSinc 1 = 0 := by unfold npSinc; rw [mul_one, Real.sinc_of_ne_zero Real.pi_ne_zero]; simp
  refine ⟨?_, ?_, fun h => ?_, fun h => ?_⟩
  · unfold otfPixel; simp [npSinc_zero]
  · unfold otfPixel; exact mul_comm _ _
  · unfold otfPixel; dsimp only; rw [h, h1, zero_mul]
  · unfold otfPixel; dsimp only; rw [h, h1, mul_zero]

/-- C113: tip-tilt and its noise share the jitter in quadrature, and so do angular and focal anisoplanatism. -/
theorem breakdown_differences {ι : Type} [Fintype ι] (a : RecIn ι) :
    (a.jitter = true → ∀ x, (breakdown a).tipTilt = some x → ∃ y n,
      sr2wfe (strehlSF a.dl (fun i => jitterSF a.wvl a.samp a.ang (a.ctt - a.cnTt) (a.u i) (a.v i))) a.wvl = some y ∧
      (breakdown a).ttNoise = some n ∧ 0 ≤ x ∧ x ^ 2 + n ^ 2 = y ^ 2) ∧
    (∀ q, a.lgs = true → a.ani = some q → ∀ x, (breakdown a).focalAni = some x → ∃ y n,
      sr2wfe (strehlSF a.dl q.2.2.2) a.wvl = some y ∧ (breakdown a).angularAni = some n ∧ 0 ≤ x ∧
      x ^ 2 + n ^ 2 = y ^ 2) := by
  have key : ∀ (p r : Option ℝ) (x : ℝ), diffSq p r = some x → ∃ y n, p = some y ∧ r = some n ∧ 0 ≤ x ∧
      x ^ 2 + n ^ 2 = y ^ 2 := by
    intro p r x h
    rcases p with _ | y
    · simp [diffSq] at h
    rcases r with _ | n
    · simp [diffSq] at h
    have h' : npSqrt (y ^ 2 - n ^ 2) = some x := h
    obtain ⟨_, h2, h3⟩ := npSqrt_spec h'
    exact ⟨y, n, rfl, rfl, h2, by linarith⟩
  constructor
  · intro hj x hx
    have hx' : tipTilt a = some x := hx
    unfold tipTilt at hx'
    rw [if_pos hj] at hx'
    exact key _ _ _ hx'
  · intro q hl hq x hx
    have hx' : (if (a.lgs && a.ani.isSome) = true then diffSq (aniTerm a (fun q => q.2.2.2))
        (if (a.lgs && a.ani.isSome) = true then aniTerm a (fun q => q.2.1) else if a.ani.isSome then
          aniTerm a (fun q => q.1) else some 0) else some 0) = some x := hx
    rw [if_pos (by simp [hl, hq])] at hx'
    obtain ⟨y, n, e1, e2, h⟩ := key _ _ _ hx'
    refine ⟨y, n, ?_, e2, h⟩
    unfold aniTerm at e1
    rw [hq] at e1; exact e1

/-- C153: the number of points of the grid is the whole number nearest to `D/dp+1`, the even one in case of a tie. -/
theorem nPh_nearest (D dp : ℝ) : |(nPh D dp : ℝ) - (D / dp + 1)| ≤ 1 / 2 ∧
    (∀ j : ℤ, D / dp + 1 = j + 1 / 2 → Even (nPh D dp)) := by
  unfold nPh
  set x := D / dp + 1
  have hf := Int.floor_le x
  have hf' := Int.lt_floor_add_one x
  constructor
  · unfold roundEven
    split_ifs with h1 h2
    · rw [abs_le]; constructor <;> linarith
    · push_cast; rw [abs_le]; constructor <;> linarith
    · have a := Int.floor_le (x + 1 / 2)
      have b := Int.lt_floor_add_one (x + 1 / 2)
      rw [abs_le]; constructor <;> linarith
  · intro j hj
    have hfl : ⌊x⌋ = j := by rw [Int.floor_eq_iff, hj]; constructor <;> linarith
    unfold roundEven
    rw [hfl, if_pos (by rw [hj]; ring)]
    split_ifs with h2
    · exact Int.even_iff.2 h2
    · exact Int.even_iff.2 (by omega)

/-- C112: with three modes the `Uij` formula keeps the one pair of modes that it visits, counted twice for the two
orders of the pair and once more by the factor of the loop, at the separation shifted by half the array. -/
theorem dphiUij_three {N : ℕ} [NeZero N] (P : Pix N → ℝ) (modes : Pix N → Fin 3 → ℝ)
    (C : Matrix (Fin 3) (Fin 3) ℝ) (x : Pix N) :
    dphiUij P modes C x = 4 * C 2 1 * uij P (fun y => modes y 2) (fun y => modes y 1) (x + half N) *
      den P (x + half N) := by
  have hp : uijPairs 3 = [(2, 1)] := by decide +kernel
  unfold dphiUij
  rw [hp, List.foldl_cons, List.foldl_nil]
  unfold uijStep
  dsimp only
  rw [if_pos (by decide)]
  ring

/-! ### Cases that meet the hypotheses -/

theorem overlap_all (r : Pix 4) : (1e-7 : ℝ) < overlap (fun _ : Pix 4 => 1) r / overlap (fun _ : Pix 4 => 1) 0 := by
  have : ∀ r : Pix 4, overlap (fun _ : Pix 4 => 1) r = 16 := by
    intro r; simp [overlap, Fintype.card_prod, ZMod.card]
  rw [this, this]; norm_num

/-- A case meeting the hypotheses of `dphiVii_covariance_partial`. -/
example (modes : Pix 4 → Fin 2 → ℝ) (r : Pix 4) : dphiVii (fun _ => 1) modes 1 ![3, 2] r = pairMean (fun _ => 1) modes (Matrix.diagonal ![3, 2]) r :=
  dphiVii_covariance_partial (fun _ => 1) (fun _ => Or.inr rfl) modes _ 1 1 ![3, 2]
    ⟨by simp, by simp, by simp, by intro k; fin_cases k <;> simp, by intro k l h; fin_cases k <;> fin_cases l <;> simp_all <;> norm_num⟩
    (by simp) (by simp) r (overlap_all r)

/-- A case meeting the hypotheses of `dphiVii_negative`. -/
example (modes : Pix 4 → Fin 1 → ℝ) (r : Pix 4) : dphiVii (fun _ => 1) modes 1 (fun _ => 2) r = pairMean (fun _ => 1) modes (Matrix.diagonal fun _ => - -2) r :=
  dphiVii_negative (fun _ => 1) (fun _ => Or.inr rfl) modes (-2) (by norm_num) (-1) 1 (fun _ => 2)
    ⟨by ext i j; fin_cases i; fin_cases j; simp, by simp, by simp, by simp, by simp⟩ r (overlap_all r)

/-- A case meeting the hypotheses of `breakdown_noise_servo`. -/
example : ∃ x y, (breakdown (sample 0)).hoNoise = some x ∧ (breakdown (sample 0)).servo = some y ∧ x ^ 2 + y ^ 2 = 1e18 * ((4 - 1) / 1) := by
  obtain ⟨_, _, ⟨x, hx⟩, _, ⟨y, hy⟩, _⟩ := breakdown_complete (sample 0) (fun _ => by simp [sample]) ⟨(), by simp [sample]⟩ (by simp [sample])
    (by simp [sample]) (fun _ => by simp [sample]) (fun _ => le_rfl) (by simp [sample]) (by simp [sample]) (by simp [sample, selectValid])
    (by simp [sample, selectValid]) (by norm_num [sample]) (by simpa [sample] using Matrix.PosSemidef.zero)
    (by simpa [sample] using Matrix.PosSemidef.zero) (by simp [sample])
  refine ⟨x, y, hx, hy, ?_⟩
  rw [breakdown_noise_servo (sample 0) (by simp [sample, selectValid]) (by simp [sample]) x y hx hy]
  simp [sample]

/-- A case meeting the hypotheses of `totalSF_nonneg`. -/
example : 0 ≤ totalSF 1 1 0.15 2 1 3 1 (some [1, 2]) (some [0.7, 0.3]) :=
  (totalSF_nonneg 1 1 0.15 2 1 3 1 (some [1, 2]) (some [0.7, 0.3]) (by norm_num) (by norm_num) (by norm_num) (by norm_num) (by norm_num) (by norm_num)
    (by norm_num) (by norm_num) (by norm_num)).1

/-- A case meeting the hypotheses of `breakdownVector_decoded_partial`. -/
example : decodedR0 (Params.psfrCtx 2 10 1 1 1 0) (breakdownVector 0.15 [0.7, 0.3]) = some 0.15 :=
  (breakdownVector_decoded_partial 0.15 [0.7, 0.3] 10 1 1 1 0 (by norm_num) (by norm_num) (by simp) (Or.inr (by norm_num)) (by norm_num)).1

/-! ### Cases that meet the hypotheses -/

/-- A case meeting the hypotheses of `modes2Dphi_nonneg`. -/
example : IsSvd (Matrix.diagonal ![3, 2]) 1 ![3, 2] (1 : Matrix (Fin 2) (Fin 2) ℝ) :=
  ⟨by simp, by simp, by simp, by intro k; fin_cases k <;> norm_num,
    by intro k l h; fin_cases k <;> fin_cases l <;> simp_all <;> norm_num⟩

/-- A case meeting the hypotheses of `wfe2sr_anti`. -/
example : wfe2sr 200e-9 1.6e-6 < wfe2sr 100e-9 1.6e-6 := wfe2sr_anti _ _ _ (by norm_num) (by norm_num) (by norm_num)

end P3.Rec
