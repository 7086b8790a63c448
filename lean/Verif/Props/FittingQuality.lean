import Verif.Props.Fitting
import Mathlib.Analysis.Matrix.Order
import Mathlib.LinearAlgebra.Matrix.Rank
import Mathlib.Algebra.Order.Star.Real
import Mathlib.Tactic.FieldSimp
import Mathlib.Tactic.Positivity

/-! C55 and related: what a fit returns (PSF, metrics, confidence intervals, bounds), and the image model. -/

namespace P3.Fitting

/-! ### The PSF returned -/

/-- The parameters of the returned PSF decode as one flux of one, other fluxes, offsets and backgrounds zero. -/
def UnitPsf (c : Params.Ctx) (x : List ℝ) : Prop :=
  (∃ l, (Params.sortParams c x).flux = some l ∧ l.headD 0 = 1 ∧ ∀ v ∈ l.tail, v = 0) ∧
  (∃ l, (Params.sortParams c x).dx = some l ∧ ∀ v ∈ l, v = 0) ∧
  (∃ l, (Params.sortParams c x).dy = some l ∧ ∀ v ∈ l, v = 0) ∧
  (∃ l, (Params.sortParams c x).bkg = some l ∧ ∀ v ∈ l, v = 0)

theorem slice_getElem? {α : Type} (l : List α) (a b i : ℕ) :
    (Params.slice l a b)[i]? = if a + i < b then l[a + i]? else none := by
  unfold Params.slice
  rw [List.getElem?_drop, List.getElem?_take]

theorem psfParams_get (c : Params.Ctx) (x x' : List ℝ) (h : psfParams c x = .ok x') :
    Params.idFlux c < x.length ∧ x'.length = x.length ∧ ∀ i : ℕ, i < x.length → x'[i]? =
      if i = Params.idFlux c then some 1
      else if Params.idFlux c < i ∧ i < Params.idFlux c + 3 * c.nStar + 1 then some 0 else x[i]? := by
  unfold psfParams at h
  simp only at h
  split_ifs at h with hk
  have := (Except.ok.inj h).symm
  subst this
  refine ⟨by omega, by simp, fun i hi => ?_⟩
  rw [List.getElem?_mapIdx, List.getElem?_eq_getElem hi]
  simp only [Option.map_some]
  split_ifs <;> rfl

/-- C94: for one wavelength and one background, when the flux index is the one of the decoding, the returned PSF has
unit flux, no offset and no background; everything else is the fitted value. -/
theorem psfParams_single (c : Params.Ctx) (nStat : ℕ) (x x' : List ℝ) (hid : Params.idFlux c = c.endTT)
    (hw : c.nWvl = 1) (hf : c.nFrame = 1) (hs : 1 ≤ c.nStar) (hx : x.length = c.nParam nStat)
    (h : psfParams c x = .ok x') :
    UnitPsf c x' ∧ (∀ i : ℕ, i < c.endTT → x'[i]? = x[i]?) ∧ ∀ i : ℕ, c.endStellar ≤ i → x'[i]? = x[i]? := by
  obtain ⟨h1, h2, h3⟩ := psfParams_get c x x' h
  rw [hid] at h1 h3
  have hend : c.endStellar = c.endTT + 3 * c.nStar + 1 := by
    unfold Params.Ctx.endStellar Params.Ctx.nSrc; rw [hw, hf]; omega
  have hlen : x.length = c.endTT + 3 * c.nStar + 1 + nStat := by rw [hx, Params.Ctx.nParam, hend]
  have hsrc : c.nSrc = c.nStar := by unfold Params.Ctx.nSrc; rw [hw, mul_one]
  have hgiven : c.endTT < x'.length := by rw [h2]; exact h1
  have hst : ∀ i : ℕ, i < 3 * c.nStar + 1 → (Params.slice x' c.endTT c.endStellar)[i]? = some (if i = 0 then 1 else 0) := by
    intro i hi
    rw [slice_getElem?, if_pos (by omega), h3 _ (by omega)]
    by_cases h0 : i = 0
    · rw [if_pos (by omega), if_pos h0]
    · rw [if_neg (by omega), if_pos (by omega), if_neg h0]
  have hstn : ∀ i : ℕ, 3 * c.nStar + 1 ≤ i → (Params.slice x' c.endTT c.endStellar)[i]? = none := by
    intro i hi
    rw [slice_getElem?, if_neg (by omega)]
  have zero : ∀ a b, 1 ≤ a → ∀ v ∈ Params.slice (Params.slice x' c.endTT c.endStellar) a b, v = 0 := by
    intro a b ha v hv
    obtain ⟨i, hi⟩ := List.mem_iff_getElem?.mp hv
    rw [slice_getElem?] at hi
    split_ifs at hi with hc
    by_cases hr : a + i < 3 * c.nStar + 1
    · rw [hst _ hr, if_neg (by omega)] at hi; simpa using hi.symm
    · rw [hstn _ (by omega)] at hi; simp at hi
  refine ⟨⟨?_, ?_, ?_, ?_⟩, ?_, ?_⟩
  · refine ⟨Params.slice (Params.slice x' c.endTT c.endStellar) 0 c.nSrc, by simp [Params.sortParams, hgiven], ?_, ?_⟩
    · have : (Params.slice (Params.slice x' c.endTT c.endStellar) 0 c.nSrc)[0]? = some 1 := by
        rw [slice_getElem?, if_pos (by omega), hst _ (by omega)]; rfl
      cases hl : Params.slice (Params.slice x' c.endTT c.endStellar) 0 c.nSrc with
      | nil => rw [hl] at this; simp at this
      | cons u l => rw [hl] at this; simpa using this
    · intro v hv
      obtain ⟨i, hi⟩ := List.mem_iff_getElem?.mp hv
      rw [List.getElem?_tail, slice_getElem?] at hi
      split_ifs at hi with hc
      rw [hst _ (by omega), if_neg (by omega)] at hi
      simpa using hi.symm
  · exact ⟨_, by simp only [Params.sortParams, hgiven, if_true]; rfl, zero _ _ (by omega)⟩
  · exact ⟨_, by simp only [Params.sortParams, hgiven, if_true]; rfl, zero _ _ (by omega)⟩
  · refine ⟨_, by simp only [Params.sortParams, hgiven, if_true]; rfl, ?_⟩
    intro v hv
    obtain ⟨i, hi⟩ := List.mem_iff_getElem?.mp hv
    rw [List.getElem?_drop] at hi
    by_cases hr : 3 * c.nSrc + i < 3 * c.nStar + 1
    · rw [hst _ hr, if_neg (by omega)] at hi; simpa using hi.symm
    · rw [hstn _ (by omega)] at hi; simp at hi
  · intro i hi
    rw [h3 i (by omega), if_neg (by omega), if_neg (by omega)]
  · intro i hi
    by_cases hl : i < x.length
    · rw [h3 i hl, if_neg (by omega), if_neg (by omega)]
    · rw [List.getElem?_eq_none (by omega), List.getElem?_eq_none (by omega)]

/-- C288 (partial): for any numbers of stars, wavelengths and frames, the returned PSF has unit flux and neither offset nor background
exactly when the fitted parameters beyond the first `3*n_star+1` stellar ones were already zero. -/
theorem psfParams_iff_partial (c : Params.Ctx) (nStat : ℕ) (x x' : List ℝ) (hid : Params.idFlux c = c.endTT) (hw : 1 ≤ c.nWvl)
    (hs : 1 ≤ c.nStar) (hx : x.length = c.nParam nStat) (h : psfParams c x = .ok x') :
    UnitPsf c x' ↔ ∀ i, 3 * c.nStar + 1 ≤ i → i < 3 * c.nSrc + c.nFrame → x[c.endTT + i]? = some 0 := by
  obtain ⟨h1, h2, h3⟩ := psfParams_get c x x' h
  rw [hid] at h1 h3
  have hsrc : 1 ≤ c.nSrc := Nat.mul_pos hs hw
  have hend : c.endStellar = c.endTT + (3 * c.nSrc + c.nFrame) := by unfold Params.Ctx.endStellar; omega
  have hlen : x.length = c.endTT + (3 * c.nSrc + c.nFrame) + nStat := by rw [hx, Params.Ctx.nParam, hend]
  have hgiven : c.endTT < x'.length := by rw [h2]; exact h1
  have hst : ∀ i : ℕ, i < 3 * c.nSrc + c.nFrame → (Params.slice x' c.endTT c.endStellar)[i]? = if i = 0 then some 1 else
      if i < 3 * c.nStar + 1 then some 0 else x[c.endTT + i]? := by
    intro i hi
    rw [slice_getElem?, if_pos (by omega), h3 _ (by omega)]
    by_cases h0 : i = 0
    · rw [if_pos (by omega), if_pos h0]
    · rw [if_neg (by omega), if_neg h0]
      by_cases h4 : i < 3 * c.nStar + 1
      · rw [if_pos (by omega), if_pos h4]
      · rw [if_neg (by omega), if_neg h4]
  have hsl : (Params.slice x' c.endTT c.endStellar).length = 3 * c.nSrc + c.nFrame := by
    unfold Params.slice; rw [List.length_drop, List.length_take, h2]; omega
  constructor
  · rintro ⟨⟨l, hl, l0, l1⟩, ⟨d, hd, d1⟩, ⟨e, he, e1⟩, ⟨b, hb, b1⟩⟩ i hi1 hi2
    simp only [Params.sortParams, hgiven, if_true, Option.some.injEq] at hl hd he hb
    have v := hst i hi2
    rw [if_neg (by omega), if_neg (by omega)] at v
    rw [← v]
    obtain ⟨y, hy⟩ : ∃ y, (Params.slice x' c.endTT c.endStellar)[i]? = some y :=
      ⟨_, List.getElem?_eq_getElem (by omega)⟩
    rw [hy]
    congr 1
    rcases Nat.lt_or_ge i c.nSrc with g | g
    · refine l1 y ?_
      rw [← hl, List.mem_iff_getElem?]
      exact ⟨i - 1, by rw [List.getElem?_tail, slice_getElem?, if_pos (by omega), ← hy]; congr 1; omega⟩
    rcases Nat.lt_or_ge i (2 * c.nSrc) with g2 | g2
    · refine d1 y ?_
      rw [← hd, List.mem_iff_getElem?]
      exact ⟨i - c.nSrc, by rw [slice_getElem?, if_pos (by omega), ← hy]; congr 1; omega⟩
    rcases Nat.lt_or_ge i (3 * c.nSrc) with g3 | g3
    · refine e1 y ?_
      rw [← he, List.mem_iff_getElem?]
      exact ⟨i - 2 * c.nSrc, by rw [slice_getElem?, if_pos (by omega), ← hy]; congr 1; omega⟩
    · refine b1 y ?_
      rw [← hb, List.mem_iff_getElem?]
      exact ⟨i - 3 * c.nSrc, by rw [List.getElem?_drop, ← hy]; congr 1; omega⟩
  · intro hz
    have val : ∀ i, 1 ≤ i → ∀ v, (Params.slice x' c.endTT c.endStellar)[i]? = some v → v = 0 := by
      intro i hi v hv
      have hi2 : i < 3 * c.nSrc + c.nFrame := by
        by_contra hc
        rw [List.getElem?_eq_none (by omega)] at hv
        cases hv
      rw [hst i hi2, if_neg (by omega)] at hv
      split_ifs at hv with g
      · exact (Option.some.inj hv).symm
      · rw [hz i (by omega) hi2] at hv; exact (Option.some.inj hv).symm
    have zero : ∀ a b, 1 ≤ a → ∀ v ∈ Params.slice (Params.slice x' c.endTT c.endStellar) a b, v = 0 := by
      intro a b ha v hv
      obtain ⟨i, hi⟩ := List.mem_iff_getElem?.mp hv
      rw [slice_getElem?] at hi
      split_ifs at hi with hc
      exact val _ (by omega) v hi
    refine ⟨?_, ?_, ?_, ?_⟩
    · refine ⟨Params.slice (Params.slice x' c.endTT c.endStellar) 0 c.nSrc, by simp [Params.sortParams, hgiven], ?_, ?_⟩
      · have : (Params.slice (Params.slice x' c.endTT c.endStellar) 0 c.nSrc)[0]? = some 1 := by
          rw [slice_getElem?, if_pos (by omega), hst _ (by omega)]; rfl
        cases hl : Params.slice (Params.slice x' c.endTT c.endStellar) 0 c.nSrc with
        | nil => rw [hl] at this; simp at this
        | cons u l => rw [hl] at this; simpa using this
      · intro v hv
        obtain ⟨i, hi⟩ := List.mem_iff_getElem?.mp hv
        rw [List.getElem?_tail, slice_getElem?] at hi
        split_ifs at hi with hc
        exact val _ (by omega) v hi
    · exact ⟨_, by simp only [Params.sortParams, hgiven, if_true]; rfl, zero _ _ (by omega)⟩
    · exact ⟨_, by simp only [Params.sortParams, hgiven, if_true]; rfl, zero _ _ (by omega)⟩
    · refine ⟨_, by simp only [Params.sortParams, hgiven, if_true]; rfl, ?_⟩
      intro v hv
      obtain ⟨i, hi⟩ := List.mem_iff_getElem?.mp hv
      rw [List.getElem?_drop] at hi
      exact val _ (by omega) v hi

/-- Two wavelengths meet the hypotheses. -/
example : Params.idFlux ⟨1, 1, 1, 6, true, 1, 2, 1, 0⟩ = (⟨1, 1, 1, 6, true, 1, 2, 1, 0⟩ : Params.Ctx).endTT ∧
    ([1,1,1,1,1,1,1, 0,0,0, 5,5, 1,2, 3,4, 9] : List ℝ).length = (⟨1, 1, 1, 6, true, 1, 2, 1, 0⟩ : Params.Ctx).nParam 0 :=
  ⟨by decide, by decide⟩

/-- C288 (violation): with two wavelengths and one star, the offsets and the backgrounds fitted remain. -/
theorem psfParams_violation :
    psfParams ⟨1, 1, 1, 6, true, 1, 2, 1, 0⟩ [1,1,1,1,1,1,1, 0,0,0, 5,5, 1,2, 3,4, 9] =
      .ok [1,1,1,1,1,1,1, 0,0,0, 1,0, 0,0, 3,4, 9] ∧
    (Params.sortParams (⟨1, 1, 1, 6, true, 1, 2, 1, 0⟩ : Params.Ctx) ([1,1,1,1,1,1,1, 0,0,0, 1,0, 0,0, 3,4, 9] : List ℝ)).dy = some [3, 4] := by
  constructor
  · simp [psfParams, Params.idFlux]
  · simp [Params.sortParams, Params.Ctx.endTT, Params.Ctx.endDphi, Params.Ctx.atm, Params.Ctx.endStellar, Params.Ctx.nSrc,
      Params.slice]

/-! ### Metrics -/

/-- C55: for a two-dimensional image (and a model with one frequency domain) each metric is the one of its name. -/
theorem evaluate_2D (metric : Field → ℕ → ℝ) (nWvl : ℕ) :
    evaluate metric 2 nWvl false = .ok (.scalar fun f => metric f 0) := by simp [evaluate]

/-- The last metric written in each array. -/
def lastOf : Field → Field
  | .srSky => .srFit | .srFit => .srFit
  | .fxSky => .fySky | .fySky => .fySky
  | .fxFit => .fyFit | .fyFit => .fyFit
  | .mse => .fvu | .mae => .fvu | .fvu => .fvu

theorem writes_slot (metric : Field → ℕ → ℝ) (j : ℕ) (h : Heap) (f : Field) (i : ℕ) :
    writes metric j h (slot f) i = if i = j then metric (lastOf f) j else h (slot f) i := by
  by_cases hij : i = j <;> cases f <;> simp [writes, writeOrder, write, slot, lastOf, hij]

theorem loop_slot (metric : Field → ℕ → ℝ) (n : ℕ) (f : Field) (i : ℕ) :
    ((List.range n).foldl (fun h j => writes metric j h) (fun _ _ => 0) : Heap) (slot f) i =
      if i < n then metric (lastOf f) i else 0 := by
  induction n with
  | zero => simp
  | succ n ih =>
    rw [List.range_succ, List.foldl_append]
    simp only [List.foldl_cons, List.foldl_nil]
    rw [writes_slot, ih]
    by_cases h : i = n
    · rw [if_pos h, if_pos (by omega), h]
    · rw [if_neg h]
      by_cases h2 : i < n
      · rw [if_pos h2, if_pos (by omega)]
      · rw [if_neg h2, if_neg (by omega)]

/-- C156 (violation): for a cube of several wavelengths, the Strehl ratio reported for the sky is that of the fit, the
widths along x are those along y, and the errors reported under three names are the same number. -/
theorem evaluate_3D (metric : Field → ℕ → ℝ) (nWvl : ℕ) (h : 1 < nWvl) :
    ∃ v, evaluate metric 3 nWvl true = .ok (.perWvl v) ∧ ∀ j < nWvl,
      v .srSky j = metric .srFit j ∧ v .srFit j = metric .srFit j ∧ v .fxSky j = metric .fySky j ∧
      v .fySky j = metric .fySky j ∧ v .fxFit j = metric .fyFit j ∧ v .fyFit j = metric .fyFit j ∧
      v .mse j = metric .fvu j ∧ v .mae j = metric .fvu j ∧ v .fvu j = metric .fvu j := by
  unfold evaluate
  rw [if_neg (by norm_num), if_pos ⟨rfl, h⟩, if_pos rfl]
  refine ⟨_, rfl, fun j hj => ?_⟩
  simp only [loop_slot, if_pos hj, lastOf]
  trivial

/-- C156 (violation): the metrics of a cube are right exactly when those that share an array agree. -/
theorem evaluate_3D_iff_partial (metric : Field → ℕ → ℝ) (nWvl : ℕ) (h : 1 < nWvl) :
    (∃ v, evaluate metric 3 nWvl true = .ok (.perWvl v) ∧ ∀ f, ∀ j < nWvl, v f j = metric f j) ↔
    ∀ f, ∀ j < nWvl, metric f j = metric (lastOf f) j := by
  unfold evaluate
  rw [if_neg (by norm_num), if_pos ⟨rfl, h⟩, if_pos rfl]
  constructor
  · rintro ⟨v, hv, hm⟩ f j hj
    have := (Quality.perWvl.inj (Except.ok.inj hv)).symm
    subst this
    have := hm f j hj
    simp only [loop_slot, if_pos hj] at this
    exact this.symm
  · intro hm
    refine ⟨_, rfl, fun f j hj => ?_⟩
    simp only [loop_slot, if_pos hj]
    exact (hm f j hj).symm

/-- C156 (violation): a stacked image fitted with a model of several wavelengths that has one frequency domain per
wavelength raises, and so does a cube with a model that has a single one; a cube of one wavelength gets no metrics. -/
theorem evaluate_failures (metric : Field → ℕ → ℝ) (nWvl : ℕ) :
    evaluate metric 2 nWvl true = .error .attributeError ∧
    (1 < nWvl → evaluate metric 3 nWvl false = .error .typeError) ∧
    evaluate metric 3 1 false = .ok .missing := by
  refine ⟨by simp [evaluate], fun h => by simp [evaluate, h], by simp [evaluate]⟩

/-! ### Confidence intervals -/

open Matrix in
theorem gram_posDef {n p : ℕ} (J : Matrix (Fin n) (Fin p) ℝ) (h : (Jᵀ * J).det ≠ 0) : ∀ i, 0 < (Jᵀ * J)⁻¹ i i := by
  have hpsd : (Jᵀ * J).PosSemidef := by
    have := Matrix.posSemidef_conjTranspose_mul_self J
    rwa [Matrix.conjTranspose_eq_transpose_of_trivial] at this
  have hpd : (Jᵀ * J).PosDef := hpsd.posDef_iff_det_ne_zero.mpr h
  intro i
  exact hpd.inv.diag_pos

/-- C95: when it is defined, the interval is `1.96 sqrt((JᵀJ)⁻¹ᵢᵢ rss/(n-p))`: non-negative, and zero only for a
perfect fit. -/
theorem confidence_spec {n p : ℕ} (f : Fin n → ℝ) (J : Matrix (Fin n) (Fin p) ℝ) (v : Fin p → ℝ)
    (h : confidence f J = .ok v) (hp : p < n) (i : Fin p) :
    v i = 1.96 * √((J.transpose * J)⁻¹ i i * ((∑ k, f k ^ 2) / ((n : ℝ) - p))) ∧ 0 ≤ v i ∧
    (v i = 0 ↔ ∀ k, f k = 0) := by
  unfold confidence at h
  simp only at h
  split_ifs at h with h1 h2
  have hv := (Interval.ok.inj h).symm
  have hpos := gram_posDef J h1 i
  have hnp : (0:ℝ) < (n:ℝ) - p := by
    have : (p:ℝ) < n := by exact_mod_cast hp
    linarith
  have hrss : 0 ≤ ∑ k, f k ^ 2 := Finset.sum_nonneg fun _ _ => sq_nonneg _
  have e : v i = 1.96 * √((J.transpose * J)⁻¹ i i * ((∑ k, f k ^ 2) / ((n : ℝ) - p))) := by
    rw [hv]
    simp only
    rw [abs_of_nonneg (by positivity)]; ring
  refine ⟨e, by rw [e]; positivity, ?_⟩
  rw [e]
  constructor
  · intro h0
    have h3 : √((J.transpose * J)⁻¹ i i * ((∑ k, f k ^ 2) / ((n : ℝ) - p))) = 0 := by
      rcases mul_eq_zero.mp h0 with h | h
      · norm_num at h
      · exact h
    rw [Real.sqrt_eq_zero (by positivity)] at h3
    have h4 : (∑ k, f k ^ 2) / ((n : ℝ) - p) = 0 := by
      rcases mul_eq_zero.mp h3 with h | h
      · exact absurd h hpos.ne'
      · exact h
    rw [div_eq_zero_iff] at h4
    have h5 : ∑ k, f k ^ 2 = 0 := h4.resolve_right hnp.ne'
    rw [Finset.sum_eq_zero_iff_of_nonneg fun _ _ => sq_nonneg _] at h5
    intro k
    exact pow_eq_zero_iff (two_ne_zero) |>.mp (h5 k (Finset.mem_univ k))
  · intro h0
    have : ∑ k, f k ^ 2 = 0 := Finset.sum_eq_zero fun k _ => by rw [h0 k]; norm_num
    rw [this]; simp

/-- C95: with fewer points than parameters the matrix is singular and the interval is reported as missing. -/
theorem confidence_underdetermined {n p : ℕ} (f : Fin n → ℝ) (J : Matrix (Fin n) (Fin p) ℝ) (h : n < p) :
    confidence f J = .failed := by
  unfold confidence
  simp only
  rw [if_pos]
  by_contra hd
  have hr : (J.transpose * J).rank = p := by
    have := Matrix.rank_of_isUnit (J.transpose * J) ((Matrix.isUnit_iff_isUnit_det _).mpr (isUnit_iff_ne_zero.mpr hd))
    simpa using this
  have h2 : (J.transpose * J).rank ≤ n := by
    refine (Matrix.rank_mul_le_right _ _).trans ?_
    have := Matrix.rank_le_height J
    simpa using this
  omega

/-- C95: with as many points as parameters, the interval is never finite. -/
theorem confidence_exact {p : ℕ} (f : Fin p → ℝ) (J : Matrix (Fin p) (Fin p) ℝ) (v : Fin p → ℝ) : confidence f J ≠ .ok v := by
  unfold confidence
  simp only
  split_ifs <;> simp

/-- C95: residuals `a` times larger give intervals `|a|` times larger. -/
theorem confidence_scale {n p : ℕ} (f : Fin n → ℝ) (J : Matrix (Fin n) (Fin p) ℝ) (v : Fin p → ℝ) (a : ℝ)
    (h : confidence f J = .ok v) : confidence (fun k => a * f k) J = .ok fun i => |a| * v i := by
  unfold confidence at h ⊢
  simp only at h ⊢
  split_ifs at h ⊢ with h1 h2
  have hv := (Interval.ok.inj h).symm
  congr 1
  funext i
  rw [hv]
  simp only
  have : (∑ k, (a * f k) ^ 2) = a ^ 2 * ∑ k, f k ^ 2 := by
    rw [Finset.mul_sum]; exact Finset.sum_congr rfl fun k _ => by ring
  rw [this]
  have e2 : (J.transpose * J)⁻¹ i i * (a ^ 2 * (∑ k, f k ^ 2) / ((n:ℝ) - p)) =
      a ^ 2 * ((J.transpose * J)⁻¹ i i * ((∑ k, f k ^ 2) / ((n:ℝ) - p))) := by ring
  rw [e2, abs_mul, Real.sqrt_mul (abs_nonneg _), abs_of_nonneg (sq_nonneg a), Real.sqrt_sq_eq_abs]
  ring

/-- C95: changing the units of the parameters (parameter `i` divided by `d i`) divides its interval by `|d i|`. -/
theorem confidence_units {n p : ℕ} (f : Fin n → ℝ) (J : Matrix (Fin n) (Fin p) ℝ) (v d : Fin p → ℝ) (hd : ∀ i, d i ≠ 0)
    (h : confidence f J = .ok v) : confidence f (J * Matrix.diagonal d) = .ok fun i => v i / |d i| := by
  have hA : (J * Matrix.diagonal d).transpose * (J * Matrix.diagonal d) =
      Matrix.diagonal d * (J.transpose * J) * Matrix.diagonal d := by
    rw [Matrix.transpose_mul, Matrix.diagonal_transpose]
    simp only [Matrix.mul_assoc]
  unfold confidence at h ⊢
  simp only at h ⊢
  rw [hA]
  split_ifs at h with h1 h2
  have hdet : (Matrix.diagonal d * (J.transpose * J) * Matrix.diagonal d).det ≠ 0 := by
    rw [Matrix.det_mul, Matrix.det_mul, Matrix.det_diagonal]
    have : ∏ i, d i ≠ 0 := Finset.prod_ne_zero_iff.mpr fun i _ => hd i
    exact mul_ne_zero (mul_ne_zero this h1) this
  rw [if_neg hdet, if_neg h2]
  have hv := (Interval.ok.inj h).symm
  congr 1
  funext i
  have hinv : (Matrix.diagonal d)⁻¹ = Matrix.diagonal fun i => (d i)⁻¹ := by
    apply Matrix.inv_eq_right_inv
    rw [Matrix.diagonal_mul_diagonal]
    ext a b
    by_cases hab : a = b
    · subst hab; simp [hd a]
    · simp [hab]
  have e : (Matrix.diagonal d * (J.transpose * J) * Matrix.diagonal d)⁻¹ i i = (d i)⁻¹ * (J.transpose * J)⁻¹ i i * (d i)⁻¹ := by
    rw [Matrix.mul_inv_rev, Matrix.mul_inv_rev, hinv, ← Matrix.mul_assoc, Matrix.mul_diagonal, Matrix.diagonal_mul]
  rw [e, hv]
  simp only
  have e2 : (d i)⁻¹ * (J.transpose * J)⁻¹ i i * (d i)⁻¹ * ((∑ k, f k ^ 2) / ((n:ℝ) - p)) =
      ((d i)⁻¹) ^ 2 * ((J.transpose * J)⁻¹ i i * ((∑ k, f k ^ 2) / ((n:ℝ) - p))) := by ring
  rw [e2, abs_mul, Real.sqrt_mul (abs_nonneg _), abs_of_nonneg (sq_nonneg _), Real.sqrt_sq_eq_abs, abs_inv]
  field_simp

/-! ### Bounds after a first fit -/

/-- C96: the new bounds of the seven power-spectrum parameters contain the first solution and lie within the initial
bounds, when the first solution does and its errors are non-negative. -/
theorem updateBounds_contain (x err : ℕ → ℝ) (b : Bounds) (sig maxWvl : ℝ) (nModes i : ℕ) (hi : i < 7) (hs : 0 ≤ sig)
    (he : 0 ≤ err i) (h1 : b.1.getD i ⊥ ≤ (x i : EReal)) (h2 : (x i : EReal) ≤ b.2.getD i ⊤) :
    ∃ lo up, (updateBounds x err b sig maxWvl nModes).1[i]? = some lo ∧ (updateBounds x err b sig maxWvl nModes).2[i]? = some up ∧
      lo ≤ (x i : EReal) ∧ (x i : EReal) ≤ up ∧ b.1.getD i ⊥ ≤ lo ∧ up ≤ b.2.getD i ⊤ := by
  have hd : 0 ≤ sig / 3 * err i := by positivity
  refine ⟨max (((x i - sig / 3 * err i : ℝ)) : EReal) (b.1.getD i ⊥), min (((x i + sig / 3 * err i : ℝ)) : EReal) (b.2.getD i ⊤),
    ?_, ?_, ?_, ?_, le_max_right _ _, min_le_right _ _⟩
  · unfold updateBounds
    simp only
    rw [List.append_assoc, List.getElem?_append_left (by simpa using hi)]
    simp [List.getElem?_map, List.getElem?_range hi]
  · unfold updateBounds
    simp only
    rw [List.append_assoc, List.getElem?_append_left (by simpa using hi)]
    simp [List.getElem?_map, List.getElem?_range hi]
  · exact max_le (by exact_mod_cast (by linarith)) h1
  · exact le_min (by exact_mod_cast (by linarith)) h2

/-- C289 (violation): a parameter without error (fixed in the first fit) gets equal bounds, which the minimiser
refuses when it is freed. -/
theorem updateBounds_degenerate (x err : ℕ → ℝ) (b : Bounds) (sig maxWvl : ℝ) (nModes i : ℕ) (hi : i < 7) (he : err i = 0)
    (h1 : b.1.getD i ⊥ ≤ (x i : EReal)) (h2 : (x i : EReal) ≤ b.2.getD i ⊤) (start : List ℝ) (hl : i < start.length) :
    ¬ Admissible start (updateBounds x err b sig maxWvl nModes) := by
  intro ⟨_, _, h⟩
  have e1 : (updateBounds x err b sig maxWvl nModes).1[i]? = some (x i : EReal) := by
    unfold updateBounds
    simp only
    rw [List.append_assoc, List.getElem?_append_left (by simpa using hi)]
    simp only [List.getElem?_map, List.getElem?_range hi, Option.map_some, he]
    rw [mul_zero, sub_zero, max_eq_left h1]
  have e2 : (updateBounds x err b sig maxWvl nModes).2[i]? = some (x i : EReal) := by
    unfold updateBounds
    simp only
    rw [List.append_assoc, List.getElem?_append_left (by simpa using hi)]
    simp only [List.getElem?_map, List.getElem?_range hi, Option.map_some, he]
    rw [mul_zero, add_zero, min_eq_left h2]
  have := (h i _ _ _ (List.getElem?_eq_getElem hl) e1 e2).1
  exact lt_irrefl _ this

/-- C289 (violation): there are always `14 + nModes` bounds; that is the number of parameters only for one layer, one
star, one wavelength. -/
theorem updateBounds_length_partial (x err : ℕ → ℝ) (b : Bounds) (sig maxWvl : ℝ) (nL nRec nStar nWvl nFrame nModes : ℕ) (hL : 1 ≤ nL)
    (hR : 1 ≤ nRec) (hS : 1 ≤ nStar) (hW : 1 ≤ nWvl) (hF : 1 ≤ nFrame) :
    (updateBounds x err b sig maxWvl nModes).1.length = 14 + nModes ∧ (updateBounds x err b sig maxWvl nModes).2.length = 14 + nModes ∧
    ((updateBounds x err b sig maxWvl nModes).1.length = (Params.psfaoCtx nL nRec nStar nWvl nFrame nModes).nParam nModes ↔
      (nL = 1 ∨ nRec = 1) ∧ nStar = 1 ∧ nWvl = 1 ∧ nFrame = 1) := by
  have e : (updateBounds x err b sig maxWvl nModes).1.length = 14 + nModes := by simp [updateBounds]; omega
  refine ⟨e, by simp [updateBounds]; omega, ?_⟩
  rw [e]
  have hm : 0 < min nL nRec := by omega
  have hc : (Params.psfaoCtx nL nRec nStar nWvl nFrame nModes).nParam nModes =
      (if 1 < nL ∧ 1 < nRec then nL else 1) + 6 + 3 + 3 * (nStar * nWvl) + nFrame + nModes := by
    simp only [Params.Ctx.nParam, Params.Ctx.endStellar, Params.Ctx.endTT, Params.Ctx.endDphi, Params.Ctx.nSrc, Params.Ctx.atm,
      Params.psfaoCtx]
    have h0 : 0 < nL ∧ 0 < nRec := by omega
    by_cases hb : 1 < nL ∧ 1 < nRec <;> simp [hb, h0]
  rw [hc]
  have hprod : 1 ≤ nStar * nWvl := Nat.mul_pos hS hW
  constructor
  · intro h
    split_ifs at h with hb
    · omega
    · have h1 : nStar * nWvl = 1 := by omega
      exact ⟨by omega, Nat.eq_one_of_mul_eq_one_right h1, Nat.eq_one_of_mul_eq_one_left h1, by omega⟩
  · rintro ⟨h1, h2, h3, h4⟩
    rw [if_neg (by omega), h2, h3, h4]

/-! ### Image model -/

/-- C97: without saturation, stacking keeps the total intensity, whatever is stacked, and the caller's array. -/
theorem imageModel_total (spectral spatial : Bool) (p : Psfs) (N M : ℕ) :
    total N M (imageModel spectral spatial none p).2 = total N M p ∧ (imageModel spectral spatial none p).1 = p := by
  have hc : ∀ q : Psfs, clipAll none q = q := by intro q; cases q <;> rfl
  cases p with
  | im2 f => exact ⟨rfl, rfl⟩
  | im3 n f =>
    refine ⟨?_, ?_⟩
    · simp only [imageModel, hc]
      cases spectral <;> cases spatial <;> simp only [stack, total, Images.list_range_sum]
    · simp only [imageModel, hc, ite_self]
  | im4 nS nW f =>
    refine ⟨?_, ?_⟩
    · simp only [imageModel, hc]
      cases spectral <;> cases spatial <;> simp only [stack, total, Images.list_range_sum]
      refine Finset.sum_congr rfl fun i _ => Finset.sum_congr rfl fun j _ => Finset.sum_comm
    · simp only [imageModel, hc, ite_self]

/-- All pixels of an array. -/
def AllPix (P : ℝ → Prop) : Psfs → Prop
  | .im2 f => ∀ i j, P (f i j)
  | .im3 n f => ∀ i j k, k < n → P (f i j k)
  | .im4 nS nW f => ∀ i j s w, s < nS → w < nW → P (f i j s w)

/-- C97: a stack of at least three dimensions is clipped at the saturation. -/
theorem imageModel_saturation (spectral spatial : Bool) (c : ℝ) (p : Psfs) (h : ∀ f, p ≠ .im2 f) :
    AllPix (· ≤ c) (imageModel spectral spatial (some c) p).2 := by
  have hc : ∀ v, clip (some c) v ≤ c := by
    intro v; unfold clip; simp only; split_ifs with h <;> linarith
  have hq : ∀ q : Psfs, AllPix (· ≤ c) (clipAll (some c) q) := by
    intro q
    cases q with
    | im2 f => exact fun i j => hc _
    | im3 n f => exact fun i j k _ => hc _
    | im4 nS nW f => exact fun i j s w _ _ => hc _
  cases p with
  | im2 f => exact absurd rfl (h f)
  | im3 n f => exact hq _
  | im4 nS nW f => exact hq _

/-- C146 (violation): a two-dimensional image is never clipped. -/
theorem imageModel_violation_2D (spectral spatial : Bool) (sat : Option ℝ) (f : ℕ → ℕ → ℝ) :
    (imageModel spectral spatial sat (.im2 f)).2 = .im2 f := rfl

/-- C146 (violation): without stacking, the array of the caller itself is clipped. -/
theorem imageModel_violation_inplace (nS nW : ℕ) (f : ℕ → ℕ → ℕ → ℕ → ℝ) (c : ℝ) :
    (imageModel false false (some c) (.im4 nS nW f)).1 = .im4 nS nW fun i j s w => clip (some c) (f i j s w) := rfl

/-- C97: when something is summed, the array of the caller is untouched. -/
theorem imageModel_pure (spectral spatial : Bool) (sat : Option ℝ) (nS nW : ℕ) (f : ℕ → ℕ → ℕ → ℕ → ℝ)
    (h : spectral = true ∨ spatial = true) : (imageModel spectral spatial sat (.im4 nS nW f)).1 = .im4 nS nW f := by
  cases spectral <;> cases spatial <;> simp_all [imageModel, stack]

/-! ### Cases that meet the hypotheses -/

/-- A case meeting the hypotheses of `psfParams_single`. -/
example : ∃ x', psfParams (Params.psfaoCtx 1 1 1 1 1 0) (List.replicate 14 2) = .ok x' ∧ UnitPsf (Params.psfaoCtx 1 1 1 1 1 0) x' := by
  obtain ⟨x', h⟩ : ∃ x', psfParams (Params.psfaoCtx 1 1 1 1 1 0) (List.replicate 14 2) = .ok x' := by
    unfold psfParams; rw [if_neg (by decide)]; exact ⟨_, rfl⟩
  exact ⟨x', h, (psfParams_single _ 0 _ x' (by decide) rfl rfl (by decide) (by simp; decide) h).1⟩

/-- A case meeting the hypotheses of `updateBounds_contain`. -/
example : ∃ lo up, (updateBounds (fun _ => 1) (fun _ => 1/2) (List.replicate 7 0, List.replicate 7 2) 5 1e-6 36).1[3]? = some lo ∧
    (updateBounds (fun _ => 1) (fun _ => 1/2) (List.replicate 7 0, List.replicate 7 2) 5 1e-6 36).2[3]? = some up ∧ lo ≤ ((1:ℝ) : EReal) ∧ ((1:ℝ) : EReal) ≤ up := by
  obtain ⟨lo, up, h1, h2, h3, h4, _⟩ := updateBounds_contain (fun _ => 1) (fun _ => 1/2) (List.replicate 7 0, List.replicate 7 2) 5 1e-6 36 3 (by norm_num)
    (by norm_num) (by norm_num) (by show (0 : EReal) ≤ ((1:ℝ) : EReal); exact_mod_cast zero_le_one)
    (by show ((1:ℝ) : EReal) ≤ 2; exact_mod_cast one_le_two)
  exact ⟨lo, up, h1, h2, h3, h4⟩

/-- A case meeting the hypotheses of `updateBounds_degenerate`. -/
example : ¬ Admissible (List.replicate 50 1) (updateBounds (fun _ => 1) (fun i => if i = 3 then 0 else 1/2) (List.replicate 7 0, List.replicate 7 2) 5 1e-6 36) :=
  updateBounds_degenerate _ _ _ 5 1e-6 36 3 (by norm_num) (by simp) (by show (0 : EReal) ≤ ((1:ℝ) : EReal); exact_mod_cast zero_le_one)
    (by show ((1:ℝ) : EReal) ≤ 2; exact_mod_cast one_le_two) _ (by simp)

/-- A case meeting the hypotheses of `updateBounds_length_partial`. -/
example : (updateBounds (fun _ => 1) (fun _ => 1/2) (List.replicate 7 0, List.replicate 7 2) 5 1e-6 36).1.length ≠
    (Params.psfaoCtx 1 1 2 1 1 36).nParam 36 := by
  intro h
  have := ((updateBounds_length_partial (fun _ => 1) (fun _ => 1/2) (List.replicate 7 0, List.replicate 7 2) 5 1e-6 1 1 2 1 1 36 (by norm_num) (by norm_num)
    (by norm_num) (by norm_num) (by norm_num)).2.2).1 h
  omega

end P3.Fitting
