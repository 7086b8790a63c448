import Verif.Model.Fwhm
import Verif.Props.Metrics
import Mathlib.Algebra.Order.BigOperators.Group.List
import Mathlib.Tactic.Linarith
import Mathlib.Tactic.FieldSimp
import Mathlib.Tactic.Positivity
import Mathlib.Data.List.GetD
/-
Properties of the contours and of the width of an image.
-/
namespace P3.Fwhm
open P3.Images P3.Metrics

/-! ### C187: contour points are at the level -/

theorem dist2_nonneg (a b : Pt) : 0 ≤ dist2 a b := Real.sqrt_nonneg _
theorem dist2_self (a : Pt) : dist2 a a = 0 := by unfold dist2; simp
theorem dist2_sq (a b : Pt) : dist2 a b ^ 2 = (a.1 - b.1) ^ 2 + (a.2 - b.2) ^ 2 := Real.sq_sqrt (by positivity)
theorem dist2_eq_zero {a b : Pt} (h : dist2 a b = 0) : a = b := by
  have := dist2_sq a b
  rw [h] at this
  have h1 : a.1 - b.1 = 0 := by nlinarith [sq_nonneg (a.1 - b.1), sq_nonneg (a.2 - b.2)]
  have h2 : a.2 - b.2 = 0 := by nlinarith [sq_nonneg (a.1 - b.1), sq_nonneg (a.2 - b.2)]
  exact Prod.ext (by linarith) (by linarith)

/-- C187: the contour point of a boundary pixel and a pixel above the level other than the peak lies on the ray from
the peak to the latter, at a distance between those of the two pixels, where the linear interpolation of their values
is the level. -/
theorem contour_level (peak cur far : Pt) (vc vf level : ℝ) (h1 : vc < level) (h2 : level < vf) (hf : far ≠ peak) :
    ∃ p r, contourPoint peak cur far vc vf level = some p ∧ 0 ≤ r ∧ dist2 p peak = r ∧
      p = (peak.1 + r * ((far.1 - peak.1) / dist2 far peak), peak.2 + r * ((far.2 - peak.2) / dist2 far peak)) ∧
      (∃ t, 0 < t ∧ t < 1 ∧ r = (1 - t) * dist2 cur peak + t * dist2 far peak ∧ (1 - t) * vc + t * vf = level) := by
  have hn : 0 < dist2 far peak := by
    rcases (dist2_nonneg far peak).lt_or_eq with h | h
    · exact h
    · exact absurd (dist2_eq_zero h.symm) hf
  have hv : 0 < vf - vc := by linarith
  set t := (level - vc) / (vf - vc) with ht
  have ht0 : 0 < t := div_pos (by linarith) hv
  have ht1 : t < 1 := by rw [ht, div_lt_one hv]; linarith
  set r := dist2 cur peak + t * (dist2 far peak - dist2 cur peak) with hr
  have hr0 : 0 ≤ r := by
    have : r = (1 - t) * dist2 cur peak + t * dist2 far peak := by rw [hr]; ring
    rw [this]
    have := dist2_nonneg cur peak
    have : 0 ≤ 1 - t := by linarith
    positivity
  have e : contourPoint peak cur far vc vf level =
      some (peak.1 + (far.1 - peak.1) / dist2 far peak * r, peak.2 + (far.2 - peak.2) / dist2 far peak * r) := by
    unfold contourPoint
    rw [if_pos ⟨h1, h2⟩]
    simp only
    rw [if_pos hn]
  refine ⟨_, r, e, hr0, ?_, ?_, t, ht0, ht1, by rw [hr]; ring, ?_⟩
  · have hsq := dist2_sq far peak
    unfold dist2 at hn ⊢
    simp only
    rw [show (peak.1 + (far.1 - peak.1) / Real.sqrt ((far.1 - peak.1) ^ 2 + (far.2 - peak.2) ^ 2) * r - peak.1) ^ 2 +
      (peak.2 + (far.2 - peak.2) / Real.sqrt ((far.1 - peak.1) ^ 2 + (far.2 - peak.2) ^ 2) * r - peak.2) ^ 2 = r ^ 2 by
      unfold dist2 at hsq
      generalize Real.sqrt ((far.1 - peak.1) ^ 2 + (far.2 - peak.2) ^ 2) = n at *
      field_simp
      rw [hsq]; ring]
    exact Real.sqrt_sq hr0
  · rw [mul_comm r, mul_comm r]
  · rw [ht]; field_simp; ring

/-- C301 (violation): where the only pixel above the level is the peak, the contour point is the peak itself. -/
theorem contour_violation (peak cur : Pt) (vc vf level : ℝ) (h1 : vc < level) (h2 : level < vf) :
    contourPoint peak cur peak vc vf level = some peak := by
  unfold contourPoint
  rw [if_pos ⟨h1, h2⟩]
  simp only
  rw [dist2_self, if_neg (lt_irrefl _)]
  simp

theorem mem_pixels (im : Img ℝ) (p : Pix) : p ∈ pixels im ↔ p.1 < im.ny ∧ p.2 < im.nx := by
  unfold pixels
  rw [List.mem_flatMap]
  constructor
  · rintro ⟨y, hy, h⟩
    obtain ⟨x, hx, rfl⟩ := List.mem_map.1 h
    exact ⟨List.mem_range.1 hx, List.mem_range.1 hy⟩
  · rintro ⟨h1, h2⟩
    exact ⟨p.2, List.mem_range.2 h2, List.mem_map.2 ⟨p.1, List.mem_range.2 h1, rfl⟩⟩

theorem isAbove_iff (im : Img ℝ) (level : ℝ) (p : Pix) :
    isAbove im level p = true ↔ p.1 < im.ny ∧ p.2 < im.nx ∧ level < val im p := by
  unfold isAbove; simp

/-- Spec: the neighbours of a pixel. -/
def Adjacent (a p : Pix) : Prop :=
  (a.2 = p.2 ∧ (a.1 = p.1 + 1 ∨ p.1 = a.1 + 1)) ∨ (a.1 = p.1 ∧ (a.2 = p.2 + 1 ∨ p.2 = a.2 + 1))

/-- Every contour point comes from a pixel of the image strictly below the level with a neighbour above the
level, and every such pixel gives one (the pixels chosen are above the level). -/
theorem raw_spec_aux (im : Img ℝ) (level : ℝ) (far : Pix → Pix) :
    (∀ q, q ∈ rawContour im level far ↔ ∃ p : Pix, p.1 < im.ny ∧ p.2 < im.nx ∧ val im p < level ∧
      (∃ a : Pix, a.1 < im.ny ∧ a.2 < im.nx ∧ level < val im a ∧ Adjacent a p) ∧
      contourPoint (toPt (peakPix im)) (toPt p) (toPt (far p)) (val im p) (val im (far p)) level = some q) ∧
    ((∀ p, level < val im (far p)) → ∀ p : Pix, val im p < level →
      ∃ q, contourPoint (toPt (peakPix im)) (toPt p) (toPt (far p)) (val im p) (val im (far p)) level = some q) := by
  constructor
  swap
  · intro hfar p hp
    unfold contourPoint
    rw [if_pos ⟨hp, hfar p⟩]
    exact ⟨_, rfl⟩
  intro q
  have hb : ∀ p : Pix, p.1 < im.ny → p.2 < im.nx → (isBoundary im level p = true ↔ val im p ≤ level ∧
      ∃ a : Pix, a.1 < im.ny ∧ a.2 < im.nx ∧ level < val im a ∧ Adjacent a p) := by
    intro p hx hy
    unfold Adjacent
    unfold isBoundary
    simp only [Bool.and_eq_true, Bool.or_eq_true, Bool.not_eq_true', ← Bool.not_eq_true, isAbove_iff, decide_eq_true_eq]
    constructor
    · rintro ⟨h1, h2⟩
      refine ⟨by by_contra hc; push Not at hc; exact h1 ⟨hx, hy, hc⟩, ?_⟩
      rcases h2 with ((h | h) | ⟨h0, h⟩) | ⟨h0, h⟩
      · exact ⟨(p.1 + 1, p.2), h.1, h.2.1, h.2.2, by simp⟩
      · exact ⟨(p.1, p.2 + 1), h.1, h.2.1, h.2.2, by simp⟩
      · exact ⟨(p.1 - 1, p.2), h.1, h.2.1, h.2.2, by left; exact ⟨rfl, Or.inr (by show p.1 = p.1 - 1 + 1; omega)⟩⟩
      · exact ⟨(p.1, p.2 - 1), h.1, h.2.1, h.2.2, by right; exact ⟨rfl, Or.inr (by show p.2 = p.2 - 1 + 1; omega)⟩⟩
    · rintro ⟨h1, ⟨a1, a2⟩, b1, b2, b3, h2⟩
      refine ⟨fun hc => absurd hc.2.2 (not_lt.2 h1), ?_⟩
      simp only at h2 b1 b2
      rcases h2 with ⟨rfl, rfl | h⟩ | ⟨rfl, rfl | h⟩
      · left; left; left; exact ⟨b1, b2, b3⟩
      · left; right; exact ⟨by omega, by rw [h]; exact ⟨b1, b2, b3⟩⟩
      · left; left; right; exact ⟨b1, b2, b3⟩
      · right; exact ⟨by omega, by rw [h]; exact ⟨b1, b2, b3⟩⟩
  unfold rawContour
  rw [List.mem_filterMap]
  constructor
  · rintro ⟨p, hp, h⟩
    rw [List.mem_filter] at hp
    obtain ⟨hx, hy⟩ := (mem_pixels im p).1 hp.1
    obtain ⟨h1, h2⟩ := (hb p hx hy).1 hp.2
    refine ⟨p, hx, hy, ?_, h2, h⟩
    by_contra hc
    unfold contourPoint at h
    rw [if_neg (fun hh => hc hh.1)] at h
    exact absurd h (by simp)
  · rintro ⟨p, hx, hy, h1, h2, h⟩
    exact ⟨p, List.mem_filter.2 ⟨(mem_pixels im p).2 ⟨hx, hy⟩, (hb p hx hy).2 ⟨h1.le, h2⟩⟩, h⟩

/-! ### C188: the filter of the outliers -/

/-- C187: every contour point comes from a pixel of the image strictly below the level with a neighbour above the
level, and every such pixel gives one (the pixels chosen are above the level). A pixel `(x, y)` is the point of these coordinates, its value in row `y` and column `x`. -/
theorem raw_spec (im : Img ℝ) (level : ℝ) (far : Pix → Pix) :
    (∀ q, q ∈ rawContour im level far ↔ ∃ p : Pix, p.1 < im.ny ∧ p.2 < im.nx ∧ im.px p.2 p.1 < level ∧
      (∃ a : Pix, a.1 < im.ny ∧ a.2 < im.nx ∧ level < im.px a.2 a.1 ∧ Adjacent a p) ∧
      contourPoint (((peakPix im).1, (peakPix im).2)) ((p.1, p.2)) (((far p).1, (far p).2)) (im.px p.2 p.1) (im.px (far p).2 (far p).1) level = some q) ∧
    ((∀ p, level < im.px (far p).2 (far p).1) → ∀ p : Pix, im.px p.2 p.1 < level →
      ∃ q, contourPoint (((peakPix im).1, (peakPix im).2)) ((p.1, p.2)) (((far p).1, (far p).2)) (im.px p.2 p.1) (im.px (far p).2 (far p).1) level = some q) :=
  raw_spec_aux im level far

theorem median_l1 (l : List ℝ) (hl : l ≠ []) (c : ℝ) :
    (l.map fun x => |x - median l|).sum ≤ (l.map fun x => |x - c|).sum := by
  set s := l.mergeSort (fun a b => decide (a ≤ b)) with hs
  have perm : s.Perm l := List.mergeSort_perm l _
  have sorted : s.Pairwise (· ≤ ·) := by
    have := List.pairwise_mergeSort (le := fun a b : ℝ => decide (a ≤ b))
      (fun a b c h1 h2 => by simp only [decide_eq_true_eq] at *; exact h1.trans h2)
      (fun a b => by simp only [Bool.or_eq_true, decide_eq_true_eq]; exact le_total a b) l
    exact this.imp (by simp)
  have len : s.length = l.length := perm.length_eq
  have hN : 0 < l.length := List.length_pos_of_ne_nil hl
  set N := l.length with hNdef
  set u : ℕ → ℝ := fun i => s.getD i 0 with hu
  have mono : ∀ i j, i ≤ j → j < N → u i ≤ u j := by
    intro i j hij hj
    rw [hu]
    simp only
    rw [List.getD_eq_getElem _ _ (by omega), List.getD_eq_getElem _ _ (by omega)]
    rcases Nat.eq_or_lt_of_le hij with rfl | h
    · exact le_rfl
    · exact List.pairwise_iff_getElem.1 sorted i j _ _ h
  have hm : median l = if N % 2 = 1 then u (N / 2) else (u (N / 2 - 1) + u (N / 2)) / 2 := rfl
  set m := median l with hmdef
  have mid : ∀ i, i ≤ N - 1 - i → u i ≤ m ∧ m ≤ u (N - 1 - i) := by
    intro i hi
    rw [hm]
    split_ifs with ho
    · exact ⟨mono _ _ (by omega) (by omega), mono _ _ (by omega) (by omega)⟩
    · have a1 := mono i (N / 2 - 1) (by omega) (by omega)
      have a2 := mono (N / 2 - 1) (N / 2) (by omega) (by omega)
      have a3 := mono (N / 2) (N - 1 - i) (by omega) (by omega)
      constructor <;> linarith
  have sums : ∀ f : ℝ → ℝ, (l.map f).sum = ∑ i ∈ Finset.range N, f (u i) := by
    intro f
    rw [← (perm.map f).sum_eq, ← list_range_sum]
    congr 1
    apply List.ext_getElem
    · simp [len]
    · intro i h1 h2
      simp only [List.getElem_map, List.getElem_range, hu]
      rw [List.getD_eq_getElem _ _ (by simpa using h1)]
  rw [sums, sums]
  have pair : ∀ i ∈ Finset.range N, |u i - m| + |u (N - 1 - i) - m| ≤ |u i - c| + |u (N - 1 - i) - c| := by
    have half : ∀ i, i ≤ N - 1 - i → |u i - m| + |u (N - 1 - i) - m| ≤ |u i - c| + |u (N - 1 - i) - c| := by
      intro i hi
      obtain ⟨h1, h2⟩ := mid i hi
      rw [abs_of_nonpos (by linarith), abs_of_nonneg (by linarith)]
      linarith [neg_abs_le (u i - c), le_abs_self (u (N - 1 - i) - c)]
    intro i hi
    rw [Finset.mem_range] at hi
    by_cases h : i ≤ N - 1 - i
    · exact half i h
    · have := half (N - 1 - i) (by omega)
      rw [show N - 1 - (N - 1 - i) = i by omega] at this
      linarith
  have total := Finset.sum_le_sum pair
  rw [Finset.sum_add_distrib, Finset.sum_add_distrib, Finset.sum_range_reflect (fun i => |u i - m|),
    Finset.sum_range_reflect (fun i => |u i - c|)] at total
  linarith

theorem sum_sq_ge (l : List ℝ) : (l.map fun x => |x|).sum ^ 2 ≤ l.length * (l.map fun x => x ^ 2).sum := by
  induction l with
  | nil => simp
  | cons a t ih =>
    simp only [List.map_cons, List.sum_cons, List.length_cons]
    push_cast
    set S := (t.map fun x => |x|).sum
    set Q := (t.map fun x => x ^ 2).sum
    have key : 2 * |a| * S ≤ t.length * a ^ 2 + Q := by
      clear ih
      have : ∀ t : List ℝ, 2 * |a| * (t.map fun x => |x|).sum ≤ t.length * a ^ 2 + (t.map fun x => x ^ 2).sum := by
        intro t
        induction t with
        | nil => simp
        | cons b t ih =>
          simp only [List.map_cons, List.sum_cons, List.length_cons]
          push_cast
          nlinarith [sq_nonneg (|a| - |b|), sq_abs a, sq_abs b]
      exact this t
    nlinarith [sq_abs a]

theorem sum_center (l : List ℝ) (c m : ℝ) (hm : m * l.length = l.sum) :
    (l.map fun x => (x - c) ^ 2).sum = (l.map fun x => (x - m) ^ 2).sum + l.length * (m - c) ^ 2 := by
  have g : ∀ (l : List ℝ) (k : ℝ), (l.map fun x => (x - k) ^ 2).sum = (l.map fun x => x ^ 2).sum - 2 * k * l.sum + l.length * k ^ 2 := by
    intro l k
    induction l with
    | nil => simp
    | cons a t ih =>
      simp only [List.map_cons, List.sum_cons, List.length_cons]
      rw [ih]; push_cast; ring
  rw [g, g, ← hm]; ring

theorem markov (l : List Pt) (f : Pt → ℝ) (hf : ∀ p, 0 ≤ f p) (P : Pt → Bool) (k : ℝ) (h : ∀ p, P p = false → k ≤ f p) :
    ((l.length : ℝ) - (l.filter P).length) * k ≤ (l.map f).sum := by
  induction l with
  | nil => simp
  | cons a t ih =>
    simp only [List.map_cons, List.sum_cons, List.length_cons]
    by_cases hp : P a = true
    · rw [List.filter_cons_of_pos hp, List.length_cons]
      push_cast
      have := hf a
      linarith
    · rw [List.filter_cons_of_neg hp]
      push_cast
      have := h a (by simpa using hp)
      linarith

/-- C188: if the distances are not all equal, the filter keeps at least half of the points. -/
theorem keep_half (peak : Pt) (pts : List Pt) (h : ∃ p ∈ pts, ∃ q ∈ pts, dist2 p peak ≠ dist2 q peak) :
    pts.length ≤ 2 * (keep peak pts).length ∧ ∀ p ∈ keep peak pts, p ∈ pts := by
  refine ⟨?_, fun p hp => (List.mem_filter.1 hp).1⟩
  set ds := pts.map fun p => dist2 p peak with hds
  have hlen : ds.length = pts.length := by rw [hds, List.length_map]
  obtain ⟨p, hp, q, hq, hpq⟩ := h
  have hne : ds ≠ [] := by
    intro hc
    rw [hds, List.map_eq_nil_iff] at hc
    rw [hc] at hp; exact absurd hp (by simp)
  have hN : (0:ℝ) < ds.length := by exact_mod_cast List.length_pos_of_ne_nil hne
  set μ := ds.sum / ds.length with hμ
  have hμ' : μ * ds.length = ds.sum := by rw [hμ]; field_simp
  set V := (ds.map fun x => (x - μ) ^ 2).sum with hV
  have hV0 : 0 ≤ V := List.sum_nonneg (by
    intro x hx
    obtain ⟨y, _, rfl⟩ := List.mem_map.1 hx
    positivity)
  have hσ : std ds ^ 2 = V / ds.length := by
    unfold std
    exact Real.sq_sqrt (by positivity)
  have hσ0 : 0 ≤ std ds := Real.sqrt_nonneg _
  have hVpos : 0 < V := by
    rcases hV0.lt_or_eq with h | h
    · exact h
    · exfalso
      have z : ∀ x ∈ ds, x = μ := by
        intro x hx
        have := List.single_le_sum (l := ds.map fun x => (x - μ) ^ 2) (by
          intro y hy
          obtain ⟨w, _, rfl⟩ := List.mem_map.1 hy
          positivity) ((x - μ) ^ 2) (List.mem_map.2 ⟨x, hx, rfl⟩)
        rw [← hV, ← h] at this
        nlinarith [sq_nonneg (x - μ)]
      exact hpq ((z _ (List.mem_map.2 ⟨p, hp, rfl⟩)).trans (z _ (List.mem_map.2 ⟨q, hq, rfl⟩)).symm)
  set m := median ds with hm
  -- the median is within one deviation of the mean
  have l1 := median_l1 ds hne μ
  have hA : ((ds.map fun x => |x - μ|).sum) ^ 2 ≤ ds.length * V := by
    have := sum_sq_ge (ds.map fun x => x - μ)
    simp only [List.map_map, List.length_map] at this
    rw [hV]
    simpa only [hds, List.map_map, List.length_map, Function.comp_def] using this
  have hB : |ds.length * (μ - m)| ≤ (ds.map fun x => |x - m|).sum := by
    have e : (ds.length : ℝ) * (μ - m) = (ds.map fun x => x - m).sum := by
      have g : ∀ l : List ℝ, (l.map fun x => x - m).sum = l.sum - l.length * m := by
        intro l
        induction l with
        | nil => simp
        | cons a t ih => simp only [List.map_cons, List.sum_cons, List.length_cons]; rw [ih]; push_cast; ring
      rw [g, ← hμ']; ring
    rw [e]
    have g : ∀ l : List ℝ, |(l.map fun x => x - m).sum| ≤ (l.map fun x => |x - m|).sum := by
      intro l
      induction l with
      | nil => simp
      | cons a t ih =>
        simp only [List.map_cons, List.sum_cons]
        exact (abs_add_le _ _).trans (by linarith)
    exact g ds
  have hC : (ds.length * (μ - m)) ^ 2 ≤ ds.length * V := by
    have h1 : |ds.length * (μ - m)| ≤ (ds.map fun x => |x - μ|).sum := hB.trans l1
    calc (ds.length * (μ - m)) ^ 2 = |ds.length * (μ - m)| ^ 2 := (sq_abs _).symm
      _ ≤ ((ds.map fun x => |x - μ|).sum) ^ 2 := by
        apply pow_le_pow_left₀ (abs_nonneg _) h1
      _ ≤ _ := hA
  have hD : ds.length * (μ - m) ^ 2 ≤ V := by
    have : ds.length * (ds.length * (μ - m) ^ 2) ≤ ds.length * V := by nlinarith
    exact le_of_mul_le_mul_left this hN
  have hE : (ds.map fun x => (x - m) ^ 2).sum ≤ 2 * V := by
    rw [sum_center ds m μ hμ']; linarith
  -- points outside
  have mk := markov pts (fun p => (dist2 p peak - m) ^ 2) (fun p => sq_nonneg _)
    (fun p => open Classical in decide (|dist2 p peak - m| < 2 * std ds)) (4 * std ds ^ 2) (by
      intro p hp
      simp only [decide_eq_false_iff_not, not_lt] at hp
      rw [← sq_abs (dist2 p peak - m)]
      nlinarith)
  have hk : (pts.map fun p => (dist2 p peak - m) ^ 2).sum = (ds.map fun x => (x - m) ^ 2).sum := by
    rw [hds, List.map_map]; rfl
  rw [hk] at mk
  have hkeep : keep peak pts = pts.filter (fun p => open Classical in decide (|dist2 p peak - m| < 2 * std ds)) := rfl
  rw [← hkeep, hσ] at mk
  have fin : ((pts.length : ℝ) - (keep peak pts).length) * (4 * (V / ds.length)) ≤ 2 * V := mk.trans hE
  rw [hlen] at fin hN
  have : ((pts.length : ℝ) - (keep peak pts).length) * 2 ≤ pts.length := by
    have h3 : ((pts.length : ℝ) - (keep peak pts).length) * (4 * (V / pts.length)) * pts.length ≤ 2 * V * pts.length :=
      mul_le_mul_of_nonneg_right fin hN.le
    rw [show ((pts.length : ℝ) - (keep peak pts).length) * (4 * (V / pts.length)) * pts.length =
      (2 * V) * (((pts.length : ℝ) - (keep peak pts).length) * 2) by field_simp; ring] at h3
    exact le_of_mul_le_mul_left h3 (by linarith)
  have : (pts.length : ℝ) ≤ 2 * (keep peak pts).length := by linarith
  exact_mod_cast this

/-- C302 (violation): if all points are at the same distance of the peak (a round contour), all are removed. -/
theorem keep_violation (peak : Pt) (pts : List Pt) (R : ℝ) (h : ∀ p ∈ pts, dist2 p peak = R) : keep peak pts = [] := by
  unfold keep
  simp only
  have hds : pts.map (fun p => dist2 p peak) = List.replicate pts.length R := by
    rw [List.eq_replicate_iff]
    refine ⟨List.length_map _, ?_⟩
    intro x hx
    obtain ⟨p, hp, rfl⟩ := List.mem_map.1 hx
    exact h p hp
  have hstd : std (pts.map fun p => dist2 p peak) = 0 := by
    rw [hds]
    unfold std
    rcases Nat.eq_zero_or_pos pts.length with h0 | h0
    · rw [h0]; simp
    · have : (pts.length : ℝ) ≠ 0 := by exact_mod_cast h0.ne'
      rw [List.map_replicate, List.sum_replicate, List.sum_replicate, List.length_replicate]
      rw [nsmul_eq_mul, nsmul_eq_mul, mul_div_cancel_left₀ _ this, mul_div_cancel_left₀ _ this, sub_self]
      simp
  rw [hstd, List.filter_eq_nil_iff]
  intro p _
  simp only [decide_eq_true_eq, not_lt, mul_zero]
  exact abs_nonneg _

/-! ### C189: the width of an image -/

theorem maxL_mul (c : ℝ) (hc : 0 ≤ c) (l : List ℝ) : maxL (l.map (c * ·)) = c * maxL l := by
  rcases l.eq_nil_or_concat with rfl | ⟨_, _, hl⟩
  · simp [maxL]
  have hne : l ≠ [] := by rw [hl]; simp
  apply le_antisymm
  · obtain ⟨x, hx, e⟩ := List.mem_map.1 (maxL_mem _ (by simpa using hne : l.map (c * ·) ≠ []))
    rw [← e]
    exact mul_le_mul_of_nonneg_left (le_maxL l x hx) hc
  · exact le_maxL _ _ (List.mem_map.2 ⟨_, maxL_mem l hne, rfl⟩)
theorem minL_mul (c : ℝ) (hc : 0 ≤ c) (l : List ℝ) : minL (l.map (c * ·)) = c * minL l := by
  rcases l.eq_nil_or_concat with rfl | ⟨_, _, hl⟩
  · simp [minL]
  have hne : l ≠ [] := by rw [hl]; simp
  apply le_antisymm
  · exact minL_le _ _ (List.mem_map.2 ⟨_, minL_mem l hne, rfl⟩)
  · obtain ⟨x, hx, e⟩ := List.mem_map.1 (minL_mem _ (by simpa using hne : l.map (c * ·) ≠ []))
    rw [← e]
    exact mul_le_mul_of_nonneg_left (minL_le l x hx) hc

theorem radii_scale (pts : List Pt) (ps rebin c : ℝ) : radii pts (c * ps) rebin = (radii pts ps rebin).map (c * ·) := by
  unfold radii
  rw [List.map_map]
  refine List.map_congr_left fun p _ => ?_
  simp only [Function.comp]
  ring

/-- C189: the contour method reports the largest and smallest distance of the contour from the centre of its
bounding box, doubled: the first width is the largest. -/
theorem ofContour_order (pts : List Pt) (ps rebin : ℝ) (hne : pts ≠ []) :
    (ofContour pts ps rebin).y ≤ (ofContour pts ps rebin).x ∧
    (∃ p ∈ pts, (ofContour pts ps rebin).x = 2 * (dist2 p (center pts) / rebin * ps)) ∧
    (∃ p ∈ pts, (ofContour pts ps rebin).y = 2 * (dist2 p (center pts) / rebin * ps)) ∧
    ∀ p ∈ pts, (ofContour pts ps rebin).y ≤ 2 * (dist2 p (center pts) / rebin * ps) ∧
      2 * (dist2 p (center pts) / rebin * ps) ≤ (ofContour pts ps rebin).x := by
  have hr : radii pts ps rebin ≠ [] := by unfold radii; simpa using hne
  obtain ⟨p, hp, e⟩ := List.mem_map.1 (maxL_mem _ hr)
  obtain ⟨q, hq, e'⟩ := List.mem_map.1 (minL_mem _ hr)
  have hx : (ofContour pts ps rebin).x = 2 * maxL (radii pts ps rebin) := rfl
  have hy : (ofContour pts ps rebin).y = 2 * minL (radii pts ps rebin) := rfl
  rw [hx, hy]
  have b : ∀ p ∈ pts, minL (radii pts ps rebin) ≤ dist2 p (center pts) / rebin * ps ∧
      dist2 p (center pts) / rebin * ps ≤ maxL (radii pts ps rebin) := fun p hp =>
    ⟨minL_le _ _ (List.mem_map.2 ⟨p, hp, rfl⟩), le_maxL _ _ (List.mem_map.2 ⟨p, hp, rfl⟩)⟩
  refine ⟨by linarith [(b p hp).1, (b p hp).2], ⟨p, hp, by rw [e]; rfl⟩, ⟨q, hq, by rw [e']; rfl⟩, fun p hp => ?_⟩
  exact ⟨by linarith [(b p hp).1], by linarith [(b p hp).2]⟩

/-- C189: a contour on a circle around the centre of its box has both widths equal to the diameter. -/
theorem ofContour_circle (pts : List Pt) (ps rebin R : ℝ) (hne : pts ≠ []) (h : ∀ p ∈ pts, dist2 p (center pts) = R) :
    (ofContour pts ps rebin).x = 2 * R / rebin * ps ∧ (ofContour pts ps rebin).y = 2 * R / rebin * ps := by
  obtain ⟨_, ⟨p, hp, e⟩, ⟨q, hq, e'⟩, _⟩ := ofContour_order pts ps rebin hne
  rw [e, e', h p hp, h q hq]
  constructor <;> ring

/-- C303 (violation): the contour method on a round contour around the peak uses the cuts through the peak instead. -/
theorem round_violation (im : Img ℝ) (level : ℝ) (far : Pix → Pix) (R : ℝ) (old : Option (List Pt)) (f : Fits)
    (cx cy ps rebin : ℝ) (h : ∀ p ∈ rawContour im level far, dist2 p (toPt (peakPix im)) = R) :
    measure .contour (findContour im level far) old f cx cy ps rebin = .ok (ofCut cx cy ps rebin) := by
  unfold findContour
  simp only
  rw [keep_violation _ _ R h]
  split_ifs <;> simp [measure]

/-- C189: widths are proportional to the pixel scale, for every method, image and resampling. -/
theorem widths_scale (im : Img ℝ) (Ny Nx : ℕ) (ps rebin c : ℝ) (hc : 0 < c) (m : Method) (far : Pix → Pix)
    (old : Option (List Pt)) (f : Fits) :
    widths im Ny Nx (c * ps) rebin m far old f =
      (widths im Ny Nx ps rebin m far old f).map fun w => { x := c * w.x, y := c * w.y, theta := w.theta } := by
  have hcut : ∀ cx cy, ofCut cx cy (c * ps) rebin = { x := c * (ofCut cx cy ps rebin).x, y := c * (ofCut cx cy ps rebin).y, theta := (ofCut cx cy ps rebin).theta } := by
    intro cx cy; unfold ofCut; simp only [W.mk.injEq]; refine ⟨by ring, by ring, trivial⟩
  have hcon : ∀ pts, ofContour pts (c * ps) rebin = { x := c * (ofContour pts ps rebin).x, y := c * (ofContour pts ps rebin).y, theta := (ofContour pts ps rebin).theta } := by
    intro pts
    unfold ofContour
    simp only [W.mk.injEq]
    rw [radii_scale, maxL_mul c hc.le, minL_mul c hc.le]
    refine ⟨by ring, by ring, ?_⟩
    have : ((radii pts ps rebin).map (c * ·)).idxOf (c * maxL (radii pts ps rebin)) =
        (radii pts ps rebin).idxOf (maxL (radii pts ps rebin)) := by
      generalize maxL (radii pts ps rebin) = v
      induction radii pts ps rebin with
      | nil => simp
      | cons a t ih =>
        rw [List.map_cons, List.idxOf_cons, List.idxOf_cons, ih]
        have : (c * a == c * v) = (a == v) := by
          rw [Bool.eq_iff_iff, beq_iff_eq, beq_iff_eq]
          exact mul_right_inj' hc.ne'
        rw [this]
    rw [this]
  have hgau : ofGauss f (c * ps) = { x := c * (ofGauss f ps).x, y := c * (ofGauss f ps).y, theta := (ofGauss f ps).theta } := by
    unfold ofGauss
    simp only [W.mk.injEq]
    refine ⟨?_, ?_, trivial⟩
    · rw [show f.sx * (c * ps) = c * (f.sx * ps) by ring, abs_mul, abs_of_pos hc]; ring
    · rw [show f.sy * (c * ps) = c * (f.sy * ps) by ring, abs_mul, abs_of_pos hc]; ring
  have hmof : ofMoffat f (c * ps) = { x := c * (ofMoffat f ps).x, y := c * (ofMoffat f ps).y, theta := (ofMoffat f ps).theta } := by
    unfold ofMoffat
    simp only [W.mk.injEq]
    refine ⟨by ring, by ring, trivial⟩
  have hmeas : ∀ m pts cx cy, measure m pts old f cx cy (c * ps) rebin = (measure m pts old f cx cy ps rebin).map
      fun w => { x := c * w.x, y := c * w.y, theta := w.theta } := by
    intro m pts cx cy
    cases m
    · cases old <;> simp only [measure, Except.map] <;> [rw [hcut]; rw [hcon]]
    · cases pts with
      | none => simp only [measure, Except.map]; rw [hcut]
      | some l =>
        simp only [measure]
        split_ifs <;> simp only [Except.map] <;> [rw [hcut]; rw [hcon]]
    · simp only [measure, Except.map]; rw [hgau]
    · simp only [measure, Except.map]; rw [hmof]
    · simp only [measure, Except.map]; rw [hcut]
    · rfl
  unfold widths
  split_ifs
  · simp only [Except.map]
    congr 2 <;> ring
  · simp only [bind, Except.bind]
    generalize fwhm1d ((List.range im.ny).map fun x => im.px (peakPix im).2 x) = a
    cases a with
    | error e => rfl
    | ok cx =>
      generalize fwhm1d ((List.range im.nx).map fun y => im.px y (peakPix im).1) = b
      cases b with
      | error e => rfl
      | ok cy => exact hmeas _ _ _ _

/-- C189: the ellipticity is the ratio of the largest to the smallest width. -/
theorem aRatio_spec (w : W) (hx : 0 < w.x) (hy : 0 < w.y) : aRatio w = max w.x w.y / min w.x w.y ∧ 1 ≤ aRatio w := by
  have e : aRatio w = max w.x w.y / min w.x w.y := by
    unfold aRatio
    rcases le_total w.x w.y with h | h
    · rw [max_eq_right h, min_eq_left h, max_eq_right]
      rw [div_le_div_iff₀ hy hx]; nlinarith
    · rw [max_eq_left h, min_eq_right h, max_eq_left]
      rw [div_le_div_iff₀ hx hy]; nlinarith
  refine ⟨e, ?_⟩
  rw [e, le_div_iff₀ (lt_min hx hy), one_mul]
  exact min_le_max

/-- C189: on an image resampled `r` times finer — cuts and contours `r` times longer in pixels — the cutting and
contour methods give the same widths. -/
theorem rebin_cut (pts : List Pt) (cx cy ps r : ℝ) (hr : 0 < r) :
    ofCut (r * cx) (r * cy) ps r = ofCut cx cy ps 1 ∧
    (ofContour (pts.map fun p => (r * p.1, r * p.2)) ps r).x = (ofContour pts ps 1).x ∧
    (ofContour (pts.map fun p => (r * p.1, r * p.2)) ps r).y = (ofContour pts ps 1).y := by
  have hc : center (pts.map fun p => (r * p.1, r * p.2)) = (r * (center pts).1, r * (center pts).2) := by
    unfold center
    have e1 : (pts.map fun p => (r * p.1, r * p.2)).map Prod.fst = (pts.map Prod.fst).map (r * ·) := by
      rw [List.map_map, List.map_map]; rfl
    have e2 : (pts.map fun p => (r * p.1, r * p.2)).map Prod.snd = (pts.map Prod.snd).map (r * ·) := by
      rw [List.map_map, List.map_map]; rfl
    rw [e1, e2, maxL_mul r hr.le, minL_mul r hr.le, maxL_mul r hr.le, minL_mul r hr.le]
    ext <;> simp <;> ring
  have hrad : radii (pts.map fun p => (r * p.1, r * p.2)) ps r = radii pts ps 1 := by
    unfold radii
    rw [hc, List.map_map]
    refine List.map_congr_left fun p _ => ?_
    simp only [Function.comp]
    have : dist2 (r * p.1, r * p.2) (r * (center pts).1, r * (center pts).2) = r * dist2 p (center pts) := by
      unfold dist2
      simp only
      rw [show (r * p.1 - r * (center pts).1) ^ 2 + (r * p.2 - r * (center pts).2) ^ 2 =
        r ^ 2 * ((p.1 - (center pts).1) ^ 2 + (p.2 - (center pts).2) ^ 2) by ring, Real.sqrt_mul (sq_nonneg r), Real.sqrt_sq hr.le]
    rw [this]
    field_simp
  refine ⟨?_, ?_, ?_⟩
  · unfold ofCut
    simp only [W.mk.injEq]
    refine ⟨?_, ?_, trivial⟩ <;> field_simp
  · show 2 * maxL _ = 2 * maxL _
    rw [hrad]
  · show 2 * minL _ = 2 * minL _
    rw [hrad]

/-- C303 (violation): the fitting methods do not divide by the resampling factor: on an image resampled `r` times finer
they give widths `r` times larger. -/
theorem rebin_violation (f : Fits) (ps r : ℝ) (hr : 1 < r) (hps : 0 < ps) (hs : 0 < f.sx) (hm : 0 < f.moffat)
    (pts old : Option (List Pt)) (cx cy : ℝ) (f' : Fits) (hf : f'.sx = r * f.sx) (hf' : f'.moffat = r * f.moffat) :
    (∃ w w', measure .gaussian pts old f cx cy ps 1 = .ok w ∧ measure .gaussian pts old f' cx cy ps r = .ok w' ∧
      w'.x = r * w.x ∧ w.x < w'.x) ∧
    (∃ w w', measure .moffat pts old f cx cy ps 1 = .ok w ∧ measure .moffat pts old f' cx cy ps r = .ok w' ∧
      w'.x = r * w.x ∧ w.x < w'.x) := by
  have hl : 0 < Real.sqrt (2 * Real.log 2) := Real.sqrt_pos.2 (mul_pos two_pos (Real.log_pos (by norm_num)))
  constructor
  · refine ⟨_, _, rfl, rfl, ?_, ?_⟩
    · show 2 * Real.sqrt (2 * Real.log 2) * |f'.sx * ps| = r * (2 * Real.sqrt (2 * Real.log 2) * |f.sx * ps|)
      rw [hf, abs_of_pos (by positivity), abs_of_pos (by positivity)]; ring
    · show 2 * Real.sqrt (2 * Real.log 2) * |f.sx * ps| < 2 * Real.sqrt (2 * Real.log 2) * |f'.sx * ps|
      rw [hf, abs_of_pos (by positivity), abs_of_pos (by positivity)]
      have : 0 < f.sx * ps := by positivity
      have : 0 < 2 * Real.sqrt (2 * Real.log 2) := by positivity
      nlinarith [mul_pos (by positivity : 0 < 2 * Real.sqrt (2 * Real.log 2)) (mul_pos hs hps)]
  · refine ⟨_, _, rfl, rfl, ?_, ?_⟩
    · show f'.moffat * ps = r * (f.moffat * ps)
      rw [hf']; ring
    · show f.moffat * ps < f'.moffat * ps
      rw [hf']
      nlinarith [mul_pos hm hps]

/-- C189: an image that is nowhere below half its peak gets the diagonal of a square of its size. -/
theorem widths_flat (im : Img ℝ) (Ny Nx : ℕ) (ps rebin : ℝ) (m : Method) (far : Pix → Pix) (old : Option (List Pt)) (f : Fits)
    (h : ∀ p ∈ flat im, ∀ q ∈ flat im, q ≤ 2 * p) :
    widths im Ny Nx ps rebin m far old f = .ok { x := Real.sqrt 2 * Nx * ps, y := Real.sqrt 2 * Ny * ps, theta := 0 } := by
  unfold widths
  rw [if_pos]
  by_cases hne : flat im = []
  · rw [hne]; simp [maxL, minL]
  · have := h _ (minL_mem _ hne) _ (maxL_mem _ hne)
    norm_num; linarith

/-- C190: which calls raise: unknown methods, unless the image is flat or its cuts reach its sides, and the cuts that
raise. -/
theorem widths_raises (im : Img ℝ) (Ny Nx : ℕ) (ps rebin : ℝ) (m : Method) (far : Pix → Pix) (old : Option (List Pt)) (f : Fits)
    (cx cy : ℝ) (hx : fwhm1d ((List.range im.ny).map fun x => im.px (peakPix im).2 x) = .ok cx)
    (hy : fwhm1d ((List.range im.nx).map fun y => im.px y (peakPix im).1) = .ok cy)
    (hmin : minL (flat im) < 0.5 * maxL (flat im)) :
    (∃ w, widths im Ny Nx ps rebin m far old f = .ok w) ↔ m ≠ .other ∨ (im.ny : ℝ) - 1 ≤ cx ∨ (im.nx : ℝ) - 1 ≤ cy := by
  have hsel : select m cx cy im.ny im.nx = .other ↔ m = .other ∧ ¬ ((im.ny : ℝ) - 1 ≤ cx ∨ (im.nx : ℝ) - 1 ≤ cy) := by
    unfold select
    by_cases hb : (im.ny : ℝ) - 1 ≤ cx ∨ (im.nx : ℝ) - 1 ≤ cy
    · rw [if_pos hb]
      simp only [reduceCtorEq, or_self, and_false, ite_false, false_iff, not_and, not_not]
      exact fun _ => hb
    · rw [if_neg hb]
      show (if cx = 1 ∧ cy = 1 ∧ (m = .contour ∨ m = .oldContour) then Method.cutting else m) = .other ↔ _
      split_ifs with h2
      · simp only [false_iff]
        rintro ⟨rfl, _⟩
        rcases h2.2.2 with h | h <;> exact absurd h (by simp)
      · exact ⟨fun h => ⟨h, hb⟩, fun h => h.1⟩
  have hm : ∀ m', (∃ w, measure m' (findContour im (maxL (flat im) / 2) far) old f cx cy ps rebin = .ok w) ↔ m' ≠ .other := by
    intro m'
    generalize findContour im (maxL (flat im) / 2) far = pts
    cases m'
    · cases old <;> simp [measure]
    · cases pts with
      | none => simp [measure]
      | some l =>
        simp only [measure]
        split_ifs <;> simp
    all_goals simp [measure]
  have e : widths im Ny Nx ps rebin m far old f =
      measure (select m cx cy im.ny im.nx) (findContour im (maxL (flat im) / 2) far) old f cx cy ps rebin := by
    unfold widths
    rw [if_neg (not_le.2 hmin)]
    simp only [hx, hy, bind, Except.bind]
  rw [e, hm, ne_eq, hsel]
  tauto

/-- C190: the outputs. -/
theorem output_spec (n : ℕ) (w : W) : (∃ l, output n w = some l ∧ l.length = n ∧ (2 ≤ n → l.getD 0 0 = w.x ∧ l.getD 1 0 = w.y)) ↔
    1 ≤ n ∧ n ≤ 4 := by
  rcases n with _ | _ | _ | _ | _ | n <;> simp [output]

/-! ### The hypotheses can be met -/

example : contourPoint (0, 0) (2, 0) (1, 0) 1 3 2 = some (1.5, 0) := by
  have h4 : Real.sqrt 4 = 2 := by rw [show (4:ℝ) = 2 ^ 2 by norm_num, Real.sqrt_sq (by norm_num)]
  unfold contourPoint dist2
  norm_num [h4]
/-- A round contour: four points around the peak. -/
example : ∀ p ∈ [((1:ℝ), (0:ℝ)), (0, 1), (-1, 0), (0, -1)], dist2 p (0, 0) = 1 := by
  intro p hp
  simp only [List.mem_cons, List.not_mem_nil, or_false] at hp
  rcases hp with rfl | rfl | rfl | rfl <;> unfold dist2 <;> norm_num
/-- A round image: 4 at the peak, 3 beside it, 2 (the level) on the diagonals, 1 elsewhere. -/
def roundImage : Img ℝ :=
  ⟨5, 5, fun i j => if i = 2 ∧ j = 2 then 4 else if (i = 2 ∧ (j = 1 ∨ j = 3)) ∨ (j = 2 ∧ (i = 1 ∨ i = 3)) then 3
    else if (i = 1 ∨ i = 3) ∧ (j = 1 ∨ j = 3) then 2 else 1⟩
/-- The pixel beside the peak towards a pixel of the axes. -/
def roundFar (p : Pix) : Pix := if p.1 = 2 then (2, if p.2 < 2 then 1 else 3) else (if p.1 < 2 then 1 else 3, 2)
theorem roundImage_peak : peakPix roundImage = (2, 2) := by
  have h : flat roundImage = [1,1,1,1,1, 1,2,3,2,1, 1,3,4,3,1, 1,2,3,2,1, 1,1,1,1,1] := by
    simp [flat, roundImage, List.range_succ]
  have hm : maxL (flat roundImage) = 4 := by
    rw [h]; norm_num [maxL]
  unfold peakPix
  simp only
  rw [hm, h]
  norm_num [List.idxOf_cons, roundImage]
example : (∀ p ∈ rawContour roundImage 2 roundFar, dist2 p (toPt (peakPix roundImage)) = 3 / 2) ∧
    rawContour roundImage 2 roundFar ≠ [] := by
  rw [roundImage_peak]
  have key : ∀ p : Pix, p.1 < 5 → p.2 < 5 → val roundImage p < 2 →
      (∃ a : Pix, a.1 < 5 ∧ a.2 < 5 ∧ 2 < val roundImage a ∧ Adjacent a p) →
      p = (2, 0) ∨ p = (2, 4) ∨ p = (0, 2) ∨ p = (4, 2) := by
    rintro ⟨x, y⟩ hx hy hv ⟨⟨a, b⟩, ha, hb, hv', hadj⟩
    have h1 : (a = 2 ∧ (b = 1 ∨ b = 2 ∨ b = 3)) ∨ (b = 2 ∧ (a = 1 ∨ a = 3)) := by
      unfold val roundImage at hv'
      simp only at hv'
      split_ifs at hv' with g1 g2 g3 <;> first | omega | (norm_num at hv')
    unfold Adjacent at hadj
    unfold val roundImage at hv
    simp only at hv hadj
    split_ifs at hv with g1 g2 g3 <;> first | (norm_num at hv; done) | skip
    simp only [Prod.mk.injEq]
    omega
  have ev : ∀ p : Pix, (p = (2, 0) ∨ p = (2, 4) ∨ p = (0, 2) ∨ p = (4, 2)) →
      ∃ q, contourPoint (toPt (2, 2)) (toPt p) (toPt (roundFar p)) (val roundImage p) (val roundImage (roundFar p)) 2 = some q ∧
        dist2 q (toPt (2, 2)) = 3 / 2 := by
    have h4 : Real.sqrt 4 = 2 := by rw [show (4:ℝ) = 2 ^ 2 by norm_num, Real.sqrt_sq (by norm_num)]
    have h9 : Real.sqrt (9 / 4) = 3 / 2 := by rw [show (9 / 4:ℝ) = (3 / 2) ^ 2 by norm_num, Real.sqrt_sq (by norm_num)]
    rintro p (rfl | rfl | rfl | rfl) <;>
      norm_num [contourPoint, toPt, roundFar, val, roundImage, dist2, h4, h9]
  constructor
  · intro q hq
    obtain ⟨p, h1, h2, h3, h4, h5⟩ := ((raw_spec_aux roundImage 2 roundFar).1 q).1 hq
    rw [roundImage_peak] at h5
    obtain ⟨q', e, hd⟩ := ev p (key p h1 h2 h3 h4)
    rw [h5] at e
    rw [Option.some.inj e]
    exact hd
  · intro hc
    obtain ⟨q, e, _⟩ := ev (2, 0) (Or.inl rfl)
    have : q ∈ rawContour roundImage 2 roundFar := by
      rw [(raw_spec_aux roundImage 2 roundFar).1 q]
      refine ⟨(2, 0), by simp [roundImage], by simp [roundImage], by norm_num [val, roundImage],
        ⟨(2, 1), by simp [roundImage], by simp [roundImage], by norm_num [val, roundImage], by simp [Adjacent]⟩, ?_⟩
      rw [roundImage_peak]; exact e
    rw [hc] at this
    exact absurd this (by simp)
example : ∃ p ∈ [((1:ℝ), (0:ℝ)), (0, 2)], ∃ q ∈ [((1:ℝ), (0:ℝ)), (0, 2)], dist2 p (0, 0) ≠ dist2 q (0, 0) :=
  ⟨(1, 0), by simp, (0, 2), by simp, by
    unfold dist2
    norm_num
    rw [show (4:ℝ) = 2 ^ 2 by norm_num, Real.sqrt_sq (by norm_num)]; norm_num⟩
example : aRatio { x := 2, y := 4, theta := 0 } = 2 := by unfold aRatio; norm_num

theorem flat_getElem? (im : Img ℝ) (hy : 0 < im.ny) (k : ℕ) (hk : k < im.nx * im.ny) : (flat im)[k]? = some (im.px (k / im.ny) (k % im.ny)) := by
  have gen : ∀ n k, k < n * im.ny → ((List.range n).flatMap fun i => (List.range im.ny).map fun j => im.px i j)[k]? = some (im.px (k / im.ny) (k % im.ny)) := by
    intro n
    induction n with
    | zero => intro k hk; simp at hk
    | succ n ih =>
      intro k hk
      have hl : ((List.range n).flatMap fun i => (List.range im.ny).map fun j => im.px i j).length = n * im.ny := by simp [List.length_flatMap]
      rw [List.range_succ, List.flatMap_append]
      by_cases h : k < n * im.ny
      · rw [List.getElem?_append_left (by rw [hl]; exact h), ih k h]
      · push Not at h
        rw [List.getElem?_append_right (by rw [hl]; exact h), hl]
        have hlt : k - n * im.ny < im.ny := by rw [Nat.succ_mul] at hk; omega
        have e1 : k / im.ny = n := by
          rw [Nat.div_eq_iff hy]
          rw [Nat.succ_mul] at hk; omega
        have e2 : k % im.ny = k - n * im.ny := by
          have := Nat.div_add_mod k im.ny
          rw [e1, Nat.mul_comm] at this
          omega
        rw [e1, e2]
        simp [hlt]
  exact gen im.nx k hk

/-- C187: the peak is the first pixel, in reading order, with the largest value of the image. -/
theorem peakPix_spec (im : Img ℝ) (hx : 0 < im.nx) (hy : 0 < im.ny) :
    (peakPix im).2 < im.nx ∧ (peakPix im).1 < im.ny ∧ (∀ y < im.nx, ∀ x < im.ny, im.px y x ≤ im.px (peakPix im).2 (peakPix im).1) ∧
    ∀ y x, y < im.nx → x < im.ny → (y < (peakPix im).2 ∨ y = (peakPix im).2 ∧ x < (peakPix im).1) →
      im.px y x < im.px (peakPix im).2 (peakPix im).1 := by
  have hpos : 0 < im.nx * im.ny := Nat.mul_pos hx hy
  have hne : flat im ≠ [] := by
    intro h; have := flat_length im; rw [h] at this; simp at this; omega
  have hm := maxL_mem (flat im) hne
  set k := (flat im).idxOf (maxL (flat im)) with hk
  have hkl : k < im.nx * im.ny := by rw [← flat_length]; exact List.idxOf_lt_length_of_mem hm
  have hpk : peakPix im = (k % im.ny, k / im.ny) := rfl
  have hval : im.px (k / im.ny) (k % im.ny) = maxL (flat im) := by
    have h1 := flat_getElem? im hy k hkl
    have h2 : (flat im)[k]? = some (maxL (flat im)) := by
      have hlt : k < (flat im).length := by rw [flat_length]; exact hkl
      rw [List.getElem?_eq_getElem hlt]
      simp only [Option.some.injEq]
      exact List.getElem_idxOf hlt
    rw [h1] at h2
    exact Option.some.inj h2
  have hin : ∀ y < im.nx, ∀ x < im.ny, y * im.ny + x < im.nx * im.ny ∧ (flat im)[y * im.ny + x]? = some (im.px y x) := by
    intro y hy' x hx'
    have hlt : y * im.ny + x < im.nx * im.ny := by
      calc y * im.ny + x < y * im.ny + im.ny := by omega
        _ = (y + 1) * im.ny := by ring
        _ ≤ _ := Nat.mul_le_mul_right _ hy'
    refine ⟨hlt, ?_⟩
    rw [flat_getElem? im hy _ hlt, Nat.mul_comm, Nat.mul_add_div hy, Nat.div_eq_of_lt hx', Nat.add_zero, Nat.mul_add_mod, Nat.mod_eq_of_lt hx']
  rw [hpk]
  refine ⟨(Nat.div_lt_iff_lt_mul hy).mpr hkl, Nat.mod_lt _ hy, fun y hy' x hx' => ?_, fun y x hy' hx' hlt => ?_⟩
  · show im.px y x ≤ im.px (k / im.ny) (k % im.ny)
    rw [hval]
    exact le_maxL _ _ (List.mem_of_getElem? (hin y hy' x hx').2)
  · show im.px y x < im.px (k / im.ny) (k % im.ny)
    rw [hval]
    have hm2 := (hin y hy' x hx')
    refine lt_of_le_of_ne (le_maxL _ _ (List.mem_of_getElem? hm2.2)) fun he => ?_
    have hidx : y * im.ny + x < k := by
      have hdm := Nat.div_add_mod k im.ny
      simp only at hlt
      rcases hlt with h | ⟨h, h'⟩
      · have : (y + 1) * im.ny ≤ (k / im.ny) * im.ny := Nat.mul_le_mul_right _ h
        rw [Nat.mul_comm] at hdm
        rw [Nat.succ_mul] at this
        omega
      · rw [Nat.mul_comm] at hdm
        rw [h]; omega
    have hl2 : y * im.ny + x < (flat im).length := by rw [flat_length]; exact hm2.1
    have hg := hm2.2
    rw [List.getElem?_eq_getElem hl2, Option.some.injEq] at hg
    have := List.not_of_lt_findIdx (p := (· == maxL (flat im))) (xs := flat im) (i := y * im.ny + x) hidx
    simp [hg, he] at this

/-- C187: no list of points is returned exactly when there is no contour point at all; otherwise the outliers are removed. -/
theorem findContour_spec (im : Img ℝ) (level : ℝ) (far : Pix → Pix) :
    (findContour im level far = none ↔ rawContour im level far = []) ∧
    ∀ c, findContour im level far = some c → c = keep (toPt (peakPix im)) (rawContour im level far) ∧ ∀ p ∈ c, p ∈ rawContour im level far := by
  unfold findContour
  refine ⟨?_, fun c hc => ?_⟩
  · by_cases h : rawContour im level far = [] <;> simp [h]
  · by_cases h : rawContour im level far = []
    · simp [h] at hc
    · simp only [h, if_false, Option.some.injEq] at hc
      subst hc
      refine ⟨rfl, fun p hp => ?_⟩
      unfold keep at hp
      exact List.mem_of_mem_filter hp

theorem maxL_add (c : ℝ) (l : List ℝ) (h : l ≠ []) : maxL (l.map (c + ·)) = c + maxL l := by
  refine le_antisymm ?_ ?_
  · obtain ⟨x, hx, e⟩ := List.mem_map.mp (maxL_mem (l.map (c + ·)) (by simpa using h))
    rw [← e]; linarith [le_maxL l x hx]
  · exact le_maxL _ _ (List.mem_map.mpr ⟨_, maxL_mem l h, rfl⟩)

theorem minL_add (c : ℝ) (l : List ℝ) (h : l ≠ []) : minL (l.map (c + ·)) = c + minL l := by
  refine le_antisymm ?_ ?_
  · exact minL_le _ _ (List.mem_map.mpr ⟨_, minL_mem l h, rfl⟩)
  · obtain ⟨x, hx, e⟩ := List.mem_map.mp (minL_mem (l.map (c + ·)) (by simpa using h))
    rw [← e]; linarith [minL_le l x hx]

/-- C189: the widths and the orientation of a contour do not depend on where it is on the detector. -/
theorem ofContour_shift (pts : List Pt) (ps rebin a b : ℝ) (hne : pts ≠ []) :
    ofContour (pts.map fun p => (a + p.1, b + p.2)) ps rebin = ofContour pts ps rebin := by
  have hc : center (pts.map fun p => (a + p.1, b + p.2)) = (a + (center pts).1, b + (center pts).2) := by
    unfold center
    have e1 : (pts.map fun p => (a + p.1, b + p.2)).map Prod.fst = (pts.map Prod.fst).map (a + ·) := by
      rw [List.map_map, List.map_map]; rfl
    have e2 : (pts.map fun p => (a + p.1, b + p.2)).map Prod.snd = (pts.map Prod.snd).map (b + ·) := by
      rw [List.map_map, List.map_map]; rfl
    rw [e1, e2, maxL_add _ _ (by simpa using hne), minL_add _ _ (by simpa using hne), maxL_add _ _ (by simpa using hne), minL_add _ _ (by simpa using hne)]
    ext <;> simp <;> ring
  have hrad : radii (pts.map fun p => (a + p.1, b + p.2)) ps rebin = radii pts ps rebin := by
    unfold radii
    rw [hc, List.map_map]
    refine List.map_congr_left fun p _ => ?_
    simp only [Function.comp]
    unfold dist2
    simp
  have hlt : (radii pts ps rebin).idxOf (maxL (radii pts ps rebin)) < pts.length := by
    have h : radii pts ps rebin ≠ [] := by unfold radii; simpa using hne
    have := List.idxOf_lt_length_of_mem (maxL_mem _ h)
    rwa [show (radii pts ps rebin).length = pts.length by simp [radii]] at this
  unfold ofContour
  simp only
  rw [hrad, hc]
  have hg : (pts.map fun p => (a + p.1, b + p.2)).getD ((radii pts ps rebin).idxOf (maxL (radii pts ps rebin))) 0 =
      (a + (pts.getD ((radii pts ps rebin).idxOf (maxL (radii pts ps rebin))) 0).1, b + (pts.getD ((radii pts ps rebin).idxOf (maxL (radii pts ps rebin))) 0).2) := by
    rw [List.getD_eq_getElem?_getD, List.getD_eq_getElem?_getD, List.getElem?_map, List.getElem?_eq_getElem hlt]
    rfl
  rw [hg]
  simp

/-- C190: fewer than three points make no contour: the cuts are used; the widths of three points or more are those of the contour. -/
theorem measure_contour (pts : List Pt) (old : Option (List Pt)) (f : Fits) (cx cy ps rebin : ℝ) :
    measure .contour (some pts) old f cx cy ps rebin = .ok (if pts.length < 3 then ofCut cx cy ps rebin else ofContour pts ps rebin) := by
  unfold measure
  simp only
  split_ifs <;> rfl

/-- C190: the single output is the mean of both widths. -/
theorem output_mean (w : W) : output 1 w = some [(w.x + w.y) / 2] := by
  unfold output
  norm_num
  ring

/-- C190: a call returns one value (the mean of both widths), two (the widths), three (and the ratio of the larger to the smaller) or four
(and the orientation), nothing for any other number asked for, and fails exactly when the widths cannot be measured. -/
theorem getFWHM_spec (im : Img ℝ) (Ny Nx : ℕ) (ps rebin : ℝ) (m : Method) (n : ℕ) (far : Pix → Pix) (old : Option (List Pt)) (f : Fits) :
    (∀ w, widths im Ny Nx ps rebin m far old f = .ok w → 0 < w.x → 0 < w.y →
      getFWHM im Ny Nx ps rebin m n far old f = .ok (if n = 1 then some [(w.x + w.y) / 2] else if n = 2 then some [w.x, w.y] else
        if n = 3 then some [w.x, w.y, max w.x w.y / min w.x w.y] else
        if n = 4 then some [w.x, w.y, max w.x w.y / min w.x w.y, w.theta] else none)) ∧
    ∀ e, widths im Ny Nx ps rebin m far old f = .error e ↔ getFWHM im Ny Nx ps rebin m n far old f = .error e := by
  unfold getFWHM
  constructor
  · intro w h hx hy
    rw [h, Except.map, ← (aRatio_spec w hx hy).1]
    rcases n with _ | _ | _ | _ | _ | n
    · simp [output]
    · simp [output_mean]
    · simp [output]
    · simp [output]
    · simp [output]
    · simp [output]
  · intro e
    cases widths im Ny Nx ps rebin m far old f <;> simp [Except.map]

/-! ### Cases that meet the hypotheses -/

/-- A case meeting the hypotheses of `rebin_violation`. -/
example : ∃ w w', measure .gaussian none none ⟨3, 3, 0, 5⟩ 0 0 10 1 = .ok w ∧ measure .gaussian none none ⟨6, 6, 0, 10⟩ 0 0 10 2 = .ok w' ∧ w.x < w'.x := by
  obtain ⟨w, w', h1, h2, _, h3⟩ := (rebin_violation ⟨3, 3, 0, 5⟩ 10 2 (by norm_num) (by norm_num) (by norm_num) (by norm_num) none none 0 0
    ⟨6, 6, 0, 10⟩ (by norm_num) (by norm_num)).1
  exact ⟨w, w', h1, h2, h3⟩

end P3.Fwhm
