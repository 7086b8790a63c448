import Mathlib.Data.List.GetD
import Mathlib.Algebra.Order.BigOperators.Group.List
import Mathlib.Algebra.Order.BigOperators.Ring.Finset
import Mathlib.Algebra.Order.Chebyshev
import Mathlib.Tactic.Linarith
import Mathlib.Tactic.FieldSimp
import Mathlib.Tactic.Positivity
import Mathlib.Tactic.NormNum
import Mathlib.Tactic.Ring
import Mathlib.Tactic.IntervalCases
import Verif.Model.Campaign
import Verif.Props.Archive
import Verif.Props.Fitting
import Verif.Props.Deep

/-! C322-C335: tests over many PSFs, split fits, tables of fits and catalogues. -/

namespace P3.Campaign

open P3.Fitting (Bounds Admissible updateBounds indFree scatter)

/-! ### PSFs of a test -/

/-- C322: the six parameters of a test are the PSD ones of the model, the orientation being zero; no jitter, unit flux, centred,
no background; a fit gives them back. -/
theorem p2x_six (a b c d e f : ℝ) : p2x [a, b, c, d, e, f] = [a, b, c, d, e, 0, f] ++ [0, 0, 0] ++ [1, 0, 0, 0] ∧
    x2p (p2x [a, b, c, d, e, f]) = [a, b, c, d, e, f] := by
  constructor <;> rfl

/-- C322: a fit of six parameters is always run, on the model without static modes, and its six parameters are kept. -/
theorem fit_six (solve : List ℝ → List ℝ) (hs : ∀ x, (solve x).length = x.length) (tel : ℕ) (x : List ℝ) (hx : x.length = 6) :
    fitCase solve 6 tel x = some (x2p (solve (p2x x))) ∧ (x2p (solve (p2x x))).length = 6 := by
  have h14 : (p2x x).length = 14 := by simp [p2x, hx]
  have hl : (x2p (solve (p2x x))).length = 6 := by simp [x2p, hs, h14]
  refine ⟨?_, hl⟩
  unfold fitCase
  simp only [if_true, h14]
  rw [if_neg (by simp [mask])]
  simp only [hl, ne_eq, not_true_eq_false, if_false]

/-- C322: the fit keeps the orientation and the jitter at zero, the start, and nothing else: the six parameters of the test, flux,
position, background and static modes are free. -/
theorem mask_spec (m i : ℕ) : (mask m).length = 14 + m ∧ ((mask m).getD i false = true ↔ i = 5 ∨ 7 ≤ i ∧ i < 10) := by
  refine ⟨by simp [mask]; omega, ?_⟩
  rcases Nat.lt_or_ge i 14 with h | h
  · have : (mask m).getD i false = (mask 0).getD i false := by
      simp only [mask, List.replicate_zero, List.append_nil]
      rw [List.getD_append _ _ _ _ (by simpa using h)]
    rw [this]
    clear this
    revert h i; decide
  · have : (mask m).getD i false = false := by
      simp only [mask]
      rw [List.getD_append_right _ _ _ _ (by simpa using h)]
      simp only [List.getD_eq_getElem?_getD, List.getElem?_replicate]
      split <;> rfl
    rw [this]; simp; omega

theorem p2x_length (x : List ℝ) (m : ℕ) (hx : x.length = 6 + m) : (p2x x).length = 14 + (m - 1) := by
  simp [p2x, hx]; omega

/-- C323: the static coefficients given to the model are all those of the test but the last. -/
theorem p2x_modes_partial (x : List ℝ) (m : ℕ) (hx : x.length = 6 + m) : (p2x x).drop 14 = (x.drop 6).dropLast := by
  unfold p2x
  have : (x.take 5 ++ [0] ++ [x.getD 5 0] ++ [0, 0, 0, 1, 0, 0, 0]).length = 14 := by simp [hx]; omega
  rw [List.drop_append_of_le_length (by omega), List.drop_of_length_le (by omega), List.nil_append]

/-- C323: with at least one static mode and as many coefficients in the test, the PSF has no static mode at all (the number of coefficients
is not the one of the modes): whatever the coefficients, truth and estimate have the phase of zero coefficients. -/
theorem static_violation (wvl : ℝ) (opd : Option (ℕ → ℕ → ℝ)) (modes : List (ℕ → ℕ → ℝ)) (x : List ℝ) (hm : 1 ≤ modes.length)
    (hx : x.length = 6 + modes.length) (i j : ℕ) :
    Otf.staticPhase wvl opd modes ((p2x x).drop 14) i j = Otf.staticPhase wvl opd modes (List.replicate modes.length 0) i j := by
  have hl : ((p2x x).drop 14).length = modes.length - 1 := by
    rw [p2x_modes_partial x modes.length hx]; simp [hx]
  unfold Otf.staticPhase
  rw [if_neg (by omega), if_pos (by simp)]
  have : (List.zipWith (fun (m : ℕ → ℕ → ℝ) x => m i j * x) modes (List.replicate modes.length 0)).sum = 0 := by
    apply List.sum_eq_zero
    intro y hy
    obtain ⟨k, hk, e⟩ := List.mem_iff_getElem.1 hy
    rw [← e]; simp
  rw [this]; simp

/-- C323: no fit with static modes succeeds, whatever the number of modes of the telescope and of parameters. -/
theorem fit_static_violation (solve : List ℝ → List ℝ) (hs : ∀ x, (solve x).length = x.length) (tel m : ℕ) (hm : 1 ≤ m) (x : List ℝ)
    (hx : x.length = 6 + m) : fitCase solve (6 + m) tel x = none := by
  unfold fitCase
  simp only [show ¬ 6 + m = 6 by omega, if_false]
  by_cases h : (mask tel).length ≠ (p2x x).length
  · rw [if_pos h]
  · rw [if_neg h, if_pos]
    rw [p2x_length x m hx] at h
    have : (x2p (solve (p2x x))).length = 6 + (m - 1) := by
      simp [x2p, hs, p2x_length x m hx]; omega
    rw [this]; omega

example : ([1, 2, 3, 4, 5, 6, 7] : List ℝ).length = 6 + 1 := rfl

/-! ### Errors -/

theorem posed_of_mem (truth : List ℝ) (a b : ℝ) (ha : a ∈ truth) (hb : b ∈ truth) (hab : a ≠ b) :
    0 < truth.length ∧ (truth.length : ℝ) * (∑ k ∈ Finset.range truth.length, (truth.getD k 0) ^ 2) - (∑ k ∈ Finset.range truth.length, truth.getD k 0) ^ 2 ≠ 0 := by
  obtain ⟨i, hi, ei⟩ := List.mem_iff_getElem.1 ha
  obtain ⟨j, hj, ej⟩ := List.mem_iff_getElem.1 hb
  refine ⟨by omega, ?_⟩
  apply Archive.well_posed truth.length (fun k => truth.getD k 0) i j hi hj
  simp only [List.getD_eq_getElem _ _ hi, List.getD_eq_getElem _ _ hj, ei, ej]
  exact hab

/-- C324: the photometric error of an estimate that is `c` times the truth, up to a constant background, is `-2.5 log10 c`; it is zero for
the true PSF. -/
theorem magErr_scale (truth : List ℝ) (a b c k : ℝ) (ha : a ∈ truth) (hb : b ∈ truth) (hab : a ≠ b) :
    magErr truth (truth.map fun t => k + c * t) = -2.5 * Real.logb 10 c ∧ magErr truth truth = 0 := by
  obtain ⟨h0, hd⟩ := posed_of_mem truth a b ha hb hab
  have key : ∀ k c : ℝ, gain truth (truth.map fun t => k + c * t) = c := by
    intro k c
    obtain ⟨e1, _⟩ := Telemetry.regression_exact truth.length (fun i => truth.getD i 0) k c h0 hd
    refine Eq.trans ?_ e1
    unfold gain Telemetry.slope
    have hc : ∀ i ∈ Finset.range truth.length, (truth.map fun t => k + c * t).getD i 0 = k + c * truth.getD i 0 := by
      intro i hi
      have hi := Finset.mem_range.1 hi
      rw [List.getD_eq_getElem _ _ (by simpa using hi), List.getD_eq_getElem _ _ hi, List.getElem_map]
    have a1 : ∑ i ∈ Finset.range truth.length, truth.getD i 0 * (truth.map fun t => k + c * t).getD i 0 =
        ∑ i ∈ Finset.range truth.length, truth.getD i 0 * (k + c * truth.getD i 0) :=
      Finset.sum_congr rfl fun i hi => by rw [hc i hi]
    simp only [a1, Finset.sum_congr rfl hc]
  refine ⟨by unfold magErr; rw [key], ?_⟩
  have := key 0 1
  unfold magErr
  have e : (truth.map fun t => 0 + 1 * t) = truth := by simp
  rw [e] at this
  rw [this]; simp

/-- C324: the error of the PSF is non-negative, zero only for the true PSF, and does not depend on the flux unit. -/
theorem mse_spec (truth est : List ℝ) (hl : est.length = truth.length) (hp : 0 < truth.sum) :
    0 ≤ mse truth est ∧ (mse truth est = 0 ↔ est = truth) ∧
    ∀ c : ℝ, 0 < c → mse (truth.map (c * ·)) (est.map (c * ·)) = mse truth est := by
  have hnn : ∀ y ∈ List.zipWith (fun t e : ℝ => (e - t) ^ 2) truth est, 0 ≤ y := by
    intro y hy
    obtain ⟨k, hk, e⟩ := List.mem_iff_getElem.1 hy
    rw [← e]; simp; positivity
  have hsum : 0 ≤ (List.zipWith (fun t e : ℝ => (e - t) ^ 2) truth est).sum := List.sum_nonneg hnn
  refine ⟨by unfold mse; positivity, ?_, ?_⟩
  · unfold mse
    rw [div_eq_zero_iff, or_iff_left hp.ne', mul_eq_zero, or_iff_right (by norm_num), Real.sqrt_eq_zero hsum]
    constructor
    · intro h
      have hz : ∀ y ∈ List.zipWith (fun t e : ℝ => (e - t) ^ 2) truth est, y = 0 := by
        intro y hy
        exact le_antisymm (h ▸ List.single_le_sum hnn y hy) (hnn y hy)
      apply List.ext_getElem hl
      intro i h1 h2
      have := hz _ (List.getElem_mem (l := List.zipWith (fun t e : ℝ => (e - t) ^ 2) truth est) (n := i) (by simp; omega))
      simp only [List.getElem_zipWith] at this
      have := pow_eq_zero_iff (n := 2) (by norm_num) |>.1 this
      linarith
    · rintro rfl
      apply List.sum_eq_zero
      intro y hy
      obtain ⟨k, hk, e⟩ := List.mem_iff_getElem.1 hy
      rw [← e]; simp
  · intro c hc
    unfold mse
    have e1 : List.zipWith (fun t e : ℝ => (e - t) ^ 2) (truth.map (c * ·)) (est.map (c * ·)) =
        (List.zipWith (fun t e : ℝ => (e - t) ^ 2) truth est).map (c ^ 2 * ·) := by
      rw [List.zipWith_map, List.map_zipWith]
      congr 1; funext t e; ring
    have e2 : ((List.zipWith (fun t e : ℝ => (e - t) ^ 2) truth est).map (c ^ 2 * ·)).sum = c ^ 2 * (List.zipWith (fun t e : ℝ => (e - t) ^ 2) truth est).sum := by
      rw [List.sum_map_mul_left]; simp
    have e3 : (truth.map (c * ·)).sum = c * truth.sum := by rw [List.sum_map_mul_left]; simp
    rw [e1, e2, e3, Real.sqrt_mul (sq_nonneg c), Real.sqrt_sq hc.le]
    field_simp

/-- C324: at every pixel the root-mean-square difference is at least the mean absolute one. -/
theorem rms_ge (d : List ℝ) (hd : d ≠ []) : 0 ≤ meanAbs d ∧ meanAbs d ≤ rms d := by
  have hn : (0 : ℝ) < d.length := by
    have := List.length_pos_iff.2 hd
    exact_mod_cast this
  have e1 : meanAbs d = (d.map fun x => |x|).sum / d.length := by
    unfold meanAbs
    simp only [div_eq_mul_inv]
    rw [List.sum_map_mul_right]
  have e2 : (d.map fun x : ℝ => x ^ 2 / d.length).sum = (d.map fun x => x ^ 2).sum / d.length := by
    simp only [div_eq_mul_inv]
    rw [List.sum_map_mul_right]
  have h0 : 0 ≤ meanAbs d := by
    rw [e1]
    apply div_nonneg _ hn.le
    apply List.sum_nonneg
    intro x hx
    obtain ⟨y, _, rfl⟩ := List.mem_map.1 hx
    exact abs_nonneg y
  refine ⟨h0, ?_⟩
  unfold rms
  apply Real.le_sqrt_of_sq_le
  rw [e2, e1]
  have conv : ∀ f : ℝ → ℝ, (d.map f).sum = ∑ k : Fin d.length, f d[k] := by
    intro f
    rw [← List.sum_ofFn]
    congr 1
    apply List.ext_getElem <;> simp
  rw [conv, conv]
  have := sq_sum_le_card_mul_sum_sq (s := (Finset.univ : Finset (Fin d.length))) (f := fun k => |d[k]|)
  simp only [Finset.card_univ, Fintype.card_fin, sq_abs] at this
  rw [div_pow, div_le_div_iff₀ (by positivity) hn]
  nlinarith

/-! ### Start of a fit -/

theorem zipWith_getD (f : ℝ → ℝ → ℝ) (a b : List ℝ) (i : ℕ) (h1 : i < a.length) (h2 : i < b.length) :
    (List.zipWith f a b).getD i 0 = f (a.getD i 0) (b.getD i 0) := by
  rw [List.getD_eq_getElem _ _ (by simp; omega), List.getD_eq_getElem _ _ h1, List.getD_eq_getElem _ _ h2, List.getElem_zipWith]

theorem lows_spec (l : List (List ℝ)) (n : ℕ) (hl : ∀ x ∈ l, x.length = n) (h0 : l ≠ []) :
    (lows l).length = n ∧ (highs l).length = n ∧ ∀ x ∈ l, ∀ i < n, (lows l).getD i 0 ≤ x.getD i 0 ∧ x.getD i 0 ≤ (highs l).getD i 0 := by
  induction l with
  | nil => exact absurd rfl h0
  | cons a l ih =>
    cases l with
    | nil =>
      refine ⟨hl a (by simp), hl a (by simp), ?_⟩
      intro x hx i _
      rw [List.mem_singleton] at hx
      subst hx
      exact ⟨le_rfl, le_rfl⟩
    | cons b l =>
      obtain ⟨h1, h2, h3⟩ := ih (fun x hx => hl x (List.mem_cons_of_mem _ hx)) (by simp)
      have ha := hl a (by simp)
      have el : lows (a :: b :: l) = List.zipWith min a (lows (b :: l)) := rfl
      have eh : highs (a :: b :: l) = List.zipWith max a (highs (b :: l)) := rfl
      rw [el, eh]
      refine ⟨by simp [ha, h1], by simp [ha, h2], ?_⟩
      intro x hx i hi
      rw [zipWith_getD min a _ i (by omega) (by omega), zipWith_getD max a _ i (by omega) (by omega)]
      rcases List.mem_cons.1 hx with g | g
      · rw [g]; exact ⟨min_le_left _ _, le_max_left _ _⟩
      · obtain ⟨g1, g2⟩ := h3 x g i hi
        exact ⟨le_trans (min_le_right _ _) g1, le_trans g2 (le_max_right _ _)⟩

/-- C325: a random start stays within the range of the parameters of the test, for all random factors, and is the true value times its factor
whenever that is within the range. -/
theorem start_range (truths : List (List ℝ)) (n : ℕ) (hl : ∀ x ∈ truths, x.length = n) (t : List ℝ) (ht : t ∈ truths) (g med : List ℝ)
    (hg : g.length = n) (a : ℝ) : ∃ s, start (.scatter a) (lows truths) (highs truths) med t g = some s ∧ s.length = n ∧
      ∀ i < n, (lows truths).getD i 0 ≤ s.getD i 0 ∧ s.getD i 0 ≤ (highs truths).getD i 0 ∧
        ((lows truths).getD i 0 ≤ t.getD i 0 * g.getD i 0 → t.getD i 0 * g.getD i 0 ≤ (highs truths).getD i 0 → s.getD i 0 = t.getD i 0 * g.getD i 0) := by
  have h0 : truths ≠ [] := List.ne_nil_of_mem ht
  obtain ⟨h1, h2, h3⟩ := lows_spec truths n hl h0
  have htl := hl t ht
  refine ⟨_, rfl, by simp [htl, hg, h1, h2], ?_⟩
  intro i hi
  rw [zipWith_getD min _ _ i (by simp [htl, hg, h1]; omega) (by omega),
    zipWith_getD max _ _ i (by simp [htl, hg]; omega) (by omega), zipWith_getD _ _ _ i (by omega) (by omega)]
  obtain ⟨g1, g2⟩ := h3 t ht i hi
  refine ⟨le_min (le_max_right _ _) (le_trans g1 g2), min_le_right _ _, ?_⟩
  intro p1 p2
  rw [max_eq_left p1, min_eq_left p2]

/-- C325: the other starts are the truth and the median; anything else is refused. -/
theorem start_others (lo hi med t g : List ℝ) : start .truth lo hi med t g = some t ∧ start .median lo hi med t g = some med ∧
    start .other lo hi med t g = none := ⟨rfl, rfl, rfl⟩

/-- C326: the requested amplitude of the scatter is ignored: all values give the same start. -/
theorem init_violation (a a' : ℝ) (lo hi med t g : List ℝ) : start (.scatter a) lo hi med t g = start (.scatter a') lo hi med t g := rfl

/-- C326: it is the one of 20 percent when the random factors are `1 + 0.2 z` for standard normal `z`. -/
theorem init_partial (lo hi med : List ℝ) (t z : ℝ) (hlo : lo = [t - 1]) (hhi : hi = [t + 1]) (hz : |0.2 * z * t| ≤ 1) :
    start (.scatter 0.2) lo hi med [t] [1 + 0.2 * z] = some [t + 0.2 * z * t] := by
  subst hlo; subst hhi
  rw [abs_le] at hz
  simp only [start, List.zipWith_cons_cons, List.zipWith_nil_right]
  rw [max_eq_left (by linarith), min_eq_left (by linarith)]
  congr 2; ring

/-! ### Tables of accuracy -/

/-- C327: the mean bias is the mean of all errors. -/
theorem bias_mean_partial (nT nP : ℕ) (err : ℕ → ℕ → ℝ) :
    (biasAndStd nT nP err).1 = (∑ k ∈ Finset.range nP, ∑ t ∈ Finset.range nT, err t k) / (nP * nT) := by
  unfold biasAndStd Deep.mean
  simp only [List.length_map, List.length_range]
  have conv : ∀ (n : ℕ) (f : ℕ → ℝ), ((List.range n).map f).sum = ∑ k ∈ Finset.range n, f k := by
    intro n f; rw [Finset.sum_range, ← List.sum_ofFn]; congr 1
    apply List.ext_getElem <;> simp
  rw [conv]
  simp only [conv]
  rw [← Finset.sum_div, div_div, mul_comm (nT : ℝ)]

/-- C327: with one test the reported scatter of the errors is zero, whatever the errors. -/
theorem std_violation (nP : ℕ) (err : ℕ → ℕ → ℝ) : (biasAndStd 1 nP err).2.2 = (0, 0) := by
  unfold biasAndStd
  simp only
  have e : ((List.range nP).map fun k : ℕ => Deep.std ((List.range 1).map fun t : ℕ => err t k)) = List.replicate nP 0 := by
    rw [List.eq_replicate_iff]
    refine ⟨by simp, ?_⟩
    intro b hb
    obtain ⟨k, _, rfl⟩ := List.mem_map.1 hb
    simp [Deep.std, Deep.mean]
  rw [e]
  have z : Deep.mean (List.replicate nP 0) = 0 := by simp [Deep.mean]
  rw [z]
  unfold Deep.std
  rw [z]
  simp [Deep.mean]

/-- C327: an estimate `p` percent above the truth is reported as `-p/100`: a fraction under a label in percent, and of the opposite sign of
the error of the parameters. -/
theorem percent_violation (truth p : ℝ) (ht : truth ≠ 0) : relativeErr truth ((1 + p / 100) * truth) = -(p / 100) ∧
    Deep.relErr truth ((1 + p / 100) * truth) = some p := by
  constructor
  · unfold relativeErr; field_simp; ring
  · have := (Deep.relErr_spec truth (p / 100)).1 ht
    rw [this]; congr 1; ring

/-- C328: the folders are taken in increasing order of the number that ends their name, each once; all names must end with a number. -/
theorem folders_spec (parse : String → Option ℕ) (l : List String) :
    ((folders parse l).isSome ↔ ∀ f ∈ l, (parse f).isSome) ∧
    ∀ r, folders parse l = some r → r.Pairwise (fun a b => a.2 ≤ b.2) ∧ (r.map Prod.fst).Perm l ∧ ∀ p ∈ r, parse p.1 = some p.2 := by
  constructor
  · unfold folders
    rw [Option.isSome_map]
    induction l with
    | nil => simp
    | cons a l ih =>
      simp only [List.mapM_cons, List.mem_cons, forall_eq_or_imp]
      rw [← ih]
      cases parse a <;> simp
      cases List.mapM (fun f => (parse f).map fun n => (f, n)) l <;> simp
  · intro r hr
    unfold folders at hr
    obtain ⟨q, hq, e⟩ := Option.map_eq_some_iff.1 hr
    obtain ⟨h1, h2⟩ := (Archive.mapM_some_iff _ _ _).1 hq
    have perm : r.Perm q := by rw [← e]; exact List.mergeSort_perm _ _
    have names : q.map Prod.fst = l := by
      apply List.ext_getElem (by simpa using h1)
      intro i g1 g2
      obtain ⟨g3, g4⟩ := h2 i g2
      obtain ⟨n, _, e'⟩ := Option.map_eq_some_iff.1 g4
      rw [List.getElem_map, ← e']
    refine ⟨?_, ?_, ?_⟩
    · rw [← e]
      have := List.pairwise_mergeSort (le := fun a b : String × ℕ => decide (a.2 ≤ b.2)) (by
        intro a b c; simp; exact Nat.le_trans) (by intro a b; simp; exact Nat.le_total _ _) q
      exact this.imp (by intro a b h; simpa using h)
    · rw [← names]; exact perm.map _
    · intro p hp
      have hp := perm.mem_iff.1 hp
      obtain ⟨i, hi, e'⟩ := List.mem_iff_getElem.1 hp
      obtain ⟨g3, g4⟩ := h2 i (by omega)
      obtain ⟨n, g5, g6⟩ := Option.map_eq_some_iff.1 g4
      have : p = (l[i], n) := by rw [← e', ← g6]
      rw [this]; exact g5

example : ∀ f ∈ ["data_10", "data_9"], ((fun s => if s = "data_10" then some 10 else if s = "data_9" then some 9 else none) f : Option ℕ).isSome := by
  decide +kernel

/-! ### Split fit -/

theorem mask_get (m i : ℕ) : (secondMask m).length = 14 + m ∧ ((secondMask m).getD i false = true ↔ 7 ≤ i ∧ i < 10) := by
  have hl : (secondMask m).length = 14 + m := by simp [secondMask]; omega
  refine ⟨hl, ?_⟩
  have e : secondMask m = [false, false, false, false, false, false, false, true, true, true] ++ List.replicate (4 + m) false := by
    unfold secondMask
    rw [← List.replicate_append_replicate]
    simp [List.replicate]
  rw [e]
  rcases Nat.lt_or_ge i 10 with h | h
  · rw [List.getD_append _ _ _ _ (by simpa using h)]
    interval_cases i <;> simp
  · rw [List.getD_append_right _ _ _ _ (by simpa using h)]
    have : (List.replicate (4 + m) false).getD (i - 10) false = false := by
      rw [List.getD_eq_getElem?_getD, List.getElem?_replicate]
      split_ifs <;> rfl
    simp only [List.length_cons, List.length_nil] at *
    rw [this]
    simp; omega

theorem start_get (x : List ℝ) (m : ℕ) (hx : 7 ≤ x.length) : (secondStart x m).length = 14 + m ∧
    (∀ i < 7, (secondStart x m).getD i 0 = x.getD i 0) ∧ (secondStart x m).getD 10 0 = 1 ∧
    ∀ i, 7 ≤ i → i ≠ 10 → (secondStart x m).getD i 0 = 0 := by
  have h7 : (x.take 7).length = 7 := by simp; omega
  have hl : (secondStart x m).length = 14 + m := by simp [secondStart]; omega
  have hge : ∀ i, 7 ≤ i → (secondStart x m).getD i 0 = ([0, 0, 0, 1, 0, 0, 0] ++ List.replicate m (0 : ℝ)).getD (i - 7) 0 := by
    intro i hi
    unfold secondStart
    rw [List.append_assoc, List.getD_append_right _ _ _ _ (by omega), h7]
  refine ⟨hl, ?_, ?_, ?_⟩
  · intro i hi
    unfold secondStart
    rw [List.append_assoc, List.getD_append _ _ _ _ (by omega)]
    rw [List.getD_eq_getElem?_getD, List.getD_eq_getElem?_getD, List.getElem?_take, if_pos hi]
  · rw [hge 10 (by omega)]; simp
  · intro i hi hne
    rw [hge i hi]
    rcases Nat.lt_or_ge i 14 with h | h
    · interval_cases i <;> simp at hne ⊢
    · rw [List.getD_append_right _ _ _ _ (by simp; omega), List.getD_eq_getElem?_getD, List.getElem?_replicate]
      split_ifs <;> rfl

theorem bounds_get (x e : ℕ → ℝ) (b : Bounds) (w : ℝ) (m : ℕ) :
    (∀ i < 7, (updateBounds x e b 5 w m).1.getD i ⊥ = max (((x i - 5 / 3 * e i : ℝ)) : EReal) (b.1.getD i ⊥) ∧
      (updateBounds x e b 5 w m).2.getD i ⊤ = min (((x i + 5 / 3 * e i : ℝ)) : EReal) (b.2.getD i ⊤)) ∧
    (updateBounds x e b 5 w m).1.getD 10 ⊥ = 0 ∧ (updateBounds x e b 5 w m).2.getD 10 ⊤ = ⊤ ∧
    (∀ i, 11 ≤ i → i < 14 → (updateBounds x e b 5 w m).1.getD i ⊥ = ⊥ ∧ (updateBounds x e b 5 w m).2.getD i ⊤ = ⊤) ∧
    ∀ i, 14 ≤ i → i < 14 + m → (updateBounds x e b 5 w m).1.getD i ⊥ = ((-(w * 1e9 / 2) : ℝ) : EReal) ∧
      (updateBounds x e b 5 w m).2.getD i ⊤ = ((w * 1e9 / 2 : ℝ) : EReal) := by
  have glow : ∀ i, 7 ≤ i → (updateBounds x e b 5 w m).1.getD i ⊥ =
      ([⊥, ⊥, ⊥, 0, ⊥, ⊥, ⊥] ++ List.replicate m ((-(w * 1e9 / 2) : ℝ) : EReal)).getD (i - 7) ⊥ := by
    intro i hi
    unfold updateBounds
    simp only
    rw [List.append_assoc, List.getD_append_right _ _ _ _ (by simpa using hi)]
    simp
  have gup : ∀ i, 7 ≤ i → (updateBounds x e b 5 w m).2.getD i ⊤ =
      ([⊤, ⊤, ⊤, ⊤, ⊤, ⊤, ⊤] ++ List.replicate m ((w * 1e9 / 2 : ℝ) : EReal)).getD (i - 7) ⊤ := by
    intro i hi
    unfold updateBounds
    simp only
    rw [List.append_assoc, List.getD_append_right _ _ _ _ (by simpa using hi)]
    simp
  refine ⟨?_, by rw [glow 10 (by omega)]; simp, by rw [gup 10 (by omega)]; simp, ?_, ?_⟩
  · intro i hi
    unfold updateBounds
    simp only
    constructor
    · rw [List.append_assoc, List.getD_append _ _ _ _ (by simpa using hi), List.getD_eq_getElem _ _ (by simpa using hi)]
      simp
    · rw [List.append_assoc, List.getD_append _ _ _ _ (by simpa using hi), List.getD_eq_getElem _ _ (by simpa using hi)]
      simp
  · intro i h1 h2
    rw [glow i (by omega), gup i (by omega)]
    interval_cases i <;> simp
  · intro i h1 h2
    rw [glow i (by omega), gup i (by omega)]
    rw [List.getD_append_right _ _ _ _ (by simp; omega), List.getD_append_right _ _ _ _ (by simp; omega)]
    rw [List.getD_eq_getElem _ _ (by simp; omega), List.getD_eq_getElem _ _ (by simp; omega)]
    simp

/-- A minimiser that answers within the bounds it is given. -/
def Within (solve : List ℝ → Bounds → List ℝ) : Prop :=
  ∀ y b, Admissible y b → (solve y b).length = y.length ∧
    ∀ (i : ℕ) (v : ℝ) (lo hi : EReal), (solve y b)[i]? = some v → b.1[i]? = some lo → b.2[i]? = some hi → lo ≤ (v : EReal) ∧ (v : EReal) ≤ hi

/-- C329: when the first stage ends within bounds that are ordered, with an error above zero on the seven PSD parameters, the second stage runs;
its PSD parameters are within 5/3 of these errors of the first solution and within the bounds of the model, there is no jitter, the flux is
non-negative and static coefficients are at most half a wavelength (nm). -/
theorem second_stage (solve : List ℝ → Bounds → List ℝ) (hs : Within solve) (x : List ℝ) (hx : 7 ≤ x.length) (e : ℕ → ℝ) (b : Bounds) (w : ℝ) (m : ℕ)
    (hw : 0 < w) (he : ∀ i < 7, 0 < e i)
    (hb : ∀ i < 7, b.1.getD i ⊥ < b.2.getD i ⊤ ∧ b.1.getD i ⊥ ≤ (x.getD i 0 : EReal) ∧ (x.getD i 0 : EReal) ≤ b.2.getD i ⊤) :
    ∃ r, secondStage solve x (.array e) b w m = some r ∧ r.length = 14 + m ∧
      (∀ i < 7, |r.getD i 0 - x.getD i 0| ≤ 5 / 3 * e i ∧ b.1.getD i ⊥ ≤ (r.getD i 0 : EReal) ∧ (r.getD i 0 : EReal) ≤ b.2.getD i ⊤) ∧
      (∀ i, 7 ≤ i → i < 10 → r.getD i 0 = 0) ∧ 0 ≤ r.getD 10 0 ∧
      ∀ k < m, |r.getD (14 + k) 0| ≤ w * 1e9 / 2 := by
  obtain ⟨b1, b2, b3, b4, b5⟩ := bounds_get (fun i => x.getD i 0) e b w m
  obtain ⟨s1, s2, s3, s4⟩ := start_get x m hx
  set nb := updateBounds (fun i => x.getD i 0) e b 5 w m with hnb
  set free := indFree (secondMask m) with hfree
  have hmem : ∀ i, i ∈ free ↔ i < 14 + m ∧ ¬ (7 ≤ i ∧ i < 10) := by
    intro i
    rw [hfree, P3.Fitting.indFree_mem, (mask_get m i).1, ← (mask_get m i).2]
    simp
  -- every free parameter has ordered bounds that contain the start
  have key : ∀ i ∈ free, nb.1.getD i ⊥ < nb.2.getD i ⊤ ∧ nb.1.getD i ⊥ ≤ (((secondStart x m).getD i 0 : ℝ) : EReal) ∧
      (((secondStart x m).getD i 0 : ℝ) : EReal) ≤ nb.2.getD i ⊤ := by
    intro i hi
    obtain ⟨h1, h2⟩ := (hmem i).1 hi
    rcases Nat.lt_or_ge i 7 with g | g
    · obtain ⟨l, u⟩ := b1 i g
      obtain ⟨q1, q2, q3⟩ := hb i g
      have ep := he i g
      rw [l, u, s2 i g]
      refine ⟨?_, max_le (by exact_mod_cast (by linarith)) q2, le_min (by exact_mod_cast (by linarith)) q3⟩
      apply max_lt
      · apply lt_min
        · exact_mod_cast (by linarith)
        · exact lt_of_lt_of_le (by exact_mod_cast (by linarith)) q3
      · apply lt_min
        · exact lt_of_le_of_lt q2 (by exact_mod_cast (by linarith))
        · exact q1
    · have g' : 10 ≤ i := by by_contra hc; exact h2 ⟨g, by omega⟩
      rcases Nat.lt_or_ge i 14 with g2 | g2
      · rcases Nat.eq_or_lt_of_le g' with g3 | g3
        · rw [← g3, b2, b3, s3]
          refine ⟨?_, ?_, le_top⟩
          · exact EReal.zero_lt_top
          · exact_mod_cast (zero_le_one : (0:ℝ) ≤ 1)
        · obtain ⟨l, u⟩ := b4 i (by omega) g2
          rw [l, u]
          exact ⟨bot_lt_top, bot_le, le_top⟩
      · obtain ⟨l, u⟩ := b5 i g2 h1
        rw [l, u, s4 i (by omega) (by omega)]
        have hp : 0 < w * 1e9 / 2 := by positivity
        exact ⟨by exact_mod_cast (by linarith), by exact_mod_cast (by linarith), by exact_mod_cast hp.le⟩
  set y0 := free.map fun i => (secondStart x m).getD i 0 with hy0
  set fb : Bounds := (free.map fun i => nb.1.getD i ⊥, free.map fun i => nb.2.getD i ⊤) with hfb
  have hadm : Admissible y0 fb := by
    refine ⟨by simp [hy0, hfb], by simp [hy0, hfb], ?_⟩
    intro p v lo hi hv hlo hhi
    simp only [hy0, hfb, List.getElem?_map, Option.map_eq_some_iff] at hv hlo hhi
    obtain ⟨i, hi1, rfl⟩ := hv
    obtain ⟨i', hi2, rfl⟩ := hlo
    obtain ⟨i'', hi3, rfl⟩ := hhi
    rw [hi1] at hi2 hi3
    cases hi2; cases hi3
    exact key i (List.mem_of_getElem? hi1)
  obtain ⟨a1, a2⟩ := hs y0 fb hadm
  have ha1 : (solve y0 fb).length = free.length := by rw [a1, hy0, List.length_map]
  have hr : secondStage solve x (.array e) b w m = some (scatter (secondStart x m) (free.zip (solve y0 fb))) := by
    unfold secondStage
    simp only
    rw [if_pos hadm]
  refine ⟨_, hr, by rw [P3.Fitting.scatter_length, s1], ?_⟩
  have hfst : (free.zip (solve y0 fb)).map Prod.fst = free := List.map_fst_zip (by omega)
  have hin : ∀ i ∈ free, nb.1.getD i ⊥ ≤ (((scatter (secondStart x m) (free.zip (solve y0 fb))).getD i 0 : ℝ) : EReal) ∧
      (((scatter (secondStart x m) (free.zip (solve y0 fb))).getD i 0 : ℝ) : EReal) ≤ nb.2.getD i ⊤ := by
    intro i hi
    obtain ⟨p, hp, ep⟩ := List.mem_iff_getElem.1 hi
    have hv := P3.Fitting.scatter_in (free.zip (solve y0 fb)) (secondStart x m) (by rw [hfst]; exact P3.Fitting.indFree_nodup _) i ((solve y0 fb)[p]'(by omega))
      (by rw [List.mem_iff_getElem]; exact ⟨p, by simp; omega, by simp [ep]⟩) (by rw [s1]; exact ((hmem i).1 hi).1)
    have := a2 p ((solve y0 fb)[p]'(by omega)) (nb.1.getD i ⊥) (nb.2.getD i ⊤) (List.getElem?_eq_getElem _)
      (by simp [hfb, List.getElem?_eq_getElem hp, ep]) (by simp [hfb, List.getElem?_eq_getElem hp, ep])
    have e1 : (scatter (secondStart x m) (free.zip (solve y0 fb))).getD i 0 = (solve y0 fb)[p]'(by omega) := by
      rw [List.getD_eq_getElem?_getD, hv]; rfl
    rw [e1]
    exact this
  refine ⟨?_, ?_, ?_, ?_⟩
  · intro i hi
    obtain ⟨c1, c2⟩ := hin i ((hmem i).2 ⟨by omega, by omega⟩)
    obtain ⟨l, u⟩ := b1 i hi
    rw [l] at c1; rw [u] at c2
    have c3 : (x.getD i 0 - 5 / 3 * e i) ≤ (scatter (secondStart x m) (free.zip (solve y0 fb))).getD i 0 := by
      exact_mod_cast le_trans (le_max_left _ _) c1
    have c4 : (scatter (secondStart x m) (free.zip (solve y0 fb))).getD i 0 ≤ (x.getD i 0 + 5 / 3 * e i) := by
      exact_mod_cast le_trans c2 (min_le_left _ _)
    refine ⟨by rw [abs_le]; constructor <;> linarith, le_trans (le_max_right _ _) c1, le_trans c2 (min_le_right _ _)⟩
  · intro i h1 h2
    have := P3.Fitting.scatter_out (free.zip (solve y0 fb)) (secondStart x m) i (by rw [hfst, hmem]; omega)
    rw [List.getD_eq_getElem?_getD, this, ← List.getD_eq_getElem?_getD]
    exact s4 i h1 (by omega)
  · obtain ⟨c1, _⟩ := hin 10 ((hmem 10).2 ⟨by omega, by omega⟩)
    rw [b2] at c1
    exact_mod_cast c1
  · intro k hk
    obtain ⟨c1, c2⟩ := hin (14 + k) ((hmem _).2 ⟨by omega, by omega⟩)
    obtain ⟨l, u⟩ := b5 (14 + k) (by omega) (by omega)
    rw [l] at c1; rw [u] at c2
    rw [abs_le]
    exact ⟨by exact_mod_cast c1, by exact_mod_cast c2⟩

/-- The hypotheses are met: a minimiser that stays at its start, bounds -1 and 1, unit errors. -/
example : Within (fun y _ => y) := by
  intro y b ⟨_, _, h⟩
  refine ⟨rfl, fun i v lo hi h1 h2 h3 => (h i v lo hi h1 h2 h3).2⟩

/-- C330: if one of the seven PSD parameters was fixed in the first stage (error zero), or the confidence interval failed, the second stage
raises. -/
theorem second_stage_violation (solve : List ℝ → Bounds → List ℝ) (x : List ℝ) (hx : 7 ≤ x.length) (b : Bounds) (w : ℝ) (m : ℕ) :
    secondStage solve x .list b w m = none ∧
    ∀ (e : ℕ → ℝ) (i : ℕ), i < 7 → e i = 0 → b.1.getD i ⊥ ≤ (x.getD i 0 : EReal) → (x.getD i 0 : EReal) ≤ b.2.getD i ⊤ →
      secondStage solve x (.array e) b w m = none := by
  refine ⟨rfl, ?_⟩
  intro e i hi he h1 h2
  obtain ⟨b1, _⟩ := bounds_get (fun i => x.getD i 0) e b w m
  obtain ⟨l, u⟩ := b1 i hi
  have hmem : i ∈ indFree (secondMask m) := by
    rw [P3.Fitting.indFree_mem, (mask_get m i).1]
    refine ⟨by omega, ?_⟩
    have := (mask_get m i).2
    rcases hc : (secondMask m).getD i false with _ | _
    · rfl
    · have := this.1 hc; omega
  obtain ⟨p, hp, ep⟩ := List.mem_iff_getElem.1 hmem
  unfold secondStage
  simp only
  rw [if_neg]
  rintro ⟨_, _, h⟩
  have := (h p ((secondStart x m).getD i 0) _ _ (by simp [List.getElem?_eq_getElem hp, ep]) (by simp [List.getElem?_eq_getElem hp, ep]; rfl)
    (by simp [List.getElem?_eq_getElem hp, ep]; rfl)).1
  simp only [← List.getD_eq_getElem?_getD] at this
  rw [l, u, he, mul_zero, sub_zero, add_zero, max_eq_left h1, min_eq_left h2] at this
  exact lt_irrefl _ this

/-- C330: with positive errors it runs (see `second_stage`), and the result starts from the first solution. -/
theorem second_start_partial (x : List ℝ) (m : ℕ) (hx : 7 ≤ x.length) : ∀ i < 7, (secondStart x m).getD i 0 = x.getD i 0 :=
  (start_get x m hx).2.1

/-- C331: the split fit uses the start and the mask it is given, with flat static modes. -/
theorem split_args_partial (m : ℕ) (a : Args) : (splitArgs m a).fixed = a.fixed ∧ (splitArgs m a).x0.take a.x0.length = a.x0 ∧
    (splitArgs m a).x0.drop a.x0.length = List.replicate m 0 := by
  simp [splitArgs]

/-- C331: what the joint fit always starts from: the same fourteen values then flat static modes, of which the three jitters stay at zero and all
others are fitted. -/
theorem joint_args_partial (m : ℕ) (a : Args) :
    (jointArgs m a).x0.take 14 = [0.7, 0.04, 0.5, 0.01, 1, 0, 1.8, 0, 0, 0, 1, 0, 0, 0] ∧
    (jointArgs m a).x0.drop 14 = List.replicate m 0 ∧ (jointArgs m a).x0.length = (jointArgs m a).fixed.length ∧
    (∀ i < 14 + m, (jointArgs m a).fixed.getD i true = decide (7 ≤ i ∧ i < 10)) := by
  refine ⟨by norm_num [jointArgs], by simp [jointArgs], by simp [jointArgs], ?_⟩
  intro i hi
  by_cases h : i < 14
  · interval_cases i <;> simp [jointArgs, List.replicate]
  · obtain ⟨k, rfl⟩ := Nat.exists_eq_add_of_le (not_lt.1 h)
    have hk : k < m := by omega
    have e : (jointArgs m a).fixed = (List.replicate 7 false ++ List.replicate 3 true ++ List.replicate 4 false) ++ List.replicate m false := rfl
    rw [e, List.getD_append_right _ _ _ _ (by simp)]
    simp [hk]
    omega

example : (jointArgs 2 ⟨[], [], none⟩).x0.length = 16 := by simp [jointArgs]

/-- C331: neither uses the weights, and the joint fit ignores the start and the mask. -/
theorem args_violation (m : ℕ) (a a' : Args) : jointArgs m a = jointArgs m a' ∧ (splitArgs m a).weights = none ∧
    (splitArgs m { a with weights := a'.weights }) = splitArgs m a := ⟨rfl, rfl, rfl⟩

/-! ### Tables of fits -/

/-- C332: 111 distinct names, as many as columns: eleven descriptors, then seven PSD parameters, jitter, flux, position, background and 36
static modes, then the errors in the same order. -/
theorem names_spec : dictNames.Nodup ∧ dictNames.length = 11 + 50 + 50 ∧
    (∀ i < 50, dictNames.getD (61 + i) "" = if i < 14 then dictNames.getD (11 + i) "" ++ "err" else "StatMode_xerr" ++ toString (i - 14)) ∧
    (∀ i < 36, dictNames.getD (25 + i) "" = "StatMode_x" ++ toString i) ∧
    (dictNames.drop 11).take 14 = ["r0", "C", "A", "ax", "p", "Theta", "Beta", "jitterx", "jittery", "jitterz", "flux", "posx", "posy", "bckgrnd"] := by
  decide +kernel

theorem idxOf_reverse (l : List String) (hn : l.Nodup) (k : ℕ) (hk : k < l.length) : l.reverse.idxOf? (l[k]) = some (l.length - 1 - k) := by
  have hk' : l.length - 1 - k < l.reverse.length := by simp; omega
  have e : l.reverse[l.length - 1 - k] = l[k] := by
    rw [List.getElem_reverse]; congr 1; omega
  rw [← e, List.idxOf?_eq_some_iff]
  refine ⟨hk', by simp, ?_⟩
  intro j hj
  have := (List.nodup_reverse.2 hn)
  intro h
  have hj' : j < l.reverse.length := by omega
  have h' := (List.Nodup.getElem_inj_iff this).1 (by simpa using h : l.reverse[j] = l.reverse[l.length - 1 - k])
  omega

/-- C332: each name gives its column of the table: for rows of a fit with 36 static modes, the `i`-th parameter and its error. -/
theorem dict_spec (rows : List Fitted) (hr : ∀ f ∈ rows, f.head.length = 11 ∧ f.x.length = 50 ∧ f.err.length = 50) (i : ℕ) (hi : i < 50) :
    dict (rows.map fun f => f.head ++ f.x ++ f.err) (dictNames.getD (11 + i) "") = some (rows.map fun f => f.x[i]?) ∧
    dict (rows.map fun f => f.head ++ f.x ++ f.err) (dictNames.getD (61 + i) "") = some (rows.map fun f => f.err[i]?) := by
  obtain ⟨hn, hl, _⟩ := names_spec
  have key : ∀ k, (hk : k < dictNames.length) → dict (rows.map fun f => f.head ++ f.x ++ f.err) (dictNames.getD k "") =
      some (rows.map fun f => (f.head ++ f.x ++ f.err)[k]?) := by
    intro k hk
    rw [List.getD_eq_getElem _ _ hk]
    unfold dict
    rw [idxOf_reverse _ hn k hk]
    simp only [List.map_map]
    congr 1
    apply List.map_congr_left
    intro f _
    simp only [Function.comp]
    congr 1; omega
  constructor
  · rw [key _ (by omega)]
    congr 1
    apply List.map_congr_left
    intro f hf
    obtain ⟨h1, h2, h3⟩ := hr f hf
    rw [List.append_assoc, List.getElem?_append_right (by omega), List.getElem?_append_left (by omega), h1]
    congr 1; omega
  · rw [key _ (by omega)]
    congr 1
    apply List.map_congr_left
    intro f hf
    obtain ⟨h1, h2, h3⟩ := hr f hf
    rw [List.getElem?_append_right (by simp; omega)]
    congr 1; simp; omega

/-- C333: the table holds, in the order of the draws, one row per drawn file that passes the selection, if all have 36 static modes; at most as many
as requested. -/
theorem fitAll_partial {F : Type} (files : List F) (nb : Option ℕ) (draws : ℕ → ℕ) (good : F → Bool) (fit : F → Fitted)
    (hf : ∀ f ∈ files, (fit f).head.length = 11 ∧ (fit f).x.length = 50 ∧ (fit f).err.length = 50) :
    fitAll files nb draws good fit = some ((((List.range (nb.getD files.length)).filterMap fun i => files[draws i]?).filter good).map
      fun f => (fit f).head ++ (fit f).x ++ (fit f).err) ∧
    ((((List.range (nb.getD files.length)).filterMap fun i => files[draws i]?).filter good).length ≤ nb.getD files.length) := by
  constructor
  · unfold fitAll
    simp only
    rw [Archive.mapM_some_iff]
    refine ⟨by simp, ?_⟩
    intro i hi
    refine ⟨by simpa using hi, ?_⟩
    have hm := List.getElem_mem hi
    have hm := (List.mem_filter.1 hm).1
    obtain ⟨k, _, hk⟩ := List.mem_filterMap.1 hm
    obtain ⟨h1, h2, h3⟩ := hf _ (List.mem_of_getElem? hk)
    rw [if_pos (by simp; omega), List.getElem_map]
  · refine le_trans (List.length_filter_le _ _) (le_trans (List.length_filterMap_le _ _) (by simp))

/-- C333: asked for all files, it may fit the same one every time (the files are drawn with replacement): for at least two files a draw
leaves all but one out. -/
theorem fitAll_violation {F : Type} (a b : F) (l : List F) (fit : F → Fitted)
    (hf : ∀ f ∈ a :: b :: l, (fit f).head.length = 11 ∧ (fit f).x.length = 50 ∧ (fit f).err.length = 50) :
    fitAll (a :: b :: l) none (fun _ => 0) (fun _ => true) fit =
      some (List.replicate (l.length + 2) ((fit a).head ++ (fit a).x ++ (fit a).err)) := by
  rw [(fitAll_partial _ _ _ _ _ hf).1]
  congr 1
  rw [List.eq_replicate_iff]
  constructor
  · simp
  · intro r hr
    obtain ⟨f, hf', rfl⟩ := List.mem_map.1 hr
    have hm := (List.mem_filter.1 hf').1
    obtain ⟨k, _, hk⟩ := List.mem_filterMap.1 hm
    simp at hk
    rw [hk]

/-- C333: another number of static modes than 36 raises as soon as a file is selected. -/
theorem fitAll_modes_violation {F : Type} (f : F) (fit : F → Fitted) (m : ℕ) (hm : m ≠ 36) (h1 : (fit f).head.length = 11)
    (h2 : (fit f).x.length = 14 + m) (h3 : (fit f).err.length = 14 + m) : fitAll [f] none (fun _ => 0) (fun _ => true) fit = none := by
  unfold fitAll
  simp [List.range_succ, h1, h2, h3]
  omega

/-! ### Catalogues -/

/-- C334: with one header line, the labels are the words of the first line and column `k` holds the `k`-th word of each of the other lines, in
order, when all have at least as many words. -/
theorem catalog_spec (head : List String) (rows : List (List String)) (h : ∀ r ∈ rows, head.length ≤ r.length) :
    catalog (head :: rows) 1 = some (head, (List.range head.length).map fun k => rows.map fun r => r.getD k "") := by
  unfold catalog
  simp only [List.getD_cons_zero, List.length_cons, Nat.add_sub_cancel]
  rw [Option.map_eq_some_iff]
  refine ⟨_, ?_, rfl⟩
  rw [Archive.mapM_some_iff]
  refine ⟨by simp, ?_⟩
  intro k hk
  refine ⟨by simpa using hk, ?_⟩
  simp only [List.getElem_range, List.getElem_map]
  have hk : k < head.length := by simpa using hk
  rw [Option.bind_eq_some_iff]
  refine ⟨rows.map fun r => r.getD k "", ?_, by simp⟩
  rw [Archive.mapM_some_iff]
  refine ⟨by simp, ?_⟩
  intro i hi
  have hi' : i < rows.length := by simpa using hi
  refine ⟨by simpa using hi', ?_⟩
  have e : ((List.range (rows.length + 1)).drop 1)[i] = i + 1 := by
    rw [List.getElem_drop]; simp; omega
  rw [e]
  rw [List.getD_eq_getElem _ _ (by simp; omega)]
  simp only [List.getElem_map, List.getElem_range, List.getD_cons_succ]
  have hr := h _ (List.getElem_mem hi')
  rw [List.getD_eq_getElem _ _ hi', List.getElem?_eq_getElem (by omega), List.getD_eq_getElem _ _ (by omega)]

example : catalog [["x", "y"], ["1", "2"], ["3", "4"]] 1 = some (["x", "y"], [["1", "3"], ["2", "4"]]) := by decide +kernel

/-- C335: with `skip` header lines (not one) before at least one star, and labels, it raises unless there are exactly as many stars as header
lines; in that case the last of the lines `skip`, the first star, is repeated for all stars. -/
theorem catalog_violation (file : List (List String)) (skip : ℕ) (hs : skip ≠ 1) (hl : skip < file.length) (hh : file.getD 0 [] ≠ []) :
    (file.length ≠ 2 * skip → catalog file skip = none) ∧
      (file.length = 2 * skip → ∀ r, file[skip]? = some r → (file.getD 0 []).length ≤ r.length →
        catalog file skip = some (file.getD 0 [], (List.range (file.getD 0 []).length).map fun k => List.replicate skip (r.getD k ""))) := by
  constructor
  · intro h2
    unfold catalog
    simp only
    have hpos : 0 < (file.getD 0 []).length := List.length_pos_iff.2 hh
    rw [Option.map_eq_none_iff]
    by_contra hne
    obtain ⟨t, ht⟩ := Option.ne_none_iff_exists'.1 hne
    obtain ⟨_, g⟩ := (Archive.mapM_some_iff _ _ _).1 ht
    obtain ⟨_, g⟩ := g 0 (by simpa using hpos)
    simp only [List.getElem_range] at g
    obtain ⟨c, hc, g⟩ := Option.bind_eq_some_iff.1 g
    obtain ⟨c1, c2⟩ := (Archive.mapM_some_iff _ _ _).1 hc
    simp only [List.length_drop, List.length_range] at c1
    have hcl : c.length = file.length - skip ∨ c.length = 1 := by
      by_contra hne
      push Not at hne
      rw [if_neg hne.1] at g
      rcases c with _ | ⟨v, _ | ⟨w, c⟩⟩
      · cases g
      · exact hne.2 rfl
      · cases g
    have h0 : skip = 0 := by omega
    subst h0
    obtain ⟨_, c3⟩ := c2 file.length (by simp)
    simp only [List.drop_zero, List.getElem_range] at c3
    rw [List.getD_eq_getElem _ _ (by simp)] at c3
    simp only [List.getElem_map, List.getElem_range] at c3
    rw [List.getD_eq_default _ _ (by omega)] at c3
    simp at c3
  · intro h2 r hr hrl
    unfold catalog
    simp only
    have hn : file.length - skip = skip := by omega
    rw [hn]
    have hd : (List.range (skip + 1)).drop skip = [skip] := by
      rw [List.range_succ, List.drop_append]; simp
    rw [hd]
    rw [Option.map_eq_some_iff]
    refine ⟨_, (Archive.mapM_some_iff _ _ _).2 ⟨by simp, ?_⟩, rfl⟩
    intro k hk
    have hk' : k < (file.getD 0 []).length := by simpa using hk
    refine ⟨by simpa using hk', ?_⟩
    simp only [List.getElem_range, List.getElem_map]
    rw [Option.bind_eq_some_iff]
    refine ⟨[r.getD k ""], ?_, ?_⟩
    · rw [Archive.mapM_some_iff]
      refine ⟨rfl, ?_⟩
      intro i hi
      have : i = 0 := by simpa using hi
      subst this
      refine ⟨by simp, ?_⟩
      simp only [List.getElem_cons_zero]
      rw [List.getD_eq_getElem _ _ (by simp)]
      simp only [List.getElem_map, List.getElem_range]
      rw [List.getD_eq_getElem?_getD, hr, Option.getD_some, List.getElem?_eq_getElem (by omega), List.getD_eq_getElem _ _ (by omega)]
    · rw [if_neg (by simp; omega)]

/-- C335: a file with two header lines is refused, or read wrong when it has two stars. -/
theorem catalog_two : catalog [["x"], ["-"], ["1"], ["2"], ["3"]] 2 = none ∧ catalog [["x"], ["-"], ["1"], ["2"]] 2 = some (["x"], [["1", "1"]]) ∧
    catalog [["x"], ["1"], ["2"]] 1 = some (["x"], [["1", "2"]]) := by decide +kernel

/-! ### Cases that meet the hypotheses -/

/-- A case meeting the hypotheses of `second_stage`. -/
example : ∃ r, secondStage (fun y _ => y) [1, 1, 1, 1, 1, 1, 1] (.array fun _ => 1) (List.replicate 7 0, List.replicate 7 2) 1e-6 36 = some r ∧
    r.length = 50 := by
  obtain ⟨r, h, hl, _⟩ := second_stage (fun y _ => y) (fun y b ⟨_, _, h⟩ => ⟨rfl, fun i v lo hi h1 h2 h3 => (h i v lo hi h1 h2 h3).2⟩)
    [1, 1, 1, 1, 1, 1, 1] (by norm_num) (fun _ => 1) (List.replicate 7 0, List.replicate 7 2) 1e-6 36 (by norm_num) (by norm_num) (by
      intro i hi
      have h2 : (0 : EReal) < 2 := by norm_num
      have h0 : (0 : EReal) ≤ ((1 : ℝ) : EReal) := by exact_mod_cast zero_le_one
      have h1 : ((1 : ℝ) : EReal) ≤ 2 := by exact_mod_cast one_le_two
      interval_cases i <;> exact ⟨h2, h0, h1⟩)
  exact ⟨r, h, hl⟩

/-- A case meeting the hypotheses of `fitAll_modes_violation`. -/
example : fitAll ["psf.fits"] none (fun _ => 0) (fun _ => true)
    (fun _ => ⟨List.replicate 11 1, List.replicate 54 1, List.replicate 54 1⟩) = none :=
  fitAll_modes_violation "psf.fits" _ 40 (by norm_num) (by simp) (by simp) (by simp)

/-! ### Cases that meet the hypotheses -/

/-- A case meeting the hypotheses of `fit_static_violation`. -/
example : fitCase (fun x => x.map (· + 1)) (6 + 3) 3 [1, 2, 3, 4, 5, 6, 7, 8, 9] = none :=
  fit_static_violation _ (by simp) 3 3 (by norm_num) _ rfl

/-- A case meeting the hypotheses of `magErr_scale`. -/
example : magErr [1, 2, 4] ([1, 2, 4].map fun t => 1 + 10 * t) = -2.5 * Real.logb 10 10 :=
  (magErr_scale [1, 2, 4] 1 2 10 1 (by simp) (by simp) (by norm_num)).1

/-- A case meeting the hypotheses of `start_range`. -/
example : ∃ s, start (.scatter 0.2) (lows [[1, 2], [3, 4]]) (highs [[1, 2], [3, 4]]) [2, 3] [1, 2] [1.1, 0.9] = some s ∧ s.length = 2 :=
  let ⟨s, h, hl, _⟩ := start_range [[1, 2], [3, 4]] 2 (by simp) [1, 2] (by simp) [1.1, 0.9] [2, 3] rfl 0.2
  ⟨s, h, hl⟩

/-- A case meeting the hypotheses of `init_partial`. -/
example : start (.scatter 0.2) [3 - 1] [3 + 1] [3] [3] [1 + 0.2 * 1.5] = some [3 + 0.2 * 1.5 * 3] :=
  init_partial _ _ _ 3 1.5 rfl rfl (by norm_num [abs_of_pos])

/-- A case meeting the hypotheses of `catalog_violation`. -/
example : catalog [["x", "y"], ["1", "2"], ["3", "4"]] 2 = none :=
  (catalog_violation [["x", "y"], ["1", "2"], ["3", "4"]] 2 (by norm_num) (by simp) (by simp)).1 (by simp)

end P3.Campaign
