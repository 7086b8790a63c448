import Verif.Props.Controller
import Verif.Props.FrequencyDomain
import Verif.Props.Psf
import Mathlib.Algebra.BigOperators.Field
/-
Properties C22 (third part), C39, C40, C44, C80 (filters), C81 (vibrations).
-/
namespace P3.Fourier
open Finset

theorem msk_nonneg (b : Bool) : 0 ≤ msk b := by unfold msk; split_ifs <;> norm_num
theorem msk_le_one (b : Bool) : msk b ≤ 1 := by unfold msk; split_ifs <;> norm_num

/-! ### C39: each contribution is non-negative -/

theorem noiseScao_nonneg (b : Bool) (rx ry : ℂ) (kc pf g var : ℝ) (h1 : 0 ≤ pf) (h2 : 0 ≤ g) (h3 : 0 ≤ var) :
    0 ≤ noiseScao b rx ry kc pf g var := by
  have := msk_nonneg b
  unfold noiseScao; positivity

theorem quad_re (z : ℂ) (v : ℝ) : (z * ((v : ℂ) * (starRingEnd ℂ) z)).re = v * ‖z‖ ^ 2 := by
  rw [show z * ((v : ℂ) * (starRingEnd ℂ) z) = (v : ℂ) * (z * (starRingEnd ℂ) z) by ring, Complex.mul_conj,
    Complex.normSq_eq_norm_sq, ← Complex.ofReal_mul, Complex.ofReal_re]

/-- The quadratic forms in the tomographic PSDs are sums of squared moduli. -/
theorem noiseTomo_eq (b : Bool) (nGs : ℕ) (pw : ℕ → ℂ) (var : ℕ → ℝ) (pf d : ℝ) :
    noiseTomo b nGs pw var pf d =
      msk b * (∑ g ∈ range nGs, var g * ‖pw g‖ ^ 2) * pf * (min 0.8 (0.4 + 0.1333 * d)) ^ 2 := by
  unfold noiseTomo
  rw [Complex.re_sum]
  simp only [quad_re]

theorem noiseTomo_nonneg (b : Bool) (nGs : ℕ) (pw : ℕ → ℂ) (var : ℕ → ℝ) (pf d : ℝ) (hv : ∀ g < nGs, 0 ≤ var g)
    (hp : 0 ≤ pf) : 0 ≤ noiseTomo b nGs pw var pf d := by
  rw [noiseTomo_eq]
  have := msk_nonneg b
  have : 0 ≤ ∑ g ∈ range nGs, var g * ‖pw g‖ ^ 2 :=
    sum_nonneg fun g hg => mul_nonneg (hv g (mem_range.1 hg)) (by positivity)
  positivity

theorem tomoPsd_eq (b : Bool) (nH : ℕ) (proj : ℕ → ℂ) (w : ℕ → ℝ) (k pf : ℝ) :
    tomoPsd b nH proj w k pf = msk b * (∑ h ∈ range nH, k * w h * ‖proj h‖ ^ 2) * pf := by
  unfold tomoPsd
  rw [Complex.re_sum]
  simp only [quad_re]

theorem tomoPsd_nonneg (b : Bool) (nH : ℕ) (proj : ℕ → ℂ) (w : ℕ → ℝ) (k pf : ℝ) (hw : ∀ h < nH, 0 ≤ w h)
    (hk : 0 ≤ k) (hp : 0 ≤ pf) : 0 ≤ tomoPsd b nH proj w k pf := by
  rw [tomoPsd_eq]
  have := msk_nonneg b
  have : 0 ≤ ∑ h ∈ range nH, k * w h * ‖proj h‖ ^ 2 :=
    sum_nonneg fun h hh => mul_nonneg (mul_nonneg hk (hw h (mem_range.1 hh))) (by positivity)
  positivity

theorem aliasPsd_nonneg (b : Bool) (sh : List (ℤ × ℤ)) (pr w : ℤ × ℤ → ℝ) (q avr : ℤ × ℤ → ℂ) (r0 : ℝ)
    (hr : 0 ≤ r0) (hp : ∀ s, 0 ≤ pr s) (hw : ∀ s, 0 ≤ w s) : 0 ≤ aliasPsd b sh pr w q avr r0 := by
  unfold aliasPsd
  have := msk_nonneg b
  have h1 : 0 ≤ (sh.map (fun s => pr s * w s * ‖q s * avr s‖ ^ 2 * (if s = (0, 0) then 0 else 1))).sum := by
    apply List.sum_nonneg
    simp only [List.mem_map]
    rintro _ ⟨s, -, rfl⟩
    have := hp s; have := hw s
    have : (0:ℝ) ≤ if s = (0, 0) then 0 else 1 := by split_ifs <;> norm_num
    positivity
  have := Real.rpow_nonneg hr (-(5/3) : ℝ)
  positivity

theorem norm_decorr_le (on : Bool) (nL : ℕ) (w phi : ℕ → ℝ) (hw : ∀ l < nL, 0 ≤ w l)
    (hs : ∑ l ∈ range nL, w l ≤ 1) : ‖decorr on nL w phi‖ ≤ 1 := by
  unfold decorr
  split_ifs
  · simp
  · refine (norm_sum_le _ _).trans ?_
    refine le_trans (le_of_eq (sum_congr rfl fun l hl => ?_)) hs
    rw [norm_mul, Complex.norm_exp_ofReal_mul_I, mul_one, Complex.norm_real,
      Real.norm_of_nonneg (hw l (mem_range.1 hl))]

/-- C39: the spatio-temporal error is non-negative: guaranteed by `|h1|² ≤ h2` (C37) and `|A| ≤ 1`. -/
theorem spatioTemporal_nonneg (g0 b : Bool) (F H1 A : ℂ) (H2 watm : ℝ) (hh : ‖H1‖ ^ 2 ≤ H2) (hA : ‖A‖ ≤ 1)
    (hw : 0 ≤ watm) : 0 ≤ spatioTemporal g0 b F H1 A H2 watm := by
  unfold spatioTemporal
  split_ifs
  · positivity
  · have m := msk_nonneg b
    have key : 0 ≤ 1 + ‖F‖ ^ 2 * H2 - 2 * (F * H1 * A).re := by
      have r1 : (F * H1 * A).re ≤ ‖F‖ * ‖H1‖ := by
        refine (Complex.re_le_norm _).trans ?_
        rw [norm_mul, norm_mul]
        exact mul_le_of_le_one_right (by positivity) hA
      have r2 : ‖F‖ ^ 2 * ‖H1‖ ^ 2 ≤ ‖F‖ ^ 2 * H2 := mul_le_mul_of_nonneg_left hh (by positivity)
      nlinarith [sq_nonneg (1 - ‖F‖ * ‖H1‖)]
    positivity

/-- On axis the spatio-temporal error is the servo-lag error. -/
theorem spatioTemporal_on_axis (b : Bool) (F H1 : ℂ) (H2 watm : ℝ) (hh : ‖H1‖ ^ 2 ≤ H2) (hw : 0 ≤ watm) :
    spatioTemporal false b F H1 1 H2 watm = servoLag false b F H1 H2 watm := by
  have h := spatioTemporal_nonneg false true F H1 1 H2 watm hh (by simp) hw
  unfold spatioTemporal servoLag at *
  simp only [Bool.false_eq_true, if_false, mul_one] at *
  rw [show msk true = 1 from rfl, one_mul] at h
  rw [abs_of_nonneg h, mul_assoc]

theorem cosSum_bounds (nL : ℕ) (w x : ℕ → ℝ) (hw : ∀ l < nL, 0 ≤ w l) :
    0 ≤ ∑ l ∈ range nL, 2 * w l * (1 - Real.cos (x l)) ∧
    ∑ l ∈ range nL, 2 * w l * (1 - Real.cos (x l)) ≤ 4 * ∑ l ∈ range nL, w l := by
  constructor
  · refine sum_nonneg fun l hl => ?_
    have := hw l (mem_range.1 hl)
    have := Real.cos_le_one (x l)
    exact mul_nonneg (by linarith) (by linarith)
  · rw [mul_sum]
    refine sum_le_sum fun l hl => ?_
    have := hw l (mem_range.1 hl)
    have := Real.neg_one_le_cos (x l)
    nlinarith

/-- C44: anisoplanatism is non-negative, at most four times the turbulence, and zero towards the guide star. -/
theorem anisoPsd_spec (b : Bool) (th : ℝ × ℝ) (nL : ℕ) (w hs : ℕ → ℝ) (kx ky watm : ℝ)
    (hw : ∀ l < nL, 0 ≤ w l) (hs1 : ∑ l ∈ range nL, w l = 1) (ha : 0 ≤ watm) :
    0 ≤ anisoPsd b th nL w hs kx ky watm ∧ anisoPsd b th nL w hs kx ky watm ≤ 4 * watm ∧
    anisoPsd b (0, 0) nL w hs kx ky watm = 0 ∧
    (th ≠ (0, 0) → (∀ l < nL, hs l = 0) → anisoPsd b th nL w hs kx ky watm = 0) := by
  have hb := cosSum_bounds nL w (fun l => 2 * Real.pi * hs l * (kx * th.2 + ky * th.1)) hw
  rw [hs1] at hb
  have m0 := msk_nonneg b
  have m1 := msk_le_one b
  refine ⟨?_, ?_, ?_, ?_⟩
  · unfold anisoPsd
    split_ifs
    · exact le_rfl
    · exact mul_nonneg (mul_nonneg m0 hb.1) ha
  · unfold anisoPsd
    split_ifs
    · linarith
    · refine mul_le_mul_of_nonneg_right ?_ ha
      calc _ ≤ 1 * _ := mul_le_mul_of_nonneg_right m1 hb.1
        _ ≤ _ := by rw [one_mul]; linarith [hb.2]
  · simp [anisoPsd]
  · intro _ h0
    unfold anisoPsd
    split_ifs
    · rfl
    · rw [sum_eq_zero]
      · ring
      · intro l hl
        rw [h0 l (mem_range.1 hl)]
        simp

/-- C44: differential refraction is non-negative and vanishes at zenith and at the guide-star wavelength. -/
theorem diffRefPsd_spec (b : Bool) (z nr ng : ℝ) (nL : ℕ) (w hs : ℕ → ℝ) (k c watm : ℝ)
    (hw : ∀ l < nL, 0 ≤ w l) (ha : 0 ≤ watm) :
    0 ≤ diffRefPsd b z nr ng nL w hs k c watm ∧ diffRefPsd b 0 nr ng nL w hs k c watm = 0 ∧
    diffRefPsd b z nr nr nL w hs k c watm = 0 := by
  refine ⟨?_, by simp [diffRefPsd], ?_⟩
  · unfold diffRefPsd
    split_ifs
    · exact le_rfl
    · simp only
      exact mul_nonneg (mul_nonneg (msk_nonneg b) (cosSum_bounds nL w _ hw).1) ha
  · unfold diffRefPsd
    split_ifs
    · rfl
    · simp

/-- C44: the chromatic error is non-negative and vanishes exactly when the refractivities agree (or there is no
turbulence). -/
theorem chromPsd_spec (nr ng watm : ℝ) (ha : 0 < watm) (hn : ng ≠ 0) :
    0 ≤ chromPsd nr ng watm ∧ (chromPsd nr ng watm = 0 ↔ nr = ng) := by
  unfold chromPsd
  refine ⟨by positivity, ?_⟩
  rw [mul_eq_zero, or_iff_left ha.ne', sq_eq_zero_iff, div_eq_zero_iff, or_iff_left hn, sub_eq_zero]
  exact eq_comm

theorem conePsd_nonneg (nL : ℕ) (c w : ℕ → ℝ) (atmo : ℝ) (hw : ∀ l < nL, 0 ≤ w l) (ha : 0 ≤ atmo) :
    0 ≤ conePsd nL c w atmo := by
  unfold conePsd
  exact sum_nonneg fun j hj => mul_nonneg (mul_nonneg (sq_nonneg _) ha) (hw j (mem_range.1 hj))

/-- C39: the MCAO cone term is non-negative and never lifts the PSD above the uncorrected turbulence. -/
theorem mcaoPsd_spec (ls : List (ℝ × ℂ × ℝ)) (D atmo res pf : ℝ) (hD : 0 < D)
    (hl : ∀ l ∈ ls, 0 ≤ l.1 ∧ 0 < l.2.2 ∧ l.2.2 ≤ D) (hs : (ls.map (fun l => l.1)).sum ≤ 1) (hp0 : 0 ≤ pf)
    (hp1 : pf ≤ 1) : 0 ≤ mcaoPsd ls D atmo res pf ∧ res + mcaoPsd ls D atmo res pf ≤ max res atmo := by
  have d0 : 0 ≤ max (atmo - res) 0 := le_max_right _ _
  have f : ∀ l ∈ ls, 0 ≤ mcaoFilter l.2.1 l.2.2 D ∧ mcaoFilter l.2.1 l.2.2 D ≤ 1 := by
    intro l h
    obtain ⟨-, h1, h2⟩ := hl l h
    unfold mcaoFilter
    refine ⟨le_max_right _ _, max_le ?_ zero_le_one⟩
    have a : (l.2.2 / D) ^ 2 ≤ 1 := by
      rw [sq_le_one_iff_abs_le_one, abs_of_nonneg (by positivity), div_le_one hD]; exact h2
    have b : 1 - ‖l.2.1‖ ^ 2 ≤ 1 := by linarith [sq_nonneg ‖l.2.1‖]
    nlinarith [sq_nonneg (l.2.2 / D), sq_nonneg ‖l.2.1‖]
  have key : ∀ ls : List (ℝ × ℂ × ℝ), (∀ l ∈ ls, 0 ≤ l.1 ∧ 0 ≤ mcaoFilter l.2.1 l.2.2 D ∧ mcaoFilter l.2.1 l.2.2 D ≤ 1) →
      0 ≤ mcaoPsd ls D atmo res pf ∧
      mcaoPsd ls D atmo res pf ≤ (ls.map (fun l => l.1)).sum * (max (atmo - res) 0 * pf) := by
    intro ls
    induction ls with
    | nil => intro _; simp [mcaoPsd]
    | cons l t ih =>
      intro h
      obtain ⟨a, b, c⟩ := h l List.mem_cons_self
      obtain ⟨i1, i2⟩ := ih fun x hx => h x (List.mem_cons_of_mem _ hx)
      have e : mcaoPsd (l :: t) D atmo res pf =
        l.1 * mcaoFilter l.2.1 l.2.2 D * (max (atmo - res) 0 * pf) + mcaoPsd t D atmo res pf := by
        simp [mcaoPsd]
      have q : 0 ≤ max (atmo - res) 0 * pf := mul_nonneg d0 hp0
      rw [e, List.map_cons, List.sum_cons, add_mul]
      have u : l.1 * mcaoFilter l.2.1 l.2.2 D ≤ l.1 := mul_le_of_le_one_right a c
      have v : 0 ≤ l.1 * mcaoFilter l.2.1 l.2.2 D := mul_nonneg a b
      exact ⟨by have := mul_nonneg v q; linarith, by have := mul_le_mul_of_nonneg_right u q; linarith⟩
  obtain ⟨k1, k2⟩ := key ls fun l h => ⟨(hl l h).1, f l h⟩
  refine ⟨k1, ?_⟩
  have q : max (atmo - res) 0 * pf ≤ max (atmo - res) 0 := mul_le_of_le_one_right d0 hp1
  have q0 : 0 ≤ max (atmo - res) 0 * pf := mul_nonneg d0 hp0
  have : mcaoPsd ls D atmo res pf ≤ max (atmo - res) 0 := by nlinarith
  rcases le_total (atmo - res) 0 with h | h
  · rw [max_eq_right h] at this
    linarith [le_max_left res atmo]
  · rw [max_eq_left h] at this
    linarith [le_max_right res atmo]

/-- What C39 asks of the contributions: all are non-negative and the tilt filter is between 0 and 1. -/
structure Terms.Ok (t : Terms) : Prop where
  noise : 0 ≤ t.noise
  aliasing : 0 ≤ t.aliasing
  diffRef : 0 ≤ t.diffRef
  chrom : 0 ≤ t.chrom
  st : 0 ≤ t.st
  cone : 0 ≤ t.cone
  mcao : ∀ p, 0 ≤ p → 0 ≤ t.mcao p
  fit : 0 ≤ t.fit
  vib : 0 ≤ t.vib
  tilt : 0 ≤ t.tilt
  extra : 0 ≤ t.extra

/-- C39: without imposed error the residual PSD is, up to the unit factor, the fitting PSD plus the contributions
inside the corrected block, the cone terms, the vibrations and the extra error (with the tilt filter off and no
MCAO cone term). -/
theorem psdFinal_sum (u : ℝ) (block : Bool) (t : Terms) (hm : t.mcao = fun _ => 0) (ht : t.tilt = 1) :
    psdFinal u none block t = (t.fit + t.cone + t.extra +
      (if block then t.noise + t.aliasing + t.diffRef + t.chrom + t.st + t.vib else 0)) * u ^ 2 := by
  unfold psdFinal psdCore psdAdd
  simp only [hm, ht]
  cases block
  · simp only [Bool.false_eq_true, if_false]; ring
  · simp only [if_true]; ring

theorem psdCore_nonneg (block : Bool) (t : Terms) (h : t.Ok) : 0 ≤ psdCore block t := by
  unfold psdCore
  simp only
  have a : 0 ≤ (if block then t.noise + t.aliasing + t.diffRef + t.chrom + t.st else 0) + t.cone := by
    have := h.noise; have := h.aliasing; have := h.diffRef; have := h.chrom; have := h.st; have := h.cone
    split_ifs <;> linarith
  exact add_nonneg a (h.mcao _ a)

/-- C39: the residual PSD is non-negative, with or without imposed total error. -/
theorem psdFinal_nonneg (u : ℝ) (norm : Option (ℝ × ℝ)) (block : Bool) (t : Terms) (h : t.Ok)
    (hn : ∀ p ∈ norm, 0 ≤ p.2) : 0 ≤ psdFinal u norm block t := by
  have c := psdCore_nonneg block t h
  have add : ∀ p, 0 ≤ p → 0 ≤ psdAdd block t p * u ^ 2 := by
    intro p hp
    unfold psdAdd
    have := h.fit; have := h.vib; have := h.tilt; have := h.extra
    have : (0:ℝ) ≤ if block = true then t.vib else 0 := by split_ifs <;> linarith
    positivity
  unfold psdFinal
  cases norm with
  | none => exact add _ c
  | some p =>
    have := hn p rfl
    exact add _ (by positivity)

/-- The MCAO cone term is a fixed share, at most one, of what is left up to the uncorrected turbulence. -/
theorem mcaoPsd_share (ls : List (ℝ × ℂ × ℝ)) (D atmo pf : ℝ) (hD : 0 < D)
    (hl : ∀ l ∈ ls, 0 ≤ l.1 ∧ 0 < l.2.2 ∧ l.2.2 ≤ D) (hs : (ls.map (fun l => l.1)).sum ≤ 1) (hp0 : 0 ≤ pf)
    (hp1 : pf ≤ 1) : ∃ c, 0 ≤ c ∧ c ≤ 1 ∧ ∀ res, mcaoPsd ls D atmo res pf = c * max (atmo - res) 0 := by
  refine ⟨mcaoPsd ls D 1 0 pf, (mcaoPsd_spec ls D 1 0 pf hD hl hs hp0 hp1).1, ?_, fun res => ?_⟩
  · simpa using (mcaoPsd_spec ls D 1 0 pf hD hl hs hp0 hp1).2
  · unfold mcaoPsd
    rw [← List.sum_map_mul_right]
    congr 1
    refine List.map_congr_left fun l _ => ?_
    simp; ring

/-- C39: enabling or strengthening any contribution never lowers the PSD, the MCAO term included: it may be there in both
runs, or only in the second (no imposed error). -/
theorem psdFinal_mono (u : ℝ) (block : Bool) (t t' : Terms) (ls : List (ℝ × ℂ × ℝ)) (D atmo pf : ℝ) (hD : 0 < D)
    (hl : ∀ l ∈ ls, 0 ≤ l.1 ∧ 0 < l.2.2 ∧ l.2.2 ≤ D) (hs : (ls.map (fun l => l.1)).sum ≤ 1) (hp0 : 0 ≤ pf)
    (hp1 : pf ≤ 1) (hm' : t'.mcao = (fun p => mcaoPsd ls D atmo p pf) ∨ t'.mcao = fun _ => 0)
    (hm : t.mcao = t'.mcao ∨ t.mcao = fun _ => 0)
    (htilt : t'.tilt = t.tilt) (h0 : 0 ≤ t.tilt) (h1 : t.noise ≤ t'.noise) (h2 : t.aliasing ≤ t'.aliasing)
    (h3 : t.diffRef ≤ t'.diffRef) (h4 : t.chrom ≤ t'.chrom) (h5 : t.st ≤ t'.st) (h6 : t.cone ≤ t'.cone)
    (h7 : t.fit ≤ t'.fit) (h8 : t.vib ≤ t'.vib) (h9 : t.extra ≤ t'.extra) :
    psdFinal u none block t ≤ psdFinal u none block t' := by
  obtain ⟨c, c0, c1, hc⟩ := mcaoPsd_share ls D atmo pf hD hl hs hp0 hp1
  have key : ∀ p q, p ≤ q → p + t.mcao p ≤ q + t'.mcao q := by
    intro p q h
    have a0 : 0 ≤ t'.mcao q := by
      rcases hm' with e | e <;> rw [e]
      show 0 ≤ mcaoPsd ls D atmo q pf
      rw [hc]; exact mul_nonneg c0 (le_max_right _ _)
    rcases hm with e | e
    · rw [e]
      rcases hm' with e | e
      · simp only [e, hc]
        have : max (atmo - p) 0 ≤ max (atmo - q) 0 + (q - p) :=
          max_le (by linarith [le_max_left (atmo - q) 0]) (by linarith [le_max_right (atmo - q) 0])
        nlinarith
      · simp only [e]; linarith
    · simp only [e]; linarith
  unfold psdFinal psdCore psdAdd
  simp only [htilt]
  refine mul_le_mul_of_nonneg_right (add_le_add (mul_le_mul_of_nonneg_right ?_ h0) h9) (sq_nonneg u)
  refine add_le_add (add_le_add (key _ _ ?_) h7) ?_
  · cases block <;> simp <;> linarith
  · cases block <;> simp [h8]

/-! ### C22, third part: corrected terms outside the corrected area -/

/-- C22: outside the corrected area noise, aliasing, anisoplanatism, differential refraction, spatio-temporal
(closed loop) and tomographic terms are zero. -/
theorem corrected_terms_zero (rx ry : ℂ) (kc pf g var : ℝ) (nGs : ℕ) (pw : ℕ → ℂ) (vv : ℕ → ℝ) (d : ℝ)
    (sh : List (ℤ × ℤ)) (pr w : ℤ × ℤ → ℝ) (q avr : ℤ × ℤ → ℂ) (r0 : ℝ) (F H1 A : ℂ) (H2 watm : ℝ)
    (nH : ℕ) (proj : ℕ → ℂ) (ws hs : ℕ → ℝ) (ker : ℝ) (th : ℝ × ℝ) (kx ky z nr ng k c : ℝ) :
    noiseScao false rx ry kc pf g var = 0 ∧ noiseTomo false nGs pw vv pf d = 0 ∧
    aliasPsd false sh pr w q avr r0 = 0 ∧ spatioTemporal false false F H1 A H2 watm = 0 ∧
    tomoPsd false nH proj ws ker pf = 0 ∧ anisoPsd false th nH ws hs kx ky watm = 0 ∧
    diffRefPsd false z nr ng nH ws hs k c watm = 0 := by
  refine ⟨?_, ?_, ?_, ?_, ?_, ?_, ?_⟩
  · simp [noiseScao, msk]
  · simp [noiseTomo, msk]
  · simp [aliasPsd, msk]
  · simp [spatioTemporal, msk]
  · simp [tomoPsd, msk]
  · simp [anisoPsd, msk]
  · simp [diffRefPsd, msk]

/-- C127 (violation): the chromatic term is not masked: in the corners of the block, outside a circular corrected
area, it is added to the full fitting error, so the residual exceeds the turbulence itself. -/
theorem chrom_outside (nr ng watm spectrum : ℝ) (hn : ng ≠ 0) (hne : nr ≠ ng) (hw : 0 < watm) (t : Terms)
    (hm : t.mcao = fun _ => 0) (ht : t.tilt = 1) (hf : t.fit = spectrum) (hc : t.chrom = chromPsd nr ng watm)
    (hok : t.Ok) (u : ℝ) (hu : u ≠ 0) : spectrum * u ^ 2 < psdFinal u none true t := by
  rw [psdFinal_sum u true t hm ht, if_pos rfl, hf, hc]
  have c := chromPsd_spec nr ng watm hw hn
  have c0 : 0 < chromPsd nr ng watm := lt_of_le_of_ne c.1 (fun h => hne (c.2.1 h.symm))
  have := hok.noise; have := hok.aliasing; have := hok.diffRef; have := hok.st; have := hok.cone
  have := hok.vib; have := hok.extra
  have : 0 < u ^ 2 := by positivity
  nlinarith

/-! ### C40: imposed errors -/

/-- C134 (exact): when a total error is imposed, the sum over all frequencies and sources of the returned PSD,
before the terms added afterwards, is the square of the error times the squared unit factor `u = dk*rad2nm`,
applied once too often. -/
theorem imposed_total {ι : Type} (s : Finset ι) (core : ι → ℝ) (u wfe : ℝ) (hu : u ≠ 0)
    (hs : ∑ i ∈ s, core i ≠ 0) :
    ∑ i ∈ s, core i * u ^ 2 * (wfe ^ 2 / ∑ j ∈ s, core j * u ^ 2) * u ^ 2 = wfe ^ 2 * u ^ 2 := by
  rw [← sum_mul, ← sum_mul, ← sum_mul]
  field_simp

/-- C134 (violation): the imposed total is met exactly when the unit factor is one. -/
theorem imposed_total_iff_partial {ι : Type} (s : Finset ι) (core : ι → ℝ) (u wfe : ℝ) (hu : 0 < u) (hw : wfe ≠ 0)
    (hs : ∑ i ∈ s, core i ≠ 0) :
    ∑ i ∈ s, core i * u ^ 2 * (wfe ^ 2 / ∑ j ∈ s, core j * u ^ 2) * u ^ 2 = wfe ^ 2 ↔ u = 1 := by
  rw [imposed_total s core u wfe hu.ne' hs]
  have : 0 < wfe ^ 2 := by positivity
  constructor
  · intro h
    have h1 : u ^ 2 = 1 := mul_left_cancel₀ this.ne' (by rw [h, mul_one])
    nlinarith
  · rintro rfl; ring

/-- C40: the extra error is met: the sum over all frequencies of the extra PSD, in nm², is the square of the
requested error. -/
theorem extra_met {ι : Type} (s : Finset ι) (q : ι → ℝ) (nm u : ℝ) (hu : u ≠ 0) (hs : ∑ i ∈ s, q i ≠ 0) :
    ∑ i ∈ s, extraPsd (q i) (∑ j ∈ s, q j) nm u * u ^ 2 = nm ^ 2 := by
  unfold extraPsd
  have e : ∀ i ∈ s, q i * nm ^ 2 / (∑ j ∈ s, q j) * 1 / u ^ 2 * u ^ 2 = q i * (nm ^ 2 / ∑ j ∈ s, q j) := by
    intro i _; field_simp
  rw [sum_congr rfl e, ← sum_mul]
  field_simp

/-- C40: the last `nLO` sources get the low-order error of their own star, the others the high-order error. -/
theorem extraOf_spec (nSci nLO : ℕ) (nm e : ℝ) (lo : ℕ → ℝ) (hn : 0 < nm) :
    (∀ i < nSci, extraOf (nSci + nLO) nLO nm e lo i = e) ∧
    (∀ j < nLO, extraOf (nSci + nLO) nLO nm e lo (nSci + j) = lo j) := by
  constructor
  · intro i hi
    unfold extraOf
    rw [if_neg (by omega), if_pos hn]
  · intro j hj
    unfold extraOf
    rw [if_pos (by omega)]
    congr 1
    omega

/-- Non-vacuity: three frequencies of equal weight, 30 nm. -/
example : ∑ i ∈ range 3, extraPsd ((fun _ => 1) i) (∑ _j ∈ range 3, 1) 30 7 * 7 ^ 2 = 30 ^ 2 := by
  have := extra_met (range 3) (fun _ => (1:ℝ)) 30 7 (by norm_num) (by norm_num)
  simpa using this

/-! ### C80: tilt and focus filters -/

theorem avg_sq_le (f m : ℝ → ℝ) (hf : Continuous f) (hm : Continuous m)
    (hm2 : (2 / Real.pi) * ∫ θ in (0:ℝ)..Real.pi, m θ ^ 2 * Real.sin θ ^ 2 ≤ 1) :
    ((2 / Real.pi) * ∫ θ in (0:ℝ)..Real.pi, f θ * m θ * Real.sin θ ^ 2) ^ 2 ≤
      (2 / Real.pi) * ∫ θ in (0:ℝ)..Real.pi, f θ ^ 2 * Real.sin θ ^ 2 := by
  have pi0 := Real.pi_pos
  set c := (2 / Real.pi) * ∫ θ in (0:ℝ)..Real.pi, f θ * m θ * Real.sin θ ^ 2 with hc
  have pos : 0 ≤ ∫ θ in (0:ℝ)..Real.pi, (f θ - c * m θ) ^ 2 * Real.sin θ ^ 2 :=
    intervalIntegral.integral_nonneg pi0.le fun θ _ => by positivity
  have i1 : IntervalIntegrable (fun θ => f θ ^ 2 * Real.sin θ ^ 2) MeasureTheory.volume 0 Real.pi :=
    Continuous.intervalIntegrable (by fun_prop) _ _
  have i2 : IntervalIntegrable (fun θ => (2 * c) * (f θ * m θ * Real.sin θ ^ 2)) MeasureTheory.volume 0 Real.pi :=
    Continuous.intervalIntegrable (by fun_prop) _ _
  have i3 : IntervalIntegrable (fun θ => c ^ 2 * (m θ ^ 2 * Real.sin θ ^ 2)) MeasureTheory.volume 0 Real.pi :=
    Continuous.intervalIntegrable (by fun_prop) _ _
  have expand : ∫ θ in (0:ℝ)..Real.pi, (f θ - c * m θ) ^ 2 * Real.sin θ ^ 2 =
      (∫ θ in (0:ℝ)..Real.pi, f θ ^ 2 * Real.sin θ ^ 2) - 2 * c * (∫ θ in (0:ℝ)..Real.pi, f θ * m θ * Real.sin θ ^ 2)
        + c ^ 2 * ∫ θ in (0:ℝ)..Real.pi, m θ ^ 2 * Real.sin θ ^ 2 := by
    rw [← intervalIntegral.integral_const_mul (2 * c), ← intervalIntegral.integral_const_mul (c ^ 2),
      ← intervalIntegral.integral_sub i1 i2, ← intervalIntegral.integral_add (i1.sub i2) i3]
    apply intervalIntegral.integral_congr
    intro θ _
    simp only
    ring
  rw [expand] at pos
  generalize (∫ θ in (0:ℝ)..Real.pi, f θ * m θ * Real.sin θ ^ 2) = X at *
  generalize (∫ θ in (0:ℝ)..Real.pi, m θ ^ 2 * Real.sin θ ^ 2) = M at *
  generalize (∫ θ in (0:ℝ)..Real.pi, f θ ^ 2 * Real.sin θ ^ 2) = Y at *
  have k0 : 0 < 2 / Real.pi := by positivity
  have p2 := mul_nonneg k0.le pos
  have : (2 / Real.pi) * (Y - 2 * c * X + c ^ 2 * M) =
    (2 / Real.pi) * Y - 2 * c * ((2 / Real.pi) * X) + c ^ 2 * ((2 / Real.pi) * M) := by ring
  rw [this, ← hc] at p2
  nlinarith [sq_nonneg c]

theorem int_sin_sq : ∫ θ in (0:ℝ)..Real.pi, Real.sin θ ^ 2 = Real.pi / 2 := Psf.integral_sin_sq_pi

theorem int_cos_sq_sin_sq : ∫ θ in (0:ℝ)..Real.pi, Real.cos θ ^ 2 * Real.sin θ ^ 2 = Real.pi / 8 := by
  have h := integral_sin_sq_mul_cos_sq (a := 0) (b := Real.pi)
  have e : ∫ θ in (0:ℝ)..Real.pi, Real.cos θ ^ 2 * Real.sin θ ^ 2 =
      ∫ θ in (0:ℝ)..Real.pi, Real.sin θ ^ 2 * Real.cos θ ^ 2 := by
    congr 1; funext θ; ring
  rw [e, h]
  have s : Real.sin (4 * Real.pi) = 0 := by
    have := Real.sin_nat_mul_pi 4; push_cast at this; exact this
  simp [s]

theorem cos_sin_total (x : ℝ) :
    (2 / Real.pi) * (∫ θ in (0:ℝ)..Real.pi, Real.cos (x * Real.cos θ) ^ 2 * Real.sin θ ^ 2) +
    (2 / Real.pi) * (∫ θ in (0:ℝ)..Real.pi, Real.sin (x * Real.cos θ) ^ 2 * Real.sin θ ^ 2) = 1 := by
  have i1 : IntervalIntegrable (fun θ => Real.cos (x * Real.cos θ) ^ 2 * Real.sin θ ^ 2)
      MeasureTheory.volume 0 Real.pi := Continuous.intervalIntegrable (by fun_prop) _ _
  have i2 : IntervalIntegrable (fun θ => Real.sin (x * Real.cos θ) ^ 2 * Real.sin θ ^ 2)
      MeasureTheory.volume 0 Real.pi := Continuous.intervalIntegrable (by fun_prop) _ _
  rw [← mul_add, ← intervalIntegral.integral_add i1 i2]
  have e : ∫ θ in (0:ℝ)..Real.pi, (Real.cos (x * Real.cos θ) ^ 2 * Real.sin θ ^ 2 +
      Real.sin (x * Real.cos θ) ^ 2 * Real.sin θ ^ 2) = ∫ θ in (0:ℝ)..Real.pi, Real.sin θ ^ 2 := by
    congr 1; funext θ
    rw [← add_mul, Real.cos_sq_add_sin_sq, one_mul]
  rw [e, int_sin_sq]
  have := Real.pi_ne_zero
  field_simp

/-- C80: the tilt filter is between 0 and 1 at every frequency: it only removes. -/
theorem tiltFilter_range (x : ℝ) : 0 ≤ tiltFilter x ∧ tiltFilter x ≤ 1 := by
  unfold tiltFilter
  split_ifs with h
  · norm_num
  · have p0 := Real.pi_ne_zero
    have a := avg_sq_le (fun θ => Real.cos (x * Real.cos θ)) (fun _ => 1) (by fun_prop) (by fun_prop) (by
      simp only [one_pow, one_mul]
      rw [int_sin_sq]
      rw [show 2 / Real.pi * (Real.pi / 2) = 1 by field_simp])
    have b := avg_sq_le (fun θ => Real.sin (x * Real.cos θ)) (fun θ => 2 * Real.cos θ) (by fun_prop) (by fun_prop) (by
      have e : ∫ θ in (0:ℝ)..Real.pi, (2 * Real.cos θ) ^ 2 * Real.sin θ ^ 2 =
          4 * ∫ θ in (0:ℝ)..Real.pi, Real.cos θ ^ 2 * Real.sin θ ^ 2 := by
        rw [← intervalIntegral.integral_const_mul]
        congr 1; funext θ; ring
      rw [e, int_cos_sq_sin_sq, show 2 / Real.pi * (4 * (Real.pi / 8)) = 1 by field_simp; norm_num])
    have t := cos_sin_total x
    have e1 : j1Term x = (2 / Real.pi) * ∫ θ in (0:ℝ)..Real.pi, Real.cos (x * Real.cos θ) * 1 * Real.sin θ ^ 2 := by
      unfold j1Term Psf.sombrero1
      simp only [mul_one]
      ring
    have e2 : j2Term x = (2 / Real.pi) * ∫ θ in (0:ℝ)..Real.pi,
        Real.sin (x * Real.cos θ) * (2 * Real.cos θ) * Real.sin θ ^ 2 := rfl
    rw [← e1] at a
    rw [← e2] at b
    constructor
    · linarith
    · nlinarith [sq_nonneg (j1Term x), sq_nonneg (j2Term x)]

/-- C80: so is the focus filter. -/
theorem focusFilter_range (x : ℝ) : 0 ≤ focusFilter x ∧ focusFilter x ≤ 1 := by
  unfold focusFilter
  split_ifs with h
  · norm_num
  · have p0 := Real.pi_ne_zero
    have s3 : Real.sqrt 3 ^ 2 = 3 := Real.sq_sqrt (by norm_num)
    have a := avg_sq_le (fun θ => Real.cos (x * Real.cos θ)) (fun θ => Real.sqrt 3 * ((1 - 4 * Real.cos θ ^ 2) / 3))
      (by fun_prop) (by fun_prop) (by
      -- the mode is bounded by √3 * (1 + ...) ; its mean square is at most one
      have i0 : IntervalIntegrable (fun θ => Real.sin θ ^ 2) MeasureTheory.volume 0 Real.pi :=
        Continuous.intervalIntegrable (by fun_prop) _ _
      have i1 : IntervalIntegrable (fun θ => (Real.sqrt 3 * ((1 - 4 * Real.cos θ ^ 2) / 3)) ^ 2 * Real.sin θ ^ 2)
        MeasureTheory.volume 0 Real.pi := Continuous.intervalIntegrable (by fun_prop) _ _
      have i2 : IntervalIntegrable (fun θ => (1/3) * Real.sin θ ^ 2 + (8/3) * (Real.cos θ ^ 2 * Real.sin θ ^ 2))
        MeasureTheory.volume 0 Real.pi := Continuous.intervalIntegrable (by fun_prop) _ _
      have le : ∫ θ in (0:ℝ)..Real.pi, (Real.sqrt 3 * ((1 - 4 * Real.cos θ ^ 2) / 3)) ^ 2 * Real.sin θ ^ 2 ≤
          ∫ θ in (0:ℝ)..Real.pi, ((1/3) * Real.sin θ ^ 2 + (8/3) * (Real.cos θ ^ 2 * Real.sin θ ^ 2)) := by
        refine intervalIntegral.integral_mono_on Real.pi_pos.le i1 i2 fun θ _ => ?_
        have c1 := Real.cos_sq_le_one θ
        have c0 := sq_nonneg (Real.cos θ)
        have s0 := sq_nonneg (Real.sin θ)
        have : (Real.sqrt 3 * ((1 - 4 * Real.cos θ ^ 2) / 3)) ^ 2 = (1 - 4 * Real.cos θ ^ 2) ^ 2 / 3 := by
          rw [mul_pow, s3]; ring
        rw [this]
        have k : (1 - 4 * Real.cos θ ^ 2) ^ 2 / 3 ≤ 1/3 + 8/3 * Real.cos θ ^ 2 := by nlinarith
        have := mul_le_mul_of_nonneg_right k s0
        linarith
      have i3 : IntervalIntegrable (fun θ => (1/3) * Real.sin θ ^ 2) MeasureTheory.volume 0 Real.pi :=
        Continuous.intervalIntegrable (by fun_prop) _ _
      have i4 : IntervalIntegrable (fun θ => (8/3) * (Real.cos θ ^ 2 * Real.sin θ ^ 2)) MeasureTheory.volume 0 Real.pi :=
        Continuous.intervalIntegrable (by fun_prop) _ _
      rw [intervalIntegral.integral_add i3 i4, intervalIntegral.integral_const_mul, intervalIntegral.integral_const_mul,
        int_sin_sq, int_cos_sq_sin_sq] at le
      have k0 : 0 < 2 / Real.pi := by have := Real.pi_pos; positivity
      refine (mul_le_mul_of_nonneg_left le k0.le).trans ?_
      rw [show 2 / Real.pi * (1 / 3 * (Real.pi / 2) + 8 / 3 * (Real.pi / 8)) = 1 by field_simp; norm_num])
    have t := cos_sin_total x
    have s : 0 ≤ (2 / Real.pi) * (∫ θ in (0:ℝ)..Real.pi, Real.sin (x * Real.cos θ) ^ 2 * Real.sin θ ^ 2) := by
      have := Real.pi_pos
      have : 0 ≤ ∫ θ in (0:ℝ)..Real.pi, Real.sin (x * Real.cos θ) ^ 2 * Real.sin θ ^ 2 :=
        intervalIntegral.integral_nonneg this.le fun θ _ => by positivity
      positivity
    have e : (2 / Real.pi) * ∫ θ in (0:ℝ)..Real.pi,
        Real.cos (x * Real.cos θ) * (Real.sqrt 3 * ((1 - 4 * Real.cos θ ^ 2) / 3)) * Real.sin θ ^ 2 =
        Real.sqrt 3 * j3Term x := by
      unfold j3Term
      rw [mul_left_comm (Real.sqrt 3), ← intervalIntegral.integral_const_mul (Real.sqrt 3)]
      congr 2; funext θ; ring
    rw [e, mul_pow, s3] at a
    constructor
    · linarith
    · nlinarith [sq_nonneg (j3Term x)]

/-! ### C81: vibrations -/

/-- C81 (part): the vibration power used is at most the power that passes the rejection function. Missing: it
should be equal, see `windPower_violation`. -/
theorem windPower_partial (s : List (ℂ × ℝ)) (df : ℝ) (hd : 0 ≤ df) (hs : ∀ p ∈ s, 0 ≤ p.2) :
    windPower s df ≤ (s.map (fun p => ‖p.1‖ ^ 2 * p.2)).sum * df := by
  unfold windPower
  rw [norm_mul, Complex.norm_real, Real.norm_of_nonneg hd]
  refine mul_le_mul_of_nonneg_right ?_ hd
  induction s with
  | nil => simp
  | cons p t ih =>
    rw [List.map_cons, List.sum_cons, List.map_cons, List.sum_cons]
    refine (norm_add_le _ _).trans (add_le_add (le_of_eq ?_) (ih fun q hq => hs q (List.mem_cons_of_mem _ hq)))
    rw [norm_mul, norm_pow, Complex.norm_real, Real.norm_of_nonneg (hs p List.mem_cons_self)]

/-- C81 (violation): two frequencies whose rejection functions are in quadrature cancel: any amount of
vibration disappears. -/
theorem windPower_violation (P df : ℝ) :
    windPower [(1, P), (Complex.I, P)] df = 0 ∧
    ([((1:ℂ), P), (Complex.I, P)].map (fun p => ‖p.1‖ ^ 2 * p.2)).sum * df = 2 * P * df := by
  constructor
  · simp [windPower]
  · simp only [List.map_cons, List.map_nil, List.sum_cons, List.sum_nil, norm_one, Complex.norm_I]; ring

/-- C44: the differential refraction only depends on the distance from zenith, not on its sign. -/
theorem diffRefPsd_even (b : Bool) (z nr ng : ℝ) (nL : ℕ) (w hs : ℕ → ℝ) (k c watm : ℝ) :
    diffRefPsd b (-z) nr ng nL w hs k c watm = diffRefPsd b z nr ng nL w hs k c watm := by
  unfold diffRefPsd
  by_cases h : z = 0
  · simp [h]
  · rw [if_neg (by simpa using h), if_neg h]
    dsimp only
    have e : (nr - ng) * Real.tan (-z * Real.pi / 180) = -((nr - ng) * Real.tan (z * Real.pi / 180)) := by
      rw [show -z * Real.pi / 180 = -(z * Real.pi / 180) by ring, Real.tan_neg]; ring
    rw [e, Real.tan_neg]
    have e2 : ∀ l, Real.cos (2 * Real.pi * hs l * k * -Real.tan ((nr - ng) * Real.tan (z * Real.pi / 180)) * c) =
        Real.cos (2 * Real.pi * hs l * k * Real.tan ((nr - ng) * Real.tan (z * Real.pi / 180)) * c) := by
      intro l; rw [← Real.cos_neg]; congr 1; ring
    simp only [e2]

/-- C80: what the focus filter removes is the square of the projection of the fringe on the normalised focus
mode (`√3 (1 - 4 cos² θ)/3` along the fringes). -/
theorem focusFilter_projection (x : ℝ) (h : 1e-6 ≤ x) :
    focusFilter x = 1 - ((2 / Real.pi) * ∫ θ in (0:ℝ)..Real.pi,
      Real.cos (x * Real.cos θ) * (Real.sqrt 3 * ((1 - 4 * Real.cos θ ^ 2) / 3)) * Real.sin θ ^ 2) ^ 2 := by
  unfold focusFilter
  rw [if_neg (not_lt.2 h)]
  have e : ∫ θ in (0:ℝ)..Real.pi, Real.cos (x * Real.cos θ) * (Real.sqrt 3 * ((1 - 4 * Real.cos θ ^ 2) / 3)) * Real.sin θ ^ 2 =
      Real.sqrt 3 * ∫ θ in (0:ℝ)..Real.pi, Real.cos (x * Real.cos θ) * ((1 - 4 * Real.cos θ ^ 2) / 3) * Real.sin θ ^ 2 := by
    rw [← intervalIntegral.integral_const_mul]
    congr 1; funext θ; ring
  rw [e]
  unfold j3Term
  have s3 : Real.sqrt 3 ^ 2 = 3 := Real.sq_sqrt (by norm_num)
  rw [mul_left_comm, mul_pow (Real.sqrt 3), s3]

/-! ### Cases that meet the hypotheses -/

/-- A case meeting the hypotheses of `mcaoPsd_spec`. -/
example : 0 ≤ mcaoPsd [(1/2, 1, 8), (1/3, 2 + Complex.I, 4)] 8 3 1 (1/2) :=
  (mcaoPsd_spec _ 8 3 1 (1/2) (by norm_num) (by norm_num) (by norm_num) (by norm_num) (by norm_num)).1

/-- A case meeting the hypotheses of `psdFinal_mono`: the MCAO term is only in the second run. -/
example : psdFinal 2 none true ⟨1, 1, 1, 1, 1, 1, fun _ => 0, 1, 1, 1/2, 1⟩ ≤
    psdFinal 2 none true ⟨2, 1, 1, 3, 1, 1, fun p => mcaoPsd [(1/2, 1, 8), (1/3, 2 + Complex.I, 4)] 8 30 p (1/2), 1, 1, 1/2, 1⟩ := by
  refine psdFinal_mono 2 true _ _ [(1/2, 1, 8), (1/3, 2 + Complex.I, 4)] 8 30 (1/2) ?_ ?_ ?_ ?_ ?_ (.inl rfl) (.inr rfl) rfl ?_ ?_ ?_ ?_ ?_
    ?_ ?_ ?_ ?_ ?_ <;> norm_num

/-- A case meeting the hypotheses of `chrom_outside`. -/
example : 5 * 2 ^ 2 < psdFinal 2 none true ⟨0, 0, 0, chromPsd 1.0002 1.0003 3, 0, 0, fun _ => 0, 5, 0, 1, 0⟩ := by
  refine chrom_outside 1.0002 1.0003 3 5 (by norm_num) (by norm_num) (by norm_num) _ rfl rfl rfl rfl ?_ 2 (by norm_num)
  refine ⟨le_rfl, le_rfl, le_rfl, ?_, le_rfl, le_rfl, fun _ _ => le_rfl, by norm_num, le_rfl, by norm_num, le_rfl⟩
  simp only [chromPsd]; positivity

/-! ### Cases that meet the hypotheses -/

/-- A case meeting the hypotheses of `aliasPsd_nonneg`. -/
example : 0 ≤ aliasPsd true [(1, 0), (0, 1)] (fun _ => 1) (fun _ => 2) (fun s => (s.1 : ℂ) + Complex.I) (fun _ => 1) 0.15 :=
  aliasPsd_nonneg _ _ _ _ _ _ _ (by norm_num) (by norm_num) (by norm_num)

/-- A case meeting the hypotheses of `spatioTemporal_nonneg`. -/
example : 0 ≤ spatioTemporal false true (1/2) (1/2) Complex.I (1/2) 3 :=
  spatioTemporal_nonneg _ _ _ _ _ _ _ (by norm_num) (by simp) (by norm_num)

/-- A case meeting the hypotheses of `anisoPsd_spec`. -/
example : anisoPsd true (1e-5, 0) 2 (fun _ => 1/2) (fun l => 5000 * l) 1 2 3 ≤ 4 * 3 :=
  (anisoPsd_spec true (1e-5, 0) 2 (fun _ => 1/2) (fun l => 5000 * l) 1 2 3 (by norm_num)
    (by norm_num [Finset.sum_range_succ]) (by norm_num)).2.1

/-- A case meeting the hypotheses of `tomoPsd_nonneg`. -/
example : 0 ≤ tomoPsd true 2 (fun h => (h : ℂ) + Complex.I) (fun _ => 1/2) 3 (1/2) :=
  tomoPsd_nonneg _ _ _ _ _ _ (by norm_num) (by norm_num) (by norm_num)

/-- A case meeting the hypotheses of `imposed_total_iff_partial`. -/
example : ¬ ∑ i ∈ Finset.range 2, (1 + i : ℝ) * 2 ^ 2 * (5 ^ 2 / ∑ j ∈ Finset.range 2, (1 + j : ℝ) * 2 ^ 2) * 2 ^ 2 = 5 ^ 2 := by
  rw [imposed_total_iff_partial (Finset.range 2) (fun i => (1 + i : ℝ)) 2 5 (by norm_num) (by norm_num) (by norm_num [Finset.sum_range_succ])]
  norm_num

end P3.Fourier
