import Verif.Model.FourierModel
import Mathlib.Algebra.Order.BigOperators.Ring.Finset
import Mathlib.Analysis.SpecialFunctions.Pow.Real
import Mathlib.Tactic.LinearCombination
import Mathlib.Tactic.FieldSimp
import Mathlib.Tactic.Positivity
/-
Properties C37 (controller), C38 (reconstructor), C41 (chunked sums), C45 (Bessel functions).
-/
namespace P3.Fourier
open Finset

/-! ### C37 -/

/-- C37: the rejection and closed-loop transfer functions add up to one wherever the denominator of the rejection
function is not replaced, that is at every frequency where it is not below the machine precision `eps`; where
it is replaced the sum is `denominator/eps`, below one in modulus. -/
theorem rtf_add_atf (eps g delay : ℝ) (z : ℂ) (he : 0 < eps) :
    (eps ≤ ‖1 + openLoop eps g delay z‖ → rtf eps g delay z + atf eps g delay z = 1) ∧
    (‖1 + openLoop eps g delay z‖ < eps →
      rtf eps g delay z + atf eps g delay z = (1 + openLoop eps g delay z) / eps ∧
      ‖rtf eps g delay z + atf eps g delay z‖ < 1) := by
  have sum : rtf eps g delay z + atf eps g delay z =
      (1 + openLoop eps g delay z) / guardD eps (1 + openLoop eps g delay z) := by
    unfold atf rtf; ring
  constructor
  · intro h
    rw [sum]
    unfold guardD
    rw [if_neg (not_lt.2 h)]
    apply div_self
    intro h0
    rw [h0, norm_zero] at h
    linarith
  · intro h
    have e : guardD eps (1 + openLoop eps g delay z) = (eps:ℂ) := by unfold guardD; rw [if_pos h]
    rw [sum, e]
    refine ⟨rfl, ?_⟩
    rw [norm_div, Complex.norm_real, Real.norm_of_nonneg he.le, div_lt_one he]
    exact h

/-- C37: with a zero gain nothing is rejected: rejection one, closed loop zero, at every frequency. -/
theorem zero_gain (eps delay : ℝ) (z : ℂ) (he : eps ≤ 1) :
    rtf eps 0 delay z = 1 ∧ atf eps 0 delay z = 0 := by
  have h0 : openLoop eps 0 delay z = 0 := by unfold openLoop hInt; simp
  have : rtf eps 0 delay z = 1 := by
    unfold rtf guardD
    rw [h0, add_zero, norm_one, if_neg (not_lt.2 he), div_one]
  refine ⟨this, ?_⟩
  unfold atf
  rw [h0, zero_mul]

theorem norm_zOf (x : ℝ) : ‖zOf x‖ = 1 := by
  unfold zOf; exact Complex.norm_exp_ofReal_mul_I _

/-- C37: the noise transfer function has the modulus of the closed-loop one. -/
theorem norm_ntf (eps g delay x : ℝ) (hg : g ≠ 0) : ‖ntf eps g delay (zOf x)‖ = ‖atf eps g delay (zOf x)‖ := by
  unfold ntf
  rw [if_neg hg, norm_div, norm_zOf, div_one]

/-- C37: the averages used in the PSDs satisfy `0 ≤ |h1|² ≤ h2` for every set of layer weights that are
non-negative and add up to one, every number of wind angles and every transfer function. -/
theorem h1_le_h2 (nL nTh : ℕ) (w : ℕ → ℝ) (a : ℕ → ℕ → ℂ) (hT : 1 ≤ nTh) (hw : ∀ l < nL, 0 ≤ w l)
    (hs : ∑ l ∈ range nL, w l = 1) : 0 ≤ ‖h1 nL nTh w a‖ ^ 2 ∧ ‖h1 nL nTh w a‖ ^ 2 ≤ h2 nL nTh w a := by
  refine ⟨by positivity, ?_⟩
  have T0 : (0:ℝ) < nTh := by exact_mod_cast hT
  -- one double sum
  let p : ℕ × ℕ → ℝ := fun i => w i.1 / nTh
  have hp : ∀ i ∈ range nL ×ˢ range nTh, 0 ≤ p i := by
    intro i hi
    rw [mem_product, mem_range, mem_range] at hi
    exact div_nonneg (hw i.1 hi.1) T0.le
  have sp : ∑ i ∈ range nL ×ˢ range nTh, p i = 1 := by
    rw [sum_product]
    simp only [p, sum_const, card_range, nsmul_eq_mul]
    rw [← hs]
    exact sum_congr rfl fun l _ => by field_simp
  have e1 : ‖h1 nL nTh w a‖ ≤ ∑ i ∈ range nL ×ˢ range nTh, p i * ‖a i.1 i.2‖ := by
    have : h1 nL nTh w a = ∑ i ∈ range nL ×ˢ range nTh, (p i : ℂ) * a i.1 i.2 := by
      unfold h1
      rw [sum_product]
      refine sum_congr rfl fun l _ => ?_
      rw [mul_div_assoc, sum_div, mul_sum]
      refine sum_congr rfl fun t _ => ?_
      simp only [p]
      push_cast
      ring
    rw [this]
    refine (norm_sum_le _ _).trans (le_of_eq (sum_congr rfl fun i hi => ?_))
    rw [norm_mul, Complex.norm_real, Real.norm_of_nonneg (hp i hi)]
  have e2 : h2 nL nTh w a = ∑ i ∈ range nL ×ˢ range nTh, p i * ‖a i.1 i.2‖ ^ 2 := by
    unfold h2
    rw [sum_product]
    refine sum_congr rfl fun l _ => ?_
    rw [mul_div_assoc, sum_div, mul_sum]
    refine sum_congr rfl fun t _ => ?_
    simp only [p]
    ring
  have cs := sum_mul_sq_le_sq_mul_sq (range nL ×ˢ range nTh) (fun i => Real.sqrt (p i))
    (fun i => Real.sqrt (p i) * ‖a i.1 i.2‖)
  have c1 : ∑ i ∈ range nL ×ˢ range nTh, Real.sqrt (p i) * (Real.sqrt (p i) * ‖a i.1 i.2‖) =
      ∑ i ∈ range nL ×ˢ range nTh, p i * ‖a i.1 i.2‖ :=
    sum_congr rfl fun i hi => by rw [← mul_assoc, Real.mul_self_sqrt (hp i hi)]
  have c2 : ∑ i ∈ range nL ×ˢ range nTh, Real.sqrt (p i) ^ 2 = 1 := by
    rw [← sp]; exact sum_congr rfl fun i hi => Real.sq_sqrt (hp i hi)
  have c3 : ∑ i ∈ range nL ×ˢ range nTh, (Real.sqrt (p i) * ‖a i.1 i.2‖) ^ 2 = h2 nL nTh w a := by
    rw [e2]; exact sum_congr rfl fun i hi => by rw [mul_pow, Real.sq_sqrt (hp i hi)]
  rw [c1, c2, c3, one_mul] at cs
  exact (pow_le_pow_left₀ (norm_nonneg _) e1 2).trans cs

/-- C132: the noise gain is non-negative for increasing frequencies. -/
theorem noiseGain_nonneg (s : List (ℝ × ℝ)) (Ts : ℝ) (hT : 0 ≤ Ts) (hs : s.Pairwise (fun a b => a.1 ≤ b.1))
    (hy : ∀ p ∈ s, 0 ≤ p.2) : 0 ≤ noiseGain s Ts := by
  suffices 0 ≤ trapz s by unfold noiseGain; positivity
  induction s with
  | nil => simp [trapz]
  | cons a t ih =>
    rcases t with _ | ⟨b, t⟩
    · simp [trapz]
    · obtain ⟨f0, y0⟩ := a
      obtain ⟨f1, y1⟩ := b
      rw [List.pairwise_cons] at hs
      have i := ih hs.2 fun p hp => hy p (List.mem_cons_of_mem _ hp)
      have a1 := hs.1 (f1, y1) List.mem_cons_self
      have b0 := hy (f0, y0) List.mem_cons_self
      have b1 := hy (f1, y1) (List.mem_cons_of_mem _ List.mem_cons_self)
      simp only at a1 b0 b1
      simp only [trapz]
      have : 0 ≤ (f1 - f0) * (y0 + y1) / 2 := by
        have := mul_nonneg (sub_nonneg.2 a1) (add_nonneg b0 b1)
        linarith
      linarith

/-- C297 (violation): a loop slower than 0.002 Hz gives decreasing frequencies, hence a negative noise gain. -/
theorem noiseGain_negative (f0 f1 y0 y1 Ts : ℝ) (h : f1 < f0) (h0 : 0 < y0) (h1 : 0 ≤ y1) (hT : 0 < Ts) :
    noiseGain [(f0, y0), (f1, y1)] Ts < 0 := by
  unfold noiseGain trapz trapz
  have : (f1 - f0) * (y0 + y1) < 0 := mul_neg_of_neg_of_pos (by linarith) (by linarith)
  nlinarith

/-- Non-vacuity: quarter of the sampling frequency, one frame of delay: the denominator is far from zero. -/
example : ∑ l ∈ range 2, (fun l : ℕ => if l = 0 then (0.7:ℝ) else 0.3) l = 1 := by
  norm_num [sum_range_succ]

/-! ### C38 -/

/-- C38: without regularisation the filter is the exact inverse wherever the sensor has signal. -/
theorem recon_inverse (sx sy rx ry : ℂ) (hx : recon false sx sx sy 0 = some rx)
    (hy : recon false sy sx sy 0 = some ry) : loopF rx ry sx sy = 1 := by
  unfold recon at hx hy
  rw [if_neg (by simp)] at hx hy
  by_cases h : gPSD sx sy 0 = 0
  · rw [if_pos h] at hx; cases hx
  rw [if_neg h] at hx hy
  injection hx with hx
  injection hy with hy
  subst hx; subst hy
  unfold loopF
  have h' : ((gPSD sx sy 0 : ℝ) : ℂ) ≠ 0 := by exact_mod_cast h
  rw [div_mul_eq_mul_div, div_mul_eq_mul_div, ← add_div, div_eq_one_iff_eq h']
  unfold gPSD
  rw [mul_comm, Complex.mul_conj, mul_comm, Complex.mul_conj, Complex.normSq_eq_norm_sq, Complex.normSq_eq_norm_sq]
  push_cast
  ring

/-- C38: it is undefined (not a number) exactly off the central pixel where the sensor has no signal at all; at
the central pixel it is zero. -/
theorem recon_none_iff (c : Bool) (s sx sy : ℂ) (reg : ℝ) (hr : 0 ≤ reg) :
    (recon c s sx sy reg = none ↔ c = false ∧ sx = 0 ∧ sy = 0 ∧ reg = 0) ∧ recon true s sx sy reg = some 0 := by
  refine ⟨?_, by simp [recon]⟩
  unfold recon
  cases c
  · simp only [Bool.false_eq_true, if_false, true_and]
    unfold gPSD
    constructor
    · intro h
      split_ifs at h with h0
      have a := sq_nonneg ‖sx‖
      have b := sq_nonneg ‖sy‖
      have a0 : ‖sx‖ ^ 2 = 0 := by linarith
      have b0 : ‖sy‖ ^ 2 = 0 := by linarith
      exact ⟨by simpa using a0, by simpa using b0, by linarith⟩
    · rintro ⟨rfl, rfl, rfl⟩
      simp
  · simp

/-- C38: with regularisation the product of sensor and filter is real, at least 0 and below 1. -/
theorem recon_regularised (sx sy rx ry : ℂ) (reg : ℝ) (hr : 0 < reg) (hx : recon false sx sx sy reg = some rx)
    (hy : recon false sy sx sy reg = some ry) :
    (loopF rx ry sx sy).im = 0 ∧ 0 ≤ (loopF rx ry sx sy).re ∧ (loopF rx ry sx sy).re < 1 := by
  have hg : 0 < gPSD sx sy reg := by unfold gPSD; positivity
  unfold recon at hx hy
  rw [if_neg (by simp), if_neg hg.ne'] at hx hy
  injection hx with hx
  injection hy with hy
  subst hx; subst hy
  have h' : ((gPSD sx sy reg : ℝ) : ℂ) ≠ 0 := by exact_mod_cast hg.ne'
  have e : loopF ((starRingEnd ℂ) sx / gPSD sx sy reg) ((starRingEnd ℂ) sy / gPSD sx sy reg) sx sy =
      (((‖sx‖ ^ 2 + ‖sy‖ ^ 2) / gPSD sx sy reg : ℝ) : ℂ) := by
    unfold loopF
    rw [div_mul_eq_mul_div, div_mul_eq_mul_div, ← add_div, mul_comm, Complex.mul_conj, mul_comm _ sy,
      Complex.mul_conj, Complex.normSq_eq_norm_sq, Complex.normSq_eq_norm_sq]
    push_cast
    ring
  rw [e]
  refine ⟨Complex.ofReal_im _, ?_, ?_⟩
  · rw [Complex.ofReal_re]; positivity
  · rw [Complex.ofReal_re, div_lt_one hg]
    unfold gPSD; linarith

/-- C38: the pyramid response is purely imaginary, of modulus at most one, and continuous at the edge of the
modulation. -/
theorem pyr_bounded (umod k : ℝ) (hu : 0 < umod) :
    (pyrResponse umod k).re = 0 ∧ ‖pyrResponse umod k‖ ≤ 1 ∧ pyrResponse umod umod = Complex.I := by
  have pi0 := Real.pi_pos
  refine ⟨?_, ?_, ?_⟩
  · unfold pyrResponse
    split_ifs <;> simp
  · unfold pyrResponse
    split_ifs with h
    · rw [norm_mul, Complex.norm_I, mul_one, Complex.norm_real]
      rcases lt_trichotomy k 0 with h' | h' | h'
      · simp [sign_neg h']
      · simp [h']
      · simp [sign_pos h']
    · rw [norm_mul, Complex.norm_I, mul_one, Complex.norm_real, Real.norm_eq_abs, abs_mul,
        abs_of_pos (by positivity), div_mul_eq_mul_div, div_le_one pi0]
      have := Real.arcsin_le_pi_div_two (k / umod)
      have := Real.neg_pi_div_two_le_arcsin (k / umod)
      have : |Real.arcsin (k / umod)| ≤ Real.pi / 2 := abs_le.2 ⟨by linarith, by linarith⟩
      linarith
  · unfold pyrResponse
    rw [if_neg (by rw [abs_of_pos hu]; exact lt_irrefl _), div_self hu.ne', Real.arcsin_one]
    rw [show 2 / Real.pi * (Real.pi / 2) = 1 by field_simp]
    simp

/-- Non-vacuity: a sensor with signal in x only. -/
example : ∃ rx ry, recon false Complex.I Complex.I 0 0 = some rx ∧ recon false 0 Complex.I 0 0 = some ry := by
  refine ⟨_, _, by rw [recon, if_neg (by simp), if_neg (by simp [gPSD])], by rw [recon, if_neg (by simp), if_neg (by simp [gPSD])]⟩

/-! ### C41 -/

theorem chunkLoop_eq (n c : ℕ) (hc : 1 ≤ c) (term : ℕ → ℂ) (fuel start : ℕ) (acc : ℂ)
    (h : n ≤ start + fuel) : chunkLoop n c term fuel start acc = acc + ∑ l ∈ Ico start n, term l := by
  induction fuel generalizing start acc with
  | zero =>
    unfold chunkLoop
    rw [Ico_eq_empty_of_le (by omega), sum_empty, add_zero]
  | succ k ih =>
    unfold chunkLoop
    split_ifs with h1
    · rw [ih _ _ (by omega), add_assoc]
      congr 1
      by_cases h2 : start + c ≤ n
      · rw [min_eq_left h2]
        exact sum_Ico_consecutive term (by omega) h2
      · rw [min_eq_right (by omega), Ico_eq_empty_of_le (by omega : n ≤ start + c), sum_empty, add_zero]
    · rw [Ico_eq_empty_of_le (by omega), sum_empty, add_zero]

/-- C41: the sum in chunks is the sum over all layers, for every number of layers and every chunk size. -/
theorem chunkSum_eq (n c : ℕ) (hc : 1 ≤ c) (term : ℕ → ℂ) : chunkSum n c term = ∑ l ∈ range n, term l := by
  unfold chunkSum
  rw [chunkLoop_eq n c hc term n 0 0 (by omega), zero_add, range_eq_Ico]

/-- In particular for the chunk size of the code. -/
theorem chunkSum_code (n : ℕ) (hn : 1 ≤ n) (term : ℕ → ℂ) :
    chunkSum n (min 5 n) term = ∑ l ∈ range n, term l := chunkSum_eq n _ (by omega) term

/-! ### C45 -/

/-- C45 (exact): the reflection formula holds exactly for odd orders, and for even ones where the function
vanishes. -/
theorem bessel_reflection_iff (j0 j1 z : ℝ) (n : ℕ) (hn : 1 ≤ n) :
    besselInt j0 j1 z (-n) = (-1) ^ n * besselInt j0 j1 z n ↔ Odd n ∨ besselInt j0 j1 z n = 0 := by
  have a : besselInt j0 j1 z (-n) = -besselNat j0 j1 z n := by
    unfold besselInt
    rw [if_pos (by omega), Int.natAbs_neg, Int.natAbs_natCast, one_pow]
    ring
  have b : besselInt j0 j1 z n = besselNat j0 j1 z n := by
    unfold besselInt
    rw [if_neg (by omega), Int.natAbs_natCast]
  rw [a, b]
  rcases Nat.even_or_odd n with h | h
  · rw [h.neg_one_pow, one_mul]
    constructor
    · intro e; right; linarith
    · rintro (h' | h')
      · exact absurd h (Nat.not_even_iff_odd.2 h')
      · rw [h']; ring
  · rw [h.neg_one_pow]
    simp [h]

/-- C45 (violation): order -2. -/
theorem bessel_violation (j0 j1 z : ℝ) (h : besselInt j0 j1 z 2 ≠ 0) :
    besselInt j0 j1 z (-2) ≠ (-1) ^ 2 * besselInt j0 j1 z 2 := by
  intro e
  rcases (bessel_reflection_iff j0 j1 z 2 (by norm_num)).1 e with h' | h'
  · exact absurd h' (by decide)
  · exact h h'

/-- C45 (part): the recurrence used for positive orders is Bessel's. Missing: even negative orders. -/
theorem bessel_recurrence_partial (j0 j1 z : ℝ) (hz : z ≠ 0) (n : ℕ) :
    besselInt j0 j1 z (n + 2) + besselInt j0 j1 z n = 2 * (n + 1) / z * besselInt j0 j1 z (n + 1) := by
  have e : ∀ m : ℕ, besselInt j0 j1 z m = besselNat j0 j1 z m := by
    intro m
    unfold besselInt
    rw [if_neg (by omega), Int.natAbs_natCast]
  have e0 := e n
  have e1 := e (n + 1)
  have e2 := e (n + 2)
  push_cast at e1 e2
  rw [e0, e1, e2, besselNat]
  field_simp
  ring

/-- C37: away from the guarded divisions, the rejection transfer function is that of an integrator of gain `g`
with a delay: `(1 - 1/z) / (1 - 1/z + g z^(-delay))`, which vanishes towards low frequencies (`z` near 1). -/
theorem rtf_integrator (eps g delay : ℝ) (z : ℂ) (he : 0 < eps) (h1 : eps ≤ ‖1 - z⁻¹‖)
    (h2 : eps ≤ ‖1 + openLoop eps g delay z‖) :
    rtf eps g delay z * (1 - z⁻¹ + g * z ^ (-(delay : ℂ))) = 1 - z⁻¹ := by
  have hd : (1 - z⁻¹ : ℂ) ≠ 0 := by
    intro h; rw [h, norm_zero] at h1; linarith
  have ho : openLoop eps g delay z = g / (1 - z⁻¹) * z ^ (-(delay : ℂ)) := by
    unfold openLoop hInt guardD
    rw [if_neg (not_lt.2 h1)]
  have hr : rtf eps g delay z = 1 / (1 + openLoop eps g delay z) := by
    unfold rtf guardD
    rw [if_neg (not_lt.2 h2)]
  have hn : (1 + openLoop eps g delay z : ℂ) ≠ 0 := by
    intro h; rw [h, norm_zero] at h2; linarith
  rw [hr, one_div, inv_mul_eq_iff_eq_mul₀ hn, ho]
  generalize (1 - z⁻¹ : ℂ) = d at hd
  field_simp

/-- C132: the trapezoidal rule is exact for affine functions: in particular the noise gain of a flat unit spectrum
over the whole band `[0, 1/(2 Ts)]` is one. -/
theorem trapz_affine (a b : ℝ) (f0 : ℝ) (fs : List ℝ) :
    trapz ((f0 :: fs).map fun f => (f, a * f + b)) =
      a * ((fs.getLastD f0) ^ 2 - f0 ^ 2) / 2 + b * (fs.getLastD f0 - f0) := by
  induction fs generalizing f0 with
  | nil => simp [trapz]
  | cons f1 t ih =>
    have := ih f1
    simp only [List.map_cons] at this ⊢
    rw [trapz, this]
    simp only [List.getLastD_cons]
    ring

theorem noiseGain_flat (Ts : ℝ) (hT : Ts ≠ 0) (fs : List ℝ) (hf : fs.getLastD 0 = 1 / (2 * Ts)) :
    noiseGain (((0:ℝ) :: fs).map fun f => (f, 1)) Ts = 1 := by
  have h := trapz_affine 0 1 0 fs
  simp only [zero_mul, zero_add] at h
  unfold noiseGain
  rw [h, hf]
  field_simp
  ring

/-- Non-vacuity: a band sampled at three points. -/
example : noiseGain (((0:ℝ) :: [0.1, 0.25]).map fun f => (f, 1)) 2 = 1 :=
  noiseGain_flat 2 (by norm_num) _ (by norm_num)

/-- C38: the pyramid response by zones: it saturates at plus or minus `I` outside the modulation and follows the
arcsine law inside, strictly increasing. -/
theorem pyr_zones (umod k : ℝ) (hu : 0 < umod) :
    (umod < k → pyrResponse umod k = Complex.I) ∧ (k < -umod → pyrResponse umod k = -Complex.I) ∧
    (|k| ≤ umod → pyrResponse umod k = ((2 / Real.pi * Real.arcsin (k / umod) : ℝ) : ℂ) * Complex.I) ∧
    ∀ k', -umod ≤ k → k < k' → k' ≤ umod → (pyrResponse umod k).im < (pyrResponse umod k').im := by
  have hin : ∀ k, |k| ≤ umod →
      pyrResponse umod k = ((2 / Real.pi * Real.arcsin (k / umod) : ℝ) : ℂ) * Complex.I := by
    intro k hk; unfold pyrResponse; rw [if_neg (not_lt.2 hk)]
  refine ⟨fun h => ?_, fun h => ?_, hin k, ?_⟩
  · unfold pyrResponse
    rw [if_pos (by rw [abs_of_pos (by linarith)]; exact h), sign_pos (by linarith)]; simp
  · unfold pyrResponse
    rw [if_pos (by rw [abs_of_neg (by linarith)]; linarith), sign_neg (by linarith)]; simp
  · intro k' h1 h2 h3
    rw [hin k (abs_le.2 ⟨h1, by linarith⟩), hin k' (abs_le.2 ⟨by linarith, h3⟩)]
    simp only [Complex.mul_im, Complex.ofReal_re, Complex.I_im, mul_one, Complex.ofReal_im, Complex.I_re,
      mul_zero, add_zero]
    have : Real.arcsin (k / umod) < Real.arcsin (k' / umod) := by
      refine Real.strictMonoOn_arcsin ⟨?_, ?_⟩ ⟨?_, ?_⟩ ?_
      · rw [le_div_iff₀ hu]; linarith
      · rw [div_le_one hu]; linarith
      · rw [le_div_iff₀ hu]; linarith
      · rw [div_le_one hu]; linarith
      · exact div_lt_div_of_pos_right h2 hu
    have pi0 := Real.pi_pos
    exact mul_lt_mul_of_pos_left this (by positivity)

/-! ### Cases that meet the hypotheses -/

/-- A case meeting the hypotheses of `noiseGain_negative`. -/
example : noiseGain [(3, 1), (1, 2)] (1 / 500) < 0 :=
  noiseGain_negative 3 1 1 2 (1 / 500) (by norm_num) (by norm_num) (by norm_num) (by norm_num)

/-! ### Cases that meet the hypotheses -/

/-- A case meeting the hypotheses of `h1_le_h2`. -/
example : ‖h1 2 1 (fun _ => 1/2) (fun l _ => if l = 0 then 1 else Complex.I)‖ ^ 2 ≤ h2 2 1 (fun _ => 1/2) (fun l _ => if l = 0 then 1 else Complex.I) :=
  (h1_le_h2 2 1 _ _ le_rfl (by norm_num) (by norm_num [Finset.sum_range_succ])).2

/-- A case meeting the hypotheses of `noiseGain_nonneg`. -/
example : 0 ≤ noiseGain [(0, 1), (1, 4), (3, 2)] (1/500) :=
  noiseGain_nonneg _ _ (by norm_num) (by norm_num) (by simp)

/-- A case meeting the hypotheses of `recon_regularised`. -/
example : ∃ rx ry, recon false (1 : ℂ) 1 Complex.I (1/10) = some rx ∧ recon false Complex.I 1 Complex.I (1/10) = some ry ∧
    (loopF rx ry 1 Complex.I).re < 1 := by
  have h1 : ∃ rx, recon false (1 : ℂ) 1 Complex.I (1/10) = some rx := by
    rw [← Option.isSome_iff_exists, Option.isSome_iff_ne_none, Ne, (recon_none_iff _ _ _ _ _ (by norm_num)).1]; norm_num
  have h2 : ∃ rx, recon false Complex.I 1 Complex.I (1/10) = some rx := by
    rw [← Option.isSome_iff_exists, Option.isSome_iff_ne_none, Ne, (recon_none_iff _ _ _ _ _ (by norm_num)).1]; norm_num
  obtain ⟨rx, hx⟩ := h1
  obtain ⟨ry, hy⟩ := h2
  exact ⟨rx, ry, hx, hy, (recon_regularised 1 Complex.I rx ry (1/10) (by norm_num) hx hy).2.2⟩

end P3.Fourier
