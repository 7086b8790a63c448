import Verif.Model.PsdPsf
import Verif.Lemmas.Dft
import Verif.Props.Otf
import Mathlib.Analysis.SpecialFunctions.Exponential
namespace P3.PsdPsf
open Finset P3.Rec P3.Otf
variable {N : ℕ} [NeZero N]

/-- Inversion of the transform. -/
theorem idft_dft (a : Pix N → ℂ) (x : Pix N) : idft (dft a) x = a x := by
  have hN : (N : ℂ) ≠ 0 := Nat.cast_ne_zero.2 (NeZero.ne N)
  unfold idft dft
  simp only [sum_mul, mul_assoc, ← AddChar.map_add_eq_mul]
  rw [sum_comm]
  have : ∀ y : Pix N, ∑ k : Pix N, a y * (ZMod.stdAddChar (-dot k y + dot k x) : ℂ) =
      if y = x then a y * (N : ℂ) ^ 2 else 0 := by
    intro y
    rw [← mul_sum]
    have e : ∀ k : Pix N, -dot k y + dot k x = dot k (x - y) := by
      intro k; simp only [dot, Prod.fst_sub, Prod.snd_sub]; ring
    simp only [e, sum_char, sub_eq_zero, eq_comm (a := x)]
    split_ifs <;> simp
  simp only [this, sum_ite_eq', mem_univ, if_true]
  field_simp

/-- The transform of a circular convolution. -/
theorem dft_conv (a b : Pix N → ℂ) (k : Pix N) :
    dft (fun x => ∑ y, a y * b (x - y)) k = dft a k * dft b k := by
  unfold dft
  rw [sum_mul_sum]
  simp only [sum_mul]
  rw [sum_comm]
  refine sum_congr rfl fun y _ => ?_
  rw [← Equiv.sum_comp (Equiv.addRight y)]
  refine sum_congr rfl fun z _ => ?_
  simp only [Equiv.coe_addRight, add_sub_cancel_right]
  have : -dot k (z + y) = -dot k y + -dot k z := by
    simp only [dot, Prod.fst_add, Prod.snd_add]; ring
  rw [this, AddChar.map_add_eq_mul]; ring

/-- Repeated convolution of an array with itself. -/
noncomputable def convPow (a : Pix N → ℝ) : ℕ → Pix N → ℝ
  | 0 => fun x => if x = 0 then 1 else 0
  | n + 1 => fun x => ∑ y, convPow a n y * a (x - y)

theorem convPow_nonneg (a : Pix N → ℝ) (ha : ∀ x, 0 ≤ a x) : ∀ n x, 0 ≤ convPow a n x
  | 0, x => by unfold convPow; split_ifs <;> norm_num
  | n + 1, x => sum_nonneg fun y _ => mul_nonneg (convPow_nonneg a ha n y) (ha _)

theorem dft_convPow (a : Pix N → ℝ) (k : Pix N) : ∀ n, dft (toC (convPow a n)) k = dft (toC a) k ^ n
  | 0 => by
    unfold dft toC convPow
    rw [sum_eq_single 0 (fun x _ hx => by simp [hx]) (by simp)]
    simp [dot]
  | n + 1 => by
    rw [pow_succ, ← dft_convPow a k n, ← dft_conv]
    congr 1
    ext x
    simp [toC, convPow]

theorem idft_exp (a : Pix N → ℝ) (x : Pix N) :
    HasSum (fun n : ℕ => ((convPow a n x / n.factorial : ℝ) : ℂ)) (idft (fun k => Complex.exp (dft (toC a) k)) x) := by
  have h : ∀ k, HasSum (fun n : ℕ => dft (toC a) k ^ n / (n.factorial : ℂ)) (Complex.exp (dft (toC a) k)) := by
    intro k
    rw [Complex.exp_eq_exp_ℂ]
    exact NormedSpace.expSeries_div_hasSum_exp _
  have hs := (hasSum_sum (s := univ) fun k (_ : k ∈ univ) => (h k).mul_right (ZMod.stdAddChar (dot k x) : ℂ)).mul_left (1 / (N : ℂ) ^ 2)
  unfold idft
  refine hs.congr_fun ?_ |> id
  intro n
  have e := idft_dft (toC (convPow a n)) x
  unfold idft at e
  simp only [dft_convPow] at e
  have e2 : ((convPow a n x / n.factorial : ℝ) : ℂ) = toC (convPow a n) x / (n.factorial : ℂ) := by simp [toC]
  rw [e2, ← e, mul_div_assoc, sum_div]
  simp only [div_mul_eq_mul_div]


/-- Total variance of a PSD. -/
noncomputable def variance (psd : Pix N → ℝ) (pix : ℝ) : ℝ := pix ^ 2 * ∑ x, psd x

/-- Even part of the shifted PSD. -/
noncomputable def evenPart (psd : Pix N → ℝ) (pix : ℝ) (x : Pix N) : ℝ :=
  pix ^ 2 * (psd (x - centre N) + psd (-x - centre N)) / 2

theorem cov_re (psd : Pix N → ℝ) (pix : ℝ) (k : Pix N) :
    (((psd2cov psd pix k).re : ℝ) : ℂ) = dft (toC (evenPart psd pix)) k := by
  have h1 : (((psd2cov psd pix k).re : ℝ) : ℂ) =
      (psd2cov psd pix k + (starRingEnd ℂ) (psd2cov psd pix k)) / 2 := by
    rw [Complex.add_conj]; push_cast; ring
  have h2 : (starRingEnd ℂ) (psd2cov psd pix k) =
      ∑ x, ((pix ^ 2 * psd (-x - centre N) : ℝ) : ℂ) * ZMod.stdAddChar (-dot k x) := by
    unfold psd2cov dft
    rw [map_mul, map_sum, sum_mul, ← Equiv.sum_comp (Equiv.neg (Pix N))]
    refine sum_congr rfl fun x _ => ?_
    simp only [Equiv.neg_apply, map_mul, conj_char, fftshift, toC, Complex.conj_ofReal]
    have : - -dot k (-x) = -dot k x := by simp only [dot, Prod.fst_neg, Prod.snd_neg]; ring
    rw [this]; push_cast; ring
  have h3 : psd2cov psd pix k = ∑ x, ((pix ^ 2 * psd (x - centre N) : ℝ) : ℂ) * ZMod.stdAddChar (-dot k x) := by
    unfold psd2cov dft
    rw [sum_mul]
    refine sum_congr rfl fun x _ => ?_
    simp only [fftshift, toC]; push_cast; ring
  rw [h1, h2, h3, ← sum_add_distrib, sum_div]
  unfold dft
  refine sum_congr rfl fun x _ => ?_
  simp only [toC, evenPart]; push_cast; ring

theorem norm_cov (psd : Pix N → ℝ) (hp : ∀ x, 0 ≤ psd x) (pix : ℝ) (k : Pix N) :
    ‖psd2cov psd pix k‖ ≤ variance psd pix := by
  unfold psd2cov dft variance
  rw [norm_mul, Complex.norm_real, Real.norm_eq_abs, abs_of_nonneg (sq_nonneg _), mul_comm]
  refine mul_le_mul_of_nonneg_left ((norm_sum_le _ _).trans ?_) (sq_nonneg _)
  rw [← Equiv.sum_comp (Equiv.subRight (centre N)) psd]
  refine sum_le_sum fun x _ => ?_
  rw [norm_mul]
  simp only [fftshift, toC, Complex.norm_real, Real.norm_eq_abs, abs_of_nonneg (hp _), Equiv.subRight_apply]
  rw [AddChar.norm_apply, mul_one]

theorem cov_zero (psd : Pix N → ℝ) (pix : ℝ) : psd2cov psd pix 0 = ((variance psd pix : ℝ) : ℂ) := by
  unfold psd2cov dft variance
  rw [← Equiv.sum_comp (Equiv.subRight (centre N)) psd]
  simp only [dot, Prod.fst_zero, Prod.snd_zero, zero_mul, add_zero, neg_zero, AddChar.map_zero_eq_one, mul_one,
    fftshift, toC, Equiv.subRight_apply]
  push_cast; ring

theorem maxC_eq (a : Pix N → ℂ) (k0 : Pix N) (h : ∀ k, Psf.cle (a k) (a k0)) : maxC a = a k0 := by
  unfold maxC
  have e : (univ : Finset (Pix N)).sup' ⟨0, mem_univ _⟩ (fun k => toLex ((a k).re, (a k).im))
      = toLex ((a k0).re, (a k0).im) := by
    apply le_antisymm
    · refine sup'_le _ _ fun k _ => ?_
      rw [Prod.Lex.le_iff]
      exact h k
    · exact le_sup' (fun k => toLex ((a k).re, (a k).im)) (mem_univ k0)
  simp only [e]
  rfl

theorem maxC_cov (psd : Pix N → ℝ) (hp : ∀ x, 0 ≤ psd x) (pix : ℝ) :
    maxC (psd2cov psd pix) = ((variance psd pix : ℝ) : ℂ) := by
  rw [← cov_zero]
  refine maxC_eq _ _ fun k => ?_
  rw [cov_zero]
  have hn := norm_cov psd hp pix k
  have hr := Complex.re_le_norm (psd2cov psd pix k)
  unfold Psf.cle
  rw [Complex.ofReal_re, Complex.ofReal_im]
  rcases lt_or_eq_of_le (hr.trans hn) with h | h
  · exact Or.inl h
  · refine Or.inr ⟨h, ?_⟩
    have h1 : (psd2cov psd pix k).re = ‖psd2cov psd pix k‖ := le_antisymm hr (hn.trans h.ge)
    have h2 := Complex.sq_norm_sub_sq_re (psd2cov psd pix k)
    rw [← h1, sub_self] at h2
    exact (pow_eq_zero_iff two_ne_zero |>.1 h2.symm).le

theorem otf_eq (psd : Pix N → ℝ) (hp : ∀ x, 0 ≤ psd x) (pix : ℝ) (k : Pix N) :
    psd2otf psd pix k = ((Real.exp ((psd2cov psd pix k).re - variance psd pix) : ℝ) : ℂ) := by
  unfold psd2otf sf2otf cov2sf
  rw [maxC_cov psd hp, sub_sub, Complex.add_conj, Complex.ofReal_exp]
  congr 1
  push_cast; ring


/-- Index of the frequency at which `psd2cov` reads pixel `m` of an axis of the PSD: the zero frequency of an array
of even size is pixel `N/2`; for odd sizes it is taken one pixel too far. -/
noncomputable def freqIdx (N m : ℕ) : ℤ := (m : ℤ) - (N / 2 : ℕ) - (if N % 2 = 0 then 0 else 1)

theorem cov_cos (psd : Pix N → ℝ) (pix : ℝ) (k : Pix N) :
    (psd2cov psd pix k).re = pix ^ 2 * ∑ x : Pix N, psd x *
      Real.cos (2 * Real.pi * ((freqIdx N x.1.val * k.1.val + freqIdx N x.2.val * k.2.val : ℤ) : ℝ) / N) := by
  have hz : ∀ m : ZMod N, m + ((N / 2 : ℕ) : ZMod N) = ((freqIdx N m.val : ℤ) : ZMod N) := by
    intro m
    unfold freqIdx
    have : ((N / 2 : ℕ) : ZMod N) + ((N / 2 : ℕ) : ZMod N) = -((if N % 2 = 0 then (0:ℤ) else 1 : ℤ) : ZMod N) := by
      split_ifs with h
      · rw [← Nat.cast_add, show N / 2 + N / 2 = N by omega, ZMod.natCast_self]; simp
      · have h1 : ((N / 2 + N / 2 + 1 : ℕ) : ZMod N) = 0 := by
          rw [show N / 2 + N / 2 + 1 = N by omega, ZMod.natCast_self]
        push_cast at h1 ⊢
        linear_combination h1
    rw [Int.cast_sub, Int.cast_sub, Int.cast_natCast, Int.cast_natCast, ZMod.natCast_zmod_val]
    linear_combination this
  unfold psd2cov
  rw [Complex.re_mul_ofReal, mul_comm]
  congr 1
  unfold dft
  rw [Complex.re_sum, ← Equiv.sum_comp (Equiv.addRight (centre N))]
  refine sum_congr rfl fun x _ => ?_
  simp only [Equiv.coe_addRight, fftshift, toC, add_sub_cancel_right]
  rw [Complex.re_ofReal_mul]
  congr 1
  have e : -dot k (x + centre N) = ((-(freqIdx N x.1.val * k.1.val + freqIdx N x.2.val * k.2.val) : ℤ) : ZMod N) := by
    unfold dot centre
    simp only [Prod.fst_add, Prod.snd_add, hz]
    push_cast
    rw [ZMod.natCast_zmod_val, ZMod.natCast_zmod_val]
    ring
  rw [e, ZMod.stdAddChar_coe]
  generalize freqIdx N x.1.val * k.1.val + freqIdx N x.2.val * k.2.val = j
  have e2 : (2 * Real.pi * Complex.I * ((-j : ℤ) : ℂ) / N : ℂ) = ((-(2 * Real.pi * j / N) : ℝ) : ℂ) * Complex.I := by
    push_cast; ring
  rw [e2, Complex.exp_ofReal_mul_I_re, Real.cos_neg]

/-- C229: the OTF obtained from a non-negative PSD. -/
theorem otf_spec (psd : Pix N → ℝ) (hp : ∀ x, 0 ≤ psd x) (pix : ℝ) :
    ∃ otf : Pix N → ℝ, (∀ k, psd2otf psd pix k = (otf k : ℂ)) ∧ otf 0 = 1 ∧ (∀ k, 0 < otf k ∧ otf k ≤ 1) ∧
      (∀ k, Real.exp (-(2 * (pix ^ 2 * ∑ x, psd x))) ≤ otf k) ∧
      ∀ k, otf k = Real.exp (-(pix ^ 2 * ∑ x : Pix N, psd x *
        (1 - Real.cos (2 * Real.pi * ((freqIdx N x.1.val * k.1.val + freqIdx N x.2.val * k.2.val : ℤ) : ℝ) / N)))) := by
  refine ⟨fun k => Real.exp ((psd2cov psd pix k).re - variance psd pix), otf_eq psd hp pix, ?_, ?_, ?_, ?_⟩
  · simp only [cov_zero, Complex.ofReal_re, sub_self, Real.exp_zero]
  · intro k
    refine ⟨Real.exp_pos _, Real.exp_le_one_iff.2 ?_⟩
    have := (Complex.re_le_norm _).trans (norm_cov psd hp pix k)
    linarith
  · intro k
    apply Real.exp_le_exp.2
    have := (Complex.abs_re_le_norm _).trans (norm_cov psd hp pix k)
    have := (abs_le.1 this).1
    unfold variance at this ⊢
    linarith
  · intro k
    beta_reduce
    congr 1
    rw [cov_cos]
    unfold variance
    simp only [mul_sub, mul_one, sum_sub_distrib]
    ring

theorem psf_odd_raw (psd : Pix N → ℝ) (hp : ∀ x, 0 ≤ psd x) (pix : ℝ) (hN : N % 2 = 1) (x : Pix N) :
    HasSum (fun n : ℕ => Real.exp (-variance psd pix) * (convPow (evenPart psd pix) n (x - centre N) / n.factorial))
      (psfRaw (fftshift (psd2otf psd pix)) false x) := by
  rw [psfRaw_idft]
  have e : (fun k => fftshift (psd2otf psd pix) (k + centre N) * ph false (k + centre N)) =
      fun k => ((Real.exp (-variance psd pix) : ℝ) : ℂ) * Complex.exp (dft (toC (evenPart psd pix)) k) := by
    ext k
    have : ¬ (N % 2 = 0 ∧ false = false) := by omega
    unfold ph
    rw [if_neg this, mul_one]
    unfold fftshift
    rw [add_sub_cancel_right, otf_eq psd hp, ← cov_re, ← Complex.ofReal_exp, ← Complex.ofReal_mul, ← Real.exp_add]
    congr 2; ring
  rw [e, idft_smul]
  have h := (idft_exp (evenPart psd pix) (x - centre N)).mul_left ((Real.exp (-variance psd pix) : ℝ) : ℂ)
  have h2 := Complex.hasSum_re h
  refine h2.congr_fun ?_ |> id
  intro n
  rw [← Complex.ofReal_mul, Complex.ofReal_re]


/-- C230: the PSF obtained from a non-negative PSD on an array of odd size. -/
theorem psf_odd (psd : Pix N → ℝ) (hp : ∀ x, 0 ≤ psd x) (pix : ℝ) (hN : N % 2 = 1) :
    ∃ psf : Pix N → ℝ, psd2psf psd pix = some psf ∧ ∑ x, psf x = 1 ∧ (∀ x, 0 ≤ psf x) ∧
      (∀ x, psf x ≤ psf (centre N)) ∧ Real.exp (-(pix ^ 2 * ∑ x, psd x)) ≤ psf (centre N) ∧
      ∀ x, Real.exp (-(pix ^ 2 * ∑ x, psd x)) * (pix ^ 2 * (psd (x + 1) + psd (-x)) / 2) ≤ psf x := by
  have hc : fftshift (psd2otf psd pix) (centre N) = 1 := by
    unfold fftshift
    rw [sub_self, otf_eq psd hp, cov_zero, Complex.ofReal_re, sub_self, Real.exp_zero, Complex.ofReal_one]
  have hs : ∑ x, psfRaw (fftshift (psd2otf psd pix)) false x = 1 := by
    rw [sum_psfRaw, hc, Complex.one_re]
  have h2 : centre N + centre N = -1 := by
    unfold centre
    have : (((N / 2 : ℕ) : ZMod N)) + ((N / 2 : ℕ) : ZMod N) = -1 := by
      have h1 : ((N / 2 + N / 2 + 1 : ℕ) : ZMod N) = 0 := by
        rw [show N / 2 + N / 2 + 1 = N by omega, ZMod.natCast_self]
      push_cast at h1 ⊢
      linear_combination h1
    rw [Prod.mk_add_mk, this]; rfl
  have ha : ∀ x, 0 ≤ evenPart psd pix x := fun x => by
    unfold evenPart
    have := hp (x - centre N); have := hp (-x - centre N)
    positivity
  have hterm : ∀ x n, 0 ≤ Real.exp (-variance psd pix) *
      (convPow (evenPart psd pix) n (x - centre N) / n.factorial) := fun x n =>
    mul_nonneg (Real.exp_pos _).le (div_nonneg (convPow_nonneg _ ha n _) (Nat.cast_nonneg _))
  refine ⟨psfRaw (fftshift (psd2otf psd pix)) false, ?_, hs, ?_, ?_, ?_, ?_⟩
  · unfold psd2psf otf2psf
    simp only [hs, one_ne_zero, if_false, div_one]
  · intro x
    exact (psf_odd_raw psd hp pix hN x).nonneg (hterm x)
  · intro x
    rw [psfRaw_idft, psfRaw_idft]
    unfold idft
    rw [one_div, ← Complex.ofReal_natCast, ← Complex.ofReal_pow, ← Complex.ofReal_inv, Complex.re_ofReal_mul,
      Complex.re_ofReal_mul]
    refine mul_le_mul_of_nonneg_left ?_ (by positivity)
    rw [Complex.re_sum, Complex.re_sum]
    refine sum_le_sum fun k _ => ?_
    have : ¬ (N % 2 = 0 ∧ false = false) := by omega
    unfold ph
    beta_reduce
    rw [if_neg this, mul_one]
    unfold fftshift
    rw [add_sub_cancel_right, otf_eq psd hp, Complex.re_ofReal_mul, Complex.re_ofReal_mul]
    refine mul_le_mul_of_nonneg_left ?_ (Real.exp_pos _).le
    rw [sub_self]
    have : dot k (0 : Pix N) = 0 := by simp [dot]
    rw [this, AddChar.map_zero_eq_one, Complex.one_re]
    refine (Complex.re_le_norm _).trans ?_
    rw [AddChar.norm_apply]
  · have := le_hasSum (psf_odd_raw psd hp pix hN (centre N)) 0 fun n _ => hterm _ n
    simpa [convPow, variance] using this
  · intro x
    have := le_hasSum (psf_odd_raw psd hp pix hN x) 1 fun n _ => hterm _ n
    refine le_trans (le_of_eq ?_) this
    have e1 : x + 1 = x - centre N - centre N := by
      rw [sub_sub, h2]; simp
    have e2 : -x = -(x - centre N) - centre N := by abel
    have e3 : convPow (evenPart psd pix) 1 (x - centre N) = evenPart psd pix (x - centre N) := by
      unfold convPow convPow
      rw [sum_eq_single 0 (fun y _ hy => by simp [hy]) (by simp)]
      simp
    rw [e3]
    unfold evenPart variance
    rw [← e1, ← e2]
    simp

theorem geom_unit (N : ℕ) (h : ℕ) (hN : N = 2 * h) (s : ℝ) (hs : Complex.exp (2 * Real.pi * s * Complex.I) = -1)
    (h1 : Complex.exp (2 * Real.pi * s / N * Complex.I) ≠ 1) (h0 : h ≠ 0) :
    ∑ m ∈ range N, Complex.exp (2 * Real.pi * Complex.I * (((m:ℂ) - h) * s / N)) =
      Complex.exp (-(Real.pi * s * Complex.I)) * 2 / (1 - Complex.exp (2 * Real.pi * s / N * Complex.I)) := by
  have hN0 : (N : ℂ) ≠ 0 := Nat.cast_ne_zero.2 (by omega)
  have hh : (h : ℂ) = N / 2 := by rw [hN]; push_cast; ring
  have e : ∀ m : ℕ, Complex.exp (2 * Real.pi * Complex.I * (((m:ℂ) - h) * s / N)) =
      Complex.exp (-(Real.pi * s * Complex.I)) * Complex.exp (2 * Real.pi * s / N * Complex.I) ^ m := by
    intro m
    rw [← Complex.exp_nat_mul, ← Complex.exp_add]
    congr 1
    rw [hh]
    field_simp
    ring
  simp only [e]
  rw [← mul_sum, geom_sum_eq h1, ← Complex.exp_nat_mul]
  have : (N : ℂ) * (2 * Real.pi * s / N * Complex.I) = 2 * Real.pi * s * Complex.I := by field_simp
  rw [this, hs]
  have h2 : (1 : ℂ) - Complex.exp (2 * Real.pi * s / N * Complex.I) ≠ 0 := sub_ne_zero.2 (Ne.symm h1)
  have h3 : Complex.exp (2 * Real.pi * s / N * Complex.I) - 1 ≠ 0 := sub_ne_zero.2 h1
  clear e this
  generalize Complex.exp (2 * Real.pi * s / N * Complex.I) = r at h2 h3 ⊢
  field_simp
  ring

/-- C231: even sizes, the half-pixel shift makes some pixels negative, already without any aberration. -/
theorem psf_even_negative (h : ℕ) (hh : 2 ≤ h) (hN : N = 2 * h) (pix : ℝ) :
    ∃ psf : Pix N → ℝ, psd2psf (fun _ : Pix N => 0) pix = some psf ∧ ∑ x, psf x = 1 ∧
      psf (((h - 2 : ℕ) : ZMod N), (h : ZMod N)) < 0 := by
  have ho : fftshift (psd2otf (fun _ : Pix N => 0) pix) = fun _ => 1 := by
    ext k
    unfold fftshift
    rw [otf_eq _ (fun _ => le_rfl), cov_cos]
    simp [variance]
  have hs : ∑ x, psfRaw (fftshift (psd2otf (fun _ : Pix N => 0) pix)) false x = 1 := by
    rw [sum_psfRaw, ho, Complex.one_re]
  refine ⟨psfRaw (fftshift (psd2otf (fun _ : Pix N => 0) pix)) false, ?_, hs, ?_⟩
  · unfold psd2psf otf2psf
    simp only [hs, one_ne_zero, if_false, div_one]
  · rw [psfRaw_sum, ho]
    have hN2 : N / 2 = h := by omega
    have hv : (((h - 2 : ℕ) : ZMod N)).val = h - 2 := ZMod.val_cast_of_lt (by omega)
    have hv0 : ((h : ZMod N)).val = h := ZMod.val_cast_of_lt (by omega)
    have hp : halfPix N false = 1 / 2 := by unfold halfPix; rw [if_pos ⟨by omega, rfl⟩]
    simp only [hv, hv0, hN2, hp, one_mul]
    have hR : (N : ℝ) ≠ 0 := Nat.cast_ne_zero.2 (NeZero.ne N)
    have hC : (N : ℂ) ≠ 0 := Nat.cast_ne_zero.2 (NeZero.ne N)
    have e1 : ∀ m l : ℕ, Complex.exp (2 * Real.pi * Complex.I * (((((m:ℝ) - h) * (((h - 2 : ℕ) : ℝ) - h + 1 / 2) +
        ((l:ℝ) - h) * ((h : ℝ) - h + 1 / 2)) / N : ℝ) : ℂ)) =
        Complex.exp (2 * Real.pi * Complex.I * (((m:ℂ) - h) * ((-3 / 2 : ℝ) : ℂ) / N)) *
        Complex.exp (2 * Real.pi * Complex.I * (((l:ℂ) - h) * ((1 / 2 : ℝ) : ℂ) / N)) := by
      intro m l
      rw [← Complex.exp_add, Nat.cast_sub hh]
      congr 1
      push_cast
      ring
    simp only [e1]
    rw [← sum_mul_sum]
    set θ : ℝ := Real.pi / N with hθ
    have hθ0 : 0 < θ := div_pos Real.pi_pos (by rw [hN]; positivity)
    have hθ1 : θ ≤ Real.pi / 4 := by
      rw [hθ]
      apply div_le_div_of_nonneg_left Real.pi_pos.le (by norm_num)
      have : (4:ℕ) ≤ N := by omega
      exact_mod_cast this
    have s1 : (2 * Real.pi * ((-3 / 2 : ℝ) : ℂ) / N * Complex.I : ℂ) = ((-(3 * θ) : ℝ) : ℂ) * Complex.I := by
      rw [hθ]; push_cast; field_simp
    have s2 : (2 * Real.pi * ((1 / 2 : ℝ) : ℂ) / N * Complex.I : ℂ) = ((θ : ℝ) : ℂ) * Complex.I := by
      rw [hθ]; push_cast; field_simp
    have ne1 : Complex.exp (((-(3 * θ) : ℝ) : ℂ) * Complex.I) ≠ 1 := by
      intro hc
      have := congrArg Complex.im hc
      rw [Complex.exp_ofReal_mul_I_im, Real.sin_neg] at this
      have p := Real.sin_pos_of_pos_of_lt_pi (x := 3 * θ) (by linarith) (by linarith [Real.pi_pos])
      simp at this; linarith
    have ne2 : Complex.exp ((θ : ℂ) * Complex.I) ≠ 1 := by
      intro hc
      have := congrArg Complex.im hc
      rw [Complex.exp_ofReal_mul_I_im] at this
      have p := Real.sin_pos_of_pos_of_lt_pi (x := θ) (by linarith) (by linarith [Real.pi_pos])
      simp at this; linarith
    have m1 : Complex.exp (2 * Real.pi * ((-3 / 2 : ℝ) : ℂ) * Complex.I) = -1 := by
      have : (2 * Real.pi * ((-3 / 2 : ℝ) : ℂ) * Complex.I : ℂ) = Real.pi * Complex.I - (2 : ℤ) * (2 * Real.pi * Complex.I) := by
        push_cast; ring
      rw [this, Complex.exp_sub, Complex.exp_int_mul_two_pi_mul_I, div_one, Complex.exp_pi_mul_I]
    have m2 : Complex.exp (2 * Real.pi * ((1 / 2 : ℝ) : ℂ) * Complex.I) = -1 := by
      have : (2 * Real.pi * ((1 / 2 : ℝ) : ℂ) * Complex.I : ℂ) = Real.pi * Complex.I := by
        push_cast; ring
      rw [this, Complex.exp_pi_mul_I]
    rw [geom_unit N h hN _ m1 (by rw [s1]; exact ne1) (by omega), geom_unit N h hN _ m2 (by rw [s2]; exact ne2) (by omega), s1, s2]
    have pr : Complex.exp (-(Real.pi * ((-3 / 2 : ℝ) : ℂ) * Complex.I)) * Complex.exp (-(Real.pi * ((1 / 2 : ℝ) : ℂ) * Complex.I)) = -1 := by
      rw [← Complex.exp_add, ← Complex.exp_pi_mul_I]
      congr 1; push_cast; ring
    set z1 := 1 - Complex.exp (((-(3 * θ) : ℝ) : ℂ) * Complex.I) with hz1
    set z2 := 1 - Complex.exp ((θ : ℂ) * Complex.I) with hz2
    have z10 : z1 ≠ 0 := sub_ne_zero.2 (Ne.symm ne1)
    have z20 : z2 ≠ 0 := sub_ne_zero.2 (Ne.symm ne2)
    have e2 : ∀ a b : ℂ, a * b = -1 → 1 / (N : ℂ) ^ 2 * (a * 2 / z1 * (b * 2 / z2)) =
        ((-(4 / (N:ℝ) ^ 2) : ℝ) : ℂ) * (z1 * z2)⁻¹ := by
      intro a b hab
      have : a * 2 / z1 * (b * 2 / z2) = a * b * 4 * (z1 * z2)⁻¹ := by field_simp; ring
      rw [this, hab]; push_cast; field_simp
    rw [e2 _ _ pr, Complex.re_ofReal_mul, Complex.inv_re]
    have hre : (z1 * z2).re = 2 * Real.cos θ * (Real.cos θ - Real.cos (2 * θ)) := by
      rw [Complex.mul_re, hz1, hz2]
      simp only [Complex.sub_re, Complex.sub_im, Complex.one_re, Complex.one_im, Complex.exp_ofReal_mul_I_re,
        Complex.exp_ofReal_mul_I_im, Real.cos_neg, Real.sin_neg, Real.cos_three_mul, Real.sin_three_mul, Real.cos_two_mul]
      have := Real.sin_sq_add_cos_sq θ
      have h3 : Real.sin θ ^ 2 = 1 - Real.cos θ ^ 2 := by linarith
      have h4 : Real.sin θ ^ 4 = (1 - Real.cos θ ^ 2) ^ 2 := by rw [← h3]; ring
      ring_nf
      rw [h4, h3]; ring
    have hcos : 0 < Real.cos θ := Real.cos_pos_of_mem_Ioo ⟨by linarith [Real.pi_pos], by linarith [Real.pi_pos]⟩
    have hlt : Real.cos (2 * θ) < Real.cos θ :=
      Real.cos_lt_cos_of_nonneg_of_le_pi hθ0.le (by linarith [Real.pi_pos]) (by linarith)
    have hpos : 0 < (z1 * z2).re / Complex.normSq (z1 * z2) := by
      apply div_pos
      · rw [hre]
        have : 0 < Real.cos θ - Real.cos (2 * θ) := by linarith
        positivity
      · exact Complex.normSq_pos.2 (mul_ne_zero z10 z20)
    have : 0 < 4 / (N:ℝ) ^ 2 := by positivity
    nlinarith


/-- C232: a piston (a PSD limited to its central pixel) has no effect for even sizes; for odd sizes it lowers
the OTF. -/
theorem piston (c pix : ℝ) (hc : 0 ≤ c) :
    (N % 2 = 0 → ∀ k, psd2otf (fun x : Pix N => if x = centre N then c else 0) pix k = 1) ∧
    (N % 2 = 1 → 3 ≤ N → psd2otf (fun x : Pix N => if x = centre N then c else 0) pix (1, 0) =
      ((Real.exp (-(pix ^ 2 * c * (1 - Real.cos (2 * Real.pi / N)))) : ℝ) : ℂ)) ∧
    (N % 2 = 1 → 3 ≤ N → Real.cos (2 * Real.pi / N) < 1) := by
  obtain ⟨otf, h1, -, -, -, h2⟩ := otf_spec (fun x : Pix N => if x = centre N then c else 0)
    (fun x => by split_ifs <;> simp [hc]) pix
  have v := val_centre (N := N)
  have hsum : ∀ g : Pix N → ℝ, ∑ x : Pix N, (if x = centre N then c else 0) * g x = c * g (centre N) := by
    intro g
    simp only [ite_mul, zero_mul, sum_ite_eq', mem_univ, if_true]
  refine ⟨fun he k => ?_, fun he h3 => ?_, fun _ h3 => ?_⟩
  · rw [h1, h2, hsum, v.1, v.2]
    simp [freqIdx, he]
  · rw [h1, h2, hsum, v.1, v.2]
    have hf : freqIdx N (N / 2) = -1 := by
      unfold freqIdx
      rw [if_neg (by omega)]; ring
    have o : ((1 : ZMod N)).val = 1 := by
      have : Fact (1 < N) := ⟨by omega⟩
      exact ZMod.val_one N
    rw [hf]
    simp only [ZMod.val_zero, o]
    congr 3
    have : (2 * Real.pi * ((-1 * ((1 : ℕ) : ℤ) + -1 * ((0 : ℕ) : ℤ) : ℤ) : ℝ) / N) = -(2 * Real.pi / N) := by
      push_cast; ring
    rw [this, Real.cos_neg]; ring
  · have h3' : (3 : ℝ) ≤ N := by exact_mod_cast h3
    have hp : 0 < 2 * Real.pi / N := by positivity
    have hl : 2 * Real.pi / N ≤ Real.pi := by
      rw [div_le_iff₀ (by linarith)]
      nlinarith [Real.pi_pos]
    have := Real.cos_lt_cos_of_nonneg_of_le_pi le_rfl hl hp
    rwa [Real.cos_zero] at this

theorem sfOf_eq (psd : Pix N → ℝ) (hp : ∀ x, 0 ≤ psd x) (pix : ℝ) (x : Pix N) :
    sfOf psd pix x = 2 * (variance psd pix - (psd2cov psd pix (x - centre N)).re) := by
  unfold sfOf fftshift cov2sf
  rw [maxC_cov psd hp, sub_sub, Complex.add_conj]
  simp
  ring

/-- C233: structure functions of the reconstruction. -/
theorem sfOf_spec (psd : Pix N → ℝ) (hp : ∀ x, 0 ≤ psd x) (pix : ℝ) :
    sfOf psd pix (centre N) = 0 ∧ (∀ x, 0 ≤ sfOf psd pix x) ∧
    (∀ x, sfOf psd pix x ≤ 4 * (pix ^ 2 * ∑ y, psd y)) ∧
    ∀ a b : ℤ, N % 2 = 0 → sfOf psd pix (at' N a b) = 2 * (pix ^ 2 * ∑ f : Pix N, psd f *
      (1 - Real.cos (2 * Real.pi * (((f.1.val : ℝ) - N / 2) * a + ((f.2.val : ℝ) - N / 2) * b) / N))) := by
  have hb : ∀ x, |(psd2cov psd pix x).re| ≤ variance psd pix := fun x =>
    (Complex.abs_re_le_norm _).trans (norm_cov psd hp pix x)
  refine ⟨?_, fun x => ?_, fun x => ?_, fun a b he => ?_⟩
  · rw [sfOf_eq psd hp, sub_self, cov_zero]; simp
  · rw [sfOf_eq psd hp]
    have := (abs_le.1 (hb (x - centre N))).2
    linarith
  · rw [sfOf_eq psd hp]
    have := (abs_le.1 (hb (x - centre N))).1
    unfold variance at this ⊢
    linarith
  · rw [sfOf_eq psd hp, cov_cos]
    unfold variance at'
    rw [add_sub_cancel_left]
    simp only [mul_sub, mul_one, sum_sub_distrib]
    congr 4
    ext f
    congr 1
    have hN : (N : ℝ) ≠ 0 := Nat.cast_ne_zero.2 (NeZero.ne N)
    have h2 : ((N / 2 : ℕ) : ℝ) = N / 2 := by
      rw [Nat.cast_div (by omega) (by norm_num)]; simp
    obtain ⟨p, hpz⟩ : ∃ p : ℤ, (((a : ZMod N)).val : ℤ) = a + p * N := by
      refine ⟨-(a / N), ?_⟩
      rw [ZMod.val_intCast]
      have := Int.emod_add_mul_ediv a N
      linarith
    obtain ⟨q, hqz⟩ : ∃ q : ℤ, (((b : ZMod N)).val : ℤ) = b + q * N := by
      refine ⟨-(b / N), ?_⟩
      rw [ZMod.val_intCast]
      have := Int.emod_add_mul_ediv b N
      linarith
    rw [hpz, hqz]
    unfold freqIdx
    rw [if_pos he]
    generalize hm : f.1.val = m
    generalize hl : f.2.val = l
    have : (2 * Real.pi * (((((m:ℤ) - (N / 2 : ℕ) - 0) * (a + p * N) + ((l:ℤ) - (N / 2 : ℕ) - 0) * (b + q * N) : ℤ)) : ℝ) / N) =
        2 * Real.pi * (((m : ℝ) - N / 2) * a + ((l : ℝ) - N / 2) * b) / N +
          ((((m:ℤ) - (N / 2 : ℕ)) * p + ((l:ℤ) - (N / 2 : ℕ)) * q : ℤ) : ℝ) * (2 * Real.pi) := by
      rw [← h2]
      generalize N / 2 = H
      push_cast
      field_simp
      ring
    rw [this, Real.cos_add_int_mul_two_pi]

theorem sfOf_smul (psd : Pix N → ℝ) (hp : ∀ x, 0 ≤ psd x) (pix c : ℝ) (hc : 0 ≤ c) (x : Pix N) :
    sfOf (fun y => c * psd y) pix x = c * sfOf psd pix x := by
  rw [sfOf_eq _ (fun y => mul_nonneg hc (hp y)), sfOf_eq psd hp, cov_cos, cov_cos]
  unfold variance
  simp only [mul_assoc, ← mul_sum]
  ring

/-- C234: the fitting and aliasing structure functions are those of the PSD, with frequencies in steps of `1/(D samp)`: at a
separation of `(a, b)` pixels each is twice the integral of the PSD times `1 - cos`. -/
theorem sf_values (n p : ℕ) (kolmo : Pix N → ℝ) (al : ℕ → ℕ → ℝ) (D samp r0 r1 : ℝ) (hk : ∀ x, 0 ≤ kolmo x)
    (ha : ∀ i j, 0 ≤ al i j) (h0 : 0 < r0) (h1 : 0 < r1) (a b : ℤ) (hN : N % 2 = 0) :
    fittingSf kolmo D samp r0 (at' N a b) = 2 * r0 ^ (-(5:ℝ) / 3) * ∑ f : Pix N, kolmo f *
      (1 - Real.cos (2 * Real.pi * (((f.1.val : ℝ) - N / 2) * a + ((f.2.val : ℝ) - N / 2) * b) / N)) / (D * samp) ^ 2 ∧
    aliasingSf (N := N) n p al D samp r1 r0 (at' N a b) = 2 * (r0 / r1) ^ (-(5:ℝ) / 3) * ∑ f : Pix N, padded n p al f *
      (1 - Real.cos (2 * Real.pi * (((f.1.val : ℝ) - N / 2) * a + ((f.2.val : ℝ) - N / 2) * b) / N)) / (D * samp) ^ 2 := by
  have p0 : (0:ℝ) < r0 ^ (-(5:ℝ) / 3) := Real.rpow_pos_of_pos h0 _
  have p1 : (0:ℝ) < r1 ^ (-(5:ℝ) / 3) := Real.rpow_pos_of_pos h1 _
  constructor
  · unfold fittingSf
    rw [(sfOf_spec _ (fun x => mul_nonneg p0.le (hk x)) _).2.2.2 a b hN, mul_sum, mul_sum, mul_sum]
    refine sum_congr rfl fun f _ => ?_
    rw [one_div, inv_pow]
    ring
  · have hpad : ∀ f : Pix N, padded n p (fun i j => al i j / r1 ^ (-(5:ℝ) / 3)) f = padded n p al f / r1 ^ (-(5:ℝ) / 3) := by
      intro f
      unfold padded Otf.ext
      split_ifs <;> simp
    have hnn : ∀ f : Pix N, 0 ≤ padded n p (fun i j => al i j / r1 ^ (-(5:ℝ) / 3)) f := by
      intro f
      unfold padded Otf.ext
      split_ifs
      · exact div_nonneg (ha _ _) p1.le
      · exact le_rfl
    unfold aliasingSf
    rw [(sfOf_spec _ hnn _).2.2.2 a b hN, Real.div_rpow h0.le h1.le, mul_sum, mul_sum, mul_sum, mul_sum]
    refine sum_congr rfl fun f _ => ?_
    rw [hpad, one_div, inv_pow]
    field_simp

/-- C234: the fitting and aliasing structure functions are proportional to `r0^(-5/3)`; the aliasing one does
not depend on the Fried parameter of the system when the aliasing PSD scales with it. -/
theorem sf_scaling (n p : ℕ) (kolmo : Pix N → ℝ) (al : ℕ → ℕ → ℝ) (D samp r0 r1 : ℝ) (hk : ∀ x, 0 ≤ kolmo x)
    (h0 : 0 < r0) (h1 : 0 < r1) (x : Pix N) :
    fittingSf kolmo D samp r0 x = (r0 / r1) ^ (-(5:ℝ) / 3) * fittingSf kolmo D samp r1 x ∧
    aliasingSf (N := N) n p al D samp r1 r0 x = (r0 / r1) ^ (-(5:ℝ) / 3) * aliasingSf (N := N) n p al D samp r1 r1 x ∧
    aliasingSf (N := N) n p (fun i j => r0 ^ (-(5:ℝ) / 3) * al i j) D samp r0 r1 x =
      aliasingSf (N := N) n p (fun i j => r1 ^ (-(5:ℝ) / 3) * al i j) D samp r1 r1 x := by
  have p0 : (0:ℝ) < r0 ^ (-(5:ℝ) / 3) := Real.rpow_pos_of_pos h0 _
  have p1 : (0:ℝ) < r1 ^ (-(5:ℝ) / 3) := Real.rpow_pos_of_pos h1 _
  refine ⟨?_, ?_, ?_⟩
  · unfold fittingSf
    rw [sfOf_smul kolmo hk _ _ p0.le, sfOf_smul kolmo hk _ _ p1.le, Real.div_rpow h0.le h1.le]
    field_simp
  · unfold aliasingSf
    rw [Real.div_rpow h0.le h1.le]
    field_simp
  · unfold aliasingSf
    simp only [mul_div_cancel_left₀ _ p0.ne', mul_div_cancel_left₀ _ p1.ne']

/-- Non-vacuity: a flat PSD on 5 x 5 pixels. -/
example : ∃ psf : Pix 5 → ℝ, psd2psf (fun _ => 1) 1 = some psf ∧ ∀ x, 0 < psf x := by
  obtain ⟨psf, h1, -, -, -, -, h2⟩ := psf_odd (fun _ : Pix 5 => 1) (fun _ => zero_le_one) 1 (by norm_num)
  refine ⟨psf, h1, fun x => lt_of_lt_of_le ?_ (h2 x)⟩
  positivity

/-- Non-vacuity of `psf_even_negative`. -/
example : ∃ psf : Pix 4 → ℝ, psd2psf (fun _ => 0) 1 = some psf ∧ psf (0, 2) < 0 := by
  obtain ⟨psf, h1, -, h2⟩ := psf_even_negative (N := 4) 2 le_rfl rfl 1
  exact ⟨psf, h1, by simpa using h2⟩

theorem padOf_exact (n p : ℕ) (k : ℝ) (h : k * n = n + 2 * p) : padOf n k = p := by
  unfold padOf
  have : (k - 1) * n / 2 = (p : ℝ) := by linarith
  rw [this]
  simp [P3.Images.trunc]

/-- C235: for a sampling of two pixels per `lambda/D` or more (and an exact padding), the PSF has the size of the
pupil and pixels of `lambda/(samp D)`. -/
theorem telescopePsf_sampling (n p : ℕ) (hn : 0 < n) (samp : ℝ) (h2 : 2 ≤ samp) (h : samp * n = n + 2 * p) :
    telescopePsfGrid n samp = ⟨n, 1 / samp⟩ := by
  have hn' : (n : ℝ) ≠ 0 := Nat.cast_ne_zero.2 hn.ne'
  have hs : samp ≠ 0 := by linarith
  unfold telescopePsfGrid Samp.enlarge Samp.interp Samp.transform
  simp only [h2, if_true, padOf_exact n p samp h, Int.toNat_natCast]
  congr 1
  push_cast
  rw [← h]
  field_simp

/-- C308 refuted below two pixels per `lambda/D`: the pixels are `lambda/(2 samp D)`, half of what was asked. -/
theorem telescopePsf_undersampled (h m : ℕ) (hh : 0 < h) (samp : ℝ) (h0 : 0 < samp) (h2 : samp < 2)
    (hm : samp * m = 2 * h) : telescopePsfGrid (2 * h) samp = ⟨2 * h, 1 / (2 * samp)⟩ := by
  have hh' : (h : ℝ) ≠ 0 := Nat.cast_ne_zero.2 hh.ne'
  have hm0 : (m : ℝ) ≠ 0 := by
    intro hc; rw [hc, mul_zero] at hm; apply hh'; linarith
  have e : ((2 * h : ℕ) : ℝ) / samp = m := by
    rw [div_eq_iff h0.ne', mul_comm (m : ℝ), hm]; push_cast; ring
  unfold telescopePsfGrid Samp.enlarge Samp.interp Samp.transform
  simp only [not_le.2 h2, if_false, padOf_exact (2 * h) h 2 (by push_cast; ring), Int.toNat_natCast, e, Int.floor_natCast]
  congr 1
  push_cast
  have hs : samp = 2 * h / m := by rw [eq_div_iff hm0, hm]
  rw [hs]
  field_simp
  ring

/-- C236: from an OTF sampled over twice the diameter, pixels of `lambda/(2 nq D)` over the requested field. -/
theorem shannon_sampling (s : Samp) (hs : s.points * s.step = 2) (nq : ℝ) (h0 : 0 < nq) (fov p : ℕ) (hf : 0 < fov)
    (hp : 1 < nq → nq * s.points = s.points + 2 * p) (hr : nq < 1 → ∃ m : ℕ, (fov : ℝ) / nq = m) :
    shannonGrid s nq fov = ⟨fov, 1 / (2 * nq)⟩ := by
  have hf' : (fov : ℝ) ≠ 0 := Nat.cast_ne_zero.2 hf.ne'
  unfold shannonGrid
  split_ifs with h1 h2
  · subst h1
    unfold Samp.interp Samp.transform
    congr 1
    rw [mul_comm] at hs
    simp only
    rw [hs]; field_simp
  · unfold Samp.enlarge Samp.interp Samp.transform
    simp only [padOf_exact _ p nq (hp h2), Int.toNat_natCast]
    congr 1
    push_cast
    rw [← hp h2]
    have : s.step * (nq * s.points) = 2 * nq := by rw [← hs]; ring
    rw [this]; field_simp
  · have h3 : nq < 1 := lt_of_le_of_ne (not_lt.1 h2) h1
    obtain ⟨m, hm⟩ := hr h3
    have hm0 : (m : ℝ) ≠ 0 := by
      rw [← hm]; positivity
    have hrm : roundEven (m : ℝ) = m := by
      simp [roundEven]
      norm_num
    unfold Samp.interp Samp.transform
    simp only [hm, hrm, Int.toNat_natCast]
    congr 1
    rw [mul_comm] at hs
    rw [hs]
    have : nq = fov / m := by rw [eq_div_iff hm0, ← hm]; field_simp
    rw [this]; field_simp

/-- Non-vacuity: 16 pixels, samplings of 2 and 1. -/
example : telescopePsfGrid 16 2 = ⟨16, 1 / 2⟩ ∧ telescopePsfGrid 16 1 = ⟨16, 1 / 2⟩ := by
  refine ⟨telescopePsf_sampling 16 8 (by norm_num) 2 le_rfl (by norm_num), ?_⟩
  have := telescopePsf_undersampled 8 16 (by norm_num) 1 one_pos (by norm_num) (by norm_num)
  norm_num at this
  simpa using this

/-- Non-vacuity: 8 points, samplings of 1, 2 and 1/2. -/
example : shannonGrid ⟨8, 1 / 4⟩ 1 10 = ⟨10, 1 / (2 * 1)⟩ ∧ shannonGrid ⟨8, 1 / 4⟩ 2 10 = ⟨10, 1 / (2 * 2)⟩ ∧
    shannonGrid ⟨8, 1 / 4⟩ (1 / 2) 10 = ⟨10, 1 / (2 * (1 / 2))⟩ := by
  refine ⟨shannon_sampling _ (by norm_num) 1 one_pos 10 0 (by norm_num) (by norm_num) (by norm_num),
    shannon_sampling _ (by norm_num) 2 two_pos 10 4 (by norm_num) (by norm_num) (by norm_num),
    shannon_sampling _ (by norm_num) (1 / 2) (by norm_num) 10 0 (by norm_num) (by norm_num) fun _ => ⟨20, by norm_num⟩⟩

/-! ### Cases that meet the hypotheses -/

/-- A case meeting the hypotheses of `sf_values`. -/
example := (sf_values (N := 4) 2 1 (fun _ => 1) (fun i j => i + j) 8 2 0.15 0.2 (fun _ => zero_le_one) (fun i j => by positivity) (by norm_num)
  (by norm_num) 1 0 rfl).1

end P3.PsdPsf
