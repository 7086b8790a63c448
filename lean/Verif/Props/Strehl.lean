import Verif.Model.Strehl
import Verif.Props.PsdPsf
import Verif.Props.Otf
import Verif.Props.Metrics
import Verif.Model.FourierRun
/-
Properties of the Strehl ratios.
-/
namespace P3.Strehl
open Finset P3.Rec P3.Otf P3.PsdPsf P3.Images P3.Metrics

variable {N : ℕ} [NeZero N]

/-! ### C368, C369: Marechal bound, more error means a lower Strehl ratio -/

theorem phaseSf_eq (psd : Pix N → ℝ) (hp : ∀ x, 0 ≤ psd x) (x : Pix N) :
    phaseSf psd x = 2 * ((∑ y, psd y) - (psd2cov psd 1 (x - centre N)).re) := by
  have e : ∀ k, dft (fftshift (toC psd)) k = psd2cov psd 1 k := by
    intro k; unfold psd2cov; simp
  unfold phaseSf fftshift
  simp only [show (fun x => toC psd (x - centre N)) = fftshift (toC psd) from rfl, e]
  rw [maxC_cov psd hp]
  simp [variance]

theorem phaseSf_range (psd : Pix N → ℝ) (hp : ∀ x, 0 ≤ psd x) (x : Pix N) :
    0 ≤ phaseSf psd x ∧ phaseSf psd x ≤ 4 * ∑ y, psd y := by
  have hb : |(psd2cov psd 1 (x - centre N)).re| ≤ variance psd 1 :=
    (Complex.abs_re_le_norm _).trans (norm_cov psd hp 1 _)
  have h := abs_le.1 hb
  unfold variance at h
  rw [phaseSf_eq psd hp]
  constructor <;> nlinarith [h.1, h.2]

theorem phaseSf_add (psd extra : Pix N → ℝ) (hp : ∀ x, 0 ≤ psd x) (he : ∀ x, 0 ≤ extra x) (x : Pix N) :
    phaseSf (fun y => psd y + extra y) x = phaseSf psd x + phaseSf extra x := by
  rw [phaseSf_eq _ (fun y => add_nonneg (hp y) (he y)), phaseSf_eq psd hp, phaseSf_eq extra he, sum_add_distrib]
  have : psd2cov (fun y => psd y + extra y) 1 (x - centre N) =
      psd2cov psd 1 (x - centre N) + psd2cov extra 1 (x - centre N) := by
    unfold psd2cov dft
    rw [← add_mul, ← sum_add_distrib]
    congr 1
    refine sum_congr rfl fun y _ => ?_
    simp only [fftshift, toC]; push_cast; ring
  rw [this, Complex.add_re]; ring

/-- Parseval for the autocorrelation of a real array. -/
theorem dft_corr (a : Pix N → ℝ) (f : Pix N) :
    dft (fun r => ((∑ y, a (y + r) * a y : ℝ) : ℂ)) f = ((Complex.normSq (dft (toC a) f) : ℝ) : ℂ) := by
  have hN : (N : ℂ) ≠ 0 := Nat.cast_ne_zero.2 (NeZero.ne N)
  unfold dft
  rw [← Complex.mul_conj, map_sum, sum_mul_sum]
  have : ∀ r : Pix N, ((∑ y, a (y + r) * a y : ℝ) : ℂ) * ZMod.stdAddChar (-dot f r) =
      ∑ y, (toC a (y + r) * ZMod.stdAddChar (-dot f (y + r))) *
        (starRingEnd ℂ) (toC a y * ZMod.stdAddChar (-dot f y)) := by
    intro r
    push_cast
    rw [sum_mul]
    refine sum_congr rfl fun y _ => ?_
    rw [map_mul, conj_char]
    simp only [toC, Complex.conj_ofReal, neg_neg]
    have : (ZMod.stdAddChar (-dot f r) : ℂ) = ZMod.stdAddChar (-dot f (y + r)) * ZMod.stdAddChar (dot f y) := by
      rw [← AddChar.map_add_eq_mul]
      congr 1
      simp only [dot, Prod.fst_add, Prod.snd_add]; ring
    rw [this]; ring
  simp only [this]
  rw [sum_comm]
  conv_rhs => rw [sum_comm]
  refine sum_congr rfl fun y _ => ?_
  rw [← Equiv.sum_comp (Equiv.addLeft y) (fun z => (toC a z * ZMod.stdAddChar (-dot f z)) *
    (starRingEnd ℂ) (toC a y * ZMod.stdAddChar (-dot f y)))]
  rfl

theorem dlOtf_eq (n p : ℕ) (hN : N = n + 2 * p) (pupil : ℕ → ℕ → ℝ) (hp : ∀ i j, 0 ≤ pupil i j) (x : Pix N) :
    dlOtf n p pupil x = (∑ y : Pix N, padded n p pupil (y + (x - centre N)) * padded n p pupil y) /
      power n pupil := by
  have e : (pupil2otf n p pupil (fun _ _ => 0) x).re =
      (∑ y : Pix N, padded n p pupil (y + (x - centre N)) * padded n p pupil y) / ((N:ℝ) * N) := by
    have : pupil2otf n p pupil (fun _ _ => 0) x =
        (((∑ y : Pix N, padded n p pupil (y + (x - centre N)) * padded n p pupil y) / ((N:ℝ) * N) : ℝ) : ℂ) := by
      rw [pupil2otf_eq n p pupil _ hp]
      push_cast
      congr 1
      refine sum_congr rfl fun y _ => ?_
      have : ∀ z : Pix N, padded n p (field pupil fun _ _ => 0) z = ((padded n p pupil z : ℝ) : ℂ) := by
        intro z; unfold padded Otf.ext field; split_ifs <;> simp
      rw [this, this, Complex.conj_ofReal]
    rw [this, Complex.ofReal_re]
  have hN0 : (N : ℝ) ≠ 0 := Nat.cast_ne_zero.2 (NeZero.ne N)
  unfold dlOtf staticOtf
  rw [maxPix_otf n p hN pupil _ hp, e]
  field_simp

/-- The covariance weighted by the diffraction-limited OTF is not negative: both are transforms of non-negative
arrays. -/
theorem weighted_cov (n p : ℕ) (hN : N = n + 2 * p) (pupil : ℕ → ℕ → ℝ) (hp : ∀ i j, 0 ≤ pupil i j)
    (psd : Pix N → ℝ) (hd : ∀ x, 0 ≤ psd x) :
    0 ≤ ∑ x : Pix N, dlOtf n p pupil x * (psd2cov psd 1 (x - centre N)).re := by
  have h : ((∑ x : Pix N, dlOtf n p pupil x * (psd2cov psd 1 (x - centre N)).re : ℝ) : ℂ) =
      ((∑ f : Pix N, evenPart psd 1 f * Complex.normSq (dft (toC (padded n p pupil)) f) / power n pupil : ℝ) : ℂ) := by
    rw [← Equiv.sum_comp (Equiv.addRight (centre N))]
    simp only [Equiv.coe_addRight, add_sub_cancel_right, dlOtf_eq n p hN pupil hp]
    push_cast
    have : ∀ f : Pix N, ((Complex.normSq (dft (toC (padded n p pupil)) f) : ℝ) : ℂ) =
        dft (fun r => ((∑ y : Pix N, padded n p pupil (y + r) * padded n p pupil y : ℝ) : ℂ)) f := fun f =>
      (dft_corr _ f).symm
    simp only [this, cov_re]
    unfold dft
    simp only [mul_sum, sum_div, toC]
    rw [sum_comm]
    refine sum_congr rfl fun f _ => sum_congr rfl fun r _ => ?_
    push_cast
    rw [show dot r f = dot f r from dot_comm' r f]
    rw [← sum_div]
    ring
  have h' := Complex.ofReal_injective h
  rw [h']
  refine sum_nonneg fun f _ => div_nonneg (mul_nonneg ?_ (Complex.normSq_nonneg _)) (power_nonneg _ _)
  unfold evenPart
  have := hd (f - centre N)
  have := hd (-f - centre N)
  positivity

theorem dlOtf_pos (n p : ℕ) (hN : N = n + 2 * p) (pupil : ℕ → ℕ → ℝ) (hp : ∀ i j, 0 ≤ pupil i j)
    (hne : power n pupil ≠ 0) : (∀ x : Pix N, 0 ≤ dlOtf n p pupil x) ∧ 0 < ∑ x : Pix N, dlOtf n p pupil x := by
  have S := fun x : Pix N => staticOtf_spec n p hN pupil (fun _ _ => 0) hp hne x
  have h0 : ∀ x : Pix N, 0 ≤ dlOtf n p pupil x := fun x => (abs_nonneg _).trans (S x).2.1
  refine ⟨h0, sum_pos' (fun x _ => h0 x) ⟨centre N, mem_univ _, ?_⟩⟩
  rw [(S 0).2.2.2]; exact one_pos

omit [NeZero N] in
/-- Modulus of the total OTF: it does not depend on the position of the source. -/
theorem norm_tot (I : Instr N) (hph : ∀ x, ‖I.phasor x‖ = 1) (sf : Pix N → ℝ) (wvl : ℝ) (x : Pix N) :
    ‖otfTot I sf wvl x‖ = otfTurb (sf x) wvl * |I.ncpa x * I.kjitter x * I.pixel x| := by
  unfold otfTot
  rw [norm_mul, norm_mul, hph, mul_one, Complex.norm_real, Complex.norm_real, Real.norm_eq_abs, Real.norm_eq_abs,
    abs_of_pos (show 0 < otfTurb (sf x) wvl from Real.exp_pos _)]

/-- C368: whatever the spectrum, the pupil, the wavelength and the position of the source, without static
aberrations and jitter the Strehl ratio of the image is at least `100 exp(-s²)`, where `s` is the rms phase at
the wavelength of the image (`∑ psd` is the variance in nm²), and at most 100. -/
theorem marechal_bound (n p : ℕ) (hN : N = n + 2 * p) (pupil : ℕ → ℕ → ℝ) (hp : ∀ i j, 0 ≤ pupil i j)
    (hne : power n pupil ≠ 0) (psd : Pix N → ℝ) (hd : ∀ x, 0 ≤ psd x) (wvl : ℝ) (ph : Pix N → ℂ)
    (hph : ∀ x, ‖ph x‖ = 1) :
    100 * Real.exp (-(∑ x, psd x) * (2 * Real.pi * 1e-9 / wvl) ^ 2) ≤
      sr (perfect (dlOtf n p pupil) ph) (phaseSf psd) wvl (dlOtf n p pupil) ∧
    sr (perfect (dlOtf n p pupil) ph) (phaseSf psd) wvl (dlOtf n p pupil) ≤ 100 := by
  obtain ⟨h0, pos⟩ := dlOtf_pos n p hN pupil hp hne
  set c := (2 * Real.pi * 1e-9 / wvl) ^ 2 with hc
  have c0 : 0 ≤ c := sq_nonneg _
  have e : ∀ x, ‖otfTot (perfect (dlOtf n p pupil) ph) (phaseSf psd) wvl x‖ =
      Real.exp (-(∑ x, psd x) * c) * (Real.exp (c * (psd2cov psd 1 (x - centre N)).re) * dlOtf n p pupil x) := by
    intro x
    rw [norm_tot _ hph]; simp only [perfect]; rw [mul_one, mul_one, abs_of_nonneg (h0 x), otfTurb, ← hc, phaseSf_eq psd hd, ← mul_assoc (Real.exp _)
      (Real.exp _), ← Real.exp_add]
    congr 2; ring
  unfold sr
  constructor
  · rw [le_div_iff₀ pos]
    simp only [e]
    rw [← mul_sum, mul_assoc]
    refine mul_le_mul_of_nonneg_left ?_ (by norm_num)
    refine mul_le_mul_of_nonneg_left ?_ (Real.exp_pos _).le
    have w := weighted_cov n p hN pupil hp psd hd
    calc ∑ x : Pix N, dlOtf n p pupil x
        ≤ ∑ x : Pix N, dlOtf n p pupil x + c * ∑ x : Pix N, dlOtf n p pupil x * (psd2cov psd 1 (x - centre N)).re :=
          le_add_of_nonneg_right (mul_nonneg c0 w)
      _ = ∑ x : Pix N, (c * (psd2cov psd 1 (x - centre N)).re + 1) * dlOtf n p pupil x := by
          rw [mul_sum, ← sum_add_distrib]; exact sum_congr rfl fun x _ => by ring
      _ ≤ _ := sum_le_sum fun x _ => mul_le_mul_of_nonneg_right (Real.add_one_le_exp _) (h0 x)
  · rw [div_le_iff₀ pos]
    refine mul_le_mul_of_nonneg_left (sum_le_sum fun x _ => ?_) (by norm_num)
    rw [norm_tot _ hph, perfect, mul_one, mul_one, abs_of_nonneg (h0 x)]
    refine mul_le_of_le_one_left (h0 x) ?_
    unfold otfTurb
    rw [Real.exp_le_one_iff, ← hc]
    have := mul_nonneg (phaseSf_range psd hd x).1 c0
    nlinarith

/-- C368: the Marechal Strehl ratio of the error breakdown, for a total error equal to that of the spectrum (no static
aberration, jitter or extra error), is a lower bound of the Strehl ratio of the image at the reference wavelength. -/
theorem breakdown_below_image (n p : ℕ) (hN : N = n + 2 * p) (pupil : ℕ → ℕ → ℝ) (hp : ∀ i j, 0 ≤ pupil i j)
    (hne : power n pupil ≠ 0) (psd : Pix N → ℝ) (hd : ∀ x, 0 ≤ psd x) (wvlRef tot : ℝ) (ht : tot ^ 2 = ∑ x, psd x)
    (ph : Pix N → ℂ) (hph : ∀ x, ‖ph x‖ = 1) :
    FRun.marechal wvlRef tot ≤ sr (perfect (dlOtf n p pupil) ph) (phaseSf psd) wvlRef (dlOtf n p pupil) := by
  refine le_trans (le_of_eq ?_) (marechal_bound n p hN pupil hp hne psd hd wvlRef ph hph).1
  unfold FRun.marechal
  rw [← ht]
  congr 2
  ring

/-- C369: an additional error of spectrum `extra` lowers the Strehl ratio, at most by the factor `exp(-2 s²)` for an
rms phase `s`, whatever the static aberrations, the jitter, the pixel and the position. -/
theorem more_error (I : Instr N) (hph : ∀ x, ‖I.phasor x‖ = 1) (psd extra : Pix N → ℝ) (hp : ∀ x, 0 ≤ psd x)
    (he : ∀ x, 0 ≤ extra x) (wvl : ℝ) (dl : Pix N → ℝ) (hdl : 0 ≤ ∑ x, dl x) :
    sr I (phaseSf fun x => psd x + extra x) wvl dl ≤ sr I (phaseSf psd) wvl dl ∧
    Real.exp (-2 * (∑ x, extra x) * (2 * Real.pi * 1e-9 / wvl) ^ 2) * sr I (phaseSf psd) wvl dl ≤
      sr I (phaseSf fun x => psd x + extra x) wvl dl := by
  set c := (2 * Real.pi * 1e-9 / wvl) ^ 2 with hc
  have c0 : 0 ≤ c := sq_nonneg _
  unfold sr
  simp only [norm_tot I hph]
  have t : ∀ x, otfTurb (phaseSf (fun x => psd x + extra x) x) wvl =
      otfTurb (phaseSf psd x) wvl * otfTurb (phaseSf extra x) wvl := by
    intro x
    unfold otfTurb
    rw [phaseSf_add psd extra hp he, ← Real.exp_add]
    congr 1; ring
  have t1 : ∀ x, otfTurb (phaseSf extra x) wvl ≤ 1 := by
    intro x
    unfold otfTurb
    rw [Real.exp_le_one_iff, ← hc]
    have := mul_nonneg (phaseSf_range extra he x).1 c0
    nlinarith
  have t2 : ∀ x, Real.exp (-2 * (∑ x, extra x) * c) ≤ otfTurb (phaseSf extra x) wvl := by
    intro x
    unfold otfTurb
    rw [Real.exp_le_exp, ← hc]
    have := mul_le_mul_of_nonneg_right (phaseSf_range extra he x).2 c0
    nlinarith
  have p0 : ∀ x, 0 ≤ otfTurb (phaseSf psd x) wvl := fun x => (Real.exp_pos _).le
  constructor
  · refine div_le_div_of_nonneg_right (mul_le_mul_of_nonneg_left (sum_le_sum fun x _ => ?_) (by norm_num)) hdl
    rw [t]
    exact mul_le_mul_of_nonneg_right (mul_le_of_le_one_right (p0 x) (t1 x)) (abs_nonneg _)
  · rw [← mul_div_assoc]
    refine div_le_div_of_nonneg_right ?_ hdl
    rw [mul_left_comm]
    refine mul_le_mul_of_nonneg_left ?_ (by norm_num)
    rw [mul_sum]
    refine sum_le_sum fun x _ => ?_
    rw [t, ← mul_assoc]
    refine mul_le_mul_of_nonneg_right ?_ (abs_nonneg _)
    rw [mul_comm]
    exact mul_le_mul_of_nonneg_left (t2 x) (p0 x)

/-- C369: with the same instrument, a longer wavelength has a higher Strehl ratio. -/
theorem longer_wavelength (I : Instr N) (hph : ∀ x, ‖I.phasor x‖ = 1) (psd : Pix N → ℝ) (hp : ∀ x, 0 ≤ psd x)
    (w1 w2 : ℝ) (h1 : 0 < w1) (h2 : w1 ≤ w2) (dl : Pix N → ℝ) (hdl : 0 ≤ ∑ x, dl x) :
    sr I (phaseSf psd) w1 dl ≤ sr I (phaseSf psd) w2 dl := by
  unfold sr
  simp only [norm_tot I hph]
  refine div_le_div_of_nonneg_right (mul_le_mul_of_nonneg_left (sum_le_sum fun x _ => ?_) (by norm_num)) hdl
  refine mul_le_mul_of_nonneg_right ?_ (abs_nonneg _)
  unfold otfTurb
  rw [Real.exp_le_exp]
  have hsq : (2 * Real.pi * 1e-9 / w2) ^ 2 ≤ (2 * Real.pi * 1e-9 / w1) ^ 2 := by
    have := Real.pi_pos
    have h3 : 0 < w2 := h1.trans_le h2
    exact pow_le_pow_left₀ (by positivity) (div_le_div_of_nonneg_left (by positivity) h1 h2) 2
  have := mul_le_mul_of_nonneg_left hsq (phaseSf_range psd hp x).1
  nlinarith

/-! ### C370: Strehl ratios at several wavelengths -/

/-- Sum of the products of the transmissions of the pairs of pixels of the pupil apart by a multiple of `k` pixels along
both axes. -/
noncomputable def alike (k n : ℕ) (pupil : ℕ → ℕ → ℝ) : ℝ :=
  ∑ i ∈ range n, ∑ j ∈ range n, ∑ i' ∈ range n, ∑ j' ∈ range n,
    if i % k = i' % k ∧ j % k = j' % k then pupil i j * pupil i' j' else 0

/-- Sum over one pixel out of `k`. -/
theorem sum_every {M k : ℕ} [NeZero M] (hk : 1 ≤ k) (hN : N = k * M) {α : Type} [AddCommMonoid α] (g : ZMod N → α)
    (y c : ZMod N) (hc : c.val % k = 0) :
    ∑ x : ZMod M, g (y + (((k * x.val : ℕ) : ZMod N) - c)) =
      ∑ z ∈ univ.filter (fun z : ZMod N => z.val % k = y.val % k), g z := by
  have hkN : k ∣ N := ⟨M, hN⟩
  have : NeZero k := ⟨by omega⟩
  have cast : ∀ z w : ZMod N, z.val % k = w.val % k ↔ (ZMod.castHom hkN (ZMod k)) z = ZMod.castHom hkN (ZMod k) w := by
    intro z w
    have : ∀ z : ZMod N, ZMod.castHom hkN (ZMod k) z = ((z.val : ℕ) : ZMod k) := by
      intro z
      conv_lhs => rw [← ZMod.natCast_zmod_val z]
      simp
    rw [this, this, ZMod.natCast_eq_natCast_iff]
    rfl
  have hc' : ZMod.castHom hkN (ZMod k) c = 0 := by
    have := (cast c 0).1 (by simpa using hc)
    simpa using this
  have hmul : ∀ m : ℕ, ZMod.castHom hkN (ZMod k) ((k * m : ℕ) : ZMod N) = 0 := by
    intro m; rw [map_natCast]; push_cast; simp
  refine sum_nbij' (fun x => y + (((k * x.val : ℕ) : ZMod N) - c))
    (fun z => (((z - y + c).val / k : ℕ) : ZMod M)) ?_ ?_ ?_ ?_ ?_
  · intro x _
    rw [mem_filter]
    refine ⟨mem_univ _, ?_⟩
    rw [cast, map_add, map_sub, hmul, hc']; simp
  · intro z _; exact mem_univ _
  · intro x _
    have : y + (((k * x.val : ℕ) : ZMod N) - c) - y + c = ((k * x.val : ℕ) : ZMod N) := by ring
    rw [this, ZMod.val_natCast, Nat.mod_eq_of_lt, Nat.mul_div_cancel_left _ (by omega)]
    · simp
    · rw [hN]; exact Nat.mul_lt_mul_of_pos_left (ZMod.val_lt x) (by omega)
  · intro z hz
    rw [mem_filter, cast] at hz
    have hd : k ∣ (z - y + c).val := by
      have : (z - y + c).val % k = (0 : ZMod N).val % k := by
        rw [cast, map_add, map_sub, hz.2, hc']; simp
      rw [ZMod.val_zero, Nat.zero_mod] at this
      exact Nat.dvd_of_mod_eq_zero this
    have hlt : (z - y + c).val / k < M := by
      rw [Nat.div_lt_iff_lt_mul (by omega), mul_comm, ← hN]; exact ZMod.val_lt _
    rw [ZMod.val_natCast, Nat.mod_eq_of_lt hlt, Nat.mul_div_cancel' hd]
    rw [ZMod.natCast_zmod_val]; ring
  · intro x _; rfl

theorem sum_padded_real (n p : ℕ) (hN : N = n + 2 * p) (E : ℕ → ℕ → ℝ) (F : Pix N → ℝ → ℝ) (hF : ∀ y, F y 0 = 0) :
    ∑ y : Pix N, F y (padded n p E y) =
      ∑ i ∈ range n, ∑ j ∈ range n, F (((p + i : ℕ) : ZMod N), ((p + j : ℕ) : ZMod N)) (E i j) := by
  have h := sum_padded (N := N) n p hN (fun i j => (E i j : ℂ)) (fun y c => ((F y c.re : ℝ) : ℂ)) (by simp [hF])
  have e : ∀ y : Pix N, padded n p (fun i j => (E i j : ℂ)) y = ((padded n p E y : ℝ) : ℂ) := by
    intro z; unfold padded Otf.ext; split_ifs <;> simp
  simp only [e, Complex.ofReal_re] at h
  exact_mod_cast h

theorem sum_alike (n p M k : ℕ) [NeZero M] (hk : 1 ≤ k) (hM : M % 2 = 0) (hN : N = n + 2 * p) (hN' : N = k * M)
    (pupil : ℕ → ℕ → ℝ) :
    ∑ x : Pix M, ∑ y : Pix N, padded n p pupil (y + ((((k * x.1.val : ℕ) : ZMod N), ((k * x.2.val : ℕ) : ZMod N)) -
      centre N)) * padded n p pupil y = alike k n pupil := by
  have hc : ((N / 2 : ℕ) : ZMod N).val % k = 0 := by
    have h2 : N / 2 = k * (M / 2) := by
      rw [hN', Nat.mul_div_assoc _ (Nat.dvd_of_mod_eq_zero hM)]
    rw [ZMod.val_natCast, Nat.mod_mod_of_dvd _ ⟨M, hN'⟩, h2, Nat.mul_mod_right]
  have step : ∀ y : Pix N, ∑ x : Pix M, padded n p pupil (y + ((((k * x.1.val : ℕ) : ZMod N),
      ((k * x.2.val : ℕ) : ZMod N)) - centre N)) =
      ∑ z : Pix N, if z.1.val % k = y.1.val % k ∧ z.2.val % k = y.2.val % k then padded n p pupil z else 0 := by
    intro y
    rw [Fintype.sum_prod_type, Fintype.sum_prod_type]
    have := sum_every (M := M) hk hN' (fun a => ∑ b : ZMod M, padded n p pupil (a, y.2 + (((k * b.val : ℕ) : ZMod N) -
      ((N / 2 : ℕ) : ZMod N)))) y.1 ((N / 2 : ℕ) : ZMod N) hc
    refine (Eq.trans ?_ this).trans ?_
    · rfl
    · rw [sum_filter]
      refine sum_congr rfl fun a _ => ?_
      rw [sum_every (M := M) hk hN' (fun b => padded n p pupil (a, b)) y.2 _ hc, sum_filter]
      split_ifs with h
      · simp [h]
      · simp [h]
  rw [sum_comm]
  simp only [← sum_mul, step]
  rw [sum_padded_real n p hN pupil (fun y e => (∑ z : Pix N, if z.1.val % k = y.1.val % k ∧ z.2.val % k = y.2.val % k then
    padded n p pupil z else 0) * e) (by simp)]
  unfold alike
  refine sum_congr rfl fun i hi => sum_congr rfl fun j hj => ?_
  rw [sum_padded_real n p hN pupil (fun z e => if z.1.val % k = ((p + i : ℕ) : ZMod N).val % k ∧
    z.2.val % k = ((p + j : ℕ) : ZMod N).val % k then e else 0) (by simp), sum_mul]
  refine sum_congr rfl fun i' hi' => ?_
  rw [sum_mul]
  refine sum_congr rfl fun j' hj' => ?_
  rw [mem_range] at hi hj hi' hj'
  rw [ZMod.val_cast_of_lt (by omega), ZMod.val_cast_of_lt (by omega), ZMod.val_cast_of_lt (by omega),
    ZMod.val_cast_of_lt (by omega)]
  have m : ∀ a b : ℕ, (p + a) % k = (p + b) % k ↔ b % k = a % k := fun a b =>
    ⟨fun h => (Nat.ModEq.add_left_cancel' p h).symm, fun h => Nat.ModEq.add_left p (Eq.symm h)⟩
  simp only [m, ite_mul, zero_mul]
  refine if_congr Iff.rfl (mul_comm _ _) rfl

omit [NeZero N] in
theorem interpolate_every (fit : List ℝ → List ℝ → Img ℝ → ℝ → ℝ → ℝ) (hfit : ThroughSamples fit) (M k : ℕ) [NeZero M]
    (hk : 1 ≤ k) (hM : M % 2 = 0) (hN : N = k * M) (a : Pix N → ℝ) :
    ∃ im, interpolate fit true (toImg a) M M = .ok im ∧ ∀ i < M, ∀ j < M,
      im.px i j = a (((k * i : ℕ) : ZMod N), ((k * j : ℕ) : ZMod N)) := by
  by_cases h1 : N = M
  · have : k = 1 := by
      have hm : 0 < M := Nat.pos_of_ne_zero (NeZero.ne M)
      rw [h1] at hN
      exact (Nat.eq_of_mul_eq_mul_right hm (by omega : k * M = 1 * M))
    refine ⟨toImg a, ?_, fun i _ j _ => ?_⟩
    · unfold interpolate; rw [if_pos ⟨h1, h1⟩]
    · simp [toImg, this]
  · have lenA : ∀ n, (axisGrid n).length = n := by
      intro n
      unfold axisGrid; split_ifs <;> rw [List.length_map, linspace_length]
    have grid : ∀ i < M, (axisGrid M).getD i 0 = (axisGrid N).getD (k * i) 0 := by
      intro i hi
      have hki : k * i < N := by rw [hN]; exact Nat.mul_lt_mul_of_pos_left hi (by omega)
      rw [(axisGrid_spec M i hi).2, (axisGrid_spec N (k * i) hki).2]
      have h2 : N / 2 = k * (M / 2) := by
        rw [hN, Nat.mul_div_assoc _ (Nat.dvd_of_mod_eq_zero hM)]
      have hm : (0:ℝ) < M := by exact_mod_cast Nat.pos_of_ne_zero (NeZero.ne M)
      have hk' : (0:ℝ) < k := by exact_mod_cast hk
      rw [h2, hN]; push_cast; field_simp
    unfold interpolate
    rw [if_neg (fun h => h1 h.1)]
    simp only [if_true]
    rw [if_pos ⟨lenA _, lenA _⟩]
    refine ⟨_, rfl, fun i hi j hj => ?_⟩
    have hki : k * i < N := by rw [hN]; exact Nat.mul_lt_mul_of_pos_left hi (by omega)
    have hkj : k * j < N := by rw [hN]; exact Nat.mul_lt_mul_of_pos_left hj (by omega)
    simp only [grid i hi, grid j hj]
    exact hfit _ _ (toImg a) (axisGrid_nodup _) (axisGrid_nodup _) (lenA _) (lenA _) (k * i) hki (k * j) hkj

theorem flatOtf_every (fit : List ℝ → List ℝ → Img ℝ → ℝ → ℝ → ℝ) (hfit : ThroughSamples fit) (n p M k : ℕ) [NeZero M]
    (hk : 1 ≤ k) (hM : M % 2 = 0) (hN : N = n + 2 * p) (hN' : N = k * M) (pupil : ℕ → ℕ → ℝ)
    (hp : ∀ i j, 0 ≤ pupil i j) (hne : power n pupil ≠ 0) :
    ∃ o, flatOtf fit M N n p pupil = .ok o ∧ (∀ x, 0 ≤ o x) ∧ ∑ x, o x = alike k n pupil / power n pupil := by
  obtain ⟨im, h, e⟩ := interpolate_every fit hfit M k hk hM hN'
    (fun x : Pix N => (pupil2otf n p pupil (fun _ _ => 0) x).re)
  have hN0 : (0:ℝ) < N := by exact_mod_cast Nat.pos_of_ne_zero (NeZero.ne N)
  have S := fun x : Pix N => staticOtf_spec n p hN pupil (fun _ _ => 0) hp hne x
  have pos : 0 < power n pupil := lt_of_le_of_ne (power_nonneg n pupil) (Ne.symm hne)
  have dl : ∀ x : Pix N, (pupil2otf n p pupil (fun _ _ => 0) x).re = dlOtf n p pupil x * (power n pupil / (N * N)) := by
    intro x
    unfold dlOtf staticOtf
    rw [maxPix_otf n p hN pupil _ hp]
    field_simp
  have hm : maxPix (fun x : Pix M => im.px x.1.val x.2.val) = power n pupil / (N * N) := by
    unfold maxPix
    apply le_antisymm
    · refine sup'_le _ _ fun x _ => ?_
      rw [e _ (ZMod.val_lt _) _ (ZMod.val_lt _), dl]
      exact mul_le_of_le_one_left (by positivity) (S _).2.2.1
    · refine le_trans (le_of_eq ?_) (le_sup' (fun x : Pix M => im.px x.1.val x.2.val) (mem_univ (centre M)))
      rw [e _ (ZMod.val_lt _) _ (ZMod.val_lt _)]
      have hM2 : M / 2 < M := Nat.div_lt_self (Nat.pos_of_ne_zero (NeZero.ne M)) (by norm_num)
      have h2 : k * (M / 2) = N / 2 := by
        rw [hN', Nat.mul_div_assoc _ (Nat.dvd_of_mod_eq_zero hM)]
      have : ((((k * (centre M).1.val : ℕ) : ZMod N)), (((k * (centre M).2.val : ℕ) : ZMod N))) = centre N := by
        unfold centre
        simp only [ZMod.val_cast_of_lt hM2, h2]
      rw [this, dl, (S 0).2.2.2, one_mul]
  unfold flatOtf
  rw [h]
  refine ⟨_, rfl, fun x => ?_, ?_⟩
  · simp only []
    rw [hm, e _ (ZMod.val_lt _) _ (ZMod.val_lt _), dl]
    have := (abs_nonneg _).trans (S ((((k * x.1.val : ℕ) : ZMod N)), (((k * x.2.val : ℕ) : ZMod N)))).2.1
    positivity
  · rw [← sum_alike n p M k hk hM hN hN' pupil, sum_div]
    refine sum_congr rfl fun x _ => ?_
    rw [hm]
    show im.px x.1.val x.2.val / _ = _
    rw [e _ (ZMod.val_lt _) _ (ZMod.val_lt _), dl, dlOtf_eq n p hN pupil hp]
    field_simp

theorem alike_one (n : ℕ) (pupil : ℕ → ℕ → ℝ) : alike 1 n pupil = (∑ i ∈ range n, ∑ j ∈ range n, pupil i j) ^ 2 := by
  unfold alike
  simp only [Nat.mod_one, and_self, if_true, ← mul_sum, ← sum_mul, sq]

theorem alike_pos (k n : ℕ) (pupil : ℕ → ℕ → ℝ) (hp : ∀ i j, 0 ≤ pupil i j) (hne : power n pupil ≠ 0) :
    0 < alike k n pupil := by
  have pos : 0 < power n pupil := lt_of_le_of_ne (power_nonneg n pupil) (Ne.symm hne)
  refine pos.trans_le ?_
  unfold alike power
  refine sum_le_sum fun i hi => sum_le_sum fun j hj => ?_
  have h0 : ∀ i' j', 0 ≤ (if i % k = i' % k ∧ j % k = j' % k then pupil i j * pupil i' j' else 0) := by
    intro i' j'; split_ifs
    · exact mul_nonneg (hp _ _) (hp _ _)
    · exact le_rfl
  have h1 := single_le_sum (f := fun i' => ∑ j' ∈ range n, if i % k = i' % k ∧ j % k = j' % k then
    pupil i j * pupil i' j' else 0) (fun i' _ => sum_nonneg fun j' _ => h0 i' j') hi
  have h2 := single_le_sum (f := fun j' => if i % k = i % k ∧ j % k = j' % k then
    pupil i j * pupil i j' else 0) (fun j' _ => h0 i j') hj
  refine le_trans (le_of_eq ?_) (h2.trans h1)
  simp [sq]

/-- C370 (exact): Strehl ratio reported for a telescope without any error at a wavelength whose padded pupil has `k M`
pixels, if the padded pupil of the reference wavelength has `kRef M` and the OTF `M` pixels. -/
theorem perfect_strehl (fit : List ℝ → List ℝ → Img ℝ → ℝ → ℝ → ℝ) (hfit : ThroughSamples fit)
    (n M NRef NW kRef k pRef p : ℕ) [NeZero M] [NeZero NRef] [NeZero NW] (hr : 1 ≤ kRef) (hk : 1 ≤ k) (hM : M % 2 = 0)
    (hRef : NRef = n + 2 * pRef) (hRef' : NRef = kRef * M) (hW : NW = n + 2 * p) (hW' : NW = k * M)
    (pupil : ℕ → ℕ → ℝ) (hp : ∀ i j, 0 ≤ pupil i j) (hne : power n pupil ≠ 0) (wvl : ℝ) :
    perfectSr fit M NRef NW n pRef p pupil wvl = .ok (100 * (alike k n pupil / alike kRef n pupil)) := by
  obtain ⟨dl, hd, -, sd⟩ := flatOtf_every fit hfit n pRef M kRef hr hM hRef hRef' pupil hp hne
  obtain ⟨o, ho, o0, so⟩ := flatOtf_every fit hfit n p M k hk hM hW hW' pupil hp hne
  unfold perfectSr
  rw [hd, ho]
  show Except.ok _ = _
  congr 1
  unfold sr
  simp only [norm_tot (⟨o, fun _ => 1, fun _ => 1, fun _ => 1⟩ : Instr M) (fun _ => by simp)]
  have : ∀ x, otfTurb ((fun _ : Pix M => (0:ℝ)) x) wvl * |o x * 1 * 1| = o x := by
    intro x
    simp [otfTurb, abs_of_nonneg (o0 x)]
  simp only [this, sd, so]
  have h1 := alike_pos kRef n pupil hp hne
  field_simp

/-- C370 (partial): a telescope without error has a Strehl ratio of 100 percent at the wavelengths whose sampling (hence
padding) is that of the reference one; the other ones are missing. -/
theorem reference_partial (fit : List ℝ → List ℝ → Img ℝ → ℝ → ℝ → ℝ) (hfit : ThroughSamples fit)
    (n M NW k p : ℕ) [NeZero M] [NeZero NW] (hk : 1 ≤ k) (hM : M % 2 = 0) (hW : NW = n + 2 * p) (hW' : NW = k * M)
    (pupil : ℕ → ℕ → ℝ) (hp : ∀ i j, 0 ≤ pupil i j) (hne : power n pupil ≠ 0) (wvl : ℝ) :
    perfectSr fit M NW NW n p p pupil wvl = .ok 100 := by
  rw [perfect_strehl fit hfit n M NW NW k k p p hk hk hM hW hW' hW hW' pupil hp hne wvl,
    div_self (alike_pos k n pupil hp hne).ne', mul_one]

theorem alike_lt_iff (k n : ℕ) (pupil : ℕ → ℕ → ℝ) (hp : ∀ i j, 0 ≤ pupil i j) :
    alike k n pupil = alike 1 n pupil ↔ ∀ i < n, ∀ j < n, ∀ i' < n, ∀ j' < n, 0 < pupil i j → 0 < pupil i' j' →
      i % k = i' % k ∧ j % k = j' % k := by
  have le : ∀ i j i' j', (if i % k = i' % k ∧ j % k = j' % k then pupil i j * pupil i' j' else 0) ≤
      (if i % 1 = i' % 1 ∧ j % 1 = j' % 1 then pupil i j * pupil i' j' else 0) := by
    intro i j i' j'
    simp only [Nat.mod_one, and_self, if_true]
    split_ifs
    · exact le_rfl
    · exact mul_nonneg (hp _ _) (hp _ _)
  unfold alike
  constructor
  · intro h i hi j hj i' hi' j' hj' p1 p2
    by_contra hn
    refine absurd h (ne_of_lt ?_)
    refine sum_lt_sum (fun a _ => sum_le_sum fun b _ => sum_le_sum fun c _ => sum_le_sum fun d _ => le a b c d)
      ⟨i, mem_range.2 hi, ?_⟩
    refine sum_lt_sum (fun b _ => sum_le_sum fun c _ => sum_le_sum fun d _ => le i b c d) ⟨j, mem_range.2 hj, ?_⟩
    refine sum_lt_sum (fun c _ => sum_le_sum fun d _ => le i j c d) ⟨i', mem_range.2 hi', ?_⟩
    refine sum_lt_sum (fun d _ => le i j i' d) ⟨j', mem_range.2 hj', ?_⟩
    rw [if_neg hn, if_pos (by simp [Nat.mod_one])]
    exact mul_pos p1 p2
  · intro h
    refine sum_congr rfl fun i hi => sum_congr rfl fun j hj => sum_congr rfl fun i' hi' => sum_congr rfl fun j' hj' => ?_
    rw [mem_range] at hi hj hi' hj'
    rw [if_pos (show i % 1 = i' % 1 ∧ j % 1 = j' % 1 by simp [Nat.mod_one])]
    by_cases h1 : 0 < pupil i j
    · by_cases h2 : 0 < pupil i' j'
      · rw [if_pos (h i hi j hj i' hi' j' hj' h1 h2)]
      · rw [le_antisymm (not_lt.1 h2) (hp _ _)]; simp
    · rw [le_antisymm (not_lt.1 h1) (hp _ _)]; simp

theorem alike_le (k n : ℕ) (pupil : ℕ → ℕ → ℝ) (hp : ∀ i j, 0 ≤ pupil i j) : alike k n pupil ≤ alike 1 n pupil := by
  unfold alike
  refine sum_le_sum fun i _ => sum_le_sum fun j _ => sum_le_sum fun i' _ => sum_le_sum fun j' _ => ?_
  simp only [Nat.mod_one, and_self, if_true]
  split_ifs
  · exact le_rfl
  · exact mul_nonneg (hp _ _) (hp _ _)

/-- C370 (violation): at a wavelength `k ≥ 2` times the reference one, both well sampled, a telescope without any error
and with two neighbouring illuminated pixels in its pupil has a Strehl ratio below 100 percent. -/
theorem longer_violation (fit : List ℝ → List ℝ → Img ℝ → ℝ → ℝ → ℝ) (hfit : ThroughSamples fit)
    (n M NW k pRef p : ℕ) [NeZero M] [NeZero NW] (hk : 2 ≤ k) (hM : M % 2 = 0)
    (hRef : M = n + 2 * pRef) (hW : NW = n + 2 * p) (hW' : NW = k * M)
    (pupil : ℕ → ℕ → ℝ) (hp : ∀ i j, 0 ≤ pupil i j) (i j : ℕ) (hi : i + 1 < n) (hj : j < n) (h1 : 0 < pupil i j)
    (h2 : 0 < pupil (i + 1) j) (wvl : ℝ) :
    ∃ s, perfectSr fit M M NW n pRef p pupil wvl = .ok s ∧ 0 < s ∧ s < 100 := by
  have hne : power n pupil ≠ 0 := by
    have : 0 < power n pupil := by
      unfold power
      refine sum_pos' (fun _ _ => sum_nonneg fun _ _ => sq_nonneg _) ⟨i, mem_range.2 (by omega), ?_⟩
      exact sum_pos' (fun _ _ => sq_nonneg _) ⟨j, mem_range.2 hj, by positivity⟩
    exact this.ne'
  refine ⟨_, perfect_strehl fit hfit n M M NW 1 k pRef p le_rfl (by omega) hM hRef (by omega) hW hW' pupil hp hne wvl, ?_, ?_⟩
  · have := alike_pos k n pupil hp hne
    have := alike_pos 1 n pupil hp hne
    positivity
  · have pos := alike_pos 1 n pupil hp hne
    have lt : alike k n pupil < alike 1 n pupil := by
      refine lt_of_le_of_ne (alike_le k n pupil hp) fun h => ?_
      have := ((alike_lt_iff k n pupil hp).1 h i (by omega) j hj (i + 1) hi j hj h1 h2).1
      have h3 : (i + 1) % k = (i % k + 1) % k := by rw [Nat.add_mod, Nat.mod_eq_of_lt (by omega : 1 < k)]
      rw [h3] at this
      have hlt := Nat.mod_lt i (by omega : 0 < k)
      rcases Nat.lt_or_ge (i % k + 1) k with h4 | h4
      · rw [Nat.mod_eq_of_lt h4] at this; omega
      · rw [show i % k + 1 = k by omega, Nat.mod_self] at this; omega
    rw [← div_lt_one pos] at lt
    linarith

theorem count_class (k m r : ℕ) (hr : r < k) : ∑ i ∈ range (k * m), (if r = i % k then (1:ℝ) else 0) = m := by
  induction m with
  | zero => simp
  | succ m ih =>
    rw [Nat.mul_succ, sum_range_add, ih]
    have : ∀ i ∈ range k, (if r = (k * m + i) % k then (1:ℝ) else 0) = if r = i then 1 else 0 := by
      intro i hi
      rw [Nat.mul_add_mod, Nat.mod_eq_of_lt (mem_range.1 hi)]
    rw [sum_congr rfl this, sum_ite_eq, if_pos (mem_range.2 hr)]
    push_cast; ring

theorem alike_square (k m : ℕ) (hk : 1 ≤ k) : alike k (k * m) (fun _ _ => 1) = ((k * m : ℕ) * m : ℝ) ^ 2 := by
  unfold alike
  have : ∀ i j : ℕ, ∑ i' ∈ range (k * m), ∑ j' ∈ range (k * m),
      (if i % k = i' % k ∧ j % k = j' % k then (1:ℝ) * 1 else 0) = m * m := by
    intro i j
    have e : ∀ i' j' : ℕ, (if i % k = i' % k ∧ j % k = j' % k then (1:ℝ) * 1 else 0) =
        (if i % k = i' % k then 1 else 0) * (if j % k = j' % k then 1 else 0) := by
      intro i' j'; split_ifs <;> simp_all
    simp only [e, ← mul_sum, ← sum_mul]
    rw [count_class k m _ (Nat.mod_lt _ (by omega)), count_class k m _ (Nat.mod_lt _ (by omega))]
  simp only [this, sum_const, card_range, nsmul_eq_mul]
  ring

/-- C370 (violation): the square pupil. The Strehl ratio of a telescope without any error is `100 (kRef/k)²`: a quarter of
the truth at twice the reference wavelength, and above 100 percent at a wavelength with a coarser sampling than the
(binned) reference. -/
theorem square_violation (fit : List ℝ → List ℝ → Img ℝ → ℝ → ℝ → ℝ) (hfit : ThroughSamples fit)
    (n M NRef NW kRef k pRef p : ℕ) [NeZero M] [NeZero NRef] [NeZero NW] (hr : 1 ≤ kRef) (hk : 1 ≤ k) (hM : M % 2 = 0)
    (hRef : NRef = n + 2 * pRef) (hRef' : NRef = kRef * M) (hW : NW = n + 2 * p) (hW' : NW = k * M) (hn : 0 < n)
    (d1 : kRef ∣ n) (d2 : k ∣ n) (wvl : ℝ) :
    perfectSr fit M NRef NW n pRef p (fun _ _ => 1) wvl = .ok (100 * ((kRef : ℝ) / k) ^ 2) := by
  have hne : power n (fun _ _ => 1) ≠ 0 := by
    unfold power; simp; omega
  rw [perfect_strehl fit hfit n M NRef NW kRef k pRef p hr hk hM hRef hRef' hW hW' _ (fun _ _ => by norm_num) hne wvl]
  obtain ⟨a, rfl⟩ := d1
  obtain ⟨b, hb⟩ := d2
  have e2 : alike k (kRef * a) (fun _ _ => 1) = ((k * b : ℕ) * b : ℝ) ^ 2 := by rw [hb]; exact alike_square k b hk
  rw [alike_square kRef a hr, e2]
  have hb' : (kRef : ℝ) * a = k * b := by exact_mod_cast hb
  have ha0 : (a : ℝ) ≠ 0 := by rintro h; have : a = 0 := by exact_mod_cast h
                               subst this; simp at hn
  have hk0 : (k : ℝ) ≠ 0 := by exact_mod_cast (by omega : k ≠ 0)
  have hr0 : (kRef : ℝ) ≠ 0 := by exact_mod_cast (by omega : kRef ≠ 0)
  have hb0 : (b : ℝ) = kRef * a / k := by rw [hb']; field_simp
  push_cast
  rw [hb0]
  congr 2
  field_simp

/-- Non-vacuity: a telescope with a square pupil of 12 pixels padded to 24 pixels at the reference wavelength and to 48
pixels at twice the reference gets 25 percent instead of 100. -/
example : perfectSr lookupFit 24 24 48 12 6 18 (fun _ _ => 1) 1e-6 = .ok 25 := by
  have := square_violation lookupFit lookupFit_through 12 24 24 48 1 2 6 18 le_rfl (by norm_num) rfl rfl rfl rfl rfl
    (by norm_num) (by norm_num) (by norm_num) 1e-6
  rw [this]; norm_num

/-- Non-vacuity: above 100 percent. Reference sampled at 1.5, hence binned by two, and a wavelength 4/3 longer, sampled at
two: 225 percent. -/
example : perfectSr lookupFit 12 36 24 12 12 6 (fun _ _ => 1) 1e-6 = .ok 225 := by
  have := square_violation lookupFit lookupFit_through 12 12 36 24 3 2 12 6 (by norm_num) (by norm_num) rfl rfl rfl rfl rfl
    (by norm_num) (by norm_num) (by norm_num) 1e-6
  rw [this]; norm_num

/-- Non-vacuity of the bound: two pixels of the spectrum, a full pupil of two pixels padded to four. -/
example : 100 * Real.exp (-(∑ x : Pix 4, if x = 0 then (1000:ℝ) else 0) * (2 * Real.pi * 1e-9 / 1e-6) ^ 2) ≤
    sr (perfect (dlOtf 2 1 fun _ _ => 1) fun _ => 1) (phaseSf fun x : Pix 4 => if x = 0 then (1000:ℝ) else 0) 1e-6
      (dlOtf 2 1 fun _ _ => 1) :=
  (marechal_bound 2 1 rfl (fun _ _ => 1) (fun _ _ => by norm_num) (by norm_num [power, sum_range_succ]) _
    (fun x => by split_ifs <;> norm_num) 1e-6 (fun _ => 1) (fun _ => by simp)).1

/-! ### Cases that meet the hypotheses -/

/-- A case meeting the hypotheses of `breakdown_below_image`. -/
example : FRun.marechal 1e-6 (Real.sqrt 1000) ≤ sr (perfect (dlOtf 2 1 fun _ _ => 1) fun _ => 1)
    (phaseSf fun x : Pix 4 => if x = 0 then (1000:ℝ) else 0) 1e-6 (dlOtf 2 1 fun _ _ => 1) :=
  breakdown_below_image 2 1 rfl (fun _ _ => 1) (fun _ _ => by norm_num) (by norm_num [power, sum_range_succ]) _
    (fun x => by split_ifs <;> norm_num) 1e-6 _ (by rw [Real.sq_sqrt (by norm_num)]; simp) (fun _ => 1) (fun _ => by simp)

/-- A case meeting the hypotheses of `more_error`. -/
example : sr (perfect (dlOtf 2 1 fun _ _ => 1) fun _ => 1) (phaseSf fun x : Pix 4 => (if x = 0 then (1000:ℝ) else 0) + 1) 1e-6
      (fun _ => 1) ≤ sr (perfect (dlOtf 2 1 fun _ _ => 1) fun _ => 1) (phaseSf fun x : Pix 4 => if x = 0 then (1000:ℝ) else 0) 1e-6
      (fun _ => 1) :=
  (more_error (perfect (dlOtf 2 1 fun _ _ => 1) fun _ => 1) (fun _ => by simp [perfect]) (fun x : Pix 4 => if x = 0 then (1000:ℝ) else 0)
    (fun _ => 1) (fun x => by split_ifs <;> norm_num) (fun _ => by norm_num) 1e-6 (fun _ => 1) (by simp)).1

/-- A case meeting the hypotheses of `longer_wavelength`. -/
example : sr (perfect (dlOtf 2 1 fun _ _ => 1) fun _ => 1) (phaseSf fun x : Pix 4 => if x = 0 then (1000:ℝ) else 0) 1e-6 (fun _ => 1) ≤
    sr (perfect (dlOtf 2 1 fun _ _ => 1) fun _ => 1) (phaseSf fun x : Pix 4 => if x = 0 then (1000:ℝ) else 0) 2e-6 (fun _ => 1) :=
  longer_wavelength (perfect (dlOtf 2 1 fun _ _ => 1) fun _ => 1) (fun _ => by simp [perfect]) _
    (fun x => by split_ifs <;> norm_num) 1e-6 2e-6 (by norm_num) (by norm_num) (fun _ => 1) (by simp)

/-- A case meeting the hypotheses of `reference_partial`. -/
example : perfectSr lookupFit 24 48 48 12 18 18 (fun _ _ => 1) 1e-6 = .ok 100 :=
  reference_partial lookupFit lookupFit_through 12 24 48 2 18 (by norm_num) rfl rfl rfl _ (fun _ _ => by norm_num)
    (by norm_num [power, sum_range_succ]) 1e-6

/-- A case meeting the hypotheses of `longer_violation`. -/
example : ∃ s, perfectSr lookupFit 24 24 48 12 6 18 (fun i _ => if i < 6 then 1 else 0) 1e-6 = .ok s ∧ 0 < s ∧ s < 100 :=
  longer_violation lookupFit lookupFit_through 12 24 48 2 6 18 (by norm_num) rfl rfl rfl rfl _
    (fun i _ => by split_ifs <;> norm_num) 0 0 (by norm_num) (by norm_num) (by norm_num) (by norm_num) 1e-6

end P3.Strehl
