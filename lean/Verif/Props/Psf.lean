import Verif.Model.Psf
import Verif.Props.Images
import Mathlib.Analysis.SpecialFunctions.Integrals.Basic
import Mathlib.Analysis.SpecialFunctions.Trigonometric.Bounds
import Mathlib.Algebra.BigOperators.Field
/-
Properties C28 (flux), C29 (OTF), C34 (piston filter), C35 (fftsym), C43 (structure function),
C74 (astrometry), C75 (jitter), C76 (Strehl).
-/
namespace P3.Psf
open Finset P3.Images

/-! ### C28: flux and sampling of the PSF -/

theorem flux_affine (im : Img ℝ) (c F b : ℝ) :
    flux ⟨im.nx, im.ny, fun i j => im.px i j / c * F + b⟩ = flux im / c * F + b * (im.nx * im.ny) := by
  unfold flux
  simp only [sum_add_distrib, sum_const, card_range, nsmul_eq_mul, ← sum_mul, ← sum_div]
  ring

/-- C28: the total intensity of the PSF is the requested flux plus the background level times the number of
pixels, whatever the binning and cropping (unless the sampled PSF has no light at all). -/
theorem psf_flux (hr psf : Img ℝ) (k fov nPix : ℕ) (F bkg : ℝ) (_h : detectorPsf hr k fov nPix = .ok psf)
    (hne : flux psf ≠ 0) : flux (scale psf F bkg) = F + bkg * (psf.nx * psf.ny) := by
  unfold scale
  rw [flux_affine, div_self hne, one_mul]

/-- C28: for an `n x n` high-resolution PSF with at least `fov` binned pixels the sampling succeeds; the
result has `min(nPix, fov)` pixels a side, each the sum of a `k x k` block, in a window whose margins on the
binned PSF of `n/k` pixels differ by at most two. -/
theorem detectorPsf_spec (hr : Img ℝ) (n k fov nPix : ℕ) (hx : hr.nx = n) (hy : hr.ny = n) (hk : 1 ≤ k)
    (hf : 1 ≤ fov) (hp : 1 ≤ nPix) (h : fov ≤ n / k) :
    ∃ psf a c, detectorPsf hr k fov nPix = .ok psf ∧ psf.nx = min nPix fov ∧ psf.ny = min nPix fov ∧
      (∀ i j, psf.px i j =
        ∑ u ∈ range k, ∑ v ∈ range k, hr.px ((a + i) * k + u) ((c + j) * k + v)) ∧
      a + psf.nx + a ≤ n / k ∧ n / k ≤ a + psf.nx + a + 2 ∧
      c + psf.ny + c ≤ n / k ∧ n / k ≤ c + psf.ny + c + 2 := by
  -- the binned PSF
  obtain ⟨tmp, ht, tx, ty, tpx⟩ : ∃ tmp, binned hr k = .ok tmp ∧
      tmp.nx = n / k ∧ tmp.ny = n / k ∧
      ∀ a b, tmp.px a b = ∑ u ∈ range k, ∑ v ∈ range k, hr.px (a * k + u) (b * k + v) := by
    by_cases h1 : 1 < k
    · obtain ⟨o, ho, o1, o2, o3⟩ := binning_spec hr k hk
      exact ⟨o, by unfold binned; rw [if_pos h1, ho], by rw [o1, hx], by rw [o2, hy], o3⟩
    · have : k = 1 := by omega
      subst this
      exact ⟨hr, by unfold binned; rw [if_neg h1], by simp [hx], by simp [hy], fun a b => by simp⟩
  have sq : ∀ (im : Img ℝ) (m s : ℕ), im.nx = m → im.ny = m → 1 ≤ s → s ≤ m →
      ∃ a c, (crop im ((im.nx:ℝ) / s) ((im.nx:ℝ) / s)).nx = s ∧
        (crop im ((im.nx:ℝ) / s) ((im.nx:ℝ) / s)).ny = s ∧
        (∀ i j, (crop im ((im.nx:ℝ) / s) ((im.nx:ℝ) / s)).px i j = im.px (a + i) (c + j)) ∧
        a + s + a ≤ m ∧ m ≤ a + s + a + 1 ∧ c + s + c ≤ m ∧ m ≤ c + s + c + 1 := by
    intro im m s e1 e2 s1 s2
    have b0 : (0:ℝ) < s := by exact_mod_cast s1
    have m0 : (0:ℝ) < m := by exact_mod_cast (by omega : 0 < m)
    have k1 : (1:ℝ) ≤ (im.nx:ℝ) / s := by
      rw [e1, le_div_iff₀ b0, one_mul]; exact_mod_cast s2
    obtain ⟨f1, f2, a, c, hp, b1, b2, b3, b4⟩ := crop_spec im _ _ k1 k1
    have g1 : ⌊(im.nx:ℝ) / ((im.nx:ℝ) / s)⌋₊ = s := by
      rw [e1, show (m:ℝ) / ((m:ℝ) / s) = s by field_simp, Nat.floor_natCast]
    have g2 : ⌊(im.ny:ℝ) / ((im.nx:ℝ) / s)⌋₊ = s := by
      rw [e1, e2, show (m:ℝ) / ((m:ℝ) / s) = s by field_simp, Nat.floor_natCast]
    rw [f1.trans g1, e1] at b1 b2; rw [f2.trans g2, e2] at b3 b4
    exact ⟨a, c, f1.trans g1, f2.trans g2, hp, b1, b2, b3, b4⟩
  obtain ⟨a, c, c1, c2, c3, c4, c5, c6, c7⟩ := sq tmp (n / k) fov tx ty hf h
  have hbc : binCrop hr k fov = .ok (crop tmp ((tmp.nx:ℝ) / fov) ((tmp.nx:ℝ) / fov)) := by
    unfold binCrop
    rw [ht]
    show fitTo fov _ = _
    unfold fitTo
    rw [if_pos ⟨c1, c2⟩]
  by_cases hlt : nPix < fov
  · obtain ⟨a', c', d1, d2, d3, d4, d5, d6, d7⟩ := sq _ fov nPix c1 c2 hp hlt.le
    refine ⟨_, a + a', c + c', ?_, d1.trans (by omega), d2.trans (by omega), ?_, ?_, ?_, ?_, ?_⟩
    · unfold detectorPsf
      rw [hbc]
      show limitFov _ fov nPix = _
      unfold limitFov fitTo
      rw [if_pos hlt, if_pos ⟨d1, d2⟩]
    · intro i j
      rw [d3, c3, tpx]
      simp only [Nat.add_assoc]
    · rw [d1]; omega
    · rw [d1]; omega
    · rw [d2]; omega
    · rw [d2]; omega
  · refine ⟨_, a, c, ?_, c1.trans (by omega), c2.trans (by omega), ?_, ?_, ?_, ?_, ?_⟩
    · unfold detectorPsf
      rw [hbc]
      show limitFov _ fov nPix = _
      unfold limitFov
      rw [if_neg hlt]
    · intro i j
      rw [c3, tpx]
    · rw [c1]; omega
    · rw [c1]; omega
    · rw [c2]; omega
    · rw [c2]; omega

/-- C28: with the default number of pixels and a grid of `fov * k` samples every high-resolution pixel is
used, so the PSF flux before scaling is the whole high-resolution flux. -/
theorem detectorPsf_full (hr : Img ℝ) (k fov : ℕ) (hx : hr.nx = fov * k) (hy : hr.ny = fov * k) (hk : 1 ≤ k)
    (hf : 1 ≤ fov) : ∃ psf, detectorPsf hr k fov fov = .ok psf ∧ psf.nx = fov ∧ psf.ny = fov ∧
      flux psf = flux hr := by
  have hdiv : fov * k / k = fov := Nat.mul_div_cancel _ (by omega)
  obtain ⟨psf, a, c, h, h1, h2, hp, a1, -, c1, -⟩ :=
    detectorPsf_spec hr (fov * k) k fov fov hx hy hk hf hf (by rw [hdiv])
  rw [hdiv] at a1 c1
  rw [min_self] at h1 h2
  rw [h1] at a1; rw [h2] at c1
  obtain rfl : a = 0 := by omega
  obtain rfl : c = 0 := by omega
  refine ⟨psf, h, h1, h2, ?_⟩
  unfold flux
  rw [h1, h2, hx, hy]
  simp only [hp, Nat.zero_add]
  have : ∀ x, ∑ b ∈ range fov, ∑ i ∈ range k, ∑ j ∈ range k, hr.px (x * k + i) (b * k + j) =
      ∑ i ∈ range k, ∑ y ∈ range (fov * k), hr.px (x * k + i) y := by
    intro x
    rw [sum_comm]
    exact sum_congr rfl fun i _ => sum_blocks (fun y => hr.px (x * k + i) y) k _
  simp only [this]
  exact sum_blocks (fun x => ∑ y ∈ range (fov * k), hr.px x y) k _

/-- C130 (violation): if the binned PSF is smaller than the detector the computation fails.  This happens for
a wavelength that needs more binning than the reference one (PSD expansion with several wavelengths):
the grid has `fov * kRef` samples, binned by `k > kRef`. -/
theorem detectorPsf_too_small (hr : Img ℝ) (n k fov nPix : ℕ) (hx : hr.nx = n) (hk : 1 ≤ k)
    (h : n / k < fov) : detectorPsf hr k fov nPix = .error .broadcast := by
  obtain ⟨tmp, ht, tx⟩ : ∃ tmp, binned hr k = .ok tmp ∧ tmp.nx = n / k := by
    by_cases h1 : 1 < k
    · obtain ⟨o, ho, o1, -⟩ := binning_spec hr k hk
      exact ⟨o, by unfold binned; rw [if_pos h1, ho], by rw [o1, hx]⟩
    · have : k = 1 := by omega
      subst this
      exact ⟨hr, by unfold binned; rw [if_neg h1], by simp [hx]⟩
  have bound : ∀ m i, sliceBound m i ≤ max m 0 := by
    intro m i; unfold sliceBound; split_ifs <;> omega
  have hb : binCrop hr k fov = .error .broadcast := by
    unfold binCrop
    rw [ht]
    show fitTo fov _ = _
    unfold fitTo
    rw [if_neg]
    rintro ⟨e, -⟩
    have : (crop tmp ((tmp.nx:ℝ) / fov) ((tmp.nx:ℝ) / fov)).nx ≤ tmp.nx := by
      unfold crop
      simp only
      have := bound tmp.nx (trunc (0.5 * (tmp.nx - (trunc (tmp.nx / ((tmp.nx:ℝ) / fov)) : ℤ))) +
        trunc (tmp.nx / ((tmp.nx:ℝ) / fov)))
      omega
    omega
  unfold detectorPsf
  rw [hb]
  rfl

/-- C130 (violation, concrete): 8-pixel detector, reference binning 2, a wavelength that needs 3. -/
theorem detectorPsf_violation : detectorPsf ⟨8 * 2, 8 * 2, fun _ _ => 1⟩ 3 8 8 = .error .broadcast :=
  detectorPsf_too_small _ 16 3 8 8 rfl (by norm_num) (by norm_num)

/-- Non-vacuity: an 8x8 uniform PSF binned to 4x4 carries the flux requested. -/
example : ∃ psf, detectorPsf ⟨4 * 2, 4 * 2, fun _ _ => 1⟩ 2 4 4 = .ok psf ∧ flux (scale psf 100 3) = 148 := by
  obtain ⟨psf, h, h1, h2, hf⟩ := detectorPsf_full ⟨4 * 2, 4 * 2, fun _ _ => 1⟩ 2 4 rfl rfl (by norm_num) (by norm_num)
  refine ⟨psf, h, ?_⟩
  have : flux psf = 64 := by rw [hf]; norm_num [flux]
  rw [psf_flux _ _ _ _ _ 100 3 h (by rw [this]; norm_num), h1, h2]; norm_num

/-! ### C29: the OTF never amplifies -/

/-- C29: the turbulence OTF of a non-negative structure function is in (0, 1], is 1 exactly where the
structure function is zero, and decreases when the structure function grows. -/
theorem sf2otf_spec (s t : ℝ) (hs : 0 ≤ s) :
    0 < sf2otf s ∧ sf2otf s ≤ 1 ∧ (sf2otf s = 1 ↔ s = 0) ∧ (s < t → sf2otf t < sf2otf s) := by
  unfold sf2otf
  refine ⟨Real.exp_pos _, ?_, ?_, ?_⟩
  · rw [Real.exp_le_one_iff]; linarith
  · rw [Real.exp_eq_one_iff]; constructor <;> intro h <;> linarith
  · intro h; rw [Real.exp_lt_exp]; linarith

/-- Scaling the phase variance (shorter wavelength) by `c ≥ 1` lowers the OTF: it is raised to the power `c`. -/
theorem sf2otf_scale (s c : ℝ) (hs : 0 ≤ s) (hc : 1 ≤ c) : sf2otf (c * s) ≤ sf2otf s := by
  unfold sf2otf
  rw [Real.exp_le_exp]; nlinarith

/-! ### C43: structure functions -/

theorem fftPsd_re (psd : Img ℝ) (k l : ℕ) :
    (fftPsd psd k l).re = ∑ u ∈ range psd.nx, ∑ v ∈ range psd.ny,
      psd.px (shiftIdx psd.nx u) (shiftIdx psd.ny v) *
        Real.cos (2 * Real.pi * ((k * u : ℝ) / psd.nx + (l * v : ℝ) / psd.ny)) := by
  unfold fftPsd
  rw [Complex.re_sum]
  refine sum_congr rfl fun u _ => ?_
  rw [Complex.re_sum]
  refine sum_congr rfl fun v _ => ?_
  rw [Complex.re_ofReal_mul, ← Complex.ofReal_neg, Complex.exp_ofReal_mul_I_re, Real.cos_neg]

theorem shiftIdx_lt (n i : ℕ) (h : 0 < n) : shiftIdx n i < n := Nat.mod_lt _ h

/-- `fftshift` is a permutation: the sum is unchanged. -/
theorem sum_shift (n : ℕ) (f : ℕ → ℝ) : ∑ i ∈ range n, f (shiftIdx n i) = ∑ i ∈ range n, f i := by
  rcases Nat.eq_zero_or_pos n with rfl | hn
  · simp
  refine sum_nbij' (shiftIdx n) (fun i => (i + n / 2) % n) ?_ ?_ ?_ ?_ ?_
  · intro i _; exact mem_range.2 (shiftIdx_lt n i hn)
  · intro i _; exact mem_range.2 (Nat.mod_lt _ hn)
  · intro i hi
    rw [mem_range] at hi
    unfold shiftIdx
    rw [Nat.mod_add_mod, show i + n - n / 2 + n / 2 = i + n by omega, Nat.add_mod_right, Nat.mod_eq_of_lt hi]
  · intro i hi
    rw [mem_range] at hi
    unfold shiftIdx
    rw [show (i + n / 2) % n + n - n / 2 = (i + n / 2) % n + (n - n / 2) by omega, Nat.mod_add_mod,
      show i + n / 2 + (n - n / 2) = i + n by omega, Nat.add_mod_right, Nat.mod_eq_of_lt hi]
  · intro i _; rfl

theorem fftPsd_zero (psd : Img ℝ) : (fftPsd psd 0 0).re = flux psd := by
  rw [fftPsd_re]
  simp only [Nat.cast_zero, zero_mul, zero_div, add_zero, mul_zero, Real.cos_zero, mul_one]
  unfold flux
  rw [← sum_shift psd.nx fun i => ∑ j ∈ range psd.ny, psd.px i j]
  exact sum_congr rfl fun u _ => sum_shift psd.ny fun j => psd.px (shiftIdx psd.nx u) j

theorem fftPsd_le (psd : Img ℝ) (hv : ∀ i < psd.nx, ∀ j < psd.ny, 0 ≤ psd.px i j) (k l : ℕ) :
    (fftPsd psd k l).re ≤ flux psd := by
  rw [← fftPsd_zero, fftPsd_re, fftPsd_re]
  refine sum_le_sum fun u hu => sum_le_sum fun v hv' => ?_
  simp only [Nat.cast_zero, zero_mul, zero_div, add_zero, mul_zero, Real.cos_zero, mul_one]
  have h0 := hv _ (shiftIdx_lt psd.nx u (by rw [mem_range] at hu; omega)) _
    (shiftIdx_lt psd.ny v (by rw [mem_range] at hv'; omega))
  exact mul_le_of_le_one_right h0 (Real.cos_le_one _)

/-- The maximum found by numpy has real part equal to the integral of the PSD. -/
theorem isMax_re (psd : Img ℝ) (hv : ∀ i < psd.nx, ∀ j < psd.ny, 0 ≤ psd.px i j) (hx : 0 < psd.nx)
    (hy : 0 < psd.ny) (m : ℂ) (hm : IsMax psd.nx psd.ny (fftPsd psd) m) : m.re = flux psd := by
  obtain ⟨⟨k, hk, l, hl, rfl⟩, h⟩ := hm
  apply le_antisymm (fftPsd_le psd hv k l)
  rw [← fftPsd_zero]
  rcases h 0 hx 0 hy with h | h
  · exact h.le
  · exact h.1.le

/-- C43: the structure function of a non-negative PSD is non-negative, at most four times the total
variance, and zero at zero separation, which is pixel `⌊n/2⌋` on each axis. -/
theorem phaseSF_spec (psd : Img ℝ) (hv : ∀ i < psd.nx, ∀ j < psd.ny, 0 ≤ psd.px i j) (hx : 0 < psd.nx)
    (hy : 0 < psd.ny) (m : ℂ) (hm : IsMax psd.nx psd.ny (fftPsd psd) m) (k l : ℕ) :
    0 ≤ phaseSF psd m k l ∧ phaseSF psd m k l ≤ 4 * flux psd ∧
    phaseSF psd m (psd.nx / 2) (psd.ny / 2) = 0 := by
  have hre := isMax_re psd hv hx hy m hm
  unfold phaseSF
  simp only [Complex.sub_re, hre]
  refine ⟨?_, ?_, ?_⟩
  · have := fftPsd_le psd hv (shiftIdx psd.nx k) (shiftIdx psd.ny l); linarith
  · have : -flux psd ≤ (fftPsd psd (shiftIdx psd.nx k) (shiftIdx psd.ny l)).re := by
      rw [← fftPsd_zero, fftPsd_re, fftPsd_re, ← sum_neg_distrib]
      refine sum_le_sum fun u hu => ?_
      rw [← sum_neg_distrib]
      refine sum_le_sum fun v hv' => ?_
      simp only [Nat.cast_zero, zero_mul, zero_div, add_zero, mul_zero, Real.cos_zero, mul_one]
      have h0 := hv _ (shiftIdx_lt psd.nx u (by rw [mem_range] at hu; omega)) _
        (shiftIdx_lt psd.ny v (by rw [mem_range] at hv'; omega))
      nlinarith [Real.neg_one_le_cos (2 * Real.pi * ((shiftIdx psd.nx k * u : ℝ) / psd.nx +
        (shiftIdx psd.ny l * v : ℝ) / psd.ny))]
    linarith
  · have z : ∀ n, 0 < n → shiftIdx n (n / 2) = 0 := by
      intro n hn
      unfold shiftIdx
      rw [show n / 2 + n - n / 2 = n by omega, Nat.mod_self]
    rw [z _ hx, z _ hy, fftPsd_zero]; ring

/-- Non-vacuity: the maximum exists for every non-empty PSD (the lexicographic order is total). -/
theorem isMax_exists (nx ny : ℕ) (cov : ℕ → ℕ → ℂ) (hx : 0 < nx) (hy : 0 < ny) : ∃ m, IsMax nx ny cov m := by
  classical
  have total : ∀ a b : ℂ, cle a b ∨ cle b a := by
    intro a b
    unfold cle
    rcases lt_trichotomy a.re b.re with h | h | h
    · exact Or.inl (Or.inl h)
    · rcases le_total a.im b.im with h' | h'
      · exact Or.inl (Or.inr ⟨h, h'⟩)
      · exact Or.inr (Or.inr ⟨h.symm, h'⟩)
    · exact Or.inr (Or.inl h)
  have trans : ∀ a b c : ℂ, cle a b → cle b c → cle a c := by
    rintro a b c (h1 | ⟨h1, h1'⟩) (h2 | ⟨h2, h2'⟩)
    · exact Or.inl (h1.trans h2)
    · exact Or.inl (h2 ▸ h1)
    · exact Or.inl (h1 ▸ h2)
    · exact Or.inr ⟨h1.trans h2, h1'.trans h2'⟩
  have refl : ∀ a : ℂ, cle a a := fun a => Or.inr ⟨rfl, le_rfl⟩
  suffices ∀ s : Finset (ℕ × ℕ), s.Nonempty → ∃ p ∈ s, ∀ q ∈ s, cle (cov q.1 q.2) (cov p.1 p.2) by
    obtain ⟨p, hp, h⟩ := this (range nx ×ˢ range ny) ⟨(0, 0), by simp [hx, hy]⟩
    simp only [mem_product, mem_range] at hp h
    exact ⟨_, ⟨p.1, hp.1, p.2, hp.2, rfl⟩, fun k hk l hl => h (k, l) ⟨hk, hl⟩⟩
  intro s hs
  induction hs using Finset.Nonempty.cons_induction with
  | singleton a => exact ⟨a, by simp, by simp [refl]⟩
  | cons a s ha hs ih =>
    obtain ⟨p, hp, h⟩ := ih
    rcases total (cov a.1 a.2) (cov p.1 p.2) with h1 | h1
    · exact ⟨p, by simp [hp], by simp only [mem_cons]; rintro q (rfl | hq); exacts [h1, h q hq]⟩
    · exact ⟨a, by simp, by
        simp only [mem_cons]; rintro q (rfl | hq); exacts [refl _, trans _ _ _ (h q hq) h1]⟩

/-- C43: so is the structure function made by `cov2sf`, as far as its real part (the one used) goes. -/
theorem cov2sf_spec (psd : Img ℝ) (hv : ∀ i < psd.nx, ∀ j < psd.ny, 0 ≤ psd.px i j) (hx : 0 < psd.nx)
    (hy : 0 < psd.ny) (m : ℂ) (hm : IsMax psd.nx psd.ny (fftPsd psd) m) (k l : ℕ) :
    0 ≤ (cov2sf m (fftPsd psd k l)).re ∧ (cov2sf m (fftPsd psd 0 0)).re = 0 := by
  have hre := isMax_re psd hv hx hy m hm
  have e : ∀ c : ℂ, (cov2sf m c).re = 2 * (m.re - c.re) := by
    intro c
    unfold cov2sf
    simp only [Complex.sub_re, Complex.conj_re, Complex.mul_re, Complex.re_ofNat, Complex.im_ofNat]
    ring
  rw [e, e, hre, fftPsd_zero]
  have := fftPsd_le psd hv k l
  exact ⟨by linarith, by ring⟩

/-! ### C34: piston filter -/

theorem integral_sin_sq_pi : ∫ θ in (0:ℝ)..Real.pi, Real.sin θ ^ 2 = Real.pi / 2 := by
  rw [integral_sin_sq]; simp

theorem sombrero_integrable (x : ℝ) : IntervalIntegrable
    (fun θ => Real.cos (x * Real.cos θ) * Real.sin θ ^ 2) MeasureTheory.volume 0 Real.pi := by
  apply Continuous.intervalIntegrable
  fun_prop

/-- `|J1(x)/x| ≤ 1/2`, and close to 1/2 near zero. -/
theorem sombrero1_bounds (x : ℝ) : |sombrero1 x| ≤ 1 / 2 ∧ 1 / 2 - x ^ 2 / 4 ≤ sombrero1 x := by
  have pi0 := Real.pi_pos
  have i2 : IntervalIntegrable (fun θ => Real.sin θ ^ 2) MeasureTheory.volume 0 Real.pi := by
    apply Continuous.intervalIntegrable; fun_prop
  have hup : ∫ θ in (0:ℝ)..Real.pi, Real.cos (x * Real.cos θ) * Real.sin θ ^ 2 ≤ Real.pi / 2 := by
    rw [← integral_sin_sq_pi]
    refine intervalIntegral.integral_mono_on pi0.le (sombrero_integrable x) i2 fun θ _ => ?_
    exact mul_le_of_le_one_left (sq_nonneg _) (Real.cos_le_one _)
  have hlo : -(Real.pi / 2) ≤ ∫ θ in (0:ℝ)..Real.pi, Real.cos (x * Real.cos θ) * Real.sin θ ^ 2 := by
    rw [← integral_sin_sq_pi, ← intervalIntegral.integral_neg]
    refine intervalIntegral.integral_mono_on pi0.le i2.neg (sombrero_integrable x) fun θ _ => ?_
    nlinarith [Real.neg_one_le_cos (x * Real.cos θ), sq_nonneg (Real.sin θ)]
  have hnear : (1 - x ^ 2 / 2) * (Real.pi / 2) ≤
      ∫ θ in (0:ℝ)..Real.pi, Real.cos (x * Real.cos θ) * Real.sin θ ^ 2 := by
    rw [← integral_sin_sq_pi, ← intervalIntegral.integral_const_mul]
    refine intervalIntegral.integral_mono_on pi0.le (i2.const_mul _) (sombrero_integrable x) fun θ _ => ?_
    have h1 := Real.one_sub_sq_div_two_le_cos (x := x * Real.cos θ)
    have h2 : (x * Real.cos θ) ^ 2 ≤ x ^ 2 := by
      rw [mul_pow]
      exact mul_le_of_le_one_right (sq_nonneg x) (Real.cos_sq_le_one θ)
    nlinarith [sq_nonneg (Real.sin θ)]
  unfold sombrero1
  generalize (∫ θ in (0:ℝ)..Real.pi, Real.cos (x * Real.cos θ) * Real.sin θ ^ 2) = I at *
  constructor
  · rw [abs_le]
    constructor
    · rw [one_div Real.pi, inv_mul_eq_div, le_div_iff₀ pi0]; linarith
    · rw [one_div Real.pi, inv_mul_eq_div, div_le_iff₀ pi0]; linarith
  · rw [one_div Real.pi, inv_mul_eq_div, le_div_iff₀ pi0]
    nlinarith

/-- C34: the piston filter is in [0, 1] at every frequency, so multiplying a PSD by it never increases it;
at zero frequency it is not exactly zero but below (πD·10⁻¹⁰)²: it removes piston up to that. -/
theorem pistonFilter_spec (D f : ℝ) :
    0 ≤ pistonFilter D f ∧ pistonFilter D f ≤ 1 ∧
    (∀ W, 0 ≤ W → 0 ≤ W * pistonFilter D f ∧ W * pistonFilter D f ≤ W) ∧
    pistonFilter D 0 ≤ (Real.pi * D * 1e-10) ^ 2 := by
  have b : ∀ f, 0 ≤ pistonFilter D f ∧ pistonFilter D f ≤ 1 := by
    intro f
    unfold pistonFilter
    simp only
    split_ifs with h1 h2 h2
    all_goals first | exact ⟨le_rfl, zero_le_one⟩ | skip
    all_goals
      push Not at h2
      refine ⟨h2, ?_⟩
      nlinarith [sq_nonneg (sombrero1 (Real.pi * D * 1e-10)), sq_nonneg (sombrero1 (Real.pi * D * f))]
  obtain ⟨b0, b1⟩ := b f
  refine ⟨b0, b1, fun W hW => ⟨mul_nonneg hW b0, mul_le_of_le_one_right hW b1⟩, ?_⟩
  unfold pistonFilter
  simp only [if_true]
  set x := Real.pi * D * 1e-10
  obtain ⟨h1, h2⟩ := sombrero1_bounds x
  rw [abs_le] at h1
  split_ifs
  · positivity
  · by_cases hx : x ^ 2 ≤ 2
    · have : 0 ≤ sombrero1 x := by linarith
      nlinarith
    · push Not at hx
      nlinarith [sq_nonneg (sombrero1 x)]

/-- `|J1(x)/x| < 1/2` away from zero. -/
theorem sombrero1_lt (x : ℝ) (hx : x ≠ 0) : |sombrero1 x| < 1 / 2 := by
  have pi0 := Real.pi_pos
  have c1 : ContinuousOn (fun θ => Real.cos (x * Real.cos θ) * Real.sin θ ^ 2) (Set.Icc 0 Real.pi) := by fun_prop
  have c2 : ContinuousOn (fun θ : ℝ => Real.sin θ ^ 2) (Set.Icc 0 Real.pi) := by fun_prop
  have hup : ∫ θ in (0:ℝ)..Real.pi, Real.cos (x * Real.cos θ) * Real.sin θ ^ 2 < Real.pi / 2 := by
    rw [← integral_sin_sq_pi]
    refine intervalIntegral.integral_lt_integral_of_continuousOn_of_le_of_exists_lt pi0 c1 c2 (fun θ _ => ?_) ?_
    · exact mul_le_of_le_one_left (sq_nonneg _) (Real.cos_le_one _)
    · have hc : 0 < 1 + |x| := by positivity
      have hx0 : 0 < |x| := abs_pos.2 hx
      refine ⟨Real.arccos (1 / (1 + |x|)), ⟨Real.arccos_nonneg _, Real.arccos_le_pi _⟩, ?_⟩
      have h1 : 1 / (1 + |x|) < 1 := by rw [div_lt_one hc]; linarith
      have h0 : 0 < 1 / (1 + |x|) := by positivity
      rw [Real.cos_arccos (by linarith) h1.le]
      have hs : 0 < Real.sin (Real.arccos (1 / (1 + |x|))) := by
        rw [Real.sin_arccos]
        apply Real.sqrt_pos.2
        nlinarith
      have hlt : |x * (1 / (1 + |x|))| < 1 := by
        rw [abs_mul, abs_of_pos h0, mul_one_div, div_lt_one hc]; linarith
      rw [abs_lt] at hlt
      have hpi := Real.pi_gt_three
      have hne : Real.cos (x * (1 / (1 + |x|))) ≠ 1 := by
        rw [Ne, Real.cos_eq_one_iff_of_lt_of_lt (by linarith) (by linarith)]
        exact mul_ne_zero hx h0.ne'
      have := lt_of_le_of_ne (Real.cos_le_one (x * (1 / (1 + |x|)))) hne
      exact mul_lt_of_lt_one_left (by positivity) this
  have hlo : ∫ θ in (0:ℝ)..Real.pi, -(Real.sin θ ^ 2) <
      ∫ θ in (0:ℝ)..Real.pi, Real.cos (x * Real.cos θ) * Real.sin θ ^ 2 := by
    refine intervalIntegral.integral_lt_integral_of_continuousOn_of_le_of_exists_lt pi0 c2.neg c1 (fun θ _ => ?_) ?_
    · nlinarith [Real.neg_one_le_cos (x * Real.cos θ), sq_nonneg (Real.sin θ)]
    · refine ⟨Real.pi / 2, ⟨by linarith, by linarith⟩, ?_⟩
      simp
  rw [intervalIntegral.integral_neg, integral_sin_sq_pi] at hlo
  unfold sombrero1
  generalize (∫ θ in (0:ℝ)..Real.pi, Real.cos (x * Real.cos θ) * Real.sin θ ^ 2) = I at *
  rw [abs_lt]
  constructor
  · rw [one_div Real.pi, inv_mul_eq_div, lt_div_iff₀ pi0]; linarith
  · rw [one_div Real.pi, inv_mul_eq_div, div_lt_iff₀ pi0]; linarith

/-- The filter removes nothing completely away from zero frequency. -/
theorem pistonFilter_pos (D f : ℝ) (hD : D ≠ 0) : 0 < pistonFilter D f := by
  unfold pistonFilter
  simp only
  have key : ∀ y : ℝ, y ≠ 0 → 0 < 1 - 4 * sombrero1 (Real.pi * D * y) ^ 2 := by
    intro y hy
    have := sombrero1_lt (Real.pi * D * y) (mul_ne_zero (mul_ne_zero Real.pi_ne_zero hD) hy)
    rw [abs_lt] at this
    nlinarith
  have h := key (if f = 0 then 1e-10 else f) (by split_ifs with h0; norm_num; exact h0)
  rw [if_neg (not_lt.2 h.le)]
  exact h

/-- C34: on the grids of the frequency domain the filter is zero at the central frequency and at no other one. -/
theorem domainPiston_spec (n : ℕ) (D : ℝ) (hD : D ≠ 0) (k : ℕ → ℕ → ℝ) (i j : ℕ) :
    (domainPiston n D k i j = 0 ↔ i = n / 2 ∧ j = n / 2) ∧ 0 ≤ domainPiston n D k i j ∧ domainPiston n D k i j ≤ 1 := by
  unfold domainPiston
  split_ifs with h
  · exact ⟨by simp [h], le_refl _, zero_le_one⟩
  · have hp := pistonFilter_pos D (k i j) hD
    exact ⟨⟨fun e => absurd e hp.ne', fun h' => absurd h' h⟩, hp.le, (pistonFilter_spec D (k i j)).2.1⟩

/-- C34: and the filter can be computed without clipping: it is never negative to begin with. -/
theorem pistonFilter_unclipped (D f : ℝ) (hf : f ≠ 0) :
    pistonFilter D f = 1 - 4 * sombrero1 (Real.pi * D * f) ^ 2 := by
  unfold pistonFilter
  simp only [if_neg hf]
  rw [if_neg]
  have := (sombrero1_bounds (Real.pi * D * f)).1
  rw [abs_le] at this
  nlinarith

/-! ### C35: fftsym -/

/-- C35: what the property asks for: `out[i, j] = x[-i, -j]` (indices modulo the size). -/
def Mirrored (n : ℕ) (x : ℕ → ℕ → ℝ) (out : Img ℝ) : Prop :=
  ∀ i < n, ∀ j < n, out.px i j = x ((n - i) % n) ((n - j) % n)

/-- C35 (violation): the result is not the mirror image of any array whose element (0,1) is not zero: the
last column is never filled. -/
theorem fftsym_not_mirror (n : ℕ) (hn : 2 ≤ n) (x : ℕ → ℕ → ℝ) (h : x 0 1 ≠ 0) :
    ¬ Mirrored n x (fftsym 0 n x) := by
  intro hm
  have := hm 0 (by omega) (n - 1) (by omega)
  rw [Nat.sub_zero, Nat.mod_self, show n - (n - 1) = 1 by omega, Nat.mod_eq_of_lt (by omega : 1 < n)] at this
  apply h
  rw [← this]
  unfold fftsym
  simp only
  rw [if_neg (by omega), if_neg (by omega), if_neg (by omega), if_neg (by omega)]

/-- C35 (part): only the origin is right for every array. Missing: everything else, see
`fftsym_not_mirror`; in the interior every row is a copy of the reversed diagonal. -/
theorem fftsym_partial (n : ℕ) (x : ℕ → ℕ → ℝ) :
    (fftsym 0 n x).px 0 0 = x 0 0 ∧
    ∀ i j, 1 ≤ i → i < n - 1 → 1 ≤ j → j < n - 1 → (fftsym 0 n x).px i j = x (n - j) (n - j) := by
  unfold fftsym
  refine ⟨by simp, fun i j h1 h2 h3 h4 => ?_⟩
  simp only
  rw [if_neg (by omega), if_neg (by omega), if_neg (by omega), if_pos (by omega)]

/-- Non-vacuity: the 3x3 array `x[i, j] = i + 3j` has x[0,1] = 3. -/
example : ¬ Mirrored 3 (fun i j => i + 3 * j) (fftsym 0 3 fun i j => (i:ℝ) + 3 * j) :=
  fftsym_not_mirror 3 (by norm_num) _ (by norm_num)

/-! ### C74: astrometry -/

/-- Multiplying the OTF by the phasor moves the image by `b·(dx, dy)` high-resolution pixels. -/
theorem phasor_shift (n : ℕ) (hn : 0 < n) (otf : ℕ → ℕ → ℂ) (b : ℕ) (dx dy p q : ℝ) :
    hires n (fun u v => otf u v * phasor b dx dy (angFreq n u) (angFreq n v)) p q =
      hires n otf (p - b * dx) (q - b * dy) := by
  unfold hires
  congr 1
  refine sum_congr rfl fun u _ => sum_congr rfl fun v _ => ?_
  rw [mul_assoc]
  congr 1
  unfold phasor
  rw [← Complex.exp_add]
  congr 1
  have hn' : (n:ℂ) ≠ 0 := by exact_mod_cast hn.ne'
  unfold angFreq
  push_cast
  field_simp
  ring

/-- C74: in `sf_3D_to_psf_3D` a source shifted by `(dx, dy)` pixels appears exactly there, in detector
pixels of `k` high-resolution ones; in `sf_3D_to_psf_4D` this holds except for a binning of two. -/
theorem astrometry (k : ℕ) (hk : 1 ≤ k) (dx : ℝ) :
    (binFact3 k * dx) / k = dx ∧ (k ≠ 2 → (binFact4 k * dx) / k = dx) := by
  have h0 : (k:ℝ) ≠ 0 := by positivity
  constructor
  · unfold binFact3
    split_ifs with h
    · field_simp
    · obtain rfl : k = 1 := by omega
      simp
  · intro h2
    unfold binFact4
    split_ifs with h
    · field_simp
    · obtain rfl : k = 1 := by omega
      simp

/-- C287 (violation): with a binning of two, sources are placed at half the requested offset. -/
theorem astrometry_violation (dx : ℝ) : (binFact4 2 * dx) / ((2:ℕ):ℝ) = dx / 2 := by
  norm_num [binFact4]

/-- C74 (exact): with several wavelengths a source off the centre appears at the requested position exactly at
the wavelengths whose binning is the reference one (or one, for a reference of one or two). -/
theorem astrometry_exact (kRef k : ℕ) (hk : 1 ≤ k) (dx : ℝ) (hd : dx ≠ 0) :
    offset4 kRef k dx = dx ↔ k = if 2 < kRef then kRef else 1 := by
  have h0 : (k:ℝ) ≠ 0 := by positivity
  unfold offset4 binFact4
  rw [div_eq_iff h0, mul_comm dx, mul_left_inj' hd]
  constructor
  · intro h; exact_mod_cast h.symm
  · intro h; exact_mod_cast h.symm

/-! ### C75: jitter -/

theorem jitterScale_pos (umax : ℝ) (h : umax ≠ 0) : 0 < jitterScale umax := by
  unfold jitterScale
  have : 0 < Real.log 2 := Real.log_pos (by norm_num)
  positivity

/-- C75 (part): a jitter whose cross term is consistent (`|jxy| ≤ |jx jy|`) only ever lowers the OTF; a zero
jitter leaves it unchanged. Missing: the two functions disagree (`jitter_disagree`) and a zero jitter can
raise (`jitterFlow_violation`). -/
theorem jitter4_nonneg_partial (umax jx jy jxy u v : ℝ) (h : |jxy| ≤ |jx * jy|) :
    0 ≤ jitter4 umax jx jy jxy u v ∧ Real.exp (-0.5 * jitter4 umax jx jy jxy u v) ≤ 1 ∧
      jitter4 umax 0 0 0 u v = 0 := by
  have h0 : 0 ≤ jitterScale umax := by unfold jitterScale; positivity
  have key : 0 ≤ jx ^ 2 * u ^ 2 + jy ^ 2 * v ^ 2 + 2 * jxy * (u * v) := by
    have a : |jxy * (u * v)| ≤ |jx * u| * |jy * v| := by
      rw [abs_mul]
      calc |jxy| * |u * v| ≤ |jx * jy| * |u * v| := mul_le_mul_of_nonneg_right h (abs_nonneg _)
        _ = |jx * u| * |jy * v| := by rw [← abs_mul, ← abs_mul]; congr 1; ring
    have b := abs_le.1 a
    nlinarith [sq_nonneg (|jx * u| - |jy * v|), sq_abs (jx * u), sq_abs (jy * v)]
  have n : 0 ≤ jitter4 umax jx jy jxy u v := mul_nonneg h0 key
  refine ⟨n, ?_, ?_⟩
  · rw [Real.exp_le_one_iff]; linarith
  · unfold jitter4; ring

theorem form_neg (jx jy jxy : ℝ) (hx : jx ≠ 0) (h : |jx * jy| < |jxy|) :
    ∃ u v : ℝ, |u| ≤ 1 ∧ |v| ≤ 1 ∧ jx ^ 2 * u ^ 2 + jy ^ 2 * v ^ 2 + 2 * jxy * (u * v) < 0 := by
  have hx2 : 0 < jx ^ 2 := by positivity
  have d : 0 < |jxy| + jx ^ 2 := by have := abs_nonneg jxy; linarith
  refine ⟨-jxy / (|jxy| + jx ^ 2), jx ^ 2 / (|jxy| + jx ^ 2), ?_, ?_, ?_⟩
  · rw [abs_div, abs_neg, abs_of_pos d, div_le_one d]; linarith
  · rw [abs_div, abs_of_pos hx2, abs_of_pos d, div_le_one d]; linarith [abs_nonneg jxy]
  · have e : jx ^ 2 * (-jxy / (|jxy| + jx ^ 2)) ^ 2 + jy ^ 2 * (jx ^ 2 / (|jxy| + jx ^ 2)) ^ 2 +
        2 * jxy * (-jxy / (|jxy| + jx ^ 2) * (jx ^ 2 / (|jxy| + jx ^ 2))) =
        jx ^ 2 / (|jxy| + jx ^ 2) ^ 2 * ((jx * jy) ^ 2 - jxy ^ 2) := by
      field_simp; ring
    rw [e]
    have := sq_lt_sq.2 h
    exact mul_neg_of_pos_of_neg (by positivity) (by linarith)

/-- C75 (violation): a jitter with a cross term larger than the axis terms allow amplifies some frequencies of the OTF
(the kernel is applied, as one of the axis terms is not zero). -/
theorem jitter4_amplifies (umax jx jy jxy : ℝ) (hu : umax ≠ 0) (hj : jx ≠ 0 ∨ jy ≠ 0) (h : |jx * jy| < |jxy|) :
    ∃ u v, |u| ≤ 1 ∧ |v| ≤ 1 ∧ 1 < Real.exp (-0.5 * jitter4 umax jx jy jxy u v) := by
  have hp := jitterScale_pos umax hu
  obtain ⟨u, v, h1, h2, h3⟩ : ∃ u v : ℝ, |u| ≤ 1 ∧ |v| ≤ 1 ∧ jx ^ 2 * u ^ 2 + jy ^ 2 * v ^ 2 + 2 * jxy * (u * v) < 0 := by
    rcases hj with hx | hy
    · exact form_neg jx jy jxy hx h
    · obtain ⟨v, u, h1, h2, h3⟩ := form_neg jy jx jxy hy (by rwa [mul_comm])
      exact ⟨u, v, h2, h1, by linarith⟩
  refine ⟨u, v, h1, h2, ?_⟩
  rw [Real.one_lt_exp_iff]
  unfold jitter4
  have := mul_neg_of_pos_of_neg hp h3
  linarith

example : ∃ u v, |u| ≤ 1 ∧ |v| ≤ 1 ∧ 1 < Real.exp (-0.5 * jitter4 1 1 1 2 u v) :=
  jitter4_amplifies 1 1 1 2 one_ne_zero (Or.inl one_ne_zero) (by norm_num)

/-- C75 (violation): the two functions interpret the same jitter differently: for a one-axis jitter `jx`
they agree only for `jx = 0` or `jx = 1/4`. -/
theorem jitter_disagree (umax jx : ℝ) (hu : umax ≠ 0) :
    jitter3 umax jx 0 0 1 0 = jitter4 umax jx 0 0 1 0 ↔ jx = 0 ∨ jx = 1 / 4 := by
  have hp := jitterScale_pos umax hu
  have e3 : jitter3 umax jx 0 0 1 0 = jitterScale umax * (jx / 4) := by
    unfold jitter3 jitterScale; ring
  have e4 : jitter4 umax jx 0 0 1 0 = jitterScale umax * jx ^ 2 := by
    unfold jitter4; ring
  rw [e3, e4, mul_right_inj' hp.ne']
  constructor
  · intro h
    have : jx * (jx - 1 / 4) = 0 := by nlinarith
    rcases mul_eq_zero.1 this with h | h
    · exact Or.inl h
    · exact Or.inr (by linarith)
  · rintro (rfl | rfl) <;> norm_num

/-- C75 (violation, exact): a given jitter makes the multi-wavelength function fail exactly when it is zero on
both axes, at Nyquist sampling with several wavelengths. -/
theorem jitterFlow_violation (jx jy jxy : ℝ) (ny : Bool) (nWvl : ℕ) :
    jitterFlow (some (jx, jy, jxy)) ny nWvl = .error .unboundLocal ↔
      ny = true ∧ 1 < nWvl ∧ jx = 0 ∧ jy = 0 := by
  unfold jitterFlow
  simp only [Option.isSome_some, true_and]
  by_cases h : ny = true ∧ 1 < nWvl ∧ ¬ (jx ≠ 0 ∨ jy ≠ 0)
  · rw [if_pos h]
    push Not at h
    exact ⟨fun _ => ⟨h.1, h.2.1, h.2.2.1, h.2.2.2⟩, fun _ => rfl⟩
  · rw [if_neg h]
    constructor
    · intro e; cases e
    · rintro ⟨a, b, c, d⟩
      exact absurd ⟨a, b, by simp [c, d]⟩ h

/-! ### C76: Strehl ratio -/

theorem norm_phasor (b : ℕ) (dx dy u v : ℝ) : ‖phasor b dx dy u v‖ = 1 := by
  unfold phasor
  rw [show -(Real.pi:ℂ) * Complex.I * ((b * (u * dx + v * dy) : ℝ) : ℂ) =
    ((-Real.pi * (b * (u * dx + v * dy)) : ℝ) : ℂ) * Complex.I by push_cast; ring]
  exact Complex.norm_exp_ofReal_mul_I _

/-- C76: at each frequency the modulus of the total OTF is at most that of the instrument, whatever the
turbulence, the jitter, the pixel and the position of the source; more turbulence lowers it. -/
theorem norm_otfTot (sf ncpa d pix : ℝ) (b : ℕ) (dx dy u v : ℝ) (hs : 0 ≤ sf) (hd : 0 ≤ d)
    (hp0 : 0 ≤ pix) (hp1 : pix ≤ 1) :
    ‖otfTot sf ncpa d pix (phasor b dx dy u v)‖ ≤ |ncpa| ∧
    ∀ sf' ≥ sf, ‖otfTot sf' ncpa d pix (phasor b dx dy u v)‖ ≤ ‖otfTot sf ncpa d pix (phasor b dx dy u v)‖ := by
  have e : ∀ s, ‖otfTot s ncpa d pix (phasor b dx dy u v)‖ =
      sf2otf s * (|ncpa| * Real.exp (-0.5 * d) * pix) := by
    intro s
    unfold otfTot
    rw [norm_mul, norm_mul, norm_phasor, mul_one, Complex.norm_real, Complex.norm_real, Real.norm_eq_abs,
      Real.norm_eq_abs, abs_mul, abs_mul, abs_of_pos (Real.exp_pos _), abs_of_nonneg hp0,
      abs_of_pos (show 0 < sf2otf s from Real.exp_pos _)]
  have hk : Real.exp (-0.5 * d) ≤ 1 := by rw [Real.exp_le_one_iff]; linarith
  have k0 := Real.exp_pos (-0.5 * d)
  constructor
  · rw [e]
    have s1 := (sf2otf_spec sf 0 hs).2.1
    have s0 := (sf2otf_spec sf 0 hs).1
    have a : |ncpa| * Real.exp (-0.5 * d) * pix ≤ |ncpa| := by
      have h1 : |ncpa| * Real.exp (-0.5 * d) ≤ |ncpa| := mul_le_of_le_one_right (abs_nonneg _) hk
      have h2 : 0 ≤ |ncpa| * Real.exp (-0.5 * d) := mul_nonneg (abs_nonneg _) k0.le
      exact (mul_le_of_le_one_right h2 hp1).trans h1
    have a0 : 0 ≤ |ncpa| * Real.exp (-0.5 * d) * pix := mul_nonneg (mul_nonneg (abs_nonneg _) k0.le) hp0
    exact (mul_le_of_le_one_left a0 s1).trans a
  · intro s' hs'
    rw [e, e]
    refine mul_le_mul_of_nonneg_right ?_ (mul_nonneg (mul_nonneg (abs_nonneg _) k0.le) hp0)
    unfold sf2otf
    rw [Real.exp_le_exp]; linarith

/-- C76: if at every frequency the modulus of the total OTF is at most the diffraction-limited OTF, the
Strehl ratio is between 0 and 100 %. Together with `norm_otfTot` this covers every instrument without
static aberrations (whose static OTF is the diffraction-limited one). -/
theorem strehl_range (tot : List ℂ) (dl : List ℝ) (h : List.Forall₂ (fun t d => ‖t‖ ≤ d) tot dl)
    (hp : 0 < dl.sum) : 0 ≤ strehl tot dl ∧ strehl tot dl ≤ 100 := by
  have nn : 0 ≤ (tot.map (‖·‖)).sum :=
    List.sum_nonneg (by simp only [List.mem_map]; rintro _ ⟨t, -, rfl⟩; exact norm_nonneg _)
  have le : (tot.map (‖·‖)).sum ≤ dl.sum := by
    clear hp nn
    induction h with
    | nil => simp
    | cons h1 _ ih => simp only [List.map_cons, List.sum_cons]; linarith
  unfold strehl
  refine ⟨div_nonneg (by linarith) hp.le, ?_⟩
  rw [div_le_iff₀ hp]; linarith

/-- Non-vacuity: two frequencies. -/
example : List.Forall₂ (fun (t : ℂ) (d : ℝ) => ‖t‖ ≤ d) [otfTot 1 1 0 1 1, otfTot 2 (1/2) 0 1 1] [1, 1/2] := by
  have h : ∀ s c : ℝ, 0 ≤ s → 0 ≤ c → ‖otfTot s c 0 1 1‖ ≤ c := by
    intro s c hs hc
    have := (norm_otfTot s c 0 1 0 0 0 0 0 hs le_rfl (by norm_num) le_rfl).1
    have e : phasor 0 0 0 0 0 = 1 := by simp [phasor]
    rw [e, abs_of_nonneg hc] at this
    exact this
  exact .cons (h 1 1 (by norm_num) (by norm_num)) (.cons (h 2 (1/2) (by norm_num) (by norm_num)) .nil)

/-! ### C77: default stellar parameters; C78: stored metrics -/

/-- C77 (part): with explicit stellar parameters of one row per source and one column per wavelength, each
wavelength finds its fluxes. Missing: the default value (`flux4_default`). -/
theorem flux4_partial (nSrc nWvl : ℕ) : flux4 (some [nSrc, nWvl]) nWvl = .ok (List.replicate nWvl nSrc) := by
  unfold flux4
  suffices ∀ l : List ℕ, (∀ j ∈ l, j < nWvl) →
      l.mapM (column ((some [nSrc, nWvl]).getD [1])) = .ok (List.replicate l.length nSrc) by
    have h := this (List.range nWvl) (by simp)
    rwa [List.length_range] at h
  intro l hl
  induction l with
  | nil => rfl
  | cons a t ih =>
    rw [List.mapM_cons, ih fun j hj => hl j (List.mem_cons_of_mem _ hj)]
    have : column ((some [nSrc, nWvl]).getD [1]) a = .ok nSrc := by
      simp only [Option.getD_some, column, if_pos (hl a List.mem_cons_self)]
    rw [this]
    rfl

/-- C77 (violation): with the default stellar parameters no PSF can be computed, whatever the number of
wavelengths. -/
theorem flux4_default (nWvl : ℕ) (h : 0 < nWvl) : flux4 none nWvl = .error .indexError := by
  unfold flux4
  obtain ⟨n, rfl⟩ : ∃ n, nWvl = n + 1 := ⟨nWvl - 1, by omega⟩
  rw [List.range_succ_eq_map, List.mapM_cons]
  rfl

theorem ensquared_length (psf : Img ℝ) (n y0 x0 : ℕ) (hx : psf.nx = n) (hy : psf.ny = n) (hn : flux psf ≠ 0) :
    ∃ c, ensquared psf y0 x0 = some c ∧ c.length = min (n - y0) (n - x0) + 1 := by
  unfold ensquared
  simp only [hn, if_false, hx, hy]
  exact ⟨_, rfl, by simp⟩

/-- C78 (exact): for a PSF of `n x n` pixels with its peak at the central pixel `n/2`, the ensquared energy
can be stored exactly when the size of the OTF equals the rounded-up even size of the PSF: it fails for every
PSF that was binned. -/
theorem storeEnsquared_iff (psf : Img ℝ) (n nOtf : ℕ) (hx : psf.nx = n) (hy : psf.ny = n)
    (hf : flux psf ≠ 0) (hn : 1 ≤ n) :
    storeEnsquared nOtf psf (n / 2) (n / 2) = .ok () ↔ nOtf / 2 = (n + 1) / 2 := by
  obtain ⟨c, hc, hl⟩ := ensquared_length psf n (n / 2) (n / 2) hx hy hf
  unfold storeEnsquared
  rw [hc]
  simp only [hl, min_self]
  split_ifs with h
  · simp only [true_iff]; omega
  · simp only [reduceCtorEq, false_iff]; omega

/-- C78 (violation): in particular for a binning factor of two or more, `nOtf = n * kRef`. -/
theorem storeEnsquared_violation (psf : Img ℝ) (n k : ℕ) (hx : psf.nx = n) (hy : psf.ny = n)
    (hf : flux psf ≠ 0) (hn : 2 ≤ n) (hk : 2 ≤ k) :
    storeEnsquared (n * k) psf (n / 2) (n / 2) ≠ .ok () := by
  rw [Ne, storeEnsquared_iff psf n _ hx hy hf (by omega)]
  have : n * 2 ≤ n * k := Nat.mul_le_mul_left _ hk
  omega

/-- C78 (part): without binning and for an even size it is stored. Missing: binned PSFs. -/
theorem storeEnsquared_partial (psf : Img ℝ) (m : ℕ) (hx : psf.nx = 2 * m) (hy : psf.ny = 2 * m)
    (hf : flux psf ≠ 0) (hm : 1 ≤ m) : storeEnsquared (2 * m) psf (2 * m / 2) (2 * m / 2) = .ok () := by
  rw [storeEnsquared_iff psf (2 * m) _ hx hy hf (by omega)]
  omega

/-- Non-vacuity: a uniform 4x4 PSF has flux 16. -/
example : storeEnsquared 4 ⟨4, 4, fun _ _ => 1⟩ 2 2 = .ok () :=
  storeEnsquared_partial ⟨4, 4, fun _ _ => 1⟩ 2 rfl rfl (by norm_num [flux]) (by norm_num)

/-- C29: the OTF of a phase difference of variance `2 σ²` (structure function `2 σ²`) is `exp(-σ²)`, and
structure functions that add give OTFs that multiply. -/
theorem sf2otf_marechal (s t : ℝ) : sf2otf (2 * s) = Real.exp (-s) ∧ sf2otf (s + t) = sf2otf s * sf2otf t := by
  unfold sf2otf
  constructor
  · congr 1; ring
  · rw [← Real.exp_add]; congr 1; ring

/-- C43: the structure function made by `cov2sf` is real when the largest covariance is, and does not change when
the covariance is replaced by its mirror image. -/
theorem cov2sf_real (m c : ℂ) : (cov2sf m c).im = 2 * m.im ∧ cov2sf m ((starRingEnd ℂ) c) = cov2sf m c := by
  unfold cov2sf
  constructor
  · simp
  · simp; ring

/-! ### Cases that meet the hypotheses -/

/-- A case meeting the hypotheses of `detectorPsf_spec`. -/
example : ∃ psf, detectorPsf ⟨12, 12, fun i j => (i : ℝ) * j⟩ 2 5 4 = .ok psf ∧ psf.nx = 4 := by
  obtain ⟨psf, _, _, h, h1, _⟩ := detectorPsf_spec ⟨12, 12, fun i j => (i : ℝ) * j⟩ 12 2 5 4 rfl rfl (by norm_num) (by norm_num) (by norm_num) (by norm_num)
  exact ⟨psf, h, by rw [h1]; rfl⟩

/-- A case meeting the hypotheses of `storeEnsquared_iff`. -/
example : storeEnsquared 5 ⟨4, 4, fun _ _ => 1⟩ 2 2 = .ok () :=
  (storeEnsquared_iff ⟨4, 4, fun _ _ => 1⟩ 4 5 rfl rfl (by norm_num [flux, List.range_succ]) (by norm_num)).2 (by norm_num)

/-- A case meeting the hypotheses of `storeEnsquared_violation`. -/
example : storeEnsquared (4 * 3) ⟨4, 4, fun _ _ => 1⟩ (4 / 2) (4 / 2) ≠ .ok () :=
  storeEnsquared_violation ⟨4, 4, fun _ _ => 1⟩ 4 3 rfl rfl (by norm_num [flux, List.range_succ]) (by norm_num) (by norm_num)

/-! ### Cases that meet the hypotheses -/

/-- A case meeting the hypotheses of `detectorPsf_too_small`. -/
example : detectorPsf ⟨10, 10, fun _ _ => 1⟩ 3 4 8 = .error .broadcast :=
  detectorPsf_too_small _ 10 3 4 8 rfl (by norm_num) (by norm_num)

/-- The covariance of a spectrum with one bright pixel at its centre is constant: its maximum is its value at the origin. -/
example : ∃ m, IsMax 2 2 (fftPsd ⟨2, 2, fun i j => if i = 1 ∧ j = 1 then 3 else 0⟩) m := by
  refine ⟨fftPsd ⟨2, 2, fun i j => if i = 1 ∧ j = 1 then 3 else 0⟩ 0 0, ⟨0, by norm_num, 0, by norm_num, rfl⟩, ?_⟩
  intro k hk l hl
  have : fftPsd ⟨2, 2, fun i j => if i = 1 ∧ j = 1 then 3 else 0⟩ k l = fftPsd ⟨2, 2, fun i j => if i = 1 ∧ j = 1 then 3 else 0⟩ 0 0 := by
    simp [fftPsd, Finset.sum_range_succ, shiftIdx]
  rw [this]
  simp [cle]

end P3.Psf
