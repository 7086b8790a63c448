import Verif.Model.Otf
import Verif.Lemmas.Dft
import Verif.Props.Psf
import Mathlib.Algebra.Order.Chebyshev
import Mathlib.Analysis.InnerProductSpace.Basic
import Mathlib.Tactic.LinearCombination
/-
Properties of pupils, transfer functions and PSFs.
-/
namespace P3.Otf
open Finset P3.Rec P3.Images

variable {N : ℕ} [NeZero N]

/-! ### Correlations -/

theorem fftCorrel_eq (a b : Pix N → ℂ) (r : Pix N) :
    fftCorrel a b r = (∑ y, a (y + r) * (starRingEnd ℂ) (b y)) / ((N : ℂ) * N) := by
  unfold fftCorrel; rw [idft_corr]

omit [NeZero N] in
theorem padded_field_zero (n p : ℕ) (pupil phase : ℕ → ℕ → ℝ) (hp : ∀ i j, 0 ≤ pupil i j)
    (h : ∀ i < n, ∀ j < n, phase i j = 0) :
    (padded n p (field pupil phase) : Pix N → ℂ) = padded n p (fun i j => ((|pupil i j| : ℝ) : ℂ)) := by
  ext x
  unfold padded ext
  split_ifs with hx
  · unfold field
    simp only [h _ (by omega : (((x.1.val : ℤ) - p).toNat) < n) _ (by omega : (((x.2.val : ℤ) - p).toNat) < n),
      abs_of_nonneg (hp _ _)]
    simp
  · rfl

/-- For non-negative pupils the two branches of the code agree: the OTF is the correlation of the field. -/
theorem pupil2otf_eq (n p : ℕ) (pupil phase : ℕ → ℕ → ℝ) (hp : ∀ i j, 0 ≤ pupil i j) (x : Pix N) :
    pupil2otf n p pupil phase x =
      (∑ y : Pix N, padded n p (field pupil phase) (y + (x - centre N)) *
        (starRingEnd ℂ) (padded n p (field pupil phase) y)) / ((N : ℂ) * N) := by
  unfold pupil2otf
  split_ifs with h
  · rw [padded_field_zero n p pupil phase hp h]
    simp only [fftshift, fftCorrel_eq]
    have e : (∑ y : Pix N, padded n p (fun i j => ((|pupil i j| : ℝ) : ℂ)) (y + (x - centre N)) *
        (starRingEnd ℂ) (padded n p (fun i j => ((|pupil i j| : ℝ) : ℂ)) y)) / ((N : ℂ) * N) =
      (((∑ y : Pix N, padded n p (fun i j => |pupil i j|) (y + (x - centre N)) *
        padded n p (fun i j => |pupil i j|) y) / ((N : ℝ) * N) : ℝ) : ℂ) := by
      push_cast
      congr 1
      refine sum_congr rfl fun y _ => ?_
      have : ∀ z : Pix N, padded n p (fun i j => ((|pupil i j| : ℝ) : ℂ)) z =
          ((padded n p (fun i j => |pupil i j|) z : ℝ) : ℂ) := by
        intro z; unfold padded ext; split_ifs <;> simp
      rw [this, this, Complex.conj_ofReal]
    rw [e, Complex.ofReal_re]
  · simp only [fftshift, fftCorrel_eq]

/-- Total power of the pupil: `∑ pupil²`. -/
noncomputable def power (n : ℕ) (pupil : ℕ → ℕ → ℝ) : ℝ := ∑ i ∈ range n, ∑ j ∈ range n, pupil i j ^ 2

theorem sum_zmod {M : Type} [AddCommMonoid M] (g : ZMod N → M) : ∑ z, g z = ∑ m ∈ range N, g (m : ZMod N) := by
  refine sum_nbij' (fun z => z.val) (fun m => (m : ZMod N)) ?_ ?_ ?_ ?_ ?_
  · intro z _; exact mem_range.2 (ZMod.val_lt z)
  · intro m _; exact mem_univ _
  · intro z _; exact ZMod.natCast_zmod_val z
  · intro m hm; exact ZMod.val_cast_of_lt (mem_range.1 hm)
  · intro z _; rw [ZMod.natCast_zmod_val]

/-- Sums over the padded array reduce to sums over the pupil. -/
theorem sum_padded (n p : ℕ) (hN : N = n + 2 * p) (E : ℕ → ℕ → ℂ) (F : Pix N → ℂ → ℂ) (hF : ∀ y, F y 0 = 0) :
    ∑ y : Pix N, F y (padded n p E y) =
      ∑ i ∈ range n, ∑ j ∈ range n, F (((p + i : ℕ) : ZMod N), ((p + j : ℕ) : ZMod N)) (E i j) := by
  have one : ∀ g : ℕ → ℂ, (∀ m < N, ¬ (p ≤ m ∧ m < p + n) → g m = 0) →
      ∑ m ∈ range N, g m = ∑ i ∈ range n, g (p + i) := by
    intro g hg
    have e := sum_Ico_eq_sum_range g p (p + n)
    rw [show p + n - p = n by omega] at e
    rw [← e]
    symm
    refine sum_subset ?_ ?_
    · intro m hm; rw [mem_Ico] at hm; rw [mem_range]; omega
    · intro m hm hm'; rw [mem_Ico] at hm'; exact hg m (mem_range.1 hm) hm'
  have z : ∀ m l : ℕ, m < N → l < N → ¬ ((p ≤ m ∧ m < p + n) ∧ (p ≤ l ∧ l < p + n)) →
      (padded n p E ((m : ZMod N), (l : ZMod N))) = 0 := by
    intro m l hm hl h
    unfold padded ext
    simp only [ZMod.val_cast_of_lt hm, ZMod.val_cast_of_lt hl]
    rw [if_neg (by omega)]
  rw [Fintype.sum_prod_type, sum_zmod, one]
  · refine sum_congr rfl fun i hi => ?_
    rw [mem_range] at hi
    rw [sum_zmod, one]
    · refine sum_congr rfl fun j hj => ?_
      rw [mem_range] at hj
      congr 1
      unfold padded ext
      simp only [ZMod.val_cast_of_lt (show p + i < N by omega), ZMod.val_cast_of_lt (show p + j < N by omega)]
      rw [if_pos (by omega)]
      congr 1 <;> omega
    · intro m hm h
      rw [z _ _ (by omega) hm (by omega), hF]
  · intro m hm h
    rw [sum_zmod]
    refine sum_eq_zero fun l hl => ?_
    rw [z _ _ hm (mem_range.1 hl) (by omega), hF]

theorem norm_field (pupil phase : ℕ → ℕ → ℝ) (i j : ℕ) : ‖field pupil phase i j‖ = |pupil i j| := by
  unfold field
  rw [norm_mul, Complex.norm_real, Real.norm_eq_abs, mul_comm Complex.I, Complex.norm_exp_ofReal_mul_I, mul_one]

/-- Power of the padded field. -/
theorem sum_normSq_padded (n p : ℕ) (hN : N = n + 2 * p) (pupil phase : ℕ → ℕ → ℝ) :
    ∑ y : Pix N, ‖(padded n p (field pupil phase) y : ℂ)‖ ^ 2 = power n pupil := by
  have h := sum_padded (N := N) n p hN (field pupil phase) (fun _ c => ((‖c‖ ^ 2 : ℝ) : ℂ)) (by simp)
  simp only [norm_field, sq_abs] at h
  unfold power
  exact_mod_cast h

/-! ### C157: modulus, symmetry and peak -/

/-- C157: the OTF of a pupil with any phase has its peak at the central pixel `(N//2, N//2)`, where it is the
power of the pupil over `N²`; nowhere is its modulus larger, and it is Hermitian about the centre. -/
theorem pupil2otf_spec (n p : ℕ) (hN : N = n + 2 * p) (pupil phase : ℕ → ℕ → ℝ) (hp : ∀ i j, 0 ≤ pupil i j)
    (r : Pix N) :
    pupil2otf n p pupil phase (centre N) = ((power n pupil / (N * N) : ℝ) : ℂ) ∧
    ‖pupil2otf n p pupil phase (centre N + r)‖ ≤ power n pupil / (N * N) ∧
    pupil2otf n p pupil phase (centre N - r) =
      (starRingEnd ℂ) (pupil2otf n p pupil phase (centre N + r)) := by
  have hE := sum_normSq_padded (N := N) n p hN pupil phase
  simp only [pupil2otf_eq n p pupil phase hp, sub_self, add_sub_cancel_left, add_zero,
    show ∀ a b : Pix N, a - b - a = -b from fun a b => by abel]
  generalize (padded n p (field pupil phase) : Pix N → ℂ) = E at hE ⊢
  have N0 : (0:ℝ) < (N:ℝ) * N := by
    have : (0:ℝ) < N := Nat.cast_pos.2 (NeZero.pos N)
    positivity
  refine ⟨?_, ?_, ?_⟩
  · rw [← hE]; push_cast
    congr 1
    exact sum_congr rfl fun y _ => by rw [Complex.mul_conj, Complex.normSq_eq_norm_sq]; push_cast; ring
  · rw [norm_div, ← hE]
    have : ‖(N:ℂ) * N‖ = (N:ℝ) * N := by simp
    rw [this]
    apply div_le_div_of_nonneg_right _ N0.le
    refine (norm_sum_le _ _).trans ?_
    have e : ∀ y, ‖E (y + r) * (starRingEnd ℂ) (E y)‖ ≤ (‖E (y + r)‖ ^ 2 + ‖E y‖ ^ 2) / 2 := by
      intro y
      rw [norm_mul, RCLike.norm_conj]
      nlinarith [sq_nonneg (‖E (y + r)‖ - ‖E y‖)]
    refine (sum_le_sum fun y _ => e y).trans (le_of_eq ?_)
    rw [← sum_div, sum_add_distrib]
    have : ∑ y, ‖E (y + r)‖ ^ 2 = ∑ y, ‖E y‖ ^ 2 := Equiv.sum_comp (Equiv.addRight r) (fun y => ‖E y‖ ^ 2)
    rw [this]; ring
  · rw [map_div₀, map_mul, Complex.conj_natCast, map_sum]
    congr 1
    rw [← Equiv.sum_comp (Equiv.addRight r)]
    refine sum_congr rfl fun y _ => ?_
    simp only [Equiv.coe_addRight, map_mul, Complex.conj_conj, add_neg_cancel_right]
    ring

/-- Without aberrations the OTF is real and non-negative. -/
theorem pupil2otf_flat (n p : ℕ) (pupil : ℕ → ℕ → ℝ) (hp : ∀ i j, 0 ≤ pupil i j) (x : Pix N) :
    (pupil2otf n p pupil (fun _ _ => 0) x).im = 0 ∧ 0 ≤ (pupil2otf n p pupil (fun _ _ => 0) x).re := by
  have e : pupil2otf n p pupil (fun _ _ => 0) x =
      (((∑ y : Pix N, padded n p pupil (y + (x - centre N)) * padded n p pupil y) / ((N:ℝ) * N) : ℝ) : ℂ) := by
    rw [pupil2otf_eq n p pupil _ hp]
    push_cast
    congr 1
    refine sum_congr rfl fun y _ => ?_
    have : ∀ z : Pix N, padded n p (field pupil fun _ _ => 0) z = ((padded n p pupil z : ℝ) : ℂ) := by
      intro z; unfold padded ext field; split_ifs <;> simp
    rw [this, this, Complex.conj_ofReal]
  rw [e, Complex.ofReal_im, Complex.ofReal_re]
  refine ⟨rfl, div_nonneg (sum_nonneg fun y _ => ?_) (by positivity)⟩
  have : ∀ z : Pix N, 0 ≤ padded n p pupil z := by
    intro z; unfold padded ext; split_ifs
    · exact hp _ _
    · exact le_rfl
  exact mul_nonneg (this _) (this _)

/-! ### C158: with a sampling of two or more no frequency is folded -/

/-- A sampling of two or more makes the padded array at least `2 n - 1` pixels wide. -/
theorem padOf_two (n : ℕ) (samp : ℝ) (h : 2 ≤ samp) : ∃ p : ℕ, padOf n samp = p ∧ 2 * n ≤ n + 2 * p + 1 := by
  have h0 : (0:ℝ) ≤ (samp - 1) * n / 2 := by
    have : (0:ℝ) ≤ n := by positivity
    have : (0:ℝ) ≤ samp - 1 := by linarith
    positivity
  have h1 : (n:ℝ) / 2 ≤ (samp - 1) * n / 2 := by
    have : (0:ℝ) ≤ n := by positivity
    nlinarith
  unfold padOf trunc
  rw [if_neg (by linarith)]
  have hk : ((n / 2 : ℕ) : ℤ) ≤ ⌊(samp - 1) * n / 2⌋ := by
    rw [Int.le_floor]
    refine le_trans ?_ h1
    push_cast
    exact Nat.cast_div_le
  refine ⟨⌊(samp - 1) * n / 2⌋.toNat, ?_, ?_⟩
  · omega
  · omega

/-- Pixel at `(a, b)` from the centre. -/
def at' (N : ℕ) (a b : ℤ) : Pix N := centre N + ((a : ZMod N), (b : ZMod N))

theorem padded_at (n p : ℕ) (hN : N = n + 2 * p) (h2 : 2 * n ≤ N + 1) (E : ℕ → ℕ → ℂ) (i j : ℕ) (hi : i < n)
    (hj : j < n) (a b : ℤ) (ha : |a| ≤ (N / 2 : ℕ)) (hb : |b| ≤ (N / 2 : ℕ)) :
    padded n p E ((((p + i : ℕ) : ZMod N), ((p + j : ℕ) : ZMod N)) + ((a : ZMod N), (b : ZMod N)))
      = ext n E (i + a) (j + b) := by
  have key : ∀ (i : ℕ) (a : ℤ), i < n → |a| ≤ (N / 2 : ℕ) →
      (((((p + i : ℕ) : ZMod N) + (a : ZMod N)).val : ℤ) - p = i + a) ∨
      (¬ (0 ≤ (i : ℤ) + a ∧ (i : ℤ) + a < n) ∧
        ¬ (0 ≤ ((((p + i : ℕ) : ZMod N) + (a : ZMod N)).val : ℤ) - p ∧
          ((((p + i : ℕ) : ZMod N) + (a : ZMod N)).val : ℤ) - p < n)) := by
    intro i a hi ha
    have hv : ((((p + i : ℕ) : ZMod N) + (a : ZMod N)).val : ℤ) = ((p + i : ℕ) + a : ℤ) % N := by
      rw [← ZMod.val_intCast]; push_cast; rfl
    rw [hv]
    have hN0 : (0:ℤ) < N := by exact_mod_cast NeZero.pos N
    have hb := abs_le.1 ha
    by_cases h1 : (0:ℤ) ≤ (p + i : ℕ) + a
    · by_cases h3 : ((p + i : ℕ) + a : ℤ) < N
      · left; rw [Int.emod_eq_of_lt h1 h3]; push_cast; ring
      · right
        have : ((p + i : ℕ) + a : ℤ) % N = (p + i : ℕ) + a - N := by
          rw [← Int.sub_emod_right, Int.emod_eq_of_lt (by omega) (by omega)]
        rw [this]; omega
    · right
      have : ((p + i : ℕ) + a : ℤ) % N = (p + i : ℕ) + a + N := by
        rw [← Int.add_emod_right, Int.emod_eq_of_lt (by omega) (by omega)]
      rw [this]; omega
  unfold padded
  simp only [Prod.mk_add_mk]
  rcases key i a hi ha with h | ⟨h, h'⟩
  · rcases key j b hj hb with g | ⟨g, g'⟩
    · rw [h, g]
    · unfold ext; rw [if_neg (fun c => g' c.2.2), if_neg (fun c => g c.2.2)]
  · unfold ext; rw [if_neg (fun c => h' ⟨c.1, c.2.1⟩), if_neg (fun c => h ⟨c.1, c.2.1⟩)]

/-- C158: with a sampling of at least two, the OTF at `(a, b)` pixels from the centre is the sum over the pupil
of the field times its conjugate shifted by `(a, b)`, the field being zero outside the pupil: no light is folded
from one edge to the other. -/
theorem pupil2otf_linear (n : ℕ) (samp : ℝ) (hs : 2 ≤ samp) (p : ℕ) (hp : padOf n samp = p) (hN : N = n + 2 * p)
    (pupil phase : ℕ → ℕ → ℝ) (hpos : ∀ i j, 0 ≤ pupil i j) (a b : ℤ) (ha : |a| ≤ (N / 2 : ℕ))
    (hb : |b| ≤ (N / 2 : ℕ)) :
    pupil2otf n p pupil phase (at' N a b) =
      (∑ i ∈ range n, ∑ j ∈ range n, ext n (field pupil phase) (i + a) (j + b) *
        (starRingEnd ℂ) (field pupil phase i j)) / ((N : ℂ) * N) := by
  obtain ⟨q, hq, h2⟩ := padOf_two n samp hs
  have : q = p := by rw [hp] at hq; exact_mod_cast hq.symm
  subst this
  rw [pupil2otf_eq n q pupil phase hpos]
  congr 1
  unfold at'
  rw [add_sub_cancel_left]
  rw [sum_padded (N := N) n q hN (field pupil phase)
    (fun y c => padded n q (field pupil phase) (y + ((a : ZMod N), (b : ZMod N))) * (starRingEnd ℂ) c) (by simp)]
  refine sum_congr rfl fun i hi => sum_congr rfl fun j hj => ?_
  rw [mem_range] at hi hj
  rw [padded_at n q hN (by omega) _ i j hi hj a b ha hb]

/-- C158: the OTF is zero beyond the cut-off: separations of at least the size of the pupil. -/
theorem pupil2otf_cutoff (n : ℕ) (samp : ℝ) (hs : 2 ≤ samp) (p : ℕ) (hp : padOf n samp = p) (hN : N = n + 2 * p)
    (pupil phase : ℕ → ℕ → ℝ) (hpos : ∀ i j, 0 ≤ pupil i j) (a b : ℤ) (ha : |a| ≤ (N / 2 : ℕ))
    (hb : |b| ≤ (N / 2 : ℕ)) (hc : (n:ℤ) ≤ |a| ∨ (n:ℤ) ≤ |b|) :
    pupil2otf n p pupil phase (at' N a b) = 0 := by
  rw [pupil2otf_linear n samp hs p hp hN pupil phase hpos a b ha hb]
  have : ∀ i ∈ range n, ∀ j ∈ range n, ext n (field pupil phase) ((i:ℤ) + a) ((j:ℤ) + b) = 0 := by
    intro i hi j hj
    rw [mem_range] at hi hj
    unfold ext
    rw [if_neg]
    intro h
    rcases hc with h1 | h1 <;> rcases le_abs.1 h1 with h2 | h2 <;> omega
  rw [sum_eq_zero fun i hi => sum_eq_zero fun j hj => by rw [this i hi j hj, zero_mul], zero_div]

/-! ### C159: PSFs -/

omit [NeZero N] in
theorem dot_comm' (k x : Pix N) : dot k x = dot x k := by unfold dot; ring

theorem sum_idft (F : Pix N → ℂ) : ∑ x, idft F x = F 0 := by
  have hN : (N : ℂ) ≠ 0 := Nat.cast_ne_zero.2 (NeZero.ne N)
  unfold idft
  rw [← mul_sum, sum_comm]
  simp only [← mul_sum]
  have : ∀ k : Pix N, ∑ x : Pix N, (ZMod.stdAddChar (dot k x) : ℂ) = if k = 0 then (N : ℂ) ^ 2 else 0 := by
    intro k; rw [← sum_char]; exact sum_congr rfl fun x _ => by rw [dot_comm']
  simp only [this]
  simp
  field_simp

/-- Half a pixel for arrays of even size unless `psfInOnePix` is set. -/
noncomputable def halfPix (N : ℕ) (onePix : Bool) : ℝ := if N % 2 = 0 ∧ onePix = false then 1 / 2 else 0

omit [NeZero N] in
theorem centre_even (h : N % 2 = 0) : centre N + centre N = 0 := by
  unfold centre
  have : (((N / 2 : ℕ) : ZMod N)) + ((N / 2 : ℕ) : ZMod N) = 0 := by
    rw [← Nat.cast_add, show N / 2 + N / 2 = N by omega, ZMod.natCast_self]
  rw [Prod.mk_add_mk, this]; rfl

/-- Sample of the phasor. -/
noncomputable def ph (onePix : Bool) (a : Pix N) : ℂ :=
  if N % 2 = 0 ∧ onePix = false then Complex.exp (Complex.I * Real.pi * ((freqOf a.2 + freqOf a.1 : ℝ) : ℂ)) else 1

/-- Both parities: the PSF is the inverse transform of the OTF read from its central pixel. -/
theorem psfRaw_idft (otf : Pix N → ℂ) (b : Bool) (x : Pix N) :
    psfRaw otf b x = (idft (fun k => otf (k + centre N) * ph b (k + centre N)) (x - centre N)).re := by
  unfold psfRaw
  by_cases h : N % 2 = 0
  · simp only [h, if_true, ph]
    unfold fftshift
    congr 2
    ext k
    rw [show k - centre N = k + centre N from by rw [sub_eq_add_neg, neg_eq_of_add_eq_zero_left (centre_even h)]]
  · simp only [h, if_false, ph, false_and]
    unfold fftshift ifftshift
    rfl

theorem val_centre : ((centre N).1.val) = N / 2 ∧ ((centre N).2.val) = N / 2 := by
  have : N / 2 < N := Nat.div_lt_self (NeZero.pos N) (by norm_num)
  unfold centre
  exact ⟨ZMod.val_cast_of_lt this, ZMod.val_cast_of_lt this⟩

theorem sum_psfRaw (otf : Pix N → ℂ) (b : Bool) : ∑ x, psfRaw otf b x = (otf (centre N)).re := by
  simp only [psfRaw_idft]
  have hs := Equiv.sum_comp (Equiv.subRight (centre N))
    (fun x => idft (fun k => otf (k + centre N) * ph b (k + centre N)) x)
  simp only [Equiv.subRight_apply] at hs
  rw [← Complex.re_sum, hs, sum_idft, zero_add]
  have : ph b (centre N) = 1 := by
    unfold ph freqOf
    split_ifs
    · rw [(val_centre (N := N)).1, (val_centre (N := N)).2]; simp
    · rfl
  rw [this, mul_one]

/-- C159: a PSF obtained from an OTF has unit sum; it is undefined exactly when the OTF has a zero (real part) at
its centre. -/
theorem otf2psf_unit (otf : Pix N → ℂ) (b : Bool) :
    (otf2psf otf b = none ↔ (otf (centre N)).re = 0) ∧
    ∀ psf, otf2psf otf b = some psf → ∑ x, psf x = 1 := by
  unfold otf2psf
  simp only [sum_psfRaw]
  refine ⟨by split_ifs with h <;> simp [h], ?_⟩
  intro psf
  split_ifs with h
  · intro hc; cases hc
  · intro hc
    cases hc
    simp only [← sum_div, sum_psfRaw, div_self h]

/-- The PSF as a sum over the pixels of the OTF. -/
theorem psfRaw_sum (otf : Pix N → ℂ) (b : Bool) (x : Pix N) :
    psfRaw otf b x = ((1 / (N : ℂ) ^ 2) * ∑ m ∈ range N, ∑ l ∈ range N,
      otf (at' N ((m:ℤ) - (N / 2 : ℕ)) ((l:ℤ) - (N / 2 : ℕ))) *
        Complex.exp (2 * Real.pi * Complex.I *
          (((((m:ℝ) - (N / 2 : ℕ)) * ((x.1.val : ℝ) - (N / 2 : ℕ) + halfPix N b) +
            ((l:ℝ) - (N / 2 : ℕ)) * ((x.2.val : ℝ) - (N / 2 : ℕ) + halfPix N b)) / N : ℝ) : ℂ))).re := by
  have hN : (N : ℝ) ≠ 0 := Nat.cast_ne_zero.2 (NeZero.ne N)
  rw [psfRaw_idft]
  unfold idft
  congr 2
  rw [← Equiv.sum_comp (Equiv.subRight (centre N))]
  simp only [Equiv.subRight_apply, sub_add_cancel]
  rw [Fintype.sum_prod_type, sum_zmod]
  refine sum_congr rfl fun m hm => ?_
  rw [sum_zmod]
  refine sum_congr rfl fun l hl => ?_
  rw [mem_range] at hm hl
  have ea : at' N ((m:ℤ) - (N / 2 : ℕ)) ((l:ℤ) - (N / 2 : ℕ)) = ((m : ZMod N), (l : ZMod N)) := by
    unfold at' centre
    generalize N / 2 = h
    rw [Prod.mk_add_mk]
    push_cast
    simp
  rw [ea, mul_assoc]
  congr 1
  have ed : dot (((m : ZMod N), (l : ZMod N)) - centre N) (x - centre N) =
      ((((m:ℤ) - (N / 2 : ℕ)) * ((x.1.val : ℤ) - (N / 2 : ℕ)) +
        ((l:ℤ) - (N / 2 : ℕ)) * ((x.2.val : ℤ) - (N / 2 : ℕ)) : ℤ) : ZMod N) := by
    unfold dot centre
    generalize N / 2 = h
    push_cast
    simp
  rw [ed, ZMod.stdAddChar_coe]
  unfold ph freqOf halfPix
  rw [ZMod.val_cast_of_lt hm, ZMod.val_cast_of_lt hl]
  have hNc : (N : ℂ) ≠ 0 := Nat.cast_ne_zero.2 (NeZero.ne N)
  clear ea ed
  generalize N / 2 = h2
  split_ifs with h
  · rw [← Complex.exp_add]
    congr 1
    push_cast
    field_simp
    ring
  · rw [one_mul]
    congr 1
    push_cast
    field_simp
    ring

/-- Intensity of the wave diffracted by the pupil field `E` at `(s, t)` (cycles per pixel of the pupil). -/
noncomputable def farField (n : ℕ) (E : ℕ → ℕ → ℂ) (s t : ℝ) : ℝ :=
  ‖∑ i ∈ range n, ∑ j ∈ range n, E i j * Complex.exp (2 * Real.pi * Complex.I * (((i:ℝ) * s + (j:ℝ) * t : ℝ) : ℂ))‖ ^ 2

omit [NeZero N] in
theorem sum_swap4 (a b : Finset ℕ) (F : ℕ → ℕ → ℕ → ℕ → ℂ) :
    ∑ m ∈ a, ∑ l ∈ a, ∑ i ∈ b, ∑ j ∈ b, F m l i j = ∑ i ∈ b, ∑ j ∈ b, ∑ m ∈ a, ∑ l ∈ a, F m l i j := by
  rw [sum_congr rfl fun m _ => sum_comm (s := a) (t := b) (f := fun l i => ∑ j ∈ b, F m l i j), sum_comm]
  refine sum_congr rfl fun i _ => ?_
  rw [sum_congr rfl fun m _ => sum_comm (s := a) (t := b) (f := fun l j => F m l i j), sum_comm]

omit [NeZero N] in
theorem shift_sum1 (n h : ℕ) (h2 : n ≤ h + 1) (h3 : n + h ≤ N) (g : ℤ → ℂ) (hg : ∀ z : ℤ, ¬ (0 ≤ z ∧ z < n) → g z = 0)
    (i : ℕ) (hi : i < n) : ∑ m ∈ range N, g (i + ((m:ℤ) - h)) = ∑ k ∈ range n, g k := by
  have e := sum_Ico_eq_sum_range (fun m : ℕ => g (i + ((m:ℤ) - h))) (h - i) (h - i + n)
  rw [show h - i + n - (h - i) = n by omega] at e
  have e2 : ∑ k ∈ range n, g (i + (((h - i + k : ℕ) : ℤ) - h)) = ∑ k ∈ range n, g k := by
    refine sum_congr rfl fun k _ => ?_
    congr 1; omega
  rw [← e2, ← e]
  symm
  refine sum_subset ?_ ?_
  · intro m hm; rw [mem_Ico] at hm; rw [mem_range]; omega
  · intro m _ hm; rw [mem_Ico] at hm; exact hg _ (by omega)

omit [NeZero N] in
/-- Transform of the linear autocorrelation. -/
theorem autocorr_transform (n h : ℕ) (h2 : n ≤ h + 1) (h3 : n + h ≤ N) (E : ℕ → ℕ → ℂ) (s t : ℝ) :
    ∑ m ∈ range N, ∑ l ∈ range N, (∑ i ∈ range n, ∑ j ∈ range n,
        ext n E (i + ((m:ℤ) - h)) (j + ((l:ℤ) - h)) * (starRingEnd ℂ) (E i j)) *
        Complex.exp (2 * Real.pi * Complex.I * ((((m:ℝ) - h) * s + ((l:ℝ) - h) * t : ℝ) : ℂ)) =
      ((farField n E s t : ℝ) : ℂ) := by
  have w : ∀ x y : ℝ, Complex.exp (2 * Real.pi * Complex.I * ((x + y : ℝ) : ℂ)) =
      Complex.exp (2 * Real.pi * Complex.I * (x : ℂ)) * Complex.exp (2 * Real.pi * Complex.I * (y : ℂ)) := by
    intro x y; rw [← Complex.exp_add]; congr 1; push_cast; ring
  have cj : ∀ x : ℝ, (starRingEnd ℂ) (Complex.exp (2 * Real.pi * Complex.I * (x : ℂ))) =
      Complex.exp (2 * Real.pi * Complex.I * ((-x : ℝ) : ℂ)) := by
    intro x
    rw [← Complex.exp_conj]
    congr 1
    simp only [map_mul, Complex.conj_ofReal, Complex.conj_I, map_ofNat]
    push_cast; ring
  have step : ∀ i < n, ∀ j < n, ∑ m ∈ range N, ∑ l ∈ range N,
      ext n E (i + ((m:ℤ) - h)) (j + ((l:ℤ) - h)) * (starRingEnd ℂ) (E i j) *
        Complex.exp (2 * Real.pi * Complex.I * ((((m:ℝ) - h) * s + ((l:ℝ) - h) * t : ℝ) : ℂ)) =
      (∑ k ∈ range n, ∑ o ∈ range n, E k o *
        Complex.exp (2 * Real.pi * Complex.I * (((k:ℝ) * s + (o:ℝ) * t : ℝ) : ℂ))) *
      (starRingEnd ℂ) (E i j * Complex.exp (2 * Real.pi * Complex.I * (((i:ℝ) * s + (j:ℝ) * t : ℝ) : ℂ))) := by
    intro i hi j hj
    let f : ℤ → ℤ → ℂ := fun a b => ext n E a b *
      Complex.exp (2 * Real.pi * Complex.I * (((a:ℝ) * s + (b:ℝ) * t : ℝ) : ℂ))
    have z : ∀ a b : ℤ, ¬ (0 ≤ a ∧ a < n) ∨ ¬ (0 ≤ b ∧ b < n) → f a b = 0 := by
      intro a b hab
      simp only [f, ext]
      rw [if_neg (by omega), zero_mul]
    have e1 : ∑ m ∈ range N, ∑ l ∈ range N, f (i + ((m:ℤ) - h)) (j + ((l:ℤ) - h)) =
        ∑ k ∈ range n, ∑ o ∈ range n, f k o := by
      rw [shift_sum1 n h h2 h3 (fun a => ∑ l ∈ range N, f a (j + ((l:ℤ) - h)))
        (fun a ha => sum_eq_zero fun l _ => z _ _ (Or.inl ha)) i hi]
      refine sum_congr rfl fun k _ => ?_
      exact shift_sum1 n h h2 h3 (fun b => f k b) (fun b hb => z _ _ (Or.inr hb)) j hj
    have e2 : ∑ k ∈ range n, ∑ o ∈ range n, f k o = ∑ k ∈ range n, ∑ o ∈ range n, E k o *
        Complex.exp (2 * Real.pi * Complex.I * (((k:ℝ) * s + (o:ℝ) * t : ℝ) : ℂ)) := by
      refine sum_congr rfl fun k hk => sum_congr rfl fun o ho => ?_
      rw [mem_range] at hk ho
      simp only [f, ext]
      rw [if_pos (by omega)]
      simp
    rw [← e2, ← e1, sum_mul]
    refine sum_congr rfl fun m _ => ?_
    rw [sum_mul]
    refine sum_congr rfl fun l _ => ?_
    simp only [f]
    rw [map_mul, cj]
    have : Complex.exp (2 * Real.pi * Complex.I * ((((m:ℝ) - h) * s + ((l:ℝ) - h) * t : ℝ) : ℂ)) =
        Complex.exp (2 * Real.pi * Complex.I * (((((i + ((m:ℤ) - h) : ℤ)):ℝ) * s + (((j + ((l:ℤ) - h) : ℤ)):ℝ) * t : ℝ) : ℂ)) *
        Complex.exp (2 * Real.pi * Complex.I * ((-((i:ℝ) * s + (j:ℝ) * t) : ℝ) : ℂ)) := by
      rw [← w]; congr 3; push_cast; ring
    rw [this]; ring
  have swap : ∑ m ∈ range N, ∑ l ∈ range N, (∑ i ∈ range n, ∑ j ∈ range n,
        ext n E (i + ((m:ℤ) - h)) (j + ((l:ℤ) - h)) * (starRingEnd ℂ) (E i j)) *
        Complex.exp (2 * Real.pi * Complex.I * ((((m:ℝ) - h) * s + ((l:ℝ) - h) * t : ℝ) : ℂ)) =
      ∑ i ∈ range n, ∑ j ∈ range n, ∑ m ∈ range N, ∑ l ∈ range N,
      ext n E (i + ((m:ℤ) - h)) (j + ((l:ℤ) - h)) * (starRingEnd ℂ) (E i j) *
        Complex.exp (2 * Real.pi * Complex.I * ((((m:ℝ) - h) * s + ((l:ℝ) - h) * t : ℝ) : ℂ)) := by
    simp only [sum_mul]
    exact sum_swap4 _ _ _
  rw [swap]
  rw [sum_congr rfl fun i hi => sum_congr rfl fun j hj => step i (mem_range.1 hi) j (mem_range.1 hj)]
  simp only [← mul_sum, ← map_sum]
  rw [Complex.mul_conj, Complex.normSq_eq_norm_sq]
  rfl

/-- C159: with a sampling of at least two, the PSF of a pupil that is not opaque is the intensity diffracted by the
pupil field, normalised to unit sum: pixel `x` is at `x - N//2` (plus half a pixel for even sizes, which puts the
centre between the four central pixels) over `N` cycles per pixel of the pupil.  In particular it is never negative. -/
theorem pupil2psf_farField (n : ℕ) (samp : ℝ) (hs : 2 ≤ samp) (p : ℕ) (hp : padOf n samp = p) (hN : N = n + 2 * p)
    (pupil phase : ℕ → ℕ → ℝ) (hpos : ∀ i j, 0 ≤ pupil i j) (hne : power n pupil ≠ 0) :
    ∃ psf : Pix N → ℝ, pupil2psf n p pupil phase = some psf ∧ ∑ x, psf x = 1 ∧ (∀ x, 0 ≤ psf x) ∧
      ∀ x, psf x = farField n (field pupil phase)
        (((x.1.val : ℝ) - (N / 2 : ℕ) + halfPix N false) / N) (((x.2.val : ℝ) - (N / 2 : ℕ) + halfPix N false) / N)
          / (N ^ 2 * power n pupil) := by
  have hN0 : (N : ℝ) ≠ 0 := Nat.cast_ne_zero.2 (NeZero.ne N)
  have hNc : (N : ℂ) ≠ 0 := Nat.cast_ne_zero.2 (NeZero.ne N)
  have hc := (pupil2otf_spec (N := N) n p hN pupil phase hpos 0).1
  have hre : (pupil2otf n p pupil phase (centre N)).re = power n pupil / (N * N) := by rw [hc, Complex.ofReal_re]
  have hre0 : (pupil2otf n p pupil phase (centre N)).re ≠ 0 := by
    rw [hre]; exact div_ne_zero hne (mul_ne_zero hN0 hN0)
  obtain ⟨u1, u2⟩ := otf2psf_unit (pupil2otf (N := N) n p pupil phase) false
  have raw : ∀ x, psfRaw (pupil2otf (N := N) n p pupil phase) false x = farField n (field pupil phase)
        (((x.1.val : ℝ) - (N / 2 : ℕ) + halfPix N false) / N) (((x.2.val : ℝ) - (N / 2 : ℕ) + halfPix N false) / N)
          / (N:ℝ) ^ 4 := by
    intro x
    obtain ⟨q, hq, h2⟩ := padOf_two n samp hs
    have : q = p := by rw [hp] at hq; exact_mod_cast hq.symm
    subst this
    rw [psfRaw_sum]
    have key := autocorr_transform (N := N) n (N / 2) (by omega) (by omega) (field pupil phase)
      (((x.1.val : ℝ) - (N / 2 : ℕ) + halfPix N false) / N) (((x.2.val : ℝ) - (N / 2 : ℕ) + halfPix N false) / N)
    have e : ∑ m ∈ range N, ∑ l ∈ range N,
        pupil2otf n q pupil phase (at' N ((m:ℤ) - (N / 2 : ℕ)) ((l:ℤ) - (N / 2 : ℕ))) *
        Complex.exp (2 * Real.pi * Complex.I *
          (((((m:ℝ) - (N / 2 : ℕ)) * ((x.1.val : ℝ) - (N / 2 : ℕ) + halfPix N false) +
            ((l:ℝ) - (N / 2 : ℕ)) * ((x.2.val : ℝ) - (N / 2 : ℕ) + halfPix N false)) / N : ℝ) : ℂ)) =
        ((farField n (field pupil phase)
        (((x.1.val : ℝ) - (N / 2 : ℕ) + halfPix N false) / N) (((x.2.val : ℝ) - (N / 2 : ℕ) + halfPix N false) / N) : ℝ) : ℂ)
          / ((N:ℂ) * N) := by
      rw [← key, sum_div]
      refine sum_congr rfl fun m hm => ?_
      rw [sum_div]
      refine sum_congr rfl fun l hl => ?_
      rw [mem_range] at hm hl
      rw [pupil2otf_linear n samp hs q hp hN pupil phase hpos _ _ (by rw [abs_le]; omega) (by rw [abs_le]; omega),
        div_mul_eq_mul_div]
      congr 3
      push_cast
      ring
    rw [e]
    have : (1 / (N:ℂ) ^ 2) * (((farField n (field pupil phase)
        (((x.1.val : ℝ) - (N / 2 : ℕ) + halfPix N false) / N) (((x.2.val : ℝ) - (N / 2 : ℕ) + halfPix N false) / N) : ℝ) : ℂ)
          / ((N:ℂ) * N)) = ((farField n (field pupil phase)
        (((x.1.val : ℝ) - (N / 2 : ℕ) + halfPix N false) / N) (((x.2.val : ℝ) - (N / 2 : ℕ) + halfPix N false) / N)
          / (N:ℝ) ^ 4 : ℝ) : ℂ) := by
      push_cast
      field_simp
    rw [this, Complex.ofReal_re]
  have ex : pupil2psf n p pupil phase = some fun x => psfRaw (pupil2otf (N := N) n p pupil phase) false x /
      ∑ y, psfRaw (pupil2otf (N := N) n p pupil phase) false y := by
    unfold pupil2psf otf2psf
    simp only []
    rw [if_neg (by rw [sum_psfRaw]; exact hre0)]
  have val : ∀ x : Pix N, psfRaw (pupil2otf (N := N) n p pupil phase) false x /
      ∑ y, psfRaw (pupil2otf (N := N) n p pupil phase) false y = farField n (field pupil phase)
        (((x.1.val : ℝ) - (N / 2 : ℕ) + halfPix N false) / N) (((x.2.val : ℝ) - (N / 2 : ℕ) + halfPix N false) / N)
          / (N ^ 2 * power n pupil) := by
    intro x
    rw [sum_psfRaw, raw, hre]
    generalize farField _ _ _ _ = f
    field_simp
  refine ⟨_, ex, u2 _ ex, fun x => ?_, val⟩
  simp only [val]
  have : 0 ≤ power n pupil := sum_nonneg fun i _ => sum_nonneg fun j _ => sq_nonneg _
  unfold farField
  positivity

/-! ### C160: static aberrations -/

theorem maxPix_otf (n p : ℕ) (hN : N = n + 2 * p) (pupil phase : ℕ → ℕ → ℝ) (hp : ∀ i j, 0 ≤ pupil i j) :
    maxPix (fun y : Pix N => (pupil2otf n p pupil phase y).re) = power n pupil / (N * N) := by
  unfold maxPix
  apply le_antisymm
  · refine sup'_le _ _ fun y _ => ?_
    have h := (pupil2otf_spec (N := N) n p hN pupil phase hp (y - centre N)).2.1
    rw [add_sub_cancel] at h
    exact (Complex.re_le_norm _).trans h
  · have h := (pupil2otf_spec (N := N) n p hN pupil phase hp 0).1
    refine le_trans (le_of_eq ?_) (le_sup' (fun y : Pix N => (pupil2otf n p pupil phase y).re) (mem_univ (centre N)))
    simp only [h, Complex.ofReal_re]

theorem norm_otf_le_flat (n p : ℕ) (pupil phase : ℕ → ℕ → ℝ) (hp : ∀ i j, 0 ≤ pupil i j) (x : Pix N) :
    ‖pupil2otf n p pupil phase x‖ ≤ (pupil2otf n p pupil (fun _ _ => 0) x).re := by
  have hf : ((pupil2otf n p pupil (fun _ _ => 0) x).re : ℝ) =
      (∑ y : Pix N, padded n p pupil (y + (x - centre N)) * padded n p pupil y) / ((N:ℝ) * N) := by
    have e : pupil2otf n p pupil (fun _ _ => 0) x =
        (((∑ y : Pix N, padded n p pupil (y + (x - centre N)) * padded n p pupil y) / ((N:ℝ) * N) : ℝ) : ℂ) := by
      rw [pupil2otf_eq n p pupil _ hp]
      push_cast
      congr 1
      refine sum_congr rfl fun y _ => ?_
      have : ∀ z : Pix N, padded n p (field pupil fun _ _ => 0) z = ((padded n p pupil z : ℝ) : ℂ) := by
        intro z; unfold padded ext field; split_ifs <;> simp
      rw [this, this, Complex.conj_ofReal]
    rw [e, Complex.ofReal_re]
  rw [hf, pupil2otf_eq n p pupil phase hp, norm_div]
  have h1 : ‖(N:ℂ) * N‖ = (N:ℝ) * N := by simp
  rw [h1]
  apply div_le_div_of_nonneg_right _ (by positivity)
  refine (norm_sum_le _ _).trans (le_of_eq (sum_congr rfl fun y _ => ?_))
  have : ∀ z : Pix N, ‖(padded n p (field pupil phase) z : ℂ)‖ = padded n p pupil z := by
    intro z; unfold padded ext; split_ifs
    · rw [norm_field, abs_of_nonneg (hp _ _)]
    · simp
  rw [norm_mul, RCLike.norm_conj, this, this]

theorem power_nonneg (n : ℕ) (pupil : ℕ → ℕ → ℝ) : 0 ≤ power n pupil :=
  sum_nonneg fun _ _ => sum_nonneg fun _ _ => sq_nonneg _

/-- C160: the instrumental OTF is one at its central pixel, at most the diffraction-limited one in modulus
everywhere, and the diffraction-limited one lies between zero and one. -/
theorem staticOtf_spec (n p : ℕ) (hN : N = n + 2 * p) (pupil phase : ℕ → ℕ → ℝ) (hp : ∀ i j, 0 ≤ pupil i j)
    (hne : power n pupil ≠ 0) (x : Pix N) :
    staticOtf n p pupil phase (centre N) = 1 ∧
    |staticOtf n p pupil phase x| ≤ dlOtf n p pupil x ∧ dlOtf n p pupil x ≤ 1 ∧ dlOtf n p pupil (centre N) = 1 := by
  have hN0 : (N : ℝ) ≠ 0 := Nat.cast_ne_zero.2 (NeZero.ne N)
  have pos : 0 < power n pupil / (N * N) := by
    have := lt_of_le_of_ne (power_nonneg n pupil) (Ne.symm hne)
    have : (0:ℝ) < N := Nat.cast_pos.2 (NeZero.pos N)
    positivity
  have c : ∀ ph, staticOtf n p pupil ph (centre N) = 1 := by
    intro ph
    unfold staticOtf
    rw [maxPix_otf n p hN pupil ph hp, (pupil2otf_spec (N := N) n p hN pupil ph hp 0).1, Complex.ofReal_re,
      div_self pos.ne']
  have bound : |staticOtf n p pupil phase x| ≤ dlOtf n p pupil x := by
    unfold dlOtf staticOtf
    rw [maxPix_otf n p hN pupil phase hp, maxPix_otf n p hN pupil _ hp, abs_div, abs_of_pos pos]
    exact div_le_div_of_nonneg_right ((Complex.abs_re_le_norm _).trans (norm_otf_le_flat n p pupil phase hp x)) pos.le
  refine ⟨c _, bound, ?_, c _⟩
  unfold dlOtf staticOtf
  rw [maxPix_otf n p hN pupil _ hp, div_le_one pos]
  have h := (pupil2otf_spec (N := N) n p hN pupil (fun _ _ => 0) hp (x - centre N)).2.1
  rw [add_sub_cancel] at h
  exact (Complex.re_le_norm _).trans h

/-- C160: with static aberrations the Strehl ratio is at most 100 percent, whatever the structure function, the
(non-negative) jitter exponents, the pixel transfer function and the position of the source. -/
theorem strehl_static (n p : ℕ) (hN : N = n + 2 * p) (pupil phase : ℕ → ℕ → ℝ) (hp : ∀ i j, 0 ≤ pupil i j)
    (hne : power n pupil ≠ 0) (sf d pix u v : Pix N → ℝ) (b : ℕ) (dx dy : ℝ) (hs : ∀ x, 0 ≤ sf x)
    (hd : ∀ x, 0 ≤ d x) (h0 : ∀ x, 0 ≤ pix x) (h1 : ∀ x, pix x ≤ 1) :
    100 * (∑ x : Pix N, ‖Psf.otfTot (sf x) (staticOtf n p pupil phase x) (d x) (pix x)
      (Psf.phasor b dx dy (u x) (v x))‖) / ∑ x : Pix N, dlOtf n p pupil x ≤ 100 := by
  have S := fun x : Pix N => staticOtf_spec n p hN pupil phase hp hne x
  have pos : 0 < ∑ x : Pix N, dlOtf n p pupil x := by
    refine sum_pos' (fun x _ => (abs_nonneg _).trans (S x).2.1) ⟨centre N, mem_univ _, ?_⟩
    rw [(S 0).2.2.2]; exact one_pos
  rw [div_le_iff₀ pos]
  have : ∑ x : Pix N, ‖Psf.otfTot (sf x) (staticOtf n p pupil phase x) (d x) (pix x)
      (Psf.phasor b dx dy (u x) (v x))‖ ≤ ∑ x : Pix N, dlOtf n p pupil x :=
    sum_le_sum fun x _ => (Psf.norm_otfTot (sf x) _ (d x) (pix x) b dx dy (u x) (v x) (hs x) (hd x) (h0 x) (h1 x)).1.trans
      (S x).2.1
  linarith

/-! ### C161: static aberrations that are not point-symmetric are lost -/

omit [NeZero N] in
theorem padded_field_neg (n p : ℕ) (pupil phase : ℕ → ℕ → ℝ) (z : Pix N) :
    padded n p (field pupil fun i j => -phase i j) z = (starRingEnd ℂ) (padded n p (field pupil phase) z) := by
  unfold padded ext
  split_ifs
  · unfold field
    rw [map_mul, Complex.conj_ofReal, ← Complex.exp_conj, map_mul, Complex.conj_I, Complex.conj_ofReal]
    congr 2; push_cast; ring
  · simp

/-- C161 (violation): a static aberration and its opposite give the same OTF. -/
theorem static_sign_lost (n p : ℕ) (pupil phase : ℕ → ℕ → ℝ) (hp : ∀ i j, 0 ≤ pupil i j) (x : Pix N) :
    staticOtf n p pupil (fun i j => -phase i j) x = staticOtf n p pupil phase x := by
  have e : ∀ y : Pix N, (pupil2otf n p pupil (fun i j => -phase i j) y).re = (pupil2otf n p pupil phase y).re := by
    intro y
    rw [pupil2otf_eq n p pupil _ hp, pupil2otf_eq n p pupil _ hp, ← Complex.conj_re, map_div₀, map_sum, map_mul,
      Complex.conj_natCast]
    congr 2
    refine sum_congr rfl fun z _ => ?_
    rw [padded_field_neg, padded_field_neg, map_mul, Complex.conj_conj]
    simp
  unfold staticOtf
  simp only [e]

/-- C161 (violation): a tilt of the wavefront does not move the image: it multiplies the OTF by a cosine, which
makes two half images on both sides of the centre. -/
theorem static_tilt_partial (n : ℕ) (samp : ℝ) (hs : 2 ≤ samp) (p : ℕ) (hpad : padOf n samp = p) (hN : N = n + 2 * p)
    (pupil : ℕ → ℕ → ℝ) (hp : ∀ i j, 0 ≤ pupil i j) (α β : ℝ) (a b : ℤ) (ha : |a| ≤ (N / 2 : ℕ))
    (hb : |b| ≤ (N / 2 : ℕ)) :
    staticOtf n p pupil (fun i j => α * i + β * j) (at' N a b) =
      Real.cos (α * a + β * b) * dlOtf n p pupil (at' N a b) := by
  have key : pupil2otf n p pupil (fun i j => α * i + β * j) (at' N a b) =
      Complex.exp (((α * a + β * b : ℝ) : ℂ) * Complex.I) * pupil2otf n p pupil (fun _ _ => 0) (at' N a b) := by
    rw [pupil2otf_linear n samp hs p hpad hN pupil _ hp a b ha hb, pupil2otf_linear n samp hs p hpad hN pupil _ hp a b ha hb,
      ← mul_div_assoc, mul_sum]
    congr 1
    refine sum_congr rfl fun i _ => ?_
    rw [mul_sum]
    refine sum_congr rfl fun j _ => ?_
    unfold ext
    split_ifs with h
    · unfold field
      have e1 : (((((i:ℤ) + a).toNat : ℕ)) : ℝ) = i + a := by
        have : ((((i:ℤ) + a).toNat : ℕ) : ℤ) = i + a := Int.toNat_of_nonneg h.1
        exact_mod_cast congrArg (fun z : ℤ => (z : ℝ)) this
      have e2 : (((((j:ℤ) + b).toNat : ℕ)) : ℝ) = j + b := by
        have : ((((j:ℤ) + b).toNat : ℕ) : ℤ) = j + b := Int.toNat_of_nonneg h.2.2.1
        exact_mod_cast congrArg (fun z : ℤ => (z : ℝ)) this
      simp only [e1, e2, map_mul, Complex.conj_ofReal, ← Complex.exp_conj, Complex.conj_I, Complex.ofReal_zero, mul_zero,
        Complex.exp_zero, mul_one]
      have : Complex.exp (Complex.I * ((α * (i + a) + β * (j + b) : ℝ) : ℂ)) *
          Complex.exp (-Complex.I * ((α * i + β * j : ℝ) : ℂ)) = Complex.exp (((α * a + β * b : ℝ) : ℂ) * Complex.I) := by
        rw [← Complex.exp_add]; congr 1; push_cast; ring
      rw [← this]; ring
    · simp
  unfold dlOtf staticOtf
  rw [maxPix_otf n p hN pupil _ hp, maxPix_otf n p hN pupil _ hp, key, Complex.mul_re,
    (pupil2otf_flat n p pupil hp (at' N a b)).1, Complex.exp_ofReal_mul_I_re]
  ring

/-- C161 (violation): any real OTF, hence whatever `getStaticOTF` returns (also after resampling), multiplied by
real transfer functions, gives a PSF symmetric about its centre. -/
theorem real_otf_symmetric (n : ℕ) (otf : ℕ → ℕ → ℝ) (p q : ℝ) :
    (Psf.hires n (fun a b => (otf a b : ℂ)) (-p) (-q)).re = (Psf.hires n (fun a b => (otf a b : ℂ)) p q).re := by
  have e : Psf.hires n (fun a b => (otf a b : ℂ)) (-p) (-q) =
      (starRingEnd ℂ) (Psf.hires n (fun a b => (otf a b : ℂ)) p q) := by
    unfold Psf.hires
    rw [map_mul, map_sum]
    congr 1
    · simp
    refine sum_congr rfl fun a _ => ?_
    rw [map_sum]
    refine sum_congr rfl fun b _ => ?_
    rw [map_mul, Complex.conj_ofReal, ← Complex.exp_conj, map_mul, Complex.conj_ofReal, Complex.conj_I]
    congr 2
    push_cast
    ring
  rw [e, Complex.conj_re]

/-! ### C162: static modes -/

/-- C162 (part): with as many coefficients as modes, the static phase is `2π/λ` times the OPD map (nm) plus the
weighted sum of the modes. -/
theorem staticPhase_partial (wvl : ℝ) (m : ℕ → ℕ → ℝ) (modes : List (ℕ → ℕ → ℝ)) (x : List ℝ)
    (h : modes.length = x.length) (i j : ℕ) :
    staticPhase wvl (some m) modes x i j =
      2 * Real.pi / wvl * (1e-9 * (m i j + (List.zipWith (fun f c => f i j * c) modes x).sum)) := by
  unfold staticPhase
  rw [if_pos h]
  ring

/-- C162 (violation): with another number of coefficients they are ignored without an error. -/
theorem staticPhase_ignored (wvl : ℝ) (opd : Option (ℕ → ℕ → ℝ)) (modes : List (ℕ → ℕ → ℝ)) (x : List ℝ)
    (h : modes.length ≠ x.length) (i j : ℕ) :
    staticPhase wvl opd modes x i j = staticPhase wvl opd [] [] i j := by
  unfold staticPhase
  rw [if_neg h]
  simp

/-! ### C163: `telescopeOtf` -/

/-- Convolution theorem. -/
theorem idft_conv (a b : Pix N → ℂ) (r : Pix N) :
    idft (fun k => dft a k * dft b k) r = ∑ y, a y * b (r - y) := by
  have hb : ∀ k, dft b k = (starRingEnd ℂ) (dft (fun y => (starRingEnd ℂ) (b (-y))) k) := by
    intro k
    unfold dft
    rw [map_sum, ← Equiv.sum_comp (Equiv.neg (Pix N))]
    refine sum_congr rfl fun y _ => ?_
    rw [map_mul, Complex.conj_conj, conj_char, Equiv.neg_apply]
    congr 2
    unfold dot
    simp
    ring
  simp only [hb]
  rw [idft_corr, ← Equiv.sum_comp (Equiv.subRight r)]
  refine sum_congr rfl fun y _ => ?_
  simp

/-- What `telescopeOtf` computes: the self-convolution of the padded pupil. -/
theorem telescopeOtf_conv (n p : ℕ) (pupil : ℕ → ℕ → ℝ) (x : Pix N) :
    telescopeOtf n p pupil x =
      ((∑ y : Pix N, padded n p pupil y * padded n p pupil (x - centre N - centre N - centre N - y) : ℝ) : ℂ) := by
  unfold telescopeOtf
  simp only [pow_two]
  unfold fftshift
  rw [idft_conv, ← Equiv.sum_comp (Equiv.addRight (centre N))]
  push_cast
  refine sum_congr rfl fun y _ => ?_
  simp only [Equiv.coe_addRight, add_sub_cancel_right, toC]
  congr 3
  abel

/-- C163: the largest value of `telescopeOtf` is at most the power of the pupil (the peak of the
autocorrelation). -/
theorem telescopeOtf_le (n p : ℕ) (hN : N = n + 2 * p) (pupil : ℕ → ℕ → ℝ) (x : Pix N) :
    (telescopeOtf n p pupil x).re ≤ power n pupil ∧ (telescopeOtf n p pupil x).im = 0 ∧
    ((telescopeOtf n p pupil x).re = power n pupil ↔
      ∀ y : Pix N, padded n p pupil (x - centre N - centre N - centre N - y) = padded n p pupil y) := by
  have hpow : ∑ y : Pix N, padded n p pupil y ^ 2 = power n pupil := by
    have h := sum_normSq_padded (N := N) n p hN pupil (fun _ _ => 0)
    rw [← h]
    refine sum_congr rfl fun y _ => ?_
    unfold padded ext
    split_ifs
    · rw [norm_field, sq_abs]
    · simp
  rw [telescopeOtf_conv, Complex.ofReal_re, Complex.ofReal_im]
  generalize x - centre N - centre N - centre N = c
  generalize (padded n p pupil : Pix N → ℝ) = P at hpow ⊢
  have hs : ∑ y, P (c - y) ^ 2 = power n pupil := by
    rw [← hpow, ← Equiv.sum_comp (Equiv.subLeft c)]
    simp
  have key : power n pupil - ∑ y, P y * P (c - y) = ∑ y, (P (c - y) - P y) ^ 2 / 2 := by
    have : ∀ y, (P (c - y) - P y) ^ 2 / 2 = P (c - y) ^ 2 / 2 + P y ^ 2 / 2 - P y * P (c - y) := fun y => by ring
    simp only [this, sum_sub_distrib, sum_add_distrib, ← sum_div, hs, hpow]
    ring
  have nn : ∀ y ∈ univ, 0 ≤ (P (c - y) - P y) ^ 2 / 2 := fun y _ => by positivity
  refine ⟨by have := sum_nonneg nn; linarith, rfl, ?_⟩
  constructor
  · intro h y
    have z : ∑ y, (P (c - y) - P y) ^ 2 / 2 = 0 := by rw [← key, h, sub_self]
    rw [sum_eq_zero_iff_of_nonneg nn] at z
    have := z y (mem_univ _)
    have h2 : (P (c - y) - P y) ^ 2 = 0 := by linarith
    exact sub_eq_zero.1 (pow_eq_zero_iff (by norm_num) |>.1 h2)
  · intro h
    have z : ∑ y, (P (c - y) - P y) ^ 2 / 2 = 0 := sum_eq_zero fun y _ => by rw [h y]; ring
    linarith

/-- The point symmetry of a pupil about the centre of its array. -/
def PointSymmetric (n : ℕ) (pupil : ℕ → ℕ → ℝ) : Prop :=
  ∀ i < n, ∀ j < n, pupil (n - 1 - i) (n - 1 - j) = pupil i j

theorem val_neg_one_sub (z : ZMod N) : ((-1 - z).val : ℤ) = N - 1 - z.val := by
  have hz := ZMod.val_lt z
  have : (-1 - z : ZMod N) = ((N - 1 - z.val : ℕ) : ZMod N) := by
    rw [Nat.cast_sub (by omega), Nat.cast_sub (by have := NeZero.pos N; omega)]
    simp
  rw [this, ZMod.val_cast_of_lt (by omega)]
  omega

theorem padded_symm (n p : ℕ) (hN : N = n + 2 * p) (pupil : ℕ → ℕ → ℝ) (h : PointSymmetric n pupil) (z : Pix N) :
    padded n p pupil ((-1, -1) - z) = padded n p pupil z := by
  unfold padded
  simp only [Prod.fst_sub, Prod.snd_sub, val_neg_one_sub]
  unfold ext
  by_cases c : 0 ≤ (z.1.val : ℤ) - p ∧ (z.1.val : ℤ) - p < n ∧ 0 ≤ (z.2.val : ℤ) - p ∧ (z.2.val : ℤ) - p < n
  · rw [if_pos (by omega), if_pos c, ← h _ (by omega : ((z.1.val : ℤ) - p).toNat < n) _
      (by omega : ((z.2.val : ℤ) - p).toNat < n)]
    congr 1 <;> omega
  · rw [if_neg (by omega), if_neg c]

/-- C163 (violation): for a pupil symmetric about the centre of its array (such as the default one), the result of
`telescopeOtf` is the OTF moved by one pixel for even sizes and by two pixels for odd sizes: its peak is not at the
central pixel. -/
theorem telescopeOtf_shifted_partial (n p : ℕ) (hN : N = n + 2 * p) (pupil : ℕ → ℕ → ℝ) (hp : ∀ i j, 0 ≤ pupil i j)
    (h : PointSymmetric n pupil) (x : Pix N) :
    telescopeOtf n p pupil x = (N : ℂ) ^ 2 * pupil2otf n p pupil (fun _ _ => 0)
      (x + if N % 2 = 0 then (1, 1) else (2, 2)) := by
  have hNc : (N : ℂ) ≠ 0 := Nat.cast_ne_zero.2 (NeZero.ne N)
  rw [telescopeOtf_conv, pupil2otf_eq n p pupil _ hp, pow_two, mul_div_cancel₀ _ (mul_ne_zero hNc hNc)]
  push_cast
  have two : centre N + centre N = if N % 2 = 0 then 0 else (-1, -1) := by
    split_ifs with hpar
    · exact centre_even hpar
    · unfold centre
      have : (((N / 2 : ℕ) : ZMod N)) + ((N / 2 : ℕ) : ZMod N) = -1 := by
        have e : ((N / 2 + N / 2 + 1 : ℕ) : ZMod N) = 0 := by
          rw [show N / 2 + N / 2 + 1 = N by omega, ZMod.natCast_self]
        push_cast at e
        exact eq_neg_of_add_eq_zero_left e
      rw [Prod.mk_add_mk, this]
  have arg : ∀ y : Pix N, (-1, -1) - (x - centre N - centre N - centre N - y) =
      y - (x + (if N % 2 = 0 then (1, 1) else (2, 2)) - centre N) := by
    intro y
    have e : (-1, -1) - (x - centre N - centre N - centre N - y) = (-1, -1) + (centre N + centre N) + centre N - x + y := by
      abel
    rw [e, two]
    split_ifs <;> ext <;> simp <;> ring
  have fld : ∀ z : Pix N, padded n p (field pupil fun _ _ => 0) z = ((padded n p pupil z : ℝ) : ℂ) := by
    intro z; unfold padded ext field; split_ifs <;> simp
  rw [← Equiv.sum_comp (Equiv.addRight (x + (if N % 2 = 0 then (1, 1) else (2, 2)) - centre N))]
  refine sum_congr rfl fun y _ => ?_
  rw [← padded_symm n p hN pupil h (x - centre N - centre N - centre N - _), arg, fld, fld, Complex.conj_ofReal]
  simp

theorem padded_periodic (n p : ℕ) (hp1 : 1 ≤ p) (pupil : ℕ → ℕ → ℝ) (d k : ZMod N) (hk : k * d = 1)
    (h : ∀ y : Pix N, padded n p pupil (y - (d, d)) = padded n p pupil y) (y : Pix N) : padded n p pupil y = 0 := by
  have it : ∀ m : ℕ, padded n p pupil (y - (m * d, m * d)) = padded n p pupil y := by
    intro m
    induction m with
    | zero => congr 1; ext <;> simp
    | succ m ih =>
      rw [← ih, ← h (y - (m * d, m * d))]
      congr 1
      ext <;> simp <;> ring
  have e := it (y.1 * k).val
  rw [← e]
  unfold padded ext
  rw [if_neg]
  intro c
  have : (y - (((y.1 * k).val : ZMod N) * d, ((y.1 * k).val : ZMod N) * d)).1 = 0 := by
    simp only [Prod.fst_sub, ZMod.natCast_zmod_val, mul_assoc, hk, mul_one, sub_self]
  rw [this, ZMod.val_zero] at c
  omega

/-- C163 (violation): for every pupil symmetric about the centre of its array that is not opaque and is padded, the
value of `telescopeOtf` at the central pixel is less than its peak. -/
theorem telescopeOtf_off_centre (n p : ℕ) (hN : N = n + 2 * p) (hp1 : 1 ≤ p) (pupil : ℕ → ℕ → ℝ)
    (h : PointSymmetric n pupil) (hne : power n pupil ≠ 0) :
    (telescopeOtf n p pupil (centre N)).re < power n pupil := by
  obtain ⟨hle, -, hiff⟩ := telescopeOtf_le n p hN pupil (centre N)
  refine lt_of_le_of_ne hle fun heq => hne ?_
  rw [hiff] at heq
  have hz : ∀ y : Pix N, padded n p pupil y = 0 := by
    have per : ∀ y : Pix N, padded n p pupil (y - ((1, 1) - (centre N + centre N))) = padded n p pupil y := by
      intro y
      rw [← heq y, ← padded_symm n p hN pupil h (centre N - centre N - centre N - centre N - y)]
      congr 1
      have : ((1, 1) : Pix N) = -(-1, -1) := by ext <;> simp
      rw [this]
      abel
    by_cases hpar : N % 2 = 0
    · rw [centre_even hpar, sub_zero] at per
      exact padded_periodic n p hp1 pupil 1 1 (by ring) per
    · have c2 : ((N / 2 : ℕ) : ZMod N) + ((N / 2 : ℕ) : ZMod N) = -1 := by
        have e : ((N / 2 + N / 2 + 1 : ℕ) : ZMod N) = 0 := by
          rw [show N / 2 + N / 2 + 1 = N by omega, ZMod.natCast_self]
        push_cast at e
        exact eq_neg_of_add_eq_zero_left e
      have e2 : ((1, 1) - (centre N + centre N) : Pix N) = (2, 2) := by
        unfold centre
        rw [Prod.mk_add_mk, c2]
        ext <;> simp <;> ring
      rw [e2] at per
      refine padded_periodic n p hp1 pupil 2 (-((N / 2 : ℕ) : ZMod N)) ?_ per
      have : -((N / 2 : ℕ) : ZMod N) * 2 = -(((N / 2 : ℕ) : ZMod N) + ((N / 2 : ℕ) : ZMod N)) := by ring
      rw [this, c2, neg_neg]
  have hpow := sum_normSq_padded (N := N) n p hN pupil (fun _ _ => 0)
  rw [← hpow]
  refine sum_eq_zero fun y _ => ?_
  have hy := hz y
  unfold padded ext at hy ⊢
  split_ifs at hy ⊢ with c
  · rw [norm_field, hy]; simp
  · simp

theorem sum_telescopeOtf (n p : ℕ) (hN : N = n + 2 * p) (pupil : ℕ → ℕ → ℝ) :
    ∑ x : Pix N, (telescopeOtf n p pupil x).re = (∑ i ∈ range n, ∑ j ∈ range n, pupil i j) ^ 2 := by
  have e : ∑ y : Pix N, padded n p pupil y = ∑ i ∈ range n, ∑ j ∈ range n, pupil i j := by
    have h := sum_padded (N := N) n p hN (fun i j => (pupil i j : ℂ)) (fun _ c => c) (fun _ => rfl)
    have e1 : ∀ y : Pix N, padded n p (fun i j => (pupil i j : ℂ)) y = ((padded n p pupil y : ℝ) : ℂ) := by
      intro y; unfold padded ext; split_ifs <;> simp
    simp only [e1] at h
    exact_mod_cast h
  simp only [telescopeOtf_conv, Complex.ofReal_re]
  rw [sum_comm, ← e, pow_two, sum_mul]
  refine sum_congr rfl fun y _ => ?_
  rw [← mul_sum]
  congr 1
  rw [← Equiv.sum_comp (Equiv.addRight (centre N + centre N + centre N + y))]
  exact sum_congr rfl fun x _ => by congr 1; simp only [Equiv.coe_addRight]; abel

/-- C163 (violation): for a pupil without a point of symmetry, the sum of the normalised OTF, by which `getStrehl`
divides, is too large: it exceeds `(∑ pupil)²/∑ pupil²`, the sum of the OTF of the telescope. -/
theorem telescopeOtf_asymmetric (n p : ℕ) (hN : N = n + 2 * p) (pupil : ℕ → ℕ → ℝ)
    (hs : 0 < ∑ i ∈ range n, ∑ j ∈ range n, pupil i j)
    (hasym : ∀ c : Pix N, ∃ y : Pix N, padded n p pupil (c - y) ≠ padded n p pupil y) :
    (∑ i ∈ range n, ∑ j ∈ range n, pupil i j) ^ 2 / power n pupil <
      ∑ x : Pix N, (telescopeOtf n p pupil x).re / maxPix (fun y : Pix N => (telescopeOtf n p pupil y).re) := by
  rw [← sum_div, sum_telescopeOtf n p hN]
  have hsum := sum_telescopeOtf n p hN pupil
  have hm : maxPix (fun y : Pix N => (telescopeOtf n p pupil y).re) < power n pupil := by
    unfold maxPix
    refine (sup'_lt_iff _).2 fun y _ => ?_
    obtain ⟨hle, -, hiff⟩ := telescopeOtf_le n p hN pupil y
    refine lt_of_le_of_ne hle fun heq => ?_
    rw [hiff] at heq
    obtain ⟨z, hz⟩ := hasym (y - centre N - centre N - centre N)
    exact hz (heq z)
  have hpos : 0 < maxPix (fun y : Pix N => (telescopeOtf n p pupil y).re) := by
    by_contra hc
    rw [not_lt] at hc
    have : ∑ x : Pix N, (telescopeOtf n p pupil x).re ≤ 0 := by
      refine sum_nonpos fun x _ => le_trans ?_ hc
      exact le_sup' (fun y : Pix N => (telescopeOtf n p pupil y).re) (mem_univ x)
    rw [hsum] at this
    have := pow_pos hs 2
    linarith
  exact div_lt_div_of_pos_left (pow_pos hs 2) hpos hm

/-- The transfer function of the telescope has the sum `(∑ pupil)²/∑ pupil²`. -/
theorem sum_dlOtf (n p : ℕ) (hN : N = n + 2 * p) (pupil : ℕ → ℕ → ℝ) (hp : ∀ i j, 0 ≤ pupil i j) :
    ∑ x : Pix N, dlOtf n p pupil x = (∑ i ∈ range n, ∑ j ∈ range n, pupil i j) ^ 2 / power n pupil := by
  have hNc : (N : ℝ) ≠ 0 := Nat.cast_ne_zero.2 (NeZero.ne N)
  have e : ∑ y : Pix N, padded n p pupil y = ∑ i ∈ range n, ∑ j ∈ range n, pupil i j := by
    have h := sum_padded (N := N) n p hN (fun i j => (pupil i j : ℂ)) (fun _ c => c) (fun _ => rfl)
    have e1 : ∀ y : Pix N, padded n p (fun i j => (pupil i j : ℂ)) y = ((padded n p pupil y : ℝ) : ℂ) := by
      intro y; unfold padded ext; split_ifs <;> simp
    simp only [e1] at h
    exact_mod_cast h
  have fl : ∀ x : Pix N, (pupil2otf n p pupil (fun _ _ => 0) x).re =
      (∑ y : Pix N, padded n p pupil (y + (x - centre N)) * padded n p pupil y) / ((N:ℝ) * N) := by
    intro x
    have e : pupil2otf n p pupil (fun _ _ => 0) x =
        (((∑ y : Pix N, padded n p pupil (y + (x - centre N)) * padded n p pupil y) / ((N:ℝ) * N) : ℝ) : ℂ) := by
      rw [pupil2otf_eq n p pupil _ hp]
      push_cast
      congr 1
      refine sum_congr rfl fun y _ => ?_
      have : ∀ z : Pix N, padded n p (field pupil fun _ _ => 0) z = ((padded n p pupil z : ℝ) : ℂ) := by
        intro z; unfold padded ext field; split_ifs <;> simp
      rw [this, this, Complex.conj_ofReal]
    rw [e, Complex.ofReal_re]
  unfold dlOtf staticOtf
  rw [maxPix_otf n p hN pupil _ hp]
  simp only [fl]
  rw [← sum_div, ← sum_div, sum_comm]
  have : ∑ y : Pix N, ∑ x : Pix N, padded n p pupil (y + (x - centre N)) * padded n p pupil y =
      (∑ i ∈ range n, ∑ j ∈ range n, pupil i j) ^ 2 := by
    rw [← e, pow_two, mul_comm, sum_mul]
    refine sum_congr rfl fun y _ => ?_
    rw [← sum_mul, mul_comm]
    congr 1
    rw [← Equiv.sum_comp (Equiv.subRight (y - centre N))]
    exact sum_congr rfl fun x _ => by congr 1; simp only [Equiv.subRight_apply]; abel
  rw [this]
  rw [div_div_div_cancel_right₀ (mul_ne_zero hNc hNc)]

/-! ### C164: OTF of a PSF -/

/-- C164: the OTF of a PSF with a positive sum and no negative pixel is one at zero frequency and at most one in
modulus. -/
theorem psf2otf_spec (psf : Pix N → ℝ) (h0 : ∀ x, 0 ≤ psf x) (hs : ∑ x, psf x ≠ 0) (k : Pix N) :
    psf2otf psf 0 = 1 ∧ ‖psf2otf psf k‖ ≤ 1 := by
  have pos : 0 < ∑ x, psf x := lt_of_le_of_ne (sum_nonneg fun x _ => h0 x) (Ne.symm hs)
  have sh : ∀ f : ℝ → ℝ, ∑ x : Pix N, f (psf (x - centre N)) = ∑ x, f (psf x) := fun f =>
    Equiv.sum_comp (Equiv.subRight (centre N)) (fun x => f (psf x))
  constructor
  · unfold psf2otf dft fftshift toC
    have : ∀ x : Pix N, dot 0 x = 0 := fun x => by simp [dot]
    simp only [this, neg_zero, AddChar.map_zero_eq_one, mul_one]
    rw [← Complex.ofReal_sum, sh (fun t => t), div_self (by exact_mod_cast hs)]
  · unfold psf2otf
    rw [norm_div, Complex.norm_real, Real.norm_eq_abs, abs_of_pos pos, div_le_one pos]
    unfold dft
    refine (norm_sum_le _ _).trans ?_
    have : ∀ x : Pix N, ‖fftshift (toC psf) x * (ZMod.stdAddChar (-dot k x) : ℂ)‖ = psf (x - centre N) := by
      intro x
      rw [norm_mul, ZMod.stdAddChar_apply, Circle.norm_coe, mul_one]
      unfold fftshift toC
      rw [Complex.norm_real, Real.norm_eq_abs, abs_of_nonneg (h0 _)]
    simp only [this]
    exact le_of_eq (sh (fun t => t))

/-! ### C165: rectangular arrays -/

/-- C165 (exact): `otf2psf` works for rectangular arrays exactly when no half-pixel shift is applied (odd number of
rows, or `psfInOnePix`); otherwise it needs a square array (or an axis of one pixel). -/
theorem otf2psf_rectangular_partial (nX nY : ℕ) (b : Bool) (h2 : nY ≠ 1) :
    otf2psfShape nX nY b = .ok (nX, nY) ↔ nX = nY ∨ nX % 2 = 1 ∨ b = true := by
  unfold otf2psfShape
  split_ifs with h h'
  · have : nX = nY := by omega
    subst this
    simp
  · simp only [false_iff]
    rintro (h3 | h3 | h3)
    · omega
    · omega
    · rw [h3] at h; exact absurd h.2 (by simp)
  · simp only [true_iff]
    rcases Nat.mod_two_eq_zero_or_one nX with h3 | h3
    · right; right
      cases b
      · exact absurd ⟨h3, rfl⟩ h
      · rfl
    · right; left; exact h3

/-- C165 (violation): an OTF of 4 rows and 6 columns. -/
theorem otf2psf_rectangular_violation : otf2psfShape 4 6 false = .error .broadcast := by decide

/-! ### C166: recentring -/

theorem centerPhasor_eq (n a : ℕ) (d : ℝ) :
    centerPhasor d (Psf.angFreq n a / 2) = Psf.phasor 1 ((d - 1) / 2) 0 (Psf.angFreq n a) 0 := by
  unfold centerPhasor Psf.phasor
  rw [← Complex.exp_add]
  congr 1
  push_cast
  ring

/-- C166 (violation): `centerPsf` moves the image by `(d - 1)/2` pixels along an axis where the peak is at `d`
pixels from the centre, not by `d`: the image at `(p, q)` after recentring is the one at
`(p - (dx - 1)/2, q - (dy - 1)/2)` before it. -/
theorem centerPsf_half (n : ℕ) (hn : 0 < n) (otf : ℕ → ℕ → ℂ) (dx dy p q : ℝ) :
    Psf.hires n (fun u v => otf u v *
      (centerPhasor dx (Psf.angFreq n u / 2) * centerPhasor dy (Psf.angFreq n v / 2))) p q =
      Psf.hires n otf (p - (dx - 1) / 2) (q - (dy - 1) / 2) := by
  have h := Psf.phasor_shift n hn otf 1 ((dx - 1) / 2) ((dy - 1) / 2) p q
  rw [Nat.cast_one, one_mul, one_mul] at h
  rw [← h]
  congr 1
  funext u v
  rw [centerPhasor_eq, centerPhasor_eq]
  congr 1
  unfold Psf.phasor
  rw [← Complex.exp_add]
  congr 1
  push_cast
  ring

/-- C166 (exact): the peak is brought to the centre along an axis only if it is one pixel past it. -/
theorem centerPsf_exact_partial (d : ℝ) : (d - 1) / 2 = d ↔ d = -1 := by
  constructor <;> intro h <;> linarith

/-! ### C167: full transform from half of it -/

/-- `fft2` of a real image of `R x C` pixels (specification). -/
noncomputable def fft2 (R C : ℕ) (im : ℕ → ℕ → ℝ) (k l : ℕ) : ℂ :=
  ∑ u ∈ range R, ∑ v ∈ range C,
    (im u v : ℂ) * Complex.exp (-(2 * Real.pi * ((k * u : ℝ) / R + (l * v : ℝ) / C) : ℝ) * Complex.I)

theorem fft2_herm (R C : ℕ) (hR : 0 < R) (hC : 0 < C) (im : ℕ → ℕ → ℝ) (k l k' l' : ℕ) (hk : k + k' = R ∨ (k = 0 ∧ k' = 0))
    (hl : l + l' = C ∨ (l = 0 ∧ l' = 0)) : (starRingEnd ℂ) (fft2 R C im k' l') = fft2 R C im k l := by
  have hR' : (R:ℝ) ≠ 0 := by positivity
  have hC' : (C:ℝ) ≠ 0 := by positivity
  unfold fft2
  rw [map_sum]
  refine sum_congr rfl fun u _ => ?_
  rw [map_sum]
  refine sum_congr rfl fun v _ => ?_
  rw [map_mul, Complex.conj_ofReal, ← Complex.exp_conj]
  congr 1
  rw [Complex.exp_eq_exp_iff_exists_int]
  have a1 : ∃ m : ℤ, (k * u : ℝ) / R + (k' * u : ℝ) / R = m := by
    rcases hk with h | ⟨h, h'⟩
    · refine ⟨u, ?_⟩
      have : (k:ℝ) + k' = R := by exact_mod_cast h
      rw [← add_div, ← add_mul, this]; push_cast; field_simp
    · exact ⟨0, by rw [h, h']; simp⟩
  have a2 : ∃ m : ℤ, (l * v : ℝ) / C + (l' * v : ℝ) / C = m := by
    rcases hl with h | ⟨h, h'⟩
    · refine ⟨v, ?_⟩
      have : (l:ℝ) + l' = C := by exact_mod_cast h
      rw [← add_div, ← add_mul, this]; push_cast; field_simp
    · exact ⟨0, by rw [h, h']; simp⟩
  obtain ⟨m1, h1⟩ := a1
  obtain ⟨m2, h2⟩ := a2
  refine ⟨m1 + m2, ?_⟩
  simp only [map_mul, map_neg, Complex.conj_ofReal, Complex.conj_I]
  have e : (2 * Real.pi * ((k' * u : ℝ) / R + (l' * v : ℝ) / C) : ℝ) =
      -(2 * Real.pi * ((k * u : ℝ) / R + (l * v : ℝ) / C)) + (m1 + m2) * (2 * Real.pi) := by
    have : (k' * u : ℝ) / R + (l' * v : ℝ) / C = -((k * u : ℝ) / R + (l * v : ℝ) / C) + (m1 + m2) := by
      rw [← h1, ← h2]; ring
    rw [this]; ring
  rw [e]
  push_cast
  ring

/-- C167: from the half transform (columns `0 … C/2`) of any real image, even or odd, `_rfft2_to_fft2` builds its
full transform. -/
theorem rfftToFft_spec (R C : ℕ) (im : ℕ → ℕ → ℝ) (rf : ℕ → ℕ → ℂ)
    (h : ∀ k < R, ∀ l < C / 2 + 1, rf k l = fft2 R C im k l) (k l : ℕ) (hk : k < R) (hl : l < C) :
    rfftToFft R C rf k l = fft2 R C im k l := by
  have herm := fft2_herm R C (by omega) (by omega) im
  unfold rfftToFft
  simp only []
  by_cases h1 : 1 ≤ k ∧ 1 ≤ l
  · rw [if_pos h1]
    by_cases h2 : l - 1 < C / 2 + 1 - 1
    · rw [if_pos h2, h _ (by omega) _ (by omega), show k - 1 + 1 = k by omega, show l - 1 + 1 = l by omega]
    · rw [if_neg h2]
      split_ifs with hpar
      · rw [h _ (by omega) _ (by omega)]
        exact herm _ _ _ _ (Or.inl (by omega)) (Or.inl (by omega))
      · rw [h _ (by omega) _ (by omega)]
        exact herm _ _ _ _ (Or.inl (by omega)) (Or.inl (by omega))
  · rw [if_neg h1]
    by_cases h2 : k = 0 ∧ (if C % 2 = 0 then C / 2 + 1 - 1 else C / 2 + 1) ≤ l
    · rw [if_pos h2]
      obtain ⟨rfl, h3⟩ := h2
      split_ifs at h3 ⊢ with hpar
      · rw [h _ (by omega) _ (by omega)]
        exact herm _ _ _ _ (Or.inr ⟨rfl, rfl⟩) (by omega)
      · rw [h _ (by omega) _ (by omega)]
        exact herm _ _ _ _ (Or.inr ⟨rfl, rfl⟩) (by omega)
    · rw [if_neg h2]
      have h4 : l < C / 2 + 1 := by
        by_contra hc
        rcases Nat.eq_zero_or_pos k with h5 | h5
        · apply h2; refine ⟨h5, ?_⟩; split_ifs <;> omega
        · apply h1; omega
      rw [if_pos h4, h _ hk _ h4]

/-- C167: the blocks put side by side fill the array for every number of columns but zero. -/
theorem rfftCols_fit (C : ℕ) (h : 1 ≤ C) : (rfftCols C).1 = (rfftCols C).2 := by
  unfold rfftCols
  simp only
  split_ifs <;> omega

/-! ### C168: structure function of a phase map -/

theorem fftCorrel_real (a b : Pix N → ℝ) (r : Pix N) :
    fftCorrel (toC a) (toC b) r = (((∑ y, a (y + r) * b y) / ((N:ℝ) * N) : ℝ) : ℂ) := by
  rw [fftCorrel_eq]
  push_cast
  congr 1
  exact sum_congr rfl fun y _ => by unfold toC; rw [Complex.conj_ofReal]

/-- C168 (violation): the sum over the pairs of points of the pupil is not divided by their number: whatever the
phase, the result is the plain correlation difference over `N²`, masked. -/
theorem phaseToSf_unnormalised (n p : ℕ) (thr : ℝ) (phi pup : ℕ → ℕ → ℝ) (h01 : ∀ i j, pup i j = 0 ∨ pup i j = 1)
    (r : Pix N) :
    phaseToSf n p thr phi pup (centre N + r) =
      if (∑ y : Pix N, padded n p pup (y + r) * padded n p pup y) / ((N:ℝ) * N) ≤ thr then 0
      else (fftCorrel (fun x => toC (padded n p phi) x ^ 2) (toC (padded n p pup)) r +
        symPix (fftCorrel (fun x => toC (padded n p phi) x ^ 2) (toC (padded n p pup))) r -
        2 * fftCorrel (toC (padded n p phi)) (toC (padded n p phi)) r).re := by
  have N0 : (0:ℝ) < (N:ℝ) * N := by
    have : (0:ℝ) < N := Nat.cast_pos.2 (NeZero.pos N)
    positivity
  have b : ∀ z : Pix N, 0 ≤ padded n p pup z ∧ padded n p pup z ≤ 1 := by
    intro z; unfold padded ext; split_ifs
    · rcases h01 (((z.1.val : ℤ) - p).toNat) (((z.2.val : ℤ) - p).toNat) with h | h <;> rw [h] <;> norm_num
    · norm_num
  have le1 : (∑ y : Pix N, padded n p pup (y + r) * padded n p pup y) / ((N:ℝ) * N) ≤ 1 := by
    rw [div_le_one N0]
    have : ∀ y ∈ (univ : Finset (Pix N)), padded n p pup (y + r) * padded n p pup y ≤ 1 := fun y _ =>
      mul_le_one₀ (b _).2 (b _).1 (b _).2
    refine (sum_le_sum this).trans (le_of_eq ?_)
    simp [Fintype.card_prod, ZMod.card]
  have cw := fftCorrel_real (padded n p pup) (padded n p pup) r
  generalize (∑ y : Pix N, padded n p pup (y + r) * padded n p pup y) / ((N:ℝ) * N) = w at le1 cw
  have cl : ∀ t : ℝ, Psf.cle (w : ℂ) t ↔ w ≤ t := by
    intro t
    unfold Psf.cle
    simp only [Complex.ofReal_re, Complex.ofReal_im, le_refl, and_true]
    exact le_iff_lt_or_eq.symm
  unfold phaseToSf
  simp only [fftshift]
  rw [add_sub_cancel_left, cw]
  have c1 := cl 1
  rw [Complex.ofReal_one] at c1
  rw [if_pos (c1.2 le1), div_one]
  by_cases h : w ≤ thr
  · rw [if_pos h, if_pos ((cl thr).2 h), mul_zero, Complex.zero_re]
  · rw [if_neg h, if_neg (fun c => h ((cl thr).1 c)), mul_one]

/-- C168 (violation): a constant phase (piston) `c` over the pupil gives a negative structure function at the
separation `(0, -1)` instead of zero. -/
theorem phaseToSf_piston (n p : ℕ) (hN : 3 ≤ N) (thr c : ℝ) (pup : ℕ → ℕ → ℝ) (h01 : ∀ i j, pup i j = 0 ∨ pup i j = 1)
    (hov : thr < (∑ y : Pix N, padded n p pup (y + (0, -1)) * padded n p pup y) / ((N:ℝ) * N)) :
    phaseToSf n p thr (fun i j => c * pup i j) pup (centre N + (0, -1)) =
      -c ^ 2 * ((∑ y : Pix N, padded n p pup (y + (0, -1)) * padded n p pup y) / ((N:ℝ) * N)) := by
  rw [phaseToSf_unnormalised n p thr _ pup h01, if_neg (not_le.2 hov)]
  have sq : ∀ x : Pix N, padded n p pup x ^ 2 = padded n p pup x := by
    intro z; unfold padded ext; split_ifs
    · rcases h01 (((z.1.val : ℤ) - p).toNat) (((z.2.val : ℤ) - p).toNat) with h | h <;> rw [h] <;> norm_num
    · norm_num
  have ph : ∀ x : Pix N, padded n p (fun i j => c * pup i j) x = c * padded n p pup x := by
    intro x; unfold padded ext; split_ifs <;> simp
  have e2 : (fun x : Pix N => toC (padded n p (fun i j => c * pup i j)) x ^ 2) =
      toC (fun x => c ^ 2 * padded n p pup x) := by
    funext x
    unfold toC
    rw [ph, ← Complex.ofReal_pow, mul_pow, sq]
  have e1 : (toC (padded n p (fun i j => c * pup i j)) : Pix N → ℂ) = toC (fun x => c * padded n p pup x) := by
    funext x; unfold toC; rw [ph]
  have s0 : ∀ a : Pix N → ℂ, symPix a (0, -1) = 0 := by
    intro a
    unfold symPix Psf.fftsym
    have v : ((-1 : ZMod N)).val = N - 1 := by
      have := val_neg_one_sub (N := N) 0
      rw [sub_zero, ZMod.val_zero] at this
      omega
    simp only [ZMod.val_zero, v]
    rw [if_neg (by omega), if_neg (by omega), if_neg (by omega), if_neg (by omega)]
  rw [e2, e1, s0, fftCorrel_real, fftCorrel_real, add_zero, Complex.sub_re, Complex.ofReal_re]
  have : ((2:ℂ) * (((∑ y : Pix N, c * padded n p pup (y + (0, -1)) * (c * padded n p pup y)) / ((N:ℝ) * N) : ℝ) : ℂ)).re =
      2 * ((∑ y : Pix N, c * padded n p pup (y + (0, -1)) * (c * padded n p pup y)) / ((N:ℝ) * N)) := by
    rw [← Complex.ofReal_ofNat, ← Complex.ofReal_mul, Complex.ofReal_re]
  rw [this]
  have a1 : ∑ y : Pix N, c ^ 2 * padded n p pup (y + (0, -1)) * padded n p pup y =
      c ^ 2 * ∑ y : Pix N, padded n p pup (y + (0, -1)) * padded n p pup y := by
    rw [mul_sum]; exact sum_congr rfl fun y _ => by ring
  have a2 : ∑ y : Pix N, c * padded n p pup (y + (0, -1)) * (c * padded n p pup y) =
      c ^ 2 * ∑ y : Pix N, padded n p pup (y + (0, -1)) * padded n p pup y := by
    rw [mul_sum]; exact sum_congr rfl fun y _ => by ring
  rw [a1, a2]
  ring

/-- C168 (violation): along the first axis, the result for a constant phase compares the overlap of the pupil with
itself at two separations that are not opposite, `(1, -j)` and `(0, j)`, instead of giving zero. -/
theorem phaseToSf_piston_row (n p : ℕ) (thr c : ℝ) (pup : ℕ → ℕ → ℝ) (h01 : ∀ i j, pup i j = 0 ∨ pup i j = 1)
    (j : ℕ) (h1 : 1 ≤ j) (h2 : j < N - 1)
    (hov : thr < (∑ y : Pix N, padded n p pup (y + (0, (j : ZMod N))) * padded n p pup y) / ((N:ℝ) * N)) :
    phaseToSf n p thr (fun i j => c * pup i j) pup (centre N + (0, (j : ZMod N))) =
      c ^ 2 * ((∑ y : Pix N, padded n p pup (y + (1, -(j : ZMod N))) * padded n p pup y) / ((N:ℝ) * N) -
        (∑ y : Pix N, padded n p pup (y + (0, (j : ZMod N))) * padded n p pup y) / ((N:ℝ) * N)) := by
  rw [phaseToSf_unnormalised n p thr _ pup h01, if_neg (not_le.2 hov)]
  have sq : ∀ x : Pix N, padded n p pup x ^ 2 = padded n p pup x := by
    intro z; unfold padded ext; split_ifs
    · rcases h01 (((z.1.val : ℤ) - p).toNat) (((z.2.val : ℤ) - p).toNat) with h | h <;> rw [h] <;> norm_num
    · norm_num
  have ph : ∀ x : Pix N, padded n p (fun i j => c * pup i j) x = c * padded n p pup x := by
    intro x; unfold padded ext; split_ifs <;> simp
  have e2 : (fun x : Pix N => toC (padded n p (fun i j => c * pup i j)) x ^ 2) =
      toC (fun x => c ^ 2 * padded n p pup x) := by
    funext x
    unfold toC
    rw [ph, ← Complex.ofReal_pow, mul_pow, sq]
  have e1 : (toC (padded n p (fun i j => c * pup i j)) : Pix N → ℂ) = toC (fun x => c * padded n p pup x) := by
    funext x; unfold toC; rw [ph]
  have s0 : ∀ a : Pix N → ℂ, symPix a (0, (j : ZMod N)) = a (1, -(j : ZMod N)) := by
    intro a
    unfold symPix Psf.fftsym
    simp only [ZMod.val_zero, ZMod.val_cast_of_lt (show j < N by omega)]
    rw [if_neg (fun h => by omega : ¬ (True ∧ j = 0)), if_pos ⟨trivial, h1, h2⟩]
    congr 1
    ext
    · simp
    · rw [Nat.cast_sub (by omega)]; simp
  rw [e2, e1, s0, fftCorrel_real, fftCorrel_real, fftCorrel_real]
  have a1 : ∀ r : Pix N, ∑ y : Pix N, c ^ 2 * padded n p pup (y + r) * padded n p pup y =
      c ^ 2 * ∑ y : Pix N, padded n p pup (y + r) * padded n p pup y := by
    intro r; rw [mul_sum]; exact sum_congr rfl fun y _ => by ring
  have a2 : ∀ r : Pix N, ∑ y : Pix N, c * padded n p pup (y + r) * (c * padded n p pup y) =
      c ^ 2 * ∑ y : Pix N, padded n p pup (y + r) * padded n p pup y := by
    intro r; rw [mul_sum]; exact sum_congr rfl fun y _ => by ring
  simp only [a1, a2]
  rw [← Complex.ofReal_ofNat, ← Complex.ofReal_mul, ← Complex.ofReal_add, ← Complex.ofReal_sub, Complex.ofReal_re]
  ring

/-- C168 (part): at zero separation the result is zero for a phase that vanishes outside the pupil. -/
theorem phaseToSf_zero_partial (n p : ℕ) (thr : ℝ) (phi pup : ℕ → ℕ → ℝ) (h01 : ∀ i j, pup i j = 0 ∨ pup i j = 1)
    (hsup : ∀ i j, pup i j = 0 → phi i j = 0) : phaseToSf (N := N) n p thr phi pup (centre N) = 0 := by
  have h := phaseToSf_unnormalised (N := N) n p thr phi pup h01 0
  rw [add_zero] at h
  rw [h]
  split_ifs
  · rfl
  · have e : (fun x : Pix N => toC (padded n p phi) x ^ 2) = toC (fun x => padded n p phi x ^ 2) := by
      funext x; unfold toC; push_cast; rfl
    have s0 : ∀ a : Pix N → ℂ, symPix a 0 = a 0 := by
      intro a
      unfold symPix Psf.fftsym
      simp only [Prod.fst_zero, Prod.snd_zero, ZMod.val_zero, and_self, if_true, Nat.cast_zero]
      rfl
    have pe : ∀ y : Pix N, padded n p phi y ^ 2 * padded n p pup y = padded n p phi y * padded n p phi y := by
      intro y; unfold padded ext; split_ifs
      · rcases h01 (((y.1.val : ℤ) - p).toNat) (((y.2.val : ℤ) - p).toNat) with h | h
        · rw [h, hsup _ _ h]; norm_num
        · rw [h]; ring
      · norm_num
    rw [s0, e, fftCorrel_real, fftCorrel_real]
    simp only [add_zero, pe]
    rw [show ∀ z : ℂ, z + z - 2 * z = 0 from fun z => by ring, Complex.zero_re]

/-! ### Non-vacuity -/

theorem padOf_two_two : padOf 2 2 = (1 : ℕ) := by
  unfold padOf trunc
  norm_num

theorem power_ones : power 2 (fun _ _ => 1) = 4 := by unfold power; norm_num

/-- Non-vacuity: a clear 2 x 2 pupil sampled at Nyquist with a phase of half a radian per column: the PSF exists,
has unit sum and is not negative; its transfer function is bounded. -/
example : ∃ psf : Pix 4 → ℝ, pupil2psf 2 1 (fun _ _ => 1) (fun _ j => j / 2) = some psf ∧ ∑ x, psf x = 1 ∧
    ∀ x, 0 ≤ psf x := by
  obtain ⟨psf, h1, h2, h3, -⟩ := pupil2psf_farField (N := 4) 2 2 le_rfl 1 padOf_two_two rfl (fun _ _ => 1)
    (fun _ j => j / 2) (fun _ _ => zero_le_one) (by rw [power_ones]; norm_num)
  exact ⟨psf, h1, h2, h3⟩

example (x : Pix 4) : |staticOtf 2 1 (fun _ _ => 1) (fun i j => i + j / 2) x| ≤ 1 := by
  obtain ⟨-, h1, h2, -⟩ := staticOtf_spec (N := 4) 2 1 rfl (fun _ _ => 1) (fun i j => i + j / 2)
    (fun _ _ => zero_le_one) (by rw [power_ones]; norm_num) x
  exact h1.trans h2

/-- Non-vacuity: a tilt of `π` radians per pixel changes the sign of the static OTF one pixel from the centre. -/
example : staticOtf (N := 4) 2 1 (fun _ _ => 1) (fun i j => Real.pi * i + 0 * j) (at' 4 1 0) =
    -dlOtf 2 1 (fun _ _ => 1) (at' 4 1 0) := by
  rw [static_tilt_partial 2 2 le_rfl 1 padOf_two_two rfl (fun _ _ => 1) (fun _ _ => zero_le_one) Real.pi 0 1 0
    (by norm_num) (by norm_num)]
  simp

/-- Non-vacuity: the clear pupil is symmetric; `telescopeOtf` is off centre. -/
example : (telescopeOtf (N := 4) 2 1 (fun _ _ => 1) (centre 4)).re < 4 := by
  rw [← power_ones]
  exact telescopeOtf_off_centre 2 1 rfl le_rfl _ (fun _ _ _ _ => rfl) (by rw [power_ones]; norm_num)

/-- A pupil of three pixels in a row, at 0, 1 and 3. -/
noncomputable def threePix (i j : ℕ) : ℝ := if i = 0 ∧ (j = 0 ∨ j = 1 ∨ j = 3) then 1 else 0

theorem threePix_asym (c : Pix 8) : ∃ y : Pix 8, padded 4 2 threePix (c - y) ≠ padded 4 2 threePix y := by
  have e : ∀ z : Pix 8, padded 4 2 threePix z =
      if z.1.val = 2 ∧ (z.2.val = 2 ∨ z.2.val = 3 ∨ z.2.val = 5) then 1 else 0 := by
    intro z
    unfold padded ext threePix
    by_cases h : z.1.val = 2 ∧ (z.2.val = 2 ∨ z.2.val = 3 ∨ z.2.val = 5)
    · rw [if_pos h, if_pos (by push_cast; omega), if_pos (by omega)]
    · rw [if_neg h]
      split_ifs with h1 h2
      · exact absurd (by push_cast at h1; omega) h
      · rfl
      · rfl
  have d : ∀ c : Pix 8, ∃ y : Pix 8,
      ((c - y).1.val = 2 ∧ ((c - y).2.val = 2 ∨ (c - y).2.val = 3 ∨ (c - y).2.val = 5)) ∧
      ¬ (y.1.val = 2 ∧ (y.2.val = 2 ∨ y.2.val = 3 ∨ y.2.val = 5)) := by decide +kernel
  obtain ⟨y, h1, h2⟩ := d c
  exact ⟨y, by rw [e, e, if_pos h1, if_neg h2]; norm_num⟩

/-- Non-vacuity: for these three pixels the sum of the normalised `telescopeOtf` is more than 3. -/
example : 3 < ∑ x : Pix 8, (telescopeOtf 4 2 threePix x).re /
    maxPix (fun y : Pix 8 => (telescopeOtf 4 2 threePix y).re) := by
  have s : ∑ i ∈ range 4, ∑ j ∈ range 4, threePix i j = 3 := by
    simp only [sum_range_succ, sum_range_zero]; unfold threePix; norm_num
  have q : power 4 threePix = 3 := by
    unfold power; simp only [sum_range_succ, sum_range_zero]; unfold threePix; norm_num
  have h := telescopeOtf_asymmetric (N := 8) 4 2 rfl threePix (by rw [s]; norm_num) threePix_asym
  rw [s, q] at h
  norm_num at h ⊢
  exact h

/-- Non-vacuity: a piston of one radian on the clear pupil has a negative "structure function". -/
example : phaseToSf (N := 4) 2 1 1e-5 (fun _ _ => 1 * 1) (fun _ _ => 1) (centre 4 + (0, -1)) < 0 := by
  have nn : ∀ z : Pix 4, 0 ≤ padded (α := ℝ) 2 1 (fun _ _ => 1) z := by
    intro z; unfold padded ext; split_ifs <;> norm_num
  have one : (1:ℝ) ≤ ∑ y : Pix 4, padded 2 1 (fun _ _ => 1) (y + (0, -1)) * padded 2 1 (fun _ _ => 1) y := by
    have h := single_le_sum (s := (univ : Finset (Pix 4)))
      (f := fun y : Pix 4 => padded (α := ℝ) 2 1 (fun _ _ => 1) (y + (0, -1)) * padded 2 1 (fun _ _ => 1) y)
      (fun y _ => mul_nonneg (nn _) (nn _)) (mem_univ ((1, 2) : Pix 4))
    refine le_trans (le_of_eq ?_) h
    have v : (((1, 2) : Pix 4) + (0, -1)) = (1, 1) := by decide
    simp only [v]
    have p1 : padded (α := ℝ) 2 1 (fun _ _ => 1) ((1, 1) : Pix 4) = 1 := by
      unfold padded ext; rw [if_pos (by decide)]
    have p2 : padded (α := ℝ) 2 1 (fun _ _ => 1) ((1, 2) : Pix 4) = 1 := by
      unfold padded ext; rw [if_pos (by decide)]
    rw [p1, p2, mul_one]
  have hov : (1:ℝ) / 16 ≤ (∑ y : Pix 4, padded 2 1 (fun _ _ => 1) (y + (0, -1)) * padded 2 1 (fun _ _ => 1) y) /
      (((4:ℕ):ℝ) * (4:ℕ)) := by
    rw [div_le_div_iff₀ (by norm_num) (by norm_num)]
    push_cast
    linarith
  rw [phaseToSf_piston (N := 4) 2 1 (by norm_num) 1e-5 1 (fun _ _ => 1) (fun _ _ => Or.inr rfl)
    (lt_of_lt_of_le (by norm_num) hov)]
  linarith

/-- Non-vacuity: a PSF with a sum of 4. -/
example (k : Pix 2) : ‖psf2otf (fun _ : Pix 2 => 1) k‖ ≤ 1 :=
  (psf2otf_spec (fun _ => 1) (fun _ => zero_le_one) (by simp [Fintype.card_prod, ZMod.card]) k).2

/-- Non-vacuity: full transform of an image of 3 x 4 pixels from its half. -/
example (im : ℕ → ℕ → ℝ) : rfftToFft 3 4 (fft2 3 4 im) 2 3 = fft2 3 4 im 2 3 :=
  rfftToFft_spec 3 4 im _ (fun _ _ _ _ => rfl) 2 3 (by norm_num) (by norm_num)

/-! ### Cases that meet the hypotheses -/

/-- A case meeting the hypotheses of `pupil2otf_linear`. -/
example : pupil2otf (N := 4) 2 1 (fun _ _ => 1) (fun i j => i + j / 2) (at' 4 1 0) =
    (∑ i ∈ range 2, ∑ j ∈ range 2, ext 2 (field (fun _ _ => 1) (fun i j => i + j / 2)) (i + 1) (j + 0) *
      (starRingEnd ℂ) (field (fun _ _ => 1) (fun i j => i + j / 2) i j)) / (((4 : ℕ) : ℂ) * (4 : ℕ)) :=
  pupil2otf_linear 2 2 le_rfl 1 padOf_two_two rfl _ _ (fun _ _ => zero_le_one) 1 0 (by norm_num) (by norm_num)

/-- A case meeting the hypotheses of `pupil2otf_cutoff`. -/
example : pupil2otf (N := 4) 2 1 (fun _ _ => 1) (fun i j => i + j / 2) (at' 4 2 0) = 0 :=
  pupil2otf_cutoff 2 2 le_rfl 1 padOf_two_two rfl _ _ (fun _ _ => zero_le_one) 2 0 (by norm_num) (by norm_num) (Or.inl (by norm_num))

/-- A case meeting the hypotheses of `strehl_static`. -/
example : 100 * (∑ x : Pix 4, ‖Psf.otfTot 1 (staticOtf 2 1 (fun _ _ => 1) (fun i j => i + j / 2) x) 2 1
    (Psf.phasor 0 1 1 0 0)‖) / ∑ x : Pix 4, dlOtf 2 1 (fun _ _ => 1) x ≤ 100 :=
  strehl_static 2 1 rfl (fun _ _ => 1) (fun i j => i + j / 2) (fun _ _ => zero_le_one) (by rw [power_ones]; norm_num) (fun _ => 1) (fun _ => 2)
    (fun _ => 1) (fun _ => 0) (fun _ => 0) 0 1 1 (fun _ => zero_le_one) (fun _ => zero_le_two) (fun _ => zero_le_one) (fun _ => le_rfl)

/-- A case meeting the hypotheses of `phaseToSf_piston_row`. -/
example : ∃ v : ℝ, phaseToSf (N := 4) 2 1 1e-5 (fun _ _ => 3 * 1) (fun _ _ => 1) (centre 4 + (0, ((1 : ℕ) : ZMod 4))) = v := by
  have nn : ∀ z : Pix 4, 0 ≤ padded (α := ℝ) 2 1 (fun _ _ => 1) z := by
    intro z; unfold padded ext; split_ifs <;> norm_num
  have one : (1:ℝ) ≤ ∑ y : Pix 4, padded 2 1 (fun _ _ => 1) (y + (0, ((1 : ℕ) : ZMod 4))) * padded 2 1 (fun _ _ => 1) y := by
    have h := single_le_sum (s := (univ : Finset (Pix 4)))
      (f := fun y : Pix 4 => padded (α := ℝ) 2 1 (fun _ _ => 1) (y + (0, ((1 : ℕ) : ZMod 4))) * padded 2 1 (fun _ _ => 1) y)
      (fun y _ => mul_nonneg (nn _) (nn _)) (mem_univ ((1, 1) : Pix 4))
    refine le_trans (le_of_eq ?_) h
    have e1 : padded (α := ℝ) (N := 4) 2 1 (fun _ _ => 1) ((1, 1) + (0, ((1 : ℕ) : ZMod 4))) = 1 := by
      unfold padded ext; rw [if_pos (by decide)]
    have e2 : padded (α := ℝ) (N := 4) 2 1 (fun _ _ => 1) (1, 1) = 1 := by
      unfold padded ext; rw [if_pos (by decide)]
    rw [e1, e2]; norm_num
  exact ⟨_, phaseToSf_piston_row 2 1 1e-5 3 (fun _ _ => 1) (fun _ _ => Or.inr rfl) 1 le_rfl (by norm_num) (by
    refine lt_of_lt_of_le ?_ (div_le_div_of_nonneg_right one (by positivity)); norm_num)⟩

end P3.Otf
