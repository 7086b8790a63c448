import Verif.Model.Reconstruction
import Mathlib.Algebra.BigOperators.Ring.Finset
import Mathlib.Tactic.Ring
import Mathlib.Tactic.FieldSimp
/-
The discrete Fourier transform of an `N x N` periodic grid turns products into correlations.
-/
namespace P3.Rec
open Finset

variable {N : ℕ} [NeZero N]

theorem sum_char (z : Pix N) : ∑ k : Pix N, (ZMod.stdAddChar (dot k z) : ℂ) = if z = 0 then (N : ℂ) ^ 2 else 0 := by
  have hp := ZMod.isPrimitive_stdAddChar N
  have h1 : ∑ k : Pix N, (ZMod.stdAddChar (dot k z) : ℂ)
      = (∑ a : ZMod N, (ZMod.stdAddChar (a * z.1) : ℂ)) * ∑ b : ZMod N, (ZMod.stdAddChar (b * z.2) : ℂ) := by
    rw [sum_mul_sum, Fintype.sum_prod_type]
    refine sum_congr rfl fun a _ => sum_congr rfl fun b _ => ?_
    simp only [dot]; rw [AddChar.map_add_eq_mul]
  rw [h1, AddChar.sum_mulShift z.1 hp, AddChar.sum_mulShift z.2 hp]
  simp only [ZMod.card, Prod.ext_iff, Prod.fst_zero, Prod.snd_zero]
  split_ifs <;> simp_all [pow_two]

theorem conj_char (z : ZMod N) : (starRingEnd ℂ) (ZMod.stdAddChar z : ℂ) = ZMod.stdAddChar (-z) := by
  rw [AddChar.map_neg_eq_conj]

omit [NeZero N] in
theorem dot_comb (k x y r : Pix N) : -dot k x + dot k y + dot k r = dot k (y + r - x) := by
  simp only [dot, Prod.fst_sub, Prod.snd_sub, Prod.fst_add, Prod.snd_add]; ring

/-- Correlation theorem. -/
theorem idft_corr (a b : Pix N → ℂ) (r : Pix N) :
    idft (fun k => dft a k * (starRingEnd ℂ) (dft b k)) r = ∑ y, a (y + r) * (starRingEnd ℂ) (b y) := by
  have hN : (N : ℂ) ≠ 0 := Nat.cast_ne_zero.2 (NeZero.ne N)
  unfold idft
  have h : ∀ k : Pix N, dft a k * (starRingEnd ℂ) (dft b k) * (ZMod.stdAddChar (dot k r) : ℂ)
      = ∑ y, ∑ x, a x * (starRingEnd ℂ) (b y) * (ZMod.stdAddChar (dot k (y + r - x)) : ℂ) := by
    intro k
    unfold dft
    rw [map_sum, sum_mul_sum, sum_mul, sum_comm]
    rw [sum_comm]
    simp only [sum_mul]
    rw [sum_comm]
    refine sum_congr rfl fun y _ => sum_congr rfl fun x _ => ?_
    rw [map_mul, conj_char, neg_neg, ← dot_comb, AddChar.map_add_eq_mul, AddChar.map_add_eq_mul]
    ring
  simp only [h]
  rw [sum_comm]
  have h2 : ∀ y, ∑ k : Pix N, ∑ x, a x * (starRingEnd ℂ) (b y) * (ZMod.stdAddChar (dot k (y + r - x)) : ℂ)
      = (N : ℂ) ^ 2 * (a (y + r) * (starRingEnd ℂ) (b y)) := by
    intro y
    rw [sum_comm]
    have : ∀ x, ∑ k : Pix N, a x * (starRingEnd ℂ) (b y) * (ZMod.stdAddChar (dot k (y + r - x)) : ℂ)
        = if x = y + r then (N : ℂ) ^ 2 * (a x * (starRingEnd ℂ) (b y)) else 0 := by
      intro x
      rw [← mul_sum, sum_char]
      by_cases hx : x = y + r
      · rw [if_pos hx, if_pos (by rw [hx, sub_self])]; ring
      · rw [if_neg hx, if_neg (fun h0 => hx (sub_eq_zero.1 h0).symm)]; ring
    simp only [this]
    simp
  simp only [h2]
  rw [← mul_sum]
  field_simp

theorem idft_add (F G : Pix N → ℂ) (x : Pix N) : idft (fun k => F k + G k) x = idft F x + idft G x := by
  unfold idft; rw [← mul_add, ← sum_add_distrib]; congr 1; exact sum_congr rfl fun k _ => by ring

theorem idft_smul (c : ℂ) (F : Pix N → ℂ) (x : Pix N) : idft (fun k => c * F k) x = c * idft F x := by
  unfold idft; rw [mul_sum, mul_sum, mul_sum]; exact sum_congr rfl fun k _ => by ring

theorem idft_sum {ι : Type} (s : Finset ι) (F : ι → Pix N → ℂ) (x : Pix N) :
    idft (fun k => ∑ i ∈ s, F i k) x = ∑ i ∈ s, idft (F i) x := by
  classical
  induction s using Finset.induction_on with
  | empty => simp [idft]
  | insert a s ha ih =>
    rw [sum_insert ha, ← ih, ← idft_add]; congr 1; ext k; rw [sum_insert ha]

/-- Correlation of two real arrays at separation `r`. -/
def corr (a b : Pix N → ℝ) (r : Pix N) : ℝ := ∑ y, a (y + r) * b y

theorem idft_real (a b : Pix N → ℝ) (r : Pix N) :
    idft (fun k => dft (toC a) k * (starRingEnd ℂ) (dft (toC b) k)) r = ((corr a b r : ℝ) : ℂ) := by
  rw [idft_corr]; unfold corr toC; push_cast
  exact sum_congr rfl fun y _ => by rw [Complex.conj_ofReal]

theorem idft_normSq (a : Pix N → ℝ) (r : Pix N) :
    idft (fun k => ((‖dft (toC a) k‖ ^ 2 : ℝ) : ℂ)) r = ((corr a a r : ℝ) : ℂ) := by
  rw [← idft_real]; congr 1; ext k
  rw [Complex.mul_conj, Complex.normSq_eq_norm_sq]

theorem idft_re (a b : Pix N → ℝ) (r : Pix N) :
    idft (fun k => (((dft (toC a) k * (starRingEnd ℂ) (dft (toC b) k)).re : ℝ) : ℂ)) r
      = (((corr a b r + corr b a r) / 2 : ℝ) : ℂ) := by
  have : (fun k : Pix N => (((dft (toC a) k * (starRingEnd ℂ) (dft (toC b) k)).re : ℝ) : ℂ))
      = fun k => (1 / 2 : ℂ) * (dft (toC a) k * (starRingEnd ℂ) (dft (toC b) k)
        + dft (toC b) k * (starRingEnd ℂ) (dft (toC a) k)) := by
    ext k
    have h := Complex.add_conj (dft (toC a) k * (starRingEnd ℂ) (dft (toC b) k))
    rw [map_mul, Complex.conj_conj] at h
    rw [mul_comm (dft (toC b) k), h]; push_cast; ring
  rw [this, idft_smul, idft_add, idft_real, idft_real]; push_cast; ring

theorem corr_comm_neg (a b : Pix N → ℝ) (r : Pix N) : corr b a r = ∑ y, a y * b (y + r) := by
  unfold corr; exact sum_congr rfl fun y _ => mul_comm _ _

end P3.Rec
