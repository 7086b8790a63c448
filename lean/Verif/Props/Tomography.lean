import Verif.Lemmas.Linear
import Verif.Spec.Tomography
import Mathlib.Tactic.FinCases
import Mathlib.Tactic.Module
import Mathlib.Tactic.IntervalCases
/-
Properties C119-C123: tomographic reconstruction.
-/
namespace P3.Tomo
open Matrix Spec
open scoped ComplexOrder

variable {g l m q : ℕ}

/-! ### The reconstructor (C119) -/

/-- In every branch the reconstructor solves the normal equations `W (B C Bᴴ + N) = C Bᴴ`. -/
theorem tomo_normal {ι : Type} (pinv : Matrix (Fin g) (Fin g) ℂ → Matrix (Fin g) (Fin g) ℂ)
    (hp : ∀ A, A.IsHermitian → IsPinv A (pinv A))
    (B : ι → Matrix (Fin g) (Fin l) ℂ) (C : ι → Matrix (Fin l) (Fin l) ℂ) (N : Matrix (Fin g) (Fin g) ℂ)
    (hC : ∀ f, (C f).PosSemidef) (hN : N.PosSemidef) (f : ι) :
    wtomo pinv B C N f * (B f * C f * (B f)ᴴ + N) = C f * (B f)ᴴ := by
  show wtomo pinv B C N f * system (B f) (C f) N = rhs (B f) (C f)
  unfold wtomo
  split_ifs with h
  · rw [transpose_mul, transpose_transpose, ← transpose_nonsing_inv, transpose_transpose, Matrix.mul_assoc,
      nonsing_inv_mul _ (h f), Matrix.mul_one]
  · exact mul_pinv_mul _ _ _ (hp _ (system_posSemidef _ _ _ (hC f) hN).1)
      (fun x hx => system_kernel _ _ _ (hC f) hN x hx)

/-- Error covariance around a solution of the normal equations. -/
theorem errCov_around (B : Matrix (Fin g) (Fin l) ℂ) (C : Matrix (Fin l) (Fin l) ℂ) (N : Matrix (Fin g) (Fin g) ℂ)
    (hC : C.IsHermitian) (hN : N.IsHermitian) (W R : Matrix (Fin l) (Fin g) ℂ)
    (hW : W * (B * C * Bᴴ + N) = C * Bᴴ) :
    errCov B C N R = errCov B C N W + (R - W) * (B * C * Bᴴ + N) * (R - W)ᴴ := by
  have hW' : (B * C * Bᴴ + N) * Wᴴ = B * C := by
    have := congrArg conjTranspose hW
    rw [conjTranspose_mul, conjTranspose_add, conjTranspose_mul, conjTranspose_mul, conjTranspose_mul,
      conjTranspose_conjTranspose, hC.eq, hN.eq, ← Matrix.mul_assoc] at this
    exact this
  set A := B * C * Bᴴ + N with hA
  have key : ∀ S : Matrix (Fin l) (Fin g) ℂ, errCov B C N S = C - S * (B * C) - C * Bᴴ * Sᴴ + S * A * Sᴴ := by
    intro S
    rw [hA, errCov, conjTranspose_sub, conjTranspose_one, conjTranspose_mul]
    simp only [Matrix.sub_mul, Matrix.mul_sub, Matrix.one_mul, Matrix.mul_one, Matrix.mul_add, Matrix.add_mul,
      Matrix.mul_assoc]
    abel
  rw [key R, key W, conjTranspose_sub]
  simp only [Matrix.sub_mul, Matrix.mul_sub]
  have e1 : R * A * Wᴴ = R * (B * C) := by rw [Matrix.mul_assoc, hW']
  have e2 : W * A * Rᴴ = C * Bᴴ * Rᴴ := by rw [hW]
  have e3 : W * A * Wᴴ = C * Bᴴ * Wᴴ := by rw [hW]
  have e4 : W * A * Wᴴ = W * (B * C) := by rw [Matrix.mul_assoc, hW']
  rw [e1, e2, ← e4, ← e3]
  abel

/-- **C119.** Whatever other linear estimator `R` is used, the error covariance is at least that of the
reconstructor (the difference is positive semi-definite, so every layer and every combination of layers is
estimated at least as well). -/
theorem tomo_optimal {ι : Type} (pinv : Matrix (Fin g) (Fin g) ℂ → Matrix (Fin g) (Fin g) ℂ)
    (hp : ∀ A, A.IsHermitian → IsPinv A (pinv A))
    (B : ι → Matrix (Fin g) (Fin l) ℂ) (C : ι → Matrix (Fin l) (Fin l) ℂ) (N : Matrix (Fin g) (Fin g) ℂ)
    (hC : ∀ f, (C f).PosSemidef) (hN : N.PosSemidef) (f : ι) (R : Matrix (Fin l) (Fin g) ℂ) :
    (errCov (B f) (C f) N R - errCov (B f) (C f) N (wtomo pinv B C N f)).PosSemidef := by
  rw [errCov_around _ _ _ (hC f).1 hN.1 _ R (tomo_normal pinv hp B C N hC hN f), add_sub_cancel_left]
  exact (system_posSemidef _ _ _ (hC f) hN).mul_mul_conjTranspose_same _

theorem errCov_posSemidef (B : Matrix (Fin g) (Fin l) ℂ) (C : Matrix (Fin l) (Fin l) ℂ)
    (N : Matrix (Fin g) (Fin g) ℂ) (hC : C.PosSemidef) (hN : N.PosSemidef) (R : Matrix (Fin l) (Fin g) ℂ) :
    (errCov B C N R).PosSemidef :=
  (hC.mul_mul_conjTranspose_same _).add (hN.mul_mul_conjTranspose_same _)

/-- **C119.** The error is the turbulence minus what is explained by the measurements; in particular it is never
more than the turbulence, and never negative. -/
theorem tomo_error {ι : Type} (pinv : Matrix (Fin g) (Fin g) ℂ → Matrix (Fin g) (Fin g) ℂ)
    (hp : ∀ A, A.IsHermitian → IsPinv A (pinv A))
    (B : ι → Matrix (Fin g) (Fin l) ℂ) (C : ι → Matrix (Fin l) (Fin l) ℂ) (N : Matrix (Fin g) (Fin g) ℂ)
    (hC : ∀ f, (C f).PosSemidef) (hN : N.PosSemidef) (f : ι) :
    errCov (B f) (C f) N (wtomo pinv B C N f) = C f - wtomo pinv B C N f * B f * C f ∧
    (C f - errCov (B f) (C f) N (wtomo pinv B C N f)).PosSemidef ∧
    (errCov (B f) (C f) N (wtomo pinv B C N f)).PosSemidef := by
  have hW := tomo_normal pinv hp B C N hC hN f
  have h0 := errCov_around _ _ _ (hC f).1 hN.1 _ 0 hW
  have hz : errCov (B f) (C f) N 0 = C f := by simp [errCov]
  rw [hz, zero_sub, conjTranspose_neg, Matrix.neg_mul, Matrix.neg_mul, Matrix.mul_neg, neg_neg] at h0
  have hps : (wtomo pinv B C N f * (B f * C f * (B f)ᴴ + N) * (wtomo pinv B C N f)ᴴ).PosSemidef :=
    (system_posSemidef _ _ _ (hC f) hN).mul_mul_conjTranspose_same _
  have hsub : C f - errCov (B f) (C f) N (wtomo pinv B C N f)
      = wtomo pinv B C N f * (B f * C f * (B f)ᴴ + N) * (wtomo pinv B C N f)ᴴ := by
    rw [sub_eq_iff_eq_add']; exact h0
  refine ⟨?_, ?_, errCov_posSemidef _ _ _ (hC f) hN _⟩
  · have e : wtomo pinv B C N f * (B f * C f * (B f)ᴴ + N) * (wtomo pinv B C N f)ᴴ
        = wtomo pinv B C N f * B f * C f := by
      have h2 := congrArg conjTranspose hps.1.eq
      rw [conjTranspose_conjTranspose] at h2
      rw [← hps.1.eq, hW, conjTranspose_mul, conjTranspose_conjTranspose, conjTranspose_mul,
        conjTranspose_conjTranspose, (hC f).1.eq, Matrix.mul_assoc]
    rw [← e, ← hsub, sub_sub_cancel]
  · rw [hsub]; exact hps

/-- **C119.** With more noise the reconstruction is no better. -/
theorem tomo_noise_mono {ι : Type} (pinv : Matrix (Fin g) (Fin g) ℂ → Matrix (Fin g) (Fin g) ℂ)
    (hp : ∀ A, A.IsHermitian → IsPinv A (pinv A))
    (B : ι → Matrix (Fin g) (Fin l) ℂ) (C : ι → Matrix (Fin l) (Fin l) ℂ) (N N' : Matrix (Fin g) (Fin g) ℂ)
    (hC : ∀ f, (C f).PosSemidef) (hN : N.PosSemidef) (hNN : (N' - N).PosSemidef) (f : ι) :
    (errCov (B f) (C f) N' (wtomo pinv B C N' f) - errCov (B f) (C f) N (wtomo pinv B C N f)).PosSemidef := by
  have h1 := tomo_optimal pinv hp B C N hC hN f (wtomo pinv B C N' f)
  have h2 := hNN.mul_mul_conjTranspose_same (wtomo pinv B C N' f)
  have h3 := h1.add h2
  convert h3 using 1
  simp only [errCov, Matrix.mul_sub, Matrix.sub_mul]
  abel

/-- **C119.** Using an additional guide star never increases the error: `B'` measures with one more star, whose
noise is independent of that of the others. -/
theorem tomo_extra_star {ι : Type} (pinv : Matrix (Fin g) (Fin g) ℂ → Matrix (Fin g) (Fin g) ℂ)
    (pinv' : Matrix (Fin (g+1)) (Fin (g+1)) ℂ → Matrix (Fin (g+1)) (Fin (g+1)) ℂ)
    (hp' : ∀ A, A.IsHermitian → IsPinv A (pinv' A))
    (B : ι → Matrix (Fin g) (Fin l) ℂ) (b : ι → Fin l → ℂ) (C : ι → Matrix (Fin l) (Fin l) ℂ)
    (v : Fin g → ℝ) (v' : ℝ) (hC : ∀ f, (C f).PosSemidef) (hv : ∀ j, 0 ≤ v j) (hv' : 0 ≤ v') (f : ι) :
    (errCov (B f) (C f) (diagonal (fun j => (v j : ℂ))) (wtomo pinv B C (diagonal (fun j => (v j : ℂ))) f) -
      errCov (of (Fin.snoc (B f) (b f))) (C f) (diagonal (fun j => ((Fin.snoc v v' : Fin (g+1) → ℝ) j : ℂ)))
        (wtomo pinv' (fun f => of (Fin.snoc (B f) (b f))) C
          (diagonal (fun j => ((Fin.snoc v v' : Fin (g+1) → ℝ) j : ℂ))) f)).PosSemidef := by
  set W := wtomo pinv B C (diagonal (fun j => (v j : ℂ))) f with hW
  set N' : Matrix (Fin (g+1)) (Fin (g+1)) ℂ := diagonal (fun j => ((Fin.snoc v v' : Fin (g+1) → ℝ) j : ℂ)) with hN'
  have hN'p : N'.PosSemidef := by
    apply PosSemidef.diagonal
    intro j
    refine Fin.lastCases ?_ (fun i => ?_) j
    · simpa using hv'
    · simpa using hv i
  have h := tomo_optimal pinv' hp' (fun f => of (Fin.snoc (B f) (b f) : Fin (g+1) → Fin l → ℂ)) C N' hC hN'p f
    (of (fun n => (Fin.snoc (W n) 0 : Fin (g+1) → ℂ)))
  convert h using 2
  unfold errCov
  congr 1
  · have : W * B f = of (fun n => (Fin.snoc (W n) 0 : Fin (g+1) → ℂ)) *
        of (Fin.snoc (B f) (b f) : Fin (g+1) → Fin l → ℂ) := by
      ext n n'
      have hs : ∀ x : Fin g, (Fin.snoc (B f) (b f) : Fin (g+1) → Fin l → ℂ) x.castSucc = B f x :=
        fun x => Fin.snoc_castSucc (α := fun _ => Fin l → ℂ) _ _ _
      simp [Matrix.mul_apply, Fin.sum_univ_castSucc, hs]
    rw [this]
  · ext n n'
    simp [hN', Matrix.mul_apply, Fin.sum_univ_castSucc, diagonal_apply]

/-- **C119.** Nothing is reconstructed at zero spatial frequency. -/
theorem tomo_zero_frequency {ι : Type} (pinv : Matrix (Fin g) (Fin g) ℂ → Matrix (Fin g) (Fin g) ℂ)
    (s : Stars g) (h : Fin l → ℝ) (k : ι → ℝ × ℝ) (C : ι → Matrix (Fin l) (Fin l) ℂ) (N : Matrix (Fin g) (Fin g) ℂ)
    (f : ι) (hk : k f = (0, 0)) : wtomo pinv (fun f => mp s h (k f)) C N f = 0 := by
  have h0 : mp s h (k f) = 0 := by
    rw [hk]
    ext i j
    simp [mp, meas, kmod]
  unfold wtomo
  simp only [h0, rhs, conjTranspose_zero, Matrix.mul_zero, transpose_zero, Matrix.zero_mul, ite_self]

/-- **C119.** Without noise, layers that the measurements separate (the measurement matrix has a left inverse)
are reconstructed exactly. -/
theorem tomo_exact {ι : Type} (pinv : Matrix (Fin g) (Fin g) ℂ → Matrix (Fin g) (Fin g) ℂ)
    (hp : ∀ A, A.IsHermitian → IsPinv A (pinv A))
    (B : ι → Matrix (Fin g) (Fin l) ℂ) (C : ι → Matrix (Fin l) (Fin l) ℂ) (hC : ∀ f, (C f).PosSemidef) (f : ι)
    (hCf : (C f).PosDef) (L : Matrix (Fin l) (Fin g) ℂ) (hL : L * B f = 1) :
    wtomo pinv B C 0 f * B f = 1 := by
  have hW := tomo_normal pinv hp B C 0 hC PosSemidef.zero f
  rw [add_zero] at hW
  have hL' : (B f)ᴴ * Lᴴ = 1 := by rw [← conjTranspose_mul, hL, conjTranspose_one]
  have h1 : wtomo pinv B C 0 f * B f * C f = C f := by
    have := congrArg (· * Lᴴ) hW
    simp only [Matrix.mul_assoc, hL', Matrix.mul_one] at this
    rw [Matrix.mul_assoc]; exact this
  have hu := (isUnit_iff_isUnit_det _).1 hCf.isUnit
  calc wtomo pinv B C 0 f * B f = wtomo pinv B C 0 f * B f * C f * (C f)⁻¹ := by
        rw [Matrix.mul_assoc _ (C f), mul_nonsing_inv _ hu, Matrix.mul_one]
    _ = 1 := by rw [h1, mul_nonsing_inv _ hu]

/-- **C119.** With noise in every sensor the reconstructor is the only optimal one. -/
theorem tomo_unique {ι : Type} (pinv : Matrix (Fin g) (Fin g) ℂ → Matrix (Fin g) (Fin g) ℂ)
    (hp : ∀ A, A.IsHermitian → IsPinv A (pinv A))
    (B : ι → Matrix (Fin g) (Fin l) ℂ) (C : ι → Matrix (Fin l) (Fin l) ℂ) (N : Matrix (Fin g) (Fin g) ℂ)
    (hC : ∀ f, (C f).PosSemidef) (hN : N.PosDef) (f : ι) (R : Matrix (Fin l) (Fin g) ℂ)
    (hR : (errCov (B f) (C f) N R).trace = (errCov (B f) (C f) N (wtomo pinv B C N f)).trace) :
    R = wtomo pinv B C N f := by
  have hA : (B f * C f * (B f)ᴴ + N).PosDef :=
    PosDef.posSemidef_add ((hC f).mul_mul_conjTranspose_same _) hN
  have h := errCov_around _ _ _ (hC f).1 hN.1 _ R (tomo_normal pinv hp B C N hC hN.posSemidef f)
  set D := R - wtomo pinv B C N f with hD
  have ht : (D * (B f * C f * (B f)ᴴ + N) * Dᴴ).trace = 0 := by
    have := congrArg trace h
    rw [trace_add, hR] at this
    simpa using this
  have hz : D * (B f * C f * (B f)ᴴ + N) * Dᴴ = 0 :=
    ((hA.posSemidef.mul_mul_conjTranspose_same D).trace_eq_zero_iff).1 ht
  have hD0 : D = 0 := by
    ext n j
    by_contra hne
    have hx : star (D n) ≠ 0 := by
      intro h0
      apply hne
      have := congrFun h0 j
      simpa using this
    have hpos := hA.dotProduct_mulVec_pos hx
    have he : star (star (D n)) ⬝ᵥ ((B f * C f * (B f)ᴴ + N) *ᵥ star (D n)) = 0 := by
      have := congrFun (congrFun hz n) n
      rw [Matrix.mul_assoc, Matrix.mul_apply] at this
      rw [star_star]
      simpa [dotProduct, mulVec, Matrix.mul_apply, conjTranspose_apply] using this
    rw [he] at hpos
    exact lt_irrefl _ hpos
  exact sub_eq_zero.1 hD0

/-- The hypothesis on `pinv` is met, whatever the number of stars. -/
example : ∃ pinv : Matrix (Fin g) (Fin g) ℂ → Matrix (Fin g) (Fin g) ℂ, ∀ A, A.IsHermitian → IsPinv A (pinv A) :=
  exists_pinv_fun g

/-! ### The projection on the mirrors (C121, C122) -/

/-- Rows of all directions, stacked. -/
def stack {n : ℕ} (p : Fin q → Matrix (Fin 1) (Fin n) ℂ) : Matrix (Fin q) (Fin n) ℂ := of (fun d => p d 0)

/-- Weights of the directions, on a diagonal. -/
noncomputable def wdiag (w : Fin q → ℝ) : Matrix (Fin q) (Fin q) ℂ := diagonal (fun d => (w d : ℂ))

theorem wdiag_posSemidef (w : Fin q → ℝ) (hw : ∀ d, 0 ≤ w d) : (wdiag w).PosSemidef :=
  PosSemidef.diagonal (fun d => by simpa using hw d)

theorem crossCov_eq (w : Fin q → ℝ) (p : Fin q → Matrix (Fin 1) (Fin m) ℂ) (a : Fin q → Matrix (Fin 1) (Fin l) ℂ) :
    crossCov w p a = (stack p)ᴴ * wdiag w * stack a := by
  ext i j
  simp only [crossCov, Matrix.sum_apply, Matrix.smul_apply, Matrix.mul_apply, stack, wdiag, diagonal_apply, of_apply,
    conjTranspose_apply, Fin.sum_univ_one, smul_eq_mul, Finset.sum_mul]
  refine Finset.sum_congr rfl (fun d _ => ?_)
  rw [Finset.sum_eq_single d (fun b _ hb => by simp [hb]) (by simp)]
  simp; ring

theorem mirrorCov_eq (w : Fin q → ℝ) (p : Fin q → Matrix (Fin 1) (Fin m) ℂ) :
    mirrorCov w p = (stack p)ᴴ * wdiag w * stack p := crossCov_eq w p p

theorem mirrorCov_posSemidef (w : Fin q → ℝ) (hw : ∀ d, 0 ≤ w d) (p : Fin q → Matrix (Fin 1) (Fin m) ℂ) :
    (mirrorCov w p).PosSemidef := by
  rw [mirrorCov_eq]
  exact (wdiag_posSemidef w hw).conjTranspose_mul_mul_same _

theorem fieldErr_eq (w : Fin q → ℝ) (p : Fin q → Matrix (Fin 1) (Fin m) ℂ) (a : Fin q → Matrix (Fin 1) (Fin l) ℂ)
    (X : Matrix (Fin m) (Fin l) ℂ) :
    (fieldErr w p a X : ℂ) = ((stack a - stack p * X)ᴴ * wdiag w * (stack a - stack p * X)).trace := by
  have hrow : ∀ d n, (a d - p d * X) 0 n = (stack a - stack p * X) d n := by
    intro d n
    simp [stack, Matrix.mul_apply]
  unfold fieldErr
  simp only [hrow]
  generalize stack a - stack p * X = E
  push_cast
  rw [Matrix.trace]
  simp only [Matrix.diag_apply, Matrix.mul_apply, wdiag, diagonal_apply, conjTranspose_apply]
  rw [Finset.sum_comm]
  refine Finset.sum_congr rfl (fun d _ => ?_)
  rw [Finset.mul_sum]
  refine Finset.sum_congr rfl (fun n _ => ?_)
  rw [Finset.sum_eq_single d (fun b _ hb => by simp [hb]) (by simp), if_pos rfl]
  have h := Complex.conj_mul' (E d n)
  rw [← h]
  simp only [RCLike.star_def]
  ring

/-- Around a solution `Y` of the normal equations, the error over the field is quadratic. -/
theorem fieldErr_around (w : Fin q → ℝ) (p : Fin q → Matrix (Fin 1) (Fin m) ℂ) (a : Fin q → Matrix (Fin 1) (Fin l) ℂ)
    (X Y : Matrix (Fin m) (Fin l) ℂ) (hY : mirrorCov w p * Y = crossCov w p a) :
    (fieldErr w p a X : ℂ) = fieldErr w p a Y + ((X - Y)ᴴ * mirrorCov w p * (X - Y)).trace := by
  rw [fieldErr_eq, fieldErr_eq, mirrorCov_eq]
  rw [mirrorCov_eq, crossCov_eq] at hY
  set P := stack p
  set A := stack a
  set D := wdiag w
  have hD : Dᴴ = D := by
    rw [show D = diagonal (fun d => (w d : ℂ)) from rfl, diagonal_conjTranspose]
    congr 1; funext d; simp
  have hz : Pᴴ * D * (A - P * Y) = 0 := by
    rw [Matrix.mul_sub, ← hY]; simp only [Matrix.mul_assoc, sub_self]
  have hz' : (A - P * Y)ᴴ * D * P = 0 := by
    have := congrArg conjTranspose hz
    rw [conjTranspose_mul, conjTranspose_mul, conjTranspose_conjTranspose, hD, conjTranspose_zero,
      ← Matrix.mul_assoc] at this
    exact this
  have hs : A - P * X = (A - P * Y) - P * (X - Y) := by rw [Matrix.mul_sub]; abel
  rw [hs]
  set E := A - P * Y
  set F := X - Y
  rw [← trace_add]
  congr 1
  rw [conjTranspose_sub, conjTranspose_mul]
  simp only [Matrix.sub_mul, Matrix.mul_sub]
  have e1 : Fᴴ * Pᴴ * D * E = 0 := by
    rw [Matrix.mul_assoc (Fᴴ), Matrix.mul_assoc (Fᴴ), hz, Matrix.mul_zero]
  have e2 : Eᴴ * D * (P * F) = 0 := by rw [← Matrix.mul_assoc, hz', Matrix.zero_mul]
  rw [e1, e2]
  simp only [Matrix.mul_assoc]
  abel

/-- The pseudo-inverse solves the normal equations of the projection. -/
theorem pinv_normal (w : Fin q → ℝ) (hw : ∀ d, 0 ≤ w d) (p : Fin q → Matrix (Fin 1) (Fin m) ℂ)
    (a : Fin q → Matrix (Fin 1) (Fin l) ℂ) (X : Matrix (Fin m) (Fin m) ℂ) (hX : IsPinv (mirrorCov w p) X) :
    mirrorCov w p * (X * crossCov w p a) = crossCov w p a := by
  have hT := mirrorCov_posSemidef w hw p
  have hk : ∀ x, mirrorCov w p *ᵥ x = 0 → (crossCov w p a)ᴴ *ᵥ x = 0 := by
    intro x hx
    have h1 : system (stack p)ᴴ (wdiag w) 0 *ᵥ x = 0 := by
      rw [system, conjTranspose_conjTranspose, add_zero, ← mirrorCov_eq]; exact hx
    have h2 := system_kernel _ _ _ (wdiag_posSemidef w hw) PosSemidef.zero x h1
    rw [rhs, conjTranspose_conjTranspose] at h2
    rw [crossCov_eq, conjTranspose_mul, conjTranspose_mul, conjTranspose_conjTranspose,
      (wdiag_posSemidef w hw).1.eq, ← mulVec_mulVec, h2, mulVec_zero]
  have h := mul_pinv_mul _ _ _ hX hk
  have h' := congrArg conjTranspose h
  rw [conjTranspose_conjTranspose, conjTranspose_mul, conjTranspose_mul, conjTranspose_conjTranspose, hT.1.eq] at h'
  calc mirrorCov w p * (X * crossCov w p a)
      = mirrorCov w p * X * (mirrorCov w p * (Xᴴ * crossCov w p a)) := by rw [h', Matrix.mul_assoc]
    _ = (mirrorCov w p * X * mirrorCov w p) * (Xᴴ * crossCov w p a) := by simp only [Matrix.mul_assoc]
    _ = crossCov w p a := by rw [hX.axa, h']

theorem trace_quad_nonneg (T : Matrix (Fin m) (Fin m) ℂ) (hT : T.PosSemidef) (F : Matrix (Fin m) (Fin l) ℂ) :
    0 ≤ (Fᴴ * T * F).trace := (hT.conjTranspose_mul_mul_same F).trace_nonneg

/-- Least squares: a solution of the normal equations has the least error over the field. -/
theorem fieldErr_min (w : Fin q → ℝ) (hw : ∀ d, 0 ≤ w d) (p : Fin q → Matrix (Fin 1) (Fin m) ℂ)
    (a : Fin q → Matrix (Fin 1) (Fin l) ℂ) (X Y : Matrix (Fin m) (Fin l) ℂ)
    (hY : mirrorCov w p * Y = crossCov w p a) : fieldErr w p a Y ≤ fieldErr w p a X := by
  have h := fieldErr_around w p a X Y hY
  have h0 := trace_quad_nonneg _ (mirrorCov_posSemidef w hw p) (X - Y)
  have : ((fieldErr w p a Y : ℝ) : ℂ) ≤ (fieldErr w p a X : ℝ) := by
    rw [h]; exact le_add_of_nonneg_right h0
  exact_mod_cast this

/-- **C121.** With one optimisation direction the commands have the least error in that direction, among all
commands, at every frequency. -/
theorem projector_one_direction {ι : Type} [Fintype ι]
    (pinv : Matrix (Fin m) (Fin m) ℂ → Matrix (Fin m) (Fin m) ℂ) (hp : ∀ A, A.IsHermitian → IsPinv A (pinv A))
    (M : Mirrors m 1) (hw : ∀ d, 0 ≤ M.w d) (h : Fin l → ℝ) (k : ι → ℝ × ℝ) (f : ι) (X : Matrix (Fin m) (Fin l) ℂ) :
    fieldErr M.w (fun d => pdm M.h M.kc (M.dir d) (k f)) (fun d => pl h (M.dir d) (k f)) (popt pinv M h k f) ≤
      fieldErr M.w (fun d => pdm M.h M.kc (M.dir d) (k f)) (fun d => pl h (M.dir d) (k f)) X := by
  apply fieldErr_min _ hw
  unfold popt invCov
  rw [if_pos rfl]
  exact pinv_normal _ hw _ _ _ (hp _ (mirrorCov_posSemidef _ hw _).1)

/-- The transpose of a positive semi-definite matrix times itself, plus a positive multiple of the identity, is
invertible. -/
theorem tikhonov_isUnit (T : Matrix (Fin m) (Fin m) ℂ) (hT : T.PosSemidef) (r : ℝ) (hr : 0 < r) :
    IsUnit (Tᵀ * T + (r : ℂ) • (1 : Matrix (Fin m) (Fin m) ℂ)).det := by
  rw [← isUnit_iff_isUnit_det, isUnit_iff_isUnit_det, isUnit_iff_ne_zero]
  intro hdet
  obtain ⟨x, hx, h0⟩ := exists_mulVec_eq_zero_iff.2 hdet
  have h1 : Tᵀ *ᵥ (T *ᵥ x) = -((r : ℂ) • x) := by
    rw [add_mulVec, smul_mulVec, one_mulVec, ← mulVec_mulVec] at h0
    exact eq_neg_of_add_eq_zero_left h0
  have h2 : star (T *ᵥ x) ⬝ᵥ (Tᵀ *ᵥ (T *ᵥ x)) = -((r : ℂ) * (star x ⬝ᵥ (T *ᵥ x))) := by
    rw [h1, dotProduct_neg, dotProduct_smul, smul_eq_mul, star_mulVec, hT.1.eq, ← dotProduct_mulVec]
  have h3 := hT.transpose.dotProduct_mulVec_nonneg (T *ᵥ x)
  have h4 := hT.dotProduct_mulVec_nonneg x
  have hr' : (0 : ℂ) < (r : ℂ) := by exact_mod_cast hr
  have h5 : star x ⬝ᵥ (T *ᵥ x) = 0 := by
    rw [h2] at h3
    have h6 : (r : ℂ) * (star x ⬝ᵥ (T *ᵥ x)) ≤ 0 := neg_nonneg.1 h3
    have h7 : (r : ℂ) * (star x ⬝ᵥ (T *ᵥ x)) = 0 := le_antisymm h6 (mul_nonneg hr'.le h4)
    rcases mul_eq_zero.1 h7 with h | h
    · exact absurd h hr'.ne'
    · exact h
  have h6 := (hT.dotProduct_mulVec_zero_iff x).1 h5
  rw [h6, mulVec_zero] at h1
  have h7 : (r : ℂ) • x = 0 := neg_eq_zero.1 h1.symm
  rcases smul_eq_zero.1 h7 with h | h
  · exact hr'.ne' h
  · exact hx h

open scoped MatrixOrder in
theorem posSemidef_factor (T : Matrix (Fin m) (Fin m) ℂ) (hT : T.PosSemidef) :
    ∃ S : Matrix (Fin m) (Fin m) ℂ, T = Sᴴ * S :=
  CStarAlgebra.nonneg_iff_eq_star_mul_self.mp hT.nonneg

/-- The regularisation parameter is a non-negative real number. -/
theorem lambdaReg_real {ι : Type} [Fintype ι] (cond : ℝ) (hc : 0 < cond) (T : ι → Matrix (Fin m) (Fin m) ℂ)
    (hT : ∀ f, (T f).PosSemidef) : ∃ r : ℝ, 0 ≤ r ∧ lambdaReg cond T = r := by
  have h0 : 0 ≤ lambdaReg cond T := by
    unfold lambdaReg
    apply mul_nonneg
    · rw [div_eq_mul_inv]
      apply mul_nonneg
      · apply Finset.sum_nonneg
        intro f _
        obtain ⟨S, hS⟩ := posSemidef_factor _ (hT f)
        have e : ((T f)ᵀ * T f).trace = (S * (T f)ᵀ * Sᴴ).trace := by
          conv_lhs => rw [show (T f)ᵀ * T f = (T f)ᵀ * (Sᴴ * S) by rw [← hS]]
          rw [← Matrix.mul_assoc, trace_mul_comm, ← Matrix.mul_assoc]
        rw [e]
        exact ((hT f).transpose.mul_mul_conjTranspose_same S).trace_nonneg
      · rw [← Complex.ofReal_natCast, ← Complex.ofReal_inv]
        exact_mod_cast (by positivity : (0:ℝ) ≤ ((Fintype.card ι * m : ℕ) : ℝ)⁻¹)
    · exact_mod_cast (by positivity : (0:ℝ) ≤ 1 / cond)
  exact ⟨_, (Complex.le_def.1 h0).1, (Complex.ext rfl (Complex.le_def.1 h0).2.symm)⟩

/-- **C121.** With several directions the regularised system can be solved whenever the regularisation is not zero:
the commands are then given by it at every frequency. -/
theorem projector_regularised {ι : Type} [Fintype ι]
    (pinv : Matrix (Fin m) (Fin m) ℂ → Matrix (Fin m) (Fin m) ℂ) (M : Mirrors m q) (hq : q ≠ 1)
    (hw : ∀ d, 0 ≤ M.w d) (hc : 0 < M.cond) (h : Fin l → ℝ) (k : ι → ℝ × ℝ) :
    ∃ r : ℝ, 0 ≤ r ∧ lambdaReg M.cond (fun f => mirrorCov M.w (fun d => pdm M.h M.kc (M.dir d) (k f))) = r ∧
    (r ≠ 0 → ∀ f, ((mirrorCov M.w (fun d => pdm M.h M.kc (M.dir d) (k f)))ᵀ *
        mirrorCov M.w (fun d => pdm M.h M.kc (M.dir d) (k f)) + (r : ℂ) • 1) * popt pinv M h k f =
      (mirrorCov M.w (fun d => pdm M.h M.kc (M.dir d) (k f)))ᵀ *
        crossCov M.w (fun d => pdm M.h M.kc (M.dir d) (k f)) (fun d => pl h (M.dir d) (k f))) := by
  have hT : ∀ f, (mirrorCov M.w (fun d => pdm M.h M.kc (M.dir d) (k f))).PosSemidef :=
    fun f => mirrorCov_posSemidef _ hw _
  obtain ⟨r, hr, he⟩ := lambdaReg_real M.cond hc _ hT
  refine ⟨r, hr, he, fun hne f => ?_⟩
  have hu : ∀ f, IsUnit ((mirrorCov M.w (fun d => pdm M.h M.kc (M.dir d) (k f)))ᵀ *
        mirrorCov M.w (fun d => pdm M.h M.kc (M.dir d) (k f)) + (r : ℂ) • (1 : Matrix (Fin m) (Fin m) ℂ)).det :=
    fun f => tikhonov_isUnit _ (hT f) r (lt_of_le_of_ne hr (Ne.symm hne))
  unfold popt invCov
  rw [if_neg hq, he, if_pos hu]
  simp only [← Matrix.mul_assoc]
  rw [mul_nonsing_inv _ (hu f), Matrix.one_mul]

/-- Opposite directions are seen with conjugate phases. -/
theorem pdm_neg (h kc : Fin m → ℝ) (θ k : ℝ × ℝ) (j : Fin m) :
    pdm h kc (-θ) k 0 j = (starRingEnd ℂ) (pdm h kc θ k 0 j) := by
  unfold pdm phasor
  simp only [of_apply]
  split_ifs
  · rw [← Complex.exp_conj]
    congr 1
    simp only [Prod.fst_neg, Prod.snd_neg, map_mul, Complex.conj_ofReal, Complex.conj_I]
    push_cast; ring
  · simp

/-- With directions that come in opposite pairs of the same weight the covariance of the mirrors is real. -/
theorem mirrorCov_symmetric (M : Mirrors m q) (σ : Equiv.Perm (Fin q)) (hσ : ∀ d, M.dir (σ d) = -M.dir d)
    (hws : ∀ d, M.w (σ d) = M.w d) (k : ℝ × ℝ) :
    (mirrorCov M.w (fun d => pdm M.h M.kc (M.dir d) k))ᵀ = mirrorCov M.w (fun d => pdm M.h M.kc (M.dir d) k) := by
  ext i j
  simp only [mirrorCov, transpose_apply, Matrix.sum_apply, Matrix.smul_apply, Matrix.mul_apply, Fin.sum_univ_one,
    conjTranspose_apply, smul_eq_mul, RCLike.star_def]
  rw [← Equiv.sum_comp σ]
  refine Finset.sum_congr rfl (fun d _ => ?_)
  rw [hws, hσ, pdm_neg, pdm_neg, Complex.conj_conj]
  ring

/-- Square of the size of commands, as a trace. -/
theorem cost_eq (X : Matrix (Fin m) (Fin l) ℂ) : (cost X : ℂ) = (Xᴴ * X).trace := by
  unfold cost
  push_cast
  rw [Matrix.trace, Finset.sum_comm]
  simp only [Matrix.diag_apply, Matrix.mul_apply, conjTranspose_apply]
  refine Finset.sum_congr rfl (fun n _ => Finset.sum_congr rfl (fun j _ => ?_))
  rw [← Complex.conj_mul']; rfl

/-- Tikhonov regularisation of a positive semi-definite system: excess of the quadratic error. -/
theorem tikhonov_excess (T : Matrix (Fin m) (Fin m) ℂ) (hT : T.PosSemidef) (s : ℝ) (hs : 0 < s)
    (X Y : Matrix (Fin m) (Fin l) ℂ) (hX : (T * T + ((s ^ 2 : ℝ) : ℂ) • 1) * X = T * (T * Y)) :
    ((X - Y)ᴴ * T * (X - Y)).trace ≤ (Yᴴ * T * Y).trace ∧
    ((X - Y)ᴴ * T * (X - Y)).trace ≤ (s : ℂ) * (cost Y : ℂ) := by
  set S := T * T + ((s ^ 2 : ℝ) : ℂ) • (1 : Matrix (Fin m) (Fin m) ℂ) with hS
  have hTT : (T * T).PosSemidef := by
    have := hT.pow 2; rwa [pow_two] at this
  have hSd : S.PosDef := by
    apply PosDef.posSemidef_add hTT
    apply PosDef.smul PosDef.one
    exact_mod_cast (by positivity : (0:ℝ) < s ^ 2)
  have hu : IsUnit S.det := (isUnit_iff_isUnit_det _).1 hSd.isUnit
  have hSi : S⁻¹ᴴ = S⁻¹ := hSd.inv.1.eq
  have hcomm : S * T = T * S := by
    rw [hS, Matrix.add_mul, Matrix.mul_add, Matrix.mul_assoc, Matrix.smul_mul, Matrix.mul_smul, Matrix.one_mul,
      Matrix.mul_one]
  have hXY : X - Y = -(S⁻¹ * (((s ^ 2 : ℝ) : ℂ) • Y)) := by
    have h1 : S * (X - Y) = -(((s ^ 2 : ℝ) : ℂ) • Y) := by
      rw [Matrix.mul_sub, hX, hS, Matrix.add_mul, Matrix.smul_mul, Matrix.one_mul, Matrix.mul_assoc]
      abel
    calc X - Y = S⁻¹ * (S * (X - Y)) := by rw [← Matrix.mul_assoc, nonsing_inv_mul _ hu, Matrix.one_mul]
      _ = _ := by rw [h1, Matrix.mul_neg]
  have hq : (X - Y)ᴴ * T * (X - Y) = Yᴴ * (S⁻¹ * ((((s ^ 4 : ℝ) : ℂ) • T)) * S⁻¹) * Y := by
    rw [hXY, conjTranspose_neg, conjTranspose_mul, conjTranspose_smul, hSi, Matrix.neg_mul, Matrix.neg_mul,
      Matrix.mul_neg, neg_neg]
    simp only [Matrix.smul_mul, Matrix.mul_smul, smul_smul, Matrix.mul_assoc, RCLike.star_def, Complex.conj_ofReal]
    congr 1; push_cast; ring
  have key : ∀ R Q : Matrix (Fin m) (Fin m) ℂ, Q.PosSemidef → S * R * S - ((s ^ 4 : ℝ) : ℂ) • T = Q →
      ((X - Y)ᴴ * T * (X - Y)).trace ≤ (Yᴴ * R * Y).trace := by
    intro R Q hQ he
    have h1 : R - S⁻¹ * ((((s ^ 4 : ℝ) : ℂ) • T)) * S⁻¹ = S⁻¹ * Q * S⁻¹ᴴ := by
      rw [hSi, ← he, Matrix.mul_sub, Matrix.sub_mul]
      congr 1
      calc R = (S⁻¹ * S) * R * (S * S⁻¹) := by
            rw [nonsing_inv_mul _ hu, mul_nonsing_inv _ hu, Matrix.one_mul, Matrix.mul_one]
        _ = _ := by simp only [Matrix.mul_assoc]
    have h2 : (S⁻¹ * Q * S⁻¹ᴴ).PosSemidef := hQ.mul_mul_conjTranspose_same _
    have h3 := (h2.conjTranspose_mul_mul_same Y).trace_nonneg
    rw [← h1, Matrix.mul_sub, Matrix.sub_mul, trace_sub, sub_nonneg] at h3
    rw [hq]; exact h3
  constructor
  · refine key T (T ^ 5 + ((2 * s ^ 2 : ℝ) : ℂ) • T ^ 3) ?_ ?_
    · refine (hT.pow 5).add ((hT.pow 3).smul ?_)
      exact_mod_cast (by positivity : (0:ℝ) ≤ 2 * s ^ 2)
    · rw [hS]
      simp only [Matrix.add_mul, Matrix.mul_add, Matrix.smul_mul, Matrix.mul_smul, Matrix.one_mul, Matrix.mul_one,
        smul_add, smul_smul, pow_succ, pow_zero, Matrix.mul_assoc]
      push_cast
      module
  · have h := key ((s : ℂ) • 1) ((s : ℂ) • (T ^ 4 + ((2 * s ^ 2 : ℝ) : ℂ) • ((T - ((s / 4 : ℝ) : ℂ) • 1) ^ 2)
        + ((7 / 8 * s ^ 4 : ℝ) : ℂ) • 1)) ?_ ?_
    · rw [cost_eq]
      calc _ ≤ _ := h
        _ = _ := by simp
    · have hU : (T - ((s / 4 : ℝ) : ℂ) • (1 : Matrix (Fin m) (Fin m) ℂ))ᴴ = T - ((s / 4 : ℝ) : ℂ) • 1 := by
        rw [conjTranspose_sub, hT.1.eq, conjTranspose_smul, conjTranspose_one, RCLike.star_def, Complex.conj_ofReal]
      have hU2 : ((T - ((s / 4 : ℝ) : ℂ) • (1 : Matrix (Fin m) (Fin m) ℂ)) ^ 2).PosSemidef := by
        rw [pow_two]
        conv => arg 1; arg 1; rw [← hU]
        exact posSemidef_conjTranspose_mul_self _
      refine PosSemidef.smul (((hT.pow 4).add (hU2.smul ?_)).add (PosSemidef.one.smul ?_)) ?_
      · exact_mod_cast (by positivity : (0:ℝ) ≤ 2 * s ^ 2)
      · exact_mod_cast (by positivity : (0:ℝ) ≤ 7 / 8 * s ^ 4)
      · exact_mod_cast hs.le
    · rw [hS]
      simp only [Matrix.add_mul, Matrix.mul_add, Matrix.sub_mul, Matrix.mul_sub, Matrix.smul_mul, Matrix.mul_smul,
        Matrix.one_mul, Matrix.mul_one, smul_add, smul_sub, smul_smul, pow_succ, pow_zero, Matrix.mul_assoc]
      push_cast
      module

/-- **C121.** With several optimisation directions in opposite pairs of the same weight, at every frequency the
commands never do worse over the field than no correction, and they are within `√λ ‖Y‖²` of the least error, reached
by some commands `Y`. Missing from the full property: directions that are not symmetric (`projector_violation`). -/
theorem projector_symmetric_partial {ι : Type} [Fintype ι]
    (pinv : Matrix (Fin m) (Fin m) ℂ → Matrix (Fin m) (Fin m) ℂ) (M : Mirrors m q) (hq : q ≠ 1)
    (hw : ∀ d, 0 ≤ M.w d) (hc : 0 < M.cond) (h : Fin l → ℝ) (k : ι → ℝ × ℝ)
    (σ : Equiv.Perm (Fin q)) (hσ : ∀ d, M.dir (σ d) = -M.dir d) (hws : ∀ d, M.w (σ d) = M.w d)
    (r : ℝ) (hr : lambdaReg M.cond (fun f => mirrorCov M.w (fun d => pdm M.h M.kc (M.dir d) (k f))) = r) (hr0 : r ≠ 0)
    (f : ι) :
    fieldErr M.w (fun d => pdm M.h M.kc (M.dir d) (k f)) (fun d => pl h (M.dir d) (k f)) (popt pinv M h k f) ≤
      fieldErr M.w (fun d => pdm M.h M.kc (M.dir d) (k f)) (fun d => pl h (M.dir d) (k f)) 0 ∧
    ∃ Y, (∀ X, fieldErr M.w (fun d => pdm M.h M.kc (M.dir d) (k f)) (fun d => pl h (M.dir d) (k f)) Y ≤
      fieldErr M.w (fun d => pdm M.h M.kc (M.dir d) (k f)) (fun d => pl h (M.dir d) (k f)) X) ∧
      fieldErr M.w (fun d => pdm M.h M.kc (M.dir d) (k f)) (fun d => pl h (M.dir d) (k f)) (popt pinv M h k f) ≤
      fieldErr M.w (fun d => pdm M.h M.kc (M.dir d) (k f)) (fun d => pl h (M.dir d) (k f)) Y + √r * cost Y := by
  obtain ⟨r', hr', he, hsol⟩ := projector_regularised pinv M hq hw hc h k
  have hrr : r' = r := by rw [hr] at he; exact_mod_cast he.symm
  subst hrr
  have hX := hsol hr0 f
  rw [mirrorCov_symmetric M σ hσ hws] at hX
  set p := fun d => pdm M.h M.kc (M.dir d) (k f)
  set a := fun d => pl h (M.dir d) (k f)
  obtain ⟨Z, hZ⟩ := exists_pinv _ (mirrorCov_posSemidef M.w hw p).1
  have hY := pinv_normal M.w hw p a Z hZ
  set Y := Z * crossCov M.w p a
  have hpos : 0 < r' := lt_of_le_of_ne hr' (Ne.symm hr0)
  have hex := tikhonov_excess (mirrorCov M.w p) (mirrorCov_posSemidef M.w hw p) (√r') (Real.sqrt_pos.2 hpos)
    (popt pinv M h k f) Y (by rw [Real.sq_sqrt hr', hY]; exact hX)
  have e1 := fieldErr_around M.w p a (popt pinv M h k f) Y hY
  have e0 := fieldErr_around M.w p a 0 Y hY
  rw [zero_sub, conjTranspose_neg, Matrix.neg_mul, Matrix.neg_mul, Matrix.mul_neg, neg_neg] at e0
  refine ⟨?_, Y, fun X => fieldErr_min M.w hw p a X Y hY, ?_⟩
  · have : ((fieldErr M.w p a (popt pinv M h k f) : ℝ) : ℂ) ≤ (fieldErr M.w p a 0 : ℝ) := by
      rw [e1, e0]; exact add_le_add_right hex.1 _
    exact_mod_cast this
  · have : ((fieldErr M.w p a (popt pinv M h k f) : ℝ) : ℂ) ≤ ((fieldErr M.w p a Y + √r' * cost Y : ℝ) : ℂ) := by
      rw [e1]; push_cast; exact add_le_add_right hex.2 _
    exact_mod_cast this

theorem mirrorCov_col_zero (w : Fin q → ℝ) (p : Fin q → Matrix (Fin 1) (Fin m) ℂ) (j : Fin m)
    (hj : ∀ d, p d 0 j = 0) (i : Fin m) : mirrorCov w p i j = 0 ∧ mirrorCov w p j i = 0 := by
  simp [mirrorCov, Matrix.sum_apply, Matrix.smul_apply, Matrix.mul_apply, conjTranspose_apply, hj]

/-- **C122.** A mirror gets no command beyond its cut-off frequency, whatever the directions, weights and
conditioning. -/
theorem projector_cutoff {ι : Type} [Fintype ι]
    (pinv : Matrix (Fin m) (Fin m) ℂ → Matrix (Fin m) (Fin m) ℂ) (hp : ∀ A, A.IsHermitian → IsPinv A (pinv A))
    (M : Mirrors m q) (hw : ∀ d, 0 ≤ M.w d) (h : Fin l → ℝ) (k : ι → ℝ × ℝ) (f : ι) (j : Fin m)
    (hj : M.kc j < √((k f).1 ^ 2 + (k f).2 ^ 2)) (n : Fin l) : popt pinv M h k f j n = 0 := by
  have hcol : ∀ d, pdm M.h M.kc (M.dir d) (k f) 0 j = 0 := by
    intro d
    simp only [pdm, of_apply]
    rw [if_neg (show ¬ kmod (k f) ≤ M.kc j from not_le.2 hj)]
  set T : ι → Matrix (Fin m) (Fin m) ℂ := fun f => mirrorCov M.w (fun d => pdm M.h M.kc (M.dir d) (k f)) with hTdef
  have hTz : ∀ i, T f i j = 0 ∧ T f j i = 0 := fun i => mirrorCov_col_zero _ _ _ hcol i
  have hrow : ∀ i, invCov q M.cond pinv T f j i = 0 := by
    have hpinv : ∀ i, pinv (T f) j i = 0 := by
      intro i
      have hP := hp (T f) (mirrorCov_posSemidef _ hw _).1
      have e : pinv (T f) = (T f)ᴴ * ((pinv (T f))ᴴ * pinv (T f)) := by
        conv_lhs => rw [← hP.xax, ← hP.xa, conjTranspose_mul]
        rw [Matrix.mul_assoc]
      rw [e, Matrix.mul_apply]
      apply Finset.sum_eq_zero
      intro x _
      rw [conjTranspose_apply, (hTz x).1]; simp
    intro i
    unfold invCov
    split_ifs with h1 h2
    · exact hpinv i
    · set A := (T f)ᵀ * T f + lambdaReg M.cond T • (1 : Matrix (Fin m) (Fin m) ℂ) with hA
      have hArow : ∀ x, A j x = lambdaReg M.cond T * (1 : Matrix (Fin m) (Fin m) ℂ) j x := by
        intro x
        rw [hA, Matrix.add_apply, Matrix.smul_apply, smul_eq_mul, Matrix.mul_apply]
        rw [Finset.sum_eq_zero (fun y _ => by rw [transpose_apply, (hTz y).1, zero_mul]), zero_add]
      have hne : lambdaReg M.cond T ≠ 0 := by
        intro h0
        have : A.det = 0 := det_eq_zero_of_row_eq_zero j (fun x => by rw [hArow, h0, zero_mul])
        have hu := h2 f
        rw [← hA, this] at hu
        exact not_isUnit_zero hu
      have h3 : A * (A⁻¹ * (T f)ᵀ) = (T f)ᵀ := by
        rw [← Matrix.mul_assoc, mul_nonsing_inv _ (h2 f), Matrix.one_mul]
      have h4 := congrFun (congrFun h3 j) i
      rw [Matrix.mul_apply, transpose_apply, (hTz i).1] at h4
      simp only [hArow] at h4
      rw [Finset.sum_eq_single j (fun b _ hb => by rw [Matrix.one_apply_ne (Ne.symm hb)]; ring) (by simp),
        Matrix.one_apply_eq, mul_one] at h4
      exact (mul_eq_zero.1 h4).resolve_left hne
    · exact hpinv i
  unfold popt
  rw [Matrix.mul_apply]
  apply Finset.sum_eq_zero
  intro x _
  have := hrow x
  rw [hTdef] at this
  rw [this, zero_mul]

/-- Two mirrors, at the ground and at 10 km, optimised in two directions 5 arcsec east and north-east or south-east. -/
noncomputable def eastMirrors : Mirrors 2 2 where
  h := ![0, 10000]
  kc := ![2, 2]
  dir := ![(1/40000, 1/40000), (1/40000, -1/40000)]
  w := ![1/2, 1/2]
  cond := 100

theorem phasor_zero : phasor 0 = 1 := by simp [phasor]

theorem phasor_quarter : phasor (1/4) = Complex.I := by
  unfold phasor
  rw [show (2 * Real.pi * (1/4) : ℝ) = Real.pi / 2 by ring, Complex.exp_mul_I, ← Complex.ofReal_cos,
    ← Complex.ofReal_sin, Real.cos_pi_div_two, Real.sin_pi_div_two]
  simp

theorem east_pdm (d : Fin 2) :
    pdm eastMirrors.h eastMirrors.kc (eastMirrors.dir d) (1, 0) = !![1, Complex.I] ∧
    pdm eastMirrors.h eastMirrors.kc (eastMirrors.dir d) (0, 0) = !![1, 1] ∧
    pl ![(10000:ℝ)] (eastMirrors.dir d) (1, 0) = !![Complex.I] := by
  have hk : kmod (1, 0) = 1 := by simp [kmod]
  have hk0 : kmod (0, 0) = 0 := by simp [kmod]
  have hq : (10000 * (1 / 40000) : ℝ) = 1 / 4 := by norm_num
  refine ⟨?_, ?_, ?_⟩
  · ext i j
    fin_cases d <;> fin_cases i <;> fin_cases j <;>
      simp [pdm, eastMirrors, hk, phasor_zero] <;>
      (rw [show (10000 * 40000⁻¹ : ℝ) = 1 / 4 by norm_num]; exact phasor_quarter)
  · ext i j
    fin_cases d <;> fin_cases i <;> fin_cases j <;> simp [pdm, eastMirrors, hk0, phasor_zero]
  · ext i j
    fin_cases d <;> fin_cases i <;> fin_cases j <;> simp [pl, eastMirrors] <;>
      (rw [show (10000 * 40000⁻¹ : ℝ) = 1 / 4 by norm_num]; exact phasor_quarter)

/-- **C121 (violation).** A layer conjugated to the upper mirror can be corrected exactly, but with two directions on
the same side the commands are zero at the frequency of one cycle per metre, so that nothing is corrected: the code
uses the transpose of a complex matrix where the conjugate transpose is needed. -/
theorem projector_violation (pinv : Matrix (Fin 2) (Fin 2) ℂ → Matrix (Fin 2) (Fin 2) ℂ) :
    popt pinv eastMirrors ![10000] ![(0, 0), (1, 0)] 1 = 0 ∧
    fieldErr eastMirrors.w (fun d => pdm eastMirrors.h eastMirrors.kc (eastMirrors.dir d) (1, 0))
      (fun d => pl ![(10000:ℝ)] (eastMirrors.dir d) (1, 0)) 0 = 1 ∧
    fieldErr eastMirrors.w (fun d => pdm eastMirrors.h eastMirrors.kc (eastMirrors.dir d) (1, 0))
      (fun d => pl ![(10000:ℝ)] (eastMirrors.dir d) (1, 0)) !![0; 1] = 0 := by
  have hw : ∀ d, 0 ≤ eastMirrors.w d := by intro d; fin_cases d <;> norm_num [eastMirrors]
  have hT1 : mirrorCov eastMirrors.w (fun d => pdm eastMirrors.h eastMirrors.kc (eastMirrors.dir d) (1, 0))
      = !![1, Complex.I; -Complex.I, 1] := by
    simp only [(east_pdm _).1, mirrorCov, Fin.sum_univ_two]
    ext i j
    fin_cases i <;> fin_cases j <;> simp [eastMirrors, Matrix.mul_apply] <;> ring
  have hT0 : mirrorCov eastMirrors.w (fun d => pdm eastMirrors.h eastMirrors.kc (eastMirrors.dir d) (0, 0))
      = !![1, 1; 1, 1] := by
    simp only [(east_pdm _).2.1, mirrorCov, Fin.sum_univ_two]
    ext i j
    fin_cases i <;> fin_cases j <;> simp [eastMirrors, Matrix.mul_apply] <;> ring
  have hK : crossCov eastMirrors.w (fun d => pdm eastMirrors.h eastMirrors.kc (eastMirrors.dir d) (1, 0))
      (fun d => pl ![(10000:ℝ)] (eastMirrors.dir d) (1, 0)) = !![Complex.I; 1] := by
    simp only [(east_pdm _).1, (east_pdm _).2.2, crossCov, Fin.sum_univ_two]
    ext i j
    fin_cases i <;> fin_cases j <;> simp [eastMirrors, Matrix.mul_apply] <;> ring
  refine ⟨?_, ?_, ?_⟩
  · obtain ⟨r, hr, he, hsol⟩ := projector_regularised (l := 1) pinv eastMirrors (by norm_num) hw
      (by norm_num [eastMirrors]) ![10000] ![(0, 0), (1, 0)]
    have hrv : r = 1 / 100 := by
      have : lambdaReg eastMirrors.cond (fun f : Fin 2 => mirrorCov eastMirrors.w (fun d =>
          pdm eastMirrors.h eastMirrors.kc (eastMirrors.dir d) ((![(0, 0), (1, 0)] : Fin 2 → ℝ × ℝ) f)))
          = ((1 / 100 : ℝ) : ℂ) := by
        unfold lambdaReg
        rw [Fin.sum_univ_two]
        simp only [Matrix.cons_val_zero, Matrix.cons_val_one, hT0, hT1]
        simp [Matrix.trace, Fin.sum_univ_two, Matrix.mul_apply, eastMirrors]
        norm_num
      rw [this] at he
      exact_mod_cast he.symm
    have h := hsol (by rw [hrv]; norm_num) 1
    simp only [Matrix.cons_val_one, Matrix.cons_val_fin_one] at h
    rw [hT1, hK] at h
    have hz : (!![1, Complex.I; -Complex.I, 1] : Matrix (Fin 2) (Fin 2) ℂ)ᵀ * !![1, Complex.I; -Complex.I, 1] = 0 := by
      ext i j; fin_cases i <;> fin_cases j <;> simp [Matrix.mul_apply]
    have hz' : (!![1, Complex.I; -Complex.I, 1] : Matrix (Fin 2) (Fin 2) ℂ)ᵀ * (!![Complex.I; 1] : Matrix (Fin 2) (Fin 1) ℂ) = 0 := by
      ext i j; fin_cases i <;> fin_cases j <;> simp [Matrix.mul_apply]
    rw [hz, hz', zero_add, Matrix.smul_mul, Matrix.one_mul, hrv] at h
    rcases smul_eq_zero.1 h with h | h
    · exact absurd h (by norm_num)
    · exact h
  · simp only [fieldErr, (east_pdm _).1, (east_pdm _).2.2, Fin.sum_univ_two, Fin.sum_univ_one]
    norm_num [eastMirrors]
  · simp only [fieldErr, (east_pdm _).1, (east_pdm _).2.2, Fin.sum_univ_two, Fin.sum_univ_one]
    norm_num [eastMirrors, Matrix.mul_apply]

/-- The hypotheses of `projector_symmetric_partial` are met by two opposite directions. -/
example : ∃ (M : Mirrors 2 2) (σ : Equiv.Perm (Fin 2)), (∀ d, 0 ≤ M.w d) ∧ 0 < M.cond ∧
    (∀ d, M.dir (σ d) = -M.dir d) ∧ (∀ d, M.w (σ d) = M.w d) := by
  refine ⟨⟨![0, 10000], ![2, 2], ![(1/40000, 0), (-1/40000, 0)], ![1/2, 1/2], 100⟩, Equiv.swap 0 1, ?_, by norm_num,
    ?_, ?_⟩
  · intro d; fin_cases d <;> norm_num
  · intro d; fin_cases d <;> simp <;> norm_num
  · intro d; fin_cases d <;> simp

/-! ### Noise covariance (C120) -/

/-- **C120.** One variance per sensor: independent noises of these variances. Missing from the full property: a single
variance for several sensors (`noiseCov_single`). -/
theorem noiseCov_independent (g : ℕ) (v : List ℝ) (hv : v.length = g) :
    ∃ N, noiseCov g v = some N ∧ (∀ i j, i ≠ j → N i j = 0) ∧ (∀ j : Fin g, ∀ x, v[(j : ℕ)]? = some x → N j j = x) ∧
    ((∀ x ∈ v, 0 ≤ x) → N.PosSemidef) := by
  refine ⟨_, by unfold noiseCov; rw [if_pos hv], ?_, ?_, ?_⟩
  · intro i j hij; exact diagonal_apply_ne _ hij
  · intro j x hx
    rw [diagonal_apply_eq, List.getD_eq_getElem?_getD, hx]; rfl
  · intro h
    apply PosSemidef.diagonal
    intro j
    have hj : (j : ℕ) < v.length := by rw [hv]; exact j.isLt
    have := h _ (List.getElem_mem hj)
    simp only [List.getD_eq_getElem?_getD, List.getElem?_eq_getElem hj, Option.getD_some]
    show (0:ℂ) ≤ ((v[(j:ℕ)] : ℝ) : ℂ)
    exact_mod_cast this

/-- **C295 (violation).** A single variance given for several sensors is used for every entry of the covariance: the
noises are taken as identical, so that the difference of two sensors is considered free of noise. -/
theorem noiseCov_single (g : ℕ) (hg : 2 ≤ g) (x : ℝ) :
    ∃ N, noiseCov g [x] = some N ∧ (∀ i j, N i j = x) ∧
    (0 < x → ¬ (∀ i j, i ≠ j → N i j = 0)) ∧
    (∀ i j : Fin g, i ≠ j → star (Pi.single i 1 - Pi.single j 1 : Fin g → ℂ) ⬝ᵥ
      (N *ᵥ (Pi.single i 1 - Pi.single j 1)) = 0) := by
  refine ⟨of (fun _ _ => (x : ℂ)), ?_, fun _ _ => rfl, ?_, ?_⟩
  · unfold noiseCov
    rw [if_neg (by simp; omega)]
  · intro hx h
    have := h ⟨0, by omega⟩ ⟨1, by omega⟩ (by simp)
    simp only [of_apply] at this
    exact hx.ne' (by exact_mod_cast this)
  · intro i j hij
    have : (of (fun _ _ => (x : ℂ)) : Matrix (Fin g) (Fin g) ℂ) *ᵥ (Pi.single i 1 - Pi.single j 1) = 0 := by
      rw [mulVec_sub, mulVec_single_one, mulVec_single_one]
      ext a; simp
    rw [this, dotProduct_zero]

/-- Other numbers of variances raise. -/
theorem noiseCov_none (g : ℕ) (v : List ℝ) : noiseCov g v = none ↔ v.length ≠ g ∧ v.length ≠ 1 := by
  unfold noiseCov
  split_ifs with h
  · simp [h]
  · rcases v with _ | ⟨a, _ | ⟨b, t⟩⟩ <;> simp [h]
    all_goals simpa using h

/-- **C119.** The reconstructor of the code, for one noise variance per sensor, is optimal at every frequency. -/
theorem reconstructor_optimal {ι : Type} {lt : ℕ} (pinv : Matrix (Fin g) (Fin g) ℂ → Matrix (Fin g) (Fin g) ℂ)
    (hp : ∀ A, A.IsHermitian → IsPinv A (pinv A)) (s : Stars g) (h : Fin l → ℝ) (k : ι → ℝ × ℝ) (κ : ι → ℝ)
    (hκ : ∀ f, 0 ≤ κ f) (w : Fin lt → ℝ) (wm : Fin l → ℝ) (hw : ∀ n, 0 ≤ w n) (hwm : ∀ n, 0 ≤ wm n)
    (v : List ℝ) (hv : v.length = g) (hv0 : ∀ x ∈ v, 0 ≤ x) :
    ∃ N, noiseCov g v = some N ∧ ∀ f R,
      (errCov (mp s h (k f)) (cphiMod (κ f) w wm) N R - errCov (mp s h (k f)) (cphiMod (κ f) w wm) N
        (wtomo pinv (fun f => mp s h (k f)) (fun f => cphiMod (κ f) w wm) N f)).PosSemidef := by
  obtain ⟨N, hN, _, _, hps⟩ := noiseCov_independent g v hv
  refine ⟨N, hN, fun f R => tomo_optimal pinv hp (fun f => mp s h (k f)) (fun f => cphiMod (κ f) w wm) N ?_ (hps hv0) f R⟩
  intro f
  unfold cphiMod
  split_ifs with hl
  · exact PosSemidef.diagonal (fun n => Complex.zero_le_real.2 (mul_nonneg (hκ f) (hw _)))
  · exact PosSemidef.diagonal (fun n => Complex.zero_le_real.2 (mul_nonneg (hκ f) (hwm _)))

/-- The measurement of a star: `2iπ|k|` times the averaging of its sub-aperture, delayed by the position of the layer
in its direction. -/
theorem mp_apply (s : Stars g) (h : Fin l → ℝ) (k : ℝ × ℝ) (j : Fin g) (n : Fin l) :
    mp s h k j n = meas (s.d j) k * phasor (h n * (k.1 * (s.dir j).1 + k.2 * (s.dir j).2)) := by
  simp [mp, Matrix.diagonal_mul]

/-- The turbulence used by the reconstructor is the spectrum of the atmosphere without piston. -/
theorem kernel_spectrum (a : Atmosphere.Atm) (pf : ℝ) (k : ℝ × ℝ) :
    kernel a.r0 a.L0 pf k = Atmosphere.spectrum a (√(k.1 ^ 2 + k.2 ^ 2)) * pf := by
  unfold kernel Atmosphere.spectrum
  rw [Real.sq_sqrt (by positivity)]

/-- **C123.** Layers are seen by a laser guide star at height `H` as if at `hH/(H-h)`: higher than they are, in the
same order; a layer at the height of the star is the only one that gives no number. -/
theorem stretched_spec (H h h' : ℝ) (hH : 0 < H) :
    (stretched (some H) h = none ↔ h = H) ∧
    (0 ≤ h → h < H → stretched (some H) h = some (h * H / (H - h)) ∧ h ≤ h * H / (H - h)) ∧
    (0 ≤ h → h < h' → h' < H → h * H / (H - h) < h' * H / (H - h')) ∧ stretched none h = some h := by
  have hz : 1 - h / H = 0 ↔ h = H := by
    rw [sub_eq_zero, eq_comm, div_eq_one_iff_eq hH.ne']
  refine ⟨?_, ?_, ?_, rfl⟩
  · simp [stretched, hz]
  · intro h0 h1
    have hp : 0 < H - h := by linarith
    constructor
    · simp only [stretched]
      rw [if_neg (by rw [hz]; exact h1.ne)]
      congr 1
      field_simp
    · rw [le_div_iff₀ hp]; nlinarith
  · intro h0 h1 h2
    rw [div_lt_div_iff₀ (by linarith) (by linarith)]
    nlinarith [mul_pos hH hH]

/-! ### Residual and noise spectra (C122, C123) -/

/-- One row times a matrix times its conjugate. -/
theorem row_quad (x : Matrix (Fin 1) (Fin l) ℂ) (κ : ℝ) (w : Fin l → ℝ) :
    ((x * (cphi κ w * xᴴ)) 0 0).re = κ * ∑ n, w n * ‖x 0 n‖ ^ 2 := by
  rw [Matrix.mul_apply, Complex.re_sum, Finset.mul_sum]
  refine Finset.sum_congr rfl (fun n _ => ?_)
  rw [cphi, Matrix.diagonal_mul, conjTranspose_apply]
  have : x 0 n * (((κ * w n : ℝ) : ℂ) * star (x 0 n)) = ((κ * w n : ℝ) : ℂ) * (star (x 0 n) * x 0 n) := by ring
  rw [this, RCLike.star_def, Complex.conj_mul', ← Complex.ofReal_pow, ← Complex.ofReal_mul, Complex.ofReal_re]
  ring

/-- **C123.** The residual spectrum is the sum over the layers of their spectrum times the squared difference between
what the target sees and what the mirrors correct. -/
theorem residualPsd_eq (b : Bool) (pL : Matrix (Fin 1) (Fin l) ℂ) (pb : Matrix (Fin 1) (Fin m) ℂ)
    (W : Matrix (Fin m) (Fin g) ℂ) (mA : Matrix (Fin g) (Fin l) ℂ) (κ : ℝ) (w : Fin l → ℝ) (pf : ℝ) :
    residualPsd b pL pb W mA (cphi κ w) pf =
      (if b then 1 else 0) * (κ * ∑ n, w n * ‖pL 0 n - (pb * (W * mA)) 0 n‖ ^ 2) * pf := by
  unfold residualPsd
  rw [row_quad]; rfl

theorem norm_phasor (x : ℝ) : ‖phasor x‖ = 1 := Complex.norm_exp_ofReal_mul_I _

/-- **C122.** Beyond the cut-off frequency of all mirrors (and at zero frequency, where nothing is reconstructed) the
residual is the whole turbulence, whatever the wind and the direction, and no noise is injected. -/
theorem uncorrected (b : Bool) (v : Wind g l) (hh : Fin l → ℝ) (hm kc : Fin m → ℝ) (β k : ℝ × ℝ)
    (W : Matrix (Fin m) (Fin g) ℂ) (mA : Matrix (Fin g) (Fin l) ℂ) (κ : ℝ) (w : Fin l → ℝ) (pf delay : ℝ)
    (N : Matrix (Fin g) (Fin g) ℂ)
    (h : (∀ j, kc j < √(k.1 ^ 2 + k.2 ^ 2)) ∨ W = 0) :
    residualPsd b (pBetaL v hh β k) (pdm hm kc β k) W mA (cphi κ w) pf = (if b then 1 else 0) * (κ * ∑ n, w n) * pf ∧
    noisePsd b (pdm hm kc β k) W N pf delay = 0 := by
  have hz : pdm hm kc β k * W = 0 := by
    rcases h with h | h
    · have : pdm hm kc β k = 0 := by
        ext i j
        simp only [pdm, of_apply]
        rw [if_neg (show ¬ kmod k ≤ kc j from not_le.2 (h j))]; rfl
      rw [this, Matrix.zero_mul]
    · rw [h, Matrix.mul_zero]
  constructor
  · rw [residualPsd_eq, ← Matrix.mul_assoc, hz, Matrix.zero_mul]
    congr 3
    refine Finset.sum_congr rfl (fun n _ => ?_)
    simp only [pBetaL, of_apply, Matrix.zero_apply, sub_zero, norm_phasor]; ring
  · simp [noisePsd, hz]

/-- **C123.** Residual and noise are never negative. -/
theorem spectra_nonneg (b : Bool) (pL : Matrix (Fin 1) (Fin l) ℂ) (pb : Matrix (Fin 1) (Fin m) ℂ)
    (W : Matrix (Fin m) (Fin g) ℂ) (mA : Matrix (Fin g) (Fin l) ℂ) (κ : ℝ) (w : Fin l → ℝ) (pf delay : ℝ)
    (N : Matrix (Fin g) (Fin g) ℂ) (hκ : 0 ≤ κ) (hw : ∀ n, 0 ≤ w n) (hpf : 0 ≤ pf) (hN : N.PosSemidef) :
    0 ≤ residualPsd b pL pb W mA (cphi κ w) pf ∧ 0 ≤ noisePsd b pb W N pf delay := by
  constructor
  · rw [residualPsd_eq]
    apply mul_nonneg _ hpf
    apply mul_nonneg (by split_ifs <;> norm_num)
    exact mul_nonneg hκ (Finset.sum_nonneg (fun n _ => mul_nonneg (hw n) (sq_nonneg _)))
  · unfold noisePsd
    apply mul_nonneg _ (sq_nonneg _)
    apply mul_nonneg _ hpf
    apply mul_nonneg (by unfold Fourier.msk; split_ifs <;> norm_num)
    have h := (hN.mul_mul_conjTranspose_same (pb * W)).diag_nonneg (i := 0)
    rw [Matrix.mul_assoc] at h
    exact (Complex.le_def.1 h).1

/-- **C123.** With independent noises the noise spectrum is the weighted sum of the squared gains from each sensor,
times a loop gain between 0.16 and 0.64. -/
theorem noisePsd_eq (b : Bool) (pb : Matrix (Fin 1) (Fin m) ℂ) (W : Matrix (Fin m) (Fin g) ℂ) (v : Fin g → ℝ)
    (pf delay : ℝ) (hd : 0 ≤ delay) :
    ∃ G : ℝ, 0.16 ≤ G ∧ G ≤ 0.64 ∧ (delay = 0 → G = 0.16) ∧ (4 ≤ delay → G = 0.64) ∧
    noisePsd b pb W (diagonal (fun j => (v j : ℂ))) pf delay =
      (if b then 1 else 0) * (∑ j, v j * ‖(pb * W) 0 j‖ ^ 2) * pf * G := by
  refine ⟨(min 0.8 (0.4 + 0.1333 * delay)) ^ 2, ?_, ?_, ?_, ?_, ?_⟩
  · have : (0.4 : ℝ) ≤ min 0.8 (0.4 + 0.1333 * delay) := le_min (by norm_num) (by linarith)
    nlinarith
  · have h1 : min 0.8 (0.4 + 0.1333 * delay) ≤ 0.8 := min_le_left _ _
    have h2 : (0 : ℝ) ≤ min 0.8 (0.4 + 0.1333 * delay) := le_min (by norm_num) (by linarith)
    nlinarith
  · rintro rfl; norm_num
  · intro h; rw [min_eq_left (by linarith)]; norm_num
  · have e : (diagonal (fun j => (v j : ℂ)) : Matrix (Fin g) (Fin g) ℂ) = cphi 1 v := by
      unfold cphi; congr 1; funext j; simp
    unfold noisePsd
    rw [e, row_quad, one_mul]; rfl

/-- **C154 (exact characterisation).** The noise spectrum fits the array of the total spectrum exactly when there is one
guide star, or the first noise variance is positive, or the arrays happen to have compatible sizes: several guide stars
without noise raise. -/
theorem noiseAssigned_iff_partial (nGs nK nSrc : ℕ) (hg : 1 ≤ nGs) (x : ℝ) :
    noiseAssigned nGs nK nSrc x ↔ nGs = 1 ∨ 0 < x ∨ nK = nSrc ∨ nK = 1 := by
  unfold noiseAssigned noiseShape broadcastsTo
  by_cases h1 : nGs = 1
  · subst h1
    simp only [if_true, true_or, iff_true]
    rw [if_neg (by simp)]
    refine ⟨by simp, ?_⟩
    intro i hi
    simp at hi
    interval_cases i <;> simp
  · have h2 : ¬ nGs < 2 := by omega
    simp only [h1, if_false, false_or, h2, not_false_eq_true, and_true]
    by_cases hx : 0 < x
    · simp only [hx, if_true, true_or, iff_true]
      exact ⟨by simp, fun i _ => by simp⟩
    · simp only [hx, if_false, false_or]
      constructor
      · rintro ⟨_, h⟩
        have := h 0 (by simp)
        simpa using this
      · intro h
        refine ⟨by simp, ?_⟩
        intro i hi
        simp at hi
        interval_cases i
        · simpa using h
        · simp

/-- Two guide stars, noiseless, on a 64-pixel grid with one source: the assignment fails. -/
example : ¬ noiseAssigned 2 64 1 0 := by rw [noiseAssigned_iff_partial _ _ _ (by norm_num)]; norm_num

/-! ### Measurements, and the whole chain (C119, C123) -/

/-- **C119.** A sensor measures `2π|k|` times the average over its sub-aperture: at most `2π|k|`, less where the
sub-aperture averages, nothing where it holds a whole period. -/
theorem meas_spec (d : ℝ) (k : ℝ × ℝ) :
    ‖meas d k‖ ≤ 2 * Real.pi * √(k.1 ^ 2 + k.2 ^ 2) ∧
    meas 0 k = ((2 * Real.pi * √(k.1 ^ 2 + k.2 ^ 2) : ℝ) : ℂ) * Complex.I ∧
    (d * k.1 = 1 ∨ d * k.2 = 1 → meas d k = 0) ∧
    meas d (k.2, k.1) = meas d k := by
  have hk : 0 ≤ kmod k := Real.sqrt_nonneg _
  have h1 : npSinc 1 = 0 := by unfold npSinc; rw [mul_one, Real.sinc_of_ne_zero Real.pi_ne_zero]; simp
  have h0 : npSinc 0 = 1 := by simp [npSinc]
  refine ⟨?_, ?_, ?_, ?_⟩
  · unfold meas
    rw [norm_mul, Complex.norm_I, mul_one, Complex.norm_real, Real.norm_eq_abs, abs_mul, abs_mul, abs_mul, abs_mul,
      abs_of_pos Real.pi_pos, abs_of_nonneg hk, abs_two]
    have a := Real.abs_sinc_le_one (Real.pi * (d * k.1))
    have b := Real.abs_sinc_le_one (Real.pi * (d * k.2))
    have hc : 0 ≤ 2 * Real.pi * kmod k := by have := Real.pi_pos; positivity
    calc 2 * Real.pi * kmod k * |npSinc (d * k.1)| * |npSinc (d * k.2)|
        ≤ 2 * Real.pi * kmod k * 1 * 1 := by
          apply mul_le_mul _ b (abs_nonneg _) (by linarith)
          exact mul_le_mul_of_nonneg_left a hc
      _ = 2 * Real.pi * √(k.1 ^ 2 + k.2 ^ 2) := by rw [mul_one, mul_one]; rfl
  · unfold meas
    rw [zero_mul, zero_mul, h0, mul_one, mul_one]; rfl
  · rintro (h | h)
    · unfold meas; rw [h, h1]; simp
    · unfold meas; rw [h, h1]; simp
  · unfold meas kmod
    dsimp only
    rw [add_comm]
    congr 2
    ring

/-- **C123.** Without wind the measurements of the true layers are those assumed by the reconstructor, and the target
sees the layers where they are; frames during which the wind moves a layer by a whole period measure nothing of it. -/
theorem mpAlpha_still (s : Stars g) (v : Wind g l) (h : Fin l → ℝ) (β k : ℝ × ℝ) (hv : ∀ n, v.speed n = 0) :
    mpAlpha s v h k = mp s h k ∧ pBetaL v h β k = pl h β k := by
  have h0 : npSinc 0 = 1 := by simp [npSinc]
  constructor
  · ext j n
    rw [mp_apply]
    simp only [mpAlpha, of_apply, hv, mul_zero, zero_mul, h0, Complex.ofReal_one, mul_one]
    rw [mul_comm (s.dir j).1, mul_comm (s.dir j).2]
  · ext i n
    simp [pBetaL, pl, hv]

/-- See `mpAlpha_still`: the wind blurs and displaces. -/
theorem mpAlpha_wind (s : Stars g) (v : Wind g l) (h : Fin l → ℝ) (β k : ℝ × ℝ) (j : Fin g) (n : Fin l) :
    ‖mpAlpha s v h k j n‖ ≤ ‖mp s h k j n‖ ∧
    (v.clock j / v.rate * v.speed n * (Real.cos (v.dirDeg n * Real.pi / 180) * k.1 +
      Real.sin (v.dirDeg n * Real.pi / 180) * k.2) = 1 → mpAlpha s v h k j n = 0) ∧
    pBetaL v h β k 0 n = phasor (h n * (β.1 * k.1 + β.2 * k.2)) * phasor (-(v.delay / v.rate * v.speed n *
      (Real.cos (v.dirDeg n * Real.pi / 180) * k.1 + Real.sin (v.dirDeg n * Real.pi / 180) * k.2))) := by
  refine ⟨?_, ?_, ?_⟩
  · rw [mp_apply]
    simp only [mpAlpha, of_apply, norm_mul, norm_phasor, mul_one, Complex.norm_real, Real.norm_eq_abs]
    exact mul_le_of_le_one_right (norm_nonneg _) (Real.abs_sinc_le_one _)
  · intro hw
    have h1 : npSinc 1 = 0 := by unfold npSinc; rw [mul_one, Real.sinc_of_ne_zero Real.pi_ne_zero]; simp
    simp only [mpAlpha, of_apply]
    rw [show 1 / v.rate * v.clock j * v.speed n * windFreq v k n = 1 from (by unfold windFreq; linear_combination hw), h1]
    simp
  · simp only [pBetaL, of_apply, phasor, windFreq]
    rw [← Complex.exp_add]
    congr 1
    push_cast
    ring

/-- **C123.** A noiseless system without wind whose stars separate the layers corrects the optimisation direction
perfectly, at every frequency within the cut-off of at least one mirror. -/
theorem perfect_correction {ι : Type} [Fintype ι]
    (pinv : Matrix (Fin g) (Fin g) ℂ → Matrix (Fin g) (Fin g) ℂ) (hp : ∀ A, A.IsHermitian → IsPinv A (pinv A))
    (pinv' : Matrix (Fin m) (Fin m) ℂ → Matrix (Fin m) (Fin m) ℂ) (hp' : ∀ A, A.IsHermitian → IsPinv A (pinv' A))
    (M : Mirrors m 1) (hw : 0 < M.w 0) (s : Stars g) (v : Wind g l) (h : Fin l → ℝ) (k : ι → ℝ × ℝ) (κ : ι → ℝ)
    (hκ : ∀ f, 0 < κ f) (w : Fin l → ℝ) (hwl : ∀ n, 0 < w n) (b : Bool) (pf : ℝ) (f : ι)
    (hv : ∀ n, v.speed n = 0) (L : Matrix (Fin l) (Fin g) ℂ) (hL : L * mp s h (k f) = 1)
    (hj : ∃ j, √((k f).1 ^ 2 + (k f).2 ^ 2) ≤ M.kc j) :
    residualPsd b (pBetaL v h (M.dir 0) (k f)) (pdm M.h M.kc (M.dir 0) (k f))
      (popt pinv' M h k f * wtomo pinv (fun f => mp s h (k f)) (fun f => cphi (κ f) w) 0 f)
      (mpAlpha s v h (k f)) (cphi (κ f) w) pf = 0 := by
  obtain ⟨j, hj⟩ := hj
  have hwd : ∀ d, 0 ≤ M.w d := fun d => by rw [Subsingleton.elim d 0]; exact hw.le
  have hC : ∀ f, (cphi (κ f) w).PosSemidef := fun f =>
    PosSemidef.diagonal (fun n => Complex.zero_le_real.2 (mul_pos (hκ f) (hwl n)).le)
  have hCd : (cphi (κ f) w).PosDef :=
    PosDef.diagonal (fun n => Complex.zero_lt_real.2 (mul_pos (hκ f) (hwl n)))
  have hW := tomo_exact pinv hp (fun f => mp s h (k f)) (fun f => cphi (κ f) w) hC f hCd L hL
  -- the projection is exact
  set p := pdm M.h M.kc (M.dir 0) (k f) with hpd
  set a := pl h (M.dir 0) (k f) with had
  have hpj : p 0 j * star (p 0 j) = 1 := by
    have e : p 0 j = phasor (M.h j * ((M.dir 0).1 * (k f).1 + (M.dir 0).2 * (k f).2)) := by
      rw [hpd]; simp only [pdm, of_apply]
      rw [if_pos (show kmod (k f) ≤ M.kc j from hj)]
    rw [e, RCLike.star_def, Complex.mul_conj', norm_phasor]; simp
  let X0 : Matrix (Fin m) (Fin l) ℂ := of (fun i n => if i = j then star (p 0 j) * a 0 n else 0)
  have hX0 : p * X0 = a := by
    ext i n
    rw [Subsingleton.elim i 0, Matrix.mul_apply,
      Finset.sum_eq_single j (fun x _ hx => by simp [X0, hx]) (by simp)]
    simp only [X0, of_apply, if_true]
    rw [← mul_assoc, hpj, one_mul]
  have hle := projector_one_direction (l := l) pinv' hp' M hwd h k f X0
  have hfe : ∀ X : Matrix (Fin m) (Fin l) ℂ,
      fieldErr M.w (fun d => pdm M.h M.kc (M.dir d) (k f)) (fun d => pl h (M.dir d) (k f)) X
      = M.w 0 * ∑ n, ‖(a - p * X) 0 n‖ ^ 2 := fun X => by simp [fieldErr, hpd, had]
  rw [hfe, hfe, hX0] at hle
  have hz : ∑ n, ‖(a - p * popt pinv' M h k f) 0 n‖ ^ 2 = 0 := by
    apply le_antisymm _ (Finset.sum_nonneg (fun n _ => sq_nonneg _))
    have h0 : M.w 0 * ∑ n, ‖(a - p * popt pinv' M h k f) 0 n‖ ^ 2 ≤ 0 := by simpa using hle
    by_contra hne
    push Not at hne
    have := mul_pos hw hne
    linarith
  have hpX : p * popt pinv' M h k f = a := by
    ext i n
    rw [Subsingleton.elim i 0]
    have := (Finset.sum_eq_zero_iff_of_nonneg (fun n _ => sq_nonneg _)).1 hz n (Finset.mem_univ n)
    have := norm_eq_zero.1 (pow_eq_zero_iff (two_ne_zero)|>.1 this)
    rw [Matrix.sub_apply, sub_eq_zero] at this
    exact this.symm
  have hst := mpAlpha_still s v h (M.dir 0) (k f) hv
  rw [residualPsd_eq, hst.1, hst.2]
  have : p * (popt pinv' M h k f * wtomo pinv (fun f => mp s h (k f)) (fun f => cphi (κ f) w) 0 f * mp s h (k f))
      = a := by
    rw [Matrix.mul_assoc (popt pinv' M h k f), hW, Matrix.mul_one, hpX]
  rw [this]
  simp [← had]

/-- A star on axis and one layer: the hypotheses of `perfect_correction` on the measurements hold at one cycle per metre
with sub-apertures of 20 cm. -/
example : ∃ L : Matrix (Fin 1) (Fin 1) ℂ, L * mp ⟨fun _ => 0.2, fun _ => (0, 0)⟩ (fun _ : Fin 1 => 5000) (1, 0) = 1 := by
  have hne : mp ⟨fun _ => 0.2, fun _ => (0, 0)⟩ (fun _ : Fin 1 => 5000) (1, 0) (0 : Fin 1) 0 ≠ 0 := by
    rw [mp_apply]
    apply mul_ne_zero
    · unfold meas
      apply mul_ne_zero _ Complex.I_ne_zero
      norm_cast
      have h1 : npSinc (0.2 * 1) ≠ 0 := by
        unfold npSinc
        rw [Real.sinc_of_ne_zero (by have := Real.pi_ne_zero; positivity)]
        apply div_ne_zero
        · apply ne_of_gt; apply Real.sin_pos_of_pos_of_lt_pi <;> nlinarith [Real.pi_pos]
        · have := Real.pi_ne_zero; positivity
      have h2 : kmod (1, 0) = 1 := by simp [kmod]
      rw [h2]
      simp only [mul_zero]
      rw [show npSinc 0 = 1 by simp [npSinc]]
      have := Real.pi_pos
      positivity
    · unfold phasor; exact Complex.exp_ne_zero _
  refine ⟨of (fun _ _ => (mp ⟨fun _ => 0.2, fun _ => (0, 0)⟩ (fun _ : Fin 1 => 5000) (1, 0) (0 : Fin 1) 0)⁻¹), ?_⟩
  ext i j
  rw [Subsingleton.elim i 0, Subsingleton.elim j 0, Matrix.mul_apply, Fin.sum_univ_one]
  simp only [of_apply, Matrix.one_apply_eq]
  exact inv_mul_cancel₀ hne

/-! ### Cases that meet the hypotheses -/

/-- A case meeting the hypotheses of `tomo_extra_star`. -/
example : ∃ (p2 : Matrix (Fin 2) (Fin 2) ℂ → Matrix (Fin 2) (Fin 2) ℂ)
    (p3 : Matrix (Fin 3) (Fin 3) ℂ → Matrix (Fin 3) (Fin 3) ℂ), ∀ f : Unit,
    (errCov (of ![![1, 2], ![Complex.I, 1]]) (1 : Matrix (Fin 2) (Fin 2) ℂ) (diagonal fun j => ((![1, 2] : Fin 2 → ℝ) j : ℂ))
        (wtomo p2 (fun _ => of ![![1, 2], ![Complex.I, 1]]) (fun _ => 1) (diagonal fun j => ((![1, 2] : Fin 2 → ℝ) j : ℂ)) f) -
      errCov (of (Fin.snoc (of ![![1, 2], ![Complex.I, 1]]) ![3, 1])) (1 : Matrix (Fin 2) (Fin 2) ℂ)
        (diagonal fun j => ((Fin.snoc ![1, 2] 3 : Fin 3 → ℝ) j : ℂ))
        (wtomo p3 (fun _ => of (Fin.snoc (of ![![1, 2], ![Complex.I, 1]]) ![3, 1])) (fun _ => 1)
          (diagonal fun j => ((Fin.snoc ![1, 2] 3 : Fin 3 → ℝ) j : ℂ)) f)).PosSemidef := by
  obtain ⟨p2, -⟩ := exists_pinv_fun 2
  obtain ⟨p3, h3⟩ := exists_pinv_fun 3
  exact ⟨p2, p3, fun f => tomo_extra_star p2 p3 h3 (fun _ => of ![![1, 2], ![Complex.I, 1]]) (fun _ => ![3, 1]) (fun _ => 1)
    ![1, 2] 3 (fun _ => Matrix.PosSemidef.one) (by intro j; fin_cases j <;> norm_num) (by norm_num) f⟩

/-- A case meeting the hypotheses of `reconstructor_optimal`. -/
example : ∃ pinv : Matrix (Fin 2) (Fin 2) ℂ → Matrix (Fin 2) (Fin 2) ℂ, ∃ N, noiseCov 2 [0.1, 0.2] = some N ∧ ∀ (f : Unit) R,
    (errCov (mp ⟨![0.2, 0.2], ![(1e-5, 0), (0, 1e-5)]⟩ ![0, 5000, 10000] (1, 2)) (cphiMod 3 ![1/2, 1/2] ![1/2, 1/4, 1/4]) N R -
      errCov (mp ⟨![0.2, 0.2], ![(1e-5, 0), (0, 1e-5)]⟩ ![0, 5000, 10000] (1, 2)) (cphiMod 3 ![1/2, 1/2] ![1/2, 1/4, 1/4]) N
        (wtomo pinv (fun _ => mp ⟨![0.2, 0.2], ![(1e-5, 0), (0, 1e-5)]⟩ ![0, 5000, 10000] (1, 2))
          (fun _ => cphiMod 3 ![1/2, 1/2] ![1/2, 1/4, 1/4]) N f)).PosSemidef := by
  obtain ⟨p, hp⟩ := exists_pinv_fun 2
  exact ⟨p, reconstructor_optimal p hp _ _ (fun _ : Unit => (1, 2)) (fun _ => 3) (fun _ => by norm_num) ![1/2, 1/2] ![1/2, 1/4, 1/4]
    (by intro j; fin_cases j <;> norm_num) (by intro j; fin_cases j <;> norm_num) [0.1, 0.2] rfl
    (by intro x hx; fin_cases hx <;> norm_num)⟩

/-- Two mirrors at 0 and 10 km, two opposite directions: the hypotheses of `projector_symmetric_partial` hold, the one on
the regularisation with `1 / 100`. -/
example : ∃ (M : Mirrors 2 2) (σ : Equiv.Perm (Fin 2)), (∀ d, 0 ≤ M.w d) ∧ 0 < M.cond ∧
    (∀ d, M.dir (σ d) = -M.dir d) ∧ (∀ d, M.w (σ d) = M.w d) ∧
    lambdaReg M.cond (fun _ : Unit => mirrorCov M.w (fun d => pdm M.h M.kc (M.dir d) (1, 0))) = ((1 / 100 : ℝ) : ℂ) := by
  refine ⟨⟨![0, 10000], ![2, 2], ![(1/40000, 0), (-1/40000, 0)], ![1/2, 1/2], 100⟩, Equiv.swap 0 1, ?_, by norm_num,
    ?_, ?_, ?_⟩
  · intro d; fin_cases d <;> norm_num
  · intro d; fin_cases d <;> simp <;> norm_num
  · intro d; fin_cases d <;> simp
  · have h1 : phasor (1/4) = Complex.I := by
      unfold phasor
      rw [show ((2 * Real.pi * (1/4) : ℝ) : ℂ) * Complex.I = Real.pi / 2 * Complex.I by push_cast; ring]
      exact Complex.exp_pi_div_two_mul_I
    have h2 : phasor (-(1/4)) = -Complex.I := by
      unfold phasor
      rw [show ((2 * Real.pi * (-(1/4)) : ℝ) : ℂ) * Complex.I = -(Real.pi / 2 * Complex.I) by push_cast; ring,
        Complex.exp_neg, Complex.exp_pi_div_two_mul_I, Complex.inv_I]
    have h0 : phasor 0 = 1 := by unfold phasor; simp
    have hT : mirrorCov ![1/2, 1/2] (fun d => pdm ![0, 10000] ![2, 2] ((![(1/40000, 0), (-1/40000, 0)] : Fin 2 → ℝ × ℝ) d) (1, 0)) =
        (1 : Matrix (Fin 2) (Fin 2) ℂ) := by
      have k1 : kmod (1, 0) ≤ 2 := by unfold kmod; norm_num
      have e0 : pdm ![0, 10000] ![2, 2] (1/40000, 0) (1, 0) = of ![![1, Complex.I]] := by
        ext i j
        fin_cases i; fin_cases j
        · simp [pdm, k1, h0]
        · simp only [pdm, of_apply]
          rw [show (10000 : ℝ) = 10000 from rfl]
          simp [k1]
          rw [← h1]; norm_num
      have e1 : pdm ![0, 10000] ![2, 2] (-1/40000, 0) (1, 0) = of ![![1, -Complex.I]] := by
        ext i j
        fin_cases i; fin_cases j
        · simp [pdm, k1, h0]
        · simp [pdm, k1]
          rw [← h2]; norm_num
      simp only [mirrorCov, Fin.sum_univ_two, cons_val_zero, cons_val_one]
      rw [e0, e1]
      ext i j
      fin_cases i <;> fin_cases j <;> simp [mul_apply] <;> ring
    simp only [lambdaReg, hT]
    simp [Matrix.trace]

/-! ### Cases that meet the hypotheses -/

/-- A case meeting the hypotheses of `projector_cutoff`. -/
example : ∃ pinv : Matrix (Fin 2) (Fin 2) ℂ → Matrix (Fin 2) (Fin 2) ℂ,
    popt pinv ⟨![0, 10000], ![2, 1/2], ![(1/40000, 0), (-1/40000, 0)], ![1/2, 1/2], 100⟩ ![0, 5000] (fun _ : Unit => (1, 0)) () 1 0 = 0 := by
  obtain ⟨p, hp⟩ := exists_pinv_fun 2
  refine ⟨p, projector_cutoff p hp _ ?_ _ _ () 1 ?_ 0⟩
  · intro d; fin_cases d <;> norm_num
  · norm_num

/-- A case meeting the hypotheses of `tomo_exact`. -/
example : ∃ pinv : Matrix (Fin 2) (Fin 2) ℂ → Matrix (Fin 2) (Fin 2) ℂ,
    wtomo pinv (fun _ : Unit => !![2, 0; 1, 3]) (fun _ => 1) 0 () * !![2, 0; 1, 3] = 1 := by
  obtain ⟨p, hp⟩ := exists_pinv_fun 2
  refine ⟨p, tomo_exact p hp _ _ (fun _ => Matrix.PosSemidef.one) () Matrix.PosDef.one !![1/2, 0; -1/6, 1/3] ?_⟩
  ext i j
  fin_cases i <;> fin_cases j <;> simp [Matrix.mul_apply, Fin.sum_univ_two] <;> norm_num

end P3.Tomo
