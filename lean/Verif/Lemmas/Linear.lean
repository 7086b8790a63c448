import Verif.Model.Tomography
import Mathlib.Analysis.Matrix.Order
import Mathlib.Analysis.Matrix.Spectrum
import Mathlib.LinearAlgebra.Matrix.PosDef
import Mathlib.Tactic.NoncommRing
/-
Linear algebra for the tomographic reconstruction: existence of pseudo-inverses, kernels of sums of positive
semi-definite matrices, normal equations.
-/
namespace P3.Tomo
open Matrix
open scoped ComplexOrder

/-- Hermitian matrices have a Moore-Penrose inverse. -/
theorem exists_pinv {n : ℕ} (A : Matrix (Fin n) (Fin n) ℂ) (hA : A.IsHermitian) : ∃ X, IsPinv A X := by
  set U : Matrix (Fin n) (Fin n) ℂ := hA.eigenvectorUnitary.1 with hU
  set D : Fin n → ℂ := fun i => (hA.eigenvalues i : ℂ) with hD
  have hs : A = U * diagonal D * Uᴴ := by
    have := hA.spectral_theorem
    rw [Unitary.conjStarAlgAut_apply] at this
    exact this
  have hUU : Uᴴ * U = 1 := by
    have := Unitary.coe_star_mul_self hA.eigenvectorUnitary
    simpa [star_eq_conjTranspose] using this
  have hDr : ∀ i, star (D i) = D i := fun i => by simp [hD]
  have conj : ∀ E F : Fin n → ℂ, (U * diagonal E * Uᴴ) * (U * diagonal F * Uᴴ)
      = U * diagonal (fun i => E i * F i) * Uᴴ := by
    intro E F
    calc _ = U * diagonal E * (Uᴴ * U) * diagonal F * Uᴴ := by simp only [Matrix.mul_assoc]
      _ = _ := by rw [hUU, Matrix.mul_one, Matrix.mul_assoc U, diagonal_mul_diagonal]
  have herm : ∀ E : Fin n → ℂ, (∀ i, star (E i) = E i) → (U * diagonal E * Uᴴ)ᴴ = U * diagonal E * Uᴴ := by
    intro E hE
    rw [conjTranspose_mul, conjTranspose_mul, conjTranspose_conjTranspose, diagonal_conjTranspose,
      show star E = E from funext hE, Matrix.mul_assoc]
  refine ⟨U * diagonal (fun i => (D i)⁻¹) * Uᴴ, ?_, ?_, ?_, ?_⟩
  · rw [hs, conj, conj]
    congr 3; funext i
    by_cases h : D i = 0 <;> simp [h]
  · rw [hs, conj, conj]
    congr 3; funext i
    by_cases h : D i = 0 <;> simp [h]
  · rw [hs, conj]
    exact herm _ (fun i => by rw [star_mul', star_inv₀, hDr])
  · rw [hs, conj]
    exact herm _ (fun i => by rw [star_mul', star_inv₀, hDr])

/-- There is a function computing the pseudo-inverse of every Hermitian matrix. -/
theorem exists_pinv_fun (n : ℕ) : ∃ pinv : Matrix (Fin n) (Fin n) ℂ → Matrix (Fin n) (Fin n) ℂ,
    ∀ A, A.IsHermitian → IsPinv A (pinv A) := by
  classical
  refine ⟨fun A => if h : A.IsHermitian then (exists_pinv A h).choose else 0, fun A hA => ?_⟩
  show IsPinv A (if h : A.IsHermitian then (exists_pinv A h).choose else 0)
  rw [dif_pos hA]
  exact (exists_pinv A hA).choose_spec

/-- The pseudo-inverse is unique. -/
theorem pinv_unique {m n : ℕ} (A : Matrix (Fin m) (Fin n) ℂ) (X Y : Matrix (Fin n) (Fin m) ℂ) (hX : IsPinv A X)
    (hY : IsPinv A Y) : X = Y := by
  have h1 : X * A = Y * A := by
    calc X * A = X * (A * Y * A) := by rw [hY.axa]
      _ = (X * A)ᴴ * (Y * A)ᴴ := by rw [hX.xa, hY.xa]; simp only [Matrix.mul_assoc]
      _ = ((Y * A) * (X * A))ᴴ := (conjTranspose_mul _ _).symm
      _ = (Y * A)ᴴ := by
          congr 1
          calc Y * A * (X * A) = Y * (A * X * A) := by simp only [Matrix.mul_assoc]
            _ = Y * A := by rw [hX.axa]
      _ = Y * A := hY.xa
  have h2 : A * X = A * Y := by
    calc A * X = (A * Y * A) * X := by rw [hY.axa]
      _ = (A * Y)ᴴ * (A * X)ᴴ := by rw [hX.ax, hY.ax]; simp only [Matrix.mul_assoc]
      _ = ((A * X) * (A * Y))ᴴ := (conjTranspose_mul _ _).symm
      _ = (A * Y)ᴴ := by
          congr 1
          calc A * X * (A * Y) = (A * X * A) * Y := by simp only [Matrix.mul_assoc]
            _ = A * Y := by rw [hX.axa]
      _ = A * Y := hY.ax
  calc X = X * A * X := hX.xax.symm
    _ = Y * (A * X) := by rw [h1, Matrix.mul_assoc]
    _ = Y * A * Y := by rw [h2, Matrix.mul_assoc]
    _ = Y := hY.xax

/-- If `B C Bᴴ + N` annihilates a vector, so does `C Bᴴ`. -/
theorem system_kernel {g l : ℕ} (B : Matrix (Fin g) (Fin l) ℂ) (C : Matrix (Fin l) (Fin l) ℂ)
    (N : Matrix (Fin g) (Fin g) ℂ) (hC : C.PosSemidef) (hN : N.PosSemidef) (x : Fin g → ℂ)
    (hx : system B C N *ᵥ x = 0) : rhs B C *ᵥ x = 0 := by
  have h0 : star x ⬝ᵥ (system B C N *ᵥ x) = 0 := by rw [hx, dotProduct_zero]
  have hsplit : star x ⬝ᵥ (system B C N *ᵥ x)
      = star (Bᴴ *ᵥ x) ⬝ᵥ (C *ᵥ (Bᴴ *ᵥ x)) + star x ⬝ᵥ (N *ᵥ x) := by
    rw [system, Matrix.add_mulVec, dotProduct_add]
    congr 1
    rw [star_mulVec, conjTranspose_conjTranspose, ← dotProduct_mulVec, mulVec_mulVec, mulVec_mulVec,
      Matrix.mul_assoc]
  rw [hsplit] at h0
  have h1 := hC.dotProduct_mulVec_nonneg (Bᴴ *ᵥ x)
  have h2 := hN.dotProduct_mulVec_nonneg x
  have h3 : star (Bᴴ *ᵥ x) ⬝ᵥ (C *ᵥ (Bᴴ *ᵥ x)) = 0 := by
    apply le_antisymm _ h1
    rw [← h0]
    exact le_add_of_nonneg_right h2
  have h4 := (hC.dotProduct_mulVec_zero_iff _).1 h3
  rw [rhs, ← mulVec_mulVec, h4]

theorem system_posSemidef {g l : ℕ} (B : Matrix (Fin g) (Fin l) ℂ) (C : Matrix (Fin l) (Fin l) ℂ)
    (N : Matrix (Fin g) (Fin g) ℂ) (hC : C.PosSemidef) (hN : N.PosSemidef) : (system B C N).PosSemidef :=
  (hC.mul_mul_conjTranspose_same B).add hN

/-- A matrix that annihilates the kernel of `A` factors through the pseudo-inverse. -/
theorem mul_pinv_mul {g l : ℕ} (A : Matrix (Fin g) (Fin g) ℂ) (R : Matrix (Fin l) (Fin g) ℂ)
    (X : Matrix (Fin g) (Fin g) ℂ) (hX : IsPinv A X) (hk : ∀ x, A *ᵥ x = 0 → R *ᵥ x = 0) :
    R * X * A = R := by
  have h : R * (1 - X * A) = 0 := by
    ext i j
    have hz : A *ᵥ ((1 - X * A) *ᵥ Pi.single j 1) = 0 := by
      rw [mulVec_mulVec, Matrix.mul_sub, Matrix.mul_one, ← Matrix.mul_assoc, hX.axa, sub_self, zero_mulVec]
    have := hk _ hz
    rw [mulVec_mulVec] at this
    have := congrFun this i
    simpa [Matrix.mulVec_single_one] using this
  rw [Matrix.mul_sub, Matrix.mul_one, sub_eq_zero] at h
  rw [Matrix.mul_assoc]; exact h.symm

end P3.Tomo
