import Verif.Props.Observation
import Verif.Props.Spectra
import Verif.Spec.Geometry
/-
Properties C381-C385: only relative directions, products of heights and angles and displacements per frame matter.
-/
namespace P3.Geometry
open Finset Matrix P3.Tomo P3.Observation P3.Observation.Spec

variable {g l lm m q : ℕ}

/-! ### Only relative directions matter (C381) -/

/-- Phases of the displacement `t` of layers or mirrors at heights `h`. -/
noncomputable def ph {a : ℕ} (h : Fin a → ℝ) (t : ℝ) : Matrix (Fin a) (Fin a) ℂ := diagonal fun n => phasor (h n * t)

theorem phasor_add (x y : ℝ) : phasor (x + y) = phasor x * phasor y := by
  unfold phasor
  rw [← Complex.exp_add]; congr 1; push_cast; ring

theorem phasor_conj (x : ℝ) : starRingEnd ℂ (phasor x) * phasor x = 1 := by
  rw [Complex.conj_mul', norm_phasor]; norm_num

theorem ph_ct {a : ℕ} (h : Fin a → ℝ) (t : ℝ) : (ph h t)ᴴ * ph h t = 1 ∧ ph h t * (ph h t)ᴴ = 1 := by
  unfold ph
  rw [diagonal_conjTranspose, diagonal_mul_diagonal, diagonal_mul_diagonal]
  constructor
  · rw [← diagonal_one]; congr 1; funext n; exact phasor_conj _
  · rw [← diagonal_one]; congr 1; funext n; rw [mul_comm]; exact phasor_conj _

theorem ph_cphi {a : ℕ} (h : Fin a → ℝ) (t κ : ℝ) (w : Fin a → ℝ) : ph h t * cphi κ w = cphi κ w * ph h t := by
  unfold ph cphi
  rw [diagonal_mul_diagonal, diagonal_mul_diagonal]; congr 1; funext n; rw [mul_comm]

theorem ph_cphi' {a : ℕ} (h : Fin a → ℝ) (t κ : ℝ) (w : Fin a → ℝ) : ph h t * (cphi κ w * (ph h t)ᴴ) = cphi κ w := by
  rw [← Matrix.mul_assoc, ph_cphi, Matrix.mul_assoc, (ph_ct h t).2, Matrix.mul_one]

/-- Component of the displacement along the frequency. -/
def along (δ k : ℝ × ℝ) : ℝ := k.1 * δ.1 + k.2 * δ.2

theorem mp_pointed (s : Stars g) (h : Fin l → ℝ) (δ k : ℝ × ℝ) :
    mp { s with dir := fun j => s.dir j + δ } h k = mp s h k * ph h (along δ k) := by
  ext j n
  unfold ph
  rw [mul_diagonal, mp_apply, mp_apply, mul_assoc, ← phasor_add]
  congr 2
  simp only [along, Prod.fst_add, Prod.snd_add]; ring

theorem mpAlpha_pointed (s : Stars g) (v : Wind g l) (h : Fin l → ℝ) (δ k : ℝ × ℝ) :
    mpAlpha { s with dir := fun j => s.dir j + δ } v h k = mpAlpha s v h k * ph h (along δ k) := by
  ext j n
  unfold ph
  rw [mul_diagonal]
  simp only [mpAlpha, of_apply]
  rw [mul_assoc _ (phasor _) (phasor _), ← phasor_add]
  congr 2
  simp only [along, Prod.fst_add, Prod.snd_add]; ring

theorem pl_pointed (h : Fin l → ℝ) (θ δ k : ℝ × ℝ) : pl h (θ + δ) k = pl h θ k * ph h (along δ k) := by
  ext i n
  unfold ph
  rw [mul_diagonal]
  simp only [pl, of_apply]
  rw [← phasor_add]
  congr 1
  simp only [along, Prod.fst_add, Prod.snd_add]; ring

theorem pBetaL_pointed (v : Wind g l) (h : Fin l → ℝ) (θ δ k : ℝ × ℝ) :
    pBetaL v h (θ + δ) k = pBetaL v h θ k * ph h (along δ k) := by
  ext i n
  unfold ph
  rw [mul_diagonal]
  simp only [pBetaL, of_apply]
  rw [← phasor_add]
  congr 1
  simp only [along, Prod.fst_add, Prod.snd_add]; ring

theorem pdm_pointed (h kc : Fin m → ℝ) (θ δ k : ℝ × ℝ) : pdm h kc (θ + δ) k = pdm h kc θ k * ph h (along δ k) := by
  ext i n
  unfold ph
  rw [mul_diagonal]
  simp only [pdm, of_apply]
  split_ifs
  · rw [← phasor_add]
    congr 1
    simp only [along, Prod.fst_add, Prod.snd_add]; ring
  · rw [zero_mul]

theorem pinv_unitary {a : ℕ} (pinv : Matrix (Fin a) (Fin a) ℂ → Matrix (Fin a) (Fin a) ℂ)
    (hp : ∀ A, A.IsHermitian → IsPinv A (pinv A)) (A V : Matrix (Fin a) (Fin a) ℂ) (hA : A.IsHermitian) (h1 : Vᴴ * V = 1)
    (h2 : V * Vᴴ = 1) : pinv (Vᴴ * A * V) = Vᴴ * pinv A * V := by
  have hA' : (Vᴴ * A * V).IsHermitian := by
    unfold IsHermitian
    rw [conjTranspose_mul, conjTranspose_mul, conjTranspose_conjTranspose, hA.eq, Matrix.mul_assoc]
  refine pinv_unique _ _ _ (hp _ hA') ?_
  have c : ∀ X Y : Matrix (Fin a) (Fin a) ℂ, Vᴴ * X * V * (Vᴴ * Y * V) = Vᴴ * (X * Y) * V := fun X Y => by
    simp only [Matrix.mul_assoc]
    rw [← Matrix.mul_assoc V Vᴴ, h2, Matrix.one_mul]
  have hh : ∀ X : Matrix (Fin a) (Fin a) ℂ, (Vᴴ * X * V)ᴴ = Vᴴ * Xᴴ * V := fun X => by
    rw [conjTranspose_mul, conjTranspose_mul, conjTranspose_conjTranspose, Matrix.mul_assoc]
  have H := hp A hA
  exact ⟨by rw [c, c, H.axa], by rw [c, c, H.xax], by rw [c, hh, H.ax], by rw [c, hh, H.xa]⟩

theorem tomo_pointed {ι : Type} (o : Obs g l lm m q) (δ : ℝ × ℝ)
    (pg : Matrix (Fin g) (Fin g) ℂ → Matrix (Fin g) (Fin g) ℂ) (hp : ∀ A, A.IsHermitian → IsPinv A (pg A)) (S : Samples ι) (f : ι) :
    (pointed o δ).tomo pg S f = (ph o.hm (along δ (S.k f)))ᴴ * o.tomo pg S f := by
  rw [tomo_eq _ pg hp, tomo_eq _ pg hp]
  have hu : usedWeights (pointed o δ) = usedWeights o := rfl
  have hk : (pointed o δ).kern S f = o.kern S f := rfl
  have hm : mp (pointed o δ).stars (pointed o δ).hm (S.k f) = mp o.stars o.hm (S.k f) * ph o.hm (along δ (S.k f)) := mp_pointed _ _ _ _
  rw [hu, hk, hm]
  have e : mp o.stars o.hm (S.k f) * ph o.hm (along δ (S.k f)) * cphi (o.kern S f) (usedWeights o) *
      (mp o.stars o.hm (S.k f) * ph o.hm (along δ (S.k f)))ᴴ =
      mp o.stars o.hm (S.k f) * cphi (o.kern S f) (usedWeights o) * (mp o.stars o.hm (S.k f))ᴴ := by
    have := ph_cphi' o.hm (along δ (S.k f)) (o.kern S f) (usedWeights o)
    rw [conjTranspose_mul]
    conv_rhs => rw [← this]
    simp only [Matrix.mul_assoc]
  rw [e]
  have e2 : cphi (o.kern S f) (usedWeights o) * (ph o.hm (along δ (S.k f)))ᴴ = (ph o.hm (along δ (S.k f)))ᴴ * cphi (o.kern S f) (usedWeights o) := by
    have := congrArg conjTranspose (ph_cphi o.hm (along δ (S.k f)) (o.kern S f) (usedWeights o))
    rw [conjTranspose_mul, conjTranspose_mul, (cphi_herm _ _).eq] at this
    exact this
  rw [conjTranspose_mul, ← Matrix.mul_assoc (cphi _ _), e2]
  simp only [Matrix.mul_assoc]
  rfl

theorem mirrorCov_pointed (M : Mirrors m q) (δ k : ℝ × ℝ) :
    mirrorCov M.w (fun d => pdm M.h M.kc (M.dir d + δ) k) =
      (ph M.h (along δ k))ᴴ * mirrorCov M.w (fun d => pdm M.h M.kc (M.dir d) k) * ph M.h (along δ k) := by
  unfold mirrorCov
  rw [Matrix.mul_sum, Matrix.sum_mul]
  refine sum_congr rfl fun d _ => ?_
  simp only
  rw [pdm_pointed, conjTranspose_mul, Matrix.mul_smul, Matrix.smul_mul]
  simp only [Matrix.mul_assoc]

theorem crossCov_pointed (M : Mirrors m q) (h : Fin l → ℝ) (δ k : ℝ × ℝ) :
    crossCov M.w (fun d => pdm M.h M.kc (M.dir d + δ) k) (fun d => pl h (M.dir d + δ) k) =
      (ph M.h (along δ k))ᴴ * crossCov M.w (fun d => pdm M.h M.kc (M.dir d) k) (fun d => pl h (M.dir d) k) * ph h (along δ k) := by
  unfold crossCov
  rw [Matrix.mul_sum, Matrix.sum_mul]
  refine sum_congr rfl fun d _ => ?_
  simp only
  rw [pdm_pointed, pl_pointed, conjTranspose_mul, Matrix.mul_smul, Matrix.smul_mul]
  simp only [Matrix.mul_assoc]

theorem ph_same {a : ℕ} (h : Fin a → ℝ) (t : ℝ) (hh : ∀ i j, h i = h j) (A : Matrix (Fin a) (Fin a) ℂ) :
    (ph h t)ᴴ * A * ph h t = A := by
  ext i j
  unfold ph
  rw [mul_diagonal, diagonal_conjTranspose, diagonal_mul, hh j i, mul_right_comm]
  show starRingEnd ℂ (phasor _) * phasor _ * _ = _
  rw [phasor_conj, one_mul]

theorem popt_pointed {ι : Type} [Fintype ι] (pm : Matrix (Fin m) (Fin m) ℂ → Matrix (Fin m) (Fin m) ℂ)
    (hp : ∀ A, A.IsHermitian → IsPinv A (pm A)) (M : Mirrors m q) (hq : q = 1 ∨ ∀ i j, M.h i = M.h j)
    (h : Fin l → ℝ) (δ : ℝ × ℝ) (k : ι → ℝ × ℝ) (f : ι) :
    popt pm { M with dir := fun d => M.dir d + δ } h k f =
      (ph M.h (along δ (k f)))ᴴ * popt pm M h k f * ph h (along δ (k f)) := by
  have hV := ph_ct M.h (along δ (k f))
  have hin : invCov q M.cond pm (fun f => mirrorCov M.w (fun d => pdm M.h M.kc (M.dir d + δ) (k f))) f =
      (ph M.h (along δ (k f)))ᴴ * invCov q M.cond pm (fun f => mirrorCov M.w (fun d => pdm M.h M.kc (M.dir d) (k f))) f *
        ph M.h (along δ (k f)) := by
    rcases hq with rfl | hq
    · unfold invCov
      rw [if_pos rfl, if_pos rfl]
      simp only
      rw [mirrorCov_pointed, pinv_unitary pm hp _ _ (mirrorCov_herm _ _) hV.1 hV.2]
    · have : (fun f => mirrorCov M.w (fun d => pdm M.h M.kc (M.dir d + δ) (k f))) =
          (fun f => mirrorCov M.w (fun d => pdm M.h M.kc (M.dir d) (k f))) := by
        funext f
        rw [mirrorCov_pointed, ph_same _ _ hq]
      rw [this, ph_same _ _ hq]
  unfold popt
  simp only at hin ⊢
  rw [hin, crossCov_pointed]
  simp only [Matrix.mul_assoc]
  rw [← Matrix.mul_assoc (ph M.h _) (ph M.h _)ᴴ, hV.2, Matrix.one_mul]

/-- C381 (partial): displacing the guide stars, the optimisation directions and the target together changes neither the residual
nor the noise, with one optimisation direction or with mirrors at the same height. Missing: several directions and mirrors at
different heights (`pointing_violation`). -/
theorem pointing_partial {ι : Type} [Fintype ι] (o : Obs g l lm m q) (δ : ℝ × ℝ) (hq : q = 1 ∨ ∀ i j, o.mirrors.h i = o.mirrors.h j)
    (pg : Matrix (Fin g) (Fin g) ℂ → Matrix (Fin g) (Fin g) ℂ) (hp : ∀ A, A.IsHermitian → IsPinv A (pg A))
    (pm : Matrix (Fin m) (Fin m) ℂ → Matrix (Fin m) (Fin m) ℂ) (hm : ∀ A, A.IsHermitian → IsPinv A (pm A))
    (S : Samples ι) (β : ℝ × ℝ) (f : ι) :
    (pointed o δ).residual pg pm S (β + δ) f = o.residual pg pm S β f ∧
    (pointed o δ).noisePart pg pm S (β + δ) f = o.noisePart pg pm S β f := by
  have hV := ph_ct o.mirrors.h (along δ (S.k f))
  have hU := ph_ct o.hm (along δ (S.k f))
  have hc : (pointed o δ).command pg pm S f = (ph o.mirrors.h (along δ (S.k f)))ᴴ * o.command pg pm S f := by
    unfold Obs.command
    have : popt pm (pointed o δ).mirrors (pointed o δ).hm S.k f = _ := popt_pointed pm hm o.mirrors hq o.hm δ S.k f
    rw [tomo_pointed o δ pg hp, this]
    simp only [Matrix.mul_assoc]
    rw [← Matrix.mul_assoc (ph o.hm _) (ph o.hm _)ᴴ, hU.2, Matrix.one_mul]
  have hpb : pdm o.mirrors.h o.mirrors.kc (β + δ) (S.k f) * (pointed o δ).command pg pm S f =
      pdm o.mirrors.h o.mirrors.kc β (S.k f) * o.command pg pm S f := by
    rw [hc, pdm_pointed]
    simp only [Matrix.mul_assoc]
    rw [← Matrix.mul_assoc (ph _ _) (ph _ _)ᴴ, hV.2, Matrix.one_mul]
  constructor
  · unfold Obs.residual residualPsd
    have hX : pBetaL o.wind o.h (β + δ) (S.k f) - pdm o.mirrors.h o.mirrors.kc (β + δ) (S.k f) *
        ((pointed o δ).command pg pm S f * mpAlpha (pointed o δ).stars o.wind o.h (S.k f)) =
        (pBetaL o.wind o.h β (S.k f) - pdm o.mirrors.h o.mirrors.kc β (S.k f) *
        (o.command pg pm S f * mpAlpha o.stars o.wind o.h (S.k f))) * ph o.h (along δ (S.k f)) := by
      rw [← Matrix.mul_assoc, hpb, pBetaL_pointed]
      have : mpAlpha (pointed o δ).stars o.wind o.h (S.k f) = mpAlpha o.stars o.wind o.h (S.k f) * ph o.h (along δ (S.k f)) :=
        mpAlpha_pointed _ _ _ _ _
      rw [this, Matrix.sub_mul]
      simp only [Matrix.mul_assoc]
    show Fourier.msk (o.inside (S.k f)) * (((pBetaL o.wind o.h (β + δ) (S.k f) - pdm o.mirrors.h o.mirrors.kc (β + δ) (S.k f) *
        ((pointed o δ).command pg pm S f * mpAlpha (pointed o δ).stars o.wind o.h (S.k f))) * (cphi (o.kern S f) o.w *
        (pBetaL o.wind o.h (β + δ) (S.k f) - pdm o.mirrors.h o.mirrors.kc (β + δ) (S.k f) *
        ((pointed o δ).command pg pm S f * mpAlpha (pointed o δ).stars o.wind o.h (S.k f)))ᴴ)) 0 0).re * o.piston S f = _
    rw [hX, conjTranspose_mul]
    congr 4
    rw [Matrix.mul_assoc, ← Matrix.mul_assoc (cphi _ _), ← Matrix.mul_assoc (ph _ _), ph_cphi']
  · unfold Obs.noisePart noisePsd
    show Fourier.msk (o.inside (S.k f)) * (((pdm o.mirrors.h o.mirrors.kc (β + δ) (S.k f) * (pointed o δ).command pg pm S f) *
      (o.cb * (pdm o.mirrors.h o.mirrors.kc (β + δ) (S.k f) * (pointed o δ).command pg pm S f)ᴴ)) 0 0).re * o.piston S f *
      (min 0.8 (0.4 + 0.1333 * o.wind.delay)) ^ 2 = _
    rw [hpb]

/-- Two mirrors, 12 km apart, optimised for two directions 5.7 arcseconds on each side of the axis. -/
noncomputable def twoMirrors : Mirrors 2 2 where
  h := ![0, 12000]
  kc := fun _ => 1
  dir := ![(1 / 36000, 0), (-1 / 36000, 0)]
  w := fun _ => 1 / 2
  cond := 100

theorem phasor_sixth : phasor (1 / 6) + phasor (-(1 / 6)) = 1 := by
  rw [phasor_neg, Complex.add_conj]
  unfold phasor
  rw [show (2 * Real.pi * (1 / 6) : ℝ) = Real.pi / 3 by ring, Complex.exp_ofReal_mul_I_re, Real.cos_pi_div_three]
  norm_num

theorem kmod_half : kmod (0.5, 0) = 0.5 := by
  unfold kmod
  rw [show ((0.5 : ℝ) ^ 2 + 0 ^ 2) = 0.5 ^ 2 by norm_num]
  exact Real.sqrt_sq (by norm_num)

theorem two_cov : mirrorCov twoMirrors.w (fun d => pdm twoMirrors.h twoMirrors.kc (twoMirrors.dir d) (0.5, 0)) = !![1, 1 / 2; 1 / 2, 1] := by
  have h1 : ∀ (i : Fin 1) (j : Fin 2) (d : Fin 2), pdm twoMirrors.h twoMirrors.kc (twoMirrors.dir d) (0.5, 0) i j =
      if j = 0 then 1 else if d = 0 then phasor (1 / 6) else phasor (-(1 / 6)) := by
    intro i j d
    simp only [pdm, of_apply, kmod_half]
    rw [if_pos (by norm_num [twoMirrors])]
    fin_cases j <;> fin_cases d <;> simp [twoMirrors, phasor_zero] <;> norm_num
  have hs := phasor_sixth
  have hc : starRingEnd ℂ (phasor (1 / 6)) = phasor (-(1 / 6)) := (phasor_neg _).symm
  have hc' : starRingEnd ℂ (phasor (-(1 / 6))) = phasor (1 / 6) := by rw [phasor_neg, Complex.conj_conj]
  have e1 := phasor_conj (1 / 6)
  rw [hc] at e1
  generalize phasor (1 / 6) = u at h1 hs hc hc' e1
  generalize phasor (-(1 / 6)) = v at h1 hs hc hc' e1
  ext i j
  rw [mirrorCov, Fin.sum_univ_two]
  simp only [Matrix.add_apply, Matrix.smul_apply, Matrix.mul_apply, conjTranspose_apply, Fin.sum_univ_one, h1, smul_eq_mul]
  fin_cases i <;> fin_cases j <;> simp [twoMirrors, hc, hc']
  · norm_num
  · linear_combination (1 / 2) * hs
  · linear_combination (1 / 2) * hs
  · linear_combination e1

theorem two_cross : crossCov twoMirrors.w (fun d => pdm twoMirrors.h twoMirrors.kc (twoMirrors.dir d) (0.5, 0))
    (fun d => pl (fun _ : Fin 1 => 0) (twoMirrors.dir d) (0.5, 0)) = !![1; 1 / 2] := by
  have h1 : ∀ (i : Fin 1) (j : Fin 2) (d : Fin 2), pdm twoMirrors.h twoMirrors.kc (twoMirrors.dir d) (0.5, 0) i j =
      if j = 0 then 1 else if d = 0 then phasor (1 / 6) else phasor (-(1 / 6)) := by
    intro i j d
    simp only [pdm, of_apply, kmod_half]
    rw [if_pos (by norm_num [twoMirrors])]
    fin_cases j <;> fin_cases d <;> simp [twoMirrors, phasor_zero] <;> norm_num
  have h2 : ∀ (i : Fin 1) (j : Fin 1) (d : Fin 2), pl (fun _ : Fin 1 => 0) (twoMirrors.dir d) (0.5, 0) i j = 1 := by
    intro i j d
    simp [pl, phasor_zero]
  have hs := phasor_sixth
  have hc : starRingEnd ℂ (phasor (1 / 6)) = phasor (-(1 / 6)) := (phasor_neg _).symm
  have hc' : starRingEnd ℂ (phasor (-(1 / 6))) = phasor (1 / 6) := by rw [phasor_neg, Complex.conj_conj]
  generalize phasor (1 / 6) = u at h1 hs hc hc'
  generalize phasor (-(1 / 6)) = v at h1 hs hc hc'
  ext i j
  rw [crossCov, Fin.sum_univ_two]
  simp only [Matrix.add_apply, Matrix.smul_apply, Matrix.mul_apply, conjTranspose_apply, Fin.sum_univ_one, h1, h2, smul_eq_mul]
  fin_cases i <;> fin_cases j <;> simp [twoMirrors, hc, hc']
  · norm_num
  · linear_combination (1 / 2) * hs

/-- Tikhonov inverse of a two-by-two matrix, one sample. -/
theorem invCov_two (pm : Matrix (Fin 2) (Fin 2) ℂ → Matrix (Fin 2) (Fin 2) ℂ) (T A B : Matrix (Fin 2) (Fin 2) ℂ)
    (hA : Tᵀ * T + ((Tᵀ * T).trace / 200) • (1 : Matrix (Fin 2) (Fin 2) ℂ) = A) (hB : A * B = 1) :
    invCov 2 100 pm (fun _ : Unit => T) () = B * Tᵀ := by
  have hl : lambdaReg 100 (fun _ : Unit => T) = (Tᵀ * T).trace / 200 := by
    simp [lambdaReg]; ring
  have hu : IsUnit A.det := (Matrix.isUnit_iff_isUnit_det _).1 (isUnit_iff_exists.2 ⟨B, hB, mul_eq_one_comm.1 hB⟩)
  unfold invCov
  rw [if_neg (by norm_num), hl]
  rw [if_pos (fun _ => by simp only; rw [hA]; exact hu)]
  simp only
  rw [hA, Matrix.inv_eq_right_inv hB]

/-- Projector of a ground layer: before and after a displacement of the field. -/
theorem two_popt (pm : Matrix (Fin 2) (Fin 2) ℂ → Matrix (Fin 2) (Fin 2) ℂ) :
    popt pm twoMirrors (fun _ : Fin 1 => 0) (fun _ : Unit => (0.5, 0)) () = !![3700 / 3801; 80 / 3801] ∧
    popt pm { twoMirrors with dir := fun d => twoMirrors.dir d + (1 / 24000, 0) } (fun _ : Fin 1 => 0) (fun _ : Unit => (0.5, 0)) () =
      !![100 / 101; 0] := by
  have hV : ph twoMirrors.h (along (1 / 24000, 0) (0.5, 0)) = !![1, 0; 0, Complex.I] := by
    have e : (12000 : ℝ) * (0.5 * (1 / 24000) + 0 * 0) = 1 / 4 := by norm_num
    ext i j
    fin_cases i <;> fin_cases j <;> simp [ph, twoMirrors, along, phasor_zero]
    simp only [mul_zero, add_zero] at e
    norm_num at e ⊢
    have := phasor_quarter
    norm_num at this
    exact this
  have hV' : (!![1, 0; 0, Complex.I] : Matrix (Fin 2) (Fin 2) ℂ)ᴴ = !![1, 0; 0, -Complex.I] := by
    ext i j
    fin_cases i <;> fin_cases j <;> simp [conjTranspose_apply]
  constructor
  · unfold popt
    simp only [two_cov, two_cross]
    rw [show twoMirrors.cond = 100 from rfl]
    rw [invCov_two pm _ !![101 / 80, 1; 1, 101 / 80] ((6400 / 3801 : ℂ) • !![101 / 80, -1; -1, 101 / 80])]
    · ext i j
      fin_cases i <;> fin_cases j <;> simp [Matrix.mul_apply, Fin.sum_univ_two, Matrix.vecMul, dotProduct] <;> norm_num
    · ext i j
      fin_cases i <;> fin_cases j <;> simp [Matrix.mul_apply, Fin.sum_univ_two, Matrix.trace] <;> norm_num
    · ext i j
      fin_cases i <;> fin_cases j <;> simp [Matrix.mul_apply, Fin.sum_univ_two] <;> norm_num
  · unfold popt
    simp only [mirrorCov_pointed, crossCov_pointed, two_cov, two_cross, hV, hV']
    rw [show twoMirrors.cond = 100 from rfl]
    have hT : (!![1, 0; 0, -Complex.I] * !![1, 1 / 2; 1 / 2, 1] * !![1, 0; 0, Complex.I] : Matrix (Fin 2) (Fin 2) ℂ) =
        !![1, Complex.I / 2; -Complex.I / 2, 1] := by
      ext i j
      fin_cases i <;> fin_cases j <;> simp [Matrix.mul_apply, Fin.sum_univ_two] <;> ring
    have hphi : ph (fun _ : Fin 1 => 0) (along (1 / 24000, 0) (0.5, 0)) = 1 := by
      ext i j
      fin_cases i; fin_cases j; simp [ph, phasor_zero]
    have hI := Complex.I_sq
    rw [hT, hphi, Matrix.mul_one, invCov_two pm _ ((303 / 400 : ℂ) • (1 : Matrix (Fin 2) (Fin 2) ℂ)) ((400 / 303 : ℂ) • (1 : Matrix (Fin 2) (Fin 2) ℂ))]
    · ext i j
      fin_cases i <;> fin_cases j <;> simp [Matrix.mul_apply, Fin.sum_univ_two]
      · linear_combination (100 / 303) * hI
      · ring
    · ext i j
      fin_cases i <;> fin_cases j <;> simp [Matrix.mul_apply, Fin.sum_univ_two, Matrix.trace]
      · linear_combination (1 / 4 + 1 / 400) * hI
      · ring
      · ring
      · linear_combination (1 / 4 + 1 / 400) * hI
    · ext i j
      fin_cases i <;> fin_cases j <;> simp <;> norm_num

/-- C381 (violation): with two mirrors and two optimisation directions, displacing the field by 8.6 arcseconds changes the
correction of a ground layer towards the same target by half a percent, and the noise accordingly: the projector depends on the
direction in which the axis points. -/
theorem pointing_violation (o : Obs g l 1 2 2) (ho : o.mirrors = twoMirrors) (h0 : o.hm = fun _ => 0)
    (pg : Matrix (Fin g) (Fin g) ℂ → Matrix (Fin g) (Fin g) ℂ) (hp : ∀ A, A.IsHermitian → IsPinv A (pg A))
    (pm : Matrix (Fin 2) (Fin 2) ℂ → Matrix (Fin 2) (Fin 2) ℂ) (S : Samples Unit) (hS : S.k = fun _ => (0.5, 0)) :
    (∀ j, (pdm o.mirrors.h o.mirrors.kc (1 / 24000, 0) (0.5, 0) * (pointed o (1 / 24000, 0)).command pg pm S ()) 0 j =
      905 / 909 * (pdm o.mirrors.h o.mirrors.kc (0, 0) (0.5, 0) * o.command pg pm S ()) 0 j) ∧
    (pointed o (1 / 24000, 0)).noisePart pg pm S (1 / 24000, 0) () = (905 / 909) ^ 2 * o.noisePart pg pm S (0, 0) () := by
  have hkey : pdm o.mirrors.h o.mirrors.kc (1 / 24000, 0) (0.5, 0) * (pointed o (1 / 24000, 0)).command pg pm S () =
      (905 / 909 : ℂ) • (pdm o.mirrors.h o.mirrors.kc (0, 0) (0.5, 0) * o.command pg pm S ()) := by
    have ht : (pointed o (1 / 24000, 0)).tomo pg S () = o.tomo pg S () := by
      rw [tomo_pointed o _ pg hp, h0]
      have : ph (fun _ : Fin 1 => 0) (along (1 / 24000, 0) (S.k ())) = 1 := by
        ext i j
        fin_cases i; fin_cases j; simp [ph, phasor_zero]
      rw [this, conjTranspose_one, Matrix.one_mul]
    have hc : (pointed o (1 / 24000, 0)).command pg pm S () = (!![100 / 101; 0] : Matrix (Fin 2) (Fin 1) ℂ) * o.tomo pg S () := by
      unfold Obs.command
      rw [ht]
      have : (pointed o (1 / 24000, 0)).mirrors = { twoMirrors with dir := fun d => twoMirrors.dir d + (1 / 24000, 0) } := by
        unfold pointed; rw [ho]
      rw [this, show (pointed o (1 / 24000, 0)).hm = fun _ => 0 from h0, hS, (two_popt pm).2]
    have hc' : o.command pg pm S () = (!![3700 / 3801; 80 / 3801] : Matrix (Fin 2) (Fin 1) ℂ) * o.tomo pg S () := by
      unfold Obs.command
      rw [ho, h0, hS, (two_popt pm).1]
    rw [hc, hc', ho, ← Matrix.mul_assoc, ← Matrix.mul_assoc, ← Matrix.smul_mul]
    congr 1
    ext i j
    fin_cases i; fin_cases j
    simp only [Matrix.mul_apply, Fin.sum_univ_two, Matrix.smul_apply, pdm, of_apply, kmod_half]
    rw [if_pos (by norm_num [twoMirrors]), if_pos (by norm_num [twoMirrors]), if_pos (by norm_num [twoMirrors]), if_pos (by norm_num [twoMirrors])]
    simp [twoMirrors, phasor_zero]
    norm_num
  refine ⟨fun j => by rw [hkey]; rfl, ?_⟩
  unfold Obs.noisePart noisePsd
  have hk : S.k () = (0.5, 0) := by rw [hS]
  rw [hk]
  show Fourier.msk (o.inside (0.5, 0)) * (((pdm o.mirrors.h o.mirrors.kc (1 / 24000, 0) (0.5, 0) * (pointed o (1 / 24000, 0)).command pg pm S ()) *
      (o.cb * (pdm o.mirrors.h o.mirrors.kc (1 / 24000, 0) (0.5, 0) * (pointed o (1 / 24000, 0)).command pg pm S ())ᴴ)) 0 0).re * o.piston S () *
      (min 0.8 (0.4 + 0.1333 * o.wind.delay)) ^ 2 = _
  rw [hkey]
  generalize pdm o.mirrors.h o.mirrors.kc (0, 0) (0.5, 0) * o.command pg pm S () = X
  have e : ((905 / 909 : ℂ) • X * (o.cb * ((905 / 909 : ℂ) • X)ᴴ)) = (((905 / 909) ^ 2 : ℝ) : ℂ) • (X * (o.cb * Xᴴ)) := by
    rw [conjTranspose_smul, Matrix.mul_smul, Matrix.smul_mul, Matrix.mul_smul, smul_smul]
    congr 1
    have : star (905 / 909 : ℂ) = ((905 / 909 : ℝ) : ℂ) := by
      rw [show (905 / 909 : ℂ) = ((905 / 909 : ℝ) : ℂ) by push_cast; rfl]
      exact Complex.conj_ofReal _
    rw [this]; push_cast; ring
  rw [e, Matrix.smul_apply, smul_eq_mul, Complex.re_ofReal_mul]
  ring

/-! ### Layers conjugated with the mirror (C382) -/

/-- C382 (partial): when the mirrors are at the height at which the model puts all the turbulence, the residual and the noise are
the same towards all targets. Missing: with lasers that is not the real height (`conjugated_laser_violation`). -/
theorem conjugated_uniform_partial {ι : Type} [Fintype ι] (o : Obs g l lm m q) (z : ℝ) (hm : ∀ i, o.mirrors.h i = z) (hl : ∀ n, o.h n = z)
    (pg : Matrix (Fin g) (Fin g) ℂ → Matrix (Fin g) (Fin g) ℂ)
    (pm : Matrix (Fin m) (Fin m) ℂ → Matrix (Fin m) (Fin m) ℂ) (S : Samples ι) (β β' : ℝ × ℝ) (f : ι) :
    o.residual pg pm S β f = o.residual pg pm S β' f ∧ o.noisePart pg pm S β f = o.noisePart pg pm S β' f := by
  have hpd : ∀ β : ℝ × ℝ, pdm o.mirrors.h o.mirrors.kc β (S.k f) = phasor (z * along β (S.k f)) • pdm o.mirrors.h o.mirrors.kc (0, 0) (S.k f) := by
    intro β
    ext i j
    simp only [pdm, of_apply, Matrix.smul_apply, smul_eq_mul, hm]
    split_ifs
    · rw [← phasor_add]; congr 1; simp only [along]; ring
    · rw [mul_zero]
  have hpl : ∀ β : ℝ × ℝ, pBetaL o.wind o.h β (S.k f) = phasor (z * along β (S.k f)) • pBetaL o.wind o.h (0, 0) (S.k f) := by
    intro β
    ext i n
    simp only [pBetaL, of_apply, Matrix.smul_apply, smul_eq_mul, hl]
    rw [← phasor_add]; congr 1; simp only [along]; ring
  have hst : ∀ x : ℝ, phasor x * star (phasor x) = 1 := fun x => by rw [mul_comm]; exact phasor_conj x
  have hq : ∀ {a : ℕ} (x : ℝ) (X : Matrix (Fin 1) (Fin a) ℂ) (C : Matrix (Fin a) (Fin a) ℂ),
      (phasor x • X) * (C * (phasor x • X)ᴴ) = X * (C * Xᴴ) := fun x X C => by
    rw [conjTranspose_smul, Matrix.mul_smul, Matrix.smul_mul, Matrix.mul_smul, smul_smul, hst, one_smul]
  have h1 : ∀ β, o.residual pg pm S β f = o.residual pg pm S (0, 0) f := fun β => by
    unfold Obs.residual residualPsd
    rw [hpd β, hpl β, Matrix.smul_mul, ← smul_sub, hq]
  have h2 : ∀ β, o.noisePart pg pm S β f = o.noisePart pg pm S (0, 0) f := fun β => by
    unfold Obs.noisePart noisePsd
    rw [hpd β, Matrix.smul_mul, hq]
  exact ⟨by rw [h1 β, h1 β'], by rw [h2 β, h2 β']⟩

theorem one_layer_tomo {ι : Type} (o : Obs g 1 1 m q) (N : ℝ) (hN : 0 < N) (hn : ∀ j, o.noise j = N) (hw : 0 < o.w 0)
    (pg : Matrix (Fin g) (Fin g) ℂ → Matrix (Fin g) (Fin g) ℂ) (hp : ∀ A, A.IsHermitian → IsPinv A (pg A))
    (S : Samples ι) (f : ι) (hk : 0 < o.kern S f) :
    (o.tomo pg S f * mp o.stars o.hm (S.k f)) 0 0 =
      ((o.kern S f * o.w 0 * (∑ j, ‖meas (o.stars.d j) (S.k f)‖ ^ 2) /
        (o.kern S f * o.w 0 * (∑ j, ‖meas (o.stars.d j) (S.k f)‖ ^ 2) + N) : ℝ) : ℂ) := by
  set s := mp o.stars o.hm (S.k f) with hs
  set a : ℝ := o.kern S f * o.w 0 with ha
  set E : ℝ := ∑ j, ‖meas (o.stars.d j) (S.k f)‖ ^ 2 with hE
  have hE0 : 0 ≤ E := sum_nonneg fun j _ => sq_nonneg _
  have ha0 : 0 < a := mul_pos hk hw
  have hcp : cphi (o.kern S f) (usedWeights o) = (a : ℂ) • 1 := by
    ext i j
    fin_cases i; fin_cases j
    simp [cphi, usedWeights, ha]
  have hcb : o.cb = (N : ℂ) • 1 := by
    unfold Obs.cb
    simp only [hn]
    rw [smul_one_eq_diagonal]
  have hss : sᴴ * s = (E : ℂ) • 1 := by
    ext i j
    fin_cases i; fin_cases j
    simp only [Matrix.mul_apply, conjTranspose_apply, hs, mp_apply, Matrix.smul_apply, smul_eq_mul]
    rw [hE]
    push_cast
    rw [show ((1 : Matrix (Fin 1) (Fin 1) ℂ) ((fun i => i) ⟨0, by omega⟩) ((fun i => i) ⟨0, by omega⟩)) = 1 by simp, mul_one]
    refine sum_congr rfl fun j _ => ?_
    rw [RCLike.star_def, Complex.conj_mul', norm_mul, norm_phasor, mul_one]
  set A : Matrix (Fin g) (Fin g) ℂ := s * cphi (o.kern S f) (usedWeights o) * sᴴ + o.cb with hA
  have hAe : A = (a : ℂ) • (s * sᴴ) + (N : ℂ) • 1 := by
    rw [hA, hcp, hcb, Matrix.mul_smul, Matrix.mul_one, Matrix.smul_mul]
  have hAh : A.IsHermitian := by
    rw [hAe]
    unfold IsHermitian
    rw [conjTranspose_add, conjTranspose_smul, conjTranspose_smul, conjTranspose_mul, conjTranspose_conjTranspose, conjTranspose_one]
    simp
  have hden : (a * E + N : ℝ) ≠ 0 := ne_of_gt (by positivity)
  have hdc : ((a * E + N : ℝ) : ℂ) ≠ 0 := by exact_mod_cast hden
  have hAs : A * s = ((a * E + N : ℝ) : ℂ) • s := by
    rw [hAe, Matrix.add_mul, Matrix.smul_mul, Matrix.mul_assoc, hss, Matrix.mul_smul, Matrix.mul_one, Matrix.smul_mul, Matrix.one_mul,
      smul_smul, ← add_smul]
    congr 1; push_cast; ring
  have hsA : sᴴ * A = ((a * E + N : ℝ) : ℂ) • sᴴ := by
    have := congrArg conjTranspose hAs
    rw [conjTranspose_mul, hAh.eq, conjTranspose_smul] at this
    rw [this]; congr 1; exact Complex.conj_ofReal _
  have H := hp A hAh
  have hq : ((a * E + N : ℝ) : ℂ) • (sᴴ * pg A * s) = sᴴ * s := by
    have h1 : sᴴ * (A * pg A * A) * s = sᴴ * A * s := by rw [H.axa]
    have h2 : sᴴ * (A * pg A * A) * s = (sᴴ * A) * pg A * (A * s) := by simp only [Matrix.mul_assoc]
    rw [h2, hsA, hAs, Matrix.smul_mul, Matrix.smul_mul, Matrix.mul_smul, smul_smul, Matrix.smul_mul] at h1
    have h3 := congrArg (fun X => (((a * E + N : ℝ) : ℂ))⁻¹ • X) h1
    simp only [smul_smul, ← mul_assoc, inv_mul_cancel₀ hdc, one_mul, one_smul] at h3
    exact h3
  rw [tomo_eq o pg hp, ← hs, ← hA, hcp, Matrix.smul_mul, Matrix.one_mul, Matrix.smul_mul, Matrix.smul_mul]
  have h4 : sᴴ * pg A * s = ((E / (a * E + N) : ℝ) : ℂ) • 1 := by
    have h3 := congrArg (fun X => (((a * E + N : ℝ) : ℂ))⁻¹ • X) (hq.trans hss)
    simp only [smul_smul, inv_mul_cancel₀ hdc, one_smul] at h3
    rw [h3]; congr 1; push_cast; rw [mul_comm, div_eq_mul_inv]
  rw [h4, smul_smul, Matrix.smul_apply, one_apply_eq, smul_eq_mul, mul_one]
  push_cast; rw [mul_div_assoc]

/-- C382 (violation): with lasers, the mirror conjugated with the real height `z` of the only layer does not correct all targets
alike: the height of the layer is stretched, the height of the mirror is not, and the residual oscillates with the distance of the
target although turbulence and mirror are in the same plane. -/
theorem conjugated_laser_violation {ι : Type} [Fintype ι] (o : Obs g 1 1 1 1) (hg : 0 < g) (H z h' : ℝ) (hH : 0 < H) (hz : 0 < z)
    (hs : stretched (some H) z = some h') (ho : o.h = fun _ => h') (hom : o.hm = fun _ => h') (hmir : o.mirrors.h = fun _ => z)
    (hdir : o.mirrors.dir = fun _ => (0, 0)) (hwm : 0 < o.mirrors.w 0) (hstill : o.wind.speed = fun _ => 0) (N : ℝ) (hN : 0 < N)
    (hn : ∀ j, o.noise j = N) (hw : 0 < o.w 0)
    (pg : Matrix (Fin g) (Fin g) ℂ → Matrix (Fin g) (Fin g) ℂ) (hp : ∀ A, A.IsHermitian → IsPinv A (pg A))
    (pm : Matrix (Fin 1) (Fin 1) ℂ → Matrix (Fin 1) (Fin 1) ℂ) (hm : ∀ A, A.IsHermitian → IsPinv A (pm A))
    (S : Samples ι) (f : ι) (hin : o.inside (S.k f) = true) (hkc : kmod (S.k f) ≤ o.mirrors.kc 0) (hk : 0 < o.kern S f)
    (hpf : 0 < o.piston S f) (hmeas : ∀ j, meas (o.stars.d j) (S.k f) ≠ 0) :
    h' ≠ z ∧ ∃ r c : ℝ, 0 < r ∧ 0 < c ∧ c < 1 ∧ ∀ β : ℝ × ℝ, o.residual pg pm S β f =
      r * (1 + c ^ 2 - 2 * c * Real.cos (2 * Real.pi * ((h' - z) * (β.1 * (S.k f).1 + β.2 * (S.k f).2)))) := by
  have hz' : h' ≠ z := by
    unfold stretched at hs
    simp only at hs
    split_ifs at hs with h0
    have := Option.some.inj hs
    intro e
    rw [e] at this
    have h1 : 1 / (1 - z / H) = 1 := by
      have := this
      field_simp at this ⊢
      nlinarith [this]
    rw [div_eq_one_iff_eq h0] at h1
    have : z / H = 0 := by linarith
    rcases div_eq_zero_iff.1 this with h | h <;> linarith
  refine ⟨hz', ?_⟩
  set a : ℝ := o.kern S f * o.w 0 with ha
  set E : ℝ := ∑ j, ‖meas (o.stars.d j) (S.k f)‖ ^ 2 with hE
  have hE0 : 0 < E := by
    refine sum_pos (fun j _ => by have := norm_pos_iff.2 (hmeas j); positivity) ⟨⟨0, hg⟩, mem_univ _⟩
  have ha0 : 0 < a := mul_pos hk hw
  have hfr : 0 < a * E / (a * E + N) ∧ a * E / (a * E + N) < 1 :=
    ⟨by positivity, by rw [div_lt_one (by positivity)]; linarith⟩
  set c : ℝ := a * E / (a * E + N) with hc
  refine ⟨a * o.piston S f, c, by positivity, hfr.1, hfr.2, fun β => ?_⟩
  have hmpa : mpAlpha o.stars o.wind o.h (S.k f) = mp o.stars o.hm (S.k f) := by
    ext j n
    rw [mp_apply]
    simp only [mpAlpha, of_apply, hstill, ho, hom, mul_zero, zero_mul]
    rw [show npSinc 0 = 1 by simp [npSinc], Complex.ofReal_one, mul_one]
    congr 2; ring
  have htm := one_layer_tomo o N hN hn hw pg hp S f hk
  have hpop : popt pm o.mirrors o.hm S.k f = 1 := by
    have h1 : ∀ d, pdm o.mirrors.h o.mirrors.kc (o.mirrors.dir d) (S.k f) = 1 := fun d => by
      ext i j
      rw [Subsingleton.elim i 0, Subsingleton.elim j 0]
      simp only [pdm, of_apply, hdir]
      rw [if_pos hkc]
      simp [phasor_zero]
    have h2 : ∀ d, pl o.hm (o.mirrors.dir d) (S.k f) = 1 := fun d => by
      ext i j
      fin_cases i; fin_cases j
      simp [pl, of_apply, hdir, phasor_zero]
    unfold popt invCov
    rw [if_pos rfl]
    simp only [h1, h2, mirrorCov, crossCov, Fin.sum_univ_one, conjTranspose_one, Matrix.one_mul]
    rw [pinv_scalar pm hm, Matrix.smul_mul, Matrix.mul_smul, Matrix.one_mul, smul_smul, ← Complex.ofReal_mul, inv_mul_cancel₀ hwm.ne']
    simp
  have hW : o.command pg pm S f * mpAlpha o.stars o.wind o.h (S.k f) = (c : ℂ) • 1 := by
    unfold Obs.command
    rw [hpop, Matrix.one_mul, hmpa]
    ext i j
    fin_cases i; fin_cases j
    simp only [Matrix.smul_apply, smul_eq_mul]
    rw [show ((1 : Matrix (Fin 1) (Fin 1) ℂ) ((fun i => i) ⟨0, by omega⟩) ((fun i => i) ⟨0, by omega⟩)) = 1 by simp, mul_one]
    exact htm
  set x : ℝ := β.1 * (S.k f).1 + β.2 * (S.k f).2 with hx
  unfold Obs.residual residualPsd
  rw [hW, hin]
  have hX : (pBetaL o.wind o.h β (S.k f) - pdm o.mirrors.h o.mirrors.kc β (S.k f) * ((c : ℂ) • 1)) =
      (phasor (h' * x) - c * phasor (z * x)) • 1 := by
    ext i j
    rw [Subsingleton.elim i 0, Subsingleton.elim j 0]
    rw [Matrix.mul_smul, Matrix.mul_one]
    simp only [pBetaL, pdm, of_apply, Matrix.sub_apply, Matrix.smul_apply, ho, hmir, hstill, mul_zero, zero_mul, sub_zero]
    rw [if_pos hkc]
    simp [hx]
  rw [hX]
  have hC : cphi (o.kern S f) o.w = (a : ℂ) • 1 := by
    ext i j
    fin_cases i; fin_cases j
    simp [cphi, ha]
  have hn2 : (phasor (h' * x) - c * phasor (z * x)) * starRingEnd ℂ (phasor (h' * x) - c * phasor (z * x)) =
      ((1 + c ^ 2 - 2 * c * Real.cos (2 * Real.pi * ((h' - z) * x)) : ℝ) : ℂ) := by
    have e1 : phasor (h' * x) = phasor ((h' - z) * x) * phasor (z * x) := by rw [← phasor_add]; congr 1; ring
    have e2 : phasor ((h' - z) * x) + starRingEnd ℂ (phasor ((h' - z) * x)) = ((2 * Real.cos (2 * Real.pi * ((h' - z) * x)) : ℝ) : ℂ) := by
      rw [Complex.add_conj]
      unfold phasor
      rw [Complex.exp_ofReal_mul_I_re]
    have p1 := phasor_conj ((h' - z) * x)
    have p2 := phasor_conj (z * x)
    rw [e1, map_sub, map_mul, map_mul, Complex.conj_ofReal]
    push_cast at e2 ⊢
    linear_combination (starRingEnd ℂ (phasor ((h' - z) * x)) * phasor ((h' - z) * x) + (c : ℂ) ^ 2 -
      c * (phasor ((h' - z) * x) + starRingEnd ℂ (phasor ((h' - z) * x)))) * p2 + p1 - c * e2
  rw [hC, conjTranspose_smul, conjTranspose_one, Matrix.smul_mul, Matrix.one_mul, Matrix.smul_mul, Matrix.one_mul, smul_smul, smul_smul,
    Matrix.smul_apply, one_apply_eq, smul_eq_mul, mul_one, RCLike.star_def]
  rw [show (phasor (h' * x) - c * phasor (z * x)) * (a : ℂ) * starRingEnd ℂ (phasor (h' * x) - c * phasor (z * x)) =
    (a : ℂ) * ((phasor (h' * x) - c * phasor (z * x)) * starRingEnd ℂ (phasor (h' * x) - c * phasor (z * x))) by ring, hn2,
    Complex.re_ofReal_mul, Complex.ofReal_re]
  simp [Fourier.msk]
  ring

/-! ### Heights and angles (C383) -/

section
variable (o : Obs g l lm m q) (x : ℝ) (hx : x ≠ 0)
include hx

theorem st_mp (k : ℝ × ℝ) : mp (stretchedBy o x).stars (stretchedBy o x).hm k = mp o.stars o.hm k := by
  ext j n
  rw [mp_apply, mp_apply]
  show meas (o.stars.d j) _ * phasor (x * o.hm n * (k.1 * ((o.stars.dir j).1 / x) + k.2 * ((o.stars.dir j).2 / x))) = _
  congr 2; field_simp

theorem st_mpAlpha (k : ℝ × ℝ) :
    mpAlpha (stretchedBy o x).stars (stretchedBy o x).wind (stretchedBy o x).h k = mpAlpha o.stars o.wind o.h k := by
  ext j n
  simp only [mpAlpha, of_apply]
  show meas (o.stars.d j) _ * _ * phasor (x * o.h n * ((o.stars.dir j).1 / x * k.1 + (o.stars.dir j).2 / x * k.2)) = _
  congr 2; field_simp

theorem st_pdm (θ k : ℝ × ℝ) :
    pdm (stretchedBy o x).mirrors.h (stretchedBy o x).mirrors.kc (θ.1 / x, θ.2 / x) k = pdm o.mirrors.h o.mirrors.kc θ k := by
  ext i j
  simp only [pdm, of_apply]
  show (if kmod k ≤ o.mirrors.kc j then phasor (x * o.mirrors.h j * (θ.1 / x * k.1 + θ.2 / x * k.2)) else 0) = _
  split_ifs
  · congr 1; field_simp
  · rfl

theorem st_pl (θ k : ℝ × ℝ) : pl (stretchedBy o x).hm (θ.1 / x, θ.2 / x) k = pl o.hm θ k := by
  ext i n
  simp only [pl, of_apply]
  show phasor (x * o.hm n * (θ.1 / x * k.1 + θ.2 / x * k.2)) = _
  congr 1; field_simp

theorem st_pBetaL (θ k : ℝ × ℝ) :
    pBetaL (stretchedBy o x).wind (stretchedBy o x).h (θ.1 / x, θ.2 / x) k = pBetaL o.wind o.h θ k := by
  ext i n
  simp only [pBetaL, of_apply]
  show phasor (x * o.h n * (θ.1 / x * k.1 + θ.2 / x * k.2) - o.wind.delay / o.wind.rate * o.wind.speed n * windFreq o.wind k n) = _
  congr 2; field_simp

theorem st_popt {ι : Type} [Fintype ι] (pm : Matrix (Fin m) (Fin m) ℂ → Matrix (Fin m) (Fin m) ℂ) (k : ι → ℝ × ℝ) (f : ι) :
    popt pm (stretchedBy o x).mirrors (stretchedBy o x).hm k f = popt pm o.mirrors o.hm k f := by
  have e8 : (fun f => mirrorCov (stretchedBy o x).mirrors.w
      (fun d => pdm (stretchedBy o x).mirrors.h (stretchedBy o x).mirrors.kc ((stretchedBy o x).mirrors.dir d) (k f))) =
      (fun f => mirrorCov o.mirrors.w (fun d => pdm o.mirrors.h o.mirrors.kc (o.mirrors.dir d) (k f))) :=
    funext fun f => congrArg (mirrorCov o.mirrors.w) (funext fun d => st_pdm o x hx _ _)
  have e9 : crossCov (stretchedBy o x).mirrors.w
      (fun d => pdm (stretchedBy o x).mirrors.h (stretchedBy o x).mirrors.kc ((stretchedBy o x).mirrors.dir d) (k f))
      (fun d => pl (stretchedBy o x).hm ((stretchedBy o x).mirrors.dir d) (k f)) =
      crossCov o.mirrors.w (fun d => pdm o.mirrors.h o.mirrors.kc (o.mirrors.dir d) (k f)) (fun d => pl o.hm (o.mirrors.dir d) (k f)) :=
    congrArg₂ (crossCov o.mirrors.w) (funext fun d => st_pdm o x hx _ _) (funext fun d => st_pl o x hx _ _)
  unfold popt
  rw [e8, e9]; rfl

/-- C383: heights and angles only count through their products. -/
theorem heights_times_angles {ι : Type} [Fintype ι]
    (pg : Matrix (Fin g) (Fin g) ℂ → Matrix (Fin g) (Fin g) ℂ)
    (pm : Matrix (Fin m) (Fin m) ℂ → Matrix (Fin m) (Fin m) ℂ) (S : Samples ι) (β : ℝ × ℝ) (f : ι) :
    (stretchedBy o x).command pg pm S f = o.command pg pm S f ∧
    (stretchedBy o x).residual pg pm S (β.1 / x, β.2 / x) f = o.residual pg pm S β f ∧
    (stretchedBy o x).noisePart pg pm S (β.1 / x, β.2 / x) f = o.noisePart pg pm S β f := by
  have hcmd : (stretchedBy o x).command pg pm S f = o.command pg pm S f := by
    have ht : (stretchedBy o x).tomo pg S f = o.tomo pg S f :=
      congrArg (fun B => wtomo pg B (fun f => cphiMod (o.kern S f) o.w o.wm) o.cb f) (funext fun f => st_mp o x hx (S.k f))
    unfold Obs.command
    rw [ht, st_popt o x hx]
  refine ⟨hcmd, ?_, ?_⟩
  · unfold Obs.residual
    rw [hcmd, st_mpAlpha o x hx, st_pdm o x hx, st_pBetaL o x hx]; rfl
  · unfold Obs.noisePart
    rw [hcmd, st_pdm o x hx]; rfl

end

/-! ### Wind and displacement (C384) -/

/-- C384: with mirrors on the ground, delay and distance to the target add up as displacements of the layers: two targets and
delays with the same displacements have the same residual. -/
theorem lag_is_displacement {ι : Type} [Fintype ι] (o : Obs g l lm m q) (hm : ∀ i, o.mirrors.h i = 0) (τ : ℝ) (β β' : ℝ × ℝ)
    (hd : ∀ n, displacement (delayed o τ) β' n = displacement o β n)
    (pg : Matrix (Fin g) (Fin g) ℂ → Matrix (Fin g) (Fin g) ℂ)
    (pm : Matrix (Fin m) (Fin m) ℂ → Matrix (Fin m) (Fin m) ℂ) (S : Samples ι) (f : ι) :
    (delayed o τ).residual pg pm S β' f = o.residual pg pm S β f := by
  have e1 : pBetaL (delayed o τ).wind (delayed o τ).h β' (S.k f) = pBetaL o.wind o.h β (S.k f) := by
    ext i n
    simp only [pBetaL, of_apply, windFreq]
    have h1 := congrArg Prod.fst (hd n)
    have h2 := congrArg Prod.snd (hd n)
    simp only [displacement] at h1 h2
    congr 1
    linear_combination (S.k f).1 * h1 + (S.k f).2 * h2
  have e2 : pdm o.mirrors.h o.mirrors.kc β' (S.k f) = pdm o.mirrors.h o.mirrors.kc β (S.k f) := by
    ext i j
    simp only [pdm, of_apply, hm, zero_mul]
  unfold Obs.residual
  rw [e1]
  show residualPsd _ _ (pdm o.mirrors.h o.mirrors.kc β' (S.k f)) _ _ _ _ = _
  rw [e2]; rfl

/-! ### Winds and loop rate (C385) -/

/-- C385 (several guide stars): only the ratio of wind speed and loop rate matters. -/
theorem speed_over_rate {ι : Type} [Fintype ι] (o : Obs g l lm m q) (x : ℝ) (hx : x ≠ 0)
    (pg : Matrix (Fin g) (Fin g) ℂ → Matrix (Fin g) (Fin g) ℂ)
    (pm : Matrix (Fin m) (Fin m) ℂ → Matrix (Fin m) (Fin m) ℂ) (S : Samples ι) (β : ℝ × ℝ) (f : ι) :
    (faster o x).command pg pm S f = o.command pg pm S f ∧
    (faster o x).residual pg pm S β f = o.residual pg pm S β f ∧ (faster o x).noisePart pg pm S β f = o.noisePart pg pm S β f := by
  have e1 : mpAlpha (faster o x).stars (faster o x).wind (faster o x).h (S.k f) = mpAlpha o.stars o.wind o.h (S.k f) := by
    ext j n
    simp only [mpAlpha, of_apply]
    show meas (o.stars.d j) _ * ((npSinc (1 / (x * o.wind.rate) * o.wind.clock j * (x * o.wind.speed n) * windFreq o.wind (S.k f) n) : ℝ) : ℂ) * _ = _
    have e : 1 / (x * o.wind.rate) * o.wind.clock j * (x * o.wind.speed n) * windFreq o.wind (S.k f) n =
        1 / o.wind.rate * o.wind.clock j * o.wind.speed n * windFreq o.wind (S.k f) n := by
      by_cases h : o.wind.rate = 0
      · rw [h]; simp
      · field_simp
    rw [e]; rfl
  have e2 : pBetaL (faster o x).wind (faster o x).h β (S.k f) = pBetaL o.wind o.h β (S.k f) := by
    ext i n
    simp only [pBetaL, of_apply]
    show phasor (_ - o.wind.delay / (x * o.wind.rate) * (x * o.wind.speed n) * windFreq o.wind (S.k f) n) = _
    have e : o.wind.delay / (x * o.wind.rate) * (x * o.wind.speed n) * windFreq o.wind (S.k f) n =
        o.wind.delay / o.wind.rate * o.wind.speed n * windFreq o.wind (S.k f) n := by
      by_cases h : o.wind.rate = 0
      · rw [h]; simp
      · field_simp
    rw [e]; rfl
  refine ⟨rfl, ?_, rfl⟩
  unfold Obs.residual
  rw [e1, e2]; rfl

theorem faster_rate (x : ℝ) (hx : x ≠ 0) (a r : ℝ) : x * a * (1 / (x * r)) = a * (1 / r) := by
  by_cases h : r = 0
  · simp [h]
  · field_simp

open P3.Spectra (Sys)

section
variable (s : Sys) (x : ℝ) (hx : x ≠ 0)
include hx

theorem fs_atf (k : ℝ × ℝ) (n : ℕ) : (fasterSys s x).atf k n = s.atf k n := by
  unfold Sys.atf Sys.z
  have e : (fasterSys s x).tfreq k n * (1 / (fasterSys s x).rate) = s.tfreq k n * (1 / s.rate) := by
    rw [show (fasterSys s x).tfreq k n = x * s.tfreq k n by
      simp only [Sys.tfreq, Sys.vx, Sys.vy, fasterSys]; ring]
    exact faster_rate x hx _ _
  rw [e]; rfl

theorem fs_h1 (k : ℝ × ℝ) : (fasterSys s x).h1 k = s.h1 k := by
  unfold Sys.h1
  simp only [fs_atf s x hx]; rfl

theorem fs_h2 (k : ℝ × ℝ) : (fasterSys s x).h2 k = s.h2 k := by
  unfold Sys.h2
  simp only [fs_atf s x hx]; rfl

theorem fs_avr (tf : ℂ) (q : ℝ × ℝ) : (fasterSys s x).avrTerm tf q = s.avrTerm tf q := by
  funext n
  unfold Sys.avrTerm
  have e : ∀ v, x * v * (s.clock / (x * s.rate)) = v * (s.clock / s.rate) := fun v => by
    by_cases h : s.rate = 0
    · simp [h]
    · field_simp
  have ex : (fasterSys s x).vx n = x * s.vx n := by simp only [Sys.vx, fasterSys]; ring
  have ey : (fasterSys s x).vy n = x * s.vy n := by simp only [Sys.vy, fasterSys]; ring
  rw [ex, ey]
  show (s.w n : ℂ) * (((npSinc (q.1 * (x * s.vx n) * (s.clock / (x * s.rate))) : ℝ) : ℂ) *
    ((npSinc (q.2 * (x * s.vy n) * (s.clock / (x * s.rate))) : ℝ) : ℂ) *
    phasor ((q.1 * (x * s.vx n) + q.2 * (x * s.vy n)) * (s.clock / (x * s.rate) * s.delay)) * tf) = _
  have e1 : q.1 * (x * s.vx n) * (s.clock / (x * s.rate)) = q.1 * s.vx n * (s.clock / s.rate) := by
    rw [mul_assoc, e, mul_assoc]
  have e2 : q.2 * (x * s.vy n) * (s.clock / (x * s.rate)) = q.2 * s.vy n * (s.clock / s.rate) := by
    rw [mul_assoc, e, mul_assoc]
  have e3 : (q.1 * (x * s.vx n) + q.2 * (x * s.vy n)) * (s.clock / (x * s.rate) * s.delay) =
      (q.1 * s.vx n + q.2 * s.vy n) * (s.clock / s.rate * s.delay) := by
    linear_combination s.delay * e1 + s.delay * e2
  rw [e1, e2, e3]

/-- C385 (one guide star): only the ratio of wind speed and loop rate matters, to every contribution. -/
theorem speed_over_rate_one (u ng : ℝ) (th : ℝ × ℝ) (az : ℝ) (c : Bool) (k : ℝ × ℝ) :
    (fasterSys s x).terms ng th az c k = s.terms ng th az c k ∧ (fasterSys s x).psd u ng th az c k = s.psd u ng th az c k := by
  have ha : (fasterSys s x).aliasPsd c k = s.aliasPsd c k := by
    unfold Sys.aliasPsd
    rw [fs_h1 s x hx]
    simp only [fs_avr s x hx]; rfl
  have ht : (fasterSys s x).stPsd th c k = s.stPsd th c k := by
    unfold Sys.stPsd
    rw [fs_h1 s x hx, fs_h2 s x hx]; rfl
  have hT : (fasterSys s x).terms ng th az c k = s.terms ng th az c k := by
    unfold Sys.terms
    rw [ha, ht]; rfl
  exact ⟨hT, by unfold Sys.psd; rw [hT]⟩

end

/-! ### Cases that meet the hypotheses -/

/-- A frequency along the first axis. -/
noncomputable def atHalf : Samples Unit := ⟨fun _ => (0.5, 0), fun _ => false⟩

/-- The observation of `demo` displaced. -/
example (pg : Matrix (Fin 2) (Fin 2) ℂ → Matrix (Fin 2) (Fin 2) ℂ) (hg : ∀ A, A.IsHermitian → IsPinv A (pg A))
    (pm : Matrix (Fin 1) (Fin 1) ℂ → Matrix (Fin 1) (Fin 1) ℂ) (hm : ∀ A, A.IsHermitian → IsPinv A (pm A)) :
    (pointed demo (1e-4, 3e-5)).residual pg pm atHalf ((5e-5, 0) + (1e-4, 3e-5)) () = demo.residual pg pm atHalf (5e-5, 0) () :=
  (pointing_partial demo (1e-4, 3e-5) (Or.inr fun _ _ => rfl) pg hg pm hm atHalf (5e-5, 0) ()).1

/-- Two mirrors. -/
noncomputable def demoTwo : Obs 2 1 1 2 2 where
  stars := demo.stars
  wind := demo.wind
  mirrors := twoMirrors
  h := fun _ => 0
  w := fun _ => 1
  hm := fun _ => 0
  wm := fun _ => 1
  noise := fun _ => 0.1
  r0 := 0.15
  L0 := 25
  D := 8
  kc := 1
  circle := true

example (pg : Matrix (Fin 2) (Fin 2) ℂ → Matrix (Fin 2) (Fin 2) ℂ) (hg : ∀ A, A.IsHermitian → IsPinv A (pg A))
    (pm : Matrix (Fin 2) (Fin 2) ℂ → Matrix (Fin 2) (Fin 2) ℂ) :
    (pointed demoTwo (1 / 24000, 0)).noisePart pg pm atHalf (1 / 24000, 0) () =
      (905 / 909) ^ 2 * demoTwo.noisePart pg pm atHalf (0, 0) () :=
  (pointing_violation demoTwo rfl rfl pg hg pm atHalf rfl).2

/-- One mirror at 10 km, conjugated with the only layer; the stars are lasers at 90 km, no wind. -/
noncomputable def demoLaser : Obs 2 1 1 1 1 where
  stars := demo.stars
  wind := ⟨fun _ => 0, fun _ => 30, fun _ => 1, 500, 2⟩
  mirrors := ⟨fun _ => 10000, fun _ => 1, fun _ => (0, 0), fun _ => 1, 100⟩
  h := fun _ => 11250
  w := fun _ => 1
  hm := fun _ => 11250
  wm := fun _ => 1
  noise := fun _ => 0.1
  r0 := 0.15
  L0 := 25
  D := 8
  kc := 1
  circle := true

/-- The same with the mirror where the model sees the layer. -/
example (pg : Matrix (Fin 2) (Fin 2) ℂ → Matrix (Fin 2) (Fin 2) ℂ) (pm : Matrix (Fin 1) (Fin 1) ℂ → Matrix (Fin 1) (Fin 1) ℂ) :
    ({ demoLaser with mirrors := { demoLaser.mirrors with h := fun _ => 11250 } } : Obs 2 1 1 1 1).residual pg pm atHalf (1e-4, 0) () =
    ({ demoLaser with mirrors := { demoLaser.mirrors with h := fun _ => 11250 } } : Obs 2 1 1 1 1).residual pg pm atHalf (0, 2e-4) () :=
  (conjugated_uniform_partial _ 11250 (fun _ => rfl) (fun _ => rfl) pg pm atHalf _ _ ()).1

theorem meas_half : meas 0.5 (0.5, 0) ≠ 0 := by
  unfold meas
  rw [kmod_half]
  have h1 : npSinc (0.5 * 0.5) ≠ 0 := by
    unfold npSinc
    rw [Real.sinc_of_ne_zero (by positivity), show Real.pi * (0.5 * 0.5) = Real.pi / 4 by ring, Real.sin_pi_div_four]
    positivity
  have h2 : npSinc (0.5 * 0) = 1 := by simp [npSinc]
  simp only [h2, mul_one]
  refine mul_ne_zero ?_ Complex.I_ne_zero
  have : (2 * Real.pi * 0.5 * npSinc (0.5 * 0.5) : ℝ) ≠ 0 := mul_ne_zero (by positivity) h1
  exact_mod_cast this

/-- A mirror at 10 km and a layer at 10 km, lasers at 90 km: the target at which the phases of layer and mirror are opposite is
corrected worse than the axis. -/
example (pg : Matrix (Fin 2) (Fin 2) ℂ → Matrix (Fin 2) (Fin 2) ℂ) (hg : ∀ A, A.IsHermitian → IsPinv A (pg A))
    (pm : Matrix (Fin 1) (Fin 1) ℂ → Matrix (Fin 1) (Fin 1) ℂ) (hm : ∀ A, A.IsHermitian → IsPinv A (pm A)) :
    demoLaser.residual pg pm atHalf (0, 0) () < demoLaser.residual pg pm atHalf (1 / 1250, 0) () := by
  have hpf : 0 < demoLaser.piston atHalf () := by
    unfold Obs.piston
    rw [if_neg (by simp [atHalf])]
    exact Psf.pistonFilter_pos _ _ (by norm_num [demoLaser])
  have hk : 0 < demoLaser.kern atHalf () := by
    unfold Obs.kern kernel
    have h1 : (0:ℝ) < demoLaser.r0 := by norm_num [demoLaser]
    have h2 : (0:ℝ) < (atHalf.k ()).1 ^ 2 + (atHalf.k ()).2 ^ 2 + 1 / demoLaser.L0 ^ 2 := by norm_num [demoLaser, atHalf]
    have g1 : 0 < Real.Gamma (6 / 5) := Real.Gamma_pos_of_pos (by norm_num)
    have g2 : 0 < Real.Gamma (11 / 6) := Real.Gamma_pos_of_pos (by norm_num)
    positivity
  obtain ⟨_, r, c, hr, hc, _, h⟩ := conjugated_laser_violation demoLaser (by norm_num) 90000 10000 11250 (by norm_num) (by norm_num)
    (by unfold stretched; simp only; rw [if_neg (by norm_num)]; norm_num) rfl rfl rfl rfl (by norm_num [demoLaser]) rfl 0.1 (by norm_num)
    (fun _ => rfl) (by norm_num [demoLaser]) pg hg pm hm atHalf ()
    (by unfold Obs.inside; norm_num [demoLaser, atHalf, Freq.mskIn])
    (by show kmod (0.5, 0) ≤ 1; rw [kmod_half]; norm_num) hk hpf (fun _ => meas_half)
  rw [h, h]
  apply mul_lt_mul_of_pos_left _ hr
  have e : Real.cos (2 * Real.pi * ((11250 - 10000) * (1 / 1250 * (atHalf.k ()).1 + 0 * (atHalf.k ()).2))) = -1 := by
    rw [← Real.cos_pi]; congr 1; simp only [atHalf]; ring
  have e0 : Real.cos (2 * Real.pi * ((11250 - 10000) * (0 * (atHalf.k ()).1 + 0 * (atHalf.k ()).2))) = 1 := by
    rw [← Real.cos_zero]; congr 1; simp only [atHalf]; ring
  simp only
  rw [e, e0]
  linarith

/-- Half the heights, twice the angles. -/
example (pg : Matrix (Fin 2) (Fin 2) ℂ → Matrix (Fin 2) (Fin 2) ℂ) (pm : Matrix (Fin 1) (Fin 1) ℂ → Matrix (Fin 1) (Fin 1) ℂ) :
    (stretchedBy demo (1 / 2)).residual pg pm atHalf (5e-5 / (1 / 2), 0 / (1 / 2)) () = demo.residual pg pm atHalf (5e-5, 0) () :=
  (heights_times_angles demo (1 / 2) (by norm_num) pg pm atHalf (5e-5, 0) ()).2.1

/-- One layer at 10 km, its wind of 10 m/s along 30 degrees: two frames of delay and a displacement of the target. -/
example (pg : Matrix (Fin 2) (Fin 2) ℂ → Matrix (Fin 2) (Fin 2) ℂ) (pm : Matrix (Fin 1) (Fin 1) ℂ → Matrix (Fin 1) (Fin 1) ℂ) :
    (delayed demo 0).residual pg pm atHalf
      (-(2 / 500 * 10 * Real.cos (30 * Real.pi / 180)) / 10000, -(2 / 500 * 10 * Real.sin (30 * Real.pi / 180)) / 10000) () =
    demo.residual pg pm atHalf (0, 0) () := by
  apply lag_is_displacement demo (fun _ => rfl)
  intro n
  simp only [displacement, delayed, demo]
  refine Prod.ext ?_ ?_ <;> simp only <;> ring

/-- Twice the wind at twice the rate. -/
example (pg : Matrix (Fin 2) (Fin 2) ℂ → Matrix (Fin 2) (Fin 2) ℂ) (pm : Matrix (Fin 1) (Fin 1) ℂ → Matrix (Fin 1) (Fin 1) ℂ) :
    (faster demo 2).residual pg pm atHalf (5e-5, 0) () = demo.residual pg pm atHalf (5e-5, 0) () :=
  (speed_over_rate demo 2 (by norm_num) pg pm atHalf (5e-5, 0) ()).2.1

example : (fasterSys Spectra.demo 2).psd 1 0.5 (1e-5, 0) 0 false (0.5, 0) = Spectra.demo.psd 1 0.5 (1e-5, 0) 0 false (0.5, 0) :=
  (speed_over_rate_one Spectra.demo 2 (by norm_num) 1 0.5 (1e-5, 0) 0 false (0.5, 0)).2

end P3.Geometry
