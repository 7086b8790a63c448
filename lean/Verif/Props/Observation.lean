import Verif.Props.Tomography
import Verif.Props.Psf
import Verif.Spec.Observation
/-
Properties C371-C376: equivalent descriptions of a tomographic observation.
-/
namespace P3.Observation
open Matrix P3.Tomo Spec
open scoped ComplexOrder

variable {g g' l l' lm lm' m q q' : ℕ}

/-- Summing over the parts. -/
theorem fibre_sum {a b : ℕ} {R : Type} [CommSemiring R] (φ : Fin a → Fin b) (w' : Fin a → R) (w : Fin b → R)
    (hw : ∀ n, w n = ∑ n' with φ n' = n, w' n') (F : Fin b → R) :
    ∑ n', w' n' * F (φ n') = ∑ n, w n * F n := by
  rw [← Finset.sum_fiberwise (s := Finset.univ) (g := φ)]
  refine Finset.sum_congr rfl (fun n _ => ?_)
  rw [hw n, Finset.sum_mul]
  exact Finset.sum_congr rfl (fun n' hn => by rw [(Finset.mem_filter.1 hn).2])

theorem cphi_herm (κ : ℝ) (w : Fin l → ℝ) : (cphi κ w).IsHermitian := by
  unfold cphi IsHermitian
  rw [diagonal_conjTranspose]
  congr 1; funext n; simp

theorem system_herm (B : Matrix (Fin g) (Fin l) ℂ) (C : Matrix (Fin l) (Fin l) ℂ) (N : Matrix (Fin g) (Fin g) ℂ)
    (hC : C.IsHermitian) (hN : N.IsHermitian) : (system B C N).IsHermitian :=
  (isHermitian_mul_mul_conjTranspose B hC).add hN

/-- Both ways of solving the normal equations agree. -/
theorem wtomo_eq {ι : Type} (pinv : Matrix (Fin g) (Fin g) ℂ → Matrix (Fin g) (Fin g) ℂ)
    (hp : ∀ A, A.IsHermitian → IsPinv A (pinv A)) (B : ι → Matrix (Fin g) (Fin l) ℂ)
    (C : ι → Matrix (Fin l) (Fin l) ℂ) (N : Matrix (Fin g) (Fin g) ℂ) (hC : ∀ f, (C f).IsHermitian)
    (hN : N.IsHermitian) (f : ι) :
    wtomo pinv B C N f = C f * (B f)ᴴ * pinv (B f * C f * (B f)ᴴ + N) := by
  show _ = rhs (B f) (C f) * pinv (system (B f) (C f) N)
  unfold wtomo
  split_ifs with h
  · have hu := h f
    have hX := hp _ (system_herm (B f) (C f) N (hC f) hN)
    have hY : IsPinv (system (B f) (C f) N) (system (B f) (C f) N)⁻¹ := by
      refine ⟨?_, ?_, ?_, ?_⟩ <;> simp [mul_nonsing_inv _ hu, nonsing_inv_mul _ hu]
    rw [pinv_unique _ _ _ hX hY, transpose_mul, transpose_transpose, ← transpose_nonsing_inv, transpose_transpose]
  · rfl

theorem cphiMod_eq (κ : ℝ) (o : Obs g l lm m q) : cphiMod κ o.w o.wm = cphi κ (usedWeights o) := by
  unfold cphiMod usedWeights
  split_ifs with h <;> rfl

theorem cb_herm (o : Obs g l lm m q) : o.cb.IsHermitian := by
  unfold Obs.cb IsHermitian
  rw [diagonal_conjTranspose]
  congr 1; funext n; simp

theorem tomo_eq {ι : Type} (o : Obs g l lm m q) (pg : Matrix (Fin g) (Fin g) ℂ → Matrix (Fin g) (Fin g) ℂ)
    (hp : ∀ A, A.IsHermitian → IsPinv A (pg A)) (S : Samples ι) (f : ι) :
    o.tomo pg S f = cphi (o.kern S f) (usedWeights o) * (mp o.stars o.hm (S.k f))ᴴ *
      pg (mp o.stars o.hm (S.k f) * cphi (o.kern S f) (usedWeights o) * (mp o.stars o.hm (S.k f))ᴴ + o.cb) := by
  unfold Obs.tomo
  rw [wtomo_eq pg hp _ _ _ (fun f => by rw [cphiMod_eq]; exact cphi_herm _ _) (cb_herm o)]
  simp only [cphiMod_eq]

theorem sandwich {a b c : ℕ} (X : Matrix (Fin a) (Fin c) ℂ) (Y : Matrix (Fin b) (Fin c) ℂ) (κ : ℝ) (w : Fin c → ℝ) :
    X * cphi κ w * Yᴴ = of fun i j => ∑ n, (w n : ℂ) * ((κ : ℂ) * X i n * star (Y j n)) := by
  ext i j
  rw [Matrix.mul_apply, of_apply]
  refine Finset.sum_congr rfl (fun n _ => ?_)
  rw [cphi, mul_diagonal, conjTranspose_apply]
  push_cast; ring

theorem sandwich_split {a b c c' : ℕ} (ψ : Fin c' → Fin c) (X : Matrix (Fin a) (Fin c) ℂ) (Y : Matrix (Fin b) (Fin c) ℂ)
    (X' : Matrix (Fin a) (Fin c') ℂ) (Y' : Matrix (Fin b) (Fin c') ℂ) (κ : ℝ) (w : Fin c → ℝ) (w' : Fin c' → ℝ)
    (hX : ∀ i n, X' i n = X i (ψ n)) (hY : ∀ i n, Y' i n = Y i (ψ n))
    (hw : ∀ n, w n = ∑ n' with ψ n' = n, w' n') : X' * cphi κ w' * Y'ᴴ = X * cphi κ w * Yᴴ := by
  rw [sandwich, sandwich]
  ext i j
  simp only [of_apply, hX, hY]
  exact fibre_sum ψ (fun n => (w' n : ℂ)) (fun n => (w n : ℂ)) (fun n => by rw [hw n]; push_cast; rfl)
    (fun n => (κ : ℂ) * X i n * star (Y j n))

theorem popt_cols {ι : Type} [Fintype ι] (pm : Matrix (Fin m) (Fin m) ℂ → Matrix (Fin m) (Fin m) ℂ) (M : Mirrors m q)
    (h : Fin l → ℝ) (h' : Fin l' → ℝ) (ψ : Fin l' → Fin l) (hh : ∀ n, h' n = h (ψ n)) (k : ι → ℝ × ℝ) (f : ι)
    (i : Fin m) (n : Fin l') : popt pm M h' k f i n = popt pm M h k f i (ψ n) := by
  unfold popt
  rw [Matrix.mul_apply, Matrix.mul_apply]
  refine Finset.sum_congr rfl (fun x _ => ?_)
  congr 1
  unfold crossCov
  rw [Matrix.sum_apply, Matrix.sum_apply]
  refine Finset.sum_congr rfl (fun d _ => ?_)
  simp [Matrix.mul_apply, pl, hh]

/-- C371: the correction and the spectra depend on the turbulence profile only: layers at the same height and with the same
wind may be given together or in parts, in any order, and layers without strength may be dropped. -/
theorem layers_split {ι : Type} [Fintype ι] (o' : Obs g l' lm' m q) (o : Obs g l lm m q) (φ : Fin l' → Fin l)
    (ψ : Fin lm' → Fin lm) (hs : SplitsLayers o' o φ ψ)
    (pg : Matrix (Fin g) (Fin g) ℂ → Matrix (Fin g) (Fin g) ℂ) (hp : ∀ A, A.IsHermitian → IsPinv A (pg A))
    (pm : Matrix (Fin m) (Fin m) ℂ → Matrix (Fin m) (Fin m) ℂ) (S : Samples ι) (β : ℝ × ℝ) (f : ι) :
    o'.command pg pm S f = o.command pg pm S f ∧
    o'.residual pg pm S β f = o.residual pg pm S β f ∧ o'.noisePart pg pm S β f = o.noisePart pg pm S β f := by
  have hpi : o'.piston S f = o.piston S f := by simp only [Obs.piston, hs.D]
  have hk : o'.kern S f = o.kern S f := by simp only [Obs.kern, hpi, hs.r0, hs.L0]
  have hin : o'.inside (S.k f) = o.inside (S.k f) := by simp only [Obs.inside, hs.kc, hs.circle]
  have hcb : o'.cb = o.cb := by simp only [Obs.cb, hs.noise]
  have hmp : ∀ j n, mp o'.stars o'.hm (S.k f) j n = mp o.stars o.hm (S.k f) j (ψ n) := fun j n => by
    rw [mp_apply, mp_apply, hs.stars, hs.hm]
  have hW : o'.command pg pm S f = o.command pg pm S f := by
    unfold Obs.command
    rw [tomo_eq o' pg hp, tomo_eq o pg hp, hcb, hk,
      sandwich_split ψ (mp o.stars o.hm (S.k f)) (mp o.stars o.hm (S.k f)) _ _ _ (usedWeights o) _ hmp hmp hs.wm,
      ← Matrix.mul_assoc, ← Matrix.mul_assoc, ← Matrix.mul_assoc, ← Matrix.mul_assoc,
      sandwich_split ψ (popt pm o.mirrors o.hm S.k f) (mp o.stars o.hm (S.k f)) _ _ _ (usedWeights o) _
        (fun i n => by rw [hs.mirrors]; exact popt_cols pm o.mirrors o.hm o'.hm ψ hs.hm S.k f i n) hmp hs.wm]
  refine ⟨hW, ?_, ?_⟩
  · unfold Obs.residual
    rw [residualPsd_eq, residualPsd_eq, hW, hin, hk, hpi, hs.mirrors]
    congr 3
    rw [← fibre_sum φ o'.w o.w hs.w]
    refine Finset.sum_congr rfl (fun n _ => ?_)
    have hw : windFreq o'.wind (S.k f) n = windFreq o.wind (S.k f) (φ n) := by simp only [windFreq, hs.dirDeg]
    have e1 : pBetaL o'.wind o'.h β (S.k f) 0 n = pBetaL o.wind o.h β (S.k f) 0 (φ n) := by
      simp only [pBetaL, of_apply, hs.h, hs.delay, hs.rate, hs.speed, hw]
    have e2 : ∀ j, mpAlpha o'.stars o'.wind o'.h (S.k f) j n = mpAlpha o.stars o.wind o.h (S.k f) j (φ n) := by
      intro j
      simp only [mpAlpha, of_apply, hs.h, hs.stars, hs.clock, hs.rate, hs.speed, hw]
    congr 3
    rw [e1]
    congr 1
    rw [← Matrix.mul_assoc, ← Matrix.mul_assoc, Matrix.mul_apply, Matrix.mul_apply]
    exact Finset.sum_congr rfl (fun j _ => by rw [e2])
  · unfold Obs.noisePart
    rw [hW, hin, hpi, hcb, hs.mirrors, hs.delay]

theorem kern_nonneg {ι : Type} (o : Obs g l lm m q) (h0 : 0 ≤ o.r0) (S : Samples ι) (f : ι) : 0 ≤ o.kern S f := by
  have hpf : 0 ≤ o.piston S f := by
    unfold Obs.piston
    split_ifs
    · exact le_rfl
    · exact (Psf.pistonFilter_spec _ _).1
  unfold Obs.kern kernel
  have := Real.Gamma_pos_of_pos (show (0:ℝ) < 6/5 by norm_num)
  positivity

/-- C372: several sensors on the same star are equivalent to one whose inverse noise variance is the sum of theirs; each gets
its share of the command. In particular the order of the stars does not matter. -/
theorem sensors_split {ι : Type} [Fintype ι] (o' : Obs g' l lm m q) (o : Obs g l lm m q) (φ : Fin g' → Fin g)
    (hs : SplitsSensors o' o φ) (h0 : 0 ≤ o.r0) (hw : ∀ n, 0 ≤ usedWeights o n)
    (pg : Matrix (Fin g) (Fin g) ℂ → Matrix (Fin g) (Fin g) ℂ) (hp : ∀ A, A.IsHermitian → IsPinv A (pg A))
    (pg' : Matrix (Fin g') (Fin g') ℂ → Matrix (Fin g') (Fin g') ℂ) (hp' : ∀ A, A.IsHermitian → IsPinv A (pg' A))
    (pm : Matrix (Fin m) (Fin m) ℂ → Matrix (Fin m) (Fin m) ℂ) (S : Samples ι) (β : ℝ × ℝ) (f : ι) :
    (∀ i j, o'.command pg' pm S f i j = o.command pg pm S f i (φ j) * ((o.noise (φ j) / o'.noise j : ℝ) : ℂ)) ∧
    o'.residual pg' pm S β f = o.residual pg pm S β f ∧ o'.noisePart pg' pm S β f = o.noisePart pg pm S β f := by
  have hpi : o'.piston S f = o.piston S f := by simp only [Obs.piston, hs.D]
  have hk : ∀ f, o'.kern S f = o.kern S f := fun f => by simp only [Obs.kern, Obs.piston, hs.D, hs.r0, hs.L0]
  have hin : o'.inside (S.k f) = o.inside (S.k f) := by simp only [Obs.inside, hs.kc, hs.circle]
  have huw : usedWeights o' = usedWeights o := by simp only [usedWeights, hs.w, hs.wm]
  have hratio : ∀ j, ∑ j' with φ j' = j, ((o.noise (φ j') / o'.noise j' : ℝ) : ℂ) = 1 := by
    intro j
    have h1 : ∑ j' with φ j' = j, (o.noise (φ j') / o'.noise j') = o.noise j * ∑ j' with φ j' = j, 1 / o'.noise j' := by
      rw [Finset.mul_sum]
      refine Finset.sum_congr rfl (fun j' hj => ?_)
      rw [(Finset.mem_filter.1 hj).2, mul_one_div]
    rw [← Complex.ofReal_sum, h1, ← hs.noise j, mul_one_div_cancel (hs.noisy j).ne']
    simp
  have collapse : ∀ F : Fin g → ℂ, ∑ j', ((o.noise (φ j') / o'.noise j' : ℝ) : ℂ) * F (φ j') = ∑ j, F j := by
    intro F
    rw [fibre_sum φ _ (fun _ => (1:ℂ)) (fun j => (hratio j).symm) F]
    simp
  have hmp : ∀ j n, mp o'.stars o'.hm (S.k f) j n = mp o.stars o.hm (S.k f) (φ j) n := fun j n => by
    rw [mp_apply, mp_apply, hs.d, hs.dir, hs.hm]
  have hC : ∀ f, (cphi (o.kern S f) (usedWeights o)).PosSemidef := fun f =>
    PosSemidef.diagonal (fun n => Complex.zero_le_real.2 (mul_nonneg (kern_nonneg o h0 S f) (hw n)))
  have hN : o.cb.PosDef := PosDef.diagonal (fun j => Complex.zero_lt_real.2 (hs.noisy j))
  have hN' : o'.cb.PosDef := PosDef.diagonal (fun j => Complex.zero_lt_real.2 (hs.noisy' j))
  have n1 := tomo_normal pg hp (fun f => mp o.stars o.hm (S.k f)) (fun f => cphi (o.kern S f) (usedWeights o)) o.cb
    hC hN.posSemidef f
  have n2 := tomo_normal pg' hp' (fun f => mp o'.stars o'.hm (S.k f)) (fun f => cphi (o.kern S f) (usedWeights o)) o'.cb
    hC hN'.posSemidef f
  have t1 : o.tomo pg S f = wtomo pg (fun f => mp o.stars o.hm (S.k f)) (fun f => cphi (o.kern S f) (usedWeights o)) o.cb f := by
    unfold Obs.tomo; simp only [cphiMod_eq]
  have t2 : o'.tomo pg' S f = wtomo pg' (fun f => mp o'.stars o'.hm (S.k f)) (fun f => cphi (o.kern S f) (usedWeights o))
      o'.cb f := by
    unfold Obs.tomo; simp only [cphiMod_eq, huw, hk]
  rw [← t1] at n1
  rw [← t2] at n2
  set B := mp o.stars o.hm (S.k f) with hB
  set B' := mp o'.stars o'.hm (S.k f) with hB'
  set C := cphi (o.kern S f) (usedWeights o) with hCd
  -- the candidate
  let X : Matrix (Fin lm) (Fin g') ℂ := of fun n j => o.tomo pg S f n (φ j) * ((o.noise (φ j) / o'.noise j : ℝ) : ℂ)
  have hX : X * (B' * C * B'ᴴ + o'.cb) = C * B'ᴴ := by
    ext n i
    have e : ∀ j, (B' * C * B'ᴴ) j i = (B * C * Bᴴ) (φ j) (φ i) := fun j => by
      rw [hCd, sandwich, sandwich]; simp only [of_apply, hmp]
    have r : (C * B'ᴴ) n i = (C * Bᴴ) n (φ i) := by
      simp only [hCd, cphi, diagonal_mul, conjTranspose_apply, hmp]
    rw [r, ← n1, Matrix.mul_add, Matrix.mul_add, Matrix.add_apply, Matrix.add_apply]
    congr 1
    · rw [Matrix.mul_apply, Matrix.mul_apply]
      simp only [X, of_apply, e]
      rw [← collapse (fun j => o.tomo pg S f n j * (B * C * Bᴴ) j (φ i))]
      exact Finset.sum_congr rfl (fun j _ => by ring)
    · rw [Obs.cb, Obs.cb, mul_diagonal, mul_diagonal]
      simp only [X, of_apply]
      rw [mul_assoc, ← Complex.ofReal_mul, div_mul_cancel₀ _ (hs.noisy' i).ne']
  have hA : (B' * C * B'ᴴ + o'.cb).PosDef := PosDef.posSemidef_add ((hC f).mul_mul_conjTranspose_same _) hN'
  have hu := (isUnit_iff_isUnit_det _).1 hA.isUnit
  have hXW : o'.tomo pg' S f = X := by
    have h := n2.trans hX.symm
    revert h hu
    generalize B' * C * B'ᴴ + o'.cb = A
    intro hu h
    have := congrArg (· * A⁻¹) h
    simpa only [Matrix.mul_assoc, mul_nonsing_inv _ hu, Matrix.mul_one] using this
  have hcmd : ∀ i j, o'.command pg' pm S f i j = o.command pg pm S f i (φ j) * ((o.noise (φ j) / o'.noise j : ℝ) : ℂ) := by
    intro i j
    unfold Obs.command
    rw [hXW, hs.mirrors, hs.hm, Matrix.mul_apply, Matrix.mul_apply, Finset.sum_mul]
    refine Finset.sum_congr rfl (fun n _ => ?_)
    simp only [X, of_apply]; ring
  refine ⟨hcmd, ?_, ?_⟩
  · unfold Obs.residual
    rw [residualPsd_eq, residualPsd_eq, hin, hk, hpi, hs.mirrors, hs.w]
    congr 3
    refine Finset.sum_congr rfl (fun n _ => ?_)
    have hwf : windFreq o'.wind (S.k f) n = windFreq o.wind (S.k f) n := by simp only [windFreq, hs.dirDeg]
    have e1 : pBetaL o'.wind o'.h β (S.k f) 0 n = pBetaL o.wind o.h β (S.k f) 0 n := by
      simp only [pBetaL, of_apply, hs.h, hs.delay, hs.rate, hs.speed, hwf]
    have e2 : ∀ j, mpAlpha o'.stars o'.wind o'.h (S.k f) j n = mpAlpha o.stars o.wind o.h (S.k f) (φ j) n := by
      intro j
      simp only [mpAlpha, of_apply, hs.h, hs.d, hs.dir, hs.clock, hs.rate, hs.speed, hwf]
    congr 3
    rw [e1]
    congr 1
    rw [Matrix.mul_apply, Matrix.mul_apply]
    refine Finset.sum_congr rfl (fun i _ => ?_)
    congr 1
    rw [Matrix.mul_apply, Matrix.mul_apply, ← collapse (fun j => o.command pg pm S f i j * mpAlpha o.stars o.wind o.h (S.k f) j n)]
    exact Finset.sum_congr rfl (fun j _ => by rw [e2, hcmd]; ring)
  · unfold Obs.noisePart noisePsd
    have e : ∀ (a : ℕ) (x : Obs a l lm m q), x.cb = cphi 1 x.noise := fun a x => by
      unfold Obs.cb cphi; congr 1; funext j; simp
    rw [e, e, row_quad, row_quad, hin, hpi, hs.mirrors, hs.delay]
    congr 4
    rw [← fibre_sum φ (fun j' => o.noise (φ j') ^ 2 / o'.noise j') o.noise (fun j => by
      have : ∀ j' ∈ Finset.univ.filter (fun j' => φ j' = j), o.noise (φ j') ^ 2 / o'.noise j' = o.noise j ^ 2 * (1 / o'.noise j') := by
        intro j' hj
        rw [(Finset.mem_filter.1 hj).2, mul_one_div]
      rw [Finset.sum_congr rfl this, ← Finset.mul_sum, ← hs.noise j]
      have := (hs.noisy j).ne'
      field_simp)]
    refine Finset.sum_congr rfl (fun j _ => ?_)
    have h2 : (pdm o.mirrors.h o.mirrors.kc β (S.k f) * o'.command pg' pm S f) 0 j =
        (pdm o.mirrors.h o.mirrors.kc β (S.k f) * o.command pg pm S f) 0 (φ j) * ((o.noise (φ j) / o'.noise j : ℝ) : ℂ) := by
      rw [Matrix.mul_apply, Matrix.mul_apply, Finset.sum_mul]
      exact Finset.sum_congr rfl (fun i _ => by rw [hcmd]; ring)
    rw [h2, norm_mul, mul_pow, Complex.norm_real, Real.norm_eq_abs, sq_abs]
    have := (hs.noisy' j).ne'
    field_simp

/-! ### Symmetries of the square (C373) -/

theorem act_dot (ρ : Sym) (a b : ℝ × ℝ) :
    (ρ.act a).1 * (ρ.act b).1 + (ρ.act a).2 * (ρ.act b).2 = a.1 * b.1 + a.2 * b.2 := by
  obtain ⟨s, x, y⟩ := ρ
  rcases Int.units_eq_one_or x with rfl | rfl <;> rcases Int.units_eq_one_or y with rfl | rfl <;> cases s <;>
    simp [Sym.act, add_comm]

theorem act_kmod (ρ : Sym) (k : ℝ × ℝ) : kmod (ρ.act k) = kmod k := by
  have := act_dot ρ k k
  unfold kmod
  congr 1
  nlinarith

theorem npSinc_neg (x : ℝ) : npSinc (-x) = npSinc x := by
  unfold npSinc; rw [mul_neg, Real.sinc_neg]

theorem act_meas (ρ : Sym) (d : ℝ) (k : ℝ × ℝ) : meas d (ρ.act k) = meas d k := by
  have h := act_kmod ρ k
  unfold meas
  rw [h]
  obtain ⟨s, x, y⟩ := ρ
  congr 2
  rcases Int.units_eq_one_or x with rfl | rfl <;> rcases Int.units_eq_one_or y with rfl | rfl <;> cases s <;>
    simp [Sym.act, npSinc_neg] <;> ring

theorem act_mskIn (ρ : Sym) (c : Bool) (kc : ℝ) (k : ℝ × ℝ) :
    Freq.mskIn c kc (ρ.act k).1 (ρ.act k).2 ↔ Freq.mskIn c kc k.1 k.2 := by
  have h2 : (ρ.act k).1 ^ 2 + (ρ.act k).2 ^ 2 = k.1 ^ 2 + k.2 ^ 2 := by
    have := act_dot ρ k k
    nlinarith
  unfold Freq.mskIn
  cases c
  · obtain ⟨s, x, y⟩ := ρ
    rcases Int.units_eq_one_or x with rfl | rfl <;> rcases Int.units_eq_one_or y with rfl | rfl <;> cases s <;>
      simp [Sym.act, and_comm]
  · simp only [if_true, h2]

/-- The samples transformed. -/
def turn {ι : Type} (ρ : Sym) (S : Samples ι) : Samples ι := ⟨fun f => ρ.act (S.k f), S.centre⟩

/-- C373: turning the whole observation (stars, optimisation directions, winds and target) by a quarter turn, or taking its
mirror image, turns the spectra. -/
theorem turned {ι : Type} [Fintype ι] (ρ : Sym) (o' o : Obs g l lm m q) (ht : Turned ρ o' o)
    (pg : Matrix (Fin g) (Fin g) ℂ → Matrix (Fin g) (Fin g) ℂ)
    (pm : Matrix (Fin m) (Fin m) ℂ → Matrix (Fin m) (Fin m) ℂ) (S : Samples ι) (β : ℝ × ℝ) (f : ι) :
    o'.residual pg pm ⟨fun f => ρ.act (S.k f), S.centre⟩ (ρ.act β) f = o.residual pg pm S β f ∧
    o'.noisePart pg pm ⟨fun f => ρ.act (S.k f), S.centre⟩ (ρ.act β) f = o.noisePart pg pm S β f := by
  change o'.residual pg pm (turn ρ S) (ρ.act β) f = _ ∧ o'.noisePart pg pm (turn ρ S) (ρ.act β) f = _
  have hpi : ∀ f, o'.piston (turn ρ S) f = o.piston S f := fun f => by
    simp only [Obs.piston, turn, ht.D, act_kmod]
  have hk2 : ∀ k : ℝ × ℝ, (ρ.act k).1 ^ 2 + (ρ.act k).2 ^ 2 = k.1 ^ 2 + k.2 ^ 2 := fun k => by
    have := act_dot ρ k k
    nlinarith
  have hk : ∀ f, o'.kern (turn ρ S) f = o.kern S f := fun f => by
    simp only [Obs.kern, hpi, ht.r0, ht.L0, kernel]
    rw [show (turn ρ S).k f = ρ.act (S.k f) from rfl, hk2]
  have hin : o'.inside ((turn ρ S).k f) = o.inside (S.k f) := by
    simp only [Obs.inside, ht.kc, ht.circle, turn, act_mskIn]
  have hcb : o'.cb = o.cb := by simp only [Obs.cb, ht.noise]
  have hmp : ∀ f, mp o'.stars o'.hm ((turn ρ S).k f) = mp o.stars o.hm (S.k f) := fun f => by
    ext j n
    rw [mp_apply, mp_apply, ht.d, ht.dir, ht.hm, show (turn ρ S).k f = ρ.act (S.k f) from rfl, act_meas, act_dot]
  have hpd : ∀ f (θ : ℝ × ℝ), pdm o'.mirrors.h o'.mirrors.kc (ρ.act θ) ((turn ρ S).k f) =
      pdm o.mirrors.h o.mirrors.kc θ (S.k f) := fun f θ => by
    ext i j
    simp only [pdm, of_apply, ht.mh, ht.mkc, turn, act_kmod, act_dot]
  have hpl : ∀ f (θ : ℝ × ℝ), pl o'.hm (ρ.act θ) ((turn ρ S).k f) = pl o.hm θ (S.k f) := fun f θ => by
    ext i j
    simp only [pl, of_apply, ht.hm, turn, act_dot]
  have htomo : o'.tomo pg (turn ρ S) f = o.tomo pg S f := by
    simp only [Obs.tomo, hmp, hk, hcb, ht.w, ht.wm]
  have hpop : popt pm o'.mirrors o'.hm (turn ρ S).k f = popt pm o.mirrors o.hm S.k f := by
    simp only [popt, ht.odir, hpd, hpl, ht.cond, ht.mw]
  have hcmd : o'.command pg pm (turn ρ S) f = o.command pg pm S f := by
    simp only [Obs.command, htomo, hpop]
  have hwf : ∀ n, windFreq o'.wind ((turn ρ S).k f) n = windFreq o.wind (S.k f) n := fun n => by
    have h := ht.wind n
    have h1 := congrArg Prod.fst h
    have h2 := congrArg Prod.snd h
    simp only at h1 h2
    unfold windFreq
    rw [h1, h2, show (turn ρ S).k f = ρ.act (S.k f) from rfl, act_dot]
  have hpb : pBetaL o'.wind o'.h (ρ.act β) ((turn ρ S).k f) = pBetaL o.wind o.h β (S.k f) := by
    ext i n
    simp only [pBetaL, of_apply, hwf, ht.h, ht.delay, ht.rate, ht.speed]
    rw [show (turn ρ S).k f = ρ.act (S.k f) from rfl, act_dot]
  have hma : mpAlpha o'.stars o'.wind o'.h ((turn ρ S).k f) = mpAlpha o.stars o.wind o.h (S.k f) := by
    ext j n
    simp only [mpAlpha, of_apply, hwf, ht.h, ht.clock, ht.rate, ht.speed, ht.d, ht.dir]
    rw [show (turn ρ S).k f = ρ.act (S.k f) from rfl, act_dot, act_meas]
  constructor
  · simp only [Obs.residual, hin, hpb, hpd, hcmd, hma, hk, hpi, ht.w]
  · simp only [Obs.noisePart, hin, hpd, hcmd, hcb, hpi, ht.delay]

/-! ### Opposite frequencies (C374) -/

/-- Entry-wise conjugate. -/
noncomputable def cj {a b : ℕ} (A : Matrix (Fin a) (Fin b) ℂ) : Matrix (Fin a) (Fin b) ℂ := A.map (starRingEnd ℂ)

theorem cj_mul {a b c : ℕ} (A : Matrix (Fin a) (Fin b) ℂ) (B : Matrix (Fin b) (Fin c) ℂ) : cj (A * B) = cj A * cj B :=
  Matrix.map_mul

theorem cj_add {a b : ℕ} (A B : Matrix (Fin a) (Fin b) ℂ) : cj (A + B) = cj A + cj B := by
  ext; simp [cj]

theorem cj_cj {a b : ℕ} (A : Matrix (Fin a) (Fin b) ℂ) : cj (cj A) = A := by
  ext; simp [cj]

theorem cj_ct {a b : ℕ} (A : Matrix (Fin a) (Fin b) ℂ) : cj Aᴴ = (cj A)ᴴ := by
  ext; simp [cj, conjTranspose_apply]

theorem cj_t {a b : ℕ} (A : Matrix (Fin a) (Fin b) ℂ) : cj Aᵀ = (cj A)ᵀ := by
  ext; simp [cj]

theorem cj_one {a : ℕ} : cj (1 : Matrix (Fin a) (Fin a) ℂ) = 1 := by
  ext i j; by_cases h : i = j <;> simp [cj, h, Matrix.one_apply]

theorem cj_herm {a : ℕ} (A : Matrix (Fin a) (Fin a) ℂ) (h : A.IsHermitian) : (cj A).IsHermitian := by
  unfold IsHermitian; rw [← cj_ct, h.eq]

theorem cj_pinv {a : ℕ} (pinv : Matrix (Fin a) (Fin a) ℂ → Matrix (Fin a) (Fin a) ℂ)
    (hp : ∀ A, A.IsHermitian → IsPinv A (pinv A)) (A : Matrix (Fin a) (Fin a) ℂ) (hA : A.IsHermitian) :
    pinv (cj A) = cj (pinv A) := by
  have h := hp A hA
  refine pinv_unique _ _ _ (hp _ (cj_herm A hA)) ⟨?_, ?_, ?_, ?_⟩
  · rw [← cj_mul, ← cj_mul, h.axa]
  · rw [← cj_mul, ← cj_mul, h.xax]
  · rw [← cj_mul, ← cj_ct, h.ax]
  · rw [← cj_mul, ← cj_ct, h.xa]

theorem cj_det {a : ℕ} (A : Matrix (Fin a) (Fin a) ℂ) : (cj A).det = starRingEnd ℂ A.det := by
  unfold cj
  rw [RingHom.map_det]; rfl

theorem cj_inv {a : ℕ} (A : Matrix (Fin a) (Fin a) ℂ) (h : IsUnit A.det) : (cj A)⁻¹ = cj A⁻¹ := by
  apply Matrix.inv_eq_right_inv
  rw [← cj_mul, mul_nonsing_inv _ h, cj_one]

theorem phasor_neg (x : ℝ) : phasor (-x) = starRingEnd ℂ (phasor x) := by
  unfold phasor
  rw [← Complex.exp_conj]
  congr 1
  rw [map_mul, Complex.conj_I, Complex.conj_ofReal]
  push_cast; ring

theorem meas_conj (d : ℝ) (k : ℝ × ℝ) : meas d (-k) = -starRingEnd ℂ (meas d k) := by
  unfold meas
  rw [map_mul, Complex.conj_I, Complex.conj_ofReal]
  have : kmod (-k) = kmod k := by simp [kmod]
  rw [this, Prod.fst_neg, Prod.snd_neg, mul_neg, mul_neg, npSinc_neg, npSinc_neg]
  ring

theorem mirrorCov_herm (w : Fin q → ℝ) (p : Fin q → Matrix (Fin 1) (Fin m) ℂ) : (mirrorCov w p).IsHermitian := by
  unfold mirrorCov IsHermitian
  rw [conjTranspose_sum]
  refine Finset.sum_congr rfl (fun d _ => ?_)
  rw [conjTranspose_smul, conjTranspose_mul, conjTranspose_conjTranspose]
  simp

theorem pdm_cj (h kc : Fin m → ℝ) (θ k : ℝ × ℝ) : pdm h kc θ (-k) = cj (pdm h kc θ k) := by
  ext i j
  have e : kmod (-k) = kmod k := by simp [kmod]
  simp only [pdm, cj, of_apply, map_apply, e]
  split_ifs with hc
  · rw [← phasor_neg]; congr 1; simp; ring
  · simp

theorem invCov_cj {ι : Type} [Fintype ι] (cond : ℝ) (pm : Matrix (Fin m) (Fin m) ℂ → Matrix (Fin m) (Fin m) ℂ)
    (hp : ∀ A, A.IsHermitian → IsPinv A (pm A)) (T : ι → Matrix (Fin m) (Fin m) ℂ) (hT : ∀ f, (T f).IsHermitian)
    (σ : ι → ι) (hσ : ∀ f, σ (σ f) = f) (hTσ : ∀ f, T (σ f) = cj (T f)) (f : ι) :
    invCov q cond pm T (σ f) = cj (invCov q cond pm T f) := by
  have hl : starRingEnd ℂ (lambdaReg cond T) = lambdaReg cond T := by
    unfold lambdaReg
    rw [map_mul, map_div₀, Complex.conj_ofReal, map_natCast, map_sum]
    congr 2
    let e : Equiv.Perm ι := ⟨σ, σ, hσ, hσ⟩
    rw [← Equiv.sum_comp e (fun f => ((T f)ᵀ * T f).trace)]
    refine Finset.sum_congr rfl (fun f _ => ?_)
    show _ = ((T (σ f))ᵀ * T (σ f)).trace
    rw [hTσ, ← cj_t, ← cj_mul, Matrix.trace, Matrix.trace, map_sum]
    exact Finset.sum_congr rfl (fun _ _ => rfl)
  have hA : ∀ f, (T (σ f))ᵀ * T (σ f) + lambdaReg cond T • (1 : Matrix (Fin m) (Fin m) ℂ) =
      cj ((T f)ᵀ * T f + lambdaReg cond T • (1 : Matrix (Fin m) (Fin m) ℂ)) := fun f => by
    rw [cj_add, cj_mul, cj_t, hTσ]
    congr 1
    ext i j
    by_cases h : i = j <;> simp [cj, h, hl, Matrix.one_apply]
  unfold invCov
  split_ifs with hq hu
  · rw [hTσ, cj_pinv pm hp _ (hT f)]
  · rw [hA, cj_inv _ (hu f), cj_mul, cj_t, hTσ]
  · rw [hTσ, cj_pinv pm hp _ (hT f)]

/-- C374: the spectra of the residual phase, which is real, are the same at opposite frequencies. -/
theorem opposite {ι : Type} [Fintype ι] (o : Obs g l lm m q)
    (pg : Matrix (Fin g) (Fin g) ℂ → Matrix (Fin g) (Fin g) ℂ) (hg : ∀ A, A.IsHermitian → IsPinv A (pg A))
    (pm : Matrix (Fin m) (Fin m) ℂ → Matrix (Fin m) (Fin m) ℂ) (hm : ∀ A, A.IsHermitian → IsPinv A (pm A))
    (S : Samples ι) (σ : ι → ι) (hσ : ∀ f, σ (σ f) = f) (hk : ∀ f, S.k (σ f) = -S.k f)
    (hc : ∀ f, S.centre (σ f) = S.centre f) (β : ℝ × ℝ) (f : ι) :
    o.residual pg pm S β (σ f) = o.residual pg pm S β f ∧ o.noisePart pg pm S β (σ f) = o.noisePart pg pm S β f := by
  have hkm : ∀ f, kmod (S.k (σ f)) = kmod (S.k f) := fun f => by rw [hk]; simp [kmod]
  have hpi : o.piston S (σ f) = o.piston S f := by simp only [Obs.piston, hc, hkm]
  have hκ : o.kern S (σ f) = o.kern S f := by
    simp only [Obs.kern, hpi, kernel, hk]; simp
  have hin : o.inside (S.k (σ f)) = o.inside (S.k f) := by
    have : Freq.mskIn o.circle o.kc (S.k (σ f)).1 (S.k (σ f)).2 ↔ Freq.mskIn o.circle o.kc (S.k f).1 (S.k f).2 := by
      simp only [hk, Freq.mskIn, Prod.fst_neg, Prod.snd_neg, neg_sq, abs_neg]
    simp only [Obs.inside, this]
  have hmp : mp o.stars o.hm (S.k (σ f)) = -cj (mp o.stars o.hm (S.k f)) := by
    ext j n
    rw [Matrix.neg_apply, cj, map_apply, mp_apply, mp_apply, hk, meas_conj, map_mul, ← phasor_neg, neg_mul]
    congr 3; simp only [Prod.fst_neg, Prod.snd_neg]; ring
  have hC : ∀ κ, cj (cphi κ (usedWeights o)) = cphi κ (usedWeights o) := fun κ => by
    ext i j
    by_cases h : i = j <;> simp [cj, cphi, h]
  have hN : cj o.cb = o.cb := by
    ext i j
    by_cases h : i = j <;> simp [cj, Obs.cb, h]
  have htomo : o.tomo pg S (σ f) = -cj (o.tomo pg S f) := by
    rw [tomo_eq o pg hg, tomo_eq o pg hg, hmp, hκ]
    set B := mp o.stars o.hm (S.k f)
    set C := cphi (o.kern S f) (usedWeights o) with hCdef
    have e1 : -cj B * C * (-cj B)ᴴ + o.cb = cj (B * C * Bᴴ + o.cb) := by
      rw [cj_add, cj_mul, cj_mul, hC, hN, cj_ct, conjTranspose_neg, Matrix.neg_mul, Matrix.neg_mul, Matrix.mul_neg, neg_neg]
    rw [e1, cj_pinv pg hg (B * C * Bᴴ + o.cb) (system_herm B C o.cb (cphi_herm _ _) (cb_herm o)), cj_mul, cj_mul, hC, cj_ct, conjTranspose_neg,
      Matrix.mul_neg, Matrix.neg_mul]
  have hpop : popt pm o.mirrors o.hm S.k (σ f) = cj (popt pm o.mirrors o.hm S.k f) := by
    unfold popt
    rw [invCov_cj o.mirrors.cond pm hm _ (fun f => mirrorCov_herm _ _) σ hσ, cj_mul]
    · congr 1
      ext i n
      unfold crossCov cj
      rw [map_apply, Matrix.sum_apply, Matrix.sum_apply, map_sum]
      refine Finset.sum_congr rfl (fun d _ => ?_)
      have e : pl o.hm (o.mirrors.dir d) (-S.k f) = cj (pl o.hm (o.mirrors.dir d) (S.k f)) := by
        ext i j
        simp only [pl, cj, of_apply, map_apply]
        rw [← phasor_neg]; congr 1; simp; ring
      simp only
      rw [hk, pdm_cj, e, ← cj_ct, ← cj_mul, Matrix.smul_apply, Matrix.smul_apply, cj, map_apply, smul_eq_mul, smul_eq_mul,
        map_mul, Complex.conj_ofReal]
    · intro f
      unfold mirrorCov
      ext i j
      rw [cj, map_apply, Matrix.sum_apply, Matrix.sum_apply, map_sum]
      refine Finset.sum_congr rfl (fun d _ => ?_)
      simp only
      rw [hk, pdm_cj, ← cj_ct, ← cj_mul, Matrix.smul_apply, Matrix.smul_apply, cj, map_apply, smul_eq_mul, smul_eq_mul,
        map_mul, Complex.conj_ofReal]
  have hcmd : o.command pg pm S (σ f) = -cj (o.command pg pm S f) := by
    unfold Obs.command
    rw [hpop, htomo, cj_mul, Matrix.mul_neg]
  have hpd : pdm o.mirrors.h o.mirrors.kc β (S.k (σ f)) = cj (pdm o.mirrors.h o.mirrors.kc β (S.k f)) := by
    rw [hk, pdm_cj]
  have hwf : ∀ n, windFreq o.wind (S.k (σ f)) n = -windFreq o.wind (S.k f) n := fun n => by
    rw [hk]; simp [windFreq]; ring
  constructor
  · unfold Obs.residual
    rw [residualPsd_eq, residualPsd_eq, hin, hκ, hpi]
    congr 3
    refine Finset.sum_congr rfl (fun n _ => ?_)
    congr 2
    have e1 : pBetaL o.wind o.h β (S.k (σ f)) 0 n = starRingEnd ℂ (pBetaL o.wind o.h β (S.k f) 0 n) := by
      simp only [pBetaL, of_apply, hwf]
      rw [← phasor_neg, hk]; congr 1; simp; ring
    have e2 : mpAlpha o.stars o.wind o.h (S.k (σ f)) = -cj (mpAlpha o.stars o.wind o.h (S.k f)) := by
      ext j n
      simp only [mpAlpha, cj, of_apply, Matrix.neg_apply, map_apply, hwf]
      rw [mul_neg, npSinc_neg, map_mul, map_mul, Complex.conj_ofReal, ← phasor_neg, hk, meas_conj]
      rw [neg_mul, neg_mul]
      congr 3; simp; ring
    rw [e1, hpd, hcmd, e2, Matrix.neg_mul, Matrix.mul_neg (cj (o.command pg pm S f)), neg_neg, ← cj_mul, ← cj_mul, cj, map_apply, ← map_sub,
      RCLike.norm_conj]
  · unfold Obs.noisePart noisePsd
    have e : o.cb = cphi 1 o.noise := by
      unfold Obs.cb cphi; congr 1; funext j; simp
    rw [e, row_quad, row_quad, hin, hpi]
    congr 4
    refine Finset.sum_congr rfl (fun j _ => ?_)
    rw [hpd, hcmd, Matrix.mul_neg, ← cj_mul, Matrix.neg_apply, norm_neg, cj, map_apply, RCLike.norm_conj]

/-! ### Optimisation directions (C375) -/

theorem mirrorCov_split (φ : Fin q' → Fin q) (w' : Fin q' → ℝ) (w : Fin q → ℝ)
    (hw : ∀ d, w d = ∑ d' with φ d' = d, w' d') (p : Fin q → Matrix (Fin 1) (Fin m) ℂ)
    (a : Fin q → Matrix (Fin 1) (Fin l) ℂ) :
    crossCov w' (fun d => p (φ d)) (fun d => a (φ d)) = crossCov w p a ∧ mirrorCov w' (fun d => p (φ d)) = mirrorCov w p := by
  constructor
  · ext i j
    unfold crossCov
    rw [Matrix.sum_apply, Matrix.sum_apply]
    exact fibre_sum φ (fun d => (w' d : ℂ)) (fun d => (w d : ℂ)) (fun d => by rw [hw d]; push_cast; rfl)
      (fun d => ((p d)ᴴ * a d) i j)
  · ext i j
    unfold mirrorCov
    rw [Matrix.sum_apply, Matrix.sum_apply]
    exact fibre_sum φ (fun d => (w' d : ℂ)) (fun d => (w d : ℂ)) (fun d => by rw [hw d]; push_cast; rfl)
      (fun d => ((p d)ᴴ * p d) i j)

/-- C375 (partial): optimisation directions may be given several times or in another order. Missing: from one direction to
several (`one_direction_twice_violation`). -/
theorem directions_split_partial {ι : Type} [Fintype ι] (o' : Obs g l lm m q') (o : Obs g l lm m q) (φ : Fin q' → Fin q)
    (hs : SplitsDirections o' o φ) (hq : q = 1 ↔ q' = 1)
    (pg : Matrix (Fin g) (Fin g) ℂ → Matrix (Fin g) (Fin g) ℂ)
    (pm : Matrix (Fin m) (Fin m) ℂ → Matrix (Fin m) (Fin m) ℂ) (S : Samples ι) (β : ℝ × ℝ) (f : ι) :
    o'.command pg pm S f = o.command pg pm S f ∧
    o'.residual pg pm S β f = o.residual pg pm S β f ∧ o'.noisePart pg pm S β f = o.noisePart pg pm S β f := by
  have hpi : ∀ f, o'.piston S f = o.piston S f := fun f => by simp only [Obs.piston, hs.D]
  have hk : ∀ f, o'.kern S f = o.kern S f := fun f => by simp only [Obs.kern, hpi, hs.r0, hs.L0]
  have hin : o'.inside (S.k f) = o.inside (S.k f) := by simp only [Obs.inside, hs.kc, hs.circle]
  have hcb : o'.cb = o.cb := by simp only [Obs.cb, hs.noise]
  have htomo : o'.tomo pg S f = o.tomo pg S f := by
    simp only [Obs.tomo, hs.stars, hs.hm, hk, hs.w, hs.wm, hcb]
  have hpop : popt pm o'.mirrors o'.hm S.k f = popt pm o.mirrors o.hm S.k f := by
    have h := fun k => mirrorCov_split φ o'.mirrors.w o.mirrors.w hs.ow (fun d => pdm o.mirrors.h o.mirrors.kc (o.mirrors.dir d) k)
      (fun d => pl o.hm (o.mirrors.dir d) k)
    simp only [popt, hs.mh, hs.mkc, hs.dir, hs.hm, hs.cond]
    simp only [(h _).1, (h _).2]
    unfold invCov
    simp only [hq]
  have hcmd : o'.command pg pm S f = o.command pg pm S f := by simp only [Obs.command, htomo, hpop]
  refine ⟨hcmd, ?_, ?_⟩
  · simp only [Obs.residual, hin, hcmd, hs.wind, hs.h, hs.mh, hs.mkc, hs.stars, hk, hs.w, hpi]
  · simp only [Obs.noisePart, hin, hcmd, hs.wind, hs.mh, hs.mkc, hpi, hcb]

/-- The fraction of the samples within the cut-off frequency of the only mirror. -/
noncomputable def reach {ι : Type} [Fintype ι] (o : Obs g l lm 1 q) (S : Samples ι) : ℝ :=
  (Finset.univ.filter fun f => kmod (S.k f) ≤ o.mirrors.kc 0).card / (Fintype.card ι : ℝ)

theorem pinv_scalar (pm : Matrix (Fin 1) (Fin 1) ℂ → Matrix (Fin 1) (Fin 1) ℂ) (hm : ∀ A, A.IsHermitian → IsPinv A (pm A))
    (t : ℝ) : pm ((t : ℂ) • (1 : Matrix (Fin 1) (Fin 1) ℂ)) = ((t⁻¹ : ℝ) : ℂ) • 1 := by
  have hh : ((t : ℂ) • (1 : Matrix (Fin 1) (Fin 1) ℂ)).IsHermitian := by
    unfold IsHermitian; rw [conjTranspose_smul, conjTranspose_one]; simp
  have e : ∀ x y : ℂ, (x • (1 : Matrix (Fin 1) (Fin 1) ℂ)) * (y • (1 : Matrix (Fin 1) (Fin 1) ℂ)) = (x * y) • 1 := fun x y => by
    rw [Matrix.smul_mul, Matrix.mul_smul, smul_smul, Matrix.one_mul]
  refine pinv_unique _ _ _ (hm _ hh) ⟨?_, ?_, ?_, ?_⟩
  · rw [e, e]; congr 1
    by_cases h : t = 0 <;> simp [h]
  · rw [e, e]; congr 1
    by_cases h : t = 0 <;> simp [h]
  · rw [e, conjTranspose_smul, conjTranspose_one]; simp
  · rw [e, conjTranspose_smul, conjTranspose_one]; simp

/-- C375 (violation): with one mirror, giving the only optimisation direction twice with half the weight reduces the commands
by a factor that depends on the conditioning and on the fraction of the samples within the cut-off of the mirror. -/
theorem one_direction_twice_violation {ι : Type} [Fintype ι] (o' : Obs g l lm 1 q') (o : Obs g l lm 1 1)
    (φ : Fin q' → Fin 1) (hs : SplitsDirections o' o φ) (hq : q' ≠ 1) (hw : 0 < o.mirrors.w 0) (hc : 0 < o.mirrors.cond)
    (pg : Matrix (Fin g) (Fin g) ℂ → Matrix (Fin g) (Fin g) ℂ)
    (pm : Matrix (Fin 1) (Fin 1) ℂ → Matrix (Fin 1) (Fin 1) ℂ) (hm : ∀ A, A.IsHermitian → IsPinv A (pm A))
    (S : Samples ι) (f : ι) :
    o'.command pg pm S f = ((1 / (1 + reach o S / o.mirrors.cond) : ℝ) : ℂ) • o.command pg pm S f := by
  have hpi : ∀ f, o'.piston S f = o.piston S f := fun f => by simp only [Obs.piston, hs.D]
  have hk : ∀ f, o'.kern S f = o.kern S f := fun f => by simp only [Obs.kern, hpi, hs.r0, hs.L0]
  have hcb : o'.cb = o.cb := by simp only [Obs.cb, hs.noise]
  have htomo : o'.tomo pg S f = o.tomo pg S f := by
    simp only [Obs.tomo, hs.stars, hs.hm, hk, hs.w, hs.wm, hcb]
  set T : ι → Matrix (Fin 1) (Fin 1) ℂ :=
    fun f => mirrorCov o.mirrors.w (fun d => pdm o.mirrors.h o.mirrors.kc (o.mirrors.dir d) (S.k f)) with hT
  set t : ι → ℝ := fun f => if kmod (S.k f) ≤ o.mirrors.kc 0 then o.mirrors.w 0 else 0 with ht
  have hTt : ∀ f, T f = (t f : ℂ) • 1 := by
    intro f
    ext i j
    rw [Subsingleton.elim i 0, Subsingleton.elim j 0]
    simp only [hT, mirrorCov, Fin.sum_univ_one, Matrix.smul_apply, Matrix.mul_apply, conjTranspose_apply, pdm, of_apply,
      one_apply_eq, smul_eq_mul, mul_one, ht]
    split_ifs with h
    · rw [RCLike.star_def, Complex.conj_mul', norm_phasor]; simp
    · simp
  have hpop : popt pm o'.mirrors o'.hm S.k f = invCov q' o.mirrors.cond pm T f *
      crossCov o.mirrors.w (fun d => pdm o.mirrors.h o.mirrors.kc (o.mirrors.dir d) (S.k f))
        (fun d => pl o.hm (o.mirrors.dir d) (S.k f)) := by
    have h := fun k => mirrorCov_split φ o'.mirrors.w o.mirrors.w hs.ow (fun d => pdm o.mirrors.h o.mirrors.kc (o.mirrors.dir d) k)
      (fun d => pl o.hm (o.mirrors.dir d) k)
    simp only [popt, hs.mh, hs.mkc, hs.dir, hs.hm, hs.cond]
    simp only [(h _).1, (h _).2, hT]
  have key : invCov q' o.mirrors.cond pm T f = ((1 / (1 + reach o S / o.mirrors.cond) : ℝ) : ℂ) • pm (T f) := by
    have htt : ∀ f, (T f)ᵀ * T f = ((t f ^ 2 : ℝ) : ℂ) • 1 := fun f => by
      rw [hTt, transpose_smul, transpose_one, Matrix.smul_mul, Matrix.mul_smul, smul_smul, Matrix.one_mul]
      push_cast; rw [pow_two]
    have hl : lambdaReg o.mirrors.cond T = ((o.mirrors.w 0 ^ 2 * (reach o S / o.mirrors.cond) : ℝ) : ℂ) := by
      unfold lambdaReg
      have hsum : ∑ f, ((T f)ᵀ * T f).trace =
          ((o.mirrors.w 0 ^ 2 * ((Finset.univ.filter fun f => kmod (S.k f) ≤ o.mirrors.kc 0).card : ℝ) : ℝ) : ℂ) := by
        have : ∀ f, ((T f)ᵀ * T f).trace = (((if kmod (S.k f) ≤ o.mirrors.kc 0 then o.mirrors.w 0 ^ 2 else 0) : ℝ) : ℂ) := by
          intro f
          rw [htt, trace_smul, trace_one]
          simp only [ht, Fintype.card_fin, Nat.cast_one, smul_eq_mul, mul_one]
          split_ifs <;> simp
        rw [Finset.sum_congr rfl (fun f _ => this f), ← Complex.ofReal_sum, ← Finset.sum_filter, Finset.sum_const, nsmul_eq_mul,
          mul_comm]
      rw [hsum, mul_one, reach]
      push_cast
      ring
    by_cases hin : kmod (S.k f) ≤ o.mirrors.kc 0
    · have hcard : 0 < Fintype.card ι := Fintype.card_pos_iff.2 ⟨f⟩
      have hr : 0 < reach o S := by
        unfold reach
        apply div_pos
        · exact_mod_cast Finset.card_pos.2 ⟨f, by simp [hin]⟩
        · exact_mod_cast hcard
      have hlp : 0 < o.mirrors.w 0 ^ 2 * (reach o S / o.mirrors.cond) := by positivity
      have hu : ∀ f, IsUnit ((T f)ᵀ * T f + lambdaReg o.mirrors.cond T • (1 : Matrix (Fin 1) (Fin 1) ℂ)).det := fun f => by
        rw [hl]
        exact tikhonov_isUnit _ (mirrorCov_posSemidef _ (fun d => by rw [Subsingleton.elim d 0]; exact hw.le) _) _ hlp
      have htf : t f = o.mirrors.w 0 := by simp only [ht, if_pos hin]
      unfold invCov
      rw [if_neg hq, if_pos hu, hTt f, pinv_scalar pm hm]
      have hA : ((t f : ℂ) • (1 : Matrix (Fin 1) (Fin 1) ℂ))ᵀ * ((t f : ℂ) • (1 : Matrix (Fin 1) (Fin 1) ℂ)) +
          lambdaReg o.mirrors.cond T • (1 : Matrix (Fin 1) (Fin 1) ℂ) =
          ((t f ^ 2 + o.mirrors.w 0 ^ 2 * (reach o S / o.mirrors.cond) : ℝ) : ℂ) • 1 := by
        rw [← hTt f, htt, hl, ← add_smul]; push_cast; rfl
      rw [hA]
      have hinv : (((t f ^ 2 + o.mirrors.w 0 ^ 2 * (reach o S / o.mirrors.cond) : ℝ) : ℂ) • (1 : Matrix (Fin 1) (Fin 1) ℂ))⁻¹ =
          (((t f ^ 2 + o.mirrors.w 0 ^ 2 * (reach o S / o.mirrors.cond))⁻¹ : ℝ) : ℂ) • 1 := by
        apply Matrix.inv_eq_right_inv
        rw [Matrix.smul_mul, Matrix.mul_smul, smul_smul, Matrix.one_mul, ← Complex.ofReal_mul, mul_inv_cancel₀ (by positivity)]
        simp
      rw [hinv, transpose_smul, transpose_one, Matrix.smul_mul, Matrix.mul_smul, smul_smul, Matrix.one_mul, smul_smul,
        ← Complex.ofReal_mul, ← Complex.ofReal_mul]
      congr 2
      rw [htf]
      field_simp
    · have htf : t f = 0 := by simp only [ht, if_neg hin]
      have hT0 : T f = 0 := by rw [hTt, htf]; simp
      have hp0 : pm (0 : Matrix (Fin 1) (Fin 1) ℂ) = 0 := by
        have := pinv_scalar pm hm 0
        simpa using this
      unfold invCov
      rw [if_neg hq, hT0, hp0, transpose_zero, Matrix.mul_zero, smul_zero]
      split_ifs <;> rfl
  unfold Obs.command
  rw [htomo, hpop, key]
  unfold popt invCov
  rw [if_pos rfl, Matrix.smul_mul, Matrix.smul_mul]

/-! ### Science wavelength (C376) -/

theorem pinv_smul {a : ℕ} (pinv : Matrix (Fin a) (Fin a) ℂ → Matrix (Fin a) (Fin a) ℂ)
    (hp : ∀ A, A.IsHermitian → IsPinv A (pinv A)) (A : Matrix (Fin a) (Fin a) ℂ) (hA : A.IsHermitian) (x : ℝ) (hx : x ≠ 0) :
    pinv ((x : ℂ) • A) = ((x⁻¹ : ℝ) : ℂ) • pinv A := by
  have h := hp A hA
  have hh : ((x : ℂ) • A).IsHermitian := by
    unfold IsHermitian; rw [conjTranspose_smul, hA.eq]; simp
  have e : ∀ X Y : Matrix (Fin a) (Fin a) ℂ, ((x : ℂ) • X) * (((x⁻¹ : ℝ) : ℂ) • Y) = X * Y := fun X Y => by
    rw [Matrix.smul_mul, Matrix.mul_smul, smul_smul, ← Complex.ofReal_mul, mul_inv_cancel₀ hx]; simp
  have e' : ∀ X Y : Matrix (Fin a) (Fin a) ℂ, (((x⁻¹ : ℝ) : ℂ) • X) * ((x : ℂ) • Y) = X * Y := fun X Y => by
    rw [Matrix.smul_mul, Matrix.mul_smul, smul_smul, ← Complex.ofReal_mul, inv_mul_cancel₀ hx]; simp
  refine pinv_unique _ _ _ (hp _ hh) ⟨?_, ?_, ?_, ?_⟩
  · rw [e, Matrix.mul_smul, h.axa]
  · rw [e', Matrix.mul_smul, h.xax]
  · rw [e, h.ax]
  · rw [e', h.xa]

/-- C376: the commands and the wavefront errors in nanometres do not depend on the science wavelength, when the noise is
computed by the model. -/
theorem wavelength_free {ι : Type} [Fintype ι] (o : Obs g l lm m q) (h0 : 0 < o.r0) (wvl wvl' : ℝ) (hl : 0 < wvl) (hl' : 0 < wvl')
    (pg : Matrix (Fin g) (Fin g) ℂ → Matrix (Fin g) (Fin g) ℂ) (hp : ∀ A, A.IsHermitian → IsPinv A (pg A))
    (pm : Matrix (Fin m) (Fin m) ℂ → Matrix (Fin m) (Fin m) ℂ) (S : Samples ι) (β : ℝ × ℝ) (f : ι) :
    (atWavelength o wvl wvl').command pg pm S f = o.command pg pm S f ∧
    inNm wvl' ((atWavelength o wvl wvl').residual pg pm S β f) = inNm wvl (o.residual pg pm S β f) ∧
    inNm wvl' ((atWavelength o wvl wvl').noisePart pg pm S β f) = inNm wvl (o.noisePart pg pm S β f) := by
  set o' := atWavelength o wvl wvl' with ho
  set a : ℝ := (wvl / wvl') ^ 2 with ha
  have hap : 0 < a := by positivity
  have hk : o'.kern S f = a * o.kern S f := by
    have e : o'.r0 ^ (-(5:ℝ)/3) = a * o.r0 ^ (-(5:ℝ)/3) := by
      show (o.r0 * (wvl' / wvl) ^ (1.2 : ℝ)) ^ (-(5:ℝ)/3) = _
      rw [Real.mul_rpow h0.le (by positivity), ← Real.rpow_mul (by positivity), mul_comm]
      congr 1
      rw [ha, show (1.2 : ℝ) * (-(5:ℝ)/3) = -(2:ℕ) by norm_num, Real.rpow_neg (by positivity), Real.rpow_natCast, ← inv_pow,
        inv_div]
    show kernel o'.r0 o.L0 (o.piston S f) (S.k f) = _
    unfold Obs.kern kernel
    rw [e]; ring
  have hcphi : ∀ (n : ℕ) (w : Fin n → ℝ), cphi (o'.kern S f) w = (a : ℂ) • cphi (o.kern S f) w := fun n w => by
    ext i j
    by_cases h : i = j
    · subst h
      simp only [cphi, diagonal_apply_eq, Matrix.smul_apply, smul_eq_mul, hk]; push_cast; ring
    · simp [cphi, h]
  have hcb : o'.cb = (a : ℂ) • o.cb := by
    ext i j
    by_cases h : i = j
    · subst h
      simp only [Obs.cb, diagonal_apply_eq, Matrix.smul_apply, smul_eq_mul]
      show ((o.noise i * (wvl / wvl') ^ 2 : ℝ) : ℂ) = _
      rw [ha]; push_cast; ring
    · simp [Obs.cb, h]
  have htomo : o'.tomo pg S f = o.tomo pg S f := by
    rw [tomo_eq o' pg hp, tomo_eq o pg hp, hcphi, hcb]
    show (a : ℂ) • cphi (o.kern S f) (usedWeights o) * (mp o.stars o.hm (S.k f))ᴴ *
      pg (mp o.stars o.hm (S.k f) * (a : ℂ) • cphi (o.kern S f) (usedWeights o) * (mp o.stars o.hm (S.k f))ᴴ + (a : ℂ) • o.cb) = _
    have e : mp o.stars o.hm (S.k f) * (a : ℂ) • cphi (o.kern S f) (usedWeights o) * (mp o.stars o.hm (S.k f))ᴴ + (a : ℂ) • o.cb
        = (a : ℂ) • (mp o.stars o.hm (S.k f) * cphi (o.kern S f) (usedWeights o) * (mp o.stars o.hm (S.k f))ᴴ + o.cb) := by
      rw [smul_add, Matrix.mul_smul, Matrix.smul_mul]
    rw [e, pinv_smul pg hp (mp o.stars o.hm (S.k f) * cphi (o.kern S f) (usedWeights o) * (mp o.stars o.hm (S.k f))ᴴ + o.cb)
      (system_herm _ _ _ (cphi_herm _ _) (cb_herm o)) a hap.ne', Matrix.smul_mul, Matrix.smul_mul,
      Matrix.mul_smul, smul_smul, ← Complex.ofReal_mul, mul_inv_cancel₀ hap.ne']
    simp
  have hcmd : o'.command pg pm S f = o.command pg pm S f := by
    unfold Obs.command
    rw [htomo]; rfl
  have hnm : ∀ x, inNm wvl' (a * x) = inNm wvl x := fun x => by
    unfold inNm
    rw [ha]; field_simp
  refine ⟨hcmd, ?_, ?_⟩
  · rw [← hnm]
    congr 1
    unfold Obs.residual
    rw [residualPsd_eq, residualPsd_eq, hk, hcmd]
    show _ * (a * o.kern S f * ∑ n, o.w n * _) * o.piston S f = _
    rw [mul_assoc a]
    simp only [← mul_assoc, mul_comm _ a]
    rfl
  · rw [← hnm]
    congr 1
    unfold Obs.noisePart noisePsd
    rw [hcmd, hcb, Matrix.smul_mul, Matrix.mul_smul, Matrix.smul_apply, smul_eq_mul, Complex.re_ofReal_mul]
    simp only [← mul_assoc, mul_comm _ a]
    rfl

/-! ### Cases that meet the hypotheses -/

/-- Two stars, one layer at 10 km, one mirror optimised in two directions. -/
noncomputable def demo : Obs 2 1 1 1 2 where
  stars := ⟨fun _ => 0.5, fun j => if j = 0 then (1e-4, 0) else (-1e-4, 2e-5)⟩
  wind := ⟨fun _ => 10, fun _ => 30, fun _ => 1, 500, 2⟩
  mirrors := ⟨fun _ => 0, fun _ => 1, fun d => if d = 0 then (0, 0) else (1e-4, 0), fun _ => 0.5, 100⟩
  h := fun _ => 10000
  w := fun _ => 1
  hm := fun _ => 10000
  wm := fun _ => 1
  noise := fun _ => 0.1
  r0 := 0.15
  L0 := 25
  D := 8
  kc := 1
  circle := true

/-- The layer in two parts. -/
noncomputable def demoLayers : Obs 2 2 2 1 2 :=
  { demo with
    wind := ⟨fun _ => 10, fun _ => 30, fun _ => 1, 500, 2⟩, h := fun _ => 10000, hm := fun _ => 10000,
    w := fun n => if n = 0 then 0.7 else 0.3, wm := fun n => if n = 0 then 0.7 else 0.3 }

theorem demoLayers_splits : SplitsLayers demoLayers demo (fun _ => 0) (fun _ => 0) where
  stars := rfl
  mirrors := rfl
  noise := rfl
  r0 := rfl
  L0 := rfl
  D := rfl
  kc := rfl
  circle := rfl
  clock := rfl
  rate := rfl
  delay := rfl
  h := fun _ => rfl
  speed := fun _ => rfl
  dirDeg := fun _ => rfl
  w := fun n => by
    rw [Subsingleton.elim n 0]
    simp [demo, demoLayers]; norm_num
  hm := fun _ => rfl
  wm := fun n => by
    rw [Subsingleton.elim n 0]
    simp [usedWeights, demo, demoLayers]; norm_num

/-- `layers_split` on these two descriptions, for one sample. -/
example : ∃ (pg : Matrix (Fin 2) (Fin 2) ℂ → Matrix (Fin 2) (Fin 2) ℂ) (pm : Matrix (Fin 1) (Fin 1) ℂ → Matrix (Fin 1) (Fin 1) ℂ),
    demoLayers.residual pg pm (⟨fun _ => (0.3, 0.4), fun _ => false⟩ : Samples Unit) (5e-5, 0) () =
      demo.residual pg pm (⟨fun _ => (0.3, 0.4), fun _ => false⟩ : Samples Unit) (5e-5, 0) () := by
  obtain ⟨pg, hg⟩ := exists_pinv_fun 2
  obtain ⟨pm, -⟩ := exists_pinv_fun 1
  exact ⟨pg, pm, (layers_split demoLayers demo _ _ demoLayers_splits pg hg pm _ _ ()).2.1⟩

/-- The sensor of the first star replaced by two, of variances 0.15 and 0.3. -/
noncomputable def demoSensors : Obs 3 1 1 1 2 :=
  { demo with
    stars := ⟨fun _ => 0.5, fun j => if j = 2 then (-1e-4, 2e-5) else (1e-4, 0)⟩
    wind := ⟨fun _ => 10, fun _ => 30, fun _ => 1, 500, 2⟩
    noise := fun j => if j = 0 then 0.15 else if j = 1 then 0.3 else 0.1 }

/-- `sensors_split` applies to it. -/
example : SplitsSensors demoSensors demo (fun j => if j = 2 then 1 else 0) ∧ 0 ≤ demo.r0 ∧ ∀ n, 0 ≤ usedWeights demo n := by
  refine ⟨⟨fun j => ?_, fun j => ?_, fun j => rfl, fun j => ?_, fun j => ?_, fun j => ?_, rfl, rfl, rfl, rfl, rfl, rfl, rfl, rfl,
    rfl, rfl, rfl, rfl, rfl, rfl⟩, ?_, fun n => ?_⟩
  · fin_cases j <;> simp [demo, demoSensors]
  · fin_cases j <;> simp [demo, demoSensors]
  · norm_num [demo]
  · fin_cases j <;> norm_num [demoSensors]
  · fin_cases j
    · simp [demo, demoSensors, Finset.sum_filter, Fin.sum_univ_three]; norm_num
    · simp [demo, demoSensors, Finset.sum_filter, Fin.sum_univ_three]
  · norm_num [demo]
  · simp [usedWeights, demo]

/-- The observation turned by a quarter turn. -/
noncomputable def demoTurned : Obs 2 1 1 1 2 :=
  { demo with
    stars := ⟨fun _ => 0.5, fun j => quarter.act (demo.stars.dir j)⟩
    wind := ⟨fun _ => 10, fun _ => 120, fun _ => 1, 500, 2⟩
    mirrors := ⟨fun _ => 0, fun _ => 1, fun d => quarter.act (demo.mirrors.dir d), fun _ => 0.5, 100⟩ }

/-- `turned` applies to it: the wind at 120 degrees is the one at 30 degrees turned. -/
theorem demo_turned : Turned quarter demoTurned demo where
  d := rfl
  dir := fun _ => rfl
  odir := fun _ => rfl
  wind := fun n => by
    have e : (120 : ℝ) * Real.pi / 180 = 30 * Real.pi / 180 + Real.pi / 2 := by ring
    show (Real.cos ((120 : ℝ) * Real.pi / 180), Real.sin ((120 : ℝ) * Real.pi / 180)) =
      quarter.act (Real.cos ((30 : ℝ) * Real.pi / 180), Real.sin ((30 : ℝ) * Real.pi / 180))
    rw [e, Real.cos_add_pi_div_two, Real.sin_add_pi_div_two]
    simp [quarter, Sym.act]
  speed := rfl
  clock := rfl
  rate := rfl
  delay := rfl
  mh := rfl
  mkc := rfl
  mw := rfl
  cond := rfl
  noise := rfl
  h := rfl
  w := rfl
  hm := rfl
  wm := rfl
  r0 := rfl
  L0 := rfl
  D := rfl
  kc := rfl
  circle := rfl

example (pg : Matrix (Fin 2) (Fin 2) ℂ → Matrix (Fin 2) (Fin 2) ℂ) (pm : Matrix (Fin 1) (Fin 1) ℂ → Matrix (Fin 1) (Fin 1) ℂ) :
    demoTurned.residual pg pm (⟨fun _ => (-0.4, 0.3), fun _ => false⟩ : Samples Unit) (0, 5e-5) () =
      demo.residual pg pm (⟨fun _ => (0.3, 0.4), fun _ => false⟩ : Samples Unit) (5e-5, 0) () := by
  have h := (turned quarter demoTurned demo demo_turned pg pm (⟨fun _ => (0.3, 0.4), fun _ => false⟩ : Samples Unit) (5e-5, 0) ()).1
  have e1 : quarter.act ((0.3 : ℝ), (0.4 : ℝ)) = (-0.4, 0.3) := by simp [quarter, Sym.act]
  have e2 : quarter.act ((5e-5 : ℝ), (0 : ℝ)) = (0, 5e-5) := by simp [quarter, Sym.act]
  rw [e2] at h
  simp only [e1] at h
  exact h

/-- A sample and its opposite. -/
noncomputable def demoPair : Samples Bool := ⟨fun b => if b then (0.3, 0.4) else (-0.3, -0.4), fun _ => false⟩

/-- They meet the hypotheses of `opposite`. -/
example (pg : Matrix (Fin 2) (Fin 2) ℂ → Matrix (Fin 2) (Fin 2) ℂ) (hg : ∀ A, A.IsHermitian → IsPinv A (pg A))
    (pm : Matrix (Fin 1) (Fin 1) ℂ → Matrix (Fin 1) (Fin 1) ℂ) (hm : ∀ A, A.IsHermitian → IsPinv A (pm A)) :
    demo.residual pg pm demoPair (5e-5, 0) false = demo.residual pg pm demoPair (5e-5, 0) true := by
  have h := (opposite demo pg hg pm hm demoPair not (fun b => by cases b <;> rfl)
    (fun b => by cases b <;> simp [demoPair]) (fun _ => rfl) (5e-5, 0) true).1
  rwa [Bool.not_true] at h

/-- The second direction given twice. -/
noncomputable def demoDirections : Obs 2 1 1 1 3 :=
  { demo with mirrors := ⟨fun _ => 0, fun _ => 1, fun d => if d = 0 then (0, 0) else (1e-4, 0),
    fun d => if d = 0 then 0.5 else if d = 1 then 0.2 else 0.3, 100⟩ }

/-- `directions_split_partial` applies to it. -/
example (pg : Matrix (Fin 2) (Fin 2) ℂ → Matrix (Fin 2) (Fin 2) ℂ) (pm : Matrix (Fin 1) (Fin 1) ℂ → Matrix (Fin 1) (Fin 1) ℂ)
    (S : Samples Unit) : demoDirections.command pg pm S () = demo.command pg pm S () := by
  refine (directions_split_partial demoDirections demo (fun d => if d = 0 then 0 else 1) ?_ (by simp) pg pm S (0, 0) ()).1
  refine ⟨fun d => ?_, fun d => ?_, rfl, rfl, rfl, rfl, rfl, rfl, rfl, rfl, rfl, rfl, rfl, rfl, rfl, rfl, rfl⟩
  · fin_cases d <;> simp [demo, demoDirections]
  · fin_cases d
    · simp [demo, demoDirections, Finset.sum_filter]
    · simp [demo, demoDirections, Finset.sum_filter, Fin.sum_univ_three]; norm_num

/-- One direction only. -/
noncomputable def demoOne : Obs 2 1 1 1 1 :=
  { demo with mirrors := ⟨fun _ => 0, fun _ => 1, fun _ => (0, 0), fun _ => 1, 100⟩ }

/-- The same direction twice. -/
noncomputable def demoTwice : Obs 2 1 1 1 2 :=
  { demo with mirrors := ⟨fun _ => 0, fun _ => 1, fun _ => (0, 0), fun _ => 0.5, 100⟩ }

/-- `one_direction_twice_violation`: the commands are divided by 1.01. -/
example (pg : Matrix (Fin 2) (Fin 2) ℂ → Matrix (Fin 2) (Fin 2) ℂ) (pm : Matrix (Fin 1) (Fin 1) ℂ → Matrix (Fin 1) (Fin 1) ℂ)
    (hm : ∀ A, A.IsHermitian → IsPinv A (pm A)) :
    demoTwice.command pg pm (⟨fun _ => (0.3, 0.4), fun _ => false⟩ : Samples Unit) () =
      ((1 / 1.01 : ℝ) : ℂ) • demoOne.command pg pm (⟨fun _ => (0.3, 0.4), fun _ => false⟩ : Samples Unit) () := by
  rw [one_direction_twice_violation demoTwice demoOne (fun _ => 0) ?_ (by norm_num) (by norm_num [demoOne]) (by norm_num [demoOne]) pg pm hm]
  · congr 2
    have hr : reach demoOne (⟨fun _ => (0.3, 0.4), fun _ => false⟩ : Samples Unit) = 1 := by
      unfold reach
      have hk : kmod ((0.3 : ℝ), (0.4 : ℝ)) ≤ 1 := by
        unfold kmod
        exact Real.sqrt_le_one.2 (by norm_num)
      have : (Finset.univ.filter fun f : Unit => kmod ((⟨fun _ => (0.3, 0.4), fun _ => false⟩ : Samples Unit).k f) ≤ demoOne.mirrors.kc 0) =
          Finset.univ := Finset.filter_true_of_mem (fun _ _ => hk)
      rw [this]; simp
    rw [hr]
    norm_num [demoOne]
  · refine ⟨fun d => rfl, fun d => ?_, rfl, rfl, rfl, rfl, rfl, rfl, rfl, rfl, rfl, rfl, rfl, rfl, rfl, rfl, rfl⟩
    rw [Subsingleton.elim d 0]
    simp [demoOne, demoTwice]; norm_num

/-- `wavelength_free` from 500 nm to 1.65 micrometres. -/
example (pg : Matrix (Fin 2) (Fin 2) ℂ → Matrix (Fin 2) (Fin 2) ℂ) (hg : ∀ A, A.IsHermitian → IsPinv A (pg A))
    (pm : Matrix (Fin 1) (Fin 1) ℂ → Matrix (Fin 1) (Fin 1) ℂ) (S : Samples Unit) :
    inNm 1.65e-6 ((atWavelength demo 5e-7 1.65e-6).residual pg pm S (0, 0) ()) = inNm 5e-7 (demo.residual pg pm S (0, 0) ()) :=
  (wavelength_free demo (by norm_num [demo]) 5e-7 1.65e-6 (by norm_num) (by norm_num) pg hg pm S (0, 0) ()).2.1

end P3.Observation
