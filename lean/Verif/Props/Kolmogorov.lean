import Verif.Model.Kolmogorov
import Verif.Props.Anisophase
/-! C459-C460: the spectrum of the phase that the mirror cannot correct and the fitting error of PSFAO21. -/
namespace P3.Kolmogorov
open Finset P3.Freq Real P3.Atmosphere

/-- Spec: weight of a point in the trapezoidal rule over the points `0 … n`. -/
noncomputable def edge (n i : ℕ) : ℝ := if i = 0 ∨ i = n then 1/2 else 1

theorem trapz_edge (n : ℕ) (hn : 0 < n) (y x : ℕ → ℝ) (h : ℝ) (hx : ∀ k, x (k + 1) - x k = h) :
    trapz n y x = h * ∑ k ∈ range (n + 1), edge n k * y k := by
  unfold trapz
  simp only [hx]
  have e1 : ∑ k ∈ range n, h * (y (k + 1) + y k) / 2 = h * ((∑ k ∈ range n, y (k + 1) + ∑ k ∈ range n, y k) / 2) := by
    rw [← sum_add_distrib, sum_div, mul_sum]
    exact sum_congr rfl fun k _ => by ring
  rw [e1]
  congr 1
  obtain ⟨m, rfl⟩ : ∃ m, n = m + 1 := ⟨n - 1, by omega⟩
  rw [sum_range_succ (fun k => y (k + 1)), sum_range_succ' (fun k => y k) m, sum_range_succ (fun k => edge (m + 1) k * y k),
    sum_range_succ' (fun k => edge (m + 1) k * y k)]
  have e2 : ∑ k ∈ range m, edge (m + 1) (k + 1) * y (k + 1) = ∑ k ∈ range m, y (k + 1) := by
    refine sum_congr rfl fun k hk => ?_
    rw [mem_range] at hk
    unfold edge
    rw [if_neg (by omega), one_mul]
  rw [e2]
  simp only [edge]
  norm_num
  ring

theorem psdKolmo_nonneg (circle : Bool) (kc L0 kx ky : ℝ) : 0 ≤ psdKolmo circle kc L0 kx ky := by
  unfold psdKolmo
  split_ifs <;> positivity

theorem edge_nonneg (n i : ℕ) : 0 ≤ edge n i := by unfold edge; split_ifs <;> norm_num

theorem freqAt_step (n : ℕ) (step off : ℝ) (k : ℕ) : freqAt n step off (k + 1) - freqAt n step off k = step := by
  unfold freqAt; push_cast; ring

theorem double (circle : Bool) (kc L0 step : ℝ) (n : ℕ) (hn : 0 < n) :
    trapz n (fun i => trapz n (fun j => psdKolmo circle kc L0 (freqAt (n + 1) step 1e-10 i) (freqAt (n + 1) step 1e-10 j))
      (freqAt (n + 1) step 1e-10)) (freqAt (n + 1) step 1e-10) =
    step ^ 2 * ∑ i ∈ range (n + 1), ∑ j ∈ range (n + 1), edge n i * edge n j *
      psdKolmo circle kc L0 (freqAt (n + 1) step 1e-10 i) (freqAt (n + 1) step 1e-10 j) := by
  rw [trapz_edge n hn _ _ step (freqAt_step _ _ _), sq, mul_assoc]
  congr 1
  rw [mul_sum]
  refine sum_congr rfl fun i _ => ?_
  rw [trapz_edge n hn _ _ step (freqAt_step _ _ _), mul_sum, mul_sum, mul_sum]
  exact sum_congr rfl fun j _ => by ring

/-- C459: the spectrum of the fitting error in PSFAO21 and in PSF reconstruction is, within one percent, that of the Fourier
model: the spectrum of the turbulence at the frequencies that the mirror does not correct, zero elsewhere. -/
theorem kolmo_spectrum (a : Atm) (hr : 0 < a.r0) (hL : 0 < a.L0) (circle : Bool) (kc kx ky : ℝ) :
    |a.r0 ^ (-(5:ℝ)/3) * psdKolmo circle kc a.L0 kx ky - fittingPsd (Atmosphere.spectrum a) circle kc kx ky| ≤
      0.01 * fittingPsd (Atmosphere.spectrum a) circle kc kx ky := by
  unfold psdKolmo fittingPsd
  split_ifs with h
  · have hs : 0 ≤ kx ^ 2 + ky ^ 2 := by positivity
    unfold Atmosphere.spectrum
    rw [sq_sqrt hs, add_comm (kx ^ 2 + ky ^ 2)]
    have c := Turbulence.spectrum_constant
    have e : (24 * Gamma (6/5) / 5) ^ ((5:ℝ)/6) = c1 := rfl
    rw [e]
    generalize c1 * (Gamma (11/6) ^ 2 / (2 * π ^ ((11:ℝ)/3))) = q at c ⊢
    have hX : 0 ≤ a.r0 ^ (-(5:ℝ)/3) * (1 / a.L0 ^ 2 + (kx ^ 2 + ky ^ 2)) ^ (-(11:ℝ)/6) := by positivity
    generalize hY : (1 / a.L0 ^ 2 + (kx ^ 2 + ky ^ 2)) ^ (-(11:ℝ)/6) = Y at hX ⊢
    generalize a.r0 ^ (-(5:ℝ)/3) = R at hX ⊢
    rw [show R * (0.0229 * 1 * Y) - R * q * Y = (0.0229 - q) * (R * Y) by ring, abs_mul, abs_of_nonneg hX,
      show 0.01 * (R * q * Y) = 0.01 * q * (R * Y) by ring]
    refine mul_le_mul_of_nonneg_right ?_ hX
    rw [abs_le] at c ⊢
    constructor <;> linarith
  · simp

/-- C460: the fitting error reported by PSFAO21 is the square root of the integral of the spectrum of the turbulence over the
frequencies that the mirror does not correct (trapezoidal rule on the grid), in nanometres. -/
theorem fit_error (circle : Bool) (kc L0 step : ℝ) (n : ℕ) (hn : 0 < n) (wvl r0 : ℝ) (hr : 0 < r0) :
    wfeFit circle kc L0 step n wvl r0 ^ 2 = (wvl * 1e9 / (2 * π)) ^ 2 * (step ^ 2 *
      ∑ i ∈ range (n + 1), ∑ j ∈ range (n + 1), edge n i * edge n j *
        (r0 ^ (-(5:ℝ)/3) * psdKolmo circle kc L0 (freqAt (n + 1) step 1e-10 i) (freqAt (n + 1) step 1e-10 j))) := by
  unfold wfeFit fitNorm
  have hs : (0:ℝ) ≤ ∑ i ∈ range (n + 1), ∑ j ∈ range (n + 1), edge n i * edge n j *
      psdKolmo circle kc L0 (freqAt (n + 1) step 1e-10 i) (freqAt (n + 1) step 1e-10 j) :=
    sum_nonneg fun i _ => sum_nonneg fun j _ => mul_nonneg (mul_nonneg (edge_nonneg _ _) (edge_nonneg _ _)) (psdKolmo_nonneg _ _ _ _ _)
  rw [double circle kc L0 step n hn, mul_pow, mul_pow, sq_sqrt (by positivity), sq_sqrt (by positivity)]
  have e : ∑ i ∈ range (n + 1), ∑ j ∈ range (n + 1), edge n i * edge n j *
        (r0 ^ (-(5:ℝ)/3) * psdKolmo circle kc L0 (freqAt (n + 1) step 1e-10 i) (freqAt (n + 1) step 1e-10 j)) =
      r0 ^ (-(5:ℝ)/3) * ∑ i ∈ range (n + 1), ∑ j ∈ range (n + 1), edge n i * edge n j *
        psdKolmo circle kc L0 (freqAt (n + 1) step 1e-10 i) (freqAt (n + 1) step 1e-10 j) := by
    rw [mul_sum]
    refine sum_congr rfl fun i _ => ?_
    rw [mul_sum]
    exact sum_congr rfl fun j _ => by ring
  rw [e]
  field_simp

/-- C460: it decreases when the mirror corrects more frequencies and when the Fried parameter grows. -/
theorem fit_decreasing (circle : Bool) (kc kc' L0 step : ℝ) (n : ℕ) (hn : 0 < n) (wvl r0 r0' : ℝ) (hr : 0 < r0) (hrr : r0 ≤ r0')
    (hk0 : 0 ≤ kc) (hk : kc ≤ kc') (hw : 0 ≤ wvl) :
    wfeFit circle kc' L0 step n wvl r0' ≤ wfeFit circle kc L0 step n wvl r0 := by
  have hp := pi_pos
  have h1 : r0' ^ (-(5:ℝ)/3) ≤ r0 ^ (-(5:ℝ)/3) := rpow_le_rpow_of_nonpos hr hrr (by norm_num)
  have h2 : ∀ kx ky, psdKolmo circle kc' L0 kx ky ≤ psdKolmo circle kc L0 kx ky := by
    intro kx ky
    unfold psdKolmo
    have hY : 0 ≤ (1 / L0 ^ 2 + (kx ^ 2 + ky ^ 2)) ^ (-(11:ℝ)/6) := by positivity
    refine mul_le_mul_of_nonneg_right ?_ hY
    refine mul_le_mul_of_nonneg_left ?_ (by norm_num)
    split_ifs with a b b
    · exact le_rfl
    · exfalso; apply b
      unfold mskOut at a ⊢
      split_ifs with c
      · rw [if_pos c] at a; nlinarith
      · rw [if_neg c] at a
        rcases a with a | a
        · exact Or.inl (hk.trans a)
        · exact Or.inr (hk.trans a)
    · norm_num
    · exact le_rfl
  have h3 : fitNorm circle kc' L0 step n ≤ fitNorm circle kc L0 step n := by
    unfold fitNorm
    rw [double circle kc' L0 step n hn, double circle kc L0 step n hn]
    refine sqrt_le_sqrt (mul_le_mul_of_nonneg_left ?_ (by positivity))
    exact sum_le_sum fun i _ => sum_le_sum fun j _ => mul_le_mul_of_nonneg_left (h2 _ _) (mul_nonneg (edge_nonneg _ _) (edge_nonneg _ _))
  unfold wfeFit
  have : 0 ≤ fitNorm circle kc' L0 step n := sqrt_nonneg _
  gcongr

/-- A concrete case: the frequency `(2, 0)` is not corrected by a mirror that corrects up to 1 per metre. -/
example : psdKolmo true 1 25 2 0 = 0.0229 * (1 / 25 ^ 2 + 4) ^ (-(11:ℝ)/6) ∧ psdKolmo true 1 25 0.5 0 = 0 := by
  unfold psdKolmo mskOut
  norm_num

end P3.Kolmogorov
