import Verif.Model.FrequencyDomain
/-
The spectrum of the phase that the mirror cannot correct and the fitting error of PSFAO21.  Sources:
/repo/p3/aoSystem/frequencyDomain.py:70-72, /repo/p3/psfao21/psfao21.py:155-158.  Real arithmetic.
-/
namespace P3.Kolmogorov
open Finset P3.Freq

/-- `psdKolmo_`, frequencyDomain.py:70, at the frequency `(kx, ky)`. -/
noncomputable def psdKolmo (circle : Bool) (kcMax L0 kx ky : ℝ) : ℝ :=
  0.0229 * (if mskOut circle kcMax kx ky then 1 else 0) * (1 / L0 ^ 2 + (kx ^ 2 + ky ^ 2)) ^ (-(11:ℝ)/6)

/-- `np.trapz(y, x)` over `n + 1` points. -/
noncomputable def trapz (n : ℕ) (y x : ℕ → ℝ) : ℝ := ∑ k ∈ range n, (x (k + 1) - x k) * (y (k + 1) + y k) / 2

/-- `wfe_fit_norm`, frequencyDomain.py:71-72, for `nOtf = n + 1`: the abscissa of both integrals is `kx_[:,0]`, which is
`freq_array(nOtf, offset=1e-10, L=PSDstep)` (171-172). -/
noncomputable def fitNorm (circle : Bool) (kcMax L0 step : ℝ) (n : ℕ) : ℝ :=
  Real.sqrt (trapz n (fun i => trapz n (fun j => psdKolmo circle kcMax L0 (freqAt (n + 1) step 1e-10 i) (freqAt (n + 1) step 1e-10 j))
    (freqAt (n + 1) step 1e-10)) (freqAt (n + 1) step 1e-10))

/-- `wfe_fit`, psfao21.py:156-158, in nanometres. -/
noncomputable def wfeFit (circle : Bool) (kcMax L0 step : ℝ) (n : ℕ) (wvl r0 : ℝ) : ℝ :=
  Real.sqrt (r0 ^ (-(5:ℝ)/3)) * fitNorm circle kcMax L0 step n * (wvl * 1e9 / 2 / Real.pi)

end P3.Kolmogorov
