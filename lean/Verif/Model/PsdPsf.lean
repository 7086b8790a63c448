import Verif.Model.Otf
import Mathlib.Data.Prod.Lex
/-
From a power spectrum density to an OTF and a PSF.  Source: /repo/p3/aoSystem/FourierUtils.py and
/repo/p3/psfr/psfR.py.  Real and complex arithmetic, square arrays of `N x N` pixels.
-/
namespace P3.PsdPsf
open Finset P3.Rec P3.Otf

/-- `psd2cov` of a square array, FourierUtils.py:241-251. -/
noncomputable def psd2cov {N : ℕ} [NeZero N] (psd : Pix N → ℝ) (pix : ℝ) : Pix N → ℂ := fun k =>
  dft (fftshift (toC psd)) k * ((pix ^ 2 : ℝ) : ℂ)

/-- `.max()` of a complex array: numpy compares the real parts, then the imaginary parts. -/
noncomputable def maxC {N : ℕ} [NeZero N] (a : Pix N → ℂ) : ℂ :=
  let m := (univ : Finset (Pix N)).sup' ⟨0, mem_univ _⟩ fun k => toLex ((a k).re, (a k).im)
  ⟨(ofLex m).1, (ofLex m).2⟩

/-- `cov2sf`, FourierUtils.py:30-31. -/
noncomputable def cov2sf {N : ℕ} [NeZero N] (cov : Pix N → ℂ) : Pix N → ℂ := fun k =>
  2 * maxC cov - cov k - (starRingEnd ℂ) (cov k)

/-- `sf2otf` of a complex array, FourierUtils.py:279-280. -/
noncomputable def sf2otf {N : ℕ} (sf : Pix N → ℂ) : Pix N → ℂ := fun k => Complex.exp (-(1 / 2) * sf k)

/-- `psd2otf`, FourierUtils.py:253-254. -/
noncomputable def psd2otf {N : ℕ} [NeZero N] (psd : Pix N → ℝ) (pix : ℝ) : Pix N → ℂ :=
  sf2otf (cov2sf (psd2cov psd pix))

/-- `psd2psf`, FourierUtils.py:256-257. -/
noncomputable def psd2psf {N : ℕ} [NeZero N] (psd : Pix N → ℝ) (pix : ℝ) : Option (Pix N → ℝ) :=
  otf2psf (fftshift (psd2otf psd pix)) false

/-! ### Structure functions of the PSF reconstruction -/

/-- `np.real(fft.fftshift(cov2sf(psd2cov(psd, pix))))`, psfR.py:157-158 and 173-174. -/
noncomputable def sfOf {N : ℕ} [NeZero N] (psd : Pix N → ℝ) (pix : ℝ) : Pix N → ℝ := fun x =>
  (fftshift (cov2sf (psd2cov psd pix)) x).re

/-- `fitting_phase_structure_function`, psfR.py:151-158: `kolmo` is `freq.psdKolmo_`, `D` the diameter and `samp`
the reference sampling. -/
noncomputable def fittingSf {N : ℕ} [NeZero N] (kolmo : Pix N → ℝ) (D samp r0 : ℝ) : Pix N → ℝ :=
  sfOf (fun x => r0 ^ (-(5:ℝ) / 3) * kolmo x) (1 / (D * samp))

/-- `aliasing_phase_structure_function`, psfR.py:160-181, when no interpolation is needed: `al` is the `n x n`
result of `aliasingPSD()` for the Fried parameter `r0atm`, padded by `p` pixels on each side. -/
noncomputable def aliasingSf {N : ℕ} [NeZero N] (n p : ℕ) (al : ℕ → ℕ → ℝ) (D samp r0atm r0 : ℝ) : Pix N → ℝ :=
  fun x => r0 ^ (-(5:ℝ) / 3) *
    sfOf (padded n p fun i j => al i j / r0atm ^ (-(5:ℝ) / 3)) (1 / (D * samp)) x

/-! ### Sampling of the PSF of a telescope -/

/-- Number of points of a square array and distance between two of them. -/
structure Samp where
  points : ℕ
  step : ℝ

/-- `enlargeSupport`, FourierUtils.py:697-701. -/
noncomputable def Samp.enlarge (s : Samp) (k : ℝ) : Samp := ⟨s.points + 2 * (padOf s.points k).toNat, s.step⟩

/-- `interpolateSupport`, FourierUtils.py:734-769: the same extent with `m` points. -/
noncomputable def Samp.interp (s : Samp) (m : ℕ) : Samp := ⟨m, s.step * s.points / m⟩

/-- `otf2psf`: the inverse transform, FourierUtils.py:172-189. -/
noncomputable def Samp.transform (s : Samp) : Samp := ⟨s.points, 1 / (s.points * s.step)⟩

/-- Sampling of `telescopePsf(pupil, samp)`, FourierUtils.py:388-391 and 400-409, for a pupil of `n x n` pixels;
steps in units of the diameter in the pupil and of `lambda/D` in the image. -/
noncomputable def telescopePsfGrid (n : ℕ) (samp : ℝ) : Samp :=
  let pupil : Samp := ⟨n, 1 / n⟩
  if 2 ≤ samp then ((pupil.enlarge samp).interp n).transform
  else (((pupil.enlarge 2).interp ⌊(n : ℝ) / samp⌋.toNat).transform).interp n

/-- Sampling of `otfShannon2psf(otf, nqSmpl, fov)`, FourierUtils.py:191-208: the OTF has `s.points` points over
twice the diameter. -/
noncomputable def shannonGrid (s : Samp) (nq : ℝ) (fov : ℕ) : Samp :=
  if nq = 1 then (s.interp fov).transform
  else if 1 < nq then ((s.enlarge nq).interp fov).transform
  else ((s.interp (roundEven ((fov : ℝ) / nq)).toNat).transform).interp fov

end P3.PsdPsf
