import Verif.Model.Images
import Mathlib.Analysis.SpecialFunctions.Complex.Log
import Mathlib.MeasureTheory.Integral.IntervalIntegral.Basic
import Mathlib.Analysis.SpecialFunctions.Trigonometric.Basic
/-
From the phase structure function to the PSF.  Source: /repo/p3/aoSystem/FourierUtils.py and
fourierModel.py.  Real and complex arithmetic; one source and one wavelength at a time (the code treats
them independently).
-/
namespace P3.Psf
open Finset P3.Images

/-- `sf2otf`, FourierUtils.py:278-279, also lines 461 and 590. -/
noncomputable def sf2otf (sf : ℝ) : ℝ := Real.exp (-0.5 * sf)

/-! ### Covariance and structure function -/

/-- Source index of `fftshift` along an axis of `n` points: `fftshift(x)[i] = x[(i + n - n/2) % n]`. -/
def shiftIdx (n i : ℕ) : ℕ := (i + n - n / 2) % n

/-- `np.fft.fft2(np.fft.fftshift(psd))[k, l]` (FourierUtils.py:241-252, fourierModel.py:1306). -/
noncomputable def fftPsd (psd : Img ℝ) (k l : ℕ) : ℂ :=
  ∑ u ∈ range psd.nx, ∑ v ∈ range psd.ny,
    (psd.px (shiftIdx psd.nx u) (shiftIdx psd.ny v) : ℂ) *
      Complex.exp (-(2 * Real.pi * ((k * u : ℝ) / psd.nx + (l * v : ℝ) / psd.ny) : ℝ) * Complex.I)

/-- Lexicographic order used by numpy for `max` of complex numbers. -/
def cle (a b : ℂ) : Prop := a.re < b.re ∨ (a.re = b.re ∧ a.im ≤ b.im)

/-- `m` is `cov.max()` for the values `cov[k, l]`, `k < nx`, `l < ny`. -/
def IsMax (nx ny : ℕ) (cov : ℕ → ℕ → ℂ) (m : ℂ) : Prop :=
  (∃ k < nx, ∃ l < ny, cov k l = m) ∧ ∀ k < nx, ∀ l < ny, cle (cov k l) m

/-- `phaseStructureFunction`, fourierModel.py:1302-1307 at pixel `(k, l)`, given the maximum `m`. -/
noncomputable def phaseSF (psd : Img ℝ) (m : ℂ) (k l : ℕ) : ℝ :=
  2 * (m - fftPsd psd (shiftIdx psd.nx k) (shiftIdx psd.ny l)).re

/-- `cov2sf(psd2cov(psd, pix))`, FourierUtils.py:30-31 and 241-252, given the maximum `m` of the covariance. -/
noncomputable def cov2sf (m c : ℂ) : ℂ := 2 * m - c - (starRingEnd ℂ) c

/-! ### Sampling of the PSF -/

/-- Assignment of an image to a `n x n` array: refused if the shape differs. -/
noncomputable def fitTo (n : ℕ) (im : Img ℝ) : Except PyErr (Img ℝ) :=
  if im.nx = n ∧ im.ny = n then .ok im else .error .broadcast

/-- Binning by the sampling factor, FourierUtils.py:470-476 and 596-602 (`k ≥ 1`). -/
noncomputable def binned (hr : Img ℝ) (k : ℕ) : Except PyErr (Img ℝ) :=
  if 1 < k then binning hr k else .ok hr

/-- Binning and cropping to the detector, FourierUtils.py:470-482 and 596-609. -/
noncomputable def binCrop (hr : Img ℝ) (k fov : ℕ) : Except PyErr (Img ℝ) := do
  let tmp ← binned hr k
  fitTo fov (crop tmp ((tmp.nx : ℝ) / fov) ((tmp.nx : ℝ) / fov))

/-- Field of view, FourierUtils.py:485-489 and 612-616. -/
noncomputable def limitFov (psf : Img ℝ) (fov nPix : ℕ) : Except PyErr (Img ℝ) :=
  if nPix < fov then fitTo nPix (crop psf ((psf.nx : ℝ) / nPix) ((psf.nx : ℝ) / nPix)) else .ok psf

/-- The PSF on the detector before scaling. -/
noncomputable def detectorPsf (hr : Img ℝ) (k fov nPix : ℕ) : Except PyErr (Img ℝ) := do
  let psf ← binCrop hr k fov
  limitFov psf fov nPix

/-- Scaling, FourierUtils.py:492-495: `psf/psf.sum()*F + bkg`. -/
noncomputable def scale (psf : Img ℝ) (F bkg : ℝ) : Img ℝ :=
  ⟨psf.nx, psf.ny, fun i j => psf.px i j / flux psf * F + bkg⟩

/-! ### Optical transfer function -/

/-- Normalisation factor of the jitter in the multi-wavelength function, FourierUtils.py:540-541: the square
of `u_max 2√(2 ln 2)`. -/
noncomputable def jitterScale (umax : ℝ) : ℝ := umax ^ 2 * (2 * Real.sqrt (2 * Real.log 2)) ^ 2

/-- Jitter exponent of `sf_3D_to_psf_4D`, FourierUtils.py:542-544; `umax` is `samp*D/wvl/(...)`. -/
noncomputable def jitter4 (umax jx jy jxy u v : ℝ) : ℝ :=
  jitterScale umax * (jx ^ 2 * u ^ 2 + jy ^ 2 * v ^ 2 + 2 * jxy * (u * v))

/-- Jitter exponent of `sf_3D_to_psf_3D`, FourierUtils.py:442-446, for the same `umax` (this function halves
it). -/
noncomputable def jitter3 (umax jx jy jxy u v : ℝ) : ℝ :=
  (umax / 2 * (2 * Real.sqrt (2 * Real.log 2))) ^ 2 * (jx * u ^ 2 + jy * v ^ 2 + 2 * jxy * (u * v))

/-- Factor applied to the shifts in the phasor: `bin_fact`, FourierUtils.py:452-454 (3D: `kRef > 1`). -/
def binFact3 (k : ℕ) : ℕ := if 1 < k then k else 1
/-- FourierUtils.py:551-553 (4D: `kRef > 2`). -/
def binFact4 (k : ℕ) : ℕ := if 2 < k then k else 1

/-- Phasor at angular frequencies `u`, `v` for a shift `(dx, dy)`, FourierUtils.py:456-457 and 563-564. -/
noncomputable def phasor (b : ℕ) (dx dy u v : ℝ) : ℂ :=
  Complex.exp (-Real.pi * Complex.I * ((b * (u * dx + v * dy) : ℝ) : ℂ))

/-- Total OTF at one frequency, FourierUtils.py:460-462: turbulence, static, jitter, pixel and phasor. -/
noncomputable def otfTot (sf ncpa d pix : ℝ) (ph : ℂ) : ℂ :=
  (sf2otf sf : ℂ) * ((ncpa * Real.exp (-0.5 * d) * pix : ℝ) : ℂ) * ph

/-- Strehl ratio in percent from the moduli of the total OTF and the diffraction-limited OTF,
FourierUtils.py:493. -/
noncomputable def strehl (tot : List ℂ) (dl : List ℝ) : ℝ := 100 * (tot.map (‖·‖)).sum / dl.sum

/-- Control flow around the jitter kernel in `sf_3D_to_psf_4D`, FourierUtils.py:536-545 and 581-585, for a
jitter `x` (three numbers) or `None`: is the kernel available at each wavelength? The variable holding the
exponent is set only if one of the first two numbers is not zero, but read for every non-`None` jitter when
the PSF is Nyquist-sampled at several wavelengths. -/
noncomputable def jitterFlow (x : Option (ℝ × ℝ × ℝ)) (nyquist : Bool) (nWvl : ℕ) : Except PyErr Unit :=
  let set : Prop := match x with
    | some (jx, jy, _) => jx ≠ 0 ∨ jy ≠ 0
    | none => False
  open Classical in
  if nyquist = true ∧ 1 < nWvl ∧ x.isSome = true ∧ ¬ set then .error .unboundLocal else .ok ()

/-! ### Piston filter -/

/-- `J1(x)/x` as Poisson's integral `(1/π) ∫₀^π cos(x cos θ) sin² θ dθ`; `sombrero(1, x)`,
FourierUtils.py:290-303, returns it for `x ≠ 0` and its limit 1/2 at 0. -/
noncomputable def sombrero1 (x : ℝ) : ℝ :=
  (1 / Real.pi) * ∫ θ in (0:ℝ)..Real.pi, Real.cos (x * Real.cos θ) * Real.sin θ ^ 2

/-- `pistonFilter(D, f)` at one spatial frequency, FourierUtils.py:210-223: zero frequency is replaced by
1e-10 and negative values by zero. -/
noncomputable def pistonFilter (D f : ℝ) : ℝ :=
  let f := if f = 0 then 1e-10 else f
  let p := 1 - 4 * sombrero1 (Real.pi * D * f) ^ 2
  if p < 0 then 0 else p

/-- `pistonFilter_` and `pistonFilterAO_`, frequencyDomain.py:50-52 and 174-176: the filter on a grid of `n x n`
frequencies of moduli `k`, set to zero at the centre. -/
noncomputable def domainPiston (n : ℕ) (D : ℝ) (k : ℕ → ℕ → ℝ) (i j : ℕ) : ℝ :=
  if i = n / 2 ∧ j = n / 2 then 0 else pistonFilter D (k i j)

/-! ### fftsym -/

/-- `fftsym` of a square array, FourierUtils.py:44-58.  `x[arange(n-1,1,-1), arange(n-1,1,-1)]` picks the
diagonal (one-dimensional) and is repeated on every row; the last row and column are never written. -/
noncomputable def fftsym {α : Type} (zero : α) (n : ℕ) (x : ℕ → ℕ → α) : Img α :=
  ⟨n, n, fun i j =>
    if i = 0 ∧ j = 0 then x 0 0
    else if i = 0 ∧ 1 ≤ j ∧ j < n - 1 then x 1 (n - j)
    else if j = 0 ∧ 1 ≤ i ∧ i < n - 1 then x (n - i) 1
    else if 1 ≤ i ∧ i < n - 1 ∧ 1 ≤ j ∧ j < n - 1 then x (n - j) (n - j)
    else zero⟩

end P3.Psf

namespace P3.Psf
open Finset

/-- High-resolution PSF amplitude at position `(p, q)` (real pixel coordinates relative to the centre):
`fftshift(ifft2(fftshift(otf * phasor)))`, FourierUtils.py:462-465, for an even size `n`.  After the two
shifts, sample `a` of the OTF has the frequency `(a - n/2)/n`. -/
noncomputable def hires (n : ℕ) (otf : ℕ → ℕ → ℂ) (p q : ℝ) : ℂ :=
  (1 / (n:ℂ) ^ 2) * ∑ a ∈ range n, ∑ b ∈ range n, otf a b *
    Complex.exp ((2 * Real.pi * (((a:ℝ) - n / 2) * p + ((b:ℝ) - n / 2) * q) / n : ℝ) * Complex.I)

/-- Angular frequency of sample `a`: `U_`/`V_` from `shift_array(n, n, fact=2)`, FourierUtils.py:281-287. -/
noncomputable def angFreq (n a : ℕ) : ℝ := ((a:ℝ) - n / 2) * 2 / n

end P3.Psf

namespace P3.Psf
open P3.Images

/-- Position in detector pixels, at a wavelength with binning `k`, of a source requested at `dx` pixels from
the centre in `sf_3D_to_psf_4D`: the phasor moves it by `binFact4 kRef * dx` high-resolution pixels (one
factor for all wavelengths, FourierUtils.py:551-564), then `k` of them make one detector pixel (596-602). -/
noncomputable def offset4 (kRef k : ℕ) (dx : ℝ) : ℝ := (binFact4 kRef * dx) / k

/-- `F[:, j]` on an array of the given shape: the number of rows, or IndexError. -/
def column (shape : List ℕ) (j : ℕ) : Except PyErr ℕ :=
  match shape with
  | [r, c] => if j < c then .ok r else .error .indexError
  | _ => .error .indexError

/-- Flux of each source at each wavelength in `sf_3D_to_psf_4D`, FourierUtils.py:509-510, 523, 619: the
argument if given (its shape), otherwise `np.asarray([1.0])`; read as `F[:, jWvl]`. -/
def flux4 (given : Option (List ℕ)) (nWvl : ℕ) : Except PyErr (List ℕ) :=
  (List.range nWvl).mapM (column (given.getD [1]))

/-- Assignment of the ensquared-energy curve in `getPsfMetrics`, fourierModel.py:1786-1788 and 1801-1804: the
curve of a `n x n` PSF with its peak at `(y0, x0)` (`min(n - y0, n - x0) + 1` values) goes into
`int(nOtf/2) + 1` values. -/
noncomputable def storeEnsquared (nOtf : ℕ) (psf : Img ℝ) (y0 x0 : ℕ) : Except PyErr Unit :=
  match ensquared psf y0 x0 with
  | none => .error .indexError
  | some c => if c.length = nOtf / 2 + 1 ∨ c.length = 1 then .ok () else .error .broadcast

end P3.Psf
