import Verif.Model.Psf
import Verif.Model.Reconstruction
/-
The pixel of the detector in the PSF of the Fourier model and of the PSF reconstruction.  Sources:
/repo/p3/aoSystem/fourierModel.py, /repo/p3/psfr/psfR.py, /repo/p3/aoSystem/FourierUtils.py and
/repo/p3/aoSystem/frequencyDomain.py.  Real and complex arithmetic, one source and one wavelength, even sizes.
-/
namespace P3.Pixel
open Finset P3.Psf

/-- `otfPixel` of `fourierModel.point_spread_function`, fourierModel.py:1752-1755, at sample `(a, b)` of an OTF of
`n x n` samples: one, or the product of two `np.sinc` of the angular frequencies if `addOtfPixel`. -/
noncomputable def fourierPixel (addOtfPixel : Bool) (n a b : ℕ) : ℝ :=
  if addOtfPixel then Rec.npSinc (angFreq n a) * Rec.npSinc (angFreq n b) else 1

/-- `sampRef` without Nyquist sampling, frequencyDomain.py:136-141 and 166: the sampling of a camera with pixels of
`ps` radians times the binning factor. -/
noncomputable def sampRef (k : ℕ) (wvl ps D : ℝ) : ℝ := k * (wvl / (ps * D))

/-- `self.otfPixel` of `psfR`, psfR.py:107-111 and 237-247, on the OTF of the frequency domain: one for telemetry of
OOMAO, otherwise the product of two `np.sinc`. -/
noncomputable def psfrPixel (oomao : Bool) (k : ℕ) (wvl ps D : ℝ) (n a b : ℕ) : ℝ :=
  if oomao then 1 else Rec.otfPixel D wvl (sampRef k wvl ps D) ps (angFreq n a) (angFreq n b)

/-- The OTF multiplied by that of the pixel, FourierUtils.py:465 and 583-586. -/
noncomputable def withPixel (otf : ℕ → ℕ → ℂ) (pix : ℕ → ℕ → ℝ) (a b : ℕ) : ℂ := otf a b * (pix a b : ℂ)

/-- High-resolution PSF at a position in fine pixels from the centre, FourierUtils.py:470-471 and 588-589. -/
noncomputable def fine (n : ℕ) (otf : ℕ → ℕ → ℂ) (p q : ℝ) : ℝ := (hires n otf p q).re

/-- One pixel of the binned PSF: `binning(psf, k)`, FourierUtils.py:624-640 and 478-482; `(p, q)` is the first fine pixel
of the block. -/
noncomputable def binnedAt (n k : ℕ) (otf : ℕ → ℕ → ℂ) (p q : ℤ) : ℝ :=
  ∑ i ∈ range k, ∑ j ∈ range k, fine n otf ((p : ℝ) + i) ((q : ℝ) + j)

end P3.Pixel
