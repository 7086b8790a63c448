import Verif.Model.PsdPsf
import Verif.Model.Metrics
/-
Strehl ratios reported beside the PSFs.  Source: /repo/p3/aoSystem/FourierUtils.py and
/repo/p3/aoSystem/fourierModel.py.  Real and complex arithmetic, one source at a time (the code treats them
independently), square arrays of `N x N` pixels.
-/
namespace P3.Strehl
open Finset P3.Rec P3.Otf P3.PsdPsf P3.Images P3.Metrics

/-- `phaseStructureFunction`, fourierModel.py:1302-1307, for the plane of the spectrum of one source (nm²). -/
noncomputable def phaseSf {N : ℕ} [NeZero N] (psd : Pix N → ℝ) : Pix N → ℝ :=
  fftshift fun k => 2 * (maxC (fun l => dft (fftshift (toC psd)) l) - dft (fftshift (toC psd)) k).re

/-- `otfTurb`, FourierUtils.py:585. -/
noncomputable def otfTurb (sf wvl : ℝ) : ℝ := Real.exp (-0.5 * sf * (2 * Real.pi * 1e-9 / wvl) ^ 2)

/-- What multiplies the turbulence at one frequency: the static OTF, the jitter kernel, the OTF of the pixel and the
phasor of the position, FourierUtils.py:583-586. -/
structure Instr (N : ℕ) where
  ncpa : Pix N → ℝ
  kjitter : Pix N → ℝ
  pixel : Pix N → ℝ
  phasor : Pix N → ℂ

/-- `otfTot`, FourierUtils.py:583-586 (before its `fftshift`, which does not change the sum below). -/
noncomputable def otfTot {N : ℕ} (I : Instr N) (sf : Pix N → ℝ) (wvl : ℝ) (x : Pix N) : ℂ :=
  ((otfTurb (sf x) wvl : ℝ) : ℂ) * ((I.ncpa x * I.kjitter x * I.pixel x : ℝ) : ℂ) * I.phasor x

/-- `SR`, FourierUtils.py:617: the same `freq.otfDL` for all wavelengths. -/
noncomputable def sr {N : ℕ} [NeZero N] (I : Instr N) (sf : Pix N → ℝ) (wvl : ℝ) (otfDL : Pix N → ℝ) : ℝ :=
  100 * (∑ x : Pix N, ‖otfTot I sf wvl x‖) / ∑ x : Pix N, otfDL x

/-- No static aberration, no jitter, no pixel: the static OTF is the diffraction-limited one. -/
noncomputable def perfect {N : ℕ} (dl : Pix N → ℝ) (ph : Pix N → ℂ) : Instr N := ⟨dl, fun _ => 1, fun _ => 1, ph⟩

/-- Real array as an image. -/
def toImg {N : ℕ} (a : Pix N → ℝ) : Img ℝ := ⟨N, N, fun i j => a ((i : ZMod N), (j : ZMod N))⟩

/-- `getStaticOTF` without aberrations for an OTF of `M x M` pixels, FourierUtils.py:105-113: the real part of the
OTF of the `n x n` pupil padded by `p` pixels (`N = n + 2 p`), resampled with the default kind of
`interpolateSupport` (`fit` is the interpolant of scipy) and divided by its largest value. -/
noncomputable def flatOtf (fit : List ℝ → List ℝ → Img ℝ → ℝ → ℝ → ℝ) (M N : ℕ) [NeZero M] [NeZero N] (n p : ℕ)
    (pupil : ℕ → ℕ → ℝ) : Except PyErr (Pix M → ℝ) :=
  match interpolate fit true (toImg fun x : Pix N => (pupil2otf n p pupil (fun _ _ => 0) x).re) M M with
  | .error e => .error e
  | .ok im =>
    let o : Pix M → ℝ := fun x => im.px x.1.val x.2.val
    .ok fun x => o x / maxPix o

/-- Strehl ratio at one wavelength of a telescope without any error in `sf_3D_to_psf_4D`, FourierUtils.py:569-574
and 617: the static OTF is computed for the padding `p` of the wavelength, `otfDL` is that of the reference
wavelength (padding `pRef`; frequencyDomain.py:191-195) and is not updated. -/
noncomputable def perfectSr (fit : List ℝ → List ℝ → Img ℝ → ℝ → ℝ → ℝ) (M NRef N : ℕ) [NeZero M] [NeZero NRef]
    [NeZero N] (n pRef p : ℕ) (pupil : ℕ → ℕ → ℝ) (wvl : ℝ) : Except PyErr ℝ := do
  let dl ← flatOtf fit M NRef n pRef pupil
  let ncpa ← flatOtf fit M N n p pupil
  .ok (sr ⟨ncpa, fun _ => 1, fun _ => 1, fun _ => 1⟩ (fun _ => 0) wvl dl)

end P3.Strehl
