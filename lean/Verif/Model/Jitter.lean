import Verif.Model.Pixel
/-
The residual jitter in the PSF and in the error breakdown.  Sources: /repo/p3/aoSystem/FourierUtils.py,
/repo/p3/aoSystem/fourierModel.py and /repo/p3/aoSystem/aoSystem.py.  Real and complex arithmetic, one source and one
wavelength, even sizes.
-/
namespace P3.Jitter
open P3.Psf

/-- Milliarcseconds in a radian, FourierUtils.py:442 and 540, `rad2mas` of fourierModel.py. -/
noncomputable def rad2mas : ℝ := 3600 * 180 * 1000 / Real.pi

/-- `u_max` of `sf_3D_to_psf_4D`, FourierUtils.py:540, in 1/mas; `samp` is the sampling of the fine grid. -/
noncomputable def umax (samp D wvl : ℝ) : ℝ := samp * D / wvl / rad2mas

open Classical in
/-- `Kjitter` of `sf_3D_to_psf_4D`, FourierUtils.py:536-545, at sample `(a, b)` of an OTF of `n x n` samples: one unless
one of the first two numbers of the jitter is not zero. -/
noncomputable def kernel4 (um jx jy jxy : ℝ) (n a b : ℕ) : ℝ :=
  if jx ≠ 0 ∨ jy ≠ 0 then Real.exp (-0.5 * jitter4 um jx jy jxy (angFreq n a) (angFreq n b)) else 1

/-- `Kjitter` of `sf_3D_to_psf_3D`, FourierUtils.py:440-447, with the same `u_max` (halved in this function). -/
noncomputable def kernel3 (um jx jy jxy : ℝ) (n a b : ℕ) : ℝ :=
  Real.exp (-0.5 * jitter3 um jx jy jxy (angFreq n a) (angFreq n b))

/-- `wfeJitter`, fourierModel.py:1655, in nm: `D` in metres, the first two numbers of `SpotFWHM` in mas. -/
noncomputable def wfeJitter (D jx jy : ℝ) : ℝ := 1e9 * D * ((jx + jy) / 2) / rad2mas / 4

end P3.Jitter
