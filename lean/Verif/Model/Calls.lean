import Verif.Model.Strehl
import Verif.Model.Params
import Verif.Model.Psfao
/-
Calls of a PSF model one after the other, and the state kept between them.  Sources:
/repo/p3/aoSystem/FourierUtils.py:69-123, 411-622, /repo/p3/aoSystem/fourierModel.py:1738-1777,
/repo/p3/aoSystem/frequencyDomain.py:191-195, /repo/p3/psfao21/psfao21.py:183-248, /repo/p3/psfr/psfR.py:29-43 and
265-282.  Real and complex arithmetic, one star, OTF arrays of `N x N` pixels with the sampling of the padded pupil at
all wavelengths (Nyquist sampling or one wavelength), so that nothing is interpolated.
-/
namespace P3.Calls
open Finset P3.Rec P3.Otf P3.Images P3.Params P3.Psf P3.Psfao

/-- A PSF model (`fourierModel`, `psfao21` or `psfR`) as far as one call is concerned. -/
structure Model (N : ℕ) where
  /-- samples of the pupil and pixels added on each side -/
  n : ℕ
  p : ℕ
  /-- `tel.pupil * tel.apodizer` -/
  pupil : ℕ → ℕ → ℝ
  /-- `tel.opdMap_on` -/
  opd : Option (ℕ → ℕ → ℝ)
  /-- `tel.statModes` -/
  modes : List (ℕ → ℕ → ℝ)
  /-- `ndimage.rotate(map, theta, reshape=False)` -/
  rot : ℝ → (ℕ → ℕ → ℝ) → ℕ → ℕ → ℝ
  /-- wavelengths of the frequency domain -/
  wvl : List ℝ
  /-- `freq.wvlRef` -/
  wvlRef : ℝ
  /-- layout of the vector of parameters -/
  ctx : Ctx
  /-- turbulence, jitter, pixel and position at wavelength number `j`, as functions of the vector of parameters -/
  other : ℕ → List ℝ → Pix N → ℂ
  /-- flux and background at wavelength number `j` -/
  F : ℕ → List ℝ → ℝ
  bkg : ℕ → List ℝ → ℝ
  /-- binning and sizes of the image -/
  k : ℕ
  fov : ℕ
  nPix : ℕ

variable {N : ℕ} [NeZero N]

/-- Rotation of the static map, FourierUtils.py:83-88: not for `theta_ext = 0`. -/
noncomputable def rotated (M : Model N) (theta : ℝ) (m : ℕ → ℕ → ℝ) : ℕ → ℕ → ℝ :=
  if theta = 0 then m else M.rot theta m

/-- `getStaticOTF` at the wavelength `w`, FourierUtils.py:69-109 (the spatial filter is left out). -/
noncomputable def getStatic (M : Model N) (w : ℝ) (x : Option (List ℝ)) (theta : ℝ) : Pix N → ℝ :=
  staticOtf M.n M.p M.pupil (staticPhase w (M.opd.map (rotated M theta)) M.modes (x.getD []))

/-- `freq.otfNCPA` of a new model, frequencyDomain.py:191-195: neither coefficients nor rotation. -/
noncomputable def init (M : Model N) : Pix N → ℝ := getStatic M M.wvlRef none 0

/-- Image and Strehl ratio returned for wavelength number `j` with the static OTF `ncpa`, FourierUtils.py:464-497 and
582-620. -/
noncomputable def out (M : Model N) (ncpa : Pix N → ℝ) (j : ℕ) (x : List ℝ) : Except PyErr (Img ℝ) × ℝ :=
  let tot : Pix N → ℂ := fun y => (ncpa y : ℂ) * M.other j x y
  let hi : Pix N → ℝ := fun y => (fftshift (idft (fftshift tot)) y).re
  ((detectorPsf (Strehl.toImg hi) M.k M.fov M.nPix).map fun im => scale im (M.F j x) (M.bkg j x),
    100 * (∑ y, ‖tot y‖) / ∑ y, dlOtf (N := N) M.n M.p M.pupil y)

/-- Static coefficients in the vector of parameters, FourierUtils.py:380-384. -/
def coeffs (M : Model N) (x : List ℝ) : Option (List ℝ) := (sortParams M.ctx x).stat

/-- A call through `sf_3D_to_psf_3D` (`psfao21` at one wavelength and `psfR`), FourierUtils.py:411-499: `freq.otfNCPA`
after the call, image and Strehl ratio.  `theta_ext` is an argument of this function and is not used. -/
noncomputable def call3 (M : Model N) (theta : ℝ) (ncpa : Pix N → ℝ) (x : List ℝ) :
    (Pix N → ℝ) × (Except PyErr (Img ℝ) × ℝ) :=
  let _ := theta
  let s := match coeffs M x with
    | none => ncpa
    | some c => getStatic M M.wvlRef (some c) 0
  (s, out M s 0 x)

/-- One turn of the loop of `sf_3D_to_psf_4D`, FourierUtils.py:567-620. -/
noncomputable def turn (M : Model N) (theta : ℝ) (x : List ℝ) (st : (Pix N → ℝ) × List (Except PyErr (Img ℝ) × ℝ))
    (jw : ℕ × ℝ) : (Pix N → ℝ) × List (Except PyErr (Img ℝ) × ℝ) :=
  let s := if 1 < M.wvl.length ∨ (coeffs M x).isSome = true then getStatic M jw.2 (coeffs M x) theta else st.1
  (s, st.2 ++ [out M s jw.1 x])

/-- A call through `sf_3D_to_psf_4D` (`fourierModel`), FourierUtils.py:501-622. -/
noncomputable def call4 (M : Model N) (theta : ℝ) (ncpa : Pix N → ℝ) (x : List ℝ) :
    (Pix N → ℝ) × List (Except PyErr (Img ℝ) × ℝ) :=
  (((List.range M.wvl.length).zip M.wvl)).foldl (turn M theta x) (ncpa, [])

/-- `freq.otfNCPA` after calls with the vectors `h`, the first one first. -/
noncomputable def after3 (M : Model N) (theta : ℝ) (h : List (List ℝ)) : Pix N → ℝ :=
  h.foldl (fun s x => (call3 M theta s x).1) (init M)
noncomputable def after4 (M : Model N) (theta : ℝ) (h : List (List ℝ)) : Pix N → ℝ :=
  h.foldl (fun s x => (call4 M theta s x).1) (init M)

/-- `point_spread_function` of `fourierModel`, fourierModel.py:1758-1765, and `__call__` of `psfR`, psfR.py:274-281:
neither passes an angle; `psfR` only keeps the one it is given (29 and 43). -/
noncomputable def fourierCall (M : Model N) (ncpa : Pix N → ℝ) (x : List ℝ) := call4 M 0 ncpa x
noncomputable def psfrCall (M : Model N) (thetaExt : ℝ) (ncpa : Pix N → ℝ) (x : List ℝ) :=
  let _ := thetaExt
  call3 M 0 ncpa x

/-! ### The arrays returned by psfR -/

/-- `PSF = psf/psf.sum(axis=(0,1)) * F` and `PSF + bkg`, FourierUtils.py:496-499, with arrays. `psf` has `fov x fov x
nStar` values. -/
noncomputable def scaleArr (fov nStar : ℕ) (psf : ℕ → ℕ → ℕ → ℝ) (F bkg : Arr) : Except PyErr Arr := do
  let unit : Arr := ⟨[fov, fov, nStar], fun i => psf (i.getD 0 0) (i.getD 1 0) (i.getD 2 0) /
    ∑ a ∈ range fov, ∑ b ∈ range fov, psf a b (i.getD 2 0)⟩
  let s ← mulA unit F
  addA s bkg

/-- The array returned by `psfR.__call__`, psfR.py:265-282: photometry and background as `sort_params_from_labels`
returns them (FourierUtils.py:357-377; `nStar x nWvl` and `nFrame` values), whereas `psfao21` passes vectors. `F s w`
and `bkg w` are the values, `psf` the images after binning and cropping. -/
noncomputable def psfrArray (fov nStar nWvl nFrame : ℕ) (psf : ℕ → ℕ → ℕ → ℝ) (F : ℕ → ℕ → ℝ) (bkg : ℕ → ℝ) : Except PyErr Arr :=
  scaleArr fov nStar psf ⟨[nStar, nWvl], fun i => F (i.getD 0 0) (i.getD 1 0)⟩ ⟨[nFrame], fun i => bkg (i.getD 0 0)⟩

/-- The array `psfao21.__call__` gets at one wavelength, psfao21.py:194-217: vectors of `nStar` fluxes and one
background. -/
noncomputable def psfaoArray (fov nStar : ℕ) (psf : ℕ → ℕ → ℕ → ℝ) (F : ℕ → ℝ) (bkg : ℝ) : Except PyErr Arr :=
  scaleArr fov nStar psf ⟨[nStar], fun i => F (i.getD 0 0)⟩ ⟨[], fun _ => bkg⟩

/-! ### Strehl ratios kept by PSFAO21 -/

/-- `self.SR` after `__call__` of `psfao21`, psfao21.py:208 and 238: one assignment, or one per wavelength in the
loop. `srs` are the Strehl ratios of the stars at each wavelength. -/
def keptSR (srs : List (List ℝ)) : Option (List ℝ) := srs.foldl (fun _ s => some s) none

end P3.Calls
