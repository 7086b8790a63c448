import Verif.Model.Psf
import Verif.Model.Reconstruction
import Mathlib.Data.Finset.Lattice.Fold
/-
Pupils, optical transfer functions and PSFs.  Source: /repo/p3/aoSystem/FourierUtils.py.  Real and complex
arithmetic.  Square arrays of `N x N` pixels are functions on `Pix N` (indices modulo `N`), so that
`fft2`, `ifft2` are `dft`, `idft` of `Verif.Model.Reconstruction`.
-/
namespace P3.Otf
open Finset P3.Rec P3.Images

/-! ### Shifts and padding -/

/-- Pixel `(N//2, N//2)`. -/
def centre (N : ℕ) : Pix N := (((N / 2 : ℕ) : ZMod N), ((N / 2 : ℕ) : ZMod N))

/-- `fft.fftshift` of a square array: `fftshift(a)[x] = a[x - N//2]`. -/
def fftshift {N : ℕ} {α : Type} (a : Pix N → α) : Pix N → α := fun x => a (x - centre N)

/-- `fft.ifftshift` of a square array: `ifftshift(a)[x] = a[x + N//2]`. -/
def ifftshift {N : ℕ} {α : Type} (a : Pix N → α) : Pix N → α := fun x => a (x + centre N)

/-- Number of pixels added on each side by `enlargeSupport`, FourierUtils.py:698-700. -/
noncomputable def padOf (n : ℕ) (samp : ℝ) : ℤ := trunc ((samp - 1) * n / 2)

/-- A `n x n` array continued by zeros. -/
def ext {α : Type} [Zero α] (n : ℕ) (E : ℕ → ℕ → α) (i j : ℤ) : α :=
  if 0 ≤ i ∧ i < n ∧ 0 ≤ j ∧ j < n then E i.toNat j.toNat else 0

/-- `enlargeSupport` of a `n x n` array with `p` pixels on each side, FourierUtils.py:697-701; the result has
`N = n + 2 p` pixels. -/
def padded {α : Type} [Zero α] {N : ℕ} (n p : ℕ) (E : ℕ → ℕ → α) : Pix N → α :=
  fun x => ext n E ((x.1.val : ℤ) - p) ((x.2.val : ℤ) - p)

/-! ### Optical transfer functions -/

/-- `fftCorrel` of two square arrays, FourierUtils.py:33-39. -/
noncomputable def fftCorrel {N : ℕ} [NeZero N] (x y : Pix N → ℂ) : Pix N → ℂ := fun r =>
  idft (fun k => dft x k * (starRingEnd ℂ) (dft y k)) r / ((N : ℂ) * N)

/-- Field in the pupil: `pupil * exp(1j*phase)`, FourierUtils.py:269. -/
noncomputable def field (pupil phase : ℕ → ℕ → ℝ) (i j : ℕ) : ℂ :=
  pupil i j * Complex.exp (Complex.I * phase i j)

open Classical in
/-- `pupil2otf` of a `n x n` pupil padded by `p` pixels, FourierUtils.py:262-273. -/
noncomputable def pupil2otf {N : ℕ} [NeZero N] (n p : ℕ) (pupil phase : ℕ → ℕ → ℝ) : Pix N → ℂ :=
  if ∀ i < n, ∀ j < n, phase i j = 0 then
    let E : Pix N → ℂ := padded n p (fun i j => ((|pupil i j| : ℝ) : ℂ))
    fun x => (((fftshift (fftCorrel E E) x).re : ℝ) : ℂ)
  else
    let E : Pix N → ℂ := padded n p (field pupil phase)
    fftshift (fftCorrel E E)

/-- Largest value of a real array (`.max()`). -/
noncomputable def maxPix {N : ℕ} [NeZero N] (a : Pix N → ℝ) : ℝ :=
  (univ : Finset (Pix N)).sup' ⟨0, mem_univ _⟩ a

/-- Static phase in radians of `getStaticOTF`, FourierUtils.py:80-99, at one pixel: the OPD map (nm) if any
and the modes weighted by `xStat` if there are as many coefficients as modes.  Rotation of the map and
spatial filtering are left out. -/
noncomputable def staticPhase (wvl : ℝ) (opd : Option (ℕ → ℕ → ℝ)) (modes : List (ℕ → ℕ → ℝ))
    (xStat : List ℝ) (i j : ℕ) : ℝ :=
  (match opd with
    | some m => 2 * Real.pi * 1e-9 / wvl * m i j
    | none => 0) +
  (if modes.length = xStat.length then
    2 * Real.pi * 1e-9 / wvl * (List.zipWith (fun m x => m i j * x) modes xStat).sum
  else 0)

/-- Instrumental OTF of `getStaticOTF`, FourierUtils.py:106-109: the real part of the OTF over its largest
value.  The requested size is that of the padded pupil (no interpolation). -/
noncomputable def staticOtf {N : ℕ} [NeZero N] (n p : ℕ) (pupil phase : ℕ → ℕ → ℝ) (x : Pix N) : ℝ :=
  (pupil2otf n p pupil phase x).re / maxPix (fun y : Pix N => (pupil2otf n p pupil phase y).re)

/-- Diffraction-limited OTF of `getStaticOTF`, FourierUtils.py:112-118. -/
noncomputable def dlOtf {N : ℕ} [NeZero N] (n p : ℕ) (pupil : ℕ → ℕ → ℝ) (x : Pix N) : ℝ :=
  staticOtf n p pupil (fun _ _ => 0) x

/-- `telescopeOtf` before its normalisation, FourierUtils.py:390-391 (`samp > 1`). -/
noncomputable def telescopeOtf {N : ℕ} [NeZero N] (n p : ℕ) (pupil : ℕ → ℕ → ℝ) : Pix N → ℂ :=
  fftshift (idft fun k => dft (fftshift (toC (padded n p pupil))) k ^ 2)

/-! ### PSF -/

/-- Frequency of sample `a` of `fft.fftshift(fft.fftfreq(N))`. -/
noncomputable def freqOf {N : ℕ} (a : ZMod N) : ℝ := ((a.val : ℝ) - (N / 2 : ℕ)) / N

/-- `otf2psf` of a square array before its normalisation, FourierUtils.py:172-187. -/
noncomputable def psfRaw {N : ℕ} [NeZero N] (otf : Pix N → ℂ) (onePix : Bool) : Pix N → ℝ :=
  let ph : Pix N → ℂ := fun a =>
    if N % 2 = 0 ∧ onePix = false then Complex.exp (Complex.I * Real.pi * ((freqOf a.2 + freqOf a.1 : ℝ) : ℂ))
    else 1
  if N % 2 = 0 then fun x => (fftshift (idft (fftshift fun a => otf a * ph a)) x).re
  else fun x => (fftshift (idft (ifftshift fun a => otf a * ph a)) x).re

/-- `otf2psf`, FourierUtils.py:189; a zero sum gives `nan` (`none`). -/
noncomputable def otf2psf {N : ℕ} [NeZero N] (otf : Pix N → ℂ) (onePix : Bool) : Option (Pix N → ℝ) :=
  let out := psfRaw otf onePix
  if ∑ x, out x = 0 then none else some fun x => out x / ∑ y, out y

/-- `pupil2psf`, FourierUtils.py:275-277. -/
noncomputable def pupil2psf {N : ℕ} [NeZero N] (n p : ℕ) (pupil phase : ℕ → ℕ → ℝ) : Option (Pix N → ℝ) :=
  otf2psf (N := N) (pupil2otf n p pupil phase) false

/-- `psf2otf` of a square array, FourierUtils.py:259-260. -/
noncomputable def psf2otf {N : ℕ} [NeZero N] (psf : Pix N → ℝ) : Pix N → ℂ := fun k =>
  dft (fftshift (toC psf)) k / ((∑ x, psf x : ℝ) : ℂ)

/-- Shapes in `otf2psf`, FourierUtils.py:174-187: `np.meshgrid(u1d, v1d)` gives arrays of shape `(nY, nX)`,
multiplied with the OTF of shape `(nX, nY)` if a phasor is used. The shape of the PSF. -/
def otf2psfShape (nX nY : ℕ) (onePix : Bool) : Except PyErr (ℕ × ℕ) :=
  if nX % 2 = 0 ∧ onePix = false then
    if (nX = nY ∨ nX = 1 ∨ nY = 1) then .ok (max nX nY, max nX nY) else .error .broadcast
  else .ok (nX, nY)

/-! ### Recentring -/

/-- Phasor of `centerPsf` and of the `otf2psf` called after it, FourierUtils.py:875-886, along one axis of even
length at frequency `f`, for a peak at `d` pixels from the centre of the array. -/
noncomputable def centerPhasor (d f : ℝ) : ℂ :=
  Complex.exp (-1 * Complex.I * Real.pi * ((f * d : ℝ) : ℂ)) * Complex.exp (1 * Complex.I * Real.pi * (f : ℂ))

/-! ### Full transform from the transform of a real image -/

/-- `_rfft2_to_fft2`, FourierUtils.py:145-170, for an image of `R x C` pixels; `rf` is the half transform with
`C/2 + 1` columns.  The three assignments (whole left part, end of the first row, all but the first row and
column) are made in this order, the last one prevailing. -/
def rfftToFft (R C : ℕ) (rf : ℕ → ℕ → ℂ) : ℕ → ℕ → ℂ :=
  let fc := C / 2 + 1
  -- `mid = rfft[1:, 1:]`, of `R - 1` rows and `fc - 1` columns, and `mid[::-1, ::-1]`
  let mid : ℕ → ℕ → ℂ := fun i j => rf (i + 1) (j + 1)
  let rev : ℕ → ℕ → ℂ := fun i j => mid (R - 2 - i) (fc - 2 - j)
  -- `np.hstack((mid, ...))`
  let wide : ℕ → ℕ → ℂ := fun i j =>
    if j < fc - 1 then mid i j
    else if C % 2 = 0 then (starRingEnd ℂ) (rev i (j - (fc - 1) + 1))
    else (starRingEnd ℂ) (rev i (j - (fc - 1)))
  -- first row: `top = rfft[0, 1:]`, `top[::-1]`
  let topRev : ℕ → ℂ := fun j => rf 0 (fc - 2 - j + 1)
  let start := if C % 2 = 0 then fc - 1 else fc
  fun k l =>
    if 1 ≤ k ∧ 1 ≤ l then wide (k - 1) (l - 1)
    else if k = 0 ∧ start ≤ l then (starRingEnd ℂ) (topRev (l - start))
    else if l < fc then rf k l
    else 0

/-- Number of columns of `wide` above and of the target `result[1:, 1:]`; numpy refuses the assignment when they
differ.  FourierUtils.py:157-168. -/
def rfftCols (C : ℕ) : ℕ × ℕ :=
  let fc := C / 2 + 1
  (if C % 2 = 0 then (fc - 1) + (fc - 1 - 1) else (fc - 1) + (fc - 1), C - 1)

/-! ### Structure function of a phase map -/

/-- `fftsym` of a square complex array, FourierUtils.py:44-58. -/
noncomputable def symPix {N : ℕ} (a : Pix N → ℂ) : Pix N → ℂ := fun x =>
  (Psf.fftsym 0 N (fun i j => a ((i : ZMod N), (j : ZMod N)))).px x.1.val x.2.val

open Classical in
/-- `phase_to_structure_function`, FourierUtils.py:225-239, of a `n x n` phase map padded by `p` pixels. Complex
numbers are compared as numpy does (`Psf.cle`). -/
noncomputable def phaseToSf {N : ℕ} [NeZero N] (n p : ℕ) (thr : ℝ) (phi pup : ℕ → ℕ → ℝ) : Pix N → ℝ :=
  let phi2 : Pix N → ℂ := toC (padded n p phi)
  let pup2 : Pix N → ℂ := toC (padded n p pup)
  let corp2w := fftCorrel (fun x => phi2 x ^ 2) pup2
  let corpp := fftCorrel phi2 phi2
  let dphi : Pix N → ℂ := fun x => corp2w x + symPix corp2w x - 2 * corpp x
  let corww := fftCorrel pup2 pup2
  let mask : Pix N → ℂ := fun x => if Psf.cle (corww x) thr then 0 else 1
  let den : Pix N → ℂ := fun x => if Psf.cle (corww x) 1 then 1 else corww x
  fun x => (fftshift (fun y => dphi y * mask y / den y) x).re

end P3.Otf
