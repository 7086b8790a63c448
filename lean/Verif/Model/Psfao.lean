import Verif.Model.Psf
import Verif.Model.Otf
import Verif.Model.Params
import Verif.Model.FrequencyDomain
import Mathlib.Data.EReal.Basic
/-
The PSFAO21 model.  Source: /repo/p3/psfao21/psfao21.py (with the parts of /repo/p3/aoSystem/FourierUtils.py that it
calls).  The analytical PSD itself is that of the `maoppy` package, which is not part of /repo: it is an arbitrary
array here.  Real and complex arithmetic.
-/
namespace P3.Psfao
open Finset P3.Images P3.Psf

/-! ### numpy arrays -/

/-- A numpy array: its shape and the value at each multi-index. -/
structure Arr where
  shape : List ℕ
  val : List ℕ → ℝ

/-- Common length of two axes, or `ValueError`. -/
def bdim (a b : ℕ) : Except PyErr ℕ :=
  if a = b then .ok a else if a = 1 then .ok b else if b = 1 then .ok a else .error .broadcast

/-- Common shape of two arrays, last axis first. -/
def bshapeRev : List ℕ → List ℕ → Except PyErr (List ℕ)
  | [], ys => .ok ys
  | xs, [] => .ok xs
  | x :: xs, y :: ys => do
    let d ← bdim x y
    let r ← bshapeRev xs ys
    pure (d :: r)

/-- numpy broadcasting of shapes (axes are aligned on the last one). -/
def bshape (xs ys : List ℕ) : Except PyErr (List ℕ) := do
  let r ← bshapeRev xs.reverse ys.reverse
  pure r.reverse

/-- Index into an array of the given shape for an index of the broadcast result: leading axes are dropped, axes of
length one are read at 0. -/
def bidx (shape idx : List ℕ) : List ℕ :=
  List.zipWith (fun d i => if d = 1 then 0 else i) shape (idx.drop (idx.length - shape.length))

/-- `a * b` -/
def mulA (a b : Arr) : Except PyErr Arr := do
  let s ← bshape a.shape b.shape
  pure ⟨s, fun idx => a.val (bidx a.shape idx) * b.val (bidx b.shape idx)⟩

/-- `a + b` -/
def addA (a b : Arr) : Except PyErr Arr := do
  let s ← bshape a.shape b.shape
  pure ⟨s, fun idx => a.val (bidx a.shape idx) + b.val (bidx b.shape idx)⟩

/-- `a.sum(axis=2)`: numpy raises an `AxisError` (an `IndexError`) if there is no such axis. -/
def sumAxis2 (a : Arr) : Except PyErr Arr :=
  if 2 < a.shape.length then
    .ok ⟨a.shape.eraseIdx 2, fun idx => ∑ k ∈ range (a.shape.getD 2 0), a.val (idx.insertIdx 2 k)⟩
  else .error .indexError

/-! ### Phase structure function -/

/-- `fft.rfft2(fft.fftshift(psd)) / (D*samp)**2`, psfao21.py:167: the first half of the columns of the transform. -/
noncomputable def halfCov (psd : Img ℝ) (D samp : ℝ) (k l : ℕ) : ℂ := fftPsd psd k l / ((D * samp) ^ 2 : ℝ)

/-- `_rfft2_to_fft2(psd.shape, ...)`, psfao21.py:168, before the last `fftshift`. -/
noncomputable def fullCov (psd : Img ℝ) (D samp : ℝ) (k l : ℕ) : ℂ :=
  P3.Otf.rfftToFft psd.nx psd.ny (halfCov psd D samp) k l

/-- `Bphi`, psfao21.py:168. -/
noncomputable def cov (psd : Img ℝ) (D samp : ℝ) (k l : ℕ) : ℂ :=
  fullCov psd D samp (shiftIdx psd.nx k) (shiftIdx psd.ny l)

/-- `np.real(2*(Bphi.max() - Bphi))`, psfao21.py:171, given the maximum `m`. -/
noncomputable def onAxisSF (psd : Img ℝ) (D samp : ℝ) (m : ℂ) (k l : ℕ) : ℝ := (2 * (m - cov psd D samp k l)).re

/-- `get_opd_structure_function`, psfao21.py:173-181: `sf` is the on-axis function on `n x n` pixels; `ani` tells
whether the frequency domain has an anisoplanatism function and is its value (`freq.dphi_ani`, of shape
`nSrc x n x n`, frequencyDomain.py:264-265); `nL` is `freq.dani_ang.shape[1]`; `cn2` the fitted profile. -/
def opdSF (n nSrc : ℕ) (sf : ℕ → ℕ → ℝ) (ani : Option (ℕ → ℕ → ℕ → ℝ)) (nL : ℕ) (cn2 : Option (List ℝ)) :
    Except PyErr Arr :=
  match ani, cn2 with
  | some d, some c =>
    if c.length = nL then do
      let p ← mulA ⟨[nSrc, n, n], fun i => d (i.getD 0 0) (i.getD 1 0) (i.getD 2 0)⟩ ⟨[c.length], fun i => c.getD (i.getD 0 0) 0⟩
      let s ← sumAxis2 p
      addA ⟨[n, n, 1], fun i => sf (i.getD 0 0) (i.getD 1 0)⟩ s
    else .ok ⟨[n, n, nSrc], fun i => sf (i.getD 0 0) (i.getD 1 0)⟩
  | _, _ => .ok ⟨[n, n, nSrc], fun i => sf (i.getD 0 0) (i.getD 1 0)⟩

/-- The fitted profile seen by the structure function, FourierUtils.py:314-330 with `n_param_atm = min(nL, nRec)`
(psfao21.py:79): several layers give the list of their strengths, a single one gives `None`. -/
def fittedCn2 (nL nRec : ℕ) (x : List ℝ) : Option (List ℝ) :=
  if 0 < min nL nRec ∧ 1 < nL ∧ 1 < nRec then some (x.take nL) else none

/-! ### The array of PSFs -/

/-- `psf/psf.sum(axis=(0,1)) * F + bkg`, FourierUtils.py:496 and 499: the shape for `nSrc` PSFs of `fov` pixels. -/
def psfShape (fov nSrc : ℕ) (fShape bkgShape : List ℕ) : Except PyErr (List ℕ) := do
  let s ← bshape [fov, fov, nSrc] [nSrc]
  let s ← bshape s fShape
  bshape s bkgShape

/-- Shapes of the photometry and background of `sort_params_from_labels`, FourierUtils.py:357-376, for `nCen` source
wavelengths and `nBin` bins (the length of the transmittance): `given` is `len(x0) > n_tt` and the number of background
values in `x0`.  Several wavelengths. -/
def stellarShapes (nStar nCen nBin : ℕ) (given : Option ℕ) : Except PyErr (List ℕ × List ℕ) :=
  match given with
  | some nb => .ok ([nStar, nBin * nCen], [nb])
  | none => do
    let f ← bshape [1, nBin] [nBin * nCen]
    let b ← bshape [1] [nBin * nCen]
    pure ([nStar * f.getD 0 0, f.getD 1 0], b)

/-- `__call__` with several wavelengths, psfao21.py:219-248: shape of the result.  `len(self.ao.src.wvl)` is one after
the construction (67), so that the whole background array is passed at each wavelength (229-231); the PSFs are stacked
and the axes permuted (247). -/
def callShape (fov nStar nCen nBin : ℕ) (given : Option ℕ) : Except PyErr (List ℕ) := do
  let (f, b) ← stellarShapes nStar nCen nBin given
  let rows ← column f 0
  let s ← psfShape fov nStar [rows] b
  match s with
  | [a, b, c] => pure [a, b, c, nBin * nCen]
  | _ => .error .broadcast        -- `transpose` of an array that has not four axes

/-! ### Reported wavefront errors -/

/-- `np.sqrt(variance) * wvl*1e9/2/pi`, psfao21.py:154-155: a phase variance in nm at the wavelength `wvl`. -/
noncomputable def toNm (wvl var : ℝ) : ℝ := Real.sqrt var * (wvl * 1e9 / 2 / Real.pi)

/-- `self.wfe` after a call, psfao21.py:149-155 in the loop 220-238: each wavelength overwrites the last value; `vars`
are the variances given by the PSD models. -/
noncomputable def reportedWfe (wvls vars : List ℝ) : Option ℝ := (List.zipWith toNm wvls vars).getLast?

/-- Phase variance in the PSF at the wavelength `wn`, psfao21.py:222 and 241: the structure function of the PSD is
multiplied by `(w0/wn)**2`. -/
noncomputable def usedVar (w0 wn var : ℝ) : ℝ := var * (w0 / wn) ^ 2

/-! ### Construction -/

/-- The part of the AO system that describes the spectral bands. -/
structure Spectral where
  /-- `ao.src.wvl` -/
  wvl : List ℝ
  /-- `ao.cam.nWvl` -/
  nBin : ℕ
  /-- `ao.cam.bandwidth` -/
  bw : ℝ

/-- One turn of the loop of `__init__`, psfao21.py:63-70: the description is overwritten, then a frequency domain is
built from it (its wavelengths, frequencyDomain.py:106-114). -/
noncomputable def initStep (st : Spectral × List (Except PyErr (List ℝ))) (w : ℝ) :
    Spectral × List (Except PyErr (List ℝ)) :=
  let s : Spectral := ⟨[w], 1, 0⟩
  (s, st.2 ++ [P3.Freq.freqWvl (P3.Freq.unique s.wvl) s.bw s.nBin])

/-- `__init__`, psfao21.py:55-76: the description left behind and the wavelengths of each frequency domain, for the
wavelength vector `wvl` computed from the description before (55). -/
noncomputable def init (s : Spectral) (wvl : List ℝ) : Spectral × List (Except PyErr (List ℝ)) :=
  if 1 < wvl.length then wvl.foldl initStep (s, [])
  else (s, [P3.Freq.freqWvl (P3.Freq.unique s.wvl) s.bw s.nBin])

/-- `self.psfao_19.bounds = ...` in `update_bounds`, psfao21.py:142: `psfao_19` is a list when there are several
wavelengths (57), and a list has no such attribute. -/
def storeBounds (nWvl : ℕ) : Except PyErr Unit := if 1 < nWvl then .error .attributeError else .ok ()

/-! ### Values of the bounds -/

/-- `define_bounds`, psfao21.py:94-122, as pairs of lower and upper bounds; `maxWvl` is `max(self.wvl)` in metres.
`-npix//2` is the floor of `-npix/2`. -/
noncomputable def defineBounds (nL nRec nSrc nWvl npix nModes : ℕ) (maxWvl : ℝ) : List (EReal × EReal) :=
  let r : ℝ → EReal := fun x => (x : EReal)
  List.replicate (min nL nRec) (r 1e-3, ⊤) ++
  [(0, ⊤), (0, ⊤), (r 1e-3, ⊤), (r 1e-2, r 1e2), (r (-Real.pi), r Real.pi), (r 1.01, r 5)] ++
  [(0, ⊤), (0, ⊤), (⊥, ⊤)] ++
  List.replicate (nSrc * nWvl) (0, ⊤) ++
  List.replicate (2 * nSrc * nWvl) (r (((-(npix : ℤ)) / 2 : ℤ) : ℝ), r ((npix / 2 : ℕ) : ℝ)) ++
  List.replicate nWvl (⊥, ⊤) ++
  List.replicate nModes (r (-maxWvl / 2 * 1e9), r (maxWvl / 2 * 1e9))

end P3.Psfao
