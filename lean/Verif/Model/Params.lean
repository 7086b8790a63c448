import Verif.Model.Py
import Mathlib.Data.List.Basic
/-
Decoding of the parameter vector of a PSF model.  Source: /repo/p3/aoSystem/FourierUtils.py:306-385, and the
bounds of /repo/p3/aoSystem/fourierModel.py:335-357, /repo/p3/psfr/psfR.py:124-149,
/repo/p3/psfao21/psfao21.py:94-122.  Parameters are values of any type (the decoding only moves them).
-/
namespace P3.Params

/-- What the decoding reads from the PSF model. -/
structure Ctx where
  /-- `n_param_atm` -/
  nAtm : ℕ
  /-- `ao.atm.nL` -/
  nL : ℕ
  /-- `ao.dms.nRecLayers` -/
  nRec : ℕ
  /-- `n_param_dphi` -/
  nDphi : ℕ
  /-- `"jitterX" in param_labels` -/
  jitter : Bool
  /-- `ao.src.nSrc` -/
  nStar : ℕ
  /-- `nwvl` -/
  nWvl : ℕ
  /-- `len(ao.src.wvl)` -/
  nFrame : ℕ
  /-- `ao.tel.nModes` -/
  nModes : ℕ

/-- Number of atmospheric parameters taken from the vector, FourierUtils.py:315-331. -/
def Ctx.atm (c : Ctx) : ℕ :=
  if 0 < c.nAtm then (if 1 < c.nL ∧ 1 < c.nRec then c.nL else 1) else 0

/-- End of the phase parameters, FourierUtils.py:333. -/
def Ctx.endDphi (c : Ctx) : ℕ := c.atm + c.nDphi
/-- End of the jitter, FourierUtils.py:340-348. -/
def Ctx.endTT (c : Ctx) : ℕ := if c.jitter then c.endDphi + 3 else c.endDphi
/-- Number of (star, wavelength) pairs, FourierUtils.py:354. -/
def Ctx.nSrc (c : Ctx) : ℕ := c.nStar * c.nWvl
/-- End of the stellar parameters, FourierUtils.py:355. -/
def Ctx.endStellar (c : Ctx) : ℕ := c.endTT + 3 * c.nSrc + c.nFrame

/-- `l[a:b]` for non-negative bounds. -/
def slice {α : Type} (l : List α) (a b : ℕ) : List α := (l.take b).drop a

/-- The parts of the parameter vector; `none` where the code uses a default or `None`. -/
structure Parts (α : Type) where
  atm : List α
  dphi : List α
  jitter : Option (List α)
  flux : Option (List α)
  dx : Option (List α)
  dy : Option (List α)
  bkg : Option (List α)
  stat : Option (List α)

/-- `sort_params_from_labels`, FourierUtils.py:306-385: the slices of `x0` (before the flux is multiplied by
the transmittance and the positions are added to the dispersion). -/
def sortParams {α : Type} (c : Ctx) (x : List α) : Parts α :=
  let stellar := slice x c.endTT c.endStellar
  let given := c.endTT < x.length
  { atm := slice x 0 c.atm
    dphi := slice x c.atm c.endDphi
    jitter := if c.jitter = true ∧ c.endDphi < x.length then some (slice x c.endDphi (c.endDphi + 3)) else none
    flux := if given then some (slice stellar 0 c.nSrc) else none
    dx := if given then some (slice stellar c.nSrc (2 * c.nSrc)) else none
    dy := if given then some (slice stellar (2 * c.nSrc) (3 * c.nSrc)) else none
    bkg := if given then some (stellar.drop (3 * c.nSrc)) else none
    stat := if c.endStellar < x.length then some (x.drop c.endStellar) else none }

/-- Number of parameters with `nStat` static modes. -/
def Ctx.nParam (c : Ctx) (nStat : ℕ) : ℕ := c.endStellar + nStat

/-- Shape of the photometry matrix: `n_star x len(transmittance)` at one wavelength (FourierUtils.py:360-361,
by broadcasting a column with a vector), `n_star x n_wvl` otherwise (reshape, 365). -/
def fluxShape (nStar nWvl nTrans : ℕ) : ℕ × ℕ := if nWvl = 1 then (nStar, nTrans) else (nStar, nWvl)

/-- Photometry at one wavelength: `F[s, t] = x[s]*transmittance[t]`, FourierUtils.py:361. -/
def fluxMono {α : Type} [Mul α] (xs tr : List α) : List (List α) := xs.map (fun x => tr.map (fun t => x * t))

/-- Photometry at several wavelengths: row-major `reshape((n_star, n_wvl))`, FourierUtils.py:365. -/
def reshape {α : Type} (rows cols : ℕ) (l : List α) : Option (List (List α)) :=
  if l.length = rows * cols then some ((List.range rows).map (fun r => slice l (r * cols) ((r + 1) * cols)))
  else none

/-! ### Bounds -/

/-- Context of `fourierModel`: no atmosphere, no phase parameters, jitter; fourierModel.py:96-99. -/
def fourierCtx (nL nRec nStar nWvl nFrame nModes : ℕ) : Ctx := ⟨0, nL, nRec, 0, true, nStar, nWvl, nFrame, nModes⟩
/-- Number of bounds, fourierModel.py:335-357. -/
def fourierBounds (nStar : ℕ) : ℕ := 3 + nStar + 2 * nStar + 1

/-- Context of `psfR`, psfR.py:49-53. -/
def psfrCtx (nL nRec nStar nWvl nFrame nModes : ℕ) : Ctx :=
  ⟨min nL nRec, nL, nRec, 2, false, nStar, nWvl, nFrame, nModes⟩
/-- Number of bounds, psfR.py:124-149. -/
def psfrBounds (nL nStar nModes : ℕ) : ℕ := nL + 2 + nStar + 2 * nStar + 1 + nModes

/-- Context of `psfao21`, psfao21.py:34-35 and 79-80. -/
def psfaoCtx (nL nRec nStar nWvl nFrame nModes : ℕ) : Ctx :=
  ⟨min nL nRec, nL, nRec, 6, true, nStar, nWvl, nFrame, nModes⟩
/-- Number of bounds, psfao21.py:94-122. -/
def psfaoBounds (nL nRec nStar nWvl nModes : ℕ) : ℕ :=
  min nL nRec + 6 + 3 + nStar * nWvl + 2 * nStar * nWvl + nWvl + nModes

/-- Position of the first flux assumed by the fitting code, psfFitting.py:179. -/
def idFlux (c : Ctx) : ℕ := c.nAtm + c.nDphi + 3

end P3.Params
