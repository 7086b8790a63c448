import Verif.Model.Spectra
/-
Cone effect with one laser, cone effect of a constellation of lasers, vibrations, open loop, and the attributes that are
freed to save memory.
Source: /repo/p3/aoSystem/fourierModel.py:350-422, 766-927, 1128-1173, 1309-1492, 1635-1706.
Real and complex arithmetic; `none` is a numpy `nan`.
-/
namespace P3.Cone
open Finset P3.Fourier P3.Tomo

/-- `np.std` of `n` values. -/
noncomputable def std (n : ℕ) (v : ℕ → ℝ) : ℝ := √((∑ i ∈ range n, (v i - (∑ j ∈ range n, v j) / n) ^ 2) / n)

/-- `x = D*np.linspace(-0.5, 0.5, 1001)`, fourierModel.py:1323-1325. -/
noncomputable def xs (D : ℝ) (i : ℕ) : ℝ := D * (-(1/2) + i / 1000)

/-- `sin_ref` and `sin_temp` for the phase `p`, 1348-1353. -/
noncomputable def wave (D f : ℝ) (p i : ℕ) : ℝ := Real.sin (2 * Real.pi * f * xs D i + 2 * Real.pi * p / 5)

/-- One phase: standard deviation of the residual over that of the wave, 1355-1361. -/
noncomputable def phaseCoeff (D f r : ℝ) (p : ℕ) : Option ℝ :=
  let a := std 1001 (wave D f p)
  let b := std 1001 (wave D (f * r) p)
  if a = 0 ∨ b = 0 then none else some (std 1001 (fun i => wave D f p i - a / b * wave D (f * r) p i) / a)

/-- `coeff` at one frequency and one layer, 1361: mean over five phases. -/
noncomputable def coneCoeff (D f r : ℝ) : Option ℝ :=
  ((List.range 5).mapM (phaseCoeff D f r)).map fun l => l.sum / 5

/-- The same after `coeff[non_valid_mask] = 0`, 1363-1367. -/
noncomputable def coneNode (D f r kc : ℝ) : Option ℝ :=
  open Classical in if f * r > kc ∨ f < 1e-5 then some 0 else coneCoeff D f r

/-- `np.interp(x, xp, fp)`. -/
noncomputable def interp : List (ℝ × ℝ) → ℝ → ℝ
  | [], _ => 0
  | [(_, y0)], _ => y0
  | (x0, y0) :: (x1, y1) :: t, x =>
    open Classical in
    if x < x1 then (if x ≤ x0 then y0 else (y1 - y0) / (x1 - x0) * (x - x0) + y0) else interp ((x1, y1) :: t) x

/-- Coefficient of a layer at the frequency `k`, 1371-1372. -/
noncomputable def coneLayer (D : ℝ) (freqs : List ℝ) (r kc k : ℝ) : Option ℝ :=
  (freqs.mapM fun f => (coneNode D f r kc).map fun y => (f, y)).map fun pts => interp pts k

/-- `focalAnisoplanatismPSD` at one frequency, 1309-1379: layers `(h, w)`, laser at `hLaser`. -/
noncomputable def conePsd (D : ℝ) (freqs : List ℝ) (layers : List (ℝ × ℝ)) (hLaser kc k atmo : ℝ) : Option ℝ :=
  (layers.mapM fun l => (coneLayer D freqs ((hLaser - l.1) / hLaser) kc k).map fun c => c ^ 2 * atmo * l.2).map List.sum

/-! ### Constellation of lasers -/

/-- What the effect depends on: `max(gs.zenith)` (arcsec), `gs.height[0]`, `tel.D`, `rad2arc`, layers `(h, w)`, `kcMax_`,
`np.max(k)`. -/
structure Lasers where
  zen : ℝ
  height : ℝ
  D : ℝ
  rad2arc : ℝ
  layers : List (ℝ × ℝ)
  kcMax : ℝ
  kmax : ℝ

/-- `eFoV`, fourierModel.py:1401-1404. -/
noncomputable def Lasers.eFoV (s : Lasers) : ℝ := (2 * s.zen * (1 / s.rad2arc) - s.D * (1 / s.height)) * s.rad2arc

/-- `deltaAngleE` of a source, 1423-1426. -/
noncomputable def Lasers.dE (s : Lasers) (z : ℝ) : ℝ :=
  open Classical in if s.eFoV > 0 then min z s.zen - s.eFoV / 2 else min z s.zen - s.eFoV

/-- `deltaAngleL` of a source, 1428-1429. -/
noncomputable def Lasers.dL (s : Lasers) (z : ℝ) : ℝ := max (z - 2 * s.zen / 2) 0

/-- `fCut`, 1463. -/
noncomputable def Lasers.fCut (s : Lasers) (z h : ℝ) : ℝ := s.rad2arc / (s.dE z * h)

/-- `eqD`, 1464-1465. -/
noncomputable def Lasers.eqD (s : Lasers) (z h : ℝ) : ℝ := min (s.D - s.dL z * h * (1 / s.rad2arc)) s.D

/-- `lpFilter` at the frequency `k`, 1408-1411 and 1479-1481. -/
noncomputable def Lasers.lp (s : Lasers) (fc k : ℝ) : ℂ :=
  let fs := s.kmax * 2
  let z := Complex.exp (Complex.I * ((k / (fs / 2) * Real.pi : ℝ) : ℂ))
  let p : ℂ := (Real.exp (2 * Real.pi * fc / fs) : ℝ)
  z * (1 - p) / (z - p)

/-- The layers that count for a source, with their filters, 1441-1488. -/
noncomputable def Lasers.active (s : Lasers) (z k : ℝ) : List (ℝ × ℂ × ℝ) :=
  open Classical in
  (s.layers.filter fun l => decide (l.1 > 0 ∧ s.dE z > 0 ∧ s.fCut z l.1 < s.kcMax ∧ s.eqD z l.1 > 0)).map
    fun l => (l.2, s.lp (s.fCut z l.1) k, s.eqD z l.1)

/-- `mcaoWFsensConePSD` at one frequency of the corrected area, 1381-1492. -/
noncomputable def Lasers.psd (s : Lasers) (z k atmo res : ℝ) : ℝ :=
  Fourier.mcaoPsd (s.active z k) s.D atmo res (Psf.pistonFilter s.D k)

/-! ### Vibrations -/

/-- `windShakePSD` on the pixels `grid` of the corrected area, fourierModel.py:1128-1173: `tilt` is `TiltFilter`, `pf` the
filter of piston, `inside` the mask, `power` the residual power in nm², `u` is `rad2nm` with the frequency step. `none`
when the weights sum to zero (nan). -/
noncomputable def windPsd {ι : Type} (grid : Finset ι) (tilt pf : ι → ℝ) (inside : ι → Bool) (power u : ℝ) (i : ι) : Option ℝ :=
  let S := ∑ j ∈ grid, (1 - tilt j) * pf j
  if S = 0 then none else some (msk (inside i) * |power * (1 / u ^ 2) * ((1 - tilt i) * pf i * (1 / S))|)

/-- `self.wfeWindShake**2`, fourierModel.py:1664-1665. -/
noncomputable def windVar {ι : Type} (grid : Finset ι) (tilt pf : ι → ℝ) (inside : ι → Bool) (power u : ℝ) : Option ℝ :=
  if ∑ j ∈ grid, (1 - tilt j) * pf j = 0 then none else
    some ((∑ i ∈ grid, (windPsd grid tilt pf inside power u i).getD 0) * u ^ 2)

/-! ### Open loop -/

/-- `powerSpectrumDensity` with a null gain, fourierModel.py:775-780 and 927: one plane for all sources; `u = dk*rad2nm`.
-/
noncomputable def openPsd (s : Spectra.Sys) (u : ℝ) (k : ℝ × ℝ) : ℝ := s.turb k * Psf.pistonFilter s.D (kmod k) * u ^ 2

end P3.Cone
