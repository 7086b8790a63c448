import Verif.Model.FrequencyDomain
import Verif.Model.Psf
import Mathlib.Analysis.SpecialFunctions.Pow.Complex
import Mathlib.Analysis.SpecialFunctions.Trigonometric.Arctan
/-
The Fourier model at one spatial (or temporal) frequency.  Source: /repo/p3/aoSystem/fourierModel.py.
The code evaluates these formulas element by element on arrays; here they are functions of the values at one
element.  Real and complex arithmetic.
-/
namespace P3.Fourier
open Finset

/-! ### Controller (fourierModel.py:652-765) -/

/-- `z = exp(-2iπ f Ts)`, lines 690 and 728, for `x = f*Ts`. -/
noncomputable def zOf (x : ℝ) : ℂ := Complex.exp ((-2 * Real.pi * x : ℝ) * Complex.I)

/-- `np.where(np.abs(d) < eps, eps, d)`, lines 696-704 and 731-738. -/
noncomputable def guardD (eps : ℝ) (d : ℂ) : ℂ := if ‖d‖ < eps then (eps : ℂ) else d

/-- Integrator: `loopGain/denom`, lines 695-699 and 731-733. -/
noncomputable def hInt (eps g : ℝ) (z : ℂ) : ℂ := g / guardD eps (1 - z⁻¹)

/-- Open-loop transfer function `hInt * z**(-delay)`, lines 701 and 735; complex power, principal branch. -/
noncomputable def openLoop (eps g delay : ℝ) (z : ℂ) : ℂ := hInt eps g z * z ^ (-(delay : ℂ))

/-- Rejection transfer function, lines 701-703 and 735-737. -/
noncomputable def rtf (eps g delay : ℝ) (z : ℂ) : ℂ := 1 / guardD eps (1 + openLoop eps g delay z)

/-- Closed-loop ("aliasing") transfer function, lines 705 and 739. -/
noncomputable def atf (eps g delay : ℝ) (z : ℂ) : ℂ := openLoop eps g delay z * rtf eps g delay z

/-- Noise transfer function, lines 707-710 and 745-748. -/
noncomputable def ntf (eps g delay : ℝ) (z : ℂ) : ℂ := if g = 0 then 1 else atf eps g delay z / z

/-- `h1`, lines 750: weighted sum over layers of the mean over wind angles. `a l θ` is `atf` at the layer's
temporal frequency. -/
noncomputable def h1 (nL nTh : ℕ) (w : ℕ → ℝ) (a : ℕ → ℕ → ℂ) : ℂ :=
  ∑ l ∈ range nL, (w l : ℂ) * (∑ t ∈ range nTh, a l t) / nTh
/-- `h2`, line 751. -/
noncomputable def h2 (nL nTh : ℕ) (w : ℕ → ℝ) (a : ℕ → ℕ → ℂ) : ℝ :=
  ∑ l ∈ range nL, w l * (∑ t ∈ range nTh, ‖a l t‖ ^ 2) / nTh

/-- `trapz(y, f)` of two lists of the same length. -/
noncomputable def trapz : List (ℝ × ℝ) → ℝ
  | (f0, y0) :: (f1, y1) :: t => (f1 - f0) * (y0 + y1) / 2 + trapz ((f1, y1) :: t)
  | _ => 0

/-- `noiseGain`, line 712: samples `(f, |ntf|²)`. -/
noncomputable def noiseGain (s : List (ℝ × ℝ)) (Ts : ℝ) : ℝ := trapz s * 2 * Ts

/-! ### Reconstructor (fourierModel.py:424-473) -/

/-- Sensor response at one frequency: Shack-Hartmann, lines 435-439. -/
noncomputable def shResponse (d k : ℝ) (av : ℂ) : ℂ := (2 * Real.pi * k * d : ℝ) * Complex.I * av

/-- Pyramid slope filter before averaging, lines 441-450. -/
noncomputable def pyrResponse (umod k : ℝ) : ℂ :=
  if umod < |k| then (SignType.sign k : ℝ) * Complex.I
  else ((2 / Real.pi * Real.arcsin (k / umod) : ℝ) : ℂ) * Complex.I

/-- `gPSD`, line 465, with `reg = MV*Wn/Watm`. -/
noncomputable def gPSD (sx sy : ℂ) (reg : ℝ) : ℝ := ‖sx‖ ^ 2 + ‖sy‖ ^ 2 + reg

/-- `Rx` or `Ry` at one frequency, lines 467-472: set to zero at the central pixel; elsewhere `conj(S)/gPSD`,
not a number if `gPSD = 0`. -/
noncomputable def recon (centre : Bool) (s sx sy : ℂ) (reg : ℝ) : Option ℂ :=
  if centre then some 0
  else if gPSD sx sy reg = 0 then none else some ((starRingEnd ℂ) s / gPSD sx sy reg)

/-- `F = Rx*SxAv + Ry*SyAv`, lines 1100, 1117, 1191. -/
noncomputable def loopF (rx ry sx sy : ℂ) : ℂ := rx * sx + ry * sy

/-! ### PSD terms -/

/-- `mskInAO_` as a factor. -/
noncomputable def msk (inside : Bool) : ℝ := if inside then 1 else 0

/-- Noise, single guide star, lines 1068-1073. -/
noncomputable def noiseScao (inside : Bool) (rx ry : ℂ) (kcMax pf gain var : ℝ) : ℝ :=
  msk inside * (‖rx ^ 2 + ry ^ 2‖ / (2 * kcMax) ^ 2) * pf * gain * var

/-- Noise, tomographic, lines 1080-1086: `mskInAO * Re(PW Cb PW^H) * pistonFilter * noise_gain` with
`Cb = diag(noiseVar)`. -/
noncomputable def noiseTomo (inside : Bool) (nGs : ℕ) (pw : ℕ → ℂ) (var : ℕ → ℝ) (pf delay : ℝ) : ℝ :=
  msk inside * (∑ g ∈ range nGs, pw g * ((var g : ℂ) * (starRingEnd ℂ) (pw g))).re * pf *
    (min 0.8 (0.4 + 0.1333 * delay)) ^ 2

/-- Aliasing, lines 1042-1046: sum over the shifts (all but (0,0), through `mask`). -/
noncomputable def aliasPsd (inside : Bool) (shifts : List (ℤ × ℤ)) (pr w : ℤ × ℤ → ℝ) (q avr : ℤ × ℤ → ℂ)
    (r0 : ℝ) : ℝ :=
  msk inside * (shifts.map (fun s => pr s * w s * ‖q s * avr s‖ ^ 2 * (if s = (0, 0) then 0 else 1))).sum *
    r0 ^ (-(5/3) : ℝ) * 0.0229

/-- Sum over layers in chunks, lines 1003-1037, with `chunk_size` as a parameter (the code uses
`min(5, nL)`): `for chunk_start in range(0, nL, chunk_size)`. `fuel` bounds the number of iterations. -/
noncomputable def chunkLoop (n c : ℕ) (term : ℕ → ℂ) : ℕ → ℕ → ℂ → ℂ
  | 0, _, acc => acc
  | fuel + 1, start, acc =>
    if start < n then
      chunkLoop n c term fuel (start + c) (acc + ∑ l ∈ Ico start (min (start + c) n), term l)
    else acc
/-- `avr_sum` after the loop. -/
noncomputable def chunkSum (n c : ℕ) (term : ℕ → ℂ) : ℂ := chunkLoop n c term n 0 0

/-- Angular decorrelation factor, lines 1196-1205: `Σ Ws exp(2iπ φ_l)`, or one on axis. -/
noncomputable def decorr (onAxis : Bool) (nL : ℕ) (w phi : ℕ → ℝ) : ℂ :=
  if onAxis then 1 else ∑ l ∈ range nL, (w l : ℂ) * Complex.exp ((2 * Real.pi * phi l : ℝ) * Complex.I)

/-- Spatio-temporal error, single guide star, lines 1207-1211. -/
noncomputable def spatioTemporal (gain0 inside : Bool) (F H1 A : ℂ) (H2 watm : ℝ) : ℝ :=
  if gain0 then ‖1 - F‖ ^ 2 * watm
  else msk inside * (1 + ‖F‖ ^ 2 * H2 - 2 * (F * H1 * A).re) * watm

/-- Servo-lag error, lines 1116-1126. -/
noncomputable def servoLag (gain0 inside : Bool) (F H1 : ℂ) (H2 watm : ℝ) : ℝ :=
  msk inside * |if gain0 then ‖1 - F‖ ^ 2 * watm else (1 + ‖F‖ ^ 2 * H2 - 2 * (F * H1).re) * watm|

/-- Tomographic error, lines 1222-1225: `Re(proj Cphi proj^H)` with `Cphi = kernel*diag(weights)`. -/
noncomputable def tomoPsd (inside : Bool) (nH : ℕ) (proj : ℕ → ℂ) (w : ℕ → ℝ) (kernel pf : ℝ) : ℝ :=
  msk inside * (∑ h ∈ range nH, proj h * (((kernel * w h : ℝ) : ℂ) * (starRingEnd ℂ) (proj h))).re * pf

/-- Anisoplanatism, lines 1242-1250: `phi l = Hs[l]*(kx*th[1] + ky*th[0])`. -/
noncomputable def anisoPsd (inside : Bool) (th : ℝ × ℝ) (nL : ℕ) (w hs : ℕ → ℝ) (kx ky watm : ℝ) : ℝ :=
  if th.1 = 0 ∧ th.2 = 0 then 0
  else msk inside * (∑ l ∈ range nL, 2 * w l * (1 - Real.cos (2 * Real.pi * hs l * (kx * th.2 + ky * th.1)))) * watm

/-- Differential refraction, lines 1258-1275: `c = cos(arg k - azimuth)`, `theta = delta_n*tan(zenith)`. -/
noncomputable def diffRefPsd (inside : Bool) (zenithDeg nRef nGs : ℝ) (nL : ℕ) (w hs : ℕ → ℝ) (k c watm : ℝ) : ℝ :=
  if zenithDeg = 0 then 0
  else
    let theta := (nRef - nGs) * Real.tan (zenithDeg * Real.pi / 180)
    msk inside * (∑ l ∈ range nL, 2 * w l * (1 - Real.cos (2 * Real.pi * hs l * k * Real.tan theta * c))) * watm

/-- Chromatism, lines 1279-1300: not multiplied by the mask. -/
noncomputable def chromPsd (nRef nGs watm : ℝ) : ℝ := ((nGs - nRef) / nGs) ^ 2 * watm

/-- Cone effect, lines 1366-1377: `c j` is the interpolated coefficient of layer `j`. -/
noncomputable def conePsd (nL : ℕ) (c w : ℕ → ℝ) (atmo : ℝ) : ℝ := ∑ j ∈ range nL, c j ^ 2 * atmo * w j

/-- One term of the MCAO cone effect, lines 1480-1488: `lp` is the low-pass filter, `eqD` the equivalent
diameter (positive, at most `D`). -/
noncomputable def mcaoFilter (lp : ℂ) (eqD D : ℝ) : ℝ := max ((1 - ‖lp‖ ^ 2) * (eqD / D) ^ 2) 0
/-- MCAO cone effect, lines 1432-1488, over the list of valid layers `(weight, lp, eqD)`. -/
noncomputable def mcaoPsd (layers : List (ℝ × ℂ × ℝ)) (D atmo res pf : ℝ) : ℝ :=
  (layers.map (fun l => l.1 * mcaoFilter l.2.1 l.2.2 D * (max (atmo - res) 0 * pf))).sum

/-- Residual power of the vibrations, line 1166: `|Σ rtf² (tip + tilt)| * df`. -/
noncomputable def windPower (s : List (ℂ × ℝ)) (df : ℝ) : ℝ := ‖(s.map (fun p => p.1 ^ 2 * (p.2 : ℂ))).sum * (df : ℂ)‖

/-! ### Assembly (fourierModel.py:767-927) -/

/-- The contributions at one frequency for one source. -/
structure Terms where
  noise : ℝ
  aliasing : ℝ
  diffRef : ℝ
  chrom : ℝ
  st : ℝ
  /-- cone effect (zero when not applicable), lines 826-835 -/
  cone : ℝ
  /-- MCAO cone effect as a function of the PSD so far, lines 839-848 -/
  mcao : ℝ → ℝ
  fit : ℝ
  /-- vibrations, lines 863-869 -/
  vib : ℝ
  /-- tilt filter (one when not applied), lines 872-875 -/
  tilt : ℝ
  /-- extra error, for this source, lines 883-900 -/
  extra : ℝ

/-- PSD before normalisation: lines 790-848; `block` says whether the frequency is in the central block. -/
noncomputable def psdCore (block : Bool) (t : Terms) : ℝ :=
  let p := (if block then t.noise + t.aliasing + t.diffRef + t.chrom + t.st else 0) + t.cone
  p + t.mcao p

/-- Everything after the normalisation and before the final scaling, lines 855-900. -/
noncomputable def psdAdd (block : Bool) (t : Terms) (p : ℝ) : ℝ :=
  (p + t.fit + (if block then t.vib else 0)) * t.tilt + t.extra

/-- The returned value, closed loop: lines 849-927; `u = dk*rad2nm`; `norm = some wfe` needs the sum over all
frequencies and sources of the scaled core PSD. -/
noncomputable def psdFinal (u : ℝ) (norm : Option (ℝ × ℝ)) (block : Bool) (t : Terms) : ℝ :=
  let p := psdCore block t
  let p := match norm with
    | none => p
    | some (wfe, total) => p * u ^ 2 * (wfe ^ 2 / total)
  psdAdd block t p * u ^ 2

/-- Extra error added to source `i`, lines 883-900: the last `nLO` sources get the low-order term (one per star if
it is a list), the others the high-order one. -/
noncomputable def extraOf (nSrc nLO : ℕ) (extraNm : ℝ) (extra : ℝ) (lo : ℕ → ℝ) (i : ℕ) : ℝ :=
  if 0 < nLO ∧ nSrc - i ≤ nLO then lo (i + nLO - nSrc)
  else if 0 < extraNm then extra else 0

/-- Extra error PSD, lines 1494-1524 at one frequency: weight `q` (power law times piston filter, zero outside the
band), total of the weights `S`, error in nm, `u = rad2nm` including the frequency step. -/
noncomputable def extraPsd (q S nm u : ℝ) : ℝ := q * nm ^ 2 / S * 1 / u ^ 2

/-! ### Filters (fourierModel.py:1576-1631) -/

/-- `2 J1(x)/x` as an integral over the pupil. -/
noncomputable def j1Term (x : ℝ) : ℝ := 2 * Psf.sombrero1 x
/-- `4 J2(x)/x` as an integral over the pupil (tilt mode `2 cos θ`). -/
noncomputable def j2Term (x : ℝ) : ℝ :=
  (2 / Real.pi) * ∫ θ in (0:ℝ)..Real.pi, Real.sin (x * Real.cos θ) * (2 * Real.cos θ) * Real.sin θ ^ 2
/-- `2 J3(x)/x` as an integral over the pupil (focus mode, averaged along the fringes; `√3 * 2 J3(x)/x` is the
projection on the normalised focus mode). -/
noncomputable def j3Term (x : ℝ) : ℝ :=
  (2 / Real.pi) * ∫ θ in (0:ℝ)..Real.pi, Real.cos (x * Real.cos θ) * ((1 - 4 * Real.cos θ ^ 2) / 3) * Real.sin θ ^ 2

/-- `TiltFilter`, lines 1576-1603, for `x = π D k`. -/
noncomputable def tiltFilter (x : ℝ) : ℝ :=
  if x < 1e-6 then 1 - 1 ^ 2 - 0 ^ 2 else 1 - j1Term x ^ 2 - j2Term x ^ 2
/-- `FocusFilter`, lines 1606-1631. -/
noncomputable def focusFilter (x : ℝ) : ℝ := if x < 1e-6 then 1 - 3 * 0 ^ 2 else 1 - 3 * j3Term x ^ 2

/-! ### Bessel functions (fourierModel.py:43-51) -/

/-- `besselj__n(n, z)` for `n ≥ 0`, with `j0`, `j1` the library values at `z`. -/
noncomputable def besselNat (j0 j1 z : ℝ) : ℕ → ℝ
  | 0 => j0
  | 1 => j1
  | n + 2 => 2 * (n + 1) * besselNat j0 j1 z (n + 1) / z - besselNat j0 j1 z n

/-- `besselj__n(n, z)` for integer `n`: `-1**(-n)` parses as `-(1**(-n))`, that is -1. -/
noncomputable def besselInt (j0 j1 z : ℝ) (n : ℤ) : ℝ :=
  if n < 0 then (-(1 ^ n.natAbs)) * besselNat j0 j1 z n.natAbs else besselNat j0 j1 z n.natAbs

end P3.Fourier
