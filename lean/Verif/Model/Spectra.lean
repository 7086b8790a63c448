import Verif.Model.FourierModel
import Verif.Model.Tomography
import Verif.Model.Psf
/-
The power spectra of a system with one natural guide star and a Shack-Hartmann sensor, as functions of the parameters of
the system and of the spatial frequency; cone effects; vibrations.
Source: /repo/p3/aoSystem/fourierModel.py:424-473, 652-1300, 1309-1492.
The formulas of Verif/Model/FourierModel.lean are given here the arguments that the code gives them.  Real and complex
arithmetic; `none` is a numpy `nan`.  A frequency is the pair of the values of `kxAO_` and `kyAO_` (or `kx_`, `ky_`) at a
pixel; `c` says whether it is the central pixel `[resAO//2, resAO//2]`.
-/
namespace P3.Spectra
open Finset P3.Fourier P3.Tomo

/-- What the spectra depend on. -/
structure Sys where
  /-- `ao.atm.nL`, `weights`, `heights*strechFactor`, `wSpeed`, `wDir` (degrees) -/
  nL : ℕ
  w : ℕ → ℝ
  hs : ℕ → ℝ
  speed : ℕ → ℝ
  dirDeg : ℕ → ℝ
  /-- `ao.atm.r0` (at the reference wavelength), `ao.atm.L0`, `ao.tel.D` -/
  r0 : ℝ
  L0 : ℝ
  D : ℝ
  /-- `ao.rtc.holoop`: gain, delay, rate; `np.finfo(float).eps` -/
  gain : ℝ
  delay : ℝ
  rate : ℝ
  eps : ℝ
  /-- `ao.wfs.optics[0].dsub`, `ao.wfs.detector[0].clock_rate` -/
  dsub : ℝ
  clock : ℝ
  /-- `MV`, mean of `noiseVar`, `ao.atm.wvl/gs.wvl[0]` -/
  mv : ℝ
  var : ℝ
  wvlRatio : ℝ
  /-- `freq.kcMax_`, `ao.dms.AoArea == 'circle'`, `freq.nTimes` -/
  kc : ℝ
  circle : Bool
  nTimes : ℕ
  /-- `n_air_wvlRef`, `n_air_gs`, `ao.tel.zenith_angle` (degrees) -/
  nRef : ℝ
  nGs : ℝ
  zenith : ℝ

/-- `vx`, fourierModel.py:662 and 954. -/
noncomputable def Sys.vx (s : Sys) (l : ℕ) : ℝ := s.speed l * Real.cos (s.dirDeg l * Real.pi / 180)
/-- `vy`, fourierModel.py:663 and 955. -/
noncomputable def Sys.vy (s : Sys) (l : ℕ) : ℝ := s.speed l * Real.sin (s.dirDeg l * Real.pi / 180)

/-- `mskInAO_`, frequencyDomain.py:57-68. -/
noncomputable def Sys.inside (s : Sys) (k : ℝ × ℝ) : Bool := decide (Freq.mskIn s.circle s.kc k.1 k.2)

/-- `ao.atm.spectrum(sqrt(k2))`, atmosphere.py:243-249. -/
noncomputable def Sys.turb (s : Sys) (k : ℝ × ℝ) : ℝ :=
  s.r0 ^ (-(5:ℝ)/3) * ((24 * Real.Gamma (6/5) / 5) ^ ((5:ℝ)/6) * (Real.Gamma (11/6) ^ 2 / (2 * Real.pi ^ ((11:ℝ)/3)))) *
    (kmod k ^ 2 + 1 / s.L0 ^ 2) ^ (-(11:ℝ)/6)

/-- `pistonFilterAO_`, frequencyDomain.py:50-52. -/
noncomputable def Sys.piston (s : Sys) (c : Bool) (k : ℝ × ℝ) : ℝ := if c then 0 else Psf.pistonFilter s.D (kmod k)

/-- `Watm = Wphi * pistonFilterAO_`, fourierModel.py:280, 1118, 1190. -/
noncomputable def Sys.watm (s : Sys) (c : Bool) (k : ℝ × ℝ) : ℝ := s.turb k * s.piston c k

/-! ### Loop -/

/-- Temporal frequency `fi` of layer `l`, fourierModel.py:727, with the single wind angle zero (`nTh = 1`, 665-666). -/
noncomputable def Sys.tfreq (s : Sys) (k : ℝ × ℝ) (l : ℕ) : ℝ := -(s.vx l * k.1) - s.vy l * k.2

/-- `z` of layer `l`, fourierModel.py:728 with `Ts = 1/rate`. -/
noncomputable def Sys.z (s : Sys) (k : ℝ × ℝ) (l : ℕ) : ℂ := zOf (s.tfreq k l * (1 / s.rate))

/-- `atfInt` of layer `l`, fourierModel.py:730-740. -/
noncomputable def Sys.atf (s : Sys) (k : ℝ × ℝ) (l : ℕ) : ℂ := Fourier.atf s.eps s.gain s.delay (s.z k l)

/-- `h1`, fourierModel.py:750. -/
noncomputable def Sys.h1 (s : Sys) (k : ℝ × ℝ) : ℂ := Fourier.h1 s.nL 1 s.w (fun l _ => s.atf k l)
/-- `h2`, fourierModel.py:751. -/
noncomputable def Sys.h2 (s : Sys) (k : ℝ × ℝ) : ℝ := Fourier.h2 s.nL 1 s.w (fun l _ => s.atf k l)

/-! ### Sensor and reconstructor -/

/-- `Av`, fourierModel.py:438-439. -/
noncomputable def Sys.av (s : Sys) (k : ℝ × ℝ) : ℂ :=
  (npSinc (s.dsub * k.1) * npSinc (s.dsub * k.2) : ℝ) * Complex.exp ((Real.pi * s.dsub * (k.1 + k.2) : ℝ) * Complex.I)
/-- `SxAv`, fourierModel.py:436 and 457. -/
noncomputable def Sys.sx (s : Sys) (k : ℝ × ℝ) : ℂ := shResponse s.dsub k.1 (s.av k)
/-- `SyAv`, fourierModel.py:437 and 458. -/
noncomputable def Sys.sy (s : Sys) (k : ℝ × ℝ) : ℂ := shResponse s.dsub k.2 (s.av k)

/-- `MV*Wn/Watm`, fourierModel.py:464-465 with `Wn = var/(2*kcMax)**2` (279). -/
noncomputable def Sys.reg (s : Sys) (k : ℝ × ℝ) : ℝ :=
  s.mv * (s.var / (2 * s.kc) ^ 2) / (s.turb k * s.wvlRatio ^ 2)

/-- `Rx`, fourierModel.py:467-471. -/
noncomputable def Sys.rx (s : Sys) (c : Bool) (k : ℝ × ℝ) : Option ℂ := recon c (s.sx k) (s.sx k) (s.sy k) (s.reg k)
/-- `Ry`, fourierModel.py:468-472. -/
noncomputable def Sys.ry (s : Sys) (c : Bool) (k : ℝ × ℝ) : Option ℂ := recon c (s.sy k) (s.sx k) (s.sy k) (s.reg k)

/-! ### Contributions -/

/-- `noisePSD`, fourierModel.py:1068-1073; `ng` is `noiseGain`. -/
noncomputable def Sys.noisePsd (s : Sys) (ng : ℝ) (c : Bool) (k : ℝ × ℝ) : Option ℝ :=
  (s.rx c k).bind fun rx => (s.ry c k).bind fun ry =>
    some (noiseScao (s.inside k) rx ry s.kc (s.piston c k) ng s.var)

/-- Angular decorrelation `A` towards a source `th = src.direction - gs.direction`, fourierModel.py:1196-1205. -/
noncomputable def Sys.decorr (s : Sys) (th k : ℝ × ℝ) : ℂ :=
  Fourier.decorr (decide (th = (0, 0))) s.nL s.w (fun l => s.hs l * (k.1 * th.2 + k.2 * th.1))

/-- `spatioTemporalPSD` with one guide star, fourierModel.py:1191-1211. -/
noncomputable def Sys.stPsd (s : Sys) (th : ℝ × ℝ) (c : Bool) (k : ℝ × ℝ) : Option ℝ :=
  (s.rx c k).bind fun rx => (s.ry c k).bind fun ry =>
    some (spatioTemporal (decide (s.gain = 0)) (s.inside k) (loopF rx ry (s.sx k) (s.sy k)) (s.h1 k) (s.decorr th k)
      (s.h2 k) (s.watm c k))

/-- `servoLagPSD`, fourierModel.py:1107-1126. -/
noncomputable def Sys.lagPsd (s : Sys) (c : Bool) (k : ℝ × ℝ) : Option ℝ :=
  (s.rx c k).bind fun rx => (s.ry c k).bind fun ry =>
    some (servoLag (decide (s.gain = 0)) (s.inside k) (loopF rx ry (s.sx k) (s.sy k)) (s.h1 k) (s.h2 k) (s.watm c k))

/-- `anisoplanatismPSD`, fourierModel.py:1232-1252. -/
noncomputable def Sys.aniPsd (s : Sys) (th : ℝ × ℝ) (c : Bool) (k : ℝ × ℝ) : ℝ :=
  anisoPsd (s.inside k) th s.nL s.w s.hs k.1 k.2 (s.watm c k)

/-- `differentialRefractionPSD`, fourierModel.py:1254-1277: `np.arctan2(ky, kx) - azimuth[s]` with the azimuth of the
source as it was given (degrees). -/
noncomputable def Sys.diffRefPsd (s : Sys) (azimuth : ℝ) (c : Bool) (k : ℝ × ℝ) : ℝ :=
  Fourier.diffRefPsd (s.inside k) s.zenith s.nRef s.nGs s.nL s.w s.hs (kmod k)
    (Real.cos (Complex.arg ⟨k.1, k.2⟩ - azimuth)) (s.watm c k)

/-- `chromatismPSD`, fourierModel.py:1279-1300. -/
noncomputable def Sys.chromPsd (s : Sys) (c : Bool) (k : ℝ × ℝ) : ℝ := Fourier.chromPsd s.nRef s.nGs (s.watm c k)

/-- `fittingPSD`, fourierModel.py:929-937. -/
noncomputable def Sys.fitPsd (s : Sys) (k : ℝ × ℝ) : ℝ :=
  Freq.fittingPsd (fun q => s.r0 ^ (-(5:ℝ)/3) *
    ((24 * Real.Gamma (6/5) / 5) ^ ((5:ℝ)/6) * (Real.Gamma (11/6) ^ 2 / (2 * Real.pi ^ ((11:ℝ)/3)))) *
    (q ^ 2 + 1 / s.L0 ^ 2) ^ (-(11:ℝ)/6)) s.circle s.kc k.1 k.2

/-! ### Aliasing (fourierModel.py:939-1046) -/

/-- `np.arange(-nTimes, nTimes)`. -/
def arangeSym (n : ℕ) : List ℤ := (List.range (2 * n)).map fun (i : ℕ) => (i : ℤ) - n

/-- The grid of shifts `(mi, ni)`, 973-981. -/
def shifts (n : ℕ) : List (ℤ × ℤ) := (arangeSym n).flatMap fun m => (arangeSym n).map fun q => (m, q)

/-- `(km, kn)`, 986-988. -/
noncomputable def Sys.shifted (s : Sys) (k : ℝ × ℝ) (m : ℤ × ℤ) : ℝ × ℝ :=
  (k.1 - m.1 / s.dsub, k.2 - m.2 / s.dsub)

/-- `W_mn`, 1002. -/
noncomputable def Sys.wmn (s : Sys) (q : ℝ × ℝ) : ℝ := (q.1 ^ 2 + q.2 ^ 2 + 1 / s.L0 ^ 2) ^ (-(11:ℝ) / 6)

/-- `Q`, 960-965 and 1005-1008. -/
noncomputable def Sys.qfac (s : Sys) (rx ry : ℂ) (q : ℝ × ℝ) : ℂ :=
  (rx * ((2 * Real.pi * s.dsub : ℝ) * Complex.I) * q.1 + ry * ((2 * Real.pi * s.dsub : ℝ) * Complex.I) * q.2) *
    (npSinc (s.dsub * q.1) * npSinc (s.dsub * q.2) : ℝ)

/-- One layer of `avr_chunk`, 1030-1036, times its weight: `T = clock/rate` and `td = T*delay` (952-953); `tf` is `h1`. -/
noncomputable def Sys.avrTerm (s : Sys) (tf : ℂ) (q : ℝ × ℝ) (l : ℕ) : ℂ :=
  (s.w l : ℂ) * (((npSinc (q.1 * s.vx l * (s.clock / s.rate)) : ℝ) : ℂ) *
    ((npSinc (q.2 * s.vy l * (s.clock / s.rate)) : ℝ) : ℂ) *
    phasor ((q.1 * s.vx l + q.2 * s.vy l) * (s.clock / s.rate * s.delay)) * tf)

/-- `aliasingPSD`, 939-1046, closed loop. -/
noncomputable def Sys.aliasPsd (s : Sys) (c : Bool) (k : ℝ × ℝ) : Option ℝ :=
  (s.rx c k).bind fun rx => (s.ry c k).bind fun ry =>
    some (Fourier.aliasPsd (s.inside k) (shifts s.nTimes)
      (fun m => Psf.pistonFilter s.D (kmod (s.shifted k m)))
      (fun m => s.wmn (s.shifted k m))
      (fun m => s.qfac rx ry (s.shifted k m))
      (fun m => chunkSum s.nL (min 5 s.nL) (s.avrTerm (s.h1 k) (s.shifted k m)))
      s.r0)

/-! ### The whole spectrum -/

/-- The contributions of `powerSpectrumDensity` (fourierModel.py:785-900) for a source at `th` from the guide star, of
azimuth `az`, inside the central block: natural guide star, neither vibrations, tilt filter nor extra error. -/
noncomputable def Sys.terms (s : Sys) (ng : ℝ) (th : ℝ × ℝ) (az : ℝ) (c : Bool) (k : ℝ × ℝ) : Option Terms :=
  (s.noisePsd ng c k).bind fun n => (s.aliasPsd c k).bind fun a => (s.stPsd th c k).bind fun t =>
    some { noise := n, aliasing := a, diffRef := s.diffRefPsd az c k, chrom := s.chromPsd c k, st := t, cone := 0,
           mcao := fun _ => 0, fit := s.fitPsd k, vib := 0, tilt := 1, extra := 0 }

/-- `powerSpectrumDensity` at one frequency of the central block, in squared nanometres; `u = dk*rad2nm`. -/
noncomputable def Sys.psd (s : Sys) (u ng : ℝ) (th : ℝ × ℝ) (az : ℝ) (c : Bool) (k : ℝ × ℝ) : Option ℝ :=
  (s.terms ng th az c k).map (psdFinal u none true)

end P3.Spectra
