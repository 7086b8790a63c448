import Verif.Model.Py
import Verif.Model.Params
import Mathlib.NumberTheory.LegendreSymbol.AddCharacter
import Mathlib.Analysis.SpecialFunctions.Complex.CircleAddChar
import Mathlib.Analysis.SpecialFunctions.Trigonometric.Sinc
import Mathlib.Analysis.SpecialFunctions.Pow.Real
import Mathlib.LinearAlgebra.Matrix.PosDef
/-
PSF reconstruction from telemetry.  Source: /repo/p3/psfr/psfR.py and /repo/p3/psfr/psfrUtils.py.
Numbers are reals; `none` stands for a value that numpy reports as `nan` or `inf`.
-/
namespace P3.Rec
open Finset

/-! ### Strehl ratio and wavefront error -/

/-- `np.sqrt`: `nan` for a negative number. -/
noncomputable def npSqrt (x : ℝ) : Option ℝ := if 0 ≤ x then some (Real.sqrt x) else none

/-- `sr2wfe`, psfrUtils.py:195-196 (in nm), and the lambda `sr2fwe`, psfR.py:282. `log` of a number that is not
positive is `-inf` or `nan`. -/
noncomputable def sr2wfe (S wvl : ℝ) : Option ℝ :=
  if 0 < S then (npSqrt (-Real.log S)).map (fun q => 1e9 * q * wvl / 2 / Real.pi) else none

/-- `wfe2sr`, psfrUtils.py:198-199. -/
noncomputable def wfe2sr (wfe wvl : ℝ) : ℝ := Real.exp (-(2 * Real.pi * wfe * 1e-9 / wvl) ^ 2)

/-! ### Discrete Fourier transform on an `N x N` periodic grid -/

/-- Pixels of the padded pupil; addition is modulo `N`. -/
abbrev Pix (N : ℕ) := ZMod N × ZMod N

/-- `k·x`. -/
def dot {N : ℕ} (k x : Pix N) : ZMod N := k.1 * x.1 + k.2 * x.2

/-- `fft.fft2`: `∑ a[x] exp(-2iπ k·x/N)`. -/
noncomputable def dft {N : ℕ} [NeZero N] (a : Pix N → ℂ) (k : Pix N) : ℂ :=
  ∑ x, a x * ZMod.stdAddChar (-dot k x)

/-- `fft.ifft2`. -/
noncomputable def idft {N : ℕ} [NeZero N] (F : Pix N → ℂ) (x : Pix N) : ℂ :=
  (1 / (N : ℂ) ^ 2) * ∑ k, F k * ZMod.stdAddChar (dot k x)

/-- Real array seen as a complex one. -/
def toC {α : Type} (a : α → ℝ) (x : α) : ℂ := (a x : ℂ)

/-! ### Structure function from a modal covariance: `modes2Otf`, psfrUtils.py:107-183

The arrays are those after zero-padding (`enlargeSupport`); `fftshift` (a relabelling of the pixels, the
separation zero is here the pixel 0) and the final interpolation to the output size are left out. -/

/-- `G`, psfrUtils.py:127. -/
noncomputable def pupilCorr {N : ℕ} [NeZero N] (P : Pix N → ℝ) (x : Pix N) : ℝ :=
  (idft (fun k => ((‖dft (toC P) k‖ ^ 2 : ℝ) : ℂ)) x).re

/-- `G.max()`. -/
noncomputable def gMax {N : ℕ} [NeZero N] (P : Pix N → ℝ) : ℝ := univ.sup' univ_nonempty (pupilCorr P)

/-- `den`, psfrUtils.py:130-132. -/
noncomputable def den {N : ℕ} [NeZero N] (P : Pix N → ℝ) (x : Pix N) : ℝ :=
  open Classical in if 1e-7 < pupilCorr P x / gMax P then 1 / pupilCorr P x else 0

/-- `Vk`, psfrUtils.py:147. -/
noncomputable def vk {N : ℕ} [NeZero N] (P M : Pix N → ℝ) (k : Pix N) : ℝ :=
  (dft (toC (fun x => M x ^ 2)) k * (starRingEnd ℂ) (dft (toC P) k)).re - ‖dft (toC M) k‖ ^ 2

/-- `M_all[:,:,k]`, psfrUtils.py:138-140: the modes times column `k` of the matrix that the svd returns, times
the pupil. -/
noncomputable def mAll {N m : ℕ} (P : Pix N → ℝ) (modes : Pix N → Fin m → ℝ) (V : Matrix (Fin m) (Fin m) ℝ)
    (k : Fin m) (x : Pix N) : ℝ := (∑ j, modes x j * V j k) * P x

/-- `dphi` of the `Vii` basis, psfrUtils.py:142-151. -/
noncomputable def dphiVii {N m : ℕ} [NeZero N] (P : Pix N → ℝ) (modes : Pix N → Fin m → ℝ)
    (V : Matrix (Fin m) (Fin m) ℝ) (ss : Fin m → ℝ) (x : Pix N) : ℝ :=
  den P x * (idft (fun k => ((2 * ∑ l, ss l * vk P (mAll P modes V l) k : ℝ) : ℂ)) x).re

/-- What `np.linalg.svd(C)` promises: `C = U diag(ss) V` with `U`, `V` orthogonal and `ss` non-negative in
decreasing order (the third output is already transposed). -/
structure IsSvd {m : ℕ} (C U : Matrix (Fin m) (Fin m) ℝ) (ss : Fin m → ℝ) (V : Matrix (Fin m) (Fin m) ℝ) : Prop where
  eq : C = U * Matrix.diagonal ss * V
  u : U * U.transpose = 1
  v : V * V.transpose = 1
  nonneg : ∀ k, 0 ≤ ss k
  sorted : ∀ k l, k ≤ l → ss l ≤ ss k

/-- `Uij` of the double loop, psfrUtils.py:160-169; `a`, `b` are padded modes. -/
noncomputable def uij {N : ℕ} [NeZero N] (P a b : Pix N → ℝ) (x : Pix N) : ℝ :=
  (idft (fun k =>
    (((dft (toC (fun y => a y * b y * P y)) k * (starRingEnd ℂ) (dft (toC P) k)).re -
      (dft (toC (fun y => a y * P y)) k * (starRingEnd ℂ) (dft (toC (fun y => b y * P y)) k)).re : ℝ) : ℂ)) x).re

/-- The half-plane shift applied at each pass of the loop (`fft.fftshift` in the loop, psfrUtils.py:174),
pixel `x` receives pixel `x + (N - N/2, N - N/2)`. -/
def half (N : ℕ) : Pix N := (((N - N / 2 : ℕ) : ZMod N), ((N - N / 2 : ℕ) : ZMod N))

/-- One pass of the double loop, psfrUtils.py:160-174; here `den` and `msk` are indexed as in the code (shifted). -/
noncomputable def uijStep {N m : ℕ} [NeZero N] (P : Pix N → ℝ) (modes : Pix N → Fin m → ℝ)
    (C : Matrix (Fin m) (Fin m) ℝ) (d : Pix N → ℝ) (p : Fin m × Fin m) (x : Pix N) : ℝ :=
  let fact : ℝ := (if p.1 ≠ p.2 then 1 else 0) + 1
  2 * (d (x + half N) + fact * C p.1 p.2 * uij P (fun y => modes y p.1) (fun y => modes y p.2) (x + half N))
    * den P (x + half N)

/-- The pairs visited by the double loop: `i in arange(1, nm)`, `j in range(1, i)`. -/
def uijPairs (m : ℕ) : List (Fin m × Fin m) :=
  (List.finRange m).flatMap (fun i => ((List.finRange m).filter
    (fun j => decide (1 ≤ i.val) && decide (1 ≤ j.val) && decide (j.val < i.val))).map (fun j => (i, j)))

/-- `dphi` of the `Uij` basis, psfrUtils.py:153-174. -/
noncomputable def dphiUij {N m : ℕ} [NeZero N] (P : Pix N → ℝ) (modes : Pix N → Fin m → ℝ)
    (C : Matrix (Fin m) (Fin m) ℝ) : Pix N → ℝ :=
  (uijPairs m).foldl (uijStep P modes C) (fun _ => 0)

/-- Which formula is used, psfrUtils.py:134, 153 and 176: with a covariance that is zero everywhere (or an unknown
basis) the structure function is never assigned but interpolated at line 184. -/
inductive Basis | vii | uij | other
  deriving DecidableEq

/-- `modes2Otf`, structure function only; `svd` is the decomposition routine. -/
noncomputable def modes2Dphi {N m : ℕ} [NeZero N]
    (svd : Matrix (Fin m) (Fin m) ℝ → (Fin m → ℝ) × Matrix (Fin m) (Fin m) ℝ) (basis : Basis)
    (C : Matrix (Fin m) (Fin m) ℝ) (modes : Pix N → Fin m → ℝ) (P : Pix N → ℝ) : Except PyErr (Pix N → ℝ) :=
  open Classical in
  if C ≠ 0 ∧ basis = .vii then .ok (dphiVii P modes (svd C).2 (svd C).1)
  else if C ≠ 0 ∧ basis = .uij then .ok (dphiUij P modes C)
  else .error .unboundLocal

/-! ### Structure function of the residual jitter -/

/-- Rotated coordinates, psfR.py:232-240 (`if ang:` the other branch is the angle zero). -/
noncomputable def rotU (samp ang u v : ℝ) : ℝ := samp / 2 * (u * Real.cos ang + v * Real.sin ang)
/-- See `rotU`. -/
noncomputable def rotV (samp ang u v : ℝ) : ℝ := samp / 2 * (-u * Real.sin ang + v * Real.cos ang)

/-- `jitter_phase_structure_function`, psfR.py:213-245, for a covariance `C` in m². -/
noncomputable def jitterSF (wvl samp ang : ℝ) (C : Matrix (Fin 2) (Fin 2) ℝ) (u v : ℝ) : ℝ :=
  let g := (2 * Real.pi / wvl) ^ 2
  g * C 0 0 * rotU samp ang u v ^ 2 + g * C 1 1 * rotV samp ang u v ^ 2 +
    2 * (g * C 1 0) * rotU samp ang u v * rotV samp ang u v

/-- `np.dot(s.T, s)/nExp`, psfR.py:219-220, and `np.dot(du.T,du)/du.shape[0]`, psfR.py:195. -/
noncomputable def sampleCov {t m : ℕ} (s : Matrix (Fin t) (Fin m) ℝ) (nExp : ℕ) : Matrix (Fin m) (Fin m) ℝ :=
  fun a b => (∑ i, s i a * s i b) / nExp

/-! ### Pixel transfer function -/

/-- `np.sinc`: `sin(πx)/(πx)`. -/
noncomputable def npSinc (x : ℝ) : ℝ := Real.sinc (Real.pi * x)

/-- `pixel_optical_transfer_function`, psfR.py:247-256; `ps` in radians. -/
noncomputable def otfPixel (D wvl samp ps u v : ℝ) : ℝ :=
  let umax := D / wvl * samp / 2
  npSinc (u * umax * ps) * npSinc (v * umax * ps)

/-! ### Total structure function -/

/-- `phase_structure_function`, psfR.py:258-271, at one separation and for one source. `dani` are the structure
functions of anisoplanatism per layer for a unit strength (`none`: no anisoplanatism). -/
noncomputable def totalSF (gho gtt r0 : ℝ) (ao tt fit ali : ℝ) (dani : Option (List ℝ)) (cn2 : Option (List ℝ)) : ℝ :=
  let sf := gho * ao + gtt * tt + r0 ^ (-(5 / 3) : ℝ) * (fit + ali)
  match dani, cn2 with
  | some d, some c => if c.length = d.length then sf + ((d.zip c).map (fun p => p.1 * p.2)).sum else sf
  | _, _ => sf

/-- Parameter vector of the PSF computed with the error breakdown, psfR.py:391-394. -/
noncomputable def breakdownVector (r0 : ℝ) (weights : List ℝ) : List ℝ :=
  if weights.length = 1 then [r0, 1, 1]
  else weights.map (fun w => w * r0 ^ (-(5 / 3) : ℝ)) ++ [1, 1]

/-- The value of `r0` read from the atmospheric part of a parameter vector, FourierUtils.py:318-326. -/
noncomputable def decodedR0 (c : Params.Ctx) (x : List ℝ) : Option ℝ :=
  if 1 < c.nL ∧ 1 < c.nRec then some ((Params.sortParams c x).atm.sum ^ (-(3 / 5) : ℝ))
  else (Params.sortParams c x).atm.head?

/-! ### Error breakdown -/

/-- Strehl ratio of a transfer function, psfR.py:298 and the like: `np.sum(otf_dl*otf)/S`. -/
noncomputable def strehl {ι : Type} [Fintype ι] (dl otf : ι → ℝ) : ℝ := (∑ i, dl i * otf i) / ∑ i, dl i

/-- Strehl ratio of a structure function: `otf = np.exp(-0.5*dphi)`. -/
noncomputable def strehlSF {ι : Type} [Fintype ι] (dl sf : ι → ℝ) : ℝ :=
  strehl dl (fun i => Real.exp (-0.5 * sf i))

/-- What the breakdown reads. `u`, `v`: angular frequencies; `ncpa`: standard deviation of the static map (0 when
there is none); `caoDiag`, `cnDiag`: diagonals of the residual and noise covariances, `valid`: valid actuators
(`Cn[msk,msk]` with a mask is the diagonal of the valid actuators); `ctt`, `cnTt`: residual and noise covariance
of tip-tilt; `ani`: weighted structure functions of anisoplanatism (total, angular, tip-tilt, focal-angular). -/
structure RecIn (ι : Type) where
  dl : ι → ℝ
  u : ι → ℝ
  v : ι → ℝ
  fit : ι → ℝ
  ali : ι → ℝ
  pix : ι → ℝ
  wvl : ℝ
  r0 : ℝ
  samp : ℝ
  ang : ℝ
  ncpa : ℝ
  caoDiag : List ℝ
  cnDiag : List ℝ
  valid : List Bool
  nCom : ℕ
  pnHo : ℝ
  pnTt : ℝ
  jitter : Bool
  ctt : Matrix (Fin 2) (Fin 2) ℝ
  cnTt : Matrix (Fin 2) (Fin 2) ℝ
  lgs : Bool
  ani : Option ((ι → ℝ) × (ι → ℝ) × (ι → ℝ) × (ι → ℝ))

/-- The entries of `self.wfe` in nm; `none` is `nan` or `inf`. `TIP-TILT-WFE` and the Strehl ratios of images are
left out. -/
structure RecOut where
  ncpa : Option ℝ
  fitting : Option ℝ
  aliasing : Option ℝ
  hoNoise : Option ℝ
  ttNoise : Option ℝ
  servo : Option ℝ
  tipTilt : Option ℝ
  pixel : Option ℝ
  totalAni : Option ℝ
  angularAni : Option ℝ
  anisoKin : Option ℝ
  focalAni : Option ℝ
  total : Option ℝ
  totalPix : Option ℝ
  marechal : Option ℝ
  marechalPix : Option ℝ

/-- The diagonal terms of the valid actuators. -/
def selectValid (l : List ℝ) (valid : List Bool) : List ℝ := ((l.zip valid).filter (fun p => p.2)).map (fun p => p.1)

/-- `np.mean`: `nan` for an empty array. -/
noncomputable def npMean (l : List ℝ) : Option ℝ := if l = [] then none else some (l.sum / l.length)

/-- HO NOISE, psfR.py:309-310. -/
noncomputable def hoNoise {ι : Type} (a : RecIn ι) : Option ℝ := do
  let m ← npMean (selectValid a.cnDiag a.valid)
  let q ← npSqrt (a.pnHo * m)
  pure (1e9 * q)

/-- TT NOISE, psfR.py:312-314. -/
noncomputable def ttNoise {ι : Type} [Fintype ι] (a : RecIn ι) : Option ℝ :=
  sr2wfe (strehlSF a.dl (fun i => jitterSF a.wvl a.samp a.ang (a.pnTt • a.cnTt) (a.u i) (a.v i))) a.wvl

/-- SERVO-LAG, psfR.py:317-318: the trace of `Cao - (1+pn)*Cn` over the number of commands. -/
noncomputable def servo {ι : Type} (a : RecIn ι) : Option ℝ :=
  (npSqrt ((a.caoDiag.sum - (1 + a.pnHo) * a.cnDiag.sum) / a.nCom)).map (fun q => 1e9 * q)

/-- Square root of a difference of squares of errors, psfR.py:324 and 366. -/
noncomputable def diffSq (a b : Option ℝ) : Option ℝ := do
  let x ← a
  let y ← b
  npSqrt (x ^ 2 - y ^ 2)

/-- TIP-TILT, psfR.py:321-328. The structure function is that of the noise-free covariance. -/
noncomputable def tipTilt {ι : Type} [Fintype ι] (a : RecIn ι) : Option ℝ :=
  if a.jitter then
    diffSq (sr2wfe (strehlSF a.dl (fun i => jitterSF a.wvl a.samp a.ang (a.ctt - a.cnTt) (a.u i) (a.v i))) a.wvl)
      (ttNoise a)
  else some 0

/-- An anisoplanatism term, psfR.py:336-344 and 347-366. -/
noncomputable def aniTerm {ι : Type} [Fintype ι] (a : RecIn ι) (sel : (ι → ℝ) × (ι → ℝ) × (ι → ℝ) × (ι → ℝ) → ι → ℝ) :
    Option ℝ :=
  match a.ani with
  | some q => sr2wfe (strehlSF a.dl (sel q)) a.wvl
  | none => some 0

/-- Sum in quadrature, psfR.py:374-376. -/
noncomputable def quadrature (l : List (Option ℝ)) : Option ℝ := do
  let v ← l.mapM id
  npSqrt (v.map (fun x => x ^ 2)).sum

/-- MARECHAL SR, psfR.py:382-383. -/
noncomputable def marechal (wvl : ℝ) (w : Option ℝ) : Option ℝ :=
  w.map (fun x => 1e2 * Real.exp (-(x * 2 * Real.pi * 1e-9 / wvl) ^ 2))

/-- `get_error_breakdown`, psfR.py:271-383. -/
noncomputable def breakdown {ι : Type} [Fintype ι] (a : RecIn ι) : RecOut :=
  let fitting := sr2wfe (strehlSF a.dl (fun i => a.r0 ^ (-(5 / 3) : ℝ) * a.fit i)) a.wvl
  let pixel := sr2wfe (strehl a.dl a.pix) a.wvl
  let totalAni := aniTerm a (fun q => q.1)
  let isLgs : Bool := a.lgs && a.ani.isSome
  let ang := if isLgs then aniTerm a (fun q => q.2.1) else if a.ani.isSome then totalAni else some 0
  let total := quadrature [some a.ncpa, fitting, hoNoise a, ttNoise a, servo a, tipTilt a, totalAni]
  let totalPix := quadrature [total, pixel]
  { ncpa := some a.ncpa
    fitting := fitting
    aliasing := sr2wfe (strehlSF a.dl (fun i => a.r0 ^ (-(5 / 3) : ℝ) * a.ali i)) a.wvl
    hoNoise := hoNoise a
    ttNoise := ttNoise a
    servo := servo a
    tipTilt := tipTilt a
    pixel := pixel
    totalAni := totalAni
    angularAni := ang
    anisoKin := if isLgs then aniTerm a (fun q => q.2.2.1) else some 0
    focalAni := if isLgs then diffSq (aniTerm a (fun q => q.2.2.2)) ang else some 0
    total := total
    totalPix := totalPix
    marechal := marechal a.wvl total
    marechalPix := marechal a.wvl totalPix }

/-! ### Zonal transfer function -/

/-- `mkotf`, psfrUtils.py:43-66, at one separation: `pairs` are the couples of points `(i, i2)` at that separation;
`K = -0.5*Cphi` and unit amplitudes as passed by `zonalCovarianceToOtf`, psfrUtils.py:201-219. -/
noncomputable def zonalOtf {n : ℕ} (dp : ℝ) (Cphi : Matrix (Fin n) (Fin n) ℝ) (pairs : List (Fin n × Fin n)) : ℝ :=
  if pairs = [] then 0
  else (pairs.map (fun p =>
      Real.exp (-0.5 * Cphi p.2 p.2) * Real.exp (-0.5 * Cphi p.1 p.1) * Real.exp (-2 * (-0.5 * Cphi p.1 p.2)))).sum
    * dp ^ 2 / ((n : ℝ) * dp ^ 2)

/-- `np.arange(-D/2, D/2+dp, dp)`, psfrUtils.py:187: `ceil((stop-start)/step)` points. -/
noncomputable def pointLoc (D dp : ℝ) : List ℝ :=
  (List.range ⌈(D / 2 + dp - -D / 2) / dp⌉₊).map (fun i : ℕ => -D / 2 + (i : ℝ) * dp)

/-- `np.round` to an integer, to even in case of a tie. -/
noncomputable def roundEven (x : ℝ) : ℤ :=
  if x - ⌊x⌋ = 1 / 2 then (if ⌊x⌋ % 2 = 0 then ⌊x⌋ else ⌊x⌋ + 1) else ⌊x + 1 / 2⌋

/-- `nPh = round(D/dp+1)`, psfrUtils.py:205. -/
noncomputable def nPh (D dp : ℝ) : ℤ := roundEven (D / dp + 1)

/-! ### Pseudo-open-loop slopes -/

/-- `np.roll(u, shifts)` without axis: the flattened array is rotated by the sum of the shifts (element `i` goes to
`i + shift`). -/
def roll {α : Type} (l : List α) (shift : ℤ) : List α := l.rotate ((-shift) % (l.length : ℤ)).toNat

/-- `getOLslopes`, psfrUtils.py:40-41, on flattened arrays of the same length (`MI*` is an element-wise product). -/
noncomputable def olSlopes (s u mi : List ℝ) (dt : ℝ) : List ℝ :=
  let r := List.zipWith (fun a b => dt * a + (1 - dt) * b) (roll u (-2 + 2)) (roll u (-1 + 2))
  List.zipWith (· + ·) s (List.zipWith (· * ·) mi r)

end P3.Rec
