import Verif.Model.Atmosphere
import Verif.Model.FourierModel
import Mathlib.LinearAlgebra.Matrix.NonsingularInverse
import Mathlib.LinearAlgebra.Matrix.ConjTranspose
import Mathlib.Analysis.SpecialFunctions.Trigonometric.Sinc
import Mathlib.Analysis.Complex.Basic
/-
Tomographic reconstruction (fourierModel.py:358-422, 475-650, 1058-1090, 1212-1225).
The code works on arrays of small matrices, one per spatial frequency `(kx, ky)`; here each array is a function
of the frequency.  Arithmetic is exact; the casts to complex64 are not modelled.
`g` guide stars (and sensors), `l` layers, `m` deformable mirrors, `q` optimisation directions.
-/
namespace P3.Tomo
open Matrix Real

/-- Height multiplied by `strechFactor`, fourierModel.py:180-190, 221-224 and 385, 487; `H` is the height of the laser
guide star, `none` for natural ones or a height of zero.  The result is `none` when numpy divides by zero. -/
noncomputable def stretched (H : Option ℝ) (h : ℝ) : Option ℝ :=
  match H with
  | none => some h
  | some H => if 1 - h / H = 0 then none else some (h * (1 / (1 - h / H)))

/-- `np.sinc(x) = sin(πx)/(πx)`. -/
noncomputable def npSinc (x : ℝ) : ℝ := Real.sinc (π * x)

/-- `np.sqrt(k2AO_)`, frequencyDomain.py:49. -/
noncomputable def kmod (k : ℝ × ℝ) : ℝ := √(k.1 ^ 2 + k.2 ^ 2)

/-- `exp(2iπ·x)`. -/
noncomputable def phasor (x : ℝ) : ℂ := Complex.exp (((2 * π * x : ℝ) : ℂ) * Complex.I)

/-- Diagonal of the WFS operator `M`, fourierModel.py:500-501. -/
noncomputable def meas (d : ℝ) (k : ℝ × ℝ) : ℂ :=
  ((2 * π * kmod k * npSinc (d * k.1) * npSinc (d * k.2) : ℝ) : ℂ) * Complex.I

/-- Guide stars: sub-aperture sizes of their sensors and their directions. -/
structure Stars (g : ℕ) where
  d : Fin g → ℝ
  dir : Fin g → ℝ × ℝ

/-- `matmul(M, P)`, fourierModel.py:495-507; `h` are the stretched heights. -/
noncomputable def mp {g l : ℕ} (s : Stars g) (h : Fin l → ℝ) (k : ℝ × ℝ) : Matrix (Fin g) (Fin l) ℂ :=
  Matrix.diagonal (fun j => meas (s.d j) k) *
    Matrix.of (fun j n => phasor (h n * (k.1 * (s.dir j).1 + k.2 * (s.dir j).2)))

/-- `Cb = ones((nK,nK,nGs,nGs)) * np.diag(noise_var)`, fourierModel.py:512-514.  numpy broadcasts the one-by-one
matrix obtained from a single variance to all entries; other lengths raise. -/
noncomputable def noiseCov (g : ℕ) (v : List ℝ) : Option (Matrix (Fin g) (Fin g) ℂ) :=
  if v.length = g then some (Matrix.diagonal (fun j => ((v.getD j 0 : ℝ) : ℂ)))
  else match v with
    | [x] => some (Matrix.of (fun _ _ => (x : ℂ)))
    | _ => none

/-- `kernel`, fourierModel.py:519-524; `pf` is `pistonFilterAO_` at this frequency. -/
noncomputable def kernel (r0 L0 pf : ℝ) (k : ℝ × ℝ) : ℝ :=
  r0 ^ (-(5:ℝ)/3) * ((24 * Gamma (6/5) / 5) ^ ((5:ℝ)/6) * (Gamma (11/6) ^ 2 / (2 * π ^ ((11:ℝ)/3)))) *
    ((k.1 ^ 2 + k.2 ^ 2) + 1 / L0 ^ 2) ^ (-(11:ℝ)/6) * pf

/-- `kernel * np.diag(weights)`, fourierModel.py:525-526 and 533-535. -/
noncomputable def cphi {l : ℕ} (κ : ℝ) (w : Fin l → ℝ) : Matrix (Fin l) (Fin l) ℂ :=
  Matrix.diagonal (fun n => ((κ * w n : ℝ) : ℂ))

/-- `Cphi_mod`, fourierModel.py:529-535: the weights of the true atmosphere if the numbers of layers agree. -/
noncomputable def cphiMod {l lm : ℕ} (κ : ℝ) (w : Fin l → ℝ) (wm : Fin lm → ℝ) : Matrix (Fin lm) (Fin lm) ℂ :=
  if h : lm = l then cphi κ (fun n => w (Fin.cast h n)) else cphi κ wm

/-- `to_inv`, fourierModel.py:538-539. -/
def system {g l : ℕ} (B : Matrix (Fin g) (Fin l) ℂ) (C : Matrix (Fin l) (Fin l) ℂ)
    (N : Matrix (Fin g) (Fin g) ℂ) : Matrix (Fin g) (Fin g) ℂ := B * C * Bᴴ + N

/-- `rhs`, fourierModel.py:540. -/
def rhs {g l : ℕ} (B : Matrix (Fin g) (Fin l) ℂ) (C : Matrix (Fin l) (Fin l) ℂ) : Matrix (Fin l) (Fin g) ℂ :=
  C * Bᴴ

/-- What `np.linalg.pinv` computes: the Moore-Penrose inverse (exact arithmetic, so its cut-off of small singular
values is not modelled). -/
structure IsPinv {m n : ℕ} (A : Matrix (Fin m) (Fin n) ℂ) (X : Matrix (Fin n) (Fin m) ℂ) : Prop where
  axa : A * X * A = A
  xax : X * A * X = X
  ax : (A * X)ᴴ = A * X
  xa : (X * A)ᴴ = X * A

open Classical in
/-- `tomographicReconstructor`, fourierModel.py:542-560: one `solve` for all frequencies, and `pinv` for all of
them if it raises, that is if the matrix of some frequency is singular. -/
noncomputable def wtomo {ι : Type} {g l : ℕ} (pinv : Matrix (Fin g) (Fin g) ℂ → Matrix (Fin g) (Fin g) ℂ)
    (B : ι → Matrix (Fin g) (Fin l) ℂ) (C : ι → Matrix (Fin l) (Fin l) ℂ) (N : Matrix (Fin g) (Fin g) ℂ) (f : ι) :
    Matrix (Fin l) (Fin g) ℂ :=
  if ∀ f, IsUnit (system (B f) (C f) N).det then
    ((system (B f) (C f) N)ᵀ⁻¹ * (rhs (B f) (C f))ᵀ)ᵀ
  else rhs (B f) (C f) * pinv (system (B f) (C f) N)

/-! ### Projection on the mirrors (fourierModel.py:562-650) -/

/-- `Pdm`, fourierModel.py:598-600, and `PbetaDM`, 394-402: mirrors only act within their cut-off frequency. -/
noncomputable def pdm {m : ℕ} (h kc : Fin m → ℝ) (θ k : ℝ × ℝ) : Matrix (Fin 1) (Fin m) ℂ :=
  Matrix.of (fun _ j => if kmod k ≤ kc j then phasor (h j * (θ.1 * k.1 + θ.2 * k.2)) else 0)

/-- `Pl`, fourierModel.py:602-603. -/
noncomputable def pl {l : ℕ} (h : Fin l → ℝ) (θ k : ℝ × ℝ) : Matrix (Fin 1) (Fin l) ℂ :=
  Matrix.of (fun _ n => phasor (h n * (θ.1 * k.1 + θ.2 * k.2)))

/-- `mat1`, fourierModel.py:593-604: `p d`, `a d` are `Pdm`, `Pl` in direction `d`. -/
noncomputable def crossCov {q m l : ℕ} (w : Fin q → ℝ) (p : Fin q → Matrix (Fin 1) (Fin m) ℂ)
    (a : Fin q → Matrix (Fin 1) (Fin l) ℂ) : Matrix (Fin m) (Fin l) ℂ := ∑ d, (w d : ℂ) • ((p d)ᴴ * a d)

/-- `to_inv`, fourierModel.py:605. -/
noncomputable def mirrorCov {q m : ℕ} (w : Fin q → ℝ) (p : Fin q → Matrix (Fin 1) (Fin m) ℂ) :
    Matrix (Fin m) (Fin m) ℂ := ∑ d, (w d : ℂ) • ((p d)ᴴ * p d)

/-- `lambda_reg`, fourierModel.py:621-628: mean of the diagonals of all frequencies, over the conditioning. -/
noncomputable def lambdaReg {ι : Type} [Fintype ι] {m : ℕ} (cond : ℝ) (T : ι → Matrix (Fin m) (Fin m) ℂ) : ℂ :=
  (∑ f, ((T f)ᵀ * T f).trace) / ((Fintype.card ι * m : ℕ) : ℂ) * ((1 / cond : ℝ) : ℂ)

open Classical in
/-- `mat2`, fourierModel.py:613-643: `to_inv_t` is the transpose, without conjugation. -/
noncomputable def invCov {ι : Type} [Fintype ι] {m : ℕ} (q : ℕ) (cond : ℝ)
    (pinv : Matrix (Fin m) (Fin m) ℂ → Matrix (Fin m) (Fin m) ℂ) (T : ι → Matrix (Fin m) (Fin m) ℂ) (f : ι) :
    Matrix (Fin m) (Fin m) ℂ :=
  if q = 1 then pinv (T f)
  else if ∀ f, IsUnit ((T f)ᵀ * T f + lambdaReg cond T • (1 : Matrix (Fin m) (Fin m) ℂ)).det then
    ((T f)ᵀ * T f + lambdaReg cond T • (1 : Matrix (Fin m) (Fin m) ℂ))⁻¹ * (T f)ᵀ
  else pinv (T f)

/-- The mirrors and the optimisation: heights, cut-off frequencies, directions, weights, conditioning. -/
structure Mirrors (m q : ℕ) where
  h : Fin m → ℝ
  kc : Fin m → ℝ
  dir : Fin q → ℝ × ℝ
  w : Fin q → ℝ
  cond : ℝ

/-- `optimalProjector`, fourierModel.py:562-650, on the frequencies `k f`. -/
noncomputable def popt {ι : Type} [Fintype ι] {m q l : ℕ}
    (pinv : Matrix (Fin m) (Fin m) ℂ → Matrix (Fin m) (Fin m) ℂ) (M : Mirrors m q) (h : Fin l → ℝ)
    (k : ι → ℝ × ℝ) (f : ι) : Matrix (Fin m) (Fin l) ℂ :=
  invCov q M.cond pinv (fun f => mirrorCov M.w (fun d => pdm M.h M.kc (M.dir d) (k f))) f *
    crossCov M.w (fun d => pdm M.h M.kc (M.dir d) (k f)) (fun d => pl h (M.dir d) (k f))

/-! ### Residual and noise spectra -/

/-- Wind of the layers and timing of the loop and sensors. -/
structure Wind (g l : ℕ) where
  speed : Fin l → ℝ
  dirDeg : Fin l → ℝ
  clock : Fin g → ℝ
  rate : ℝ
  delay : ℝ

/-- `freq_t`, fourierModel.py:409 and 1219. -/
noncomputable def windFreq {g l : ℕ} (v : Wind g l) (k : ℝ × ℝ) (n : Fin l) : ℝ :=
  cos (v.dirDeg n * π / 180) * k.1 + sin (v.dirDeg n * π / 180) * k.2

/-- `MPalphaL`, fourierModel.py:404-418; `h` are the stretched heights of the true layers. -/
noncomputable def mpAlpha {g l : ℕ} (s : Stars g) (v : Wind g l) (h : Fin l → ℝ) (k : ℝ × ℝ) :
    Matrix (Fin g) (Fin l) ℂ :=
  Matrix.of (fun j n => meas (s.d j) k * (npSinc (1 / v.rate * v.clock j * v.speed n * windFreq v k n) : ℂ) *
    phasor (h n * ((s.dir j).1 * k.1 + (s.dir j).2 * k.2)))

/-- `PbetaL`, fourierModel.py:1214-1221. -/
noncomputable def pBetaL {g l : ℕ} (v : Wind g l) (h : Fin l → ℝ) (β k : ℝ × ℝ) : Matrix (Fin 1) (Fin l) ℂ :=
  Matrix.of (fun _ n => phasor (h n * (β.1 * k.1 + β.2 * k.2) - v.delay / v.rate * v.speed n * windFreq v k n))

/-- Tomographic case of `spatioTemporalPSD`, fourierModel.py:1212-1226; `pb` is `PbetaDM`, `W` the reconstructor
and `pL`, `mA` are `PbetaL` and `MPalphaL`. -/
noncomputable def residualPsd {g l m : ℕ} (inside : Bool) (pL : Matrix (Fin 1) (Fin l) ℂ)
    (pb : Matrix (Fin 1) (Fin m) ℂ) (W : Matrix (Fin m) (Fin g) ℂ) (mA : Matrix (Fin g) (Fin l) ℂ)
    (C : Matrix (Fin l) (Fin l) ℂ) (pf : ℝ) : ℝ :=
  Fourier.msk inside * (((pL - pb * (W * mA)) * (C * (pL - pb * (W * mA))ᴴ)) 0 0).re * pf

/-- Tomographic case of `noisePSD`, fourierModel.py:1076-1086. -/
noncomputable def noisePsd {g m : ℕ} (inside : Bool) (pb : Matrix (Fin 1) (Fin m) ℂ) (W : Matrix (Fin m) (Fin g) ℂ)
    (Cb : Matrix (Fin g) (Fin g) ℂ) (pf delay : ℝ) : ℝ :=
  Fourier.msk inside * (((pb * W) * (Cb * (pb * W)ᴴ)) 0 0).re * pf * (min 0.8 (0.4 + 0.1333 * delay)) ^ 2

/-- Shape of the array returned by `noisePSD`, fourierModel.py:1062-1090. -/
noncomputable def noiseShape (nGs nK nSrc : ℕ) (firstVar : ℝ) : List ℕ :=
  if 0 < firstVar ∧ ¬ nGs < 2 then [nK, nK, nSrc] else [nK, nK]

/-- numpy: may an array of shape `a` be assigned to a selection of shape `b` (broadcast to it)? -/
def broadcastsTo (a b : List ℕ) : Prop :=
  a.length ≤ b.length ∧ ∀ i < a.length, a.reverse[i]? = b.reverse[i]? ∨ a.reverse[i]? = some 1

/-- The assignment of the noise spectrum, fourierModel.py:789-794: a new axis is added for one guide star. -/
noncomputable def noiseAssigned (nGs nK nSrc : ℕ) (firstVar : ℝ) : Prop :=
  broadcastsTo (if nGs = 1 then noiseShape nGs nK nSrc firstVar ++ [1] else noiseShape nGs nK nSrc firstVar)
    [nK, nK, nSrc]

end P3.Tomo
