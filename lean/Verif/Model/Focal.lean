import Verif.Model.Py
import Verif.Model.Psf
import Mathlib.Analysis.SpecialFunctions.Gamma.Basic
import Mathlib.Analysis.SpecialFunctions.Pow.Real
/-
Focal-angular anisoplanatism, covariance maps and anisokinetism.  Sources: /repo/p3/aoSystem/anisoplanatismModel.py:140-366,
/repo/p3/aoSystem/FourierUtils.py:133-143 and 1745-1786, /repo/p3/aoSystem/zernike.py:312-361.  Real arithmetic; the
modified Bessel function of `scipy` is a parameter `K`; the numerical quadrature is a parameter.
-/
namespace P3.Focal
open Finset

/-- A point or a direction. -/
abbrev Pt := ℝ × ℝ

/-! ### Covariance of the turbulence -/

/-- `mcDonald`, FourierUtils.py:133-140. -/
noncomputable def mcDonald (K : ℝ → ℝ) (x : ℝ) : ℝ :=
  if x = 0 then 3 / 5 else x ^ (5/6 : ℝ) * K x / (2 ^ (5/6 : ℝ) * Real.Gamma (11/6))

/-- `Ialpha(f0*x, f0*y)`, FourierUtils.py:142-143, at the point `(x, y)`. -/
noncomputable def ialpha (K : ℝ → ℝ) (f0 : ℝ) (p : Pt) : ℝ := mcDonald K (Real.sqrt ((f0 * p.1) ^ 2 + (f0 * p.2) ^ 2))

/-! ### Structure functions, before the factor `cte` -/

/-- `angular_function` with the method of Flicker, anisoplanatismModel.py:209-227, for a layer at `zl` and a star in the
direction `th` of the source; `I` is `Ialpha`. -/
noncomputable def angularTerm (I : Pt → ℝ) (zl : ℝ) (th rho : Pt) : ℝ :=
  open Classical in
  if zl ≠ 0 ∧ (th.1 ≠ 0 ∨ th.2 ≠ 0) then
    2 * (3 / 5) - 2 * I rho - 2 * I (zl • th) + I (rho + zl • th) + I (rho - zl • th)
  else 0

/-- `cte`, anisoplanatismModel.py:208 and 294. -/
noncomputable def flickerCte (L0 : ℝ) : ℝ := 0.12184 * 0.06 * (2 * Real.pi) ^ 2 * L0 ^ (5/3 : ℝ)

/-- `Dani_l` of a layer for `angular_function` with the method of Flicker, anisoplanatismModel.py:200-227, at one separation:
`f0 = 2*np.pi/atm.L0` (201). -/
noncomputable def flicker (K : ℝ → ℝ) (L0 zl : ℝ) (th rho : Pt) : ℝ :=
  angularTerm (ialpha K (2 * Real.pi / L0)) zl th rho * flickerCte L0

/-- `tmp`, anisoplanatismModel.py:299-310, for the point `P` (`X1`, `Y1`) and the separation `rho` (`rhoX`, `rhoY`). -/
noncomputable def pairTerm (I : Pt → ℝ) (g zl : ℝ) (th P rho : Pt) : ℝ :=
  2 * (3 / 5) - I rho - I ((1 - g) • rho) + I (rho - g • P + zl • th) - I (g • P - zl • th)
    - I (g • (rho - P) - zl • th) + I ((1 - g) • rho + g • P - zl • th)

/-- Coordinates of the samples, `umax/n_ph * (range(n_ph) - n_ph//2)`, line 289. -/
noncomputable def coord (umax : ℝ) (n k : ℕ) : ℝ := umax / n * ((k : ℝ) - (n / 2 : ℕ))

/-- `X1[a, b]`, `Y1[a, b]` of `vector_to_separation`, lines 274-281, for the coordinates `u`. -/
def ptOf (u : ℕ → ℝ) (n a b : ℕ) : Pt := (u (b / n), u (a % n))
/-- `rhoX[a, b]`, `rhoY[a, b]`, lines 278-279. -/
def sepOf (u : ℕ → ℝ) (n a b : ℕ) : Pt := (u (b / n) - u (a / n), u (a % n) - u (b % n))

/-- The matrix `tmp`, lines 286-310, without the filter `h_filt`; a layer on the ground is skipped (298). -/
noncomputable def focalMatrix (I : Pt → ℝ) (g zl : ℝ) (th : Pt) (u : ℕ → ℝ) (n a b : ℕ) : ℝ :=
  pairTerm I g zl th (ptOf u n a b) (sepOf u n a b)

/-! ### Maps of covariance matrices -/

/-- `sep_x == jx - n + 1` and `sep_y == jy - n + 1`, FourierUtils.py:1760-1772, for the separations of the sample numbers
(as integers, `vector_to_separation(np.array(range(n_ph)))` or the default of the function, which are the same). -/
def sameBase (n jy jx a b : ℕ) : Bool :=
  ((a % n : ℕ) : ℤ) - (b % n : ℕ) = (jy : ℤ) - n + 1 ∧ ((b / n : ℕ) : ℤ) - (a / n : ℕ) = (jx : ℤ) - n + 1

/-- One quadrant: `mat[id_x_y[jy, jx]].mean()`, line 1774. -/
noncomputable def quadrant (n : ℕ) (mat : ℕ → ℕ → ℝ) (jy jx : ℕ) : ℝ :=
  (∑ a ∈ range (n ^ 2), ∑ b ∈ range (n ^ 2), if sameBase n jy jx a b then mat a b else 0) /
    (∑ a ∈ range (n ^ 2), ∑ b ∈ range (n ^ 2), if sameBase n jy jx a b then 1 else 0)

/-- Row or column of the quadrant that is copied to the row or column `r < 2n-1`, lines 1777-1781. -/
def mirror (n r : ℕ) : ℕ := if r < n then r else 2 * n - 2 - r

/-- `matrix_to_map`, FourierUtils.py:1745-1786. -/
noncomputable def matrixToMap (n : ℕ) (mat : ℕ → ℕ → ℝ) (r c : ℕ) : ℝ := quadrant n mat (mirror n r) (mirror n c)

/-! ### Anisokinetism -/

/-- `J0(x)` as Bessel's integral. -/
noncomputable def j0 (x : ℝ) : ℝ := (1 / Real.pi) * ∫ t in (0:ℝ)..Real.pi, Real.cos (x * Real.cos t)
/-- `J2(x)` as Bessel's integral. -/
noncomputable def j2 (x : ℝ) : ℝ := -(1 / Real.pi) * ∫ t in (0:ℝ)..Real.pi, Real.cos (x * Real.cos t) * Real.cos (2 * t)

/-- `g` and `h` of `sumLayers(f, j, i)`, zernike.py:315-316. -/
noncomputable def gAngle (i j : ℕ) : ℝ := Real.pi * ((-1) ^ i + (-1) ^ j - 2) / 4
noncomputable def hAngle (i j : ℕ) : ℝ := Real.pi * ((-1) ^ i - (-1) ^ j) / 4

/-- `Itheta`, zernike.py:325, for `red = 2 pi f rho`. -/
noncomputable def iTheta (j i : ℕ) (red arg : ℝ) : ℝ :=
  -Real.pi * (j2 red * Real.cos (2 * arg + gAngle i j) - j0 red * Real.cos (hAngle i j))

/-- A layer: weight, height. -/
structure Layer where
  w : ℝ
  h : ℝ

/-- `sumLayers(f, j, i)`, zernike.py:314-328, without lag: `psd f` is `psdCst*(f**2 + 1/L0**2)**(-11/6)`, `d` the
difference of the directions; modulus and argument are those of the complex number `d.1*h + i d.2*h`. -/
noncomputable def sumLayers (ls : List Layer) (psd : ℝ → ℝ) (d : Pt) (j i : ℕ) (f : ℝ) : ℝ :=
  (ls.map fun l => l.w * psd f *
    iTheta j i (2 * Real.pi * f * ‖(⟨d.1 * l.h, d.2 * l.h⟩ : ℂ)‖) (Complex.arg ⟨d.1 * l.h, d.2 * l.h⟩)).sum

/-- `tiltsAngularCovariance`, zernike.py:312-353, without lag: `quad` is the integral over frequencies, `filt` the filter
of the tilts; the indices are 2 (tip) and 3 (tilt). -/
noncomputable def tiltCov (quad : (ℝ → ℝ) → ℝ) (filt : ℝ → ℝ) (ls : List Layer) (psd : ℝ → ℝ) (d : Pt) (j i : ℕ) : ℝ :=
  quad fun f => f * sumLayers ls psd d j i f * filt f

/-- `anisokinetism`, zernike.py:355-361: entry `(j, i)` for sources in the directions `s` and `g`. -/
noncomputable def anisokinetism (quad : (ℝ → ℝ) → ℝ) (filt : ℝ → ℝ) (ls : List Layer) (psd : ℝ → ℝ) (D : ℝ) (s g : Pt)
    (j i : ℕ) : ℝ :=
  (tiltCov quad filt ls psd (s - s) j i + tiltCov quad filt ls psd (g - g) j i - tiltCov quad filt ls psd (s - g) j i -
    tiltCov quad filt ls psd (s - g) i j) * D ^ (5/3 : ℝ)

/-- The covariance of `anisokinetism_function`, anisoplanatismModel.py:356: the directions of all sources are passed at
once and the quadrature takes one number (`TypeError` otherwise). -/
noncomputable def anisokinetismOf (nSrc : ℕ) (c : ℕ → ℕ → ℝ) : Except PyErr (ℕ → ℕ → ℝ) :=
  if nSrc = 1 then .ok c else .error .typeError

/-- The kernel, anisoplanatismModel.py:336-342 and 358-361: `XY = X*Y.T` and `YX = Y*X.T` are products element by element
with the transposed array. -/
noncomputable def kernel (c00 c01 c10 c11 fr0 : ℝ) (X Y : ℕ → ℕ → ℝ) (p q : ℕ) : ℝ :=
  (c00 * X p q ^ 2 + c11 * Y p q ^ 2 + c01 * (X p q * Y q p) + c10 * (Y p q * X q p)) / fr0

end P3.Focal
