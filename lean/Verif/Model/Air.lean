import Mathlib.Analysis.SpecialFunctions.Exp
import Mathlib.Data.Real.Basic

/-! Model of p3/aoSystem/airRefraction.py: refractive index of air. The coefficient tables are transcribed digit
by digit. Arithmetic is exact. -/

namespace P3.Air

/-- The infrared bands, in the order of the dictionary `self.tables` (airRefraction.py 38-144). -/
inductive Band | K | L | M | N | Q
  deriving DecidableEq, Repr

/-- `self.tables[b]['range']` in micrometres. -/
noncomputable def Band.range : Band → ℝ × ℝ
  | .K => (1.3, 2.5)
  | .L => (2.8, 4.2)
  | .M => (4.35, 5.3)
  | .N => (7.5, 14.1)
  | .Q => (16.0, 28.0)

/-- `self.tables[b]['nu_ref']` in inverse centimetres. -/
noncomputable def Band.nuRef : Band → ℝ
  | .K => 10000 / 2.25
  | .L => 10000 / 3.4
  | .M => 10000 / 4.8
  | .N => 10000 / 10.1
  | .Q => 10000 / 20.0

/-- `self.tables[b]['coeffs']`: six rows of ten, airRefraction.py 38-144. -/
noncomputable def Band.coeffs : Band → List (List ℝ)
  | .K =>
    [[0.200192e-3, 0.588625e-1, -3.01513, -0.103945e-7, 0.573256e-12, 0.267085e-8, 0.609186e-17, 0.497859e-4, 0.779176e-6, -0.206567e-15],
     [0.113474e-9, -0.385766e-7, 0.406167e-3, 0.136858e-11, 0.186367e-16, 0.135941e-14, 0.519024e-23, -0.661752e-8, 0.396499e-12, 0.106141e-20],
     [-0.424595e-14, 0.888019e-10, -0.514544e-6, -0.171039e-14, -0.228150e-19, 0.135295e-18, -0.419477e-27, 0.832034e-11, 0.395114e-16, -0.149982e-23],
     [0.100957e-16, -0.567650e-13, 0.343161e-9, 0.112908e-17, 0.150947e-22, 0.818218e-23, 0.434120e-30, -0.551793e-14, 0.233587e-20, 0.984046e-27],
     [-0.293315e-20, 0.166615e-16, -0.101189e-12, -0.329925e-21, -0.441214e-26, -0.222957e-26, -0.122445e-33, 0.161899e-17, -0.636441e-24, -0.288266e-30],
     [0.307228e-24, -0.174845e-20, 0.106749e-16, 0.344747e-25, 0.461209e-30, 0.249964e-30, 0.134816e-37, -0.169901e-21, 0.716868e-28, 0.299105e-34]]
  | .L =>
    [[0.200049e-3, 0.588431e-1, -3.13579, -0.108142e-7, 0.586812e-12, 0.266900e-8, 0.608860e-17, 0.517962e-4, 0.778638e-6, -0.217243e-15],
     [0.145221e-9, -0.825182e-7, 0.694124e-3, 0.230102e-11, 0.312198e-16, 0.168162e-14, -0.112149e-21, 0.461560e-22, 0.446396e-12, 0.104747e-20],
     [0.250951e-12, 0.137982e-9, -0.500604e-6, -0.154652e-14, -0.197792e-19, 0.353075e-17, 0.184282e-24, 0.776507e-11, 0.784600e-15, -0.523689e-23],
     [-0.745834e-15, 0.352420e-13, -0.116668e-8, -0.323014e-17, -0.461945e-22, -0.963455e-20, -0.524471e-27, 0.172569e-13, -0.195151e-17, 0.817386e-26],
     [-0.161432e-17, -0.730651e-15, 0.209644e-11, 0.630616e-20, 0.788398e-25, -0.223079e-22, -0.121299e-29, -0.320582e-16, -0.542083e-20, 0.309913e-28],
     [0.352780e-20, -0.167911e-18, 0.591037e-14, 0.173880e-22, 0.245580e-27, 0.453166e-25, 0.246512e-32, -0.899435e-19, 0.103530e-22, -0.363491e-31]]
  | .M =>
    [[0.200020e-3, 0.590035e-1, -4.09830, -0.140463e-7, 0.543605e-12, 0.266898e-8, 0.610706e-17, 0.674488e-4, 0.778627e-6, -0.211676e-15],
     [0.275346e-9, -0.375764e-6, 0.250037e-2, 0.839350e-11, 0.112802e-15, 0.273629e-14, 0.116620e-21, -0.406775e-7, 0.593296e-12, 0.487921e-20],
     [0.325702e-12, 0.134585e-9, 0.275187e-6, -0.190929e-14, -0.229979e-19, 0.463466e-17, 0.244736e-24, 0.289063e-11, 0.145042e-14, -0.682545e-23],
     [-0.693603e-14, 0.124316e-11, -0.653398e-8, -0.121399e-16, -0.191450e-21, -0.916894e-19, -0.497682e-26, 0.819898e-13, 0.489815e-17, 0.942802e-25],
     [0.285610e-17, 0.508510e-13, -0.310589e-9, -0.898863e-18, -0.120352e-22, 0.136685e-21, 0.742024e-29, 0.468386e-14, 0.327941e-19, -0.946422e-27],
     [0.338758e-18, -0.189245e-15, 0.127747e-11, 0.364662e-20, 0.500955e-25, 0.413687e-23, 0.224625e-30, -0.191182e-16, 0.128020e-21, -0.153682e-29]]
  | .N =>
    [[0.199885e-3, 0.593900e-1, -6.50355, -0.221938e-7, 0.393524e-12, 0.266809e-8, 0.610508e-17, 0.106776e-3, 0.778368e-6, -0.206365e-15],
     [0.344739e-9, -0.172226e-5, 0.103830e-1, 0.347377e-10, 0.464083e-15, 0.3695247e-14, 0.227694e-22, -0.168516e-6, 0.216404e-12, 0.300234e-19],
     [-0.273714e-12, 0.237654e-8, -0.139464e-4, -0.465991e-13, -0.621764e-18, 0.159070e-17, 0.786323e-25, 0.226201e-9, 0.581805e-15, -0.426519e-22],
     [0.393383e-15, -0.381812e-11, 0.220077e-7, 0.735848e-16, 0.981126e-21, -0.303451e-20, -0.174448e-27, -0.356457e-12, -0.189618e-17, 0.684306e-25],
     [-0.569488e-17, 0.305050e-14, -0.272412e-10, -0.897119e-19, -0.121384e-23, -0.661489e-22, -0.359791e-29, 0.437980e-15, -0.198869e-19, -0.467320e-29],
     [0.164556e-19, -0.157464e-16, 0.126364e-12, 0.380817e-21, 0.515111e-26, 0.178226e-24, 0.978307e-32, -0.194545e-17, 0.589381e-22, 0.126117e-30]]
  | .Q =>
    [[0.199436e-3, 0.621723e-1, -23.2409, -0.772707e-7, -0.326604e-12, 0.266827e-8, 0.613675e-17, 0.375974e-3, 0.778436e-6, -0.272614e-15],
     [0.299123e-8, -0.177074e-4, 0.108557, 0.347237e-9, 0.463606e-14, 0.120788e-14, 0.585494e-22, -0.171849e-5, 0.461840e-12, 0.304662e-18],
     [-0.214862e-10, 0.152213e-6, -0.102439e-2, -0.272675e-11, -0.364272e-16, 0.522646e-17, 0.286055e-24, 0.146704e-7, 0.306229e-14, -0.239590e-20],
     [0.143338e-12, -0.954584e-9, 0.634072e-5, 0.170858e-13, 0.228756e-18, 0.783027e-19, 0.425193e-26, -0.917231e-10, -0.623183e-16, 0.149285e-22],
     [0.122398e-14, 0.921476e-13, -0.675587e-9, -0.150004e-17, -0.200547e-22, 0.753235e-21, 0.413455e-28, -0.955922e-12, -0.161119e-18, 0.136086e-24],
     [-0.114628e-16, -0.996706e-11, 0.762517e-7, 0.156889e-15, 0.209502e-20, -0.228819e-24, -0.812941e-32, 0.880502e-14, 0.800756e-20, -0.130999e-26]]

/-- Order of the dictionary. -/
def allBands : List Band := [.K, .L, .M, .N, .Q]

open Classical in
/-- Band selection, airRefraction.py 243-247: the first band whose range contains the wavelength, `'K'` when none
does. -/
noncomputable def bandOf (w : ℝ) : Band :=
  (allBands.find? fun b => decide (b.range.1 ≤ w ∧ w ≤ b.range.2)).getD .K

/-- State of the air: temperature in Celsius, pressure in pascal, relative humidity in percent. -/
structure State where
  T : ℝ
  P : ℝ
  H : ℝ

/-- `T_kelvin`, airRefraction.py 163. -/
noncomputable def State.kelvin (s : State) : ℝ := s.T + 273.15

/-- `state_vector`, airRefraction.py 233-240, with the reference state of lines 19-21. -/
noncomputable def State.vector (s : State) : List ℝ :=
  let t := 1 / s.kelvin - 1 / (273.15 + 17.5)
  let p := s.P - 75000
  let h := s.H - 10
  [1, t, t ^ 2, h, h ^ 2, p, p ^ 2, t * h, t * p, h * p]

/-- One row of `np.dot(coeffs, state_vector)`, airRefraction.py 253. -/
noncomputable def dot (a b : List ℝ) : ℝ := (List.zipWith (· * ·) a b).sum

/-- The Mathar model at wavelength `w` in micrometres with the table of band `b`, airRefraction.py 249-257. -/
noncomputable def matharIn (b : Band) (s : State) (w : ℝ) : ℝ :=
  let dnu := 10000 / w - b.nuRef
  ((List.range 6).map fun i : ℕ => dot (b.coeffs.getD i []) s.vector * dnu ^ i).sum

/-- Refractivity of standard dry air, airRefraction.py 184-188 (`sigma` is the wavenumber in inverse
micrometres). -/
noncomputable def dryStd (sigma : ℝ) : ℝ :=
  (5792105.0 / (238.0185 - sigma ^ 2) + 167917.0 / (57.362 - sigma ^ 2)) * 1e-8

/-- Refractivity of standard water vapour, airRefraction.py 196-201. -/
noncomputable def wetStd (sigma : ℝ) : ℝ :=
  1.022 * (295.235 + 2.6422 * sigma ^ 2 + (-0.032380) * sigma ^ 4 + 0.004028 * sigma ^ 6) * 1e-8

/-- Saturation vapour pressure, airRefraction.py 205-209. -/
noncomputable def svp (tk : ℝ) : ℝ := Real.exp (1.2378847e-5 * tk ^ 2 + (-1.9121316e-2) * tk + 33.93711047 + (-6.3431645e3) / tk)

/-- Partial pressure of water vapour, airRefraction.py 211-217. -/
noncomputable def State.pw (s : State) : ℝ :=
  (s.H / 100) * (1.00062 + 3.14e-8 * s.P + 5.6e-7 * s.T ^ 2) * svp s.kelvin

/-- Partial pressure of dry air, airRefraction.py 218. -/
noncomputable def State.pa (s : State) : ℝ := s.P - s.pw

/-- The Ciddor model at wavelength `w` in micrometres, airRefraction.py 180-225. -/
noncomputable def ciddor (s : State) (w : ℝ) : ℝ :=
  (s.pa / 101325) * (288.15 / s.kelvin) * dryStd (1 / w) + (s.pw / 1333) * (293.15 / s.kelvin) * wetStd (1 / w)

/-- One element of the loop, airRefraction.py 168-257: Ciddor below 1.3 micrometres, Mathar above. -/
noncomputable def index1 (s : State) (w : ℝ) : ℝ := if w < 1.3 then ciddor s w else matharIn (bandOf w) s w

/-- What the function returns: a number for one wavelength, an array for several; `none` is the `IndexError` for an
empty array. -/
inductive Result | number (x : ℝ) | array (xs : List ℝ)

/-- `get_refractive_index`, airRefraction.py 146-260; wavelengths in metres. -/
noncomputable def refractiveIndex (s : State) (wvl : List ℝ) : Option Result :=
  match wvl.map fun w => index1 s (w * 1e6) with
  | [] => none
  | [x] => some (.number x)
  | xs => some (.array xs)

end P3.Air
