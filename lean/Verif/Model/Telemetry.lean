import Mathlib.Analysis.SpecialFunctions.Pow.Real
import Mathlib.Analysis.SpecialFunctions.Complex.Circle
import Mathlib.Algebra.Order.Floor.Ring
import Mathlib.Algebra.BigOperators.Field

/-! Model of the reduction of telemetry: p3/telemetry/massdimm.py, systemDiagnosis.py, telemetryKeck.py and keckUtils.py.
Arithmetic is exact. -/

namespace P3.Telemetry

open Finset

/-! ### Dates of the seeing monitors -/

/-- A row of the monitor, in local time. -/
structure Stamp where
  year : ℕ
  month : ℕ
  day : ℕ
  hour : ℕ
  minute : ℕ
  second : ℕ
  deriving DecidableEq, Repr

/-- Conversion from local time to UT, massdimm.py 53-57 (and 125-129, 197-201): ten hours are added, and past midnight the
day is incremented. -/
def toUT (s : Stamp) : Stamp :=
  if s.hour + 10 ≥ 24 then { s with hour := s.hour + 10 - 24, day := s.day + 1 } else { s with hour := s.hour + 10 }

/-- `timeInHours`, massdimm.py 62. -/
noncomputable def timeInHours (s : Stamp) : ℝ := s.hour + s.minute / 60 + s.second / 3600

/-- `argmin` of a non-empty list: index of the first smallest element. -/
noncomputable def argmin (f : ℕ → ℝ) : ℕ → ℕ
  | 0 => 0
  | n + 1 => open Classical in if f (n + 1) < f (argmin f n) then n + 1 else argmin f n

/-- `indexTime` for one time, massdimm.py 71-85, over `n + 1` rows: the value of the closest row and the time difference;
minus one when the difference exceeds one hour, in verbose mode only. -/
noncomputable def indexTime (times vals : ℕ → ℝ) (n : ℕ) (verbose : Bool) (item : ℝ) : ℝ × ℝ :=
  open Classical in
  let diff := fun k => |times k - item|
  let k := argmin diff n
  (if diff k > 1 ∧ verbose = true then -1 else vals k, diff k)

/-- Conversion from seeing to integrated Cn2, massdimm.py 423 (and telemetryKeck.py 318): `mu0` for a wavelength. -/
noncomputable def mu0 (wvl : ℝ) : ℝ := (0.976 * (3600 * 180 / Real.pi)) ^ (5 / 3 : ℝ) * 0.423 * 4 * Real.pi * Real.pi / wvl ^ (1 / 3 : ℝ)

/-- `CombineMASSandDIMM`, massdimm.py 417-428: the ground layer and the layers above; `none` when the power of a negative
number is taken (not a number). -/
noncomputable def combine (seeing alt : ℝ) (cn2 : List ℝ) (wvl : ℝ) : Option (List ℝ) :=
  open Classical in
  if seeing ^ (5 / 3 : ℝ) - alt ^ (5 / 3 : ℝ) < 0 then none
  else some ((((seeing ^ (5 / 3 : ℝ) - alt ^ (5 / 3 : ℝ)) ^ (3 / 5 : ℝ)) ^ (5 / 3 : ℝ) / mu0 wvl) :: cn2)

/-! ### Delayed commands -/

/-- `np.roll(a, k)` on a flattened array of `n` elements. -/
def roll (n : ℕ) (k : ℤ) (a : ℕ → ℝ) : ℕ → ℝ := fun i => a (((i : ℤ) - k) % n).toNat

/-- `com_delta`, systemDiagnosis.py 300-303: the residual commands `res` (frames by actuators, flattened in memory order)
are rolled by a tuple `(-d, 0)` without an axis, which numpy applies to the flattened array. `dt` is the delay in frames. -/
noncomputable def comDelta (nF nU : ℕ) (res : ℕ → ℝ) (dt : ℝ) : ℕ → ℝ := fun i =>
  (1 - (⌈dt⌉ : ℝ) + dt) * roll (nF * nU) (-⌈dt⌉) res i + (1 - dt + (⌊dt⌋ : ℝ)) * roll (nF * nU) (-⌊dt⌋) res i

/-! ### Noise -/

/-- Mean of a column over the frames. -/
noncomputable def colMean (nF : ℕ) (u : ℕ → ℕ → ℝ) (j : ℕ) : ℝ := (∑ t ∈ range nF, u t j) / nF

/-- Noise covariance by autocorrelation, systemDiagnosis.py 171 and 204-206, with `u` centred first; rolls are along the frames. -/
noncomputable def noiseCov (nF s : ℕ) (u : ℕ → ℕ → ℝ) (i j : ℕ) : ℝ :=
  let c := fun t k => u t k - colMean nF u k
  (1 / 2) * (∑ t ∈ range nF, c t i * ((c t j - c ((t + s) % nF) j) + (c t j - c ((t + (nF - s % nF)) % nF) j))) / nF

/-! ### Transfer functions -/

/-- `delay_transfer_function`, systemDiagnosis.py 88-89. -/
noncomputable def tfDelay (f fs delay : ℝ) : ℂ := Complex.exp (-2 * Complex.I * f * delay / fs)

/-- `np.sinc`. -/
noncomputable def sinc (x : ℝ) : ℝ := if x = 0 then 1 else Real.sin (Real.pi * x) / (Real.pi * x)

/-- `wfs_transfer_function`, systemDiagnosis.py 90-91. -/
noncomputable def tfWfs (f fs : ℝ) : ℂ := (sinc (f / fs / Real.pi) : ℂ) * Complex.exp (-1 * Complex.I * f / fs)

/-- `servo_transfer_function`, systemDiagnosis.py 92-96. -/
noncomputable def tfServo (num den : ℕ → ℂ) (f fs : ℝ) : ℂ :=
  let z := Complex.exp (-2 * Complex.I * Real.pi * f / fs)
  (num 0 + num 1 * z + num 2 * z ^ 2 + num 3 * z ^ 3) / (1 + den 0 * z + den 1 * z ^ 2 + den 2 * z ^ 3)

/-- Closed-loop, rejection and noise transfer functions, systemDiagnosis.py 107-114. -/
noncomputable def tfClosed (ol : ℂ) : ℂ := ol / (1 + ol)
noncomputable def tfReject (ol : ℂ) : ℂ := 1 - tfClosed ol
noncomputable def tfNoise (servo ol : ℂ) : ℂ := servo / (1 + ol)

/-- The vector of frequencies, systemDiagnosis.py 99: `linspace(fs/n, n/2, n//2)*fs/n`. -/
noncomputable def freqAt (fs : ℝ) (n k : ℕ) : ℝ :=
  (fs / n + k * (((n : ℝ) / 2 - fs / n) / ((n / 2 : ℕ) - 1))) * fs / n

/-- `np.trapz(y, x)` over `n + 1` points. -/
noncomputable def trapz (n : ℕ) (y x : ℕ → ℝ) : ℝ := ∑ k ∈ range n, (x (k + 1) - x k) * (y (k + 1) + y k) / 2

/-! ### Wind speed -/

/-- Student quantiles, systemDiagnosis.py 385-395 (in thousandths). -/
def student : List (List ℕ) :=
  [[1000,1376,1963,3078,6310,12710,31820,63660,106100,159200],
   [816,1061,1386,1886,2920,4303,6965,9925,12850,15760],
   [765,978,1250,1638,2353,3182,4541,5841,6994,8053],
   [741,941,1190,1533,2132,2776,3747,4604,5321,5951],
   [727,920,1156,1476,2015,2571,3365,4032,4570,5030],
   [718,906,1134,1440,1943,2447,3143,3707,4152,4524],
   [727,920,1156,1476,2015,2571,3365,4032,4570,5030],
   [706,889,1108,1397,1860,2306,2896,3355,3705,3991],
   [703,883,1100,1383,1833,2262,2821,3250,3573,3835],
   [700,879,1093,1372,1812,2228,2764,3169,3472,3716]]

/-- Row of the table for a window of `n` samples (at least one), systemDiagnosis.py 398-404. -/
def studentRow (n : ℕ) : List ℕ := student.getD ((if n > 10 then min 7 n else n) - 1) []

/-- Slope and offset of the regression over a window, systemDiagnosis.py 434-441. -/
noncomputable def slope (n : ℕ) (x y : ℕ → ℝ) : ℝ :=
  (n * (∑ k ∈ range n, x k * y k) - (∑ k ∈ range n, x k) * ∑ k ∈ range n, y k) /
    (n * (∑ k ∈ range n, x k ^ 2) - (∑ k ∈ range n, x k) ^ 2)
noncomputable def offset (n : ℕ) (x y : ℕ → ℝ) : ℝ :=
  (∑ k ∈ range n, y k) / n - slope n x y * (∑ k ∈ range n, x k) / n

/-- Time at which the regression line crosses the threshold, systemDiagnosis.py 442. -/
noncomputable def crossing (n : ℕ) (x y : ℕ → ℝ) (thres fs : ℝ) : ℝ := (thres - offset n x y) / slope n x y / fs

/-- Wind speed from the decorrelation times of the radial orders, systemDiagnosis.py 461-463. -/
noncomputable def windSpeed (D coeff : ℝ) (orders : List ℝ) (tau : ℝ → ℝ) : ℝ :=
  D * (orders.map fun n => (n + 1) / tau n).sum / (coeff * Real.pi * 0.3 * (orders.map fun n => (n + 1) ^ 2).sum)

/-! ### Decimated telemetry -/

/-- Frames kept by `[::d]`, telemetryKeck.py 428-434. -/
def decimate (d : ℕ) (u : ℕ → ℕ → ℝ) : ℕ → ℕ → ℝ := fun t j => u (t * d) j

/-- Number of frames kept. -/
def decimatedLen (nF d : ℕ) : ℕ := (nF + d - 1) / d

/-- Covariance of the coefficients, systemDiagnosis.py 310: `n` frames are summed, and the sum is divided by `nExp`. -/
noncomputable def cov (n nExp : ℕ) (c : ℕ → ℕ → ℝ) (i j : ℕ) : ℝ := (∑ t ∈ range n, c t i * c t j) / nExp

/-! ### Header of the images -/

/-- `t0` in microseconds for the camera program, keckUtils.py 23-38. -/
def camTime : ℕ → Option ℕ
  | 0 => some 8000 | 1 => some 2600 | 2 => some 850 | 3 => some 700
  | 4 => some 28000 | 5 => some 9500 | 6 => some 2000 | 7 => some 1350
  | _ => none

/-- `estimateLoopDelay` (microseconds), keckUtils.py 15-52; `none` for an unknown program (unbound variable). -/
def loopDelay (prog : ℕ) (ngs : Bool) : Option (ℕ × ℕ) :=
  (camTime prog).map fun t0 => (t0 + 40, if ngs then t0 + 1 + 2 + 200 else 1000)

/-- Name of the calibration of static aberrations, keckUtils.py 169-199. -/
def ncpaName (year month day : String) : String :=
  let str := if month = "02" then "Feb" else if month = "03" then "March" else if month = "08" then "Aug"
    else if month = "09" then "Sept" else ""
  "NCPA_Keck_" ++ (if month = "03" then day ++ str ++ year ++ "_PD1" else str ++ "_" ++ year) ++ ".fits"

/-- Duplicated wavelengths of a filter, keckUtils.py 156-158: each one that does not exceed its predecessor is moved up by `e`. -/
noncomputable def fixWaves (e : ℝ) (w : ℕ → ℝ) : ℕ → ℝ
  | 0 => w 0
  | k + 1 => open Classical in if w (k + 1) - w k ≤ 0 then w (k + 1) + e else w (k + 1)

/-- Read-out noise of the detector, keckUtils.py 208-211 (`reads` at least one). -/
noncomputable def readNoise (mode reads : ℕ) : ℝ := if mode = 2 then 60 else 15 * (16 / (reads : ℝ)) ^ (1 / 2 : ℝ)

end P3.Telemetry
