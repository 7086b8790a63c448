import Mathlib.Data.Real.Basic
import Mathlib.Algebra.BigOperators.Group.List.Basic

/-! Model of the memory estimate, p3/aoSystem/fourierModel.py lines 1815-2024. -/

namespace P3.Memory

/-- The dimensions and flags read by `estimate_memory_usage` (fourierModel.py 1844-1867). `hasattr` defaults
are not modelled: the dimensions are given. `gainPos` is the test `self.ao.rtc.holoop['gain'] > 0`. -/
structure Dims where
  float32 : Bool
  nOtf : ℕ
  res : ℕ
  nTimes : ℕ
  nGs : ℕ
  nSrc : ℕ
  nAtm : ℕ
  nDm : ℕ
  gainPos : Bool
  reduce : Bool
  breakdown : Bool

/-- `dtype_size`, fourierModel.py 1844-1847. -/
def Dims.size (d : Dims) : ℕ := if d.float32 then 4 else 8

/-- `memory_breakdown` (persistent arrays, in bytes), fourierModel.py 1874-1910, in insertion order. -/
def finalItems (d : Dims) : List (String × ℕ) :=
  [("PSD", d.nOtf * d.nOtf * d.nSrc * d.size), ("SF", d.nOtf * d.nOtf * d.nSrc * d.size)] ++
  (if d.gainPos then
    [("Rx_Ry", 2 * d.res * d.res * d.size * 2), ("SxAv_SyAv", 2 * d.res * d.res * d.size * 2),
     ("Wphi", d.res * d.res * d.size), ("h1_h2_hn", 3 * d.res * d.res * d.size)] ++
    (if 1 < d.nGs ∧ d.reduce = false then
      [("Walpha", d.res * d.res * d.nGs * d.nAtm * d.size * 2), ("PbetaDM", d.res * d.res * d.nSrc * d.nDm * d.size * 2),
       ("Cb", d.res * d.res * d.nGs * d.nGs * d.size * 2), ("Cphi", d.res * d.res * d.nAtm * d.nAtm * d.size * 2)]
    else [])
  else []) ++
  (if d.breakdown = true ∨ d.reduce = false then
    [("psdFit", d.nOtf * d.nOtf * d.size), ("psdAlias", d.res * d.res * d.size),
     ("psdNoise", d.res * d.res * (if 1 < d.nGs then d.nSrc else 1) * d.size),
     ("psdSpatioTemporal", d.res * d.res * d.nSrc * d.size), ("psdDiffRef", d.res * d.res * d.nSrc * d.size),
     ("psdChromatism", d.res * d.res * d.nSrc * d.size)]
  else []) ++
  [("freq_arrays", 5 * d.nOtf * d.nOtf * d.size), ("freq_arrays_AO", 5 * d.res * d.res * d.size),
   ("otfDL_otfNCPA", 2 * d.nOtf * d.nOtf * d.size * 2)]

/-- `peak_breakdown` (temporary arrays, in bytes), fourierModel.py 1912-1947, in insertion order. -/
def peakItems (d : Dims) (includePeak : Bool) : List (String × ℕ) :=
  if includePeak = true ∧ d.gainPos = true then
    (if 1 < d.nGs then
      [("tomo_Cphi", d.res * d.res * d.nAtm * d.nAtm * d.size * 2), ("tomo_to_inv", d.res * d.res * d.nGs * d.nGs * d.size * 2),
       ("tomo_Wtomo", d.res * d.res * d.nAtm * d.nGs * d.size * 2), ("opt_mat1", d.res * d.res * d.nDm * d.nAtm * d.size * 2),
       ("opt_A", d.res * d.res * d.nDm * d.nDm * d.size * 2)]
    else []) ++
    [("alias_avr_chunk", min 5 d.nAtm * (2 * d.nTimes) ^ 2 * d.res * d.res * d.size * 2),
     ("alias_avr_sum", (2 * d.nTimes) ^ 2 * d.res * d.res * d.size * 2),
     ("alias_intermediates", 5 * (2 * d.nTimes) ^ 2 * d.res * d.res * d.size * 2)] ++
    (if 1 < d.nGs then [("ST_proj", d.res * d.res * d.nAtm * d.size * 2)] else []) ++
    [("fft_buffer", d.nOtf * d.nOtf * d.size * 2)]
  else []

/-- `sum(....values())`, fourierModel.py 1950-1951. -/
def total (l : List (String × ℕ)) : ℕ := (l.map Prod.snd).sum

/-- The dictionary returned, fourierModel.py 1949-2022; the gigabyte fields (the megabyte ones over 1024) and
the labels are left out. The sorting of the breakdowns by size does not change the dictionary as a mapping and
is not modelled. -/
structure Estimate where
  finalMB : ℝ
  peakMB : ℝ
  breakdownFinal : List (String × ℝ)
  breakdownPeak : List (String × ℝ)
  modelFinalMB : ℝ
  modelPeakMB : ℝ
  nChunks : ℕ

/-- Bytes to megabytes, fourierModel.py 1954-1966. -/
noncomputable def toMB (l : List (String × ℕ)) : List (String × ℝ) := l.map fun p => (p.1, (p.2 : ℝ) / 1024 ^ 2)

/-- `observable_peak_full_mb`, fourierModel.py 1975-1982. -/
noncomputable def hostPeak (d : Dims) : ℝ :=
  0.028 + 0.0045 * ((d.nGs - 1 : ℕ) : ℝ) + 0.0007 * ((d.nAtm - 1 : ℕ) : ℝ)

/-- `estimate_memory_usage`, fourierModel.py 1815-2024. -/
noncomputable def estimate (gpu includePeak : Bool) (d : Dims) : Estimate :=
  let f : ℝ := (total (finalItems d) : ℝ) / 1024 ^ 2
  let p : ℝ := ((total (finalItems d) + total (peakItems d includePeak) : ℕ) : ℝ) / 1024 ^ 2
  let mp := if includePeak then p else f
  if gpu then
    let hf := max 0.015 (0.55 * hostPeak d)
    { finalMB := hf, peakMB := if includePeak then hostPeak d else hf,
      breakdownFinal := [("python_bookkeeping", hf)],
      breakdownPeak := if includePeak then [("python_temp_buffers", max (hostPeak d - hf) 0)] else [],
      modelFinalMB := f, modelPeakMB := mp, nChunks := (d.nAtm + 4) / 5 }
  else
    { finalMB := f, peakMB := mp, breakdownFinal := toMB (finalItems d),
      breakdownPeak := if includePeak then toMB (peakItems d includePeak) else [],
      modelFinalMB := f, modelPeakMB := mp, nChunks := (d.nAtm + 4) / 5 }

end P3.Memory
