import Verif.Model.Py
import Mathlib.Analysis.SpecialFunctions.Pow.Real
import Mathlib.Analysis.SpecialFunctions.Log.Basic
import Mathlib.Analysis.Real.Pi.Bounds
/-
Wavefront-sensor noise.  Source: /repo/p3/aoSystem/sensor.py lines 74-209.  Numbers are reals; the photon
flux may be infinite (the default, sensor.py:22).
-/
namespace P3.Noise
open Real

/-- Photon flux `detector[k].nph`. -/
inductive Flux | fin (x : ℝ) | inf

/-- What `NoiseVariance` uses of one WFS: pixel scale in mas, readout noise, flux, pixels per
sub-aperture, sub-aperture size, `spotFWHM[0][0:2]` in mas, excess noise factor. -/
structure Wfs where
  pixMas : ℝ
  ron : ℝ
  nph : Flux
  nPix : ℝ
  dsub : ℝ
  spotA : ℝ
  spotB : ℝ
  excess : ℝ

/-- What `NoiseVariance` uses of the sensor object; `nW` is `processing.settings[0]`. -/
structure Sensor where
  wfstype : String
  algorithm : String
  nW : ℝ
  wfs : List Wfs

/-- Errors: the `ValueError`s of sensor.py:79-82, 96-102, 160, 167; `zero` is the division by a zero
pixel scale. -/
inductive Err | r0 | wvl | ron | flux | dsub | algorithm | wfstype | zero
  deriving DecidableEq

/-- `rad2arcsec`, sensor.py:76. -/
noncomputable def rad2arcsec : ℝ := 3600 * 180 / π

/-- `nD`, sensor.py:112. -/
noncomputable def nD (w : Wfs) (wvl : ℝ) : ℝ := max 1 (rad2arcsec * wvl / w.dsub / (w.pixMas / 1000))

/-- `nT`, sensor.py:119-128. -/
noncomputable def nT (w : Wfs) (r0 wvl : ℝ) : ℝ :=
  let seeing := 0.98 * rad2arcsec * wvl / r0
  let spot := seeing / sqrt 2
  max 1 (sqrt ((max w.spotA w.spotB / 1000) ^ 2 + spot ^ 2) / (w.pixMas / 1000))

/-- `nW`, sensor.py:131-135. -/
noncomputable def nWeff (s : Sensor) (t : ℝ) : ℝ := if s.nW < t then t else s.nW

/-- Readout and photon variances of a Shack-Hartmann, sensor.py:139-160, for a finite flux `n`;
`none` for an unknown algorithm. -/
noncomputable def shTerms (alg : String) (ron n nPix nD nT nW : ℝ) : Option (ℝ × ℝ) :=
  if alg = "cog" then
    some (π ^ 2 / 3 * (ron ^ 2 / n ^ 2) * (nPix ^ 2 / nD) ^ 2,
          π ^ 2 / (2 * log 2 * n) * (nT / nD) ^ 2)
  else if alg = "tcog" then
    some (π ^ 2 / 3 * (ron ^ 2 / n ^ 2) * ((⌈nT ^ 2 * π / 4⌉ : ℝ) / nD) ^ 2,
          π ^ 2 / (2 * log 2 * n) * (nT / nD) ^ 2)
  else if alg = "wcog" then
    some (π ^ 3 / (32 * log 2 ^ 2) * (ron ^ 2 / n ^ 2) * (nT ^ 2 + nW ^ 2) ^ 4 / (nD ^ 2 * nW ^ 4),
          π ^ 2 / (2 * log 2 * n) * (nT / nD) ^ 2 * (nT ^ 2 + nW ^ 2) ^ 4 /
            ((2 * nT ^ 2 + nW ^ 2) ^ 2 * nW ^ 4))
  else if alg = "qc" then
    let k := if nT > nD then sqrt (2 * π) * (nT / (2 * sqrt (2 * log 2)) / nD) else 1
    some (k * 4 * π ^ 2 * (ron / n) ^ 2, k * π ^ 2 / n)
  else none

/-- `nph < 0`, sensor.py:98. -/
def Flux.Neg : Flux → Prop
  | .fin n => n < 0
  | .inf => False

noncomputable instance (f : Flux) : Decidable f.Neg := Classical.dec _

/-- One iteration of the loop, sensor.py:89-171. The value is `none` when numpy produces `nan` or `inf`:
a zero flux, or an infinite flux on a pyramid (`inf/inf`). With an infinite flux a Shack-Hartmann has
variance 0. -/
noncomputable def one (s : Sensor) (r0 wvl : ℝ) (w : Wfs) : Except Err (Option ℝ) :=
  if w.ron < 0 then .error .ron
  else if w.nph.Neg then .error .flux
  else if w.dsub ≤ 0 then .error .dsub
  else if s.wfstype.toUpper = "SHACK-HARTMANN" then
    if w.pixMas = 0 then .error .zero
    else
      let d := nD w wvl
      let t := nT w r0 wvl
      match w.nph with
      | .fin n =>
        match shTerms s.algorithm w.ron n w.nPix d t (nWeff s t) with
        | none => .error .algorithm
        | some (a, b) => if n = 0 then .ok none else .ok (some (a + w.excess * b))
      | .inf =>
        match shTerms s.algorithm w.ron 1 w.nPix d t (nWeff s t) with
        | none => .error .algorithm
        | some _ => .ok (some 0)
  else if s.wfstype.toUpper = "PYRAMID" then
    match w.nph with
    | .fin n => if n = 0 then .ok none else .ok (some (4 * w.ron ^ 2 / n ^ 2 + w.excess * (n / n ^ 2)))
    | .inf => .ok none
  else .error .wfstype

/-- `NoiseVariance`, sensor.py:74-177. -/
noncomputable def noiseVariance (s : Sensor) (r0 wvl : ℝ) : Except Err (List (Option ℝ)) :=
  if r0 ≤ 0 then .error .r0
  else if wvl ≤ 0 then .error .wvl
  else s.wfs.mapM (one s r0 wvl)

/-- `computeNoiseVarianceAtWavelength`, sensor.py:179-209. -/
noncomputable def noiseAt (s : Sensor) (wvlSci wvlWfs r0At500 : ℝ) : Except Err (List (Option ℝ)) :=
  match noiseVariance s (r0At500 * (wvlWfs / (500 / 10 ^ 9)) ^ ((6:ℝ)/5)) wvlWfs with
  | .error e => .error e
  | .ok l => .ok (l.map (Option.map (fun v => v * (wvlWfs / wvlSci) ^ 2)))

end P3.Noise
