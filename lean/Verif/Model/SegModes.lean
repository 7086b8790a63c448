import Mathlib.Analysis.SpecialFunctions.Complex.Arg

/-! Model of the making of segmented Zernike modes: p3/aoSystem/createSegmentedModes.py 36-49, for segments that are entirely
transmitting or not at each pixel. Arithmetic is exact; the images at low resolution are in Model/Resize. -/

namespace P3.SegModes

/-- `pupSeg.matrix` after a reset and a piston of `v` on the segment `S`, createSegmentedModes.py 38-39 and 44 (pupil.py 139-144 and
345-392): the segment is removed and put back with its phase, so that a phase applied before is forgotten. -/
noncomputable def piston {P : Type} (lit S : P → Bool) (v : ℝ) (p : P) : ℂ :=
  if lit p then (if S p then Complex.exp (v * Complex.I) else 1) else 0

/-- `segShape`, createSegmentedModes.py 39-41: one where the angle for a piston of one is positive. -/
noncomputable def shape {P : Type} (lit S : P → Bool) (p : P) : ℝ := if 0 < (piston lit S 1 p).arg then 1 else (piston lit S 1 p).arg

open Classical in
/-- `val`, createSegmentedModes.py 42-44: the mean of `segShape * mode` over the pixels where the shape is positive. -/
noncomputable def value {P : Type} [Fintype P] (lit S : P → Bool) (z : P → ℝ) : ℝ :=
  let on := (Finset.univ : Finset P).filter fun p => 0 < shape lit S p
  (∑ p ∈ on, shape lit S p * z p) / on.card

/-- `mode_hr[i]`, createSegmentedModes.py 37-46: the sum over the segments of the angles of the pupil. -/
noncomputable def mode {P : Type} [Fintype P] {n : ℕ} (lit : P → Bool) (seg : Fin n → P → Bool) (z : P → ℝ) (p : P) : ℝ :=
  ∑ j, (piston lit (seg j) (value lit (seg j) z) p).arg

end P3.SegModes
