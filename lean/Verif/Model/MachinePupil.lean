import Verif.Model.Machine
import Mathlib.Analysis.Complex.Trigonometric

/-! Floating-point version of one lit pixel of a segment, p3/aoSystem/segment.py and pupil.py (the exact version is
`Verif.Model.Pupil`). Cosine, sine and square root are rounded to nearest like the other operations; reflectivity
and masks are one. -/

namespace P3.MachinePupil

open P3.Machine

variable {p : ℕ} (R : Rounding p)

/-- A lit pixel after `applyPhase` with phase `φ`: `segShape * reflexivity * np.exp(1j*phase)`, segment.py 117. -/
noncomputable def phased (φ : ℝ) : ℝ × ℝ := (R.fl (Real.cos φ), R.fl (Real.sin φ))

/-- `np.abs` of a complex number, as in pupil.py 247. -/
noncomputable def modulus (v : ℝ × ℝ) : ℝ := R.fl (√(v.1 ^ 2 + v.2 ^ 2))

open Classical in
/-- `removeSegment`, pupil.py 244-250, on a pixel of value `v` that only this segment lights. -/
noncomputable def removed (v : ℝ × ℝ) : ℝ × ℝ := if modulus R v = 1 then (0, 0) else v

/-- `shiftSegment` by zero, pupil.py 252-285: the segment is removed and its map added at the same place. -/
noncomputable def moved (v : ℝ × ℝ) : ℝ × ℝ := (R.fl ((removed R v).1 + v.1), R.fl ((removed R v).2 + v.2))

end P3.MachinePupil
