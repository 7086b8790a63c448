import Verif.Model.Config
import Mathlib.Analysis.SpecialFunctions.Trigonometric.Arctan
import Mathlib.Analysis.SpecialFunctions.Complex.Arg
/-
Source objects.  Source: /repo/p3/aoSystem/source.py lines 18-89 (the constructor is
`P3.Config.mkSource`), and the `coo_stars` conversion of aoSystem.py:460-462.  Numbers are reals.
-/
namespace P3.Source
open Real P3.Config

/-- `np.tan(self.zenith*arcsec2rad)`, source.py:21-24. -/
noncomputable def tanZen (z : ℝ) : ℝ := tan (z * (π / 180 / 3600))
/-- `np.cos(self.azimuth*deg2rad)`, source.py:23. -/
noncomputable def cosAz (a : ℝ) : ℝ := cos (a * (π / 180))
/-- `np.sin(self.azimuth*deg2rad)`, source.py:24. -/
noncomputable def sinAz (a : ℝ) : ℝ := sin (a * (π / 180))

/-- The `direction` property, source.py:19-28: rows x and y of a 2 x nSrc array; numpy broadcasting of the
products and of the assignments `direction[0,:] = x`. -/
noncomputable def direction (s : Src ℝ) : Except PyErr (List ℝ × List ℝ) := do
  let x ← bcast (fun z a => tanZen z * cosAz a) s.zenith s.azimuth
  let y ← bcast (fun z a => tanZen z * sinAz a) s.zenith s.azimuth
  let x' ← assignRow s.nSrc x
  let y' ← assignRow s.nSrc y
  pure (x', y')

/-- Zenith distance and azimuth deduced from Cartesian star coordinates, aoSystem.py:460-462:
`np.hypot(c0, c1)` and `np.arctan2(c0, c1)` — `arctan2(y, x)` with y = c0, x = c1, in radians. -/
noncomputable def cooStar (c0 c1 : ℝ) : ℝ × ℝ :=
  (sqrt (c0 ^ 2 + c1 ^ 2), Complex.arg ⟨c1, c0⟩)

/-- The positions of the science sources, aoSystem.py:450-462: those of the stars if `np.any(coo_stars)`, those of the file otherwise. -/
noncomputable def positions (c0 c1 zenith azimuth : List ℝ) : List ℝ × List ℝ :=
  open Classical in
  if (∃ c ∈ c0, c ≠ 0) ∨ (∃ c ∈ c1, c ≠ 0) then
    (List.zipWith (fun a b => (cooStar a b).1) c0 c1, List.zipWith (fun a b => (cooStar a b).2) c0 c1)
  else (zenith, azimuth)

end P3.Source
