import Verif.Model.Pupil
import Mathlib.Analysis.SpecialFunctions.Trigonometric.Arctan

/-! Model of the geometry of the spiders (p3/aoSystem/spiders.py) and of the histories of a segmented pupil
(p3/aoSystem/pupil.py): petal phases, reset, filling of gaps in a segment shared by several pupils.

Arithmetic is exact. Points on the border of a polygon, where the answer of matplotlib depends on rounding, count as
outside. -/

namespace P3.Petals

open P3.Pupil (Arr gapMatrix fillGapSeg)

/-! ### Spiders -/

/-- Metres per pixel, spiders.py 66-69. -/
noncomputable def pixelRatio (D : ℝ) (n : ℕ) : ℝ := D / n

/-- Half angle under which the bar is seen from its centre, spiders.py 117. -/
noncomputable def phi (w D : ℝ) (n : ℕ) : ℝ := Real.arctan ((w / pixelRatio D n) / (2 * n))

/-- Starting point in units of half the map, spiders.py 116. -/
noncomputable def start (D : ℝ) (n : ℕ) (coor : ℝ × ℝ) : ℝ × ℝ :=
  (coor.1 * 2 / n / pixelRatio D n, coor.2 * 2 / n / pixelRatio D n)

/-- The four angles of the corners, spiders.py 118. -/
noncomputable def theta (φ : ℝ) : Fin 4 → ℝ := ![-φ, φ, -φ + Real.pi, φ + Real.pi]

/-- A corner of the bar of a spider at angle `a`, spiders.py 124-130. -/
noncomputable def corner (symmetric : Bool) (c : ℝ × ℝ) (a φ : ℝ) (i : Fin 4) : ℝ × ℝ :=
  if symmetric then (c.1 + 2 * Real.cos (theta φ i + a), c.2 + 2 * Real.sin (theta φ i + a))
  else (c.1 + 2 * (Real.cos (theta φ i + a) - Real.cos a), c.2 + 2 * (Real.sin (theta φ i + a) - Real.sin a))

/-- Cross product of the edge from `p` to `q` with the vector from `p` to `r`. -/
def cross (p q r : ℝ × ℝ) : ℝ := (q.1 - p.1) * (r.2 - p.2) - (q.2 - p.2) * (r.1 - p.1)

/-- `FourierUtils.inpolygon` for a convex quadrilateral whose corners are counterclockwise: the point is to the left
of every edge. -/
def inPolygon (v : Fin 4 → ℝ × ℝ) (r : ℝ × ℝ) : Prop := ∀ i : Fin 4, 0 < cross (v i) (v (i + 1)) r

/-- Coordinate of a pixel, `np.linspace(-1,1,n)`, spiders.py 112. -/
noncomputable def lin (n i : ℕ) : ℝ := -1 + i * (2 / ((n : ℝ) - 1))

open Classical in
/-- The mask of the spiders, spiders.py 101-131, without the pupil mask: all ones when the width is less than a pixel,
else zero inside each bar. Angles in radians. -/
noncomputable def spiderMask (symmetric : Bool) (w D : ℝ) (n : ℕ) (sp : List (ℝ × (ℝ × ℝ))) (i j : ℕ) : ℝ :=
  if w / pixelRatio D n < 1 then 1
  else sp.foldl (fun m s => m * if inPolygon (corner symmetric (start D n s.2) s.1 (phi w D n)) (lin n j, lin n i) then 0 else 1) 1

/-- The petals found by `makeSpiders`, spiders.py 101-110 and 139-143: nothing is set when the width is less than a
pixel, so that reading `nPetal` is an `AttributeError` (`none`); else the number of labelled areas. -/
noncomputable def nPetal (w D : ℝ) (n : ℕ) (getPetal : Bool) (labelled : ℕ) : Option ℕ :=
  if w / pixelRatio D n < 1 then none else if getPetal then some labelled else none

/-! ### Petal phases -/

/-- The map, the phase and the reflexivity stored beside it, and the pupil recorded by the constructor
(pupil.py 107-111). -/
structure State where
  mat : Arr
  phase : ℕ → ℕ → ℝ
  refl : ℕ → ℕ → ℝ
  pupil : ℕ → ℕ → ℝ

/-- The phase added by a list of petals with their coefficients, pupil.py 437-444; `modes k j` is mode `j` of petal
`k`. -/
noncomputable def petalPhase (modes : ℕ → ℕ → ℕ → ℕ → ℝ) (cmd : List (ℕ × List ℝ)) (i j : ℕ) : ℝ :=
  (cmd.map fun c => (c.2.mapIdx fun q a => a * modes c.1 q i j).sum).sum

/-- `indPetal < nPetal`, pupil.py 424-428: petals that do not exist are dropped with their coefficients. -/
def existing (nPetal : ℕ) (cmd : List (ℕ × List ℝ)) : List (ℕ × List ℝ) := cmd.filter fun c => decide (c.1 < nPetal)

/-- `applyPhasePetal`, pupil.py 394-447, for petal numbers that are not negative: with the wrong number of coefficients
the pupil is left alone, else the map becomes its modulus times `exp(i (phase + petalPhase))`. The stored phase is
not updated. -/
noncomputable def applyPetal (modes : ℕ → ℕ → ℕ → ℕ → ℝ) (nPetal nModes : ℕ) (cmd : List (ℕ × List ℝ)) (s : State) : State :=
  let good := existing nPetal cmd
  if cmd = [] ∨ nModes = 0 then s
  else if ∀ c ∈ cmd, c.2.length = nModes then
    { s with mat := fun i j => (‖s.mat i j‖ : ℂ) * Complex.exp (Complex.I * ((s.phase i j + petalPhase modes good i j : ℝ) : ℂ)) }
  else s

/-- `reset`, pupil.py 138-144: the recorded pupil with the masks; phase zero. `mask` is the product of the central
obstruction and the spiders. -/
noncomputable def reset (mask : ℕ → ℕ → ℝ) (s : State) : State :=
  { s with mat := fun i j => (s.pupil i j : ℂ) * (mask i j : ℂ), phase := fun _ _ => 0,
           refl := fun i j => ‖(s.pupil i j : ℂ) * (mask i j : ℂ)‖ }

open Classical in
/-- What the constructor records, pupil.py 102-111, for an assembled map: masks, support, phase, reflexivity (equal to
the support). -/
noncomputable def record (mask : ℕ → ℕ → ℝ) (assembled : Arr) : State :=
  let m : Arr := fun i j => assembled i j * (mask i j : ℂ)
  let p : ℕ → ℕ → ℝ := fun i j => if m i j = 0 then 0 else 1
  { mat := m, phase := fun i j => (m i j).arg, refl := p, pupil := p }

/-! ### One segment shared by several pupils -/

/-- A zero-one map of `n` by `n` pixels as the segment of a pupil made of it alone: the constructor without errors of
position (pupil.py 72-100) assembles the segment itself. -/
abbrev Map := ℕ → ℕ → ℕ

/-- First row with a lit pixel, `np.argwhere(self.segRef.matrix)[:,0].min()`, pupil.py 198, 207. -/
def firstRow (n : ℕ) (m : Map) : ℕ :=
  ((List.range n).find? fun i => (List.range n).any fun j => m i j != 0).getD 0

/-- First and last lit column of a row, pupil.py 214-215. -/
def firstCol (n : ℕ) (m : Map) (i : ℕ) : ℕ := ((List.range n).find? fun j => m i j != 0).getD 0
def lastCol (n : ℕ) (m : Map) (i : ℕ) : ℕ := ((List.range n).reverse.find? fun j => m i j != 0).getD 0

/-- `fillGap` on the reference segment, pupil.py 190-215, `tmp` being the part of the assembled map in the window of the
chosen segment and `mid` the rounded half of the size. The second step looks at the row after the first step. -/
def fillRef (n mid : ℕ) (tmp seg : Map) : Map :=
  let inf := firstRow n seg
  let s1 : Map := fun i j => if inf ≤ i ∧ i < mid then seg i j + (if tmp i j = 0 then 1 else 0) else seg i j
  fun i j => if i < inf ∧ firstCol n s1 inf ≤ j ∧ j < lastCol n s1 inf then s1 i j + (if tmp i j = 0 then 1 else 0) else s1 i j

/-- Building a pupil of one segment (position zero) from a segment object: the map assembled and the segment as left to
the caller, pupil.py 72-100, 211, 215: `self.segRef` is the caller's object and its matrix is altered in place. -/
def build (n mid : ℕ) (fillGap : Bool) (seg : Map) : Map × Map :=
  if fillGap then (fillRef n mid seg seg, fillRef n mid seg seg) else (seg, seg)

end P3.Petals
