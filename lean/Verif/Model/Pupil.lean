import Mathlib.Analysis.SpecialFunctions.Complex.Circle
import Mathlib.Data.Complex.Basic
import Mathlib.Algebra.Order.Floor.Ring

/-! Model of the segmented pupil: p3/aoSystem/segment.py, pupil.py and spiders.py.

Arrays are functions of the row and the column, meaningful below the size. Arithmetic is exact. Segments have at
least two pixels across (numpy would broadcast a segment of one pixel). The polygon test of matplotlib
(`inpolygon`) is not modelled: the shape of a segment is given. -/

namespace P3.Pupil

/-- A two-dimensional array. -/
abbrev Arr := ℕ → ℕ → ℂ

/-- Python exceptions raised by the modelled functions. -/
inductive Err | valueError | indexError | attributeError
  deriving DecidableEq, Repr

/-- One segment (segment.py 40-64): size in pixels, complex map, its zero-one shape, reflexivity and phase error,
position and position error in metres. -/
structure Seg where
  n : ℕ
  mat : Arr
  shape : Arr
  refl : ℝ
  phaseError : ℝ
  posX : ℝ
  posY : ℝ
  posXError : ℝ
  posYError : ℝ

/-- `segment.makeSegment`, segment.py 74-96, given the zero-one shape of the polygon. `nSides = 0` becomes
infinity (line 60) and takes the branch that reads `self.sizeError`, which no constructor sets. -/
noncomputable def makeSegment (nSides : ℕ) (shape : Arr) (refl phaseError : ℝ) : Except Err (Arr × Arr) :=
  if nSides = 0 then .error .attributeError
  else .ok (fun i j => shape i j * refl * Complex.exp (Complex.I * phaseError), shape)

/-- The pupil: size, pixels per metre, centre in pixels, segments, map, and the two masks applied after each
operation (central obstruction and spiders). -/
structure Pup where
  N : ℕ
  ratio : ℝ
  cX : ℝ
  cY : ℝ
  segs : List Seg
  mat : Arr
  mask : ℕ → ℕ → ℝ

/-- First row and first column of the window of a segment, `getPosSeg`, pupil.py 174-187. Rows follow the second
coordinate, columns the first. -/
noncomputable def rowStart (p : Pup) (s : Seg) : ℤ := ⌈p.cY + (-(s.n : ℝ) / 2) + p.ratio * (s.posY + s.posYError)⌉

/-- First column, pupil.py 183-185. -/
noncomputable def colStart (p : Pup) (s : Seg) : ℤ := ⌈p.cX + (-(s.n : ℝ) / 2) + p.ratio * (s.posX + s.posXError)⌉

/-- End of the window (exclusive), pupil.py 182-185. -/
noncomputable def rowEnd (p : Pup) (s : Seg) : ℤ := ⌈p.cY + (s.n : ℝ) / 2 + p.ratio * (s.posY + s.posYError)⌉

/-- End of the columns (exclusive), pupil.py 182-185. -/
noncomputable def colEnd (p : Pup) (s : Seg) : ℤ := ⌈p.cX + (s.n : ℝ) / 2 + p.ratio * (s.posX + s.posXError)⌉

/-- Where numpy puts a slice `a:a+n` of an axis of length `N` when it has exactly `n` elements: at `a` when it
lies inside; at `N + a` when both ends are negative (Python counts from the end); otherwise the slice is shorter
than `n` and the assignment of an array of `n` rows is a `ValueError`. -/
def sliceOffset (N : ℕ) (a : ℤ) (n : ℕ) : Option ℕ :=
  if 0 ≤ a ∧ a + n ≤ N then some a.toNat
  else if a + n < 0 ∧ 0 ≤ N + a then some (N + a).toNat
  else none

/-- Both offsets of the window of a segment. -/
noncomputable def window (p : Pup) (s : Seg) : Option (ℕ × ℕ) :=
  match sliceOffset p.N (rowStart p s) s.n, sliceOffset p.N (colStart p s) s.n with
  | some r, some c => some (r, c)
  | _, _ => none

/-- The value at a pixel of the pupil of an array placed at a window, zero outside it. -/
def placed (n : ℕ) (w : ℕ × ℕ) (a : Arr) (i j : ℕ) : ℂ :=
  if w.1 ≤ i ∧ i < w.1 + n ∧ w.2 ≤ j ∧ j < w.2 + n then a (i - w.1) (j - w.2) else 0

/-- `self.matrix[posX[0]:posX[1], posY[0]:posY[1]] += a`. -/
noncomputable def addAt (p : Pup) (s : Seg) (a : Arr) : Except Err Pup :=
  match window p s with
  | some w => .ok { p with mat := fun i j => p.mat i j + placed s.n w a i j }
  | none => .error .valueError

open Classical in
/-- `removeSegment` for one segment, pupil.py 244-250: the pixels of the window where the modulus of the segment
is exactly one are set to zero; nothing is done when there is none. A mask that does not fit is an
`IndexError`. -/
noncomputable def remove1 (p : Pup) (s : Seg) : Except Err Pup :=
  if ∃ a < s.n, ∃ b < s.n, ‖s.mat a b‖ = 1 then
    match window p s with
    | some w => .ok { p with mat := fun i j =>
        if w.1 ≤ i ∧ i < w.1 + s.n ∧ w.2 ≤ j ∧ j < w.2 + s.n ∧ ‖s.mat (i - w.1) (j - w.2)‖ = 1 then 0 else p.mat i j }
    | none => .error .indexError
  else .ok p

/-- The masks applied after each operation, pupil.py 122-136: central obstruction and spiders multiply the real
and imaginary parts. -/
noncomputable def applyMasks (p : Pup) : Pup := { p with mat := fun i j => p.mat i j * (p.mask i j : ℂ) }

/-- `makePupil`, pupil.py 116-120: the sum of the segments on an empty map. -/
noncomputable def makePupil (p : Pup) : Except Err Pup :=
  p.segs.foldlM (fun q s => addAt q s s.mat) { p with mat := fun _ _ => 0 }

/-- The size of the pupil computed by the constructor, pupil.py 82-88, with no position error: `lo` and `hi` are
the extreme values among all coordinates. -/
noncomputable def pupilSize (ratio lo hi : ℝ) (n : ℕ) : ℕ := (⌈(hi - lo) * ratio⌉ + n).toNat

/-- Outcome of an operation that may stop half way: the state it leaves and the exception, if any. -/
abbrev Outcome := Pup × Option Err

/-- `shiftSegment` for one segment number `k` with displacement `dx, dy` in metres, pupil.py 252-285. The limits
compare `dx` with the rows of the window and `dy` with its columns, and the lower limits are counted from the
far edge. -/
noncomputable def shift1 (p : Pup) (k : ℕ) (dx dy : ℝ) : Outcome :=
  match p.segs[k]? with
  | none => (p, some .indexError)
  | some s =>
    match remove1 p s with
    | .error e => (p, some e)
    | .ok q =>
      if ((q.N : ℝ) - rowEnd q s) / q.ratio < dx ∨ dx < (-(q.N : ℝ) + rowStart q s) / q.ratio ∨
         ((q.N : ℝ) - colEnd q s) / q.ratio < dy ∨ dy < (-(q.N : ℝ) + colStart q s) / q.ratio then
        match remove1 q s with
        | .ok q' => (applyMasks q', none)
        | .error e => (q, some e)
      else
        let s' := { s with posXError := s.posXError + dx, posYError := s.posYError + dy }
        let q' := { q with segs := q.segs.set k s' }
        match addAt q' s' s'.mat with
        | .ok r => (applyMasks r, none)
        | .error e => (q', some e)

/-- `rotateSegment` and `shrinkSegment` for one segment, pupil.py 288-316: the segment is removed, then
`tmp,_,_ = makeSegment()` unpacks a list of two elements into three names. -/
noncomputable def rotate1 (p : Pup) (k : ℕ) : Outcome :=
  match p.segs[k]? with
  | none => (p, some .indexError)
  | some s =>
    match remove1 p s with
    | .error e => (p, some e)
    | .ok q => (q, some .valueError)

/-- `applyReflexivitySegment` for one segment, pupil.py 449-486 with segment.py 120-125: the segment is removed
and `segShape * R * exp(i phaseError)` added; the segment itself is not updated. -/
noncomputable def reflect1 (p : Pup) (k : ℕ) (R : ℝ) : Outcome :=
  match p.segs[k]? with
  | none => (p, some .indexError)
  | some s =>
    match remove1 p s with
    | .error e => (p, some e)
    | .ok q =>
      match addAt q s (fun i j => s.shape i j * R * Complex.exp (Complex.I * s.phaseError)) with
      | .ok r => (applyMasks r, none)
      | .error e => (q, some e)

/-- `applyPhaseErrorSegment` for one segment and a phase map, pupil.py 345-392 with segment.py 98-118: the segment
is removed, its map becomes `segShape * reflexivity * exp(i phase)` and is added. -/
noncomputable def phase1 (p : Pup) (k : ℕ) (phase : ℕ → ℕ → ℝ) : Outcome :=
  match p.segs[k]? with
  | none => (p, some .indexError)
  | some s =>
    match remove1 p s with
    | .error e => (p, some e)
    | .ok q =>
      let s' := { s with mat := fun i j => s.shape i j * s.refl * Complex.exp (Complex.I * phase i j) }
      let q' := { q with segs := q.segs.set k s' }
      match addAt q' s' s'.mat with
      | .ok r => (applyMasks r, none)
      | .error e => (q', some e)

/-- `zeroPad` with replacement, pupil.py 509-526, `pad` pixels on each side. -/
noncomputable def zeroPad (p : Pup) (pad : ℕ) : Pup :=
  let N' := p.N + 2 * pad
  let c : ℝ := (N' : ℝ) / 2
  { p with N := N', cX := c, cY := c,
           mat := fun i j => if pad ≤ i ∧ i < pad + p.N ∧ pad ≤ j ∧ j < pad + p.N then p.mat (i - pad) (j - pad) else 0,
           segs := p.segs.map fun s => { s with posX := s.posX - (p.cX - c) / p.ratio, posY := s.posY - (p.cY - c) / p.ratio } }

/-- `removeZeroBorder` with replacement, pupil.py 488-507, where `z1` and `z2` are the least and the greatest index
(over rows and columns together) of a non-zero pixel: the slice `z1:z2` excludes `z2`. -/
noncomputable def removeZeroBorder (p : Pup) (z1 z2 : ℕ) : Pup :=
  let N' := z2 - z1
  let c : ℝ := (N' : ℝ) / 2
  { p with N := N', cX := c, cY := c,
           mat := fun i j => if i < N' ∧ j < N' then p.mat (i + z1) (j + z1) else 0,
           segs := p.segs.map fun s => { s with posX := s.posX - (p.cX - c) / p.ratio, posY := s.posY - (p.cY - c) / p.ratio } }

open Classical in
/-- `gapMatrix` of `fillGap`, pupil.py 197-203: one where the assembled pupil is empty. (For values that are neither
zero nor positive the array keeps its value; assembled pupils of unit segments are non-negative.) -/
noncomputable def gapMatrix (tmp : Arr) : Arr := fun i j => if tmp i j = 0 then 1 else 0

/-- The reference segment after `fillGap`, pupil.py 206-215: the gaps are added to the rows from `infX`, the first
lit row, to the middle `mid`, over all columns; then above, between the first and the last lit column of that row. -/
noncomputable def fillGapSeg (mid infX minY maxY : ℕ) (seg gap : Arr) : Arr := fun i j =>
  if infX ≤ i ∧ i < mid then seg i j + gap i j
  else if i < infX ∧ minY ≤ j ∧ j < maxY then seg i j + gap i j
  else seg i j

/-- Number of spiders set by the constructor, spiders.py 80-94: with given coordinates it is set only when the
resolution is given too. `coords` is the number of coordinates given (zero for none). -/
def nSpiders (angles coords nPixels : ℕ) : ℕ :=
  if coords = 0 then angles
  else if coords ≠ angles then 0
  else if nPixels = 0 then 0
  else angles

/-- Maps of the petals, spiders.py 139-143, given the labels of the connected areas of the mask. -/
noncomputable def petal (label : ℕ → ℕ → ℕ) (k i j : ℕ) : ℝ :=
  (label i j : ℝ) * (if label i j = k + 1 then 1 else 0) / ((k : ℝ) + 1)

end P3.Pupil
