import Verif.Model.Pupil

/-! Model of how a segmented pupil is made from its reference segment: p3/aoSystem/pupil.py 42-120, 163-172 and
320-343. The functions on the segments are in `Verif.Model.Pupil`; the conventions are the same. -/

namespace P3.Segments

open P3.Pupil

/-- `makeSegList`, pupil.py 163-172: each segment is `segment(nSides, radius, nPx)`, with the defaults of
segment.py 40-42 for everything else (`plain` is the shape of a polygon of angle zero, not shrunk); then its map
is replaced by the one of the reference, and it is given its coordinates. -/
def makeSegList (plain : Arr) (ref : Seg) (coords : List (ℝ × ℝ)) : List Seg :=
  coords.map fun c => { n := ref.n, mat := ref.mat, shape := plain, refl := 1, phaseError := 0,
                        posX := c.1, posY := c.2, posXError := 0, posYError := 0 }

/-- The constructor without filling of the gaps, pupil.py 76-113: `lo` and `hi` are the extreme coordinates. -/
noncomputable def construct (plain : Arr) (ref : Seg) (ratio lo hi : ℝ) (mask : ℕ → ℕ → ℝ)
    (coords : List (ℝ × ℝ)) : Except Err Pup :=
  let N := pupilSize ratio lo hi ref.n
  match makePupil ⟨N, ratio, (N : ℝ) / 2, (N : ℝ) / 2, makeSegList plain ref coords, fun _ _ => 0, mask⟩ with
  | .error e => .error e
  | .ok p => .ok (applyMasks p)

/-- The segments once the gaps are filled, pupil.py 206-218: the map of the reference has the gaps, its other
attributes are unchanged, and the list is made again. -/
noncomputable def filledList (plain : Arr) (ref : Seg) (mid infX minY maxY : ℕ) (gap : Arr) (coords : List (ℝ × ℝ)) :
    List Seg :=
  makeSegList plain { ref with mat := fillGapSeg mid infX minY maxY ref.mat gap } coords

/-- Area given to `computeModes`. -/
inductive Area | segment | petal | other
  deriving DecidableEq

/-- Outcome of `computeModes`: nothing (with a message), the pixels over which the modes are defined, one set per
call for segments and one per petal; or `UnboundLocalError`. -/
inductive Modes
  | nothing
  | over (pix : ℕ → ℕ → Prop)
  | petals (n : ℕ) (pix : ℕ → ℕ → ℕ → Prop)
  | unboundLocal

/-- `computeModes(jIndex, area)`, pupil.py 320-343, for `nJ` Noll indices: the modes of segments are defined where
the modulus of the reference is exactly one; those of petal `k` where the petal, the pupil and the masks give
one. The modes themselves are in `Verif.Model.Zernike`. -/
def computeModes (nJ : ℕ) (a : Area) (ref : Seg) (nPetal : ℕ) (petal : ℕ → ℕ → ℕ → ℝ) (pupil mask : ℕ → ℕ → ℝ) : Modes :=
  if nJ = 0 then .nothing
  else match a with
    | .segment => .over fun i j => ‖ref.mat i j‖ = 1
    | .petal => .petals nPetal fun k i j => |petal k i j| * pupil i j * mask i j = 1
    | .other => .unboundLocal

end P3.Segments
