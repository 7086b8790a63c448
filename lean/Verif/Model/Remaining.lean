import Verif.Model.Petals
import Verif.Model.Metrics
/-
Dead pixels (FourierUtils.py:896-1027), sums along diagonals (1739-1743, 1788-1792), rotation, resizing and choice of the
reference segment of a pupil (pupil.py:146-159, 223-239, 528-537), files given to a telescope (telescope.py:33-35, 85-107),
influence functions (deformableMirror.py:93-160), example masks (spiders.py:35-58), parameter files of SPHERE
(sphereUtils.py:156-170).  Arithmetic is exact.
-/
namespace P3.Remaining

/-! ### Dead pixels -/

/-- A list of dead pixels: number of rows and columns, addresses (`[:,:,0]`) and weights (`[:,:,1]`). -/
structure Frame where
  rows : ℕ
  cols : ℕ
  addr : ℕ → ℕ → ℤ
  wt : ℕ → ℕ → ℝ

/-- Position of a Python index in a list of length `n`. -/
def place (n : ℕ) (i : ℤ) : Option ℕ :=
  if 0 ≤ i ∧ i < n then some i.toNat else if i < 0 ∧ 0 ≤ n + i then some (n + i).toNat else none

/-- `im[i]`. -/
def getPix (im : List ℝ) (i : ℤ) : Except PyErr ℝ :=
  match place im.length i with
  | some k => .ok (im.getD k 0)
  | none => .error .indexError

/-- `im[i] = x`. -/
def setPix (im : List ℝ) (i : ℤ) (x : ℝ) : Except PyErr (List ℝ) :=
  match place im.length i with
  | some k => .ok (im.set k x)
  | none => .error .indexError

/-- `np.sum(badPixFrame[i,2:npixd-1,1])`, FourierUtils.py:902. -/
noncomputable def weight (F : Frame) (i : ℕ) : ℝ := ((List.range' 2 (F.cols - 1 - 2)).map (F.wt i)).sum

open Classical in
/-- One turn of the loop, FourierUtils.py:902-904. -/
noncomputable def fix (F : Frame) (im : List ℝ) (i : ℕ) : Except PyErr (List ℝ) :=
  if F.rows ≤ i then .error .indexError
  else if weight F i = 0 then .ok im
  else do
    let vals ← (List.range' 2 (F.cols - 2)).mapM fun j => getPix im (F.addr i j)
    let prod ← bcast (· * ·) vals ((List.range' 2 (F.cols - 1 - 2)).map (F.wt i))
    setPix im (F.addr i 0) (prod.sum / weight F i)

/-- `correctFromDeadPixels` on a one-dimensional image, FourierUtils.py:896-906: `npixd` is the number of columns of the list;
`imCor` is the image itself, so that the result is also what is left in the argument. -/
noncomputable def correct (im : List ℝ) (F : Frame) : Except PyErr (List ℝ) := (List.range F.cols).foldlM (fix F) im

/-- `createDeadPixFrame`, FourierUtils.py:924-931, from the shape of the map: the shape is unpacked into two names, then
`np.zeros(nDeadPix,10,2)` takes 10 for a data type. Nothing is returned before. -/
def createFrame (shape : List ℕ) : Except PyErr Frame :=
  if shape.length = 2 then .error .typeError else .error .broadcast

/-! ### Diagonals -/

/-- `matrix.diagonal(i)` of an `n` by `m` matrix, `i` between 0 and `m`. -/
def diag (n m : ℕ) (a : ℕ → ℕ → ℝ) (i : ℕ) : List ℝ := (List.range (min n (m - i))).map fun r => a r (r + i)

/-- `toeplitz`, FourierUtils.py:1739-1743. -/
noncomputable def diagSums (n m : ℕ) (a : ℕ → ℕ → ℝ) : List ℝ := (List.range m).map fun i => (diag n m a i).sum

/-- `get_diags`, FourierUtils.py:1788-1792. -/
noncomputable def diagMeans (n m : ℕ) (a : ℕ → ℕ → ℝ) : List ℝ :=
  (List.range m).map fun i => (diag n m a i).sum / (diag n m a i).length

/-! ### Rotation of a pupil -/

/-- A pupil with its recorded angle, pupil.py:52, 148. -/
structure Turned where
  st : Petals.State
  angle : ℝ

open Classical in
/-- `rotatePupil`, pupil.py:146-159; `rot` is the rotation of scipy. The phase that is rotated is the stored one. -/
noncomputable def rotatePupil (rot : ℝ → (ℕ → ℕ → ℝ) → ℕ → ℕ → ℝ) (a : ℝ) (p : Turned) : Turned :=
  if a = 0 then { p with angle := a }
  else
    let m : ℕ → ℕ → ℝ := fun i j => if rot a (fun i j => ‖p.st.mat i j‖) i j < 0 then 0 else rot a (fun i j => ‖p.st.mat i j‖) i j
    let ph : ℕ → ℕ → ℝ := fun i j => if |rot a p.st.phase i j| < 1e-3 then 0 else rot a p.st.phase i j
    { st := { mat := fun i j => (m i j : ℂ) * Complex.exp (Complex.I * (ph i j : ℂ)), pupil := fun i j => if m i j = 0 then 0 else 1,
              phase := ph, refl := m },
      angle := a }

/-! ### Size of a pupil -/

/-- Size of the map, recorded size, pixels per metre, centre, pixels across a segment. -/
structure Sized where
  side : ℕ
  N : ℕ
  ratio : ℝ
  centre : ℝ
  seg : ℕ

/-- `resize`, pupil.py:528-537: the map is interpolated unless the size asked for is the recorded one. -/
noncomputable def resize (p : Sized) (n : ℕ) (replace : Bool) : Sized :=
  if n = p.N then p
  else if replace then { p with side := n, ratio := p.ratio * n / p.N, N := n, centre := (n : ℝ) / 2 }
  else { p with side := n }

/-! ### Reference segment -/

/-- `np.round(n/2)`, pupil.py:232. -/
def mid (n : ℕ) : ℕ := if n % 2 = 0 then n / 2 else if n / 2 % 2 = 0 then n / 2 else n / 2 + 1

/-- The eight points of a window that have to be lit, pupil.py:234-235. -/
def border (n : ℕ) (lit : ℕ → ℕ → Bool) : Bool :=
  lit 0 0 && lit 0 (n - 1) && lit (n - 1) 0 && lit (n - 1) (n - 1) && lit 0 (mid n) && lit (mid n) 0 && lit (n - 1) (mid n) &&
    lit (mid n) (n - 1)

/-- The loop of `findBestSegmentforFillGap` from segment `k`, pupil.py:229-238, `left` segments left. -/
def bestLoop (n : ℕ) (lit : ℕ → ℕ → ℕ → Bool) : ℕ → ℕ → ℕ
  | 0, _ => 0
  | left + 1, k => if border n (lit k) then k else bestLoop n lit left (k + 1)

/-- `findBestSegmentforFillGap`, pupil.py:223-239, for windows inside the map: `lit k i j` says whether pixel `i`, `j` of the
window of segment `k` has a real part other than zero. -/
def bestSegment (nSeg n : ℕ) (lit : ℕ → ℕ → ℕ → Bool) : ℕ := bestLoop n lit nSeg 0

/-! ### Files of a telescope -/

/-- `re.search(".fits", path)`, telescope.py:88: any character but a line break, then `fits`. -/
def searchFits : List Char → Bool
  | [] => false
  | c :: r => (decide (c ≠ '\n') && "fits".toList.isPrefixOf r) || searchFits r

/-- `check_path`, telescope.py:85-89; `isFile` is the answer of the file system. -/
def checkPath (isFile : String → Bool) (path : Option String) : Bool :=
  match path with
  | none => false
  | some p => isFile p && searchFits p.toList

/-- Where the pupil comes from, telescope.py:109-123. -/
inductive Source | file (path : String) | annulus
  deriving DecidableEq

def pupilSource (isFile : String → Bool) (path : Option String) : Source :=
  match path with
  | none => .annulus
  | some p => if checkPath isFile (some p) then .file p else .annulus

/-- `load_and_process_data`, telescope.py:100-107; `none` is not a number, `rot` is the rotation of scipy, which keeps the shape
(`reshape=False`), `fit` its interpolant. -/
noncomputable def load (fit : List ℝ → List ℝ → Img ℝ → ℝ → ℝ → ℝ) (rot : ℝ → Img ℝ → ℕ → ℕ → ℝ) (angle : ℝ) (res : ℕ)
    (im : Img (Option ℝ)) : Except PyErr (Img ℝ) :=
  let a : Img ℝ := ⟨im.nx, im.ny, fun i j => (im.px i j).getD 0⟩
  let b : Img ℝ := if angle ≠ 0 then ⟨a.nx, a.ny, rot angle a⟩ else a
  if b.nx ≠ res then Metrics.interpolate fit false b res res else .ok b

/-! ### Influence functions -/

/-- Names of influence functions, deformableMirror.py:104-120. -/
inductive Modes | gaussian | xinetics | other
  deriving DecidableEq

open Classical in
/-- `setInfluenceFunction`, deformableMirror.py:93-160, up to the first `np.linspace(-1,1,nIF)` whose number of points is a
floating-point number (`nActu1D` is an array of them, 46).  Before: the knots `r*self.pitch` (1001 values times one per mirror), the
values `f`, unset for other names, and the checks of `BSpline`: the knots have to be increasing numbers, that is
`0 < coupling < 1` and a positive pitch. -/
noncomputable def setInfluence (nDMs : ℕ) (modes : Modes) (coupling : ℝ) (pitch : ℝ) : Except PyErr Unit :=
  if ¬ (nDMs = 1 ∨ nDMs = 1001) then .error .broadcast
  else if modes = .other then .error .unboundLocal
  else if ¬ (0 < coupling ∧ coupling < 1 ∧ 0 < pitch) then .error .broadcast
  else .error .typeError

/-- The end of the constructor, deformableMirror.py:90-91. -/
noncomputable def makeModes (resolution : Option ℕ) (nDMs : ℕ) (modes : Modes) (coupling pitch : ℝ) : Except PyErr Unit :=
  match resolution with
  | none => .ok ()
  | some _ => setInfluence nDMs modes coupling pitch

/-! ### Example masks -/

/-- A Python call: `npos` positional arguments and keywords, for a function with these parameters, the first `req` of them without
default. -/
def bindCall (params : List String) (req npos : ℕ) (kws : List String) : Except PyErr Unit :=
  if npos ≤ params.length ∧ kws.all (fun k => decide (k ∈ params ∧ k ∉ params.take npos)) ∧
      (params.take req).all (fun k => decide (k ∈ params.take npos ∨ k ∈ kws)) then .ok () else .error .typeError

/-- Parameters of the constructor of spiders, spiders.py:71-72. -/
def spiderParams : List String := ["spidersAngle", "spidersWidth", "spidersInitCoor", "D", "cobs", "mskPup", "symetric", "nPixels"]

/-- `spidersInitCoor` as it is given: a number or a list of points. -/
inductive Coor | number | points (n : ℕ)
  deriving DecidableEq

/-- The constructor up to the comparison of lengths, spiders.py:74-90: the number of starting points after the default. -/
def spidersInit (nAngles : ℕ) : Coor → Except PyErr ℕ
  | .number => .error .typeError
  | .points n => .ok (if n = 0 then nAngles else n)

/-- `keckSpiderMask`, spiders.py:35-45: 600 is the third argument. -/
def keckMask : Except PyErr ℕ := do
  bindCall spiderParams 2 3 ["symetric", "D", "cobs", "mskPup"]
  spidersInit 3 .number

/-- `vltSpiderMask`, spiders.py:47-58: 400 is the third argument, and the third parameter is also given by its name. -/
def vltMask : Except PyErr ℕ := do
  bindCall spiderParams 2 3 ["D", "cobs", "unit", "mskPup", "symetric", "spidersInitCoor"]
  spidersInit 4 (.points 4)

/-! ### Parameter files of SPHERE -/

/-- Sections with their options. -/
abbrev Parser := List (String × List (String × String))

/-- `parser.set`: the section has to exist (`NoSectionError`, here `keyError`). -/
def setOption (p : Parser) (sec key val : String) : Except PyErr Parser :=
  if sec ∈ p.map Prod.fst then
    .ok (p.map fun s => if s.1 = sec then
      (s.1, if key ∈ s.2.map Prod.fst then s.2.map (fun o => if o.1 = key then (o.1, val) else o) else s.2 ++ [(key, val)]) else s)
  else .error .keyError

/-- The value of an option. -/
def option (p : Parser) (sec key : String) : Option String :=
  ((p.find? fun s => s.1 = sec).map Prod.snd).bind fun o => (o.find? fun x => x.1 = key).map Prod.snd

/-- `reading_ini_file`, sphereUtils.py:156-170; the disk gives the contents of each file. A missing file is read as an empty one. -/
def readIni (disk : String → Option Parser) (path : String) (modes : Option String) :
    Except PyErr (Parser × (String → Option Parser)) :=
  let p := (disk path).getD []
  match modes with
  | none => .ok (p, disk)
  | some m => do
    let q ← setOption p "telescope" "PathStatModes" ("'" ++ m ++ "'")
    .ok (q, fun x => if x = path then some q else disk x)

end P3.Remaining
