import Verif.Model.MultiFit
import Verif.Model.IniFile

/-! Model of the whole calibration of a field, `generate_psfs_grid_from_image`: p3/psfFitting/fittingUtils.py 64-156. The
parameter file is an argument and a result; the pieces are those of `FieldFit`, `MultiFit` and `IniFile`. The detection
(photutils), the PSF model, the fit of one sub-image and `np.polyfit` are arguments; arithmetic is exact; nothing is
displayed. `nPx` is at least two and `nPSFMax` at least one. -/

namespace P3.FieldRun
open FieldFit (Im Star Crit)
open IniFile (Ini)

/-- Exceptions: no section in the parameter file, the PSF model or a fit raises, or one of the other steps. -/
inductive Fail | noSection | model | fit | of (e : FieldFit.Err)

/-- The methods of interpolation, fittingUtils.py 126-133. -/
inductive Interp | psfs | parameters | other
  deriving DecidableEq

/-- Arguments, fittingUtils.py 64-66. -/
structure Args where
  im : Im
  nY : ℕ
  nX : ℕ
  stars : List Star
  n : ℕ
  nPx : ℕ
  nMax : ℕ
  fact : ℕ
  lo : Option ℝ
  hi : Option ℝ
  crit : Crit
  interpolation : Interp

/-- What is not modelled: whether `psfao21` reads the parameter file, the stars detected in a sub-image, the fit of a
sub-image, the image of the model at its own size and at a given size, the size of a pixel, and `np.polyfit` of degree
two. -/
structure World where
  ready : Ini → Bool
  detect : Im → List MultiFit.Found
  solver : Ini → MultiFit.Solver
  build : Ini → List ℝ → Im
  buildAt : Ini → ℕ → List ℝ → Im
  psArcsec : Ini → ℝ
  polyfit : List ℝ → List ℝ → List ℝ

/-- `int(2*(nPx*fact//2))`, fittingUtils.py 99. -/
def field (nPx fact : ℕ) : ℕ := 2 * (nPx * fact / 2)

/-- The parameter file once the field of view is set, fittingUtils.py 95-101: a file that does not exist is read as an empty
one and `set` raises without the section, before anything is written. -/
def setField (nPx fact : ℕ) (disk : Option Ini) : Option Ini :=
  IniFile.step (disk.getD Ini.empty) (.set "sensor_science" "FieldOfView" (toString (field nPx fact)))

/-- Order of the candidates, fittingUtils.py 283-295: mean distance to the other candidates, or distance to the centre of
the tile. -/
noncomputable def key (crit : Crit) (y0 x0 : ℕ) (kept : List Star) (s : Star) : ℝ :=
  match crit with
  | .isolated => (kept.map fun u => √((u.y - s.y) ^ 2 + (u.x - s.x) ^ 2)).sum / ((kept.length : ℝ) - 1)
  | _ => √((s.y - y0) ^ 2 + (s.x - x0) ^ 2)

/-- An exception of a step is one of the calibration, fittingUtils.py 104-112. -/
def lift {α : Type} : Except FieldFit.Err α → Except Fail α := Except.mapError Fail.of

/-- The stars selected, tile after tile, fittingUtils.py 104-108 and 259-297. -/
noncomputable def chosen (a : Args) : Except Fail (List Star) :=
  if a.n = 0 then .error (.of .zeroDivision)
  else do
    let l ← (FieldFit.centers a.nY a.nX a.n).mapM fun c =>
      lift (FieldFit.select a.stars c.1 c.2 (a.nY / a.n) (a.nX / a.n) (a.nPx / 2) a.nMax a.lo a.hi a.crit (key a.crit c.1 c.2))
    return l.flatten

/-- Coordinates of a star from the centre of the image, fittingUtils.py 296. -/
noncomputable def centred (a : Args) (s : Star) : ℝ × ℝ := (s.y - ((a.nY / 2 : ℕ) : ℝ), s.x - ((a.nX / 2 : ℕ) : ℝ))

/-- `extract_multiple_psf`, fittingUtils.py 310-325: coordinates from the centre are shifted back. -/
noncomputable def cutOut (a : Args) (c : ℝ × ℝ) : Except Fail Im :=
  lift (FieldFit.extract a.im a.nY a.nX (c.1 + ((a.nY / 2 : ℕ) : ℝ)) (c.2 + ((a.nX / 2 : ℕ) : ℝ)) a.nPx)

/-- `coo_interp`, fittingUtils.py 120-123: rows first. -/
noncomputable def grid (a : Args) : List (ℝ × ℝ) :=
  (List.range a.n).flatMap fun i => (List.range a.n).map fun j => (FieldFit.gridPoint a.nY a.n i, FieldFit.gridPoint a.nX a.n j)

/-- One row of `X`. -/
def row (X : List (List ℝ)) (i : ℕ) : List ℝ := X.map fun c => c.getD i 0

/-- `interpolate_psfs_in_fov` with four neighbours, fittingUtils.py 413-449. -/
noncomputable def byPsfs (nMax : ℕ) (psfs : List Im) (coo : List (ℝ × ℝ)) (X : List (List ℝ)) (out : ℝ × ℝ) : Option Im :=
  let d := MultiFit.dist (fun k => (row X 23).getD k 0) nMax (psfs.length / nMax) out.1 out.2
    (fun k => (coo.getD k (0, 0)).1) (fun k => (coo.getD k (0, 0)).2)
  MultiFit.interp (fun k => psfs.getD k fun _ _ => 0) d (MultiFit.nearest d psfs.length 4)

/-- A parameter without variation over the field, fittingUtils.py 494-497: two zeros and the mean weighted by errors. -/
noncomputable def flat (v e : List ℝ) : Option (List ℝ) := (FieldFit.wMean v e).map fun m => [0, 0, m]

/-- `create_spatial_variations_psf_model`, fittingUtils.py 482-532: `none` when a coefficient is not a number. -/
noncomputable def spatial (polyfit : List ℝ → List ℝ → List ℝ) (X : List (List ℝ)) : Option (List (List ℝ)) := do
  let r0 ← flat (row X 0) (row X 7)
  let C ← flat (row X 1) ((row X 8).map (· + 1e-20))
  let ax ← flat (row X 3) (row X 10)
  let th ← flat (row X 5) (row X 12)
  let be ← flat (row X 6) (row X 13)
  return [r0, C, polyfit (row X 16) (row X 2), ax, polyfit (row X 16) (row X 4), th, be]

/-- `compute_psfs_grid` at one point, fittingUtils.py 553-561: not a number when a coefficient is not. -/
noncomputable def byParameters (build : List ℝ → Im) (M : Option (List (List ℝ))) (out : ℝ × ℝ) : Option Im :=
  M.map fun M => build ((M.map fun m => FieldFit.polyval m √(out.1 ^ 2 + out.2 ^ 2)) ++ [0, 0, 0, 1, 0, 0, 0])

/-- What is returned, fittingUtils.py 156, with the numbers of pixels of the two sets of PSFs. -/
structure Out where
  interp : List (Option Im)
  sizeInterp : ℕ
  fits : List Im
  sizeFits : ℕ
  X : List (List ℝ)
  subs : List Im
  cooInterp : List (ℝ × ℝ)
  coo : List (ℝ × ℝ)

/-- The calibration with the parameter file `p`, fittingUtils.py 104-133: the fitted PSFs have the size of the field of view
written in the file, those computed from the parameters have the size of the sub-images (and a field smaller than that does
not fit the array of line 560: ValueError). -/
noncomputable def calibrate (w : World) (a : Args) (p : Ini) : Except Fail Out := do
  let stars ← chosen a
  let coo := stars.map (centred a)
  let subs ← coo.mapM (cutOut a)
  if ¬w.ready p then throw .model
  let tiles := List.zipWith (fun c s => (⟨w.detect s, a.nPx, a.nPx, c.1, c.2⟩ : MultiFit.Tile)) coo subs
  match MultiFit.run (w.solver p) (w.build p) (w.psArcsec p) tiles with
  | none => throw .fit
  | some (X, psfs) =>
    match a.interpolation with
    | .psfs => return ⟨(grid a).map (byPsfs a.nMax psfs coo X), field a.nPx a.fact, psfs, field a.nPx a.fact, X, subs, grid a, coo⟩
    | .parameters =>
      if field a.nPx a.fact < a.nPx then throw (.of .valueError)
      return ⟨(grid a).map (byParameters (w.buildAt p a.nPx) (spatial w.polyfit X)), a.nPx, psfs, field a.nPx a.fact, X,
        subs, grid a, coo⟩
    | .other => throw (.of .valueError)

/-- `generate_psfs_grid_from_image`, fittingUtils.py 64-156: the result and the parameter file that is left. -/
noncomputable def generate (w : World) (a : Args) (disk : Option Ini) : Except Fail Out × Option Ini :=
  match setField a.nPx a.fact disk with
  | none => (.error .noSection, disk)
  | some p => (calibrate w a p, some p)

end P3.FieldRun
