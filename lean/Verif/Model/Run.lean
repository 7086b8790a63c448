import Verif.Model.Atmosphere
import Verif.Model.Layers
/-
Batch runs of the PSF reconstruction.  Source: /repo/p3/psfr/psfrRun.py, /repo/p3/telemetry/systemDiagnosis.py:62-84 and
320-374.  Real arithmetic.
-/
namespace P3.Run
open P3.Atmosphere

/-- A value of a table. -/
inductive Val
  | str (s : String)
  | num (x : ℝ)
  | flag (b : Bool)

/-- What `unpack_results` reads of a reconstruction, psfrRun.py:164-227.  `wfe` is the error breakdown, `theta0` the
isoplanatic angle as a function of the Fried parameter (the layers do not change). -/
structure Obs where
  date : String
  ident : String
  aoMode : String
  pupMask : String
  airmass : ℝ
  wvl : ℝ
  bandwidth : ℝ
  pupilAngle : ℝ
  resolution : ℝ
  psInMas : ℝ
  fov : ℝ
  saturated : Bool
  seeingDimm : ℝ
  seeingMass : ℝ
  cn2 : List ℝ
  hoGain : ℝ
  hoDelay : ℝ
  hoRate : ℝ
  hoNph : ℝ
  hoWfe : ℝ
  ttGain : ℝ
  ttDelay : ℝ
  ttRate : ℝ
  ttNph : ℝ
  spotX : ℝ
  spotY : ℝ
  spotXY : ℝ
  r0Tel : ℝ
  L0Tel : ℝ
  tau0Tel : ℝ
  v0Tel : ℝ
  atmR0 : ℝ
  atmWvl : ℝ
  theta0 : ℝ → ℝ
  hoNoiseVar : ℝ
  ttNoiseVar : ℝ
  wfe : String → ℝ

/-- What `unpack_results` reads of the result of the fit. -/
structure Res where
  srSky : ℝ
  fwhmXSky : ℝ
  fwhmYSky : ℝ
  fwhmXFit : ℝ
  fwhmYFit : ℝ
  bkg : ℝ
  mse : ℝ

/-- `define_database_colnames`, psfrRun.py:143-162. -/
def colnames : List String :=
  ["DATE", "ID", "AOMODE", "AIRMASS", "WVL [µm]", "BANDWIDTH [µm]",
   "PUP ANG [DEG]", "PUP MASK", "PUP RES [PX]", "CAM PS [MAS]", "CAM FOV [PX]",
   "CAM SR", "CAM FWHMX [MAS]", "CAM FWHMY [MAS]", "CAM FIT BKG", "CAM SATURATION",
   "SEEING DIMM [AS]", "SEEING MASS", "CN2 0KM", "CN2 0.5KM", "CN2 1KM", "CN2 2KM", "CN2 4KM",
   "CN2 8KM", "CN2 16KM", "HO GAIN", "HO LAT [ms]", "HO RATE [Hz]", "HO NPH",
   "HO WFE [NM]", "TT GAIN", "TT LAT [ms]", "TT RATE [Hz]", "TT NPH", "TT WFE [NM]",
   "JITTERX [MAS]", "JITTERY [MAS]", "JITTERXY [MAS]",
   "TEL R0 [CM]", "TEL L0 [M]", "TEL TAU0 [MS]", "TEL V [M/S]", "TEL THETA0 [AS]",
   "HO NOISE [RAD]", "TT NOISE [RAD]", "WFE NCPA [NM]", "WFE FITTING [NM]",
   "WFE ALIASING [NM]", "WFE HO NOISE [NM]", "WFE TT NOISE [NM]",
   "WFE SERVO-LAG [NM]", "WFE JITTER [NM]", "WFE ANGULAR ANISO [NM]",
   "WFE FOCAL ANISO [NM]", "WFE TT ANISO [NM]", "WFE TOTAL [NM]",
   "PSF PIXEL [NM]", "PSFR SR PEAK", "PSFR SR OTF",
   "PSFR FWHMX", "PSFR FWHMY", "PSFR MSE"]

/-- `psfr.ao.atm.wvl = 500e-9`, psfrRun.py:206, through the setter atmosphere.py:44-46. -/
noncomputable def setWvl (o : Obs) (w : ℝ) : Obs := { o with atmR0 := o.atmR0 * (w / o.atmWvl) ^ (1.2 : ℝ), atmWvl := w }

/-- `unpack_results`, psfrRun.py:164-237: the row and the system afterwards; `none` when the profile has not seven values
(line 191). -/
noncomputable def unpack (o : Obs) (r : Res) : Option (List Val × Obs) :=
  match o.cn2 with
  | [c0, c05, c1, c2, c4, c8, c16] =>
    let o' := setWvl o 500e-9
    some ([.str o.date, .str o.ident, .str o.aoMode, .num o.airmass, .num (o.wvl * 1e6), .num (o.bandwidth * 1e6),
      .num o.pupilAngle, .str o.pupMask, .num o.resolution, .num o.psInMas,
      .num o.fov, .num (r.srSky / 1e2), .num r.fwhmXSky, .num r.fwhmYSky, .num r.bkg, .flag o.saturated,
      .num o.seeingDimm, .num o.seeingMass,
      .num c0, .num c05, .num c1, .num c2, .num c4, .num c8, .num c16, .num o.hoGain, .num o.hoDelay, .num o.hoRate,
      .num o.hoNph, .num o.hoWfe, .num o.ttGain, .num o.ttDelay, .num o.ttRate, .num o.hoNph, .num o.hoWfe,
      .num o.spotX, .num o.spotY, .num o.spotXY, .num (o.r0Tel * 1e2), .num o.L0Tel,
      .num (o.tau0Tel * 1e3), .num o.v0Tel, .num (o'.theta0 o'.atmR0), .num o.hoNoiseVar, .num o.ttNoiseVar,
      .num (o.wfe "NCPA"), .num (o.wfe "FITTING"),
      .num (o.wfe "ALIASING"), .num (o.wfe "HO NOISE"), .num (o.wfe "TT NOISE"), .num (o.wfe "SERVO-LAG"),
      .num (o.wfe "TIP-TILT"), .num (o.wfe "ANGULAR ANISOPLANATISM"), .num (o.wfe "ANISOKINETISM"),
      .num (o.wfe "FOCAL ANISOPLANATISM"), .num (o.wfe "TOTAL WFE"), .num (o.wfe "PIXEL TF"),
      .num (o.wfe "PSFR SR PEAK" / 1e2), .num (o.wfe "PSFR SR OTF" / 1e2),
      .num r.fwhmXFit, .num r.fwhmYFit, .num r.mse], o')
  | _ => none

/-- Cell of a row of `pd.DataFrame(data, columns=names)`, psfrRun.py:88. -/
def cell (row : List Val) (col : String) : Option Val := (colnames.zip row).lookup col

/-- `res` of `run_keck_psfr`, psfrRun.py:113-139: `strehl` is the Strehl ratio of the image between 0 and 1, as given by
`getStrehl`.  With a fit it comes from psfFitting.py:211, without a fit from the error breakdown (psfR.py:391), in
percent. -/
noncomputable def srSky (fit : Bool) (strehl : ℝ) : ℝ := if fit then strehl else 1e2 * strehl

/-- Matching of the files, psfrRun.py:52-83: `sav` and `fits` the sorted lists of names, `idS` and `idF` the identifier of
a name. -/
def matched (idS idF : String → String) (sav fits : List String) : List (String × String) :=
  let idFits := fits.map idF
  let idSav := sav.map idS
  let ids := ((idFits.toFinset ∩ idSav.toFinset).sort (· ≤ ·))
  ids.map fun i => (sav.getD (idSav.idxOf i) "", fits.getD (idFits.idxOf i) "")

/-- `s in name`. -/
def hasSub (s name : List Char) : Bool := decide (s <:+: name)

/-- A folder: names and rows of the tables in it; a row is its date and the rest. -/
abbrev Folder := List (List Char × List (String × ℕ))

/-- Rows gathered by `merge_dataframe`, psfrRun.py:333-344, before the sort. -/
def gathered (f : Folder) : List (String × ℕ) :=
  (f.filter fun t => hasSub ".csv".toList t.1 && !hasSub "merged".toList t.1).flatMap Prod.snd

/-- `l'` is a result of `sort_values("DATE")` on `l`: the order of rows of the same date is not specified. -/
def Sorts (l l' : List (String × ℕ)) : Prop := l'.Perm l ∧ l'.Pairwise fun a b => a.1 ≤ b.1

/-- Name of the saved table, psfrRun.py:350-351. -/
def mergedName (pref : List Char) : List Char := pref ++ "_psfr_merged.csv".toList

/-- `merge_dataframe(save_folder, tocsv)`, psfrRun.py:328-354, with `l'` the sorted rows: rows returned and folder
afterwards.  `none`: no table to merge (`sort_values` finds no column). -/
def merge (f : Folder) (tocsv : Bool) (l' : List (String × ℕ)) : Option (List (String × ℕ) × Folder) :=
  match f.filter fun t => hasSub ".csv".toList t.1 && !hasSub "merged".toList t.1 with
  | [] => none
  | t :: _ =>
    some (l', if tocsv then
      let name := mergedName (t.1.takeWhile (· ≠ '_'))
      (f.filter fun x => x.1 ≠ name) ++ [(name, l')] else f)

/-- Attributes `trs.atm` of the telemetry. -/
structure TAtm where
  wvl : ℝ
  r0 : ℝ
  L0 : ℝ
  seeing : ℝ
  r0Tel : ℝ
  L0Tel : ℝ
  tau0Tel : ℝ
  v0Tel : ℝ
  weights : List ℝ
  wSpeed : List ℝ

/-- `rad2arc`, systemDiagnosis.py:19. -/
noncomputable def rad2arc : ℝ := 3600 * 180 / Real.pi

/-- Update of the atmosphere by `systemDiagnosis`, systemDiagnosis.py:62-84; `r0`, `L0`, `v0` the estimates. -/
noncomputable def diagnose (r0 L0 v0 : ℝ) (a : TAtm) : TAtm :=
  { a with
    r0Tel := r0, L0Tel := L0, tau0Tel := 0.314 * r0 / v0, v0Tel := v0, r0 := r0, L0 := L0,
    seeing := rad2arc * a.wvl / r0,
    wSpeed := if 1 < a.weights.length then
        a.wSpeed.map fun v => v0 * v / P3.Layers.slabAlt a.weights a.wSpeed (5 / 3) 0 a.wSpeed.length
      else [v0] }

/-- Uncertainty of the coherence time, systemDiagnosis.py:372. -/
noncomputable def dtau0 (r0 v0 dr0 dv0 : ℝ) : ℝ := 0.314 * Real.sqrt ((dr0 / v0) ^ 2 + (r0 * dv0 / v0 ^ 2) ^ 2)

/-- Fried parameter of the system read from a parameter file written with this seeing, aoSystem.py:346 and 387. -/
noncomputable def r0Read (a : TAtm) (airmass : ℝ) : ℝ :=
  0.976 * a.wvl / a.seeing * 3600 * 180 / Real.pi * airmass ^ (-3 / 5 : ℝ)

/-- `run_psfr_from_kasp`, psfrRun.py:257-279: the atmosphere of the telemetry when the parameter file is written, and at
the end. -/
noncomputable def kasp (trueR0 : Bool) (r0 L0 v0 : ℝ) (a : TAtm) : TAtm × TAtm :=
  let d := diagnose r0 L0 v0 a
  let w := if trueR0 then
      { d with r0Tel := a.r0, r0 := a.r0, L0Tel := a.L0, L0 := a.L0,
               seeing := 3600 * 180 / Real.pi * 0.978 * d.wvl / a.r0 }
    else d
  (w, { w with r0Tel := d.r0Tel, L0Tel := d.L0Tel })

/-- Cells `R0`, `L0`, `TAU0`, `TRUE R0`, `TRUE L0` and `TRUE TAU0` of the table, psfrRun.py:286-295; `tau0` is
`psfr.ao.atm.tau0`, in milliseconds (atmosphere.py:83-85). -/
noncomputable def kaspCells (e : TAtm) (tau0 : ℝ) : List (String × ℝ) :=
  [("R0", e.r0Tel), ("L0", e.L0Tel), ("TAU0", e.tau0Tel), ("V0", e.v0Tel), ("TRUE R0", e.r0), ("TRUE L0", e.L0),
   ("TRUE TAU0", tau0 * 1e3)]

/-- Check of the number of bins, psfrRun.py:371: `val_y is None and n_bins is None or n_bins < 0`.  `none` is `None`;
the result is `none` for the `TypeError` of `None < 0`, else whether the call is refused. -/
def binsRefused (valY : Bool) (nBins : Option ℤ) : Option Bool :=
  match valY, nBins with
  | false, none => some true
  | true, none => none
  | _, some n => some (decide (n < 0))

end P3.Run
