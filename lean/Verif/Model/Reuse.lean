/-
The arrays kept, freed and read again by the Fourier model, when memory is to be reduced and when it is not.
Source: /repo/p3/aoSystem/fourierModel.py:281-316, 355-421, 488-563, 767-927, 955-961, 1060-1095, 1176-1230, 1635-1706
(closed loop). Simplifications: what an array is worth is an unknown function of the arrays it is computed from (the
quantities of the system that never change are not listed); an attribute that is absent and one that is `None` are the
same; reading either raises.
-/
namespace P3.Reuse

/-- The attributes. `Recon` stands for `Rx`, `Ry`, `SxAv` and `SyAv`, which are written together; `Loop` for what
`controller` writes; `acc` for the local variable `psd`; `Wfe` for the numbers of the breakdown; `Bonus` for `wfeS`,
`wfeR`, `wfeAni` and `wfeTomo`. -/
inductive Attr
  | Cb | Cphi | CphiMod | M | Wtomo | Popt | W | PbetaDM | MPalphaL | Walpha | Recon | Loop
  | Noise | Alias | DiffRef | Chrom | ST | Cone | Mcao | Fit | Vib | Extra | ExtraLo
  | acc | PSD | Wfe | S | Ani | Bonus
  deriving DecidableEq, Repr

/-- What the user asks for. -/
structure Conf where
  /-- more than one guide star -/
  tomo : Bool
  /-- the guide stars are lasers, `gs.height[0] != 0` -/
  laser : Bool
  /-- `ao.addMcaoWFsensConeError` -/
  mcao : Bool
  /-- `applyTiltFilter is False and windPsdFile != 0` -/
  vib : Bool
  /-- `extraErrorNm > 0` -/
  extra : Bool
  /-- `getPSDatNGSpositions and errLOsum >= 0` -/
  lo : Bool
  /-- `reduce_memory` -/
  reduce : Bool
  /-- `getErrorBreakDown` -/
  ebd : Bool

/-- A step of the computation: write an attribute computed from others, or free one. -/
inductive Op
  | set (fn : String) (a : Attr) (deps : List Attr)
  | free (a : Attr)

/-- Attributes of the object. -/
abbrev Store (V : Type) := Attr → Option V

def Store.put {V : Type} (s : Store V) (a : Attr) (v : Option V) : Store V := fun x => if x = a then v else s x

/-- Run of the steps; `val fn vs` is what the code computes; `none` when an attribute that is needed is `None`. -/
def run {V : Type} (val : String → List V → V) : List Op → Store V → Option (Store V)
  | [], s => some s
  | .set fn a deps :: t, s =>
    match deps.mapM s with
    | none => none
    | some vs => run val t (s.put a (some (val fn vs)))
  | .free a :: t, s => run val t (s.put a none)

/-- `if cond: self.a = None` for a list of attributes. -/
def frees (cond : Bool) (l : List Attr) : List Op := if cond then l.map .free else []

open Attr Op

/-- `spatialReconstructor` with `tomographicReconstructor` and `optimalProjector`, 355-421, 488-563. -/
def recon (c : Conf) : List Op :=
  (if c.tomo then
    [set "M" M []] ++ frees c.reduce [M] ++
    [set "Cb" Cb [], set "Cphi" Cphi [], set "Cphi_mod" CphiMod [Cphi], set "Wtomo" Wtomo [CphiMod, Cb],
     set "Popt" Popt [], set "W" W [Popt, Wtomo]] ++ frees c.reduce [Popt, Wtomo] ++
    [set "PbetaDM" PbetaDM [], set "MPalphaL" MPalphaL [], set "Walpha" Walpha [W, MPalphaL]]
   else [set "filter" Recon []]) ++ frees c.reduce [MPalphaL]

/-- `if not hasattr(self, 'Rx'): self.reconstructionFilter()`, 958-959: in tomography the filter is computed at the first
call of `aliasingPSD`; computing it again would give the same. -/
def ensure (c : Conf) : List Op := if c.tomo then [set "filter" Recon []] else []

/-- `powerSpectrumDensity`, 767-927. -/
def psdProg (c : Conf) : List Op :=
  let q := c.reduce && !c.ebd
  [set "zeros" acc []] ++
  (if c.tomo then [set "noise" Noise [PbetaDM, W, Cb]] else [set "noise" Noise [Recon, Loop]]) ++
  [set "=noise" acc [acc, Noise]] ++ frees q [Noise, Cb, CphiMod] ++
  ensure c ++ [set "alias" Alias [Recon, Loop], set "+alias" acc [acc, Alias]] ++ frees q [Alias] ++
  [set "diffref" DiffRef [], set "+diffref" acc [acc, DiffRef]] ++ frees q [DiffRef] ++
  [set "chrom" Chrom [], set "+chrom" acc [acc, Chrom]] ++ frees q [Chrom] ++
  (if c.tomo then [set "st" ST [PbetaDM, Walpha, Cphi]] else [set "st" ST [Recon, Loop]]) ++ frees c.reduce [Walpha] ++
  [set "+st" acc [acc, ST]] ++ frees q [ST, Cphi] ++
  (if !c.tomo && c.laser then [set "cone" Cone [], set "+cone" acc [acc, Cone]] ++ frees q [Cone] else []) ++
  (if c.mcao && c.tomo && c.laser then [set "mcao" Mcao [acc], set "+mcao" acc [acc, Mcao]] ++ frees q [Mcao] else []) ++
  [set "norm" acc [acc], set "fit" Fit [], set "+fit" acc [acc, Fit]] ++ frees q [Fit] ++
  (if c.vib then [set "vib" Vib [], set "+vib" acc [acc, Vib]] ++ frees q [Vib] else []) ++
  [set "tilt" acc [acc]] ++
  (if c.extra then [set "extra" Extra [], set "+extra" acc [acc, Extra]] else []) ++
  (if c.lo then [set "lo" ExtraLo [], set "+lo" acc [acc, ExtraLo]] else []) ++
  frees q [Extra, ExtraLo] ++
  [set "scale" PSD [acc]]

/-- `errorBreakDown`, 1635-1706. -/
def ebdProg (c : Conf) : List Op :=
  [set "wfe" Wfe ([Fit, Alias, Noise, ST, DiffRef, Chrom] ++ (if c.mcao then [Mcao] else []) ++ (if c.vib then [Vib] else []))] ++
  frees c.reduce [Alias, Fit, Noise, ST, DiffRef, Chrom, Mcao, Vib, Extra, ExtraLo] ++
  [set "servolag" S [Recon, Loop]] ++
  (if c.tomo then [set "bonus" Bonus [S, Recon, Wfe]] else [set "ani" Ani [], set "bonus" Bonus [S, Recon, Ani]]) ++
  frees c.reduce [S, Ani]

/-- `initComputations`, 281-316. -/
def initProg (c : Conf) : List Op :=
  recon c ++ [set "controller" Loop []] ++ psdProg c ++ (if c.ebd then ebdProg c else [])

/-- A call of the user once the model is built: `self.PSD = self.powerSpectrumDensity()`, `self.errorBreakDown()`. -/
inductive Call
  | psd | breakdown
  deriving DecidableEq

def callProg (c : Conf) : Call → List Op
  | .psd => psdProg c
  | .breakdown => ebdProg c

/-- The object just built. -/
def built {V : Type} (val : String → List V → V) (c : Conf) : Option (Store V) := run val (initProg c) fun _ => none

/-- The object after a history of calls, `none` when one of them raised. -/
def after {V : Type} (val : String → List V → V) (c : Conf) (calls : List Call) : Option (Store V) :=
  (built val c).bind fun s => calls.foldl (fun o k => o.bind (run val (callProg c k))) (some s)

/-- What the user reads: the spectrum and the numbers of the breakdown. -/
def seen {V : Type} (s : Store V) : Option V × Option V × Option V := (s PSD, s Wfe, s Bonus)

end P3.Reuse
