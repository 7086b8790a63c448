import Verif.Model.Py
import Mathlib.Data.List.Basic
/-
Detection of the folder of TIPTOP.  Source: /repo/p3/aoSystem/__init__.py 119-162 (`detect_tiptop_path`, called when P3 is imported).
A path is the list of its components, resolved; the root is the empty list.
-/
namespace P3.Detect

abbrev Path := List String

/-- What `import tiptop` finds: nothing, a package with its `__init__.py`, or a folder without one (a namespace package, whose
`__file__` is `None`). -/
inductive Pkg | absent | regular (file : Path) | folder

/-- One frame of the stack, lines 147-153: the file, then its parents from the deepest, up to one named `tiptop`. -/
def frame (p : Path) : Option Path :=
  (p.inits.reverse.find? fun q => q.getLast? == some "tiptop").map List.dropLast

/-- `detect_tiptop_path`, lines 119-159: the package (131-136, `Path(None)` raises `TypeError`, which is not caught), else the frames of
the stack in order. -/
def detect (pkg : Pkg) (stack : List Path) : Except PyErr (Option Path) :=
  match pkg with
  | .regular f => .ok (some f.dropLast.dropLast)
  | .folder => .error .typeError
  | .absent => .ok (stack.findSome? frame)

/-- Importing `p3.aoSystem`, line 162. -/
def importP3 (pkg : Pkg) (stack : List Path) : Except PyErr (Option Path) := detect pkg stack

/-- The folder given to `resolve_config_path`, aoSystem.py 107-113: the one found at import, else a second attempt. -/
def folder (atImport : Option Path) (pkg : Pkg) (stack : List Path) : Except PyErr (Option Path) :=
  match atImport with
  | some p => .ok (some p)
  | none => detect pkg stack

end P3.Detect
