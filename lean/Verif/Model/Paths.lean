/-
Model of configuration path resolution.
Source: /repo/p3/aoSystem/__init__.py, lines 77-117 (`resolve_config_path`).

Simplifications: a Python `str` is a `List Char`; the file system is an arbitrary
predicate `isfile` on path strings (what `os.path.isfile` answers); POSIX paths only.
-/
namespace P3.Paths

/-- Python `str`, as its list of characters. -/
abbrev Str := List Char

/-- `posixpath.join(a, b)` (CPython standard library, two-argument case), as called at
`p3/aoSystem/__init__.py:91, 100, 104, 112`: an absolute `b` wins, an empty `a` or one ending in `/`
needs no separator. -/
def join (a b : Str) : Str :=
  if b.head? = some '/' then b
  else if a = [] ∨ a.getLast? = some '/' then a ++ b
  else a ++ '/' :: b

/-- `s.lstrip('/')`, `p3/aoSystem/__init__.py:96`. -/
def lstripSlash (s : Str) : Str := s.dropWhile (· == '/')

/-- `resolve_config_path(path_value, path_root, path_p3, path_tiptop)`,
`p3/aoSystem/__init__.py:77-117`, branch by branch.  `tiptop = none` is Python's `None`;
Python's truthiness tests `if path_root:` and `if path_tiptop and ...` are `≠ []`. -/
def resolve (isfile : Str → Bool) (path root p3 : Str) (tiptop : Option Str) : Str :=
  if path = [] then []                                             -- l. 86-87
  else if root ≠ [] ∧ isfile (join root path) = true then join root path   -- l. 90-93
  else
    let clean := lstripSlash path                                   -- l. 96
    if "aoSystem".toList.isPrefixOf clean then join p3 clean        -- l. 99-100
    else if (tiptop.getD []) ≠ [] ∧ "tiptop".toList.isPrefixOf clean then
      join (tiptop.getD []) clean                                   -- l. 103-104
    else if isfile path then path                                   -- l. 107-108
    else if path.head? = some '/' ∧ clean ≠ path ∧ isfile (join p3 clean) = true then
      join p3 clean                                                 -- l. 111-114
    else path                                                       -- l. 117

end P3.Paths
