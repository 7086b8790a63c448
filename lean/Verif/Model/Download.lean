import Verif.Model.Sphere
import Verif.Model.Run

/-! Model of the files that P3 downloads and saves: `get_data_file` of p3/psfr/psfrUtils.py and
`psfr_on_multiple_databases` of p3/psfr/psfrRun.py.

A path is resolved as the system does: split at `/`, empty components dropped (`a//b` is `a/b`). Links and the
components `.` and `..` are not modelled, nor are permissions. Folders exist. -/

namespace P3.Download

open P3.Sphere (Name split)

/-- A path resolved by the operating system: absolute or not, and its components. -/
def resolve (p : Name) : Bool × List Name := (p.head? == some '/', (split '/' p).filter fun c => c ≠ [])

/-- The files: content by resolved path. -/
abbrev Files := Bool × List Name → Option (List ℕ)

/-- What can happen to a download (`urllib.request.urlretrieve`): the server is not reached and nothing is
written; the transfer stops (network or crash) after `k` bytes, which are in the target already; or it ends. -/
inductive Transfer | unreachable | stopped (k : ℕ) | complete

/-- `urlretrieve(url, target)`: the target is emptied, then filled as the bytes come; second component: an
exception is raised or the program is gone. -/
def urlretrieve (remote : List ℕ) (t : Transfer) (target : Bool × List Name) (fs : Files) : Files × Bool :=
  match t with
  | .unreachable => (fs, true)
  | .stopped k => (Function.update fs target (some (remote.take k)), true)
  | .complete => (Function.update fs target (some remote), false)

/-- `get_data_file(path_sav, filename)`, psfrUtils.py 17-21: looked for at `path_sav + "/" + filename`, saved at
`path_sav + filename`. Result: files, whether the call failed, whether it downloaded. -/
def getDataFile (remote : List ℕ) (t : Transfer) (path name : Name) (fs : Files) : Files × Bool × Bool :=
  if (fs (resolve (path ++ '/' :: name))).isSome then (fs, false, false)
  else
    let r := urlretrieve remote t (resolve (path ++ name)) fs
    (r.1, r.2, true)

/-- Calls one after the other, with what happened to each transfer. -/
def calls (remote : List ℕ) (path name : Name) : List Transfer → Files → Files
  | [], fs => fs
  | t :: ts, fs => calls remote path name ts (getDataFile remote t path name fs).1

open P3.Run (Folder)

/-- `df_psfr.to_csv(path_save + df_name + ".csv")`, psfrRun.py 76, 88-90: the table of one database replaces the
one of the same name. -/
def tableName (date : Name) : Name := "keck_psfr_".toList ++ date ++ ".csv".toList

/-- The folder after a table is saved. -/
def save (f : Folder) (name : Name) (rows : List (String × ℕ)) : Folder := (f.filter fun x => x.1 ≠ name) ++ [(name, rows)]

/-- The loop of `psfr_on_multiple_databases`, psfrRun.py 33-34: `rows date` are the results of one database, or
`none` when `psfr_on_database` raises (psfrRun.py 40-90), which ends the loop. Second component: it went to its end. -/
def saveAll (rows : Name → Option (List (String × ℕ))) : List Name → Folder → Folder × Bool
  | [], f => (f, true)
  | d :: ds, f =>
    match rows d with
    | none => (f, false)
    | some r => saveAll rows ds (save f (tableName d) r)

/-- `psfr_on_multiple_databases`, psfrRun.py 26-38, with `sorted` the rows in the order that `sort_values` gives:
the rows returned (`some none`: no merge was asked) and the folder; `none` in the first component: an exception. -/
def multiple (rows : Name → Option (List (String × ℕ))) (dates : List Name) (mergeDf : Bool)
    (sorted : List (String × ℕ) → List (String × ℕ)) (f : Folder) : Option (Option (List (String × ℕ))) × Folder :=
  match saveAll rows dates f with
  | (g, false) => (none, g)
  | (g, true) =>
    if mergeDf then
      match P3.Run.merge g true (sorted (P3.Run.gathered g)) with
      | none => (none, g)
      | some (l, h) => (some (some l), h)
    else (some none, g)

end P3.Download
