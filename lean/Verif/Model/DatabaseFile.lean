import Verif.Model.DatabaseRun

/-!
Which files `pvtrace simulate` reads, removes and writes, `/repo/pvtrace/cli/main.py:30-37`, `165-209`.

A path is a list of characters. `typer` resolves the argument (`resolve_path=True`), so that the path of the
scene is absolute and in normal form. `splitext` and `abspath` are those of `posixpath` in Python's
library. Simplifications: disks are neither full nor read-only, and nobody else writes to them.
-/

namespace PV.Database
variable {α π σ ε : Type}

/-- Index of the last `c`, if there is one: `str.rfind`. -/
def rfind (c : Char) : List Char → Option ℕ
  | [] => none
  | x :: xs =>
    match rfind c xs with
    | some i => some (i + 1)
    | none => if x = c then some 0 else none

/-- `os.path.splitext` as `/repo/pvtrace/cli/main.py:201` uses it: the last dot of the last component
separates the extension, unless only dots come before it. -/
def splitext (p : List Char) : List Char × List Char :=
  let name := match rfind '/' p with
    | some i => i + 1
    | none => 0
  match rfind '.' p with
  | none => (p, [])
  | some dot =>
    if name ≤ dot ∧ ∃ x ∈ (p.take dot).drop name, x ≠ '.' then (p.take dot, p.drop dot) else (p, [])

/-- `path.split("/")`. -/
def pieces : List Char → List (List Char)
  | [] => [[]]
  | c :: cs =>
    if c = '/' then [] :: pieces cs
    else
      match pieces cs with
      | [] => [[c]]
      | w :: ws => (c :: w) :: ws

/-- The loop of `posixpath.normpath` over the components of an absolute path; `done` in reverse order. -/
def normalise (done : List (List Char)) : List (List Char) → List (List Char)
  | [] => done.reverse
  | c :: cs =>
    if c = [] ∨ c = ['.'] then normalise done cs
    else if c = ['.', '.'] then normalise done.tail cs
    else normalise (c :: done) cs

/-- The path with the given components. -/
def pathOf (comps : List (List Char)) : List Char := comps.flatMap fun c => '/' :: c

/-- `os.path.abspath` of an absolute path, `/repo/pvtrace/cli/main.py:201`. -/
def abspath (p : List Char) : List Char :=
  match normalise [] (pieces p) with
  | [] => ['/']
  | comps => pathOf comps

/-- `dbfilepath`, `/repo/pvtrace/cli/main.py:199-201`. -/
def dbfilepath (scene : List Char) : List Char := abspath (splitext scene).1 ++ ".sqlite3".toList

/-- What a file holds. -/
inductive File (α : Type)
  | text (s : String)
  | database (db : Db α)

/-- The files by path. -/
abbrev Disk (α : Type) := List Char → Option (File α)

def Disk.set (d : Disk α) (path : List Char) (f : Option (File α)) : Disk α :=
  fun q => if q = path then f else d q

/-- `/repo/pvtrace/cli/main.py:196-209`: `parsed` is the outcome of `parse`, which only reads; `answer`
what the user replies. Returns the disks in between and the one the tracing starts with, or the reason
for ending the command. -/
def commence (parsed : Except ε σ) (disk : Disk α) (scene : List Char) (overwrite answer : Bool) :
    List (Disk α) × Except (StartErr ε) (σ × Disk α) :=
  match parsed with
  | .error e => ([], .error (.parse e))
  | .ok s =>
    let path := dbfilepath scene
    match disk path with
    | none => ([], .ok (s, disk.set path (some (.database ⟨[], []⟩))))
    | some _ =>
      if overwrite || answer then
        ([disk.set path none], .ok (s, (disk.set path none).set path (some (.database ⟨[], []⟩))))
      else ([], .error .aborted)

/-- The disk while the command is in state `r`: `sqlite3` keeps the rows in the file,
`/repo/pvtrace/cli/main.py:96`, `162`. (Its journal beside the file while a transaction is open is left
out.) -/
def Cli.files (disk : Disk α) (scene : List Char) (r : Cli α π) : Disk α :=
  disk.set (dbfilepath scene) (some (.database r.disk))

end PV.Database
