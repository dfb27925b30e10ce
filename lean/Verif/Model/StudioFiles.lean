import Verif.Model.Studio

/-!
What pvtrace studio reads and writes on disk, `/repo/pvtrace/studio/server.py:52-74`, `139-197`, `278-284`.

Simplifications: a path is a string in normal form (no links, no `..`), directories exist, and disks are
neither full nor read-only. `write_text` opens the file, which empties it, and then writes; how many
characters have reached the disk when the process is killed is unknown.
-/

namespace PV.Studio
open PV PV.Doc
variable {α Scene : Type} [Field α] [LinearOrder α] [FloorRing α]

/-- The files by path. -/
abbrev Disk := String → Option String

def Disk.set (d : Disk) (path content : String) : Disk := fun q => if q = path then some content else d q

def Disk.remove (d : Disk) (path : String) : Disk := fun q => if q = path then none else d q

/-- `os.path.join` and `Path / name`. -/
def join (dir file : String) : String :=
  if file.toList.head? = some '/' then file else dir ++ "/" ++ file

/-- The files a scene can name, seen from the directory `parse` works in: the one of the file it reads,
`/repo/pvtrace/cli/parse.py:72-80`, `134`, `231-233`. -/
def seenFrom (d : Disk) (dir : String) : String → Option String := fun f => d (join dir f)

/-- `os.path.basename`. -/
def basename (name : String) : String :=
  String.ofList (name.toList.reverse.takeWhile (· ≠ '/')).reverse

/-- The test of `upload_file`, `/repo/pvtrace/studio/server.py:170`. -/
def dataFile (name : String) : Bool :=
  name ≠ "" && (".csv".toList.isSuffixOf (name.toLower).toList || ".txt".toList.isSuffixOf (name.toLower).toList)

/-- What the server is started with (`/repo/pvtrace/studio/server.py:139-144`): the directory of the
process, the directory and name of the opened document, `yaml.safe_load` with the test for a mapping
(`54-56`), `tempfile.NamedTemporaryFile` (`59-63`), and the parser, which depends on the files it sees. -/
structure App (α Scene : Type) where
  cwd : String
  doc : Option (String × String)
  mapping : String → Except DErr Unit
  temp : Disk → String
  backend : (String → Option String) → Backend α String Scene

/-- The process and the disk. -/
structure Server (Scene : Type) where
  disk : Disk
  st : State String Scene

/-- The document on disk. -/
def App.docPath (A : App α Scene) : Option String := A.doc.map fun d => join d.1 d.2

/-- `Studio.apply`, `/repo/pvtrace/studio/server.py:52-74`: the disks in between, the result and the
exception raised. -/
def App.apply (A : App α Scene) (sv : Server Scene) (text : String) :
    List Disk × Server Scene × Option DErr :=
  match A.mapping text with
  | .error e => ([], sv, some e)
  | .ok _ =>
    let path := join A.cwd (A.temp sv.disk)
    let d := sv.disk.set path text
    let r := Studio.apply (A.backend (seenFrom d A.cwd)) sv.st text
    ([sv.disk.set path "", d], ⟨d.remove path, r.1⟩, r.2)

/-- `Path.write_text`: the disks in between. -/
def writing (d : Disk) (path content : String) : List Disk :=
  (List.range (content.length + 1)).map fun k => d.set path (String.ofList (content.toList.take k))

/-- Requests of the page. -/
inductive FileRequest (α : Type)
  | put (text : String)
  | patch (op : Op α)
  | upload (name content : String)
  | save

/-- `put_document`, `upload_file`, `save_document`, `patch_document`,
`/repo/pvtrace/studio/server.py:154-197`. The answer `some _` has status 422. -/
def App.serve (A : App α Scene) (sv : Server Scene) :
    FileRequest α → List Disk × Server Scene × Option DErr
  | .put text => A.apply sv text
  | .patch op =>
    match patch (A.backend (seenFrom sv.disk A.cwd)) sv.st op with
    | .error e => ([], sv, some e)
    | .ok text => A.apply sv text
  | .upload name content =>
    match A.doc with
    | none => ([], sv, some .value)
    | some (dir, _) =>
      if dataFile (basename name) then
        (writing sv.disk (join dir (basename name)) content,
          { sv with disk := sv.disk.set (join dir (basename name)) content }, none)
      else ([], sv, some .value)
  | .save =>
    match A.doc with
    | none => ([], sv, some .value)
    | some (dir, name) =>
      (writing sv.disk (join dir name) sv.st.document,
        { sv with disk := sv.disk.set (join dir name) sv.st.document }, none)

/-- A sequence of requests. -/
def App.serveAll (A : App α Scene) (sv : Server Scene) : List (FileRequest α) → Server Scene
  | [] => sv
  | r :: rs => A.serveAll (A.serve sv r).2.1 rs

/-- `create_app`, `/repo/pvtrace/studio/server.py:139-144`, `278-284`. An unreadable document is an
exception and there is no server. -/
def App.open (A : App α Scene) (disk : Disk) : Option (Server Scene) :=
  match A.doc with
  | none => some ⟨disk, ⟨"", none⟩⟩
  | some (dir, name) =>
    match disk (join dir name) with
    | none => none
    | some text => some (if text = "" then ⟨disk, ⟨text, none⟩⟩ else (A.apply ⟨disk, ⟨text, none⟩⟩ text).2.1)

/-- Loading the document with `pvtrace-cli` (`parse` of the path, `/repo/pvtrace/cli/parse.py:72-80`). -/
def App.cli (A : App α Scene) (disk : Disk) : Except DErr Scene :=
  match A.doc with
  | none => .error .value
  | some (dir, name) =>
    match disk (join dir name) with
    | none => .error .value
    | some text => (A.backend (seenFrom disk dir)).parse text

end PV.Studio
