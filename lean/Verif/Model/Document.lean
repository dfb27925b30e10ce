import Verif.Model.Recorder

/-!
Scene documents (YAML) as far as recorders go: automatic and declared recorders,
`/repo/pvtrace/cli/parse.py:458-553`.

Simplifications: keys are strings (the schema allows no others), documents are trees (no YAML
aliases), and using a value of the wrong kind is one error `.type` for Python's `TypeError` and
`AttributeError`.
-/

namespace PV.Doc

/-- A loaded YAML value: `num` is a float, `int` an integer. A mapping lists its entries in order. -/
inductive Yaml (α : Type)
  | null
  | bool (b : Bool)
  | num (q : α)
  | int (z : ℤ)
  | str (s : String)
  | seq (items : List (Yaml α))
  | map (entries : List (String × Yaml α))

/-- Exceptions. -/
inductive DErr | key | type | value | index | loop | invalid
deriving DecidableEq, Repr

/-! ### Python dictionaries -/
section
variable {β : Type}

/-- `k in d`. -/
def has (d : List (String × β)) (k : String) : Bool := (d.lookup k).isSome

/-- `d[k] = v`: in place for a known key, at the end otherwise. -/
def dset (d : List (String × β)) (k : String) (v : β) : List (String × β) :=
  if has d k then d.map fun e => if e.1 = k then (e.1, v) else e else d ++ [(k, v)]

/-- `del d[k]` for a known key. -/
def ddel (d : List (String × β)) (k : String) : List (String × β) := d.filter fun e => e.1 ≠ k

/-- `d.setdefault(k, v)` as an update. -/
def dsetdefault (d : List (String × β)) (k : String) (v : β) : List (String × β) :=
  if has d k then d else d ++ [(k, v)]

/-- `d[k]`. -/
def dget (d : List (String × β)) (k : String) : Except DErr β :=
  match d.lookup k with
  | some v => .ok v
  | none => .error .key

end

namespace Yaml
variable {α : Type}

/-- Use as a dictionary. -/
def dict : Yaml α → Except DErr (List (String × Yaml α))
  | .map e => .ok e
  | _ => .error .type

/-- Use as a list. -/
def list : Yaml α → Except DErr (List (Yaml α))
  | .seq l => .ok l
  | _ => .error .type

/-- Use as a number. -/
def number [IntCast α] : Yaml α → Except DErr α
  | .num q => .ok q
  | .int z => .ok z
  | _ => .error .type

/-- Use as a string. -/
def string : Yaml α → Except DErr String
  | .str s => .ok s
  | _ => .error .type

end Yaml

variable {α : Type} [Field α] [LinearOrder α] [FloorRing α]

/-- Truth of a value, `bool(v)`. -/
def truth : Yaml α → Bool
  | .null => false
  | .bool b => b
  | .num q => q ≠ 0
  | .int z => z ≠ 0
  | .str s => s ≠ ""
  | .seq l => ¬ l.isEmpty
  | .map e => ¬ e.isEmpty

/-- `v.get(key)` of a dictionary `v`: `none` for a missing key. -/
def getIn (v : Yaml α) (key : String) : Except DErr (Option (Yaml α)) :=
  match v.dict with
  | .error e => .error e
  | .ok d => .ok (d.lookup key)

/-! ### Automatic recorders -/

/-- The faces, `/repo/pvtrace/cli/parse.py:491-495` (also `/repo/pvtrace/studio/server.py:376-380`). -/
def faces : List (String × (ℤ × ℤ × ℤ)) :=
  [("top", (0, 0, 1)), ("bottom", (0, 0, -1)), ("east", (1, 0, 0)), ("west", (-1, 0, 0)),
   ("north", (0, 1, 0)), ("south", (0, -1, 0))]

/-- The two axes in the face: those left by `axis`, `/repo/pvtrace/cli/parse.py:497-498`. -/
def faceAxes (facet : ℤ × ℤ × ℤ) : ℕ × ℕ :=
  let axis := if facet.1 ≠ 0 then 0 else if facet.2.1 ≠ 0 then 1 else 2
  if axis = 0 then (1, 2) else if axis = 1 then (0, 2) else (0, 1)

/-- `axes[i]` of `"xyz"`. -/
def axisName : ℕ → String
  | 0 => "x"
  | 1 => "y"
  | _ => "z"

/-- `max(10, min(60, int(s * 10)))`, `/repo/pvtrace/cli/parse.py:499-500`. -/
def faceBins (s : α) : ℤ := max 10 (min 60 (truncZ (s * 10)))

/-- A list of numbers. -/
def nums (l : List α) : Yaml α := .seq (l.map .num)

/-- `[float(v) for v in items]`. -/
def floats : List (Yaml α) → Except DErr (List α)
  | [] => .ok []
  | v :: vs =>
    match v.number with
    | .error e => .error e
    | .ok q =>
      match floats vs with
      | .error e => .error e
      | .ok qs => .ok (q :: qs)

/-- `size[i]` for the two axes of a face; `none` is `IndexError`. -/
def pairAt (size : List α) (uv : ℕ × ℕ) : Option (α × α) :=
  match size[uv.1]?, size[uv.2]? with
  | some a, some b => some (a, b)
  | _, _ => none

def wavelengthSpec : Yaml α := nums [300, 1000, 100]
def angleSpec : Yaml α := nums [0, 1.5708, 18]

/-- The recorder of one face, `/repo/pvtrace/cli/parse.py:496-514`. -/
def faceRecorder (node : String) (size : List α) (f : String × (ℤ × ℤ × ℤ)) :
    Except DErr (String × Yaml α) :=
  let (u, v) := faceAxes f.2
  match pairAt size (u, v) with
  | none => .error .index
  | some (su, sv) =>
    .ok (node ++ "-" ++ f.1, .map [
      ("node", .str node),
      ("event", .str "escaping"),
      ("facet", nums [(f.2.1 : α), (f.2.2.1 : α), (f.2.2.2 : α)]),
      ("histograms", .map [
        ("wavelength", wavelengthSpec),
        ("angle", angleSpec),
        ("position", .seq [.str (axisName u), .str (axisName v),
          nums [-(su / 2), su / 2, (faceBins su : α)],
          nums [-(sv / 2), sv / 2, (faceBins sv : α)]])])])

/-- The loop over the faces. -/
def faceRecorders (node : String) (size : List α) :
    List (String × (ℤ × ℤ × ℤ)) → Except DErr (List (String × Yaml α))
  | [] => .ok []
  | f :: fs =>
    match faceRecorder node size f with
    | .error e => .error e
    | .ok r =>
      match faceRecorders node size fs with
      | .error e => .error e
      | .ok rs => .ok (r :: rs)

/-- The `-lost` recorder, `/repo/pvtrace/cli/parse.py:480-486`. -/
def lostRecorder (node : String) : String × Yaml α :=
  (node ++ "-" ++ "lost", .map [("node", .str node), ("event", .str "lost"),
    ("histograms", .map [("wavelength", wavelengthSpec)])])

/-- The `-escaping` recorder, `/repo/pvtrace/cli/parse.py:515-524`. -/
def escapingRecorder (node : String) : String × Yaml α :=
  (node ++ "-" ++ "escaping", .map [("node", .str node), ("event", .str "escaping"),
    ("histograms", .map [("wavelength", wavelengthSpec), ("angle", angleSpec)])])

/-- `auto_recorders`, `/repo/pvtrace/cli/parse.py:469-525`. -/
def autoRecorders (node : String) (spec : List (String × Yaml α)) :
    Except DErr (List (String × Yaml α)) :=
  match spec.lookup "box" with
  | some box =>
    match getIn box "size" with
    | .error e => .error e
    | .ok none => .error .key
    | .ok (some s) =>
      match s.list with
      | .error e => .error e
      | .ok l =>
        match floats l with
        | .error e => .error e
        | .ok size =>
          match faceRecorders node size faces with
          | .error e => .error e
          | .ok rs => .ok (lostRecorder node :: rs)
  | none => .ok [lostRecorder node, escapingRecorder node]

/-- The recorders of one node added to the dictionary, `/repo/pvtrace/cli/parse.py:461-462`. -/
def addDefaults (recs : List (String × Yaml α)) : List (String × Yaml α) → List (String × Yaml α)
  | [] => recs
  | r :: rs => addDefaults (dsetdefault recs r.1 r.2) rs

/-- The loop over nodes, `/repo/pvtrace/cli/parse.py:459-462`. -/
def withAuto (recs : List (String × Yaml α)) :
    List (String × Yaml α) → Except DErr (List (String × Yaml α))
  | [] => .ok recs
  | (node, spec) :: rest =>
    match spec.dict with
    | .error e => .error e
    | .ok d =>
      if truth ((d.lookup "record").getD .null) then
        match autoRecorders node d with
        | .error e => .error e
        | .ok rs => withAuto (addDefaults recs rs) rest
      else withAuto recs rest

/-! ### Declared recorders -/

/-- `EVENTS`. -/
def eventOf : String → Option Selector
  | "entering" => some .entering
  | "escaping" => some .escaping
  | "reflected" => some .reflected
  | "lost" => some .lost
  | "reacted" => some .reacted
  | "killed" => some .killed
  | "exit" => some .exit
  | _ => none

/-- `PROPERTIES`. -/
def propOf : String → Option RayProp
  | "wavelength" => some .wavelength
  | "angle" => some .angle
  | "duration" => some .duration
  | "pathlength" => some .pathlength
  | "x" => some .x
  | "y" => some .y
  | "z" => some .z
  | _ => none

/-- `start, stop, bins = values; Histogram(prop, start, stop, bins)`,
`/repo/pvtrace/cli/parse.py:542-543`, `/repo/pvtrace/engine/recorder.py:59-69`. -/
def parseAxis (prop : String) (values : Yaml α) : Except DErr (Axis α) :=
  match values.list with
  | .error e => .error e
  | .ok l =>
    match floats l with
    | .error e => .error e
    | .ok [start, stop, bins] =>
      match propOf prop with
      | none => .error .value
      | some p =>
        if ¬ start < stop then .error .value
        else if bins < 1 then .error .value
        else .ok ⟨p, start, stop, (truncZ bins).toNat⟩
    | .ok _ => .error .value

/-- One entry of `histograms`, `/repo/pvtrace/cli/parse.py:537-543`. -/
def parseHist (prop : String) (values : Yaml α) : Except DErr (Hist α) :=
  if prop = "position" then
    match values.list with
    | .error e => .error e
    | .ok [a, b, ra, rb] =>
      match a.string with
      | .error e => .error e
      | .ok a =>
        match b.string with
        | .error e => .error e
        | .ok b =>
          match parseAxis a ra with
          | .error e => .error e
          | .ok x =>
            match parseAxis b rb with
            | .error e => .error e
            | .ok y => .ok (.heat x y)
    | .ok _ => .error .value
  else
    match parseAxis prop values with
    | .error e => .error e
    | .ok x => .ok (.one x)

/-- The loop over `histograms`. -/
def parseHists : List (String × Yaml α) → Except DErr (List (Hist α))
  | [] => .ok []
  | (p, v) :: rest =>
    match parseHist p v with
    | .error e => .error e
    | .ok h =>
      match parseHists rest with
      | .error e => .error e
      | .ok hs => .ok (h :: hs)

/-- `spec.get("histograms") or {}`. -/
def histEntries (d : List (String × Yaml α)) : Except DErr (List (String × Yaml α)) :=
  match d.lookup "histograms" with
  | none => .ok []
  | some v => if truth v then v.dict else .ok []

/-- `facet=spec.get("facet")`: three numbers; other lengths are not modelled (the schema demands
three) and give `.value`. -/
def parseFacet (d : List (String × Yaml α)) : Except DErr (Option (Vec3 α)) :=
  match d.lookup "facet" with
  | none | some .null => .ok none
  | some v =>
    match v.list with
    | .error e => .error e
    | .ok l =>
      match floats l with
      | .error e => .error e
      | .ok [x, y, z] => .ok (some ⟨x, y, z⟩)
      | .ok _ => .error .value

/-- `atol=spec.get("atol", 1e-6)`. -/
def parseAtol (d : List (String × Yaml α)) : Except DErr α :=
  match d.lookup "atol" with
  | none => .ok 1e-6
  | some v => v.number

/-- One recorder: the node it is attached to and the recorder, `/repo/pvtrace/cli/parse.py:533-551`. -/
def parseRecorder (nodes : List String) (name : String) (spec : Yaml α) :
    Except DErr (String × Recorder α) :=
  match spec.dict with
  | .error e => .error e
  | .ok d =>
    match dget d "node" with
    | .error e => .error e
    | .ok n =>
      match n.string with
      | .error e => .error e
      | .ok node =>
        if node ∉ nodes then .error .value
        else
          match histEntries d with
          | .error e => .error e
          | .ok entries =>
            match parseHists entries with
            | .error e => .error e
            | .ok hists =>
              match dget d "event" with
              | .error e => .error e
              | .ok ev =>
                match ev.string with
                | .error e => .error e
                | .ok ev =>
                  match parseFacet d with
                  | .error e => .error e
                  | .ok facet =>
                    match parseAtol d with
                    | .error e => .error e
                    | .ok atol =>
                      match eventOf ev with
                      | none => .error .value
                      | some event => .ok (node, ⟨name, event, facet, atol, hists⟩)

/-- `parse_recorders`, `/repo/pvtrace/cli/parse.py:528-551`: the recorders in the order they are
attached, with their nodes. -/
def parseRecorders (nodes : List String) :
    List (String × Yaml α) → Except DErr (List (String × Recorder α))
  | [] => .ok []
  | (name, spec) :: rest =>
    match parseRecorder nodes name spec with
    | .error e => .error e
    | .ok r =>
      match parseRecorders nodes rest with
      | .error e => .error e
      | .ok rs => .ok (r :: rs)

/-- The recorders of a document, `/repo/pvtrace/cli/parse.py:458-463`. -/
def sceneRecorders (doc : List (String × Yaml α)) : Except DErr (List (String × Recorder α)) :=
  match doc.lookup "nodes" with
  | none => .error .key
  | some nodes =>
    match nodes.dict with
    | .error e => .error e
    | .ok nodes =>
      match (match doc.lookup "recorders" with
        | none => Except.ok []
        | some v => if truth v then v.dict else .ok []) with
      | .error e => .error e
      | .ok declared =>
        match withAuto declared nodes with
        | .error e => .error e
        | .ok recs => parseRecorders (nodes.map (·.1)) recs

end PV.Doc
