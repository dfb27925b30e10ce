import Verif.Model.Document

/-!
pvtrace studio, `/repo/pvtrace/studio/server.py`: the edited document, structured edits (`_patch`) and
the requests of the web page.

Simplifications: see `Verif.Model.Document`; flow style of lists is layout and is dropped; `set` follows
mappings only (a path through a list is an error here).
-/

namespace PV.Studio
open PV PV.Doc
variable {α : Type} [Field α] [LinearOrder α] [FloorRing α]

/-- The loop of `_unique_name`, `/repo/pvtrace/studio/server.py:312-316`, with fuel;
`PV.Studio.unique_fresh` shows that the fuel given below suffices. -/
def uniqueFrom {β : Type} (existing : List (String × β)) (stem : String) : ℕ → ℕ → String
  | 0, i => stem ++ "-" ++ Nat.repr i
  | fuel + 1, i =>
    if has existing (stem ++ "-" ++ Nat.repr i) then uniqueFrom existing stem fuel (i + 1)
    else stem ++ "-" ++ Nat.repr i

/-- `_unique_name`, `/repo/pvtrace/studio/server.py:312-316`. -/
def uniqueName {β : Type} (existing : List (String × β)) (stem : String) : String :=
  uniqueFrom existing stem existing.length 1

/-- `SNIPPETS`, `/repo/pvtrace/studio/server.py:288-302`. -/
def snippet : String → Option (Yaml α)
  | "box" => some (.map [("location", nums [0, 0, 0]),
      ("box", .map [("size", nums [1, 1, 1]), ("material", .map [("refractive-index", .num 1.5)])])])
  | "sphere" => some (.map [("location", nums [0, 0, 0]),
      ("sphere", .map [("radius", .num 0.5), ("material", .map [("refractive-index", .num 1.5)])])])
  | "cylinder" => some (.map [("location", nums [0, 0, 0]),
      ("cylinder", .map [("length", .num 1), ("radius", .num 0.5),
        ("material", .map [("refractive-index", .num 1.5)])])])
  | "light" => some (.map [("location", nums [0, 0, 2]), ("direction", nums [0, 0, -1]),
      ("light", .map [("wavelength", .num 555),
        ("mask", .map [("direction", .map [("cone", .map [("half-angle", .num 20)])])])])])
  | _ => none

/-- What the server calls and holds but does not implement itself: reading and writing YAML, `parse`
with `compile_scene` (`/repo/pvtrace/studio/server.py:53-69`), the payload for the page (`76-137`), the
local position for a moved node (`345-359`, rounded), and the recorders of a scene in pre-order. -/
structure Backend (α Text Scene : Type) where
  load : Text → Except DErr (List (String × Yaml α))
  dump : List (String × Yaml α) → Text
  parse : Text → Except DErr Scene
  payload : Scene → Except DErr Unit
  localOf : Scene → String → Vec3 α → Except DErr (List α)
  recorders : Scene → List (String × Recorder α)

/-- `Studio`, `/repo/pvtrace/studio/server.py:44-50`. -/
structure State (Text Scene : Type) where
  document : Text
  scene : Option Scene := none

/-- Requests to `/api/patch`, `/repo/pvtrace/studio/server.py:330-472`. -/
inductive Op (α : Type)
  | set (path : List String) (value : Yaml α)
  | move (node : String) (world : Vec3 α)
  | addNode (kind : String)
  | addRecorder (node : String)
  | addFaceRecorders (node : String)
  | addComponent
  | deleteComponent (name : String)
  | updateRecorder (name : String) (changes : List (String × Yaml α))
  | deleteRecorder (name : String)
  | deleteNode (name : String)
  | unknown

/-- `set`, `/repo/pvtrace/studio/server.py:336-343`. -/
def setPath (value : Yaml α) : List String → Yaml α → Except DErr (Yaml α)
  | [], _ => .error .index
  | [k], .map d => .ok (.map (dset d k value))
  | k :: rest, .map d =>
    match setPath value rest ((d.lookup k).getD (.map [])) with
    | .error e => .error e
    | .ok c => .ok (.map (dset d k c))
  | _, _ => .error .type

/-- `data[key]` as a dictionary. -/
def section? (data : List (String × Yaml α)) (key : String) : Except DErr (List (String × Yaml α)) :=
  match dget data key with
  | .error e => .error e
  | .ok v => v.dict

/-- `data.setdefault(key, {})` as a dictionary. -/
def sectionD (data : List (String × Yaml α)) (key : String) : Except DErr (List (String × Yaml α)) :=
  match data.lookup key with
  | none => .ok []
  | some v => v.dict

/-- The entry of `add-recorder`, `/repo/pvtrace/studio/server.py:375-380`. -/
def escapingEntry (node : String) : Yaml α :=
  .map [("node", .str node), ("event", .str "escaping"),
    ("histograms", .map [("wavelength", nums [400, 900, 80])])]

/-- The entry of `add-face-recorders`, `/repo/pvtrace/studio/server.py:397-416`. -/
def faceEntry (node : String) (size : List α) (f : String × (ℤ × ℤ × ℤ)) :
    Except DErr (Yaml α) :=
  let (u, v) := faceAxes f.2
  match pairAt size (u, v) with
  | none => .error .index
  | some (su, sv) =>
    .ok (.map [
      ("node", .str node),
      ("event", .str "escaping"),
      ("facet", nums [(f.2.1 : α), (f.2.2.1 : α), (f.2.2.2 : α)]),
      ("histograms", .map [
        ("position", .seq [.str (axisName u), .str (axisName v),
          nums [-(su / 2), su / 2, (faceBins su : α)],
          nums [-(sv / 2), sv / 2, (faceBins sv : α)]])])])

/-- The loop of `add-face-recorders`, `/repo/pvtrace/studio/server.py:393-416`. -/
def addFaces (node : String) (size : List α) : List (String × (ℤ × ℤ × ℤ)) →
    List (String × Yaml α) → Except DErr (List (String × Yaml α))
  | [], recs => .ok recs
  | f :: fs, recs =>
    if has recs (node ++ "-" ++ f.1) then addFaces node size fs recs
    else
      match faceEntry node size f with
      | .error e => .error e
      | .ok v => addFaces node size fs (dset recs (node ++ "-" ++ f.1) v)

/-- The value is the string `name`. -/
def isName (name : String) : Yaml α → Bool
  | .str s => s = name
  | _ => false

/-- `material["components"] = [c for c in material["components"] if c != name]` when `name` occurs,
`/repo/pvtrace/studio/server.py:429-433`. -/
def scrubMaterial (name : String) (material : List (String × Yaml α)) :
    Except DErr (List (String × Yaml α)) :=
  match material.lookup "components" with
  | none => .ok material
  | some v =>
    if truth v then
      match v.list with
      | .error e => .error e
      | .ok l =>
        if l.any (isName name) then
          .ok (dset material "components" (.seq (l.filter fun c => ¬ isName name c)))
        else .ok material
    else .ok material

/-- One geometry key of one node, `/repo/pvtrace/studio/server.py:428-433`; the edit is in place. -/
def scrubGeom (name geom : String) (node : List (String × Yaml α)) :
    Except DErr (List (String × Yaml α)) :=
  match node.lookup geom with
  | none => .ok node
  | some g =>
    match g.dict with
    | .error e => .error e
    | .ok gd =>
      match gd.lookup "material" with
      | none => .ok node
      | some m =>
        match m.dict with
        | .error e => .error e
        | .ok md =>
          match scrubMaterial name md with
          | .error e => .error e
          | .ok md' => .ok (dset node geom (.map (dset gd "material" (.map md'))))

/-- The loop over geometry keys. -/
def scrubGeoms (name : String) : List String → List (String × Yaml α) →
    Except DErr (List (String × Yaml α))
  | [], node => .ok node
  | g :: gs, node =>
    match scrubGeom name g node with
    | .error e => .error e
    | .ok node => scrubGeoms name gs node

/-- `("box", "sphere", "cylinder", "mesh")`. -/
def geomKeys : List String := ["box", "sphere", "cylinder", "mesh"]

/-- The loop over nodes, `/repo/pvtrace/studio/server.py:427-433`. -/
def scrubNodes (name : String) : List (String × Yaml α) → Except DErr (List (String × Yaml α))
  | [] => .ok []
  | (n, spec) :: rest =>
    match spec.dict with
    | .error e => .error e
    | .ok d =>
      match scrubGeoms name geomKeys d with
      | .error e => .error e
      | .ok d' =>
        match scrubNodes name rest with
        | .error e => .error e
        | .ok rest' => .ok ((n, .map d') :: rest')

/-- Names of events and properties. -/
def eventName : Selector → String
  | .entering => "entering"
  | .escaping => "escaping"
  | .reflected => "reflected"
  | .lost => "lost"
  | .reacted => "reacted"
  | .killed => "killed"
  | .exit => "exit"

def propName : RayProp → String
  | .wavelength => "wavelength"
  | .angle => "angle"
  | .duration => "duration"
  | .pathlength => "pathlength"
  | .x => "x"
  | .y => "y"
  | .z => "z"

/-- One histogram of `_recorder_to_spec`, `/repo/pvtrace/studio/server.py:484-493`. -/
def histEntry : Hist α → String × Yaml α
  | .one a => (propName a.prop, nums [a.start, a.stop, (a.bins : α)])
  | .heat a b => ("position", .seq [.str (propName a.prop), .str (propName b.prop),
      nums [a.start, a.stop, (a.bins : α)], nums [b.start, b.stop, (b.bins : α)]])

/-- The `histograms` dictionary of `_recorder_to_spec`. -/
def histDict : List (Hist α) → List (String × Yaml α) → List (String × Yaml α)
  | [], d => d
  | h :: hs, d => histDict hs (dset d (histEntry h).1 (histEntry h).2)

/-- `_recorder_to_spec` for a recorder found, `/repo/pvtrace/studio/server.py:483-498`. -/
def recSpec (node : String) (r : Recorder α) : Yaml α :=
  .map ([("node", .str node), ("event", .str (eventName r.event))] ++
    (match r.facet with
      | some f => [("facet", nums [f.x, f.y, f.z])]
      | none => []) ++
    [("histograms", .map (histDict r.hists []))])

/-- `_recorder_to_spec`, `/repo/pvtrace/studio/server.py:474-499`. -/
def recorderToSpec (recs : List (String × Recorder α)) (name : String) : Except DErr (Yaml α) :=
  match recs.find? (fun r => r.2.name = name) with
  | some r => .ok (recSpec r.1 r.2)
  | none => .error .value

/-- `for key, value in changes.items()`, `/repo/pvtrace/studio/server.py:442-445`. -/
def applyChanges : List (String × Yaml α) → List (String × Yaml α) → Except DErr (List (String × Yaml α))
  | [], d => .ok d
  | (k, v) :: rest, d =>
    if k ∉ ["event", "facet", "atol"] then .error .value else applyChanges rest (dset d k v)

/-- The loop of `delete-node` over recorders, `/repo/pvtrace/studio/server.py:462-464`. -/
def dropRecorders (node : String) : List (String × Yaml α) → Except DErr (List (String × Yaml α))
  | [] => .ok []
  | (n, spec) :: rest =>
    match spec.dict with
    | .error e => .error e
    | .ok d =>
      match dropRecorders node rest with
      | .error e => .error e
      | .ok rest' =>
        if ((d.lookup "node").map (isName node)).getD false then .ok rest' else .ok ((n, spec) :: rest')

variable {Text Scene : Type}

/-- The entry of a recorder, made from the scene if it is not declared,
`/repo/pvtrace/studio/server.py:438-441`. -/
def specFor (B : Backend α Text Scene) (scene : Option Scene) (recs : List (String × Yaml α))
    (name : String) : Except DErr (Yaml α) :=
  match recs.lookup name with
  | some v => .ok v
  | none =>
    match scene with
    | none => .error .type
    | some sc => recorderToSpec (B.recorders sc) name

/-- `_patch` on loaded data, `/repo/pvtrace/studio/server.py:333-467`. -/
def edit (B : Backend α Text Scene) (scene : Option Scene) (data : List (String × Yaml α)) :
    Op α → Except DErr (List (String × Yaml α))
  | .set path value =>
    match setPath value path (.map data) with
    | .error e => .error e
    | .ok v => v.dict
  | .move node world =>
    match scene with
    | none => .error .type
    | some sc =>
      match B.localOf sc node world with
      | .error e => .error e
      | .ok loc =>
        match section? data "nodes" with
        | .error e => .error e
        | .ok nodes =>
          match dget nodes node with
          | .error e => .error e
          | .ok spec =>
            match spec.dict with
            | .error e => .error e
            | .ok d => .ok (dset data "nodes" (.map (dset nodes node (.map (dset d "location" (nums loc))))))
  | .addNode kind =>
    match snippet kind with
    | none => .error .value
    | some s =>
      match section? data "nodes" with
      | .error e => .error e
      | .ok nodes => .ok (dset data "nodes" (.map (dset nodes (uniqueName nodes kind) s)))
  | .addRecorder node =>
    match sectionD data "nodes" with
    | .error e => .error e
    | .ok nodes =>
      if ¬ has nodes node then .error .value
      else
        match sectionD data "recorders" with
        | .error e => .error e
        | .ok recs => .ok (dset data "recorders" (.map
            (dset recs (uniqueName recs (node ++ "-escaping")) (escapingEntry node))))
  | .addFaceRecorders node =>
    match sectionD data "nodes" with
    | .error e => .error e
    | .ok nodes =>
      match nodes.lookup node with
      | none => .error .value
      | some spec =>
        if ¬ truth spec then .error .value
        else
          match spec.dict with
          | .error e => .error e
          | .ok d =>
            match d.lookup "box" with
            | none => .error .value
            | some box =>
              match getIn box "size" with
              | .error e => .error e
              | .ok none => .error .key
              | .ok (some s) =>
                match s.list with
                | .error e => .error e
                | .ok l =>
                  match floats l with
                  | .error e => .error e
                  | .ok size =>
                    match sectionD data "recorders" with
                    | .error e => .error e
                    | .ok recs =>
                      match addFaces node size faces recs with
                      | .error e => .error e
                      | .ok recs => .ok (dset data "recorders" (.map recs))
  | .addComponent =>
    match sectionD data "components" with
    | .error e => .error e
    | .ok comps => .ok (dset data "components" (.map (dset comps (uniqueName comps "absorber")
        (.map [("absorber", .map [("coefficient", .num 1)])]))))
  | .deleteComponent name =>
    match section? data "components" with
    | .error e => .error e
    | .ok comps =>
      if ¬ has comps name then .error .key
      else
        match sectionD data "nodes" with
        | .error e => .error e
        | .ok nodes =>
          match scrubNodes name nodes with
          | .error e => .error e
          | .ok nodes' =>
            let data := dset data "components" (.map (ddel comps name))
            .ok (if has data "nodes" then dset data "nodes" (.map nodes') else data)
  | .updateRecorder name changes =>
    match sectionD data "recorders" with
    | .error e => .error e
    | .ok recs =>
      match specFor B scene recs name with
      | .error e => .error e
      | .ok v =>
        if changes.isEmpty then .ok (dset data "recorders" (.map (dset recs name v)))
        else
          match v.dict with
          | .error e => .error e
          | .ok d =>
            match applyChanges changes d with
            | .error e => .error e
            | .ok d => .ok (dset data "recorders" (.map (dset recs name (.map d))))
  | .deleteRecorder name =>
    match sectionD data "recorders" with
    | .error e => .error e
    | .ok recs =>
      if has recs name then .ok (dset data "recorders" (.map (ddel recs name))) else .error .value
  | .deleteNode name =>
    match section? data "nodes" with
    | .error e => .error e
    | .ok nodes =>
      if ¬ has nodes name then .error .key
      else
        let data := dset data "nodes" (.map (ddel nodes name))
        match data.lookup "recorders" with
        | none => .ok data
        | some v =>
          if truth v then
            match v.dict with
            | .error e => .error e
            | .ok recs =>
              match dropRecorders name recs with
              | .error e => .error e
              | .ok recs => .ok (dset data "recorders" (.map recs))
          else .ok data
  | .unknown => .error .value

/-- `_patch`, `/repo/pvtrace/studio/server.py:330-471`. -/
def patch (B : Backend α Text Scene) (st : State Text Scene) (op : Op α) : Except DErr Text :=
  match B.load st.document with
  | .error e => .error e
  | .ok data =>
    match edit B st.scene data op with
    | .error e => .error e
    | .ok data => .ok (B.dump data)

/-- `Studio.apply`, `/repo/pvtrace/studio/server.py:52-74`: the new state and the exception raised. -/
def apply (B : Backend α Text Scene) (st : State Text Scene) (text : Text) :
    State Text Scene × Option DErr :=
  match B.parse text with
  | .error e => (st, some e)
  | .ok scene =>
    match B.payload scene with
    | .error e => (⟨text, some scene⟩, some e)
    | .ok _ => (⟨text, some scene⟩, none)

/-- Requests of the page that change the document. -/
inductive Request (α Text : Type)
  | put (text : Text)
  | patch (op : Op α)

/-- `put_document` and `patch_document`, `/repo/pvtrace/studio/server.py:155-161`, `183-197`. -/
def handle (B : Backend α Text Scene) (st : State Text Scene) :
    Request α Text → State Text Scene × Option DErr
  | .put text => apply B st text
  | .patch op =>
    match patch B st op with
    | .error e => (st, some e)
    | .ok text => apply B st text

/-- A sequence of requests. -/
def handleAll (B : Backend α Text Scene) (st : State Text Scene) :
    List (Request α Text) → State Text Scene
  | [] => st
  | r :: rs => handleAll B (handle B st r).1 rs

/-- `create_app` with a document, `/repo/pvtrace/studio/server.py:139-144`, `278-283`. -/
def start (B : Backend α Text Scene) (text : Text) : State Text Scene :=
  (apply B ⟨text, none⟩ text).1

end PV.Studio
