import Verif.Model.SceneFile

/-!
The recorders in the description of the scene sent to the studio's page
(`/repo/pvtrace/studio/server.py:102-136`), and the buttons the page shows for one of them
(`/repo/pvtrace/studio/static/app.js:823-863`).
-/

namespace PV.View
open PV PV.Doc
variable {α : Type} [Field α] [LinearOrder α] [FloorRing α]

/-- One entry of `histograms`, `/repo/pvtrace/studio/server.py:112-125`: the kind, the properties and
`[start, stop, bins]` of each axis. -/
structure HistEntry (α : Type) where
  kind : String
  axes : List (RayProp × α × α × ℕ)

/-- One entry of `recorders`, `/repo/pvtrace/studio/server.py:126-134`. -/
structure RecorderEntry (α : Type) where
  name : String
  node : String
  event : Selector
  facet : Option (Vec3 α)
  histograms : List (HistEntry α)
  auto : Bool

/-- `/repo/pvtrace/studio/server.py:113-125`. -/
def histEntry : Hist α → HistEntry α
  | .heat a b => ⟨"heatmap", [(a.prop, a.start, a.stop, a.bins), (b.prop, b.start, b.stop, b.bins)]⟩
  | .one a => ⟨"hist", [(a.prop, a.start, a.stop, a.bins)]⟩

/-- `auto_names`, `/repo/pvtrace/studio/server.py:104-109`. -/
def autoNames (specs : List (String × Yaml α)) (node : String) : Except DErr (List String) :=
  match ((specs.lookup node).getD (.map [])).dict with
  | .error e => .error e
  | .ok d =>
    if truth ((d.lookup "record").getD .null) then
      match autoRecorders node d with
      | .error e => .error e
      | .ok rs => .ok (rs.map (·.1))
    else .ok []

/-- `explicit`, `/repo/pvtrace/studio/server.py:110`. -/
def explicit (doc : List (String × Yaml α)) : Except DErr (List String) :=
  match doc.lookup "recorders" with
  | none => .ok []
  | some v =>
    if truth v then
      match v.dict with
      | .error e => .error e
      | .ok d => .ok (d.map (·.1))
    else .ok []

/-- The recorders of one node, `/repo/pvtrace/studio/server.py:111-134`. -/
def nodeRecorders (doc specs : List (String × Yaml α)) (s : SceneDef α) (node : String) :
    Except DErr (List (RecorderEntry α)) :=
  match autoNames specs node with
  | .error e => .error e
  | .ok auto =>
    match explicit doc with
    | .error e => .error e
    | .ok declared => .ok ((s.recorders.filter fun r => r.1 = node).map fun r =>
        ⟨r.2.name, node, r.2.event, r.2.facet, r.2.hists.map histEntry,
          decide (r.2.name ∈ auto) && decide (r.2.name ∉ declared)⟩)

/-- The loop over the tree, `/repo/pvtrace/studio/server.py:102-134`. -/
def listRecorders (doc specs : List (String × Yaml α)) (s : SceneDef α) :
    List String → Except DErr (List (RecorderEntry α))
  | [] => .ok []
  | node :: rest =>
    match nodeRecorders doc specs s node with
    | .error e => .error e
    | .ok es =>
      match listRecorders doc specs s rest with
      | .error e => .error e
      | .ok es' => .ok (es ++ es')

/-- `recorders` of the payload, `/repo/pvtrace/studio/server.py:80,102-136`. -/
def payloadRecorders (doc : List (String × Yaml α)) (s : SceneDef α) : Except DErr (List (RecorderEntry α)) :=
  match ((doc.lookup "nodes").getD (.map [])).dict with
  | .error e => .error e
  | .ok specs => listRecorders doc specs s s.visited

/-- `(lastScene.recorders).find(r => r.name === name)`, `/repo/pvtrace/studio/static/app.js:824`. -/
def selected (es : List (RecorderEntry α)) (name : String) : Option (RecorderEntry α) :=
  es.find? fun e => e.name = name

/-- Whether the panel of a recorder has a delete button, `/repo/pvtrace/studio/static/app.js:824-825,857-862`. -/
def deleteButton (es : List (RecorderEntry α)) (name : String) : Bool :=
  match selected es name with
  | none => false
  | some e => !e.auto

end PV.View
