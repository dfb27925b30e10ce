import Verif.Model.Database
import Verif.Spec.Recorder

/-!
Specification for databases written by the command line: tasks, orders of arrival, and what the
query commands ask for.
-/

namespace PV.Spec
variable {α π β : Type}

/-- `q` is an order of arrival of the items of `lists`: each list keeps its own order. The number
in front of an item is the place of its list. -/
structure Interleaving (lists : List (List β)) (q : List (ℕ × β)) : Prop where
  source : ∀ p ∈ q, p.1 < lists.length
  order : ∀ t (h : t < lists.length), (q.filter fun p => p.1 = t).map (·.2) = lists[t]

/-- One task of the pool: the process that runs it and the full histories of its rays. -/
structure Task (α π : Type) where
  pid : π
  hists : List (List (Step α))

/-- All histories of a run. -/
def allHists (tasks : List (Task α π)) : List (List (Step α)) := tasks.flatMap Task.hists

/-- A stored row read back as an item of a history. -/
def asStep (p : Database.RayRow α × Database.EventRow α) : Step α :=
  { ray := p.1.ray
    event := p.2.kind
    info :=
      { hit := p.2.hit, container := p.2.container, adjacent := p.2.adjacent
        component := p.2.component
        normal := do return ⟨← p.2.ni, ← p.2.nj, ← p.2.nk⟩ } }

/-- The recorder selector that asks for the same interaction as a command. -/
def selectorOf : Database.Cmd → Selector
  | .reflected => .reflected
  | .entering => .entering
  | .escaping => .escaping
  | .lost => .lost
  | .reacted => .reacted
  | .killed => .killed

/-- Commands about a surface; only these have options for the normal and the facet. -/
def OnSurface (c : Database.Cmd) : Prop := c = .reflected ∨ c = .entering ∨ c = .escaping

/-- One option for the normal. -/
def NormalOption [AddCommGroup α] [LinearOrder α] (value : Option α) (atol : α)
    (part : Option α) : Prop :=
  ∀ v, value = some v → ∃ c, part = some c ∧ |v - c| ≤ atol

/-- An option with a text. -/
def TextOption (value stored : Option String) : Prop :=
  ∀ v, value = some v → v ≠ "" → stored = some v

/-- The event is one that the command with these options asks for. -/
structure Asked [AddCommGroup α] [LinearOrder α] (c : Database.Cmd) (node : String)
    (f : Database.Filters α) (s : Step α) : Prop where
  event : SelectorEvent (selectorOf c) node s
  source : TextOption f.source s.ray.source
  nx : OnSurface c → NormalOption f.nx f.atol (s.info.normal.map Vec3.x)
  ny : OnSurface c → NormalOption f.ny f.atol (s.info.normal.map Vec3.y)
  nz : OnSurface c → NormalOption f.nz f.atol (s.info.normal.map Vec3.z)
  /-- no event has a facet label -/
  facet : OnSurface c → TextOption f.facet none

end PV.Spec
