import Verif.Model.Recorder

/-!
What a recorder is meant to count, in terms of histories (documentation in
`/repo/pvtrace/engine/recorder.py:1-53,90-108`), written without the tally's own code.
-/

namespace PV.Spec
variable {α ν : Type}

/-- The interaction a recorder on the node called `name` asks for. -/
def SelectorEvent (sel : Selector) (name : String) (s : Step α) : Prop :=
  match sel with
  | .entering => s.event = .transmit ∧ s.info.hit = some name ∧ s.info.adjacent = some name
  | .escaping => s.event = .transmit ∧ s.info.hit = some name ∧ s.info.container = some name
  | .reflected => s.event = .reflect ∧ s.info.hit = some name ∧ s.info.adjacent = some name
  | .lost => s.event = .nonradiative ∧ s.info.container = some name
  | .reacted => s.event = .react ∧ s.info.container = some name
  | .killed => s.event = .kill ∧ s.info.container = some name
  | .exit => s.event = .exit ∧ s.info.hit = some name

/-- The outward normal known for an event: the one in the metadata, or for EXIT the normal of the
recorder's node at the ray's position. -/
def normalOf (E : TallyEnv α ν) (node : ν) (s : Step α) : Option (Vec3 α) :=
  match s.info.normal with
  | some n => some n
  | none => if s.event = .exit then (E.exitNormal node s.ray.position).toOption else none

variable [Field α] [LinearOrder α]

/-- The facet filter: the normal agrees with the facet to within `atol` in each component. -/
def OnFacet (r : Recorder α) (normal : Option (Vec3 α)) : Prop :=
  ∀ f, r.facet = some f → ∃ n, normal = some n ∧
    |f.x - n.x| ≤ r.atol ∧ |f.y - n.y| ≤ r.atol ∧ |f.z - n.z| ≤ r.atol

/-- The event counts for recorder `r` on node `node`. -/
def Counted (E : TallyEnv α ν) (node : ν) (r : Recorder α) (s : Step α) : Prop :=
  SelectorEvent r.event (E.name node) s ∧ OnFacet r (normalOf E node s)

/-- Events of a history paired with the ray before the event. -/
def withPrev (prev : Option (Ray α)) (h : List (Step α)) : List (Option (Ray α) × Step α) :=
  List.zip (prev :: h.map fun s => some s.ray) h

/-- Properties recorded for an event: those of the ray after it, the angle between the ray before
it and the normal, and the position in the node's own frame. -/
def valuesOf (E : TallyEnv α ν) (node : ν) (p : Option (Ray α) × Step α) : Values α :=
  { wavelength := p.2.ray.wavelength
    angle :=
      match normalOf E node p.2 with
      | none => 0
      | some n =>
        E.acos (min |(if p.2.event = .exit then p.2.ray.direction
          else (p.1.getD p.2.ray).direction).dot n| 1)
    duration := p.2.ray.duration
    pathlength := p.2.ray.travelled
    position := E.localPos node p.2.ray.position }

open Classical in
/-- Properties at the first counted event of a history, if there is one. -/
noncomputable def firstValues (E : TallyEnv α ν) (node : ν) (r : Recorder α)
    (h : List (Step α)) : Option (Values α) :=
  ((withPrev none h).find? fun p => Counted E node r p.2).map (valuesOf E node)

/-- One set of values per ray that has a counted event. -/
noncomputable def recorded (E : TallyEnv α ν) (node : ν) (r : Recorder α)
    (hs : List (List (Step α))) : List (Values α) :=
  hs.filterMap (firstValues E node r)

open Classical in
/-- Number of counted events. -/
noncomputable def crossings (E : TallyEnv α ν) (node : ν) (r : Recorder α)
    (hs : List (List (Step α))) : ℕ :=
  (hs.map fun h => h.countP fun s => Counted E node r s).sum

open Classical in
/-- Number of histories with a counted event. -/
noncomputable def raysWith (E : TallyEnv α ν) (node : ν) (r : Recorder α)
    (hs : List (List (Step α))) : ℕ :=
  hs.countP fun h => ∃ s ∈ h, Counted E node r s

end PV.Spec
