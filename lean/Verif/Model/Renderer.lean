import Verif.Model.Light

/-!
The viewer of ray paths: `MeshcatRenderer`, `/repo/pvtrace/scene/renderer.py`. The meshcat server is a
tree of named objects; the scene geometry (`render`, `add_node`) is left out.
-/

namespace PV.Renderer
variable {α : Type} [Field α] [LinearOrder α] [FloorRing α]

/-- Exceptions of the renderer: `ValueError`, `AppError` and `IndexError`. -/
inductive RErr
  | value | app | index
deriving DecidableEq, Repr

/-- Names under which objects are stored: `"rays/n"` and `"exit/rays/n"`. -/
inductive Key
  | rays (n : ℕ)
  | exit (n : ℕ)
deriving DecidableEq, Repr

/-- What is drawn: a line between two points with a colour, or a bauble at a point. -/
inductive Obj (α : Type)
  | line (start stop : Vec3 α) (colour : ℕ)
  | bauble (centre : Vec3 α) (colour : ℕ)
deriving DecidableEq, Repr

/-- The renderer, `/repo/pvtrace/scene/renderer.py:27-48`: `added_index`, the objects on the server
and `ray_histories`, a `deque(maxlen=max_histories)` of identifier lists. An identifier
`"rays/n"` is its number. -/
structure View (α : Type) where
  index : ℕ := 0
  objects : Key → Option (Obj α) := fun _ => none
  histories : List (List ℕ) := []

/-- `vis[key].set_object(obj)`. -/
def View.put (V : View α) (k : Key) (o : Obj α) : View α :=
  { V with objects := fun j => if j = k then some o else V.objects j }

/-- `remove_object(identifier)`, `/repo/pvtrace/scene/renderer.py:331-334`: `vis["rays/n"].delete()`. -/
def View.removeObject (V : View α) (n : ℕ) : View α :=
  { V with objects := fun j => if j = .rays n then none else V.objects j }

/-- `get_next_identifer`, `/repo/pvtrace/scene/renderer.py:107-109`. -/
def View.nextId (V : View α) : ℕ × View α := (V.index + 1, { V with index := V.index + 1 })

/-- `add_line_segment`, `/repo/pvtrace/scene/renderer.py:111-146`; `add_path` and `add_ray` draw one
line in the same way. -/
def View.addLine (V : View α) (start stop : Vec3 α) (colour : ℕ) : ℕ × View α :=
  let (n, V) := V.nextId
  (n, V.put (.rays n) (.line start stop colour))

/-- Options of `add_history`, `/repo/pvtrace/scene/renderer.py:249-256`. `worldSegment` is `none` for
any string other than `exclude` and `short`. -/
structure Options (α : Type) where
  baubles : Bool := true
  worldSegment : Option Bool := some true
  shortLength : α

/-- `'exclude'`. -/
def Options.exclude (o : Options α) : Prop := o.worldSegment = some false

instance (o : Options α) : Decidable o.exclude := inferInstanceAs (Decidable (_ = _))

/-- One step of the loop of `add_history`, `/repo/pvtrace/scene/renderer.py:294-320`: a line, then
perhaps a bauble; returns the identifiers. `last` is `history[-1][0]`. -/
def View.addPart (V : View α) (o : Options α) (last : Ray α) (a b : Ray α × Event) :
    List ℕ × View α :=
  let stop :=
    if ¬ o.exclude ∧ b.1 = last then a.1.position + o.shortLength • a.1.direction
    else b.1.position
  let colour := PV.Light.wavelengthToHexInt a.1.wavelength
  let (n, V) := V.addLine a.1.position stop colour
  if o.baubles ∧ a.2 = .transmit then
    let (m, V) := V.nextId
    ([n, m], V.put (.exit m) (.bauble a.1.position colour))
  else ([n], V)

/-- The loop of `add_history`, `/repo/pvtrace/scene/renderer.py:292-320`, over consecutive pairs. -/
def View.addParts (V : View α) (o : Options α) (last : Ray α) :
    List (Ray α × Event) → List ℕ × View α
  | a :: b :: rest =>
    let (ids, V) := V.addPart o last a b
    let (ids', V) := V.addParts o last (b :: rest)
    (ids ++ ids', V)
  | _ => ([], V)

/-- `deque.append` with `maxlen`: a full deque drops its first element. -/
def appendMax (maxlen : Option ℕ) (q : List (List ℕ)) (x : List ℕ) : List (List ℕ) :=
  match maxlen with
  | none => q ++ [x]
  | some m => if q.length < m then q ++ [x] else (q ++ [x]).drop (q.length + 1 - m)

/-- The history as drawn: with `'exclude'` everything before the first EXIT,
`/repo/pvtrace/scene/renderer.py:279-288`. -/
def shown (o : Options α) (history : List (Ray α × Event)) : List (Ray α × Event) :=
  if o.exclude then history.takeWhile fun p => p.2 ≠ .exit else history

/-- The end of `add_history`, `/repo/pvtrace/scene/renderer.py:322-327`. -/
def View.keep (V : View α) (maxHistories : Option ℕ) (ids : List ℕ) : View α × Option RErr :=
  let V := { V with histories := appendMax maxHistories V.histories ids }
  if some V.histories.length = maxHistories then
    match V.histories with
    | [] => (V, some .index)
    | old :: rest => (old.foldl View.removeObject { V with histories := rest }, none)
  else (V, none)

/-- `add_history`, `/repo/pvtrace/scene/renderer.py:249-329`: the new state and the exception, if
any. An empty history raises `ValueError` for `'exclude'` (unpacking of `zip()`). -/
def View.addHistory (V : View α) (maxHistories : Option ℕ) (o : Options α)
    (history : List (Ray α × Event)) : View α × Option RErr :=
  if o.worldSegment = none then (V, some .value)
  else if o.exclude ∧ history = [] then (V, some .value)
  else
    let h := shown o history
    if o.exclude ∧ h.length < history.length ∧ h.length < 2 then (V, none)
    else
      match h.getLast? with
      | none => (V, some .app)
      | some last =>
        if h.length < 2 then (V, some .app)
        else
          let (ids, V) := V.addParts o last.1 h
          V.keep maxHistories ids

/-- `add_ray_path`, `/repo/pvtrace/scene/renderer.py:214-247`. -/
def View.addRayPath (V : View α) : List (Ray α) → List ℕ × View α
  | a :: b :: rest =>
    let (n, V) := V.addLine a.position b.position (PV.Light.wavelengthToHexInt a.wavelength)
    let (ids, V) := V.addRayPath (b :: rest)
    (n :: ids, V)
  | _ => ([], V)

/-- `remove(scene)`, `/repo/pvtrace/scene/renderer.py:103-105`: `vis.delete()`. -/
def View.clear (V : View α) : View α := { V with objects := fun _ => none }

/-- The calls a user can make. -/
inductive Op (α : Type)
  | history (o : Options α) (h : List (Ray α × Event))
  | line (start stop : Vec3 α) (colour : ℕ)
  | rayPath (rays : List (Ray α))
  | removeObject (n : ℕ)
  | clear

/-- One call; an exception leaves the state reached. -/
def View.call (maxHistories : Option ℕ) (V : View α) : Op α → View α
  | .history o h => (V.addHistory maxHistories o h).1
  | .line a b c => (V.addLine a b c).2
  | .rayPath rays => (V.addRayPath rays).2
  | .removeObject n => V.removeObject n
  | .clear => V.clear

/-- A sequence of calls. -/
def View.run (maxHistories : Option ℕ) (V : View α) (ops : List (Op α)) : View α :=
  ops.foldl (View.call maxHistories) V

end PV.Renderer
