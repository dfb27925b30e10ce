import Verif.Spec.Fate
import Verif.Spec.Stream
import Verif.Spec.Resume
import Verif.Model.Stream

/-!
What is to come for a ray: its chances when it is traced afresh, and what its next pass leaves of them.
-/

namespace PV.Spec
noncomputable section
variable {n : ℕ}

/-- The chance that the history of a ray that is traced with fresh numbers is in `E`. -/
def prospect (S : LScene n) (B : Trimesh) (method : EmitMethod) (maxpath : Option ℝ) (maxsteps : ℕ) (ray : Ray ℝ)
    (E : List (Ray ℝ × Event) → Prop) : ENNReal :=
  chance (Yields (Stream.follow (pyOps S B reader method) maxsteps maxpath ray) E)

/-- The rows of a history that a pass has added. -/
def rowsAdded (es : List (Step ℝ)) : List (Ray ℝ × Event) := es.map fun e => (e.ray, e.event)

open Classical in
/-- What is left to hope for after the first pass with the numbers `s`: nothing if the pass fails; certainty or nothing if the
history is complete; and otherwise the chance that the ray as it is now, traced afresh with one step less, completes the history. -/
def hope (S : LScene n) (B : Trimesh) (method : EmitMethod) (maxpath : Option ℝ) (maxsteps : ℕ) (ray : Ray ℝ)
    (E : List (Ray ℝ × Event) → Prop) (s : Numbers) : ENNReal :=
  match Stream.pass (pyOps S B reader method) (maxsteps + 1) maxpath 1 ray s with
  | .error _ => 0
  | .ok ((es, none), _) => if E ((ray, .generate) :: rowsAdded es) then 1 else 0
  | .ok ((es, some ray'), _) =>
    prospect S B method maxpath maxsteps ray' fun h => E ((ray, .generate) :: rowsAdded es ++ h.tail)

/-- The history ends with a ray and an event as in `F`. -/
def EndsAs (F : Ray ℝ × Event → Prop) (h : List (Ray ℝ × Event)) : Prop := ∃ x, h.getLast? = some x ∧ F x

/-- An event that ends the life of a ray. -/
def Event.fatal : Event → Prop
  | .exit | .nonradiative | .react | .kill => True
  | _ => False

open Classical in
/-- The same for how the ray ends up: what has happened before does not matter. -/
def hopeEnd (S : LScene n) (B : Trimesh) (method : EmitMethod) (maxpath : Option ℝ) (maxsteps : ℕ) (ray : Ray ℝ)
    (F : Ray ℝ × Event → Prop) (s : Numbers) : ENNReal :=
  match Stream.pass (pyOps S B reader method) (maxsteps + 1) maxpath 1 ray s with
  | .error _ => 0
  | .ok ((es, none), _) => if EndsAs F (rowsAdded es) then 1 else 0
  | .ok ((_, some ray'), _) => prospect S B method maxpath maxsteps ray' (EndsAs F)

open Classical in
/-- The average of `g` over where the next pass takes the ray; if it ends there, 1 counts for ending up as in `F`, and 0 for anything
else. The pass is one that the step limit does not cut off. -/
def onAverage (S : LScene n) (B : Trimesh) (method : EmitMethod) (maxpath : Option ℝ) (F : Ray ℝ × Event → Prop)
    (g : Ray ℝ → ENNReal) (ray : Ray ℝ) : ENNReal :=
  ∫⁻ s, (match Stream.pass (pyOps S B reader method) 1 maxpath 1 ray s with
    | .error _ => 0
    | .ok ((es, none), _) => if EndsAs F (rowsAdded es) then 1 else 0
    | .ok ((_, some ray'), _) => g ray') ∂independent

/-- The chance of ending up as in `F` without a step limit: the limit of the chances with one. -/
def unlimited (S : LScene n) (B : Trimesh) (method : EmitMethod) (maxpath : Option ℝ) (F : Ray ℝ × Event → Prop) (ray : Ray ℝ) : ENNReal :=
  ⨆ m, prospect S B method maxpath m ray (EndsAs F)

end
end PV.Spec
