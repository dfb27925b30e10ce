import Verif.Model.StudioRun

/-!
What the user of the studio expects of runs: the messages of a run in order, and a user who waits.
-/

namespace PV.Spec
open PV.StudioRun
variable {ν : Type}

/-- The run a message comes from. -/
def fromRun (i : ℕ) : Msg ν → Bool
  | .started r _ _ | .bundle r _ _ _ _ | .done r => r = i
  | .error => false

/-- The beginning of a run of `n` bundles: it is announced, and `k` bundles have come, in order. -/
def chapter (i n : ℕ) (labels counts : ν) (k : ℕ) : List (Msg ν) :=
  .started i n labels :: (List.range k).map fun j => .bundle i (j + 1) n labels counts

/-- Messages that carry results. -/
def carries : Msg ν → Bool
  | .bundle .. => true
  | _ => false

/-- No run is going on. -/
def Idle (S : Server ν) : Prop := ∀ t ∈ S.tasks, t.phase = .over

/-- The user changes the scene and starts runs only when no run is going on. -/
def Waits (fits : ν → ν → Bool) : Server ν → List (Act ν) → Prop
  | _, [] => True
  | S, a :: as => ((∃ v, a = .edit v) ∨ (∃ n, a = .run n) → Idle S) ∧ Waits fits (step fits S a).1 as

/-- How many turns the run `i` gets. -/
def turnsOf (i : ℕ) (as : List (Act ν)) : ℕ :=
  as.countP fun | .turn j _ => decide (j = i) | _ => false

/-- What is shown is from the run whose labels are shown, and from the scene they are made for. -/
def Matches (P : Page ν) : Prop := ∀ r v k, P.latest = some (r, v, k) → P.labels = some (r, v)

end PV.Spec
