import Verif.Model.Ray

/-!
Specification of a well-formed photon history, written over bare lists of events.
-/

namespace PV.Spec

/-- Events after which a photon no longer exists (or is no longer followed). -/
def Terminal (e : Event) : Prop :=
  e = .exit ∨ e = .nonradiative ∨ e = .react ∨ e = .kill

/-- The possible fates of an absorbed photon. -/
def Fate (e : Event) : Prop :=
  e = .emit ∨ e = .scatter ∨ e = .nonradiative ∨ e = .react

/-- Interactions with matter: a surface event or an absorption. -/
def Interaction (e : Event) : Bool :=
  e = .reflect || e = .transmit || e = .absorb

/-- The history grammar. `complete` says that no exception cut the history short. -/
structure Grammar (complete : Prop) (l : List Event) : Prop where
  /-- the first event is GENERATE ... -/
  start : l[0]? = some .generate
  /-- ... and there is no other -/
  once : ∀ i, l[i]? = some .generate → i = 0
  /-- a terminal event is the last one -/
  terminalLast : ∀ i e, l[i]? = some e → Terminal e → i + 1 = l.length
  /-- an absorption is directly followed by its fate (unless an exception was raised) -/
  absorbFate : ∀ i, l[i]? = some .absorb →
    (∃ e, l[i + 1]? = some e ∧ Fate e) ∨ (i + 1 = l.length ∧ ¬ complete)
  /-- a fate occurs only directly after an absorption -/
  fateAbsorb : ∀ i e, l[i]? = some e → Fate e → ∃ j, i = j + 1 ∧ l[j]? = some .absorb

end PV.Spec
