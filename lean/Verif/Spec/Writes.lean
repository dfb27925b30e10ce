import Verif.Model.Compile
import Verif.Spec.Batch
import Mathlib.MeasureTheory.Constructions.BorelSpace.Real

/-!
Borel conditions on what the engine writes for a ray: for every sequence of kinds of writes, the condition is a Borel
condition on the numbers written. And a ray whose writes are the only ones.
-/

namespace PV.Spec
open MeasureTheory
variable {n : ℕ}

/-- A row of the event log without its numbers; `facing` says whether a normal is written. -/
structure RowForm (n : ℕ) where
  kind : Event
  hit : Option (Fin n)
  container : Option (Fin n)
  adjacent : Option (Fin n)
  component : Option Comp
  source : Option Comp
  facing : Bool

/-- The row with given numbers. -/
def rowAt (f : RowForm n) (v : Fin 12 → ℝ) : Row ℝ (Fin n) Comp :=
  ⟨f.kind, f.hit, f.container, f.adjacent, f.component,
    ⟨⟨v 0, v 1, v 2⟩, ⟨v 3, v 4, v 5⟩, v 6, v 7, v 8, f.source⟩,
    if f.facing then some ⟨v 9, v 10, v 11⟩ else none⟩

/-- The write with given numbers. -/
def effectAt : Effect Unit (RowForm n) → (Fin 12 → ℝ) → Effect ℝ (Row ℝ (Fin n) Comp)
  | .write i f, v => .write i (rowAt f v)
  | .count i k, _ => .count i k
  | .distinct r, _ => .distinct r
  | .cross r, _ => .cross r
  | .sum i _, v => .sum i (v 0)
  | .bin i, _ => .bin i

/-- The writes of given kinds of which write `i` has the numbers `v i`. -/
def writesAt (fs : List (Effect Unit (RowForm n))) (v : ℕ → Fin 12 → ℝ) : List (Effect ℝ (Row ℝ (Fin n) Comp)) :=
  fs.zipIdx.map fun f => effectAt f.1 (v f.2)

/-- A Borel condition on the writes for a ray. -/
def BorelWrites (E : List (Effect ℝ (Row ℝ (Fin n) Comp)) → Prop) : Prop :=
  ∀ fs, MeasurableSet {v : ℕ → Fin 12 → ℝ | E (writesAt fs v)}

/-- The accumulators when nothing but `ws` is written. -/
noncomputable def alone {ρ : Type} (ws : List (Effect ℝ ρ)) : Acc ℝ := ws.foldl Acc.apply Acc.zero

/-- Recorder `r` reports the ray. -/
def Seen {ν ρ : Type} (T : RecTables ℝ ν) (r : ℕ) (ws : List (Effect ℝ ρ)) : Prop :=
  ∃ st, engineResult T (alone ws) r = some st ∧ st.rays = 1

/-- Recorder `r` reports the ray in bin `b` of its histogram `h`. -/
def SeenIn {ν ρ : Type} (T : RecTables ℝ ν) (r h b : ℕ) (ws : List (Effect ℝ ρ)) : Prop :=
  ∃ st f, engineResult T (alone ws) r = some st ∧ st.bins[h]? = some f ∧ f b = 1

/-- The bundle of the first `k` rays, ray `i` with its own numbers `ω i`. -/
def launched (rays : ℕ → KRay ℝ Comp) (ω : Sequences) (k : ℕ) : List (Launch ℝ Comp Numbers) :=
  (List.range k).map fun i => ⟨rays i, ω i⟩

end PV.Spec
