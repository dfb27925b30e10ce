import Verif.Model.Simulate
import Verif.Spec.Batch

/-!
Functions that read numbers from one stream, one after the other: what they return, and how many numbers
they take, depends only on the numbers taken, and they leave the stream behind these numbers.
-/

namespace PV.Spec
variable {β ε : Type}

/-- The stream behind the first `k` numbers. -/
def later (k : ℕ) (s : Numbers) : Numbers := fun i => s (i + k)

/-- `f` takes `n s` numbers of the stream `s`. -/
def ReadsBy (n : Numbers → ℕ) (f : Numbers → Except ε (β × Numbers)) : Prop :=
  ∀ s s', (∀ i < n s, s' i = s i) → n s' = n s ∧
    ((∃ e, f s = .error e ∧ f s' = .error e) ∨
      ∃ b, f s = .ok (b, later (n s) s) ∧ f s' = .ok (b, later (n s) s'))

/-- `f` takes finitely many numbers. -/
def Reads (f : Numbers → Except ε (β × Numbers)) : Prop := ∃ n, ReadsBy n f

/-- `f` succeeds with a result in `E`. -/
def Yields (f : Numbers → Except ε (β × Numbers)) (E : β → Prop) (s : Numbers) : Prop :=
  ∃ b t, f s = .ok (b, t) ∧ E b

/-- How many numbers `f` takes when it succeeds is decided. -/
def CountDecided (n : Numbers → ℕ) (f : Numbers → Except ε (β × Numbers)) : Prop :=
  ∀ k, Decided (fun s => n s = k ∧ Yields f (fun _ => True) s)

open Classical in
/-- How many histories of a simulation are in `E`. -/
noncomputable def tally {η : Type} (E : η → Prop) : Except ε (List η) → ℕ
  | .ok hs => hs.countP (fun h => decide (E h))
  | .error _ => 0

end PV.Spec
