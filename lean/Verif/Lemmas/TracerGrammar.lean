import Verif.Lemmas.Tracer
import Mathlib.Tactic.Linarith

namespace PV
set_option linter.unusedSectionVars false
variable {α ν κ σ : Type} [Field α] [LinearOrder α] [DecidableEq ν]

/-- What may follow GENERATE; `c` says the history was not cut by an exception. -/
inductive Tail (c : Prop) : List Event → Prop
  | nil : Tail c []
  | last (e : Event) : e = .exit ∨ e = .kill → Tail c [e]
  | cut : ¬ c → Tail c [.absorb]
  | decay (e : Event) : e = .nonradiative ∨ e = .react → Tail c [.absorb, e]
  | radiate (e : Event) (l : List Event) : e = .emit ∨ e = .scatter → Tail c l →
      Tail c (.absorb :: e :: l)
  | surface (e : Event) (l : List Event) : e = .reflect ∨ e = .transmit → Tail c l →
      Tail c (e :: l)

theorem Tail.noGenerate {c : Prop} {l : List Event} (h : Tail c l) :
    ∀ i : ℕ, l[i]? ≠ some Event.generate := by
  induction h with
  | nil => simp
  | last e h => intro i; rcases i with _ | i <;> rcases h with rfl | rfl <;> simp
  | cut _ => intro i; rcases i with _ | i <;> simp
  | decay e h => intro i; rcases i with _ | _ | i <;> rcases h with rfl | rfl <;> simp
  | radiate e l h _ ih => intro i; rcases i with _ | _ | i <;> rcases h with rfl | rfl <;> simp [ih]
  | surface e l h _ ih => intro i; rcases i with _ | i <;> rcases h with rfl | rfl <;> simp [ih]

theorem Tail.terminalLast {c : Prop} {l : List Event} (h : Tail c l) :
    ∀ i e, l[i]? = some e → Spec.Terminal e → i + 1 = l.length := by
  induction h with
  | nil => simp
  | last e h => intro i; rcases i with _ | i <;> simp
  | cut _ => intro i; rcases i with _ | i <;> simp
  | decay e h =>
    intro i
    rcases i with _ | _ | i
    · rintro e he ht; simp at he; subst he; simp [Spec.Terminal] at ht
    · simp
    · simp
  | radiate e l h _ ih =>
    intro i
    rcases i with _ | _ | i
    · rintro e he ht; simp at he; subst he; simp [Spec.Terminal] at ht
    · rintro e he ht; simp at he; subst he; rcases h with rfl | rfl <;> simp [Spec.Terminal] at ht
    · intro e he ht; simpa using ih i e (by simpa using he) ht
  | surface e l h _ ih =>
    intro i
    rcases i with _ | i
    · rintro e he ht; simp at he; subst he; rcases h with rfl | rfl <;> simp [Spec.Terminal] at ht
    · intro e he ht; simpa using ih i e (by simpa using he) ht

theorem Tail.absorbFate {c : Prop} {l : List Event} (h : Tail c l) :
    ∀ i, l[i]? = some .absorb →
      (∃ e, l[i + 1]? = some e ∧ Spec.Fate e) ∨ (i + 1 = l.length ∧ ¬ c) := by
  induction h with
  | nil => simp
  | last e h => intro i; rcases i with _ | i <;> rcases h with rfl | rfl <;> simp
  | cut hc => intro i; rcases i with _ | i <;> simp [hc]
  | decay e h =>
    intro i
    rcases i with _ | _ | i <;> rcases h with rfl | rfl <;> simp [Spec.Fate]
  | radiate e l h _ ih =>
    intro i
    rcases i with _ | _ | i
    · rcases h with rfl | rfl <;> simp [Spec.Fate]
    · rcases h with rfl | rfl <;> simp
    · intro hi; simpa using ih i (by simpa using hi)
  | surface e l h _ ih =>
    intro i
    rcases i with _ | i
    · rcases h with rfl | rfl <;> simp
    · intro hi; simpa using ih i (by simpa using hi)

theorem Tail.fateAbsorb {c : Prop} {l : List Event} (h : Tail c l) :
    ∀ i e, l[i]? = some e → Spec.Fate e → ∃ j, i = j + 1 ∧ l[j]? = some .absorb := by
  induction h with
  | nil => simp
  | last e h =>
    intro i
    rcases i with _ | i <;> rcases h with rfl | rfl <;> simp [Spec.Fate]
  | cut hc => intro i; rcases i with _ | i <;> simp [Spec.Fate]
  | decay e h =>
    intro i
    rcases i with _ | _ | i
    · simp [Spec.Fate]
    · intros; exact ⟨0, rfl, rfl⟩
    · simp
  | radiate e l h _ ih =>
    intro i
    rcases i with _ | _ | i
    · simp [Spec.Fate]
    · intros; exact ⟨0, rfl, rfl⟩
    · intro e' he hf
      obtain ⟨j, rfl, hj⟩ := ih i e' (by simpa using he) hf
      exact ⟨j + 2, rfl, by simpa using hj⟩
  | surface e l h _ ih =>
    intro i
    rcases i with _ | i
    · rcases h with rfl | rfl <;> simp [Spec.Fate]
    · intro e' he hf
      obtain ⟨j, rfl, hj⟩ := ih i e' (by simpa using he) hf
      exact ⟨j + 1, rfl, by simpa using hj⟩

theorem Tail.grammar {c : Prop} {l : List Event} (h : Tail c l) :
    Spec.Grammar c (.generate :: l) where
  start := rfl
  once i hi := by
    rcases i with _ | i
    · rfl
    · exact absurd (by simpa using hi) (h.noGenerate i)
  terminalLast i e he ht := by
    rcases i with _ | i
    · simp at he; subst he; simp [Spec.Terminal] at ht
    · simpa using h.terminalLast i e (by simpa using he) ht
  absorbFate i hi := by
    rcases i with _ | i
    · simp at hi
    · simpa using h.absorbFate i (by simpa using hi)
  fateAbsorb i e he hf := by
    rcases i with _ | i
    · simp at he; subst he; simp [Spec.Fate] at hf
    · obtain ⟨j, rfl, hj⟩ := h.fateAbsorb i e (by simpa using he) hf
      exact ⟨j + 1, rfl, by simpa using hj⟩

theorem loop_tail (O : Ops α ν κ σ) (maxsteps : ℕ) (maxpath : Option α) (fuel count : ℕ)
    (ray : Ray α) (s : σ) :
    Tail ((loop O maxsteps maxpath fuel count ray s).2 = .finished)
      ((loop O maxsteps maxpath fuel count ray s).1.map (·.event)) := by
  refine loop_induct O maxsteps maxpath
    (fun _ _ _ es o => Tail (o = .finished) (es.map (·.event))) ?_ ?_ ?_ ?_ fuel count ray s
  · intros; exact .nil
  · intro fuel count ray s es hp
    cases hp with
    | miss => exact .nil
    | kill => exact .last _ (.inr rfl)
    | exit => exact .last _ (.inl rfl)
    | decay h d comp s' s'' s''' ray' ev _ _ _ hev =>
      rcases hev with ⟨rfl, _⟩ | ⟨rfl, _⟩
      · exact .decay _ (.inr rfl)
      · exact .decay _ (.inl rfl)
  · intro fuel count ray s es e hp
    cases hp with
    | raise => exact .nil
    | absorbRaise => exact .cut (by simp)
  · intro fuel count ray s es ray' s' es' o hp ih
    cases hp with
    | radiate h d comp s' s'' s''' ray' ev _ _ _ hev =>
      rcases hev with ⟨rfl, _⟩ | ⟨rfl, _⟩
      · exact .radiate _ _ (.inl rfl) ih
      · exact .radiate _ _ (.inr rfl) ih
    | reflect => exact .surface _ _ (.inl rfl) ih
    | transmit => exact .surface _ _ (.inr rfl) ih

/-- number of interactions in a list of steps -/
def interactions (l : List (Step α)) : ℕ := l.countP (fun e => Spec.Interaction e.event)

theorem loop_bounds (O : Ops α ν κ σ) (maxsteps : ℕ) (maxpath : Option α) (fuel count : ℕ)
    (ray : Ray α) (s : σ) (hc : count ≤ maxsteps) :
    let r := loop O maxsteps maxpath fuel count ray s
    r.1.length ≤ 2 * (maxsteps - count) + 1 ∧ interactions r.1 ≤ maxsteps - count := by
  refine loop_induct O maxsteps maxpath
    (fun _ count _ es _ => count ≤ maxsteps →
      es.length ≤ 2 * (maxsteps - count) + 1 ∧ interactions es ≤ maxsteps - count)
    ?_ ?_ ?_ ?_ fuel count ray s hc
  · intros; simp [interactions]
  · intro fuel count ray s es hp hc
    cases hp with
    | miss => simp [interactions]
    | kill => simp [interactions, Spec.Interaction]
    | exit => simp [interactions, Spec.Interaction]
    | decay h d comp s' s'' s''' ray' ev hA _ _ hev =>
      have := hA.live.steps
      rcases hev with ⟨rfl, _⟩ | ⟨rfl, _⟩ <;>
        simp [interactions, Spec.Interaction] <;> omega
  · intro fuel count ray s es e hp hc
    cases hp with
    | raise => simp [interactions]
    | absorbRaise h d comp s' e hA =>
      have := hA.live.steps
      simp [interactions, Spec.Interaction]; omega
  · intro fuel count ray s es ray' s' es' o hp ih hc
    cases hp with
    | radiate h d comp s' s'' s''' ray' ev hA _ _ hev =>
      have h1 := hA.live.steps
      have h2 := ih (by omega)
      rcases hev with ⟨rfl, _⟩ | ⟨rfl, _⟩ <;>
        simp [interactions, Spec.Interaction] at h2 ⊢ <;> omega
    | reflect h n s' s'' s''' ray' hT =>
      have h1 := hT.live.steps
      have h2 := ih (by omega)
      simp [interactions, Spec.Interaction] at h2 ⊢; omega
    | transmit h n s' s'' s''' ray' hT =>
      have h1 := hT.live.steps
      have h2 := ih (by omega)
      simp [interactions, Spec.Interaction] at h2 ⊢; omega

theorem body_cont_steps (O : Ops α ν κ σ) (maxsteps : ℕ) (maxpath : Option α) {count : ℕ}
    {ray ray' : Ray α} {s s' : σ} {es : List (Step α)}
    (h : body O maxsteps maxpath count ray s = (es, .cont ray' s')) : count ≤ maxsteps := by
  have hp := body_pass O maxsteps maxpath count ray s
  rw [h] at hp
  cases hp with
  | radiate h d comp s' s'' s''' ray' ev hA => exact hA.live.steps
  | reflect h n s' s'' s''' ray' hT => exact hT.live.steps
  | transmit h n s' s'' s''' ray' hT => exact hT.live.steps

theorem loop_fuel (O : Ops α ν κ σ) (maxsteps : ℕ) (maxpath : Option α) :
    ∀ (fuel count : ℕ) (ray : Ray α) (s : σ), maxsteps + 1 ≤ fuel + count → 0 < fuel →
      (loop O maxsteps maxpath fuel count ray s).2 ≠ .outOfFuel ∧
      ∀ k, loop O maxsteps maxpath (fuel + k) count ray s
        = loop O maxsteps maxpath fuel count ray s := by
  intro fuel
  induction fuel with
  | zero => intro _ _ _ _ h; omega
  | succ fuel ih =>
    intro count ray s hf _
    rcases hb : body O maxsteps maxpath (count + 1) ray s with ⟨es, nx⟩
    have e1 : ∀ k, fuel + 1 + k = (fuel + k) + 1 := by intro k; omega
    cases nx with
    | stop => simp [loop, hb, e1]
    | raise e => simp [loop, hb, e1]
    | cont ray' s' =>
      have := body_cont_steps O maxsteps maxpath hb
      obtain ⟨h1, h2⟩ := ih (count + 1) ray' s' (by omega) (by omega)
      refine ⟨by simpa [loop, hb] using h1, fun k => ?_⟩
      rw [e1]
      simp only [loop, hb, h2 k]

end PV
