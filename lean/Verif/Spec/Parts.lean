import Verif.Model.Library

/-!
Writing one component of a material as several, for C125.
-/

namespace PV

/-- A ray whose light is called by another name. -/
def Ray.renamed {α : Type} (f : String → String) (r : Ray α) : Ray α := { r with source := r.source.map f }

/-- An event in which components are called by other names. -/
def Step.renamed {α : Type} (f : String → String) (x : Step α) : Step α :=
  ⟨x.ray.renamed f, x.event, { x.info with component := x.info.component.map f }⟩

namespace Library

/-- `ps` are parts of `c`: components that do what `c` does, all called `c.name` by `f`, whose
coefficients are non-negative and add up to that of `c` at every wavelength. -/
structure PartsOf (f : String → String) (c : Comp) (ps : List Comp) : Prop where
  some : ps ≠ []
  same : ∀ p ∈ ps, p = { c with name := p.name, absDist := p.absDist }
  name : ∀ p ∈ ps, f p.name = c.name
  adds : ∀ w, ∃ xs, coefficients ps w = .ok xs ∧ (∀ x ∈ xs, 0 ≤ x) ∧ c.coefficient w = .ok xs.sum

/-- `S'` is `S` with the components of its materials written as parts. -/
structure Split (f : String → String) (S S' : LScene n) : Prop where
  node : ∀ v, S'.node v = { S.node v with comps := (S'.node v).comps }
  parts : ∀ v, ∃ pss, List.Forall₂ (PartsOf f) (S.node v).comps pss ∧ (S'.node v).comps = pss.flatten

end Library
end PV
