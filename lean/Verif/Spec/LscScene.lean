import Verif.Model.LscScene
import Verif.Spec.Component

/-!
What a concentrator should look like, given what was asked for.
-/

namespace PV.Spec
noncomputable section
open PV PV.Lsc PV.Component
variable {δ : Type}

/-- Components asked for, in order. -/
def ingredients (calls : List (Ask δ)) : List Ingredient := calls.filterMap fun
  | .addLuminophore name c e qy ph => some (.luminophore name c e qy ph)
  | .addAbsorber name c => some (.absorber name c)
  | _ => none

/-- Lights asked for, in order. -/
def lamps (calls : List (Ask δ)) : List (Lamp δ) := calls.filterMap fun
  | .addLight l => some l
  | _ => none

/-- An air gap mirror was asked for. -/
def WantsGap (calls : List (Ask δ)) : Prop := ∃ b, .addAirGapMirror b ∈ calls

/-- The names of the facets that can have a solar cell. -/
inductive Named : String → Facet → Prop
  | left : Named "left" .left
  | right : Named "right" .right
  | near : Named "near" .near
  | far : Named "far" .far

/-- A solar cell was asked for on this facet, in a call whose names were all right. -/
def CellAsked (calls : List (Ask δ)) (f : Facet) : Prop :=
  ∃ l, .addSolarCell (.names l) ∈ calls ∧ (∀ s ∈ l, ∃ g, Named s g) ∧ ∃ s ∈ l, Named s f

/-- The node is the light `l`: at its location, turned by its rotation. -/
structure LampPlaced (l : Lamp δ) (p : Piece δ) : Prop where
  name : p.name = l.name
  light : p.holds = .light l.direction l.wavelength l.position
  location : p.tf.pose.point 0 = l.location
  upright : l.rotation = none → ∀ v, p.tf.pose.vec v = v
  turned : ∀ angle axis, l.rotation = some (angle, axis) → ∀ v, p.tf.pose.vec v = (rotationMatrix angle axis 0).vec v

/-- The sheet: as long and wide as the plate, a quarter as thick, with the index of the surroundings, its centre three
quarters of the thickness of the plate below the centre of the plate. -/
structure SheetPlaced (size : Vec3 ℝ) (n0 : ℝ) (p : Piece δ) : Prop where
  box : p.holds = .box ⟨size.x, size.y, size.z / 4⟩ n0 [] .airGap
  place : ∀ v, p.tf.pose.point v = v + ⟨0, 0, -(3 / 4 * size.z)⟩

/-- The component is what was asked for. -/
inductive MadeAs : Ingredient → Made → Prop
  | luminophore {name : String} {c e : Arg} {q : ℝ} {ph : Option Phase} {m : Made} :
    m.name = name → m.kind = .luminophore →
    (∀ w y, CoefficientAt none c w y → m.coefficient w = .ok (some y)) →
    (∀ rows w y, e = .array rows → (w, y) ∈ rows → ∃ d, m.emsDist = some d ∧ d.call w = .ok (some y)) →
    m.qy = q → m.phase = ph.getD .isotropic → MadeAs (.luminophore name c e (some q) ph) m
  | absorber {name : String} {c : Arg} {m : Made} :
    m.name = name → m.kind = .absorber → (∀ w y, CoefficientAt none c w y → m.coefficient w = .ok (some y)) →
    m.qy = 0 → MadeAs (.absorber name c) m

/-- The scene of a concentrator. -/
structure BuiltAs (size : Vec3 ℝ) (n0 n1 : ℝ) (ings : List Ingredient) (ls : List (Lamp δ)) (gap : Prop) (S : Stage δ) :
    Prop where
  world : S.world.holds = .box ((100 : ℝ) • size) n0 [] .fresnel ∧ ∀ v, S.world.tf.pose.point v = v
  children : ∃ plate sheets lights made, S.children = plate :: sheets ++ lights ∧
    List.Forall₂ MadeAs ings made ∧
    plate.holds = .box size n1 made .cells ∧ (∀ v, plate.tf.pose.point v = v) ∧
    (gap → ∃ s, sheets = [s] ∧ SheetPlaced size n0 s) ∧ (¬ gap → sheets = []) ∧
    List.Forall₂ LampPlaced ls lights

end
end PV.Spec
