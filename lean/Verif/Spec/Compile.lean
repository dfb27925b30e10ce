import Verif.Model.Compile

/-!
What it means that flat tables describe a scene, and which scenes the engine can reproduce.
-/

namespace PV.Spec
noncomputable section

/-- The geometry node as an object: its name, shape, pose, optical properties and components. Only
for known shapes with a material and one of the two surface types. -/
def objectOf (x : String × Affine ℝ × PyGeom) : Option LNode :=
  match x.2.2.shape, x.2.2.material with
  | .known geom, some m =>
    match m.delegate with
    | .custom => none
    | .fresnel => some ⟨x.1, geom, x.2.1, x.2.1.inv, m.index, .fresnel, m.comps.map (·.comp)⟩
    | .null => some ⟨x.1, geom, x.2.1, x.2.1.inv, m.index, .null, m.comps.map (·.comp)⟩
  | _, _ => none

/-- `S` consists of the geometry nodes of the scene, in the order of the scene tree. -/
def Describes {n : ℕ} (scene : List PyNode) (S : LScene n) : Prop :=
  (geometryNodes scene).map objectOf = (List.finRange (n + 1)).map fun v => some (S.node v)

/-- Components as the constructors build them: tables are not empty (`mkDist`), and the emission
spectrum of a luminophore is a table. -/
def Built (scene : List PyNode) : Prop :=
  ∀ x ∈ geometryNodes scene, ∀ m, x.2.2.material = some m → ∀ c ∈ m.comps,
    (∀ T h, c.comp.absDist = .table T h → 1 ≤ T.n) ∧
    (c.comp.kind = .luminophore → ∃ T h, c.comp.emsDist = .table T h ∧ 1 ≤ T.n)

/-- Components the engine can reproduce. -/
structure CompOk (c : PyComp) : Prop where
  cls : c.comp.kind ≠ .other
  phase : c.comp.phase ≠ .lambertian
  coefficient : c.hasDist = true
  absorption : ∀ T h, c.comp.absDist = .table T h → h = false
  constant : ∀ y, c.comp.absDist = .const y → c.constHist = false
  emission : c.comp.kind = .luminophore → ∃ T, c.comp.emsDist = .table T false

/-- Geometry nodes the engine can reproduce. -/
structure NodeOk (l2w : Affine ℝ) (g : PyGeom) : Prop where
  shape : ∃ geom, g.shape = .known geom
  rigid : rigidTest l2w
  material : ∃ m, g.material = some m ∧ m.delegate ≠ .custom ∧ ∀ c ∈ m.comps, CompOk c

/-- Scenes the engine can reproduce. -/
structure SceneOk (scene : List PyNode) : Prop where
  root : ∃ v g, scene.head? = some v ∧ v.geometry = some g
  nodes : ∀ x ∈ geometryNodes scene, NodeOk x.2.1 x.2.2

end
end PV.Spec
