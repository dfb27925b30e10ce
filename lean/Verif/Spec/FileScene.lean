import Verif.Model.FileScene

/-!
Which scenes read from files the engine can trace.
-/

namespace PV.Spec
open PV PV.Doc

/-- A component of a scene file that the engine can reproduce: no Lambertian phase function, no
spectrum treated as histogram, and a coefficient that was read. -/
structure CompTraceable (c : CompDef ℝ) : Prop where
  phase : c.phase ≠ .lambertian
  coefficient : (∃ q, c.dist = some (.const q) ∧ c.constHist = false) ∨ ∃ T, c.dist = some (.table T false)
  emission : c.kind = .luminophore → ∃ T, c.emission = some (.table T false)

/-- A node has a shape of the three kinds and reproducible components, or it is a light. -/
def NodeTraceable : Content ℝ → Prop
  | .geometry (.mesh _) _ => False
  | .geometry _ m => ∀ c ∈ m.comps, CompTraceable c
  | .light _ => True

/-- The node has a shape. -/
def solid : Content ℝ → Bool
  | .geometry _ _ => true
  | .light _ => false

/-- A scene file the engine can trace: `world` has a shape, every node is ready and there are at most
128 shapes. Positions and directions do not matter. -/
structure EngineReady (s : SceneDef ℝ) : Prop where
  world : ∃ n ∈ s.nodes, n.name = "world" ∧ solid n.content = true
  nodes : ∀ n ∈ s.nodes, NodeTraceable n.content
  few : (s.nodes.filter fun n => solid n.content).length ≤ 128

/-! ### What the objects are -/

/-- The phase function of an entry: half angles are in degrees. -/
inductive PhaseMade : Aiming ℝ → Phase → Prop
  | isotropic : PhaseMade .isotropic .isotropic
  | lambertian : PhaseMade .lambertian .lambertian
  | cone {degrees radians : ℝ} : radians * 180 = degrees * Real.pi → PhaseMade (.cone degrees) (.cone radians)
  | henyeyGreenstein {g : ℝ} : PhaseMade (.henyeyGreenstein g) (.henyeyGreenstein g)

/-- The component of an entry. -/
structure CompMade (c : CompDef ℝ) (k : PyComp) : Prop where
  name : k.comp.name = c.name
  kind : k.comp.kind = c.kind
  coefficient : ∀ d, c.dist = some d → k.hasDist = true ∧ k.comp.absDist = d
  emission : ∀ d, c.emission = some d → k.comp.emsDist = d
  yield : k.comp.qy = c.qy
  phase : PhaseMade c.phase k.comp.phase
  /-- The default class, so nothing is added to the time of flight. -/
  prompt : k.comp.tauNr = none ∧ (k.comp.tauRad = none ∨ k.comp.tauRad = some 0)
  plain : k.overrides = false

/-- The shape of an entry. -/
inductive ShapeMade : ShapeDef ℝ → Shape → Prop
  | box {x y z : ℝ} : ShapeMade (.box ⟨x, y, z⟩) (.known (.box ⟨x, y, z⟩))
  | cylinder {length radius : ℝ} :
      ShapeMade (.cylinder length radius) (.known (.cylinder length radius))
  | sphere {radius : ℝ} : ShapeMade (.sphere radius) (.known (.sphere radius))
  | mesh {f : String} : ShapeMade (.mesh f) .other

/-- The geometry of an entry. -/
structure GeometryMade (s : ShapeDef ℝ) (m : MatDef ℝ) (g : PyGeom) : Prop where
  shape : ShapeMade s g.shape
  material : ∃ k, g.material = some k ∧ k.index = m.index ∧ k.delegate = .fresnel ∧
    List.Forall₂ CompMade m.comps k.comps

end PV.Spec
