import Verif.Model.Library

/-!
The same apparatus put somewhere else: motions of nodes, scenes, rays and histories.
-/

namespace PV
variable {n : ℕ}

/-- A step of a history as it looks after the motion `g`: position, direction and normal are carried
along, everything else stays. -/
def Step.moved (g : Affine ℝ) (a : Step ℝ) : Step ℝ :=
  ⟨{ a.ray with position := g.point a.ray.position, direction := g.vec a.ray.direction }, a.event,
    { a.info with normal := a.info.normal.map g.vec }⟩

/-- The object carried along by the motion `g`, whose inverse is `gi`. -/
def LNode.moved (g gi : Affine ℝ) (N : LNode) : LNode :=
  { N with l2w := g.comp N.l2w, w2l := N.w2l.comp gi }

/-- Every object carried along, the world too. -/
def LScene.moved (g gi : Affine ℝ) (S : LScene n) : LScene n := ⟨fun v => (S.node v).moved g gi⟩

/-- Every object but the world carried along. -/
def LScene.turned (g gi : Affine ℝ) (S : LScene n) : LScene n :=
  ⟨fun v => if v = 0 then S.node 0 else (S.node v).moved g gi⟩

/-- The world is a ball about the origin in which nothing absorbs. -/
def RoundWorld (S : LScene n) : Prop :=
  (∃ r, (S.node 0).geom = .sphere r) ∧ (S.node 0).l2w = Affine.one ∧ (S.node 0).w2l = Affine.one ∧
    (S.node 0).comps = []

end PV

namespace PV
variable {n : ℕ} {ν κ : Type}

/-- A ray of the engine carried along. -/
def KRay.moved (g : Affine ℝ) (r : KRay ℝ κ) : KRay ℝ κ :=
  { r with position := g.point r.position, direction := g.vec r.direction }

/-- A row of the engine's event log carried along. -/
def Row.moved (g : Affine ℝ) (a : Row ℝ ν κ) : Row ℝ ν κ :=
  { a with ray := a.ray.moved g, normal := a.normal.map g.vec }

/-- What a ray writes to shared memory, with the rows of the event log carried along: the numbers
added to recorders stay. -/
def Effect.moved (g : Affine ℝ) : Effect ℝ (Row ℝ ν κ) → Effect ℝ (Row ℝ ν κ)
  | .write i row => .write i (row.moved g)
  | e => e

end PV
