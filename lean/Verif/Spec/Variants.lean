import Verif.Spec.Arranged

/-!
Variants of a scene: the same objects in another order, more objects, another world.
-/

namespace PV.Library
variable {n m : ℕ}

/-- The objects of `S` in another order; the world comes first in both. -/
structure Reordered (e : Fin (n + 1) ≃ Fin (n + 1)) (S S' : LScene n) : Prop where
  world : e 0 = 0
  node : ∀ v, S'.node (e v) = S.node v

/-- The scene `S'` has the objects of `S`, in the same order, and further ones. -/
structure Extended (e : Fin (n + 1) → Fin (m + 1)) (S : LScene n) (S' : LScene m) : Prop where
  world : e 0 = 0
  order : StrictMono e
  node : ∀ v, S'.node (e v) = S.node v

/-- The same scene in a world of another size or shape. -/
structure OtherWorld (S S' : LScene n) : Prop where
  node : ∀ v, v ≠ 0 → S'.node v = S.node v
  world : ∃ g, S'.node 0 = { S.node 0 with geom := g }

/-- No two objects are met at the same distance ahead. -/
def Untied (S : LScene n) (B : Trimesh) (ray : Ray ℝ) : Prop :=
  ∀ u v t, epsZero < t → t ∈ (S.node u).pyTs B ray.position ray.direction →
    t ∈ (S.node v).pyTs B ray.position ray.direction → u = v

/-- No point is on the surfaces of two objects. -/
def Separate (S : LScene n) : Prop :=
  ∀ u v p, OnSurface (S.node u).geom ((S.node u).w2l.point p) →
    OnSurface (S.node v).geom ((S.node v).w2l.point p) → u = v

/-- The half-line ahead of the ray does not meet the surface of the object. -/
def Misses (N : LNode) (ray : Ray ℝ) : Prop :=
  ∀ t : ℝ, epsZero < t → ¬ OnSurface N.geom (N.w2l.point (ray.position + t • ray.direction))

/-- The distances at which the engine finds the surface of a node ahead. -/
noncomputable def engineTs (N : LNode) (o d : Vec3 ℝ) : List ℝ := kIntersect N.geom (N.w2l.point o) (N.w2l.vec d)

/-- The same for the Python tracer. -/
noncomputable def pythonTs (B : Trimesh) (N : LNode) (o d : Vec3 ℝ) : List ℝ := (N.pyTs B o d).filter fun t => epsZero < t

/-- No two objects are met by the engine at the same distance. -/
def KUntied (S : LScene n) (ray : KRay ℝ Comp) : Prop :=
  ∀ u v t, t ∈ engineTs (S.node u) ray.position ray.direction → t ∈ engineTs (S.node v) ray.position ray.direction → u = v

/-- No point is on the surfaces of two solids. -/
def Apart (S : LScene n) : Prop :=
  ∀ u v p, Solid.Surface (S.node u).geom ((S.node u).w2l.point p) →
    Solid.Surface (S.node v).geom ((S.node v).w2l.point p) → u = v

/-- An object with crossings `xs` cannot decide what happens next to a ray whose crossings with the other objects
are `ts`. It is not crossed exactly once: the ray does not start inside it. And it is behind two other crossings, or
it is behind the first one and the ray enters an object there. If it is not met at all, `xs = []`, this holds. -/
def OutOfWay (ts : Fin (n + 1) → List ℝ) (xs : List ℝ) : Prop :=
  xs.length ≠ 1 ∧
    ((∀ x ∈ xs, ∃ u v a b, a ∈ ts u ∧ b ∈ ts v ∧ ¬ (u = v ∧ a = b) ∧ a < x ∧ b < x) ∨
      ((∃ v, (ts v).length = 1) ∧ ∃ h t, t ∈ ts h ∧ (ts h).length ≠ 1 ∧ (∀ v, v ≠ h → ∀ a ∈ ts v, t < a) ∧
        ∀ x ∈ xs, t < x))

end PV.Library
