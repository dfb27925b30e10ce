import Verif.Spec.Agreement
import Verif.Spec.Nested

/-!
Where objects of a scene are, as sets of points in scene coordinates, and arrangements in which they
do not overlap.
-/

namespace PV.Library
open Solid
variable {σ : Type} {n : ℕ}

/-- The point belongs to the object (surface included). -/
def Has (N : LNode) (p : Vec3 ℝ) : Prop := Closed N.geom (N.w2l.point p)

/-- The point is strictly inside the object. -/
def HasInner (N : LNode) (p : Vec3 ℝ) : Prop := Inner N.geom (N.w2l.point p)

/-- `N` is strictly inside `M`. -/
def Within (N M : LNode) : Prop := ∀ p, Has N p → HasInner M p

/-- Objects are nested or do not overlap (they may touch), and all are inside the world. -/
structure Arranged (S : LScene n) : Prop where
  proper : ∀ v, Proper (S.node v).geom
  apart : ∀ u v, u ≠ v → Within (S.node u) (S.node v) ∨ Within (S.node v) (S.node u) ∨
    ∀ p, ¬ (HasInner (S.node u) p ∧ HasInner (S.node v) p)
  world : ∀ v, v ≠ 0 → Within (S.node v) (S.node 0)

/-- The object around the point: it contains it, and every other object that has the point inside
contains the whole object. -/
def Medium (S : LScene n) (c : Fin (n + 1)) (p : Vec3 ℝ) : Prop :=
  Has (S.node c) p ∧ ∀ w, HasInner (S.node w) p → w = c ∨ Within (S.node c) (S.node w)

/-- Rays in general position: the line touches no object without going through it, the conditions
under which the Python shapes report all crossings hold (`PV.Geometry.python_span_partial`), and the ray is
inside the world and not within `EPS_ZERO` of leaving it. -/
structure General (S : LScene n) (B : Trimesh) (ray : Ray ℝ) : Prop where
  clear : ∀ v, Geometry.ClearDir (S.node v).geom ((S.node v).localDir ray.direction)
  line : ∀ v, RegularLine B (S.node v).geom ((S.node v).localOrigin ray.position)
    ((S.node v).localDir ray.direction)
  through : ∀ v, (∃ t : ℝ, HasInner (S.node v) (ray.position + t • ray.direction)) ∨
    ∀ t : ℝ, ¬ Has (S.node v) (ray.position + t • ray.direction)
  room : HasInner (S.node 0) (ray.position + epsZero • ray.direction)

/-- The states of the ray at the beginning of each pass of the loop of the Python tracer. -/
inductive Reached (S : LScene n) (B : Trimesh) (R : Rand σ) (method : EmitMethod) (maxsteps : ℕ)
    (maxpath : Option ℝ) (ray : Ray ℝ) (s : σ) : ℕ → Ray ℝ → σ → Prop
  | start : Reached S B R method maxsteps maxpath ray s 0 ray s
  | next {count ray' s' ray'' s''} (h : Reached S B R method maxsteps maxpath ray s count ray' s')
      (hb : (body (pyOps S B R method) maxsteps maxpath (count + 1) ray' s').2 = .cont ray'' s'') :
      Reached S B R method maxsteps maxpath ray s (count + 1) ray'' s''

end PV.Library
