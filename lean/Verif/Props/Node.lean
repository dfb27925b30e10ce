import Verif.Model.Node
import Verif.Lemmas.Vec

/-!
C46: conversion between the coordinate systems of nodes.
-/

namespace PV.Node
open PV
variable {α : Type} [CommRing α]
set_option linter.unusedSectionVars false

/-! ### Algebra of affine maps -/

theorem comp_assoc (a b c : Affine α) : (a.comp b).comp c = a.comp (b.comp c) := by
  ext <;> simp only [Affine.comp, Affine.point, Affine.vec, Vec3.dot, Affine.c0, Affine.c1,
    Affine.c2, Vec3.add_x, Vec3.add_y, Vec3.add_z] <;> ring

theorem comp_one (a : Affine α) : a.comp Affine.one = a := by
  ext <;> simp [Affine.comp, Affine.one, Affine.point, Affine.vec, Vec3.dot, Affine.c0, Affine.c1,
    Affine.c2]

theorem one_comp (a : Affine α) : Affine.one.comp a = a := by
  ext <;> simp [Affine.comp, Affine.one, Affine.point, Affine.vec, Vec3.dot, Affine.c0, Affine.c1,
    Affine.c2]

theorem one_point (p : Vec3 α) : (Affine.one : Affine α).point p = p := by
  ext <;> simp [Affine.one, Affine.point, Affine.vec, Vec3.dot]

theorem one_vec (p : Vec3 α) : (Affine.one : Affine α).vec p = p := by
  ext <;> simp [Affine.one, Affine.vec, Vec3.dot]

/-- `np.linalg.inv` inverts from both sides. -/
def Inverts (T : Poses α) : Prop :=
  ∀ a, (T.inv a).comp (T.pose a) = Affine.one ∧ (T.pose a).comp (T.inv a) = Affine.one

/-- Product of the poses along a path from top to bottom. -/
def down (T : Poses α) (l : List Addr) : Affine α :=
  l.foldr (fun n acc => (T.pose n).comp acc) Affine.one

/-- Product of the inverses along a path from top to bottom. -/
def up (T : Poses α) : List Addr → Affine α
  | [] => Affine.one
  | n :: l => (up T l).comp (T.inv n)

theorem down_append (T : Poses α) (l m : List Addr) :
    down T (l ++ m) = (down T l).comp (down T m) := by
  induction l with
  | nil => simp [down, one_comp]
  | cons n l ih =>
    have : down T (n :: l ++ m) = (T.pose n).comp (down T (l ++ m)) := rfl
    rw [this, ih, ← comp_assoc]
    rfl

theorem up_append (T : Poses α) (l m : List Addr) : up T (l ++ m) = (up T m).comp (up T l) := by
  induction l with
  | nil => simp [up, comp_one]
  | cons n l ih => simp only [List.cons_append, up, ih, comp_assoc]

theorem up_down {T : Poses α} (h : Inverts T) (l : List Addr) :
    (up T l).comp (down T l) = Affine.one := by
  induction l with
  | nil => simp [up, down, comp_one]
  | cons n l ih =>
    have : down T (n :: l) = (T.pose n).comp (down T l) := rfl
    rw [this]
    simp only [up]
    rw [comp_assoc, ← comp_assoc (T.inv n), (h n).1, one_comp, ih]

theorem down_up {T : Poses α} (h : Inverts T) (l : List Addr) :
    (down T l).comp (up T l) = Affine.one := by
  induction l with
  | nil => simp [up, down, comp_one]
  | cons n l ih =>
    have : down T (n :: l) = (T.pose n).comp (down T l) := rfl
    rw [this]
    simp only [up]
    rw [comp_assoc, ← comp_assoc (down T l), ih, one_comp, (h n).2]

theorem multiDot_append (l m : List (Affine α)) :
    multiDot (l ++ m) = (multiDot l).comp (multiDot m) := by
  induction l with
  | nil => simp [multiDot, one_comp]
  | cons n l ih =>
    have : multiDot (n :: l ++ m) = n.comp (multiDot (l ++ m)) := rfl
    rw [this, ih, ← comp_assoc]
    rfl

theorem multiDot_poses (T : Poses α) (l : List Addr) : multiDot (l.map T.pose) = down T l := by
  induction l with
  | nil => rfl
  | cons n l ih =>
    have : multiDot ((n :: l).map T.pose) = (T.pose n).comp (multiDot (l.map T.pose)) := rfl
    rw [this, ih]; rfl

theorem multiDot_invs (T : Poses α) (l : List Addr) :
    multiDot (l.reverse.map T.inv) = up T l := by
  induction l with
  | nil => rfl
  | cons n l ih =>
    rw [List.reverse_cons, List.map_append, multiDot_append, ih]
    simp [multiDot, up, comp_one]

/-- Elements before the first difference of two lists agree. -/
theorem take_takeWhile_zip {β : Type} [DecidableEq β] (l m : List β) :
    l.take ((l.zip m).takeWhile (fun p => decide (p.1 = p.2))).length =
      m.take ((l.zip m).takeWhile (fun p => decide (p.1 = p.2))).length := by
  induction l generalizing m with
  | nil => simp
  | cons x l ih =>
    cases m with
    | nil => simp
    | cons y m =>
      simp only [List.zip_cons_cons, List.takeWhile_cons]
      by_cases h : x = y
      · simp only [h, decide_true, if_true, List.length_cons, List.take_succ_cons, ih m]
      · simp [h]

theorem transformationTo_eq {T : Poses α} (h : Inverts T) (a b : Addr) :
    T.transformationTo a b = (up T (nodePath b)).comp (down T (nodePath a)) := by
  unfold Poses.transformationTo
  split
  · next e => rw [e, up_down h]
  · next e =>
    have hk := take_takeWhile_zip (nodePath a) (nodePath b)
    simp only [walk]
    generalize ((((nodePath a).zip (nodePath b)).takeWhile (fun p => decide (p.1 = p.2))).length) = k
      at hk ⊢
    have key : ∀ ms : List (Affine α), (match ms with
        | [m] => m
        | ms => multiDot ms.reverse) = multiDot ms.reverse := by
      intro ms
      match ms with
      | [] => rfl
      | [m] => simp [multiDot, comp_one]
      | _ :: _ :: _ => rfl
    refine (key _).trans ?_
    rw [List.reverse_append, multiDot_append, ← List.map_reverse, multiDot_invs,
      ← List.map_reverse, List.reverse_reverse, multiDot_poses]
    have ea := List.take_append_drop k (nodePath a)
    have eb := List.take_append_drop k (nodePath b)
    conv_rhs => rw [← ea, ← eb, down_append, up_append, hk]
    rw [comp_assoc, ← comp_assoc (up T ((nodePath b).take k)), up_down h, one_comp]

/-! ### C46 -/

/-- **C46**. Converting a point to another node and back gives the point. -/
theorem point_roundtrip {T : Poses α} (h : Inverts T) (a b : Addr) (p : Vec3 α) :
    T.pointToNode b a (T.pointToNode a b p) = p := by
  unfold Poses.pointToNode
  rw [← Affine.comp_point, transformationTo_eq h, transformationTo_eq h, comp_assoc,
    ← comp_assoc (down T (nodePath b)), down_up h, one_comp, up_down h, one_point]

/-- **C46**. The same for vectors. -/
theorem vector_roundtrip {T : Poses α} (h : Inverts T) (a b : Addr) (v : Vec3 α) :
    T.vectorToNode b a (T.vectorToNode a b v) = v := by
  unfold Poses.vectorToNode
  rw [← Affine.comp_vec, transformationTo_eq h, transformationTo_eq h, comp_assoc,
    ← comp_assoc (down T (nodePath b)), down_up h, one_comp, up_down h, one_vec]

/-- **C46**. Conversion through an intermediate node equals direct conversion. -/
theorem point_via {T : Poses α} (h : Inverts T) (a b c : Addr) (p : Vec3 α) :
    T.pointToNode b c (T.pointToNode a b p) = T.pointToNode a c p := by
  unfold Poses.pointToNode
  rw [← Affine.comp_point, transformationTo_eq h, transformationTo_eq h, transformationTo_eq h,
    comp_assoc, ← comp_assoc (down T (nodePath b)), down_up h, one_comp]

/-- **C46**. The same for vectors. -/
theorem vector_via {T : Poses α} (h : Inverts T) (a b c : Addr) (v : Vec3 α) :
    T.vectorToNode b c (T.vectorToNode a b v) = T.vectorToNode a c v := by
  unfold Poses.vectorToNode
  rw [← Affine.comp_vec, transformationTo_eq h, transformationTo_eq h, transformationTo_eq h,
    comp_assoc, ← comp_assoc (down T (nodePath b)), down_up h, one_comp]

/-- **C46**. Differences of points convert as vectors. -/
theorem point_difference (T : Poses α) (a b : Addr) (p q : Vec3 α) :
    T.pointToNode a b p - T.pointToNode a b q = T.vectorToNode a b (p - q) :=
  Affine.point_sub _ p q

/-- **C46**. The parent of a node sees the node's local points through its pose. -/
theorem point_to_parent {T : Poses α} (h : Inverts T) (a : Addr) (i : ℕ) (p : Vec3 α) :
    T.pointToNode (a ++ [i]) a p = (T.pose (a ++ [i])).point p := by
  unfold Poses.pointToNode
  rw [transformationTo_eq h]
  have : nodePath (a ++ [i]) = nodePath a ++ [a ++ [i]] := by simp [nodePath]
  rw [this, down_append, ← comp_assoc, up_down h, one_comp]
  simp [down, comp_one]

/-- A map that preserves inner products. -/
def Isometry (m : Affine α) : Prop := ∀ u v, (m.vec u).dot (m.vec v) = u.dot v

theorem isometry_one : Isometry (Affine.one : Affine α) := fun u v => by rw [one_vec, one_vec]

theorem Isometry.comp {m n : Affine α} (hm : Isometry m) (hn : Isometry n) :
    Isometry (m.comp n) := fun u v => by rw [Affine.comp_vec, Affine.comp_vec, hm, hn]

theorem isometry_down {T : Poses α} (hr : ∀ a, (T.pose a).Rigid) (l : List Addr) :
    Isometry (down T l) := by
  induction l with
  | nil => exact isometry_one
  | cons n l ih => exact Isometry.comp (fun u v => (hr n).dot_vec u v) ih

theorem isometry_up {T : Poses α} (h : Inverts T) (hr : ∀ a, (T.pose a).Rigid) (l : List Addr) :
    Isometry (up T l) := by
  intro u v
  rw [← isometry_down hr l, ← Affine.comp_vec, ← Affine.comp_vec, down_up h, one_vec, one_vec]

/-- **C46**. With rigid poses inner products, hence lengths and angles, are preserved. -/
theorem dot_preserved {T : Poses α} (h : Inverts T) (hr : ∀ a, (T.pose a).Rigid) (a b : Addr)
    (u v : Vec3 α) : (T.vectorToNode a b u).dot (T.vectorToNode a b v) = u.dot v := by
  unfold Poses.vectorToNode
  rw [transformationTo_eq h]
  exact (isometry_up h hr _).comp (isometry_down hr _) u v

/-- **C46**. With rigid poses (squared) distances are preserved. -/
theorem distance_preserved {T : Poses α} (h : Inverts T) (hr : ∀ a, (T.pose a).Rigid) (a b : Addr)
    (p q : Vec3 α) :
    (T.pointToNode a b p - T.pointToNode a b q).dot (T.pointToNode a b p - T.pointToNode a b q) =
      (p - q).dot (p - q) := by
  rw [point_difference, dot_preserved h hr]

/-- **C46** (engine). The engine's `world_to_local`, the inverse of the transformation to the root, is
the transformation from the root to the node. -/
theorem engine_world_to_local {T : Poses α} (h : Inverts T) (a : Addr) {w : Affine α}
    (hw : w.comp (T.transformationTo a []) = Affine.one) : w = T.transformationTo [] a := by
  have e : (T.transformationTo a []).comp (T.transformationTo [] a) = Affine.one := by
    rw [transformationTo_eq h, transformationTo_eq h, comp_assoc,
      ← comp_assoc (down T (nodePath a)), down_up h, one_comp, up_down h]
  rw [← comp_one w, ← e, ← comp_assoc, hw, one_comp]

/-- Non-vacuity: every node is turned a quarter about z and moved along x by its depth. -/
def quarter : Poses ℤ where
  pose a := ⟨⟨0, -1, 0⟩, ⟨1, 0, 0⟩, ⟨0, 0, 1⟩, ⟨a.length, 0, 0⟩⟩
  inv a := ⟨⟨0, 1, 0⟩, ⟨-1, 0, 0⟩, ⟨0, 0, 1⟩, ⟨0, a.length, 0⟩⟩

example : Inverts quarter ∧ (∀ a, (quarter.pose a).Rigid) ∧
    quarter.pointToNode [0, 1] [2] ⟨1, 0, 0⟩ = ⟨2, 1, 0⟩ := by
  refine ⟨fun a => ⟨?_, ?_⟩, fun a => ?_, by decide⟩
  · ext <;> simp [quarter, Affine.comp, Affine.one, Affine.point, Affine.vec, Vec3.dot, Affine.c0,
      Affine.c1, Affine.c2]
  · ext <;> simp [quarter, Affine.comp, Affine.one, Affine.point, Affine.vec, Vec3.dot, Affine.c0,
      Affine.c1, Affine.c2]
  · simp [quarter, Affine.Rigid, Vec3.dot]

/-! ### The recursive search for intersections -/

variable {γ : Type}

theorem get?_append (n : SNode α γ) (a : Addr) (i : ℕ) :
    n.get? (a ++ [i]) = (n.get? a).bind (fun m => m.children[i]?) := by
  induction a generalizing n with
  | nil =>
    simp only [List.nil_append, SNode.get?, Option.bind_some]
    cases n.children[i]? <;> rfl
  | cons j a ih =>
    simp only [List.cons_append, SNode.get?]
    cases n.children[j]? with
    | none => rfl
    | some c => exact ih c

/-- The local rays of the recursion are the ray converted directly from the root to the node. -/
theorem up_child {n c m : SNode α γ} {a : Addr} {i : ℕ} (hm : n.get? a = some m)
    (hc : m.children[i]? = some c) :
    up n.poses (nodePath (a ++ [i])).tail = c.inv.comp (up n.poses (nodePath a).tail) := by
  have : (nodePath (a ++ [i])).tail = (nodePath a).tail ++ [a ++ [i]] := by
    have : nodePath (a ++ [i]) = nodePath a ++ [a ++ [i]] := by simp [nodePath]
    rw [this, List.tail_append_of_ne_nil]
    cases a <;> simp [nodePath]
  rw [this, up_append]
  have : n.poses.inv (a ++ [i]) = c.inv := by
    simp only [SNode.poses, get?_append, hm, Option.bind_some, hc]
  simp only [up, this, one_comp]

mutual
theorem intersections_flat (hits : γ → Vec3 α → Vec3 α → List α) (root : SNode α γ) (o d : Vec3 α)
    (a : Addr) : ∀ (n : SNode α γ), root.get? a = some n →
    SNode.intersections hits a n ((up root.poses (nodePath a).tail).point o)
      ((up root.poses (nodePath a).tail).vec d) =
    (SNode.preorder a n).flatMap (fun e =>
      (hits e.2 ((up root.poses (nodePath e.1).tail).point o) ((up root.poses (nodePath e.1).tail).vec d)).map
        (fun t => ⟨e.1, (up root.poses (nodePath e.1).tail).point o,
          (up root.poses (nodePath e.1).tail).vec d, t⟩))
  | .mk p i g cs, h => by
    simp only [SNode.intersections, SNode.preorder]
    rw [List.flatMap_append,
      childIntersections_flat hits root o d a 0 cs (.mk p i g cs) h
        (fun j => by simp [SNode.children])]
    congr 1
    cases g with
    | none => rfl
    | some g => simp
theorem childIntersections_flat (hits : γ → Vec3 α → Vec3 α → List α) (root : SNode α γ)
    (o d : Vec3 α) (a : Addr) (i : ℕ) : ∀ (cs : List (SNode α γ)) (m : SNode α γ),
    root.get? a = some m → (∀ j : ℕ, m.children[i + j]? = cs[j]?) →
    SNode.childIntersections hits a i cs ((up root.poses (nodePath a).tail).point o)
      ((up root.poses (nodePath a).tail).vec d) =
    (SNode.childPreorder a i cs).flatMap (fun e =>
      (hits e.2 ((up root.poses (nodePath e.1).tail).point o) ((up root.poses (nodePath e.1).tail).vec d)).map
        (fun t => ⟨e.1, (up root.poses (nodePath e.1).tail).point o,
          (up root.poses (nodePath e.1).tail).vec d, t⟩))
  | [], _, _, _ => rfl
  | c :: cs, m, hm, hcs => by
    have hc : m.children[i]? = some c := by simpa using hcs 0
    have hg : root.get? (a ++ [i]) = some c := by rw [get?_append, hm]; exact hc
    rw [SNode.childIntersections, SNode.childPreorder, List.flatMap_append,
      childIntersections_flat hits root o d a (i + 1) cs m hm
        (fun j => by rw [show i + 1 + j = i + (j + 1) by omega, hcs (j + 1)]; rfl)]
    congr 1
    rw [← intersections_flat hits root o d (a ++ [i]) c hg, up_child hm hc, Affine.comp_point,
      Affine.comp_vec]
end

/-- **C46** (use in the tracer). The intersections of a scene are, node by node in pre-order (the
order of the engine's node table), the intersections of the node's geometry with the ray converted
to the node. -/
theorem scene_intersections (hits : γ → Vec3 α → Vec3 α → List α) (root : SNode α γ)
    (h : Inverts root.poses) (o d : Vec3 α) :
    SNode.intersections hits [] root o d =
    (SNode.preorder [] root).flatMap (fun e =>
      (hits e.2 (root.poses.pointToNode [] e.1 o) (root.poses.vectorToNode [] e.1 d)).map
        (fun t => ⟨e.1, root.poses.pointToNode [] e.1 o, root.poses.vectorToNode [] e.1 d, t⟩)) := by
  have key : ∀ e : Addr, root.poses.transformationTo [] e = up root.poses (nodePath e).tail := by
    intro e
    rw [transformationTo_eq h]
    have : nodePath e = [] :: (nodePath e).tail := by cases e <;> simp [nodePath]
    conv_lhs => rw [this]
    simp only [up, nodePath, List.inits, down, List.foldr_cons, List.foldr_nil, comp_one]
    rw [comp_assoc, (h []).1, comp_one]
  have := intersections_flat hits root o d [] root (by simp [SNode.get?])
  have hu : up root.poses (nodePath []).tail = Affine.one := by simp [nodePath, up]
  rw [hu, one_point, one_vec] at this
  rw [this]
  simp only [Poses.pointToNode, Poses.vectorToNode, key]

end PV.Node
