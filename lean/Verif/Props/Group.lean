import Verif.Props.Node
import Verif.Props.Moved

/-!
**C104**, the scene graph: how a user moves an apparatus. Everything below the world is put into one
group node, and the group is given a pose.
-/

namespace PV.Moved
open PV.Node

section
variable {α : Type} [CommRing α] {γ : Type}

/-- The scene graph with everything below the root put into one group with pose `g`. -/
def grouped (g gi : Affine α) : SNode α γ → SNode α γ
  | .mk p i geo cs => .mk p i geo [.mk g gi none cs]

/-- Where a node is found after the grouping. -/
def inGroup : Addr → Addr
  | [] => []
  | k :: a => 0 :: k :: a

theorem to_root {T : Poses α} (h : Inverts T) (a : Addr) :
    T.transformationTo a [] = down T (nodePath a).tail := by
  rw [transformationTo_eq h]
  have : nodePath a = [] :: (nodePath a).tail := by cases a <;> simp [nodePath]
  conv_lhs => rw [this]
  simp only [up, nodePath, List.inits, down, List.foldr_cons, one_comp]
  rw [← comp_assoc, (h []).1, one_comp]

theorem from_root {T : Poses α} (h : Inverts T) (a : Addr) :
    T.transformationTo [] a = up T (nodePath a).tail := by
  rw [transformationTo_eq h]
  have : nodePath a = [] :: (nodePath a).tail := by cases a <;> simp [nodePath]
  conv_lhs => rw [this]
  simp only [up, nodePath, List.inits, down, List.foldr_cons, List.foldr_nil, comp_one]
  rw [comp_assoc, (h []).1, comp_one]

variable {g gi : Affine α}

theorem grouped_get (N : SNode α γ) (k : ℕ) (a : Addr) :
    (grouped g gi N).get? (0 :: k :: a) = N.get? (k :: a) := by
  cases N; simp [grouped, SNode.get?, SNode.children]

theorem grouped_inverts {N : SNode α γ} (h : Inverts N.poses)
    (hi : gi.comp g = Affine.one ∧ g.comp gi = Affine.one) : Inverts (grouped g gi N).poses := by
  intro a
  match a with
  | [] => cases N; exact h []
  | [0] => cases N; exact hi
  | 0 :: k :: a =>
    have := h (k :: a)
    simp only [SNode.poses, grouped_get] at this ⊢
    exact this
  | (j + 1) :: a =>
    cases N
    simp [grouped, SNode.poses, SNode.get?, SNode.children, one_comp]

theorem grouped_path (k : ℕ) (a : Addr) :
    (nodePath (0 :: k :: a)).tail = [0] :: (nodePath (k :: a)).tail.map (0 :: ·) := by
  simp [nodePath]

theorem grouped_down (N : SNode α γ) (l : List Addr) (hl : ∀ b ∈ l, b ≠ []) :
    down (grouped g gi N).poses (l.map (0 :: ·)) = down N.poses l := by
  induction l with
  | nil => rfl
  | cons b l ih =>
    have := ih (fun b hb => hl b (by simp [hb]))
    obtain ⟨k, b, rfl⟩ := List.exists_cons_of_ne_nil (hl b (by simp))
    unfold down at this ⊢
    rw [List.map_cons, List.foldr_cons, List.foldr_cons, this]
    simp only [SNode.poses, grouped_get]

theorem grouped_up (N : SNode α γ) (l : List Addr) (hl : ∀ b ∈ l, b ≠ []) :
    up (grouped g gi N).poses (l.map (0 :: ·)) = up N.poses l := by
  induction l with
  | nil => rfl
  | cons b l ih =>
    have := ih (fun b hb => hl b (by simp [hb]))
    obtain ⟨k, b, rfl⟩ := List.exists_cons_of_ne_nil (hl b (by simp))
    rw [List.map_cons, up, up, this]
    simp only [SNode.poses, grouped_get]

theorem path_ne (k : ℕ) (a : Addr) : ∀ b ∈ (nodePath (k :: a)).tail, b ≠ [] := by
  intro b hb
  simp only [nodePath, List.inits_cons, List.tail_cons, List.mem_map] at hb
  obtain ⟨c, _, rfl⟩ := hb
  simp

/-- **C104** (scene graph). Giving the group that holds the apparatus the pose `g` carries everything
in it along: what a node calls `p` is found in the world where `g` takes the old place. -/
theorem group_moves {N : SNode α γ} (h : Inverts N.poses)
    (hi : gi.comp g = Affine.one ∧ g.comp gi = Affine.one) {a : Addr} (ha : a ≠ []) (p : Vec3 α) :
    (grouped g gi N).poses.pointToNode (inGroup a) [] p = g.point (N.poses.pointToNode a [] p) ∧
    (grouped g gi N).poses.vectorToNode (inGroup a) [] p = g.vec (N.poses.vectorToNode a [] p) ∧
    (grouped g gi N).poses.pointToNode [] (inGroup a) p = N.poses.pointToNode [] a (gi.point p) ∧
    (grouped g gi N).poses.vectorToNode [] (inGroup a) p = N.poses.vectorToNode [] a (gi.vec p) := by
  obtain ⟨k, a, rfl⟩ := List.exists_cons_of_ne_nil ha
  have h' := grouped_inverts h hi
  have hp : (grouped g gi N).poses.pose [0] = g := by cases N; rfl
  have hq : (grouped g gi N).poses.inv [0] = gi := by cases N; rfl
  have e1 : (grouped g gi N).poses.transformationTo (0 :: k :: a) [] =
      g.comp (N.poses.transformationTo (k :: a) []) := by
    rw [to_root h', to_root h, grouped_path, ← grouped_down (g := g) (gi := gi) N _ (path_ne k a)]
    show ((grouped g gi N).poses.pose [0]).comp _ = _
    rw [hp]
    rfl
  have e2 : (grouped g gi N).poses.transformationTo [] (0 :: k :: a) =
      (N.poses.transformationTo [] (k :: a)).comp gi := by
    rw [from_root h', from_root h, grouped_path, up, grouped_up N _ (path_ne k a), hq]
  simp only [Poses.pointToNode, Poses.vectorToNode, inGroup, e1, e2, Affine.comp_point,
    Affine.comp_vec, and_self]

mutual
theorem preorder_prefix (b a : Addr) : ∀ N : SNode α γ,
    SNode.preorder (b ++ a) N = (SNode.preorder a N).map (fun e => (b ++ e.1, e.2))
  | .mk p i geo cs => by
    simp only [SNode.preorder, childPreorder_prefix b a 0 cs, List.map_append]
    cases geo <;> simp
theorem childPreorder_prefix (b a : Addr) (i : ℕ) : ∀ cs : List (SNode α γ),
    SNode.childPreorder (b ++ a) i cs = (SNode.childPreorder a i cs).map (fun e => (b ++ e.1, e.2))
  | [] => rfl
  | c :: cs => by
    simp only [SNode.childPreorder, List.map_append, ← childPreorder_prefix b a (i + 1) cs,
      ← preorder_prefix b (a ++ [i]) c, List.append_assoc]
end

mutual
theorem preorder_ne (a : Addr) (ha : a ≠ []) : ∀ N : SNode α γ, ∀ e ∈ SNode.preorder a N, e.1 ≠ []
  | .mk p i geo cs, e, he => by
    simp only [SNode.preorder, List.mem_append] at he
    rcases he with he | he
    · cases geo with
      | none => simp at he
      | some x => simp only [List.mem_singleton] at he; subst he; exact ha
    · exact childPreorder_ne a 0 cs e he
theorem childPreorder_ne (a : Addr) (i : ℕ) : ∀ cs : List (SNode α γ),
    ∀ e ∈ SNode.childPreorder a i cs, e.1 ≠ []
  | [], e, he => by simp [SNode.childPreorder] at he
  | c :: cs, e, he => by
    rw [SNode.childPreorder, List.mem_append] at he
    rcases he with he | he
    · exact preorder_ne (a ++ [i]) (by simp) c e he
    · exact childPreorder_ne a (i + 1) cs e he
end

/-- **C104** (scene graph). The grouping changes neither which objects the scene has nor their
order. -/
theorem group_order (N : SNode α γ) :
    SNode.preorder [] (grouped g gi N) =
      (SNode.preorder [] N).map (fun e => (inGroup e.1, e.2)) := by
  obtain ⟨p, i, geo, cs⟩ := N
  have e : SNode.childPreorder [0] 0 cs =
      (SNode.childPreorder [] 0 cs).map (fun e => (inGroup e.1, e.2)) := by
    have := childPreorder_prefix [0] [] 0 cs
    rw [List.append_nil] at this
    rw [this]
    apply List.map_congr_left
    intro e he
    obtain ⟨k, a, h⟩ := List.exists_cons_of_ne_nil (childPreorder_ne [] 0 cs e he)
    simp [h, inGroup]
  simp only [grouped, SNode.preorder, SNode.childPreorder, List.nil_append, List.append_nil,
    List.map_append, e]
  cases geo <;> simp [inGroup]

end

/-- The hypotheses are met: a node below another one, and a quarter turn. -/
example : ∃ (g gi : Affine ℚ) (N : SNode ℚ Unit), Inverts N.poses ∧
    (gi.comp g = Affine.one ∧ g.comp gi = Affine.one) ∧
    (SNode.preorder [] N).map Prod.fst = [[], [0], [0, 0]] ∧
    (N.poses.pointToNode [0, 0] [] ⟨0, 0, 0⟩).x = 3 ∧
    ((grouped g gi N).poses.pointToNode [0, 0, 0] [] ⟨0, 0, 0⟩).y = 3 := by
  let u : ℚ → Affine ℚ := fun x => ⟨⟨1, 0, 0⟩, ⟨0, 1, 0⟩, ⟨0, 0, 1⟩, ⟨x, 0, 0⟩⟩
  have hu : ∀ x y, (u x).comp (u y) = u (x + y) := by
    intro x y
    ext <;> simp [u, Affine.comp, Affine.point, Affine.vec, Vec3.dot, Affine.c0, Affine.c1, Affine.c2]
    ring
  have h0 : u 0 = Affine.one := rfl
  refine ⟨⟨⟨0, -1, 0⟩, ⟨1, 0, 0⟩, ⟨0, 0, 1⟩, 0⟩, ⟨⟨0, 1, 0⟩, ⟨-1, 0, 0⟩, ⟨0, 0, 1⟩, 0⟩,
    .mk Affine.one Affine.one (some ())
      [.mk (u 1) (u (-1)) (some ()) [.mk (u 2) (u (-2)) (some ()) []]], ?_, ?_, ?_, ?_, ?_⟩
  · intro a
    match a with
    | [] => exact ⟨one_comp _, one_comp _⟩
    | [0] =>
      refine ⟨(hu _ _).trans ?_, (hu _ _).trans ?_⟩ <;> norm_num [h0]
    | [0, 0] =>
      refine ⟨(hu _ _).trans ?_, (hu _ _).trans ?_⟩ <;> norm_num [h0]
    | (j + 1) :: a => exact ⟨one_comp _, one_comp _⟩
    | 0 :: (j + 1) :: a => exact ⟨one_comp _, one_comp _⟩
    | 0 :: 0 :: k :: a => exact ⟨one_comp _, one_comp _⟩
  · constructor <;> decide +kernel
  · rfl
  · decide +kernel
  · decide +kernel

end PV.Moved
