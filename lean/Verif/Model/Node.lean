import Verif.Model.Ray

/-!
Scene graph nodes: conversions between coordinate systems and the recursive collection of
intersections, `/repo/pvtrace/scene/node.py:73-174`.
-/

namespace PV
variable {α : Type}

/-- A node, named by the child numbers on the way from the root (`[]` is the root). -/
abbrev Addr := List ℕ

/-- The poses of a scene graph and their inverses as computed by `np.linalg.inv`. -/
structure Poses (α : Type) where
  pose : Addr → Affine α
  inv : Addr → Affine α

/-- `node.path` of anytree: the nodes from the root to this node, both included. -/
def nodePath (a : Addr) : List Addr := a.inits

/-- `Walker().walk(start, end)` of anytree as used in `/repo/pvtrace/scene/node.py:88`: the nodes from
`start` up to, but without, the deepest common ancestor, and the nodes down from there to `end`. -/
def walk (a b : Addr) : List Addr × List Addr :=
  let k := (((nodePath a).zip (nodePath b)).takeWhile (fun p => p.1 = p.2)).length
  (((nodePath a).drop k).reverse, (nodePath b).drop k)

section
variable [Add α] [Mul α] [Zero α] [One α]

/-- Matrix product of a list, `np.linalg.multi_dot`. -/
def multiDot (l : List (Affine α)) : Affine α := l.foldr Affine.comp Affine.one

/-- `Node.transformation_to`, `/repo/pvtrace/scene/node.py:73-95`. -/
def Poses.transformationTo (T : Poses α) (a b : Addr) : Affine α :=
  if a = b then Affine.one
  else
    let (upwards, downwards) := walk a b
    let transforms := upwards.map T.pose ++ downwards.map T.inv
    match transforms with
    | [m] => m
    | ms => multiDot ms.reverse

/-- `Node.point_to_node`, `/repo/pvtrace/scene/node.py:97-114`. -/
def Poses.pointToNode (T : Poses α) (a b : Addr) (p : Vec3 α) : Vec3 α :=
  (T.transformationTo a b).point p

/-- `Node.vector_to_node`, `/repo/pvtrace/scene/node.py:116-130`. -/
def Poses.vectorToNode (T : Poses α) (a b : Addr) (v : Vec3 α) : Vec3 α :=
  (T.transformationTo a b).vec v

end

/-- A scene graph with the pose, its inverse, and the geometry (if any) of each node. -/
inductive SNode (α γ : Type) : Type
  | mk (pose inv : Affine α) (geometry : Option γ) (children : List (SNode α γ))

namespace SNode
variable {γ : Type}

def pose : SNode α γ → Affine α
  | mk p _ _ _ => p
def inv : SNode α γ → Affine α
  | mk _ i _ _ => i
def geometry : SNode α γ → Option γ
  | mk _ _ g _ => g
def children : SNode α γ → List (SNode α γ)
  | mk _ _ _ c => c

/-- The node at an address. -/
def get? : SNode α γ → Addr → Option (SNode α γ)
  | n, [] => some n
  | n, i :: a => match n.children[i]? with
    | none => none
    | some c => c.get? a

/-- The poses of the graph. -/
def poses [Zero α] [One α] (n : SNode α γ) : Poses α where
  pose a := match n.get? a with
    | none => Affine.one
    | some c => c.pose
  inv a := match n.get? a with
    | none => Affine.one
    | some c => c.inv

section
variable [Add α] [Mul α]

/-- What `Intersection` carries: the node that is hit and the parameter, with the local ray.
`hits` is `geometry.intersections` (a list of intersection parameters). -/
structure Found (α : Type) where
  hit : Addr
  origin : Vec3 α
  direction : Vec3 α
  t : α

mutual
/-- `Node.intersections`, `/repo/pvtrace/scene/node.py:137-174`, at the node with address `a`. The
ray is given in the frame of the node. -/
def intersections (hits : γ → Vec3 α → Vec3 α → List α) (a : Addr) :
    SNode α γ → Vec3 α → Vec3 α → List (Found α)
  | mk _ _ g cs, o, d =>
    (match g with
      | none => []
      | some g => (hits g o d).map (fun t => ⟨a, o, d, t⟩)) ++ childIntersections hits a 0 cs o d
/-- The loop over the children, `/repo/pvtrace/scene/node.py:165-173`. The conversion from a node to
its child is the inverse of the child's pose. -/
def childIntersections (hits : γ → Vec3 α → Vec3 α → List α) (a : Addr) (i : ℕ) :
    List (SNode α γ) → Vec3 α → Vec3 α → List (Found α)
  | [], _, _ => []
  | c :: cs, o, d =>
    intersections hits (a ++ [i]) c (c.inv.point o) (c.inv.vec d) ++
      childIntersections hits a (i + 1) cs o d
end

mutual
/-- `PreOrderIter(root)` restricted to nodes with geometry,
`/repo/pvtrace/engine/compiler.py:62-66`. -/
def preorder (a : Addr) : SNode α γ → List (Addr × γ)
  | mk _ _ g cs => (match g with
      | none => []
      | some g => [(a, g)]) ++ childPreorder a 0 cs
def childPreorder (a : Addr) (i : ℕ) : List (SNode α γ) → List (Addr × γ)
  | [] => []
  | c :: cs => preorder (a ++ [i]) c ++ childPreorder a (i + 1) cs
end

end
end SNode
end PV
