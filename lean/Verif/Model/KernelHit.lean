import Verif.Model.NextHit

/-!
Choice of the next interface in the compiled engine,
`/repo/pvtrace/engine/_kernel.pyx:665-714`.

`nodes` lists the node ids `0 .. n_nodes-1` in order, `ts v` the distances written by
`intersect_node` for node `v`.
-/

namespace PV
variable {α ν : Type}

/-- Entry `(hit_node[i], hit_t[i])` of the hit arrays. -/
structure KHit (ν α : Type) where
  node : ν
  t : α
deriving DecidableEq, Repr

/-- The hit arrays after the loop of `/repo/pvtrace/engine/_kernel.pyx:666-680`. The test
`nhits < MAX_HITS` is left out here; `PV.NextHit.hits_fit` shows that it always succeeds. -/
def kHits (nodes : List ν) (ts : ν → List α) : List (KHit ν α) :=
  nodes.flatMap fun v => (ts v).map fun t => ⟨v, t⟩

/-- `Scene.intersections`, `/repo/pvtrace/scene/scene.py:153-195`: the intersections of every
node, converted to the root frame, restricted to those ahead of the ray and sorted by distance.
`ts v` are the distances reported by the geometry of node `v` (nodes in the order of the scene
tree, `/repo/pvtrace/scene/node.py:137-174`) and `pt t` is the point at parameter `t` of the ray.
For a unit direction `intersection_point_is_ahead` (`/repo/pvtrace/geometry/utils.py:431-440`) is
`eps < t`. That every distance equals the ray parameter of its point is an assumption on the
geometry, proved for the analytic shapes in `Props/Geometry`. -/
def sceneInters [LinearOrder α] (eps : α) (pt : α → Vec3 α) (nodes : List ν) (ts : ν → List α) :
    List (Inter ν α) :=
  sortedBy (·.dist)
    (((kHits nodes ts).map fun h => ⟨h.node, pt h.t, h.t⟩).filter (fun x => eps < x.dist))

/-- `first`, `/repo/pvtrace/engine/_kernel.pyx:685-688`: entry and index. -/
def kFirst [LinearOrder α] (x : KHit ν α) (l : List (KHit ν α)) : KHit ν α × ℕ :=
  (l.zipIdx 1).foldl (fun best e => if e.1.t < best.1.t then e else best) (x, 0)

/-- `second`, `/repo/pvtrace/engine/_kernel.pyx:689-693`. -/
def kSecond [LinearOrder α] (first : ℕ) (l : List (KHit ν α)) : Option (KHit ν α) :=
  l.zipIdx.foldl (fun acc e =>
    if e.2 ≠ first then
      match acc with
      | none => some e.1
      | some b => if e.1.t < b.t then some e.1 else acc
    else acc) none

/-- `node_min_t[node]`, `/repo/pvtrace/engine/_kernel.pyx:669,679-680`; `none` is `INFINITY`. -/
def kMinT [LinearOrder α] (ts : List α) : Option α :=
  ts.foldl (fun acc t =>
    match acc with
    | none => some t
    | some m => if t < m then some t else acc) none

/-- The container search, `/repo/pvtrace/engine/_kernel.pyx:703-708`; `best` and `container`
together, `none` while `container < 0`. -/
def kContainer [LinearOrder α] (nodes : List ν) (ts : ν → List α) : Option (KHit ν α) :=
  nodes.foldl (fun acc v =>
    if (ts v).length = 1 then
      match kMinT (ts v) with
      | none => acc
      | some m =>
        match acc with
        | none => some ⟨v, m⟩
        | some b => if m < b.t then some ⟨v, m⟩ else acc
    else acc) none

/-- `hit`, `container`, `adjacent` and `t0`, `/repo/pvtrace/engine/_kernel.pyx:681-714`;
`none` when `nhits == 0`, `adjacent = none` for `-1`. -/
def kNextHit [LinearOrder α] [DecidableEq ν] (nodes : List ν) (ts : ν → List α) :
    Option (ν × ν × Option ν × α) :=
  match kHits nodes ts with
  | [] => none
  | x :: l =>
    let first := kFirst x l
    let hit := first.1.node
    let t0 := first.1.t
    match l with
    | [] => some (hit, hit, none, t0)
    | _ :: _ =>
      let container :=
        match kContainer nodes ts with
        | some c => c.node
        | none => hit
      let adjacent :=
        if container = hit then (kSecond first.2 (x :: l)).map (·.node) else some hit
      some (hit, container, adjacent, t0)

end PV
