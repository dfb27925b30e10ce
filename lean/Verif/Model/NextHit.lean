import Verif.Model.Ray
import Mathlib.Data.List.Sort
import Mathlib.Data.List.Count

/-!
Choice of the next interface: `find_container` and `next_hit` of
`/repo/pvtrace/algorithm/photon_tracer.py:26-109`.
-/

namespace PV
variable {α ν : Type}

/-- `Intersection`, `/repo/pvtrace/geometry/intersection.py:14-25`, already expressed in the
root frame (`.to(root)`); `dist` is the stored `distance` field. -/
structure Inter (ν α : Type) where
  hit : ν
  point : Vec3 α
  dist : α
deriving DecidableEq, Repr

/-- Python's `sorted(l, key=key)`, which is stable. -/
def sortedBy {β : Type} [LinearOrder α] (key : β → α) (l : List β) : List β :=
  l.insertionSort (fun a b => key a ≤ key b)

/-- `find_container`, `/repo/pvtrace/algorithm/photon_tracer.py:26-57`. With no candidate
`zip(*[])` cannot be unpacked: `ValueError`. -/
def findContainer [LinearOrder α] [DecidableEq ν] (l : List (Inter ν α)) : Except Err ν :=
  match l with
  | [x] => .ok x.hit
  | l =>
    let hits := l.map (·.hit)
    let pairs := l.filter (fun x => hits.count x.hit = 1)
    match sortedBy (·.dist) pairs with
    | [] => .error .valueError
    | p :: _ => .ok p.hit

/-- The tuple returned by `next_hit`. -/
structure HitInfo (ν α : Type) where
  hit : ν
  container : ν
  adjacent : Option ν
  point : Vec3 α
  dist : α
deriving DecidableEq, Repr

/-- `next_hit`, `/repo/pvtrace/algorithm/photon_tracer.py:83-109`, given the list returned by
`scene.intersections`. `distBetween` is `distance_between(ray.position, ·)` and `eps` is
`EPS_ZERO`; `close_to_zero` is `|v| < EPS_ZERO` (`/repo/pvtrace/geometry/utils.py:356-357`). -/
def nextHit [Field α] [LinearOrder α] [DecidableEq ν] (eps : α) (distBetween : Vec3 α → α)
    (intersections : List (Inter ν α)) : Except Err (Option (HitInfo ν α)) :=
  let l := intersections.filter (fun x => ¬ |x.dist| < eps)
  match l with
  | [] => .ok none
  | [h] => .ok (some ⟨h.hit, h.hit, none, h.point, h.dist⟩)
  | h :: h2 :: rest =>
    match findContainer (h :: h2 :: rest) with
    | .error e => .error e
    | .ok container =>
      .ok (some ⟨h.hit, container, some (if container = h.hit then h2.hit else h.hit),
        h.point, distBetween h.point⟩)

end PV
