import Verif.Model.KernelTally

/-!
Which recorders of a scene are evaluated: by the engine, and from histories in Python.
-/

namespace PV
variable {α : Type}

/-- A node of the scene tree as far as recorders go: `node.name`, whether it has a geometry, `node.recorders`. Scenes are lists of nodes in
the order of `PreOrderIter`. -/
structure RecNode (α : Type) where
  name : String
  geometry : Bool
  recorders : List (Recorder α)

/-- `nodes` of the compiled scene, `/repo/pvtrace/engine/compiler.py:61-63`. -/
def solidNodes (nodes : List (RecNode α)) : List (RecNode α) := nodes.filter (·.geometry)

/-- The pairs `(i, recorder)`, `/repo/pvtrace/engine/compiler.py:136-148`. -/
def engineRecorders (nodes : List (RecNode α)) : List (ℕ × Recorder α) :=
  (solidNodes nodes).zipIdx.flatMap fun p => p.1.recorders.map fun r => (p.2, r)

/-- `EngineResult.recorders`, `/repo/pvtrace/engine/api.py:118-138`: the keys of the dictionary; names are unique in a compiled scene.
`none` is `UnsupportedSceneError`. -/
def engineNames [Zero α] [One α] (nodes : List (RecNode α)) : Option (List String) :=
  (compileRecorders (engineRecorders nodes)).map fun _ => (engineRecorders nodes).map (·.2.name)

/-- `pairs` of `tally_histories`, `/repo/pvtrace/engine/tally.py:104-108`. -/
def tallyPairsOf (nodes : List (RecNode α)) : List (RecNode α × Recorder α) := nodes.flatMap fun v => v.recorders.map fun r => (v, r)

/-- The keys of what `tally_histories` returns, `/repo/pvtrace/engine/tally.py:149-156`: a name that comes twice has one entry. -/
def tallyNames (nodes : List (RecNode α)) : List String := ((tallyPairsOf nodes).map (·.2.name)).reverse.dedup.reverse

end PV
