import Verif.Model.Library

/-!
Listing the components of the materials in another order, for C126.
-/

namespace PV.Library

/-- `S'` is `S` with the components of each material listed in some other order. -/
structure Shuffled (S S' : LScene n) : Prop where
  node : ∀ v, S'.node v = { S.node v with comps := (S'.node v).comps }
  perm : ∀ v, (S'.node v).comps.Perm (S.node v).comps

end PV.Library
