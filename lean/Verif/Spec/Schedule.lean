import Verif.Model.Kernel

/-!
What an execution of the parallel loop may be: any interleaving of the rays' writes in which each
ray's own writes keep their order, each on some thread below the thread count. This includes every
assignment of rays to threads (OpenMP `prange` with any schedule).
-/

namespace PV.Spec

structure Execution {α ρ : Type} (n threads : ℕ) (writes : ℕ → List (Effect α ρ))
    (es : List (Tagged α ρ)) : Prop where
  ray_lt : ∀ e ∈ es, e.ray < n
  tid_lt : ∀ e ∈ es, e.tid < threads
  order : ∀ i < n, (es.filter fun e => e.ray = i).map (·.effect) = writes i

end PV.Spec
