import Mathlib.Algebra.Order.Field.Basic
import Mathlib.Data.List.Nodup

/-!
Specification of "which object contains a point of the ray", independent of the tracer.

The ray is a line with parameter `t`; the ray starts at `t = 0`. A convex object met by the line
occupies a half-open interval `[lo, hi)` of parameters. Objects of a valid scene are either
disjoint (they may touch) or strictly nested.
-/

namespace PV.Nested
variable {α ν : Type} [Field α] [LinearOrder α]

/-- The interval of parameters occupied by each object; `none` when the line misses it. -/
abbrev Spans (ν α : Type) := ν → Option (α × α)

/-- Valid scenes: every interval is non-empty, two objects are disjoint (possibly touching) or
strictly nested, and the root strictly contains every other object and the start of the ray. -/
structure Valid (nodes : List ν) (root : ν) (span : Spans ν α) (eps : α) : Prop where
  nodup : nodes.Nodup
  nonempty : ∀ v a b, v ∈ nodes → span v = some (a, b) → a < b
  apart : ∀ u v a b c d, u ∈ nodes → v ∈ nodes → u ≠ v → span u = some (a, b) →
    span v = some (c, d) → b ≤ c ∨ d ≤ a ∨ (a < c ∧ d < b) ∨ (c < a ∧ b < d)
  root_mem : root ∈ nodes
  root_span : ∃ a b, span root = some (a, b) ∧ a ≤ eps ∧ eps < b ∧
    ∀ v c d, v ∈ nodes → v ≠ root → span v = some (c, d) → a < c ∧ d < b

/-- The point at parameter `t` (and the points immediately after it) belong to `v`. -/
def Inside (span : Spans ν α) (v : ν) (t : α) : Prop :=
  ∃ a b, span v = some (a, b) ∧ a ≤ t ∧ t < b

/-- `v` is the innermost object around parameter `t`: it contains `t`, and every object that
contains `t` contains all of `v`. -/
def Innermost (nodes : List ν) (span : Spans ν α) (v : ν) (t : α) : Prop :=
  v ∈ nodes ∧ Inside span v t ∧
    ∀ w a b c d, w ∈ nodes → Inside span w t → span v = some (a, b) → span w = some (c, d) →
      c ≤ a ∧ b ≤ d

/-- The forward crossings of object `v`: ends of its interval beyond the tolerance. -/
def crossings (eps : α) (span : Spans ν α) (v : ν) : List α :=
  match span v with
  | none => []
  | some (a, b) => [a, b].filter (fun t => eps < t)

/-- `Inside` in terms of the open interval just beyond `t`. -/
theorem inside_iff [IsStrictOrderedRing α] {span : Spans ν α} {v : ν} {t a b : α}
    (h : span v = some (a, b)) :
    Inside span v t ↔ ∃ δ > 0, ∀ s, t < s → s < t + δ → a < s ∧ s < b := by
  constructor
  · rintro ⟨a', b', h', h1, h2⟩
    rw [h] at h'
    simp only [Option.some.injEq, Prod.mk.injEq] at h'
    obtain ⟨rfl, rfl⟩ := h'
    exact ⟨b - t, sub_pos.2 h2, fun s hs hs' => ⟨lt_of_le_of_lt h1 hs, by simpa using hs'⟩⟩
  · rintro ⟨δ, hδ, hs⟩
    refine ⟨a, b, h, ?_, ?_⟩
    · by_contra hlt
      push Not at hlt
      obtain ⟨s, h1, h2⟩ := exists_between (lt_min hlt (lt_add_of_pos_right t hδ))
      have := (hs s h1 (lt_of_lt_of_le h2 (min_le_right _ _))).1
      exact absurd this (not_lt.2 (lt_of_lt_of_le h2 (min_le_left _ _)).le)
    · obtain ⟨s, h1, h2⟩ := exists_between (lt_add_of_pos_right t hδ)
      exact lt_trans h1 (hs s h1 h2).2

end PV.Nested
