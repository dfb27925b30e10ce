import Verif.Spec.Schedule
import Mathlib.Algebra.BigOperators.Group.Finset.Basic
import Mathlib.Algebra.BigOperators.Group.Finset.Piecewise
import Mathlib.Data.List.Induction
import Mathlib.Tactic.Common

namespace PV
set_option linter.unusedSectionVars false
open Spec
variable {α ρ : Type}

/-- Sum over all writes of an execution, ray by ray. -/
theorem Execution.sum_eq {M : Type} [AddCommMonoid M] {n threads : ℕ}
    {writes : ℕ → List (Effect α ρ)} {es : List (Tagged α ρ)}
    (h : Execution n threads writes es) (f : Effect α ρ → M) :
    (es.map fun e => f e.effect).sum = ∑ i ∈ Finset.range n, ((writes i).map f).sum := by
  have key : ∀ es : List (Tagged α ρ), (∀ e ∈ es, e.ray < n) →
      (es.map fun e => f e.effect).sum =
        ∑ i ∈ Finset.range n, (((es.filter fun e => e.ray = i).map (·.effect)).map f).sum := by
    intro es
    induction es with
    | nil => simp
    | cons e es ih =>
      intro hlt
      have hi := ih fun x hx => hlt x (List.mem_cons_of_mem _ hx)
      rw [List.map_cons, List.sum_cons, hi]
      have : ∀ i, (((( e :: es).filter fun e => e.ray = i).map (·.effect)).map f).sum =
          (if e.ray = i then f e.effect else 0) +
            (((es.filter fun e => e.ray = i).map (·.effect)).map f).sum := by
        intro i
        by_cases hi : e.ray = i <;> simp [hi]
      rw [Finset.sum_congr rfl fun i _ => this i, Finset.sum_add_distrib,
        Finset.sum_ite_eq, if_pos (Finset.mem_range.2 (hlt e List.mem_cons_self))]
  rw [key es h.ray_lt]
  refine Finset.sum_congr rfl fun i hi => ?_
  rw [h.order i (Finset.mem_range.1 hi)]

/-- How one write changes entry `k` of each accumulator. -/
def dDistinct (k : ℕ) : Effect α ρ → ℕ
  | .distinct r => if k = r then 1 else 0
  | _ => 0
def dCross (k : ℕ) : Effect α ρ → ℕ
  | .cross r => if k = r then 1 else 0
  | _ => 0
def dBin (k : ℕ) : Effect α ρ → ℕ
  | .bin r => if k = r then 1 else 0
  | _ => 0
def dSum [Zero α] (k : ℕ) : Effect α ρ → α
  | .sum r v => if k = r then v else 0
  | _ => 0

section
variable [AddCommMonoid α]

theorem apply_distinct (a : Acc α) (e : Effect α ρ) (k : ℕ) :
    (a.apply e).distinct k = a.distinct k + dDistinct k e := by
  cases e <;> simp only [Acc.apply, dDistinct, incr, add_zero]; split_ifs <;> rfl
theorem apply_cross (a : Acc α) (e : Effect α ρ) (k : ℕ) :
    (a.apply e).cross k = a.cross k + dCross k e := by
  cases e <;> simp only [Acc.apply, dCross, incr, add_zero]; split_ifs <;> rfl
theorem apply_bins (a : Acc α) (e : Effect α ρ) (k : ℕ) :
    (a.apply e).bins k = a.bins k + dBin k e := by
  cases e <;> simp only [Acc.apply, dBin, incr, add_zero]; split_ifs <;> rfl
theorem apply_sums (a : Acc α) (e : Effect α ρ) (k : ℕ) :
    (a.apply e).sums k = a.sums k + dSum k e := by
  cases e <;> simp only [Acc.apply, dSum, add_zero]; split_ifs <;> simp

theorem sum_range_upd {M : Type} [AddCommMonoid M] (n t : ℕ) (ht : t < n) (f : ℕ → M) (d : M) :
    ((List.range n).map fun i => if i = t then f i + d else f i).sum =
      ((List.range n).map f).sum + d := by
  have h1 : ∀ g : ℕ → M, ((List.range n).map g).sum = ∑ i ∈ Finset.range n, g i := by
    intro g
    induction n with
    | zero => simp
    | succ n ih =>
      rw [List.range_succ, List.map_append, List.sum_append, Finset.sum_range_succ]
      have : ∀ n, ((List.range n).map g).sum = ∑ i ∈ Finset.range n, g i := by
        intro n
        induction n with
        | zero => simp
        | succ n ih => simp [List.range_succ, Finset.sum_range_succ, ih]
      simp [this]
  rw [h1, h1]
  have : ∀ i, (if i = t then f i + d else f i) = f i + if i = t then d else 0 := by
    intro i; split_ifs <;> simp
  simp only [this, Finset.sum_add_distrib, Finset.sum_ite_eq', Finset.mem_range, ht, if_true]

/-- Merged accumulators after a list of writes. -/
theorem merged_exec (threads : ℕ) :
    ∀ es : List (Tagged α ρ), (∀ e ∈ es, e.tid < threads) →
      ((Mem.exec es).merged threads).distinct = (fun k => (es.map fun e => dDistinct k e.effect).sum) ∧
      ((Mem.exec es).merged threads).cross = (fun k => (es.map fun e => dCross k e.effect).sum) ∧
      ((Mem.exec es).merged threads).sums = (fun k => (es.map fun e => dSum k e.effect).sum) ∧
      ((Mem.exec es).merged threads).bins = (fun k => (es.map fun e => dBin k e.effect).sum) := by
  intro es
  induction es using List.reverseRecOn with
  | nil =>
    intro _
    refine ⟨?_, ?_, ?_, ?_⟩ <;> funext k <;>
      simp [Mem.exec, Mem.merged, Mem.init, Acc.zero]
  | append_singleton es e ih =>
    intro hlt
    obtain ⟨h1, h2, h3, h4⟩ := ih fun x hx => hlt x (List.mem_append_left _ hx)
    have ht := hlt e (by simp)
    have hx : Mem.exec (es ++ [e]) = (Mem.exec es).step e.tid e.effect := by
      simp [Mem.exec, List.foldl_append]
    have g1 := congrFun h1; have g2 := congrFun h2; have g3 := congrFun h3; have g4 := congrFun h4
    simp only [Mem.merged] at g1 g2 g3 g4
    rw [hx]
    refine ⟨?_, ?_, ?_, ?_⟩ <;> funext k <;>
      simp only [Mem.merged, Mem.step, List.map_append, List.sum_append, List.map_cons,
        List.map_nil, List.sum_cons, List.sum_nil, add_zero]
    · rw [← g1 k, ← sum_range_upd threads e.tid ht]
      congr 2; funext t; split_ifs <;> simp [apply_distinct]
    · rw [← g2 k, ← sum_range_upd threads e.tid ht]
      congr 2; funext t; split_ifs <;> simp [apply_cross]
    · rw [← g3 k, ← sum_range_upd threads e.tid ht]
      congr 2; funext t; split_ifs <;> simp [apply_sums]
    · rw [← g4 k, ← sum_range_upd threads e.tid ht]
      congr 2; funext t; split_ifs <;> simp [apply_bins]

/-! ### The log -/

/-- The row an effect writes at index `k`. -/
def rowAt (k : ℕ) : Effect α ρ → Option ρ
  | .write i r => if k = i then some r else none
  | _ => none

/-- The count an effect writes at index `k`. -/
def countAt (k : ℕ) : Effect α ρ → Option ℕ
  | .count i n => if k = i then some n else none
  | _ => none

theorem exec_log (k : ℕ) (es : List (Tagged α ρ)) :
    (Mem.exec es).log k = (es.filterMap fun e => rowAt k e.effect).getLast? := by
  induction es using List.reverseRecOn with
  | nil => rfl
  | append_singleton es e ih =>
    have hx : Mem.exec (es ++ [e]) = (Mem.exec es).step e.tid e.effect := by
      simp [Mem.exec, List.foldl_append]
    rw [hx, List.filterMap_append]
    cases he : e.effect with
    | write i r =>
      simp only [Mem.step]
      by_cases hk : k = i
      · simp [rowAt, he, hk]
      · simp [rowAt, he, hk, ih]
    | _ => simp [Mem.step, rowAt, he, ih]

theorem exec_counts (k : ℕ) (es : List (Tagged α ρ)) :
    (Mem.exec es).counts k = (es.filterMap fun e => countAt k e.effect).getLast?.getD 0 := by
  induction es using List.reverseRecOn with
  | nil => rfl
  | append_singleton es e ih =>
    have hx : Mem.exec (es ++ [e]) = (Mem.exec es).step e.tid e.effect := by
      simp [Mem.exec, List.foldl_append]
    rw [hx, List.filterMap_append]
    cases he : e.effect with
    | count i r =>
      simp only [Mem.step]
      by_cases hk : k = i
      · simp [countAt, he, hk]
      · simp [countAt, he, hk, ih]
    | _ => simp [Mem.step, countAt, he, ih]

end

/-- If only ray `i` makes writes selected by `g`, then the selected writes of the execution are
those of ray `i`, in order. -/
theorem Execution.only {β : Type} {n threads : ℕ} {writes : ℕ → List (Effect α ρ)}
    {es : List (Tagged α ρ)} (h : Execution n threads writes es) (g : Effect α ρ → Option β)
    {i : ℕ} (hi : i < n) (honly : ∀ j < n, j ≠ i → ∀ e ∈ writes j, g e = none) :
    es.filterMap (fun e => g e.effect) = (writes i).filterMap g := by
  rw [← h.order i hi, List.filterMap_map]
  have : ∀ e ∈ es, e.ray ≠ i → g e.effect = none := by
    intro e he hne
    have hlt := h.ray_lt e he
    refine honly e.ray hlt hne e.effect ?_
    rw [← h.order e.ray hlt]
    exact List.mem_map.2 ⟨e, List.mem_filter.2 ⟨he, by simp⟩, rfl⟩
  clear h honly
  induction es with
  | nil => rfl
  | cons e es ih =>
    have ih := ih fun x hx => this x (List.mem_cons_of_mem _ hx)
    by_cases hr : e.ray = i
    · rw [List.filter_cons_of_pos (by simpa using hr), List.filterMap_cons, List.filterMap_cons,
        ih]
      rfl
    · rw [List.filter_cons_of_neg (by simpa using hr), List.filterMap_cons,
        this e List.mem_cons_self hr, ih]

/-- If no ray makes writes selected by `g`, then the execution has none. -/
theorem Execution.none {β : Type} {n threads : ℕ} {writes : ℕ → List (Effect α ρ)}
    {es : List (Tagged α ρ)} (h : Execution n threads writes es) (g : Effect α ρ → Option β)
    (hno : ∀ j < n, ∀ e ∈ writes j, g e = none) :
    es.filterMap (fun e => g e.effect) = [] := by
  rw [List.filterMap_eq_nil_iff]
  intro e he
  have hlt := h.ray_lt e he
  refine hno e.ray hlt e.effect ?_
  rw [← h.order e.ray hlt]
  exact List.mem_map.2 ⟨e, List.mem_filter.2 ⟨he, by simp⟩, rfl⟩

end PV
