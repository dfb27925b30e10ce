import Verif.Model.DistFloat
import Mathlib.Algebra.Order.Field.Basic
import Mathlib.Tactic.Linarith
import Mathlib.Tactic.Positivity
import Mathlib.Tactic.NormNum

/-!
**C136** Tables with entries that are not numbers.
-/

namespace PV.DistFloat
open PV PV.Fl
variable {α : Type} [Field α] [LinearOrder α] [IsStrictOrderedRing α]

theorem add_nan (a : Fl α) : a.add nan = nan := by cases a <;> rfl
theorem mul_nan (a : Fl α) : a.mul nan = nan := by cases a <;> rfl

theorem cumsum_nan {l : List (Fl α)} (hl : l ≠ []) (acc : Fl α) (h : acc = nan ∨ nan ∈ l) : (cumsum acc l).getLast? = some nan := by
  induction l generalizing acc with
  | nil => exact absurd rfl hl
  | cons t ts ih =>
    rw [cumsum]
    by_cases hn : ts = []
    · subst hn
      rcases h with rfl | h
      · rfl
      · rw [← List.mem_singleton.1 h, add_nan]
        rfl
    · have hc : cumsum (acc.add t) ts ≠ [] := by
        cases ts with
        | nil => exact absurd rfl hn
        | cons _ _ => simp [cumsum]
      rw [List.getLast?_cons, ih hn (acc.add t)]
      · rfl
      · rcases h with rfl | h
        · exact .inl rfl
        · rcases List.mem_cons.1 h with rfl | h
          · exact .inl (add_nan _)
          · exact .inr h

theorem trapezoids_nan {y : List (Fl α)} (hy : 2 ≤ y.length) (h : nan ∈ y) : nan ∈ trapezoids y := by
  induction y with
  | nil => cases h
  | cons a l ih =>
    cases l with
    | nil => simp at hy
    | cons b l =>
      unfold trapezoids
      rw [List.tail_cons, List.zipWith_cons_cons]
      rcases List.mem_cons.1 h with e | h
      · subst e
        exact List.mem_cons.2 (.inl rfl)
      · cases l with
        | nil =>
          rw [← List.mem_singleton.1 h]
          rw [add_nan]
          exact List.mem_cons.2 (.inl rfl)
        | cons c l => exact List.mem_cons.2 (.inr (ih (by simp) h))

theorem trapezoids_ne {y : List (Fl α)} (hy : 2 ≤ y.length) : trapezoids y ≠ [] := by
  match y, hy with
  | _ :: _ :: _, _ => simp [trapezoids]

/-- **C136** (violated) A table with a value that is no number has no cumulative distribution: all of it, but the zero put in front, is no
number either. -/
theorem nan_spoils {y : List (Fl α)} (hy : 2 ≤ y.length) (h : nan ∈ y) :
    (∀ v ∈ cdfOf y true, v = nan) ∧ ∀ v ∈ (cdfOf y false).tail, v = nan := by
  constructor
  · intro v hv
    unfold cdfOf at hv
    rw [if_pos rfl] at hv
    obtain ⟨w, -, rfl⟩ := List.mem_map.1 hv
    have hl := cumsum_nan (l := y) (by rintro rfl; simp at hy) (fin 0) (.inr h)
    rw [List.getLastD_eq_getLast?, hl]
    exact mul_nan w
  · intro v hv
    unfold cdfOf at hv
    rw [if_neg (by simp)] at hv
    obtain ⟨w, -, rfl⟩ := List.mem_map.1 hv
    have hl := cumsum_nan (trapezoids_ne hy) (fin 0) (.inr (trapezoids_nan hy h))
    unfold maxOf
    rw [if_pos (List.mem_of_getLast? hl)]
    exact mul_nan w

/-- **C136** (violated) Such tables are accepted: a table stays accepted when any of its values is lost, as long as another one is finite. -/
theorem nan_accepted {x y : List (Fl α)} {hist : Bool} (h : tests x y hist = .ok ()) {i j : ℕ} {v : α} (hij : j ≠ i)
    (hj : y[j]? = some (fin v)) : tests x (y.set i nan) hist = .ok () := by
  unfold tests at h ⊢
  split_ifs at h with h1 h2 h3 h4 h5 h6
  rw [if_neg (not_not.2 h1)]
  have e1 : (y.set i nan).any isFin = true := by
    refine List.any_eq_true.2 ⟨fin v, List.mem_of_getElem? (i := j) ?_, rfl⟩
    rw [List.getElem?_set_ne (Ne.symm hij), hj]
  have e2 : (y.set i nan).any (fun v => v.lt (fin 0)) ≠ true := by
    intro h
    obtain ⟨w, hw, hl⟩ := List.any_eq_true.1 h
    rcases List.mem_or_eq_of_mem_set hw with hw | rfl
    · exact h3 (List.any_eq_true.2 ⟨w, hw, hl⟩)
    · cases hl
  rw [if_neg (by simp [e1]), if_neg e2, if_neg h4, if_neg h5]

/-- What the documentation asks for: ascending finite wavelengths, as many finite values, none of them negative, at least two. -/
structure Documented (x y : List α) : Prop where
  ascending : x.IsChain (· < ·)
  values : ∀ v ∈ y, 0 ≤ v
  length : x.length = y.length
  two : 2 ≤ x.length

theorem diffs_fin (x : List α) : ((diffs (x.map fin)).all fun d => (fin 0).lt d) = true ↔ x.IsChain (· < ·) := by
  induction x with
  | nil => simp [diffs]
  | cons a l ih =>
    cases l with
    | nil => simp [diffs]
    | cons b l =>
      rw [List.isChain_cons_cons, ← ih]
      unfold diffs
      simp only [List.map_cons, List.tail_cons, List.zipWith_cons_cons, List.all_cons, Bool.and_eq_true]
      have : (fin 0).lt ((fin b).add (fin a).neg) = true ↔ a < b := by
        show decide ((0 : α) < b + -a) = true ↔ a < b
        rw [decide_eq_true_iff, ← sub_eq_add_neg, sub_pos]
      rw [this]

/-- **C136** Of the tables of numbers, exactly the documented ones are accepted. -/
theorem finite_accepted {x y : List α} (hl : x.length = y.length) (hist : Bool) :
    tests (x.map fin) (y.map fin) hist = .ok () ↔ Documented x y := by
  have hneg : ((y.map fin).any fun v => v.lt (fin 0)) = true ↔ ∃ v ∈ y, v < 0 := by
    rw [List.any_map, List.any_eq_true]
    simp [lt]
  have hfin : ((y.map fin).any isFin) = true ↔ y ≠ [] := by
    cases y <;> simp [isFin]
  have hd := diffs_fin x
  constructor
  · intro h
    unfold tests at h
    split_ifs at h with h1 h2 h3 h4 h5
    rw [hneg] at h3
    push Not at h3
    rw [List.length_map] at h4 h5
    exact ⟨hd.1 h1, h3, hl, by omega⟩
  · intro h
    have h2 := h.two
    have hy : y ≠ [] := by
      rintro rfl
      have := h.length
      simp only [List.length_nil] at this
      omega
    unfold tests
    rw [if_neg (not_not.2 (hd.2 h.ascending)), if_neg (not_not.2 (hfin.2 hy)), if_neg, List.length_map, if_neg (by omega), if_neg (by omega)]
    rw [hneg]
    rintro ⟨v, hv, hv'⟩
    exact absurd hv' (not_lt.2 (h.values v hv))

/-! ### Infinite values -/

/-- Finite or infinite, upwards. -/
def Up (v : Fl α) : Prop := v = inf ∨ ∃ a, v = fin a

theorem Up.add {v w : Fl α} (hv : Up v) (hw : Up w) : Up (v.add w) ∧ (v.add w = inf ↔ v = inf ∨ w = inf) := by
  rcases hv with rfl | ⟨a, rfl⟩ <;> rcases hw with rfl | ⟨b, rfl⟩ <;> simp [Up, Fl.add]

theorem cumsum_up {l : List (Fl α)} (hl : ∀ v ∈ l, Up v) {acc : Fl α} (ha : Up acc) : ∀ v ∈ cumsum acc l, Up v := by
  induction l generalizing acc with
  | nil => intro v hv; cases hv
  | cons t ts ih =>
    have h1 := (ha.add (hl t (by simp))).1
    intro v hv
    rcases List.mem_cons.1 hv with rfl | hv
    · exact h1
    · exact ih (fun w hw => hl w (by simp [hw])) h1 v hv

theorem cumsum_inf {l : List (Fl α)} (hl : ∀ v ∈ l, Up v) (hn : l ≠ []) {acc : Fl α} (ha : Up acc) (h : acc = inf ∨ inf ∈ l) :
    (cumsum acc l).getLast? = some inf := by
  induction l generalizing acc with
  | nil => exact absurd rfl hn
  | cons t ts ih =>
    have h1 := ha.add (hl t (by simp))
    rw [cumsum]
    by_cases hts : ts = []
    · subst hts
      have : acc.add t = inf := h1.2.2 (by
        rcases h with h | h
        · exact .inl h
        · exact .inr (List.mem_singleton.1 h).symm)
      rw [this]
      rfl
    · rw [List.getLast?_cons, ih (fun w hw => hl w (by simp [hw])) hts h1.1]
      · rfl
      · rcases h with h | h
        · exact .inl (h1.2.2 (.inl h))
        · rcases List.mem_cons.1 h with h | h
          · exact .inl (h1.2.2 (.inr h.symm))
          · exact .inr h

theorem max_inf {l : List (Fl α)} (hl : ∀ v ∈ l, Up v) (h : inf ∈ l) : maxOf l = inf := by
  have key : ∀ (l : List (Fl α)) (m : Fl α), (∀ v ∈ l, Up v) → (Up m ∨ m = ninf) → (m = inf ∨ inf ∈ l) →
      l.foldl (fun m v => if m.lt v then v else m) m = inf := by
    intro l
    induction l with
    | nil => intro m _ _ h; simpa using h
    | cons v l ih =>
      intro m hl hm h
      rw [List.foldl_cons]
      refine ih _ (fun w hw => hl w (by simp [hw])) ?_ ?_
      · split_ifs
        · exact .inl (hl v (by simp))
        · exact hm
      · rcases h with rfl | h
        · left
          rw [if_neg]
          cases v <;> simp [lt]
        · rcases List.mem_cons.1 h with h | h
          · subst h
            left
            rcases hm with (rfl | ⟨a, rfl⟩) | rfl <;> simp [lt]
          · exact .inr h
  unfold maxOf
  rw [if_neg]
  · exact key l ninf hl (.inr rfl) (.inr h)
  · intro hn
    rcases hl _ hn with h | ⟨a, h⟩ <;> cases h

theorem trapezoids_up {y : List (Fl α)} (hy : ∀ v ∈ y, Up v) : ∀ v ∈ trapezoids y, Up v := by
  intro v hv
  unfold trapezoids at hv
  rw [← List.map_uncurry_zip_eq_zipWith] at hv
  obtain ⟨⟨a, b⟩, hab, rfl⟩ := List.mem_map.1 hv
  have ha := hy a (List.of_mem_zip hab).1
  have hb := hy b (List.mem_of_mem_tail (List.of_mem_zip hab).2)
  rcases (ha.add hb).1 with e | ⟨c, e⟩
  · left
    show (a.add b).mul (fin (1 / 2)) = inf
    rw [e]
    simp [mul]
  · right
    refine ⟨c * (1 / 2), ?_⟩
    show (a.add b).mul (fin (1 / 2)) = _
    rw [e]
    rfl

theorem trapezoids_inf {y : List (Fl α)} (hu : ∀ v ∈ y, Up v) (hy : 2 ≤ y.length) (h : inf ∈ y) : inf ∈ trapezoids y := by
  have half : (inf : Fl α).mul (fin (1 / 2)) = inf := by simp [mul]
  induction y with
  | nil => cases h
  | cons a l ih =>
    cases l with
    | nil => simp at hy
    | cons b l =>
      unfold trapezoids
      rw [List.tail_cons, List.zipWith_cons_cons]
      have hab := ((hu a (by simp)).add (hu b (by simp))).2
      by_cases e : a = inf ∨ b = inf
      · rw [hab.2 e, half]
        exact List.mem_cons_self
      · have h' : inf ∈ b :: l := by
          rcases List.mem_cons.1 h with h | h
          · exact absurd (.inl h.symm) e
          · exact h
        cases l with
        | nil => exact absurd (.inr (List.mem_singleton.1 h').symm) e
        | cons c l => exact List.mem_cons.2 (.inr (ih (fun v hv => hu v (List.mem_cons_of_mem _ hv)) (by simp) h'))

theorem by_inf {v : Fl α} (hv : Up v) : v.mul (recip inf) = fin 0 ∨ v.mul (recip inf) = nan := by
  rcases hv with rfl | ⟨a, rfl⟩ <;> simp [mul, recip]

/-- **C136** (violated) A table with an infinite value has none either: everything before the infinite value gets no share, and the end is no
number. -/
theorem inf_spoils {y : List (Fl α)} (hy : 2 ≤ y.length) (hu : ∀ v ∈ y, Up v) (h : inf ∈ y) (hist : Bool) :
    (∀ v ∈ cdfOf y hist, v = fin 0 ∨ v = nan) ∧ (cdfOf y hist).getLast? = some nan := by
  have h0 : Up (fin (0 : α)) := .inr ⟨0, rfl⟩
  have hn : y ≠ [] := by rintro rfl; simp at hy
  cases hist with
  | true =>
    have hl := cumsum_inf hu hn h0 (.inr h)
    unfold cdfOf
    rw [if_pos rfl]
    dsimp only
    rw [List.getLastD_eq_getLast?, hl]
    constructor
    · intro v hv
      obtain ⟨w, hw, rfl⟩ := List.mem_map.1 hv
      exact by_inf (cumsum_up hu h0 w hw)
    · rw [List.getLast?_map, hl]
      simp [mul, recip]
  | false =>
    have ht := trapezoids_up hu
    have hl := cumsum_inf ht (trapezoids_ne hy) h0 (.inr (trapezoids_inf hu hy h))
    unfold cdfOf
    rw [if_neg (by simp)]
    dsimp only
    rw [max_inf (cumsum_up ht h0) (List.mem_of_getLast? hl)]
    constructor
    · intro v hv
      rcases List.mem_cons.1 hv with rfl | hv
      · exact .inl rfl
      · obtain ⟨w, hw, rfl⟩ := List.mem_map.1 hv
        exact by_inf (cumsum_up ht h0 w hw)
    · rw [List.getLast?_cons, List.getLast?_map, hl]
      simp [div, mul, recip]

/-! ### Tables of numbers -/

/-- Cumulative sums. -/
def sums : α → List α → List α
  | _, [] => []
  | acc, t :: ts => (acc + t) :: sums (acc + t) ts

theorem cumsum_fin (l : List α) (a : α) : cumsum (fin a) (l.map fin) = (sums a l).map fin := by
  induction l generalizing a with
  | nil => rfl
  | cons t ts ih => exact congrArg _ (ih (a + t))

theorem sums_range {l : List α} (hl : ∀ v ∈ l, 0 ≤ v) (a : α) :
    (∀ v ∈ sums a l, a ≤ v ∧ v ≤ a + l.sum) ∧ (l ≠ [] → (sums a l).getLast? = some (a + l.sum)) := by
  induction l generalizing a with
  | nil => exact ⟨fun v hv => (List.not_mem_nil hv).elim, fun h => absurd rfl h⟩
  | cons t ts ih =>
    have ht := hl t (by simp)
    obtain ⟨h1, h2⟩ := ih (fun v hv => hl v (by simp [hv])) (a + t)
    have hs : 0 ≤ ts.sum := List.sum_nonneg fun v hv => hl v (by simp [hv])
    rw [List.sum_cons]
    refine ⟨fun v hv => ?_, fun _ => ?_⟩
    · rcases List.mem_cons.1 hv with rfl | hv
      · constructor <;> linarith
      · have := h1 v hv
        constructor <;> linarith
    · rw [sums, List.getLast?_cons]
      by_cases hts : ts = []
      · subst hts
        simp [sums]
      · rw [h2 hts]
        simp [add_assoc]

theorem max_fin {l : List α} {M : α} (hM : M ∈ l) (hl : ∀ v ∈ l, v ≤ M) : maxOf (l.map fin) = fin M := by
  have key : ∀ (l : List α) (m : α), (∀ v ∈ l, v ≤ M) → m ≤ M → (m = M ∨ M ∈ l) →
      (l.map fin).foldl (fun m v => if m.lt v then v else m) (fin m) = fin M := by
    intro l
    induction l with
    | nil => intro m _ _ h; simpa using h
    | cons v l ih =>
      intro m hl hm h
      rw [List.map_cons, List.foldl_cons]
      have e : (if (fin m).lt (fin v) = true then fin v else fin m) = fin (if m < v then v else m) := by
        by_cases h : m < v <;> simp [lt, h]
      rw [e]
      have hv := hl v (by simp)
      refine ih _ (fun w hw => hl w (by simp [hw])) ?_ ?_
      · split_ifs <;> assumption
      · rcases h with rfl | h
        · left
          rw [if_neg (not_lt.2 hv)]
        · rcases List.mem_cons.1 h with rfl | h
          · left
            split_ifs with h
            · rfl
            · exact le_antisymm hm (not_lt.1 h)
          · exact .inr h
  unfold maxOf
  rw [if_neg (by simp)]
  cases l with
  | nil => cases hM
  | cons a l =>
    rw [List.map_cons, List.foldl_cons, if_pos (by rfl)]
    refine key l a (fun w hw => hl w (by simp [hw])) (hl a (by simp)) ?_
    rcases List.mem_cons.1 hM with h | h
    · exact .inl h.symm
    · exact .inr h

theorem trapezoids_fin (y : List α) : trapezoids (y.map fin) = (List.zipWith (fun a b => (a + b) * (1 / 2)) y y.tail).map fin := by
  unfold trapezoids
  rw [← List.map_tail, List.zipWith_map, List.map_zipWith]
  rfl

theorem halves_pos {y : List α} (hy : ∀ v ∈ y, 0 ≤ v) (h2 : 2 ≤ y.length) (hp : ∃ v ∈ y, 0 < v) :
    (∀ v ∈ List.zipWith (fun a b => (a + b) * (1 / 2)) y y.tail, (0 : α) ≤ v) ∧
      0 < (List.zipWith (fun a b => (a + b) * (1 / 2)) y y.tail).sum := by
  induction y with
  | nil => simp at h2
  | cons a l ih =>
    cases l with
    | nil => simp at h2
    | cons b l =>
      have ha := hy a (by simp)
      have hb := hy b (by simp)
      have hnn : ∀ l : List α, (∀ v ∈ l, 0 ≤ v) → ∀ v ∈ List.zipWith (fun a b => (a + b) * (1 / 2)) l l.tail, (0 : α) ≤ v := by
        intro l hl v hv
        rw [← List.map_uncurry_zip_eq_zipWith] at hv
        obtain ⟨⟨c, d⟩, hcd, rfl⟩ := List.mem_map.1 hv
        have hc := hl c (List.of_mem_zip hcd).1
        have hd := hl d (List.mem_of_mem_tail (List.of_mem_zip hcd).2)
        show 0 ≤ (c + d) * (1 / 2)
        positivity
      refine ⟨hnn _ hy, ?_⟩
      rw [List.tail_cons, List.zipWith_cons_cons, List.sum_cons]
      have hs : 0 ≤ (List.zipWith (fun a b => (a + b) * (1 / 2)) (b :: l) (b :: l).tail).sum :=
        List.sum_nonneg (hnn _ fun v hv => hy v (List.mem_cons_of_mem _ hv))
      rw [List.tail_cons] at hs
      by_cases e : 0 < a + b
      · have : 0 < (a + b) * (1 / 2) := by positivity
        linarith
      · have ha0 : a = 0 := by linarith
        have hb0 : b = 0 := by linarith
        obtain ⟨v, hv, hv0⟩ := hp
        have hv' : v ∈ b :: l := by
          rcases List.mem_cons.1 hv with rfl | hv
          · exact absurd ha0 hv0.ne'
          · exact hv
        cases l with
        | nil =>
          rw [List.mem_singleton.1 hv'] at hv0
          exact absurd hb0 hv0.ne'
        | cons c l =>
          have := (ih (fun v hv => hy v (List.mem_cons_of_mem _ hv)) (by simp) ⟨v, hv', hv0⟩).2
          rw [List.tail_cons] at this
          rw [ha0, hb0] at *
          linarith

/-- **C136** For every documented table with a positive value the cumulative distribution is made of numbers from 0 to 1 and ends at 1. -/
theorem finite_cdf_partial {x y : List α} (h : Documented x y) (hp : ∃ v ∈ y, 0 < v) (hist : Bool) :
    (∀ v ∈ cdfOf (y.map fin) hist, ∃ q : α, v = fin q ∧ 0 ≤ q ∧ q ≤ 1) ∧ (cdfOf (y.map fin) hist).getLast? = some (fin 1) := by
  have h2 : 2 ≤ y.length := h.length ▸ h.two
  have hn : y ≠ [] := by rintro rfl; simp at h2
  have share : ∀ {l : List α}, (∀ v ∈ l, 0 ≤ v) → 0 < l.sum → ∀ v ∈ sums 0 l, ∃ q : α, (fin v).mul (fin l.sum).recip = fin q ∧ 0 ≤ q ∧ q ≤ 1 := by
    intro l hl hs v hv
    have := (sums_range hl 0).1 v hv
    rw [zero_add] at this
    refine ⟨v * (1 / l.sum), ?_, mul_nonneg this.1 (by positivity), ?_⟩
    · simp [recip, hs.ne', mul]
    · rw [mul_one_div]
      exact (div_le_one hs).2 this.2
  have one : ∀ {s : α}, 0 < s → (fin s).mul (fin s).recip = fin 1 := by
    intro s hs
    simp [recip, hs.ne', mul]
  cases hist with
  | true =>
    have hs : 0 < y.sum := by
      obtain ⟨v, hv, hv0⟩ := hp
      exact lt_of_lt_of_le hv0 (List.single_le_sum h.values v hv)
    obtain ⟨-, hl⟩ := sums_range h.values 0
    have hl := hl hn
    rw [zero_add] at hl
    unfold cdfOf
    rw [if_pos rfl, cumsum_fin]
    dsimp only
    rw [List.getLastD_eq_getLast?, List.getLast?_map, hl]
    constructor
    · intro v hv
      obtain ⟨w, hw, rfl⟩ := List.mem_map.1 hv
      obtain ⟨u, hu, rfl⟩ := List.mem_map.1 hw
      exact share h.values hs u hu
    · rw [List.getLast?_map, List.getLast?_map, hl]
      exact congrArg some (one hs)
  | false =>
    obtain ⟨hz, hs⟩ := halves_pos h.values h2 hp
    have hne : List.zipWith (fun a b => (a + b) * (1 / 2)) y y.tail ≠ [] := by
      intro e
      rw [e] at hs
      simp at hs
    obtain ⟨hr, hl⟩ := sums_range hz 0
    have hl := hl hne
    rw [zero_add] at hl
    have hM := max_fin (List.mem_of_getLast? hl) fun v hv => by
      have := (hr v hv).2
      rwa [zero_add] at this
    unfold cdfOf
    rw [if_neg (by simp), trapezoids_fin, cumsum_fin]
    dsimp only
    rw [hM]
    constructor
    · intro v hv
      rcases List.mem_cons.1 hv with rfl | hv
      · exact ⟨0, rfl, le_rfl, zero_le_one⟩
      · obtain ⟨w, hw, rfl⟩ := List.mem_map.1 hv
        obtain ⟨u, hu, rfl⟩ := List.mem_map.1 hw
        exact share hz hs u hu
    · rw [List.getLast?_cons, List.getLast?_map, List.getLast?_map, hl]
      exact congrArg some (one hs)

/-- **C136** (violated) A table of zeros is accepted too, and has no cumulative distribution. -/
theorem zeros_spoil : tests [fin (400 : ℚ), fin 500, fin 600] [fin 0, fin 0, fin 0] false = .ok () ∧
    cdfOf [fin (0 : ℚ), fin 0, fin 0] false = [fin 0, nan, nan] :=
  ⟨by norm_num [tests, diffs, lt, add, neg, isFin], by decide +kernel⟩

/-! ### The hypotheses are met -/

/-- A measured spectrum. -/
example : Documented [(400 : ℚ), 500, 600] [1, 3, 0] ∧ cdfOf ([(1 : ℚ), 3, 0].map fin) false = [fin 0, fin (4 / 7), fin 1] ∧
    cdfOf ([(1 : ℚ), 3, 0].map fin) true = [fin (1 / 4), fin 1, fin 1] := by
  refine ⟨⟨by simp; norm_num, by simp, rfl, by simp⟩, by decide +kernel, by decide +kernel⟩

/-- The same with an empty cell, and with an infinite value. -/
example : tests [fin (400 : ℚ), fin 500, fin 600] [fin 1, nan, fin 0] false = .ok () ∧
    cdfOf [fin (1 : ℚ), nan, fin 0] false = [fin 0, nan, nan] ∧
    tests [fin (400 : ℚ), fin 500, fin 600] [fin 1, fin 2, inf] false = .ok () ∧
    cdfOf [fin (1 : ℚ), fin 2, inf] false = [fin 0, fin 0, nan] := by
  refine ⟨?_, by decide +kernel, ?_, by decide +kernel⟩ <;> norm_num [tests, diffs, lt, add, neg, isFin]

end PV.DistFloat
