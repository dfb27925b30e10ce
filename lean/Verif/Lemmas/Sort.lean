import Verif.Model.KernelHit
import Mathlib.Data.List.Perm.Basic

/-! Stable sorting by a key, and first minima. -/

namespace PV
set_option linter.unusedSectionVars false
variable {α β : Type} [LinearOrder α] (key : β → α)

/-- insertion by key -/
def ins (x : β) (l : List β) : List β := l.orderedInsert (fun a b => key a ≤ key b) x

theorem sortedBy_nil : sortedBy key [] = [] := rfl
theorem sortedBy_cons (x : β) (l : List β) : sortedBy key (x :: l) = ins key x (sortedBy key l) := rfl
theorem ins_nil (x : β) : ins key x [] = [x] := rfl
theorem ins_cons (x y : β) (l : List β) :
    ins key x (y :: l) = if key x ≤ key y then x :: y :: l else y :: ins key x l := rfl

theorem perm_sortedBy (l : List β) : (sortedBy key l).Perm l := List.perm_insertionSort _ l

theorem mem_sortedBy {x : β} {l : List β} : x ∈ sortedBy key l ↔ x ∈ l :=
  (perm_sortedBy key l).mem_iff

theorem pairwise_sortedBy (l : List β) :
    (sortedBy key l).Pairwise (fun a b => key a ≤ key b) := by
  have : IsTrans β (fun a b => key a ≤ key b) := ⟨fun _ _ _ h1 h2 => le_trans h1 h2⟩
  have : Std.Total (fun a b : β => key a ≤ key b) := ⟨fun a b => le_total (key a) (key b)⟩
  exact List.pairwise_insertionSort _ l

/-- First minimum of a list together with the list without it. -/
def minSplit : List β → Option (β × List β)
  | [] => none
  | x :: l =>
    match minSplit l with
    | none => some (x, [])
    | some (m, r) => if key x ≤ key m then some (x, l) else some (m, x :: r)

theorem minSplit_none {l : List β} : minSplit key l = none ↔ l = [] := by
  cases l with
  | nil => simp [minSplit]
  | cons x l =>
    simp only [minSplit, reduceCtorEq, iff_false]
    split
    · simp
    · split <;> simp

/-- The stable sort starts with the first minimum. -/
theorem sortedBy_minSplit {l r : List β} {m : β} (h : minSplit key l = some (m, r)) :
    sortedBy key l = m :: sortedBy key r := by
  induction l generalizing m r with
  | nil => simp [minSplit] at h
  | cons x l ih =>
    simp only [minSplit] at h
    split at h
    · rename_i hn
      rw [minSplit_none] at hn
      subst hn
      simp only [Option.some.injEq, Prod.mk.injEq] at h
      obtain ⟨rfl, rfl⟩ := h
      rfl
    · rename_i m' r' hl
      have := ih hl
      split at h
      · rename_i hk
        simp only [Option.some.injEq, Prod.mk.injEq] at h
        obtain ⟨rfl, rfl⟩ := h
        rw [sortedBy_cons, this, ins_cons, if_pos hk]
      · rename_i hk
        simp only [Option.some.injEq, Prod.mk.injEq] at h
        obtain ⟨rfl, rfl⟩ := h
        rw [sortedBy_cons, this, ins_cons, if_neg hk, sortedBy_cons]

/-- First minimum by a left-to-right scan with strict comparison. -/
def scanMin (b : β) (l : List β) : β := l.foldl (fun b x => if key x < key b then x else b) b

theorem minSplit_le {l r : List β} {m : β} (h : minSplit key l = some (m, r)) :
    ∀ x ∈ l, key m ≤ key x := by
  intro x hx
  have h1 := sortedBy_minSplit key h
  have h2 := pairwise_sortedBy key l
  have h3 : x ∈ sortedBy key l := (mem_sortedBy key).2 hx
  rw [h1] at h2 h3
  rcases List.mem_cons.1 h3 with rfl | h3
  · exact le_refl _
  · exact (List.pairwise_cons.1 h2).1 x h3

/-- the scan finds the first minimum -/
theorem scanMin_eq (b : β) (l : List β) :
    ∃ r, minSplit key (b :: l) = some (scanMin key b l, r) := by
  induction l generalizing b with
  | nil => exact ⟨[], rfl⟩
  | cons x l ih =>
    simp only [scanMin, List.foldl_cons]
    have hx := ih x
    have hb := ih b
    simp only [scanMin] at hx hb
    obtain ⟨rx, hx⟩ := hx
    obtain ⟨rb, hb⟩ := hb
    split
    · rename_i hlt
      rw [minSplit, hx]
      have hm := minSplit_le key hx x (by simp)
      simp only
      rw [if_neg (by rw [not_le]; exact lt_of_le_of_lt hm hlt)]
      exact ⟨_, rfl⟩
    · rename_i hge
      rw [not_lt] at hge
      -- compare first minimum of b :: l with that of b :: x :: l
      rw [minSplit, hx]
      simp only
      rw [minSplit] at hb hx
      cases hl : minSplit key l with
      | none =>
        rw [hl] at hb hx
        simp only [Option.some.injEq, Prod.mk.injEq] at hb hx
        rw [← hx.1, if_pos hge, ← hb.1]
        exact ⟨_, rfl⟩
      | some p =>
        obtain ⟨m, r⟩ := p
        rw [hl] at hb hx
        simp only at hb hx
        by_cases hbm : key b ≤ key m
        · rw [if_pos hbm] at hb
          simp only [Option.some.injEq, Prod.mk.injEq] at hb
          rw [← hb.1]
          split at hx
          · simp only [Option.some.injEq, Prod.mk.injEq] at hx
            rw [← hx.1, if_pos hge]; exact ⟨_, rfl⟩
          · simp only [Option.some.injEq, Prod.mk.injEq] at hx
            rw [← hx.1, if_pos hbm]; exact ⟨_, rfl⟩
        · rw [if_neg hbm] at hb
          simp only [Option.some.injEq, Prod.mk.injEq] at hb
          rw [← hb.1]
          have hxm : ¬ key x ≤ key m := fun h => hbm (le_trans hge h)
          rw [if_neg hxm] at hx
          simp only [Option.some.injEq, Prod.mk.injEq] at hx
          rw [← hx.1, if_neg hbm]; exact ⟨_, rfl⟩

/-- head of the stable sort = scan -/
theorem sortedBy_head (b : β) (l : List β) :
    (sortedBy key (b :: l)).head? = some (scanMin key b l) := by
  obtain ⟨r, h⟩ := scanMin_eq key b l
  rw [sortedBy_minSplit key h]
  rfl

theorem sortedBy_length (l : List β) : (sortedBy key l).length = l.length :=
  (perm_sortedBy key l).length_eq

theorem sortedBy_of_pairwise {l : List β} (h : l.Pairwise (fun a b => key a ≤ key b)) :
    sortedBy key l = l := by
  induction l with
  | nil => rfl
  | cons x l ih =>
    rw [List.pairwise_cons] at h
    rw [sortedBy_cons, ih h.2]
    cases l with
    | nil => rfl
    | cons y l => rw [ins_cons, if_pos (h.1 y (by simp))]

theorem filter_ins (p : β → Bool) (x : β) (l : List β)
    (hl : l.Pairwise (fun a b => key a ≤ key b)) :
    (ins key x l).filter p = if p x then ins key x (l.filter p) else l.filter p := by
  induction l with
  | nil => simp [ins_nil, List.filter_cons]
  | cons y l ih =>
    rw [List.pairwise_cons] at hl
    rw [ins_cons]
    by_cases hxy : key x ≤ key y
    · rw [if_pos hxy]
      by_cases hpx : p x
      · rw [List.filter_cons_of_pos hpx, if_pos hpx]
        by_cases hpy : p y
        · rw [List.filter_cons_of_pos hpy, ins_cons, if_pos hxy]
        · rw [List.filter_cons_of_neg hpy]
          cases hf : l.filter p with
          | nil => rfl
          | cons z l' =>
            have : z ∈ l := List.mem_of_mem_filter (p := p) (by rw [hf]; simp)
            rw [ins_cons, if_pos (le_trans hxy (hl.1 z this))]
      · rw [List.filter_cons_of_neg hpx, if_neg hpx]
    · rw [if_neg hxy]
      by_cases hpy : p y
      · rw [List.filter_cons_of_pos hpy, List.filter_cons_of_pos hpy, ih hl.2]
        split
        · rw [ins_cons, if_neg hxy]
        · rfl
      · rw [List.filter_cons_of_neg hpy, List.filter_cons_of_neg hpy, ih hl.2]

/-- A stable sort commutes with filtering. -/
theorem filter_sortedBy (p : β → Bool) (l : List β) :
    (sortedBy key l).filter p = sortedBy key (l.filter p) := by
  induction l with
  | nil => rfl
  | cons x l ih =>
    rw [sortedBy_cons, filter_ins key p x _ (pairwise_sortedBy key l), ih]
    by_cases hp : p x
    · rw [if_pos hp, List.filter_cons_of_pos hp, sortedBy_cons]
    · rw [if_neg hp, List.filter_cons_of_neg hp]

theorem ins_comm {x y : β} (h : key x = key y → x = y) (l : List β) :
    ins key x (ins key y l) = ins key y (ins key x l) := by
  rcases lt_trichotomy (key x) (key y) with hlt | heq | hgt
  · induction l with
    | nil => simp [ins_nil, ins_cons, hlt.le, not_le.2 hlt]
    | cons z l ih =>
      simp only [ins_cons]
      by_cases h1 : key y ≤ key z
      · have h2 : key x ≤ key z := le_trans hlt.le h1
        simp [ins_cons, h1, h2, hlt.le, not_le.2 hlt]
      · by_cases h2 : key x ≤ key z
        · simp [ins_cons, h1, h2, not_le.2 hlt]
        · simp [ins_cons, h1, h2, ih]
  · rw [h heq]
  · induction l with
    | nil => simp [ins_nil, ins_cons, hgt.le, not_le.2 hgt]
    | cons z l ih =>
      simp only [ins_cons]
      by_cases h1 : key x ≤ key z
      · have h2 : key y ≤ key z := le_trans hgt.le h1
        simp [ins_cons, h1, h2, hgt.le, not_le.2 hgt]
      · by_cases h2 : key y ≤ key z
        · simp [ins_cons, h1, h2, not_le.2 hgt]
        · simp [ins_cons, h1, h2, ih]

theorem sortedBy_append (a b : List β) :
    sortedBy key (a ++ b) = a.foldr (ins key) (sortedBy key b) := by
  induction a with
  | nil => rfl
  | cons x a ih => rw [List.cons_append, sortedBy_cons, ih]; rfl

theorem foldr_ins_perm {a a' : List β} (hp : a.Perm a')
    (hk : ∀ x ∈ a, ∀ y ∈ a, key x = key y → x = y) (z : List β) :
    a.foldr (ins key) z = a'.foldr (ins key) z :=
  hp.foldr_eq' (fun _ hx _ hy z => (ins_comm key (hk _ hx _ hy) z).symm) z

end PV
