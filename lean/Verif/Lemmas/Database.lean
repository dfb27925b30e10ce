import Verif.Spec.Database
import Mathlib.Data.List.Nodup
import Mathlib.Data.List.Induction
import Mathlib.Data.List.Perm.Basic
import Mathlib.Data.List.Perm.Lattice
import Mathlib.Tactic.Ring

/-!
Closed forms for the database written by the monitor thread.
-/

set_option linter.unusedSectionVars false

namespace PV.Database
open PV.Spec
variable {α π β : Type}

/-- The key under which the monitor numbers rays. -/
def Item.key (it : Item α π) : π × ℕ := (it.pid, it.idx)

/-- The event row of an item. -/
def eventRow (s : Step α) (rowid : ℕ) : EventRow α :=
  { rayId := rowid
    kind := s.event
    component := s.info.component
    hit := s.info.hit
    container := s.info.container
    adjacent := s.info.adjacent
    facet := none
    ni := s.info.normal.map Vec3.x
    nj := s.info.normal.map Vec3.y
    nk := s.info.normal.map Vec3.z }

section
variable [DecidableEq π]

/-- Keys in order of first arrival. -/
def keys (items : List (Item α π)) : List (π × ℕ) :=
  items.foldl (fun ks it => if it.key ∈ ks then ks else ks ++ [it.key]) []

theorem keys_concat (l : List (Item α π)) (x : Item α π) :
    keys (l ++ [x]) = if x.key ∈ keys l then keys l else keys l ++ [x.key] := by
  rw [keys, List.foldl_append]
  rfl

theorem mem_keys (l : List (Item α π)) (k : π × ℕ) : k ∈ keys l ↔ ∃ it ∈ l, it.key = k := by
  induction l using List.reverseRecOn generalizing k with
  | nil => simp [keys]
  | append_singleton l x ih =>
    rw [keys_concat]
    have e : (∃ it ∈ l ++ [x], it.key = k) ↔ (∃ it ∈ l, it.key = k) ∨ x.key = k := by
      simp [or_and_right, exists_or]
    rw [e]
    split_ifs with h
    · rw [ih]
      constructor
      · exact Or.inl
      · rintro (h' | rfl)
        · exact h'
        · exact (ih _).1 h
    · rw [List.mem_append, ih, List.mem_singleton, eq_comm (a := k)]

theorem keys_nodup (l : List (Item α π)) : (keys l).Nodup := by
  induction l using List.reverseRecOn with
  | nil => simp [keys]
  | append_singleton l x ih =>
    rw [keys_concat]
    split_ifs with h
    · exact ih
    · rw [List.nodup_append]
      refine ⟨ih, by simp, ?_⟩
      intro a ha b hb
      rw [List.mem_singleton.1 hb]
      rintro rfl
      exact h ha

theorem keys_prefix (l m : List (Item α π)) : ∃ r, keys (l ++ m) = keys l ++ r := by
  induction m using List.reverseRecOn with
  | nil => exact ⟨[], by simp⟩
  | append_singleton m x ih =>
    obtain ⟨r, hr⟩ := ih
    rw [← List.append_assoc, keys_concat]
    split_ifs with h
    · exact ⟨r, hr⟩
    · exact ⟨r ++ [x.key], by rw [hr, List.append_assoc]⟩

/-- Number given to a key. -/
def throwOf (items : List (Item α π)) (k : π × ℕ) : ℕ := (keys items).idxOf k

theorem throwOf_append {l : List (Item α π)} (m : List (Item α π)) {k : π × ℕ} (h : k ∈ keys l) :
    throwOf (l ++ m) k = throwOf l k := by
  obtain ⟨r, hr⟩ := keys_prefix l m
  rw [throwOf, throwOf, hr, List.idxOf_append_of_mem h]

theorem throwOf_inj {l : List (Item α π)} {k k' : π × ℕ} (h : k ∈ keys l)
    (e : throwOf l k = throwOf l k') : k = k' := (List.idxOf_inj h).1 e

theorem lookup_zipIdx {κ : Type} [BEq κ] [LawfulBEq κ] (l : List κ) (k : κ) (n : ℕ) :
    (l.zipIdx n).lookup k = if k ∈ l then some (l.idxOf k + n) else none := by
  induction l generalizing n with
  | nil => simp
  | cons a l ih =>
    rw [List.zipIdx_cons, List.lookup_cons]
    by_cases h : k = a
    · subst h
      simp
    · rw [beq_false_of_ne h, ih]
      have h' : ¬ a = k := fun e => h e.symm
      simp only [List.mem_cons, h, false_or, List.idxOf_cons_ne _ h']
      split_ifs
      · rw [Nat.succ_eq_add_one]
        congr 1
        ring
      · rfl

/-! ### What the monitor writes -/

theorem monitor_concat (skip : ℕ) (l : List (Item α π)) (x : Item α π) :
    monitor skip (l ++ [x]) = monitorItem skip (monitor skip l) x := by
  rw [monitor, List.foldl_append]
  rfl

theorem countItem_ids (m : Monitor α π) (it : Item α π) : (countItem m it).ids = m.ids := by
  simp only [countItem]
  split_ifs <;> rfl

theorem countItem_db (m : Monitor α π) (it : Item α π) : (countItem m it).db = m.db := by
  simp only [countItem]
  split_ifs <;> rfl

theorem nameItem_db (skip : ℕ) (m : Monitor α π) (it : Item α π) : (nameItem skip m it).db = m.db := by
  simp only [nameItem]
  split_ifs <;> rfl

theorem noteItem_ids (m : Monitor α π) (it : Item α π) : (noteItem m it).ids = m.ids := by
  simp only [noteItem]
  split <;> rfl

theorem noteItem_db (m : Monitor α π) (it : Item α π) : (noteItem m it).db = m.db := by
  simp only [noteItem]
  split <;> rfl

theorem nameItem_ids (skip : ℕ) (m : Monitor α π) (it : Item α π) (ks : List (π × ℕ))
    (h : m.ids = ks.zipIdx) :
    (nameItem skip m it).ids = (if it.key ∈ ks then ks else ks ++ [it.key]).zipIdx := by
  simp only [nameItem, h, lookup_zipIdx]
  by_cases hk : it.key ∈ ks
  · have hk' : (it.pid, it.idx) ∈ ks := hk
    simp [hk, hk', h]
  · have hk' : (it.pid, it.idx) ∉ ks := hk
    simp [hk, hk', List.zipIdx_append, Item.key]

theorem monitor_ids (skip : ℕ) (l : List (Item α π)) :
    (monitor skip l).ids = (keys l).zipIdx := by
  induction l using List.reverseRecOn with
  | nil => simp [monitor, Monitor.init, keys]
  | append_singleton l x ih =>
    rw [monitor_concat, keys_concat]
    simp only [monitorItem, storeItem, noteItem_ids]
    exact nameItem_ids _ _ _ _ (by rw [countItem_ids, ih])

theorem monitor_db (skip : ℕ) (l : List (Item α π)) :
    (monitor skip l).db.rays = l.map (fun it => ⟨throwOf l it.key, it.step.ray⟩) ∧
    (monitor skip l).db.events = l.zipIdx.map (fun p => eventRow p.1.step (p.2 + 1)) := by
  induction l using List.reverseRecOn with
  | nil => simp [monitor, Monitor.init]
  | append_singleton l x ih =>
    rw [monitor_concat]
    simp only [monitorItem, storeItem, noteItem_ids, noteItem_db, nameItem_db, countItem_db,
      writeRay, writeEvent, ih.1, ih.2]
    rw [nameItem_ids skip _ x (keys l) (by rw [countItem_ids, monitor_ids]), ← keys_concat,
      lookup_zipIdx]
    have hx : (x.pid, x.idx) ∈ keys (l ++ [x]) := (mem_keys _ _).2 ⟨x, by simp, rfl⟩
    constructor
    · rw [List.map_append]
      congr 1
      · refine List.map_congr_left fun it hi => ?_
        rw [throwOf_append _ ((mem_keys _ _).2 ⟨it, hi, rfl⟩)]
      · simp [hx, throwOf, Item.key]
    · rw [List.zipIdx_append, List.map_append]
      simp [eventRow]

theorem filter_zipIdx {γ : Type} (l : List γ) (n k : ℕ) (x : γ) (h : (x, k) ∈ l.zipIdx n) :
    (l.zipIdx n).filter (fun p => decide (k + 1 = p.2 + 1)) = [(x, k)] := by
  induction l generalizing n with
  | nil => simp at h
  | cons a l ih =>
    rw [List.zipIdx_cons] at h ⊢
    rcases List.mem_cons.1 h with h | h
    · obtain ⟨rfl, rfl⟩ := Prod.mk.inj h
      rw [List.filter_cons_of_pos (by simp), List.filter_eq_nil_iff.2]
      rintro ⟨b, j⟩ hb
      have := (List.mem_zipIdx hb).1
      simp only [decide_eq_true_eq]
      omega
    · have := (List.mem_zipIdx h).1
      rw [List.filter_cons_of_neg (by simp only [decide_eq_true_eq]; omega)]
      exact ih _ h

/-- The rows of the joined tables: one for each item, in order of arrival. -/
theorem join_monitor (skip : ℕ) (l : List (Item α π)) :
    join (monitor skip l).db = l.zipIdx.map fun p =>
      (⟨throwOf l p.1.key, p.1.step.ray⟩, eventRow p.1.step (p.2 + 1)) := by
  unfold join
  rw [(monitor_db skip l).1, (monitor_db skip l).2, List.zipIdx_map, List.flatMap_map]
  conv_rhs => rw [List.map_eq_flatMap]
  refine List.flatMap_congr fun p hp => ?_
  rw [List.filter_map, List.map_map]
  have := filter_zipIdx l 0 p.2 p.1 hp
  have e : ((fun e : EventRow α => decide ((Prod.map (fun it : Item α π =>
      (⟨throwOf l it.key, it.step.ray⟩ : RayRow α)) id p).2 + 1 = e.rayId)) ∘
      fun q : Item α π × ℕ => eventRow q.1.step (q.2 + 1)) =
      fun q : Item α π × ℕ => decide (p.2 + 1 = q.2 + 1) := rfl
  rw [e, this]
  rfl

/-- The condition of a command on an item. -/
def asks [AddCommGroup α] [LinearOrder α] (c : Cmd) (node : String) (f : Filters α) (s : Step α) :
    Bool := c.where node f ⟨0, s.ray⟩ (eventRow s 0)

theorem where_eq [AddCommGroup α] [LinearOrder α] (c : Cmd) (node : String) (f : Filters α)
    (s : Step α) (n k : ℕ) : c.where node f ⟨n, s.ray⟩ (eventRow s k) = asks c node f s := by
  cases c <;> rfl

theorem zipIdx_map_fst' {γ δ : Type} (l : List γ) (n : ℕ) (g : γ → δ) :
    (l.zipIdx n).map (fun p => g p.1) = l.map g := by
  conv_rhs => rw [← List.zipIdx_map_fst n l]
  rw [List.map_map]
  rfl

theorem filter_zipIdx_map {γ δ : Type} (l : List γ) (n : ℕ) (q : γ → Bool) (g : γ → δ) :
    ((l.zipIdx n).filter (fun p => q p.1)).map (fun p => g p.1) = (l.filter q).map g := by
  conv_rhs => rw [← List.zipIdx_map_fst n l]
  rw [List.filter_map, List.map_map]
  rfl

theorem select_monitor [AddCommGroup α] [LinearOrder α] [DecidableEq β] (skip : ℕ)
    (l : List (Item α π)) (c : Cmd) (node : String) (f : Filters α) (columns : RayRow α → β) :
    select (monitor skip l).db c node f columns =
      ((l.filter fun it => asks c node f it.step).map fun it =>
        columns ⟨throwOf l it.key, it.step.ray⟩).dedup := by
  unfold select
  rw [join_monitor, List.filter_map, List.map_map]
  congr 1
  have := filter_zipIdx_map l 0 (fun it => asks c node f it.step)
    (fun it => columns ⟨throwOf l it.key, it.step.ray⟩)
  rw [← this]
  congr 1
  congr 1
  funext p
  exact where_eq _ _ _ _ _ _

end

/-! ### What a command asks for -/

section
variable [AddCommGroup α] [LinearOrder α]

theorem normalClause_iff (value : Option α) (atol : α) (part : Option α) :
    normalClause value atol part = true ↔ NormalOption value atol part := by
  unfold normalClause NormalOption
  cases value <;> cases part <;> simp

theorem textClause_iff (value column : Option String) :
    textClause value column = true ↔ TextOption value column := by
  unfold textClause TextOption sqlEq
  cases value with
  | none => simp
  | some v =>
    by_cases h : v = "" <;> simp [h]

theorem sqlEq_iff (column : Option String) (v : String) :
    sqlEq column v = true ↔ column = some v := by simp [sqlEq]

theorem asks_iff (c : Cmd) (node : String) (f : Filters α) (s : Step α) :
    asks c node f s = true ↔ Asked c node f s := by
  have hA : Asked c node f s ↔ SelectorEvent (selectorOf c) node s ∧
      TextOption f.source s.ray.source ∧ (OnSurface c →
      NormalOption f.nx f.atol (s.info.normal.map Vec3.x) ∧
      NormalOption f.ny f.atol (s.info.normal.map Vec3.y) ∧
      NormalOption f.nz f.atol (s.info.normal.map Vec3.z) ∧ TextOption f.facet none) :=
    ⟨fun h => ⟨h.event, h.source, fun g => ⟨h.nx g, h.ny g, h.nz g, h.facet g⟩⟩,
      fun h => ⟨h.1, h.2.1, fun g => (h.2.2 g).1, fun g => (h.2.2 g).2.1,
        fun g => (h.2.2 g).2.2.1, fun g => (h.2.2 g).2.2.2⟩⟩
  rw [hA]
  cases c <;>
  simp only [asks, Cmd.where, boundaryWhere, volumeWhere, selectorOf, SelectorEvent,
    OnSurface, sqlEq_iff, Bool.and_eq_true, decide_eq_true_eq, normalClause_iff, textClause_iff] <;>
  simp only [eventRow] <;> simp <;> tauto

theorem asks_endRay (c : Cmd) (node : String) (f : Filters α) (s : Step α)
    (h : asks c node f s = true) : isEndRay s.event s.info = true := by
  have := ((asks_iff c node f s).1 h).event
  cases c <;> simp only [selectorOf, SelectorEvent] at this <;> simp [isEndRay, this]

end

/-! ### Items of tasks -/

theorem mem_workerItems (pid : π) (endRays : Bool) (hists : List (List (Step α)))
    (it : Item α π) : it ∈ workerItems pid endRays hists ↔
      it.pid = pid ∧ ∃ h, hists[it.idx]? = some h ∧ it.step ∈ h ∧
        (endRays = true → isEndRay it.step.event it.step.info = true) := by
  unfold workerItems
  rw [List.mem_flatMap]
  constructor
  · rintro ⟨⟨h, i⟩, hh, hm⟩
    obtain ⟨s, hs, rfl⟩ := List.mem_map.1 hm
    rw [List.mem_filter] at hs
    refine ⟨rfl, h, List.mem_zipIdx_iff_getElem?.1 hh, hs.1, ?_⟩
    rintro rfl
    simpa using hs.2
  · rintro ⟨rfl, h, hh, hs, hk⟩
    refine ⟨(h, it.idx), List.mem_zipIdx_iff_getElem?.2 hh, List.mem_map.2 ⟨it.step, ?_, rfl⟩⟩
    rw [List.mem_filter]
    refine ⟨hs, ?_⟩
    cases endRays
    · simp
    · simpa using hk rfl

theorem mem_interleaving {lists : List (List β)} {q : List (ℕ × β)} (h : Interleaving lists q)
    (x : β) : x ∈ q.map (·.2) ↔ ∃ l ∈ lists, x ∈ l := by
  constructor
  · intro hx
    obtain ⟨p, hp, rfl⟩ := List.mem_map.1 hx
    have ht := h.source p hp
    refine ⟨lists[p.1], List.getElem_mem ht, ?_⟩
    rw [← h.order p.1 ht]
    exact List.mem_map.2 ⟨p, List.mem_filter.2 ⟨hp, by simp⟩, rfl⟩
  · rintro ⟨l, hl, hx⟩
    obtain ⟨t, ht, rfl⟩ := List.getElem_of_mem hl
    rw [← h.order t ht] at hx
    obtain ⟨p, hp, rfl⟩ := List.mem_map.1 hx
    exact List.mem_map.2 ⟨p, (List.mem_filter.1 hp).1, rfl⟩

end PV.Database
