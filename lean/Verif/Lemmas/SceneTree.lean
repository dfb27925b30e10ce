import Verif.Model.SceneFile
import Mathlib.Logic.Relation
import Mathlib.Data.List.Perm.Subperm
import Mathlib.Data.List.Nodup

/-!
Parents assigned one after the other never close a loop, so the nodes form one tree.
-/

namespace PV.SceneFile
open PV PV.Doc

/-- Edges from a node to its parent. -/
def Up (parents : List (String × String)) (n p : String) : Prop := parents.lookup n = some p

/-- `p` is above `n` by `j` steps. -/
def steps (parents : List (String × String)) : ℕ → String → Option String
  | 0, n => some n
  | j + 1, n => match parents.lookup n with
    | none => none
    | some p => steps parents j p

/-- A rank that grows downwards. -/
def Ranked (parents : List (String × String)) : Prop :=
  ∃ d : String → ℕ, ∀ n p, parents.lookup n = some p → d n = d p + 1

theorem steps_rank {parents : List (String × String)} {d : String → ℕ}
    (hd : ∀ n p, parents.lookup n = some p → d n = d p + 1) {j : ℕ} {n a : String}
    (h : steps parents j n = some a) : d n = d a + j := by
  induction j generalizing n with
  | zero => simp [steps] at h; subst h; rfl
  | succ j ih =>
    unfold steps at h
    cases hp : parents.lookup n with
    | none => rw [hp] at h; cases h
    | some p =>
      rw [hp] at h
      rw [hd n p hp, ih h]; omega

theorem steps_add (parents : List (String × String)) (i j : ℕ) (n : String) :
    steps parents (i + j) n = (steps parents i n).bind (steps parents j) := by
  induction i generalizing n with
  | zero => simp [steps]
  | succ i ih =>
    rw [Nat.add_right_comm]
    cases hp : parents.lookup n with
    | none => simp [steps, hp]
    | some p => simp only [steps, hp]; exact ih p

theorem steps_succ {parents : List (String × String)} {j : ℕ} {n a p : String}
    (h : steps parents j n = some a) (hp : parents.lookup a = some p) :
    steps parents (j + 1) n = some p := by
  rw [steps_add, h]
  simp [steps, hp]

/-- All nodes passed on the way up are keys, and they are distinct: the way is no longer than the
number of edges. -/
theorem steps_le {parents : List (String × String)} (h : Ranked parents) {j : ℕ} {n a : String}
    (hs : steps parents j n = some a) : j ≤ parents.length := by
  obtain ⟨d, hd⟩ := h
  -- the nodes passed
  have key : ∀ j n a, steps parents j n = some a → ∃ l : List String, l.length = j ∧ l.Nodup ∧
      (∀ x ∈ l, d a < d x ∧ d x ≤ d n) ∧ ∀ x ∈ l, x ∈ parents.map (·.1) := by
    intro j
    induction j with
    | zero => intro n a _; exact ⟨[], rfl, List.nodup_nil, by simp, by simp⟩
    | succ j ih =>
      intro n a hs
      unfold steps at hs
      cases hp : parents.lookup n with
      | none => rw [hp] at hs; cases hs
      | some p =>
        rw [hp] at hs
        obtain ⟨l, h1, h2, h3, h4⟩ := ih p a hs
        have hn := hd n p hp
        have hr := steps_rank hd hs
        refine ⟨n :: l, by simp [h1], List.nodup_cons.2 ⟨fun hm => ?_, h2⟩, ?_, ?_⟩
        · have := (h3 n hm).2; omega
        · intro x hx
          rcases List.mem_cons.1 hx with rfl | hx
          · constructor <;> omega
          · have := h3 x hx; constructor <;> omega
        · intro x hx
          rcases List.mem_cons.1 hx with rfl | hx
          · have hm : ∀ (l : List (String × String)), l.lookup x = some p → x ∈ l.map (·.1) := by
              intro l
              induction l with
              | nil => intro h; cases h
              | cons e l ih =>
                intro h
                rw [List.lookup_cons] at h
                by_cases he : x = e.1
                · simp [he]
                · have : (x == e.1) = false := by simpa using he
                  rw [this] at h
                  simpa using Or.inr (by simpa using ih h)
            exact hm _ hp
          · exact h4 x hx
  obtain ⟨l, h1, h2, _, h4⟩ := key j n a hs
  have := (h2.subperm h4).length_le
  simpa [h1] using this

/-- `climb` lists what lies above. -/
theorem mem_climb {parents : List (String × String)} {fuel : ℕ} {n k : String} :
    k ∈ climb parents fuel n ↔ ∃ j ≤ fuel, steps parents j n = some k := by
  induction fuel generalizing n with
  | zero =>
    simp only [climb, List.mem_singleton, Nat.le_zero]
    constructor
    · rintro rfl; exact ⟨0, rfl, rfl⟩
    · rintro ⟨j, rfl, h⟩; simpa [steps] using h.symm
  | succ fuel ih =>
    unfold climb
    cases hp : parents.lookup n with
    | none =>
      simp only [List.mem_singleton]
      constructor
      · rintro rfl; exact ⟨0, by omega, rfl⟩
      · rintro ⟨j, hj, h⟩
        cases j with
        | zero => simpa [steps] using h.symm
        | succ j => simp [steps, hp] at h
    | some p =>
      simp only [List.mem_cons]
      constructor
      · rintro (rfl | h)
        · exact ⟨0, by omega, rfl⟩
        · obtain ⟨j, hj, h⟩ := ih.1 h
          exact ⟨j + 1, by omega, by simp [steps, hp, h]⟩
      · rintro ⟨j, hj, h⟩
        cases j with
        | zero => left; simpa [steps] using h.symm
        | succ j => right; exact ih.2 ⟨j, by omega, by simpa [steps, hp] using h⟩

/-- With as much fuel as there are edges `climb` misses nothing above the node. -/
theorem climb_full {parents : List (String × String)} (h : Ranked parents) {n k : String} :
    k ∈ climb parents parents.length n ↔ ∃ j, steps parents j n = some k := by
  rw [mem_climb]
  exact ⟨fun ⟨j, _, h⟩ => ⟨j, h⟩, fun ⟨j, hj⟩ => ⟨j, steps_le h hj, hj⟩⟩

/-- A way up that does not meet `k` is not changed by giving `k` a parent. -/
theorem steps_cons_of_not {parents : List (String × String)} {k p : String} {j : ℕ} {n : String}
    (h : ∀ i, i < j → steps parents i n ≠ some k) :
    steps ((k, p) :: parents) j n = steps parents j n := by
  induction j generalizing n with
  | zero => rfl
  | succ j ih =>
    have h0 := h 0 (by omega)
    simp only [steps, ne_eq, Option.some.injEq] at h0
    have hl : ((k, p) :: parents).lookup n = parents.lookup n := by
      rw [List.lookup_cons]
      have : (n == k) = false := by simpa using h0
      rw [this]
    unfold steps
    rw [hl]
    cases hp : parents.lookup n with
    | none => rfl
    | some q =>
      refine ih fun i hi => ?_
      have := h (i + 1) (by omega)
      simpa [steps, hp] using this

open Classical in
/-- Hanging a node without a parent below one that is not below it keeps the order. -/
theorem ranked_cons {parents : List (String × String)} (h : Ranked parents) {k p : String}
    (hk : parents.lookup k = none) (hp : ∀ j, steps parents j p ≠ some k) :
    Ranked ((k, p) :: parents) := by
  obtain ⟨d, hd⟩ := h
  refine ⟨fun x => if ∃ j, steps parents j x = some k then d x - d k + (d p + 1) else d x, ?_⟩
  intro n q hq
  rw [List.lookup_cons] at hq
  by_cases hn : n = k
  · subst hn
    have hb : (n == n) = true := by simp
    rw [hb] at hq
    cases hq
    have h1 : ∃ j, steps parents j n = some n := ⟨0, rfl⟩
    have h2 : ¬ ∃ j, steps parents j p = some n := fun ⟨j, hj⟩ => hp j hj
    simp only [if_pos h1, if_neg h2]
    omega
  · have hb : (n == k) = false := by simpa using hn
    rw [hb] at hq
    have hnq := hd n q hq
    have hiff : (∃ j, steps parents j n = some k) ↔ ∃ j, steps parents j q = some k := by
      constructor
      · rintro ⟨j, hj⟩
        cases j with
        | zero => simp [steps] at hj; exact absurd hj hn
        | succ j => exact ⟨j, by simpa [steps, hq] using hj⟩
      · rintro ⟨j, hj⟩
        exact ⟨j + 1, by simp [steps, hq, hj]⟩
    by_cases hx : ∃ j, steps parents j n = some k
    · have hx' := hiff.1 hx
      obtain ⟨j, hj⟩ := hx'
      have hr := steps_rank hd hj
      simp only [if_pos hx, if_pos (hiff.1 hx)]
      omega
    · have hx' : ¬ ∃ j, steps parents j q = some k := fun h => hx (hiff.2 h)
      simp only [if_neg hx, if_neg hx']
      exact hnq

/-! ### The loop over the nodes -/
section
variable {α : Type} [Field α] [LinearOrder α] [FloorRing α]

/-- The edges of a list of nodes. -/
def edges (ns : List (NodeDef α)) : List (String × String) :=
  ns.filterMap fun n => n.parent.map fun p => (n.name, p)

theorem placeNodes_cons {names : List String} {k : String} {d : List (String × Yaml α)} {c : Content α}
    {entries : List (String × List (String × Yaml α) × Content α)}
    {parents : List (String × String)} {ns : List (NodeDef α)}
    (h : placeNodes names parents ((k, d, c) :: entries) = .ok ns) :
    ∃ p parents' loc dir ns', parentOf names k d = .ok p ∧ attach parents k p = .ok parents' ∧
      optTriple d "location" = .ok loc ∧ optTriple d "direction" = .ok dir ∧
      placeNodes names parents' entries = .ok ns' ∧ ns = ⟨k, c, p, loc, dir⟩ :: ns' := by
  unfold placeNodes at h
  repeat' split at h
  all_goals first | (cases h; done) | skip
  cases h
  exact ⟨_, _, _, _, _, by assumption, by assumption, by assumption, by assumption, by assumption, rfl⟩

theorem placeNodes_names {names : List String} {entries : List (String × List (String × Yaml α) × Content α)}
    {parents : List (String × String)} {ns : List (NodeDef α)}
    (h : placeNodes names parents entries = .ok ns) : ns.map (·.name) = entries.map (·.1) := by
  induction entries generalizing parents ns with
  | nil => cases h; rfl
  | cons e entries ih =>
    obtain ⟨k, d, c⟩ := e
    obtain ⟨p, parents', loc, dir, ns', _, _, _, _, h', rfl⟩ := placeNodes_cons h
    simp [ih h']

theorem lookup_none_of_not_mem {l : List (String × String)} {k : String} (h : k ∉ l.map (·.1)) :
    l.lookup k = none := by
  induction l with
  | nil => rfl
  | cons e l ih =>
    simp only [List.map_cons, List.mem_cons, not_or] at h
    rw [List.lookup_cons]
    have : (k == e.1) = false := by simpa using h.1
    rw [this]
    exact ih h.2

/-- The parents form an order from the first to the last node placed. -/
theorem placeNodes_ranked {names : List String} {entries : List (String × List (String × Yaml α) × Content α)}
    {parents : List (String × String)} {ns : List (NodeDef α)}
    (h : placeNodes names parents entries = .ok ns) (hr : Ranked parents)
    (hn : (entries.map (·.1)).Nodup) (hd : ∀ k ∈ entries.map (·.1), k ∉ parents.map (·.1)) :
    Ranked ((edges ns).reverse ++ parents) := by
  induction entries generalizing parents ns with
  | nil => cases h; simpa [edges] using hr
  | cons e entries ih =>
    obtain ⟨k, d, c⟩ := e
    obtain ⟨p, parents', loc, dir, ns', _, hat, _, _, h', rfl⟩ := placeNodes_cons h
    simp only [List.map_cons, List.nodup_cons] at hn
    have hkp : parents.lookup k = none := lookup_none_of_not_mem (hd k (by simp))
    cases p with
    | none =>
      cases hat
      have := ih h' hr hn.2 fun x hx => hd x (by simp only [List.map_cons, List.mem_cons]; exact Or.inr hx)
      simpa [edges] using this
    | some p =>
      unfold attach at hat
      dsimp only at hat
      by_cases hm : k ∈ climb parents parents.length p
      · rw [if_pos hm] at hat; cases hat
      rw [if_neg hm] at hat
      cases hat
      have hnew : Ranked ((k, p) :: parents) :=
        ranked_cons hr hkp fun j hj => hm ((climb_full hr).2 ⟨j, hj⟩)
      have := ih h' hnew hn.2 fun x hx => by
        simp only [List.map_cons, List.mem_cons, not_or]
        refine ⟨fun e => hn.1 (e ▸ hx), hd x (by simp only [List.map_cons, List.mem_cons]; exact Or.inr hx)⟩
      simpa [edges] using this

/-- Every node but `world` hangs on a node of the file, `world` on none. -/
theorem placeNodes_parents {names : List String} {entries : List (String × List (String × Yaml α) × Content α)}
    {parents : List (String × String)} {ns : List (NodeDef α)}
    (h : placeNodes names parents entries = .ok ns) : ∀ n ∈ ns,
      (n.name = "world" ∧ n.parent = none) ∨ (n.name ≠ "world" ∧ ∃ p ∈ names, n.parent = some p) := by
  induction entries generalizing parents ns with
  | nil => cases h; simp
  | cons e entries ih =>
    obtain ⟨k, d, c⟩ := e
    obtain ⟨p, parents', loc, dir, ns', hp, hat, _, _, h', rfl⟩ := placeNodes_cons h
    intro n hn
    rcases List.mem_cons.1 hn with rfl | hn
    · dsimp only
      unfold parentOf at hp
      by_cases hw : k = "world"
      · rw [if_pos hw] at hp; cases hp; exact Or.inl ⟨hw, rfl⟩
      · rw [if_neg hw] at hp
        refine Or.inr ⟨hw, ?_⟩
        repeat' split at hp
        all_goals first | (cases hp; done) | skip
        all_goals
          cases hp
          exact ⟨_, by assumption, rfl⟩
    · exact ih h' n hn

/-- Looking up an edge. -/
theorem lookup_edges {ns : List (NodeDef α)} (hn : (ns.map (·.name)).Nodup) {k p : String} :
    (edges ns).reverse.lookup k = some p ↔ ∃ n ∈ ns, n.name = k ∧ n.parent = some p := by
  have hkeys : ((edges ns).reverse.map (·.1)).Nodup := by
    rw [List.map_reverse, List.nodup_reverse]
    have : (edges ns).map (·.1) = (ns.filter fun n => n.parent.isSome).map (·.name) := by
      clear hn
      induction ns with
      | nil => rfl
      | cons n ns ih =>
        cases hp : n.parent with
        | none => simpa [edges, hp] using ih
        | some q => simpa [edges, hp] using ih
    rw [this]
    exact hn.sublist (List.filter_sublist.map _)
  have hmem : (edges ns).reverse.lookup k = some p ↔ (k, p) ∈ (edges ns).reverse := by
    generalize (edges ns).reverse = l at hkeys
    induction l with
    | nil => simp
    | cons e l ih =>
      simp only [List.map_cons, List.nodup_cons] at hkeys
      rw [List.lookup_cons, List.mem_cons]
      by_cases hk : k = e.1
      · subst hk
        have : (e.1 == e.1) = true := by simp
        rw [this]
        dsimp only
        constructor
        · intro h; cases h; exact Or.inl rfl
        · rintro (h | h)
          · rw [← h]
          · exact absurd (List.mem_map_of_mem (f := (·.1)) h) hkeys.1
      · have : (k == e.1) = false := by simpa using hk
        rw [this]
        dsimp only
        rw [ih hkeys.2]
        constructor
        · exact Or.inr
        · rintro (h | h)
          · exact absurd (congrArg Prod.fst h) hk
          · exact h
  rw [hmem, List.mem_reverse]
  unfold edges
  simp only [List.mem_filterMap, Option.map_eq_some_iff, Prod.mk.injEq]
  constructor
  · rintro ⟨n, hn, q, hq, rfl, rfl⟩; exact ⟨n, hn, rfl, hq⟩
  · rintro ⟨n, hn, rfl, hq⟩; exact ⟨n, hn, p, hq, rfl, rfl⟩

theorem mem_children {s : SceneDef α} (hn : (s.nodes.map (·.name)).Nodup) {c n : String} :
    c ∈ s.children n ↔ (edges s.nodes).reverse.lookup c = some n := by
  rw [lookup_edges hn]
  unfold SceneDef.children
  simp only [List.mem_map, List.mem_filter, decide_eq_true_eq]
  constructor
  · rintro ⟨x, ⟨hx, hp⟩, rfl⟩; exact ⟨x, hx, rfl, hp⟩
  · rintro ⟨x, hx, rfl, hp⟩; exact ⟨x, ⟨hx, hp⟩, rfl⟩

theorem mem_preorder {s : SceneDef α} (hn : (s.nodes.map (·.name)).Nodup) {f : ℕ} {n x : String} :
    x ∈ s.preorder f n ↔ ∃ j < f, steps (edges s.nodes).reverse j x = some n := by
  induction f generalizing n with
  | zero => simp [SceneDef.preorder]
  | succ f ih =>
    simp only [SceneDef.preorder, List.mem_cons, List.mem_flatMap, mem_children hn, ih]
    constructor
    · rintro (rfl | ⟨c, hc, j, hj, hs⟩)
      · exact ⟨0, by omega, rfl⟩
      · exact ⟨j + 1, by omega, steps_succ hs hc⟩
    · rintro ⟨j, hj, hs⟩
      cases j with
      | zero => left; simpa [steps] using hs
      | succ j =>
        right
        rw [steps_add] at hs
        cases hc : steps (edges s.nodes).reverse j x with
        | none => rw [hc] at hs; cases hs
        | some c =>
          rw [hc] at hs
          refine ⟨c, ?_, j, by omega, hc⟩
          simp only [Option.bind_some, steps] at hs
          cases hl : (edges s.nodes).reverse.lookup c with
          | none => rw [hl] at hs; cases hs
          | some q => rw [hl] at hs; simpa using hs

theorem nodup_preorder {s : SceneDef α} (hn : (s.nodes.map (·.name)).Nodup)
    (hr : Ranked (edges s.nodes).reverse) (f : ℕ) (n : String) : (s.preorder f n).Nodup := by
  obtain ⟨d, hd⟩ := hr
  induction f generalizing n with
  | zero => exact List.nodup_nil
  | succ f ih =>
    simp only [SceneDef.preorder, List.nodup_cons, List.mem_flatMap, not_exists, not_and]
    constructor
    · intro c hc hm
      obtain ⟨j, _, hs⟩ := (mem_preorder hn).1 hm
      have h1 := steps_rank hd hs
      have h2 := hd _ _ ((mem_children hn).1 hc)
      omega
    · rw [List.nodup_flatMap]
      refine ⟨fun c _ => ih c, ?_⟩
      have hc : (s.children n).Nodup := hn.sublist (List.filter_sublist.map _)
      refine hc.pairwise_of_forall_ne fun a ha b hb hab => ?_
      intro x hxa hxb
      obtain ⟨i, _, hi⟩ := (mem_preorder hn).1 hxa
      obtain ⟨j, _, hj⟩ := (mem_preorder hn).1 hxb
      have h1 := steps_rank hd hi
      have h2 := steps_rank hd hj
      have h3 := hd _ _ ((mem_children hn).1 ha)
      have h4 := hd _ _ ((mem_children hn).1 hb)
      have : i = j := by omega
      subst this
      rw [hi] at hj
      exact hab (Option.some.inj hj)

/-- The tree below `world` holds every node once. -/
theorem perm_of_tree {s : SceneDef α} (hn : (s.nodes.map (·.name)).Nodup)
    (hr : Ranked (edges s.nodes).reverse) (hw : "world" ∈ s.nodes.map (·.name))
    (hp : ∀ n ∈ s.nodes, (n.name = "world" ∧ n.parent = none) ∨
      (n.name ≠ "world" ∧ ∃ p ∈ s.nodes.map (·.name), n.parent = some p)) :
    s.visited.Perm (s.nodes.map (·.name)) := by
  refine (List.perm_ext_iff_of_nodup (nodup_preorder hn hr _ _) hn).2 fun x => ?_
  rw [mem_preorder hn]
  constructor
  · rintro ⟨j, _, hs⟩
    cases j with
    | zero => simp [steps] at hs; rw [hs]; exact hw
    | succ j =>
      unfold steps at hs
      cases hl : (edges s.nodes).reverse.lookup x with
      | none => rw [hl] at hs; cases hs
      | some q =>
        obtain ⟨n, hm, rfl, _⟩ := (lookup_edges hn).1 hl
        exact List.mem_map_of_mem hm
  · intro hx
    obtain ⟨d, hd⟩ := id hr
    have reach : ∀ m x, d x = m → x ∈ s.nodes.map (·.name) →
        ∃ j, steps (edges s.nodes).reverse j x = some "world" := by
      intro m
      induction m using Nat.strong_induction_on with
      | _ m ih =>
        intro x hm hx
        obtain ⟨n, hmem, rfl⟩ := List.mem_map.1 hx
        rcases hp n hmem with ⟨h, _⟩ | ⟨_, p, hpm, hpar⟩
        · exact ⟨0, by simp [steps, h]⟩
        · have hl : (edges s.nodes).reverse.lookup n.name = some p :=
            (lookup_edges hn).2 ⟨n, hmem, rfl, hpar⟩
          have h1 := hd _ _ hl
          obtain ⟨j, hj⟩ := ih (d p) (by omega) p rfl hpm
          exact ⟨j + 1, by simp [steps, hl, hj]⟩
    obtain ⟨j, hj⟩ := reach _ x rfl hx
    refine ⟨j, ?_, hj⟩
    have hle := steps_le hr hj
    have hlt : (edges s.nodes).length < s.nodes.length := by
      obtain ⟨w, hwm, hwn⟩ := List.mem_map.1 hw
      have hwp : w.parent = none := by
        rcases hp w hwm with ⟨_, h⟩ | ⟨h, _⟩
        · exact h
        · exact absurd hwn h
      unfold edges
      have : ∀ l : List (NodeDef α), w ∈ l →
          (l.filterMap fun n => n.parent.map fun p => (n.name, p)).length < l.length := by
        intro l
        induction l with
        | nil => intro h; cases h
        | cons y l ih =>
          intro h
          have hle := List.length_filterMap_le (fun n : NodeDef α => n.parent.map fun p => (n.name, p)) l
          rcases List.mem_cons.1 h with rfl | h
          · simp [hwp]; omega
          · have := ih h
            cases hy : y.parent with
            | none =>
              rw [List.filterMap_cons_none (by simp [hy]), List.length_cons]
              omega
            | some q =>
              rw [List.filterMap_cons_some (b := (y.name, q)) (by simp [hy]), List.length_cons,
                List.length_cons]
              omega
      exact this _ hwm
    rw [List.length_reverse] at hle
    omega

end

end PV.SceneFile
