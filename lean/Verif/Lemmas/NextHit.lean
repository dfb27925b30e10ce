import Verif.Lemmas.Sort
import Verif.Model.KernelHit

/-! Lemmas about the engine's selection loops and the Python selection. -/

namespace PV
set_option linter.unusedSectionVars false
variable {α ν : Type} [LinearOrder α] [DecidableEq ν]

theorem sortedBy_map {β γ : Type} (f : β → γ) (key : γ → α) (l : List β) :
    sortedBy key (l.map f) = (sortedBy (fun b => key (f b)) l).map f := by
  induction l with
  | nil => rfl
  | cons x l ih =>
    rw [List.map_cons, sortedBy_cons, sortedBy_cons, ih]
    generalize sortedBy (fun b => key (f b)) l = s
    induction s with
    | nil => rfl
    | cons y s ihs =>
      simp only [List.map_cons, ins_cons]
      split
      · simp
      · rw [ihs]; simp

/-- `i` is the index of the first minimum `m` of `l`. -/
structure FirstMin {β : Type} (key : β → α) (l : List β) (i : ℕ) (m : β) : Prop where
  get : l[i]? = some m
  before : ∀ (j : ℕ) (y : β), j < i → l[j]? = some y → key m < key y
  least : ∀ (j : ℕ) (y : β), l[j]? = some y → key m ≤ key y

theorem FirstMin.minSplit {β : Type} {key : β → α} {l : List β} {i : ℕ} {m : β}
    (h : FirstMin key l i m) : minSplit key l = some (m, l.eraseIdx i) := by
  induction l generalizing i with
  | nil => simpa using h.get
  | cons x l ih =>
    rcases i with _ | i
    · have hx : x = m := by simpa using h.get
      subst hx
      rw [PV.minSplit]
      cases hl : PV.minSplit key l with
      | none => rw [minSplit_none] at hl; subst hl; rfl
      | some p =>
        obtain ⟨m', r⟩ := p
        have hm : m' ∈ l := by
          have := sortedBy_minSplit key hl
          rw [← mem_sortedBy key, this]; simp
        obtain ⟨j, hj⟩ := List.mem_iff_getElem?.1 hm
        have := h.least (j + 1) m' (by simpa using hj)
        simp [this]
    · have h' : FirstMin key l i m :=
        ⟨by simpa using h.get, fun j y hj hy => h.before (j + 1) y (by omega) (by simpa using hy),
          fun j y hy => h.least (j + 1) y (by simpa using hy)⟩
      rw [PV.minSplit, ih h']
      have : ¬ key x ≤ key m := not_le.2 (h.before 0 x (by omega) rfl)
      simp [this]

theorem kFirst_aux {ν : Type} (l pre : List (KHit ν α)) (b : KHit ν α) (i : ℕ)
    (h : FirstMin (·.t) pre i b) :
    FirstMin (·.t) (pre ++ l)
      ((l.zipIdx pre.length).foldl (fun best e => if e.1.t < best.1.t then e else best) (b, i)).2
      ((l.zipIdx pre.length).foldl (fun best e => if e.1.t < best.1.t then e else best) (b, i)).1 := by
  induction l generalizing pre b i with
  | nil => simpa using h
  | cons x l ih =>
    rw [List.zipIdx_cons, List.foldl_cons]
    have hlen : pre.length + 1 = (pre ++ [x]).length := by simp
    have happ : pre ++ x :: l = (pre ++ [x]) ++ l := by simp
    rw [hlen, happ]
    have hi : i < pre.length := (List.getElem?_eq_some_iff.1 h.get).1
    split
    · rename_i hlt
      refine ih (pre ++ [x]) x pre.length ⟨by simp, fun j y hj hy => ?_, fun j y hy => ?_⟩
      · rw [List.getElem?_append_left hj] at hy
        exact lt_of_lt_of_le hlt (h.least j y hy)
      · rcases lt_or_ge j pre.length with hj | hj
        · rw [List.getElem?_append_left hj] at hy
          exact (lt_of_lt_of_le hlt (h.least j y hy)).le
        · rw [List.getElem?_append_right hj] at hy
          rcases hk : j - pre.length with _ | k
          · rw [hk] at hy; simp at hy; subst hy; exact le_refl _
          · rw [hk] at hy; simp at hy
    · rename_i hge
      refine ih (pre ++ [x]) b i ⟨by rw [List.getElem?_append_left hi]; exact h.get,
        fun j y hj hy => ?_, fun j y hy => ?_⟩
      · rw [List.getElem?_append_left (by omega)] at hy
        exact h.before j y hj hy
      · rcases lt_or_ge j pre.length with hj | hj
        · rw [List.getElem?_append_left hj] at hy
          exact h.least j y hy
        · rw [List.getElem?_append_right hj] at hy
          rcases hk : j - pre.length with _ | k
          · rw [hk] at hy; simp at hy; subst hy; exact not_lt.1 hge
          · rw [hk] at hy; simp at hy

theorem kFirst_firstMin {ν : Type} (x : KHit ν α) (l : List (KHit ν α)) :
    FirstMin (·.t) (x :: l) (kFirst x l).2 (kFirst x l).1 := by
  have := kFirst_aux l [x] x 0 ⟨rfl, by intro j y hj; omega, fun j y hy => by
    rcases j with _ | j
    · simp at hy; subst hy; exact le_refl _
    · simp at hy⟩
  simpa [kFirst] using this

/-- left-to-right scan starting from nothing -/
def optScan {β : Type} (key : β → α) (acc : Option β) (l : List β) : Option β :=
  l.foldl (fun acc x =>
    match acc with
    | none => some x
    | some b => if key x < key b then some x else acc) acc

theorem optScan_some {β : Type} (key : β → α) (b : β) (l : List β) :
    optScan key (some b) l = some (scanMin key b l) := by
  induction l generalizing b with
  | nil => rfl
  | cons x l ih =>
    have h1 : optScan key (some b) (x :: l)
        = optScan key (if key x < key b then some x else some b) l := rfl
    have h2 : scanMin key b (x :: l) = scanMin key (if key x < key b then x else b) l := rfl
    rw [h1, h2]
    split
    · exact ih x
    · exact ih b

theorem optScan_none {β : Type} (key : β → α) (l : List β) :
    optScan key none l = (sortedBy key l).head? := by
  cases l with
  | nil => rfl
  | cons b l => rw [sortedBy_head]; exact optScan_some key b l

theorem kSecond_aux {ν : Type} (first : ℕ) (l : List (KHit ν α)) (k : ℕ) (acc : Option (KHit ν α)) :
    (l.zipIdx k).foldl (fun acc e =>
      if e.2 ≠ first then
        match acc with
        | none => some e.1
        | some b => if e.1.t < b.t then some e.1 else acc
      else acc) acc =
    optScan (·.t) acc (if k ≤ first then l.eraseIdx (first - k) else l) := by
  induction l generalizing k acc with
  | nil => simp [optScan]
  | cons x l ih =>
    rw [List.zipIdx_cons, List.foldl_cons]
    by_cases hk : k = first
    · subst hk
      rw [if_neg (by simp), ih, if_neg (by omega), if_pos (le_refl _)]
      simp
    · rw [if_pos hk, ih]
      by_cases hle : k ≤ first
      · rw [if_pos (by omega), if_pos hle]
        have : first - k = (first - (k + 1)) + 1 := by omega
        rw [this, List.eraseIdx_cons_succ]
        cases acc <;> rfl
      · rw [if_neg (by omega), if_neg hle]
        cases acc <;> rfl

theorem kSecond_eq {ν : Type} (first : ℕ) (l : List (KHit ν α)) :
    kSecond first l = (sortedBy (·.t) (l.eraseIdx first)).head? := by
  have h := kSecond_aux first l 0 none
  rw [if_pos (Nat.zero_le _), optScan_none, Nat.sub_zero] at h
  exact h

/-- The sorted hits start with the engine's first and second choices. -/
theorem sorted_hits {ν : Type} (x : KHit ν α) (l : List (KHit ν α)) :
    ∃ rest, sortedBy (·.t) (x :: l) = (kFirst x l).1 :: rest ∧
      rest.head? = kSecond (kFirst x l).2 (x :: l) ∧ rest.length = l.length := by
  have h := kFirst_firstMin x l
  have hs := sortedBy_minSplit (fun h : KHit ν α => h.t) h.minSplit
  refine ⟨_, hs, ?_, ?_⟩
  · rw [kSecond_eq]
  · have := congrArg List.length hs
    rw [sortedBy_length] at this
    simpa using this.symm

/-- hits of nodes hit exactly once, in node order -/
def singles (nodes : List ν) (ts : ν → List α) : List (KHit ν α) :=
  nodes.flatMap fun v => if (ts v).length = 1 then (ts v).map fun t => ⟨v, t⟩ else []

theorem kMinT_single (ts : List α) (h : ts.length = 1) : ∃ t, ts = [t] ∧ kMinT ts = some t := by
  obtain ⟨t, rfl⟩ := List.length_eq_one_iff.1 h
  exact ⟨t, rfl, rfl⟩

theorem kContainer_eq (nodes : List ν) (ts : ν → List α) :
    kContainer nodes ts = (sortedBy (·.t) (singles nodes ts)).head? := by
  have key : ∀ acc : Option (KHit ν α),
      nodes.foldl (fun acc v =>
        if (ts v).length = 1 then
          match kMinT (ts v) with
          | none => acc
          | some m =>
            match acc with
            | none => some ⟨v, m⟩
            | some b => if m < b.t then some ⟨v, m⟩ else acc
        else acc) acc = optScan (·.t) acc (singles nodes ts) := by
    induction nodes with
    | nil => intro acc; rfl
    | cons v nodes ih =>
      intro acc
      rw [List.foldl_cons, ih]
      simp only [singles, List.flatMap_cons]
      by_cases hl : (ts v).length = 1
      · obtain ⟨t, ht, hm⟩ := kMinT_single _ hl
        rw [if_pos hl, hm, if_pos hl, ht]
        simp only [List.map_cons, List.map_nil, List.cons_append, List.nil_append]
        cases acc <;> rfl
      · rw [if_neg hl, if_neg hl]; rfl
  exact (key none).trans (optScan_none _ _)

theorem count_kHits {nodes : List ν} (hn : nodes.Nodup) (ts : ν → List α) (v : ν) :
    ((kHits nodes ts).map (·.node)).count v = if v ∈ nodes then (ts v).length else 0 := by
  induction nodes with
  | nil => simp [kHits]
  | cons w nodes ih =>
    rw [List.nodup_cons] at hn
    have hc : (kHits (w :: nodes) ts).map (·.node)
        = (ts w).map (fun _ => w) ++ (kHits nodes ts).map (·.node) := by
      simp [kHits, Function.comp_def]
    rw [hc, List.count_append, ih hn.2, List.map_const', List.count_replicate]
    by_cases hvw : v = w
    · subst hvw; simp [hn.1]
    · have : ¬ (w == v) = true := by simpa using fun h => hvw h.symm
      simp [hvw, this]

/-- The candidates of `find_container` are the singles. -/
theorem filter_kHits {nodes : List ν} (hn : nodes.Nodup) (ts : ν → List α) :
    (kHits nodes ts).filter (fun x => ((kHits nodes ts).map (·.node)).count x.node = 1)
      = singles nodes ts := by
  have h1 : ∀ x ∈ kHits nodes ts,
      decide (((kHits nodes ts).map (·.node)).count x.node = 1)
        = decide ((ts x.node).length = 1) := by
    intro x hx
    have : x.node ∈ nodes := by
      simp only [kHits, List.mem_flatMap, List.mem_map] at hx
      obtain ⟨v, hv, t, _, rfl⟩ := hx
      exact hv
    rw [count_kHits hn, if_pos this]
  rw [List.filter_congr h1]
  clear h1 hn
  induction nodes with
  | nil => rfl
  | cons v nodes ih =>
    have hc : kHits (v :: nodes) ts = (ts v).map (fun t => (⟨v, t⟩ : KHit ν α)) ++ kHits nodes ts := by
      simp [kHits]
    have hs : singles (v :: nodes) ts
        = (if (ts v).length = 1 then (ts v).map fun t => ⟨v, t⟩ else []) ++ singles nodes ts := by
      simp [singles]
    rw [hc, hs, List.filter_append, ih]
    congr 1
    by_cases hl : (ts v).length = 1
    · rw [if_pos hl, List.filter_eq_self]
      intro a ha
      obtain ⟨t, _, rfl⟩ := List.mem_map.1 ha
      simpa using hl
    · rw [if_neg hl, List.filter_eq_nil_iff]
      intro a ha
      obtain ⟨t, _, rfl⟩ := List.mem_map.1 ha
      simpa using hl

/-- Permuting the distances within each node does not change the sorted list. -/
theorem sorted_kHits_perm (nodes : List ν) (ts ts' : ν → List α)
    (hp : ∀ v ∈ nodes, (ts v).Perm (ts' v)) :
    sortedBy (·.t) (kHits nodes ts) = sortedBy (·.t) (kHits nodes ts') := by
  induction nodes with
  | nil => rfl
  | cons v nodes ih =>
    have hc : ∀ ts : ν → List α, kHits (v :: nodes) ts
        = (ts v).map (fun t => (⟨v, t⟩ : KHit ν α)) ++ kHits nodes ts := by
      intro ts; simp [kHits]
    rw [hc, hc, sortedBy_append, sortedBy_append, ih (fun w hw => hp w (by simp [hw]))]
    refine foldr_ins_perm _ ((hp v (by simp)).map _) ?_ _
    intro x hx y hy hk
    obtain ⟨t, _, rfl⟩ := List.mem_map.1 hx
    obtain ⟨t', _, rfl⟩ := List.mem_map.1 hy
    simp only at hk
    rw [hk]

end PV
