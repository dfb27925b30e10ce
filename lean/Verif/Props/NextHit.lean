import Verif.Lemmas.NextHit
import Verif.Spec.Nested
import Mathlib.Tactic.Linarith
import Mathlib.Algebra.Order.Ring.Rat
import Mathlib.Data.Fin.VecNotation
import Mathlib.Tactic.FinCases
import Mathlib.Data.Fintype.Card
import Mathlib.Tactic.NormNum

/-!
# Choice of the next interface (properties C06, C07, C08)
-/

namespace PV.NextHit
open PV PV.Nested
set_option linter.unusedSectionVars false
variable {α ν : Type} [Field α] [LinearOrder α] [IsStrictOrderedRing α] [DecidableEq ν]

/-- A node limit of 128 and at most 4 crossings per node mean that the 512 entries of the hit
arrays suffice: the guard `nhits < MAX_HITS` never drops an intersection. -/
theorem hits_fit (nodes : List ν) (ts : ν → List α) (hn : nodes.length ≤ 128)
    (ht : ∀ v ∈ nodes, (ts v).length ≤ 4) : (kHits nodes ts).length ≤ 512 := by
  have : ∀ l : List ν, (∀ v ∈ l, (ts v).length ≤ 4) → (kHits l ts).length ≤ 4 * l.length := by
    intro l
    induction l with
    | nil => intro _; simp [kHits]
    | cons v l ih =>
      intro h
      have h1 := h v (by simp)
      have h2 := ih (fun w hw => h w (by simp [hw]))
      have hc : (kHits (v :: l) ts).length = (ts v).length + (kHits l ts).length := by
        simp [kHits]
      rw [hc, List.length_cons]; omega
  have := this nodes ht
  omega

/-! ## C08: the engine and the Python tracer choose the same interface -/

/-- What Python keeps of the distances reported by one node: those ahead of the ray. -/
def keep (eps : α) (ts : List α) : List α := ts.filter (fun t => eps < t)

theorem sceneInters_eq (eps : α) (pt : α → Vec3 α) (nodes : List ν) (ts : ν → List α) :
    sceneInters eps pt nodes ts
      = (sortedBy (·.t) (kHits nodes (fun v => keep eps (ts v)))).map
        fun h => ⟨h.node, pt h.t, h.t⟩ := by
  rw [sceneInters, ← sortedBy_map (fun h : KHit ν α => (⟨h.node, pt h.t, h.t⟩ : Inter ν α))
    (fun x => x.dist)]
  congr 1
  rw [List.filter_map]
  congr 1
  unfold kHits keep
  induction nodes with
  | nil => rfl
  | cons v l ih =>
    simp only [List.flatMap_cons, List.filter_append, ih, List.filter_map]
    rfl

/-- The sorted hits as a Python list. -/
def sortedInters (pt : α → Vec3 α) (nodes : List ν) (ts : ν → List α) : List (Inter ν α) :=
  (sortedBy (·.t) (kHits nodes ts)).map fun h => ⟨h.node, pt h.t, h.t⟩

/-- `next_hit` removes nothing from what `Scene.intersections` returns. -/
theorem filter_sceneInters (eps : α) (pt : α → Vec3 α) (nodes : List ν) (ts : ν → List α) :
    (sceneInters eps pt nodes ts).filter (fun x => ¬ |x.dist| < eps) = sceneInters eps pt nodes ts := by
  rw [List.filter_eq_self]
  intro a ha
  rw [sceneInters, mem_sortedBy, List.mem_filter] at ha
  have h := ha.2
  simp only [decide_eq_true_eq] at h
  simpa using (h.le.trans (le_abs_self _))

/-- The Python result in the shape of the engine's. -/
def toInfo (pt : α → Vec3 α) (r : ν × ν × Option ν × α) : HitInfo ν α :=
  ⟨r.1, r.2.1, r.2.2.1, pt r.2.2.2, r.2.2.2⟩

/-- `findContainer` on the sorted hits, in terms of the nodes hit once. -/
theorem findContainer_sorted {nodes : List ν} (hn : nodes.Nodup) (pt : α → Vec3 α)
    (ts : ν → List α) (h2 : 2 ≤ (kHits nodes ts).length) :
    findContainer (sortedInters pt nodes ts) =
      match (sortedBy (·.t) (singles nodes ts)).head? with
      | none => .error .valueError
      | some c => .ok c.node := by
  have hlen : 2 ≤ (sortedInters pt nodes ts).length := by
    rw [sortedInters, List.length_map, sortedBy_length]; exact h2
  have hperm : ∀ v, ((sortedInters pt nodes ts).map (·.hit)).count v
      = ((kHits nodes ts).map (·.node)).count v := by
    intro v
    rw [sortedInters, List.map_map]
    exact ((perm_sortedBy (fun h : KHit ν α => h.t) (kHits nodes ts)).map _).count_eq v
  have hf : (sortedInters pt nodes ts).filter
      (fun x => ((sortedInters pt nodes ts).map (·.hit)).count x.hit = 1)
      = (sortedBy (·.t) (singles nodes ts)).map fun h => ⟨h.node, pt h.t, h.t⟩ := by
    simp only [hperm]
    rw [sortedInters, List.filter_map, ← filter_kHits hn, ← filter_sortedBy]
    rfl
  have hs : sortedBy (·.dist) ((sortedBy (·.t) (singles nodes ts)).map
      fun h => (⟨h.node, pt h.t, h.t⟩ : Inter ν α))
      = (sortedBy (·.t) (singles nodes ts)).map fun h => ⟨h.node, pt h.t, h.t⟩ := by
    rw [sortedBy_map, sortedBy_of_pairwise _ (pairwise_sortedBy _ _)]
  have hgen : ∀ l : List (Inter ν α), 2 ≤ l.length → findContainer l =
      match sortedBy (·.dist) (l.filter (fun x => (l.map (·.hit)).count x.hit = 1)) with
      | [] => .error .valueError
      | p :: _ => .ok p.hit := by
    intro l hl
    match l, hl with
    | _ :: _ :: _, _ => rfl
  rw [hgen _ hlen, hf, hs]
  cases sortedBy (·.t) (singles nodes ts) <;> rfl

/-- **C08.** For every list of scene nodes and every list of intersection distances per node, the
engine picks the same hit node, container, adjacent node and distance as the Python tracer. The
Python tracer may see the distances of a node in another order and may see additional ones within
the tolerance. The two codes differ only when no node is hit exactly once (`kernel_fallback`). -/
theorem kernel_eq_python {nodes : List ν} (hn : nodes.Nodup) (eps : α) (pt : α → Vec3 α)
    (db : Vec3 α → α) (tsK tsP : ν → List α)
    (hp : ∀ v ∈ nodes, (keep eps (tsP v)).Perm (tsK v))
    (hdb : ∀ v ∈ nodes, ∀ t ∈ tsK v, db (pt t) = t)
    (hc : 2 ≤ (kHits nodes tsK).length → ∃ v ∈ nodes, (tsK v).length = 1) :
    nextHit eps db (sceneInters eps pt nodes tsP) = .ok ((kNextHit nodes tsK).map (toInfo pt)) := by
  have hfil : (sceneInters eps pt nodes tsP).filter (fun x => ¬ |x.dist| < eps)
      = sortedInters pt nodes tsK := by
    rw [filter_sceneInters, sceneInters_eq, sorted_kHits_perm _ _ _ hp]; rfl
  have hmemt : ∀ h ∈ kHits nodes tsK, db (pt h.t) = h.t := by
    intro h hh
    simp only [kHits, List.mem_flatMap, List.mem_map] at hh
    obtain ⟨v, hv, t, ht, rfl⟩ := hh
    exact hdb v hv t ht
  unfold nextHit
  simp only [hfil]
  cases hk : kHits nodes tsK with
  | nil =>
    have : sortedInters pt nodes tsK = [] := by rw [sortedInters, hk]; rfl
    rw [this]
    simp [kNextHit, hk]
  | cons x l =>
    obtain ⟨rest, hsort, hhead, hlen⟩ := sorted_hits x l
    have hS : sortedInters pt nodes tsK
        = ⟨(kFirst x l).1.node, pt (kFirst x l).1.t, (kFirst x l).1.t⟩ ::
          rest.map fun h => ⟨h.node, pt h.t, h.t⟩ := by
      rw [sortedInters, hk, hsort]; rfl
    cases l with
    | nil =>
      have : rest = [] := List.length_eq_zero_iff.1 (by simpa using hlen)
      subst this
      rw [hS]
      simp [kNextHit, hk, toInfo]
    | cons y l =>
      cases rest with
      | nil => simp at hlen
      | cons z rest =>
        have h2 : 2 ≤ (kHits nodes tsK).length := by rw [hk]; simp
        have hfc := findContainer_sorted hn pt tsK h2
        rw [hS] at hfc ⊢
        simp only [List.map_cons] at hfc ⊢
        rw [hfc]
        have hz : kSecond (kFirst x (y :: l)).2 (x :: y :: l) = some z := by
          rw [← hhead]; rfl
        have hm : (kFirst x (y :: l)).1 ∈ kHits nodes tsK := by
          rw [hk, ← mem_sortedBy (fun h : KHit ν α => h.t), hsort]; simp
        rw [hmemt _ hm]
        simp only [kNextHit, hk, kContainer_eq, hz]
        cases hcont : (sortedBy (·.t) (singles nodes tsK)).head? with
        | none =>
          exfalso
          obtain ⟨v, hv, hv1⟩ := hc h2
          obtain ⟨t, ht⟩ := List.length_eq_one_iff.1 hv1
          have : (⟨v, t⟩ : KHit ν α) ∈ singles nodes tsK := by
            simp only [singles, List.mem_flatMap]
            exact ⟨v, hv, by rw [if_pos hv1, ht]; simp⟩
          rw [List.head?_eq_none_iff] at hcont
          rw [← mem_sortedBy (fun h : KHit ν α => h.t), hcont] at this
          simp at this
        | some c =>
          simp only [Option.map_some, toInfo]
          by_cases hcx : c.node = (kFirst x (y :: l)).1.node <;> simp [hcx]

/-- The remaining case of C08: with two or more intersections and no node hit exactly once, the
Python tracer raises `ValueError` while the engine continues with the hit node as container. -/
theorem kernel_fallback {nodes : List ν} (hn : nodes.Nodup) (eps : α) (pt : α → Vec3 α)
    (db : Vec3 α → α) (tsK tsP : ν → List α)
    (hp : ∀ v ∈ nodes, (keep eps (tsP v)).Perm (tsK v))
    (h2 : 2 ≤ (kHits nodes tsK).length) (hc : ∀ v ∈ nodes, (tsK v).length ≠ 1) :
    nextHit eps db (sceneInters eps pt nodes tsP) = .error .valueError ∧
      ∃ hit adj t, kNextHit nodes tsK = some (hit, hit, adj, t) := by
  have hfil : (sceneInters eps pt nodes tsP).filter (fun x => ¬ |x.dist| < eps)
      = sortedInters pt nodes tsK := by
    rw [filter_sceneInters, sceneInters_eq, sorted_kHits_perm _ _ _ hp]; rfl
  have hs : singles nodes tsK = [] := by
    simp only [singles, List.flatMap_eq_nil_iff]
    intro v hv
    rw [if_neg (hc v hv)]
  have hfc := findContainer_sorted hn pt tsK h2
  rw [hs] at hfc
  have hlen : 2 ≤ (sortedInters pt nodes tsK).length := by
    rw [sortedInters, List.length_map, sortedBy_length]; exact h2
  constructor
  · unfold nextHit
    simp only [hfil]
    match hS : sortedInters pt nodes tsK, hlen with
    | a :: b :: r, _ =>
      rw [hS] at hfc
      simp only [hfc]
      rfl
  · have hk0 : kContainer nodes tsK = none := by rw [kContainer_eq, hs]; rfl
    match hk : kHits nodes tsK, h2 with
    | a :: b :: r, _ =>
      exact ⟨(kFirst a (b :: r)).1.node,
        (kSecond (kFirst a (b :: r)).2 (a :: b :: r)).map (·.node),
        (kFirst a (b :: r)).1.t, by simp [kNextHit, hk, hk0]⟩

/-! ## C06 and C07: container, hit and adjacent node -/

section
variable {nodes : List ν} {root : ν} {span : Spans ν α} {eps : α}

theorem mem_crossings {v : ν} {t : α} :
    t ∈ crossings eps span v ↔ ∃ a b, span v = some (a, b) ∧ (t = a ∨ t = b) ∧ eps < t := by
  unfold crossings
  cases h : span v with
  | none => simp
  | some p =>
    obtain ⟨a, b⟩ := p
    simp only [List.mem_filter, List.mem_cons, List.not_mem_nil, or_false, decide_eq_true_eq,
      Option.some.injEq, Prod.mk.injEq]
    constructor
    · rintro ⟨h1, h2⟩; exact ⟨a, b, ⟨rfl, rfl⟩, h1, h2⟩
    · rintro ⟨_, _, ⟨rfl, rfl⟩, h1, h2⟩; exact ⟨h1, h2⟩

theorem crossings_once (V : Valid nodes root span eps) {v : ν} (hv : v ∈ nodes) :
    (crossings eps span v).length = 1 ↔ Inside span v eps := by
  unfold crossings Inside
  cases h : span v with
  | none => simp
  | some p =>
    obtain ⟨a, b⟩ := p
    have hab := V.nonempty v a b hv h
    by_cases h1 : eps < a
    · have h2 : eps < b := lt_trans h1 hab
      simp [h1, h2]
    · by_cases h2 : eps < b
      · simp [h1, h2, not_lt.1 h1]
      · simp [h1, h2]

/-- Two different objects around the same parameter are strictly nested. -/
theorem nested_of_inside (V : Valid nodes root span eps) {u v : ν} {a b c d t : α}
    (hu : u ∈ nodes) (hv : v ∈ nodes) (huv : u ≠ v) (su : span u = some (a, b))
    (sv : span v = some (c, d)) (iu : Inside span u t) (iv : Inside span v t) :
    (a < c ∧ d < b) ∨ (c < a ∧ b < d) := by
  obtain ⟨a', b', e1, h1, h2⟩ := iu
  obtain ⟨c', d', e2, h3, h4⟩ := iv
  rw [su] at e1; rw [sv] at e2
  simp only [Option.some.injEq, Prod.mk.injEq] at e1 e2
  obtain ⟨rfl, rfl⟩ := e1
  obtain ⟨rfl, rfl⟩ := e2
  rcases V.apart u v a b c d hu hv huv su sv with h | h | h | h
  · exact absurd (lt_of_le_of_lt h3 h2) (not_lt.2 h)
  · exact absurd (lt_of_le_of_lt h1 h4) (not_lt.2 h)
  · exact Or.inl h
  · exact Or.inr h

/-- The scene as the tracer sees it: `ts v` are the distances reported by node `v`; beyond the
tolerance these are the forward crossings of its surface, in any order. -/
def Reports (eps : α) (nodes : List ν) (span : Spans ν α) (ts : ν → List α) : Prop :=
  ∀ v ∈ nodes, (keep eps (ts v)).Perm (crossings eps span v)

/-- What `next_hit` gives in a valid scene, at the level of crossings. -/
theorem nextHit_core (V : Valid nodes root span eps) {ts : ν → List α}
    (R : Reports eps nodes span ts) (pt : α → Vec3 α) (db : Vec3 α → α)
    (hdb : ∀ v ∈ nodes, ∀ t ∈ crossings eps span v, db (pt t) = t) :
    ∃ i : HitInfo ν α, nextHit eps db (sceneInters eps pt nodes ts) = .ok (some i) ∧
      i.hit ∈ nodes ∧ i.dist ∈ crossings eps span i.hit ∧ i.point = pt i.dist ∧
      (∀ v ∈ nodes, ∀ t ∈ crossings eps span v, i.dist ≤ t) ∧
      (i.container ∈ nodes ∧ ∃ m, crossings eps span i.container = [m] ∧
        ∀ v ∈ nodes, ∀ t, crossings eps span v = [t] → m ≤ t) ∧
      ((i.adjacent = none ∧ i.container = i.hit ∧
          ∀ v ∈ nodes, ∀ t ∈ crossings eps span v, v = i.hit ∧ t = i.dist) ∨
        (i.container ≠ i.hit ∧ i.adjacent = some i.hit) ∨
        (i.container = i.hit ∧ ∃ a s, i.adjacent = some a ∧ a ∈ nodes ∧
          s ∈ crossings eps span a ∧ a ≠ i.hit ∧
          ∀ v ∈ nodes, v ≠ i.hit → ∀ t ∈ crossings eps span v, s ≤ t)) := by
  have hrootc : (crossings eps span root).length = 1 := by
    rw [crossings_once V V.root_mem]
    obtain ⟨a, b, h, h1, h2, _⟩ := V.root_span
    exact ⟨a, b, h, h1, h2⟩
  set tsK := crossings eps span with htsK
  have heq := kernel_eq_python V.nodup eps pt db tsK ts R hdb
    (fun _ => ⟨root, V.root_mem, hrootc⟩)
  have hmem : ∀ h : KHit ν α, h ∈ kHits nodes tsK ↔ h.node ∈ nodes ∧ h.t ∈ tsK h.node := by
    intro h
    simp only [kHits, List.mem_flatMap, List.mem_map]
    constructor
    · rintro ⟨v, hv, t, ht, rfl⟩; exact ⟨hv, ht⟩
    · rintro ⟨hv, ht⟩; exact ⟨h.node, hv, h.t, ht, rfl⟩
  obtain ⟨tr, htr⟩ := List.length_eq_one_iff.1 hrootc
  have hne : kHits nodes tsK ≠ [] := by
    intro h0
    have : (⟨root, tr⟩ : KHit ν α) ∈ kHits nodes tsK := by
      rw [hmem]; exact ⟨V.root_mem, by simp [htr]⟩
    rw [h0] at this; simp at this
  cases hk : kHits nodes tsK with
  | nil => exact absurd hk hne
  | cons x l =>
  obtain ⟨rest, hsort, hhead, hlen⟩ := sorted_hits x l
  have hpw : (sortedBy (·.t) (x :: l)).Pairwise (fun a b : KHit ν α => a.t ≤ b.t) :=
    pairwise_sortedBy _ _
  rw [hsort, List.pairwise_cons] at hpw
  set f := (kFirst x l).1 with hf
  have hall : ∀ h : KHit ν α, h ∈ f :: rest ↔ h.node ∈ nodes ∧ h.t ∈ tsK h.node := by
    intro h
    rw [← hsort, mem_sortedBy, ← hk, hmem]
  have hfm := (hall f).1 (by simp)
  have hmin : ∀ v ∈ nodes, ∀ t ∈ tsK v, f.t ≤ t := by
    intro v hv t ht
    have := (hall ⟨v, t⟩).2 ⟨hv, ht⟩
    rcases List.mem_cons.1 this with h | h
    · rw [← h]
    · exact hpw.1 _ h
  cases l with
  | nil =>
    have hrest : rest = [] := List.length_eq_zero_iff.1 (by simpa using hlen)
    subst hrest
    have honly : ∀ v ∈ nodes, ∀ t ∈ tsK v, v = f.node ∧ t = f.t := by
      intro v hv t ht
      have := (hall ⟨v, t⟩).2 ⟨hv, ht⟩
      simp only [List.mem_singleton] at this
      rw [← this]; exact ⟨rfl, rfl⟩
    have hr := honly root V.root_mem tr (by simp [htr])
    refine ⟨⟨f.node, f.node, none, pt f.t, f.t⟩, ?_, hfm.1, hfm.2, rfl, hmin, ⟨hfm.1, f.t, ?_, ?_⟩,
      Or.inl ⟨rfl, rfl, honly⟩⟩
    · rw [heq]; simp [kNextHit, hk, toInfo, hf]
    · rw [← hr.1, ← hr.2]; exact htr
    · intro v hv t ht; exact hmin v hv t (by simp [ht])
  | cons y l =>
    cases rest with
    | nil => simp at hlen
    | cons z rest =>
    have hz : kSecond (kFirst x (y :: l)).2 (x :: y :: l) = some z := by
      rw [← hhead]; rfl
    have hrs : (⟨root, tr⟩ : KHit ν α) ∈ singles nodes tsK := by
      simp only [singles, List.mem_flatMap]
      exact ⟨root, V.root_mem, by rw [if_pos hrootc, htr]; simp⟩
    have hsmem : ∀ h : KHit ν α, h ∈ singles nodes tsK ↔ h.node ∈ nodes ∧ tsK h.node = [h.t] := by
      intro h
      simp only [singles, List.mem_flatMap]
      constructor
      · rintro ⟨v, hv, hh⟩
        split at hh
        · rename_i h1
          obtain ⟨t, ht⟩ := List.length_eq_one_iff.1 h1
          rw [ht] at hh
          simp only [List.map_cons, List.map_nil, List.mem_singleton] at hh
          subst hh
          exact ⟨hv, ht⟩
        · simp at hh
      · rintro ⟨hv, ht⟩
        exact ⟨h.node, hv, by simp [ht]⟩
    cases hcont : sortedBy (·.t) (singles nodes tsK) with
    | nil =>
      rw [← mem_sortedBy (fun h : KHit ν α => h.t), hcont] at hrs
      simp at hrs
    | cons c cs =>
      have hc1 : c ∈ singles nodes tsK := by
        rw [← mem_sortedBy (fun h : KHit ν α => h.t), hcont]; simp
      have hcm := (hsmem c).1 hc1
      have hcmin : ∀ v ∈ nodes, ∀ t, tsK v = [t] → c.t ≤ t := by
        intro v hv t ht
        have hin : (⟨v, t⟩ : KHit ν α) ∈ singles nodes tsK := (hsmem _).2 ⟨hv, ht⟩
        rw [← mem_sortedBy (fun h : KHit ν α => h.t), hcont] at hin
        have hpc : (sortedBy (·.t) (singles nodes tsK)).Pairwise
          (fun a b : KHit ν α => a.t ≤ b.t) := pairwise_sortedBy _ _
        rw [hcont, List.pairwise_cons] at hpc
        rcases List.mem_cons.1 hin with h | h
        · rw [← h]
        · exact hpc.1 _ h
      have hkn : kNextHit nodes tsK = some (f.node, c.node,
          (if c.node = f.node then some z.node else some f.node), f.t) := by
        simp only [kNextHit, hk, kContainer_eq, hz, hcont]
        rfl
      rw [hkn] at heq
      refine ⟨_, heq, hfm.1, hfm.2, rfl, hmin, ⟨hcm.1, c.t, hcm.2, hcmin⟩, ?_⟩
      by_cases hcf : c.node = f.node
      · right; right
        have hzm := (hall z).1 (by simp)
        have hone : tsK f.node = [f.t] := by
          rw [← hcf] at hfm ⊢
          have := hfm.2
          rw [hcm.2] at this ⊢
          simp only [List.mem_singleton] at this
          rw [this]
        have hpw2 := hpw.2
        rw [List.pairwise_cons] at hpw2
        have hzne : z.node ≠ f.node := by
          intro he
          -- two entries of the sorted list belong to a node with a single crossing
          have hcount : (((f :: z :: rest).map (·.node)).count f.node) = 1 := by
            rw [← hsort]
            have := ((perm_sortedBy (fun h : KHit ν α => h.t) (x :: y :: l)).map
              (·.node)).count_eq f.node
            rw [this, ← hk, count_kHits V.nodup, if_pos hfm.1, hone]
            rfl
          simp [he] at hcount
        refine ⟨hcf, z.node, z.t, by simp [toInfo, hcf], hzm.1, hzm.2, hzne, ?_⟩
        intro v hv hvf t ht
        have := (hall ⟨v, t⟩).2 ⟨hv, ht⟩
        rcases List.mem_cons.1 this with h | h
        · exact absurd (congrArg KHit.node h) hvf
        · rcases List.mem_cons.1 h with h | h
          · rw [← h]
          · exact hpw2.1 _ h
      · right; left
        exact ⟨hcf, by simp [toInfo, hcf]⟩

/-- An object around the start has exactly one forward crossing, its far end. -/
theorem crossings_of_inside {v : ν} {a b : α}
    (sv : span v = some (a, b)) (h1 : a ≤ eps) (h2 : eps < b) : crossings eps span v = [b] := by
  unfold crossings
  rw [sv]
  simp [not_lt.2 h1, h2]

/-- A node whose only crossing is `m` contains the start and ends at `m`. -/
theorem span_of_crossing (V : Valid nodes root span eps) {v : ν} {m : α} (hv : v ∈ nodes)
    (h : crossings eps span v = [m]) : ∃ a, span v = some (a, m) ∧ a ≤ eps ∧ eps < m := by
  have hi := (crossings_once V hv).1 (by rw [h]; rfl)
  obtain ⟨a, b, e, h1, h2⟩ := hi
  have := crossings_of_inside e h1 h2
  rw [h] at this
  simp only [List.cons.injEq, and_true] at this
  subst this
  exact ⟨a, e, h1, h2⟩

/-- **C06.** In every valid scene, for every ray, the container reported by the tracer is the
innermost object around the start of the ray, whether it starts inside an object or on a
surface. -/
theorem container_innermost (V : Valid nodes root span eps) {ts : ν → List α}
    (R : Reports eps nodes span ts) (pt : α → Vec3 α) (db : Vec3 α → α)
    (hdb : ∀ v ∈ nodes, ∀ t ∈ crossings eps span v, db (pt t) = t) :
    ∃ i : HitInfo ν α, nextHit eps db (sceneInters eps pt nodes ts) = .ok (some i) ∧
      Innermost nodes span i.container eps := by
  obtain ⟨i, hi, _, _, _, _, ⟨hc, m, hm, hmin⟩, _⟩ := nextHit_core V R pt db hdb
  refine ⟨i, hi, hc, (crossings_once V hc).1 (by rw [hm]; rfl), ?_⟩
  intro w a b c d hw iw sv sw
  by_cases hwc : i.container = w
  · subst hwc
    rw [sv] at sw
    simp only [Option.some.injEq, Prod.mk.injEq] at sw
    obtain ⟨rfl, rfl⟩ := sw
    exact ⟨le_refl _, le_refl _⟩
  obtain ⟨a', sa, ha, hb⟩ := span_of_crossing V hc hm
  rw [sv] at sa
  simp only [Option.some.injEq, Prod.mk.injEq] at sa
  obtain ⟨rfl, rfl⟩ := sa
  rcases nested_of_inside V hc hw hwc sv sw ⟨_, _, sv, ha, hb⟩ iw with h | h
  · exfalso
    obtain ⟨c', d', e, h1, h2⟩ := iw
    rw [sw] at e
    simp only [Option.some.injEq, Prod.mk.injEq] at e
    obtain ⟨rfl, rfl⟩ := e
    have := hmin w hw d (crossings_of_inside sw h1 h2)
    exact absurd h.2 (not_lt.2 this)
  · exact ⟨h.1.le, h.2.le⟩

/-- **C07** (part that holds): in every valid scene the tracer reports the nearest surface beyond
the tolerance together with its point; the adjacent object differs from the container; it is
missing only when the ray leaves the scene through the root; and the adjacent object is either
the innermost object immediately behind the surface, or the ray leaves the container and the
adjacent object only begins further ahead. The second alternative does occur, see
`adjacent_wrong`; `adjacent_iff_partial` says when. Full statement: always the first one. -/
theorem hit_and_adjacent_partial (V : Valid nodes root span eps) {ts : ν → List α}
    (R : Reports eps nodes span ts) (pt : α → Vec3 α) (db : Vec3 α → α)
    (hdb : ∀ v ∈ nodes, ∀ t ∈ crossings eps span v, db (pt t) = t) :
    ∃ i : HitInfo ν α, nextHit eps db (sceneInters eps pt nodes ts) = .ok (some i) ∧
      i.dist ∈ crossings eps span i.hit ∧ i.point = pt i.dist ∧
      (∀ v ∈ nodes, ∀ t ∈ crossings eps span v, i.dist ≤ t) ∧
      (i.adjacent = none ↔ i.hit = root) ∧
      i.adjacent ≠ some i.container ∧
      (∀ a, i.adjacent = some a → Innermost nodes span a i.dist ∨
        (i.container = i.hit ∧ ∃ c d, span a = some (c, d) ∧ i.dist < c)) := by
  obtain ⟨i, hi, hh, hd, hp, hmin, ⟨hc, m, hm, hcmin⟩, hadj⟩ := nextHit_core V R pt db hdb
  obtain ⟨ra, rb, sr, hr1, hr2, hroot⟩ := V.root_span
  have hrc := crossings_of_inside sr hr1 hr2
  obtain ⟨ca, sc, hc1, hc2⟩ := span_of_crossing V hc hm
  refine ⟨i, hi, hd, hp, hmin, ?_, ?_, ?_⟩
  · constructor
    · intro hnone
      rcases hadj with ⟨_, _, h⟩ | ⟨_, h⟩ | ⟨_, a, s, h, _⟩
      · exact (h root V.root_mem rb (by simp [hrc])).1.symm
      · rw [h] at hnone; cases hnone
      · rw [h] at hnone; cases hnone
    · intro hr
      have hdr : i.dist = rb := by rw [hr, hrc] at hd; simpa using hd
      have honly : ∀ v ∈ nodes, ∀ t ∈ crossings eps span v, v = root := by
        intro v hv t ht
        by_contra hne
        obtain ⟨a, b, sv, hab, _⟩ := mem_crossings.1 ht
        have h1 := hroot v a b hv hne sv
        have h2 := hmin v hv t ht
        have h3 := V.nonempty v a b hv sv
        rw [hdr] at h2
        rcases hab with rfl | rfl
        · exact absurd (lt_of_le_of_lt h2 (lt_trans h3 h1.2)) (lt_irrefl _)
        · exact absurd (lt_of_le_of_lt h2 h1.2) (lt_irrefl _)
      rcases hadj with ⟨h, _⟩ | ⟨h, _⟩ | ⟨_, a, s, _, ha, hs, hne, _⟩
      · exact h
      · exact absurd ((honly _ hc m (by simp [hm])).trans hr.symm) h
      · exact absurd ((honly a ha s hs).trans hr.symm) hne
  · rcases hadj with ⟨h, _⟩ | ⟨hne, h⟩ | ⟨hce, a, s, h, _, _, hne, _⟩
    · rw [h]; simp
    · rw [h]; intro he; exact hne (Option.some.inj he).symm
    · rw [h]; intro he; exact hne ((Option.some.inj he).trans hce)
  · intro a ha
    rcases hadj with ⟨h, _⟩ | ⟨hne, h⟩ | ⟨hce, a', s, h, ham, hs, hne, hsmin⟩
    · rw [h] at ha; cases ha
    · -- entering the hit object
      rw [h] at ha
      obtain rfl := Option.some.inj ha
      left
      obtain ⟨lo, hi', sh, hends, hdeps⟩ := mem_crossings.1 hd
      have hlt := V.nonempty _ _ _ hh sh
      have hlo : i.dist = lo := by
        rcases hends with he | he
        · exact he
        · exfalso
          by_cases hle : eps < lo
          · have := hmin _ hh lo (mem_crossings.2 ⟨lo, hi', sh, Or.inl rfl, hle⟩)
            rw [he] at this
            exact absurd hlt (not_lt.2 this)
          · have hin : Inside span i.hit eps := ⟨lo, hi', sh, not_lt.1 hle, by rw [← he]; exact hdeps⟩
            have h1 := hcmin _ hh hi' (crossings_of_inside sh (not_lt.1 hle)
              (by rw [← he]; exact hdeps))
            have h2 := hmin _ hc m (by simp [hm])
            rw [he] at h2
            rcases nested_of_inside V hc hh hne sc sh ⟨_, _, sc, hc1, hc2⟩ hin with h | h
            · exact absurd h.2 (not_lt.2 h1)
            · exact absurd h.2 (not_lt.2 h2)
      refine ⟨hh, ⟨lo, hi', sh, hlo.ge, by rw [hlo]; exact hlt⟩, ?_⟩
      intro w a b c d hw iw s1 s2
      rw [sh] at s1
      simp only [Option.some.injEq, Prod.mk.injEq] at s1
      obtain ⟨rfl, rfl⟩ := s1
      by_cases hwh : i.hit = w
      · subst hwh
        rw [sh] at s2
        simp only [Option.some.injEq, Prod.mk.injEq] at s2
        obtain ⟨rfl, rfl⟩ := s2
        exact ⟨le_refl _, le_refl _⟩
      rcases nested_of_inside V hh hw hwh sh s2 ⟨_, _, sh, hlo.ge, by rw [hlo]; exact hlt⟩ iw with
        h | h
      · exfalso
        obtain ⟨c', d', e, h1, h2⟩ := iw
        rw [s2] at e
        simp only [Option.some.injEq, Prod.mk.injEq] at e
        obtain ⟨rfl, rfl⟩ := e
        rw [hlo] at h1
        exact absurd h.1 (not_lt.2 h1)
      · exact ⟨h.1.le, h.2.le⟩
    · -- leaving the container
      rw [h] at ha
      obtain rfl := Option.some.inj ha
      have hdm : i.dist = m := by rw [← hce, hm] at hd; simpa using hd
      obtain ⟨c, d, sa, hends, hseps⟩ := mem_crossings.1 hs
      have hcd := V.nonempty _ _ _ ham sa
      have hs0 := hmin _ ham s hs
      by_cases hlt : i.dist < c
      · exact Or.inr ⟨hce, c, d, sa, hlt⟩
      left
      have hcle := not_lt.1 hlt
      -- `a'` contains the point behind the surface
      have hin : Inside span a' i.dist := by
        refine ⟨c, d, sa, hcle, ?_⟩
        rcases hends with he | he
        · rw [he] at hs0; exact lt_of_le_of_lt hs0 hcd
        · rw [← he]
          rcases lt_or_eq_of_le hs0 with hlt' | heq
          · exact hlt'
          · exfalso
            -- both end at the same place: impossible for nested objects
            have hne' : i.container ≠ a' := fun hh' => hne (hh'.symm.trans hce)
            by_cases hceps : eps < c
            · have := hmin _ ham c (mem_crossings.2 ⟨c, d, sa, Or.inl rfl, hceps⟩)
              have : i.dist < d := lt_of_le_of_lt this hcd
              rw [heq, he] at this
              exact absurd this (lt_irrefl _)
            · have := nested_of_inside V hc ham hne' sc sa ⟨_, _, sc, hc1, hc2⟩
                ⟨_, _, sa, not_lt.1 hceps, by rw [← he]; exact hseps⟩
              rw [hdm, he] at heq
              rcases this with h | h
              · rw [heq] at h; exact absurd h.2 (lt_irrefl _)
              · rw [heq] at h; exact absurd h.2 (lt_irrefl _)
      refine ⟨ham, hin, ?_⟩
      intro w x y z u hw iw s1 s2
      rw [sa] at s1
      simp only [Option.some.injEq, Prod.mk.injEq] at s1
      obtain ⟨rfl, rfl⟩ := s1
      by_cases hwa : a' = w
      · subst hwa
        rw [sa] at s2
        simp only [Option.some.injEq, Prod.mk.injEq] at s2
        obtain ⟨rfl, rfl⟩ := s2
        exact ⟨le_refl _, le_refl _⟩
      rcases nested_of_inside V ham hw hwa sa s2 hin iw with h | h
      · exfalso
        obtain ⟨z', u', e, h1, h2⟩ := iw
        rw [s2] at e
        simp only [Option.some.injEq, Prod.mk.injEq] at e
        obtain ⟨rfl, rfl⟩ := e
        have hwh : w ≠ i.hit := by
          rintro rfl
          rw [← hce, sc] at s2
          simp only [Option.some.injEq, Prod.mk.injEq] at s2
          rw [← s2.2, hdm] at h2
          exact absurd h2 (lt_irrefl _)
        have hdeps : eps < i.dist := by rw [hdm]; exact hc2
        have h3 := hsmin w hw hwh u (mem_crossings.2 ⟨z, u, s2, Or.inr rfl, lt_trans hdeps h2⟩)
        rcases hends with he | he
        · -- second crossing is the start of `a'`, so `w` starts after it and after the surface
          have : i.dist ≤ c := by rw [← he]; exact hs0
          exact absurd (lt_of_le_of_lt this h.1) (not_lt.2 h1)
        · rw [he] at h3; exact absurd h.2 (not_lt.2 h3)
      · exact ⟨h.1.le, h.2.le⟩

/-- **C07**, exact condition: let `p` be the innermost object immediately behind the surface. If
the ray enters an object, or leaves it without another object starting before (or at) the far end
of `p`, the adjacent object is `p`. If the ray leaves the container and some object starts
strictly between the surface and the far end of a surrounding `p`, it is not. -/
theorem adjacent_iff_partial (V : Valid nodes root span eps) {ts : ν → List α}
    (R : Reports eps nodes span ts) (pt : α → Vec3 α) (db : Vec3 α → α)
    (hdb : ∀ v ∈ nodes, ∀ t ∈ crossings eps span v, db (pt t) = t)
    {p : ν} {lo hi t0 : α} (sp : span p = some (lo, hi)) (i : HitInfo ν α)
    (hi' : nextHit eps db (sceneInters eps pt nodes ts) = .ok (some i)) (ht0 : t0 = i.dist)
    (hp : Innermost nodes span p t0) :
    ((i.container ≠ i.hit ∨ ∀ v ∈ nodes, ∀ c d, span v = some (c, d) → t0 < c → hi < c) →
      i.adjacent = some p) ∧
    ((i.container = i.hit ∧ lo ≤ eps ∧
        ∃ v ∈ nodes, ∃ c d, span v = some (c, d) ∧ t0 < c ∧ c < hi) →
      i.adjacent ≠ some p) := by
  subst ht0
  obtain ⟨j, hj, _, _, _, hnone, _, hcases⟩ := hit_and_adjacent_partial V R pt db hdb
  rw [hi'] at hj
  simp only [Except.ok.injEq, Option.some.injEq] at hj
  subst hj
  obtain ⟨j, hj, hh, hd, _, hmin, ⟨hc, m, hm, hcmin⟩, hadj⟩ := nextHit_core V R pt db hdb
  rw [hi'] at hj
  simp only [Except.ok.injEq, Option.some.injEq] at hj
  subst hj
  obtain ⟨lo', hi'', e, hp1, hp2⟩ := hp.2.1
  rw [sp] at e
  simp only [Option.some.injEq, Prod.mk.injEq] at e
  obtain ⟨rfl, rfl⟩ := e
  have hdeps : eps < i.dist := by obtain ⟨_, _, _, _, h⟩ := mem_crossings.1 hd; exact h
  have huniq : ∀ a, Innermost nodes span a i.dist → a = p := by
    intro a ha
    by_contra hne
    obtain ⟨c, d, sa, _, _⟩ := ha.2.1
    have h1 := ha.2.2 p c d lo hi hp.1 hp.2.1 sa sp
    have h2 := hp.2.2 a lo hi c d ha.1 ha.2.1 sp sa
    rcases nested_of_inside V ha.1 hp.1 hne sa sp ha.2.1 hp.2.1 with h | h
    · exact absurd h.1 (not_lt.2 h1.1)
    · exact absurd h.1 (not_lt.2 h2.1)
  have hpc : i.container = i.hit → p ≠ i.hit := by
    intro hce he
    obtain ⟨ca, sc, _, hc2⟩ := span_of_crossing V hc hm
    have hdm : i.dist = m := by rw [← hce, hm] at hd; simpa using hd
    rw [he, ← hce, sc] at sp
    simp only [Option.some.injEq, Prod.mk.injEq] at sp
    rw [hdm, ← sp.2] at hp2
    exact absurd hp2 (lt_irrefl _)
  constructor
  · intro hyp
    cases ha : i.adjacent with
    | none =>
      exfalso
      obtain ⟨ra, rb, sr, hr1, hr2, hroot⟩ := V.root_span
      have hir := hnone.1 ha
      have hdr : i.dist = rb := by
        rw [hir, crossings_of_inside sr hr1 hr2] at hd; simpa using hd
      by_cases hpr : p = root
      · subst hpr
        rw [sr] at sp
        simp only [Option.some.injEq, Prod.mk.injEq] at sp
        rw [hdr, sp.2] at hp2
        exact absurd hp2 (lt_irrefl _)
      · have := (hroot p lo hi hp.1 hpr sp).2
        rw [hdr] at hp2
        exact absurd hp2 (not_lt.2 this.le)
    | some a =>
      rcases hcases a ha with h | ⟨hce, c, d, sa, hlt⟩
      · rw [huniq a h]
      · exfalso
        rcases hyp with h | h
        · exact h hce
        rcases hadj with ⟨h', _⟩ | ⟨h', _⟩ | ⟨_, a', s, h', ham, hs, _, hsmin⟩
        · rw [h'] at ha; cases ha
        · exact h' hce
        · rw [h'] at ha
          obtain rfl := Option.some.inj ha
          have h1 := h a' ham c d sa hlt
          have h2 := hsmin p hp.1 (hpc hce) hi
            (mem_crossings.2 ⟨lo, hi, sp, Or.inr rfl, lt_trans hdeps hp2⟩)
          obtain ⟨c', d', sa', hends, _⟩ := mem_crossings.1 hs
          rw [sa] at sa'
          simp only [Option.some.injEq, Prod.mk.injEq] at sa'
          obtain ⟨rfl, rfl⟩ := sa'
          have h3 := V.nonempty _ _ _ ham sa
          rcases hends with he | he
          · rw [he] at h2; exact absurd h1 (not_lt.2 h2)
          · rw [he] at h2; exact absurd (lt_trans h1 h3) (not_lt.2 h2)
  · rintro ⟨hce, hlo, v, hv, c, d, sv, hc0, hchi⟩ ha
    rcases hadj with ⟨h', _⟩ | ⟨h', _⟩ | ⟨_, a', s, h', ham, hs, _, hsmin⟩
    · rw [h'] at ha; cases ha
    · exact h' hce
    · rw [h'] at ha
      obtain rfl := Option.some.inj ha
      have hsp : s = hi := by
        have := crossings_of_inside sp hlo (lt_trans hdeps hp2)
        rw [this] at hs
        simpa using hs
      have hvh : v ≠ i.hit := by
        rintro rfl
        obtain ⟨ca, sc, hca, _⟩ := span_of_crossing V hc hm
        rw [← hce, sc] at sv
        simp only [Option.some.injEq, Prod.mk.injEq] at sv
        rw [sv.1] at hca
        exact absurd (lt_trans hdeps hc0) (not_lt.2 hca)
      have := hsmin v hv hvh c (mem_crossings.2 ⟨c, d, sv, Or.inl rfl, lt_trans hdeps hc0⟩)
      rw [hsp] at this
      exact absurd hchi (not_lt.2 this)

end

/-! ## Concrete scenes -/

/-- World `0` from -20 to 20; a box `1` from -6 to 6 with a sphere `2` from 3 to 4 in it; a
neighbouring box `3` from 8 to 10. -/
def demoSpan : Spans (Fin 4) ℚ := ![some (-20, 20), some (-6, 6), some (3, 4), some (8, 10)]
/-- The same without the sphere in the box: a ray in box `1` next meets its own surface. -/
def siblingSpan : Spans (Fin 4) ℚ := ![some (-20, 20), some (-6, 6), none, some (8, 10)]

theorem demo_valid : Valid [0, 1, 2, 3] 0 demoSpan (1/1000) where
  nodup := by decide
  nonempty := by intro v a b; fin_cases v <;> simp [demoSpan] <;> intros <;> grind
  apart := by
    intro u v a b c d
    fin_cases u <;> fin_cases v <;> simp [demoSpan] <;> intros <;> grind
  root_mem := by decide
  root_span := ⟨-20, 20, by simp [demoSpan], by norm_num, by norm_num, by
    intro v c d; fin_cases v <;> simp [demoSpan] <;> intros <;> grind⟩

theorem sibling_valid : Valid [0, 1, 2, 3] 0 siblingSpan (1/1000) where
  nodup := by decide
  nonempty := by intro v a b; fin_cases v <;> simp [siblingSpan] <;> intros <;> grind
  apart := by
    intro u v a b c d
    fin_cases u <;> fin_cases v <;> simp [siblingSpan] <;> intros <;> grind
  root_mem := by decide
  root_span := ⟨-20, 20, by simp [siblingSpan], by norm_num, by norm_num, by
    intro v c d; fin_cases v <;> simp [siblingSpan] <;> intros <;> grind⟩

/-- Ray along the x axis. -/
def demoPt (t : ℚ) : Vec3 ℚ := ⟨t, 0, 0⟩

theorem reports_crossings (eps : α) (nodes : List ν) (span : Spans ν α) :
    Reports eps nodes span (crossings eps span) := by
  intro v _
  have : keep eps (crossings eps span v) = crossings eps span v := by
    rw [keep, List.filter_eq_self]
    intro t ht
    obtain ⟨_, _, _, _, h⟩ := mem_crossings.1 ht
    simpa using h
  rw [this]

/-- Non-vacuity of C06/C07/C08: the hypotheses hold for a ray starting in box `1` in front of the
sphere: container box `1`, adjacent sphere `2`. -/
example : nextHit (1/1000) (·.x) (sceneInters (1/1000) demoPt [0, 1, 2, 3] (crossings (1/1000) demoSpan))
    = .ok (some ⟨2, 1, some 2, ⟨3, 0, 0⟩, 3⟩) := by decide +kernel

example : Reports (1/1000) [0, 1, 2, 3] demoSpan (crossings (1/1000) demoSpan) :=
  reports_crossings _ _ _

example : ∀ v ∈ ([0, 1, 2, 3] : List (Fin 4)), ∀ t ∈ crossings (1/1000) demoSpan v,
    (demoPt t).x = t := fun _ _ _ _ => rfl

/-- **C07 is violated** when the ray leaves an object and another object lies ahead in the same
parent: leaving box `1` at `t = 6` the ray enters the world `0`, but the tracer reports the
neighbouring box `3`, which begins at `t = 8`, as the adjacent object. Its refractive index is
then used for the Fresnel coefficients and the refraction at the surface of box `1`. -/
theorem adjacent_wrong :
    ∃ i : HitInfo (Fin 4) ℚ,
      nextHit (1/1000) (·.x) (sceneInters (1/1000) demoPt [0, 1, 2, 3] (crossings (1/1000) siblingSpan))
        = .ok (some i) ∧
      i.hit = 1 ∧ i.container = 1 ∧ i.adjacent = some 3 ∧ i.dist = 6 ∧
      Innermost [0, 1, 2, 3] siblingSpan 0 6 ∧ ¬ Inside siblingSpan 3 6 := by
  refine ⟨⟨1, 1, some 3, ⟨6, 0, 0⟩, 6⟩, by decide +kernel, rfl, rfl, rfl, rfl, ?_, ?_⟩
  · refine ⟨by decide, ⟨-20, 20, by simp [siblingSpan], by norm_num, by norm_num⟩, ?_⟩
    intro w a b c d _ hw s1 s2
    obtain ⟨c', d', s3, h1, h2⟩ := hw
    fin_cases w <;> simp [siblingSpan] at s1 s2 s3 <;> grind
  · rintro ⟨a, b, s, h1, h2⟩
    simp [siblingSpan] at s
    obtain ⟨rfl, rfl⟩ := s
    norm_num at h1

/-- The engine reports the same wrong object in that scene. -/
example : kNextHit [0, 1, 2, 3] (crossings (1/1000) siblingSpan) = some (1, 1, some 3, 6) := by
  decide +kernel

/-- Non-vacuity of `kernel_fallback`: a ray that misses the root but crosses two objects. -/
example : kNextHit [0, 1, 2] (![[], [1, 2], [3, 4]] : Fin 3 → List ℚ) = some (1, 1, some 1, 1) := by
  decide +kernel

end PV.NextHit
