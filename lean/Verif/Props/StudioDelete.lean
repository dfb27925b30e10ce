import Verif.Props.StudioAdd

/-!
C122: what the delete buttons of the studio leave behind.
-/

set_option linter.unusedSectionVars false

namespace PV.StudioDelete
open PV PV.Doc PV.Studio PV.Spec PV.SceneFile PV.StudioAdd
variable {α : Type} [Field α] [LinearOrder α] [IsStrictOrderedRing α] [FloorRing α]

/-! ### The schema -/

theorem has_filter {β : Type} {d : List (String × β)} {p : String × β → Bool} {k : String} (hp : ∀ e ∈ d, e.1 = k → p e = true) :
    (d.filter p).lookup k = d.lookup k := by
  induction d with
  | nil => rfl
  | cons e d ih =>
    obtain ⟨j, v⟩ := e
    have ih := ih fun e he => hp e (List.mem_cons_of_mem _ he)
    by_cases hj : k = j
    · subst hj
      rw [List.filter_cons_of_pos (hp _ (List.mem_cons_self ..) rfl), List.lookup_cons, List.lookup_cons, beq_self_eq_true]
    · rw [List.filter_cons, List.lookup_cons, beq_eq_false_iff_ne.2 hj]
      split
      · rw [List.lookup_cons, beq_eq_false_iff_ne.2 hj]
        exact ih
      · exact ih

theorem named_filter {q : Schema.Check α} {req : List String} {old : List (String × Yaml α)} {p : String × Yaml α → Bool}
    (h : Schema.named q req (.map old) = true) (hp : ∀ e ∈ old, e.1 ∈ req → p e = true) :
    Schema.named q req (.map (old.filter p)) = true := by
  unfold Schema.named at h ⊢
  simp only [Bool.and_eq_true, List.all_eq_true] at h ⊢
  refine ⟨fun k hk => ?_, fun e he => h.2 e (List.mem_filter.1 he).1⟩
  have := h.1 k hk
  unfold has at this ⊢
  rw [has_filter fun e he hek => hp e he (hek ▸ hk)]
  exact this

/-! ### Nodes -/

theorem parseNodes_filter {F : Files α} {comps : List (String × CompDef α)} (p : String → Bool) :
    ∀ {ns : List (String × Yaml α)} {ps : List (String × List (String × Yaml α) × Content α)},
    parseNodes F comps ns = .ok ps → parseNodes F comps (ns.filter fun e => p e.1) = .ok (ps.filter fun e => p e.1)
  | [], ps, h => by cases h; rfl
  | (k, v) :: ns, ps, h => by
    unfold parseNodes at h
    cases hv : v.dict with
    | error e => rw [hv] at h; cases h
    | ok d =>
      rw [hv] at h
      dsimp only at h
      cases hc : parseContent F comps k d with
      | error e => rw [hc] at h; cases h
      | ok c =>
        rw [hc] at h
        dsimp only at h
        cases hr : parseNodes F comps ns with
        | error e => rw [hr] at h; cases h
        | ok qs =>
          rw [hr] at h
          cases h
          have ih := parseNodes_filter p hr
          cases hk : p k with
          | true =>
            rw [List.filter_cons_of_pos (by simpa using hk), List.filter_cons_of_pos (by simpa using hk)]
            unfold parseNodes
            rw [hv]
            dsimp only
            rw [hc]
            dsimp only
            rw [ih]
          | false =>
            rw [List.filter_cons_of_neg (by simpa using hk), List.filter_cons_of_neg (by simpa using hk)]
            exact ih

theorem mem_climb_self (parents : List (String × String)) (f : ℕ) (n : String) : n ∈ climb parents f n := by
  cases f with
  | zero => simp [climb]
  | succ f => unfold climb; split <;> simp

/-- Fewer parents lead to fewer nodes. -/
theorem climb_filter {parents : List (String × String)} (name : String) : ∀ {f g : ℕ} {n x : String}, f ≤ g →
    x ∈ climb (parents.filter fun e => e.1 ≠ name) f n → x ∈ climb parents g n
  | 0, g, n, x, _, h => by
    rw [climb, List.mem_singleton] at h
    exact h ▸ mem_climb_self ..
  | f + 1, g, n, x, hg, h => by
    obtain ⟨g, rfl⟩ : ∃ g', g = g' + 1 := ⟨g - 1, by omega⟩
    unfold climb at h
    split at h
    · rw [List.mem_singleton] at h
      exact h ▸ mem_climb_self ..
    · rename_i q hq
      have hn : n ≠ name := by
        have := (List.mem_filter.1 (lookup_mem hq)).2
        simpa using this
      rw [has_filter (by intro e _ he; simpa [he] using hn)] at hq
      unfold climb
      rw [hq]
      rcases List.mem_cons.1 h with rfl | h
      · exact List.mem_cons_self ..
      · exact List.mem_cons_of_mem _ (climb_filter name (by omega) h)

theorem attach_filter {parents parents' : List (String × String)} {k name : String} {p : Option String} (hk : k ≠ name)
    (h : attach parents k p = .ok parents') :
    attach (parents.filter fun e => e.1 ≠ name) k p = .ok (parents'.filter fun e => e.1 ≠ name) := by
  cases p with
  | none => cases h; rfl
  | some p =>
    unfold attach at h ⊢
    dsimp only at h ⊢
    split_ifs at h with hm
    cases h
    rw [if_neg fun h => hm (climb_filter name (List.length_filter_le _ _) h), List.filter_cons_of_pos (by simpa using hk)]

theorem attach_dropped {parents parents' : List (String × String)} {name : String} {p : Option String}
    (h : attach parents name p = .ok parents') : (parents'.filter fun e => e.1 ≠ name) = parents.filter fun e => e.1 ≠ name := by
  cases p with
  | none => cases h; rfl
  | some p =>
    unfold attach at h
    dsimp only at h
    split_ifs at h
    cases h
    rw [List.filter_cons_of_neg (by simp)]

/-- A node with another parent keeps it. -/
theorem parentOf_filter {names : List String} {k name : String} {d : List (String × Yaml α)} {p : Option String} (hp : p ≠ some name)
    (h : Doc.parentOf names k d = .ok p) : Doc.parentOf (names.filter (· ≠ name)) k d = .ok p := by
  unfold Doc.parentOf at h ⊢
  by_cases hk : k = "world"
  · rw [if_pos hk] at h ⊢
    exact h
  rw [if_neg hk] at h ⊢
  split at h
  · split_ifs at h with hw
    cases h
    rw [if_pos (List.mem_filter.2 ⟨hw, by simpa using fun e => hp (by rw [e])⟩)]
  · split_ifs at h with hw
    cases h
    rw [if_pos (List.mem_filter.2 ⟨hw, by simpa using fun e => hp (by rw [e])⟩)]
  · rename_i q _ _
    cases hq : q.string with
    | error e => rw [hq] at h; cases h
    | ok q' =>
      rw [hq] at h
      dsimp only at h ⊢
      split_ifs at h with hw
      cases h
      rw [if_pos (List.mem_filter.2 ⟨hw, by simpa using fun e => hp (by rw [e])⟩)]

/-- A node whose parent is taken away is refused. -/
theorem parentOf_lost {names : List String} {k name : String} {d : List (String × Yaml α)}
    (h : Doc.parentOf names k d = .ok (some name)) : Doc.parentOf (names.filter (· ≠ name)) k d = .error .key := by
  unfold Doc.parentOf at h ⊢
  by_cases hk : k = "world"
  · rw [if_pos hk] at h
    cases h
  rw [if_neg hk] at h ⊢
  split at h
  · split_ifs at h with hw
    cases h
    rw [if_neg (by simp)]
  · split_ifs at h with hw
    cases h
    rw [if_neg (by simp)]
  · rename_i q _ _
    cases hq : q.string with
    | error e => rw [hq] at h; cases h
    | ok q' =>
      rw [hq] at h
      dsimp only at h ⊢
      split_ifs at h with hw
      cases h
      rw [if_neg (by simp)]

theorem placeNodes_filter {names : List String} {name : String} :
    ∀ {ps : List (String × List (String × Yaml α) × Content α)} {parents : List (String × String)} {ns : List (NodeDef α)},
      (∀ n ∈ ns, n.parent ≠ some name) → placeNodes names parents ps = .ok ns →
      placeNodes (names.filter (· ≠ name)) (parents.filter fun e => e.1 ≠ name) (ps.filter fun e => e.1 ≠ name) =
        .ok (ns.filter fun n => n.name ≠ name)
  | [], parents, ns, hl, h => by cases h; rfl
  | (k, d, c) :: ps, parents, ns, hl, h => by
    obtain ⟨p, parents', loc, dir, ns', h1, h2, h3, h4, h5, rfl⟩ := placeNodes_cons h
    have ih := placeNodes_filter (fun n hn => hl n (List.mem_cons_of_mem _ hn)) h5
    by_cases hk : k = name
    · subst hk
      rw [List.filter_cons_of_neg (by simp), List.filter_cons_of_neg (by simp), ← attach_dropped h2]
      exact ih
    · rw [List.filter_cons_of_pos (by simpa using hk), List.filter_cons_of_pos (by simpa using hk)]
      unfold placeNodes
      rw [parentOf_filter (hl _ (List.mem_cons_self ..)) h1]
      dsimp only
      rw [attach_filter hk h2]
      dsimp only
      rw [h3]
      dsimp only
      rw [h4]
      dsimp only
      rw [ih]

theorem placeNodes_lost {names : List String} {name : String} :
    ∀ {ps : List (String × List (String × Yaml α) × Content α)} {parents : List (String × String)} {ns : List (NodeDef α)},
      (∃ n ∈ ns, n.name ≠ name ∧ n.parent = some name) → placeNodes names parents ps = .ok ns →
      placeNodes (names.filter (· ≠ name)) (parents.filter fun e => e.1 ≠ name) (ps.filter fun e => e.1 ≠ name) = .error .key
  | [], parents, ns, hl, h => by cases h; obtain ⟨n, hn, -⟩ := hl; cases hn
  | (k, d, c) :: ps, parents, ns, hl, h => by
    obtain ⟨p, parents', loc, dir, ns', h1, h2, h3, h4, h5, rfl⟩ := placeNodes_cons h
    obtain ⟨n, hn, hne, hp⟩ := hl
    by_cases hk : k = name
    · subst hk
      rw [List.filter_cons_of_neg (by simp), ← attach_dropped h2]
      refine placeNodes_lost ?_ h5
      rcases List.mem_cons.1 hn with rfl | hn
      · exact absurd rfl hne
      · exact ⟨n, hn, hne, hp⟩
    · rw [List.filter_cons_of_pos (by simpa using hk)]
      unfold placeNodes
      by_cases hpk : p = some name
      · subst hpk
        rw [parentOf_lost h1]
      · rw [parentOf_filter hpk h1]
        dsimp only
        rw [attach_filter hk h2]
        dsimp only
        rw [h3]
        dsimp only
        rw [h4]
        dsimp only
        rw [placeNodes_lost ?_ h5]
        rcases List.mem_cons.1 hn with rfl | hn
        · exact absurd hp hpk
        · exact ⟨n, hn, hne, hp⟩

/-! ### Recorders -/

theorem lookup_some_of_mem {β : Type} {d : List (String × β)} {e : String × β} (h : e ∈ d) : has d e.1 = true := by
  unfold has
  cases hl : d.lookup e.1 with
  | some _ => rfl
  | none => exact absurd (List.mem_map.2 ⟨e, h, rfl⟩) (lookup_none.1 hl)

theorem dsetdefault_keep {d : List (String × Yaml α)} {P : String × Yaml α → Bool} {k : String} {v : Yaml α} (hP : P (k, v) = true)
    (hd : ∀ e ∈ d, P e = false → e.1 ≠ k) : dsetdefault (d.filter P) k v = (dsetdefault d k v).filter P := by
  unfold dsetdefault has
  rw [has_filter fun e he hek => by
    cases h : P e with
    | true => rfl
    | false => exact absurd hek (hd e he h)]
  split
  · rfl
  · rw [List.filter_append, List.filter_cons_of_pos hP]
    rfl

theorem dsetdefault_drop {d : List (String × Yaml α)} {P : String × Yaml α → Bool} {k : String} {v : Yaml α} (hP : P (k, v) = false) :
    (dsetdefault d k v).filter P = d.filter P := by
  unfold dsetdefault
  split
  · rfl
  · rw [List.filter_append, List.filter_cons_of_neg (by simp [hP])]
    simp

theorem mem_dsetdefault {d : List (String × Yaml α)} {k : String} {v : Yaml α} {e : String × Yaml α} (h : e ∈ dsetdefault d k v) :
    e ∈ d ∨ e = (k, v) := by
  unfold dsetdefault at h
  split at h
  · exact .inl h
  · simpa using h

theorem mem_addDefaults : ∀ {rs d : List (String × Yaml α)} {e : String × Yaml α}, e ∈ addDefaults d rs → e ∈ d ∨ e ∈ rs
  | [], d, e, h => .inl h
  | r :: rs, d, e, h => by
    rcases mem_addDefaults (rs := rs) h with h | h
    · rcases mem_dsetdefault h with h | h
      · exact .inl h
      · exact .inr (by rw [h]; exact List.mem_cons_self ..)
    · exact .inr (List.mem_cons_of_mem _ h)

theorem addDefaults_keep {P : String × Yaml α → Bool} : ∀ {rs d : List (String × Yaml α)}, (∀ r ∈ rs, P r = true) →
    (∀ e ∈ d, P e = false → ∀ r ∈ rs, e.1 ≠ r.1) → addDefaults (d.filter P) rs = (addDefaults d rs).filter P
  | [], d, _, _ => rfl
  | r :: rs, d, hP, hd => by
    unfold addDefaults
    rw [dsetdefault_keep (hP r (List.mem_cons_self ..)) fun e he hPe => hd e he hPe r (List.mem_cons_self ..)]
    refine addDefaults_keep (fun x hx => hP x (List.mem_cons_of_mem _ hx)) ?_
    intro e he hPe x hx
    rcases mem_dsetdefault he with he | rfl
    · exact hd e he hPe x (List.mem_cons_of_mem _ hx)
    · rw [hP r (List.mem_cons_self ..)] at hPe
      cases hPe

theorem addDefaults_drop {P : String × Yaml α → Bool} : ∀ {rs d : List (String × Yaml α)}, (∀ r ∈ rs, P r = false) →
    (addDefaults d rs).filter P = d.filter P
  | [], d, _ => rfl
  | r :: rs, d, hP => by
    unfold addDefaults
    rw [addDefaults_drop fun x hx => hP x (List.mem_cons_of_mem _ hx), dsetdefault_drop (hP r (List.mem_cons_self ..))]

/-- Taking away nodes with their automatic recorders and declared recorders that are in nobody's way. -/
theorem withAuto_filter {P : String × Yaml α → Bool} {p : String → Bool} :
    ∀ {ns D recs : List (String × Yaml α)},
      (∀ k ∈ ns.map (·.1), ∀ d rs, autoRecorders k d = .ok rs → ∀ r ∈ rs, P r = p k) →
      (∀ e ∈ D, P e = false → ∀ k ∈ ns.map (·.1), p k = true → ∀ l ∈ labels, e.1 ≠ k ++ "-" ++ l) →
      withAuto D ns = .ok recs → withAuto (D.filter P) (ns.filter fun e => p e.1) = .ok (recs.filter P)
  | [], D, recs, _, _, h => by cases h; rfl
  | (k, v) :: ns, D, recs, hP, hD, h => by
    have hP' : ∀ k ∈ ns.map (·.1), ∀ d rs, autoRecorders k d = .ok rs → ∀ r ∈ rs, P r = p k :=
      fun j hj => hP j (by rw [List.map_cons]; exact List.mem_cons_of_mem _ hj)
    have hD' : ∀ e ∈ D, P e = false → ∀ k ∈ ns.map (·.1), p k = true → ∀ l ∈ labels, e.1 ≠ k ++ "-" ++ l :=
      fun e he hPe j hj => hD e he hPe j (by rw [List.map_cons]; exact List.mem_cons_of_mem _ hj)
    unfold withAuto at h
    cases hv : v.dict with
    | error e => rw [hv] at h; cases h
    | ok d =>
      rw [hv] at h
      dsimp only at h
      by_cases ht : truth ((d.lookup "record").getD .null) = true
      · rw [if_pos ht] at h
        cases ha : autoRecorders k d with
        | error e => rw [ha] at h; cases h
        | ok rs =>
          rw [ha] at h
          dsimp only at h
          have hrs := hP k (by simp) d rs ha
          have hD'' : ∀ e ∈ addDefaults D rs, P e = false → ∀ j ∈ ns.map (·.1), p j = true → ∀ l ∈ labels, e.1 ≠ j ++ "-" ++ l := by
            intro e he hPe j hj hpj l hl
            rcases mem_addDefaults he with he | he
            · exact hD' e he hPe j hj hpj l hl
            · obtain ⟨m, hm, em⟩ := (auto_names ha).1 e he
              rw [em]
              intro e'
              have := (name_split (labels_plain m hm) (labels_plain l hl) e').1
              subst this
              rw [hrs e he, hpj] at hPe
              cases hPe
          have ih := withAuto_filter hP' hD'' h
          cases hk : p k with
          | true =>
            rw [List.filter_cons_of_pos (by simpa using hk)]
            unfold withAuto
            rw [hv]
            dsimp only
            rw [if_pos ht, ha]
            dsimp only
            rw [addDefaults_keep (fun r hr => by rw [hrs r hr, hk])]
            · exact ih
            · intro e he hPe r hr
              obtain ⟨m, hm, em⟩ := (auto_names ha).1 r hr
              rw [em]
              exact hD e he hPe k (by simp) hk m hm
          | false =>
            rw [List.filter_cons_of_neg (by simpa using hk)]
            rw [addDefaults_drop fun r hr => by rw [hrs r hr, hk]] at ih
            exact ih
      · rw [if_neg ht] at h
        have ih := withAuto_filter hP' hD' h
        cases hk : p k with
        | true =>
          rw [List.filter_cons_of_pos (by simpa using hk)]
          unfold withAuto
          rw [hv]
          dsimp only
          rw [if_neg ht]
          exact ih
        | false =>
          rw [List.filter_cons_of_neg (by simpa using hk)]
          exact ih

/-- The recorder is on the node. -/
def onNode (name : String) (e : String × Yaml α) : Bool :=
  match e.2 with
  | .map d => ((d.lookup "node").map (isName name)).getD false
  | _ => false

theorem dropRecorders_filter {name : String} : ∀ {recs recs' : List (String × Yaml α)}, dropRecorders name recs = .ok recs' →
    recs' = recs.filter fun e => !onNode name e
  | [], recs', h => by cases h; rfl
  | (n, spec) :: rest, recs', h => by
    unfold dropRecorders at h
    split at h
    · cases h
    · rename_i d hd
      have := dict_map hd
      subst this
      split at h
      · cases h
      · rename_i rest' hr
        have ih := dropRecorders_filter hr
        split at h
        · rename_i hk
          cases h
          rw [List.filter_cons_of_neg (by simp [onNode, hk]), ih]
        · rename_i hk
          cases h
          rw [List.filter_cons_of_pos (by simpa [onNode] using hk), ih]

theorem parseRecorder_node {names : List String} {k : String} {v : Yaml α} {r : String × Recorder α}
    (h : parseRecorder names k v = .ok r) : ∃ d, v = .map d ∧ d.lookup "node" = some (.str r.1) := by
  unfold parseRecorder at h
  cases h1 : v.dict with
  | error e => rw [h1] at h; cases h
  | ok d =>
    rw [h1] at h
    dsimp only at h
    refine ⟨d, dict_map h1, ?_⟩
    cases h2 : dget d "node" with
    | error e => rw [h2] at h; cases h
    | ok n =>
      rw [h2] at h
      dsimp only at h
      cases h3 : n.string with
      | error e => rw [h3] at h; cases h
      | ok s =>
        rw [h3] at h
        dsimp only at h
        have : n = .str s := by cases n <;> simp [Yaml.string] at h3 ⊢; exact h3
        rw [dget_iff.1 h2, this]
        repeat' split at h
        all_goals first | (cases h; done) | skip
        cases h
        rfl

theorem onNode_iff {names : List String} {k name : String} {v : Yaml α} {r : String × Recorder α}
    (h : parseRecorder names k v = .ok r) : onNode name (k, v) = decide (r.1 = name) := by
  obtain ⟨d, rfl, hd⟩ := parseRecorder_node h
  rw [Bool.eq_iff_iff]
  simp [onNode, hd, isName_iff]

theorem parseRecorder_fewer {names names' : List String} {k : String} {v : Yaml α} {r : String × Recorder α}
    (h : parseRecorder names k v = .ok r) (hr : r.1 ∈ names') : parseRecorder names' k v = .ok r := by
  obtain ⟨d, rfl, hd⟩ := parseRecorder_node h
  have hn := (parseRecorder_name h).2
  unfold parseRecorder at h ⊢
  have e : (Yaml.map d).dict = .ok d := rfl
  rw [e] at h ⊢
  dsimp only at h ⊢
  rw [dget_iff.2 hd] at h ⊢
  have e : (Yaml.str r.1 : Yaml α).string = .ok r.1 := rfl
  dsimp only at h ⊢
  rw [e] at h ⊢
  dsimp only at h ⊢
  rw [if_neg (by simpa using hn)] at h
  rw [if_neg (by simpa using hr)]
  exact h

theorem parseRecorders_filter {names names' : List String} {P : String × Yaml α → Bool} {Q : String × Recorder α → Bool} :
    ∀ {l : List (String × Yaml α)} {rs : List (String × Recorder α)},
      (∀ k v r, parseRecorder names k v = .ok r → P (k, v) = Q r) → (∀ r ∈ rs, Q r = true → r.1 ∈ names') →
      parseRecorders names l = .ok rs → parseRecorders names' (l.filter P) = .ok (rs.filter Q)
  | [], rs, _, _, h => by cases h; rfl
  | (k, v) :: l, rs, hPQ, hn, h => by
    unfold parseRecorders at h
    split at h
    · cases h
    · rename_i r hr
      split at h
      · cases h
      · rename_i rs' hrs
        cases h
        have ih := parseRecorders_filter hPQ (fun x hx => hn x (List.mem_cons_of_mem _ hx)) hrs
        cases hq : Q r with
        | true =>
          rw [List.filter_cons_of_pos (by rw [hPQ k v r hr, hq]), List.filter_cons_of_pos hq]
          unfold parseRecorders
          rw [parseRecorder_fewer hr (hn r (List.mem_cons_self ..) hq)]
          dsimp only
          rw [ih]
        | false =>
          rw [List.filter_cons_of_neg (by rw [hPQ k v r hr, hq]; simp), List.filter_cons_of_neg (by simp [hq])]
          exact ih

/-- The automatic recorders of a node are on it. -/
theorem auto_onNode {k name : String} {d rs : List (String × Yaml α)} (h : autoRecorders k d = .ok rs) :
    ∀ r ∈ rs, onNode name r = decide (k = name) := by
  have hface : ∀ {size : List α} {fs : List (String × (ℤ × ℤ × ℤ))} {rs : List (String × Yaml α)},
      faceRecorders k size fs = .ok rs → ∀ r ∈ rs, onNode name r = decide (k = name) := by
    intro size fs
    induction fs with
    | nil => intro rs h; cases h; simp
    | cons f fs ih =>
      intro rs h
      unfold faceRecorders at h
      split at h
      · cases h
      · rename_i r hr
        split at h
        · cases h
        · rename_i rs' hrs
          cases h
          intro x hx
          rcases List.mem_cons.1 hx with rfl | hx
          · unfold faceRecorder at hr
            dsimp only at hr
            split at hr
            · cases hr
            · cases hr
              simp [onNode, List.lookup_cons, isName]
          · exact ih hrs x hx
  unfold autoRecorders at h
  split at h
  · split at h
    · cases h
    · cases h
    · split at h
      · cases h
      · split at h
        · cases h
        · split at h
          · cases h
          · rename_i rs' hrs
            cases h
            intro x hx
            rcases List.mem_cons.1 hx with rfl | hx
            · simp [lostRecorder, onNode, List.lookup_cons, isName]
            · exact hface hrs x hx
  · cases h
    intro x hx
    simp only [List.mem_cons, List.not_mem_nil, or_false] at hx
    rcases hx with rfl | rfl
    · simp [lostRecorder, onNode, List.lookup_cons, isName]
    · simp [escapingRecorder, onNode, List.lookup_cons, isName]

variable {Text Scene : Type}

/-- What deleting a node does to a document that loads. -/
theorem node_edit {F : Files α} (B : Backend α Text Scene) (sc : Option Scene) {data data' : List (String × Yaml α)} {s : SceneDef α}
    (hs : parseFile F (.map data) = .ok s) {name : String} (h : edit B sc data (.deleteNode name) = .ok data') :
    ∃ cs comps ns parsed declared recs, Schema.document (.map data) = true ∧ data'.lookup "version" = some (.str "1.0") ∧
      optDict data' "components" = .ok cs ∧ parseComponents F cs = .ok comps ∧ data.lookup "nodes" = some (.map ns) ∧
      data'.lookup "nodes" = some (.map (ns.filter fun e => e.1 ≠ name)) ∧
      Schema.named Schema.node ["world"] (.map ns) = true ∧
      parseNodes F comps ns = .ok parsed ∧ placeNodes (ns.map (·.1)) [] parsed = .ok s.nodes ∧ "world" ∈ ns.map (·.1) ∧
      (match data'.lookup "recorders" with
        | none => Except.ok []
        | some v => if truth v then v.dict else .ok []) = .ok (declared.filter fun e => !onNode name e) ∧
      withAuto declared ns = .ok recs ∧ parseRecorders (ns.map (·.1)) recs = .ok s.recorders ∧
      (name ≠ "world" → Schema.document (.map data') = true) ∧
      (∀ w, data'.lookup "nodes" = some w → Schema.named Schema.node ["world"] w = false → Schema.document (.map data') = false) := by
  obtain ⟨doc, hdoc, hvalid, hversion, hscene⟩ := parseFile_stages hs
  cases hdoc
  obtain ⟨cs, comps, ns, parsed, h1, h2, h3, h4, h5, h6, h7⟩ := parseScene_stages hscene
  obtain ⟨declared, recs, g1, g2, g3⟩ := recorders_stages h3 h6
  have hnodes : Schema.named Schema.node ["world"] (.map ns) = true := by
    unfold Schema.document Schema.object at hvalid
    simp only [List.all_nil, Bool.true_and] at hvalid
    have := lookup_all hvalid h3
    simpa [List.lookup] using this
  have hbad : ∀ {e : List (String × Yaml α)} (w), e.lookup "nodes" = some w → Schema.named Schema.node ["world"] w = false →
      Schema.document (.map e) = false := by
    intro e w he hw
    by_contra hc
    rw [Bool.not_eq_false] at hc
    unfold Schema.document Schema.object at hc
    simp only [List.all_nil, Bool.true_and] at hc
    have := lookup_all hc he
    simp [List.lookup, hw] at this
  simp only [edit] at h
  split at h
  · cases h
  rename_i nodes hnodes'
  have := section_ok hnodes'
  rw [h3] at this
  cases this
  split at h
  · cases h
  rw [lookup_dset_ne data (by decide)] at h
  have hset : name ≠ "world" → Schema.document (.map (dset data "nodes" (.map (ddel ns name)))) = true := by
    intro hw
    refine document_dset hvalid (.inl ⟨rfl, named_filter hnodes ?_⟩)
    intro e _ he
    rw [List.mem_singleton] at he
    rw [he]
    simpa using Ne.symm hw
  have hok : ∀ k v, optDict (dset (dset data "nodes" (.map (ddel ns name))) "recorders" v) "components" = k → k = .ok cs := by
    intro k v hk
    unfold optDict at h1 hk
    rw [lookup_dset_ne _ (by decide), lookup_dset_ne _ (by decide)] at hk
    rw [← hk]
    exact h1
  cases hr : data.lookup "recorders" with
  | none =>
    rw [hr] at h g1
    cases h
    cases g1
    refine ⟨cs, comps, ns, parsed, [], recs, hvalid, ?_, ?_, h2, h3, lookup_dset_self .., hnodes, h4, h5, h7, ?_, g2, g3, hset, hbad⟩
    · rw [lookup_dset_ne _ (by decide)]; exact hversion
    · unfold optDict at h1 ⊢
      rw [lookup_dset_ne _ (by decide)]
      exact h1
    · rw [lookup_dset_ne _ (by decide), hr]
      rfl
  | some v =>
    rw [hr] at h g1
    dsimp only at h g1
    by_cases ht : truth v = true
    · rw [if_pos ht] at h g1
      rw [g1] at h
      dsimp only at h
      split at h
      · cases h
      rename_i recs' hd
      cases h
      have hd' := dropRecorders_filter hd
      have hrec : Schema.named Schema.recorder [] (.map declared) = true := by
        unfold Schema.document Schema.object at hvalid
        simp only [List.all_nil, Bool.true_and] at hvalid
        have := lookup_all hvalid hr
        rw [dict_map g1] at this
        simpa [List.lookup] using this
      refine ⟨cs, comps, ns, parsed, declared, recs, hvalid, ?_, hok _ _ rfl, h2, h3, ?_, hnodes, h4, h5, h7, ?_, g2, g3, ?_, hbad⟩
      · rw [lookup_dset_ne _ (by decide), lookup_dset_ne _ (by decide)]; exact hversion
      · rw [lookup_dset_ne _ (by decide), lookup_dset_self]; rfl
      · rw [lookup_dset_self]
        subst hd'
        dsimp only
        split
        · rfl
        · rename_i ht'
          have : (declared.filter fun e => !onNode name e) = [] := by simpa [truth] using ht'
          rw [this]
      · intro hw
        refine document_dset (hset hw) (.inr (.inl ⟨rfl, ?_⟩))
        rw [hd']
        exact named_filter hrec (by simp)
    · rw [if_neg ht] at h g1
      cases h
      cases g1
      refine ⟨cs, comps, ns, parsed, [], recs, hvalid, ?_, ?_, h2, h3, lookup_dset_self .., hnodes, h4, h5, h7, ?_, g2, g3, hset, hbad⟩
      · rw [lookup_dset_ne _ (by decide)]; exact hversion
      · unfold optDict at h1 ⊢
        rw [lookup_dset_ne _ (by decide)]
        exact h1
      · rw [lookup_dset_ne _ (by decide), hr]
        dsimp only
        rw [if_neg ht]
        rfl

/-- **C122**. Deleting a node that is not the world and has no children leaves a document that loads. The scene has lost the node and
the recorders on it, and nothing else. Missing: a recorder that goes may have been hiding an
automatic recorder of another node, which then appears (`hidden_appears`). -/
theorem node_removed_partial {F : Files α} (B : Backend α Text Scene) (sc : Option Scene) {data data' : List (String × Yaml α)} {s : SceneDef α}
    (hs : parseFile F (.map data) = .ok s) {name : String} (hw : name ≠ "world") (hleaf : ∀ n ∈ s.nodes, n.parent ≠ some name)
    (hfree : ∀ r ∈ s.recorders, r.1 = name → ∀ n ∈ s.nodes, n.name ≠ name → ∀ l ∈ labels, r.2.name ≠ n.name ++ "-" ++ l)
    (h : edit B sc data (.deleteNode name) = .ok data') :
    parseFile F (.map data') =
      .ok ⟨s.nodes.filter fun n => n.name ≠ name, s.recorders.filter fun r => r.1 ≠ name⟩ := by
  obtain ⟨cs, comps, ns, parsed, declared, recs, -, k1, k2, k3, -, k5, -, k6, k7, k8, k9, k10, k11, k12, -⟩ := node_edit B sc hs h
  have hnames : s.nodes.map (·.name) = ns.map (·.1) := by rw [placeNodes_names k7, parseNodes_names k6]
  have hmap : (ns.filter fun e => decide (e.1 ≠ name)).map (·.1) = (ns.map (·.1)).filter (· ≠ name) := by
    rw [List.filter_map]; rfl
  rw [parseFile_ok (k12 hw) k1]
  refine parseScene_ok k2 k3 k5 (parseNodes_filter (fun k => decide (k ≠ name)) k6) ?_ ?_ ?_
  · rw [hmap]
    exact placeNodes_filter hleaf k7
  · refine recorders_ok k5 k9 (withAuto_filter (P := fun e => !onNode name e) (p := fun k => decide (k ≠ name)) ?_ ?_ k10) ?_
    · intro k _ d rs ha r hr
      rw [auto_onNode ha r hr]
      simp
    · intro e he hPe k hk hpk l hl
      -- a declared recorder on the deleted node is a recorder of the scene
      have hmem : ∀ {ns' D R : List (String × Yaml α)}, withAuto D ns' = .ok R → e ∈ D → e ∈ R := by
        intro ns'
        induction ns' with
        | nil => intro D R h he; cases h; exact he
        | cons n ns' ih =>
          intro D R h he
          have hadd : ∀ {rs D : List (String × Yaml α)}, e ∈ D → e ∈ addDefaults D rs := by
            intro rs
            induction rs with
            | nil => intro D h; exact h
            | cons r rs ih =>
              intro D h
              refine ih ?_
              unfold dsetdefault
              split
              · exact h
              · exact List.mem_append_left _ h
          unfold withAuto at h
          repeat' split at h
          all_goals first | (cases h; done) | skip
          · exact ih h (hadd he)
          · exact ih h he
      have hrec : ∀ {l : List (String × Yaml α)} {rs : List (String × Recorder α)}, parseRecorders (ns.map (·.1)) l = .ok rs → e ∈ l →
          ∃ r ∈ rs, parseRecorder (ns.map (·.1)) e.1 e.2 = .ok r := by
        intro l
        induction l with
        | nil => intro rs _ h; cases h
        | cons x l ih =>
          intro rs h hx
          unfold parseRecorders at h
          split at h
          · cases h
          · rename_i r hr
            split at h
            · cases h
            · rename_i rs' hrs
              cases h
              rcases List.mem_cons.1 hx with rfl | hx
              · exact ⟨r, List.mem_cons_self .., hr⟩
              · obtain ⟨q, hq, hq'⟩ := ih hrs hx
                exact ⟨q, List.mem_cons_of_mem _ hq, hq'⟩
      obtain ⟨r, hr, hr'⟩ := hrec k11 (hmem k10 he)
      have hon := onNode_iff (name := name) hr'
      simp only [Bool.not_eq_false'] at hPe
      rw [hPe] at hon
      rw [← hnames] at hk
      obtain ⟨n, hn, rfl⟩ := List.mem_map.1 hk
      have := hfree r hr (by simpa using hon.symm) n hn (by simpa using hpk) l hl
      rwa [(parseRecorder_name hr').1] at this
    · rw [hmap]
      refine parseRecorders_filter ?_ ?_ k11
      · intro k v r hr
        rw [onNode_iff hr]
        simp
      · intro r hr hq
        have := (Doc.parseRecorders_names k11).2 r hr
        exact List.mem_filter.2 ⟨this, hq⟩
  · rw [hmap]
    exact List.mem_filter.2 ⟨k8, by simpa using Ne.symm hw⟩

/-- **C122**. Deleting a node that has children leaves a document that is refused. -/
theorem parent_removed {F : Files α} (B : Backend α Text Scene) (sc : Option Scene) {data data' : List (String × Yaml α)} {s : SceneDef α}
    (hs : parseFile F (.map data) = .ok s) {name : String} (hw : name ≠ "world")
    (hchild : ∃ n ∈ s.nodes, n.name ≠ name ∧ n.parent = some name)
    (h : edit B sc data (.deleteNode name) = .ok data') : parseFile F (.map data') = .error .key := by
  obtain ⟨cs, comps, ns, parsed, declared, recs, -, k1, k2, k3, -, k5, -, k6, k7, k8, k9, k10, k11, k12, -⟩ := node_edit B sc hs h
  have hmap : (ns.filter fun e => decide (e.1 ≠ name)).map (·.1) = (ns.map (·.1)).filter (· ≠ name) := by
    rw [List.filter_map]; rfl
  rw [parseFile_ok (k12 hw) k1]
  unfold parseScene
  rw [k2]
  dsimp only
  rw [k3]
  simp only [dget, k5, Yaml.dict, parseNodes_filter (fun k => decide (k ≠ name)) k6]
  have hl := placeNodes_lost hchild k7
  rw [List.filter_nil] at hl
  rw [hmap, hl]

/-- **C122**. Deleting the world leaves a document that is refused. -/
theorem world_removed {F : Files α} (B : Backend α Text Scene) (sc : Option Scene) {data data' : List (String × Yaml α)} {s : SceneDef α}
    (hs : parseFile F (.map data) = .ok s) (h : edit B sc data (.deleteNode "world") = .ok data') :
    parseFile F (.map data') = .error .invalid := by
  obtain ⟨cs, comps, ns, parsed, declared, recs, -, k1, k2, k3, -, k5, -, k6, k7, k8, k9, k10, k11, -, k13⟩ := node_edit B sc hs h
  unfold parseFile
  rw [if_pos]
  rw [k13 _ k5]
  · simp
  · have : has (ns.filter fun e => decide (e.1 ≠ "world")) "world" = false := by
      unfold has
      have := lookup_ddel_self ns "world"
      unfold ddel at this
      rw [this]
      rfl
    simp only [Schema.named, List.all_cons, this, Bool.false_and]

/-- **C122**. Deleting a declared recorder leaves a document that loads; the scene has lost that recorder and nothing else.
Missing: a node that brings an automatic recorder of that name (`hidden_appears`). -/
theorem recorder_removed_partial {F : Files α} (B : Backend α Text Scene) (sc : Option Scene) {data data' : List (String × Yaml α)} {s : SceneDef α}
    (hs : parseFile F (.map data) = .ok s) {name : String} (hfree : ∀ n ∈ s.nodes, ∀ l ∈ labels, name ≠ n.name ++ "-" ++ l)
    (h : edit B sc data (.deleteRecorder name) = .ok data') :
    parseFile F (.map data') = .ok ⟨s.nodes, s.recorders.filter fun r => r.2.name ≠ name⟩ := by
  obtain ⟨doc, hdoc, hvalid, hversion, hscene⟩ := parseFile_stages hs
  cases hdoc
  obtain ⟨cs, comps, ns, parsed, h1, h2, h3, h4, h5, h6, h7⟩ := parseScene_stages hscene
  obtain ⟨declared, recs, g1, g2, g3⟩ := recorders_stages h3 h6
  have hnames : s.nodes.map (·.name) = ns.map (·.1) := by rw [placeNodes_names h5, parseNodes_names h4]
  simp only [edit] at h
  split at h
  · cases h
  rename_i rs hrs
  split at h
  swap
  · cases h
  rename_i hhas
  cases h
  have hlook : data.lookup "recorders" = some (.map rs) := by
    unfold sectionD at hrs
    cases hr : data.lookup "recorders" with
    | none => rw [hr] at hrs; cases hrs; simp [has] at hhas
    | some v => rw [hr] at hrs; rw [dict_map hrs]
  have hdec : declared = rs := by
    rw [hlook] at g1
    dsimp only at g1
    rw [if_pos (by cases rs with | nil => simp [has] at hhas | cons e l => rfl)] at g1
    cases g1
    rfl
  subst hdec
  have hrec : Schema.named Schema.recorder [] (.map declared) = true := by
    unfold Schema.document Schema.object at hvalid
    simp only [List.all_nil, Bool.true_and] at hvalid
    have := lookup_all hvalid hlook
    simpa [List.lookup] using this
  have hvalid' : Schema.document (.map (dset data "recorders" (.map (ddel declared name)))) = true :=
    document_dset hvalid (.inr (.inl ⟨rfl, named_filter hrec (by simp)⟩))
  rw [parseFile_ok hvalid' (by rw [lookup_dset_ne data (by decide)]; exact hversion)]
  refine parseScene_ok (cs := cs) (comps := comps) (ns := ns) ?_ h2 (by rw [lookup_dset_ne data (by decide)]; exact h3) h4 h5 ?_ h7
  · unfold optDict at h1 ⊢
    rw [lookup_dset_ne data (by decide)]
    exact h1
  · have hw := withAuto_filter (P := fun e => decide (e.1 ≠ name)) (p := fun _ => true) (ns := ns) (D := declared) ?_ ?_ g2
    · rw [List.filter_true] at hw
      refine recorders_ok (by rw [lookup_dset_ne data (by decide)]; exact h3) (declared := ddel declared name) ?_ hw ?_
      · rw [lookup_dset_self]
        dsimp only
        split
        · rfl
        · rename_i ht'
          have : ddel declared name = [] := by simpa [truth] using ht'
          rw [this]
      · refine parseRecorders_filter ?_ ?_ g3
        · intro k v r hr
          rw [(parseRecorder_name hr).1]
        · intro r hr _
          exact (Doc.parseRecorders_names g3).2 r hr
    · intro k hk d rs ha r hr
      obtain ⟨l, hl, e⟩ := (auto_names ha).1 r hr
      rw [← hnames] at hk
      obtain ⟨n, hn, rfl⟩ := List.mem_map.1 hk
      rw [e]
      simpa using Ne.symm (hfree n hn l hl)
    · intro e he hPe k hk _ l hl
      rw [← hnames] at hk
      obtain ⟨n, hn, rfl⟩ := List.mem_map.1 hk
      have : e.1 = name := by simpa using hPe
      rw [this]
      exact hfree n hn l hl

end PV.StudioDelete
