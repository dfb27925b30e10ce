import Verif.Model.Document
import Verif.Spec.Recorder
import Mathlib.Tactic.Linarith
import Mathlib.Tactic.NormNum
import Mathlib.Tactic.FinCases
import Mathlib.Data.Fintype.Basic
import Mathlib.Data.Rat.Floor
import Mathlib.Data.List.Nodup
import Mathlib.Algebra.Order.Field.Basic

/-!
C52 automatic recorders, C67 the face recorders of a box share its surface.
-/

set_option linter.unusedSectionVars false

namespace PV.Doc
open PV PV.Spec

/-! ### Dictionaries -/
section
variable {β : Type}

theorem lookup_append (d e : List (String × β)) (k : String) :
    (d ++ e).lookup k = (d.lookup k).or (e.lookup k) := by
  induction d with
  | nil => simp
  | cons a d ih =>
    rw [List.cons_append, List.lookup_cons, List.lookup_cons]
    split <;> simp [ih]

theorem lookup_mem {d : List (String × β)} {k : String} {v : β} (h : d.lookup k = some v) :
    (k, v) ∈ d := by
  induction d with
  | nil => simp at h
  | cons a d ih =>
    rw [List.lookup_cons] at h
    split at h
    · rename_i e
      obtain rfl := Option.some.inj h
      have : k = a.1 := by simpa using e
      simp [this]
    · exact List.mem_cons_of_mem _ (ih h)

theorem mem_lookup {d : List (String × β)} (hd : (d.map (·.1)).Nodup) {k : String} {v : β}
    (h : (k, v) ∈ d) : d.lookup k = some v := by
  induction d with
  | nil => simp at h
  | cons a d ih =>
    rw [List.map_cons, List.nodup_cons] at hd
    rcases List.mem_cons.1 h with rfl | h
    · simp
    · rw [List.lookup_cons]
      have : (k == a.1) = false := by
        rw [beq_eq_false_iff_ne]
        rintro rfl
        exact hd.1 (List.mem_map.2 ⟨_, h, rfl⟩)
      rw [this]
      exact ih hd.2 h

theorem lookup_none {d : List (String × β)} {k : String} :
    d.lookup k = none ↔ k ∉ d.map (·.1) := by
  induction d with
  | nil => simp
  | cons a d ih =>
    rw [List.lookup_cons, List.map_cons, List.mem_cons]
    by_cases h : k = a.1
    · simp [h]
    · rw [beq_eq_false_iff_ne.2 h]
      simp only [ih, h, false_or]

theorem dsetdefault_old {d : List (String × β)} {k j : String} {v w : β}
    (h : d.lookup j = some w) : (dsetdefault d k v).lookup j = some w := by
  unfold dsetdefault
  split
  · exact h
  · rw [lookup_append, h]; rfl

theorem dsetdefault_new {d : List (String × β)} {k : String} {v : β}
    (h : d.lookup k = none) : (dsetdefault d k v).lookup k = some v := by
  unfold dsetdefault has
  rw [h]
  simp [lookup_append, h]

theorem dsetdefault_other {d : List (String × β)} {k j : String} {v w : β}
    (h : (dsetdefault d k v).lookup j = some w) : d.lookup j = some w ∨ (j = k ∧ w = v) := by
  unfold dsetdefault at h
  split at h
  · exact .inl h
  · rw [lookup_append] at h
    cases hj : d.lookup j with
    | some x => rw [hj] at h; left; simpa using h
    | none =>
      rw [hj] at h
      right
      have := lookup_mem (by simpa using h : List.lookup j [(k, v)] = some w)
      simpa using this

theorem dsetdefault_nodup {d : List (String × β)} (hd : (d.map (·.1)).Nodup) (k : String) (v : β) :
    ((dsetdefault d k v).map (·.1)).Nodup := by
  unfold dsetdefault
  split
  · exact hd
  · rename_i h
    rw [List.map_append, List.nodup_append]
    refine ⟨hd, by simp, ?_⟩
    intro a ha b hb
    simp only [List.map_cons, List.map_nil, List.mem_singleton] at hb
    subst hb
    rintro rfl
    apply h
    unfold has
    cases hl : d.lookup a with
    | none => exact absurd ha (lookup_none.1 hl)
    | some _ => rfl

end

/-! ### Names -/

theorem name_split {a b l m : String} (hl : '-' ∉ l.toList) (hm : '-' ∉ m.toList)
    (h : a ++ "-" ++ l = b ++ "-" ++ m) : a = b ∧ l = m := by
  have h' := congrArg String.toList h
  simp only [String.toList_append] at h'
  have key : ∀ (p q x y : List Char), '-' ∉ x → '-' ∉ y → p ++ '-' :: x = q ++ '-' :: y →
      p = q ∧ x = y := by
    intro p
    induction p with
    | nil =>
      intro q x y hx hy e
      cases q with
      | nil => simpa using e
      | cons c q =>
        simp only [List.nil_append, List.cons_append, List.cons.injEq] at e
        exact absurd (by rw [e.2]; simp) hx
    | cons c p ih =>
      intro q x y hx hy e
      cases q with
      | nil =>
        simp only [List.nil_append, List.cons_append, List.cons.injEq] at e
        exact absurd (by rw [← e.2]; simp) hy
      | cons c' q =>
        simp only [List.cons_append, List.cons.injEq] at e
        obtain ⟨h1, h2⟩ := ih q x y hx hy e.2
        exact ⟨by rw [e.1, h1], h2⟩
  obtain ⟨h1, h2⟩ := key a.toList b.toList l.toList m.toList hl hm (by simpa using h')
  exact ⟨String.toList_injective h1, String.toList_injective h2⟩

/-- The labels in names of automatic recorders. -/
def labels : List String := ["lost", "escaping", "top", "bottom", "east", "west", "north", "south"]

theorem labels_plain : ∀ l ∈ labels, '-' ∉ l.toList := by decide +kernel

section
variable {α : Type} [Field α] [LinearOrder α] [FloorRing α]

theorem faceRecorders_names {node : String} {size : List α} :
    ∀ {fs : List (String × (ℤ × ℤ × ℤ))} {rs}, faceRecorders node size fs = .ok rs →
      rs.map (·.1) = fs.map fun f => node ++ "-" ++ f.1
  | [], rs, h => by cases h; rfl
  | f :: fs, rs, h => by
    unfold faceRecorders at h
    split at h
    · cases h
    · rename_i r hr
      split at h
      · cases h
      · rename_i rs' hrs
        cases h
        rw [List.map_cons, List.map_cons, faceRecorders_names hrs]
        congr 1
        unfold faceRecorder at hr
        dsimp only at hr
        split at hr
        · cases hr
        · cases hr; rfl

theorem auto_names {node : String} {d rs : List (String × Yaml α)} (h : autoRecorders node d = .ok rs) :
    (∀ r ∈ rs, ∃ l ∈ labels, r.1 = node ++ "-" ++ l) ∧ (rs.map (·.1)).Nodup := by
  have hmap : ∃ ls : List String, ls.Nodup ∧ (∀ l ∈ ls, l ∈ labels) ∧
      rs.map (·.1) = ls.map fun l => node ++ "-" ++ l := by
    unfold autoRecorders at h
    split at h
    · split at h
      · cases h
      · cases h
      · split at h
        · cases h
        · split at h
          · cases h
          · split at h
            · cases h
            · rename_i rs' hrs
              cases h
              refine ⟨"lost" :: faces.map (·.1), by decide +kernel, by decide +kernel, ?_⟩
              rw [List.map_cons, faceRecorders_names hrs]
              simp [lostRecorder, faces]
    · cases h
      exact ⟨["lost", "escaping"], by decide +kernel, by decide +kernel, rfl⟩
  obtain ⟨ls, hn, hl, e⟩ := hmap
  constructor
  · intro r hr
    have : r.1 ∈ rs.map (·.1) := List.mem_map.2 ⟨r, hr, rfl⟩
    rw [e] at this
    obtain ⟨l, hl', e'⟩ := List.mem_map.1 this
    exact ⟨l, hl l hl', e'.symm⟩
  · rw [e, List.nodup_map_iff_inj_on hn]
    intro x hx y hy hxy
    exact (name_split (labels_plain x (hl x hx)) (labels_plain y (hl y hy)) hxy).2

/-! ### C52 -/

theorem addDefaults_old {rs : List (String × Yaml α)} : ∀ {recs : List (String × Yaml α)} {k : String}
    {v : Yaml α}, recs.lookup k = some v → (addDefaults recs rs).lookup k = some v := by
  induction rs with
  | nil => intro recs k v h; exact h
  | cons r rs ih => intro recs k v h; exact ih (dsetdefault_old h)

theorem addDefaults_new {rs : List (String × Yaml α)} : ∀ {recs : List (String × Yaml α)} {k : String}
    {v : Yaml α}, (rs.map (·.1)).Nodup → (k, v) ∈ rs → recs.lookup k = none →
      (addDefaults recs rs).lookup k = some v := by
  induction rs with
  | nil => intro recs k v _ h; simp at h
  | cons r rs ih =>
    intro recs k v hn h hk
    rw [List.map_cons, List.nodup_cons] at hn
    rcases List.mem_cons.1 h with rfl | h
    · show (addDefaults (dsetdefault recs k v) rs).lookup k = some v
      exact addDefaults_old (dsetdefault_new hk)
    · refine ih hn.2 h ?_
      cases e : (dsetdefault recs r.1 r.2).lookup k with
      | none => rfl
      | some w =>
        rcases dsetdefault_other e with h' | ⟨rfl, _⟩
        · rw [hk] at h'; cases h'
        · exact absurd (List.mem_map.2 ⟨_, h, rfl⟩) hn.1

theorem addDefaults_other {rs : List (String × Yaml α)} : ∀ {recs : List (String × Yaml α)} {k : String}
    {v : Yaml α}, (addDefaults recs rs).lookup k = some v → recs.lookup k = some v ∨ (k, v) ∈ rs := by
  induction rs with
  | nil => intro recs k v h; exact .inl h
  | cons r rs ih =>
    intro recs k v h
    rcases ih h with h | h
    · rcases dsetdefault_other h with h | ⟨rfl, rfl⟩
      · exact .inl h
      · exact .inr (by simp)
    · exact .inr (List.mem_cons_of_mem _ h)

theorem addDefaults_nodup {rs : List (String × Yaml α)} : ∀ {recs : List (String × Yaml α)},
    (recs.map (·.1)).Nodup → ((addDefaults recs rs).map (·.1)).Nodup := by
  induction rs with
  | nil => intro recs h; exact h
  | cons r rs ih => intro recs h; exact ih (dsetdefault_nodup h _ _)

/-- The automatic recorders of a node of the document. -/
def AutoOf (nodes : List (String × Yaml α)) (node : String) (rs : List (String × Yaml α)) : Prop :=
  ∃ d, (node, .map d) ∈ nodes ∧ truth ((d.lookup "record").getD .null) = true ∧
    autoRecorders node d = .ok rs

/-- **C52**. A declared recorder is never replaced. -/
theorem declared_kept {nodes : List (String × Yaml α)} {declared recs : List (String × Yaml α)}
    (h : withAuto declared nodes = .ok recs) {k : String} {v : Yaml α}
    (hk : declared.lookup k = some v) : recs.lookup k = some v := by
  induction nodes generalizing declared with
  | nil => cases h; exact hk
  | cons n nodes ih =>
    unfold withAuto at h
    split at h
    · cases h
    · split at h
      · split at h
        · cases h
        · exact ih h (addDefaults_old hk)
      · exact ih h hk

theorem dict_map {v : Yaml α} {d : List (String × Yaml α)} (h : v.dict = .ok d) : v = .map d := by
  cases v <;> simp [Yaml.dict] at h
  rw [h]

/-- **C52**. Nothing but declared recorders and the automatic recorders of nodes with `record: true`. -/
theorem nothing_else {nodes : List (String × Yaml α)} {declared recs : List (String × Yaml α)}
    (h : withAuto declared nodes = .ok recs) {k : String} {v : Yaml α}
    (hk : recs.lookup k = some v) :
    declared.lookup k = some v ∨ ∃ node rs, AutoOf nodes node rs ∧ (k, v) ∈ rs := by
  induction nodes generalizing declared with
  | nil => cases h; exact .inl hk
  | cons n nodes ih =>
    have up : (∃ node rs, AutoOf nodes node rs ∧ (k, v) ∈ rs) →
        ∃ node rs, AutoOf (n :: nodes) node rs ∧ (k, v) ∈ rs := by
      rintro ⟨node, rs, ⟨d, hd, ht, ha⟩, hm⟩
      exact ⟨node, rs, ⟨d, List.mem_cons_of_mem _ hd, ht, ha⟩, hm⟩
    unfold withAuto at h
    split at h
    · cases h
    · rename_i d hd
      split at h
      · rename_i ht
        split at h
        · cases h
        · rename_i rs hrs
          rcases ih h with h' | h'
          · rcases addDefaults_other h' with h' | h'
            · exact .inl h'
            · refine .inr ⟨n.1, rs, ⟨d, ?_, ht, hrs⟩, h'⟩
              rw [← dict_map hd]
              exact List.mem_cons_self
          · exact .inr (up h')
      · rcases ih h with h' | h'
        · exact .inl h'
        · exact .inr (up h')

/-- **C52**. Every automatic recorder of a node with `record: true` is there unless its name is
declared; in particular nodes do not take each other's names. -/
theorem auto_added {nodes : List (String × Yaml α)} (hn : (nodes.map (·.1)).Nodup)
    {declared recs : List (String × Yaml α)} (h : withAuto declared nodes = .ok recs)
    {node : String} {rs : List (String × Yaml α)} (ha : AutoOf nodes node rs) {k : String}
    {v : Yaml α} (hm : (k, v) ∈ rs) (hk : declared.lookup k = none) : recs.lookup k = some v := by
  induction nodes generalizing declared with
  | nil => obtain ⟨d, hd, _⟩ := ha; simp at hd
  | cons n nodes ih =>
    rw [List.map_cons, List.nodup_cons] at hn
    obtain ⟨d, hd, ht, hr⟩ := ha
    unfold withAuto at h
    rcases List.mem_cons.1 hd with rfl | hd'
    · dsimp only [Yaml.dict] at h
      rw [if_pos ht, hr] at h
      exact declared_kept h (addDefaults_new (auto_names hr).2 hm hk)
    · have ha' : AutoOf nodes node rs := ⟨d, hd', ht, hr⟩
      split at h
      · cases h
      · split at h
        · split at h
          · cases h
          · rename_i rs' hrs'
            refine ih hn.2 h ha' ?_
            cases e : (addDefaults declared rs').lookup k with
            | none => rfl
            | some w =>
              exfalso
              rcases addDefaults_other e with e | e
              · rw [hk] at e; cases e
              · obtain ⟨l, hl, e1⟩ := (auto_names hrs').1 _ e
                obtain ⟨m, hm', e2⟩ := (auto_names hr).1 _ hm
                have := (name_split (labels_plain l hl) (labels_plain m hm') (e1.symm.trans e2)).1
                exact hn.1 (List.mem_map.2 ⟨_, hd', this.symm⟩)
        · exact ih hn.2 h ha' hk

theorem withAuto_nodup {nodes : List (String × Yaml α)} {declared recs : List (String × Yaml α)}
    (h : withAuto declared nodes = .ok recs) (hd : (declared.map (·.1)).Nodup) :
    (recs.map (·.1)).Nodup := by
  induction nodes generalizing declared with
  | nil => cases h; exact hd
  | cons n nodes ih =>
    unfold withAuto at h
    split at h
    · cases h
    · split at h
      · split at h
        · cases h
        · exact ih h (addDefaults_nodup hd)
      · exact ih h hd

theorem parseRecorder_name {nodes : List String} {name : String} {spec : Yaml α}
    {r : String × Recorder α} (h : parseRecorder nodes name spec = .ok r) :
    r.2.name = name ∧ r.1 ∈ nodes := by
  unfold parseRecorder at h
  repeat' split at h
  all_goals first | (cases h; done) | skip
  cases h
  exact ⟨rfl, by simpa using ‹¬ (_ ∉ nodes)›⟩

theorem parseRecorders_names {nodes : List String} : ∀ {recs : List (String × Yaml α)}
    {R : List (String × Recorder α)}, parseRecorders nodes recs = .ok R →
      R.map (·.2.name) = recs.map (·.1) ∧ ∀ r ∈ R, r.1 ∈ nodes
  | [], R, h => by cases h; simp
  | (name, spec) :: rest, R, h => by
    unfold parseRecorders at h
    split at h
    · cases h
    · rename_i r hr
      split at h
      · cases h
      · rename_i rs hrs
        cases h
        obtain ⟨h1, h2⟩ := parseRecorders_names hrs
        obtain ⟨h3, h4⟩ := parseRecorder_name hr
        refine ⟨by rw [List.map_cons, List.map_cons, h1, h3], ?_⟩
        intro x hx
        rcases List.mem_cons.1 hx with rfl | hx
        · exact h4
        · exact h2 x hx

/-- The declared recorders of a document. -/
def declaredOf (doc : List (String × Yaml α)) : List (String × Yaml α) :=
  match doc.lookup "recorders" with
  | some (.map e) => e
  | _ => []

/-- **C52**. The recorders of a scene have distinct names and sit on nodes of the scene. -/
theorem names_distinct {doc : List (String × Yaml α)} {R : List (String × Recorder α)}
    {nodes : List (String × Yaml α)} (hnodes : doc.lookup "nodes" = some (.map nodes))
    (hd : ((declaredOf doc).map (·.1)).Nodup) (h : sceneRecorders doc = .ok R) :
    (R.map (·.2.name)).Nodup ∧ ∀ r ∈ R, r.1 ∈ nodes.map (·.1) := by
  unfold sceneRecorders at h
  rw [hnodes] at h
  simp only [Yaml.dict] at h
  split at h
  · cases h
  · rename_i declared hdecl
    have hd' : (declared.map (·.1)).Nodup := by
      unfold declaredOf at hd
      split at hdecl
      · cases hdecl; simp
      · rename_i v hv
        rw [hv] at hd
        split at hdecl
        · have := dict_map hdecl
          subst this
          exact hd
        · cases hdecl; simp
    split at h
    · cases h
    · rename_i recs hrecs
      obtain ⟨h1, h2⟩ := parseRecorders_names h
      exact ⟨by rw [h1]; exact withAuto_nodup hrecs hd', h2⟩

/-! ### C67 -/

/-- The recorders of the six faces of a box. -/
def faceSpecs (node : String) (a b c : α) : List (Recorder α) :=
  [⟨node ++ "-" ++ "top", .escaping, some ⟨0, 0, 1⟩, 1e-6,
      [.one ⟨.wavelength, 300, 1000, 100⟩, .one ⟨.angle, 0, 1.5708, 18⟩,
       .heat ⟨.x, -(a / 2), a / 2, (faceBins a).toNat⟩ ⟨.y, -(b / 2), b / 2, (faceBins b).toNat⟩]⟩,
   ⟨node ++ "-" ++ "bottom", .escaping, some ⟨0, 0, -1⟩, 1e-6,
      [.one ⟨.wavelength, 300, 1000, 100⟩, .one ⟨.angle, 0, 1.5708, 18⟩,
       .heat ⟨.x, -(a / 2), a / 2, (faceBins a).toNat⟩ ⟨.y, -(b / 2), b / 2, (faceBins b).toNat⟩]⟩,
   ⟨node ++ "-" ++ "east", .escaping, some ⟨1, 0, 0⟩, 1e-6,
      [.one ⟨.wavelength, 300, 1000, 100⟩, .one ⟨.angle, 0, 1.5708, 18⟩,
       .heat ⟨.y, -(b / 2), b / 2, (faceBins b).toNat⟩ ⟨.z, -(c / 2), c / 2, (faceBins c).toNat⟩]⟩,
   ⟨node ++ "-" ++ "west", .escaping, some ⟨-1, 0, 0⟩, 1e-6,
      [.one ⟨.wavelength, 300, 1000, 100⟩, .one ⟨.angle, 0, 1.5708, 18⟩,
       .heat ⟨.y, -(b / 2), b / 2, (faceBins b).toNat⟩ ⟨.z, -(c / 2), c / 2, (faceBins c).toNat⟩]⟩,
   ⟨node ++ "-" ++ "north", .escaping, some ⟨0, 1, 0⟩, 1e-6,
      [.one ⟨.wavelength, 300, 1000, 100⟩, .one ⟨.angle, 0, 1.5708, 18⟩,
       .heat ⟨.x, -(a / 2), a / 2, (faceBins a).toNat⟩ ⟨.z, -(c / 2), c / 2, (faceBins c).toNat⟩]⟩,
   ⟨node ++ "-" ++ "south", .escaping, some ⟨0, -1, 0⟩, 1e-6,
      [.one ⟨.wavelength, 300, 1000, 100⟩, .one ⟨.angle, 0, 1.5708, 18⟩,
       .heat ⟨.x, -(a / 2), a / 2, (faceBins a).toNat⟩ ⟨.z, -(c / 2), c / 2, (faceBins c).toNat⟩]⟩]

variable [IsStrictOrderedRing α]

/-- **C67**. A face has ten bins per unit of length, but at least 10 and at most 60. -/
theorem face_bins (s : α) : 10 ≤ faceBins s ∧ faceBins s ≤ 60 ∧
    (1 ≤ s → s ≤ 6 → (faceBins s : α) ≤ 10 * s ∧ 10 * s < faceBins s + 1) := by
  refine ⟨le_max_left _ _, max_le (by norm_num) (min_le_left _ _), ?_⟩
  intro h1 h2
  have h0 : (0 : α) ≤ s * 10 := by linarith
  have e : truncZ (s * 10) = ⌊s * 10⌋ := by simp [truncZ, h0]
  have l1 : (10 : ℤ) ≤ ⌊s * 10⌋ := Int.le_floor.2 (by push_cast; linarith)
  have l2 : ⌊s * 10⌋ ≤ 60 := by
    have : ((⌊s * 10⌋ : ℤ) : α) ≤ ((60 : ℤ) : α) := (Int.floor_le _).trans (by push_cast; linarith)
    exact_mod_cast this
  have ef : faceBins s = ⌊s * 10⌋ := by
    rw [faceBins, e, min_eq_right l2, max_eq_right l1]
  rw [ef]
  exact ⟨by linarith [Int.floor_le (s * 10)], by linarith [Int.lt_floor_add_one (s * 10)]⟩

example : faceBins (2.55 : ℚ) = 25 := by decide +kernel

theorem truncZ_int (n : ℤ) : truncZ (n : α) = n := by
  unfold truncZ; split <;> simp

theorem truncZ_100 : truncZ (100 : α) = 100 := by exact_mod_cast truncZ_int (α := α) 100
theorem truncZ_18 : truncZ (18 : α) = 18 := by exact_mod_cast truncZ_int (α := α) 18

theorem parse_size {p : String} {P : RayProp} (hp : propOf p = some P) {s : α} (hs : 0 < s) :
    parseAxis p (nums [-(s / 2), s / 2, (faceBins s : α)]) =
      .ok ⟨P, -(s / 2), s / 2, (faceBins s).toNat⟩ := by
  have h1 : -(s / 2) < s / 2 := by linarith
  have h2 : ¬ (faceBins s : α) < 1 := by
    have : (10 : ℤ) ≤ faceBins s := le_max_left _ _
    have : ((10 : ℤ) : α) ≤ (faceBins s : α) := by exact_mod_cast this
    push_cast at this
    linarith
  simp only [parseAxis, nums, Yaml.list, List.map_cons, List.map_nil, floats, Yaml.number, hp, h1, h2,
    not_true, if_false, truncZ_int]

theorem parse_wavelength : parseAxis "wavelength" (wavelengthSpec : Yaml α) =
    .ok ⟨.wavelength, 300, 1000, 100⟩ := by
  have h1 : (300 : α) < 1000 := by norm_num
  have h2 : ¬ (100 : α) < 1 := by norm_num
  simp only [parseAxis, wavelengthSpec, nums, Yaml.list, List.map_cons, List.map_nil, floats,
    Yaml.number, propOf, h1, h2, not_true, if_false, truncZ_100]
  rfl

theorem parse_angle : parseAxis "angle" (angleSpec : Yaml α) =
    .ok ⟨.angle, 0, 1.5708, 18⟩ := by
  have h1 : (0 : α) < 1.5708 := by norm_num
  have h2 : ¬ (18 : α) < 1 := by norm_num
  simp only [parseAxis, angleSpec, nums, Yaml.list, List.map_cons, List.map_nil, floats,
    Yaml.number, propOf, h1, h2, not_true, if_false, truncZ_18]
  rfl

theorem parse_face {node : String} {nodes : List String} (hn : node ∈ nodes) (name : String) (x y z : α)
    {p q : String} {P Q : RayProp} (hp : propOf p = some P) (hq : propOf q = some Q) {s t : α}
    (hs : 0 < s) (ht : 0 < t) :
    parseRecorder nodes name (.map [
      ("node", .str node),
      ("event", .str "escaping"),
      ("facet", nums [x, y, z]),
      ("histograms", .map [
        ("wavelength", wavelengthSpec),
        ("angle", angleSpec),
        ("position", .seq [.str p, .str q,
          nums [-(s / 2), s / 2, (faceBins s : α)],
          nums [-(t / 2), t / 2, (faceBins t : α)]])])]) =
    .ok (node, ⟨name, .escaping, some ⟨x, y, z⟩, 1e-6,
      [.one ⟨.wavelength, 300, 1000, 100⟩, .one ⟨.angle, 0, 1.5708, 18⟩,
       .heat ⟨P, -(s / 2), s / 2, (faceBins s).toNat⟩ ⟨Q, -(t / 2), t / 2, (faceBins t).toNat⟩]⟩) := by
  have e1 := parse_size hp hs
  have e2 := parse_size hq ht
  have e3 : parseHists [("wavelength", (wavelengthSpec : Yaml α)), ("angle", angleSpec),
      ("position", .seq [.str p, .str q, nums [-(s / 2), s / 2, (faceBins s : α)],
          nums [-(t / 2), t / 2, (faceBins t : α)]])] =
      .ok [.one ⟨.wavelength, 300, 1000, 100⟩, .one ⟨.angle, 0, 1.5708, 18⟩,
       .heat ⟨P, -(s / 2), s / 2, (faceBins s).toNat⟩ ⟨Q, -(t / 2), t / 2, (faceBins t).toNat⟩] := by
    have w1 : ("wavelength" = "position") = False := by decide
    have w2 : ("angle" = "position") = False := by decide
    simp only [parseHists, parseHist, w1, w2, if_true, if_false, parse_wavelength, parse_angle,
      Yaml.list, Yaml.string, e1, e2]
  simp only [nums, List.map_cons, List.map_nil] at e3
  simp only [parseRecorder, Yaml.dict, dget, List.lookup_cons, String.reduceBEq, beq_self_eq_true,
    Yaml.string, hn, not_true, if_false, histEntries, truth, e3, parseFacet, nums,
    Yaml.list, List.map_cons, List.map_nil, floats, Yaml.number, parseAtol, eventOf,
    List.lookup_nil, List.isEmpty_cons, Bool.false_eq_true, decide_true, not_false_eq_true, if_true]

theorem parse_lost {node : String} {nodes : List String} (hn : node ∈ nodes) :
    parseRecorder nodes (node ++ "-" ++ "lost") (lostRecorder (α := α) node).2 =
    .ok (node, ⟨node ++ "-" ++ "lost", .lost, none, 1e-6, [.one ⟨.wavelength, 300, 1000, 100⟩]⟩) := by
  have e3 : parseHists [("wavelength", (wavelengthSpec : Yaml α))] =
      .ok [.one ⟨.wavelength, 300, 1000, 100⟩] := by
    have w1 : ("wavelength" = "position") = False := by decide
    simp only [parseHists, parseHist, w1, if_false, parse_wavelength]
  simp only [lostRecorder, parseRecorder, Yaml.dict, dget, List.lookup_cons, String.reduceBEq,
    beq_self_eq_true, Yaml.string, hn, not_true, if_false, histEntries, truth, e3, parseFacet,
    parseAtol, eventOf, List.lookup_nil, List.isEmpty_cons, Bool.false_eq_true, decide_true,
    not_false_eq_true, if_true]

/-- **C67**. `record: true` on a box with positive size gives, when parsed, a loss recorder and one
recorder of escaping rays for each face. -/
theorem box_auto {node : String} {nodes : List String} (hn : node ∈ nodes) {a b c : α} (ha : 0 < a)
    (hb : 0 < b) (hc : 0 < c) {d box : List (String × Yaml α)} (hd : d.lookup "box" = some (.map box))
    (hs : box.lookup "size" = some (nums [a, b, c])) :
    ∃ rs, autoRecorders node d = .ok rs ∧ parseRecorders nodes rs =
      .ok ((node, ⟨node ++ "-" ++ "lost", .lost, none, 1e-6, [.one ⟨.wavelength, 300, 1000, 100⟩]⟩) ::
        (faceSpecs node a b c).map fun r => (node, r)) := by
  simp only [autoRecorders, hd, getIn, Yaml.dict, hs, nums, Yaml.list, List.map_cons, List.map_nil,
    floats, Yaml.number, faces, faceRecorders, faceRecorder, faceAxes, pairAt]
  simp only [ne_eq, one_ne_zero, not_true, not_false_eq_true, if_true, if_false, neg_eq_zero,
    List.getElem?_cons_zero, List.getElem?_cons_succ, OfNat.ofNat_ne_zero, OfNat.ofNat_ne_one]
  refine ⟨_, rfl, ?_⟩
  have k1 := parse_face (α := α) hn (node ++ "-" ++ "top") 0 0 1 (p := "x") (q := "y") rfl rfl ha hb
  have k2 := parse_face (α := α) hn (node ++ "-" ++ "bottom") 0 0 (-1) (p := "x") (q := "y") rfl rfl ha hb
  have k3 := parse_face (α := α) hn (node ++ "-" ++ "east") 1 0 0 (p := "y") (q := "z") rfl rfl hb hc
  have k4 := parse_face (α := α) hn (node ++ "-" ++ "west") (-1) 0 0 (p := "y") (q := "z") rfl rfl hb hc
  have k5 := parse_face (α := α) hn (node ++ "-" ++ "north") 0 1 0 (p := "x") (q := "z") rfl rfl ha hc
  have k6 := parse_face (α := α) hn (node ++ "-" ++ "south") 0 (-1) 0 (p := "x") (q := "z") rfl rfl ha hc
  simp only [nums, List.map_cons, List.map_nil] at k1 k2 k3 k4 k5 k6
  have k0 := parse_lost (α := α) hn
  have e0 : (lostRecorder (α := α) node).1 = node ++ "-" ++ "lost" := rfl
  rw [show (lostRecorder (α := α) node) = (node ++ "-" ++ "lost", (lostRecorder (α := α) node).2) from rfl]
  simp only [parseRecorders, k0, axisName, Int.cast_zero, Int.cast_one, Int.cast_neg, k1, k2, k3,
    k4, k5, k6, faceSpecs, List.map_cons, List.map_nil]

/-- **C67**. A ray leaving through a face of the box, where the outward normal is plus or minus a unit
vector, meets the facet of exactly one of the six recorders. -/
theorem faces_partition (node : String) (a b c : α) {n : Vec3 α}
    (hn : n ∈ ([⟨0, 0, 1⟩, ⟨0, 0, -1⟩, ⟨1, 0, 0⟩, ⟨-1, 0, 0⟩, ⟨0, 1, 0⟩, ⟨0, -1, 0⟩] : List (Vec3 α))) :
    ∃! i : Fin 6, ∃ r, (faceSpecs node a b c)[i.val]? = some r ∧ OnFacet r (some n) := by
  have e : ¬ (1 : α) ≤ 1e-6 := by norm_num
  have e2 : (0 : α) ≤ 1e-6 := by norm_num
  have e3 : ¬ (2 : α) ≤ 1e-6 := by norm_num
  have h2 : |(1 : α) + 1| = 2 := by norm_num
  have h3 : |(-1 : α) - 1| = 2 := by norm_num
  simp only [List.mem_cons, List.not_mem_nil, or_false] at hn
  rcases hn with rfl | rfl | rfl | rfl | rfl | rfl
  · refine ⟨0, ⟨_, rfl, by simp [OnFacet, e2]⟩, ?_⟩
    rintro i ⟨r, hr, ho⟩
    fin_cases i <;> simp [faceSpecs] at hr <;> subst hr <;> simp [OnFacet, e, e3, h2, h3] at ho ⊢
  · refine ⟨1, ⟨_, rfl, by simp [OnFacet, e2]⟩, ?_⟩
    rintro i ⟨r, hr, ho⟩
    fin_cases i <;> simp [faceSpecs] at hr <;> subst hr <;> simp [OnFacet, e, e3, h2, h3] at ho ⊢
  · refine ⟨2, ⟨_, rfl, by simp [OnFacet, e2]⟩, ?_⟩
    rintro i ⟨r, hr, ho⟩
    fin_cases i <;> simp [faceSpecs] at hr <;> subst hr <;> simp [OnFacet, e, e3, h2, h3] at ho ⊢
  · refine ⟨3, ⟨_, rfl, by simp [OnFacet, e2]⟩, ?_⟩
    rintro i ⟨r, hr, ho⟩
    fin_cases i <;> simp [faceSpecs] at hr <;> subst hr <;> simp [OnFacet, e, e3, h2, h3] at ho ⊢
  · refine ⟨4, ⟨_, rfl, by simp [OnFacet, e2]⟩, ?_⟩
    rintro i ⟨r, hr, ho⟩
    fin_cases i <;> simp [faceSpecs] at hr <;> subst hr <;> simp [OnFacet, e, e3, h2, h3] at ho ⊢
  · refine ⟨5, ⟨_, rfl, by simp [OnFacet, e2]⟩, ?_⟩
    rintro i ⟨r, hr, ho⟩
    fin_cases i <;> simp [faceSpecs] at hr <;> subst hr <;> simp [OnFacet, e, e3, h2, h3] at ho ⊢

/-- Two recorded nodes, one a box, and a declared recorder that takes the place of an automatic one. -/
def demo : List (String × Yaml ℚ) :=
  [("nodes", .map [
      ("world", .map [("sphere", .map [("radius", .num 10)])]),
      ("slab", .map [("box", .map [("size", nums [5, 5, 1])]), ("record", .bool true)]),
      ("ball", .map [("sphere", .map [("radius", .num 1)]), ("record", .bool true)])]),
   ("recorders", .map [("slab-top", .map [("node", .str "slab"), ("event", .str "entering")])])]

example : (sceneRecorders demo).map (fun R => R.map fun r => (r.1, r.2.name, r.2.event)) = .ok
    [("slab", "slab-top", .entering), ("slab", "slab-lost", .lost), ("slab", "slab-bottom", .escaping),
     ("slab", "slab-east", .escaping), ("slab", "slab-west", .escaping), ("slab", "slab-north", .escaping),
     ("slab", "slab-south", .escaping), ("ball", "ball-lost", .lost), ("ball", "ball-escaping", .escaping)] := by
  decide +kernel

example : ((declaredOf demo).map (·.1)).Nodup := by decide +kernel

end
end PV.Doc
