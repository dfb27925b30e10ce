import Verif.Model.DatabaseFile
import Verif.Spec.FileName
import Verif.Props.DatabaseRun

/-!
C116: the files of `pvtrace simulate`.
-/

namespace PV.Database
open PV.Spec
variable {α π σ ε : Type}

theorem rfind_none {c : Char} {l : List Char} : rfind c l = none ↔ c ∉ l := by
  induction l with
  | nil => simp [rfind]
  | cons x xs ih =>
    simp only [rfind, List.mem_cons, not_or]
    cases h : rfind c xs with
    | none =>
      have := ih.1 h
      by_cases hx : x = c
      · simp [hx]
      · simp [hx, this, Ne.symm hx]
    | some i =>
      have : c ∈ xs := by
        by_contra h'
        rw [ih.2 h'] at h
        cases h
      simp [this]

theorem rfind_last {c : Char} (a b : List Char) (hb : c ∉ b) : rfind c (a ++ c :: b) = some a.length := by
  induction a with
  | nil => simp [rfind, rfind_none.2 hb]
  | cons x xs ih => simp [rfind, ih]

theorem last_split {c : Char} {l : List Char} (h : c ∈ l) : ∃ a b, l = a ++ c :: b ∧ c ∉ b := by
  induction l with
  | nil => simp at h
  | cons x xs ih =>
    by_cases hx : c ∈ xs
    · obtain ⟨a, b, rfl, hb⟩ := ih hx
      exact ⟨x :: a, b, rfl, hb⟩
    · obtain rfl : c = x := by simpa [hx] using h
      exact ⟨[], xs, rfl, hx⟩

/-- Stem and extension are determined by the name. -/
theorem parts_unique {name s e s' e' : List Char} (h : NameParts name s e) (h' : NameParts name s' e') :
    s = s' ∧ e = e' := by
  obtain ⟨rfl, h⟩ := h
  obtain ⟨h1, h'⟩ := h'
  rcases h with ⟨f, rfl, hf, x, hx, hx'⟩ | ⟨rfl, h⟩
  · rcases h' with ⟨f', rfl, hf', -⟩ | ⟨rfl, h'⟩
    · have a := rfind_last s f hf
      have b := rfind_last s' f' hf'
      rw [h1, b] at a
      have hl : s'.length = s.length := Option.some.inj a
      exact List.append_inj h1 hl.symm
    · exact absurd (h' _ _ rfl hf x hx) hx'
  · rcases h' with ⟨f', rfl, hf', x, hx, hx'⟩ | ⟨rfl, h'⟩
    · exact absurd (h _ _ h1 hf' x hx) hx'
    · exact ⟨by simpa using h1, rfl⟩

theorem splitext_spec (dir name : List Char) (hn : '/' ∉ name) :
    ∃ stem ext, NameParts name stem ext ∧ splitext (dir ++ '/' :: name) = (dir ++ '/' :: stem, ext) := by
  have hs : rfind '/' (dir ++ '/' :: name) = some dir.length := rfind_last _ _ hn
  unfold splitext
  rw [hs]
  dsimp only
  by_cases hd : '.' ∈ name
  · obtain ⟨a, b, rfl, hb⟩ := last_split hd
    have h1 : rfind '.' (dir ++ '/' :: (a ++ '.' :: b)) = some (dir.length + 1 + a.length) := by
      have := rfind_last (c := '.') (dir ++ '/' :: a) b hb
      simp only [List.append_assoc, List.cons_append, List.length_append, List.length_cons] at this
      rw [this]
      congr 1
      omega
    rw [h1]
    dsimp only
    have ht : (dir ++ '/' :: (a ++ '.' :: b)).take (dir.length + 1 + a.length) = dir ++ '/' :: a := by
      rw [show dir ++ '/' :: (a ++ '.' :: b) = (dir ++ '/' :: a) ++ '.' :: b by simp]
      exact List.take_left' (by simp; omega)
    have hr : (dir ++ '/' :: (a ++ '.' :: b)).drop (dir.length + 1 + a.length) = '.' :: b := by
      rw [show dir ++ '/' :: (a ++ '.' :: b) = (dir ++ '/' :: a) ++ '.' :: b by simp]
      exact List.drop_left' (by simp; omega)
    have hm : (dir ++ '/' :: a).drop (dir.length + 1) = a := by
      rw [show dir ++ '/' :: a = (dir ++ ['/']) ++ a by simp]
      exact List.drop_left' (by simp)
    rw [ht, hr, hm]
    by_cases hx : ∃ x ∈ a, x ≠ '.'
    · rw [if_pos ⟨Nat.le_add_right _ _, hx⟩]
      exact ⟨a, '.' :: b, ⟨rfl, .inl ⟨b, rfl, hb, hx⟩⟩, rfl⟩
    · rw [if_neg (fun h => hx h.2)]
      refine ⟨a ++ '.' :: b, [], ⟨by simp, .inr ⟨rfl, fun s e he hb' => ?_⟩⟩, rfl⟩
      have h2 := rfind_last s e hb'
      rw [← he, rfind_last a b hb] at h2
      obtain ⟨rfl, -⟩ := List.append_inj he (Option.some.inj h2)
      push Not at hx
      exact hx
  · refine ⟨name, [], ⟨by simp, .inr ⟨rfl, fun s e he => ?_⟩⟩, ?_⟩
    · exact absurd (by rw [he]; simp) hd
    · cases h1 : rfind '.' (dir ++ '/' :: name) with
      | none => rfl
      | some i =>
        dsimp only
        rw [if_neg]
        rintro ⟨hi, -⟩
        have hm : '.' ∈ dir ++ '/' :: name := by
          by_contra h'
          rw [rfind_none.2 h'] at h1
          cases h1
        have hm : '.' ∈ dir := by simpa [hd] using hm
        obtain ⟨a, b, rfl, hb⟩ := last_split hm
        have := rfind_last (c := '.') a (b ++ '/' :: name) (by simp [hb, hd])
        rw [show a ++ '.' :: b ++ '/' :: name = a ++ '.' :: (b ++ '/' :: name) by simp, this] at h1
        have h1 : a.length = i := Option.some.inj h1
        have hi : (a ++ '.' :: b).length + 1 ≤ i := hi
        simp only [List.length_append, List.length_cons] at hi
        omega

theorem pieces_slash {a : List Char} (ha : '/' ∉ a) (b : List Char) :
    pieces (a ++ '/' :: b) = a :: pieces b := by
  induction a with
  | nil => simp [pieces]
  | cons x xs ih =>
    have h := fun h => ha (List.mem_cons_of_mem x h)
    have hx : x ≠ '/' := fun e => ha (by simp [e])
    simp [pieces, hx, ih h]

theorem pieces_last {a : List Char} (ha : '/' ∉ a) : pieces a = [a] := by
  induction a with
  | nil => rfl
  | cons x xs ih =>
    have h := fun h => ha (List.mem_cons_of_mem x h)
    have hx : x ≠ '/' := fun e => ha (by simp [e])
    simp [pieces, hx, ih h]

theorem pieces_path (c : List Char) (cs : List (List Char)) (hc : '/' ∉ c) (h : ∀ c ∈ cs, '/' ∉ c) :
    pieces (c ++ pathOf cs) = c :: cs := by
  induction cs generalizing c with
  | nil => simpa [pathOf] using pieces_last hc
  | cons d ds ih =>
    rw [show pathOf (d :: ds) = '/' :: (d ++ pathOf ds) by simp [pathOf], pieces_slash hc,
      ih d (h d (by simp)) fun c hc => h c (by simp [hc])]

theorem normalise_names (done cs : List (List Char)) (h : ∀ c ∈ cs, FileName c) :
    normalise done cs = done.reverse ++ cs := by
  induction cs generalizing done with
  | nil => simp [normalise]
  | cons c cs ih =>
    have hc := h c (by simp)
    rw [normalise, if_neg (by simp [hc.nonempty, hc.dot]), if_neg hc.dots,
      ih _ fun c hc => h c (by simp [hc])]
    simp

theorem abspath_names (c : List Char) (cs : List (List Char)) (h : ∀ d ∈ c :: cs, FileName d) :
    abspath (pathOf (c :: cs)) = pathOf (c :: cs) := by
  have hp := pieces_path [] (c :: cs) (by simp) fun d hd => (h d hd).slash
  unfold abspath
  rw [List.nil_append] at hp
  rw [hp, normalise, if_pos (.inl rfl), normalise_names _ _ h]
  rfl

theorem stem_name {name stem ext : List Char} (hn : FileName name) (h : NameParts name stem ext) :
    FileName stem := by
  obtain ⟨rfl, h⟩ := h
  rcases h with ⟨e, rfl, -, x, hx, hx'⟩ | ⟨rfl, -⟩
  · refine ⟨fun h => ?_, fun h => hn.slash (by simp [h]), fun h => ?_, fun h => ?_⟩ <;> subst h <;>
      simp_all
  · simpa using hn

/-- **C116**. The results of the scene `dirs/stem.ext` are in `dirs/stem.sqlite3`: in the same folder, under the
name of the scene, whatever its extension, and also for names with several dots, names that begin with
dots and folders with dots in their names. -/
theorem beside_the_scene (dirs : List (List Char)) (name : List Char) (hd : ∀ c ∈ dirs, FileName c)
    (hn : FileName name) :
    ∃ stem ext, NameParts name stem ext ∧
      dbfilepath (pathOf (dirs ++ [name])) = pathOf (dirs ++ [stem ++ ".sqlite3".toList]) := by
  have e : ∀ n, pathOf (dirs ++ [n]) = pathOf dirs ++ '/' :: n := by simp [pathOf]
  obtain ⟨stem, ext, hp, hs⟩ := splitext_spec (pathOf dirs) name hn.slash
  refine ⟨stem, ext, hp, ?_⟩
  have hst := stem_name hn hp
  have ha : abspath (pathOf (dirs ++ [stem])) = pathOf (dirs ++ [stem]) := by
    cases dirs with
    | nil => exact abspath_names stem [] (by simpa using hst)
    | cons c cs =>
      refine abspath_names c (cs ++ [stem]) fun d h => ?_
      rcases List.mem_append.1 (show d ∈ (c :: cs) ++ [stem] from h) with h | h
      · exact hd d h
      · rw [List.mem_singleton.1 h]
        exact hst
  unfold dbfilepath
  rw [e, hs, ← e stem, ha, e, e]
  simp

example : (∀ c ∈ ["home".toList, "my.runs".toList], FileName c) ∧ FileName "plate.v2.yml".toList ∧
    NameParts "plate.v2.yml".toList "plate.v2".toList ".yml".toList ∧
    dbfilepath "/home/my.runs/plate.v2.yml".toList = "/home/my.runs/plate.v2.sqlite3".toList ∧
    dbfilepath "/home/my.runs/plate".toList = "/home/my.runs/plate.sqlite3".toList ∧
    dbfilepath "/home/my.runs/.yml".toList = "/home/my.runs/.yml.sqlite3".toList := by
  refine ⟨?_, ⟨by decide, by decide, by decide, by decide⟩, ⟨by decide, .inl ⟨"yml".toList, by decide, by decide, 'p', by decide, by decide⟩⟩,
    by decide, by decide, by decide⟩
  intro c hc
  simp only [List.mem_cons, List.not_mem_nil, or_false] at hc
  rcases hc with rfl | rfl <;> exact ⟨by decide, by decide, by decide, by decide⟩

/-- Where one is after walking from the root along the components of a path: `..` goes to the parent folder, empty components and `.`
nowhere, names into a folder. -/
inductive Walk : List (List Char) → List (List Char) → List (List Char) → Prop
  | done (here) : Walk here [] here
  | stay {here c cs there} : c = [] ∨ c = ['.'] → Walk here cs there → Walk here (c :: cs) there
  | up {here d cs there} : Walk here cs there → Walk (here ++ [d]) (['.', '.'] :: cs) there
  | top {cs there} : Walk [] cs there → Walk [] (['.', '.'] :: cs) there
  | down {here c cs there} : FileName c → Walk (here ++ [c]) cs there → Walk here (c :: cs) there

theorem normalise_walk {here comps there : List (List Char)} (h : Walk here comps there) {cs : List (List Char)} (hcs : ∀ c ∈ cs, FileName c) :
    normalise here.reverse (comps ++ cs) = there ++ cs := by
  induction h with
  | done here => rw [List.nil_append, normalise_names _ _ hcs, List.reverse_reverse]
  | stay hc _ ih => rw [List.cons_append, normalise, if_pos hc, ih]
  | up _ ih =>
    rw [List.cons_append, normalise, if_neg (by simp), if_pos rfl, List.reverse_append]
    exact ih
  | top _ ih =>
    rw [List.cons_append, normalise, if_neg (by simp), if_pos rfl]
    exact ih
  | down hc _ ih =>
    rw [List.cons_append, normalise, if_neg (by simp [hc.nonempty, hc.dot]), if_neg hc.dots, ← ih, List.reverse_append]
    rfl

/-- **C116**. The same however the folder of the scene is spelled: with `.`, `..` and doubled slashes in its path, the results are in the
folder the path leads to. -/
theorem beside_however_spelled {comps dirs : List (List Char)} (hw : Walk [] comps dirs) (hc : ∀ c ∈ comps, '/' ∉ c) {name : List Char}
    (hn : FileName name) :
    ∃ stem ext, NameParts name stem ext ∧
      dbfilepath (pathOf (comps ++ [name])) = pathOf (dirs ++ [stem ++ ".sqlite3".toList]) := by
  have e : ∀ (l : List (List Char)) n, pathOf (l ++ [n]) = pathOf l ++ '/' :: n := by simp [pathOf]
  obtain ⟨stem, ext, hp, hs⟩ := splitext_spec (pathOf comps) name hn.slash
  refine ⟨stem, ext, hp, ?_⟩
  have hst := stem_name hn hp
  have hp' := pieces_path [] (comps ++ [stem]) (by simp) fun d hd => by
    rcases List.mem_append.1 hd with h | h
    · exact hc d h
    · rw [List.mem_singleton.1 h]
      exact hst.slash
  rw [List.nil_append] at hp'
  have hw' := normalise_walk hw (cs := [stem]) fun c h => by rw [List.mem_singleton.1 h]; exact hst
  rw [List.reverse_nil] at hw'
  unfold dbfilepath abspath
  rw [e, hs, ← e comps stem, hp', normalise, if_pos (.inl rfl), hw']
  cases hd : dirs ++ [stem] with
  | nil => simp at hd
  | cons c cs =>
    dsimp only
    rw [← hd, e, e]
    simp

example : Walk [] ["home".toList, "..".toList, [], "runs".toList, ".".toList] ["runs".toList] ∧
    dbfilepath "/home/..//runs/./a.yml".toList = "/runs/a.sqlite3".toList :=
  ⟨.down ⟨by decide, by decide, by decide, by decide⟩ (.up (here := []) (.stay (.inl rfl)
    (.down ⟨by decide, by decide, by decide, by decide⟩ (.stay (.inr rfl) (.done _))))), by decide⟩

/-- **C116**. The path of the results is absolute, whatever the scene is called. -/
theorem results_absolute (scene : List Char) : ∃ p, dbfilepath scene = '/' :: p := by
  unfold dbfilepath abspath
  cases normalise [] (pieces (splitext scene).1) with
  | nil => exact ⟨_, rfl⟩
  | cons c cs => exact ⟨_, rfl⟩

theorem path_inj {dirs dirs' : List (List Char)} {n n' : List Char} (hn : '/' ∉ n) (hn' : '/' ∉ n')
    (hd : ∀ c ∈ dirs, '/' ∉ c) (hd' : ∀ c ∈ dirs', '/' ∉ c)
    (h : pathOf (dirs ++ [n]) = pathOf (dirs' ++ [n'])) : dirs = dirs' ∧ n = n' := by
  have a := pieces_path [] (dirs ++ [n]) (by simp) (by
    intro c hc
    rcases List.mem_append.1 hc with h | h
    · exact hd c h
    · rwa [List.mem_singleton.1 h])
  have b := pieces_path [] (dirs' ++ [n']) (by simp) (by
    intro c hc
    rcases List.mem_append.1 hc with h | h
    · exact hd' c h
    · rwa [List.mem_singleton.1 h])
  rw [h, b] at a
  have := List.cons.inj a |>.2
  obtain ⟨h1, h2⟩ := List.append_inj' this rfl
  exact ⟨h1.symm, (List.cons.inj h2).1.symm⟩

/-- **C116**. Two scenes have the same database exactly when they are in the same folder and their names
differ in the extension at most. -/
theorem same_database (dirs dirs' : List (List Char)) (name name' stem stem' ext ext' : List Char)
    (hd : ∀ c ∈ dirs, FileName c) (hd' : ∀ c ∈ dirs', FileName c) (hn : FileName name)
    (hn' : FileName name') (hp : NameParts name stem ext) (hp' : NameParts name' stem' ext') :
    dbfilepath (pathOf (dirs ++ [name])) = dbfilepath (pathOf (dirs' ++ [name'])) ↔
      dirs = dirs' ∧ stem = stem' := by
  obtain ⟨s, e, h1, h2⟩ := beside_the_scene dirs name hd hn
  obtain ⟨s', e', h1', h2'⟩ := beside_the_scene dirs' name' hd' hn'
  obtain ⟨rfl, rfl⟩ := parts_unique hp h1
  obtain ⟨rfl, rfl⟩ := parts_unique hp' h1'
  rw [h2, h2']
  have hs : '/' ∉ ".sqlite3".toList := by decide
  constructor
  · intro h
    obtain ⟨a, b⟩ := path_inj (by rw [List.mem_append, not_or]; exact ⟨(stem_name hn hp).slash, hs⟩)
      (by rw [List.mem_append, not_or]; exact ⟨(stem_name hn' hp').slash, hs⟩)
      (fun c hc => (hd c hc).slash) (fun c hc => (hd' c hc).slash) h
    exact ⟨a, List.append_cancel_right b⟩
  · rintro ⟨rfl, rfl⟩
    rfl

/-- **C116, negated part**: `plate.yml` and `plate.yaml` are different scenes with one database. -/
theorem two_scenes_one_database :
    "/a/plate.yml".toList ≠ "/a/plate.yaml".toList ∧
      dbfilepath "/a/plate.yml".toList = dbfilepath "/a/plate.yaml".toList := by decide

/-- **C116**. The database is another file than the scene exactly when the scene's extension is not
`.sqlite3`. -/
theorem own_file (dirs : List (List Char)) (name stem ext : List Char) (hd : ∀ c ∈ dirs, FileName c)
    (hn : FileName name) (hp : NameParts name stem ext) :
    dbfilepath (pathOf (dirs ++ [name])) ≠ pathOf (dirs ++ [name]) ↔ ext ≠ ".sqlite3".toList := by
  obtain ⟨s, e, h1, h2⟩ := beside_the_scene dirs name hd hn
  obtain ⟨rfl, rfl⟩ := parts_unique hp h1
  rw [h2, not_iff_not]
  have hs : '/' ∉ ".sqlite3".toList := by decide
  constructor
  · intro h
    have := (path_inj (by rw [List.mem_append, not_or]; exact ⟨(stem_name hn hp).slash, hs⟩) hn.slash
      (fun c hc => (hd c hc).slash) (fun c hc => (hd c hc).slash) h).2
    rw [hp.1] at this
    exact (List.append_cancel_left this).symm
  · rintro rfl
    rw [← hp.1]

section
variable [DecidableEq π]

/-- What the disk may look like at some moment of the command: before, between, while tracing with any items
in any state reached under any schedule, and after it. -/
inductive Moment (parsed : Except ε σ) (disk : Disk α) (scene : List Char) (overwrite answer : Bool) :
    Disk α → Prop
  | before : Moment parsed disk scene overwrite answer disk
  | between {d} (h : d ∈ (commence parsed disk scene overwrite answer).1) :
      Moment parsed disk scene overwrite answer d
  | tracing {s d size skip} {items : List (Item α π)} {r : Cli α π}
      (h : (commence parsed disk scene overwrite answer).2 = .ok (s, d)) (hr : Reached size skip items r) :
      Moment parsed disk scene overwrite answer (r.files d scene)

/-- **C116**. At every moment of the command, whatever fails, every file except the database of the scene is as it was. -/
theorem only_its_database {parsed : Except ε σ} {disk d : Disk α} {scene : List Char}
    {overwrite answer : Bool} (h : Moment (π := π) parsed disk scene overwrite answer d) (q : List Char)
    (hq : q ≠ dbfilepath scene) : d q = disk q := by
  cases h with
  | before => rfl
  | between h =>
    unfold commence at h
    cases parsed with
    | error e => simp at h
    | ok s =>
      dsimp only at h
      split at h
      · simp at h
      · split_ifs at h
        · obtain rfl := List.mem_singleton.1 h
          simp [Disk.set, hq]
        · simp at h
  | tracing h hr =>
    unfold commence at h
    cases parsed with
    | error e => simp at h
    | ok s =>
      dsimp only at h
      split at h
      · obtain ⟨-, rfl⟩ := Prod.mk.inj (Except.ok.inj h)
        simp [Cli.files, Disk.set, hq]
      · split_ifs at h
        · obtain ⟨-, rfl⟩ := Prod.mk.inj (Except.ok.inj h)
          simp [Cli.files, Disk.set, hq]

/-- **C116**. A scene file whose name does not end in `.sqlite3` survives the command unchanged, whatever
happens. -/
theorem scene_survives_partial {parsed : Except ε σ} {disk d : Disk α} {overwrite answer : Bool}
    (dirs : List (List Char)) (name stem ext : List Char) (hd : ∀ c ∈ dirs, FileName c)
    (hn : FileName name) (hp : NameParts name stem ext) (he : ext ≠ ".sqlite3".toList)
    (h : Moment (π := π) parsed disk (pathOf (dirs ++ [name])) overwrite answer d) :
    d (pathOf (dirs ++ [name])) = disk (pathOf (dirs ++ [name])) :=
  only_its_database h _ ((own_file dirs name stem ext hd hn hp).2 he).symm

/-- **C116**. A file that is already there under the name of the database is touched only with
`--overwrite` or after a yes, and only if the scene has been read without an error. -/
theorem kept_without_consent {parsed : Except ε σ} {disk d : Disk α} {scene : List Char}
    {overwrite answer : Bool} (h : Moment (π := π) parsed disk scene overwrite answer d)
    (hold : disk (dbfilepath scene) ≠ none)
    (hc : (overwrite = false ∧ answer = false) ∨ ∃ e, parsed = .error e) : d = disk := by
  obtain ⟨f, hf⟩ := Option.ne_none_iff_exists'.1 hold
  cases h with
  | before => rfl
  | between h =>
    rcases hc with ⟨rfl, rfl⟩ | ⟨e, rfl⟩
    · cases parsed <;> simp [commence, hf] at h
    · simp [commence] at h
  | tracing h hr =>
    rcases hc with ⟨rfl, rfl⟩ | ⟨e, rfl⟩
    · cases parsed <;> simp [commence, hf] at h
    · simp [commence] at h

/-- **C116**. While tracing, the database holds the beginning of this run and nothing else: no row of an earlier
run is left in it. -/
theorem own_rows {parsed : Except ε σ} {disk d : Disk α} {scene : List Char} {overwrite answer : Bool}
    {s : σ} {size skip : ℕ} {items : List (Item α π)} {r : Cli α π}
    (_ : (commence parsed disk scene overwrite answer).2 = .ok (s, d)) (hr : Reached size skip items r) :
    ∃ db, r.files d scene (dbfilepath scene) = some (.database db) ∧
      db.rays <+: (monitor skip items).db.rays ∧ db.events <+: (monitor skip items).db.events :=
  ⟨r.disk, by simp [Cli.files, Disk.set], interrupted_tables hr⟩

/-- The database the tracing starts with is the empty one of the run. -/
theorem commence_empty {parsed : Except ε σ} {disk d : Disk α} {scene : List Char} {overwrite answer : Bool}
    {s : σ} (h : (commence parsed disk scene overwrite answer).2 = .ok (s, d)) :
    parsed = .ok s ∧ d (dbfilepath scene) = some (.database ⟨[], []⟩) ∧
      (disk (dbfilepath scene) = none ∨ overwrite = true ∨ answer = true) := by
  unfold commence at h
  cases parsed with
  | error e => simp at h
  | ok s' =>
    dsimp only at h
    split at h
    · rename_i hn
      obtain ⟨rfl, rfl⟩ := Prod.mk.inj (Except.ok.inj h)
      exact ⟨rfl, by simp [Disk.set], .inl hn⟩
    · split_ifs at h with hc
      obtain ⟨rfl, rfl⟩ := Prod.mk.inj (Except.ok.inj h)
      exact ⟨rfl, by simp [Disk.set], .inr (by simpa using hc)⟩

theorem commence_consent (scene : σ) (disk : Disk α) (path : List Char) (f : File α)
    (hold : disk (dbfilepath path) = some f) (overwrite answer : Bool) (hc : (overwrite || answer) = true) :
    commence (.ok scene : Except ε σ) disk path overwrite answer = ([disk.set (dbfilepath path) none],
      .ok (scene, (disk.set (dbfilepath path) none).set (dbfilepath path) (some (.database ⟨[], []⟩)))) := by
  unfold commence
  dsimp only
  rw [hold]
  dsimp only
  rw [hc, if_pos rfl]

/-- **C116, negated part**: a scene file that is called `x.sqlite3` is its own database. With `--overwrite` it
is deleted, and the database takes its place. -/
theorem scene_deleted (text : String) (scene : σ) (disk : Disk α)
    (h : disk "/a/x.sqlite3".toList = some (.text text)) :
    ∃ d, Moment (π := π) (.ok scene : Except ε σ) disk "/a/x.sqlite3".toList true false d ∧
      d "/a/x.sqlite3".toList = none := by
  have hp : dbfilepath "/a/x.sqlite3".toList = "/a/x.sqlite3".toList := by decide
  generalize "/a/x.sqlite3".toList = path at h hp ⊢
  have hc := commence_consent (ε := ε) scene disk path (.text text) (by rw [hp, h]) true false rfl
  refine ⟨disk.set path none, .between ?_, if_pos rfl⟩
  rw [hc, hp]
  exact List.mem_singleton.2 rfl

/-- **C116, negated part**: the old results are gone before there are new ones. With `--overwrite` the command can end
with an error (the exception of the first ray, for example) and leave an empty database. -/
theorem old_results_lost (scene : σ) (disk : Disk α) (path : List Char) (old : Db α)
    (hold : disk (dbfilepath path) = some (.database old)) (items : List (Item α π)) (size skip : ℕ) :
    ∃ (d : Disk α) (r : Cli α π), Reached size skip items r ∧ r.exit = some false ∧
      (commence (.ok scene : Except ε σ) disk path true false).2 = .ok (scene, d) ∧
      r.files d path (dbfilepath path) = some (.database ⟨[], []⟩) := by
  have hc := commence_consent (ε := ε) scene disk path _ hold true false rfl
  have hr : Reached size skip items _ :=
    (((Relation.ReflTransGen.refl.tail (Cli.Next.simRaises (Cli.start items ⟨[], []⟩) rfl)).tail
    (Cli.Next.setStop _ (by simp) rfl rfl)).tail (Cli.Next.finish _ rfl rfl rfl rfl)).tail
    (Cli.Next.leave _ rfl (by simp) rfl)
  refine ⟨_, _, hr, rfl, by rw [hc], ?_⟩
  simp [Cli.files, Disk.set, Cli.start]

/-- An old database, consent, and a run that is under way: the hypotheses above are met. -/
example (scene : σ) (disk : Disk α) (path : List Char) (old : Db α)
    (hold : disk (dbfilepath path) = some (.database old)) (x y : Item α π) :
    ∃ (d : Disk α) (r : Cli α π), Reached 10000 10 [x, y] r ∧
      (commence (.ok scene : Except ε σ) disk path false true).2 = .ok (scene, d) ∧
      Moment (π := π) (.ok scene : Except ε σ) disk path false true (r.files d path) ∧
      r.disk.rays.length = 1 := by
  have hc : (commence (.ok scene : Except ε σ) disk path false true).2 = .ok (scene,
      (disk.set (dbfilepath path) none).set (dbfilepath path) (some (.database ⟨[], []⟩))) := by
    rw [commence_consent scene disk path _ hold false true rfl]
  have hr : Reached 10000 10 [x, y] _ :=
    ((Relation.ReflTransGen.refl.tail (Cli.Next.put (Cli.start [x, y] ⟨[], []⟩) x [y] rfl
      (by simp [Cli.start]) rfl)).tail (Cli.Next.get _ x [] rfl rfl rfl)).tail (Cli.Next.commit _ rfl rfl)
  refine ⟨_, _, hr, hc, .tracing hc hr, ?_⟩
  change (monitor 10 [x]).db.rays.length = 1
  rw [(monitor_db 10 [x]).1]
  rfl

end
end PV.Database
