import Verif.Model.StudioFiles
import Verif.Props.FileScene

/-!
C97: the studio writes to disk what it is told to, when it is told to.
-/

namespace PV.Studio
open PV PV.Doc
variable {α Scene : Type} [Field α] [LinearOrder α] [FloorRing α]

/-- There are finitely many files. -/
def Disk.Finite (d : Disk) : Prop := {q | d q ≠ none}.Finite

/-- `mkstemp` makes a file that did not exist. -/
def App.FreshTemp (A : App α Scene) : Prop := ∀ d : Disk, d.Finite → d (join A.cwd (A.temp d)) = none

/-- The request saves. -/
def FileRequest.saves : FileRequest α → Prop
  | .save => True
  | _ => False

/-- The request uploads a file. -/
def FileRequest.uploads : FileRequest α → Prop
  | .upload _ _ => True
  | _ => False

/-- The path is one where uploads go: a `.csv` or `.txt` file in the directory of the document. -/
def App.Upload (A : App α Scene) (path : String) : Prop :=
  ∃ dir doc name, A.doc = some (dir, doc) ∧ dataFile name ∧ '/' ∉ name.toList ∧ path = join dir name

theorem basename_flat (name : String) : '/' ∉ (basename name).toList := by
  unfold basename
  rw [String.toList_ofList, List.mem_reverse]
  intro h
  have := List.all_takeWhile (p := fun c => decide (c ≠ '/')) (l := name.toList.reverse)
  rw [List.all_eq_true] at this
  simpa using this _ h

theorem apply_disk {A : App α Scene} (hA : A.FreshTemp) (sv : Server Scene) (hf : sv.disk.Finite) (text : String) :
    (A.apply sv text).2.1.disk = sv.disk := by
  unfold App.apply
  split
  · rfl
  · funext q
    simp only [Disk.remove, Disk.set]
    split
    · rename_i h
      rw [h, hA _ hf]
    · rfl

theorem set_finite {d : Disk} (h : d.Finite) (path content : String) : (d.set path content).Finite := by
  refine (h.union (Set.finite_singleton path)).subset fun q hq => ?_
  by_cases e : q = path
  · exact .inr e
  · left
    simpa [Disk.set, e] using hq

theorem serve_edit_disk {A : App α Scene} (hA : A.FreshTemp) (sv : Server Scene) (hf : sv.disk.Finite) {r : FileRequest α}
    (h1 : ¬ r.saves) (h2 : ¬ r.uploads) : (A.serve sv r).2.1.disk = sv.disk := by
  cases r with
  | put text => exact apply_disk hA sv hf text
  | patch op =>
    unfold App.serve
    dsimp only
    split
    · rfl
    · exact apply_disk hA sv hf _
  | upload name content => exact absurd trivial h2
  | save => exact absurd trivial h1

theorem serve_upload {A : App α Scene} {sv : Server Scene} {name content : String} :
    (∃ dir doc, A.doc = some (dir, doc) ∧ dataFile (basename name) = true ∧
      (A.serve sv (.upload name content)).2 =
        ({ sv with disk := sv.disk.set (join dir (basename name)) content }, none)) ∨
    ((A.serve sv (.upload name content)).2.1 = sv ∧ (A.serve sv (.upload name content)).2.2 ≠ none) := by
  unfold App.serve
  dsimp only
  split
  · right; exact ⟨rfl, by simp⟩
  · rename_i dir doc h
    split
    · rename_i h'
      left
      exact ⟨dir, doc, h, h', rfl⟩
    · right; exact ⟨rfl, by simp⟩

theorem serve_finite {A : App α Scene} (hA : A.FreshTemp) {sv : Server Scene} (hf : sv.disk.Finite)
    (r : FileRequest α) : (A.serve sv r).2.1.disk.Finite := by
  by_cases hu : r.uploads
  · cases r with
    | upload name content =>
      rcases serve_upload (A := A) (sv := sv) (name := name) (content := content) with
        ⟨dir, doc, hd, _, e⟩ | ⟨e, -⟩
      · rw [e]; exact set_finite hf _ _
      · rw [e]; exact hf
    | _ => exact hu.elim
  · by_cases hs : r.saves
    · cases r with
      | save =>
        unfold App.serve
        dsimp only
        split
        · exact hf
        · exact set_finite hf _ _
      | _ => exact hs.elim
    · rw [serve_edit_disk hA sv hf hs hu]; exact hf

theorem serveAll_finite {A : App α Scene} (hA : A.FreshTemp) (rs : List (FileRequest α)) {sv : Server Scene}
    (hf : sv.disk.Finite) : (A.serveAll sv rs).disk.Finite := by
  induction rs generalizing sv with
  | nil => exact hf
  | cons r rs ih => exact ih (serve_finite hA hf r)

/-- **C97**, other files. Whatever is requested, no file changes but the document and the `.csv` and
`.txt` files in its directory; with no document opened, no file at all. -/
theorem other_files_untouched {A : App α Scene} (hA : A.FreshTemp) (rs : List (FileRequest α))
    (sv : Server Scene) (hf : sv.disk.Finite) {path : String} (h1 : A.docPath ≠ some path) (h2 : ¬ A.Upload path) :
    (A.serveAll sv rs).disk path = sv.disk path := by
  induction rs generalizing sv with
  | nil => rfl
  | cons r rs ih =>
    show (A.serveAll (A.serve sv r).2.1 rs).disk path = _
    rw [ih _ (serve_finite hA hf r)]
    by_cases hu : r.uploads
    · cases r with
      | upload name content =>
        rcases serve_upload (A := A) (sv := sv) (name := name) (content := content) with
          ⟨dir, doc, hd, hf, e⟩ | ⟨e, -⟩
        · rw [e]
          simp only [Disk.set]
          rw [if_neg]
          intro h
          exact h2 ⟨dir, doc, basename name, hd, hf, basename_flat name, h⟩
        · rw [e]
      | _ => exact hu.elim
    · by_cases hs : r.saves
      · cases r with
        | save =>
          unfold App.serve
          dsimp only
          split
          · rfl
          · rename_i dir doc h
            simp only [Disk.set]
            rw [if_neg]
            intro h'
            exact h1 (by rw [App.docPath, h, h']; rfl)
        | _ => exact hs.elim
      · rw [serve_edit_disk hA sv hf hs hu]

theorem document_untouched {A : App α Scene} (hA : A.FreshTemp) {path : String}
    (hn : ¬ A.Upload path) (rs : List (FileRequest α)) (sv : Server Scene) (hf : sv.disk.Finite)
    (hs : ∀ r ∈ rs, ¬ r.saves) : (A.serveAll sv rs).disk path = sv.disk path := by
  induction rs generalizing sv with
  | nil => rfl
  | cons r rs ih =>
    show (A.serveAll (A.serve sv r).2.1 rs).disk path = _
    rw [ih _ (serve_finite hA hf r) fun r' h => hs r' (by simp [h])]
    by_cases hu : r.uploads
    · cases r with
      | upload name content =>
        rcases serve_upload (A := A) (sv := sv) (name := name) (content := content) with
          ⟨dir, doc, hd, hf, e⟩ | ⟨e, -⟩
        · rw [e]
          simp only [Disk.set]
          rw [if_neg]
          intro h
          exact hn ⟨dir, doc, basename name, hd, hf, basename_flat name, h⟩
        · rw [e]
      | _ => exact hu.elim
    · rw [serve_edit_disk hA sv hf (hs r (by simp)) hu]

theorem serveAll_append (A : App α Scene) (sv : Server Scene) (rs rs' : List (FileRequest α)) :
    A.serveAll sv (rs ++ rs') = A.serveAll (A.serveAll sv rs) rs' := by
  induction rs generalizing sv with
  | nil => rfl
  | cons r rs ih => exact ih _

/-- **C97**, document. If the document is not itself a `.csv` or `.txt` file: until the first save
its file is as it was opened; afterwards it holds the document as it was in the studio at the last save. -/
theorem document_saved_partial {A : App α Scene} (hA : A.FreshTemp) {path : String}
    (hp : A.docPath = some path) (hn : ¬ A.Upload path) (sv : Server Scene) (hf : sv.disk.Finite) :
    (∀ rs : List (FileRequest α), (∀ r ∈ rs, ¬ r.saves) → (A.serveAll sv rs).disk path = sv.disk path) ∧
      ∀ rs rs' : List (FileRequest α), (∀ r ∈ rs', ¬ r.saves) →
        (A.serveAll sv (rs ++ .save :: rs')).disk path = some (A.serveAll sv rs).st.document := by
  refine ⟨fun rs h => document_untouched hA hn rs sv hf h, fun rs rs' h => ?_⟩
  rw [serveAll_append]
  show (A.serveAll (A.serve (A.serveAll sv rs) .save).2.1 rs').disk path = _
  rw [document_untouched hA hn rs' _ (serve_finite hA (serveAll_finite hA rs hf) _) h]
  unfold App.docPath at hp
  unfold App.serve
  cases hd : A.doc with
  | none => rw [hd] at hp; cases hp
  | some d =>
    rw [hd] at hp
    simp only [Option.map_some, Option.some.injEq] at hp
    simp [Disk.set, hp]

theorem apply_document {A : App α Scene} (sv : Server Scene) {text : String} (h : sv.st.document = text) :
    (A.apply sv text).2.1.st.document = text := by
  unfold App.apply
  split
  · exact h
  · dsimp only
    unfold Studio.apply
    split
    · exact h
    · split <;> rfl

/-- **C97**, opening. Starting the studio changes no file, and the document in the studio is the text of
the file, whether it loads or not. -/
theorem opened {A : App α Scene} (hA : A.FreshTemp) {d : Disk} (hf : d.Finite) {sv : Server Scene}
    (h : A.open d = some sv) : sv.disk = d ∧ ∀ path, A.docPath = some path → d path = some sv.st.document := by
  unfold App.open at h
  unfold App.docPath
  split at h
  · rename_i hd
    cases h
    exact ⟨rfl, fun path hp => by rw [hd] at hp; cases hp⟩
  · rename_i dir name hd
    split at h
    · cases h
    · rename_i text ht
      have hp : ∀ path, A.doc.map (fun f => join f.1 f.2) = some path → d path = some text := by
        intro path hp
        rw [hd] at hp
        cases hp
        exact ht
      split at h
      · cases h
        exact ⟨rfl, hp⟩
      · cases h
        exact ⟨apply_disk hA _ hf _, fun path h' => by rw [hp path h', apply_document]; rfl⟩

/-- **C97**, uploads. An upload that is not refused puts the content under its name next to the
document, and it stays there until the next upload of that name. -/
theorem upload_stored {A : App α Scene} (hA : A.FreshTemp) {dir doc : String} (hd : A.doc = some (dir, doc))
    (sv : Server Scene) (hf : sv.disk.Finite) {name content : String} (ha : (A.serve sv (.upload name content)).2.2 = none)
    (hn : join dir doc ≠ join dir (basename name)) (rs : List (FileRequest α))
    (hr : ∀ n c, FileRequest.upload n c ∈ rs → join dir (basename n) ≠ join dir (basename name)) :
    (A.serveAll sv (.upload name content :: rs)).disk (join dir (basename name)) = some content := by
  show (A.serveAll (A.serve sv (.upload name content)).2.1 rs).disk _ = _
  have h0 : (A.serve sv (.upload name content)).2.1.disk (join dir (basename name)) = some content := by
    rcases serve_upload (A := A) (sv := sv) (name := name) (content := content) with
      ⟨dir', doc', hd', hf, e⟩ | ⟨-, e⟩
    · rw [hd] at hd'
      cases hd'
      rw [e]
      simp [Disk.set]
    · exact absurd ha e
  have hf' := serve_finite hA hf (.upload name content)
  revert h0 hf'
  generalize (A.serve sv (.upload name content)).2.1 = sv'
  intro h0 hf'
  induction rs generalizing sv' with
  | nil => exact h0
  | cons r rs ih =>
    show (A.serveAll (A.serve sv' r).2.1 rs).disk _ = _
    refine ih (fun n c h => hr n c (by simp [h])) _ ?_ (serve_finite hA hf' r)
    by_cases hu : r.uploads
    · cases r with
      | upload n c =>
        rcases serve_upload (A := A) (sv := sv') (name := n) (content := c) with
          ⟨dir', doc', hd', hf, e⟩ | ⟨e, -⟩
        · rw [hd] at hd'
          cases hd'
          rw [e]
          simp only [Disk.set]
          rw [if_neg (fun h => hr n c (by simp) h.symm)]
          exact h0
        · rw [e]; exact h0
      | _ => exact hu.elim
    · by_cases hs : r.saves
      · cases r with
        | save =>
          unfold App.serve
          rw [hd]
          simp only [Disk.set]
          rw [if_neg (fun h => hn h.symm)]
          exact h0
        | _ => exact hs.elim
      · rw [serve_edit_disk hA sv' hf' hs hu]; exact h0

/-- **C97**, interruption. A server killed at any moment of a request leaves all files but one as
they were. For edits that one is a new file; for an upload it is the uploaded one; for a save it is the
document, of which the beginning has been written. -/
theorem killed_partial {A : App α Scene} (hA : A.FreshTemp) (sv : Server Scene) (hf : sv.disk.Finite) (r : FileRequest α) {d : Disk}
    (hd : d ∈ (A.serve sv r).1) :
    ∃ path, (∀ q, q ≠ path → d q = sv.disk q) ∧
      match r with
      | .put _ | .patch _ => sv.disk path = none
      | .upload name content => A.doc.map (fun f => join f.1 (basename name)) = some path ∧
          ∃ c, d path = some c ∧ c.toList <+: content.toList
      | .save => A.docPath = some path ∧ ∃ c, d path = some c ∧ c.toList <+: sv.st.document.toList := by
  have happ : ∀ text, d ∈ (A.apply sv text).1 → ∃ path, (∀ q, q ≠ path → d q = sv.disk q) ∧
      sv.disk path = none := by
    intro text h
    unfold App.apply at h
    split at h
    · cases h
    · simp only [List.mem_cons, List.not_mem_nil, or_false] at h
      refine ⟨_, fun q hq => ?_, hA sv.disk hf⟩
      rcases h with rfl | rfl <;> simp [Disk.set, hq]
  have hwr : ∀ path content, d ∈ writing sv.disk path content → (∀ q, q ≠ path → d q = sv.disk q) ∧
      ∃ c, d path = some c ∧ c.toList <+: content.toList := by
    intro path content h
    unfold writing at h
    obtain ⟨k, -, rfl⟩ := List.mem_map.1 h
    refine ⟨fun q hq => by simp [Disk.set, hq], _, by simp [Disk.set]; rfl, ?_⟩
    rw [String.toList_ofList]
    exact List.take_prefix _ _
  cases r with
  | put text => exact happ text hd
  | patch op =>
    unfold App.serve at hd
    dsimp only at hd
    split at hd
    · cases hd
    · exact happ _ hd
  | upload name content =>
    unfold App.serve at hd
    dsimp only at hd
    split at hd
    · cases hd
    · rename_i dir doc he
      split at hd
      · have := hwr _ _ hd
        refine ⟨_, this.1, ?_, this.2⟩
        rw [he]; rfl
      · cases hd
  | save =>
    unfold App.serve at hd
    dsimp only at hd
    split at hd
    · cases hd
    · rename_i dir doc he
      have := hwr _ _ hd
      refine ⟨_, this.1, ?_, this.2⟩
      rw [App.docPath, he]; rfl

/-- An interrupted save loses the document: it is possible that neither the old nor the new text is on
disk, but an empty file. -/
theorem killed_save_loses {A : App α Scene} {dir doc : String} (hd : A.doc = some (dir, doc))
    (sv : Server Scene) : ∃ d ∈ (A.serve sv (.save : FileRequest α)).1, d (join dir doc) = some "" := by
  unfold App.serve
  rw [hd]
  refine ⟨sv.disk.set (join dir doc) "", ?_, by simp [Disk.set]⟩
  unfold writing
  refine List.mem_map.2 ⟨0, by simp, ?_⟩
  simp

/-! ### What the saved document means -/

/-- The parser depends only on the files the text names (`reads`), and these are neither the document
itself nor temporary files. -/
structure App.Local (A : App α Scene) (dir : String) (reads : String → List String) : Prop where
  parse : ∀ see see' text, (∀ f ∈ reads text, see f = see' f) →
    (A.backend see).parse text = (A.backend see').parse text
  document : ∀ text, ∀ f ∈ reads text, A.docPath ≠ some (join dir f)
  temp : ∀ text, ∀ f ∈ reads text, ∀ d, join A.cwd f ≠ join A.cwd (A.temp d)

/-- The scene in the studio is the one the document describes. -/
def App.Current (A : App α Scene) (sv : Server Scene) : Prop :=
  ∃ s, sv.st.scene = some s ∧ (A.backend (seenFrom sv.disk A.cwd)).parse sv.st.document = .ok s

theorem apply_current {A : App α Scene} {reads : String → List String} (hL : A.Local A.cwd reads)
    (hA : A.FreshTemp) {sv : Server Scene} (hf : sv.disk.Finite) {text : String} (h : (A.apply sv text).2.2 = none ∨ A.Current sv) :
    A.Current (A.apply sv text).2.1 := by
  unfold App.Current
  rw [apply_disk hA sv hf]
  unfold App.apply at h ⊢
  split
  · rename_i e he
    rw [he] at h
    rcases h with h | h
    · cases h
    · exact h
  · rename_i u he
    rw [he] at h
    dsimp only at h ⊢
    have hp : (A.backend (seenFrom (sv.disk.set (join A.cwd (A.temp sv.disk)) text) A.cwd)).parse text =
        (A.backend (seenFrom sv.disk A.cwd)).parse text := by
      refine hL.parse _ _ _ fun f hf => ?_
      simp only [seenFrom, Disk.set]
      rw [if_neg (hL.temp text f hf _)]
    unfold Studio.apply at h ⊢
    rw [hp] at h ⊢
    split
    · rename_i e he'
      rw [he'] at h
      rcases h with h | h
      · cases h
      · exact h
    · rename_i s hs
      split <;> exact ⟨s, rfl, hs⟩

theorem serve_current {A : App α Scene} {reads : String → List String} (hL : A.Local A.cwd reads)
    (hA : A.FreshTemp) {sv : Server Scene} (hf : sv.disk.Finite) {r : FileRequest α} (hu : ¬ r.uploads)
    (h : ((A.serve sv r).2.2 = none ∧ ¬ r.saves) ∨ A.Current sv) : A.Current (A.serve sv r).2.1 := by
  cases r with
  | put text =>
    refine apply_current hL hA hf ?_
    rcases h with h | h
    · exact .inl h.1
    · exact .inr h
  | patch op =>
    unfold App.serve at h ⊢
    dsimp only at h ⊢
    split
    · rename_i e he
      rw [he] at h
      rcases h with h | h
      · cases h.1
      · exact h
    · rename_i text he
      rw [he] at h
      refine apply_current hL hA hf ?_
      rcases h with h | h
      · exact .inl h.1
      · exact .inr h
  | upload name content => exact absurd trivial hu
  | save =>
    rcases h with h | h
    · exact absurd trivial h.2
    · unfold App.serve
      dsimp only
      split
      · exact h
      · rename_i dir doc hd
        obtain ⟨s, hs, hp⟩ := h
        refine ⟨s, hs, ?_⟩
        rw [← hp]
        refine hL.parse _ _ _ fun f hf => ?_
        simp only [seenFrom, Disk.set]
        rw [if_neg]
        intro e
        refine hL.document _ f hf ?_
        rw [App.docPath, hd, e]
        rfl

theorem all_current {A : App α Scene} {reads : String → List String} (hL : A.Local A.cwd reads)
    (hA : A.FreshTemp) (rs : List (FileRequest α)) {sv : Server Scene} (hf : sv.disk.Finite) (hu : ∀ r ∈ rs, ¬ r.uploads)
    (h : A.Current sv) : A.Current (A.serveAll sv rs) := by
  induction rs generalizing sv with
  | nil => exact h
  | cons r rs ih => exact ih (serve_finite hA hf r) (fun r' h' => hu r' (by simp [h'])) (serve_current hL hA hf (hu r (by simp)) (.inr h))

/-- **C97**, meaning. When the studio runs in the directory of the document, or the document names its
files by absolute paths: after an accepted edit and any further requests but uploads, the document as saved
loads in `pvtrace-cli`, and the scene is the one the studio shows. -/
theorem saved_loads_partial {A : App α Scene} {reads : String → List String} (hL : A.Local A.cwd reads)
    (hA : A.FreshTemp) {dir doc : String} (hd : A.doc = some (dir, doc))
    (hw : dir = A.cwd ∨ ∀ text, ∀ f ∈ reads text, f.toList.head? = some '/')
    (sv : Server Scene) (hf : sv.disk.Finite)
    {r : FileRequest α} (hr : ¬ r.uploads ∧ ¬ r.saves) (ha : (A.serve sv r).2.2 = none)
    (rs : List (FileRequest α)) (hu : ∀ r ∈ rs, ¬ r.uploads) :
    ∃ s, (A.serveAll sv (r :: rs)).st.scene = some s ∧
      A.cli (A.serveAll sv (r :: rs ++ [.save])).disk = .ok s := by
  have h1 : A.Current (A.serveAll sv (r :: rs)) :=
    all_current hL hA rs (serve_finite hA hf r) hu (serve_current hL hA hf hr.1 (.inl ⟨ha, hr.2⟩))
  have h2 : A.Current (A.serveAll sv (r :: rs ++ [.save])) := by
    rw [serveAll_append]
    exact all_current hL hA [.save] (serveAll_finite hA (r :: rs) hf) (by simp [FileRequest.uploads]) h1
  obtain ⟨s, hs, -⟩ := h1
  obtain ⟨s', hs', hp⟩ := h2
  have e : (A.serveAll sv (r :: rs ++ [.save])).st = (A.serveAll sv (r :: rs)).st := by
    rw [serveAll_append]
    show ((A.serve _ .save).2.1).st = _
    unfold App.serve
    rw [hd]
  have e' : (A.serveAll sv (r :: rs ++ [.save])).disk (join dir doc) =
      some (A.serveAll sv (r :: rs)).st.document := by
    rw [serveAll_append]
    show ((A.serve _ .save).2.1).disk _ = _
    unfold App.serve
    rw [hd]
    simp [Disk.set]
  refine ⟨s, hs, ?_⟩
  unfold App.cli
  rw [hd]
  dsimp only
  rw [e']
  dsimp only
  rw [e, hs] at hs'
  cases hs'
  rw [← e, ← hp]
  refine hL.parse _ _ _ fun f hf => ?_
  unfold seenFrom
  rcases hw with rfl | hw
  · rfl
  · have := hw _ f hf
    unfold join
    rw [if_pos this, if_pos this]

/-! ### A server -/

/-- A world whose air has the spectrum in `dye.csv`. -/
def dyedFile : Yaml ℚ := .map [("version", .str "1.0"),
  ("components", .map [("dye", .map [("absorber", .map [("coefficient", .num 1), ("spectrum", .map [("file", .str "dye.csv")])])])]),
  ("nodes", .map [
    ("world", .map [("sphere", .map [("radius", .num 10),
      ("material", .map [("refractive-index", .num 1), ("components", .seq [.str "dye"])])])])])]

/-- `pandas.read_csv` of the files seen: any file holds one spectrum. -/
def filesOf (see : String → Option String) : Files ℚ where
  csv f := match see f with
    | none => .error .key
    | some _ => .ok ⟨false, [(400, 1), (500, 2)]⟩
  absorption _ := none
  emission _ := none
  mesh _ := .error .key
  float _ := none

/-- All texts describe the dyed world. -/
def demoBackend (see : String → Option String) : Backend ℚ String (SceneDef ℚ) where
  load _ := .ok []
  dump _ := ""
  parse _ := parseFile (filesOf see) dyedFile
  payload _ := .ok ()
  localOf _ _ _ := .error .key
  recorders _ := []

theorem dyed_needs : ∃ e, parseFile (filesOf fun _ => none) dyedFile = .error e := by
  have h : (match parseFile (filesOf fun _ => none) dyedFile with | .error _ => true | .ok _ => false) = true := by
    decide +kernel
  split at h
  · exact ⟨_, by assumption⟩
  · cases h

theorem dyed_loads : ∃ s, parseFile (filesOf fun _ => some "") dyedFile = .ok s := by
  have h : (match parseFile (filesOf fun _ => some "") dyedFile with | .error _ => false | .ok _ => true) = true := by
    decide +kernel
  split at h
  · cases h
  · exact ⟨_, by assumption⟩

/-- Names for temporary files. -/
def tempName (n : ℕ) : String := String.ofList (List.replicate (n + 1) 'x')

theorem join_temp (dir : String) (n : ℕ) : join dir (tempName n) = dir ++ "/" ++ tempName n := by
  unfold join tempName
  rw [if_neg]
  simp [String.toList_ofList, List.replicate_succ]

theorem temp_exists (dir : String) {d : Disk} (hd : d.Finite) : ∃ n, d (join dir (tempName n)) = none := by
  by_contra h
  push Not at h
  have hinj : Function.Injective fun n => join dir (tempName n) := by
    intro m n e
    have e' : join dir (tempName m) = join dir (tempName n) := e
    rw [join_temp, join_temp] at e'
    have := congrArg String.toList e'
    simpa [tempName, String.toList_append, String.toList_ofList] using congrArg List.length this
  exact Set.infinite_of_injective_forall_mem hinj h hd

open Classical in
/-- A server for the document `scene.yml` in `/scenes`. -/
noncomputable def demoApp (cwd : String) : App ℚ (SceneDef ℚ) where
  cwd := cwd
  doc := some ("/scenes", "scene.yml")
  mapping _ := .ok ()
  temp d := if h : ∃ n, d (join cwd (tempName n)) = none then tempName h.choose else "x"
  backend := demoBackend

open Classical in
theorem demo_fresh (cwd : String) : (demoApp cwd).FreshTemp := by
  intro d hd
  have h := temp_exists cwd hd
  show d (join cwd (if h : ∃ n, d (join cwd (tempName n)) = none then tempName h.choose else "x")) = none
  rw [dif_pos h]
  exact h.choose_spec

open Classical in
theorem demo_temp (cwd : String) (d : Disk) : ∃ n, (demoApp cwd).temp d = tempName n := by
  show ∃ n, (if h : ∃ n, d (join cwd (tempName n)) = none then tempName h.choose else "x") = tempName n
  split
  · exact ⟨_, rfl⟩
  · exact ⟨0, rfl⟩

theorem demo_join (cwd : String) : join cwd "dye.csv" = cwd ++ "/" ++ "dye.csv" := by
  unfold join
  rw [if_neg (by decide)]

theorem dye_not_temp (cwd : String) (d : Disk) : join cwd "dye.csv" ≠ join cwd ((demoApp cwd).temp d) := by
  obtain ⟨n, hn⟩ := demo_temp cwd d
  rw [hn, demo_join, join_temp]
  intro e
  have := congrArg String.toList e
  simp only [String.toList_append, List.append_assoc, List.append_cancel_left_eq, tempName,
    String.toList_ofList] at this
  rw [List.replicate_succ] at this
  exact absurd (List.cons.inj this).1 (by decide)

theorem demo_parse (see : String → Option String) (text : String) :
    (demoBackend see).parse text = (demoBackend fun _ => see "dye.csv").parse text := by
  have h : ∀ see, parseFile (filesOf see) dyedFile = parseFile (filesOf fun _ => see "dye.csv") dyedFile := by
    intro see
    unfold parseFile
    split
    · rfl
    · simp [dyedFile, Yaml.dict, dget, List.lookup_cons, parseScene, optDict, parseComponents, parseComponent,
        parseAbsorber, optSpectrum, absorptionOf, parseSpectrum, Yaml.string, filesOf, parseNodes, parseContent, has, parseGeometry,
        parseShape, Yaml.number]
  exact h see

theorem demo_local (cwd : String) : (demoApp cwd).Local "/scenes" fun _ => ["dye.csv"] where
  parse see see' text h := by
    show (demoBackend see).parse text = (demoBackend see').parse text
    rw [demo_parse see, demo_parse see', h _ (by simp)]
  document text f hf := by
    simp only [List.mem_singleton] at hf
    subst hf
    show some (join "/scenes" "scene.yml") ≠ some (join "/scenes" "dye.csv")
    decide +kernel
  temp text f hf d := by
    simp only [List.mem_singleton] at hf
    subst hf
    exact dye_not_temp cwd d

/-- A disk with the document and a spectrum in the directory `dir`. -/
def dyedDisk (dir : String) : Disk := fun q =>
  if q = "/scenes/scene.yml" then some "old" else if q = join dir "dye.csv" then some "1,2" else none

theorem dyed_finite (dir : String) : (dyedDisk dir).Finite := by
  refine ((Set.finite_singleton "/scenes/scene.yml").union (Set.finite_singleton (join dir "dye.csv"))).subset ?_
  intro q hq
  by_contra h
  simp only [Set.mem_union, Set.mem_singleton_iff, not_or] at h
  exact hq (by simp [dyedDisk, h.1, h.2])

theorem sees (see : String → Option String) (text : String) :
    ((see "dye.csv").isSome → ∃ s, (demoBackend see).parse text = .ok s) ∧
      (see "dye.csv" = none → ∃ e, (demoBackend see).parse text = .error e) := by
  rw [demo_parse]
  constructor
  · intro h
    cases hs : see "dye.csv" with
    | none => rw [hs] at h; cases h
    | some c => exact dyed_loads
  · intro h
    rw [h]
    exact dyed_needs

theorem put_answer (cwd text : String) (sv : Server (SceneDef ℚ)) :
    ((sv.disk (join cwd "dye.csv")).isSome → ((demoApp cwd).serve sv (.put text)).2.2 = none ∧
      ((demoApp cwd).serve sv (.put text)).2.1.st.document = text) ∧
      (sv.disk (join cwd "dye.csv") = none → ((demoApp cwd).serve sv (.put text)).2.2 ≠ none) := by
  have e : seenFrom (sv.disk.set (join cwd ((demoApp cwd).temp sv.disk)) text) cwd "dye.csv" =
      sv.disk (join cwd "dye.csv") := by
    simp [seenFrom, Disk.set, dye_not_temp]
  have hs := sees (seenFrom (sv.disk.set (join cwd ((demoApp cwd).temp sv.disk)) text) cwd) text
  rw [e] at hs
  unfold App.serve App.apply
  dsimp only
  have hm : (demoApp cwd).mapping text = .ok () := rfl
  have hb : (demoApp cwd).backend = demoBackend := rfl
  have hc : (demoApp cwd).cwd = cwd := rfl
  rw [hm]
  dsimp only
  rw [hb, hc]
  unfold Studio.apply
  constructor
  · intro h
    obtain ⟨s, h'⟩ := hs.1 h
    rw [h']
    exact ⟨rfl, rfl⟩
  · intro h
    obtain ⟨s, h'⟩ := hs.2 h
    rw [h']
    simp

/-- Non-vacuity of `saved_loads_partial`, and of the others: a studio in the directory of the document
accepts a text that names a spectrum there. -/
example : (demoApp "/scenes").Local (demoApp "/scenes").cwd (fun _ => ["dye.csv"]) ∧
    (demoApp "/scenes").FreshTemp ∧ (dyedDisk "/scenes").Finite ∧
    ((demoApp "/scenes").serve ⟨dyedDisk "/scenes", ⟨"old", none⟩⟩ (.put "new")).2.2 = none ∧
    (demoApp "/scenes").docPath = some "/scenes/scene.yml" :=
  ⟨demo_local _, demo_fresh _, dyed_finite _, ((put_answer _ _ _).1 (by decide +kernel)).1, by decide⟩

/-- The document's files named by an absolute path, with the studio running elsewhere. -/
example : ∃ A : App ℚ (SceneDef ℚ), A.doc = some ("/scenes", "scene.yml") ∧ A.cwd = "/home" ∧
    A.Local A.cwd (fun _ => ["/data/dye.csv"]) ∧ A.FreshTemp ∧
    (∀ text, ∀ f ∈ (fun _ => ["/data/dye.csv"] : String → List String) text, f.toList.head? = some '/') := by
  refine ⟨{ demoApp "/home" with backend := fun see => demoBackend fun f => see ("/data/" ++ f) },
    rfl, rfl, ⟨?_, ?_, ?_⟩, demo_fresh "/home", ?_⟩
  · intro see see' text h
    show (demoBackend _).parse text = (demoBackend _).parse text
    rw [demo_parse, demo_parse (fun f => see' ("/data/" ++ f))]
    have : "/data/" ++ "dye.csv" = "/data/dye.csv" := by decide
    rw [this, h _ (by simp)]
  · intro text f hf
    simp only [List.mem_singleton] at hf
    subst hf
    show some (join "/scenes" "scene.yml") ≠ some (join "/home" "/data/dye.csv")
    decide +kernel
  · intro text f hf d
    simp only [List.mem_singleton] at hf
    subst hf
    obtain ⟨n, hn⟩ := demo_temp "/home" d
    show join "/home" "/data/dye.csv" ≠ join "/home" ((demoApp "/home").temp d)
    rw [hn, join_temp]
    intro e
    have h1 : join "/home" "/data/dye.csv" = "/data/dye.csv" := by decide +kernel
    rw [h1] at e
    have := congrArg (fun s : String => s.toList.take 2) e
    simp only [String.toList_append] at this
    exact absurd this (by simp)
  · intro text f hf
    simp only [List.mem_singleton] at hf
    subst hf
    decide +kernel

theorem doc_not_upload (cwd : String) : ¬ (demoApp cwd).Upload "/scenes/scene.yml" := by
  rintro ⟨dir, doc, name, h1, h2, h3, h4⟩
  cases h1
  unfold join at h4
  split at h4
  · rename_i h
    exact h3 (List.mem_of_mem_head? h)
  · have : name = "scene.yml" := by
      have := congrArg String.toList h4
      rw [String.toList_append, String.toList_append] at this
      have h5 : "/scenes/scene.yml".toList = ("/scenes".toList ++ "/".toList) ++ "scene.yml".toList := by decide
      rw [h5] at this
      exact (String.toList_inj.1 (List.append_cancel_left this)).symm
    subst this
    revert h2
    decide +kernel

/-- An upload is not found by the studio if it does not run in the directory of the document: the upload
is accepted, and the text that names the file is refused, although `pvtrace-cli` would load it. -/
theorem upload_not_found : ∃ (A : App ℚ (SceneDef ℚ)) (sv : Server (SceneDef ℚ)), A.FreshTemp ∧ sv.disk.Finite ∧
    (A.serve sv (.upload "dye.csv" "1,2")).2.2 = none ∧
    (∀ text, (A.serve (A.serve sv (.upload "dye.csv" "1,2")).2.1 (.put text)).2.2 ≠ none) ∧
    ∃ s, A.cli (A.serve sv (.upload "dye.csv" "1,2")).2.1.disk = .ok s := by
  have hb : dataFile (basename "dye.csv") = true := by decide +kernel
  have hn : basename "dye.csv" = "dye.csv" := by decide +kernel
  have hu : ((demoApp "/home").serve ⟨fun q => if q = "/scenes/scene.yml" then some "old" else none, ⟨"old", none⟩⟩
      (.upload "dye.csv" "1,2")).2 = (⟨Disk.set (fun q => if q = "/scenes/scene.yml" then some "old" else none)
        (join "/scenes" "dye.csv") "1,2", ⟨"old", none⟩⟩, none) := by
    unfold App.serve
    have : (demoApp "/home").doc = some ("/scenes", "scene.yml") := rfl
    rw [this]
    dsimp only
    rw [if_pos hb, hn]
  refine ⟨demoApp "/home", ⟨fun q => if q = "/scenes/scene.yml" then some "old" else none, ⟨"old", none⟩⟩,
    demo_fresh _, ?_, ?_, fun text => ?_, ?_⟩
  · refine (Set.finite_singleton "/scenes/scene.yml").subset fun q hq => ?_
    by_contra h
    exact hq (if_neg h)
  · rw [hu]
  · rw [hu]
    exact (put_answer _ _ _).2 (by decide +kernel)
  · rw [hu]
    show ∃ s, (demoBackend (seenFrom _ "/scenes")).parse "old" = .ok s
    exact (sees _ _).1 (by decide +kernel)

/-- A document that the studio accepts and saves may not load: the spectrum is looked for in the directory
the studio was started in, and `pvtrace-cli` looks for it next to the document. -/
theorem saved_does_not_load : ∃ (A : App ℚ (SceneDef ℚ)) (sv : Server (SceneDef ℚ)), A.FreshTemp ∧
    sv.disk.Finite ∧ (A.serve sv (.put "new")).2.2 = none ∧
    (A.serveAll sv [.put "new", .save]).disk "/scenes/scene.yml" = some "new" ∧
    ∃ e, A.cli (A.serveAll sv [.put "new", .save]).disk = .error e := by
  have hput := (put_answer "/home" "new" ⟨dyedDisk "/home", ⟨"old", none⟩⟩).1 (by decide +kernel)
  have hdoc : ((demoApp "/home").serveAll ⟨dyedDisk "/home", ⟨"old", none⟩⟩ [.put "new", .save]).disk
      "/scenes/scene.yml" = some "new" := by
    have := (document_saved_partial (demo_fresh "/home") (path := "/scenes/scene.yml") (by decide)
      (doc_not_upload _) ⟨dyedDisk "/home", ⟨"old", none⟩⟩ (dyed_finite _)).2 [.put "new"] [] (by simp)
    rw [show [FileRequest.put "new"] ++ [FileRequest.save] = ([.put "new", .save] : List (FileRequest ℚ)) from rfl]
      at this
    rw [this]
    exact congrArg some hput.2
  refine ⟨demoApp "/home", _, demo_fresh _, dyed_finite _, hput.1, hdoc, ?_⟩
  have hno : ((demoApp "/home").serveAll ⟨dyedDisk "/home", ⟨"old", none⟩⟩ [.put "new", .save]).disk
      (join "/scenes" "dye.csv") = none := by
    show ((demoApp "/home").serve ((demoApp "/home").serve _ (.put "new")).2.1 .save).2.1.disk _ = none
    unfold App.serve
    have : (demoApp "/home").doc = some ("/scenes", "scene.yml") := rfl
    rw [this]
    dsimp only
    rw [apply_disk (demo_fresh _) _ (dyed_finite _)]
    simp only [Disk.set]
    rw [if_neg (by decide +kernel)]
    decide +kernel
  unfold App.cli
  have : (demoApp "/home").doc = some ("/scenes", "scene.yml") := rfl
  rw [this]
  dsimp only
  have hj : join "/scenes" "scene.yml" = "/scenes/scene.yml" := by decide +kernel
  rw [hj, hdoc]
  exact (sees _ _).2 hno

/-- A document with the ending `.txt` or `.csv` is overwritten by an upload of its name. -/
theorem upload_overwrites_document {A : App α Scene} {dir doc : String} (hd : A.doc = some (dir, doc))
    (hf : dataFile (basename doc)) (hb : basename doc = doc) (sv : Server Scene) (content : String) :
    (A.serve sv (.upload doc content)).2.1.disk (join dir doc) = some content := by
  unfold App.serve
  rw [hd]
  dsimp only
  rw [if_pos hf, hb]
  simp [Disk.set]

example : dataFile (basename "scene.txt") ∧ basename "scene.txt" = "scene.txt" := by decide +kernel

end PV.Studio
