import Verif.Props.StudioFiles

/-!
C97: uploads and the scene in the studio.
-/

namespace PV.Studio
open PV PV.Doc
variable {α Scene : Type} [Field α] [LinearOrder α] [FloorRing α]

/-- The upload goes to a file the document in the studio names. -/
def App.Touches (A : App α Scene) (reads : String → List String) (sv : Server Scene) : FileRequest α → Prop
  | .upload name _ => ∃ dir doc, A.doc = some (dir, doc) ∧ ∃ f ∈ reads sv.st.document, join A.cwd f = join dir (basename name)
  | _ => False

theorem upload_current {A : App α Scene} {reads : String → List String} (hL : A.Local A.cwd reads) {sv : Server Scene}
    {name content : String} (hn : ¬ A.Touches reads sv (.upload name content : FileRequest α)) (h : A.Current sv) :
    A.Current (A.serve sv (.upload name content)).2.1 := by
  rcases serve_upload (A := A) (sv := sv) (name := name) (content := content) with ⟨dir, doc, hd, _, e⟩ | ⟨e, -⟩
  · rw [e]
    obtain ⟨s, hs, hp⟩ := h
    refine ⟨s, hs, ?_⟩
    rw [← hp]
    refine hL.parse _ _ _ fun f hf => ?_
    simp only [seenFrom, Disk.set]
    rw [if_neg fun e => hn ⟨dir, doc, hd, f, hf, e⟩]
  · rw [e]
    exact h

/-- No request of the sequence uploads to a file that the document names at that time. -/
def App.Untouched (A : App α Scene) (reads : String → List String) : Server Scene → List (FileRequest α) → Prop
  | _, [] => True
  | sv, r :: rs => ¬ A.Touches reads sv r ∧ A.Untouched reads (A.serve sv r).2.1 rs

/-- **C97**, meaning. After an accepted edit the scene in the studio is the one the document describes with the files as they are, through
any further requests that do not upload a file the document names. -/
theorem stays_current_partial {A : App α Scene} {reads : String → List String} (hL : A.Local A.cwd reads) (hA : A.FreshTemp)
    (sv : Server Scene) (hf : sv.disk.Finite) {r : FileRequest α} (hr : ¬ r.uploads ∧ ¬ r.saves) (ha : (A.serve sv r).2.2 = none)
    (rs : List (FileRequest α)) (hu : A.Untouched reads (A.serve sv r).2.1 rs) : A.Current (A.serveAll sv (r :: rs)) := by
  have key : ∀ (rs : List (FileRequest α)) (sv : Server Scene), sv.disk.Finite → A.Untouched reads sv rs → A.Current sv →
      A.Current (A.serveAll sv rs) := by
    intro rs
    induction rs with
    | nil => intro sv _ _ h; exact h
    | cons r rs ih =>
      intro sv hf hu h
      refine ih _ (serve_finite hA hf r) hu.2 ?_
      by_cases hr : r.uploads
      · cases r with
        | upload name content => exact upload_current hL hu.1 h
        | put _ => exact hr.elim
        | patch _ => exact hr.elim
        | save => exact hr.elim
      · exact serve_current hL hA hf hr (.inr h)
  exact key rs _ (serve_finite hA hf r) hu (serve_current hL hA hf hr.1 (.inl ⟨ha, hr.2⟩))

/-- **C97** (violated). An upload that replaces a file the document names, so that the document now describes another scene, leaves the
studio with the old scene, and so do any number of saves after it: runs go on with the old spectrum. -/
theorem upload_stale {A : App α Scene} {reads : String → List String} (hL : A.Local A.cwd reads) {dir doc : String}
    (hd : A.doc = some (dir, doc)) {sv : Server Scene} {s s' : Scene} (hs : sv.st.scene = some s) {name content : String}
    (hn : dataFile (basename name) = true)
    (hp : (A.backend (seenFrom (sv.disk.set (join dir (basename name)) content) A.cwd)).parse sv.st.document = .ok s') (hne : s ≠ s') (k : ℕ) :
    (A.serveAll sv (.upload name content :: List.replicate k (.save : FileRequest α))).st.scene = some s ∧
      ¬ A.Current (A.serveAll sv (.upload name content :: List.replicate k (.save : FileRequest α))) := by
  have key : ∀ (k : ℕ) (sv : Server Scene), sv.st.scene = some s → (A.backend (seenFrom sv.disk A.cwd)).parse sv.st.document = .ok s' →
      (A.serveAll sv (List.replicate k (.save : FileRequest α))).st.scene = some s ∧
        ¬ A.Current (A.serveAll sv (List.replicate k (.save : FileRequest α))) := by
    intro k
    induction k with
    | zero =>
      intro sv hs hp
      refine ⟨hs, ?_⟩
      rintro ⟨t, ht, hp'⟩
      have ht : sv.st.scene = some t := ht
      have hp' : (A.backend (seenFrom sv.disk A.cwd)).parse sv.st.document = .ok t := hp'
      rw [hs] at ht
      rw [hp] at hp'
      cases ht
      cases hp'
      exact hne rfl
    | succ k ih =>
      intro sv hs hp
      have e : (A.serve sv (.save : FileRequest α)).2.1 = { sv with disk := sv.disk.set (join dir doc) sv.st.document } := by
        unfold App.serve
        rw [hd]
      rw [List.replicate_succ]
      show (A.serveAll (A.serve sv (.save : FileRequest α)).2.1 _).st.scene = some s ∧ ¬ A.Current (A.serveAll (A.serve sv .save).2.1 _)
      rw [e]
      refine ih _ hs ?_
      dsimp only
      rw [← hp]
      refine hL.parse _ _ _ fun f hf => ?_
      simp only [seenFrom, Disk.set]
      rw [if_neg]
      intro e
      refine hL.document _ f hf ?_
      rw [App.docPath, hd, e]
      rfl
  have e : (A.serve sv (.upload name content : FileRequest α)).2.1 = { sv with disk := sv.disk.set (join dir (basename name)) content } := by
    unfold App.serve
    rw [hd]
    dsimp only
    rw [if_pos hn]
  show (A.serveAll (A.serve sv (.upload name content : FileRequest α)).2.1 _).st.scene = some s ∧
    ¬ A.Current (A.serveAll (A.serve sv (.upload name content)).2.1 _)
  rw [e]
  exact key k _ hs hp

/-! ### The hypotheses are met -/

/-- A parser for which the scene is what the file `dye.csv` holds. -/
def plainBackend (see : String → Option String) : Backend ℚ String String where
  load _ := .ok []
  dump _ := ""
  parse _ := match see "dye.csv" with
    | none => .error .key
    | some c => .ok c
  payload _ := .ok ()
  localOf _ _ _ := .error .key
  recorders _ := []

theorem plain_parse {see : String → Option String} {c : String} (h : see "dye.csv" = some c) (text : String) :
    (plainBackend see).parse text = .ok c := by
  unfold plainBackend
  dsimp only
  rw [h]

/-- A server for `scene.yml` in `/scenes`, started there. -/
noncomputable def plainApp : App ℚ String where
  cwd := "/scenes"
  doc := some ("/scenes", "scene.yml")
  mapping _ := .ok ()
  temp := (demoApp "/scenes").temp
  backend := plainBackend

theorem plain_local : plainApp.Local "/scenes" fun _ => ["dye.csv"] where
  parse see see' text h := by
    show (plainBackend see).parse text = (plainBackend see').parse text
    unfold plainBackend
    dsimp only
    rw [h _ (by simp)]
  document text f hf := by
    simp only [List.mem_singleton] at hf
    subst hf
    show some (join "/scenes" "scene.yml") ≠ some (join "/scenes" "dye.csv")
    decide +kernel
  temp text f hf d := by
    simp only [List.mem_singleton] at hf
    subst hf
    exact dye_not_temp "/scenes" d

/-- The server with the scene made from the spectrum `1,2`. -/
def plainServer : Server String := ⟨dyedDisk "/scenes", ⟨"doc", some "1,2"⟩⟩

theorem plain_current : plainApp.Current plainServer := by
  refine ⟨"1,2", rfl, ?_⟩
  show (plainBackend (seenFrom (dyedDisk "/scenes") "/scenes")).parse "doc" = .ok "1,2"
  unfold plainBackend seenFrom
  have : dyedDisk "/scenes" (join "/scenes" "dye.csv") = some "1,2" := by decide +kernel
  dsimp only
  rw [this]

example : plainApp.Current plainServer ∧
    (plainApp.serveAll plainServer [.upload "/tmp/dye.csv" "3,4", .save]).st.scene = some "1,2" ∧
    ¬ plainApp.Current (plainApp.serveAll plainServer [.upload "/tmp/dye.csv" "3,4", .save]) := by
  refine ⟨plain_current, upload_stale plain_local (dir := "/scenes") (doc := "scene.yml") rfl (s := "1,2") (s' := "3,4") rfl (by decide +kernel) ?_ (by decide) 1⟩
  refine plain_parse (see := seenFrom ((dyedDisk "/scenes").set (join "/scenes" (basename "/tmp/dye.csv")) "3,4") "/scenes") ?_ "doc"
  show (dyedDisk "/scenes").set (join "/scenes" (basename "/tmp/dye.csv")) "3,4" (join "/scenes" "dye.csv") = some "3,4"
  decide +kernel

example : plainApp.FreshTemp ∧ (plainApp.serve plainServer (.put "doc")).2.2 = none ∧
    plainApp.Untouched (fun _ => ["dye.csv"]) (plainApp.serve plainServer (.put "doc")).2.1 [.upload "other.csv" "5,6", .save] := by
  refine ⟨demo_fresh "/scenes", ?_, ?_, ?_, trivial⟩
  · have hp : (plainBackend (seenFrom (plainServer.disk.set (join plainApp.cwd (plainApp.temp plainServer.disk)) "doc")
        plainApp.cwd)).parse "doc" = .ok "1,2" := by
      refine plain_parse ?_ "doc"
      have h1 : dyedDisk "/scenes" (join "/scenes" "dye.csv") = some "1,2" := by decide +kernel
      rw [← h1]
      exact if_neg (dye_not_temp "/scenes" _)
    show (Studio.apply (plainBackend _) ⟨"doc", some "1,2"⟩ "doc").2 = none
    unfold Studio.apply
    rw [hp]
    rfl
  · rintro ⟨dir, doc, hd, f, hf, e⟩
    cases hd
    simp only [List.mem_singleton] at hf
    subst hf
    exact absurd e (by decide +kernel)
  · exact fun h => h

end PV.Studio
