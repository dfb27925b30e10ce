import Verif.Lemmas.SceneLoads
import Mathlib.Tactic.NormNum
import Mathlib.Tactic.Positivity

/-!
Recorders of files that satisfy the schema and `Spec.FileReady` are accepted.
-/

namespace PV.SceneFile
open PV PV.Doc PV.Spec
variable {α : Type} [Field α] [LinearOrder α] [FloorRing α]
set_option linter.unusedSectionVars false

theorem prop_known {p : String} (h : p ∈ binnable) : ∃ q, propOf p = some q := by
  simp only [binnable, List.mem_cons, List.not_mem_nil, or_false] at h
  rcases h with rfl | rfl | rfl | rfl | rfl | rfl | rfl <;> exact ⟨_, rfl⟩

theorem axis_loads {p : String} {v : Yaml α} (h : AxisReady p v) : ∃ a, parseAxis p v = .ok a := by
  obtain ⟨hp, start, stop, bins, hv, hlt, hb⟩ := h
  obtain ⟨q, hq⟩ := prop_known hp
  cases v with
  | seq l =>
    unfold parseAxis
    rw [show (Yaml.seq l).list = .ok l from rfl]
    dsimp only
    rw [floats_iff.2 hv]
    dsimp only
    rw [hq]
    dsimp only
    rw [if_neg (not_not.2 hlt), if_neg (not_lt.2 hb)]
    exact ⟨_, rfl⟩
  | _ => simp [values?] at hv

theorem hist_loads {e : String × Yaml α} (h : HistogramReady e) : ∃ a, parseHist e.1 e.2 = .ok a := by
  unfold parseHist
  rcases h with ⟨hne, h⟩ | ⟨he, a, b, ra, rb, hv, h1, h2⟩
  · rw [if_neg hne]
    obtain ⟨x, hx⟩ := axis_loads h
    rw [hx]
    exact ⟨_, rfl⟩
  · rw [if_pos he, hv]
    obtain ⟨x, hx⟩ := axis_loads h1
    obtain ⟨y, hy⟩ := axis_loads h2
    simp only [Yaml.list, Yaml.string]
    rw [hx, hy]
    exact ⟨_, rfl⟩

theorem hists_load {d : List (String × Yaml α)} (h : ∀ e ∈ d, HistogramReady e) : ∃ l, parseHists d = .ok l := by
  induction d with
  | nil => exact ⟨[], rfl⟩
  | cons e d ih =>
    obtain ⟨p, v⟩ := e
    obtain ⟨a, ha⟩ := hist_loads (h (p, v) (by simp))
    obtain ⟨l, hl⟩ := ih (fun e he => h e (by simp [he]))
    unfold parseHists
    dsimp only at ha
    rw [ha]
    dsimp only
    rw [hl]
    exact ⟨_, rfl⟩

theorem array_numbers {v : Yaml α} (h : Schema.array Schema.number 3 (some 3) v = true) :
    ∃ x y z, values? v = some [x, y, z] := by
  cases v with
  | seq l =>
    simp only [Schema.array, Bool.and_eq_true, List.all_eq_true, decide_eq_true_eq] at h
    obtain ⟨⟨hn, h1⟩, h2⟩ := h
    match l, h1, h2, hn with
    | [a, b, c], _, _, hn =>
      obtain ⟨x, hx⟩ := number_value (hn a (by simp))
      obtain ⟨y, hy⟩ := number_value (hn b (by simp))
      obtain ⟨z, hz⟩ := number_value (hn c (by simp))
      exact ⟨x, y, z, by simp [values?, hx, hy, hz]⟩
  | _ => simp [Schema.array] at h

theorem event_known {v : Yaml α}
    (h : Schema.enum ["entering", "escaping", "reflected", "lost", "reacted", "killed", "exit"] v = true) :
    ∃ s e, v = .str s ∧ eventOf s = some e := by
  cases v with
  | str s =>
    simp only [Schema.enum, List.contains_iff_mem, List.mem_cons, List.not_mem_nil, or_false] at h
    refine ⟨s, ?_⟩
    rcases h with rfl | rfl | rfl | rfl | rfl | rfl | rfl <;> exact ⟨_, rfl, rfl⟩
  | _ => simp [Schema.enum] at h

theorem recorder_loads {names : List String} {k : String} {v : Yaml α} (hs : Schema.recorder v = true)
    (hr : RecorderReady names v) : ∃ r, parseRecorder names k v = .ok r := by
  obtain ⟨d, rfl, hreq, hp⟩ := object_spec hs
  obtain ⟨wn, hn⟩ := hreq "node" (by simp)
  obtain ⟨we, he⟩ := hreq "event" (by simp)
  obtain ⟨n, rfl⟩ := string_value (hp _ wn hn _ rfl)
  obtain ⟨s, ev, rfl, hev⟩ := event_known (hp _ we he _ rfl)
  have hmem := hr.node n ((under_map d _).trans hn)
  obtain ⟨es, hs, hes, hhs⟩ : ∃ es hs, histEntries d = .ok es ∧ parseHists es = .ok hs := by
    unfold histEntries
    cases hl : d.lookup "histograms" with
    | none => exact ⟨[], [], rfl, rfl⟩
    | some w =>
      have hw := hp _ w hl _ rfl
      cases w with
      | map hd =>
        obtain ⟨l, hl'⟩ := hists_load (hr.histograms hd ((under_map d _).trans hl))
        dsimp only
        cases ht : truth (Yaml.map hd) with
        | true => rw [if_pos rfl]; exact ⟨hd, l, rfl, hl'⟩
        | false => rw [if_neg (by simp)]; exact ⟨[], [], rfl, rfl⟩
      | _ => simp at hw
  obtain ⟨f, hf⟩ : ∃ f, parseFacet d = .ok f := by
    unfold parseFacet
    cases hl : d.lookup "facet" with
    | none => exact ⟨_, rfl⟩
    | some w =>
      obtain ⟨x, y, z, hv⟩ := array_numbers (hp _ w hl _ rfl)
      cases w with
      | seq l =>
        dsimp only
        rw [show (Yaml.seq l).list = .ok l from rfl]
        dsimp only
        rw [floats_iff.2 hv]
        exact ⟨_, rfl⟩
      | _ => simp [values?] at hv
  obtain ⟨a, ha⟩ : ∃ a, parseAtol d = .ok a := by
    unfold parseAtol
    cases hl : d.lookup "atol" with
    | none => exact ⟨_, rfl⟩
    | some w =>
      obtain ⟨q, hq⟩ := number_value (hp _ w hl _ rfl)
      exact ⟨q, number_iff.2 hq⟩
  unfold parseRecorder
  rw [show (Yaml.map d).dict = .ok d from rfl]
  dsimp only
  rw [dget_iff.2 hn]
  dsimp only
  rw [show (Yaml.str n : Yaml α).string = .ok n from rfl]
  dsimp only
  rw [if_neg (not_not.2 hmem), hes]
  dsimp only
  rw [hhs]
  dsimp only
  rw [dget_iff.2 he]
  dsimp only
  rw [show (Yaml.str s : Yaml α).string = .ok s from rfl]
  dsimp only
  rw [hf]
  dsimp only
  rw [ha]
  dsimp only
  rw [hev]
  exact ⟨_, rfl⟩

/-- Recorders that can be parsed, all of them. -/
def Parsable (names : List String) (recs : List (String × Yaml α)) : Prop :=
  ∀ e ∈ recs, ∃ r, parseRecorder names e.1 e.2 = .ok r

theorem recorders_load {names : List String} {recs : List (String × Yaml α)} (h : Parsable names recs) :
    ∃ R, parseRecorders names recs = .ok R := by
  induction recs with
  | nil => exact ⟨[], rfl⟩
  | cons e recs ih =>
    obtain ⟨k, v⟩ := e
    obtain ⟨r, hr⟩ := h (k, v) (by simp)
    obtain ⟨R, hR⟩ := ih (fun e he => h e (by simp [he]))
    unfold parseRecorders
    dsimp only at hr
    rw [hr]
    dsimp only
    rw [hR]
    exact ⟨_, rfl⟩

theorem addDefaults_parsable {names : List String} {recs rs : List (String × Yaml α)} (h : Parsable names recs)
    (h' : Parsable names rs) : Parsable names (addDefaults recs rs) := by
  induction rs generalizing recs with
  | nil => exact h
  | cons r rs ih =>
    unfold addDefaults
    refine ih ?_ (fun e he => h' e (by simp [he]))
    unfold dsetdefault
    split
    · exact h
    · intro e he
      rcases List.mem_append.1 he with he | he
      · exact h e he
      · simp only [List.mem_singleton] at he
        subst he
        exact h' r (by simp)

theorem values_nums (l : List α) : values? (nums l) = some l := by
  unfold nums values?
  induction l with
  | nil => rfl
  | cons q l ih => simp only [List.map_cons, List.mapM_cons, ih]; rfl

theorem wavelength_axis [IsStrictOrderedRing α] : AxisReady "wavelength" (wavelengthSpec : Yaml α) :=
  ⟨by simp [binnable], 300, 1000, 100, values_nums _, by norm_num, by norm_num⟩

theorem angle_axis [IsStrictOrderedRing α] : AxisReady "angle" (angleSpec : Yaml α) :=
  ⟨by simp [binnable], 0, 1.5708, 18, values_nums _, by norm_num, by norm_num⟩

theorem axisName_known (i : ℕ) : axisName i ∈ binnable := by
  match i with
  | 0 => decide
  | 1 => decide
  | _ + 2 => simp [axisName, binnable]

theorem face_axis [IsStrictOrderedRing α] {i : ℕ} {s : α} (hs : 0 < s) :
    AxisReady (axisName i) (nums [-(s / 2), s / 2, (faceBins s : α)]) := by
  refine ⟨axisName_known i, _, _, _, values_nums _, by linarith, ?_⟩
  have : (1 : ℤ) ≤ faceBins s := by unfold faceBins; omega
  exact_mod_cast this

/-- A recorder entry as the automatic recorders write it. -/
theorem auto_parses {names : List String} {k node event : String} {ev : Selector} {facet : List (String × Yaml α)}
    {hists : List (String × Yaml α)} (hn : node ∈ names) (he : eventOf event = some ev)
    (hf : facet = [] ∨ ∃ x y z, facet = [("facet", nums [x, y, z])]) (hh : ∀ e ∈ hists, HistogramReady e) :
    ∃ r, parseRecorder names k (.map ([("node", .str node), ("event", .str event)] ++ facet ++
      [("histograms", .map hists)])) = .ok r := by
  obtain ⟨l, hl⟩ := hists_load hh
  have key : ∀ d : List (String × Yaml α), d.lookup "node" = some (.str node) → d.lookup "event" = some (.str event) →
      d.lookup "histograms" = some (.map hists) → d.lookup "atol" = none →
      (∃ f, parseFacet d = .ok f) → ∃ r, parseRecorder names k (.map d) = .ok r := by
    intro d h1 h2 h3 h4 ⟨f, h5⟩
    obtain ⟨es, hs, hes, hhs⟩ : ∃ es hs, histEntries d = .ok es ∧ parseHists es = .ok hs := by
      unfold histEntries
      rw [h3]
      dsimp only
      cases ht : truth (Yaml.map hists) with
      | true => rw [if_pos rfl]; exact ⟨hists, l, rfl, hl⟩
      | false => rw [if_neg (by simp)]; exact ⟨[], [], rfl, rfl⟩
    have ha : parseAtol d = .ok 1e-6 := by unfold parseAtol; rw [h4]
    unfold parseRecorder
    rw [show (Yaml.map d).dict = .ok d from rfl]
    dsimp only
    rw [dget_iff.2 h1]
    dsimp only
    rw [show (Yaml.str node : Yaml α).string = .ok node from rfl]
    dsimp only
    rw [if_neg (not_not.2 hn), hes]
    dsimp only
    rw [hhs]
    dsimp only
    rw [dget_iff.2 h2]
    dsimp only
    rw [show (Yaml.str event : Yaml α).string = .ok event from rfl]
    dsimp only
    rw [h5]
    dsimp only
    rw [ha]
    dsimp only
    rw [he]
    exact ⟨_, rfl⟩
  rcases hf with rfl | ⟨x, y, z, rfl⟩
  · exact key _ rfl rfl rfl rfl ⟨none, rfl⟩
  · exact key _ rfl rfl rfl rfl ⟨some ⟨x, y, z⟩, rfl⟩

theorem lost_parses [IsStrictOrderedRing α] {names : List String} {node : String} (hn : node ∈ names) :
    ∃ r, parseRecorder names (lostRecorder (α := α) node).1 (lostRecorder (α := α) node).2 = .ok r :=
  auto_parses (event := "lost") (facet := []) (hists := [("wavelength", wavelengthSpec)]) hn rfl (Or.inl rfl) (by
    intro e he
    simp only [List.mem_singleton] at he
    subst he
    exact Or.inl ⟨by simp, wavelength_axis⟩)

theorem escaping_parses [IsStrictOrderedRing α] {names : List String} {node : String} (hn : node ∈ names) :
    ∃ r, parseRecorder names (escapingRecorder (α := α) node).1 (escapingRecorder (α := α) node).2 = .ok r :=
  auto_parses (event := "escaping") (facet := []) (hists := [("wavelength", wavelengthSpec), ("angle", angleSpec)])
    hn rfl (Or.inl rfl) (by
    intro e he
    simp only [List.mem_cons, List.not_mem_nil, or_false] at he
    rcases he with rfl | rfl
    · exact Or.inl ⟨by simp, wavelength_axis⟩
    · exact Or.inl ⟨by simp, angle_axis⟩)

theorem faceAxes_lt (f : ℤ × ℤ × ℤ) : (faceAxes f).1 < 3 ∧ (faceAxes f).2 < 3 := by
  unfold faceAxes
  dsimp only
  split_ifs <;> simp

theorem face_parses [IsStrictOrderedRing α] {names : List String} {node : String} (hn : node ∈ names) {x y z : α}
    (hx : 0 < x) (hy : 0 < y) (hz : 0 < z) (f : String × (ℤ × ℤ × ℤ)) :
    ∃ e, faceRecorder node [x, y, z] f = .ok e ∧ ∃ r, parseRecorder names e.1 e.2 = .ok r := by
  obtain ⟨h1, h2⟩ := faceAxes_lt f.2
  have hall : ∀ i < 3, ∃ s, [x, y, z][i]? = some s ∧ 0 < s := by
    intro i hi
    match i, hi with
    | 0, _ => exact ⟨x, rfl, hx⟩
    | 1, _ => exact ⟨y, rfl, hy⟩
    | 2, _ => exact ⟨z, rfl, hz⟩
  obtain ⟨su, hu, hup⟩ := hall _ h1
  obtain ⟨sv, hv, hvp⟩ := hall _ h2
  have hpair : pairAt [x, y, z] ((faceAxes f.2).1, (faceAxes f.2).2) = some (su, sv) := by
    unfold pairAt
    dsimp only
    rw [hu, hv]
  unfold faceRecorder
  dsimp only
  rw [hpair]
  dsimp only
  refine ⟨_, rfl, ?_⟩
  exact auto_parses (event := "escaping")
    (facet := [("facet", nums [(f.2.1 : α), (f.2.2.1 : α), (f.2.2.2 : α)])])
    (hists := [("wavelength", wavelengthSpec), ("angle", angleSpec),
        ("position", .seq [.str (axisName (faceAxes f.2).1), .str (axisName (faceAxes f.2).2),
          nums [-(su / 2), su / 2, (faceBins su : α)],
          nums [-(sv / 2), sv / 2, (faceBins sv : α)]])]) hn rfl (Or.inr ⟨_, _, _, rfl⟩) (by
    intro e he
    simp only [List.mem_cons, List.not_mem_nil, or_false] at he
    rcases he with rfl | rfl | rfl
    · exact Or.inl ⟨by simp, wavelength_axis⟩
    · exact Or.inl ⟨by simp, angle_axis⟩
    · exact Or.inr ⟨rfl, _, _, _, _, rfl, face_axis hup, face_axis hvp⟩)

theorem faces_parse [IsStrictOrderedRing α] {names : List String} {node : String} (hn : node ∈ names) {x y z : α}
    (hx : 0 < x) (hy : 0 < y) (hz : 0 < z) (fs : List (String × (ℤ × ℤ × ℤ))) :
    ∃ rs, faceRecorders node [x, y, z] fs = .ok rs ∧ Parsable names rs := by
  induction fs with
  | nil => exact ⟨[], rfl, by intro e he; cases he⟩
  | cons f fs ih =>
    obtain ⟨rs, hrs, hp⟩ := ih
    obtain ⟨e, he, hr⟩ := face_parses hn hx hy hz f
    refine ⟨e :: rs, ?_, ?_⟩
    · unfold faceRecorders
      rw [he]
      dsimp only
      rw [hrs]
    · intro e' he'
      rcases List.mem_cons.1 he' with rfl | he'
      · exact hr
      · exact hp e' he'

theorem auto_loads [IsStrictOrderedRing α] {F : Files α} {names cs : List String} {node : String} (hn : node ∈ names)
    {d : List (String × Yaml α)} (hs : Schema.node (.map d) = true) (hr : NodeReady F cs (.map d))
    (hpos : ∀ x y z, (under ["box", "size"] (.map d)).bind values? = some [x, y, z] → 0 < x ∧ 0 < y ∧ 0 < z) :
    ∃ rs, autoRecorders node d = .ok rs ∧ Parsable names rs := by
  simp only [Schema.node, Schema.both, Bool.and_eq_true] at hs
  obtain ⟨d', hd, -, hp⟩ := object_spec hs.1
  injection hd with hd
  subst hd
  unfold autoRecorders
  cases hb : d.lookup "box" with
  | none =>
    refine ⟨_, rfl, ?_⟩
    intro e he
    simp only [List.mem_cons, List.not_mem_nil, or_false] at he
    rcases he with rfl | rfl
    · exact lost_parses hn
    · exact escaping_parses hn
  | some w =>
    obtain ⟨g, rfl, hreq, -⟩ := object_spec (hp _ w hb _ rfl)
    obtain ⟨sz, hsz⟩ := hreq "size" (by simp)
    have hu : under ["box", "size"] (.map d) = some sz := by
      rw [under_cons_some ((under_map d _).trans hb)]; exact (under_map g _).trans hsz
    obtain ⟨x, y, z, hv⟩ := hr.size sz hu
    obtain ⟨hx, hy, hz⟩ := hpos x y z (by rw [hu]; exact hv)
    obtain ⟨rs, hrs, hpr⟩ := faces_parse (α := α) (names := names) hn hx hy hz faces
    cases sz with
    | seq l =>
      refine ⟨lostRecorder node :: rs, ?_, ?_⟩
      · dsimp only
        rw [show getIn (Yaml.map g) "size" = .ok (some (.seq l)) by unfold getIn; simp only [Yaml.dict]; rw [hsz]]
        dsimp only
        rw [show (Yaml.seq l).list = .ok l from rfl]
        dsimp only
        rw [floats_iff.2 hv]
        dsimp only
        rw [hrs]
      · intro e he
        rcases List.mem_cons.1 he with rfl | he
        · exact lost_parses hn
        · exact hpr e he
    | _ => simp [values?] at hv

theorem withAuto_loads [IsStrictOrderedRing α] {F : Files α} {names cs : List String} {l : List (String × Yaml α)}
    (hn : ∀ e ∈ l, e.1 ∈ names) (hs : ∀ e ∈ l, Schema.node e.2 = true) (hr : ∀ e ∈ l, NodeReady F cs e.2)
    (hpos : ∀ e ∈ l, under ["record"] e.2 = some (.bool true) →
      ∀ x y z, (under ["box", "size"] e.2).bind values? = some [x, y, z] → 0 < x ∧ 0 < y ∧ 0 < z)
    {recs : List (String × Yaml α)} (h : Parsable names recs) :
    ∃ recs', withAuto recs l = .ok recs' ∧ Parsable names recs' := by
  induction l generalizing recs with
  | nil => exact ⟨recs, rfl, h⟩
  | cons e l ih =>
    obtain ⟨k, v⟩ := e
    have hv := hs (k, v) (by simp)
    have hrv := hr (k, v) (by simp)
    have hpv := hpos (k, v) (by simp)
    dsimp only at hv hrv hpv
    have hv' := hv
    simp only [Schema.node, Schema.both, Bool.and_eq_true] at hv'
    obtain ⟨d, rfl, -, hp⟩ := object_spec hv'.1
    have ih' := fun recs h => ih (recs := recs) (fun e he => hn e (by simp [he])) (fun e he => hs e (by simp [he]))
      (fun e he => hr e (by simp [he])) (fun e he => hpos e (by simp [he])) h
    unfold withAuto
    rw [show (Yaml.map d).dict = .ok d from rfl]
    dsimp only
    cases ht : truth ((d.lookup "record").getD .null) with
    | false => rw [if_neg (by simp)]; exact ih' recs h
    | true =>
      rw [if_pos rfl]
      have hrec : d.lookup "record" = some (.bool true) := by
        cases hl : d.lookup "record" with
        | none => rw [hl] at ht; cases ht
        | some w =>
          have hb := hp _ w hl _ rfl
          cases w <;> simp [Schema.boolean] at hb
          rw [hl] at ht
          simp only [Option.getD_some, truth] at ht
          rw [ht]
      obtain ⟨rs, hrs, hpr⟩ := auto_loads (names := names) (hn (k, .map d) (by simp)) hv hrv
        (hpv ((under_map d _).trans hrec))
      dsimp only at hrs
      rw [hrs]
      exact ih' _ (addDefaults_parsable h hpr)

end PV.SceneFile
