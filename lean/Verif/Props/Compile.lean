import Verif.Lemmas.CompileNames
import Verif.Props.EventLog

/-!
C75, C76: the flat tables of the engine, `/repo/pvtrace/engine/compiler.py`.
-/

namespace PV.Compile
noncomputable section
open Spec
set_option linter.unusedSectionVars false
variable {σ : Type} {n : ℕ}

/-! ### C75 -/

theorem logged_map {ρ ρ' : Type} (f : ρ → ρ') (l : List (Effect ℝ ρ)) :
    loggedRows (l.map (Effect.map f)) = (loggedRows l).map f := by
  unfold loggedRows writesOf
  induction l with
  | nil => rfl
  | cons a l ih =>
    cases a <;> simp_all [List.filterMap_cons, Effect.map]

theorem event_tables {T : Tables} {S : LScene n} {cs : List PyComp} {os : List LNode}
    (L : Linked T os cs) (hos : os = (List.finRange (n + 1)).map S.node) (src : Option String)
    {a : Row ℝ ℕ ℕ} {b : Row ℝ (Fin (n + 1)) Comp}
    (h : a.map id (compAt cs) = b.map Fin.val id) :
    eventOf T.names src a = eventOf (PV.Library.names S) src b := by
  let M : KNames ℕ Comp := ⟨T.names.node, Comp.name⟩
  have hc : ∀ j, T.names.component j = (compAt cs j).name := by
    intro j
    show T.compNames.getD j "" = _
    rw [L.compNames, List.getD_eq_getElem?_getD, List.getElem?_map]
    unfold compAt
    cases cs[j]? <;> rfl
  have hn : ∀ v : Fin (n + 1), T.names.node v.1 = (S.node v).name := by
    intro v
    show T.nodes.names.getD v.1 "" = _
    rw [L.names]
    exact map_getD (node_get hos v) ""
  have h1 : eventOf T.names src a = eventOf M src (a.map id (compAt cs)) := by
    have : T.names.component = fun j => (compAt cs j).name := funext hc
    simp only [eventOf, Row.map, KRay.mapC, Option.map_map, M, this, Function.comp_def, id,
      Option.map_id', Option.map_id]
  have h2 : eventOf (PV.Library.names S) src b = eventOf M src (b.map Fin.val id) := by
    simp only [eventOf, Row.map, KRay.mapC, Option.map_map, M, hn, Function.comp_def, id,
      Option.map_id', Option.map_id, PV.Library.names]
  rw [h1, h2, h]

theorem map_of_map {A B C D : Type} {p : A → C} {q : B → C} {f : A → D} {g : B → D} :
    ∀ {l : List A} {k : List B}, l.map p = k.map q → (∀ x y, p x = q y → f x = g y) →
      l.map f = k.map g := by
  intro l
  induction l with
  | nil => intro k h _; cases k with
    | nil => rfl
    | cons y k => cases h
  | cons x l ih =>
    intro k h hf
    cases k with
    | nil => cases h
    | cons y k =>
      simp only [List.map_cons, List.cons.injEq] at h ⊢
      exact ⟨hf x y h.1, ih h.2 hf⟩

theorem launch_empty {κ κ' : Type} (g : κ → κ') (bundle : List (Launch ℝ Empty σ)) :
    (bundle.map (Launch.mapC (Empty.elim : Empty → κ))).map (Launch.mapC g) =
      bundle.map (Launch.mapC (Empty.elim : Empty → κ')) := by
  rw [List.map_map]
  congr 1
  funext l
  simp only [Function.comp, Launch.mapC, KRay.mapC, Option.map_map]
  congr 3
  funext x
  exact x.elim

/-- **C75.** Let the engine accept a scene. Then for every bundle of rays, every random stream, all
limits, all recorders and all schedules, the run on the flat tables and the run on the objects of the
scene give the same histories and the same recorder counts, sums and bins. -/
theorem same_run {scene : List PyNode} {T : Tables} {S : LScene n} (h : compileScene scene = .ok T)
    (hd : Describes scene S) (hb : Built scene) (R : Rand σ) (method : EmitMethod)
    (recs : RecTables ℝ (Fin (n + 1))) (maxsteps maxEvents recordEvery : ℕ)
    (bundle : List (Launch ℝ Empty σ)) (sources : List (Option String))
    (hs : sources.length = bundle.length) (threads threads' : ℕ)
    (es : List (Tagged ℝ (Row ℝ ℕ ℕ))) (es' : List (Tagged ℝ (Row ℝ (Fin (n + 1)) Comp)))
    (he : Execution bundle.length threads (kRay (T.ops R method) (recs.map Fin.val) maxsteps maxEvents
      recordEvery (bundle.map (Launch.mapC Empty.elim))) es)
    (he' : Execution bundle.length threads' (kRay (kOps S R method) recs maxsteps maxEvents
      recordEvery (bundle.map (Launch.mapC Empty.elim))) es') :
    histories T.names (Mem.exec es) recordEvery maxEvents sources =
      histories (PV.Library.names S) (Mem.exec es') recordEvery maxEvents sources ∧
    (Mem.exec es).merged threads = (Mem.exec es').merged threads' := by
  obtain ⟨os, ho, -, L⟩ := compile_linked h
  have hos := describes_nodes hd ho
  have H := linked_names L hos (built_filled hb) R method
  have hray := kRay_names H recs maxsteps maxEvents recordEvery
    (bundle.map (Launch.mapC (Empty.elim : Empty → ℕ)))
  rw [launch_empty] at hray
  constructor
  · rw [EventLog.histories_exact (T.ops R method) (recs.map Fin.val) T.names maxsteps maxEvents
      recordEvery (bundle.map (Launch.mapC Empty.elim)) sources (by simpa using hs) threads es (by simpa using he),
      EventLog.histories_exact (kOps S R method) recs (PV.Library.names S) maxsteps maxEvents
      recordEvery (bundle.map (Launch.mapC Empty.elim)) sources (by simpa using hs) threads' es' (by simpa using he')]
    congr 1
    simp only [List.length_map]
    apply List.map_congr_left
    intro j _
    have hj := congrArg loggedRows (hray (j * recordEvery))
    rw [onTables, onObjects, logged_map, logged_map] at hj
    exact map_of_map hj fun x y hxy => event_tables L hos _ hxy
  · have key : ∀ {M : Type} [AddCommMonoid M] (f : Effect ℝ (Row ℝ ℕ ℕ) → M)
        (f' : Effect ℝ (Row ℝ (Fin (n + 1)) Comp) → M) (f'' : Effect ℝ (Row ℝ ℕ Comp) → M),
        (∀ e, f e = f'' (onTables (compAt (pyComps (geometryNodes scene))) e)) →
        (∀ e, f' e = f'' (onObjects Fin.val e)) →
        (es.map fun e => f e.effect).sum = (es'.map fun e => f' e.effect).sum := by
      intro M _ f f' f'' hf hf'
      rw [PV.Execution.sum_eq he f, PV.Execution.sum_eq he' f']
      refine Finset.sum_congr rfl fun i _ => ?_
      have h1 : f = f'' ∘ onTables (compAt (pyComps (geometryNodes scene))) := funext hf
      have h2 : f' = f'' ∘ onObjects Fin.val := funext hf'
      rw [h1, h2, ← List.map_map, ← List.map_map, hray i]
    obtain ⟨a1, a2, a3, a4⟩ := merged_exec threads es he.tid_lt
    obtain ⟨b1, b2, b3, b4⟩ := merged_exec threads' es' he'.tid_lt
    have e1 : ((Mem.exec es).merged threads).distinct = ((Mem.exec es').merged threads').distinct := by
      rw [a1, b1]; funext k
      exact key (dDistinct k) (dDistinct k) (dDistinct k) (fun e => by cases e <;> rfl)
        (fun e => by cases e <;> rfl)
    have e2 : ((Mem.exec es).merged threads).cross = ((Mem.exec es').merged threads').cross := by
      rw [a2, b2]; funext k
      exact key (dCross k) (dCross k) (dCross k) (fun e => by cases e <;> rfl)
        (fun e => by cases e <;> rfl)
    have e3 : ((Mem.exec es).merged threads).sums = ((Mem.exec es').merged threads').sums := by
      rw [a3, b3]; funext k
      exact key (dSum k) (dSum k) (dSum k) (fun e => by cases e <;> rfl)
        (fun e => by cases e <;> rfl)
    have e4 : ((Mem.exec es).merged threads).bins = ((Mem.exec es').merged threads').bins := by
      rw [a4, b4]; funext k
      exact key (dBin k) (dBin k) (dBin k) (fun e => by cases e <;> rfl)
        (fun e => by cases e <;> rfl)
    generalize (Mem.exec es).merged threads = A at *
    generalize (Mem.exec es').merged threads' = B at *
    cases A; cases B
    simp_all

/-- **C75.** No read of the kernel leaves its table. -/
theorem in_bounds {scene : List PyNode} {T : Tables} (h : compileScene scene = .ok T) :
    (∀ v < T.nodes.geomType.length,
      v * 4 + 3 < T.nodes.geomParams.length ∧ v * 16 + 15 < T.nodes.l2w.length ∧
      v * 16 + 15 < T.nodes.w2l.length ∧ v < T.nodes.nidx.length ∧ v < T.nodes.surf.length ∧
      v < T.nodes.names.length ∧ v < T.nodes.compStart.length ∧ v < T.nodes.compCount.length ∧
      T.nodes.compStart.getD v 0 + T.nodes.compCount.getD v 0 ≤ T.compType.length) ∧
    (T.qy.length = T.compType.length ∧ T.tauRad.length = T.compType.length ∧
      T.tauNr.length = T.compType.length ∧ T.phaseType.length = T.compType.length ∧
      T.phaseParam.length = T.compType.length ∧ T.absStart.length = T.compType.length ∧
      T.absN.length = T.compType.length ∧ T.emsStart.length = T.compType.length ∧
      T.emsN.length = T.compType.length ∧ T.compNames.length = T.compType.length) ∧
    ∀ j < T.compType.length,
      T.absStart.getD j 0 + T.absN.getD j 0 ≤ T.absX.length ∧ T.absY.length = T.absX.length ∧
      T.emsStart.getD j 0 + T.emsN.getD j 0 ≤ T.emsX.length ∧ T.emsCdf.length = T.emsX.length := by
  obtain ⟨os, -, -, L⟩ := compile_linked h
  obtain ⟨st, hT, hev, hlen, -⟩ := L.rows
  have hct : T.compType.length = (pyComps (geometryNodes scene)).length := by
    rw [hT]; simpa [mkTables, rowInts] using hlen
  have hfm : (os.flatMap (·.comps)).length = (pyComps (geometryNodes scene)).length := by
    rw [← L.comps]; simp
  refine ⟨fun v hv => ?_, ?_, fun j hj => ?_⟩
  · rw [L.geomType, List.length_map] at hv
    have hg : os[v]? = some os[v] := List.getElem?_eq_getElem hv
    obtain ⟨a, h1, h2, -⟩ := starts_get os 0 v _ hg
    rw [L.geomParams, L.l2w, L.w2l, L.nidx, L.surf, L.names, L.compStart, L.compCount,
      flat_length _ 4 fun o => params_length _, flat_length _ 16 fun o => flat16 _,
      flat_length _ 16 fun o => flat16 _, startsOf_length]
    simp only [List.length_map]
    refine ⟨by omega, by omega, by omega, hv, hv, hv, hv, hv, ?_⟩
    rw [map_getD (f := fun o : LNode => o.comps.length) hg, List.getD_eq_getElem?_getD, h1, hct, ← hfm]
    simpa using h2
  · have hn : T.compNames.length = T.compType.length := by rw [L.compNames, hct]; simp
    rw [hT] at hn ⊢
    simp only [mkTables, rowInts, rowCol, List.length_map] at hn ⊢
    exact ⟨trivial, trivial, trivial, trivial, trivial, trivial, trivial, trivial, trivial, hn⟩
  · rw [hct] at hj
    have hr := L.row (List.getElem?_eq_getElem hj)
    refine ⟨hr.absFits, ?_, hr.emsFits, ?_⟩
    · rw [hT]; exact hev.1.symm
    · rw [hT]; exact hev.2.1.symm

/-! ### C76 -/

theorem comp_iff (st : CState) (c : PyComp) : (∃ st', compileComp st c = .ok st') ↔ CompOk c := by
  constructor
  · rintro ⟨st', h⟩
    unfold compileComp at h
    refine ⟨?_, ?_, ?_, ?_, ?_, ?_⟩
    · intro hk; rw [hk] at h; simp [kindTag] at h
    · intro hp
      rw [hp] at h
      cases hk : kindTag c.comp.kind <;> simp [hk, phaseTag, Phase.tag] at h
    · cases hc : c.hasDist with
      | true => rfl
      | false =>
        cases hk : kindTag c.comp.kind <;> cases hp : phaseTag c.comp.phase <;>
          simp [hk, hp, appendDist, hc] at h
    · intro D hist hd
      cases hist with
      | false => rfl
      | true =>
        cases hk : kindTag c.comp.kind <;> cases hp : phaseTag c.comp.phase <;>
          cases hc : c.hasDist <;> simp [hk, hp, appendDist, hc, hd] at h
    · intro y hd
      cases hh : c.constHist with
      | false => rfl
      | true =>
        cases hk : kindTag c.comp.kind <;> cases hp : phaseTag c.comp.phase <;>
          cases hc : c.hasDist <;> simp [hk, hp, appendDist, hc, hd, hh] at h
    · intro hl
      cases hd : c.comp.emsDist with
      | const y =>
        cases hp : phaseTag c.comp.phase <;> cases ha : appendDist c st.absX.length <;>
          simp [kindTag, hp, ha, appendEmission, hd, hl] at h
      | table D hist =>
        cases hist with
        | false => exact ⟨D, rfl⟩
        | true =>
          cases hp : phaseTag c.comp.phase <;> cases ha : appendDist c st.absX.length <;>
            simp [kindTag, hp, ha, appendEmission, hd, hl] at h
  · intro hk
    have h1 : ∃ t, kindTag c.comp.kind = .ok t := by
      have := hk.cls
      cases h : c.comp.kind <;> simp_all [kindTag]
    have h2 : ∃ t, phaseTag c.comp.phase = .ok t := by
      have := hk.phase
      cases h : c.comp.phase <;> simp_all [phaseTag, Phase.tag]
    have h3 : ∃ t, appendDist c st.absX.length = .ok t := by
      unfold appendDist
      rw [if_neg (not_not.2 hk.coefficient)]
      cases hd : c.comp.absDist with
      | const y => simp [hk.constant y hd]
      | table D hist => simp [hk.absorption D hist hd]
    have h4 : ∃ t, appendEmission c st.emsX.length = .ok t := by
      unfold appendEmission
      by_cases hl : c.comp.kind = .luminophore
      · obtain ⟨D, hD⟩ := hk.emission hl
        simp [hl, hD]
      · simp [hl]
    obtain ⟨t1, h1⟩ := h1
    obtain ⟨⟨p1, p2⟩, h2⟩ := h2
    obtain ⟨⟨a, b, x, y⟩, h3⟩ := h3
    obtain ⟨⟨a', b', x', y'⟩, h4⟩ := h4
    refine ⟨?_, ?_⟩
    rotate_left
    · unfold compileComp
      rw [h1]; dsimp only
      rw [h2]; dsimp only
      rw [h3]; dsimp only
      rw [h4]

theorem comps_iff : ∀ (cs : List PyComp) (st : CState),
    (∃ st', compileComps st cs = .ok st') ↔ ∀ c ∈ cs, CompOk c := by
  intro cs
  induction cs with
  | nil => intro st; exact ⟨fun _ => by simp, fun _ => ⟨st, rfl⟩⟩
  | cons c cs ih =>
    intro st
    unfold compileComps
    have hc := comp_iff st c
    cases h : compileComp st c with
    | error e =>
      rw [h] at hc
      constructor
      · rintro ⟨st', h'⟩; cases h'
      · intro hall
        obtain ⟨st', h'⟩ := hc.2 (hall c (by simp))
        cases h'
    | ok st1 =>
      rw [h] at hc
      dsimp only
      rw [ih st1]
      have hok := hc.1 ⟨_, rfl⟩
      simp [hok]

theorem node_iff (st : NState × CState) (name : String) (l2w : Affine ℝ) (g : PyGeom) :
    (∃ st', compileNode st name l2w g = .ok st') ↔ NodeOk l2w g := by
  constructor
  · rintro ⟨st', h⟩
    obtain ⟨o, m, ho, hm, hr, -, hc, -⟩ := compileNode_spec h
    refine ⟨?_, hr, m, hm, ?_, (comps_iff _ _).1 ⟨_, hc⟩⟩
    · unfold objectOf at ho
      cases hs : g.shape with
      | known geom => exact ⟨geom, rfl⟩
      | other => simp [hs] at ho
    · intro hd
      unfold objectOf at ho
      cases hs : g.shape <;> simp [hs, hm, hd] at ho
  · rintro ⟨⟨geom, hg⟩, hr, m, hm, hd, hc⟩
    obtain ⟨cst, hcst⟩ := (comps_iff m.comps st.2).2 hc
    have h1 : ∃ t, compileGeometry g.shape = .ok t := by
      rw [hg]; cases geom <;> exact ⟨_, rfl⟩
    have h2 : ∃ t, surfaceTag m.delegate = .ok t := by
      cases h : m.delegate with
      | custom => exact absurd h hd
      | fresnel => exact ⟨_, rfl⟩
      | null => exact ⟨_, rfl⟩
    obtain ⟨⟨gt, ps⟩, h1⟩ := h1
    obtain ⟨tag, h2⟩ := h2
    refine ⟨?_, ?_⟩
    rotate_left
    · unfold compileNode
      rw [h1]; dsimp only
      rw [if_neg (not_not.2 hr), hm]; dsimp only
      rw [h2]; dsimp only
      rw [hcst]

theorem nodes_iff : ∀ (xs : List (String × Affine ℝ × PyGeom)) (st : NState × CState),
    (∃ st', compileNodes st xs = .ok st') ↔ ∀ x ∈ xs, NodeOk x.2.1 x.2.2 := by
  intro xs
  induction xs with
  | nil => intro st; exact ⟨fun _ => by simp, fun _ => ⟨st, rfl⟩⟩
  | cons x xs ih =>
    intro st
    obtain ⟨name, l2w, g⟩ := x
    unfold compileNodes
    have hc := node_iff st name l2w g
    cases h : compileNode st name l2w g with
    | error e =>
      rw [h] at hc
      constructor
      · rintro ⟨st', h'⟩; cases h'
      · intro hall
        obtain ⟨st', h'⟩ := hc.2 (hall (name, l2w, g) (by simp))
        cases h'
    | ok st1 =>
      rw [h] at hc
      dsimp only
      rw [ih st1]
      have hok := hc.1 ⟨_, rfl⟩
      simp [hok]

/-- **C76.** A scene compiles exactly when its root and all its geometry nodes can be reproduced. -/
theorem compiles_iff (scene : List PyNode) : (∃ T, compileScene scene = .ok T) ↔ SceneOk scene := by
  have hroot : ∀ v g, scene.head? = some v → v.geometry = some g → geometryNodes scene ≠ [] := by
    intro v g h1 h2
    cases scene with
    | nil => cases h1
    | cons x xs =>
      cases h1
      simp [geometryNodes, h2]
  constructor
  · rintro ⟨T, h⟩
    unfold compileScene at h
    split_ifs at h with h1 h2
    refine ⟨?_, ?_⟩
    · cases hh : scene.head? with
      | none => simp [hh] at h2
      | some v =>
        cases hg : v.geometry with
        | none => simp [hh, hg] at h2
        | some g => exact ⟨v, g, rfl, hg⟩
    · cases hc : compileNodes ({}, {}) (geometryNodes scene) with
      | error e => rw [hc] at h; cases h
      | ok st => exact (nodes_iff _ _).1 ⟨st, hc⟩
  · rintro ⟨⟨v, g, h1, h2⟩, h3⟩
    obtain ⟨st, hc⟩ := (nodes_iff (geometryNodes scene) ({}, {})).2 h3
    unfold compileScene
    rw [if_neg (hroot v g h1 h2), if_neg (by simp [h1, h2]), hc]
    exact ⟨_, rfl⟩

/-- Number of nodes in the tables. -/
theorem table_nodes {scene : List PyNode} {T : Tables} (h : compileScene scene = .ok T) :
    T.nodes.geomType.length = (geometryNodes scene).length := by
  obtain ⟨os, ho, -, L⟩ := compile_linked h
  rw [L.geomType]
  have := congrArg List.length ho
  simpa using this.symm

/-- **C76.** The engine traces a scene exactly when every part can be reproduced and there are at
most 128 geometry nodes. -/
theorem accepts_iff (scene : List PyNode) : (∃ T, engineAccepts scene = .ok T) ↔
    SceneOk scene ∧ (geometryNodes scene).length ≤ 128 := by
  rw [← compiles_iff]
  unfold engineAccepts
  cases h : compileScene scene with
  | error e => simp
  | ok T =>
    dsimp only
    rw [table_nodes h]
    by_cases hl : (geometryNodes scene).length > 128
    · simp [hl, Nat.not_le.2 hl]
    · simp [hl, Nat.not_lt.1 hl]

/-- Every component has a coefficient that is a float, an array or a list of functions. -/
def Coefficients (scene : List PyNode) : Prop :=
  ∀ x ∈ geometryNodes scene, ∀ m, x.2.2.material = some m → ∀ c ∈ m.comps, c.hasDist = true

theorem comp_error {st : CState} {c : PyComp} {e : CompileErr} (h : compileComp st c = .error e)
    (hc : c.hasDist = true) (he : c.comp.kind = .luminophore → ∃ T h, c.comp.emsDist = .table T h) :
    e = .unsupported := by
  unfold compileComp at h
  cases hk : kindTag c.comp.kind with
  | error e' =>
    rw [hk] at h; cases h
    cases hh : c.comp.kind <;> simp [hh, kindTag] at hk
    exact hk.symm
  | ok t =>
    rw [hk] at h
    cases hp : phaseTag c.comp.phase with
    | error e' =>
      rw [hp] at h; cases h
      cases hh : c.comp.phase <;> simp [hh, phaseTag, Phase.tag] at hp
      exact hp.symm
    | ok pt =>
      rw [hp] at h
      dsimp only at h
      cases ha : appendDist c st.absX.length with
      | error e' =>
        rw [ha] at h; cases h
        unfold appendDist at ha
        rw [if_neg (not_not.2 hc)] at ha
        cases hd : c.comp.absDist <;> rw [hd] at ha <;> dsimp only at ha <;> split_ifs at ha <;>
          cases ha <;> rfl
      | ok A =>
        rw [ha] at h
        dsimp only at h
        cases hm : appendEmission c st.emsX.length with
        | error e' =>
          rw [hm] at h; cases h
          unfold appendEmission at hm
          split_ifs at hm with hl
          obtain ⟨T, hist, hT⟩ := he hl
          rw [hT] at hm
          dsimp only at hm
          split_ifs at hm
          cases hm; rfl
        | ok E => rw [hm] at h; cases h

theorem comps_error : ∀ (cs : List PyComp) {st : CState} {e : CompileErr},
    compileComps st cs = .error e → (∀ c ∈ cs, c.hasDist = true) →
    (∀ c ∈ cs, c.comp.kind = .luminophore → ∃ T h, c.comp.emsDist = .table T h) →
    e = .unsupported := by
  intro cs
  induction cs with
  | nil => intro st e h; cases h
  | cons c cs ih =>
    intro st e h h1 h2
    unfold compileComps at h
    cases hc : compileComp st c with
    | error e' =>
      rw [hc] at h; cases h
      exact comp_error hc (h1 c (by simp)) (h2 c (by simp))
    | ok st1 =>
      rw [hc] at h
      exact ih h (fun c hc => h1 c (by simp [hc])) fun c hc => h2 c (by simp [hc])

theorem nodes_error : ∀ (xs : List (String × Affine ℝ × PyGeom)) {st : NState × CState}
    {e : CompileErr}, compileNodes st xs = .error e →
    (∀ x ∈ xs, ∀ m, x.2.2.material = some m → ∀ c ∈ m.comps, c.hasDist = true) →
    (∀ x ∈ xs, ∀ m, x.2.2.material = some m → ∀ c ∈ m.comps,
      c.comp.kind = .luminophore → ∃ T h, c.comp.emsDist = .table T h) →
    e = .unsupported := by
  intro xs
  induction xs with
  | nil => intro st e h; cases h
  | cons x xs ih =>
    intro st e h h1 h2
    obtain ⟨name, l2w, g⟩ := x
    unfold compileNodes at h
    cases hc : compileNode st name l2w g with
    | ok st1 =>
      rw [hc] at h
      exact ih h (fun x hx => h1 x (by simp [hx])) fun x hx => h2 x (by simp [hx])
    | error e' =>
      rw [hc] at h
      cases h
      unfold compileNode at hc
      cases hg : compileGeometry g.shape with
      | error e' =>
        rw [hg] at hc; cases hc
        cases hs : g.shape with
        | other => rw [hs] at hg; cases hg; rfl
        | known geom => rw [hs] at hg; cases geom <;> cases hg
      | ok G =>
        rw [hg] at hc
        dsimp only at hc
        by_cases hr : ¬ rigidTest l2w
        · rw [if_pos hr] at hc; cases hc; rfl
        · rw [if_neg hr] at hc
          cases hm : g.material with
          | none => rw [hm] at hc; cases hc; rfl
          | some m =>
            rw [hm] at hc
            dsimp only at hc
            cases hs : surfaceTag m.delegate with
            | error e' =>
              rw [hs] at hc; cases hc
              cases hd : m.delegate <;> rw [hd] at hs <;> cases hs
              rfl
            | ok tag =>
              rw [hs] at hc
              dsimp only at hc
              cases hcs : compileComps st.2 m.comps with
              | ok c => rw [hcs] at hc; cases hc
              | error e' =>
                rw [hcs] at hc
                cases hc
                exact comps_error _ hcs (h1 (name, l2w, g) (by simp) m hm)
                  (h2 (name, l2w, g) (by simp) m hm)

/-- **C76, part.** A scene that does not compile is refused with `UnsupportedSceneError`. Missing:
integer coefficients (`int_coefficient`) and the limit on the number of nodes (`too_many_nodes`),
which raise other errors. -/
theorem refused_partial {scene : List PyNode} (hb : Built scene) (hc : Coefficients scene)
    (h : ¬ SceneOk scene) : engineAccepts scene = .error .unsupported := by
  rw [← compiles_iff] at h
  unfold engineAccepts
  cases hs : compileScene scene with
  | ok T => exact absurd ⟨T, hs⟩ h
  | error e =>
    dsimp only
    congr 1
    unfold compileScene at hs
    split_ifs at hs
    · cases hs; rfl
    · cases hs; rfl
    · cases hn : compileNodes ({}, {}) (geometryNodes scene) with
      | ok st => rw [hn] at hs; cases hs
      | error e' =>
        rw [hn] at hs
        cases hs
        exact nodes_error _ hn hc fun x hx m hm c hcm hl => by
          obtain ⟨T, h, h1, -⟩ := (hb x hx m hm c hcm).2 hl
          exact ⟨T, h, h1⟩

/-- **C76 fails.** More than 128 geometry nodes: `ValueError`, not `UnsupportedSceneError`. -/
theorem too_many_nodes {scene : List PyNode} (h : SceneOk scene)
    (hl : 128 < (geometryNodes scene).length) : engineAccepts scene = .error .valueError := by
  obtain ⟨T, hT⟩ := (compiles_iff scene).2 h
  unfold engineAccepts
  rw [hT]
  dsimp only
  rw [table_nodes hT, if_pos hl]

/-- The scene with every shape and component replaced by a plain instance of its class. -/
def plain (scene : List PyNode) : List PyNode :=
  scene.map fun v => { v with geometry := v.geometry.map fun g =>
    { g with
      overrides := false
      material := g.material.map fun m =>
        { m with comps := m.comps.map fun c => { c with overrides := false } } } }

theorem comps_plain : ∀ (cs : List PyComp) (st : CState),
    compileComps st (cs.map fun c => { c with overrides := false }) = compileComps st cs := by
  intro cs
  induction cs with
  | nil => intro st; rfl
  | cons c cs ih =>
    intro st
    simp only [List.map_cons, compileComps]
    have : compileComp st { c with overrides := false } = compileComp st c := rfl
    rw [this]
    cases compileComp st c with
    | error e => rfl
    | ok st1 => exact ih st1

theorem nodes_plain : ∀ (xs : List (String × Affine ℝ × PyGeom)) (st : NState × CState),
    compileNodes st (xs.map fun x => (x.1, x.2.1, { x.2.2 with
      overrides := false
      material := x.2.2.material.map fun m =>
        { m with comps := m.comps.map fun c => { c with overrides := false } } })) =
      compileNodes st xs := by
  intro xs
  induction xs with
  | nil => intro st; rfl
  | cons x xs ih =>
    intro st
    obtain ⟨name, l2w, g⟩ := x
    simp only [List.map_cons, compileNodes]
    have : compileNode st name l2w { g with
        overrides := false
        material := g.material.map fun m =>
          { m with comps := m.comps.map fun c => { c with overrides := false } } } =
        compileNode st name l2w g := by
      unfold compileNode
      dsimp only
      cases g.material with
      | none => rfl
      | some m => simp only [Option.map_some, comps_plain, List.length_map]
    rw [this]
    cases compileNode st name l2w g with
    | error e => rfl
    | ok st1 => exact ih st1

/-- **C76 fails.** Overridden methods of shapes and components are ignored: the scene and the scene
with plain instances get the same answer and the same tables. -/
theorem overrides_ignored (scene : List PyNode) :
    engineAccepts (plain scene) = engineAccepts scene := by
  have hg : geometryNodes (plain scene) = (geometryNodes scene).map fun x => (x.1, x.2.1, { x.2.2 with
      overrides := false
      material := x.2.2.material.map fun m =>
        { m with comps := m.comps.map fun c => { c with overrides := false } } }) := by
    unfold geometryNodes plain
    induction scene with
    | nil => rfl
    | cons v vs ih =>
      cases h : v.geometry with
      | none => simp only [List.map_cons, List.filterMap_cons, h, Option.map_none, ih]
      | some g => simp only [List.map_cons, List.filterMap_cons, h, Option.map_some, ih]
  have h2 : ((plain scene).head?.bind (·.geometry)).isNone = (scene.head?.bind (·.geometry)).isNone := by
    cases scene with
    | nil => rfl
    | cons v vs => cases h : v.geometry <;> simp [plain, h]
  have : compileScene (plain scene) = compileScene scene := by
    unfold compileScene
    rw [hg, h2, nodes_plain]
    simp only [List.map_eq_nil_iff]
  unfold engineAccepts
  rw [this]

/-! ### Transformations -/

/-- Uniform scaling. -/
def scaling (k : ℝ) : Affine ℝ := ⟨⟨k, 0, 0⟩, ⟨0, k, 0⟩, ⟨0, 0, k⟩, ⟨0, 0, 0⟩⟩

theorem scaling_test (k : ℝ) : rigidTest (scaling k) ↔ |k * k - 1| ≤ 1e-9 + 1e-5 := by
  simp only [rigidTest, scaling, Vec3.dot, mul_zero, zero_mul, add_zero, zero_add, abs_zero]
  constructor
  · exact fun h => h.1
  · intro h
    exact ⟨h, h, h, by norm_num, by norm_num, by norm_num⟩

/-- **C76 fails.** A scale of four parts in a million counts as rigid, because the relative tolerance
of `np.allclose` keeps its default. -/
theorem scale_accepted : rigidTest (scaling 1.000004) ∧ scaling 1.000004 ≠ scaling 1 := by
  refine ⟨?_, ?_⟩
  · rw [scaling_test, abs_le]; constructor <;> norm_num
  · intro h
    have := congrArg (fun m : Affine ℝ => m.r0.x) h
    norm_num [scaling] at this

/-- Proper and improper rotations always pass. -/
theorem rigid_passes {m : Affine ℝ} (h0 : m.r0.dot m.r0 = 1) (h1 : m.r1.dot m.r1 = 1)
    (h2 : m.r2.dot m.r2 = 1) (h01 : m.r0.dot m.r1 = 0) (h02 : m.r0.dot m.r2 = 0)
    (h12 : m.r1.dot m.r2 = 0) : rigidTest m := by
  unfold rigidTest
  rw [h0, h1, h2, h01, h02, h12]
  norm_num

theorem det_sq (m : Affine ℝ) : m.det ^ 2 =
    m.r0.dot m.r0 * (m.r1.dot m.r1 * m.r2.dot m.r2) + 2 * (m.r0.dot m.r1 * (m.r0.dot m.r2 * m.r1.dot m.r2))
      - m.r0.dot m.r0 * (m.r1.dot m.r2) ^ 2 - m.r1.dot m.r1 * (m.r0.dot m.r2) ^ 2
      - m.r2.dot m.r2 * (m.r0.dot m.r1) ^ 2 := by
  simp only [Affine.det, Vec3.dot]; ring

theorem rigid_det {m : Affine ℝ} (h : rigidTest m) : m.det ≠ 0 := by
  obtain ⟨a, b, c, d, e, f⟩ := h
  have hs := det_sq m
  generalize m.r0.dot m.r0 = g0 at *
  generalize m.r1.dot m.r1 = g1 at *
  generalize m.r2.dot m.r2 = g2 at *
  generalize m.r0.dot m.r1 = k01 at *
  generalize m.r0.dot m.r2 = k02 at *
  generalize m.r1.dot m.r2 = k12 at *
  rw [abs_le] at a b c
  have hd : |k01| ≤ 0.1 := d.trans (by norm_num)
  have he : |k02| ≤ 0.1 := e.trans (by norm_num)
  have hf : |k12| ≤ 0.1 := f.trans (by norm_num)
  have a1 : 0.9 ≤ g0 := by linarith [a.1, show (1e-9 + 1e-5 : ℝ) ≤ 0.1 by norm_num]
  have b1 : 0.9 ≤ g1 := by linarith [b.1, show (1e-9 + 1e-5 : ℝ) ≤ 0.1 by norm_num]
  have c1 : 0.9 ≤ g2 := by linarith [c.1, show (1e-9 + 1e-5 : ℝ) ≤ 0.1 by norm_num]
  have a2 : g0 ≤ 1.1 := by linarith [a.2, show (1e-9 + 1e-5 : ℝ) ≤ 0.1 by norm_num]
  have b2 : g1 ≤ 1.1 := by linarith [b.2, show (1e-9 + 1e-5 : ℝ) ≤ 0.1 by norm_num]
  have c2 : g2 ≤ 1.1 := by linarith [c.2, show (1e-9 + 1e-5 : ℝ) ≤ 0.1 by norm_num]
  have sq : ∀ k : ℝ, |k| ≤ 0.1 → k ^ 2 ≤ 0.01 := by
    intro k hk
    have := pow_le_pow_left₀ (abs_nonneg k) hk 2
    rw [sq_abs] at this
    linarith [show (0.1 : ℝ) ^ 2 = 0.01 by norm_num]
  have p1 : 0.72 ≤ g0 * (g1 * g2) := by
    have : (0.9 : ℝ) * 0.9 ≤ g1 * g2 := mul_le_mul b1 c1 (by norm_num) (by linarith)
    have : (0.9 : ℝ) * (0.9 * 0.9) ≤ g0 * (g1 * g2) := mul_le_mul a1 this (by norm_num) (by linarith)
    linarith [show (0.72 : ℝ) ≤ 0.9 * (0.9 * 0.9) by norm_num]
  have p2 : |k01 * (k02 * k12)| ≤ 0.1 := by
    rw [abs_mul, abs_mul]
    have h1 : |k02| * |k12| ≤ 0.1 * 0.1 := mul_le_mul he hf (abs_nonneg _) (by norm_num)
    have h2 : |k01| * (|k02| * |k12|) ≤ 0.1 * (0.1 * 0.1) :=
      mul_le_mul hd h1 (by positivity) (by norm_num)
    linarith [show (0.1 : ℝ) * (0.1 * 0.1) ≤ 0.1 by norm_num]
  have p3 : g0 * k12 ^ 2 ≤ 1.1 * 0.01 := mul_le_mul a2 (sq _ hf) (sq_nonneg _) (by norm_num)
  have p4 : g1 * k02 ^ 2 ≤ 1.1 * 0.01 := mul_le_mul b2 (sq _ he) (sq_nonneg _) (by norm_num)
  have p5 : g2 * k01 ^ 2 ≤ 1.1 * 0.01 := mul_le_mul c2 (sq _ hd) (sq_nonneg _) (by norm_num)
  intro h0
  rw [h0] at hs
  have := (abs_le.1 p2).1
  norm_num at hs p3 p4 p5
  linarith

/-- **C75.** In an accepted scene the transformation to the frame of a node undoes the one from it. -/
theorem transforms_undo {m : Affine ℝ} (h : rigidTest m) (p : Vec3 ℝ) :
    m.inv.point (m.point p) = p ∧ m.point (m.inv.point p) = p ∧
    m.inv.vec (m.vec p) = p ∧ m.vec (m.inv.vec p) = p := by
  have hd := rigid_det h
  have hD : m.det = m.r0.x * (m.r1.y * m.r2.z - m.r1.z * m.r2.y) -
      m.r0.y * (m.r1.x * m.r2.z - m.r1.z * m.r2.x) + m.r0.z * (m.r1.x * m.r2.y - m.r1.y * m.r2.x) := rfl
  simp only [Affine.inv, Affine.point, Affine.vec]
  generalize m.det = D at hd hD ⊢
  refine ⟨?_, ?_, ?_, ?_⟩ <;> apply Vec3.ext <;>
    simp only [Vec3.dot, Vec3.add_x, Vec3.add_y, Vec3.add_z] <;> field_simp <;> rw [hD] <;> ring

/-! ### A scene -/

/-- A dye with constant absorption and a table of three points as emission spectrum. -/
def dye : PyComp where
  comp := ⟨"dye", .luminophore, .const 2,
    .table ⟨3, fun i => 600 + 50 * i, fun i => if i = 1 then 1 else 0⟩ false, 0.9, some 0, none,
    .isotropic⟩

/-- A background absorber with a table of two points. -/
def host : PyComp where
  comp := ⟨"host", .absorber, .table ⟨2, fun i => 300 + 700 * i, fun i => 1 + i⟩ false, .const 0, 0,
    none, none, .henyeyGreenstein 0.5⟩

def shifted (z : ℝ) : Affine ℝ := ⟨⟨1, 0, 0⟩, ⟨0, 1, 0⟩, ⟨0, 0, 1⟩, ⟨0, 0, z⟩⟩

/-- A world, a group without geometry, a doped box and a mirror-free ball. -/
def demo : List PyNode :=
  [⟨"world", some ⟨.known (.sphere 10), some ⟨1, .null, []⟩, false⟩, shifted 0⟩,
   ⟨"group", none, shifted 1⟩,
   ⟨"plate", some ⟨.known (.box ⟨2, 3, 1⟩), some ⟨1.5, .fresnel, [host, dye]⟩, false⟩, shifted 2⟩,
   ⟨"ball", some ⟨.known (.sphere 1), some ⟨1.4, .fresnel, [dye]⟩, false⟩, shifted (-2)⟩]

def demoScene : LScene 2 where
  node v := match v with
    | 0 => ⟨"world", .sphere 10, shifted 0, (shifted 0).inv, 1, .null, []⟩
    | 1 => ⟨"plate", .box ⟨2, 3, 1⟩, shifted 2, (shifted 2).inv, 1.5, .fresnel,
        [host.comp, dye.comp]⟩
    | 2 => ⟨"ball", .sphere 1, shifted (-2), (shifted (-2)).inv, 1.4, .fresnel, [dye.comp]⟩

theorem shifted_test (z : ℝ) : rigidTest (shifted z) := by
  apply rigid_passes <;> simp [shifted, Vec3.dot]

theorem host_ok : CompOk host where
  cls := by simp [host]
  phase := by simp [host]
  coefficient := rfl
  absorption := by intro T h e; simp only [host, Dist.table.injEq] at e; exact e.2.symm
  constant := by intro y e; simp [host] at e
  emission := by simp [host]

theorem dye_ok : CompOk dye where
  cls := by simp [dye]
  phase := by simp [dye]
  coefficient := rfl
  absorption := by intro T h e; simp [dye] at e
  constant := fun _ _ => rfl
  emission := fun _ => ⟨_, rfl⟩

theorem demo_ok : SceneOk demo where
  root := ⟨_, _, rfl, rfl⟩
  nodes := by
    intro x hx
    simp only [demo, geometryNodes, List.filterMap_cons, Option.map_some, Option.map_none,
      List.filterMap_nil, List.mem_cons, List.not_mem_nil, or_false] at hx
    rcases hx with rfl | rfl | rfl
    · exact ⟨⟨_, rfl⟩, shifted_test _, _, rfl, by simp, by simp⟩
    · refine ⟨⟨_, rfl⟩, shifted_test _, _, rfl, by simp, fun c hc => ?_⟩
      simp only [List.mem_cons, List.not_mem_nil, or_false] at hc
      rcases hc with rfl | rfl
      exacts [host_ok, dye_ok]
    · refine ⟨⟨_, rfl⟩, shifted_test _, _, rfl, by simp, fun c hc => ?_⟩
      simp only [List.mem_cons, List.not_mem_nil, or_false] at hc
      subst hc; exact dye_ok

theorem demo_built : Built demo := by
  have hh : ∀ c, c = host ∨ c = dye → (∀ T h, c.comp.absDist = .table T h → 1 ≤ T.n) ∧
      (c.comp.kind = .luminophore → ∃ T h, c.comp.emsDist = .table T h ∧ 1 ≤ T.n) := by
    rintro c (rfl | rfl)
    · refine ⟨fun T h e => ?_, fun h => by simp [host] at h⟩
      simp only [host, Dist.table.injEq] at e
      rw [← e.1]; norm_num
    · refine ⟨fun T h e => by simp [dye] at e, fun _ => ⟨_, _, rfl, by norm_num⟩⟩
  intro x hx m hm c hc
  simp only [demo, geometryNodes, List.filterMap_cons, Option.map_some, Option.map_none,
    List.filterMap_nil, List.mem_cons, List.not_mem_nil, or_false] at hx
  rcases hx with rfl | rfl | rfl <;> cases hm <;>
    simp only [List.mem_cons, List.not_mem_nil, or_false] at hc
  · exact hh c hc
  · exact hh c (.inr hc)

theorem demo_describes : Describes demo demoScene := by
  unfold Describes
  have : List.finRange (2 + 1) = [0, 1, 2] := by decide
  rw [this]
  rfl

/-- The hypotheses of `same_run`, `in_bounds` and `accepts_iff` are met. -/
example : ∃ T, compileScene demo = .ok T ∧ engineAccepts demo = .ok T ∧ Describes demo demoScene ∧
    Built demo ∧ Coefficients demo := by
  obtain ⟨T, hT⟩ := (compiles_iff demo).2 demo_ok
  refine ⟨T, hT, ?_, demo_describes, demo_built, ?_⟩
  · unfold engineAccepts
    rw [hT]
    dsimp only
    rw [table_nodes hT, if_neg (by simp [demo, geometryNodes])]
  · intro x hx m hm c hc
    obtain ⟨m', hm', -, h⟩ := (demo_ok.nodes x hx).material
    rw [hm] at hm'
    cases hm'
    exact (h c hc).coefficient

/-- Every bundle has an execution: one thread, one ray after the other. -/
theorem sequential {ρ : Type} (writes : ℕ → List (Effect ℝ ρ)) (k : ℕ) :
    Execution k 1 writes ((List.range k).flatMap fun i => (writes i).map fun e => ⟨i, 0, e⟩) := by
  refine ⟨?_, ?_, ?_⟩
  · intro e he
    simp only [List.mem_flatMap, List.mem_range, List.mem_map] at he
    obtain ⟨i, hi, x, -, rfl⟩ := he
    exact hi
  · intro e he
    simp only [List.mem_flatMap, List.mem_range, List.mem_map] at he
    obtain ⟨i, hi, x, -, rfl⟩ := he
    exact Nat.one_pos
  · intro i hi
    induction k with
    | zero => omega
    | succ k ih =>
      rw [List.range_succ, List.flatMap_append, List.filter_append, List.map_append]
      have hself : ∀ j, ((([j] : List ℕ).flatMap fun i =>
          (writes i).map fun e => (⟨i, 0, e⟩ : Tagged ℝ ρ)).filter fun e => e.ray = i).map (·.effect) =
          if j = i then writes i else [] := by
        intro j
        by_cases hj : j = i
        · subst hj; simp [List.filter_map, Function.comp_def]
        · simp [List.filter_map, Function.comp_def, hj]
      rw [hself]
      by_cases hk : k = i
      · subst hk
        rw [if_pos rfl]
        have : (((List.range k).flatMap fun i =>
            (writes i).map fun e => (⟨i, 0, e⟩ : Tagged ℝ ρ)).filter fun e => e.ray = k) = [] := by
          rw [List.filter_eq_nil_iff]
          intro e he
          simp only [List.mem_flatMap, List.mem_range, List.mem_map] at he
          obtain ⟨j, hj, x, -, rfl⟩ := he
          simp; omega
        rw [this]; rfl
      · rw [if_neg hk, List.append_nil]
        exact ih (by omega)

/-- A crowd of 129 balls. -/
def crowd : List PyNode :=
  List.replicate 129 ⟨"ball", some ⟨.known (.sphere 1), some ⟨1.4, .fresnel, [dye]⟩, false⟩, shifted 0⟩

example : SceneOk crowd ∧ engineAccepts crowd = .error .valueError := by
  have hl : geometryNodes crowd = List.replicate 129
      ("ball", shifted 0, ⟨.known (.sphere 1), some ⟨1.4, .fresnel, [dye]⟩, false⟩) := by
    unfold geometryNodes crowd
    exact List.filterMap_replicate_of_some rfl
  have hok : SceneOk crowd := by
    refine ⟨⟨_, _, rfl, rfl⟩, fun x hx => ?_⟩
    rw [hl] at hx
    rw [List.eq_of_mem_replicate hx]
    refine ⟨⟨_, rfl⟩, shifted_test _, _, rfl, by simp, fun c hc => ?_⟩
    simp only [List.mem_cons, List.not_mem_nil, or_false] at hc
    subst hc; exact dye_ok
  exact ⟨hok, too_many_nodes hok (by rw [hl]; simp)⟩

/-- **C76 fails.** `Absorber(coefficient=1)`: a component without `_abs_dist`. The engine raises
`AttributeError`. -/
theorem int_coefficient : engineAccepts
    [⟨"world", some ⟨.known (.sphere 10), some ⟨1, .null, [{ host with hasDist := false }]⟩, false⟩,
      shifted 0⟩] = .error .attributeError := by
  have hr : ¬ ¬ rigidTest (shifted 0) := not_not.2 (shifted_test 0)
  simp only [engineAccepts, compileScene, geometryNodes, List.filterMap_cons, Option.map_some,
    List.filterMap_nil, compileNodes, compileNode, compileGeometry, surfaceTag, compileComps,
    compileComp, kindTag, host, phaseTag, Phase.tag, appendDist, if_neg hr]
  simp

/-- A refused scene: a mesh. -/
example : Built [⟨"world", some ⟨.other, none, false⟩, shifted 0⟩] ∧
    engineAccepts [⟨"world", some ⟨.other, none, false⟩, shifted 0⟩] = .error .unsupported := by
  have hb : Built [⟨"world", some ⟨.other, none, false⟩, shifted 0⟩] := by
    intro x hx m hm
    simp only [geometryNodes, List.filterMap_cons, Option.map_some, List.filterMap_nil,
      List.mem_cons, List.not_mem_nil, or_false] at hx
    subst hx; cases hm
  refine ⟨hb, refused_partial hb ?_ ?_⟩
  · intro x hx m hm
    simp only [geometryNodes, List.filterMap_cons, Option.map_some, List.filterMap_nil,
      List.mem_cons, List.not_mem_nil, or_false] at hx
    subst hx; cases hm
  · intro h
    obtain ⟨g, hg⟩ := (h.nodes ("world", shifted 0, ⟨.other, none, false⟩) (by simp [geometryNodes])).shape
    cases hg

end
end PV.Compile
