import Verif.Props.SameLaw
import Verif.Props.EngineChanceDemo

/-!
C118: the recorders of the engine estimate the chances of the histories of the Python tracer.
-/

namespace PV.Spec

/-- Every surface that is crossed or reflects has its own node on exactly one side, and no ray is killed at a surface. -/
def Sided {α : Type} (h : List (Step α)) : Prop :=
  ∀ e ∈ h, ((e.event = .transmit ∨ e.event = .reflect) → (e.info.container ≠ e.info.hit ↔ e.info.adjacent = e.info.hit)) ∧
    (e.event = .kill → e.info.hit = none)

end PV.Spec

namespace PV.RecorderLaw
open MeasureTheory PV PV.Spec PV.Library PV.Budget PV.EngineTally PV.EngineChance PV.SameLaw
set_option linter.unusedSectionVars false

/-! ### Calls and rows -/

section rows
variable {α ν κ σ : Type} [Field α] [LinearOrder α] [IsStrictOrderedRing α] [FloorRing α] [DecidableEq ν]
variable {E : TallyEnv α ν} {N : KNames ν κ} {K : KOps α ν κ σ}

theorem some_counted (E : TallyEnv α ν) (node : ν) (r : Recorder α) (prev : Option (Ray α)) (h : List (Step α)) :
    (∃ e ∈ h, Counted E node r e) ↔ counted E node r prev h ≠ [] := by
  classical
  rw [← List.length_pos_iff, ← countP_eq, List.countP_pos_iff]
  simp

theorem some_call (node : ν) (r : Recorder α) (a b : ℕ) (cs : List (TallyCall α ν)) :
    (∃ c ∈ cs, kCounts c ⟨node, r.event, r.facet, r.atol, a, b⟩ = true) ↔ countedCalls node r cs ≠ [] := by
  rw [← List.length_pos_iff, ← (find_calls node r cs a b).2, List.countP_pos_iff]

/-- One pass of the engine: a call of `tally` counts for the recorder just if the row recorded with it does. -/
theorem pass_marks (hsame : SameScene E N K) (hx : ∀ p, E.exitNormal K.root p = .ok (K.normal K.root p))
    (src : Option String) (node : ν) (r : Recorder α) (a b maxsteps count : ℕ) (ray : KRay α κ) (s : σ)
    (hs : Sided ((rowsOf (kBody K maxsteps count ray s).1).map (eventOf N src))) :
    (∃ e ∈ (rowsOf (kBody K maxsteps count ray s).1).map (eventOf N src), Counted E node r e) ↔
      ∃ c ∈ callsOf (kBody K maxsteps count ray s).1, kCounts c ⟨node, r.event, r.facet, r.atol, a, b⟩ = true := by
  rw [some_counted E node r (some ⟨ray.position, ray.direction, 0, 0, 0, none⟩), some_call]
  have h : counted E node r (some ⟨ray.position, ray.direction, 0, 0, 0, none⟩)
      ((rowsOf (kBody K maxsteps count ray s).1).map (eventOf N src)) =
        countedCalls node r (callsOf (kBody K maxsteps count ray s).1) := by
    unfold kBody at hs ⊢
    cases hn : K.nextHit ray.position ray.direction with
    | none => simp [counted_nil, countedCalls]
    | some x =>
      obtain ⟨hit, container, adjacent, t0⟩ := x
      rw [hn] at hs
      dsimp only at hs ⊢
      split_ifs at hs ⊢ with h1 h2
      · exact volume_row hsame _ _ _ _ _ _ _ _ _ (by simp)
      · subst h2
        exact exit_row hsame _ _ _ _ _ _ _ (hx _)
      · cases hd : isAbsorbed (K.depth container ray.wavelength s).1 t0 with
        | some d => exact absorb_counted hsame _ _ _ _ _ _ _ _
        | none =>
          rw [hd] at hs
          dsimp only at hs ⊢
          cases adjacent with
          | none =>
            have := (hs _ (List.mem_cons_self)).2 rfl
            simp [eventOf] at this
          | some adj =>
            refine surface_counted hsame _ _ _ _ _ _ ?_ _ _ _ _ rfl
            have hrow : ∃ row ∈ rowsOf (kSurface K hit container (some adj) ray t0
                (K.depth container ray.wavelength s).2).1, (row.kind = .transmit ∨ row.kind = .reflect) ∧
                  row.hit = some hit ∧ row.container = some container ∧ row.adjacent = some adj := by
              unfold kSurface
              dsimp only
              split_ifs <;> exact ⟨_, List.mem_cons_self, by simp, rfl, rfl, rfl⟩
            obtain ⟨row, hm, hk, e1, e2, e3⟩ := hrow
            have := (hs _ (List.mem_map_of_mem hm)).1 hk
            simp only [eventOf, e1, e2, e3, Option.map_some, Option.some.injEq, ne_eq] at this
            rw [hsame.unique.eq_iff, hsame.unique.eq_iff] at this
            exact this
  rw [h]

theorem trace_marks (hsame : SameScene E N K) (hx : ∀ p, E.exitNormal K.root p = .ok (K.normal K.root p))
    (src : Option String) (node : ν) (r : Recorder α) (a b maxsteps : ℕ) : ∀ (fuel count : ℕ) (ray : KRay α κ) (s : σ),
    Sided ((rowsOf (kTrace K maxsteps fuel count ray s)).map (eventOf N src)) →
    ((∃ e ∈ (rowsOf (kTrace K maxsteps fuel count ray s)).map (eventOf N src), Counted E node r e) ↔
      ∃ c ∈ callsOf (kTrace K maxsteps fuel count ray s), kCounts c ⟨node, r.event, r.facet, r.atol, a, b⟩ = true) := by
  intro fuel
  induction fuel with
  | zero => intro count ray s _; simp [kTrace]
  | succ fuel ih =>
    intro count ray s hs
    unfold kTrace at hs ⊢
    dsimp only at hs ⊢
    have hp := pass_marks hsame hx src node r a b maxsteps (count + 1) ray s
    cases hb : (kBody K maxsteps (count + 1) ray s).2 with
    | stop =>
      rw [hb] at hs
      exact hp hs
    | cont ray' s' =>
      rw [hb] at hs
      dsimp only at hs ⊢
      simp only [rowsOf_append, callsOf_append, List.map_append, List.mem_append, or_and_right, exists_or] at hs ⊢
      rw [hp fun e he => hs e (List.mem_append.2 (.inl he)), ih _ _ _ fun e he => hs e (List.mem_append.2 (.inr he))]

end rows

/-! ### The Python tracer meets every surface from one side -/

section sides
variable {α ν κ σ : Type} [Field α] [LinearOrder α] [DecidableEq ν]

/-- The object chosen as container is met once ahead. -/
theorem container_once {l : List (Inter ν α)} (h2 : 2 ≤ l.length) {c : ν} (h : findContainer l = .ok c) :
    (l.map (·.hit)).count c = 1 := by
  match l, h2 with
  | x :: y :: l, _ =>
    unfold findContainer at h
    dsimp only at h
    split at h
    · cases h
    · rename_i p ps hs
      cases h
      have hm : p ∈ sortedBy (·.dist) ((x :: y :: l).filter fun z => ((x :: y :: l).map (·.hit)).count z.hit = 1) := by
        rw [hs]; simp
      rw [mem_sortedBy, List.mem_filter] at hm
      simpa using hm.2

/-- Of the two sides of a surface exactly one is the object it belongs to. -/
theorem hit_sided {eps : α} {db : Vec3 α → α} {xs : List (Inter ν α)} {h : HitInfo ν α} (he : nextHit eps db xs = .ok (some h)) :
    h.container ≠ h.hit ↔ h.adjacent = some h.hit := by
  unfold nextHit at he
  dsimp only at he
  split at he
  · cases he
  · cases he
    simp
  · rename_i x y l _
    cases hc : findContainer (x :: y :: l) with
    | error e => rw [hc] at he; cases he
    | ok c =>
      rw [hc] at he
      cases he
      have h1 := container_once (by simp) hc
      by_cases hx : c = x.hit
      · subst hx
        simp only [List.map_cons, List.count_cons_self] at h1
        have : y.hit ≠ x.hit := by
          intro hy
          rw [hy, List.count_cons_self] at h1
          omega
        simp [this]
      · simp [hx]

theorem body_sided {O : Ops α ν κ σ} (hu : Function.Injective O.name) (maxsteps : ℕ) (maxpath : Option α) (count : ℕ) (ray : Ray α)
    (s : σ) : Sided (body O maxsteps maxpath count ray s).1 := by
  unfold body
  split
  · simp [Sided]
  · split
    · simp [Sided]
    · simp [Sided]
    · rename_i xs _ h hh
      split_ifs
      · simp [Sided]
      · simp [Sided]
      · split
        · simp [Sided]
        · split
          · unfold absorbBody
            dsimp only
            repeat' split
            all_goals simp [Sided]
          · have hs : O.name h.container ≠ O.name h.hit ↔ h.adjacent.map O.name = some (O.name h.hit) := by
              rw [hu.ne_iff, hit_sided hh]
              constructor
              · intro e; rw [e]; rfl
              · intro e
                rw [Option.map_eq_some_iff] at e
                obtain ⟨a, e1, e2⟩ := e
                rw [e1, hu e2]
            unfold surfaceBody
            dsimp only
            repeat' split
            all_goals simp_all [Sided]

/-- **C118** Whatever the scene, as long as nodes have different names: in every history of the Python tracer a surface that is
crossed or reflects has its object on exactly one side. -/
theorem run_sided {O : Ops α ν κ σ} (hu : Function.Injective O.name) (maxsteps : ℕ) (maxpath : Option α) (fuel : ℕ) (ray : Ray α)
    (s : σ) : Sided (stepForward O maxsteps maxpath fuel ray s).1 := by
  have key : ∀ fuel count ray s, Sided (loop O maxsteps maxpath fuel count ray s).1 := by
    intro fuel
    induction fuel with
    | zero => intro count ray s; simp [loop, Sided]
    | succ fuel ih =>
      intro count ray s
      have h := body_sided hu maxsteps maxpath (count + 1) ray s
      unfold loop
      obtain ⟨es, nx, hb⟩ : ∃ es nx, body O maxsteps maxpath (count + 1) ray s = (es, nx) := ⟨_, _, rfl⟩
      rw [hb] at h ⊢
      cases nx with
      | stop => exact h
      | raise e => exact h
      | cont ray' s' =>
        intro e he
        rcases List.mem_append.1 he with he | he
        · exact h e he
        · exact ih _ _ _ e he
  intro e he
  rcases List.mem_cons.1 he with rfl | he
  · simp
  · exact key _ _ _ _ e he

end sides

/-! ### Chances -/

noncomputable section
variable {n : ℕ} {S : LScene n} {method : EmitMethod}

/-- The recorder's question does not depend on the normals at the edge of the world. -/
theorem counted_same {ν : Type} {E E' : TallyEnv ℝ ν} {v : ν} {r : Recorder ℝ} (hn : E.name v = E'.name v)
    (hr : r.event = .exit → r.facet = none) (e : Step ℝ) : Counted E v r e ↔ Counted E' v r e := by
  unfold Counted
  rw [hn]
  refine and_congr_right fun hs => ?_
  by_cases hx : r.event = .exit
  · simp [OnFacet, hr hx]
  · have he : e.event ≠ .exit := by
      intro he
      unfold SelectorEvent at hs
      rw [he] at hs
      cases hv : r.event <;> simp_all
    have : normalOf E v e = normalOf E' v e := by
      unfold normalOf
      rw [if_neg he, if_neg he]
    rw [this]

/-- What the Python tally knows of the scene. -/
def env (S : LScene n) : TallyEnv ℝ (Fin (n + 1)) where
  name v := (S.node v).name
  localPos := (kOps S reader .kT).localPos
  exitNormal _ p := .ok ((kOps S reader .kT).normal 0 p)
  acos := Real.arccos

/-- A recorder of the engine reports a ray just if the ray's complete history contains an event the recorder asks for. -/
theorem seen_history (hu : Function.Injective fun v => (S.node v).name) {T : RecTables ℝ (Fin (n + 1))} {i : ℕ} {v : Fin (n + 1)}
    {r : Recorder ℝ} {a b : ℕ} (hT : T.recs[i]? = some ⟨v, r.event, r.facet, r.atol, a, b⟩) {E : TallyEnv ℝ (Fin (n + 1))}
    (hE : E.name v = (S.node v).name) (hr : r.event = .exit → r.facet = none) (maxsteps : ℕ) (ray : Ray ℝ) (s : Numbers)
    (hs : Sided (engineRun S method maxsteps ray s)) :
    Spec.Seen T i (kTraceOne (kOps S reader method) T none maxsteps (launchOf ray s).ray s).1 ↔
      ∃ e ∈ engineRun S method maxsteps ray s, Counted E v r e := by
  have h1 := seen_call (kOps S reader method) T maxsteps none (launchOf ray s) hT
  rw [show (launchOf ray s).rng = s from rfl] at h1
  rw [h1]
  have hsame : SameScene (env S) (names S) (kOps S reader method) := ⟨rfl, hu, rfl, rfl⟩
  unfold engineRun at hs ⊢
  rw [fullHistory_eq, List.map_cons] at hs ⊢
  have h2 := trace_marks hsame (fun p => rfl) ray.source v r a b maxsteps (maxsteps + 1) 0 (launchOf ray s).ray s
    fun e he => hs e (List.mem_cons_of_mem _ he)
  rw [show tallied (kOps S reader method) maxsteps none (launchOf ray s) =
    callsOf (kTrace (kOps S reader method) maxsteps (maxsteps + 1) 0 (launchOf ray s).ray s) from rfl, ← h2]
  have h3 : ¬ Counted (env S) v r (eventOf (names S) ray.source (generateRow (launchOf ray s).ray)) :=
    not_counted _ _ _ _ (.inl rfl)
  simp only [counted_same (E := E) (E' := env S) hE hr, List.mem_cons, or_and_right, exists_or, exists_eq_left, h3, false_or]
  rfl

theorem sided_form (fs : List StepForm) (w : ℕ → Fin 12 → ℝ) :
    Sided (stepsAt fs w) ↔ Sided (stepsAt fs fun _ _ => 0) := by
  simp only [Sided, stepsAt, List.forall_mem_map, stepAt]

/-- The question is a Borel question. -/
theorem counted_borel (E : TallyEnv ℝ (Fin (n + 1))) (v : Fin (n + 1)) (r : Recorder ℝ) (hr : r.event = .exit → r.facet = none) :
    BorelSteps fun h => Sided h ∧ ∃ e ∈ h, Counted E v r e := by
  intro fs
  have e : {w : ℕ → Fin 12 → ℝ | Sided (stepsAt fs w) ∧ ∃ e ∈ stepsAt fs w, Counted E v r e} =
      {w | Sided (stepsAt fs fun _ _ => 0)} ∩ ⋃ x ∈ {x | x ∈ fs.zipIdx}, {w | Counted E v r (stepAt x.1 (w x.2))} := by
    ext w
    simp only [Set.mem_inter_iff, Set.mem_iUnion, exists_prop, Set.mem_setOf_eq]
    rw [sided_form]
    refine and_congr_right fun _ => ?_
    simp only [stepsAt, List.mem_map]
    constructor
    · rintro ⟨_, ⟨x, hx, rfl⟩, h⟩
      exact ⟨x, hx, h⟩
    · rintro ⟨x, hx, h⟩
      exact ⟨_, ⟨x, hx, rfl⟩, h⟩
  rw [e]
  refine (MeasurableSet.const _).inter (MeasurableSet.biUnion (fs.zipIdx.finite_toSet.countable) fun x _ => ?_)
  by_cases h : SelectorEvent r.event (E.name v) (stepAt x.1 fun _ => 0)
  · have hs : ∀ u : Fin 12 → ℝ, SelectorEvent r.event (E.name v) (stepAt x.1 u) := by
      intro u
      unfold SelectorEvent at h ⊢
      exact h
    rcases hf : r.facet with _ | f
    · have : {w : ℕ → Fin 12 → ℝ | Counted E v r (stepAt x.1 (w x.2))} = Set.univ := by
        refine Set.eq_univ_of_forall fun w => ⟨hs _, ?_⟩
        simp [OnFacet, hf]
      rw [this]
      exact .univ
    · have hx : r.event ≠ .exit := fun h => by rw [hr h] at hf; cases hf
      have he : x.1.event ≠ .exit := by
        intro he
        unfold SelectorEvent at h
        have he : (stepAt x.1 fun _ => (0 : ℝ)).event = .exit := he
        rw [he] at h
        cases hv : r.event <;> simp_all
      cases hfc : x.1.facing
      · have : {w : ℕ → Fin 12 → ℝ | Counted E v r (stepAt x.1 (w x.2))} = ∅ := by
          refine Set.eq_empty_of_forall_notMem fun w hw => ?_
          obtain ⟨m, hm, -⟩ := hw.2 f hf
          simp [normalOf, stepAt, hfc, he] at hm
        rw [this]
        exact .empty
      · have : {w : ℕ → Fin 12 → ℝ | Counted E v r (stepAt x.1 (w x.2))} =
            {w | |f.x - w x.2 9| ≤ r.atol} ∩ {w | |f.y - w x.2 10| ≤ r.atol} ∩ {w | |f.z - w x.2 11| ≤ r.atol} := by
          ext w
          have : Counted E v r (stepAt x.1 (w x.2)) ↔
              |f.x - w x.2 9| ≤ r.atol ∧ |f.y - w x.2 10| ≤ r.atol ∧ |f.z - w x.2 11| ≤ r.atol := by
            unfold Counted
            rw [and_iff_right (hs _)]
            simp [OnFacet, hf, normalOf, stepAt, hfc]
          refine Iff.trans this ?_
          simp only [Set.mem_inter_iff, and_assoc]
          rfl
        rw [this]
        refine ((measurableSet_le ?_ measurable_const).inter (measurableSet_le ?_ measurable_const)).inter
          (measurableSet_le ?_ measurable_const)
        all_goals fun_prop
  · have : {w : ℕ → Fin 12 → ℝ | Counted E v r (stepAt x.1 (w x.2))} = ∅ := by
      refine Set.eq_empty_of_forall_notMem fun w hw => h ?_
      have := hw.1
      unfold SelectorEvent at this ⊢
      exact this
    rw [this]
    exact .empty

/-- **C118** For a ray of the engine the chance of being reported by a recorder is the chance that the history the Python
tracer gives for the ray contains an event the recorder asks for. -/
theorem same_report (hS : Turnable S) (hv : ∀ v, Visible (S.node v).geom) {B : Trimesh} (hB : TrimeshSound B)
    (hu : Function.Injective fun v => (S.node v).name) {T : RecTables ℝ (Fin (n + 1))} {i : ℕ} {v : Fin (n + 1)}
    {r : Recorder ℝ} {a b : ℕ} (hT : T.recs[i]? = some ⟨v, r.event, r.facet, r.atol, a, b⟩) {E : TallyEnv ℝ (Fin (n + 1))}
    (hE : E.name v = (S.node v).name) (hr : r.event = .exit → r.facet = none) (maxsteps : ℕ) (ray : Ray ℝ) (hf : Fresh ray)
    (hreg : ∀ᵐ s ∂independent, Library.Regular S B reader method maxsteps ray s) :
    chance (fun s => Spec.Seen T i (kTraceOne (kOps S reader method) T none maxsteps (launchOf ray s).ray s).1) =
      chance (fun s => ∃ e ∈ Library.run S B reader method maxsteps none ray s, Counted E v r e) := by
  have hs : ∀ᵐ s ∂independent, Sided (Library.run S B reader method maxsteps none ray s) :=
    ae_of_all _ fun s => run_sided (O := pyOps S B reader method) hu maxsteps none (maxsteps + 1) ray s
  have h1 := same_law hS hv hB method maxsteps ray hf hreg (counted_borel E v r hr)
  have h2 := same_law hS hv hB method maxsteps ray hf hreg (E := fun h => ¬ Sided h) (fun fs => by
    simp only [sided_form]
    exact MeasurableSet.const _)
  have h3 : chance (fun s => ¬ Sided (Library.run S B reader method maxsteps none ray s)) = 0 := hs
  rw [h3] at h2
  have h4 : ∀ᵐ s ∂independent, Sided (engineRun S method maxsteps ray s) := h2.symm
  have h5 : chance (fun s => ∃ e ∈ Library.run S B reader method maxsteps none ray s, Counted E v r e) =
      chance (fun s => Sided (Library.run S B reader method maxsteps none ray s) ∧
        ∃ e ∈ Library.run S B reader method maxsteps none ray s, Counted E v r e) := by
    apply measure_congr
    filter_upwards [hs] with s hs
    exact propext ⟨fun h => ⟨hs, h⟩, fun h => h.2⟩
  rw [h5, h1]
  apply measure_congr
  filter_upwards [h4] with s hs
  refine propext (Iff.trans (seen_history hu hT hE hr maxsteps ray s hs) ?_)
  exact ⟨fun h => ⟨hs, h⟩, fun h => h.2⟩

/-- **C118** For any number of threads and any schedule the share of rays a recorder of the engine reports tends to the chance
that the history the Python tracer gives for such a ray contains an event the recorder asks for. -/
theorem reports_converge (hS : Turnable S) (hv : ∀ v, Visible (S.node v).geom) {B : Trimesh} (hB : TrimeshSound B)
    (hu : Function.Injective fun v => (S.node v).name) {T : RecTables ℝ (Fin (n + 1))} {i : ℕ} {v : Fin (n + 1)}
    {r : Recorder ℝ} {a b : ℕ} (hT : T.recs[i]? = some ⟨v, r.event, r.facet, r.atol, a, b⟩) {E : TallyEnv ℝ (Fin (n + 1))}
    (hE : E.name v = (S.node v).name) (hr : r.event = .exit → r.facet = none) (maxsteps maxEvents : ℕ) (ray : Ray ℝ)
    (hf : Fresh ray) (hreg : ∀ᵐ s ∂independent, Library.Regular S B reader method maxsteps ray s) :
    ∀ᵐ ω ∂batch, ∀ (threads : ℕ → ℕ) (es : ℕ → List (Tagged ℝ (Row ℝ (Fin (n + 1)) Comp))) (st : ℕ → TallyState ℝ),
      (∀ k, Execution k (threads k) (kRay (kOps S reader method) T maxsteps maxEvents 0
        (launched (fun _ => ⟨ray.position, ray.direction, ray.wavelength, 0, 0, none⟩) ω k)) (es k)) →
      (∀ k, engineResult T ((Mem.exec (es k)).merged (threads k)) i = some (st k)) →
      Filter.Tendsto (fun k : ℕ => ((st k).rays : ℝ) / k) Filter.atTop
        (nhds (chance (fun s => ∃ e ∈ Library.run S B reader method maxsteps none ray s, Counted E v r e)).toReal) := by
  rw [← same_report hS hv hB hu hT hE hr maxsteps ray hf hreg]
  exact recorder_estimates S method T maxsteps maxEvents ⟨ray.position, ray.direction, ray.wavelength, 0, 0, none⟩ i

end
end PV.RecorderLaw
