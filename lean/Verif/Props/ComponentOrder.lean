import Verif.Spec.ComponentOrder
import Verif.Lemmas.OrderTrace
import Verif.Props.SameLaw
import Verif.Props.EngineChance
import Verif.Props.PartsDemo

/-!
**C126** The order in which the components of a material are listed changes no chance.
-/

namespace PV.ComponentOrder
open MeasureTheory Spec Library Turned Measured Budget Stream Reemission
open scoped ENNReal
noncomputable section
variable {n : ℕ} {S S' : LScene n}

theorem shuffled_form (h : Shuffled S S') : ∃ C, S' = Parts.withComps S C ∧ ∀ v, (C v).Perm (S.node v).comps := by
  refine ⟨fun v => (S'.node v).comps, ?_, h.perm⟩
  cases S' with
  | mk node =>
    congr 1
    funext v
    exact h.node v

theorem coef_nonneg {c : Comp} (hc : GoodComp c) (w : ℝ) : 0 ≤ c.kCoef w := by
  have key : ∀ T : Table ℝ, 1 ≤ T.n → MonoTo T.x T.n → (∀ i < T.n, 0 ≤ T.y i) → 0 ≤ ((some T).bind (kCoefficient · w)).getD 0 := by
    intro T h1 h2 h3
    have hr : ∀ f : ℕ → ℝ, ∀ i < T.n, reads f T.n i = some (f i) := fun f i hi => by simp [reads, hi]
    obtain ⟨v, e, h, -⟩ := Dist.kInterp_bounds T.x T.y T.n h1 h2 _ _ (hr T.x) (hr T.y) w 0 (∑ i ∈ Finset.range T.n, T.y i) fun i hi =>
      ⟨h3 i hi, Finset.single_le_sum (f := T.y) (fun j hj => h3 j (Finset.mem_range.1 hj)) (Finset.mem_range.2 hi)⟩
    show 0 ≤ (kInterp w (reads T.x T.n) (reads T.y T.n) T.n).getD 0
    rw [e]
    exact h
  unfold Comp.kCoef
  rcases hc.absDist with ⟨y, hy, e⟩ | ⟨T, hist, e⟩
  · rw [e]
    refine key ⟨1, fun _ => 0, fun _ => y⟩ le_rfl ?_ fun _ _ => hy
    intro i j _ _
    exact le_rfl
  · obtain ⟨e, h1, h2, h3⟩ := mkDist_ok e
    rw [e]
    cases hist
    · exact key T (by omega) h2.mono h3
    · exact le_rfl

/-! ### The engine -/

/-- **C126** Every Borel question about the complete history of a ray in the engine has the same chance whatever the order in
which the components of the materials are listed. -/
theorem engine_order (h : Shuffled S S') (hS : Sound S) (method : EmitMethod) (maxsteps : ℕ) (ray : Ray ℝ)
    {E : List (Step ℝ) → Prop} (hE : BorelSteps E) :
    chance (fun s => E (SameLaw.engineRun S' method maxsteps ray s)) = chance (fun s => E (SameLaw.engineRun S method maxsteps ray s)) := by
  obtain ⟨C, rfl, hp⟩ := shuffled_form h
  have h := Order.law (S := S) (C := C) (method := method) (maxsteps := maxsteps) hp
    (fun v c hc w => coef_nonneg (hS.comps v c hc) w) (maxsteps + 1) 0 _ (SameLaw.told_decides S ray hE) (launchOf ray ()).ray
  unfold chance SameLaw.engineRun
  simp only [fullHistory_eq]
  exact h

theorem run_append {α ν κ : Type} [Field α] [LinearOrder α] [FloorRing α] [DecidableEq ν] (T : RecTables α ν) (slot : LogSlot) (l m : List (KOut α ν κ)) :
    ∀ nev seen, kRun T slot (l ++ m) nev seen =
      ((kRun T slot l nev seen).1 ++ (kRun T slot m (kRun T slot l nev seen).2.1 (kRun T slot l nev seen).2.2).1,
        (kRun T slot m (kRun T slot l nev seen).2.1 (kRun T slot l nev seen).2.2).2) := by
  induction l with
  | nil => intro nev seen; rfl
  | cons o l ih =>
    intro nev seen
    cases o <;> simp [kRun, ih]

theorem loop_trace {α ν κ σ : Type} [Field α] [LinearOrder α] [FloorRing α] [DecidableEq ν] (K : KOps α ν κ σ) (T : RecTables α ν) (maxsteps : ℕ) :
    ∀ fuel count nev seen ray s, (kLoop K T none maxsteps fuel count nev seen ray s).1 =
      (kRun T none (kTrace K maxsteps fuel count ray s) nev seen).1 := by
  intro fuel
  induction fuel with
  | zero => intros; rfl
  | succ fuel ih =>
    intro count nev seen ray s
    unfold kLoop kTrace
    simp only [kExhausted, Bool.false_eq_true, if_false]
    rcases hb : kBody K maxsteps (count + 1) ray s with ⟨os, _ | ⟨r, t⟩⟩
    · simp only [run_append, ih]
    · rfl

theorem trace_writes {α ν κ σ : Type} [Field α] [LinearOrder α] [FloorRing α] [DecidableEq ν] (K : KOps α ν κ σ) (T : RecTables α ν) (maxsteps : ℕ)
    (ray : KRay α κ) (s : σ) :
    (kTraceOne K T none maxsteps ray s).1 = (kRun T none (kTrace K maxsteps (maxsteps + 1) 0 ray s) 0 fun _ => false).1 := by
  unfold kTraceOne
  exact loop_trace K T maxsteps _ _ _ _ _ _

theorem writes_decides (T : RecTables ℝ (Fin (n + 1))) {E : List (Effect ℝ (Row ℝ (Fin (n + 1)) Comp)) → Prop} (hE : BorelWrites E) :
    Decides fun os => E (kRun T none os 0 fun _ => false).1 := by
  intro X _ G hG
  obtain ⟨L, hL, rfl⟩ := hG
  refine ((kRun_tame T none L hL 0 fun _ => false).fst).set (fun y _ => E y) fun G hG => ?_
  obtain ⟨fs, v, hv, rfl⟩ := EngineChance.basic_writes hG
  exact hv (hE fs)

/-- **C126** Every Borel question about what the engine adds to its recorders for a ray (counts, crossings, histogram bins, sums)
has the same chance. -/
theorem recorders_order (h : Shuffled S S') (hS : Sound S) (method : EmitMethod) (T : RecTables ℝ (Fin (n + 1))) (maxsteps : ℕ)
    (ray : KRay ℝ Comp) {E : List (Effect ℝ (Row ℝ (Fin (n + 1)) Comp)) → Prop} (hE : BorelWrites E) :
    chance (fun s => E (kTraceOne (kOps S' reader method) T none maxsteps ray s).1) =
      chance (fun s => E (kTraceOne (kOps S reader method) T none maxsteps ray s).1) := by
  obtain ⟨C, rfl, hp⟩ := shuffled_form h
  simp only [trace_writes]
  exact Order.law (S := S) (C := C) (method := method) (maxsteps := maxsteps) hp
    (fun v c hc w => coef_nonneg (hS.comps v c hc) w) (maxsteps + 1) 0 _ (writes_decides T hE) ray

/-- **C126** So the share of rays that a recorder of the engine reports tends to the same number for both orders. -/
theorem recorder_order (h : Shuffled S S') (hS : Sound S) (method : EmitMethod) (T : RecTables ℝ (Fin (n + 1))) (maxsteps m : ℕ)
    (ray : KRay ℝ Comp) (r : ℕ) : ∃ p : ℝ, ∀ U ∈ [S, S'],
      ∀ᵐ ω ∂batch, ∀ (threads : ℕ → ℕ) (es : ℕ → List (Tagged ℝ (Row ℝ (Fin (n + 1)) Comp))) (st : ℕ → TallyState ℝ),
      (∀ k, Execution k (threads k) (kRay (kOps U reader method) T maxsteps m 0 (Spec.launched (fun _ => ray) ω k)) (es k)) →
      (∀ k, engineResult T ((Mem.exec (es k)).merged (threads k)) r = some (st k)) →
      Filter.Tendsto (fun k : ℕ => ((st k).rays : ℝ) / k) Filter.atTop (nhds p) := by
  refine ⟨(chance (fun s => Seen T r (kTraceOne (kOps S reader method) T none maxsteps ray s).1)).toReal, fun U hU => ?_⟩
  simp only [List.mem_cons, List.not_mem_nil, or_false] at hU
  rcases hU with rfl | rfl
  · exact EngineChance.recorder_estimates U method T maxsteps m ray r
  · rw [← recorders_order h hS method T maxsteps ray (EngineChance.seen_borel T r)]
    exact EngineChance.recorder_estimates U method T maxsteps m ray r

/-! ### The Python tracer -/

theorem yields_out {B : Trimesh} {method : EmitMethod} {maxsteps : ℕ} {maxpath : Option ℝ} (S : LScene n) (ray : Ray ℝ)
    (E : List (Ray ℝ × Event) → Prop) (s : Numbers) :
    Yields (Stream.follow (pyOps S B reader method) maxsteps maxpath ray) E s ↔
      Order.Out (pyOps S B reader method) maxsteps maxpath (maxsteps + 1) 0 (fun l => E ([(ray, .generate)] ++ l)) ray s := by
  unfold Yields Stream.follow Order.Out
  rcases passes (pyOps S B reader method) maxsteps maxpath (maxsteps + 1) 0 ray s with e | ⟨es, t⟩
  · exact ⟨fun ⟨_, _, h, _⟩ => by (cases h), fun ⟨_, _, h, _⟩ => by (cases h)⟩
  · constructor
    · rintro ⟨b, t, h, hb⟩
      cases h
      exact ⟨_, _, rfl, hb⟩
    · rintro ⟨b, t, h, hb⟩
      cases h
      exact ⟨_, _, rfl, hb⟩

theorem borel_asks {E : List (Ray ℝ × Event) → Prop} (hE : Borel E) : Order.Asks E := fun _ hb => Borel.measurable hE hb

/-- **C126** Every Borel question about the history of a ray in the Python tracer has the same chance whatever the order in which
the components of the materials are listed. -/
theorem python_order (h : Shuffled S S') (hS : Sound S) {B : Trimesh} (hB : BorelMesh B) (method : EmitMethod) (maxsteps : ℕ)
    (maxpath : Option ℝ) (ray : Ray ℝ) {E : List (Ray ℝ × Event) → Prop} (hE : Borel E) :
    chance (Yields (Stream.follow (pyOps S' B reader method) maxsteps maxpath ray) E) =
      chance (Yields (Stream.follow (pyOps S B reader method) maxsteps maxpath ray) E) := by
  obtain ⟨C, rfl, hp⟩ := shuffled_form h
  unfold chance
  rw [Order.set_iff (yields_out _ ray E), Order.set_iff (yields_out S ray E)]
  exact Order.python_law hp hS.comps hB _ _ ((borel_asks hE).prefix _) ray

theorem throw_order (h : Shuffled S S') (hS : Sound S) {lamps : List Light.Lamp} (hl : ∀ L ∈ lamps, Honest L ∧ Measured.Regular L)
    {B : Trimesh} (hB : BorelMesh B) (method : EmitMethod) (maxsteps : ℕ) (maxpath : Option ℝ) (seeded : ℕ → Numbers) (i : ℕ)
    {E : List (Ray ℝ × Event) → Prop} (hE : Borel E) :
    chance (Yields (Stream.throw (Stream.stage lamps S' B method maxsteps maxpath seeded) i) E) =
      chance (Yields (Stream.throw (Stream.stage lamps S B method maxsteps maxpath seeded) i) E) := by
  have key : ∀ U : LScene n, ∀ s, Yields (Stream.throw (Stream.stage lamps U B method maxsteps maxpath seeded) i) E s ↔
      ∃ ray t, Simulate.emitAt (Stream.stage lamps S B method maxsteps maxpath seeded) i s = .ok (ray, t) ∧
        Yields (Stream.follow (pyOps U B reader method) maxsteps maxpath ray) E t := by
    intro U s
    have e : Simulate.emitAt (Stream.stage lamps U B method maxsteps maxpath seeded) i s =
      Simulate.emitAt (Stream.stage lamps S B method maxsteps maxpath seeded) i s := rfl
    unfold Yields Stream.throw
    rw [e]
    rcases Simulate.emitAt (Stream.stage lamps S B method maxsteps maxpath seeded) i s with e | ⟨ray, t⟩
    · exact ⟨fun ⟨_, _, h, _⟩ => by (cases h), fun ⟨_, _, h, _⟩ => by (cases h)⟩
    · constructor
      · rintro ⟨b, u, h, hb⟩
        exact ⟨_, _, rfl, b, u, h, hb⟩
      · rintro ⟨_, _, h, b, u, h2, hb⟩
        cases h
        exact ⟨b, u, h2, hb⟩
  have hm : ∀ U : LScene n, MeasurableSet {s | Yields (Stream.throw (Stream.stage lamps U B method maxsteps maxpath seeded) i) E s} := by
    intro U
    have ht := throw_tame (X := Numbers) lamps (fun L h => (hl L h).2) U (mesh_tame hB) method maxsteps maxpath seeded i measurable_id
    refine ht.set (fun y _ => ∃ b t, y = .ok (b, t) ∧ E b) ?_
    rintro _ (⟨e, rfl⟩ | ⟨_, ⟨b, t, hb, ht, rfl⟩, rfl⟩)
    · simp
    · rw [Order.set_iff (q := fun s => E (b s)) fun s => ⟨fun ⟨_, _, h, hc⟩ => by cases h; exact hc, fun h => ⟨_, _, rfl, h⟩⟩]
      exact Borel.measurable hE hb
  have hf : Fair (Simulate.emitAt (Stream.stage lamps S B method maxsteps maxpath seeded) i) := by
    by_cases h0 : lamps.length = 0
    · have e : Simulate.emitAt (Stream.stage lamps S B method maxsteps maxpath seeded) i = fun _ => .error .zeroDivision := by
        funext s
        show (if lamps.length = 0 then _ else _) = _
        rw [if_pos h0]
      rw [e]
      exact fair_of (Reads.error _) (Tame.error _)
    · have hi : i % lamps.length < lamps.length := Nat.mod_lt _ (Nat.pos_of_ne_zero h0)
      have e : Simulate.emitAt (Stream.stage lamps S B method maxsteps maxpath seeded) i = Stream.launch lamps[i % lamps.length] := by
        funext s
        have e1 : (Stream.stage lamps S B method maxsteps maxpath seeded).lights = lamps := rfl
        unfold Simulate.emitAt
        rw [e1, if_neg h0, List.getElem?_eq_getElem hi]
        rfl
      rw [e]
      obtain ⟨h1, h2⟩ := hl _ (List.getElem_mem hi)
      exact fair_of (launch_reads _ h1) (launch_tame _ h2 measurable_id)
  have hm1 := hm S'
  have hm2 := hm S
  unfold chance
  rw [Order.set_iff (key S')] at hm1 ⊢
  rw [Order.set_iff (key S)] at hm2 ⊢
  exact Order.fair_same hf hm1 hm2 fun ray _ _ _ => python_order h hS hB method maxsteps maxpath ray hE

/-- **C126** So does every joint question about the histories of a simulation with any lights. -/
theorem simulation_order (h : Shuffled S S') (hS : Sound S) {lamps : List Light.Lamp} (hl : ∀ L ∈ lamps, Honest L ∧ Measured.Regular L)
    {B : Trimesh} (hB : BorelMesh B) (method : EmitMethod) (maxsteps : ℕ) (maxpath : Option ℝ) (seeded : ℕ → Numbers)
    (E : ℕ → List (Ray ℝ × Event) → Prop) (hE : ∀ i, Borel (E i)) (k : ℕ) :
    chance (fun s => AllIn E (Simulate.doSimulation (Stream.stage lamps S' B method maxsteps maxpath seeded) k none s)) =
      chance (fun s => AllIn E (Simulate.doSimulation (Stream.stage lamps S B method maxsteps maxpath seeded) k none s)) := by
  rw [library_independent _ _ _ _ _ _ _ hl hB E hE k, library_independent _ _ _ _ _ _ _ hl hB E hE k]
  exact Finset.prod_congr rfl fun i _ => throw_order h hS hl hB method maxsteps maxpath seeded i (hE i)

/-! ### Two dyes -/

/-- The turned ball with the two dyes listed the other way round. -/
def swapped (q : ℝ) : LScene 1 where
  node v := { (Parts.halved q).node v with comps := ((Parts.halved q).node v).comps.reverse }

theorem swapped_shuffled (q : ℝ) : Shuffled (Parts.halved q) (swapped q) := ⟨fun _ => rfl, fun _ => List.reverse_perm _⟩

theorem picks {comps : List Comp} {cs : List ℝ} {w u : ℝ} (hcs : coefficients comps w = .ok cs) (h : ∀ c ∈ cs, 0 ≤ c) (hs : 0 < cs.sum)
    (h0 : 0 ≤ u) (h1 : u < 1) {c : Comp} {i : ℕ} (hi : i < cs.length) (hc : comps[i]? = some c) (ha : (cs.take i).sum / cs.sum ≤ u)
    (hb : u < (cs.take (i + 1)).sum / cs.sum) : pickComponent reader comps w (fun _ => u) = .ok (c, fun _ => u) := by
  have e := (Material.component_interval h hs hi h0 h1).1.2 ⟨ha, hb⟩
  have hn : reader.next (fun _ => u) = (u, fun _ => u) := rfl
  unfold pickComponent
  simp only [hcs, hn, e, hc]

/-- The order does matter to a single run: the number 0.1 chooses the first dye in one scene and the second in the other. -/
theorem swapped_differs (q w : ℝ) :
    pickComponent reader ((Parts.halved q).node 1).comps w (fun _ => 0.1) = .ok (Parts.share q "first" (1 / 4), fun _ => 0.1) ∧
      pickComponent reader ((swapped q).node 1).comps w (fun _ => 0.1) = .ok (Parts.share q "second" (3 / 4), fun _ => 0.1) := by
  constructor
  · exact picks (cs := [1 / 4, 3 / 4]) (i := 0) rfl (by norm_num) (by norm_num) (by norm_num) (by norm_num) (by norm_num) rfl
      (by norm_num) (by norm_num)
  · exact picks (cs := [3 / 4, 1 / 4]) (i := 0) rfl (by norm_num) (by norm_num) (by norm_num) (by norm_num) (by norm_num) rfl
      (by norm_num) (by norm_num)

example {q : ℝ} (h0 : 0 ≤ q) (h1 : q ≤ 1) {B : Trimesh} (hB : BorelMesh B) (maxsteps : ℕ) (ray : Ray ℝ) {E : List (Ray ℝ × Event) → Prop}
    (hE : Borel E) :
    chance (Yields (Stream.follow (pyOps (swapped q) B reader .full) maxsteps none ray) E) =
      chance (Yields (Stream.follow (pyOps (Parts.halved q) B reader .full) maxsteps none ray) E) :=
  python_order (swapped_shuffled q) (Parts.halved_accepted h0 h1).toSound hB _ _ _ ray hE

example {q : ℝ} (h0 : 0 ≤ q) (h1 : q ≤ 1) (maxsteps : ℕ) (ray : Ray ℝ) {E : List (Step ℝ) → Prop} (hE : BorelSteps E) :
    chance (fun s => E (SameLaw.engineRun (swapped q) .full maxsteps ray s)) =
      chance (fun s => E (SameLaw.engineRun (Parts.halved q) .full maxsteps ray s)) :=
  engine_order (swapped_shuffled q) (Parts.halved_accepted h0 h1).toSound _ _ ray hE

end
end PV.ComponentOrder
