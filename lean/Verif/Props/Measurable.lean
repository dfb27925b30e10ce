import Verif.Spec.Fate
import Verif.Lemmas.TameTrace
import Verif.Props.Stream
import Verif.Props.Estimates

/-!
C102: every Borel question about a simulation of a library scene has a chance, and the rays of the simulation are
independent.
-/

namespace PV.Measured
open MeasureTheory Spec Stream
variable {X : Type} [MeasurableSpace X] {n : ℕ}

/-! ### Borel conditions -/

theorem basic_history {G : X → List (Ray ℝ × Event)} (hG : basic G) :
    ∃ kinds, ∃ v : X → ℕ → Fin 9 → ℝ, Measurable v ∧ G = fun x => storyAt kinds (v x) := by
  obtain ⟨L, hL, rfl⟩ := hG
  have key : ∃ M : List ((Event × Option String) × (X → Fin 9 → ℝ)), (∀ m ∈ M, Measurable m.2) ∧
      L = M.map fun m x => (rayAt m.1.2 (m.2 x), m.1.1) := by
    induction L with
    | nil => exact ⟨[], by simp, rfl⟩
    | cons f L ih =>
      obtain ⟨M, hM, e⟩ := ih fun g hg => hL g (List.mem_cons_of_mem _ hg)
      obtain ⟨_, _, ⟨p, d, w, t, u, src, ⟨px, py, pz, h1, h2, h3, rfl⟩, ⟨dx, dy, dz, h4, h5, h6, rfl⟩, hw, ht, hu, rfl⟩,
        ⟨ev, rfl⟩, rfl⟩ := hL f List.mem_cons_self
      refine ⟨((ev, src), fun x => ![px x, py x, pz x, dx x, dy x, dz x, w x, t x, u x]) :: M, ?_, ?_⟩
      · intro m hm
        rcases List.mem_cons.1 hm with rfl | hm
        · refine measurable_pi_lambda _ fun i => ?_
          fin_cases i <;> assumption
        · exact hM m hm
      · rw [List.map_cons, e]
        congr 1
  obtain ⟨M, hM, rfl⟩ := key
  refine ⟨M.map (·.1), fun x i => ((M[i]?).map fun m => m.2 x).getD 0, ?_, ?_⟩
  · refine measurable_pi_lambda _ fun i => ?_
    rcases h : M[i]? with _ | m
    · simp only [Option.map_none, Option.getD_none]
      exact measurable_const
    · simp only [Option.map_some, Option.getD_some]
      exact hM m (List.mem_of_getElem? h)
  · funext x
    unfold storyAt
    apply List.ext_getElem
    · simp
    · intro i h1 h2
      simp only [List.length_map] at h1
      simp [h1]

theorem Borel.measurable {E : List (Ray ℝ × Event) → Prop} (hE : Borel E) {G : X → List (Ray ℝ × Event)}
    (hG : basic G) : MeasurableSet {x | E (G x)} := by
  obtain ⟨kinds, v, hv, rfl⟩ := basic_history hG
  exact hv (hE kinds)

theorem mesh_tame {B : Trimesh} (hB : BorelMesh B) : MeasurableMesh B := by
  intro size X _ o d ho hd
  obtain ⟨ox, oy, oz, h1, h2, h3, rfl⟩ := ho
  obtain ⟨dx, dy, dz, h4, h5, h6, rfl⟩ := hd
  have hv : Measurable (fun x => ![ox x, oy x, oz x, dx x, dy x, dz x] : X → Fin 6 → ℝ) := by
    refine measurable_pi_lambda _ fun i => ?_
    fin_cases i <;> assumption
  have hlen : Measurable (fun x => (B size ⟨ox x, oy x, oz x⟩ ⟨dx x, dy x, dz x⟩).length) :=
    measurable_to_countable' fun k => hv ((hB size).1 k)
  have e : (fun x => B size ⟨ox x, oy x, oz x⟩ ⟨dx x, dy x, dz x⟩) = fun x =>
      (fun k x => (List.range k).map fun i => (B size ⟨ox x, oy x, oz x⟩ ⟨dx x, dy x, dz x⟩).getD i 0)
        (B size ⟨ox x, oy x, oz x⟩ ⟨dx x, dy x, dz x⟩).length x := by
    funext x
    apply List.ext_getElem
    · simp
    · intro i h1 h2
      simp [h1]
  rw [e]
  refine Tame.index hlen (G := fun k x => (List.range k).map fun i =>
    (B size ⟨ox x, oy x, oz x⟩ ⟨dx x, dy x, dz x⟩).getD i 0) fun k => .of ⟨(List.range k).map fun i x =>
      (B size ⟨ox x, oy x, oz x⟩ ⟨dx x, dy x, dz x⟩).getD i 0, ?_, ?_⟩
  · intro f hf
    obtain ⟨i, -, rfl⟩ := List.mem_map.1 hf
    exact ((hB size).2 i).comp hv
  · funext x
    rw [List.map_map]
    rfl

/-! ### Streams do not repeat -/

theorem never_equal {a b : ℕ} (h : a ≠ b) : ∀ᵐ s ∂independent, later a s ≠ later b s := by
  have h1 : ∀ᵐ s ∂independent, s a ≠ s b := by
    have hm : MeasurableSet {s : Numbers | s a = s b} :=
      measurableSet_eq_fun (measurable_pi_apply a) (measurable_pi_apply b)
    have hi := ProbabilityTheory.iIndepFun_infinitePi (P := fun _ : ℕ => Spec.uniform) (X := fun _ u => u)
      (fun _ => measurable_id)
    have hi2 := (ProbabilityTheory.indepFun_iff_map_prod_eq_prod_map_map (measurable_pi_apply a).aemeasurable
      (measurable_pi_apply b).aemeasurable).1 (hi.indepFun h)
    have hp : ∀ c : ℕ, independent.map (fun s : Numbers => s c) = Spec.uniform := fun c =>
      (measurePreserving_eval_infinitePi (fun _ : ℕ => Spec.uniform) c).map_eq
    have hd : MeasurableSet {p : ℝ × ℝ | p.1 = p.2} := measurableSet_eq_fun measurable_fst measurable_snd
    have h0 : independent {s : Numbers | s a = s b} = 0 := by
      have e : {s : Numbers | s a = s b} = (fun s : Numbers => (s a, s b)) ⁻¹' {p : ℝ × ℝ | p.1 = p.2} := rfl
      rw [e, ← Measure.map_apply ((measurable_pi_apply a).prodMk (measurable_pi_apply b)) hd]
      change (independent.map fun s : Numbers => (s a, s b)) _ = 0
      have hi3 : independent.map (fun s : Numbers => (s a, s b)) = Spec.uniform.prod Spec.uniform := by
        rw [show independent.map (fun s : Numbers => (s a, s b)) = _ from hi2]
        congr 1
        · exact hp a
        · exact hp b
      rw [hi3, Measure.prod_apply hd]
      have : ∀ x : ℝ, Spec.uniform (Prod.mk x ⁻¹' {p : ℝ × ℝ | p.1 = p.2}) = 0 := by
        intro x
        have : Prod.mk x ⁻¹' {p : ℝ × ℝ | p.1 = p.2} = {x} := by
          ext y
          simp [eq_comm]
        rw [this, Spec.uniform]
        refine le_antisymm ((Measure.restrict_apply_le _ _).trans ?_) bot_le
        simp
      rw [lintegral_congr this]
      simp
    exact measure_eq_zero_iff_ae_notMem.1 h0
  filter_upwards [h1] with s hs he
  exact hs (by simpa [later] using congrFun he 0)

theorem never_repeats : ∀ᵐ s ∂independent, ∀ a b : ℕ, a ≠ b → later a s ≠ later b s := by
  rw [ae_all_iff]
  intro a
  rw [ae_all_iff]
  intro b
  by_cases h : a = b
  · exact ae_of_all _ fun s h' => absurd h h'
  · filter_upwards [never_equal h] with s hs _
    exact hs

/-- A program that reads the stream in order and measurably: how many numbers it takes is decided. -/
theorem counted {γ : Type} [Shape γ] {f : Numbers → Except Err (γ × Numbers)} {m : Numbers → ℕ} (hr : ReadsBy m f)
    (hf : Tame f) : CountDecided m f := by
  intro k
  have h1 : MeasurableSet {s : Numbers | ∃ b, f s = .ok (b, later k s)} := by
    refine hf.set (fun y s => ∃ b, y = .ok (b, later k s)) ?_
    rintro _ (⟨e, rfl⟩ | ⟨_, ⟨b, t, hb, ht, rfl⟩, rfl⟩)
    · simp
    · have ht : Measurable t := ht
      have : {s : Numbers | ∃ c, (.ok (b s, t s) : Except Err (γ × Numbers)) = .ok (c, later k s)} =
          ⋂ i, {s | t s i = later k s i} := by
        ext s
        simp only [Except.ok.injEq, Prod.mk.injEq, Set.mem_ofPred_eq, Set.mem_iInter]
        constructor
        · rintro ⟨c, -, h⟩ i
          rw [h]
        · intro h
          exact ⟨b s, rfl, funext h⟩
      rw [this]
      exact MeasurableSet.iInter fun i => measurableSet_eq_fun ((measurable_pi_apply i).comp ht)
        ((measurable_pi_apply i).comp (later_measurable k))
  refine h1.nullMeasurableSet.congr ?_
  rw [Filter.eventuallyEq_set]
  filter_upwards [never_repeats] with s hs
  have h2 := (hr s s fun _ _ => rfl).2
  constructor
  · rintro ⟨b, h⟩
    rcases h2 with ⟨e, e1, -⟩ | ⟨c, e1, -⟩
    · rw [h] at e1; cases e1
    · refine ⟨?_, b, _, h, trivial⟩
      by_contra hne
      rw [h] at e1
      simp only [Except.ok.injEq, Prod.mk.injEq] at e1
      exact hs k (m s) (Ne.symm hne) e1.2
  · rintro ⟨rfl, b, t, h, -⟩
    rcases h2 with ⟨e, e1, -⟩ | ⟨c, e1, -⟩
    · rw [h] at e1; cases e1
    · exact ⟨c, e1⟩

/-! ### Simulations of library scenes -/

section Library
variable (lamps : List Light.Lamp) (S : LScene n) (B : Trimesh) (method : EmitMethod) (maxsteps : ℕ)
  (maxpath : Option ℝ) (seeded : ℕ → Numbers)

/-- **C102** Every Borel question about the history of a ray has a chance. -/
theorem ray_decided (hl : ∀ L ∈ lamps, Regular L) (hB : BorelMesh B) {E : List (Ray ℝ × Event) → Prop} (hE : Borel E)
    (i : ℕ) : Decided (Yields (throw (stage lamps S B method maxsteps maxpath seeded) i) E) := by
  have ht := throw_tame (X := Numbers) lamps hl S (mesh_tame hB) method maxsteps maxpath seeded i measurable_id
  refine MeasurableSet.nullMeasurableSet ?_
  refine ht.set (fun y _ => ∃ b t, y = .ok (b, t) ∧ E b) ?_
  rintro _ (⟨e, rfl⟩ | ⟨_, ⟨b, t, hb, ht, rfl⟩, rfl⟩)
  · simp
  · have : {s : Numbers | ∃ c u, (.ok (b s, t s) : Except Err (List (Ray ℝ × Event) × Numbers)) = .ok (c, u) ∧ E c} =
        {s | E (b s)} := by
      ext s
      constructor
      · rintro ⟨c, u, h, hc⟩
        cases h
        exact hc
      · intro h
        exact ⟨_, _, rfl, h⟩
    rw [this]
    exact Borel.measurable hE hb

/-- **C102** A given ray traced on its own, with the numbers of a stream: every Borel question has a chance. -/
theorem follow_decided (hB : BorelMesh B) (ray : Ray ℝ) {E : List (Ray ℝ × Event) → Prop} (hE : Borel E) :
    Decided (Yields (Stream.follow (pyOps S B reader method) maxsteps maxpath ray) E) := by
  have hr : basic (fun _ : Numbers => ray) := ⟨_, _, _, _, _, _, vec_const ray.position, vec_const ray.direction,
    measurable_const, measurable_const, measurable_const, rfl⟩
  have ht := follow_tame (X := Numbers) (s := id) S method (mesh_tame hB) maxsteps maxpath hr measurable_id
  refine MeasurableSet.nullMeasurableSet ?_
  refine ht.set (fun y _ => ∃ b t, y = .ok (b, t) ∧ E b) ?_
  rintro _ (⟨e, rfl⟩ | ⟨_, ⟨b, t, hb, ht, rfl⟩, rfl⟩)
  · simp
  · have : {s : Numbers | ∃ c u, (.ok (b s, t s) : Except Err (List (Ray ℝ × Event) × Numbers)) = .ok (c, u) ∧ E c} =
        {s | E (b s)} := by
      ext s
      constructor
      · rintro ⟨c, u, h, hc⟩
        cases h
        exact hc
      · intro h
        exact ⟨_, _, rfl, h⟩
    rw [this]
    exact Borel.measurable hE hb

theorem ray_counted (hl : ∀ L ∈ lamps, Honest L ∧ Regular L) (hB : BorelMesh B) :
    ∃ m : ℕ → Numbers → ℕ, (∀ i, ReadsBy (m i) (throw (stage lamps S B method maxsteps maxpath seeded) i)) ∧
      ∀ i, CountDecided (m i) (throw (stage lamps S B method maxsteps maxpath seeded) i) := by
  choose m hm using stage_reads lamps (fun L h => (hl L h).1) S B method maxsteps maxpath seeded
  exact ⟨m, hm, fun i => counted (hm i)
    (throw_tame (X := Numbers) lamps (fun L h => (hl L h).2) S (mesh_tame hB) method maxsteps maxpath seeded i
      measurable_id)⟩

/-- **C102** In every simulation of a library scene the rays are independent, whatever Borel fates are asked for. -/
theorem library_independent (hl : ∀ L ∈ lamps, Honest L ∧ Regular L) (hB : BorelMesh B)
    (E : ℕ → List (Ray ℝ × Event) → Prop) (hE : ∀ i, Borel (E i)) (k : ℕ) :
    chance (fun s => AllIn E (Simulate.doSimulation (stage lamps S B method maxsteps maxpath seeded) k none s)) =
      ∏ i ∈ Finset.range k, chance (Yields (throw (stage lamps S B method maxsteps maxpath seeded) i) (E i)) := by
  obtain ⟨m, hr, hc⟩ := ray_counted lamps S B method maxsteps maxpath seeded hl hB
  exact rays_independent _ hr hc E
    (fun i => ray_decided lamps S B method maxsteps maxpath seeded (fun L h => (hl L h).2) hB (hE i) i) k

/-- **C102** Rays of a library scene thrown with independent sequences: with probability one the fraction with a Borel
fate tends to its chance. -/
theorem library_estimate (hl : ∀ L ∈ lamps, Regular L) (hB : BorelMesh B) {E : List (Ray ℝ × Event) → Prop}
    (hE : Borel E) (i : ℕ) :
    ∀ᵐ ω ∂batch, Filter.Tendsto (fun k : ℕ =>
      (count (Yields (throw (stage lamps S B method maxsteps maxpath seeded) i) E) k ω : ℝ) / k) Filter.atTop
      (nhds (chance (Yields (throw (stage lamps S B method maxsteps maxpath seeded) i) E)).toReal) :=
  Estimates.estimate_converges (ray_decided lamps S B method maxsteps maxpath seeded hl hB hE i)

variable {lamps S B method maxsteps maxpath seeded}

theorem library_sound (hl : ∀ L ∈ lamps, Honest L ∧ Regular L) (hB : BorelMesh B)
    (safe : ∀ i, ∀ᵐ s ∂independent, Yields (throw (stage lamps S B method maxsteps maxpath seeded) i) (fun _ => True) s) :
    Sound (stage lamps S B method maxsteps maxpath seeded) :=
  ⟨ray_counted lamps S B method maxsteps maxpath seeded hl hB, safe⟩

/-- **C102** The share of histories in a Borel set is within `ε` of the mean of the rays' own chances, except with
chance `2 exp (-2 k ε²)`; the only assumption is that rays do not fail. -/
theorem library_share_error (hl : ∀ L ∈ lamps, Honest L ∧ Regular L) (hB : BorelMesh B)
    (safe : ∀ i, ∀ᵐ s ∂independent, Yields (throw (stage lamps S B method maxsteps maxpath seeded) i) (fun _ => True) s)
    {E : List (Ray ℝ × Event) → Prop} (hE : Borel E) {k : ℕ} (hk : 0 < k) {ε : ℝ} (hε : 0 ≤ ε) :
    chance (fun s => ε ≤ |(tally E (Simulate.doSimulation (stage lamps S B method maxsteps maxpath seeded) k none s) : ℝ) / k -
      (∑ i ∈ Finset.range k, (chance (Yields (throw (stage lamps S B method maxsteps maxpath seeded) i) E)).toReal) / k|) ≤
      ENNReal.ofReal (2 * Real.exp (-(2 * k * ε ^ 2))) :=
  share_error (library_sound hl hB safe)
    (fun i => ray_decided lamps S B method maxsteps maxpath seeded (fun L h => (hl L h).2) hB hE i) hk hε

/-- **C102** With one light the share of histories in a Borel set tends to its chance, with probability one. -/
theorem library_one_light {L : Light.Lamp} (hl : Honest L ∧ Regular L) (hB : BorelMesh B)
    (safe : ∀ᵐ s ∂independent, Yields (throw (stage [L] S B method maxsteps maxpath seeded) 0) (fun _ => True) s)
    {E : List (Ray ℝ × Event) → Prop} (hE : Borel E) :
    ∀ᵐ s ∂independent, Filter.Tendsto (fun k : ℕ =>
      (tally E (Simulate.doSimulation (stage [L] S B method maxsteps maxpath seeded) k none s) : ℝ) / k)
      Filter.atTop (nhds (chance (Yields (throw (stage [L] S B method maxsteps maxpath seeded) 0) E)).toReal) := by
  have hl' : ∀ K ∈ [L], Honest K ∧ Regular K := fun K hK => by
    rw [List.mem_singleton.1 hK]
    exact hl
  have h : ∀ i, throw (stage [L] S B method maxsteps maxpath seeded) i =
      throw (stage [L] S B method maxsteps maxpath seeded) 0 := by
    intro i
    funext s
    unfold Stream.throw Simulate.emitAt
    simp [stage, Nat.mod_one]
  exact one_light (library_sound hl' hB fun i => by rw [h i]; exact safe) rfl
    (ray_decided _ S B method maxsteps maxpath seeded (fun K hK => (hl' K hK).2) hB hE 0)

end Library

end PV.Measured
