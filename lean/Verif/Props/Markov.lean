import Verif.Spec.Markov
import Verif.Props.Reemission
import Verif.Props.ReemissionDemo
import Verif.Props.Resume

/-!
**C133** The chances of a ray are the average, over its next event, of its chances from there.
-/

namespace PV.Markov
open MeasureTheory Spec Stream Measured Reemission
noncomputable section

section generic
variable {β ε : Type} {f : Numbers → Except ε (β × Numbers)}

/-- What is left after `f`. -/
def left (f : Numbers → Except ε (β × Numbers)) (Q : β → Numbers → Prop) (s : Numbers) : ENNReal :=
  match f s with
  | .ok (b, _) => independent {t | Q b t}
  | .error _ => 0

theorem integral (hf : Fair f) {A : Set Numbers} {Q : β → Numbers → Prop}
    (eA : ∀ s, s ∈ A ↔ ∃ b t, f s = .ok (b, t) ∧ Q b t) (hA : MeasurableSet A) :
    independent A = ∫⁻ s, left f Q s ∂independent := by
  obtain ⟨n, hf, hn⟩ := hf
  rw [split hf hn hA fun s hs => by obtain ⟨b, t, e, -⟩ := (eA s).1 hs; exact ⟨b, t, e, trivial⟩]
  have h1 : ∀ k, ∫⁻ s in After n f k, independent {t | join k (s, t) ∈ A} ∂independent =
      ∫⁻ s in After n f k, left f Q s ∂independent := by
    intro k
    refine lintegral_congr_ae ((ae_restrict_iff'₀ (After.decided hn k)).2 (ae_of_all _ fun s hs => ?_))
    obtain ⟨b, e1, e2⟩ := After.result hf hs
    have e : {t | join k (s, t) ∈ A} = {t | Q b t} := by
      ext t
      show join k (s, t) ∈ A ↔ Q b t
      rw [eA, e2]
      exact ⟨fun ⟨_, _, h, q⟩ => by cases h; exact q, fun q => ⟨b, t, rfl, q⟩⟩
    show independent {t | join k (s, t) ∈ A} = left f Q s
    rw [e]
    unfold left
    rw [e1]
  rw [tsum_congr h1, ← lintegral_iUnion₀ (After.decided hn) After.disjoint,
    ← lintegral_indicator₀ (NullMeasurableSet.iUnion (After.decided hn))]
  congr 1
  funext s
  by_cases hs : s ∈ ⋃ k, After n f k
  · rw [Set.indicator_of_mem hs]
  · rw [Set.indicator_of_notMem hs]
    unfold left
    rcases e : f s with _ | ⟨b, t⟩
    · rfl
    · exact absurd (Set.mem_iUnion.2 ⟨n s, (⟨rfl, b, t, e, trivial⟩ : s ∈ After n f (n s))⟩) hs

/-- What is left can be averaged. -/
theorem left_measurable (hf : Fair f) {A : Set Numbers} {Q : β → Numbers → Prop}
    (eA : ∀ s, s ∈ A ↔ ∃ b t, f s = .ok (b, t) ∧ Q b t) (hA : MeasurableSet A) : AEMeasurable (left f Q) independent := by
  obtain ⟨n, hf, hn⟩ := hf
  have e : left f Q = fun s => ∑' k, (After n f k).indicator (fun s => independent {t | join k (s, t) ∈ A}) s := by
    funext s
    have other : ∀ k, k ≠ n s → (After n f k).indicator (fun s => independent {t | join k (s, t) ∈ A}) s = 0 := fun k hk =>
      Set.indicator_of_notMem (fun h => hk h.1.symm) _
    rw [tsum_eq_single (n s) other]
    by_cases hs : s ∈ After n f (n s)
    · rw [Set.indicator_of_mem hs]
      obtain ⟨b, e1, e2⟩ := After.result hf hs
      have e : {t | join (n s) (s, t) ∈ A} = {t | Q b t} := by
        ext t
        show join (n s) (s, t) ∈ A ↔ Q b t
        rw [eA, e2]
        exact ⟨fun ⟨_, _, h, q⟩ => by cases h; exact q, fun q => ⟨b, t, rfl, q⟩⟩
      unfold left
      rw [e, e1]
    · rw [Set.indicator_of_notMem hs]
      unfold left
      rcases e : f s with _ | ⟨b, t⟩
      · rfl
      · exact absurd ⟨rfl, b, t, e, trivial⟩ hs
  rw [e]
  exact AEMeasurable.ennreal_tsum fun k =>
    (measurable_measure_prodMk_left (join_measurable k hA)).aemeasurable.indicator₀ (After.decided hn k)

end generic

section budget
variable {α ν κ σ : Type} [Field α] [LinearOrder α] [DecidableEq ν] (O : Ops α ν κ σ)

theorem pass_budget (maxpath : Option α) (maxsteps count : ℕ) (ray : Ray α) (s : σ) :
    pass O (maxsteps + 1) maxpath (count + 1) ray s = pass O maxsteps maxpath count ray s := by
  have e : (count + 1 > maxsteps + 1) = (count > maxsteps) := by
    rw [eq_iff_iff]
    omega
  unfold pass
  simp only [e]

theorem passes_budget (maxpath : Option α) : ∀ (fuel maxsteps count : ℕ) (ray : Ray α) (s : σ),
    passes O (maxsteps + 1) maxpath fuel (count + 1) ray s = passes O maxsteps maxpath fuel count ray s
  | 0, _, _, _, _ => rfl
  | fuel + 1, maxsteps, count, ray, s => by
    unfold passes
    rw [pass_budget]
    rcases pass O maxsteps maxpath (count + 1) ray s with e | ⟨⟨es, _ | r⟩, t⟩
    · rfl
    · rfl
    · simp only [passes_budget maxpath fuel maxsteps (count + 1) r t]

end budget

variable {n : ℕ} (S : LScene n) {B : Trimesh} (method : EmitMethod) (maxpath : Option ℝ) (maxsteps : ℕ)

/-- What is asked of the numbers after the first pass. -/
def Rest (S : LScene n) (B : Trimesh) (method : EmitMethod) (maxpath : Option ℝ) (maxsteps : ℕ) (ray : Ray ℝ)
    (E : List (Ray ℝ × Event) → Prop) (b : List (Step ℝ) × Option (Ray ℝ)) (t : Numbers) : Prop :=
  match b with
  | (es, none) => E ((ray, .generate) :: rowsAdded es)
  | (es, some ray') => Yields (Stream.follow (pyOps S B reader method) maxsteps maxpath ray')
      (fun h => E ((ray, .generate) :: rowsAdded es ++ h.tail)) t

theorem follow_first (ray : Ray ℝ) (E : List (Ray ℝ × Event) → Prop) (s : Numbers) :
    Yields (Stream.follow (pyOps S B reader method) (maxsteps + 1) maxpath ray) E s ↔
      ∃ b t, Stream.pass (pyOps S B reader method) (maxsteps + 1) maxpath 1 ray s = .ok (b, t) ∧
        Rest S B method maxpath maxsteps ray E b t := by
  unfold Yields Stream.follow
  rw [passes]
  rcases hp : Stream.pass (pyOps S B reader method) (maxsteps + 1) maxpath (0 + 1) ray s with e | ⟨⟨es, _ | r⟩, t⟩
  · simp
  · constructor
    · rintro ⟨b, t', h, hb⟩
      cases h
      exact ⟨_, _, rfl, hb⟩
    · rintro ⟨b, t', h, hb⟩
      cases h
      exact ⟨_, _, rfl, hb⟩
  · have hb := passes_budget (pyOps S B reader method) maxpath (maxsteps + 1) maxsteps 0 r t
    dsimp only
    rw [hb]
    constructor
    · rintro ⟨b, t', h, hb⟩
      refine ⟨_, _, rfl, ?_⟩
      show ∃ b t', Stream.follow (pyOps S B reader method) maxsteps maxpath r t = .ok (b, t') ∧ _
      unfold Stream.follow
      rcases hq : passes (pyOps S B reader method) maxsteps maxpath (maxsteps + 1) 0 r t with e | ⟨es', u⟩
      · rw [hq] at h
        cases h
      · rw [hq] at h
        cases h
        refine ⟨_, _, rfl, ?_⟩
        simpa [rowsAdded] using hb
    · rintro ⟨b, t', h, hb⟩
      cases h
      obtain ⟨h', u, h1, h2⟩ := hb
      unfold Stream.follow at h1
      rcases hq : passes (pyOps S B reader method) maxsteps maxpath (maxsteps + 1) 0 r t with e | ⟨es', u⟩
      · rw [hq] at h1
        cases h1
      · rw [hq] at h1
        cases h1
        refine ⟨_, _, rfl, ?_⟩
        simpa [rowsAdded] using h2

theorem follow_set (hB : BorelMesh B) (ray : Ray ℝ) {E : List (Ray ℝ × Event) → Prop} (hE : Borel E) :
    MeasurableSet {s | Yields (Stream.follow (pyOps S B reader method) maxsteps maxpath ray) E s} := by
  have ht := follow_tame (X := Numbers) (s := id) S method (mesh_tame hB) maxsteps maxpath (ray_basic ray) measurable_id
  refine ht.set (fun y _ => ∃ b t, y = .ok (b, t) ∧ E b) ?_
  rintro _ (⟨e, rfl⟩ | ⟨_, ⟨b, t, hb, ht, rfl⟩, rfl⟩)
  · simp
  · have : {s : Numbers | ∃ c u, (.ok (b s, t s) : Except Err (List (Ray ℝ × Event) × Numbers)) = .ok (c, u) ∧ E c} =
        {s | E (b s)} := by
      ext s
      constructor
      · rintro ⟨c, u, h, hc⟩
        cases h
        exact hc
      · intro h
        exact ⟨_, _, rfl, h⟩
    rw [this]
    exact Borel.measurable hE hb

theorem one_or_none (p : Prop) [Decidable p] : independent {_t : Numbers | p} = if p then 1 else 0 := by
  split_ifs with h
  · rw [show {_t : Numbers | p} = Set.univ by ext; simp [h], measure_univ]
  · rw [show {_t : Numbers | p} = ∅ by ext; simp [h], measure_empty]

theorem pass_fair (hB : BorelMesh B) (ray : Ray ℝ) : Fair (Stream.pass (pyOps S B reader method) (maxsteps + 1) maxpath 1 ray) :=
  fair_of (pass_reads (library_reads S B method) _ _ _ _)
    (pass_tame S method (mesh_tame hB) (maxsteps + 1) maxpath 1 (ray_basic ray) measurable_id)

theorem hope_left (ray : Ray ℝ) (E : List (Ray ℝ × Event) → Prop) : hope S B method maxpath maxsteps ray E =
    left (Stream.pass (pyOps S B reader method) (maxsteps + 1) maxpath 1 ray) (Rest S B method maxpath maxsteps ray E) := by
  funext s
  unfold left hope
  rcases Stream.pass (pyOps S B reader method) (maxsteps + 1) maxpath 1 ray s with e | ⟨⟨es, _ | r⟩, t⟩
  · rfl
  · classical
    exact (one_or_none _).symm
  · rfl

/-- **C133** The chance of a fate is the average, over what happens in the next pass, of the chance that is left then; and this
depends on the ray as it is then, not on how it came about. -/
theorem first_step (hB : BorelMesh B) (ray : Ray ℝ) {E : List (Ray ℝ × Event) → Prop} (hE : Borel E) :
    prospect S B method maxpath (maxsteps + 1) ray E = ∫⁻ s, hope S B method maxpath maxsteps ray E s ∂independent := by
  unfold prospect chance
  rw [hope_left, ← integral (pass_fair S method maxpath maxsteps hB ray)
    (A := {s | Yields (Stream.follow (pyOps S B reader method) (maxsteps + 1) maxpath ray) E s})
    (fun s => follow_first S method maxpath maxsteps ray E s) (follow_set S method maxpath (maxsteps + 1) hB ray hE)]

theorem hope_measurable (hB : BorelMesh B) (ray : Ray ℝ) {E : List (Ray ℝ × Event) → Prop} (hE : Borel E) :
    AEMeasurable (hope S B method maxpath maxsteps ray E) independent := by
  rw [hope_left]
  exact left_measurable (pass_fair S method maxpath maxsteps hB ray)
    (A := {s | Yields (Stream.follow (pyOps S B reader method) (maxsteps + 1) maxpath ray) E s})
    (fun s => follow_first S method maxpath maxsteps ray E s) (follow_set S method maxpath (maxsteps + 1) hB ray hE)

/-- After a pass that goes on, the last row is that of a ray that travels. -/
theorem goes_on {O : Ops ℝ (Fin (n + 1)) Comp Numbers} {m : ℕ} {ray ray' : Ray ℝ} {s t : Numbers} {es : List (Step ℝ)}
    (h : Stream.pass O m maxpath 1 ray s = .ok ((es, some ray'), t)) :
    ∃ pre e, es = pre ++ [e] ∧ e.event.travels = true := by
  have hb := Resume.body_shape (O := O) m maxpath 1 ray s
  rw [(pass_same O m maxpath 1 ray s).2.2 _ _ _ h] at hb
  obtain ⟨pre, e, h1, -, h2, -⟩ := hb
  exact ⟨pre, e, h1, h2⟩

theorem hope_end (ray : Ray ℝ) {F : Ray ℝ × Event → Prop} (hF : ∀ x, F x → Spec.Event.fatal x.2) :
    hope S B method maxpath maxsteps ray (EndsAs F) = hopeEnd S B method maxpath maxsteps ray F := by
  funext s
  unfold hope hopeEnd
  rcases hp : Stream.pass (pyOps S B reader method) (maxsteps + 1) maxpath 1 ray s with e | ⟨⟨es, _ | r⟩, t⟩
  · rfl
  · have : EndsAs F ((ray, .generate) :: rowsAdded es) ↔ EndsAs F (rowsAdded es) := by
      rcases hx : rowsAdded es with _ | ⟨x, l⟩
      · refine ⟨fun h => ?_, fun h => ?_⟩
        · obtain ⟨x, h1, h2⟩ := h
          cases h1
          exact (hF _ h2).elim
        · obtain ⟨x, h1, -⟩ := h
          cases h1
      · unfold EndsAs
        rw [List.getLast?_cons_cons]
    classical
    exact if_congr this rfl rfl
  · dsimp only
    unfold prospect chance
    congr 1
    ext u
    obtain ⟨pre, e, rfl, he⟩ := goes_on maxpath hp
    show (∃ b t, _ ∧ _) ↔ (∃ b t, _ ∧ _)
    refine exists_congr fun h => exists_congr fun t' => and_congr_right fun hh => ?_
    unfold Stream.follow at hh
    rcases hq : passes (pyOps S B reader method) maxsteps maxpath (maxsteps + 1) 0 r u with e' | ⟨es', u'⟩
    · rw [hq] at hh
      cases hh
    · rw [hq] at hh
      cases hh
      rcases es' with _ | ⟨x, l⟩
      · refine ⟨fun h => ?_, fun h => ?_⟩
        · obtain ⟨x, h1, h2⟩ := h
          have h3 : ((ray, Event.generate) :: rowsAdded pre ++ [(e.ray, e.event)]).getLast? = some x := by
            simpa [rowsAdded] using h1
          rw [List.getLast?_concat] at h3
          cases h3
          have := hF _ h2
          cases hx : e.event <;> simp_all [Spec.Event.fatal, Event.travels]
        · obtain ⟨x, h1, h2⟩ := h
          cases h1
          exact (hF _ h2).elim
      · unfold EndsAs
        simp [rowsAdded, List.getLast?_append, List.getLast?_cons]

/-- **C133** How a ray ends up: the same, and the history so far plays no part at all. -/
theorem first_step_end (hB : BorelMesh B) (ray : Ray ℝ) {F : Ray ℝ × Event → Prop} (hF : ∀ x, F x → Spec.Event.fatal x.2)
    (hE : Borel (EndsAs F)) :
    prospect S B method maxpath (maxsteps + 1) ray (EndsAs F) =
      ∫⁻ s, hopeEnd S B method maxpath maxsteps ray F s ∂independent := by
  rw [first_step S method maxpath maxsteps hB ray hE, hope_end S method maxpath maxsteps ray hF]

/-- A pass that the step limit does not cut off does not depend on it. -/
theorem pass_free {O : Ops ℝ (Fin (n + 1)) Comp Numbers} (m : ℕ) (ray : Ray ℝ) (s : Numbers) :
    Stream.pass O (m + 1) maxpath 1 ray s = Stream.pass O 1 maxpath 1 ray s := by
  have e : (1 > m + 1) = (1 > 1) := by
    rw [eq_iff_iff]
    omega
  unfold Stream.pass
  simp only [e]

/-- Without steps a ray meets nothing or is given up. -/
theorem no_steps (ray : Ray ℝ) {F : Ray ℝ × Event → Prop} (hF : ∀ x, F x → Spec.Event.fatal x.2 ∧ x.2 ≠ .kill) :
    prospect S B method maxpath 0 ray (EndsAs F) = 0 := by
  unfold prospect chance
  rw [show {s | Yields (Stream.follow (pyOps S B reader method) 0 maxpath ray) (EndsAs F) s} = ∅ from ?_, measure_empty]
  refine Set.eq_empty_iff_forall_notMem.2 ?_
  rintro s ⟨b, t, h, x, hx, hf⟩
  obtain ⟨f1, f2⟩ := hF x hf
  unfold Stream.follow passes Stream.pass at h
  rcases hi : (pyOps S B reader method).intersections ray.position ray.direction with e | xs
  · rw [hi] at h
    cases h
  · rw [hi] at h
    dsimp only at h
    rcases hn : nextHit (pyOps S B reader method).eps ((pyOps S B reader method).distBetween ray.position) xs with e | _ | k
    · rw [hn] at h
      cases h
    · rw [hn] at h
      cases h
      cases hx
      exact f1
    · rw [hn] at h
      simp only [Nat.zero_add, gt_iff_lt, Nat.zero_lt_one, true_or, if_true] at h
      cases h
      cases hx
      exact f2 rfl

/-- **C133** A function of the ray that does not increase on average over a pass, counting 1 for ending up as in `F`, is a bound for
the chance of ending up so, whatever the step limit. -/
theorem certificate (hB : BorelMesh B) {F : Ray ℝ × Event → Prop} (hF : ∀ x, F x → Spec.Event.fatal x.2 ∧ x.2 ≠ .kill)
    (hE : Borel (EndsAs F)) {g : Ray ℝ → ENNReal} (hg : ∀ ray, onAverage S B method maxpath F g ray ≤ g ray) :
    ∀ (maxsteps : ℕ) (ray : Ray ℝ), prospect S B method maxpath maxsteps ray (EndsAs F) ≤ g ray := by
  intro maxsteps
  induction maxsteps with
  | zero =>
    intro ray
    rw [no_steps S method maxpath ray hF]
    exact zero_le
  | succ m ih =>
    intro ray
    rw [first_step_end S method maxpath m hB ray (fun x h => (hF x h).1) hE]
    refine le_trans (lintegral_mono fun s => ?_) (hg ray)
    unfold hopeEnd
    rw [pass_free]
    rcases Stream.pass (pyOps S B reader method) 1 maxpath 1 ray s with e | ⟨⟨es, _ | r⟩, t⟩
    · exact le_rfl
    · exact le_rfl
    · exact ih r

/-- More steps, more chances of an ending other than being given up. -/
theorem more_steps (hB : BorelMesh B) {F : Ray ℝ × Event → Prop} (hF : ∀ x, F x → Spec.Event.fatal x.2 ∧ x.2 ≠ .kill)
    (hE : Borel (EndsAs F)) : ∀ (m : ℕ) (ray : Ray ℝ),
      prospect S B method maxpath m ray (EndsAs F) ≤ prospect S B method maxpath (m + 1) ray (EndsAs F) := by
  intro m
  induction m with
  | zero =>
    intro ray
    rw [no_steps S method maxpath ray hF]
    exact zero_le
  | succ m ih =>
    intro ray
    rw [first_step_end S method maxpath m hB ray (fun x h => (hF x h).1) hE,
      first_step_end S method maxpath (m + 1) hB ray (fun x h => (hF x h).1) hE]
    refine lintegral_mono fun s => ?_
    unfold hopeEnd
    rw [pass_free, pass_free maxpath (m + 1)]
    rcases Stream.pass (pyOps S B reader method) 1 maxpath 1 ray s with e | ⟨⟨es, _ | r⟩, t⟩
    · exact le_rfl
    · exact le_rfl
    · exact ih r

/-- **C133** Without a step limit the chances solve the first-step equation exactly. -/
theorem solution (hB : BorelMesh B) {F : Ray ℝ × Event → Prop} (hF : ∀ x, F x → Spec.Event.fatal x.2 ∧ x.2 ≠ .kill)
    (hE : Borel (EndsAs F)) (ray : Ray ℝ) :
    onAverage S B method maxpath F (unlimited S B method maxpath F) ray = unlimited S B method maxpath F ray := by
  have mono : Monotone fun m => prospect S B method maxpath m ray (EndsAs F) :=
    monotone_nat_of_le_succ fun m => more_steps S method maxpath hB hF hE m ray
  have e : unlimited S B method maxpath F ray = ⨆ m, prospect S B method maxpath (m + 1) ray (EndsAs F) := by
    unfold unlimited
    exact (mono.iSup_nat_add 1).symm
  rw [e]
  simp only [first_step_end S method maxpath _ hB ray (fun x h => (hF x h).1) hE]
  rw [← lintegral_iSup']
  · unfold onAverage
    congr 1
    funext s
    unfold hopeEnd
    simp only [pass_free maxpath _ ray s]
    rcases Stream.pass (pyOps S B reader method) 1 maxpath 1 ray s with e | ⟨⟨es, _ | r⟩, t⟩
    · simp
    · dsimp only
      rw [iSup_const]
    · rfl
  · intro m
    rw [← hope_end S method maxpath m ray fun x h => (hF x h).1]
    exact hope_measurable S method maxpath m hB ray hE
  · refine ae_of_all _ fun s => monotone_nat_of_le_succ fun m => ?_
    unfold hopeEnd
    rw [pass_free, pass_free maxpath (m + 1)]
    rcases Stream.pass (pyOps S B reader method) 1 maxpath 1 ray s with e | ⟨⟨es, _ | r⟩, t⟩
    · exact le_rfl
    · exact le_rfl
    · exact more_steps S method maxpath hB hF hE m r

/-- **C133** And they are the least solution. -/
theorem least_solution (hB : BorelMesh B) {F : Ray ℝ × Event → Prop} (hF : ∀ x, F x → Spec.Event.fatal x.2 ∧ x.2 ≠ .kill)
    (hE : Borel (EndsAs F)) {g : Ray ℝ → ENNReal} (hg : ∀ ray, onAverage S B method maxpath F g ray ≤ g ray) (ray : Ray ℝ) :
    unlimited S B method maxpath F ray ≤ g ray :=
  iSup_le fun m => certificate S method maxpath hB hF hE hg m ray

/-- A condition on the events alone is Borel. -/
theorem events_borel (P : List Event → Prop) : Borel fun h => P (h.map Prod.snd) := by
  intro kinds
  have : ∀ v, (storyAt kinds v).map Prod.snd = kinds.map Prod.fst := by
    intro v
    unfold storyAt
    rw [List.map_map, show (Prod.snd ∘ fun k : (Event × Option String) × ℕ => (rayAt k.1.2 (v k.2), k.1.1)) =
      Prod.fst ∘ Prod.fst from rfl, ← List.map_map]
    simp
  simp only [this]
  exact MeasurableSet.const _

theorem ends_borel (a : Event) : Borel (EndsAs fun x => x.2 = a) := by
  have : (EndsAs fun x => x.2 = a) = fun h => (h.map Prod.snd).getLast? = some a := by
    funext h
    unfold EndsAs
    rw [List.getLast?_map]
    simp
  rw [this]
  exact events_borel fun l => l.getLast? = some a

theorem nothing_borel : BorelMesh fun _ _ _ => [] := by
  intro size
  refine ⟨fun k => MeasurableSet.const _, fun i => measurable_const⟩

/-- The hypotheses are met: the chance that the light of a dye escapes, by the first step. -/
example (m : ℕ) (ray : Ray ℝ) : prospect (glowScene (1/2)) (fun _ _ _ => []) .full none (m + 1) ray (EndsAs fun x => x.2 = .exit) =
    ∫⁻ s, hopeEnd (glowScene (1/2)) (fun _ _ _ => []) .full none m ray (fun x => x.2 = .exit) s ∂independent :=
  first_step_end _ _ _ _ nothing_borel ray (fun x h => by rw [h]; trivial) (ends_borel _)

/-- A world with nothing in it. -/
def bare : LScene 0 where
  node _ := Library.ballScene.node 0

/-- There nothing is lost: `0` does not increase on average, and so it bounds the chance of a loss. -/
example (m : ℕ) (ray : Ray ℝ) : prospect bare (fun _ _ _ => []) .full none m ray (EndsAs fun x => x.2 = .nonradiative) = 0 := by
  refine le_antisymm (certificate bare .full none nothing_borel (g := fun _ => 0)
    (fun x h => by rw [h]; exact ⟨trivial, by decide⟩) (ends_borel _) (fun ray => ?_) m ray) zero_le
  unfold onAverage
  rw [lintegral_eq_zero_of_ae_eq_zero]
  refine Filter.Eventually.of_forall fun s => ?_
  unfold Stream.pass
  rcases (pyOps bare (fun _ _ _ => []) reader .full).intersections ray.position ray.direction with e | xs
  · rfl
  · dsimp only
    rcases nextHit (pyOps bare (fun _ _ _ => []) reader .full).eps
      ((pyOps bare (fun _ _ _ => []) reader .full).distBetween ray.position) xs with e | _ | k
    · rfl
    · simp [EndsAs, rowsAdded]
    · have hk : k.hit = (pyOps bare (fun _ _ _ => []) reader .full).root := Subsingleton.elim (α := Fin 1) _ _
      dsimp only
      rw [if_neg (by simp [beyond]), if_pos hk]
      simp [EndsAs, rowsAdded]

end
end PV.Markov
