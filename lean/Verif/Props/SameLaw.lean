import Verif.Spec.SameLaw
import Verif.Lemmas.TurnedAgreement

/-!
**C115** The engine and the Python tracer have the same statistics, also where rotated objects re-emit.
-/

namespace PV.SameLaw
open MeasureTheory Spec Library Turned Measured Budget
open scoped ENNReal
noncomputable section
variable {n : ℕ} {S : LScene n} {method : EmitMethod} {maxsteps : ℕ}

/-! ### What the engine writes decides Borel conditions on its histories -/

theorem basic_steps {X : Type} [MeasurableSpace X] (M : List (X → Step ℝ))
    (hM : ∀ f ∈ M, ∃ (a : StepForm) (v : X → Fin 12 → ℝ), Measurable v ∧ f = fun x => stepAt a (v x)) :
    ∃ fs, ∃ v : X → ℕ → Fin 12 → ℝ, Measurable v ∧ (fun x => M.map fun f => f x) = fun x => stepsAt fs (v x) := by
  have key : ∃ N : List (StepForm × (X → Fin 12 → ℝ)), (∀ m ∈ N, Measurable m.2) ∧
      M = N.map fun m x => stepAt m.1 (m.2 x) := by
    induction M with
    | nil => exact ⟨[], by simp, rfl⟩
    | cons f M ih =>
      obtain ⟨N, hN, e⟩ := ih fun g hg => hM g (List.mem_cons_of_mem _ hg)
      obtain ⟨a, v, hv, rfl⟩ := hM f List.mem_cons_self
      refine ⟨(a, v) :: N, ?_, ?_⟩
      · intro m hm
        rcases List.mem_cons.1 hm with rfl | hm
        · exact hv
        · exact hN m hm
      · rw [List.map_cons, e]
  obtain ⟨N, hN, rfl⟩ := key
  refine ⟨N.map (·.1), fun x i => ((N[i]?).map fun m => m.2 x).getD 0, ?_, ?_⟩
  · refine measurable_pi_lambda _ fun i => ?_
    rcases h : N[i]? with _ | m
    · simp only [Option.map_none, Option.getD_none]
      exact measurable_const
    · simp only [Option.map_some, Option.getD_some]
      exact hN m (List.mem_of_getElem? h)
  · funext x
    unfold stepsAt
    apply List.ext_getElem
    · simp
    · intro i h1 h2
      simp only [List.length_map] at h1
      simp [h1]

theorem row_step {X : Type} [MeasurableSpace X] (N : KNames (Fin n) Comp) (source : Option String)
    {r : X → Row ℝ (Fin n) Comp} (hr : basic r) :
    ∃ (a : StepForm) (v : X → Fin 12 → ℝ), Measurable v ∧ (fun x => eventOf N source (r x)) = fun x => stepAt a (v x) := by
  obtain ⟨kind, hit, c, a, comp, _, nrm, ⟨p, d, w, t, u, src, ⟨px, py, pz, h1, h2, h3, rfl⟩, ⟨dx, dy, dz, h4, h5, h6, rfl⟩, hw, ht, hu, rfl⟩, hn, rfl⟩ := hr
  obtain ⟨a1, a2, a3, g1, g2, g3, e⟩ : ∃ a1 a2 a3 : X → ℝ, Measurable a1 ∧ Measurable a2 ∧ Measurable a3 ∧
      ∀ x, (nrm x).getD ⟨0, 0, 0⟩ = ⟨a1 x, a2 x, a3 x⟩ := by
    rcases hn with rfl | ⟨_, ⟨a1, a2, a3, g1, g2, g3, rfl⟩, rfl⟩
    · exact ⟨fun _ => 0, fun _ => 0, fun _ => 0, measurable_const, measurable_const, measurable_const, fun _ => rfl⟩
    · exact ⟨a1, a2, a3, g1, g2, g3, fun _ => rfl⟩
  refine ⟨⟨kind, (src.map N.component).or source, hit.map N.node, c.map N.node, a.map N.node, comp.map N.component,
    decide (kind = .reflect ∨ kind = .transmit)⟩,
    fun x => ![px x, py x, pz x, dx x, dy x, dz x, w x, t x, u x, a1 x, a2 x, a3 x], ?_, ?_⟩
  · refine measurable_pi_lambda _ fun j => ?_
    fin_cases j <;> assumption
  · funext x
    simp only [eventOf, stepAt, e, decide_eq_true_eq]
    rfl

theorem rows_steps {X : Type} [MeasurableSpace X] (N : KNames (Fin (n + 1)) Comp) (source : Option String) (row : Row ℝ (Fin (n + 1)) Comp)
    (hrow : basic fun _ : X => row) (L : List (X → KOut ℝ (Fin (n + 1)) Comp)) (hL : ∀ f ∈ L, basic f) :
    ∃ M : List (X → Step ℝ), (∀ f ∈ M, ∃ (a : StepForm) (v : X → Fin 12 → ℝ), Measurable v ∧ f = fun x => stepAt a (v x)) ∧
      ∀ x, (row :: rowsOf (L.map fun f => f x)).map (eventOf N source) = M.map fun f => f x := by
  have key : ∃ M : List (X → Step ℝ), (∀ f ∈ M, ∃ (a : StepForm) (v : X → Fin 12 → ℝ), Measurable v ∧ f = fun x => stepAt a (v x)) ∧
      ∀ x, (rowsOf (L.map fun f => f x)).map (eventOf N source) = M.map fun f => f x := by
    induction L with
    | nil => exact ⟨[], by simp, fun x => rfl⟩
    | cons f L ih =>
      obtain ⟨M, hM, e⟩ := ih fun g hg => hL g (List.mem_cons_of_mem _ hg)
      rcases hL f List.mem_cons_self with ⟨r, hr, rfl⟩ | ⟨c, -, rfl⟩
      · refine ⟨(fun x => eventOf N source (r x)) :: M, ?_, fun x => ?_⟩
        · intro g hg
          rcases List.mem_cons.1 hg with rfl | hg
          · exact row_step N source hr
          · exact hM g hg
        · rw [List.map_cons, List.map_cons, ← e x]
          rfl
      · exact ⟨M, hM, fun x => e x⟩
  obtain ⟨M, hM, e⟩ := key
  refine ⟨(fun _ => eventOf N source row) :: M, ?_, fun x => ?_⟩
  · intro g hg
    rcases List.mem_cons.1 hg with rfl | hg
    · exact row_step N source hrow
    · exact hM g hg
  · rw [List.map_cons, List.map_cons, ← e x]

/-- The history made of what the engine writes. -/
def told (S : LScene n) (ray : Ray ℝ) (os : List (KOut ℝ (Fin (n + 1)) Comp)) : List (Step ℝ) :=
  (generateRow (launchOf ray ()).ray :: rowsOf os).map (eventOf (names S) ray.source)

theorem told_decides (S : LScene n) (ray : Ray ℝ) {E : List (Step ℝ) → Prop} (hE : BorelSteps E) :
    Decides fun os => E (told S ray os) := by
  intro X _ G hG
  obtain ⟨L, hL, rfl⟩ := hG
  have hrow : basic fun _ : X => (generateRow (launchOf ray ()).ray : Row ℝ (Fin (n + 1)) Comp) :=
    ⟨_, _, _, _, _, _, _, ⟨_, _, _, _, _, _, vec_const _, vec_const _, measurable_const, measurable_const, measurable_const, rfl⟩, .inl rfl, rfl⟩
  obtain ⟨M, hM, e⟩ := rows_steps (names S) ray.source _ hrow L hL
  obtain ⟨fs, v, hv, e2⟩ := basic_steps M hM
  have e3 : ∀ x, told S ray (L.map fun f => f x) = stepsAt fs (v x) := fun x => (e x).trans (congrFun e2 x)
  simp only [e3]
  exact hv (hE fs)

/-! ### The law -/

theorem indifferent (hS : Turnable S) : ∀ v, ∀ c ∈ (S.node v).comps, Reemits c →
    Indifferent (S.node v).l2w ((kOps S reader method).phase c) := by
  intro v c hc hr
  rcases hS.turned v c hc hr with h | h
  · have e : (kOps S reader method).phase c = kSamplePhase reader .isotropic 0 := by
      unfold kOps
      simp only [h]
      rfl
    rw [e]
    exact isotropic_indifferent (hS.rigid v) 0
  · exact upright_indifferent (hS.rigid v) h _ _

/-- What `histories()` reports of the ray, if the event budget is not used up. -/
def engineRun (S : LScene n) (method : EmitMethod) (maxsteps : ℕ) (ray : Ray ℝ) (s : Numbers) : List (Step ℝ) :=
  (fullHistory (kOps S reader method) maxsteps (launchOf ray s)).map (eventOf (names S) ray.source)

theorem turned_same (hS : Turnable S) (ray : Ray ℝ) {E : List (Step ℝ) → Prop} (hE : BorelSteps E) :
    chance (fun s => E ((turnedHistory S method maxsteps (launchOf ray s)).map (eventOf (names S) ray.source))) =
      chance (fun s => E (engineRun S method maxsteps ray s)) := by
  have h := law (S := S) (method := method) (maxsteps := maxsteps) (indifferent hS) (maxsteps + 1) 0 _ (told_decides S ray hE)
    (launchOf ray ()).ray
  unfold chance engineRun
  simp only [fullHistory_eq]
  exact h

/-- **C115** Every Borel question about the complete history of a ray (kinds of events, places, directions, wavelengths, times,
names, normals, in any combination) has the same chance in the engine and in the Python tracer, up to the chance that the
tracer meets a state in which the two codes are known to disagree. Rotated objects may re-emit: the engine and the tracer then
send the ray in different directions for the same random numbers, but not with different chances. -/
theorem same_chance (hS : Turnable S) (hv : ∀ v, Visible (S.node v).geom) {B : Trimesh} (hB : TrimeshSound B)
    (method : EmitMethod) (maxsteps : ℕ) (ray : Ray ℝ) (hf : Fresh ray) {E : List (Step ℝ) → Prop} (hE : BorelSteps E) :
    chance (fun s => E (Library.run S B reader method maxsteps none ray s)) ≤
        chance (fun s => E (engineRun S method maxsteps ray s)) +
          chance (fun s => ¬ Library.Regular S B reader method maxsteps ray s) ∧
      chance (fun s => E (engineRun S method maxsteps ray s)) ≤
        chance (fun s => E (Library.run S B reader method maxsteps none ray s)) +
          chance (fun s => ¬ Library.Regular S B reader method maxsteps ray s) := by
  have hg : independent {s | ¬ Good s} = 0 := almost_good
  rw [← turned_same hS ray hE]
  have e : ∀ s, Good s → Library.Regular S B reader method maxsteps ray s →
      (turnedHistory S method maxsteps (launchOf ray s)).map (eventOf (names S) ray.source) =
        Library.run S B reader method maxsteps none ray s :=
    fun s hs hr => run_turned hS.toAccepted hv hB maxsteps ray hf s hs hr
  have key : ∀ P Q : Numbers → Prop, (∀ s, Good s → Library.Regular S B reader method maxsteps ray s → P s → Q s) →
      chance P ≤ chance Q + chance (fun s => ¬ Library.Regular S B reader method maxsteps ray s) := by
    intro P Q h
    unfold chance
    calc independent {s | P s} ≤ independent (({s | Q s} ∪ {s | ¬ Library.Regular S B reader method maxsteps ray s}) ∪ {s | ¬ Good s}) := by
          refine measure_mono fun s hs => ?_
          by_cases h1 : Good s
          · by_cases h2 : Library.Regular S B reader method maxsteps ray s
            · exact .inl (.inl (h s h1 h2 hs))
            · exact .inl (.inr h2)
          · exact .inr h1
      _ ≤ independent ({s | Q s} ∪ {s | ¬ Library.Regular S B reader method maxsteps ray s}) + independent {s | ¬ Good s} := measure_union_le _ _
      _ = independent ({s | Q s} ∪ {s | ¬ Library.Regular S B reader method maxsteps ray s}) := by rw [hg, add_zero]
      _ ≤ _ := measure_union_le _ _
  constructor
  · exact key _ _ fun s h1 h2 h3 => by rw [e s h1 h2]; exact h3
  · exact key _ _ fun s h1 h2 h3 => by rw [← e s h1 h2]; exact h3

/-- **C115** If the tracer meets such states with chance zero, the chances are equal. -/
theorem same_law (hS : Turnable S) (hv : ∀ v, Visible (S.node v).geom) {B : Trimesh} (hB : TrimeshSound B)
    (method : EmitMethod) (maxsteps : ℕ) (ray : Ray ℝ) (hf : Fresh ray)
    (hr : ∀ᵐ s ∂independent, Library.Regular S B reader method maxsteps ray s) {E : List (Step ℝ) → Prop} (hE : BorelSteps E) :
    chance (fun s => E (Library.run S B reader method maxsteps none ray s)) =
      chance (fun s => E (engineRun S method maxsteps ray s)) := by
  have h0 : chance (fun s => ¬ Library.Regular S B reader method maxsteps ray s) = 0 := hr
  have h := same_chance hS hv hB method maxsteps ray hf hE
  rw [h0, add_zero, add_zero] at h
  exact le_antisymm h.1 h.2

end
end PV.SameLaw
