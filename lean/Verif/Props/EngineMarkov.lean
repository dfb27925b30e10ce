import Verif.Props.Markov
import Verif.Props.SameLaw

/-!
**C133** The first-step equation and what follows from it, for the histories of the engine.
-/

namespace PV.Markov
open MeasureTheory Spec Library SameLaw
open scoped ENNReal

section tracer
variable {α ν κ σ : Type} [Field α] [LinearOrder α] [DecidableEq ν]

theorem absorb_quiet (O : Ops α ν κ σ) (c : ν) (ray : Ray α) (d : α) (s : σ) :
    ∀ e ∈ (absorbBody O c ray d s).1, Spec.Event.fatal e.event → (absorbBody O c ray d s).2 = .stop := by
  unfold absorbBody
  dsimp only
  rcases O.component c (ray.propagate d (O.refractiveIndex c)).wavelength s with e | ⟨comp, s⟩
  · simp
  dsimp only
  rcases O.isRadiative comp (ray.propagate d (O.refractiveIndex c)) s with e | ⟨b, s⟩
  · simp [Spec.Event.fatal]
  cases b
  · simp only [Bool.false_eq_true, if_false]
    rcases O.nonradiativeAbsorb comp (ray.propagate d (O.refractiveIndex c)) s with e | ⟨r, s⟩
    · simp [Spec.Event.fatal]
    · cases O.compKind comp <;> simp
  · simp only [if_true]
    rcases O.emit c comp (ray.propagate d (O.refractiveIndex c)) s with e | ⟨r, s⟩
    · simp [Spec.Event.fatal]
    · cases O.compKind comp <;> simp [Spec.Event.fatal]

theorem surface_quiet (O : Ops α ν κ σ) (h : HitInfo ν α) (ray : Ray α) (s : σ) :
    ∀ e ∈ (surfaceBody O h ray s).1, Spec.Event.fatal e.event → (surfaceBody O h ray s).2 = .stop := by
  unfold surfaceBody
  dsimp only
  rcases O.normal h.hit (ray.propagate h.dist (O.refractiveIndex h.container)).position with e | n
  · simp
  dsimp only
  rcases O.isReflected h.hit h.container h.adjacent (ray.propagate h.dist (O.refractiveIndex h.container)) s with e | ⟨b, s⟩
  · simp
  cases b
  · simp only [Bool.false_eq_true, if_false]
    rcases O.transmit h.hit h.container h.adjacent (ray.propagate h.dist (O.refractiveIndex h.container)) s with e | ⟨r, s⟩
    · simp
    · cases h.adjacent <;> simp [Spec.Event.fatal]
  · simp only [if_true]
    rcases O.reflect h.hit h.container h.adjacent (ray.propagate h.dist (O.refractiveIndex h.container)) s with e | ⟨r, s⟩
    · simp
    · simp [Spec.Event.fatal]

theorem body_quiet (O : Ops α ν κ σ) (maxsteps : ℕ) (maxpath : Option α) (count : ℕ) (ray : Ray α) (s : σ) :
    ∀ e ∈ (body O maxsteps maxpath count ray s).1, Spec.Event.fatal e.event → (body O maxsteps maxpath count ray s).2 = .stop := by
  unfold body
  rcases O.intersections ray.position ray.direction with e | xs
  · simp
  dsimp only
  rcases nextHit O.eps (O.distBetween ray.position) xs with e | _ | h
  · simp
  · simp
  dsimp only
  split
  · simp
  split
  · simp
  rcases O.penetrationDepth h.container ray.wavelength s with e | ⟨depth, s⟩
  · simp
  dsimp only
  cases isAbsorbed depth h.dist with
  | none => exact surface_quiet O h ray s
  | some d => exact absorb_quiet O h.container ray d s

/-- A run with a fatal event ends without an exception. -/
theorem loop_quiet (O : Ops α ν κ σ) (maxsteps : ℕ) (maxpath : Option α) (fuel : ℕ) : ∀ (count : ℕ) (ray : Ray α) (s : σ),
    ∀ e ∈ (loop O maxsteps maxpath fuel count ray s).1, Spec.Event.fatal e.event →
      (loop O maxsteps maxpath fuel count ray s).2 = .finished := by
  induction fuel with
  | zero => intro count ray s e he; cases he
  | succ fuel ih =>
    intro count ray s e he hf
    have hq := body_quiet O maxsteps maxpath (count + 1) ray s
    unfold loop at he ⊢
    rcases hb : body O maxsteps maxpath (count + 1) ray s with ⟨es, nx⟩
    rw [hb] at he hq
    cases nx with
    | stop => rfl
    | raise x => exact absurd (hq e he hf) (by simp)
    | cont r t =>
      dsimp only at he hq ⊢
      rcases List.mem_append.1 he with he | he
      · exact absurd (hq e he hf) (by simp)
      · exact ih _ _ _ e he hf

end tracer

noncomputable section
variable {n : ℕ} {S : LScene n} {B : Trimesh} {method : EmitMethod}

/-- A condition on rays and events of a history is a condition on the history. -/
theorem rows_borel {E : List (Ray ℝ × Event) → Prop} (hE : Borel E) : BorelSteps fun es => E (rowsAdded es) := by
  intro fs
  have e : ∀ v : ℕ → Fin 12 → ℝ, rowsAdded (stepsAt fs v) =
      storyAt (fs.map fun f => (f.event, f.source)) fun i j => v i (j.castLE (by decide)) := by
    intro v
    unfold rowsAdded stepsAt storyAt
    rw [List.zipIdx_map, List.map_map, List.map_map]
    rfl
  simp only [e]
  refine (hE (fs.map fun f => (f.event, f.source))).preimage (f := fun (v : ℕ → Fin 12 → ℝ) i j => v i (j.castLE (by decide))) ?_
  fun_prop

/-- Ending up as in `F`, said of what `step_forward` yields and of what `follow` returns. -/
theorem run_ends {F : Ray ℝ × Event → Prop} (hF : ∀ x, F x → Spec.Event.fatal x.2) (maxpath : Option ℝ) (maxsteps : ℕ) (ray : Ray ℝ)
    (s : Numbers) :
    EndsAs F (rowsAdded (Library.run S B reader method maxsteps maxpath ray s)) ↔
      Yields (Stream.follow (pyOps S B reader method) maxsteps maxpath ray) (EndsAs F) s := by
  have hs := Stream.follow_same (pyOps S B reader method) maxsteps maxpath ray s
  unfold Library.run
  unfold PV.follow at hs
  have hq := loop_quiet (pyOps S B reader method) maxsteps maxpath (maxsteps + 1) 0 ray s
  unfold stepForward at hs ⊢
  dsimp only at hs ⊢
  constructor
  · rintro ⟨x, hx, hFx⟩
    have hm : x ∈ rowsAdded (⟨ray, .generate, {}⟩ :: (loop (pyOps S B reader method) maxsteps maxpath (maxsteps + 1) 0 ray s).1) :=
      List.mem_of_getLast? hx
    obtain ⟨e, he, rfl⟩ := List.mem_map.1 hm
    have hfin : (loop (pyOps S B reader method) maxsteps maxpath (maxsteps + 1) 0 ray s).2 = .finished := by
      rcases List.mem_cons.1 he with rfl | he
      · exact (hF _ hFx).elim
      · exact hq e he (hF _ hFx)
    rw [hfin] at hs
    dsimp only at hs
    rcases hr : Stream.follow (pyOps S B reader method) maxsteps maxpath ray s with e' | ⟨h, t⟩
    · rw [hr] at hs
      cases hs
    · rw [hr] at hs
      refine ⟨h, t, hr, ?_⟩
      rw [← Except.ok.inj hs]
      exact ⟨_, hx, hFx⟩
  · rintro ⟨h, t, hr, hh⟩
    rw [hr] at hs
    dsimp only at hs
    split at hs
    · rename_i es heq
      obtain ⟨rfl, -⟩ := Prod.mk.inj heq
      rw [← Except.ok.inj hs] at hh
      exact hh
    · cases hs

/-- The same chances. -/
theorem prospect_run {F : Ray ℝ × Event → Prop} (hF : ∀ x, F x → Spec.Event.fatal x.2) (maxpath : Option ℝ) (maxsteps : ℕ) (ray : Ray ℝ) :
    prospect S B method maxpath maxsteps ray (EndsAs F) =
      chance fun s => EndsAs F (rowsAdded (Library.run S B reader method maxsteps maxpath ray s)) := by
  unfold prospect
  congr 1
  funext s
  exact propext (run_ends hF maxpath maxsteps ray s).symm

/-- **C133** The first-step equation for the engine: where the tracer does not meet a state in which the two codes disagree, the chance that
the engine's history of a ray ends up as in `F` is the average of what its first pass leaves. -/
theorem engine_first_step (hS : Turnable S) (hv : ∀ v, Visible (S.node v).geom) (hB : TrimeshSound B) (hB' : BorelMesh B) (maxsteps : ℕ)
    (ray : Ray ℝ) (hf : Fresh ray) (hr : ∀ᵐ s ∂independent, Library.Regular S B reader method (maxsteps + 1) ray s)
    {F : Ray ℝ × Event → Prop} (hF : ∀ x, F x → Spec.Event.fatal x.2) (hE : Borel (EndsAs F)) :
    chance (fun s => EndsAs F (rowsAdded (engineRun S method (maxsteps + 1) ray s))) =
      ∫⁻ s, hopeEnd S B method none maxsteps ray F s ∂independent := by
  rw [← first_step_end S method none maxsteps hB' ray hF hE, prospect_run hF none,
    same_law hS hv hB method (maxsteps + 1) ray hf hr (rows_borel hE)]

/-- **C133** Bounds for the engine: a function that does not increase on average bounds the chance that the engine's history of a ray ends up
as in `F`, for every step limit, up to the chance of a state in which the two codes disagree. -/
theorem engine_certificate (hS : Turnable S) (hv : ∀ v, Visible (S.node v).geom) (hB : TrimeshSound B) (hB' : BorelMesh B)
    {F : Ray ℝ × Event → Prop} (hF : ∀ x, F x → Spec.Event.fatal x.2 ∧ x.2 ≠ .kill) (hE : Borel (EndsAs F)) {g : Ray ℝ → ENNReal}
    (hg : ∀ ray, onAverage S B method none F g ray ≤ g ray) (maxsteps : ℕ) (ray : Ray ℝ) (hf : Fresh ray) :
    chance (fun s => EndsAs F (rowsAdded (engineRun S method maxsteps ray s))) ≤
      g ray + chance (fun s => ¬ Library.Regular S B reader method maxsteps ray s) := by
  refine ((same_chance hS hv hB method maxsteps ray hf (rows_borel hE)).2).trans ?_
  rw [← prospect_run (fun x h => (hF x h).1) none]
  exact add_le_add_left (certificate S method none hB' hF hE hg maxsteps ray) _

end
end PV.Markov
