import Verif.Lemmas.TurnedPhase
import Verif.Props.EngineReemission

/-!
The engine with re-emitted directions turned into the frame of the node: its rays have the same law as those of the engine.
-/

namespace PV.Turned
open MeasureTheory Set PV.Spec PV.Sphere Measured EngineThinning
open scoped ENNReal
noncomputable section
variable {n : ℕ} {σ : Type}

/-- Directions of re-emission turned. -/
def turnedOps (m : Affine ℝ) (K : KOps ℝ (Fin (n + 1)) Comp σ) : KOps ℝ (Fin (n + 1)) Comp σ :=
  { K with phase := fun c s => (m.vec (K.phase c s).1, (K.phase c s).2) }

/-- The node the ray is in. -/
def frame (S : LScene n) (R : Rand σ) (method : EmitMethod) (ray : KRay ℝ Comp) : Affine ℝ :=
  match (kOps S R method).nextHit ray.position ray.direction with
  | some (_, v, _, _) => (S.node v).l2w
  | none => (S.node 0).l2w

/-- A pass of the engine with the directions of re-emission turned like the node the ray is in. -/
def turnedBody (S : LScene n) (R : Rand σ) (method : EmitMethod) (maxsteps count : ℕ) (ray : KRay ℝ Comp) (s : σ) :
    List (KOut ℝ (Fin (n + 1)) Comp) × KNext ℝ Comp σ :=
  kBody (turnedOps (frame S R method ray) (kOps S R method)) maxsteps count ray s

/-- A pass and what follows. -/
def after (b : List (KOut ℝ (Fin (n + 1)) Comp) × KNext ℝ Comp σ) (T : KRay ℝ Comp → σ → List (KOut ℝ (Fin (n + 1)) Comp)) :
    List (KOut ℝ (Fin (n + 1)) Comp) :=
  match b.2 with
  | .stop => b.1
  | .cont ray s => b.1 ++ T ray s

def turnedTrace (S : LScene n) (R : Rand σ) (method : EmitMethod) (maxsteps : ℕ) :
    ℕ → ℕ → KRay ℝ Comp → σ → List (KOut ℝ (Fin (n + 1)) Comp)
  | 0, _, _, _ => []
  | fuel + 1, count, ray, s =>
    after (turnedBody S R method maxsteps (count + 1) ray s) (turnedTrace S R method maxsteps fuel (count + 1))

theorem kTrace_after (K : KOps ℝ (Fin (n + 1)) Comp σ) (maxsteps fuel count : ℕ) (ray : KRay ℝ Comp) (s : σ) :
    kTrace K maxsteps (fuel + 1) count ray s = after (kBody K maxsteps (count + 1) ray s) (kTrace K maxsteps fuel (count + 1)) := by
  rw [kTrace]
  unfold after
  rcases (kBody K maxsteps (count + 1) ray s).2 with ⟨r, t⟩ | _ <;> rfl

/-! ### Conditions on what the engine writes -/

/-- Conditions that are decided. -/
def Decides (E : List (KOut ℝ (Fin (n + 1)) Comp) → Prop) : Prop :=
  ∀ (X : Type) [MeasurableSpace X] (G : X → List (KOut ℝ (Fin (n + 1)) Comp)), basic G → MeasurableSet {x | E (G x)}

theorem Decides.set {E : List (KOut ℝ (Fin (n + 1)) Comp) → Prop} (hE : Decides E) {X : Type} [MeasurableSpace X]
    {F : X → List (KOut ℝ (Fin (n + 1)) Comp)} (hF : Tame F) : MeasurableSet {x | E (F x)} :=
  hF.set (fun y _ => E y) fun G hG => hE X G hG

/-- What follows a pass is a measurable program. -/
def TameRest (T : KRay ℝ Comp → Numbers → List (KOut ℝ (Fin (n + 1)) Comp)) : Prop :=
  ∀ (X : Type) [MeasurableSpace X] (ray : X → KRay ℝ Comp) (s : X → Numbers), basic ray → Measurable s → Tame fun x => T (ray x) (s x)

theorem tame_vec {X : Type} [MeasurableSpace X] (m : Affine ℝ) {v : X → Vec3 ℝ × Numbers} (h : Tame v) :
    Tame fun x => (m.vec (v x).1, (v x).2) := by
  tame_step h with _ ⟨d, s, hd, hs, rfl⟩
  exact Tame.pair (.of (vec_vec m hd)) (.of hs)

variable (S : LScene n) (method : EmitMethod) (maxsteps : ℕ)
variable {X : Type} [MeasurableSpace X] {ray : X → KRay ℝ Comp} {s : X → Numbers}

/-- What a component gives off, once the direction is known. -/
def lit (K : KOps ℝ (Fin (n + 1)) Comp σ) (v : Fin (n + 1)) (c : Comp) (r : KRay ℝ Comp)
    (T : KRay ℝ Comp → σ → List (KOut ℝ (Fin (n + 1)) Comp)) (dir : Vec3 ℝ) (s : σ) : List (KOut ℝ (Fin (n + 1)) Comp) :=
  let a : KOut ℝ (Fin (n + 1)) Comp := .record ⟨.absorb, none, some v, none, some c, r, none⟩
  let r' : KRay ℝ Comp := { r with direction := dir, source := some c }
  if K.kind c = .luminophore then
    let r' : KRay ℝ Comp := { r' with wavelength := (K.emission c r.wavelength s).1,
                                       duration := r.duration + (K.radDelay c (K.emission c r.wavelength s).2).1 }
    [a, .record ⟨.emit, none, some v, none, some c, r', none⟩] ++ T r' (K.radDelay c (K.emission c r.wavelength s).2).2
  else [a, .record ⟨.scatter, none, some v, none, some c, r', none⟩] ++ T r' s

/-- What is written if the light is lost. -/
def dark (K : KOps ℝ (Fin (n + 1)) Comp σ) (v : Fin (n + 1)) (c : Comp) (r : KRay ℝ Comp) (s : σ) :
    List (KOut ℝ (Fin (n + 1)) Comp) :=
  let r' := { r with duration := r.duration + (K.nrDelay c s).1 }
  let kind : Event := if K.kind c = .reactor then .react else .nonradiative
  let sel : Selector := if K.kind c = .reactor then .reacted else .lost
  [.record ⟨.absorb, none, some v, none, some c, r, none⟩, .record ⟨kind, none, some v, none, some c, r', none⟩,
    .tally ⟨sel, v, none, kValues K v r' 0⟩]

/-- From the choice of a component on. -/
def chosen (K : KOps ℝ (Fin (n + 1)) Comp σ) (v : Fin (n + 1)) (c : Comp) (r : KRay ℝ Comp)
    (T : KRay ℝ Comp → σ → List (KOut ℝ (Fin (n + 1)) Comp)) (s : σ) : List (KOut ℝ (Fin (n + 1)) Comp) :=
  if K.kind c = .scatterer ∨ K.kind c = .luminophore then
    if (K.yields c s).1 then lit K v c r T (K.phase c (K.yields c s).2).1 (K.phase c (K.yields c s).2).2
    else dark K v c r (K.yields c s).2
  else dark K v c r s

theorem after_absorb (K : KOps ℝ (Fin (n + 1)) Comp σ) (v : Fin (n + 1)) (ray : KRay ℝ Comp) (x : ℝ)
    (T : KRay ℝ Comp → σ → List (KOut ℝ (Fin (n + 1)) Comp)) (s : σ) :
    after (kAbsorb K v ray x s) T = chosen K v (K.pick v ray.wavelength s).1 (ray.advance x (K.nidx v)) T (K.pick v ray.wavelength s).2 := by
  obtain ⟨K1, K2, K3, K4, K5, K6, K7, K8, K9, K10, K11, K12, K13, K14, K15, K16, K17⟩ := K
  have hw : (ray.advance x (K3 v)).wavelength = ray.wavelength := rfl
  unfold kAbsorb chosen lit dark
  simp only [hw]
  obtain ⟨comp, t, hy⟩ : ∃ a b, K5 v ray.wavelength s = (a, b) := ⟨_, _, rfl⟩
  simp only [hy]
  clear hy
  rename' t => s'
  by_cases hk : K6 comp = .scatterer ∨ K6 comp = .luminophore
  · simp only [hk, if_true]
    obtain ⟨y, t, hy⟩ : ∃ a b, K7 comp s' = (a, b) := ⟨_, _, rfl⟩
    simp only [hy]
    cases y
    · simp only [Bool.false_eq_true, if_false, after]
    · simp only [if_true]
      by_cases hl : K6 comp = .luminophore
      · simp only [hl, if_true, after]
      · simp only [hl, if_false, after]
  · simp only [hk, if_false, Bool.false_eq_true, after]

theorem lit_tame {T : KRay ℝ Comp → Numbers → List (KOut ℝ (Fin (n + 1)) Comp)} (hT : TameRest T) (v : Fin (n + 1)) (c : Comp)
    (hr : basic ray) {dir : X → Vec3 ℝ} (hdir : basic dir) (hs : Measurable s) :
    Tame fun x => lit (kOps S reader method) v c (ray x) T (dir x) (s x) := by
  obtain ⟨p, d, w, l, u, src, hp, hd, hw, hl, hu, rfl⟩ := id hr
  unfold lit
  dsimp only
  refine Tame.ite (MeasurableSet.const _) ?_ ?_
  · tame_step (kEmission_tame S method c hw hs) with _ ⟨w', s4, hw', hs4, rfl⟩
    have hs4 : Measurable s4 := hs4
    have hdl : Tame (fun x => (kOps S reader method).radDelay c (s4 x)) := kDelay_tame _ hs4
    tame_step hdl with _ ⟨q, s5, hq, hs5, rfl⟩
    have hq : Measurable q := hq
    have hr2 : basic (fun x => (⟨p x, dir x, w' x, l x, u x + q x, some c⟩ : KRay ℝ Comp)) :=
      ⟨_, _, _, _, _, _, hp, hdir, hw', hl, hu.add hq, rfl⟩
    exact Tame.append (Tame.two (record_basic hr (.inl rfl) _ _ _ _ _) (record_basic hr2 (.inl rfl) _ _ _ _ _)) (hT _ _ _ hr2 hs5)
  · have hr2 : basic (fun x => (⟨p x, dir x, w x, l x, u x, some c⟩ : KRay ℝ Comp)) :=
      ⟨_, _, _, _, _, _, hp, hdir, hw, hl, hu, rfl⟩
    exact Tame.append (Tame.two (record_basic hr (.inl rfl) _ _ _ _ _) (record_basic hr2 (.inl rfl) _ _ _ _ _)) (hT _ _ _ hr2 hs)

theorem dark_tame (v : Fin (n + 1)) (c : Comp) (hr : basic ray) (hs : Measurable s) :
    Tame fun x => dark (kOps S reader method) v c (ray x) (s x) := by
  obtain ⟨p, d, w, l, u, src, hp, hd, hw, hl, hu, rfl⟩ := id hr
  unfold dark
  dsimp only
  have hdl : Tame (fun x => (kOps S reader method).nrDelay c (s x)) := kDelay_tame _ hs
  tame_step hdl with _ ⟨q, s3, hq, hs3, rfl⟩
  have hq : Measurable q := hq
  have hr2 : basic (fun x => (⟨p x, d x, w x, l x, u x + q x, src⟩ : KRay ℝ Comp)) :=
    ⟨_, _, _, _, _, _, hp, hd, hw, hl, hu.add hq, rfl⟩
  exact three_tame (record_basic hr (.inl rfl) _ _ _ _ _) (record_basic hr2 (.inl rfl) _ _ _ _ _)
      (tally_basic (.inl rfl) (values_basic S method v hr2 measurable_const) _ _)

theorem lit_turned (m : Affine ℝ) (K : KOps ℝ (Fin (n + 1)) Comp σ) : lit (turnedOps m K) = lit K := rfl
theorem dark_turned (m : Affine ℝ) (K : KOps ℝ (Fin (n + 1)) Comp σ) : dark (turnedOps m K) = dark K := rfl

theorem chosen_tame {T : KRay ℝ Comp → Numbers → List (KOut ℝ (Fin (n + 1)) Comp)} (hT : TameRest T) (m : Affine ℝ) (v : Fin (n + 1)) (c : Comp)
    (hr : basic ray) (hs : Measurable s) : Tame fun x => chosen (turnedOps m (kOps S reader method)) v c (ray x) T (s x) := by
  unfold chosen
  rw [lit_turned, dark_turned]
  refine Tame.ite (MeasurableSet.const _) ?_ (dark_tame S method v c hr hs)
  have hy : Tame (fun x => (turnedOps m (kOps S reader method)).yields c (s x)) := below_tame c.qy hs
  tame_step hy with _ ⟨_, s2, ⟨b, rfl⟩, hs2, rfl⟩
  have hs2 : Measurable s2 := hs2
  cases b with
  | false =>
    simp only [Bool.false_eq_true, if_false]
    exact dark_tame S method v c hr hs2
  | true =>
    simp only [if_true]
    have hph : Tame (fun x => (turnedOps m (kOps S reader method)).phase c (s2 x)) := tame_vec m (kPhase_tame _ _ hs2)
    tame_step hph with _ ⟨dir, s3, hdir, hs3, rfl⟩
    exact lit_tame S method hT v c hr hdir hs3

/-- A pass that meets a surface, and what follows. -/
def met (K : KOps ℝ (Fin (n + 1)) Comp σ) (maxsteps count : ℕ) (ray : KRay ℝ Comp) (h v : Fin (n + 1)) (a : Option (Fin (n + 1)))
    (t0 : ℝ) (T : KRay ℝ Comp → σ → List (KOut ℝ (Fin (n + 1)) Comp)) (s : σ) : List (KOut ℝ (Fin (n + 1)) Comp) :=
  if count > maxsteps then (kBody K maxsteps count ray s).1
  else if h = K.root then (kBody K maxsteps count ray s).1
  else
    match isAbsorbed (K.depth v ray.wavelength s).1 t0 with
    | some x => chosen K v (K.pick v ray.wavelength (K.depth v ray.wavelength s).2).1 (ray.advance x (K.nidx v)) T
        (K.pick v ray.wavelength (K.depth v ray.wavelength s).2).2
    | none => after (kSurface K h v a ray t0 (K.depth v ray.wavelength s).2) T

theorem after_met {K : KOps ℝ (Fin (n + 1)) Comp σ} {maxsteps count : ℕ} {ray : KRay ℝ Comp} {h v : Fin (n + 1)}
    {a : Option (Fin (n + 1))} {t0 : ℝ} (e : K.nextHit ray.position ray.direction = some (h, v, a, t0))
    (T : KRay ℝ Comp → σ → List (KOut ℝ (Fin (n + 1)) Comp)) (s : σ) :
    after (kBody K maxsteps count ray s) T = met K maxsteps count ray h v a t0 T s := by
  unfold met
  by_cases h1 : count > maxsteps
  · rw [if_pos h1]
    unfold kBody
    simp only [e, h1, if_true]
    rfl
  by_cases h2 : h = K.root
  · rw [if_neg h1, if_pos h2]
    unfold kBody
    simp only [e, h1, h2, if_true, if_false]
    rfl
  rw [if_neg h1, if_neg h2]
  unfold kBody
  simp only [e, h1, h2, if_false]
  rcases isAbsorbed (K.depth v ray.wavelength s).1 t0 with _ | x
  · rfl
  · exact after_absorb K v ray x T _

theorem after_none {K : KOps ℝ (Fin (n + 1)) Comp σ} {maxsteps count : ℕ} {ray : KRay ℝ Comp}
    (e : K.nextHit ray.position ray.direction = none)
    (T : KRay ℝ Comp → σ → List (KOut ℝ (Fin (n + 1)) Comp)) (s : σ) :
    after (kBody K maxsteps count ray s) T = [] := by
  unfold kBody
  simp only [e]
  rfl

theorem kBody_turned (m : Affine ℝ) (K : KOps ℝ (Fin (n + 1)) Comp σ) {maxsteps count : ℕ} {ray : KRay ℝ Comp} {h v : Fin (n + 1)}
    {a : Option (Fin (n + 1))} {t0 : ℝ} (e : K.nextHit ray.position ray.direction = some (h, v, a, t0))
    (hc : count > maxsteps ∨ h = K.root) (s : σ) :
    kBody (turnedOps m K) maxsteps count ray s = kBody K maxsteps count ray s := by
  have e' : (turnedOps m K).nextHit ray.position ray.direction = some (h, v, a, t0) := e
  unfold kBody
  simp only [e, e']
  by_cases h1 : count > maxsteps
  · simp only [h1, if_true]
    rfl
  · have h2 : h = K.root := hc.resolve_left h1
    have h3 : h = (turnedOps m K).root := h2
    simp only [h1, if_false, if_pos h2, if_pos h3]
    rfl

theorem after_tame {T : KRay ℝ Comp → Numbers → List (KOut ℝ (Fin (n + 1)) Comp)} (hT : TameRest T)
    {b : X → List (KOut ℝ (Fin (n + 1)) Comp) × KNext ℝ Comp Numbers} (hb : Tame b) : Tame fun x => after (b x) T := by
  unfold after
  tame_step hb with _ ⟨L, _, hL, (rfl | ⟨r, s1, hr1, hs1, rfl⟩), rfl⟩
  · exact .of hL
  · exact Tame.append (.of hL) (hT _ _ _ hr1 hs1)

theorem body_split {R : Rand σ} {K : KOps ℝ (Fin (n + 1)) Comp σ} (hK : K = kOps S R method) (count : ℕ) (ray : KRay ℝ Comp)
    (T : KRay ℝ Comp → σ → List (KOut ℝ (Fin (n + 1)) Comp)) (s : σ) :
    after (turnedBody S R method maxsteps count ray s) T =
      match K.nextHit ray.position ray.direction with
      | none => []
      | some (h, v, a, t0) =>
        if count > maxsteps ∨ h = 0 then (kBody K maxsteps count ray s).1
        else
          match isAbsorbed (K.depth v ray.wavelength s).1 t0 with
          | some x => chosen (turnedOps (S.node v).l2w K) v (K.pick v ray.wavelength (K.depth v ray.wavelength s).2).1
              (ray.advance x (S.node v).index) T (K.pick v ray.wavelength (K.depth v ray.wavelength s).2).2
          | none => after (kSurface K h v a ray t0 (K.depth v ray.wavelength s).2) T := by
  subst hK
  unfold turnedBody frame
  rcases e : (kOps S R method).nextHit ray.position ray.direction with _ | ⟨h, v, a, t0⟩
  · exact after_none (K := turnedOps _ (kOps S R method)) e T s
  dsimp only
  rw [after_met (K := turnedOps (S.node v).l2w (kOps S R method)) e T s]
  unfold met
  by_cases hc : count > maxsteps ∨ h = 0
  · rw [if_pos hc, ← kBody_turned (S.node v).l2w (kOps S R method) e hc]
    by_cases h1 : count > maxsteps
    · rw [if_pos h1]
    · rw [if_neg h1, if_pos (show h = (turnedOps (S.node v).l2w (kOps S R method)).root from hc.resolve_left h1)]
  · rw [if_neg hc, if_neg fun h1 => hc (.inl h1), if_neg (show h ≠ (turnedOps (S.node v).l2w (kOps S R method)).root from fun h1 => hc (.inr h1))]
    rfl

theorem turnedBody_tame {T : KRay ℝ Comp → Numbers → List (KOut ℝ (Fin (n + 1)) Comp)} (hT : TameRest T) (count : ℕ)
    (hr : basic ray) (hs : Measurable s) : Tame fun x => after (turnedBody S reader method maxsteps count (ray x) (s x)) T := by
  simp only [body_split S method maxsteps rfl]
  have hbody : Tame fun x => (kBody (kOps S reader method) maxsteps count (ray x) (s x)).1 := by
    tame_step (kBody_tame S method maxsteps count hr hs) with _ ⟨L, _, hL, _, rfl⟩
    exact .of hL
  obtain ⟨p, d, w, l, u, src, hp, hd, hw, hl, hu, rfl⟩ := id hr
  dsimp only
  have hh : Tame (fun x => (kOps S reader method).nextHit (p x) (d x)) :=
    kNextHit_tame fun v => kIntersect_tame _ (vec_point (S.node v).w2l hp) (vec_vec (S.node v).w2l hd)
  tame_step hh with _ (rfl | ⟨_, ⟨_, _, ⟨h, rfl⟩, ⟨_, _, ⟨c, rfl⟩, ⟨a, t, ha, ht, rfl⟩, rfl⟩, rfl⟩, rfl⟩)
  · exact Tame.nil
  have ht : Measurable t := ht
  obtain ⟨a, rfl⟩ : ∃ a', a = fun _ => a' := by
    rcases ha with rfl | ⟨_, ⟨a', rfl⟩, rfl⟩
    · exact ⟨_, rfl⟩
    · exact ⟨_, rfl⟩
  dsimp only
  refine Tame.ite (MeasurableSet.const _) hbody ?_
  have hdp : Tame (fun x => (kOps S reader method).depth c (w x) (s x)) :=
    kDepth_tame (sum_measurable (kCoefs_basic (S.node c) hw)) hs
  tame_step hdp with _ ⟨_, s1, rfl | ⟨depth, hdepth, rfl⟩, hs1, rfl⟩
  · exact after_tame hT (kSurface_tame S method h c a hr ht hs1)
  · have hdepth : Measurable depth := hdepth
    have hia : Tame (fun x => isAbsorbed (some (depth x)) (t x)) := by
      simp only [isAbsorbed]
      exact Tame.ite (by meas) (Tame.some (.of hdepth)) Tame.none
    tame_step hia with _ (rfl | ⟨k, hk, rfl⟩)
    · exact after_tame hT (kSurface_tame S method h c a hr ht hs1)
    · have hpk : Tame (fun x => (kOps S reader method).pick c (w x) (s1 x)) := kPickOp_tame S method c hw hs1
      tame_step hpk with _ ⟨_, s2, ⟨comp, rfl⟩, hs2, rfl⟩
      exact chosen_tame S method hT _ _ _ (advance_basic hr hk _) hs2

theorem turnedTrace_tame (fuel : ℕ) : ∀ count, TameRest (turnedTrace S reader method maxsteps fuel count) := by
  induction fuel with
  | zero => exact fun _ _ _ _ _ _ _ => Tame.nil
  | succ fuel ih =>
    intro count X _ ray s hr hs
    unfold turnedTrace
    exact turnedBody_tame S method maxsteps (ih (count + 1)) (count + 1) hr hs

end
end PV.Turned
