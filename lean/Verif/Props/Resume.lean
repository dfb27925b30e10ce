import Verif.Spec.Resume
import Verif.Props.Stream
import Verif.Props.Slab
import Verif.Props.AgreementDemo

/-!
**C128** A history can be resumed at any event, and the ray's clock and path length can start anywhere.
-/

namespace PV.Resume
open PV.Library

/-! ### Resuming -/

section generic
variable {α ν κ σ : Type} [Field α] [LinearOrder α] [DecidableEq ν] {O : Ops α ν κ σ}

/-- What a pass contributes: a ray that goes on has set out exactly once, in the last event, and the step limit was not reached;
otherwise it has not set out. -/
def Shape (maxsteps count : ℕ) : List (Step α) × Next α σ → Prop
  | (es, .cont r _) => ∃ pre e, es = pre ++ [e] ∧ trips pre = 0 ∧ e.event.travels = true ∧ e.ray = r ∧ count ≤ maxsteps
  | (es, _) => trips es = 0

theorem absorb_shape (container : ν) (ray : Ray α) (d : α) (s : σ) {maxsteps count : ℕ} (h : count ≤ maxsteps) :
    Shape maxsteps count (absorbBody O container ray d s) := by
  unfold absorbBody
  dsimp only
  generalize ray.propagate d (O.refractiveIndex container) = r
  rcases O.component container r.wavelength s with e | ⟨comp, s⟩
  · rfl
  dsimp only
  rcases O.isRadiative comp r s with e | ⟨_ | _, s⟩
  · rfl
  · dsimp only
    rcases O.nonradiativeAbsorb comp r s with e | ⟨r, s⟩
    · rfl
    · cases O.compKind comp <;> rfl
  · dsimp only
    rcases O.emit container comp r s with e | ⟨r, s⟩
    · rfl
    · cases O.compKind comp
      all_goals first
        | rfl
        | exact ⟨[_], _, rfl, rfl, rfl, rfl, h⟩

theorem surface_shape (x : HitInfo ν α) (ray : Ray α) (s : σ) {maxsteps count : ℕ} (h : count ≤ maxsteps) :
    Shape maxsteps count (surfaceBody O x ray s) := by
  unfold surfaceBody
  dsimp only
  generalize ray.propagate x.dist (O.refractiveIndex x.container) = r
  rcases O.normal x.hit r.position with e | m
  · rfl
  dsimp only
  rcases O.isReflected x.hit x.container x.adjacent r s with e | ⟨_ | _, s⟩
  · rfl
  · dsimp only
    rcases O.transmit x.hit x.container x.adjacent r s with e | ⟨r, s⟩
    · rfl
    · dsimp only
      cases x.adjacent
      · rfl
      · exact ⟨[], _, rfl, rfl, rfl, rfl, h⟩
  · dsimp only
    rcases O.reflect x.hit x.container x.adjacent r s with e | ⟨r, s⟩
    · rfl
    · exact ⟨[], _, rfl, rfl, rfl, rfl, h⟩

theorem body_shape (maxsteps : ℕ) (maxpath : Option α) (count : ℕ) (ray : Ray α) (s : σ) :
    Shape maxsteps count (body O maxsteps maxpath count ray s) := by
  unfold body
  rcases O.intersections ray.position ray.direction with e | xs
  · rfl
  dsimp only
  rcases nextHit O.eps (O.distBetween ray.position) xs with e | _ | x
  · rfl
  · rfl
  dsimp only
  split
  · rfl
  rename_i hk
  have hc : count ≤ maxsteps := by
    by_contra h
    exact hk (.inl (by omega))
  split
  · rfl
  rcases O.penetrationDepth x.container ray.wavelength s with e | ⟨D, s⟩
  · rfl
  dsimp only
  cases isAbsorbed D x.dist with
  | none => exact surface_shape x ray s hc
  | some d => exact absorb_shape x.container ray d s hc

theorem trips_append (l m : List (Step α)) : trips (l ++ m) = trips l + trips m := List.countP_append

theorem trips_mem {l : List (Step α)} (h : trips l = 0) {e : Step α} (he : e ∈ l) : e.event.travels = false := by
  have := List.countP_eq_zero.1 h e he
  simpa using this

/-- The step limit only counts passes. -/
theorem loop_budget (maxpath : Option α) (j : ℕ) : ∀ (fuel maxsteps count : ℕ) (ray : Ray α) (s : σ),
    loop O (maxsteps + j) maxpath fuel (count + j) ray s = loop O maxsteps maxpath fuel count ray s
  | 0, _, _, _, _ => rfl
  | fuel + 1, maxsteps, count, ray, s => by
    have hb : body O (maxsteps + j) maxpath (count + j + 1) ray s = body O maxsteps maxpath (count + 1) ray s := by
      have e : (count + j + 1 > maxsteps + j) = (count + 1 > maxsteps) := by
        rw [eq_iff_iff]
        omega
      unfold body
      simp only [e]
    unfold loop
    rw [hb]
    rcases body O maxsteps maxpath (count + 1) ray s with ⟨es, (⟨r, t⟩ | _ | e)⟩
    · have e : count + j + 1 = count + 1 + j := by omega
      simp only [e, loop_budget maxpath j fuel maxsteps (count + 1) r t]
    · rfl
    · rfl

/-- Inside a run there is a run from every event after which the ray travels on. -/
theorem loop_resumed {Q : σ → Prop} {maxsteps : ℕ} {maxpath : Option α}
    (hQ : ∀ count ray s es r t, body O maxsteps maxpath count ray s = (es, .cont r t) → Q s → Q t) :
    ∀ (fuel count : ℕ) (ray : Ray α) (s : σ), Q s → ∀ (a : List (Step α)) (e : Step α) (b : List (Step α)),
      (loop O maxsteps maxpath fuel count ray s).1 = a ++ e :: b → e.event.travels = true →
      ∃ t, Q t ∧ count + trips (a ++ [e]) ≤ maxsteps ∧ trips (a ++ [e]) ≤ fuel ∧
        loop O maxsteps maxpath (fuel - trips (a ++ [e])) (count + trips (a ++ [e])) e.ray t =
          (b, (loop O maxsteps maxpath fuel count ray s).2) := by
  intro fuel
  induction fuel with
  | zero =>
    intro count ray s _ a e b h
    simp [loop] at h
  | succ fuel ih =>
    intro count ray s hs a e b h he
    have hb := body_shape (O := O) maxsteps maxpath (count + 1) ray s
    unfold loop at h
    rw [show loop O maxsteps maxpath (fuel + 1) count ray s = (match body O maxsteps maxpath (count + 1) ray s with
      | (es, .stop) => (es, .finished)
      | (es, .raise e) => (es, .raised e)
      | (es, .cont ray s) => (es ++ (loop O maxsteps maxpath fuel (count + 1) ray s).1, (loop O maxsteps maxpath fuel (count + 1) ray s).2))
      from rfl]
    rcases hx : body O maxsteps maxpath (count + 1) ray s with ⟨es, (⟨r, t⟩ | _ | er)⟩
    · rw [hx] at h hb
      dsimp only at h ⊢
      obtain ⟨pre, x, rfl, h1, h2, h3, h4⟩ := hb
      have ht : Q t := hQ _ _ _ _ _ _ hx hs
      -- where the event lies
      rcases List.append_eq_append_iff.1 h with ⟨c, hc1, hc2⟩ | ⟨c, hc1, hc2⟩
      · -- in the rest
        obtain ⟨u, q1, q2, q3, q4⟩ := ih (count + 1) r t ht c e b hc2 he
        have ej : trips (a ++ [e]) = 1 + trips (c ++ [e]) := by
          rw [hc1, List.append_assoc, trips_append, trips_append pre, h1, show trips [x] = 1 by simp [trips, h2]]
        refine ⟨u, q1, by omega, by omega, ?_⟩
        rw [show fuel + 1 - trips (a ++ [e]) = fuel - trips (c ++ [e]) by omega,
          show count + trips (a ++ [e]) = count + 1 + trips (c ++ [e]) by omega]
        exact q4
      · cases c with
        | nil =>
          rw [List.append_nil] at hc1
          rw [List.nil_append] at hc2
          obtain ⟨u, q1, q2, q3, q4⟩ := ih (count + 1) r t ht [] e b hc2.symm he
          have ej : trips (a ++ [e]) = 1 + trips ([] ++ [e]) := by
            rw [← hc1, List.append_assoc, trips_append, h1, trips_append, show trips [x] = 1 by simp [trips, h2]]
            simp
          refine ⟨u, q1, by omega, by omega, ?_⟩
          rw [show fuel + 1 - trips (a ++ [e]) = fuel - trips ([] ++ [e]) by omega,
            show count + trips (a ++ [e]) = count + 1 + trips ([] ++ [e]) by omega]
          exact q4
        | cons y c =>
          rw [List.cons_append, List.cons.injEq] at hc2
          obtain ⟨rfl, hc2⟩ := hc2
          -- the event is the last of the pass
          cases c using List.reverseRecOn with
          | nil =>
            have hc1' := List.append_inj' hc1 rfl
            obtain ⟨rfl, hx'⟩ := hc1'
            rw [List.cons.injEq] at hx'
            obtain ⟨rfl, -⟩ := hx'
            have ej : trips (pre ++ [x]) = 1 := by
              rw [trips_append, h1]
              simp [trips, h2]
            rw [ej]
            refine ⟨t, ht, by omega, by omega, ?_⟩
            rw [Nat.add_sub_cancel, h3]
            rw [List.nil_append] at hc2
            rw [hc2]
          | append_singleton c z _ =>
            exfalso
            have hc1' : pre ++ [x] = (a ++ e :: c) ++ [z] := by rw [hc1]; simp
            have hpre := (List.append_inj' hc1' rfl).1
            have := trips_mem h1 (e := e) (by rw [hpre]; simp)
            rw [he] at this
            cases this
    · rw [hx] at h hb
      exfalso
      have : trips es = 0 := hb
      have := trips_mem this (e := e) (by rw [show es = a ++ e :: b from h]; simp)
      rw [he] at this
      cases this
    · rw [hx] at h hb
      exfalso
      have : trips es = 0 := hb
      have := trips_mem this (e := e) (by rw [show es = a ++ e :: b from h]; simp)
      rw [he] at this
      cases this

/-- **C128** Resuming. If an event of a history is a reflection, a transmission, an emission or a scattering, then tracing the ray of
that event, with the state that the random generator has then and the steps that are left, yields the rest of the history and ends
in the same way. -/
theorem resumed {Q : σ → Prop} {maxsteps : ℕ} {maxpath : Option α}
    (hQ : ∀ count ray s es r t, body O maxsteps maxpath count ray s = (es, .cont r t) → Q s → Q t) (ray : Ray α) {s : σ} (hs : Q s)
    {a : List (Step α)} {e : Step α} {b : List (Step α)} (h : (stepForward O maxsteps maxpath (maxsteps + 1) ray s).1 = a ++ e :: b)
    (he : e.event.travels = true) : ∃ t, Q t ∧ trips (a ++ [e]) ≤ maxsteps ∧
      stepForward O (maxsteps - trips (a ++ [e])) maxpath (maxsteps - trips (a ++ [e]) + 1) e.ray t =
        (⟨e.ray, .generate, {}⟩ :: b, (stepForward O maxsteps maxpath (maxsteps + 1) ray s).2) := by
  unfold stepForward at h ⊢
  dsimp only at h ⊢
  cases a with
  | nil =>
    rw [List.nil_append, List.cons.injEq] at h
    rw [← h.1] at he
    cases he
  | cons y a =>
    rw [List.cons_append, List.cons.injEq] at h
    obtain ⟨t, q1, q2, q3, q4⟩ := loop_resumed hQ (maxsteps + 1) 0 ray s hs a e b h.2 he
    have ej : trips (y :: a ++ [e]) = trips (a ++ [e]) := by
      rw [List.cons_append, ← h.1]
      rfl
    rw [ej]
    rw [Nat.zero_add] at q2 q4
    refine ⟨t, q1, q2, ?_⟩
    have hl := loop_budget (O := O) maxpath (trips (a ++ [e])) (maxsteps + 1 - trips (a ++ [e])) (maxsteps - trips (a ++ [e])) 0 e.ray t
    rw [Nat.sub_add_cancel q2, Nat.zero_add, q4] at hl
    rw [show maxsteps - trips (a ++ [e]) + 1 = maxsteps + 1 - trips (a ++ [e]) by omega, ← hl]

end generic

noncomputable section
open Spec
variable {n : ℕ} {σ : Type}

/-- **C128** In a library scene traced with the numbers of a sequence, the rest of the history comes from the rest of the sequence. -/
theorem scene_resumed (S : LScene n) (B : Trimesh) (method : EmitMethod) (maxsteps : ℕ) (maxpath : Option ℝ) (ray : Ray ℝ) (s : Numbers)
    {a : List (Step ℝ)} {e : Step ℝ} {b : List (Step ℝ)}
    (h : (stepForward (pyOps S B reader method) maxsteps maxpath (maxsteps + 1) ray s).1 = a ++ e :: b) (he : e.event.travels = true) :
    ∃ k, trips (a ++ [e]) ≤ maxsteps ∧
      stepForward (pyOps S B reader method) (maxsteps - trips (a ++ [e])) maxpath (maxsteps - trips (a ++ [e]) + 1) e.ray (later k s) =
        (⟨e.ray, .generate, {}⟩ :: b, (stepForward (pyOps S B reader method) maxsteps maxpath (maxsteps + 1) ray s).2) := by
  obtain ⟨t, ⟨k, rfl⟩, h1, h2⟩ := resumed (Q := fun t => ∃ k, t = later k s) (fun count r s' es r' t hb hs' => by
    obtain ⟨k, rfl⟩ := hs'
    obtain ⟨m, hm⟩ := Stream.pass_reads (Stream.library_reads S B method) maxsteps maxpath count r
    obtain ⟨p1, p2, p3⟩ := Stream.pass_same (pyOps S B reader method) maxsteps maxpath count r (later k s)
    rcases (hm (later k s) (later k s) fun _ _ => rfl).2 with ⟨er, e1, -⟩ | ⟨⟨es', _ | r2⟩, e1, -⟩
    · have := p1 er e1
      rw [hb] at this
      cases this
    · have := p2 es' _ e1
      rw [hb] at this
      cases this
    · have := p3 es' r2 _ e1
      rw [hb] at this
      simp only [Prod.mk.injEq, Next.cont.injEq] at this
      exact ⟨m (later k s) + k, by rw [this.2.2]; funext i; simp [later, Nat.add_assoc]⟩) ray ⟨0, rfl⟩ h he
  exact ⟨k, h1, h2⟩

/-! ### The clock and the path length -/

section clock
variable {x t : ℝ}

def nextStarted (x t : ℝ) : Next ℝ σ → Next ℝ σ
  | .cont r s => .cont (r.started x t) s
  | .stop => .stop
  | .raise e => .raise e

def passStarted (x t : ℝ) (p : List (Step ℝ) × Next ℝ σ) : List (Step ℝ) × Next ℝ σ := (p.1.map (·.started x t), nextStarted x t p.2)

theorem propagate_started (r : Ray ℝ) (d m : ℝ) : (r.started x t).propagate d m = (r.propagate d m).started x t := by
  unfold Ray.started Ray.propagate
  simp only [add_assoc]

variable (S : LScene n) (B : Trimesh) (R : Rand σ) (method : EmitMethod)

theorem emit_started (v : Fin (n + 1)) (c : Comp) (r : Ray ℝ) (s : σ) : (pyOps S B R method).emit v c (r.started x t) s =
    ((pyOps S B R method).emit v c r s).map (Prod.map (·.started x t) id) := by
  show (match c.emit R method ((r.started x t).representation (S.node v).w2l) s with
    | .error e => Except.error e
    | .ok (ray, s) => .ok (ray.representation (S.node v).l2w, s)) = _
  have key : c.emit R method ((r.started x t).representation (S.node v).w2l) s =
      (c.emit R method (r.representation (S.node v).w2l) s).map (Prod.map (·.started x t) id) := by
    unfold Comp.emit
    rcases c.phase.draw R s with e | ⟨d, s⟩
    · rfl
    dsimp only
    split_ifs
    · have ew : ((r.started x t).representation (S.node v).w2l).wavelength = (r.representation (S.node v).w2l).wavelength := rfl
      rw [ew]
      rcases emitWavelength c.emsDist method (r.representation (S.node v).w2l).wavelength (R.next s).1 with e | w
      · rfl
      dsimp only
      rcases truthy c.tauRad with _ | tau
      · rfl
      · simp only [Ray.started, Ray.representation, Except.map, Prod.map, id, add_assoc]
    · rfl
  rw [key]
  show _ = Except.map _ (match c.emit R method (r.representation (S.node v).w2l) s with
    | .error e => Except.error e
    | .ok (ray, s) => .ok (ray.representation (S.node v).l2w, s))
  rcases c.emit R method (r.representation (S.node v).w2l) s with e | ⟨r', s'⟩ <;> rfl

theorem nonradiative_started (c : Comp) (r : Ray ℝ) (s : σ) : (pyOps S B R method).nonradiativeAbsorb c (r.started x t) s =
    ((pyOps S B R method).nonradiativeAbsorb c r s).map (Prod.map (·.started x t) id) := by
  show Except.ok (c.nonradiativeAbsorb R (r.started x t) s) = Except.map _ (Except.ok (c.nonradiativeAbsorb R r s))
  unfold Comp.nonradiativeAbsorb
  rcases truthy c.tauNr with _ | tau
  · rfl
  · simp only [Ray.started, Except.map, Prod.map, id, add_assoc]

theorem absorb_started (c : Fin (n + 1)) (ray : Ray ℝ) (d : ℝ) (s : σ) :
    absorbBody (pyOps S B R method) c (ray.started x t) d s = passStarted x t (absorbBody (pyOps S B R method) c ray d s) := by
  unfold absorbBody
  dsimp only
  rw [propagate_started]
  generalize ray.propagate d ((pyOps S B R method).refractiveIndex c) = r
  have hw : (r.started x t).wavelength = r.wavelength := rfl
  rw [hw]
  rcases (pyOps S B R method).component c r.wavelength s with e | ⟨p, s⟩
  · rfl
  dsimp only
  have hr : (pyOps S B R method).isRadiative p (r.started x t) s = (pyOps S B R method).isRadiative p r s := rfl
  rw [hr]
  rcases (pyOps S B R method).isRadiative p r s with e | ⟨_ | _, s⟩
  · rfl
  · dsimp only
    rw [nonradiative_started]
    rcases (pyOps S B R method).nonradiativeAbsorb p r s with e | ⟨r', s⟩
    · rfl
    · simp only [Except.map, Prod.map, id]
      cases (pyOps S B R method).compKind p <;> rfl
  · dsimp only
    rw [emit_started]
    rcases (pyOps S B R method).emit c p r s with e | ⟨r', s⟩
    · rfl
    · simp only [Except.map, Prod.map, id]
      cases (pyOps S B R method).compKind p <;> rfl

theorem turn_started (N : LNode) (r : Ray ℝ) (d : Except Err (Vec3 ℝ)) (s : σ) :
    N.turn (r.started x t) d s = (N.turn r d s).map (Prod.map (·.started x t) id) := by
  rcases d with e | d <;> rfl

theorem surface_started (h : HitInfo (Fin (n + 1)) ℝ) (ray : Ray ℝ) (s : σ) :
    surfaceBody (pyOps S B R method) h (ray.started x t) s = passStarted x t (surfaceBody (pyOps S B R method) h ray s) := by
  unfold surfaceBody
  dsimp only
  rw [propagate_started]
  generalize ray.propagate h.dist ((pyOps S B R method).refractiveIndex h.container) = r
  have hp : (r.started x t).position = r.position := rfl
  rw [hp]
  rcases (pyOps S B R method).normal h.hit r.position with e | m
  · rfl
  dsimp only
  have hi : (pyOps S B R method).isReflected h.hit h.container h.adjacent (r.started x t) s =
    (pyOps S B R method).isReflected h.hit h.container h.adjacent r s := rfl
  rw [hi]
  rcases (pyOps S B R method).isReflected h.hit h.container h.adjacent r s with e | ⟨_ | _, s⟩
  · rfl
  · dsimp only
    have ht : (pyOps S B R method).transmit h.hit h.container h.adjacent (r.started x t) s =
        ((pyOps S B R method).transmit h.hit h.container h.adjacent r s).map (Prod.map (·.started x t) id) :=
      turn_started _ _ _ _
    rw [ht]
    rcases (pyOps S B R method).transmit h.hit h.container h.adjacent r s with e | ⟨r', s⟩
    · rfl
    · cases h.adjacent <;> rfl
  · dsimp only
    have ht : (pyOps S B R method).reflect h.hit h.container h.adjacent (r.started x t) s =
        ((pyOps S B R method).reflect h.hit h.container h.adjacent r s).map (Prod.map (·.started x t) id) :=
      turn_started _ _ _ _
    rw [ht]
    rcases (pyOps S B R method).reflect h.hit h.container h.adjacent r s with e | ⟨r', s⟩ <;> rfl

theorem beyond_started (d : ℝ) (maxpath : Option ℝ) : beyond (x + d) (maxpath.map (x + ·)) = beyond d maxpath := by
  cases maxpath with
  | none => rfl
  | some m => simp [beyond]

theorem body_started (maxsteps : ℕ) (maxpath : Option ℝ) (count : ℕ) (ray : Ray ℝ) (s : σ) :
    body (pyOps S B R method) maxsteps (maxpath.map (x + ·)) count (ray.started x t) s =
      passStarted x t (body (pyOps S B R method) maxsteps maxpath count ray s) := by
  unfold body
  have e1 : (ray.started x t).position = ray.position := rfl
  have e2 : (ray.started x t).direction = ray.direction := rfl
  have e3 : (ray.started x t).travelled = x + ray.travelled := rfl
  have e4 : (ray.started x t).wavelength = ray.wavelength := rfl
  rw [e1, e2, e3, e4, beyond_started]
  rcases (pyOps S B R method).intersections ray.position ray.direction with e | xs
  · rfl
  dsimp only
  rcases nextHit (pyOps S B R method).eps ((pyOps S B R method).distBetween ray.position) xs with e | _ | h
  · rfl
  · rfl
  dsimp only
  split
  · rfl
  split
  · rw [propagate_started]
    rfl
  rcases (pyOps S B R method).penetrationDepth h.container ray.wavelength s with e | ⟨D, s⟩
  · rfl
  dsimp only
  cases isAbsorbed D h.dist with
  | none => exact surface_started S B R method h ray s
  | some d => exact absorb_started S B R method h.container ray d s

theorem loop_started (maxsteps : ℕ) (maxpath : Option ℝ) : ∀ (fuel count : ℕ) (ray : Ray ℝ) (s : σ),
    loop (pyOps S B R method) maxsteps (maxpath.map (x + ·)) fuel count (ray.started x t) s =
      ((loop (pyOps S B R method) maxsteps maxpath fuel count ray s).1.map (·.started x t),
        (loop (pyOps S B R method) maxsteps maxpath fuel count ray s).2)
  | 0, _, _, _ => rfl
  | fuel + 1, count, ray, s => by
    unfold loop
    rw [body_started]
    rcases body (pyOps S B R method) maxsteps maxpath (count + 1) ray s with ⟨es, (⟨r, u⟩ | _ | e)⟩
    · simp only [passStarted, nextStarted, List.map_append]
      rw [loop_started maxsteps maxpath fuel (count + 1) r u]
    · rfl
    · rfl

/-- **C128** A ray that starts with another clock and another path length (and a path limit that is moved along) has the same
history, with all clocks and path lengths moved. -/
theorem started_history (x t : ℝ) (maxsteps : ℕ) (maxpath : Option ℝ) (ray : Ray ℝ) (s : σ) :
    stepForward (pyOps S B R method) maxsteps (maxpath.map (x + ·)) (maxsteps + 1) (ray.started x t) s =
      ((stepForward (pyOps S B R method) maxsteps maxpath (maxsteps + 1) ray s).1.map (·.started x t),
        (stepForward (pyOps S B R method) maxsteps maxpath (maxsteps + 1) ray s).2) := by
  unfold stepForward
  rw [loop_started]
  rfl

end clock

/-- **C128** Both together: a ray taken out of a history, with its clock and path length set to zero, repeats the rest of the
history but for its clock and path length. -/
theorem resumed_afresh (S : LScene n) (B : Trimesh) (method : EmitMethod) (maxsteps : ℕ) (ray : Ray ℝ) (s : Numbers)
    {a : List (Step ℝ)} {e : Step ℝ} {b : List (Step ℝ)}
    (h : (stepForward (pyOps S B reader method) maxsteps none (maxsteps + 1) ray s).1 = a ++ e :: b) (he : e.event.travels = true) :
    ∃ k, (stepForward (pyOps S B reader method) (maxsteps - trips (a ++ [e])) none (maxsteps - trips (a ++ [e]) + 1)
      { e.ray with travelled := 0, duration := 0 } (later k s)).1.tail.map (·.started e.ray.travelled e.ray.duration) = b := by
  obtain ⟨k, h1, h2⟩ := scene_resumed S B method maxsteps none ray s h he
  refine ⟨k, ?_⟩
  have e1 : ({ e.ray with travelled := 0, duration := 0 } : Ray ℝ).started e.ray.travelled e.ray.duration = e.ray := by
    unfold Ray.started
    simp only [add_zero]
  have h3 := started_history S B reader method e.ray.travelled e.ray.duration (maxsteps - trips (a ++ [e])) none
    { e.ray with travelled := 0, duration := 0 } (later k s)
  rw [e1, Option.map_none, h2] at h3
  have h4 := congrArg (fun p => p.1.tail) h3
  dsimp only [List.tail_cons] at h4
  rw [List.map_tail]
  exact h4.symm

/-! ### A case -/

/-- A history in a tinted plate: in, two internal reflections, out. It can be resumed where the ray has entered. -/
example : ∃ s a e b, (stepForward (Slab.ops Slab.tinted kBox .kT) 10 none 11 ⟨⟨0.1, 0.2, -3⟩, ⟨0, 0, 1⟩, 555, 0, 0, none⟩ s).1 = a ++ e :: b ∧
    e.event.travels = true ∧ trips (a ++ [e]) = 1 ∧ b.map (·.event) = [.reflect, .reflect, .transmit, .exit] := by
  have hc : chance (History (Slab.ops Slab.tinted kBox .kT) 10 ⟨⟨0.1, 0.2, -3⟩, ⟨0, 0, 1⟩, 555, 0, 0, none⟩
      [.generate, .transmit, .reflect, .reflect, .transmit, .exit]) =
      ENNReal.ofReal ((1 - Slab.R Slab.tinted) * (Slab.R Slab.tinted * Real.exp (-(2 * 1))) ^ 2 * Real.exp (-(2 * 1)) *
        (1 - Slab.R Slab.tinted)) :=
    PathLaw.left_law (Slab.caught (method := .kT) Slab.tinted_lit) (Slab.attenuates Slab.tinted_lit) (by norm_num)
      (Slab.enters Slab.tinted_lit ⟨rfl, rfl, rfl⟩) (Slab.R_pos Slab.tinted_lit).1.le (Slab.R_pos Slab.tinted_lit).2.le
      (by norm_num [Slab.tinted]) (m := 8) (k := 2) (by norm_num)
  have hR : Slab.R Slab.tinted = 0.04 := by norm_num [Slab.R, Slab.tinted]
  have hex : ∃ s, History (Slab.ops Slab.tinted kBox .kT) 10 ⟨⟨0.1, 0.2, -3⟩, ⟨0, 0, 1⟩, 555, 0, 0, none⟩
      [.generate, .transmit, .reflect, .reflect, .transmit, .exit] s := by
    by_contra hn
    push Not at hn
    have h0 : chance (History (Slab.ops Slab.tinted kBox .kT) 10 ⟨⟨0.1, 0.2, -3⟩, ⟨0, 0, 1⟩, 555, 0, 0, none⟩
      [.generate, .transmit, .reflect, .reflect, .transmit, .exit]) = 0 := by
      unfold chance
      simp [hn]
    rw [hc, ENNReal.ofReal_eq_zero, hR] at h0
    have : (0 : ℝ) < (1 - 0.04) * (0.04 * Real.exp (-(2 * 1))) ^ 2 * Real.exp (-(2 * 1)) * (1 - 0.04) := by
      have := Real.exp_pos (-(2 * 1))
      have h1 : (0 : ℝ) < 1 - 0.04 := by norm_num
      positivity
    linarith
  obtain ⟨s, l, hl, hm⟩ := hex
  refine ⟨s, ?_⟩
  unfold follow at hl
  rcases hr : stepForward (Slab.ops Slab.tinted kBox .kT) 10 none (10 + 1) ⟨⟨0.1, 0.2, -3⟩, ⟨0, 0, 1⟩, 555, 0, 0, none⟩ s with ⟨es, o⟩
  rw [hr] at hl
  cases o with
  | finished =>
    cases hl
    rw [List.map_map] at hm
    have hm : es.map (·.event) = [.generate, .transmit, .reflect, .reflect, .transmit, .exit] := hm
    match es, hm with
    | x :: y :: b, hm =>
      simp only [List.map_cons, List.cons.injEq] at hm
      refine ⟨[x], y, b, rfl, ?_, ?_, ?_⟩
      · rw [hm.2.1]
        rfl
      · simp [trips, hm.1, hm.2.1, Event.travels]
      · exact hm.2.2
    | [_], hm => simp at hm
    | [], hm => simp at hm
  | raised e => cases hl
  | outOfFuel => cases hl

/-- The ray that has entered the black ball, traced on its own. -/
example : stepForward (pyOps ballScene noBoxes halves .kT) 9 none 10 innerRay () =
    ([⟨innerRay, .generate, {}⟩, ⟨lastRay, .absorb, ⟨none, some "ball", none, some "soot", none⟩⟩,
      ⟨lastRay, .nonradiative, ⟨none, some "ball", none, some "soot", none⟩⟩], .finished) := by
  obtain ⟨t, -, -, h⟩ := resumed (Q := fun _ => True) (O := pyOps ballScene noBoxes halves .kT) (maxsteps := 10) (maxpath := none)
    (fun _ _ _ _ _ _ _ _ => trivial) lampRay (s := ()) trivial (a := [⟨lampRay, .generate, {}⟩]) (by rw [ball_run]; rfl) rfl
  rw [ball_run] at h
  exact h

/-- A ray that starts an hour later arrives an hour later. -/
example : stepForward (pyOps ballScene noBoxes halves .kT) 10 none 11 (lampRay.started 0 3600) () =
    (([⟨lampRay, .generate, {}⟩,
      ⟨innerRay, .transmit, ⟨some "ball", some "world", some "ball", none, some ⟨-1, 0, 0⟩⟩⟩,
      ⟨lastRay, .absorb, ⟨none, some "ball", none, some "soot", none⟩⟩,
      ⟨lastRay, .nonradiative, ⟨none, some "ball", none, some "soot", none⟩⟩] : List (Step ℝ)).map (·.started 0 3600), .finished) := by
  have h := started_history ballScene noBoxes halves .kT 0 3600 10 none lampRay ()
  rw [ball_run] at h
  exact h

end
end PV.Resume
