import Verif.Model.Stream
import Verif.Lemmas.Stream
import Verif.Props.Tracer

/-!
C101: rays that share one random generator are independent.
-/

namespace PV.Stream
open Spec MeasureTheory
variable {α ν κ σ : Type}

/-! ### The tracer with its generator is the tracer -/

section Same
variable [Field α] [LinearOrder α] [DecidableEq ν]

/-- A pass in the notation of `Model/Tracer`. -/
theorem absorb_same (O : Ops α ν κ σ) (container : ν) (ray : Ray α) (d : α) (s : σ) :
    (∀ e, absorbPass O container ray d s = .error e →
      (absorbBody O container ray d s).2 = .raise e) ∧
    (∀ es t, absorbPass O container ray d s = .ok ((es, none), t) → absorbBody O container ray d s = (es, .stop)) ∧
    (∀ es ray' t, absorbPass O container ray d s = .ok ((es, some ray'), t) →
      absorbBody O container ray d s = (es, .cont ray' t)) := by
  unfold absorbPass absorbBody
  dsimp only
  generalize ray.propagate d (O.refractiveIndex container) = r
  rcases O.component container r.wavelength s with e | ⟨comp, s⟩
  · simp
  · dsimp only
    rcases O.isRadiative comp r s with e | ⟨_ | _, s⟩
    · simp
    · simp only [Bool.false_eq_true, if_false]
      rcases O.nonradiativeAbsorb comp r s with e | ⟨r, s⟩
      · simp
      · dsimp only
        cases O.compKind comp <;> simp
    · simp only [if_true]
      rcases O.emit container comp r s with e | ⟨r, s⟩
      · simp
      · dsimp only
        cases O.compKind comp <;> simp +contextual

theorem surface_same (O : Ops α ν κ σ) (h : HitInfo ν α) (ray : Ray α) (s : σ) :
    (∀ e, surfacePass O h ray s = .error e → (surfaceBody O h ray s).2 = .raise e) ∧
    (∀ es t, surfacePass O h ray s = .ok ((es, none), t) → surfaceBody O h ray s = (es, .stop)) ∧
    (∀ es ray' t, surfacePass O h ray s = .ok ((es, some ray'), t) →
      surfaceBody O h ray s = (es, .cont ray' t)) := by
  unfold surfacePass surfaceBody
  dsimp only
  generalize ray.propagate h.dist (O.refractiveIndex h.container) = r
  rcases O.normal h.hit r.position with e | m
  · simp
  · dsimp only
    rcases O.isReflected h.hit h.container h.adjacent r s with e | ⟨_ | _, s⟩
    · simp
    · simp only [Bool.false_eq_true, if_false]
      rcases O.transmit h.hit h.container h.adjacent r s with e | ⟨r, s⟩
      · simp
      · dsimp only
        cases h.adjacent <;> simp +contextual
    · simp only [if_true]
      rcases O.reflect h.hit h.container h.adjacent r s with e | ⟨r, s⟩
      · simp
      · simp +contextual

theorem pass_same (O : Ops α ν κ σ) (maxsteps : ℕ) (maxpath : Option α) (count : ℕ) (ray : Ray α) (s : σ) :
    (∀ e, pass O maxsteps maxpath count ray s = .error e → (body O maxsteps maxpath count ray s).2 = .raise e) ∧
    (∀ es t, pass O maxsteps maxpath count ray s = .ok ((es, none), t) →
      body O maxsteps maxpath count ray s = (es, .stop)) ∧
    (∀ es ray' t, pass O maxsteps maxpath count ray s = .ok ((es, some ray'), t) →
      body O maxsteps maxpath count ray s = (es, .cont ray' t)) := by
  unfold pass body
  rcases O.intersections ray.position ray.direction with e | xs
  · simp
  · dsimp only
    rcases nextHit O.eps (O.distBetween ray.position) xs with e | _ | h
    · simp
    · simp
    · dsimp only
      split
      · simp
      · split
        · simp
        · rcases O.penetrationDepth h.container ray.wavelength s with e | ⟨depth, s⟩
          · simp
          · dsimp only
            cases isAbsorbed depth h.dist with
            | none => exact surface_same O h ray s
            | some d => exact absorb_same O h.container ray d s

theorem passes_same (O : Ops α ν κ σ) (maxsteps : ℕ) (maxpath : Option α) (fuel : ℕ) :
    ∀ (count : ℕ) (ray : Ray α) (s : σ),
    (∀ e, passes O maxsteps maxpath fuel count ray s = .error e →
      (loop O maxsteps maxpath fuel count ray s).2 = .raised e ∨
        (loop O maxsteps maxpath fuel count ray s).2 = .outOfFuel) ∧
    (∀ es t, passes O maxsteps maxpath fuel count ray s = .ok (es, t) →
      loop O maxsteps maxpath fuel count ray s = (es, .finished)) := by
  induction fuel with
  | zero => intro count ray s; simp [passes, loop]
  | succ fuel ih =>
    intro count ray s
    obtain ⟨h1, h2, h3⟩ := pass_same O maxsteps maxpath (count + 1) ray s
    unfold passes loop
    rcases hp : pass O maxsteps maxpath (count + 1) ray s with e | ⟨⟨es, _ | r⟩, t⟩
    · have := h1 e hp
      rcases hb : body O maxsteps maxpath (count + 1) ray s with ⟨es, nx⟩
      rw [hb] at this
      dsimp only at this
      subst this
      simp
    · rw [h2 es t hp]
      simp
    · rw [h3 es r t hp]
      dsimp only
      obtain ⟨i1, i2⟩ := ih (count + 1) r t
      rcases hq : passes O maxsteps maxpath fuel (count + 1) r t with e | ⟨es', t'⟩
      · simpa using i1 e hq
      · have := i2 es' t' hq
        simp [this]

/-- The tracer that keeps its generator returns what `follow` returns. -/
theorem follow_same (O : Ops α ν κ σ) (maxsteps : ℕ) (maxpath : Option α) (ray : Ray α) (s : σ) :
    PV.follow O maxsteps maxpath ray s =
      match Stream.follow O maxsteps maxpath ray s with
      | .error e => .error (.raised e)
      | .ok (h, _) => .ok h := by
  obtain ⟨h1, h2⟩ := passes_same O maxsteps maxpath (maxsteps + 1) 0 ray s
  have ht := Tracer.terminates O maxsteps maxpath ray s
  unfold PV.follow Stream.follow stepForward at *
  rcases hp : passes O maxsteps maxpath (maxsteps + 1) 0 ray s with e | ⟨es, t⟩
  · have := h1 e hp
    rcases hl : loop O maxsteps maxpath (maxsteps + 1) 0 ray s with ⟨es, o⟩
    rw [hl] at this ht
    dsimp only at this ht ⊢
    rcases this with rfl | rfl
    · rfl
    · simp at ht
  · rw [h2 es t hp]
    rfl

end Same

/-! ### Everything reads the stream in order -/

noncomputable section

/-- Every function of the scene that draws numbers takes them from the stream in order. -/
structure ReadingOps (O : Ops ℝ ν κ Numbers) : Prop where
  depth : ∀ v w, Reads (O.penetrationDepth v w)
  component : ∀ v w, Reads (O.component v w)
  radiative : ∀ c ray, Reads (O.isRadiative c ray)
  emit : ∀ v c ray, Reads (O.emit v c ray)
  absorb : ∀ c ray, Reads (O.nonradiativeAbsorb c ray)
  reflected : ∀ h c a ray, Reads (O.isReflected h c a ray)
  reflect : ∀ h c a ray, Reads (O.reflect h c a ray)
  transmit : ∀ h c a ray, Reads (O.transmit h c a ray)

section
variable {O : Ops ℝ ν κ Numbers} (hO : ReadingOps O)
include hO

theorem absorb_reads (container : ν) (ray : Ray ℝ) (d : ℝ) : Reads (absorbPass O container ray d) := by
  unfold absorbPass
  dsimp only
  generalize ray.propagate d (O.refractiveIndex container) = r
  read_step hO.component container r.wavelength
  rename_i comp
  read_step hO.radiative comp r
  rename_i radiative
  cases radiative
  · simp only [Bool.false_eq_true, if_false]
    read_step hO.absorb comp r
    cases O.compKind comp <;> exact Reads.ok _
  · simp only [if_true]
    read_step hO.emit container comp r
    cases O.compKind comp <;> first | exact Reads.ok _ | exact Reads.error _

theorem surface_reads (h : HitInfo ν ℝ) (ray : Ray ℝ) : Reads (surfacePass O h ray) := by
  unfold surfacePass
  dsimp only
  generalize ray.propagate h.dist (O.refractiveIndex h.container) = r
  rcases O.normal h.hit r.position with e | m
  · exact Reads.error _
  · dsimp only
    read_step hO.reflected h.hit h.container h.adjacent r
    rename_i b
    cases b
    · simp only [Bool.false_eq_true, if_false]
      read_step hO.transmit h.hit h.container h.adjacent r
      cases h.adjacent <;> first | exact Reads.ok _ | exact Reads.error _
    · simp only [if_true]
      read_step hO.reflect h.hit h.container h.adjacent r
      exact Reads.ok _

theorem pass_reads [DecidableEq ν] (maxsteps : ℕ) (maxpath : Option ℝ) (count : ℕ) (ray : Ray ℝ) :
    Reads (pass O maxsteps maxpath count ray) := by
  unfold pass
  rcases O.intersections ray.position ray.direction with e | xs
  · exact Reads.error _
  · dsimp only
    rcases nextHit O.eps (O.distBetween ray.position) xs with e | _ | h
    · exact Reads.error _
    · exact Reads.ok _
    · dsimp only
      split
      · exact Reads.ok _
      · split
        · exact Reads.ok _
        · read_step hO.depth h.container ray.wavelength
          rename_i depth
          cases isAbsorbed depth h.dist with
          | none => exact surface_reads hO h ray
          | some d => exact absorb_reads hO h.container ray d

theorem passes_reads [DecidableEq ν] (maxsteps : ℕ) (maxpath : Option ℝ) (fuel : ℕ) : ∀ (count : ℕ) (ray : Ray ℝ),
    Reads (passes O maxsteps maxpath fuel count ray) := by
  induction fuel with
  | zero => intro count ray; exact Reads.error _
  | succ fuel ih =>
    intro count ray
    have e : passes O maxsteps maxpath (fuel + 1) count ray = fun s =>
        match pass O maxsteps maxpath (count + 1) ray s with
        | .error e => .error e
        | .ok ((es, next), s) =>
          match next with
          | none => .ok (es, s)
          | some ray =>
            match passes O maxsteps maxpath fuel (count + 1) ray s with
            | .error e => .error e
            | .ok (es', s) => .ok (es ++ es', s) := by
      funext s
      rw [passes]
      rcases pass O maxsteps maxpath (count + 1) ray s with e | ⟨⟨es, _ | r⟩, t⟩
      · rfl
      · rfl
      · dsimp only
        rcases passes O maxsteps maxpath fuel (count + 1) r t with e | ⟨es', t'⟩ <;> rfl
    rw [e]
    read_step pass_reads hO maxsteps maxpath (count + 1) ray
    rename_i p
    obtain ⟨es, _ | r⟩ := p
    · exact Reads.ok _
    · dsimp only
      read_step ih (count + 1) r
      exact Reads.ok _

/-- **C101** The tracer takes the numbers of a ray from the stream in order, finitely many, and leaves the
stream behind them. -/
theorem follow_reads [DecidableEq ν] (maxsteps : ℕ) (maxpath : Option ℝ) (ray : Ray ℝ) :
    Reads (Stream.follow O maxsteps maxpath ray) := by
  unfold Stream.follow
  read_step passes_reads hO maxsteps maxpath (maxsteps + 1) 0 ray
  exact Reads.ok _

end

/-! ### The library reads -/

theorem isotropic_reads : Reads (ε := Err) (fun s => .ok (isotropic reader s)) := by
  unfold isotropic
  read_draw
  read_draw
  exact Reads.ok _

theorem lambertian_reads : Reads (ε := Err) (fun s => .ok (lambertian reader s)) := by
  unfold lambertian
  read_draw
  read_draw
  exact Reads.ok _

theorem hg_reads (g : ℝ) : Reads (fun s => henyeyGreenstein reader g s) := by
  classical
  unfold henyeyGreenstein
  read_draw
  rename_i p
  by_cases h1 : 2 * g = 0 ∨ 1 + g * (2 * p - 1) = 0
  · simp only [h1, if_true]
    exact Reads.error _
  · simp only [h1, if_false]
    by_cases h2 : |g| < epsZero
    · simp only [h2, if_true]
      exact isotropic_reads
    · simp only [h2, if_false]
      read_draw
      exact Reads.ok _

theorem cone_reads (a : ℝ) : Reads (fun s => cone reader a s) := by
  classical
  unfold cone
  by_cases h : |a| ≤ 1e-8 ∨ a > Real.pi / 2
  · simp only [h, if_true]
    exact Reads.error _
  · simp only [h, if_false]
    read_draw
    read_draw
    exact Reads.ok _

theorem phase_reads (P : Phase) : Reads (fun s => P.draw reader s) := by
  cases P
  · exact isotropic_reads
  · exact hg_reads _
  · exact cone_reads _
  · exact lambertian_reads

theorem depth_reads (comps : List Comp) (w : ℝ) : Reads (fun s => penetrationDepth reader comps w s) := by
  unfold penetrationDepth
  cases coefficients comps w with
  | error e => exact Reads.error _
  | ok cs =>
    dsimp only
    by_cases h : |cs.sum| ≤ 1e-8
    · simp only [h, if_true]
      exact Reads.ok _
    · simp only [h, if_false]
      read_draw
      exact Reads.ok _

theorem component_reads (comps : List Comp) (w : ℝ) : Reads (fun s => pickComponent reader comps w s) := by
  unfold pickComponent
  cases coefficients comps w with
  | error e => exact Reads.error _
  | ok cs =>
    dsimp only
    read_draw
    rename_i u
    cases pickIndex cs u with
    | error e => exact Reads.error _
    | ok i =>
      dsimp only
      cases comps[i]? with
      | none => exact Reads.error _
      | some c => exact Reads.ok _

theorem radiative_reads (c : Comp) : Reads (ε := Err) (fun s => .ok (c.isRadiative reader s)) := by
  unfold Comp.isRadiative
  cases c.kind <;> dsimp only <;> first | exact Reads.ok _ | (read_draw; exact Reads.ok _)

theorem nonradiative_reads (c : Comp) (ray : Ray ℝ) :
    Reads (ε := Err) (fun s => .ok (c.nonradiativeAbsorb reader ray s)) := by
  unfold Comp.nonradiativeAbsorb
  cases truthy c.tauNr <;> dsimp only <;> first | exact Reads.ok _ | (read_draw; exact Reads.ok _)

theorem emit_reads (method : EmitMethod) (c : Comp) (ray : Ray ℝ) : Reads (fun s => c.emit reader method ray s) := by
  unfold Comp.emit
  read_step phase_reads c.phase
  by_cases h : c.kind = .luminophore
  · simp only [h, if_true]
    read_draw
    rename_i u
    cases emitWavelength c.emsDist method ray.wavelength u with
    | error e => exact Reads.error _
    | ok w =>
      dsimp only
      cases truthy c.tauRad with
      | none => exact Reads.ok _
      | some t =>
        dsimp only
        read_draw
        exact Reads.ok _
  · simp only [h, if_false]
    exact Reads.ok _

theorem reflected_reads (S : LScene n) (h c : Fin (n + 1)) (a : Option (Fin (n + 1))) (ray : Ray ℝ) :
    Reads (fun s => S.isReflected reader h c a ray s) := by
  classical
  unfold LScene.isReflected
  cases S.reflectivity h c a (ray.representation (S.node h).w2l) with
  | error e => exact Reads.error _
  | ok r =>
    dsimp only
    cases r with
    | none =>
      simp only [PV.isReflected, if_true]
      read_draw
      exact Reads.ok _
    | some r =>
      by_cases hr : r = 0
      · simp only [PV.isReflected, hr, if_true, Bool.false_eq_true, if_false]
        exact Reads.ok _
      · simp only [PV.isReflected, hr, if_true, if_false]
        read_draw
        exact Reads.ok _

theorem turn_reads (N : LNode) (ray : Ray ℝ) (d : Except Err (Vec3 ℝ)) :
    Reads (fun s => N.turn ray d s) := by
  unfold LNode.turn
  cases d with
  | error e => exact Reads.error _
  | ok d => exact Reads.ok _

/-- **C101** Whatever the library draws while it follows a ray, it takes from the stream in order. -/
theorem library_reads (S : LScene n) (B : Trimesh) (method : EmitMethod) : ReadingOps (pyOps S B reader method) where
  depth v w := depth_reads _ w
  component v w := component_reads _ w
  radiative c ray := radiative_reads c
  emit v c ray := by
    unfold pyOps
    dsimp only
    read_step emit_reads method c (ray.representation (S.node v).w2l)
    exact Reads.ok _
  absorb c ray := nonradiative_reads c ray
  reflected h c a ray := reflected_reads S h c a ray
  reflect h c a ray := turn_reads _ ray _
  transmit h c a ray := turn_reads _ ray _

/-! ### Lights read -/

/-- The light's own delegates take their numbers from the stream, if it has any. -/
def Honest (L : Light.Lamp) : Prop :=
  (∀ f, L.wavelength = .custom f → Reads f) ∧ (∀ f, L.position = .custom f → Reads f) ∧
    ∀ f, L.direction = .custom f → Reads f

theorem wave_reads (W : Light.Wave) (h : ∀ f, W = .custom f → Reads f) : Reads (fun s => W.call s) := by
  cases W with
  | default => exact Reads.ok _
  | constant nm => exact Reads.ok _
  | spectrum D =>
    show Reads (fun s => match Light.uniform 0 1 s with
      | (p, s) => match D.sample p with
        | .error e => .error e
        | .ok nm => .ok (nm, s))
    unfold Light.uniform
    change Reads (fun s => match (match reader.next s with | (u, s) => (0 + (1 - 0) * u, s)) with
      | (p, s) => match D.sample p with
        | .error e => .error e
        | .ok nm => .ok (nm, s))
    read_draw
    rename_i u
    cases D.sample (0 + (1 - 0) * u) with
    | error e => exact Reads.error _
    | ok nm => exact Reads.ok _
  | custom f => exact h f rfl

theorem place_reads (W : Light.Place) (h : ∀ f, W = .custom f → Reads f) : Reads (fun s => W.call s) := by
  cases W with
  | default => exact Reads.ok _
  | rect x y =>
    refine Reads.draw (g := fun u s => .ok ((⟨-x + (x - -x) * u, -y + (y - -y) * s 0, 0⟩ : Vec3 ℝ), rest s)) fun u => ?_
    exact Reads.draw (g := fun v s => .ok ((⟨-x + (x - -x) * u, -y + (y - -y) * v, 0⟩ : Vec3 ℝ), s)) fun v => Reads.ok _
  | circle r =>
    refine Reads.draw (g := fun u s => .ok ((⟨√(0 + (1 - 0) * s 0) * r * Real.cos (0 + (2 * Real.pi - 0) * u),
      √(0 + (1 - 0) * s 0) * r * Real.sin (0 + (2 * Real.pi - 0) * u), 0⟩ : Vec3 ℝ), rest s)) fun u => ?_
    exact Reads.draw (g := fun v s => .ok ((⟨√(0 + (1 - 0) * v) * r * Real.cos (0 + (2 * Real.pi - 0) * u),
      √(0 + (1 - 0) * v) * r * Real.sin (0 + (2 * Real.pi - 0) * u), 0⟩ : Vec3 ℝ), s)) fun v => Reads.ok _
  | cube x y z =>
    refine Reads.draw (g := fun u s => .ok ((⟨-x + (x - -x) * u, -y + (y - -y) * s 0, -z + (z - -z) * s 1⟩ : Vec3 ℝ),
      rest (rest s))) fun u => ?_
    refine Reads.draw (g := fun v s => .ok ((⟨-x + (x - -x) * u, -y + (y - -y) * v, -z + (z - -z) * s 0⟩ : Vec3 ℝ),
      rest s)) fun v => ?_
    exact Reads.draw (g := fun w s => .ok ((⟨-x + (x - -x) * u, -y + (y - -y) * v, -z + (z - -z) * w⟩ : Vec3 ℝ), s))
      fun w => Reads.ok _
  | custom f => exact h f rfl

theorem aim_reads (W : Light.Aim) (h : ∀ f, W = .custom f → Reads f) : Reads (fun s => W.call s) := by
  cases W with
  | default => exact Reads.ok _
  | phase P => exact phase_reads P
  | custom f => exact h f rfl

/-- **C101** A light takes the numbers of a new ray from the stream in order. -/
theorem launch_reads (L : Light.Lamp) (h : Honest L) : Reads (launch L) := by
  have h1 : Reads L.one := by
    unfold Light.Lamp.one
    read_step wave_reads L.wavelength h.1
    read_step place_reads L.position h.2.1
    read_step aim_reads L.direction h.2.2
    exact Reads.ok _
  unfold launch
  read_step h1
  rename_i r
  cases launched (r.representation L.toRoot) with
  | error e => exact Reads.error _
  | ok ray => exact Reads.ok _

/-! ### Rays of one simulation -/

section Stages
variable {ℓ ρ η : Type}

theorem throw_reads (P : Simulate.Stage ℓ ρ η Numbers) (he : ∀ l ∈ P.lights, Reads (P.emit l))
    (ht : ∀ ray, Reads (P.trace ray)) (idx : ℕ) : Reads (throw P idx) := by
  have h : Reads (Simulate.emitAt P idx) := by
    unfold Simulate.emitAt
    by_cases h0 : P.lights.length = 0
    · simp only [h0, if_true]
      exact Reads.error _
    · simp only [h0, if_false]
      cases hl : P.lights[idx % P.lights.length]? with
      | none => exact Reads.error _
      | some l => exact he l (List.mem_of_getElem? hl)
  unfold throw
  read_step h
  exact ht _

/-- **C101** In a simulation of a library scene every ray takes its numbers from the stream in order, finitely many,
and the next ray starts where it stopped. -/
theorem stage_reads (lamps : List Light.Lamp) (hl : ∀ L ∈ lamps, Honest L) (S : LScene n) (B : Trimesh)
    (method : EmitMethod) (maxsteps : ℕ) (maxpath : Option ℝ) (seeded : ℕ → Numbers) (idx : ℕ) :
    Reads (throw (stage lamps S B method maxsteps maxpath seeded) idx) :=
  throw_reads _ (fun L h => launch_reads L (hl L h)) (fun ray => follow_reads (library_reads S B method) _ _ ray) idx

variable (P : Simulate.Stage ℓ ρ η Numbers)

/-- All histories come out, and history `i` is in `E i`. -/
def AllIn (E : ℕ → η → Prop) (r : Except Err (List η)) : Prop :=
  ∃ hs, r = .ok hs ∧ ∀ i h, hs[i]? = some h → E i h

theorem trace_succ (idx k : ℕ) (s : Numbers) :
    Simulate.traceFrom P idx (k + 1) s =
      match throw P idx s with
      | .error e => .error e
      | .ok (h, s) =>
        match Simulate.traceFrom P (idx + 1) k s with
        | .error e => .error e
        | .ok hs => .ok (h :: hs) := by
  rw [Simulate.traceFrom]
  unfold throw
  rcases Simulate.emitAt P idx s with e | ⟨ray, t⟩
  · rfl
  · dsimp only
    rcases P.trace ray t with e | ⟨h, t⟩ <;> rfl

theorem allIn_succ (E : ℕ → η → Prop) (idx k : ℕ) :
    {s | AllIn E (Simulate.traceFrom P idx (k + 1) s)} =
      {s | ∃ b t, throw P idx s = .ok (b, t) ∧ E 0 b ∧
        t ∈ {s | AllIn (fun i => E (i + 1)) (Simulate.traceFrom P (idx + 1) k s)}} := by
  ext s
  simp only [Set.mem_ofPred_eq, trace_succ]
  constructor
  · rintro ⟨hs, h1, h2⟩
    rcases ht : throw P idx s with e | ⟨b, t⟩
    · rw [ht] at h1; cases h1
    · rw [ht] at h1
      dsimp only at h1
      rcases hr : Simulate.traceFrom P (idx + 1) k t with e | hs'
      · rw [hr] at h1; cases h1
      · rw [hr] at h1
        cases h1
        exact ⟨b, t, rfl, h2 0 b rfl, hs', hr, fun i h hi => h2 (i + 1) h hi⟩
  · rintro ⟨b, t, h1, h2, hs, h3, h4⟩
    rw [h1]
    dsimp only
    rw [h3]
    refine ⟨b :: hs, rfl, fun i h hi => ?_⟩
    cases i with
    | zero => simp at hi; exact hi ▸ h2
    | succ i => exact h4 i h hi

theorem product_from {n : ℕ → Numbers → ℕ} (hr : ∀ i, ReadsBy (n i) (throw P i))
    (hn : ∀ i, CountDecided (n i) (throw P i)) (k : ℕ) : ∀ (idx : ℕ) (E : ℕ → η → Prop),
    (∀ i < k, Decided (Yields (throw P (idx + i)) (E i))) →
    Decided (fun s => AllIn E (Simulate.traceFrom P idx k s)) ∧
    chance (fun s => AllIn E (Simulate.traceFrom P idx k s)) =
      ∏ i ∈ Finset.range k, chance (Yields (throw P (idx + i)) (E i)) := by
  induction k with
  | zero =>
    intro idx E _
    have : (fun s => AllIn E (Simulate.traceFrom P idx 0 s)) = fun _ => True := by
      funext s
      simp only [eq_iff_iff, iff_true]
      exact ⟨[], rfl, fun i h hi => by simp at hi⟩
    rw [this]
    refine ⟨?_, ?_⟩
    · unfold Decided
      rw [Set.ofPred_true]
      exact MeasurableSet.univ.nullMeasurableSet
    · unfold chance
      simp
  | succ k ih =>
    intro idx E hE
    obtain ⟨i1, i2⟩ := ih (idx + 1) (fun i => E (i + 1)) fun i hi => by
      have := hE (i + 1) (by omega)
      rwa [show idx + (i + 1) = idx + 1 + i by omega] at this
    obtain ⟨r1, r2⟩ := renewal (hr idx) (hn idx) (hE 0 (by omega)) i1
    unfold Decided chance
    rw [allIn_succ]
    refine ⟨r1, r2.trans ?_⟩
    rw [Finset.prod_range_succ']
    rw [mul_comm]
    congr 1
    · refine i2.trans (Finset.prod_congr rfl fun i _ => ?_)
      rw [show idx + (i + 1) = idx + 1 + i by omega]
      rfl

/-- **C101** Rays that share one stream are independent: the chance that ray 0 meets its fate, ray 1 meets its
fate, …, is the product of the chances each of them has on a fresh stream of its own. -/
theorem rays_independent {n : ℕ → Numbers → ℕ} (hr : ∀ i, ReadsBy (n i) (throw P i))
    (hn : ∀ i, CountDecided (n i) (throw P i)) (E : ℕ → η → Prop)
    (hE : ∀ i, Decided (Yields (throw P i) (E i))) (k : ℕ) :
    chance (fun s => AllIn E (Simulate.doSimulation P k none s)) =
      ∏ i ∈ Finset.range k, chance (Yields (throw P i) (E i)) := by
  have := (product_from P hr hn k 0 E fun i _ => by rw [zero_add]; exact hE i).2
  simp only [zero_add] at this
  exact this

/-! ### Estimates on one stream -/

theorem trace_take (k : ℕ) : ∀ (idx : ℕ) (s : Numbers) (hs : List η), Simulate.traceFrom P idx k s = .ok hs →
    hs.length = k ∧ ∀ j ≤ k, Simulate.traceFrom P idx j s = .ok (hs.take j) := by
  induction k with
  | zero =>
    intro idx s hs h
    cases h
    refine ⟨rfl, fun j hj => ?_⟩
    obtain rfl : j = 0 := by omega
    rfl
  | succ k ih =>
    intro idx s hs h
    rw [trace_succ] at h
    rcases ht : throw P idx s with e | ⟨b, t⟩
    · rw [ht] at h; cases h
    · rw [ht] at h
      dsimp only at h
      rcases hr : Simulate.traceFrom P (idx + 1) k t with e | hs'
      · rw [hr] at h; cases h
      · rw [hr] at h
        cases h
        obtain ⟨i1, i2⟩ := ih (idx + 1) t hs' hr
        refine ⟨by simp [i1], fun j hj => ?_⟩
        cases j with
        | zero => rfl
        | succ j =>
          rw [trace_succ, ht]
          dsimp only
          rw [i2 j (by omega)]
          rfl

/-- Ray `i` comes out with a history in `E`. -/
def Nth (E : η → Prop) (i : ℕ) : Set Numbers :=
  {s | ∃ hs h, Simulate.traceFrom P 0 (i + 1) s = .ok hs ∧ hs[i]? = some h ∧ E h}

open Classical in
theorem tally_nth (E : η → Prop) (s : Numbers) (h : ∀ k, ∃ hs, Simulate.traceFrom P 0 k s = .ok hs) (k : ℕ) :
    (tally E (Simulate.traceFrom P 0 k s) : ℝ) =
      ∑ i ∈ Finset.range k, (Nth P E i).indicator (fun _ => (1 : ℝ)) s := by
  induction k with
  | zero =>
    obtain ⟨hs, e⟩ := h 0
    cases e
    simp [Simulate.traceFrom, tally]
  | succ k ih =>
    obtain ⟨hs, e⟩ := h (k + 1)
    obtain ⟨hl, ht⟩ := trace_take P (k + 1) 0 s hs e
    rw [ht k (by omega)] at ih
    rw [Finset.sum_range_succ, ← ih, e]
    obtain ⟨x, hx⟩ : ∃ x, hs[k]? = some x := ⟨hs[k], by simp [hl]⟩
    have e2 : hs = hs.take k ++ [x] := by
      have h1 : hs[k]'(by omega) = x := by
        rw [List.getElem?_eq_getElem (by omega)] at hx
        exact Option.some.inj hx
      rw [← h1, List.take_concat_get' hs k (by omega), List.take_of_length_le (by omega)]
    have e3 : s ∈ Nth P E k ↔ E x := by
      constructor
      · rintro ⟨hs', y, h1, h2, h3⟩
        rw [e] at h1
        cases h1
        rw [hx] at h2
        cases h2
        exact h3
      · intro hE
        exact ⟨hs, x, e, hx, hE⟩
    unfold tally
    dsimp only
    conv_lhs => rw [e2]
    rw [List.countP_append, Nat.cast_add]
    congr 1
    by_cases hE : E x
    · rw [Set.indicator_of_mem (e3.2 hE)]
      simp [hE]
    · rw [Set.indicator_of_notMem (fun h => hE (e3.1 h))]
      simp [hE]

/-- What the estimates need: every ray takes its numbers from the stream in order, how many it takes is
decided, and with probability one it does not fail. -/
structure Sound : Prop where
  reads : ∃ n : ℕ → Numbers → ℕ, (∀ i, ReadsBy (n i) (throw P i)) ∧ ∀ i, CountDecided (n i) (throw P i)
  safe : ∀ i, ∀ᵐ s ∂independent, Yields (throw P i) (fun _ => True) s

variable {P}

theorem Sound.ok (hP : Sound P) : ∀ᵐ s ∂independent, ∀ k, ∃ hs, Simulate.traceFrom P 0 k s = .ok hs := by
  rw [ae_all_iff]
  intro k
  obtain ⟨n, hr, hn⟩ := hP.reads
  have hd : ∀ i, {s | Yields (throw P i) (fun _ => True) s} =ᵐ[independent] Set.univ := fun i =>
    Filter.eventuallyEq_univ.2 (hP.safe i)
  obtain ⟨h1, h2⟩ := product_from P hr hn k 0 (fun _ _ => True) fun i _ =>
    (MeasurableSet.univ.nullMeasurableSet).congr (hd (0 + i)).symm
  have h3 : ∀ i, chance (Yields (throw P i) fun _ => True) = 1 := fun i => by
    unfold chance
    rw [measure_congr (hd i), measure_univ]
  rw [Finset.prod_congr rfl fun i _ => h3 (0 + i), Finset.prod_const_one] at h2
  have h4 := (prob_compl_eq_zero_iff₀ h1).2 h2
  filter_upwards [compl_mem_ae_iff.2 h4] with s hs
  rw [compl_compl] at hs
  obtain ⟨hs, e, -⟩ := hs
  exact ⟨hs, e⟩

theorem Sound.joint (hP : Sound P) {E : η → Prop} (hE : ∀ i, Decided (Yields (throw P i) E)) (S : Finset ℕ) :
    NullMeasurableSet (⋂ i ∈ S, Nth P E i) independent ∧
    independent (⋂ i ∈ S, Nth P E i) = ∏ i ∈ S, chance (Yields (throw P i) E) := by
  classical
  obtain ⟨n, hr, hn⟩ := hP.reads
  have hd : ∀ i, {s | Yields (throw P i) (fun _ => True) s} =ᵐ[independent] Set.univ := fun i =>
    Filter.eventuallyEq_univ.2 (hP.safe i)
  have hF : ∀ i, (Yields (throw P i) fun h => i ∈ S → E h) =
      if i ∈ S then Yields (throw P i) E else Yields (throw P i) fun _ => True := by
    intro i
    by_cases hi : i ∈ S <;> simp [hi]
  obtain ⟨K, hK⟩ : ∃ K, ∀ i ∈ S, i < K := ⟨S.sup id + 1, fun i hi => Nat.lt_succ_of_le (Finset.le_sup (f := id) hi)⟩
  obtain ⟨h1, h2⟩ := product_from P hr hn K 0 (fun i h => i ∈ S → E h) fun i _ => by
    rw [zero_add, hF]
    split
    · exact hE i
    · exact (MeasurableSet.univ.nullMeasurableSet).congr (hd i).symm
  have e : {s | AllIn (fun i h => i ∈ S → E h) (Simulate.traceFrom P 0 K s)} =ᵐ[independent] ⋂ i ∈ S, Nth P E i := by
    rw [Filter.eventuallyEq_set]
    filter_upwards [hP.ok] with s hs
    obtain ⟨l, hl⟩ := hs K
    obtain ⟨hl1, hl2⟩ := trace_take P K 0 s l hl
    simp only [Set.mem_iInter]
    constructor
    · rintro ⟨l', e, h⟩ i hi
      rw [hl] at e
      cases e
      have hiK := hK i hi
      refine ⟨l.take (i + 1), l[i]'(by omega), hl2 (i + 1) (by omega), ?_, h i _ (by simp [hl1, hiK]) hi⟩
      rw [List.getElem?_take_of_lt (by omega)]
      simp [hl1, hiK]
    · intro h
      refine ⟨l, hl, fun i x hx hi => ?_⟩
      obtain ⟨l', y, e1, e2, e3⟩ := h i hi
      have hiK := hK i hi
      rw [hl2 (i + 1) (by omega)] at e1
      cases e1
      rw [List.getElem?_take_of_lt (by omega), hx] at e2
      cases e2
      exact e3
  refine ⟨h1.congr e, ?_⟩
  rw [← measure_congr e]
  refine h2.trans ?_
  have h3 : ∀ i, chance (Yields (throw P i) fun _ => True) = 1 := fun i => by
    unfold chance
    rw [measure_congr (hd i), measure_univ]
  have h4 : ∀ i, chance (Yields (throw P (0 + i)) fun h => i ∈ S → E h) =
      if i ∈ S then chance (Yields (throw P i) E) else 1 := by
    intro i
    rw [zero_add, hF]
    split
    · rfl
    · exact h3 i
  rw [Finset.prod_congr rfl fun i _ => h4 i, Finset.prod_ite_mem]
  congr 1
  rw [Finset.inter_eq_right]
  intro i hi
  exact Finset.mem_range.2 (hK i hi)

theorem Sound.events (hP : Sound P) {E : η → Prop} (hE : ∀ i, Decided (Yields (throw P i) E)) :
    ∃ A : ℕ → Set Numbers, (∀ i, MeasurableSet (A i)) ∧ ProbabilityTheory.iIndepFun (sign A) independent ∧
      (∀ i, independent.real (A i) = (chance (Yields (throw P i) E)).toReal) ∧
      ∀ᵐ s ∂independent, ∀ k, (tally E (Simulate.doSimulation P k none s) : ℝ) =
        ∑ i ∈ Finset.range k, sign A i s := by
  have h1 : ∀ i, NullMeasurableSet (Nth P E i) independent ∧
      independent (Nth P E i) = chance (Yields (throw P i) E) := by
    intro i
    have := hP.joint hE {i}
    simpa using this
  have hae : ∀ i, toMeasurable independent (Nth P E i) =ᵐ[independent] Nth P E i := fun i => (h1 i).1.toMeasurable_ae_eq
  refine ⟨fun i => toMeasurable independent (Nth P E i), fun i => measurableSet_toMeasurable _ _, ?_, ?_, ?_⟩
  · refine ProbabilityTheory.iIndepSet.iIndepFun_indicator ?_
    rw [ProbabilityTheory.iIndepSet_iff_meas_biInter fun i => measurableSet_toMeasurable _ _]
    intro S
    rw [measure_congr (S.eventuallyEq_iInter fun i _ => hae i)]
    refine (hP.joint hE S).2.trans ?_
    refine Finset.prod_congr rfl fun i _ => ?_
    rw [measure_toMeasurable, (h1 i).2]
  · intro i
    rw [Measure.real, measure_toMeasurable, (h1 i).2]
  · have h2 : ∀ᵐ s ∂independent, ∀ i, s ∈ toMeasurable independent (Nth P E i) ↔ s ∈ Nth P E i := by
      rw [ae_all_iff]
      exact fun i => (hae i).mem_iff
    filter_upwards [hP.ok, h2] with s hs h2 k
    refine (tally_nth P E s hs k).trans (Finset.sum_congr rfl fun i _ => ?_)
    unfold sign
    by_cases h : s ∈ Nth P E i
    · rw [Set.indicator_of_mem h, Set.indicator_of_mem ((h2 i).2 h)]
    · rw [Set.indicator_of_notMem h, Set.indicator_of_notMem (fun h' => h ((h2 i).1 h'))]

/-- **C101** The chance that the share of histories in `E` among `k` rays of one stream differs by `ε` or more from
the mean of the rays' own chances is at most `2 exp (-2 k ε²)`. -/
theorem share_error (hP : Sound P) {E : η → Prop} (hE : ∀ i, Decided (Yields (throw P i) E)) {k : ℕ} (hk : 0 < k)
    {ε : ℝ} (hε : 0 ≤ ε) :
    chance (fun s => ε ≤ |(tally E (Simulate.doSimulation P k none s) : ℝ) / k -
      (∑ i ∈ Finset.range k, (chance (Yields (throw P i) E)).toReal) / k|) ≤
      ENNReal.ofReal (2 * Real.exp (-(2 * k * ε ^ 2))) := by
  obtain ⟨A, hA, hi, hc, ht⟩ := hP.events hE
  refine le_trans ?_ (events_error hA hi hk hε)
  apply measure_mono_ae
  filter_upwards [ht] with s hs hb
  have hb : ε ≤ |(tally E (Simulate.doSimulation P k none s) : ℝ) / k -
      (∑ i ∈ Finset.range k, (chance (Yields (throw P i) E)).toReal) / k| := hb
  show ε ≤ _
  rw [hs k] at hb
  simpa only [hc] using hb

/-- **C101** With probability one the share of histories in `E` and the mean of the rays' own chances come together
as more rays are thrown from one stream. -/
theorem share_converges (hP : Sound P) {E : η → Prop} (hE : ∀ i, Decided (Yields (throw P i) E)) :
    ∀ᵐ s ∂independent, Filter.Tendsto (fun k : ℕ => (tally E (Simulate.doSimulation P k none s) : ℝ) / k -
      (∑ i ∈ Finset.range k, (chance (Yields (throw P i) E)).toReal) / k) Filter.atTop (nhds 0) := by
  obtain ⟨A, hA, hi, hc, ht⟩ := hP.events hE
  filter_upwards [ht, events_converge hA hi] with s hs hb
  simpa only [hs, hc] using hb

/-- **C101** With one light all rays have the same chance, and the share tends to it. -/
theorem one_light (hP : Sound P) {L : ℓ} (hL : P.lights = [L]) {E : η → Prop} (hE : Decided (Yields (throw P 0) E)) :
    ∀ᵐ s ∂independent, Filter.Tendsto (fun k : ℕ => (tally E (Simulate.doSimulation P k none s) : ℝ) / k)
      Filter.atTop (nhds (chance (Yields (throw P 0) E)).toReal) := by
  have h : ∀ i, throw P i = throw P 0 := by
    intro i
    funext s
    unfold throw Simulate.emitAt
    simp [hL, Nat.mod_one]
  filter_upwards [share_converges hP (E := E) fun i => by rw [h i]; exact hE] with s hs
  simp only [h, Finset.sum_const, Finset.card_range, nsmul_eq_mul] at hs
  have h2 := hs.add_const (chance (Yields (throw P 0) E)).toReal
  rw [zero_add] at h2
  refine h2.congr' ?_
  filter_upwards [Filter.eventually_gt_atTop 0] with k hk
  have : (k : ℝ) ≠ 0 := by positivity
  field_simp
  ring

end Stages

end
end PV.Stream
