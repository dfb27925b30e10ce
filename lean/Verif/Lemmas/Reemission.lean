import Verif.Lemmas.Renewal
import Verif.Model.Stream
import Verif.Spec.Reemission

/-!
C112 for the tracer over arbitrary functions.
-/

namespace PV.Reemission
open MeasureTheory Spec Stream
noncomputable section
variable {ν κ : Type} [DecidableEq ν]

/-- The event of a component that gives the light off again. -/
def given : CompKind → Event
  | .luminophore => .emit
  | _ => .scatter

/-- How many steps are events in `m`. -/
def marks (m : Event → Bool) (es : List (Step ℝ)) : ℕ := es.countP fun e => m e.event

@[simp] theorem marks_nil (m : Event → Bool) : marks m [] = 0 := rfl
@[simp] theorem marks_cons (m : Event → Bool) (e : Step ℝ) (es : List (Step ℝ)) :
    marks m (e :: es) = marks m es + if m e.event then 1 else 0 := List.countP_cons
@[simp] theorem marks_append (m : Event → Bool) (a b : List (Step ℝ)) : marks m (a ++ b) = marks m a + marks m b :=
  List.countP_append

/-- The tracer reads its numbers fairly, and the components of the given kind shine with a chance. -/
structure FairOps (O : Ops ℝ ν κ Numbers) : Prop where
  depth : ∀ v w, Fair (O.penetrationDepth v w)
  component : ∀ v w, Fair (O.component v w)
  radiative : ∀ c ray, Fair (O.isRadiative c ray)
  emit : ∀ v c ray, Fair (O.emit v c ray)
  absorb : ∀ c ray, Fair (O.nonradiativeAbsorb c ray)
  reflected : ∀ h c a ray, Fair (O.isReflected h c a ray)
  reflect : ∀ h c a ray, Fair (O.reflect h c a ray)
  transmit : ∀ h c a ray, Fair (O.transmit h c a ray)

variable {O : Ops ℝ ν κ Numbers} (hO : FairOps O) {m : Event → Bool} (hm : ∀ e, m e = true → e = .emit ∨ e = .scatter)

/-- A component that can be chosen and whose light is marked gives it off again with a chance of at most `q`, decided by
one number, or never. -/
def Yield (O : Ops ℝ ν κ Numbers) (m : Event → Bool) (q : ENNReal) : Prop :=
  ∀ v w s c t, O.component v w s = .ok (c, t) → m (given (O.compKind c)) = true →
    (∃ y : ℝ, Spec.uniform {u | u < y} ≤ q ∧ ∀ ray s, O.isRadiative c ray s = .ok (decide (s 0 < y), rest s)) ∨
      ∀ ray s, O.isRadiative c ray s = .ok (false, s)

/-- At least `k` marked events in what `passes` does. -/
def Many (O : Ops ℝ ν κ Numbers) (m : Event → Bool) (maxsteps : ℕ) (maxpath : Option ℝ) (fuel count : ℕ) (ray : Ray ℝ) (k : ℕ)
    (s : Numbers) : Prop :=
  ∃ es t, passes O maxsteps maxpath fuel count ray s = .ok (es, t) ∧ k ≤ marks m es

/-- At least `k` marked events in a pass and what follows. -/
def Then (O : Ops ℝ ν κ Numbers) (m : Event → Bool) (maxsteps : ℕ) (maxpath : Option ℝ) (fuel count : ℕ) (k : ℕ)
    (x : List (Step ℝ) × Option (Ray ℝ)) (t : Numbers) : Prop :=
  match x.2 with
  | none => k ≤ marks m x.1
  | some ray => Many O m maxsteps maxpath fuel count ray (k - marks m x.1) t

theorem many_succ {maxsteps : ℕ} {maxpath : Option ℝ} {fuel count : ℕ} {ray : Ray ℝ} {k : ℕ} (s : Numbers) :
    Many O m maxsteps maxpath (fuel + 1) count ray k s ↔
      ∃ x t, pass O maxsteps maxpath (count + 1) ray s = .ok (x, t) ∧ Then O m maxsteps maxpath fuel (count + 1) k x t := by
  unfold Many Then
  rw [passes]
  rcases pass O maxsteps maxpath (count + 1) ray s with e | ⟨⟨es, _ | r⟩, t⟩
  · simp
  · simp
  · simp only [Except.ok.injEq, Prod.mk.injEq]
    constructor
    · rintro ⟨es', t', h1, h2⟩
      refine ⟨_, _, ⟨rfl, rfl⟩, ?_⟩
      dsimp only
      rcases h : passes O maxsteps maxpath fuel (count + 1) r t with e | ⟨es'', t''⟩
      · rw [h] at h1; cases h1
      · rw [h] at h1; cases h1
        exact ⟨es'', t', h, by simp at h2; omega⟩
    · rintro ⟨_, _, ⟨rfl, rfl⟩, es', t', h1, h2⟩
      rw [h1]
      refine ⟨_, _, rfl, ?_⟩
      simp; dsimp only at h2; omega

/-- What a program and its continuation do. -/
def Ends {X : Type} (g : Numbers → Except Err (X × Numbers)) (K : X → Numbers → Prop) (s : Numbers) : Prop :=
  ∃ x t, g s = .ok (x, t) ∧ K x t

theorem ends_bind {X Y : Type} {f : Numbers → Except Err (Y × Numbers)} {g : Numbers → Except Err (X × Numbers)}
    {g' : Y → Numbers → Except Err (X × Numbers)} {K : X → Numbers → Prop} (h1 : ∀ s e, f s = .error e → g s = .error e)
    (h2 : ∀ s b t, f s = .ok (b, t) → g s = g' b t) (s : Numbers) :
    Ends g K s ↔ ∃ b t, f s = .ok (b, t) ∧ Ends (g' b) K t := by
  unfold Ends
  rcases h : f s with e | ⟨b, t⟩
  · rw [h1 s e h]; simp
  · rw [h2 s b t h]
    simp

theorem step_bound {X Y : Type} {f : Numbers → Except Err (Y × Numbers)} {g : Numbers → Except Err (X × Numbers)}
    {g' : Y → Numbers → Except Err (X × Numbers)} {K : X → Numbers → Prop} {c : ENNReal} (hf : Fair f)
    (hA : MeasurableSet {s | Ends g K s}) (h1 : ∀ s e, f s = .error e → g s = .error e)
    (h2 : ∀ s b t, f s = .ok (b, t) → g s = g' b t)
    (h : ∀ b, MeasurableSet {t | Ends (g' b) K t} → independent {t | Ends (g' b) K t} ≤ c) : independent {s | Ends g K s} ≤ c :=
  hf.bound (Q := fun b t => Ends (g' b) K t) (ends_bind h1 h2) hA fun _ b _ _ hm => h b hm

theorem step_bound_of {X Y : Type} {f : Numbers → Except Err (Y × Numbers)} {g : Numbers → Except Err (X × Numbers)}
    {g' : Y → Numbers → Except Err (X × Numbers)} {K : X → Numbers → Prop} {c : ENNReal} (hf : Fair f)
    (hA : MeasurableSet {s | Ends g K s}) (h1 : ∀ s e, f s = .error e → g s = .error e)
    (h2 : ∀ s b t, f s = .ok (b, t) → g s = g' b t)
    (h : ∀ b, (∃ s t, f s = .ok (b, t)) → MeasurableSet {t | Ends (g' b) K t} → independent {t | Ends (g' b) K t} ≤ c) :
    independent {s | Ends g K s} ≤ c :=
  hf.bound (Q := fun b t => Ends (g' b) K t) (ends_bind h1 h2) hA fun s b t e hm => h b ⟨s, t, e⟩ hm

/-- Run a part of the program, then go on. -/
macro "bound_step" t:term "," h:term : tactic => `(tactic|
  (apply step_bound $t $h
   · intro s e h
     simp only [h]
   · intro s b t h
     simp only [h]
     rfl
   intro b hA
   try dsimp only at hA ⊢))

theorem ends_ok {X : Type} {x : X} {K : X → Numbers → Prop} : Ends (fun s => .ok (x, s)) K = K x := by
  funext s
  simp [Ends]

theorem ends_error {X : Type} {e : Err} {K : X → Numbers → Prop} : {s | Ends (fun _ => .error e) K s} = ∅ := by
  ext s
  simp [Ends]

section Bound
variable {q : ENNReal} {maxsteps : ℕ} {maxpath : Option ℝ} {fuel count k : ℕ}

theorem then_stop {es : List (Step ℝ)} (h : marks m es = 0) :
    {t | Then O m maxsteps maxpath fuel count (k + 1) (es, none) t} = ∅ := by
  ext t
  simp [Then, h]

/-- The part of a pass that gives light off again. -/
def shine (O : Ops ℝ ν κ Numbers) (v : ν) (comp : κ) (r : Ray ℝ) (s : Numbers) :
    Except Err ((List (Step ℝ) × Option (Ray ℝ)) × Numbers) :=
  match O.emit v comp r s with
  | .error e => .error e
  | .ok (ray, s) =>
    match O.compKind comp with
    | .luminophore => .ok (([⟨r, .absorb, { component := some (O.compName comp), container := some (O.name v) }⟩,
        ⟨ray, .emit, { component := some (O.compName comp), container := some (O.name v) }⟩], some ray), s)
    | .other => .error .valueError
    | _ => .ok (([⟨r, .absorb, { component := some (O.compName comp), container := some (O.name v) }⟩,
        ⟨ray, .scatter, { component := some (O.compName comp), container := some (O.name v) }⟩], some ray), s)

/-- The part of a pass that loses light. -/
def lose (O : Ops ℝ ν κ Numbers) (v : ν) (comp : κ) (r : Ray ℝ) (s : Numbers) :
    Except Err ((List (Step ℝ) × Option (Ray ℝ)) × Numbers) :=
  match O.nonradiativeAbsorb comp r s with
  | .error e => .error e
  | .ok (ray, s) =>
    match O.compKind comp with
    | .reactor => .ok (([⟨r, .absorb, { component := some (O.compName comp), container := some (O.name v) }⟩,
        ⟨ray, .react, { component := some (O.compName comp), container := some (O.name v) }⟩], none), s)
    | _ => .ok (([⟨r, .absorb, { component := some (O.compName comp), container := some (O.name v) }⟩,
        ⟨ray, .nonradiative, { component := some (O.compName comp), container := some (O.name v) }⟩], none), s)

/-- A pass that absorbs: a component is chosen and decides. -/
theorem absorb_parts (O : Ops ℝ ν κ Numbers) (v : ν) (ray : Ray ℝ) (d : ℝ) (s : Numbers) : absorbPass O v ray d s =
    let r := ray.propagate d (O.refractiveIndex v)
    match O.component v r.wavelength s with
    | .error e => .error e
    | .ok (comp, s) =>
      match O.isRadiative comp r s with
      | .error e => .error e
      | .ok (radiative, s) => if radiative then shine O v comp r s else lose O v comp r s := by
  unfold absorbPass shine lose
  dsimp only
  rcases O.component v (ray.propagate d (O.refractiveIndex v)).wavelength s with e | ⟨comp, s⟩
  · rfl
  · dsimp only
    rcases O.isRadiative comp (ray.propagate d (O.refractiveIndex v)) s with e | ⟨_ | _, s⟩
    · rfl
    · simp only [Bool.false_eq_true, if_false]
      rcases O.nonradiativeAbsorb comp (ray.propagate d (O.refractiveIndex v)) s with e | ⟨_, s⟩
      · rfl
      · cases O.compKind comp <;> rfl
    · simp only [if_true]
      rcases O.emit v comp (ray.propagate d (O.refractiveIndex v)) s with e | ⟨_, s⟩
      · rfl
      · cases O.compKind comp <;> rfl

theorem lose_stops {v : ν} {comp : κ} {r : Ray ℝ} {s : Numbers} (ma : m .absorb = false) (mn : m .nonradiative = false)
    (mr : m .react = false) : ¬ Ends (lose O v comp r) (Then O m maxsteps maxpath fuel count (k + 1)) s := by
  rintro ⟨x, t, h1, h2⟩
  unfold lose at h1
  split at h1
  · cases h1
  · split at h1 <;> cases h1 <;> simp [Then, ma, mn, mr] at h2

include hO hm in
theorem absorb_bound (hq : Yield O m q)
    (ih : ∀ k ray, MeasurableSet {t | Many O m maxsteps maxpath fuel count ray k t} →
      independent {t | Many O m maxsteps maxpath fuel count ray k t} ≤ q ^ k)
    (v : ν) (ray : Ray ℝ) (d : ℝ)
    (hA : MeasurableSet {s | Ends (absorbPass O v ray d) (Then O m maxsteps maxpath fuel count (k + 1)) s}) :
    independent {s | Ends (absorbPass O v ray d) (Then O m maxsteps maxpath fuel count (k + 1)) s} ≤ q ^ (k + 1) := by
  have ma : m .absorb = false := by by_contra h; rcases hm _ (by simpa using h) with h | h <;> cases h
  have mn : m .nonradiative = false := by by_contra h; rcases hm _ (by simpa using h) with h | h <;> cases h
  have mr : m .react = false := by by_contra h; rcases hm _ (by simpa using h) with h | h <;> cases h
  rw [show absorbPass O v ray d = _ from funext (absorb_parts O v ray d)] at hA ⊢
  dsimp only at hA ⊢
  generalize ray.propagate d (O.refractiveIndex v) = r at hA ⊢
  apply step_bound_of (hO.component v r.wavelength) hA
  · intro s e h
    simp only [h]
  · intro s b t h
    simp only [h]
    rfl
  rintro comp ⟨s0, t0, hcomp⟩ hA
  by_cases hc : m (given (O.compKind comp)) = true
  · rcases hq v _ _ comp _ hcomp hc with ⟨y, hy, law⟩ | law
    on_goal 2 =>
      simp only [law, Bool.false_eq_true, if_false]
      rw [show {t | Ends (fun t => lose O v comp r t) (Then O m maxsteps maxpath fuel count (k + 1)) t} = ∅ from
        Set.eq_empty_of_forall_notMem (fun s hs => lose_stops ma mn mr hs), measure_empty]
      exact zero_le
    simp only [law] at hA ⊢
    have key : ∀ s : Numbers, Ends (fun s => if decide (s 0 < y) = true then shine O v comp r (rest s) else lose O v comp r (rest s)) (Then O m maxsteps maxpath fuel count (k + 1)) s ↔
        s 0 < y ∧ Ends (shine O v comp r) (Then O m maxsteps maxpath fuel count (k + 1)) (rest s) := fun s => by
      by_cases h : s 0 < y
      · simp [Ends, h]
      · refine ⟨fun ⟨x, t, h1, h2⟩ => ?_, fun h' => absurd h'.1 h⟩
        simp only [h, decide_false, Bool.false_eq_true, if_false] at h1
        exact absurd ⟨x, t, h1, h2⟩ (lose_stops ma mn mr)
    obtain ⟨e, hQ⟩ := thinned (A := {s | Ends (fun s => if decide (s 0 < y) = true then shine O v comp r (rest s) else lose O v comp r (rest s)) (Then O m maxsteps maxpath fuel count (k + 1)) s}) key hA
    rw [e, pow_succ, mul_comm]
    by_cases hpos : 0 < y
    · refine mul_le_mul' ?_ hy
      replace hA := hQ hpos
      unfold shine at hA ⊢
      bound_step hO.emit v comp r, hA
      rename_i next hA
      rcases hk : O.compKind comp <;> simp only [ends_ok, ends_error, hk, given] at hA hc ⊢
      all_goals try exact (measure_empty).le.trans zero_le
      all_goals
        simp only [Then, marks_cons, marks_nil, ma, hc, if_true, Bool.false_eq_true, if_false, add_zero, Nat.add_sub_cancel] at hA ⊢
        exact ih _ _ hA
    · rw [uniform_none hpos, mul_zero]; exact zero_le
  · bound_step hO.radiative comp r, hA
    rename_i b hA
    cases b
    · simp only [Bool.false_eq_true, if_false] at hA ⊢
      rw [show {t | Ends (fun t => lose O v comp r t) (Then O m maxsteps maxpath fuel count (k + 1)) t} = ∅ from
        Set.eq_empty_of_forall_notMem (fun s hs => lose_stops ma mn mr hs), measure_empty]
      exact zero_le
    · simp only [if_true] at hA ⊢
      unfold shine at hA ⊢
      bound_step hO.emit v comp r, hA
      rename_i next hA
      rcases hk : O.compKind comp <;> simp only [ends_ok, ends_error, hk, given, Bool.not_eq_true] at hA hc ⊢
      all_goals try exact (measure_empty).le.trans zero_le
      all_goals
        simp only [Then, marks_cons, marks_nil, ma, hc, if_false, Bool.false_eq_true, add_zero, Nat.sub_zero] at hA ⊢
        exact ih _ _ hA

include hO hm in
theorem surface_bound (ih : ∀ k ray, MeasurableSet {t | Many O m maxsteps maxpath fuel count ray k t} →
      independent {t | Many O m maxsteps maxpath fuel count ray k t} ≤ q ^ k)
    (h : HitInfo ν ℝ) (ray : Ray ℝ)
    (hA : MeasurableSet {s | Ends (surfacePass O h ray) (Then O m maxsteps maxpath fuel count k) s}) :
    independent {s | Ends (surfacePass O h ray) (Then O m maxsteps maxpath fuel count k) s} ≤ q ^ k := by
  have mf : m .reflect = false := by by_contra h; rcases hm _ (by simpa using h) with h | h <;> cases h
  have mt : m .transmit = false := by by_contra h; rcases hm _ (by simpa using h) with h | h <;> cases h
  unfold surfacePass at hA ⊢
  dsimp only at hA ⊢
  generalize ray.propagate h.dist (O.refractiveIndex h.container) = r at hA ⊢
  generalize O.normal h.hit r.position = w at hA ⊢
  rcases w with e | nrm
  · simp only [ends_error, measure_empty]; exact zero_le
  dsimp only at hA ⊢
  bound_step hO.reflected h.hit h.container h.adjacent r, hA
  rename_i b hA
  cases b
  · simp only [Bool.false_eq_true, if_false] at hA ⊢
    bound_step hO.transmit h.hit h.container h.adjacent r, hA
    rename_i next hA
    generalize h.adjacent = w at hA ⊢
    rcases w with _ | a
    · simp only [ends_error, measure_empty]; exact zero_le
    · simp only [ends_ok, Then, marks_cons, marks_nil, mt, Bool.false_eq_true, if_false, add_zero, Nat.sub_zero] at hA ⊢
      exact ih _ _ hA
  · simp only [if_true] at hA ⊢
    bound_step hO.reflect h.hit h.container h.adjacent r, hA
    rename_i next hA
    simp only [ends_ok, Then, marks_cons, marks_nil, mf, Bool.false_eq_true, if_false, add_zero, Nat.sub_zero] at hA ⊢
    exact ih _ _ hA

include hO hm in
/-- The chance of `k` marked events is at most `q ^ k`. -/
theorem many_bound (hq : Yield O m q) : ∀ fuel count k ray,
    MeasurableSet {t | Many O m maxsteps maxpath fuel count ray k t} →
      independent {t | Many O m maxsteps maxpath fuel count ray k t} ≤ q ^ k := by
  have mk : m .kill = false := by by_contra h; rcases hm _ (by simpa using h) with h | h <;> cases h
  have mx : m .exit = false := by by_contra h; rcases hm _ (by simpa using h) with h | h <;> cases h
  intro fuel
  induction fuel with
  | zero =>
    intro count k ray _
    rw [show {t | Many O m maxsteps maxpath 0 count ray k t} = ∅ from
      Set.eq_empty_of_forall_notMem (fun t ⟨_, _, h, _⟩ => by cases h), measure_empty]
    exact zero_le
  | succ fuel ih =>
    intro count k ray hA
    rcases k with _ | k
    · rw [pow_zero]; exact prob_le_one
    have e : {t | Many O m maxsteps maxpath (fuel + 1) count ray (k + 1) t} =
        {s | Ends (pass O maxsteps maxpath (count + 1) ray) (Then O m maxsteps maxpath fuel (count + 1) (k + 1)) s} := by
      ext s; exact many_succ s
    rw [e] at hA ⊢
    unfold pass at hA ⊢
    generalize O.intersections ray.position ray.direction = w at hA ⊢
    rcases w with e | xs
    · simp only [ends_error, measure_empty]; exact zero_le
    dsimp only at hA ⊢
    generalize nextHit O.eps (O.distBetween ray.position) xs = w at hA ⊢
    rcases w with e | _ | h
    · simp only [ends_error, measure_empty]; exact zero_le
    · simp only [ends_ok]
      rw [then_stop rfl, measure_empty]; exact zero_le
    dsimp only at hA ⊢
    split_ifs at hA ⊢
    · simp only [ends_ok]
      rw [then_stop (by simp [mk]), measure_empty]; exact zero_le
    · simp only [ends_ok]
      rw [then_stop (by simp [mx]), measure_empty]; exact zero_le
    bound_step hO.depth h.container ray.wavelength, hA
    rename_i depth hA
    generalize isAbsorbed depth h.dist = w at hA ⊢
    rcases w with _ | d
    · exact surface_bound hO hm (ih (count + 1)) h ray hA
    · exact absorb_bound hO hm hq (ih (count + 1)) h.container ray d hA

end Bound

end
end PV.Reemission
