import Verif.Lemmas.Reemission

/-!
C112: the chance of `k` emissions against the chance of `k` absorptions, for the tracer over arbitrary functions.
-/

namespace PV.Reemission
open MeasureTheory Spec Stream
noncomputable section
variable {ν κ : Type} [DecidableEq ν]

/-- The marks of absorptions and of emissions. -/
def isAbsorb : Event → Bool := fun e => decide (e = .absorb)
def isEmit : Event → Bool := fun e => decide (e = .emit)

/-- A program or what follows raises an exception. -/
def Fails {X : Type} (g : Numbers → Except Err (X × Numbers)) (K : X → Numbers → Prop) (s : Numbers) : Prop :=
  (∃ e, g s = .error e) ∨ Ends g K s

/-- `passes` raises an exception. -/
def Bad (O : Ops ℝ ν κ Numbers) (maxsteps : ℕ) (maxpath : Option ℝ) (fuel count : ℕ) (ray : Ray ℝ) (s : Numbers) : Prop :=
  ∃ e, passes O maxsteps maxpath fuel count ray s = .error e

/-- What follows a pass raises an exception. -/
def BadThen (O : Ops ℝ ν κ Numbers) (maxsteps : ℕ) (maxpath : Option ℝ) (fuel count : ℕ) (x : List (Step ℝ) × Option (Ray ℝ))
    (t : Numbers) : Prop :=
  match x.2 with
  | none => False
  | some ray => Bad O maxsteps maxpath fuel count ray t

variable {O : Ops ℝ ν κ Numbers} {maxsteps : ℕ} {maxpath : Option ℝ}

theorem bad_succ {fuel count : ℕ} {ray : Ray ℝ} (s : Numbers) : Bad O maxsteps maxpath (fuel + 1) count ray s ↔
    Fails (pass O maxsteps maxpath (count + 1) ray) (BadThen O maxsteps maxpath fuel (count + 1)) s := by
  unfold Bad Fails Ends BadThen
  rw [passes]
  rcases pass O maxsteps maxpath (count + 1) ray s with e | ⟨⟨es, _ | r⟩, t⟩
  · simp
  · simp
  · simp only [Except.ok.injEq, Prod.mk.injEq, reduceCtorEq, exists_false, false_or]
    constructor
    · rintro ⟨e, h⟩
      refine ⟨_, _, ⟨rfl, rfl⟩, ?_⟩
      dsimp only
      rcases hp : passes O maxsteps maxpath fuel (count + 1) r t with e | ⟨es'', t''⟩
      · exact ⟨e, hp⟩
      · rw [hp] at h; cases h
    · rintro ⟨_, _, ⟨rfl, rfl⟩, e, h⟩
      exact ⟨e, by rw [h]⟩

theorem step_compare {X Y : Type} {f : Numbers → Except Err (Y × Numbers)} {g : Numbers → Except Err (X × Numbers)}
    {g' : Y → Numbers → Except Err (X × Numbers)} {KA KB KZ : X → Numbers → Prop} {c d : ENNReal} (hf : Fair f)
    (hA : MeasurableSet {s | Ends g KA s}) (hB : MeasurableSet {s | Ends g KB s}) (hZ : MeasurableSet {s | Fails g KZ s})
    (Z0 : independent {s | Fails g KZ s} = 0) (h1 : ∀ s e, f s = .error e → g s = .error e)
    (h2 : ∀ s b t, f s = .ok (b, t) → g s = g' b t)
    (h : ∀ b, (∃ s t, f s = .ok (b, t)) → MeasurableSet {t | Ends (g' b) KA t} → MeasurableSet {t | Ends (g' b) KB t} →
      MeasurableSet {t | Fails (g' b) KZ t} → independent {t | Fails (g' b) KZ t} = 0 →
      c * independent {t | Ends (g' b) KA t} ≤ d * independent {t | Ends (g' b) KB t}) :
    c * independent {s | Ends g KA s} ≤ d * independent {s | Ends g KB s} :=
  hf.compare (Q := fun b t => Ends (g' b) KA t) (P := fun b t => Ends (g' b) KB t) (W := fun b t => Fails (g' b) KZ t)
    (ends_bind h1 h2) hA (ends_bind h1 h2) hB
    (fun s b t e => by show Fails g KZ s ↔ _; unfold Fails Ends; rw [h2 s b t e]) hZ Z0
    fun s b t e m1 m2 m3 z => h b ⟨s, t, e⟩ m1 m2 m3 z

/-- Run a part of the program, then go on. -/
macro "compare_step" t:term "with" b:ident hb:ident hA:ident hB:ident hZ:ident Z0:ident : tactic => `(tactic|
  (apply step_compare $t $hA $hB $hZ $Z0
   · intro s e h
     simp only [h]
   · intro s b t h
     simp only [h]
     rfl
   intro $b $hb
   clear $hA $hB $hZ $Z0
   intro $hA $hB $hZ $Z0
   try dsimp only at $hA:ident $hB:ident $hZ:ident $Z0:ident ⊢))

theorem fails_error {X : Type} {e : Err} {K : X → Numbers → Prop} (h : independent {s | Fails (fun _ => .error e) K s} = 0) : False := by
  have : {s | Fails (fun _ : Numbers => (.error e : Except Err (X × Numbers))) K s} = Set.univ := by
    ext s; simp [Fails]
  rw [this, measure_univ] at h
  exact one_ne_zero h

theorem fails_ok {X : Type} {x : X} {K : X → Numbers → Prop} : Fails (fun s => .ok (x, s)) K = K x := by
  funext s
  simp [Fails, Ends]

/-- What happens whenever there is no exception is certain. -/
theorem certain {P Z : Numbers → Prop} (h : ∀ s, ¬ Z s → P s) (Z0 : independent {s | Z s} = 0) : independent {s | P s} = 1 := by
  have e : ∀ᵐ s ∂independent, s ∈ {s | P s} := by
    filter_upwards [measure_eq_zero_iff_ae_notMem.1 Z0] with s hs
    exact h s hs
  exact (measure_congr (Filter.eventuallyEq_univ.2 e)).trans measure_univ

theorem uniform_pos {y : ℝ} (h : 0 < y) : uniform {u | u < y} ≠ 0 := by
  intro h0
  have h1 : uniform {u | u < min y 1} = 0 := measure_mono_null (fun u (hu : u < min y 1) => hu.trans_le (min_le_left _ _)) h0
  rw [uniform_below (le_min h.le zero_le_one) (min_le_right _ _), ENNReal.ofReal_eq_zero] at h1
  exact absurd h1 (not_le.2 (lt_min h one_pos))

section Compare
variable {fuel count k : ℕ}

theorem lose_marks (m : Event → Bool) {v : ν} {comp : κ} {r : Ray ℝ} {s : Numbers} (mn : m .nonradiative = false)
    (mr : m .react = false) (hk : 1 ≤ k) : ¬ Ends (lose O v comp r) (Then O m maxsteps maxpath fuel count (k + 1)) s := by
  rintro ⟨x, t, h1, h2⟩
  unfold lose at h1
  split at h1
  · cases h1
  · split at h1 <;> cases h1 <;> simp [Then, mn, mr] at h2 <;> split_ifs at h2 <;> omega

/-- A component whose light is decided by one number. -/
def decides (O : Ops ℝ ν κ Numbers) (y : ℝ) (v : ν) (c : κ) (r : Ray ℝ) (s : Numbers) :
    Except Err ((List (Step ℝ) × Option (Ray ℝ)) × Numbers) :=
  if decide (s 0 < y) = true then shine O v c r (rest s) else lose O v c r (rest s)

theorem decides_ends {y : ℝ} {v : ν} {c : κ} {r : Ray ℝ} {K : List (Step ℝ) × Option (Ray ℝ) → Numbers → Prop}
    (hl : ∀ s, ¬ Ends (lose O v c r) K s) (s : Numbers) :
    Ends (decides O y v c r) K s ↔ s 0 < y ∧ Ends (shine O v c r) K (rest s) := by
  by_cases h : s 0 < y
  · simp [Ends, decides, h]
  · refine ⟨fun ⟨x, t, h1, h2⟩ => ?_, fun h' => absurd h'.1 h⟩
    simp only [decides, h, decide_false, Bool.false_eq_true, if_false] at h1
    exact absurd ⟨x, t, h1, h2⟩ (hl _)

/-- No exception if the light is given off again. -/
theorem shine_safe {y : ℝ} (hy : 0 < y) {v : ν} {c : κ} {r : Ray ℝ} {K : List (Step ℝ) × Option (Ray ℝ) → Numbers → Prop}
    (hZ : MeasurableSet {s | Fails (decides O y v c r) K s}) (Z0 : independent {s | Fails (decides O y v c r) K s} = 0) :
    MeasurableSet {s | Fails (shine O v c r) K s} ∧ independent {s | Fails (shine O v c r) K s} = 0 := by
  have hm : MeasurableSet ({s : Numbers | s 0 < y} ∩ {s | Fails (decides O y v c r) K s}) :=
    (measurableSet_lt (measurable_pi_apply 0) measurable_const).inter hZ
  obtain ⟨e, h⟩ := thinned (A := {s : Numbers | s 0 < y} ∩ {s | Fails (decides O y v c r) K s})
    (Q := fun s => Fails (shine O v c r) K s) (y := y) (fun s => by
      constructor
      · rintro ⟨h : s 0 < y, h'⟩
        refine ⟨h, ?_⟩
        simpa [Fails, Ends, decides, h] using h'
      · rintro ⟨h, h'⟩
        refine ⟨h, ?_⟩
        simpa [Fails, Ends, decides, h] using h') hm
  refine ⟨h hy, ?_⟩
  rw [measure_mono_null Set.inter_subset_right Z0, eq_comm, mul_eq_zero] at e
  exact e.resolve_left (uniform_pos hy)

/-- The events of a luminophore that gives the light off again. -/
theorem shine_lum {v : ν} {comp : κ} {r : Ray ℝ} (hk : O.compKind comp = .luminophore) : shine O v comp r = fun s =>
    match O.emit v comp r s with
    | .error e => .error e
    | .ok (ray, s) => .ok (([⟨r, .absorb, { component := some (O.compName comp), container := some (O.name v) }⟩,
        ⟨ray, .emit, { component := some (O.compName comp), container := some (O.name v) }⟩], some ray), s) := by
  funext s
  unfold shine
  rcases O.emit v comp r s with e | ⟨_, s⟩
  · rfl
  · simp only [hk]

variable (hO : FairOps O)
  (hM : ∀ m fuel count ray k, MeasurableSet {s | Many O m maxsteps maxpath fuel count ray k s})

include hO in
/-- A luminophore with the yield `y` has taken the light up for the first of `k + 1` times, for both marks in turn. -/
theorem lum_compare {mA mB : Event → Bool} {c d : ENNReal} {y : ℝ} {v : ν} {comp : κ} {r : Ray ℝ}
    (hk : O.compKind comp = .luminophore)
    (nA : mA .nonradiative = false ∧ mA .react = false) (nB : mB .nonradiative = false ∧ mB .react = false)
    (oA : (if mA .absorb then 1 else 0) + (if mA .emit then 1 else 0) = 1)
    (oB : (if mB .absorb then 1 else 0) + (if mB .emit then 1 else 0) = 1)
    (ih : ∀ k ray, independent {t | Bad O maxsteps maxpath fuel count ray t} = 0 →
      c * independent {t | Many O mA maxsteps maxpath fuel count ray (k + 1) t} ≤
        d * independent {t | Many O mB maxsteps maxpath fuel count ray (k + 1) t})
    (hA : MeasurableSet {s | Ends (decides O y v comp r) (Then O mA maxsteps maxpath fuel count (k + 1 + 1)) s})
    (hB : MeasurableSet {s | Ends (decides O y v comp r) (Then O mB maxsteps maxpath fuel count (k + 1 + 1)) s})
    (hZ : MeasurableSet {s | Fails (decides O y v comp r) (BadThen O maxsteps maxpath fuel count) s})
    (Z0 : independent {s | Fails (decides O y v comp r) (BadThen O maxsteps maxpath fuel count) s} = 0) :
    c * independent {s | Ends (decides O y v comp r) (Then O mA maxsteps maxpath fuel count (k + 1 + 1)) s} ≤
      d * independent {s | Ends (decides O y v comp r) (Then O mB maxsteps maxpath fuel count (k + 1 + 1)) s} := by
  obtain ⟨eA, mA'⟩ := thinned (A := {s | Ends (decides O y v comp r) (Then O mA maxsteps maxpath fuel count (k + 1 + 1)) s})
    (decides_ends fun s => lose_marks mA nA.1 nA.2 (by omega)) hA
  obtain ⟨eB, mB'⟩ := thinned (A := {s | Ends (decides O y v comp r) (Then O mB maxsteps maxpath fuel count (k + 1 + 1)) s})
    (decides_ends fun s => lose_marks mB nB.1 nB.2 (by omega)) hB
  rw [eA, eB]
  by_cases hy : 0 < y
  · obtain ⟨hZ', Z0'⟩ := shine_safe hy hZ Z0
    have hA' := mA' hy
    have hB' := mB' hy
    clear hA hB hZ Z0 mA' mB' eA eB
    rw [mul_left_comm, mul_left_comm d]
    refine mul_le_mul' le_rfl ?_
    rw [shine_lum hk] at hA' hB' hZ' Z0' ⊢
    compare_step (hO.emit v comp r) with next hb hA' hB' hZ' Z0'
    simp only [ends_ok, fails_ok, BadThen] at hA' hB' hZ' Z0' ⊢
    simp only [Then, marks_cons, marks_nil, zero_add] at hA' hB' ⊢
    rw [add_comm] at oA oB
    simp only [oA, oB, Nat.add_sub_cancel]
    exact ih _ _ Z0'
  · rw [uniform_none hy]; simp

/-- The chosen component decides. -/
def stage (O : Ops ℝ ν κ Numbers) (v : ν) (comp : κ) (r : Ray ℝ) (s : Numbers) :
    Except Err ((List (Step ℝ) × Option (Ray ℝ)) × Numbers) :=
  match O.isRadiative comp r s with
  | .error e => .error e
  | .ok (radiative, s) => if radiative then shine O v comp r s else lose O v comp r s

/-- What is not an absorption or an emission is not marked. -/
def Quiet (m : Event → Bool) : Prop :=
  m .reflect = false ∧ m .transmit = false ∧ m .kill = false ∧ m .exit = false ∧ m .nonradiative = false ∧ m .react = false

/-- The two chances compare after an absorption, if they do in what follows. -/
def AfterAbsorption (O : Ops ℝ ν κ Numbers) (maxsteps : ℕ) (maxpath : Option ℝ) (mA mB : Event → Bool) (c d : ENNReal) : Prop :=
  ∀ fuel count k v comp r, (∃ w s t, O.component v w s = .ok (comp, t)) →
    (∀ k ray, independent {t | Bad O maxsteps maxpath fuel count ray t} = 0 →
      c * independent {t | Many O mA maxsteps maxpath fuel count ray (k + 1) t} ≤
        d * independent {t | Many O mB maxsteps maxpath fuel count ray (k + 1) t}) →
    MeasurableSet {s | Ends (stage O v comp r) (Then O mA maxsteps maxpath fuel count (k + 1)) s} →
    MeasurableSet {s | Ends (stage O v comp r) (Then O mB maxsteps maxpath fuel count (k + 1)) s} →
    MeasurableSet {s | Fails (stage O v comp r) (BadThen O maxsteps maxpath fuel count) s} →
    independent {s | Fails (stage O v comp r) (BadThen O maxsteps maxpath fuel count) s} = 0 →
    c * independent {s | Ends (stage O v comp r) (Then O mA maxsteps maxpath fuel count (k + 1)) s} ≤
      d * independent {s | Ends (stage O v comp r) (Then O mB maxsteps maxpath fuel count (k + 1)) s}

include hO in
theorem surface_compare {mA mB : Event → Bool} {c d : ENNReal} (qA : Quiet mA) (qB : Quiet mB)
    (ih : ∀ k ray, independent {t | Bad O maxsteps maxpath fuel count ray t} = 0 →
      c * independent {t | Many O mA maxsteps maxpath fuel count ray (k + 1) t} ≤
        d * independent {t | Many O mB maxsteps maxpath fuel count ray (k + 1) t}) (h : HitInfo ν ℝ) (ray : Ray ℝ)
    (hA : MeasurableSet {s | Ends (surfacePass O h ray) (Then O mA maxsteps maxpath fuel count (k + 1)) s})
    (hB : MeasurableSet {s | Ends (surfacePass O h ray) (Then O mB maxsteps maxpath fuel count (k + 1)) s})
    (hZ : MeasurableSet {s | Fails (surfacePass O h ray) (BadThen O maxsteps maxpath fuel count) s})
    (Z0 : independent {s | Fails (surfacePass O h ray) (BadThen O maxsteps maxpath fuel count) s} = 0) :
    c * independent {s | Ends (surfacePass O h ray) (Then O mA maxsteps maxpath fuel count (k + 1)) s} ≤
      d * independent {s | Ends (surfacePass O h ray) (Then O mB maxsteps maxpath fuel count (k + 1)) s} := by
  obtain ⟨a1, a2, -⟩ := qA
  obtain ⟨b1, b2, -⟩ := qB
  unfold surfacePass at hA hB hZ Z0 ⊢
  dsimp only at hA hB hZ Z0 ⊢
  generalize ray.propagate h.dist (O.refractiveIndex h.container) = r at hA hB hZ Z0 ⊢
  generalize O.normal h.hit r.position = w at hA hB hZ Z0 ⊢
  rcases w with e | nrm
  · exact (fails_error Z0).elim
  dsimp only at hA hB hZ Z0 ⊢
  compare_step (hO.reflected h.hit h.container h.adjacent r) with b hb hA hB hZ Z0
  cases b
  · simp only [Bool.false_eq_true, if_false] at hA hB hZ Z0 ⊢
    compare_step (hO.transmit h.hit h.container h.adjacent r) with next hb hA hB hZ Z0
    generalize h.adjacent = w at hA hB hZ Z0 ⊢
    rcases w with _ | a
    · exact (fails_error Z0).elim
    · simp only [ends_ok, fails_ok, Then, BadThen, marks_cons, marks_nil, a2, b2, Bool.false_eq_true, if_false, add_zero, Nat.sub_zero] at hA hB hZ Z0 ⊢
      exact ih _ _ Z0
  · simp only [if_true] at hA hB hZ Z0 ⊢
    compare_step (hO.reflect h.hit h.container h.adjacent r) with next hb hA hB hZ Z0
    simp only [ends_ok, fails_ok, Then, BadThen, marks_cons, marks_nil, a1, b1, Bool.false_eq_true, if_false, add_zero, Nat.sub_zero] at hA hB hZ Z0 ⊢
    exact ih _ _ Z0

include hO hM in
theorem loop_compare {mA mB : Event → Bool} {c d : ENNReal} (qA : Quiet mA) (qB : Quiet mB)
    (hbad : ∀ fuel count ray, MeasurableSet {s | Bad O maxsteps maxpath fuel count ray s})
    (hC : AfterAbsorption O maxsteps maxpath mA mB c d) : ∀ fuel count k ray,
    independent {t | Bad O maxsteps maxpath fuel count ray t} = 0 →
      c * independent {t | Many O mA maxsteps maxpath fuel count ray (k + 1) t} ≤
        d * independent {t | Many O mB maxsteps maxpath fuel count ray (k + 1) t} := by
  intro fuel
  induction fuel with
  | zero =>
    intro count k ray _
    rw [show {t | Many O mA maxsteps maxpath 0 count ray (k + 1) t} = ∅ from
      Set.eq_empty_of_forall_notMem (fun t ⟨_, _, h, _⟩ => by cases h), measure_empty, mul_zero]
    exact zero_le
  | succ fuel ih =>
    intro count k ray Z0
    have hA := hM mA (fuel + 1) count ray (k + 1)
    have hB := hM mB (fuel + 1) count ray (k + 1)
    have hZ := hbad (fuel + 1) count ray
    have e : ∀ m, {t | Many O m maxsteps maxpath (fuel + 1) count ray (k + 1) t} =
        {s | Ends (pass O maxsteps maxpath (count + 1) ray) (Then O m maxsteps maxpath fuel (count + 1) (k + 1)) s} := by
      intro m; ext s; exact many_succ s
    have e' : {t | Bad O maxsteps maxpath (fuel + 1) count ray t} =
        {s | Fails (pass O maxsteps maxpath (count + 1) ray) (BadThen O maxsteps maxpath fuel (count + 1)) s} := by
      ext s; exact bad_succ s
    rw [e] at hA hB ⊢
    rw [e]
    rw [e'] at hZ Z0
    unfold pass at hA hB hZ Z0 ⊢
    generalize O.intersections ray.position ray.direction = w at hA hB hZ Z0 ⊢
    rcases w with e | xs
    · exact (fails_error Z0).elim
    dsimp only at hA hB hZ Z0 ⊢
    generalize nextHit O.eps (O.distBetween ray.position) xs = w at hA hB hZ Z0 ⊢
    rcases w with e | _ | h
    · exact (fails_error Z0).elim
    · simp only [ends_ok]
      rw [then_stop rfl, measure_empty, mul_zero]; exact zero_le
    dsimp only at hA hB hZ Z0 ⊢
    split_ifs at hA hB hZ Z0 ⊢
    · simp only [ends_ok]
      rw [then_stop (by simp [qA.2.2.1]), measure_empty, mul_zero]; exact zero_le
    · simp only [ends_ok]
      rw [then_stop (by simp [qA.2.2.2.1]), measure_empty, mul_zero]; exact zero_le
    compare_step (hO.depth h.container ray.wavelength) with depth hb hA hB hZ Z0
    generalize isAbsorbed depth h.dist = w at hA hB hZ Z0 ⊢
    rcases w with _ | x
    · exact surface_compare hO qA qB (ih (count + 1)) h ray hA hB hZ Z0
    · dsimp only at hA hB hZ Z0 ⊢
      have ea : (fun t => absorbPass O h.container ray x t) = _ := funext (absorb_parts O h.container ray x)
      rw [ea] at hA hB hZ Z0 ⊢
      dsimp only at hA hB hZ Z0 ⊢
      generalize ray.propagate x (O.refractiveIndex h.container) = r at hA hB hZ Z0 ⊢
      compare_step (hO.component h.container r.wavelength) with comp hc hA hB hZ Z0
      obtain ⟨s, t, hc⟩ := hc
      exact hC fuel (count + 1) k h.container comp r ⟨_, s, t, hc⟩ (ih (count + 1)) hA hB hZ Z0

/-- A component that can be chosen. -/
def Chosen (O : Ops ℝ ν κ Numbers) (comp : κ) : Prop := ∃ v w s t, O.component v w s = .ok (comp, t)

/-- A component that gives the light off again if one number is below `y`. -/
def Draws (O : Ops ℝ ν κ Numbers) (comp : κ) (y : ℝ) : Prop :=
  ∀ ray s, O.isRadiative comp ray s = .ok (decide (s 0 < y), rest s)

theorem stage_draws {comp : κ} {y : ℝ} (h : Draws O comp y) (v : ν) (r : Ray ℝ) : stage O v comp r = decides O y v comp r := by
  funext s
  unfold stage decides
  rw [h]

theorem quiet_absorb : Quiet isAbsorb := by unfold Quiet isAbsorb; decide
theorem quiet_emit : Quiet isEmit := by unfold Quiet isEmit; decide

/-- Whoever has taken the light up once: the chance of one absorption is 1 if there is no exception. -/
theorem stage_absorbs {v : ν} {comp : κ} {r : Ray ℝ} {s : Numbers}
    (h : ¬ Fails (stage O v comp r) (BadThen O maxsteps maxpath fuel count) s) :
    Ends (stage O v comp r) (Then O isAbsorb maxsteps maxpath fuel count (0 + 1)) s := by
  rcases hs : stage O v comp r s with e | ⟨⟨es, next⟩, t⟩
  · exact absurd (.inl ⟨e, hs⟩) h
  have h1 : 1 ≤ marks isAbsorb es := by
    unfold stage shine lose at hs
    repeat' split at hs
    all_goals first | cases hs | skip
    all_goals simp [isAbsorb]
  refine ⟨_, _, hs, ?_⟩
  rcases next with _ | ray
  · exact h1
  · show Many O isAbsorb maxsteps maxpath fuel count ray _ t
    rcases hp : passes O maxsteps maxpath fuel count ray t with e | ⟨es', t'⟩
    · exact absurd (.inr ⟨_, _, hs, e, hp⟩) h
    · exact ⟨es', t', hp, by simp only; omega⟩

theorem shine_emits {v : ν} {comp : κ} {r : Ray ℝ} {s : Numbers} (hk : O.compKind comp = .luminophore)
    (h : ¬ Fails (shine O v comp r) (BadThen O maxsteps maxpath fuel count) s) :
    Ends (shine O v comp r) (Then O isEmit maxsteps maxpath fuel count (0 + 1)) s := by
  rcases hs : shine O v comp r s with e | ⟨⟨es, next⟩, t⟩
  · exact absurd (.inl ⟨e, hs⟩) h
  have h1 : 1 ≤ marks isEmit es := by
    unfold shine at hs
    rw [hk] at hs
    split at hs
    · cases hs
    · cases hs
      simp [isEmit]
  refine ⟨_, _, hs, ?_⟩
  rcases next with _ | ray
  · exact h1
  · show Many O isEmit maxsteps maxpath fuel count ray _ t
    rcases hp : passes O maxsteps maxpath fuel count ray t with e | ⟨es', t'⟩
    · exact absurd (.inr ⟨_, _, hs, e, hp⟩) h
    · exact ⟨es', t', hp, by simp only; omega⟩

include hO in
/-- Luminophores with yields of at most `q`; whatever else there is does not emit. -/
theorem upper {q : ENNReal} (hq : ∀ comp, Chosen O comp → O.compKind comp = .luminophore →
    ∃ y, Draws O comp y ∧ uniform {u | u < y} ≤ q) : AfterAbsorption O maxsteps maxpath isEmit isAbsorb 1 q := by
  intro fuel count k v comp r ⟨w, s, t, hc⟩ ih hA hB hZ Z0
  by_cases hk : O.compKind comp = .luminophore
  · obtain ⟨y, hd, hy⟩ := hq comp ⟨v, w, s, t, hc⟩ hk
    rcases k with _ | k
    · rw [certain (fun s => stage_absorbs) Z0, mul_one, one_mul]
      rw [stage_draws hd] at hA ⊢
      obtain ⟨e, -⟩ := thinned (A := {s | Ends (decides O y v comp r) (Then O isEmit maxsteps maxpath fuel count (0 + 1)) s})
        (decides_ends fun s => lose_stops rfl rfl rfl) hA
      rw [e]
      calc _ ≤ uniform {u | u < y} * 1 := mul_le_mul' le_rfl prob_le_one
        _ ≤ q := by rw [mul_one]; exact hy
    · rw [stage_draws hd] at hA hB hZ Z0 ⊢
      exact lum_compare hO hk ⟨rfl, rfl⟩ ⟨rfl, rfl⟩ rfl rfl ih hA hB hZ Z0
  · unfold stage at hA hB hZ Z0 ⊢
    compare_step (hO.radiative comp r) with b hb hA hB hZ Z0
    cases b
    · simp only [Bool.false_eq_true, if_false] at hA ⊢
      rw [show {t | Ends (fun t => lose O v comp r t) (Then O isEmit maxsteps maxpath fuel count (k + 1)) t} = ∅ from
        Set.eq_empty_of_forall_notMem (fun s hs => lose_stops rfl rfl rfl hs), measure_empty, mul_zero]
      exact zero_le
    · simp only [if_true] at hA hB hZ Z0 ⊢
      unfold shine at hA hB hZ Z0 ⊢
      compare_step (hO.emit v comp r) with next hb hA hB hZ Z0
      have key : independent {t | Bad O maxsteps maxpath fuel count next t} = 0 →
          1 * independent {t | Many O isEmit maxsteps maxpath fuel count next (k + 1) t} ≤
            q * independent {t | Many O isAbsorb maxsteps maxpath fuel count next k t} := fun z =>
        (ih k next z).trans (mul_le_mul' le_rfl (measure_mono fun s ⟨es, t, h1, h2⟩ => ⟨es, t, h1, by omega⟩))
      rcases hk' : O.compKind comp
      case luminophore => exact absurd hk' hk
      all_goals
        simp only [hk', ends_ok, ends_error, fails_ok, BadThen] at hA hB hZ Z0 ⊢
      case other => exact (fails_error Z0).elim
      all_goals
        simp only [Then, marks_cons, marks_nil, isEmit, isAbsorb, reduceCtorEq, decide_false, decide_true, if_true, Bool.false_eq_true, if_false, zero_add, add_zero, Nat.sub_zero, Nat.add_sub_cancel] at hA hB ⊢
        exact key Z0

include hO in
/-- Nothing but luminophores with yields of at least `q`. -/
theorem lower {q : ENNReal} (hq : ∀ comp, Chosen O comp → O.compKind comp = .luminophore ∧
    ∃ y, Draws O comp y ∧ q ≤ uniform {u | u < y}) : AfterAbsorption O maxsteps maxpath isAbsorb isEmit q 1 := by
  intro fuel count k v comp r ⟨w, s, t, hc⟩ ih hA hB hZ Z0
  obtain ⟨hk, y, hd, hy⟩ := hq comp ⟨v, w, s, t, hc⟩
  rw [stage_draws hd] at hA hB hZ Z0 ⊢
  rcases k with _ | k
  · refine (mul_le_mul' le_rfl prob_le_one).trans ?_
    rw [mul_one, one_mul]
    obtain ⟨e, -⟩ := thinned (A := {s | Ends (decides O y v comp r) (Then O isEmit maxsteps maxpath fuel count (0 + 1)) s})
        (decides_ends fun s => lose_stops rfl rfl rfl) hB
    rw [e]
    by_cases hp : 0 < y
    · obtain ⟨hZ', Z0'⟩ := shine_safe hp hZ Z0
      rw [certain (fun s => shine_emits hk) Z0', mul_one]
      exact hy
    · rw [uniform_none hp] at hy
      exact hy.trans zero_le
  · exact lum_compare hO hk ⟨rfl, rfl⟩ ⟨rfl, rfl⟩ rfl rfl ih hA hB hZ Z0

end Compare

end
end PV.Reemission
