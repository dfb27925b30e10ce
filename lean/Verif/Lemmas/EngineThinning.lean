import Verif.Lemmas.Thinning
import Verif.Lemmas.Kernel

/-!
C114 for the engine over arbitrary functions: chances of rays with many events compared.
-/

namespace PV.EngineThinning
open MeasureTheory Spec
noncomputable section

/-! ### Programs that cannot fail -/

section Total
variable {β : Type} {f : Numbers → β × Numbers}

/-- A total program that reads numbers, and how many is decided. -/
def TFair (f : Numbers → β × Numbers) : Prop := Fair (ε := Err) fun s => .ok (f s)

/-- Two chances compared, whatever was read. -/
theorem TFair.compare (hf : TFair f) {A B : β → Numbers → Prop} {c d : ENNReal}
    (hA : MeasurableSet {s | A (f s).1 (f s).2}) (hB : MeasurableSet {s | B (f s).1 (f s).2})
    (h : ∀ b, (∃ s, (f s).1 = b) → MeasurableSet {t | A b t} → MeasurableSet {t | B b t} →
      c * independent {t | A b t} ≤ d * independent {t | B b t}) :
    c * independent {s | A (f s).1 (f s).2} ≤ d * independent {s | B (f s).1 (f s).2} := by
  have e : ∀ (Q : β → Numbers → Prop) s, s ∈ {s | Q (f s).1 (f s).2} ↔
      ∃ b t, (.ok (f s) : Except Err (β × Numbers)) = .ok (b, t) ∧ Q b t := by
    intro Q s
    constructor
    · exact fun h => ⟨_, _, rfl, h⟩
    · rintro ⟨b, t, h1, h2⟩
      have h1 : f s = (b, t) := Except.ok.inj h1
      show Q (f s).1 (f s).2
      rw [h1]; exact h2
  refine Fair.compare hf (Z := ∅) (W := fun _ _ => False) (e A) hA (e B) hB (fun _ _ _ _ => by simp) MeasurableSet.empty
    measure_empty fun s b t h1 h2 h3 _ _ => h b ⟨s, ?_⟩ h2 h3
  rw [Except.ok.inj h1]

end Total

variable {ν κ : Type} [DecidableEq ν]

/-- How many recorded rows are events in `m`. -/
def marks (m : Event → Bool) (os : List (KOut ℝ ν κ)) : ℕ := (rowsOf os).countP fun r => m r.kind

@[simp] theorem marks_nil (m : Event → Bool) : marks m ([] : List (KOut ℝ ν κ)) = 0 := rfl
@[simp] theorem marks_record (m : Event → Bool) (r : Row ℝ ν κ) (os : List (KOut ℝ ν κ)) :
    marks m (.record r :: os) = marks m os + if m r.kind then 1 else 0 := by simp [marks, List.countP_cons]
@[simp] theorem marks_tally (m : Event → Bool) (c : TallyCall ℝ ν) (os : List (KOut ℝ ν κ)) :
    marks m (.tally c :: os) = marks m os := by simp [marks]
@[simp] theorem marks_append (m : Event → Bool) (a b : List (KOut ℝ ν κ)) : marks m (a ++ b) = marks m a + marks m b := by
  simp [marks, List.countP_append]

/-- The engine reads its numbers fairly. -/
structure FairKOps (K : KOps ℝ ν κ Numbers) : Prop where
  depth : ∀ v w, TFair (K.depth v w)
  pick : ∀ v w, TFair (K.pick v w)
  phase : ∀ c, TFair (K.phase c)
  emission : ∀ c w, TFair (K.emission c w)
  delay : ∀ c, TFair (K.radDelay c)
  reflects : ∀ h c a nrm d, TFair (K.reflects h c a nrm d)

/-- Marked events in a pass and all that follows. -/
def total (K : KOps ℝ ν κ Numbers) (m : Event → Bool) (maxsteps fuel count : ℕ) (x : List (KOut ℝ ν κ) × KNext ℝ κ Numbers) : ℕ :=
  match x.2 with
  | .stop => marks m x.1
  | .cont ray s => marks m x.1 + marks m (kTrace K maxsteps fuel count ray s)

theorem marks_trace (K : KOps ℝ ν κ Numbers) (m : Event → Bool) (maxsteps fuel count : ℕ) (ray : KRay ℝ κ) (s : Numbers) :
    marks m (kTrace K maxsteps (fuel + 1) count ray s) =
      total K m maxsteps fuel (count + 1) (kBody K maxsteps (count + 1) ray s) := by
  unfold total
  rw [kTrace]
  rcases (kBody K maxsteps (count + 1) ray s).2 with ⟨r, t⟩ | _ <;> simp

/-- What is not an absorption, an emission or a scattering is not marked. -/
def Quiet (m : Event → Bool) : Prop :=
  m .reflect = false ∧ m .transmit = false ∧ m .kill = false ∧ m .exit = false ∧ m .nonradiative = false ∧ m .react = false

variable {K : KOps ℝ ν κ Numbers} {mA mB : Event → Bool} {j maxsteps fuel count k : ℕ} {c d : ENNReal}

/-- `k + 1` events in `mA` against `k + 1 - j` events in `mB`. -/
def Compares (K : KOps ℝ ν κ Numbers) (mA mB : Event → Bool) (j maxsteps : ℕ) (c d : ENNReal) (fuel count : ℕ) : Prop :=
  ∀ k ray, c * independent {t | k + 1 ≤ marks mA (kTrace K maxsteps fuel count ray t)} ≤
    d * independent {t | k + 1 ≤ marks mB (kTrace K maxsteps fuel count ray t) + j}

theorem Compares.mono {j' : ℕ} (h : Compares K mA mB j maxsteps c d fuel count) (hj : j ≤ j') :
    Compares K mA mB j' maxsteps c d fuel count := fun k ray =>
  (h k ray).trans (mul_le_mul' le_rfl (measure_mono fun t (ht : k + 1 ≤ _ + j) => ht.trans (by omega)))

theorem none_le {P : Set Numbers} {N : Numbers → ℕ} (h : ∀ s, N s = 0) : c * independent {s | k + 1 ≤ N s} ≤ d * independent P := by
  rw [show {s | k + 1 ≤ N s} = ∅ from Set.eq_empty_of_forall_notMem (fun s (hs : k + 1 ≤ N s) => by rw [h] at hs; omega), measure_empty,
    mul_zero]
  exact zero_le

theorem total_surface (m : Event → Bool) (m1 : m .reflect = false) (m2 : m .transmit = false) (h v a : ν) (ray : KRay ℝ κ) (t0 : ℝ)
    (s : Numbers) : total K m maxsteps fuel count (kSurface K h v (some a) ray t0 s) =
      let r := ray.advance t0 (K.nidx v)
      let nrm := K.normal h r.position
      if (K.reflects h v a nrm r.direction s).1 then
        marks m (kTrace K maxsteps fuel count { r with direction := K.reflectDir r.direction nrm } (K.reflects h v a nrm r.direction s).2)
      else marks m (kTrace K maxsteps fuel count { r with direction := K.transmitDir h v a nrm r.direction } (K.reflects h v a nrm r.direction s).2) := by
  obtain ⟨K1, K2, K3, K4, K5, K6, K7, K8, K9, K10, K11, K12, K13, K14, K15, K16, K17⟩ := K
  unfold kSurface
  simp only
  generalize ray.advance t0 (K3 v) = r
  generalize K13 h r.position = nrm
  generalize K15 h v a nrm r.direction s = y
  obtain ⟨_ | _, t⟩ := y
  · simp [total, m2]
  · by_cases hv : v = h <;> simp [total, m1, hv]

variable (hK : FairKOps K)

include hK in
theorem surface_compare (qA : Quiet mA) (qB : Quiet mB) (ih : Compares K mA mB j maxsteps c d fuel count)
    (h v : ν) (a : Option ν) (ray : KRay ℝ κ) (t0 : ℝ)
    (hA : MeasurableSet {s | k + 1 ≤ total K mA maxsteps fuel count (kSurface K h v a ray t0 s)})
    (hB : MeasurableSet {s | k + 1 ≤ total K mB maxsteps fuel count (kSurface K h v a ray t0 s) + j}) :
    c * independent {s | k + 1 ≤ total K mA maxsteps fuel count (kSurface K h v a ray t0 s)} ≤
      d * independent {s | k + 1 ≤ total K mB maxsteps fuel count (kSurface K h v a ray t0 s) + j} := by
  obtain ⟨a1, a2, a3, -⟩ := qA
  obtain ⟨b1, b2, b3, -⟩ := qB
  rcases a with _ | a
  · exact none_le fun s => by simp [kSurface, total, a3]
  · generalize hr : ray.advance t0 (K.nidx v) = r
    generalize hn : K.normal h r.position = nrm
    have eT : ∀ m : Event → Bool, m .reflect = false → m .transmit = false → ∀ s,
        total K m maxsteps fuel count (kSurface K h v (some a) ray t0 s) =
          if (K.reflects h v a nrm r.direction s).1 then
            marks m (kTrace K maxsteps fuel count { r with direction := K.reflectDir r.direction nrm } (K.reflects h v a nrm r.direction s).2)
          else marks m (kTrace K maxsteps fuel count { r with direction := K.transmitDir h v a nrm r.direction } (K.reflects h v a nrm r.direction s).2) := by
      intro m m1 m2 s
      subst hr hn
      exact total_surface m m1 m2 h v a ray t0 s
    simp only [eT mA a1 a2, eT mB b1 b2] at hA hB ⊢
    refine TFair.compare (hK.reflects h v a nrm r.direction)
      (A := fun b t => k + 1 ≤ if b = true then
          marks mA (kTrace K maxsteps fuel count { r with direction := K.reflectDir r.direction nrm } t)
        else marks mA (kTrace K maxsteps fuel count { r with direction := K.transmitDir h v a nrm r.direction } t))
      (B := fun b t => k + 1 ≤ (if b = true then
          marks mB (kTrace K maxsteps fuel count { r with direction := K.reflectDir r.direction nrm } t)
        else marks mB (kTrace K maxsteps fuel count { r with direction := K.transmitDir h v a nrm r.direction } t)) + j) hA hB ?_
    intro b _ _ _
    cases b
    · exact ih _ _
    · exact ih _ _

/-- The event of a component that gives the light off again. -/
def gives (K : KOps ℝ ν κ Numbers) (comp : κ) : Event := if K.kind comp = .luminophore then .emit else .scatter

/-- Marked events after a component has given the light off again. -/
def shine (K : KOps ℝ ν κ Numbers) (m : Event → Bool) (maxsteps fuel count : ℕ) (comp : κ) (r : KRay ℝ κ) (s : Numbers) : ℕ :=
  let (dir, s) := K.phase comp s
  let r := { r with direction := dir, source := some comp }
  if K.kind comp = .luminophore then
    let (w, s) := K.emission comp r.wavelength s
    let (delay, s) := K.radDelay comp s
    marks m (kTrace K maxsteps fuel count { r with wavelength := w, duration := r.duration + delay } s)
  else marks m (kTrace K maxsteps fuel count r s)

/-- A component has been chosen: marked events from there on. -/
def stage (K : KOps ℝ ν κ Numbers) (m : Event → Bool) (maxsteps fuel count : ℕ) (comp : κ) (r : KRay ℝ κ) (s : Numbers) : ℕ :=
  (if m .absorb then 1 else 0) +
    if K.kind comp = .scatterer ∨ K.kind comp = .luminophore then
      if (K.yields comp s).1 then (if m (gives K comp) then 1 else 0) + shine K m maxsteps fuel count comp r (K.yields comp s).2
      else 0
    else 0

theorem total_absorb (m : Event → Bool) (m1 : m .nonradiative = false) (m2 : m .react = false) (v : ν) (ray : KRay ℝ κ) (x : ℝ)
    (s : Numbers) : total K m maxsteps fuel count (kAbsorb K v ray x s) =
      stage K m maxsteps fuel count (K.pick v ray.wavelength s).1 (ray.advance x (K.nidx v)) (K.pick v ray.wavelength s).2 := by
  obtain ⟨K1, K2, K3, K4, K5, K6, K7, K8, K9, K10, K11, K12, K13, K14, K15, K16, K17⟩ := K
  have hw : (ray.advance x (K3 v)).wavelength = ray.wavelength := rfl
  unfold kAbsorb stage shine gives
  simp only [hw]
  obtain ⟨comp, t, hy⟩ : ∃ a b, K5 v ray.wavelength s = (a, b) := ⟨_, _, rfl⟩
  simp only [hy]
  clear hy
  rename' t => s'
  by_cases hk : K6 comp = .scatterer ∨ K6 comp = .luminophore
  · simp only [hk, if_true]
    obtain ⟨y, t, hy⟩ : ∃ a b, K7 comp s' = (a, b) := ⟨_, _, rfl⟩
    simp only [hy]
    cases y
    · simp only [Bool.false_eq_true, if_false, total, marks_record, marks_tally, marks_nil]
      split_ifs <;> simp_all
    · simp only [if_true]
      by_cases hl : K6 comp = .luminophore
      · simp only [hl, if_true, total, marks_record, marks_nil]
        omega
      · simp only [hl, if_false, total, marks_record, marks_nil]
        omega
  · simp only [hk, if_false, Bool.false_eq_true, total, marks_record, marks_tally, marks_nil]
    split_ifs <;> simp_all

/-- A component that can absorb. -/
def Absorbs (K : KOps ℝ ν κ Numbers) (comp : κ) : Prop :=
  ∃ v w s t, (K.depth v w s).1.isSome ∧ (K.pick v w t).1 = comp

/-- The two chances compare once a component has taken the light up, if they do in what follows. -/
def AfterAbsorption (K : KOps ℝ ν κ Numbers) (mA mB : Event → Bool) (j maxsteps : ℕ) (c d : ENNReal) : Prop :=
  ∀ fuel count k comp r, Absorbs K comp → Compares K mA mB j maxsteps c d fuel count →
    MeasurableSet {s | k + 1 ≤ stage K mA maxsteps fuel count comp r s} →
    MeasurableSet {s | k + 1 ≤ stage K mB maxsteps fuel count comp r s + j} →
    c * independent {s | k + 1 ≤ stage K mA maxsteps fuel count comp r s} ≤
      d * independent {s | k + 1 ≤ stage K mB maxsteps fuel count comp r s + j}

/-- The light is taken up inside or meets the surface. -/
def go (K : KOps ℝ ν κ Numbers) (h v : ν) (a : Option ν) (ray : KRay ℝ κ) (t0 : ℝ) (t : Numbers) (x : Option ℝ) :
    List (KOut ℝ ν κ) × KNext ℝ κ Numbers :=
  match x with
  | some x => kAbsorb K v ray x t
  | none => kSurface K h v a ray t0 t

theorem body_go {h v : ν} {a : Option ν} {ray : KRay ℝ κ} {t0 : ℝ} (e : K.nextHit ray.position ray.direction = some (h, v, a, t0))
    (h1 : ¬ count > maxsteps) (h2 : h ≠ K.root) (s : Numbers) : kBody K maxsteps count ray s =
      go K h v a ray t0 (K.depth v ray.wavelength s).2 (isAbsorbed (K.depth v ray.wavelength s).1 t0) := by
  unfold kBody
  simp only [e, h1, h2, if_false]
  rcases isAbsorbed (K.depth v ray.wavelength s).1 t0 with _ | x <;> rfl

include hK in
theorem loop_compare (qA : Quiet mA) (qB : Quiet mB) (hC : AfterAbsorption K mA mB j maxsteps c d)
    (hM : ∀ m fuel count ray k, MeasurableSet {s | k ≤ marks m (kTrace K maxsteps fuel count ray s)}) :
    ∀ fuel count, Compares K mA mB j maxsteps c d fuel count := by
  intro fuel
  induction fuel with
  | zero => exact fun count k ray => none_le fun s => rfl
  | succ fuel ih =>
    intro count k ray
    have hA := hM mA (fuel + 1) count ray (k + 1)
    have hB : MeasurableSet {s | k + 1 ≤ marks mB (kTrace K maxsteps (fuel + 1) count ray s) + j} := by
      have := hM mB (fuel + 1) count ray (k + 1 - j)
      convert this using 3
      exact Nat.sub_le_iff_le_add.symm
    simp only [marks_trace] at hA hB ⊢
    rcases e : K.nextHit ray.position ray.direction with _ | ⟨h, v, a, t0⟩
    · exact none_le fun s => by unfold kBody; simp [e, total]
    by_cases h1 : count + 1 > maxsteps
    · exact none_le fun s => by unfold kBody; simp [e, h1, total, qA.2.2.1]
    by_cases h2 : h = K.root
    · exact none_le fun s => by unfold kBody; simp [e, h1, h2, total, qA.2.2.2.1]
    simp only [body_go e h1 h2] at hA hB ⊢
    refine TFair.compare (hK.depth v ray.wavelength)
      (A := fun depth t => k + 1 ≤ total K mA maxsteps fuel (count + 1) (go K h v a ray t0 t (isAbsorbed depth t0)))
      (B := fun depth t => k + 1 ≤ total K mB maxsteps fuel (count + 1) (go K h v a ray t0 t (isAbsorbed depth t0)) + j) hA hB ?_
    rintro depth ⟨s0, hd⟩ hA hB
    unfold go at hA hB ⊢
    rcases hx : isAbsorbed depth t0 with _ | x
    · simp only [hx] at hA hB ⊢
      exact surface_compare hK qA qB (ih (count + 1)) h v a ray t0 hA hB
    · simp only [hx, total_absorb mA qA.2.2.2.2.1 qA.2.2.2.2.2, total_absorb mB qB.2.2.2.2.1 qB.2.2.2.2.2] at hA hB ⊢
      refine TFair.compare (hK.pick v ray.wavelength)
        (A := fun comp t => k + 1 ≤ stage K mA maxsteps fuel (count + 1) comp (ray.advance x (K.nidx v)) t)
        (B := fun comp t => k + 1 ≤ stage K mB maxsteps fuel (count + 1) comp (ray.advance x (K.nidx v)) t + j) hA hB ?_
      rintro comp ⟨t, ht⟩ hA hB
      refine hC _ _ _ _ _ ⟨v, ray.wavelength, s0, t, ?_, ht⟩ (ih (count + 1)) hA hB
      rw [hd]
      rcases depth with _ | _
      · cases hx
      · rfl

/-- A component that gives the light off again if one number is below `y`. -/
def Draws (K : KOps ℝ ν κ Numbers) (comp : κ) (y : ℝ) : Prop := ∀ s, K.yields comp s = (decide (s 0 < y), rest s)

include hK in
/-- Once the light is given off again. -/
theorem shine_compare (comp : κ) (r : KRay ℝ κ) (ih : Compares K mA mB j maxsteps c d fuel count)
    (hA : MeasurableSet {s | k + 1 ≤ shine K mA maxsteps fuel count comp r s})
    (hB : MeasurableSet {s | k + 1 ≤ shine K mB maxsteps fuel count comp r s + j}) :
    c * independent {s | k + 1 ≤ shine K mA maxsteps fuel count comp r s} ≤
      d * independent {s | k + 1 ≤ shine K mB maxsteps fuel count comp r s + j} := by
  unfold shine at hA hB ⊢
  by_cases hl : K.kind comp = .luminophore
  · simp only [hl, if_true] at hA hB ⊢
    let N (m : Event → Bool) (dir : Vec3 ℝ) (w : ℝ) (delay : ℝ) (s : Numbers) : ℕ := marks m (kTrace K maxsteps fuel count
      { r with direction := dir, source := some comp, wavelength := w, duration := r.duration + delay } s)
    refine TFair.compare (hK.phase comp)
      (A := fun dir t => k + 1 ≤ N mA dir (K.emission comp r.wavelength t).1 (K.radDelay comp (K.emission comp r.wavelength t).2).1
        (K.radDelay comp (K.emission comp r.wavelength t).2).2)
      (B := fun dir t => k + 1 ≤ N mB dir (K.emission comp r.wavelength t).1 (K.radDelay comp (K.emission comp r.wavelength t).2).1
        (K.radDelay comp (K.emission comp r.wavelength t).2).2 + j) hA hB ?_
    intro dir _ hA hB
    refine TFair.compare (hK.emission comp r.wavelength)
      (A := fun w t => k + 1 ≤ N mA dir w (K.radDelay comp t).1 (K.radDelay comp t).2)
      (B := fun w t => k + 1 ≤ N mB dir w (K.radDelay comp t).1 (K.radDelay comp t).2 + j) hA hB ?_
    intro w _ hA hB
    refine TFair.compare (hK.delay comp)
      (A := fun x t => k + 1 ≤ N mA dir w x t) (B := fun x t => k + 1 ≤ N mB dir w x t + j) hA hB ?_
    intro x _ _ _
    exact ih _ _
  · simp only [hl, if_false] at hA hB ⊢
    refine TFair.compare (hK.phase comp)
      (A := fun dir t => k + 1 ≤ marks mA (kTrace K maxsteps fuel count { r with direction := dir, source := some comp } t))
      (B := fun dir t => k + 1 ≤ marks mB (kTrace K maxsteps fuel count { r with direction := dir, source := some comp } t) + j)
      hA hB ?_
    intro dir _ _ _
    exact ih _ _

/-- The set of numbers for which a component that draws leads on to many marked events. -/
theorem stage_draws {comp : κ} {y : ℝ} (h : Draws K comp y) (hk : K.kind comp = .scatterer ∨ K.kind comp = .luminophore)
    (m : Event → Bool) {r : KRay ℝ κ} {N : ℕ} (hN : (if m .absorb then 1 else 0) + j < N) (s : Numbers) :
    s ∈ {s | N ≤ stage K m maxsteps fuel count comp r s + j} ↔ s 0 < y ∧
      N ≤ (if m .absorb then 1 else 0) + ((if m (gives K comp) then 1 else 0) + shine K m maxsteps fuel count comp r (rest s)) + j := by
  show N ≤ stage K m maxsteps fuel count comp r s + j ↔ _
  unfold stage
  rw [h s]
  simp only [hk, if_true, decide_eq_true_eq]
  by_cases h0 : s 0 < y
  · simp only [h0, if_true, true_and]
  · simp only [h0, if_false, false_and, iff_false]
    omega

/-- A component that never gives light off again. -/
theorem stage_never {comp : κ} (hk : ¬ (K.kind comp = .scatterer ∨ K.kind comp = .luminophore))
    (m : Event → Bool) (r : KRay ℝ κ) (s : Numbers) :
    stage K m maxsteps fuel count comp r s = if m .absorb then 1 else 0 := by
  unfold stage
  simp [hk]

include hK in
/-- Components whose marked light comes with a chance of at most `q`. -/
theorem upper {q : ENNReal} (mA0 : mA .absorb = false) (hj : (if mB .absorb then 1 else 0) + j = 1)
    (hy : ∀ comp, Absorbs K comp → K.kind comp = .scatterer ∨ K.kind comp = .luminophore →
      ∃ y, Draws K comp y ∧ (mA (gives K comp) = true → Spec.uniform {u | u < y} ≤ q ∧ (if mB .absorb then 1 else 0) +
        (if mB (gives K comp) then 1 else 0) = 1)) : AfterAbsorption K mA mB j maxsteps 1 q := by
  intro fuel count k comp r ha ih hA hB
  by_cases hk : K.kind comp = .scatterer ∨ K.kind comp = .luminophore
  swap
  · exact none_le fun s => by rw [stage_never hk]; simp [mA0]
  obtain ⟨y, hd, hy⟩ := hy comp ha hk
  have sA := fun s => stage_draws (maxsteps := maxsteps) (fuel := fuel) (count := count) (r := r) (j := 0) (N := k + 1) hd hk mA (by simp [mA0]) s
  simp only [mA0, Bool.false_eq_true, if_false, zero_add, add_zero] at sA
  by_cases hg : mA (gives K comp) = true
  · obtain ⟨hq, hb⟩ := hy hg
    simp only [hg, if_true] at sA
    rcases k with _ | k
    · obtain ⟨e, -⟩ := Spec.thinned (A := {s | 0 + 1 ≤ stage K mA maxsteps fuel count comp r s})
        (Q := fun t => 0 + 1 ≤ 1 + shine K mA maxsteps fuel count comp r t) sA hA
      have e1 : {s | 0 + 1 ≤ stage K mB maxsteps fuel count comp r s + j} = Set.univ :=
        Set.eq_univ_of_forall fun s => by
          show 0 + 1 ≤ stage K mB maxsteps fuel count comp r s + j
          unfold stage
          omega
      rw [e, e1, measure_univ, mul_one, one_mul]
      calc _ ≤ Spec.uniform {u | u < y} * 1 := mul_le_mul' le_rfl prob_le_one
        _ ≤ q := by rw [mul_one]; exact hq
    · have sB := fun s => stage_draws (maxsteps := maxsteps) (fuel := fuel) (count := count) (r := r) (j := j) (N := k + 1 + 1) hd hk mB (by omega) s
      obtain ⟨eA, hA'⟩ := Spec.thinned (A := {s | k + 1 + 1 ≤ stage K mA maxsteps fuel count comp r s})
        (Q := fun t => k + 1 + 1 ≤ 1 + shine K mA maxsteps fuel count comp r t) sA hA
      obtain ⟨eB, hB'⟩ := Spec.thinned (A := {s | k + 1 + 1 ≤ stage K mB maxsteps fuel count comp r s + j})
        (Q := fun t => k + 1 + 1 ≤ (if mB .absorb then 1 else 0) + ((if mB (gives K comp) then 1 else 0) + shine K mB maxsteps fuel count comp r t) + j) sB hB
      rw [eA, eB]
      by_cases h0 : 0 < y
      · have hA' := hA' h0
        have hB' := hB' h0
        have e1 : {t | k + 1 + 1 ≤ 1 + shine K mA maxsteps fuel count comp r t} = {t | k + 1 ≤ shine K mA maxsteps fuel count comp r t} := by
          ext t; simp only [Set.mem_ofPred_eq]; omega
        have e2 : {t | k + 1 + 1 ≤ (if mB .absorb then 1 else 0) + ((if mB (gives K comp) then 1 else 0) + shine K mB maxsteps fuel count comp r t) + j} =
            {t | k + 1 ≤ shine K mB maxsteps fuel count comp r t + j} := by
          ext t; simp only [Set.mem_ofPred_eq]; omega
        rw [e1] at hA' ⊢
        rw [e2] at hB' ⊢
        rw [mul_left_comm, mul_left_comm q]
        exact mul_le_mul' le_rfl (shine_compare hK comp r ih hA' hB')
      · rw [Spec.uniform_none h0]; simp
  · simp only [hg, Bool.false_eq_true, if_false, zero_add] at sA
    obtain ⟨eA, hA'⟩ := Spec.thinned (A := {s | k + 1 ≤ stage K mA maxsteps fuel count comp r s})
      (Q := fun t => k + 1 ≤ shine K mA maxsteps fuel count comp r t) sA hA
    have hB2 : MeasurableSet ({s : Numbers | s 0 < y} ∩ {s | k + 1 ≤ stage K mB maxsteps fuel count comp r s + j}) :=
      (measurableSet_lt (measurable_pi_apply 0) measurable_const).inter hB
    obtain ⟨eB, hB'⟩ := Spec.thinned (A := {s : Numbers | s 0 < y} ∩ {s | k + 1 ≤ stage K mB maxsteps fuel count comp r s + j})
      (Q := fun t => k + 1 ≤ (if mB .absorb then 1 else 0) + ((if mB (gives K comp) then 1 else 0) + shine K mB maxsteps fuel count comp r t) + j)
      (y := y) (fun s => by
        show s 0 < y ∧ k + 1 ≤ stage K mB maxsteps fuel count comp r s + j ↔ _
        refine and_congr_right fun h0 => ?_
        unfold stage
        rw [hd s]
        simp only [hk, if_true, h0, decide_true]) hB2
    refine le_trans ?_ (mul_le_mul' (le_refl q) (measure_mono (Set.inter_subset_right (s := {s : Numbers | s 0 < y}))))
    rw [eA, eB]
    by_cases h0 : 0 < y
    · rw [mul_left_comm, mul_left_comm q]
      have hB' := hB' h0
      have e2 : {t | k + 1 ≤ (if mB .absorb then 1 else 0) + ((if mB (gives K comp) then 1 else 0) + shine K mB maxsteps fuel count comp r t) + j} =
          {t | k + 1 ≤ shine K mB maxsteps fuel count comp r t + ((if mB .absorb then 1 else 0) + (if mB (gives K comp) then 1 else 0) + j)} := by
        ext t; simp only [Set.mem_ofPred_eq]; omega
      rw [e2] at hB' ⊢
      exact mul_le_mul' le_rfl (shine_compare hK comp r (ih.mono (by omega)) (hA' h0) hB')
    · rw [Spec.uniform_none h0]; simp

include hK in
/-- Luminophores whose light comes with a chance of at least `q`, and nothing else. -/
theorem lower {q : ENNReal} (hy : ∀ comp, Absorbs K comp → K.kind comp = .luminophore ∧
      ∃ y, Draws K comp y ∧ q ≤ Spec.uniform {u | u < y}) :
    AfterAbsorption K Reemission.isAbsorb Reemission.isEmit 0 maxsteps q 1 := by
  intro fuel count k comp r ha ih hA hB
  obtain ⟨hl, y, hd, hy⟩ := hy comp ha
  have hk : K.kind comp = .scatterer ∨ K.kind comp = .luminophore := .inr hl
  have hg : gives K comp = .emit := by simp [gives, hl]
  have a1 : Reemission.isAbsorb .absorb = true := rfl
  have a2 : Reemission.isAbsorb .emit = false := rfl
  have b1 : Reemission.isEmit .absorb = false := rfl
  have b2 : Reemission.isEmit .emit = true := rfl
  have sB := fun s => stage_draws (maxsteps := maxsteps) (fuel := fuel) (count := count) (r := r) (j := 0) (N := k + 1) hd hk
    Reemission.isEmit (by simp [b1]) s
  simp only [hg, b1, b2, Bool.false_eq_true, if_false, if_true, zero_add, add_zero] at sB
  obtain ⟨eB, hB'⟩ := Spec.thinned (A := {s | k + 1 ≤ stage K Reemission.isEmit maxsteps fuel count comp r s + 0})
    (Q := fun t => k + 1 ≤ 1 + shine K Reemission.isEmit maxsteps fuel count comp r t) sB hB
  rcases k with _ | k
  · rw [eB]
    have e1 : {t | 0 + 1 ≤ 1 + shine K Reemission.isEmit maxsteps fuel count comp r t} = Set.univ :=
      Set.eq_univ_of_forall fun t => by simp only [Set.mem_ofPred_eq]; omega
    rw [e1, measure_univ, mul_one, one_mul]
    exact (mul_le_mul' le_rfl prob_le_one).trans (by rw [mul_one]; exact hy)
  · have sA := fun s => stage_draws (maxsteps := maxsteps) (fuel := fuel) (count := count) (r := r) (j := 0) (N := k + 1 + 1) hd hk
      Reemission.isAbsorb (by simp [a1]) s
    simp only [hg, a1, a2, Bool.false_eq_true, if_false, if_true, zero_add, add_zero] at sA
    obtain ⟨eA, hA'⟩ := Spec.thinned (A := {s | k + 1 + 1 ≤ stage K Reemission.isAbsorb maxsteps fuel count comp r s})
      (Q := fun t => k + 1 + 1 ≤ 1 + shine K Reemission.isAbsorb maxsteps fuel count comp r t) sA hA
    rw [eA, eB]
    by_cases h0 : 0 < y
    · have hA' := hA' h0
      have hB' := hB' h0
      have e : ∀ m : Event → Bool, {t | k + 1 + 1 ≤ 1 + shine K m maxsteps fuel count comp r t} =
          {t | k + 1 ≤ shine K m maxsteps fuel count comp r t} := fun m => by ext t; simp only [Set.mem_ofPred_eq]; omega
      rw [e] at hA' hB' ⊢
      rw [e, mul_left_comm, mul_left_comm 1]
      exact mul_le_mul' le_rfl (shine_compare (j := 0) hK comp r ih hA' hB')
    · rw [Spec.uniform_none h0]; simp

end
end PV.EngineThinning
