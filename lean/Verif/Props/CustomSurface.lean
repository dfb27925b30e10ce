import Verif.Model.CustomSurface
import Verif.Props.LibraryPath
import Verif.Props.AgreementDemo
import Verif.Lemmas.Chance

/-!
# C99 A surface written by the user only turns rays
-/

namespace PV.Custom
open PV.Library PV.Spec Set MeasureTheory
noncomputable section

variable {n : ℕ} {σ : Type}

theorem bend_eq {N : LNode} (hr : N.l2w.Rigid) (hi : N.l2w.Inverse N.w2l)
    {answer : Ray ℝ → σ → Except Err (Bearing × σ)} {ray ray' : Ray ℝ} {s s' : σ}
    (h : N.bend answer ray s = .ok (ray', s')) :
    ray' = { ray with direction := ray'.direction } ∧
    ∃ d, answer (ray.representation N.w2l) s = .ok (.triple d, s') ∧ ray'.direction = N.l2w.vec d := by
  unfold LNode.bend at h
  split at h
  · cases h
  · rename_i b s1 hb
    refine ⟨turn_eq hr hi h, ?_⟩
    unfold LNode.turn at h
    cases b with
    | triple d =>
      simp only [Bearing.check, Except.ok.injEq, Prod.mk.injEq] at h
      obtain ⟨rfl, rfl⟩ := h
      exact ⟨d, hb, rfl⟩
    | tuple k => cases h
    | other => cases h

theorem customOps_reflect (S : LScene n) (D : Fin (n + 1) → CustomDelegate n σ) (B : Trimesh) (R : Rand σ)
    (method : EmitMethod) (h c : Fin (n + 1)) (a : Option (Fin (n + 1))) (ray : Ray ℝ) (s : σ) :
    (customOps S D B R method).reflect h c a ray s =
      (S.node h).bend (fun ray s => (D h).reflected ray c a s) ray s := rfl

theorem customOps_transmit (S : LScene n) (D : Fin (n + 1) → CustomDelegate n σ) (B : Trimesh) (R : Rand σ)
    (method : EmitMethod) (h c : Fin (n + 1)) (a : Option (Fin (n + 1))) (ray : Ray ℝ) (s : σ) :
    (customOps S D B R method).transmit h c a ray s =
      (S.node h).bend (fun ray s => (D h).transmitted ray c a s) ray s := rfl

/-- With the library's own delegates the two models are the same. -/
theorem builtin_same (S : LScene n) (B : Trimesh) (R : Rand σ) (method : EmitMethod) :
    customOps S (builtin S) B R method = pyOps S B R method := by
  have h1 : (fun h c a (ray : Ray ℝ) (s : σ) =>
      (builtin S h).isReflected R (ray.representation (S.node h).w2l) c a s) =
      (pyOps S B R method).isReflected := by
    funext h c a ray s
    simp only [CustomDelegate.isReflected, builtin, pyOps, LScene.isReflected]
    cases S.reflectivity h c a (ray.representation (S.node h).w2l) <;> rfl
  have h2 : (fun h c a (ray : Ray ℝ) (s : σ) =>
      (S.node h).bend (fun ray s => (builtin S h).reflected ray c a s) ray s) =
      (pyOps S B R method).reflect := by
    funext h c a ray s
    simp only [LNode.bend, builtin, pyOps]
    cases S.reflected h (ray.representation (S.node h).w2l) <;> rfl
  have h3 : (fun h c a (ray : Ray ℝ) (s : σ) =>
      (S.node h).bend (fun ray s => (builtin S h).transmitted ray c a s) ray s) =
      (pyOps S B R method).transmit := by
    funext h c a ray s
    simp only [LNode.bend, builtin, pyOps]
    cases S.transmitted h c a (ray.representation (S.node h).w2l) <;> rfl
  unfold customOps
  rw [h1, h2, h3]

/-- Whatever the delegates do, the rules of the path laws hold. -/
theorem custom_lawful {S : LScene n} (hS : Sound S) (D : Fin (n + 1) → CustomDelegate n σ) (B : Trimesh)
    {R : Rand σ} (hR : R.Unit) (method : EmitMethod) : Lawful (customOps S D B R method) where
  index_pos := (lawful hS B hR method).index_pos
  depth_nonneg := (lawful hS B hR method).depth_nonneg
  dist_nonneg := (lawful hS B hR method).dist_nonneg
  emit := (lawful hS B hR method).emit
  decay := (lawful hS B hR method).decay
  reflect h c a ray s ray' s' e := by
    rw [customOps_reflect] at e; exact (bend_eq (hS.rigid h) (hS.inverse h) e).1
  transmit h c a ray s ray' s' e := by
    rw [customOps_transmit] at e; exact (bend_eq (hS.rigid h) (hS.inverse h) e).1

/-- The run of the tracer with these delegates. -/
def run (S : LScene n) (D : Fin (n + 1) → CustomDelegate n σ) (B : Trimesh) (R : Rand σ) (method : EmitMethod)
    (maxsteps : ℕ) (maxpath : Option ℝ) (ray : Ray ℝ) (s : σ) : List (Step ℝ) :=
  (stepForward (customOps S D B R method) maxsteps maxpath (maxsteps + 1) ray s).1

/-- **C99** Whatever delegates the surfaces have: between two events the position moves along the
direction by the growth of the path length, the clock grows by the time light needs in the medium, the
wavelength changes only at EMIT, the light's name only at EMIT and SCATTER. -/
theorem only_turned {S : LScene n} (hS : Sound S) (D : Fin (n + 1) → CustomDelegate n σ) (B : Trimesh)
    {R : Rand σ} (hR : R.Unit) (method : EmitMethod) (maxsteps : ℕ) (maxpath : Option ℝ) (ray : Ray ℝ)
    (s : σ) {i : ℕ} {a b : Step ℝ}
    (ha : (run S D B R method maxsteps maxpath ray s)[i]? = some a)
    (hb : (run S D B R method maxsteps maxpath ray s)[i + 1]? = some b) :
    b.ray.position = a.ray.position + (b.ray.travelled - a.ray.travelled) • a.ray.direction ∧
    a.ray.travelled ≤ b.ray.travelled ∧ a.ray.duration ≤ b.ray.duration ∧
    (b.event = .reflect ∨ b.event = .transmit →
      b.ray.wavelength = a.ray.wavelength ∧ b.ray.source = a.ray.source ∧
      ∃ v, b.info.container = some (S.node v).name ∧
        b.ray.duration = a.ray.duration +
          (S.node v).index * (b.ray.travelled - a.ray.travelled) / 29979245800) := by
  have hO := custom_lawful hS D B hR method
  have h1 := Tracer.straight_lines _ hO maxsteps maxpath _ ray s i a b ha hb
  have h2 := Tracer.monotone_clock _ hO maxsteps maxpath _ ray s i (i + 1) (by omega) a b ha hb
  have h3 := Tracer.what_changes _ hO maxsteps maxpath _ ray s i a b ha hb
  obtain ⟨v, d, delay, e1, -, -, e2, e3, -, e4⟩ :=
    Tracer.travelled_duration _ hO maxsteps maxpath _ ray s i a b ha hb
  refine ⟨h1.1, h2.1, h2.2, fun hev => ⟨?_, ?_, v, e1, ?_⟩⟩
  · by_contra h
    have := h3.1 h
    rcases hev with h | h <;> rw [h] at this <;> cases this
  · by_contra h
    have := h3.2.2 h
    rcases hev with h | h <;> rw [h] at this <;> simp at this
  · have hd : delay = 0 := e4 (by rcases hev with h | h <;> simp [h])
    rw [e3, e2, hd]
    show _ = a.ray.duration + (S.node v).index * (a.ray.travelled + d - a.ray.travelled) / 29979245800
    rw [add_zero, add_sub_cancel_left]
    rfl

/-- **C99** A reflectivity that is not a number, or a direction that is not a tuple of length 3, ends the
history with a `ValueError`; no event is reported for that meeting. -/
theorem wrong_answers (S : LScene n) (D : Fin (n + 1) → CustomDelegate n σ) (B : Trimesh) (R : Rand σ)
    (method : EmitMethod) {h : HitInfo (Fin (n + 1)) ℝ} {ray : Ray ℝ} {s : σ} {m : Vec3 ℝ}
    (hm : (customOps S D B R method).normal h.hit
      (ray.propagate h.dist (S.node h.container).index).position = .ok m) :
    let local_ := (ray.propagate h.dist (S.node h.container).index).representation (S.node h.hit).w2l
    (∀ s', (D h.hit).reflectivity local_ h.container h.adjacent s = .ok (.other, s') →
      surfaceBody (customOps S D B R method) h ray s = ([], .raise .valueError)) ∧
    (∀ s' b s'' , (D h.hit).isReflected R local_ h.container h.adjacent s = .ok (true, s') →
      (D h.hit).reflected local_ h.container h.adjacent s' = .ok (b, s'') → (∀ d, b ≠ .triple d) →
      surfaceBody (customOps S D B R method) h ray s = ([], .raise .valueError)) ∧
    (∀ s' b s'' , (D h.hit).isReflected R local_ h.container h.adjacent s = .ok (false, s') →
      (D h.hit).transmitted local_ h.container h.adjacent s' = .ok (b, s'') → (∀ d, b ≠ .triple d) →
      surfaceBody (customOps S D B R method) h ray s = ([], .raise .valueError)) := by
  intro l
  have hix : (customOps S D B R method).refractiveIndex h.container = (S.node h.container).index := rfl
  refine ⟨fun s' e => ?_, fun s' b s'' e1 e2 e3 => ?_, fun s' b s'' e1 e2 e3 => ?_⟩
  · unfold surfaceBody
    dsimp only
    rw [hix, hm]
    have : (customOps S D B R method).isReflected h.hit h.container h.adjacent
        (ray.propagate h.dist (S.node h.container).index) s = .error .valueError := by
      show (D h.hit).isReflected R l h.container h.adjacent s = _
      unfold CustomDelegate.isReflected
      rw [e]
    dsimp only
    rw [this]
  · unfold surfaceBody
    dsimp only
    rw [hix, hm]
    have h1 : (customOps S D B R method).isReflected h.hit h.container h.adjacent
        (ray.propagate h.dist (S.node h.container).index) s = .ok (true, s') := e1
    have h2 : (customOps S D B R method).reflect h.hit h.container h.adjacent
        (ray.propagate h.dist (S.node h.container).index) s' = .error .valueError := by
      rw [customOps_reflect]
      unfold LNode.bend
      dsimp only
      rw [e2]
      cases b with
      | triple d => exact absurd rfl (e3 d)
      | tuple k => rfl
      | other => rfl
    dsimp only
    rw [h1]
    dsimp only
    rw [h2]
  · unfold surfaceBody
    dsimp only
    rw [hix, hm]
    have h1 : (customOps S D B R method).isReflected h.hit h.container h.adjacent
        (ray.propagate h.dist (S.node h.container).index) s = .ok (false, s') := e1
    have h2 : (customOps S D B R method).transmit h.hit h.container h.adjacent
        (ray.propagate h.dist (S.node h.container).index) s' = .error .valueError := by
      rw [customOps_transmit]
      unfold LNode.bend
      dsimp only
      rw [e2]
      cases b with
      | triple d => exact absurd rfl (e3 d)
      | tuple k => rfl
      | other => rfl
    dsimp only
    rw [h1]
    dsimp only
    rw [h2]

/-- **C99** A delegate that answers `r` (and draws no numbers itself) reflects with probability `r`,
clamped to the unit interval, whatever follows in the sequence of numbers. -/
theorem reflects_as_often {D : CustomDelegate n Numbers} {ray : Ray ℝ} {c : Fin (n + 1)}
    {a : Option (Fin (n + 1))} {r : ℝ}
    (hD : ∀ s, D.reflectivity ray c a s = .ok (.number (some r), s)) :
    chance (fun s => ∃ s', D.isReflected reader ray c a s = .ok (true, s')) =
      ENNReal.ofReal (min r 1) := by
  have e : ∀ s : Numbers, (∃ s', D.isReflected reader ray c a s = .ok (true, s')) ↔ s 0 ∈ {u | r ≠ 0 ∧ u < r} ∧ rest s ∈ univ := by
    intro s
    unfold CustomDelegate.isReflected
    rw [hD]
    by_cases h0 : r = 0
    · simp [PV.isReflected, h0]
    · simp only [PV.isReflected, h0, reader_next, if_false]
      constructor
      · rintro ⟨s', e⟩
        simp only [Except.ok.injEq, Prod.mk.injEq, decide_eq_true_eq] at e
        exact ⟨⟨h0, of_decide_eq_true e.1⟩, trivial⟩
      · rintro ⟨⟨_, e⟩, _⟩
        exact ⟨rest s, by simp [e]⟩
  unfold chance
  simp only [e]
  have hm : MeasurableSet {u : ℝ | r ≠ 0 ∧ u < r} := (MeasurableSet.const _).inter measurableSet_Iio
  rw [chance_first _ hm _ MeasurableSet.univ, measure_univ, mul_one]
  rcases le_or_gt r 0 with h | h
  · rw [ENNReal.ofReal_of_nonpos (by rw [min_eq_left (by linarith)]; exact h)]
    rw [uniform, Measure.restrict_apply hm]
    convert measure_empty (μ := volume)
    ext u
    simp only [mem_inter_iff, mem_Ico, mem_empty_iff_false, iff_false]
    rintro ⟨⟨_, h1⟩, h2, _⟩
    linarith
  · have : {u : ℝ | r ≠ 0 ∧ u < r} = {u | u < r} := by
      ext u; simp [h.ne']
    rw [this]
    rcases le_total r 1 with h1 | h1
    · rw [min_eq_left h1, uniform_below h.le h1]
    · rw [min_eq_right h1, ENNReal.ofReal_one]
      refine le_antisymm prob_le_one ?_
      have := uniform_below (c := 1) zero_le_one le_rfl
      rw [ENNReal.ofReal_one] at this
      rw [← this]
      exact measure_mono fun u hu => lt_of_lt_of_le hu h1

/-- The delegate answers unit vectors for unit directions, at points of the surface. -/
def Keeps (g : Geom) (D : CustomDelegate n σ) : Prop :=
  ∀ (ray : Ray ℝ) (c : Fin (n + 1)) (a : Option (Fin (n + 1))) (s s' : σ) (d : Vec3 ℝ),
    ray.direction.dot ray.direction = 1 → OnSurface g ray.position →
    (D.reflected ray c a s = .ok (.triple d, s') ∨
      a.isSome ∧ D.transmitted ray c a s = .ok (.triple d, s')) → d.dot d = 1

theorem pass_keeps {S : LScene n} (hS : Sound S) (hv : ∀ v, Visible (S.node v).geom) {B : Trimesh}
    (hB : TrimeshSound B) {R : Rand σ} {method : EmitMethod} {D : Fin (n + 1) → CustomDelegate n σ}
    (hD : ∀ v, Keeps (S.node v).geom (D v)) {maxsteps : ℕ}
    {maxpath : Option ℝ} {count : ℕ} {ray : Ray ℝ} {s : σ} {es : List (Step ℝ)} {nx : Next ℝ σ}
    (hp : Pass (customOps S D B R method) maxsteps maxpath count ray s es nx)
    (hd : ray.direction.dot ray.direction = 1) :
    (∀ e ∈ es, e.ray.direction.dot e.ray.direction = 1 ∧
      (e.event ∈ [Event.reflect, .transmit, .exit] → ∃ v, e.info.hit = some (S.node v).name ∧
        OnSurface (S.node v).geom ((S.node v).w2l.point e.ray.position))) ∧
    (∀ ray' s', nx = .cont ray' s' → ray'.direction.dot ray'.direction = 1) := by
  have on : ∀ {h}, Sees (customOps S D B R method) ray (some h) → OnSurface (S.node h.hit).geom
      ((S.node h.hit).w2l.point (ray.position + h.dist • ray.direction)) := fun hs =>
    pyTs_on (hS.rigid _) (hS.inverse _) hB (hv _) hd
      (sees_hit (R := R) (method := method) hS.rigid hS.inverse hd hs).1
  cases hp with
  | miss => simp
  | raise => simp
  | kill h hs => simp [hd]
  | exit h hl hr =>
    simp only [List.mem_singleton, forall_eq, reduceCtorEq, IsEmpty.forall_iff, implies_true,
      and_true]
    exact ⟨hd, fun _ => ⟨h.hit, rfl, on hl.sees⟩⟩
  | absorbRaise h d comp s' e hA => simp [Ray.propagate, hd]
  | radiate h d comp s' s'' s''' ray' ev hA hr he hev =>
    have hu : ray'.direction.dot ray'.direction = 1 := by
      simp only [customOps, pyOps] at he
      split at he
      · cases he
      rename_i r1 s1 hem
      simp only [Except.ok.injEq, Prod.mk.injEq] at he
      rw [← he.1]
      simp only [Ray.representation]
      rw [(hS.rigid _).dot_vec]
      unfold Comp.emit at hem
      split at hem
      · cases hem
      rename_i dir s3 hdr
      have hdu := Phase.draw_unit _ hdr
      split_ifs at hem with hk
      · dsimp only at hem
        split at hem
        · cases hem
        split at hem <;>
        · simp only [Except.ok.injEq, Prod.mk.injEq] at hem
          rw [← hem.1]; exact hdu
      · simp only [Except.ok.injEq, Prod.mk.injEq] at hem
        rw [← hem.1]; exact hdu
    refine ⟨?_, ?_⟩
    · intro e he
      simp only [List.mem_cons, List.not_mem_nil, or_false] at he
      rcases he with rfl | rfl
      · exact ⟨hd, by simp⟩
      · refine ⟨hu, fun h => ?_⟩
        rcases hev with ⟨rfl, _⟩ | ⟨rfl, _⟩ <;> simp at h
    · intro r s h
      cases h
      exact hu
  | decay h d comp s' s'' s''' ray' ev hA hr he hev =>
    have hu : ray'.direction = ray.direction := by
      simp only [customOps, pyOps, Except.ok.injEq] at he
      unfold Comp.nonradiativeAbsorb at he
      split at he
      · cases he; rfl
      · cases he; rfl
    refine ⟨?_, by simp⟩
    intro e he
    simp only [List.mem_cons, List.not_mem_nil, or_false] at he
    rcases he with rfl | rfl
    · exact ⟨hd, by simp⟩
    · refine ⟨by simp only [hu, hd], fun h => ?_⟩
      rcases hev with ⟨rfl, _⟩ | ⟨rfl, _⟩ <;> simp at h
  | reflect h m s' s'' s''' ray' hT hrf he =>
    have hs := on hT.live.sees
    rw [customOps_reflect] at he
    obtain ⟨hpos, d, hb, hdir⟩ := bend_eq (hS.rigid h.hit) (hS.inverse h.hit) he
    have hu : ray'.direction.dot ray'.direction = 1 := by
      rw [hdir, (hS.rigid _).dot_vec]
      exact hD h.hit _ _ _ _ _ d (localDir_unit (hS.rigid _) (hS.inverse _) hd) hs (.inl hb)
    refine ⟨?_, ?_⟩
    · intro e he
      simp only [List.mem_singleton] at he
      subst he
      refine ⟨hu, fun _ => ⟨h.hit, rfl, ?_⟩⟩
      rw [hpos]
      exact hs
    · intro r s h
      cases h
      exact hu
  | transmit h m s' s'' s''' ray' hT hadj hrf he =>
    have hs := on hT.live.sees
    rw [customOps_transmit] at he
    obtain ⟨hpos, d, hb, hdir⟩ := bend_eq (hS.rigid h.hit) (hS.inverse h.hit) he
    have hu : ray'.direction.dot ray'.direction = 1 := by
      rw [hdir, (hS.rigid _).dot_vec]
      exact hD h.hit _ _ _ _ _ d (localDir_unit (hS.rigid _) (hS.inverse _) hd) hs (.inr ⟨hadj, hb⟩)
    refine ⟨?_, ?_⟩
    · intro e he
      simp only [List.mem_singleton] at he
      subst he
      refine ⟨hu, fun _ => ⟨h.hit, rfl, ?_⟩⟩
      rw [hpos]
      exact hs
    · intro r s h
      cases h
      exact hu

/-- **C99** With delegates that answer unit vectors, every direction of a history is a unit vector and
every REFLECT, TRANSMIT and EXIT happens on the surface of the object it names. -/
theorem on_surface_partial {S : LScene n} (hS : Sound S) (hv : ∀ v, Visible (S.node v).geom) {B : Trimesh}
    (hB : TrimeshSound B) {R : Rand σ} {method : EmitMethod} {D : Fin (n + 1) → CustomDelegate n σ}
    (hD : ∀ v, Keeps (S.node v).geom (D v)) {maxsteps : ℕ} {maxpath : Option ℝ} {ray : Ray ℝ} {s : σ}
    (hd : ray.direction.dot ray.direction = 1) {e : Step ℝ}
    (he : e ∈ run S D B R method maxsteps maxpath ray s) :
    e.ray.direction.dot e.ray.direction = 1 ∧
      (e.event ∈ [Event.reflect, .transmit, .exit] → ∃ v, e.info.hit = some (S.node v).name ∧
        OnSurface (S.node v).geom ((S.node v).w2l.point e.ray.position)) := by
  unfold run stepForward at he
  simp only [List.mem_cons] at he
  rcases he with rfl | he
  · exact ⟨hd, by simp⟩
  · exact loop_induct (customOps S D B R method) maxsteps maxpath
      (fun _ _ ray es _ => ray.direction.dot ray.direction = 1 → ∀ e ∈ es,
        e.ray.direction.dot e.ray.direction = 1 ∧
        (e.event ∈ [Event.reflect, .transmit, .exit] → ∃ v, e.info.hit = some (S.node v).name ∧
          OnSurface (S.node v).geom ((S.node v).w2l.point e.ray.position)))
      (by simp)
      (fun _ _ _ _ _ hp hd => (pass_keeps hS hv hB hD hp hd).1)
      (fun _ _ _ _ _ _ hp hd => (pass_keeps hS hv hB hD hp hd).1)
      (fun _ _ _ _ _ _ _ _ _ hp ih hd e he => by
        rcases List.mem_append.1 he with he | he
        · exact (pass_keeps hS hv hB hD hp hd).1 e he
        · exact ih ((pass_keeps hS hv hB hD hp hd).2 _ _ rfl) e he)
      (maxsteps + 1) 0 ray s hd e he

/-! ### The delegates of the library and of the LSC -/

theorem builtin_keeps {S : LScene n} (hS : Sound S) (h : Fin (n + 1)) (hv : Visible (S.node h).geom) :
    Keeps (σ := σ) (S.node h).geom (builtin S h) := by
  intro ray c a s s' d hd hp hh
  rcases hh with hh | ⟨ha, hh⟩
  · simp only [builtin, LScene.reflected] at hh
    cases hsf : (S.node h).surface with
    | null => rw [hsf] at hh; cases hh
    | fresnel =>
      rw [hsf] at hh
      cases hn : pyNormal (S.node h).geom ray.position with
      | error e => simp only [hn] at hh; cases hh
      | ok m =>
        simp only [hn, Except.ok.injEq, Prod.mk.injEq, Bearing.triple.injEq] at hh
        rw [← hh.1, (Optics.reflection (pyNormal_unit hv hp hn)).1]
        exact hd
  · simp only [builtin, LScene.transmitted] at hh
    cases hsf : (S.node h).surface with
    | null =>
      rw [hsf] at hh
      simp only [Except.ok.injEq, Prod.mk.injEq, Bearing.triple.injEq] at hh
      rw [← hh.1]; exact hd
    | fresnel =>
      obtain ⟨a', ha'⟩ := Option.isSome_iff_exists.1 ha
      rw [hsf, ha'] at hh
      cases hn : pyNormal (S.node h).geom ray.position with
      | error e => simp only [hn] at hh; cases hh
      | ok m =>
        cases ht : pyTransmit m ray.direction (S.node c).index (S.node a').index with
        | none => simp only [hn, ht] at hh; cases hh
        | some t =>
          simp only [hn, ht, Except.ok.injEq, Prod.mk.injEq, Bearing.triple.injEq] at hh
          rw [← hh.1]
          exact transmit_unit (hS.index_pos a') hd (pyNormal_unit hv hp hn) ht

/-- The surface of the LSC plate answers unit vectors. -/
theorem cell_keeps {S : LScene n} (hS : Sound S) (h : Fin (n + 1)) (hv : Visible (S.node h).geom)
    (cells : Finset Lsc.Facet) (mirror : Bool) :
    Keeps (σ := σ) (S.node h).geom (cellDelegate S h cells mirror) := by
  intro ray c a s s' d hd hp hh
  rcases hh with hh | ⟨ha, hh⟩
  · simp only [cellDelegate] at hh
    cases hn : pyNormal (S.node h).geom ray.position with
    | error e => simp only [hn] at hh; cases hh
    | ok m =>
      simp only [hn, Except.ok.injEq, Prod.mk.injEq, Bearing.triple.injEq] at hh
      rw [← hh.1, (Optics.reflection (pyNormal_unit hv hp hn)).1]
      exact hd
  · obtain ⟨a', rfl⟩ := Option.isSome_iff_exists.1 ha
    simp only [cellDelegate] at hh
    cases hn : pyNormal (S.node h).geom ray.position with
    | error e => simp only [hn] at hh; cases hh
    | ok m =>
      simp only [hn, Lsc.transmitted] at hh
      split_ifs at hh with hc
      · simp only [Except.ok.injEq, Prod.mk.injEq, Bearing.triple.injEq] at hh
        rw [← hh.1]; exact hd
      · cases ht : pyTransmit m ray.direction (S.node c).index (S.node a').index with
        | none => simp only [ht] at hh; cases hh
        | some t =>
          simp only [ht, Except.ok.injEq, Prod.mk.injEq, Bearing.triple.injEq] at hh
          rw [← hh.1]
          exact transmit_unit (hS.index_pos a') hd (pyNormal_unit hv hp hn) ht

/-- The mirror behind the LSC answers unit vectors. -/
theorem gap_keeps {S : LScene n} (hS : Sound S) (h : Fin (n + 1)) (hv : Visible (S.node h).geom)
    (R : Rand σ) (diffuse : Bool) :
    Keeps (S.node h).geom (gapDelegate S R h diffuse) := by
  intro ray c a s s' d hd hp hh
  rcases hh with hh | ⟨ha, hh⟩
  · cases a with
    | none => cases hh
    | some a =>
      simp only [gapDelegate] at hh
      cases hn : pyNormal (S.node h).geom ray.position with
      | error e => simp only [hn] at hh; cases hh
      | ok m =>
        simp only [hn, Lsc.airGapReflected] at hh
        cases diffuse with
        | false =>
          simp only [Bool.false_eq_true, not_false_eq_true, if_true] at hh
          cases ht : pyTransmit m ray.direction (S.node c).index (S.node a).index with
          | none => simp only [ht] at hh; cases hh
          | some t =>
            simp only [ht, Except.ok.injEq, Prod.mk.injEq, Bearing.triple.injEq] at hh
            rw [← hh.1]
            exact transmit_unit (hS.index_pos a) hd (pyNormal_unit hv hp hn) ht
        | true =>
          simp only [not_true_eq_false, if_false] at hh
          split_ifs at hh with hc
          simp only [Except.ok.injEq, Prod.mk.injEq, Bearing.triple.injEq] at hh
          rw [← hh.1]
          simp only [lambertian]
          exact Phase.spherical_unit _ _
  · exact builtin_keeps hS h hv ray c a s s' d hd hp (.inr ⟨ha, hh⟩)

/-- **C99**, a facet of a concentrator that carries neither cell nor mirror is an ordinary surface: the
delegate answers what the library's own delegate answers. -/
theorem bare_facet {S : LScene n} {h : Fin (n + 1)} (hf : (S.node h).surface = .fresnel)
    {cells : Finset Lsc.Facet} {ray : Ray ℝ} {m : Vec3 ℝ}
    (hm : pyNormal (S.node h).geom ray.position = .ok m) (hc : Lsc.cellAt cells m = none)
    (c : Fin (n + 1)) (a : Option (Fin (n + 1))) (s : σ) :
    (cellDelegate S h cells false).reflectivity ray c a s = (builtin S h).reflectivity ray c a s ∧
    (cellDelegate S h cells false).reflected ray c a s = (builtin S h).reflected ray c a s ∧
    (cellDelegate S h cells false).transmitted ray c a s = (builtin S h).transmitted ray c a s := by
  have hr : ∀ x y, Lsc.reflectivity cells false m ray.direction x y = pyReflectivity m ray.direction x y := by
    intro x y
    simp [Lsc.reflectivity, hc]
  have ht : ∀ x y, Lsc.transmitted cells m ray.direction x y = pyTransmit m ray.direction x y := by
    intro x y
    simp [Lsc.transmitted, hc]
  cases a with
  | none =>
    refine ⟨?_, ?_, ?_⟩ <;>
      simp [cellDelegate, builtin, LScene.reflectivity, LScene.reflected, LScene.transmitted, hf, hm]
  | some a =>
    refine ⟨?_, ?_, ?_⟩
    · simp [cellDelegate, builtin, LScene.reflectivity, hf, hm, hr]
    · simp [cellDelegate, builtin, LScene.reflected, hf, hm]
    · simp only [cellDelegate, builtin, LScene.transmitted, hf, hm, ht]
      cases pyTransmit m ray.direction (S.node c).index (S.node a).index <;> rfl

/-- **C99**, the mirror behind an air gap sends back every ray that meets it, using up one number, and the
diffuse one uses up the numbers of its direction. -/
theorem gap_sends_back (S : LScene n) {R : Rand σ} (hR : R.Unit) (h : Fin (n + 1)) (diffuse : Bool)
    (ray : Ray ℝ) (c : Fin (n + 1)) (a : Option (Fin (n + 1))) (s : σ) :
    (gapDelegate S R h diffuse).isReflected R ray c a s = .ok (true, (R.next s).2) ∧
    ∀ b s', (gapDelegate S R h diffuse).reflected ray c a s = .ok (b, s') →
      s' = if diffuse then (lambertian R s).2 else s := by
  constructor
  · simp only [CustomDelegate.isReflected, gapDelegate, PV.isReflected]
    have := (hR s).2
    simp [this]
  · intro b s' hb
    unfold gapDelegate at hb
    dsimp only at hb
    split at hb
    · cases hb
    · split at hb
      · cases hb
      · split at hb
        · cases hb
        · cases hb
        · cases hb; rfl

/-- A cell on the right; the ray is on the left. -/
example (c : Fin 2) (a : Option (Fin 2)) (s : ℕ) :
    (cellDelegate ballScene 0 {.right} false).reflectivity ⟨⟨-10, 0, 0⟩, ⟨1, 0, 0⟩, 555, 0, 0, none⟩ c a s =
      (builtin ballScene 0).reflectivity ⟨⟨-10, 0, 0⟩, ⟨1, 0, 0⟩, 555, 0, 0, none⟩ c a s :=
  (bare_facet (m := ⟨-1, 0, 0⟩) (by simp [ballScene])
    (by
      have h : √(100 : ℝ) = 10 := by
        rw [show (100 : ℝ) = 10 ^ 2 by norm_num]
        exact Real.sqrt_sq (by norm_num)
      norm_num [ballScene, pyNormal, Vec3.dot, h])
    (by
      have h : ¬ Lsc.Facet.left = .right := by decide
      norm_num [Lsc.cellAt, allclose, h]) c a s).1

/-! ### Directions of another length -/

/-- A mirror that answers a vector of length two. -/
def longMirror : CustomDelegate 1 Unit where
  reflectivity _ _ _ s := .ok (.number (some 1), s)
  reflected _ _ _ s := .ok (.triple ⟨-2, 0, 0⟩, s)
  transmitted ray _ _ s := .ok (.triple ray.direction, s)

def mirrored (v : Fin 2) : CustomDelegate 1 Unit := if v = 0 then builtin ballScene 0 else longMirror

/-- The ray after the mirror, and where it leaves. -/
def backRay : Ray ℝ := ⟨⟨-1, 0, 0⟩, ⟨-2, 0, 0⟩, 555, 4, 4 / lightSpeed, some "lamp"⟩

theorem back_ball : (ballScene.node 1).pyTs noBoxes ⟨-1, 0, 0⟩ ⟨-2, 0, 0⟩ = [0] := by
  have h : (ballScene.node 1).geom = .sphere 1 := rfl
  unfold LNode.pyTs
  rw [ball_origin, ball_dir, h]
  show pySphere 1 ⟨-1, 0, 0⟩ ⟨-2, 0, 0⟩ = _
  have hs : Real.sqrt 16 = 4 := by rw [show (16 : ℝ) = 4 ^ 2 by norm_num, Real.sqrt_sq (by norm_num)]
  norm_num [pySphere, Vec3.dot, sortedBy, hs, List.orderedInsert]

theorem back_world : (ballScene.node 0).pyTs noBoxes ⟨-1, 0, 0⟩ ⟨-2, 0, 0⟩ = [9 / 2] := by
  have h : (ballScene.node 0).geom = .sphere 10 := rfl
  unfold LNode.pyTs
  rw [ball_origin, ball_dir, h]
  show pySphere 10 ⟨-1, 0, 0⟩ ⟨-2, 0, 0⟩ = _
  have hs : Real.sqrt 1600 = 40 := by rw [show (1600 : ℝ) = 40 ^ 2 by norm_num, Real.sqrt_sq (by norm_num)]
  norm_num [pySphere, Vec3.dot, sortedBy, hs, List.orderedInsert]

theorem back_inters : ballScene.intersections noBoxes ⟨-1, 0, 0⟩ ⟨-2, 0, 0⟩ =
    [⟨0, ⟨-10, 0, 0⟩, 9⟩] := by
  unfold LScene.intersections
  have hf : List.finRange 2 = [0, 1] := rfl
  simp only [hf, List.flatMap_cons, List.flatMap_nil, back_ball, back_world,
    List.map_cons, List.map_nil, List.append_nil]
  have e0 : (ballScene.node 0).inter (0 : Fin 2) ⟨-1, 0, 0⟩ ⟨-2, 0, 0⟩ (9 / 2) = ⟨0, ⟨-10, 0, 0⟩, 9⟩ := by
    unfold LNode.inter
    simp only [ball_origin, ball_dir, (ball_w2l _ _).2.2.1, distanceBetween, Vec3.norm]
    have : Real.sqrt 81 = 9 := by rw [show (81 : ℝ) = 9 ^ 2 by norm_num, Real.sqrt_sq (by norm_num)]
    congr 1
    · norm_num [Vec3.ext_iff]
    · norm_num [Vec3.dot, this]
  have e1 : ((ballScene.node 1).inter (1 : Fin 2) ⟨-1, 0, 0⟩ ⟨-2, 0, 0⟩ 0).point = ⟨-1, 0, 0⟩ := by
    unfold LNode.inter
    simp only [ball_origin, ball_dir, (ball_w2l _ _).2.2.1]
    norm_num [Vec3.ext_iff]
  rw [e0]
  rw [List.cons_append, List.nil_append,
    List.filter_cons_of_pos (by norm_num [Vec3.dot, epsZero]),
    List.filter_cons_of_neg (by rw [e1]; norm_num [Vec3.dot, epsZero]), List.filter_nil]
  simp [sortedBy]

/-- Where the ray ends: nine tenths of the world's diameter outside of it. -/
def goneRay : Ray ℝ := backRay.propagate 9 1

theorem mirror_pass : body (customOps ballScene mirrored noBoxes halves .kT) 10 none (0 + 1) lampRay () =
    ([⟨backRay, .reflect, ⟨some "ball", some "world", some "ball", none, some ⟨-1, 0, 0⟩⟩⟩],
      .cont backRay ()) := by
  have hprop : lampRay.propagate 4 1 = innerRay := by
    norm_num [Ray.propagate, lampRay, innerRay, Vec3.ext_iff]
  unfold body
  have hi : (customOps ballScene mirrored noBoxes halves .kT).intersections lampRay.position lampRay.direction =
    .ok (ballScene.intersections noBoxes lampRay.position lampRay.direction) := rfl
  rw [hi]
  dsimp only
  have hn := lamp_hit
  change nextHit (customOps ballScene mirrored noBoxes halves .kT).eps
    ((customOps ballScene mirrored noBoxes halves .kT).distBetween lampRay.position) _ = _ at hn
  rw [hn]
  dsimp only
  rw [if_neg (by simp [beyond]), if_neg (show ¬ (1 : Fin 2) = (customOps ballScene mirrored noBoxes halves .kT).root from by
    show ¬ (1 : Fin 2) = 0
    decide)]
  have hdep : (customOps ballScene mirrored noBoxes halves .kT).penetrationDepth 0 lampRay.wavelength () =
      .ok (none, ()) := by
    have h0 : coefficients (ballScene.node 0).comps 555 = .ok [] := rfl
    show penetrationDepth halves (ballScene.node 0).comps 555 () = _
    unfold penetrationDepth
    rw [h0]
    norm_num
  rw [hdep]
  dsimp only [isAbsorbed]
  unfold surfaceBody
  have hix : (customOps ballScene mirrored noBoxes halves .kT).refractiveIndex 0 = 1 := rfl
  dsimp only
  rw [hix, hprop]
  have hnm : (customOps ballScene mirrored noBoxes halves .kT).normal 1 innerRay.position = .ok ⟨-1, 0, 0⟩ := by
    simp only [customOps, pyOps, (ball_w2l _ _).1, (ball_w2l _ _).2.2.2]
    simp [ballScene, pyNormal, innerRay, Vec3.dot]
  rw [hnm]
  dsimp only
  have hre : (customOps ballScene mirrored noBoxes halves .kT).isReflected 1 0 (some 1) innerRay () =
      .ok (true, ()) := by
    show (mirrored 1).isReflected halves (innerRay.representation (ballScene.node 1).w2l) 0 (some 1) () = _
    have : (1 / 2 : ℝ) < 1 := by norm_num
    simp [mirrored, longMirror, CustomDelegate.isReflected, PV.isReflected, halves]
    norm_num
  rw [hre]
  dsimp only
  have htr : (customOps ballScene mirrored noBoxes halves .kT).reflect 1 0 (some 1) innerRay () =
      .ok (backRay, ()) := by
    rw [customOps_reflect]
    simp only [LNode.bend, LNode.turn, mirrored, longMirror, if_neg (show ¬ (1 : Fin 2) = 0 by decide), Bearing.check]
    simp [Ray.representation, (ball_w2l _ _).1, (ball_w2l _ _).2.1, (ball_w2l _ _).2.2.1,
      (ball_w2l _ _).2.2.2, innerRay, backRay]
  rw [htr]
  rfl

theorem gone_pass : body (customOps ballScene mirrored noBoxes halves .kT) 10 none (1 + 1) backRay () =
    ([⟨goneRay, .exit, ⟨some "world", some "world", none, none, none⟩⟩], .stop) := by
  unfold body
  have hi : (customOps ballScene mirrored noBoxes halves .kT).intersections backRay.position backRay.direction =
    .ok (ballScene.intersections noBoxes ⟨-1, 0, 0⟩ ⟨-2, 0, 0⟩) := rfl
  rw [hi, back_inters]
  dsimp only
  have hn : nextHit (customOps ballScene mirrored noBoxes halves .kT).eps
      ((customOps ballScene mirrored noBoxes halves .kT).distBetween backRay.position)
      [(⟨0, ⟨-10, 0, 0⟩, 9⟩ : Inter (Fin 2) ℝ)] = .ok (some ⟨0, 0, none, ⟨-10, 0, 0⟩, 9⟩) := by
    show nextHit epsZero _ _ = _
    unfold nextHit
    rw [List.filter_cons_of_pos (by norm_num [epsZero]), List.filter_nil]
  rw [hn]
  dsimp only
  rw [if_neg (by simp [beyond]),
    if_pos (show (0 : Fin 2) = (customOps ballScene mirrored noBoxes halves .kT).root from rfl)]
  rfl

/-- **C99** fails for delegates that answer vectors of another length: they are used as they are. A
mirror that answers `(-2, 0, 0)` sends the ray twice as far as the distance to the next surface; the
ray "leaves" the world, a sphere of radius 10, at a distance of 19 from its centre, and its path length of
13 is not the way of 22 from event to event. -/
theorem long_direction_overshoots :
    ∃ last : Step ℝ, (run ballScene mirrored noBoxes halves .kT 10 none lampRay ()).getLast? = some last ∧
      last.event = .exit ∧ last.info.hit = some "world" ∧ (ballScene.node 0).geom = .sphere 10 ∧
      last.ray.position = ⟨-19, 0, 0⟩ ∧ last.ray.travelled = 13 := by
  refine ⟨⟨goneRay, .exit, ⟨some "world", some "world", none, none, none⟩⟩, ?_, rfl, rfl, rfl, ?_, ?_⟩
  · unfold run stepForward loop
    rw [mirror_pass]
    dsimp only
    unfold loop
    rw [gone_pass]
    rfl
  · norm_num [goneRay, backRay, Ray.propagate, Vec3.ext_iff]
  · norm_num [goneRay, backRay, Ray.propagate]

/-! ### The hypotheses are met -/

/-- A mirror that sends rays straight back, half of the time. -/
def halfMirror : CustomDelegate 1 σ where
  reflectivity _ _ _ s := .ok (.number (some 0.5), s)
  reflected ray _ _ s := .ok (.triple (-ray.direction), s)
  transmitted ray _ _ s := .ok (.triple ray.direction, s)

theorem half_keeps (g : Geom) : Keeps (σ := σ) g halfMirror := by
  intro ray c a s s' d hd _ hh
  rcases hh with hh | ⟨_, hh⟩ <;>
  · simp only [halfMirror, Except.ok.injEq, Prod.mk.injEq, Bearing.triple.injEq] at hh
    rw [← hh.1]
    first | exact hd | (rw [Vec3.neg_dot, Vec3.dot_neg, neg_neg]; exact hd)

example (ray : Ray ℝ) (c : Fin 2) (a : Option (Fin 2)) :
    chance (fun s => ∃ s', halfMirror.isReflected reader ray c a s = .ok (true, s')) = ENNReal.ofReal 0.5 := by
  rw [reflects_as_often (r := 0.5) (fun _ => rfl)]
  norm_num

/-- A delegate that answers a list of two numbers instead of a direction. -/
def flatMirror : CustomDelegate 1 Unit where
  reflectivity _ _ _ s := .ok (.number (some 1), s)
  reflected _ _ _ s := .ok (.tuple 2, s)
  transmitted ray _ _ s := .ok (.triple ray.direction, s)

example : surfaceBody (customOps ballScene (fun _ => flatMirror) noBoxes halves .kT)
    ⟨1, 0, some 1, ⟨-1, 0, 0⟩, 4⟩ lampRay () = ([], .raise .valueError) := by
  have hprop : lampRay.propagate 4 (ballScene.node 0).index = innerRay := by
    norm_num [Ray.propagate, lampRay, innerRay, Vec3.ext_iff, ballScene]
  refine (wrong_answers ballScene (fun _ => flatMirror) noBoxes halves .kT (m := ⟨-1, 0, 0⟩) ?_).2.1
    () (.tuple 2) () ?_ rfl (fun d => by simp)
  · show (customOps ballScene (fun _ => flatMirror) noBoxes halves .kT).normal 1
      (lampRay.propagate 4 (ballScene.node 0).index).position = _
    rw [hprop]
    simp only [customOps, pyOps, (ball_w2l _ _).1, (ball_w2l _ _).2.2.2]
    simp [ballScene, pyNormal, innerRay, Vec3.dot]
  · simp [flatMirror, CustomDelegate.isReflected, PV.isReflected, halves]
    norm_num

/-- A history with the half mirror around the ball. -/
example (maxsteps : ℕ) (e : Step ℝ)
    (he : e ∈ run ballScene (fun _ => halfMirror) noBoxes halves .kT maxsteps none lampRay ()) :
    e.ray.direction.dot e.ray.direction = 1 :=
  (on_surface_partial ball_supported.toSound (fun v => by by_cases h : v = 0 <;> norm_num [ballScene, h, Visible])
    (fun _ _ _ _ _ h => by cases h) (fun v => half_keeps _)
    (by norm_num [lampRay, Vec3.dot]) he).1

end
end PV.Custom
