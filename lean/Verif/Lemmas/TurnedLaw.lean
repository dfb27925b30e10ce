import Verif.Lemmas.TurnedTrace
import Verif.Spec.Agreement

/-!
Turned re-emission does not change the law of what the engine writes.
-/

namespace PV.Turned
open MeasureTheory Set PV.Spec PV.Sphere Measured EngineThinning
open scoped ENNReal
noncomputable section
variable {n : ℕ} {σ : Type}

/-- Chances are equal if they are whatever was read. -/
theorem same {β : Type} {f : Numbers → β × Numbers} (hf : TFair f) {A B : β → Numbers → Prop}
    (hA : MeasurableSet {s | A (f s).1 (f s).2}) (hB : MeasurableSet {s | B (f s).1 (f s).2})
    (h : ∀ b, (∃ s, (f s).1 = b) → MeasurableSet {t | A b t} → MeasurableSet {t | B b t} →
      independent {t | A b t} = independent {t | B b t}) :
    independent {s | A (f s).1 (f s).2} = independent {s | B (f s).1 (f s).2} := by
  have h1 := TFair.compare hf (c := 1) (d := 1) hA hB fun b hb a1 a2 => by rw [h b hb a1 a2]
  have h2 := TFair.compare hf (c := 1) (d := 1) hB hA fun b hb a1 a2 => by rw [h b hb a2 a1]
  rw [one_mul, one_mul] at h1 h2
  exact le_antisymm h1 h2

theorem out_const {X : Type} [MeasurableSpace X] (o : KOut ℝ (Fin (n + 1)) Comp) : basic fun _ : X => o := by
  have hn : ∀ nrm : Option (Vec3 ℝ), basic fun _ : X => nrm := by
    intro nrm
    rcases nrm with _ | d
    · exact .inl rfl
    · exact .inr ⟨_, vec_const d, rfl⟩
  cases o with
  | record r =>
    exact .inl ⟨fun _ => r, ⟨r.kind, r.hit, r.container, r.adjacent, r.component, fun _ => r.ray, fun _ => r.normal,
      ⟨_, _, _, _, _, _, vec_const r.ray.position, vec_const r.ray.direction, measurable_const, measurable_const, measurable_const, rfl⟩,
      hn _, rfl⟩, rfl⟩
  | tally c =>
    exact .inr ⟨fun _ => c, ⟨c.sel, c.node, fun _ => c.normal, fun _ => c.values, hn _,
      ⟨_, _, _, _, _, measurable_const, measurable_const, measurable_const, measurable_const, vec_const c.values.position, rfl⟩, rfl⟩, rfl⟩

theorem Decides.prefix {E : List (KOut ℝ (Fin (n + 1)) Comp) → Prop} (hE : Decides E) (L : List (KOut ℝ (Fin (n + 1)) Comp)) :
    Decides fun l => E (L ++ l) := by
  rintro X _ G ⟨M, hM, rfl⟩
  refine hE X (fun x => L ++ M.map fun f => f x) ⟨(L.map fun o _ => o) ++ M, ?_, ?_⟩
  · intro f hf
    rcases List.mem_append.1 hf with h | h
    · obtain ⟨o, -, rfl⟩ := List.mem_map.1 h
      exact out_const o
    · exact hM f h
  · funext x
    simp [Function.comp_def]

theorem after_surface (K : KOps ℝ (Fin (n + 1)) Comp σ) (h v a : Fin (n + 1)) (ray : KRay ℝ Comp) (t0 : ℝ) :
    ∃ L1 r1 L2 r2, ∀ (T : KRay ℝ Comp → σ → List (KOut ℝ (Fin (n + 1)) Comp)) (s : σ),
      let r := ray.advance t0 (K.nidx v)
      let y := K.reflects h v a (K.normal h r.position) r.direction s
      after (kSurface K h v (some a) ray t0 s) T = if y.1 = true then L1 ++ T r1 y.2 else L2 ++ T r2 y.2 := by
  obtain ⟨K1, K2, K3, K4, K5, K6, K7, K8, K9, K10, K11, K12, K13, K14, K15, K16, K17⟩ := K
  apply Exists.intro
  apply Exists.intro
  apply Exists.intro
  apply Exists.intro
  intro T s
  unfold kSurface
  dsimp only
  obtain ⟨b, t, hy⟩ : ∃ b t, K15 h v a (K13 h (ray.advance t0 (K3 v)).position) (ray.advance t0 (K3 v)).direction s = (b, t) := ⟨_, _, rfl⟩
  simp only [hy]
  cases b
  · simp only [Bool.false_eq_true, if_false, after]
    rfl
  · simp only [if_true, after]
    rfl

variable (S : LScene n) (method : EmitMethod) (maxsteps : ℕ)

theorem picked {v : Fin (n + 1)} {w : ℝ} {s t : Numbers} {c : Comp} (h1 : ((kOps S reader method).depth v w s).1.isSome)
    (h2 : ((kOps S reader method).pick v w t).1 = c) : c ∈ (S.node v).comps := by
  have hne : (S.node v).kCoefs w ≠ [] := by
    intro h0
    have : (kDepth reader ((S.node v).kCoefs w).sum s).1.isSome := h1
    rw [h0] at this
    unfold kDepth at this
    rw [List.sum_nil, if_neg (by norm_num)] at this
    cases this
  have hlt := Compile.kPick_lt (reader.next t).1 hne
  have hlen : ((S.node v).kCoefs w).length = (S.node v).comps.length := by simp [LNode.kCoefs]
  rw [hlen] at hlt
  have h2 : ((S.node v).comps[kPick ((S.node v).kCoefs w) (reader.next t).1]?).getD noComp = c := h2
  rw [List.getElem?_eq_getElem hlt, Option.getD_some] at h2
  rw [← h2]
  exact List.getElem_mem hlt

/-- The same chances for everything that follows. -/
def Same (T1 T2 : KRay ℝ Comp → Numbers → List (KOut ℝ (Fin (n + 1)) Comp)) : Prop :=
  ∀ E : List (KOut ℝ (Fin (n + 1)) Comp) → Prop, Decides E → ∀ ray, independent {s | E (T1 ray s)} = independent {s | E (T2 ray s)}

variable {S method maxsteps}
variable {T1 T2 : KRay ℝ Comp → Numbers → List (KOut ℝ (Fin (n + 1)) Comp)} {E : List (KOut ℝ (Fin (n + 1)) Comp) → Prop}

theorem lit_same (h1 : TameRest T1) (h2 : TameRest T2) (h : Same T1 T2) (hE : Decides E) (v : Fin (n + 1)) (c : Comp) (r : KRay ℝ Comp)
    (dir : Vec3 ℝ) : independent {t | E (lit (kOps S reader method) v c r T1 dir t)} =
      independent {t | E (lit (kOps S reader method) v c r T2 dir t)} := by
  have m : ∀ {T : KRay ℝ Comp → Numbers → List (KOut ℝ (Fin (n + 1)) Comp)}, TameRest T →
      MeasurableSet {t | E (lit (kOps S reader method) v c r T dir t)} := fun hT =>
    hE.set (lit_tame S method hT v c (EngineReemission.kray_basic r) (vec_const dir) measurable_id)
  have hA := m h1
  have hB := m h2
  clear m
  unfold lit at hA hB ⊢
  by_cases hl : (kOps S reader method).kind c = .luminophore
  · simp only [hl, if_true] at hA hB ⊢
    let N (T : KRay ℝ Comp → Numbers → List (KOut ℝ (Fin (n + 1)) Comp)) (w x : ℝ) (s : Numbers) : Prop :=
      let r' : KRay ℝ Comp := { r with direction := dir, source := some c, wavelength := w, duration := r.duration + x }
      E ([.record ⟨.absorb, none, some v, none, some c, r, none⟩, .record ⟨.emit, none, some v, none, some c, r', none⟩] ++ T r' s)
    refine same ((EngineReemission.engine_fair S method).emission c r.wavelength)
      (A := fun w t => N T1 w ((kOps S reader method).radDelay c t).1 ((kOps S reader method).radDelay c t).2)
      (B := fun w t => N T2 w ((kOps S reader method).radDelay c t).1 ((kOps S reader method).radDelay c t).2) hA hB ?_
    intro w _ hA hB
    refine same ((EngineReemission.engine_fair S method).delay c) (A := fun x t => N T1 w x t) (B := fun x t => N T2 w x t) hA hB ?_
    intro x _ _ _
    exact h _ (hE.prefix _) _
  · simp only [hl, if_false] at hA hB ⊢
    exact h _ (hE.prefix _) _

theorem chosen_same (h1 : TameRest T1) (h2 : TameRest T2) (h : Same T1 T2) (hE : Decides E) (m : Affine ℝ) (v : Fin (n + 1)) (c : Comp)
    (r : KRay ℝ Comp) (hi : Library.Reemits c → Indifferent m ((kOps S reader method).phase c)) :
    independent {t | E (chosen (turnedOps m (kOps S reader method)) v c r T1 t)} =
      independent {t | E (chosen (kOps S reader method) v c r T2 t)} := by
  have idm : turnedOps ⟨⟨1, 0, 0⟩, ⟨0, 1, 0⟩, ⟨0, 0, 1⟩, ⟨0, 0, 0⟩⟩ (kOps S reader method) = kOps S reader method := by
    unfold turnedOps
    congr 1
    funext c s
    refine Prod.ext ?_ rfl
    have e : ∀ u : Vec3 ℝ, Affine.vec ⟨⟨1, 0, 0⟩, ⟨0, 1, 0⟩, ⟨0, 0, 1⟩, ⟨0, 0, 0⟩⟩ u = u := by
      intro u
      ext <;> simp [Affine.vec, Vec3.dot]
    exact e _
  have hA : MeasurableSet {t | E (chosen (turnedOps m (kOps S reader method)) v c r T1 t)} :=
    hE.set (chosen_tame S method h1 m v c (EngineReemission.kray_basic r) measurable_id)
  have hB : MeasurableSet {t | E (chosen (kOps S reader method) v c r T2 t)} := by
    have := hE.set (chosen_tame S method h2 ⟨⟨1, 0, 0⟩, ⟨0, 1, 0⟩, ⟨0, 0, 1⟩, ⟨0, 0, 0⟩⟩ v c (EngineReemission.kray_basic r) measurable_id)
    rw [idm] at this
    exact this
  unfold chosen at hA hB ⊢
  rw [lit_turned, dark_turned] at hA ⊢
  by_cases hk : Library.Reemits c
  · have k1 : (turnedOps m (kOps S reader method)).kind c = .scatterer ∨ (turnedOps m (kOps S reader method)).kind c = .luminophore := hk
    have k2 : (kOps S reader method).kind c = .scatterer ∨ (kOps S reader method).kind c = .luminophore := hk
    simp only [k1, k2, if_true] at hA hB ⊢
    have hy : TFair ((kOps S reader method).yields c) := EngineReemission.tfair_of
      (by unfold kOps; dsimp only; read_draw; exact Reads.ok _) (below_tame c.qy measurable_id)
    refine same hy (A := fun b t => E (if b = true then lit (kOps S reader method) v c r T1 (m.vec ((kOps S reader method).phase c t).1)
        ((kOps S reader method).phase c t).2 else dark (kOps S reader method) v c r t))
      (B := fun b t => E (if b = true then lit (kOps S reader method) v c r T2 ((kOps S reader method).phase c t).1
        ((kOps S reader method).phase c t).2 else dark (kOps S reader method) v c r t)) hA hB ?_
    intro b _ hA hB
    cases b
    · rfl
    · simp only [if_true] at hA hB ⊢
      have hQ : Joint fun d t => E (lit (kOps S reader method) v c r T1 d t) := by
        refine hE.set (lit_tame (X := (ℝ × ℝ × ℝ) × Numbers) (ray := fun _ => r) (s := fun p => p.2) (dir := fun p => toVec p.1) S method h1 v c
          ⟨_, _, _, _, _, _, vec_const r.position, vec_const r.direction, measurable_const, measurable_const, measurable_const, rfl⟩
          ⟨fun p => p.1.2.1, fun p => p.1.2.2, fun p => p.1.1, ?_, ?_, ?_, rfl⟩ measurable_snd) <;> fun_prop
      have hJ := hi hk _ hQ
      rw [hJ]
      have hC : MeasurableSet {t | E (lit (kOps S reader method) v c r T1 ((kOps S reader method).phase c t).1 ((kOps S reader method).phase c t).2)} := by
        refine hE.set ?_
        tame_step (show Tame (fun t => (kOps S reader method).phase c t) from kPhase_tame _ _ measurable_id) with _ ⟨dir, s3, hdir, hs3, rfl⟩
        exact lit_tame S method h1 v c (EngineReemission.kray_basic r) hdir hs3
      refine same ((EngineReemission.engine_fair S method).phase c) (A := fun d t => E (lit (kOps S reader method) v c r T1 d t))
        (B := fun d t => E (lit (kOps S reader method) v c r T2 d t)) hC hB ?_
      intro dir _ _ _
      exact lit_same h1 h2 h hE v c r dir
  · have k1 : ¬ ((turnedOps m (kOps S reader method)).kind c = .scatterer ∨ (turnedOps m (kOps S reader method)).kind c = .luminophore) := hk
    have k2 : ¬ ((kOps S reader method).kind c = .scatterer ∨ (kOps S reader method).kind c = .luminophore) := hk
    simp only [k1, k2, if_false]

theorem surface_same (h1 : TameRest T1) (h2 : TameRest T2) (h : Same T1 T2) (hE : Decides E) (hit v : Fin (n + 1)) (a : Option (Fin (n + 1)))
    (r : KRay ℝ Comp) (t0 : ℝ) :
    independent {t | E (after (kSurface (kOps S reader method) hit v a r t0 t) T1)} =
      independent {t | E (after (kSurface (kOps S reader method) hit v a r t0 t) T2)} := by
  have m : ∀ {T : KRay ℝ Comp → Numbers → List (KOut ℝ (Fin (n + 1)) Comp)}, TameRest T →
      MeasurableSet {t | E (after (kSurface (kOps S reader method) hit v a r t0 t) T)} := fun hT =>
    hE.set (after_tame hT (kSurface_tame S method hit v a (EngineReemission.kray_basic r) measurable_const measurable_id))
  have hA := m h1
  have hB := m h2
  clear m
  rcases a with _ | a
  · rfl
  · obtain ⟨L1, r1, L2, r2, e⟩ := after_surface (kOps S reader method) hit v a r t0
    dsimp only at e
    simp only [e] at hA hB ⊢
    refine same ((EngineReemission.engine_fair S method).reflects hit v a _ _)
      (A := fun b t => E (if b = true then L1 ++ T1 r1 t else L2 ++ T1 r2 t))
      (B := fun b t => E (if b = true then L1 ++ T2 r1 t else L2 ++ T2 r2 t)) hA hB ?_
    intro b _ _ _
    cases b
    · simp only [Bool.false_eq_true, if_false]
      exact h _ (hE.prefix L2) r2
    · simp only [if_true]
      exact h _ (hE.prefix L1) r1

/-- Everything the engine writes has the same law if the directions of re-emission are turned, if no re-emission minds that. -/
theorem law (hi : ∀ v, ∀ c ∈ (S.node v).comps, Library.Reemits c → Indifferent (S.node v).l2w ((kOps S reader method).phase c)) :
    ∀ fuel count, Same (turnedTrace S reader method maxsteps fuel count) (kTrace (kOps S reader method) maxsteps fuel count) := by
  intro fuel
  induction fuel with
  | zero => exact fun count E hE ray => rfl
  | succ fuel ih =>
    intro count E hE ray
    have h1 := turnedTrace_tame S method maxsteps fuel (count + 1)
    have h2 : TameRest (kTrace (kOps S reader method) maxsteps fuel (count + 1)) := fun X _ ray s hr hs =>
      kTrace_tame S method maxsteps fuel (count + 1) hr hs
    have hA : MeasurableSet {s | E (turnedTrace S reader method maxsteps (fuel + 1) count ray s)} :=
      hE.set (turnedTrace_tame S method maxsteps (fuel + 1) count _ _ _ (EngineReemission.kray_basic ray) measurable_id)
    have hB : MeasurableSet {s | E (kTrace (kOps S reader method) maxsteps (fuel + 1) count ray s)} :=
      hE.set (kTrace_tame S method maxsteps (fuel + 1) count (EngineReemission.kray_basic ray) measurable_id)
    simp only [kTrace_after] at hB ⊢
    rw [show turnedTrace S reader method maxsteps (fuel + 1) count ray = fun s => after (turnedBody S reader method maxsteps (count + 1) ray s)
      (turnedTrace S reader method maxsteps fuel (count + 1)) from rfl] at hA ⊢
    have ih := ih (count + 1)
    generalize turnedTrace S reader method maxsteps fuel (count + 1) = T1 at *
    generalize kTrace (kOps S reader method) maxsteps fuel (count + 1) = T2 at *
    simp only [body_split S method maxsteps rfl] at hA ⊢
    rcases e : (kOps S reader method).nextHit ray.position ray.direction with _ | ⟨h, v, a, t0⟩
    · simp only [after_none e]
    simp only [after_met e, e] at hA hB ⊢
    unfold met at hB ⊢
    by_cases hc1 : count + 1 > maxsteps
    · simp only [hc1, if_true, true_or]
    by_cases hc2 : h = 0
    · have hc2' : h = (kOps S reader method).root := hc2
      simp only [hc1, if_false]
      simp only [if_pos hc2', if_pos (show False ∨ h = 0 from .inr hc2)]
    have hc2' : ¬ h = (kOps S reader method).root := hc2
    have hor : ¬ (count + 1 > maxsteps ∨ h = 0) := by rintro (x | x) <;> contradiction
    simp only [if_neg hc1, if_neg hc2', if_neg hor] at hA hB ⊢
    let go (K' : KOps ℝ (Fin (n + 1)) Comp Numbers) (T : KRay ℝ Comp → Numbers → List (KOut ℝ (Fin (n + 1)) Comp)) (depth : Option ℝ) (t : Numbers) : Prop :=
      E (match isAbsorbed depth t0 with
        | some x => chosen K' v ((kOps S reader method).pick v ray.wavelength t).1 (ray.advance x (S.node v).index) T
            ((kOps S reader method).pick v ray.wavelength t).2
        | none => after (kSurface (kOps S reader method) h v a ray t0 t) T)
    refine same ((EngineReemission.engine_fair S method).depth v ray.wavelength)
      (A := go (turnedOps (S.node v).l2w (kOps S reader method)) T1) (B := go (kOps S reader method) T2) hA hB ?_
    rintro depth ⟨s0, hd⟩ hA hB
    dsimp only [go] at hA hB ⊢
    rcases hx : isAbsorbed depth t0 with _ | x
    · exact surface_same h1 h2 ih hE h v a ray t0
    · simp only [hx] at hA hB ⊢
      refine same ((EngineReemission.engine_fair S method).pick v ray.wavelength)
        (A := fun c t => E (chosen (turnedOps (S.node v).l2w (kOps S reader method)) v c (ray.advance x (S.node v).index) T1 t))
        (B := fun c t => E (chosen (kOps S reader method) v c (ray.advance x (S.node v).index) T2 t)) hA hB ?_
      rintro c ⟨t, ht⟩ _ _
      refine chosen_same h1 h2 ih hE _ v c _ (hi v c (picked S method (s := s0) ?_ ht))
      rw [hd]
      rcases depth with _ | _
      · cases hx
      · rfl

end
end PV.Turned
