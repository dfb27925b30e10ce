import Verif.Lemmas.TurnedLaw
import Verif.Props.Material
import Verif.Props.Parts

/-!
The order of the components of a material does not change the law of what the engine writes.
-/

namespace PV.Order
open MeasureTheory Set PV.Spec PV.Sphere Measured EngineThinning PV.Turned PV.Parts
open scoped ENNReal
noncomputable section
variable {n : ℕ} {σ : Type}

/-- No turn. -/
def one : Affine ℝ := ⟨⟨1, 0, 0⟩, ⟨0, 1, 0⟩, ⟨0, 0, 1⟩, ⟨0, 0, 0⟩⟩

theorem one_vec (u : Vec3 ℝ) : one.vec u = u := by
  ext <;> simp [one, Affine.vec, Vec3.dot]

theorem turned_one (K : KOps ℝ (Fin (n + 1)) Comp σ) : turnedOps one K = K := by
  unfold turnedOps
  cases K
  congr 1
  funext c s
  exact Prod.ext (one_vec _) rfl

theorem kPick_measurable {cs : List ℝ} (h : ∀ c ∈ cs, 0 ≤ c) (hs : 0 < cs.sum) {i : ℕ} (hi : i < cs.length) :
    MeasurableSet {u : ℝ | u ∈ Ioo (0 : ℝ) 1 ∧ kPick cs u = i} := by
  have e : {u : ℝ | u ∈ Ioo (0 : ℝ) 1 ∧ kPick cs u = i} =
      Ioo 0 1 ∩ Ioc ((cs.take i).sum / cs.sum) ((cs.take (i + 1)).sum / cs.sum) := by
    ext u
    constructor
    · rintro ⟨hu, hk⟩
      exact ⟨hu, (Material.engine_component_interval h hs hi hu.1 hu.2).1 hk⟩
    · rintro ⟨hu, hk⟩
      exact ⟨hu, (Material.engine_component_interval h hs hi hu.1 hu.2).2 hk⟩
  rw [e]
  exact measurableSet_Ioo.inter measurableSet_Ioc

theorem range_list (a : List Comp) (cs : List ℝ) (hl : cs.length = a.length) (g : Comp → ℝ → ℝ≥0∞) :
    ∑ i ∈ Finset.range cs.length, g ((a[i]?).getD noComp) (cs.getD i 0) = ((a.zip cs).map fun p => g p.1 p.2).sum := by
  induction a generalizing cs with
  | nil =>
    obtain rfl := List.length_eq_zero_iff.1 hl
    rfl
  | cons c a ih =>
    cases cs with
    | nil => cases hl
    | cons x cs =>
      rw [List.length_cons, Finset.sum_range_succ']
      simp only [List.getElem?_cons_succ, List.getD_cons_succ, List.getElem?_cons_zero, Option.getD_some, List.getD_cons_zero,
        List.zip_cons_cons, List.map_cons, List.sum_cons]
      rw [ih cs (by simpa using hl), add_comm]

/-- The mean over a choice from a list. -/
theorem mean_index {comps : List Comp} {cs : List ℝ} (hl : cs.length = comps.length) {k : ℝ → ℕ}
    (hk : ∀ u ∈ Ioo (0 : ℝ) 1, k u < cs.length) (hm : ∀ i < cs.length, MeasurableSet {u : ℝ | u ∈ Ioo (0 : ℝ) 1 ∧ k u = i})
    (hv : ∀ i, ∀ hi : i < cs.length, volume {u : ℝ | u ∈ Ico (0 : ℝ) 1 ∧ k u = i} = ENNReal.ofReal (cs[i] / cs.sum))
    (g : Comp → ℝ≥0∞) :
    ∫⁻ u in Ioo (0 : ℝ) 1, g ((comps[k u]?).getD noComp) =
      ((comps.zip cs).map fun p => g p.1 * ENNReal.ofReal (p.2 / cs.sum)).sum := by
  rw [← range_list comps cs hl fun c x => g c * ENNReal.ofReal (x / cs.sum)]
  have e : ∀ u ∈ Ioo (0 : ℝ) 1, g ((comps[k u]?).getD noComp) =
      ∑ i ∈ Finset.range cs.length, {u : ℝ | u ∈ Ioo (0 : ℝ) 1 ∧ k u = i}.indicator (fun _ => g ((comps[i]?).getD noComp)) u := by
    intro u hu
    rw [Finset.sum_eq_single (k u)]
    · rw [indicator_of_mem (show u ∈ {u' : ℝ | u' ∈ Ioo (0 : ℝ) 1 ∧ k u' = k u} from ⟨hu, rfl⟩)]
    · intro i _ hne
      exact indicator_of_notMem (fun hm => hne hm.2.symm) _
    · intro hn
      exact absurd (Finset.mem_range.2 (hk u hu)) hn
  rw [setLIntegral_congr_fun measurableSet_Ioo e, lintegral_finsetSum']
  · refine Finset.sum_congr rfl fun i hi => ?_
    have hi := Finset.mem_range.1 hi
    rw [lintegral_indicator_const (hm i hi), (show cs.getD i 0 = cs[i] by simp [hi]), ← hv i hi]
    congr 1
    rw [Measure.restrict_apply (hm i hi)]
    refine measure_congr ?_
    have h0 : ∀ᵐ u : ℝ, u ≠ 0 := by
      rw [ae_iff]
      simp
    filter_upwards [h0] with u hu
    refine propext ⟨fun hx => ⟨⟨hx.1.1.1.le, hx.1.1.2⟩, hx.1.2⟩, fun hx => ?_⟩
    have : 0 < u := lt_of_le_of_ne hx.1.1 (Ne.symm hu)
    exact ⟨⟨⟨this, hx.1.2⟩, hx.2⟩, this, hx.1.2⟩
  · intro i hi
    exact (measurable_const.indicator (hm i (Finset.mem_range.1 hi))).aemeasurable

/-- The mean over the choice of a component. -/
theorem mean_pick {comps : List Comp} {cs : List ℝ} (hl : cs.length = comps.length) (h : ∀ c ∈ cs, 0 ≤ c) (hs : 0 < cs.sum)
    (g : Comp → ℝ≥0∞) :
    ∫⁻ u in Icc (0 : ℝ) 1, g ((comps[kPick cs u]?).getD noComp) =
      ((comps.zip cs).map fun p => g p.1 * ENNReal.ofReal (p.2 / cs.sum)).sum := by
  rw [← setLIntegral_congr Ioo_ae_eq_Icc]
  exact mean_index hl (fun u hu => (kPick_spec hs hu.2.le).1) (fun i hi => kPick_measurable h hs hi)
    (fun i hi => Material.engine_component_probability h hs hi) g

variable {S : LScene n} {C : Fin (n + 1) → List Comp} {method : EmitMethod} {maxsteps : ℕ}

/-- Reading a component. -/
theorem pick_chance (v : Fin (n + 1)) (w : ℝ) (hc : ∀ c ∈ (S.node v).comps, 0 ≤ c.kCoef w) (hs : 0 < ((S.node v).kCoefs w).sum)
    (Q : Comp → Numbers → Prop)
    (hQ : MeasurableSet {t | Q ((kOps S reader method).pick v w t).1 ((kOps S reader method).pick v w t).2}) :
    independent {t | Q ((kOps S reader method).pick v w t).1 ((kOps S reader method).pick v w t).2} =
      ((S.node v).comps.map fun c => independent {t | Q c t} * ENNReal.ofReal (c.kCoef w / ((S.node v).kCoefs w).sum)).sum := by
  rw [first _ hQ]
  have e := mean_pick (comps := (S.node v).comps) (cs := (S.node v).kCoefs w) (by simp [LNode.kCoefs])
    (by intro x hx; obtain ⟨c, hc', rfl⟩ := List.mem_map.1 hx; exact hc c hc') hs fun c => independent {t | Q c t}
  have z : (S.node v).comps.zip ((S.node v).kCoefs w) = (S.node v).comps.map fun c => (c, c.kCoef w) := by
    unfold LNode.kCoefs
    induction (S.node v).comps with
    | nil => rfl
    | cons c a ih => rw [List.map_cons, List.map_cons, List.zip_cons_cons, ih]
  rw [z, List.map_map] at e
  exact e

/-- Everything the engine writes has the same law if the components are listed in another order. -/
theorem law (hp : ∀ v, (C v).Perm (S.node v).comps) (hc : ∀ v, ∀ c ∈ (S.node v).comps, ∀ w, 0 ≤ c.kCoef w) :
    ∀ fuel count, Same (kTrace (kOps (withComps S C) reader method) maxsteps fuel count) (kTrace (kOps S reader method) maxsteps fuel count) := by
  intro fuel
  induction fuel with
  | zero => exact fun count E hE ray => rfl
  | succ fuel ih =>
    intro count E hE ray
    have h1 : TameRest (kTrace (kOps (withComps S C) reader method) maxsteps fuel (count + 1)) := fun X _ ray s hr hs =>
      kTrace_tame (withComps S C) method maxsteps fuel (count + 1) hr hs
    have h2 : TameRest (kTrace (kOps S reader method) maxsteps fuel (count + 1)) := fun X _ ray s hr hs =>
      kTrace_tame S method maxsteps fuel (count + 1) hr hs
    have hA : MeasurableSet {s | E (kTrace (kOps (withComps S C) reader method) maxsteps (fuel + 1) count ray s)} :=
      hE.set (kTrace_tame (withComps S C) method maxsteps (fuel + 1) count (EngineReemission.kray_basic ray) measurable_id)
    have hB : MeasurableSet {s | E (kTrace (kOps S reader method) maxsteps (fuel + 1) count ray s)} :=
      hE.set (kTrace_tame S method maxsteps (fuel + 1) count (EngineReemission.kray_basic ray) measurable_id)
    simp only [kTrace_after] at hA hB ⊢
    have ih := ih (count + 1)
    generalize kTrace (kOps (withComps S C) reader method) maxsteps fuel (count + 1) = T1 at *
    generalize kTrace (kOps S reader method) maxsteps fuel (count + 1) = T2 at *
    have coefs : ∀ v w, (((withComps S C).node v).kCoefs w).sum = ((S.node v).kCoefs w).sum := fun v w =>
      ((hp v).map _).sum_eq
    rcases e : (kOps S reader method).nextHit ray.position ray.direction with _ | ⟨h, v, a, t0⟩
    · have e' : (kOps (withComps S C) reader method).nextHit ray.position ray.direction = none := e
      simp only [after_none e, after_none e']
    have e' : (kOps (withComps S C) reader method).nextHit ray.position ray.direction = some (h, v, a, t0) := e
    have hdepth : (kOps (withComps S C) reader method).depth v ray.wavelength = (kOps S reader method).depth v ray.wavelength := by
      funext s
      show kDepth reader (((withComps S C).node v).kCoefs ray.wavelength).sum s = kDepth reader ((S.node v).kCoefs ray.wavelength).sum s
      rw [coefs]
    have hstop : count + 1 > maxsteps ∨ h = 0 → ∀ s, (kBody (kOps (withComps S C) reader method) maxsteps (count + 1) ray s).1 =
        (kBody (kOps S reader method) maxsteps (count + 1) ray s).1 := by
      intro hx s
      unfold kBody
      simp only [e, e']
      by_cases hc1 : count + 1 > maxsteps
      · simp only [hc1, if_true]
        rfl
      · have hc2 : h = (kOps S reader method).root := hx.resolve_left hc1
        have hc2' : h = (kOps (withComps S C) reader method).root := hc2
        simp only [hc1, if_false, if_pos hc2, if_pos hc2']
        rfl
    simp only [after_met e, after_met e'] at hA hB ⊢
    unfold met at hA hB ⊢
    by_cases hc1 : count + 1 > maxsteps
    · simp only [hc1, if_true, hstop (.inl hc1)]
    by_cases hc2 : h = 0
    · have k1 : h = (kOps S reader method).root := hc2
      have k2 : h = (kOps (withComps S C) reader method).root := hc2
      simp only [hc1, if_false, if_pos k1, if_pos k2, hstop (.inr hc2)]
    have k1 : ¬ h = (kOps S reader method).root := hc2
    have k2 : ¬ h = (kOps (withComps S C) reader method).root := hc2
    simp only [if_neg hc1, if_neg k1, if_neg k2, hdepth] at hA hB ⊢
    let go (K' : KOps ℝ (Fin (n + 1)) Comp Numbers) (T : KRay ℝ Comp → Numbers → List (KOut ℝ (Fin (n + 1)) Comp)) (depth : Option ℝ) (t : Numbers) : Prop :=
      E (match isAbsorbed depth t0 with
        | some x => chosen (kOps S reader method) v (K'.pick v ray.wavelength t).1 (ray.advance x (S.node v).index) T
            (K'.pick v ray.wavelength t).2
        | none => after (kSurface (kOps S reader method) h v a ray t0 t) T)
    refine same ((EngineReemission.engine_fair S method).depth v ray.wavelength)
      (A := go (kOps (withComps S C) reader method) T1) (B := go (kOps S reader method) T2) hA hB ?_
    rintro depth ⟨s0, hd⟩ hA hB
    dsimp only [go] at hA hB ⊢
    rcases hx : isAbsorbed depth t0 with _ | x
    · exact surface_same h1 h2 ih hE h v a ray t0
    · simp only [hx] at hA hB ⊢
      have hpos : 0 < ((S.node v).kCoefs ray.wavelength).sum := by
        by_contra hn
        have hd : (kDepth reader ((S.node v).kCoefs ray.wavelength).sum s0).1 = depth := hd
        unfold kDepth at hd
        rw [if_neg fun hx => hn (lt_trans (by norm_num) hx)] at hd
        subst hd
        cases hx
      have hpos' : 0 < (((withComps S C).node v).kCoefs ray.wavelength).sum := by rw [coefs]; exact hpos
      rw [pick_chance (S := withComps S C) (method := method) v ray.wavelength (fun c hc' => hc v c ((hp v).mem_iff.1 hc') _) hpos'
          (fun c t => E (chosen (kOps S reader method) v c (ray.advance x (S.node v).index) T1 t)) hA,
        pick_chance (S := S) (method := method) v ray.wavelength (fun c hc' => hc v c hc' _) hpos
          (fun c t => E (chosen (kOps S reader method) v c (ray.advance x (S.node v).index) T2 t)) hB, coefs]
      have hG : ∀ c, independent {t | E (chosen (kOps S reader method) v c (ray.advance x (S.node v).index) T1 t)} =
          independent {t | E (chosen (kOps S reader method) v c (ray.advance x (S.node v).index) T2 t)} := by
        intro c
        have := chosen_same (S := S) (method := method) h1 h2 ih hE one v c (ray.advance x (S.node v).index)
          (fun _ => unturned one_vec _)
        rw [turned_one] at this
        exact this
      simp only [hG]
      exact ((hp v).map _).sum_eq

end
end PV.Order
