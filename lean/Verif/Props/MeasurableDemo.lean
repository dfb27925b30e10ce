import Verif.Props.Measurable
import Verif.Props.StreamDemo
import Verif.Props.AgreementDemo

/-!
C102: questions that are Borel, a mesh that is Borel, and a simulation that meets all hypotheses.
-/

namespace PV.Measured
open MeasureTheory Spec Stream Library

/-! ### Borel questions -/

theorem Borel.not {E : List (Ray ℝ × Event) → Prop} (h : Borel E) : Borel fun l => ¬ E l := fun kinds => (h kinds).compl

theorem Borel.and {E F : List (Ray ℝ × Event) → Prop} (h : Borel E) (h' : Borel F) : Borel fun l => E l ∧ F l :=
  fun kinds => (h kinds).inter (h' kinds)

theorem Borel.or {E F : List (Ray ℝ × Event) → Prop} (h : Borel E) (h' : Borel F) : Borel fun l => E l ∨ F l :=
  fun kinds => (h kinds).union (h' kinds)

/-- Which events happen, in which order, how often. -/
theorem borel_events (q : List Event → Prop) : Borel fun l => q (l.map (·.2)) := by
  intro kinds
  have : ∀ v, (storyAt kinds v).map (·.2) = kinds.map (·.1) := by
    intro v
    unfold storyAt
    rw [List.map_map]
    apply List.ext_getElem <;> simp
  simp only [this]
  exact MeasurableSet.const _

/-- A Borel condition on the numbers of a ray. -/
def BorelRay (M : Ray ℝ → Prop) : Prop := ∀ source, MeasurableSet {v : Fin 9 → ℝ | M (rayAt source v)}

/-- What an entry of the history is like. -/
theorem borel_entry {M : Ray ℝ → Prop} (hM : BorelRay M) (e : Event) (i : ℕ) :
    Borel fun l => ∃ r, l[i]? = some (r, e) ∧ M r := by
  intro kinds
  rcases h : kinds[i]? with _ | ⟨ev, src⟩
  · have : ∀ v, (storyAt kinds v)[i]? = none := by
      intro v
      unfold storyAt
      simp only [List.getElem?_map, List.getElem?_zipIdx, h]
      rfl
    simp [this]
  · have h1 : ∀ v, (storyAt kinds v)[i]? = some (rayAt src (v i), ev) := by
      intro v
      unfold storyAt
      simp only [List.getElem?_map, List.getElem?_zipIdx, h]
      simp
    by_cases he : ev = e
    · subst he
      have : {v : ℕ → Fin 9 → ℝ | ∃ r, (storyAt kinds v)[i]? = some (r, ev) ∧ M r} =
          (fun v => v i) ⁻¹' {w | M (rayAt src w)} := by
        ext v
        simp [h1]
      rw [this]
      exact measurable_pi_apply i (hM src)
    · simp [h1, he]

/-- What the last entry of the history is like. -/
theorem borel_last {M : Ray ℝ → Prop} (hM : BorelRay M) (e : Event) :
    Borel fun l => ∃ r, l.getLast? = some (r, e) ∧ M r := by
  intro kinds
  have h : ∀ v, (storyAt kinds v).getLast? = (storyAt kinds v)[kinds.length - 1]? := by
    intro v
    rw [List.getLast?_eq_getElem?]
    congr 1
    simp [storyAt]
  simp only [h]
  exact borel_entry hM e _ kinds

/-- Whether some entry of the history is like this. -/
theorem borel_some {M : Ray ℝ → Prop} (hM : BorelRay M) (e : Event) : Borel fun l => ∃ r, (r, e) ∈ l ∧ M r := by
  intro kinds
  have : {v : ℕ → Fin 9 → ℝ | ∃ r, (r, e) ∈ storyAt kinds v ∧ M r} =
      ⋃ i : ℕ, {v | ∃ r, (storyAt kinds v)[i]? = some (r, e) ∧ M r} := by
    ext v
    simp only [Set.mem_ofPred_eq, Set.mem_iUnion, List.mem_iff_getElem?]
    constructor
    · rintro ⟨r, ⟨i, hi⟩, hr⟩
      exact ⟨i, r, hi, hr⟩
    · rintro ⟨i, r, hi, hr⟩
      exact ⟨r, ⟨i, hi⟩, hr⟩
  rw [this]
  exact MeasurableSet.iUnion fun i => borel_entry hM e i kinds

theorem borel_up : Borel Up :=
  borel_last (M := fun r => 0 < r.direction.z) (fun _ => measurableSet_lt measurable_const (measurable_pi_apply 5)) .exit

/-- Leaving sideways, with a wavelength in the red, after an emission. -/
example : Borel fun l => (∃ r, l.getLast? = some (r, .exit) ∧ |r.direction.z| < 1 / 2 ∧ 600 < r.wavelength) ∧
    Event.emit ∈ l.map (·.2) :=
  Borel.and (borel_last (M := fun r => |r.direction.z| < 1 / 2 ∧ 600 < r.wavelength) (fun _ =>
    (measurableSet_lt (continuous_abs.measurable.comp (measurable_pi_apply 5)) measurable_const).inter
      (measurableSet_lt measurable_const (measurable_pi_apply 6))) .exit) (borel_events fun es => .emit ∈ es)

/-! ### Borel meshes -/

theorem borel_noBoxes : BorelMesh noBoxes := fun _ => by
  constructor
  · intro k
    simp only [noBoxes]
    exact MeasurableSet.const _
  · intro i
    exact measurable_const

theorem slab_tame {size : ℝ} {X : Type} [MeasurableSpace X] {o d : X → ℝ} {acc : X → Option ℝ × Option ℝ}
    (ho : Measurable o) (hd : Measurable d) (ha : Tame acc) : Tame fun x => kSlab size (o x) (d x) (acc x) := by
  unfold kSlab
  dsimp only
  refine Tame.ite (by meas) (Tame.ite (by meas) Tame.none ha.some) ?_
  have h1 : Tame (fun x => if (-0.5 * size - o x) * (1 / d x) > (0.5 * size - o x) * (1 / d x) then
      ((0.5 * size - o x) * (1 / d x), (-0.5 * size - o x) * (1 / d x))
      else ((-0.5 * size - o x) * (1 / d x), (0.5 * size - o x) * (1 / d x))) := by
    refine Tame.ite (by meas) (.of ⟨_, _, ?_, ?_, rfl⟩) (.of ⟨_, _, ?_, ?_, rfl⟩) <;>
    · show Measurable _
      fun_prop
  tame_step h1 with _ ⟨t1, t2, h1, h2, rfl⟩
  have h1 : Measurable t1 := h1
  have h2 : Measurable t2 := h2
  tame_step ha with _ ⟨_, _, (rfl | ⟨a, ha, rfl⟩), (rfl | ⟨b, hb, rfl⟩), rfl⟩
  · exact Tame.some (Tame.pair (Tame.some (.of h1)) (Tame.some (.of h2)))
  · have hb : Measurable b := hb
    exact Tame.some (Tame.pair (Tame.some (.of h1)) (Tame.some (Tame.ite (by meas) (.of h2) (.of hb))))
  · have ha : Measurable a := ha
    exact Tame.some (Tame.pair (Tame.some (Tame.ite (by meas) (.of h1) (.of ha))) (Tame.some (.of h2)))
  · have ha : Measurable a := ha
    have hb : Measurable b := hb
    exact Tame.some (Tame.pair (Tame.some (Tame.ite (by meas) (.of h1) (.of ha)))
      (Tame.some (Tame.ite (by meas) (.of h2) (.of hb))))

theorem box_tame (size : Vec3 ℝ) {X : Type} [MeasurableSpace X] {o d : X → Vec3 ℝ} (ho : basic o) (hd : basic d) :
    Tame fun x => kBox size (o x) (d x) := by
  obtain ⟨ox, oy, oz, h1, h2, h3, rfl⟩ := ho
  obtain ⟨dx, dy, dz, h4, h5, h6, rfl⟩ := hd
  have hx : Tame fun x => kSlab size.x (ox x) (dx x) (none, none) := slab_tame h1 h4 (Tame.pair Tame.none Tame.none)
  have hxy : Tame fun x => (kSlab size.x (ox x) (dx x) (none, none)).bind (kSlab size.y (oy x) (dy x)) := by
    tame_step hx with _ (rfl | ⟨a, ha, rfl⟩)
    · exact Tame.none
    · exact slab_tame h2 h5 (.of ha)
  have hxyz : Tame fun x => ((kSlab size.x (ox x) (dx x) (none, none)).bind (kSlab size.y (oy x) (dy x))).bind
      (kSlab size.z (oz x) (dz x)) := by
    tame_step hxy with _ (rfl | ⟨a, ha, rfl⟩)
    · exact Tame.none
    · exact slab_tame h3 h6 (.of ha)
  unfold kBox
  dsimp only
  tame_step hxyz with _ (rfl | ⟨_, ⟨_, _, (rfl | ⟨a, ha, rfl⟩), (rfl | ⟨b, hb, rfl⟩), rfl⟩, rfl⟩)
  · exact Tame.nil
  · exact Tame.nil
  · exact Tame.nil
  · exact Tame.nil
  · refine Tame.ite (measurable_lt hb ha) Tame.nil ?_
    refine Tame.filter (Tame.two ha hb) fun f hf => ?_
    have hf : Measurable f := hf
    simp only [decide_eq_true_eq, gt_iff_lt]
    meas

/-- A mesh that gives tame lists is a Borel mesh. -/
theorem mesh_borel {B : Trimesh} (h : MeasurableMesh B) : BorelMesh B := by
  intro size
  have ht := h size (X := Fin 6 → ℝ) (o := fun v => ⟨v 0, v 1, v 2⟩) (d := fun v => ⟨v 3, v 4, v 5⟩)
    ⟨_, _, _, measurable_pi_apply 0, measurable_pi_apply 1, measurable_pi_apply 2, rfl⟩
    ⟨_, _, _, measurable_pi_apply 3, measurable_pi_apply 4, measurable_pi_apply 5, rfl⟩
  constructor
  · intro k
    refine ht.set (fun y _ => y.length = k) ?_
    rintro _ ⟨L, hL, rfl⟩
    simp only [List.length_map]
    exact MeasurableSet.const _
  · intro i A hA
    refine ht.set (fun y _ => y.getD i 0 ∈ A) ?_
    rintro _ ⟨L, hL, rfl⟩
    rcases hi : L[i]? with _ | f
    · simp only [List.getD_eq_getElem?_getD, List.getElem?_map, hi, Option.map_none]
      exact MeasurableSet.const _
    · simp only [List.getD_eq_getElem?_getD, List.getElem?_map, hi]
      exact hL f (List.mem_of_getElem? hi) hA

/-- The slab method is a Borel mesh for boxes. -/
theorem borel_box : BorelMesh kBox := mesh_borel fun size _ _ _ _ ho hd => box_tame size ho hd

/-! ### A simulation -/

theorem bulb_stock : Honest bulb ∧ Regular bulb := by
  refine ⟨⟨?_, ?_, ?_⟩, ?_, ?_, ?_⟩ <;> intro f h <;> cases h

/-- Half of the rays of the bulb leave upwards in the long run. -/
example (seeded : ℕ → Numbers) :
    ∀ᵐ s ∂independent, Filter.Tendsto (fun k : ℕ =>
      (tally Up (Simulate.doSimulation (stage [bulb] emptyWorld kBox .kT 5 none seeded) k none s) : ℝ) / k)
      Filter.atTop (nhds (1 / 2)) := by
  have h := library_one_light (S := emptyWorld) (method := .kT) (maxsteps := 5) (maxpath := none) (seeded := seeded)
    bulb_stock borel_box ((bulb_sound kBox seeded).safe 0) borel_up
  rwa [bulb_half, ENNReal.toReal_ofReal (by norm_num)] at h

end PV.Measured
