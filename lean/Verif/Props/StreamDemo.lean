import Verif.Props.Stream
import Verif.Props.LibraryPath
import Verif.Props.Phase

/-!
C101, a case that meets all hypotheses: a bulb shining in all directions in an empty world. The share of rays
that leave upwards tends to one half.
-/

namespace PV.Stream
open Spec MeasureTheory Library PV.Geometry
noncomputable section

/-- A bulb at the origin, with the library's default colour. -/
def bulb : Light.Lamp := ⟨.default, .default, .phase .isotropic, "bulb", .one⟩

theorem empty_hits (B : Trimesh) {d : Vec3 ℝ} (hd : d.dot d = 1) :
    emptyWorld.intersections B 0 d = [⟨0, 0 + (10 : ℝ) • d, 10⟩] := by
  have hts : ∀ v, (emptyWorld.node v).pyTs B 0 d = [10] := by
    intro v
    have hdisc : disc 10 0 d = 400 := by
      have : d.x * d.x + d.y * d.y + d.z * d.z = 1 := hd
      unfold disc
      simp only [Vec3.dot, Vec3.zero_x, Vec3.zero_y, Vec3.zero_z] at *
      nlinarith
    have h20 : Real.sqrt 400 = 20 := by
      rw [show (400 : ℝ) = 20 ^ 2 by norm_num, Real.sqrt_sq (by norm_num)]
    have e1 : (emptyWorld.node v).localOrigin 0 = 0 := by
      ext <;> simp [LNode.localOrigin, emptyWorld, Affine.one, Affine.point, Affine.vec, Vec3.dot]
    have e2 : (emptyWorld.node v).localDir d = d := by
      ext <;> simp [LNode.localDir, emptyWorld, Affine.one, Affine.vec, Vec3.dot]
    unfold LNode.pyTs
    rw [e1, e2]
    show pySphere 10 0 d = [10]
    rw [pySphere_eq (by rw [hdisc]; norm_num) hd, hdisc, h20, hd]
    norm_num [Vec3.dot]
  have he : epsZero < 10 := by unfold epsZero; norm_num
  rw [intersections_eq (S := emptyWorld) (fun v => emptyWorld_rigid v) (fun v => emptyWorld_inverse v) B hd]
  have h0 : List.finRange (0 + 1) = [0] := rfl
  simp only [hts]
  rw [h0]
  unfold sceneInters kHits
  simp only [List.map_cons, List.map_nil, List.flatMap_cons, List.flatMap_nil, List.append_nil]
  rw [List.filter_cons_of_pos (by simpa using he)]
  simp only [List.filter_nil, sortedBy, List.insertionSort_cons, List.insertionSort_nil,
    List.orderedInsert_nil]

/-- A ray from the origin leaves the empty world. -/
theorem empty_follow (B : Trimesh) (ray : Ray ℝ) (h0 : ray.position = 0) (hd : ray.direction.dot ray.direction = 1)
    (s : Numbers) :
    Stream.follow (pyOps emptyWorld B reader .kT) 5 none ray s =
      .ok ([(ray, .generate), (ray.propagate 10 1, .exit)], s) := by
  have he : ¬ |(10 : ℝ)| < epsZero := by unfold epsZero; norm_num
  have hb : pass (pyOps emptyWorld B reader .kT) 5 none 1 ray s =
      .ok (([⟨ray.propagate 10 1, .exit, ⟨some "world", some "world", none, none, none⟩⟩], none), s) := by
    unfold pass
    have hi : (pyOps emptyWorld B reader .kT).intersections ray.position ray.direction =
        .ok [⟨0, 0 + (10 : ℝ) • ray.direction, 10⟩] := by
      show Except.ok _ = _
      rw [h0, empty_hits B hd]
    simp only [hi]
    have hn : ∀ f, nextHit (pyOps emptyWorld B reader .kT).eps f
        [⟨(0 : Fin 1), 0 + (10 : ℝ) • ray.direction, 10⟩] =
        .ok (some ⟨0, 0, none, 0 + (10 : ℝ) • ray.direction, 10⟩) := by
      intro f
      unfold nextHit
      rw [List.filter_cons_of_pos (by simpa [pyOps] using he)]
      rfl
    simp only [hn]
    rw [if_neg (by simp [beyond])]
    exact if_pos (Eq.refl (0 : Fin 1))
  unfold Stream.follow passes
  simp only [hb]
  rfl

/-- The ray of the bulb in a given direction. -/
def beam (d : Vec3 ℝ) : Ray ℝ := ⟨0, d, 555, 0, 0, some "bulb"⟩

theorem bulb_throw (B : Trimesh) (seeded : ℕ → Numbers) (i : ℕ) (s : Numbers) :
    throw (stage [bulb] emptyWorld B .kT 5 none seeded) i s =
      .ok ([(beam (isotropic reader s).1, .generate), ((beam (isotropic reader s).1).propagate 10 1, .exit)],
        later 2 s) := by
  have hl : launch bulb s = .ok (beam (isotropic reader s).1, later 2 s) := by
    have h1 : Affine.one.point (0 : Vec3 ℝ) = 0 := by
      ext <;> simp [Affine.one, Affine.point, Affine.vec, Vec3.dot]
    have h2 : Affine.one.vec (isotropic reader s).1 = (isotropic reader s).1 := by
      ext <;> simp [Affine.one, Affine.vec, Vec3.dot]
    have : launch bulb s =
        .ok (⟨Affine.one.point (0 : Vec3 ℝ), Affine.one.vec (isotropic reader s).1, 555, 0, 0, some "bulb"⟩,
          later 2 s) := rfl
    rw [this, h1, h2]
    rfl
  have hd : (isotropic reader s).1.dot (isotropic reader s).1 = 1 :=
    Phase.draw_unit (R := reader) (s := s) (s' := (isotropic reader s).2) Phase.isotropic rfl
  unfold throw Simulate.emitAt
  simp only [stage, List.length_singleton, Nat.mod_one]
  rw [if_neg (by norm_num)]
  simp only [List.getElem?_cons_zero, hl]
  rw [empty_follow B _ rfl hd]

theorem bulb_reads (B : Trimesh) (seeded : ℕ → Numbers) (i : ℕ) :
    ReadsBy (fun _ => 2) (throw (stage [bulb] emptyWorld B .kT 5 none seeded) i) := by
  intro s s' h
  refine ⟨rfl, .inr ⟨_, bulb_throw B seeded i s, ?_⟩⟩
  have : (isotropic reader s').1 = (isotropic reader s).1 := by
    show sphericalToCart (Real.arccos (2 * s' 1 - 1)) (2 * Real.pi * s' 0) =
      sphericalToCart (Real.arccos (2 * s 1 - 1)) (2 * Real.pi * s 0)
    rw [h 0 (by norm_num), h 1 (by norm_num)]
  rw [bulb_throw, this]

theorem bulb_sound (B : Trimesh) (seeded : ℕ → Numbers) : Sound (stage [bulb] emptyWorld B .kT 5 none seeded) where
  reads := ⟨fun _ _ => 2, fun i => bulb_reads B seeded i, fun i k => by
    have e : ∀ s, Yields (throw (stage [bulb] emptyWorld B .kT 5 none seeded) i) (fun _ => True) s := fun s =>
      ⟨_, _, bulb_throw B seeded i s, trivial⟩
    unfold Decided
    by_cases h : 2 = k
    · simp only [h, e, and_self, Set.ofPred_true]
      exact MeasurableSet.univ.nullMeasurableSet
    · simp only [h, false_and, Set.ofPred_false]
      exact MeasurableSet.empty.nullMeasurableSet⟩
  safe i := ae_of_all _ fun s => ⟨_, _, bulb_throw B seeded i s, trivial⟩

/-- The ray leaves upwards. -/
def Up (h : List (Ray ℝ × Event)) : Prop := ∃ r, h.getLast? = some (r, .exit) ∧ 0 < r.direction.z

theorem bulb_up (B : Trimesh) (seeded : ℕ → Numbers) (i : ℕ) (s : Numbers) :
    Yields (throw (stage [bulb] emptyWorld B .kT 5 none seeded) i) Up s ↔
      0 < Real.cos (Real.arccos (2 * s 1 - 1)) := by
  constructor
  · rintro ⟨b, t, h1, r, h2, h3⟩
    rw [bulb_throw] at h1
    cases h1
    simp only [List.getLast?_cons_cons, List.getLast?_singleton, Option.some.injEq, Prod.mk.injEq, and_true] at h2
    subst h2
    exact h3
  · intro h
    exact ⟨_, _, bulb_throw B seeded i s, _, rfl, h⟩

theorem bulb_decided (B : Trimesh) (seeded : ℕ → Numbers) (i : ℕ) :
    Decided (Yields (throw (stage [bulb] emptyWorld B .kT 5 none seeded) i) Up) := by
  refine MeasurableSet.nullMeasurableSet ?_
  simp only [bulb_up]
  have hm : Measurable fun s : Numbers => Real.cos (Real.arccos (2 * s 1 - 1)) :=
    Real.measurable_cos.comp (Real.measurable_arccos.comp
      (((measurable_pi_apply 1).const_mul 2).sub_const 1))
  exact measurableSet_lt measurable_const hm

theorem bulb_half (B : Trimesh) (seeded : ℕ → Numbers) :
    chance (Yields (throw (stage [bulb] emptyWorld B .kT 5 none seeded) 0) Up) = ENNReal.ofReal (1 / 2) := by
  have hp : MeasurePreserving (Function.eval 1) independent Spec.uniform :=
    measurePreserving_eval_infinitePi (fun _ : ℕ => Spec.uniform) 1
  have hm : MeasurableSet {u : ℝ | 1 / 2 < u} := measurableSet_lt measurable_const measurable_id
  have h1 : chance (Yields (throw (stage [bulb] emptyWorld B .kT 5 none seeded) 0) Up) =
      Spec.uniform {u | 1 / 2 < u} := by
    rw [← hp.measure_preimage hm.nullMeasurableSet]
    refine measure_congr (Filter.eventuallyEq_set.2 ?_)
    filter_upwards [in_unit] with s hs
    show Yields _ _ s ↔ 1 / 2 < s 1
    rw [bulb_up, Real.cos_arccos (by have := (hs 1).1; linarith) (by have := (hs 1).2; linarith)]
    constructor <;> intro h <;> linarith
  rw [h1, Spec.uniform, Measure.restrict_apply hm]
  have : {u : ℝ | 1 / 2 < u} ∩ Set.Ico 0 1 = Set.Ioo (1 / 2) 1 := by
    ext u
    simp only [Set.mem_inter_iff, Set.mem_ofPred_eq, Set.mem_Ico, Set.mem_Ioo]
    constructor
    · rintro ⟨h1, h2, h3⟩; exact ⟨h1, h3⟩
    · rintro ⟨h1, h3⟩; exact ⟨h1, by linarith, h3⟩
  rw [this, Real.volume_Ioo]
  norm_num

/-- Half of the rays of one simulation leave upwards in the long run. -/
example (B : Trimesh) (seeded : ℕ → Numbers) :
    ∀ᵐ s ∂independent, Filter.Tendsto (fun k : ℕ =>
      (tally Up (Simulate.doSimulation (stage [bulb] emptyWorld B .kT 5 none seeded) k none s) : ℝ) / k)
      Filter.atTop (nhds (1 / 2)) := by
  have h := one_light (bulb_sound B seeded) rfl (bulb_decided B seeded 0)
  rw [bulb_half, ENNReal.toReal_ofReal (by norm_num)] at h
  exact h

/-- The chance that the first three rays of one simulation all leave upwards is an eighth. -/
example (B : Trimesh) (seeded : ℕ → Numbers) :
    chance (fun s => AllIn (fun _ => Up)
      (Simulate.doSimulation (stage [bulb] emptyWorld B .kT 5 none seeded) 3 none s)) = ENNReal.ofReal (1 / 8) := by
  have hs : ∀ i, throw (stage [bulb] emptyWorld B .kT 5 none seeded) i =
      throw (stage [bulb] emptyWorld B .kT 5 none seeded) 0 := fun i => funext fun s => by
    rw [bulb_throw, bulb_throw]
  obtain ⟨n, hr, hn⟩ := (bulb_sound B seeded).reads
  rw [rays_independent _ hr hn _ (fun i => bulb_decided B seeded i)]
  simp only [hs, bulb_half, Finset.prod_const, Finset.card_range]
  rw [← ENNReal.ofReal_pow (by norm_num)]
  norm_num

end
end PV.Stream
