import Verif.Props.Reemission
import Verif.Props.EndingDemo
import Verif.Props.MeasurableDemo

/-!
C112: a ball with a dye in which no ray fails, whatever numbers are drawn.
-/

namespace PV.Reemission
open MeasureTheory Spec Stream Measured PV.Library
noncomputable section

/-- A dye of quantum yield `q`. -/
def glow (q : ℝ) : Comp := ⟨"glow", .luminophore, .const 1, .table Ending.flat false, q, none, none, .isotropic⟩

/-- A ball of radius 1 with the dye in a world of radius 10. -/
def glowScene (q : ℝ) : LScene 1 where
  node v := { ballScene.node v with comps := if v = 0 then [] else [glow q] }

theorem glow_same (q : ℝ) (v : Fin 2) (p : Vec3 ℝ) : ((glowScene q).node v).w2l.point p = p ∧
    ((glowScene q).node v).w2l.vec p = p ∧ ((glowScene q).node v).l2w.point p = p ∧
    ((glowScene q).node v).l2w.vec p = p := ball_w2l v p

theorem sphere_list (r : ℝ) {o d : Vec3 ℝ} {t : ℝ} (h : t ∈ pySphere r o d) : 0 ≤ t := by
  unfold pySphere at h
  dsimp only at h
  split_ifs at h
  · simp at h
  all_goals
    have := (List.mem_filter.1 h).2
    simpa using this

/-- From a place near the middle the world is met once. -/
theorem world_once {o d : Vec3 ℝ} (ho : o.dot o ≤ 4) (hd : d.dot d = 1) : ∃ t, 1 < t ∧ pySphere 10 o d = [t] := by
  set b := d.dot o with hb
  have h0 : 0 ≤ b ^ 2 + (100 - o.dot o) := by nlinarith
  have hs := Real.sq_sqrt h0
  have hn := Real.sqrt_nonneg (b ^ 2 + (100 - o.dot o))
  have hcs : b ^ 2 ≤ 4 := by
    have : b ^ 2 ≤ d.dot d * o.dot o := by
      simp only [hb, Vec3.dot]
      nlinarith [sq_nonneg (d.x * o.y - d.y * o.x), sq_nonneg (d.x * o.z - d.z * o.x), sq_nonneg (d.y * o.z - d.z * o.y)]
    rw [hd] at this
    linarith
  have hb2 : |b| ≤ 2 := abs_le_of_sq_le_sq (by linarith) (by norm_num)
  obtain ⟨hb3, hb4⟩ := abs_le.1 hb2
  have h8 : 9 < Real.sqrt (b ^ 2 + (100 - o.dot o)) := by
    rw [Real.lt_sqrt (by norm_num)]
    nlinarith [sq_nonneg b]
  have e : (2 * b) ^ 2 - 4 * 1 * (o.dot o - 10 ^ 2) = 2 ^ 2 * (b ^ 2 + (100 - o.dot o)) := by ring
  have es : Real.sqrt (2 ^ 2 * (b ^ 2 + (100 - o.dot o))) = 2 * Real.sqrt (b ^ 2 + (100 - o.dot o)) := by
    rw [Real.sqrt_mul (by norm_num), Real.sqrt_sq (by norm_num)]
  refine ⟨-b + Real.sqrt (b ^ 2 + (100 - o.dot o)), by linarith, ?_⟩
  unfold pySphere
  dsimp only
  rw [hd, ← hb, e, if_neg (by nlinarith), if_neg, es]
  · have e1 : (-(2 * b) - 2 * Real.sqrt (b ^ 2 + (100 - o.dot o))) / (2 * 1) = -b - Real.sqrt (b ^ 2 + (100 - o.dot o)) := by ring
    have e2 : (-(2 * b) + 2 * Real.sqrt (b ^ 2 + (100 - o.dot o))) / (2 * 1) = -b + Real.sqrt (b ^ 2 + (100 - o.dot o)) := by ring
    rw [e1, e2]
    have hsort : sortedBy id [-b - Real.sqrt (b ^ 2 + (100 - o.dot o)), -b + Real.sqrt (b ^ 2 + (100 - o.dot o))] =
        [-b - Real.sqrt (b ^ 2 + (100 - o.dot o)), -b + Real.sqrt (b ^ 2 + (100 - o.dot o))] := by
      unfold sortedBy
      simp only [id, List.insertionSort_cons, List.insertionSort_nil, List.orderedInsert_nil, List.orderedInsert_cons]
      rw [if_pos (by linarith)]
    rw [hsort, List.filter_cons, if_neg (by simp; linarith), List.filter_cons, if_pos (by simp; linarith), List.filter_nil]
  · rw [abs_of_nonneg (by positivity)]
    norm_num
    nlinarith

theorem inter_glow (q : ℝ) (v : Fin 2) (o d : Vec3 ℝ) (t : ℝ) :
    ((glowScene q).node v).inter v o d t = ⟨v, o + t • d, distanceBetween o (o + t • d)⟩ := by
  unfold LNode.inter LNode.localOrigin LNode.localDir
  simp only [(glow_same q v _).1, (glow_same q v _).2.1, (glow_same q v _).2.2.1]

theorem ts_glow (q : ℝ) (v : Fin 2) (o d : Vec3 ℝ) :
    ((glowScene q).node v).pyTs noBoxes o d = pySphere (if v = 0 then 10 else 1) o d := by
  unfold LNode.pyTs LNode.localOrigin LNode.localDir
  rw [(glow_same q v _).1, (glow_same q v _).2.1]
  by_cases h : v = 0 <;> simp [glowScene, ballScene, h, pyIntersect]

/-- What the tracer finds near the middle. -/
theorem glow_hit (q : ℝ) {o d : Vec3 ℝ} (ho : o.dot o ≤ 4) (hd : d.dot d = 1) :
    ∃ h, nextHit epsZero (distanceBetween o) ((glowScene q).intersections noBoxes o d) = .ok (some h) ∧
      (h.hit ≠ 0 → (∃ a, h.adjacent = some a) ∧ ∃ t ∈ pySphere 1 o d, h.dist = t) := by
  obtain ⟨t0, ht0, e0⟩ := world_once ho hd
  have heps : epsZero ≤ 1 := by norm_num [epsZero]
  have heps0 : (0 : ℝ) < epsZero := epsZero_pos
  have hmem : ∀ x ∈ (glowScene q).intersections noBoxes o d, ∃ v : Fin 2, ∃ t ∈ pySphere (if v = 0 then 10 else 1) o d,
      x = ⟨v, o + t • d, t⟩ := by
    intro x hx
    unfold LScene.intersections at hx
    rw [sortedBy, List.mem_insertionSort, List.mem_filter, List.mem_flatMap] at hx
    obtain ⟨⟨v, -, hv⟩, -⟩ := hx
    obtain ⟨t, ht, rfl⟩ := List.mem_map.1 hv
    rw [ts_glow] at ht
    refine ⟨v, t, ht, ?_⟩
    rw [inter_glow, distanceBetween_line hd (sphere_list _ ht)]
  set l := ((glowScene q).intersections noBoxes o d).filter (fun x => ¬ |x.dist| < epsZero) with hl
  have hcount : (l.map (·.hit)).count 0 = 1 := by
    rw [List.count_eq_countP, List.countP_map, hl, List.countP_filter]
    unfold LScene.intersections
    rw [sortedBy, (List.perm_insertionSort _ _).countP_eq, List.countP_filter, List.countP_flatMap]
    have hf : List.finRange (1 + 1) = [(0 : Fin 2), 1] := rfl
    rw [hf]
    simp only [List.map_cons, List.map_nil, Function.comp, List.sum_cons, List.sum_nil, add_zero]
    have h1 : List.countP (fun x : Inter (Fin 2) ℝ => (x.hit == 0 && decide (¬ |x.dist| < epsZero)) &&
        decide (d.dot x.point - d.dot o > epsZero)) ((((glowScene q).node 1).pyTs noBoxes o d).map (((glowScene q).node 1).inter 1 o d)) = 0 := by
      rw [List.countP_eq_zero]
      intro x hx
      obtain ⟨t, -, rfl⟩ := List.mem_map.1 hx
      rw [inter_glow]
      simp
    have h0 : List.countP (fun x : Inter (Fin 2) ℝ => (x.hit == 0 && decide (¬ |x.dist| < epsZero)) &&
        decide (d.dot x.point - d.dot o > epsZero)) ((((glowScene q).node 0).pyTs noBoxes o d).map (((glowScene q).node 0).inter 0 o d)) = 1 := by
      rw [ts_glow, if_pos rfl, e0, List.map_cons, List.map_nil, inter_glow, distanceBetween_line hd (by linarith)]
      have e : d.dot (o + t0 • d) - d.dot o = t0 := by
        rw [Vec3.dot_add, Vec3.dot_smul, hd]; ring
      rw [List.countP_cons, List.countP_nil, if_pos]
      simp only [e, abs_of_nonneg (by linarith : (0 : ℝ) ≤ t0), beq_self_eq_true, Bool.true_and, Bool.and_eq_true, decide_eq_true_eq, not_lt]
      exact ⟨by linarith, by linarith⟩
    exact congrArg₂ (· + ·) h0 h1
  have hw : ∃ x ∈ l, x.hit = 0 := by
    have : (0 : Fin 2) ∈ l.map (·.hit) := List.count_pos_iff.1 (by rw [hcount]; exact one_pos)
    obtain ⟨x, hx, e⟩ := List.mem_map.1 this
    exact ⟨x, hx, e⟩
  have hml : ∀ x ∈ l, ∃ v : Fin 2, ∃ t ∈ pySphere (if v = 0 then 10 else 1) o d, x = ⟨v, o + t • d, t⟩ :=
    fun x hx => hmem x (List.mem_filter.1 hx).1
  unfold nextHit
  dsimp only
  rw [← hl]
  rcases hl' : l with _ | ⟨a, _ | ⟨b, l'⟩⟩
  · rw [hl'] at hw; simp at hw
  · refine ⟨_, rfl, fun h => ?_⟩
    rw [hl'] at hw
    obtain ⟨x, hx, e⟩ := hw
    rw [List.mem_singleton] at hx
    subst hx
    exact absurd e h
  · have hc : ∃ c, findContainer (a :: b :: l') = .ok c := by
      unfold findContainer
      dsimp only
      rcases hs : sortedBy (·.dist) ((a :: b :: l').filter fun x => ((a :: b :: l').map (·.hit)).count x.hit = 1) with _ | ⟨p, ps⟩
      · exfalso
        obtain ⟨x, hx, e⟩ := hw
        rw [hl'] at hx hcount
        have : x ∈ sortedBy (·.dist) ((a :: b :: l').filter fun x => ((a :: b :: l').map (·.hit)).count x.hit = 1) := by
          rw [sortedBy, List.mem_insertionSort, List.mem_filter]
          exact ⟨hx, by rw [e, hcount]; rfl⟩
        rw [hs] at this
        simp at this
      · exact ⟨p.hit, by rw [hs]⟩
    obtain ⟨c, hc⟩ := hc
    simp only [hc]
    refine ⟨_, rfl, fun h => ⟨⟨_, rfl⟩, ?_⟩⟩
    obtain ⟨v, t, ht, e⟩ := hml a (by rw [hl']; simp)
    have hv : v ≠ 0 := by rw [e] at h; exact h
    rw [if_neg hv] at ht
    refine ⟨t, ht, ?_⟩
    rw [e]
    exact distanceBetween_line hd (sphere_list _ ht)

/-- A place on the unit sphere that the tracer finds is not far out. -/
theorem sphere_near {o d : Vec3 ℝ} {t : ℝ} (hd : d.dot d = 1) (h : t ∈ pySphere 1 o d) :
    (o + t • d).dot (o + t • d) ≤ 1 := by
  have e : (o + t • d).dot (o + t • d) = o.dot o + 2 * t * d.dot o + t ^ 2 * d.dot d := by
    simp only [Vec3.dot, Vec3.add_x, Vec3.add_y, Vec3.add_z, Vec3.smul_x, Vec3.smul_y, Vec3.smul_z]; ring
  rw [e, hd]
  unfold pySphere at h
  dsimp only at h
  rw [hd] at h
  generalize d.dot o = b at *
  generalize o.dot o = c at *
  split_ifs at h with h0 h1
  · simp at h
  · have h2 := (List.mem_insertionSort _).1 (List.mem_filter.1 h).1
    rw [List.mem_singleton] at h2
    subst h2
    nlinarith
  · have h2 := (List.mem_insertionSort _).1 (List.mem_filter.1 h).1
    have hs := Real.sq_sqrt (not_lt.1 h0)
    rw [List.mem_cons, List.mem_singleton] at h2
    clear h e
    generalize Real.sqrt ((2 * b) ^ 2 - 4 * 1 * (c - 1 ^ 2)) = r at *
    rcases h2 with rfl | rfl <;> nlinarith

/-- Between two places not far out there are only such places. -/
theorem between {o d : Vec3 ℝ} {t u : ℝ} (ho : o.dot o ≤ 4) (h1 : (o + t • d).dot (o + t • d) ≤ 4) (hu : 0 ≤ u) (ht : u ≤ t) :
    (o + u • d).dot (o + u • d) ≤ 4 := by
  have e : ∀ t, (o + t • d).dot (o + t • d) = o.dot o + 2 * t * d.dot o + t ^ 2 * d.dot d := by
    intro t
    simp only [Vec3.dot, Vec3.add_x, Vec3.add_y, Vec3.add_z, Vec3.smul_x, Vec3.smul_y, Vec3.smul_z]; ring
  rw [e] at h1 ⊢
  have hn : 0 ≤ d.dot d := by simp only [Vec3.dot]; nlinarith [sq_nonneg d.x, sq_nonneg d.y, sq_nonneg d.z]
  generalize d.dot o = b at *
  generalize o.dot o = c at *
  generalize d.dot d = a at *
  rcases eq_or_lt_of_le (hu.trans ht) with h | h
  · have : u = 0 := by linarith
    subst this; linarith
  · have k : (c + 2 * u * b + u ^ 2 * a - 4) * t ≤ 0 := by
      have e2 : (c + 2 * u * b + u ^ 2 * a - 4) * t = (t - u) * (c - 4) + u * (c + 2 * t * b + t ^ 2 * a - 4) - t * u * (t - u) * a := by ring
      have k1 : (t - u) * (c - 4) ≤ 0 := mul_nonpos_of_nonneg_of_nonpos (by linarith) (by linarith)
      have k2 : u * (c + 2 * t * b + t ^ 2 * a - 4) ≤ 0 := mul_nonpos_of_nonneg_of_nonpos hu (by linarith)
      have k3 : 0 ≤ t * u * (t - u) * a := by
        have := sub_nonneg.2 ht
        positivity
      linarith
    nlinarith

/-- Numbers in the range of the generator. -/
def Units (s : Numbers) : Prop := ∀ i, 0 ≤ s i ∧ s i < 1

theorem Units.tail {s : Numbers} (h : Units s) : Units (fun i => s (i + 1)) := fun i => h (i + 1)

/-- A ray not far out. -/
def Near (ray : Ray ℝ) : Prop := ray.position.dot ray.position ≤ 4 ∧ ray.direction.dot ray.direction = 1

theorem glow_comps (q : ℝ) (v : Fin 2) : ((glowScene q).node v).comps = [] ∨ ((glowScene q).node v).comps = [glow q] := by
  by_cases h : v = 0 <;> simp [glowScene, h]

theorem glow_coefficients (q w : ℝ) : coefficients [glow q] w = .ok [1] := rfl

theorem glow_pick (q w : ℝ) {s : Numbers} (hs : Units s) : ∃ t, Units t ∧ pickComponent reader [glow q] w s = .ok (glow q, t) := by
  refine ⟨_, hs.tail, ?_⟩
  obtain ⟨i, hi, e, -⟩ := Material.component_total (cs := [1]) (by simp) (by simp) (hs 0).1 (hs 0).2
  unfold pickComponent
  rw [glow_coefficients]
  simp only [reader, e]
  have : i = 0 := by simpa using hi
  subst this
  rfl

theorem glow_emit (q : ℝ) (ray : Ray ℝ) {s : Numbers} (hs : Units s) :
    ∃ r t, Units t ∧ (glow q).emit reader .full ray s = .ok (r, t) ∧ r.position = ray.position ∧ r.direction.dot r.direction = 1 := by
  have he : Emits (.table Ending.flat false) .full 0 1000 :=
    ⟨Ending.flat, Ending.flat_ok, ⟨0, by simp [Ending.flat], by simp [Ending.flat]⟩, by norm_num [Ending.flat]⟩
  obtain ⟨w, -, e⟩ := Ending.emits_ok he (w := 0) ⟨le_rfl, by norm_num⟩ (hs 2).1 (hs 2).2
  have e' : ∀ x, emitWavelength (.table Ending.flat false) .full x (s 2) = .ok w := fun x => e
  refine ⟨{ ray with direction := sphericalToCart (Real.arccos (2 * s 1 - 1)) (2 * Real.pi * s 0), wavelength := w, source := some "glow" }, _, hs.tail.tail.tail, ?_, rfl, ?_⟩
  · unfold Comp.emit glow
    simp only [PV.Phase.draw, isotropic, reader, if_true, e', truthy]
  · exact Phase.spherical_unit _ _

theorem glow_absorb (q : ℝ) (v : Fin 2) (hv : ((glowScene q).node v).comps = [glow q]) {ray : Ray ℝ} {d : ℝ} {s : Numbers} (hs : Units s)
    (hp : (ray.position + d • ray.direction).dot (ray.position + d • ray.direction) ≤ 4) :
    ∃ es next t, absorbPass (pyOps (glowScene q) noBoxes reader .full) v ray d s = .ok ((es, next), t) ∧ Units t ∧ (∀ r ∈ next, Near r) ∧
      .absorb ∈ es.map (·.event) := by
  unfold absorbPass pyOps
  simp only [hv]
  obtain ⟨t, ht, e⟩ := glow_pick q (ray.propagate d ((glowScene q).node v).index).wavelength hs
  rw [e]
  simp only [Comp.isRadiative, glow, reader]
  by_cases h : t 0 < q
  · simp only [h, decide_true, if_true]
    obtain ⟨r, t', ht', e', hr, hd⟩ := glow_emit q ((ray.propagate d ((glowScene q).node v).index).representation ((glowScene q).node v).w2l) ht.tail
    unfold glow reader at e'
    rw [e']
    refine ⟨_, _, _, rfl, ht', fun r' h' => ?_, by simp⟩
    cases h'
    refine ⟨?_, ?_⟩
    · show (((glowScene q).node v).l2w.point r.position).dot (((glowScene q).node v).l2w.point r.position) ≤ 4
      rw [(glow_same q v _).2.2.1, hr]
      show (((glowScene q).node v).w2l.point _).dot (((glowScene q).node v).w2l.point _) ≤ 4
      rw [(glow_same q v _).1]
      exact hp
    · show (((glowScene q).node v).l2w.vec r.direction).dot (((glowScene q).node v).l2w.vec r.direction) = 1
      rw [(glow_same q v _).2.2.2, hd]
  · simp only [h, decide_false, Comp.nonradiativeAbsorb, truthy]
    exact ⟨_, none, _, rfl, ht.tail, by simp, by simp⟩

theorem glow_surface (q : ℝ) (h : HitInfo (Fin 2) ℝ) (h0 : h.hit ≠ 0) (ha : ∃ a, h.adjacent = some a) {ray : Ray ℝ} {s : Numbers} (hs : Units s)
    (hp : (ray.position + h.dist • ray.direction).dot (ray.position + h.dist • ray.direction) ≤ 4)
    (hd : ray.direction.dot ray.direction = 1) :
    ∃ es next t, surfacePass (pyOps (glowScene q) noBoxes reader .full) h ray s = .ok ((es, next), t) ∧ Units t ∧ ∀ r ∈ next, Near r := by
  obtain ⟨a, ha⟩ := ha
  have hn : ∃ n, (pyOps (glowScene q) noBoxes reader .full).normal h.hit (ray.propagate h.dist ((glowScene q).node h.container).index).position = .ok n := by
    unfold pyOps
    simp [glowScene, ballScene, h0, pyNormal]
  obtain ⟨n, hn⟩ := hn
  have hnull : ((glowScene q).node h.hit).surface = .null := by
    simp [glowScene, ballScene, h0]
  have hr : ∀ ray, (pyOps (glowScene q) noBoxes reader .full).isReflected h.hit h.container h.adjacent ray s = .ok (false, s) := by
    intro ray
    unfold pyOps LScene.isReflected LScene.reflectivity
    simp [hnull, PV.isReflected]
  have ht : ∀ ray, (pyOps (glowScene q) noBoxes reader .full).transmit h.hit h.container h.adjacent ray s = .ok (ray, s) := by
    intro ray
    unfold pyOps LScene.transmitted LNode.turn
    simp only [hnull, Ray.representation, (glow_same q _ _).1, (glow_same q _ _).2.1, (glow_same q _ _).2.2.1, (glow_same q _ _).2.2.2]
  unfold surfacePass
  dsimp only
  rw [show (pyOps (glowScene q) noBoxes reader .full).refractiveIndex h.container = ((glowScene q).node h.container).index from rfl, hn]
  simp only [hr, ht]
  rw [ha]
  refine ⟨_, _, _, rfl, hs, fun r h' => ?_⟩
  cases h'
  exact ⟨hp, hd⟩

theorem glow_pass (q : ℝ) (maxsteps : ℕ) (maxpath : Option ℝ) (count : ℕ) {ray : Ray ℝ} (hray : Near ray) {s : Numbers} (hs : Units s) :
    ∃ es next t, pass (pyOps (glowScene q) noBoxes reader .full) maxsteps maxpath count ray s = .ok ((es, next), t) ∧ Units t ∧ (∀ r ∈ next, Near r) ∧ (maxsteps < count → next = none) := by
  obtain ⟨h, e, hh⟩ := glow_hit q hray.1 hray.2
  unfold pass
  rw [show (pyOps (glowScene q) noBoxes reader .full).intersections ray.position ray.direction =
    .ok ((glowScene q).intersections noBoxes ray.position ray.direction) from rfl]
  dsimp only
  rw [show nextHit (pyOps (glowScene q) noBoxes reader .full).eps ((pyOps (glowScene q) noBoxes reader .full).distBetween ray.position)
    ((glowScene q).intersections noBoxes ray.position ray.direction) = _ from e]
  dsimp only
  split_ifs with h1 h2
  · exact ⟨_, none, _, rfl, hs, by simp, fun _ => rfl⟩
  · exact ⟨_, none, _, rfl, hs, by simp, fun _ => rfl⟩
  · have hno : ∀ next : Option (Ray ℝ), maxsteps < count → next = none := fun _ h => absurd (Or.inl h) h1
    obtain ⟨ha, t, ht, hdist⟩ := hh h2
    have hp := sphere_near hray.2 ht
    rw [← hdist] at hp
    rw [show (pyOps (glowScene q) noBoxes reader .full).penetrationDepth h.container ray.wavelength s =
      penetrationDepth reader ((glowScene q).node h.container).comps ray.wavelength s from rfl]
    rcases glow_comps q h.container with hc | hc
    · have e1 : penetrationDepth reader ((glowScene q).node h.container).comps ray.wavelength s = .ok (none, s) := by
        rw [hc]
        unfold penetrationDepth
        simp [coefficients, pure, Except.pure]
        norm_num
      rw [e1]
      obtain ⟨es, next, t, e, h4, h5⟩ := glow_surface q h h2 ha hs (hp.trans (by norm_num)) hray.2
      exact ⟨es, next, t, e, h4, h5, hno _⟩
    · have e1 : penetrationDepth reader ((glowScene q).node h.container).comps ray.wavelength s =
          .ok (some (-Real.log (1 - s 0) / 1), fun i => s (i + 1)) := by
        rw [hc]
        unfold penetrationDepth
        rw [glow_coefficients]
        simp only [List.sum_cons, List.sum_nil, add_zero, reader]
        rw [if_neg (by norm_num)]
      rw [e1]
      dsimp only
      unfold isAbsorbed
      dsimp only
      split_ifs with h3
      · have hl := Real.log_nonpos (by linarith [(hs 0).2]) (by linarith [(hs 0).1] : 1 - s 0 ≤ 1)
        obtain ⟨es, next, t, e, h4, h5, -⟩ := glow_absorb q h.container hc hs.tail
          (between hray.1 (hp.trans (by norm_num)) (by linarith) h3.le)
        exact ⟨es, next, t, e, h4, h5, hno _⟩
      · obtain ⟨es, next, t, e, h4, h5⟩ := glow_surface q h h2 ha hs.tail (hp.trans (by norm_num)) hray.2
        exact ⟨es, next, t, e, h4, h5, hno _⟩

theorem glow_passes (q : ℝ) (maxsteps : ℕ) (maxpath : Option ℝ) : ∀ (fuel count : ℕ), maxsteps + 1 ≤ fuel + count → 0 < fuel →
    ∀ (ray : Ray ℝ), Near ray → ∀ (s : Numbers), Units s →
    ∃ x, passes (pyOps (glowScene q) noBoxes reader .full) maxsteps maxpath fuel count ray s = .ok x
  | 0, count, _, h => absurd h (lt_irrefl _)
  | fuel + 1, count, hf, _ => by
    intro ray hray s hs
    obtain ⟨es, next, t, e, ht, hn, hl⟩ := glow_pass q maxsteps maxpath (count + 1) hray hs
    unfold passes
    rw [e]
    dsimp only
    rcases next with _ | r
    · exact ⟨_, rfl⟩
    · have hf' : 0 < fuel := by
        rcases Nat.eq_zero_or_pos fuel with h | h
        · cases hl (by omega)
        · exact h
      obtain ⟨x, e'⟩ := glow_passes q maxsteps maxpath fuel (count + 1) (by omega) hf' r (hn r rfl) t ht
      simp only [e']
      exact ⟨_, rfl⟩

/-- No ray fails in the ball. -/
theorem glow_safe (q : ℝ) (maxsteps : ℕ) (maxpath : Option ℝ) {ray : Ray ℝ} (hray : Near ray) :
    Safe (Stream.follow (pyOps (glowScene q) noBoxes reader .full) maxsteps maxpath ray) := by
  filter_upwards [in_unit] with s hs
  obtain ⟨x, e⟩ := glow_passes q maxsteps maxpath (maxsteps + 1) 0 le_rfl (Nat.succ_pos _) ray hray s hs
  unfold Stream.follow
  rw [e]
  exact ⟨_, rfl⟩

theorem glow_yields (q : ℝ) (v : Fin 2) : ∀ c ∈ ((glowScene q).node v).comps, c.kind = .luminophore ∧ c.qy = q := by
  intro c hc
  rcases glow_comps q v with h | h <;> rw [h] at hc
  · simp at hc
  · rw [List.mem_singleton] at hc
    subst hc
    exact ⟨rfl, rfl⟩

theorem inner_near : Near innerRay := by constructor <;> norm_num [innerRay, Vec3.dot]

/-- A small first number has the ray absorbed. -/
theorem inner_absorbed (q : ℝ) (maxsteps : ℕ) {s : Numbers} (hs : Units s) (h : s 0 < 1 / 2) :
    Yields (Stream.follow (pyOps (glowScene q) noBoxes reader .full) (maxsteps + 1) none innerRay) (fun h => 1 ≤ often .absorb h) s := by
  have hp : ∃ es next t, pass (pyOps (glowScene q) noBoxes reader .full) (maxsteps + 1) none (0 + 1) innerRay s = .ok ((es, next), t) ∧
      .absorb ∈ es.map (·.event) := by
    unfold pass
    rw [show (pyOps (glowScene q) noBoxes reader .full).intersections innerRay.position innerRay.direction =
      .ok (ballScene.intersections noBoxes innerRay.position innerRay.direction) from rfl]
    dsimp only
    rw [show nextHit (pyOps (glowScene q) noBoxes reader .full).eps ((pyOps (glowScene q) noBoxes reader .full).distBetween innerRay.position)
      (ballScene.intersections noBoxes innerRay.position innerRay.direction) = _ from inner_hit]
    dsimp only
    rw [if_neg (by simp [beyond]), if_neg (show ¬ 1 = (pyOps (glowScene q) noBoxes reader .full).root from by show ¬ (1 : Fin 2) = 0; decide)]
    have e1 : (pyOps (glowScene q) noBoxes reader .full).penetrationDepth 1 innerRay.wavelength s =
        .ok (some (-Real.log (1 - s 0) / 1), fun i => s (i + 1)) := by
      show penetrationDepth reader [glow q] innerRay.wavelength s = _
      unfold penetrationDepth
      rw [glow_coefficients]
      simp only [List.sum_cons, List.sum_nil, add_zero, reader]
      rw [if_neg (by norm_num)]
    rw [e1]
    have hl : -Real.log (1 - s 0) / 1 < 2 := by
      have h1 : Real.log (1 / 2) ≤ Real.log (1 - s 0) := Real.log_le_log (by norm_num) (by linarith)
      have h2 := Real.log_le_sub_one_of_pos (show (0 : ℝ) < 2 by norm_num)
      rw [one_div, Real.log_inv] at h1
      linarith
    have hl0 := Real.log_nonpos (by linarith [(hs 0).2]) (by linarith [(hs 0).1] : 1 - s 0 ≤ 1)
    simp only [isAbsorbed, hl, if_true]
    obtain ⟨es, next, t, e, -, -, ha⟩ := glow_absorb q 1 (by simp [glowScene]) (ray := innerRay) hs.tail
      (between (t := 2) (u := -Real.log (1 - s 0) / 1) inner_near.1 (by norm_num [innerRay, Vec3.dot]) (by linarith) hl.le)
    exact ⟨es, next, t, e, ha⟩
  obtain ⟨es, next, t, e, ha⟩ := hp
  obtain ⟨x, hx⟩ := glow_passes q (maxsteps + 1) none (maxsteps + 1 + 1) 0 le_rfl (Nat.succ_pos _) innerRay inner_near s hs
  have hm : .absorb ∈ x.1.map (·.event) := by
    unfold passes at hx
    rw [e] at hx
    dsimp only at hx
    rcases next with _ | r
    · cases hx; exact ha
    · dsimp only at hx
      rcases hy : passes (pyOps (glowScene q) noBoxes reader .full) (maxsteps + 1) none (maxsteps + 1) (0 + 1) r t with y | ⟨y, t'⟩ <;> rw [hy] at hx
      · cases hx
      · cases hx
        rw [List.map_append]
        exact List.mem_append_left _ ha
  refine ⟨_, x.2, by unfold Stream.follow; rw [hx], ?_⟩
  obtain ⟨a, h1, h2⟩ := List.mem_map.1 hm
  exact List.length_pos_of_mem (a := (a.ray, a.event))
    (List.mem_filter.2 ⟨List.mem_cons_of_mem _ (List.mem_map.2 ⟨a, h1, rfl⟩), by simp [h2]⟩)

/-- The ray is absorbed at least half of the time. -/
theorem inner_often (q : ℝ) (maxsteps : ℕ) : ENNReal.ofReal (1 / 2) ≤
    chance (Yields (Stream.follow (pyOps (glowScene q) noBoxes reader .full) (maxsteps + 1) none innerRay) (fun h => 1 ≤ often .absorb h)) := by
  have e := chance_first {u | u < 1 / 2} measurableSet_Iio Set.univ MeasurableSet.univ
  have h : independent {s | s 0 ∈ {u : ℝ | u < 1 / 2} ∧ rest s ∈ Set.univ} ≤
      chance (Yields (Stream.follow (pyOps (glowScene q) noBoxes reader .full) (maxsteps + 1) none innerRay) (fun h => 1 ≤ often .absorb h)) := by
    refine measure_mono_ae ?_
    filter_upwards [in_unit] with s hs h
    exact inner_absorbed q maxsteps hs h.1
  rw [e, measure_univ, mul_one] at h
  exact (uniform_ge le_rfl (by norm_num)).trans h

-- the hypotheses of the theorems hold for the ball, for every limit on the number of steps
example (maxsteps k : ℕ) :
    chance (Yields (Stream.follow (pyOps (glowScene (1 / 2)) noBoxes reader .full) maxsteps none innerRay) (fun h => k ≤ often .emit h)) ≤
      ENNReal.ofReal (1 / 2) ^ k :=
  reemitted _ _ borel_noBoxes innerRay (by norm_num) (fun v c hc _ => (glow_yields (1 / 2) v c hc).2.le) k

example (maxsteps : ℕ) :
    meanOf .emit (Stream.follow (pyOps (glowScene (1 / 2)) noBoxes reader .full) maxsteps none innerRay) ≤
      ENNReal.ofReal ((1 / 2) / (1 - 1 / 2)) :=
  mean_reemitted _ _ borel_noBoxes innerRay (by norm_num) (by norm_num) (fun v c hc _ => (glow_yields (1 / 2) v c hc).2.le)

example (maxsteps k : ℕ) (hk : 0 < k) :
    chance (Yields (Stream.follow (pyOps (glowScene (1 / 2)) noBoxes reader .full) maxsteps none innerRay) (fun h => k ≤ often .emit h)) =
      ENNReal.ofReal (1 / 2) *
        chance (Yields (Stream.follow (pyOps (glowScene (1 / 2)) noBoxes reader .full) maxsteps none innerRay) (fun h => k ≤ often .absorb h)) :=
  share_eq _ _ borel_noBoxes (glow_safe _ _ _ inner_near) (by norm_num) (by norm_num) (glow_yields _) hk

example (maxsteps : ℕ) :
    meanOf .emit (Stream.follow (pyOps (glowScene (1 / 2)) noBoxes reader .full) maxsteps none innerRay) =
      ENNReal.ofReal (1 / 2) * meanOf .absorb (Stream.follow (pyOps (glowScene (1 / 2)) noBoxes reader .full) maxsteps none innerRay) :=
  mean_share _ _ borel_noBoxes (glow_safe _ _ _ inner_near) (by norm_num) (by norm_num) (glow_yields _)

/-- Neither side is 0: at least a quarter of the rays are re-emitted. -/
theorem inner_quarter (maxsteps : ℕ) : ENNReal.ofReal (1 / 2) * ENNReal.ofReal (1 / 2) ≤
    chance (Yields (Stream.follow (pyOps (glowScene (1 / 2)) noBoxes reader .full) (maxsteps + 1) none innerRay) (fun h => 1 ≤ often .emit h)) := by
  rw [share_eq _ _ borel_noBoxes (glow_safe _ _ _ inner_near) (by norm_num) (by norm_num) (glow_yields _) one_pos]
  exact mul_le_mul_right (inner_often _ _) _

end
end PV.Reemission
