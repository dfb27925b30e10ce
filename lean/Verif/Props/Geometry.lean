import Verif.Lemmas.Geometry

/-!
C42, C43, C44 and C45: intersections and normals of the shapes.
-/

namespace PV.Geometry
open PV PV.Geo PV.Solid

/-- The direction has no component that the engine takes for zero although it is not. -/
def ClearDir : Geom → Vec3 ℝ → Prop
  | .box _, d => Clear d.x ∧ Clear d.y ∧ Clear d.z
  | .sphere _, _ => True
  | .cylinder _ _, d =>
    ((d.x = 0 ∧ d.y = 0) ∨ tiny < d.x * d.x + d.y * d.y) ∧ (d.z = 0 ∨ tiny < |d.z|)

/-- The ends of an interval that lie ahead of the ray. -/
noncomputable def ahead (a b : ℝ) : List ℝ := [a, b].filter (fun t => epsZero < t)

theorem ne_zero_of_unit {d : Vec3 ℝ} (hd : d.dot d = 1) : d.x ≠ 0 ∨ d.y ≠ 0 ∨ d.z ≠ 0 := by
  by_contra hc
  push Not at hc
  simp [Vec3.dot, hc.1, hc.2.1, hc.2.2] at hd

theorem box_core' {s o d : Vec3 ℝ} (hs : Proper (.box s)) (hc : ClearDir (.box s) d)
    (hd : d.x ≠ 0 ∨ d.y ≠ 0 ∨ d.z ≠ 0) :
    ((∀ t : ℝ, ¬ Closed (.box s) (o + t • d)) ∧ kBox s o d = []) ∨
    ∃ a b, (∀ t : ℝ, Closed (.box s) (o + t • d) ↔ a ≤ t ∧ t ≤ b) ∧
      ((∃ t : ℝ, Inner (.box s) (o + t • d)) →
        ∀ t : ℝ, Inner (.box s) (o + t • d) ↔ a < t ∧ t < b) ∧
      kBox s o d = if b < a then [] else ahead a b := by
  obtain ⟨sx, sy, sz⟩ := hs
  obtain ⟨cx, cy, cz⟩ := hc
  unfold kBox
  simp only [Closed, Inner, Vec3.add_x, Vec3.add_y, Vec3.add_z, Vec3.smul_x, Vec3.smul_y,
    Vec3.smul_z]
  cases hx : kSlab s.x o.x d.x (none, none) with
  | none => exact .inl ⟨fun t h => kSlab_none sx cx hx t h.1, rfl⟩
  | some ax =>
    simp only [Option.bind_some]
    cases hy : kSlab s.y o.y d.y ax with
    | none => exact .inl ⟨fun t h => kSlab_none sy cy hy t h.2.1, rfl⟩
    | some ay =>
      simp only [Option.bind_some]
      cases hz : kSlab s.z o.z d.z ay with
      | none => exact .inl ⟨fun t h => kSlab_none sz cz hz t h.2.2, rfl⟩
      | some az =>
        right
        have key : ∃ a b, az = (some a, some b) := by
          rcases hd with h | h | h
          · exact kSlab_set sz cz hz (.inr (kSlab_set sy cy hy (.inr (kSlab_set sx cx hx (.inl h)))))
          · exact kSlab_set sz cz hz (.inr (kSlab_set sy cy hy (.inl h)))
          · exact kSlab_set sz cz hz (.inl h)
        obtain ⟨a, b, rfl⟩ := key
        have e0 : ∀ t, InAcc (none, none) t := fun t => by simp [InAcc]
        have e0' : ∀ t, InAccS (none, none) t := fun t => by simp [InAccS]
        refine ⟨a, b, fun t => ?_, fun ⟨t0, hin⟩ t => ?_, rfl⟩
        · have := (kSlab_some sz cz hz t).1
          rw [(kSlab_some sy cy hy t).1, (kSlab_some sx cx hx t).1] at this
          simp only [InAcc, Option.some.injEq, forall_eq'] at this
          rw [this]
          have := e0 t
          simp only [InAcc] at this
          tauto
        · have := (kSlab_some sz cz hz t).2 (fun h => by simpa [h] using hin.2.2)
          rw [(kSlab_some sy cy hy t).2 (fun h => by simpa [h] using hin.2.1),
            (kSlab_some sx cx hx t).2 (fun h => by simpa [h] using hin.1)] at this
          simp only [InAccS, Option.some.injEq, forall_eq'] at this
          rw [this]
          have := e0' t
          simp only [InAccS] at this
          tauto

theorem box_core {s o d : Vec3 ℝ} (hs : Proper (.box s)) (hc : ClearDir (.box s) d)
    (hd : d.dot d = 1) :
    ((∀ t : ℝ, ¬ Closed (.box s) (o + t • d)) ∧ kBox s o d = []) ∨
    ∃ a b, (∀ t : ℝ, Closed (.box s) (o + t • d) ↔ a ≤ t ∧ t ≤ b) ∧
      ((∃ t : ℝ, Inner (.box s) (o + t • d)) →
        ∀ t : ℝ, Inner (.box s) (o + t • d) ↔ a < t ∧ t < b) ∧
      kBox s o d = if b < a then [] else ahead a b := box_core' hs hc (ne_zero_of_unit hd)

/-- **C42**. Either the line misses the closed box and nothing is reported, or it is in the box exactly
for parameters between `a` and `b`, and those of `a`, `b` ahead of the ray are reported. -/
theorem box_crossings {s o d : Vec3 ℝ} (hs : Proper (.box s)) (hc : ClearDir (.box s) d)
    (hd : d.dot d = 1) :
    ((∀ t : ℝ, ¬ Closed (.box s) (o + t • d)) ∧ kBox s o d = []) ∨
    ∃ a b, a ≤ b ∧ (∀ t : ℝ, Closed (.box s) (o + t • d) ↔ a ≤ t ∧ t ≤ b) ∧
      kBox s o d = ahead a b := by
  rcases box_core (o := o) hs hc hd with h | ⟨a, b, h1, -, h3⟩
  · exact .inl h
  · rcases lt_or_ge b a with hlt | hge
    · left
      refine ⟨fun t ht => ?_, by rw [h3, if_pos hlt]⟩
      have := (h1 t).1 ht; linarith
    · exact .inr ⟨a, b, hge, h1, by rw [h3, if_neg (not_lt.2 hge)]⟩

/-- **C42**. Nothing is reported exactly when no point of the box lies ahead of the ray. -/
theorem box_miss {s o d : Vec3 ℝ} (hs : Proper (.box s)) (hc : ClearDir (.box s) d)
    (hd : d.dot d = 1) :
    kBox s o d = [] ↔ ∀ t : ℝ, epsZero < t → ¬ Closed (.box s) (o + t • d) := by
  rcases box_crossings (o := o) hs hc hd with ⟨h1, h2⟩ | ⟨a, b, hab, h1, h2⟩
  · simp [h2, h1]
  · rw [h2]
    constructor
    · intro h t ht hcl
      have hb : epsZero < b := lt_of_lt_of_le ht ((h1 t).1 hcl).2
      have : b ∈ ahead a b := by simp [ahead, hb]
      rw [h] at this
      simp at this
    · intro h
      have hb : ¬ epsZero < b := fun hb => h b hb ((h1 b).2 ⟨hab, le_refl b⟩)
      have ha : ¬ epsZero < a := fun ha => hb (lt_of_lt_of_le ha hab)
      simp [ahead, ha, hb]

/-! ### Sphere -/

theorem sphere_quad (r : ℝ) (o d : Vec3 ℝ) (t : ℝ) :
    (o + t • d).x ^ 2 + (o + t • d).y ^ 2 + (o + t • d).z ^ 2 - r ^ 2 =
      d.dot d * t ^ 2 + 2 * d.dot o * t + (o.dot o - r ^ 2) := by
  simp [Vec3.dot]; ring

theorem kSphere_eq (r : ℝ) (o d : Vec3 ℝ) : kSphere r o d =
    if (2 * d.dot o) ^ 2 - 4 * d.dot d * (o.dot o - r ^ 2) < 0 then [] else
    ahead ((-(2 * d.dot o) - Real.sqrt ((2 * d.dot o) ^ 2 - 4 * d.dot d * (o.dot o - r ^ 2))) /
        (2 * d.dot d))
      ((-(2 * d.dot o) + Real.sqrt ((2 * d.dot o) ^ 2 - 4 * d.dot d * (o.dot o - r ^ 2))) /
        (2 * d.dot d)) := by
  unfold kSphere ahead
  simp only [pow_two]

/-- **C43** (engine). The reported parameters are exactly those ahead of the ray at which it is on the
sphere. -/
theorem sphere_engine {r : ℝ} {o d : Vec3 ℝ} (hd : d.dot d = 1) (t : ℝ) :
    t ∈ kSphere r o d ↔ epsZero < t ∧
      (o + t • d).x ^ 2 + (o + t • d).y ^ 2 + (o + t • d).z ^ 2 = r ^ 2 := by
  have ha : (0 : ℝ) < d.dot d := by rw [hd]; norm_num
  rw [kSphere_eq, ← sub_eq_zero (b := r ^ 2), sphere_quad]
  split
  · next h =>
    have := quad_none ha h t
    simp only [List.not_mem_nil, false_iff, not_and]
    intro _; linarith
  · next h =>
    rw [(quad_spec ha (not_lt.1 h) t).2.2]
    simp only [ahead, List.mem_filter, List.mem_cons, List.not_mem_nil, or_false, decide_eq_true_eq]
    tauto

/-- **C43** (engine). The reported parameters come in order of distance. -/
theorem sphere_engine_sorted {r : ℝ} {o d : Vec3 ℝ} (hd : d.dot d = 1) :
    (kSphere r o d).Pairwise (· ≤ ·) := by
  have ha : (0 : ℝ) < d.dot d := by rw [hd]; norm_num
  rw [kSphere_eq]
  split
  · exact List.Pairwise.nil
  · refine List.Pairwise.filter _ ?_
    simp only [List.pairwise_cons, List.mem_cons, List.not_mem_nil, or_false, forall_eq,
      IsEmpty.forall_iff, implies_true, List.Pairwise.nil, and_true]
    rw [div_le_div_iff_of_pos_right (by linarith)]
    linarith [Real.sqrt_nonneg ((2 * d.dot o) ^ 2 - 4 * d.dot d * (o.dot o - r ^ 2))]

/-- The discriminant computed by both codes; for a unit direction it is four times the squared half
chord. -/
noncomputable def disc (r : ℝ) (o d : Vec3 ℝ) : ℝ :=
  (2 * d.dot o) ^ 2 - 4 * d.dot d * (o.dot o - r ^ 2)

theorem pySphere_eq {r : ℝ} {o d : Vec3 ℝ} (h : 1e-8 < disc r o d) (hd : d.dot d = 1) :
    pySphere r o d = [(-(2 * d.dot o) - Real.sqrt (disc r o d)) / (2 * d.dot d),
      (-(2 * d.dot o) + Real.sqrt (disc r o d)) / (2 * d.dot d)].filter (fun t => t ≥ 0) := by
  have h0 : (0 : ℝ) < disc r o d := lt_trans (by norm_num) h
  have hab : ¬ |disc r o d| ≤ 1e-8 := by rw [abs_of_pos h0]; exact not_le.2 h
  unfold pySphere
  unfold disc at h h0 hab ⊢
  simp only [not_lt.2 h0.le, if_false, hab]
  congr 1
  apply sortedBy_of_pairwise
  simp only [List.pairwise_cons, List.mem_cons, List.not_mem_nil, or_false, forall_eq,
      IsEmpty.forall_iff, implies_true, List.Pairwise.nil, and_true, id]
  rw [div_le_div_iff_of_pos_right (by rw [hd]; norm_num)]
  linarith [Real.sqrt_nonneg ((2 * d.dot o) ^ 2 - 4 * d.dot d * (o.dot o - r ^ 2))]

/-- **C43** (Python, away from tangency). If the line clearly meets or clearly misses the sphere (the
discriminant is above 1e-8 or negative), the reported points are exactly the points of the ray on the
sphere, in order. Missing: lines nearly tangent to the sphere, see `near_tangent`. -/
theorem sphere_python_partial {r : ℝ} {o d : Vec3 ℝ} (hd : d.dot d = 1)
    (h : disc r o d < 0 ∨ 1e-8 < disc r o d) :
    (∀ t, t ∈ pySphere r o d ↔ 0 ≤ t ∧
      (o + t • d).x ^ 2 + (o + t • d).y ^ 2 + (o + t • d).z ^ 2 = r ^ 2) ∧
    (pySphere r o d).Pairwise (· ≤ ·) := by
  have ha : (0 : ℝ) < d.dot d := by rw [hd]; norm_num
  rcases h with h | h
  · have e : pySphere r o d = [] := by
      unfold disc at h
      simp only [pySphere, h, if_true]
    rw [e]
    refine ⟨fun t => ?_, List.Pairwise.nil⟩
    rw [← sub_eq_zero (b := r ^ 2), sphere_quad]
    have := quad_none ha h t
    simp only [List.not_mem_nil, false_iff, not_and]
    intro _; linarith
  · have h0 : (0 : ℝ) < disc r o d := lt_trans (by norm_num) h
    rw [pySphere_eq h hd]
    refine ⟨fun t => ?_, List.Pairwise.filter _ ?_⟩
    · rw [← sub_eq_zero (b := r ^ 2), sphere_quad, (quad_spec ha h0.le t).2.2]
      simp only [List.mem_filter, List.mem_cons, List.not_mem_nil, or_false, decide_eq_true_eq,
        ge_iff_le]
      unfold disc
      tauto
    · simp only [List.pairwise_cons, List.mem_cons, List.not_mem_nil, or_false, forall_eq,
        IsEmpty.forall_iff, implies_true, List.Pairwise.nil, and_true]
      rw [div_le_div_iff_of_pos_right (by linarith)]
      linarith [Real.sqrt_nonneg (disc r o d)]

/-- **C43** (Python, near tangency). For a discriminant between 0 and 1e-8 one point is reported (if
ahead) instead of two. It is inside the sphere, off the surface by `disc/4` in squared distance. -/
theorem near_tangent {r : ℝ} {o d : Vec3 ℝ} (hd : d.dot d = 1) (h0 : 0 ≤ disc r o d)
    (h1 : disc r o d ≤ 1e-8) {t : ℝ} (ht : t ∈ pySphere r o d) :
    t = -(d.dot o) ∧
    (o + t • d).x ^ 2 + (o + t • d).y ^ 2 + (o + t • d).z ^ 2 = r ^ 2 - disc r o d / 4 := by
  have : t = -(d.dot o) := by
    unfold pySphere at ht
    have hab : |disc r o d| ≤ 1e-8 := by rw [abs_of_nonneg h0]; exact h1
    unfold disc at h0 hab
    simp only [not_lt.2 h0, if_false, hab, if_true, List.mem_filter, mem_sortedBy,
      List.mem_singleton] at ht
    rw [ht.1, hd]; ring
  refine ⟨this, ?_⟩
  have := sphere_quad r o d t
  rw [hd] at this
  subst t
  unfold disc
  rw [hd]
  linarith

/-- **C43** (violated by Python). A small sphere (radius 1e-5) seen from its centre: the engine reports
the exit point, Python reports only the position of the ray itself, which the tracer discards. -/
theorem small_sphere : ∃ (r : ℝ) (o d : Vec3 ℝ), d.dot d = 1 ∧ Proper (.sphere r) ∧
    Inner (.sphere r) o ∧ pySphere r o d = [0] ∧ r ∈ kSphere r o d := by
  refine ⟨1 / 100000, ⟨0, 0, 0⟩, ⟨0, 0, 1⟩, by norm_num [Vec3.dot], by norm_num [Proper],
    by norm_num [Inner], ?_, ?_⟩
  · unfold pySphere
    rw [if_neg (by norm_num [Vec3.dot]), if_pos (by norm_num [Vec3.dot, abs_le])]
    norm_num [sortedBy, List.insertionSort, List.orderedInsert, Vec3.dot]
  · rw [sphere_engine (by norm_num [Vec3.dot])]
    norm_num [epsZero]

/-! ### Cylinder -/

theorem cyl_quad (r : ℝ) (o d : Vec3 ℝ) (t : ℝ) :
    (o.x + t * d.x) ^ 2 + (o.y + t * d.y) ^ 2 - r ^ 2 =
      (d.x * d.x + d.y * d.y) * t ^ 2 + 2 * (o.x * d.x + o.y * d.y) * t +
        (o.x * o.x + o.y * o.y - r * r) := by
  ring

/-- On the side of the cylinder, without its rims. -/
def OnSide (l r : ℝ) (p : Vec3 ℝ) : Prop := p.x ^ 2 + p.y ^ 2 = r ^ 2 ∧ |p.z| < l / 2

/-- On one of the caps, with the rim. -/
def OnCap (l r : ℝ) (p : Vec3 ℝ) : Prop := p.x ^ 2 + p.y ^ 2 ≤ r ^ 2 ∧ |p.z| = l / 2

/-- On one of the caps, without the rim. -/
def OnCapInner (l r : ℝ) (p : Vec3 ℝ) : Prop := p.x ^ 2 + p.y ^ 2 < r ^ 2 ∧ |p.z| = l / 2

theorem surface_iff {l r : ℝ} (p : Vec3 ℝ) :
    Surface (.cylinder l r) p ↔ OnSide l r p ∨ OnCap l r p := by
  simp only [Surface, Closed, Inner, OnSide, OnCap, not_and, not_lt]
  constructor
  · rintro ⟨⟨h1, h2⟩, h3⟩
    rcases h1.lt_or_eq with h | h
    · exact .inr ⟨h1, le_antisymm h2 (h3 h)⟩
    · rcases h2.lt_or_eq with h' | h'
      · exact .inl ⟨h, h'⟩
      · exact .inr ⟨h1, h'⟩
  · rintro (⟨h1, h2⟩ | ⟨h1, h2⟩)
    · exact ⟨⟨h1.le, h2.le⟩, fun h => absurd h1 h.ne⟩
    · exact ⟨⟨h1, h2.le⟩, fun _ => h2.ge⟩

theorem cap_param {l o d : ℝ} (hl : 0 < l) (hd : d ≠ 0) (t : ℝ) :
    |o + t * d| = l / 2 ↔ t = (-0.5 * l - o) / d ∨ t = (0.5 * l - o) / d := by
  rw [abs_eq (by linarith), eq_div_iff hd, eq_div_iff hd]
  constructor
  · rintro (h | h)
    · right; linarith
    · left; linarith
  · rintro (h | h)
    · right; linarith
    · left; linarith

theorem mem_kCylinder {l r : ℝ} {o d : Vec3 ℝ} (hl : 0 < l) (hc : ClearDir (.cylinder l r) d)
    (t : ℝ) : t ∈ kCylinder l r o d ↔ epsZero < t ∧
      ((¬ (d.x = 0 ∧ d.y = 0) ∧ OnSide l r (o + t • d)) ∨ (d.z ≠ 0 ∧ OnCap l r (o + t • d))) := by
  unfold kCylinder OnSide OnCap
  simp only [List.mem_filter, List.mem_append, decide_eq_true_eq, gt_iff_lt, Vec3.add_x, Vec3.add_y,
    Vec3.add_z, Vec3.smul_x, Vec3.smul_y, Vec3.smul_z]
  rw [and_comm]
  refine and_congr_right fun _ => ?_
  refine or_congr ?_ ?_
  · rcases hc.1 with ⟨hx, hy⟩ | hA
    · rw [if_neg (by rw [hx, hy]; have := tiny_pos; norm_num; exact this.le)]
      simp [hx, hy]
    · have hA0 : 0 < d.x * d.x + d.y * d.y := lt_trans tiny_pos hA
      have hn : ¬ (d.x = 0 ∧ d.y = 0) := by rintro ⟨h1, h2⟩; simp [h1, h2] at hA0
      rw [if_pos hA, ← sub_eq_zero (b := r ^ 2), cyl_quad, abs_lt]
      have e : (2 * (o.x * d.x + o.y * d.y)) * (2 * (o.x * d.x + o.y * d.y)) =
        (2 * (o.x * d.x + o.y * d.y)) ^ 2 := by ring
      rw [e]
      split
      · next h =>
        rw [(quad_spec hA0 h t).2.2]
        simp only [hn, not_false_iff, true_and, List.mem_filter, List.mem_cons, List.not_mem_nil,
          or_false, decide_eq_true_eq]
        refine and_congr_right fun _ => ?_
        norm_num
        constructor <;> rintro ⟨h1, h2⟩ <;> constructor <;> linarith
      · next h =>
        have := quad_none hA0 (not_le.1 h) t
        simp only [List.not_mem_nil, false_iff]
        rintro ⟨_, h, _⟩; linarith
  · rcases hc.2 with hz | hz
    · rw [if_neg (by rw [hz, abs_zero]; exact not_lt.2 tiny_pos.le)]
      simp [hz]
    · have hz0 : d.z ≠ 0 := by rintro h; rw [h, abs_zero] at hz; exact absurd hz (not_lt.2 tiny_pos.le)
      rw [if_pos hz, cap_param hl hz0]
      simp only [hz0, ne_eq, not_false_iff, true_and, List.mem_filter, List.mem_cons,
        List.not_mem_nil, or_false, decide_eq_true_eq, ← pow_two]
      rw [and_comm]
      norm_num

/-- **C44** (engine, soundness). Every reported parameter is ahead of the ray, at a point of the
surface. -/
theorem cylinder_engine_sound {l r : ℝ} {o d : Vec3 ℝ} (hl : 0 < l)
    (hc : ClearDir (.cylinder l r) d) {t : ℝ} (h : t ∈ kCylinder l r o d) :
    epsZero < t ∧ Surface (.cylinder l r) (o + t • d) := by
  rw [mem_kCylinder hl hc] at h
  rw [surface_iff]
  tauto

/-- **C44** (engine, completeness). Every surface point ahead of the ray is reported, unless the ray
runs inside the surface: along the side parallel to the axis, or in the plane of a cap. -/
theorem cylinder_engine_complete {l r : ℝ} {o d : Vec3 ℝ} (hl : 0 < l)
    (hc : ClearDir (.cylinder l r) d) {t : ℝ} (ht : epsZero < t)
    (h : Surface (.cylinder l r) (o + t • d))
    (h1 : ¬ (d.x = 0 ∧ d.y = 0 ∧ o.x ^ 2 + o.y ^ 2 = r ^ 2)) (h2 : ¬ (d.z = 0 ∧ |o.z| = l / 2)) :
    t ∈ kCylinder l r o d := by
  rw [mem_kCylinder hl hc]
  rw [surface_iff] at h
  refine ⟨ht, h.imp (fun h => ⟨?_, h⟩) (fun h => ⟨?_, h⟩)⟩
  · rintro ⟨hx, hy⟩
    exact h1 ⟨hx, hy, by simpa [OnSide, hx, hy] using h.1⟩
  · intro hz
    exact h2 ⟨hz, by simpa [OnCap, hz] using h.2⟩

theorem mem_npRoots {a b c t : ℝ} (ha : 0 < a) :
    t ∈ npRoots a b c ↔ a * t ^ 2 + b * t + c = 0 := by
  unfold npRoots
  rw [if_neg ha.ne']
  split
  · next h =>
    have := quad_none ha h t
    simp only [List.not_mem_nil, false_iff]
    linarith
  · next h =>
    rw [(quad_spec ha (not_lt.1 h) t).2.2]
    simp

theorem mem_rayZCylinder {l r : ℝ} {o d : Vec3 ℝ} (hl : 0 < l) (hr : 0 < r) (t : ℝ) :
    t ∈ rayZCylinder l r o d ↔ 0 ≤ t ∧
      ((¬ (d.x = 0 ∧ d.y = 0) ∧ OnSide l r (o + t • d)) ∨
        (d.z ≠ 0 ∧ OnCapInner l r (o + t • d))) := by
  unfold rayZCylinder OnSide OnCapInner
  simp only [mem_sortedBy, List.mem_append, List.mem_filter, decide_eq_true_eq, Vec3.add_x,
    Vec3.add_y, Vec3.add_z, Vec3.smul_x, Vec3.smul_y, Vec3.smul_z]
  rw [and_or_left]
  refine or_congr ?_ ?_
  · by_cases hn : d.x = 0 ∧ d.y = 0
    · simp [npRoots, hn.1, hn.2]
    · have hA0 : 0 < d.x ^ 2 + d.y ^ 2 := by
        rcases not_and_or.1 hn with h | h
        · have := pow_pos (abs_pos.2 h) 2; rw [sq_abs] at this; nlinarith [sq_nonneg d.y]
        · have := pow_pos (abs_pos.2 h) 2; rw [sq_abs] at this; nlinarith [sq_nonneg d.x]
      rw [mem_npRoots hA0, ← sub_eq_zero (b := r ^ 2), cyl_quad, abs_lt]
      have e : (d.x ^ 2 + d.y ^ 2) * t ^ 2 + 2 * (o.x * d.x + o.y * d.y) * t +
          (o.x ^ 2 + o.y ^ 2 - r ^ 2) = (d.x * d.x + d.y * d.y) * t ^ 2 +
          2 * (o.x * d.x + o.y * d.y) * t + (o.x * o.x + o.y * o.y - r * r) := by ring
      rw [e]
      simp only [hn, not_false_iff, true_and]
      constructor
      · rintro ⟨⟨h1, h2⟩, h3, h4⟩
        norm_num at h3 h4
        exact ⟨h2, h1, by linarith, by linarith⟩
      · rintro ⟨h2, h1, h3, h4⟩
        refine ⟨⟨h1, h2⟩, ?_, ?_⟩ <;> norm_num <;> linarith
  · by_cases hz : d.z = 0
    · simp [hz]
    · rw [if_neg hz, cap_param hl hz]
      have hs : Real.sqrt ((o.x + t * d.x) ^ 2 + (o.y + t * d.y) ^ 2) < r ↔
          (o.x + t * d.x) ^ 2 + (o.y + t * d.y) ^ 2 < r ^ 2 := Real.sqrt_lt' hr
      have e : ((-0.5 * l - o.z) * (-1)) / (d.z * (-1)) = (-0.5 * l - o.z) / d.z := by
        rw [mul_div_mul_right _ _ (by norm_num)]
      simp only [List.mem_filter, decide_eq_true_eq, e, hs, List.mem_cons, List.not_mem_nil,
        or_false, hz, ne_eq, not_false_iff, true_and, ge_iff_le]
      tauto

/-- **C44** (Python, soundness). -/
theorem cylinder_python_sound {l r : ℝ} {o d : Vec3 ℝ} (hl : 0 < l) (hr : 0 < r) {t : ℝ}
    (h : t ∈ rayZCylinder l r o d) : 0 ≤ t ∧ Surface (.cylinder l r) (o + t • d) := by
  rw [mem_rayZCylinder hl hr] at h
  rw [surface_iff]
  refine ⟨h.1, h.2.imp And.right fun h => ⟨h.2.1.le, h.2.2⟩⟩

/-- **C44** (Python, completeness off the rims). Missing: points on the rims, see `rim_missed`. -/
theorem cylinder_python_complete_partial {l r : ℝ} {o d : Vec3 ℝ} (hl : 0 < l) (hr : 0 < r) {t : ℝ}
    (ht : 0 ≤ t) (h : Surface (.cylinder l r) (o + t • d))
    (hrim : ¬ ((o + t • d).x ^ 2 + (o + t • d).y ^ 2 = r ^ 2 ∧ |(o + t • d).z| = l / 2))
    (h1 : ¬ (d.x = 0 ∧ d.y = 0 ∧ o.x ^ 2 + o.y ^ 2 = r ^ 2)) (h2 : ¬ (d.z = 0 ∧ |o.z| = l / 2)) :
    t ∈ rayZCylinder l r o d := by
  rw [mem_rayZCylinder hl hr]
  rw [surface_iff] at h
  refine ⟨ht, h.imp (fun h => ⟨?_, h⟩) (fun h => ⟨?_, ?_⟩)⟩
  · rintro ⟨hx, hy⟩
    exact h1 ⟨hx, hy, by simpa [OnSide, hx, hy] using h.1⟩
  · intro hz
    exact h2 ⟨hz, by simpa [OnCap, hz] using h.2⟩
  · exact ⟨lt_of_le_of_ne h.1 fun e => hrim ⟨e, h.2⟩, h.2⟩

/-- **C44** (Python). Intersections are sorted by distance. -/
theorem cylinder_python_sorted (l r : ℝ) (o d : Vec3 ℝ) :
    (rayZCylinder l r o d).Pairwise (· ≤ ·) := by
  unfold rayZCylinder
  exact pairwise_sortedBy id _

end PV.Geometry
