import Verif.Props.Geometry

/-!
C42–C44 together: for every shape, a line through the interior is in it for one interval of
parameters, and the reported intersections are the ends of the interval, each once. This is what
container detection relies on (`Nested.Valid`, `Nested.crossings`).
-/

namespace PV.Geometry
open PV PV.Geo PV.Solid

private theorem ends_perm {p q u v : ℝ} (h1 : p < v) (h2 : u < q)
    {f g : ℝ → Bool} (hf : ∀ t, (t = p ∨ t = q) → (f t ↔ u < t ∧ t < v))
    (hg : ∀ t, (t = u ∨ t = v) → (g t ↔ p ≤ t ∧ t ≤ q)) :
    ([p, q].filter f ++ [u, v].filter g).Perm [max p u, min q v] := by
  have fp : f p = decide (u < p) := by
    have := hf p (.inl rfl)
    by_cases h : u < p <;> simp_all
  have fq : f q = decide (q < v) := by
    have := hf q (.inr rfl)
    by_cases h : q < v <;> simp_all
  have gu : g u = decide (p ≤ u) := by
    have := hg u (.inl rfl)
    by_cases h : p ≤ u <;> simp_all [le_of_lt]
  have gv : g v = decide (v ≤ q) := by
    have := hg v (.inr rfl)
    by_cases h : v ≤ q <;> simp_all [le_of_lt]
  simp only [List.filter_cons, List.filter_nil, fp, fq, gu, gv]
  by_cases a : u < p <;> by_cases b : q < v
  · simp [a, b, not_le.2 a, not_le.2 b, max_eq_left a.le, min_eq_left b.le]
  · simp [a, b, not_le.2 a, not_lt.1 b, max_eq_left a.le]
  · simp only [a, b, not_lt.1 a, not_le.2 b, max_eq_right (not_lt.1 a), min_eq_left b.le,
      decide_true, decide_false, if_true, Bool.false_eq_true, if_false, List.cons_append,
      List.nil_append]
    exact List.Perm.swap _ _ _
  · simp [a, b, not_lt.1 a, not_lt.1 b]

private theorem cap_pair {l o d : ℝ} :
    [(-(0.5 * l) - o) / d, (0.5 * l - o) / d].Perm [slabLo l o d, slabHi l o d] := by
  unfold slabLo slabHi
  have e2 : (0.5 : ℝ) * l = l / 2 := by norm_num; ring
  rw [e2]
  by_cases h : 0 < d
  · simp [h]
  · simp only [h, if_false]
    exact List.Perm.swap _ _ _

/-- The interval of parameters in the side's infinite cylinder. -/
private theorem side_interval {r : ℝ} {o d : Vec3 ℝ} (hA : 0 < d.x * d.x + d.y * d.y)
    {t0 : ℝ} (h0 : (o.x + t0 * d.x) ^ 2 + (o.y + t0 * d.y) ^ 2 < r ^ 2) :
    ∃ p q, p < q ∧
      (∀ t, ((o.x + t * d.x) ^ 2 + (o.y + t * d.y) ^ 2 ≤ r ^ 2 ↔ p ≤ t ∧ t ≤ q) ∧
        ((o.x + t * d.x) ^ 2 + (o.y + t * d.y) ^ 2 < r ^ 2 ↔ p < t ∧ t < q)) ∧
      0 ≤ (2 * (o.x * d.x + o.y * d.y)) ^ 2 -
        4 * (d.x * d.x + d.y * d.y) * (o.x * o.x + o.y * o.y - r * r) ∧
      p = (-(2 * (o.x * d.x + o.y * d.y)) - Real.sqrt ((2 * (o.x * d.x + o.y * d.y)) ^ 2 -
        4 * (d.x * d.x + d.y * d.y) * (o.x * o.x + o.y * o.y - r * r))) /
        (2 * (d.x * d.x + d.y * d.y)) ∧
      q = (-(2 * (o.x * d.x + o.y * d.y)) + Real.sqrt ((2 * (o.x * d.x + o.y * d.y)) ^ 2 -
        4 * (d.x * d.x + d.y * d.y) * (o.x * o.x + o.y * o.y - r * r))) /
        (2 * (d.x * d.x + d.y * d.y)) := by
  rw [← sub_neg, cyl_quad] at h0
  have hd : 0 ≤ (2 * (o.x * d.x + o.y * d.y)) ^ 2 -
        4 * (d.x * d.x + d.y * d.y) * (o.x * o.x + o.y * o.y - r * r) := by
    by_contra hc
    have := quad_none hA (not_le.1 hc) t0
    linarith
  have hs := quad_spec hA hd
  refine ⟨_, _, ?_, fun t => ?_, hd, rfl, rfl⟩
  · have := (hs t0).2.1.1 h0
    exact this.1.trans this.2
  · rw [← sub_nonpos, ← sub_neg, cyl_quad]
    exact ⟨(hs t).1, (hs t).2.1⟩

/-- **C44** (engine). If the line meets the interior of the cylinder, the reported intersections are
the two ends of the chord that lie ahead, each once. -/
theorem cylinder_span {l r : ℝ} {o d : Vec3 ℝ} (hp : Proper (.cylinder l r))
    (hc : ClearDir (.cylinder l r) d) (hd : d.dot d = 1) {t0 : ℝ}
    (h0 : Inner (.cylinder l r) (o + t0 • d)) :
    ∃ a b, a < b ∧ Span (.cylinder l r) o d a b ∧ (kCylinder l r o d).Perm (ahead a b) := by
  obtain ⟨hl, hr⟩ := hp
  simp only [Inner, Vec3.add_x, Vec3.add_y, Vec3.add_z, Vec3.smul_x, Vec3.smul_y,
    Vec3.smul_z] at h0
  obtain ⟨h0s, h0z⟩ := h0
  have red : ∀ {X : List ℝ} {a b : ℝ}, X.Perm [a, b] →
      (X.filter (fun t => decide (t > epsZero))).Perm (ahead a b) := fun h => h.filter _
  have esq : (2 * (o.x * d.x + o.y * d.y)) * (2 * (o.x * d.x + o.y * d.y)) =
        (2 * (o.x * d.x + o.y * d.y)) ^ 2 := by ring
  unfold kCylinder
  simp only [Span, Closed, Inner, Vec3.add_x, Vec3.add_y, Vec3.add_z, Vec3.smul_x, Vec3.smul_y,
    Vec3.smul_z, esq]
  rcases hc.1 with ⟨hx, hy⟩ | hA
  · -- along the axis
    have hz : tiny < |d.z| := hc.2.resolve_left fun h => by simp [Vec3.dot, hx, hy, h] at hd
    have hz0 : d.z ≠ 0 := by rintro h; rw [h, abs_zero] at hz; exact absurd hz (not_lt.2 tiny_pos.le)
    rw [hx, hy] at h0s
    norm_num at h0s
    refine ⟨slabLo l o.z d.z, slabHi l o.z d.z, slab_lt hl hz0, fun t => ?_, ?_⟩
    · rw [hx, hy, (slab_spec hz0 t).1, (slab_spec hz0 t).2]
      simp only [mul_zero, add_zero, h0s, h0s.le, true_and, and_self]
    · apply red
      rw [if_neg (by rw [hx, hy]; have := tiny_pos; norm_num; exact this.le), if_pos hz,
        List.nil_append]
      rw [List.filter_eq_self.2 ?_]
      · exact cap_pair
      · intro t _
        rw [hx, hy]
        simp only [mul_zero, add_zero, decide_eq_true_eq, ← pow_two]
        exact h0s.le
  · have hA0 : 0 < d.x * d.x + d.y * d.y := lt_trans tiny_pos hA
    obtain ⟨p, q, hpq, hside, hdisc, ep, eq⟩ := side_interval hA0 h0s
    rw [if_pos hA, if_pos hdisc, ← ep, ← eq]
    rcases hc.2 with hz | hz
    · -- perpendicular to the axis
      rw [hz] at h0z
      norm_num at h0z
      refine ⟨p, q, hpq, fun t => ?_, ?_⟩
      · rw [hz, (hside t).1, (hside t).2]
        simp only [mul_zero, add_zero, h0z, h0z.le, and_true, and_self]
      · apply red
        rw [if_neg (by rw [hz, abs_zero]; exact not_lt.2 tiny_pos.le), List.append_nil]
        rw [List.filter_eq_self.2 ?_]
        intro t _
        rw [hz]
        rw [abs_lt] at h0z
        simp only [mul_zero, add_zero, decide_eq_true_eq]
        norm_num
        constructor <;> linarith [h0z.1, h0z.2]
    · have hz0 : d.z ≠ 0 := by
        rintro h; rw [h, abs_zero] at hz; exact absurd hz (not_lt.2 tiny_pos.le)
      have i1 := ((hside t0).2).1 h0s
      have i2 := ((slab_spec hz0 t0).2).1 h0z
      refine ⟨max p (slabLo l o.z d.z), min q (slabHi l o.z d.z), ?_, fun t => ?_, ?_⟩
      · exact (max_lt i1.1 i2.1).trans (lt_min i1.2 i2.2)
      · rw [(slab_spec hz0 t).1, (slab_spec hz0 t).2, (hside t).1, (hside t).2, max_le_iff,
          max_lt_iff, le_min_iff, lt_min_iff]
        constructor <;> tauto
      · apply red
        rw [if_pos hz]
        refine List.Perm.trans (List.Perm.append_left _ (cap_pair.filter _)) ?_
        refine ends_perm (i1.1.trans i2.2) (i2.1.trans i1.2) ?_ ?_
        · intro t _
          rw [← (slab_spec hz0 t).2, abs_lt]
          simp only [decide_eq_true_eq]
          norm_num
          constructor <;> rintro ⟨h1, h2⟩ <;> constructor <;> linarith
        · intro t _
          rw [← (hside t).1]
          simp only [decide_eq_true_eq, ← pow_two]

/-- **C42**. If the line meets the interior of the box, the reported intersections are the two ends of
the chord that lie ahead. -/
theorem box_span {s o d : Vec3 ℝ} (hs : Proper (.box s)) (hc : ClearDir (.box s) d)
    (hd : d.dot d = 1) {t0 : ℝ} (h0 : Inner (.box s) (o + t0 • d)) :
    ∃ a b, a < b ∧ Span (.box s) o d a b ∧ kBox s o d = ahead a b := by
  have hcl : Closed (.box s) (o + t0 • d) := ⟨h0.1.le, h0.2.1.le, h0.2.2.le⟩
  rcases box_core (o := o) hs hc hd with ⟨h, -⟩ | ⟨a, b, h1, h2, h3⟩
  · exact absurd hcl (h t0)
  · have h2 := h2 ⟨t0, h0⟩
    have hab := (h2 t0).1 h0
    exact ⟨a, b, hab.1.trans hab.2, fun t => ⟨h1 t, h2 t⟩,
      by rw [h3, if_neg (not_lt.2 (hab.1.trans hab.2).le)]⟩

/-- **C43**. The same for the sphere. -/
theorem sphere_span {r : ℝ} {o d : Vec3 ℝ} (hd : d.dot d = 1) {t0 : ℝ}
    (h0 : Inner (.sphere r) (o + t0 • d)) :
    ∃ a b, a < b ∧ Span (.sphere r) o d a b ∧ kSphere r o d = ahead a b := by
  have ha : (0 : ℝ) < d.dot d := by rw [hd]; norm_num
  simp only [Inner] at h0
  rw [← sub_neg, sphere_quad] at h0
  have hdisc : 0 ≤ (2 * d.dot o) ^ 2 - 4 * d.dot d * (o.dot o - r ^ 2) := by
    by_contra hc
    have := quad_none ha (not_le.1 hc) t0
    linarith
  have hs := quad_spec ha hdisc
  have e := kSphere_eq r o d
  rw [if_neg (not_lt.2 hdisc)] at e
  refine ⟨_, _, ?_, fun t => ?_, e⟩
  · have := (hs t0).2.1.1 h0
    exact this.1.trans this.2
  · simp only [Closed, Inner]
    rw [← sub_nonpos, ← sub_neg, sphere_quad]
    exact ⟨(hs t).1, (hs t).2.1⟩

/-- **C42–C44** (engine, every shape). A line through the interior of a shape is in it for one
interval of parameters, and the intersections reported by the engine are the ends of the interval
ahead of the ray, each exactly once. -/
theorem engine_span {g : Geom} {o d : Vec3 ℝ} (hp : Proper g) (hc : ClearDir g d)
    (hd : d.dot d = 1) {t0 : ℝ} (h0 : Inner g (o + t0 • d)) :
    ∃ a b, a < b ∧ Span g o d a b ∧ (kIntersect g o d).Perm (ahead a b) := by
  cases g with
  | box s =>
    obtain ⟨a, b, h1, h2, h3⟩ := box_span hp hc hd h0
    exact ⟨a, b, h1, h2, by rw [kIntersect, h3]⟩
  | sphere r =>
    obtain ⟨a, b, h1, h2, h3⟩ := sphere_span hd h0
    exact ⟨a, b, h1, h2, by rw [kIntersect, h3]⟩
  | cylinder l r => exact cylinder_span hp hc hd h0

/-- The ends of the interval are determined by the solid. -/
theorem span_unique {g : Geom} {o d : Vec3 ℝ} {a b a' b' : ℝ} (hab : a < b) (hab' : a' < b')
    (h : Span g o d a b) (h' : Span g o d a' b') : a = a' ∧ b = b' := by
  have e : ∀ t, (a ≤ t ∧ t ≤ b) ↔ (a' ≤ t ∧ t ≤ b') := fun t => (h t).1.symm.trans (h' t).1
  have h1 := (e a).1 ⟨le_refl _, hab.le⟩
  have h2 := (e b).1 ⟨hab.le, le_refl _⟩
  have h3 := (e a').2 ⟨le_refl _, hab'.le⟩
  have h4 := (e b').2 ⟨hab'.le, le_refl _⟩
  exact ⟨le_antisymm h3.1 h1.1, le_antisymm h2.2 h4.2⟩

/-- **C42–C44**. From inside a shape exactly one intersection is reported, from outside none or
two, provided the ray is not within `EPS_ZERO` of the surface along its direction. -/
theorem engine_parity {g : Geom} {o d : Vec3 ℝ} (hp : Proper g) (hc : ClearDir g d)
    (hd : d.dot d = 1) {t0 : ℝ} (h0 : Inner g (o + t0 • d))
    (hs : ∀ t : ℝ, 0 ≤ t → t ≤ epsZero → ¬ Surface g (o + t • d)) :
    ((kIntersect g o d).length = 1 ↔ Inner g o) := by
  obtain ⟨a, b, hab, hsp, hperm⟩ := engine_span hp hc hd h0
  rw [hperm.length_eq]
  have e0 : o + (0 : ℝ) • d = o := by ext <;> simp
  have hin : Inner g o ↔ a < 0 ∧ 0 < b := by
    have := (hsp 0).2; rwa [e0] at this
  have heps : (0 : ℝ) < epsZero := by unfold epsZero; norm_num
  have hA : ¬ (0 ≤ a ∧ a ≤ epsZero) := fun ⟨h1, h2⟩ =>
    hs a h1 h2 ⟨(hsp a).1.2 ⟨le_refl _, hab.le⟩, fun h => lt_irrefl _ ((hsp a).2.1 h).1⟩
  have hB : ¬ (0 ≤ b ∧ b ≤ epsZero) := fun ⟨h1, h2⟩ =>
    hs b h1 h2 ⟨(hsp b).1.2 ⟨hab.le, le_refl _⟩, fun h => lt_irrefl _ ((hsp b).2.1 h).2⟩
  rw [hin]
  unfold ahead
  by_cases ha : epsZero < a
  · have hb : epsZero < b := ha.trans hab
    simp [ha, hb]
    intro h; linarith
  · have ha' : a < 0 := by
      by_contra hc; exact hA ⟨not_lt.1 hc, not_lt.1 ha⟩
    by_cases hb : epsZero < b
    · simp [ha, hb, ha', heps.trans hb]
    · simp only [List.filter_cons, ha, hb, decide_false, Bool.false_eq_true, if_false,
        List.filter_nil, List.length_nil]
      constructor
      · intro h; omega
      · intro h; exact absurd ⟨h.2.le, not_lt.1 hb⟩ hB

/-! ### Python -/

/-- The line passes through no rim of the cylinder. -/
def NoRim (l r : ℝ) (o d : Vec3 ℝ) : Prop :=
  ∀ t : ℝ, ¬ ((o.x + t * d.x) ^ 2 + (o.y + t * d.y) ^ 2 = r ^ 2 ∧ |o.z + t * d.z| = l / 2)

/-- What Python needs beyond the engine: for a sphere, a chord that is not taken for a point; for a
cylinder, a line that misses the rims. -/
def PyRegular : Geom → Vec3 ℝ → Vec3 ℝ → Prop
  | .box _, _, _ => True
  | .sphere r, o, d => 1e-8 < disc r o d
  | .cylinder l r, o, d => NoRim l r o d

private theorem filter_ge_gt (l : List ℝ) :
    (l.filter (fun t => decide (t ≥ 0))).filter (fun t => decide (epsZero < t)) =
      l.filter (fun t => decide (epsZero < t)) := by
  rw [List.filter_filter]
  apply List.filter_congr
  intro t _
  have heps : (0 : ℝ) < epsZero := by unfold epsZero; norm_num
  by_cases h : epsZero < t
  · simp [h, (heps.trans h).le]
  · simp [h]

/-- **C43**. Away from tangency both codes report the same intersections of a sphere. -/
theorem sphere_agree {r : ℝ} {o d : Vec3 ℝ} (hd : d.dot d = 1) (h : 1e-8 < disc r o d) :
    (pySphere r o d).filter (fun t => decide (epsZero < t)) = kSphere r o d := by
  have h0 : (0 : ℝ) < disc r o d := lt_trans (by norm_num) h
  rw [pySphere_eq h hd, filter_ge_gt, kSphere_eq, if_neg (not_lt.2 (by unfold disc at h0; exact h0.le))]
  rfl

/-- **C44**. Off the rims both codes report the same intersections of a cylinder, up to order. -/
theorem cylinder_agree {l r : ℝ} {o d : Vec3 ℝ} (hr : 0 < r) (hl : 0 < l)
    (hc : ClearDir (.cylinder l r) d) (hn : NoRim l r o d) :
    ((rayZCylinder l r o d).filter (fun t => decide (epsZero < t))).Perm (kCylinder l r o d) := by
  unfold rayZCylinder kCylinder
  refine ((perm_sortedBy id _).filter _).trans ?_
  simp only [List.filter_append, List.filter_filter]
  have heps : (0 : ℝ) < epsZero := by unfold epsZero; norm_num
  refine List.Perm.append ?_ ?_
  · rcases hc.1 with ⟨hx, hy⟩ | hA
    · rw [if_neg (by rw [hx, hy]; have := tiny_pos; norm_num; exact this.le)]
      simp [npRoots, hx, hy]
    · have hA0 : 0 < d.x * d.x + d.y * d.y := lt_trans tiny_pos hA
      rw [if_pos hA]
      unfold npRoots
      have e1 : d.x ^ 2 + d.y ^ 2 = d.x * d.x + d.y * d.y := by ring
      have e2 : o.x ^ 2 + o.y ^ 2 - r ^ 2 = o.x * o.x + o.y * o.y - r * r := by ring
      have e3 : (2 * (o.x * d.x + o.y * d.y)) * (2 * (o.x * d.x + o.y * d.y)) =
        (2 * (o.x * d.x + o.y * d.y)) ^ 2 := by ring
      rw [e1, e2, e3, if_neg hA0.ne']
      by_cases hdisc : (2 * (o.x * d.x + o.y * d.y)) ^ 2 -
        4 * (d.x * d.x + d.y * d.y) * (o.x * o.x + o.y * o.y - r * r) < 0
      · rw [if_pos hdisc, if_neg (not_le.2 hdisc)]
        simp
      · rw [if_neg hdisc, if_pos (not_lt.1 hdisc), List.filter_filter]
        refine List.Perm.of_eq (List.filter_congr fun t _ => ?_)
        norm_num
        by_cases h : epsZero < t
        · simp [h, (heps.trans h).le]
        · simp [h]
  · rcases hc.2 with hz | hz
    · rw [if_pos hz, if_neg (by rw [hz, abs_zero]; exact not_lt.2 tiny_pos.le)]
      simp
    · have hz0 : d.z ≠ 0 := by
        rintro h; rw [h, abs_zero] at hz; exact absurd hz (not_lt.2 tiny_pos.le)
      rw [if_neg hz0, if_pos hz]
      have e : ((-0.5 * l - o.z) * (-1)) / (d.z * (-1)) = (-0.5 * l - o.z) / d.z := by
        rw [mul_div_mul_right _ _ (by norm_num)]
      have e4 : (-(0.5 * l) - o.z) / d.z = (-0.5 * l - o.z) / d.z := by norm_num
      rw [e, e4, List.filter_filter, List.filter_filter]
      refine List.Perm.of_eq (List.filter_congr fun t ht => ?_)
      have hcap : |o.z + t * d.z| = l / 2 := by
        rw [cap_param hl hz0]
        simpa using ht
      have hs : Real.sqrt ((o.x + t * d.x) ^ 2 + (o.y + t * d.y) ^ 2) < r ↔
          (o.x + t * d.x) ^ 2 + (o.y + t * d.y) ^ 2 ≤ r ^ 2 := by
        rw [Real.sqrt_lt' hr]
        exact ⟨le_of_lt, fun h => lt_of_le_of_ne h fun e => hn t ⟨e, hcap⟩⟩
      simp only [← pow_two]
      by_cases h : epsZero < t
      · simp [h, (heps.trans h).le, hs]
      · simp [h]

/-- **C42–C44** (Python). The Python shapes, too, report the ends of the chord ahead of the ray, each
exactly once. Missing: lines nearly tangent to a sphere or through the rim of a cylinder (see
`small_sphere`, `rim_missed`). For a box this assumes trimesh correct. -/
theorem python_span_partial {g : Geom} {o d : Vec3 ℝ} (hp : Proper g) (hc : ClearDir g d)
    (hd : d.dot d = 1) {t0 : ℝ} (h0 : Inner g (o + t0 • d)) (hreg : PyRegular g o d)
    (box : List ℝ) (hbox : (box.filter (fun t => decide (epsZero < t))).Perm (kIntersect g o d)) :
    ∃ a b, a < b ∧ Span g o d a b ∧
      ((pyIntersect box g o d).filter (fun t => decide (epsZero < t))).Perm (ahead a b) := by
  obtain ⟨a, b, h1, h2, h3⟩ := engine_span hp hc hd h0
  refine ⟨a, b, h1, h2, List.Perm.trans ?_ h3⟩
  cases g with
  | box s => exact hbox
  | sphere r => exact List.Perm.of_eq (sphere_agree hd hreg)
  | cylinder l r => exact cylinder_agree hp.2 hp.1 hc hreg

/-- **C44** (violated). A ray from inside a cylinder towards a rim: Python reports no intersection, so
the cylinder is not found to contain the ray; the engine reports one. -/
theorem rim_missed : ∃ (l r : ℝ) (o d : Vec3 ℝ), d.dot d = 1 ∧ Proper (.cylinder l r) ∧
    Inner (.cylinder l r) o ∧ rayZCylinder l r o d = [] ∧ (kCylinder l r o d).length = 1 := by
  have hd : (⟨3 / 5, 0, 4 / 5⟩ : Vec3 ℝ).dot ⟨3 / 5, 0, 4 / 5⟩ = 1 := by norm_num [Vec3.dot]
  have hp : Proper (.cylinder 8 3) := by norm_num [Proper]
  have ht : tiny < 9 / 25 := lt_of_le_of_lt tiny_le (by norm_num)
  have hc : ClearDir (.cylinder 8 3) ⟨3 / 5, 0, 4 / 5⟩ := by
    refine ⟨.inr ?_, .inr ?_⟩
    · norm_num; exact ht
    · rw [abs_of_pos (by norm_num)]; linarith
  have h0 : Inner (.cylinder 8 3) ⟨0, 0, 0⟩ := by norm_num [Inner]
  refine ⟨8, 3, ⟨0, 0, 0⟩, ⟨3 / 5, 0, 4 / 5⟩, hd, hp, h0, ?_, ?_⟩
  · rw [List.eq_nil_iff_forall_not_mem]
    intro t ht
    rw [mem_rayZCylinder (by norm_num) (by norm_num)] at ht
    obtain ⟨h1, ⟨-, h2, h3⟩ | ⟨-, h2, h3⟩⟩ := ht
    · simp only [Vec3.add_x, Vec3.add_y, Vec3.add_z, Vec3.smul_x, Vec3.smul_y, Vec3.smul_z] at h2 h3
      rw [abs_lt] at h3
      nlinarith [h3.1, h3.2]
    · simp only [Vec3.add_x, Vec3.add_y, Vec3.add_z, Vec3.smul_x, Vec3.smul_y, Vec3.smul_z] at h2 h3
      rw [abs_of_nonneg (by positivity)] at h3
      nlinarith
  · rw [← kIntersect.eq_3]
    refine (engine_parity (t0 := 0) hp hc hd ?_ ?_).2 h0
    · norm_num [Inner]
    · intro t h1 h2 h3
      apply h3.2
      simp only [Inner, Vec3.add_x, Vec3.add_y, Vec3.add_z, Vec3.smul_x, Vec3.smul_y, Vec3.smul_z]
      have : t ≤ 1 := h2.trans (by unfold epsZero; norm_num)
      rw [abs_lt]
      refine ⟨?_, ?_, ?_⟩ <;> nlinarith

/-- Non-vacuity: a slanted ray through a cylinder, clear of its rims. -/
example : ClearDir (.cylinder 8 3) ⟨4 / 5, 0, 3 / 5⟩ ∧ NoRim 8 3 ⟨0, 0, 0⟩ ⟨4 / 5, 0, 3 / 5⟩ := by
  have ht : tiny < 9 / 25 := lt_of_le_of_lt tiny_le (by norm_num)
  refine ⟨⟨.inr ?_, .inr ?_⟩, ?_⟩
  · norm_num; linarith
  · rw [abs_of_pos (by norm_num)]; linarith
  · rintro t ⟨h1, h2⟩
    norm_num at h1
    rw [abs_eq (by norm_num)] at h2
    rcases h2 with h2 | h2 <;> nlinarith

end PV.Geometry
