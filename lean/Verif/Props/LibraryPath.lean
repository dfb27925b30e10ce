import Verif.Props.Library
import Verif.Props.Shapes
import Verif.Props.Optics
import Verif.Props.Phase

/-!
Histories of scenes made of the library's own parts: C03, C04, C05 without assumptions on callbacks,
and where events take place (C56, C57).
-/

namespace PV.Library
open PV
open PV.Tracer
open PV.Geo PV.Solid PV.Geometry
noncomputable section
open Classical
variable {σ : Type} {n : ℕ}

/-- Everything `step_forward(scene, ray, maxsteps, maxpathlength, emit_method)` yields. -/
def run (S : LScene n) (B : Trimesh) (R : Rand σ) (method : EmitMethod) (maxsteps : ℕ)
    (maxpath : Option ℝ) (ray : Ray ℝ) (s : σ) : List (Step ℝ) :=
  (stepForward (pyOps S B R method) maxsteps maxpath (maxsteps + 1) ray s).1

section laws
variable {S : LScene n} (hS : Sound S) (B : Trimesh) {R : Rand σ} (hR : R.Unit)
  (method : EmitMethod) (maxsteps : ℕ) (maxpath : Option ℝ) (ray : Ray ℝ) (s : σ)
include hS hR

/-- **C03**. Between consecutive events of every history the path length grows by the distance flown
and the clock by `n d / c` in the medium named as container plus a delay, which only EMIT,
NONRADIATIVE and REACT can add. -/
theorem travelled_duration {i : ℕ} {a b : Step ℝ}
    (ha : (run S B R method maxsteps maxpath ray s)[i]? = some a)
    (hb : (run S B R method maxsteps maxpath ray s)[i + 1]? = some b) :
    ∃ (medium : Fin (n + 1)) (d delay : ℝ),
      b.info.container = some (S.node medium).name ∧ 0 ≤ d ∧ 0 ≤ delay ∧
      b.ray.travelled = a.ray.travelled + d ∧
      b.ray.duration = a.ray.duration + (S.node medium).index * d / 29979245800 + delay ∧
      (b.event ∉ [Event.reflect, .transmit, .absorb, .exit] → d = 0) ∧
      (b.event ∉ [Event.emit, .nonradiative, .react] → delay = 0) :=
  Tracer.travelled_duration _ (lawful hS B hR method) maxsteps maxpath _ ray s i a b ha hb

/-- **C03**. Path length and clock never decrease. -/
theorem monotone_clock {i j : ℕ} (hij : i ≤ j) {a b : Step ℝ}
    (ha : (run S B R method maxsteps maxpath ray s)[i]? = some a)
    (hb : (run S B R method maxsteps maxpath ray s)[j]? = some b) :
    a.ray.travelled ≤ b.ray.travelled ∧ a.ray.duration ≤ b.ray.duration :=
  Tracer.monotone_clock _ (lawful hS B hR method) maxsteps maxpath _ ray s i j hij a b ha hb

/-- **C03**. A ray that has gone further than the limit does not start another flight. -/
theorem killed_before_flight {m : ℝ} {i : ℕ} {a b : Step ℝ}
    (ha : (run S B R method maxsteps (some m) ray s)[i]? = some a)
    (hb : (run S B R method maxsteps (some m) ray s)[i + 1]? = some b)
    (hm : m < a.ray.travelled) :
    b.event = .kill ∨ a.event = .absorb ∧
      b.event ∈ [Event.emit, .scatter, .nonradiative, .react] := by
  rcases Tracer.killed_before_flight _ (lawful hS B hR method) maxsteps m _ ray s i a b ha hb hm
    with h | h
  · exact .inl h
  · refine .inr ⟨h.1, ?_⟩
    have h2 := h.2
    simp only [Spec.Fate] at h2
    simp only [List.mem_cons, List.not_mem_nil, or_false]
    tauto

/-- **C04**. Rays travel in straight lines, and stay in place at EMIT, SCATTER, NONRADIATIVE, REACT
and KILL. -/
theorem straight_lines {i : ℕ} {a b : Step ℝ}
    (ha : (run S B R method maxsteps maxpath ray s)[i]? = some a)
    (hb : (run S B R method maxsteps maxpath ray s)[i + 1]? = some b) :
    b.ray.position = a.ray.position + (b.ray.travelled - a.ray.travelled) • a.ray.direction ∧
    (b.event ∈ [Event.emit, .scatter, .nonradiative, .react, .kill] →
      b.ray.position = a.ray.position) :=
  Tracer.straight_lines _ (lawful hS B hR method) maxsteps maxpath _ ray s i a b ha hb

/-- **C05**. The wavelength changes only at EMIT, the direction only at REFLECT, TRANSMIT, EMIT and
SCATTER, the source only at EMIT and SCATTER. -/
theorem what_changes {i : ℕ} {a b : Step ℝ}
    (ha : (run S B R method maxsteps maxpath ray s)[i]? = some a)
    (hb : (run S B R method maxsteps maxpath ray s)[i + 1]? = some b) :
    (b.ray.wavelength ≠ a.ray.wavelength → b.event = .emit) ∧
    (b.ray.direction ≠ a.ray.direction →
      b.event ∈ [Event.reflect, .transmit, .emit, .scatter]) ∧
    (b.ray.source ≠ a.ray.source → b.event ∈ [Event.emit, .scatter]) :=
  Tracer.what_changes _ (lawful hS B hR method) maxsteps maxpath _ ray s i a b ha hb

end laws

/-- **C05**. After EMIT and SCATTER the source is the component that the event names. -/
theorem source_follows (S : LScene n) (B : Trimesh) (R : Rand σ) (method : EmitMethod) (maxsteps : ℕ)
    (maxpath : Option ℝ) (ray : Ray ℝ) (s : σ) {e : Step ℝ}
    (he : e ∈ run S B R method maxsteps maxpath ray s) (hev : e.event = .emit ∨ e.event = .scatter) :
    e.info.component.isSome ∧ e.ray.source = e.info.component := by
  have hsrc : ∀ v c ray s ray' s', (pyOps S B R method).emit v c ray s = .ok (ray', s') →
      ray'.source = some c.name := by
    intro v c ray s ray' s' h
    simp only [pyOps] at h
    split at h
    · cases h
    · rename_i r1 s1 h1
      cases h
      unfold Comp.emit at h1
      repeat' split at h1
      all_goals first | (cases h1; done) | skip
      all_goals
        try dsimp only at h1
        repeat' split at h1
        all_goals first | (cases h1; done) | (cases h1; rfl)
  have key : ∀ e ∈ (loop (pyOps S B R method) maxsteps maxpath (maxsteps + 1) 0 ray s).1,
      e.event = .emit ∨ e.event = .scatter →
        e.info.component.isSome ∧ e.ray.source = e.info.component := by
    refine loop_induct (pyOps S B R method) maxsteps maxpath
      (fun _ _ _ es _ => ∀ e ∈ es, e.event = .emit ∨ e.event = .scatter →
        e.info.component.isSome ∧ e.ray.source = e.info.component) ?_ ?_ ?_ ?_ _ 0 ray s
    · simp
    · intro fuel count ray s es hp e hm hev
      cases hp with
      | miss => cases hm
      | kill h => rw [List.mem_singleton] at hm; subst hm; simp at hev
      | exit h => rw [List.mem_singleton] at hm; subst hm; simp at hev
      | decay h d comp s' s'' s''' ray' ev _ _ _ hd =>
        simp only [List.mem_cons, List.not_mem_nil, or_false] at hm
        rcases hm with rfl | rfl
        · simp at hev
        · rcases hd with ⟨rfl, -⟩ | ⟨rfl, -⟩ <;> simp at hev
    · intro fuel count ray s es er hp e hm hev
      cases hp with
      | raise => cases hm
      | absorbRaise h => rw [List.mem_singleton] at hm; subst hm; simp at hev
    · intro fuel count ray s es ray' s' es' o hp ih e hm hev
      rcases List.mem_append.1 hm with hm | hm
      · cases hp with
        | radiate h d comp s1 s2 s3 ray' ev _ _ hem _ =>
          simp only [List.mem_cons, List.not_mem_nil, or_false] at hm
          rcases hm with rfl | rfl
          · simp at hev
          · exact ⟨rfl, hsrc _ _ _ _ _ _ hem⟩
        | reflect h => rw [List.mem_singleton] at hm; subst hm; simp at hev
        | transmit h => rw [List.mem_singleton] at hm; subst hm; simp at hev
      · exact ih e hm hev
  simp only [run, stepForward, List.mem_cons] at he
  rcases he with rfl | he
  · simp at hev
  · exact key e he hev

/-! ### C56, C57 -/

theorem sphere_on {r : ℝ} {o d : Vec3 ℝ} (hd : d.dot d = 1) {t : ℝ} (ht : t ∈ pySphere r o d) :
    OnSurface (.sphere r) (o + t • d) := by
  by_cases h : disc r o d < 0 ∨ 1e-8 < disc r o d
  · have e := (((sphere_python_partial hd h).1 t).1 ht).2
    exact .inl ⟨e.le, fun h => (ne_of_lt h) e⟩
  · push Not at h
    have e := (near_tangent hd h.1 h.2 ht).2
    have h2 := h.2
    norm_num at h2
    exact .inr ⟨r, rfl, by rw [e]; norm_num; linarith, by rw [e]; linarith [h.1]⟩

theorem cylinder_on {l r : ℝ} {o d : Vec3 ℝ} (hl : 0 < l) (hr : 0 < r) {t : ℝ}
    (ht : t ∈ rayZCylinder l r o d) : Surface (.cylinder l r) (o + t • d) := by
  unfold rayZCylinder at ht
  simp only [mem_sortedBy, List.mem_append, List.mem_filter, decide_eq_true_eq] at ht
  rcases ht with ⟨⟨hroot, h0⟩, hz⟩ | ⟨hcap, hrad⟩
  · have e : (o.x + t * d.x) ^ 2 + (o.y + t * d.y) ^ 2 = r ^ 2 := by
      unfold npRoots at hroot
      split_ifs at hroot with ha hb hdis
      · simp at hroot
      · exfalso
        have hx : d.x = 0 := by nlinarith [sq_nonneg d.x, sq_nonneg d.y]
        have hy : d.y = 0 := by nlinarith [sq_nonneg d.x, sq_nonneg d.y]
        exact hb (by rw [hx, hy]; ring)
      · simp at hroot
      · have hap : 0 < d.x ^ 2 + d.y ^ 2 := lt_of_le_of_ne (by positivity) (Ne.symm ha)
        have := (quad_spec hap (not_lt.1 hdis) t).2.2.2 (by simpa using hroot)
        linarith
    have h2 : |o.z + t * d.z| < l / 2 := by
      rw [abs_lt]
      norm_num at hz
      constructor <;> linarith [hz.1, hz.2]
    refine ⟨⟨?_, ?_⟩, fun h => (ne_of_lt h.1) ?_⟩
    · simpa using e.le
    · simpa using h2.le
    · simpa using e
  · have hdz : d.z ≠ 0 := by
      intro h
      rw [if_pos h] at hcap
      simp at hcap
    rw [if_neg hdz] at hcap
    simp only [List.mem_filter, List.mem_cons, List.not_mem_nil, or_false] at hcap
    have hzz : |o.z + t * d.z| = l / 2 := by
      rcases hcap.1 with h | h
      · have : o.z + t * d.z = -(l / 2) := by rw [h]; field_simp; ring
        rw [this, abs_neg, abs_of_pos (by linarith)]
      · have : o.z + t * d.z = l / 2 := by rw [h]; field_simp; ring
        rw [this, abs_of_pos (by linarith)]
    have hr2 : (o.x + t * d.x) ^ 2 + (o.y + t * d.y) ^ 2 < r ^ 2 :=
      (Real.sqrt_lt' hr).1 hrad
    refine ⟨⟨?_, ?_⟩, fun h => (ne_of_lt h.2) ?_⟩
    · simpa using hr2.le
    · simpa using hzz.le
    · simpa using hzz

/-- Reported intersections are on the surface of the shape. -/
theorem pyTs_on {N : LNode} (hr : N.l2w.Rigid) (hi : N.l2w.Inverse N.w2l) {B : Trimesh}
    (hB : TrimeshSound B) (hv : Visible N.geom) {o d : Vec3 ℝ} (hd : d.dot d = 1) {t : ℝ}
    (ht : t ∈ N.pyTs B o d) : OnSurface N.geom (N.w2l.point (o + t • d)) := by
  have hl := localDir_unit hr hi hd
  rw [Affine.point_add_smul]
  unfold LNode.pyTs LNode.boxHits at ht
  cases hg : N.geom with
  | box s =>
    rw [hg] at ht
    exact .inl (hB s _ _ hl t ht)
  | sphere r =>
    rw [hg] at ht
    exact sphere_on hl ht
  | cylinder l r =>
    rw [hg] at ht hv
    exact .inl (cylinder_on hv.1 (lt_trans (by norm_num) hv.2) ht)

/-- What `next_hit` returns for a unit direction. -/
theorem sees_hit {S : LScene n} (hr : ∀ v, (S.node v).l2w.Rigid)
    (hi : ∀ v, (S.node v).l2w.Inverse (S.node v).w2l) {B : Trimesh} {R : Rand σ}
    {method : EmitMethod} {ray : Ray ℝ} (hd : ray.direction.dot ray.direction = 1)
    {h : HitInfo (Fin (n + 1)) ℝ} (hs : Sees (pyOps S B R method) ray (some h)) :
    h.dist ∈ (S.node h.hit).pyTs B ray.position ray.direction ∧ epsZero < h.dist := by
  obtain ⟨xs, hx, hn⟩ := hs
  have hx' : xs = S.intersections B ray.position ray.direction := by
    simpa [pyOps] using hx.symm
  have key : ∀ x ∈ xs, x.dist ∈ (S.node x.hit).pyTs B ray.position ray.direction ∧
      epsZero < x.dist ∧ x.point = ray.position + x.dist • ray.direction := by
    intro x hxm
    rw [hx'] at hxm
    exact mem_intersections hr hi hd hxm
  unfold nextHit at hn
  simp only at hn
  split at hn
  · simp at hn
  · rename_i x hl
    simp only [Except.ok.injEq, Option.some.injEq] at hn
    subst hn
    have := key x (List.mem_of_mem_filter (p := fun x => ¬ |x.dist| < (pyOps S B R method).eps)
      (by rw [hl]; simp))
    exact ⟨this.1, this.2.1⟩
  · rename_i x x2 rest hl
    split at hn
    · simp at hn
    simp only [Except.ok.injEq, Option.some.injEq] at hn
    subst hn
    have := key x (List.mem_of_mem_filter (p := fun x => ¬ |x.dist| < (pyOps S B R method).eps)
      (by rw [hl]; simp))
    have e : (pyOps S B R method).distBetween ray.position x.point = x.dist := by
      rw [this.2.2]
      exact distanceBetween_line hd (epsZero_pos.trans this.2.1).le
    simp only [e]
    exact ⟨this.1, this.2.1⟩

/-- Normals computed at surface points are unit vectors. -/
theorem pyNormal_unit {g : Geom} {p m : Vec3 ℝ} (hv : Visible g) (hp : OnSurface g p)
    (h : pyNormal g p = .ok m) : m.dot m = 1 := by
  cases g with
  | box s =>
    simp only [pyNormal] at h
    split at h
    · rename_i i _
      split at h
      · rename_i k hk
        cases h
        have := List.mem_of_getElem? hk
        simp only [boxNormals, List.mem_cons, List.not_mem_nil, or_false] at this
        rcases this with rfl | rfl | rfl | rfl | rfl | rfl <;> norm_num [Vec3.dot]
      · cases h
    · cases h
  | sphere r =>
    simp only [pyNormal, Except.ok.injEq] at h
    have hpos : 0 < p.dot p := by
      have hv' : (1e-8 : ℝ) < r ^ 2 := hv
      have : r ^ 2 - 2.5e-9 ≤ p.x ^ 2 + p.y ^ 2 + p.z ^ 2 := by
        rcases hp with ⟨_, h⟩ | ⟨r', e, h, _⟩
        · have h' : ¬ p.x ^ 2 + p.y ^ 2 + p.z ^ 2 < r ^ 2 := h
          norm_num; linarith [not_lt.1 h']
        · cases e; exact h
      simp only [Vec3.dot]
      norm_num at *
      nlinarith
    have hs := Real.mul_self_sqrt hpos.le
    have hne : Real.sqrt (p.dot p) ≠ 0 := (Real.sqrt_pos.2 hpos).ne'
    rw [← h]
    have : (⟨p.x / √(p.dot p), p.y / √(p.dot p), p.z / √(p.dot p)⟩ : Vec3 ℝ).dot
        ⟨p.x / √(p.dot p), p.y / √(p.dot p), p.z / √(p.dot p)⟩ =
        p.dot p / (√(p.dot p) * √(p.dot p)) := by
      simp only [Vec3.dot]; field_simp
    rw [this, hs, div_self hpos.ne']
  | cylinder l r =>
    simp only [pyNormal] at h
    split_ifs at h with h1 h2 h3
    · cases h; norm_num [Vec3.dot]
    · cases h; norm_num [Vec3.dot]
    · simp only [Except.ok.injEq] at h
      have hpos : 0 < p.x ^ 2 + p.y ^ 2 := by
        rcases (by positivity : 0 ≤ p.x ^ 2 + p.y ^ 2).lt_or_eq with h | h
        · exact h
        · exfalso
          rw [← h] at h3
          simp only [isclose, Real.sqrt_zero, abs_zero, sub_zero, mul_zero, add_zero] at h3
          exact absurd (lt_of_lt_of_le hv.2 (le_abs_self r)) (not_lt.2 h3)
      have e : (⟨p.x - 0, p.y - 0, p.z - p.z⟩ : Vec3 ℝ).dot ⟨p.x - 0, p.y - 0, p.z - p.z⟩ =
          p.x ^ 2 + p.y ^ 2 := by simp only [Vec3.dot]; ring
      rw [e] at h
      have hs := Real.mul_self_sqrt hpos.le
      rw [← h]
      have : (⟨(p.x - 0) / √(p.x ^ 2 + p.y ^ 2), (p.y - 0) / √(p.x ^ 2 + p.y ^ 2),
          (p.z - p.z) / √(p.x ^ 2 + p.y ^ 2)⟩ : Vec3 ℝ).dot
          ⟨(p.x - 0) / √(p.x ^ 2 + p.y ^ 2), (p.y - 0) / √(p.x ^ 2 + p.y ^ 2),
          (p.z - p.z) / √(p.x ^ 2 + p.y ^ 2)⟩ =
          (p.x ^ 2 + p.y ^ 2) / (√(p.x ^ 2 + p.y ^ 2) * √(p.x ^ 2 + p.y ^ 2)) := by
        have hne : Real.sqrt (p.x ^ 2 + p.y ^ 2) ≠ 0 := (Real.sqrt_pos.2 hpos).ne'
        simp only [Vec3.dot]; field_simp; ring
      rw [this, hs, div_self hpos.ne']

theorem along_unit {m d : Vec3 ℝ} (h : m.dot m = 1) : (along m d).dot (along m d) = 1 := by
  unfold along
  split
  · rw [Vec3.neg_dot, Vec3.dot_neg, h]; ring
  · exact h

theorem transmit_unit {m d t : Vec3 ℝ} {n1 n2 : ℝ} (h2 : 0 < n2) (hd : d.dot d = 1)
    (hm : m.dot m = 1) (h : pyTransmit m d n1 n2 = some t) : t.dot t = 1 := by
  unfold pyTransmit at h
  have hs : n1 ^ 2 * Optics.sinSq d (along m d) ≤ n2 ^ 2 := by
    unfold refract at h
    have hq : ¬ 1 - (n1 / n2) ^ 2 * (1 - d.dot (along m d) ^ 2) < 0 := by
      intro hc
      simp only [hc, if_true] at h
      cases h
    have : (n1 / n2) ^ 2 * (1 - d.dot (along m d) ^ 2) ≤ 1 := by linarith [not_lt.1 hq]
    rw [div_pow, div_mul_eq_mul_div, div_le_one (by positivity)] at this
    exact this
  obtain ⟨t', e, hu, _⟩ := Optics.refraction h2 hd (along_unit hm) hs
  rw [h] at e
  cases e
  exact hu

/-- One pass of the loop keeps directions normalised and puts surface events on surfaces. -/
theorem pass_on {S : LScene n} (hS : Sound S) (hv : ∀ v, Visible (S.node v).geom) {B : Trimesh}
    (hB : TrimeshSound B) {R : Rand σ} {method : EmitMethod} {maxsteps : ℕ}
    {maxpath : Option ℝ} {count : ℕ} {ray : Ray ℝ} {s : σ} {es : List (Step ℝ)} {nx : Next ℝ σ}
    (hp : Pass (pyOps S B R method) maxsteps maxpath count ray s es nx)
    (hd : ray.direction.dot ray.direction = 1) :
    (∀ e ∈ es, e.ray.direction.dot e.ray.direction = 1 ∧
      (e.event ∈ [Event.reflect, .transmit, .exit] → ∃ v, e.info.hit = some (S.node v).name ∧
        OnSurface (S.node v).geom ((S.node v).w2l.point e.ray.position))) ∧
    (∀ ray' s', nx = .cont ray' s' → ray'.direction.dot ray'.direction = 1) := by
  have on : ∀ {h}, Sees (pyOps S B R method) ray (some h) → OnSurface (S.node h.hit).geom
      ((S.node h.hit).w2l.point (ray.position + h.dist • ray.direction)) := fun hs =>
    pyTs_on (hS.rigid _) (hS.inverse _) hB (hv _) hd (sees_hit hS.rigid hS.inverse hd hs).1
  cases hp with
  | miss => simp
  | raise => simp
  | kill h hs => simp [hd]
  | exit h hl hr =>
    simp only [List.mem_singleton, forall_eq, reduceCtorEq, IsEmpty.forall_iff, implies_true,
      and_true]
    exact ⟨hd, fun _ => ⟨h.hit, rfl, on hl.sees⟩⟩
  | absorbRaise h d comp s' e hA => simp [Ray.propagate, hd]
  | radiate h d comp s' s'' s''' ray' ev hA hr he hev =>
    have hu : ray'.direction.dot ray'.direction = 1 := by
      simp only [pyOps] at he
      split at he
      · cases he
      rename_i r1 s1 hem
      simp only [Except.ok.injEq, Prod.mk.injEq] at he
      rw [← he.1]
      simp only [Ray.representation]
      rw [(hS.rigid _).dot_vec]
      unfold Comp.emit at hem
      split at hem
      · cases hem
      rename_i dir s3 hdr
      have hdu := Phase.draw_unit _ hdr
      split_ifs at hem with hk
      · dsimp only at hem
        split at hem
        · cases hem
        split at hem <;>
        · simp only [Except.ok.injEq, Prod.mk.injEq] at hem
          rw [← hem.1]; exact hdu
      · simp only [Except.ok.injEq, Prod.mk.injEq] at hem
        rw [← hem.1]; exact hdu
    refine ⟨?_, ?_⟩
    · intro e he
      simp only [List.mem_cons, List.not_mem_nil, or_false] at he
      rcases he with rfl | rfl
      · exact ⟨hd, by simp⟩
      · refine ⟨hu, fun h => ?_⟩
        rcases hev with ⟨rfl, _⟩ | ⟨rfl, _⟩ <;> simp at h
    · intro r s h
      cases h
      exact hu
  | decay h d comp s' s'' s''' ray' ev hA hr he hev =>
    have hu : ray'.direction = ray.direction := by
      simp only [pyOps, Except.ok.injEq] at he
      unfold Comp.nonradiativeAbsorb at he
      split at he
      · cases he; rfl
      · cases he; rfl
    refine ⟨?_, by simp⟩
    intro e he
    simp only [List.mem_cons, List.not_mem_nil, or_false] at he
    rcases he with rfl | rfl
    · exact ⟨hd, by simp⟩
    · refine ⟨by simp only [hu, hd], fun h => ?_⟩
      rcases hev with ⟨rfl, _⟩ | ⟨rfl, _⟩ <;> simp at h
  | reflect h m s' s'' s''' ray' hT hrf he =>
    have hs := on hT.live.sees
    have hpos := turn_eq (hS.rigid h.hit) (hS.inverse h.hit) he
    have hu : ray'.direction.dot ray'.direction = 1 := by
      simp only [pyOps, LNode.turn, LScene.reflected] at he
      cases hsf : (S.node h.hit).surface with
      | null => rw [hsf] at he; cases he
      | fresnel =>
        rw [hsf] at he
        cases hn : pyNormal (S.node h.hit).geom
            ((S.node h.hit).w2l.point (ray.position + h.dist • ray.direction)) with
        | error e =>
          simp only [Ray.representation, Ray.propagate, hn] at he
          cases he
        | ok m' =>
          simp only [Ray.representation, Ray.propagate, hn, Except.ok.injEq, Prod.mk.injEq] at he
          rw [← he.1]
          simp only
          rw [(hS.rigid _).dot_vec, (Optics.reflection (pyNormal_unit (hv _) hs hn)).1]
          exact localDir_unit (hS.rigid _) (hS.inverse _) hd
    refine ⟨?_, ?_⟩
    · intro e he
      simp only [List.mem_singleton] at he
      subst he
      refine ⟨hu, fun _ => ⟨h.hit, rfl, ?_⟩⟩
      rw [hpos]
      exact hs
    · intro r s h
      cases h
      exact hu
  | transmit h m s' s'' s''' ray' hT hadj hrf he =>
    have hs := on hT.live.sees
    have hpos := turn_eq (hS.rigid h.hit) (hS.inverse h.hit) he
    have hl := localDir_unit (hS.rigid h.hit) (hS.inverse h.hit) hd
    have hu : ray'.direction.dot ray'.direction = 1 := by
      simp only [pyOps, LNode.turn, LScene.transmitted] at he
      cases hsf : (S.node h.hit).surface with
      | null =>
        rw [hsf] at he
        simp only [Except.ok.injEq, Prod.mk.injEq] at he
        rw [← he.1]
        simp only [Ray.representation, Ray.propagate]
        rw [(hS.rigid _).dot_vec]
        exact hl
      | fresnel =>
        rw [hsf] at he
        obtain ⟨a, ha⟩ := Option.isSome_iff_exists.1 hadj
        rw [ha] at he
        cases hn : pyNormal (S.node h.hit).geom
            ((S.node h.hit).w2l.point (ray.position + h.dist • ray.direction)) with
        | error e =>
          simp only [Ray.representation, Ray.propagate, hn] at he
          cases he
        | ok m' =>
          cases ht : pyTransmit m' ((S.node h.hit).w2l.vec ray.direction)
              (S.node h.container).index (S.node a).index with
          | none =>
            simp only [Ray.representation, Ray.propagate, hn, ht] at he
            cases he
          | some t =>
            simp only [Ray.representation, Ray.propagate, hn, ht, Except.ok.injEq,
              Prod.mk.injEq] at he
            rw [← he.1]
            simp only
            rw [(hS.rigid _).dot_vec]
            exact transmit_unit (hS.index_pos a) hl (pyNormal_unit (hv _) hs hn) ht
    refine ⟨?_, ?_⟩
    · intro e he
      simp only [List.mem_singleton] at he
      subst he
      refine ⟨hu, fun _ => ⟨h.hit, rfl, ?_⟩⟩
      rw [hpos]
      exact hs
    · intro r s h
      cases h
      exact hu

theorem run_on {S : LScene n} (hS : Sound S) (hv : ∀ v, Visible (S.node v).geom) {B : Trimesh}
    (hB : TrimeshSound B) {R : Rand σ} {method : EmitMethod} {maxsteps : ℕ}
    {maxpath : Option ℝ} {ray : Ray ℝ} {s : σ} (hd : ray.direction.dot ray.direction = 1)
    {e : Step ℝ} (he : e ∈ run S B R method maxsteps maxpath ray s) :
    e.ray.direction.dot e.ray.direction = 1 ∧
      (e.event ∈ [Event.reflect, .transmit, .exit] → ∃ v, e.info.hit = some (S.node v).name ∧
        OnSurface (S.node v).geom ((S.node v).w2l.point e.ray.position)) := by
  unfold run stepForward at he
  simp only [List.mem_cons] at he
  rcases he with rfl | he
  · exact ⟨hd, by simp⟩
  · exact loop_induct (pyOps S B R method) maxsteps maxpath
      (fun _ _ ray es _ => ray.direction.dot ray.direction = 1 → ∀ e ∈ es,
        e.ray.direction.dot e.ray.direction = 1 ∧
        (e.event ∈ [Event.reflect, .transmit, .exit] → ∃ v, e.info.hit = some (S.node v).name ∧
          OnSurface (S.node v).geom ((S.node v).w2l.point e.ray.position)))
      (by simp)
      (fun _ _ _ _ _ hp hd => (pass_on hS hv hB hp hd).1)
      (fun _ _ _ _ _ _ hp hd => (pass_on hS hv hB hp hd).1)
      (fun _ _ _ _ _ _ _ _ _ hp ih hd e he => by
        rcases List.mem_append.1 he with he | he
        · exact (pass_on hS hv hB hp hd).1 e he
        · exact ih ((pass_on hS hv hB hp hd).2 _ _ rfl) e he)
      (maxsteps + 1) 0 ray s hd e he

/-- **C57**. If the first ray has a direction of length 1, so has every ray of the history. -/
theorem directions_stay_unit {S : LScene n} (hS : Sound S) (hv : ∀ v, Visible (S.node v).geom)
    {B : Trimesh} (hB : TrimeshSound B) (R : Rand σ) (method : EmitMethod) (maxsteps : ℕ)
    (maxpath : Option ℝ) (ray : Ray ℝ) (s : σ) (hd : ray.direction.dot ray.direction = 1) :
    ∀ e ∈ run S B R method maxsteps maxpath ray s, e.ray.direction.dot e.ray.direction = 1 :=
  fun _ he => (run_on hS hv hB hd he).1

/-- **C56**. REFLECT, TRANSMIT and EXIT happen on the surface of the node they name as `hit`. -/
theorem surface_events {S : LScene n} (hS : Sound S) (hv : ∀ v, Visible (S.node v).geom)
    {B : Trimesh} (hB : TrimeshSound B) (R : Rand σ) (method : EmitMethod) (maxsteps : ℕ)
    (maxpath : Option ℝ) (ray : Ray ℝ) (s : σ) (hd : ray.direction.dot ray.direction = 1) :
    ∀ e ∈ run S B R method maxsteps maxpath ray s, e.event ∈ [Event.reflect, .transmit, .exit] →
      ∃ v, e.info.hit = some (S.node v).name ∧
        OnSurface (S.node v).geom ((S.node v).w2l.point e.ray.position) :=
  fun _ he => (run_on hS hv hB hd he).2

/-! ### The hypotheses are met -/

/-- A glass cylinder with a dye in a spherical world. -/
def demoScene : LScene 1 where
  node v := if v = 0 then ⟨"world", .sphere 10, .one, .one, 1, .fresnel, []⟩
    else ⟨"rod", .cylinder 4 1, .one, .one, 1.5, .fresnel,
      [⟨"dye", .luminophore, .const 2, .table ⟨2, fun i => 500 + i, fun _ => 1⟩ false, 0.9, some 1,
        some 2, .isotropic⟩]⟩

theorem one_rigid : (Affine.one : Affine ℝ).Rigid := by
  simp [Affine.Rigid, Affine.one, Vec3.dot]

theorem one_inverse : (Affine.one : Affine ℝ).Inverse .one := by
  constructor <;> intro p <;>
    ext <;> simp [Affine.one, Affine.point, Affine.vec, Vec3.dot]

example : Sound demoScene ∧ (∀ v, Visible (demoScene.node v).geom) ∧
    TrimeshSound (fun _ _ _ => []) := by
  refine ⟨⟨fun v => ?_, fun v => ?_, fun v => ?_, fun v c hc => ?_⟩, fun v => ?_, ?_⟩
  · by_cases h : v = 0 <;> norm_num [demoScene, h]
  · by_cases h : v = 0 <;> simp [demoScene, h, one_rigid]
  · by_cases h : v = 0 <;> simp [demoScene, h, one_inverse]
  · by_cases h : v = 0
    · simp [demoScene, h] at hc
    · simp only [demoScene, h, if_false, List.mem_singleton] at hc
      subst hc
      exact ⟨.inl ⟨2, by norm_num, rfl⟩, by simp, by simp⟩
  · by_cases h : v = 0 <;> norm_num [demoScene, h, Visible]
  · intro s o d _ t ht
    simp at ht

/-- A world without objects. -/
def emptyWorld : LScene 0 where
  node _ := ⟨"world", .sphere 10, .one, .one, 1, .fresnel, []⟩

theorem emptyWorld_ts (B : Trimesh) (v : Fin (0 + 1)) :
    (emptyWorld.node v).pyTs B 0 ⟨0, 0, 1⟩ = [10] := by
  have hd : (⟨0, 0, 1⟩ : Vec3 ℝ).dot ⟨0, 0, 1⟩ = 1 := by norm_num [Vec3.dot]
  have hdisc : disc 10 0 ⟨0, 0, 1⟩ = 400 := by norm_num [disc, Vec3.dot]
  have h20 : Real.sqrt 400 = 20 := by
    rw [show (400 : ℝ) = 20 ^ 2 by norm_num, Real.sqrt_sq (by norm_num)]
  have e1 : (emptyWorld.node v).localOrigin 0 = 0 := by
    ext <;> simp [LNode.localOrigin, emptyWorld, Affine.one, Affine.point, Affine.vec, Vec3.dot]
  have e2 : (emptyWorld.node v).localDir ⟨0, 0, 1⟩ = ⟨0, 0, 1⟩ := by
    ext <;> simp [LNode.localDir, emptyWorld, Affine.one, Affine.vec, Vec3.dot]
  unfold LNode.pyTs
  rw [e1, e2]
  show pySphere 10 0 ⟨0, 0, 1⟩ = [10]
  rw [pySphere_eq (by rw [hdisc]; norm_num) hd, hdisc, h20]
  norm_num [Vec3.dot]

theorem emptyWorld_rigid (v : Fin (0 + 1)) : (emptyWorld.node v).l2w.Rigid := one_rigid

theorem emptyWorld_inverse (v : Fin (0 + 1)) :
    Affine.Inverse (emptyWorld.node v).l2w (emptyWorld.node v).w2l := one_inverse

theorem emptyWorld_hits (B : Trimesh) :
    emptyWorld.intersections B 0 ⟨0, 0, 1⟩ = [⟨0, 0 + (10 : ℝ) • ⟨0, 0, 1⟩, 10⟩] := by
  have hd : (⟨0, 0, 1⟩ : Vec3 ℝ).dot ⟨0, 0, 1⟩ = 1 := by norm_num [Vec3.dot]
  have he : epsZero < 10 := by unfold epsZero; norm_num
  rw [intersections_eq (S := emptyWorld) (fun v => emptyWorld_rigid v) (fun v => emptyWorld_inverse v) B hd]
  have h0 : List.finRange (0 + 1) = [0] := rfl
  simp only [emptyWorld_ts]
  rw [h0]
  unfold sceneInters kHits
  simp only [List.map_cons, List.map_nil, List.flatMap_cons, List.flatMap_nil, List.append_nil]
  rw [List.filter_cons_of_pos (by simpa using he)]
  simp only [List.filter_nil, sortedBy, List.insertionSort_cons, List.insertionSort_nil,
    List.orderedInsert_nil]

/-- From the centre the ray leaves after 10 cm. -/
example (R : Rand σ) (s : σ) (B : Trimesh) :
    (run emptyWorld B R .kT 5 none ⟨0, ⟨0, 0, 1⟩, 555, 0, 0, none⟩ s).map
      (fun e => (e.event, e.ray.position, e.ray.travelled)) =
    [(.generate, 0, 0), (.exit, 0 + (10 : ℝ) • ⟨0, 0, 1⟩, 0 + 10)] := by
  have he : ¬ |(10 : ℝ)| < epsZero := by unfold epsZero; norm_num
  have hb : body (pyOps emptyWorld B R .kT) 5 none 1 ⟨0, ⟨0, 0, 1⟩, 555, 0, 0, none⟩ s =
      ([⟨Ray.propagate ⟨0, ⟨0, 0, 1⟩, 555, 0, 0, none⟩ 10 1, .exit,
        ⟨some "world", some "world", none, none, none⟩⟩], .stop) := by
    unfold body
    have hi : (pyOps emptyWorld B R .kT).intersections 0 ⟨0, 0, 1⟩ =
        .ok [⟨0, 0 + (10 : ℝ) • ⟨0, 0, 1⟩, 10⟩] := by
      show Except.ok _ = _
      rw [emptyWorld_hits]
    simp only [hi]
    have hn : ∀ f, nextHit (pyOps emptyWorld B R .kT).eps f
        [⟨(0 : Fin 1), 0 + (10 : ℝ) • (⟨0, 0, 1⟩ : Vec3 ℝ), 10⟩] =
        .ok (some ⟨0, 0, none, 0 + (10 : ℝ) • ⟨0, 0, 1⟩, 10⟩) := by
      intro f
      unfold nextHit
      rw [List.filter_cons_of_pos (by simpa [pyOps] using he)]
      rfl
    simp only [hn]
    rw [if_neg (by simp [beyond])]
    exact if_pos (Eq.refl (0 : Fin 1))
  unfold run stepForward loop
  simp only [hb]
  rfl

end
end PV.Library
