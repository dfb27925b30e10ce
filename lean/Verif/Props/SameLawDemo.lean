import Verif.Props.SameLaw
import Verif.Props.ReemissionDemo
import Verif.Props.EngineChanceDemo

/-!
C115: a turned ball with a dye. Up to 3e-9 all chances are the same in the engine and in the tracer.
-/

namespace PV.SameLaw
open MeasureTheory Spec Library Reemission Turned
open scoped ENNReal
noncomputable section

/-- A quarter turn about the x axis. -/
def quarter : Affine ℝ := ⟨⟨1, 0, 0⟩, ⟨0, 0, -1⟩, ⟨0, 1, 0⟩, ⟨0, 0, 0⟩⟩
def back : Affine ℝ := ⟨⟨1, 0, 0⟩, ⟨0, 0, 1⟩, ⟨0, -1, 0⟩, ⟨0, 0, 0⟩⟩

/-- The ball with the dye, turned. -/
def tilted (q : ℝ) : LScene 1 where
  node v := { (glowScene q).node v with l2w := if v = 0 then .one else quarter, w2l := if v = 0 then .one else back }

theorem quarter_rigid : quarter.Rigid := by simp [quarter, Affine.Rigid, Vec3.dot]

theorem quarter_back : quarter.Inverse back := by
  constructor <;> rintro ⟨x, y, z⟩ <;> simp [quarter, back, Affine.point, Affine.vec, Vec3.dot, Vec3.ext_iff]

theorem tilt_dot (q : ℝ) (v : Fin 2) (a b : Vec3 ℝ) : (((tilted q).node v).w2l.vec a).dot (((tilted q).node v).w2l.vec b) = a.dot b := by
  by_cases h : v = 0
  · simp [tilted, h, Affine.one, Affine.vec, Vec3.dot]
  · simp [tilted, h, back, Affine.vec, Vec3.dot]
    ring

theorem tilt_point (q : ℝ) (v : Fin 2) (p : Vec3 ℝ) : ((tilted q).node v).w2l.point p = ((tilted q).node v).w2l.vec p := by
  by_cases h : v = 0 <;> simp [tilted, h, Affine.one, back, Affine.point, Affine.vec, Vec3.dot, Vec3.ext_iff]

theorem tilt_comps (q : ℝ) (v : Fin 2) {c : Comp} (hc : c ∈ ((tilted q).node v).comps) : c = glow q := by
  rcases glow_comps q v with h | h
  · rw [show ((tilted q).node v).comps = ((glowScene q).node v).comps from rfl, h] at hc
    simp at hc
  · rw [show ((tilted q).node v).comps = ((glowScene q).node v).comps from rfl, h] at hc
    simpa using hc

theorem tilt_turnable {q : ℝ} (h0 : 0 ≤ q) (h1 : q ≤ 1) : Turnable (tilted q) where
  index_pos v := by by_cases h : v = 0 <;> norm_num [tilted, glowScene, ballScene, h]
  rigid v := by by_cases h : v = 0 <;> simp [tilted, h, one_rigid, quarter_rigid]
  inverse v := by by_cases h : v = 0 <;> simp [tilted, h, one_inverse, quarter_back]
  comps v c hc := by
    rw [tilt_comps q v hc]
    exact ⟨.inl ⟨1, by norm_num, rfl⟩, by simp [glow], by simp [glow]⟩
  proper v := by by_cases h : v = 0 <;> norm_num [tilted, glowScene, ballScene, h, Solid.Proper]
  ratio v w := by by_cases h : v = 0 <;> by_cases h' : w = 0 <;> norm_num [tilted, glowScene, ballScene, h, h']
  absorbs v c hc := by
    rw [tilt_comps q v hc]
    exact .inl ⟨1, rfl⟩
  emits v c hc hk := by
    rw [tilt_comps q v hc]
    exact ⟨_, Ending.flat_ok, 0, by norm_num [Ending.flat], by norm_num [Ending.flat]⟩
  phase v c hc hk := by
    rw [tilt_comps q v hc]
    exact ⟨rfl, by simp [glow]⟩
  turned v c hc hk := by
    rw [tilt_comps q v hc]
    exact .inl rfl

/-- The ball is turned, so the theorem for unrotated objects does not apply. -/
example (q : ℝ) : ¬ Supported (tilted q) := by
  intro h
  have h2 := h.upright 1 ⟨glow q, by simp [tilted, glowScene], .inr rfl⟩ ⟨0, 1, 0⟩
  simp [tilted, quarter, Affine.vec, Vec3.dot] at h2

theorem tilt_visible (q : ℝ) (v : Fin 2) : Visible ((tilted q).node v).geom := by
  by_cases h : v = 0 <;> norm_num [tilted, glowScene, ballScene, h, Visible]

theorem tilt_mesh : TrimeshSound noBoxes := by
  intro s o d _ t ht
  simp [noBoxes] at ht

theorem tilt_sphere (r : ℝ) (q : ℝ) (v : Fin 2) (o d : Vec3 ℝ) :
    pySphere r (((tilted q).node v).w2l.point o) (((tilted q).node v).w2l.vec d) = pySphere r o d := by
  unfold pySphere
  simp only [tilt_point, tilt_dot]

theorem tilt_ts (q : ℝ) (v : Fin 2) (o d : Vec3 ℝ) :
    ((tilted q).node v).pyTs noBoxes o d = ((glowScene q).node v).pyTs noBoxes o d := by
  rw [ts_glow]
  unfold LNode.pyTs LNode.localOrigin LNode.localDir
  have := tilt_sphere (if v = 0 then 10 else 1) q v o d
  by_cases h : v = 0
  · subst h
    simpa [tilted, glowScene, ballScene, pyIntersect] using this
  · have hv : v = 1 := by omega
    subst hv
    simpa [tilted, glowScene, ballScene, pyIntersect] using this

theorem tilt_inter (q : ℝ) (v : Fin 2) (o d : Vec3 ℝ) (t : ℝ) :
    ((tilted q).node v).inter v o d t = ((glowScene q).node v).inter v o d t := by
  rw [inter_glow]
  have e : ((tilted q).node v).l2w.point (((tilted q).node v).w2l.point o + t • ((tilted q).node v).w2l.vec d) = o + t • d := by
    obtain ⟨x, y, z⟩ := o
    obtain ⟨a, b, c⟩ := d
    by_cases h : v = 0 <;> simp [tilted, h, Affine.one, quarter, back, Affine.point, Affine.vec, Vec3.dot, Vec3.ext_iff] <;> ring
  have e2 : distanceBetween (((tilted q).node v).w2l.point o) (((tilted q).node v).w2l.point o + t • ((tilted q).node v).w2l.vec d) =
      distanceBetween o (o + t • d) := by
    unfold distanceBetween
    rw [sub_line, sub_line]
    unfold Vec3.norm
    simp only [Vec3.smul_dot, Vec3.dot_smul, Vec3.neg_dot, Vec3.dot_neg, tilt_dot]
  unfold LNode.inter LNode.localOrigin LNode.localDir
  simp only [e, e2]

theorem tilt_intersections (q : ℝ) (o d : Vec3 ℝ) : (tilted q).intersections noBoxes o d = (glowScene q).intersections noBoxes o d := by
  unfold LScene.intersections
  have e : ∀ v : Fin 2, (((tilted q).node v).pyTs noBoxes o d).map (((tilted q).node v).inter v o d) =
      (((glowScene q).node v).pyTs noBoxes o d).map (((glowScene q).node v).inter v o d) := fun v => by
    rw [tilt_ts, show ((tilted q).node v).inter v o d = ((glowScene q).node v).inter v o d from funext (tilt_inter q v o d)]
  simp only [e]

theorem tilt_disc (q r : ℝ) (v : Fin 2) (o d : Vec3 ℝ) :
    Geometry.disc r (((tilted q).node v).w2l.point o) (((tilted q).node v).w2l.vec d) = Geometry.disc r o d := by
  unfold Geometry.disc
  simp only [tilt_point, tilt_dot]

theorem dot_bound {o d : Vec3 ℝ} (ho : o.dot o ≤ 1) (hd : d.dot d = 1) : -1 ≤ d.dot o ∧ d.dot o ≤ 1 := by
  have h : (d.dot o) ^ 2 ≤ d.dot d * o.dot o := by
    simp only [Vec3.dot]
    nlinarith [sq_nonneg (d.x * o.y - d.y * o.x), sq_nonneg (d.x * o.z - d.z * o.x), sq_nonneg (d.y * o.z - d.z * o.y)]
  rw [hd] at h
  constructor <;> nlinarith

theorem tilt_ray (q : ℝ) {ray : Ray ℝ} (ho : ray.position.dot ray.position ≤ 1) (hd : ray.direction.dot ray.direction = 1)
    (hk : 1e-8 < Geometry.disc 1 ray.position ray.direction) : RegularRay (tilted q) noBoxes ray where
  clear v := by by_cases h : v = 0 <;> simp [tilted, glowScene, ballScene, h, Geometry.ClearDir]
  line v := by
    have := tilt_disc q (if v = 0 then 10 else 1) v ray.position ray.direction
    by_cases h : v = 0
    · subst h
      show Geometry.disc 10 _ _ < 0 ∨ 1e-8 < Geometry.disc 10 _ _
      right
      unfold LNode.localOrigin LNode.localDir
      rw [if_pos rfl] at this
      rw [this]
      unfold Geometry.disc
      rw [hd]
      nlinarith [sq_nonneg (ray.direction.dot ray.position)]
    · have hv : v = 1 := Fin.eq_one_of_ne_zero v h
      subst hv
      show Geometry.disc 1 _ _ < 0 ∨ 1e-8 < Geometry.disc 1 _ _
      right
      unfold LNode.localOrigin LNode.localDir
      rw [if_neg (by decide)] at this
      rw [this]
      exact hk
  inside := by
    have h := tilt_dot q 0 ray.position ray.position
    rw [← tilt_point] at h
    unfold LNode.localOrigin
    generalize ((tilted q).node 0).w2l.point ray.position = p at *
    show p.x ^ 2 + p.y ^ 2 + p.z ^ 2 < 10 ^ 2
    simp only [Vec3.dot] at h ho
    nlinarith
  off t t0 t1 := by
    rintro ⟨_, h⟩
    apply h
    have h2 : t ≤ 1 := le_trans t1 (by norm_num [epsZero])
    have h := tilt_dot q 0 ray.position ray.position
    have h3 := tilt_dot q 0 ray.direction ray.direction
    have h4 := tilt_dot q 0 ray.direction ray.position
    have hb := dot_bound ho hd
    unfold LNode.localOrigin LNode.localDir
    rw [tilt_point]
    generalize ((tilted q).node 0).w2l.vec ray.position = p at *
    generalize ((tilted q).node 0).w2l.vec ray.direction = e at *
    show (p + t • e).x ^ 2 + (p + t • e).y ^ 2 + (p + t • e).z ^ 2 < 10 ^ 2
    have e2 : (p + t • e).x ^ 2 + (p + t • e).y ^ 2 + (p + t • e).z ^ 2 = p.dot p + 2 * t * e.dot p + t ^ 2 * e.dot e := by
      simp only [Vec3.dot, Vec3.add_x, Vec3.add_y, Vec3.add_z, Vec3.smul_x, Vec3.smul_y, Vec3.smul_z]; ring
    rw [e2, h, h3, h4, hd]
    nlinarith

theorem on_unit {o d : Vec3 ℝ} {t : ℝ} (hd : d.dot d = 1) (hk : 1e-8 < Geometry.disc 1 o d) (h : t ∈ pySphere 1 o d) :
    (o + t • d).dot (o + t • d) = 1 := by
  have e : (o + t • d).dot (o + t • d) = o.dot o + 2 * t * d.dot o + t ^ 2 * d.dot d := by
    simp only [Vec3.dot, Vec3.add_x, Vec3.add_y, Vec3.add_z, Vec3.smul_x, Vec3.smul_y, Vec3.smul_z]; ring
  rw [Geometry.pySphere_eq hk hd] at h
  have h2 := (List.mem_filter.1 h).1
  have hs := Real.sq_sqrt (show 0 ≤ Geometry.disc 1 o d by linarith)
  rw [e]
  generalize Real.sqrt (Geometry.disc 1 o d) = r at *
  unfold Geometry.disc at hs
  rw [hd] at hs h2 ⊢
  rw [List.mem_cons, List.mem_singleton] at h2
  clear h e hk
  generalize d.dot o = b at *
  generalize o.dot o = c at *
  rcases h2 with rfl | rfl <;> nlinarith

theorem tilt_state (q : ℝ) {ray : Ray ℝ} (ho : ray.position.dot ray.position ≤ 1) (hd : ray.direction.dot ray.direction = 1)
    (hk : 1e-8 < Geometry.disc 1 ray.position ray.direction) (hS : Accepted (tilted q)) {s : Numbers} (hs : Good s) :
    RegularState (tilted q) noBoxes reader ray s where
  toRegularRay := tilt_ray q ho hd hk
  pick v cs hcs hsum k hkl := by
    rw [show ((tilted q).node v).comps = ((glowScene q).node v).comps from rfl] at hcs
    rcases glow_comps q v with h | h <;> rw [h] at hcs
    · simp [coefficients, pure, Except.pure] at hcs
      subst hcs
      simp at hsum
    · rw [glow_coefficients] at hcs
      cases hcs
      have h2 := hs 1
      have hk : k = 0 ∨ k = 1 := by simp at hkl; omega
      rcases hk with rfl | rfl
      · simp [reader]
        exact h2.1.ne'
      · simp [reader]
        exact h2.2.ne
  surface h hn h0 := by
    have hag := hit_agrees hS (R := reader) hd (tilt_ray q ho hd hk) .full
    obtain ⟨h', e', hh⟩ := glow_hit q (ho.trans (by norm_num)) hd
    have hn' := hn
    rw [tilt_intersections, e'] at hn'
    cases hn'
    rw [hag] at hn
    obtain ⟨-, t, ht, hdist⟩ := hh h0
    have hp : h.point = ray.position + h.dist • ray.direction := by
      rcases hx : (kOps (tilted q) reader .full).nextHit ray.position ray.direction with _ | ⟨a, b, c, t⟩
      · rw [hx] at hn; cases hn
      · rw [hx] at hn
        cases hn
        rfl
    have hv : h.hit = 1 := Fin.eq_one_of_ne_zero _ h0
    constructor
    · rw [hp, hdist]
      have h1 := on_unit hd hk ht
      have h2 := tilt_dot q h.hit (ray.position + t • ray.direction) (ray.position + t • ray.direction)
      rw [← tilt_point, h1] at h2
      generalize ((tilted q).node h.hit).w2l.point (ray.position + t • ray.direction) = p at *
      rw [hv]
      show p.x ^ 2 + p.y ^ 2 + p.z ^ 2 = 1 ^ 2
      simp only [Vec3.dot] at h2
      linarith
    · rw [hv]
      intro hf
      simp [tilted, glowScene, ballScene] at hf

/-- A ray from the middle of the ball. -/
def coreRay : Ray ℝ := ⟨⟨0, 0, 0⟩, ⟨1, 0, 0⟩, 500, 0, 0, some "lamp"⟩

theorem core_disc : Geometry.disc 1 coreRay.position coreRay.direction = 4 := by
  norm_num [Geometry.disc, coreRay, Vec3.dot]

theorem core_hit (q : ℝ) (hS : Accepted (tilted q)) : nextHit epsZero (distanceBetween coreRay.position)
    ((tilted q).intersections noBoxes coreRay.position coreRay.direction) =
    .ok (some ⟨1, 1, some 0, coreRay.position + (1 : ℝ) • coreRay.direction, 1⟩) := by
  have h := hit_agrees hS (R := reader) (ray := coreRay) (by norm_num [coreRay, Vec3.dot])
    (tilt_ray q (by norm_num [coreRay, Vec3.dot]) (by norm_num [coreRay, Vec3.dot]) (by rw [core_disc]; norm_num)) .full
  rw [h]
  have e : (kOps (tilted q) reader .full).nextHit coreRay.position coreRay.direction = some (1, 1, some 0, 1) := by
    rw [← EngineChance.mid_hit]
    show kNextHit _ _ = kNextHit _ _
    congr 1
    funext v
    by_cases hv : v = 0 <;> simp [tilted, glowScene, ballScene, hv, coreRay, Affine.one, back, Affine.point, Affine.vec, Vec3.dot]
  rw [e]
  rfl

theorem glow_emits (q : ℝ) (ray : Ray ℝ) {s : Numbers} (hs : Units s) :
    ∃ r, (glow q).emit reader .full ray s = .ok (r, fun i => s (i + 3)) ∧ r.position = ray.position ∧ r.direction.dot r.direction = 1 := by
  have he : Emits (.table Ending.flat false) .full 0 1000 :=
    ⟨Ending.flat, Ending.flat_ok, ⟨0, by simp [Ending.flat], by simp [Ending.flat]⟩, by norm_num [Ending.flat]⟩
  obtain ⟨w, -, e⟩ := Ending.emits_ok he (w := 0) ⟨le_rfl, by norm_num⟩ (hs 2).1 (hs 2).2
  have e' : ∀ x, emitWavelength (.table Ending.flat false) .full x (s 2) = .ok w := fun x => e
  refine ⟨{ ray with direction := sphericalToCart (Real.arccos (2 * s 1 - 1)) (2 * Real.pi * s 0), wavelength := w, source := some "glow" }, ?_, rfl, ?_⟩
  · unfold Comp.emit glow
    simp only [PV.Phase.draw, isotropic, reader, if_true, e', truthy]
  · exact Phase.spherical_unit _ _

theorem along_x (x : ℝ) : coreRay.position + x • coreRay.direction = ⟨x, 0, 0⟩ := by
  simp [coreRay, Vec3.ext_iff]

/-- What the first pass leaves. -/
def After (s : Numbers) (r : Ray ℝ) : Prop :=
  (r.position = ⟨-Real.log (1 - s 0), 0, 0⟩ ∧ r.direction.dot r.direction = 1 ∧ -Real.log (1 - s 0) < 1) ∨
    (r.position = ⟨1, 0, 0⟩ ∧ r.direction = ⟨1, 0, 0⟩)

theorem core_pass (q : ℝ) (hS : Accepted (tilted q)) {s : Numbers} (hs : Good s) :
    (∃ es, body (pyOps (tilted q) noBoxes reader .full) 1 none 1 coreRay s = (es, .stop)) ∨
      ∃ es r t, body (pyOps (tilted q) noBoxes reader .full) 1 none 1 coreRay s = (es, .cont r t) ∧ Good t ∧ After s r := by
  have hu : Units s := fun i => ⟨(hs i).1.le, (hs i).2⟩
  unfold body
  rw [show (pyOps (tilted q) noBoxes reader .full).intersections coreRay.position coreRay.direction =
    .ok ((tilted q).intersections noBoxes coreRay.position coreRay.direction) from rfl]
  dsimp only
  rw [show nextHit (pyOps (tilted q) noBoxes reader .full).eps ((pyOps (tilted q) noBoxes reader .full).distBetween coreRay.position)
    ((tilted q).intersections noBoxes coreRay.position coreRay.direction) = _ from core_hit q hS]
  dsimp only
  rw [if_neg (by simp [beyond]), if_neg (show ¬ 1 = (pyOps (tilted q) noBoxes reader .full).root from by show ¬ (1 : Fin 2) = 0; decide)]
  have e1 : (pyOps (tilted q) noBoxes reader .full).penetrationDepth 1 coreRay.wavelength s =
      .ok (some (-Real.log (1 - s 0) / 1), fun i => s (i + 1)) := by
    show penetrationDepth reader [glow q] coreRay.wavelength s = _
    unfold penetrationDepth
    rw [glow_coefficients]
    simp only [List.sum_cons, List.sum_nil, add_zero, reader]
    rw [if_neg (by norm_num)]
  rw [e1]
  simp only [isAbsorbed, div_one]
  split_ifs with hl
  · dsimp only
    have hc : pickComponent reader [glow q] 500 (fun i => s (i + 1)) = .ok (glow q, fun i => s (i + 2)) := by
      obtain ⟨i, hi, e, -⟩ := Material.component_total (cs := [1]) (by simp) (by simp) (hu 1).1 (hu 1).2
      unfold pickComponent
      rw [glow_coefficients]
      have : i = 0 := by simpa using hi
      subst this
      have e' : pickIndex [1] (s (0 + 1)) = .ok 0 := e
      simp only [reader, e']
      rfl
    unfold absorbBody
    dsimp only
    rw [show (pyOps (tilted q) noBoxes reader .full).component 1
      (coreRay.propagate (-Real.log (1 - s 0)) ((pyOps (tilted q) noBoxes reader .full).refractiveIndex 1)).wavelength (fun i => s (i + 1)) = _ from hc]
    dsimp only
    rw [show ∀ x, (pyOps (tilted q) noBoxes reader .full).isRadiative (glow q) x (fun i => s (i + 2)) =
      .ok (decide (s 2 < q), fun i => s (i + 3)) from fun x => rfl]
    by_cases hq : s 2 < q
    · simp only [hq, decide_true]
      obtain ⟨r, e', hr, hd⟩ := glow_emits q ((coreRay.propagate (-Real.log (1 - s 0)) ((tilted q).node 1).index).representation ((tilted q).node 1).w2l)
        (s := fun i => s (i + 3)) (fun i => hu (i + 3))
      have e2 : (pyOps (tilted q) noBoxes reader .full).emit 1 (glow q)
          (coreRay.propagate (-Real.log (1 - s 0)) ((pyOps (tilted q) noBoxes reader .full).refractiveIndex 1)) (fun i => s (i + 3)) =
          .ok (r.representation ((tilted q).node 1).l2w, fun i => s (i + 6)) := by
        simp only [pyOps]
        rw [e']
      rw [e2]
      refine .inr ⟨_, _, _, rfl, fun i => hs _, .inl ⟨?_, ?_, hl⟩⟩
      · show ((tilted q).node 1).l2w.point r.position = _
        rw [hr]
        show ((tilted q).node 1).l2w.point (((tilted q).node 1).w2l.point (coreRay.position + (-Real.log (1 - s 0)) • coreRay.direction)) = _
        rw [along_x]
        simp [tilted, quarter, back, Affine.point, Affine.vec, Vec3.dot, Vec3.ext_iff]
      · show (((tilted q).node 1).l2w.vec r.direction).dot (((tilted q).node 1).l2w.vec r.direction) = 1
        rw [← hd]
        simp [tilted, quarter, Affine.vec, Vec3.dot]
        ring
    · simp only [hq, decide_false]
      exact .inl ⟨_, rfl⟩
  · dsimp only
    have hr : ∀ ray s, (pyOps (tilted q) noBoxes reader .full).isReflected 1 1 (some 0) ray s = .ok (false, s) := by
      intro ray s
      unfold pyOps LScene.isReflected LScene.reflectivity
      simp [tilted, glowScene, ballScene, PV.isReflected]
    have ht : ∀ ray s, (pyOps (tilted q) noBoxes reader .full).transmit 1 1 (some 0) ray s = .ok (ray, s) := by
      intro ray s
      obtain ⟨⟨x, y, z⟩, ⟨a, b, c⟩, w, t, u, src⟩ := ray
      unfold pyOps LScene.transmitted LNode.turn
      simp [tilted, glowScene, ballScene, Ray.representation, quarter, back, Affine.point, Affine.vec, Vec3.dot, Vec3.ext_iff]
    have hn : ∀ p, ∃ n, (pyOps (tilted q) noBoxes reader .full).normal 1 p = .ok n := by
      intro p
      unfold pyOps
      simp [tilted, glowScene, ballScene, pyNormal]
    obtain ⟨n, hn⟩ := hn (coreRay.propagate 1 ((pyOps (tilted q) noBoxes reader .full).refractiveIndex 1)).position
    unfold surfaceBody
    dsimp only
    rw [hn]
    simp only [hr, ht]
    refine .inr ⟨_, _, _, rfl, fun i => hs _, .inr ⟨?_, rfl⟩⟩
    simp [coreRay, Ray.propagate, Vec3.ext_iff]

/-- The second pass ends the history. -/
theorem last_pass (q : ℝ) {ray : Ray ℝ} (ho : ray.position.dot ray.position ≤ 4) (hd : ray.direction.dot ray.direction = 1) (count : ℕ) (s : Numbers) :
    ∃ es, body (pyOps (tilted q) noBoxes reader .full) 1 none (count + 2) ray s = (es, .stop) := by
  obtain ⟨h, e, -⟩ := glow_hit q ho hd
  unfold body
  rw [show (pyOps (tilted q) noBoxes reader .full).intersections ray.position ray.direction =
    .ok ((tilted q).intersections noBoxes ray.position ray.direction) from rfl]
  dsimp only
  rw [tilt_intersections, show nextHit (pyOps (tilted q) noBoxes reader .full).eps ((pyOps (tilted q) noBoxes reader .full).distBetween ray.position)
    ((glowScene q).intersections noBoxes ray.position ray.direction) = _ from e]
  dsimp only
  rw [if_pos (.inl (by omega))]
  exact ⟨_, rfl⟩

theorem never_third (q : ℝ) (count : ℕ) (ray r : Ray ℝ) (s t : Numbers) :
    (body (pyOps (tilted q) noBoxes reader .full) 1 none (count + 1 + 1) ray s).2 ≠ .cont r t := by
  intro h
  unfold body at h
  split at h
  · cases h
  split at h
  · cases h
  · cases h
  rw [if_pos (.inl (by omega))] at h
  cases h

theorem After.near {s : Numbers} (hs : Good s) {r : Ray ℝ} (h : After s r) (hm : ¬ (1 - 2e-9 < -Real.log (1 - s 0) ∧ -Real.log (1 - s 0) < 1)) :
    r.position.dot r.position ≤ 1 ∧ r.direction.dot r.direction = 1 ∧ 1e-8 < Geometry.disc 1 r.position r.direction := by
  rcases h with ⟨hp, hd, hl⟩ | ⟨hp, hd⟩
  · have h1 : -Real.log (1 - s 0) ≤ 1 - 2e-9 := not_lt.1 fun h => hm ⟨h, hl⟩
    have h0 := Real.log_nonpos (by linarith [(hs 0).2]) (by linarith [(hs 0).1] : 1 - s 0 ≤ 1)
    have h2 : 0 ≤ -Real.log (1 - s 0) := by linarith
    generalize -Real.log (1 - s 0) = x at *
    have e : r.position.dot r.position = x ^ 2 := by rw [hp]; simp [Vec3.dot]; ring
    refine ⟨by rw [e]; nlinarith, hd, ?_⟩
    unfold Geometry.disc
    rw [hd, e]
    norm_num at h1 ⊢
    nlinarith [sq_nonneg (r.direction.dot r.position)]
  · rw [hp, hd]
    norm_num [Vec3.dot, Geometry.disc]

/-- The tracer meets an irregular state only if the ray is absorbed just below the surface. -/
theorem tilt_regular {q : ℝ} (hS : Accepted (tilted q)) {s : Numbers} (hs : Good s)
    (hm : ¬ (1 - 2e-9 < -Real.log (1 - s 0) ∧ -Real.log (1 - s 0) < 1)) :
    Library.Regular (tilted q) noBoxes reader .full 1 coreRay s where
  states count ray' s' hv := by
    cases hv with
    | start => exact tilt_state q (by norm_num [coreRay, Vec3.dot]) (by norm_num [coreRay, Vec3.dot]) (by rw [core_disc]; norm_num) hS hs
    | next h hb =>
      cases h with
      | start =>
        rcases core_pass q hS hs with ⟨es, e⟩ | ⟨es, r, t, e, ht, ha⟩
        · rw [e] at hb; cases hb
        · rw [e] at hb
          cases hb
          obtain ⟨h1, h2, h3⟩ := ha.near hs hm
          exact tilt_state q h1 h2 h3 hS ht
      | next h hb' =>
        exact absurd hb (never_third q _ _ _ _ _)
  finishes e := by
    unfold stepForward
    simp only [loop]
    rcases core_pass q hS hs with ⟨es, e⟩ | ⟨es, r, t, e, ht, ha⟩
    · rw [e]
      simp
    · rw [e]
      obtain ⟨h1, h2, h3⟩ := ha.near hs hm
      obtain ⟨es, e⟩ := last_pass q (ray := r) (h1.trans (by norm_num)) h2 0 t
      simp only [e]
      simp

theorem tilt_irregular {q : ℝ} (hS : Accepted (tilted q)) :
    chance (fun s => ¬ Library.Regular (tilted q) noBoxes reader .full 1 coreRay s) ≤ ENNReal.ofReal 2e-9 := by
  have hA : MeasurableSet (Set.Ioo (1 - Real.exp (-(1 - 2e-9 : ℝ))) (1 - Real.exp (-1))) := measurableSet_Ioo
  have h1 : chance (fun s => ¬ Library.Regular (tilted q) noBoxes reader .full 1 coreRay s) ≤
      independent ({s : Numbers | s 0 ∈ Set.Ioo (1 - Real.exp (-(1 - 2e-9 : ℝ))) (1 - Real.exp (-1))} ∪ {s | ¬ Good s}) := by
    refine measure_mono fun s hs => ?_
    by_cases hg : Good s
    · left
      have hm := not_not.1 fun h => hs (tilt_regular hS hg h)
      have h1 : 0 < 1 - s 0 := by linarith [(hg 0).2]
      constructor
      · have := Real.exp_lt_exp.2 (show Real.log (1 - s 0) < -(1 - 2e-9) by linarith [hm.1])
        rw [Real.exp_log h1] at this
        linarith
      · have := Real.exp_lt_exp.2 (show -1 < Real.log (1 - s 0) by linarith [hm.2])
        rw [Real.exp_log h1] at this
        linarith
    · exact .inr hg
  have h2 : independent {s : Numbers | ¬ Good s} = 0 := almost_good
  have h3 : independent {s : Numbers | s 0 ∈ Set.Ioo (1 - Real.exp (-(1 - 2e-9 : ℝ))) (1 - Real.exp (-1))} =
      uniform (Set.Ioo (1 - Real.exp (-(1 - 2e-9 : ℝ))) (1 - Real.exp (-1))) :=
    (measurePreserving_eval_infinitePi (fun _ => uniform) 0).measure_preimage hA.nullMeasurableSet
  have h4 : uniform (Set.Ioo (1 - Real.exp (-(1 - 2e-9 : ℝ))) (1 - Real.exp (-1))) ≤ ENNReal.ofReal 2e-9 := by
    refine (Measure.restrict_apply_le _ _).trans ?_
    rw [Real.volume_Ioo]
    refine ENNReal.ofReal_le_ofReal ?_
    have e : Real.exp (-(1 - 2e-9 : ℝ)) - Real.exp (-1) ≤ 2e-9 := by
      have h5 := Real.add_one_le_exp (-2e-9 : ℝ)
      have h6 : Real.exp (-(1 - 2e-9 : ℝ)) * Real.exp (-2e-9) = Real.exp (-1) := by
        rw [← Real.exp_add]; congr 1; norm_num
      have h7 : Real.exp (-(1 - 2e-9 : ℝ)) ≤ 1 := Real.exp_le_one_iff.2 (by norm_num)
      have h8 := Real.exp_pos (-(1 - 2e-9 : ℝ))
      nlinarith
    linarith
  calc _ ≤ _ := h1
    _ ≤ _ + _ := measure_union_le _ _
    _ ≤ _ := by rw [h2, add_zero, h3]; exact h4

/-- The hypotheses of `same_chance` are met: no chance differs by more than 2e-9 for the dye in
the turned ball. -/
example {E : List (Step ℝ) → Prop} (hE : BorelSteps E) :
    chance (fun s => E (Library.run (tilted 0.9) noBoxes reader .full 1 none coreRay s)) ≤
        chance (fun s => E (engineRun (tilted 0.9) .full 1 coreRay s)) + ENNReal.ofReal 2e-9 ∧
      chance (fun s => E (engineRun (tilted 0.9) .full 1 coreRay s)) ≤
        chance (fun s => E (Library.run (tilted 0.9) noBoxes reader .full 1 none coreRay s)) + ENNReal.ofReal 2e-9 := by
  have hS := tilt_turnable (q := 0.9) (by norm_num) (by norm_num)
  have h := same_chance hS (tilt_visible _) tilt_mesh .full 1 coreRay ⟨by norm_num [coreRay, Vec3.dot], rfl, rfl⟩ hE
  have h2 := tilt_irregular hS.toAccepted
  exact ⟨h.1.trans (add_le_add le_rfl h2), h.2.trans (add_le_add le_rfl h2)⟩

/-- Such questions are: is the ray emitted upwards? -/
def Upwards (h : List (Step ℝ)) : Prop := ∃ e ∈ h, e.event = .emit ∧ 0 < e.ray.direction.z

theorem upwards_borel : BorelSteps Upwards := by
  intro fs
  have e : {v : ℕ → Fin 12 → ℝ | Upwards (stepsAt fs v)} = ⋃ x ∈ {x | x ∈ fs.zipIdx}, {v | x.1.event = .emit ∧ 0 < v x.2 5} := by
    ext v
    simp only [Upwards, stepsAt, List.mem_map, Set.mem_iUnion, exists_prop]
    constructor
    · rintro ⟨_, ⟨x, hx, rfl⟩, h1, h2⟩
      exact ⟨x, hx, h1, h2⟩
    · rintro ⟨x, hx, h1, h2⟩
      exact ⟨_, ⟨x, hx, rfl⟩, h1, h2⟩
  rw [e]
  refine MeasurableSet.biUnion (fs.zipIdx.finite_toSet.countable) fun x _ => ?_
  by_cases h : x.1.event = .emit
  · simp only [h, true_and]
    exact measurableSet_lt measurable_const (by fun_prop)
  · simp [h]

end
end PV.SameLaw
