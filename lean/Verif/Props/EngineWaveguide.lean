import Verif.Props.Scaled
import Verif.Props.Waveguide
import Verif.Lemmas.KernelRay
import Verif.Lemmas.IsotropicLaw
import Verif.Props.Transformable

/-!
C121: guided light in the engine. The rows of the engine's log hold unit directions, and light that is
reflected inside a box or a rod keeps its angles to the faces: it can be transmitted through a face only if it was
inside the escape cone of that face from the start.
-/

namespace PV.EngineGuide
open PV PV.Library
noncomputable section
open Classical
variable {σ : Type} {n : ℕ}

/-- A row of the engine's log. -/
abbrev LogRow (n : ℕ) := Row ℝ (Fin (n + 1)) Comp

/-- The direction in a row, in the frame of a node. -/
def inFrame (N : LNode) (e : LogRow n) : Vec3 ℝ := N.w2l.vec e.ray.direction

/-- A reflection at the surface of a node. -/
def BouncesAt (v : Fin (n + 1)) (e : LogRow n) : Prop := e.kind = .reflect ∧ e.hit = some v

/-- A transmission through the surface of a node, out of `c` into `u`. -/
structure Passes (v c u : Fin (n + 1)) (e : LogRow n) : Prop where
  kind : e.kind = .transmit
  hit : e.hit = some v
  container : e.container = some c
  adjacent : e.adjacent = some u

/-- The face it passes is perpendicular to an axis of the node: the row holds the normal. -/
def Facing (N : LNode) (i : Fin 3) (e : LogRow n) : Prop :=
  ∃ s : ℝ, (s = 1 ∨ s = -1) ∧ e.normal = some (N.l2w.vec (axisNormal i s))

/-- What consecutive rows do to the angle with an axis of the node. -/
structure Turn (S : LScene n) (v : Fin (n + 1)) (i : Fin 3) (a b : LogRow n) : Prop where
  bounce : BouncesAt v b → (inFrame (S.node v) b).get i ^ 2 = (inFrame (S.node v) a).get i ^ 2
  cross : ∀ c u, Passes v c u b → Facing (S.node v) i b →
    Waveguide.InCone (S.node c).index (S.node u).index i (inFrame (S.node v) a)

/-! ### Normals -/

theorem axis_unit (i : Fin 3) {s : ℝ} (hs : s = 1 ∨ s = -1) : (axisNormal i s).dot (axisNormal i s) = 1 := by
  rcases hs with rfl | rfl <;> fin_cases i <;> simp [axisNormal, Vec3.dot]

theorem face_sign {f : Fin 3 × ℝ} (h : f ∈ faces) : f.2 = 1 ∨ f.2 = -1 := by
  simp only [faces, List.mem_cons, List.not_mem_nil, or_false] at h
  rcases h with rfl | rfl | rfl | rfl | rfl | rfl <;> simp

/-- The normals of a box or rod are along or perpendicular to its axes. -/
theorem normal_axis {g : Geom} {i : Fin 3} (hg : Waveguide.Axial g i) (p : Vec3 ℝ) :
    (kNormal g p).get i = 0 ∨ kNormal g p = axisNormal i 1 ∨ kNormal g p = axisNormal i (-1) := by
  cases g with
  | box s =>
    obtain ⟨f, hf, -, e⟩ := Geometry.kNormal_box s p
    rw [e]
    simp only [faces, List.mem_cons, List.not_mem_nil, or_false] at hf
    rcases hf with rfl | rfl | rfl | rfl | rfl | rfl <;> fin_cases i <;> simp [Vec3.get, axisNormal]
  | sphere r => exact hg.elim
  | cylinder l r =>
    have : i = 2 := hg
    subst this
    simp only [kNormal]
    split_ifs <;> simp [Vec3.get, axisNormal]

/-- Normals computed where the engine finds an intersection are unit vectors. -/
theorem normal_unit {g : Geom} (hp : Solid.Proper g) {o d : Vec3 ℝ} (hd : d.dot d = 1) {t : ℝ}
    (ht : t ∈ kIntersect g o d) : (kNormal g (o + t • d)).dot (kNormal g (o + t • d)) = 1 := by
  cases g with
  | box s =>
    obtain ⟨f, hf, -, e⟩ := Geometry.kNormal_box s (o + t • d)
    rw [e]
    exact axis_unit _ (face_sign hf)
  | sphere r =>
    have h := ((Geometry.sphere_engine hd t).1 ht).2
    have hr : (0 : ℝ) < r := hp
    generalize o + t • d = p at h
    have hpp : p.dot p = r ^ 2 := by simp only [Vec3.dot]; linarith
    have hs : √(p.dot p) = r := by rw [hpp, Real.sqrt_sq hr.le]
    simp only [kNormal, hs]
    simp only [Vec3.dot] at hpp ⊢
    field_simp
    linarith
  | cylinder l r =>
    have hr : (0 : ℝ) < r := hp.2
    have hl : (0 : ℝ) < l := hp.1
    simp only [kNormal]
    split_ifs with h1 h2
    · simp [Vec3.dot]
    · simp [Vec3.dot]
    · have hside : (o + t • d).x ^ 2 + (o + t • d).y ^ 2 = r ^ 2 := by
        simp only [kIntersect, kCylinder, List.mem_filter, List.mem_append] at ht
        obtain ⟨hs | hc, -⟩ := ht
        · split_ifs at hs with ha hdisc
          · have ha0 : 0 < d.x * d.x + d.y * d.y := lt_trans Geo.tiny_pos ha
            have hq : 0 ≤ (2 * (o.x * d.x + o.y * d.y)) ^ 2 - 4 * (d.x * d.x + d.y * d.y) *
                (o.x * o.x + o.y * o.y - r * r) := by
              rw [pow_two]; exact hdisc
            have := (Geo.quad_spec ha0 hq t).2.2
            simp only [List.mem_filter, List.mem_cons, List.not_mem_nil, or_false] at hs
            have h0 := this.2 (by rw [pow_two (2 * _)]; exact hs.1)
            simp only [Vec3.add_x, Vec3.add_y, Vec3.smul_x, Vec3.smul_y]
            linarith [h0]
          · cases hs
          · cases hs
        · exfalso
          split_ifs at hc with hz
          · have hz0 : d.z ≠ 0 := by
              intro e; rw [e, abs_zero] at hz; exact absurd hz (not_lt.2 Geo.tiny_pos.le)
            simp only [List.mem_filter, List.mem_cons, List.not_mem_nil, or_false] at hc
            rcases hc.1 with rfl | rfl
            · apply h1
              have : (o + ((-(0.5 * l) - o.z) / d.z) • d).z + 0.5 * l = 0 := by
                simp only [Vec3.add_z, Vec3.smul_z]; field_simp; ring
              rw [this, abs_zero]
              positivity
            · apply h2
              have : (o + ((0.5 * l - o.z) / d.z) • d).z - 0.5 * l = 0 := by
                simp only [Vec3.add_z, Vec3.smul_z]; field_simp; ring
              rw [this, abs_zero]
              positivity
          · cases hc
      generalize o + t • d = p at hside
      have hs : √(p.x * p.x + p.y * p.y) = r := by
        rw [← pow_two, ← pow_two, hside, Real.sqrt_sq hr.le]
      rw [hs]
      simp only [Vec3.dot]
      field_simp
      linarith

/-! ### One pass -/

section
variable {S : LScene n} (hS : Sound S) (hp : ∀ v, Solid.Proper (S.node v).geom) {R : Rand σ} (hR : R.Unit)
  {method : EmitMethod}
include hS

theorem vec_unit (v : Fin (n + 1)) {d : Vec3 ℝ} (hd : d.dot d = 1) :
    ((S.node v).w2l.vec d).dot ((S.node v).w2l.vec d) = 1 := localDir_unit (hS.rigid v) (hS.inverse v) hd

include hp in
/-- The normal at the next hit, in the frame of the node. -/
theorem hit_unit {o d : Vec3 ℝ} (hd : d.dot d = 1) {h c : Fin (n + 1)} {a : Option (Fin (n + 1))} {t : ℝ}
    (hit : (kOps S R method).nextHit o d = some (h, c, a, t)) :
    (kNormal (S.node h).geom ((S.node h).w2l.point (o + t • d))).dot
      (kNormal (S.node h).geom ((S.node h).w2l.point (o + t • d))) = 1 := by
  rw [Affine.point_add_smul]
  exact normal_unit (hp h) (vec_unit hS h hd) (Scaled.nextHit_mem (l := List.finRange (n + 1)) hit)

end

theorem refract_unit {m d t : Vec3 ℝ} {n1 n2 : ℝ} (h2 : 0 < n2) (hd : d.dot d = 1) (hm : m.dot m = 1)
    (h : kTransmit m d n1 n2 = some t) : t.dot t = 1 := by
  rw [kTransmit, Optics.engine_refract] at h
  exact Library.transmit_unit h2 hd hm h


/-- The direction of an emission or scattering is drawn from the phase function of the component. -/
def Drawn (R : Rand σ) (e : LogRow n) : Prop := e.kind = .emit ∨ e.kind = .scatter →
  ∃ comp t, e.component = some comp ∧ e.ray.direction =
    (kSamplePhase R (comp.phase.tag.getD (.isotropic, 0)).1 (comp.phase.tag.getD (.isotropic, 0)).2 t).1

/-- The rows of a pass after a row with the ray's direction. -/
structure Fine (S : LScene n) (R : Rand σ) (v : Fin (n + 1)) (i : Fin 3) (prev : LogRow n)
    (b : List (KOut ℝ (Fin (n + 1)) Comp) × KNext ℝ Comp σ) : Prop where
  chain : Waveguide.Axial (S.node v).geom i → (S.node v).surface = .fresnel →
    List.IsChain (Turn S v i) (prev :: rowsOf b.1)
  facing : ∀ e ∈ rowsOf b.1, (∃ s, (S.node v).geom = .box s) → e.kind = .transmit → e.hit = some v →
    ∃ j, Facing (S.node v) j e
  drawn : ∀ e ∈ rowsOf b.1, Drawn R e
  unit : ∀ e ∈ rowsOf b.1, e.ray.direction.dot e.ray.direction = 1
  next : ∀ ray s, b.2 = .cont ray s → ∃ l e, rowsOf b.1 = l ++ [e] ∧ e.ray = ray

section
variable {S : LScene n} (hS : Sound S) (hp : ∀ v, Solid.Proper (S.node v).geom) {R : Rand σ} (hR : R.Unit)
  {method : EmitMethod}

theorem turn_other {v : Fin (n + 1)} {i : Fin 3} {a b : LogRow n} (h : b.kind ≠ .reflect) (h' : b.kind ≠ .transmit) :
    Turn S v i a b :=
  ⟨fun hb => absurd hb.1 h, fun _ _ hc => absurd hc.kind h'⟩

theorem absorb_fine {v : Fin (n + 1)} {i : Fin 3} {ray : KRay ℝ Comp} (hd : ray.direction.dot ray.direction = 1) (c : Fin (n + 1)) (d : ℝ)
    (s : σ) (prev : LogRow n) : Fine S R v i prev (kAbsorb (kOps S R method) c ray d s) := by
  have hph : ∀ k s, ((kOps S R method).phase k s).1.dot ((kOps S R method).phase k s).1 = 1 :=
    fun k s => Phase.engine_unit _ _ _
  have hdr : ∀ (k : Comp) (t : σ) (e : LogRow n), e.component = some k → e.ray.direction = ((kOps S R method).phase k t).1 →
      Drawn R e := fun k t e h1 h2 _ => ⟨k, t, h1, h2⟩
  have hd' : (ray.advance d ((kOps S R method).nidx c)).direction.dot
      (ray.advance d ((kOps S R method).nidx c)).direction = 1 := hd
  generalize kOps S R method = K at *
  unfold kAbsorb
  generalize ray.advance d (K.nidx c) = r at *
  obtain ⟨comp, s1, e1⟩ : ∃ x y, K.pick c r.wavelength s = (x, y) := ⟨_, _, rfl⟩
  simp only [e1]
  obtain ⟨rad, s2, e2⟩ : ∃ x y, (if K.kind comp = .scatterer ∨ K.kind comp = .luminophore then K.yields comp s1
    else (false, s1)) = (x, y) := ⟨_, _, rfl⟩
  simp only [e2]
  cases rad with
  | true =>
    simp only [if_true]
    obtain ⟨dir, s3, e3⟩ : ∃ x y, K.phase comp s2 = (x, y) := ⟨_, _, rfl⟩
    have hdir : dir.dot dir = 1 := by have := hph comp s2; rwa [e3] at this
    simp only [e3]
    split_ifs
    · refine ⟨?_, ?_, ?_, ?_, ?_⟩
      · intro _ _
        simp only [rowsOf_record, rowsOf_nil, List.isChain_cons_cons, List.IsChain.singleton, and_true]
        exact ⟨turn_other (by simp) (by simp), turn_other (by simp) (by simp)⟩
      · intro e he _ hk
        simp only [rowsOf_record, rowsOf_nil, List.mem_cons, List.not_mem_nil, or_false] at he
        rcases he with rfl | rfl <;> cases hk
      · intro e he
        simp only [rowsOf_record, rowsOf_nil, List.mem_cons, List.not_mem_nil, or_false] at he
        rcases he with rfl | rfl
        · rintro (hk | hk) <;> cases hk
        · exact hdr comp s2 _ rfl (by rw [e3])
      · intro e he
        simp only [rowsOf_record, rowsOf_nil, List.mem_cons, List.not_mem_nil, or_false] at he
        rcases he with rfl | rfl <;> assumption
      · intro ray' s' h
        simp only [KNext.cont.injEq] at h
        exact ⟨[_], _, rfl, h.1⟩
    · refine ⟨?_, ?_, ?_, ?_, ?_⟩
      · intro _ _
        simp only [rowsOf_record, rowsOf_nil, List.isChain_cons_cons, List.IsChain.singleton, and_true]
        exact ⟨turn_other (by simp) (by simp), turn_other (by simp) (by simp)⟩
      · intro e he _ hk
        simp only [rowsOf_record, rowsOf_nil, List.mem_cons, List.not_mem_nil, or_false] at he
        rcases he with rfl | rfl <;> cases hk
      · intro e he
        simp only [rowsOf_record, rowsOf_nil, List.mem_cons, List.not_mem_nil, or_false] at he
        rcases he with rfl | rfl
        · rintro (hk | hk) <;> cases hk
        · exact hdr comp s2 _ rfl (by rw [e3])
      · intro e he
        simp only [rowsOf_record, rowsOf_nil, List.mem_cons, List.not_mem_nil, or_false] at he
        rcases he with rfl | rfl <;> assumption
      · intro ray' s' h
        simp only [KNext.cont.injEq] at h
        exact ⟨[_], _, rfl, h.1⟩
  | false =>
    simp only [Bool.false_eq_true, if_false]
    refine ⟨?_, ?_, ?_, ?_, ?_⟩
    · intro _ _
      simp only [rowsOf_record, rowsOf_tally, rowsOf_nil, List.isChain_cons_cons, List.IsChain.singleton, and_true]
      exact ⟨turn_other (by simp) (by simp), turn_other (by dsimp only; split_ifs <;> simp) (by dsimp only; split_ifs <;> simp)⟩
    · intro e he _ hk
      simp only [rowsOf_record, rowsOf_tally, rowsOf_nil, List.mem_cons, List.not_mem_nil, or_false] at he
      rcases he with rfl | rfl
      · cases hk
      · dsimp only at hk; split_ifs at hk
    · intro e he
      simp only [rowsOf_record, rowsOf_tally, rowsOf_nil, List.mem_cons, List.not_mem_nil, or_false] at he
      rcases he with rfl | rfl
      · rintro (hk | hk) <;> cases hk
      · rintro (hk | hk) <;> dsimp only at hk <;> split_ifs at hk
    · intro e he
      simp only [rowsOf_record, rowsOf_tally, rowsOf_nil, List.mem_cons, List.not_mem_nil, or_false] at he
      rcases he with rfl | rfl <;> assumption
    · intro ray' s' h
      cases h

include hS hp hR in
theorem surface_fine {v : Fin (n + 1)} {i : Fin 3} {ray : KRay ℝ Comp} (hd : ray.direction.dot ray.direction = 1) {h c : Fin (n + 1)} {a : Option (Fin (n + 1))} {t : ℝ}
    (hit : (kOps S R method).nextHit ray.position ray.direction = some (h, c, a, t)) (s : σ) {prev : LogRow n}
    (hprev : prev.ray.direction = ray.direction) : Fine S R v i prev (kSurface (kOps S R method) h c a ray t s) := by
  have hm := hit_unit hS hp hd hit
  have hpos : (ray.advance t ((kOps S R method).nidx c)).position = ray.position + t • ray.direction := by
    simp only [KRay.advance]; ext <;> simp [mul_comm]
  have hdir : (ray.advance t ((kOps S R method).nidx c)).direction = ray.direction := rfl
  unfold kSurface
  set r := ray.advance t ((kOps S R method).nidx c) with hr
  cases a with
  | none =>
    refine ⟨fun _ _ => ?_, ?_, ?_, ?_, fun _ _ h => by cases h⟩
    · simp only [rowsOf_record, rowsOf_nil, List.isChain_cons_cons, List.IsChain.singleton, and_true]
      exact turn_other (by simp) (by simp)
    · intro e he _ hk
      simp only [rowsOf_record, rowsOf_nil, List.mem_cons, List.not_mem_nil, or_false] at he
      subst he; cases hk
    · intro e he
      simp only [rowsOf_record, rowsOf_nil, List.mem_cons, List.not_mem_nil, or_false] at he
      subst he; rintro (hk | hk) <;> cases hk
    · intro e he
      simp only [rowsOf_record, rowsOf_nil, List.mem_cons, List.not_mem_nil, or_false] at he
      rw [he]; exact hd
  | some u =>
    dsimp only
    have hN : (kOps S R method).normal h r.position =
        (S.node h).l2w.vec (kNormal (S.node h).geom ((S.node h).w2l.point (ray.position + t • ray.direction))) := by
      rw [hpos]; rfl
    rw [hN, hdir]
    set m := kNormal (S.node h).geom ((S.node h).w2l.point (ray.position + t • ray.direction)) with hm'
    have hM : ((S.node h).l2w.vec m).dot ((S.node h).l2w.vec m) = 1 := by rw [(hS.rigid h).dot_vec, hm]
    cases hb : ((kOps S R method).reflects h c u ((S.node h).l2w.vec m) ray.direction s).1 with
    | true =>
      simp only [if_true]
      have hrows : ∀ (x : LogRow n) (cc : TallyCall ℝ (Fin (n + 1))),
          rowsOf ([KOut.record x] ++ if c ≠ h then [.tally cc] else []) = [x] := by
        intro x cc; split_ifs <;> simp
      have hk : (kOps S R method).reflectDir ray.direction ((S.node h).l2w.vec m) = specular ray.direction ((S.node h).l2w.vec m) := rfl
      refine ⟨fun hg hf => ?_, ?_, ?_, ?_, ?_⟩
      · rw [hrows]
        simp only [List.isChain_cons_cons, List.IsChain.singleton, and_true]
        refine ⟨fun hbn => ?_, fun _ _ hc => by cases hc.kind⟩
        have hv : h = v := by simpa using hbn.2
        subst hv
        simp only [inFrame, hprev]
        rw [hk, show specular ray.direction ((S.node h).l2w.vec m) = kSpecular ray.direction ((S.node h).l2w.vec m) from rfl,
          (Optics.engine_eq_python (hS.rigid h) (hS.inverse h) m ray.direction 1 1 hm hd).1, (hS.inverse h).2]
        exact Waveguide.specular_keeps (normal_axis hg _) _
      · rw [hrows]
        intro e he _ hk
        rw [List.mem_singleton] at he
        subst he; cases hk
      · rw [hrows]
        intro e he
        rw [List.mem_singleton] at he
        subst he; rintro (hk | hk) <;> cases hk
      · rw [hrows]
        intro e he
        rw [List.mem_singleton] at he
        subst he
        dsimp only
        rw [hk, (Optics.reflection hM).1, hd]
      · rw [hrows]
        intro ray' s' e
        simp only [KNext.cont.injEq] at e
        exact ⟨[], _, rfl, e.1⟩
    | false =>
      simp only [Bool.false_eq_true, if_false]
      refine ⟨fun hg hf => ?_, ?_, ?_, ?_, ?_⟩
      · simp only [rowsOf_record, rowsOf_tally, rowsOf_nil, List.isChain_cons_cons, List.IsChain.singleton, and_true]
        refine ⟨fun hbn => (by cases hbn.1), fun c' u' hc hfac => ?_⟩
        obtain ⟨k, hk, hn⟩ := hfac
        have hv : h = v := by simpa using hc.hit
        have hc' : c = c' := by simpa using hc.container
        have hu' : u = u' := by simpa using hc.adjacent
        subst hv hc' hu'
        simp only [Option.some.injEq] at hn
        simp only [inFrame, hprev]
        by_contra hlt
        unfold Waveguide.InCone at hlt
        push Not at hlt
        have hma : m = axisNormal i k := by
          rw [← (hS.inverse h).2 m, hn, (hS.inverse h).2]
        have hdot : ray.direction.dot ((S.node h).l2w.vec m) ^ 2 = ((S.node h).w2l.vec ray.direction).get i ^ 2 := by
          rw [← (hS.inverse h).vec_vec (hS.rigid h) ray.direction, (hS.rigid h).dot_vec,
            (hS.inverse h).vec_vec (hS.rigid h), hma]
          rcases hk with rfl | rfl <;> fin_cases i <;> simp [axisNormal, Vec3.dot, Vec3.get]
        have := (Optics.tir_always_reflects (u := (R.next s).1) (hS.index_pos c) (hS.index_pos u) hM hd (hR s).2
          (by rw [hdot]; exact hlt)).1
        simp only [kOps, LScene.kReflects, hf] at hb
        rw [this] at hb
        cases hb
      · intro e he hbox _ hh
        simp only [rowsOf_record, rowsOf_tally, rowsOf_nil, List.mem_cons, List.not_mem_nil, or_false] at he
        subst he
        have hv : h = v := by simpa using hh
        subst hv
        obtain ⟨size, hsz⟩ := hbox
        obtain ⟨f, hfm, -, e⟩ := Geometry.kNormal_box size ((S.node h).w2l.point (ray.position + t • ray.direction))
        refine ⟨f.1, f.2, face_sign hfm, ?_⟩
        rw [hm', hsz, e]
      · intro e he
        simp only [rowsOf_record, rowsOf_tally, rowsOf_nil, List.mem_cons, List.not_mem_nil, or_false] at he
        subst he; rintro (hk | hk) <;> cases hk
      · intro e he
        simp only [rowsOf_record, rowsOf_tally, rowsOf_nil, List.mem_cons, List.not_mem_nil, or_false] at he
        subst he
        dsimp only
        simp only [kOps]
        cases (S.node h).surface with
        | null => exact hd
        | fresnel =>
          dsimp only
          cases ht : kTransmit ((S.node h).l2w.vec m) ray.direction (S.node c).index (S.node u).index with
          | none => exact hd
          | some x => exact refract_unit (hS.index_pos u) hd hM ht
      · intro ray' s' e
        simp only [KNext.cont.injEq] at e
        exact ⟨[], _, rfl, e.1⟩

include hS hp hR in
theorem body_fine {v : Fin (n + 1)} {i : Fin 3} (maxsteps count : ℕ) {ray : KRay ℝ Comp} (hd : ray.direction.dot ray.direction = 1) (s : σ) {prev : LogRow n}
    (hprev : prev.ray.direction = ray.direction) :
    Fine S R v i prev (kBody (kOps S R method) maxsteps count ray s) := by
  unfold kBody
  cases hit : (kOps S R method).nextHit ray.position ray.direction with
  | none => exact ⟨by simp, by simp, by simp, by simp, fun _ _ h => by cases h⟩
  | some x =>
    obtain ⟨h, c, a, t⟩ := x
    dsimp only
    split_ifs
    · refine ⟨fun _ _ => ?_, ?_, ?_, ?_, fun _ _ h => by cases h⟩
      · simp only [rowsOf_record, rowsOf_tally, rowsOf_nil, List.isChain_cons_cons, List.IsChain.singleton, and_true]
        exact turn_other (by simp) (by simp)
      · intro e he _ hk
        simp only [rowsOf_record, rowsOf_tally, rowsOf_nil, List.mem_cons, List.not_mem_nil, or_false] at he
        subst he; cases hk
      · intro e he
        simp only [rowsOf_record, rowsOf_tally, rowsOf_nil, List.mem_cons, List.not_mem_nil, or_false] at he
        subst he; rintro (hk | hk) <;> cases hk
      · intro e he
        simp only [rowsOf_record, rowsOf_tally, rowsOf_nil, List.mem_cons, List.not_mem_nil, or_false] at he
        rw [he]; exact hd
    · refine ⟨fun _ _ => ?_, ?_, ?_, ?_, fun _ _ h => by cases h⟩
      · simp only [rowsOf_record, rowsOf_tally, rowsOf_nil, List.isChain_cons_cons, List.IsChain.singleton, and_true]
        exact turn_other (by simp) (by simp)
      · intro e he _ hk
        simp only [rowsOf_record, rowsOf_tally, rowsOf_nil, List.mem_cons, List.not_mem_nil, or_false] at he
        subst he; cases hk
      · intro e he
        simp only [rowsOf_record, rowsOf_tally, rowsOf_nil, List.mem_cons, List.not_mem_nil, or_false] at he
        subst he; rintro (hk | hk) <;> cases hk
      · intro e he
        simp only [rowsOf_record, rowsOf_tally, rowsOf_nil, List.mem_cons, List.not_mem_nil, or_false] at he
        rw [he]; exact hd
    · obtain ⟨dep, s1, e1⟩ : ∃ x y, (kOps S R method).depth c ray.wavelength s = (x, y) := ⟨_, _, rfl⟩
      simp only [e1]
      cases isAbsorbed dep t with
      | some d => exact absorb_fine hd c d s1 prev
      | none => exact surface_fine hS hp hR hd hit s1 hprev

/-! ### All passes -/

include hS hp hR in
theorem cut_fine (v : Fin (n + 1)) (i : Fin 3) (maxsteps m : ℕ) :
    ∀ (fuel count nev : ℕ) (ray : KRay ℝ Comp) (s : σ), ray.direction.dot ray.direction = 1 →
      ∀ prev : LogRow n, prev.ray.direction = ray.direction →
      let rows := rowsOf (kCut (kOps S R method) maxsteps m fuel count nev ray s).1 ++
        ((kCut (kOps S R method) maxsteps m fuel count nev ray s).2.map budgetKill).toList
      (Waveguide.Axial (S.node v).geom i → (S.node v).surface = .fresnel → List.IsChain (Turn S v i) (prev :: rows)) ∧
      (∀ e ∈ rows, e.ray.direction.dot e.ray.direction = 1) ∧
      (∀ e ∈ rows, Drawn R e) ∧
      ∀ e ∈ rows, (∃ s, (S.node v).geom = .box s) → e.kind = .transmit → e.hit = some v → ∃ j, Facing (S.node v) j e := by
  intro fuel
  induction fuel with
  | zero => intro count nev ray s hd prev hprev; simp [kCut]
  | succ fuel ih =>
    intro count nev ray s hd prev hprev
    have F := body_fine hS hp hR (method := method) (v := v) (i := i) maxsteps (count + 1) hd s hprev
    simp only [kCut]
    by_cases hm : nev + 1 ≥ m
    · rw [if_pos hm]
      refine ⟨fun _ _ => ?_, ?_, ?_, ?_⟩
      · simpa [budgetKill] using turn_other (S := S) (v := v) (i := i) (a := prev)
          (b := (⟨.kill, none, none, none, none, ray, none⟩ : LogRow n)) (by simp) (by simp)
      · intro e he
        simp only [rowsOf_nil, List.nil_append, Option.map_some, Option.toList, List.mem_singleton] at he
        rw [he]; exact hd
      · intro e he
        simp only [rowsOf_nil, List.nil_append, Option.map_some, Option.toList, List.mem_singleton] at he
        subst he; rintro (hk | hk) <;> cases hk
      · intro e he _ hk
        simp only [rowsOf_nil, List.nil_append, Option.map_some, Option.toList, List.mem_singleton] at he
        subst he; cases hk
    · rw [if_neg hm]
      cases hb : (kBody (kOps S R method) maxsteps (count + 1) ray s).2 with
      | stop =>
        simp only [Option.map_none, Option.toList, List.append_nil]
        exact ⟨F.chain, F.unit, F.drawn, F.facing⟩
      | cont ray' s' =>
        dsimp only
        obtain ⟨l, e, hl, he⟩ := F.next ray' s' hb
        have hd' : ray'.direction.dot ray'.direction = 1 := by
          rw [← he]; exact F.unit e (by rw [hl]; simp)
        obtain ⟨i1, i2, i4, i3⟩ := ih (count + 1) (nev + (rowsOf (kBody (kOps S R method) maxsteps (count + 1) ray s).1).length)
          ray' s' hd' e (by rw [he])
        rw [rowsOf_append, List.append_assoc]
        refine ⟨fun hg hf => ?_, ?_, ?_, ?_⟩
        · have hc := F.chain hg hf
          have i1 := i1 hg hf
          generalize kCut (kOps S R method) maxsteps m fuel (count + 1)
            (nev + (rowsOf (kBody (kOps S R method) maxsteps (count + 1) ray s).1).length) ray' s' = z at *
          rw [hl] at hc ⊢
          rw [List.append_assoc, ← List.cons_append, List.singleton_append]
          rw [← List.cons_append] at hc
          rw [List.isChain_split]
          exact ⟨hc, i1⟩
        · intro x hx
          rcases List.mem_append.1 hx with hx | hx
          · exact F.unit x hx
          · exact i2 x hx
        · intro x hx
          rcases List.mem_append.1 hx with hx | hx
          · exact F.drawn x hx
          · exact i4 x hx
        · intro x hx
          rcases List.mem_append.1 hx with hx | hx
          · exact F.facing x hx
          · exact i3 x hx

end

/-! ### The log -/

section
variable {S : LScene n} (hS : Sound S) (hp : ∀ v, Solid.Proper (S.node v).geom) {R : Rand σ} (hR : R.Unit)
  {method : EmitMethod} (T : RecTables ℝ (Fin (n + 1))) (base m maxsteps : ℕ) {ray : KRay ℝ Comp} (s : σ)
  (hd : ray.direction.dot ray.direction = 1)

/-- What the engine writes to the log for a ray that is recorded: `m` rows from row `base` on are its own. -/
def logged (S : LScene n) (R : Rand σ) (method : EmitMethod) (T : RecTables ℝ (Fin (n + 1))) (base m maxsteps : ℕ)
    (ray : KRay ℝ Comp) (s : σ) : List (ℕ × LogRow n) :=
  writesOf (kTraceOne (kOps S R method) T (some (base, m)) maxsteps ray s).1

theorem mem_logged {j : ℕ} {e : LogRow n} : (base + j, e) ∈ logged S R method T base m maxsteps ray s ↔
    j < m ∧ (rayRows (kOps S R method) maxsteps m ⟨ray, s⟩)[j]? = some e := by
  unfold logged
  rw [(kTraceOne_some (kOps S R method) T base m maxsteps ⟨ray, s⟩).1]
  simp only [kRecords, Nat.sub_zero, add_zero, List.mem_map, Prod.mk.injEq, Prod.exists]
  constructor
  · rintro ⟨x, k, hx, rfl, rfl⟩
    obtain ⟨h1, h2⟩ := List.mem_zipIdx_iff_le_and_getElem?_sub.1 hx
    simp only [Nat.add_sub_cancel_left] at h2
    rw [List.getElem?_take] at h2
    split_ifs at h2 with h
    exact ⟨h, h2⟩
  · rintro ⟨h, h2⟩
    refine ⟨e, base + j, List.mem_zipIdx_iff_le_and_getElem?_sub.2 ⟨by omega, ?_⟩, rfl, rfl⟩
    simp only [Nat.add_sub_cancel_left]
    rw [List.getElem?_take, if_pos h, h2]

include hS hp hR hd

/-- **C121.** Every row the engine logs for a ray holds a direction of length 1, if the ray starts with one. -/
theorem directions_unit {j : ℕ} {e : LogRow n} (he : (base + j, e) ∈ logged S R method T base m maxsteps ray s) :
    e.ray.direction.dot e.ray.direction = 1 := by
  have hm := List.mem_of_getElem? ((mem_logged T base m maxsteps s).1 he).2
  rcases List.mem_cons.1 hm with rfl | hm
  · exact hd
  · exact (cut_fine hS hp hR 0 0 maxsteps m _ _ _ _ _ hd (generateRow ray) rfl).2.1 e hm

/-- **C121.** The direction of a row that tells of an emission or a scattering is drawn from the phase function of the
component in the row. -/
theorem emitted_drawn {j : ℕ} {e : LogRow n} (he : (base + j, e) ∈ logged S R method T base m maxsteps ray s)
    (hk : e.kind = .emit ∨ e.kind = .scatter) : ∃ comp t, e.component = some comp ∧ e.ray.direction =
      (kSamplePhase R (comp.phase.tag.getD (.isotropic, 0)).1 (comp.phase.tag.getD (.isotropic, 0)).2 t).1 := by
  have hm := List.mem_of_getElem? ((mem_logged T base m maxsteps s).1 he).2
  rcases List.mem_cons.1 hm with rfl | hm
  · rcases hk with hk | hk <;> cases hk
  · exact (cut_fine hS hp hR 0 0 maxsteps m _ _ _ _ _ hd (generateRow ray) rfl).2.2.1 e hm hk

variable {v : Fin (n + 1)} {j k : ℕ} (hjk : j < k) {a b : LogRow n}
  (ha : (base + j, a) ∈ logged S R method T base m maxsteps ray s)
  (hb : (base + k, b) ∈ logged S R method T base m maxsteps ray s)
  (between : ∀ l e, j < l → l < k → (base + l, e) ∈ logged S R method T base m maxsteps ray s → BouncesAt v e)
include hjk ha hb between

/-- **C121.** In every log: if a ray is transmitted through a face of a box, or an end of a rod, after any number of
reflections at its surface, then the direction it had before them all was already inside the escape cone of that
face: `n₁ sin θ ≤ n₂` for its angle `θ` with the normal of the face. -/
theorem leaves_in_cone {i : Fin 3} (hg : Waveguide.Axial (S.node v).geom i) (hf : (S.node v).surface = .fresnel)
    {c u : Fin (n + 1)} (hc : Passes v c u b) (hn : Facing (S.node v) i b) :
    Waveguide.InCone (S.node c).index (S.node u).index i (inFrame (S.node v) a) := by
  have chain : List.IsChain (Turn S v i) (rayRows (kOps S R method) maxsteps m ⟨ray, s⟩) :=
    (cut_fine hS hp hR v i maxsteps m _ _ _ _ _ hd _ rfl).1 hg hf
  rw [mem_logged] at ha hb
  simp only [mem_logged] at between
  generalize rayRows (kOps S R method) maxsteps m ⟨ray, s⟩ = H at *
  have keep : ∀ l, j ≤ l → l < k → ∃ e, H[l]? = some e ∧
      (inFrame (S.node v) e).get i ^ 2 = (inFrame (S.node v) a).get i ^ 2 := by
    intro l hl
    induction l, hl using Nat.le_induction with
    | base => exact fun _ => ⟨a, ha.2, rfl⟩
    | succ l hl ih =>
      intro hlt
      obtain ⟨e, he, h1⟩ := ih (by omega)
      have hlen : l + 1 < H.length := by
        have := (List.getElem?_eq_some_iff.1 hb.2).1; omega
      have he' : H[l + 1]? = some H[l + 1] := List.getElem?_eq_getElem hlen
      refine ⟨_, he', ?_⟩
      rw [← h1]
      exact (isChain_getElem? chain he he').bounce (between _ _ (by omega) hlt ⟨by omega, he'⟩)
  obtain ⟨e, he, h1⟩ := keep (k - 1) (by omega) (by omega)
  unfold Waveguide.InCone
  rw [← h1]
  refine (isChain_getElem? chain he (b := b) ?_).cross c u hc hn
  rw [show k - 1 + 1 = k by omega]
  exact hb.2

/-- **C121.** Light in a box whose direction is in no escape cone is not transmitted: whatever numbers are drawn, as
long as it is only reflected at the surface of the box, the next event at that surface is a reflection too. -/
theorem guided (hbox : ∃ size, (S.node v).geom = .box size) (hf : (S.node v).surface = .fresnel) {c u : Fin (n + 1)}
    (out : ∀ i, ¬ Waveguide.InCone (S.node c).index (S.node u).index i (inFrame (S.node v) a)) : ¬ Passes v c u b := by
  intro hc
  have hm := ((mem_logged T base m maxsteps s).1 hb).2
  have hmem : b ∈ rowsOf (rayCut (kOps S R method) maxsteps m ⟨ray, s⟩).1 ++
      ((rayCut (kOps S R method) maxsteps m ⟨ray, s⟩).2.map budgetKill).toList := by
    rcases List.mem_cons.1 (List.mem_of_getElem? hm) with rfl | h
    · cases hc.kind
    · exact h
  obtain ⟨i, hi⟩ := (cut_fine hS hp hR v 0 maxsteps m _ _ _ _ _ hd (generateRow ray) rfl).2.2.2 b hmem hbox hc.kind hc.hit
  obtain ⟨size, hsz⟩ := hbox
  exact out i (leaves_in_cone hS hp hR T base m maxsteps s hd hjk ha hb between (by rw [hsz]; trivial) hf hc hi)

end
/-! ### Shares -/

section shares
open MeasureTheory Set Spec Directions Sphere
open scoped ENNReal

theorem get_measurable (i : Fin 3) : Measurable fun p : ℝ × ℝ × ℝ => (toVec p).get i := by
  fin_cases i
  · simp only [toVec, Vec3.get]; fun_prop
  · simp only [toVec, Vec3.get]; fun_prop
  · simp only [toVec, Vec3.get]; fun_prop

theorem cone_set (n1 n2 : ℝ) (i : Fin 3) : MeasurableSet {p : ℝ × ℝ × ℝ | Waveguide.InCone n1 n2 i (toVec p)} :=
  measurableSet_le (measurable_const.mul (measurable_const.sub ((get_measurable i).pow_const 2))) measurable_const

theorem local_rigid {S : LScene n} (hS : Sound S) (w : Fin (n + 1)) : (S.node w).w2l.Rigid :=
  Pose.rigid_of_dot fun a b => (hS.inverse w).dot_vec (hS.rigid w) a b

/-- **C121.** Of the light the engine emits isotropically in an object of index `n1`, however the object is turned,
the share `1 - cos θc` is in the escape cones of two opposite faces to a medium of lower index `n2`. -/
theorem escape_share {n1 n2 : ℝ} (h2 : 0 < n2) (h : n2 < n1) (i : Fin 3) {S : LScene n} (hS : Sound S)
    (w : Fin (n + 1)) (g : ℝ) :
    mean (fun u v => if Waveguide.InCone n1 n2 i ((S.node w).w2l.vec (kSamplePhase script .isotropic g [u, v]).1) then 1 else 0) =
      ENNReal.ofReal (1 - Waveguide.critical n1 n2) := by
  have := isotropic_turned (local_rigid hS w) (f := fun d => if Waveguide.InCone n1 n2 i d then 1 else 0)
    (Measurable.ite (cone_set n1 n2 i) measurable_const measurable_const)
  rw [Waveguide.escape_share h2 h i] at this
  exact this

/-- **C121.** Of the light the engine emits isotropically in a box of index `n1` in a medium of index `n2`, with
`n1² > 2 n2²`, the share `3 cos θc - 2` is in no escape cone, however the box is turned. -/
theorem trapped_share {n1 n2 : ℝ} (h1 : 0 < n1) (h2 : 0 < n2) (h : 2 * n2 ^ 2 < n1 ^ 2) {S : LScene n}
    (hS : Sound S) (w : Fin (n + 1)) (g : ℝ) : mean (fun u v => if ∀ i, ¬ Waveguide.InCone n1 n2 i ((S.node w).w2l.vec (kSamplePhase script .isotropic g [u, v]).1)
      then 1 else 0) = ENNReal.ofReal (3 * Waveguide.critical n1 n2 - 2) := by
  have hset : MeasurableSet {p : ℝ × ℝ × ℝ | ∀ i, ¬ Waveguide.InCone n1 n2 i (toVec p)} := by
    rw [setOf_forall]
    exact MeasurableSet.iInter fun i => (cone_set n1 n2 i).compl
  have := isotropic_turned (local_rigid hS w) (f := fun d => if ∀ i, ¬ Waveguide.InCone n1 n2 i d then 1 else 0)
    (Measurable.ite hset measurable_const measurable_const)
  rw [Waveguide.trapped_share h1 h2 h] at this
  exact this

end shares

/-! ### Examples -/

/-- A slab of glass in a spherical world of air. -/
def glass : LScene 1 where
  node v := if v = 0 then ⟨"world", .sphere 10, .one, .one, 1, .fresnel, []⟩
    else ⟨"slab", .box ⟨5, 5, 1⟩, .one, .one, 1.5, .fresnel, []⟩

theorem glass_sound : Sound glass := by
  refine ⟨fun v => ?_, fun v => ?_, fun v => ?_, fun v c hc => ?_⟩
  · by_cases h : v = 0 <;> norm_num [glass, h]
  · by_cases h : v = 0 <;> simp [glass, h, one_rigid]
  · by_cases h : v = 0 <;> simp [glass, h, one_inverse]
  · by_cases h : v = 0 <;> simp [glass, h] at hc

theorem same_point (p : Vec3 ℝ) : (Affine.one : Affine ℝ).point p = p := by
  ext <;> simp [Affine.one, Affine.point, Affine.vec, Vec3.dot]

theorem same_vec (p : Vec3 ℝ) : (Affine.one : Affine ℝ).vec p = p := by
  ext <;> simp [Affine.one, Affine.vec, Vec3.dot]

/-- Light inside the slab, outside the escape cone of its large faces. -/
def steep : KRay ℝ Comp := ⟨⟨0, 0, 0⟩, ⟨0.8, 0, 0.6⟩, 500, 0, 0, none⟩

theorem steep_unit : steep.direction.dot steep.direction = 1 := by norm_num [steep, Vec3.dot]

theorem steep_box : kBox ⟨5, 5, 1⟩ ⟨0, 0, 0⟩ (⟨0.8, 0, 0.6⟩ : Vec3 ℝ) = [5 / 6] := by
  have ht := Geo.tiny_le
  have ht0 := Geo.tiny_pos
  have h1 : ¬ |(0.8 : ℝ)| < tiny := by rw [abs_of_pos (by norm_num)]; linarith
  have h2 : ¬ |(0.6 : ℝ)| < tiny := by rw [abs_of_pos (by norm_num)]; linarith
  have a1 : kSlab 5 0 0.8 (none, none) = some (some (-(25 / 8)), some (25 / 8)) := by
    simp only [kSlab, h1, if_false]; norm_num
  have a2 : ∀ acc, kSlab 5 0 0 acc = some acc := by
    intro acc; simp only [kSlab, abs_zero, ht0, if_true]; norm_num
  have a3 : kSlab 1 0 0.6 (some (-(25 / 8)), some (25 / 8)) = some (some (-(5 / 6)), some (5 / 6)) := by
    simp only [kSlab, h2, if_false]; norm_num
  simp only [kBox, a1, a2, a3, Option.bind_some]
  norm_num [epsZero]

theorem steep_sphere : kSphere 10 ⟨0, 0, 0⟩ (⟨0.8, 0, 0.6⟩ : Vec3 ℝ) = [10] := by
  have hs : √(400 : ℝ) = 20 := by
    rw [show (400 : ℝ) = 20 ^ 2 by norm_num, Real.sqrt_sq (by norm_num)]
  simp only [kSphere, Vec3.dot]
  norm_num [epsZero, hs]

theorem steep_hit (R : Rand σ) (method : EmitMethod) : (kOps glass R method).nextHit steep.position steep.direction =
    some (1, 1, some 0, 5 / 6) := by
  have e0 : kIntersect (glass.node 0).geom ((glass.node 0).w2l.point steep.position) ((glass.node 0).w2l.vec steep.direction) = [10] := by
    rw [← steep_sphere]
    simp [glass, steep, kIntersect, same_point, same_vec]
  have e1 : kIntersect (glass.node 1).geom ((glass.node 1).w2l.point steep.position) ((glass.node 1).w2l.vec steep.direction) = [5 / 6] := by
    rw [← steep_box]
    simp [glass, steep, kIntersect, same_point, same_vec]
  simp only [kOps]
  have : (fun v : Fin 2 => kIntersect (glass.node v).geom ((glass.node v).w2l.point steep.position) ((glass.node v).w2l.vec steep.direction)) =
      ![[10], [5 / 6]] := by
    funext v; fin_cases v
    · exact e0
    · exact e1
  rw [this, show List.finRange (1 + 1) = [0, 1] from rfl]
  simp [kNextHit, kHits, kFirst, kSecond, kContainer, kMinT]
  norm_num

theorem second_row {ν : Type} [DecidableEq ν] (K : KOps ℝ ν Comp σ) {maxsteps m : ℕ} (hm : 2 < m) {ray : KRay ℝ Comp} {s : σ}
    {b : Row ℝ ν Comp} {rest : List (KOut ℝ ν Comp)} {nx : KNext ℝ Comp σ}
    (e : kBody K maxsteps 1 ray s = (.record b :: rest, nx)) : (rayRows K maxsteps m ⟨ray, s⟩)[1]? = some b := by
  have hcut : ∃ z, rowsOf (rayCut K maxsteps m ⟨ray, s⟩).1 = b :: z := by
    simp only [rayCut, kCut]
    rw [if_neg (by omega)]
    simp only [zero_add, e]
    cases nx with
    | stop => exact ⟨rowsOf rest, rfl⟩
    | cont ray' s' =>
      dsimp only
      rw [List.cons_append, rowsOf_record]
      exact ⟨_, rfl⟩
  obtain ⟨z, hz⟩ := hcut
  simp [rayRows, hz]

/-- Non-vacuity: the slab meets the conditions, and a ray of the log is reflected at its surface whatever the random
numbers are: the second row of the log is a reflection at the slab. -/
example (R : Rand σ) (hR : R.Unit) (method : EmitMethod) (T : RecTables ℝ (Fin 2)) (s : σ) :
    Sound glass ∧ (∀ v, Solid.Proper (glass.node v).geom) ∧ (glass.node 1).surface = .fresnel ∧
    (∃ a, (0 + 0, a) ∈ logged glass R method T 0 9 20 steep s ∧
      ¬ Waveguide.InCone (glass.node 1).index (glass.node 0).index 2 (inFrame (glass.node 1) a)) ∧
    ∃ b, (0 + 1, b) ∈ logged glass R method T 0 9 20 steep s ∧ BouncesAt 1 b := by
  have hpr : ∀ v, Solid.Proper (glass.node v).geom := by
    intro v; by_cases h : v = 0 <;> norm_num [glass, h, Solid.Proper]
  refine ⟨glass_sound, hpr, rfl, ⟨generateRow steep, (mem_logged T 0 9 20 s).2 ⟨by norm_num, rfl⟩, ?_⟩, ?_⟩
  · norm_num [Waveguide.InCone, glass, inFrame, generateRow, steep, Affine.one, Affine.vec, Vec3.dot, Vec3.get]
  · have hn : kNormal (.box ⟨5, 5, 1⟩) (⟨2 / 3, 0, 1 / 2⟩ : Vec3 ℝ) = axisNormal 2 1 := by
      refine Geometry.kNormal_face (.inl rfl) ?_ ?_ ?_
      · norm_num [Vec3.get]
      · norm_num [Vec3.get]
      · intro j hj; fin_cases j
        · norm_num [Vec3.get, abs_of_pos]
        · norm_num [Vec3.get]
        · exact absurd rfl hj
    have hrow : ∃ b rest nx, BouncesAt 1 b ∧ kBody (kOps glass R method) 20 1 steep s = (.record b :: rest, nx) := by
      unfold kBody
      rw [steep_hit]
      have hdep : (kOps glass R method).depth 1 steep.wavelength s = (none, s) := by
        norm_num [kOps, kDepth, glass, LNode.kCoefs]
      have hroot : ¬ (1 : Fin 2) = (kOps glass R method).root := by simp [kOps]
      simp only [show ¬ 1 > 20 by norm_num, hroot, if_false, hdep]
      simp only [isAbsorbed, kSurface]
      have hnrm : (kOps glass R method).normal 1 (steep.advance (5 / 6) ((kOps glass R method).nidx 1)).position = axisNormal 2 1 := by
        rw [← hn]
        simp only [kOps, glass, one_ne_zero, if_false, same_point, same_vec, steep, KRay.advance]
        norm_num
      rw [hnrm]
      have hrefl : ((kOps glass R method).reflects 1 1 0 (axisNormal 2 1)
          (steep.advance (5 / 6) ((kOps glass R method).nidx 1)).direction s).1 = true := by
        have := (Optics.tir_always_reflects (n := axisNormal 2 1) (d := steep.direction) (u := (R.next s).1)
          (n1 := 1.5) (n2 := 1) (by norm_num) (by norm_num) (axis_unit 2 (.inl rfl)) steep_unit (hR s).2
          (by norm_num [steep, axisNormal, Vec3.dot])).1
        simpa [kOps, LScene.kReflects, glass, KRay.advance] using this
      rw [if_pos hrefl]
      exact ⟨_, _, _, ⟨rfl, rfl⟩, rfl⟩
    obtain ⟨b, rest, nx, hb, e⟩ := hrow
    exact ⟨b, (mem_logged T 0 9 20 s).2 ⟨by norm_num, second_row _ (by norm_num) e⟩, hb⟩

end
end PV.EngineGuide
