import Verif.Spec.Arranged
import Verif.Props.LibraryPath
import Verif.Props.Agreement
import Verif.Props.NextHit

/-!
C96: light travels in the object named as container.
-/

namespace PV.Inside
open PV PV.Library PV.Solid PV.NextHit PV.Tracer PV.Geometry PV.Nested
noncomputable section
open Classical
variable {σ : Type} {n : ℕ}

/-- The part of the line in an object. -/
def spanOf (S : LScene n) (o d : Vec3 ℝ) : Spans (Fin (n + 1)) ℝ := fun v =>
  if h : ∃ ab : ℝ × ℝ, ab.1 < ab.2 ∧
    Span (S.node v).geom ((S.node v).localOrigin o) ((S.node v).localDir d) ab.1 ab.2 then some h.choose else none

theorem has_line (N : LNode) (o d : Vec3 ℝ) (t : ℝ) :
    (Has N (o + t • d) ↔ Closed N.geom (N.localOrigin o + t • N.localDir d)) ∧
      (HasInner N (o + t • d) ↔ Inner N.geom (N.localOrigin o + t • N.localDir d)) := by
  unfold Has HasInner
  rw [Affine.point_add_smul]
  exact ⟨Iff.rfl, Iff.rfl⟩

theorem spanOf_some {S : LScene n} {o d : Vec3 ℝ} {v : Fin (n + 1)} {a b : ℝ}
    (h : spanOf S o d v = some (a, b)) : a < b ∧
      ∀ t : ℝ, (Has (S.node v) (o + t • d) ↔ a ≤ t ∧ t ≤ b) ∧
        (HasInner (S.node v) (o + t • d) ↔ a < t ∧ t < b) := by
  unfold spanOf at h
  split at h
  · rename_i hx
    have hs := hx.choose_spec
    rw [Option.some.inj h] at hs
    refine ⟨hs.1, fun t => ?_⟩
    rw [(has_line _ o d t).1, (has_line _ o d t).2]
    exact hs.2 t
  · cases h

theorem spanOf_none {S : LScene n} {B : Trimesh} {ray : Ray ℝ} (hA : Arranged S)
    (hd : ∀ v, ((S.node v).localDir ray.direction).dot ((S.node v).localDir ray.direction) = 1)
    (hg : General S B ray) {v : Fin (n + 1)}
    (h : spanOf S ray.position ray.direction v = none) :
    ∀ t : ℝ, ¬ Has (S.node v) (ray.position + t • ray.direction) := by
  rcases hg.through v with ⟨t0, h0⟩ | h0
  · rw [(has_line _ _ _ _).2] at h0
    obtain ⟨a, b, hab, hsp, -⟩ := engine_span (hA.proper v) (hg.clear v) (hd v) h0
    unfold spanOf at h
    rw [dif_pos ⟨(a, b), hab, hsp⟩] at h
    cases h
  · exact h0

variable {S : LScene n} (hS : Sound S) (hv : ∀ v, Visible (S.node v).geom) (hA : Arranged S)
  {B : Trimesh} (hB : TrimeshSound B)
include hS hA

theorem valid {ray : Ray ℝ} (hd : ray.direction.dot ray.direction = 1) (hg : General S B ray) :
    Valid (List.finRange (n + 1)) 0 (spanOf S ray.position ray.direction) epsZero where
  nodup := List.nodup_finRange _
  nonempty := fun v a b _ h => (spanOf_some h).1
  apart := by
    intro u v a b c d _ _ huv hu hv
    obtain ⟨hab, su⟩ := spanOf_some hu
    obtain ⟨hcd, sv⟩ := spanOf_some hv
    rcases hA.apart u v huv with h | h | h
    · right; right; right
      have h1 := (sv a).2.1 (h _ ((su a).1.2 ⟨le_rfl, hab.le⟩))
      have h2 := (sv b).2.1 (h _ ((su b).1.2 ⟨hab.le, le_rfl⟩))
      exact ⟨h1.1, h2.2⟩
    · right; right; left
      have h1 := (su c).2.1 (h _ ((sv c).1.2 ⟨le_rfl, hcd.le⟩))
      have h2 := (su d).2.1 (h _ ((sv d).1.2 ⟨hcd.le, le_rfl⟩))
      exact ⟨h1.1, h2.2⟩
    · by_contra hc
      push Not at hc
      have h1 : max a c < min b d := by
        rw [max_lt_iff, lt_min_iff, lt_min_iff]
        exact ⟨⟨hab, hc.2.1⟩, hc.1, hcd⟩
      obtain ⟨t, t1, t2⟩ := exists_between h1
      rw [max_lt_iff] at t1
      rw [lt_min_iff] at t2
      exact h _ ⟨(su t).2.2 ⟨t1.1, t2.1⟩, (sv t).2.2 ⟨t1.2, t2.2⟩⟩
  root_mem := List.mem_finRange _
  root_span := by
    have hl : ∀ v, ((S.node v).localDir ray.direction).dot ((S.node v).localDir ray.direction) = 1 :=
      fun v => localDir_unit (hS.rigid v) (hS.inverse v) hd
    cases hs : spanOf S ray.position ray.direction 0 with
    | none =>
      have := hg.room
      rw [(has_line _ _ _ _).2] at this
      obtain ⟨a, b, hab, hsp, -⟩ := engine_span (hA.proper 0) (hg.clear 0) (hl 0) this
      unfold spanOf at hs
      rw [dif_pos ⟨(a, b), hab, hsp⟩] at hs
      cases hs
    | some p =>
      obtain ⟨hab, s0⟩ := spanOf_some (a := p.1) (b := p.2) hs
      have h2 := (s0 epsZero).2.1 hg.room
      refine ⟨p.1, p.2, rfl, h2.1.le, h2.2, fun v c d _ hv0 hvs => ?_⟩
      obtain ⟨hcd, sv⟩ := spanOf_some hvs
      have h3 := (s0 c).2.1 (hA.world v hv0 _ ((sv c).1.2 ⟨le_rfl, hcd.le⟩))
      have h4 := (s0 d).2.1 (hA.world v hv0 _ ((sv d).1.2 ⟨hcd.le, le_rfl⟩))
      exact ⟨h3.1, h4.2⟩

include hv hB in
theorem reports {ray : Ray ℝ} (hd : ray.direction.dot ray.direction = 1) (hg : General S B ray) :
    Reports epsZero (List.finRange (n + 1)) (spanOf S ray.position ray.direction)
      (fun v => (S.node v).pyTs B ray.position ray.direction) := by
  have hl : ∀ v, ((S.node v).localDir ray.direction).dot ((S.node v).localDir ray.direction) = 1 :=
    fun v => localDir_unit (hS.rigid v) (hS.inverse v) hd
  intro v _
  cases hs : spanOf S ray.position ray.direction v with
  | none =>
    have hno := spanOf_none hA hl hg hs
    have : crossings epsZero (spanOf S ray.position ray.direction) v = [] := by
      unfold crossings; rw [hs]
    rw [this]
    have : (S.node v).pyTs B ray.position ray.direction = [] := by
      rw [List.eq_nil_iff_forall_not_mem]
      intro t ht
      refine hno t ?_
      rcases pyTs_on (hS.rigid v) (hS.inverse v) hB (hv v) hd ht with h | ⟨r, hr, -, h⟩
      · exact h.1
      · unfold Has
        rw [hr]
        exact h
    show (keep epsZero ((S.node v).pyTs B ray.position ray.direction)).Perm []
    rw [this]
    exact List.Perm.nil
  | some p =>
    obtain ⟨hab, sv⟩ := spanOf_some (a := p.1) (b := p.2) hs
    have hm : HasInner (S.node v) (ray.position + ((p.1 + p.2) / 2) • ray.direction) :=
      (sv _).2.2 ⟨by linarith, by linarith⟩
    rw [(has_line _ _ _ _).2] at hm
    obtain ⟨a, b, hab', hsp, hperm⟩ := engine_span (hA.proper v) (hg.clear v) (hl v) hm
    have hcr : crossings epsZero (spanOf S ray.position ray.direction) v = ahead a b := by
      have e := span_unique hab hab' (fun t => by
        rw [← (has_line (S.node v) ray.position ray.direction t).1,
          ← (has_line (S.node v) ray.position ray.direction t).2]
        exact sv t) hsp
      unfold crossings ahead
      rw [hs]
      simp only [e.1, e.2]
    rw [hcr]
    refine List.Perm.trans ?_ hperm
    have hline := hg.line v
    show (keep epsZero ((S.node v).pyTs B ray.position ray.direction)).Perm _
    unfold keep LNode.pyTs LNode.boxHits
    cases hgeo : (S.node v).geom with
    | box s => rw [hgeo] at hline; exact hline
    | cylinder l r =>
      rw [hgeo] at hline
      have hp := hA.proper v
      have hc := hg.clear v
      rw [hgeo] at hp hc
      exact cylinder_agree hp.2 hp.1 hc hline
    | sphere r =>
      rw [hgeo] at hline hm
      rcases hline with h | h
      · exfalso
        have h1 := sphere_quad r ((S.node v).localOrigin ray.position)
          ((S.node v).localDir ray.direction) ((p.1 + p.2) / 2)
        have h2 : ((S.node v).localOrigin ray.position + ((p.1 + p.2) / 2) • (S.node v).localDir ray.direction).x ^ 2 +
          ((S.node v).localOrigin ray.position + ((p.1 + p.2) / 2) • (S.node v).localDir ray.direction).y ^ 2 +
          ((S.node v).localOrigin ray.position + ((p.1 + p.2) / 2) • (S.node v).localDir ray.direction).z ^ 2 < r ^ 2 := hm
        unfold disc at h
        rw [hl v] at h h1
        nlinarith [sq_nonneg ((p.1 + p.2) / 2 + ((S.node v).localDir ray.direction).dot
          ((S.node v).localOrigin ray.position))]
      · exact List.Perm.of_eq (sphere_agree (hl v) h)

include hv hB in
/-- What `next_hit` finds for a ray in general position: up to the hit the ray is in the container. -/
theorem medium_ahead {ray : Ray ℝ} (hd : ray.direction.dot ray.direction = 1) (hg : General S B ray)
    {h : HitInfo (Fin (n + 1)) ℝ}
    (hn : nextHit epsZero (distanceBetween ray.position)
      (S.intersections B ray.position ray.direction) = .ok (some h)) {t : ℝ} (h0 : epsZero ≤ t) (h1 : t ≤ h.dist) :
    Has (S.node h.container) (ray.position + t • ray.direction) ∧ (t < h.dist →
      Medium S h.container (ray.position + t • ray.direction)) := by
  have hV := valid hS hA hd hg
  have hR := reports hS hv hA hB hd hg
  have hdb : ∀ v ∈ List.finRange (n + 1), ∀ t ∈ crossings epsZero (spanOf S ray.position ray.direction) v,
      distanceBetween ray.position (ray.position + t • ray.direction) = t := by
    intro v _ t ht
    obtain ⟨_, _, _, _, h⟩ := mem_crossings.1 ht
    exact distanceBetween_line hd (epsZero_pos.trans h).le
  rw [intersections_eq hS.rigid hS.inverse B hd] at hn
  obtain ⟨i, hi, _, hdist, _, hmin, ⟨-, m, hm, -⟩, -⟩ := nextHit_core hV hR (fun t => ray.position + t • ray.direction)
    (distanceBetween ray.position) hdb
  obtain ⟨i', hi', hin⟩ := container_innermost hV hR (fun t => ray.position + t • ray.direction)
    (distanceBetween ray.position) hdb
  rw [hn] at hi hi'
  obtain rfl := Option.some.inj (Except.ok.inj hi)
  obtain rfl := Option.some.inj (Except.ok.inj hi')
  obtain ⟨a, hsp, hae, hem⟩ := span_of_crossing hV (List.mem_finRange _) hm
  obtain ⟨ham, sc⟩ := spanOf_some hsp
  have hle : h.dist ≤ m := hmin _ (List.mem_finRange _) m (by rw [hm]; simp)
  have hhas := (sc t).1.2 ⟨hae.trans h0, h1.trans hle⟩
  refine ⟨hhas, fun hlt => ⟨hhas, fun w hw => ?_⟩⟩
  by_cases hwc : w = h.container
  · exact .inl hwc
  right
  cases hws : spanOf S ray.position ray.direction w with
  | none =>
    have hl : ∀ v, ((S.node v).localDir ray.direction).dot ((S.node v).localDir ray.direction) = 1 :=
      fun v => localDir_unit (hS.rigid v) (hS.inverse v) hd
    rw [(has_line _ _ _ _).2] at hw
    obtain ⟨a, b, hab, hsp, -⟩ := engine_span (hA.proper w) (hg.clear w) (hl w) hw
    unfold spanOf at hws
    rw [dif_pos ⟨(a, b), hab, hsp⟩] at hws
    cases hws
  | some p =>
    obtain ⟨hcd, sw⟩ := spanOf_some (a := p.1) (b := p.2) hws
    have hwt := (sw t).2.1 hw
    have hpe : p.1 ≤ epsZero := by
      by_contra hc
      have := hmin w (List.mem_finRange _) p.1 (mem_crossings.2 ⟨p.1, p.2, hws, .inl rfl, not_le.1 hc⟩)
      linarith
    have hin2 := hin.2.2 w a m p.1 p.2 (List.mem_finRange _) ⟨p.1, p.2, hws, hpe, by linarith⟩ hsp hws
    rcases hA.apart w h.container hwc with hA1 | hA1 | hA1
    · exfalso
      have := (sc p.1).2.1 (hA1 _ ((sw p.1).1.2 ⟨le_rfl, hcd.le⟩))
      linarith [hin2.1, this.1]
    · exact hA1
    · exfalso
      obtain ⟨x, x1, x2⟩ := exists_between ham
      exact hA1 _ ⟨(sw x).2.2 ⟨by linarith [hin2.1], by linarith [hin2.2]⟩, (sc x).2.2 ⟨x1, x2⟩⟩

/-- Between two events: the second names an object, and the straight way to it is in that object, which is
the innermost one. The first `EPS_ZERO` of the way are left out. -/
def Trip (S : LScene n) (a b : Step ℝ) : Prop :=
  ∃ c, b.info.container = some (S.node c).name ∧
    ∀ L : ℝ, b.ray.position = a.ray.position + L • a.ray.direction → ∀ t : ℝ, epsZero ≤ t → t ≤ L →
      Has (S.node c) (a.ray.position + t • a.ray.direction) ∧
        (t < L → Medium S c (a.ray.position + t • a.ray.direction))

omit hS hA in
theorem length_unique {p d : Vec3 ℝ} (hd : d.dot d = 1) {x y : ℝ} (h : p + x • d = p + y • d) : x = y := by
  have hx := congrArg Vec3.x h
  have hy := congrArg Vec3.y h
  have hz := congrArg Vec3.z h
  simp only [Vec3.add_x, Vec3.add_y, Vec3.add_z, Vec3.smul_x, Vec3.smul_y, Vec3.smul_z, add_right_inj] at hx hy hz
  unfold Vec3.dot at hd
  linear_combination (d.x * hx + d.y * hy + d.z * hz) + (y - x) * hd

omit hS hA in
theorem trip_stay {a b : Step ℝ} {c : Fin (n + 1)} (hd : a.ray.direction.dot a.ray.direction = 1)
    (hc : b.info.container = some (S.node c).name) (hp : b.ray.position = a.ray.position) : Trip S a b := by
  refine ⟨c, hc, fun L hL t h0 h1 => ?_⟩
  exfalso
  have : (0 : ℝ) = L := length_unique (p := a.ray.position) hd (by
    rw [← hL, hp]; ext <;> simp)
  linarith [epsZero_pos]

include hv hB in
theorem trip_go {R : Rand σ} {method : EmitMethod} {a b : Step ℝ} (hd : a.ray.direction.dot a.ray.direction = 1)
    (hg : General S B a.ray) {h : HitInfo (Fin (n + 1)) ℝ} (hs : Sees (pyOps S B R method) a.ray (some h))
    (hc : b.info.container = some (S.node h.container).name) {d : ℝ} (hdist : d ≤ h.dist)
    (hp : b.ray.position = a.ray.position + d • a.ray.direction) : Trip S a b := by
  refine ⟨h.container, hc, fun L hL t h0 h1 => ?_⟩
  have : d = L := length_unique (p := a.ray.position) hd (by rw [← hL, hp])
  subst this
  obtain ⟨xs, hx, hn⟩ := hs
  have hx' : xs = S.intersections B a.ray.position a.ray.direction := by simpa [pyOps] using hx.symm
  rw [hx'] at hn
  have := medium_ahead hS hv hA hB hd hg hn h0 (h1.trans hdist)
  exact ⟨this.1, fun hlt => this.2 (lt_of_lt_of_le hlt hdist)⟩

include hv hB

theorem loop_trips {R : Rand σ} (hR : R.Unit) {method : EmitMethod} {maxsteps : ℕ} {maxpath : Option ℝ}
    {ray0 : Ray ℝ} {s0 : σ}
    (hgen : ∀ count ray s, Reached S B R method maxsteps maxpath ray0 s0 count ray s → General S B ray) :
    ∀ (fuel count : ℕ) (ray : Ray ℝ) (s : σ), ray.direction.dot ray.direction = 1 →
      Reached S B R method maxsteps maxpath ray0 s0 count ray s → ∀ prev : Step ℝ, prev.ray = ray →
      List.IsChain (Trip S) (prev :: (loop (pyOps S B R method) maxsteps maxpath fuel count ray s).1) := by
  have law := lawful hS B hR method
  intro fuel
  induction fuel with
  | zero => intros; simp [loop]
  | succ fuel ih =>
    intro count ray s hd hreach prev hprev
    have hg := hgen _ _ _ hreach
    have hp := body_pass (pyOps S B R method) maxsteps maxpath (count + 1) ray s
    subst hprev
    have vol : ∀ {h d comp s'}, Absorbs (pyOps S B R method) maxsteps maxpath (count + 1) prev.ray s h d comp s' →
        Trip S prev ⟨prev.ray.propagate d ((pyOps S B R method).refractiveIndex h.container), .absorb,
          volInfo (pyOps S B R method) h.container comp⟩ := fun hA' =>
      trip_go hS hv hA hB hd hg hA'.live.sees rfl hA'.inside.le rfl
    have offers : ∀ {h d comp s'}, Absorbs (pyOps S B R method) maxsteps maxpath (count + 1) prev.ray s h d comp s' →
        Offers (pyOps S B R method) h.container comp := fun hA' =>
      let ⟨s1, _, h2⟩ := hA'.depth
      ⟨_, _, _, h2⟩
    unfold loop
    rcases hb : body (pyOps S B R method) maxsteps maxpath (count + 1) prev.ray s with ⟨es, nx⟩
    rw [hb] at hp
    cases nx with
    | stop =>
      simp only
      cases hp with
      | miss => simp
      | kill h hs =>
        simp only [List.isChain_cons_cons, List.IsChain.singleton, and_true]
        exact trip_stay (c := h.container) hd rfl rfl
      | exit h hl hr => simpa using trip_go hS hv hA hB hd hg hl.sees rfl le_rfl rfl
      | decay h d comp s' s'' s''' ray' ev hA' hr he hev =>
        simp only [List.isChain_cons_cons, List.IsChain.singleton, and_true]
        refine ⟨vol hA', trip_stay hd rfl ?_⟩
        obtain ⟨delay, -, e⟩ := law.decay _ _ _ _ _ _ (offers hA') he
        rw [e]
    | raise e =>
      simp only
      cases hp with
      | raise => simp
      | absorbRaise h d comp s' e hA' => simpa using vol hA'
    | cont ray' s' =>
      simp only
      have hd' := (pass_on hS hv hB hp hd).2 _ _ rfl
      have hr' : Reached S B R method maxsteps maxpath ray0 s0 (count + 1) ray' s' := hreach.next (by rw [hb])
      have ih' := ih (count + 1) ray' s' hd' hr'
      cases hp with
      | radiate h d comp s' s'' s''' ray' ev hA' hr he hev =>
        simp only [List.cons_append, List.nil_append, List.isChain_cons_cons]
        refine ⟨vol hA', trip_stay hd rfl ?_, ih' _ rfl⟩
        exact (law.emit _ _ _ _ _ _ (offers hA') he).1
      | reflect h m s' s'' s''' ray' hT hr he =>
        simp only [List.cons_append, List.nil_append, List.isChain_cons_cons]
        refine ⟨trip_go hS hv hA hB hd hg hT.live.sees rfl le_rfl ?_, ih' _ rfl⟩
        rw [law.reflect _ _ _ _ _ _ _ he]; rfl
      | transmit h m s' s'' s''' ray' hT ha hr he =>
        simp only [List.cons_append, List.nil_append, List.isChain_cons_cons]
        refine ⟨trip_go hS hv hA hB hd hg hT.live.sees rfl le_rfl ?_, ih' _ rfl⟩
        rw [law.transmit _ _ _ _ _ _ _ he]; rfl

/-- **C96.** In every history of a ray in general position: each event after the first names an object,
and the ray has travelled to it from the previous event inside that object and outside of every smaller
one. -/
theorem travels_in_container_partial {R : Rand σ} (hR : R.Unit) {method : EmitMethod} {maxsteps : ℕ}
    {maxpath : Option ℝ} {ray : Ray ℝ} {s : σ} (hd : ray.direction.dot ray.direction = 1)
    (hgen : ∀ count ray' s', Reached S B R method maxsteps maxpath ray s count ray' s' → General S B ray')
    {j : ℕ} {a b : Step ℝ} (ha : (run S B R method maxsteps maxpath ray s)[j]? = some a)
    (hb : (run S B R method maxsteps maxpath ray s)[j + 1]? = some b) :
    ∃ c, b.info.container = some (S.node c).name ∧
      ∀ L : ℝ, b.ray.position = a.ray.position + L • a.ray.direction → ∀ t : ℝ, epsZero ≤ t → t ≤ L →
        Has (S.node c) (a.ray.position + t • a.ray.direction) ∧
          (t < L → Medium S c (a.ray.position + t • a.ray.direction)) :=
  isChain_getElem? (loop_trips hS hv hA hB hR hgen _ _ ray s hd .start ⟨ray, .generate, {}⟩ rfl) ha hb

end
end PV.Inside
