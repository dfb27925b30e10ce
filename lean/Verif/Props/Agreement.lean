import Verif.Spec.Agreement
import Verif.Lemmas.Library
import Verif.Props.LibraryPath
import Verif.Props.Material
import Verif.Props.Budget
import Verif.Props.EventLog
import Verif.Props.Phase
import Verif.Props.NextHit

/-!
**C09**: the compiled engine reproduces the Python tracer event for event.
-/

namespace PV.Library
noncomputable section
open Spec
variable {σ : Type} {n : ℕ}

/-- The ray of `histories()` for a ray of the engine. -/
def rayOf (light : Option String) (k : KRay ℝ Comp) : Ray ℝ :=
  ⟨k.position, k.direction, k.wavelength, k.travelled, k.duration, (k.source.map Comp.name).or light⟩

/-- The ray of the engine for a ray of the Python tracer, as `trace_bundle` starts it. -/
def launchOf (ray : Ray ℝ) (s : σ) : Launch ℝ Comp σ :=
  ⟨⟨ray.position, ray.direction, ray.wavelength, 0, 0, none⟩, s⟩

/-- How a pass of the engine ends, in terms of the Python tracer. -/
def nextOf (light : Option String) : KNext ℝ Comp σ → Next ℝ σ
  | .stop => .stop
  | .cont k s => .cont (rayOf light k) s

/-- A pass of the engine in terms of the Python tracer. -/
def passOf (S : LScene n) (light : Option String)
    (b : List (KOut ℝ (Fin (n + 1)) Comp) × KNext ℝ Comp σ) : List (Step ℝ) × Next ℝ σ :=
  ((rowsOf b.1).map (eventOf (names S) light), nextOf light b.2)

theorem rayOf_advance (light : Option String) (k : KRay ℝ Comp) (t m : ℝ) :
    rayOf light (k.advance t m) = (rayOf light k).propagate t m := by
  unfold rayOf KRay.advance Ray.propagate
  ext
  all_goals try simp [mul_comm]
  rw [div_div_eq_mul_div]

/-! ### Next hit -/

theorem keep_perm {S : LScene n} (hS : Accepted S) {B : Trimesh} {ray : Ray ℝ}
    (hd : ray.direction.dot ray.direction = 1) (hr : RegularRay S B ray) (v : Fin (n + 1)) :
    (NextHit.keep epsZero ((S.node v).pyTs B ray.position ray.direction)).Perm
      (kIntersect (S.node v).geom ((S.node v).w2l.point ray.position)
        ((S.node v).w2l.vec ray.direction)) := by
  have hl := hr.line v
  have hc := hr.clear v
  have hp := hS.proper v
  have hu := localDir_unit (hS.rigid v) (hS.inverse v) hd
  unfold NextHit.keep LNode.pyTs LNode.boxHits
  unfold LNode.localOrigin LNode.localDir at *
  cases hg : (S.node v).geom with
  | box b =>
    rw [hg] at hl
    exact hl
  | sphere r =>
    rw [hg] at hl
    rcases hl with hl | hl
    · have h1 : kSphere r ((S.node v).w2l.point ray.position) ((S.node v).w2l.vec ray.direction) = [] := by
        rw [Geometry.kSphere_eq, if_pos]
        exact hl
      have h2 : pySphere r ((S.node v).w2l.point ray.position) ((S.node v).w2l.vec ray.direction) = [] := by
        rw [List.eq_nil_iff_forall_not_mem]
        intro t ht
        have e := (((Geometry.sphere_python_partial hu (.inl hl)).1 t).1 ht).2
        have q := Geometry.sphere_quad r ((S.node v).w2l.point ray.position)
          ((S.node v).w2l.vec ray.direction) t
        unfold Geometry.disc at hl
        rw [hu] at q hl
        set o := (S.node v).w2l.point ray.position
        set d := (S.node v).w2l.vec ray.direction
        nlinarith [sq_nonneg (2 * t + 2 * d.dot o)]
      show ((pySphere r _ _).filter _).Perm (kSphere r _ _)
      rw [h1, h2]
      exact List.Perm.refl _
    · exact List.Perm.of_eq (Geometry.sphere_agree hu hl)
  | cylinder l r =>
    rw [hg] at hl hc hp
    exact Geometry.cylinder_agree hp.2 hp.1 hc hl

theorem hit_agrees {S : LScene n} (hS : Accepted S) {B : Trimesh} {R : Rand σ} {ray : Ray ℝ}
    (hd : ray.direction.dot ray.direction = 1) (hr : RegularRay S B ray) (method : EmitMethod) :
    nextHit epsZero (distanceBetween ray.position)
        (S.intersections B ray.position ray.direction) =
      .ok (((kOps S R method).nextHit ray.position ray.direction).map
        (NextHit.toInfo fun t => ray.position + t • ray.direction)) := by
  rw [intersections_eq hS.rigid hS.inverse B hd]
  refine NextHit.kernel_eq_python (List.nodup_finRange _) _ _ _ _ _
    (fun v _ => keep_perm hS hd hr v) ?_ ?_
  · intro v _ t ht
    have := (keep_perm hS hd hr v).mem_iff.2 ht
    simp only [NextHit.keep, List.mem_filter, decide_eq_true_eq] at this
    exact distanceBetween_line hd (epsZero_pos.trans this.2).le
  · intro _
    refine ⟨0, List.mem_finRange _, ?_⟩
    refine (Geometry.engine_parity (hS.proper 0) (hr.clear 0)
      (localDir_unit (hS.rigid 0) (hS.inverse 0) hd) (t0 := 0) ?_ hr.off).2 hr.inside
    have e : (S.node 0).localOrigin ray.position + (0 : ℝ) • (S.node 0).localDir ray.direction =
        (S.node 0).localOrigin ray.position := by ext <;> simp
    rw [e]
    exact hr.inside

/-! ### Volume -/

theorem kCoefs_eq {S : LScene n} (hS : Accepted S) (v : Fin (n + 1)) {w : ℝ} {cs : List ℝ}
    (h : coefficients (S.node v).comps w = .ok cs) : (S.node v).kCoefs w = cs := by
  have hf := coefficients_ok h
  have ha := hS.absorbs v
  unfold LNode.kCoefs
  generalize (S.node v).comps = comps at *
  clear h
  induction hf with
  | nil => rfl
  | @cons c a comps cs hc _ ih =>
    rw [List.map_cons, ih fun c hc => ha c (List.mem_cons_of_mem _ hc)]
    congr 1
    have hcall : c.absDist.call w = .ok (some a) := by
      unfold Comp.coefficient at hc
      split at hc <;> first | (cases hc; done) | skip
      rename_i v hv
      cases hc
      exact hv
    obtain ⟨T, h1, h2⟩ := Material.engine_coefficient (ha c List.mem_cons_self) hcall
    simp [Comp.kCoef, h1, h2]

theorem delay_agrees (R : Rand σ) {tau : Option ℝ} (h : ∀ t, tau = some t → 0 ≤ t) (s : σ) :
    kDelay R tau s = match truthy tau with
      | none => (0, s)
      | some t => (-Real.log (1 - (R.next s).1) * t, (R.next s).2) := by
  unfold kDelay truthy
  cases tau with
  | none => simp
  | some t =>
    have := h t rfl
    by_cases h0 : t = 0
    · simp [h0]
    · have : 0 < t := lt_of_le_of_ne this (Ne.symm h0)
      simp [h0, this]

theorem lowerLimit_nonneg {D : PV.Dist ℝ} {T : Table ℝ} (hD : mkDist T false = .ok D)
    (hpos : ∃ i < T.n, 0 < T.y i) {m : EmitMethod} {nm p : ℝ} (h : lowerLimit D m nm = .ok p) :
    0 ≤ p := by
  have look : ∀ x, (∀ q, D.lookup x = .ok (some q) → 0 ≤ q) := by
    intro x q hq
    by_cases hx : T.x 0 ≤ x ∧ x ≤ T.x (T.n - 1)
    · obtain ⟨p, s, h1, h2, _⟩ := PV.Dist.sample_lookup hD hpos hx.1 hx.2
      rw [h1] at hq
      cases hq
      exact h2
    · have := ((PV.Dist.out_of_range_raises hD x 0).1).2 (by
        by_contra hc
        push Not at hc
        exact hx hc)
      rw [this] at hq
      cases hq
  unfold lowerLimit at h
  cases m <;> simp only at h
  all_goals first | (cases h; done) | skip
  · split_ifs at h
    split at h <;> first | (cases h; done) | skip
    cases h
    exact look _ _ (by assumption)
  · split at h <;> first | (cases h; done) | skip
    cases h
    exact look _ _ (by assumption)
  · cases h
    exact le_rfl

theorem pick_agrees {S : LScene n} (hS : Accepted S) {R : Rand σ} {s s' : σ}
    (hR : 0 < (R.next s).1 ∧ (R.next s).1 < 1) (method : EmitMethod) {v : Fin (n + 1)} {w : ℝ}
    {cs : List ℝ} {c : Comp} (hcs : coefficients (S.node v).comps w = .ok cs)
    (hsum : 0 < cs.sum) (htie : ∀ k ≤ cs.length, (R.next s).1 * cs.sum ≠ (cs.take k).sum)
    (h : pickComponent R (S.node v).comps w s = .ok (c, s')) :
    (kOps S R method).pick v w s = (c, s') := by
  unfold pickComponent at h
  rw [hcs] at h
  dsimp only at h
  rw [Material.engine_eq_python_pick (coefficients_nonneg (hS.comps v) hcs) hsum hR.1.le hR.2
    htie] at h
  dsimp only at h
  split at h
  · cases h
  · rename_i c' hc
    cases h
    show (((S.node v).comps[kPick ((S.node v).kCoefs w) (R.next s).1]?).getD noComp, (R.next s).2) = _
    rw [kCoefs_eq hS v hcs, hc]
    rfl

theorem emit_agrees {S : LScene n} (hS : Supported S) {B : Trimesh} {R : Rand σ}
    (hR : ∀ s, 0 < (R.next s).1 ∧ (R.next s).1 < 1) {method : EmitMethod} {v : Fin (n + 1)} {c : Comp}
    (hc : c ∈ (S.node v).comps) (hk : Reemits c) (light : Option String) (k : KRay ℝ Comp) {s : σ}
    {ray : Ray ℝ} {s' : σ}
    (h : (pyOps S B R method).emit v c (rayOf light k) s = .ok (ray, s')) :
    let K := kOps S R method
    let p := K.phase c s
    let e := K.emission c k.wavelength p.2
    let t := K.radDelay c e.2
    (c.kind = .scatterer → (ray, s') = (rayOf light { k with direction := p.1, source := some c }, p.2)) ∧
    (c.kind = .luminophore → (ray, s') = (rayOf light
      { k with direction := p.1, source := some c, wavelength := e.1, duration := k.duration + t.1 },
        t.2)) := by
  have hup := hS.upright v ⟨c, hc, hk⟩
  have hpp := (hS.inverse v).point_point (hS.rigid v) k.position
  obtain ⟨htag, hsmall⟩ := hS.phase v c hc hk
  obtain ⟨⟨tag, param⟩, htag⟩ := Option.isSome_iff_exists.1 htag
  simp only [pyOps] at h
  split at h
  · cases h
  rename_i r1 s1 he
  simp only [Except.ok.injEq, Prod.mk.injEq] at h
  obtain ⟨rfl, rfl⟩ := h
  unfold Comp.emit at he
  split at he
  · cases he
  rename_i dir s3 hdr
  have hph : (kOps S R method).phase c s = (dir, s3) := by
    simp only [kOps, htag, Option.getD_some]
    exact Phase.engine_eq_python _ htag hsmall hdr
  dsimp only
  rw [hph]
  refine ⟨fun hkind => ?_, fun hkind => ?_⟩
  · rw [if_neg (by rw [hkind]; decide)] at he
    cases he
    simp [rayOf, Ray.representation, hup, hpp]
  · rw [if_pos hkind] at he
    dsimp only at he
    split at he
    · cases he
    rename_i wl hw
    obtain ⟨T, hT, hpos⟩ := hS.emits v c hc hkind
    have hw' : (rayOf light k).wavelength = k.wavelength := rfl
    simp only [Ray.representation, hw'] at hw
    have hkw := Material.engine_eq_python_emit hT hpos (hR s3).2 (fun p hp => by
      have h0 := lowerLimit_nonneg hT hpos hp
      have := hR s3
      nlinarith [mul_nonneg h0 (by linarith : 0 ≤ 1 - (R.next s3).1)]) hw
    have hems : (kOps S R method).emission c k.wavelength s3 = (wl, (R.next s3).2) := by
      obtain ⟨hTe, _⟩ := mkDist_ok hT
      simp only [kOps]
      rw [hTe]
      simp [compileDist, hkw]
    rw [hems]
    have hdel : (kOps S R method).radDelay c (R.next s3).2 = kDelay R c.tauRad (R.next s3).2 := rfl
    rw [hdel, delay_agrees R (hS.comps v c hc).tauRad]
    split at he
    · rename_i ht
      cases he
      rw [ht]
      simp [rayOf, Ray.representation, hup, hpp]
    · rename_i t ht
      cases he
      rw [ht]
      simp [rayOf, Ray.representation, hup, hpp]

theorem nr_agrees {S : LScene n} (hS : Accepted S) {R : Rand σ} (method : EmitMethod)
    {v : Fin (n + 1)} {c : Comp} (hc : c ∈ (S.node v).comps) (light : Option String)
    (k : KRay ℝ Comp) (s : σ) :
    (c.nonradiativeAbsorb R (rayOf light k) s).1 =
      rayOf light { k with duration := k.duration + ((kOps S R method).nrDelay c s).1 } := by
  have hdel : (kOps S R method).nrDelay c s = kDelay R c.tauNr s := rfl
  rw [hdel, delay_agrees R (hS.comps v c hc).tauNr]
  unfold Comp.nonradiativeAbsorb
  cases truthy c.tauNr <;> simp [rayOf]

theorem absorb_agrees {S : LScene n} (hS : Supported S) {B : Trimesh} {R : Rand σ}
    (hR : ∀ s, 0 < (R.next s).1 ∧ (R.next s).1 < 1) {method : EmitMethod} {v : Fin (n + 1)}
    {cs : List ℝ} (light : Option String) (k : KRay ℝ Comp) (d : ℝ) (s : σ)
    (hcs : coefficients (S.node v).comps k.wavelength = .ok cs)
    (hsum : 0 < cs.sum) (htie : ∀ i ≤ cs.length, (R.next s).1 * cs.sum ≠ (cs.take i).sum)
    (hok : ∀ e, (absorbBody (pyOps S B R method) v (rayOf light k) d s).2 ≠ .raise e) :
    passOf S light (kAbsorb (kOps S R method) v k d s) =
      absorbBody (pyOps S B R method) v (rayOf light k) d s := by
  have hpick : ∀ c s1, pickComponent R (S.node v).comps k.wavelength s = .ok (c, s1) →
      (kOps S R method).pick v k.wavelength s = (c, s1) := fun c s1 hp =>
    pick_agrees hS.toAccepted (hR s) method hcs hsum htie hp
  have hkind : ∀ c, (kOps S R method).kind c = c.kind := fun _ => rfl
  have hnra : ∀ c ∈ (S.node v).comps, ∀ k s, _ := fun c hc => nr_agrees hS.toAccepted method hc light (R := R)
  have hyield : ∀ c s, Reemits c → (kOps S R method).yields c s = c.isRadiative R s := by
    intro c s hre
    rcases hre with h | h <;> simp [kOps, Comp.isRadiative, h]
  have hemit : ∀ c ∈ (S.node v).comps, Reemits c → ∀ k s ray s',
      (pyOps S B R method).emit v c (rayOf light k) s = .ok (ray, s') → _ :=
    fun c hc hre k s ray s' h => emit_agrees hS hR hc hre light k h
  have hidx : (kOps S R method).nidx v = (S.node v).index := rfl
  generalize kOps S R method = K at *
  have hkind' : ∀ c, (pyOps S B R method).compKind c = c.kind := fun _ => rfl
  have hname : ∀ c, (pyOps S B R method).compName c = c.name := fun _ => rfl
  have hnode : (pyOps S B R method).name v = (S.node v).name := rfl
  have hrad : ∀ c r s, (pyOps S B R method).isRadiative c r s = .ok (c.isRadiative R s) :=
    fun _ _ _ => rfl
  have hnr : ∀ c r s, (pyOps S B R method).nonradiativeAbsorb c r s =
    .ok (c.nonradiativeAbsorb R r s) := fun _ _ _ => rfl
  have hcomp : ∀ w s, (pyOps S B R method).component v w s = pickComponent R (S.node v).comps w s :=
    fun _ _ => rfl
  have hidx' : (pyOps S B R method).refractiveIndex v = (S.node v).index := rfl
  generalize pyOps S B R method = O at *
  unfold absorbBody at hok ⊢
  unfold kAbsorb
  dsimp only at hok ⊢
  simp only [hidx, hidx', hcomp, ← rayOf_advance] at hok ⊢
  set k1 := k.advance d (S.node v).index with hk1
  have hwl : (rayOf light k1).wavelength = k.wavelength := rfl
  have hwl' : k1.wavelength = k.wavelength := rfl
  rw [hwl] at hok ⊢
  rw [hwl']
  cases hp : pickComponent R (S.node v).comps k.wavelength s with
  | error e => rw [hp] at hok; exact absurd rfl (hok e)
  | ok x =>
    obtain ⟨c, s1⟩ := x
    have hc : c ∈ (S.node v).comps := pickComponent_mem hp
    rw [hp] at hok
    simp only [hpick c s1 hp, hkind, hkind', hname, hnode, hrad, hnr] at hok ⊢
    by_cases hre : Reemits c
    · have hre' := hre
      unfold Reemits at hre'
      rw [if_pos hre', hyield c s1 hre]
      cases hb : c.isRadiative R s1 with
      | mk b s2 =>
        rw [hb] at hok
        cases b with
        | false =>
          dsimp only at hok ⊢
          rw [hnra c hc k1 s2]
          rcases hre with h | h <;>
            simp [h, passOf, nextOf, eventOf, names, rayOf, hwl']
        | true =>
          dsimp only at hok ⊢
          cases hem : O.emit v c (rayOf light k1) s2 with
          | error e => rw [hem] at hok; exact absurd rfl (hok e)
          | ok y =>
            obtain ⟨ray, s3⟩ := y
            have key := hemit c hc hre k1 s2 _ _ hem
            rw [hwl'] at key
            rcases hre with h | h
            · have e := key.1 h
              simp only [Prod.mk.injEq] at e
              obtain ⟨rfl, rfl⟩ := e
              simp [h, passOf, nextOf, eventOf, names, rayOf]
            · have e := key.2 h
              simp only [Prod.mk.injEq] at e
              obtain ⟨rfl, rfl⟩ := e
              simp [h, passOf, nextOf, eventOf, names, rayOf]
    · have hb : c.isRadiative R s1 = (false, s1) := by
        unfold Comp.isRadiative
        unfold Reemits at hre
        cases hk : c.kind <;> simp [hk] at hre ⊢
      have hre' := hre
      unfold Reemits at hre'
      rw [if_neg hre', hb]
      dsimp only
      rw [hnra c hc k1 s1]
      cases hk : c.kind <;> simp [passOf, nextOf, eventOf, names, rayOf, hwl']

/-! ### Surface -/

theorem along_clear {m d : Vec3 ℝ} (hm : 0 ≤ m.dot d) (hd : d.dot d = 1) : ¬ allclose (-m) d := by
  rintro ⟨hx, hy, hz⟩
  simp only [Vec3.dot, Vec3.neg_x, Vec3.neg_y, Vec3.neg_z] at *
  have key : ∀ a b : ℝ, |-a - b| ≤ 1e-8 + 1e-5 * |b| → a * b ≤ -b ^ 2 + (1e-8 + 1e-5 * |b|) * |b| := by
    intro a b h
    have h1 : |-a - b| = |a + b| := by rw [← abs_neg]; congr 1; ring
    rw [h1] at h
    have h2 : (a + b) * b ≤ |a + b| * |b| := by rw [← abs_mul]; exact le_abs_self _
    have h3 := mul_le_mul_of_nonneg_right h (abs_nonneg b)
    nlinarith
  have one : ∀ b : ℝ, b ^ 2 ≤ 1 → (1e-8 + 1e-5 * |b|) * |b| ≤ 0.1 := by
    intro b hb
    have h1 : |b| ≤ 1 := by
      rw [← Real.sqrt_sq_eq_abs]
      exact Real.sqrt_le_one.2 hb
    have h0 := abs_nonneg b
    nlinarith
  have kx := key _ _ hx
  have ky := key _ _ hy
  have kz := key _ _ hz
  have ox := one d.x (by nlinarith [sq_nonneg d.y, sq_nonneg d.z])
  have oy := one d.y (by nlinarith [sq_nonneg d.x, sq_nonneg d.z])
  have oz := one d.z (by nlinarith [sq_nonneg d.x, sq_nonneg d.y])
  nlinarith

theorem along_vec {m : Affine ℝ} (h : m.Rigid) (a d : Vec3 ℝ) :
    along (m.vec a) (m.vec d) = m.vec (along a d) := by
  unfold along
  rw [h.dot_vec]
  split_ifs
  · ext <;> simp [Affine.vec, Vec3.dot] <;> ring
  · rfl

theorem reflectivity_agrees {l2w w2l : Affine ℝ} (h : l2w.Rigid) (hw : l2w.Inverse w2l)
    {m d : Vec3 ℝ} {n1 n2 : ℝ} (h1 : 0 < n1) (h2 : 0 < n2) (hm : m.dot m = 1) (hd : d.dot d = 1)
    (hr : RegularAngle m (w2l.vec d)) :
    ∃ r, 0 ≤ r ∧ r ≤ 1 ∧ pyReflectivity m (w2l.vec d) n1 n2 = some r ∧
      kReflectivity (l2w.vec m) d n1 n2 = some r := by
  obtain ⟨hne, hcl⟩ := hr
  have hdd : (w2l.vec d).dot (w2l.vec d) = 1 := by rw [hw.dot_vec h, hd]
  have e : l2w.vec (w2l.vec d) = d := hw.vec_vec h d
  generalize w2l.vec d = d' at *
  have hpos : 0 < (along m d').dot d' := by
    refine lt_of_le_of_ne (Optics.along_dot_nonneg m d') (Ne.symm ?_)
    unfold along
    split_ifs
    · rw [Vec3.neg_dot]; simpa using hne
    · exact hne
  have hk : kAngle (l2w.vec m) d = Real.arccos ((along m d').dot d') := by
    rw [Optics.kAngle_eq (by rw [h.dot_vec, hm]) hd, ← e, along_vec h, h.dot_vec]
  have hp : angleBetween (along m d') d' = Real.arccos ((along m d').dot d') := by
    unfold angleBetween
    rcases hcl with hcl | hcl
    · rw [hcl, if_pos, hdd, Real.arccos_one]
      refine ⟨?_, ?_, ?_⟩ <;> rw [sub_self, abs_zero] <;> positivity
    · rw [if_neg hcl, if_neg (along_clear hpos.le hdd)]
  have hlt : Real.arccos ((along m d').dot d') < Real.pi / 2 := Real.arccos_lt_pi_div_two.2 hpos
  obtain ⟨r, hr, h0, h1'⟩ := Optics.reflectivity_range h1 h2 (Real.arccos_nonneg _) hlt
  refine ⟨r, h0, h1', ?_, ?_⟩
  · unfold pyReflectivity
    rw [hp, hr]
  · unfold kReflectivity
    rw [hk, Optics.engine_reflectivity, hr]

theorem decision_agrees {r u : ℝ} (h0 : 0 ≤ r) (h1 : r ≤ 1) :
    kIsReflected (some r) u = PV.isReflected (some r) u := by
  unfold kIsReflected PV.isReflected
  by_cases h : r = 0
  · simp [h]
  · simp [h, lt_of_le_of_ne h0 (Ne.symm h)]

theorem surface_agrees {S : LScene n} (hS : Accepted S) {B : Trimesh} {R : Rand σ}
    {method : EmitMethod} {h c : Fin (n + 1)} {a : Option (Fin (n + 1))} (p : Vec3 ℝ)
    (light : Option String) (k : KRay ℝ Comp) (hd : k.direction.dot k.direction = 1) (t : ℝ) (s : σ)
    (hsm : Geometry.Smooth epsZero (S.node h).geom ((S.node h).w2l.point (k.position + t • k.direction)))
    (hang : (S.node h).surface = .fresnel →
      RegularAngle (kNormal (S.node h).geom ((S.node h).w2l.point (k.position + t • k.direction)))
        ((S.node h).w2l.vec k.direction))
    (hok : ∀ e, (surfaceBody (pyOps S B R method) ⟨h, c, a, p, t⟩ (rayOf light k) s).2 ≠ .raise e) :
    passOf S light (kSurface (kOps S R method) h c a k t s) =
      surfaceBody (pyOps S B R method) ⟨h, c, a, p, t⟩ (rayOf light k) s := by
  obtain ⟨hnorm, hout⟩ := Geometry.python_normal (hS.proper h) hsm
  have hpos : (k.advance t (S.node c).index).position = k.position + t • k.direction := by
    unfold KRay.advance
    ext <;> simp [mul_comm]
  rw [← hpos] at hnorm hout hang
  have hpp := (hS.inverse h).point_point (hS.rigid h) (k.advance t (S.node c).index).position
  have hvv := (hS.inverse h).vec_vec (hS.rigid h) k.direction
  have hturn : ∀ d' : Vec3 ℝ, (S.node h).turn (rayOf light (k.advance t (S.node c).index)) (.ok d') =
      fun s : σ => .ok (rayOf light { k.advance t (S.node c).index with
        direction := (S.node h).l2w.vec d' }, s) := by
    intro d'
    funext s
    simp [LNode.turn, rayOf, Ray.representation, hpp]
  have e12 := Optics.engine_eq_python (hS.rigid h) (hS.inverse h)
    (kNormal (S.node h).geom ((S.node h).w2l.point (k.advance t (S.node c).index).position))
    k.direction (S.node c).index
  have hrep : (rayOf light (k.advance t (S.node c).index)).representation (S.node h).w2l =
      { rayOf light (k.advance t (S.node c).index) with
        position := (S.node h).w2l.point (k.advance t (S.node c).index).position
        direction := (S.node h).w2l.vec k.direction } := rfl
  have hOn : (pyOps S B R method).normal h (k.advance t (S.node c).index).position =
      .ok ((S.node h).l2w.vec (kNormal (S.node h).geom
        ((S.node h).w2l.point (k.advance t (S.node c).index).position))) := by
    simp only [pyOps, hnorm]
  have hKn : (kOps S R method).normal h (k.advance t (S.node c).index).position =
      (S.node h).l2w.vec (kNormal (S.node h).geom
        ((S.node h).w2l.point (k.advance t (S.node c).index).position)) := rfl
  have hidx' : (pyOps S B R method).refractiveIndex c = (S.node c).index := rfl
  have hidx : (kOps S R method).nidx c = (S.node c).index := rfl
  have hname : ∀ v, (pyOps S B R method).name v = (S.node v).name := fun _ => rfl
  have href : ∀ s, (pyOps S B R method).reflect h c a (rayOf light (k.advance t (S.node c).index)) s =
      (S.node h).turn (rayOf light (k.advance t (S.node c).index))
        (S.reflected h ((rayOf light (k.advance t (S.node c).index)).representation (S.node h).w2l)) s :=
    fun _ => rfl
  have htra : ∀ s, (pyOps S B R method).transmit h c a (rayOf light (k.advance t (S.node c).index)) s =
      (S.node h).turn (rayOf light (k.advance t (S.node c).index))
        (S.transmitted h c a ((rayOf light (k.advance t (S.node c).index)).representation (S.node h).w2l))
        s := fun _ => rfl
  have hisr : (pyOps S B R method).isReflected h c a (rayOf light (k.advance t (S.node c).index)) s =
      S.isReflected R h c a (rayOf light (k.advance t (S.node c).index)) s := rfl
  have hkrd : ∀ d m, (kOps S R method).reflectDir d m = kSpecular d m := fun _ _ => rfl
  have hktd : ∀ a m d, (kOps S R method).transmitDir h c a m d =
    match (S.node h).surface with
    | .null => d
    | .fresnel => (kTransmit m d (S.node c).index (S.node a).index).getD d := fun _ _ _ => rfl
  have hkre : ∀ a m d s, (kOps S R method).reflects h c a m d s = S.kReflects R h c a m d s :=
    fun _ _ _ _ => rfl
  have hkdir : (k.advance t (S.node c).index).direction = k.direction := rfl
  have hrpos : (rayOf light (k.advance t (S.node c).index)).position =
    (k.advance t (S.node c).index).position := rfl
  unfold surfaceBody at hok ⊢
  unfold kSurface
  dsimp only at hok ⊢
  rw [hidx', ← rayOf_advance] at hok ⊢
  rw [hidx]
  generalize kOps S R method = K at *
  generalize pyOps S B R method = O at *
  generalize k.advance t (S.node c).index = k1 at *
  rw [hrpos, hOn] at hok ⊢
  dsimp only at hok ⊢
  rw [hisr] at hok ⊢
  simp only [hname, href, htra, hrep] at hok ⊢
  unfold LScene.isReflected LScene.reflectivity at hok ⊢
  unfold LScene.reflected LScene.transmitted at hok ⊢
  rw [hrep] at hok ⊢
  generalize hm : kNormal (S.node h).geom ((S.node h).w2l.point k1.position) = m at *
  cases hsf : (S.node h).surface with
  | null =>
    simp only [hsf, PV.isReflected, if_true, hturn, hvv] at hok ⊢
    cases a with
    | none => exact absurd rfl (hok _)
    | some a =>
      simp only [hkdir, hkre, hKn, hktd, LScene.kReflects, hsf, kIsReflected, lt_irrefl, if_false]
      norm_num [passOf, nextOf, eventOf, names, rayOf]
      exact (hname a).symm
  | fresnel =>
    cases a with
    | none => simp only [hsf] at hok; exact absurd rfl (hok _)
    | some a =>
      obtain ⟨r, h0, h1, hpr, hkr⟩ := reflectivity_agrees (hS.rigid h) (hS.inverse h)
        (hS.index_pos c) (hS.index_pos a) hout.1 hd (hang hsf)
      obtain ⟨e1, e2, -⟩ := e12 (S.node a).index hout.1 hd
      simp only [hsf, hnorm, hpr] at hok ⊢
      simp only [hkdir, hkre, hKn, hktd, hkrd, LScene.kReflects, hsf, hkr, decision_agrees h0 h1, e1]
      cases hb : (PV.isReflected (some r) (R.next s).1).1 with
      | true =>
        simp only [hb, hturn] at hok ⊢
        by_cases hch : c = h <;> simp [hch, passOf, nextOf, eventOf, names, rayOf, rowsOf, hname]
      | false =>
        simp only [hb] at hok ⊢
        cases ht : pyTransmit m ((S.node h).w2l.vec k.direction) (S.node c).index (S.node a).index with
        | none => simp only [ht, LNode.turn] at hok; exact absurd rfl (hok _)
        | some d' =>
          simp only [ht, hturn, e2] at hok ⊢
          simp [passOf, nextOf, eventOf, names, rayOf, rowsOf, hname]

/-! ### A pass and a run -/

theorem kBody_go (K : KOps ℝ (Fin (n + 1)) Comp σ) {maxsteps count : ℕ} {k : KRay ℝ Comp} {s s1 : σ}
    {h c : Fin (n + 1)} {a : Option (Fin (n + 1))} {t : ℝ} {depth : Option ℝ}
    (hh : K.nextHit k.position k.direction = some (h, c, a, t)) (hc : ¬ count > maxsteps)
    (h0 : h ≠ K.root) (hD : K.depth c k.wavelength s = (depth, s1)) :
    kBody K maxsteps count k s = match isAbsorbed depth t with
      | some d => kAbsorb K c k d s1
      | none => kSurface K h c a k t s1 := by
  simp only [kBody, hh, hc, if_false, h0, hD]
  cases isAbsorbed depth t <;> rfl

theorem kBody_exit (K : KOps ℝ (Fin (n + 1)) Comp σ) {maxsteps count : ℕ} {k : KRay ℝ Comp} {s : σ}
    {h c : Fin (n + 1)} {a : Option (Fin (n + 1))} {t : ℝ}
    (hh : K.nextHit k.position k.direction = some (h, c, a, t)) (hc : ¬ count > maxsteps)
    (h0 : h = K.root) : rowsOf (kBody K maxsteps count k s).1 =
      [⟨.exit, some h, some c, a, none, k.advance t (K.nidx c), none⟩] ∧
      (kBody K maxsteps count k s).2 = .stop := by
  unfold kBody
  rw [hh]
  dsimp only
  rw [if_neg hc, if_pos h0]
  simp [rowsOf]

theorem kBody_kill (K : KOps ℝ (Fin (n + 1)) Comp σ) {maxsteps count : ℕ} {k : KRay ℝ Comp} {s : σ}
    {h c : Fin (n + 1)} {a : Option (Fin (n + 1))} {t : ℝ}
    (hh : K.nextHit k.position k.direction = some (h, c, a, t)) (hc : count > maxsteps) :
    rowsOf (kBody K maxsteps count k s).1 = [⟨.kill, none, some c, none, none, k, none⟩] ∧
      (kBody K maxsteps count k s).2 = .stop := by
  unfold kBody
  rw [hh]
  dsimp only
  rw [if_pos hc]
  simp [rowsOf]

theorem body_agrees {S : LScene n} (hS : Supported S) {B : Trimesh} {R : Rand σ}
    (hR : ∀ s, 0 < (R.next s).1 ∧ (R.next s).1 < 1) {method : EmitMethod} {maxsteps count : ℕ}
    (light : Option String) (k : KRay ℝ Comp) (s : σ) (hd : k.direction.dot k.direction = 1)
    (hr : RegularState S B R (rayOf light k) s)
    (hok : ∀ e, (body (pyOps S B R method) maxsteps none count (rayOf light k) s).2 ≠ .raise e) :
    passOf S light (kBody (kOps S R method) maxsteps count k s) =
      body (pyOps S B R method) maxsteps none count (rayOf light k) s := by
  have hhit := hit_agrees hS.toAccepted (ray := rayOf light k) (R := R) hd hr.toRegularRay method
  have hsurf := hr.surface
  have hin : (pyOps S B R method).intersections (rayOf light k).position (rayOf light k).direction =
    .ok (S.intersections B (rayOf light k).position (rayOf light k).direction) := rfl
  have hnh : nextHit (pyOps S B R method).eps ((pyOps S B R method).distBetween (rayOf light k).position)
      (S.intersections B (rayOf light k).position (rayOf light k).direction) =
    nextHit epsZero (distanceBetween (rayOf light k).position)
      (S.intersections B (rayOf light k).position (rayOf light k).direction) := rfl
  unfold body at hok ⊢
  rw [hin] at hok ⊢
  dsimp only at hok ⊢
  rw [hnh, hhit] at hok ⊢
  rw [hhit] at hsurf
  have hpos : (rayOf light k).position = k.position := rfl
  have hdir : (rayOf light k).direction = k.direction := rfl
  rw [hpos, hdir] at hok hsurf ⊢
  rcases hK : (kOps S R method).nextHit k.position k.direction with _ | ⟨h, c, a, t⟩
  · unfold kBody
    rw [hK]
    rfl
  rw [hK] at hok hsurf
  have hsurf' := hsurf _ rfl
  simp only [Option.map_some, NextHit.toInfo] at hok hsurf' ⊢
  by_cases hc : count > maxsteps
  · obtain ⟨r1, r2⟩ := kBody_kill (kOps S R method) (s := s) hK hc
    unfold passOf
    rw [if_pos (.inl hc), r1, r2]
    rfl
  have hneg : ¬ (count > maxsteps ∨ beyond (rayOf light k).travelled (none : Option ℝ)) := by
    simp [hc, beyond]
  rw [if_neg hneg] at hok ⊢
  by_cases h0 : h = 0
  · have e3 : (pyOps S B R method).refractiveIndex c = (S.node c).index := rfl
    obtain ⟨r1, r2⟩ := kBody_exit (kOps S R method) (s := s) hK hc h0
    unfold passOf
    rw [if_pos (show h = (pyOps S B R method).root from h0), r1, r2, e3, ← rayOf_advance]
    rfl
  rw [if_neg (show h ≠ (pyOps S B R method).root from h0)] at hok ⊢
  have hdep : (pyOps S B R method).penetrationDepth c (rayOf light k).wavelength s =
    penetrationDepth R (S.node c).comps k.wavelength s := rfl
  rw [hdep] at hok ⊢
  cases hcs : coefficients (S.node c).comps k.wavelength with
  | error e =>
    unfold penetrationDepth at hok
    rw [hcs] at hok
    exact absurd rfl (hok e)
  | ok cs =>
    have hnn := List.sum_nonneg (coefficients_nonneg (hS.comps c) hcs)
    have hkd : (kOps S R method).depth c k.wavelength s = kDepth R cs.sum s := by
      rw [← kCoefs_eq hS.toAccepted c hcs]
      rfl
    rw [Material.engine_depth hcs hnn] at hok ⊢
    rcases hD : kDepth R cs.sum s with ⟨depth, s1⟩
    rw [hD] at hok hkd
    dsimp only at hok ⊢
    rw [kBody_go (kOps S R method) hK hc h0 hkd]
    cases hab : isAbsorbed depth t with
    | none =>
      rw [hab] at hok
      obtain ⟨g1, g2⟩ := hsurf' h0
      exact surface_agrees hS.toAccepted _ light k hd t s1 g1 g2 hok
    | some d =>
      rw [hab] at hok
      have : 1e-8 < cs.sum ∧ s1 = (R.next s).2 := by
        unfold kDepth at hD
        split at hD
        · rename_i hgt
          cases hD
          exact ⟨hgt, rfl⟩
        · cases hD
          cases hab
      obtain ⟨hgt, rfl⟩ := this
      have hpos : 0 < cs.sum := lt_trans (by norm_num) hgt
      exact absorb_agrees hS hR light k d _ hcs hpos
        (hr.pick c cs hcs hpos) hok

theorem loop_agrees {S : LScene n} (hS : Supported S) (hv : ∀ v, Visible (S.node v).geom)
    {B : Trimesh} (hB : TrimeshSound B) {R : Rand σ}
    (hR : ∀ s, 0 < (R.next s).1 ∧ (R.next s).1 < 1) {method : EmitMethod} {maxsteps : ℕ}
    (light : Option String) (ray0 : Ray ℝ) (s0 : σ)
    (hreg : ∀ count ray s, Visited S B R method maxsteps ray0 s0 count ray s →
      RegularState S B R ray s) :
    ∀ (fuel count : ℕ) (k : KRay ℝ Comp) (s : σ), k.direction.dot k.direction = 1 →
      Visited S B R method maxsteps ray0 s0 count (rayOf light k) s →
      (∀ e, (loop (pyOps S B R method) maxsteps none fuel count (rayOf light k) s).2 ≠ .raised e) →
      (rowsOf (kTrace (kOps S R method) maxsteps fuel count k s)).map (eventOf (names S) light) =
        (loop (pyOps S B R method) maxsteps none fuel count (rayOf light k) s).1 := by
  intro fuel
  induction fuel with
  | zero => intros; rfl
  | succ fuel ih =>
    intro count k s hd hvis hok
    have hb : ∀ e, (body (pyOps S B R method) maxsteps none (count + 1) (rayOf light k) s).2 ≠
        .raise e := by
      intro e he
      refine hok e ?_
      unfold loop
      rcases hbb : body (pyOps S B R method) maxsteps none (count + 1) (rayOf light k) s with ⟨es, nx⟩
      rw [hbb] at he
      dsimp only at he
      subst he
      rfl
    have hag := body_agrees hS hR light k s hd (hreg _ _ _ hvis) hb
    unfold loop at hok ⊢
    unfold kTrace
    rcases hkb : kBody (kOps S R method) maxsteps (count + 1) k s with ⟨os, kx⟩
    rw [hkb] at hag
    unfold passOf at hag
    cases kx with
    | stop =>
      rw [← hag]
      rfl
    | cont k' s' =>
      rw [← hag] at hok ⊢
      simp only [nextOf] at hok hag ⊢
      have hd' := (pass_on hS.toSound hv hB (body_pass _ _ _ _ _ _) (ray := rayOf light k) hd).2
        (rayOf light k') s' (by rw [← hag])
      rw [rowsOf_append, List.map_append, ih (count + 1) k' s' hd'
        (hvis.next (by rw [← hag])) hok]

/-- A ray as a light emits it: unit direction, nothing travelled yet. -/
structure Fresh (ray : Ray ℝ) : Prop where
  unit : ray.direction.dot ray.direction = 1
  travelled : ray.travelled = 0
  duration : ray.duration = 0

/-- Every state the Python tracer goes through from this ray is regular, and it raises nothing. -/
structure Regular (S : LScene n) (B : Trimesh) (R : Rand σ) (method : EmitMethod) (maxsteps : ℕ)
    (ray : Ray ℝ) (s : σ) : Prop where
  states : ∀ count ray' s', Visited S B R method maxsteps ray s count ray' s' →
    RegularState S B R ray' s'
  finishes : ∀ e, (stepForward (pyOps S B R method) maxsteps none (maxsteps + 1) ray s).2 ≠ .raised e

/-- **C09**, one ray. What the engine records of a ray when the event budget is not used up is what
the Python tracer yields for it with the same random numbers. -/
theorem run_agrees {S : LScene n} (hS : Supported S) (hv : ∀ v, Visible (S.node v).geom)
    {B : Trimesh} (hB : TrimeshSound B) {R : Rand σ}
    (hR : ∀ s, 0 < (R.next s).1 ∧ (R.next s).1 < 1) (method : EmitMethod) (maxsteps : ℕ)
    (ray : Ray ℝ) (hf : Fresh ray) (s : σ) (hr : Regular S B R method maxsteps ray s) :
    (Budget.fullHistory (kOps S R method) maxsteps (launchOf ray s)).map
        (eventOf (names S) ray.source) =
      run S B R method maxsteps none ray s := by
  have hray : rayOf ray.source (launchOf ray s).ray = ray := by
    have h1 := hf.travelled
    have h2 := hf.duration
    cases ray
    simp_all [rayOf, launchOf]
  have hl := loop_agrees hS hv hB hR (method := method) (maxsteps := maxsteps) ray.source ray s
    hr.states (maxsteps + 1) 0 (launchOf ray s).ray s hf.unit (by rw [hray]; exact .start)
    (by rw [hray]; exact hr.finishes)
  rw [hray] at hl
  rw [Budget.fullHistory_eq]
  unfold run stepForward
  rw [List.map_cons]
  congr 1
  simp only [eventOf, generateRow, launchOf]
  rw [← hray]
  rfl

/-- **C09**. For every schedule of the threads, every bundle and every `record_every`: the history
that `histories()` yields for a regular ray whose events fit the budget is the sequence of events the
Python tracer yields for it. -/
theorem engine_matches_python_partial {S : LScene n} (hS : Supported S)
    (hv : ∀ v, Visible (S.node v).geom) {B : Trimesh} (hB : TrimeshSound B) {R : Rand σ}
    (hR : ∀ s, 0 < (R.next s).1 ∧ (R.next s).1 < 1) (method : EmitMethod)
    (T : RecTables ℝ (Fin (n + 1))) (maxsteps maxEvents recordEvery : ℕ)
    (rays : List (Ray ℝ × σ)) (threads : ℕ) (es : List (Tagged ℝ (Row ℝ (Fin (n + 1)) Comp)))
    (hx : Execution rays.length threads (kRay (kOps S R method) T maxsteps maxEvents recordEvery
      (rays.map fun r => launchOf r.1 r.2)) es) :
    ∃ hs, histories (names S) (Mem.exec es) recordEvery maxEvents (rays.map fun r => r.1.source) =
        some hs ∧
      hs.length = nRecorded recordEvery rays.length ∧
      ∀ j, 0 < recordEvery → ∀ ray s, rays[j * recordEvery]? = some (ray, s) → Fresh ray →
        Regular S B R method maxsteps ray s →
        (run S B R method maxsteps none ray s).length + 2 ≤ maxEvents →
        hs[j]? = some (run S B R method maxsteps none ray s) := by
  have hh := EventLog.histories_exact (kOps S R method) T (names S) maxsteps maxEvents recordEvery
    (rays.map fun r => launchOf r.1 r.2) (rays.map fun r => r.1.source) (by simp) threads es
    (by simpa using hx)
  refine ⟨_, hh, by simp, ?_⟩
  intro j hre ray s hj hf hr hlen
  have hag := run_agrees hS hv hB hR method maxsteps ray hf s hr
  have hjl : j * recordEvery < rays.length := by
    by_contra hc
    rw [List.getElem?_eq_none (not_lt.1 hc)] at hj
    cases hj
  have hjn : j < nRecorded recordEvery rays.length := by
    unfold nRecorded
    rw [if_pos hre, Nat.lt_div_iff_mul_lt hre]
    omega
  rw [List.getElem?_map, List.getElem?_range (by simpa using hjn)]
  simp only [Option.map_some]
  rw [Budget.logged_eq (kOps S R method) T maxsteps maxEvents recordEvery _ (j * recordEvery)
    (launchOf ray s) (by rw [List.getElem?_map, hj]; rfl) hre (Nat.mul_mod_left _ _)]
  have hrows : (rayRows (kOps S R method) maxsteps maxEvents (launchOf ray s)).take maxEvents =
      Budget.fullHistory (kOps S R method) maxsteps (launchOf ray s) := by
    have hlen' := congrArg List.length hag
    rw [List.length_map, Budget.fullHistory_eq, List.length_cons] at hlen'
    unfold rayRows
    rw [Budget.rayCut_fits _ _ _ _ (by omega), Budget.fullHistory_eq]
    simp only [Option.map_none, Option.toList_none, List.append_nil]
    exact List.take_of_length_le (by rw [List.length_cons]; omega)
  rw [hrows]
  rw [List.getElem?_map, hj]
  simp only [Option.map_some, Option.join_some]
  rw [hag]

/-- **C09**, small budgets. The history of a regular ray is a prefix of the events of the Python tracer,
followed by at most one KILL in the last place of the budget. -/
theorem engine_follows_python {S : LScene n} (hS : Supported S)
    (hv : ∀ v, Visible (S.node v).geom) {B : Trimesh} (hB : TrimeshSound B) {R : Rand σ}
    (hR : ∀ s, 0 < (R.next s).1 ∧ (R.next s).1 < 1) (method : EmitMethod)
    (T : RecTables ℝ (Fin (n + 1))) (maxsteps maxEvents recordEvery : ℕ)
    (rays : List (Ray ℝ × σ)) (threads : ℕ) (es : List (Tagged ℝ (Row ℝ (Fin (n + 1)) Comp)))
    (hx : Execution rays.length threads (kRay (kOps S R method) T maxsteps maxEvents recordEvery
      (rays.map fun r => launchOf r.1 r.2)) es) :
    ∃ hs, histories (names S) (Mem.exec es) recordEvery maxEvents (rays.map fun r => r.1.source) =
        some hs ∧
      ∀ j, 0 < recordEvery → ∀ ray s, rays[j * recordEvery]? = some (ray, s) → Fresh ray →
        Regular S B R method maxsteps ray s →
        ∃ h pre, hs[j]? = some h ∧ pre <+: run S B R method maxsteps none ray s ∧
          (h = pre ∨ ∃ last : Step ℝ, last.event = .kill ∧ h = pre ++ [last] ∧
            h.length = maxEvents) := by
  have hh := EventLog.histories_exact (kOps S R method) T (names S) maxsteps maxEvents recordEvery
    (rays.map fun r => launchOf r.1 r.2) (rays.map fun r => r.1.source) (by simp) threads es
    (by simpa using hx)
  refine ⟨_, hh, ?_⟩
  intro j hre ray s hj hf hr
  have hag := run_agrees hS hv hB hR method maxsteps ray hf s hr
  have hjl : j * recordEvery < rays.length := by
    by_contra hc
    rw [List.getElem?_eq_none (not_lt.1 hc)] at hj
    cases hj
  have hjn : j < nRecorded recordEvery rays.length := by
    unfold nRecorded
    rw [if_pos hre, Nat.lt_div_iff_mul_lt hre]
    omega
  rw [List.getElem?_map, List.getElem?_range (by simpa using hjn), Option.map_some,
    List.getElem?_map, hj]
  simp only [Option.map_some, Option.join_some]
  obtain ⟨p, ⟨q, hp⟩, hor⟩ := Budget.history_prefix (kOps S R method) T maxsteps maxEvents recordEvery
    (rays.map fun r => launchOf r.1 r.2) (j * recordEvery) (launchOf ray s)
    (by rw [List.getElem?_map, hj]; rfl) hre (Nat.mul_mod_left _ _)
  refine ⟨_, p.map (eventOf (names S) ray.source), rfl,
    ⟨q.map (eventOf (names S) ray.source), by rw [← List.map_append, hp, hag]⟩, ?_⟩
  rcases hor with h | ⟨r, h, hl⟩
  · rw [h]
    exact .inl rfl
  · rw [h]
    refine .inr ⟨eventOf (names S) ray.source ⟨.kill, none, none, none, none, r, none⟩, rfl, by simp,
      by simp [← hl]⟩

end
end PV.Library
