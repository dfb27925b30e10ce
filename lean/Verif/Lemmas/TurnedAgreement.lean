import Verif.Lemmas.TurnedLaw
import Verif.Props.Agreement

/-!
The engine with turned re-emission does event for event what the Python tracer does.
-/

namespace PV.Turned
open MeasureTheory Set PV.Spec Library EngineThinning
noncomputable section
variable {n : ℕ}

/-- Numbers strictly between 0 and 1. -/
def Good (s : Numbers) : Prop := ∀ i, 0 < s i ∧ s i < 1

theorem Good.next {s : Numbers} (h : Good s) : 0 < (reader.next s).1 ∧ (reader.next s).1 < 1 := h 0

theorem almost_good : ∀ᵐ s ∂independent, Good s := by
  have hz : ∀ᵐ s ∂independent, ∀ i, s i ≠ 0 := by
    rw [ae_all_iff]
    intro i
    have h : ∀ᵐ u ∂uniform, u ≠ (0 : ℝ) := by
      rw [uniform]
      exact ae_restrict_of_ae (by simp [ae_iff])
    exact (measurePreserving_eval_infinitePi (fun _ => uniform) i).quasiMeasurePreserving.ae h
  filter_upwards [in_unit, hz] with s h1 h2 i
  exact ⟨lt_of_le_of_ne (h1 i).1 (h2 i).symm, (h1 i).2⟩

theorem keeps {β : Type} {f : Numbers → β × Numbers} (hf : TFair f) {s : Numbers} (h : Good s) : Good (f s).2 := by
  obtain ⟨k, hk, -⟩ := hf
  rcases (hk s s fun _ _ => rfl).2 with ⟨e, he, -⟩ | ⟨b, hb, -⟩
  · cases he
  · rw [Except.ok.inj hb]
    exact fun i => h _

variable {S : LScene n} {method : EmitMethod}

theorem yields_keeps (c : Comp) {s : Numbers} (h : Good s) : Good ((kOps S reader method).yields c s).2 := fun i => h (i + 1)

theorem emit_turned (hS : Accepted S) {B : Trimesh} {v : Fin (n + 1)} {c : Comp}
    (hc : c ∈ (S.node v).comps) (hk : Reemits c) (light : Option String) (k : KRay ℝ Comp) {s : Numbers} (hs : Good s)
    {ray : Ray ℝ} {s' : Numbers}
    (h : (pyOps S B reader method).emit v c (rayOf light k) s = .ok (ray, s')) :
    let K := turnedOps (S.node v).l2w (kOps S reader method)
    let p := K.phase c s
    let e := K.emission c k.wavelength p.2
    let t := K.radDelay c e.2
    (c.kind = .scatterer → (ray, s') = (rayOf light { k with direction := p.1, source := some c }, p.2)) ∧
    (c.kind = .luminophore → (ray, s') = (rayOf light
      { k with direction := p.1, source := some c, wavelength := e.1, duration := k.duration + t.1 },
        t.2)) := by
  have hpp := (hS.inverse v).point_point (hS.rigid v) k.position
  have hgood := keeps ((EngineReemission.engine_fair S method).phase c) hs
  obtain ⟨htag, hsmall⟩ := hS.phase v c hc hk
  obtain ⟨⟨tag, param⟩, htag⟩ := Option.isSome_iff_exists.1 htag
  simp only [pyOps] at h
  split at h
  · cases h
  rename_i r1 s1 he
  simp only [Except.ok.injEq, Prod.mk.injEq] at h
  obtain ⟨rfl, rfl⟩ := h
  unfold Comp.emit at he
  split at he
  · cases he
  rename_i dir s3 hdr
  have hph : (kOps S reader method).phase c s = (dir, s3) := by
    simp only [kOps, htag, Option.getD_some]
    exact Phase.engine_eq_python _ htag hsmall hdr
  rw [hph] at hgood
  have hR := hgood.next
  dsimp only at hR
  dsimp only [turnedOps]
  rw [hph]
  refine ⟨fun hkind => ?_, fun hkind => ?_⟩
  · rw [if_neg (by rw [hkind]; decide)] at he
    cases he
    simp [rayOf, Ray.representation, hpp]
  · rw [if_pos hkind] at he
    dsimp only at he
    split at he
    · cases he
    rename_i wl hw
    obtain ⟨T, hT, hpos⟩ := hS.emits v c hc hkind
    have hw' : (rayOf light k).wavelength = k.wavelength := rfl
    simp only [Ray.representation, hw'] at hw
    have hkw := Material.engine_eq_python_emit hT hpos hR.2 (fun p hp => by
      have h0 := lowerLimit_nonneg hT hpos hp
      nlinarith [mul_nonneg h0 (by linarith : 0 ≤ 1 - (reader.next s3).1)]) hw
    have hems : (kOps S reader method).emission c k.wavelength s3 = (wl, (reader.next s3).2) := by
      obtain ⟨hTe, _⟩ := mkDist_ok hT
      simp only [kOps]
      rw [hTe]
      simp [compileDist, hkw]
    rw [hems]
    have hdel : (kOps S reader method).radDelay c (reader.next s3).2 = kDelay reader c.tauRad (reader.next s3).2 := rfl
    rw [hdel, delay_agrees reader (hS.comps v c hc).tauRad]
    split at he
    · rename_i ht
      cases he
      rw [ht]
      simp [rayOf, Ray.representation, hpp]
    · rename_i t ht
      cases he
      rw [ht]
      simp [rayOf, Ray.representation, hpp]

theorem absorb_turned (hS : Accepted S) {B : Trimesh} {v : Fin (n + 1)}
    {cs : List ℝ} (light : Option String) (k : KRay ℝ Comp) (d : ℝ) (s : Numbers) (hs : Good s)
    (hcs : coefficients (S.node v).comps k.wavelength = .ok cs)
    (hsum : 0 < cs.sum) (htie : ∀ i ≤ cs.length, (reader.next s).1 * cs.sum ≠ (cs.take i).sum)
    (hok : ∀ e, (absorbBody (pyOps S B reader method) v (rayOf light k) d s).2 ≠ .raise e) :
    passOf S light (kAbsorb (turnedOps (S.node v).l2w (kOps S reader method)) v k d s) =
      absorbBody (pyOps S B reader method) v (rayOf light k) d s := by
  have hpick : ∀ c s1, pickComponent reader (S.node v).comps k.wavelength s = .ok (c, s1) →
      (turnedOps (S.node v).l2w (kOps S reader method)).pick v k.wavelength s = (c, s1) := fun c s1 hp =>
    pick_agrees hS hs.next method hcs hsum htie hp
  have hgood : ∀ c s1, (turnedOps (S.node v).l2w (kOps S reader method)).pick v k.wavelength s = (c, s1) →
      Good ((turnedOps (S.node v).l2w (kOps S reader method)).yields c s1).2 := by
    intro c s1 e
    have h1 := keeps ((EngineReemission.engine_fair S method).pick v k.wavelength) hs
    have e' : (kOps S reader method).pick v k.wavelength s = (c, s1) := e
    rw [e'] at h1
    exact yields_keeps (S := S) (method := method) c h1
  have hkind : ∀ c, (turnedOps (S.node v).l2w (kOps S reader method)).kind c = c.kind := fun _ => rfl
  have hnra : ∀ c ∈ (S.node v).comps, ∀ k s, (c.nonradiativeAbsorb reader (rayOf light k) s).1 =
      rayOf light { k with duration := k.duration + ((turnedOps (S.node v).l2w (kOps S reader method)).nrDelay c s).1 } :=
    fun c hc => nr_agrees hS method hc light (R := reader)
  have hyield : ∀ c s, Reemits c → (turnedOps (S.node v).l2w (kOps S reader method)).yields c s = c.isRadiative reader s := by
    intro c s hre
    rcases hre with h | h <;> simp [turnedOps, kOps, Comp.isRadiative, h]
  have hemit : ∀ c ∈ (S.node v).comps, Reemits c → ∀ k s, Good s → ∀ ray s',
      (pyOps S B reader method).emit v c (rayOf light k) s = .ok (ray, s') → _ :=
    fun c hc hre k s hs ray s' h => emit_turned hS hc hre light k hs h
  have hidx : (turnedOps (S.node v).l2w (kOps S reader method)).nidx v = (S.node v).index := rfl
  generalize turnedOps (S.node v).l2w (kOps S reader method) = K at *
  have hkind' : ∀ c, (pyOps S B reader method).compKind c = c.kind := fun _ => rfl
  have hname : ∀ c, (pyOps S B reader method).compName c = c.name := fun _ => rfl
  have hnode : (pyOps S B reader method).name v = (S.node v).name := rfl
  have hrad : ∀ c r s, (pyOps S B reader method).isRadiative c r s = .ok (c.isRadiative reader s) :=
    fun _ _ _ => rfl
  have hnr : ∀ c r s, (pyOps S B reader method).nonradiativeAbsorb c r s =
    .ok (c.nonradiativeAbsorb reader r s) := fun _ _ _ => rfl
  have hcomp : ∀ w s, (pyOps S B reader method).component v w s = pickComponent reader (S.node v).comps w s :=
    fun _ _ => rfl
  have hidx' : (pyOps S B reader method).refractiveIndex v = (S.node v).index := rfl
  generalize pyOps S B reader method = O at *
  unfold absorbBody at hok ⊢
  unfold kAbsorb
  dsimp only at hok ⊢
  simp only [hidx, hidx', hcomp, ← rayOf_advance] at hok ⊢
  set k1 := k.advance d (S.node v).index with hk1
  have hwl : (rayOf light k1).wavelength = k.wavelength := rfl
  have hwl' : k1.wavelength = k.wavelength := rfl
  rw [hwl] at hok ⊢
  rw [hwl']
  cases hp : pickComponent reader (S.node v).comps k.wavelength s with
  | error e => rw [hp] at hok; exact absurd rfl (hok e)
  | ok x =>
    obtain ⟨c, s1⟩ := x
    have hc : c ∈ (S.node v).comps := pickComponent_mem hp
    have hg := hgood c s1 (hpick c s1 hp)
    rw [hp] at hok
    simp only [hpick c s1 hp, hkind, hkind', hname, hnode, hrad, hnr] at hok ⊢
    by_cases hre : Reemits c
    · have hre' := hre
      unfold Reemits at hre'
      rw [hyield c s1 hre] at hg
      rw [if_pos hre', hyield c s1 hre]
      cases hb : c.isRadiative reader s1 with
      | mk b s2 =>
        rw [hb] at hok hg
        cases b with
        | false =>
          dsimp only at hok ⊢
          rw [hnra c hc k1 s2]
          rcases hre with h | h <;>
            simp [h, passOf, nextOf, Spec.eventOf, names, rayOf, hwl']
        | true =>
          dsimp only at hok ⊢
          cases hem : O.emit v c (rayOf light k1) s2 with
          | error e => rw [hem] at hok; exact absurd rfl (hok e)
          | ok y =>
            obtain ⟨ray, s3⟩ := y
            have key := hemit c hc hre k1 s2 hg _ _ hem
            rw [hwl'] at key
            rcases hre with h | h
            · have e := key.1 h
              simp only [Prod.mk.injEq] at e
              obtain ⟨rfl, rfl⟩ := e
              simp [h, passOf, nextOf, Spec.eventOf, names, rayOf]
            · have e := key.2 h
              simp only [Prod.mk.injEq] at e
              obtain ⟨rfl, rfl⟩ := e
              simp [h, passOf, nextOf, Spec.eventOf, names, rayOf]
    · have hb : c.isRadiative reader s1 = (false, s1) := by
        unfold Comp.isRadiative
        unfold Reemits at hre
        cases hk : c.kind <;> simp [hk] at hre ⊢
      have hre' := hre
      unfold Reemits at hre'
      rw [if_neg hre', hb]
      dsimp only
      rw [hnra c hc k1 s1]
      cases hk : c.kind <;> simp [passOf, nextOf, Spec.eventOf, names, rayOf, hwl']

/-! ### A pass and a run -/

theorem body_turned (hS : Accepted S) {B : Trimesh} {maxsteps count : ℕ}
    (light : Option String) (k : KRay ℝ Comp) (s : Numbers) (hs : Good s) (hd : k.direction.dot k.direction = 1)
    (hr : RegularState S B reader (rayOf light k) s)
    (hok : ∀ e, (body (pyOps S B reader method) maxsteps none count (rayOf light k) s).2 ≠ .raise e) :
    passOf S light (turnedBody S reader method maxsteps count k s) =
      body (pyOps S B reader method) maxsteps none count (rayOf light k) s := by
  have hhit := hit_agrees hS (ray := rayOf light k) (R := reader) hd hr.toRegularRay method
  have hsurf := hr.surface
  have hin : (pyOps S B reader method).intersections (rayOf light k).position (rayOf light k).direction =
    .ok (S.intersections B (rayOf light k).position (rayOf light k).direction) := rfl
  have hnh : nextHit (pyOps S B reader method).eps ((pyOps S B reader method).distBetween (rayOf light k).position)
      (S.intersections B (rayOf light k).position (rayOf light k).direction) =
    nextHit epsZero (distanceBetween (rayOf light k).position)
      (S.intersections B (rayOf light k).position (rayOf light k).direction) := rfl
  unfold body at hok ⊢
  rw [hin] at hok ⊢
  dsimp only at hok ⊢
  rw [hnh, hhit] at hok ⊢
  rw [hhit] at hsurf
  have hpos : (rayOf light k).position = k.position := rfl
  have hdir : (rayOf light k).direction = k.direction := rfl
  rw [hpos, hdir] at hok hsurf ⊢
  unfold turnedBody frame
  rcases hK : (kOps S reader method).nextHit k.position k.direction with _ | ⟨h, c, a, t⟩
  · have hK' : (turnedOps (S.node 0).l2w (kOps S reader method)).nextHit k.position k.direction = none := hK
    unfold kBody
    dsimp only
    rw [hK']
    rfl
  rw [hK] at hok hsurf
  have hsurf' := hsurf _ rfl
  simp only [Option.map_some, NextHit.toInfo] at hok hsurf' ⊢
  have hK' : (turnedOps (S.node c).l2w (kOps S reader method)).nextHit k.position k.direction = some (h, c, a, t) := hK
  by_cases hc : count > maxsteps
  · obtain ⟨r1, r2⟩ := kBody_kill (turnedOps (S.node c).l2w (kOps S reader method)) (s := s) hK' hc
    unfold passOf
    rw [if_pos (.inl hc), r1, r2]
    rfl
  have hneg : ¬ (count > maxsteps ∨ beyond (rayOf light k).travelled (none : Option ℝ)) := by
    simp [hc, beyond]
  rw [if_neg hneg] at hok ⊢
  by_cases h0 : h = 0
  · have e3 : (pyOps S B reader method).refractiveIndex c = (S.node c).index := rfl
    obtain ⟨r1, r2⟩ := kBody_exit (turnedOps (S.node c).l2w (kOps S reader method)) (s := s) hK' hc h0
    unfold passOf
    rw [if_pos (show h = (pyOps S B reader method).root from h0), r1, r2, e3, ← rayOf_advance]
    rfl
  rw [if_neg (show h ≠ (pyOps S B reader method).root from h0)] at hok ⊢
  have hdep : (pyOps S B reader method).penetrationDepth c (rayOf light k).wavelength s =
    penetrationDepth reader (S.node c).comps k.wavelength s := rfl
  rw [hdep] at hok ⊢
  cases hcs : coefficients (S.node c).comps k.wavelength with
  | error e =>
    unfold penetrationDepth at hok
    rw [hcs] at hok
    exact absurd rfl (hok e)
  | ok cs =>
    have hnn := List.sum_nonneg (coefficients_nonneg (hS.comps c) hcs)
    have hkd : (turnedOps (S.node c).l2w (kOps S reader method)).depth c k.wavelength s = kDepth reader cs.sum s := by
      rw [← kCoefs_eq hS c hcs]
      rfl
    rw [Material.engine_depth hcs hnn] at hok ⊢
    rcases hD : kDepth reader cs.sum s with ⟨depth, s1⟩
    rw [hD] at hok hkd
    dsimp only at hok ⊢
    rw [kBody_go (turnedOps (S.node c).l2w (kOps S reader method)) hK' hc h0 hkd]
    cases hab : isAbsorbed depth t with
    | none =>
      rw [hab] at hok
      obtain ⟨g1, g2⟩ := hsurf' h0
      exact surface_agrees hS _ light k hd t s1 g1 g2 hok
    | some d =>
      rw [hab] at hok
      have : 1e-8 < cs.sum ∧ s1 = (reader.next s).2 := by
        unfold kDepth at hD
        split at hD
        · rename_i hgt
          cases hD
          exact ⟨hgt, rfl⟩
        · cases hD
          cases hab
      obtain ⟨hgt, rfl⟩ := this
      have hpos : 0 < cs.sum := lt_trans (by norm_num) hgt
      exact absorb_turned hS light k d _ (fun i => hs (i + 1)) hcs hpos
        (hr.pick c cs hcs hpos) hok

theorem body_keeps (m : Affine ℝ) {maxsteps count : ℕ} {ray ray' : KRay ℝ Comp} {s s' : Numbers} (hs : Good s)
    (h : (kBody (turnedOps m (kOps S reader method)) maxsteps count ray s).2 = .cont ray' s') : Good s' := by
  have f := EngineReemission.engine_fair S method
  have k1 : ∀ v w s, Good s → Good ((turnedOps m (kOps S reader method)).depth v w s).2 := fun v w s hs => keeps (f.depth v w) hs
  have k2 : ∀ v w s, Good s → Good ((turnedOps m (kOps S reader method)).pick v w s).2 := fun v w s hs => keeps (f.pick v w) hs
  have k3 : ∀ c s, Good s → Good ((turnedOps m (kOps S reader method)).yields c s).2 := fun c s hs => yields_keeps (S := S) (method := method) c hs
  have k4 : ∀ c s, Good s → Good ((turnedOps m (kOps S reader method)).phase c s).2 := fun c s hs => keeps (f.phase c) hs
  have k5 : ∀ c w s, Good s → Good ((turnedOps m (kOps S reader method)).emission c w s).2 := fun c w s hs => keeps (f.emission c w) hs
  have k6 : ∀ c s, Good s → Good ((turnedOps m (kOps S reader method)).radDelay c s).2 := fun c s hs => keeps (f.delay c) hs
  have k7 : ∀ h c a nrm d s, Good s → Good ((turnedOps m (kOps S reader method)).reflects h c a nrm d s).2 :=
    fun h c a nrm d s hs => keeps (f.reflects h c a nrm d) hs
  generalize turnedOps m (kOps S reader method) = K at *
  unfold kBody at h
  split at h
  · cases h
  split at h
  · cases h
  split at h
  · cases h
  rename_i hit v a t0 _ _ _
  dsimp only at h
  have g1 := k1 v ray.wavelength s hs
  split at h
  · unfold kAbsorb at h
    dsimp only at h
    rename_i d _
    have g2 := k2 v (ray.advance d (K.nidx v)).wavelength _ g1
    set c := (K.pick v (ray.advance d (K.nidx v)).wavelength (K.depth v ray.wavelength s).2).1
    set s2 := (K.pick v (ray.advance d (K.nidx v)).wavelength (K.depth v ray.wavelength s).2).2
    have g3 : Good (if K.kind c = .scatterer ∨ K.kind c = .luminophore then K.yields c s2 else (false, s2)).2 := by
      split
      · exact k3 _ _ g2
      · exact g2
    generalize (if K.kind c = .scatterer ∨ K.kind c = .luminophore then K.yields c s2 else (false, s2)) = y at *
    split at h
    · split at h
      · cases h
        exact k6 _ _ (k5 _ _ _ (k4 _ _ g3))
      · cases h
        exact k4 _ _ g3
    · cases h
  · unfold kSurface at h
    dsimp only at h
    split at h
    · cases h
    split at h
    · cases h
      exact k7 _ _ _ _ _ _ g1
    · cases h
      exact k7 _ _ _ _ _ _ g1

theorem loop_turned (hS : Accepted S) (hv : ∀ v, Visible (S.node v).geom)
    {B : Trimesh} (hB : TrimeshSound B) {maxsteps : ℕ}
    (light : Option String) (ray0 : Ray ℝ) (s0 : Numbers)
    (hreg : ∀ count ray s, Visited S B reader method maxsteps ray0 s0 count ray s →
      RegularState S B reader ray s) :
    ∀ (fuel count : ℕ) (k : KRay ℝ Comp) (s : Numbers), Good s → k.direction.dot k.direction = 1 →
      Visited S B reader method maxsteps ray0 s0 count (rayOf light k) s →
      (∀ e, (loop (pyOps S B reader method) maxsteps none fuel count (rayOf light k) s).2 ≠ .raised e) →
      (rowsOf (turnedTrace S reader method maxsteps fuel count k s)).map (Spec.eventOf (names S) light) =
        (loop (pyOps S B reader method) maxsteps none fuel count (rayOf light k) s).1 := by
  intro fuel
  induction fuel with
  | zero => intros; rfl
  | succ fuel ih =>
    intro count k s hs hd hvis hok
    have hb : ∀ e, (body (pyOps S B reader method) maxsteps none (count + 1) (rayOf light k) s).2 ≠
        .raise e := by
      intro e he
      refine hok e ?_
      unfold loop
      rcases hbb : body (pyOps S B reader method) maxsteps none (count + 1) (rayOf light k) s with ⟨es, nx⟩
      rw [hbb] at he
      dsimp only at he
      subst he
      rfl
    have hag := body_turned hS light k s hs hd (hreg _ _ _ hvis) hb
    unfold loop at hok ⊢
    unfold turnedTrace after
    rcases hkb : turnedBody S reader method maxsteps (count + 1) k s with ⟨os, kx⟩
    rw [hkb] at hag
    unfold passOf at hag
    cases kx with
    | stop =>
      rw [← hag]
      rfl
    | cont k' s' =>
      have hs' : Good s' := by
        unfold turnedBody at hkb
        exact body_keeps _ (maxsteps := maxsteps) (count := count + 1) (ray := k) hs (by rw [hkb])
      rw [← hag] at hok ⊢
      simp only [nextOf] at hok hag ⊢
      have hd' := (pass_on hS.toSound hv hB (body_pass _ _ _ _ _ _) (ray := rayOf light k) hd).2
        (rayOf light k') s' (by rw [← hag])
      rw [rowsOf_append, List.map_append, ih (count + 1) k' s' hs' hd'
        (hvis.next (by rw [← hag])) hok]

/-- The rows of a ray with turned re-emission, from its generation on. -/
def turnedHistory (S : LScene n) (method : EmitMethod) (maxsteps : ℕ) (l : Launch ℝ Comp Numbers) : List (Row ℝ (Fin (n + 1)) Comp) :=
  generateRow l.ray :: rowsOf (turnedTrace S reader method maxsteps (maxsteps + 1) 0 l.ray l.rng)

theorem run_turned (hS : Accepted S) (hv : ∀ v, Visible (S.node v).geom)
    {B : Trimesh} (hB : TrimeshSound B) (maxsteps : ℕ)
    (ray : Ray ℝ) (hf : Fresh ray) (s : Numbers) (hs : Good s) (hr : Regular S B reader method maxsteps ray s) :
    (turnedHistory S method maxsteps (launchOf ray s)).map (Spec.eventOf (names S) ray.source) =
      Library.run S B reader method maxsteps none ray s := by
  have hray : rayOf ray.source (launchOf ray s).ray = ray := by
    have h1 := hf.travelled
    have h2 := hf.duration
    cases ray
    simp_all [rayOf, launchOf]
  have hl := loop_turned hS hv hB (method := method) (maxsteps := maxsteps) ray.source ray s
    hr.states (maxsteps + 1) 0 (launchOf ray s).ray s hs hf.unit (by rw [hray]; exact .start)
    (by rw [hray]; exact hr.finishes)
  rw [hray] at hl
  unfold turnedHistory Library.run stepForward
  rw [List.map_cons]
  dsimp only
  rw [← hl]
  congr 1
  simp only [Spec.eventOf, generateRow, launchOf]
  rw [← hray]
  rfl

end
end PV.Turned
