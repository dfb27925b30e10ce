import Verif.Props.Slab
import Verif.Props.RecorderLaw
import Verif.Props.Scaled
import Verif.Props.Estimates

/-!
C119: what the engine and its recorders report of a beam that meets an absorbing slab at right angles (C90, C98 are about the
Python tracer).
-/

namespace PV.EngineSlab
open MeasureTheory PV PV.Spec PV.Library PV.Slab PV.Turned PV.SameLaw
noncomputable section
variable {D : Slab} {B : Trimesh} {w a x y z : ℝ} {method : EmitMethod}

/-- Where the ray is at the beginning of a pass: where it starts, or at a face. -/
def Here (D : Slab) (w x y z : ℝ) (ray : Ray ℝ) : Prop :=
  Beam x y z w ray ∨ ∃ e u : ℝ, (e = 1 ∨ e = -1) ∧ (u = 1 ∨ u = -1) ∧ ray.position = ⟨x, y, e * (D.size.z / 2)⟩ ∧
    ray.direction = ⟨0, 0, u⟩ ∧ ray.wavelength = w

/-- Outside, at the face on the side it looks to. -/
def Outside (D : Slab) (x y u : ℝ) (ray : Ray ℝ) : Prop :=
  ray.position = ⟨x, y, u * (D.size.z / 2)⟩ ∧ ray.direction = ⟨0, 0, u⟩

/-- What is ahead then: the edge of the world, or a face. -/
theorem ahead (h : Lit D B w a x y z) {ray : Ray ℝ} (hr : Here D w x y z ray) :
    ∃ i, Meets (ops D B method) ray.position ray.direction i ∧ ((i.hit = 0 ∧ (∃ u, (u = 1 ∨ u = -1) ∧ Outside D x y u ray)) ∨
      ∃ e u : ℝ, (e = 1 ∨ e = -1) ∧ (u = 1 ∨ u = -1) ∧ i.hit = 1 ∧ 0 < i.dist ∧
        (i.container = 0 ∧ i.adjacent = some 1 ∧ e = -1 ∧ u = 1 ∨ i.container = 1 ∧ i.adjacent = some 0 ∧ e = u) ∧
        i.point = ⟨x, y, e * (D.size.z / 2)⟩ ∧ ray.position + i.dist • ray.direction = ⟨x, y, e * (D.size.z / 2)⟩ ∧
        ray.direction = ⟨0, 0, u⟩ ∧
        Splits (ops D B method) i ⟨x, y, e * (D.size.z / 2)⟩ ⟨0, 0, u⟩ ⟨0, 0, -u⟩ ⟨0, 0, u⟩ (R D)) := by
  have hz := h.thick
  have hz0 := epsZero_pos.trans hz
  have hw := world_far h
  have he := epsZero_pos
  have h4 := h.below
  have h5 := h.inside.2
  rcases hr with hb | ⟨e, u, h1, h2, hp, hd, -⟩
  · rw [hb.position, hb.direction]
    have e0 : (⟨x, y, z⟩ + (-(1 * z) - D.size.z / 2) • ⟨0, 0, 1⟩ : Vec3 ℝ) = ⟨x, y, -1 * (D.size.z / 2)⟩ := by
      ext <;> simp
      ring
    refine ⟨⟨1, 0, some 1, _, -(1 * z) - D.size.z / 2⟩, meets h (.inl rfl) (by linarith) ?_
      (next_front (by linarith) (by linarith) (by linarith) (by linarith) rfl), .inr ⟨-1, 1, .inr rfl, .inl rfl, rfl, by show 0 < -(1 * z) - D.size.z / 2; linarith,
        .inl ⟨rfl, rfl, rfl, rfl⟩, e0, e0, rfl, splits h (.inr rfl) (.inl rfl) (by decide)⟩⟩
    intro t h0 h1
    have : (z + t * 1) ^ 2 ≤ z ^ 2 := by
      rw [sq_le_sq, abs_of_neg (by linarith), abs_of_neg (by linarith)]; linarith
    linarith
  · rw [hp, hd]
    by_cases hue : u = e
    · refine ⟨⟨0, 0, none, _, _⟩, meets (g := e * (D.size.z / 2)) h h2 (face_in' h h1) (fun t => face_in h h1 h2)
        (next_outside ?_ (by linarith) (by linarith)), .inl ⟨rfl, u, h2, by rw [hp, hue], hd⟩⟩
      have := unit_sq h2
      rw [hue] at this ⊢
      linear_combination (D.size.z / 2) * this
    · have hu : e = -u := by
        rcases h1 with rfl | rfl <;> rcases h2 with rfl | rfl
        · exact absurd rfl hue
        · norm_num
        · norm_num
        · exact absurd rfl hue
      subst hu
      have e0 : (⟨x, y, -u * (D.size.z / 2)⟩ + (2 * (D.size.z / 2)) • ⟨0, 0, u⟩ : Vec3 ℝ) = ⟨x, y, u * (D.size.z / 2)⟩ := by
        ext <;> simp
        ring
      refine ⟨⟨1, 1, some 0, _, 2 * (D.size.z / 2)⟩, meets h h2 (face_in' h h1) (fun t => face_in h h1 h2)
        (next_inside ?_ (by linarith) (by linarith)), .inr ⟨u, u, h2, h2, rfl,
        by show 0 < 2 * (D.size.z / 2); linarith, .inr ⟨rfl, rfl, rfl⟩, e0, e0, rfl, splits h h2 h2 (by decide)⟩⟩
      have := unit_sq h2
      linear_combination (-(D.size.z / 2)) * this

/-- The names of a surface event. -/
theorem surface_info {ν κ : Type} {O : Ops ℝ ν κ Numbers} {i : HitInfo ν ℝ} {ray : Ray ℝ} {s : Numbers} {e : Step ℝ}
    (he : e ∈ (surfaceBody O i ray s).1) {m : Vec3 ℝ} (hm : O.normal i.hit (ray.position + i.dist • ray.direction) = .ok m) :
    e.info.hit = some (O.name i.hit) ∧ e.info.container = some (O.name i.container) ∧
      e.info.adjacent = i.adjacent.map O.name ∧ e.info.normal = some m := by
  unfold surfaceBody at he
  have e1 : (ray.propagate i.dist (O.refractiveIndex i.container)).position = ray.position + i.dist • ray.direction := rfl
  dsimp only at he
  rw [e1, hm] at he
  dsimp only at he
  repeat' split at he
  all_goals first
    | cases he; done
    | (simp only [List.mem_singleton] at he; subst he; exact ⟨rfl, rfl, rfl, rfl⟩)

/-- What is absorbed is lost in the slab. -/
theorem absorbed (h : Lit D B w a x y z) (ray : Ray ℝ) (d : ℝ) (s : Numbers) (hw : ray.wavelength = w)
    (hu : ∀ i, 0 ≤ s i ∧ s i < 1) :
    ∃ e e', absorbBody (ops D B method) 1 ray d s = ([e, e'], .stop) ∧ e.event = .absorb ∧ e'.event = .nonradiative ∧
      e.info.hit = none ∧ e'.info.hit = none ∧ e'.info.container = some "slab" := by
  obtain ⟨cs, hcs, hpos, hsum⟩ := h.alpha
  have ha := h.seen
  have hc1 : coefficients (D.scene.node 1).comps w = .ok cs := hcs
  obtain ⟨i, hi, hpick, -⟩ := Material.component_total hpos (u := s 0)
    (by rw [hsum]; linarith [show (0 : ℝ) < 1e-8 by norm_num]) (hu 0).1 (hu 0).2
  have hl := (coefficients_ok hc1).length_eq
  have hi' : i < (D.scene.node 1).comps.length := by omega
  have hp : (ops D B method).component 1 w s = .ok ((D.scene.node 1).comps[i], fun j => s (j + 1)) := by
    show pickComponent reader (D.scene.node 1).comps w s = _
    unfold pickComponent
    rw [hc1]
    simp only [reader, hpick, List.getElem?_eq_getElem hi']
  have hk := (h.black _ (List.getElem_mem hi')).1
  generalize (D.scene.node 1).comps[i] = c at hp hk
  have hrad : ∀ r s, (ops D B method).isRadiative c r s = .ok (false, s) := by
    intro r s
    simp [pyOps, Comp.isRadiative, hk]
  have hkk : (ops D B method).compKind c = .absorber := hk
  obtain ⟨r', s', hna⟩ : ∃ r' s', (ops D B method).nonradiativeAbsorb c
      (ray.propagate d ((ops D B method).refractiveIndex 1)) (fun j => s (j + 1)) = .ok (r', s') := ⟨_, _, rfl⟩
  have hw' : (ray.propagate d ((ops D B method).refractiveIndex 1)).wavelength = w := hw
  unfold absorbBody
  dsimp only
  rw [hw', hp]
  dsimp only
  rw [hrad]
  dsimp only
  rw [hna]
  dsimp only
  rw [hkk]
  exact ⟨_, _, rfl, rfl, rfl, rfl, rfl, rfl⟩

/-- A reflection or transmission. -/
structure Crossing (D : Slab) (w x y z : ℝ) (s : Numbers) (e : Step ℝ) (ray' : Ray ℝ) (s' : Numbers) : Prop where
  here : Here D w x y z ray'
  wave : ray'.wavelength = w
  left : ∃ k, s' = fun i => s (i + k)
  event : e.event = .transmit ∨ e.event = .reflect ∧ ¬ Outside D x y 1 ray'
  hit : e.info.hit = some "slab"
  side : ∃ f : ℝ, (f = 1 ∨ f = -1) ∧ e.info.normal = some ⟨0, 0, f⟩ ∧
    (e.info.container = some "slab" ∧ e.info.adjacent = some "world" ∧ (e.event = .transmit → Outside D x y f ray') ∨
      e.info.container = some "world" ∧ e.info.adjacent = some "slab" ∧ ¬ Outside D x y 1 ray')

/-- One pass. -/
theorem body_story (h : Lit D B w a x y z) {ray : Ray ℝ} (hr : Here D w x y z ray) (hw : ray.wavelength = w) {s : Numbers}
    (hs : ∀ i, 0 ≤ s i ∧ s i < 1) (maxsteps count : ℕ) :
    (∃ e, body (ops D B method) maxsteps none count ray s = ([e], .stop) ∧ e.event = .kill ∧ e.info.hit = none) ∨
    (∃ e u, body (ops D B method) maxsteps none count ray s = ([e], .stop) ∧ e.event = .exit ∧ (u = 1 ∨ u = -1) ∧
      Outside D x y u ray ∧ e.ray.direction = ⟨0, 0, u⟩ ∧ e.info.hit = some "world") ∨
    (∃ e e', body (ops D B method) maxsteps none count ray s = ([e, e'], .stop) ∧ (∀ u, (u = 1 ∨ u = -1) → ¬ Outside D x y u ray) ∧
      e.event = .absorb ∧ e'.event = .nonradiative ∧ e.info.hit = none ∧ e'.info.hit = none ∧ e'.info.container = some "slab") ∨
    ∃ e ray' s', body (ops D B method) maxsteps none count ray s = ([e], .cont ray' s') ∧ Crossing D w x y z s e ray' s' ∧
      ∀ u, (u = 1 ∨ u = -1) → ¬ Outside D x y u ray := by
  have hz0 := epsZero_pos.trans h.thick
  obtain ⟨i, hm, hi⟩ := ahead (method := method) h hr
  by_cases hc : count ≤ maxsteps
  · rcases hi with ⟨h0, u, hu, ho⟩ | ⟨e, u, he, hu, hh, hdist, hcon, -, hq, hd, hsp⟩
    · refine .inr (.inl ⟨_, u, PathLaw.body_exit hm hc h0 s, rfl, hu, ho, ho.2, ?_⟩)
      rw [h0]
      rfl
    · have hroot : i.hit ≠ (ops D B method).root := by rw [hh]; show (1 : Fin 2) ≠ 0; decide
      have hnot : ∀ u, (u = 1 ∨ u = -1) → ¬ Outside D x y u ray := by
        intro v hv hov
        rw [hov.1, hd] at hq
        have hz := congrArg Vec3.z hq
        have huv : u = v := by
          have := hd.symm.trans hov.2
          simpa using this
        have hz : v * (D.size.z / 2) + i.dist * u = e * (D.size.z / 2) := hz
        subst huv
        have hpos := mul_pos hdist hz0
        rcases hcon with ⟨-, -, rfl, rfl⟩ | ⟨-, -, rfl⟩
        · linarith
        · have h0 : i.dist * e = 0 := by linarith
          rcases he with rfl | rfl <;> linarith
      have hnorm : (ops D B method).normal i.hit (ray.position + i.dist • ray.direction) = .ok ⟨0, 0, e⟩ := by
        have hg : (D.scene.node 1).geom = .box D.size := rfl
        rw [hq, hh]
        simp only [pyOps, (pose 1 _).1, (pose 1 _).2.2.2, hg, face h he]
      have key : ∀ k, ∃ e ray' s', surfaceBody (ops D B method) i ray (fun j => s (j + k)) = ([e], .cont ray' s') ∧
          Crossing D w x y z s e ray' s' := by
        intro k
        obtain ⟨st, r', hs', h1, h2, h4, h3⟩ := PathLaw.surface_splits hsp hq hd (fun j => s (j + k))
        refine ⟨st, r', _, hs', ?_⟩
        obtain ⟨i1, i2, i3, i4⟩ := surface_info (e := st) (by rw [hs']; exact List.mem_singleton_self _) hnorm
        have hside : (st.event = .reflect ∧ r'.direction = ⟨0, 0, -u⟩) ∨ (st.event = .transmit ∧ r'.direction = ⟨0, 0, u⟩) := by
          split at h3
          · exact .inl h3
          · exact .inr h3
        have hin : ∀ v : ℝ, r'.direction = ⟨0, 0, v⟩ → (e ≠ 1 ∨ v ≠ 1) → ¬ Outside D x y 1 r' := by
          rintro v hv hne ⟨ho1, ho2⟩
          rw [h1] at ho1
          rw [hv] at ho2
          simp only [Vec3.mk.injEq, true_and] at ho1 ho2
          rcases hne with hne | hne
          · exact hne (mul_right_cancel₀ (by linarith : D.size.z / 2 ≠ 0) ho1)
          · exact hne ho2
        constructor
        · rcases hside with ⟨-, hd'⟩ | ⟨-, hd'⟩
          · exact .inr ⟨e, -u, he, by rcases hu with rfl | rfl <;> simp, h1, hd', h2.trans hw⟩
          · exact .inr ⟨e, u, he, hu, h1, hd', h2.trans hw⟩
        · exact h2.trans hw
        · refine ⟨k + 1, ?_⟩
          funext j
          show s (j + 1 + k) = s (j + (k + 1))
          congr 1; ring
        · rcases hside with ⟨hev, hd'⟩ | ⟨hev, hd'⟩
          · refine .inr ⟨hev, hin _ hd' ?_⟩
            rcases hcon with ⟨-, -, rfl, rfl⟩ | ⟨-, -, rfl⟩
            · left; norm_num
            · rcases hu with rfl | rfl
              · right; norm_num
              · left; norm_num
          · exact .inl hev
        · rw [i1, hh]; rfl
        · refine ⟨e, he, i4, ?_⟩
          rcases hcon with ⟨c1, c2, rfl, rfl⟩ | ⟨c1, c2, rfl⟩
          · refine .inr ⟨by rw [i2, c1]; rfl, by rw [i3, c2]; rfl, ?_⟩
            rcases hside with ⟨-, hd'⟩ | ⟨-, hd'⟩ <;> exact hin _ hd' (.inl (by norm_num))
          · refine .inl ⟨by rw [i2, c1]; rfl, by rw [i3, c2]; rfl, fun hev => ?_⟩
            rcases hside with ⟨hev', hd'⟩ | ⟨-, hd'⟩
            · rw [hev] at hev'; cases hev'
            · exact ⟨h1, hd'⟩
      rcases hcon with ⟨hcon, -⟩ | ⟨hcon, -⟩
      · have hcl := clear_world (D := D) (B := B) (method := method) ray.wavelength s
        rw [← hcon] at hcl
        rw [(PathLaw.body_go hm hc hroot hcl).2 rfl]
        obtain ⟨e, ray', s', h1, h2⟩ := key 0
        exact .inr (.inr (.inr ⟨e, ray', s', h1, h2, hnot⟩))
      · have hat := (attenuates (method := method) h).depth s
        rw [← hcon, ← hw] at hat
        have hgo := PathLaw.body_go hm hc hroot hat
        rcases hab : isAbsorbed (some (-Real.log (1 - s 0) / a)) i.dist with _ | d
        · rw [hgo.2 hab]
          obtain ⟨e, ray', s', h1, h2⟩ := key 1
          exact .inr (.inr (.inr ⟨e, ray', s', h1, h2, hnot⟩))
        · rw [hgo.1 d hab, hcon]
          obtain ⟨e1, e2, h1, h2⟩ := absorbed (method := method) h ray d (fun i => s (i + 1)) hw (fun i => hs _)
          exact .inr (.inr (.inl ⟨e1, e2, h1, hnot, h2⟩))
  · exact .inl ⟨_, PathLaw.body_kill hm (not_le.1 hc) s, rfl, rfl⟩

/-- One pass: the ray stops, or goes on from a face with the numbers left. -/
theorem pass_here (h : Lit D B w a x y z) {ray : Ray ℝ} (hr : Here D w x y z ray) (hw : ray.wavelength = w) {s : Numbers}
    (hs : ∀ i, 0 ≤ s i ∧ s i < 1) (maxsteps count : ℕ) {ray' : Ray ℝ} {s' : Numbers}
    (hb : (body (ops D B method) maxsteps none count ray s).2 = .cont ray' s') :
    Here D w x y z ray' ∧ ray'.wavelength = w ∧ ∃ k, s' = fun i => s (i + k) := by
  rcases body_story (method := method) h hr hw hs maxsteps count with ⟨e, h1, -⟩ | ⟨e, u, h1, -⟩ | ⟨e, e', h1, -⟩ |
    ⟨e, r', t, h1, h2, -⟩
  all_goals rw [h1] at hb; cases hb
  exact ⟨h2.here, h2.wave, h2.left⟩

theorem visited_here (h : Lit D B w a x y z) {ray : Ray ℝ} (hr : Beam x y z w ray) {s : Numbers}
    (hs : ∀ i, 0 ≤ s i ∧ s i < 1) {maxsteps count : ℕ} {ray' : Ray ℝ} {s' : Numbers}
    (hv : Visited D.scene B reader method maxsteps ray s count ray' s') :
    Here D w x y z ray' ∧ ray'.wavelength = w ∧ ∃ k, s' = fun i => s (i + k) := by
  induction hv with
  | start => exact ⟨.inl hr, hr.wavelength, 0, rfl⟩
  | next hv hb ih =>
    obtain ⟨h1, h2, k, rfl⟩ := ih
    obtain ⟨h3, h4, l, rfl⟩ := pass_here h h1 h2 (s := fun i => s (i + k)) (fun i => hs _) _ _ hb
    refine ⟨h3, h4, l + k, ?_⟩
    funext i
    show s (i + l + k) = _
    congr 1; ring

/-- Numbers that decide every choice of the absorbing component. -/
def NoTie (cs : List ℝ) (s : Numbers) : Prop := ∀ i, ∀ k ≤ cs.length, s i * cs.sum ≠ (cs.take k).sum

theorem almost_no_tie {cs : List ℝ} (hc : cs.sum ≠ 0) : ∀ᵐ s ∂independent, NoTie cs s := by
  unfold NoTie
  rw [ae_all_iff]
  intro i
  rw [ae_all_iff]
  intro k
  have h : ∀ᵐ u ∂uniform, u ≠ (cs.take k).sum / cs.sum := by
    rw [uniform]
    exact ae_restrict_of_ae (by simp [ae_iff])
  have h2 := (measurePreserving_eval_infinitePi (fun _ => uniform) i).quasiMeasurePreserving.ae h
  filter_upwards [h2] with s hs _ e
  exact hs ((eq_div_iff hc).2 e)

theorem regular_state (h : Lit D B w a x y z) {cs : List ℝ} (hcs : coefficients D.comps w = .ok cs) {ray : Ray ℝ}
    (hr : Here D w x y z ray) (hw : ray.wavelength = w) {s : Numbers} (hs : NoTie cs s) :
    RegularState D.scene B reader ray s := by
  have hz := h.thick
  have hz0 := epsZero_pos.trans hz
  have he := epsZero_pos
  have h4 := h.below
  have h5 := h.inside.2
  have hreg : RegularRay D.scene B ray := by
    rcases hr with hb | ⟨e, u, h1, h2, hp, hd, -⟩
    · refine Slab.regular h (.inl rfl) (by linarith) ?_ hb.position hb.direction
      intro t h0 h1
      have : (z + t * 1) ^ 2 ≤ z ^ 2 := by
        rw [sq_le_sq, abs_of_neg (by linarith), abs_of_neg (by linarith)]; linarith
      linarith
    · exact Slab.regular h h2 (face_in' h h1) (fun t => face_in h h1 h2) hp hd
  refine ⟨hreg, ?_, ?_⟩
  · intro v cs' hc hpos k hk
    have hv : v = 0 ∨ v = 1 := by match v with | 0 => exact .inl rfl | 1 => exact .inr rfl
    rcases hv with rfl | rfl
    · have : coefficients (D.scene.node 0).comps ray.wavelength = .ok [] := rfl
      rw [this] at hc
      cases hc
      simp at hpos
    · rw [hw] at hc
      have : coefficients (D.scene.node 1).comps w = .ok cs := hcs
      rw [this] at hc
      cases hc
      exact hs 1 k hk
  · intro i hi hne
    obtain ⟨i', hm, hcase⟩ := ahead (method := .kT) h hr
    obtain ⟨xs, hx, hn⟩ := hm
    cases hx
    have hii : i = i' := by
      have := hi.symm.trans hn
      injection this with this
      injection this
    subst hii
    rcases hcase with ⟨h0, -⟩ | ⟨e, u, h1, h2, hh, -, -, hpt, -, hd, -⟩
    · exact absurd h0 hne
    · rw [hh, (pose 1 _).1, (pose 1 _).2.1, hpt, hd]
      have hgeom : (D.scene.node 1).geom = .box D.size := rfl
      rw [hgeom]
      have hsm : Geometry.Smooth epsZero (.box D.size) ⟨x, y, e * (D.size.z / 2)⟩ := by
        right; right
        have e1 : |e| = 1 := by rcases h1 with rfl | rfl <;> norm_num
        refine ⟨⟨by linarith [h.within.1], h.within.1⟩, ⟨by linarith [h.within.2], h.within.2⟩, ?_, hz.le⟩
        simp only [abs_mul, e1, one_mul]
        exact abs_of_pos (by linarith)
      refine ⟨hsm, fun _ => ?_⟩
      have hnrm : kNormal (.box D.size) ⟨x, y, e * (D.size.z / 2)⟩ = ⟨0, 0, e⟩ := by
        have hj : ∀ j : Fin 3, j ≠ 2 → |(⟨x, y, e * (D.size.z / 2)⟩ : Vec3 ℝ).get j| < D.size.get j / 2 := by
          have := h.within
          intro j hj
          match j with
          | 0 => show |x| < D.size.x / 2; linarith
          | 1 => show |y| < D.size.y / 2; linarith
          | 2 => exact absurd rfl hj
        rw [Geometry.kNormal_face (i := 2) h1 rfl hz0 hj]
        simp [axisNormal]
      rw [hnrm]
      refine ⟨?_, .inl (along_axis h1 h2)⟩
      rcases h1 with rfl | rfl <;> rcases h2 with rfl | rfl <;> norm_num [Vec3.dot]

/-! ### Histories -/

/-- Light leaves the slab on the far side. -/
def Out (e : Step ℝ) : Prop :=
  e.event = .transmit ∧ e.info.hit = some "slab" ∧ e.info.container = some "slab" ∧ e.info.normal = some ⟨0, 0, 1⟩

/-- The last event. -/
def Last (P : Step ℝ → Prop) (l : List (Step ℝ)) : Prop := ∃ e, l.getLast? = some e ∧ P e

theorem last_cons {P : Step ℝ → Prop} {e : Step ℝ} (he : ¬ P e) (l : List (Step ℝ)) : Last P (e :: l) ↔ Last P l := by
  unfold Last
  rw [List.getLast?_cons]
  rcases l.getLast? with _ | x <;> simp [he]

/-- The whole of a run, from some pass on. -/
structure Story (D : Slab) (x y : ℝ) (ray : Ray ℝ) (l : List (Step ℝ)) : Prop where
  sided : Sided l
  normals : ∀ e ∈ l, e.info.hit = some "slab" → e.info.normal = some ⟨0, 0, 1⟩ ∨ e.info.normal = some ⟨0, 0, -1⟩
  away : Outside D x y 1 ray → ¬ Last (fun e => e.event = .exit ∧ e.ray.direction = ⟨0, 0, -1⟩) l ∧
    ¬ Last (fun e => e.event = .nonradiative ∨ e.event = .react) l
  final : (∃ e ∈ l, Out e) → ¬ Last (fun e => e.event = .exit ∧ e.ray.direction = ⟨0, 0, -1⟩) l ∧
    ¬ Last (fun e => e.event = .nonradiative ∨ e.event = .react) l
  through : ¬ Outside D x y 1 ray → Last (fun e => e.event = .exit ∧ e.ray.direction = ⟨0, 0, 1⟩) l → ∃ e ∈ l, Out e
  lost : (∃ e ∈ l, e.event = .nonradiative ∧ e.info.container = some "slab") ↔
    Last (fun e => e.event = .nonradiative ∨ e.event = .react) l

theorem loop_story (h : Lit D B w a x y z) (maxsteps : ℕ) : ∀ (fuel count : ℕ) (ray : Ray ℝ) (s : Numbers),
    Here D w x y z ray → ray.wavelength = w → (∀ i, 0 ≤ s i ∧ s i < 1) →
    (∀ e, (loop (ops D B method) maxsteps none fuel count ray s).2 ≠ .raised e) ∧
      Story D x y ray (loop (ops D B method) maxsteps none fuel count ray s).1 := by
  intro fuel
  induction fuel with
  | zero =>
    intro count ray s _ _ _
    refine ⟨by simp [loop], ?_⟩
    constructor <;> simp [loop, Last, Sided]
  | succ fuel ih =>
    intro count ray s hr hw hs
    unfold loop
    rcases body_story (method := method) h hr hw hs maxsteps (count + 1) with ⟨e, h1, h2, h3⟩ | ⟨e, u, h1, h2, hu, h3, h4, h5⟩ |
      ⟨e, e', h1, h2, h3, h4, h5, h6, h7⟩ | ⟨e, r', t, h1, h2, h3⟩
    · rw [h1]
      refine ⟨by simp, ?_⟩
      constructor <;> simp [Last, Sided, h2, h3, Out]
    · rw [h1]
      refine ⟨by simp, ?_⟩
      constructor
      · simp [Sided, h2]
      · simp [h5]
      · intro ho
        have : u = 1 := by
          have := h3.2.symm.trans ho.2
          simpa using this
        subst this
        constructor
        · rintro ⟨x, hx, -, hx2⟩
          have hx : e = x := by simpa using hx
          subst hx
          rw [h4, Vec3.mk.injEq] at hx2
          linarith [hx2.2.2]
        · rintro ⟨x, hx, hx2⟩
          have hx : e = x := by simpa using hx
          subst hx
          simp [h2] at hx2
      · simp [Out, h2]
      · intro hno hl
        simp only [Last, List.getLast?_singleton, Option.some.injEq, exists_eq_left', h4, Vec3.mk.injEq, true_and] at hl
        rw [hl.2] at h3
        exact absurd h3 hno
      · simp [Last, h2]
    · rw [h1]
      refine ⟨by simp, ?_⟩
      constructor
      · simp [Sided, h3, h4]
      · simp [h5, h6]
      · intro ho
        exact absurd ho (h2 1 (.inl rfl))
      · simp [Out, h3, h4]
      · simp [Last, h4]
      · simp [Last, h3, h4, h7]
    · rw [h1]
      dsimp only
      obtain ⟨k, hk⟩ := h2.left
      obtain ⟨g1, g2⟩ := ih (count + 1) r' t h2.here h2.wave (by rw [hk]; exact fun i => hs _)
      generalize (loop (ops D B method) maxsteps none fuel (count + 1) r' t) = L at g1 g2
      have hev : e.event ≠ .exit ∧ e.event ≠ .nonradiative ∧ e.event ≠ .react ∧ e.event ≠ .kill := by
        rcases h2.event with h | ⟨h, -⟩ <;> rw [h] <;> simp
      obtain ⟨f, hf, hn, hside⟩ := h2.side
      refine ⟨g1, ?_⟩
      rw [List.singleton_append]
      have lc : ∀ d : Vec3 ℝ, Last (fun e => e.event = .exit ∧ e.ray.direction = d) (e :: L.1) ↔
          Last (fun e => e.event = .exit ∧ e.ray.direction = d) L.1 := fun d => last_cons (by simp [hev.1]) _
      have ll : Last (fun e => e.event = .nonradiative ∨ e.event = .react) (e :: L.1) ↔
          Last (fun e => e.event = .nonradiative ∨ e.event = .react) L.1 := last_cons (by simp [hev.2.1, hev.2.2.1]) _
      constructor
      · intro x hx
        rcases List.mem_cons.1 hx with rfl | hx
        · refine ⟨fun _ => ?_, fun hk => absurd hk hev.2.2.2⟩
          rcases hside with ⟨c1, c2, -⟩ | ⟨c1, c2, -⟩ <;> simp [c1, c2, h2.hit]
        · exact g2.sided x hx
      · intro x hx hh
        rcases List.mem_cons.1 hx with rfl | hx
        · rcases hf with rfl | rfl
          · exact .inl hn
          · exact .inr hn
        · exact g2.normals x hx hh
      · intro ho
        exact absurd ho (h3 1 (.inl rfl))
      · rw [lc, ll]
        rintro ⟨x, hx, ho⟩
        rcases List.mem_cons.1 hx with rfl | hx
        · apply g2.away
          rcases hside with ⟨-, -, c⟩ | ⟨c, -⟩
          · have := hn.symm.trans ho.2.2.2
            simp only [Option.some.injEq, Vec3.mk.injEq, true_and] at this
            rw [← this]
            exact c ho.1
          · have := c.symm.trans ho.2.2.1
            simp at this
        · exact g2.final ⟨x, hx, ho⟩
      · intro _ hl
        rw [lc] at hl
        by_cases ho : Outside D x y 1 r'
        · refine ⟨e, List.mem_cons_self, ?_⟩
          rcases h2.event with het | ⟨-, hno⟩
          · rcases hside with ⟨c1, c2, c3⟩ | ⟨-, -, c3⟩
            · have : f = 1 := by
                have := (c3 het).2.symm.trans ho.2
                simpa using this
              exact ⟨het, h2.hit, c1, by rw [hn, this]⟩
            · exact absurd ho c3
          · exact absurd ho hno
        · obtain ⟨x, hx, hxo⟩ := g2.through ho hl
          exact ⟨x, List.mem_cons_of_mem _ hx, hxo⟩
      · rw [ll, ← g2.lost]
        simp [hev.2.1]

/-- The history of a ray of the beam. -/
theorem run_story (h : Lit D B w a x y z) {ray : Ray ℝ} (hb : Beam x y z w ray) (maxsteps : ℕ) {s : Numbers}
    (hs : ∀ i, 0 ≤ s i ∧ s i < 1) : ∃ l, Library.run D.scene B reader method maxsteps none ray s = ⟨ray, .generate, {}⟩ :: l ∧
      Story D x y ray l := by
  exact ⟨_, rfl, (loop_story (method := method) h maxsteps _ 0 ray s (.inl hb) hb.wavelength hs).2⟩

/-- Almost surely the ray meets no state in which the two codes are known to disagree. -/
theorem regular_runs (h : Lit D B w a x y z) {ray : Ray ℝ} (hb : Beam x y z w ray) (maxsteps : ℕ) :
    ∀ᵐ s ∂independent, Library.Regular D.scene B reader method maxsteps ray s := by
  obtain ⟨cs, hcs, -, hsum⟩ := h.alpha
  have hne : cs.sum ≠ 0 := by
    rw [hsum]
    have := h.seen
    linarith [show (0 : ℝ) < 1e-8 by norm_num]
  filter_upwards [almost_no_tie hne, in_unit] with s ht hs
  refine ⟨fun count ray' s' hv => ?_, fun e he => ?_⟩
  · obtain ⟨h1, h2, k, rfl⟩ := visited_here h hb hs hv
    exact regular_state h hcs h1 h2 fun i => ht (i + k)
  · exact (loop_story (method := method) h maxsteps (maxsteps + 1) 0 ray s (.inl hb) hb.wavelength hs).1 e he

theorem turnable (h : Lit D B w a x y z) : Turnable D.scene where
  toAccepted := (supported h).toAccepted
  turned v c hc hr := .inr ((supported h).upright v ⟨c, hc, hr⟩ _)

theorem visible (h : Lit D B w a x y z) (v : Fin 2) : Visible (D.scene.node v).geom := by
  match v with
  | 0 =>
    show (1e-8 : ℝ) < D.world ^ 2
    have := h.inside.2
    linarith [sq_nonneg x, sq_nonneg y, sq_nonneg z]
  | 1 => trivial

/-- **C119** The engine's histories of the slab: every Borel question has the same chance as for the Python tracer. -/
theorem engine_law (h : Lit D B w a x y z) (hB : TrimeshSound B) {ray : Ray ℝ} (hb : Beam x y z w ray) (hf : Fresh ray) (maxsteps : ℕ)
    {E : List (Step ℝ) → Prop} (hE : BorelSteps E) :
    chance (fun s => E (Library.run D.scene B reader method maxsteps none ray s)) =
      chance (fun s => E (engineRun D.scene method maxsteps ray s)) :=
  same_law (turnable h) (visible h) hB method maxsteps ray hf (regular_runs h hb maxsteps) hE

/-! ### The end of the history -/

theorem last_borel (ev : Event) (d : Vec3 ℝ) : BorelSteps (Last fun e => e.event = ev ∧ e.ray.direction = d) := by
  intro fs
  rcases List.eq_nil_or_concat fs with rfl | ⟨gs, f, rfl⟩
  · simp [stepsAt, Last]
  · have e : {v : ℕ → Fin 12 → ℝ | Last (fun e => e.event = ev ∧ e.ray.direction = d) (stepsAt (gs ++ [f]) v)} =
        {v | f.event = ev} ∩ ({v | v gs.length 3 = d.x} ∩ ({v | v gs.length 4 = d.y} ∩ {v | v gs.length 5 = d.z})) := by
      ext v
      have : Last (fun e => e.event = ev ∧ e.ray.direction = d) (stepsAt (gs ++ [f]) v) ↔
          f.event = ev ∧ v gs.length 3 = d.x ∧ v gs.length 4 = d.y ∧ v gs.length 5 = d.z := by
        simp [stepsAt, Last, List.zipIdx_append, stepAt, Vec3.ext_iff]
      exact this
    rw [List.concat_eq_append, e]
    refine (MeasurableSet.const _).inter (((measurableSet_eq_fun ?_ measurable_const)).inter
      ((measurableSet_eq_fun ?_ measurable_const).inter (measurableSet_eq_fun ?_ measurable_const)))
    all_goals fun_prop

theorem lost_borel : BorelSteps (Last fun e => e.event = .nonradiative ∨ e.event = .react) := by
  intro fs
  rcases List.eq_nil_or_concat fs with rfl | ⟨gs, f, rfl⟩
  · simp [stepsAt, Last]
  · have e : {v : ℕ → Fin 12 → ℝ | Last (fun e => e.event = .nonradiative ∨ e.event = .react) (stepsAt (gs ++ [f]) v)} =
        {v | f.event = .nonradiative ∨ f.event = .react} := by
      ext v
      have : Last (fun e => e.event = .nonradiative ∨ e.event = .react) (stepsAt (gs ++ [f]) v) ↔
          f.event = .nonradiative ∨ f.event = .react := by
        simp [stepsAt, Last, List.zipIdx_append, stepAt]
      exact this
    rw [List.concat_eq_append, e]
    exact MeasurableSet.const _

/-- The tracer raises nothing. -/
theorem followed (h : Lit D B w a x y z) {ray : Ray ℝ} (hb : Beam x y z w ray) (m : ℕ) {s : Numbers} (hs : ∀ i, 0 ≤ s i ∧ s i < 1) :
    follow (ops D B method) (m + 2) none ray s =
      .ok ((Library.run D.scene B reader method (m + 2) none ray s).map fun e => (e.ray, e.event)) := by
  obtain ⟨es, hf, -⟩ := PathLaw.run_ending (caught (method := method) h) (attenuates h) (lt_trans (by norm_num) h.seen)
    (enters h hb) (m := m) hs
  unfold follow at hf ⊢
  unfold Library.run
  rcases hst : stepForward (ops D B method) (m + 2) none (m + 2 + 1) ray s with ⟨l, o⟩
  rw [hst] at hf
  cases o with
  | finished => rfl
  | raised e => cases hf
  | outOfFuel => cases hf

/-- The questions of C90 in terms of histories. -/
theorem ends_last (h : Lit D B w a x y z) {ray : Ray ℝ} (hb : Beam x y z w ray) (m : ℕ) (ev : Event) (d : Vec3 ℝ) {s : Numbers}
    (hs : ∀ i, 0 ≤ s i ∧ s i < 1) :
    Ends (ops D B method) (m + 2) ray ev d s ↔
      Last (fun e => e.event = ev ∧ e.ray.direction = d) (Library.run D.scene B reader method (m + 2) none ray s) := by
  unfold Ends Last
  simp only [followed h hb m hs, Except.ok.injEq, exists_and_left, exists_eq_left', List.getLast?_map, Option.map_eq_some_iff,
    Prod.mk.injEq]
  constructor
  · rintro ⟨last, ⟨e, h1, h2, h3⟩, h4⟩
    exact ⟨e, h1, h3, by rw [h2]; exact h4⟩
  · rintro ⟨e, h1, h2, h3⟩
    exact ⟨e.ray, ⟨e, h1, rfl, h2⟩, h3⟩

theorem lost_last (h : Lit D B w a x y z) {ray : Ray ℝ} (hb : Beam x y z w ray) (m : ℕ) {s : Numbers} (hs : ∀ i, 0 ≤ s i ∧ s i < 1) :
    Lost (ops D B method) (m + 2) ray s ↔
      Last (fun e => e.event = .nonradiative ∨ e.event = .react) (Library.run D.scene B reader method (m + 2) none ray s) := by
  unfold Lost Last
  simp only [followed h hb m hs, Except.ok.injEq, exists_and_left, exists_eq_left', List.getLast?_map, Option.map_eq_some_iff,
    Prod.mk.injEq]
  constructor
  · rintro ⟨last, ev, ⟨e, h1, h2, h3⟩, h4⟩
    exact ⟨e, h1, by rw [h3]; exact h4⟩
  · rintro ⟨e, h1, h2⟩
    exact ⟨e.ray, e.event, ⟨e, h1, rfl, rfl⟩, h2⟩

section laws
variable (h : Lit D B w a x y z) (hB : TrimeshSound B) {ray : Ray ℝ} (hb : Beam x y z w ray) (hf : Fresh ray)
include h hB hb hf

theorem engine_ends (m : ℕ) (d : Vec3 ℝ) :
    chance (fun s => Last (fun e => e.event = .exit ∧ e.ray.direction = d) (engineRun D.scene method (m + 2) ray s)) =
      chance (Ends (ops D B method) (m + 2) ray .exit d) := by
  rw [← engine_law h hB hb hf (m + 2) (last_borel .exit d)]
  exact PathLaw.chance_congr fun s hs => (ends_last h hb m .exit d hs).symm

/-- **C119** Of the rays the engine sends through the slab, the textbook's fraction is transmitted, up to the rays cut off by the
limit on the number of steps. -/
theorem engine_transmitted (m : ℕ) :
    ∃ T : ℝ, chance (fun s => Last (fun e => e.event = .exit ∧ e.ray.direction = ⟨0, 0, 1⟩) (engineRun D.scene method (m + 2) ray s)) =
        ENNReal.ofReal T ∧
      T ≤ transmittance (R D) (pass D a) ∧ transmittance (R D) (pass D a) ≤ T + (R D * pass D a) ^ m := by
  rw [engine_ends h hB hb hf]
  exact transmitted_fraction h hb m

/-- **C119** … the textbook's fraction comes back … -/
theorem engine_reflected (m : ℕ) :
    ∃ T : ℝ, chance (fun s => Last (fun e => e.event = .exit ∧ e.ray.direction = ⟨0, 0, -1⟩) (engineRun D.scene method (m + 2) ray s)) =
        ENNReal.ofReal T ∧
      T ≤ reflectance (R D) (pass D a) ∧ reflectance (R D) (pass D a) ≤ T + (R D * pass D a) ^ m := by
  rw [engine_ends h hB hb hf]
  exact reflected_fraction h hb m

/-- **C119** … and the textbook's fraction is absorbed. -/
theorem engine_absorbed (m : ℕ) :
    ∃ T : ℝ, chance (fun s => Last (fun e => e.event = .nonradiative ∨ e.event = .react) (engineRun D.scene method (m + 2) ray s)) =
        ENNReal.ofReal T ∧
      T ≤ absorptance (R D) (pass D a) ∧ absorptance (R D) (pass D a) ≤ T + (R D * pass D a) ^ m := by
  rw [← engine_law h hB hb hf (m + 2) lost_borel]
  have e : chance (fun s => Last (fun e => e.event = .nonradiative ∨ e.event = .react) (Library.run D.scene B reader method (m + 2) none ray s)) =
      chance (Lost (ops D B method) (m + 2) ray) := PathLaw.chance_congr fun s hs => (lost_last h hb m hs).symm
  rw [e]
  exact absorbed_fraction h hb m

end laws

/-! ### Recorders -/

theorem names_differ : Function.Injective fun v => (D.scene.node v).name := by
  intro v w
  match v, w with
  | 0, 0 | 1, 1 => intro _; rfl
  | 0, 1 | 1, 0 => intro hvw; simp [Slab.scene] at hvw

section recorders
variable (h : Lit D B w a x y z) {ray : Ray ℝ} (hb : Beam x y z w ray)
include h hb

/-- A recorder of light that leaves the slab through the far face. -/
structure FarFace (r : Recorder ℝ) : Prop where
  event : r.event = .escaping
  facet : r.facet = some ⟨0, 0, 1⟩
  atol : 0 ≤ r.atol ∧ r.atol < 2

theorem far_iff {E : TallyEnv ℝ (Fin 2)} (hE : E.name 1 = "slab") {r : Recorder ℝ} (hr : FarFace r) (maxsteps : ℕ) {s : Numbers}
    (hs : ∀ i, 0 ≤ s i ∧ s i < 1) :
    (∃ e ∈ Library.run D.scene B reader method maxsteps none ray s, Counted E 1 r e) ↔
      ∃ e ∈ Library.run D.scene B reader method maxsteps none ray s, Out e := by
  obtain ⟨l, e, hl⟩ := run_story (method := method) h hb maxsteps hs
  rw [e]
  have key : ∀ x ∈ (⟨ray, .generate, {}⟩ :: l : List (Step ℝ)), Counted E 1 r x ↔ Out x := by
    intro x hx
    have hsel : SelectorEvent r.event (E.name 1) x ↔ x.event = .transmit ∧ x.info.hit = some "slab" ∧ x.info.container = some "slab" := by
      rw [hr.event, hE]; rfl
    unfold Counted
    rw [hsel]
    constructor
    · rintro ⟨⟨h1, h2, h3⟩, h4⟩
      refine ⟨h1, h2, h3, ?_⟩
      obtain ⟨m, hm, -, -, h5⟩ := h4 _ hr.facet
      rcases List.mem_cons.1 hx with rfl | hx
      · cases h1
      · rcases hl.normals x hx h2 with hn | hn
        · exact hn
        · simp only [normalOf, hn, Option.some.injEq] at hm
          subst hm
          norm_num at h5
          linarith [hr.atol.2]
    · rintro ⟨h1, h2, h3, h4⟩
      refine ⟨⟨h1, h2, h3⟩, ?_⟩
      intro f hf
      rw [hr.facet] at hf
      cases hf
      refine ⟨⟨0, 0, 1⟩, by simp [normalOf, h4], ?_⟩
      simp [hr.atol.1]
  constructor
  · rintro ⟨x, hx, hc⟩
    exact ⟨x, hx, (key x hx).1 hc⟩
  · rintro ⟨x, hx, hc⟩
    exact ⟨x, hx, (key x hx).2 hc⟩

theorem lost_decided (m : ℕ) : Decided (Lost (ops D B method) (m + 2) ray) := by
  refine Estimates.decided_congr (fun s hs => PathLaw.lost_iff (caught (method := method) h) (attenuates h)
    (lt_trans (by norm_num) h.seen) (enters h hb) hs) ?_
  have h1 : MeasurableSet {s : Numbers | s 0 < R D} := measurableSet_lt (measurable_pi_apply 0) measurable_const
  refine h1.compl.inter ?_
  have e : {s : Numbers | ∃ k < m + 1, PathLaw.fate (Real.exp (-(a * D.size.z))) (R D) (m + 1) (rest s) = .absorbed k} =
      ⋃ k, {s | k < m + 1} ∩ {s | PathLaw.fate (Real.exp (-(a * D.size.z))) (R D) (m + 1) (rest s) = .absorbed k} := by
    ext s; simp
  have hm : MeasurableSet {s : Numbers | ∃ k < m + 1, PathLaw.fate (Real.exp (-(a * D.size.z))) (R D) (m + 1) (rest s) = .absorbed k} := by
    rw [e]
    exact MeasurableSet.iUnion fun k => (MeasurableSet.const _).inter (measurable_rest (PathLaw.fate_measurable _ _ _ _))
  exact hm

/-- The chance that light leaves through the far face. -/
theorem far_chance (m : ℕ) :
    |(chance fun s => ∃ e ∈ Library.run D.scene B reader method (m + 2) none ray s, Out e).toReal -
      transmittance (R D) (pass D a)| ≤ 2 * (R D * pass D a) ^ m := by
  obtain ⟨T, t1, t2, t3⟩ := transmitted_fraction (method := method) h hb m
  obtain ⟨T', r1, r2, r3⟩ := reflected_fraction (method := method) h hb m
  obtain ⟨T'', a1, a2, a3⟩ := absorbed_fraction (method := method) h hb m
  obtain ⟨r0, r1'⟩ := R_pos h
  obtain ⟨q0, q1⟩ := pass_bounds h
  have hbal := balance (R := R D) (q := pass D a) r0.le r1' q0 q1.le
  set P := chance fun s => ∃ e ∈ Library.run D.scene B reader method (m + 2) none ray s, Out e with hP
  have hout : ∀ s : Numbers, (∀ i, 0 ≤ s i ∧ s i < 1) → ∃ l, Story D x y ray l ∧
      Library.run D.scene B reader method (m + 2) none ray s = ⟨ray, .generate, {}⟩ :: l ∧
      ((∃ e ∈ Library.run D.scene B reader method (m + 2) none ray s, Out e) ↔ ∃ e ∈ l, Out e) := by
    intro s hs
    obtain ⟨l, e, hl⟩ := run_story (method := method) h hb (m + 2) hs
    refine ⟨l, hl, e, ?_⟩
    rw [e]
    simp [Out]
  have hge : ENNReal.ofReal T ≤ P := by
    rw [← t1]
    refine measure_mono_ae ?_
    filter_upwards [in_unit] with s hs hx
    obtain ⟨l, hl, e, hi⟩ := hout s hs
    have h1 := (ends_last h hb m _ _ hs).1 hx
    rw [e, last_cons (by simp)] at h1
    refine hi.2 (hl.through ?_ h1)
    rintro ⟨ho, -⟩
    rw [hb.position] at ho
    have := congrArg Vec3.z ho
    have h2 := h.below
    have h3 := h.thick
    have h4 := epsZero_pos
    simp at this
    linarith
  have hle : P + (ENNReal.ofReal T' + ENNReal.ofReal T'') ≤ 1 := by
    have d1 := Estimates.slab_decided (method := method) h hb m ⟨0, 0, -1⟩
    have d2 := lost_decided (method := method) h hb m
    rw [← r1, ← a1]
    have u1 : independent ({s | Ends (ops D B method) (m + 2) ray .exit ⟨0, 0, -1⟩ s} ∪ {s | Lost (ops D B method) (m + 2) ray s}) =
        independent {s | Ends (ops D B method) (m + 2) ray .exit ⟨0, 0, -1⟩ s} + independent {s | Lost (ops D B method) (m + 2) ray s} := by
      refine measure_union₀ d2 ?_
      refine (Set.disjoint_left.2 ?_).aedisjoint
      rintro s ⟨l, last, f1, f2, -⟩ ⟨l', last', ev, g1, g2, g3⟩
      rw [f1] at g1
      cases g1
      rw [f2] at g2
      cases g2
      simp at g3
    unfold chance
    rw [← u1, hP]
    unfold chance
    rw [← measure_union₀ (d1.union d2)]
    · exact prob_le_one
    · have hae : ∀ᵐ s ∂independent, ¬ (s ∈ ({s | ∃ e ∈ Library.run D.scene B reader method (m + 2) none ray s, Out e} : Set Numbers) ∩
          ({s | Ends (ops D B method) (m + 2) ray .exit ⟨0, 0, -1⟩ s} ∪ {s | Lost (ops D B method) (m + 2) ray s})) := by
        filter_upwards [in_unit] with s hs hx
        obtain ⟨l, hl, e, hi⟩ := hout s hs
        obtain ⟨k1, k2⟩ := hl.final (hi.1 hx.1)
        rcases hx.2 with hx | hx
        · have h1 := (ends_last h hb m _ _ hs).1 hx
          rw [e, last_cons (by simp)] at h1
          exact k1 h1
        · have h1 := (lost_last h hb m hs).1 hx
          rw [e, last_cons (by simp)] at h1
          exact k2 h1
      have := ae_iff.1 hae
      simp only [not_not] at this
      exact this
  have hfin : P ≠ ⊤ := measure_ne_top _ _
  have hP1 : T ≤ P.toReal := by
    have := ENNReal.toReal_mono hfin hge
    rw [ENNReal.toReal_ofReal'] at this
    exact (le_max_left _ _).trans this
  have hP2 : P.toReal + (T' + T'') ≤ 1 := by
    have := ENNReal.toReal_mono ENNReal.one_ne_top hle
    rw [ENNReal.toReal_add hfin (by simp), ENNReal.toReal_add (by simp) (by simp), ENNReal.toReal_ofReal', ENNReal.toReal_ofReal',
      ENNReal.toReal_one] at this
    linarith [le_max_left T' 0, le_max_left T'' 0]
  rw [abs_le]
  have h0 : 0 ≤ (R D * pass D a) ^ m := pow_nonneg (geometric_bounds h).1 m
  constructor <;> linarith

/-- **C119** End to end: a bundle of copies of a ray thrown at the slab, for any number of threads and any schedule. The share of
the rays that a recorder on the far face reports tends to a number that differs from the textbook's transmittance by at most
`2 (R q)^m`, where `m + 2` is the limit on the number of steps. -/
theorem reported_transmittance (hB : TrimeshSound B) (hf : Fresh ray) {T : RecTables ℝ (Fin 2)} {i : ℕ} {r : Recorder ℝ} {b c : ℕ}
    (hT : T.recs[i]? = some ⟨1, r.event, r.facet, r.atol, b, c⟩) (hr : FarFace r) (m maxEvents : ℕ) :
    ∃ t : ℝ, |t - transmittance (R D) (pass D a)| ≤ 2 * (R D * pass D a) ^ m ∧
    ∀ᵐ ω ∂batch, ∀ (threads : ℕ → ℕ) (es : ℕ → List (Tagged ℝ (Row ℝ (Fin 2) Comp))) (st : ℕ → TallyState ℝ),
      (∀ k, Execution k (threads k) (kRay (kOps D.scene reader method) T (m + 2) maxEvents 0
        (launched (fun _ => ⟨ray.position, ray.direction, ray.wavelength, 0, 0, none⟩) ω k)) (es k)) →
      (∀ k, engineResult T ((Mem.exec (es k)).merged (threads k)) i = some (st k)) →
      Filter.Tendsto (fun k : ℕ => ((st k).rays : ℝ) / k) Filter.atTop (nhds t) := by
  refine ⟨_, far_chance (method := method) h hb m, ?_⟩
  have hk := RecorderLaw.reports_converge (turnable h) (visible h) hB names_differ hT (E := RecorderLaw.env D.scene) rfl
    (by rw [hr.event]; intro hx; cases hx) (m + 2) maxEvents ray hf (regular_runs (method := method) h hb (m + 2))
  rw [PathLaw.chance_congr fun s hs => far_iff (method := method) h hb (E := RecorderLaw.env D.scene) rfl hr (m + 2) hs] at hk
  exact hk

/-- **C119** The same for a recorder of what is lost in the slab and the textbook's absorptance. -/
theorem reported_absorptance (hB : TrimeshSound B) (hf : Fresh ray) {T : RecTables ℝ (Fin 2)} {i : ℕ} {r : Recorder ℝ} {b c : ℕ}
    (hT : T.recs[i]? = some ⟨1, r.event, r.facet, r.atol, b, c⟩) (hr : r.event = .lost ∧ r.facet = none) (m maxEvents : ℕ) :
    ∃ t : ℝ, t ≤ absorptance (R D) (pass D a) ∧ absorptance (R D) (pass D a) ≤ t + (R D * pass D a) ^ m ∧
    ∀ᵐ ω ∂batch, ∀ (threads : ℕ → ℕ) (es : ℕ → List (Tagged ℝ (Row ℝ (Fin 2) Comp))) (st : ℕ → TallyState ℝ),
      (∀ k, Execution k (threads k) (kRay (kOps D.scene reader method) T (m + 2) maxEvents 0
        (launched (fun _ => ⟨ray.position, ray.direction, ray.wavelength, 0, 0, none⟩) ω k)) (es k)) →
      (∀ k, engineResult T ((Mem.exec (es k)).merged (threads k)) i = some (st k)) →
      Filter.Tendsto (fun k : ℕ => ((st k).rays : ℝ) / k) Filter.atTop (nhds t) := by
  obtain ⟨t, h1, h2, h3⟩ := absorbed_fraction (method := method) h hb m
  have h0 : 0 ≤ absorptance (R D) (pass D a) := by
    obtain ⟨r0, r1⟩ := R_pos h
    obtain ⟨q0, q1⟩ := pass_bounds h
    unfold absorptance
    have h5 : 0 ≤ 1 - R D := by linarith
    have h6 : 0 ≤ 1 - pass D a := by linarith
    have h7 : 0 ≤ 1 - R D * pass D a := by nlinarith
    positivity
  refine ⟨max t 0, max_le h2 h0, h3.trans (by gcongr; exact le_max_left _ _), ?_⟩
  have hk := RecorderLaw.reports_converge (turnable h) (visible h) hB names_differ hT (E := RecorderLaw.env D.scene) rfl
    (by rw [hr.1]; intro hx; cases hx) (m + 2) maxEvents ray hf (regular_runs (method := method) h hb (m + 2))
  have e : chance (fun s => ∃ e ∈ Library.run D.scene B reader method (m + 2) none ray s, Counted (RecorderLaw.env D.scene) 1 r e) =
      chance (Lost (ops D B method) (m + 2) ray) := by
    refine PathLaw.chance_congr fun s hs => ?_
    rw [lost_last h hb m hs]
    obtain ⟨l, e, hl⟩ := run_story (method := method) h hb (m + 2) hs
    rw [e, last_cons (by simp), ← hl.lost]
    have hsel : ∀ x, Counted (RecorderLaw.env D.scene) 1 r x ↔ x.event = .nonradiative ∧ x.info.container = some "slab" := by
      intro x
      unfold Counted
      rw [hr.1]
      refine ⟨fun hx => hx.1, fun hx => ⟨hx, fun f hff => ?_⟩⟩
      rw [hr.2] at hff
      cases hff
    simp [hsel]
  rw [e, h1, ENNReal.toReal_ofReal'] at hk
  exact hk

end recorders

/-! ### Recorders on the tinted slab -/

open Classical in
/-- A mesh library that answers like the engine where that is known to be right. -/
def carefulBox : Trimesh := fun s o d => if Solid.Proper (.box s) ∧ Geometry.ClearDir (.box s) d then kBox s o d else []

theorem careful_sound : TrimeshSound carefulBox := by
  intro s o d _ t ht
  unfold carefulBox at ht
  split_ifs at ht with hc
  · exact Scaled.engine_sound hc.1 hc.2 ht
  · cases ht

theorem careful_lit : Lit tinted carefulBox 555 2 0.1 0.2 (-3) := by
  have h := tinted_lit
  refine ⟨h.air, h.glass, h.differ, h.ratio, h.wide, h.thick, h.black, h.alpha, h.seen, h.within, h.below, h.inside, ?_⟩
  intro g u hu
  have hp : Solid.Proper (.box tinted.size) ∧ Geometry.ClearDir (.box tinted.size) ⟨0, 0, u⟩ := by
    refine ⟨by norm_num [Solid.Proper, tinted], ?_⟩
    have h1 : ((10 : ℝ) ^ 300)⁻¹ ≤ 1 := inv_le_one_of_one_le₀ (one_le_pow₀ (by norm_num))
    rcases hu with rfl | rfl <;> norm_num [Geometry.ClearDir, Geo.Clear, tiny] <;> exact h1
  have := h.trimesh g u hu
  unfold RegularLine at this ⊢
  dsimp only at this ⊢
  rw [show carefulBox tinted.size ⟨0.1, 0.2, g⟩ ⟨0, 0, u⟩ = kBox tinted.size ⟨0.1, 0.2, g⟩ ⟨0, 0, u⟩ from if_pos hp]
  exact this

def farRec : Recorder ℝ := { name := "far", event := .escaping, facet := some ⟨0, 0, 1⟩, atol := 1e-6 }

def lossRec : Recorder ℝ := { name := "loss", event := .lost, atol := 1e-6 }

def slabTables : RecTables ℝ (Fin 2) := ⟨[⟨1, .escaping, some ⟨0, 0, 1⟩, 1e-6, 0, 0⟩, ⟨1, .lost, none, 1e-6, 0, 0⟩], [], 0⟩

/-- The tables are those of two recorders. -/
example : compileRecorders [((1 : Fin 2), farRec), (1, lossRec)] = some slabTables := by
  simp [compileRecorders, compileRecs, compileHists, farRec, lossRec, slabTables, Selector.isVolume]

def slabRay : Ray ℝ := ⟨⟨0.1, 0.2, -3⟩, ⟨0, 0, 1⟩, 555, 0, 0, none⟩

theorem slab_fresh : Fresh slabRay := ⟨by norm_num [slabRay, Vec3.dot], rfl, rfl⟩

/-- Both recorders at work, with a limit of 100 steps. -/
example : ∃ t l : ℝ, |t - 0.9216 * Real.exp (-2) / (1 - (0.04 * Real.exp (-2)) ^ 2)| ≤ 2 * 0.04 ^ 98 ∧
    |l - 0.96 * (1 - Real.exp (-2)) / (1 - 0.04 * Real.exp (-2))| ≤ 0.04 ^ 98 ∧
    ∀ᵐ ω ∂batch, ∀ (threads : ℕ → ℕ) (es : ℕ → List (Tagged ℝ (Row ℝ (Fin 2) Comp))) (far loss : ℕ → TallyState ℝ),
      (∀ k, Execution k (threads k) (kRay (kOps tinted.scene reader .kT) slabTables 100 0 0
        (launched (fun _ => ⟨⟨0.1, 0.2, -3⟩, ⟨0, 0, 1⟩, 555, 0, 0, none⟩) ω k)) (es k)) →
      (∀ k, engineResult slabTables ((Mem.exec (es k)).merged (threads k)) 0 = some (far k)) →
      (∀ k, engineResult slabTables ((Mem.exec (es k)).merged (threads k)) 1 = some (loss k)) →
      Filter.Tendsto (fun k : ℕ => ((far k).rays : ℝ) / k) Filter.atTop (nhds t) ∧
        Filter.Tendsto (fun k : ℕ => ((loss k).rays : ℝ) / k) Filter.atTop (nhds l) := by
  have hR : R tinted = 0.04 := by norm_num [R, tinted]
  have hp : pass tinted 2 = Real.exp (-2) := by norm_num [pass, tinted]
  have hpow : (R tinted * pass tinted 2) ^ 98 ≤ 0.04 ^ 98 := by
    rw [hR, hp]
    have h1 : Real.exp (-2) ≤ 1 := by rw [Real.exp_le_one_iff]; norm_num
    have h2 := Real.exp_pos (-2)
    gcongr
    nlinarith
  have hbeam : Beam 0.1 0.2 (-3) 555 slabRay := ⟨rfl, rfl, rfl⟩
  obtain ⟨t, h1, h2⟩ := reported_transmittance (method := .kT) careful_lit hbeam careful_sound slab_fresh
    (T := slabTables) (i := 0) (r := farRec) rfl ⟨rfl, rfl, by norm_num [farRec]⟩ 98 0
  obtain ⟨l, h3, h4, h5⟩ := reported_absorptance (method := .kT) careful_lit hbeam careful_sound slab_fresh
    (T := slabTables) (i := 1) (r := lossRec) rfl ⟨rfl, rfl⟩ 98 0
  have e1 : transmittance (R tinted) (pass tinted 2) = 0.9216 * Real.exp (-2) / (1 - (0.04 * Real.exp (-2)) ^ 2) := by
    rw [transmittance, hR, hp]; norm_num
  have e2 : absorptance (R tinted) (pass tinted 2) = 0.96 * (1 - Real.exp (-2)) / (1 - 0.04 * Real.exp (-2)) := by
    rw [absorptance, hR, hp]; norm_num
  rw [e1] at h1
  rw [e2] at h3 h4
  refine ⟨t, l, h1.trans (by linarith), ?_, ?_⟩
  · rw [abs_le]
    constructor <;> linarith [show (0 : ℝ) ≤ 0.04 ^ 98 by positivity]
  · filter_upwards [h2, h5] with ω k1 k2 threads es far loss he hf hl
    exact ⟨k1 threads es far he hf, k2 threads es loss he hl⟩

end
end PV.EngineSlab
