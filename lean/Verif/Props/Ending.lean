import Verif.Spec.Suited
import Verif.Props.Inside
import Verif.Props.Material
import Verif.Props.Optics

/-!
C103: every ray comes to an end, and nothing is raised on the way.
-/

namespace PV.Ending
open PV PV.Library PV.Solid PV.NextHit PV.Tracer PV.Geometry PV.Nested PV.Inside
noncomputable section
open Classical
variable {σ : Type} {n : ℕ} {S : LScene n} {B : Trimesh} {R : Rand σ} {method : EmitMethod} {W : Set ℝ}

/-! ### Materials -/

theorem coefficients_ok {comps : List Comp} {w : ℝ}
    (h : ∀ c ∈ comps, ∃ y, 0 ≤ y ∧ c.absDist.call w = .ok (some y)) :
    ∃ cs, coefficients comps w = .ok cs ∧ cs.length = comps.length ∧ ∀ c ∈ cs, 0 ≤ c := by
  induction comps with
  | nil => exact ⟨[], rfl, rfl, by simp⟩
  | cons c l ih =>
    obtain ⟨cs, e, hl, hn⟩ := ih fun c' h' => h c' (List.mem_cons_of_mem _ h')
    obtain ⟨y, hy, e'⟩ := h c List.mem_cons_self
    refine ⟨y :: cs, ?_, by simp [hl], ?_⟩
    · unfold coefficients at *
      rw [List.mapM_cons, e]
      simp only [Comp.coefficient, e']
      rfl
    · intro z hz
      rcases List.mem_cons.1 hz with rfl | hz
      · exact hy
      · exact hn z hz

theorem draw_ok (hR : R.Unit) {P : Phase} (h : Drawable P) (s : σ) : ∃ d s', P.draw R s = .ok (d, s') := by
  cases P with
  | isotropic => exact ⟨_, _, rfl⟩
  | lambertian => exact ⟨_, _, rfl⟩
  | henyeyGreenstein g =>
    obtain ⟨h1, h2⟩ := h
    have hp := hR s
    unfold Phase.draw henyeyGreenstein
    have : ¬ (2 * g = 0 ∨ 1 + g * (2 * (R.next s).1 - 1) = 0) := by
      rintro (h | h)
      · exact h1 (by linarith)
      · have h3 := abs_lt.1 h2
        nlinarith [hp.1, hp.2]
    simp only [if_neg this]
    split
    · exact ⟨_, _, rfl⟩
    · exact ⟨_, _, rfl⟩
  | cone t =>
    obtain ⟨h1, h2⟩ := h
    unfold Phase.draw
    simp only
    unfold cone
    rw [if_neg (by rintro (h | h); exacts [h1.not_ge h, h2.not_gt h])]
    exact ⟨_, _, rfl⟩

theorem emit_ok (hR : R.Unit) (hW : Suited S method W) {v : Fin (n + 1)} {c : Comp} (hc : c ∈ (S.node v).comps)
    (hre : Reemits c) {ray : Ray ℝ} (hw : ray.wavelength ∈ W) (s : σ) :
    ∃ ray' s', c.emit R method ray s = .ok (ray', s') ∧ ray'.wavelength ∈ W := by
  obtain ⟨d, s1, e⟩ := draw_ok hR (hW.phase v c hc hre) s
  unfold Comp.emit
  simp only [e]
  by_cases hk : c.kind = .luminophore
  · simp only [if_pos hk]
    obtain ⟨w', hw', e'⟩ := hW.emission v c hc hk _ hw (R.next s1).1 (hR s1).1 (hR s1).2
    simp only [e']
    cases truthy c.tauRad with
    | none => exact ⟨_, _, rfl, hw'⟩
    | some t => exact ⟨_, _, rfl, hw'⟩
  · simp only [if_neg hk]
    exact ⟨_, _, rfl, hw⟩

/-- What one pass of the loop may do. -/
def Fine (W : Set ℝ) : List (Step ℝ) × Next ℝ σ → Prop
  | (es, .stop) => ∃ e, es.getLast? = some e ∧ Ends e.event
  | (_, .raise _) => False
  | (_, .cont ray _) => ray.wavelength ∈ W

theorem absorb_fine (hR : R.Unit) (hW : Suited S method W) {v : Fin (n + 1)} {ray : Ray ℝ} (hw : ray.wavelength ∈ W)
    {d : ℝ} {s s' : σ} (hd : penetrationDepth R (S.node v).comps ray.wavelength s = .ok (some d, s')) :
    Fine W (absorbBody (pyOps S B R method) v ray d s') := by
  obtain ⟨cs, hcs, hlen, hpos⟩ := coefficients_ok fun c hc => hW.coefficient v c hc _ hw
  have hsum : 0 < cs.sum := by
    unfold penetrationDepth at hd
    simp only [hcs] at hd
    split_ifs at hd with ha
    · simp at hd
    have h0 := List.sum_nonneg hpos
    rw [abs_of_nonneg h0] at ha
    norm_num at ha
    linarith
  obtain ⟨i, hi, hpick, -⟩ := Material.component_total hpos hsum (hR s').1 (hR s').2
  have hi' : i < (S.node v).comps.length := by rw [← hlen]; exact hi
  set c := (S.node v).comps[i] with hc
  have hcm : c ∈ (S.node v).comps := List.getElem_mem hi'
  have hcomp : (pyOps S B R method).component v ray.wavelength s' = .ok (c, (R.next s').2) := by
    show pickComponent R (S.node v).comps ray.wavelength s' = _
    unfold pickComponent
    simp only [hcs, hpick, List.getElem?_eq_getElem hi', hc]
  have hw' : (ray.propagate d ((pyOps S B R method).refractiveIndex v)).wavelength = ray.wavelength := rfl
  have hrad : (pyOps S B R method).isRadiative c (ray.propagate d ((pyOps S B R method).refractiveIndex v))
      (R.next s').2 = .ok (c.isRadiative R (R.next s').2) := rfl
  unfold absorbBody
  simp only [hw', hcomp, hrad]
  rcases hb : c.isRadiative R (R.next s').2 with ⟨b, s2⟩
  cases b with
  | true =>
    have hre : Reemits c := by
      unfold Comp.isRadiative at hb
      unfold Reemits
      cases hk : c.kind <;> simp_all
    obtain ⟨ray', s3, e, hwl⟩ := emit_ok (method := method) hR hW hcm hre
      (ray := (ray.propagate d ((pyOps S B R method).refractiveIndex v)).representation (S.node v).w2l) hw s2
    have hemit : (pyOps S B R method).emit v c (ray.propagate d ((pyOps S B R method).refractiveIndex v)) s2 =
        .ok (ray'.representation (S.node v).l2w, s3) := by
      unfold pyOps at e ⊢
      dsimp only at e ⊢
      rw [e]
    simp only [hemit]
    have hkk : (pyOps S B R method).compKind c = c.kind := rfl
    have hno := hW.known v c hcm
    rw [hkk]
    cases hk : c.kind <;> first
      | exact hwl
      | exact absurd hk hno
  | false =>
    have hnr : (pyOps S B R method).nonradiativeAbsorb c (ray.propagate d ((pyOps S B R method).refractiveIndex v)) s2 =
        .ok (c.nonradiativeAbsorb R (ray.propagate d ((pyOps S B R method).refractiveIndex v)) s2) := rfl
    simp only [hnr]
    rcases c.nonradiativeAbsorb R (ray.propagate d ((pyOps S B R method).refractiveIndex v)) s2 with ⟨r3, s3⟩
    have hkk : (pyOps S B R method).compKind c = c.kind := rfl
    simp only [hkk]
    cases hk : c.kind <;> exact ⟨_, rfl, trivial⟩

/-! ### Surfaces -/

theorem normal_ok {g : Geom} (hp : Proper g) {p : Vec3 ℝ} (hs : OnSurface g p)
    (hb : ∀ size, g = .box size → Smooth epsZero (.box size) p) : ∃ m, pyNormal g p = .ok m := by
  cases g with
  | box s =>
    exact ⟨_, (python_normal hp (hb s rfl)).1⟩
  | sphere r => exact ⟨_, rfl⟩
  | cylinder l r =>
    unfold pyNormal
    dsimp only
    split_ifs with h1 h2 h3
    · exact ⟨_, rfl⟩
    · exact ⟨_, rfl⟩
    · exact ⟨_, rfl⟩
    · exfalso
      rcases hs with ⟨hc, hi⟩ | ⟨r', e, -⟩
      · have close : ∀ x y : ℝ, x = y → isclose x y := fun x y e => by
          unfold isclose
          rw [e, sub_self, abs_zero]
          positivity
        have hz : |p.z| < l / 2 := lt_of_le_of_ne hc.2 fun e => by
          rcases abs_choice p.z with h | h
          · exact h2 (close _ _ (by linarith))
          · exact h1 (close _ _ (by linarith))
        have hr : p.x ^ 2 + p.y ^ 2 = r ^ 2 := le_antisymm hc.1 (not_lt.1 fun h => hi ⟨h, hz⟩)
        exact h3 (close _ _ (by rw [hr, Real.sqrt_sq hp.2.le]))
      · cases e

theorem surface_fine (hR : R.Unit) (hS : Sound S) (hv : ∀ v, Visible (S.node v).geom) (hA : Arranged S)
    (hratio : ∀ v w, (S.node v).index ≤ 10000 * (S.node w).index)
    {h : HitInfo (Fin (n + 1)) ℝ} {a : Fin (n + 1)} (ha : h.adjacent = some a) {ray : Ray ℝ}
    (hd : ray.direction.dot ray.direction = 1) (hw : ray.wavelength ∈ W)
    (hon : OnSurface (S.node h.hit).geom ((S.node h.hit).w2l.point (ray.position + h.dist • ray.direction)))
    (hb : ∀ size, (S.node h.hit).geom = .box size →
      Smooth epsZero (.box size) ((S.node h.hit).w2l.point (ray.position + h.dist • ray.direction))) (s : σ) :
    Fine W (surfaceBody (pyOps S B R method) h ray s) := by
  obtain ⟨m, hm⟩ := normal_ok (hA.proper h.hit) hon hb
  have hmu := pyNormal_unit (hv h.hit) hon hm
  have hl := localDir_unit (hS.rigid h.hit) (hS.inverse h.hit) hd
  set ray1 := ray.propagate h.dist ((pyOps S B R method).refractiveIndex h.container) with hray1
  have hp1 : ray1.position = ray.position + h.dist • ray.direction := rfl
  have hnorm : (pyOps S B R method).normal h.hit ray1.position = .ok ((S.node h.hit).l2w.vec m) := by
    unfold pyOps
    dsimp only
    rw [hp1, hm]
  have hlocal : pyNormal (S.node h.hit).geom (ray1.representation (S.node h.hit).w2l).position = .ok m := hm
  have hld : (ray1.representation (S.node h.hit).w2l).direction = (S.node h.hit).localDir ray.direction := rfl
  unfold surfaceBody
  simp only [← hray1, hnorm]
  have hrefl : (pyOps S B R method).isReflected h.hit h.container (some a) ray1 s =
      S.isReflected R h.hit h.container (some a) ray1 s := rfl
  simp only [ha, hrefl]
  unfold LScene.isReflected LScene.reflectivity
  cases hk : (S.node h.hit).surface with
  | null =>
    have ht : ∀ s', (pyOps S B R method).transmit h.hit h.container (some a) ray1 s' =
        (S.node h.hit).turn ray1 (.ok (ray1.representation (S.node h.hit).w2l).direction) s' := by
      intro s'
      show (S.node h.hit).turn ray1 (S.transmitted h.hit h.container (some a) _) s' = _
      unfold LScene.transmitted
      rw [hk]
    simp only [PV.isReflected, if_true, ht, LNode.turn]
    exact hw
  | fresnel =>
    simp only [hlocal, hld]
    set r := pyReflectivity m ((S.node h.hit).localDir ray.direction) (S.node h.container).index (S.node a).index with hr
    rcases hb2 : PV.isReflected r (R.next s).1 with ⟨b, used⟩
    cases b with
    | true =>
      have ht : ∀ s', (pyOps S B R method).reflect h.hit h.container (some a) ray1 s' =
          (S.node h.hit).turn ray1 (.ok (specular ((S.node h.hit).localDir ray.direction) m)) s' := by
        intro s'
        show (S.node h.hit).turn ray1 (S.reflected h.hit _) s' = _
        unfold LScene.reflected
        rw [hk]
        simp only [hlocal, hld]
      simp only [ht, LNode.turn]
      exact hw
    | false =>
      obtain ⟨t, ht⟩ := Optics.transmit_defined (hS.index_pos h.container) (hS.index_pos a) (hratio _ _) hmu hl
        (hR s).2 (by rw [← hr, hb2])
      have ht : ∀ s', (pyOps S B R method).transmit h.hit h.container (some a) ray1 s' =
          (S.node h.hit).turn ray1 (.ok t) s' := by
        intro s'
        show (S.node h.hit).turn ray1 (S.transmitted h.hit h.container (some a) _) s' = _
        unfold LScene.transmitted
        rw [hk]
        simp only [hlocal, hld, ht]
      simp only [ht, LNode.turn]
      exact hw

/-! ### One pass, all passes -/

theorem count_le {maxsteps : ℕ} {maxpath : Option ℝ} {ray0 ray : Ray ℝ} {s0 s : σ} {count : ℕ}
    (h : Reached S B R method maxsteps maxpath ray0 s0 count ray s) : count ≤ maxsteps := by
  cases h with
  | start => omega
  | next h hb =>
    exact body_cont_steps _ _ _ (Prod.ext rfl hb)

variable (hS : Sound S) (hv : ∀ v, Visible (S.node v).geom) (hA : Arranged S) (hB : TrimeshSound B)
  (hratio : ∀ v w, (S.node v).index ≤ 10000 * (S.node w).index) (hW : Suited S method W) (hR : R.Unit)
include hS hv hA hB hratio hW hR

theorem body_fine {maxsteps : ℕ} {maxpath : Option ℝ} {count : ℕ} {ray : Ray ℝ} {s : σ}
    (hd : ray.direction.dot ray.direction = 1) (hw : ray.wavelength ∈ W) (hg : Smoothly S B ray) :
    Fine W (body (pyOps S B R method) maxsteps maxpath count ray s) := by
  have hV := valid hS hA hd hg.toGeneral
  have hRep := reports hS hv hA hB hd hg.toGeneral
  have hdb : ∀ v ∈ List.finRange (n + 1), ∀ t ∈ crossings epsZero (spanOf S ray.position ray.direction) v,
      distanceBetween ray.position (ray.position + t • ray.direction) = t := by
    intro v _ t ht
    obtain ⟨_, _, _, _, h⟩ := mem_crossings.1 ht
    exact distanceBetween_line hd (epsZero_pos.trans h).le
  obtain ⟨i, hi, -, -, -, -, -, hadj⟩ := nextHit_core hV hRep (fun t => ray.position + t • ray.direction)
    (distanceBetween ray.position) hdb
  rw [← intersections_eq hS.rigid hS.inverse B hd] at hi
  have hxs : (pyOps S B R method).intersections ray.position ray.direction =
      .ok (S.intersections B ray.position ray.direction) := rfl
  have hn : nextHit (pyOps S B R method).eps ((pyOps S B R method).distBetween ray.position)
      (S.intersections B ray.position ray.direction) = .ok (some i) := hi
  have hsees : Sees (pyOps S B R method) ray (some i) := ⟨_, hxs, hn⟩
  unfold body
  simp only [hxs, hn]
  split_ifs with h1 h2
  · exact ⟨_, rfl, trivial⟩
  · exact ⟨_, rfl, trivial⟩
  · have h2' : i.hit ≠ 0 := h2
    have hon := pyTs_on (hS.rigid _) (hS.inverse _) hB (hv _) hd (sees_hit hS.rigid hS.inverse hd hsees).1
    have hedge := hg.edge i hi h2'
    obtain ⟨a, ha⟩ : ∃ a, i.adjacent = some a := by
      rcases hadj with ⟨-, -, h⟩ | ⟨-, h⟩ | ⟨-, a, _, h, -⟩
      · exfalso
        obtain ⟨a, b, hs, h3, h4, -⟩ := hV.root_span
        exact h2' (h 0 (List.mem_finRange _) b (mem_crossings.2 ⟨a, b, hs, .inr rfl, h4⟩)).1.symm
      · exact ⟨_, h⟩
      · exact ⟨a, h⟩
    obtain ⟨cs, hcs, -⟩ := coefficients_ok fun c hc => hW.coefficient i.container c hc _ hw
    have hdep : ∃ depth s', (pyOps S B R method).penetrationDepth i.container ray.wavelength s = .ok (depth, s') := by
      show ∃ depth s', penetrationDepth R (S.node i.container).comps ray.wavelength s = .ok (depth, s')
      unfold penetrationDepth
      simp only [hcs]
      split_ifs
      · exact ⟨_, _, rfl⟩
      · exact ⟨_, _, rfl⟩
    obtain ⟨depth, s', hdep⟩ := hdep
    simp only [hdep]
    cases hab : isAbsorbed depth i.dist with
    | none => exact surface_fine hR hS hv hA hratio ha hd hw hon hedge s'
    | some d =>
      have : depth = some d := by
        unfold isAbsorbed at hab
        cases depth with
        | none => cases hab
        | some x =>
          simp only at hab
          split_ifs at hab
          exact hab
      subst this
      exact absorb_fine hR hW hw hdep

theorem loop_fine {maxsteps : ℕ} {maxpath : Option ℝ} {ray0 : Ray ℝ} {s0 : σ}
    (hgen : ∀ count ray s, Reached S B R method maxsteps maxpath ray0 s0 count ray s → Smoothly S B ray) :
    ∀ (fuel count : ℕ) (ray : Ray ℝ) (s : σ), ray.direction.dot ray.direction = 1 → ray.wavelength ∈ W →
      Reached S B R method maxsteps maxpath ray0 s0 count ray s → maxsteps < count + fuel →
      (loop (pyOps S B R method) maxsteps maxpath fuel count ray s).2 = .finished ∧
        ∃ e, (loop (pyOps S B R method) maxsteps maxpath fuel count ray s).1.getLast? = some e ∧ Ends e.event := by
  intro fuel
  induction fuel with
  | zero =>
    intro count ray s _ _ hreach hlt
    have := count_le hreach
    omega
  | succ fuel ih =>
    intro count ray s hd hw hreach hlt
    have hf := body_fine hS hv hA hB hratio hW hR (maxsteps := maxsteps) (maxpath := maxpath) (count := count + 1)
      (s := s) hd hw (hgen _ _ _ hreach)
    have hp := body_pass (pyOps S B R method) maxsteps maxpath (count + 1) ray s
    unfold loop
    rcases hb : body (pyOps S B R method) maxsteps maxpath (count + 1) ray s with ⟨es, nx⟩
    rw [hb] at hf hp
    cases nx with
    | stop => exact ⟨rfl, hf⟩
    | raise e => exact hf.elim
    | cont ray' s' =>
      obtain ⟨h1, e, h2, h3⟩ := ih (count + 1) ray' s' ((pass_on hS hv hB hp hd).2 _ _ rfl) hf
        (hreach.next (by rw [hb])) (by omega)
      exact ⟨h1, e, by simp [h2], h3⟩

/-- **C103** In a scene whose objects are nested or apart and whose materials can deal with the wavelengths that
occur, a ray in general position is traced without any exception, and its history ends with one of the four
ends. -/
theorem every_ray_ends_partial {maxsteps : ℕ} {maxpath : Option ℝ} {ray : Ray ℝ} {s : σ}
    (hd : ray.direction.dot ray.direction = 1) (hw : ray.wavelength ∈ W)
    (hgen : ∀ count ray' s', Reached S B R method maxsteps maxpath ray s count ray' s' → Smoothly S B ray') :
    ∃ h r e, follow (pyOps S B R method) maxsteps maxpath ray s = .ok h ∧ h.getLast? = some (r, e) ∧ Ends e := by
  obtain ⟨h1, e, h2, h3⟩ := loop_fine hS hv hA hB hratio hW hR hgen (maxsteps + 1) 0 ray s hd hw .start (by omega)
  unfold follow stepForward
  rcases hl : loop (pyOps S B R method) maxsteps maxpath (maxsteps + 1) 0 ray s with ⟨es, o⟩
  rw [hl] at h1 h2
  simp only at h1 h2
  subst h1
  refine ⟨_, e.ray, e.event, rfl, ?_, h3⟩
  rw [List.map_cons, List.getLast?_cons, List.getLast?_map, h2]
  rfl

end
end PV.Ending
