import Verif.Lemmas.TameScene

/-! Tracing a library scene is a measurable program. -/

namespace PV.Measured
open MeasureTheory Spec
variable {X : Type} [MeasurableSpace X] {β γ δ : Type} {n : ℕ}

/-! ### Directions -/

section Directions
variable {s : X → Numbers}

theorem cart_basic {a b : X → ℝ} (ha : Measurable a) (hb : Measurable b) :
    basic (fun x => sphericalToCart (a x) (b x)) := by
  unfold sphericalToCart
  refine ⟨_, _, _, ?_, ?_, ?_, rfl⟩ <;> fun_prop

theorem isotropic_tame (hs : Measurable s) : Tame (fun x => isotropic reader (s x)) := by
  have h1 := next_measurable hs
  have h2 := rest_measurable hs
  have h3 := next_measurable h2
  unfold isotropic
  refine Tame.pair (.of (cart_basic ?_ ?_)) (.of (rest_measurable h2)) <;> fun_prop

theorem lambertian_tame (hs : Measurable s) : Tame (fun x => lambertian reader (s x)) := by
  have h1 := next_measurable hs
  have h2 := rest_measurable hs
  have h3 := next_measurable h2
  unfold lambertian
  refine Tame.pair (.of (cart_basic ?_ ?_)) (.of (rest_measurable h2)) <;> fun_prop

theorem hg_tame (g : ℝ) (hs : Measurable s) : Tame (fun x => henyeyGreenstein reader g (s x)) := by
  have h1 := next_measurable hs
  have h2 := rest_measurable hs
  have h3 := next_measurable h2
  unfold henyeyGreenstein hgMu
  refine Tame.ite (by meas) (Tame.error _) (Tame.ite (MeasurableSet.const _) (Tame.ok (isotropic_tame h2))
    (Tame.ok (Tame.pair (.of (cart_basic ?_ ?_)) (.of (rest_measurable h2))))) <;> fun_prop

theorem cone_tame (a : ℝ) (hs : Measurable s) : Tame (fun x => cone reader a (s x)) := by
  have h1 := next_measurable hs
  have h2 := rest_measurable hs
  have h3 := next_measurable h2
  unfold cone
  refine Tame.ite (MeasurableSet.const _) (Tame.error _)
    (Tame.ok (Tame.pair (.of (cart_basic ?_ ?_)) (.of (rest_measurable h2)))) <;> fun_prop

theorem phase_tame (P : Phase) (hs : Measurable s) : Tame (fun x => P.draw reader (s x)) := by
  rcases P with _ | g | a | _
  · exact Tame.ok (isotropic_tame hs)
  · exact hg_tame g hs
  · exact cone_tame a hs
  · exact Tame.ok (lambertian_tame hs)

end Directions

/-! ### Components -/

section Components
variable {s : X → Numbers} {ray : X → Ray ℝ} {w : X → ℝ}

theorem lower_tame (D : Dist ℝ) (method : EmitMethod) (hw : Measurable w) :
    Tame (fun x => lowerLimit D method (w x)) := by
  have look : ∀ v : X → ℝ, Measurable v → Tame (fun x => (match D.lookup (v x) with
      | .error e => .error e
      | .ok none => .error .valueError
      | .ok (some p) => .ok p : Except Err ℝ)) := by
    intro v hv
    tame_step (lookup_tame D hv) with _ (⟨e, rfl⟩ | ⟨_, rfl | ⟨v, hv, rfl⟩, rfl⟩)
    · exact Tame.error e
    · exact Tame.error _
    · exact Tame.ok (.of hv)
  unfold lowerLimit
  cases method with
  | kT =>
    refine Tame.ite (by meas) (Tame.error _) (look _ ?_)
    unfold thermalShift
    fun_prop
  | boltzmann => exact Tame.error _
  | redshift => exact look _ hw
  | full => exact Tame.ok (.of measurable_const)
  | other => exact Tame.error _

theorem wavelength_tame (D : Dist ℝ) (method : EmitMethod) {u : X → ℝ} (hw : Measurable w) (hu : Measurable u) :
    Tame (fun x => emitWavelength D method (w x) (u x)) := by
  unfold emitWavelength
  tame_step (lower_tame D method hw) with _ (⟨e, rfl⟩ | ⟨p, hp, rfl⟩)
  · exact Tame.error e
  · have hp : Measurable p := hp
    have hq : Measurable (fun x => p x + (1 - p x) * u x) := by fun_prop
    tame_step (sample_tame D hq) with _ (⟨e, rfl⟩ | ⟨_, rfl | ⟨v, hv, rfl⟩, rfl⟩)
    · exact Tame.error e
    · exact Tame.error _
    · exact Tame.ok (.of hv)

theorem representation_basic (m : Affine ℝ) (h : basic ray) : basic (fun x => (ray x).representation m) := by
  obtain ⟨p, d, w, t, u, src, hp, hd, hw, ht, hu, rfl⟩ := h
  exact ⟨_, _, _, _, _, _, vec_point m hp, vec_vec m hd, hw, ht, hu, rfl⟩

theorem turn_basic (h : basic ray) {v : X → Vec3 ℝ} (hv : basic v) :
    basic (fun x => ({ ray x with direction := v x } : Ray ℝ)) := by
  obtain ⟨p, d, w, t, u, src, hp, hd, hw, ht, hu, rfl⟩ := h
  exact ⟨_, _, _, _, _, _, hp, hv, hw, ht, hu, rfl⟩

theorem propagate_basic (h : basic ray) {t : X → ℝ} (ht : Measurable t) (k : ℝ) :
    basic (fun x => (ray x).propagate (t x) k) := by
  obtain ⟨p, d, w, l, u, src, hp, hd, hw, hl, hu, rfl⟩ := h
  unfold Ray.propagate
  refine ⟨_, _, _, _, _, _, vec_add hp (vec_smul ht hd), hd, hw, hl.add ht, ?_, rfl⟩
  fun_prop

theorem emit_tame (method : EmitMethod) (c : Comp) (h : basic ray) (hs : Measurable s) :
    Tame (fun x => c.emit reader method (ray x) (s x)) := by
  obtain ⟨p, d, w, t, u, src, hp, hd, hw, ht, hu, rfl⟩ := h
  unfold Comp.emit
  tame_step (phase_tame c.phase hs) with _ (⟨e, rfl⟩ | ⟨_, ⟨v, s1, hv, hs1, rfl⟩, rfl⟩)
  · exact Tame.error e
  · have hs1 : Measurable s1 := hs1
    refine Tame.ite (MeasurableSet.const _) ?_ (Tame.ok (Tame.pair
      (.of ⟨_, _, _, _, _, _, hp, hv, hw, ht, hu, rfl⟩) (.of hs1)))
    have h2 := rest_measurable hs1
    have h3 := next_measurable h2
    tame_step (wavelength_tame c.emsDist method hw (next_measurable hs1)) with _ (⟨e, rfl⟩ | ⟨w', hw', rfl⟩)
    · exact Tame.error e
    · rcases truthy c.tauRad with _ | tau
      · exact Tame.ok (Tame.pair (.of ⟨_, _, _, _, _, _, hp, hv, hw', ht, hu, rfl⟩) (.of h2))
      · refine Tame.ok (Tame.pair (.of ⟨_, _, _, _, _, _, hp, hv, hw', ht, ?_, rfl⟩) (.of (rest_measurable h2)))
        fun_prop

theorem radiative_tame (c : Comp) (hs : Measurable s) : Tame (fun x => c.isRadiative reader (s x)) := by
  have key : Tame (fun x => (decide ((reader.next (s x)).1 < c.qy), (reader.next (s x)).2)) := by
    have h1 := next_measurable hs
    have : (fun x => (decide ((reader.next (s x)).1 < c.qy), (reader.next (s x)).2)) = fun x =>
        if (reader.next (s x)).1 < c.qy then (true, (reader.next (s x)).2) else (false, (reader.next (s x)).2) := by
      funext x
      split_ifs with h <;> simp [h]
    rw [this]
    exact Tame.ite (by meas) (Tame.pair (.of ⟨true, rfl⟩) (.of (rest_measurable hs)))
      (Tame.pair (.of ⟨false, rfl⟩) (.of (rest_measurable hs)))
  unfold Comp.isRadiative
  cases c.kind with
  | scatterer => convert key
  | luminophore => convert key
  | absorber => exact Tame.pair (.of ⟨false, rfl⟩) (.of hs)
  | reactor => exact Tame.pair (.of ⟨false, rfl⟩) (.of hs)
  | other => exact Tame.pair (.of ⟨false, rfl⟩) (.of hs)

theorem nonradiative_tame (c : Comp) (h : basic ray) (hs : Measurable s) :
    Tame (fun x => c.nonradiativeAbsorb reader (ray x) (s x)) := by
  unfold Comp.nonradiativeAbsorb
  rcases truthy c.tauNr with _ | tau
  · exact Tame.pair (.of h) (.of hs)
  · have h1 := next_measurable hs
    obtain ⟨p, d, w, t, u, src, hp, hd, hw, ht, hu, rfl⟩ := h
    refine Tame.pair (.of ⟨_, _, _, _, _, _, hp, hd, hw, ht, ?_, rfl⟩) (.of (rest_measurable hs))
    fun_prop

end Components

/-! ### Surfaces -/

section Surfaces
variable {s : X → Numbers} {ray : X → Ray ℝ} {m d : X → Vec3 ℝ}

theorem along_basic (hm : basic m) (hd : basic d) : basic (fun x => along (m x) (d x)) := by
  have := vec_dot hm hd
  unfold along
  exact Tame.vec (Tame.ite (by meas) (.of (vec_neg hm)) (.of hm))

theorem specular_basic (hm : basic m) (hd : basic d) : basic (fun x => specular (d x) (m x)) := by
  have h1 := along_basic hm hd
  have h2 := vec_dot h1 hd
  unfold specular
  exact vec_sub hd (vec_smul (by fun_prop) h1)

theorem allclose_measurable {a b : X → Vec3 ℝ} (ha : basic a) (hb : basic b) :
    MeasurableSet {x | allclose (a x) (b x)} := by
  obtain ⟨ax, ay, az, h1, h2, h3, rfl⟩ := ha
  obtain ⟨bx, bY, bz, h4, h5, h6, rfl⟩ := hb
  simp only [allclose]
  meas

theorem angle_measurable (hm : basic m) (hd : basic d) : Measurable (fun x => angleBetween (m x) (d x)) := by
  have h1 := vec_dot hm hd
  have h2 := allclose_measurable hm hd
  have h3 := allclose_measurable (vec_neg hm) hd
  have h4 : Measurable (fun x => Real.arccos ((m x).dot (d x))) := by fun_prop
  unfold angleBetween
  exact Measurable.ite h2 measurable_const (Measurable.ite h3 measurable_const h4)

theorem fresnel_tame {a : X → ℝ} (n1 n2 : ℝ) (ha : Measurable a) : Tame (fun x => fresnelR (a x) n1 n2) := by
  unfold fresnelR
  dsimp only
  refine Tame.ite (by meas) (Tame.some (.of measurable_const)) (Tame.ite (by meas) Tame.none
    (Tame.ite (by meas) Tame.none (Tame.some (.of ?_))))
  show Measurable _
  fun_prop

theorem refract_tame (n1 n2 : ℝ) (hm : basic m) (hd : basic d) : Tame (fun x => refract (d x) (m x) n1 n2) := by
  have h1 := vec_dot hd hm
  unfold refract
  dsimp only
  refine Tame.ite (by meas) Tame.none (Tame.some (.of (vec_add (vec_smul measurable_const hd) (vec_smul ?_ hm))))
  have hs : Measurable (fun x => if (d x).dot (m x) < 0 then (-1 : ℝ) else 1) :=
    Measurable.ite (by meas) measurable_const measurable_const
  exact hs.mul (Measurable.sub (f := fun x => Real.sqrt (1 - (n1 / n2) ^ 2 * (1 - (d x).dot (m x) ^ 2)))
    (by fun_prop) ((hs.mul_const (n1 / n2)).mul h1))

theorem reflectivity_tame (S : LScene n) (h c : Fin (n + 1)) (a : Option (Fin (n + 1))) (hr : basic ray) :
    Tame (fun x => S.reflectivity h c a (ray x)) := by
  unfold LScene.reflectivity
  obtain ⟨p, d, w, t, u, src, hp, hd, hw, ht, hu, rfl⟩ := hr
  cases (S.node h).surface with
  | null => exact Tame.ok (Tame.some (.of measurable_const))
  | fresnel =>
    rcases a with _ | a
    · exact Tame.error _
    · tame_step (normal_tame (S.node h).geom hp) with _ (⟨e, rfl⟩ | ⟨m, hm, rfl⟩)
      · exact Tame.error e
      · exact Tame.ok (fresnel_tame _ _ (angle_measurable (along_basic hm hd) hd))

theorem reflected_tame (S : LScene n) (h : Fin (n + 1)) (hr : basic ray) : Tame (fun x => S.reflected h (ray x)) := by
  unfold LScene.reflected
  obtain ⟨p, d, w, t, u, src, hp, hd, hw, ht, hu, rfl⟩ := hr
  cases (S.node h).surface with
  | null => exact Tame.error _
  | fresnel =>
    tame_step (normal_tame (S.node h).geom hp) with _ (⟨e, rfl⟩ | ⟨m, hm, rfl⟩)
    · exact Tame.error e
    · exact Tame.ok (.of (specular_basic hm hd))

theorem transmitted_tame (S : LScene n) (h c : Fin (n + 1)) (a : Option (Fin (n + 1))) (hr : basic ray) :
    Tame (fun x => S.transmitted h c a (ray x)) := by
  unfold LScene.transmitted
  obtain ⟨p, d, w, t, u, src, hp, hd, hw, ht, hu, rfl⟩ := hr
  cases (S.node h).surface with
  | null => exact Tame.ok (.of hd)
  | fresnel =>
    rcases a with _ | a
    · exact Tame.error _
    · tame_step (normal_tame (S.node h).geom hp) with _ (⟨e, rfl⟩ | ⟨m, hm, rfl⟩)
      · exact Tame.error e
      · unfold pyTransmit
        tame_step (refract_tame (S.node c).index (S.node a).index (along_basic hm hd) hd) with _ (rfl | ⟨v, hv, rfl⟩)
        · exact Tame.error _
        · exact Tame.ok (.of hv)

theorem isReflected_tame (S : LScene n) (h c : Fin (n + 1)) (a : Option (Fin (n + 1))) (hr : basic ray)
    (hs : Measurable s) : Tame (fun x => S.isReflected reader h c a (ray x) (s x)) := by
  have h1 := next_measurable hs
  have h2 := rest_measurable hs
  unfold LScene.isReflected
  tame_step (reflectivity_tame S h c a (representation_basic (S.node h).w2l hr)) with
    _ (⟨e, rfl⟩ | ⟨_, rfl | ⟨r, hR, rfl⟩, rfl⟩)
  · exact Tame.error e
  · simp only [PV.isReflected]
    exact Tame.ok (Tame.pair (.of ⟨false, rfl⟩) (Tame.ite (MeasurableSet.const _) (.of h2) (.of hs)))
  · have hR : Measurable r := hR
    refine Tame.ok ?_
    have e : (fun x => ((PV.isReflected (some (r x)) (reader.next (s x)).1).1,
        if (PV.isReflected (some (r x)) (reader.next (s x)).1).2 = true then (reader.next (s x)).2 else s x)) = fun x =>
        if r x = 0 then (false, s x) else if (reader.next (s x)).1 < r x then (true, (reader.next (s x)).2)
          else (false, (reader.next (s x)).2) := by
      funext x
      simp only [PV.isReflected]
      split_ifs with k1 k2 <;> simp_all
    have := Tame.ite (p := fun x => r x = 0) (by meas)
      (Tame.pair (G := s) (.of (F := fun _ => false) ⟨false, rfl⟩) (.of hs))
      (Tame.ite (p := fun x => (reader.next (s x)).1 < r x) (by meas)
        (Tame.pair (G := fun x => (reader.next (s x)).2) (.of (F := fun _ => true) ⟨true, rfl⟩) (.of h2))
        (Tame.pair (G := fun x => (reader.next (s x)).2) (.of (F := fun _ => false) ⟨false, rfl⟩) (.of h2)))
    rw [← e] at this
    exact this

theorem turned_tame (N : LNode) (hr : basic ray) {v : X → Except Err (Vec3 ℝ)} (hv : Tame v) (hs : Measurable s) :
    Tame (fun x => N.turn (ray x) (v x) (s x)) := by
  unfold LNode.turn
  tame_step hv with _ (⟨e, rfl⟩ | ⟨w, hw, rfl⟩)
  · exact Tame.error e
  · exact Tame.ok (Tame.pair (.of (representation_basic _ (turn_basic (representation_basic _ hr) hw))) (.of hs))

end Surfaces

/-! ### The loop -/

section Loop
variable {s : X → Numbers} {ray : X → Ray ℝ} (S : LScene n) {B : Trimesh} (method : EmitMethod)

theorem absorb_tame (v : Fin (n + 1)) (hr : basic ray) {t : X → ℝ} (ht : Measurable t) (hs : Measurable s) :
    Tame (fun x => Stream.absorbPass (pyOps S B reader method) v (ray x) (t x) (s x)) := by
  unfold Stream.absorbPass pyOps
  dsimp only
  have hr1 := propagate_basic hr ht (S.node v).index
  obtain ⟨p, d, w, l, u, src, hp, hd, hw, hl, hu, e⟩ := id hr1
  have e' := fun x => congrFun e x
  simp only [e']
  rw [e] at hr1
  tame_step (pick_tame (S.node v).comps hw hs) with _ (⟨e, rfl⟩ | ⟨_, ⟨_, s1, ⟨c, rfl⟩, hs1, rfl⟩, rfl⟩)
  · exact Tame.error e
  have hs1 : Measurable s1 := hs1
  tame_step (radiative_tame c hs1) with _ ⟨_, s2, ⟨b, rfl⟩, hs2, rfl⟩
  cases b with
  | true =>
    simp only [if_true]
    tame_step (emit_tame method c (representation_basic (S.node v).w2l hr1) hs2) with
      _ (⟨e, rfl⟩ | ⟨_, ⟨ray2, s3, hr2, hs3, rfl⟩, rfl⟩)
    · exact Tame.error e
    have hr3 := representation_basic (S.node v).l2w hr2
    cases c.kind with
    | other => exact Tame.error _
    | luminophore =>
      exact Tame.ok (Tame.pair (Tame.pair (Tame.two ⟨hr1, _, rfl⟩ ⟨hr3, _, rfl⟩) (Tame.some (.of hr3))) (.of hs3))
    | scatterer =>
      exact Tame.ok (Tame.pair (Tame.pair (Tame.two ⟨hr1, _, rfl⟩ ⟨hr3, _, rfl⟩) (Tame.some (.of hr3))) (.of hs3))
    | absorber =>
      exact Tame.ok (Tame.pair (Tame.pair (Tame.two ⟨hr1, _, rfl⟩ ⟨hr3, _, rfl⟩) (Tame.some (.of hr3))) (.of hs3))
    | reactor =>
      exact Tame.ok (Tame.pair (Tame.pair (Tame.two ⟨hr1, _, rfl⟩ ⟨hr3, _, rfl⟩) (Tame.some (.of hr3))) (.of hs3))
  | false =>
    simp only [Bool.false_eq_true, if_false]
    tame_step (nonradiative_tame c hr1 hs2) with _ ⟨ray2, s3, hr2, hs3, rfl⟩
    cases c.kind <;>
    exact Tame.ok (Tame.pair (Tame.pair (Tame.two ⟨hr1, _, rfl⟩ ⟨hr2, _, rfl⟩) Tame.none) (.of hs3))

theorem interface_tame {h : X → HitInfo (Fin (n + 1)) ℝ} (hh : basic h) (hr : basic ray) (hs : Measurable s) :
    Tame (fun x => Stream.surfacePass (pyOps S B reader method) (h x) (ray x) (s x)) := by
  obtain ⟨v, c, a, q, t, hq, ht, rfl⟩ := hh
  unfold Stream.surfacePass pyOps
  dsimp only
  have hr1 := propagate_basic hr ht (S.node c).index
  obtain ⟨p, d, w, l, u, src, hp, hd, hw, hl, hu, e⟩ := id hr1
  have e' := fun x => congrFun e x
  simp only [e']
  rw [e] at hr1
  tame_step (normal_tame (S.node v).geom (vec_point (S.node v).w2l hp)) with _ (⟨e, rfl⟩ | ⟨m, hm, rfl⟩)
  · exact Tame.error e
  tame_step (isReflected_tame S v c a hr1 hs) with _ (⟨e, rfl⟩ | ⟨_, ⟨_, s2, ⟨b, rfl⟩, hs2, rfl⟩, rfl⟩)
  · exact Tame.error e
  cases b with
  | true =>
    simp only [if_true]
    tame_step (turned_tame (S.node v) hr1 (reflected_tame S v (representation_basic (S.node v).w2l hr1)) hs2) with
      _ (⟨e, rfl⟩ | ⟨_, ⟨ray2, s3, hr2, hs3, rfl⟩, rfl⟩)
    · exact Tame.error e
    · exact Tame.ok (Tame.pair (Tame.pair (Tame.one ⟨hr2, _, rfl⟩) (Tame.some (.of hr2))) (.of hs3))
  | false =>
    simp only [Bool.false_eq_true, if_false]
    tame_step (turned_tame (S.node v) hr1 (transmitted_tame S v c a (representation_basic (S.node v).w2l hr1)) hs2) with
      _ (⟨e, rfl⟩ | ⟨_, ⟨ray2, s3, hr2, hs3, rfl⟩, rfl⟩)
    · exact Tame.error e
    · cases a with
      | none => exact Tame.error _
      | some a => exact Tame.ok (Tame.pair (Tame.pair (Tame.one ⟨hr2, _, rfl⟩) (Tame.some (.of hr2))) (.of hs3))

theorem pass_tame (hB : MeasurableMesh B) (maxsteps : ℕ) (maxpath : Option ℝ) (count : ℕ) (hr : basic ray)
    (hs : Measurable s) :
    Tame (fun x => Stream.pass (pyOps S B reader method) maxsteps maxpath count (ray x) (s x)) := by
  obtain ⟨p, d, w, l, u, src, hp, hd, hw, hl, hu, rfl⟩ := id hr
  unfold Stream.pass
  have hi : Tame (fun x => (pyOps S B reader method).intersections (p x) (d x)) :=
    Tame.ok (intersections_tame hB S hp hd)
  tame_step hi with _ (⟨e, rfl⟩ | ⟨xs, hxs, rfl⟩)
  · exact Tame.error e
  have hd : ∀ q : X → Vec3 ℝ, basic q → Measurable (fun x => (pyOps S B reader method).distBetween (p x) (q x)) :=
    fun q hq => vec_norm (vec_sub hp hq)
  tame_step (nextHit_tame (pyOps S B reader method).eps hd hxs) with _ (⟨e, rfl⟩ | ⟨_, rfl | ⟨h, hh, rfl⟩, rfl⟩)
  · exact Tame.error e
  · exact Tame.ok (Tame.pair (Tame.pair Tame.nil Tame.none) (.of hs))
  obtain ⟨v, c, a, q, t, hq, ht, rfl⟩ := id hh
  dsimp only
  refine Tame.ite ?_ (Tame.ok (Tame.pair (Tame.pair (Tame.one ⟨hr, _, rfl⟩) Tame.none) (.of hs)))
    (Tame.ite (MeasurableSet.const _)
      (Tame.ok (Tame.pair (Tame.pair (Tame.one ⟨propagate_basic hr ht _, _, rfl⟩) Tame.none) (.of hs))) ?_)
  · cases maxpath with
    | none => simp only [beyond]; meas
    | some m => simp only [beyond, decide_eq_true_eq]; meas
  have hdp : Tame (fun x => (pyOps S B reader method).penetrationDepth c (w x) (s x)) :=
    depth_tame (S.node c).comps hw hs
  tame_step hdp with _ (⟨e, rfl⟩ | ⟨_, ⟨_, s1, rfl | ⟨depth, hdepth, rfl⟩, hs1, rfl⟩, rfl⟩)
  · exact Tame.error e
  · exact interface_tame S method hh hr hs1
  · have hdepth : Measurable depth := hdepth
    have ht : Measurable t := ht
    have hia : Tame (fun x => isAbsorbed (some (depth x)) (t x)) := by
      simp only [isAbsorbed]
      exact Tame.ite (by meas) (Tame.some (.of hdepth)) Tame.none
    tame_step hia with _ (rfl | ⟨k, hk, rfl⟩)
    · exact interface_tame S method hh hr hs1
    · exact absorb_tame S method c hr hk hs1

theorem passes_tame (hB : MeasurableMesh B) (maxsteps : ℕ) (maxpath : Option ℝ) (fuel : ℕ) :
    ∀ (count : ℕ) {ray : X → Ray ℝ} {s : X → Numbers}, basic ray → Measurable s →
      Tame (fun x => Stream.passes (pyOps S B reader method) maxsteps maxpath fuel count (ray x) (s x)) := by
  induction fuel with
  | zero => exact fun _ _ _ _ _ => Tame.error _
  | succ fuel ih =>
    intro count ray s hr hs
    unfold Stream.passes
    tame_step (pass_tame S method hB maxsteps maxpath (count + 1) hr hs) with
      _ (⟨e, rfl⟩ | ⟨_, ⟨_, s1, ⟨es, _, hes, rfl | ⟨ray1, hr1, rfl⟩, rfl⟩, hs1, rfl⟩, rfl⟩)
    · exact Tame.error e
    · exact Tame.ok (Tame.pair (.of hes) (.of hs1))
    · tame_step (ih (count + 1) hr1 hs1) with _ (⟨e, rfl⟩ | ⟨_, ⟨es', s2, hes', hs2, rfl⟩, rfl⟩)
      · exact Tame.error e
      · exact Tame.ok (Tame.pair (Tame.append (.of hes) (.of hes')) (.of hs2))

theorem follow_tame (hB : MeasurableMesh B) (maxsteps : ℕ) (maxpath : Option ℝ) (hr : basic ray) (hs : Measurable s) :
    Tame (fun x => Stream.follow (pyOps S B reader method) maxsteps maxpath (ray x) (s x)) := by
  unfold Stream.follow
  tame_step (passes_tame S method hB maxsteps maxpath (maxsteps + 1) 0 hr hs) with
    _ (⟨e, rfl⟩ | ⟨_, ⟨es, s1, hes, hs1, rfl⟩, rfl⟩)
  · exact Tame.error e
  · refine Tame.ok (Tame.pair (Tame.cons (Tame.pair (.of hr) (.of ⟨_, rfl⟩)) (Tame.map (.of hes) ?_)) (.of hs1))
    rintro f ⟨h1, h2⟩
    exact Tame.pair (.of h1) (.of h2)

end Loop

/-! ### Lights -/

/-- A program of the user that reads the stream measurably. -/
def Program [Shape γ] (f : Numbers → Except Err (γ × Numbers)) : Prop :=
  ∀ {X : Type} [MeasurableSpace X] (s : X → Numbers), Measurable s → Tame (fun x => f (s x))

/-- The light's own delegates are measurable, if it has any. -/
def Regular (L : Light.Lamp) : Prop :=
  (∀ f, L.wavelength = .custom f → Program f) ∧ (∀ f, L.position = .custom f → Program f) ∧
    ∀ f, L.direction = .custom f → Program f

section Lights
variable {s : X → Numbers}

theorem wave_tame (W : Light.Wave) (h : ∀ f, W = .custom f → Program f) (hs : Measurable s) :
    Tame (fun x => W.call (s x)) := by
  cases W with
  | default => exact Tame.ok (Tame.pair (Tame.some (.of measurable_const)) (.of hs))
  | constant nm => exact Tame.ok (Tame.pair (Tame.some (.of measurable_const)) (.of hs))
  | spectrum D =>
    have h1 := next_measurable hs
    have hu : Measurable (fun x => 0 + (1 - 0) * (reader.next (s x)).1) := by fun_prop
    show Tame (fun x => (match D.sample (0 + (1 - 0) * (reader.next (s x)).1) with
        | .error e => .error e
        | .ok nm => .ok (nm, (reader.next (s x)).2) : Except Err (Option ℝ × Numbers)))
    tame_step (sample_tame D hu) with _ (⟨e, rfl⟩ | ⟨nm, hnm, rfl⟩)
    · exact Tame.error e
    · exact Tame.ok (Tame.pair (.of hnm) (.of (rest_measurable hs)))
  | custom f => exact h f rfl s hs

theorem place_tame (W : Light.Place) (h : ∀ f, W = .custom f → Program f) (hs : Measurable s) :
    Tame (fun x => W.call (s x)) := by
  have h1 := next_measurable hs
  have h2 := rest_measurable hs
  have h3 := next_measurable h2
  have h4 := rest_measurable h2
  have h5 := next_measurable h4
  have h6 := rest_measurable h4
  cases W with
  | default => exact Tame.ok (Tame.pair (.of (vec_const _)) (.of hs))
  | rect x y =>
    refine Tame.ok (Tame.pair (F := fun a => (⟨-x + (x - -x) * (reader.next (s a)).1,
      -y + (y - -y) * (reader.next (reader.next (s a)).2).1, 0⟩ : Vec3 ℝ)) (.of ⟨_, _, _, ?_, ?_, ?_, rfl⟩) (.of h4)) <;>
    fun_prop
  | circle r =>
    refine Tame.ok (Tame.pair (F := fun a => (⟨√(0 + (1 - 0) * (reader.next (reader.next (s a)).2).1) * r *
        Real.cos (0 + (2 * Real.pi - 0) * (reader.next (s a)).1),
      √(0 + (1 - 0) * (reader.next (reader.next (s a)).2).1) * r *
        Real.sin (0 + (2 * Real.pi - 0) * (reader.next (s a)).1), 0⟩ : Vec3 ℝ))
      (.of ⟨_, _, _, ?_, ?_, ?_, rfl⟩) (.of h4)) <;>
    fun_prop
  | cube x y z =>
    refine Tame.ok (Tame.pair (F := fun a => (⟨-x + (x - -x) * (reader.next (s a)).1,
      -y + (y - -y) * (reader.next (reader.next (s a)).2).1,
      -z + (z - -z) * (reader.next (reader.next (reader.next (s a)).2).2).1⟩ : Vec3 ℝ))
      (.of ⟨_, _, _, ?_, ?_, ?_, rfl⟩) (.of h6)) <;>
    fun_prop
  | custom f => exact h f rfl s hs

theorem aim_tame (W : Light.Aim) (h : ∀ f, W = .custom f → Program f) (hs : Measurable s) :
    Tame (fun x => W.call (s x)) := by
  cases W with
  | default => exact Tame.ok (Tame.pair (.of (vec_const _)) (.of hs))
  | phase P => exact phase_tame P hs
  | custom f => exact h f rfl s hs

theorem launch_tame (L : Light.Lamp) (h : Regular L) (hs : Measurable s) : Tame (fun x => Stream.launch L (s x)) := by
  unfold Stream.launch Light.Lamp.one
  refine Tame.elim (wave_tame L.wavelength h.1 hs) ?_
  rintro _ (⟨e, rfl⟩ | ⟨_, ⟨nm, s1, hnm, hs1, rfl⟩, rfl⟩)
  · exact ⟨_, Tame.error e, fun x hx => by simp only [hx]⟩
  refine ⟨_, ?_, fun x hx => by simp only [hx]; rfl⟩
  refine Tame.elim (place_tame L.position h.2.1 hs1) ?_
  rintro _ (⟨e, rfl⟩ | ⟨_, ⟨p, s2, hp, hs2, rfl⟩, rfl⟩)
  · exact ⟨_, Tame.error e, fun x hx => by simp only [hx]⟩
  refine ⟨_, ?_, fun x hx => by simp only [hx]; rfl⟩
  refine Tame.elim (aim_tame L.direction h.2.2 hs2) ?_
  rintro _ (⟨e, rfl⟩ | ⟨_, ⟨d, s3, hd, hs3, rfl⟩, rfl⟩)
  · exact ⟨_, Tame.error e, fun x hx => by simp only [hx]⟩
  refine ⟨_, ?_, fun x hx => by simp only [hx]; rfl⟩
  simp only [Light.Emitted.representation, Stream.launched]
  rcases hnm with rfl | ⟨w, hw, rfl⟩
  · exact Tame.error _
  · exact Tame.ok (Tame.pair (.of ⟨_, _, _, _, _, _, vec_point _ hp, vec_vec _ hd, hw, measurable_const,
      measurable_const, rfl⟩) (.of hs3))

theorem throw_tame (lamps : List Light.Lamp) (hl : ∀ L ∈ lamps, Regular L) (S : LScene n) {B : Trimesh}
    (hB : MeasurableMesh B) (method : EmitMethod) (maxsteps : ℕ) (maxpath : Option ℝ) (seeded : ℕ → Numbers)
    (idx : ℕ) (hs : Measurable s) :
    Tame (fun x => Stream.throw (Stream.stage lamps S B method maxsteps maxpath seeded) idx (s x)) := by
  have h : Tame (fun x => Simulate.emitAt (Stream.stage lamps S B method maxsteps maxpath seeded) idx (s x)) := by
    unfold Simulate.emitAt
    show Tame (fun x => if lamps.length = 0 then _ else _)
    refine Tame.ite (MeasurableSet.const _) (Tame.error _) ?_
    dsimp only [Stream.stage]
    cases hi : lamps[idx % lamps.length]? with
    | none => exact Tame.error _
    | some l => exact launch_tame l (hl l (List.mem_of_getElem? hi)) hs
  unfold Stream.throw
  tame_step h with _ (⟨e, rfl⟩ | ⟨_, ⟨ray, s1, hr, hs1, rfl⟩, rfl⟩)
  · exact Tame.error e
  · exact follow_tame S method hB maxsteps maxpath hr hs1

end Lights

end PV.Measured
