import Verif.Props.LibraryPath
import Verif.Lemmas.EscapeCone

/-!
C95: guided light. A ray that is reflected inside a box or a rod keeps its angles to the faces, so it can
leave through a face only if it was inside the escape cone of that face from the start.
-/

namespace PV.Waveguide
open PV PV.Library PV.Tracer
noncomputable section
open Classical
variable {σ : Type} {n : ℕ}

/-- The faces of a box are perpendicular to the three axes, the ends of a cylinder to the third. -/
def Axial : Geom → Fin 3 → Prop
  | .box _, _ => True
  | .cylinder _ _, i => i = 2
  | .sphere _, _ => False

/-- The direction of a ray in the frame of a node. -/
def inFrame (N : LNode) (e : Step ℝ) : Vec3 ℝ := N.w2l.vec e.ray.direction

/-- A reflection at the surface of the node. -/
def BouncesAt (N : LNode) (e : Step ℝ) : Prop := e.event = .reflect ∧ e.info.hit = some N.name

/-- `e` is a transmission through a face of the node perpendicular to the axis, out of `c` into `u`. -/
structure Crosses (N : LNode) (i : Fin 3) (c u : LNode) (e : Step ℝ) : Prop where
  event : e.event = .transmit
  hit : e.info.hit = some N.name
  container : e.info.container = some c.name
  adjacent : e.info.adjacent = some u.name
  normal : ∃ s : ℝ, (s = 1 ∨ s = -1) ∧ e.info.normal = some (N.l2w.vec (axisNormal i s))

/-- The normals of a box or rod are along or perpendicular to its axes. -/
theorem normal_axis {g : Geom} {i : Fin 3} (hg : Axial g i) {p m : Vec3 ℝ} (h : pyNormal g p = .ok m) :
    m.get i = 0 ∨ m = axisNormal i 1 ∨ m = axisNormal i (-1) := by
  cases g with
  | box s =>
    simp only [pyNormal] at h
    split at h
    · split at h
      · rename_i k hk
        cases h
        have := List.mem_of_getElem? hk
        simp only [boxNormals, List.mem_cons, List.not_mem_nil, or_false] at this
        rcases this with rfl | rfl | rfl | rfl | rfl | rfl <;> fin_cases i <;> simp [Vec3.get, axisNormal]
      · cases h
    · cases h
  | sphere r => exact hg.elim
  | cylinder l r =>
    obtain rfl : i = 2 := hg
    simp only [pyNormal] at h
    split_ifs at h
    · cases h; simp [Vec3.get, axisNormal]
    · cases h; simp [Vec3.get, axisNormal]
    · cases h; simp [Vec3.get]

/-- Reflection at such a face keeps the component along the axis up to its sign. -/
theorem specular_keeps {i : Fin 3} {m : Vec3 ℝ} (h : m.get i = 0 ∨ m = axisNormal i 1 ∨ m = axisNormal i (-1))
    (d : Vec3 ℝ) : (specular d m).get i ^ 2 = d.get i ^ 2 := by
  rw [Optics.specular_eq]
  have hg : ∀ (a b : Vec3 ℝ) (k : ℝ), (a - k • b).get i = a.get i - k * b.get i := by
    intro a b k; fin_cases i <;> simp [Vec3.get]
  rw [hg]
  rcases h with h | rfl | rfl
  · rw [h]; ring
  · have : (axisNormal i (1 : ℝ)).dot d = d.get i := by
      fin_cases i <;> simp [Vec3.get, axisNormal, Vec3.dot]
    rw [this, show (axisNormal i (1 : ℝ)).get i = 1 by fin_cases i <;> simp [Vec3.get, axisNormal]]
    ring
  · have : (axisNormal i (-1 : ℝ)).dot d = -d.get i := by
      fin_cases i <;> simp [Vec3.get, axisNormal, Vec3.dot]
    rw [this, show (axisNormal i (-1 : ℝ)).get i = -1 by fin_cases i <;> simp [Vec3.get, axisNormal]]
    ring

/-- What consecutive events do to the angle with an axis of the node. -/
structure Turn (S : LScene n) (v : Fin (n + 1)) (i : Fin 3) (a b : Step ℝ) : Prop where
  bounce : BouncesAt (S.node v) b → (inFrame (S.node v) b).get i ^ 2 = (inFrame (S.node v) a).get i ^ 2
  cross : ∀ c u, Crosses (S.node v) i (S.node c) (S.node u) b →
    (S.node c).index ^ 2 * (1 - (inFrame (S.node v) a).get i ^ 2) ≤ (S.node u).index ^ 2

section
variable {S : LScene n} (hS : Sound S) (hv : ∀ v, Visible (S.node v).geom)
  (hname : ∀ v w, (S.node v).name = (S.node w).name → v = w)
  (hratio : ∀ v w, (S.node v).index ≤ 10000 * (S.node w).index) {B : Trimesh} (hB : TrimeshSound B)
  {R : Rand σ} (hR : R.Unit) {method : EmitMethod} {v : Fin (n + 1)} {i : Fin 3}
  (hg : Axial (S.node v).geom i) (hf : (S.node v).surface = .fresnel)
include hS hname hg

theorem turn_other {a b : Step ℝ} (h : b.event ≠ .reflect) (h' : b.event ≠ .transmit) : Turn S v i a b :=
  ⟨fun hb => absurd hb.1 h, fun _ _ hc => absurd hc.event h'⟩

theorem turn_reflect {maxsteps : ℕ} {maxpath : Option ℝ} {count : ℕ} {ray ray' : Ray ℝ} {s s' s'' s''' : σ}
    {h : HitInfo (Fin (n + 1)) ℝ} {m : Vec3 ℝ} (hT : Touches (pyOps S B R method) maxsteps maxpath count ray s h m s')
    (he : (pyOps S B R method).reflect h.hit h.container h.adjacent
      (ray.propagate h.dist ((pyOps S B R method).refractiveIndex h.container)) s'' = .ok (ray', s'''))
    {a : Step ℝ} (ha : a.ray = ray) :
    Turn S v i a ⟨ray', .reflect, surfInfo (pyOps S B R method) h m⟩ := by
  refine ⟨fun hb => ?_, fun _ _ hc => (by cases hc.event)⟩
  have hh : h.hit = v := by
    have := hb.2
    simp only [surfInfo, pyOps, Option.some.injEq] at this
    exact hname _ _ this
  simp only [pyOps, LNode.turn, LScene.reflected, hh] at he
  cases hsf : (S.node v).surface with
  | null => rw [hsf] at he; cases he
  | fresnel =>
    rw [hsf] at he
    cases hn : pyNormal (S.node v).geom
        ((S.node v).w2l.point (ray.position + h.dist • ray.direction)) with
    | error e =>
      simp only [Ray.representation, Ray.propagate, hn] at he
      cases he
    | ok m' =>
      simp only [Ray.representation, Ray.propagate, hn, Except.ok.injEq, Prod.mk.injEq] at he
      unfold inFrame
      rw [← he.1, ha]
      simp only
      rw [(hS.inverse v).2]
      exact specular_keeps (normal_axis hg hn) _

include hR hf hratio in
theorem turn_transmit {maxsteps : ℕ} {maxpath : Option ℝ} {count : ℕ} {ray ray' : Ray ℝ} {s s' s'' : σ}
    {h : HitInfo (Fin (n + 1)) ℝ} {m : Vec3 ℝ} (hT : Touches (pyOps S B R method) maxsteps maxpath count ray s h m s')
    (hr : (pyOps S B R method).isReflected h.hit h.container h.adjacent
      (ray.propagate h.dist ((pyOps S B R method).refractiveIndex h.container)) s' = .ok (false, s''))
    (hd : ray.direction.dot ray.direction = 1) {a : Step ℝ} (ha : a.ray = ray) :
    Turn S v i a ⟨ray', .transmit, surfInfo (pyOps S B R method) h m⟩ := by
  refine ⟨fun hb => (by cases hb.1), fun c u hc => ?_⟩
  have hh : h.hit = v := by
    have := hc.hit
    simp only [surfInfo, pyOps, Option.some.injEq] at this
    exact hname _ _ this
  have hcc : h.container = c := by
    have := hc.container
    simp only [surfInfo, pyOps, Option.some.injEq] at this
    exact hname _ _ this
  have hu : h.adjacent = some u := by
    have := hc.adjacent
    simp only [surfInfo, pyOps, Option.map_eq_some_iff] at this
    obtain ⟨w, hw, e⟩ := this
    rw [hw, hname _ _ e]
  obtain ⟨k, hk, hnorm⟩ := hc.normal
  simp only [surfInfo, Option.some.injEq] at hnorm
  have hn := hT.normal
  simp only [pyOps, hh, Ray.propagate] at hn
  cases hpn : pyNormal (S.node v).geom ((S.node v).w2l.point (ray.position + h.dist • ray.direction)) with
  | error e => rw [hpn] at hn; cases hn
  | ok m' =>
    rw [hpn] at hn
    simp only [Except.ok.injEq] at hn
    have hm : m' = axisNormal i k := by
      rw [← (hS.inverse v).2 m', hn, hnorm, (hS.inverse v).2]
    subst hm
    simp only [pyOps, LScene.isReflected, hh, hcc, hu, LScene.reflectivity, hf, Ray.representation,
      Ray.propagate, hpn, Except.ok.injEq, Prod.mk.injEq] at hr
    unfold inFrame
    rw [ha]
    by_contra hlt
    push Not at hlt
    have hun : (axisNormal i k).dot (axisNormal i k) = 1 := by
      rcases hk with rfl | rfl <;> fin_cases i <;> simp [axisNormal, Vec3.dot]
    have hdot : ((S.node v).w2l.vec ray.direction).dot (axisNormal i k) ^ 2 =
        ((S.node v).w2l.vec ray.direction).get i ^ 2 := by
      rcases hk with rfl | rfl <;> fin_cases i <;> simp [axisNormal, Vec3.dot, Vec3.get]
    have := (Optics.tir_always_reflects (u := (R.next s').1) (hS.index_pos c) (hS.index_pos u) hun
      (localDir_unit (hS.rigid v) (hS.inverse v) hd) (hR s').2
      (show _ < (S.node c).index ^ 2 * (1 - ((S.node v).w2l.vec ray.direction).dot (axisNormal i k) ^ 2) by
        rw [hdot]; exact hlt)).2 (hratio c u)
    unfold LNode.localDir at this
    rw [this] at hr
    cases hr.1

include hv hratio hB hR hf

theorem loop_turns (maxsteps : ℕ) (maxpath : Option ℝ) (fuel count : ℕ) (ray : Ray ℝ) (s : σ)
    (hd : ray.direction.dot ray.direction = 1) : ∀ prev : Step ℝ, prev.ray = ray →
      List.IsChain (Turn S v i)
        (prev :: (loop (pyOps S B R method) maxsteps maxpath fuel count ray s).1) := by
  refine loop_induct (pyOps S B R method) maxsteps maxpath
    (fun _ _ ray es _ => ray.direction.dot ray.direction = 1 → ∀ prev : Step ℝ, prev.ray = ray →
      List.IsChain (Turn S v i) (prev :: es)) ?_ ?_ ?_ ?_ fuel count ray s hd
  · intros; simp
  · intro fuel count ray s es hp hd prev hprev
    have other := fun (a b : Step ℝ) => turn_other hS hname hg (a := a) (b := b)
    cases hp with
    | miss => simp
    | kill h hs => simpa using other _ _ (by simp) (by simp)
    | exit h hl hr => simpa using other _ _ (by simp) (by simp)
    | decay h d comp s' s'' s''' ray' ev hA hr he hev =>
      simp only [List.isChain_cons_cons, List.IsChain.singleton, and_true]
      exact ⟨other _ _ (by simp) (by simp), by
        rcases hev with ⟨rfl, _⟩ | ⟨rfl, _⟩ <;> exact other _ _ (by simp) (by simp)⟩
  · intro fuel count ray s es e hp hd prev hprev
    cases hp with
    | raise => simp
    | absorbRaise h d comp s' e hA => simpa using turn_other hS hname hg (by simp) (by simp)
  · intro fuel count ray s es ray' s' es' o hp ih hd prev hprev
    have hd' := (pass_on hS hv hB hp hd).2 _ _ rfl
    have other := fun (a b : Step ℝ) => turn_other hS hname hg (a := a) (b := b)
    cases hp with
    | radiate h d comp s' s'' s''' ray' ev hA hr he hev =>
      simp only [List.cons_append, List.nil_append, List.isChain_cons_cons]
      exact ⟨other _ _ (by simp) (by simp), by
        rcases hev with ⟨rfl, _⟩ | ⟨rfl, _⟩ <;> exact other _ _ (by simp) (by simp), ih hd' _ rfl⟩
    | reflect h m s' s'' s''' ray' hT _ he =>
      simp only [List.cons_append, List.nil_append, List.isChain_cons_cons]
      exact ⟨turn_reflect hS hname hg hT he hprev, ih hd' _ rfl⟩
    | transmit h m s' s'' s''' ray' hT _ hr he =>
      simp only [List.cons_append, List.nil_append, List.isChain_cons_cons]
      exact ⟨turn_transmit hS hname hratio hR hg hf hT hr hd hprev, ih hd' _ rfl⟩

/-- **C95.** In every history: if a ray crosses a face of a box, or an end of a rod, after any number of
reflections inside or outside it, then the direction it had before them all was already inside the escape
cone of that face: `n₁ sin θ ≤ n₂` for its angle `θ` with the normal of the face. -/
theorem leaves_in_cone (maxsteps : ℕ) (maxpath : Option ℝ) (ray : Ray ℝ) (s : σ)
    (hd : ray.direction.dot ray.direction = 1) {j k : ℕ} (hjk : j < k) {a b : Step ℝ}
    (ha : (run S B R method maxsteps maxpath ray s)[j]? = some a)
    (hb : (run S B R method maxsteps maxpath ray s)[k]? = some b)
    (between : ∀ l e, j < l → l < k → (run S B R method maxsteps maxpath ray s)[l]? = some e →
      BouncesAt (S.node v) e) {c u : Fin (n + 1)} (hc : Crosses (S.node v) i (S.node c) (S.node u) b) :
    (S.node c).index ^ 2 * (1 - (inFrame (S.node v) a).get i ^ 2) ≤ (S.node u).index ^ 2 := by
  have chain : List.IsChain (Turn S v i) (run S B R method maxsteps maxpath ray s) :=
    loop_turns hS hv hname hratio hB hR hg hf maxsteps maxpath _ _ ray s hd ⟨ray, .generate, {}⟩ rfl
  generalize run S B R method maxsteps maxpath ray s = H at *
  -- the last event before the crossing has the same angle
  have keep : ∀ l, j ≤ l → l < k → ∃ e, H[l]? = some e ∧
      (inFrame (S.node v) e).get i ^ 2 = (inFrame (S.node v) a).get i ^ 2 := by
    intro l hl
    induction l, hl using Nat.le_induction with
    | base => exact fun _ => ⟨a, ha, rfl⟩
    | succ l hl ih =>
      intro hlt
      obtain ⟨e, he, h1⟩ := ih (by omega)
      have hlen : l + 1 < H.length := by
        have := (List.getElem?_eq_some_iff.1 hb).1; omega
      have he' : H[l + 1]? = some H[l + 1] := List.getElem?_eq_getElem hlen
      refine ⟨_, he', ?_⟩
      rw [← h1]
      exact (isChain_getElem? chain he he').bounce (between _ _ (by omega) hlt he')
  obtain ⟨e, he, h1⟩ := keep (k - 1) (by omega) (by omega)
  rw [← h1]
  refine (isChain_getElem? chain he (b := b) ?_).cross c u hc
  rw [show k - 1 + 1 = k by omega]
  exact hb

end

/-- **C95.** The direction of light emitted or scattered by a component is the one drawn from its phase
function, seen in the frame of the object it is in. -/
theorem emitted_in_frame {S : LScene n} (hS : Sound S) (B : Trimesh) (R : Rand σ) (method : EmitMethod)
    (maxsteps : ℕ) (maxpath : Option ℝ) (ray : Ray ℝ) (s : σ) {e : Step ℝ}
    (he : e ∈ run S B R method maxsteps maxpath ray s) (hev : e.event = .emit ∨ e.event = .scatter) :
    ∃ c, ∃ comp ∈ (S.node c).comps, ∃ t t', e.info.container = some (S.node c).name ∧
      e.info.component = some comp.name ∧ comp.phase.draw R t = .ok (inFrame (S.node c) e, t') := by
  let P : Step ℝ → Prop := fun e => e.event = .emit ∨ e.event = .scatter →
    ∃ c, ∃ comp ∈ (S.node c).comps, ∃ t t', e.info.container = some (S.node c).name ∧
      e.info.component = some comp.name ∧ comp.phase.draw R t = .ok (inFrame (S.node c) e, t')
  have key : ∀ e ∈ (loop (pyOps S B R method) maxsteps maxpath (maxsteps + 1) 0 ray s).1, P e := by
    refine loop_induct (pyOps S B R method) maxsteps maxpath
      (fun _ _ _ es _ => ∀ e ∈ es, P e) ?_ ?_ ?_ ?_ _ 0 ray s
    · simp
    · intro fuel count ray s es hp e hm hev
      cases hp with
      | miss => cases hm
      | kill h => rw [List.mem_singleton] at hm; subst hm; simp at hev
      | exit h => rw [List.mem_singleton] at hm; subst hm; simp at hev
      | decay h d comp s' s'' s''' ray' ev _ _ _ hd =>
        simp only [List.mem_cons, List.not_mem_nil, or_false] at hm
        rcases hm with rfl | rfl
        · simp at hev
        · rcases hd with ⟨rfl, -⟩ | ⟨rfl, -⟩ <;> simp at hev
    · intro fuel count ray s es er hp e hm hev
      cases hp with
      | raise => cases hm
      | absorbRaise h => rw [List.mem_singleton] at hm; subst hm; simp at hev
    · intro fuel count ray s es ray' s' es' o hp ih e hm hev
      rcases List.mem_append.1 hm with hm | hm
      · cases hp with
        | radiate h d comp s1 s2 s3 ray' ev hA _ hem _ =>
          simp only [List.mem_cons, List.not_mem_nil, or_false] at hm
          rcases hm with rfl | rfl
          · simp at hev
          · obtain ⟨s4, -, hpick⟩ := hA.depth
            have hmem : comp ∈ (S.node h.container).comps := pickComponent_mem hpick
            refine ⟨h.container, comp, hmem, s2, ?_⟩
            simp only [pyOps] at hem
            split at hem
            · cases hem
            rename_i r1 s5 hc
            simp only [Except.ok.injEq, Prod.mk.injEq] at hem
            unfold Comp.emit at hc
            split at hc
            · cases hc
            rename_i dir s6 hdr
            refine ⟨s6, rfl, rfl, ?_⟩
            rw [hdr]
            have hin : inFrame (S.node h.container)
                ⟨ray', ev, volInfo (pyOps S B R method) h.container comp⟩ = r1.direction := by
              unfold inFrame
              rw [← hem.1]
              exact (hS.inverse _).2 _
            have hdir : r1.direction = dir := by
              split_ifs at hc
              · dsimp only at hc
                split at hc
                · cases hc
                split at hc <;> cases hc <;> rfl
              · cases hc; rfl
            rw [hin, hdir]
        | reflect h => rw [List.mem_singleton] at hm; subst hm; simp at hev
        | transmit h => rw [List.mem_singleton] at hm; subst hm; simp at hev
      · exact ih e hm hev
  simp only [run, stepForward, List.mem_cons] at he
  rcases he with rfl | he
  · simp at hev
  · exact key e he hev

/-! ### Shares -/

section shares
open MeasureTheory Set Spec Directions
open scoped ENNReal

/-- The direction is in the escape cone of a face perpendicular to axis `i`, from index `n1` to `n2`. -/
def InCone (n1 n2 : ℝ) (i : Fin 3) (d : Vec3 ℝ) : Prop := n1 ^ 2 * (1 - d.get i ^ 2) ≤ n2 ^ 2

/-- The cosine of the critical angle. -/
def critical (n1 n2 : ℝ) : ℝ := √(1 - (n2 / n1) ^ 2)

theorem critical_bounds {n1 n2 : ℝ} (h2 : 0 < n2) (h : n2 < n1) :
    0 < critical n1 n2 ∧ critical n1 n2 < 1 ∧ critical n1 n2 ^ 2 = 1 - (n2 / n1) ^ 2 := by
  have h1 : 0 < n1 := h2.trans h
  have hp : 0 < n2 / n1 := by positivity
  have hl : n2 / n1 < 1 := (div_lt_one h1).2 h
  have hq : 0 < 1 - (n2 / n1) ^ 2 := by nlinarith
  refine ⟨Real.sqrt_pos.2 hq, ?_, Real.sq_sqrt hq.le⟩
  unfold critical
  rw [Real.sqrt_lt' one_pos]
  nlinarith

theorem inCone_iff {n1 n2 : ℝ} (h2 : 0 < n2) (h : n2 < n1) (i : Fin 3) (d : Vec3 ℝ) :
    InCone n1 n2 i d ↔ critical n1 n2 ^ 2 ≤ d.get i ^ 2 := by
  have h1 : 0 < n1 := h2.trans h
  rw [(critical_bounds h2 h).2.2, InCone, div_pow, sub_le_iff_le_add, ← sub_le_iff_le_add', le_div_iff₀ (by positivity)]
  constructor <;> intro h <;> nlinarith

theorem lintegral_const_one_unit (x : ℝ≥0∞) : ∫⁻ _ in Icc (0 : ℝ) 1, x = x := by simp

/-- **C95.** Of the light emitted isotropically in a medium of index `n1`, the share `1 - cos θc` is in the
escape cones of two opposite faces to a medium of lower index `n2`, whatever the direction of the faces;
`θc` is the critical angle. -/
theorem escape_share {n1 n2 : ℝ} (h2 : 0 < n2) (h : n2 < n1) (i : Fin 3) :
    mean (fun u v => if InCone n1 n2 i (PV.isotropic script [u, v]).1 then 1 else 0) =
      ENNReal.ofReal (1 - critical n1 n2) := by
  obtain ⟨c0, c1, -⟩ := critical_bounds h2 h
  simp only [inCone_iff h2 h]
  set c := critical n1 n2
  have hi : ∀ u v : ℝ, (PV.isotropic script [u, v]).1 =
      ⟨Real.sin (Real.arccos (2 * v - 1)) * Real.cos (2 * Real.pi * u),
        Real.sin (Real.arccos (2 * v - 1)) * Real.sin (2 * Real.pi * u), Real.cos (Real.arccos (2 * v - 1))⟩ :=
    fun u v => rfl
  simp only [hi, mean]
  fin_cases i
  · simp only [Vec3.get]
    rw [← Escape.mean_azimuth c0 c1 0]
    refine lintegral_congr fun u => ?_
    rw [add_zero]
    exact Escape.mean_height c0 rfl
  · simp only [Vec3.get]
    rw [← Escape.mean_azimuth c0 c1 (-(Real.pi / 2))]
    refine lintegral_congr fun u => ?_
    refine Escape.mean_height c0 ?_
    rw [← sub_eq_add_neg, Real.cos_sub_pi_div_two]
  · have : (∫⁻ v in Icc (0 : ℝ) 1, if c ^ 2 ≤ Real.cos (Real.arccos (2 * v - 1)) ^ 2 then (1 : ℝ≥0∞) else 0) =
        ENNReal.ofReal (1 - c) := by
      rw [setLIntegral_congr_fun (g := (Icc 0 ((1 - c) / 2) ∪ Icc ((1 + c) / 2) 1).indicator 1) measurableSet_Icc]
      · rw [lintegral_indicator_one (measurableSet_Icc.union measurableSet_Icc),
          Measure.restrict_apply (measurableSet_Icc.union measurableSet_Icc),
          inter_eq_left.2 (union_subset (Icc_subset_Icc le_rfl (by linarith)) (Icc_subset_Icc (by linarith) le_rfl)),
          measure_union ?_ measurableSet_Icc, Real.volume_Icc, Real.volume_Icc,
          ← ENNReal.ofReal_add (by linarith) (by linarith)]
        · congr 1; ring
        · rw [Set.disjoint_left]
          intro x hx hy
          linarith [hx.2, hy.1]
      · intro v hv
        have hv0 := hv.1
        have hv1 := hv.2
        simp only [indicator, mem_union, mem_Icc, Pi.one_apply]
        congr 1
        rw [Real.cos_arccos (by linarith) (by linarith), eq_iff_iff, sq_le_sq, abs_of_pos c0, le_abs]
        constructor
        · rintro (h | h)
          · right; constructor <;> linarith
          · left; constructor <;> linarith
        · rintro (h | h)
          · right; linarith [h.2]
          · left; linarith [h.1]
    refine Eq.trans (lintegral_congr fun u => ?_) (lintegral_const_one_unit _)
    exact this

/-- The escape cones of faces in different directions do not overlap if `n1² > 2 n2²`. -/
theorem cones_disjoint {n1 n2 : ℝ} (h : 2 * n2 ^ 2 < n1 ^ 2) {d : Vec3 ℝ}
    (hd : d.dot d = 1) {i j : Fin 3} (hi : InCone n1 n2 i d) (hj : InCone n1 n2 j d) : i = j := by
  unfold InCone at hi hj
  by_contra hne
  have key : d.get i ^ 2 + d.get j ^ 2 ≤ 1 := by
    simp only [Vec3.dot] at hd
    fin_cases i <;> fin_cases j <;> simp [Vec3.get] at hne ⊢ <;> nlinarith [sq_nonneg d.x, sq_nonneg d.y, sq_nonneg d.z]
  have hp : 0 < n1 ^ 2 := by nlinarith [sq_nonneg n2]
  nlinarith [mul_le_mul_of_nonneg_left key hp.le]

theorem isotropic_measurable : Measurable fun x : ℝ × ℝ => ((PV.isotropic script [x.1, x.2]).1.x,
    (PV.isotropic script [x.1, x.2]).1.y, (PV.isotropic script [x.1, x.2]).1.z) := by
  have hi : ∀ u v : ℝ, (PV.isotropic script [u, v]).1 =
      ⟨Real.sin (Real.arccos (2 * v - 1)) * Real.cos (2 * Real.pi * u),
        Real.sin (Real.arccos (2 * v - 1)) * Real.sin (2 * Real.pi * u), Real.cos (Real.arccos (2 * v - 1))⟩ :=
    fun u v => rfl
  simp only [hi]
  have := Real.continuous_arccos
  refine Continuous.measurable ?_
  fun_prop

theorem cone_measurable (n1 n2 : ℝ) (i : Fin 3) : Measurable fun x : ℝ × ℝ =>
    if InCone n1 n2 i (PV.isotropic script [x.1, x.2]).1 then (1 : ℝ≥0∞) else 0 := by
  have hm := isotropic_measurable
  refine Measurable.ite ?_ measurable_const measurable_const
  have hg : Measurable fun x : ℝ × ℝ => (PV.isotropic script [x.1, x.2]).1.get i := by
    fin_cases i
    · exact hm.fst
    · exact hm.snd.fst
    · exact hm.snd.snd
  exact measurableSet_le (measurable_const.mul (measurable_const.sub (hg.pow_const 2))) measurable_const

theorem mean_add {f g : ℝ → ℝ → ℝ≥0∞} (hf : Measurable fun x : ℝ × ℝ => f x.1 x.2) :
    mean (fun u v => f u v + g u v) = mean f + mean g := by
  unfold mean
  rw [← lintegral_add_left hf.lintegral_prod_right']
  exact lintegral_congr fun u => lintegral_add_left (hf.comp (measurable_const.prodMk measurable_id)) _

/-- **C95.** Of the light emitted isotropically in a box of index `n1` in a medium of index `n2`, with
`n1² > 2 n2²`, the share `3 cos θc - 2` is in no escape cone: it can leave through none of the six faces. -/
theorem trapped_share {n1 n2 : ℝ} (h1 : 0 < n1) (h2 : 0 < n2) (h : 2 * n2 ^ 2 < n1 ^ 2) :
    mean (fun u v => if ∀ i, ¬ InCone n1 n2 i (PV.isotropic script [u, v]).1 then 1 else 0) =
      ENNReal.ofReal (3 * critical n1 n2 - 2) := by
  have hlt : n2 < n1 := by nlinarith
  obtain ⟨c0, c1, -⟩ := critical_bounds h2 hlt
  set f : Fin 3 → ℝ → ℝ → ℝ≥0∞ := fun i u v => if InCone n1 n2 i (PV.isotropic script [u, v]).1 then 1 else 0 with hf
  set g : ℝ → ℝ → ℝ≥0∞ := fun u v => if ∀ i, ¬ InCone n1 n2 i (PV.isotropic script [u, v]).1 then 1 else 0 with hg
  have one : ∀ u v, f 0 u v + (f 1 u v + (f 2 u v + g u v)) = 1 := by
    intro u v
    have hd : (PV.isotropic script [u, v]).1.dot (PV.isotropic script [u, v]).1 = 1 :=
      Phase.draw_unit (R := script) (s := [u, v]) .isotropic rfl
    have dj := fun i j => cones_disjoint h hd (i := i) (j := j)
    have d01 := dj 0 1
    have d02 := dj 0 2
    have d12 := dj 1 2
    simp only [hf, hg, Fin.forall_fin_succ, Fin.isValue]
    by_cases a0 : InCone n1 n2 0 (PV.isotropic script [u, v]).1 <;>
    by_cases a1 : InCone n1 n2 1 (PV.isotropic script [u, v]).1 <;>
    by_cases a2 : InCone n1 n2 2 (PV.isotropic script [u, v]).1 <;> simp_all
  have total : mean (f 0) + (mean (f 1) + (mean (f 2) + mean g)) = 1 := by
    rw [← mean_add (cone_measurable n1 n2 2), ← mean_add (cone_measurable n1 n2 1),
      ← mean_add (cone_measurable n1 n2 0)]
    simp [one, mean]
  rw [hf] at total
  simp only [escape_share h2 hlt] at total
  have e : ENNReal.ofReal (1 - critical n1 n2) + (ENNReal.ofReal (1 - critical n1 n2) +
      (ENNReal.ofReal (1 - critical n1 n2) + mean g)) = ENNReal.ofReal (3 * (1 - critical n1 n2)) + mean g := by
    rw [← add_assoc, ← add_assoc, ← ENNReal.ofReal_add (by linarith) (by linarith),
      ← ENNReal.ofReal_add (by linarith) (by linarith)]
    congr 2; ring
  rw [e] at total
  have fin : mean g = 1 - ENNReal.ofReal (3 * (1 - critical n1 n2)) := by
    rw [← total, ENNReal.add_sub_cancel_left ENNReal.ofReal_ne_top]
  rw [fin, ← ENNReal.ofReal_one, ← ENNReal.ofReal_sub _ (by linarith)]
  congr 1; ring

end shares

/-! ### Examples -/

/-- A turned plate of glass with a dye in a spherical world of air. -/
def plate : LScene 1 where
  node v := if v = 0 then ⟨"world", .sphere 10, .one, .one, 1, .fresnel, []⟩
    else ⟨"plate", .box ⟨5, 5, 1⟩, ⟨⟨0, -1, 0⟩, ⟨1, 0, 0⟩, ⟨0, 0, 1⟩, ⟨1, 0, 0⟩⟩,
      ⟨⟨0, 1, 0⟩, ⟨-1, 0, 0⟩, ⟨0, 0, 1⟩, ⟨0, 1, 0⟩⟩, 1.5, .fresnel,
      [⟨"dye", .luminophore, .const 2, .table ⟨2, fun i => 500 + i, fun _ => 1⟩ false, 0.9, some 1,
        some 2, .isotropic⟩]⟩

/-- Non-vacuity of `leaves_in_cone`: the plate meets its conditions for all six faces. -/
example : Sound plate ∧ (∀ v, Visible (plate.node v).geom) ∧
    (∀ v w, (plate.node v).name = (plate.node w).name → v = w) ∧
    (∀ v w, (plate.node v).index ≤ 10000 * (plate.node w).index) ∧
    (∀ i, Axial (plate.node 1).geom i) ∧ (plate.node 1).surface = .fresnel := by
  refine ⟨⟨fun v => ?_, fun v => ?_, fun v => ?_, fun v c hc => ?_⟩, fun v => ?_, fun v w => ?_,
    fun v w => ?_, fun i => trivial, rfl⟩
  · by_cases h : v = 0 <;> norm_num [plate, h]
  · by_cases h : v = 0
    · simp [plate, h, one_rigid]
    · simp [plate, h, Affine.Rigid, Vec3.dot]
  · by_cases h : v = 0
    · simp [plate, h, one_inverse]
    · simp only [plate, h, if_false]
      constructor <;> intro p <;> ext <;> simp [Affine.point, Affine.vec, Vec3.dot]
  · by_cases h : v = 0
    · simp [plate, h] at hc
    · simp only [plate, h, if_false, List.mem_singleton] at hc
      subst hc
      exact ⟨.inl ⟨2, by norm_num, rfl⟩, by simp, by simp⟩
  · by_cases h : v = 0 <;> norm_num [plate, h, Visible]
  · fin_cases v <;> fin_cases w <;> simp [plate]
  · by_cases h : v = 0 <;> by_cases h' : w = 0 <;> norm_num [plate, h, h']

/-- In glass of index 1.5 the direction (1, 2, 2)/3 is outside all three escape cones. -/
example : ∀ i, ¬ InCone 1.5 1 i ⟨1 / 3, 2 / 3, 2 / 3⟩ := by
  intro i; fin_cases i <;> norm_num [InCone, Vec3.get]

/-- For an index of 2 more than half of the light emitted in a block can leave it through no face. -/
example : Spec.mean (fun u v =>
    if ∀ i, ¬ InCone 2 1 i (PV.isotropic Directions.script [u, v]).1 then 1 else 0) =
      ENNReal.ofReal (3 * √(3 / 4) - 2) ∧ 1 / 2 < 3 * √(3 / 4) - 2 := by
  constructor
  · rw [trapped_share (by norm_num) (by norm_num) (by norm_num), critical]
    norm_num
  · have : 5 / 6 < √(3 / 4 : ℝ) := Real.lt_sqrt_of_sq_lt (by norm_num)
    linarith

end
end PV.Waveguide
