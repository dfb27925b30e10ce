import Verif.Spec.Variants
import Verif.Lemmas.Alike
import Verif.Props.Inside
import Verif.Props.Node

/-!
A scene that has the objects of another one: when the next surface is chosen alike, histories are
alike.
-/

namespace PV.Alike
open PV PV.Library PV.Node
noncomputable section
variable {σ : Type} {n m : ℕ}

/-- The objects of `S` are among those of `S'`; the shape of the world may differ. -/
structure Embeds (e : Fin (n + 1) → Fin (m + 1)) (S : LScene n) (S' : LScene m) : Prop where
  inj : Function.Injective e
  zero : e 0 = 0
  node : ∀ v, v ≠ 0 → S'.node (e v) = S.node v
  world : ∃ g, S'.node 0 = { S.node 0 with geom := g }

theorem rep_one (r : Ray ℝ) : r.representation Affine.one = r := by
  simp only [Ray.representation, one_point, one_vec]

theorem map_rep_one (x : Except Err (Ray ℝ × σ)) :
    x.map (Prod.map (·.representation Affine.one) id) = x := by
  cases x with
  | error e => rfl
  | ok p => simp only [Except.map, Prod.map, rep_one, id]

theorem map_vec_one (x : Except Err (Vec3 ℝ)) : x.map (Affine.one : Affine ℝ).vec = x := by
  cases x with
  | error e => rfl
  | ok p => simp only [Except.map, one_vec]

theorem moved_one (a : Step ℝ) : a.moved Affine.one = a := by
  obtain ⟨r, ev, i⟩ := a
  have : i.normal.map (Affine.one : Affine ℝ).vec = i.normal := by
    cases i.normal <;> simp [one_vec]
  simp only [Step.moved, one_point, one_vec, this]

variable {e : Fin (n + 1) → Fin (m + 1)} {S : LScene n} {S' : LScene m}

theorem Embeds.same (h : Embeds e S S') (v : Fin (n + 1)) : (S'.node (e v)).name = (S.node v).name ∧
    (S'.node (e v)).index = (S.node v).index ∧ (S'.node (e v)).comps = (S.node v).comps ∧
    (S'.node (e v)).l2w = (S.node v).l2w ∧ (S'.node (e v)).w2l = (S.node v).w2l := by
  by_cases hv : v = 0
  · subst hv
    obtain ⟨g, hg⟩ := h.world
    rw [h.zero, hg]
    exact ⟨rfl, rfl, rfl, rfl, rfl⟩
  · rw [h.node v hv]
    exact ⟨rfl, rfl, rfl, rfl, rfl⟩

theorem Embeds.sim (h : Embeds e S S') (B : Trimesh) (R : Rand σ) (method : EmitMethod) :
    Sim e Affine.one (pyOps S B R method) (pyOps S' B R method) where
  root v := by
    show e v = 0 ↔ v = 0
    rw [← h.zero, h.inj.eq_iff]
  name v := (h.same v).1
  index v := (h.same v).2.1
  depth v w s := by
    show penetrationDepth R (S'.node (e v)).comps w s = penetrationDepth R (S.node v).comps w s
    rw [(h.same v).2.2.1]
  component v w s := by
    show pickComponent R (S'.node (e v)).comps w s = pickComponent R (S.node v).comps w s
    rw [(h.same v).2.2.1]
  compName c := rfl
  compKind c := rfl
  isRadiative c r s := rfl
  emit v c r s w t t' _ := by
    rw [map_rep_one, rep_one]
    unfold pyOps
    simp only [(h.same v).2.2.2.1, (h.same v).2.2.2.2]
  absorb c r s := by rw [map_rep_one, rep_one]; rfl
  normal v hv p := by
    rw [map_vec_one, one_point]
    unfold pyOps
    simp only [h.node v hv]
  isReflected k c a r s hk := by
    rw [rep_one]
    unfold pyOps
    cases a with
    | none => simp only [LScene.isReflected, LScene.reflectivity, h.node k hk, Option.map_none]
    | some a =>
      simp only [LScene.isReflected, LScene.reflectivity, h.node k hk, Option.map_some, (h.same c).2.1,
        (h.same a).2.1]
  reflect k c a r s hk := by
    rw [rep_one, map_rep_one]
    unfold pyOps
    simp only [LScene.reflected, h.node k hk]
  transmit k c a r s hk := by
    rw [rep_one, map_rep_one]
    unfold pyOps
    cases a with
    | none => simp only [LScene.transmitted, h.node k hk, Option.map_none]
    | some a =>
      simp only [LScene.transmitted, h.node k hk, Option.map_some, (h.same c).2.1, (h.same a).2.1]

/-- Histories are alike when at each pass the next surface is chosen alike. -/
theorem Embeds.history (h : Embeds e S S') (hS : Sound S) (hv : ∀ v, Visible (S.node v).geom)
    {B : Trimesh} (hB : TrimeshSound B) {R : Rand σ} {method : EmitMethod} {maxsteps : ℕ}
    {maxpath : Option ℝ} {ray : Ray ℝ} {s : σ} (hd : ray.direction.dot ray.direction = 1)
    (strict : Prop) (hx : ∀ count ray' s', Reached S B R method maxsteps maxpath ray s count ray' s' →
      ray'.direction.dot ray'.direction = 1 →
      HitLike strict 0 e
        (nextHit epsZero (distanceBetween ray'.position)
          (S.intersections B ray'.position ray'.direction))
        (nextHit epsZero (distanceBetween ray'.position)
          (S'.intersections B ray'.position ray'.direction))) (fuel : ℕ) :
    List.Forall₂ (StepLike strict Affine.one)
        (stepForward (pyOps S B R method) maxsteps maxpath fuel ray s).1
        (stepForward (pyOps S' B R method) maxsteps maxpath fuel ray s).1 ∧
      (stepForward (pyOps S' B R method) maxsteps maxpath fuel ray s).2 =
        (stepForward (pyOps S B R method) maxsteps maxpath fuel ray s).2 := by
  have key := loop_alike (h.sim B R method) strict maxsteps maxpath
    (fun count r t => Reached S B R method maxsteps maxpath ray s count r t ∧ r.direction.dot r.direction = 1)
    (fun count r t hr => ⟨_, _, rfl, by rw [one_point, one_vec]; rfl, by
      rw [one_point]
      exact hx count r t hr.1 hr.2⟩)
    (fun count r t r' t' hr hb => ⟨hr.1.next hb,
      (pass_on hS hv hB (PV.body_pass (pyOps S B R method) maxsteps maxpath (count + 1) r t) hr.2).2 _ _ hb⟩)
    fuel 0 ray s ⟨.start, hd⟩
  rw [rep_one] at key
  unfold stepForward
  refine ⟨.cons (.inl ?_) key.1, key.2⟩
  rw [moved_one]

/-- Equal histories. -/
theorem Embeds.equal (h : Embeds e S S') (hS : Sound S) (hv : ∀ v, Visible (S.node v).geom)
    {B : Trimesh} (hB : TrimeshSound B) {R : Rand σ} {method : EmitMethod} {maxsteps : ℕ}
    {maxpath : Option ℝ} {ray : Ray ℝ} {s : σ} (hd : ray.direction.dot ray.direction = 1)
    (hx : ∀ count ray' s', Reached S B R method maxsteps maxpath ray s count ray' s' →
      ray'.direction.dot ray'.direction = 1 →
      HitLike True 0 e
        (nextHit epsZero (distanceBetween ray'.position)
          (S.intersections B ray'.position ray'.direction))
        (nextHit epsZero (distanceBetween ray'.position)
          (S'.intersections B ray'.position ray'.direction))) (fuel : ℕ) :
    stepForward (pyOps S' B R method) maxsteps maxpath fuel ray s =
      stepForward (pyOps S B R method) maxsteps maxpath fuel ray s := by
  obtain ⟨h1, h2⟩ := h.history hS hv hB hd True hx fuel
  have h3 := forall₂_strict h1
  have : Step.moved Affine.one = id := funext moved_one
  rw [this, List.map_id] at h3
  exact Prod.ext h3 h2

end
end PV.Alike
