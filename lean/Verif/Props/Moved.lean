import Verif.Lemmas.Alike
import Verif.Props.LibraryPath
import Verif.Props.Node

/-!
C104: an apparatus that is put somewhere else behaves in the same way.
-/

namespace PV.Moved
open PV PV.Alike PV.Library
noncomputable section
open Classical
variable {σ : Type} {n : ℕ}

/-- `N'` is `N` carried along by `g`. -/
structure Placed (g : Affine ℝ) (N N' : LNode) : Prop where
  name : N'.name = N.name
  geom : N'.geom = N.geom
  index : N'.index = N.index
  surface : N'.surface = N.surface
  comps : N'.comps = N.comps
  out_point : ∀ p, N'.l2w.point p = g.point (N.l2w.point p)
  out_vec : ∀ p, N'.l2w.vec p = g.vec (N.l2w.vec p)
  in_point : ∀ p, N'.w2l.point (g.point p) = N.w2l.point p
  in_vec : ∀ p, N'.w2l.vec (g.vec p) = N.w2l.vec p

theorem placed {g gi : Affine ℝ} (hi : g.Inverse gi) (N : LNode) : Placed g N (N.moved g gi) where
  name := rfl
  geom := rfl
  index := rfl
  surface := rfl
  comps := rfl
  out_point p := Affine.comp_point _ _ _
  out_vec p := Affine.comp_vec _ _ _
  in_point p := by
    show (N.w2l.comp gi).point (g.point p) = _
    rw [Affine.comp_point, hi.1]
  in_vec p := by
    show (N.w2l.comp gi).vec (g.vec p) = _
    rw [Affine.comp_vec, hi.2]

/-- What is needed of two scenes: objects carried along, or the same empty round world and a rotation
about its centre. -/
structure Related (g : Affine ℝ) (S S' : LScene n) : Prop where
  placed : ∀ v, v ≠ 0 → Placed g (S.node v) (S'.node v)
  world : Placed g (S.node 0) (S'.node 0) ∨
    S'.node 0 = S.node 0 ∧ RoundWorld S ∧ g.t = 0

variable {g : Affine ℝ} {S S' : LScene n}

theorem distance_moved (hg : g.Rigid) (p q : Vec3 ℝ) :
    distanceBetween (g.point p) (g.point q) = distanceBetween p q := by
  unfold distanceBetween Vec3.norm
  rw [Affine.point_sub, hg.dot_vec]

theorem norm_vec (hg : g.Rigid) (v : Vec3 ℝ) : (g.vec v).norm = v.norm := by
  unfold Vec3.norm
  rw [hg.dot_vec]

theorem ts_placed {N N' : LNode} (h : Placed g N N') (B : Trimesh) (o d : Vec3 ℝ) :
    N'.pyTs B (g.point o) (g.vec d) = N.pyTs B o d := by
  unfold LNode.pyTs LNode.boxHits LNode.localOrigin LNode.localDir
  rw [h.geom, h.in_point, h.in_vec]

theorem inter_placed {N N' : LNode} (h : Placed g N N') (v : Fin (n + 1)) (o d : Vec3 ℝ) (t : ℝ) :
    N'.inter v (g.point o) (g.vec d) t = interMap id g.point (N.inter v o d t) := by
  simp only [LNode.inter, LNode.localOrigin, LNode.localDir, interMap, h.in_point, h.in_vec,
    h.out_point, id]

theorem point_zero (ht : g.t = 0) (p : Vec3 ℝ) : g.point p = g.vec p := by
  unfold Affine.point
  rw [ht]
  ext <;> simp

theorem ts_round {N : LNode} (hg : g.Rigid) (ht : g.t = 0) {r : ℝ} (h : N.geom = .sphere r)
    (h2 : N.w2l = Affine.one) (B : Trimesh) (o d : Vec3 ℝ) :
    N.pyTs B (g.point o) (g.vec d) = N.pyTs B o d := by
  unfold LNode.pyTs LNode.localOrigin LNode.localDir
  rw [h, h2]
  simp only [pyIntersect, Node.one_point, Node.one_vec, point_zero ht, pySphere, hg.dot_vec]

theorem inter_round {N : LNode} (hg : g.Rigid) (ht : g.t = 0) (h1 : N.l2w = Affine.one)
    (h2 : N.w2l = Affine.one) (v : Fin (n + 1)) (o d : Vec3 ℝ) (t : ℝ) :
    N.inter v (g.point o) (g.vec d) t = interMap id g.point (N.inter v o d t) := by
  simp only [LNode.inter, LNode.localOrigin, LNode.localDir, interMap, h1, h2, Node.one_point,
    Node.one_vec, id]
  rw [← Affine.point_add_smul, distance_moved hg]

theorem Related.ts (h : Related g S S') (hg : g.Rigid) (B : Trimesh) (v : Fin (n + 1))
    (o d : Vec3 ℝ) : (S'.node v).pyTs B (g.point o) (g.vec d) = (S.node v).pyTs B o d := by
  by_cases hv : v = 0
  · subst hv
    rcases h.world with hw | ⟨h1, ⟨⟨r, h2⟩, h3, h4, _⟩, h5⟩
    · exact ts_placed hw B o d
    · rw [h1]; exact ts_round hg h5 h2 h4 B o d
  · exact ts_placed (h.placed v hv) B o d

theorem Related.inter (h : Related g S S') (hg : g.Rigid) (v : Fin (n + 1)) (o d : Vec3 ℝ) (t : ℝ) :
    (S'.node v).inter v (g.point o) (g.vec d) t = interMap id g.point ((S.node v).inter v o d t) := by
  by_cases hv : v = 0
  · subst hv
    rcases h.world with hw | ⟨h1, ⟨⟨r, h2⟩, h3, h4, _⟩, h5⟩
    · exact inter_placed hw 0 o d t
    · rw [h1]; exact inter_round hg h5 h3 h4 0 o d t
  · exact inter_placed (h.placed v hv) v o d t

theorem Related.intersections (h : Related g S S') (hg : g.Rigid) (B : Trimesh) (o d : Vec3 ℝ) :
    S'.intersections B (g.point o) (g.vec d) = (S.intersections B o d).map (interMap id g.point) := by
  unfold LScene.intersections
  have hall : ((List.finRange (n + 1)).flatMap fun v =>
      ((S'.node v).pyTs B (g.point o) (g.vec d)).map ((S'.node v).inter v (g.point o) (g.vec d))) =
      ((List.finRange (n + 1)).flatMap fun v =>
        ((S.node v).pyTs B o d).map ((S.node v).inter v o d)).map (interMap id g.point) := by
    rw [List.map_flatMap]
    congr 1
    funext v
    rw [h.ts hg, List.map_map]
    apply List.map_congr_left
    intro t _
    exact h.inter hg v o d t
  simp only [hall]
  rw [List.filter_map, sortedBy_map]
  · congr 2
    apply List.filter_congr
    intro x _
    have e : ∀ p, (g.vec d).dot (g.point p) - (g.vec d).dot (g.point o) = d.dot p - d.dot o := by
      intro p
      rw [← Vec3.dot_sub, Affine.point_sub, hg.dot_vec, Vec3.dot_sub]
    simp only [Function.comp, interMap, e]
  · intro x _
    simp only [interMap]
    rw [Affine.point_sub, norm_vec hg]

theorem rep_in {N N' : LNode} (h : Placed g N N') (r : Ray ℝ) :
    (r.representation g).representation N'.w2l = r.representation N.w2l := by
  simp only [Ray.representation, h.in_point, h.in_vec]

theorem rep_out {N N' : LNode} (h : Placed g N N') (r : Ray ℝ) :
    r.representation N'.l2w = (r.representation N.l2w).representation g := by
  simp only [Ray.representation, h.out_point, h.out_vec]

theorem turn_placed {N N' : LNode} (h : Placed g N N') (r : Ray ℝ) (d : Except Err (Vec3 ℝ)) (s : σ) :
    N'.turn (r.representation g) d s = (N.turn r d s).map (Prod.map (·.representation g) id) := by
  unfold LNode.turn
  cases d with
  | error e => rfl
  | ok d => simp only [rep_in h, rep_out h, Except.map, Prod.map, id]

theorem Related.index (h : Related g S S') (v : Fin (n + 1)) :
    (S'.node v).index = (S.node v).index := by
  by_cases hv : v = 0
  · subst hv
    rcases h.world with hw | hw
    · exact hw.index
    · rw [hw.1]
  · exact (h.placed v hv).index

theorem Related.comps (h : Related g S S') (v : Fin (n + 1)) :
    (S'.node v).comps = (S.node v).comps := by
  by_cases hv : v = 0
  · subst hv
    rcases h.world with hw | hw
    · exact hw.comps
    · rw [hw.1]
  · exact (h.placed v hv).comps

theorem Related.name (h : Related g S S') (v : Fin (n + 1)) :
    (S'.node v).name = (S.node v).name := by
  by_cases hv : v = 0
  · subst hv
    rcases h.world with hw | hw
    · exact hw.name
    · rw [hw.1]
  · exact (h.placed v hv).name

theorem pick_empty (R : Rand σ) (w : ℝ) (s : σ) : pickComponent R [] w s = .error .valueError := by
  have hc : coefficients [] w = .ok [] := rfl
  have hp : ∀ u, pickIndex [] u = .error .valueError := by
    intro u
    simp [pickIndex]
  simp only [pickComponent, hc, hp]

theorem Related.sim (h : Related g S S') (B : Trimesh) (R : Rand σ) (method : EmitMethod) :
    Sim id g (pyOps S B R method) (pyOps S' B R method) where
  root v := Iff.rfl
  name v := h.name v
  index v := h.index v
  depth v w s := by
    show penetrationDepth R (S'.node v).comps w s = penetrationDepth R (S.node v).comps w s
    rw [h.comps]
  component v w s := by
    show pickComponent R (S'.node v).comps w s = pickComponent R (S.node v).comps w s
    rw [h.comps]
  compName c := rfl
  compKind c := rfl
  isRadiative c r s := rfl
  emit v c r s w t t' hc := by
    have hp : Placed g (S.node v) (S'.node v) := by
      by_cases hv : v = 0
      · subst hv
        rcases h.world with hw | ⟨_, ⟨_, _, _, hw⟩, _⟩
        · exact hw
        · exfalso
          have hc' : pickComponent R (S.node 0).comps w t = .ok (c, t') := hc
          rw [hw, pick_empty] at hc'
          exact absurd hc' (by simp)
      · exact h.placed v hv
    unfold pyOps
    simp only [id, rep_in hp]
    cases c.emit R method (r.representation (S.node v).w2l) s with
    | error e => rfl
    | ok q =>
      obtain ⟨q, s'⟩ := q
      simp only [rep_out hp, Except.map, Prod.map, id]
  absorb c r s := by
    unfold pyOps
    simp only [Comp.nonradiativeAbsorb, Except.map]
    cases truthy c.tauNr <;> rfl
  normal v hv p := by
    have hp := h.placed v hv
    unfold pyOps
    simp only [id, hp.geom, hp.in_point]
    cases pyNormal (S.node v).geom ((S.node v).w2l.point p) with
    | error e => rfl
    | ok m => simp only [hp.out_vec, Except.map]
  isReflected k c a r s hv := by
    have hp := h.placed k hv
    unfold pyOps
    simp only [id, Option.map_id, LScene.isReflected, LScene.reflectivity, hp.geom, hp.surface,
      rep_in hp, h.index]
  reflect k c a r s hv := by
    have hp := h.placed k hv
    unfold pyOps
    simp only [id, turn_placed hp, LScene.reflected, hp.geom, hp.surface, rep_in hp]
  transmit k c a r s hv := by
    have hp := h.placed k hv
    unfold pyOps
    simp only [id, Option.map_id, turn_placed hp, LScene.transmitted, hp.geom, hp.surface, rep_in hp,
      h.index]

/-- Everything the tracer yields, and how it ends. -/
theorem Related.run (h : Related g S S') (hg : g.Rigid) (B : Trimesh) (R : Rand σ)
    (method : EmitMethod) (maxsteps : ℕ) (maxpath : Option ℝ) (fuel : ℕ) (ray : Ray ℝ) (s : σ) :
    stepForward (pyOps S' B R method) maxsteps maxpath fuel (ray.representation g) s =
      ((stepForward (pyOps S B R method) maxsteps maxpath fuel ray s).1.map (Step.moved g),
        (stepForward (pyOps S B R method) maxsteps maxpath fuel ray s).2) := by
  have key := loop_alike (h.sim B R method) True maxsteps maxpath (fun _ _ _ => True)
    (fun count r s _ => ⟨_, _, rfl, rfl, by
      have := h.intersections hg B r.position r.direction
      rw [this]
      exact nextHit_map Function.injective_id g.point True _ _
        (fun x _ => distance_moved hg _ _)⟩)
    (fun _ _ _ _ _ _ _ => trivial) fuel 0 ray s trivial
  unfold stepForward
  simp only [List.map_cons]
  rw [forall₂_strict key.1, key.2]
  rfl

/-- **C104**. An apparatus that is carried somewhere else by a rotation and a translation, world and
ray included, gives the history it gave before, carried along: the same events in the same order at
the carried points, with the same wavelengths, path lengths, clock, names, normals carried along, and
the same end or exception, for every source of random numbers. -/
theorem moved_history (S : LScene n) (hg : g.Rigid) {gi : Affine ℝ} (hi : g.Inverse gi) (B : Trimesh)
    (R : Rand σ) (method : EmitMethod) (maxsteps : ℕ) (maxpath : Option ℝ) (ray : Ray ℝ) (s : σ) :
    stepForward (pyOps (S.moved g gi) B R method) maxsteps maxpath (maxsteps + 1)
        { ray with position := g.point ray.position, direction := g.vec ray.direction } s =
      ((run S B R method maxsteps maxpath ray s).map (Step.moved g),
        (stepForward (pyOps S B R method) maxsteps maxpath (maxsteps + 1) ray s).2) := by
  have h : Related g S (S.moved g gi) := ⟨fun v _ => placed hi _, .inl (placed hi _)⟩
  exact h.run hg B R method maxsteps maxpath (maxsteps + 1) ray s

/-- **C104**. In an empty round world the apparatus can be turned about the centre while the world
stays where it is. -/
theorem turned_history {S : LScene n} (hw : RoundWorld S) (hg : g.Rigid) (ht : g.t = 0)
    {gi : Affine ℝ} (hi : g.Inverse gi) (B : Trimesh) (R : Rand σ) (method : EmitMethod)
    (maxsteps : ℕ) (maxpath : Option ℝ) (ray : Ray ℝ) (s : σ) :
    stepForward (pyOps (S.turned g gi) B R method) maxsteps maxpath (maxsteps + 1)
        { ray with position := g.point ray.position, direction := g.vec ray.direction } s =
      ((run S B R method maxsteps maxpath ray s).map (Step.moved g),
        (stepForward (pyOps S B R method) maxsteps maxpath (maxsteps + 1) ray s).2) := by
  have h : Related g S (S.turned g gi) := by
    refine ⟨fun v hv => ?_, .inr ⟨?_, hw, ht⟩⟩
    · have : (S.turned g gi).node v = (S.node v).moved g gi := by simp [LScene.turned, hv]
      rw [this]
      exact placed hi _
    · simp [LScene.turned]
  exact h.run hg B R method maxsteps maxpath (maxsteps + 1) ray s

end
end PV.Moved
