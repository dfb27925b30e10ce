import Verif.Lemmas.Tame
import Mathlib.MeasureTheory.Function.Floor
import Mathlib.MeasureTheory.Function.SpecialFunctions.Inner
import Mathlib.MeasureTheory.Constructions.BorelSpace.Order

/-! The parts of a library scene are measurable programs. -/

namespace PV.Measured
open MeasureTheory Spec
variable {X : Type} [MeasurableSpace X] {β γ δ : Type} {n : ℕ}

theorem measurable_lt {f g : X → ℝ} (hf : Measurable f) (hg : Measurable g) : MeasurableSet {x | f x < g x} :=
  measurableSet_lt hf hg

theorem measurable_le {f g : X → ℝ} (hf : Measurable f) (hg : Measurable g) : MeasurableSet {x | f x ≤ g x} :=
  measurableSet_le hf hg

theorem measurable_eq {f g : X → ℝ} (hf : Measurable f) (hg : Measurable g) : MeasurableSet {x | f x = g x} :=
  measurableSet_eq_fun hf hg

theorem measurable_or {p q : X → Prop} (hp : MeasurableSet {x | p x}) (hq : MeasurableSet {x | q x}) :
    MeasurableSet {x | p x ∨ q x} := hp.union hq

theorem measurable_and {p q : X → Prop} (hp : MeasurableSet {x | p x}) (hq : MeasurableSet {x | q x}) :
    MeasurableSet {x | p x ∧ q x} := hp.inter hq

theorem measurable_not {p : X → Prop} (hp : MeasurableSet {x | p x}) : MeasurableSet {x | ¬ p x} := hp.compl

/-- Measurability of conditions on measurable numbers. -/
macro "meas" : tactic => `(tactic|
  repeat' first
    | exact MeasurableSet.const _
    | assumption
    | apply measurable_lt
    | apply measurable_le
    | apply measurable_eq
    | apply measurable_or
    | apply measurable_and
    | apply measurable_not
    | fun_prop)

theorem Tame.one {f : X → γ} [Shape γ] (hf : basic f) : Tame (fun x => [f x]) := Tame.cons (.of hf) Tame.nil

theorem Tame.two {f g : X → γ} [Shape γ] (hf : basic f) (hg : basic g) : Tame (fun x => [f x, g x]) :=
  Tame.cons (.of hf) (Tame.one hg)

/-! ### Shapes -/

section Geometry
variable {o d p : X → Vec3 ℝ}

theorem sphere_tame (r : ℝ) (ho : basic o) (hd : basic d) : Tame (fun x => pySphere r (o x) (d x)) := by
  have h1 := vec_dot hd hd
  have h2 := vec_dot hd ho
  have h3 := vec_dot ho ho
  unfold pySphere
  dsimp only
  refine Tame.ite (by meas) Tame.nil ?_
  refine Tame.filter (Tame.sorted (Tame.ite (by meas) (Tame.one ?_) (Tame.two ?_ ?_)) fun f hf => hf) fun f hf => ?_
  · show Measurable _
    fun_prop
  · show Measurable _
    fun_prop
  · show Measurable _
    fun_prop
  · have hf : Measurable f := hf
    simp only [decide_eq_true_eq, ge_iff_le]
    meas

theorem roots_tame {a b c : X → ℝ} (ha : Measurable a) (hb : Measurable b) (hc : Measurable c) :
    Tame (fun x => npRoots (a x) (b x) (c x)) := by
  unfold npRoots
  refine Tame.ite (by meas) (Tame.ite (by meas) Tame.nil (Tame.one ?_)) (Tame.ite (by meas) Tame.nil (Tame.two ?_ ?_)) <;>
  · show Measurable _
    fun_prop

theorem cylinder_tame (l r : ℝ) (ho : basic o) (hd : basic d) : Tame (fun x => rayZCylinder l r (o x) (d x)) := by
  obtain ⟨ox, oy, oz, h1, h2, h3, rfl⟩ := ho
  obtain ⟨dx, dy, dz, h4, h5, h6, rfl⟩ := hd
  unfold rayZCylinder
  dsimp only
  refine Tame.sorted (Tame.append (Tame.filter (Tame.filter (roots_tame ?_ ?_ ?_) fun f hf => ?_) fun f hf => ?_)
    (Tame.filter (Tame.ite ?_ Tame.nil (Tame.filter (Tame.two ?_ ?_) fun f hf => ?_)) fun f hf => ?_)) fun f hf => hf
  · fun_prop
  · fun_prop
  · fun_prop
  · have hf : Measurable f := hf
    simp only [decide_eq_true_eq, ge_iff_le]
    meas
  · have hf : Measurable f := hf
    simp only [decide_eq_true_eq, gt_iff_lt]
    meas
  · meas
  · show Measurable _
    fun_prop
  · show Measurable _
    fun_prop
  · have hf : Measurable f := hf
    simp only [decide_eq_true_eq, ge_iff_le]
    meas
  · have hf : Measurable f := hf
    simp only [decide_eq_true_eq]
    meas

theorem surfaces_tame (size : Vec3 ℝ) (hp : basic p) : Tame (fun x => boxSurfaces size (p x)) := by
  obtain ⟨px, py, pz, h1, h2, h3, rfl⟩ := hp
  unfold boxSurfaces
  simp only [List.zipIdx_cons, List.zipIdx_nil]
  refine Tame.map (Tame.filter ?_ ?_) ?_
  · refine Tame.cons (.of ⟨_, _, ?_, ⟨_, rfl⟩, rfl⟩) <| Tame.cons (.of ⟨_, _, ?_, ⟨_, rfl⟩, rfl⟩) <|
      Tame.cons (.of ⟨_, _, ?_, ⟨_, rfl⟩, rfl⟩) <| Tame.cons (.of ⟨_, _, ?_, ⟨_, rfl⟩, rfl⟩) <|
      Tame.cons (.of ⟨_, _, ?_, ⟨_, rfl⟩, rfl⟩) <| Tame.cons (.of ⟨_, _, ?_, ⟨_, rfl⟩, rfl⟩) Tame.nil <;>
    · show Measurable _
      fun_prop
  · rintro _ ⟨A, B, hA, hB, rfl⟩
    have hA : Measurable A := hA
    simp only [decide_eq_true_eq]
    meas
  · rintro _ ⟨A, B, hA, hB, rfl⟩
    exact .of hB

theorem normal_tame (g : Geom) (hp : basic p) : Tame (fun x => pyNormal g (p x)) := by
  cases g with
  | box size =>
    unfold pyNormal
    refine Tame.elim (surfaces_tame size hp) ?_
    rintro _ ⟨L, hL, rfl⟩
    rcases L with _ | ⟨f, _ | ⟨g, L⟩⟩
    · exact ⟨_, Tame.error .geometryError, fun x hx => by simp only [hx, List.map_nil]⟩
    · obtain ⟨c, rfl⟩ := hL f List.mem_cons_self
      rcases h : boxNormals[c]? with _ | m
      · exact ⟨_, Tame.error .indexError, fun x hx => by simp only [hx, List.map_cons, List.map_nil, h]⟩
      · exact ⟨fun _ => .ok m, Tame.ok (.of (vec_const m)),
          fun x hx => by simp only [hx, List.map_cons, List.map_nil, h]⟩
    · exact ⟨_, Tame.error .geometryError, fun x hx => by simp only [hx, List.map_cons]⟩
  | sphere r =>
    have h := vec_dot hp hp
    obtain ⟨px, py, pz, h1, h2, h3, rfl⟩ := hp
    unfold pyNormal
    dsimp only
    refine Tame.ok (.of ⟨_, _, _, ?_, ?_, ?_, rfl⟩) <;> fun_prop
  | cylinder l r =>
    obtain ⟨px, py, pz, h1, h2, h3, rfl⟩ := hp
    unfold pyNormal
    simp only [isclose, Vec3.dot]
    refine Tame.ite (by meas) (Tame.ok (.of (vec_const _))) (Tame.ite (by meas) (Tame.ok (.of (vec_const _)))
      (Tame.ite (by meas) (Tame.ok (.of ⟨_, _, _, ?_, ?_, ?_, rfl⟩)) (Tame.error _))) <;> fun_prop

end Geometry

/-! ### The next interface -/

/-- Boxes answer measurably. -/
def MeasurableMesh (B : Trimesh) : Prop :=
  ∀ (size : Vec3 ℝ) {X : Type} [MeasurableSpace X] (o d : X → Vec3 ℝ), basic o → basic d →
    Tame (fun x => B size (o x) (d x))

section Hits
variable {o d : X → Vec3 ℝ}

theorem ts_tame {B : Trimesh} (hB : MeasurableMesh B) (N : LNode) (ho : basic o) (hd : basic d) :
    Tame (fun x => N.pyTs B (o x) (d x)) := by
  have h1 := vec_point N.w2l ho
  have h2 := vec_vec N.w2l hd
  unfold LNode.pyTs LNode.boxHits LNode.localOrigin LNode.localDir
  rcases N.geom with size | r | ⟨l, r⟩
  · exact hB size _ _ h1 h2
  · exact sphere_tame r h1 h2
  · exact cylinder_tame l r h1 h2

theorem intersections_tame {B : Trimesh} (hB : MeasurableMesh B) (S : LScene n) (ho : basic o) (hd : basic d) :
    Tame (fun x => S.intersections B (o x) (d x)) := by
  unfold LScene.intersections
  dsimp only
  refine Tame.sorted (Tame.filter (Tame.flatMap _ fun v => Tame.map (ts_tame hB (S.node v) ho hd) ?_) ?_) ?_
  · intro t ht
    have h1 := vec_point (S.node v).w2l ho
    have h2 := vec_vec (S.node v).w2l hd
    have h3 := vec_add h1 (vec_smul ht h2)
    unfold LNode.inter LNode.localOrigin LNode.localDir distanceBetween
    exact .of ⟨v, _, _, vec_point _ h3, vec_norm (vec_sub h1 h3), rfl⟩
  · rintro _ ⟨v, p, t, hp, ht, rfl⟩
    have h1 := vec_dot hd hp
    have h2 := vec_dot hd ho
    simp only [decide_eq_true_eq, gt_iff_lt]
    meas
  · rintro _ ⟨v, p, t, hp, ht, rfl⟩
    exact vec_norm (vec_sub hp ho)

theorem hits_const (L : List (X → Inter (Fin n) ℝ)) (hL : ∀ f ∈ L, basic f) :
    ∃ c, ∀ x, (L.map (fun f => f x)).map (·.hit) = c := by
  induction L with
  | nil => exact ⟨[], fun _ => rfl⟩
  | cons f L ih =>
    obtain ⟨c, hc⟩ := ih fun g hg => hL g (List.mem_cons_of_mem _ hg)
    obtain ⟨v, p, t, hp, ht, rfl⟩ := hL f List.mem_cons_self
    exact ⟨v :: c, fun x => by simp only [List.map_cons, hc x]⟩

theorem container_tame (L : List (X → Inter (Fin n) ℝ)) (hL : ∀ f ∈ L, basic f) :
    Tame (fun x => findContainer (L.map (fun f => f x))) := by
  obtain ⟨c, hc⟩ := hits_const L hL
  have key : Tame (fun x => (match sortedBy (·.dist)
      ((L.map (fun f => f x)).filter (fun y => ((L.map (fun f => f x)).map (·.hit)).count y.hit = 1)) with
    | [] => .error .valueError
    | p :: _ => .ok p.hit : Except Err (Fin n))) := by
    refine Tame.elim (Tame.sorted (key := fun _ y => y.dist) (Tame.filter
      (p := fun x y => decide (((L.map (fun f => f x)).map (·.hit)).count y.hit = 1)) (Tame.basicList hL) ?_) ?_) ?_
    · rintro _ ⟨v, p, t, hp, ht, rfl⟩
      simp only [hc]
      exact MeasurableSet.const _
    · rintro _ ⟨v, p, t, hp, ht, rfl⟩
      exact ht
    · rintro _ ⟨M, hM, rfl⟩
      rcases M with _ | ⟨f, M⟩
      · exact ⟨_, Tame.error .valueError, fun x hx => by simp only [hx, List.map_nil]⟩
      · obtain ⟨v, p, t, hp, ht, rfl⟩ := hM f List.mem_cons_self
        exact ⟨fun _ => .ok v, Tame.ok (.of ⟨v, rfl⟩), fun x hx => by simp only [hx, List.map_cons]⟩
  rcases L with _ | ⟨f, _ | ⟨g, L⟩⟩
  · exact key
  · obtain ⟨v, p, t, hp, ht, rfl⟩ := hL f List.mem_cons_self
    exact Tame.ok (.of ⟨v, rfl⟩)
  · convert key using 2 with x
    simp only [findContainer, List.map_cons]
    generalize sortedBy (fun y : Inter (Fin n) ℝ => y.dist) _ = z
    cases z <;> rfl

theorem nextHit_tame (eps : ℝ) {dist : X → Vec3 ℝ → ℝ}
    (hdist : ∀ p : X → Vec3 ℝ, basic p → Measurable (fun x => dist x (p x))) {xs : X → List (Inter (Fin n) ℝ)}
    (hxs : basic xs) : Tame (fun x => nextHit eps (dist x) (xs x)) := by
  obtain ⟨L, hL, rfl⟩ := hxs
  unfold nextHit
  dsimp only
  refine Tame.elim (Tame.filter (p := fun _ y => decide (¬ |y.dist| < eps)) (Tame.basicList hL) ?_) ?_
  · rintro _ ⟨v, p, t, hp, ht, rfl⟩
    simp only [decide_eq_true_eq]
    meas
  · rintro _ ⟨M, hM, rfl⟩
    rcases M with _ | ⟨f, _ | ⟨g, M⟩⟩
    · exact ⟨_, Tame.ok Tame.none, fun x hx => by simp only [hx, List.map_nil]⟩
    · obtain ⟨v, p, t, hp, ht, rfl⟩ := hM f List.mem_cons_self
      exact ⟨fun x => .ok (some ⟨v, v, none, p x, t x⟩), Tame.ok (Tame.some (.of ⟨_, _, _, _, _, hp, ht, rfl⟩)),
        fun x hx => by simp only [hx, List.map_cons, List.map_nil]⟩
    · have hc := container_tame _ hM
      obtain ⟨v, p, t, hp, ht, rfl⟩ := hM f List.mem_cons_self
      obtain ⟨v', p', t', hp', ht', rfl⟩ := hM g (List.mem_cons_of_mem _ List.mem_cons_self)
      refine ⟨_, ?_, fun x hx => by simp only [hx, List.map_cons]; rfl⟩
      simp only [List.map_cons] at hc
      tame_step hc with _ (⟨e, rfl⟩ | ⟨_, ⟨c, rfl⟩, rfl⟩)
      · exact Tame.error e
      · exact Tame.ok (Tame.some (.of ⟨_, _, _, _, _, hp, hdist p hp, rfl⟩))

end Hits

/-! ### Tables -/

section Tables
variable {w : X → ℝ}

theorem Disc.nat {F : X → ℕ} (h : Measurable F) : Disc F :=
  ⟨Set.to_countable _, fun c => h (measurableSet_singleton c)⟩

/-- Cases on a number. -/
theorem Tame.index [Shape γ] {F : X → ℕ} (h : Measurable F) {G : ℕ → X → γ} (hG : ∀ k, Tame (G k)) :
    Tame (fun x => G (F x) x) :=
  Tame.cases (Disc.nat h) fun c _ => hG c

theorem segIdx_measurable {xs : X → ℕ → ℝ} (hxs : ∀ i, Measurable (fun x => xs x i)) (n : ℕ) (hw : Measurable w) :
    Measurable (fun x => segIdx (xs x) n (w x)) := by
  unfold segIdx
  refine measurable_findGreatest fun k _ => ?_
  have := hxs k
  meas

theorem interp_tame {xs ys : X → ℕ → ℝ} (hxs : ∀ i, Measurable (fun x => xs x i))
    (hys : ∀ i, Measurable (fun x => ys x i)) (n : ℕ) (hw : Measurable w) :
    Tame (fun x => npInterp (xs x) (ys x) n (w x)) := by
  have h0 := hxs 0
  have h1 := hxs (n - 1)
  unfold npInterp
  refine Tame.ite (by meas) Tame.none (Tame.ite (by meas) Tame.none ?_)
  refine Tame.index (segIdx_measurable hxs n hw) (G := fun j x => if j = n - 1 then some (ys x j)
    else if xs x j = w x then some (ys x j)
    else some ((ys x (j + 1) - ys x j) / (xs x (j + 1) - xs x j) * (w x - xs x j) + ys x j)) fun j => ?_
  have h2 := hxs j
  have h3 := hxs (j + 1)
  have h4 := hys j
  have h5 := hys (j + 1)
  refine Tame.ite (MeasurableSet.const _) (Tame.some (.of h4)) (Tame.ite (by meas) (Tame.some (.of h4))
    (Tame.some (.of ?_)))
  show Measurable _
  fun_prop

theorem search_measurable (a : ℕ → ℝ) (n : ℕ) (hw : Measurable w) : Measurable (fun x => searchLeft a n (w x)) := by
  have h : Tame (fun x => (List.range n).filter (fun i => a i < w x)) := by
    refine Tame.filter (h := fun _ => List.range n) (.of ⟨(List.range n).map fun i _ => i, ?_, ?_⟩) ?_
    · intro f hf
      obtain ⟨i, -, rfl⟩ := List.mem_map.1 hf
      exact ⟨i, rfl⟩
    · funext x
      simp [Function.comp_def]
    · rintro _ ⟨c, rfl⟩
      simp only [decide_eq_true_eq]
      meas
  have hd : Disc (fun x => ((List.range n).filter (fun i => a i < w x)).length) := by
    refine Tame.disc (g := List.length) h ?_
    rintro _ ⟨L, hL, rfl⟩
    simp only [List.length_map]
    exact Disc.const _
  exact measurable_to_countable' hd.2

theorem call_tame (D : Dist ℝ) (hw : Measurable w) : Tame (fun x => D.call (w x)) := by
  rcases D with y | ⟨T, hist⟩
  · exact Tame.ok (Tame.some (.of measurable_const))
  · unfold Dist.call Table.inRange
    dsimp only
    refine Tame.ite (by meas) (Tame.error _) (Tame.ite (MeasurableSet.const _) ?_ ?_)
    · exact Tame.index (search_measurable T.x T.n hw) (G := fun k _ => Except.ok (ε := Err) (some (T.y k)))
        fun k => Tame.ok (Tame.some (.of measurable_const))
    · exact Tame.ok (interp_tame (xs := fun _ => T.x) (ys := fun _ => T.y) (fun _ => measurable_const)
        (fun _ => measurable_const) _ hw)

theorem lookup_tame (D : Dist ℝ) (hw : Measurable w) : Tame (fun x => D.lookup (w x)) := by
  rcases D with y | ⟨T, hist⟩
  · exact Tame.error _
  · unfold Dist.lookup Table.inRange
    dsimp only
    refine Tame.ite (by meas) (Tame.error _) (Tame.ite (MeasurableSet.const _) ?_ ?_)
    · exact Tame.index (search_measurable T.x T.n hw) (G := fun k _ => Except.ok (ε := Err) (some (T.hcdf k)))
        fun k => Tame.ok (Tame.some (.of measurable_const))
    · exact Tame.ok (interp_tame (xs := fun _ => T.x) (ys := fun _ => T.cdf) (fun _ => measurable_const)
        (fun _ => measurable_const) _ hw)

theorem sample_tame (D : Dist ℝ) (hw : Measurable w) : Tame (fun x => D.sample (w x)) := by
  unfold Dist.sample
  refine Tame.ite (by meas) (Tame.error _) ?_
  rcases D with y | ⟨T, hist⟩
  · exact Tame.error _
  · dsimp only
    refine Tame.ite (MeasurableSet.const _) ?_ ?_
    · exact Tame.index (search_measurable T.hcdf T.n hw)
        (G := fun k _ => Except.ok (ε := Err) (some (if k < T.n then T.x k else T.x (T.n - 1))))
        fun k => Tame.ok (Tame.some (.of measurable_const))
    · exact Tame.ok (interp_tame (xs := fun _ => T.cdf) (ys := fun _ => T.x) (fun _ => measurable_const)
        (fun _ => measurable_const) _ hw)

end Tables

/-! ### Materials -/

section Materials
variable {w : X → ℝ} {s : X → Numbers}

theorem coefficient_tame (c : Comp) (hw : Measurable w) : Tame (fun x => c.coefficient (w x)) := by
  unfold Comp.coefficient
  tame_step (call_tame c.absDist hw) with _ (⟨e, rfl⟩ | ⟨_, rfl | ⟨v, hv, rfl⟩, rfl⟩)
  · exact Tame.error e
  · exact Tame.error _
  · exact Tame.ok (.of hv)

theorem coefficients_tame (comps : List Comp) (hw : Measurable w) : Tame (fun x => coefficients comps (w x)) := by
  unfold coefficients
  induction comps with
  | nil => exact Tame.ok Tame.nil
  | cons c comps ih =>
    simp only [List.mapM_cons]
    refine Tame.elim (coefficient_tame c hw) ?_
    rintro _ (⟨e, rfl⟩ | ⟨v, hv, rfl⟩)
    · exact ⟨_, Tame.error e, fun x hx => by rw [hx]; rfl⟩
    · refine ⟨fun x => (do let bs ← comps.mapM (fun c => c.coefficient (w x)); pure (v x :: bs)), ?_,
        fun x hx => by rw [hx]; rfl⟩
      refine Tame.elim ih ?_
      rintro _ (⟨e, rfl⟩ | ⟨l, hl, rfl⟩)
      · exact ⟨_, Tame.error e, fun x hx => by rw [hx]; rfl⟩
      · exact ⟨fun x => .ok (v x :: l x), Tame.ok (Tame.cons (.of hv) (.of hl)), fun x hx => by rw [hx]; rfl⟩

theorem sum_measurable {l : X → List ℝ} (hl : basic l) : Measurable (fun x => (l x).sum) := by
  obtain ⟨L, hL, rfl⟩ := hl
  induction L with
  | nil => simp
  | cons f L ih =>
    simp only [List.map_cons, List.sum_cons]
    exact (hL f List.mem_cons_self).add (ih fun g hg => hL g (List.mem_cons_of_mem _ hg))

/-- One number from the stream. -/
theorem next_measurable (hs : Measurable s) : Measurable (fun x => (reader.next (s x)).1) :=
  (measurable_pi_apply 0).comp hs

theorem rest_measurable (hs : Measurable s) : Measurable (fun x => (reader.next (s x)).2) :=
  measurable_pi_lambda _ fun i => (measurable_pi_apply (i + 1)).comp hs

theorem depth_tame (comps : List Comp) (hw : Measurable w) (hs : Measurable s) :
    Tame (fun x => penetrationDepth reader comps (w x) (s x)) := by
  unfold penetrationDepth
  tame_step (coefficients_tame comps hw) with _ (⟨e, rfl⟩ | ⟨cs, hcs, rfl⟩)
  · exact Tame.error e
  · have h1 := sum_measurable hcs
    have h2 := next_measurable hs
    refine Tame.ite (by meas) (Tame.ok (Tame.pair Tame.none (.of hs)))
      (Tame.ok (Tame.pair (Tame.some (.of ?_)) (.of (rest_measurable hs))))
    show Measurable _
    fun_prop

theorem cumsum_measurable {cs : X → List ℝ} (hcs : basic cs) (k : ℕ) : Measurable (fun x => cumsum (cs x) k) := by
  obtain ⟨L, hL, rfl⟩ := hcs
  unfold cumsum
  refine sum_measurable ⟨L.take k, fun f hf => hL f (List.mem_of_mem_take hf), ?_⟩
  funext x
  rw [List.map_take]

theorem foldl_max_measurable (l : List ℕ) {f : X → ℕ → ℝ} (hf : ∀ k, Measurable (fun x => f x k)) :
    ∀ {a : X → ℝ}, Measurable a → Measurable (fun x => l.foldl (fun m k => max m (f x k)) (a x)) := by
  induction l with
  | nil => exact fun h => h
  | cons k l ih =>
    intro a ha
    simp only [List.foldl_cons]
    exact ih (ha.max (hf k))

theorem pickIndex_tame {cs : X → List ℝ} {u : X → ℝ} (hcs : basic cs) (hu : Measurable u) :
    Tame (fun x => pickIndex (cs x) (u x)) := by
  have hsum := cumsum_measurable hcs
  obtain ⟨L, hL, rfl⟩ := hcs
  unfold pickIndex
  dsimp only
  have hmx := foldl_max_measurable (List.range L.length) (fun k => hsum (k + 1)) (hsum 1)
  simp only [List.length_map]
  refine Tame.ite ?_ (Tame.error _) (Tame.ite ?_ (Tame.error _) ?_)
  · have : {x | ∃ c ∈ L.map (fun f => f x), c < 0} = ⋃ f ∈ {f | f ∈ L}, {x | f x < 0} := by
      ext x
      simp
    rw [this]
    refine MeasurableSet.biUnion (L.finite_toSet).countable fun f hf => ?_
    exact measurable_lt (hL f hf) measurable_const
  · meas
  · have hp : ∀ i, Measurable (fun x => if i = 0 then 0 else cumsum (L.map (fun f => f x)) i /
        (List.range L.length).foldl (fun m k => max m (cumsum (L.map (fun f => f x)) (k + 1)))
          (cumsum (L.map (fun f => f x)) 1)) := by
      intro i
      rcases i with _ | i
      · simp
      · simp only [Nat.add_eq_zero_iff, one_ne_zero, and_false, if_false]
        exact (hsum (i + 1)).div hmx
    have hi := interp_tame (xs := fun x i => if i = 0 then 0 else cumsum (L.map (fun f => f x)) i /
        (List.range L.length).foldl (fun m k => max m (cumsum (L.map (fun f => f x)) (k + 1)))
          (cumsum (L.map (fun f => f x)) 1)) (ys := fun _ k => (k : ℝ)) hp (fun _ => measurable_const)
        (L.length + 1) hu
    have hc : Tame (fun x => npInterpClamp (fun i => if i = 0 then 0 else cumsum (L.map (fun f => f x)) i /
        (List.range L.length).foldl (fun m k => max m (cumsum (L.map (fun f => f x)) (k + 1)))
          (cumsum (L.map (fun f => f x)) 1)) (fun k => (k : ℝ)) (L.length + 1) (u x)) := by
      unfold npInterpClamp
      have h0 := hp 0
      have h1 := hp (L.length + 1 - 1)
      refine Tame.ite (measurable_lt hu h0) (.of measurable_const)
        (Tame.ite (measurable_lt h1 hu) (.of measurable_const) ?_)
      tame_step hi with _ (rfl | ⟨v, hv, rfl⟩)
      · exact .of measurable_const
      · exact .of hv
    exact Tame.index hc.measurable.nat_floor (G := fun k _ => Except.ok (ε := Err) k) fun k => Tame.ok (.of ⟨k, rfl⟩)

theorem pick_tame (comps : List Comp) (hw : Measurable w) (hs : Measurable s) :
    Tame (fun x => pickComponent reader comps (w x) (s x)) := by
  unfold pickComponent
  tame_step (coefficients_tame comps hw) with _ (⟨e, rfl⟩ | ⟨cs, hcs, rfl⟩)
  · exact Tame.error e
  · tame_step (pickIndex_tame hcs (next_measurable hs)) with _ (⟨e, rfl⟩ | ⟨_, ⟨i, rfl⟩, rfl⟩)
    · exact Tame.error e
    · rcases comps[i]? with _ | c
      · exact Tame.error _
      · exact Tame.ok (Tame.pair (.of ⟨c, rfl⟩) (.of (rest_measurable hs)))

end Materials

end PV.Measured
