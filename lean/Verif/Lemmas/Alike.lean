import Verif.Spec.Moved
import Verif.Lemmas.Vec

/-!
Two scenes between which nodes, rays and callbacks correspond give corresponding histories.
-/

namespace PV.Alike
open PV
variable {ν ν' κ σ : Type} [DecidableEq ν] [DecidableEq ν']

/-- Everything but the choice of the next surface corresponds: `e` for nodes, `g` for space. The
surface of the root is never used. -/
structure Sim (e : ν → ν') (g : Affine ℝ) (O : Ops ℝ ν κ σ) (O' : Ops ℝ ν' κ σ) : Prop where
  root : ∀ v, e v = O'.root ↔ v = O.root
  name : ∀ v, O'.name (e v) = O.name v
  index : ∀ v, O'.refractiveIndex (e v) = O.refractiveIndex v
  depth : ∀ v w s, O'.penetrationDepth (e v) w s = O.penetrationDepth v w s
  component : ∀ v w s, O'.component (e v) w s = O.component v w s
  compName : ∀ c, O'.compName c = O.compName c
  compKind : ∀ c, O'.compKind c = O.compKind c
  isRadiative : ∀ c r s, O'.isRadiative c (r.representation g) s = O.isRadiative c r s
  emit : ∀ v c r s w t t', O.component v w t = .ok (c, t') →
    O'.emit (e v) c (r.representation g) s =
      (O.emit v c r s).map (Prod.map (·.representation g) id)
  absorb : ∀ c r s, O'.nonradiativeAbsorb c (r.representation g) s =
    (O.nonradiativeAbsorb c r s).map (Prod.map (·.representation g) id)
  normal : ∀ v, v ≠ O.root → ∀ p, O'.normal (e v) (g.point p) = (O.normal v p).map g.vec
  isReflected : ∀ h c a r s, h ≠ O.root →
    O'.isReflected (e h) (e c) (a.map e) (r.representation g) s = O.isReflected h c a r s
  reflect : ∀ h c a r s, h ≠ O.root → O'.reflect (e h) (e c) (a.map e) (r.representation g) s =
    (O.reflect h c a r s).map (Prod.map (·.representation g) id)
  transmit : ∀ h c a r s, h ≠ O.root → O'.transmit (e h) (e c) (a.map e) (r.representation g) s =
    (O.transmit h c a r s).map (Prod.map (·.representation g) id)

/-- The same surface is next, between the same objects and at the same distance; the distance of the
world's own surface may differ unless `strict`. -/
def HitLike (strict : Prop) (root : ν) (e : ν → ν') :
    Except Err (Option (HitInfo ν ℝ)) → Except Err (Option (HitInfo ν' ℝ)) → Prop
  | .error e₁, .error e₂ => e₁ = e₂
  | .ok none, .ok none => True
  | .ok (some h), .ok (some h') => h'.hit = e h.hit ∧ h'.container = e h.container ∧
      h'.adjacent = h.adjacent.map e ∧ (strict ∨ h.hit ≠ root → h'.dist = h.dist)
  | _, _ => False

/-- The same step; where the world is left may differ unless `strict`. -/
def StepLike (strict : Prop) (g : Affine ℝ) (a a' : Step ℝ) : Prop :=
  a' = a.moved g ∨ ¬ strict ∧ a.event = .exit ∧ a'.event = .exit ∧ a'.info = (a.moved g).info ∧
    a'.ray.direction = g.vec a.ray.direction ∧ a'.ray.wavelength = a.ray.wavelength ∧
    a'.ray.source = a.ray.source

/-- The same way of ending a pass. -/
def nextMoved (g : Affine ℝ) : Next ℝ σ → Next ℝ σ
  | .cont r s => .cont (r.representation g) s
  | .stop => .stop
  | .raise e => .raise e

theorem propagate_moved (g : Affine ℝ) (r : Ray ℝ) (d m : ℝ) :
    (r.representation g).propagate d m = (r.propagate d m).representation g := by
  simp only [Ray.representation, Ray.propagate, Affine.point_add_smul]

theorem StepLike.refl (strict : Prop) (g : Affine ℝ) (a : Step ℝ) : StepLike strict g a (a.moved g) :=
  .inl rfl

variable {e : ν → ν'} {g : Affine ℝ} {O : Ops ℝ ν κ σ} {O' : Ops ℝ ν' κ σ}

theorem absorb_alike (h : Sim e g O O') (strict : Prop) (c : ν) (ray : Ray ℝ) (d : ℝ) (s : σ) :
    List.Forall₂ (StepLike strict g) (absorbBody O c ray d s).1
      (absorbBody O' (e c) (ray.representation g) d s).1 ∧
    (absorbBody O' (e c) (ray.representation g) d s).2 = nextMoved g (absorbBody O c ray d s).2 := by
  unfold absorbBody
  simp only [h.index, propagate_moved]
  generalize hr : ray.propagate d (O.refractiveIndex c) = r
  have hw : (r.representation g).wavelength = r.wavelength := rfl
  rw [hw, h.component]
  cases hc : O.component c r.wavelength s with
  | error e => exact ⟨.nil, rfl⟩
  | ok p =>
    obtain ⟨k, s₁⟩ := p
    simp only [h.isRadiative, h.compName, h.name]
    cases hq : O.isRadiative k r s₁ with
    | error e => exact ⟨.cons (.inl rfl) .nil, rfl⟩
    | ok p =>
      obtain ⟨b, s₂⟩ := p
      cases b with
      | true =>
        simp only [h.emit c k r s₂ _ _ _ hc]
        cases he : O.emit c k r s₂ with
        | error e => exact ⟨.cons (.inl rfl) .nil, rfl⟩
        | ok p =>
          obtain ⟨r', s₃⟩ := p
          simp only [Except.map, Prod.map, id, h.compKind]
          cases hk : O.compKind k <;>
            first
              | exact ⟨.cons (.inl rfl) (.cons (.inl rfl) .nil), rfl⟩
              | exact ⟨.cons (.inl rfl) .nil, rfl⟩
      | false =>
        simp only [h.absorb]
        cases he : O.nonradiativeAbsorb k r s₂ with
        | error e => exact ⟨.cons (.inl rfl) .nil, rfl⟩
        | ok p =>
          obtain ⟨r', s₃⟩ := p
          simp only [Except.map, Prod.map, id, h.compKind]
          cases hk : O.compKind k <;> exact ⟨.cons (.inl rfl) (.cons (.inl rfl) .nil), rfl⟩

theorem surface_alike (h : Sim e g O O') (strict : Prop) {x : HitInfo ν ℝ} {x' : HitInfo ν' ℝ}
    (hx : x.hit ≠ O.root) (h1 : x'.hit = e x.hit) (h2 : x'.container = e x.container)
    (h3 : x'.adjacent = x.adjacent.map e) (h4 : x'.dist = x.dist) (ray : Ray ℝ) (s : σ) :
    List.Forall₂ (StepLike strict g) (surfaceBody O x ray s).1
      (surfaceBody O' x' (ray.representation g) s).1 ∧
    (surfaceBody O' x' (ray.representation g) s).2 = nextMoved g (surfaceBody O x ray s).2 := by
  unfold surfaceBody
  rw [h1, h2, h3, h4]
  simp only [h.index, propagate_moved]
  generalize hr : ray.propagate x.dist (O.refractiveIndex x.container) = r
  have hw : (r.representation g).position = g.point r.position := rfl
  rw [hw, h.normal _ hx]
  cases hn : O.normal x.hit r.position with
  | error e => exact ⟨.nil, rfl⟩
  | ok m =>
    simp only [Except.map, h.isReflected _ _ _ _ _ hx]
    cases hq : O.isReflected x.hit x.container x.adjacent r s with
    | error e => exact ⟨.nil, rfl⟩
    | ok p =>
      obtain ⟨b, s₂⟩ := p
      have hadj : (x.adjacent.map e).map O'.name = x.adjacent.map O.name := by
        rw [Option.map_map]
        congr 1
        funext v
        exact h.name v
      cases b with
      | true =>
        simp only [h.reflect _ _ _ _ _ hx]
        cases he : O.reflect x.hit x.container x.adjacent r s₂ with
        | error e => exact ⟨.nil, rfl⟩
        | ok p =>
          obtain ⟨r', s₃⟩ := p
          simp only [Except.map, Prod.map, id, h.name, hadj]
          exact ⟨.cons (.inl rfl) .nil, rfl⟩
      | false =>
        simp only [h.transmit _ _ _ _ _ hx]
        cases he : O.transmit x.hit x.container x.adjacent r s₂ with
        | error e => exact ⟨.nil, rfl⟩
        | ok p =>
          obtain ⟨r', s₃⟩ := p
          simp only [Except.map, Prod.map, id, h.name, hadj]
          cases ha : x.adjacent with
          | none => exact ⟨.nil, rfl⟩
          | some v => exact ⟨.cons (.inl rfl) .nil, rfl⟩

theorem body_alike (h : Sim e g O O') (strict : Prop) (maxsteps : ℕ) (maxpath : Option ℝ) (count : ℕ)
    (ray : Ray ℝ) (s : σ) {xs : List (Inter ν ℝ)} {xs' : List (Inter ν' ℝ)}
    (hi : O.intersections ray.position ray.direction = .ok xs)
    (hi' : O'.intersections (g.point ray.position) (g.vec ray.direction) = .ok xs')
    (hx : HitLike strict O.root e (nextHit O.eps (O.distBetween ray.position) xs)
      (nextHit O'.eps (O'.distBetween (g.point ray.position)) xs')) :
    List.Forall₂ (StepLike strict g) (body O maxsteps maxpath count ray s).1
      (body O' maxsteps maxpath count (ray.representation g) s).1 ∧
    (body O' maxsteps maxpath count (ray.representation g) s).2 =
      nextMoved g (body O maxsteps maxpath count ray s).2 := by
  unfold body
  have e1 : (ray.representation g).position = g.point ray.position := rfl
  have e2 : (ray.representation g).direction = g.vec ray.direction := rfl
  have e3 : (ray.representation g).travelled = ray.travelled := rfl
  have e4 : (ray.representation g).wavelength = ray.wavelength := rfl
  rw [e1, e2, e3, e4, hi, hi']
  simp only
  generalize nextHit O.eps (O.distBetween ray.position) xs = a at hx
  generalize nextHit O'.eps (O'.distBetween (g.point ray.position)) xs' = a' at hx
  cases a with
  | error e₁ =>
    cases a' with
    | error e₂ => simp only [HitLike] at hx; subst hx; exact ⟨.nil, rfl⟩
    | ok y => cases y <;> exact absurd hx (by simp [HitLike])
  | ok y =>
    cases y with
    | none =>
      cases a' with
      | error e₂ => exact absurd hx (by simp [HitLike])
      | ok y => cases y with
        | none => exact ⟨.nil, rfl⟩
        | some y => exact absurd hx (by simp [HitLike])
    | some x =>
      cases a' with
      | error e₂ => exact absurd hx (by simp [HitLike])
      | ok y => cases y with
        | none => exact absurd hx (by simp [HitLike])
        | some x' =>
          obtain ⟨h1, h2, h3, h4⟩ := hx
          have hadj : (x.adjacent.map e).map O'.name = x.adjacent.map O.name := by
            rw [Option.map_map]
            congr 1
            funext v
            exact h.name v
          simp only [h1, h2, h3, h.root, h.name, h.depth, h.index, hadj]
          split_ifs with hk hr
          · exact ⟨.cons (.inl rfl) .nil, rfl⟩
          · refine ⟨.cons ?_ .nil, rfl⟩
            by_cases hs : strict
            · rw [h4 (.inl hs), propagate_moved]
              exact .inl rfl
            · exact .inr ⟨hs, rfl, rfl, rfl, rfl, rfl, rfl⟩
          · have hd := h4 (.inr hr)
            cases hp : O.penetrationDepth x.container ray.wavelength s with
            | error e => exact ⟨.nil, rfl⟩
            | ok p =>
              obtain ⟨dp, s₁⟩ := p
              simp only [hd]
              cases isAbsorbed dp x.dist with
              | some d => exact absorb_alike h strict _ ray d s₁
              | none => exact surface_alike h strict hr h1 h2 h3 hd ray s₁

theorem loop_alike (h : Sim e g O O') (strict : Prop) (maxsteps : ℕ) (maxpath : Option ℝ)
    (P : ℕ → Ray ℝ → σ → Prop)
    (hP : ∀ count ray s, P count ray s → ∃ xs xs',
      O.intersections ray.position ray.direction = .ok xs ∧
      O'.intersections (g.point ray.position) (g.vec ray.direction) = .ok xs' ∧
      HitLike strict O.root e (nextHit O.eps (O.distBetween ray.position) xs)
        (nextHit O'.eps (O'.distBetween (g.point ray.position)) xs'))
    (hn : ∀ count ray s ray' s', P count ray s →
      (body O maxsteps maxpath (count + 1) ray s).2 = .cont ray' s' → P (count + 1) ray' s') :
    ∀ fuel count ray s, P count ray s →
      List.Forall₂ (StepLike strict g) (loop O maxsteps maxpath fuel count ray s).1
        (loop O' maxsteps maxpath fuel count (ray.representation g) s).1 ∧
      (loop O' maxsteps maxpath fuel count (ray.representation g) s).2 =
        (loop O maxsteps maxpath fuel count ray s).2 := by
  intro fuel
  induction fuel with
  | zero => intro count ray s _; exact ⟨.nil, rfl⟩
  | succ fuel ih =>
    intro count ray s hp
    obtain ⟨xs, xs', hi, hi', hx⟩ := hP count ray s hp
    obtain ⟨b1, b2⟩ := body_alike h strict maxsteps maxpath (count + 1) ray s hi hi' hx
    have hn' := hn count ray s
    unfold loop
    generalize body O maxsteps maxpath (count + 1) ray s = b at b1 b2 hn'
    generalize body O' maxsteps maxpath (count + 1) (ray.representation g) s = b' at b1 b2
    obtain ⟨es, nx⟩ := b
    obtain ⟨es', nx'⟩ := b'
    simp only at b1 b2 hn'
    subst b2
    cases nx with
    | stop => exact ⟨b1, rfl⟩
    | raise e => exact ⟨b1, rfl⟩
    | cont r t =>
      obtain ⟨k1, k2⟩ := ih (count + 1) r t (hn' r t hp rfl)
      simp only [nextMoved]
      exact ⟨List.rel_append b1 k1, k2⟩

/-- Everything corresponds, exactly. -/
theorem forall₂_strict {l l' : List (Step ℝ)} (h : List.Forall₂ (StepLike True g) l l') :
    l' = l.map (Step.moved g) := by
  induction h with
  | nil => rfl
  | cons hd _ ih =>
    rcases hd with hd | hd
    · rw [hd, ih]; rfl
    · exact absurd trivial hd.1

end PV.Alike

namespace PV.Alike
open PV
variable {ν ν' : Type} [DecidableEq ν] [DecidableEq ν']

/-- An intersection with its node renamed and its point moved. -/
def interMap (e : ν → ν') (f : Vec3 ℝ → Vec3 ℝ) (x : Inter ν ℝ) : Inter ν' ℝ := ⟨e x.hit, f x.point, x.dist⟩

theorem sortedBy_map {α β γ : Type} [LinearOrder α] (m : β → γ) {k : β → α} {k' : γ → α} {l : List β}
    (h : ∀ x ∈ l, k' (m x) = k x) : sortedBy k' (l.map m) = (sortedBy k l).map m := by
  unfold sortedBy
  rw [List.map_insertionSort (r := fun a b => k a ≤ k b) (s := fun a b => k' a ≤ k' b) m l]
  intro a ha b hb
  rw [h a ha, h b hb]

theorem findContainer_map {e : ν → ν'} (he : Function.Injective e) (f : Vec3 ℝ → Vec3 ℝ)
    (l : List (Inter ν ℝ)) :
    findContainer (l.map (interMap e f)) = (findContainer l).map e := by
  have key : ∀ l : List (Inter ν ℝ),
      sortedBy (·.dist) ((l.map (interMap e f)).filter
        (fun x => ((l.map (interMap e f)).map (·.hit)).count x.hit = 1)) =
      (sortedBy (·.dist) (l.filter (fun x => (l.map (·.hit)).count x.hit = 1))).map (interMap e f) := by
    intro l
    rw [List.filter_map, sortedBy_map]
    · congr 2
      apply List.filter_congr
      intro x _
      have : (l.map (interMap e f)).map (·.hit) = (l.map (·.hit)).map e := by
        simp [interMap, Function.comp_def]
      simp only [Function.comp, this]
      have : (interMap e f x).hit = e x.hit := rfl
      rw [this, List.count_map_of_injective _ _ he]
    · intro x _; rfl
  match l with
  | [] => rfl
  | [x] => rfl
  | x :: y :: l =>
    unfold findContainer
    simp only [List.map_cons]
    have := key (x :: y :: l)
    simp only [List.map_cons] at this
    rw [this]
    cases sortedBy (·.dist) ((x :: y :: l).filter
      (fun z => (x.hit :: y.hit :: l.map (·.hit)).count z.hit = 1)) <;> rfl

theorem nextHit_map {e : ν → ν'} (he : Function.Injective e) (f : Vec3 ℝ → Vec3 ℝ) (strict : Prop)
    (root : ν) (eps : ℝ) {db db' : Vec3 ℝ → ℝ} {l : List (Inter ν ℝ)}
    (hd : ∀ x ∈ l, db' (f x.point) = db x.point) :
    HitLike strict root e (nextHit eps db l) (nextHit eps db' (l.map (interMap e f))) := by
  unfold nextHit
  have hf : (l.map (interMap e f)).filter (fun x => ¬ |x.dist| < eps) =
      (l.filter (fun x => ¬ |x.dist| < eps)).map (interMap e f) := by
    rw [List.filter_map]; rfl
  rw [hf]
  have hd' : ∀ x ∈ l.filter (fun x => ¬ |x.dist| < eps), db' (f x.point) = db x.point :=
    fun x hx => hd x (List.mem_filter.1 hx).1
  generalize l.filter (fun x => ¬ |x.dist| < eps) = k at hd'
  match k with
  | [] => exact trivial
  | [x] => exact ⟨rfl, rfl, rfl, fun _ => rfl⟩
  | x :: y :: k =>
    simp only [List.map_cons]
    have := findContainer_map he f (x :: y :: k)
    simp only [List.map_cons] at this
    rw [this]
    cases findContainer (x :: y :: k) with
    | error e => exact rfl
    | ok c =>
      refine ⟨rfl, rfl, ?_, fun _ => hd' x (by simp)⟩
      simp only [interMap, he.eq_iff, Option.map_some]
      split_ifs <;> rfl

end PV.Alike
