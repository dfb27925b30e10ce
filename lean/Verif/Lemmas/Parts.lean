import Verif.Spec.Parts
import Verif.Lemmas.Material

/-!
Choosing among parts, and two scenes whose histories differ in the names of components.
-/

namespace PV.Parts
open PV PV.Library

/-! ### Walking along the coefficients -/

section walk
variable {β γ : Type}

/-- Walk along pieces of given lengths until `t` is used up. -/
noncomputable def walk (r : ℝ → ℝ → Prop) (t : ℝ) : List (β × ℝ) → Option β
  | [] => none
  | (b, x) :: l => open Classical in if r t x then some b else walk r (t - x) l

/-- `<` and `≤`. -/
structure Edge (r : ℝ → ℝ → Prop) : Prop where
  more : ∀ {t x y}, r t x → 0 ≤ y → r t (x + y)
  shift : ∀ {t x y}, r (t - x) y ↔ r t (x + y)

theorem edge_lt : Edge (· < ·) := ⟨fun h h' => by linarith, by intro t x y; constructor <;> intro h <;> linarith⟩
theorem edge_le : Edge (· ≤ ·) := ⟨fun h h' => by linarith, by intro t x y; constructor <;> intro h <;> linarith⟩

variable {r : ℝ → ℝ → Prop}

/-- A group of pieces behaves like one piece of their total length. -/
theorem walk_group (hr : Edge r) : ∀ (g l : List (β × ℝ)) (t : ℝ), g ≠ [] → (∀ e ∈ g, 0 ≤ e.2) →
    (r t (g.map (·.2)).sum → ∃ e ∈ g, walk r t (g ++ l) = some e.1) ∧
    (¬ r t (g.map (·.2)).sum → walk r t (g ++ l) = walk r (t - (g.map (·.2)).sum) l)
  | [], _, _, h, _ => absurd rfl h
  | [(b, x)], l, t, _, _ => by
    simp only [List.map_cons, List.map_nil, List.sum_cons, List.sum_nil, add_zero, List.cons_append, List.nil_append]
    constructor
    · intro h
      exact ⟨_, List.mem_cons_self, by unfold walk; rw [if_pos h]⟩
    · intro h
      conv_lhs => unfold walk
      rw [if_neg h]
  | (b, x) :: e :: g, l, t, _, h0 => by
    have ih := walk_group hr (e :: g) l (t - x) (by simp) fun y hy => h0 y (List.mem_cons_of_mem _ hy)
    have hs : ((((b, x) :: e :: g : List (β × ℝ)).map (·.2)).sum) = x + ((e :: g).map (·.2)).sum := by simp
    have hn : 0 ≤ ((e :: g).map (·.2)).sum := List.sum_nonneg fun y hy => by
      obtain ⟨z, hz, rfl⟩ := List.mem_map.1 hy
      exact h0 z (List.mem_cons_of_mem _ hz)
    rw [hs, List.cons_append]
    by_cases hx : r t x
    · constructor
      · intro _
        exact ⟨_, List.mem_cons_self, by unfold walk; rw [if_pos hx]⟩
      · intro h
        exact absurd (hr.more hx hn) h
    · have hw : walk r t ((b, x) :: (e :: g ++ l)) = walk r (t - x) (e :: g ++ l) := by
        conv_lhs => unfold walk
        rw [if_neg hx]
      rw [hw]
      constructor
      · intro h
        obtain ⟨y, hy, hy'⟩ := ih.1 (hr.shift.2 h)
        exact ⟨y, List.mem_cons_of_mem _ hy, hy'⟩
      · intro h
        rw [ih.2 fun h' => h (hr.shift.1 h'), sub_sub]

/-- Pieces cut into parts: where the walk among the parts ends, the walk among the whole pieces ends. -/
theorem walk_parts (hr : Edge r) {P : β → γ → Prop} : ∀ {l : List (β × ℝ)} {gs : List (List (γ × ℝ))},
    List.Forall₂ (fun e g => g ≠ [] ∧ (∀ x ∈ g, 0 ≤ x.2 ∧ P e.1 x.1) ∧ e.2 = (g.map (·.2)).sum) l gs →
    ∀ t, Option.Rel P (walk r t l) (walk r t gs.flatten)
  | _, _, .nil, t => .none
  | (b, x) :: l, g :: gs, .cons ⟨h1, h2, h3⟩ h, t => by
    dsimp only at h3
    obtain ⟨a1, a2⟩ := walk_group hr g gs.flatten t h1 fun e he => (h2 e he).1
    rw [List.flatten_cons]
    conv =>
      arg 2
      unfold walk
    by_cases hx : r t x
    · rw [if_pos hx]
      obtain ⟨e, he, h'⟩ := a1 (h3 ▸ hx)
      rw [h']
      exact .some (h2 e he).2
    · rw [if_neg hx, a2 (h3 ▸ hx), ← h3]
      exact walk_parts hr h _

/-- Where the walk ends. -/
theorem walk_eq (hr : Edge r) : ∀ (l : List (β × ℝ)) (i : ℕ) (t : ℝ), i < l.length →
    (∀ j < i, ¬ r t (cumsum (l.map (·.2)) (j + 1))) → r t (cumsum (l.map (·.2)) (i + 1)) →
    walk r t l = l[i]?.map (·.1)
  | [], _, _, h, _, _ => by simp at h
  | (b, x) :: l, 0, t, _, _, h => by
    have : r t x := by simpa [cumsum] using h
    unfold walk
    rw [if_pos this]
    rfl
  | (b, x) :: l, i + 1, t, hi, hj, h => by
    have h0 : ¬ r t x := by simpa [cumsum] using hj 0 (by omega)
    unfold walk
    rw [if_neg h0, List.getElem?_cons_succ]
    refine walk_eq hr l i (t - x) (by simpa using hi) (fun j hj' => ?_) ?_
    · have := hj (j + 1) (by omega)
      rw [hr.shift]
      simpa [cumsum] using this
    · rw [hr.shift]
      simpa [cumsum] using h

end walk

/-- The choice of the Python tracer. -/
theorem pick_walk {comps : List Comp} {cs : List ℝ} (hl : cs.length = comps.length) (h : ∀ c ∈ cs, 0 ≤ c) (hs : 0 < cs.sum)
    {u : ℝ} (h0 : 0 ≤ u) (h1 : u < 1) : ∃ i, pickIndex cs u = .ok i ∧ i < cs.length ∧
      walk (· < ·) (u * cs.sum) (comps.zip cs) = comps[i]? := by
  obtain ⟨i, e, hi, a, b⟩ := pickIndex_spec h hs h0 h1
  refine ⟨i, e, hi, ?_⟩
  have hz : (comps.zip cs).map (·.2) = cs := List.map_snd_zip (by omega)
  rw [walk_eq edge_lt _ i _ (by simp; omega)]
  · rw [← List.getElem?_map, List.map_fst_zip (by omega)]
  · intro j hj
    rw [hz, not_lt]
    rw [div_le_iff₀ hs] at a
    exact (cumsum_mono h (j + 1) i (by omega) (by omega)).trans a
  · rw [hz]
    rwa [lt_div_iff₀ hs] at b

/-- The choice of the engine. -/
theorem kPick_walk {comps : List Comp} {cs : List ℝ} (hl : cs.length = comps.length) (hs : 0 < cs.sum)
    {u : ℝ} (h1 : u ≤ 1) : kPick cs u < cs.length ∧ walk (· ≤ ·) (u * cs.sum) (comps.zip cs) = comps[kPick cs u]? := by
  obtain ⟨hi, a, b⟩ := kPick_spec hs h1
  refine ⟨hi, ?_⟩
  have hz : (comps.zip cs).map (·.2) = cs := List.map_snd_zip (by omega)
  rw [walk_eq edge_le _ (kPick cs u) _ (by simp; omega)]
  · rw [← List.getElem?_map, List.map_fst_zip (by omega)]
  · intro j hj
    rw [hz, not_le]
    exact b j hj
  · rw [hz]
    exact a

/-! ### Histories -/

variable {ν κ σ : Type} [DecidableEq ν] {f : String → String}

/-- `O'` does what `O` does, with a component `p` where `O` has a component `c` with `P c p`. -/
structure Sim (f : String → String) (P : κ → κ → Prop) (O O' : Ops ℝ ν κ σ) : Prop where
  root : O'.root = O.root
  name : O'.name = O.name
  eps : O'.eps = O.eps
  dist : O'.distBetween = O.distBetween
  inter : O'.intersections = O.intersections
  index : O'.refractiveIndex = O.refractiveIndex
  depth : O'.penetrationDepth = O.penetrationDepth
  component : ∀ v w s₀ d s₁ s, O.penetrationDepth v w s₀ = .ok (some d, s₁) → ∃ c p s',
    O.component v w s = .ok (c, s') ∧ O'.component v w s = .ok (p, s') ∧ P c p
  compName : ∀ c p, P c p → f (O'.compName p) = O.compName c
  compKind : ∀ c p, P c p → O'.compKind p = O.compKind c
  isRadiative : ∀ c p, P c p → ∀ r s, O.isRadiative c (r.renamed f) s = O'.isRadiative p r s
  emit : ∀ c p, P c p → ∀ v r s, O.emit v c (r.renamed f) s = (O'.emit v p r s).map (Prod.map (·.renamed f) id)
  absorb : ∀ c p, P c p → ∀ r s, O.nonradiativeAbsorb c (r.renamed f) s =
    (O'.nonradiativeAbsorb p r s).map (Prod.map (·.renamed f) id)
  normal : O'.normal = O.normal
  isReflected : ∀ h c a r s, O.isReflected h c a (r.renamed f) s = O'.isReflected h c a r s
  reflect : ∀ h c a r s, O.reflect h c a (r.renamed f) s = (O'.reflect h c a r s).map (Prod.map (·.renamed f) id)
  transmit : ∀ h c a r s, O.transmit h c a (r.renamed f) s = (O'.transmit h c a r s).map (Prod.map (·.renamed f) id)

def nextRenamed (f : String → String) : Next ℝ σ → Next ℝ σ
  | .cont r s => .cont (r.renamed f) s
  | .stop => .stop
  | .raise e => .raise e

variable {P : κ → κ → Prop} {O O' : Ops ℝ ν κ σ}

/-- What a pass does. -/
def passRenamed (f : String → String) (x : List (Step ℝ) × Next ℝ σ) : List (Step ℝ) × Next ℝ σ :=
  (x.1.map (·.renamed f), nextRenamed f x.2)

theorem absorb_parts (h : Sim f P O O') {c : ν} {ray : Ray ℝ} {s₀ s₁ : σ} {d' : ℝ}
    (hd : O.penetrationDepth c ray.wavelength s₀ = .ok (some d', s₁)) (d : ℝ) (s : σ) :
    absorbBody O c (ray.renamed f) d s = passRenamed f (absorbBody O' c ray d s) := by
  obtain ⟨k, p, s', h1, h2, hp⟩ := h.component c ray.wavelength s₀ d' s₁ s hd
  unfold absorbBody
  have e : (ray.renamed f).propagate d (O.refractiveIndex c) = (ray.propagate d (O.refractiveIndex c)).renamed f := rfl
  rw [h.index, e]
  have hw : ((ray.propagate d (O.refractiveIndex c)).renamed f).wavelength = ray.wavelength := rfl
  have hw' : (ray.propagate d (O.refractiveIndex c)).wavelength = ray.wavelength := rfl
  dsimp only
  rw [hw, hw', h1, h2]
  generalize ray.propagate d (O.refractiveIndex c) = r
  dsimp only
  rw [h.isRadiative k p hp, ← h.compName k p hp, h.name]
  rcases O'.isRadiative p r s' with e | ⟨b, s2⟩
  · rfl
  · cases b with
    | true =>
      dsimp only
      rw [h.emit k p hp, h.compKind k p hp]
      rcases O'.emit c p r s2 with e | ⟨r', s3⟩
      · rfl
      · simp only [Except.map, Prod.map, id]
        cases O.compKind k <;> rfl
    | false =>
      dsimp only
      rw [h.absorb k p hp, h.compKind k p hp]
      rcases O'.nonradiativeAbsorb p r s2 with e | ⟨r', s3⟩
      · rfl
      · simp only [Except.map, Prod.map, id]
        cases O.compKind k <;> rfl

theorem surface_parts (h : Sim f P O O') (x : HitInfo ν ℝ) (ray : Ray ℝ) (s : σ) :
    surfaceBody O x (ray.renamed f) s = passRenamed f (surfaceBody O' x ray s) := by
  unfold surfaceBody
  have e : (ray.renamed f).propagate x.dist (O.refractiveIndex x.container) =
    (ray.propagate x.dist (O.refractiveIndex x.container)).renamed f := rfl
  rw [h.index, e]
  dsimp only
  generalize ray.propagate x.dist (O.refractiveIndex x.container) = r
  have e2 : (r.renamed f).position = r.position := rfl
  rw [e2, h.normal, h.name]
  rcases O.normal x.hit r.position with e | m
  · rfl
  · dsimp only
    rw [h.isReflected]
    rcases O'.isReflected x.hit x.container x.adjacent r s with e | ⟨b, s2⟩
    · rfl
    · cases b with
      | true =>
        dsimp only
        rw [h.reflect]
        rcases O'.reflect x.hit x.container x.adjacent r s2 with e | ⟨r', s3⟩ <;> rfl
      | false =>
        dsimp only
        rw [h.transmit]
        rcases O'.transmit x.hit x.container x.adjacent r s2 with e | ⟨r', s3⟩
        · rfl
        · cases x.adjacent <;> rfl

theorem body_parts (h : Sim f P O O') (maxsteps : ℕ) (maxpath : Option ℝ) (count : ℕ) (ray : Ray ℝ) (s : σ) :
    body O maxsteps maxpath count (ray.renamed f) s = passRenamed f (body O' maxsteps maxpath count ray s) := by
  unfold body
  have e1 : (ray.renamed f).position = ray.position := rfl
  have e2 : (ray.renamed f).direction = ray.direction := rfl
  have e3 : (ray.renamed f).travelled = ray.travelled := rfl
  have e4 : (ray.renamed f).wavelength = ray.wavelength := rfl
  rw [e1, e2, e3, e4, h.inter, h.eps, h.dist, h.root, h.name, h.index, h.depth]
  rcases O.intersections ray.position ray.direction with e | xs
  · rfl
  dsimp only
  rcases nextHit O.eps (O.distBetween ray.position) xs with e | (_ | x)
  · rfl
  · rfl
  dsimp only
  split_ifs with hk hr
  · rfl
  · rfl
  · rcases hp : O.penetrationDepth x.container ray.wavelength s with e | ⟨D, s1⟩
    · rfl
    dsimp only
    cases hD : isAbsorbed D x.dist with
    | some d =>
      cases D with
      | none => simp [isAbsorbed] at hD
      | some d' => exact absorb_parts h hp d s1
    | none => exact surface_parts h x ray s1

theorem loop_parts (h : Sim f P O O') (maxsteps : ℕ) (maxpath : Option ℝ) : ∀ (fuel count : ℕ) (ray : Ray ℝ) (s : σ),
    loop O maxsteps maxpath fuel count (ray.renamed f) s =
      (((loop O' maxsteps maxpath fuel count ray s).1.map (·.renamed f)), (loop O' maxsteps maxpath fuel count ray s).2)
  | 0, _, _, _ => rfl
  | fuel + 1, count, ray, s => by
    unfold loop
    rw [body_parts h]
    rcases body O' maxsteps maxpath (count + 1) ray s with ⟨es, (⟨r, t⟩ | _ | e)⟩
    · simp only [passRenamed, nextRenamed, List.map_append]
      rw [loop_parts h maxsteps maxpath fuel (count + 1) r t]
    · rfl
    · rfl

end PV.Parts
