import Verif.Spec.LightOrder
import Verif.Props.FileScene
import Verif.Props.Light
import Verif.Props.Simulate
import Verif.Model.Stream

/-!
C123. The lights of a scene file.
-/

namespace PV.LightOrder
open PV PV.Doc PV.Spec PV.SceneFile PV.FileScene
noncomputable section

variable {s : SceneDef ℝ} {axis : Affine ℝ → Vec3 ℝ}

/-! ### Level order -/

theorem levels_perm (s : SceneDef ℝ) (f : ℕ) (l : List String) :
    (s.levels f l).Perm (l.flatMap (s.preorder f)) := by
  induction f generalizing l with
  | zero =>
    have : l.flatMap (s.preorder 0) = [] := by
      rw [List.flatMap_eq_nil_iff]; intro _ _; rfl
    rw [this]; exact List.Perm.refl _
  | succ f ih =>
    rw [SceneDef.levels]
    refine ((ih _).append_left l).trans ?_
    clear ih
    induction l with
    | nil => exact List.Perm.refl _
    | cons n l ih =>
      rw [List.flatMap_cons, List.flatMap_append, List.flatMap_cons, SceneDef.preorder]
      rw [List.cons_append, List.cons_append]
      refine List.Perm.cons _ ?_
      refine (List.perm_append_comm_assoc _ _ _).trans ?_
      exact ih.append_left _

/-- Walking the tree level by level meets every node once. -/
theorem byLevel_perm (h : Tree s) : s.byLevel.Perm (s.nodes.map (·.name)) := by
  refine (levels_perm s _ _).trans ?_
  simp only [List.flatMap_cons, List.flatMap_nil, List.append_nil]
  exact perm_of_tree h.names h.ranked h.world h.parents

theorem levels_sorted {d : String → ℕ} (hd : ∀ c p, c ∈ s.children p → d c = d p + 1) (f : ℕ) :
    ∀ (l : List String) (k : ℕ), (∀ x ∈ l, d x = k) →
      (s.levels f l).Pairwise (fun a b => d a ≤ d b) ∧ ∀ x ∈ s.levels f l, k ≤ d x := by
  induction f with
  | zero => intro l k _; exact ⟨List.Pairwise.nil, fun x hx => by cases hx⟩
  | succ f ih =>
    intro l k hl
    have hc : ∀ x ∈ l.flatMap s.children, d x = k + 1 := by
      intro x hx
      obtain ⟨p, hp, hx⟩ := List.mem_flatMap.1 hx
      rw [hd x p hx, hl p hp]
    obtain ⟨h1, h2⟩ := ih _ _ hc
    rw [SceneDef.levels]
    constructor
    · rw [List.pairwise_append]
      refine ⟨?_, h1, fun a ha b hb => ?_⟩
      · exact List.pairwise_of_forall_mem_list fun a ha b hb => by rw [hl a ha, hl b hb]
      · have := h2 b hb
        rw [hl a ha]; omega
    · intro x hx
      rcases List.mem_append.1 hx with hx | hx
      · exact (hl x hx).ge
      · have := h2 x hx; omega

theorem levels_prefix (s : SceneDef ℝ) (f : ℕ) (l : List String) : s.levels f l <+: s.levels (f + 1) l := by
  induction f generalizing l with
  | zero => exact List.nil_prefix
  | succ f ih => exact (List.prefix_append_right_inj l).2 (ih _)

theorem children_sublist {p : String} (f : ℕ) : ∀ l : List String, p ∈ s.levels f l →
    (s.children p).Sublist (s.levels (f + 1) l) := by
  induction f with
  | zero => intro l h; cases h
  | succ f ih =>
    intro l h
    rw [SceneDef.levels] at h ⊢
    rcases List.mem_append.1 h with h | h
    · refine List.Sublist.trans ?_ (List.sublist_append_right _ _)
      rw [SceneDef.levels]
      refine List.Sublist.trans ?_ (List.sublist_append_left _ _)
      obtain ⟨a, b, rfl⟩ := List.append_of_mem h
      simp only [List.flatMap_append, List.flatMap_cons]
      exact (List.sublist_append_left _ _).trans (List.sublist_append_right _ _)
    · exact (ih _ h).trans (List.sublist_append_right _ _)

theorem levels_full (h : Tree s) : s.levels (s.nodes.length + 1) ["world"] = s.byLevel := by
  have hp := levels_prefix s s.nodes.length ["world"]
  refine (hp.eq_of_length_le ?_).symm
  have h1 := (levels_perm s (s.nodes.length + 1) ["world"])
  have h2 := (byLevel_perm h).length_eq
  rw [show s.levels s.nodes.length ["world"] = s.byLevel from rfl, h2, h1.length_eq]
  simp only [List.flatMap_cons, List.flatMap_nil, List.append_nil]
  refine ((nodup_preorder h.names h.ranked _ _).subperm ?_).length_le
  intro x hx
  obtain ⟨j, _, hs⟩ := (mem_preorder h.names).1 hx
  cases j with
  | zero => simp [steps] at hs; rw [hs]; exact h.world
  | succ j =>
    unfold steps at hs
    cases hl : (edges s.nodes).reverse.lookup x with
    | none => rw [hl] at hs; cases hs
    | some q =>
      obtain ⟨n, hm, rfl, _⟩ := (lookup_edges h.names).1 hl
      exact List.mem_map_of_mem hm

/-- The children of a node are met in the order of the file. -/
theorem siblings (h : Tree s) {p : String} (hp : p ∈ s.nodes.map (·.name)) :
    (s.children p).Sublist s.byLevel := by
  rw [← levels_full h]
  exact children_sublist _ _ ((byLevel_perm h).mem_iff.2 hp)

/-! ### The lights -/

theorem filterMap_names (h : Tree s) {β : Type} (g : NodeDef ℝ → Option β) :
    ∀ l : List (NodeDef ℝ), (∀ n ∈ l, n ∈ s.nodes) →
      (l.map (·.name)).filterMap (fun name => (s.find name).bind g) = l.filterMap g := by
  intro l hl
  rw [List.filterMap_map]
  refine List.filterMap_congr fun n hn => ?_
  simp only [Function.comp, find_of_mem h.names (hl n hn), Option.bind_some]

theorem lamps_perm (h : Tree s) : (s.lamps axis).Perm (s.nodes.filterMap (s.lampAt axis)) := by
  refine ((byLevel_perm h).filterMap _).trans ?_
  rw [filterMap_names h _ _ fun _ h => h]

theorem components_perm (h : Tree s) : s.components.Perm (s.nodes.flatMap (·.content.comps)) := by
  refine ((byLevel_perm h).flatMap_right _).trans ?_
  rw [List.flatMap_map]
  refine List.Perm.of_eq (List.flatMap_congr fun n hn => ?_)
  rw [find_of_mem h.names hn]; rfl

/-- The entry of a light. -/
def Lit (e : String × Yaml ℝ) : Bool := (under ["light"] e.2).isSome

theorem forall₂_and {β γ : Type} {R : β → γ → Prop} {Q : β → Prop} {l : List β} {m : List γ}
    (h : List.Forall₂ R l m) (hq : ∀ x ∈ l, Q x) : List.Forall₂ (fun x y => R x y ∧ Q x) l m := by
  induction h with
  | nil => exact .nil
  | cons hr _ ih =>
    exact .cons ⟨hr, hq _ List.mem_cons_self⟩ (ih fun x hx => hq x (List.mem_cons_of_mem _ hx))

theorem lamp_name {F : Files ℝ} {dec : String → Option (CompDef ℝ)} {e : String × Yaml ℝ} {n : NodeDef ℝ}
    (h : NodeIs F dec e n) (hv : Schema.node e.2 = true) :
    (s.lampAt axis n).map (·.name) = if Lit e then some e.1 else none := by
  unfold SceneDef.lampAt
  rcases h.content with ⟨sh, m, hc, hg⟩ | ⟨l, w, hc, hw, hl, -⟩
  · rw [hc]
    obtain ⟨w, hw, -⟩ := hg.material
    cases hl : under ["light"] e.2 with
    | none => simp [Lit, hl]
    | some u =>
      exfalso
      cases hd : e.2 with
      | map d =>
        rw [hd] at hv hw hl
        have h1 := has_of_under hl
        have h2 : has d (kindOf sh) = true := by
          unfold under at hw
          cases hk : d.lookup (kindOf sh) with
          | none => rw [hk] at hw; cases hw
          | some x => simp [has, hk]
        have := one_kind hv (k := "light") (k' := kindOf sh) (by decide) (by cases sh <;> simp [kindOf, kinds]) h1 h2
        cases sh <;> simp [kindOf] at this
      | _ => rw [hd] at hl; simp [under] at hl
  · rw [hc]
    simp [Lit, hw, LightDef.lamp, hl]

theorem lit_names {R : String × Yaml ℝ → NodeDef ℝ → Prop} {g : NodeDef ℝ → Option Light.Lamp}
    {q : String × Yaml ℝ → Bool} {q' : NodeDef ℝ → Bool}
    {l : List (String × Yaml ℝ)} {ns : List (NodeDef ℝ)} (h : List.Forall₂ R l ns)
    (hg : ∀ e n, R e n → (g n).map (·.name) = if Lit e then some e.1 else none)
    (hq : ∀ e n, R e n → q' n = q e) :
    ((ns.filter q').filterMap g).map (·.name) = (l.filter fun e => q e && Lit e).map (·.1) := by
  induction h with
  | nil => rfl
  | @cons e n l ns hr _ ih =>
    have h1 := hg e n hr
    have h2 := hq e n hr
    cases hb : q e with
    | false => rw [hb] at h2; simp [h2, hb, ih]
    | true =>
      rw [hb] at h2
      cases hlit : Lit e with
      | false =>
        rw [hlit] at h1
        simp only [Bool.false_eq_true, if_false, Option.map_eq_none_iff] at h1
        simp [h2, hb, hlit, h1, ih]
      | true =>
        rw [hlit] at h1
        simp only [if_true, Option.map_eq_some_iff] at h1
        obtain ⟨L, h1, h3⟩ := h1
        simp [h2, hb, hlit, h1, h3, ih]

/-- **C123.** The lights a simulation uses are the light entries of the file, each once. Lights nearer
to `world` in the tree of the file come first, and lights hanging on the same node come in the order
of the file. -/
theorem file_lights {F : Files ℝ} {v : Yaml ℝ} {s : SceneDef ℝ} (h : parseFile F v = .ok s)
    (hn : ((entries "nodes" v).map (·.1)).Nodup) :
    ((s.lamps axis).map (·.name)).Perm (((entries "nodes" v).filter Lit).map (·.1)) ∧
    (∀ depth : String → ℕ, (∀ a b, Parent v a b → depth a = depth b + 1) →
      (s.lamps axis).Pairwise fun a b => depth a.name ≤ depth b.name) ∧
    ∀ p, (((entries "nodes" v).filter fun e => decide (Spec.parentOf e = some p) && Lit e).map (·.1)).Sublist
      ((s.lamps axis).map (·.name)) := by
  have ht := tree h hn
  obtain ⟨doc, rfl, hvalid, _, _⟩ := parseFile_stages h
  obtain ⟨comps, -, hN⟩ := file_describes_partial h
  have hB := forall₂_and (Q := fun e => Schema.node e.2 = true) hN fun e he => valid_node hvalid he
  refine ⟨?_, ?_, ?_⟩
  · refine ((lamps_perm ht).map _).trans (List.Perm.of_eq ?_)
    have := lit_names (g := s.lampAt axis) (q := fun _ => true) (q' := fun _ => true) hB
      (fun e n hr => lamp_name hr.1 hr.2) (fun _ _ _ => rfl)
    simpa using this
  · intro depth hd
    have hc : ∀ c p, c ∈ s.children p → depth c = depth p + 1 := by
      intro c p hcp
      obtain ⟨n, hm, rfl⟩ := List.mem_map.1 hcp
      obtain ⟨hm, hp⟩ := List.mem_filter.1 hm
      obtain ⟨e, he, hr⟩ := forall₂_right hN hm
      refine hd _ _ ⟨e, he, hr.name.symm, ?_⟩
      rw [← hr.parent]; simpa using hp
    have h1 := (levels_sorted hc s.nodes.length ["world"] (depth "world") (by simp)).1
    rw [SceneDef.lamps, List.pairwise_filterMap]
    refine List.Pairwise.imp_of_mem ?_ h1
    intro a b _ _ hab x hx y hy
    have name : ∀ (c : String) (z : Light.Lamp), (s.find c).bind (s.lampAt axis) = some z → z.name = c := by
      intro c z hz
      cases hf : s.find c with
      | none => rw [hf] at hz; cases hz
      | some n =>
        rw [hf] at hz
        have hm := List.mem_of_find?_eq_some hf
        have hnc : n.name = c := by simpa using List.find?_some hf
        obtain ⟨e, he, hr⟩ := forall₂_right hB hm
        have := lamp_name (s := s) (axis := axis) hr.1 hr.2
        rw [Option.bind_some] at hz
        rw [hz, Option.map_some] at this
        split at this
        · rw [← hnc, hr.1.name]; exact Option.some.inj this
        · cases this
    rw [name a x hx, name b y hy]; exact hab
  · intro p
    have e := lit_names (g := s.lampAt axis) (q := fun e => decide (Spec.parentOf e = some p))
      (q' := fun n => decide (n.parent = some p)) hB
      (fun e n hr => lamp_name hr.1 hr.2) (fun e n hr => by rw [hr.1.parent])
    rw [← e]
    refine List.Sublist.map _ ?_
    rw [← filterMap_names ht (s.lampAt axis) _ fun n hn => List.mem_of_mem_filter hn]
    refine List.Sublist.filterMap _ ?_
    by_cases hp : p ∈ s.nodes.map (·.name)
    · exact siblings ht hp
    · have : s.nodes.filter (fun n => decide (n.parent = some p)) = [] := by
        rw [List.filter_eq_nil_iff]
        intro n hm hq
        rcases ht.parents n hm with ⟨-, e⟩ | ⟨-, q, hq', e⟩
        · simp [e] at hq
        · simp only [e, decide_eq_true_eq, Option.some.injEq] at hq
          exact hp (hq ▸ hq')
      rw [this]; exact List.nil_sublist _

/-! ### Their rays -/

theorem wave_unit {W : Light.Wave} (hW : ∀ f, W ≠ .custom f) {t t' : Light.Draws} {w : Option ℝ} (ht : Light.Unit t)
    (h : W.call t = .ok (w, t')) : Light.Unit t' := by
  cases W with
  | custom f => exact absurd rfl (hW f)
  | default => cases h; exact ht
  | constant nm => cases h; exact ht
  | spectrum D =>
    simp only [Light.Wave.call, Light.uniform, Light.draws] at h
    split at h
    · cases h
    · cases h; exact fun k => ht _

theorem place_unit {P : Light.Place} (hP : ∀ f, P ≠ .custom f) {t t' : Light.Draws} {p : Vec3 ℝ} (ht : Light.Unit t)
    (h : P.call t = .ok (p, t')) : Light.Unit t' := by
  cases P with
  | custom f => exact absurd rfl (hP f)
  | default => cases h; exact ht
  | rect x y => cases h; exact fun k => ht _
  | circle r => cases h; exact fun k => ht _
  | cube x y z => cases h; exact fun k => ht _

theorem phase_unit {P : Phase} {t t' : Light.Draws} {d : Vec3 ℝ} (ht : Light.Unit t)
    (h : P.draw Light.draws t = .ok (d, t')) : Light.Unit t' := by
  cases P with
  | isotropic => cases h; exact fun k => ht _
  | lambertian => cases h; exact fun k => ht _
  | cone a =>
    simp only [Phase.draw, cone, Light.draws] at h
    split at h
    · cases h
    · cases h; exact fun k => ht _
  | henyeyGreenstein g =>
    simp only [Phase.draw, henyeyGreenstein] at h
    split at h
    · cases h
    · split at h
      · cases h; exact fun k => ht _
      · cases h; exact fun k => ht _

theorem aim_unit {A : Light.Aim} (hA : ∀ f, A ≠ .custom f) {t t' : Light.Draws} {d : Vec3 ℝ} (ht : Light.Unit t)
    (h : A.call t = .ok (d, t')) : Light.Unit t' := by
  cases A with
  | custom f => exact absurd rfl (hA f)
  | default => cases h; exact ht
  | phase P => exact phase_unit ht h

/-- The directions of a light of a file, in the coordinates of its node. -/
theorem aim_is {a : Option (Aiming ℝ)} {t t' : Light.Draws} {d : Vec3 ℝ} (ht : Light.Unit t)
    (h : (Aiming.aim a).call t = .ok (d, t')) : Aimed a d := by
  cases a with
  | none => cases h; rfl
  | some a =>
    have hu : d.dot d = 1 := PV.Phase.draw_unit _ h
    cases a with
    | isotropic => exact hu
    | henyeyGreenstein g => exact hu
    | lambertian =>
      refine ⟨hu, ?_⟩
      cases h
      simp only [sphericalToCart]
      exact Real.cos_arcsin_nonneg _
    | cone q =>
      refine ⟨hu, fun h0 => ?_⟩
      simp only [Aiming.aim, Light.Aim.call, Aiming.phase, Phase.draw, cone] at h
      split at h
      · cases h
      · rename_i hc
        push Not at hc
        cases h
        simp only [sphericalToCart]
        have hpi := Real.pi_pos
        have e0 : 0 < q * (Real.pi / 180) := by positivity
        have hs := Real.sin_nonneg_of_nonneg_of_le_pi e0.le (by linarith [hc.2])
        have hp := ht 0
        have h1 : Real.sqrt (Light.draws.next t).1 ≤ 1 := Real.sqrt_le_one.2 hp.2.le
        have h2 : Real.sqrt (Light.draws.next t).1 * Real.sin (q * (Real.pi / 180)) ≤ Real.sin (q * (Real.pi / 180)) := by
          nlinarith
        have h3 : Real.arcsin (Real.sqrt (Light.draws.next t).1 * Real.sin (q * (Real.pi / 180))) ≤ q * (Real.pi / 180) := by
          refine (Real.monotone_arcsin h2).trans ?_
          rw [Real.arcsin_sin (by linarith) hc.2]
        refine Real.cos_le_cos_of_nonneg_of_le_pi ?_ (by linarith [hc.2]) h3
        exact Real.arcsin_nonneg.2 (mul_nonneg (Real.sqrt_nonneg _) hs)

theorem wave_is {c : Option (Colour ℝ)} {t t' : Light.Draws} {w : ℝ} (ht : Light.Unit t)
    (h : (Colour.wave c).call t = .ok (some w, t')) : Coloured c w := by
  cases c with
  | none => cases h; rfl
  | some c =>
    cases c with
    | constant nm => cases h; rfl
    | number q => cases h
    | spectrum D =>
      simp only [Colour.wave, Light.Wave.call, Light.uniform, Light.draws] at h
      split at h
      · cases h
      · rename_i x hx
        cases h
        refine ⟨t 0, ht 0, ?_⟩
        simpa using hx

theorem place_is {P : Option (Spot ℝ)} {t t' : Light.Draws} {p : Vec3 ℝ} (ht : Light.Unit t)
    (h : (Spot.place P).call t = .ok (p, t')) : Within P p := by
  cases P with
  | none => cases h; rfl
  | some P =>
    cases P with
    | rect x y => cases h; exact Light.rect_inside x y ht
    | circle r => cases h; exact Light.circle_inside r ht
    | cube x y z => cases h; exact Light.cube_inside x y z ht

/-- One ray of a light of a file. -/
theorem lamp_ray {l : LightDef ℝ} {m : Affine ℝ} {t t' : Light.Draws} {ray : Ray ℝ} (ht : Light.Unit t)
    (h : Stream.launch (l.lamp m) t = .ok (ray, t')) :
    Light.Unit t' ∧ ray.source = some l.name ∧ ray.travelled = 0 ∧ ray.duration = 0 ∧
      Coloured l.wavelength ray.wavelength ∧ (∃ p, Within l.position p ∧ ray.position = m.point p) ∧
      ∃ d, Aimed l.direction d ∧ ray.direction = m.vec d := by
  unfold Stream.launch Light.Lamp.one at h
  cases hw : (l.lamp m).wavelength.call t with
  | error e => rw [hw] at h; cases h
  | ok w =>
    obtain ⟨nm, t1⟩ := w
    rw [hw] at h
    have hW : ∀ f, (l.lamp m).wavelength ≠ .custom f := by
      intro f e
      cases hl : l.wavelength with
      | none => simp [LightDef.lamp, hl, Colour.wave] at e
      | some c =>
        cases c with
        | number q =>
          have : (l.lamp m).wavelength = .custom fun _ => .error .attributeError := by
            simp [LightDef.lamp, hl, Colour.wave]
          rw [this] at hw; cases hw
        | _ => simp [LightDef.lamp, hl, Colour.wave] at e
    have u1 := wave_unit hW ht hw
    dsimp only at h
    cases hp : (l.lamp m).position.call t1 with
    | error e => rw [hp] at h; cases h
    | ok p =>
      obtain ⟨p, t2⟩ := p
      rw [hp] at h
      have hP : ∀ f, (l.lamp m).position ≠ .custom f := by
        intro f e
        simp only [LightDef.lamp] at e
        cases hl : l.position with
        | none => simp [hl, Spot.place] at e
        | some c => cases c <;> simp [hl, Spot.place] at e
      have u2 := place_unit hP u1 hp
      dsimp only at h
      cases hd : (l.lamp m).direction.call t2 with
      | error e => rw [hd] at h; cases h
      | ok d =>
        obtain ⟨d, t3⟩ := d
        rw [hd] at h
        have hA : ∀ f, (l.lamp m).direction ≠ .custom f := by
          intro f e
          simp only [LightDef.lamp] at e
          cases hl : l.direction with
          | none => simp [hl, Aiming.aim] at e
          | some c => simp [hl, Aiming.aim] at e
        have u3 := aim_unit hA u2 hd
        simp only [Light.Emitted.representation, Stream.launched] at h
        cases nm with
        | none => cases h
        | some nm =>
          cases h
          exact ⟨u3, rfl, rfl, rfl, wave_is ht hw, ⟨p, place_is u1 hp, rfl⟩, d, aim_is u2 hd, rfl⟩

/-- Rotation between the lights, keeping track of the random numbers. -/
theorem rotation {η : Type} (P : Simulate.Stage Light.Lamp (Ray ℝ) η Light.Draws) (Q : Light.Lamp → Ray ℝ → Prop)
    (hQ : ∀ L ∈ P.lights, ∀ t t' ray, Light.Unit t → P.emit L t = .ok (ray, t') → Light.Unit t' ∧ Q L ray) :
    ∀ (n idx : ℕ) (t t' : Light.Draws) (rays : List (Ray ℝ)), Light.Unit t →
      Simulate.emitFrom P idx n t = .ok (rays, t') →
      rays.length = n ∧ ∀ i ray, rays[i]? = some ray →
        ∃ L, P.lights[(idx + i) % P.lights.length]? = some L ∧ Q L ray := by
  intro n
  induction n with
  | zero => intro idx t t' rays _ h; cases h; simp
  | succ n ih =>
    intro idx t t' rays ht h
    unfold Simulate.emitFrom at h
    cases he : Simulate.emitAt P idx t with
    | error e => rw [he] at h; cases h
    | ok p =>
      obtain ⟨r0, t1⟩ := p
      rw [he] at h
      dsimp only at h
      unfold Simulate.emitAt at he
      split_ifs at he with hc
      cases hl : P.lights[idx % P.lights.length]? with
      | none => rw [hl] at he; cases he
      | some L =>
        rw [hl] at he
        obtain ⟨u1, q1⟩ := hQ L (List.mem_of_getElem? hl) _ _ _ ht he
        cases hr : Simulate.emitFrom P (idx + 1) n t1 with
        | error e => rw [hr] at h; cases h
        | ok q =>
          obtain ⟨rs, t2⟩ := q
          rw [hr] at h
          cases h
          obtain ⟨h1, h2⟩ := ih _ _ _ _ u1 hr
          refine ⟨by rw [List.length_cons, h1], fun i ray hi => ?_⟩
          cases i with
          | zero =>
            rw [List.getElem?_cons_zero] at hi
            cases hi
            exact ⟨L, hl, q1⟩
          | succ i =>
            rw [List.getElem?_cons_succ] at hi
            obtain ⟨L', h3, h4⟩ := h2 i ray hi
            exact ⟨L', by rw [← h3]; congr 2; omega, h4⟩

theorem lamp_node (h : Tree s) {L : Light.Lamp} (hL : L ∈ s.lamps axis) :
    ∃ n ∈ s.nodes, ∃ l, n.content = .light l ∧ L = l.lamp (s.toWorld axis n.name) := by
  obtain ⟨n, hm, hn⟩ := List.mem_filterMap.1 ((lamps_perm h).mem_iff.1 hL)
  unfold SceneDef.lampAt at hn
  cases hc : n.content with
  | geometry a b => rw [hc] at hn; cases hn
  | light l => rw [hc] at hn; cases hn; exact ⟨n, hm, l, hc, rfl⟩

theorem light_name {F : Files ℝ} {v : Yaml ℝ} {s : SceneDef ℝ} (h : parseFile F v = .ok s)
    {n : NodeDef ℝ} (hm : n ∈ s.nodes) {l : LightDef ℝ} (hc : n.content = .light l) : l.name = n.name := by
  obtain ⟨comps, -, hN⟩ := file_describes_partial h
  obtain ⟨e, he, hr⟩ := forall₂_right hN hm
  rcases hr.content with ⟨sh, m, hc', -⟩ | ⟨l', w, hc', -, hl, -⟩
  · rw [hc] at hc'; cases hc'
  · rw [hc] at hc'; cases hc'; rw [hl, hr.name]

/-- **C123.** The rays of a simulation of a scene file start as the file says: `n` rays are asked for
and `n` come, ray `i` from light `i mod L`, with a colour of this light, from a place in its aperture
and in a direction of its beam, both put into the world by the node of the light. -/
theorem file_rays {η : Type} {F : Files ℝ} {v : Yaml ℝ} {s : SceneDef ℝ} (h : parseFile F v = .ok s)
    (hn : ((entries "nodes" v).map (·.1)).Nodup) (P : Simulate.Stage Light.Lamp (Ray ℝ) η Light.Draws)
    (hl : P.lights = s.lamps axis) (he : P.emit = Stream.launch) {n : ℕ} {t t' : Light.Draws}
    {rays : List (Ray ℝ)} (ht : Light.Unit t) (hr : Simulate.emitFrom P 0 n t = .ok (rays, t')) :
    rays.length = n ∧ ∀ i ray, rays[i]? = some ray →
      ∃ node ∈ s.nodes, ∃ l, node.content = .light l ∧
        ((s.lamps axis)[i % (s.lamps axis).length]?).map (·.name) = some node.name ∧
        ray.source = some node.name ∧ ray.travelled = 0 ∧ ray.duration = 0 ∧
        Coloured l.wavelength ray.wavelength ∧
        (∃ p, Within l.position p ∧ ray.position = (s.toWorld axis node.name).point p) ∧
        ∃ d, Aimed l.direction d ∧ ray.direction = (s.toWorld axis node.name).vec d := by
  have htree := tree h hn
  obtain ⟨h1, h2⟩ := rotation P (fun L ray => ∃ node ∈ s.nodes, ∃ l, node.content = .light l ∧
      L.name = node.name ∧ ray.source = some node.name ∧ ray.travelled = 0 ∧ ray.duration = 0 ∧
      Coloured l.wavelength ray.wavelength ∧
      (∃ p, Within l.position p ∧ ray.position = (s.toWorld axis node.name).point p) ∧
      ∃ d, Aimed l.direction d ∧ ray.direction = (s.toWorld axis node.name).vec d)
    (by
      intro L hL t t' ray hu hem
      rw [hl] at hL
      rw [he] at hem
      obtain ⟨node, hm, l, hc, rfl⟩ := lamp_node htree hL
      have hname := light_name h hm hc
      obtain ⟨h1, h2, h3, h4, h5, h6, h7⟩ := lamp_ray hu hem
      exact ⟨h1, node, hm, l, hc, hname, by rw [h2, hname], h3, h4, h5, h6, h7⟩) n 0 t t' rays ht hr
  refine ⟨h1, fun i ray hi => ?_⟩
  obtain ⟨L, hL, node, hm, l, hc, hnm, rest⟩ := h2 i ray hi
  refine ⟨node, hm, l, hc, ?_, rest⟩
  rw [hl, Nat.zero_add] at hL
  rw [hL, Option.map_some, hnm]

/-! ### Which files shine -/

theorem phase_ok {a : Aiming ℝ} (hc : ∀ q, a = .cone q → 1 / 1000000 < q ∧ q ≤ 90)
    (hg : ∀ g, a = .henyeyGreenstein g → g ≠ 0 ∧ |g| < 1) {t : Light.Draws} (ht : Light.Unit t) :
    ∃ r, a.phase.draw Light.draws t = .ok r := by
  cases a with
  | isotropic => exact ⟨_, rfl⟩
  | lambertian => exact ⟨_, rfl⟩
  | cone q =>
    obtain ⟨h0, h1⟩ := hc q rfl
    have h2 := Real.two_le_pi
    have e : 0 < q * (Real.pi / 180) := by positivity
    apply Exists.intro
    simp only [Aiming.phase, Phase.draw, cone]
    rw [if_neg]
    push Not
    rw [abs_of_pos e]
    constructor <;> nlinarith
  | henyeyGreenstein g =>
    obtain ⟨h0, h1⟩ := hg g rfl
    have hd := PV.Phase.hg_den h1 (ht 0).1 (ht 0).2.le
    simp only [Aiming.phase, Phase.draw, henyeyGreenstein]
    rw [if_neg (by
      push Not
      exact ⟨by simpa using h0, hd.ne'⟩)]
    split_ifs <;> exact ⟨_, rfl⟩

theorem lamp_shines {l : LightDef ℝ} (h : Shines l) (m : Affine ℝ) {t : Light.Draws} (ht : Light.Unit t) :
    ∃ ray t', Stream.launch (l.lamp m) t = .ok (ray, t') := by
  obtain ⟨w, t1, hw, u1⟩ : ∃ w t1, (l.lamp m).wavelength.call t = .ok (some w, t1) ∧ Light.Unit t1 := by
    cases hl : l.wavelength with
    | none => exact ⟨555, t, by simp [LightDef.lamp, hl, Colour.wave, Light.Wave.call], ht⟩
    | some c =>
      cases c with
      | constant nm => exact ⟨nm, t, by simp [LightDef.lamp, hl, Colour.wave, Light.Wave.call], ht⟩
      | number q => exact absurd hl (h.colour q)
      | spectrum D =>
        obtain ⟨w, hw⟩ := h.spectrum D hl (t 0) (ht 0).1 (ht 0).2
        exact ⟨w, fun k => t (k + 1),
          by simp [LightDef.lamp, hl, Colour.wave, Light.Wave.call, Light.uniform, Light.draws, hw], fun k => ht _⟩
  obtain ⟨p, t2, hp, u2⟩ : ∃ p t2, (l.lamp m).position.call t1 = .ok (p, t2) ∧ Light.Unit t2 := by
    have : ∃ r, (l.lamp m).position.call t1 = .ok r := by
      cases hl : l.position with
      | none => exact ⟨_, by simp [LightDef.lamp, hl, Spot.place, Light.Place.call]; rfl⟩
      | some c => cases c <;> exact ⟨_, by simp [LightDef.lamp, hl, Spot.place, Light.Place.call]; rfl⟩
    obtain ⟨⟨p, t2⟩, hp⟩ := this
    refine ⟨p, t2, hp, place_unit ?_ u1 hp⟩
    intro f e
    simp only [LightDef.lamp] at e
    cases hl : l.position with
    | none => simp [hl, Spot.place] at e
    | some c => cases c <;> simp [hl, Spot.place] at e
  obtain ⟨⟨d, t3⟩, hd⟩ : ∃ r, (l.lamp m).direction.call t2 = .ok r := by
    cases hl : l.direction with
    | none => exact ⟨_, by simp [LightDef.lamp, hl, Aiming.aim, Light.Aim.call]; rfl⟩
    | some a =>
      obtain ⟨r, hr⟩ := phase_ok (a := a) (fun q e => h.cone q (by rw [hl, e])) (fun g e => h.beam g (by rw [hl, e])) u2
      exact ⟨r, by simpa [LightDef.lamp, hl, Aiming.aim, Light.Aim.call] using hr⟩
  apply Exists.intro
  refine ⟨t3, ?_⟩
  unfold Stream.launch Light.Lamp.one
  rw [hw]; dsimp only
  rw [hp]; dsimp only
  rw [hd]
  rfl

theorem emits {η : Type} (P : Simulate.Stage Light.Lamp (Ray ℝ) η Light.Draws) (hL : P.lights ≠ [])
    (h : ∀ L ∈ P.lights, ∀ t, Light.Unit t → ∃ ray t', P.emit L t = .ok (ray, t') ∧ Light.Unit t') :
    ∀ (n idx : ℕ) (t : Light.Draws), Light.Unit t → ∃ rays t', Simulate.emitFrom P idx n t = .ok (rays, t') := by
  intro n
  induction n with
  | zero => intro idx t _; exact ⟨[], t, rfl⟩
  | succ n ih =>
    intro idx t ht
    have hpos : 0 < P.lights.length := List.length_pos_iff.2 hL
    obtain ⟨L, hl⟩ : ∃ L, P.lights[idx % P.lights.length]? = some L :=
      ⟨_, List.getElem?_eq_getElem (Nat.mod_lt _ hpos)⟩
    obtain ⟨ray, t1, he, u1⟩ := h L (List.mem_of_getElem? hl) t ht
    obtain ⟨rays, t2, hr⟩ := ih (idx + 1) t1 u1
    refine ⟨ray :: rays, t2, ?_⟩
    unfold Simulate.emitFrom Simulate.emitAt
    rw [if_neg (by omega), hl]
    dsimp only
    rw [he]; dsimp only
    rw [hr]

/-- **C123.** A scene file with a light, all of whose lights can shine, gives every number of rays. -/
theorem file_shines {η : Type} {F : Files ℝ} {v : Yaml ℝ} {s : SceneDef ℝ} (h : parseFile F v = .ok s)
    (hn : ((entries "nodes" v).map (·.1)).Nodup) (hlit : ∃ e ∈ entries "nodes" v, Lit e = true)
    (hs : ∀ n ∈ s.nodes, ∀ l, n.content = .light l → Shines l)
    (P : Simulate.Stage Light.Lamp (Ray ℝ) η Light.Draws)
    (hl : P.lights = s.lamps axis) (he : P.emit = Stream.launch) (n : ℕ) {t : Light.Draws} (ht : Light.Unit t) :
    ∃ rays t', Simulate.emitFrom P 0 n t = .ok (rays, t') := by
  have htree := tree h hn
  refine emits P ?_ ?_ n 0 t ht
  · rw [hl]
    intro hnil
    have hp := (file_lights (axis := axis) h hn).1
    rw [hnil] at hp
    obtain ⟨e, hm, hle⟩ := hlit
    have := hp.symm.subset (List.mem_map_of_mem (List.mem_filter.2 ⟨hm, hle⟩))
    cases this
  · intro L hL t ht
    rw [hl] at hL
    obtain ⟨node, hm, l, hc, rfl⟩ := lamp_node htree hL
    obtain ⟨ray, t', hr⟩ := lamp_shines (hs node hm l hc) (s.toWorld axis node.name) ht
    rw [he]
    exact ⟨ray, t', hr, (lamp_ray ht hr).1⟩

/-- A world with a ball, a lamp on the ball and, further down in the file, a lamp in the world. -/
def lampsFile : Yaml ℝ := .map [("version", .str "1.0"),
  ("nodes", .map [
  ("world", .map [("sphere", .map [("radius", .num 10), ("material", .map [("refractive-index", .num 1)])])]),
  ("ball", .map [("location", .seq [.num 1, .num 2, .num 3]), ("sphere", .map [("radius", .num 1), ("material", .map [("refractive-index", .num 2)])])]),
  ("inner", .map [("light", .map [("wavelength", .num 500)]), ("parent", .str "ball")]),
  ("outer", .map [("light", .map [("mask", .map [("direction", .map [("cone", .map [("half-angle", .num 30)])])])])])])]

theorem lamps_valid : Schema.document lampsFile = true := by
  simp [Schema.document, lampsFile, Schema.object, Schema.both, Schema.named, Schema.node, Schema.oneOf, Schema.required, has, Schema.component, Schema.string, Schema.material, Schema.atLeast, Schema.absorber, List.lookup_cons, Schema.array, Schema.number, Schema.mask, Schema.directionMask, Schema.positionMask, Schema.wavelengthMask]
  simp [List.filter_cons, Schema.string, Schema.null, Schema.pointLike, Schema.array, Schema.both, Schema.object, Schema.oneOf, Schema.required, Schema.number, has, List.lookup_cons]

def lampsDef : SceneDef ℝ := ⟨[
  ⟨"world", .geometry (.sphere 10) ⟨1, []⟩, none, none, none⟩,
  ⟨"ball", .geometry (.sphere 1) ⟨2, []⟩, some "world", some ⟨1, 2, 3⟩, none⟩,
  ⟨"inner", .light ⟨some (.constant 500), none, none, "inner"⟩, some "ball", none, none⟩,
  ⟨"outer", .light ⟨none, none, some (.cone 30), "outer"⟩, some "world", none, none⟩], []⟩

theorem lamps_load : parseFile nothing lampsFile = .ok lampsDef := by
  unfold parseFile
  rw [if_neg (by simp [lamps_valid])]
  simp [parseScene, lampsFile, Yaml.dict, dget, List.lookup_cons, optDict, parseComponents, parseComponent, parseAbsorber, optSpectrum, absorptionOf, truth, constOf, histOf, parseNodes, parseContent, has, parseGeometry, parseShape, Yaml.number, parseMaterial, componentKeys, pickComponents, Yaml.list, parseLight, defaultColour, placeNodes, Doc.parentOf, attach, climb, Yaml.string, optTriple, triple, args, floats, sceneRecorders, withAuto, parseRecorders, maskPart, parseDirection, isIn, item, asFloat, lampsDef]

theorem lamps_names : ((entries "nodes" lampsFile).map (·.1)).Nodup := by
  simp [entries, lampsFile, under, List.lookup_cons]

/-- The lamp in the world comes first although the file lists it last. -/
theorem lamps_order : (lampsDef.lamps axis).map (·.name) = ["outer", "inner"] := by
  simp [SceneDef.lamps, SceneDef.byLevel, SceneDef.levels, lampsDef, SceneDef.children, SceneDef.find, SceneDef.lampAt, LightDef.lamp]

example : ∃ rays t', rays.length = 5 ∧ Simulate.emitFrom
    (⟨lampsDef.lamps (fun _ => ⟨1, 0, 0⟩), Stream.launch, fun _ t => .ok ((), t), fun _ _ => 0⟩ :
      Simulate.Stage Light.Lamp (Ray ℝ) PUnit Light.Draws) 0 5 (fun _ => 1 / 2) = .ok (rays, t') := by
  have ht : Light.Unit (fun _ => 1 / 2) := fun k => by norm_num
  obtain ⟨rays, t', h⟩ := file_shines (axis := fun _ => ⟨1, 0, 0⟩) lamps_load lamps_names
    ⟨("outer", _), by simp [entries, lampsFile, under, List.lookup_cons]; rfl, by simp [Lit, under, List.lookup_cons]⟩
    (by
      intro n hn l hl
      simp only [lampsDef, List.mem_cons, List.not_mem_nil, or_false] at hn
      rcases hn with rfl | rfl | rfl | rfl
      · cases hl
      · cases hl
      · cases hl
        exact ⟨by simp, by simp, by simp, by simp⟩
      · cases hl
        refine ⟨by simp, by simp, ?_, by simp⟩
        intro a ha
        simp only [Option.some.injEq, Aiming.cone.injEq] at ha
        subst ha
        norm_num)
    (⟨lampsDef.lamps (fun _ => ⟨1, 0, 0⟩), Stream.launch, fun _ t => .ok ((), t), fun _ _ => 0⟩ :
      Simulate.Stage Light.Lamp (Ray ℝ) PUnit Light.Draws) rfl rfl 5 ht
  exact ⟨rays, t', (file_rays lamps_load lamps_names _ rfl rfl ht h).1, h⟩

/-! ### Files that load and do not shine -/

/-- A world with one more node. -/
def worldFile (nodes : List (String × Yaml ℝ)) : Yaml ℝ := .map [("version", .str "1.0"),
  ("nodes", .map (("world", .map [("sphere", .map [("radius", .num 10),
    ("material", .map [("refractive-index", .num 1)])])]) :: nodes))]

/-- A lamp with a cone of a half angle. -/
def coneEntry (a : ℝ) : String × Yaml ℝ := ("lamp", .map [("light", .map [("mask", .map [("direction",
  .map [("cone", .map [("half-angle", .num a)])])])])])

/-- A lamp of wavelength 0. -/
def zeroEntry : String × Yaml ℝ := ("lamp", .map [("light", .map [("wavelength", .num 0)])])

/-- What these files describe. -/
def worldDef (lights : List (LightDef ℝ)) : SceneDef ℝ :=
  ⟨⟨"world", .geometry (.sphere 10) ⟨1, []⟩, none, none, none⟩ ::
    lights.map fun l => ⟨"lamp", .light l, some "world", none, none⟩, []⟩

theorem world_loads {l : LightDef ℝ} {e : Yaml ℝ} (hv : Schema.document (worldFile [("lamp", .map [("light", e)])]) = true)
    (h : parseLight nothing "lamp" e = .ok l) :
    parseFile nothing (worldFile [("lamp", .map [("light", e)])]) = .ok (worldDef [l]) := by
  unfold parseFile
  rw [if_neg (by simp [hv])]
  simp [parseScene, worldFile, Yaml.dict, dget, List.lookup_cons, optDict, parseComponents, parseNodes, parseContent, has, parseGeometry, parseShape, Yaml.number, parseMaterial, componentKeys, pickComponents, Yaml.list, h, placeNodes, Doc.parentOf, attach, climb, optTriple, sceneRecorders, withAuto, parseRecorders, truth, worldDef]

theorem one_lamp (l : LightDef ℝ) : ∃ m, (worldDef [l]).lamps axis = [l.lamp m] := by
  refine ⟨(worldDef [l]).toWorld axis "lamp", ?_⟩
  simp [SceneDef.lamps, SceneDef.byLevel, SceneDef.levels, worldDef, SceneDef.children, SceneDef.find, SceneDef.lampAt]

/-- **C123** (violated). A cone with half angle 0 or above 90 degrees passes the schema and loads,
and then no ray can be emitted. -/
theorem cone_never_shines {a : ℝ} (ha : a = 0 ∨ 90 < a) :
    ∃ s, parseFile nothing (worldFile [coneEntry a]) = .ok s ∧
      ∀ {η : Type} (P : Simulate.Stage Light.Lamp (Ray ℝ) η Light.Draws), P.lights = s.lamps axis →
        P.emit = Stream.launch → ∀ n t, Simulate.emitFrom P 0 (n + 1) t = .error .valueError := by
  refine ⟨worldDef [⟨none, none, some (.cone a), "lamp"⟩], world_loads ?_ ?_, ?_⟩
  · simp [Schema.document, worldFile, Schema.object, Schema.both, Schema.named, Schema.node, Schema.oneOf, Schema.required, has, Schema.string, Schema.material, Schema.atLeast, List.lookup_cons, Schema.array, Schema.number, Schema.mask, Schema.directionMask]
    simp [List.filter_cons, Schema.string, Schema.null, Schema.pointLike, Schema.array, Schema.both, Schema.object, Schema.oneOf, Schema.required, Schema.number, has, List.lookup_cons]
  · simp [parseLight, Yaml.dict, defaultColour, truth, List.lookup_cons, maskPart, parseDirection, isIn, item, asFloat, has, dget]
  · intro η P hl he n t
    obtain ⟨m, hm⟩ := one_lamp (axis := axis) ⟨none, none, some (.cone a), "lamp"⟩
    have hc : |a * (Real.pi / 180)| ≤ 1e-8 ∨ a * (Real.pi / 180) > Real.pi / 2 := by
      rcases ha with rfl | ha
      · left; norm_num
      · right; have := Real.pi_pos; nlinarith
    have hem : P.emit (LightDef.lamp ⟨none, none, some (.cone a), "lamp"⟩ m) t = .error .valueError := by
      rw [he]
      simp only [Stream.launch, Light.Lamp.one, LightDef.lamp, Colour.wave, Spot.place, Aiming.aim,
        Light.Wave.call, Light.Place.call, Light.Aim.call, Aiming.phase, Phase.draw, cone]
      rw [if_pos hc]
    unfold Simulate.emitFrom Simulate.emitAt
    rw [hl, hm]
    simp [hem]

/-- **C123** (violated). So does a light of wavelength 0, which the schema allows. -/
theorem zero_never_shines :
    ∃ s, parseFile nothing (worldFile [zeroEntry]) = .ok s ∧
      ∀ {η : Type} (P : Simulate.Stage Light.Lamp (Ray ℝ) η Light.Draws), P.lights = s.lamps axis →
        P.emit = Stream.launch → ∀ n t, ∃ e, Simulate.emitFrom P 0 (n + 1) t = .error e := by
  refine ⟨worldDef [⟨some (.number 0), none, none, "lamp"⟩], world_loads ?_ ?_, ?_⟩
  · simp [Schema.document, worldFile, Schema.object, Schema.both, Schema.named, Schema.node, Schema.oneOf, Schema.required, has, Schema.string, Schema.material, Schema.atLeast, List.lookup_cons, Schema.array, Schema.number, Schema.mask, Schema.directionMask]
  · simp [parseLight, Yaml.dict, defaultColour, truth, List.lookup_cons, Yaml.number]
  · intro η P hl he n t
    obtain ⟨m, hm⟩ := one_lamp (axis := axis) ⟨some (.number 0), none, none, "lamp"⟩
    have hem : P.emit (LightDef.lamp ⟨some (.number 0), none, none, "lamp"⟩ m) t = .error .attributeError := by
      rw [he]
      simp only [Stream.launch, Light.Lamp.one, LightDef.lamp, Colour.wave, Light.Wave.call]
    refine ⟨.attributeError, ?_⟩
    unfold Simulate.emitFrom Simulate.emitAt
    rw [hl, hm]
    simp [hem]

/-- **C123** (violated). A file without a light loads, and a simulation of it divides by zero. -/
theorem dark_never_shines :
    ∃ s, parseFile nothing (worldFile []) = .ok s ∧
      ∀ {η : Type} (P : Simulate.Stage Light.Lamp (Ray ℝ) η Light.Draws), P.lights = s.lamps axis →
        ∀ n t, Simulate.emitFrom P 0 (n + 1) t = .error .zeroDivision := by
  refine ⟨worldDef [], ?_, ?_⟩
  · unfold parseFile
    rw [if_neg (by simp [Schema.document, worldFile, Schema.object, Schema.both, Schema.named, Schema.node, Schema.oneOf, Schema.required, has, Schema.string, Schema.material, Schema.atLeast, List.lookup_cons, Schema.array, Schema.number])]
    simp [parseScene, worldFile, Yaml.dict, dget, List.lookup_cons, optDict, parseComponents, parseNodes, parseContent, has, parseGeometry, parseShape, Yaml.number, parseMaterial, componentKeys, pickComponents, Yaml.list, placeNodes, Doc.parentOf, attach, optTriple, sceneRecorders, withAuto, parseRecorders, truth, worldDef]
  · intro η P hl n t
    have : (worldDef []).lamps axis = [] := by
      simp [SceneDef.lamps, SceneDef.byLevel, SceneDef.levels, worldDef, SceneDef.children, SceneDef.find, SceneDef.lampAt]
    unfold Simulate.emitFrom Simulate.emitAt
    rw [hl, this]
    simp

end
end PV.LightOrder
