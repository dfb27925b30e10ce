import Verif.Model.Meshcat
import Verif.Props.Node

/-!
C100: the viewer shows every object where it is traced.
-/

namespace PV.Meshcat
noncomputable section

/-- The points of an object in its own coordinates, as the tracer understands it (`Spec/Solid`). -/
def Region : Shown → Set (Vec3 ℝ)
  | .sphere r => {p | Solid.Closed (.sphere r) p}
  | .cylinder l r => {p | Solid.Closed (.cylinder l r) p}
  | .mesh S => S
  | .other => ∅

/-- Every node has a name without `/` and `|`, and children of one node have different names. -/
structure WellNamed (G : Graph) : Prop where
  named : ∀ a, (G.tree.get? a).isSome → ∃ s : String, G.name a = some s ∧ '/' ∉ s.toList ∧ '|' ∉ s.toList
  siblings : ∀ a i j, (G.tree.get? (a ++ [i])).isSome → (G.tree.get? (a ++ [j])).isSome →
    G.name (a ++ [i]) = G.name (a ++ [j]) → i = j

/-- The node `a` is an object with the geometry `g`. -/
def Object (G : Graph) (a : Addr) (g : Shown) : Prop := (G.tree.get? a).bind SNode.geometry = some g

/-! ### Names -/

theorem intercalate_inj {l m : List (List Char)} (hl : ∀ x ∈ l, '|' ∉ x) (hm : ∀ x ∈ m, '|' ∉ x)
    (hl0 : l ≠ []) (hm0 : m ≠ [])
    (h : " | ".toList.intercalate l = " | ".toList.intercalate m) : l = m := by
  have hs : " | ".toList = [' ', '|', ' '] := by decide +kernel
  rw [hs] at h
  induction l generalizing m with
  | nil => exact absurd rfl hl0
  | cons x l ih =>
    cases m with
    | nil => exact absurd rfl hm0
    | cons y m =>
      have hx := hl x (by simp)
      have hy := hm y (by simp)
      cases l with
      | nil =>
        cases m with
        | nil => simpa using h
        | cons y' m =>
          exfalso
          rw [List.intercalate_singleton, List.intercalate_cons_cons] at h
          exact hx (by rw [h]; simp)
      | cons x' l =>
        cases m with
        | nil =>
          exfalso
          rw [List.intercalate_singleton, List.intercalate_cons_cons] at h
          exact hy (by rw [← h]; simp)
        | cons y' m =>
          rw [List.intercalate_cons_cons, List.intercalate_cons_cons] at h
          have key : ∀ (x r : List Char), '|' ∉ x → (x ++ [' ', '|', ' '] ++ r).splitOn '|' =
              (x ++ [' ']) :: (' ' :: r).splitOn '|' := by
            intro x r hx
            have e : x ++ [' ', '|', ' '] ++ r = (x ++ [' ']) ++ '|' :: (' ' :: r) := by simp
            rw [e]
            exact List.splitOn_append_cons_self_of_not_mem (by simp [hx]) _
          have hh : (x ++ [' ', '|', ' '] ++ [' ', '|', ' '].intercalate (x' :: l)).splitOn '|' =
            (y ++ [' ', '|', ' '] ++ [' ', '|', ' '].intercalate (y' :: m)).splitOn '|' := by rw [h]
          rw [key _ _ hx, key _ _ hy] at hh
          have hxy : x = y := by simpa using (List.cons.inj hh).1
          subst hxy
          have := ih (m := y' :: m) (fun z hz => hl z (by simp [hz])) (fun z hz => hm z (by simp [hz]))
            (by simp) (by simp) (by simpa using h)
          rw [this]

theorem mapM_some {β γ : Type} {f : β → Option γ} {g : β → γ} {l : List β} (h : ∀ x ∈ l, f x = some (g x)) :
    l.mapM f = some (l.map g) := by
  induction l with
  | nil => rfl
  | cons x l ih =>
    rw [List.mapM_cons, h x (by simp), ih (fun y hy => h y (by simp [hy]))]
    rfl

theorem get?_prefix {n : SNode ℝ Shown} {a b : Addr} (h : (n.get? (a ++ b)).isSome) : (n.get? a).isSome := by
  induction a generalizing n with
  | nil => rfl
  | cons i a ih =>
    simp only [List.cons_append, SNode.get?] at h ⊢
    cases hc : n.children[i]? with
    | none => rw [hc] at h; cases h
    | some c => rw [hc] at h; exact ih h

/-- The name of an existing node. -/
def label (G : Graph) (a : Addr) : List Char := ((G.name a).getD "").toList

theorem pathname_eq {G : Graph} (hn : WellNamed G) {a : Addr} (ha : (G.tree.get? a).isSome) :
    pathname G a = some (" | ".toList.intercalate ((nodePath a).map (label G))) := by
  unfold pathname
  rw [mapM_some (g := fun b => (G.name b).getD "")]
  · rw [Option.map_some, List.map_map]
    rfl
  · intro b hb
    rw [nodePath, List.mem_inits] at hb
    obtain ⟨c, rfl⟩ := hb
    obtain ⟨s, hs, -⟩ := hn.named b (get?_prefix ha)
    rw [hs]
    rfl

theorem label_plain {G : Graph} (hn : WellNamed G) {a b : Addr} (ha : (G.tree.get? a).isSome)
    (hb : b ∈ nodePath a) : '/' ∉ label G b ∧ '|' ∉ label G b := by
  rw [nodePath, List.mem_inits] at hb
  obtain ⟨c, rfl⟩ := hb
  obtain ⟨s, hs, h⟩ := hn.named b (get?_prefix ha)
  simpa [label, hs] using h

theorem inits_concat (a : Addr) (i : ℕ) : (a ++ [i]).inits = a.inits ++ [a ++ [i]] := by
  induction a with
  | nil => rfl
  | cons j a ih => simp [List.inits, ih]

theorem path_inj {G : Graph} (hn : WellNamed G) {a b : Addr} (ha : (G.tree.get? a).isSome)
    (hb : (G.tree.get? b).isSome) (h : (nodePath a).map (label G) = (nodePath b).map (label G)) : a = b := by
  induction a using List.reverseRecOn generalizing b with
  | nil =>
    have hl := congrArg List.length h
    simp [nodePath] at hl
    exact hl.symm
  | append_singleton a i ih =>
    induction b using List.reverseRecOn with
    | nil =>
      have hl := congrArg List.length h
      simp [nodePath] at hl
    | append_singleton b j _ =>
      simp only [nodePath, inits_concat, List.map_append, List.map_cons, List.map_nil] at h
      have h2 := List.append_inj' h rfl
      have hab := ih (get?_prefix ha) (get?_prefix hb) h2.1
      subst hab
      have hij : i = j := by
        apply hn.siblings a i j ha hb
        obtain ⟨s, hs, -⟩ := hn.named _ ha
        obtain ⟨t, ht, -⟩ := hn.named _ hb
        have h3 := (List.cons.inj h2.2).1
        simp only [label, hs, ht, Option.getD_some] at h3
        rw [hs, ht, String.toList_inj.1 h3]
      rw [hij]

theorem mem_intercalate {c : Char} {sep : List Char} {l : List (List Char)} (h : c ∈ sep.intercalate l) :
    c ∈ sep ∨ ∃ x ∈ l, c ∈ x := by
  induction l with
  | nil => simp at h
  | cons x l ih =>
    cases l with
    | nil => simp at h; exact .inr ⟨x, by simp, h⟩
    | cons y l =>
      rw [List.intercalate_cons_cons] at h
      simp only [List.mem_append] at h
      rcases h with (h | h) | h
      · exact .inr ⟨x, by simp, h⟩
      · exact .inl h
      · rcases ih h with h | ⟨z, hz, h⟩
        · exact .inl h
        · exact .inr ⟨z, by simp [hz], h⟩

theorem place_plain {p : List Char} (h : '/' ∉ p) (h0 : p ≠ []) : place p = ["meshcat".toList, p] := by
  unfold place
  rw [List.splitOn_eq_singleton h]
  simp [h0]

theorem place_eq {G : Graph} (hn : WellNamed G) {a : Addr} (ha : (G.tree.get? a).isSome) (h0 : a ≠ []) :
    ∃ p, pathname G a = some p ∧ p = " | ".toList.intercalate ((nodePath a).map (label G)) ∧
      place p = ["meshcat".toList, p] := by
  refine ⟨_, pathname_eq hn ha, rfl, place_plain ?_ ?_⟩
  · intro h
    rcases mem_intercalate h with h | ⟨x, hx, h⟩
    · revert h; decide +kernel
    · obtain ⟨b, hb, rfl⟩ := List.mem_map.1 hx
      exact (label_plain hn ha hb).1 h
  · cases a with
    | nil => exact absurd rfl h0
    | cons i a =>
      rw [nodePath, List.inits]
      cases a <;> simp [List.inits]

theorem place_inj {G : Graph} (hn : WellNamed G) {a b : Addr} (ha : (G.tree.get? a).isSome) (ha0 : a ≠ [])
    (hb : (G.tree.get? b).isSome) (hb0 : b ≠ []) {p q : List Char} (hp : pathname G a = some p)
    (hq : pathname G b = some q) (h : place p = place q) : a = b := by
  obtain ⟨p', hp', ep, hpp⟩ := place_eq hn ha ha0
  obtain ⟨q', hq', eq, hqq⟩ := place_eq hn hb hb0
  rw [hp] at hp'; rw [hq] at hq'
  cases hp'; cases hq'
  rw [hpp, hqq] at h
  have hpq : p = q := by simpa using h
  rw [ep, eq] at hpq
  refine path_inj hn ha hb (intercalate_inj ?_ ?_ ?_ ?_ hpq)
  · intro x hx
    obtain ⟨b, hb, rfl⟩ := List.mem_map.1 hx
    exact (label_plain hn ha hb).2
  · intro x hx
    obtain ⟨c, hc, rfl⟩ := List.mem_map.1 hx
    exact (label_plain hn hb hc).2
  · cases a <;> simp [nodePath, List.inits]
  · cases b <;> simp [nodePath, List.inits]

/-! ### The order of the loop -/

theorem mem_levelOrder {n : SNode ℝ Shown} {k : ℕ} {front : List Addr} {a b : Addr} (ha : a ∈ front)
    (hs : (n.get? (a ++ b)).isSome) (hb : b.length < k) : a ++ b ∈ levelOrder n k front := by
  induction k generalizing front a b with
  | zero => omega
  | succ k ih =>
    cases b with
    | nil => simp [levelOrder, ha]
    | cons i b =>
      rw [levelOrder, List.mem_append]
      right
      have e : a ++ i :: b = (a ++ [i]) ++ b := by simp
      rw [e] at hs ⊢
      refine ih ?_ hs (by simpa using hb)
      rw [List.mem_flatMap]
      refine ⟨a, ha, ?_⟩
      have h1 := get?_prefix hs
      rw [Node.get?_append] at h1
      unfold kids
      cases hc : n.get? a with
      | none => rw [hc] at h1; cases h1
      | some c =>
        rw [hc] at h1
        simpa using h1

theorem height_le {cs : List (SNode ℝ Shown)} {c : SNode ℝ Shown} (h : c ∈ cs) : height c ≤ heights cs := by
  induction cs with
  | nil => cases h
  | cons d cs ih =>
    rw [heights]
    rcases List.mem_cons.1 h with rfl | h
    · exact le_max_left _ _
    · exact (ih h).trans (le_max_right _ _)

theorem length_lt_height {n : SNode ℝ Shown} {a : Addr} (h : (n.get? a).isSome) : a.length < height n := by
  induction a generalizing n with
  | nil => cases n; simp [height]
  | cons i a ih =>
    cases n with
    | mk p v g cs =>
      simp only [SNode.get?, SNode.children] at h
      cases hc : cs[i]? with
      | none => rw [hc] at h; cases h
      | some c =>
        rw [hc] at h
        have := ih h
        have := height_le (List.mem_of_getElem? hc)
        simp only [height, List.length_cons]
        omega

theorem levelOrder_exists {n : SNode ℝ Shown} {k : ℕ} {front : List Addr}
    (hf : ∀ a ∈ front, (n.get? a).isSome) : ∀ a ∈ levelOrder n k front, (n.get? a).isSome := by
  induction k generalizing front with
  | zero => simp [levelOrder]
  | succ k ih =>
    intro a ha
    rw [levelOrder, List.mem_append] at ha
    rcases ha with ha | ha
    · exact hf a ha
    · refine ih ?_ a ha
      intro b hb
      obtain ⟨c, hc, hb⟩ := List.mem_flatMap.1 hb
      unfold kids at hb
      cases hd : n.get? c with
      | none => rw [hd] at hb; simp at hb
      | some d =>
        rw [hd] at hb
        obtain ⟨i, hi, rfl⟩ := List.mem_map.1 hb
        rw [Node.get?_append, hd]
        simpa using hi

/-! ### What ends up on the server -/

/-- The object and the matrix sent for a geometry. -/
def sent : Shown → Affine ℝ → Set (Vec3 ℝ) × Affine ℝ
  | .sphere r, m => (gSphere r, m)
  | .cylinder l r, m => (gCylinder l r, swapColumns m)
  | .mesh S, m => (S, m)
  | .other, m => (∅, m)

theorem addGeometry_eq (V : Server) {g : Shown} (hg : g ≠ .other) (path : List Char) (m : Affine ℝ) :
    V.addGeometry g path m = (V.set (place path) (sent g m).1 (sent g m).2, none) := by
  cases g <;> first | rfl | exact absurd rfl hg

theorem object_exists {G : Graph} {a : Addr} {g : Shown} (h : Object G a g) : (G.tree.get? a).isSome := by
  unfold Object at h
  cases hc : G.tree.get? a with
  | none => rw [hc] at h; cases h
  | some c => rfl

theorem addAll_spec {G : Graph} (hn : WellNamed G) (ho : ∀ a, ¬ Object G a .other) (L : List Addr)
    (hL : ∀ a ∈ L, (G.tree.get? a).isSome) (V : Server) :
    (V.addAll G L).2 = none ∧
    (∀ a ∈ L, a ≠ [] → ∀ g, Object G a g → ∀ p, pathname G a = some p →
      (V.addAll G L).1.objects (place p) = some (sent g (G.tree.poses.transformationTo a [])).1 ∧
      (V.addAll G L).1.matrices (place p) = some (sent g (G.tree.poses.transformationTo a [])).2) ∧
    (∀ q, (∀ a ∈ L, a ≠ [] → ∀ g, Object G a g → ∀ p, pathname G a = some p → q ≠ place p) →
      (V.addAll G L).1.objects q = V.objects q ∧ (V.addAll G L).1.matrices q = V.matrices q) := by
  induction L generalizing V with
  | nil => simp [Server.addAll]
  | cons a L ih =>
    have hL' : ∀ b ∈ L, (G.tree.get? b).isSome := fun b hb => hL b (by simp [hb])
    unfold Server.addAll
    split
    · next e =>
      obtain ⟨i1, i2, i3⟩ := ih hL' V
      refine ⟨i1, ?_, ?_⟩
      · intro b hb hb0
        rcases List.mem_cons.1 hb with rfl | hb
        · exact absurd e hb0
        · exact i2 b hb hb0
      · intro q hq
        exact i3 q (fun b hb => hq b (by simp [hb]))
    · next e =>
      obtain ⟨p, hp, -, -⟩ := place_eq hn (hL a (by simp)) e
      unfold Server.addNode
      rw [hp]
      dsimp only
      cases hg : (G.tree.get? a).bind SNode.geometry with
      | none =>
        dsimp only
        obtain ⟨i1, i2, i3⟩ := ih hL' V
        refine ⟨i1, ?_, ?_⟩
        · intro b hb hb0
          rcases List.mem_cons.1 hb with rfl | hb
          · intro g hg'
            rw [Object, hg] at hg'
            cases hg'
          · exact i2 b hb hb0
        · intro q hq
          exact i3 q (fun b hb => hq b (by simp [hb]))
      | some g =>
        dsimp only
        have hgo : g ≠ .other := fun h => ho a (by rw [Object, hg, h])
        rw [addGeometry_eq V hgo]
        dsimp only
        obtain ⟨i1, i2, i3⟩ := ih hL' (V.set (place p) (sent g (G.tree.poses.transformationTo a [])).1
          (sent g (G.tree.poses.transformationTo a [])).2)
        refine ⟨i1, ?_, ?_⟩
        · intro b hb hb0 g' hg' p' hp'
          by_cases hbL : b ∈ L
          · exact i2 b hbL hb0 g' hg' p' hp'
          · rcases List.mem_cons.1 hb with rfl | hb
            · rw [hp] at hp'; cases hp'
              rw [Object, hg] at hg'; cases hg'
              have := i3 (place p) (fun c hc hc0 g' hg' q hq hpq => by
                have := place_inj hn (hL b (by simp)) e (hL' c hc) hc0 hp hq hpq
                exact hbL (this ▸ hc))
              rw [this.1, this.2]
              simp [Server.set]
            · exact absurd hb hbL
        · intro q hq
          have h1 := i3 q (fun b hb => hq b (by simp [hb]))
          have h2 := hq a (by simp) e g hg p hp
          rw [h1.1, h1.2]
          simp [Server.set, h2]

/-- **C100**, shapes the viewer cannot show. A scene with such an object is refused with
`NotImplementedError`; the object is not silently left out. -/
theorem unknown_refused {G : Graph} (hn : WellNamed G) {a : Addr} (h0 : a ≠ [])
    (ha : Object G a .other) (V : Server) (b : Bool) : (V.render G b).2 = some .notImplemented := by
  have key : ∀ (L : List Addr) (V : Server), (∀ a ∈ L, (G.tree.get? a).isSome) → a ∈ L →
      (V.addAll G L).2 = some .notImplemented := by
    intro L
    induction L with
    | nil => intro V _ h; simp at h
    | cons c L ih =>
      intro V hL hm
      unfold Server.addAll
      split
      · next e =>
        rcases List.mem_cons.1 hm with rfl | hm
        · exact absurd e h0
        · exact ih V (fun x hx => hL x (by simp [hx])) hm
      · next e =>
        obtain ⟨p, hp, -, -⟩ := place_eq hn (hL c (by simp)) e
        unfold Server.addNode
        rw [hp]
        dsimp only
        cases hg : (G.tree.get? c).bind SNode.geometry with
        | none =>
          dsimp only
          refine ih V (fun x hx => hL x (by simp [hx])) ?_
          rcases List.mem_cons.1 hm with rfl | hm
          · rw [Object, hg] at ha; cases ha
          · exact hm
        | some g =>
          dsimp only
          by_cases hgo : g = .other
          · rw [hgo]; rfl
          · rw [addGeometry_eq V hgo]
            dsimp only
            refine ih _ (fun x hx => hL x (by simp [hx])) ?_
            rcases List.mem_cons.1 hm with rfl | hm
            · rw [Object, hg] at ha; cases ha; exact absurd rfl hgo
            · exact hm
  have he : (G.tree.get? a).isSome := by
    unfold Object at ha
    cases h : G.tree.get? a with
    | none => rw [h] at ha; cases ha
    | some c => rfl
  refine key _ V ?_ ?_
  · exact levelOrder_exists (fun c hc => by simp at hc; subst hc; rfl)
  · have := mem_levelOrder (n := G.tree) (front := [[]]) (a := []) (b := a) (by simp) he
      (length_lt_height he)
    simpa using this

theorem swap_point (m : Affine ℝ) (p : Vec3 ℝ) : (swapColumns m).point p = m.point ⟨p.x, p.z, p.y⟩ := by
  ext <;> simp [swapColumns, Affine.point, Affine.vec, Vec3.dot] <;> ring

theorem sent_region (g : Shown) (hg : g ≠ .other) (m : Affine ℝ) :
    (sent g m).2.point '' (sent g m).1 = m.point '' (Region g) := by
  cases g with
  | sphere r => rfl
  | mesh S => rfl
  | other => exact absurd rfl hg
  | cylinder l r =>
    ext q
    simp only [sent, Set.mem_image, swap_point, Region, gCylinder, Set.mem_ofPred_eq, Solid.Closed]
    constructor
    · rintro ⟨p, hp, rfl⟩
      exact ⟨⟨p.x, p.z, p.y⟩, hp, rfl⟩
    · rintro ⟨p, hp, rfl⟩
      exact ⟨⟨p.x, p.z, p.y⟩, hp, rfl⟩

/-- **C100** In a scene with distinct names, the command `remove` followed by `render` raises nothing, and
afterwards the viewer shows for every object (except the root) exactly the points that the tracer, which
converts them into the object's own coordinates, finds in it; and it shows nothing else. -/
theorem shows_scene_partial {G : Graph} (hn : WellNamed G) (ho : ∀ a, ¬ Object G a .other)
    (hi : Node.Inverts G.tree.poses) (V : Server) (hV : V.matrices [] = none) (showRoot : Bool) :
    (V.remove.render G showRoot).2 = none ∧
    (∀ a g, a ≠ [] → Object G a g → ∃ path, pathname G a = some path ∧
      (V.remove.render G showRoot).1.shown (place path) =
        {p | G.tree.poses.pointToNode [] a p ∈ Region g}) ∧
    (∀ q, ["meshcat".toList] <+: q → ((V.remove.render G showRoot).1.objects q).isSome →
      ∃ a g path, a ≠ [] ∧ Object G a g ∧ pathname G a = some path ∧ q = place path) := by
  have hL : ∀ a ∈ levelOrder G.tree (height G.tree) [[]], (G.tree.get? a).isSome :=
    levelOrder_exists (by simp [SNode.get?])
  obtain ⟨h1, h2, h3⟩ := addAll_spec hn ho _ hL V.remove
  have hmem : ∀ a, (G.tree.get? a).isSome → a ∈ levelOrder G.tree (height G.tree) [[]] := fun a ha =>
    mem_levelOrder (a := []) (by simp) ha (length_lt_height ha)
  have htop : ∀ (q : Place), q.length < 2 → (V.remove.render G showRoot).1.matrices q = V.remove.matrices q := by
    intro q hq
    refine (h3 q ?_).2
    intro a ha ha0 g hg p hp e
    obtain ⟨p', hp', -, hpl⟩ := place_eq hn (hL a ha) ha0
    rw [hp] at hp'; cases hp'
    rw [e, hpl] at hq
    exact absurd hq (by simp only [List.length_cons]; omega)
  refine ⟨h1, ?_, ?_⟩
  · intro a g ha0 hg
    obtain ⟨p, hp, -, hpl⟩ := place_eq hn (object_exists hg) ha0
    refine ⟨p, hp, ?_⟩
    obtain ⟨e1, e2⟩ := h2 a (hmem a (object_exists hg)) ha0 g hg p hp
    have hm : (V.remove.render G showRoot).1.matrix (place p) =
        (sent g (G.tree.poses.transformationTo a [])).2 := by
      unfold Server.matrix
      have t0 := htop [] (by simp)
      have t1 := htop ["meshcat".toList] (by simp)
      have r0 : V.remove.matrices [] = none := by
        unfold Server.remove
        dsimp only
        rw [if_neg (by simp), hV]
      have r1 : V.remove.matrices ["meshcat".toList] = none := by
        unfold Server.remove
        dsimp only
        rw [if_pos (List.prefix_refl _)]
      rw [r0] at t0; rw [r1] at t1
      rw [hpl] at e2 ⊢
      have e2' : (V.remove.render G showRoot).1.matrices ["meshcat".toList, p] = _ := e2
      simp only [List.inits, List.map_cons, List.map_nil, t0, t1, e2', multiDot, List.foldr,
        Option.getD_some, Option.getD_none, Node.one_comp, Node.comp_one]
    unfold Server.shown
    have e1' : (V.remove.render G showRoot).1.objects (place p) = _ := e1
    rw [e1', hm]
    dsimp only
    rw [sent_region g (fun h => ho a (h ▸ hg))]
    ext q
    simp only [Set.mem_image, Set.mem_ofPred_eq]
    constructor
    · rintro ⟨p, hp, rfl⟩
      have := Node.point_roundtrip hi a [] p
      unfold Poses.pointToNode at this ⊢
      rw [this]
      exact hp
    · intro h
      exact ⟨_, h, Node.point_roundtrip hi [] a q⟩
  · intro q hq hs
    by_contra hno
    have := (h3 q (fun a ha ha0 g hg p hp e => hno ⟨a, g, p, ha0, hg, hp, e⟩)).1
    have e : (V.remove.render G showRoot).1.objects q = V.remove.objects q := this
    rw [e] at hs
    unfold Server.remove at hs
    dsimp only at hs
    rw [if_pos hq] at hs
    cases hs

/-! ### Where the property fails -/

def shift (x : ℝ) : Affine ℝ := { Affine.one with t := ⟨x, 0, 0⟩ }

theorem shift_comp (x y : ℝ) : (shift x).comp (shift y) = shift (x + y) := by
  ext <;> simp [shift, Affine.comp, Affine.one, Affine.point, Affine.vec, Vec3.dot, Affine.c0, Affine.c1, Affine.c2]
  ring

/-- A world with two balls of radius 1, at `x = -2` and `x = 2`. -/
def pair (first second : String) : Graph where
  tree := .mk Affine.one Affine.one (some (.sphere 10))
    [.mk (shift (-2)) (shift 2) (some (.sphere 1)) [], .mk (shift 2) (shift (-2)) (some (.sphere 1)) []]
  name
    | [] => some "world"
    | [0] => some first
    | [1] => some second
    | _ => none

theorem pair_order (f s : String) :
    levelOrder (pair f s).tree (height (pair f s).tree) [[]] = [[], [0], [1]] := by
  have : height (pair f s).tree = 2 := by simp [pair, height, heights]
  rw [this]
  rfl

theorem pair_to (f s : String) : (pair f s).tree.poses.transformationTo [0] [] = shift (-2) ∧
    (pair f s).tree.poses.transformationTo [1] [] = shift 2 := ⟨rfl, rfl⟩

theorem pair_path (f s : String) :
    pathname (pair f s) [0] = some ("world".toList ++ " | ".toList ++ f.toList) ∧
    pathname (pair f s) [1] = some ("world".toList ++ " | ".toList ++ s.toList) := by
  constructor <;>
  · unfold pathname nodePath
    rw [show ∀ i : ℕ, ([i] : Addr).inits = [[], [i]] from fun _ => rfl, List.mapM_cons, List.mapM_cons, List.mapM_nil]
    simp only [pair, Option.bind_eq_bind, Option.bind_some, Option.pure_def, Option.map_some, List.map_cons,
      List.map_nil, List.intercalate_cons_cons, List.intercalate_singleton]

theorem pair_render (f s : String) (V : Server) (b : Bool) :
    V.render (pair f s) b =
      (((V.set (place ("world".toList ++ " | ".toList ++ f.toList)) (gSphere 1) (shift (-2))).set
        (place ("world".toList ++ " | ".toList ++ s.toList)) (gSphere 1) (shift 2)), none) := by
  unfold Server.render
  rw [pair_order]
  unfold Server.addAll
  rw [if_pos rfl]
  unfold Server.addAll
  rw [if_neg (by simp)]
  unfold Server.addNode
  rw [(pair_path f s).1, (pair_to f s).1]
  dsimp only [pair, SNode.get?, SNode.children, SNode.geometry, List.getElem?_cons_zero, Option.bind_some,
    Server.addGeometry]
  unfold Server.addAll
  rw [if_neg (by simp)]
  unfold Server.addNode
  have h1 := (pair_path f s).2
  have h2 := (pair_to f s).2
  unfold pair at h1 h2
  rw [h1, h2]
  rfl

/-- **C100** is violated by equal names: of two balls with the same name the viewer shows only the last;
at the centre of the first, inside the traced object, it shows nothing. -/
theorem twins_hidden (b : Bool) :
    Object (pair "ball" "ball") [0] (.sphere 1) ∧
    (pair "ball" "ball").tree.poses.pointToNode [] [0] ⟨-2, 0, 0⟩ ∈ Region (.sphere 1) ∧
    ∀ q, (⟨-2, 0, 0⟩ : Vec3 ℝ) ∉ ((({} : Server).render (pair "ball" "ball") b).1.shown q) := by
  refine ⟨rfl, ?_, ?_⟩
  · show ((pair "ball" "ball").tree.poses.transformationTo [] [0]).point ⟨-2, 0, 0⟩ ∈ _
    have : (pair "ball" "ball").tree.poses.transformationTo [] [0] = shift 2 := rfl
    rw [this]
    norm_num [shift, Affine.one, Affine.point, Affine.vec, Vec3.dot, Region, Solid.Closed]
  · intro q h
    rw [pair_render] at h
    have hpl : place ("world".toList ++ " | ".toList ++ "ball".toList) =
        ["meshcat".toList, "world".toList ++ " | ".toList ++ "ball".toList] :=
      place_plain (by decide +kernel) (by decide +kernel)
    unfold Server.shown at h
    by_cases hq : q = place ("world".toList ++ " | ".toList ++ "ball".toList)
    · subst hq
      simp only [Server.set, if_true] at h
      obtain ⟨p, hp, e⟩ := h
      have hm : Server.matrix ((({} : Server).set (place ("world".toList ++ " | ".toList ++ "ball".toList))
          (gSphere 1) (shift (-2))).set (place ("world".toList ++ " | ".toList ++ "ball".toList))
          (gSphere 1) (shift 2)) (place ("world".toList ++ " | ".toList ++ "ball".toList)) = shift 2 := by
        unfold Server.matrix
        rw [hpl]
        simp only [List.inits, List.map_cons, List.map_nil, multiDot, List.foldr, Server.set]
        rw [if_neg (by simp), if_neg (by simp), if_neg (by simp), if_neg (by simp)]
        simp only [if_true, Option.getD_none, Option.getD_some, Node.one_comp, Node.comp_one]
      have e' : (shift 2).point p = ⟨-2, 0, 0⟩ := by
        rw [← hm]
        exact e
      have ex : p.x + 2 = -2 := by
        have := congrArg Vec3.x e'
        simpa [shift, Affine.one, Affine.point, Affine.vec, Vec3.dot] using this
      simp only [gSphere, Set.mem_ofPred_eq] at hp
      nlinarith [sq_nonneg p.y, sq_nonneg p.z]
    · have hn : ((({} : Server).set (place ("world".toList ++ " | ".toList ++ "ball".toList))
          (gSphere 1) (shift (-2))).set (place ("world".toList ++ " | ".toList ++ "ball".toList))
          (gSphere 1) (shift 2)).objects q = none := by
        unfold Server.set
        dsimp only
        rw [if_neg hq, if_neg hq]
      rw [hn] at h
      exact h

/-- **C100** is violated by names with `/`: the second ball, at `x = 2`, is called `ball/b`; the viewer
takes it for a part of the first and shows it at the origin. -/
theorem slash_displaced (b : Bool) :
    Object (pair "ball" "ball/b") [1] (.sphere 1) ∧
    (⟨0, 0, 0⟩ : Vec3 ℝ) ∈ (({} : Server).render (pair "ball" "ball/b") b).1.shown
      (place ("world".toList ++ " | ".toList ++ "ball/b".toList)) ∧
    (pair "ball" "ball/b").tree.poses.pointToNode [] [1] ⟨0, 0, 0⟩ ∉ Region (.sphere 1) := by
  refine ⟨rfl, ?_, ?_⟩
  · rw [pair_render]
    have h1 : place ("world".toList ++ " | ".toList ++ "ball".toList) =
        ["meshcat".toList, "world | ball".toList] := by decide +kernel
    have h2 : place ("world".toList ++ " | ".toList ++ "ball/b".toList) =
        ["meshcat".toList, "world | ball".toList, "b".toList] := by decide +kernel
    rw [h1, h2]
    unfold Server.shown
    simp only [Server.set, if_true]
    refine ⟨⟨0, 0, 0⟩, by norm_num [gSphere], ?_⟩
    unfold Server.matrix
    simp only [List.inits, List.map_cons, List.map_nil, multiDot, List.foldr]
    rw [if_neg (by simp), if_neg (by simp), if_neg (by simp), if_neg (by simp), if_neg (by simp)]
    simp only [if_true, Option.getD_none, Option.getD_some, Node.one_comp, Node.comp_one, shift_comp]
    norm_num [shift, Affine.one, Affine.point, Affine.vec, Vec3.dot, Vec3.ext_iff]
  · show ((pair "ball" "ball/b").tree.poses.transformationTo [] [1]).point ⟨0, 0, 0⟩ ∉ _
    have : (pair "ball" "ball/b").tree.poses.transformationTo [] [1] = shift (-2) := rfl
    rw [this]
    norm_num [shift, Affine.one, Affine.point, Affine.vec, Vec3.dot, Region, Solid.Closed]

/-- **C100** is violated for the root: it is not shown even if `show_root` is asked for. -/
theorem root_not_shown : ∃ G : Graph, WellNamed G ∧ Object G [] (.sphere 10) ∧
    ∀ q, (({} : Server).render G true).1.shown q = ∅ := by
  refine ⟨⟨.mk Affine.one Affine.one (some (.sphere 10)) [], fun _ => some "world"⟩, ⟨?_, ?_⟩, rfl, ?_⟩
  · intro a _
    exact ⟨"world", rfl, by decide +kernel, by decide +kernel⟩
  · intro a i j hi
    cases a <;> simp [SNode.get?, SNode.children] at hi
  · intro q
    have : (({} : Server).render ⟨.mk Affine.one Affine.one (some (.sphere 10)) [], fun _ => some "world"⟩ true) =
        ({}, none) := by
      unfold Server.render
      have : height (.mk Affine.one Affine.one (some (Shown.sphere 10)) []) = 1 := by simp [height, heights]
      rw [this]
      rfl
    rw [this]
    rfl

/-! ### The hypotheses are met -/

theorem pair_get {f s : String} {a : Addr} (h : ((pair f s).tree.get? a).isSome) : a = [] ∨ a = [0] ∨ a = [1] := by
  match a, h with
  | [], _ => simp
  | [0], _ => simp
  | [1], _ => simp
  | (n + 2) :: a, h => simp [pair, SNode.get?, SNode.children] at h
  | 0 :: i :: a, h => simp [pair, SNode.get?, SNode.children] at h
  | 1 :: i :: a, h => simp [pair, SNode.get?, SNode.children] at h

theorem pair_named : WellNamed (pair "left" "right") where
  named a h := by
    rcases pair_get h with rfl | rfl | rfl
    · exact ⟨"world", rfl, by decide +kernel, by decide +kernel⟩
    · exact ⟨"left", rfl, by decide +kernel, by decide +kernel⟩
    · exact ⟨"right", rfl, by decide +kernel, by decide +kernel⟩
  siblings a i j hi hj h := by
    have hi' := pair_get hi
    have hj' := pair_get hj
    have ha : a = [] := by
      rcases hi' with h | h | h <;> simpa using congrArg List.dropLast h
    subst ha
    simp only [List.nil_append, List.cons.injEq, and_true, reduceCtorEq, false_or] at hi' hj'
    rcases hi' with rfl | rfl <;> rcases hj' with rfl | rfl <;> first | rfl | (exfalso; revert h; simp [pair])

theorem pair_inverts (f s : String) : Node.Inverts (pair f s).tree.poses := by
  intro a
  by_cases h : ((pair f s).tree.get? a).isSome
  · rcases pair_get h with rfl | rfl | rfl
    · exact ⟨Node.one_comp _, Node.one_comp _⟩
    · have h1 : (pair f s).tree.poses.inv [0] = shift 2 := rfl
      have h2 : (pair f s).tree.poses.pose [0] = shift (-2) := rfl
      rw [h1, h2, shift_comp, shift_comp]
      norm_num
      rfl
    · have h1 : (pair f s).tree.poses.inv [1] = shift (-2) := rfl
      have h2 : (pair f s).tree.poses.pose [1] = shift 2 := rfl
      rw [h1, h2, shift_comp, shift_comp]
      norm_num
      rfl
  · have hn : (pair f s).tree.get? a = none := by simpa using h
    simp only [SNode.poses, hn]
    exact ⟨Node.one_comp _, Node.one_comp _⟩

/-- The left ball is drawn exactly where the tracer finds it. -/
example : ∃ path, pathname (pair "left" "right") [0] = some path ∧
    (({} : Server).remove.render (pair "left" "right") false).1.shown (place path) =
      {p | (pair "left" "right").tree.poses.pointToNode [] [0] p ∈ Region (.sphere 1)} :=
  (shows_scene_partial pair_named (fun a h => by
      rcases pair_get (object_exists h) with rfl | rfl | rfl <;> cases h)
    (pair_inverts _ _) {} rfl false).2.1 [0] _ (by simp) rfl

/-- A world with a ball of a kind the viewer does not know is refused. -/
example : ∃ (G : Graph) (a : Addr), WellNamed G ∧ a ≠ [] ∧ Object G a .other ∧
    ∀ (V : Server) b, (V.render G b).2 = some .notImplemented := by
  have hn : WellNamed ⟨.mk Affine.one Affine.one (some (.sphere 10))
      [.mk Affine.one Affine.one (some .other) []], fun a => if a = [] then some "world" else some "odd"⟩ := by
    have hg : ∀ a : Addr, ((SNode.mk (α := ℝ) Affine.one Affine.one (some (Shown.sphere 10))
      [.mk Affine.one Affine.one (some .other) []]).get? a).isSome → a = [] ∨ a = [0] := by
      intro a h
      match a, h with
      | [], _ => simp
      | [0], _ => simp
      | (n + 1) :: a, h => simp [SNode.get?, SNode.children] at h
      | 0 :: i :: a, h => simp [SNode.get?, SNode.children] at h
    constructor
    · intro a h
      rcases hg a h with rfl | rfl
      · exact ⟨"world", rfl, by decide +kernel, by decide +kernel⟩
      · exact ⟨"odd", rfl, by decide +kernel, by decide +kernel⟩
    · intro a i j hi hj _
      have hi' := hg _ hi
      have hj' := hg _ hj
      have ha : a = [] := by
        rcases hi' with h | h <;> simpa using congrArg List.dropLast h
      subst ha
      simp at hi' hj'
      rw [hi', hj']
  exact ⟨_, [0], hn, by simp, rfl, fun V b => unknown_refused (a := [0]) hn (by simp) rfl V b⟩

end
end PV.Meshcat
