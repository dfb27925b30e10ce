import Verif.Lemmas.Embed
import Verif.Props.LibraryPath

/-!
C105: the order in which objects are added. C106: objects beside the light. C107: the size and shape of
the world.
-/

namespace PV.Variants
open PV PV.Library PV.Alike PV.NextHit
noncomputable section
variable {σ : Type} {n m : ℕ}

/-! ### Lists -/

theorem sortedBy_perm {α β : Type} [LinearOrder α] {key : β → α} {l l' : List β} (h : l.Perm l')
    (hk : ∀ a ∈ l, ∀ b ∈ l, key a = key b → a = b) : sortedBy key l = sortedBy key l' := by
  refine List.Perm.eq_of_pairwise (le := fun a b => key a ≤ key b) ?_ (pairwise_sortedBy _ _)
    (pairwise_sortedBy _ _) (((perm_sortedBy key l).trans h).trans (perm_sortedBy key l').symm)
  intro a b ha hb h1 h2
  exact hk a ((mem_sortedBy key).1 ha) b (h.mem_iff.2 ((mem_sortedBy key).1 hb)) (le_antisymm h1 h2)

theorem sortedBy_last {α β : Type} [LinearOrder α] {key : β → α} {x : β} {l : List β}
    (h : ∀ y ∈ l, key y < key x) : sortedBy key (x :: l) = sortedBy key l ++ [x] := by
  rw [sortedBy_cons]
  have h' : ∀ y ∈ sortedBy key l, key y < key x := fun y hy => h y ((mem_sortedBy key).1 hy)
  generalize sortedBy key l = k at h'
  induction k with
  | nil => rfl
  | cons y k ih =>
    rw [ins_cons, if_neg (not_le.2 (h' y (by simp))), ih fun z hz => h' z (by simp [hz])]
    rfl

/-- The crossings ahead, sorted. -/
def ahead (S : LScene n) (B : Trimesh) (o d : Vec3 ℝ) : List (KHit (Fin (n + 1)) ℝ) :=
  kHits (List.finRange (n + 1)) fun v => keep epsZero ((S.node v).pyTs B o d)

theorem inters_eq {S : LScene n} (hS : Sound S) (B : Trimesh) {o d : Vec3 ℝ} (hd : d.dot d = 1) :
    S.intersections B o d =
      (sortedBy (·.t) (ahead S B o d)).map fun h => ⟨h.node, o + h.t • d, h.t⟩ := by
  rw [intersections_eq hS.rigid hS.inverse B hd, sceneInters_eq]
  rfl

theorem mem_ahead {S : LScene n} {B : Trimesh} {o d : Vec3 ℝ} {h : KHit (Fin (n + 1)) ℝ} :
    h ∈ ahead S B o d ↔ h.t ∈ (S.node h.node).pyTs B o d ∧ epsZero < h.t := by
  obtain ⟨v, t⟩ := h
  simp [ahead, kHits, keep]

/-- One node renamed. -/
def rename (e : Fin (n + 1) → Fin (m + 1)) (h : KHit (Fin (n + 1)) ℝ) : KHit (Fin (m + 1)) ℝ := ⟨e h.node, h.t⟩

/-- Choice of the next surface when the sorted crossings are the same ones. -/
theorem hitLike_of_sorted {e : Fin (n + 1) → Fin (m + 1)} (he : Function.Injective e) {S : LScene n} {S' : LScene m}
    (hS : Sound S) (hS' : Sound S') {B : Trimesh} {ray : Ray ℝ}
    (hd : ray.direction.dot ray.direction = 1)
    (hs : sortedBy (·.t) (ahead S' B ray.position ray.direction) =
      (sortedBy (·.t) (ahead S B ray.position ray.direction)).map (rename e)) :
    HitLike True 0 e
        (nextHit epsZero (distanceBetween ray.position) (S.intersections B ray.position ray.direction))
        (nextHit epsZero (distanceBetween ray.position) (S'.intersections B ray.position ray.direction)) := by
  have : S'.intersections B ray.position ray.direction =
      (S.intersections B ray.position ray.direction).map (interMap e id) := by
    rw [inters_eq hS B hd, inters_eq hS' B hd, hs, List.map_map, List.map_map]
    rfl
  rw [this]
  exact nextHit_map he id True 0 epsZero fun x _ => rfl

theorem flatMap_embed {β : Type} {e : Fin (n + 1) → Fin (m + 1)} (f : Fin (m + 1) → List β) (g : Fin (n + 1) → List β)
    (h : ∀ v, f (e v) = g v) :
    ((List.finRange (n + 1)).map e).flatMap f = (List.finRange (n + 1)).flatMap g := by
  rw [List.flatMap_map]
  congr 1
  funext v
  exact h v

theorem flatMap_filter {β γ : Type} (f : β → List γ) (p : β → Bool) (h : ∀ x, p x = false → f x = []) (l : List β) :
    (l.filter p).flatMap f = l.flatMap f := by
  induction l with
  | nil => rfl
  | cons x l ih =>
    rw [List.filter_cons]
    split
    · rw [List.flatMap_cons, List.flatMap_cons, ih]
    · next hp => rw [ih, List.flatMap_cons, h x (by simpa using hp), List.nil_append]

/-! ### C105 -/

variable {S : LScene n}

theorem reordered_embeds {e : Fin (n + 1) ≃ Fin (n + 1)} {S' : LScene n} (h : Reordered e S S') : Embeds e S S' where
  inj := e.injective
  zero := h.world
  node v _ := h.node v
  world := ⟨(S.node 0).geom, by have := h.node 0; rw [h.world] at this; rw [this]⟩

theorem reordered_sound {e : Fin (n + 1) ≃ Fin (n + 1)} {S' : LScene n} (h : Reordered e S S') (hS : Sound S) : Sound S' := by
  have hn : ∀ w, S'.node w = S.node (e.symm w) := fun w => by rw [← h.node, e.apply_symm_apply]
  constructor <;> intro w <;> rw [hn]
  · exact hS.index_pos _
  · exact hS.rigid _
  · exact hS.inverse _
  · exact hS.comps _

theorem reordered_ahead {e : Fin (n + 1) ≃ Fin (n + 1)} {S' : LScene n} (h : Reordered e S S') (B : Trimesh) (o d : Vec3 ℝ) :
    (ahead S' B o d).Perm ((ahead S B o d).map (rename e)) := by
  have h1 : (List.finRange (n + 1)).Perm ((List.finRange (n + 1)).map e) := by
    refine (List.perm_ext_iff_of_nodup (List.nodup_finRange _) ((List.nodup_finRange _).map e.injective)).2 fun w => ?_
    simp only [List.mem_finRange, List.mem_map, true_and, true_iff]
    exact e.surjective w
  unfold ahead kHits
  refine (h1.flatMap_right _).trans ?_
  rw [flatMap_embed (e := e) _ (fun v => (keep epsZero ((S.node v).pyTs B o d)).map fun t => ⟨e v, t⟩)
    (fun v => by dsimp only; rw [h.node])]
  rw [List.map_flatMap]
  simp only [List.map_map, Function.comp_def, rename]
  exact .refl _

theorem reordered_sorted {e : Fin (n + 1) ≃ Fin (n + 1)} {S' : LScene n} (h : Reordered e S S') {B : Trimesh} {ray : Ray ℝ}
    (hu : Untied S B ray) : sortedBy (·.t) (ahead S' B ray.position ray.direction) =
      (sortedBy (·.t) (ahead S B ray.position ray.direction)).map (rename e) := by
  rw [← Alike.sortedBy_map (k := (·.t)) (k' := (·.t)) (rename e) fun x _ => rfl]
  refine (sortedBy_perm (reordered_ahead h B _ _).symm ?_).symm
  intro a ha b hb hk
  obtain ⟨a', ha', rfl⟩ := List.mem_map.1 ha
  obtain ⟨b', hb', rfl⟩ := List.mem_map.1 hb
  obtain ⟨u, t⟩ := a'
  obtain ⟨v, t'⟩ := b'
  have hk' : t = t' := hk
  subst hk'
  have h1 := mem_ahead.1 ha'
  have h2 := mem_ahead.1 hb'
  have := hu u v t h1.2 h1.1 h2.1
  rw [this]

/-- **C105** The order in which the objects are added to the scene does not matter: if the ray never has two
objects at exactly the same distance ahead, the scene with the objects in another order gives the same
history with the same random numbers. -/
theorem order_irrelevant_partial {e : Fin (n + 1) ≃ Fin (n + 1)} {S' : LScene n} (h : Reordered e S S') (hS : Sound S)
    (hv : ∀ v, Visible (S.node v).geom) {B : Trimesh} (hB : TrimeshSound B) {R : Rand σ} {method : EmitMethod}
    {maxsteps : ℕ} {maxpath : Option ℝ} {ray : Ray ℝ} {s : σ} (hd : ray.direction.dot ray.direction = 1)
    (hu : ∀ count ray' s', Reached S B R method maxsteps maxpath ray s count ray' s' → Untied S B ray')
    (fuel : ℕ) :
    stepForward (pyOps S' B R method) maxsteps maxpath fuel ray s =
      stepForward (pyOps S B R method) maxsteps maxpath fuel ray s := by
  refine (reordered_embeds h).equal hS hv hB hd (fun count ray' s' hr hd' => ?_) fuel
  exact hitLike_of_sorted e.injective hS (reordered_sound h hS) hd' (reordered_sorted h (hu count ray' s' hr))

/-- Objects whose surfaces have no point in common are never at the same distance. -/
theorem separate_untied (hS : Sound S) (hv : ∀ v, Visible (S.node v).geom) {B : Trimesh} (hB : TrimeshSound B)
    (hs : Separate S) {ray : Ray ℝ} (hd : ray.direction.dot ray.direction = 1) : Untied S B ray := by
  intro u v t _ h1 h2
  exact hs u v _ (pyTs_on (hS.rigid u) (hS.inverse u) hB (hv u) hd h1)
    (pyTs_on (hS.rigid v) (hS.inverse v) hB (hv v) hd h2)

theorem reached_unit (hS : Sound S) (hv : ∀ v, Visible (S.node v).geom) {B : Trimesh} (hB : TrimeshSound B)
    {R : Rand σ} {method : EmitMethod} {maxsteps : ℕ} {maxpath : Option ℝ} {ray : Ray ℝ} {s : σ}
    (hd : ray.direction.dot ray.direction = 1) {count : ℕ} {ray' : Ray ℝ} {s' : σ}
    (hr : Reached S B R method maxsteps maxpath ray s count ray' s') : ray'.direction.dot ray'.direction = 1 := by
  induction hr with
  | start => exact hd
  | next hr hb ih =>
    exact (pass_on hS hv hB (PV.body_pass (pyOps S B R method) maxsteps maxpath _ _ _) ih).2 _ _ hb

/-- **C105**, for objects that do not touch: every ray. -/
theorem order_irrelevant {e : Fin (n + 1) ≃ Fin (n + 1)} {S' : LScene n} (h : Reordered e S S') (hS : Sound S)
    (hv : ∀ v, Visible (S.node v).geom) {B : Trimesh} (hB : TrimeshSound B) (hs : Separate S) (R : Rand σ) (method : EmitMethod)
    (maxsteps : ℕ) (maxpath : Option ℝ) {ray : Ray ℝ} (s : σ) (hd : ray.direction.dot ray.direction = 1)
    (fuel : ℕ) :
    stepForward (pyOps S' B R method) maxsteps maxpath fuel ray s =
      stepForward (pyOps S B R method) maxsteps maxpath fuel ray s :=
  order_irrelevant_partial h hS hv hB hd
    (fun _ _ _ hr => separate_untied hS hv hB hs (reached_unit hS hv hB hd hr)) fuel

/-! ### C106 -/

theorem extended_embeds {e : Fin (n + 1) → Fin (m + 1)} {S' : LScene m} (h : Extended e S S') : Embeds e S S' where
  inj := h.order.injective
  zero := h.world
  node v _ := h.node v
  world := ⟨(S.node 0).geom, by have := h.node 0; rw [h.world] at this; rw [this]⟩

theorem extended_ahead {e : Fin (n + 1) → Fin (m + 1)} {S' : LScene m} (h : Extended e S S') {B : Trimesh} {o d : Vec3 ℝ}
    (hm : ∀ w, w ∉ Set.range e → keep epsZero ((S'.node w).pyTs B o d) = []) :
    ahead S' B o d = (ahead S B o d).map (rename e) := by
  classical
  have h1 : (List.finRange (m + 1)).filter (fun w => decide (w ∈ Set.range e)) = (List.finRange (n + 1)).map e := by
    refine List.Perm.eq_of_pairwise (le := (· < ·)) (fun a b _ _ h1 h2 => absurd h2 h1.asymm) ?_ ?_ ?_
    · exact (List.pairwise_lt_finRange _).filter _
    · exact List.pairwise_map.2 ((List.pairwise_lt_finRange _).imp fun hab => h.order hab)
    · refine (List.perm_ext_iff_of_nodup ((List.nodup_finRange _).filter _)
        ((List.nodup_finRange _).map h.order.injective)).2 fun w => ?_
      simp [List.mem_filter]
  unfold ahead kHits
  rw [← flatMap_filter _ (fun w => decide (w ∈ Set.range e)) (fun w hw => by
    dsimp only; rw [hm w (by simpa using hw)]; rfl), h1]
  rw [flatMap_embed (e := e) _ (fun v => (keep epsZero ((S.node v).pyTs B o d)).map fun t => ⟨e v, t⟩)
    (fun v => by dsimp only; rw [h.node])]
  rw [List.map_flatMap]
  simp only [List.map_map, Function.comp_def, rename]

theorem extended_sorted {e : Fin (n + 1) → Fin (m + 1)} {S' : LScene m} (h : Extended e S S') (hS' : Sound S')
    (hv : ∀ v, Visible (S'.node v).geom) {B : Trimesh} (hB : TrimeshSound B) {ray : Ray ℝ}
    (hd : ray.direction.dot ray.direction = 1) (hu : ∀ w, w ∉ Set.range e → Misses (S'.node w) ray) :
    sortedBy (·.t) (ahead S' B ray.position ray.direction) =
      (sortedBy (·.t) (ahead S B ray.position ray.direction)).map (rename e) := by
  rw [extended_ahead h fun w hw => ?_, Alike.sortedBy_map (k := (·.t)) (rename e) fun x _ => rfl]
  refine List.filter_eq_nil_iff.2 fun t ht => ?_
  simp only [decide_eq_true_eq]
  intro he
  exact hu w hw t he (pyTs_on (hS'.rigid w) (hS'.inverse w) hB (hv w) hd ht)

/-- **C106** An object the light does not meet has no effect: if at each pass the half-line ahead of the ray misses
every object that was added, the history is the one without them. -/
theorem bystander_irrelevant_partial {e : Fin (n + 1) → Fin (m + 1)} {S' : LScene m} (h : Extended e S S')
    (hS : Sound S) (hS' : Sound S') (hv : ∀ v, Visible (S'.node v).geom) {B : Trimesh} (hB : TrimeshSound B) {R : Rand σ}
    {method : EmitMethod} {maxsteps : ℕ} {maxpath : Option ℝ} {ray : Ray ℝ} {s : σ}
    (hd : ray.direction.dot ray.direction = 1)
    (hu : ∀ count ray' s', Reached S B R method maxsteps maxpath ray s count ray' s' →
      ∀ w, w ∉ Set.range e → Misses (S'.node w) ray') (fuel : ℕ) :
    stepForward (pyOps S' B R method) maxsteps maxpath fuel ray s =
      stepForward (pyOps S B R method) maxsteps maxpath fuel ray s := by
  refine (extended_embeds h).equal hS (fun v => by rw [← h.node]; exact hv _) hB hd (fun count ray' s' hr hd' => ?_) fuel
  exact hitLike_of_sorted h.order.injective hS hS' hd' (extended_sorted h hS' hv hB hd' (hu count ray' s' hr))

/-! ### C107 -/

theorem otherWorld_embeds {S' : LScene n} (h : OtherWorld S S') : Embeds id S S' where
  inj := Function.injective_id
  zero := rfl
  node := h.node
  world := h.world

/-- The last crossing does not matter when it is the only one of its node. -/
theorem nextHit_last {ν : Type} [DecidableEq ν] {root : ν} {l : List (Inter ν ℝ)} {x x' : Inter ν ℝ} {eps : ℝ} {db : Vec3 ℝ → ℝ}
    (hx : x.hit = root) (hx' : x'.hit = root) (hl : ∀ y ∈ l, y.hit ≠ root) (he : 0 < eps)
    (hd : ∀ y ∈ l, eps < y.dist ∧ y.dist < x.dist ∧ y.dist < x'.dist) (h0 : eps < x.dist) (h0' : eps < x'.dist)
    (hs : l.Pairwise fun a b => a.dist ≤ b.dist) :
    HitLike False root id (nextHit eps db (l ++ [x])) (nextHit eps db (l ++ [x'])) := by
  have hfil : ∀ z : Inter ν ℝ, eps < z.dist → (∀ y ∈ l, y.dist < z.dist) →
      (l ++ [z]).filter (fun x => ¬ |x.dist| < eps) = l ++ [z] := by
    intro z hz _
    refine List.filter_eq_self.2 fun y hy => ?_
    have : eps < y.dist := by
      rcases List.mem_append.1 hy with hy | hy
      · exact (hd y hy).1
      · rw [List.mem_singleton.1 hy]; exact hz
    simp only [decide_eq_true_eq, not_lt]
    exact this.le.trans (le_abs_self _)
  have hfc : ∀ z : Inter ν ℝ, z.hit = root → (∀ y ∈ l, y.dist < z.dist) → l ≠ [] →
      findContainer (l ++ [z]) = .ok (((l.filter fun y => (l.map (·.hit)).count y.hit = 1).map (·.hit)).headD root) := by
    intro z hz hlt hne
    have hcount : ∀ y ∈ l, ((l ++ [z]).map (·.hit)).count y.hit = (l.map (·.hit)).count y.hit := by
      intro y hy
      have : z.hit ≠ y.hit := by rw [hz]; exact (hl y hy).symm
      simp [List.map_append, List.count_append, this]
    have hroot : ((l ++ [z]).map (·.hit)).count z.hit = 1 := by
      rw [List.map_append, List.count_append, List.count_eq_zero_of_not_mem]
      · simp
      · intro hm
        obtain ⟨y, hy, hyz⟩ := List.mem_map.1 hm
        exact hl y hy (by rw [hyz, hz])
    have hf : (l ++ [z]).filter (fun y => ((l ++ [z]).map (·.hit)).count y.hit = 1) =
        (l.filter fun y => (l.map (·.hit)).count y.hit = 1) ++ [z] := by
      rw [List.filter_append]
      congr 1
      · exact List.filter_congr fun y hy => by rw [hcount y hy]
      · simp only [List.filter_cons, hroot, decide_true, if_true, List.filter_nil]
    have hsort : sortedBy (·.dist) ((l.filter fun y => (l.map (·.hit)).count y.hit = 1) ++ [z]) =
        (l.filter fun y => (l.map (·.hit)).count y.hit = 1) ++ [z] := by
      refine List.Pairwise.insertionSort_eq ?_
      refine List.pairwise_append.2 ⟨hs.filter _, List.pairwise_singleton _ _, ?_⟩
      intro a ha b hb
      rw [List.mem_singleton.1 hb]
      exact (hlt a (List.mem_filter.1 ha).1).le
    unfold findContainer
    obtain ⟨a, l', rfl⟩ := List.exists_cons_of_ne_nil hne
    obtain ⟨b, l'', hb⟩ : ∃ b l'', l' ++ [z] = b :: l'' := by
      cases l' with
      | nil => exact ⟨z, [], rfl⟩
      | cons b l' => exact ⟨b, l' ++ [z], rfl⟩
    have e : (a :: l') ++ [z] = a :: b :: l'' := by rw [List.cons_append, hb]
    rw [e] at hf ⊢
    dsimp only at hf ⊢
    rw [hf, hsort]
    cases hk : ((a :: l').filter fun y => ((a :: l').map (·.hit)).count y.hit = 1) with
    | nil => simp only [List.nil_append, List.map_nil, List.headD_nil, hz]
    | cons c k => rfl
  unfold nextHit
  rw [hfil x h0 (fun y hy => (hd y hy).2.1), hfil x' h0' (fun y hy => (hd y hy).2.2)]
  cases l with
  | nil =>
    refine ⟨by simp [hx, hx'], by simp [hx, hx'], rfl, ?_⟩
    rintro (h | h)
    · exact h.elim
    · exact absurd hx h
  | cons a l =>
    have e := hfc x hx (fun y hy => (hd y hy).2.1) (by simp)
    have e' := hfc x' hx' (fun y hy => (hd y hy).2.2) (by simp)
    cases l with
    | nil =>
      dsimp only [List.cons_append, List.nil_append] at e e' ⊢
      rw [e, e']
      exact ⟨rfl, rfl, by simp [hx, hx'], fun _ => rfl⟩
    | cons b l =>
      dsimp only [List.cons_append] at e e' ⊢
      rw [e, e']
      exact ⟨rfl, rfl, rfl, fun _ => rfl⟩

/-- What is seen of the world in general position. -/
theorem world_last (hS : Sound S) (hv : ∀ v, Visible (S.node v).geom) (hA : Arranged S) {B : Trimesh} (hB : TrimeshSound B)
    {ray : Ray ℝ} (hd : ray.direction.dot ray.direction = 1) (hg : General S B ray) :
    ∃ b, epsZero < b ∧ keep epsZero ((S.node 0).pyTs B ray.position ray.direction) = [b] ∧
      ∀ v, v ≠ 0 → ∀ t ∈ keep epsZero ((S.node v).pyTs B ray.position ray.direction), t < b := by
  have V := Inside.valid hS hA hd hg
  have Rp := Inside.reports hS hv hA hB hd hg
  obtain ⟨a, b, hab, h1, h2, h3⟩ := V.root_span
  refine ⟨b, h2, ?_, fun v hv' t ht => ?_⟩
  · have := Rp 0 (List.mem_finRange _)
    rw [crossings_of_inside hab h1 h2] at this
    exact List.perm_singleton.1 this
  · have := (Rp v (List.mem_finRange _)).mem_iff.1 ht
    obtain ⟨c, d, hcd, htt, -⟩ := mem_crossings.1 this
    have hr := h3 v c d (List.mem_finRange _) hv' hcd
    have hn := V.nonempty v c d (List.mem_finRange _) hcd
    rcases htt with rfl | rfl
    · exact hn.trans hr.2
    · exact hr.2

theorem ahead_world {B : Trimesh} {o d : Vec3 ℝ} {b : ℝ}
    (hb : keep epsZero ((S.node 0).pyTs B o d) = [b])
    (hlt : ∀ v, v ≠ 0 → ∀ t ∈ keep epsZero ((S.node v).pyTs B o d), t < b) :
    sortedBy (·.t) (ahead S B o d) =
      sortedBy (·.t) (kHits ((List.finRange n).map Fin.succ) fun v => keep epsZero ((S.node v).pyTs B o d)) ++ [⟨0, b⟩] := by
  unfold ahead
  rw [List.finRange_succ]
  have : kHits (0 :: (List.finRange n).map Fin.succ) (fun v => keep epsZero ((S.node v).pyTs B o d)) =
      ⟨0, b⟩ :: kHits ((List.finRange n).map Fin.succ) (fun v => keep epsZero ((S.node v).pyTs B o d)) := by
    unfold kHits
    rw [List.flatMap_cons]
    dsimp only
    rw [hb]
    rfl
  rw [this]
  refine sortedBy_last fun y hy => ?_
  unfold kHits at hy
  obtain ⟨v, hv, hy⟩ := List.mem_flatMap.1 hy
  obtain ⟨t, ht, rfl⟩ := List.mem_map.1 hy
  obtain ⟨w, -, rfl⟩ := List.mem_map.1 hv
  exact hlt _ (Fin.succ_ne_zero w) t ht

theorem otherWorld_hit {S' : LScene n} (h : OtherWorld S S') (hS : Sound S) (hS' : Sound S')
    (hv : ∀ v, Visible (S.node v).geom) (hv' : ∀ v, Visible (S'.node v).geom) (hA : Arranged S) (hA' : Arranged S') {B : Trimesh}
    (hB : TrimeshSound B) {ray : Ray ℝ} (hd : ray.direction.dot ray.direction = 1) (g : General S B ray)
    (g' : General S' B ray) : Alike.HitLike False 0 id
      (nextHit epsZero (distanceBetween ray.position) (S.intersections B ray.position ray.direction))
      (nextHit epsZero (distanceBetween ray.position) (S'.intersections B ray.position ray.direction)) := by
  obtain ⟨b, hb0, hb, hlt⟩ := world_last hS hv hA hB hd g
  obtain ⟨b', hb0', hb', hlt'⟩ := world_last hS' hv' hA' hB hd g'
  rw [inters_eq hS B hd, inters_eq hS' B hd, ahead_world hb hlt, ahead_world hb' hlt']
  have e : kHits ((List.finRange n).map Fin.succ) (fun v => keep epsZero ((S'.node v).pyTs B ray.position ray.direction)) =
      kHits ((List.finRange n).map Fin.succ) (fun v => keep epsZero ((S.node v).pyTs B ray.position ray.direction)) := by
    unfold kHits
    rw [List.flatMap_map, List.flatMap_map]
    congr 1
    funext v
    dsimp only
    rw [h.node _ (Fin.succ_ne_zero v)]
  rw [e, List.map_append, List.map_append]
  have hmem : ∀ y ∈ sortedBy (·.t) (kHits ((List.finRange n).map Fin.succ)
      fun v => keep epsZero ((S.node v).pyTs B ray.position ray.direction)),
      y.node ≠ 0 ∧ epsZero < y.t ∧ y.t < b ∧ y.t < b' := by
    intro y hy
    have hy := (mem_sortedBy _).1 hy
    unfold kHits at hy
    obtain ⟨v, hv, hy⟩ := List.mem_flatMap.1 hy
    obtain ⟨t, ht, rfl⟩ := List.mem_map.1 hy
    obtain ⟨w, -, rfl⟩ := List.mem_map.1 hv
    refine ⟨Fin.succ_ne_zero w, ?_, hlt _ (Fin.succ_ne_zero w) t ht, hlt' _ (Fin.succ_ne_zero w) t ?_⟩
    · simpa using (List.mem_filter.1 ht).2
    · rw [h.node _ (Fin.succ_ne_zero w)]; exact ht
  refine nextHit_last rfl rfl ?_ epsZero_pos ?_ hb0 hb0' ?_
  · intro y hy
    obtain ⟨z, hz, rfl⟩ := List.mem_map.1 hy
    exact (hmem z hz).1
  · intro y hy
    obtain ⟨z, hz, rfl⟩ := List.mem_map.1 hy
    exact (hmem z hz).2
  · exact List.pairwise_map.2 (pairwise_sortedBy _ _)

/-- **C107** The size and shape of the world matter only for where rays leave it. For scenes of nested and separate
objects and rays in general position, with the same random numbers the history in another world has the same
steps, one for one, except that the last one, on leaving the world, may be at another place and time. -/
theorem world_irrelevant_partial {S' : LScene n} (h : OtherWorld S S') (hS : Sound S) (hS' : Sound S')
    (hv : ∀ v, Visible (S.node v).geom) (hv' : ∀ v, Visible (S'.node v).geom) (hA : Arranged S) (hA' : Arranged S') {B : Trimesh}
    (hB : TrimeshSound B) {R : Rand σ} {method : EmitMethod} {maxsteps : ℕ} {maxpath : Option ℝ} {ray : Ray ℝ}
    {s : σ} (hd : ray.direction.dot ray.direction = 1)
    (hg : ∀ count ray' s', Reached S B R method maxsteps maxpath ray s count ray' s' →
      General S B ray' ∧ General S' B ray') (fuel : ℕ) :
    List.Forall₂ (fun a a' => a' = a ∨ a.event = .exit ∧ a'.event = .exit ∧ a'.info = a.info ∧
        a'.ray.direction = a.ray.direction ∧ a'.ray.wavelength = a.ray.wavelength ∧ a'.ray.source = a.ray.source)
        (stepForward (pyOps S B R method) maxsteps maxpath fuel ray s).1
        (stepForward (pyOps S' B R method) maxsteps maxpath fuel ray s).1 ∧
      (stepForward (pyOps S' B R method) maxsteps maxpath fuel ray s).2 =
        (stepForward (pyOps S B R method) maxsteps maxpath fuel ray s).2 := by
  have key := (otherWorld_embeds h).history hS hv hB hd (R := R) (method := method) (maxsteps := maxsteps)
    (maxpath := maxpath) (s := s) False ?_ fuel
  · refine ⟨key.1.imp fun a a' ha => ?_, key.2⟩
    rcases ha with ha | ⟨-, h1, h2, h3, h4, h5, h6⟩
    · exact .inl (by rw [ha, moved_one])
    · rw [moved_one] at h3
      rw [Node.one_vec] at h4
      exact .inr ⟨h1, h2, h3, h4, h5, h6⟩
  · intro count ray' s' hr hd'
    exact otherWorld_hit h hS hS' hv hv' hA hA' hB hd' (hg count ray' s' hr).1 (hg count ray' s' hr).2

end
end PV.Variants
