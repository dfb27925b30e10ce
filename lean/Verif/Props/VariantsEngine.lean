import Verif.Props.VariantsDemo
import Verif.Props.InsideDemo

/-!
**C105**, **C106**, **C107**: the compiled engine, and scenes and rays that meet the hypotheses.
-/

namespace PV.Variants
open PV PV.Spec PV.Library PV.Inside PV.Alike
noncomputable section
variable {σ : Type} {n m : ℕ}

/-- What is reached in the other scene is reached in this one. -/
theorem visited_back {e : Fin (n + 1) → Fin (m + 1)} {S : LScene n} {S' : LScene m} (E : Embeds e S S') {strict : Prop}
    {B : Trimesh} {R : Rand σ} {method : EmitMethod} {maxsteps : ℕ} {ray : Ray ℝ} {s : σ}
    (hx : ∀ count ray' s', Visited S B R method maxsteps ray s count ray' s' →
      HitLike strict 0 e
        (nextHit epsZero (distanceBetween ray'.position) (S.intersections B ray'.position ray'.direction))
        (nextHit epsZero (distanceBetween ray'.position) (S'.intersections B ray'.position ray'.direction)))
    {count : ℕ} {ray' : Ray ℝ} {s' : σ} (h : Visited S' B R method maxsteps ray s count ray' s') :
    Visited S B R method maxsteps ray s count ray' s' := by
  induction h with
  | start => exact .start
  | @next count r t r' t' _ hb ih =>
    have key := (body_alike (E.sim B R method) strict maxsteps none (count + 1) r t rfl
      (by rw [Node.one_point, Node.one_vec]; rfl) (by rw [Node.one_point]; exact hx count r t ih)).2
    rw [rep_one] at key
    rw [key] at hb
    cases hc : (body (pyOps S B R method) maxsteps none (count + 1) r t).2 with
    | cont a b =>
      rw [hc] at hb
      simp only [nextMoved, rep_one, Next.cont.injEq] at hb
      obtain ⟨rfl, rfl⟩ := hb
      exact ih.next hc
    | stop => rw [hc] at hb; cases hb
    | raise x => rw [hc] at hb; cases hb

theorem visited_reached {S : LScene n} {B : Trimesh} {R : Rand σ} {method : EmitMethod} {maxsteps : ℕ}
    {ray : Ray ℝ} {s : σ} {count : ℕ} {ray' : Ray ℝ} {s' : σ}
    (h : Visited S B R method maxsteps ray s count ray' s') :
    Reached S B R method maxsteps none ray s count ray' s' := by
  induction h with
  | start => exact .start
  | next _ hb ih => exact ih.next hb

theorem reordered_supported {e : Fin (n + 1) ≃ Fin (n + 1)} {S S' : LScene n} (h : Reordered e S S') (hS : Supported S) :
    Supported S' := by
  have key : ∀ v, S'.node v = S.node (e.symm v) := fun v => by rw [← h.node, e.apply_symm_apply]
  refine ⟨⟨reordered_sound h hS.toSound, ?_, ?_, ?_, ?_, ?_⟩, ?_⟩
  · intro v; rw [key]; exact hS.proper _
  · intro v w; rw [key, key]; exact hS.ratio _ _
  · intro v; rw [key]; exact hS.absorbs _
  · intro v; rw [key]; exact hS.emits _
  · intro v; rw [key]; exact hS.phase _
  · intro v; rw [key]; exact hS.upright _

theorem reordered_state {e : Fin (n + 1) ≃ Fin (n + 1)} {S S' : LScene n} (h : Reordered e S S') {B : Trimesh} {R : Rand σ}
    {ray : Ray ℝ} {s : σ} (hp : ∀ x', nextHit epsZero (distanceBetween ray.position)
        (S'.intersections B ray.position ray.direction) = .ok (some x') →
      ∃ x, nextHit epsZero (distanceBetween ray.position) (S.intersections B ray.position ray.direction) = .ok (some x) ∧
        x'.hit = e x.hit ∧ x'.point = x.point)
    (hr : RegularState S B R ray s) : RegularState S' B R ray s := by
  have key : ∀ v, S'.node v = S.node (e.symm v) := fun v => by rw [← h.node, e.apply_symm_apply]
  have k0 : S'.node 0 = S.node 0 := by rw [← h.node 0, h.world]
  refine ⟨⟨?_, ?_, ?_, ?_⟩, ?_, ?_⟩
  · intro v; rw [key]; exact hr.clear _
  · intro v; rw [key]; exact hr.line _
  · rw [k0]; exact hr.inside
  · rw [k0]; exact hr.off
  · intro v; rw [key]; exact hr.pick _
  · intro x' hx' hne
    obtain ⟨x, h1, h2, h3⟩ := hp x' hx'
    have := hr.surface x h1 (fun h0 => hne (by rw [h2, h0, h.world]))
    rw [h2, h.node, h3]
    exact this

theorem reordered_inters {e : Fin (n + 1) ≃ Fin (n + 1)} {S S' : LScene n} (h : Reordered e S S') (hS : Sound S)
    {B : Trimesh} {ray : Ray ℝ} (hd : ray.direction.dot ray.direction = 1) (hu : Untied S B ray) :
    S'.intersections B ray.position ray.direction =
      (S.intersections B ray.position ray.direction).map (interMap e id) := by
  rw [inters_eq hS B hd, inters_eq (reordered_sound h hS) B hd, reordered_sorted h hu, List.map_map, List.map_map]
  rfl

theorem nextHit_point {ν ν' : Type} [DecidableEq ν] [DecidableEq ν'] {e : ν → ν'} (he : Function.Injective e) {db : Vec3 ℝ → ℝ}
    {l : List (Inter ν ℝ)} {x' : HitInfo ν' ℝ} (h : nextHit epsZero db (l.map (interMap e id)) = .ok (some x')) :
    ∃ x, nextHit epsZero db l = .ok (some x) ∧ x'.hit = e x.hit ∧ x'.point = x.point := by
  unfold nextHit at h ⊢
  have hf : (l.map (interMap e id)).filter (fun x => ¬ |x.dist| < epsZero) =
      (l.filter (fun x => ¬ |x.dist| < epsZero)).map (interMap e id) := by
    rw [List.filter_map]; rfl
  rw [hf] at h
  generalize l.filter (fun x => ¬ |x.dist| < epsZero) = k at h ⊢
  match k with
  | [] => cases h
  | [x] => cases h; exact ⟨_, rfl, rfl, rfl⟩
  | x :: y :: k =>
    simp only [List.map_cons] at h
    have := findContainer_map he id (x :: y :: k)
    simp only [List.map_cons] at this
    rw [this] at h
    cases hc : findContainer (x :: y :: k) with
    | error e => rw [hc] at h; cases h
    | ok c =>
      rw [hc] at h
      cases h
      simp only
      exact ⟨_, by rw [hc], rfl, rfl⟩

/-- **C105** for the compiled engine: the rows recorded for a ray, read with the names of the objects, do not depend
on the order of the objects. -/
theorem order_irrelevant_engine_partial {e : Fin (n + 1) ≃ Fin (n + 1)} {S S' : LScene n} (h : Reordered e S S')
    (hS : Supported S) (hv : ∀ v, Visible (S.node v).geom)
    {B : Trimesh} (hB : TrimeshSound B) {R : Rand σ} (hR : ∀ s, 0 < (R.next s).1 ∧ (R.next s).1 < 1)
    {method : EmitMethod} {maxsteps : ℕ} {ray : Ray ℝ} (hf : Fresh ray) {s : σ}
    (hr : Regular S B R method maxsteps ray s)
    (hu : ∀ count ray' s', Reached S B R method maxsteps none ray s count ray' s' → Untied S B ray') :
    (Budget.fullHistory (kOps S' R method) maxsteps (launchOf ray s)).map (Spec.eventOf (names S') ray.source) =
      (Budget.fullHistory (kOps S R method) maxsteps (launchOf ray s)).map (Spec.eventOf (names S) ray.source) := by
  have key := order_irrelevant_partial h hS.toSound hv hB hf.unit hu
  have hi : ∀ count ray' s', Visited S B R method maxsteps ray s count ray' s' →
      S'.intersections B ray'.position ray'.direction =
        (S.intersections B ray'.position ray'.direction).map (interMap e id) := fun count ray' s' h' =>
    reordered_inters h hS.toSound (reached_unit hS.toSound hv hB hf.unit (visited_reached h')) (hu _ _ _ (visited_reached h'))
  have hr' : Regular S' B R method maxsteps ray s := by
    refine ⟨fun count ray' s' h' => ?_, fun x => by rw [key]; exact hr.finishes x⟩
    have hb := visited_back (reordered_embeds h) (strict := True) (fun count ray' s' h' => by
      rw [hi _ _ _ h']
      exact nextHit_map e.injective id True 0 epsZero fun x _ => rfl) h'
    refine reordered_state h (fun x' hx' => ?_) (hr.states _ _ _ hb)
    rw [hi _ _ _ hb] at hx'
    exact nextHit_point e.injective hx'
  have hv' : ∀ v, Visible (S'.node v).geom := fun v => by
    rw [← e.apply_symm_apply v, h.node]; exact hv _
  rw [run_agrees hS hv hB hR method maxsteps ray hf s hr,
    run_agrees (reordered_supported h hS) hv' hB hR method maxsteps ray hf s hr']
  unfold run
  rw [key]

/-- **C106** for the compiled engine. -/
theorem bystander_irrelevant_engine_partial {e : Fin (n + 1) → Fin (m + 1)} {S : LScene n} {S' : LScene m}
    (h : Extended e S S') (hS : Supported S) (hS' : Supported S') (hv : ∀ v, Visible (S'.node v).geom)
    {B : Trimesh} (hB : TrimeshSound B) {R : Rand σ} (hR : ∀ s, 0 < (R.next s).1 ∧ (R.next s).1 < 1)
    {method : EmitMethod} {maxsteps : ℕ} {ray : Ray ℝ} (hf : Fresh ray) {s : σ}
    (hr : Regular S B R method maxsteps ray s)
    (hr' : ∀ count ray' s', Visited S B R method maxsteps ray s count ray' s' → RegularState S' B R ray' s')
    (hu : ∀ count ray' s', Reached S B R method maxsteps none ray s count ray' s' →
      ∀ w, w ∉ Set.range e → Misses (S'.node w) ray') :
    (Budget.fullHistory (kOps S' R method) maxsteps (launchOf ray s)).map (Spec.eventOf (names S') ray.source) =
      (Budget.fullHistory (kOps S R method) maxsteps (launchOf ray s)).map (Spec.eventOf (names S) ray.source) := by
  have hv0 : ∀ v, Visible (S.node v).geom := fun v => by rw [← h.node]; exact hv _
  have key := bystander_irrelevant_partial h hS.toSound hS'.toSound hv hB hf.unit hu
  have hr2 : Regular S' B R method maxsteps ray s :=
    ⟨fun count ray' s' h' => hr' count ray' s' (visited_back (extended_embeds h) (strict := True) (fun count ray' s' h' =>
      hitLike_of_sorted h.order.injective hS.toSound hS'.toSound (reached_unit hS.toSound hv0 hB hf.unit (visited_reached h'))
        (extended_sorted h hS'.toSound hv hB (reached_unit hS.toSound hv0 hB hf.unit (visited_reached h'))
          (hu _ _ _ (visited_reached h')))) h'),
      fun x => by rw [key]; exact hr.finishes x⟩
  rw [run_agrees hS hv0 hB hR method maxsteps ray hf s hr, run_agrees hS' hv hB hR method maxsteps ray hf s hr2]
  unfold run
  rw [key]

/-- **C107** for the compiled engine. -/
theorem world_irrelevant_engine_partial {S S' : LScene n} (h : OtherWorld S S') (hS : Supported S) (hS' : Supported S')
    (hv : ∀ v, Visible (S.node v).geom) (hv' : ∀ v, Visible (S'.node v).geom) (hA : Arranged S) (hA' : Arranged S')
    {B : Trimesh} (hB : TrimeshSound B) {R : Rand σ} (hR : ∀ s, 0 < (R.next s).1 ∧ (R.next s).1 < 1)
    {method : EmitMethod} {maxsteps : ℕ} {ray : Ray ℝ} (hf : Fresh ray) {s : σ}
    (hr : Regular S B R method maxsteps ray s)
    (hr' : ∀ count ray' s', Visited S B R method maxsteps ray s count ray' s' → RegularState S' B R ray' s')
    (hg : ∀ count ray' s', Reached S B R method maxsteps none ray s count ray' s' →
      General S B ray' ∧ General S' B ray') :
    List.Forall₂ (fun a a' => a' = a ∨ a.event = .exit ∧ a'.event = .exit ∧ a'.info = a.info ∧
        a'.ray.direction = a.ray.direction ∧ a'.ray.wavelength = a.ray.wavelength ∧ a'.ray.source = a.ray.source)
      ((Budget.fullHistory (kOps S R method) maxsteps (launchOf ray s)).map (Spec.eventOf (names S) ray.source))
      ((Budget.fullHistory (kOps S' R method) maxsteps (launchOf ray s)).map (Spec.eventOf (names S') ray.source)) := by
  have key := world_irrelevant_partial h hS.toSound hS'.toSound hv hv' hA hA' hB hf.unit hg (maxsteps + 1)
  have hr2 : Regular S' B R method maxsteps ray s :=
    ⟨fun count ray' s' h' => hr' count ray' s' (visited_back (otherWorld_embeds h) (strict := False) (fun count ray' s' h' =>
      otherWorld_hit h hS.toSound hS'.toSound hv hv' hA hA' hB (reached_unit hS.toSound hv hB hf.unit (visited_reached h'))
        (hg _ _ _ (visited_reached h')).1 (hg _ _ _ (visited_reached h')).2) h'),
      fun x => by rw [key.2]; exact hr.finishes x⟩
  rw [run_agrees hS hv hB hR method maxsteps ray hf s hr, run_agrees hS' hv' hB hR method maxsteps ray hf s hr2]
  exact key.1

/-! ### Order -/

/-- The balls of `crowded` in the other order. -/
def crowded' : LScene 2 := beads ![("world", 0, 10, 1, .fresnel), ("far", 5, 1, 1.5, .fresnel), ("glass", 0, 1, 1.5, .fresnel)]

theorem bead_on {name : String} {c r index : ℝ} {k : SurfaceKind} {p : Vec3 ℝ}
    (h : OnSurface (bead name c r index k).geom ((bead name c r index k).w2l.point p)) :
    r ^ 2 - 2.5e-9 ≤ (p.x - c) ^ 2 + p.y ^ 2 + p.z ^ 2 ∧ (p.x - c) ^ 2 + p.y ^ 2 + p.z ^ 2 ≤ r ^ 2 := by
  have e : (bead name c r index k).w2l.point p = ⟨p.x - c, p.y, p.z⟩ := by
    show (slide (-c)).point p = _
    rw [slide_point]; rfl
  rw [e] at h
  rcases h with h | ⟨r', hr, h⟩
  · have h1 : (p.x - c) ^ 2 + p.y ^ 2 + p.z ^ 2 ≤ r ^ 2 := h.1
    have h2 : r ^ 2 ≤ (p.x - c) ^ 2 + p.y ^ 2 + p.z ^ 2 := not_lt.1 h.2
    exact ⟨by norm_num; linarith, h1⟩
  · cases hr
    exact h

theorem crowded_separate : Separate crowded := by
  intro u v p hu hv
  by_contra huv
  have key : ∀ w : Fin 3, OnSurface (crowded.node w).geom ((crowded.node w).w2l.point p) →
      (w = 0 → 99 ≤ p.x ^ 2 + p.y ^ 2 + p.z ^ 2) ∧ (w = 1 → p.x ^ 2 + p.y ^ 2 + p.z ^ 2 ≤ 1) ∧
      (w = 2 → (p.x - 5) ^ 2 + p.y ^ 2 + p.z ^ 2 ≤ 1) := by
    intro w h
    match w with
    | 0 =>
      have h := (bead_on h).1
      refine ⟨fun _ => by norm_num at h; linarith, fun h => absurd h (by decide), fun h => absurd h (by decide)⟩
    | 1 =>
      have h := (bead_on h).2
      refine ⟨fun h => absurd h (by decide), fun _ => by norm_num at h; linarith, fun h => absurd h (by decide)⟩
    | 2 =>
      have h := (bead_on h).2
      refine ⟨fun h => absurd h (by decide), fun h => absurd h (by decide), fun _ => ?_⟩
      have h : (p.x - 5) ^ 2 + p.y ^ 2 + p.z ^ 2 ≤ 1 ^ 2 := h
      linarith
  have h1 := key u hu
  have h2 := key v hv
  have sy := sq_nonneg p.y
  have sz := sq_nonneg p.z
  match u, v with
  | 0, 0 => exact huv rfl
  | 1, 1 => exact huv rfl
  | 2, 2 => exact huv rfl
  | 0, 1 => have a := h1.1 rfl; have b := h2.2.1 rfl; linarith
  | 1, 0 => have a := h2.1 rfl; have b := h1.2.1 rfl; linarith
  | 0, 2 => have a := h1.1 rfl; have b := h2.2.2 rfl; nlinarith
  | 2, 0 => have a := h2.1 rfl; have b := h1.2.2 rfl; nlinarith
  | 1, 2 => have a := h1.2.1 rfl; have b := h2.2.2 rfl; nlinarith
  | 2, 1 => have a := h2.2.1 rfl; have b := h1.2.2 rfl; nlinarith

theorem noBoxes_sound : TrimeshSound noBoxes := by
  intro s o d _ t ht
  simp [noBoxes] at ht

theorem crowded_reordered : Reordered (Equiv.swap 1 2) crowded crowded' where
  world := by decide
  node v := by
    match v with
    | 0 => rfl
    | 1 => rfl
    | 2 => rfl

/-- The order of the two glass balls does not matter, for any ray. -/
example (R : Rand σ) (method : EmitMethod) (maxsteps fuel : ℕ) (ray : Ray ℝ) (s : σ)
    (hd : ray.direction.dot ray.direction = 1) :
    stepForward (pyOps crowded' noBoxes R method) maxsteps none fuel ray s =
      stepForward (pyOps crowded noBoxes R method) maxsteps none fuel ray s :=
  order_irrelevant crowded_reordered crowded_sound crowded_visible noBoxes_sound crowded_separate R method maxsteps none s hd fuel

/-! ### A ball behind the lamp -/

/-- The black ball, and a glass ball behind the lamp. -/
def ballBehind : LScene 2 where
  node v := if v = 0 then ballScene.node 0 else if v = 1 then ballScene.node 1 else bead "behind" (-8) 1 1.5 .fresnel

theorem behind_extended : Extended Fin.castSucc ballScene ballBehind where
  world := rfl
  order := Fin.strictMono_castSucc
  node v := by
    match v with
    | 0 => rfl
    | 1 => rfl

theorem behind_missed {x : ℝ} (hx : -6 < x) {ray : Ray ℝ} (hp : ray.position = ⟨x, 0, 0⟩) (hd : ray.direction = ⟨1, 0, 0⟩)
    (w : Fin 3) (hw : w ∉ Set.range Fin.castSucc) : Misses (ballBehind.node w) ray := by
  have h2 : w = 2 := by
    match w with
    | 0 => exact absurd ⟨0, rfl⟩ hw
    | 1 => exact absurd ⟨1, rfl⟩ hw
    | 2 => rfl
  subst h2
  intro t ht h
  have h := (bead_on h).2
  rw [hp, hd] at h
  have ht : 0 < t := epsZero_pos.trans ht
  norm_num at h
  have := abs_le.1 h
  linarith

theorem behind_sound : Sound ballBehind where
  index_pos v := by
    match v with
    | 0 => exact ball_supported.index_pos 0
    | 1 => exact ball_supported.index_pos 1
    | 2 => show (0 : ℝ) < 1.5; norm_num
  rigid v := by
    match v with
    | 0 => exact ball_supported.rigid 0
    | 1 => exact ball_supported.rigid 1
    | 2 => exact slide_rigid _
  inverse v := by
    match v with
    | 0 => exact ball_supported.inverse 0
    | 1 => exact ball_supported.inverse 1
    | 2 => exact slide_inverse _
  comps v := by
    match v with
    | 0 => exact ball_supported.comps 0
    | 1 => exact ball_supported.comps 1
    | 2 => intro c hc; exact absurd hc (by simp [ballBehind, bead])

theorem behind_visible (v : Fin 3) : Visible (ballBehind.node v).geom := by
  match v with
  | 0 => show (1e-8 : ℝ) < 10 ^ 2; norm_num
  | 1 => show (1e-8 : ℝ) < 1 ^ 2; norm_num
  | 2 => show (1e-8 : ℝ) < 1 ^ 2; norm_num

/-- The ball behind the lamp does not change the history of the ray that enters the black ball and is absorbed. -/
example : stepForward (pyOps ballBehind noBoxes halves .kT) 10 none 11 lampRay () =
      stepForward (pyOps ballScene noBoxes halves .kT) 10 none 11 lampRay () ∧
    (stepForward (pyOps ballScene noBoxes halves .kT) 10 none 11 lampRay ()).1.map (·.event) =
      [.generate, .transmit, .absorb, .nonradiative] := by
  refine ⟨bystander_irrelevant_partial behind_extended ball_supported.toSound behind_sound behind_visible noBoxes_sound
    (by norm_num [lampRay, Vec3.dot]) ?_ 11, by rw [ball_run]; rfl⟩
  intro count ray' s' h
  rcases ball_visited (reached_visited h) with ⟨_, rfl⟩ | ⟨_, rfl⟩
  · exact behind_missed (x := -5) (by norm_num) rfl rfl
  · exact behind_missed (x := -1) (by norm_num) rfl rfl

theorem behind_supported : Supported ballBehind where
  toSound := behind_sound
  proper v := by
    match v with
    | 0 => exact ball_supported.proper 0
    | 1 => exact ball_supported.proper 1
    | 2 => show (0 : ℝ) < 1; norm_num
  ratio v w := by
    have key : ∀ v, 1 ≤ (ballBehind.node v).index ∧ (ballBehind.node v).index ≤ 2 := by
      intro v
      match v with
      | 0 => show (1 : ℝ) ≤ 1 ∧ (1 : ℝ) ≤ 2; norm_num
      | 1 => show (1 : ℝ) ≤ 1 ∧ (1 : ℝ) ≤ 2; norm_num
      | 2 => show (1 : ℝ) ≤ 1.5 ∧ (1.5 : ℝ) ≤ 2; norm_num
    have h1 := (key v).2
    have h2 := (key w).1
    linarith
  absorbs v := by
    match v with
    | 0 => exact ball_supported.absorbs 0
    | 1 => exact ball_supported.absorbs 1
    | 2 => intro c hc; exact absurd hc (by simp [ballBehind, bead])
  emits v := by
    match v with
    | 0 => exact ball_supported.emits 0
    | 1 => exact ball_supported.emits 1
    | 2 => intro c hc; exact absurd hc (by simp [ballBehind, bead])
  phase v := by
    match v with
    | 0 => exact ball_supported.phase 0
    | 1 => exact ball_supported.phase 1
    | 2 => intro c hc; exact absurd hc (by simp [ballBehind, bead])
  upright v := by
    match v with
    | 0 => exact ball_supported.upright 0
    | 1 => exact ball_supported.upright 1
    | 2 => rintro ⟨c, hc, -⟩; exact absurd hc (by simp [ballBehind, bead])

theorem behind_state {x : ℝ} (h1 : -6 < x) {ray : Ray ℝ} (hp : ray.position = ⟨x, 0, 0⟩)
    (hd : ray.direction = ⟨1, 0, 0⟩) (hr : RegularState ballScene noBoxes halves ray ()) :
    RegularState ballBehind noBoxes halves ray () := by
  have hi : ballBehind.intersections noBoxes ray.position ray.direction =
      (ballScene.intersections noBoxes ray.position ray.direction).map (interMap Fin.castSucc id) := by
    have hu : ray.direction.dot ray.direction = 1 := by rw [hd]; exact one_x
    rw [inters_eq ball_supported.toSound noBoxes hu, inters_eq behind_sound noBoxes hu,
      extended_sorted behind_extended behind_sound behind_visible noBoxes_sound hu (behind_missed h1 hp hd),
      List.map_map, List.map_map]
    rfl
  refine ⟨⟨?_, ?_, ?_, ?_⟩, ?_, ?_⟩
  · intro v
    match v with
    | 0 => exact hr.clear 0
    | 1 => exact hr.clear 1
    | 2 => exact trivial
  · intro v
    match v with
    | 0 => exact hr.line 0
    | 1 => exact hr.line 1
    | 2 =>
      show RegularLine noBoxes (.sphere 1) ((slide (- -8)).point ray.position) ((slide (- -8)).vec ray.direction)
      rw [slide_point, slide_vec, hp, hd]
      right
      norm_num [Geometry.disc, Vec3.dot]
      ring_nf
      norm_num
  · exact hr.inside
  · exact hr.off
  · intro v
    match v with
    | 0 => exact hr.pick 0
    | 1 => exact hr.pick 1
    | 2 =>
      intro cs hcs hsum
      have : cs = [] := by
        simp [ballBehind, bead, coefficients] at hcs
        cases hcs
        rfl
      subst this
      simp at hsum
  · intro x' hx' hne
    rw [hi] at hx'
    obtain ⟨y, h1, h2, h3⟩ := nextHit_point (Fin.castSucc_injective _) hx'
    have := hr.surface y h1 (fun h0 => hne (by rw [h2, h0]; rfl))
    rw [h2, behind_extended.node, h3]
    exact this

/-- The engine, too, records the same with and without the ball behind the lamp. -/
example : (Budget.fullHistory (kOps ballBehind halves .kT) 10 (launchOf lampRay ())).map
      (Spec.eventOf (names ballBehind) lampRay.source) =
    (Budget.fullHistory (kOps ballScene halves .kT) 10 (launchOf lampRay ())).map
      (Spec.eventOf (names ballScene) lampRay.source) := by
  obtain ⟨a, b, c, d, e, f, g⟩ := ball_regular
  refine bystander_irrelevant_engine_partial behind_extended a behind_supported behind_visible c d e f ?_ ?_
  · intro count ray' s' h
    rcases ball_visited h with ⟨_, rfl⟩ | ⟨_, rfl⟩
    · exact behind_state (x := -5) (by norm_num) rfl rfl lamp_state
    · exact behind_state (x := -1) (by norm_num) rfl rfl inner_state
  · intro count ray' s' h
    rcases ball_visited (reached_visited h) with ⟨_, rfl⟩ | ⟨_, rfl⟩
    · exact behind_missed (x := -5) (by norm_num) rfl rfl
    · exact behind_missed (x := -1) (by norm_num) rfl rfl

/-- The same scene with its two balls in the other order. -/
def ballBehind' : LScene 2 := ⟨fun v => ballBehind.node (Equiv.swap 1 2 v)⟩

/-- The engine records the same whichever of the two balls comes first. -/
example : (Budget.fullHistory (kOps ballBehind' halves .kT) 10 (launchOf lampRay ())).map
      (Spec.eventOf (names ballBehind') lampRay.source) =
    (Budget.fullHistory (kOps ballBehind halves .kT) 10 (launchOf lampRay ())).map
      (Spec.eventOf (names ballBehind) lampRay.source) := by
  obtain ⟨a, b, c, d, e, f, g⟩ := ball_regular
  have hst : ∀ count ray' s', Visited ballBehind noBoxes halves .kT 10 lampRay () count ray' s' →
      Visited ballScene noBoxes halves .kT 10 lampRay () count ray' s' := fun count ray' s' h =>
    visited_back (extended_embeds behind_extended) (strict := True) (fun count ray' s' h => by
      rcases ball_visited h with ⟨_, rfl⟩ | ⟨_, rfl⟩
      · exact hitLike_of_sorted (Fin.castSucc_injective _) a.toSound behind_sound e.unit
          (extended_sorted behind_extended behind_sound behind_visible c e.unit (behind_missed (x := -5) (by norm_num) rfl rfl))
      · exact hitLike_of_sorted (Fin.castSucc_injective _) a.toSound behind_sound one_x
          (extended_sorted behind_extended behind_sound behind_visible c one_x (behind_missed (x := -1) (by norm_num) rfl rfl))) h
  have key := bystander_irrelevant_partial behind_extended a.toSound behind_sound behind_visible c (R := halves) (method := .kT)
    (maxsteps := 10) (maxpath := none) (s := ()) e.unit (fun count ray' s' h => by
      rcases ball_visited (reached_visited h) with ⟨_, rfl⟩ | ⟨_, rfl⟩
      · exact behind_missed (x := -5) (by norm_num) rfl rfl
      · exact behind_missed (x := -1) (by norm_num) rfl rfl)
  refine order_irrelevant_engine_partial (e := Equiv.swap 1 2) ⟨by decide, fun v => by simp [ballBehind']⟩ behind_supported
    behind_visible c d e ⟨fun count ray' s' h => ?_, fun x => by rw [key]; exact f.finishes x⟩ ?_
  · rcases ball_visited (hst _ _ _ h) with ⟨_, rfl⟩ | ⟨_, rfl⟩
    · exact behind_state (x := -5) (by norm_num) rfl rfl lamp_state
    · exact behind_state (x := -1) (by norm_num) rfl rfl inner_state
  · intro count ray' s' h
    refine separate_untied behind_sound behind_visible c ?_ (reached_unit behind_sound behind_visible c e.unit h)
    intro u v p hu hv
    by_contra huv
    have key : ∀ w : Fin 3, OnSurface (ballBehind.node w).geom ((ballBehind.node w).w2l.point p) →
        (w = 0 → 99 ≤ p.x ^ 2 + p.y ^ 2 + p.z ^ 2) ∧ (w = 1 → p.x ^ 2 + p.y ^ 2 + p.z ^ 2 ≤ 1) ∧
        (w = 2 → (p.x + 8) ^ 2 + p.y ^ 2 + p.z ^ 2 ≤ 1) := by
      intro w h
      have round : ∀ r : ℝ, OnSurface (.sphere r) p →
          r ^ 2 - 2.5e-9 ≤ p.x ^ 2 + p.y ^ 2 + p.z ^ 2 ∧ p.x ^ 2 + p.y ^ 2 + p.z ^ 2 ≤ r ^ 2 := by
        intro r h
        rcases h with h | ⟨r', hr, h⟩
        · have h1 : p.x ^ 2 + p.y ^ 2 + p.z ^ 2 ≤ r ^ 2 := h.1
          have h2 : r ^ 2 ≤ p.x ^ 2 + p.y ^ 2 + p.z ^ 2 := not_lt.1 h.2
          exact ⟨by norm_num; linarith, h1⟩
        · cases hr
          exact h
      match w with
      | 0 =>
        have h : OnSurface (ballScene.node 0).geom ((ballScene.node 0).w2l.point p) := h
        rw [(ball_w2l 0 p).1] at h
        have h := (round 10 h).1
        exact ⟨fun _ => by norm_num at h; linarith, fun h => absurd h (by decide), fun h => absurd h (by decide)⟩
      | 1 =>
        have h : OnSurface (ballScene.node 1).geom ((ballScene.node 1).w2l.point p) := h
        rw [(ball_w2l 1 p).1] at h
        have h := (round 1 h).2
        exact ⟨fun h => absurd h (by decide), fun _ => by norm_num at h; linarith, fun h => absurd h (by decide)⟩
      | 2 =>
        have h := (bead_on h).2
        exact ⟨fun h => absurd h (by decide), fun h => absurd h (by decide), fun _ => by norm_num at h; linarith⟩
    have h1 := key u hu
    have h2 := key v hv
    have sy := sq_nonneg p.y
    have sz := sq_nonneg p.z
    match u, v with
    | 0, 0 => exact huv rfl
    | 1, 1 => exact huv rfl
    | 2, 2 => exact huv rfl
    | 0, 1 => have a := h1.1 rfl; have b := h2.2.1 rfl; linarith
    | 1, 0 => have a := h2.1 rfl; have b := h1.2.1 rfl; linarith
    | 0, 2 => have a := h1.1 rfl; have b := h2.2.2 rfl; nlinarith
    | 2, 0 => have a := h2.1 rfl; have b := h1.2.2 rfl; nlinarith
    | 1, 2 => have a := h1.2.1 rfl; have b := h2.2.2 rfl; nlinarith
    | 2, 1 => have a := h2.2.1 rfl; have b := h1.2.2 rfl; nlinarith

/-! ### A wider world -/

/-- The black ball in a world of radius 20. -/
def ballWide : LScene 1 where
  node v := if v = 0 then { ballScene.node 0 with geom := .sphere 20 } else ballScene.node 1

theorem wide_other : OtherWorld ballScene ballWide where
  node v hv := by
    match v with
    | 0 => exact absurd rfl hv
    | 1 => rfl
  world := ⟨.sphere 20, rfl⟩

theorem wide_sound : Sound ballWide where
  index_pos v := by
    match v with
    | 0 => exact ball_supported.index_pos 0
    | 1 => exact ball_supported.index_pos 1
  rigid v := by
    match v with
    | 0 => exact ball_supported.rigid 0
    | 1 => exact ball_supported.rigid 1
  inverse v := by
    match v with
    | 0 => exact ball_supported.inverse 0
    | 1 => exact ball_supported.inverse 1
  comps v := by
    match v with
    | 0 => exact ball_supported.comps 0
    | 1 => exact ball_supported.comps 1

theorem wide_visible (v : Fin 2) : Visible (ballWide.node v).geom := by
  match v with
  | 0 => show (1e-8 : ℝ) < 20 ^ 2; norm_num
  | 1 => show (1e-8 : ℝ) < 1 ^ 2; norm_num

theorem wide_w2l (v : Fin 2) (p : Vec3 ℝ) : (ballWide.node v).w2l.point p = p ∧ (ballWide.node v).w2l.vec p = p := by
  match v with
  | 0 => exact ⟨(ball_w2l 0 p).1, (ball_w2l 0 p).2.1⟩
  | 1 => exact ⟨(ball_w2l 1 p).1, (ball_w2l 1 p).2.1⟩

theorem wide_has (v : Fin 2) (p : Vec3 ℝ) : (Has (ballWide.node v) p ↔
    p.x ^ 2 + p.y ^ 2 + p.z ^ 2 ≤ if v = 0 then 400 else 1) ∧ (HasInner (ballWide.node v) p ↔
    p.x ^ 2 + p.y ^ 2 + p.z ^ 2 < if v = 0 then 400 else 1) := by
  unfold Has HasInner
  rw [(wide_w2l v p).1]
  match v with
  | 0 => simp only [ballWide, if_true, Solid.Closed, Solid.Inner]; norm_num
  | 1 =>
    have h := ball_has 1 p
    unfold Has HasInner at h
    rw [(ball_w2l 1 p).1] at h
    exact h

theorem wide_arranged : Arranged ballWide where
  proper v := by
    match v with
    | 0 => show (0 : ℝ) < 20; norm_num
    | 1 => exact ball_supported.proper 1
  apart u v huv := by
    by_cases hu : u = 0
    · have hv : v ≠ 0 := fun h => huv (hu.trans h.symm)
      right; left
      intro p hp
      rw [(wide_has v p).1, if_neg hv] at hp
      rw [(wide_has u p).2, if_pos hu]
      linarith
    · by_cases hv : v = 0
      · left
        intro p hp
        rw [(wide_has u p).1, if_neg hu] at hp
        rw [(wide_has v p).2, if_pos hv]
        linarith
      · omega
  world v hv := by
    intro p hp
    rw [(wide_has v p).1, if_neg hv] at hp
    rw [(wide_has 0 p).2, if_pos rfl]
    linarith

theorem wide_general {x : ℝ} (h1 : -6 < x) (h2 : x < 6) {ray : Ray ℝ} (hp : ray.position = ⟨x, 0, 0⟩)
    (hd : ray.direction = ⟨1, 0, 0⟩) : General ballWide noBoxes ray where
  clear v := by
    match v with
    | 0 => exact trivial
    | 1 => exact (ball_ray h1 h2 hp hd).clear 1
  line v := by
    match v with
    | 0 =>
      show RegularLine noBoxes (.sphere 20) ((ballWide.node 0).w2l.point ray.position) ((ballWide.node 0).w2l.vec ray.direction)
      rw [(wide_w2l 0 _).1, (wide_w2l 0 _).2, hp, hd]
      right
      norm_num [Geometry.disc, Vec3.dot]
      nlinarith
    | 1 => exact (ball_ray h1 h2 hp hd).line 1
  through v := by
    left
    refine ⟨-x, ?_⟩
    rw [(wide_has v _).2, hp, hd]
    split_ifs <;> norm_num
  room := by
    rw [(wide_has 0 _).2, hp, hd]
    norm_num [epsZero]
    nlinarith

/-- In the wider world the ray that enters the ball has the same history; no step of it is an exit. -/
example : stepForward (pyOps ballWide noBoxes halves .kT) 10 none 11 lampRay () =
      stepForward (pyOps ballScene noBoxes halves .kT) 10 none 11 lampRay () := by
  have h := world_irrelevant_partial wide_other ball_supported.toSound wide_sound ball_regular.2.1 wide_visible
    ball_arranged wide_arranged noBoxes_sound (R := halves) (method := .kT) (maxsteps := 10) (maxpath := none)
    (ray := lampRay) (s := ()) (by norm_num [lampRay, Vec3.dot]) (fun count ray' s' h => by
      rcases ball_visited (reached_visited h) with ⟨_, rfl⟩ | ⟨_, rfl⟩
      · exact ⟨ball_general (x := -5) (by norm_num) (by norm_num) rfl rfl,
          wide_general (x := -5) (by norm_num) (by norm_num) rfl rfl⟩
      · exact ⟨ball_general (x := -1) (by norm_num) (by norm_num) rfl rfl,
          wide_general (x := -1) (by norm_num) (by norm_num) rfl rfl⟩) 11
  refine Prod.ext ?_ h.2
  have h1 := h.1
  rw [ball_run] at h1 ⊢
  simp only [List.forall₂_cons_left_iff, List.forall₂_nil_left_iff] at h1
  obtain ⟨a, _, ha, ⟨b, _, hb, ⟨c, _, hc, ⟨d, _, hd, rfl, rfl⟩, rfl⟩, rfl⟩, e⟩ := h1
  rw [e]
  rcases ha with rfl | ⟨h, -⟩
  · rcases hb with rfl | ⟨h, -⟩
    · rcases hc with rfl | ⟨h, -⟩
      · rcases hd with rfl | ⟨h, -⟩
        · rfl
        · cases h
      · cases h
    · cases h
  · cases h

theorem wide_supported : Supported ballWide where
  toSound := wide_sound
  proper := wide_arranged.proper
  ratio v w := by
    have key : ∀ v, (ballWide.node v).index = 1 := by
      intro v
      match v with
      | 0 => rfl
      | 1 => rfl
    rw [key, key]; norm_num
  absorbs v := by
    match v with
    | 0 => exact ball_supported.absorbs 0
    | 1 => exact ball_supported.absorbs 1
  emits v := by
    match v with
    | 0 => exact ball_supported.emits 0
    | 1 => exact ball_supported.emits 1
  phase v := by
    match v with
    | 0 => exact ball_supported.phase 0
    | 1 => exact ball_supported.phase 1
  upright v := by
    match v with
    | 0 => exact ball_supported.upright 0
    | 1 => exact ball_supported.upright 1

theorem wide_hits (x : ℝ) (v : Fin 2) :
    kIntersect (ballWide.node v).geom ((ballWide.node v).w2l.point ⟨x, 0, 0⟩) ((ballWide.node v).w2l.vec ⟨1, 0, 0⟩) =
    if v = 0 then [-x - 20, -x + 20].filter (fun t => t > epsZero)
    else [-x - 1, -x + 1].filter (fun t => t > epsZero) := by
  rw [(wide_w2l v _).1, (wide_w2l v _).2]
  match v with
  | 0 => exact sphere_hits (by norm_num) rfl
  | 1 => exact sphere_hits (by norm_num) rfl

theorem wide_state {x t : ℝ} (h1 : -6 < x) (h2 : x < 6) {ray : Ray ℝ} (hp : ray.position = ⟨x, 0, 0⟩)
    (hd : ray.direction = ⟨1, 0, 0⟩) {c : Fin 2} {a : Option (Fin 2)}
    (hh : (kOps ballWide halves .kT).nextHit ⟨x, 0, 0⟩ ⟨1, 0, 0⟩ = some (1, c, a, t))
    (ht : (x + t) ^ 2 = 1) (hr : RegularState ballScene noBoxes halves ray ()) :
    RegularState ballWide noBoxes halves ray () := by
  have g := wide_general h1 h2 hp hd
  have hrr : RegularRay ballWide noBoxes ray := by
    refine ⟨g.clear, g.line, ?_, ?_⟩
    · have := (wide_has 0 ray.position).2
      unfold HasInner at this
      refine this.2 ?_
      rw [hp, if_pos rfl]
      norm_num
      nlinarith
    · intro t t0 t1 hs
      refine hs.2 ?_
      have h3 : t ≤ 1 := le_trans t1 (by norm_num [epsZero])
      show Solid.Inner (.sphere 20) ((ballWide.node 0).w2l.point ray.position + t • (ballWide.node 0).w2l.vec ray.direction)
      rw [(wide_w2l 0 _).1, (wide_w2l 0 _).2, hp, hd]
      norm_num [Solid.Inner]
      nlinarith
  refine ⟨hrr, ?_, ?_⟩
  · intro v
    match v with
    | 0 => exact hr.pick 0
    | 1 => exact hr.pick 1
  · intro h hn h0
    have hag := hit_agrees wide_supported.toAccepted (R := halves) (by rw [hd]; norm_num [Vec3.dot]) hrr .kT
    rw [hag, hp, hd, hh] at hn
    simp only [Option.map_some, NextHit.toInfo, Except.ok.injEq, Option.some.injEq] at hn
    subst hn
    rw [(wide_w2l _ _).1]
    constructor
    · have : (ballWide.node 1).geom = .sphere 1 := rfl
      simpa [this, Geometry.Smooth] using ht
    · intro h
      exact absurd h (by show ¬ SurfaceKind.null = .fresnel; simp)

theorem wide_first : (kOps ballWide halves .kT).nextHit ⟨-5, 0, 0⟩ ⟨1, 0, 0⟩ = some (1, 0, some 1, 4) := by
  have h : (fun v => kIntersect (ballWide.node v).geom ((ballWide.node v).w2l.point ⟨-5, 0, 0⟩)
      ((ballWide.node v).w2l.vec ⟨1, 0, 0⟩)) = fun v : Fin 2 => if v = 0 then [25] else [4, 6] := by
    funext v
    rw [wide_hits]
    by_cases h : v = 0 <;> norm_num [h, epsZero, List.filter_cons]
  show kNextHit (List.finRange 2) _ = _
  rw [h]
  have hf : List.finRange 2 = [0, 1] := rfl
  rw [hf]
  norm_num [kNextHit, kHits, kFirst, kContainer, kMinT, List.zipIdx]

theorem wide_second : (kOps ballWide halves .kT).nextHit ⟨-1, 0, 0⟩ ⟨1, 0, 0⟩ = some (1, 1, some 0, 2) := by
  have h : (fun v => kIntersect (ballWide.node v).geom ((ballWide.node v).w2l.point ⟨-1, 0, 0⟩)
      ((ballWide.node v).w2l.vec ⟨1, 0, 0⟩)) = fun v : Fin 2 => if v = 0 then [21] else [2] := by
    funext v
    rw [wide_hits]
    by_cases h : v = 0 <;> norm_num [h, epsZero, List.filter_cons]
  show kNextHit (List.finRange 2) _ = _
  rw [h]
  have hf : List.finRange 2 = [0, 1] := rfl
  rw [hf]
  norm_num [kNextHit, kHits, kFirst, kSecond, kContainer, kMinT, List.zipIdx]

/-- The hypotheses for the engine are met. -/
example : Supported ballScene ∧ Supported ballWide ∧ Fresh lampRay ∧ Regular ballScene noBoxes halves .kT 10 lampRay () ∧
    ∀ count ray' s', Visited ballScene noBoxes halves .kT 10 lampRay () count ray' s' →
      RegularState ballWide noBoxes halves ray' s' := by
  obtain ⟨a, b, c, d, e, f, g⟩ := ball_regular
  refine ⟨a, wide_supported, e, f, fun count ray' s' h => ?_⟩
  rcases ball_visited h with ⟨_, rfl⟩ | ⟨_, rfl⟩
  · exact wide_state (x := -5) (by norm_num) (by norm_num) rfl rfl wide_first (by norm_num) lamp_state
  · exact wide_state (x := -1) (by norm_num) (by norm_num) rfl rfl wide_second (by norm_num) inner_state

end
end PV.Variants
