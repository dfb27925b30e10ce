import Verif.Lemmas.HitChoice
import Verif.Lemmas.KernelHom
import Verif.Lemmas.CompileReads
import Verif.Props.Scaled

/-!
**C105**, **C106** for the engine itself, without reference to the Python tracer.
-/

namespace PV.Variants
open PV PV.Library PV.NextHit PV.Compile PV.Alike
noncomputable section
variable {σ : Type} {n m : ℕ}

/-! ### Passes of the loop -/

theorem mapC_id {α κ : Type} (r : KRay α κ) : r.mapC id = r := by
  obtain ⟨p, d, w, t, u, s⟩ := r
  simp [KRay.mapC]

theorem rowMap_id {α ν κ : Type} (r : Row α ν κ) : r.map id id = r := by
  obtain ⟨k, h, c, a, q, x, z⟩ := r
  simp [Row.map, mapC_id]

theorem outMap_id {α ν κ : Type} (o : KOut α ν κ) : o.map id id = o := by
  cases o with
  | record r => simp only [KOut.map, rowMap_id]
  | tally c => rfl

theorem nextMap_id {α κ : Type} (x : KNext α κ σ) : x.map id = x := by
  cases x <;> simp [KNext.map, mapC_id]

/-- Only the choice of the next surface at the current state matters to a pass. -/
theorem kBody_hit {ν : Type} [DecidableEq ν] (K : KOps ℝ ν Comp σ) (f : Vec3 ℝ → Vec3 ℝ → Option (ν × ν × Option ν × ℝ))
    (maxsteps count : ℕ) (r : KRay ℝ Comp) (s : σ) (h : K.nextHit r.position r.direction = f r.position r.direction) :
    kBody K maxsteps count r s = kBody { K with nextHit := f } maxsteps count r s := by
  unfold kBody
  rw [h]
  rfl

/-- The engine on a scene in which every object is found under another number. -/
theorem names_of {e : Fin (n + 1) → Fin (m + 1)} {S : LScene n} {S' : LScene m} (he : Function.Injective e)
    (h0 : e 0 = 0) (hn : ∀ v, S'.node (e v) = S.node v) (R : Rand σ) (method : EmitMethod) :
    KOps.Names { kOps S' R method with
        nextHit := fun o d => ((kOps S R method).nextHit o d).map fun x => (e x.1, e x.2.1, x.2.2.1.map e, x.2.2.2) } (kOps S R method) e id (fun _ => True) where
  inj := he
  root := h0.symm
  nextHit _ _ := rfl
  nidx v := congrArg LNode.index (hn v)
  depth v w s := by simp only [kOps, hn]
  pick v w s₀ d s _ := by simp only [kOps, hn]; exact ⟨trivial, rfl⟩
  kind _ _ := rfl
  yields _ _ _ := rfl
  phase _ _ _ := rfl
  emission _ _ _ _ _ := rfl
  radDelay _ _ _ := rfl
  nrDelay _ _ _ := rfl
  localPos v p := by simp only [kOps, hn]
  normal v p := by simp only [kOps, hn]
  acos _ := rfl
  reflects h c a z d s := by simp only [kOps, LScene.kReflects, hn]
  reflectDir _ _ := rfl
  transmitDir h c a z d := by simp only [kOps, hn]

/-- Everything the engine does for a ray, up to the numbers of the nodes. -/
theorem trace_alike {e : Fin (n + 1) → Fin (m + 1)} {S : LScene n} {S' : LScene m} (he : Function.Injective e)
    (h0 : e 0 = 0) (hn : ∀ v, S'.node (e v) = S.node v) (R : Rand σ) (method : EmitMethod) (maxsteps : ℕ)
    (ray : KRay ℝ Comp) (s : σ)
    (hx : ∀ count r t, KReached (kOps S R method) maxsteps ray s count r t →
      (kOps S' R method).nextHit r.position r.direction = ((kOps S R method).nextHit r.position r.direction).map
        fun x => (e x.1, e x.2.1, x.2.2.1.map e, x.2.2.2)) :
    rayTrace (kOps S' R method) maxsteps ⟨ray, s⟩ = (rayTrace (kOps S R method) maxsteps ⟨ray, s⟩).map (KOut.map e id) := by
  have key : ∀ (fuel count : ℕ) (r : KRay ℝ Comp) (t : σ), KReached (kOps S R method) maxsteps ray s count r t →
      kTrace (kOps S' R method) maxsteps fuel count r t =
        (kTrace (kOps S R method) maxsteps fuel count r t).map (KOut.map e id) := by
    intro fuel
    induction fuel with
    | zero => intros; rfl
    | succ fuel ih =>
      intro count r t h
      have hb := kBody_names (names_of he h0 hn R method) maxsteps (count + 1) r t
      rw [← kBody_hit (kOps S' R method) _ maxsteps (count + 1) r t (hx _ _ _ h), mapC_id] at hb
      obtain ⟨h1, h2⟩ := hb
      rw [nextMap_id] at h2
      have h1' : (kBody (kOps S' R method) maxsteps (count + 1) r t).1 =
          (kBody (kOps S R method) maxsteps (count + 1) r t).1.map (KOut.map e id) := by
        rw [← h1, show (KOut.map id id : KOut ℝ (Fin (m + 1)) Comp → _) = id from funext outMap_id, List.map_id]
      simp only [kTrace]
      rw [h2]
      cases hb : (kBody (kOps S R method) maxsteps (count + 1) r t).2 with
      | stop => exact h1'
      | cont r' t' =>
        simp only [List.map_append, h1']
        rw [ih (count + 1) r' t' (h.next hb)]
  exact key _ _ _ _ .start

theorem rows_map {ν ν' : Type} (e : ν → ν') (os : List (KOut ℝ ν Comp)) :
    rowsOf (os.map (KOut.map e id)) = (rowsOf os).map (Row.map e id) := by
  induction os with
  | nil => rfl
  | cons o os ih => cases o <;> simp [KOut.map, ih]

theorem calls_map {ν ν' : Type} (e : ν → ν') (os : List (KOut ℝ ν Comp)) :
    callsOf (os.map (KOut.map e id)) = (callsOf os).map (TallyCall.map e) := by
  induction os with
  | nil => rfl
  | cons o os ih => cases o <;> simp [KOut.map, ih]

theorem history_alike {e : Fin (n + 1) → Fin (m + 1)} {S : LScene n} {S' : LScene m} (he : Function.Injective e)
    (h0 : e 0 = 0) (hn : ∀ v, S'.node (e v) = S.node v) (R : Rand σ) (method : EmitMethod) (maxsteps : ℕ)
    (ray : KRay ℝ Comp) (s : σ)
    (hx : ∀ count r t, KReached (kOps S R method) maxsteps ray s count r t →
      (kOps S' R method).nextHit r.position r.direction = ((kOps S R method).nextHit r.position r.direction).map
        fun x => (e x.1, e x.2.1, x.2.2.1.map e, x.2.2.2)) :
    Budget.fullHistory (kOps S' R method) maxsteps ⟨ray, s⟩ =
        (Budget.fullHistory (kOps S R method) maxsteps ⟨ray, s⟩).map (Row.map e id) ∧
      callsOf (rayTrace (kOps S' R method) maxsteps ⟨ray, s⟩) =
        (callsOf (rayTrace (kOps S R method) maxsteps ⟨ray, s⟩)).map (TallyCall.map e) := by
  rw [Budget.fullHistory_eq, Budget.fullHistory_eq, trace_alike he h0 hn R method maxsteps ray s hx, calls_map, rows_map]
  refine ⟨?_, rfl⟩
  simp only [List.map_cons, generateRow, Row.map, Option.map_none, mapC_id]

/-! ### C105 -/

theorem finRange_perm (e : Fin (n + 1) ≃ Fin (n + 1)) : (List.finRange (n + 1)).Perm ((List.finRange (n + 1)).map e) := by
  refine (List.perm_ext_iff_of_nodup (List.nodup_finRange _) ((List.nodup_finRange _).map e.injective)).2 fun w => ?_
  simp only [List.mem_finRange, List.mem_map, true_and, true_iff]
  exact e.surjective w

/-- **C105**, engine. With the objects added in another order the engine writes the same history and makes the same
calls of the recorders, if it never meets two objects at the same distance. Nodes are numbered in the order in which
they were added, so numbers change by the permutation `e` and nothing else. -/
theorem order_irrelevant_kernel_partial {e : Fin (n + 1) ≃ Fin (n + 1)} {S S' : LScene n} (h : Reordered e S S')
    (R : Rand σ) (method : EmitMethod) (maxsteps : ℕ) (ray : KRay ℝ Comp) (s : σ)
    (hu : ∀ count r t, KReached (kOps S R method) maxsteps ray s count r t → KUntied S r) :
    Budget.fullHistory (kOps S' R method) maxsteps ⟨ray, s⟩ =
        (Budget.fullHistory (kOps S R method) maxsteps ⟨ray, s⟩).map (Row.map e id) ∧
      callsOf (rayTrace (kOps S' R method) maxsteps ⟨ray, s⟩) =
        (callsOf (rayTrace (kOps S R method) maxsteps ⟨ray, s⟩)).map (TallyCall.map e) := by
  refine history_alike e.injective h.world h.node R method maxsteps ray s fun count r t hr => ?_
  show kNextHit _ (fun v => engineTs (S'.node v) r.position r.direction) =
    (kNextHit _ fun v => engineTs (S.node v) r.position r.direction).map _
  have hts : (fun v => engineTs (S.node v) r.position r.direction) =
      (fun v => engineTs (S'.node v) r.position r.direction) ∘ e := by
    funext v
    simp only [Function.comp, h.node]
  rw [hts, ← kNextHit_map e.injective]
  refine nextHit_perm (finRange_perm e) fun u _ v _ a ha hb => ?_
  have := hu count r t hr (e.symm u) (e.symm v) a
  rw [← h.node, ← h.node, e.apply_symm_apply, e.apply_symm_apply] at this
  exact e.symm.injective (this ha hb)

theorem apart_untied {S : LScene n} (hp : ∀ v, Solid.Proper (S.node v).geom) (ha : Apart S) {ray : KRay ℝ Comp}
    (hc : ∀ v, Geometry.ClearDir (S.node v).geom ((S.node v).w2l.vec ray.direction)) : KUntied S ray := by
  intro u v t h1 h2
  have h1 := Scaled.engine_sound (hp u) (hc u) h1
  have h2 := Scaled.engine_sound (hp v) (hc v) h2
  rw [← Affine.point_add_smul] at h1 h2
  exact ha u v _ h1 h2

/-- **C105**, engine, for objects whose surfaces have no common point. `ClearDir` leaves out the directions within the
tolerances of a face or of an axis, for which the engine's crossings are not exactly on the surface. -/
theorem order_irrelevant_kernel {e : Fin (n + 1) ≃ Fin (n + 1)} {S S' : LScene n} (h : Reordered e S S')
    (hp : ∀ v, Solid.Proper (S.node v).geom) (ha : Apart S)
    (R : Rand σ) (method : EmitMethod) (maxsteps : ℕ) (ray : KRay ℝ Comp) (s : σ)
    (hc : ∀ count r t, KReached (kOps S R method) maxsteps ray s count r t →
      ∀ v, Geometry.ClearDir (S.node v).geom ((S.node v).w2l.vec r.direction)) :
    Budget.fullHistory (kOps S' R method) maxsteps ⟨ray, s⟩ =
        (Budget.fullHistory (kOps S R method) maxsteps ⟨ray, s⟩).map (Row.map e id) ∧
      callsOf (rayTrace (kOps S' R method) maxsteps ⟨ray, s⟩) =
        (callsOf (rayTrace (kOps S R method) maxsteps ⟨ray, s⟩)).map (TallyCall.map e) :=
  order_irrelevant_kernel_partial h R method maxsteps ray s fun count r t hr => apart_untied hp ha (hc count r t hr)

/-! ### C106 -/

/-- What the added objects must not do, as used by the choice of the next surface. -/
theorem nextHit_extended {e : Fin (n + 1) → Fin (m + 1)} (he : StrictMono e) (ts : Fin (n + 1) → List ℝ)
    (ts' : Fin (m + 1) → List ℝ) (hts : ∀ v, ts' (e v) = ts v)
    (ho : ∀ w, w ∉ Set.range e → OutOfWay ts (ts' w)) :
    kNextHit (List.finRange (m + 1)) ts' =
      (kNextHit (List.finRange (n + 1)) ts).map fun x => (e x.1, e x.2.1, x.2.2.1.map e, x.2.2.2) := by
  classical
  have h1 : (List.finRange (m + 1)).filter (fun w => decide (w ∈ Set.range e)) = (List.finRange (n + 1)).map e := by
    refine List.Perm.eq_of_pairwise (le := (· < ·)) (fun a b _ _ h1 h2 => absurd h2 h1.asymm) ?_ ?_ ?_
    · exact (List.pairwise_lt_finRange _).filter _
    · exact List.pairwise_map.2 ((List.pairwise_lt_finRange _).imp fun hab => he hab)
    · refine (List.perm_ext_iff_of_nodup ((List.nodup_finRange _).filter _)
        ((List.nodup_finRange _).map he.injective)).2 fun w => ?_
      simp [List.mem_filter]
  have hmem : ∀ v t, t ∈ ts v → (⟨e v, t⟩ : KHit (Fin (m + 1)) ℝ) ∈
      kHits ((List.finRange (m + 1)).filter fun w => decide (w ∈ Set.range e)) ts' := by
    intro v t ht
    rw [mem_kHits]
    exact ⟨by simp, by rw [hts]; exact ht⟩
  have hts' : ts = ts' ∘ e := funext fun v => (hts v).symm
  rw [nextHit_drop (fun w => decide (w ∈ Set.range e)), h1, kNextHit_map he.injective, ← hts']
  · intro w _ hw
    exact (ho w (by simpa using hw)).1
  · intro w _ hw
    rcases (ho w (by simpa using hw)).2 with hb | ⟨⟨v, hv⟩, h, t, ht, hl, hf, hx⟩
    · left
      intro x hx
      obtain ⟨u, v, a, b, ha, hb, hne, h1, h2⟩ := hb x hx
      refine ⟨⟨e u, a⟩, hmem u a ha, ⟨e v, b⟩, hmem v b hb, ?_, h1, h2⟩
      simp only [ne_eq, KHit.mk.injEq, he.injective.eq_iff]
      exact hne
    · right
      intro x hxw
      refine ⟨⟨e v, by simp, by rw [hts]; exact hv⟩, ⟨e h, t⟩, hmem h t ht, by rw [hts]; exact hl, ?_, hx x hxw⟩
      intro z hz hne
      rw [mem_kHits] at hz
      obtain ⟨hz1, hz2⟩ := hz
      simp only [List.mem_filter, List.mem_finRange, true_and, decide_eq_true_eq] at hz1
      obtain ⟨v', hv'⟩ := hz1
      rw [← hv', hts] at hz2
      exact hf v' (fun hc => hne (by rw [← hv', hc])) _ hz2

/-- **C106**, engine. If at each pass the added objects are out of the way (not met ahead, or met behind two other
surfaces, or behind the surface at which the ray enters an object), the engine writes the same history and makes the
same calls of the recorders as without them. -/
theorem bystander_irrelevant_kernel_partial {e : Fin (n + 1) → Fin (m + 1)} {S : LScene n} {S' : LScene m}
    (h : Extended e S S') (R : Rand σ) (method : EmitMethod) (maxsteps : ℕ) (ray : KRay ℝ Comp) (s : σ)
    (hu : ∀ count r t, KReached (kOps S R method) maxsteps ray s count r t → ∀ w, w ∉ Set.range e →
      OutOfWay (fun v => engineTs (S.node v) r.position r.direction) (engineTs (S'.node w) r.position r.direction)) :
    Budget.fullHistory (kOps S' R method) maxsteps ⟨ray, s⟩ =
        (Budget.fullHistory (kOps S R method) maxsteps ⟨ray, s⟩).map (Row.map e id) ∧
      callsOf (rayTrace (kOps S' R method) maxsteps ⟨ray, s⟩) =
        (callsOf (rayTrace (kOps S R method) maxsteps ⟨ray, s⟩)).map (TallyCall.map e) := by
  refine history_alike h.order.injective h.world h.node R method maxsteps ray s fun count r t hr => ?_
  exact nextHit_extended h.order _ (fun w => engineTs (S'.node w) r.position r.direction)
    (fun v => by rw [h.node]; rfl) (hu count r t hr)

/-! ### The Python tracer -/

/-- What Python chooses, in terms of the engine's choice from the same distances. -/
theorem python_choice {S : LScene n} (hS : Sound S) (B : Trimesh) {o d : Vec3 ℝ} (hd : d.dot d = 1) :
    nextHit epsZero (distanceBetween o) (S.intersections B o d) =
      if (∃ v, pythonTs B (S.node v) o d ≠ []) ∧ ∀ v, (pythonTs B (S.node v) o d).length ≠ 1 then .error .valueError
      else .ok ((kNextHit (List.finRange (n + 1)) fun v => pythonTs B (S.node v) o d).map (toInfo fun t => o + t • d)) := by
  rw [intersections_eq hS.rigid hS.inverse B hd]
  have hlen : (∀ v, (pythonTs B (S.node v) o d).length ≠ 1) →
      ((∃ v, pythonTs B (S.node v) o d ≠ []) ↔
        2 ≤ (kHits (List.finRange (n + 1)) fun v => pythonTs B (S.node v) o d).length) := by
    intro h1
    constructor
    · rintro ⟨v, hv⟩
      have hl : 2 ≤ (pythonTs B (S.node v) o d).length := by
        have := h1 v
        have := List.length_pos_iff.2 hv
        omega
      have hs : ((pythonTs B (S.node v) o d).map fun t => (⟨v, t⟩ : KHit (Fin (n + 1)) ℝ)).Sublist
          (kHits (List.finRange (n + 1)) fun v => pythonTs B (S.node v) o d) := by
        unfold kHits
        rw [List.flatMap_def]
        exact List.sublist_flatten_of_mem (List.mem_map.2 ⟨v, List.mem_finRange v, rfl⟩)
      have := hs.length_le
      rw [List.length_map] at this
      omega
    · intro h2
      obtain ⟨x, hx⟩ := List.exists_mem_of_length_pos (lt_of_lt_of_le two_pos h2)
      exact ⟨x.node, List.ne_nil_of_mem (mem_kHits.1 hx).2⟩
  split_ifs with hc
  · exact (kernel_fallback (List.nodup_finRange _) epsZero _ _ (fun v => pythonTs B (S.node v) o d) _
      (fun v _ => .refl _) ((hlen hc.2).1 hc.1) (fun v _ => hc.2 v)).1
  · refine kernel_eq_python (List.nodup_finRange _) epsZero _ _ (fun v => pythonTs B (S.node v) o d) _
      (fun v _ => .refl _) ?_ ?_
    · intro v _ t ht
      have : epsZero < t := by simpa using (List.mem_filter.1 ht).2
      exact distanceBetween_line hd (le_of_lt (lt_trans (by norm_num [epsZero]) this))
    · intro h2
      by_contra hn
      have hn : ∀ v, (pythonTs B (S.node v) o d).length ≠ 1 := fun v hv => hn ⟨v, by simp, hv⟩
      exact hc ⟨(hlen hn).2 h2, hn⟩

/-- **C106**, Python tracer, with the weaker condition of the engine: added objects may be ahead of the ray, as long
as they are out of the way. -/
theorem bystander_out_of_way_partial {e : Fin (n + 1) → Fin (m + 1)} {S : LScene n} {S' : LScene m} (h : Extended e S S')
    (hS : Sound S) (hS' : Sound S') (hv : ∀ v, Visible (S.node v).geom) {B : Trimesh} (hB : TrimeshSound B) {R : Rand σ}
    {method : EmitMethod} {maxsteps : ℕ} {maxpath : Option ℝ} {ray : Ray ℝ} {s : σ}
    (hd : ray.direction.dot ray.direction = 1)
    (hu : ∀ count r t, Reached S B R method maxsteps maxpath ray s count r t → ∀ w, w ∉ Set.range e →
      OutOfWay (fun v => pythonTs B (S.node v) r.position r.direction) (pythonTs B (S'.node w) r.position r.direction))
    (fuel : ℕ) :
    stepForward (pyOps S' B R method) maxsteps maxpath fuel ray s =
      stepForward (pyOps S B R method) maxsteps maxpath fuel ray s := by
  refine (extended_embeds h).equal hS hv hB hd (fun count r t hr hd' => ?_) fuel
  have ho := hu count r t hr
  have hts : ∀ v, pythonTs B (S'.node (e v)) r.position r.direction = pythonTs B (S.node v) r.position r.direction :=
    fun v => by rw [h.node]
  rw [python_choice hS B hd', python_choice hS' B hd', nextHit_extended h.order
    (fun v => pythonTs B (S.node v) r.position r.direction) _ hts ho]
  have hiff : ((∃ v, pythonTs B (S'.node v) r.position r.direction ≠ []) ∧
        ∀ v, (pythonTs B (S'.node v) r.position r.direction).length ≠ 1) ↔
      ((∃ v, pythonTs B (S.node v) r.position r.direction ≠ []) ∧
        ∀ v, (pythonTs B (S.node v) r.position r.direction).length ≠ 1) := by
    constructor
    · rintro ⟨⟨w, hw⟩, hl⟩
      refine ⟨?_, fun v => by rw [← hts]; exact hl _⟩
      by_cases hr : w ∈ Set.range e
      · obtain ⟨v, rfl⟩ := hr
        exact ⟨v, by rw [← hts]; exact hw⟩
      · obtain ⟨x, hx⟩ := List.exists_mem_of_ne_nil _ hw
        rcases (ho w hr).2 with hb | ⟨-, v, t, ht, -⟩
        · obtain ⟨u, -, a, -, ha, -⟩ := hb x hx
          exact ⟨u, List.ne_nil_of_mem ha⟩
        · exact ⟨v, List.ne_nil_of_mem ht⟩
    · rintro ⟨⟨v, hv⟩, hl⟩
      refine ⟨⟨e v, by rw [hts]; exact hv⟩, fun w => ?_⟩
      by_cases hr : w ∈ Set.range e
      · obtain ⟨v, rfl⟩ := hr
        rw [hts]; exact hl v
      · exact (ho w hr).1
  simp only [hiff]
  split_ifs
  · exact rfl
  · cases kNextHit (List.finRange (n + 1)) fun v => pythonTs B (S.node v) r.position r.direction with
    | none => exact trivial
    | some x => exact ⟨rfl, rfl, rfl, fun _ => rfl⟩

end
end PV.Variants
