import Verif.Props.Inside
import Verif.Spec.Variants
import Verif.Props.Scaled

/-!
What the engine takes for the next surface, the container and the neighbour, in scenes of nested and separate
solids, in terms of the solids.
-/

namespace PV.EngineHit
open PV PV.Library PV.Solid PV.NextHit PV.Geometry PV.Nested PV.Inside
noncomputable section
open Classical
variable {n : ℕ} {S : LScene n}

/-- The line is in general position. -/
structure Line (S : LScene n) (o d : Vec3 ℝ) : Prop where
  unit : d.dot d = 1
  clear : ∀ v, ClearDir (S.node v).geom ((S.node v).w2l.vec d)
  through : ∀ v, (∃ t : ℝ, HasInner (S.node v) (o + t • d)) ∨ ∀ t : ℝ, ¬ Has (S.node v) (o + t • d)
  room : HasInner (S.node 0) (o + epsZero • d)

variable (hS : Sound S) (hA : Arranged S) {o d : Vec3 ℝ} (hL : Line S o d)
include hS hA hL

theorem local_unit (v : Fin (n + 1)) : ((S.node v).localDir d).dot ((S.node v).localDir d) = 1 :=
  localDir_unit (hS.rigid v) (hS.inverse v) hL.unit

theorem span_none {v : Fin (n + 1)} (h : spanOf S o d v = none) : ∀ t : ℝ, ¬ Has (S.node v) (o + t • d) := by
  rcases hL.through v with ⟨t0, h0⟩ | h0
  · rw [(has_line _ _ _ _).2] at h0
    obtain ⟨a, b, hab, hsp, -⟩ := engine_span (hA.proper v) (hL.clear v) (local_unit hS hA hL v) h0
    unfold spanOf at h
    rw [dif_pos ⟨(a, b), hab, hsp⟩] at h
    cases h
  · exact h0

theorem valid : Valid (List.finRange (n + 1)) 0 (spanOf S o d) epsZero where
  nodup := List.nodup_finRange _
  nonempty := fun v a b _ h => (spanOf_some h).1
  apart := by
    intro u v a b c d' _ _ huv hu hv
    obtain ⟨hab, su⟩ := spanOf_some hu
    obtain ⟨hcd, sv⟩ := spanOf_some hv
    rcases hA.apart u v huv with h | h | h
    · right; right; right
      have h1 := (sv a).2.1 (h _ ((su a).1.2 ⟨le_rfl, hab.le⟩))
      have h2 := (sv b).2.1 (h _ ((su b).1.2 ⟨hab.le, le_rfl⟩))
      exact ⟨h1.1, h2.2⟩
    · right; right; left
      have h1 := (su c).2.1 (h _ ((sv c).1.2 ⟨le_rfl, hcd.le⟩))
      have h2 := (su d').2.1 (h _ ((sv d').1.2 ⟨hcd.le, le_rfl⟩))
      exact ⟨h1.1, h2.2⟩
    · by_contra hc
      push Not at hc
      have h1 : max a c < min b d' := by
        rw [max_lt_iff, lt_min_iff, lt_min_iff]
        exact ⟨⟨hab, hc.2.1⟩, hc.1, hcd⟩
      obtain ⟨t, t1, t2⟩ := exists_between h1
      rw [max_lt_iff] at t1
      rw [lt_min_iff] at t2
      exact h _ ⟨(su t).2.2 ⟨t1.1, t2.1⟩, (sv t).2.2 ⟨t1.2, t2.2⟩⟩
  root_mem := List.mem_finRange _
  root_span := by
    cases hs : spanOf S o d 0 with
    | none =>
      have := hL.room
      rw [(has_line _ _ _ _).2] at this
      obtain ⟨a, b, hab, hsp, -⟩ := engine_span (hA.proper 0) (hL.clear 0) (local_unit hS hA hL 0) this
      unfold spanOf at hs
      rw [dif_pos ⟨(a, b), hab, hsp⟩] at hs
      cases hs
    | some p =>
      obtain ⟨hab, s0⟩ := spanOf_some (a := p.1) (b := p.2) hs
      have h2 := (s0 epsZero).2.1 hL.room
      refine ⟨p.1, p.2, rfl, h2.1.le, h2.2, fun v c d' _ hv0 hvs => ?_⟩
      obtain ⟨hcd, sv⟩ := spanOf_some hvs
      have h3 := (s0 c).2.1 (hA.world v hv0 _ ((sv c).1.2 ⟨le_rfl, hcd.le⟩))
      have h4 := (s0 d').2.1 (hA.world v hv0 _ ((sv d').1.2 ⟨hcd.le, le_rfl⟩))
      exact ⟨h3.1, h4.2⟩

/-- The engine reports the ends of the spans ahead. -/
theorem engine_perm (v : Fin (n + 1)) : (engineTs (S.node v) o d).Perm (crossings epsZero (spanOf S o d) v) := by
  cases hs : spanOf S o d v with
  | none =>
    have hno := span_none hS hA hL hs
    have h1 : crossings epsZero (spanOf S o d) v = [] := by unfold crossings; rw [hs]
    have h2 : engineTs (S.node v) o d = [] := by
      rw [List.eq_nil_iff_forall_not_mem]
      intro t ht
      have := (Scaled.engine_sound (hA.proper v) (hL.clear v) ht).1
      exact hno t ((has_line _ _ _ _).1.2 this)
    rw [h1, h2]
  | some p =>
    obtain ⟨hab, sv⟩ := spanOf_some (a := p.1) (b := p.2) hs
    have hm : HasInner (S.node v) (o + ((p.1 + p.2) / 2) • d) := (sv _).2.2 ⟨by linarith, by linarith⟩
    rw [(has_line _ _ _ _).2] at hm
    obtain ⟨a, b, hab', hsp, hperm⟩ := engine_span (hA.proper v) (hL.clear v) (local_unit hS hA hL v) hm
    have hcr : crossings epsZero (spanOf S o d) v = ahead a b := by
      have e := span_unique hab hab' (fun t => ⟨(has_line (S.node v) o d t).1.symm.trans (sv t).1,
        (has_line (S.node v) o d t).2.symm.trans (sv t).2⟩) hsp
      unfold crossings ahead
      rw [hs]
      simp only [e.1, e.2]
    rw [hcr]
    exact hperm

/-- The choice of the engine in terms of the spans of the objects. -/
theorem core : ∃ h c a t, (kNextHit (List.finRange (n + 1)) fun v => engineTs (S.node v) o d) = some (h, c, a, t) ∧
    t ∈ crossings epsZero (spanOf S o d) h ∧
    (∀ v, ∀ s ∈ crossings epsZero (spanOf S o d) v, t ≤ s) ∧
    (∃ m, crossings epsZero (spanOf S o d) c = [m] ∧ ∀ v s, crossings epsZero (spanOf S o d) v = [s] → m ≤ s) ∧
    ((a = none ∧ c = h ∧ ∀ v, ∀ s ∈ crossings epsZero (spanOf S o d) v, v = h ∧ s = t) ∨ (c ≠ h ∧ a = some h) ∨
      (c = h ∧ ∃ b s, a = some b ∧ s ∈ crossings epsZero (spanOf S o d) b ∧ b ≠ h ∧
        ∀ v, v ≠ h → ∀ r ∈ crossings epsZero (spanOf S o d) v, s ≤ r)) := by
  have V := valid hS hA hL
  have hk : ∀ v, keep epsZero (engineTs (S.node v) o d) = engineTs (S.node v) o d := by
    intro v
    refine List.filter_eq_self.2 fun t ht => ?_
    have := (engine_perm hS hA hL v).mem_iff.1 ht
    unfold crossings at this
    split at this
    · cases this
    · simpa using (List.mem_filter.1 this).2
  have R : Reports epsZero (List.finRange (n + 1)) (spanOf S o d) fun v => engineTs (S.node v) o d := by
    intro v _
    dsimp only
    rw [hk]
    exact engine_perm hS hA hL v
  obtain ⟨i, hi, -, hd, -, hmin, ⟨-, m, hm, hcm⟩, hadj⟩ := nextHit_core V R (fun t => ⟨t, 0, 0⟩) (·.x) (fun _ _ _ _ => rfl)
  have hroot : ∃ v ∈ List.finRange (n + 1), (engineTs (S.node v) o d).length = 1 :=
    ⟨i.container, List.mem_finRange _, by rw [(engine_perm hS hA hL _).length_eq, hm]; rfl⟩
  have he := kernel_eq_python V.nodup epsZero (fun t => (⟨t, 0, 0⟩ : Vec3 ℝ)) (·.x) (fun v => engineTs (S.node v) o d)
    (fun v => engineTs (S.node v) o d) (fun v _ => by rw [hk]) (fun _ _ _ _ => rfl) (fun _ => hroot)
  rw [hi] at he
  obtain ⟨x, hx, hxi⟩ := Option.map_eq_some_iff.1 (Except.ok.inj he).symm
  obtain ⟨h, c, a, t⟩ := x
  subst hxi
  refine ⟨h, c, a, t, hx, hd, fun v s hs => hmin v (List.mem_finRange _) s hs, ⟨m, hm, fun v s hs => hcm v (List.mem_finRange _) s hs⟩, ?_⟩
  rcases hadj with ⟨h1, h2, h3⟩ | h | ⟨h1, b, s, h2, -, h3, h4, h5⟩
  · exact .inl ⟨h1, h2, fun v s hs => h3 v (List.mem_finRange _) s hs⟩
  · exact .inr (.inl h)
  · exact .inr (.inr ⟨h1, b, s, h2, h3, h4, fun v hv r hr => h5 v (List.mem_finRange _) hv r hr⟩)

end
end PV.EngineHit
