import Verif.Lemmas.Library
import Verif.Props.Tracer
import Verif.Props.Dist
import Verif.Props.Material

/-!
The path laws of `Props/Tracer.lean` for scenes made of the library's own shapes, materials,
components and surfaces.
-/

namespace PV.Library
open PV
open PV.Tracer
noncomputable section
open Classical
variable {σ : Type} {n : ℕ}

theorem GoodDist.call_nonneg {D : Dist ℝ} (h : GoodDist D) {w v : ℝ} (hv : D.call w = .ok (some v)) :
    0 ≤ v := by
  rcases h with ⟨y, hy, rfl⟩ | ⟨T, hist, hD⟩
  · simp only [PV.Dist.call, Except.ok.injEq, Option.some.injEq] at hv
    rwa [← hv]
  · obtain ⟨rfl, hn, hx, hy⟩ := mkDist_ok hD
    by_cases hr : T.inRange w
    · have hr' := hr
      unfold Table.inRange at hr'
      push Not at hr'
      cases hist
      · obtain ⟨v', e, h0⟩ := PV.Dist.call_nonneg hD hr'.1 hr'.2
        rw [e] at hv
        cases hv
        exact h0
      · simp only [PV.Dist.call, hr, not_true_eq_false, if_false, if_true, Except.ok.injEq,
          Option.some.injEq] at hv
        rw [← hv]
        apply hy
        unfold searchLeft
        have hle : ((List.range T.n).filter (fun i => T.x i < w)).length <
            (List.range T.n).length := by
          refine lt_of_le_of_ne (List.length_filter_le _ _) fun h => ?_
          have := List.length_filter_eq_length_iff.1 h (T.n - 1)
            (List.mem_range.2 (by omega))
          simp only [decide_eq_true_eq] at this
          exact absurd hr'.2 (not_le.2 this)
        simpa using hle
    · simp [PV.Dist.call, hr] at hv

theorem coefficients_nonneg {comps : List Comp} (h : ∀ c ∈ comps, GoodComp c) {w : ℝ}
    {cs : List ℝ} (hc : coefficients comps w = .ok cs) : ∀ c ∈ cs, 0 ≤ c := by
  have hf := List.forall₂_iff_get.1 (coefficients_ok hc)
  intro v hv
  obtain ⟨i, hi, rfl⟩ := List.mem_iff_getElem.1 hv
  have hi' : i < comps.length := by omega
  have e := hf.2 i hi' hi
  have hcm : comps[i] ∈ comps := List.getElem_mem hi'
  simp only [List.get_eq_getElem] at e
  unfold Comp.coefficient at e
  split at e
  · cases e
  · cases e
  · rename_i v' hv'
    cases e
    exact (h _ hcm).absDist.call_nonneg hv'

theorem log_delay_nonneg {R : Rand σ} (hR : R.Unit) (s : σ) : 0 ≤ -Real.log (1 - (R.next s).1) := by
  have h := hR s
  have : Real.log (1 - (R.next s).1) ≤ 0 :=
    Real.log_nonpos (by linarith [h.2]) (by linarith [h.1])
  linarith

theorem truthy_some {o : Option ℝ} {t : ℝ} (h : truthy o = some t) : o = some t := by
  unfold truthy at h
  split at h
  · cases h
  · split_ifs at h
    cases h
    rfl

theorem pickComponent_mem {R : Rand σ} {comps : List Comp} {w : ℝ} {s s' : σ} {c : Comp}
    (h : pickComponent R comps w s = .ok (c, s')) : c ∈ comps := by
  unfold pickComponent at h
  split at h
  · cases h
  · dsimp only at h
    split at h
    · cases h
    · split at h
      · cases h
      · rename_i hi
        cases h
        exact List.mem_of_getElem? hi

theorem turn_eq {N : LNode} (hr : N.l2w.Rigid) (hi : N.l2w.Inverse N.w2l) {ray ray' : Ray ℝ}
    {d : Except Err (Vec3 ℝ)} {s s' : σ} (h : N.turn ray d s = .ok (ray', s')) :
    ray' = { ray with direction := ray'.direction } := by
  unfold LNode.turn at h
  split at h
  · cases h
  · simp only [Except.ok.injEq, Prod.mk.injEq] at h
    rw [← h.1]
    simp [Ray.representation, hi.point_point hr]

/-- The library's own parts obey the rules under which the path laws C03, C04 and C05 were
proved. -/
theorem lawful {S : LScene n} (hS : Sound S) (B : Trimesh) {R : Rand σ} (hR : R.Unit)
    (method : EmitMethod) : Lawful (pyOps S B R method) where
  index_pos v := hS.index_pos v
  depth_nonneg v w s d s' h := by
    have h' : penetrationDepth R (S.node v).comps w s = .ok (some d, s') := h
    cases hc : coefficients (S.node v).comps w with
    | error e => unfold penetrationDepth at h'; rw [hc] at h'; cases h'
    | ok cs =>
      exact PV.Material.depth_nonneg hR hc (coefficients_nonneg (hS.comps v) hc) h'
  dist_nonneg ray h hs := by
    obtain ⟨xs, hx, hn⟩ := hs
    refine nextHit_dist_nonneg (fun p => Real.sqrt_nonneg _) ?_ hn
    simp only [pyOps, Except.ok.injEq] at hx
    subst hx
    intro x hxm
    unfold LScene.intersections at hxm
    simp only [sortedBy, List.mem_insertionSort, List.mem_filter, List.mem_flatMap,
      List.mem_map] at hxm
    obtain ⟨⟨v, _, t, _, rfl⟩, _⟩ := hxm
    exact Real.sqrt_nonneg _
  emit v c ray s ray' s' ho h := by
    obtain ⟨w, s1, s2, hp⟩ := ho
    have hg := hS.comps v c (pickComponent_mem hp)
    simp only [pyOps] at h ⊢
    split at h
    · cases h
    rename_i r1 s1 he
    simp only [Except.ok.injEq, Prod.mk.injEq] at h
    obtain ⟨rfl, rfl⟩ := h
    have hpp := (hS.inverse v).point_point (hS.rigid v) ray.position
    unfold Comp.emit at he
    split at he
    · cases he
    rename_i dir s3 hd
    split_ifs at he with hk
    · dsimp only at he
      split at he
      · cases he
      rename_i wl hw
      split at he
      · simp only [Except.ok.injEq, Prod.mk.injEq] at he
        obtain ⟨rfl, rfl⟩ := he
        exact ⟨hpp, rfl, le_rfl, fun h => absurd hk h⟩
      · rename_i t ht
        simp only [Except.ok.injEq, Prod.mk.injEq] at he
        obtain ⟨rfl, rfl⟩ := he
        refine ⟨hpp, rfl, ?_, fun h => absurd hk h⟩
        have h1 := hg.tauRad t (truthy_some ht)
        have h2 := mul_nonneg (log_delay_nonneg hR (R.next s3).2) h1
        simp only [Ray.representation]
        linarith
    · simp only [Except.ok.injEq, Prod.mk.injEq] at he
      obtain ⟨rfl, rfl⟩ := he
      exact ⟨hpp, rfl, le_rfl, fun _ => ⟨rfl, rfl⟩⟩
  decay v c ray s ray' s' ho h := by
    obtain ⟨w, s1, s2, hp⟩ := ho
    have hg := hS.comps v c (pickComponent_mem hp)
    simp only [pyOps, Except.ok.injEq] at h
    unfold Comp.nonradiativeAbsorb at h
    split at h
    · simp only [Prod.mk.injEq] at h
      exact ⟨0, le_rfl, by rw [← h.1]; simp⟩
    · rename_i t ht
      simp only [Prod.mk.injEq] at h
      exact ⟨_, mul_nonneg (log_delay_nonneg hR s) (hg.tauNr t (truthy_some ht)), h.1.symm⟩
  reflect h c a ray s ray' s' e := turn_eq (hS.rigid h) (hS.inverse h) e
  transmit h c a ray s ray' s' e := turn_eq (hS.rigid h) (hS.inverse h) e

end
end PV.Library
