import Verif.Spec.Scene
import Verif.Lemmas.Vec
import Verif.Lemmas.Sort

/-! Intersections of a ray with a scene in terms of the ray parameter. -/

namespace PV.Library
open PV
noncomputable section
open Classical
variable {n : ℕ}

theorem sortedBy_congr {α β : Type} [LinearOrder α] {k k' : β → α} {l : List β}
    (h : ∀ x ∈ l, k x = k' x) : sortedBy k l = sortedBy k' l := by
  have := List.map_insertionSort (r := fun a b => k a ≤ k b) (s := fun a b => k' a ≤ k' b) id l
    (fun a ha b hb => by simp [h a ha, h b hb])
  simpa [sortedBy] using this

theorem norm_smul_unit {d : Vec3 ℝ} (hd : d.dot d = 1) {t : ℝ} (ht : 0 ≤ t) :
    (t • d).norm = t := by
  unfold Vec3.norm
  rw [Vec3.smul_dot, Vec3.dot_smul, hd, mul_one, Real.sqrt_mul_self ht]

theorem line_sub (o d : Vec3 ℝ) (t : ℝ) : o + t • d - o = t • d := by
  ext <;> simp

theorem sub_line (o d : Vec3 ℝ) (t : ℝ) : o - (o + t • d) = t • -d := by
  ext <;> simp

theorem distanceBetween_line {o d : Vec3 ℝ} (hd : d.dot d = 1) {t : ℝ} (ht : 0 ≤ t) :
    distanceBetween o (o + t • d) = t := by
  unfold distanceBetween
  rw [sub_line]
  exact norm_smul_unit (by rw [Vec3.neg_dot, Vec3.dot_neg, hd]; ring) ht

theorem ahead_iff {o d : Vec3 ℝ} (hd : d.dot d = 1) (t : ℝ) :
    d.dot (o + t • d) - d.dot o = t := by
  rw [Vec3.dot_add, Vec3.dot_smul, hd]; ring

theorem localDir_unit {N : LNode} (hr : N.l2w.Rigid) (hi : N.l2w.Inverse N.w2l) {d : Vec3 ℝ}
    (hd : d.dot d = 1) : (N.localDir d).dot (N.localDir d) = 1 := by
  unfold LNode.localDir
  rw [hi.dot_vec hr, hd]

theorem inter_point {N : LNode} (hr : N.l2w.Rigid) (hi : N.l2w.Inverse N.w2l)
    (v : Fin (n + 1)) (o d : Vec3 ℝ) (t : ℝ) : (N.inter v o d t).point = o + t • d := by
  simp only [LNode.inter, LNode.localOrigin, LNode.localDir]
  rw [Affine.point_add_smul, hi.point_point hr, hi.vec_vec hr]

theorem inter_eq {N : LNode} (hr : N.l2w.Rigid) (hi : N.l2w.Inverse N.w2l)
    (v : Fin (n + 1)) {o d : Vec3 ℝ} (hd : d.dot d = 1) {t : ℝ} (ht : 0 ≤ t) :
    N.inter v o d t = ⟨v, o + t • d, t⟩ := by
  have h1 := inter_point hr hi v o d t
  have h2 : (N.inter v o d t).dist = t := distanceBetween_line (localDir_unit hr hi hd) ht
  have h3 : (N.inter v o d t).hit = v := rfl
  cases hx : N.inter v o d t
  rw [hx] at h1 h2 h3
  simp only at h1 h2 h3
  rw [h1, h2, h3]

theorem epsZero_pos : (0 : ℝ) < epsZero := by unfold epsZero; norm_num

/-- `Scene.intersections` in terms of ray parameters. -/
theorem intersections_eq {S : LScene n} (hr : ∀ v, (S.node v).l2w.Rigid)
    (hi : ∀ v, (S.node v).l2w.Inverse (S.node v).w2l) (B : Trimesh) {o d : Vec3 ℝ}
    (hd : d.dot d = 1) :
    S.intersections B o d = sceneInters epsZero (fun t => o + t • d) (List.finRange (n + 1))
      (fun v => (S.node v).pyTs B o d) := by
  have hall : ((List.finRange (n + 1)).flatMap fun v =>
      ((S.node v).pyTs B o d).map ((S.node v).inter v o d)) =
      (kHits (List.finRange (n + 1)) fun v => (S.node v).pyTs B o d).map
        fun h => (S.node h.node).inter h.node o d h.t := by
    simp [kHits, List.map_flatMap, Function.comp_def]
  unfold LScene.intersections sceneInters
  simp only [hall, List.filter_map]
  have hf : ((kHits (List.finRange (n + 1)) fun v => (S.node v).pyTs B o d).filter
      ((fun x : Inter (Fin (n + 1)) ℝ => decide (d.dot x.point - d.dot o > epsZero)) ∘
        fun h => (S.node h.node).inter h.node o d h.t)) =
      (kHits (List.finRange (n + 1)) fun v => (S.node v).pyTs B o d).filter
        ((fun x : Inter (Fin (n + 1)) ℝ => decide (epsZero < x.dist)) ∘
          fun h => (⟨h.node, o + h.t • d, h.t⟩ : Inter (Fin (n + 1)) ℝ)) := by
    apply List.filter_congr
    intro h _
    simp only [Function.comp, inter_point (hr _) (hi _), ahead_iff hd, gt_iff_lt]
  rw [hf]
  have hm : ∀ h ∈ (kHits (List.finRange (n + 1)) fun v => (S.node v).pyTs B o d).filter
        ((fun x : Inter (Fin (n + 1)) ℝ => decide (epsZero < x.dist)) ∘
          fun h => (⟨h.node, o + h.t • d, h.t⟩ : Inter (Fin (n + 1)) ℝ)),
      (S.node h.node).inter h.node o d h.t = ⟨h.node, o + h.t • d, h.t⟩ := by
    intro h hh
    have := (List.mem_filter.1 hh).2
    simp only [Function.comp, decide_eq_true_eq] at this
    exact inter_eq (hr _) (hi _) _ hd (epsZero_pos.trans this).le
  rw [List.map_congr_left hm]
  apply sortedBy_congr
  intro x hx
  obtain ⟨h, hh, rfl⟩ := List.mem_map.1 hx
  have := (List.mem_filter.1 hh).2
  simp only [Function.comp, decide_eq_true_eq] at this
  simp only [line_sub]
  exact norm_smul_unit hd (epsZero_pos.trans this).le

/-- Every entry of `Scene.intersections` is a reported ray parameter ahead of the ray. -/
theorem mem_intersections {S : LScene n} (hr : ∀ v, (S.node v).l2w.Rigid)
    (hi : ∀ v, (S.node v).l2w.Inverse (S.node v).w2l) {B : Trimesh} {o d : Vec3 ℝ}
    (hd : d.dot d = 1) {x : Inter (Fin (n + 1)) ℝ} (hx : x ∈ S.intersections B o d) :
    x.dist ∈ (S.node x.hit).pyTs B o d ∧ epsZero < x.dist ∧ x.point = o + x.dist • d := by
  rw [intersections_eq hr hi B hd, sceneInters, mem_sortedBy, List.mem_filter] at hx
  obtain ⟨hx, he⟩ := hx
  obtain ⟨h, hh, rfl⟩ := List.mem_map.1 hx
  simp only [kHits, List.mem_flatMap, List.mem_map] at hh
  obtain ⟨v, _, t, ht, rfl⟩ := hh
  exact ⟨ht, by simpa using he, rfl⟩

end
end PV.Library
