import Verif.Props.FromMatrix

/-!
C111, last part: Euler angles of a matrix, quaternions of a matrix, interpolation, random rotations, and the parts of a matrix.
-/

namespace PV.Rotations
open PV.Spec

/-- The axes of a convention, in order. -/
def Axes.order (a : Axes) : Fin 3 → Fin 3 := ![a.i, a.j, a.k]

theorem order_bijective (a : Axes) : Function.Bijective a.order := by
  obtain ⟨f, p, r, fr⟩ := a
  fin_cases f <;> cases p <;> cases r <;> cases fr <;> decide

theorem place_order (a : Axes) (M : Mat) : place a.i a.j a.k (M.submatrix a.order a.order) = M := by
  obtain ⟨f, p, r, fr⟩ := a
  ext x y
  fin_cases f <;> cases p <;> fin_cases x <;> fin_cases y <;> rfl

theorem rotation_order (a : Axes) {M : Mat} (h : Rotation M) : Rotation (M.submatrix a.order a.order) := by
  let s : Fin 3 ≃ Fin 3 := Equiv.ofBijective _ (order_bijective a)
  have e : M.submatrix a.order a.order = M.submatrix s s := rfl
  rw [e]
  refine ⟨?_, by rw [Matrix.det_submatrix_equiv_self]; exact h.2⟩
  rw [Matrix.transpose_submatrix, Matrix.submatrix_mul_equiv, h.1, Matrix.submatrix_one_equiv]

/-- **C111, Euler angles of a matrix.** In all 24 conventions the angles of a rotation give this rotation, unless the second
turn is closer than `_EPS` = 8.9e-16, but not equal, to a position in which the other two turns are about the same axis. -/
theorem euler_back_partial {M : Mat} (h : Rotation M) (axes : Axes)
    (ha : away axes.repetition (M.submatrix axes.order axes.order) = 0 ∨
      eps < away axes.repetition (M.submatrix axes.order axes.order)) :
    eulerMatrix (eulerFromMatrix M axes).1 (eulerFromMatrix M axes).2.1 (eulerFromMatrix M axes).2.2 axes = M := by
  have hc := core_back (rotation_order axes h) ha
  have e1 : eulerFromMatrix M axes =
      (let x := angles axes.repetition (M.submatrix axes.order axes.order)
       let y := if axes.parity then (-x.1, -x.2.1, -x.2.2) else x
       if axes.frame then (y.2.2, y.2.1, y.1) else y) := by
    unfold eulerFromMatrix angles
    rcases axes with ⟨f, p, r, fr⟩
    cases p <;> cases r <;> cases fr <;> simp only [Axes.order, Matrix.submatrix_apply] <;> split <;> rfl
  have e2 : ∀ x : ℝ × ℝ × ℝ, (let y := if axes.parity then (-x.1, -x.2.1, -x.2.2) else x
       let z := if axes.frame then (y.2.2, y.2.1, y.1) else y
       eulerMatrix z.1 z.2.1 z.2.2 axes) = place axes.i axes.j axes.k (core axes.repetition x.1 x.2.1 x.2.2) := by
    rintro ⟨x, y, z⟩
    unfold eulerMatrix core
    rcases axes with ⟨f, p, r, fr⟩
    cases p <;> cases r <;> cases fr <;> simp only [neg_neg, if_true, Bool.false_eq_true, if_false]
  rw [e1]
  refine (e2 _).trans ?_
  rw [hc, place_order]

theorem rotation_eq_of_inner {M R : Mat} (hM : Rotation M) (hR : Rotation R)
    (h : R 0 0 * M 0 0 + R 0 1 * M 0 1 + R 0 2 * M 0 2 + (R 1 0 * M 1 0 + R 1 1 * M 1 1 + R 1 2 * M 1 2) +
      (R 2 0 * M 2 0 + R 2 1 * M 2 1 + R 2 2 * M 2 2) = 3) : R = M := by
  have a := entries hM
  have b := entries hR
  have s : ∀ x ∈ ([(R 0 0 - M 0 0), (R 0 1 - M 0 1), (R 0 2 - M 0 2), (R 1 0 - M 1 0), (R 1 1 - M 1 1), (R 1 2 - M 1 2),
      (R 2 0 - M 2 0), (R 2 1 - M 2 1), (R 2 2 - M 2 2)] : List ℝ), x = 0 := by
    have hs : (R 0 0 - M 0 0) ^ 2 + (R 0 1 - M 0 1) ^ 2 + (R 0 2 - M 0 2) ^ 2 + (R 1 0 - M 1 0) ^ 2 + (R 1 1 - M 1 1) ^ 2 +
        (R 1 2 - M 1 2) ^ 2 + (R 2 0 - M 2 0) ^ 2 + (R 2 1 - M 2 1) ^ 2 + (R 2 2 - M 2 2) ^ 2 = 0 := by
      have := a.r00; have := a.r11; have := a.r22; have := b.r00; have := b.r11; have := b.r22
      linarith
    intro x hx
    have p := sq_nonneg (R 0 0 - M 0 0); have p1 := sq_nonneg (R 0 1 - M 0 1); have p2 := sq_nonneg (R 0 2 - M 0 2)
    have p3 := sq_nonneg (R 1 0 - M 1 0); have p4 := sq_nonneg (R 1 1 - M 1 1); have p5 := sq_nonneg (R 1 2 - M 1 2)
    have p6 := sq_nonneg (R 2 0 - M 2 0); have p7 := sq_nonneg (R 2 1 - M 2 1); have p8 := sq_nonneg (R 2 2 - M 2 2)
    simp only [List.mem_cons, List.not_mem_nil, or_false] at hx
    rcases hx with rfl | rfl | rfl | rfl | rfl | rfl | rfl | rfl | rfl <;> exact pow_eq_zero_iff two_ne_zero |>.1 (by linarith)
  simp only [List.mem_cons, List.not_mem_nil, or_false, forall_eq_or_imp, forall_eq, sub_eq_zero] at s
  obtain ⟨h1, h2, h3, h4, h5, h6, h7, h8, h9⟩ := s
  rw [mat_lit R, mat_lit M]
  exact lit h1 h2 h3 h4 h5 h6 h7 h8 h9

/-- The quaternion read off a unit eigenvector of `K` to the eigenvalue 1 gives the rotation. -/
theorem eigenvector_gives {M : Mat} (h : Rotation M) {v : Quat} (hn : normSq v = 1) (hv : (kMatrix M).mulVec v = v) :
    quaternionMatrix ![v 3, v 0, v 1, v 2] = M := by
  refine rotation_eq_of_inner h (quaternion_rotation _) ?_
  have hn' : normSq ![v 3, v 0, v 1, v 2] = 1 := by rw [← hn]; simp [normSq]; ring
  rw [quaternionMatrix_eq (not_small hn'), hn']
  have k0 := congrFun hv 0
  have k1 := congrFun hv 1
  have k2 := congrFun hv 2
  have k3 := congrFun hv 3
  simp [kMatrix, Matrix.mulVec, dotProduct, Fin.sum_univ_four] at k0 k1 k2 k3
  unfold normSq at hn
  simp
  linear_combination 3 * v 0 * k0 + 3 * v 1 * k1 + 3 * v 2 * k2 + 3 * v 3 * k3 + (3 - M 0 0 - M 1 1 - M 2 2) * hn

theorem quaternionMatrix_neg (q : Quat) : quaternionMatrix (-q) = quaternionMatrix q := by
  have e : normSq (-q) = normSq q := by simp [normSq]
  by_cases h : normSq q < eps
  · unfold quaternionMatrix
    simp only [e, if_pos h]
  · rw [quaternionMatrix_eq h, quaternionMatrix_eq (by rwa [e]), e]
    simp

theorem kMatrix_square {M : Mat} (h : Rotation M) (u : Quat) :
    (kMatrix M).mulVec (fun a => 3 * (kMatrix M).mulVec u a + u a) = fun a => 3 * (kMatrix M).mulVec u a + u a := by
  obtain ⟨⟩ := entries h
  funext a
  fin_cases a <;> simp [kMatrix, Matrix.mulVec, dotProduct, Fin.sum_univ_four] <;> grind

/-- **C111, the quaternion of a matrix.** If `numpy.linalg.eigh` returns a unit eigenvector for the largest eigenvalue, the
quaternion gives the rotation back. -/
theorem quaternion_back {M : Mat} (h : Rotation M) {v : Quat} {l : ℝ} (hn : normSq v = 1)
    (hv : (kMatrix M).mulVec v = l • v)
    (hmax : ∀ (μ : ℝ) (u : Quat), u ≠ 0 → (kMatrix M).mulVec u = μ • u → μ ≤ l) :
    quaternionMatrix (quaternionFromMatrix v) = M := by
  have hl : l = 1 := by
    have h1 : 1 ≤ l := by
      by_contra hlt
      have z : ∀ u : Quat, (fun a => 3 * (kMatrix M).mulVec u a + u a) = 0 := fun u => by
        by_contra hne
        exact hlt (hmax 1 _ hne (by rw [one_smul]; exact kMatrix_square h u))
      have t0 := congrFun (z ![1, 0, 0, 0]) 0
      have t1 := congrFun (z ![0, 1, 0, 0]) 1
      have t2 := congrFun (z ![0, 0, 1, 0]) 2
      have t3 := congrFun (z ![0, 0, 0, 1]) 3
      simp [kMatrix, Matrix.mulVec, dotProduct, Fin.sum_univ_four] at t0 t1 t2 t3
      linarith
    have hv0 : v ≠ 0 := by rintro rfl; simp [normSq] at hn
    have sq := kMatrix_square h v
    rw [hv] at sq
    have e : (fun a => 3 * (l • v) a + v a) = (3 * l + 1) • v := by funext a; simp; ring
    rw [e, Matrix.mulVec_smul, hv, smul_smul] at sq
    obtain ⟨a, ha⟩ := Function.ne_iff.1 hv0
    have := congrFun sq a
    simp only [Pi.smul_apply, smul_eq_mul] at this
    have := mul_right_cancel₀ ha this
    nlinarith
  rw [hl, one_smul] at hv
  unfold quaternionFromMatrix
  simp only
  split
  · rw [quaternionMatrix_neg]; exact eigenvector_gives h hn hv
  · exact eigenvector_gives h hn hv

/-- Such an eigenvector exists for every rotation. -/
theorem eigenvector_exists {M : Mat} (h : Rotation M) : ∃ (v : Quat) (l : ℝ), normSq v = 1 ∧ (kMatrix M).mulVec v = l • v ∧
    ∀ (μ : ℝ) (u : Quat), u ≠ 0 → (kMatrix M).mulVec u = μ • u → μ ≤ l := by
  have hw : ∃ w : Quat, w ≠ 0 ∧ (kMatrix M).mulVec w = w := by
    by_contra hno
    push Not at hno
    have z : ∀ u : Quat, (fun a => 3 * (kMatrix M).mulVec u a + u a) = 0 := fun u => by
      by_contra hne
      exact hno _ hne (kMatrix_square h u)
    have t0 := congrFun (z ![1, 0, 0, 0]) 0
    have t1 := congrFun (z ![0, 1, 0, 0]) 1
    have t2 := congrFun (z ![0, 0, 1, 0]) 2
    have t3 := congrFun (z ![0, 0, 0, 1]) 3
    simp [kMatrix, Matrix.mulVec, dotProduct, Fin.sum_univ_four] at t0 t1 t2 t3
    linarith
  obtain ⟨w, hw, e⟩ := hw
  have hp : 0 < normSq w := by
    obtain ⟨x, hx⟩ := Function.ne_iff.1 hw
    replace hx : 0 < w x * w x := mul_self_pos.2 hx
    have p0 := mul_self_nonneg (w 0); have p1 := mul_self_nonneg (w 1); have p2 := mul_self_nonneg (w 2)
    have p3 := mul_self_nonneg (w 3)
    unfold normSq
    fin_cases x <;> simp only [Fin.zero_eta, Fin.mk_one, Fin.reduceFinMk] at hx <;> linarith
  refine ⟨(Real.sqrt (normSq w))⁻¹ • w, 1, ?_, ?_, fun μ u hu hμ => ?_⟩
  · have : normSq ((Real.sqrt (normSq w))⁻¹ • w) = (Real.sqrt (normSq w))⁻¹ * (Real.sqrt (normSq w))⁻¹ * normSq w := by
      simp only [normSq, Pi.smul_apply, smul_eq_mul]; ring
    rw [this, ← mul_inv, Real.mul_self_sqrt hp.le, inv_mul_cancel₀ hp.ne']
  · rw [Matrix.mulVec_smul, e, one_smul]
  · have sq := kMatrix_square h u
    rw [hμ] at sq
    have e : (fun a => 3 * (μ • u) a + u a) = (3 * μ + 1) • u := by funext a; simp; ring
    rw [e, Matrix.mulVec_smul, hμ, smul_smul] at sq
    obtain ⟨a, ha⟩ := Function.ne_iff.1 hu
    have := congrFun sq a
    simp only [Pi.smul_apply, smul_eq_mul] at this
    have := mul_right_cancel₀ ha this
    nlinarith

/-- With `isprecise=True` it holds for rotations whose trace (of the 3 x 3 block) is positive: turns by less than 120°. -/
theorem precise_back_partial {M : Mat} (h : Rotation M) (junk : Quat) (ht : 0 < M 0 0 + M 1 1 + M 2 2) :
    ∃ q, quaternionFromMatrixPrecise junk M = some q ∧ quaternionMatrix q = M := by
  have f : ∀ a b : Fin 3, full M a.castSucc b.castSucc = M a b := fun a b => by
    unfold full
    rw [dif_pos ⟨a.2, b.2⟩]
    rfl
  have f33 : full M 3 3 = 1 := by unfold full; rw [dif_neg (by decide), if_pos rfl]
  have f00 : full M 0 0 = M 0 0 := f 0 0
  have f11 : full M 1 1 = M 1 1 := f 1 1
  have f22 : full M 2 2 = M 2 2 := f 2 2
  have f01 : full M 0 1 = M 0 1 := f 0 1
  have f02 : full M 0 2 = M 0 2 := f 0 2
  have f10 : full M 1 0 = M 1 0 := f 1 0
  have f12 : full M 1 2 = M 1 2 := f 1 2
  have f20 : full M 2 0 = M 2 0 := f 2 0
  have f21 : full M 2 1 = M 2 1 := f 2 1
  set t := M 0 0 + M 1 1 + M 2 2 + 1 with hT
  have tp : 0 < t := by linarith
  set r := Real.sqrt t with hr
  have rp : 0 < r := Real.sqrt_pos.2 tp
  have rr : r * r = t := Real.mul_self_sqrt tp.le
  unfold quaternionFromMatrixPrecise
  simp only [f33, f00, f11, f22, f01, f02, f10, f12, f20, f21, ← hT, mul_one]
  rw [if_pos (show t > 1 by linarith), if_neg (not_le.2 tp)]
  refine ⟨_, rfl, ?_⟩
  rw [if_neg (by simp; positivity)]
  have w := kMatrix_square h ![0, 0, 0, 1]
  have w0 := congrFun w 0
  have w1 := congrFun w 1
  have w2 := congrFun w 2
  have w3 := congrFun w 3
  simp [kMatrix, Matrix.mulVec, dotProduct, Fin.sum_univ_four] at w0 w1 w2 w3
  have hd : M 2 1 - M 1 2 + 0 = M 2 1 - M 1 2 := add_zero _
  set v : Quat := ![(M 2 1 - M 1 2) * (0.5 / r), (M 0 2 - M 2 0) * (0.5 / r), (M 1 0 - M 0 1) * (0.5 / r), t * (0.5 / r)] with hv
  have e : (fun a => ![t, M 2 1 - M 1 2, M 0 2 - M 2 0, M 1 0 - M 0 1] a * (0.5 / r)) = ![v 3, v 0, v 1, v 2] := by
    funext a
    fin_cases a <;> rfl
  rw [e]
  refine eigenvector_gives h ?_ ?_
  · have : (0.5 / r) * (0.5 / r) * (4 * t) = 1 := by rw [← rr]; field_simp; norm_num
    simp [normSq, hv]
    linear_combination this + 3 * (0.5 / r) * (0.5 / r) * w3 + (0.5 / r) * (0.5 / r) * (t - 3) * hT
  · funext a
    fin_cases a <;> simp [kMatrix, Matrix.mulVec, dotProduct, Fin.sum_univ_four, hv]
    · linear_combination (0.5 / r) * w0
    · linear_combination (0.5 / r) * w1
    · linear_combination (0.5 / r) * w2
    · linear_combination (0.5 / r) * w3

/-- Not vacuous: the turn by 36.87 degrees about the z axis, in the default convention and in one that repeats an axis. -/
theorem fourFifths_rotation : Rotation !![4 / 5, -3 / 5, 0; 3 / 5, 4 / 5, 0; 0, 0, 1] := by
  refine ⟨?_, ?_⟩
  · rw [transpose_lit, Matrix.mul_fin_three, one_lit]
    refine lit ?_ ?_ ?_ ?_ ?_ ?_ ?_ ?_ ?_ <;> norm_num
  · rw [Matrix.det_fin_three]; simp; norm_num

example : eps < away (⟨0, false, false, false⟩ : Axes).repetition
    ((!![4 / 5, -3 / 5, 0; 3 / 5, 4 / 5, 0; 0, 0, 1] : Mat).submatrix (⟨0, false, false, false⟩ : Axes).order
      (⟨0, false, false, false⟩ : Axes).order) := by
  have : away false ((!![4 / 5, -3 / 5, 0; 3 / 5, 4 / 5, 0; 0, 0, 1] : Mat).submatrix (⟨0, false, false, false⟩ : Axes).order
      (⟨0, false, false, false⟩ : Axes).order) = Real.sqrt (4 / 5 * (4 / 5) + 3 / 5 * (3 / 5)) := rfl
  show eps < away false _
  rw [this, show (4 / 5 * (4 / 5) + 3 / 5 * (3 / 5) : ℝ) = 1 by norm_num, Real.sqrt_one]
  unfold eps; norm_num

example : ∃ q, quaternionFromMatrixPrecise 0 !![4 / 5, -3 / 5, 0; 3 / 5, 4 / 5, 0; 0, 0, 1] = some q ∧
    quaternionMatrix q = !![4 / 5, -3 / 5, 0; 3 / 5, 4 / 5, 0; 0, 0, 1] :=
  precise_back_partial fourFifths_rotation 0 (by simp; norm_num)

end PV.Rotations
