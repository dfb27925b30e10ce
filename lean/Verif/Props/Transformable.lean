import Verif.Model.Transformable
import Verif.Lemmas.Vec

/-!
C47, C48, C55: location and pose of a node, `look_at`, and the frame of `rotate`.
-/

namespace PV.Pose
open PV

/-- A proper rotation: orthonormal rows in right-handed order. -/
def Rotation (m : Affine ℝ) : Prop := m.Rigid ∧ m.r0.cross m.r1 = m.r2

theorem unit_unitVector {v : Vec3 ℝ} (h : v ≠ 0) : (unitVector v).dot (unitVector v) = 1 := by
  have hpos : 0 < v.dot v := by
    have : v.x ≠ 0 ∨ v.y ≠ 0 ∨ v.z ≠ 0 := by
      by_contra hc
      push Not at hc
      exact h (by ext <;> simp [hc.1, hc.2.1, hc.2.2])
    simp only [Vec3.dot]
    rcases this with h | h | h
    · nlinarith [mul_self_pos.2 h, mul_self_nonneg v.y, mul_self_nonneg v.z]
    · nlinarith [mul_self_pos.2 h, mul_self_nonneg v.x, mul_self_nonneg v.z]
    · nlinarith [mul_self_pos.2 h, mul_self_nonneg v.x, mul_self_nonneg v.y]
  unfold unitVector
  rw [Vec3.dot_smul, Vec3.smul_dot]
  have := Real.sq_sqrt hpos.le
  have hs : 0 < Real.sqrt (v.dot v) := Real.sqrt_pos.2 hpos
  field_simp
  linarith

theorem unitVector_of_unit {v : Vec3 ℝ} (h : v.dot v = 1) : unitVector v = v := by
  unfold unitVector
  rw [h, Real.sqrt_one]
  ext <;> simp

/-- Rodrigues' formula gives a rotation. -/
theorem rotation_rotationMatrix {angle : ℝ} {axis p : Vec3 ℝ} (h : axis ≠ 0) :
    Rotation (rotationMatrix angle axis p) := by
  have hU := unit_unitVector h
  have hS := Real.sin_sq_add_cos_sq angle
  simp only [Vec3.dot] at hU
  unfold Rotation Affine.Rigid rotationMatrix
  simp only [Vec3.dot, Vec3.cross]
  generalize unitVector axis = u at *
  generalize Real.sin angle = s at *
  generalize Real.cos angle = c at *
  refine ⟨⟨?_, ?_, ?_, ?_, ?_, ?_⟩, ?_⟩
  · linear_combination (u.x ^ 2 * (1 - c) ^ 2 + s ^ 2) * hU + (1 - u.x ^ 2) * hS
  · linear_combination (u.y ^ 2 * (1 - c) ^ 2 + s ^ 2) * hU + (1 - u.y ^ 2) * hS
  · linear_combination (u.z ^ 2 * (1 - c) ^ 2 + s ^ 2) * hU + (1 - u.z ^ 2) * hS
  · linear_combination (u.x * u.y * (1 - c) ^ 2) * hU - u.x * u.y * hS
  · linear_combination (u.x * u.z * (1 - c) ^ 2) * hU - u.x * u.z * hS
  · linear_combination (u.y * u.z * (1 - c) ^ 2) * hU - u.y * u.z * hS
  · ext
    · simp only
      linear_combination -(u.y * (1 - c) * s) * hU + u.x * u.z * hS
    · simp only
      linear_combination (u.x * (1 - c) * s) * hU + u.y * u.z * hS
    · simp only
      linear_combination (c * (1 - c)) * hU + u.z * u.z * hS

theorem rigid_of_dot {m : Affine ℝ} (h : ∀ u v, (m.vec u).dot (m.vec v) = u.dot v) : m.Rigid := by
  -- columns are orthonormal, hence rows are
  have key : ({ r0 := m.c0, r1 := m.c1, r2 := m.c2, t := m.t } : Affine ℝ).Rigid := by
    refine ⟨?_, ?_, ?_, ?_, ?_, ?_⟩
    · simpa [Affine.vec, Vec3.dot, Affine.c0, Affine.c1, Affine.c2] using h ⟨1, 0, 0⟩ ⟨1, 0, 0⟩
    · simpa [Affine.vec, Vec3.dot, Affine.c0, Affine.c1, Affine.c2] using h ⟨0, 1, 0⟩ ⟨0, 1, 0⟩
    · simpa [Affine.vec, Vec3.dot, Affine.c0, Affine.c1, Affine.c2] using h ⟨0, 0, 1⟩ ⟨0, 0, 1⟩
    · simpa [Affine.vec, Vec3.dot, Affine.c0, Affine.c1, Affine.c2] using h ⟨1, 0, 0⟩ ⟨0, 1, 0⟩
    · simpa [Affine.vec, Vec3.dot, Affine.c0, Affine.c1, Affine.c2] using h ⟨1, 0, 0⟩ ⟨0, 0, 1⟩
    · simpa [Affine.vec, Vec3.dot, Affine.c0, Affine.c1, Affine.c2] using h ⟨0, 1, 0⟩ ⟨0, 0, 1⟩
  have := key.cols
  simp only [Affine.c0, Affine.c1, Affine.c2] at this
  exact this

theorem rigid_comp {m n : Affine ℝ} (hm : m.Rigid) (hn : n.Rigid) : (m.comp n).Rigid :=
  rigid_of_dot fun u v => by rw [Affine.comp_vec, Affine.comp_vec, hm.dot_vec, hn.dot_vec]

/-! ### C47 -/

/-- Poses are assigned as matrices of floats, and rotation axes are not zero. -/
def FloatPose : TfOp → Prop
  | .setPose _ isInt => isInt = false
  | .rotate _ axis => axis ≠ 0
  | _ => True

private theorem apply_inv {s s' : Tf} {op : TfOp} (hop : FloatPose op) (h : s.apply op = .ok s')
    (h1 : s.location = s.pose.t) (h2 : s.poseInt = false) :
    s'.location = s'.pose.t ∧ s'.poseInt = false := by
  cases op with
  | setPose m i =>
    simp only [Tf.apply, Except.ok.injEq] at h
    subst h
    exact ⟨rfl, hop⟩
  | setLocation v i =>
    simp only [Tf.apply, Except.ok.injEq] at h
    subst h
    simp only [h2]
    exact ⟨rfl, trivial⟩
  | translate v i =>
    simp only [Tf.apply] at h
    split at h
    · cases h
    · simp only [Except.ok.injEq] at h
      subst h
      refine ⟨?_, rfl⟩
      simp only [Affine.comp, h1]
      ext <;> simp [translationMatrix, Affine.point, Affine.vec, Vec3.dot]
  | rotate angle axis =>
    simp only [Tf.apply, Except.ok.injEq] at h
    subst h
    refine ⟨?_, rfl⟩
    simp only [Affine.comp, ← h1]
    have : ∀ r : Affine ℝ, ({ r with t := s.location - r.vec s.location } : Affine ℝ).point
        s.location = s.location := by
      intro r
      ext <;> simp [Affine.point, Affine.vec]
    exact (this _).symm

/-- **C47** (float poses). After any sequence of changes that raises no exception the location of the
node is the translation part of its pose. Missing: poses assigned as integer matrices, see
`integer_pose_truncates`. -/
theorem location_eq_partial (init : Option (Vec3 ℝ × Bool)) (ops : List TfOp)
    (hops : ∀ op ∈ ops, FloatPose op) {s : Tf} (h : (Tf.init init).run ops = .ok s) :
    s.location = s.pose.t := by
  have start : (Tf.init init).location = (Tf.init init).pose.t ∧
      (Tf.init init).poseInt = false := by
    cases init <;> exact ⟨rfl, rfl⟩
  generalize Tf.init init = s0 at *
  induction ops generalizing s0 with
  | nil => simp only [Tf.run, Except.ok.injEq] at h; subst h; exact start.1
  | cons op ops ih =>
    simp only [Tf.run] at h
    split at h
    · cases h
    · next s1 hs1 =>
      exact ih (fun o ho => hops o (List.mem_cons_of_mem _ ho)) s1 h
        (apply_inv (hops op (List.mem_cons_self ..)) hs1 start.1 start.2)

/-- **C47**. `rotate` never raises and changes neither the location nor the translation of the pose. -/
theorem rotate_keeps_location {s : Tf} (h : s.location = s.pose.t) (angle : ℝ) (axis : Vec3 ℝ) :
    ∃ s', s.apply (.rotate angle axis) = .ok s' ∧ s'.location = s.location ∧
      s'.pose.t = s.pose.t := by
  refine ⟨_, rfl, rfl, ?_⟩
  simp only [Affine.comp, ← h]
  have : ∀ r : Affine ℝ, ({ r with t := s.location - r.vec s.location } : Affine ℝ).point
      s.location = s.location := by
    intro r
    ext <;> simp [Affine.point, Affine.vec]
  exact this _

/-- Assigned poses are rigid, rotation axes are not zero. -/
def RigidOp : TfOp → Prop
  | .setPose m _ => m.Rigid
  | .rotate _ axis => axis ≠ 0
  | _ => True

/-- **C47**. The pose stays rigid if every assigned pose was rigid. -/
theorem stays_rigid (init : Option (Vec3 ℝ × Bool)) (ops : List TfOp)
    (hops : ∀ op ∈ ops, RigidOp op) {s : Tf} (h : (Tf.init init).run ops = .ok s) :
    s.pose.Rigid := by
  have htr : ∀ v, (translationMatrix v).Rigid := fun v => by
    simp [translationMatrix, Affine.Rigid, Vec3.dot]
  have start : (Tf.init init).pose.Rigid := by
    cases init <;> exact htr _
  generalize Tf.init init = s0 at *
  induction ops generalizing s0 with
  | nil => simp only [Tf.run, Except.ok.injEq] at h; subst h; exact start
  | cons op ops ih =>
    simp only [Tf.run] at h
    split at h
    · cases h
    · next s1 hs1 =>
      refine ih (fun o ho => hops o (List.mem_cons_of_mem _ ho)) s1 h ?_
      have hop := hops op (List.mem_cons_self ..)
      cases op with
      | setPose m i => simp only [Tf.apply, Except.ok.injEq] at hs1; subst hs1; exact hop
      | setLocation v i =>
        simp only [Tf.apply, Except.ok.injEq] at hs1
        subst hs1
        exact start
      | translate v i =>
        simp only [Tf.apply] at hs1
        split at hs1
        · cases hs1
        · simp only [Except.ok.injEq] at hs1
          subst hs1
          exact rigid_comp (htr v) start
      | rotate angle axis =>
        simp only [Tf.apply, Except.ok.injEq] at hs1
        subst hs1
        exact rigid_comp (rotation_rotationMatrix hop).1 start

/-- **C47** (violated). After assigning an integer matrix as pose, setting a fractional location
truncates the translation stored in the pose. -/
theorem integer_pose_truncates : ∃ ops s, (Tf.init none).run ops = .ok s ∧
    s.location ≠ s.pose.t := by
  refine ⟨[.setPose Affine.one true, .setLocation ⟨1 / 2, 0, 0⟩ false], _, rfl, ?_⟩
  intro h
  have := congrArg Vec3.x h
  simp only [if_true, trunc] at this
  norm_num at this

/-- **C47** (exception). A node created at an integer location cannot be translated by a fraction. -/
theorem integer_location_raises :
    (Tf.init (some (⟨1, 0, 0⟩, true))).run [.translate ⟨1 / 2, 0, 0⟩ false] = .error .casting := rfl

/-- Non-vacuity: a run with all kinds of changes. -/
example : ∃ ops : List TfOp, ops.length = 4 ∧ (∀ op ∈ ops, FloatPose op ∧ RigidOp op) ∧
    ∃ s, (Tf.init none).run ops = .ok s := by
  refine ⟨[.setPose (translationMatrix ⟨1, 2, 3⟩) false, .rotate 1 ⟨0, 1, 1⟩,
    .translate ⟨1 / 2, 0, 0⟩ false, .setLocation ⟨0, 0, 1⟩ false], rfl, ?_, _, rfl⟩
  intro op h
  simp only [List.mem_cons, List.not_mem_nil, or_false] at h
  have hne : (⟨0, 1, 1⟩ : Vec3 ℝ) ≠ 0 := fun h => by simpa using congrArg Vec3.y h
  rcases h with rfl | rfl | rfl | rfl
  · exact ⟨rfl, by simp [RigidOp, translationMatrix, Affine.Rigid, Vec3.dot]⟩
  · exact ⟨hne, hne⟩
  · exact ⟨trivial, trivial⟩
  · exact ⟨trivial, trivial⟩

/-! ### C48 -/

/-- What `numpy.linalg.eig` is taken to deliver for the rotation computed by `look_at`: a real unit
eigenvector of the transposed matrix with eigenvalue 1. -/
def EigAxis (axis : Affine ℝ → Vec3 ℝ) (b : Vec3 ℝ) : Prop :=
  let R := lookAtMatrix b
  (axis R).dot (axis R) = 1 ∧ R.tvec (axis R) = axis R

private theorem look_entries {b : Vec3 ℝ} :
    lookAtMatrix b =
      ⟨⟨1 - 1 / (1 + b.z) * b.x ^ 2, -(1 / (1 + b.z)) * b.x * b.y, b.x⟩,
        ⟨-(1 / (1 + b.z)) * b.x * b.y, 1 - 1 / (1 + b.z) * b.y ^ 2, b.y⟩,
        ⟨-b.x, -b.y, 1 - 1 / (1 + b.z) * (b.x ^ 2 + b.y ^ 2)⟩, 0⟩ := by
  unfold lookAtMatrix
  ext <;> simp [Affine.comp, Vec3.dot, Affine.c0, Affine.c1, Affine.c2] <;> ring

private theorem cos_arg_unit {c s : ℝ} (h : c ^ 2 + s ^ 2 = 1) :
    Real.cos (Complex.arg ⟨c, s⟩) = c ∧ Real.sin (Complex.arg ⟨c, s⟩) = s := by
  have hn : ‖(⟨c, s⟩ : ℂ)‖ = 1 := by
    rw [Complex.norm_def, Complex.normSq_mk, Real.sqrt_eq_one]; nlinarith
  have h0 : (⟨c, s⟩ : ℂ) ≠ 0 := by
    intro e; rw [e, norm_zero] at hn; norm_num at hn
  rw [Complex.cos_arg h0, Complex.sin_arg, hn]
  simp

/-- The axis found is parallel to the computed rotation axis. -/
private theorem axis_parallel {b d : Vec3 ℝ} (hb : b.dot b = 1) (hz : b.z ≠ -1)
    (hd : (lookAtMatrix b).tvec d = d) :
    b.y * d.z = 0 ∧ b.x * d.z = 0 ∧ b.y * d.y + b.x * d.x = 0 ∨ (b.x = 0 ∧ b.y = 0) := by
  by_cases h : b.x = 0 ∧ b.y = 0
  · exact .inr h
  left
  rw [look_entries] at hd
  have hk : (1 : ℝ) + b.z ≠ 0 := fun e => hz (by linarith)
  have e0 := congrArg Vec3.x hd
  have e1 := congrArg Vec3.y hd
  have e2 := congrArg Vec3.z hd
  simp only [Affine.tvec, Affine.c0, Affine.c1, Affine.c2, Vec3.dot] at e0 e1 e2 hb
  have hk' : (1 / (1 + b.z)) * (1 + b.z) = 1 := by field_simp
  generalize 1 / (1 + b.z) = k at *
  have hxy : b.x ^ 2 + b.y ^ 2 = (1 - b.z) * (1 + b.z) := by nlinarith
  have q : k * (b.x ^ 2 + b.y ^ 2) = 1 - b.z := by rw [hxy]; linear_combination (1 - b.z) * hk'
  -- w := b.x d.x + b.y d.y
  have a1 : b.x * d.x + b.y * d.y = k * (b.x ^ 2 + b.y ^ 2) * d.z := by linarith
  have a2 : b.x * (k * (b.x * d.x + b.y * d.y) + d.z) = 0 := by linarith
  have a3 : b.y * (k * (b.x * d.x + b.y * d.y) + d.z) = 0 := by linarith
  have a4 : k * (b.x * d.x + b.y * d.y) + d.z = 0 := by
    rcases not_and_or.1 h with h | h
    · exact (mul_eq_zero.1 a2).resolve_left h
    · exact (mul_eq_zero.1 a3).resolve_left h
  rw [q] at a1
  rw [a1] at a4
  have hz2 : d.z = 0 := by
    have : (k * (1 - b.z) + 1) * d.z = 0 := by linarith
    rcases mul_eq_zero.1 this with h0 | h0
    · exfalso
      have : (1 - b.z) + (1 + b.z) = 0 := by linear_combination (1 + b.z) * h0 - (1 - b.z) * hk'
      linarith
    · exact h0
  rw [hz2] at a1 ⊢
  refine ⟨by ring, by ring, by linarith⟩

private theorem look_sine {b d : Vec3 ℝ} (hb : b.dot b = 1) (hz : b.z ≠ -1)
    (hd1 : d.dot d = 1) (hd2 : (lookAtMatrix b).tvec d = d) :
    ∃ s : ℝ, b.z ^ 2 + s ^ 2 = 1 ∧ b.y = -(s * d.x) ∧ b.x = s * d.y ∧ s * d.z = 0 ∧
      rotationAngle (lookAtMatrix b) d = Complex.arg ⟨b.z, s⟩ := by
  have hpar := axis_parallel hb hz hd2
  have hk : (1 : ℝ) + b.z ≠ 0 := fun e => hz (by linarith)
  have hk' : (1 / (1 + b.z)) * (1 + b.z) = 1 := by field_simp
  have hb' := hb
  simp only [Vec3.dot] at hb' hd1
  have hxy : b.x ^ 2 + b.y ^ 2 = (1 - b.z) * (1 + b.z) := by linear_combination hb'
  have q : 1 / (1 + b.z) * (b.x ^ 2 + b.y ^ 2) = 1 - b.z := by
    rw [hxy]; linear_combination (1 - b.z) * hk'
  have hcos : ((lookAtMatrix b).r0.x + (lookAtMatrix b).r1.y + (lookAtMatrix b).r2.z - 1) / 2 =
      b.z := by
    rw [look_entries]; simp only; linarith
  by_cases h0 : b.x = 0 ∧ b.y = 0
  · -- no rotation
    have hz1 : b.z = 1 := by
      have : (b.z - 1) * (b.z + 1) = 0 := by rw [h0.1, h0.2] at hb'; linear_combination hb'
      rcases mul_eq_zero.1 this with h | h
      · linarith
      · exact absurd (by linarith) hz
    refine ⟨0, by rw [hz1]; norm_num, by rw [h0.2]; ring, by rw [h0.1]; ring, by ring, ?_⟩
    unfold rotationAngle
    rw [hcos, hz1]
    simp only [look_entries, h0.1, h0.2]
    congr 2
    norm_num
  · obtain ⟨p1, p2, p3⟩ := hpar.resolve_right h0
    have hdz : d.z = 0 := by
      rcases not_and_or.1 h0 with h | h
      · exact (mul_eq_zero.1 p2).resolve_left h
      · exact (mul_eq_zero.1 p1).resolve_left h
    rw [hdz] at hd1
    have hd1' : d.x ^ 2 + d.y ^ 2 = 1 := by linear_combination hd1
    -- s = b.x d.y - b.y d.x
    refine ⟨b.x * d.y - b.y * d.x, ?_, ?_, ?_, by rw [hdz]; ring, ?_⟩
    · have : (b.x * d.y - b.y * d.x) ^ 2 = (b.x ^ 2 + b.y ^ 2) * (d.x ^ 2 + d.y ^ 2) -
        (b.y * d.y + b.x * d.x) ^ 2 := by ring
      rw [this, p3, hd1']
      linear_combination hb'
    · linear_combination d.y * p3 - b.y * hd1'
    · linear_combination d.x * p3 - b.x * hd1'
    · unfold rotationAngle
      rw [hcos]
      simp only [look_entries, hdz]
      rw [if_neg (by norm_num)]
      congr 2
      have ex : b.x = (b.x * d.y - b.y * d.x) * d.y := by linear_combination d.x * p3 - b.x * hd1'
      have ey : b.y = -((b.x * d.y - b.y * d.x) * d.x) := by
        linear_combination d.y * p3 - b.y * hd1'
      split
      · next hy =>
        have hy0 : d.y ≠ 0 := by
          rintro e; rw [e, abs_zero] at hy; norm_num at hy
        rw [div_eq_iff hy0]
        linear_combination ex
      · next hy =>
        have hx0 : d.x ≠ 0 := by
          rintro e
          rw [e] at hd1'
          have h1 : |d.y| ≤ 1e-8 := not_lt.1 hy
          have h2 : d.y ^ 2 ≤ 1e-8 ^ 2 := sq_le_sq' (by linarith [(abs_le.1 h1).1]) (abs_le.1 h1).2
          norm_num at h2 hd1'
          rcases hd1' with h | h <;> rw [h] at h2 <;> norm_num at h2
        rw [div_eq_iff hx0]
        linear_combination -ey

private theorem look_matrix {b d p w : Vec3 ℝ} {s : ℝ} (hz : b.z ≠ -1) (hd1 : d.dot d = 1)
    (h1 : b.z ^ 2 + s ^ 2 = 1) (h2 : b.y = -(s * d.x)) (h3 : b.x = s * d.y) (h4 : s * d.z = 0) :
    (rotationMatrix (Complex.arg ⟨b.z, s⟩) d p).vec w = (lookAtMatrix b).vec w := by
  obtain ⟨hc, hs⟩ := cos_arg_unit h1
  unfold rotationMatrix
  rw [hc, hs, unitVector_of_unit hd1, look_entries]
  simp only [Vec3.dot] at hd1
  have hk : (1 : ℝ) + b.z ≠ 0 := fun e => hz (by linarith)
  have hk' : (1 / (1 + b.z)) * (1 + b.z) = 1 := by field_simp
  have s2 : s ^ 2 = (1 - b.z) * (1 + b.z) := by linear_combination h1
  have hks : 1 / (1 + b.z) * s ^ 2 = 1 - b.z := by
    rw [s2]; linear_combination (1 - b.z) * hk'
  generalize 1 / (1 + b.z) = k at *
  by_cases hs0 : s = 0
  · have hz1 : b.z = 1 := by
      have : (b.z - 1) * (b.z + 1) = 0 := by rw [hs0] at h1; linear_combination h1
      rcases mul_eq_zero.1 this with h | h
      · linarith
      · exact absurd (by linarith) hz
    have hx0 : b.x = 0 := by rw [h3, hs0]; ring
    have hy0 : b.y = 0 := by rw [h2, hs0]; ring
    ext <;> simp [Affine.vec, Vec3.dot, hs0, hz1, hx0, hy0]
  · have hdz : d.z = 0 := (mul_eq_zero.1 h4).resolve_left hs0
    have hd1' : d.x ^ 2 + d.y ^ 2 = 1 := by rw [hdz] at hd1; linear_combination hd1
    ext
    · simp only [Affine.vec, Vec3.dot, hdz, h2, h3]
      linear_combination (d.y ^ 2 * w.x - d.x * d.y * w.y) * hks + (1 - b.z) * w.x * hd1'
    · simp only [Affine.vec, Vec3.dot, hdz, h2, h3]
      linear_combination (d.x ^ 2 * w.y - d.x * d.y * w.x) * hks + (1 - b.z) * w.y * hd1'
    · simp only [Affine.vec, Vec3.dot, hdz, h2, h3]
      linear_combination w.z * hks + k * s ^ 2 * w.z * hd1'

theorem lookAt_rotation {axis : Affine ℝ → Vec3 ℝ} {b p : Vec3 ℝ} (hb : b.dot b = 1)
    (hz : b.z ≠ -1) (hax : EigAxis axis b) (w : Vec3 ℝ) :
    (rotationMatrix (rotationAngle (lookAtMatrix b) (axis (lookAtMatrix b)))
      (axis (lookAtMatrix b)) p).vec w = (lookAtMatrix b).vec w := by
  obtain ⟨s, h1, h2, h3, h4, h5⟩ := look_sine hb hz hax.1 hax.2
  rw [h5]
  exact look_matrix hz hax.1 h1 h2 h3 h4

/-- A node that has not been rotated. -/
def Unrotated (s : Tf) : Prop := ∀ v, s.pose.vec v = v

/-- **C48**. `look_at(b)` with a unit vector `b` that is not within the tolerance of `(0, 0, -1)`, or
is exactly that: the node's direction (0, 0, 1) becomes `b` in the frame of the parent, the node's
orientation is a proper rotation and its location does not change. Missing: vectors close to
`(0, 0, -1)`, see `look_at_snaps`, and the numerical choice of the eigenvector (`EigAxis`). -/
theorem look_at_partial {axis : Affine ℝ → Vec3 ℝ} {s : Tf} (hs : Unrotated s)
    (hloc : s.location = s.pose.t) {b : Vec3 ℝ} (hb : b.dot b = 1)
    (hz : b = ⟨0, 0, -1⟩ ∨ ¬ isclose b.z (-1)) (hax : EigAxis axis b) :
    ∃ s', s.lookAt axis b = .ok s' ∧ s'.pose.vec ⟨0, 0, 1⟩ = b ∧ s'.pose.t = s.pose.t ∧
      Rotation { s'.pose with t := 0 } := by
  have hc : (⟨0, 0, 1⟩ : Vec3 ℝ).dot b = b.z := by simp [Vec3.dot]
  have hrot : ∀ m : Affine ℝ, Rotation m → Rotation { (m.comp s.pose) with t := 0 } := by
    intro m hm
    have e : ({ (m.comp s.pose) with t := 0 } : Affine ℝ) = { m with t := 0 } := by
      have e1 : s.pose.r0 = ⟨1, 0, 0⟩ ∧ s.pose.r1 = ⟨0, 1, 0⟩ ∧ s.pose.r2 = ⟨0, 0, 1⟩ := by
        have x := hs ⟨1, 0, 0⟩
        have y := hs ⟨0, 1, 0⟩
        have z := hs ⟨0, 0, 1⟩
        simp only [Affine.vec, Vec3.dot, Vec3.mk.injEq, mul_one, mul_zero, add_zero, zero_add]
          at x y z
        exact ⟨Vec3.ext x.1 y.1 z.1, Vec3.ext x.2.1 y.2.1 z.2.1, Vec3.ext x.2.2 y.2.2 z.2.2⟩
      ext <;> simp [Affine.comp, Vec3.dot, Affine.c0, Affine.c1, Affine.c2, e1]
    rw [e]
    exact hm
  unfold Tf.lookAt
  rw [hc]
  rcases hz with rfl | hz
  · rw [if_pos (by norm_num [isclose])]
    obtain ⟨s', h1, h2, h3⟩ := rotate_keeps_location hloc Real.pi ⟨0, 1, 0⟩
    have hne : (⟨0, 1, 0⟩ : Vec3 ℝ) ≠ 0 := fun h => by simpa using congrArg Vec3.y h
    refine ⟨s', h1, ?_, h3, ?_⟩
    · simp only [Tf.apply, Except.ok.injEq] at h1
      subst h1
      simp only
      rw [Affine.comp_vec, hs, rotationMatrix, unitVector_of_unit (by norm_num [Vec3.dot]),
        Real.cos_pi, Real.sin_pi]
      ext <;> norm_num [Affine.vec, Vec3.dot]
    · simp only [Tf.apply, Except.ok.injEq] at h1
      subst h1
      exact hrot _ (rotation_rotationMatrix hne)
  · rw [if_neg hz]
    have hz' : b.z ≠ -1 := by
      intro e; apply hz; rw [e]; norm_num [isclose]
    have hne : axis (lookAtMatrix b) ≠ 0 := by
      intro e
      have := hax.1
      rw [e] at this
      simp [Vec3.dot] at this
    simp only
    obtain ⟨s', h1, h2, h3⟩ := rotate_keeps_location hloc
      (rotationAngle (lookAtMatrix b) (axis (lookAtMatrix b))) (axis (lookAtMatrix b))
    refine ⟨s', h1, ?_, h3, ?_⟩
    · simp only [Tf.apply, Except.ok.injEq] at h1
      subst h1
      simp only
      rw [Affine.comp_vec, hs, lookAt_rotation hb hz' hax, look_entries]
      have hk : (1 : ℝ) + b.z ≠ 0 := fun e => hz' (by linarith)
      have hk' : (1 / (1 + b.z)) * (1 + b.z) = 1 := by field_simp
      simp only [Vec3.dot] at hb
      ext <;> simp only [Affine.vec, Vec3.dot]
      · ring
      · ring
      · linear_combination -(1 / (1 + b.z)) * hb - (1 - b.z) * hk'
    · simp only [Tf.apply, Except.ok.injEq] at h1
      subst h1
      exact hrot _ (rotation_rotationMatrix hne)

/-- An admissible eigenvector exists for every direction. -/
theorem eigAxis_exists (b : Vec3 ℝ) : ∃ axis, EigAxis axis b := by
  by_cases h : b.x = 0 ∧ b.y = 0
  · refine ⟨fun _ => ⟨1, 0, 0⟩, by norm_num [Vec3.dot], ?_⟩
    rw [look_entries, h.1, h.2]
    ext <;> norm_num [Affine.tvec, Affine.c0, Affine.c1, Affine.c2, Vec3.dot]
  · have hne : (⟨-b.y, b.x, 0⟩ : Vec3 ℝ) ≠ 0 := by
      intro e
      have h1 := congrArg Vec3.x e
      have h2 := congrArg Vec3.y e
      simp at h1 h2
      exact h ⟨h2, h1⟩
    refine ⟨fun _ => unitVector ⟨-b.y, b.x, 0⟩, unit_unitVector hne, ?_⟩
    rw [look_entries]
    unfold unitVector
    ext <;> simp only [Affine.tvec, Affine.c0, Affine.c1, Affine.c2, Vec3.dot, Vec3.smul_x,
      Vec3.smul_y, Vec3.smul_z] <;> ring

/-- **C48** (violated). A direction within about 0.26 degrees of `(0, 0, -1)` is replaced by it. -/
theorem look_at_snaps : ∃ b : Vec3 ℝ, b.dot b = 1 ∧ ∀ axis, ∃ s',
    (Tf.init none).lookAt axis b = .ok s' ∧ s'.pose.vec ⟨0, 0, 1⟩ = ⟨0, 0, -1⟩ ∧
      b ≠ ⟨0, 0, -1⟩ := by
  refine ⟨⟨2000 / 1000001, 0, -999999 / 1000001⟩, by norm_num [Vec3.dot], fun axis => ?_⟩
  unfold Tf.lookAt
  rw [if_pos (by norm_num [isclose, Vec3.dot, abs_le])]
  refine ⟨_, rfl, ?_, ?_⟩
  · simp only
    rw [Affine.comp_vec, rotationMatrix, unitVector_of_unit (by norm_num [Vec3.dot]),
      Real.cos_pi, Real.sin_pi]
    ext <;> norm_num [Affine.vec, Vec3.dot, Tf.init, translationMatrix]
  · intro h
    have := congrArg Vec3.x h
    norm_num at this

/-- **C48** (violated). `look_at` does not normalise: a longer vector gives another direction. -/
theorem look_at_unnormalised : ∃ b : Vec3 ℝ, b ≠ 0 ∧
    ∀ k : ℝ, (lookAtMatrix b).vec ⟨0, 0, 1⟩ ≠ k • b := by
  refine ⟨⟨2, 0, 0⟩, fun h => by simpa using congrArg Vec3.x h, fun k h => ?_⟩
  have := congrArg Vec3.z h
  rw [look_entries] at this
  norm_num [Affine.vec, Vec3.dot] at this

/-! ### C55 -/

/-- **C55** (violated). The axis of `rotate` is documented as a direction in the node's coordinate
system. It is used in the parent's: after a quarter turn about x, turning by a quarter about the
"node's z axis" moves that axis, which a rotation about it would leave in place. -/
theorem rotate_axis_frame : ∃ s s' : Tf,
    (Tf.init none).run [.rotate (Real.pi / 2) ⟨1, 0, 0⟩] = .ok s ∧
    s.apply (.rotate (Real.pi / 2) ⟨0, 0, 1⟩) = .ok s' ∧
    s'.pose.vec ⟨0, 0, 1⟩ ≠ s.pose.vec ⟨0, 0, 1⟩ := by
  refine ⟨_, _, rfl, rfl, ?_⟩
  simp only
  rw [Affine.comp_vec, Affine.comp_vec]
  intro h
  have := congrArg Vec3.x h
  simp only [rotationMatrix, unitVector_of_unit (show (⟨1, 0, 0⟩ : Vec3 ℝ).dot ⟨1, 0, 0⟩ = 1 by
    norm_num [Vec3.dot]), unitVector_of_unit (show (⟨0, 0, 1⟩ : Vec3 ℝ).dot ⟨0, 0, 1⟩ = 1 by
    norm_num [Vec3.dot]), Real.cos_pi_div_two, Real.sin_pi_div_two] at this
  norm_num [Affine.vec, Vec3.dot, Tf.init, translationMatrix] at this

/-- **C55** (what holds). The axis, taken as a direction in the parent's coordinate system, is left in
place: a local direction that points along it before the rotation does so afterwards. -/
theorem rotate_parent_axis_partial {s s' : Tf} {angle : ℝ} {axis v : Vec3 ℝ} (h0 : axis ≠ 0)
    (h : s.apply (.rotate angle axis) = .ok s') (hv : s.pose.vec v = axis) :
    s'.pose.vec v = axis := by
  simp only [Tf.apply, Except.ok.injEq] at h
  subst h
  simp only
  rw [Affine.comp_vec, hv]
  have hU := unit_unitVector h0
  obtain ⟨m, hm⟩ : ∃ m : ℝ, axis = m • unitVector axis := by
    have hpos : 0 < Real.sqrt (axis.dot axis) := by
      rw [Real.sqrt_pos]
      by_contra hc
      have : Real.sqrt (axis.dot axis) = 0 := Real.sqrt_eq_zero_of_nonpos (not_lt.1 hc)
      have e : unitVector axis = 0 := by
        unfold unitVector; rw [this]; ext <;> simp
      rw [e] at hU
      simp [Vec3.dot] at hU
    refine ⟨Real.sqrt (axis.dot axis), ?_⟩
    unfold unitVector
    ext <;> simp <;> field_simp
  unfold rotationMatrix
  simp only [Affine.vec]
  conv_rhs => rw [hm]
  conv_lhs => rw [hm]
  simp only [Vec3.dot] at hU
  have hUU : unitVector (m • unitVector axis) = unitVector axis := by rw [← hm]
  simp only [hUU]
  generalize unitVector axis = u at *
  ext <;> simp only [Vec3.dot, Vec3.smul_x, Vec3.smul_y, Vec3.smul_z]
  · linear_combination m * u.x * (1 - Real.cos angle) * hU
  · linear_combination m * u.y * (1 - Real.cos angle) * hU
  · linear_combination m * u.z * (1 - Real.cos angle) * hU

end PV.Pose
