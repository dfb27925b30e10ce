import Verif.Model.Matrices
import Verif.Spec.Planes
import Verif.Props.Transformable
import Mathlib.Tactic.FieldSimp
import Mathlib.Tactic.Positivity

/-!
C117: mirror, scaling, projection, clipping and shear matrices do what their names say.
-/

namespace PV.Matrices
open PV PV.Spec
noncomputable section

/-! ### Unit vectors -/

theorem unit_of {n : Vec3 ℝ} (h : n ≠ 0) : ∃ k : ℝ, 0 < k ∧ n = k • unitVector n ∧ (unitVector n).dot (unitVector n) = 1 := by
  have hu := Pose.unit_unitVector h
  have hp : 0 < n.dot n := by
    by_contra hc
    have e : Real.sqrt (n.dot n) = 0 := Real.sqrt_eq_zero_of_nonpos (not_lt.1 hc)
    have : unitVector n = 0 := by unfold unitVector; rw [e]; ext <;> simp
    rw [this] at hu
    simp [Vec3.dot] at hu
  refine ⟨Real.sqrt (n.dot n), Real.sqrt_pos.2 hp, ?_, hu⟩
  unfold unitVector
  have := (Real.sqrt_pos.2 hp).ne'
  ext <;> simp <;> field_simp

theorem point_outer (k f : ℝ) (a b t X : Vec3 ℝ) :
    (outerRows k f a b t).point X = k • X - (f * b.dot X) • a + t := by
  ext <;> simp [outerRows, Affine.point, Affine.vec, Vec3.dot] <;> ring

theorem vec_outer (k f : ℝ) (a b t X : Vec3 ℝ) :
    (outerRows k f a b t).vec X = k • X - (f * b.dot X) • a := by
  ext <;> simp [outerRows, Affine.vec, Vec3.dot] <;> ring

/-! ### Mirrors -/

/-- There is only one mirror image. -/
theorem mirror_unique {point normal X Y Z : Vec3 ℝ} (h : normal ≠ 0) (hY : MirrorImage point normal X Y)
    (hZ : MirrorImage point normal X Z) : Y = Z := by
  obtain ⟨c, hc, hn, hu⟩ := unit_of h
  rw [hn] at hY hZ
  generalize unitVector normal = n at hu hY hZ
  obtain ⟨⟨k, hk⟩, h1⟩ := hY
  obtain ⟨⟨l, hl⟩, h2⟩ := hZ
  have eY : Y = X + (k * c) • n := by
    have := hk
    simp only [Vec3.ext_iff, Vec3.sub_x, Vec3.sub_y, Vec3.sub_z, Vec3.smul_x, Vec3.smul_y, Vec3.smul_z] at this
    ext <;> simp <;> linarith
  have eZ : Z = X + (l * c) • n := by
    have := hl
    simp only [Vec3.ext_iff, Vec3.sub_x, Vec3.sub_y, Vec3.sub_z, Vec3.smul_x, Vec3.smul_y, Vec3.smul_z] at this
    ext <;> simp <;> linarith
  subst eY eZ
  simp only [OnPlane, Vec3.dot, Vec3.sub_x, Vec3.sub_y, Vec3.sub_z, Vec3.smul_x, Vec3.smul_y, Vec3.smul_z, Vec3.add_x,
    Vec3.add_y, Vec3.add_z] at h1 h2 hu
  have : c * (k * c - l * c) = 0 := by linear_combination 2 * h1 - 2 * h2 - c * (k * c - l * c) * hu
  rcases mul_eq_zero.1 this with h | h
  · exact absurd h hc.ne'
  · rw [sub_eq_zero.1 h]

/-- `reflection_matrix` sends every point to its mirror image. -/
theorem mirror {point normal : Vec3 ℝ} (h : normal ≠ 0) (X : Vec3 ℝ) :
    MirrorImage point normal X ((reflectionMatrix point normal).point X) := by
  obtain ⟨c, hc, hn, hu⟩ := unit_of h
  unfold reflectionMatrix
  dsimp only
  rw [point_outer]
  generalize unitVector normal = n at hu hn ⊢
  subst hn
  simp only [Vec3.dot] at hu
  refine ⟨⟨-(2 * n.dot (X - point)) / c, ?_⟩, ?_⟩
  · ext <;> simp [Vec3.dot] <;> field_simp <;> ring
  · simp only [OnPlane, Vec3.dot, Vec3.sub_x, Vec3.sub_y, Vec3.sub_z, Vec3.smul_x, Vec3.smul_y, Vec3.smul_z, Vec3.add_x,
      Vec3.add_y, Vec3.add_z]
    linear_combination (-c * (n.x * (X.x - point.x) + n.y * (X.y - point.y) + n.z * (X.z - point.z))) * hu

/-- Mirrored twice, everything is back. -/
theorem mirror_twice {point normal : Vec3 ℝ} (h : normal ≠ 0) (X : Vec3 ℝ) :
    (reflectionMatrix point normal).point ((reflectionMatrix point normal).point X) = X := by
  refine mirror_unique h (mirror h _) ?_
  obtain ⟨⟨k, hk⟩, h2⟩ := mirror (point := point) h X
  refine ⟨⟨-k, ?_⟩, ?_⟩
  · simp only [Vec3.ext_iff, Vec3.sub_x, Vec3.sub_y, Vec3.sub_z, Vec3.smul_x, Vec3.smul_y, Vec3.smul_z] at hk ⊢
    refine ⟨?_, ?_, ?_⟩ <;> linarith
  · have e : ∀ A B : Vec3 ℝ, A + B = B + A := fun A B => by ext <;> simp <;> ring
    rw [e]; exact h2

/-- Distances stay the same. -/
theorem mirror_distance {point normal : Vec3 ℝ} (h : normal ≠ 0) (X Y : Vec3 ℝ) :
    distSq ((reflectionMatrix point normal).point X) ((reflectionMatrix point normal).point Y) = distSq X Y := by
  obtain ⟨c, hc, hn, hu⟩ := unit_of h
  unfold reflectionMatrix
  dsimp only
  rw [point_outer, point_outer]
  generalize unitVector normal = n at hu
  simp only [Vec3.dot, distSq, Vec3.sub_x, Vec3.sub_y, Vec3.sub_z, Vec3.smul_x, Vec3.smul_y, Vec3.smul_z, Vec3.add_x,
      Vec3.add_y, Vec3.add_z] at hu ⊢
  linear_combination (4 * (n.x * (X.x - Y.x) + n.y * (X.y - Y.y) + n.z * (X.z - Y.z)) ^ 2) * hu

/-! ### Scaling -/

/-- Scaling about a point. -/
theorem scale_uniform (f : ℝ) (o X : Vec3 ℝ) :
    (scaleMatrix f (some o) none).point X - o = f • (X - o) := by
  ext <;> simp [scaleMatrix, Affine.point, Affine.vec, Vec3.dot] <;> ring

theorem scale_about_zero (f : ℝ) (X : Vec3 ℝ) : (scaleMatrix f none none).point X = f • X := by
  ext <;> simp [scaleMatrix, Affine.point, Affine.vec, Vec3.dot]

/-- Scaling along a direction: the part along it is scaled, the part across it stays. -/
theorem scale_along (f : ℝ) (o : Vec3 ℝ) {d : Vec3 ℝ} (h : d ≠ 0) (a : ℝ) {across : Vec3 ℝ} (hv : d.dot across = 0) :
    (scaleMatrix f (some o) (some d)).point (o + a • d + across) = o + (f * a) • d + across := by
  obtain ⟨c, hc, hn, hu⟩ := unit_of h
  simp only [scaleMatrix]
  rw [point_outer]
  generalize unitVector d = n at hu hn
  subst hn
  have hv : n.dot across = 0 := by
    have : c * n.dot across = 0 := by rw [← hv]; simp [Vec3.dot]; ring
    exact (mul_eq_zero.1 this).resolve_left hc.ne'
  simp only [Vec3.dot] at hu hv
  ext <;> simp [Vec3.dot]
  · linear_combination (-(1 - f) * n.x * c * a) * hu + (-(1 - f) * n.x) * hv
  · linear_combination (-(1 - f) * n.y * c * a) * hu + (-(1 - f) * n.y) * hv
  · linear_combination (-(1 - f) * n.z * c * a) * hu + (-(1 - f) * n.z) * hv

/-! ### Projections -/

theorem image_affine (m : Affine ℝ) (X : Vec3 ℝ) : (Homog.affine m).image X = m.point X := by
  ext <;> simp [Homog.affine, Homog.image, Homog.apply, Vec3.dot]

/-- The orthogonal projection of a point lies in the plane, straight below the point. -/
theorem project_orthogonal {point normal : Vec3 ℝ} (h : normal ≠ 0) (X : Vec3 ℝ) (pseudo : Bool) :
    OnPlane point normal ((projectionMatrix point normal none none pseudo).image X) ∧
    Along ((projectionMatrix point normal none none pseudo).image X - X) normal := by
  obtain ⟨c, hc, hn, hu⟩ := unit_of h
  simp only [projectionMatrix]
  rw [image_affine, point_outer]
  generalize unitVector normal = n at hu hn ⊢
  subst hn
  simp only [Vec3.dot] at hu
  refine ⟨?_, ⟨-n.dot (X - point) / c, ?_⟩⟩
  · simp only [OnPlane, Vec3.dot, Vec3.sub_x, Vec3.sub_y, Vec3.sub_z, Vec3.smul_x, Vec3.smul_y, Vec3.smul_z, Vec3.add_x,
      Vec3.add_y, Vec3.add_z]
    linear_combination (-c * (n.x * (X.x - point.x) + n.y * (X.y - point.y) + n.z * (X.z - point.z))) * hu
  · ext <;> simp [Vec3.dot] <;> field_simp <;> ring

/-- The parallel projection lies in the plane, and the point has moved along the direction. -/
theorem project_parallel {point normal d : Vec3 ℝ} (h : normal ≠ 0) (hd : normal.dot d ≠ 0) (X : Vec3 ℝ) (pseudo : Bool) :
    OnPlane point normal ((projectionMatrix point normal (some d) none pseudo).image X) ∧
    Along ((projectionMatrix point normal (some d) none pseudo).image X - X) d := by
  obtain ⟨c, hc, hn, hu⟩ := unit_of h
  simp only [projectionMatrix]
  rw [image_affine, point_outer]
  generalize unitVector normal = n at hu hn ⊢
  subst hn
  have hs : d.dot n ≠ 0 := by
    intro hs; apply hd
    have : (c • n).dot d = c * d.dot n := by simp [Vec3.dot]; ring
    rw [this, hs, mul_zero]
  have hi : (d.dot n)⁻¹ * d.dot n = 1 := inv_mul_cancel₀ hs
  simp only [one_div, div_eq_mul_inv]
  generalize (d.dot n)⁻¹ = i at hi
  simp only [Vec3.dot] at hi
  refine ⟨?_, ⟨-n.dot (X - point) * i, ?_⟩⟩
  · simp only [OnPlane, Vec3.dot, Vec3.sub_x, Vec3.sub_y, Vec3.sub_z, Vec3.smul_x, Vec3.smul_y, Vec3.smul_z, Vec3.add_x,
      Vec3.add_y, Vec3.add_z]
    linear_combination (-c * (n.x * (X.x - point.x) + n.y * (X.y - point.y) + n.z * (X.z - point.z))) * hi
  · ext <;> simp [Vec3.dot] <;> ring

/-- The perspective projection lies in the plane and on the line from the perspective point to the point. -/
theorem project_perspective {point normal p : Vec3 ℝ} (h : normal ≠ 0) (d : Option (Vec3 ℝ)) {X : Vec3 ℝ}
    (hX : normal.dot (p - X) ≠ 0) :
    OnPlane point normal ((projectionMatrix point normal d (some p) false).image X) ∧
    Along ((projectionMatrix point normal d (some p) false).image X - p) (X - p) := by
  obtain ⟨c, hc, hn, hu⟩ := unit_of h
  simp only [projectionMatrix, Homog.image, Homog.apply]
  rw [if_neg (by simp), point_outer]
  generalize unitVector normal = n at hu hn ⊢
  subst hn
  have hs : (-n).dot X + p.dot n ≠ 0 := by
    intro hs; apply hX
    have : (c • n).dot (p - X) = c * ((-n).dot X + p.dot n) := by simp [Vec3.dot]; ring
    rw [this, hs, mul_zero]
  have hi : ((-n).dot X + p.dot n)⁻¹ * ((-n).dot X + p.dot n) = 1 := inv_mul_cancel₀ hs
  simp only [one_div]
  generalize ((-n).dot X + p.dot n)⁻¹ = i at hi
  simp only [Vec3.dot, Vec3.neg_x, Vec3.neg_y, Vec3.neg_z] at hi
  refine ⟨?_, ⟨(p - point).dot n * i, ?_⟩⟩
  · simp only [OnPlane, Vec3.dot, Vec3.sub_x, Vec3.sub_y, Vec3.sub_z, Vec3.smul_x, Vec3.smul_y, Vec3.smul_z, Vec3.add_x,
      Vec3.add_y, Vec3.add_z]
    linear_combination (c * (point.x * n.x + point.y * n.y + point.z * n.z)) * hi
  · ext <;> simp [Vec3.dot]
    · linear_combination p.x * hi
    · linear_combination p.y * hi
    · linear_combination p.z * hi

/-- Points of the plane stay where they are. -/
theorem project_fixed {point normal : Vec3 ℝ} {d p : Option (Vec3 ℝ)} (h : normal ≠ 0) {X : Vec3 ℝ}
    (hX : OnPlane point normal X) (hd : ∀ e, d = some e → normal.dot e ≠ 0)
    (hp : ∀ e, p = some e → ¬ OnPlane point normal e) :
    (projectionMatrix point normal d p false).image X = X := by
  obtain ⟨c, hc, hn, hu⟩ := unit_of h
  unfold OnPlane at hX hp
  simp only [projectionMatrix]
  generalize unitVector normal = n at hu hn ⊢
  subst hn
  have hx : n.dot X = point.dot n := by
    have : c * (n.dot X - point.dot n) = 0 := by rw [← hX]; simp [Vec3.dot]; ring
    linarith [(mul_eq_zero.1 this).resolve_left hc.ne']
  cases p with
  | some p =>
    have hk : (p - point).dot n ≠ 0 := by
      intro hk; apply hp p rfl
      have : (c • n).dot (p - point) = c * (p - point).dot n := by simp [Vec3.dot]; ring
      rw [this, hk, mul_zero]
    simp only [Homog.image, Homog.apply]
    rw [if_neg (by simp), point_outer, hx]
    have e : (-n).dot X + p.dot n = (p - point).dot n := by
      simp only [Vec3.dot, Vec3.neg_x, Vec3.neg_y, Vec3.neg_z, Vec3.sub_x, Vec3.sub_y, Vec3.sub_z] at hx ⊢
      linear_combination -hx
    rw [e]
    generalize (p - point).dot n = k at hk
    ext <;> simp <;> field_simp <;> ring
  | none =>
    cases d with
    | some d =>
      have hs : d.dot n ≠ 0 := by
        intro hs; apply hd d rfl
        have : (c • n).dot d = c * d.dot n := by simp [Vec3.dot]; ring
        rw [this, hs, mul_zero]
      simp only
      rw [image_affine, point_outer, hx]
      ext <;> simp <;> field_simp <;> ring
    | none =>
      simp only
      rw [image_affine, point_outer, hx]
      ext <;> simp

/-- The perspective projection is the pseudo projection followed by the orthogonal one. -/
theorem pseudo_then_orthogonal {point normal p : Vec3 ℝ} (h : normal ≠ 0) :
    (projectionMatrix point normal none none false).mul (projectionMatrix point normal none (some p) true) =
      projectionMatrix point normal none (some p) false := by
  obtain ⟨c, hc, hn, hu⟩ := unit_of h
  simp only [projectionMatrix]
  generalize unitVector normal = n at hu hn ⊢
  simp only [Vec3.dot] at hu
  simp only [if_true, Homog.affine, Homog.mul, outerRows, Affine.c0, Affine.c1, Affine.c2, Affine.vec, Vec3.dot]
  ext <;> simp <;> grind

/-- Signed height above the plane of the pseudo projection of a point: with `a` the height of the perspective point and `b` that of
the point, it is `b / (b - a)`, where heights count in units of the normal. -/
theorem pseudo_height {point normal p X : Vec3 ℝ} (hn : normal.dot normal = 1) (hX : normal.dot (p - X) ≠ 0) (d : Option (Vec3 ℝ)) :
    normal.dot ((projectionMatrix point normal d (some p) true).image X - point) =
      normal.dot (X - point) / (normal.dot (X - point) - normal.dot (p - point)) := by
  have e : normal.dot (X - point) - normal.dot (p - point) = -normal.dot (p - X) := by simp [Vec3.dot]; ring
  simp only [projectionMatrix, Pose.unitVector_of_unit hn, Homog.image, Homog.apply]
  have e2 : (-normal).dot X + p.dot normal = normal.dot (p - X) := by simp [Vec3.dot]; ring
  rw [e, e2, eq_div_iff (by simpa using hX)]
  have hi : (normal.dot (p - X))⁻¹ * normal.dot (p - X) = 1 := inv_mul_cancel₀ hX
  simp only [one_div]
  generalize (normal.dot (p - X))⁻¹ = i at hi ⊢
  simp only [Vec3.dot, Vec3.sub_x, Vec3.sub_y, Vec3.sub_z] at hi hn
  simp [outerRows, Affine.point, Affine.vec, Vec3.dot]
  grind

/-- With the normal pointing away from the perspective point, of two points in front of it the nearer one has the nearer
image. -/
theorem depth_kept_partial {point normal p X Y : Vec3 ℝ} (hn : normal.dot normal = 1) (hp : normal.dot (p - point) < 0)
    (hX : 0 < normal.dot (X - p)) (hXY : normal.dot (X - p) < normal.dot (Y - p)) (d : Option (Vec3 ℝ)) :
    normal.dot ((projectionMatrix point normal d (some p) true).image X - p) <
      normal.dot ((projectionMatrix point normal d (some p) true).image Y - p) := by
  have e : ∀ A B : Vec3 ℝ, normal.dot (A - B) = normal.dot A - normal.dot B := fun A B => by simp [Vec3.dot]; ring
  have h1 := pseudo_height (point := point) (X := X) (p := p) hn (by rw [e] at *; intro hc; linarith) d
  have h2 := pseudo_height (point := point) (X := Y) (p := p) hn (by rw [e] at *; rw [e] at hXY; intro hc; linarith) d
  rw [e] at h1 h2
  rw [e, e _ p]
  simp only [e] at h1 h2 hp hX hXY
  generalize normal.dot (Homog.image _ X) = u at *
  generalize normal.dot (Homog.image _ Y) = v at *
  generalize normal.dot X = x at *
  generalize normal.dot Y = y at *
  generalize normal.dot p = a at *
  generalize normal.dot point = b at *
  have hx : 0 < x - b - (a - b) := by linarith
  have hy : 0 < y - b - (a - b) := by linarith
  suffices (x - b) / (x - b - (a - b)) < (y - b) / (y - b - (a - b)) by linarith
  rw [div_lt_div_iff₀ hx hy]
  nlinarith

/-- With the normal pointing to the perspective point the order is reversed: of two points in front of it the nearer one has the
farther image. -/
theorem depth_reversed {point normal p X Y : Vec3 ℝ} (hn : normal.dot normal = 1) (hp : 0 < normal.dot (p - point))
    (hX : normal.dot (X - p) < 0) (hXY : normal.dot (Y - p) < normal.dot (X - p)) (d : Option (Vec3 ℝ)) :
    normal.dot ((projectionMatrix point normal d (some p) true).image X - p) <
      normal.dot ((projectionMatrix point normal d (some p) true).image Y - p) := by
  have e : ∀ A B : Vec3 ℝ, normal.dot (A - B) = normal.dot A - normal.dot B := fun A B => by simp [Vec3.dot]; ring
  have h1 := pseudo_height (point := point) (X := X) (p := p) hn (by rw [e] at *; intro hc; linarith) d
  have h2 := pseudo_height (point := point) (X := Y) (p := p) hn (by rw [e] at *; rw [e] at hXY; intro hc; linarith) d
  rw [e] at h1 h2
  rw [e, e _ p]
  simp only [e] at h1 h2 hp hX hXY
  generalize normal.dot (Homog.image _ X) = u at *
  generalize normal.dot (Homog.image _ Y) = v at *
  generalize normal.dot X = x at *
  generalize normal.dot Y = y at *
  generalize normal.dot p = a at *
  generalize normal.dot point = b at *
  have hx : x - b - (a - b) < 0 := by linarith
  have hy : y - b - (a - b) < 0 := by linarith
  suffices (x - b) / (x - b - (a - b)) < (y - b) / (y - b - (a - b)) by linarith
  rw [← neg_div_neg_eq, ← neg_div_neg_eq (y - b), div_lt_div_iff₀ (by linarith) (by linarith)]
  nlinarith

/-! ### Clipping -/

/-- A frustum is refused exactly if a pair of bounds is in the wrong order or, with perspective, the near plane is not in
front of the eye. -/
theorem clip_refused (l r b t n f : ℝ) (persp : Bool) :
    clipMatrix l r b t n f persp = .error .valueError ↔
      r ≤ l ∨ t ≤ b ∨ f ≤ n ∨ (persp = true ∧ n ≤ 2⁻¹ ^ 50) := by
  have he : Rotations.eps = 2⁻¹ ^ 50 := by unfold Rotations.eps; norm_num
  unfold clipMatrix
  rw [he]
  by_cases h : l ≥ r ∨ b ≥ t ∨ n ≥ f
  · rw [if_pos h]; simp; tauto
  · rw [if_neg h]
    push Not at h
    cases persp
    · simp; exact ⟨h.1, h.2.1, h.2.2⟩
    · by_cases hn : n ≤ 2⁻¹ ^ 50
      · simp [h.1.not_ge, h.2.1.not_ge, h.2.2.not_ge]
      · simp [h.1.not_ge, h.2.1.not_ge, h.2.2.not_ge]

theorem ratio_bounds {a b x u : ℝ} (hab : a < b) (hu : u = (2 * x - (a + b)) / (b - a)) :
    (-1 ≤ u ↔ a ≤ x) ∧ (u ≤ 1 ↔ x ≤ b) := by
  subst hu
  have h : 0 < b - a := by linarith
  rw [le_div_iff₀ h, div_le_iff₀ h]
  constructor <;> constructor <;> intro h <;> linarith

/-- Without perspective: the points of the box, and no others, get coordinates between -1 and 1. -/
theorem clip_box {l r b t n f : ℝ} {M : Homog} (h : clipMatrix l r b t n f false = .ok M) (X : Vec3 ℝ) :
    InCube (M.image X) ↔ InBox l r b t n f X := by
  unfold clipMatrix at h
  split at h
  · simp at h
  · rename_i hc
    push Not at hc
    obtain ⟨h1, h2, h3⟩ := hc
    simp at h
    subst h
    have hx := ratio_bounds (x := X.x) h1 rfl
    have hy := ratio_bounds (x := X.y) h2 rfl
    have hz := ratio_bounds (x := X.z) h3 rfl
    have d1 : r - l ≠ 0 := by intro hh; linarith
    have d2 : t - b ≠ 0 := by intro hh; linarith
    have d3 : f - n ≠ 0 := by intro hh; linarith
    have e1 : 2 / (r - l) * X.x + (r + l) / (l - r) = (2 * X.x - (l + r)) / (r - l) := by
      rw [show l - r = -(r - l) by ring, div_neg]; field_simp; ring
    have e2 : 2 / (t - b) * X.y + (t + b) / (b - t) = (2 * X.y - (b + t)) / (t - b) := by
      rw [show b - t = -(t - b) by ring, div_neg]; field_simp; ring
    have e3 : 2 / (f - n) * X.z + (f + n) / (n - f) = (2 * X.z - (n + f)) / (f - n) := by
      rw [show n - f = -(f - n) by ring, div_neg]; field_simp; ring
    simp only [InCube, InBox, Homog.image, Homog.apply, Affine.point, Affine.vec, Vec3.dot, Vec3.zero_x, Vec3.zero_y,
      Vec3.zero_z, Vec3.smul_x, Vec3.smul_y, Vec3.smul_z, Vec3.add_x, Vec3.add_y, Vec3.add_z]
    norm_num
    rw [e1, e2, e3, hx.1, hx.2, hy.1, hy.2, hz.1, hz.2]

/-- With perspective: the points of the truncated pyramid, and no others off the plane of the eye, get coordinates
between -1 and 1. -/
theorem clip_pyramid {l r b t n f : ℝ} {M : Homog} (h : clipMatrix l r b t n f true = .ok M) {X : Vec3 ℝ} (hX : X.z ≠ 0) :
    InCube (M.image X) ↔ InPyramid l r b t n f X := by
  have he : 0 < Rotations.eps := by unfold Rotations.eps; norm_num
  unfold clipMatrix at h
  split at h
  · simp at h
  · rename_i hc
    push Not at hc
    obtain ⟨h1, h2, h3⟩ := hc
    split at h
    · split at h
      · simp at h
      · rename_i hn
        have hn : 0 < n := by linarith
        simp at h
        subst h
        have d1 : r - l ≠ 0 := by intro hh; linarith
        have d2 : t - b ≠ 0 := by intro hh; linarith
        have d3 : f - n ≠ 0 := by intro hh; linarith
        have e1 : (-X.z)⁻¹ * (2 * n / (l - r) * X.x + (r + l) / (r - l) * X.z) = (2 * (n * X.x / X.z) - (l + r)) / (r - l) := by
          rw [show l - r = -(r - l) by ring, div_neg]; field_simp; ring
        have e2 : (-X.z)⁻¹ * (2 * n / (b - t) * X.y + (t + b) / (t - b) * X.z) = (2 * (n * X.y / X.z) - (b + t)) / (t - b) := by
          rw [show b - t = -(t - b) by ring, div_neg]; field_simp; ring
        have e3 : (-X.z)⁻¹ * ((f + n) / (n - f) * X.z + 2 * n * f / (f - n)) = (2 * (f + n - n * f / X.z) - (n + f)) / (f - n) := by
          rw [show n - f = -(f - n) by ring, div_neg]; field_simp; ring
        have hx := ratio_bounds (x := n * X.x / X.z) h1 e1
        have hy := ratio_bounds (x := n * X.y / X.z) h2 e2
        have hz := ratio_bounds (x := f + n - n * f / X.z) h3 e3
        have key : InCube (Homog.image ⟨⟨⟨2 * n / (l - r), 0, (r + l) / (r - l)⟩,
          ⟨0, 2 * n / (b - t), (t + b) / (t - b)⟩, ⟨0, 0, (f + n) / (n - f)⟩, ⟨0, 0, 2 * n * f / (f - n)⟩⟩, ⟨0, 0, -1⟩, 0⟩ X) ↔
          (l ≤ n * X.x / X.z ∧ n * X.x / X.z ≤ r) ∧ (b ≤ n * X.y / X.z ∧ n * X.y / X.z ≤ t) ∧
            (n ≤ f + n - n * f / X.z ∧ f + n - n * f / X.z ≤ f) := by
          rw [← hx.1, ← hx.2, ← hy.1, ← hy.2, ← hz.1, ← hz.2]
          simp [InCube, InBox, Homog.image, Homog.apply, Affine.point, Affine.vec, Vec3.dot]
        rw [key]
        have kz : (n ≤ f + n - n * f / X.z ∧ f + n - n * f / X.z ≤ f) ↔ n ≤ X.z ∧ X.z ≤ f := by
          have hf : 0 < f := by linarith
          rcases lt_or_gt_of_ne hX with hneg | hpos
          · constructor
            · rintro ⟨-, h⟩
              have : n * f / X.z < 0 := div_neg_of_pos_of_neg (by positivity) hneg
              linarith
            · rintro ⟨h, -⟩; linarith
          · have a1 : (n ≤ f + n - n * f / X.z) ↔ n ≤ X.z := by
              rw [show (n ≤ f + n - n * f / X.z) ↔ n * f / X.z ≤ f by constructor <;> intro h <;> linarith, div_le_iff₀ hpos,
                mul_comm n f, mul_le_mul_iff_right₀ hf]
            have a2 : (f + n - n * f / X.z ≤ f) ↔ X.z ≤ f := by
              rw [show (f + n - n * f / X.z ≤ f) ↔ n ≤ n * f / X.z by constructor <;> intro h <;> linarith, le_div_iff₀ hpos,
                mul_le_mul_iff_right₀ hn]
            rw [a1, a2]
        rw [kz]
        constructor
        · rintro ⟨hx, hy, hz⟩
          refine ⟨hz, ⟨n * X.x / X.z, n * X.y / X.z, n⟩, rfl, ⟨X.z / n, ?_⟩, hx, hy⟩
          ext <;> simp <;> field_simp
        · rintro ⟨hz, F, hF, ⟨k, hk⟩, hx, hy⟩
          have hk0 : k ≠ 0 := by
            rintro rfl
            rw [hk] at hX; simp at hX
          have q1 : n * X.x / X.z = F.x := by rw [hk]; simp [hF]; field_simp
          have q2 : n * X.y / X.z = F.y := by rw [hk]; simp [hF]; field_simp
          rw [q1, q2]
          exact ⟨hx, hy, hz⟩
    · simp at *

/-! ### Shear -/

/-- A shear is refused exactly if the cosine between direction and normal is above 1e-6. -/
theorem shear_refused (angle : ℝ) (d point n : Vec3 ℝ) :
    shearMatrix angle d point n = .error .valueError ↔ 1e-6 < |(unitVector n).dot (unitVector d)| := by
  unfold shearMatrix
  dsimp only
  split
  · rename_i h; simpa using h
  · rename_i h; simpa using h

theorem shear_moves {angle : ℝ} {d point n : Vec3 ℝ} {M : Affine ℝ} (h : shearMatrix angle d point n = .ok M) (X : Vec3 ℝ) :
    M.point X - X = (Real.tan angle * (unitVector n).dot (X - point)) • unitVector d := by
  unfold shearMatrix at h
  dsimp only at h
  split at h
  · simp at h
  · simp only [Except.ok.injEq] at h
    subst h
    rw [point_outer]
    ext <;> simp [Vec3.dot] <;> ring

/-- A point moves along the direction, by the tangent of the angle times its distance from the plane: `P'` is the foot of the
perpendicular from `X` to the plane. -/
theorem shear_extent {angle : ℝ} {d point n : Vec3 ℝ} {M : Affine ℝ} (hd : d ≠ 0) (hn : n ≠ 0)
    (h : shearMatrix angle d point n = .ok M) {X P' : Vec3 ℝ} (h1 : OnPlane point n P') (h2 : Along (X - P') n) :
    Along (M.point X - X) d ∧ distSq (M.point X) X = Real.tan angle ^ 2 * distSq X P' := by
  have hm := shear_moves h X
  obtain ⟨c, hc, ec, hu⟩ := unit_of hn
  obtain ⟨e, he, ed, hv⟩ := unit_of hd
  generalize unitVector n = u at *
  generalize unitVector d = v at *
  subst ec ed
  have hP : u.dot (P' - point) = 0 := by
    have : c * u.dot (P' - point) = 0 := by rw [← h1]; simp [Vec3.dot]; ring
    exact (mul_eq_zero.1 this).resolve_left hc.ne'
  obtain ⟨k, hk⟩ := h2
  have hX : X = P' + (k * c) • u := by
    simp only [Vec3.ext_iff, Vec3.sub_x, Vec3.sub_y, Vec3.sub_z, Vec3.smul_x, Vec3.smul_y, Vec3.smul_z] at hk
    ext <;> simp <;> linarith
  have hh : u.dot (X - point) = k * c := by
    rw [hX]
    simp only [Vec3.dot, Vec3.sub_x, Vec3.sub_y, Vec3.sub_z, Vec3.smul_x, Vec3.smul_y, Vec3.smul_z, Vec3.add_x, Vec3.add_y,
      Vec3.add_z] at hP hu ⊢
    linear_combination hP + k * c * hu
  rw [hh] at hm
  refine ⟨⟨Real.tan angle * (k * c) / e, ?_⟩, ?_⟩
  · rw [hm]; ext <;> simp <;> field_simp
  · unfold distSq
    rw [hm, hk]
    simp only [Vec3.dot, Vec3.smul_x, Vec3.smul_y, Vec3.smul_z] at hu hv ⊢
    linear_combination (Real.tan angle * (k * c)) ^ 2 * hv - Real.tan angle ^ 2 * (k * c) ^ 2 * hu

/-- Points of the plane stay where they are. -/
theorem shear_fixed {angle : ℝ} {d point n : Vec3 ℝ} {M : Affine ℝ} (hn : n ≠ 0) (h : shearMatrix angle d point n = .ok M) {X : Vec3 ℝ}
    (hX : OnPlane point n X) : M.point X = X := by
  have hm := shear_moves h X
  obtain ⟨c, hc, ec, hu⟩ := unit_of hn
  generalize unitVector n = u at *
  subst ec
  have hP : u.dot (X - point) = 0 := by
    have : c * u.dot (X - point) = 0 := by rw [← hX]; simp [Vec3.dot]; ring
    exact (mul_eq_zero.1 this).resolve_left hc.ne'
  rw [hP] at hm
  simp only [Vec3.ext_iff, Vec3.sub_x, Vec3.sub_y, Vec3.sub_z, Vec3.smul_x, Vec3.smul_y, Vec3.smul_z, mul_zero, zero_mul] at hm
  ext <;> linarith

/-- Determinant of the 3 x 3 part, by which volumes grow. -/
def det3 (m : Affine ℝ) : ℝ := m.r0.dot (vectorProduct m.r1 m.r2)

theorem shear_volume {angle : ℝ} {d point n : Vec3 ℝ} {M : Affine ℝ} (h : shearMatrix angle d point n = .ok M) :
    det3 M = 1 + Real.tan angle * (unitVector n).dot (unitVector d) := by
  unfold shearMatrix at h
  dsimp only at h
  split at h
  · simp at h
  · simp only [Except.ok.injEq] at h
    subst h
    simp [det3, outerRows, Vec3.dot, vectorProduct]
    ring

/-- Volumes stay the same if the direction lies in the plane. -/
theorem shear_volume_kept_partial {angle : ℝ} {d point n : Vec3 ℝ} {M : Affine ℝ} (h : shearMatrix angle d point n = .ok M)
    (hd : n.dot d = 0) : det3 M = 1 := by
  rw [shear_volume h]
  have : (unitVector n).dot (unitVector d) = 1 / Real.sqrt (n.dot n) * (1 / Real.sqrt (d.dot d)) * n.dot d := by
    simp [unitVector, Vec3.dot]; ring
  rw [this, hd]; ring

/-- A direction that is not quite in the plane is accepted, and the shear then changes volumes. -/
theorem shear_volume_changed : ∃ angle d n, n.dot d ≠ 0 ∧ ∃ M, shearMatrix angle d 0 n = .ok M ∧ det3 M ≠ 1 := by
  have h1 : unitVector (⟨1, 0, 0⟩ : Vec3 ℝ) = ⟨1, 0, 0⟩ := Pose.unitVector_of_unit (by norm_num [Vec3.dot])
  have h2 : unitVector (⟨2 * 1e-7 / (1 + 1e-14), (1 - 1e-14) / (1 + 1e-14), 0⟩ : Vec3 ℝ) =
      ⟨2 * 1e-7 / (1 + 1e-14), (1 - 1e-14) / (1 + 1e-14), 0⟩ := Pose.unitVector_of_unit (by norm_num [Vec3.dot])
  refine ⟨Real.pi / 4, ⟨1, 0, 0⟩, ⟨2 * 1e-7 / (1 + 1e-14), (1 - 1e-14) / (1 + 1e-14), 0⟩, by norm_num [Vec3.dot], ?_⟩
  have hok : ∃ M, shearMatrix (Real.pi / 4) ⟨1, 0, 0⟩ 0 ⟨2 * 1e-7 / (1 + 1e-14), (1 - 1e-14) / (1 + 1e-14), 0⟩ = .ok M := by
    unfold shearMatrix
    dsimp only
    rw [h1, h2, if_neg (by norm_num [Vec3.dot, abs_of_pos])]
    exact ⟨_, rfl⟩
  obtain ⟨M, hM⟩ := hok
  refine ⟨M, hM, ?_⟩
  rw [shear_volume hM, h1, h2]
  norm_num [Vec3.dot]

/-! ### Crystal cells -/

/-- The images of the three unit vectors have the given lengths and form the given angles: alpha between the second and the
third, beta between the first and the third, gamma between the first and the second. -/
theorem cell {a b c α β γ : ℝ} (ha : Real.sin (α * (Real.pi / 180)) ≠ 0) (hb : Real.sin (β * (Real.pi / 180)) ≠ 0)
    (hg : ((Real.cos (α * (Real.pi / 180)) * Real.cos (β * (Real.pi / 180)) - Real.cos (γ * (Real.pi / 180))) /
      (Real.sin (α * (Real.pi / 180)) * Real.sin (β * (Real.pi / 180)))) ^ 2 ≤ 1) :
    let O := orthogonalizationMatrix ⟨a, b, c⟩ ⟨α, β, γ⟩
    let u := O.vec ⟨1, 0, 0⟩
    let v := O.vec ⟨0, 1, 0⟩
    let w := O.vec ⟨0, 0, 1⟩
    u.dot u = a ^ 2 ∧ v.dot v = b ^ 2 ∧ w.dot w = c ^ 2 ∧ v.dot w = b * c * Real.cos (α * (Real.pi / 180)) ∧
      u.dot w = a * c * Real.cos (β * (Real.pi / 180)) ∧ u.dot v = a * b * Real.cos (γ * (Real.pi / 180)) := by
  have s1 := Real.sin_sq_add_cos_sq (α * (Real.pi / 180))
  have s2 := Real.sin_sq_add_cos_sq (β * (Real.pi / 180))
  simp only [orthogonalizationMatrix, Affine.vec, Vec3.dot, mul_one, mul_zero, add_zero, zero_add]
  generalize Real.sin (α * (Real.pi / 180)) = sa at *
  generalize Real.cos (α * (Real.pi / 180)) = ca at *
  generalize Real.sin (β * (Real.pi / 180)) = sb at *
  generalize Real.cos (β * (Real.pi / 180)) = cb at *
  generalize Real.cos (γ * (Real.pi / 180)) = cg at *
  have hco : (ca * cb - cg) / (sa * sb) * (sa * sb) = ca * cb - cg := div_mul_cancel₀ _ (mul_ne_zero ha hb)
  generalize (ca * cb - cg) / (sa * sb) = co at *
  have hq : Real.sqrt (1 - co * co) ^ 2 = 1 - co * co := Real.sq_sqrt (by nlinarith)
  generalize Real.sqrt (1 - co * co) = q at *
  refine ⟨?_, ?_, ?_, ?_, ?_, ?_⟩
  · linear_combination a ^ 2 * sb ^ 2 * hq + a ^ 2 * s2
  · linear_combination b ^ 2 * s1
  · ring
  · ring
  · ring
  · linear_combination -a * b * hco

/-! ### Angles -/

/-- The angle between two vectors: between 0 and π, with the cosine given by the scalar product. -/
theorem angle_directed {a b : Vec3 ℝ} :
    0 ≤ angleBetweenVectors a b true ∧ angleBetweenVectors a b true ≤ Real.pi ∧
      vectorNorm a * vectorNorm b * Real.cos (angleBetweenVectors a b true) = a.dot b := by
  have hcs : a.dot b ^ 2 ≤ a.dot a * b.dot b := by
    simp only [Vec3.dot]
    nlinarith [sq_nonneg (a.x * b.y - a.y * b.x), sq_nonneg (a.x * b.z - a.z * b.x), sq_nonneg (a.y * b.z - a.z * b.y)]
  have ha : 0 ≤ a.dot a := by simp only [Vec3.dot]; nlinarith [sq_nonneg a.x, sq_nonneg a.y, sq_nonneg a.z]
  have hb : 0 ≤ b.dot b := by simp only [Vec3.dot]; nlinarith [sq_nonneg b.x, sq_nonneg b.y, sq_nonneg b.z]
  refine ⟨Real.arccos_nonneg _, Real.arccos_le_pi _, ?_⟩
  simp only [angleBetweenVectors, if_true, vectorNorm]
  rw [← Real.sqrt_mul ha]
  have habs : |a.dot b| ≤ Real.sqrt (a.dot a * b.dot b) := Real.abs_le_sqrt hcs
  rcases (Real.sqrt_nonneg (a.dot a * b.dot b)).eq_or_lt with h0 | h0
  · rw [← h0] at habs ⊢
    have : a.dot b = 0 := abs_nonpos_iff.1 habs
    rw [this]; ring
  · rw [abs_le] at habs
    rw [Real.cos_arccos]
    · field_simp
    · rw [le_div_iff₀ h0]; linarith
    · rw [div_le_iff₀ h0]; linarith

/-- Taken as axes without direction: at most a right angle, and the smaller of the two angles. -/
theorem angle_undirected {a b : Vec3 ℝ} :
    angleBetweenVectors a b false = min (angleBetweenVectors a b true) (Real.pi - angleBetweenVectors a b true) ∧
      angleBetweenVectors a b false ≤ Real.pi / 2 := by
  simp only [angleBetweenVectors, if_true, Bool.false_eq_true, if_false]
  generalize a.dot b / _ = x
  refine ⟨?_, Real.arccos_le_pi_div_two.2 (abs_nonneg _)⟩
  rw [← Real.arccos_neg]
  rcases le_total 0 x with h | h
  · rw [abs_of_nonneg h, min_eq_left (Real.antitone_arccos (by linarith))]
  · rw [abs_of_nonpos h, min_eq_right (Real.antitone_arccos (by linarith))]

/-! ### Concatenation and comparison -/

/-- A matrix applied to four coordinates. -/
def Homog.act (M : Homog) (v : Vec3 ℝ × ℝ) : Vec3 ℝ × ℝ := (M.top.vec v.1 + v.2 • M.top.t, M.row.dot v.1 + M.w * v.2)

theorem act_mul (A B : Homog) (v : Vec3 ℝ × ℝ) : (A.mul B).act v = A.act (B.act v) := by
  simp only [Homog.act, Homog.mul, Affine.vec, Affine.c0, Affine.c1, Affine.c2, Vec3.dot]
  refine Prod.ext ?_ ?_
  · ext <;> simp <;> ring
  · simp; ring

/-- The concatenation of matrices applies them one after the other, the last one first. -/
theorem concatenate (ms : List Homog) (v : Vec3 ℝ × ℝ) : (concatenateMatrices ms).act v = ms.foldr Homog.act v := by
  suffices ∀ (A : Homog), (ms.foldl Homog.mul A).act v = A.act (ms.foldr Homog.act v) by
    unfold concatenateMatrices
    rw [this]
    refine Prod.ext ?_ ?_
    · ext <;> simp [Homog.one, Homog.affine, Homog.act, Affine.one, Affine.vec, Vec3.dot]
    · simp [Homog.one, Homog.affine, Homog.act, Vec3.dot]
  induction ms with
  | nil => intro A; rfl
  | cons m ms ih => intro A; rw [List.foldl_cons, List.foldr_cons, ih, act_mul]

/-- Multiples of a matrix are the same transformation. -/
theorem same_multiple (M : Homog) {k : ℝ} (hk : k ≠ 0) :
    isSameTransform ⟨⟨k • M.top.r0, k • M.top.r1, k • M.top.r2, k • M.top.t⟩, k • M.row, k * M.w⟩ M := by
  have h : ∀ a : ℝ, isclose (k * a / (k * M.w)) (a / M.w) := by
    intro a
    rw [mul_div_mul_left _ _ hk]
    unfold isclose
    rw [sub_self, abs_zero]
    positivity
  unfold isSameTransform Homog.entries
  simp only [Vec3.smul_x, Vec3.smul_y, Vec3.smul_z]
  repeat (first | exact List.Forall₂.nil | refine List.Forall₂.cons (h _) ?_)

/-- The comparison is not exact and not symmetric: a shift by 1.00001e-8 is the same as none, but none is not the same as
that shift. -/
theorem same_not_symmetric : ∃ A B : Homog, isSameTransform A B ∧ ¬ isSameTransform B A ∧ A ≠ B := by
  refine ⟨.affine Affine.one, .affine (translationMatrix ⟨1.00001e-8, 0, 0⟩), ?_, ?_, ?_⟩
  · simp [isSameTransform, Homog.entries, Homog.affine, Affine.one, translationMatrix, isclose]
    norm_num
  · simp [isSameTransform, Homog.entries, Homog.affine, Affine.one, translationMatrix, isclose]
    norm_num
  · intro h
    have := congrArg (fun M => M.top.t.x) h
    norm_num [Homog.affine, Affine.one, translationMatrix] at this

/-! ### Reading parameters back from a matrix -/

/-- An eigenvector for the eigenvalue 1 of an affine matrix, with a last coordinate to divide by. -/
def Fixed (M : Affine ℝ) (q : Vec3 ℝ × ℝ) : Prop := q.2 ≠ 0 ∧ (Homog.affine M).act q = q

theorem fixed_outer {f c : ℝ} {a b : Vec3 ℝ} {q : Vec3 ℝ × ℝ} (ha : a ≠ 0) (h : Fixed (outerRows 1 f a b ((f * c) • a)) q) :
    f * ((1 / q.2) • q.1).dot b = f * c := by
  obtain ⟨hq, h⟩ := h
  have h1 := congrArg Prod.fst h
  simp only [Homog.act, Homog.affine] at h1
  rw [vec_outer] at h1
  simp only [outerRows, Vec3.ext_iff, Vec3.sub_x, Vec3.sub_y, Vec3.sub_z, Vec3.smul_x, Vec3.smul_y, Vec3.smul_z, Vec3.add_x,
    Vec3.add_y, Vec3.add_z] at h1
  have key : ∀ s : ℝ, s ≠ 0 → -(f * b.dot q.1) * s + q.2 * (f * c * s) = 0 → f * ((1 / q.2) • q.1).dot b = f * c := by
    intro s hs e
    have : f * b.dot q.1 = q.2 * (f * c) := by
      apply mul_right_cancel₀ hs
      linear_combination -e
    have e2 : ((1 / q.2) • q.1).dot b = b.dot q.1 / q.2 := by simp [Vec3.dot]; ring
    rw [e2, mul_div_assoc', this]
    field_simp
  by_cases hx : a.x = 0
  · by_cases hy : a.y = 0
    · by_cases hz : a.z = 0
      · exact absurd (Vec3.ext hx hy hz) ha
      · exact key _ hz (by linear_combination h1.2.2)
    · exact key _ hy (by linear_combination h1.2.1)
  · exact key _ hx (by linear_combination h1.1)

theorem unit_ne_zero {u : Vec3 ℝ} (h : u.dot u = 1) : u ≠ 0 := by
  intro e
  rw [e] at h
  simp [Vec3.dot] at h

/-- The mirror matrix can be built again from the point and the normal read from it. -/
theorem reflection_back {point normal v : Vec3 ℝ} {q : Vec3 ℝ × ℝ} (hn : normal ≠ 0) (hv : v.dot v = 1)
    (h1 : (reflectionMatrix point normal).vec v = -v) (h2 : Fixed (reflectionMatrix point normal) q) :
    reflectionMatrix (reflectionFromMatrix v q).1 (reflectionFromMatrix v q).2 = reflectionMatrix point normal := by
  obtain ⟨-, -, -, hu⟩ := unit_of hn
  simp only [reflectionMatrix, reflectionFromMatrix, Pose.unitVector_of_unit hv] at *
  generalize unitVector normal = u at *
  have h2 := fixed_outer (unit_ne_zero hu) h2
  rw [vec_outer] at h1
  have e : v = (u.dot v) • u := by
    simp only [Vec3.ext_iff, Vec3.sub_x, Vec3.sub_y, Vec3.sub_z, Vec3.smul_x, Vec3.smul_y, Vec3.smul_z, Vec3.neg_x, Vec3.neg_y,
      Vec3.neg_z] at h1
    ext <;> simp <;> linarith [h1.1, h1.2.1, h1.2.2]
  generalize u.dot v = s at *
  subst e
  have hs : s ^ 2 = 1 := by
    simp only [Vec3.dot, Vec3.smul_x, Vec3.smul_y, Vec3.smul_z] at hv hu
    linear_combination hv - s ^ 2 * hu
  have hd : ((1 / q.2) • q.1).dot (s • u) = s * point.dot u := by
    have : ((1 / q.2) • q.1).dot (s • u) = s * ((1 / q.2) • q.1).dot u := by simp [Vec3.dot]; ring
    rw [this]; linear_combination s / 2 * h2
  rw [hd]
  ext <;> simp [outerRows] <;> grind

/-- The same for a scaling along a direction. -/
theorem scale_back {f : ℝ} {o d v : Vec3 ℝ} {q : Vec3 ℝ × ℝ} (hd : d ≠ 0) (hv : v ≠ 0)
    (h1 : (scaleMatrix f (some o) (some d)).vec v = f • v) (h2 : Fixed (scaleMatrix f (some o) (some d)) q) :
    let s := scaleFromMatrix (scaleMatrix f (some o) (some d)) (some v) q
    s.1 = f ∧ scaleMatrix s.1 (some s.2.1) s.2.2 = scaleMatrix f (some o) (some d) := by
  obtain ⟨-, -, -, hu⟩ := unit_of hd
  obtain ⟨c, hc, ev, hw⟩ := unit_of hv
  simp only [scaleMatrix, scaleFromMatrix, Pose.unitVector_of_unit hw] at *
  generalize unitVector d = u at *
  generalize unitVector v = w at *
  have h2 := fixed_outer (unit_ne_zero hu) h2
  rw [vec_outer] at h1
  have ef : (outerRows 1 (1 - f) u u (((1 - f) * o.dot u) • u)).r0.x + (outerRows 1 (1 - f) u u (((1 - f) * o.dot u) • u)).r1.y +
      (outerRows 1 (1 - f) u u (((1 - f) * o.dot u) • u)).r2.z - 2 = f := by
    simp only [outerRows]
    simp only [Vec3.dot] at hu
    linear_combination (f - 1) * hu
  refine ⟨ef, ?_⟩
  rw [ef]
  by_cases hf : f = 1
  · subst hf
    ext <;> simp [outerRows]
  have hf' : 1 - f ≠ 0 := sub_ne_zero.2 (Ne.symm hf)
  have e : w = (u.dot w) • u := by
    rw [ev] at h1
    have : u.dot (c • w) = c * u.dot w := by simp [Vec3.dot]; ring
    rw [this] at h1
    have k : ∀ x y : ℝ, 1 * (c * x) - (1 - f) * (c * u.dot w) * y = f * (c * x) → x = u.dot w * y := by
      intro x y h
      apply mul_left_cancel₀ (mul_ne_zero hf' hc.ne')
      linear_combination h
    simp only [Vec3.ext_iff, Vec3.sub_x, Vec3.sub_y, Vec3.sub_z, Vec3.smul_x, Vec3.smul_y, Vec3.smul_z] at h1
    ext
    · exact k _ _ h1.1
    · exact k _ _ h1.2.1
    · exact k _ _ h1.2.2
  clear ev h1 hv ef
  generalize u.dot w = s at *
  subst e
  have hs : s ^ 2 = 1 := by
    simp only [Vec3.dot, Vec3.smul_x, Vec3.smul_y, Vec3.smul_z] at hw hu
    linear_combination hw - s ^ 2 * hu
  have hd : (1 - f) * ((1 / q.2) • q.1).dot (s • u) = (1 - f) * (s * o.dot u) := by
    have : ((1 / q.2) • q.1).dot (s • u) = s * ((1 / q.2) • q.1).dot u := by simp [Vec3.dot]; ring
    rw [this]; linear_combination s * h2
  rw [hd]
  ext <;> simp [outerRows] <;> grind

/-- And for a uniform scaling, for which no eigenvector was found for the trace less two. -/
theorem scale_back_uniform {f : ℝ} {o : Vec3 ℝ} {q : Vec3 ℝ × ℝ} (h2 : Fixed (scaleMatrix f (some o) none) q) :
    let s := scaleFromMatrix (scaleMatrix f (some o) none) none q
    s.1 = f ∧ s.2.2 = none ∧ scaleMatrix s.1 (some s.2.1) s.2.2 = scaleMatrix f (some o) none := by
  obtain ⟨hq, h2⟩ := h2
  have h2 := congrArg Prod.fst h2
  simp only [Homog.act, Homog.affine, scaleMatrix, Affine.vec, Vec3.dot, Vec3.ext_iff, Vec3.smul_x, Vec3.smul_y, Vec3.smul_z,
    Vec3.add_x, Vec3.add_y, Vec3.add_z] at h2
  simp only [scaleMatrix, scaleFromMatrix]
  have ef : (f + f + f - 2 + 2) / 3 = f := by ring
  rw [ef]
  refine ⟨rfl, trivial, ?_⟩
  have k : ∀ x y : ℝ, f * x + q.2 * ((1 - f) * y) = x → (1 - f) * (1 / q.2 * x) = (1 - f) * y := by
    intro x y h
    field_simp
    linear_combination -h
  ext <;> simp only [Vec3.smul_x, Vec3.smul_y, Vec3.smul_z]
  · exact k _ _ (by linear_combination h2.1)
  · exact k _ _ (by linear_combination h2.2.1)
  · exact k _ _ (by linear_combination h2.2.2)

/-- The transposed 3 x 3 part. -/
def transposed (m : Affine ℝ) : Affine ℝ := ⟨m.c0, m.c1, m.c2, 0⟩

/-- The same for a parallel projection. -/
theorem projection_back {point normal d d' n' : Vec3 ℝ} {q : Vec3 ℝ × ℝ} (hn : normal ≠ 0) (hd : normal.dot d ≠ 0)
    (hd' : d' ≠ 0) (hn' : n' ≠ 0) (hq : Fixed (projectionMatrix point normal (some d) none false).top q)
    (h1 : (projectionMatrix point normal (some d) none false).top.vec d' = 0)
    (h2 : (transposed (projectionMatrix point normal (some d) none false).top).vec n' = 0) :
    let s := projectionFromMatrix q d' n'
    projectionMatrix s.1 s.2.1 (some s.2.2) none false = projectionMatrix point normal (some d) none false := by
  obtain ⟨cn, hcn, en, hu⟩ := unit_of hn
  obtain ⟨cd, hcd, ed, hw⟩ := unit_of hd'
  obtain ⟨ck, hck, ek, hk⟩ := unit_of hn'
  have hdu : d.dot (unitVector normal) ≠ 0 := by
    intro h
    apply hd
    rw [en]
    have : (cn • unitVector normal).dot d = cn * d.dot (unitVector normal) := by simp [Vec3.dot]; ring
    rw [this, h, mul_zero]
  simp only [projectionMatrix, projectionFromMatrix, Homog.affine, Pose.unitVector_of_unit hk] at *
  generalize unitVector normal = u at *
  generalize unitVector d' = w at *
  generalize unitVector n' = k at *
  have hd0 : d ≠ 0 := by rintro rfl; simp [Vec3.dot] at hdu
  have hS : d.dot u * (1 / d.dot u) = 1 := by field_simp
  have hq' : ((1 / q.2) • q.1).dot u = point.dot u := by
    have : ((point.dot u / d.dot u) • d) = (1 / d.dot u * point.dot u) • d := by congr 1; ring
    rw [this] at hq
    have := fixed_outer hd0 hq
    have := congrArg (d.dot u * ·) this
    rw [← mul_assoc, hS, one_mul, ← mul_assoc, hS, one_mul] at this
    exact this
  have e1 : w = (1 / d.dot u * u.dot w) • d := by
    rw [vec_outer, ed] at h1
    have : u.dot (cd • w) = cd * u.dot w := by simp [Vec3.dot]; ring
    rw [this] at h1
    simp only [Vec3.ext_iff, Vec3.sub_x, Vec3.sub_y, Vec3.sub_z, Vec3.smul_x, Vec3.smul_y, Vec3.smul_z, Vec3.zero_x, Vec3.zero_y,
      Vec3.zero_z] at h1
    ext <;> apply mul_left_cancel₀ hcd.ne' <;> simp only [Vec3.smul_x, Vec3.smul_y, Vec3.smul_z]
    · linear_combination h1.1
    · linear_combination h1.2.1
    · linear_combination h1.2.2
  have e2 : k = (1 / d.dot u * d.dot k) • u := by
    rw [ek] at h2
    simp only [transposed, outerRows, Affine.c0, Affine.c1, Affine.c2, Affine.vec, Vec3.ext_iff, Vec3.dot, Vec3.smul_x, Vec3.smul_y,
      Vec3.smul_z, Vec3.zero_x, Vec3.zero_y, Vec3.zero_z] at h2
    ext <;> apply mul_left_cancel₀ hck.ne' <;> simp only [Vec3.smul_x, Vec3.smul_y, Vec3.smul_z, Vec3.dot]
    · linear_combination h2.1
    · linear_combination h2.2.1
    · linear_combination h2.2.2
  generalize hA : 1 / d.dot u * u.dot w = A at e1
  generalize hB : 1 / d.dot u * d.dot k = B at e2
  have hA0 : A ≠ 0 := by rintro rfl; rw [e1] at hw; simp [Vec3.dot] at hw
  have hB0 : B ≠ 0 := by rintro rfl; rw [e2] at hk; simp [Vec3.dot] at hk
  have hs : w.dot k = A * B * d.dot u := by rw [e1, e2]; simp [Vec3.dot]; ring
  have hp : ((1 / q.2) • q.1).dot k = B * point.dot u := by
    have : ((1 / q.2) • q.1).dot k = B * ((1 / q.2) • q.1).dot u := by rw [e2]; simp [Vec3.dot]; ring
    rw [this, hq']
  rw [hs, hp]
  clear hA hB hs hp hq h1 h2 ed ek hq' hS
  generalize d.dot u = S at *
  generalize point.dot u = c at *
  rw [e1, e2]
  ext <;> simp [outerRows] <;> field_simp

/-- The image of a vector under the perspective matrix, with and without pseudo. -/
theorem act_perspective (point normal p x : Vec3 ℝ) (w : ℝ) (d : Option (Vec3 ℝ)) (pseudo : Bool) :
    let u := unitVector normal
    let e := u.dot x - point.dot u * w
    (projectionMatrix point normal d (some p) pseudo).act (x, w) =
      ((p - point).dot u • x - e • (if pseudo then p + u else p), (p - point).dot u * w - e) := by
  simp only [projectionMatrix, Homog.act]
  generalize unitVector normal = u
  cases pseudo
  · refine Prod.ext ?_ ?_
    · ext <;> simp [outerRows, Affine.vec, Vec3.dot] <;> ring
    · simp [Vec3.dot]; ring
  · refine Prod.ext ?_ ?_
    · ext <;> simp [outerRows, Affine.vec, Vec3.dot] <;> ring
    · simp [Vec3.dot]; ring

/-- A perspective projection onto a plane not through the origin is read back, if the eigenvector is one of those that lie in
the plane, which without pseudo are all those with an eigenvalue other than 0. -/
theorem perspective_back {point normal p : Vec3 ℝ} {q : Vec3 ℝ × ℝ} {mu : ℝ} (hn : normal ≠ 0) (h0 : ¬ OnPlane point normal 0)
    (pseudo : Bool) (hmu : mu ≠ 0) (hm : pseudo = true → mu ≠ -1) (hq : q.2 ≠ 0)
    (h : (projectionMatrix point normal none (some p) pseudo).act q = (mu • q.1, mu * q.2)) :
    ∃ s, perspectiveFromMatrix (projectionMatrix point normal none (some p) pseudo) q pseudo = some s ∧ s.2.2 = p ∧
      OnPlane point normal s.1 ∧ projectionMatrix s.1 s.2.1 none (some s.2.2) pseudo = projectionMatrix point normal none (some p) pseudo := by
  obtain ⟨c, hc, en, hu⟩ := unit_of hn
  have h' := act_perspective point normal p q.1 q.2 none pseudo
  dsimp only at h'
  rw [show (q.1, q.2) = q from rfl, h] at h'
  have hc0 : point.dot (unitVector normal) ≠ 0 := by
    intro e
    apply h0
    rw [en, OnPlane]
    have : (c • unitVector normal).dot (0 - point) = -(c * point.dot (unitVector normal)) := by simp [Vec3.dot]; ring
    rw [this, e]; simp
  have hp : ((1 / q.2) • q.1).dot (unitVector normal) = point.dot (unitVector normal) := by
    have h1 := congrArg Prod.fst h'
    have h2 := congrArg Prod.snd h'
    dsimp only at h1 h2
    generalize unitVector normal = u at *
    have e0 : ((1 / q.2) • q.1).dot u = u.dot q.1 / q.2 := by simp [Vec3.dot]; ring
    rw [e0]
    suffices u.dot q.1 - point.dot u * q.2 = 0 by field_simp; linear_combination this
    have hk : (p - point).dot u = p.dot u - point.dot u := by simp [Vec3.dot]; ring
    rw [hk] at h1 h2
    have hdot : mu * u.dot q.1 = (p.dot u - point.dot u) * u.dot q.1 - (u.dot q.1 - point.dot u * q.2) *
        (p.dot u + if pseudo then 1 else 0) := by
      have := congrArg (u.dot ·) h1
      cases pseudo
      · simp only [Vec3.dot, Vec3.sub_x, Vec3.sub_y, Vec3.sub_z, Vec3.smul_x, Vec3.smul_y, Vec3.smul_z, Bool.false_eq_true, if_false] at this ⊢
        linear_combination this
      · simp only [Vec3.dot, Vec3.sub_x, Vec3.sub_y, Vec3.sub_z, Vec3.smul_x, Vec3.smul_y, Vec3.smul_z, if_true, Vec3.add_x, Vec3.add_y,
          Vec3.add_z] at this hu ⊢
        linear_combination this - (u.x * q.1.x + u.y * q.1.y + u.z * q.1.z -
          (point.x * u.x + point.y * u.y + point.z * u.z) * q.2) * hu
    generalize u.dot q.1 = a at *
    generalize p.dot u = b at *
    generalize point.dot u = e at *
    have key : (mu + if pseudo then 1 else 0) * (a - e * q.2) = 0 := by
      linear_combination hdot - e * h2
    refine (mul_eq_zero.1 key).resolve_left ?_
    cases pseudo
    · simpa using hmu
    · have := hm rfl
      intro e
      apply this
      simp only [if_true] at e
      linarith
  have hrow : -(projectionMatrix point normal none (some p) pseudo).row = unitVector normal := by
    simp only [projectionMatrix]
    ext <;> simp
  have ht : (projectionMatrix point normal none (some p) pseudo).top.t =
      point.dot (unitVector normal) • (if pseudo then p + unitVector normal else p) := by
    cases pseudo <;> simp [projectionMatrix, outerRows]
  unfold perspectiveFromMatrix
  dsimp only
  rw [hrow, hp, if_neg hc0, ht]
  refine ⟨_, rfl, ?_⟩
  have hper : (if pseudo then (1 / point.dot (unitVector normal)) • (point.dot (unitVector normal) •
      (if pseudo then p + unitVector normal else p)) - unitVector normal else (1 / point.dot (unitVector normal)) •
        (point.dot (unitVector normal) • (if pseudo then p + unitVector normal else p))) = p := by
    cases pseudo
    · ext <;> simp <;> field_simp
    · ext <;> simp <;> field_simp <;> ring
  dsimp only
  rw [hper]
  refine ⟨rfl, ?_, ?_⟩
  · have : normal.dot ((1 / q.2) • q.1 - point) = c * (((1 / q.2) • q.1).dot (unitVector normal) - point.dot (unitVector normal)) := by
      conv_lhs => rw [en]
      simp [Vec3.dot]; ring
    rw [OnPlane, this, hp]; ring
  · have hk : (p - (1 / q.2) • q.1).dot (unitVector normal) = (p - point).dot (unitVector normal) := by
      have e : ∀ a b u : Vec3 ℝ, (a - b).dot u = a.dot u - b.dot u := by intro a b u; simp [Vec3.dot]; ring
      rw [e, e, hp]
    simp only [projectionMatrix, Pose.unitVector_of_unit hu, hp, hk]

/-- For a plane through the origin nothing comes back. -/
theorem perspective_lost {point normal p : Vec3 ℝ} {q : Vec3 ℝ × ℝ} (hq : OnPlane point normal ((1 / q.2) • q.1))
    (h0 : OnPlane point normal 0) (pseudo : Bool) :
    perspectiveFromMatrix (projectionMatrix point normal none (some p) pseudo) q pseudo = none := by
  have hrow : -(projectionMatrix point normal none (some p) pseudo).row = unitVector normal := by
    simp only [projectionMatrix]
    ext <;> simp
  unfold perspectiveFromMatrix
  dsimp only
  rw [hrow, if_pos]
  have : ((1 / q.2) • q.1).dot (unitVector normal) = 1 / Real.sqrt (normal.dot normal) *
      (normal.dot ((1 / q.2) • q.1 - point) - normal.dot (0 - point)) := by
    simp [unitVector, Vec3.dot]; ring
  rw [this, hq, h0]; simp

/-- With the perspective point one unit in front of the plane a perspective matrix has the eigenvalue 1, is taken for a
parallel projection, and refused. -/
theorem perspective_refused {point normal p : Vec3 ℝ} (hn : normal.dot normal = 1) (h1 : normal.dot (p - point) = 1)
    (h0 : 1e-8 ≤ |normal.dot point|) : projectionKind (projectionMatrix point normal none (some p) false) false = .error .valueError := by
  have hk : (p - point).dot normal = 1 := by rw [← h1]; simp [Vec3.dot]; ring
  unfold projectionKind
  rw [if_pos, if_neg]
  · rintro ⟨mu, hmu, v, hv, e⟩
    simp only [projectionMatrix, Pose.unitVector_of_unit hn, hk, Bool.false_eq_true, if_false] at e
    rw [vec_outer] at e
    have hx : ∀ a b : ℝ, 1 * a - 1 * normal.dot v * b = mu * a → (1 - mu) * a = normal.dot v * b := fun a b h => by linear_combination h
    simp only [Vec3.ext_iff, Vec3.sub_x, Vec3.sub_y, Vec3.sub_z, Vec3.smul_x, Vec3.smul_y, Vec3.smul_z] at e
    have e1 := hx _ _ e.1
    have e2 := hx _ _ e.2.1
    have e3 := hx _ _ e.2.2
    have hd : normal.dot v * (mu + normal.dot point) = 0 := by
      simp only [Vec3.dot, Vec3.sub_x, Vec3.sub_y, Vec3.sub_z] at e1 e2 e3 h1 ⊢
      linear_combination -normal.x * e1 - normal.y * e2 - normal.z * e3 - (normal.x * v.x + normal.y * v.y + normal.z * v.z) * h1
    have hmu1 : 1 - mu ≠ 0 := by
      have := (abs_lt.1 hmu).2
      norm_num at this ⊢
      intro h; linarith
    rcases mul_eq_zero.1 hd with h | h
    · rw [h] at e1 e2 e3
      simp only [zero_mul, mul_eq_zero, hmu1, false_or] at e1 e2 e3
      exact hv (Vec3.ext e1 e2 e3)
    · have : normal.dot point = -mu := by linarith
      rw [this, abs_neg] at h0
      linarith
  · refine ⟨rfl, 1, by norm_num, point, 1, by simp, ?_⟩
    have := act_perspective point normal p point 1 none false
    dsimp only at this
    rw [Pose.unitVector_of_unit hn, hk] at this
    have h := Prod.ext_iff.1 this
    simp only [Homog.act] at h
    have e0 : normal.dot point - point.dot normal * 1 = 0 := by simp [Vec3.dot]; ring
    rw [e0] at h
    refine ⟨h.1.trans ?_, h.2.trans ?_⟩
    · ext <;> simp
    · simp

/-- A shear with a tangent other than zero is read back, given the normal and a fixed point. -/
theorem shear_back {angle : ℝ} {d point n n' : Vec3 ℝ} {q : Vec3 ℝ × ℝ} {M : Affine ℝ} (hd : d ≠ 0) (hn : n ≠ 0)
    (h : shearMatrix angle d point n = .ok M) (ha : Real.tan angle ≠ 0) (hs : n' = unitVector n ∨ n' = -unitVector n) (hq : Fixed M q) :
    ∃ s, shearFromMatrix M n' q = some s ∧ 0 < s.1 ∧ s.1 < Real.pi / 2 ∧ shearMatrix s.1 s.2.1 s.2.2.1 s.2.2.2 = .ok M := by
  obtain ⟨-, -, -, hu⟩ := unit_of hn
  obtain ⟨-, -, -, hw⟩ := unit_of hd
  unfold shearMatrix at h
  dsimp only at h
  split at h
  · simp at h
  rename_i hsmall
  simp only [Except.ok.injEq] at h
  subst h
  generalize unitVector n = u at *
  generalize unitVector d = w at *
  generalize Real.tan angle = T at *
  obtain ⟨σ, hσ, rfl⟩ : ∃ σ : ℝ, σ ^ 2 = 1 ∧ n' = σ • u := by
    rcases hs with rfl | rfl
    · exact ⟨1, by norm_num, by ext <;> simp⟩
    · exact ⟨-1, by norm_num, by ext <;> simp⟩
  have hdir : (outerRows 1 (-T) w u ((-T * point.dot u) • w)).vec (σ • u) - σ • u = (T * σ) • w := by
    rw [vec_outer]
    have : u.dot (σ • u) = σ := by
      simp only [Vec3.dot, Vec3.smul_x, Vec3.smul_y, Vec3.smul_z] at hu ⊢
      linear_combination σ * hu
    rw [this]
    ext <;> simp <;> ring
  have hang : Real.sqrt (((T * σ) • w).dot ((T * σ) • w)) = |T| := by
    have : ((T * σ) • w).dot ((T * σ) • w) = T ^ 2 := by
      simp only [Vec3.dot, Vec3.smul_x, Vec3.smul_y, Vec3.smul_z] at hw ⊢
      linear_combination T ^ 2 * σ ^ 2 * hw + T ^ 2 * hσ
    rw [this, Real.sqrt_sq_eq_abs]
  have hT : |T| ≠ 0 := abs_ne_zero.2 ha
  have hTT : |T| ^ 2 = T ^ 2 := sq_abs T
  have hpt : ((1 / q.2) • q.1).dot u = point.dot u := by
    have := fixed_outer (unit_ne_zero hw) hq
    exact mul_left_cancel₀ (neg_ne_zero.2 ha) this
  unfold shearFromMatrix
  dsimp only
  rw [hdir, hang, if_neg hT]
  refine ⟨_, rfl, ?_, Real.arctan_lt_pi_div_two _, ?_⟩
  · have := Real.arctan_strictMono (lt_of_le_of_ne (abs_nonneg T) (Ne.symm hT))
    rwa [Real.arctan_zero] at this
  · have hj : |T| * (1 / |T|) = 1 := by field_simp
    generalize 1 / |T| = j at *
    have h1 : (j • ((T * σ) • w)).dot (j • ((T * σ) • w)) = 1 := by
      have e : j ^ 2 * T ^ 2 = 1 := by rw [← hTT]; linear_combination (|T| * j + 1) * hj
      simp only [Vec3.dot, Vec3.smul_x, Vec3.smul_y, Vec3.smul_z] at hw ⊢
      linear_combination j ^ 2 * T ^ 2 * σ ^ 2 * hw + j ^ 2 * T ^ 2 * hσ + e
    have h2 : (σ • u).dot (σ • u) = 1 := by
      simp only [Vec3.dot, Vec3.smul_x, Vec3.smul_y, Vec3.smul_z] at hu ⊢
      linear_combination σ ^ 2 * hu + hσ
    unfold shearMatrix
    dsimp only
    rw [Pose.unitVector_of_unit h1, Pose.unitVector_of_unit h2, Real.tan_arctan, if_neg]
    · congr 1
      have hp2 : ((1 / q.2) • q.1).dot (σ • u) = σ * point.dot u := by
        rw [← hpt]; simp [Vec3.dot]; ring
      rw [hp2]
      generalize |T| = a at *
      ext <;> simp [outerRows] <;> grind
    · have : (σ • u).dot (j • ((T * σ) • w)) = (j * T) * u.dot w := by
        simp only [Vec3.dot, Vec3.smul_x, Vec3.smul_y, Vec3.smul_z]
        linear_combination j * T * (u.x * w.x + u.y * w.y + u.z * w.z) * hσ
      rw [this, abs_mul]
      have : |j * T| = 1 := by
        rw [abs_mul, ← abs_abs T, ← abs_mul, mul_comm, hj, abs_one]
      rw [this, one_mul]
      exact hsmall

/-- A shear by the angle zero gives nothing back. -/
theorem shear_lost {d point n n' : Vec3 ℝ} {q : Vec3 ℝ × ℝ} {M : Affine ℝ} (h : shearMatrix 0 d point n = .ok M) :
    shearFromMatrix M n' q = none := by
  unfold shearMatrix at h
  dsimp only at h
  split at h
  · simp at h
  simp only [Except.ok.injEq] at h
  subst h
  have e : ∀ a b t : Vec3 ℝ, (outerRows 1 (-Real.tan 0) a b t).vec n' - n' = 0 := by
    intro a b t; rw [vec_outer, Real.tan_zero]; ext <;> simp
  unfold shearFromMatrix
  dsimp only
  rw [e, if_pos (by simp [Vec3.dot])]

/-- With pseudo, the matrix also has the eigenvalue -1, with an eigenvector outside the plane. If that is the one taken, as the
code may do since it takes the last one not belonging to 0, another perspective point comes back. -/
theorem pseudo_mistaken : ∃ point normal p : Vec3 ℝ, ∃ q : Vec3 ℝ × ℝ, q.2 ≠ 0 ∧
    (projectionMatrix point normal none (some p) true).act q = ((-1 : ℝ) • q.1, -1 * q.2) ∧
    ∃ s, perspectiveFromMatrix (projectionMatrix point normal none (some p) true) q true = some s ∧ s.2.2 ≠ p := by
  have hu : unitVector (⟨0, 0, 1⟩ : Vec3 ℝ) = ⟨0, 0, 1⟩ := Pose.unitVector_of_unit (by norm_num [Vec3.dot])
  refine ⟨⟨0, 0, 1⟩, ⟨0, 0, 1⟩, ⟨0, 0, 3⟩, (⟨0, 0, 4⟩, 1), by norm_num, ?_, ?_⟩
  · rw [act_perspective]
    dsimp only
    rw [hu]
    refine Prod.ext ?_ ?_
    · ext <;> norm_num [Vec3.dot]
    · norm_num [Vec3.dot]
  · unfold perspectiveFromMatrix
    simp only [projectionMatrix, hu]
    rw [if_neg (by norm_num [Vec3.dot])]
    refine ⟨_, rfl, ?_⟩
    intro h
    have := congrArg Vec3.z h
    norm_num [Vec3.dot] at this

/-! ### Cases -/

theorem up_ne : (⟨0, 0, 1⟩ : Vec3 ℝ) ≠ 0 := unit_ne_zero (by norm_num [Vec3.dot])

theorem up_unit : unitVector (⟨0, 0, 1⟩ : Vec3 ℝ) = ⟨0, 0, 1⟩ := Pose.unitVector_of_unit (by norm_num [Vec3.dot])

/-- `mirror`: the mirror image of (1, 2, 5) in the plane z = 1. -/
example : MirrorImage ⟨0, 0, 1⟩ ⟨0, 0, 1⟩ ⟨1, 2, 5⟩ ((reflectionMatrix ⟨0, 0, 1⟩ ⟨0, 0, 1⟩).point ⟨1, 2, 5⟩) ∧
    (reflectionMatrix ⟨0, 0, 1⟩ ⟨0, 0, 1⟩).point ⟨1, 2, 5⟩ = ⟨1, 2, -3⟩ := by
  refine ⟨mirror up_ne _, ?_⟩
  simp only [reflectionMatrix, up_unit]
  rw [point_outer]
  ext <;> norm_num [Vec3.dot]

/-- `project_perspective`: (1, 0, 1) seen from (0, 0, 2) appears at (2, 0, 0) in the plane z = 0. -/
example : (projectionMatrix 0 ⟨0, 0, 1⟩ none (some ⟨0, 0, 2⟩) false).image ⟨1, 0, 1⟩ = ⟨2, 0, 0⟩ := by
  simp only [Homog.image, Homog.apply, projectionMatrix, up_unit, Bool.false_eq_true, if_false]
  rw [point_outer]
  ext <;> norm_num [Vec3.dot]

/-- `depth_reversed` and `depth_kept_partial`: viewing from above and from below the plane z = 0. -/
example : (0 : ℝ) < (⟨0, 0, 1⟩ : Vec3 ℝ).dot (⟨0, 0, 2⟩ - 0) ∧ (⟨0, 0, 1⟩ : Vec3 ℝ).dot (⟨0, 0, -2⟩ - 0) < 0 := by norm_num [Vec3.dot]

/-- `clip_pyramid`: an accepted view volume. -/
example : ∃ M, clipMatrix (-1) 1 (-1) 1 1 3 true = .ok M := by
  unfold clipMatrix
  rw [if_neg (by norm_num), if_pos rfl, if_neg (by norm_num [Rotations.eps])]
  exact ⟨_, rfl⟩

/-- `shear_extent`, `shear_volume_kept_partial`: a shear by 45 degrees along x, of the plane z = 0. -/
example : ∃ M, shearMatrix (Real.pi / 4) ⟨1, 0, 0⟩ 0 ⟨0, 0, 1⟩ = .ok M ∧ M.point ⟨0, 0, 2⟩ = ⟨2, 0, 2⟩ ∧ det3 M = 1 := by
  have hx : unitVector (⟨1, 0, 0⟩ : Vec3 ℝ) = ⟨1, 0, 0⟩ := Pose.unitVector_of_unit (by norm_num [Vec3.dot])
  have hok : ∃ M, shearMatrix (Real.pi / 4) ⟨1, 0, 0⟩ 0 ⟨0, 0, 1⟩ = .ok M := by
    unfold shearMatrix
    dsimp only
    rw [hx, up_unit, if_neg (by norm_num [Vec3.dot])]
    exact ⟨_, rfl⟩
  obtain ⟨M, hM⟩ := hok
  refine ⟨M, hM, ?_, shear_volume_kept_partial hM (by norm_num [Vec3.dot])⟩
  have := shear_moves hM ⟨0, 0, 2⟩
  rw [hx, up_unit, Real.tan_pi_div_four] at this
  simp only [Vec3.ext_iff, Vec3.sub_x, Vec3.sub_y, Vec3.sub_z, Vec3.smul_x, Vec3.smul_y, Vec3.smul_z, Vec3.dot, Vec3.zero_x, Vec3.zero_y,
    Vec3.zero_z] at this
  ext <;> simp only <;> linarith [this.1, this.2.1, this.2.2]

/-- `cell`: the cell with three right angles. -/
example : Real.sin (90 * (Real.pi / 180)) ≠ 0 ∧ ((Real.cos (90 * (Real.pi / 180)) * Real.cos (90 * (Real.pi / 180)) -
    Real.cos (90 * (Real.pi / 180))) / (Real.sin (90 * (Real.pi / 180)) * Real.sin (90 * (Real.pi / 180)))) ^ 2 ≤ 1 := by
  have : 90 * (Real.pi / 180) = Real.pi / 2 := by ring
  rw [this, Real.sin_pi_div_two, Real.cos_pi_div_two]
  norm_num

/-- `reflection_back`: eigenvectors of the mirror at z = 1. -/
example : (reflectionMatrix ⟨0, 0, 1⟩ ⟨0, 0, 1⟩).vec ⟨0, 0, -1⟩ = -⟨0, 0, -1⟩ ∧
    Fixed (reflectionMatrix ⟨0, 0, 1⟩ ⟨0, 0, 1⟩) (⟨2, 0, 1⟩, 1) := by
  simp only [reflectionMatrix, up_unit, Fixed, Homog.act, Homog.affine]
  rw [vec_outer, vec_outer]
  refine ⟨?_, by norm_num, ?_⟩
  · ext <;> norm_num [Vec3.dot]
  · refine Prod.ext ?_ ?_
    · ext <;> norm_num [Vec3.dot, outerRows]
    · norm_num [Vec3.dot]

/-- `scale_back`: eigenvectors of a scaling by 3 along z about (0, 0, 1). -/
example : (scaleMatrix 3 (some ⟨0, 0, 1⟩) (some ⟨0, 0, 1⟩)).vec ⟨0, 0, 2⟩ = (3 : ℝ) • ⟨0, 0, 2⟩ ∧
    Fixed (scaleMatrix 3 (some ⟨0, 0, 1⟩) (some ⟨0, 0, 1⟩)) (⟨4, 0, 2⟩, 2) := by
  simp only [scaleMatrix, up_unit, Fixed, Homog.act, Homog.affine]
  rw [vec_outer, vec_outer]
  refine ⟨?_, by norm_num, ?_⟩
  · ext <;> norm_num [Vec3.dot]
  · refine Prod.ext ?_ ?_
    · ext <;> norm_num [Vec3.dot, outerRows]
    · norm_num [Vec3.dot]

/-- `projection_back`: eigenvectors of the projection onto z = 1 along (1, 0, 1). -/
example : let M := (projectionMatrix ⟨0, 0, 1⟩ ⟨0, 0, 1⟩ (some ⟨1, 0, 1⟩) none false).top
    Fixed M (⟨4, 0, 2⟩, 2) ∧ M.vec ⟨1, 0, 1⟩ = 0 ∧ (transposed M).vec ⟨0, 0, 1⟩ = 0 := by
  simp only [projectionMatrix, up_unit, Fixed, Homog.act, Homog.affine]
  rw [vec_outer, vec_outer]
  refine ⟨⟨by norm_num, ?_⟩, ?_, ?_⟩
  · refine Prod.ext ?_ ?_
    · ext <;> norm_num [Vec3.dot, outerRows]
    · norm_num [Vec3.dot]
  · ext <;> norm_num [Vec3.dot]
  · ext <;> norm_num [Vec3.dot, outerRows, transposed, Affine.vec, Affine.c0, Affine.c1, Affine.c2]

/-- `perspective_back`: an eigenvector for the eigenvalue 2 of the projection onto z = 1 seen from (0, 0, 3). -/
example (pseudo : Bool) : (projectionMatrix ⟨0, 0, 1⟩ ⟨0, 0, 1⟩ none (some ⟨0, 0, 3⟩) pseudo).act (⟨4, 0, 2⟩, 2) =
    ((2 : ℝ) • ⟨4, 0, 2⟩, 2 * 2) := by
  rw [act_perspective]
  rw [up_unit]
  refine Prod.ext ?_ ?_
  · cases pseudo <;> ext <;> norm_num [Vec3.dot]
  · norm_num [Vec3.dot]

/-- `perspective_refused`: the projection onto z = 1 seen from (0, 0, 2). -/
example : projectionKind (projectionMatrix ⟨0, 0, 1⟩ ⟨0, 0, 1⟩ none (some ⟨0, 0, 2⟩) false) false = .error .valueError :=
  perspective_refused (by norm_num [Vec3.dot]) (by norm_num [Vec3.dot]) (by norm_num [Vec3.dot])

end
end PV.Matrices
