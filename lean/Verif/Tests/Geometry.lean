import Verif.Props.Geometry
import Verif.Props.Normals
import Verif.Model.Optics
import Verif.Model.Light

/-!
The project's own unit tests, run against the model: `/repo/tests/test_box.py`, `test_cylinder.py`,
`test_sphere.py`, `test_geometry_utils.py`, `test_light_utils.py`, `test_frensel_reflection.py`,
`test_frensel_refraction.py`. They say nothing about inputs in general; they check that the definitions of
the model are those of the code.
-/

namespace PV.Tests
noncomputable section
open PV

/-! ### test_box.py -/

local macro "box" : tactic => `(tactic| (norm_num [pyOnSurface, pyIsEntering, pyNormal, boxSurfaces, boxNormals, pyContains, epsZero, List.zipIdx, List.filter_cons, Vec3.dot, abs_lt, abs_div]))

theorem box_is_on_surface :
    pyOnSurface (.box ⟨1, 1, 1⟩) ⟨0.5, 0, 0⟩ = true ∧ pyOnSurface (.box ⟨1, 1, 1⟩) ⟨0, 0.5, 0⟩ = true ∧
    pyOnSurface (.box ⟨1, 1, 1⟩) ⟨0, 0, 0.5⟩ = true ∧ pyOnSurface (.box ⟨1, 1, 1⟩) ⟨-0.5, 0, 0⟩ = true ∧
    pyOnSurface (.box ⟨1, 1, 1⟩) ⟨0, -0.5, 0⟩ = true ∧ pyOnSurface (.box ⟨1, 1, 1⟩) ⟨0, 0, -0.5⟩ = true ∧
    pyOnSurface (.box ⟨1, 1, 1⟩) ⟨0, 0, 0⟩ = false ∧ pyOnSurface (.box ⟨1, 1, 1⟩) ⟨0.501, 0, 0⟩ = false := by
  refine ⟨?_, ?_, ?_, ?_, ?_, ?_, ?_, ?_⟩ <;> box

theorem box_is_on_surface_bad :
    pyOnSurface (.box ⟨1, 1, 0.02⟩) ⟨0.06608370507653762, 0.5, -0.007798573829629238⟩ = true ∧
    pyOnSurface (.box ⟨1, 3, 0.02⟩) ⟨-0.5, -0.2415708917159319, -0.008736363958583498⟩ = true := by
  constructor <;> box

theorem box_contains :
    pyContains (.box ⟨1, 1, 1⟩) ⟨0, 0, 0⟩ = true ∧ pyContains (.box ⟨1, 1, 1⟩) ⟨0, 0, 0.5⟩ = false ∧
    pyContains (.box ⟨1, 1, 1⟩) ⟨0, 0, 1⟩ = false := by
  refine ⟨?_, ?_, ?_⟩ <;> box

/-- The engine's intersections of the same ray. -/
theorem box_intersection :
    (kBox ⟨1, 1, 1⟩ ⟨-2, 0, 0⟩ ⟨1, 0, 0⟩).map (fun t => (⟨-2, 0, 0⟩ + t • ⟨1, 0, 0⟩ : Vec3 ℝ)) =
      [⟨-0.5, 0, 0⟩, ⟨0.5, 0, 0⟩] := by
  have h : ¬ (1 : ℝ) < tiny := by
    unfold tiny
    rw [not_lt, div_le_one (by positivity)]
    exact one_le_pow₀ (by norm_num)
  have h0 : (0 : ℝ) < tiny := by unfold tiny; positivity
  norm_num [kBox, kSlab, h, h0, epsZero, List.filter_cons]
  constructor <;> (ext <;> norm_num)

theorem box_normal :
    pyNormal (.box ⟨1, 1, 1⟩) ⟨0.5, 0, 0⟩ = .ok ⟨1, 0, 0⟩ ∧
    pyNormal (.box ⟨1, 1, 1⟩) ⟨0, 0.5, 0⟩ = .ok ⟨0, 1, 0⟩ ∧
    pyNormal (.box ⟨1, 1, 1⟩) ⟨0, 0, 0.5⟩ = .ok ⟨0, 0, 1⟩ ∧
    pyNormal (.box ⟨1, 1, 1⟩) ⟨-0.5, 0, 0⟩ = .ok ⟨-1, 0, 0⟩ ∧
    pyNormal (.box ⟨1, 1, 1⟩) ⟨0, -0.5, 0⟩ = .ok ⟨0, -1, 0⟩ ∧
    pyNormal (.box ⟨1, 1, 1⟩) ⟨0, 0, -0.5⟩ = .ok ⟨0, 0, -1⟩ := by
  refine ⟨?_, ?_, ?_, ?_, ?_, ?_⟩ <;> box

theorem box_is_entering :
    pyIsEntering (.box ⟨1, 1, 1⟩) ⟨0.5, 0, 0⟩ ⟨-1, 0, 0⟩ = .ok true ∧
    pyIsEntering (.box ⟨1, 1, 1⟩) ⟨0.5, 0, 0⟩ ⟨1, 0, 0⟩ = .ok false ∧
    pyIsEntering (.box ⟨1, 1, 1⟩) ⟨0, 0.5, 0⟩ ⟨0, -1, 0⟩ = .ok true ∧
    pyIsEntering (.box ⟨1, 1, 1⟩) ⟨0, 0.5, 0⟩ ⟨0, 1, 0⟩ = .ok false ∧
    pyIsEntering (.box ⟨1, 1, 1⟩) ⟨0, 0, 0.5⟩ ⟨0, 0, -1⟩ = .ok true ∧
    pyIsEntering (.box ⟨1, 1, 1⟩) ⟨0, 0, 0.5⟩ ⟨0, 0, 1⟩ = .ok false := by
  refine ⟨?_, ?_, ?_, ?_, ?_, ?_⟩ <;> box

/-! ### test_sphere.py -/

theorem sphere_is_on_surface :
    pyOnSurface (.sphere 1) ⟨0, 0, 1⟩ = true ∧ pyOnSurface (.sphere 1) ⟨0, 0, 0⟩ = false := by
  constructor <;> norm_num [pyOnSurface, Vec3.dot, epsZero]

theorem sphere_contains :
    pyContains (.sphere 1) ⟨0, 0, 2⟩ = false ∧ pyContains (.sphere 1) ⟨0, 0, 1⟩ = false ∧
    pyContains (.sphere 1) ⟨0, 0, 0⟩ = true := by
  have h : Real.sqrt 4 = 2 := by rw [show (4 : ℝ) = 2 ^ 2 by norm_num, Real.sqrt_sq (by norm_num)]
  refine ⟨?_, ?_, ?_⟩ <;> norm_num [pyContains, Vec3.dot, epsZero, h]

theorem sphere_intersection :
    (pySphere 1 ⟨-2, 0, 0⟩ ⟨1, 0, 0⟩).map (fun t => (⟨-2, 0, 0⟩ + t • ⟨1, 0, 0⟩ : Vec3 ℝ)) =
      [⟨-1, 0, 0⟩, ⟨1, 0, 0⟩] := by
  have h : Real.sqrt 4 = 2 := by rw [show (4 : ℝ) = 2 ^ 2 by norm_num, Real.sqrt_sq (by norm_num)]
  norm_num [pySphere, Vec3.dot, h, sortedBy, List.insertionSort, List.orderedInsert, List.filter_cons]
  constructor <;> (ext <;> norm_num)

theorem sphere_normal : pyNormal (.sphere 1) ⟨0, 0, 1⟩ = .ok ⟨0, 0, 1⟩ := by
  norm_num [pyNormal, Vec3.dot]

theorem sphere_is_entering :
    pyIsEntering (.sphere 1) ⟨-1, 0, 0⟩ ⟨1, 0, 0⟩ = .ok true ∧
    pyIsEntering (.sphere 1) ⟨-1, 0, 0⟩ ⟨-1, 0, 0⟩ = .ok false := by
  constructor <;> norm_num [pyIsEntering, pyNormal, pyOnSurface, Vec3.dot, epsZero]

/-! ### test_cylinder.py -/

/-- `norm` of the tests, `/repo/pvtrace/geometry/utils.py:395-396`. -/
def unit (v : Vec3 ℝ) : Vec3 ℝ := (1 / Real.sqrt (v.dot v)) • v

theorem cylinder_smooth {p : Vec3 ℝ} (h : Geometry.Smooth epsZero (.cylinder 1 1) p) :
    pyOnSurface (.cylinder 1 1) p = true :=
  Geometry.on_surface_partial ⟨by norm_num, by norm_num⟩ h

/-- From a point above the cylinder or beside it, the test ray meets nothing near. -/
theorem cylinder_off {p : Vec3 ℝ} (h : ∀ t : ℝ, 0 ≤ t → t < 1e-12 → ∀ q : Vec3 ℝ, q = p + t • ⟨1 / Real.sqrt 3, 1 / Real.sqrt 3, 1 / Real.sqrt 3⟩ →
      ¬ Geometry.OnSide 1 1 q ∧ ¬ Geometry.OnCapInner 1 1 q) :
    pyOnSurface (.cylinder 1 1) p = false := by
  unfold pyOnSurface
  dsimp only
  cases hL : rayZCylinder 1 1 p ⟨1 / Real.sqrt 3, 1 / Real.sqrt 3, 1 / Real.sqrt 3⟩ with
  | nil => rfl
  | cons t ts =>
    have hm : t ∈ rayZCylinder 1 1 p ⟨1 / Real.sqrt 3, 1 / Real.sqrt 3, 1 / Real.sqrt 3⟩ := by
      rw [hL]; exact List.mem_cons_self ..
    rw [Geometry.mem_rayZCylinder (by norm_num) (by norm_num)] at hm
    obtain ⟨h0, h1⟩ := hm
    rw [decide_eq_false_iff_not]
    intro hlt
    rw [abs_of_nonneg h0] at hlt
    have hlt : t < 1e-12 := lt_of_lt_of_le hlt (by norm_num [epsZero])
    have := h t h0 hlt _ rfl
    rcases h1 with ⟨-, h1⟩ | ⟨-, h1⟩
    · exact this.1 h1
    · exact this.2 h1

theorem cylinder_is_on_surface :
    pyOnSurface (.cylinder 1 1) ⟨0, 0, 0.5⟩ = true ∧ pyOnSurface (.cylinder 1 1) ⟨0, 0, -0.5⟩ = true ∧
    pyOnSurface (.cylinder 1 1) ⟨0, 1, 0⟩ = true ∧ pyOnSurface (.cylinder 1 1) ⟨-1, 0, 0⟩ = true ∧
    pyOnSurface (.cylinder 1 1) ⟨0, 0, 0.6⟩ = false ∧ pyOnSurface (.cylinder 1 1) ⟨0, 1.1, 0⟩ = false := by
  have hk : 0 < 1 / Real.sqrt 3 := by positivity
  refine ⟨cylinder_smooth ?_, cylinder_smooth ?_, cylinder_smooth ?_, cylinder_smooth ?_, cylinder_off ?_,
    cylinder_off ?_⟩
  · norm_num [Geometry.Smooth, epsZero]
  · norm_num [Geometry.Smooth, epsZero]
  · norm_num [Geometry.Smooth, epsZero]
  · norm_num [Geometry.Smooth, epsZero]
  · rintro t h0 h1 q rfl
    have : 0 ≤ t * (1 / Real.sqrt 3) := by positivity
    simp only [Geometry.OnSide, Geometry.OnCapInner, Vec3.add_x, Vec3.add_y, Vec3.add_z, Vec3.smul_x, Vec3.smul_y, Vec3.smul_z]
    generalize t * (1 / Real.sqrt 3) = a at *
    rw [abs_of_nonneg (by linarith)]
    constructor <;> rintro ⟨-, h⟩ <;> linarith
  · rintro t h0 h1 q rfl
    have : 0 ≤ t * (1 / Real.sqrt 3) := by positivity
    simp only [Geometry.OnSide, Geometry.OnCapInner, Vec3.add_x, Vec3.add_y, Vec3.add_z, Vec3.smul_x, Vec3.smul_y, Vec3.smul_z]
    generalize t * (1 / Real.sqrt 3) = a at *
    constructor <;> rintro ⟨h, -⟩ <;> nlinarith

theorem cylinder_contains :
    pyContains (.cylinder 1 1) ⟨0, 0, 0.5⟩ = false ∧ pyContains (.cylinder 1 1) ⟨0, 0, -0.5⟩ = false ∧
    pyContains (.cylinder 1 1) ⟨0, 1, 0⟩ = false ∧ pyContains (.cylinder 1 1) ⟨-1, 0, 0⟩ = false ∧
    pyContains (.cylinder 1 1) ⟨0, 0, 0.6⟩ = false ∧ pyContains (.cylinder 1 1) ⟨0, 1.1, 0⟩ = false ∧
    pyContains (.cylinder 1 1) ⟨0, 0, 0⟩ = true ∧ pyContains (.cylinder 1 1) ⟨0.25, 0.25, 0.25⟩ = true := by
  have h1 : ¬ Real.sqrt (1.1 ^ 2) < 1 := by rw [Real.sqrt_sq (by norm_num)]; norm_num
  have h2 : Real.sqrt (1 / 8) < 1 := by rw [Real.sqrt_lt' (by norm_num)]; norm_num
  refine ⟨?_, ?_, ?_, ?_, ?_, ?_, ?_, ?_⟩ <;> norm_num [pyContains] <;>
    norm_num at h1 h2 <;> first | exact h1 | exact h2

theorem cylinder_normal :
    pyNormal (.cylinder 1 1) ⟨0, 0, 0.5⟩ = .ok ⟨0, 0, 1⟩ ∧
    pyNormal (.cylinder 1 1) ⟨0, 0, -0.5⟩ = .ok ⟨0, 0, -1⟩ ∧
    pyNormal (.cylinder 1 1) ⟨0, 1, 0⟩ = .ok ⟨0, 1, 0⟩ ∧
    pyNormal (.cylinder 1 1) ⟨0, -1, 0⟩ = .ok ⟨0, -1, 0⟩ := by
  refine ⟨?_, ?_, ?_, ?_⟩ <;> norm_num [pyNormal, isclose, Vec3.dot]

theorem cylinder_entering {p v n : Vec3 ℝ} (h : Geometry.Smooth epsZero (.cylinder 1 1) p)
    (hn : pyNormal (.cylinder 1 1) p = .ok n) (b : Bool) (hb : b = true ↔ n.dot v < 0)
    (hv : 0 < v.dot v) : pyIsEntering (.cylinder 1 1) p (unit v) = .ok b := by
  have e : n.dot (unit v) = 1 / Real.sqrt (v.dot v) * n.dot v := by
    simp only [unit, Vec3.dot, Vec3.smul_x, Vec3.smul_y, Vec3.smul_z]; ring
  have hp : 0 < 1 / Real.sqrt (v.dot v) := by positivity
  unfold pyIsEntering
  simp only [hn, cylinder_smooth h, if_true, e, Except.ok.injEq]
  rw [Bool.eq_iff_iff, decide_eq_true_eq, hb]
  exact ⟨fun h => by by_contra h'; nlinarith, fun h => by nlinarith⟩

theorem cylinder_is_entering :
    pyIsEntering (.cylinder 1 1) ⟨0, 0, 0.5⟩ (unit ⟨1, 1, -1⟩) = .ok true ∧
    pyIsEntering (.cylinder 1 1) ⟨0, 0, 0.5⟩ (unit ⟨1, 1, 1⟩) = .ok false ∧
    pyIsEntering (.cylinder 1 1) ⟨0, 0, -0.5⟩ (unit ⟨1, 1, 1⟩) = .ok true ∧
    pyIsEntering (.cylinder 1 1) ⟨0, 0, -0.5⟩ (unit ⟨1, 1, -1⟩) = .ok false ∧
    pyIsEntering (.cylinder 1 1) ⟨0, 1, 0⟩ (unit ⟨1, -1, 1⟩) = .ok true ∧
    pyIsEntering (.cylinder 1 1) ⟨0, 1, 0⟩ (unit ⟨1, 1, 1⟩) = .ok false ∧
    pyIsEntering (.cylinder 1 1) ⟨-1, 0, 0⟩ (unit ⟨1, 1, 1⟩) = .ok true ∧
    pyIsEntering (.cylinder 1 1) ⟨-1, 0, 0⟩ (unit ⟨-1, 1, 1⟩) = .ok false := by
  obtain ⟨h1, h2, h3, -⟩ := cylinder_normal
  have h4 : pyNormal (.cylinder 1 1) ⟨-1, 0, 0⟩ = .ok ⟨-1, 0, 0⟩ := by
    norm_num [pyNormal, isclose, Vec3.dot]
  refine ⟨cylinder_entering ?_ h1 _ ?_ ?_, cylinder_entering ?_ h1 _ ?_ ?_, cylinder_entering ?_ h2 _ ?_ ?_,
    cylinder_entering ?_ h2 _ ?_ ?_, cylinder_entering ?_ h3 _ ?_ ?_, cylinder_entering ?_ h3 _ ?_ ?_,
    cylinder_entering ?_ h4 _ ?_ ?_, cylinder_entering ?_ h4 _ ?_ ?_⟩ <;>
    norm_num [Geometry.Smooth, epsZero, Vec3.dot]

/-- `ray_z_cylinder` of `test_intersection` and `test_ray_cylinder`: the second point, on a cap. -/
theorem cylinder_cap {u : ℝ} (hu : u = 1 ∨ u = -1) :
    ∃ t ∈ rayZCylinder 1 1 ⟨-2, 0.2, 0⟩ (unit ⟨1, 0.2, 0.2 * u⟩),
      (⟨-2, 0.2, 0⟩ + t • unit ⟨1, 0.2, 0.2 * u⟩ : Vec3 ℝ) = ⟨0.5, 0.7, 0.5 * u⟩ := by
  have hs : 0 < Real.sqrt 1.08 := by positivity
  have hu2 : u * u = 1 := by rcases hu with rfl | rfl <;> norm_num
  have e : unit ⟨1, 0.2, 0.2 * u⟩ = ⟨1 / Real.sqrt 1.08, 0.2 / Real.sqrt 1.08, 0.2 * u / Real.sqrt 1.08⟩ := by
    have : (⟨1, 0.2, 0.2 * u⟩ : Vec3 ℝ).dot ⟨1, 0.2, 0.2 * u⟩ = 1.08 := by
      simp only [Vec3.dot]; linear_combination 0.04 * hu2
    rw [unit, this]
    ext <;> simp <;> ring
  have hq : (⟨-2, 0.2, 0⟩ + (2.5 * Real.sqrt 1.08) • unit ⟨1, 0.2, 0.2 * u⟩ : Vec3 ℝ) = ⟨0.5, 0.7, 0.5 * u⟩ := by
    rw [e]
    ext <;> simp <;> field_simp <;> ring
  refine ⟨2.5 * Real.sqrt 1.08, ?_, hq⟩
  rw [Geometry.mem_rayZCylinder (by norm_num) (by norm_num)]
  refine ⟨by positivity, .inr ⟨?_, ?_⟩⟩
  · rw [e]
    rcases hu with rfl | rfl <;> norm_num [hs.ne']
  · rw [hq]
    rcases hu with rfl | rfl <;> norm_num [Geometry.OnCapInner]

/-- The ray through both caps. -/
theorem cylinder_caps : (⟨0.2, 0.2, -1⟩ + (0.5 : ℝ) • ⟨0, 0, 1⟩ : Vec3 ℝ) = ⟨0.2, 0.2, -0.5⟩ ∧
    (⟨0.2, 0.2, -1⟩ + (1.5 : ℝ) • ⟨0, 0, 1⟩ : Vec3 ℝ) = ⟨0.2, 0.2, 0.5⟩ ∧
    (∀ t, t ∈ rayZCylinder 1 1 ⟨0.2, 0.2, -1⟩ (⟨0, 0, 1⟩ : Vec3 ℝ) ↔ t = 0.5 ∨ t = 1.5) := by
  refine ⟨by ext <;> norm_num, by ext <;> norm_num, ?_⟩
  intro t
  rw [Geometry.mem_rayZCylinder (by norm_num) (by norm_num)]
  simp only [Geometry.OnCapInner, Geometry.OnSide, Vec3.add_x, Vec3.add_y, Vec3.add_z, Vec3.smul_x, Vec3.smul_y,
    Vec3.smul_z]
  constructor
  · rintro ⟨-, ⟨h, -⟩ | ⟨-, -, h⟩⟩
    · norm_num at h
    · rw [abs_eq (by norm_num)] at h
      rcases h with h | h
      · right; linarith
      · left; linarith
  · rintro (rfl | rfl) <;> norm_num

/-- The ray of the last case of `test_ray_cylinder` meets only the rim, where the code reports no
point; the expected point of the test is compared with nothing. -/
theorem cylinder_touching : rayZCylinder 1 1 ⟨0, 0, -1.5⟩ (unit ⟨0, 1, 1⟩) = [] := by
  rw [List.eq_nil_iff_forall_not_mem]
  intro t
  rw [Geometry.mem_rayZCylinder (by norm_num) (by norm_num)]
  rintro ⟨h0, h⟩
  have e : t • unit ⟨0, 1, 1⟩ = (⟨0, t / Real.sqrt 2, t / Real.sqrt 2⟩ : Vec3 ℝ) := by
    ext <;> norm_num [unit, Vec3.dot] <;> ring
  rw [e] at h
  have hk : 0 ≤ t / Real.sqrt 2 := by positivity
  generalize t / Real.sqrt 2 = k at h hk
  simp only [Geometry.OnCapInner, Geometry.OnSide, Vec3.add_x, Vec3.add_y, Vec3.add_z] at h
  rcases h with ⟨-, h1, h2⟩ | ⟨-, h1, h2⟩
  · have : k = 1 := by nlinarith
    subst this
    norm_num [abs_lt] at h2
  · rw [abs_eq (by norm_num)] at h2
    rcases h2 with h2 | h2 <;> nlinarith

/-! ### test_geometry_utils.py -/

theorem angle_between :
    angleBetween ⟨1, 0, 0⟩ ⟨1, 0, 0⟩ = 0 ∧ angleBetween (-⟨1, 0, 0⟩) ⟨1, 0, 0⟩ = Real.pi := by
  constructor <;> norm_num [angleBetween, allclose]

theorem sqrt_half : (Real.sqrt 2)⁻¹ = Real.sqrt 2 / 2 := by
  rw [inv_eq_iff_eq_inv, inv_div, eq_div_iff (by positivity)]
  exact Real.mul_self_sqrt (by norm_num)

theorem angle_between_acute : angleBetween (unit ⟨1, 1, 0⟩) (unit ⟨1, 0, 0⟩) = Real.pi / 4 := by
  have h1 : unit ⟨1, 1, 0⟩ = ⟨Real.sqrt 2 / 2, Real.sqrt 2 / 2, 0⟩ := by
    ext <;> norm_num [unit, Vec3.dot, sqrt_half]
  have h2 : unit ⟨1, 0, 0⟩ = ⟨1, 0, 0⟩ := by ext <;> norm_num [unit, Vec3.dot]
  have hs : 1 < Real.sqrt 2 := by rw [Real.lt_sqrt (by norm_num)]; norm_num
  have n1 : ¬ allclose ⟨Real.sqrt 2 / 2, Real.sqrt 2 / 2, 0⟩ ⟨1, 0, 0⟩ := by
    rintro ⟨-, h, -⟩
    norm_num [abs_of_pos] at h
    linarith
  have n2 : ¬ allclose (-⟨Real.sqrt 2 / 2, Real.sqrt 2 / 2, 0⟩) ⟨1, 0, 0⟩ := by
    rintro ⟨-, h, -⟩
    norm_num [abs_of_pos] at h
    linarith
  rw [h1, h2, angleBetween, if_neg n1, if_neg n2]
  norm_num [Vec3.dot]
  rw [← Real.cos_pi_div_four, Real.arccos_cos (by positivity) (by linarith [Real.pi_pos])]

theorem angle_between_obtuse :
    (unit ⟨1, 1, 0⟩).dot (unit ⟨-1, 0, 0⟩) < 0 ∧
    angleBetween (unit ⟨1, 1, 0⟩) (unit ⟨-1, 0, 0⟩) = Real.pi - Real.pi / 4 := by
  have h1 : unit ⟨1, 1, 0⟩ = ⟨Real.sqrt 2 / 2, Real.sqrt 2 / 2, 0⟩ := by
    ext <;> norm_num [unit, Vec3.dot, sqrt_half]
  have h2 : unit ⟨-1, 0, 0⟩ = ⟨-1, 0, 0⟩ := by ext <;> norm_num [unit, Vec3.dot]
  have hs : 1 < Real.sqrt 2 := by rw [Real.lt_sqrt (by norm_num)]; norm_num
  have n1 : ¬ allclose ⟨Real.sqrt 2 / 2, Real.sqrt 2 / 2, 0⟩ ⟨-1, 0, 0⟩ := by
    rintro ⟨-, h, -⟩
    norm_num [abs_of_pos] at h
    linarith
  have n2 : ¬ allclose (-⟨Real.sqrt 2 / 2, Real.sqrt 2 / 2, 0⟩) ⟨-1, 0, 0⟩ := by
    rintro ⟨-, h, -⟩
    norm_num [abs_of_pos] at h
    linarith
  rw [h1, h2]
  constructor
  · norm_num [Vec3.dot]
  · rw [angleBetween, if_neg n1, if_neg n2]
    norm_num [Vec3.dot]
    rw [← Real.cos_pi_div_four, Real.arccos_neg, Real.arccos_cos (by positivity) (by linarith [Real.pi_pos])]

/-! ### test_frensel_reflection.py, test_frensel_refraction.py -/

theorem reflection_coefficient : fresnelR 0 1 1.5 = some 0.04 := by
  norm_num [fresnelR]

theorem normal_reflection : specular ⟨0, 0, -1⟩ ⟨0, 0, 1⟩ = ⟨0, 0, 1⟩ := by
  norm_num [specular, along, Vec3.dot]
  ext <;> norm_num

theorem antinormal_reflection : specular ⟨0, 0, -1⟩ ⟨0, 0, -1⟩ = ⟨0, 0, 1⟩ := by
  norm_num [specular, along, Vec3.dot]
  ext <;> norm_num

theorem normal_refraction : refract ⟨0, 0, -1⟩ ⟨0, 0, 1⟩ 1 1.5 = some ⟨0, 0, -1⟩ := by
  norm_num [refract, Vec3.dot]
  ext <;> norm_num

theorem antinormal_refraction : refract ⟨0, 0, -1⟩ ⟨0, 0, -1⟩ 1 1.5 = some ⟨0, 0, -1⟩ := by
  norm_num [refract, Vec3.dot]
  ext <;> norm_num

/-! ### test_light_utils.py -/

theorem wavelength_to_rgb : Light.wavelengthToRgb (555 : ℚ) = (163, 255, 0) := by decide +kernel

theorem rgb_to_hex_int : Light.rgbToHexInt (255, 0, 0) = 0xff0000 := by decide +kernel

end
end PV.Tests
