import Verif.Props.Normals

/-!
C74: `contains` and `is_on_surface` tell inside, surface and outside apart.
-/

namespace PV.Contains
open PV.Solid PV.Geometry

/-- **C74**. A box or cylinder contains exactly the points of its interior; a sphere those that are
deeper than the tolerance. -/
theorem contains_iff {g : Geom} {p : Vec3 ℝ} (hp : Proper g) :
    pyContains g p = true ↔
      match g with
      | .sphere r => epsZero < r ∧ Inner (.sphere (r - epsZero)) p
      | g => Inner g p := by
  cases g with
  | box s =>
    simp only [pyContains, decide_eq_true_eq, Inner]
    rw [show (0.5 : ℝ) * s.x = s.x / 2 by ring, show (0.5 : ℝ) * s.y = s.y / 2 by ring,
      show (0.5 : ℝ) * s.z = s.z / 2 by ring]
  | sphere r =>
    simp only [pyContains, decide_eq_true_eq, Inner]
    simp only [Vec3.dot]
    have hs := Real.sqrt_nonneg (p.x * p.x + p.y * p.y + p.z * p.z)
    have e : p.x ^ 2 + p.y ^ 2 + p.z ^ 2 = p.x * p.x + p.y * p.y + p.z * p.z := by ring
    rw [e]
    constructor
    · intro h
      refine ⟨by linarith, ?_⟩
      rw [← Real.sqrt_lt' (by linarith)]
      linarith
    · rintro ⟨h1, h2⟩
      rw [← Real.sqrt_lt' (by linarith)] at h2
      linarith
  | cylinder l r =>
    simp only [pyContains, decide_eq_true_eq, Inner, abs_lt]
    rw [Real.sqrt_lt' hp.2]
    constructor
    · rintro ⟨h1, h2, h3⟩
      exact ⟨h3, by linarith, by linarith⟩
    · rintro ⟨h1, h2, h3⟩
      exact ⟨by linarith, by linarith, h1⟩

/-- **C74**. What is contained is inside, and no surface point off the edges is contained. -/
theorem contains_inner {g : Geom} {p : Vec3 ℝ} (hp : Proper g) (h : pyContains g p = true) : Inner g p := by
  have := (contains_iff hp).1 h
  cases g with
  | box s => exact this
  | cylinder l r => exact this
  | sphere r =>
    obtain ⟨h1, h2⟩ := this
    simp only [Inner] at h2 ⊢
    have h0 : (0 : ℝ) < epsZero := by unfold epsZero; norm_num
    nlinarith

theorem surface_not_contained {g : Geom} {p : Vec3 ℝ} (hp : Proper g) (h : Surface g p) :
    pyContains g p = false := by
  rw [← Bool.not_eq_true]
  exact fun hc => h.2 (contains_inner hp hc)

/-- **C74 for spheres**: the three answers exclude each other. -/
theorem sphere_exclusive {r : ℝ} {p : Vec3 ℝ} :
    ¬ (pyContains (.sphere r) p = true ∧ pyOnSurface (.sphere r) p = true) := by
  simp only [pyContains, pyOnSurface, decide_eq_true_eq, abs_lt]
  rintro ⟨h1, h2, -⟩
  linarith

/-- **C74 fails for cylinders**: the tolerance of `is_on_surface` is one-sided. A point closer to the cap
than the tolerance is on the surface if it is inside and not if it is outside, and the inner one is also
contained. -/
theorem cylinder_one_sided :
    pyOnSurface (.cylinder 2 1) ⟨0, 0, 1 + 1e-14⟩ = false ∧
      pyOnSurface (.cylinder 2 1) ⟨0, 0, 1 - 1e-14⟩ = true ∧
      pyContains (.cylinder 2 1) ⟨0, 0, 1 - 1e-14⟩ = true := by
  have hk : (0 : ℝ) < 1 / Real.sqrt 3 := by positivity
  have hk2 : (1 / Real.sqrt 3 : ℝ) ^ 2 = 1 / 3 := by
    rw [div_pow, Real.sq_sqrt (by norm_num)]
    norm_num
  set k : ℝ := 1 / Real.sqrt 3 with hkdef
  have hk1 : (1 : ℝ) / 2 < k := by nlinarith
  clear_value k
  refine ⟨?_, ?_, ?_⟩
  · have : rayZCylinder 2 1 ⟨0, 0, 1 + 1e-14⟩ ⟨k, k, k⟩ = [] := by
      rw [List.eq_nil_iff_forall_not_mem]
      intro t ht
      rw [mem_rayZCylinder (by norm_num) (by norm_num)] at ht
      simp only [OnSide, OnCapInner, Vec3.add_x, Vec3.add_y, Vec3.add_z, Vec3.smul_x, Vec3.smul_y,
        Vec3.smul_z] at ht
      obtain ⟨h0, h⟩ := ht
      have hz : (1 : ℝ) < |1 + 1e-14 + t * k| := by
        have := mul_nonneg h0 hk.le
        rw [abs_of_pos (by linarith [show (0 : ℝ) < 1e-14 by norm_num])]
        linarith [show (0 : ℝ) < 1e-14 by norm_num]
      rcases h with h | h
      · linarith [h.2.2]
      · linarith [h.2.2]
    simp only [pyOnSurface, ← hkdef, this]
  · have hmem : (1e-14 / k : ℝ) ∈ rayZCylinder 2 1 ⟨0, 0, 1 - 1e-14⟩ ⟨k, k, k⟩ := by
      rw [mem_rayZCylinder (by norm_num) (by norm_num)]
      refine ⟨by positivity, .inr ⟨hk.ne', ?_, ?_⟩⟩
      · simp only [Vec3.add_x, Vec3.add_y, Vec3.smul_x, Vec3.smul_y]
        rw [div_mul_cancel₀ _ hk.ne']
        norm_num
      · simp only [Vec3.add_z, Vec3.smul_z]
        rw [div_mul_cancel₀ _ hk.ne']
        norm_num
    have hsort := cylinder_python_sorted 2 1 ⟨0, 0, 1 - 1e-14⟩ ⟨k, k, k⟩
    simp only [pyOnSurface, ← hkdef]
    cases hL : rayZCylinder 2 1 ⟨0, 0, 1 - 1e-14⟩ ⟨k, k, k⟩ with
    | nil => rw [hL] at hmem; cases hmem
    | cons t ts =>
      have hnn : 0 ≤ t := by
        have : t ∈ rayZCylinder 2 1 ⟨0, 0, 1 - 1e-14⟩ ⟨k, k, k⟩ := by
          rw [hL]; exact List.mem_cons_self ..
        exact ((mem_rayZCylinder (by norm_num) (by norm_num) t).1 this).1
      rw [hL] at hmem hsort
      have hle : t ≤ 1e-14 / k := by
        rcases List.mem_cons.1 hmem with h | h
        · exact h.ge
        · exact (List.pairwise_cons.1 hsort).1 _ h
      have h2 : (1e-14 / k : ℝ) < 2.1e-14 := by
        rw [div_lt_iff₀ hk]
        linarith
      simp only [decide_eq_true_eq]
      rw [abs_of_nonneg hnn]
      unfold epsZero
      linarith
  · rw [contains_iff (by norm_num [Proper])]
    simp only [Inner]
    norm_num [abs_of_pos]

example : Proper (.cylinder 2 1) ∧ pyContains (.cylinder 2 1) ⟨0, 0, 1 - 1e-14⟩ = true :=
  ⟨by norm_num [Proper], cylinder_one_sided.2.2⟩
example : Surface (.box ⟨2, 2, 2⟩) ⟨0, 0, 1⟩ := by
  norm_num [Surface, Closed, Inner]

end PV.Contains
