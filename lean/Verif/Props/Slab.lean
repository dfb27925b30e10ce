import Verif.Props.PathLaw
import Verif.Props.AgreementDemo
import Mathlib.Analysis.SpecificLimits.Basic

/-!
C90 for a real scene: a beam that meets an absorbing slab at right angles. The transmittance and the
reflectance of the scene are those of the textbook.
-/

namespace PV.Slab
open PV PV.Spec PV.Library
noncomputable section

/-- A slab of refractive index `glass`, with its material, in the middle of a world sphere. -/
structure Slab where
  world : ℝ
  air : ℝ
  glass : ℝ
  size : Vec3 ℝ
  comps : List Comp

/-- The scene of the slab. -/
def Slab.scene (D : Slab) : LScene 1 where
  node v := if v = 0 then ⟨"world", .sphere D.world, .one, .one, D.air, .fresnel, []⟩
    else ⟨"slab", .box D.size, .one, .one, D.glass, .fresnel, D.comps⟩

/-- A beam of wavelength `w` along the `z` axis through `⟨x, y⟩` from the height `z` below the slab,
whose attenuation for that wavelength is `a`. -/
structure Lit (D : Slab) (B : Trimesh) (w a x y z : ℝ) : Prop where
  air : 0 < D.air
  glass : 0 < D.glass
  differ : D.air ≠ D.glass
  ratio : D.air ≤ 10000 * D.glass ∧ D.glass ≤ 10000 * D.air
  wide : 0 < D.size.x ∧ 0 < D.size.y
  thick : epsZero < D.size.z
  /-- The material only absorbs. -/
  black : ∀ c ∈ D.comps, c.kind = .absorber ∧ GoodComp c ∧
    ((∃ y, c.absDist = .const y) ∨ ∃ T, mkDist T false = .ok c.absDist)
  alpha : ∃ cs, coefficients D.comps w = .ok cs ∧ (∀ c ∈ cs, 0 ≤ c) ∧ cs.sum = a
  seen : 1e-8 < a
  within : |x| + epsZero ≤ D.size.x / 2 ∧ |y| + epsZero ≤ D.size.y / 2
  below : z + epsZero < -(D.size.z / 2)
  inside : 0 < D.world ∧ x ^ 2 + y ^ 2 + z ^ 2 + 1e-8 < D.world ^ 2
  trimesh : ∀ h u : ℝ, (u = 1 ∨ u = -1) → RegularLine B (.box D.size) ⟨x, y, h⟩ ⟨0, 0, u⟩

variable {D : Slab} {B : Trimesh} {w a x y z : ℝ}

theorem pose (v : Fin 2) (p : Vec3 ℝ) : (D.scene.node v).w2l.point p = p ∧
    (D.scene.node v).w2l.vec p = p ∧ (D.scene.node v).l2w.point p = p ∧
    (D.scene.node v).l2w.vec p = p := by
  by_cases h : v = 0 <;>
    simp [Slab.scene, h, Affine.one, Affine.point, Affine.vec, Vec3.dot] <;>
    (cases p; simp [Vec3.ext_iff])

theorem supported (h : Lit D B w a x y z) : Supported D.scene where
  index_pos v := by by_cases e : v = 0 <;> simp [Slab.scene, e, h.air, h.glass]
  rigid v := by by_cases e : v = 0 <;> simp [Slab.scene, e, one_rigid]
  inverse v := by by_cases e : v = 0 <;> simp [Slab.scene, e, one_inverse]
  comps v c hc := by
    by_cases e : v = 0
    · simp [Slab.scene, e] at hc
    · simp only [Slab.scene, e, if_false] at hc
      exact (h.black c hc).2.1
  proper v := by
    by_cases e : v = 0
    · simp [Slab.scene, e, Solid.Proper, h.inside.1]
    · simp [Slab.scene, e, Solid.Proper, h.wide.1, h.wide.2, epsZero_pos.trans h.thick]
  ratio v w := by
    have h1 := h.air; have h2 := h.glass
    by_cases e : v = 0 <;> by_cases e' : w = 0 <;> simp [Slab.scene, e, e', h.ratio] <;> linarith
  absorbs v c hc := by
    by_cases e : v = 0
    · simp [Slab.scene, e] at hc
    · simp only [Slab.scene, e, if_false] at hc
      exact (h.black c hc).2.2
  emits v c hc hk := by
    by_cases e : v = 0
    · simp [Slab.scene, e] at hc
    · simp only [Slab.scene, e, if_false] at hc
      rw [(h.black c hc).1] at hk; cases hk
  phase v c hc hk := by
    by_cases e : v = 0
    · simp [Slab.scene, e] at hc
    · simp only [Slab.scene, e, if_false] at hc
      rcases hk with hk | hk <;> (rw [(h.black c hc).1] at hk; cases hk)
  upright v _ u := (pose v u).2.2.2

/-! ### Hits on a vertical line -/

theorem unit_sq {u : ℝ} (hu : u = 1 ∨ u = -1) : u * u = 1 := by rcases hu with rfl | rfl <;> norm_num

theorem sphere_line {W x y h u : ℝ} (hu : u = 1 ∨ u = -1) (hW : x ^ 2 + y ^ 2 < W ^ 2) :
    kSphere W ⟨x, y, h⟩ ⟨0, 0, u⟩ =
      [-(u * h) - √(W ^ 2 - x ^ 2 - y ^ 2), -(u * h) + √(W ^ 2 - x ^ 2 - y ^ 2)].filter
        (fun t => t > epsZero) := by
  have hq : 0 ≤ W ^ 2 - x ^ 2 - y ^ 2 := by linarith
  have hq2 := Real.sq_sqrt hq
  have hq0 := Real.sqrt_nonneg (W ^ 2 - x ^ 2 - y ^ 2)
  generalize √(W ^ 2 - x ^ 2 - y ^ 2) = q at *
  have hu2 := unit_sq hu
  have ha : (⟨0, 0, u⟩ : Vec3 ℝ).dot ⟨0, 0, u⟩ = 1 := by simp [Vec3.dot, hu2]
  have hb : (⟨0, 0, u⟩ : Vec3 ℝ).dot ⟨x, y, h⟩ = u * h := by simp [Vec3.dot]
  have e : 2 * (u * h) * (2 * (u * h)) - 4 * 1 * ((⟨x, y, h⟩ : Vec3 ℝ).dot ⟨x, y, h⟩ - W * W) = (2 * q) ^ 2 := by
    simp only [Vec3.dot]
    have : (2 * q) ^ 2 = 4 * (W ^ 2 - x ^ 2 - y ^ 2) := by rw [mul_pow, hq2]; ring
    rw [this]
    have : (u * h) * (u * h) = h * h := by rw [mul_mul_mul_comm, hu2, one_mul]
    linear_combination 4 * this
  unfold kSphere
  dsimp only
  rw [ha, hb, e, if_neg (not_lt.2 (by positivity)), Real.sqrt_sq (by linarith)]
  congr 2 <;> [ring; (congr 1; ring)]

theorem tiny_le_one : tiny ≤ 1 := by
  unfold tiny
  rw [div_le_one (by positivity)]
  exact one_le_pow₀ (by norm_num)

theorem box_line {s : Vec3 ℝ} {x y h u : ℝ} (hu : u = 1 ∨ u = -1) (hs : 0 < s.z)
    (hx : |x| ≤ s.x / 2) (hy : |y| ≤ s.y / 2) :
    kBox s ⟨x, y, h⟩ ⟨0, 0, u⟩ =
      [-(u * h) - s.z / 2, -(u * h) + s.z / 2].filter (fun t => t > epsZero) := by
  rw [abs_le] at hx hy
  have ht : ¬ |u| < tiny := by
    have : |u| = 1 := by rcases hu with rfl | rfl <;> norm_num
    rw [this]; exact not_lt.2 tiny_le_one
  have h0 : |(0 : ℝ)| < tiny := by rw [abs_zero]; unfold tiny; norm_num
  have ex : ¬ (x < -0.5 * s.x ∨ x > 0.5 * s.x) := by norm_num; constructor <;> linarith [hx.1, hx.2]
  have ey : ¬ (y < -0.5 * s.y ∨ y > 0.5 * s.y) := by norm_num; constructor <;> linarith [hy.1, hy.2]
  have e1 : kSlab s.x x 0 (none, none) = some (none, none) := by
    simp only [kSlab, h0, if_true, if_neg ex]
  have e2 : kSlab s.y y 0 (none, none) = some (none, none) := by
    simp only [kSlab, h0, if_true, if_neg ey]
  have e3 : kSlab s.z h u (none, none) = some (some (-(u * h) - s.z / 2), some (-(u * h) + s.z / 2)) := by
    simp only [kSlab, ht, if_false]
    rcases hu with rfl | rfl
    · rw [if_neg (by norm_num; linarith)]
      norm_num
      constructor <;> ring
    · rw [if_pos (by norm_num; linarith)]
      norm_num
      ring
  unfold kBox
  simp only [e1, e2, e3, Option.bind_some]
  rw [if_neg (by linarith)]

theorem line_hits (h : Lit D B w a x y z) {g u : ℝ} (hu : u = 1 ∨ u = -1) (v : Fin 2) :
    kIntersect (D.scene.node v).geom ((D.scene.node v).w2l.point ⟨x, y, g⟩)
      ((D.scene.node v).w2l.vec ⟨0, 0, u⟩) =
    if v = 0 then [-(u * g) - √(D.world ^ 2 - x ^ 2 - y ^ 2), -(u * g) + √(D.world ^ 2 - x ^ 2 - y ^ 2)].filter
        (fun t => t > epsZero)
    else [-(u * g) - D.size.z / 2, -(u * g) + D.size.z / 2].filter (fun t => t > epsZero) := by
  rw [(pose v _).1, (pose v _).2.1]
  have e0 := epsZero_pos
  by_cases e : v = 0
  · simp only [e, Slab.scene, if_true, kIntersect]
    exact sphere_line hu (by have := h.inside.2; nlinarith [sq_nonneg z])
  · simp only [e, Slab.scene, if_false, kIntersect]
    exact box_line hu (epsZero_pos.trans h.thick) (by linarith [h.within.1]) (by linarith [h.within.2])

theorem regular (h : Lit D B w a x y z) {g u : ℝ} (hu : u = 1 ∨ u = -1)
    (hg : x ^ 2 + y ^ 2 + g ^ 2 < D.world ^ 2)
    (ho : ∀ t, 0 ≤ t → t ≤ epsZero → x ^ 2 + y ^ 2 + (g + t * u) ^ 2 < D.world ^ 2)
    {ray : Ray ℝ} (hp : ray.position = ⟨x, y, g⟩) (hd : ray.direction = ⟨0, 0, u⟩) :
    RegularRay D.scene B ray where
  clear v := by
    have ht : tiny ≤ |u| := by
      have : |u| = 1 := by rcases hu with rfl | rfl <;> norm_num
      rw [this]; exact tiny_le_one
    rw [show (D.scene.node v).localDir ray.direction = ray.direction from (pose v _).2.1, hd]
    by_cases e : v = 0
    · simp [Slab.scene, e, Geometry.ClearDir]
    · simp only [Slab.scene, e, if_false, Geometry.ClearDir]
      exact ⟨.inl rfl, .inl rfl, .inr ht⟩
  line v := by
    rw [show (D.scene.node v).localDir ray.direction = ray.direction from (pose v _).2.1,
      show (D.scene.node v).localOrigin ray.position = ray.position from (pose v _).1, hd, hp]
    by_cases e : v = 0
    · simp only [Slab.scene, e, if_true, RegularLine]
      right
      have h1 := unit_sq hu
      have h2 := h.inside.2
      have : Geometry.disc D.world ⟨x, y, g⟩ ⟨0, 0, u⟩ = 4 * (D.world ^ 2 - x ^ 2 - y ^ 2) := by
        simp only [Geometry.disc, Vec3.dot]
        ring_nf
        have : u ^ 2 = 1 := by rw [sq]; exact h1
        rw [this]; ring
      rw [this]
      nlinarith [sq_nonneg z]
    · simp only [Slab.scene, e, if_false]
      exact h.trimesh g u hu
  inside := by
    rw [show (D.scene.node 0).localOrigin ray.position = ray.position from (pose 0 _).1, hp]
    simpa [Slab.scene, Solid.Inner] using hg
  off t t0 t1 := by
    rw [show (D.scene.node 0).localDir ray.direction = ray.direction from (pose 0 _).2.1,
      show (D.scene.node 0).localOrigin ray.position = ray.position from (pose 0 _).1, hd, hp]
    rintro ⟨_, hn⟩
    apply hn
    simpa [Slab.scene, Solid.Inner] using ho t t0 t1

/-- The operations of the Python tracer in the scene of the slab. -/
abbrev ops (D : Slab) (B : Trimesh) (method : EmitMethod) : Ops ℝ (Fin 2) Comp Numbers :=
  pyOps D.scene B reader method

variable {method : EmitMethod}

theorem meets (h : Lit D B w a x y z) {g u : ℝ} (hu : u = 1 ∨ u = -1)
    (hg : x ^ 2 + y ^ 2 + g ^ 2 < D.world ^ 2)
    (ho : ∀ t, 0 ≤ t → t ≤ epsZero → x ^ 2 + y ^ 2 + (g + t * u) ^ 2 < D.world ^ 2)
    {hit c : Fin 2} {adj : Option (Fin 2)} {t : ℝ}
    (hk : kNextHit [0, 1] (fun v : Fin 2 =>
      if v = 0 then [-(u * g) - √(D.world ^ 2 - x ^ 2 - y ^ 2), -(u * g) + √(D.world ^ 2 - x ^ 2 - y ^ 2)].filter
        (fun t => t > epsZero)
      else [-(u * g) - D.size.z / 2, -(u * g) + D.size.z / 2].filter (fun t => t > epsZero)) =
      some (hit, c, adj, t)) :
    Meets (ops D B method) ⟨x, y, g⟩ ⟨0, 0, u⟩ ⟨hit, c, adj, ⟨x, y, g⟩ + t • ⟨0, 0, u⟩, t⟩ := by
  refine ⟨_, rfl, ?_⟩
  have hr := hit_agrees (supported h).toAccepted (R := reader)
    (ray := ⟨⟨x, y, g⟩, ⟨0, 0, u⟩, w, 0, 0, none⟩) (by simp [Vec3.dot, unit_sq hu])
    (regular h hu hg ho rfl rfl) method
  have hK : (kOps D.scene reader method).nextHit ⟨x, y, g⟩ ⟨0, 0, u⟩ = some (hit, c, adj, t) := by
    show kNextHit (List.finRange 2) _ = _
    rw [← hk]
    congr 1
    funext v
    exact line_hits h hu v
  rw [hK] at hr
  exact hr

theorem next_front {q h c u g : ℝ} (hb : epsZero < -(u * g) - c) (hc : 0 < c) (hq : -(u * g) + c < -(u * g) + q)
    (hs : -(u * g) - q ≤ epsZero) (_ : h = -(u * g) - c) :
    kNextHit [0, 1] (fun v : Fin 2 =>
      if v = 0 then [-(u * g) - q, -(u * g) + q].filter (fun t => t > epsZero)
      else [-(u * g) - c, -(u * g) + c].filter (fun t => t > epsZero)) =
      some (1, 0, some 1, -(u * g) - c) := by
  have e0 : (fun v : Fin 2 =>
      if v = 0 then [-(u * g) - q, -(u * g) + q].filter (fun t => t > epsZero)
      else [-(u * g) - c, -(u * g) + c].filter (fun t => t > epsZero)) =
      fun v : Fin 2 => if v = 0 then [-(u * g) + q] else [-(u * g) - c, -(u * g) + c] := by
    funext v
    by_cases e : v = 0
    · simp only [e, if_true]
      rw [List.filter_cons, List.filter_cons, List.filter_nil,
        if_neg (by simpa using hs), if_pos (by simp; linarith)]
    · simp only [e, if_false]
      rw [List.filter_cons, List.filter_cons, List.filter_nil,
        if_pos (by simpa using hb), if_pos (by simp; linarith)]
  rw [e0]
  have h1 : -(u * g) - c < -(u * g) + q := by linarith
  have h2 : ¬ -(u * g) + c < -(u * g) - c := by linarith
  generalize -(u * g) - c = A at *
  generalize -(u * g) + c = C at *
  generalize -(u * g) + q = Q at *
  simp [kNextHit, kHits, kFirst, kContainer, kMinT, List.zipIdx, h1, h2]

theorem next_inside {q c u g : ℝ} (hb : u * g = -c) (hc : epsZero < 2 * c) (hq : c < q) :
    kNextHit [0, 1] (fun v : Fin 2 =>
      if v = 0 then [-(u * g) - q, -(u * g) + q].filter (fun t => t > epsZero)
      else [-(u * g) - c, -(u * g) + c].filter (fun t => t > epsZero)) =
      some (1, 1, some 0, 2 * c) := by
  have e0' := epsZero_pos
  have e0 : (fun v : Fin 2 =>
      if v = 0 then [-(u * g) - q, -(u * g) + q].filter (fun t => t > epsZero)
      else [-(u * g) - c, -(u * g) + c].filter (fun t => t > epsZero)) =
      fun v : Fin 2 => if v = 0 then [c + q] else [2 * c] := by
    funext v
    rw [hb]
    by_cases e : v = 0
    · simp only [e, if_true]
      rw [List.filter_cons, List.filter_cons, List.filter_nil,
        if_neg (by simp; linarith), if_pos (by simp; linarith)]
      simp
    · simp only [e, if_false]
      rw [List.filter_cons, List.filter_cons, List.filter_nil,
        if_neg (by simp; linarith), if_pos (by simp; linarith)]
      simp; ring
  rw [e0]
  have h1 : 2 * c < c + q := by linarith
  generalize c + q = Q at *
  generalize 2 * c = A at *
  simp [kNextHit, kHits, kFirst, kSecond, kContainer, kMinT, List.zipIdx, h1]

theorem next_outside {q c u g : ℝ} (hb : u * g = c) (hc : 0 < c) (hq : c + epsZero < q) :
    kNextHit [0, 1] (fun v : Fin 2 =>
      if v = 0 then [-(u * g) - q, -(u * g) + q].filter (fun t => t > epsZero)
      else [-(u * g) - c, -(u * g) + c].filter (fun t => t > epsZero)) =
      some (0, 0, none, q - c) := by
  have e0' := epsZero_pos
  have e0 : (fun v : Fin 2 =>
      if v = 0 then [-(u * g) - q, -(u * g) + q].filter (fun t => t > epsZero)
      else [-(u * g) - c, -(u * g) + c].filter (fun t => t > epsZero)) =
      fun v : Fin 2 => if v = 0 then [q - c] else [] := by
    funext v
    rw [hb]
    by_cases e : v = 0
    · simp only [e, if_true]
      rw [List.filter_cons, List.filter_cons, List.filter_nil,
        if_neg (by simp; linarith), if_pos (by simp; linarith)]
      simp; ring
    · simp only [e, if_false]
      rw [List.filter_cons, List.filter_cons, List.filter_nil,
        if_neg (by simp; linarith), if_neg (by simp; linarith)]
  rw [e0]
  simp [kNextHit, kHits, kFirst]

/-! ### Optics at right angles -/

theorem face (h : Lit D B w a x y z) {e : ℝ} (he : e = 1 ∨ e = -1) :
    pyNormal (.box D.size) ⟨x, y, e * (D.size.z / 2)⟩ = .ok ⟨0, 0, e⟩ := by
  obtain ⟨hx, hy⟩ := h.within
  have e0 := epsZero_pos
  have hz := h.thick
  have ax := abs_le.1 (show |x| ≤ D.size.x / 2 - epsZero by linarith)
  have ay := abs_le.1 (show |y| ≤ D.size.y / 2 - epsZero by linarith)
  have x1 : ¬ |x - (0 - 0.5 * D.size.x)| < epsZero := by
    rw [not_lt]; exact le_trans (by norm_num; linarith) (le_abs_self _)
  have x2 : ¬ |x - (0 + 0.5 * D.size.x)| < epsZero := by
    rw [not_lt]; exact le_trans (by norm_num; linarith) (neg_le_abs _)
  have y1 : ¬ |y - (0 - 0.5 * D.size.y)| < epsZero := by
    rw [not_lt]; exact le_trans (by norm_num; linarith) (le_abs_self _)
  have y2 : ¬ |y - (0 + 0.5 * D.size.y)| < epsZero := by
    rw [not_lt]; exact le_trans (by norm_num; linarith) (neg_le_abs _)
  have half : 2 * epsZero / 2 = epsZero := by ring
  rcases he with rfl | rfl
  · have z1 : ¬ |1 * (D.size.z / 2) - (0 - 0.5 * D.size.z)| < epsZero := by
      rw [not_lt]; exact le_trans (by norm_num; linarith) (le_abs_self _)
    have z2 : |1 * (D.size.z / 2) - (0 + 0.5 * D.size.z)| < epsZero := by
      rw [show 1 * (D.size.z / 2) - (0 + 0.5 * D.size.z) = 0 by norm_num; ring, abs_zero]; exact e0
    have : boxSurfaces D.size ⟨x, y, 1 * (D.size.z / 2)⟩ = [5] := by
      simp only [boxSurfaces, half, List.zipIdx, List.filter_cons, List.filter_nil, abs_abs,
        x1, x2, y1, y2, z1, z2, decide_true, decide_false, if_true]
      rfl
    simp only [pyNormal, this]; simp [boxNormals]
  · have z1 : |-1 * (D.size.z / 2) - (0 - 0.5 * D.size.z)| < epsZero := by
      rw [show -1 * (D.size.z / 2) - (0 - 0.5 * D.size.z) = 0 by norm_num; ring, abs_zero]; exact e0
    have z2 : ¬ |-1 * (D.size.z / 2) - (0 + 0.5 * D.size.z)| < epsZero := by
      rw [not_lt]; exact le_trans (by norm_num; linarith) (neg_le_abs _)
    have : boxSurfaces D.size ⟨x, y, -1 * (D.size.z / 2)⟩ = [4] := by
      simp only [boxSurfaces, half, List.zipIdx, List.filter_cons, List.filter_nil, abs_abs,
        x1, x2, y1, y2, z1, z2, decide_true, decide_false, if_true]
      rfl
    simp only [pyNormal, this]; simp [boxNormals]

theorem along_axis {e u : ℝ} (he : e = 1 ∨ e = -1) (hu : u = 1 ∨ u = -1) :
    along ⟨0, 0, e⟩ ⟨0, 0, u⟩ = ⟨0, 0, u⟩ := by
  rcases he with rfl | rfl <;> rcases hu with rfl | rfl <;> norm_num [along, Vec3.dot, Vec3.ext_iff]

theorem normal_reflectivity {e u n1 n2 : ℝ} (he : e = 1 ∨ e = -1) (hu : u = 1 ∨ u = -1) (h1 : 0 < n1)
    (h2 : 0 < n2) :
    pyReflectivity ⟨0, 0, e⟩ ⟨0, 0, u⟩ n1 n2 = some (((n1 - n2) / (n1 + n2)) ^ 2) := by
  have : angleBetween (⟨0, 0, u⟩ : Vec3 ℝ) ⟨0, 0, u⟩ = 0 := by
    unfold angleBetween
    rw [if_pos ?_]
    refine ⟨?_, ?_, ?_⟩ <;> simp only [sub_self, abs_zero] <;> positivity
  rw [pyReflectivity, along_axis he hu, this, Optics.reflectivity_normal h1 h2]

theorem normal_specular {e u : ℝ} (he : e = 1 ∨ e = -1) (hu : u = 1 ∨ u = -1) :
    specular ⟨0, 0, u⟩ ⟨0, 0, e⟩ = ⟨0, 0, -u⟩ := by
  have h2 := unit_sq hu
  rw [specular, along_axis he hu]
  ext <;> simp [Vec3.dot]
  rw [h2]; ring

theorem normal_transmit {e u n1 n2 : ℝ} (he : e = 1 ∨ e = -1) (hu : u = 1 ∨ u = -1) :
    pyTransmit ⟨0, 0, e⟩ ⟨0, 0, u⟩ n1 n2 = some ⟨0, 0, u⟩ := by
  have h2 := unit_sq hu
  have hd : (⟨0, 0, u⟩ : Vec3 ℝ).dot ⟨0, 0, u⟩ = 1 := by simp [Vec3.dot, h2]
  rw [pyTransmit, along_axis he hu]
  unfold refract
  simp only [hd]
  norm_num
  ext <;> simp
  ring

/-- The reflectivity of the faces of the slab. -/
def R (D : Slab) : ℝ := ((D.air - D.glass) / (D.air + D.glass)) ^ 2

theorem R_pos (h : Lit D B w a x y z) : 0 < R D ∧ R D < 1 := by
  have h1 := h.air
  have h2 := h.glass
  have h3 := sub_ne_zero.2 h.differ
  constructor
  · unfold R; positivity
  · unfold R
    rw [div_pow, div_lt_one (by positivity)]
    nlinarith [mul_pos h1 h2]

theorem splits (h : Lit D B w a x y z) {e u : ℝ} (he : e = 1 ∨ e = -1) (hu : u = 1 ∨ u = -1)
    {c b : Fin 2} (hcb : c ≠ b) {p : Vec3 ℝ} {t : ℝ} :
    Splits (ops D B method) ⟨1, c, some b, p, t⟩ ⟨x, y, e * (D.size.z / 2)⟩ ⟨0, 0, u⟩ ⟨0, 0, -u⟩
      ⟨0, 0, u⟩ (R D) := by
  have hg : (D.scene.node 1).geom = .box D.size := rfl
  have hs : (D.scene.node 1).surface = .fresnel := rfl
  have hn := face h he
  have hr : ((((D.scene.node c).index - (D.scene.node b).index) /
      ((D.scene.node c).index + (D.scene.node b).index)) ^ 2 : ℝ) = R D := by
    have hc : c = 0 ∨ c = 1 := by omega
    have hb : b = 0 ∨ b = 1 := by omega
    rcases hc with rfl | rfl <;> rcases hb with rfl | rfl
    · exact absurd rfl hcb
    · rfl
    · show ((D.glass - D.air) / (D.glass + D.air)) ^ 2 = ((D.air - D.glass) / (D.air + D.glass)) ^ 2
      rw [div_pow, div_pow]; congr 1 <;> ring
    · exact absurd rfl hcb
  refine ⟨by simp [pyOps], by simp, ?_, ?_, ?_, ?_⟩
  · refine ⟨⟨0, 0, e⟩, ?_⟩
    simp only [pyOps, (pose 1 _).1, (pose 1 _).2.2.2, hg, hn]
  · intro ray hp hd s
    show D.scene.isReflected reader 1 c (some b) ray s = _
    have : D.scene.reflectivity 1 c (some b) (ray.representation (D.scene.node 1).w2l) = .ok (some (R D)) := by
      unfold LScene.reflectivity
      rw [hs]
      simp only [Ray.representation, (pose 1 _).1, (pose 1 _).2.1, hg, hp, hd, hn]
      rw [normal_reflectivity he hu ((supported h).index_pos c) ((supported h).index_pos b), hr]
    unfold LScene.isReflected
    rw [this]
    simp only [PV.isReflected, (R_pos h).1.ne', reader, if_false]
    simp
    exact decide_eq_decide.2 Iff.rfl
  · intro ray hp hd s
    show (D.scene.node 1).turn ray (D.scene.reflected 1 (ray.representation (D.scene.node 1).w2l)) s = _
    have : D.scene.reflected 1 (ray.representation (D.scene.node 1).w2l) = .ok ⟨0, 0, -u⟩ := by
      unfold LScene.reflected
      rw [hs]
      simp only [Ray.representation, (pose 1 _).1, (pose 1 _).2.1, hg, hp, hd, hn]
      rw [normal_specular he hu]
    rw [this]
    simp [LNode.turn, Ray.representation, (pose 1 _).1, (pose 1 _).2.2.1, (pose 1 _).2.2.2]
  · intro ray hp hd s
    show (D.scene.node 1).turn ray (D.scene.transmitted 1 c (some b) (ray.representation (D.scene.node 1).w2l)) s = _
    have : D.scene.transmitted 1 c (some b) (ray.representation (D.scene.node 1).w2l) = .ok ⟨0, 0, u⟩ := by
      unfold LScene.transmitted
      rw [hs]
      simp only [Ray.representation, (pose 1 _).1, (pose 1 _).2.1, hg, hp, hd, hn]
      rw [normal_transmit he hu]
    rw [this]
    simp [LNode.turn, Ray.representation, (pose 1 _).1, (pose 1 _).2.2.1, (pose 1 _).2.2.2]

/-! ### Volume -/

theorem clear_world (w : ℝ) : Spec.Clear (ops D B method) 0 w := by
  intro s
  show penetrationDepth reader (D.scene.node 0).comps w s = _
  have : coefficients (D.scene.node 0).comps w = .ok [] := rfl
  unfold penetrationDepth
  rw [this]
  norm_num

theorem attenuates (h : Lit D B w a x y z) : Attenuates (ops D B method) 1 w a := by
  obtain ⟨cs, hcs, hpos, hsum⟩ := h.alpha
  have ha := h.seen
  have hc1 : coefficients (D.scene.node 1).comps w = .ok cs := hcs
  constructor
  · intro s
    show penetrationDepth reader (D.scene.node 1).comps w s = _
    unfold penetrationDepth
    rw [hc1]
    dsimp only
    rw [hsum, if_neg (by rw [not_le]; exact ha.trans_le (le_abs_self _))]
    rfl
  · intro ray d s hw hu
    obtain ⟨i, hi, hpick, -⟩ := Material.component_total hpos (u := s 0)
      (by rw [hsum]; linarith [show (0 : ℝ) < 1e-8 by norm_num]) (hu 0).1 (hu 0).2
    have hl := (coefficients_ok hc1).length_eq
    have hi' : i < (D.scene.node 1).comps.length := by omega
    have hp : (ops D B method).component 1 w s = .ok ((D.scene.node 1).comps[i], fun j => s (j + 1)) := by
      show pickComponent reader (D.scene.node 1).comps w s = _
      unfold pickComponent
      rw [hc1]
      simp only [reader, hpick, List.getElem?_eq_getElem hi']
    have hk := (h.black _ (List.getElem_mem hi')).1
    generalize (D.scene.node 1).comps[i] = c at hp hk
    have hrad : ∀ r s, (ops D B method).isRadiative c r s = .ok (false, s) := by
      intro r s
      simp [pyOps, Comp.isRadiative, hk]
    have hkk : (ops D B method).compKind c = .absorber := hk
    obtain ⟨r', s', hna⟩ : ∃ r' s', (ops D B method).nonradiativeAbsorb c
        (ray.propagate d ((ops D B method).refractiveIndex 1)) (fun j => s (j + 1)) = .ok (r', s') :=
      ⟨_, _, rfl⟩
    have hw' : (ray.propagate d ((ops D B method).refractiveIndex 1)).wavelength = w := hw
    unfold absorbBody
    dsimp only
    rw [hw', hp]
    dsimp only
    rw [hrad]
    dsimp only
    rw [hna]
    dsimp only
    rw [hkk]
    exact ⟨_, _, rfl, rfl, .inl rfl⟩

/-! ### The beam -/

/-- The sides of the slab the ray is at after `i` passes, and its direction then. -/
def sgn (i : ℕ) : ℝ := (-1) ^ i

theorem sgn_cases (i : ℕ) : sgn i = 1 ∨ sgn i = -1 := neg_one_pow_eq_or ℝ i

theorem sgn_succ (i : ℕ) : sgn (i + 1) = - sgn i := by simp [sgn, pow_succ]

theorem neg_sgn (i : ℕ) : -sgn i = 1 ∨ -sgn i = -1 := by
  rcases sgn_cases i with h | h <;> simp [h]

/-- Distance from the axis point of the beam to the edge of the world. -/
theorem world_far (h : Lit D B w a x y z) : D.size.z / 2 + epsZero < √(D.world ^ 2 - x ^ 2 - y ^ 2) ∧
    -z < √(D.world ^ 2 - x ^ 2 - y ^ 2) := by
  have h1 := h.below
  have h2 := h.inside.2
  have h3 := epsZero_pos.trans h.thick
  have h4 := epsZero_pos
  have : -z < √(D.world ^ 2 - x ^ 2 - y ^ 2) := Real.lt_sqrt_of_sq_lt (by nlinarith)
  exact ⟨by linarith, this⟩

theorem face_in (h : Lit D B w a x y z) {e u t : ℝ} (he : e = 1 ∨ e = -1) (hu : u = 1 ∨ u = -1)
    (h0 : 0 ≤ t) (h1 : t ≤ epsZero) :
    x ^ 2 + y ^ 2 + (e * (D.size.z / 2) + t * u) ^ 2 < D.world ^ 2 := by
  have h3 := epsZero_pos.trans h.thick
  have h4 := h.below
  have h5 := h.inside.2
  have : (e * (D.size.z / 2) + t * u) ^ 2 ≤ z ^ 2 := by
    rw [sq_le_sq]
    refine le_trans (abs_add_le _ _) ?_
    have e1 : |e| = 1 := by rcases he with rfl | rfl <;> norm_num
    have u1 : |u| = 1 := by rcases hu with rfl | rfl <;> norm_num
    rw [abs_mul, abs_mul, e1, u1, abs_of_nonneg h0, abs_of_pos (show 0 < D.size.z / 2 by linarith),
      abs_of_neg (show z < 0 by linarith [epsZero_pos])]
    linarith
  linarith

theorem face_in' (h : Lit D B w a x y z) {e : ℝ} (he : e = 1 ∨ e = -1) :
    x ^ 2 + y ^ 2 + (e * (D.size.z / 2)) ^ 2 < D.world ^ 2 := by
  have := face_in h he (.inl rfl) le_rfl epsZero_pos.le
  simpa using this

theorem caught (h : Lit D B w a x y z) : Caught (ops D B method) 1 D.size.z (R D)
    (fun i => ⟨x, y, -sgn i * (D.size.z / 2)⟩) (fun i => ⟨0, 0, sgn i⟩) (fun i => ⟨0, 0, sgn i⟩) := by
  have hz := h.thick
  have hz0 := epsZero_pos.trans hz
  have hw := world_far h
  have he := epsZero_pos
  refine ⟨?_, ?_, ?_⟩
  · intro i
    ext <;> simp [sgn_succ]
    ring
  · intro i
    refine ⟨⟨1, 1, some 0, _, 2 * (D.size.z / 2)⟩, meets h (sgn_cases i) (face_in' h (neg_sgn i))
      (fun t => face_in h (neg_sgn i) (sgn_cases i)) (next_inside ?_ (by linarith) (by linarith)),
      rfl, by simp; ring, ?_⟩
    · have := unit_sq (sgn_cases i); linear_combination (-(D.size.z / 2)) * this
    · simp only [sgn_succ, neg_neg]
      exact splits h (sgn_cases i) (sgn_cases i) (by decide)
  · intro i
    refine ⟨⟨0, 0, none, _, _⟩, meets (g := - sgn (i + 1) * (D.size.z / 2)) h (sgn_cases i)
      (face_in' h (neg_sgn _)) (fun t => face_in h (neg_sgn _) (sgn_cases i))
      (next_outside ?_ (by linarith) (by linarith)), rfl⟩
    have := unit_sq (sgn_cases i)
    rw [sgn_succ]
    linear_combination (D.size.z / 2) * this

/-- The beam. -/
structure Beam (x y z w : ℝ) (ray : Ray ℝ) : Prop where
  position : ray.position = ⟨x, y, z⟩
  direction : ray.direction = ⟨0, 0, 1⟩
  wavelength : ray.wavelength = w

theorem enters (h : Lit D B w a x y z) {ray : Ray ℝ} (hb : Beam x y z w ray) :
    Enters (ops D B method) (R D) w ray ⟨x, y, -sgn 0 * (D.size.z / 2)⟩ ⟨0, 0, sgn 0⟩ ⟨0, 0, -1⟩ := by
  have hz := h.thick
  have hz0 := epsZero_pos.trans hz
  have hw := world_far h
  have he := epsZero_pos
  have h4 := h.below
  have h5 := h.inside.2
  have s0 : sgn 0 = 1 := by simp [sgn]
  refine ⟨hb.wavelength, ?_, ?_⟩
  · rw [hb.position, hb.direction, s0]
    refine ⟨⟨1, 0, some 1, _, -(1 * z) - D.size.z / 2⟩, meets h (.inl rfl) (by linarith) ?_
      (next_front (by linarith) (by linarith) (by linarith) (by linarith) rfl), clear_world w, ?_, ?_⟩
    · intro t h0 h1
      have : (z + t * 1) ^ 2 ≤ z ^ 2 := by
        rw [sq_le_sq, abs_of_neg (by linarith), abs_of_neg (by linarith)]; linarith
      linarith
    · ext <;> simp
      ring
    · exact splits h (.inr rfl) (.inl rfl) (by decide)
  · rw [s0]
    refine ⟨⟨0, 0, none, _, _⟩, meets (g := - 1 * (D.size.z / 2)) h (.inr rfl)
      (face_in' h (.inr rfl)) (fun t => face_in h (.inr rfl) (.inr rfl))
      (next_outside (by ring) (by linarith) (by linarith)), rfl⟩

/-! ### Textbook values -/

/-- Beer–Lambert transmission of one pass through the slab. -/
def pass (D : Slab) (a : ℝ) : ℝ := Real.exp (-(a * D.size.z))

/-- Light that has gone through, with all internal reflections:
`T = (1 − R)² q / (1 − R² q²)`. -/
def transmittance (R q : ℝ) : ℝ := (1 - R) ^ 2 * q / (1 - (R * q) ^ 2)

/-- Light that has come back: `R + (1 − R)² R q² / (1 − R² q²)`. -/
def reflectance (R q : ℝ) : ℝ := R + (1 - R) ^ 2 * R * q ^ 2 / (1 - (R * q) ^ 2)

/-- Light that has stayed: `(1 − R) (1 − q) / (1 − R q)`. -/
def absorptance (R q : ℝ) : ℝ := (1 - R) * (1 - q) / (1 - R * q)

/-- Nothing is lost. -/
theorem balance {R q : ℝ} (h0 : 0 ≤ R) (h1 : R < 1) (q0 : 0 < q) (q1 : q ≤ 1) :
    transmittance R q + reflectance R q + absorptance R q = 1 := by
  have hx : R * q < 1 := by nlinarith
  have hx0 : 0 ≤ R * q := by positivity
  have e1 : 1 - R * q ≠ 0 := by linarith
  have e2 : 1 + R * q ≠ 0 := by linarith
  have e3 : 1 - (R * q) ^ 2 = (1 - R * q) * (1 + R * q) := by ring
  unfold transmittance reflectance absorptance
  rw [e3]
  field_simp
  ring

/-- The passes with an even number of reflections up to `m`, and what is missing to all of them. -/
theorem even_sum {A X : ℝ} (hX : 1 - X ^ 2 ≠ 0) (m : ℕ) :
    A / (1 - X ^ 2) - (∑ k ∈ Finset.range m, if Even k then A * X ^ k else 0) =
      A / (1 - X ^ 2) * X ^ (if Even m then m else m + 1) := by
  induction m with
  | zero => simp
  | succ m ih =>
    rw [Finset.sum_range_succ, ← sub_sub, ih]
    by_cases h : Even m
    · have h' : ¬ Even (m + 1) := by rw [Nat.even_add_one]; simpa using h
      simp only [h, h', if_true, if_false]
      field_simp
      ring
    · have h' : Even (m + 1) := by rw [Nat.even_add_one]; exact h
      simp only [h, h', if_true, if_false]
      ring

theorem odd_sum {A X : ℝ} (hX : 1 - X ^ 2 ≠ 0) (m : ℕ) :
    A * X / (1 - X ^ 2) - (∑ k ∈ Finset.range m, if Even k then 0 else A * X ^ k) =
      A / (1 - X ^ 2) * X ^ (if Even m then m + 1 else m) := by
  induction m with
  | zero => simp; ring
  | succ m ih =>
    rw [Finset.sum_range_succ, ← sub_sub, ih]
    by_cases h : Even m
    · have h' : ¬ Even (m + 1) := by rw [Nat.even_add_one]; simpa using h
      simp only [h, h', if_true, if_false]
      ring
    · have h' : Even (m + 1) := by rw [Nat.even_add_one]; exact h
      simp only [h, h', if_true, if_false]
      field_simp
      ring

section Textbook
variable {ray : Ray ℝ} (h : Lit D B w a x y z) (hb : Beam x y z w ray)
include h

theorem pass_bounds : 0 < pass D a ∧ pass D a < 1 := by
  have h1 := epsZero_pos.trans h.thick
  have h2 : 0 < a := lt_trans (by norm_num) h.seen
  refine ⟨Real.exp_pos _, Real.exp_lt_one_iff.2 ?_⟩
  nlinarith [mul_pos h1 h2]

theorem geometric_bounds : 0 ≤ R D * pass D a ∧ R D * pass D a < 1 ∧
    0 ≤ (1 - R D) ^ 2 * pass D a / (1 - (R D * pass D a) ^ 2) ∧
    (1 - R D) ^ 2 * pass D a / (1 - (R D * pass D a) ^ 2) ≤ 1 := by
  obtain ⟨r0, r1⟩ := R_pos h
  obtain ⟨q0, q1⟩ := pass_bounds h
  have hx : R D * pass D a < 1 := by nlinarith
  have hx0 : 0 ≤ R D * pass D a := by positivity
  have hd : 0 < 1 - (R D * pass D a) ^ 2 := by nlinarith
  refine ⟨hx0, hx, by positivity, ?_⟩
  rw [div_le_one hd]
  have h1 : (1 - R D) ^ 2 * pass D a ≤ 1 - R D := by
    have : (1 - R D) * pass D a ≤ 1 := by nlinarith
    nlinarith
  have h2 : R D * pass D a ≤ R D := by nlinarith
  have h3 : (R D * pass D a) ^ 2 ≤ R D * pass D a := by nlinarith
  linarith

include hb

/-- **C90** Of all rays of the beam, the part that leaves the scene behind the slab is the transmittance
of the textbook, up to the rays cut off by the limit on the number of steps: at most `(R q)^(n - 2)`
for a limit of `n` steps. -/
theorem transmitted_fraction (n : ℕ) :
    ∃ T : ℝ, chance (Ends (ops D B method) (n + 2) ray .exit ⟨0, 0, 1⟩) = ENNReal.ofReal T ∧
      T ≤ transmittance (R D) (pass D a) ∧
      transmittance (R D) (pass D a) ≤ T + (R D * pass D a) ^ n := by
  obtain ⟨r0, r1⟩ := R_pos h
  obtain ⟨q0, q1⟩ := pass_bounds h
  obtain ⟨x0, x1, A0, A1⟩ := geometric_bounds h
  have hL : 0 ≤ D.size.z := (epsZero_pos.trans h.thick).le
  have key := PathLaw.ends_law (caught (method := method) h) (attenuates h) (lt_trans (by norm_num) h.seen)
    (enters h hb) r0.le r1.le hL n ⟨0, 0, 1⟩
  rw [key]
  refine ⟨_, rfl, ?_⟩
  have e : ((if (⟨0, 0, -1⟩ : Vec3 ℝ) = ⟨0, 0, 1⟩ then R D else 0) + ∑ k ∈ Finset.range n,
      if (⟨0, 0, sgn k⟩ : Vec3 ℝ) = ⟨0, 0, 1⟩ then
        (1 - R D) * (R D * Real.exp (-(a * D.size.z))) ^ k * Real.exp (-(a * D.size.z)) * (1 - R D) else 0) =
      ∑ k ∈ Finset.range n, if Even k then (1 - R D) ^ 2 * pass D a * (R D * pass D a) ^ k else 0 := by
    rw [if_neg (by intro h; have := congrArg Vec3.z h; norm_num at this), zero_add]
    refine Finset.sum_congr rfl fun k _ => ?_
    have : ((⟨0, 0, sgn k⟩ : Vec3 ℝ) = ⟨0, 0, 1⟩) ↔ Even k := by
      rw [Vec3.mk.injEq]
      simp only [true_and, sgn]
      rcases Nat.even_or_odd k with hk | hk
      · simp [hk]
      · simp only [hk.neg_one_pow, Nat.not_even_iff_odd.2 hk, iff_false]; norm_num
    simp only [this, pass]
    split <;> ring
  rw [e]
  have hs := even_sum (A := (1 - R D) ^ 2 * pass D a) (X := R D * pass D a)
    (by have : (R D * pass D a) ^ 2 < 1 := by nlinarith
        linarith) n
  unfold transmittance
  have hp : (R D * pass D a) ^ (if Even n then n else n + 1) ≤ (R D * pass D a) ^ n := by
    split
    · exact le_rfl
    · exact pow_le_pow_of_le_one x0 x1.le (Nat.le_succ n)
  have hp0 : 0 ≤ (R D * pass D a) ^ (if Even n then n else n + 1) := pow_nonneg x0 _
  constructor
  · nlinarith [mul_nonneg A0 hp0]
  · nlinarith [mul_le_mul_of_nonneg_right A1 hp0]

/-- **C90** The part that comes back is the reflectance of the textbook, up to the same error. -/
theorem reflected_fraction (n : ℕ) :
    ∃ T : ℝ, chance (Ends (ops D B method) (n + 2) ray .exit ⟨0, 0, -1⟩) = ENNReal.ofReal T ∧
      T ≤ reflectance (R D) (pass D a) ∧
      reflectance (R D) (pass D a) ≤ T + (R D * pass D a) ^ n := by
  obtain ⟨r0, r1⟩ := R_pos h
  obtain ⟨q0, q1⟩ := pass_bounds h
  obtain ⟨x0, x1, A0, A1⟩ := geometric_bounds h
  have hL : 0 ≤ D.size.z := (epsZero_pos.trans h.thick).le
  have key := PathLaw.ends_law (caught (method := method) h) (attenuates h) (lt_trans (by norm_num) h.seen)
    (enters h hb) r0.le r1.le hL n ⟨0, 0, -1⟩
  rw [key]
  refine ⟨_, rfl, ?_⟩
  have e : ((if (⟨0, 0, -1⟩ : Vec3 ℝ) = ⟨0, 0, -1⟩ then R D else 0) + ∑ k ∈ Finset.range n,
      if (⟨0, 0, sgn k⟩ : Vec3 ℝ) = ⟨0, 0, -1⟩ then
        (1 - R D) * (R D * Real.exp (-(a * D.size.z))) ^ k * Real.exp (-(a * D.size.z)) * (1 - R D) else 0) =
      R D + ∑ k ∈ Finset.range n, if Even k then 0 else (1 - R D) ^ 2 * pass D a * (R D * pass D a) ^ k := by
    rw [if_pos rfl]
    congr 1
    refine Finset.sum_congr rfl fun k _ => ?_
    have : ((⟨0, 0, sgn k⟩ : Vec3 ℝ) = ⟨0, 0, -1⟩) ↔ ¬ Even k := by
      rw [Vec3.mk.injEq]
      simp only [true_and, sgn]
      rcases Nat.even_or_odd k with hk | hk
      · simp only [hk.neg_one_pow, hk, not_true, iff_false]; norm_num
      · simp [hk.neg_one_pow, hk]
    simp only [this, pass]
    by_cases hk : Even k
    · simp [hk]
    · simp only [hk, not_false_eq_true, if_true, if_false]; ring
  rw [e]
  have hs := odd_sum (A := (1 - R D) ^ 2 * pass D a) (X := R D * pass D a)
    (by have : (R D * pass D a) ^ 2 < 1 := by nlinarith
        linarith) n
  have e2 : reflectance (R D) (pass D a) = R D + (1 - R D) ^ 2 * pass D a * (R D * pass D a) /
      (1 - (R D * pass D a) ^ 2) := by
    unfold reflectance; congr 2; ring
  rw [e2]
  have hp : (R D * pass D a) ^ (if Even n then n + 1 else n) ≤ (R D * pass D a) ^ n := by
    split
    · exact pow_le_pow_of_le_one x0 x1.le (Nat.le_succ n)
    · exact le_rfl
  have hp0 : 0 ≤ (R D * pass D a) ^ (if Even n then n + 1 else n) := pow_nonneg x0 _
  constructor
  · nlinarith [mul_nonneg A0 hp0]
  · nlinarith [mul_le_mul_of_nonneg_right A1 hp0]

/-- **C90** The part that is absorbed is the absorptance of the textbook, up to the same error. -/
theorem absorbed_fraction (n : ℕ) :
    ∃ T : ℝ, chance (Lost (ops D B method) (n + 2) ray) = ENNReal.ofReal T ∧
      T ≤ absorptance (R D) (pass D a) ∧
      absorptance (R D) (pass D a) ≤ T + (R D * pass D a) ^ n := by
  obtain ⟨r0, r1⟩ := R_pos h
  obtain ⟨q0, q1⟩ := pass_bounds h
  obtain ⟨x0, x1, A0, A1⟩ := geometric_bounds h
  have hL : 0 ≤ D.size.z := (epsZero_pos.trans h.thick).le
  have key := PathLaw.lost_law (caught (method := method) h) (attenuates h) (lt_trans (by norm_num) h.seen)
    (enters h hb) r0.le r1.le hL n
  rw [key]
  refine ⟨_, rfl, ?_⟩
  change (∑ k ∈ Finset.range (n + 1), (1 - R D) * (R D * pass D a) ^ k * (1 - pass D a)) ≤ _ ∧ _ ≤
    (∑ k ∈ Finset.range (n + 1), (1 - R D) * (R D * pass D a) ^ k * (1 - pass D a)) + _
  have hne : 1 - R D * pass D a ≠ 0 := by linarith
  have e : (∑ k ∈ Finset.range (n + 1), (1 - R D) * (R D * pass D a) ^ k * (1 - pass D a)) =
      absorptance (R D) (pass D a) - absorptance (R D) (pass D a) * (R D * pass D a) ^ (n + 1) := by
    rw [← Finset.sum_mul, ← Finset.mul_sum, geom_sum_eq (by linarith)]
    unfold absorptance
    have : R D * pass D a - 1 ≠ 0 := by linarith
    field_simp
    ring
  rw [e]
  have b0 : 0 ≤ absorptance (R D) (pass D a) := by
    unfold absorptance
    exact div_nonneg (mul_nonneg (by linarith) (by linarith)) (by linarith)
  have b1 : absorptance (R D) (pass D a) ≤ 1 := by
    unfold absorptance
    rw [div_le_one (by linarith)]
    nlinarith
  have hp : (R D * pass D a) ^ (n + 1) ≤ (R D * pass D a) ^ n :=
    pow_le_pow_of_le_one x0 x1.le (Nat.le_succ n)
  have hp0 : 0 ≤ (R D * pass D a) ^ (n + 1) := pow_nonneg x0 _
  constructor
  · nlinarith [mul_nonneg b0 hp0]
  · nlinarith [mul_le_mul_of_nonneg_right b1 hp0]

end Textbook

/-! ### A slab of tinted glass -/

def tinted : Slab := ⟨10, 1, 1.5, ⟨4, 4, 1⟩,
  [⟨"tint", .absorber, .const 2, .const 0, 0, none, none, .isotropic⟩]⟩

theorem tinted_lit : Lit tinted kBox 555 2 0.1 0.2 (-3) where
  air := by norm_num [tinted]
  glass := by norm_num [tinted]
  differ := by norm_num [tinted]
  ratio := by norm_num [tinted]
  wide := by norm_num [tinted]
  thick := by norm_num [tinted, epsZero]
  black c hc := by
    simp only [tinted, List.mem_singleton] at hc
    subst hc
    exact ⟨rfl, ⟨.inl ⟨2, by norm_num, rfl⟩, by simp, by simp⟩, .inl ⟨2, rfl⟩⟩
  alpha := ⟨[2], by simp [tinted, coefficients, Comp.coefficient, PV.Dist.call]; done, by simp, by simp⟩
  seen := by norm_num
  within := by norm_num [tinted, epsZero, abs_of_pos]
  below := by norm_num [tinted, epsZero]
  inside := by norm_num [tinted]
  trimesh h u hu := by
    change ((kBox tinted.size ⟨0.1, 0.2, h⟩ ⟨0, 0, u⟩).filter _).Perm (kBox tinted.size ⟨0.1, 0.2, h⟩ ⟨0, 0, u⟩)
    rw [box_line hu (by norm_num [tinted]) (by norm_num [tinted, abs_of_pos])
      (by norm_num [tinted, abs_of_pos]), List.filter_filter]
    simp

/-- Reflectivity 4 %: of the light that meets a slab of optical depth 2 about 12.5 % come through. -/
example : R tinted = 0.04 ∧ pass tinted 2 = Real.exp (-2) ∧
    transmittance (R tinted) (pass tinted 2) =
      0.9216 * Real.exp (-2) / (1 - (0.04 * Real.exp (-2)) ^ 2) := by
  have h : R tinted = 0.04 := by norm_num [R, tinted]
  have h' : pass tinted 2 = Real.exp (-2) := by norm_num [pass, tinted]
  refine ⟨h, h', ?_⟩
  rw [transmittance, h, h']
  norm_num

example (n : ℕ) : ∃ T : ℝ, chance (Ends (ops tinted kBox .kT) (n + 2)
    ⟨⟨0.1, 0.2, -3⟩, ⟨0, 0, 1⟩, 555, 0, 0, none⟩ .exit ⟨0, 0, 1⟩) = ENNReal.ofReal T ∧
      T ≤ transmittance (R tinted) (pass tinted 2) ∧
      transmittance (R tinted) (pass tinted 2) ≤ T + (R tinted * pass tinted 2) ^ n :=
  transmitted_fraction tinted_lit ⟨rfl, rfl, rfl⟩ n

/-- Two internal reflections before the light leaves. -/
example : chance (History (ops tinted kBox .kT) 10 ⟨⟨0.1, 0.2, -3⟩, ⟨0, 0, 1⟩, 555, 0, 0, none⟩
    [.generate, .transmit, .reflect, .reflect, .transmit, .exit]) =
      ENNReal.ofReal ((1 - R tinted) * (R tinted * Real.exp (-(2 * 1))) ^ 2 * Real.exp (-(2 * 1)) *
        (1 - R tinted)) :=
  PathLaw.left_law (caught (method := .kT) tinted_lit) (attenuates tinted_lit) (by norm_num)
    (enters tinted_lit ⟨rfl, rfl, rfl⟩) (R_pos tinted_lit).1.le (R_pos tinted_lit).2.le
    (by norm_num [tinted]) (m := 8) (k := 2) (by norm_num)

end
end PV.Slab
