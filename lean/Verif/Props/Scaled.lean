import Verif.Spec.Scaled
import Verif.Props.Budget
import Verif.Props.Agreement

/-!
**C108**: the unit of length does not matter, as far as the absolute tolerances in the code do not.
-/

namespace PV.Scaled
open PV PV.Geometry PV.Solid
noncomputable section
variable {σ : Type} {n : ℕ} {k : ℝ}

theorem point_scaled (k : ℝ) (m : Affine ℝ) (p : Vec3 ℝ) : (m.scaled k).point (k • p) = k • m.point p := by
  ext <;> simp [Affine.scaled, Affine.point, Affine.vec, Vec3.dot] <;> ring

theorem vec_scaled (k : ℝ) (m : Affine ℝ) (p : Vec3 ℝ) : (m.scaled k).vec p = m.vec p := rfl

theorem closed_scaled (hk : 0 < k) (g : Geom) (p : Vec3 ℝ) : Closed (g.scaled k) (k • p) ↔ Closed g p := by
  cases g with
  | box s =>
    simp only [Geom.scaled, Closed, Vec3.smul_x, Vec3.smul_y, Vec3.smul_z, abs_mul, abs_of_pos hk, mul_div_assoc,
      mul_le_mul_iff_right₀ hk]
  | sphere r =>
    simp only [Geom.scaled, Closed, Vec3.smul_x, Vec3.smul_y, Vec3.smul_z, mul_pow, ← mul_add,
      mul_le_mul_iff_right₀ (pow_pos hk 2)]
  | cylinder l r =>
    simp only [Geom.scaled, Closed, Vec3.smul_x, Vec3.smul_y, Vec3.smul_z, mul_pow, ← mul_add, abs_mul, abs_of_pos hk,
      mul_div_assoc, mul_le_mul_iff_right₀ (pow_pos hk 2), mul_le_mul_iff_right₀ hk]

theorem inner_scaled (hk : 0 < k) (g : Geom) (p : Vec3 ℝ) : Solid.Inner (g.scaled k) (k • p) ↔ Solid.Inner g p := by
  cases g with
  | box s =>
    simp only [Geom.scaled, Solid.Inner, Vec3.smul_x, Vec3.smul_y, Vec3.smul_z, abs_mul, abs_of_pos hk, mul_div_assoc,
      mul_lt_mul_iff_right₀ hk]
  | sphere r =>
    simp only [Geom.scaled, Solid.Inner, Vec3.smul_x, Vec3.smul_y, Vec3.smul_z, mul_pow, ← mul_add,
      mul_lt_mul_iff_right₀ (pow_pos hk 2)]
  | cylinder l r =>
    simp only [Geom.scaled, Solid.Inner, Vec3.smul_x, Vec3.smul_y, Vec3.smul_z, mul_pow, ← mul_add, abs_mul, abs_of_pos hk,
      mul_div_assoc, mul_lt_mul_iff_right₀ (pow_pos hk 2), mul_lt_mul_iff_right₀ hk]

theorem surface_scaled (hk : 0 < k) (g : Geom) (p : Vec3 ℝ) : Surface (g.scaled k) (k • p) ↔ Surface g p := by
  rw [Surface, Surface, closed_scaled hk, inner_scaled hk]

theorem proper_scaled (hk : 0 < k) {g : Geom} (h : Proper g) : Proper (g.scaled k) := by
  cases g with
  | box s => exact ⟨mul_pos hk h.1, mul_pos hk h.2.1, mul_pos hk h.2.2⟩
  | sphere r => exact mul_pos hk h
  | cylinder l r => exact ⟨mul_pos hk h.1, mul_pos hk h.2⟩

theorem clear_scaled {g : Geom} {d : Vec3 ℝ} (h : ClearDir g d) : ClearDir (g.scaled k) d := by
  cases g <;> exact h

/-- Every distance reported by the engine belongs to a point of the surface. -/
theorem engine_sound {g : Geom} {o d : Vec3 ℝ} (hp : Proper g) (hc : ClearDir g d) {t : ℝ} (h : t ∈ kIntersect g o d) :
    Surface g (o + t • d) := by
  cases g with
  | box s =>
    by_cases hd : d.x ≠ 0 ∨ d.y ≠ 0 ∨ d.z ≠ 0
    · rcases box_core' (o := o) hp hc hd with ⟨-, h2⟩ | ⟨a, b, h1, h2, h3⟩
      · rw [kIntersect, h2] at h; cases h
      · rw [kIntersect, h3] at h
        split_ifs at h with hab
        · cases h
        · have hab := not_lt.1 hab
          simp only [ahead, List.mem_filter, List.mem_cons, List.not_mem_nil, or_false] at h
          refine ⟨(h1 t).2 ?_, fun hi => ?_⟩
          · rcases h.1 with rfl | rfl
            · exact ⟨le_rfl, hab⟩
            · exact ⟨hab, le_rfl⟩
          · have := (h2 ⟨t, hi⟩ t).1 hi
            rcases h.1 with rfl | rfl
            · exact lt_irrefl _ this.1
            · exact lt_irrefl _ this.2
    · push Not at hd
      exfalso
      obtain ⟨h1, h2, h3⟩ := hd
      have ht : |(0 : ℝ)| < tiny := by rw [abs_zero]; unfold tiny; positivity
      have key : ∀ size o : ℝ, kSlab size o 0 (none, none) = none ∨ kSlab size o 0 (none, none) = some (none, none) := by
        intro size o
        simp only [kSlab, ht, if_true]
        split_ifs
        · exact .inl rfl
        · exact .inr rfl
      simp only [kIntersect, kBox, h1, h2, h3] at h
      rcases key s.x o.x with e | e <;> rw [e] at h
      · simp at h
      · simp only [Option.bind_some] at h
        rcases key s.y o.y with e | e <;> rw [e] at h
        · simp at h
        · simp only [Option.bind_some] at h
          rcases key s.z o.z with e | e <;> rw [e] at h <;> simp at h
  | sphere r =>
    have h : t ∈ kSphere r o d := h
    rw [kSphere_eq] at h
    split_ifs at h with hd
    · cases h
    · simp only [ahead, List.mem_filter, List.mem_cons, List.not_mem_nil, or_false, decide_eq_true_eq] at h
      have h0 : (0 : ℝ) < epsZero := by unfold epsZero; norm_num
      have ha : 0 < d.dot d := by
        rcases (show 0 ≤ d.dot d by simp only [Vec3.dot]; nlinarith [mul_self_nonneg d.x, mul_self_nonneg d.y, mul_self_nonneg d.z]).lt_or_eq with ha | ha
        · exact ha
        · exfalso
          rw [← ha] at h
          simp at h
          linarith
      have := ((Geo.quad_spec ha (not_lt.1 hd) t).2.2).2 h.1
      have e := sphere_quad r o d t
      have : (o + t • d).x ^ 2 + (o + t • d).y ^ 2 + (o + t • d).z ^ 2 = r ^ 2 := by linarith
      exact ⟨this.le, fun hi => by
        have hi : (o + t • d).x ^ 2 + (o + t • d).y ^ 2 + (o + t • d).z ^ 2 < r ^ 2 := hi
        linarith⟩
  | cylinder l r => exact (cylinder_engine_sound hp.1 hc h).2

/-- The distances before those behind the ray are dropped. -/
def raw : Geom → Vec3 ℝ → Vec3 ℝ → List ℝ
  | .box size, o, d =>
    match ((kSlab size.x o.x d.x (none, none)).bind (kSlab size.y o.y d.y)).bind
        (kSlab size.z o.z d.z) with
    | some (some tmin, some tmax) => if tmax < tmin then [] else [tmin, tmax]
    | _ => []
  | .sphere radius, o, d =>
    let a := d.dot d
    let b := 2 * d.dot o
    let c := o.dot o - radius * radius
    let disc := b * b - 4 * a * c
    if disc < 0 then [] else [(-b - Real.sqrt disc) / (2 * a), (-b + Real.sqrt disc) / (2 * a)]
  | .cylinder length radius, o, d =>
    let half := 0.5 * length
    let a := d.x * d.x + d.y * d.y
    let side :=
      if a > tiny then
        let b := 2 * (o.x * d.x + o.y * d.y)
        let c := o.x * o.x + o.y * o.y - radius * radius
        let disc := b * b - 4 * a * c
        if disc ≥ 0 then
          let sq := Real.sqrt disc
          [(-b - sq) / (2 * a), (-b + sq) / (2 * a)].filter
            (fun t => o.z + t * d.z > -half ∧ o.z + t * d.z < half)
        else []
      else []
    let caps :=
      if |d.z| > tiny then
        [(-half - o.z) / d.z, (half - o.z) / d.z].filter
          (fun t => (o.x + t * d.x) * (o.x + t * d.x) + (o.y + t * d.y) * (o.y + t * d.y) ≤
            radius * radius)
      else []
    side ++ caps

theorem intersect_raw (g : Geom) (o d : Vec3 ℝ) : kIntersect g o d = (raw g o d).filter (fun t => t > epsZero) := by
  cases g with
  | box s =>
    simp only [kIntersect, kBox, raw]
    match ((kSlab s.x o.x d.x (none, none)).bind (kSlab s.y o.y d.y)).bind (kSlab s.z o.z d.z) with
    | some (some tmin, some tmax) => simp only; split_ifs <;> rfl
    | none => rfl
    | some (none, _) => rfl
    | some (some _, none) => rfl
  | sphere r =>
    simp only [kIntersect, kSphere, raw]
    split_ifs <;> rfl
  | cylinder l r => rfl

theorem slab_scaled (hk : 0 < k) (size o d : ℝ) (acc : Option ℝ × Option ℝ) :
    kSlab (k * size) (k * o) d (acc.1.map (k * ·), acc.2.map (k * ·)) =
      (kSlab size o d acc).map fun a => (a.1.map (k * ·), a.2.map (k * ·)) := by
  unfold kSlab
  have e1 : -0.5 * (k * size) = k * (-0.5 * size) := by ring
  have e2 : 0.5 * (k * size) = k * (0.5 * size) := by ring
  have e3 : ∀ a b : ℝ, (k * a - k * b) * (1 / d) = k * ((a - b) * (1 / d)) := fun a b => by ring
  simp only [e1, e2, e3, gt_iff_lt, mul_lt_mul_iff_right₀ hk]
  split_ifs <;> first | rfl | skip
  all_goals
    obtain ⟨a, b⟩ := acc
    cases a <;> cases b <;> simp only [Option.map_none, Option.map_some, mul_lt_mul_iff_right₀ hk] <;> split_ifs <;> rfl

theorem raw_scaled (hk : 0 < k) (g : Geom) (o d : Vec3 ℝ) : raw (g.scaled k) (k • o) d = (raw g o d).map (k * ·) := by
  have hk2 : 0 < k ^ 2 := pow_pos hk 2
  have hs : ∀ x : ℝ, Real.sqrt (k ^ 2 * x) = k * Real.sqrt x := fun x => by
    rw [Real.sqrt_mul hk2.le, Real.sqrt_sq hk.le]
  cases g with
  | box s =>
    simp only [Geom.scaled, raw, Vec3.smul_x, Vec3.smul_y, Vec3.smul_z]
    have h1 := slab_scaled hk s.x o.x d.x (none, none)
    simp only [Option.map_none] at h1
    rw [h1]
    cases kSlab s.x o.x d.x (none, none) with
    | none => rfl
    | some a =>
      simp only [Option.map_some, Option.bind_some]
      rw [slab_scaled hk s.y o.y d.y a]
      cases kSlab s.y o.y d.y a with
      | none => rfl
      | some b =>
        simp only [Option.map_some, Option.bind_some]
        rw [slab_scaled hk s.z o.z d.z b]
        cases kSlab s.z o.z d.z b with
        | none => rfl
        | some c =>
          obtain ⟨x, y⟩ := c
          cases x <;> cases y <;> simp only [Option.map_none, Option.map_some, List.map_nil]
          simp only [mul_lt_mul_iff_right₀ hk]
          split_ifs <;> rfl
  | sphere r =>
    simp only [Geom.scaled, raw]
    have e1 : d.dot (k • o) = k * d.dot o := by simp [Vec3.dot]; ring
    have e2 : (k • o).dot (k • o) = k ^ 2 * o.dot o := by simp [Vec3.dot]; ring
    rw [e1, e2]
    have e3 : 2 * (k * d.dot o) * (2 * (k * d.dot o)) - 4 * d.dot d * (k ^ 2 * o.dot o - k * r * (k * r)) =
        k ^ 2 * (2 * d.dot o * (2 * d.dot o) - 4 * d.dot d * (o.dot o - r * r)) := by ring
    rw [e3, hs]
    generalize 2 * d.dot o * (2 * d.dot o) - 4 * d.dot d * (o.dot o - r * r) = D
    have e4 : k ^ 2 * D < 0 ↔ D < 0 := by
      constructor
      · intro h; by_contra hc; have := mul_nonneg hk2.le (not_lt.1 hc); linarith
      · exact fun h => mul_neg_of_pos_of_neg hk2 h
    simp only [e4]
    split_ifs
    · rfl
    · simp only [List.map_cons, List.map_nil]
      congr 1
      · ring
      · congr 1; ring
  | cylinder l r =>
    simp only [Geom.scaled, raw, Vec3.smul_x, Vec3.smul_y, Vec3.smul_z]
    rw [List.map_append]
    have hf : ∀ (l : List ℝ) (p q : ℝ → Prop) [DecidablePred p] [DecidablePred q], (∀ t, p (k * t) ↔ q t) →
        (l.map (k * ·)).filter (fun t => decide (p t)) = (l.filter (fun t => decide (q t))).map (k * ·) := by
      intro l p q _ _ h
      rw [List.filter_map]
      congr 1
      refine List.filter_congr fun t _ => ?_
      simp only [Function.comp_apply, h]
    congr 1
    · by_cases h1 : d.x * d.x + d.y * d.y > tiny
      · rw [if_pos h1, if_pos h1]
        have e3 : 2 * (k * o.x * d.x + k * o.y * d.y) * (2 * (k * o.x * d.x + k * o.y * d.y)) -
              4 * (d.x * d.x + d.y * d.y) * (k * o.x * (k * o.x) + k * o.y * (k * o.y) - k * r * (k * r)) =
            k ^ 2 * (2 * (o.x * d.x + o.y * d.y) * (2 * (o.x * d.x + o.y * d.y)) -
              4 * (d.x * d.x + d.y * d.y) * (o.x * o.x + o.y * o.y - r * r)) := by ring
        rw [e3, hs]
        generalize 2 * (o.x * d.x + o.y * d.y) * (2 * (o.x * d.x + o.y * d.y)) -
              4 * (d.x * d.x + d.y * d.y) * (o.x * o.x + o.y * o.y - r * r) = D
        have e4 : k ^ 2 * D ≥ 0 ↔ D ≥ 0 := by
          constructor
          · intro h; by_contra hc; have := mul_neg_of_pos_of_neg hk2 (not_le.1 hc); linarith
          · exact fun h => mul_nonneg hk2.le h
        simp only [e4]
        split_ifs
        · have e5 : [(-(2 * (k * o.x * d.x + k * o.y * d.y)) - k * Real.sqrt D) / (2 * (d.x * d.x + d.y * d.y)),
                (-(2 * (k * o.x * d.x + k * o.y * d.y)) + k * Real.sqrt D) / (2 * (d.x * d.x + d.y * d.y))] =
              [(-(2 * (o.x * d.x + o.y * d.y)) - Real.sqrt D) / (2 * (d.x * d.x + d.y * d.y)),
                (-(2 * (o.x * d.x + o.y * d.y)) + Real.sqrt D) / (2 * (d.x * d.x + d.y * d.y))].map (k * ·) := by
            simp only [List.map_cons, List.map_nil]
            congr 1
            · ring
            · congr 1; ring
          rw [e5]
          refine hf _ _ _ fun t => ?_
          have e6 : k * o.z + k * t * d.z = k * (o.z + t * d.z) := by ring
          have e7 : -(0.5 * (k * l)) = k * -(0.5 * l) := by ring
          have e8 : 0.5 * (k * l) = k * (0.5 * l) := by ring
          rw [e6, e7, e8, gt_iff_lt, mul_lt_mul_iff_right₀ hk, mul_lt_mul_iff_right₀ hk]
        · rfl
      · rw [if_neg h1, if_neg h1]; rfl
    · by_cases h1 : |d.z| > tiny
      · rw [if_pos h1, if_pos h1]
        have e5 : [(-(0.5 * (k * l)) - k * o.z) / d.z, (0.5 * (k * l) - k * o.z) / d.z] =
            [(-(0.5 * l) - o.z) / d.z, (0.5 * l - o.z) / d.z].map (k * ·) := by
          simp only [List.map_cons, List.map_nil]
          congr 1
          · ring
          · congr 1; ring
        rw [e5]
        refine hf _ _ _ fun t => ?_
        have e6 : (k * o.x + k * t * d.x) * (k * o.x + k * t * d.x) + (k * o.y + k * t * d.y) * (k * o.y + k * t * d.y) =
            k ^ 2 * ((o.x + t * d.x) * (o.x + t * d.x) + (o.y + t * d.y) * (o.y + t * d.y)) := by ring
        have e7 : k * r * (k * r) = k ^ 2 * (r * r) := by ring
        rw [e6, e7, mul_le_mul_iff_right₀ hk2]
      · rw [if_neg h1, if_neg h1]; rfl

/-- The distances reported by the engine, if none is between the tolerance before and after. -/
theorem intersect_scaled (hk : 0 < k) {g : Geom} (hp : Proper g) {o d : Vec3 ℝ} (hc : ClearDir g d)
    (h : ∀ t : ℝ, Surface g (o + t • d) → (epsZero < t ↔ epsZero < k * t)) :
    kIntersect (g.scaled k) (k • o) d = (kIntersect g o d).map (k * ·) := by
  have key : ∀ t ∈ raw g o d, (epsZero < t ↔ epsZero < k * t) := by
    intro t ht
    constructor
    · intro h1
      have : t ∈ kIntersect g o d := by rw [intersect_raw]; exact List.mem_filter.2 ⟨ht, by simpa using h1⟩
      exact (h t (engine_sound hp hc this)).1 h1
    · intro h1
      have : k * t ∈ kIntersect (g.scaled k) (k • o) d := by
        rw [intersect_raw, raw_scaled hk]
        exact List.mem_filter.2 ⟨List.mem_map.2 ⟨t, ht, rfl⟩, by simpa using h1⟩
      have := engine_sound (proper_scaled hk hp) (clear_scaled hc) this
      have e : k • o + (k * t) • d = k • (o + t • d) := by ext <;> simp <;> ring
      rw [e, surface_scaled hk] at this
      exact (h t this).2 h1
  rw [intersect_raw, intersect_raw, raw_scaled hk, List.filter_map]
  congr 1
  refine List.filter_congr fun t ht => ?_
  simp only [Function.comp_apply, gt_iff_lt, key t ht]

/-! ### The next interface -/

/-- Entry of the hit arrays with its distance multiplied. -/
def far {ν : Type} (k : ℝ) (h : KHit ν ℝ) : KHit ν ℝ := ⟨h.node, k * h.t⟩

theorem hits_scaled {ν : Type} (k : ℝ) (l : List ν) (ts : ν → List ℝ) :
    kHits l (fun v => (ts v).map (k * ·)) = (kHits l ts).map (far k) := by
  simp [kHits, List.map_flatMap, far, Function.comp_def]

theorem first_scaled {ν : Type} (hk : 0 < k) (x : KHit ν ℝ) (l : List (KHit ν ℝ)) :
    kFirst (far k x) (l.map (far k)) = (far k (kFirst x l).1, (kFirst x l).2) := by
  unfold kFirst
  rw [List.zipIdx_map, List.foldl_map]
  exact List.foldl_hom (fun b : KHit ν ℝ × ℕ => (far k b.1, b.2)) (by
    intro b y
    by_cases h : y.1.t < b.1.t
    · simp [far, Prod.map, h, mul_lt_mul_iff_right₀ hk]
    · simp [far, Prod.map, h, mul_lt_mul_iff_right₀ hk]) (init := (x, 0))

theorem second_scaled {ν : Type} (hk : 0 < k) (i : ℕ) (l : List (KHit ν ℝ)) :
    kSecond i (l.map (far k)) = (kSecond i l).map (far k) := by
  unfold kSecond
  rw [List.zipIdx_map, List.foldl_map]
  exact List.foldl_hom (Option.map (far k)) (by
    intro b y
    by_cases hi : y.2 = i
    · simp [Prod.map, hi]
    cases b with
    | none => simp [Prod.map, hi]
    | some b =>
      by_cases h : y.1.t < b.t
      · simp [far, Prod.map, hi, h, mul_lt_mul_iff_right₀ hk]
      · simp [far, Prod.map, hi, h, mul_lt_mul_iff_right₀ hk]) (init := none)

theorem minT_scaled (hk : 0 < k) (l : List ℝ) : kMinT (l.map (k * ·)) = (kMinT l).map (k * ·) := by
  unfold kMinT
  rw [List.foldl_map]
  exact List.foldl_hom (Option.map (k * ·)) (by
    intro b y
    cases b with
    | none => rfl
    | some b =>
      by_cases h : y < b
      · simp [h, mul_lt_mul_iff_right₀ hk]
      · simp [h, mul_lt_mul_iff_right₀ hk]) (init := none)

theorem container_scaled {ν : Type} (hk : 0 < k) (l : List ν) (ts : ν → List ℝ) :
    kContainer l (fun v => (ts v).map (k * ·)) = (kContainer l ts).map (far k) := by
  unfold kContainer
  exact List.foldl_hom (Option.map (far k)) (by
    intro b y
    simp only [List.length_map, minT_scaled hk]
    split_ifs
    · cases kMinT (ts y) with
      | none => rfl
      | some m =>
        cases b with
        | none => rfl
        | some b =>
          by_cases h : m < b.t
          · simp [far, h, mul_lt_mul_iff_right₀ hk]
          · simp [far, h, mul_lt_mul_iff_right₀ hk]
    · rfl) (init := none)

theorem nextHit_scaled {ν : Type} [DecidableEq ν] (hk : 0 < k) (l : List ν) (ts : ν → List ℝ) :
    kNextHit l (fun v => (ts v).map (k * ·)) =
      (kNextHit l ts).map fun x => (x.1, x.2.1, x.2.2.1, k * x.2.2.2) := by
  unfold kNextHit
  rw [hits_scaled]
  cases kHits l ts with
  | nil => rfl
  | cons x xs =>
    simp only [List.map_cons]
    rw [first_scaled hk]
    cases xs with
    | nil => rfl
    | cons y ys =>
      simp only [List.map_cons, Option.map_some]
      rw [← List.map_cons, ← List.map_cons, second_scaled hk, container_scaled hk]
      cases kContainer l ts with
      | none => simp only [Option.map_none, far, if_true, Option.map_map, Function.comp_def]
      | some c => simp only [Option.map_some, far, Option.map_map, Function.comp_def]

/-! ### Normals, absorption and lifetimes -/

theorem normal_scaled (hk : 0 < k) (g : Geom) (p : Vec3 ℝ)
    (hc : ∀ l r, g = .cylinder l r → ∀ z, z = -0.5 * l ∨ z = 0.5 * l →
      (|p.z - z| ≤ 1e-8 + 1e-5 * |z| ↔ k * |p.z - z| ≤ 1e-8 + k * (1e-5 * |z|))) :
    kNormal (g.scaled k) (k • p) = kNormal g p := by
  have hk2 : 0 < k ^ 2 := pow_pos hk 2
  have hs : ∀ x : ℝ, Real.sqrt (k ^ 2 * x) = k * Real.sqrt x := fun x => by
    rw [Real.sqrt_mul hk2.le, Real.sqrt_sq hk.le]
  cases g with
  | box size =>
    simp only [Geom.scaled, kNormal]
    have key : ∀ (fs : List (Fin 3 × ℝ)) (b : Option (ℝ × Fin 3 × ℝ)),
        fs.foldl (fun best f =>
          match best with
          | none => some (|(k • p).get f.1 - f.2 * 0.5 * (k • size).get f.1|, f)
          | some b => if |(k • p).get f.1 - f.2 * 0.5 * (k • size).get f.1| < b.1 then
              some (|(k • p).get f.1 - f.2 * 0.5 * (k • size).get f.1|, f) else some b) (b.map fun x => (k * x.1, x.2)) =
        (fs.foldl (fun best f =>
          match best with
          | none => some (|p.get f.1 - f.2 * 0.5 * size.get f.1|, f)
          | some b => if |p.get f.1 - f.2 * 0.5 * size.get f.1| < b.1 then
              some (|p.get f.1 - f.2 * 0.5 * size.get f.1|, f) else some b) b).map fun x => (k * x.1, x.2) := by
      intro fs
      induction fs with
      | nil => intro b; rfl
      | cons f fs ih =>
        intro b
        have e : |(k • p).get f.1 - f.2 * 0.5 * (k • size).get f.1| = k * |p.get f.1 - f.2 * 0.5 * size.get f.1| := by
          have : (k • p).get f.1 - f.2 * 0.5 * (k • size).get f.1 = k * (p.get f.1 - f.2 * 0.5 * size.get f.1) := by
            match f.1 with
            | 0 => simp only [Vec3.get, Vec3.smul_x]; ring
            | 1 => simp only [Vec3.get, Vec3.smul_y]; ring
            | 2 => simp only [Vec3.get, Vec3.smul_z]; ring
          rw [this, abs_mul, abs_of_pos hk]
        simp only [List.foldl_cons]
        rw [← ih]
        congr 1
        cases b with
        | none => simp only [Option.map_none, Option.map_some, e]
        | some b =>
          simp only [Option.map_some, e, mul_lt_mul_iff_right₀ hk]
          split_ifs <;> rfl
    have h0 := key faces none
    simp only [Option.map_none] at h0
    have aux : ∀ b : Option (ℝ × Fin 3 × ℝ),
        (fun b : Option (ℝ × Fin 3 × ℝ) => match b with | none => axisNormal 0 1 | some b => axisNormal b.2.1 b.2.2)
            (b.map fun x => (k * x.1, x.2)) =
          (fun b : Option (ℝ × Fin 3 × ℝ) => match b with | none => axisNormal 0 1 | some b => axisNormal b.2.1 b.2.2) b := by
      intro b; cases b <;> rfl
    exact (congrArg (fun b : Option (ℝ × Fin 3 × ℝ) =>
      match b with | none => axisNormal 0 1 | some b => axisNormal b.2.1 b.2.2) h0).trans (aux _)
  | sphere r =>
    simp only [Geom.scaled, kNormal]
    have e2 : (k • p).dot (k • p) = k ^ 2 * p.dot p := by simp [Vec3.dot]; ring
    rw [e2, hs]
    simp only [Vec3.smul_x, Vec3.smul_y, Vec3.smul_z, mul_div_mul_left _ _ hk.ne']
  | cylinder l r =>
    have h1 := hc l r rfl _ (.inl rfl)
    have h2 := hc l r rfl _ (.inr rfl)
    simp only [Geom.scaled, kNormal, Vec3.smul_x, Vec3.smul_y, Vec3.smul_z]
    have a1 : |k * p.z + 0.5 * (k * l)| = k * |p.z - -0.5 * l| := by
      rw [← abs_of_pos hk, ← abs_mul, abs_of_pos hk]; congr 1; ring
    have a2 : |k * p.z - 0.5 * (k * l)| = k * |p.z - 0.5 * l| := by
      rw [← abs_of_pos hk, ← abs_mul, abs_of_pos hk]; congr 1; ring
    have a3 : |0.5 * (k * l)| = k * |0.5 * l| := by
      rw [← abs_of_pos hk, ← abs_mul, abs_of_pos hk]; congr 1; ring
    have a4 : |-0.5 * l| = |0.5 * l| := by rw [← abs_neg]; congr 1; ring
    have a5 : |p.z + 0.5 * l| = |p.z - -0.5 * l| := by congr 1; ring
    rw [a4] at h1
    have a6 : (1e-5 : ℝ) * (k * |0.5 * l|) = k * (1e-5 * |0.5 * l|) := by ring
    rw [a1, a2, a3, a5, a6]
    simp only [← h1, ← h2]
    have e3 : k * p.x * (k * p.x) + k * p.y * (k * p.y) = k ^ 2 * (p.x * p.x + p.y * p.y) := by ring
    rw [e3, hs]
    simp only [mul_div_mul_left _ _ hk.ne']

theorem interp_scaled (k x : ℝ) (xs ys : ℕ → Option ℝ) (n : ℕ) :
    kInterp x xs (fun i => (ys i).map (· / k)) n = (kInterp x xs ys n).map (· / k) := by
  unfold kInterp
  split_ifs
  · rfl
  · cases xs 0 with
    | none => rfl
    | some x0 =>
      simp only
      split_ifs
      · rfl
      · cases xs (n - 1) with
        | none => rfl
        | some xn =>
          simp only
          split_ifs
          · rfl
          · cases kBisect xs x n 0 (n - 1) with
            | none => rfl
            | some b =>
              obtain ⟨lo, hi⟩ := b
              simp only
              cases xs hi <;> cases xs lo <;> cases ys lo <;> cases ys hi <;>
                simp only [Option.map_none, Option.map_some]
              split_ifs
              · rfl
              · rw [Option.map_some]; congr 1; ring

theorem coef_scaled (k : ℝ) (c : Comp) (w : ℝ) : (c.scaled k).kCoef w = c.kCoef w / k := by
  unfold Comp.kCoef Comp.scaled
  simp only
  cases c.absDist with
  | const y =>
    simp only [Dist.thinned, compileDist, Option.bind_some, kCoefficient, kInterp, if_true, reads]
    simp
  | table T hist =>
    cases hist with
    | true => simp [Dist.thinned, compileDist]
    | false =>
      simp only [Dist.thinned, compileDist, Option.bind_some, kCoefficient]
      have e : reads (fun i => T.y i / k) T.n = fun i => (reads T.y T.n i).map (· / k) := by
        funext i
        unfold reads
        split_ifs <;> rfl
      simp only [if_false, Bool.false_eq_true, Option.bind_some]
      rw [e, interp_scaled]
      cases kInterp w (reads T.x T.n) (reads T.y T.n) T.n <;> simp

theorem coefs_scaled (k : ℝ) (N : LNode) (w : ℝ) : (N.scaled k).kCoefs w = (N.kCoefs w).map (· / k) := by
  unfold LNode.kCoefs LNode.scaled
  simp only [List.map_map]
  congr 1
  funext c
  exact coef_scaled k c w

theorem sum_scaled (k : ℝ) (l : List ℝ) : (l.map (· / k)).sum = l.sum / k := by
  induction l with
  | nil => simp
  | cons a l ih => simp only [List.map_cons, List.sum_cons, ih]; ring

theorem pick_scaled (hk : 0 < k) (l : List ℝ) (u : ℝ) : kPick (l.map (· / k)) u = kPick l u := by
  have key : ∀ (l : List ℝ) (t r : ℝ) (i : ℕ), kPickFrom (t / k) (r / k) i (l.map (· / k)) = kPickFrom t r i l := by
    intro l
    induction l with
    | nil => intros; rfl
    | cons a l ih =>
      intro t r i
      simp only [List.map_cons, kPickFrom]
      rw [← add_div, ih]
      simp only [div_le_div_iff_of_pos_right hk]
  unfold kPick
  rw [sum_scaled, ← mul_div_assoc]
  have := key l (u * l.sum) 0 0
  rw [zero_div] at this
  rw [this]

theorem depth_scaled (hk : 0 < k) (R : Rand σ) (a : ℝ) (s : σ) (h : 1e-8 < a ↔ 1e-8 < a / k) :
    kDepth R (a / k) s = ((kDepth R a s).1.map (k * ·), (kDepth R a s).2) := by
  unfold kDepth
  simp only [gt_iff_lt, ← h]
  split_ifs
  · simp only [Option.map_some, Prod.mk.injEq, and_true, Option.some.injEq]
    field_simp
  · rfl

theorem delay_scaled (hk : 0 < k) (R : Rand σ) (tau : Option ℝ) (s : σ) :
    kDelay R (tau.map (k * ·)) s = (k * (kDelay R tau s).1, (kDelay R tau s).2) := by
  unfold kDelay
  cases tau with
  | none => simp
  | some t =>
    simp only [Option.map_some, Option.getD_some, gt_iff_lt, mul_pos_iff_of_pos_left hk]
    split_ifs
    · simp only [Prod.mk.injEq, and_true]; ring
    · simp

theorem noComp_scaled (k : ℝ) : noComp.scaled k = noComp := by
  simp [noComp, Comp.scaled, Dist.thinned]

/-! ### One pass -/

/-- End of a pass in the other unit. -/
def kNextScaled (k : ℝ) : KNext ℝ Comp σ → KNext ℝ Comp σ
  | .cont r s => .cont (r.scaled k) s
  | .stop => .stop

/-- Calls of a pass in the other unit. -/
def outScaled {ν : Type} (k : ℝ) : KOut ℝ ν Comp → KOut ℝ ν Comp
  | .record row => .record (row.scaled k)
  | .tally c => .tally (c.scaled k)

theorem advance_scaled (k : ℝ) (r : KRay ℝ Comp) (t m : ℝ) :
    (r.scaled k).advance (k * t) m = (r.advance t m).scaled k := by
  unfold KRay.scaled KRay.advance
  simp only [KRay.mk.injEq, and_true, true_and]
  refine ⟨?_, ?_, ?_⟩
  · ext <;> simp <;> ring
  · ring
  · ring

/-- What two engines have in common whatever the state. -/
structure KScale {ν : Type} (k : ℝ) (K K' : KOps ℝ ν Comp σ) : Prop where
  root : K'.root = K.root
  nidx : K'.nidx = K.nidx
  pick : ∀ v w s, K'.pick v w s = ((K.pick v w s).1.scaled k, (K.pick v w s).2)
  kind : ∀ c : Comp, K'.kind (c.scaled k) = K.kind c
  yields : ∀ c : Comp, K'.yields (c.scaled k) = K.yields c
  phase : ∀ c : Comp, K'.phase (c.scaled k) = K.phase c
  emission : ∀ c : Comp, K'.emission (c.scaled k) = K.emission c
  radDelay : ∀ (c : Comp) s, K'.radDelay (c.scaled k) s = (k * (K.radDelay c s).1, (K.radDelay c s).2)
  nrDelay : ∀ (c : Comp) s, K'.nrDelay (c.scaled k) s = (k * (K.nrDelay c s).1, (K.nrDelay c s).2)
  reflects : K'.reflects = K.reflects
  reflectDir : K'.reflectDir = K.reflectDir
  transmitDir : K'.transmitDir = K.transmitDir
  localPos : ∀ v p, K'.localPos v (k • p) = k • K.localPos v p
  acos : K'.acos = K.acos

theorem scene_scale (hk : 0 < k) (S : LScene n) (R : Rand σ) (method : EmitMethod) :
    KScale k (kOps S R method) (kOps (S.scaled k) R method) := by
  constructor
  case pick =>
    intro v w s
    simp only [kOps, LScene.scaled]
    rw [coefs_scaled, pick_scaled hk]
    simp only [LNode.scaled, List.getElem?_map]
    generalize (S.node v).comps[kPick ((S.node v).kCoefs w) (R.next s).1]? = c
    cases c with
    | none => simp only [Option.map_none, Option.getD_none, noComp_scaled]
    | some c => rfl
  case localPos => intro v p; exact point_scaled k _ p
  case radDelay => intro c s; exact delay_scaled hk R c.tauRad s
  case nrDelay => intro c s; exact delay_scaled hk R c.tauNr s
  all_goals first | rfl | (intro c; rfl)

section
variable {ν : Type} {K K' : KOps ℝ ν Comp σ}

theorem kAbsorb_scaled (h : KScale k K K') (c : ν) (r : KRay ℝ Comp) (d : ℝ) (s : σ) :
    (kAbsorb K' c (r.scaled k) (k * d) s).1 = (kAbsorb K c r d s).1.map (outScaled k) ∧
      (kAbsorb K' c (r.scaled k) (k * d) s).2 = kNextScaled k (kAbsorb K c r d s).2 := by
  obtain ⟨a1, a2, a3, a4, a5, a6, a7, a8, a9, a10, a11, a12, a13, a14, a15, a16, a17⟩ := K
  obtain ⟨b1, b2, b3, b4, b5, b6, b7, b8, b9, b10, b11, b12, b13, b14, b15, b16, b17⟩ := K'
  obtain ⟨h1, h3, h5, h6, h7, h8, h9, h10, h11, h15, h16, h17, h12, ha⟩ := h
  simp only at h1 h3 h5 h6 h7 h8 h9 h10 h11 h15 h16 h17 h12 ha
  subst h1 h3 h15 h16 h17 ha
  unfold kAbsorb
  simp only [advance_scaled]
  generalize r.advance d _ = q
  have hw : (q.scaled k).wavelength = q.wavelength := rfl
  simp only [hw, h5, h6, h7, h8, h9, h10, h11]
  generalize a5 c q.wavelength s = x
  split_ifs <;>
    simp only [outScaled, List.map_cons, List.map_nil, kNextScaled, Row.scaled, KRay.scaled, TallyCall.scaled, kValues, h12,
      Option.map_some, mul_add, and_self]

theorem kSurface_scaled [DecidableEq ν] (h : KScale k K K') (hit c : ν) (a : Option ν) (r : KRay ℝ Comp) (t : ℝ) (s : σ)
    (hn : K'.normal hit ((r.advance t (K.nidx c)).scaled k).position = K.normal hit (r.advance t (K.nidx c)).position) :
    (kSurface K' hit c a (r.scaled k) (k * t) s).1 = (kSurface K hit c a r t s).1.map (outScaled k) ∧
      (kSurface K' hit c a (r.scaled k) (k * t) s).2 = kNextScaled k (kSurface K hit c a r t s).2 := by
  obtain ⟨a1, a2, a3, a4, a5, a6, a7, a8, a9, a10, a11, a12, a13, a14, a15, a16, a17⟩ := K
  obtain ⟨b1, b2, b3, b4, b5, b6, b7, b8, b9, b10, b11, b12, b13, b14, b15, b16, b17⟩ := K'
  obtain ⟨h1, h3, h5, h6, h7, h8, h9, h10, h11, h15, h16, h17, h12, ha⟩ := h
  simp only at h1 h3 h5 h6 h7 h8 h9 h10 h11 h15 h16 h17 h12 ha hn
  subst h1 h3 h15 h16 h17 ha
  unfold kSurface
  simp only [advance_scaled]
  generalize r.advance t _ = q at hn ⊢
  cases a with
  | none => exact ⟨rfl, rfl⟩
  | some adj =>
    have hd : (q.scaled k).direction = q.direction := rfl
    simp only [hd, hn, kIncidence]
    generalize a13 hit q.position = nrm
    generalize b15 hit c adj nrm q.direction s = x
    generalize (b14 _ : ℝ) = ang
    obtain ⟨p, d, w, tr, du, so⟩ := q
    simp only [KRay.scaled, kValues, h12]
    split_ifs <;> exact ⟨rfl, rfl⟩

theorem kBody_scaled [DecidableEq ν] (h : KScale k K K') (maxsteps count : ℕ) (r : KRay ℝ Comp)
    (s : σ) (hx : K'.nextHit (k • r.position) r.direction =
      (K.nextHit r.position r.direction).map fun x => (x.1, x.2.1, x.2.2.1, k * x.2.2.2))
    (hd : ∀ v, K'.depth v r.wavelength s = ((K.depth v r.wavelength s).1.map (k * ·), (K.depth v r.wavelength s).2))
    (hk : 0 < k)
    (hn : ∀ hit c a t, K.nextHit r.position r.direction = some (hit, c, a, t) →
      K'.normal hit ((r.advance t (K.nidx c)).scaled k).position = K.normal hit (r.advance t (K.nidx c)).position) :
    (kBody K' maxsteps count (r.scaled k) s).1 = (kBody K maxsteps count r s).1.map (outScaled k) ∧
      (kBody K' maxsteps count (r.scaled k) s).2 = kNextScaled k (kBody K maxsteps count r s).2 := by
  unfold kBody
  have e1 : (r.scaled k).position = k • r.position := rfl
  have e2 : (r.scaled k).direction = r.direction := rfl
  have e3 : (r.scaled k).wavelength = r.wavelength := rfl
  rw [e1, e2, e3, hx]
  cases hy : K.nextHit r.position r.direction with
  | none => exact ⟨rfl, rfl⟩
  | some x =>
    obtain ⟨hit, c, a, t⟩ := x
    have hn := hn _ _ _ _ hy
    simp only [Option.map_some, h.root, h.nidx, hd]
    have hv : ∀ v (q : KRay ℝ Comp) z, kValues K' v (q.scaled k) z =
        { kValues K v q z with duration := k * q.duration, pathlength := k * q.travelled,
                               position := k • K.localPos v q.position } := by
      intro v q z
      have := h.localPos v q.position
      unfold kValues
      simp only [KRay.scaled, this]
    by_cases hc : count > maxsteps
    · rw [if_pos hc, if_pos hc, hv]; exact ⟨rfl, rfl⟩
    · rw [if_neg hc, if_neg hc]
      by_cases hr : hit = K.root
      · rw [if_pos hr, if_pos hr]
        simp only [advance_scaled, hv, hn, kExitAngle, h.acos]
        exact ⟨rfl, rfl⟩
      · rw [if_neg hr, if_neg hr]
        have e : isAbsorbed ((K.depth c r.wavelength s).1.map (k * ·)) (k * t) =
            (isAbsorbed (K.depth c r.wavelength s).1 t).map (k * ·) := by
          unfold isAbsorbed
          cases (K.depth c r.wavelength s).1 with
          | none => rfl
          | some d =>
            simp only [Option.map_some, mul_lt_mul_iff_right₀ hk]
            split_ifs <;> rfl
        rw [e]
        cases isAbsorbed (K.depth c r.wavelength s).1 t with
        | some d => exact kAbsorb_scaled h _ _ _ _
        | none => exact kSurface_scaled h _ _ _ _ _ _ hn

end

theorem nextHit_mem {ν : Type} [DecidableEq ν] {l : List ν} {ts : ν → List ℝ} {hit c : ν} {a : Option ν} {t : ℝ}
    (h : kNextHit l ts = some (hit, c, a, t)) : t ∈ ts hit := by
  unfold kNextHit at h
  cases hh : kHits l ts with
  | nil => rw [hh] at h; cases h
  | cons x xs =>
    rw [hh] at h
    have hm : (kFirst x xs).1 ∈ kHits l ts := by
      rw [hh]
      exact List.mem_of_getElem? (kFirst_firstMin x xs).get
    have ht : hit = (kFirst x xs).1.node ∧ t = (kFirst x xs).1.t := by
      cases xs with
      | nil =>
        simp only [Option.some.injEq, Prod.mk.injEq] at h
        exact ⟨h.1.symm, h.2.2.2.symm⟩
      | cons y ys =>
        simp only [Option.some.injEq, Prod.mk.injEq] at h
        exact ⟨h.1.symm, h.2.2.2.symm⟩
    rw [ht.1, ht.2]
    simp only [kHits, List.mem_flatMap, List.mem_map] at hm
    obtain ⟨v, -, t', ht', e⟩ := hm
    rw [← e]
    exact ht'

/-- One pass of the loop in the other unit. -/
theorem pass_scaled (hk : 0 < k) {S : LScene n} (hS : ∀ v, Proper (S.node v).geom) (R : Rand σ) (method : EmitMethod)
    (maxsteps count : ℕ) (r : KRay ℝ Comp) (s : σ) (hr : Steady S k r) :
    (kBody (kOps (S.scaled k) R method) maxsteps count (r.scaled k) s).1 =
        (kBody (kOps S R method) maxsteps count r s).1.map (outScaled k) ∧
      (kBody (kOps (S.scaled k) R method) maxsteps count (r.scaled k) s).2 =
        kNextScaled k (kBody (kOps S R method) maxsteps count r s).2 := by
  have hi : ∀ v, kIntersect ((S.scaled k).node v).geom (((S.scaled k).node v).w2l.point (k • r.position))
      (((S.scaled k).node v).w2l.vec r.direction) =
      (kIntersect (S.node v).geom ((S.node v).w2l.point r.position) ((S.node v).w2l.vec r.direction)).map (k * ·) := by
    intro v
    show kIntersect ((S.node v).geom.scaled k) (((S.node v).w2l.scaled k).point (k • r.position))
      ((S.node v).w2l.vec r.direction) = _
    rw [point_scaled]
    refine intersect_scaled hk (hS v) (hr.clear v) fun t ht => hr.ahead v t ?_
    rwa [Affine.point_add_smul]
  refine kBody_scaled (scene_scale hk S R method) maxsteps count r s ?_ ?_ hk ?_
  · show kNextHit _ _ = (kNextHit _ _).map _
    rw [← nextHit_scaled hk]
    congr 1
    funext v
    exact hi v
  · intro v
    show kDepth R (((S.node v).scaled k).kCoefs r.wavelength).sum s = _
    rw [coefs_scaled, sum_scaled]
    exact depth_scaled hk R _ s (hr.absorbs v)
  · intro hit c a t hx
    have hm : t ∈ kIntersect (S.node hit).geom ((S.node hit).w2l.point r.position) ((S.node hit).w2l.vec r.direction) := by
      exact nextHit_mem (ts := fun v => kIntersect (S.node v).geom ((S.node v).w2l.point r.position)
        ((S.node v).w2l.vec r.direction)) hx
    have hsf := engine_sound (hS hit) (hr.clear hit) hm
    rw [← Affine.point_add_smul] at hsf
    have ht : epsZero < t := by
      rw [intersect_raw] at hm
      simpa using (List.mem_filter.1 hm).2
    have e : (r.advance t ((kOps S R method).nidx c)).position = r.position + t • r.direction := by
      ext <;> simp [KRay.advance, mul_comm]
    show ((S.node hit).l2w.vec (kNormal ((S.node hit).geom.scaled k) (((S.node hit).w2l.scaled k).point
        (k • (r.advance t ((kOps S R method).nidx c)).position)))) = (S.node hit).l2w.vec (kNormal (S.node hit).geom
          ((S.node hit).w2l.point (r.advance t ((kOps S R method).nidx c)).position))
    rw [point_scaled, e, normal_scaled hk]
    intro l q hg z hz
    rw [hg] at hsf
    exact hr.cap hit l q t hg ht _ rfl hsf z hz

/-- What the engine does for a ray in the other unit: the same calls in the same order. -/
theorem trace_scaled (hk : 0 < k) {S : LScene n} (hS : ∀ v, Proper (S.node v).geom) (R : Rand σ)
    (method : EmitMethod) (maxsteps : ℕ) (ray : KRay ℝ Comp) (s : σ)
    (hr : ∀ count ray' s', KReached (kOps S R method) maxsteps ray s count ray' s' → Steady S k ray') :
    rayTrace (kOps (S.scaled k) R method) maxsteps ⟨ray.scaled k, s⟩ =
      (rayTrace (kOps S R method) maxsteps ⟨ray, s⟩).map (outScaled k) := by
  have key : ∀ (fuel count : ℕ) (r : KRay ℝ Comp) (t : σ), KReached (kOps S R method) maxsteps ray s count r t →
      kTrace (kOps (S.scaled k) R method) maxsteps fuel count (r.scaled k) t =
        (kTrace (kOps S R method) maxsteps fuel count r t).map (outScaled k) := by
    intro fuel
    induction fuel with
    | zero => intros; rfl
    | succ fuel ih =>
      intro count r t h
      obtain ⟨h1, h2⟩ := pass_scaled hk hS R method maxsteps (count + 1) r t (hr _ _ _ h)
      simp only [kTrace]
      rw [h2]
      cases hb : (kBody (kOps S R method) maxsteps (count + 1) r t).2 with
      | stop => exact h1
      | cont r' t' =>
        simp only [kNextScaled, List.map_append, h1]
        rw [ih (count + 1) r' t' (h.next hb)]
  exact key _ _ _ _ .start

theorem rows_scaled {ν : Type} (k : ℝ) (os : List (KOut ℝ ν Comp)) :
    rowsOf (os.map (outScaled k)) = (rowsOf os).map (Row.scaled k) := by
  induction os with
  | nil => rfl
  | cons o os ih => cases o <;> simp [outScaled, ih]

theorem calls_scaled {ν : Type} (k : ℝ) (os : List (KOut ℝ ν Comp)) :
    callsOf (os.map (outScaled k)) = (callsOf os).map (TallyCall.scaled k) := by
  induction os with
  | nil => rfl
  | cons o os ih => cases o <;> simp [outScaled, ih]

/-- **C108**. The engine's history of a ray in the other unit is the history in the old unit, with positions, distances
and times converted; and the recorders are handed the same events with the same wavelengths and angles and with
converted positions, distances and times. -/
theorem unit_irrelevant_partial (hk : 0 < k) {S : LScene n} (hS : ∀ v, Proper (S.node v).geom) (R : Rand σ)
    (method : EmitMethod) (maxsteps : ℕ) (ray : KRay ℝ Comp) (s : σ)
    (hr : ∀ count ray' s', KReached (kOps S R method) maxsteps ray s count ray' s' → Steady S k ray') :
    Budget.fullHistory (kOps (S.scaled k) R method) maxsteps ⟨ray.scaled k, s⟩ =
        (Budget.fullHistory (kOps S R method) maxsteps ⟨ray, s⟩).map (Row.scaled k) ∧
      callsOf (rayTrace (kOps (S.scaled k) R method) maxsteps ⟨ray.scaled k, s⟩) =
        (callsOf (rayTrace (kOps S R method) maxsteps ⟨ray, s⟩)).map (TallyCall.scaled k) := by
  rw [Budget.fullHistory_eq, Budget.fullHistory_eq, trace_scaled hk hS R method maxsteps ray s hr, calls_scaled,
    rows_scaled]
  exact ⟨rfl, rfl⟩

/-! ### The Python tracer -/

open PV.Library

theorem mkDist_thinned (hk : 0 < k) {T : Table ℝ} {hist : Bool} {D : PV.Dist ℝ} (h : mkDist T hist = .ok D) :
    mkDist { T with y := fun i => T.y i / k } hist = .ok (D.thinned k) := by
  unfold mkDist at h ⊢
  have e : (∃ i < T.n, T.y i / k < 0) ↔ ∃ i < T.n, T.y i < 0 := by
    constructor
    · rintro ⟨i, h1, h2⟩
      exact ⟨i, h1, by rwa [div_lt_iff₀ hk, zero_mul] at h2⟩
    · rintro ⟨i, h1, h2⟩
      exact ⟨i, h1, by rwa [div_lt_iff₀ hk, zero_mul]⟩
  simp only [e]
  split_ifs at h ⊢
  simp only [Except.ok.injEq] at h
  subst h
  rfl

theorem supported_scaled (hk : 0 < k) {S : LScene n} (hS : Supported S) : Supported (S.scaled k) := by
  have hc : ∀ v c, c ∈ ((S.scaled k).node v).comps → ∃ c' ∈ (S.node v).comps, c'.scaled k = c := by
    intro v c h
    exact List.mem_map.1 h
  refine ⟨⟨⟨fun v => hS.index_pos v, fun v => hS.rigid v, fun v => ⟨fun p => ?_, (hS.inverse v).2⟩, ?_⟩, fun v => proper_scaled hk (hS.proper v),
    fun v w => hS.ratio v w, ?_, ?_, ?_⟩, ?_⟩
  · have h1 : p = k • (k⁻¹ • p) := by ext <;> simp [hk.ne']
    show ((S.node v).w2l.scaled k).point (((S.node v).l2w.scaled k).point p) = p
    rw [h1, point_scaled, point_scaled, (hS.inverse v).1]
  · intro v c h
    obtain ⟨c, hm, rfl⟩ := hc v c h
    have hg := hS.comps v c hm
    refine ⟨?_, ?_, ?_⟩
    · rcases hg.absDist with ⟨y, h0, hy⟩ | ⟨T, hist, hT⟩
      · left
        exact ⟨y / k, div_nonneg h0 hk.le, by simp only [Comp.scaled, hy, Dist.thinned]⟩
      · exact .inr ⟨_, _, mkDist_thinned hk hT⟩
    · intro t ht
      simp only [Comp.scaled, Option.map_eq_some_iff] at ht
      obtain ⟨t, h1, rfl⟩ := ht
      exact mul_nonneg hk.le (hg.tauRad t h1)
    · intro t ht
      simp only [Comp.scaled, Option.map_eq_some_iff] at ht
      obtain ⟨t, h1, rfl⟩ := ht
      exact mul_nonneg hk.le (hg.tauNr t h1)
  · intro v c h
    obtain ⟨c, hm, rfl⟩ := hc v c h
    rcases hS.absorbs v c hm with ⟨y, hy⟩ | ⟨T, hT⟩
    · exact .inl ⟨y / k, by simp only [Comp.scaled, hy, Dist.thinned]⟩
    · exact .inr ⟨_, mkDist_thinned hk hT⟩
  · intro v c h hl
    obtain ⟨c, hm, rfl⟩ := hc v c h
    exact hS.emits v c hm hl
  · intro v c h hl
    obtain ⟨c, hm, rfl⟩ := hc v c h
    exact hS.phase v c hm hl
  · rintro v ⟨c, h, hl⟩ u
    obtain ⟨c, hm, rfl⟩ := hc v c h
    exact hS.upright v ⟨c, hm, hl⟩ u

theorem event_scaled (k : ℝ) (S : LScene n) (src : Option String) (row : Row ℝ (Fin (n + 1)) Comp) :
    Spec.eventOf (names (S.scaled k)) src (row.scaled k) = (Spec.eventOf (names S) src row).scaled k := by
  obtain ⟨kind, h, c, a, comp, ray, nrm⟩ := row
  obtain ⟨p, d, w, tr, du, so⟩ := ray
  cases so <;> cases comp <;> rfl

/-- **C108**, Python tracer, for the rays on which it agrees with the engine (`PV.Library.Regular`) in both units. -/
theorem unit_irrelevant_python_partial (hk : 0 < k) {S : LScene n} (hS : Supported S)
    (hv : ∀ v, Visible (S.node v).geom) (hv' : ∀ v, Visible ((S.scaled k).node v).geom)
    {B B' : Trimesh} (hB : TrimeshSound B) (hB' : TrimeshSound B') {R : Rand σ}
    (hR : ∀ s, 0 < (R.next s).1 ∧ (R.next s).1 < 1) {method : EmitMethod} {maxsteps : ℕ} {ray : Ray ℝ} (hf : Fresh ray)
    {s : σ} (hr : Regular S B R method maxsteps ray s)
    (hr' : Regular (S.scaled k) B' R method maxsteps (ray.scaled k) s)
    (hs : ∀ count ray' s', KReached (kOps S R method) maxsteps (launchOf ray s).ray s count ray' s' → Steady S k ray') :
    run (S.scaled k) B' R method maxsteps none (ray.scaled k) s =
      (run S B R method maxsteps none ray s).map (Step.scaled k) := by
  have hf' : Fresh (ray.scaled k) := ⟨hf.unit, by simp [Ray.scaled, hf.travelled], by simp [Ray.scaled, hf.duration]⟩
  rw [← run_agrees hS hv hB hR method maxsteps ray hf s hr,
    ← run_agrees (supported_scaled hk hS) hv' hB' hR method maxsteps _ hf' s hr']
  have e : launchOf (ray.scaled k) s = ⟨(launchOf ray s).ray.scaled k, s⟩ := by
    simp only [launchOf, Ray.scaled, KRay.scaled, mul_zero, Option.map_none]
  rw [e, (unit_irrelevant_partial hk hS.proper R method maxsteps _ s hs).1, List.map_map, List.map_map]
  refine List.map_congr_left fun row _ => ?_
  exact event_scaled k S ray.source row

/-! ### Where the unit decides -/

/-- **C108** (violated). In a unit so small that no coefficient is above 1e-8, nothing is ever absorbed. -/
theorem unit_decides {S : LScene n} (h : ∀ v w, ((S.node v).kCoefs w).sum ≤ k * 1e-8) (hk : 0 < k) (R : Rand σ)
    (method : EmitMethod) (maxsteps : ℕ) (ray : KRay ℝ Comp) (s : σ) :
    ∀ row ∈ Budget.fullHistory (kOps (S.scaled k) R method) maxsteps ⟨ray, s⟩, row.kind ≠ .absorb := by
  have hd : ∀ v w s, (kOps (S.scaled k) R method).depth v w s = (none, s) := by
    intro v w s
    show kDepth R (((S.node v).scaled k).kCoefs w).sum s = _
    rw [coefs_scaled, sum_scaled]
    unfold kDepth
    rw [if_neg]
    have := h v w
    rw [gt_iff_lt, not_lt, div_le_iff₀ hk]
    linarith
  have hb : ∀ count r t, ∀ row ∈ rowsOf (kBody (kOps (S.scaled k) R method) maxsteps count r t).1, row.kind ≠ .absorb := by
    intro count r t
    unfold kBody
    cases (kOps (S.scaled k) R method).nextHit r.position r.direction with
    | none => simp
    | some x =>
      obtain ⟨hit, c, a, t0⟩ := x
      simp only [hd, isAbsorbed]
      split_ifs
      · simp
      · simp
      · unfold kSurface
        cases a with
        | none => simp
        | some a =>
          simp only
          split_ifs <;> simp
  rw [Budget.fullHistory_eq]
  intro row hrow
  rcases List.mem_cons.1 hrow with rfl | hrow
  · simp [generateRow]
  · have key : ∀ (fuel count : ℕ) (r : KRay ℝ Comp) (t : σ),
        ∀ row ∈ rowsOf (kTrace (kOps (S.scaled k) R method) maxsteps fuel count r t), row.kind ≠ .absorb := by
      intro fuel
      induction fuel with
      | zero => intro _ _ _ row h; cases h
      | succ fuel ih =>
        intro count r t row h
        simp only [kTrace] at h
        cases hx : (kBody (kOps (S.scaled k) R method) maxsteps (count + 1) r t).2 with
        | stop => rw [hx] at h; exact hb _ _ _ row h
        | cont r' t' =>
          rw [hx] at h
          simp only [rowsOf_append, List.mem_append] at h
          rcases h with h | h
          · exact hb _ _ _ row h
          · exact ih _ _ _ row h
    exact key _ _ _ _ row hrow

end
end PV.Scaled
