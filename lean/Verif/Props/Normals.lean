import Verif.Props.Shapes

/-!
C45: outward normals and `is_entering`.
-/

namespace PV.Geometry
open PV PV.Geo PV.Solid

/-- A point of the surface at least `m` away from every edge (and, for a cylinder's side, farther
from the cap planes than the tolerance of `np.isclose`). -/
def Smooth (m : ℝ) : Geom → Vec3 ℝ → Prop
  | .box s, p =>
    let i := fun (a s : ℝ) => |a| < s / 2 ∧ |a| + m ≤ s / 2
    let f := fun (a s : ℝ) => |a| = s / 2 ∧ m ≤ s
    (f p.x s.x ∧ i p.y s.y ∧ i p.z s.z) ∨ (i p.x s.x ∧ f p.y s.y ∧ i p.z s.z) ∨
      (i p.x s.x ∧ i p.y s.y ∧ f p.z s.z)
  | .sphere r, p => p.x ^ 2 + p.y ^ 2 + p.z ^ 2 = r ^ 2
  | .cylinder l r, p =>
    (p.x ^ 2 + p.y ^ 2 = r ^ 2 ∧ |p.z| + (1e-8 + 1e-5 * (l / 2)) < l / 2) ∨
    (p.x ^ 2 + p.y ^ 2 < r ^ 2 ∧ |p.z| = l / 2 ∧ 1e-8 + 1e-5 * (l / 2) < l)

/-! ### Small steps -/

def Near (P : ℝ → Prop) : Prop := ∃ δ > 0, ∀ t : ℝ, 0 < t → t < δ → P t

theorem Near.and {P Q : ℝ → Prop} (hp : Near P) (hq : Near Q) : Near (fun t => P t ∧ Q t) := by
  obtain ⟨a, ha, hp⟩ := hp
  obtain ⟨b, hb, hq⟩ := hq
  exact ⟨min a b, lt_min ha hb, fun t h0 h1 =>
    ⟨hp t h0 (h1.trans_le (min_le_left _ _)), hq t h0 (h1.trans_le (min_le_right _ _))⟩⟩

theorem Near.mono {P Q : ℝ → Prop} (h : ∀ t, 0 < t → P t → Q t) (hp : Near P) : Near Q := by
  obtain ⟨a, ha, hp⟩ := hp
  exact ⟨a, ha, fun t h0 h1 => h t h0 (hp t h0 h1)⟩

theorem Near.exists {P : ℝ → Prop} (h : Near P) : ∃ t > 0, P t := by
  obtain ⟨a, ha, hp⟩ := h
  exact ⟨a / 2, by linarith, hp _ (by linarith) (by linarith)⟩

theorem near_quad {a b c : ℝ} (hc : c < 0) : Near (fun t => c + b * t + a * t ^ 2 < 0) := by
  have hpos : 0 < |b| + |a| + 1 := by positivity
  refine ⟨min 1 (-c / (|b| + |a| + 1)), lt_min one_pos (div_pos (by linarith) hpos), fun t h0 h1 => ?_⟩
  have h2 : t < 1 := h1.trans_le (min_le_left _ _)
  have h3 : t * (|b| + |a| + 1) < -c := (lt_div_iff₀ hpos).1 (h1.trans_le (min_le_right _ _))
  have e1 : b * t ≤ |b| * t := mul_le_mul_of_nonneg_right (le_abs_self b) h0.le
  have e2 : a * t ^ 2 ≤ |a| * t := by
    have : a * t ^ 2 ≤ |a| * t ^ 2 := mul_le_mul_of_nonneg_right (le_abs_self a) (by positivity)
    have : |a| * t ^ 2 ≤ |a| * t := mul_le_mul_of_nonneg_left (by nlinarith) (abs_nonneg a)
    linarith
  nlinarith

theorem near_lt {a b c : ℝ} (h : a < c) : Near (fun t => a + t * b < c) :=
  (near_quad (a := 0) (b := b) (c := a - c) (by linarith)).mono fun t _ h => by linarith

theorem near_abs {a b c : ℝ} (h : |a| < c) : Near (fun t => |a + t * b| < c) := by
  rw [abs_lt] at h
  refine ((near_lt (b := b) h.2).and (near_lt (a := -a) (b := -b) (c := c) (by linarith [h.1]))).mono
    fun t _ h => ?_
  rw [abs_lt]
  constructor <;> linarith [h.1, h.2]

/-- Leaving the upper or lower face of a slab. -/
theorem near_face {a b c : ℝ} (hc : 0 < c) (h : |a| = c) :
    Near (fun t => |a + t * b| < c) ↔ a * b < 0 := by
  rcases (abs_eq hc.le).1 h with rfl | rfl
  · constructor
    · intro hn
      obtain ⟨t, h0, h1⟩ := hn.exists
      rw [abs_lt] at h1
      nlinarith
    · intro hb
      have hb' : b < 0 := by
        by_contra hc'
        nlinarith
      refine (near_lt (a := -a) (b := -b) (c := a) (by linarith)).mono fun t ht h1 => ?_
      rw [abs_lt]
      constructor
      · linarith
      · nlinarith
  · constructor
    · intro hn
      obtain ⟨t, h0, h1⟩ := hn.exists
      rw [abs_lt] at h1
      nlinarith
    · intro hb
      have hb' : 0 < b := by nlinarith
      refine (near_lt (a := -c) (b := b) (c := c) (by linarith)).mono fun t ht h1 => ?_
      rw [abs_lt]
      constructor
      · nlinarith
      · linarith

theorem near_round {a b : ℝ} (ha : 0 ≤ a) : Near (fun t => 2 * b * t + a * t ^ 2 < 0) ↔ b < 0 := by
  constructor
  · intro hn
    obtain ⟨t, h0, h1⟩ := hn.exists
    by_contra hc
    have : 0 ≤ b * t := mul_nonneg (not_lt.1 hc) h0.le
    have : 0 ≤ a * t ^ 2 := by positivity
    linarith
  · intro hb
    refine (near_quad (a := 0) (b := a) (c := 2 * b) (by linarith)).mono fun t ht h => ?_
    nlinarith

/-! ### Which normal -/

private theorem argmin_fold (dist : Fin 3 × ℝ → ℝ) (l : List (Fin 3 × ℝ)) (b : Fin 3 × ℝ) :
    ∃ f, (f = b ∨ f ∈ l) ∧ dist f ≤ dist b ∧ (∀ g ∈ l, dist f ≤ dist g) ∧
      l.foldl (fun best f => match best with
        | none => some (dist f, f)
        | some b => if dist f < b.1 then some (dist f, f) else some b) (some (dist b, b)) =
      some (dist f, f) := by
  induction l generalizing b with
  | nil => exact ⟨b, .inl rfl, le_refl _, by simp, rfl⟩
  | cons x l ih =>
    simp only [List.foldl_cons]
    by_cases h : dist x < dist b
    · obtain ⟨f, h1, h2, h3, h4⟩ := ih x
      refine ⟨f, ?_, h2.trans h.le, ?_, by rw [if_pos h]; exact h4⟩
      · rcases h1 with rfl | h1
        · exact .inr (List.mem_cons_self ..)
        · exact .inr (List.mem_cons_of_mem _ h1)
      · intro g hg
        rcases List.mem_cons.1 hg with rfl | hg
        · exact h2
        · exact h3 g hg
    · obtain ⟨f, h1, h2, h3, h4⟩ := ih b
      refine ⟨f, h1.imp_right (List.mem_cons_of_mem _), h2, ?_, by rw [if_neg h]; exact h4⟩
      intro g hg
      rcases List.mem_cons.1 hg with rfl | hg
      · exact h2.trans (not_lt.1 h)
      · exact h3 g hg

theorem kNormal_box (s p : Vec3 ℝ) : ∃ f ∈ faces,
    (∀ g ∈ faces, |p.get f.1 - f.2 * 0.5 * s.get f.1| ≤ |p.get g.1 - g.2 * 0.5 * s.get g.1|) ∧
    kNormal (.box s) p = axisNormal f.1 f.2 := by
  obtain ⟨f, h1, h2, h3, h4⟩ := argmin_fold (fun f => |p.get f.1 - f.2 * 0.5 * s.get f.1|)
    [(0, 1), (1, -1), (1, 1), (2, -1), (2, 1)] (0, -1)
  refine ⟨f, ?_, ?_, ?_⟩
  · simp only [faces, List.mem_cons] at *; tauto
  · intro g hg
    simp only [faces] at hg
    rcases List.mem_cons.1 hg with rfl | hg
    · exact h2
    · exact h3 g hg
  · have : kNormal (.box s) p = match some (|p.get f.1 - f.2 * 0.5 * s.get f.1|, f) with
      | none => axisNormal 0 1
      | some b => axisNormal b.2.1 b.2.2 := by
      rw [← h4]; rfl
    exact this

/-- The face at distance zero is the one chosen. -/
private theorem kNormal_box_face {s p : Vec3 ℝ} {f : Fin 3 × ℝ} (hf : f ∈ faces)
    (h0 : p.get f.1 = f.2 * 0.5 * s.get f.1)
    (hne : ∀ g ∈ faces, p.get g.1 = g.2 * 0.5 * s.get g.1 → g = f) :
    kNormal (.box s) p = axisNormal f.1 f.2 := by
  obtain ⟨g, hg, hmin, e⟩ := kNormal_box s p
  have := hmin f hf
  rw [h0, sub_self, abs_zero] at this
  have h1 := abs_eq_zero.1 (le_antisymm this (abs_nonneg _))
  rw [e, hne g hg (by linarith)]

private theorem not_face {a s : ℝ} (h : |a| < s / 2) :
    a ≠ -1 * 0.5 * s ∧ a ≠ 1 * 0.5 * s := by
  rw [abs_lt] at h
  constructor <;> intro e <;> norm_num at e <;> linarith [h.1, h.2]

private theorem box_cases {m : ℝ} {s p : Vec3 ℝ} (hp : Proper (.box s))
    (h : Smooth m (.box s) p) :
    ∃ i : Fin 3, ∃ σ : ℝ, (σ = 1 ∨ σ = -1) ∧ p.get i = σ * (s.get i / 2) ∧ m ≤ s.get i ∧
      0 < s.get i ∧ ∀ j, j ≠ i → |p.get j| < s.get j / 2 ∧ |p.get j| + m ≤ s.get j / 2 := by
  obtain ⟨hx, hy, hz⟩ := hp
  have key : ∀ {a s : ℝ}, 0 < s → |a| = s / 2 → ∃ σ : ℝ, (σ = 1 ∨ σ = -1) ∧ a = σ * (s / 2) := by
    intro a s hs h
    rcases (abs_eq (by linarith : (0 : ℝ) ≤ s / 2)).1 h with h | h
    · exact ⟨1, .inl rfl, by linarith⟩
    · exact ⟨-1, .inr rfl, by linarith⟩
  rcases h with ⟨⟨h1, h2⟩, h3, h4⟩ | ⟨h3, ⟨h1, h2⟩, h4⟩ | ⟨h3, h4, h1, h2⟩
  · obtain ⟨σ, hσ, e⟩ := key hx h1
    refine ⟨0, σ, hσ, e, h2, hx, fun j hj => ?_⟩
    match j, hj with
    | 0, hj => exact absurd rfl hj
    | 1, _ => exact h3
    | 2, _ => exact h4
  · obtain ⟨σ, hσ, e⟩ := key hy h1
    refine ⟨1, σ, hσ, e, h2, hy, fun j hj => ?_⟩
    match j, hj with
    | 0, _ => exact h3
    | 1, hj => exact absurd rfl hj
    | 2, _ => exact h4
  · obtain ⟨σ, hσ, e⟩ := key hz h1
    refine ⟨2, σ, hσ, e, h2, hz, fun j hj => ?_⟩
    match j, hj with
    | 0, _ => exact h3
    | 1, _ => exact h4
    | 2, hj => exact absurd rfl hj

private theorem axis_dot (i : Fin 3) (σ : ℝ) (d : Vec3 ℝ) : (axisNormal i σ).dot d = σ * d.get i := by
  match i with
  | 0 => simp [axisNormal, Vec3.dot, Vec3.get]
  | 1 => simp [axisNormal, Vec3.dot, Vec3.get]
  | 2 => simp [axisNormal, Vec3.dot, Vec3.get]

private theorem inner_box_get {s p : Vec3 ℝ} :
    Inner (.box s) p ↔ ∀ i : Fin 3, |p.get i| < s.get i / 2 := by
  constructor
  · rintro ⟨h1, h2, h3⟩ i
    match i with
    | 0 => exact h1
    | 1 => exact h2
    | 2 => exact h3
  · intro h
    exact ⟨h 0, h 1, h 2⟩

private theorem get_line (p d : Vec3 ℝ) (t : ℝ) (i : Fin 3) :
    (p + t • d).get i = p.get i + t * d.get i := by
  match i with
  | 0 => rfl
  | 1 => rfl
  | 2 => rfl

private theorem box_outward {s p : Vec3 ℝ} {i : Fin 3} {σ : ℝ} (hσ : σ = 1 ∨ σ = -1)
    (hi : p.get i = σ * (s.get i / 2)) (hs : 0 < s.get i)
    (hj : ∀ j, j ≠ i → |p.get j| < s.get j / 2) : Outward (.box s) p (axisNormal i σ) := by
  refine ⟨?_, fun d => ?_⟩
  · have : (axisNormal i σ).get i = σ := by match i with | 0 => rfl | 1 => rfl | 2 => rfl
    rw [axis_dot, this]
    rcases hσ with rfl | rfl <;> norm_num
  · rw [axis_dot]
    have hia : |p.get i| = s.get i / 2 := by
      rw [hi]
      rcases hσ with rfl | rfl
      · rw [one_mul, abs_of_pos (by linarith)]
      · rw [neg_one_mul, abs_neg, abs_of_pos (by linarith)]
    have hface := near_face (b := d.get i) (by linarith : 0 < s.get i / 2) hia
    have hsgn : p.get i * d.get i < 0 ↔ σ * d.get i < 0 := by
      rw [hi]
      constructor
      · intro h
        by_contra hc
        have := mul_nonneg (not_lt.1 hc) (by linarith : 0 ≤ s.get i / 2)
        linarith
      · intro h
        have := mul_neg_of_neg_of_pos h (by linarith : 0 < s.get i / 2)
        linarith
    rw [← hsgn, ← hface]
    change _ ↔ Near (fun t => Inner (.box s) (p + t • d))
    constructor
    · intro h
      have hall : ∀ j, Near (fun t => |p.get j + t * d.get j| < s.get j / 2) := by
        intro j
        by_cases e : j = i
        · rw [e]; exact h
        · exact near_abs (hj j e)
      refine (((hall 0).and (hall 1)).and (hall 2)).mono fun t _ ht => ?_
      exact ⟨ht.1.1, ht.1.2, ht.2⟩
    · intro h
      refine h.mono fun t _ ht => ?_
      have := inner_box_get.1 ht i
      rwa [get_line] at this

private theorem boxSurfaces_face {s p : Vec3 ℝ} {i : Fin 3} {σ : ℝ} (hσ : σ = 1 ∨ σ = -1)
    (hi : p.get i = σ * (s.get i / 2)) (hm : epsZero ≤ s.get i)
    (hj : ∀ j, j ≠ i → |p.get j| + epsZero ≤ s.get j / 2) :
    pyNormal (.box s) p = .ok (axisNormal i σ) := by
  have heps : (0 : ℝ) < epsZero := by unfold epsZero; norm_num
  have e2 : 2 * epsZero / 2 = epsZero := by ring
  have half : ∀ x : ℝ, (0.5 : ℝ) * x = x / 2 := fun x => by norm_num; ring
  have far : ∀ {a c : ℝ}, |a| + epsZero ≤ c → ¬ |(|a - (0 - c)|)| < epsZero ∧
      ¬ |(|a - (0 + c)|)| < epsZero := by
    intro a c h
    rw [abs_abs, abs_abs, not_lt, not_lt]
    have h1 := abs_le.1 (le_refl |a|)
    constructor
    · rw [le_abs]; left; linarith [h1.1]
    · rw [le_abs]; right; linarith [h1.2]
  have hit : ∀ {c : ℝ}, |(|c - (0 + c)|)| < epsZero ∧ |(|(-c) - (0 - c)|)| < epsZero := by
    intro c
    constructor
    · have : c - (0 + c) = 0 := by ring
      rw [this, abs_zero, abs_zero]; exact heps
    · have : -c - (0 - c) = 0 := by ring
      rw [this, abs_zero, abs_zero]; exact heps
  have opp : ∀ {c : ℝ}, epsZero ≤ 2 * c → ¬ |(|c - (0 - c)|)| < epsZero ∧
      ¬ |(|(-c) - (0 + c)|)| < epsZero := by
    intro c h
    rw [abs_abs, abs_abs, not_lt, not_lt]
    constructor
    · rw [le_abs]; left; linarith
    · rw [le_abs]; right; linarith
  have surf : ∃ k, boxSurfaces s p = [k] ∧ boxNormals[k]? = some (axisNormal i σ) := by
    unfold boxSurfaces
    simp only [half, e2, List.zipIdx_cons, List.zipIdx_nil]
    match i, hi, hm, hj with
    | 0, hi, hm, hj =>
      have f1 := far (hj 1 (by decide))
      have f2 := far (hj 2 (by decide))
      simp only [Vec3.get] at hi hm f1 f2
      rcases hσ with rfl | rfl
      · rw [one_mul] at hi
        refine ⟨1, ?_, rfl⟩
        simp [hi, opp (c := s.x / 2) (by linarith), f1, f2, heps,
          -abs_abs, -zero_add, -zero_sub, -sub_neg_eq_add, -sub_self]
      · rw [neg_one_mul] at hi
        refine ⟨0, ?_, rfl⟩
        simp [hi, hit, opp (c := s.x / 2) (by linarith), f1, f2,
          -abs_abs, -zero_add, -zero_sub, -sub_neg_eq_add, -sub_self]
    | 1, hi, hm, hj =>
      have f1 := far (hj 0 (by decide))
      have f2 := far (hj 2 (by decide))
      simp only [Vec3.get] at hi hm f1 f2
      rcases hσ with rfl | rfl
      · rw [one_mul] at hi
        refine ⟨3, ?_, rfl⟩
        simp [hi, opp (c := s.y / 2) (by linarith), f1, f2, heps,
          -abs_abs, -zero_add, -zero_sub, -sub_neg_eq_add, -sub_self]
      · rw [neg_one_mul] at hi
        refine ⟨2, ?_, rfl⟩
        simp [hi, hit, opp (c := s.y / 2) (by linarith), f1, f2,
          -abs_abs, -zero_add, -zero_sub, -sub_neg_eq_add, -sub_self]
    | 2, hi, hm, hj =>
      have f1 := far (hj 0 (by decide))
      have f2 := far (hj 1 (by decide))
      simp only [Vec3.get] at hi hm f1 f2
      rcases hσ with rfl | rfl
      · rw [one_mul] at hi
        refine ⟨5, ?_, rfl⟩
        simp [hi, opp (c := s.z / 2) (by linarith), f1, f2, heps,
          -abs_abs, -zero_add, -zero_sub, -sub_neg_eq_add, -sub_self]
      · rw [neg_one_mul] at hi
        refine ⟨4, ?_, rfl⟩
        simp [hi, hit, opp (c := s.z / 2) (by linarith), f1, f2,
          -abs_abs, -zero_add, -zero_sub, -sub_neg_eq_add, -sub_self]
  obtain ⟨k, h1, h2⟩ := surf
  simp only [pyNormal, h1, h2]

theorem kNormal_face {s p : Vec3 ℝ} {i : Fin 3} {σ : ℝ} (hσ : σ = 1 ∨ σ = -1)
    (hi : p.get i = σ * (s.get i / 2)) (hs : 0 < s.get i)
    (hj : ∀ j, j ≠ i → |p.get j| < s.get j / 2) :
    kNormal (.box s) p = axisNormal i σ := by
  refine kNormal_box_face (f := (i, σ)) ?_ ?_ ?_
  · match i with
    | 0 => rcases hσ with rfl | rfl <;> simp [faces]
    | 1 => rcases hσ with rfl | rfl <;> simp [faces]
    | 2 => rcases hσ with rfl | rfl <;> simp [faces]
  · rw [hi]; norm_num; ring
  · rintro ⟨j, τ⟩ hg e
    have hτ : τ = 1 ∨ τ = -1 := by
      simp only [faces, List.mem_cons, Prod.mk.injEq, List.not_mem_nil, or_false] at hg
      tauto
    simp only at e
    by_cases h : j = i
    · subst h
      rw [hi] at e
      have : σ = τ := by
        have h2 : σ * (s.get j / 2) = τ * (s.get j / 2) := by rw [e]; norm_num; ring
        exact mul_right_cancel₀ (by linarith : s.get j / 2 ≠ 0) h2
      rw [this]
    · exfalso
      have := not_face (hj j h)
      rcases hτ with rfl | rfl
      · exact this.2 e
      · exact this.1 e

private theorem sphere_outward {r : ℝ} {p : Vec3 ℝ} (hr : 0 < r)
    (h : p.x ^ 2 + p.y ^ 2 + p.z ^ 2 = r ^ 2) :
    Real.sqrt (p.dot p) = r ∧ Outward (.sphere r) p ⟨p.x / r, p.y / r, p.z / r⟩ := by
  have e : p.dot p = r ^ 2 := by rw [← h]; simp [Vec3.dot]; ring
  refine ⟨by rw [e, Real.sqrt_sq hr.le], ?_, fun d => ?_⟩
  · simp only [Vec3.dot]
    field_simp
    linarith
  · change _ ↔ Near (fun t => Inner (.sphere r) (p + t • d))
    have h1 : (⟨p.x / r, p.y / r, p.z / r⟩ : Vec3 ℝ).dot d < 0 ↔ p.dot d < 0 := by
      have : (⟨p.x / r, p.y / r, p.z / r⟩ : Vec3 ℝ).dot d = p.dot d / r := by
        simp only [Vec3.dot]; field_simp
      rw [this, div_lt_iff₀ hr, zero_mul]
    rw [h1, ← near_round (a := d.dot d) (by
      simp only [Vec3.dot]; nlinarith [sq_nonneg d.x, sq_nonneg d.y, sq_nonneg d.z])]
    have h2 : ∀ t : ℝ, Inner (.sphere r) (p + t • d) ↔ 2 * p.dot d * t + d.dot d * t ^ 2 < 0 := by
      intro t
      simp only [Inner]
      rw [← sub_neg, sphere_quad, e]
      have : p.dot d = d.dot p := by simp only [Vec3.dot]; ring
      rw [this]
      constructor <;> intro h <;> linarith
    simp only [h2]

private theorem side_outward {l r : ℝ} {p : Vec3 ℝ} (hr : 0 < r)
    (h : p.x ^ 2 + p.y ^ 2 = r ^ 2) (hz : |p.z| < l / 2) :
    Outward (.cylinder l r) p ⟨p.x / r, p.y / r, 0⟩ := by
  refine ⟨?_, fun d => ?_⟩
  · simp only [Vec3.dot]
    field_simp
    linarith
  · change _ ↔ Near (fun t => Inner (.cylinder l r) (p + t • d))
    have h1 : (⟨p.x / r, p.y / r, 0⟩ : Vec3 ℝ).dot d < 0 ↔ p.x * d.x + p.y * d.y < 0 := by
      have : (⟨p.x / r, p.y / r, 0⟩ : Vec3 ℝ).dot d = (p.x * d.x + p.y * d.y) / r := by
        simp only [Vec3.dot]; field_simp; ring
      rw [this, div_lt_iff₀ hr, zero_mul]
    rw [h1, ← near_round (a := d.x ^ 2 + d.y ^ 2) (by positivity)]
    have h2 : ∀ t : ℝ, (p.x + t * d.x) ^ 2 + (p.y + t * d.y) ^ 2 < r ^ 2 ↔
        2 * (p.x * d.x + p.y * d.y) * t + (d.x ^ 2 + d.y ^ 2) * t ^ 2 < 0 := by
      intro t
      rw [← h]
      constructor <;> intro h <;> nlinarith
    constructor
    · intro hn
      refine (hn.and (near_abs (b := d.z) hz)).mono fun t _ ht => ⟨?_, ht.2⟩
      exact (h2 t).2 ht.1
    · intro hn
      exact hn.mono fun t _ ht => (h2 t).1 ht.1

private theorem cap_outward {l r σ : ℝ} {p : Vec3 ℝ} (hl : 0 < l) (hσ : σ = 1 ∨ σ = -1)
    (h : p.x ^ 2 + p.y ^ 2 < r ^ 2) (hz : p.z = σ * (l / 2)) :
    Outward (.cylinder l r) p ⟨0, 0, σ⟩ := by
  refine ⟨?_, fun d => ?_⟩
  · rcases hσ with rfl | rfl <;> norm_num [Vec3.dot]
  · change _ ↔ Near (fun t => Inner (.cylinder l r) (p + t • d))
    have hza : |p.z| = l / 2 := by
      rw [hz]
      rcases hσ with rfl | rfl
      · rw [one_mul, abs_of_pos (by linarith)]
      · rw [neg_one_mul, abs_neg, abs_of_pos (by linarith)]
    have h1 : (⟨0, 0, σ⟩ : Vec3 ℝ).dot d < 0 ↔ p.z * d.z < 0 := by
      rw [hz]
      simp only [Vec3.dot, zero_mul, zero_add]
      constructor
      · intro h
        have := mul_neg_of_neg_of_pos h (by linarith : 0 < l / 2)
        linarith
      · intro h
        by_contra hc
        have := mul_nonneg (not_lt.1 hc) (by linarith : 0 ≤ l / 2)
        linarith
    rw [h1, ← near_face (b := d.z) (by linarith : 0 < l / 2) hza]
    constructor
    · intro hn
      refine (hn.and (near_quad (a := d.x ^ 2 + d.y ^ 2) (b := 2 * (p.x * d.x + p.y * d.y))
        (c := p.x ^ 2 + p.y ^ 2 - r ^ 2) (by linarith))).mono fun t _ ht => ⟨?_, ht.1⟩
      have := ht.2
      simp only [Vec3.add_x, Vec3.add_y, Vec3.smul_x, Vec3.smul_y]
      nlinarith
    · intro hn
      exact hn.mono fun t _ ht => ht.2

/-- Both codes decide between caps and side in the same way. -/
private theorem cyl_normal {l r : ℝ} {p : Vec3 ℝ} (hl : 0 < l) (hr : 0 < r) {m : ℝ}
    (h : Smooth m (.cylinder l r) p) :
    pyNormal (.cylinder l r) p = .ok (kNormal (.cylinder l r) p) ∧
      Outward (.cylinder l r) p (kNormal (.cylinder l r) p) := by
  have ehalf : (0.5 : ℝ) * l = l / 2 := by norm_num; ring
  have ehalf' : (-0.5 : ℝ) * l = -(l / 2) := by norm_num; ring
  have eabs : |l / 2| = l / 2 := abs_of_pos (by linarith)
  have tolpos : (0 : ℝ) < 1e-8 + 1e-5 * (l / 2) := by positivity
  unfold pyNormal kNormal isclose
  simp only [ehalf, ehalf', eabs, abs_neg, sub_neg_eq_add]
  rcases h with ⟨h1, h2⟩ | ⟨h1, h2, h3⟩
  · have hz := abs_lt.1 (show |p.z| < l / 2 - (1e-8 + 1e-5 * (l / 2)) by linarith)
    have n1 : ¬ |p.z + l / 2| ≤ 1e-8 + 1e-5 * (l / 2) := by
      rw [not_le, lt_abs]; left; linarith [hz.1]
    have n2 : ¬ |p.z - l / 2| ≤ 1e-8 + 1e-5 * (l / 2) := by
      rw [not_le, lt_abs]; right; linarith [hz.2]
    have e1 : Real.sqrt (p.x ^ 2 + p.y ^ 2) = r := by rw [h1, Real.sqrt_sq hr.le]
    have e2 : Real.sqrt (p.x * p.x + p.y * p.y) = r := by rw [← pow_two, ← pow_two]; exact e1
    rw [if_neg n1, if_neg n2, if_neg n1, if_neg n2]
    have hclose : |r - Real.sqrt (p.x ^ 2 + p.y ^ 2)| ≤
        1e-8 + 1e-5 * |Real.sqrt (p.x ^ 2 + p.y ^ 2)| := by
      rw [e1, sub_self, abs_zero]; positivity
    rw [if_pos hclose]
    have e3 : (⟨p.x - 0, p.y - 0, p.z - p.z⟩ : Vec3 ℝ).dot ⟨p.x - 0, p.y - 0, p.z - p.z⟩ =
        p.x * p.x + p.y * p.y := by simp [Vec3.dot]
    rw [e3, e2]
    refine ⟨by simp, side_outward hr h1 ?_⟩
    linarith
  · rcases (abs_eq (by linarith : (0 : ℝ) ≤ l / 2)).1 h2 with hz | hz
    · have n1 : ¬ |p.z + l / 2| ≤ 1e-8 + 1e-5 * (l / 2) := by
        rw [not_le, lt_abs]; left; linarith
      have n2 : |p.z - l / 2| ≤ 1e-8 + 1e-5 * (l / 2) := by
        rw [hz, sub_self, abs_zero]; exact tolpos.le
      rw [if_neg n1, if_pos n2, if_neg n1, if_pos n2]
      exact ⟨rfl, cap_outward hl (.inl rfl) h1 (by linarith)⟩
    · have n1 : |p.z + l / 2| ≤ 1e-8 + 1e-5 * (l / 2) := by
        rw [hz, neg_add_cancel, abs_zero]; exact tolpos.le
      rw [if_pos n1, if_pos n1]
      exact ⟨rfl, cap_outward hl (.inr rfl) h1 (by linarith)⟩

/-- **C45** (engine). At a surface point off the edges the normal is the outward unit normal. -/
theorem engine_normal {g : Geom} {p : Vec3 ℝ} (hp : Proper g) (h : Smooth 0 g p) :
    Outward g p (kNormal g p) := by
  cases g with
  | box s =>
    obtain ⟨i, σ, hσ, hi, -, hs, hj⟩ := box_cases hp h
    rw [kNormal_face hσ hi hs fun j e => (hj j e).1]
    exact box_outward hσ hi hs fun j e => (hj j e).1
  | sphere r =>
    obtain ⟨h1, h2⟩ := sphere_outward hp h
    unfold kNormal
    simp only [h1]
    exact h2
  | cylinder l r => exact (cyl_normal hp.1 hp.2 h).2

/-- **C45** (Python). At a surface point at least `EPS_ZERO` off the edges `normal` raises no
exception, returns the outward unit normal, and agrees with the engine. -/
theorem python_normal {g : Geom} {p : Vec3 ℝ} (hp : Proper g) (h : Smooth epsZero g p) :
    pyNormal g p = .ok (kNormal g p) ∧ Outward g p (kNormal g p) := by
  cases g with
  | box s =>
    obtain ⟨i, σ, hσ, hi, hm, hs, hj⟩ := box_cases hp h
    rw [kNormal_face hσ hi hs fun j e => (hj j e).1]
    exact ⟨boxSurfaces_face hσ hi hm fun j e => (hj j e).2,
      box_outward hσ hi hs fun j e => (hj j e).1⟩
  | sphere r =>
    obtain ⟨h1, h2⟩ := sphere_outward hp h
    unfold pyNormal kNormal
    simp only [h1]
    exact ⟨trivial, h2⟩
  | cylinder l r => exact cyl_normal hp.1 hp.2 h

/-- On a smooth point `is_on_surface` holds. -/
theorem on_surface_partial {g : Geom} {p : Vec3 ℝ} (hp : Proper g) (h : Smooth epsZero g p) :
    pyOnSurface g p = true := by
  have heps : (0 : ℝ) < epsZero := by unfold epsZero; norm_num
  cases g with
  | box s =>
    have h1 := (python_normal hp h).1
    unfold pyOnSurface
    simp only [decide_eq_true_eq]
    intro e
    simp [pyNormal, e] at h1
  | sphere r =>
    obtain ⟨h1, -⟩ := sphere_outward hp h
    unfold pyOnSurface
    simp only [h1, sub_self, abs_zero, heps, decide_true]
  | cylinder l r =>
    obtain ⟨hl, hr⟩ := hp
    have hk : (1 : ℝ) / Real.sqrt 3 ≠ 0 := by positivity
    have hmem : (0 : ℝ) ∈ rayZCylinder l r p ⟨1 / Real.sqrt 3, 1 / Real.sqrt 3, 1 / Real.sqrt 3⟩ := by
      rw [mem_rayZCylinder hl hr]
      refine ⟨le_refl _, ?_⟩
      have e0 : p + (0 : ℝ) • (⟨1 / Real.sqrt 3, 1 / Real.sqrt 3, 1 / Real.sqrt 3⟩ : Vec3 ℝ) = p := by
        ext <;> simp
      rw [e0]
      rcases h with ⟨h1, h2⟩ | ⟨h1, h2, -⟩
      · refine .inl ⟨fun h => hk h.1, h1, ?_⟩
        have : (0 : ℝ) < 1e-8 + 1e-5 * (l / 2) := by positivity
        linarith
      · exact .inr ⟨hk, h1, h2⟩
    have hsort := cylinder_python_sorted l r p ⟨1 / Real.sqrt 3, 1 / Real.sqrt 3, 1 / Real.sqrt 3⟩
    unfold pyOnSurface
    simp only
    cases hL : rayZCylinder l r p ⟨1 / Real.sqrt 3, 1 / Real.sqrt 3, 1 / Real.sqrt 3⟩ with
    | nil => rw [hL] at hmem; simp at hmem
    | cons t ts =>
      rw [hL] at hmem hsort
      have hnn : 0 ≤ t := by
        have : t ∈ rayZCylinder l r p ⟨1 / Real.sqrt 3, 1 / Real.sqrt 3, 1 / Real.sqrt 3⟩ := by
          rw [hL]; exact List.mem_cons_self ..
        exact ((mem_rayZCylinder hl hr t).1 this).1
      have hle : t ≤ 0 := by
        rcases List.mem_cons.1 hmem with h | h
        · exact h.ge
        · exact (List.pairwise_cons.1 hsort).1 0 h
      simp [le_antisymm hle hnn, heps]

/-- **C45**. At a surface point off the edges `is_entering` says whether the direction leads into the
interior. -/
theorem is_entering {g : Geom} {p : Vec3 ℝ} (hp : Proper g) (h : Smooth epsZero g p) (d : Vec3 ℝ) :
    ∃ b, pyIsEntering g p d = .ok b ∧
      (b = true ↔ ∃ δ > 0, ∀ t : ℝ, 0 < t → t < δ → Inner g (p + t • d)) := by
  obtain ⟨h1, -, h2⟩ := python_normal hp h
  refine ⟨open Classical in decide ((kNormal g p).dot d < 0), ?_, ?_⟩
  · have h3 := on_surface_partial hp h
    unfold pyIsEntering
    rw [h1]
    cases g with
    | box s => rfl
    | sphere r => simp only [h3, if_true]
    | cylinder l r => simp only [h3, if_true]
  · rw [decide_eq_true_eq]; exact h2 d

/-- **C45** (excluded points). On an edge of a box `normal`, and so the tracer, raises. -/
theorem edge_raises : ∃ (s p : Vec3 ℝ), Proper (.box s) ∧ Surface (.box s) p ∧
    pyNormal (.box s) p = .error .geometryError := by
  refine ⟨⟨2, 2, 2⟩, ⟨1, 1, 0⟩, by norm_num [Proper], by norm_num [Surface, Closed, Inner], ?_⟩
  have : boxSurfaces ⟨2, 2, 2⟩ ⟨1, 1, 0⟩ = [1, 3] := by
    unfold boxSurfaces
    norm_num [List.filter_cons, epsZero]
  simp only [pyNormal, this]

/-- **C45** (violated). A point on the side of a cylinder close to a cap gets the normal of the cap,
in both codes; it is not the outward normal there. -/
theorem side_point_gets_cap_normal : ∃ (l r : ℝ) (p : Vec3 ℝ), Proper (.cylinder l r) ∧
    Surface (.cylinder l r) p ∧ |p.z| < l / 2 ∧ kNormal (.cylinder l r) p = ⟨0, 0, 1⟩ ∧
    pyNormal (.cylinder l r) p = .ok ⟨0, 0, 1⟩ ∧ ¬ Outward (.cylinder l r) p ⟨0, 0, 1⟩ := by
  have a1 : |(1 - 1 / 1000000 : ℝ)| = 1 - 1 / 1000000 := abs_of_pos (by norm_num)
  refine ⟨2, 1, ⟨1, 0, 1 - 1 / 1000000⟩, by norm_num [Proper], ?_, ?_, ?_, ?_, ?_⟩
  · rw [surface_iff]
    left
    refine ⟨by norm_num, ?_⟩
    simp only [a1]; norm_num
  · simp only [a1]; norm_num
  · unfold kNormal
    simp only
    rw [if_neg (by norm_num [abs_le]), if_pos (by norm_num [abs_le])]
  · unfold pyNormal isclose
    simp only
    rw [if_neg (by norm_num [abs_le]), if_pos (by norm_num [abs_le])]
  · rintro ⟨-, h⟩
    obtain ⟨t, -, ht⟩ := Near.exists ((h ⟨0, 0, -1⟩).1 (by norm_num [Vec3.dot]))
    have := ht.1
    norm_num at this

/-- Non-vacuity of `python_normal`: the middle of a face, and a point of a side. -/
example : Smooth epsZero (.box ⟨1, 2, 3⟩) ⟨0, -1, 0⟩ ∧ Smooth epsZero (.cylinder 2 1) ⟨0, 1, 0⟩ := by
  refine ⟨.inr (.inl ?_), .inl ?_⟩ <;> norm_num [epsZero]

end PV.Geometry
