import Verif.Model.Light
import Verif.Props.Phase
import Verif.Props.Dist
import Mathlib.Tactic.IntervalCases

/-!
C49 colours, C50 apertures of lights, C63 uniform apertures, C64 number of rays of a light,
C65 the engine emits what the light emits.
-/

namespace PV.Light
open PV

/-! ## C49 -/

section Colour
variable {α : Type} [Field α] [LinearOrder α] [IsStrictOrderedRing α] [FloorRing α]

theorem hexDigits_eq {n : ℕ} (h : n ≤ 255) : hexDigits n = [n / 16, n % 16] := by
  have : ∀ k : Fin 256, hexDigits k = [k.1 / 16, k.1 % 16] := by decide +kernel
  exact this ⟨n, by omega⟩

theorem clamp_range (x : ℤ) : 0 ≤ clamp x ∧ clamp x ≤ 255 := by unfold clamp; omega

theorem clamp_id {x : ℤ} (h0 : 0 ≤ x) (h1 : x ≤ 255) : clamp x = x := by unfold clamp; omega

/-- **C49**. The integer is `r * 65536 + g * 256 + b` of the channels cut to `0 … 255`. -/
theorem hex_value (r g b : ℤ) :
    (rgbToHexInt (r, g, b) : ℤ) =
      max 0 (min r 255) * 65536 + max 0 (min g 255) * 256 + max 0 (min b 255) := by
  have hr := clamp_range r
  have hg := clamp_range g
  have hb := clamp_range b
  have e : rgbToHexInt (r, g, b) = (clamp r).toNat * 65536 + (clamp g).toNat * 256 +
      (clamp b).toNat := by
    simp only [rgbToHexInt]
    rw [hexDigits_eq (by omega), hexDigits_eq (by omega), hexDigits_eq (by omega)]
    simp only [List.cons_append, List.nil_append, List.foldl_cons, List.foldl_nil]
    omega
  rw [e]
  push_cast
  rw [Int.toNat_of_nonneg hr.1, Int.toNat_of_nonneg hg.1, Int.toNat_of_nonneg hb.1]
  rfl

/-- **C49**. The result is a valid colour `0x000000 … 0xFFFFFF`. -/
theorem hex_range (rgb : ℤ × ℤ × ℤ) : rgbToHexInt rgb ≤ 0xFFFFFF := by
  obtain ⟨r, g, b⟩ := rgb
  have := hex_value r g b
  omega

/-- **C49**. Different colours give different integers. -/
theorem hex_injective {r g b r' g' b' : ℤ} (hr : 0 ≤ r ∧ r ≤ 255) (hg : 0 ≤ g ∧ g ≤ 255)
    (hb : 0 ≤ b ∧ b ≤ 255) (hr' : 0 ≤ r' ∧ r' ≤ 255) (hg' : 0 ≤ g' ∧ g' ≤ 255)
    (hb' : 0 ≤ b' ∧ b' ≤ 255) (h : rgbToHexInt (r, g, b) = rgbToHexInt (r', g', b')) :
    (r, g, b) = (r', g', b') := by
  have h1 := hex_value r g b
  have h2 := hex_value r' g' b'
  rw [h] at h1
  have : r = r' ∧ g = g' ∧ b = b' := by omega
  rw [this.1, this.2.1, this.2.2]

example : rgbToHexInt (300, -5, 16) = 0xFF0010 := by decide +kernel

theorem truncZ_range {x : α} (h0 : 0 ≤ x) (h1 : x ≤ 255) : 0 ≤ truncZ x ∧ truncZ x ≤ 255 := by
  rw [truncZ, if_pos h0]
  refine ⟨Int.floor_nonneg.2 h0, ?_⟩
  have : (⌊x⌋ : α) ≤ ((255 : ℤ) : α) := le_trans (Int.floor_le x) (by push_cast; exact h1)
  exact_mod_cast this

theorem hue_range (w : ℤ) : (0 ≤ (hue w : α × α × α).1 ∧ (hue w : α × α × α).1 ≤ 1) ∧
    (0 ≤ (hue w : α × α × α).2.1 ∧ (hue w : α × α × α).2.1 ≤ 1) ∧
    (0 ≤ (hue w : α × α × α).2.2 ∧ (hue w : α × α × α).2.2 ≤ 1) := by
  unfold hue
  split_ifs with h1 h2 h3 h4 h5 h6
  all_goals
    try (have a : (w : α) ≥ ((380 : ℤ) : α) := by exact_mod_cast h1.1)
    try (have b : (w : α) < ((440 : ℤ) : α) := by exact_mod_cast h1.2)
    try (have a : (w : α) ≥ ((440 : ℤ) : α) := by exact_mod_cast h2.1)
    try (have b : (w : α) < ((490 : ℤ) : α) := by exact_mod_cast h2.2)
    try (have a : (w : α) ≥ ((490 : ℤ) : α) := by exact_mod_cast h3.1)
    try (have b : (w : α) < ((510 : ℤ) : α) := by exact_mod_cast h3.2)
    try (have a : (w : α) ≥ ((510 : ℤ) : α) := by exact_mod_cast h4.1)
    try (have b : (w : α) < ((580 : ℤ) : α) := by exact_mod_cast h4.2)
    try (have a : (w : α) ≥ ((580 : ℤ) : α) := by exact_mod_cast h5.1)
    try (have b : (w : α) < ((645 : ℤ) : α) := by exact_mod_cast h5.2)
    try push_cast at a b
    refine ⟨⟨?_, ?_⟩, ⟨?_, ?_⟩, ⟨?_, ?_⟩⟩ <;>
    first
      | exact le_refl _
      | exact zero_le_one
      | (apply div_nonneg <;> linarith)
      | (rw [div_le_one (by norm_num)]; linarith)

theorem intensity_range (w : ℤ) :
    0 ≤ (intensity w : α) ∧ (intensity w : α) ≤ 255 ∧
      (380 ≤ w → w ≤ 780 → 76 ≤ (intensity w : α)) := by
  unfold intensity
  dsimp only
  split_ifs with h1 h2 h3
  · have a : (w : α) ≥ ((380 : ℤ) : α) := by exact_mod_cast h1.1
    have b : (w : α) < ((420 : ℤ) : α) := by exact_mod_cast h1.2
    push_cast at a b
    refine ⟨?_, ?_, fun _ _ => ?_⟩ <;> norm_num <;> linarith
  · norm_num
  · have a : (w : α) > ((700 : ℤ) : α) := by exact_mod_cast h3.1
    have b : (w : α) ≤ ((780 : ℤ) : α) := by exact_mod_cast h3.2
    push_cast at a b
    refine ⟨?_, ?_, fun _ _ => ?_⟩ <;> norm_num <;> linarith
  · refine ⟨by norm_num, by norm_num, fun h h' => ?_⟩
    omega

/-- **C49**. Every wavelength has channels between 0 and 255, so nothing is cut off. -/
theorem rgb_valid (nm : α) :
    let c := wavelengthToRgb nm
    (0 ≤ c.1 ∧ c.1 ≤ 255) ∧ (0 ≤ c.2.1 ∧ c.2.1 ≤ 255) ∧ (0 ≤ c.2.2 ∧ c.2.2 ≤ 255) := by
  have hh := hue_range (α := α) (truncZ nm)
  have hs := intensity_range (α := α) (truncZ nm)
  have key : ∀ x : α, 0 ≤ x → x ≤ 1 → 0 ≤ truncZ (intensity (truncZ nm) * x) ∧
      truncZ (intensity (truncZ nm) * x) ≤ 255 := by
    intro x h0 h1
    apply truncZ_range (mul_nonneg hs.1 h0)
    calc (intensity (truncZ nm) : α) * x ≤ intensity (truncZ nm) * 1 :=
          mul_le_mul_of_nonneg_left h1 hs.1
      _ ≤ 255 := by rw [mul_one]; exact hs.2.1
  exact ⟨key _ hh.1.1 hh.1.2, key _ hh.2.1.1 hh.2.1.2, key _ hh.2.2.1 hh.2.2.2⟩

/-- **C49**. A wavelength is drawn black exactly when it is outside the visible range: below 380 nm,
or 781 nm and above. -/
theorem black_iff (nm : α) : wavelengthToHexInt nm = 0 ↔ nm < 380 ∨ 781 ≤ nm := by
  have hv := rgb_valid nm
  have hw : truncZ nm < 380 ∨ 780 < truncZ nm ↔ nm < 380 ∨ 781 ≤ nm := by
    unfold truncZ
    by_cases h0 : 0 ≤ nm
    · rw [if_pos h0, Int.floor_lt, Int.lt_iff_add_one_le, Int.le_floor]
      norm_num
    · rw [if_neg h0]
      have hc : ⌈nm⌉ ≤ 0 := Int.ceil_le.2 (by push_cast; exact (not_le.1 h0).le)
      have : nm < 380 := (not_le.1 h0).trans (by norm_num)
      exact ⟨fun _ => Or.inl this, fun _ => Or.inl (by omega)⟩
  rw [← hw]
  have hz : wavelengthToHexInt nm = 0 ↔ wavelengthToRgb nm = (0, 0, 0) := by
    unfold wavelengthToHexInt
    generalize wavelengthToRgb nm = c at hv ⊢
    obtain ⟨r, g, b⟩ := c
    dsimp only at hv
    have := hex_value r g b
    constructor
    · intro h
      rw [h] at this
      have : r = 0 ∧ g = 0 ∧ b = 0 := by omega
      rw [this.1, this.2.1, this.2.2]
    · intro h
      simp only [Prod.mk.injEq] at h
      omega
  rw [hz]
  constructor
  · intro h
    by_contra hn
    push Not at hn
    have hs := (intensity_range (α := α) (truncZ nm)).2.2 hn.1 hn.2
    have h76 : ∀ x : α, 76 ≤ x → truncZ x ≠ 0 := by
      intro x hx
      rw [truncZ, if_pos (by linarith)]
      have : (76 : ℤ) ≤ ⌊x⌋ := Int.le_floor.2 (by push_cast; exact hx)
      omega
    simp only [wavelengthToRgb, Prod.mk.injEq] at h
    have : (hue (truncZ nm) : α × α × α).1 = 1 ∨ (hue (truncZ nm) : α × α × α).2.1 = 1 ∨
        (hue (truncZ nm) : α × α × α).2.2 = 1 := by
      unfold hue
      split_ifs <;> first | (simp; done) | omega
    rcases this with e | e | e
    · rw [e, mul_one] at h; exact h76 _ hs h.1
    · rw [e, mul_one] at h; exact h76 _ hs h.2.1
    · rw [e, mul_one] at h; exact h76 _ hs h.2.2
  · intro h
    have e : (intensity (truncZ nm) : α) = 0 := by
      unfold intensity
      dsimp only
      rw [if_neg (by omega), if_neg (by omega), if_neg (by omega), zero_mul]
    have t0 : truncZ (0 : α) = 0 := by simp [truncZ]
    simp only [wavelengthToRgb, e, zero_mul, t0]

example : wavelengthToHexInt (555 : ℚ) = 0xA3FF00 := by decide +kernel
example : wavelengthToHexInt (780.5 : ℚ) = 0x4C0000 := by decide +kernel

end Colour

/-! ## C50, C63 -/

noncomputable section
open Real

/-- All numbers are in `[0, 1)`. -/
def Unit (s : Draws) : Prop := ∀ k, 0 ≤ s k ∧ s k < 1

theorem uniform_abs {X : ℝ} {u : ℝ} (h0 : 0 ≤ u) (h1 : u < 1) :
    |-X + (X - -X) * u| ≤ |X| := by
  have e : -X + (X - -X) * u = X * (2 * u - 1) := by ring
  rw [e, abs_mul]
  have : |2 * u - 1| ≤ 1 := abs_le.2 ⟨by linarith, by linarith⟩
  calc |X| * |2 * u - 1| ≤ |X| * 1 := mul_le_mul_of_nonneg_left this (abs_nonneg _)
    _ = |X| := mul_one _

/-- **C50**. A rectangular mask emits inside the rectangle, in the xy-plane. -/
theorem rect_inside (X Y : ℝ) {s : Draws} (hs : Unit s) :
    |(rectangularMask X Y s).1.x| ≤ |X| ∧ |(rectangularMask X Y s).1.y| ≤ |Y| ∧
      (rectangularMask X Y s).1.z = 0 :=
  ⟨uniform_abs (hs 0).1 (hs 0).2, uniform_abs (hs 1).1 (hs 1).2, rfl⟩

/-- **C50**. A cube mask emits inside the cuboid. -/
theorem cube_inside (X Y Z : ℝ) {s : Draws} (hs : Unit s) :
    |(cubeMask X Y Z s).1.x| ≤ |X| ∧ |(cubeMask X Y Z s).1.y| ≤ |Y| ∧
      |(cubeMask X Y Z s).1.z| ≤ |Z| :=
  ⟨uniform_abs (hs 0).1 (hs 0).2, uniform_abs (hs 1).1 (hs 1).2, uniform_abs (hs 2).1 (hs 2).2⟩

theorem circle_norm (r : ℝ) {s : Draws} (hs : Unit s) :
    (circularMask r s).1.x ^ 2 + (circularMask r s).1.y ^ 2 = s 1 * r ^ 2 := by
  simp only [circularMask, uniform, draws]
  have h := sq_sqrt (show 0 ≤ 0 + (1 - 0) * s (0 + 1) by have := (hs 1).1; simp; exact this)
  have e : 0 + (1 - 0) * s (0 + 1) = s 1 := by simp
  rw [e] at h ⊢
  have t := sin_sq_add_cos_sq (0 + (2 * π - 0) * s 0)
  linear_combination (s 1 * r ^ 2) * t + r ^ 2 *
    (cos (0 + (2 * π - 0) * s 0) ^ 2 + sin (0 + (2 * π - 0) * s 0) ^ 2) * h

/-- **C50**. A circular mask emits inside the disc, in the xy-plane. -/
theorem circle_inside (r : ℝ) {s : Draws} (hs : Unit s) :
    (circularMask r s).1.x ^ 2 + (circularMask r s).1.y ^ 2 ≤ r ^ 2 ∧
      (circularMask r s).1.z = 0 := by
  refine ⟨?_, rfl⟩
  rw [circle_norm r hs]
  have := hs 1
  nlinarith [sq_nonneg r]

/-- A sequence that begins with the given numbers. -/
def starting (l : List ℝ) : Draws := fun k => l.getD k 0

theorem starting_unit {l : List ℝ} (h : ∀ u ∈ l, 0 ≤ u ∧ u < 1) : Unit (starting l) := by
  intro k
  unfold starting
  by_cases hk : k < l.length
  · rw [List.getD_eq_getElem?_getD, List.getElem?_eq_getElem hk]; exact h _ (List.getElem_mem hk)
  · rw [List.getD_eq_getElem?_getD, List.getElem?_eq_none (by omega)]; norm_num

theorem uniform_onto {X a : ℝ} (hX : 0 < X) (h0 : -X ≤ a) (h1 : a < X) :
    ∃ u, 0 ≤ u ∧ u < 1 ∧ -X + (X - -X) * u = a := by
  refine ⟨(a + X) / (2 * X), by apply div_nonneg <;> linarith, ?_, ?_⟩
  · rw [div_lt_one (by linarith)]; linarith
  · field_simp; ring

/-- **C63**. Every point of the rectangle is emitted for some numbers, and each coordinate is below
`a` for exactly the fraction `(a + X) / 2X` of the numbers: the density is constant. -/
theorem rect_uniform {X Y : ℝ} (hX : 0 < X) (hY : 0 < Y) :
    (∀ a b, -X ≤ a → a < X → -Y ≤ b → b < Y →
      ∃ s, Unit s ∧ (rectangularMask X Y s).1 = ⟨a, b, 0⟩) ∧
    ∀ s a b, ((rectangularMask X Y s).1.x ≤ a ↔ s 0 ≤ (a + X) / (2 * X)) ∧
      ((rectangularMask X Y s).1.y ≤ b ↔ s 1 ≤ (b + Y) / (2 * Y)) := by
  constructor
  · intro a b ha ha' hb hb'
    obtain ⟨u, hu0, hu1, hu⟩ := uniform_onto hX ha ha'
    obtain ⟨v, hv0, hv1, hv⟩ := uniform_onto hY hb hb'
    refine ⟨starting [u, v], starting_unit (by simp; exact ⟨⟨hu0, hu1⟩, hv0, hv1⟩), ?_⟩
    simp only [rectangularMask, uniform, draws, starting, Vec3.mk.injEq]
    exact ⟨hu, hv, trivial⟩
  · intro s a b
    simp only [rectangularMask, uniform, draws]
    constructor
    · rw [le_div_iff₀ (by linarith)]; constructor <;> intro h <;> linarith
    · rw [le_div_iff₀ (by linarith)]; constructor <;> intro h <;> linarith

/-- **C63**. Every point of the cuboid is emitted for some numbers; constant density as for the
rectangle. -/
theorem cube_uniform {X Y Z : ℝ} (hX : 0 < X) (hY : 0 < Y) (hZ : 0 < Z) :
    (∀ a b c, -X ≤ a → a < X → -Y ≤ b → b < Y → -Z ≤ c → c < Z →
      ∃ s, Unit s ∧ (cubeMask X Y Z s).1 = ⟨a, b, c⟩) ∧
    ∀ s a b c, ((cubeMask X Y Z s).1.x ≤ a ↔ s 0 ≤ (a + X) / (2 * X)) ∧
      ((cubeMask X Y Z s).1.y ≤ b ↔ s 1 ≤ (b + Y) / (2 * Y)) ∧
      ((cubeMask X Y Z s).1.z ≤ c ↔ s 2 ≤ (c + Z) / (2 * Z)) := by
  constructor
  · intro a b c ha ha' hb hb' hc hc'
    obtain ⟨u, hu0, hu1, hu⟩ := uniform_onto hX ha ha'
    obtain ⟨v, hv0, hv1, hv⟩ := uniform_onto hY hb hb'
    obtain ⟨w, hw0, hw1, hw⟩ := uniform_onto hZ hc hc'
    refine ⟨starting [u, v, w],
      starting_unit (by simp; exact ⟨⟨hu0, hu1⟩, ⟨hv0, hv1⟩, hw0, hw1⟩), ?_⟩
    simp only [cubeMask, uniform, draws, starting, Vec3.mk.injEq]
    exact ⟨hu, hv, hw⟩
  · intro s a b c
    simp only [cubeMask, uniform, draws]
    refine ⟨?_, ?_, ?_⟩ <;> rw [le_div_iff₀ (by linarith)] <;> constructor <;> intro h <;> linarith

/-- **C63**. The part of the numbers that lands within distance `ρ` of the centre is the ratio of the
areas, `ρ² / r²`, and the azimuth is an independent number stretched to the full circle: the density
on the disc is constant. -/
theorem circle_uniform {r ρ : ℝ} (hr : 0 < r) (hρ : 0 ≤ ρ) {s : Draws} (hs : Unit s) :
    (√((circularMask r s).1.x ^ 2 + (circularMask r s).1.y ^ 2) ≤ ρ ↔ s 1 ≤ ρ ^ 2 / r ^ 2) ∧
    (circularMask r s).1.x =
      √((circularMask r s).1.x ^ 2 + (circularMask r s).1.y ^ 2) * cos (2 * π * s 0) ∧
    (circularMask r s).1.y =
      √((circularMask r s).1.x ^ 2 + (circularMask r s).1.y ^ 2) * sin (2 * π * s 0) := by
  have e := circle_norm r hs
  rw [e]
  have h1 : √(s 1 * r ^ 2) = √(s 1) * r := by
    rw [sqrt_mul (hs 1).1, sqrt_sq hr.le]
  refine ⟨?_, ?_, ?_⟩
  · rw [sqrt_le_left hρ, le_div_iff₀ (by positivity)]
  · rw [h1]; simp [circularMask, uniform, draws]
  · rw [h1]; simp [circularMask, uniform, draws]

/-- The hypotheses have instances: numbers 0, ½ and 0 give the point at distance `√½ r`. -/
example : Unit (starting [0, 1 / 2]) ∧ (circularMask 2 (starting [0, 1 / 2])).1.y = 0 := by
  refine ⟨starting_unit (by norm_num), ?_⟩
  simp [circularMask, uniform, draws, starting]

/-! ## C64 -/

variable {ρ σ : Type} {one : σ → Except Err (ρ × σ)}

theorem emitLoop_length (k : ℕ) : ∀ (n count : ℤ) (s : σ) (rays : List ρ) (s' : σ),
    (n - count).toNat = k → emitLoop one n count s = .ok (rays, s') → rays.length = k := by
  induction k with
  | zero =>
    intro n count s rays s' hk h
    rw [emitLoop, if_pos (by omega)] at h
    cases h
    rfl
  | succ k ih =>
    intro n count s rays s' hk h
    rw [emitLoop, if_neg (by omega)] at h
    cases h1 : one s with
    | error e => rw [h1] at h; cases h
    | ok r =>
      obtain ⟨ray, s1⟩ := r
      rw [h1] at h
      dsimp only at h
      cases h2 : emitLoop one n (count + 1) s1 with
      | error e => rw [h2] at h; cases h
      | ok q =>
        obtain ⟨rest, s2⟩ := q
        rw [h2] at h
        cases h
        rw [List.length_cons, ih n (count + 1) s1 rest _ (by omega) h2]

theorem emitLoop_ok (h1 : ∀ s, ∃ r, one s = .ok r) (k : ℕ) : ∀ (n count : ℤ) (s : σ),
    (n - count).toNat = k → ∃ r, emitLoop one n count s = .ok r := by
  induction k with
  | zero =>
    intro n count s hk
    rw [emitLoop, if_pos (by omega)]
    exact ⟨_, rfl⟩
  | succ k ih =>
    intro n count s hk
    rw [emitLoop, if_neg (by omega)]
    obtain ⟨⟨ray, s1⟩, h⟩ := h1 s
    obtain ⟨⟨rays, s2⟩, h2⟩ := ih n (count + 1) s1 (by omega)
    rw [h]
    dsimp only
    rw [h2]
    exact ⟨_, rfl⟩

/-- **C64**. `Light.emit(n)` yields exactly `n` rays (none when `n` is negative) unless a delegate
raises, and it does not raise by itself. -/
theorem emit_count_partial (n : ℤ) (s : σ) :
    (∀ rays s', emit one (some n) s = .ok (rays, s') → rays.length = n.toNat) ∧
    ((∀ s, ∃ r, one s = .ok r) → ∃ r, emit one (some n) s = .ok r) := by
  constructor
  · intro rays s' h
    simp only [emit] at h
    split at h
    · rename_i h0
      cases h
      rw [h0]; rfl
    · have := emitLoop_length _ n 0 s rays s' rfl h
      rw [this, sub_zero]
  · intro h1
    simp only [emit]
    split
    · exact ⟨_, rfl⟩
    · exact emitLoop_ok h1 _ n 0 s rfl

/-- **C64, violated**. `Light.emit()` is documented to "generate until manually terminated", but it
yields nothing. -/
theorem emit_unlimited_is_empty (s : σ) : emit one none s = .ok ([], s) := rfl

example : emit (fun s : ℕ => .ok (s, s + 1)) (some 3) 7 = .ok ([7, 8, 9], 10) := by
  simp [emit, emitLoop]

/-! ## C65 -/

/-- The numbers ray `k` of a bundle of `n` uses: every array of `n` numbers gives it one. -/
def lane (n k : ℕ) (s : Draws) : Draws := fun j => s (j * n + k)

/-- The rest of a sequence after `m` numbers. -/
def after (m : ℕ) (s : Draws) : Draws := fun j => s (j + m)

theorem lane_after (n k a : ℕ) (s : Draws) : lane n k (after (a * n) s) = after a (lane n k s) := by
  funext j
  simp only [lane, after]
  congr 1
  ring

theorem lane_unit {n k : ℕ} {s : Draws} (hs : Unit s) : Unit (lane n k s) := fun j => hs _

/-- The lights whose delegates both samplers accept. -/
def Regular (L : Lamp) : Prop :=
  (∀ t, L.direction = .phase (.cone t) → 1e-8 < |t| ∧ t ≤ π / 2) ∧
  (∀ g, L.direction = .phase (.henyeyGreenstein g) → 1e-12 ≤ |g| ∧ |g| < 1)

theorem rowsM_getElem {β : Type} {f : ℕ → Except Err β} {n : ℕ} {l : List β}
    (h : rowsM n f = .ok l) : l.length = n ∧ ∀ k, k < n → ∃ v, f k = .ok v ∧ l[k]? = some v := by
  unfold rowsM at h
  induction n generalizing l with
  | zero =>
    simp only [List.range_zero, List.mapM_nil] at h
    cases h
    exact ⟨rfl, fun k hk => absurd hk (by omega)⟩
  | succ n ih =>
    rw [List.range_succ, List.mapM_append] at h
    cases h1 : (List.range n).mapM f with
    | error e => rw [h1] at h; cases h
    | ok l1 =>
      rw [h1] at h
      cases h2 : f n with
      | error e => simp [h2, bind, Except.bind] at h
      | ok v =>
        simp only [h2, bind, Except.bind, List.mapM_cons, List.mapM_nil, pure, Except.pure,
          Except.ok.injEq] at h
        obtain ⟨hl, ih⟩ := ih h1
        subst h
        refine ⟨by simp [hl], fun k hk => ?_⟩
        by_cases hkn : k < n
        · obtain ⟨w, hw, hw'⟩ := ih k hkn
          exact ⟨w, hw, by rw [List.getElem?_append_left (by omega)]; exact hw'⟩
        · have : k = n := by omega
          subst this
          exact ⟨v, h2, by rw [List.getElem?_append_right (by omega), hl]; simp⟩

/-- Wavelengths of a bundle. -/
theorem wavelengths_lane {n : ℕ} {s s' : Draws} {W : Wave} {w : List (Option ℝ)}
    (h : sampleWavelengths n s W = some (.ok (w, s'))) :
    w.length = n ∧ ∃ a, s' = after (a * n) s ∧
      ∀ k, k < n → ∃ nm, w[k]? = some nm ∧ W.call (lane n k s) = .ok (nm, after a (lane n k s)) := by
  cases W with
  | default =>
    simp only [sampleWavelengths, Option.some.injEq, Except.ok.injEq, Prod.mk.injEq] at h
    obtain ⟨rfl, rfl⟩ := h
    exact ⟨by simp, 0, (by funext j; simp [after]), fun k hk => ⟨some 555, by simp [hk], rfl⟩⟩
  | constant nm =>
    simp only [sampleWavelengths, Option.some.injEq, Except.ok.injEq, Prod.mk.injEq] at h
    obtain ⟨rfl, rfl⟩ := h
    exact ⟨by simp, 0, (by funext j; simp [after]), fun k hk => ⟨some nm, by simp [hk], rfl⟩⟩
  | spectrum D =>
    simp only [sampleWavelengths, uniformN, Option.some.injEq] at h
    cases h1 : rowsM n (fun k => D.sample (0 + (1 - 0) * s k)) with
    | error e => rw [h1] at h; cases h
    | ok l =>
      rw [h1] at h
      simp only [Except.ok.injEq, Prod.mk.injEq] at h
      obtain ⟨rfl, rfl⟩ := h
      obtain ⟨hl, hk⟩ := rowsM_getElem h1
      refine ⟨hl, 1, (by funext j; simp [after]), fun k hkn => ?_⟩
      obtain ⟨v, hv, hv'⟩ := hk k hkn
      refine ⟨v, hv', ?_⟩
      simp only [Wave.call, uniform, draws]
      have e : lane n k s 0 = s k := by simp [lane]
      rw [e, hv]
      rfl
  | custom f => simp [sampleWavelengths] at h

theorem map_range {β : Type} {f : ℕ → β} {n k : ℕ} (hk : k < n) :
    ((List.range n).map f)[k]? = some (f k) := by
  simp only [List.getElem?_map, List.getElem?_range hk, Option.map_some]

theorem lane_zero (n k : ℕ) (s : Draws) : lane n k s 0 = s k := by simp [lane]
theorem lane_one (n k : ℕ) (s : Draws) : lane n k s 1 = s (k + n) := by
  simp [lane, Nat.add_comm]
theorem lane_two (n k : ℕ) (s : Draws) : lane n k s 2 = s (k + n + n) := by
  simp only [lane]; congr 1; ring

/-- Positions of a bundle. -/
theorem positions_lane {n : ℕ} {s s' : Draws} {P : Place} {p : List (Vec3 ℝ)}
    (h : samplePositions n s P = some (p, s')) :
    p.length = n ∧ ∃ a, s' = after (a * n) s ∧
      ∀ k, k < n → ∃ v, p[k]? = some v ∧ P.call (lane n k s) = .ok (v, after a (lane n k s)) := by
  cases P with
  | default =>
    simp only [samplePositions, Option.some.injEq, Prod.mk.injEq] at h
    obtain ⟨rfl, rfl⟩ := h
    exact ⟨by simp, 0, (by funext j; simp [after]), fun k hk => ⟨_, List.getElem?_replicate_of_lt hk, rfl⟩⟩
  | rect X Y =>
    simp only [samplePositions, uniformN, Option.some.injEq, Prod.mk.injEq] at h
    obtain ⟨rfl, rfl⟩ := h
    refine ⟨by simp, 2, ?_, fun k hk => ⟨_, map_range hk, ?_⟩⟩
    · funext j; simp only [after]; congr 1; ring
    · simp only [Place.call, rectangularMask, uniform, draws, lane_zero, Nat.zero_add, lane_one]
      rfl
  | circle R =>
    simp only [samplePositions, uniformN, Option.some.injEq, Prod.mk.injEq] at h
    obtain ⟨rfl, rfl⟩ := h
    refine ⟨by simp, 2, ?_, fun k hk => ⟨_, map_range hk, ?_⟩⟩
    · funext j; simp only [after]; congr 1; ring
    · simp only [Place.call, circularMask, uniform, draws, lane_zero, Nat.zero_add, lane_one]
      rfl
  | cube X Y Z =>
    simp only [samplePositions, uniformN, Option.some.injEq, Prod.mk.injEq] at h
    obtain ⟨rfl, rfl⟩ := h
    refine ⟨by simp, 3, ?_, fun k hk => ⟨_, map_range hk, ?_⟩⟩
    · funext j; simp only [after]; congr 1; ring
    · simp only [Place.call, cubeMask, uniform, draws, lane_zero, Nat.zero_add, lane_one, Nat.reduceAdd,
        lane_two]
      rfl
  | custom f => simp [samplePositions] at h

/-- Directions of a bundle. -/
theorem directions_lane {n : ℕ} {s s' : Draws} (hs : Unit s) {A : Aim} {d : List (Vec3 ℝ)}
    (hc : ∀ t, A = .phase (.cone t) → 1e-8 < |t| ∧ t ≤ π / 2)
    (hg : ∀ g, A = .phase (.henyeyGreenstein g) → 1e-12 ≤ |g| ∧ |g| < 1)
    (h : sampleDirections n s A = some (d, s')) :
    d.length = n ∧ ∃ a, s' = after (a * n) s ∧
      ∀ k, k < n → ∃ v, d[k]? = some v ∧ A.call (lane n k s) = .ok (v, after a (lane n k s)) := by
  have iso : ∀ {d s'}, sampleIsotropic n s = (d, s') → d.length = n ∧ ∃ a, s' = after (a * n) s ∧
      ∀ k, k < n → ∃ v, d[k]? = some v ∧
        PV.isotropic draws (lane n k s) = (v, after a (lane n k s)) := by
    intro d s' h
    simp only [sampleIsotropic, uniformN, sphereDirections, Prod.mk.injEq] at h
    obtain ⟨rfl, rfl⟩ := h
    refine ⟨by simp, 2, ?_, fun k hk => ⟨_, map_range hk, ?_⟩⟩
    · funext j; simp only [after]; congr 1; ring
    · simp only [PV.isotropic, sphericalToCart, draws, lane_zero, Nat.zero_add, lane_one,
        sub_zero, one_mul, zero_add]
      rfl
  cases A with
  | default =>
    simp only [sampleDirections, Option.some.injEq, Prod.mk.injEq] at h
    obtain ⟨rfl, rfl⟩ := h
    exact ⟨by simp, 0, (by funext j; simp [after]), fun k hk => ⟨_, List.getElem?_replicate_of_lt hk, rfl⟩⟩
  | phase P =>
    cases P with
    | isotropic =>
      simp only [sampleDirections, Option.some.injEq] at h
      obtain ⟨h1, a, h2, h3⟩ := iso h
      refine ⟨h1, a, h2, fun k hk => ?_⟩
      obtain ⟨v, hv, e⟩ := h3 k hk
      exact ⟨v, hv, by simp only [Aim.call, PV.Phase.draw, e]⟩
    | henyeyGreenstein g =>
      obtain ⟨g0, g1⟩ := hg g rfl
      simp only [sampleDirections] at h
      rw [if_neg (not_lt.2 g0)] at h
      simp only [uniformN, sphereDirections, Option.some.injEq, Prod.mk.injEq] at h
      obtain ⟨rfl, rfl⟩ := h
      refine ⟨by simp, 2, ?_, fun k hk => ⟨_, map_range hk, ?_⟩⟩
      · funext j; simp only [after]; congr 1; ring
      · have hg0 : g ≠ 0 := by rintro rfl; norm_num at g0
        have hu := hs k
        have hden := PV.Phase.hg_den g1 hu.1 hu.2.le
        have hE : ¬ |g| < epsZero := by
          rw [not_lt]; refine le_trans ?_ g0; unfold epsZero; norm_num
        simp only [Aim.call, PV.Phase.draw, PV.henyeyGreenstein, draws, lane_zero]
        rw [if_neg (by push Not; exact ⟨by simpa using hg0, hden.ne'⟩), if_neg hE]
        simp only [sphericalToCart, hgMu, Nat.zero_add, lane_one, sub_zero, one_mul, zero_add]
        have e : (1 + g * g - ((1 - g * g) / (1 + g * (2 * s k - 1))) ^ 2) / (2 * g) =
            1 / (2 * g) * (1 + g ^ 2 - ((1 - g ^ 2) / (1 + g * (2 * s k - 1))) ^ 2) := by ring
        rw [e]
        rfl
    | cone t =>
      obtain ⟨t0, t1⟩ := hc t rfl
      simp only [sampleDirections, uniformN, sphereDirections, Option.some.injEq,
        Prod.mk.injEq] at h
      obtain ⟨rfl, rfl⟩ := h
      refine ⟨by simp, 2, ?_, fun k hk => ⟨_, map_range hk, ?_⟩⟩
      · funext j; simp only [after]; congr 1; ring
      · simp only [Aim.call, PV.Phase.draw, PV.cone]
        rw [if_neg (by push Not; exact ⟨t0, t1⟩)]
        simp only [sphericalToCart, draws, lane_zero, Nat.zero_add, lane_one, sub_zero, one_mul,
          zero_add]
        rfl
    | lambertian =>
      simp only [sampleDirections, uniformN, sphereDirections, Option.some.injEq,
        Prod.mk.injEq] at h
      obtain ⟨rfl, rfl⟩ := h
      refine ⟨by simp, 2, ?_, fun k hk => ⟨_, map_range hk, ?_⟩⟩
      · funext j; simp only [after]; congr 1; ring
      · simp only [Aim.call, PV.Phase.draw, PV.lambertian, sphericalToCart, draws, lane_zero,
          Nat.zero_add, lane_one, sub_zero, one_mul, zero_add]
        rfl
  | custom f => simp [sampleDirections] at h

/-- A light all of whose delegates are built in. -/
def BuiltIn (L : Lamp) : Prop :=
  (∀ f, L.wavelength ≠ .custom f) ∧ (∀ f, L.position ≠ .custom f) ∧ (∀ f, L.direction ≠ .custom f)

/-- **C65**. The rays of a bundle are the rays the light would emit one at a time: ray `k` of `n` is
`light.emit` (moved to the root) on numbers of its own, number `j` of ray `k` being number `j n + k`
of the generator. So every ray has the distribution of `light.emit`, and different rays share no
number. -/
theorem bundle_eq_emit_partial {L : Lamp} (hb : BuiltIn L) (hL : Regular L) {n : ℕ} {s s' : Draws}
    (hs : Unit s) {rows : List Emitted} (h : L.bundle n s = .ok (rows, s')) :
    rows.length = n ∧ ∀ k, k < n → ∃ ray r, L.one (lane n k s) = .ok (ray, r) ∧
      rows[k]? = some (ray.representation L.toRoot) := by
  unfold Lamp.bundle at h
  split at h
  · rename_i h0
    cases h
    exact ⟨h0.symm, fun k hk => absurd hk (by omega)⟩
  cases hw : sampleWavelengths n s L.wavelength with
  | none =>
    exfalso
    cases hW : L.wavelength with
    | custom f => exact hb.1 f hW
    | _ => rw [hW] at hw; simp [sampleWavelengths] at hw
  | some w =>
    cases w with
    | error e => rw [hw] at h; cases h
    | ok w =>
      obtain ⟨w, s1⟩ := w
      rw [hw] at h
      dsimp only at h
      cases hp : samplePositions n s1 L.position with
      | none =>
        exfalso
        cases hP : L.position with
        | custom f => exact hb.2.1 f hP
        | _ => rw [hP] at hp; simp [samplePositions] at hp
      | some p =>
        obtain ⟨p, s2⟩ := p
        rw [hp] at h
        dsimp only at h
        cases hd : sampleDirections n s2 L.direction with
        | none =>
          exfalso
          cases hA : L.direction with
          | custom f => exact hb.2.2 f hA
          | default => rw [hA] at hd; simp [sampleDirections] at hd
          | phase P =>
            rw [hA] at hd
            cases P <;> simp [sampleDirections] at hd
            split at hd <;> simp at hd
        | some d =>
          obtain ⟨d, s3⟩ := d
          rw [hd] at h
          simp only [Except.ok.injEq, Prod.mk.injEq] at h
          obtain ⟨rfl, rfl⟩ := h
          obtain ⟨lw, a, rfl, ew⟩ := wavelengths_lane hw
          obtain ⟨lp, b, rfl, ep⟩ := positions_lane hp
          have hs1 : Unit (after (b * n) (after (a * n) s)) := fun j => hs _
          obtain ⟨ld, c, rfl, ed⟩ := directions_lane hs1 hL.1 hL.2 hd
          refine ⟨by simp [lw, lp, ld], fun k hk => ?_⟩
          obtain ⟨nm, hnm, enm⟩ := ew k hk
          obtain ⟨x, hx, ex⟩ := ep k hk
          obtain ⟨v, hv, ev⟩ := ed k hk
          rw [lane_after] at ex
          rw [lane_after, lane_after] at ev
          refine ⟨⟨nm, x, v, L.name⟩, after c (after b (after a (lane n k s))), ?_, ?_⟩
          · simp only [Lamp.one, enm, ex, ev]
          · rw [List.getElem?_zipWith, hnm, show (p.zip d)[k]? = some (x, v) from List.getElem?_zip_eq_some.2 ⟨hx, hv⟩]
            rfl

/-- **C65**. For such lights, with a spectrum that can be sampled, neither way of emitting raises. -/
theorem bundle_total {L : Lamp} (hb : BuiltIn L) (n : ℕ) {s : Draws}
    (hs : Unit s) (hD : ∀ D, L.wavelength = .spectrum D → ∀ p, 0 ≤ p → p < 1 → ∃ w, D.sample p = .ok w) :
    ∃ r, L.bundle n s = .ok r := by
  unfold Lamp.bundle
  split
  · exact ⟨_, rfl⟩
  have hw : ∃ w, sampleWavelengths n s L.wavelength = some (.ok w) := by
    cases hW : L.wavelength with
    | custom f => exact absurd hW (hb.1 f)
    | default => exact ⟨_, rfl⟩
    | constant nm => exact ⟨_, rfl⟩
    | spectrum D =>
      have : ∃ l, rowsM n (fun k => D.sample (0 + (1 - 0) * s k)) = .ok l := by
        unfold rowsM
        induction List.range n with
        | nil => exact ⟨_, rfl⟩
        | cons a l ih =>
          obtain ⟨l', h'⟩ := ih
          obtain ⟨w, hw⟩ := hD D hW (0 + (1 - 0) * s a) (by have := hs a; linarith [this.1])
            (by have := hs a; linarith [this.2])
          rw [List.mapM_cons, hw, h']
          exact ⟨_, rfl⟩
      obtain ⟨l, hl⟩ := this
      simp only [sampleWavelengths, uniformN, hl]
      exact ⟨_, rfl⟩
  obtain ⟨w, hw⟩ := hw
  rw [hw]
  dsimp only
  have hp : ∀ s, ∃ p, samplePositions n s L.position = some p := by
    intro s
    cases hP : L.position with
    | custom f => exact absurd hP (hb.2.1 f)
    | _ => exact ⟨_, rfl⟩
  obtain ⟨p, hp⟩ := hp w.2
  rw [hp]
  dsimp only
  have hd : ∀ s, ∃ d, sampleDirections n s L.direction = some d := by
    intro s
    cases hA : L.direction with
    | custom f => exact absurd hA (hb.2.2 f)
    | default => exact ⟨_, rfl⟩
    | phase P =>
      cases P with
      | henyeyGreenstein g =>
        simp only [sampleDirections]
        split <;> exact ⟨_, rfl⟩
      | _ => exact ⟨_, rfl⟩
  obtain ⟨d, hd⟩ := hd p.2
  rw [hd]
  exact ⟨_, rfl⟩

/-- A spotlight of half angle `t` on the origin. -/
def spot (t : ℝ) : Lamp :=
  ⟨.default, .circle 1, .phase (.cone t), "spot", .one⟩

/-- The hypotheses have an instance. -/
example : BuiltIn (spot (π / 4)) ∧ Regular (spot (π / 4)) ∧ Unit (fun _ => 1 / 2) ∧
    ∃ rows s', (spot (π / 4)).bundle 3 (fun _ => 1 / 2) = .ok (rows, s') ∧ rows.length = 3 := by
  have hb : BuiltIn (spot (π / 4)) := by simp [BuiltIn, spot]
  have hu : Unit (fun _ => 1 / 2) := fun k => by norm_num
  have hr : Regular (spot (π / 4)) := by
    constructor
    · intro t ht
      simp only [spot, Aim.phase.injEq, PV.Phase.cone.injEq] at ht
      subst ht
      have := two_le_pi
      exact ⟨by rw [abs_of_pos (by positivity)]; linarith, by linarith⟩
    · intro g hg
      simp [spot] at hg
  obtain ⟨⟨rows, s'⟩, h⟩ := bundle_total hb 3 hu (fun D h => by simp [spot] at h)
  exact ⟨hb, hr, hu, rows, s', h, (bundle_eq_emit_partial hb hr hu h).1⟩

/-- **C65, violated**. A cone of half angle zero (or above `π / 2`) is refused by the light itself,
but the engine emits from it. -/
theorem refused_cone_emits (n : ℕ) {s : Draws} (hs : Unit s) :
    (∀ s, (spot 0).one s = .error .valueError) ∧ (∀ s, (spot 3).one s = .error .valueError) ∧
    (∃ r, (spot 0).bundle n s = .ok r) ∧ ∃ r, (spot 3).bundle n s = .ok r := by
  have b : ∀ t, BuiltIn (spot t) := fun t => by simp [BuiltIn, spot]
  refine ⟨fun s => ?_, fun s => ?_, bundle_total (b 0) n hs (fun D h => by simp [spot] at h),
    bundle_total (b 3) n hs (fun D h => by simp [spot] at h)⟩
  · simp only [Lamp.one, spot, Wave.call, Place.call, Aim.call, PV.Phase.draw, PV.cone]
    rw [if_pos (by left; norm_num)]
  · have := pi_le_four
    simp only [Lamp.one, spot, Wave.call, Place.call, Aim.call, PV.Phase.draw, PV.cone]
    rw [if_pos (by right; linarith)]

/-- **C50**. Every ray of a light with built-in delegates starts inside the aperture, with a unit
direction and under the name of the light. -/
theorem emitted_valid {L : Lamp} (hb : BuiltIn L) {s s' : Draws} (hs : Unit s) {ray : Emitted}
    (h : L.one s = .ok (ray, s')) :
    ray.direction.dot ray.direction = 1 ∧ ray.source = L.name ∧
    (L.position = .default → ray.position = ⟨0, 0, 0⟩) ∧
    (∀ X Y, L.position = .rect X Y →
      |ray.position.x| ≤ |X| ∧ |ray.position.y| ≤ |Y| ∧ ray.position.z = 0) ∧
    (∀ R, L.position = .circle R →
      ray.position.x ^ 2 + ray.position.y ^ 2 ≤ R ^ 2 ∧ ray.position.z = 0) ∧
    (∀ X Y Z, L.position = .cube X Y Z →
      |ray.position.x| ≤ |X| ∧ |ray.position.y| ≤ |Y| ∧ |ray.position.z| ≤ |Z|) := by
  unfold Lamp.one at h
  cases hw : L.wavelength.call s with
  | error e => rw [hw] at h; cases h
  | ok w =>
    obtain ⟨nm, s1⟩ := w
    have u1 : Unit s1 := by
      cases hW : L.wavelength with
      | custom f => exact absurd hW (hb.1 f)
      | default => rw [hW] at hw; cases hw; exact hs
      | constant nm => rw [hW] at hw; cases hw; exact hs
      | spectrum D =>
        rw [hW] at hw
        simp only [Wave.call, uniform, draws] at hw
        split at hw
        · cases hw
        · cases hw; exact fun k => hs _
    rw [hw] at h
    dsimp only at h
    cases hp : L.position.call s1 with
    | error e => rw [hp] at h; cases h
    | ok p =>
      obtain ⟨p, s2⟩ := p
      rw [hp] at h
      dsimp only at h
      cases hd : L.direction.call s2 with
      | error e => rw [hd] at h; cases h
      | ok d =>
        obtain ⟨d, s3⟩ := d
        rw [hd] at h
        simp only [Except.ok.injEq, Prod.mk.injEq] at h
        obtain ⟨rfl, rfl⟩ := h
        refine ⟨?_, rfl, ?_, ?_, ?_, ?_⟩
        · cases hA : L.direction with
          | custom f => exact absurd hA (hb.2.2 f)
          | default =>
            rw [hA] at hd
            cases hd
            simp [Vec3.dot]
          | phase P =>
            rw [hA] at hd
            exact PV.Phase.draw_unit P hd
        · intro e; rw [e] at hp; cases hp; rfl
        · intro X Y e; rw [e] at hp
          simp only [Place.call, Except.ok.injEq] at hp
          have := rect_inside X Y u1
          rw [hp] at this; exact this
        · intro R e; rw [e] at hp
          simp only [Place.call, Except.ok.injEq] at hp
          have := circle_inside R u1
          rw [hp] at this; exact this
        · intro X Y Z e; rw [e] at hp
          simp only [Place.call, Except.ok.injEq] at hp
          have := cube_inside X Y Z u1
          rw [hp] at this; exact this

end
end PV.Light
