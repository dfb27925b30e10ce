import Verif.Spec.Solid
import Verif.Lemmas.Sort
import Verif.Lemmas.Vec

namespace PV.Geo
open PV

/-! ### Slabs -/

/-- Parameters at which `o + t d` enters and leaves the slab of width `s`. -/
noncomputable def slabLo (s o d : ℝ) : ℝ := if 0 < d then (-(s / 2) - o) / d else (s / 2 - o) / d
noncomputable def slabHi (s o d : ℝ) : ℝ := if 0 < d then (s / 2 - o) / d else (-(s / 2) - o) / d

theorem slab_spec {s o d : ℝ} (hd : d ≠ 0) (t : ℝ) :
    (|o + t * d| ≤ s / 2 ↔ slabLo s o d ≤ t ∧ t ≤ slabHi s o d) ∧
    (|o + t * d| < s / 2 ↔ slabLo s o d < t ∧ t < slabHi s o d) := by
  unfold slabLo slabHi
  by_cases h : 0 < d
  · simp only [h, if_true]
    rw [div_le_iff₀ h, le_div_iff₀ h, div_lt_iff₀ h, lt_div_iff₀ h, abs_le, abs_lt]
    constructor <;> constructor <;> rintro ⟨h1, h2⟩ <;> constructor <;> linarith
  · have h' : d < 0 := lt_of_le_of_ne (not_lt.1 h) hd
    simp only [h, if_false]
    rw [div_le_iff_of_neg h', le_div_iff_of_neg h', div_lt_iff_of_neg h', lt_div_iff_of_neg h',
      abs_le, abs_lt]
    constructor <;> constructor <;> rintro ⟨h1, h2⟩ <;> constructor <;> linarith

theorem slab_lt {s o d : ℝ} (hs : 0 < s) (hd : d ≠ 0) : slabLo s o d < slabHi s o d := by
  unfold slabLo slabHi
  by_cases h : 0 < d
  · simp only [h, if_true]
    rw [div_lt_div_iff_of_pos_right h]; linarith
  · have h' : d < 0 := lt_of_le_of_ne (not_lt.1 h) hd
    simp only [h, if_false]
    rw [div_lt_div_right_of_neg h']; linarith

theorem tiny_pos : 0 < tiny := by unfold tiny; positivity

theorem tiny_le : tiny ≤ 1 / 10 :=
  one_div_le_one_div_of_le (by norm_num) (le_self_pow₀ (by norm_num) (by norm_num))

/-- A component of a direction that is zero or large enough not to be taken for zero. -/
def Clear (d : ℝ) : Prop := d = 0 ∨ tiny ≤ |d|

def InAcc (acc : Option ℝ × Option ℝ) (t : ℝ) : Prop :=
  (∀ a, acc.1 = some a → a ≤ t) ∧ (∀ b, acc.2 = some b → t ≤ b)

def InAccS (acc : Option ℝ × Option ℝ) (t : ℝ) : Prop :=
  (∀ a, acc.1 = some a → a < t) ∧ (∀ b, acc.2 = some b → t < b)

theorem kSlab_zero {s o : ℝ} {acc : Option ℝ × Option ℝ} :
    kSlab s o 0 acc = if |o| ≤ s / 2 then some acc else none := by
  unfold kSlab
  have h : |(0 : ℝ)| < tiny := by rw [abs_zero]; exact tiny_pos
  simp only [h, if_true]
  by_cases ho : |o| ≤ s / 2
  · rw [if_pos ho, if_neg]
    rw [abs_le] at ho
    push Not
    constructor <;> norm_num <;> linarith
  · rw [if_neg ho, if_pos]
    by_contra hc
    push Not at hc
    apply ho
    rw [abs_le]
    constructor <;> norm_num at hc <;> linarith [hc.1, hc.2]

theorem kSlab_ne {s o d : ℝ} (hs : 0 < s) (hd : d ≠ 0) (hc : Clear d)
    {acc : Option ℝ × Option ℝ} :
    ∃ a b, kSlab s o d acc = some (some a, some b) ∧
      (∀ t, a ≤ t ↔ slabLo s o d ≤ t ∧ ∀ a', acc.1 = some a' → a' ≤ t) ∧
      (∀ t, a < t ↔ slabLo s o d < t ∧ ∀ a', acc.1 = some a' → a' < t) ∧
      (∀ t, t ≤ b ↔ t ≤ slabHi s o d ∧ ∀ b', acc.2 = some b' → t ≤ b') ∧
      (∀ t, t < b ↔ t < slabHi s o d ∧ ∀ b', acc.2 = some b' → t < b') := by
  have hb : ¬ |d| < tiny := by
    rcases hc with h | h
    · exact absurd h hd
    · exact not_lt.2 h
  have hlt := slab_lt (o := o) hs hd
  have key : (if (-0.5 * s - o) * (1 / d) > (0.5 * s - o) * (1 / d)
      then ((0.5 * s - o) * (1 / d), (-0.5 * s - o) * (1 / d))
      else ((-0.5 * s - o) * (1 / d), (0.5 * s - o) * (1 / d))) =
      (slabLo s o d, slabHi s o d) := by
    have e1 : (-0.5 * s - o) * (1 / d) = (-(s / 2) - o) / d := by rw [mul_one_div]; ring
    have e2 : (0.5 * s - o) * (1 / d) = (s / 2 - o) / d := by rw [mul_one_div]; ring
    rw [e1, e2]
    unfold slabLo slabHi at hlt ⊢
    by_cases h : 0 < d
    · simp only [h, if_true] at hlt ⊢
      rw [if_neg (not_lt.2 hlt.le)]
    · simp only [h, if_false] at hlt ⊢
      rw [if_pos hlt]
  unfold kSlab
  simp only [hb, if_false, key]
  refine ⟨_, _, rfl, ?_, ?_, ?_, ?_⟩ <;> intro t
  · cases acc.1 with
    | none => simp
    | some m =>
      by_cases h : slabLo s o d > m
      · simp only [h, if_true, Option.some.injEq, forall_eq']
        exact ⟨fun h1 => ⟨h1, by linarith⟩, fun h1 => h1.1⟩
      · simp only [h, if_false, Option.some.injEq, forall_eq']
        exact ⟨fun h1 => ⟨by linarith, h1⟩, fun h1 => h1.2⟩
  · cases acc.1 with
    | none => simp
    | some m =>
      by_cases h : slabLo s o d > m
      · simp only [h, if_true, Option.some.injEq, forall_eq']
        exact ⟨fun h1 => ⟨h1, by linarith⟩, fun h1 => h1.1⟩
      · simp only [h, if_false, Option.some.injEq, forall_eq']
        exact ⟨fun h1 => ⟨by linarith, h1⟩, fun h1 => h1.2⟩
  · cases acc.2 with
    | none => simp
    | some m =>
      by_cases h : slabHi s o d < m
      · simp only [h, if_true, Option.some.injEq, forall_eq']
        exact ⟨fun h1 => ⟨h1, by linarith⟩, fun h1 => h1.1⟩
      · simp only [h, if_false, Option.some.injEq, forall_eq']
        exact ⟨fun h1 => ⟨by linarith, h1⟩, fun h1 => h1.2⟩
  · cases acc.2 with
    | none => simp
    | some m =>
      by_cases h : slabHi s o d < m
      · simp only [h, if_true, Option.some.injEq, forall_eq']
        exact ⟨fun h1 => ⟨h1, by linarith⟩, fun h1 => h1.1⟩
      · simp only [h, if_false, Option.some.injEq, forall_eq']
        exact ⟨fun h1 => ⟨by linarith, h1⟩, fun h1 => h1.2⟩

theorem kSlab_none {s o d : ℝ} (hs : 0 < s) (hc : Clear d) {acc : Option ℝ × Option ℝ}
    (h : kSlab s o d acc = none) (t : ℝ) : ¬ |o + t * d| ≤ s / 2 := by
  by_cases hd : d = 0
  · subst hd
    rw [kSlab_zero] at h
    split at h
    · cases h
    · next ho => simpa using ho
  · obtain ⟨a, b, e, -⟩ := kSlab_ne (o := o) hs hd hc (acc := acc)
    rw [h] at e; cases e

theorem kSlab_some {s o d : ℝ} (hs : 0 < s) (hc : Clear d) {acc acc' : Option ℝ × Option ℝ}
    (h : kSlab s o d acc = some acc') (t : ℝ) :
    (InAcc acc' t ↔ InAcc acc t ∧ |o + t * d| ≤ s / 2) ∧
    ((d = 0 → |o| < s / 2) → (InAccS acc' t ↔ InAccS acc t ∧ |o + t * d| < s / 2)) := by
  by_cases hd : d = 0
  · subst hd
    rw [kSlab_zero] at h
    split at h
    · next ho =>
      obtain rfl := Option.some.inj h
      constructor
      · simp [ho]
      · intro hh; simp [hh rfl]
    · cases h
  · obtain ⟨a, b, e, h1, h2, h3, h4⟩ := kSlab_ne (o := o) hs hd hc (acc := acc)
    rw [h] at e
    obtain rfl := Option.some.inj e
    obtain ⟨q1, q2⟩ := slab_spec (s := s) (o := o) hd t
    constructor
    · simp only [InAcc, Option.some.injEq, forall_eq', q1, h1, h3]; tauto
    · intro _
      simp only [InAccS, Option.some.injEq, forall_eq', q2, h2, h4]; tauto

/-- Once an axis is not parallel both bounds are set. -/
theorem kSlab_set {s o d : ℝ} (hs : 0 < s) (hc : Clear d) {acc acc' : Option ℝ × Option ℝ}
    (h : kSlab s o d acc = some acc') (h0 : d ≠ 0 ∨ ∃ a b, acc = (some a, some b)) :
    ∃ a b, acc' = (some a, some b) := by
  by_cases hd : d = 0
  · subst hd
    rw [kSlab_zero] at h
    split at h
    · obtain rfl := Option.some.inj h
      rcases h0 with h0 | h0
      · exact absurd rfl h0
      · exact h0
    · cases h
  · obtain ⟨a, b, e, -⟩ := kSlab_ne (o := o) hs hd hc (acc := acc)
    rw [h] at e
    exact ⟨a, b, Option.some.inj e⟩

/-! ### Quadratics -/

theorem quad_factor {a b c : ℝ} (ha : 0 < a) (hd : 0 ≤ b ^ 2 - 4 * a * c) (t : ℝ) :
    a * t ^ 2 + b * t + c = a * (t - (-b - Real.sqrt (b ^ 2 - 4 * a * c)) / (2 * a)) *
      (t - (-b + Real.sqrt (b ^ 2 - 4 * a * c)) / (2 * a)) := by
  have hs := Real.mul_self_sqrt hd
  have : a * (t - (-b - Real.sqrt (b ^ 2 - 4 * a * c)) / (2 * a)) *
      (t - (-b + Real.sqrt (b ^ 2 - 4 * a * c)) / (2 * a)) =
      a * t ^ 2 + b * t +
        (b ^ 2 - Real.sqrt (b ^ 2 - 4 * a * c) * Real.sqrt (b ^ 2 - 4 * a * c)) / (4 * a) := by
    field_simp; ring
  rw [this, hs]; field_simp; ring

theorem quad_spec {a b c : ℝ} (ha : 0 < a) (hd : 0 ≤ b ^ 2 - 4 * a * c) (t : ℝ) :
    (a * t ^ 2 + b * t + c ≤ 0 ↔ (-b - Real.sqrt (b ^ 2 - 4 * a * c)) / (2 * a) ≤ t ∧
      t ≤ (-b + Real.sqrt (b ^ 2 - 4 * a * c)) / (2 * a)) ∧
    (a * t ^ 2 + b * t + c < 0 ↔ (-b - Real.sqrt (b ^ 2 - 4 * a * c)) / (2 * a) < t ∧
      t < (-b + Real.sqrt (b ^ 2 - 4 * a * c)) / (2 * a)) ∧
    (a * t ^ 2 + b * t + c = 0 ↔ t = (-b - Real.sqrt (b ^ 2 - 4 * a * c)) / (2 * a) ∨
      t = (-b + Real.sqrt (b ^ 2 - 4 * a * c)) / (2 * a)) := by
  have hle : (-b - Real.sqrt (b ^ 2 - 4 * a * c)) / (2 * a) ≤
      (-b + Real.sqrt (b ^ 2 - 4 * a * c)) / (2 * a) := by
    rw [div_le_div_iff_of_pos_right (by linarith)]
    linarith [Real.sqrt_nonneg (b ^ 2 - 4 * a * c)]
  rw [quad_factor ha hd t]
  set p := (-b - Real.sqrt (b ^ 2 - 4 * a * c)) / (2 * a)
  set q := (-b + Real.sqrt (b ^ 2 - 4 * a * c)) / (2 * a)
  refine ⟨⟨fun h => ?_, fun h => ?_⟩, ⟨fun h => ?_, fun h => ?_⟩, ?_⟩
  · have h' : (t - p) * (t - q) ≤ 0 := by
      by_contra hc; push Not at hc
      have := mul_pos ha hc
      nlinarith
    constructor <;> by_contra hc <;> push Not at hc <;> nlinarith
  · have : (t - p) * (t - q) ≤ 0 := mul_nonpos_of_nonneg_of_nonpos (by linarith) (by linarith)
    nlinarith
  · have h' : (t - p) * (t - q) < 0 := by
      by_contra hc; push Not at hc
      have := mul_nonneg ha.le hc
      nlinarith
    constructor <;> by_contra hc <;> push Not at hc <;> nlinarith
  · have : (t - p) * (t - q) < 0 := mul_neg_of_pos_of_neg (by linarith) (by linarith)
    nlinarith
  · rw [mul_eq_zero, mul_eq_zero, sub_eq_zero, sub_eq_zero]
    constructor
    · rintro ((h | h) | h)
      · linarith
      · exact .inl h
      · exact .inr h
    · rintro (h | h)
      · exact .inl (.inr h)
      · exact .inr h

theorem quad_none {a b c : ℝ} (ha : 0 < a) (hd : b ^ 2 - 4 * a * c < 0) (t : ℝ) :
    0 < a * t ^ 2 + b * t + c := by
  have h : 4 * a * (a * t ^ 2 + b * t + c) = (2 * a * t + b) ^ 2 - (b ^ 2 - 4 * a * c) := by ring
  have : 0 < 4 * a * (a * t ^ 2 + b * t + c) := by rw [h]; nlinarith [sq_nonneg (2 * a * t + b)]
  by_contra hc
  push Not at hc
  nlinarith

theorem quad_disc {a b c t : ℝ} (ha : 0 < a) (h : a * t ^ 2 + b * t + c < 0) :
    0 < b ^ 2 - 4 * a * c := by
  have e : 4 * a * (a * t ^ 2 + b * t + c) = (2 * a * t + b) ^ 2 - (b ^ 2 - 4 * a * c) := by ring
  have : 4 * a * (a * t ^ 2 + b * t + c) < 0 := by nlinarith
  nlinarith [sq_nonneg (2 * a * t + b)]

end PV.Geo
