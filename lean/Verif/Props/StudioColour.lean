import Verif.Model.StudioColour
import Verif.Model.Light
import Mathlib.Tactic.Linarith
import Mathlib.Tactic.NormNum
import Mathlib.Tactic.SplitIfs
import Mathlib.Tactic.Ring
import Mathlib.Tactic.Positivity

/-!
**C138** The colours of wavelengths on the studio page.
-/

namespace PV.Plot

theorem visible_eq (nm : ℝ) : visible nm = min 780 (max 380 nm) := by
  unfold visible
  dsimp only
  split_ifs with h1 h2 h2
  · norm_num at h2
  · rw [max_eq_left h1.le, min_eq_right (by norm_num)]
  · rw [max_eq_right (not_lt.1 h1), min_eq_left h2.le]
  · rw [max_eq_right (not_lt.1 h1), min_eq_right (not_lt.1 h2)]

theorem hue_range {w : ℝ} (h : 380 ≤ w) : 0 ≤ (hue w).1 ∧ (hue w).1 ≤ 1 ∧ 0 ≤ (hue w).2.1 ∧ (hue w).2.1 ≤ 1 ∧
    0 ≤ (hue w).2.2 ∧ (hue w).2.2 ≤ 1 ∧ ((hue w).1 = 1 ∨ (hue w).2.1 = 1 ∨ (hue w).2.2 = 1) := by
  unfold hue
  split_ifs <;> refine ⟨?_, ?_, ?_, ?_, ?_, ?_, ?_⟩ <;> dsimp only <;> first | (norm_num; done) | linarith

/-- **C138** Every component of a colour lies between the floor and 1, and one of them is 1: no path is too dark to see. -/
theorem colour_bright (nm : ℝ) {floor : ℝ} (h0 : 0 ≤ floor) (h1 : floor ≤ 1) :
    let c := wavelengthToColor nm floor
    (floor ≤ c.1 ∧ c.1 ≤ 1) ∧ (floor ≤ c.2.1 ∧ c.2.1 ≤ 1) ∧ (floor ≤ c.2.2 ∧ c.2.2 ≤ 1) ∧ (c.1 = 1 ∨ c.2.1 = 1 ∨ c.2.2 = 1) := by
  have hv : 380 ≤ visible nm := by rw [visible_eq]; exact le_min (by norm_num) (le_max_left _ _)
  obtain ⟨a, b, c, d, e, f, g⟩ := hue_range hv
  have key : ∀ x : ℝ, 0 ≤ x → x ≤ 1 → floor ≤ floor + (1 - floor) * x ∧ floor + (1 - floor) * x ≤ 1 := by
    intro x hx hx'
    constructor <;> nlinarith
  refine ⟨key _ a b, key _ c d, key _ e f, ?_⟩
  unfold wavelengthToColor
  rcases g with g | g | g
  · exact .inl (by dsimp only; rw [g]; ring)
  · exact .inr (.inl (by dsimp only; rw [g]; ring))
  · exact .inr (.inr (by dsimp only; rw [g]; ring))

theorem hue_injective {a b : ℝ} (ha : a ≤ 645) (hb : b ≤ 645) (h : hue a = hue b) : a = b := by
  unfold hue at h
  split_ifs at h <;> simp only [Prod.mk.injEq] at h <;> obtain ⟨h1, h2, h3⟩ := h <;> linarith

/-- **C138** Two wavelengths between 380 and 645 nm have the same colour only if they are equal. -/
theorem colour_tells {a b floor : ℝ} (hf : floor < 1) (ha : 380 ≤ a ∧ a ≤ 645) (hb : 380 ≤ b ∧ b ≤ 645)
    (h : wavelengthToColor a floor = wavelengthToColor b floor) : a = b := by
  have hv : ∀ x : ℝ, 380 ≤ x ∧ x ≤ 645 → visible x = x := by
    intro x hx
    rw [visible_eq, max_eq_right hx.1, min_eq_right (by linarith [hx.2])]
  unfold wavelengthToColor at h
  rw [hv a ha, hv b hb] at h
  simp only [Prod.mk.injEq, add_right_inj, mul_eq_mul_left_iff, sub_eq_zero, hf.ne', or_false] at h
  exact hue_injective ha.2 hb.2 (Prod.ext h.1 (Prod.ext h.2.1 h.2.2))

/-- **C138** Outside they cannot be told apart: everything below 380 nm is drawn as 380 nm, everything above 645 nm in the same red. -/
theorem colour_ends (nm floor : ℝ) : (nm ≤ 380 → wavelengthToColor nm floor = wavelengthToColor 380 floor) ∧
    (645 ≤ nm → wavelengthToColor nm floor = (1, floor, floor)) := by
  constructor
  · intro h
    have : visible nm = visible 380 := by rw [visible_eq, visible_eq, max_eq_left h, max_self]
    unfold wavelengthToColor
    rw [this]
  · intro h
    have hv : 645 ≤ visible nm := by rw [visible_eq]; exact le_min (by norm_num) (le_max_of_le_right h)
    have : hue (visible nm) = (1, 0, 0) := by
      unfold hue
      rw [if_neg (by linarith), if_neg (by linarith), if_neg (by linarith), if_neg (by linarith), if_neg (by linarith)]
    unfold wavelengthToColor
    rw [this]
    ext <;> dsimp only <;> ring

theorem hue_close {a b : ℝ} (h : a ≤ b) : |(hue a).1 - (hue b).1| ≤ (b - a) / 20 ∧ |(hue a).2.1 - (hue b).2.1| ≤ (b - a) / 20 ∧
    |(hue a).2.2 - (hue b).2.2| ≤ (b - a) / 20 := by
  unfold hue
  split_ifs <;> refine ⟨abs_le.2 ⟨?_, ?_⟩, abs_le.2 ⟨?_, ?_⟩, abs_le.2 ⟨?_, ?_⟩⟩ <;> dsimp only <;> linarith

/-- **C138** Colours do not jump: a change of the wavelength by `d` nm changes no component by more than `d`/20. -/
theorem colour_close (a b : ℝ) {floor : ℝ} (h0 : 0 ≤ floor) (h1 : floor ≤ 1) :
    let c := wavelengthToColor a floor
    let d := wavelengthToColor b floor
    |c.1 - d.1| ≤ |a - b| / 20 ∧ |c.2.1 - d.2.1| ≤ |a - b| / 20 ∧ |c.2.2 - d.2.2| ≤ |a - b| / 20 := by
  have key : ∀ a b : ℝ, a ≤ b → |(wavelengthToColor a floor).1 - (wavelengthToColor b floor).1| ≤ |a - b| / 20 ∧
      |(wavelengthToColor a floor).2.1 - (wavelengthToColor b floor).2.1| ≤ |a - b| / 20 ∧
      |(wavelengthToColor a floor).2.2 - (wavelengthToColor b floor).2.2| ≤ |a - b| / 20 := by
    intro a b hab
    have hv : visible a ≤ visible b := by rw [visible_eq, visible_eq]; exact min_le_min le_rfl (max_le_max le_rfl hab)
    have hd : visible b - visible a ≤ b - a := by
      rw [visible_eq, visible_eq]
      rcases max_cases 380 a with ⟨e, h⟩ | ⟨e, h⟩ <;> rcases max_cases 380 b with ⟨e', h'⟩ | ⟨e', h'⟩ <;> rw [e, e'] <;>
        rcases min_cases (780 : ℝ) (380 : ℝ) with ⟨e1, g1⟩ | ⟨e1, g1⟩ <;> rcases min_cases (780 : ℝ) a with ⟨e2, g2⟩ | ⟨e2, g2⟩ <;>
        rcases min_cases (780 : ℝ) b with ⟨e3, g3⟩ | ⟨e3, g3⟩ <;> simp only [e1, e2, e3] <;> linarith
    obtain ⟨p, q, r⟩ := hue_close hv
    have shrink : ∀ x y : ℝ, |x - y| ≤ (visible b - visible a) / 20 →
        |floor + (1 - floor) * x - (floor + (1 - floor) * y)| ≤ |a - b| / 20 := by
      intro x y hxy
      have e : floor + (1 - floor) * x - (floor + (1 - floor) * y) = (1 - floor) * (x - y) := by ring
      rw [e, abs_mul, abs_of_nonneg (sub_nonneg.2 h1), abs_sub_comm a b, abs_of_nonneg (sub_nonneg.2 hab)]
      have := mul_le_of_le_one_left (abs_nonneg (x - y)) (show 1 - floor ≤ 1 by linarith)
      linarith
    exact ⟨shrink _ _ p, shrink _ _ q, shrink _ _ r⟩
  rcases le_total a b with h | h
  · exact key a b h
  · have := key b a h
    dsimp only
    rw [abs_sub_comm b a, abs_sub_comm, abs_sub_comm (wavelengthToColor b floor).2.1, abs_sub_comm (wavelengthToColor b floor).2.2] at this
    exact this

/-- **C138** From 440 to 700 nm the renderer of the library gives a path the colour of the page without its floor, in steps of 1/255. -/
theorem renderer_same {w : ℤ} (h0 : 440 ≤ w) (h1 : w ≤ 700) :
    let c := wavelengthToColor w 0
    Light.wavelengthToRgb (w : ℝ) = (⌊255 * c.1⌋, ⌊255 * c.2.1⌋, ⌊255 * c.2.2⌋) := by
  have r0 : (440 : ℝ) ≤ w := by exact_mod_cast h0
  have r1 : (w : ℝ) ≤ 700 := by exact_mod_cast h1
  have hv : visible (w : ℝ) = w := by rw [visible_eq, max_eq_right (by linarith), min_eq_right (by linarith)]
  have ht : truncZ (w : ℝ) = w := by
    unfold truncZ
    rw [if_pos (by linarith), Int.floor_intCast]
  have hi : (Light.intensity w : ℝ) = 255 := by
    unfold Light.intensity
    rw [if_neg (by omega), if_pos (by omega), one_mul]
  have hh : (Light.hue w : ℝ × ℝ × ℝ) = hue (w : ℝ) := by
    have c : ∀ k : ℤ, ((w : ℝ) < k ↔ w < k) := fun k => Int.cast_lt
    have c440 := c 440
    have c490 := c 490
    have c510 := c 510
    have c580 := c 580
    have c645 := c 645
    push_cast at c440 c490 c510 c580 c645
    unfold Light.hue hue
    simp only [c440, c490, c510, c580, c645]
    split_ifs <;> first | omega | norm_num
  have hr := hue_range (show (380 : ℝ) ≤ w by linarith)
  unfold Light.wavelengthToRgb wavelengthToColor
  dsimp only
  rw [ht, hi, hh, hv]
  have t : ∀ x : ℝ, 0 ≤ x → truncZ (255 * x) = ⌊255 * (0 + (1 - 0) * x)⌋ := by
    intro x hx
    unfold truncZ
    rw [if_pos (by positivity), sub_zero, one_mul, zero_add]
  rw [t _ hr.1, t _ hr.2.2.1, t _ hr.2.2.2.2.1]

/-- Outside that range they differ: the renderer draws near infrared light black, the page red. -/
example : Light.wavelengthToRgb (1100 : ℝ) = (0, 0, 0) ∧ wavelengthToColor 1100 0 = (1, 0, 0) := by
  refine ⟨?_, (colour_ends _ _).2 (by norm_num)⟩
  have : truncZ (1100 : ℝ) = 1100 := by
    unfold truncZ
    rw [if_pos (by norm_num)]
    exact_mod_cast Int.floor_intCast (R := ℝ) 1100
  unfold Light.wavelengthToRgb
  dsimp only
  rw [this]
  norm_num [Light.hue, Light.intensity, truncZ]

/-- Green light on the page, with the floor of the page. -/
example : wavelengthToColor 510 0.15 = (0.15, 1, 0.15) := by norm_num [wavelengthToColor, visible, hue]

/-- Light of a red dye and near infrared light look the same. -/
example : wavelengthToColor 650 0.15 = wavelengthToColor 1100 0.15 := by
  rw [(colour_ends _ _).2 (by norm_num), (colour_ends _ _).2 (by norm_num)]

example : wavelengthToColor 555 0.15 ≠ wavelengthToColor 600 0.15 := fun h => by
  have := colour_tells (by norm_num) (by norm_num) (by norm_num) h
  norm_num at this

end PV.Plot
