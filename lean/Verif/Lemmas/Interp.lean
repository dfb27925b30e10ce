import Verif.Model.Interp
import Mathlib.Tactic.Linarith
import Mathlib.Tactic.FieldSimp
import Mathlib.Tactic.Ring
import Mathlib.Order.Monotone.Basic

/-! Lemmas about table interpolation. -/

namespace PV
set_option linter.unusedSectionVars false
variable {α : Type} [Field α] [LinearOrder α] [IsStrictOrderedRing α]

/-- `xs` is non-decreasing on its first `n` entries. -/
def MonoTo (xs : ℕ → α) (n : ℕ) : Prop := ∀ i j, i ≤ j → j < n → xs i ≤ xs j

/-- `xs` is strictly increasing on its first `n` entries. -/
def StrictTo (xs : ℕ → α) (n : ℕ) : Prop := ∀ i j, i < j → j < n → xs i < xs j

theorem StrictTo.mono {xs : ℕ → α} {n : ℕ} (h : StrictTo xs n) : MonoTo xs n := by
  intro i j hij hj
  rcases Nat.lt_or_eq_of_le hij with h' | rfl
  · exact (h i j h' hj).le
  · exact le_refl _

theorem strictTo_of_step {xs : ℕ → α} {n : ℕ} (h : ∀ i < n - 1, xs i < xs (i + 1)) :
    StrictTo xs n := by
  intro i j hij hj
  induction j with
  | zero => omega
  | succ j ih =>
    rcases Nat.lt_or_eq_of_le (Nat.le_of_lt_succ hij) with h' | rfl
    · exact lt_trans (ih h' (by omega)) (h j (by omega))
    · exact h i (by omega)

theorem monoTo_of_step {xs : ℕ → α} {n : ℕ} (h : ∀ i < n - 1, xs i ≤ xs (i + 1)) :
    MonoTo xs n := by
  intro i j hij hj
  induction j with
  | zero => obtain rfl : i = 0 := by omega
            exact le_refl _
  | succ j ih =>
    rcases Nat.lt_or_eq_of_le hij with h' | rfl
    · exact le_trans (ih (by omega) (by omega)) (h j (by omega))
    · exact le_refl _

theorem segIdx_le (xs : ℕ → α) (n : ℕ) (x : α) : segIdx xs n x ≤ n - 1 := Nat.findGreatest_le _

theorem segIdx_spec {xs : ℕ → α} {x : α} (n : ℕ) (h0 : xs 0 ≤ x) : xs (segIdx xs n x) ≤ x :=
  Nat.findGreatest_spec (P := fun j => xs j ≤ x) (Nat.zero_le _) h0

theorem segIdx_lt {xs : ℕ → α} {n : ℕ} {x : α} (h : segIdx xs n x + 1 < n) :
    x < xs (segIdx xs n x + 1) :=
  not_le.1 (Nat.findGreatest_is_greatest (P := fun j => xs j ≤ x) (Nat.lt_succ_self _) (by omega))

theorem segIdx_eq {xs : ℕ → α} {n j : ℕ} {x : α} (hm : MonoTo xs n) (hj : j + 1 < n)
    (h1 : xs j ≤ x) (h2 : x < xs (j + 1)) : segIdx xs n x = j := by
  unfold segIdx
  rw [Nat.findGreatest_eq_iff]
  refine ⟨by omega, fun _ => h1, ?_⟩
  intro k hk hkn
  exact not_le.2 (lt_of_lt_of_le h2 (hm (j + 1) k hk (by omega)))

theorem segIdx_last {xs : ℕ → α} {n : ℕ} {x : α} (h : xs (n - 1) ≤ x) : segIdx xs n x = n - 1 := by
  unfold segIdx
  rw [Nat.findGreatest_eq_iff]
  exact ⟨le_refl _, fun _ => h, fun k hk hkn => by omega⟩

theorem segIdx_mono {xs : ℕ → α} (n : ℕ) {x x' : α} (h : x ≤ x') :
    segIdx xs n x ≤ segIdx xs n x' :=
  Nat.findGreatest_mono_left (fun _ hn => le_trans hn h) _

/-- Value on the segment from `j` to `j + 1`. -/
def seg (xs ys : ℕ → α) (j : ℕ) (x : α) : α :=
  (ys (j + 1) - ys j) / (xs (j + 1) - xs j) * (x - xs j) + ys j

theorem npInterp_some {xs ys : ℕ → α} {n : ℕ} {x : α} (h0 : xs 0 ≤ x) (h1 : x ≤ xs (n - 1)) :
    npInterp xs ys n x = some (if segIdx xs n x = n - 1 then ys (n - 1)
      else seg xs ys (segIdx xs n x) x) := by
  unfold npInterp
  rw [if_neg (not_lt.2 h0), if_neg (not_lt.2 h1)]
  by_cases h : segIdx xs n x = n - 1
  · simp [h]
  · simp only [h, if_false]
    by_cases he : xs (segIdx xs n x) = x
    · rw [if_pos he]; simp only [seg, he, sub_self, mul_zero, zero_add]
    · rw [if_neg he]; rfl

theorem seg_left (xs ys : ℕ → α) (j : ℕ) : seg xs ys j (xs j) = ys j := by simp [seg]

theorem seg_right {xs ys : ℕ → α} {j : ℕ} (h : xs j < xs (j + 1)) :
    seg xs ys j (xs (j + 1)) = ys (j + 1) := by
  have : xs (j + 1) - xs j ≠ 0 := sub_ne_zero.2 h.ne'
  unfold seg
  field_simp
  ring

theorem seg_mono {xs ys : ℕ → α} {j : ℕ} {x x' : α} (h : xs j < xs (j + 1))
    (hy : ys j ≤ ys (j + 1)) (hx : x ≤ x') : seg xs ys j x ≤ seg xs ys j x' := by
  unfold seg
  have : 0 ≤ (ys (j + 1) - ys j) / (xs (j + 1) - xs j) :=
    div_nonneg (sub_nonneg.2 hy) (sub_nonneg.2 h.le)
  have := mul_le_mul_of_nonneg_left (sub_le_sub_right hx (xs j)) this
  linarith

/-- Between two knots the value lies between the neighbouring values. -/
theorem seg_between {xs ys : ℕ → α} {j : ℕ} {x : α} (h1 : xs j ≤ x) (h2 : x < xs (j + 1)) :
    min (ys j) (ys (j + 1)) ≤ seg xs ys j x ∧ seg xs ys j x ≤ max (ys j) (ys (j + 1)) := by
  have hd : 0 < xs (j + 1) - xs j := by linarith
  have e : seg xs ys j x = ys j + (ys (j + 1) - ys j) * ((x - xs j) / (xs (j + 1) - xs j)) := by
    unfold seg; field_simp; ring
  have w0 : 0 ≤ (x - xs j) / (xs (j + 1) - xs j) := div_nonneg (by linarith) hd.le
  have w1 : (x - xs j) / (xs (j + 1) - xs j) ≤ 1 := by rw [div_le_one hd]; linarith
  rw [e]
  generalize (x - xs j) / (xs (j + 1) - xs j) = w at w0 w1
  rcases le_total (ys j) (ys (j + 1)) with h | h
  · rw [min_eq_left h, max_eq_right h]
    have := mul_nonneg (sub_nonneg.2 h) w0
    have := mul_le_mul_of_nonneg_left w1 (sub_nonneg.2 h)
    constructor <;> linarith
  · rw [min_eq_right h, max_eq_left h]
    have := mul_nonneg (sub_nonneg.2 h) w0
    have := mul_le_mul_of_nonneg_left w1 (sub_nonneg.2 h)
    constructor <;> linarith

/-- The interpolated value as a number (knots and segments). -/
def interp (xs ys : ℕ → α) (n : ℕ) (x : α) : α :=
  if segIdx xs n x = n - 1 then ys (n - 1) else seg xs ys (segIdx xs n x) x

theorem npInterp_eq {xs ys : ℕ → α} {n : ℕ} {x : α} (h0 : xs 0 ≤ x) (h1 : x ≤ xs (n - 1)) :
    npInterp xs ys n x = some (interp xs ys n x) := npInterp_some h0 h1

theorem interp_knot {xs ys : ℕ → α} {n j : ℕ} (hm : StrictTo xs n) (hj : j < n) :
    interp xs ys n (xs j) = ys j := by
  unfold interp
  by_cases h : j = n - 1
  · rw [h, segIdx_last (le_refl _), if_pos rfl]
  · rw [segIdx_eq hm.mono (j := j) (by omega) (le_refl _) (hm j (j + 1) (by omega) (by omega)),
      if_neg h, seg_left]

theorem interp_seg {xs ys : ℕ → α} {n j : ℕ} {x : α} (hm : MonoTo xs n) (hj : j + 1 < n)
    (h1 : xs j ≤ x) (h2 : x < xs (j + 1)) : interp xs ys n x = seg xs ys j x := by
  unfold interp
  rw [segIdx_eq hm hj h1 h2, if_neg (by omega)]

theorem interp_ge {xs ys : ℕ → α} {n : ℕ} {x : α} (hy : MonoTo ys n) (hn : 0 < n)
    (h0 : xs 0 ≤ x) : ys (segIdx xs n x) ≤ interp xs ys n x := by
  have hle := segIdx_le xs n x
  unfold interp
  by_cases h : segIdx xs n x = n - 1
  · rw [if_pos h, h]
  · rw [if_neg h]
    have := (seg_between (ys := ys) (segIdx_spec n h0) (segIdx_lt (n := n) (by omega))).1
    rwa [min_eq_left (hy _ _ (Nat.le_succ _) (by omega))] at this

theorem interp_le_next {xs ys : ℕ → α} {n : ℕ} {x : α} (hy : MonoTo ys n)
    (h : segIdx xs n x + 1 < n) (h0 : xs 0 ≤ x) :
    interp xs ys n x ≤ ys (segIdx xs n x + 1) := by
  unfold interp
  rw [if_neg (by omega)]
  have := (seg_between (ys := ys) (segIdx_spec n h0) (segIdx_lt (n := n) (by omega))).2
  rwa [max_eq_right (hy _ _ (Nat.le_succ _) (by omega))] at this

/-- Interpolation of non-decreasing values is non-decreasing. -/
theorem interp_mono {xs ys : ℕ → α} {n : ℕ} (hn : 0 < n) (hy : MonoTo ys n)
    {x x' : α} (h0 : xs 0 ≤ x) (h : x ≤ x') : interp xs ys n x ≤ interp xs ys n x' := by
  have hj := segIdx_mono (xs := xs) n h
  have hle := segIdx_le xs n x
  have hle' := segIdx_le xs n x'
  rcases Nat.lt_or_eq_of_le hj with hlt | heq
  · calc interp xs ys n x ≤ ys (segIdx xs n x + 1) := interp_le_next hy (by omega) h0
      _ ≤ ys (segIdx xs n x') := hy _ _ hlt (by omega)
      _ ≤ interp xs ys n x' := interp_ge hy hn (le_trans h0 h)
  · by_cases hlast : segIdx xs n x' = n - 1
    · unfold interp; rw [heq, if_pos hlast, if_pos hlast]
    · unfold interp
      rw [heq, if_neg hlast, if_neg hlast]
      have h1 := segIdx_spec n h0
      have h2 := segIdx_lt (xs := xs) (n := n) (x := x') (by omega)
      rw [heq] at h1
      exact seg_mono (lt_of_le_of_lt h1 (lt_of_le_of_lt h h2))
        (hy _ _ (Nat.le_succ _) (by omega)) h

theorem interp_last {xs ys : ℕ → α} {n : ℕ} {x : α} (h : xs (n - 1) ≤ x) :
    interp xs ys n x = ys (n - 1) := by
  unfold interp; rw [segIdx_last h, if_pos rfl]

/-- `interp ys xs` is a right inverse of `interp xs ys` for strictly increasing `xs` and
non-decreasing `ys`. -/
theorem interp_interp {xs ys : ℕ → α} {n : ℕ} (hn : 0 < n) (hx : StrictTo xs n)
    {p : α} (h0 : ys 0 ≤ p) (h1 : p ≤ ys (n - 1)) :
    interp xs ys n (interp ys xs n p) = p := by
  by_cases hlast : segIdx ys n p = n - 1
  · have : ys (n - 1) ≤ p := by have := segIdx_spec (xs := ys) n h0; rwa [hlast] at this
    rw [interp_last this, interp_knot hx (by omega)]
    exact le_antisymm this h1
  · have hle := segIdx_le ys n p
    have hj : segIdx ys n p + 1 < n := by omega
    have a1 := segIdx_spec (xs := ys) n h0
    have a2 := segIdx_lt (xs := ys) hj
    have ex : interp ys xs n p = seg ys xs (segIdx ys n p) p := by
      unfold interp; rw [if_neg hlast]
    generalize segIdx ys n p = j at *
    have hxj := hx j (j + 1) (by omega) hj
    have hd : 0 < ys (j + 1) - ys j := by linarith
    have b1 : xs j ≤ seg ys xs j p := by
      have := (seg_between (ys := xs) a1 a2).1
      rwa [min_eq_left hxj.le] at this
    have b2 : seg ys xs j p < xs (j + 1) := by
      have e : seg ys xs j p = xs j + (xs (j + 1) - xs j) * ((p - ys j) / (ys (j + 1) - ys j)) := by
        unfold seg; field_simp; ring
      have w : (p - ys j) / (ys (j + 1) - ys j) < 1 := by rw [div_lt_one hd]; linarith
      have := mul_lt_mul_of_pos_left w (sub_pos.2 hxj)
      rw [e]; linarith
    rw [ex, interp_seg hx.mono hj b1 b2]
    have hd' : xs (j + 1) - xs j ≠ 0 := sub_ne_zero.2 hxj.ne'
    have hd'' : ys (j + 1) - ys j ≠ 0 := hd.ne'
    unfold seg
    field_simp
    ring

/-- The bisection keeps `xs lo ≤ x < xs hi` and ends with neighbours. -/
theorem kBisect_spec {X : ℕ → α} {xs : ℕ → Option α} {n : ℕ} (hr : ∀ i < n, xs i = some (X i))
    {x : α} (fuel lo hi : ℕ) (hf : hi - lo ≤ fuel) (hlh : lo < hi) (hhi : hi < n)
    (h1 : X lo ≤ x) (h2 : x < X hi) :
    ∃ j, kBisect xs x fuel lo hi = some (j, j + 1) ∧ j + 1 < n ∧ X j ≤ x ∧ x < X (j + 1) := by
  induction fuel generalizing lo hi with
  | zero => omega
  | succ fuel ih =>
    unfold kBisect
    by_cases hgt : hi - lo > 1
    · have hm1 : lo < (lo + hi) / 2 := by omega
      have hm2 : (lo + hi) / 2 < hi := by omega
      rw [if_pos hgt]
      simp only [hr ((lo + hi) / 2) (by omega)]
      split
      · rename_i hle
        exact ih _ _ (by omega) hm2 hhi hle h2
      · rename_i hle
        exact ih _ _ (by omega) hm1 (by omega) h1 (not_le.1 hle)
    · rw [if_neg hgt]
      obtain rfl : hi = lo + 1 := by omega
      exact ⟨lo, rfl, hhi, h1, h2⟩

end PV
