import Verif.Lemmas.Dist
import Mathlib.Algebra.Order.Ring.Rat
import Mathlib.Tactic.NormNum
import Mathlib.Tactic.IntervalCases

/-!
# Distributions and table interpolation (properties C29 and C31)
-/

namespace PV.Dist
open PV
set_option linter.unusedSectionVars false
variable {α : Type} [Field α] [LinearOrder α] [IsStrictOrderedRing α]

/-! ## C29 -/

/-- Which tables the constructor accepts: strictly ascending `x`, no negative `y`, and at least
two points. -/
theorem accepted_iff (T : Table α) (hist : Bool) :
    (∃ D, mkDist T hist = .ok D) ↔
      2 ≤ T.n ∧ (∀ i j, i < j → j < T.n → T.x i < T.x j) ∧ ∀ i < T.n, 0 ≤ T.y i := by
  constructor
  · rintro ⟨D, hD⟩
    obtain ⟨_, h⟩ := mkDist_ok hD
    exact h
  · rintro ⟨h1, h2, h3⟩
    refine ⟨.table T hist, ?_⟩
    unfold mkDist
    rw [if_neg (not_not.2 fun i hi => h2 i (i + 1) (by omega) (by omega)), if_neg (by omega),
      if_neg, if_neg (by omega)]
    rintro ⟨i, hi, hneg⟩
    exact absurd (h3 i hi) (not_le.2 hneg)

variable {T : Table α} {D : Dist α}

/-- **C29**, interpolated data: the cumulative function is 0 at the first `x`, 1 at the last, and
non-decreasing with values in [0, 1] in between. -/
theorem cdf_is_cdf (hD : mkDist T false = .ok D) (hpos : ∃ i < T.n, 0 < T.y i) :
    D.lookup (T.x 0) = .ok (some 0) ∧ D.lookup (T.x (T.n - 1)) = .ok (some 1) ∧
    ∀ x x', T.x 0 ≤ x → x ≤ x' → x' ≤ T.x (T.n - 1) →
      ∃ p p', D.lookup x = .ok (some p) ∧ D.lookup x' = .ok (some p') ∧
        0 ≤ p ∧ p ≤ p' ∧ p' ≤ 1 := by
  obtain ⟨rfl, hn, hx, hy⟩ := mkDist_ok hD
  have look : ∀ x, T.x 0 ≤ x → x ≤ T.x (T.n - 1) →
      (Dist.table T false).lookup x = .ok (some (interp T.x T.cdf T.n x)) := by
    intro x h0 h1
    have hr : T.inRange x := by
      unfold Table.inRange; push Not; exact ⟨h0, h1⟩
    simp [Dist.lookup, hr, npInterp_eq h0 h1]
  have hends : T.x 0 ≤ T.x (T.n - 1) := hx.mono _ _ (by omega) (by omega)
  have e0 : interp T.x T.cdf T.n (T.x 0) = 0 := by rw [interp_knot hx (by omega), Table.cdf_zero]
  have e1 : interp T.x T.cdf T.n (T.x (T.n - 1)) = 1 := by
    rw [interp_knot hx (by omega), Table.cdf_last hy hn hpos]
  refine ⟨by rw [look _ (le_refl _) hends, e0], by rw [look _ hends (le_refl _), e1], ?_⟩
  intro x x' h0 hxx h1
  have hc := Table.cdf_mono hy hn
  refine ⟨_, _, look x h0 (le_trans hxx h1), look x' (le_trans h0 hxx) h1, ?_, ?_, ?_⟩
  · rw [← e0]; exact interp_mono (by omega) hc (le_refl _) h0
  · exact interp_mono (by omega) hc h0 hxx
  · rw [← e1]; exact interp_mono (by omega) hc (le_trans h0 hxx) h1

theorem sample_eq (hD : mkDist T false = .ok D) (hpos : ∃ i < T.n, 0 < T.y i) {p : α}
    (h0 : 0 ≤ p) (h1 : p ≤ 1) : D.sample p = .ok (some (interp T.cdf T.x T.n p)) := by
  obtain ⟨rfl, hn, hx, hy⟩ := mkDist_ok hD
  have : ¬ (p < 0 ∨ 1 < p) := by push Not; exact ⟨h0, h1⟩
  simp only [Dist.sample, if_neg this, Bool.false_eq_true, if_false]
  rw [npInterp_eq (by rw [Table.cdf_zero]; exact h0) (by rw [Table.cdf_last hy hn hpos]; exact h1)]

theorem lookup_eq (hD : mkDist T false = .ok D) {x : α} (h0 : T.x 0 ≤ x)
    (h1 : x ≤ T.x (T.n - 1)) : D.lookup x = .ok (some (interp T.x T.cdf T.n x)) := by
  obtain ⟨rfl, hn, hx, hy⟩ := mkDist_ok hD
  have hr : T.inRange x := by unfold Table.inRange; push Not; exact ⟨h0, h1⟩
  simp [Dist.lookup, hr, npInterp_eq h0 h1]

theorem interp_range (hD : mkDist T false = .ok D) (hpos : ∃ i < T.n, 0 < T.y i) {p : α}
    (h0 : 0 ≤ p) (h1 : p ≤ 1) :
    T.x 0 ≤ interp T.cdf T.x T.n p ∧ interp T.cdf T.x T.n p ≤ T.x (T.n - 1) := by
  obtain ⟨rfl, hn, hx, hy⟩ := mkDist_ok hD
  have hl := Table.cdf_last hy hn hpos
  have hc0 : T.cdf 0 ≤ p := by rw [Table.cdf_zero]; exact h0
  constructor
  · exact le_trans (hx.mono 0 _ (Nat.zero_le _) (by have := segIdx_le T.cdf T.n p; omega))
      (interp_ge hx.mono (by omega) hc0)
  · calc interp T.cdf T.x T.n p ≤ interp T.cdf T.x T.n (T.cdf (T.n - 1)) :=
        interp_mono (by omega) hx.mono hc0 (by rw [hl]; exact h1)
      _ = T.x (T.n - 1) := interp_last (le_refl _)

/-- **C29**, sampling stays in range and is monotone. -/
theorem sample_range_mono (hD : mkDist T false = .ok D) (hpos : ∃ i < T.n, 0 < T.y i)
    {p p' : α} (h0 : 0 ≤ p) (hpp : p ≤ p') (h1 : p' ≤ 1) :
    ∃ s s', D.sample p = .ok (some s) ∧ D.sample p' = .ok (some s') ∧
      T.x 0 ≤ s ∧ s ≤ s' ∧ s' ≤ T.x (T.n - 1) := by
  refine ⟨_, _, sample_eq hD hpos h0 (le_trans hpp h1), sample_eq hD hpos (le_trans h0 hpp) h1,
    (interp_range hD hpos h0 (le_trans hpp h1)).1, ?_,
    (interp_range hD hpos (le_trans h0 hpp) h1).2⟩
  obtain ⟨rfl, hn, hx, hy⟩ := mkDist_ok hD
  exact interp_mono (by omega) hx.mono (by rw [Table.cdf_zero]; exact h0) hpp

/-- **C29**, `lookup` undoes `sample` for every probability. -/
theorem lookup_sample (hD : mkDist T false = .ok D) (hpos : ∃ i < T.n, 0 < T.y i) {p : α}
    (h0 : 0 ≤ p) (h1 : p ≤ 1) :
    ∃ s, D.sample p = .ok (some s) ∧ D.lookup s = .ok (some p) := by
  have hr := interp_range hD hpos h0 h1
  refine ⟨_, sample_eq hD hpos h0 h1, ?_⟩
  rw [lookup_eq hD hr.1 hr.2]
  obtain ⟨rfl, hn, hx, hy⟩ := mkDist_ok hD
  rw [interp_interp (by omega) hx (by rw [Table.cdf_zero]; exact h0)
    (by rw [Table.cdf_last hy hn hpos]; exact h1)]

/-- **C29**, `sample` undoes `lookup` wherever the cumulative function increases strictly to the
right of `x`; without that condition the result is never smaller than `x`. -/
theorem sample_lookup (hD : mkDist T false = .ok D) (hpos : ∃ i < T.n, 0 < T.y i) {x : α}
    (h0 : T.x 0 ≤ x) (h1 : x ≤ T.x (T.n - 1)) :
    ∃ p s, D.lookup x = .ok (some p) ∧ 0 ≤ p ∧ p ≤ 1 ∧ D.sample p = .ok (some s) ∧ x ≤ s ∧
      ((∀ x' p', x < x' → D.lookup x' = .ok (some p') → p < p') → s = x) := by
  obtain ⟨_, _, hcdf⟩ := cdf_is_cdf hD hpos
  obtain ⟨p, _, hp, hp', hp0, _, hp1⟩ := hcdf x x h0 (le_refl _) h1
  rw [hp] at hp'
  simp only [Except.ok.injEq, Option.some.injEq] at hp'
  subst hp'
  obtain ⟨s, hs, hls⟩ := lookup_sample hD hpos hp0 hp1
  have hstrict : (∀ x' p', x < x' → D.lookup x' = .ok (some p') → p < p') → ¬ x < s := by
    intro h hlt
    exact lt_irrefl _ (h s p hlt hls)
  have hge : x ≤ s := by
    -- compare with the segment of `x`
    have hpe := lookup_eq hD h0 h1
    rw [hp] at hpe
    simp only [Except.ok.injEq, Option.some.injEq] at hpe
    have hse := sample_eq hD hpos hp0 hp1
    rw [hs] at hse
    simp only [Except.ok.injEq, Option.some.injEq] at hse
    obtain ⟨rfl, hn, hx, hy⟩ := mkDist_ok hD
    have hc := Table.cdf_mono hy hn
    by_contra hlt
    push Not at hlt
    have hsr := interp_range hD hpos hp0 hp1
    rw [← hse] at hsr
    -- `s < x` but both have the same cumulative value: the table is flat between them
    have hcs0 : T.cdf 0 ≤ p := by rw [Table.cdf_zero]; exact hp0
    set j := segIdx T.cdf T.n p with hj
    have hjle := segIdx_le T.cdf T.n p
    by_cases hjl : j = T.n - 1
    · have : s = T.x (T.n - 1) := by rw [hse]; unfold interp; rw [← hj, if_pos hjl]
      rw [this] at hlt
      exact absurd h1 (not_le.2 hlt)
    · have hj1 : j + 1 < T.n := by omega
      have hlt2 : p < T.cdf (j + 1) := segIdx_lt hj1
      have hle2 : T.cdf j ≤ p := segIdx_spec T.n hcs0
      have hsx : T.x j ≤ s := by rw [hse]; exact interp_ge hx.mono (by omega) hcs0
      have hxj := hx j (j + 1) (by omega) hj1
      -- `x` lies in the segment of `s`, otherwise its value would reach `cdf (j+1)`
      have hxlt : x < T.x (j + 1) := by
        by_contra hge
        push Not at hge
        have := interp_mono (ys := T.cdf) (by omega : 0 < T.n) hc
          (hx.mono 0 (j + 1) (by omega) hj1) hge
        rw [interp_knot hx hj1, ← hpe] at this
        exact absurd hlt2 (not_lt.2 this)
      have e1 : p = seg T.x T.cdf j x := by
        rw [hpe]; exact interp_seg hx.mono hj1 (le_trans hsx hlt.le) hxlt
      have e2 : p = seg T.x T.cdf j s := by
        have := lookup_eq hD hsr.1 hsr.2
        rw [hls] at this
        simp only [Except.ok.injEq, Option.some.injEq] at this
        rw [this]; exact interp_seg hx.mono hj1 hsx (lt_trans hlt hxlt)
      have hc1 : T.cdf j < T.cdf (j + 1) := lt_of_le_of_lt hle2 hlt2
      have hslope : 0 < (T.cdf (j + 1) - T.cdf j) / (T.x (j + 1) - T.x j) :=
        div_pos (sub_pos.2 hc1) (sub_pos.2 hxj)
      have := mul_lt_mul_of_pos_left (sub_lt_sub_right hlt (T.x j)) hslope
      unfold seg at e1 e2
      linarith
  exact ⟨p, s, hp, hp0, hp1, hs, hge, fun h => le_antisymm (not_lt.1 (hstrict h)) hge⟩

/-- **C29**, arguments outside the range raise `ValueError`, and only those do. -/
theorem out_of_range_raises {hist : Bool} (hD : mkDist T hist = .ok D) (x p : α) :
    (D.lookup x = .error .valueError ↔ x < T.x 0 ∨ T.x (T.n - 1) < x) ∧
    (D.call x = .error .valueError ↔ x < T.x 0 ∨ T.x (T.n - 1) < x) ∧
    (D.sample p = .error .valueError ↔ p < 0 ∨ 1 < p) := by
  obtain ⟨rfl, hn, hx, hy⟩ := mkDist_ok hD
  refine ⟨?_, ?_, ?_⟩
  · simp only [Dist.lookup, Table.inRange]
    by_cases h : x < T.x 0 ∨ T.x (T.n - 1) < x
    · simp [h]
    · cases hist <;> simp [h]
  · simp only [Dist.call, Table.inRange]
    by_cases h : x < T.x 0 ∨ T.x (T.n - 1) < x
    · simp [h]
    · cases hist <;> simp [h]
  · simp only [Dist.sample]
    by_cases h : p < 0 ∨ 1 < p
    · simp [h]
    · cases hist <;> simp [h]

/-- **C29**, the interpolated spectrum never leaves the range of its neighbouring values, and in
particular is never negative. -/
theorem call_nonneg (hD : mkDist T false = .ok D) {x : α} (h0 : T.x 0 ≤ x)
    (h1 : x ≤ T.x (T.n - 1)) : ∃ v, D.call x = .ok (some v) ∧ 0 ≤ v := by
  obtain ⟨rfl, hn, hx, hy⟩ := mkDist_ok hD
  have hr : T.inRange x := by unfold Table.inRange; push Not; exact ⟨h0, h1⟩
  refine ⟨interp T.x T.y T.n x, by simp [Dist.call, hr, npInterp_eq h0 h1], ?_⟩
  unfold interp
  split
  · exact hy _ (by omega)
  · rename_i h
    have hle := segIdx_le T.x T.n x
    have := (seg_between (ys := T.y) (segIdx_spec T.n h0) (segIdx_lt (n := T.n) (by omega))).1
    exact le_trans (le_min (hy _ (by omega)) (hy _ (by omega))) this

/-- **C29**, histogram data: the cumulative values are non-decreasing and end at 1, samples are
always one of the tabulated `x` values and grow with `p`. -/
theorem hist_sample (hD : mkDist T true = .ok D) (hpos : ∃ i < T.n, 0 < T.y i)
    {p p' : α} (h0 : 0 ≤ p) (hpp : p ≤ p') (h1 : p' ≤ 1) :
    ∃ i j, i < T.n ∧ j < T.n ∧ D.sample p = .ok (some (T.x i)) ∧
      D.sample p' = .ok (some (T.x j)) ∧ T.x i ≤ T.x j := by
  obtain ⟨rfl, hn, hx, hy⟩ := mkDist_ok hD
  have hm := Table.hcdf_mono hy
  have key : ∀ q, 0 ≤ q → q ≤ 1 → searchLeft T.hcdf T.n q < T.n ∧
      (Dist.table T true).sample q = .ok (some (T.x (searchLeft T.hcdf T.n q))) := by
    intro q hq0 hq1
    have hs := searchLeft_spec hm q
    have hlt : searchLeft T.hcdf T.n q < T.n := by
      rcases Nat.lt_or_eq_of_le hs.1 with h | h
      · exact h
      · have := hs.2.1 (T.n - 1) (by omega)
        rw [Table.hcdf_last hy hpos] at this
        exact absurd hq1 (not_le.2 this)
    refine ⟨hlt, ?_⟩
    have : ¬ (q < 0 ∨ 1 < q) := by push Not; exact ⟨hq0, hq1⟩
    simp [Dist.sample, this, hlt]
  have k1 := key p h0 (le_trans hpp h1)
  have k2 := key p' (le_trans h0 hpp) h1
  exact ⟨_, _, k1.1, k2.1, k1.2, k2.2, hx.mono _ _ (searchLeft_mono hm hpp) k2.1⟩

/-- Histogram data, cumulative function: non-decreasing, in [0, 1], 1 at the last `x`. -/
theorem hist_lookup (hD : mkDist T true = .ok D) (hpos : ∃ i < T.n, 0 < T.y i) :
    D.lookup (T.x (T.n - 1)) = .ok (some 1) ∧
    ∀ x x', T.x 0 ≤ x → x ≤ x' → x' ≤ T.x (T.n - 1) →
      ∃ p p', D.lookup x = .ok (some p) ∧ D.lookup x' = .ok (some p') ∧
        0 ≤ p ∧ p ≤ p' ∧ p' ≤ 1 := by
  obtain ⟨rfl, hn, hx, hy⟩ := mkDist_ok hD
  have hm := Table.hcdf_mono hy
  have hl := Table.hcdf_last hy hpos
  have key : ∀ x, T.x 0 ≤ x → x ≤ T.x (T.n - 1) → searchLeft T.x T.n x < T.n ∧
      (Dist.table T true).lookup x = .ok (some (T.hcdf (searchLeft T.x T.n x))) := by
    intro x h0 h1
    have hs := searchLeft_spec hx.mono x
    have hlt : searchLeft T.x T.n x < T.n := by
      rcases Nat.lt_or_eq_of_le hs.1 with h | h
      · exact h
      · have := hs.2.1 (T.n - 1) (by omega)
        exact absurd h1 (not_le.2 this)
    have hr : T.inRange x := by unfold Table.inRange; push Not; exact ⟨h0, h1⟩
    exact ⟨hlt, by simp [Dist.lookup, hr]⟩
  have hnn : ∀ i < T.n, 0 ≤ T.hcdf i := by
    intro i hi
    unfold Table.hcdf
    exact mul_nonneg (Table.hsum_nonneg hy hi) (one_div_nonneg.2 (Table.hsum_nonneg hy (by omega)))
  refine ⟨?_, ?_⟩
  · have hends : T.x 0 ≤ T.x (T.n - 1) := hx.mono _ _ (by omega) (by omega)
    obtain ⟨hlt, he⟩ := key _ hends (le_refl _)
    have hs := searchLeft_spec hx.mono (T.x (T.n - 1))
    have : searchLeft T.x T.n (T.x (T.n - 1)) = T.n - 1 := by
      by_contra hne
      have h3 := hs.2.2 _ (le_refl _) hlt
      have := hx _ (T.n - 1) (by omega : searchLeft T.x T.n (T.x (T.n - 1)) < T.n - 1) (by omega)
      exact absurd h3 (not_le.2 this)
    rw [he, this, hl]
  · intro x x' h0 hxx h1
    obtain ⟨l1, e1⟩ := key x h0 (le_trans hxx h1)
    obtain ⟨l2, e2⟩ := key x' (le_trans h0 hxx) h1
    refine ⟨_, _, e1, e2, hnn _ l1, hm _ _ (searchLeft_mono hx.mono hxx) l2, ?_⟩
    rw [← hl]
    exact hm _ _ (by omega) (by omega)

/-! ### Examples -/

/-- A spectrum with a gap: 400, 500, 600, 700 nm with values 1, 0, 0, 3. -/
def demo : Table ℚ := ⟨4, fun i => 400 + 100 * i, fun i => if i = 0 then 1 else if i = 3 then 3 else 0⟩

theorem demo_ok (hist : Bool) : mkDist demo hist = .ok (.table demo hist) := by
  unfold mkDist
  rw [if_neg (by decide +kernel), if_neg (by decide), if_neg (by decide +kernel),
    if_neg (by decide)]

example : ∃ i < demo.n, 0 < demo.y i := ⟨0, by decide, by decide +kernel⟩
example : (Dist.table demo false).lookup 450 = .ok (some (1/8)) := by decide +kernel
example : (Dist.table demo false).sample (1/8) = .ok (some 450) := by decide +kernel
/-- On the flat part `sample` jumps to the right end of the gap. -/
example : (Dist.table demo false).lookup 550 = .ok (some (1/4)) ∧
    (Dist.table demo false).sample (1/4) = .ok (some 600) := by decide +kernel
example : (Dist.table demo true).sample (1/2) = .ok (some 700) := by decide +kernel
/-- For histogram data the cumulative function does not start at 0. -/
theorem hist_starts_above_zero :
    (Dist.table demo true).lookup (demo.x 0) = .ok (some (1/4)) := by decide +kernel

/-! ## C31 -/

/-- **C31.** For every table of length `n ≥ 1` with non-decreasing `X`: the engine's search loop
terminates, never reads outside the table, and returns the edge value outside, the value of the
straight line through the two neighbouring knots inside. -/
theorem kInterp_total (X Y : ℕ → α) (n : ℕ) (hn : 1 ≤ n) (hm : MonoTo X n)
    (xs ys : ℕ → Option α) (hx : ∀ i < n, xs i = some (X i)) (hy : ∀ i < n, ys i = some (Y i))
    (x : α) :
    ∃ v, kInterp x xs ys n = some v ∧
      (n = 1 → v = Y 0) ∧ (x ≤ X 0 → v = Y 0) ∧ (X 0 < x → X (n - 1) ≤ x → v = Y (n - 1)) ∧
      ∀ i, i + 1 < n → X 0 < x → X i ≤ x → x < X (i + 1) →
        v = Y i + (Y (i + 1) - Y i) * (x - X i) / (X (i + 1) - X i) := by
  unfold kInterp
  by_cases h1 : n = 1
  · subst h1
    rw [if_pos rfl, hy 0 (by omega)]
    exact ⟨_, rfl, fun _ => rfl, fun _ => rfl, fun _ _ => rfl, fun i hi => by omega⟩
  rw [if_neg h1, hx 0 (by omega)]
  by_cases h2 : x ≤ X 0
  · simp only [h2, if_true]
    rw [hy 0 (by omega)]
    exact ⟨_, rfl, fun _ => rfl, fun _ => rfl, fun h => absurd h2 (not_le.2 h),
      fun i _ h => absurd h2 (not_le.2 h)⟩
  simp only [h2, if_false]
  rw [hx (n - 1) (by omega)]
  by_cases h3 : x ≥ X (n - 1)
  · simp only [h3, if_true]
    rw [hy (n - 1) (by omega)]
    refine ⟨_, rfl, fun h => absurd h h1, fun h => h.elim, fun _ _ => rfl, ?_⟩
    intro i hi _ _ hlt
    exact absurd (lt_of_lt_of_le hlt (hm (i + 1) (n - 1) (by omega) (by omega))) (not_lt.2 h3)
  simp only [h3, if_false]
  obtain ⟨j, hb, hj, ha, hc⟩ := kBisect_spec hx n 0 (n - 1) (by omega) (by omega) (by omega)
    (not_le.1 h2).le (not_le.1 h3)
  rw [hb]
  simp only [hx j (by omega), hx (j + 1) hj, hy j (by omega), hy (j + 1) hj]
  have hne : X (j + 1) ≠ X j := (lt_of_le_of_lt ha hc).ne'
  rw [if_neg hne]
  refine ⟨_, rfl, fun h => absurd h h1, fun h => h.elim, fun _ h => h.elim, ?_⟩
  intro i hi _ hi1 hi2
  have : i = j := by
    rcases Nat.lt_trichotomy i j with h | h | h
    · exact absurd (lt_of_lt_of_le hi2 (hm (i + 1) j h (by omega))) (not_lt.2 ha)
    · exact h
    · exact absurd (lt_of_lt_of_le hc (hm (j + 1) i h (by omega))) (not_lt.2 hi1)
  rw [this]

/-- **C31.** Exact at the knots of a strictly increasing table. -/
theorem kInterp_knot (X Y : ℕ → α) (n : ℕ) (hm : StrictTo X n) (xs ys : ℕ → Option α)
    (hx : ∀ i < n, xs i = some (X i)) (hy : ∀ i < n, ys i = some (Y i)) (j : ℕ) (hj : j < n) :
    kInterp (X j) xs ys n = some (Y j) := by
  obtain ⟨v, hv, h1, h2, h3, h4⟩ := kInterp_total X Y n (by omega) hm.mono xs ys hx hy (X j)
  rw [hv]
  congr 1
  rcases Nat.eq_zero_or_pos j with rfl | hpos
  · exact h2 (le_refl _)
  have hX := hm 0 j hpos hj
  by_cases hl : j = n - 1
  · subst hl; exact h3 hX (le_refl _)
  · have := h4 j (by omega) hX (le_refl _) (hm j (j + 1) (by omega) (by omega))
    simpa using this

/-- **C31.** Inside the table the engine agrees with `numpy.interp` for every non-decreasing table
and every argument above the first knot (and at the first knot for strictly increasing tables). -/
theorem kInterp_eq_numpy (X Y : ℕ → α) (n : ℕ) (hn : 1 ≤ n) (hm : MonoTo X n) (xs ys : ℕ → Option α)
    (hx : ∀ i < n, xs i = some (X i)) (hy : ∀ i < n, ys i = some (Y i)) (x : α)
    (h0 : X 0 < x ∨ (X 0 ≤ x ∧ StrictTo X n)) (hl : x ≤ X (n - 1)) :
    kInterp x xs ys n = npInterp X Y n x := by
  obtain ⟨v, hv, h1, h2, h3, h4⟩ := kInterp_total X Y n hn hm xs ys hx hy x
  have h0' : X 0 ≤ x := by rcases h0 with h | h; exacts [h.le, h.1]
  rw [hv, npInterp_eq h0' hl]
  congr 1
  by_cases hlast : X (n - 1) ≤ x
  · rw [interp_last hlast]
    rcases lt_or_eq_of_le h0' with h | h
    · exact h3 h hlast
    · rcases h0 with h' | h'
      · exact h3 h' hlast
      · have : n = 1 := by
          by_contra hne
          have := h'.2 0 (n - 1) (by omega) (by omega)
          exact absurd (lt_of_lt_of_le this hlast) (not_lt.2 h.ge)
        subst this; exact h1 rfl
  · have hj : segIdx X n x + 1 < n := by
      have := segIdx_le X n x
      by_contra hge
      have he : segIdx X n x = n - 1 := by omega
      have := segIdx_spec n h0'
      rw [he] at this
      exact hlast this
    have ha := segIdx_spec n h0'
    have hb := segIdx_lt hj
    rcases lt_or_eq_of_le h0' with h | h
    · rw [h4 _ hj h ha hb, interp_seg hm hj ha hb]
      unfold seg
      ring
    · rcases h0 with h' | h'
      · exact absurd h' (not_lt.2 h.ge)
      · rw [h2 h.ge, ← h, interp_knot h'.2 (by omega)]

/-- **C31.** Bounded: the result always lies between the smallest and the largest table entry; in
particular coefficients of a non-negative spectrum are never negative. -/
theorem kInterp_bounds (X Y : ℕ → α) (n : ℕ) (hn : 1 ≤ n) (hm : MonoTo X n) (xs ys : ℕ → Option α)
    (hx : ∀ i < n, xs i = some (X i)) (hy : ∀ i < n, ys i = some (Y i)) (x lo hi : α)
    (hb : ∀ i < n, lo ≤ Y i ∧ Y i ≤ hi) :
    ∃ v, kInterp x xs ys n = some v ∧ lo ≤ v ∧ v ≤ hi := by
  obtain ⟨v, hv, h1, h2, h3, h4⟩ := kInterp_total X Y n hn hm xs ys hx hy x
  refine ⟨v, hv, ?_⟩
  by_cases h0 : x ≤ X 0
  · rw [h2 h0]; exact hb 0 (by omega)
  push Not at h0
  by_cases hlast : X (n - 1) ≤ x
  · rw [h3 h0 hlast]; exact hb _ (by omega)
  have hj : segIdx X n x + 1 < n := by
    have := segIdx_le X n x
    by_contra hge
    have he : segIdx X n x = n - 1 := by omega
    have := segIdx_spec n h0.le
    rw [he] at this
    exact hlast this
  have ha := segIdx_spec n h0.le
  have hc := segIdx_lt hj
  have hs := seg_between (ys := Y) ha hc
  have e : v = seg X Y (segIdx X n x) x := by
    rw [h4 _ hj h0 ha hc]; unfold seg; ring
  rw [e]
  exact ⟨le_trans (le_min (hb _ (by omega)).1 (hb _ hj).1) hs.1,
    le_trans hs.2 (max_le (hb _ (by omega)).2 (hb _ hj).2)⟩

/-- Non-vacuity: a table of four knots; below, at a knot, between knots, above. -/
example : let xs : ℕ → Option ℚ := fun i => if i < 4 then some (demo.x i) else none
    let ys : ℕ → Option ℚ := fun i => if i < 4 then some (demo.y i) else none
    kInterp 100 xs ys 4 = some 1 ∧ kInterp 500 xs ys 4 = some 0 ∧
      kInterp 650 xs ys 4 = some (3/2) ∧ kInterp 900 xs ys 4 = some 3 := by decide +kernel

end PV.Dist
