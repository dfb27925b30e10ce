import Verif.Model.Dist
import Verif.Lemmas.Interp
import Mathlib.Algebra.Order.BigOperators.Group.Finset

/-! Lemmas about `Distribution`. -/

namespace PV
set_option linter.unusedSectionVars false
variable {α : Type} [Field α] [LinearOrder α] [IsStrictOrderedRing α]

/-- What acceptance by the constructor means. -/
theorem mkDist_ok {T : Table α} {hist : Bool} {D : Dist α} (h : mkDist T hist = .ok D) :
    D = .table T hist ∧ 2 ≤ T.n ∧ StrictTo T.x T.n ∧ ∀ i < T.n, 0 ≤ T.y i := by
  unfold mkDist at h
  split at h
  · cases h
  rename_i h1
  split at h
  · cases h
  split at h
  · cases h
  rename_i h2 h3
  split at h
  · split at h <;> cases h
  rename_i h4
  cases h
  refine ⟨rfl, by omega, strictTo_of_step (not_not.1 h1), ?_⟩
  intro i hi
  by_contra hneg
  exact h3 ⟨i, hi, not_le.1 hneg⟩

namespace Table
variable {T : Table α}

theorem cum_succ (T : Table α) (k : ℕ) : T.cum (k + 1) = T.cum k + (T.y k + T.y (k + 1)) * (1 / 2) := by
  unfold cum; rw [Finset.sum_range_succ]

theorem cum_mono (hy : ∀ i < T.n, 0 ≤ T.y i) : MonoTo T.cum T.n := by
  apply monoTo_of_step
  intro i hi
  rw [cum_succ]
  have h1 := hy i (by omega)
  have h2 := hy (i + 1) (by omega)
  linarith

theorem maxCum_eq (hy : ∀ i < T.n, 0 ≤ T.y i) (hn : 2 ≤ T.n) : T.maxCum = T.cum (T.n - 1) := by
  have key : ∀ m, 1 ≤ m → m < T.n →
      (List.range m).foldl (fun a k => max a (T.cum (k + 1))) (T.cum 1) = T.cum m := by
    intro m hm hmn
    induction m with
    | zero => omega
    | succ m ih =>
      rw [List.range_succ, List.foldl_append]
      simp only [List.foldl_cons, List.foldl_nil]
      rcases Nat.eq_zero_or_pos m with rfl | hpos
      · simp
      · rw [ih hpos (by omega)]
        exact max_eq_right (cum_mono hy m (m + 1) (by omega) hmn)
  exact key _ (by omega) (by omega)

theorem cum_pos (hy : ∀ i < T.n, 0 ≤ T.y i) (hn : 2 ≤ T.n) (hpos : ∃ i < T.n, 0 < T.y i) :
    0 < T.cum (T.n - 1) := by
  obtain ⟨i, hi, hp⟩ := hpos
  have h0 : T.cum 0 = 0 := by simp [cum]
  by_cases hlast : i = T.n - 1
  · have e : T.n - 1 = (T.n - 2) + 1 := by omega
    have hc := cum_mono hy 0 (T.n - 2) (by omega) (by omega)
    have := hy (T.n - 2) (by omega)
    rw [e, cum_succ, ← e, ← hlast]
    rw [h0] at hc
    linarith
  · have h1 := cum_mono hy (i + 1) (T.n - 1) (by omega) (by omega)
    have hc := cum_mono hy 0 i (by omega) (by omega)
    have := hy (i + 1) (by omega)
    rw [cum_succ] at h1
    rw [h0] at hc
    linarith

theorem cdf_eq (hy : ∀ i < T.n, 0 ≤ T.y i) (hn : 2 ≤ T.n) (k : ℕ) :
    T.cdf k = T.cum k / T.cum (T.n - 1) := by
  unfold cdf
  rw [maxCum_eq hy hn]
  split
  · rename_i h; subst h; simp [cum]
  · rfl

theorem cdf_mono (hy : ∀ i < T.n, 0 ≤ T.y i) (hn : 2 ≤ T.n) : MonoTo T.cdf T.n := by
  intro i j hij hj
  rw [cdf_eq hy hn, cdf_eq hy hn]
  have h0 : T.cum 0 = 0 := by simp [cum]
  have : 0 ≤ T.cum (T.n - 1) := by
    have := cum_mono hy 0 (T.n - 1) (by omega) (by omega); rwa [h0] at this
  exact div_le_div_of_nonneg_right (cum_mono hy i j hij hj) this

theorem cdf_zero : T.cdf 0 = 0 := by simp [cdf]

theorem cdf_last (hy : ∀ i < T.n, 0 ≤ T.y i) (hn : 2 ≤ T.n) (hpos : ∃ i < T.n, 0 < T.y i) :
    T.cdf (T.n - 1) = 1 := by
  rw [cdf_eq hy hn]
  exact div_self (cum_pos hy hn hpos).ne'

theorem hsum_succ (T : Table α) (k : ℕ) : T.hsum (k + 1) = T.hsum k + T.y (k + 1) := by
  unfold hsum; rw [Finset.sum_range_succ]

theorem hsum_mono (hy : ∀ i < T.n, 0 ≤ T.y i) : MonoTo T.hsum T.n := by
  apply monoTo_of_step
  intro i hi
  rw [hsum_succ]
  have h2 := hy (i + 1) (by omega)
  linarith

theorem hsum_nonneg (hy : ∀ i < T.n, 0 ≤ T.y i) {k : ℕ} (hk : k < T.n) : 0 ≤ T.hsum k := by
  unfold hsum
  apply Finset.sum_nonneg
  intro i hi
  rw [Finset.mem_range] at hi
  exact hy i (by omega)

theorem hsum_pos (hy : ∀ i < T.n, 0 ≤ T.y i) (hpos : ∃ i < T.n, 0 < T.y i) :
    0 < T.hsum (T.n - 1) := by
  obtain ⟨i, hi, hp⟩ := hpos
  unfold hsum
  apply Finset.sum_pos'
  · intro j hj
    rw [Finset.mem_range] at hj
    exact hy j (by omega)
  · exact ⟨i, by rw [Finset.mem_range]; omega, hp⟩

theorem hcdf_mono (hy : ∀ i < T.n, 0 ≤ T.y i) : MonoTo T.hcdf T.n := by
  intro i j hij hj
  unfold hcdf
  exact mul_le_mul_of_nonneg_right (hsum_mono hy i j hij hj)
    (one_div_nonneg.2 (hsum_nonneg hy (by omega)))

theorem hcdf_last (hy : ∀ i < T.n, 0 ≤ T.y i) (hpos : ∃ i < T.n, 0 < T.y i) :
    T.hcdf (T.n - 1) = 1 := by
  unfold hcdf
  rw [mul_one_div]
  exact div_self (hsum_pos hy hpos).ne'

end Table

/-- In a non-decreasing array `searchsorted` splits the entries below `v` from the rest. -/
theorem searchLeft_spec {a : ℕ → α} {n : ℕ} (h : MonoTo a n) (v : α) :
    searchLeft a n v ≤ n ∧ (∀ i < searchLeft a n v, a i < v) ∧
      ∀ i, searchLeft a n v ≤ i → i < n → v ≤ a i := by
  unfold searchLeft
  induction n with
  | zero => simp
  | succ n ih =>
    have h' : MonoTo a n := fun i j hij hj => h i j hij (by omega)
    obtain ⟨h1, h2, h3⟩ := ih h'
    rw [List.range_succ, List.filter_append, List.length_append]
    by_cases hv : a n < v
    · simp only [List.filter_cons, hv, decide_true, if_true, List.filter_nil, List.length_singleton]
      -- everything is below
      have hall : ((List.range n).filter (fun i => a i < v)).length = n := by
        rcases Nat.lt_or_eq_of_le h1 with hlt | heq
        · have := h3 _ (le_refl _) hlt
          have := h ((List.range n).filter (fun i => a i < v)).length n (by omega) (by omega)
          exact absurd hv (not_lt.2 (le_trans ‹_› this))
        · exact heq
      rw [hall]
      refine ⟨le_refl _, ?_, fun i hi hin => by omega⟩
      intro i hi
      rcases Nat.lt_or_eq_of_le (Nat.le_of_lt_succ hi) with hlt | rfl
      · exact h2 i (by omega)
      · exact hv
    · simp only [List.filter_cons, hv, decide_false, List.filter_nil, List.length_nil,
        Bool.false_eq_true, if_false, Nat.add_zero]
      refine ⟨by omega, h2, ?_⟩
      intro i hi hin
      rcases Nat.lt_or_eq_of_le (Nat.le_of_lt_succ hin) with hlt | rfl
      · exact h3 i hi hlt
      · exact not_lt.1 hv

theorem searchLeft_mono {a : ℕ → α} {n : ℕ} (h : MonoTo a n) {v v' : α} (hv : v ≤ v') :
    searchLeft a n v ≤ searchLeft a n v' := by
  by_contra hlt
  push Not at hlt
  have s1 := searchLeft_spec h v
  have s2 := searchLeft_spec h v'
  have := s1.2.1 _ hlt
  have := s2.2.2 _ (le_refl _) (by omega)
  exact absurd (lt_of_lt_of_le ‹_› hv) (not_lt.2 this)

end PV
