import Verif.Model.Material
import Verif.Lemmas.Dist
import Mathlib.Algebra.BigOperators.Fin
import Mathlib.Algebra.Order.BigOperators.Group.List

/-! Lemmas about component choice. -/

namespace PV
noncomputable section

theorem coefficients_ok {comps : List Comp} {w : ℝ} {cs : List ℝ}
    (hc : coefficients comps w = .ok cs) :
    List.Forall₂ (fun c v => Comp.coefficient c w = .ok v) comps cs := by
  unfold coefficients at hc
  induction comps generalizing cs with
  | nil =>
    simp only [List.mapM_nil] at hc
    cases hc; exact .nil
  | cons c comps ih =>
    rw [List.mapM_cons] at hc
    cases hcc : c.coefficient w with
    | error e => rw [hcc] at hc; cases hc
    | ok v =>
      rw [hcc] at hc
      cases hm : comps.mapM (fun c => c.coefficient w) with
      | error e =>
        rw [hm] at hc; cases hc
      | ok vs =>
        rw [hm] at hc
        cases hc
        exact .cons hcc (ih hm)

theorem cumsum_zero (cs : List ℝ) : cumsum cs 0 = 0 := by simp [cumsum]

theorem cumsum_succ (cs : List ℝ) {k : ℕ} (hk : k < cs.length) :
    cumsum cs (k + 1) = cumsum cs k + cs[k] := by
  unfold cumsum
  rw [List.take_add_one, List.sum_append]
  simp [List.getElem?_eq_getElem hk]

theorem cumsum_length (cs : List ℝ) : cumsum cs cs.length = cs.sum := by simp [cumsum]

theorem cumsum_mono {cs : List ℝ} (h : ∀ c ∈ cs, 0 ≤ c) : MonoTo (cumsum cs) (cs.length + 1) := by
  apply monoTo_of_step
  intro i hi
  have hi' : i < cs.length := by omega
  rw [cumsum_succ cs hi']
  have := h _ (List.getElem_mem hi')
  linarith

theorem cumsum_max {cs : List ℝ} (h : ∀ c ∈ cs, 0 ≤ c) (hl : 0 < cs.length) :
    (List.range cs.length).foldl (fun m k => max m (cumsum cs (k + 1))) (cumsum cs 1) = cs.sum := by
  have key : ∀ m, 1 ≤ m → m ≤ cs.length →
      (List.range m).foldl (fun a k => max a (cumsum cs (k + 1))) (cumsum cs 1) = cumsum cs m := by
    intro m hm hml
    induction m with
    | zero => omega
    | succ m ih =>
      rw [List.range_succ, List.foldl_append]
      simp only [List.foldl_cons, List.foldl_nil]
      rcases Nat.eq_zero_or_pos m with rfl | h0
      · simp
      · rw [ih h0 (by omega)]
        exact max_eq_right (cumsum_mono h m (m + 1) (by omega) (by omega))
  rw [key _ hl (le_refl _), cumsum_length]

/-- The component interval: `u` lies in the `i`-th piece of the unit interval cut in proportion to
the coefficients. -/
def InPiece (cs : List ℝ) (i : ℕ) (u : ℝ) : Prop :=
  cumsum cs i / cs.sum ≤ u ∧ u < cumsum cs (i + 1) / cs.sum

theorem pickIndex_spec {cs : List ℝ} {u : ℝ} (h : ∀ c ∈ cs, 0 ≤ c) (hs : 0 < cs.sum) (h0 : 0 ≤ u)
    (h1 : u < 1) : ∃ i, pickIndex cs u = .ok i ∧ i < cs.length ∧ InPiece cs i u := by
  have hl : 0 < cs.length := by
    rcases cs with _ | _
    · simp at hs
    · simp
  unfold pickIndex
  rw [if_neg (by push Not; exact h)]
  simp only [cumsum_max h hl]
  rw [if_neg (by push Not; exact ⟨by omega, hs.ne'⟩)]
  set pdf : ℕ → ℝ := fun k => if k = 0 then 0 else cumsum cs k / cs.sum with hpdf
  have pe : ∀ k, pdf k = cumsum cs k / cs.sum := by
    intro k
    rcases Nat.eq_zero_or_pos k with rfl | hk
    · simp [hpdf, cumsum_zero]
    · simp [hpdf, hk.ne']
  have p0 : pdf 0 = 0 := by simp [hpdf]
  have pl : pdf cs.length = 1 := by rw [pe, cumsum_length, div_self hs.ne']
  have hm : MonoTo pdf (cs.length + 1) := by
    intro i j hij hj
    rw [pe, pe]
    exact div_le_div_of_nonneg_right (cumsum_mono h i j hij hj) hs.le
  set j := segIdx pdf (cs.length + 1) u with hj
  have hjle : j ≤ cs.length := by have := segIdx_le pdf (cs.length + 1) u; omega
  have ha : pdf j ≤ u := segIdx_spec _ (by rw [p0]; exact h0)
  have hjl : j < cs.length := by
    rcases Nat.lt_or_eq_of_le hjle with h' | h'
    · exact h'
    · rw [h', pl] at ha; linarith
  have hb : u < pdf (j + 1) := segIdx_lt (by omega)
  refine ⟨j, ?_, hjl, ?_, ?_⟩
  · congr 1
    have e : npInterpClamp pdf (fun k => (k : ℝ)) (cs.length + 1) u =
        1 / (pdf (j + 1) - pdf j) * (u - pdf j) + j := by
      unfold npInterpClamp
      rw [if_neg (by rw [p0]; exact not_lt.2 h0), if_neg (by simp [pl]; exact h1.le),
        npInterp_eq (by rw [p0]; exact h0) (by simp [pl]; exact h1.le)]
      simp only [Option.getD_some]
      rw [interp_seg hm (by omega) ha hb]
      simp [seg]
    rw [e]
    have hd : 0 < pdf (j + 1) - pdf j := by linarith
    have hx0 : 0 ≤ 1 / (pdf (j + 1) - pdf j) * (u - pdf j) := by
      have : 0 ≤ u - pdf j := by linarith
      positivity
    have hx1 : 1 / (pdf (j + 1) - pdf j) * (u - pdf j) < 1 := by
      rw [one_div, inv_mul_lt_iff₀ hd]; linarith
    rw [Nat.floor_eq_iff (by positivity)]
    constructor <;> linarith
  · rw [← pe]; exact ha
  · rw [← pe]; exact hb

/-- The pieces do not overlap. -/
theorem InPiece.unique {cs : List ℝ} {u : ℝ} {i j : ℕ} (h : ∀ c ∈ cs, 0 ≤ c) (hs : 0 < cs.sum)
    (hi : i < cs.length) (hj : j < cs.length) (a : InPiece cs i u) (b : InPiece cs j u) : i = j := by
  have hm := cumsum_mono h
  rcases Nat.lt_trichotomy i j with hlt | rfl | hlt
  · have := div_le_div_of_nonneg_right (hm (i + 1) j hlt (by omega)) hs.le
    linarith [a.2, b.1]
  · rfl
  · have := div_le_div_of_nonneg_right (hm (j + 1) i hlt (by omega)) hs.le
    linarith [b.2, a.1]

theorem kPickFrom_spec (target : ℝ) (cs : List ℝ) : ∀ (running : ℝ) (k : ℕ),
    (∀ i, kPickFrom target running k cs = some i → k ≤ i ∧ i - k < cs.length ∧
      target ≤ running + cumsum cs (i - k + 1) ∧
      ∀ j < i - k, running + cumsum cs (j + 1) < target) ∧
    (kPickFrom target running k cs = none → ∀ j < cs.length, running + cumsum cs (j + 1) < target) := by
  induction cs with
  | nil => intro running k; simp [kPickFrom]
  | cons c cs ih =>
    intro running k
    have hcons : ∀ m, cumsum (c :: cs) (m + 1) = c + cumsum cs m := by
      intro m; simp [cumsum]
    unfold kPickFrom
    by_cases ht : target ≤ running + c
    · rw [if_pos ht]
      refine ⟨?_, by simp⟩
      intro i hi
      obtain rfl := Option.some.inj hi
      refine ⟨le_refl _, by simp, ?_, fun j hj => by omega⟩
      simp only [Nat.sub_self, hcons, cumsum_zero]
      linarith
    · rw [if_neg ht]
      have := ih (running + c) (k + 1)
      push Not at ht
      constructor
      · intro i hi
        obtain ⟨a, b, d, e⟩ := this.1 i hi
        obtain ⟨m, rfl⟩ := Nat.exists_eq_add_of_le a
        refine ⟨by omega, by simp; omega, ?_, ?_⟩
        · have : k + 1 + m - k + 1 = m + 1 + 1 := by omega
          rw [this, hcons]
          have : k + 1 + m - (k + 1) + 1 = m + 1 := by omega
          rw [this] at d
          linarith
        · intro j hj
          rw [hcons]
          rcases Nat.eq_zero_or_pos j with rfl | h0
          · rw [cumsum_zero]; linarith
          · obtain ⟨j, rfl⟩ := Nat.exists_eq_succ_of_ne_zero h0.ne'
            have := e j (by omega)
            simp only [Nat.succ_eq_add_one]
            linarith
      · intro hn j hj
        rw [hcons]
        rcases Nat.eq_zero_or_pos j with rfl | h0
        · rw [cumsum_zero]; linarith
        · obtain ⟨j, rfl⟩ := Nat.exists_eq_succ_of_ne_zero h0.ne'
          have := this.2 hn j (by simp at hj; omega)
          simp only [Nat.succ_eq_add_one]
          linarith

/-- The engine's choice: the first index whose running sum reaches `u · α`. -/
theorem kPick_spec {cs : List ℝ} {u : ℝ} (hs : 0 < cs.sum) (h1 : u ≤ 1) :
    kPick cs u < cs.length ∧ u * cs.sum ≤ cumsum cs (kPick cs u + 1) ∧
      ∀ j < kPick cs u, cumsum cs (j + 1) < u * cs.sum := by
  have hl : 0 < cs.length := by
    rcases cs with _ | _
    · simp at hs
    · simp
  have := kPickFrom_spec (u * cs.sum) cs 0 0
  unfold kPick
  cases hp : kPickFrom (u * cs.sum) 0 0 cs with
  | none =>
    have h' := this.2 hp (cs.length - 1) (by omega)
    rw [Nat.sub_add_cancel hl, cumsum_length] at h'
    nlinarith
  | some i =>
    have h' := this.1 i hp
    simp only [Option.getD_some, Nat.sub_zero, zero_add] at *
    exact h'.2

end
end PV
