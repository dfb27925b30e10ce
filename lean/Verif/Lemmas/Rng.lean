import Verif.Model.Rng

namespace PV.Rng

theorem xorshr_inj {k : Nat} (hk : 0 < k) {x y : BitVec 64}
    (h : x ^^^ (x >>> k) = y ^^^ (y >>> k)) : x = y := by
  have hbit : ∀ i, (x ^^^ (x >>> k)).getLsbD i = (y ^^^ (y >>> k)).getLsbD i := by rw [h]; simp
  have key : ∀ n i, 64 ≤ i + n → x.getLsbD i = y.getLsbD i := by
    intro n
    induction n with
    | zero =>
      intro i hi
      rw [BitVec.getLsbD_of_ge _ _ (by omega), BitVec.getLsbD_of_ge _ _ (by omega)]
    | succ n ih =>
      intro i hi
      have h1 := hbit i
      have h2 := ih (k + i) (by omega)
      simp only [BitVec.getLsbD_xor, BitVec.getLsbD_ushiftRight] at h1
      rw [h2] at h1
      revert h1
      cases x.getLsbD i <;> cases y.getLsbD i <;> cases y.getLsbD (k + i) <;> simp
  apply BitVec.eq_of_getLsbD_eq
  intro i _
  exact key 64 i (by omega)

theorem xorshl_inj {k : Nat} (hk : 0 < k) {x y : BitVec 64}
    (h : x ^^^ (x <<< k) = y ^^^ (y <<< k)) : x = y := by
  have hbit : ∀ i, (x ^^^ (x <<< k)).getLsbD i = (y ^^^ (y <<< k)).getLsbD i := by rw [h]; simp
  have key : ∀ n i, i < n → x.getLsbD i = y.getLsbD i := by
    intro n
    induction n with
    | zero => intro i hi; omega
    | succ n ih =>
      intro i hi
      by_cases h64 : i < 64
      · have h1 := hbit i
        simp only [BitVec.getLsbD_xor, BitVec.getLsbD_shiftLeft] at h1
        by_cases hik : i < k
        · simp [hik] at h1; exact h1
        · rw [ih (i - k) (by omega)] at h1
          exact Bool.xor_left_inj.mp h1
      · rw [BitVec.getLsbD_of_ge _ _ (by omega), BitVec.getLsbD_of_ge _ _ (by omega)]
  apply BitVec.eq_of_getLsbD_eq
  intro i hi
  exact key 64 i hi

theorem mul_inj {c d x y : BitVec 64} (hcd : c * d = 1#64) (h : x * c = y * c) : x = y := by
  have : x * c * d = y * c * d := by rw [h]
  rw [BitVec.mul_assoc, BitVec.mul_assoc, hcd, BitVec.mul_one, BitVec.mul_one] at this
  exact this

theorem mix_inj {x y : BitVec 64} (h : mix x = mix y) : x = y := by
  unfold mix at h
  have h1 := xorshr_inj (by decide) h
  have h2 := mul_inj (d := 0x319642B2D24D8EC3#64) (by decide) h1
  have h3 := xorshr_inj (by decide) h2
  have h4 := mul_inj (d := 0x96DE1B173F119089#64) (by decide) h3
  exact xorshr_inj (by decide) h4

theorem rotl45_inj {x y : BitVec 64} (h : rotl x 45 = rotl y 45) : x = y := by
  have hbit : ∀ i, (rotl x 45).getLsbD i = (rotl y 45).getLsbD i := by rw [h]; simp
  apply BitVec.eq_of_getLsbD_eq
  intro i hi
  by_cases hlt : i < 19
  · have := hbit (i + 45)
    simp only [rotl, BitVec.getLsbD_or, BitVec.getLsbD_shiftLeft, BitVec.getLsbD_ushiftRight] at this
    have e1 : i + 45 - 45 = i := by omega
    rw [e1, BitVec.getLsbD_of_ge x (64 - 45 + (i + 45)) (by omega),
      BitVec.getLsbD_of_ge y (64 - 45 + (i + 45)) (by omega)] at this
    have e2 : i + 45 < 64 := by omega
    have e3 : ¬ (i + 45 < 45) := by omega
    simpa [e2, e3] using this
  · have := hbit (i - 19)
    simp only [rotl, BitVec.getLsbD_or, BitVec.getLsbD_shiftLeft, BitVec.getLsbD_ushiftRight] at this
    have e1 : 64 - 45 + (i - 19) = i := by omega
    have e2 : i - 19 < 45 := by omega
    rw [e1] at this
    simpa [e2] using this

theorem step_inj {a b : State} (h : step a = step b) : a = b := by
  obtain ⟨a0, a1, a2, a3⟩ := a
  obtain ⟨b0, b1, b2, b3⟩ := b
  simp only [step, State.mk.injEq] at h
  obtain ⟨h0, h1, h2, h3⟩ := h
  have e3 := rotl45_inj h3
  have e0 : a0 = b0 := by
    rw [e3] at h0
    exact (BitVec.xor_left_inj _).mp h0
  -- combine h1 and h2 to isolate s1
  have e1 : a1 = b1 := by
    apply xorshl_inj (k := 17) (by decide)
    have : (a1 ^^^ (a2 ^^^ a0)) ^^^ ((a2 ^^^ a0) ^^^ a1 <<< 17)
         = (b1 ^^^ (b2 ^^^ b0)) ^^^ ((b2 ^^^ b0) ^^^ b1 <<< 17) := by rw [h1, h2]
    have simp1 : ∀ p q r : BitVec 64, (p ^^^ q) ^^^ (q ^^^ r) = p ^^^ r := by
      intro p q r
      rw [BitVec.xor_assoc, ← BitVec.xor_assoc q q r, BitVec.xor_self, BitVec.zero_xor]
    rw [simp1, simp1] at this
    exact this
  subst e0 e1
  have e2 : a2 = b2 := by
    have := BitVec.xor_right_inj _ |>.mp h1
    exact BitVec.xor_right_inj a0 |>.mp (by rw [BitVec.xor_comm a0, BitVec.xor_comm a0]; exact this)
  have e3' : a3 = b3 :=
    BitVec.xor_right_inj a1 |>.mp (by rw [BitVec.xor_comm a1, BitVec.xor_comm a1]; exact e3)
  subst e2 e3'
  rfl

theorem iterate_inj (n : Nat) {a b : State} (h : iterate n a = iterate n b) : a = b := by
  induction n generalizing a b with
  | zero => exact h
  | succ n ih => exact step_inj (ih h)

theorem step_zero : step ⟨0, 0, 0, 0⟩ = ⟨0, 0, 0, 0⟩ := by decide

theorem iterate_zero_state (n : Nat) : iterate n ⟨0, 0, 0, 0⟩ = ⟨0, 0, 0, 0⟩ := by
  induction n with
  | zero => rfl
  | succ n ih => rw [iterate, step_zero]; exact ih

end PV.Rng
