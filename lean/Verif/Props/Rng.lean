import Verif.Lemmas.Rng
import Mathlib.Data.Rat.Defs
import Mathlib.Algebra.Order.Field.Rat
import Mathlib.Tactic.NormNum
import Mathlib.Tactic.Positivity
import Mathlib.Tactic.Linarith
import Mathlib.Data.Finite.Prod
import Mathlib.Data.Fin.VecNotation
import Mathlib.Tactic.IntervalCases
import Mathlib.Data.Fintype.EquivFin
import Mathlib.Algebra.Order.Field.Basic

/-!
# C20, C21: the engine's random numbers

Statements about `rng_uniform`, `rng_seed` (`_kernel.pyx:71-113`) and the
per-ray seeding of `trace_bundle` (`_kernel.pyx:1090`).
-/

namespace PV.Rng

/-- The value returned by `rng_uniform` as an exact rational:
`(result >> 11) * (1.0 / 9007199254740992.0)`. `_kernel.pyx:113`. -/
def uniform (r : State) : ℚ := ((bits53 r).toNat : ℚ) * (1 / 9007199254740992)

/-- C20. Every value the engine draws, from any generator state whatsoever, is
a multiple `k / 2^53` with `k < 2^53`, hence lies in `[0, 1)`. -/
theorem uniform_grid (r : State) :
    ∃ k : Nat, k < 2 ^ 53 ∧ uniform r = (k : ℚ) / 2 ^ 53 ∧ 0 ≤ uniform r ∧ uniform r < 1 := by
  have hk : (bits53 r).toNat < 2 ^ 53 := by
    unfold bits53
    rw [BitVec.toNat_ushiftRight, Nat.shiftRight_eq_div_pow]
    have := (r.s0 + r.s3).isLt
    omega
  have hq : ((bits53 r).toNat : ℚ) < 2 ^ 53 := by exact_mod_cast hk
  refine ⟨(bits53 r).toNat, hk, ?_, ?_, ?_⟩
  · unfold uniform; norm_num [div_eq_mul_inv]
  · unfold uniform; positivity
  · unfold uniform
    rw [mul_one_div, div_lt_one (by norm_num)]
    norm_num at hq ⊢
    exact hq

/-- C20, consequence used by the kernel: the argument of `log` in
`-log(1.0 - rng_uniform)` is always positive and at most 1. -/
theorem log_argument_pos (r : State) : 0 < 1 - uniform r ∧ 1 - uniform r ≤ 1 := by
  obtain ⟨_, _, _, h0, h1⟩ := uniform_grid r
  constructor <;> linarith

/-- C20, sharpness: both `0` and `1 - 2^-53` are reachable outputs, so the
interval in `uniform_grid` cannot be narrowed. -/
theorem uniform_range_sharp :
    (∃ r, uniform r = 0) ∧ (∃ r, uniform r = 1 - 1 / 2 ^ 53) := by
  refine ⟨⟨⟨0, 1, 0, 0⟩, ?_⟩, ⟨⟨0xFFFFFFFFFFFFFFFF#64, 0, 0, 0⟩, ?_⟩⟩
  · have : (bits53 ⟨0, 1, 0, 0⟩).toNat = 0 := by decide
    unfold uniform
    rw [this]; norm_num
  · have : (bits53 ⟨0xFFFFFFFFFFFFFFFF#64, 0, 0, 0⟩).toNat = 9007199254740991 := by decide
    unfold uniform
    rw [this]; norm_num

/-- C21. Two different rays of one bundle (fewer than `2^64` rays) never start
from the same generator state. -/
theorem rayState_injective (seed : BitVec 64) (i j : Nat) (hi : i < 2 ^ 64) (hj : j < 2 ^ 64)
    (hij : i ≠ j) : rayState seed i ≠ rayState seed j := by
  intro h
  have h0 : mix (seed + BitVec.ofNat 64 i + gamma) = mix (seed + BitVec.ofNat 64 j + gamma) := by
    have := congrArg State.s0 h
    simpa [rayState, seedState, splitmix64] using this
  have h1 := mix_inj h0
  have h2 := (BitVec.add_left_inj gamma).mp h1
  have h3 := (BitVec.add_right_inj seed).mp h2
  have h4 := congrArg BitVec.toNat h3
  rw [BitVec.toNat_ofNat, BitVec.toNat_ofNat, Nat.mod_eq_of_lt hi, Nat.mod_eq_of_lt hj] at h4
  exact hij h4

/-- C21. The streams of two different rays never merge: after any equal number
of draws their generators are still in different states. -/
theorem streams_never_merge (seed : BitVec 64) (i j : Nat) (hi : i < 2 ^ 64) (hj : j < 2 ^ 64)
    (hij : i ≠ j) (n : Nat) :
    iterate n (rayState seed i) ≠ iterate n (rayState seed j) := fun h =>
  rayState_injective seed i j hi hj hij (iterate_inj n h)

/-- The four words of a generator state. -/
def word (r : State) : Fin 4 → BitVec 64 := ![r.s0, r.s1, r.s2, r.s3]

theorem word_seedState (t : BitVec 64) (k : Fin 4) :
    word (seedState t) k = mix (t + BitVec.ofNat 64 (k.val + 1) * gamma) := by
  have h1 : BitVec.ofNat 64 1 * gamma = gamma := by decide
  have h2 : BitVec.ofNat 64 2 * gamma = gamma + gamma := by decide
  have h3 : BitVec.ofNat 64 3 * gamma = gamma + gamma + gamma := by decide
  have h4 : BitVec.ofNat 64 4 * gamma = gamma + gamma + gamma + gamma := by decide
  match k with
  | 0 => rw [show ((0 : Fin 4).val + 1) = 1 from rfl, h1]; rfl
  | 1 => rw [show ((1 : Fin 4).val + 1) = 2 from rfl, h2, ← BitVec.add_assoc]; rfl
  | 2 =>
    rw [show ((2 : Fin 4).val + 1) = 3 from rfl, h3, ← BitVec.add_assoc, ← BitVec.add_assoc]; rfl
  | 3 =>
    rw [show ((3 : Fin 4).val + 1) = 4 from rfl, h4, ← BitVec.add_assoc, ← BitVec.add_assoc,
      ← BitVec.add_assoc]; rfl

theorem offsets_distinct {i j a b : ℕ} (hi : i < 2305843009213693952)
    (hj : j < 2305843009213693952) (ha : a < 4) (hb : b < 4)
    (hv : (i + (a + 1) * 11400714819323198485) % 18446744073709551616 =
      (j + (b + 1) * 11400714819323198485) % 18446744073709551616) : i = j ∧ a = b := by
  interval_cases a <;> interval_cases b <;> omega

/-- C21. The words that seed the generators are all different: within the state of one ray and
between the states of any two rays of a bundle of at most `2^61` rays. -/
theorem seed_words_distinct (seed : BitVec 64) (i j : Nat) (hi : i < 2 ^ 61) (hj : j < 2 ^ 61)
    (k l : Fin 4) (h : (i, k) ≠ (j, l)) :
    word (rayState seed i) k ≠ word (rayState seed j) l := by
  unfold rayState
  rw [word_seedState, word_seedState]
  intro hm
  have he := mix_inj hm
  rw [BitVec.add_assoc, BitVec.add_assoc] at he
  have he := (BitVec.add_right_inj seed).mp he
  have hg : gamma = BitVec.ofNat 64 11400714819323198485 := by decide
  rw [hg, ← BitVec.ofNat_mul, ← BitVec.ofNat_mul, ← BitVec.ofNat_add, ← BitVec.ofNat_add] at he
  have hv := congrArg BitVec.toNat he
  rw [BitVec.toNat_ofNat, BitVec.toNat_ofNat] at hv
  obtain ⟨h1, h2⟩ := offsets_distinct hi hj k.isLt l.isLt hv
  exact h (by rw [h1, Fin.ext h2])

/-- C21. No seed produces the all-zero state (from which xoshiro256+ would
return 0 forever), and the generator never reaches it. -/
theorem never_zero (seed : BitVec 64) (n : Nat) : iterate n (seedState seed) ≠ ⟨0, 0, 0, 0⟩ := by
  intro h
  rw [← iterate_zero_state n] at h
  have h' := iterate_inj n h
  have h0 : mix (seed + gamma) = 0 := by
    have := congrArg State.s0 h'; simpa [seedState, splitmix64] using this
  have h1 : mix (seed + gamma + gamma) = 0 := by
    have := congrArg State.s1 h'; simpa [seedState, splitmix64] using this
  have h2 := mix_inj (h0.trans h1.symm)
  have h3 : gamma = 0#64 := by
    have h4 : seed + gamma + 0#64 = seed + gamma + gamma := by rw [BitVec.add_zero]; exact h2
    exact ((BitVec.add_right_inj _).mp h4).symm
  revert h3; decide

instance : Finite State :=
  Finite.of_injective
    (fun s : State => (s.s0.toFin, s.s1.toFin, s.s2.toFin, s.s3.toFin)) (by
      intro a b h
      cases a; cases b
      simp only [Prod.mk.injEq] at h
      obtain ⟨h0, h1, h2, h3⟩ := h
      rw [State.mk.injEq]
      exact ⟨BitVec.eq_of_toFin_eq h0, BitVec.eq_of_toFin_eq h1, BitVec.eq_of_toFin_eq h2,
        BitVec.eq_of_toFin_eq h3⟩)

/-- C21. The generator step is a bijection of the `2^256` states, so no
information is ever lost and the whole state space is a union of cycles. -/
theorem step_bijective : Function.Bijective step :=
  Finite.injective_iff_bijective.mp (fun _ _ h => step_inj h)

/-- C21. What a ray's random stream is depends only on `seed + i` (modulo
`2^64`): the stream of ray `i` in a bundle started at `seed + k` is the stream
of ray `k + i` of the bundle started at `seed`. -/
theorem rayState_shift (seed : BitVec 64) (k i n : Nat) :
    draws n (rayState (seed + BitVec.ofNat 64 k) i) = draws n (rayState seed (k + i)) := by
  unfold rayState
  rw [BitVec.ofNat_add, BitVec.add_assoc]

/-! Non-vacuity: concrete rays meeting the hypotheses. -/
example : rayState 42#64 0 ≠ rayState 42#64 1 :=
  rayState_injective 42#64 0 1 (by decide) (by decide) (by decide)
example : (bits53 (rayState 42#64 7)).toNat ≠ 0 := by decide
example : draws 2 (rayState 1#64 0) ≠ draws 2 (rayState 1#64 1) := by decide

end PV.Rng
