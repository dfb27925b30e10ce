import Verif.Lemmas.Material
import Verif.Props.Dist
import Mathlib.MeasureTheory.Measure.Lebesgue.Basic

/-!
C32 penetration depth, C33 component choice, C34 quantum yields, C30 emission wavelengths.
-/

namespace PV.Material
open PV Set MeasureTheory
noncomputable section
variable {σ : Type} {R : Rand σ} {s s' : σ}

/-! ### C32 -/

/-- **C32**. If no coefficient is negative, a sampled depth is never negative. -/
theorem depth_nonneg (hR : R.Unit) {comps : List Comp} {w : ℝ} {cs : List ℝ}
    (hc : coefficients comps w = .ok cs) (hpos : ∀ c ∈ cs, 0 ≤ c) {d : ℝ}
    (h : penetrationDepth R comps w s = .ok (some d, s')) : 0 ≤ d := by
  unfold penetrationDepth at h
  rw [hc] at h
  simp only at h
  split at h
  · simp at h
  · simp only [Except.ok.injEq, Prod.mk.injEq, Option.some.injEq] at h
    rw [← h.1]
    have hu := hR s
    have : Real.log (1 - (R.next s).1) ≤ 0 := Real.log_nonpos (by linarith) (by linarith)
    exact div_nonneg (by linarith) (List.sum_nonneg hpos)

/-- **C32**. A material without attenuation at the wavelength (`|α| ≤ 1e-8`, the tolerance of the
code) never absorbs, and no random number is spent on it; otherwise the depth is finite. -/
theorem transparent_never_absorbs {comps : List Comp} {w : ℝ} {cs : List ℝ}
    (hc : coefficients comps w = .ok cs) :
    (|cs.sum| ≤ 1e-8 → penetrationDepth R comps w s = .ok (none, s) ∧
      ∀ full : ℝ, isAbsorbed (none : Option ℝ) full = none) ∧
    (¬ |cs.sum| ≤ 1e-8 → ∃ d s', penetrationDepth R comps w s = .ok (some d, s')) := by
  unfold penetrationDepth
  rw [hc]
  refine ⟨fun h => ⟨by simp [h], fun _ => rfl⟩, fun h => ⟨_, _, by simp only [h, if_false]; rfl⟩⟩

/-- **C32** (Beer–Lambert). With total coefficient `α > 1e-8` the sampled depth is below `d` exactly
when the number drawn is below `1 - exp(-α d)`: the probability of absorption within `d`. -/
theorem beer_lambert (hR : R.Unit) {comps : List Comp} {w : ℝ} {cs : List ℝ}
    (hc : coefficients comps w = .ok cs) (ha : 1e-8 < cs.sum) (d : ℝ) :
    ∃ x s', penetrationDepth R comps w s = .ok (some x, s') ∧
      (x < d ↔ (R.next s).1 < 1 - Real.exp (-cs.sum * d)) := by
  have hp : 0 < cs.sum := lt_trans (by norm_num) ha
  have hn : ¬ |cs.sum| ≤ 1e-8 := by rw [abs_of_pos hp]; exact not_le.2 ha
  unfold penetrationDepth
  rw [hc]
  refine ⟨_, _, by simp only [hn, if_false]; rfl, ?_⟩
  have hu := hR s
  rw [div_lt_iff₀ hp, neg_lt, ← neg_mul, mul_comm, Real.lt_log_iff_exp_lt (by linarith)]
  rw [show -cs.sum * d = cs.sum * -d by ring]
  constructor <;> intro h <;> linarith

/-- **C32**. An absorption event lies on the segment from the previous position to the surface: at a
fraction `f` in `[0, 1)` of the way, for any non-negative sampled depth. -/
theorem absorbed_on_segment {depth : Option ℝ} (hd : ∀ d, depth = some d → 0 ≤ d) {full d n : ℝ}
    (h : isAbsorbed depth full = some d) (ray : Ray ℝ) :
    ∃ f : ℝ, 0 ≤ f ∧ f < 1 ∧ (ray.propagate d n).position =
      ray.position + f • ((ray.propagate full n).position - ray.position) := by
  unfold isAbsorbed at h
  cases depth with
  | none => cases h
  | some x =>
    simp only at h
    split at h
    · obtain rfl := Option.some.inj h
      have h0 := hd x rfl
      have hf : 0 < full := by linarith
      refine ⟨x / full, by positivity, by rw [div_lt_one hf]; assumption, ?_⟩
      ext <;> simp [Ray.propagate] <;> field_simp
    · cases h

/-- **C32** (invalid materials). A negative constant coefficient is accepted by the constructors; the
sampled depth is then negative, but `component` raises, so no event is recorded at it. -/
theorem negative_coefficient (hR : R.Unit) (c : Comp) (hc : c.absDist = .const (-1)) (w : ℝ) :
    (∃ d s', penetrationDepth R [c] w s = .ok (some d, s') ∧ d ≤ 0) ∧
    pickComponent R [c] w s = .error .valueError := by
  have e : coefficients [c] w = .ok [-1] := by
    simp [coefficients, Comp.coefficient, hc, PV.Dist.call]
  constructor
  · unfold penetrationDepth
    rw [e]
    have hn : ¬ |([-1] : List ℝ).sum| ≤ 1e-8 := by norm_num
    refine ⟨_, _, by simp only [hn, if_false]; rfl, ?_⟩
    have hu := hR s
    have : Real.log (1 - (R.next s).1) ≤ 0 := Real.log_nonpos (by linarith) (by linarith)
    simpa using this
  · unfold pickComponent
    rw [e]
    simp [pickIndex]

/-- Engine: the same depth when the total coefficient is not negative. -/
theorem engine_depth {comps : List Comp} {w : ℝ} {cs : List ℝ}
    (hc : coefficients comps w = .ok cs) (h0 : 0 ≤ cs.sum) :
    penetrationDepth R comps w s = .ok (kDepth R cs.sum s) := by
  unfold penetrationDepth kDepth
  rw [hc]
  simp only [abs_of_nonneg h0]
  by_cases h : cs.sum ≤ 1e-8
  · rw [if_pos h, if_neg (not_lt.2 h)]
  · rw [if_neg h, if_pos (not_le.1 h)]

/-! ### C33 -/

/-- **C33** (Python). For non-negative coefficients with a positive sum, the numbers that select
component `i` are exactly those of the interval `[c₀+…+c_{i-1}, c₀+…+c_i) / Σc`, whose length is
`c_i / Σc`. -/
theorem component_interval {cs : List ℝ} (h : ∀ c ∈ cs, 0 ≤ c) (hs : 0 < cs.sum) {i : ℕ}
    (hi : i < cs.length) {u : ℝ} (h0 : 0 ≤ u) (h1 : u < 1) :
    (pickIndex cs u = .ok i ↔
      u ∈ Ico ((cs.take i).sum / cs.sum) ((cs.take (i + 1)).sum / cs.sum)) ∧
    (cs.take (i + 1)).sum / cs.sum - (cs.take i).sum / cs.sum = cs[i] / cs.sum := by
  constructor
  · obtain ⟨j, e, hj, hp⟩ := pickIndex_spec h hs h0 h1
    rw [e]
    constructor
    · intro hij
      obtain rfl : j = i := by simpa using hij
      exact hp
    · intro hu
      rw [InPiece.unique h hs hj hi hp hu]
  · have := cumsum_succ cs hi
    unfold cumsum at this
    rw [← sub_div, this]; congr 1; ring

/-- **C33** (Python). Some component is always selected, and never one with a zero coefficient. -/
theorem component_total {cs : List ℝ} (h : ∀ c ∈ cs, 0 ≤ c) (hs : 0 < cs.sum) {u : ℝ}
    (h0 : 0 ≤ u) (h1 : u < 1) :
    ∃ i, ∃ hi : i < cs.length, pickIndex cs u = .ok i ∧ 0 < cs[i] := by
  obtain ⟨i, e, hi, hp⟩ := pickIndex_spec h hs h0 h1
  refine ⟨i, hi, e, ?_⟩
  have l := (component_interval h hs hi h0 h1).2
  have : 0 < cs[i] / cs.sum := by rw [← l]; exact sub_pos.2 (lt_of_le_of_lt hp.1 hp.2)
  by_contra hc
  push Not at hc
  exact absurd this (not_lt.2 (div_nonpos_of_nonpos_of_nonneg hc hs.le))

/-- **C33** (Python, probability). The set of selecting numbers has length `c_i / Σc`. -/
theorem component_probability {cs : List ℝ} (h : ∀ c ∈ cs, 0 ≤ c) (hs : 0 < cs.sum) {i : ℕ}
    (hi : i < cs.length) :
    volume {u : ℝ | u ∈ Ico (0 : ℝ) 1 ∧ pickIndex cs u = .ok i} = ENNReal.ofReal (cs[i] / cs.sum) := by
  have hm := cumsum_mono h
  have lo : 0 ≤ (cs.take i).sum / cs.sum := by
    have := hm 0 i (by omega) (by omega)
    rw [cumsum_zero] at this
    exact div_nonneg this hs.le
  have up : (cs.take (i + 1)).sum / cs.sum ≤ 1 := by
    have := hm (i + 1) cs.length (by omega) (by omega)
    rw [cumsum_length] at this
    rw [div_le_one hs]; exact this
  have e : {u : ℝ | u ∈ Ico (0 : ℝ) 1 ∧ pickIndex cs u = .ok i} =
      Ico ((cs.take i).sum / cs.sum) ((cs.take (i + 1)).sum / cs.sum) := by
    ext u
    constructor
    · rintro ⟨hu, he⟩
      exact ((component_interval h hs hi hu.1 hu.2).1).1 he
    · intro hu
      have hu' : u ∈ Ico (0 : ℝ) 1 := ⟨le_trans lo hu.1, lt_of_lt_of_le hu.2 up⟩
      exact ⟨hu', ((component_interval h hs hi hu'.1 hu'.2).1).2 hu⟩
  rw [e, Real.volume_Ico, (component_interval h hs hi le_rfl one_pos).2]

/-- **C33** (engine). The same intervals, closed at the other end: for `0 < u < 1` the engine selects
component `i` exactly when `u` lies in `(c₀+…+c_{i-1}, c₀+…+c_i] / Σc`. -/
theorem engine_component_interval {cs : List ℝ} (h : ∀ c ∈ cs, 0 ≤ c) (hs : 0 < cs.sum) {i : ℕ}
    (hi : i < cs.length) {u : ℝ} (h0 : 0 < u) (h1 : u < 1) :
    kPick cs u = i ↔ u ∈ Ioc ((cs.take i).sum / cs.sum) ((cs.take (i + 1)).sum / cs.sum) := by
  have hm := cumsum_mono h
  obtain ⟨hk, ha, hb⟩ := kPick_spec hs h1.le
  constructor
  · rintro rfl
    refine ⟨?_, by rw [le_div_iff₀ hs]; exact ha⟩
    rw [div_lt_iff₀ hs]
    change cumsum cs (kPick cs u) < _
    rcases Nat.eq_zero_or_pos (kPick cs u) with e | hp
    · rw [e, cumsum_zero]; positivity
    · have := hb (kPick cs u - 1) (by omega)
      rwa [Nat.sub_add_cancel hp] at this
  · rintro ⟨l, r⟩
    rw [div_lt_iff₀ hs] at l
    rw [le_div_iff₀ hs] at r
    rcases Nat.lt_trichotomy (kPick cs u) i with hlt | he | hlt
    · have := hm (kPick cs u + 1) i hlt (by omega)
      unfold cumsum at this ha
      linarith
    · exact he
    · have := hb i hlt
      unfold cumsum at this
      linarith

/-- **C33** (engine, probability). Also `c_i / Σc`. -/
theorem engine_component_probability {cs : List ℝ} (h : ∀ c ∈ cs, 0 ≤ c) (hs : 0 < cs.sum) {i : ℕ}
    (hi : i < cs.length) :
    volume {u : ℝ | u ∈ Ico (0 : ℝ) 1 ∧ kPick cs u = i} = ENNReal.ofReal (cs[i] / cs.sum) := by
  have hm := cumsum_mono h
  have l := (component_interval h hs hi le_rfl one_pos).2
  have lo : 0 ≤ (cs.take i).sum / cs.sum := by
    have := hm 0 i (by omega) (by omega)
    rw [cumsum_zero] at this
    exact div_nonneg this hs.le
  have up : (cs.take (i + 1)).sum / cs.sum ≤ 1 := by
    have := hm (i + 1) cs.length (by omega) (by omega)
    rw [cumsum_length] at this
    rw [div_le_one hs]; exact this
  apply le_antisymm
  · rw [← l, ← Real.volume_Icc]
    by_cases hz : i = 0
    · apply measure_mono
      rintro u ⟨hu, he⟩
      refine ⟨by subst hz; simpa using hu.1, ?_⟩
      rcases hu.1.lt_or_eq with hp | rfl
      · exact ((engine_component_interval h hs hi hp hu.2).1 he).2
      · have := hm 0 (i + 1) (by omega) (by omega)
        rw [cumsum_zero] at this
        exact div_nonneg this hs.le
    · apply measure_mono
      rintro u ⟨hu, he⟩
      rcases hu.1.lt_or_eq with hp | rfl
      · exact Ioc_subset_Icc_self ((engine_component_interval h hs hi hp hu.2).1 he)
      · exfalso
        obtain ⟨hk, ha, hb⟩ := kPick_spec (u := 0) hs zero_le_one
        have := hb 0 (by omega)
        have h0 := hm 0 1 (by omega) (by omega)
        rw [cumsum_zero] at h0
        simp at this
        linarith
  · rw [← l, ← Real.volume_Ioo]
    apply measure_mono
    rintro u ⟨a, b⟩
    have h0 : 0 < u := lt_of_le_of_lt lo a
    have h1 : u < 1 := lt_of_lt_of_le b up
    exact ⟨⟨h0.le, h1⟩, (engine_component_interval h hs hi h0 h1).2 ⟨a, b.le⟩⟩

/-- **C33** (engine). For `u > 0` a component with zero coefficient is never selected. -/
theorem engine_component_pos_partial {cs : List ℝ} (h : ∀ c ∈ cs, 0 ≤ c) (hs : 0 < cs.sum) {u : ℝ}
    (h0 : 0 < u) (h1 : u < 1) : ∃ hi : kPick cs u < cs.length, 0 < cs[kPick cs u] := by
  have hi := (kPick_spec hs h1.le).1
  refine ⟨hi, ?_⟩
  have hp := (engine_component_interval h hs hi h0 h1).1 rfl
  have l := (component_interval h hs hi h0.le h1).2
  have : 0 < cs[kPick cs u] / cs.sum := by rw [← l]; exact sub_pos.2 (lt_of_lt_of_le hp.1 hp.2)
  by_contra hc
  push Not at hc
  exact absurd this (not_lt.2 (div_nonpos_of_nonpos_of_nonneg hc hs.le))

/-- **C33** (violated by the engine at `u = 0`): a first component with zero coefficient is selected,
where Python selects the other one. -/
theorem engine_picks_zero : kPick [0, 1] 0 = 0 ∧ pickIndex [0, 1] 0 = .ok 1 := by
  constructor
  · simp [kPick, kPickFrom]
  · have := (component_interval (cs := [0, 1]) (i := 1) (u := 0) (by simp) (by simp) (by simp)
      le_rfl one_pos).1.2
    exact this (by simp)

/-- **C33** (agreement). Away from the interval ends both codes select the same component. -/
theorem engine_eq_python_pick {cs : List ℝ} (h : ∀ c ∈ cs, 0 ≤ c) (hs : 0 < cs.sum) {u : ℝ}
    (h0 : 0 ≤ u) (h1 : u < 1) (hne : ∀ k ≤ cs.length, u * cs.sum ≠ (cs.take k).sum) :
    pickIndex cs u = .ok (kPick cs u) := by
  have hp : 0 < u := by
    rcases h0.lt_or_eq with h | rfl
    · exact h
    · exact absurd (by simp) (hne 0 (by omega))
  obtain ⟨hk, -, -⟩ := kPick_spec hs h1.le
  have hi := (engine_component_interval h hs hk hp h1).1 rfl
  refine ((component_interval h hs hk h0 h1).1).2 ⟨hi.1.le, lt_of_le_of_ne hi.2 ?_⟩
  intro e
  exact hne (kPick cs u + 1) (by omega) (by rw [eq_div_iff hs.ne'] at e; exact e)

example : (∀ c ∈ ([0.2, 0, 1.3] : List ℝ), 0 ≤ c) ∧ 0 < ([0.2, 0, 1.3] : List ℝ).sum := by
  constructor <;> norm_num

/-- The whole `component` method: it returns a component of the material whose coefficient at the
wavelength is positive. -/
theorem component_absorbs (hR : R.Unit) {comps : List Comp} {w : ℝ} {cs : List ℝ}
    (hc : coefficients comps w = .ok cs) (h : ∀ c ∈ cs, 0 ≤ c) (hs : 0 < cs.sum) :
    ∃ c a, pickComponent R comps w s = .ok (c, (R.next s).2) ∧ c ∈ comps ∧
      c.coefficient w = .ok a ∧ 0 < a := by
  obtain ⟨i, hi, e, hpos⟩ := component_total h hs (hR s).1 (hR s).2
  have fa := coefficients_ok hc
  have hl := fa.length_eq
  have hi' : i < comps.length := by omega
  refine ⟨comps[i], cs[i], ?_, List.getElem_mem hi', ?_, hpos⟩
  · unfold pickComponent
    rw [hc]
    simp only [e, List.getElem?_eq_getElem hi']
  · exact (List.forall₂_iff_get.1 fa).2 i hi' hi

/-! ### C34 -/

/-- **C34** (lifetimes). With non-negative lifetimes, not both zero, the yield is in `[0, 1]`. -/
theorem yield_of_lifetimes {q : Option ℝ} {r n : ℝ} (hr : 0 ≤ r) (hn : 0 ≤ n) (h : 0 < n + r) :
    ∃ y, mkYield q (some r) (some n) = .ok y ∧ 0 ≤ y ∧ y ≤ 1 := by
  refine ⟨n / (n + r), by simp [mkYield, h.ne'], by positivity, ?_⟩
  rw [div_le_one h]; linarith

/-- **C34** (argument). Without both lifetimes the argument is stored as it is, so a valid argument
gives a valid yield... -/
theorem yield_of_argument_partial {q : ℝ} {r n : Option ℝ} (h : r = none ∨ n = none) :
    mkYield (some q) r n = .ok q := by
  rcases h with rfl | rfl
  · cases n <;> rfl
  · cases r <;> rfl

/-- **C34** (violated)... and an invalid one is accepted: a yield of 1.7, or of -1. -/
theorem yield_not_checked : mkYield (some 1.7) none none = .ok 1.7 ∧
    mkYield (some (-1)) none none = .ok (-1) := ⟨rfl, rfl⟩

/-- **C34** (nothing given). The constructor raises. -/
theorem yield_missing (r n : Option ℝ) (h : r = none ∨ n = none) :
    mkYield none r n = .error .valueError := by
  rcases h with rfl | rfl
  · cases n <;> rfl
  · cases r <;> rfl

/-- **C34**. A component with yield 1 always re-emits, one with yield 0 never does, and in general
re-emission happens exactly when the number drawn is below the yield; absorbers and reactors never
re-emit, whatever yield they carry. -/
theorem radiative (hR : R.Unit) (c : Comp) :
    ((c.kind = .scatterer ∨ c.kind = .luminophore) → c.qy = 1 → (c.isRadiative R s).1 = true) ∧
    (c.qy = 0 → (c.isRadiative R s).1 = false) ∧
    ((c.kind = .absorber ∨ c.kind = .reactor) → (c.isRadiative R s).1 = false) ∧
    ((c.kind = .scatterer ∨ c.kind = .luminophore) →
      ((c.isRadiative R s).1 = true ↔ (R.next s).1 < c.qy)) := by
  have hu := hR s
  refine ⟨?_, ?_, ?_, ?_⟩
  · rintro (h | h) hq <;> simp [Comp.isRadiative, h, hq, hu.2]
  · intro hq
    cases hk : c.kind <;> simp [Comp.isRadiative, hk, hq, hu.1]
  · rintro (h | h) <;> simp [Comp.isRadiative, h]
  · rintro (h | h) <;> simp [Comp.isRadiative, h]

/-- An absorber with a non-radiative lifetime carries the yield 1, although it never re-emits, and
one with `tau_nr = 0` cannot be constructed. -/
theorem absorber_yield : absorberYield (some 5) = .ok 1 ∧ absorberYield none = .ok 0 ∧
    absorberYield (some 0) = .error .zeroDivision := by
  refine ⟨?_, rfl, ?_⟩ <;> simp [absorberYield, mkYield]

/-! ### C30 -/

variable {T : Table ℝ} {D : PV.Dist ℝ}

private theorem sample_above (hD : mkDist T false = .ok D) (hpos : ∃ i < T.n, 0 < T.y i)
    {nm p u x : ℝ} (h0 : 0 ≤ u) (h1 : u < 1) (hl : D.lookup nm = .ok (some p))
    (hs : D.sample (p + (1 - p) * u) = .ok (some x)) :
    nm ≤ x ∧ T.x 0 ≤ x ∧ x ≤ T.x (T.n - 1) := by
  have hr : T.x 0 ≤ nm ∧ nm ≤ T.x (T.n - 1) := by
    have := (Dist.out_of_range_raises hD nm 0).1
    rw [hl] at this
    simp only [reduceCtorEq, false_iff, not_or, not_lt] at this
    exact this
  obtain ⟨p', y, e, hp0, hp1, hy, hge, -⟩ := Dist.sample_lookup hD hpos hr.1 hr.2
  rw [hl] at e
  obtain rfl : p = p' := by simpa using e
  obtain ⟨y', x', hy', hx', h2, h3, h4⟩ := Dist.sample_range_mono hD hpos (p' := p + (1 - p) * u)
    hp0 (by nlinarith) (by nlinarith)
  rw [hy] at hy'
  obtain rfl : y = y' := by simpa using hy'
  rw [hs] at hx'
  obtain rfl : x = x' := by simpa using hx'
  exact ⟨le_trans hge h3, le_trans h2 h3, h4⟩

private theorem emit_split {m : EmitMethod} {nm u x : ℝ}
    (h : emitWavelength D m nm u = .ok x) :
    ∃ p, lowerLimit D m nm = .ok p ∧ D.sample (p + (1 - p) * u) = .ok (some x) := by
  unfold emitWavelength at h
  split at h
  · cases h
  · next p hp =>
    refine ⟨p, hp, ?_⟩
    split at h
    · cases h
    · cases h
    · next y hy => rw [hy]; simpa using h

private theorem limit_lookup {nm p : ℝ} (h : lowerLimit D .redshift nm = .ok p) :
    D.lookup nm = .ok (some p) := by
  simp only [lowerLimit] at h
  split at h
  · cases h
  · cases h
  · next q hq => rw [hq]; simpa using h

private theorem limit_lookup_kT {nm p : ℝ} (h : lowerLimit D .kT nm = .ok p) :
    D.lookup (thermalShift nm) = .ok (some p) := by
  simp only [lowerLimit] at h
  split at h
  · cases h
  split at h
  · cases h
  · cases h
  · next q hq => rw [hq]; simpa using h

/-- **C30** (Python, redshift). For every interpolated emission spectrum, an emitted wavelength is
never shorter than the absorbed one, and lies in the range of the spectrum. -/
theorem redshift (hD : mkDist T false = .ok D) (hpos : ∃ i < T.n, 0 < T.y i) {nm u x : ℝ}
    (h0 : 0 ≤ u) (h1 : u < 1) (h : emitWavelength D .redshift nm u = .ok x) :
    nm ≤ x ∧ T.x 0 ≤ x ∧ x ≤ T.x (T.n - 1) := by
  obtain ⟨p, hp, hs⟩ := emit_split h
  exact sample_above hD hpos h0 h1 (limit_lookup hp) hs

/-- **C30** (Python, kT). The emitted energy `1240/x` exceeds the absorbed energy by at most
`3/2 kB T` with `T = 300 K`. -/
theorem thermal_bound (hD : mkDist T false = .ok D) (hpos : ∃ i < T.n, 0 < T.y i) {nm u x : ℝ}
    (hnm : 0 < nm) (h0 : 0 ≤ u) (h1 : u < 1) (h : emitWavelength D .kT nm u = .ok x) :
    1240 / x ≤ 1240 / nm + 3 / 2 * kB * 300 ∧ T.x 0 ≤ x ∧ x ≤ T.x (T.n - 1) := by
  obtain ⟨p, hp, hs⟩ := emit_split h
  obtain ⟨a, b, c⟩ := sample_above hD hpos h0 h1 (limit_lookup_kT hp) hs
  refine ⟨?_, b, c⟩
  have hk : 0 < kB := by unfold kB; norm_num
  have he : 0 < 1240 / nm + 3 / 2 * kB * 300 := by positivity
  have hx : 0 < x := lt_of_lt_of_le (by unfold thermalShift; positivity) a
  unfold thermalShift at a
  rw [div_le_iff₀ he] at a
  rw [div_le_iff₀ hx]; linarith

/-- **C30** (Python, errors). Emission with 'redshift' fails exactly when the absorbed wavelength is
outside the emission spectrum; 'boltzmann' is not implemented. -/
theorem redshift_raises (hD : mkDist T false = .ok D) (hpos : ∃ i < T.n, 0 < T.y i) {nm u : ℝ}
    (h0 : 0 ≤ u) (h1 : u < 1) :
    ((∃ e, emitWavelength D .redshift nm u = .error e) ↔ nm < T.x 0 ∨ T.x (T.n - 1) < nm) ∧
    (∃ x, emitWavelength D .full nm u = .ok x) ∧
    emitWavelength D .boltzmann nm u = .error .notImplemented := by
  refine ⟨⟨?_, ?_⟩, ?_, rfl⟩
  · rintro ⟨e, he⟩
    by_contra hc
    push Not at hc
    obtain ⟨p, y, hl, hp0, hp1, -⟩ := Dist.sample_lookup hD hpos hc.1 hc.2
    have hs := Dist.sample_eq hD hpos (p := p + (1 - p) * u) (by nlinarith) (by nlinarith)
    simp [emitWavelength, lowerLimit, hl, hs] at he
  · intro hc
    have := ((Dist.out_of_range_raises hD nm 0).1).2 hc
    exact ⟨.valueError, by simp [emitWavelength, lowerLimit, this]⟩
  · have hs := Dist.sample_eq hD hpos (p := 0 + (1 - 0) * u) (by linarith) (by linarith)
    exact ⟨interp T.cdf T.x T.n (0 + (1 - 0) * u), by simp only [emitWavelength, lowerLimit, hs]⟩

/-- **C30** (Python, histograms). With histogram spectra the law holds if every bin is occupied. -/
theorem redshift_hist (hD : mkDist T true = .ok D) (hpos : ∀ i < T.n, 0 < T.y i) {nm u x : ℝ}
    (h0 : 0 ≤ u) (h1 : u < 1) (h : emitWavelength D .redshift nm u = .ok x) : nm ≤ x := by
  obtain ⟨p, hp, hs⟩ := emit_split h
  have hl := limit_lookup hp
  have hr : T.x 0 ≤ nm ∧ nm ≤ T.x (T.n - 1) := by
    have := (Dist.out_of_range_raises hD nm 0).1
    rw [hl] at this
    simp only [reduceCtorEq, false_iff, not_or, not_lt] at this
    exact this
  obtain ⟨rfl, hn, hx, hy⟩ := mkDist_ok hD
  have hpos' : ∃ i < T.n, 0 < T.y i := ⟨0, by omega, hpos 0 (by omega)⟩
  have hin : T.inRange nm := by unfold Table.inRange; push Not; exact hr
  have sx := searchLeft_spec hx.mono nm
  have hm := Table.hcdf_mono hy
  set i := searchLeft T.x T.n nm with hi
  have hil : i < T.n := by
    rcases Nat.lt_or_eq_of_le sx.1 with h | h
    · exact h
    · have := sx.2.1 (T.n - 1) (by omega); linarith
  have ep : p = T.hcdf i := by
    simp only [PV.Dist.lookup, hin, not_true, if_false, if_true] at hl
    simpa using hl.symm
  have hlast := Table.hcdf_last hy hpos'
  have hp1 : p ≤ 1 := by rw [ep, ← hlast]; exact hm _ _ (by omega) (by omega)
  set g := p + (1 - p) * u with hg
  have hgp : p ≤ g := by rw [hg]; nlinarith
  have hg1 : g ≤ 1 := by rw [hg]; nlinarith
  have hp0 : 0 ≤ p := by
    rw [ep]; unfold Table.hcdf
    exact mul_nonneg (Table.hsum_nonneg hy hil) (one_div_nonneg.2 (Table.hsum_nonneg hy (by omega)))
  have strict : ∀ j < i, T.hcdf j < T.hcdf i := by
    intro j hj
    obtain ⟨k, ek⟩ := Nat.exists_eq_succ_of_ne_zero (by omega : i ≠ 0)
    have a := Table.hsum_mono hy j k (by omega) (by omega)
    have b := Table.hsum_succ T k
    have c := hpos (k + 1) (by omega)
    rw [ek]
    unfold Table.hcdf
    apply mul_lt_mul_of_pos_right _ (one_div_pos.2 (Table.hsum_pos hy hpos'))
    simp only [Nat.succ_eq_add_one]
    linarith
  have sg := searchLeft_spec hm g
  set k := searchLeft T.hcdf T.n g with hk
  have hkl : k < T.n := by
    rcases Nat.lt_or_eq_of_le sg.1 with h | h
    · exact h
    · have := sg.2.1 (T.n - 1) (by omega); linarith
  have hik : i ≤ k := by
    by_contra hlt
    push Not at hlt
    have := sg.2.2 k (le_refl _) hkl
    have := strict k hlt
    linarith
  have hng : ¬ (g < 0 ∨ 1 < g) := by push Not; exact ⟨by linarith, hg1⟩
  have ex : x = T.x k := by
    simp only [PV.Dist.sample, hng, if_false, if_true, ← hk, hkl] at hs
    simpa using hs.symm
  rw [ex]
  exact le_trans (sx.2.2 i (le_refl _) hil) (hx.mono i k hik hkl)

/-- A histogram whose last bin is empty: 400, 500, 600 nm with counts 1, 1, 0. -/
def gapHist : Table ℝ := ⟨3, fun i => 400 + 100 * i, fun i => if i < 2 then 1 else 0⟩

/-- **C30** (violated by Python for histograms with empty bins). A ray absorbed at 550 nm is always
re-emitted at 500 nm with 'redshift'. -/
theorem redshift_hist_violated : mkDist gapHist true = .ok (.table gapHist true) ∧
    ∀ u : ℝ, 0 ≤ u → u < 1 → emitWavelength (.table gapHist true) .redshift 550 u = .ok 500 := by
  constructor
  · unfold mkDist
    rw [if_neg, if_neg (by simp [gapHist]), if_neg, if_neg (by simp [gapHist])]
    · rintro ⟨i, hi, h⟩
      simp only [gapHist] at h
      split at h <;> norm_num at h
    · rw [not_not]
      intro i hi
      simp only [gapHist]; push_cast; linarith
  · intro u h0 h1
    have s1 : searchLeft gapHist.x gapHist.n 550 = 2 := by
      norm_num [searchLeft, gapHist, List.range_succ]
    have c0 : gapHist.hcdf 0 = 1 / 2 := by
      simp only [Table.hcdf, Table.hsum, gapHist, Finset.sum_range_succ, Finset.sum_range_zero]
      norm_num
    have c1 : gapHist.hcdf 1 = 1 := by
      simp only [Table.hcdf, Table.hsum, gapHist, Finset.sum_range_succ, Finset.sum_range_zero]
      norm_num
    have c2 : gapHist.hcdf 2 = 1 := by
      simp only [Table.hcdf, Table.hsum, gapHist, Finset.sum_range_succ, Finset.sum_range_zero]
      norm_num
    have s2 : searchLeft gapHist.hcdf gapHist.n 1 = 1 := by
      have : gapHist.n = 3 := rfl
      norm_num [searchLeft, this, List.range_succ, c0, c1, c2]
    have hin : gapHist.inRange 550 := by norm_num [Table.inRange, gapHist]
    have hl : (PV.Dist.table gapHist true).lookup 550 = .ok (some 1) := by
      simp [PV.Dist.lookup, hin, s1, c2]
    have hs : (PV.Dist.table gapHist true).sample 1 = .ok (some 500) := by
      have : gapHist.n = 3 := rfl
      have x1 : gapHist.x 1 = 500 := by norm_num [gapHist]
      rw [this] at s2
      simp [PV.Dist.sample, s2, this, x1, not_lt.2 (zero_le_one (α := ℝ))]
    simp [emitWavelength, lowerLimit, hl, hs]

/-! Engine. -/

private theorem reads_eq (f : ℕ → ℝ) (n : ℕ) : ∀ i < n, reads f n i = some (f i) := by
  intro i hi; simp [reads, hi]

/-- **C30** (agreement). If the (shifted) wavelength is inside the spectrum and the lower limit or the
number drawn is positive, the engine emits the same wavelength as Python. -/
theorem engine_eq_python_emit (hD : mkDist T false = .ok D) (hpos : ∃ i < T.n, 0 < T.y i)
    {m : EmitMethod} {nm u x : ℝ} (h1 : u < 1)
    (hg : ∀ p, lowerLimit D m nm = .ok p → 0 < p + (1 - p) * u)
    (h : emitWavelength D m nm u = .ok x) : kEmitWavelength T m nm u = some x := by
  obtain ⟨p, hp, hs⟩ := emit_split h
  have hg' := hg p hp
  have hD' := hD
  obtain ⟨rfl, hn, hx, hy⟩ := mkDist_ok hD
  have hc := Table.cdf_mono hy hn
  have hl := Table.cdf_last hy hn hpos
  have look : ∀ z, (PV.Dist.table T false).lookup z = .ok (some p) →
      kInterp z (reads T.x T.n) (reads T.cdf T.n) T.n = some p ∧ p ≤ 1 := by
    intro z hz
    have hr : T.x 0 ≤ z ∧ z ≤ T.x (T.n - 1) := by
      have := (Dist.out_of_range_raises hD' z 0).1
      rw [hz] at this
      simp only [reduceCtorEq, false_iff, not_or, not_lt] at this
      exact this
    have e := Dist.kInterp_eq_numpy T.x T.cdf T.n (by omega) hx.mono _ _ (reads_eq _ _)
      (reads_eq _ _) z (.inr ⟨hr.1, hx⟩) hr.2
    have := Dist.lookup_eq hD' hr.1 hr.2
    rw [hz] at this
    obtain ⟨_, _, q⟩ := Dist.cdf_is_cdf hD' hpos
    obtain ⟨a, b, ha, hb, -, -, h1⟩ := q z z hr.1 le_rfl hr.2
    rw [hz] at ha hb
    obtain rfl : p = b := by simpa using hb
    refine ⟨?_, h1⟩
    rw [e, npInterp_eq hr.1 hr.2]
    simpa using this.symm
  have samp : p ≤ 1 → kInterp (p + (1 - p) * u) (reads T.cdf T.n) (reads T.x T.n) T.n = some x := by
    intro hp1
    have hle : p + (1 - p) * u ≤ 1 := by nlinarith
    rw [Dist.kInterp_eq_numpy T.cdf T.x T.n (by omega) hc _ _ (reads_eq _ _) (reads_eq _ _) _
      (.inl (by rw [Table.cdf_zero]; exact hg')) (by rw [hl]; exact hle)]
    have e := Dist.sample_eq hD' hpos hg'.le hle
    rw [hs] at e
    rw [npInterp_eq (by rw [Table.cdf_zero]; exact hg'.le) (by rw [hl]; exact hle)]
    simpa using e.symm
  cases m with
  | kT =>
    have := look _ (limit_lookup_kT hp)
    have e : (1240 / (1240 / nm + 1.5 * kB * 300) : ℝ) = thermalShift nm := by
      unfold thermalShift; norm_num
    simp only [kEmitWavelength, reduceCtorEq, if_false, if_true, e, this.1, Option.bind_some,
      samp this.2]
  | boltzmann => cases hp
  | redshift =>
    have := look _ (limit_lookup hp)
    simp only [kEmitWavelength, reduceCtorEq, if_false, this.1, Option.bind_some, samp this.2]
  | full =>
    simp only [lowerLimit, Except.ok.injEq] at hp
    subst hp
    simpa [kEmitWavelength] using samp zero_le_one
  | other => cases hp

/-- **C33**. The coefficient of a component in the engine is the one of its absorption spectrum,
constant or sampled. -/
theorem engine_coefficient {D : PV.Dist ℝ} (hD : (∃ y, D = .const y) ∨ ∃ T, mkDist T false = .ok D)
    {w c : ℝ} (h : D.call w = .ok (some c)) :
    ∃ T, compileDist D = some T ∧ kCoefficient T w = some c := by
  rcases hD with ⟨y, rfl⟩ | ⟨T, hD⟩
  · refine ⟨_, rfl, ?_⟩
    obtain rfl : y = c := by simpa [PV.Dist.call] using h
    simp [kCoefficient, kInterp, reads]
  · have hD' := hD
    obtain ⟨rfl, hn, hx, hy⟩ := mkDist_ok hD
    refine ⟨T, rfl, ?_⟩
    have hr : T.x 0 ≤ w ∧ w ≤ T.x (T.n - 1) := by
      have := (Dist.out_of_range_raises hD' w 0).2.1
      rw [h] at this
      simp only [reduceCtorEq, false_iff, not_or, not_lt] at this
      exact this
    rw [kCoefficient, Dist.kInterp_eq_numpy T.x T.y T.n (by omega) hx.mono _ _ (reads_eq _ _)
      (reads_eq _ _) w (.inr ⟨hr.1, hx⟩) hr.2]
    simpa [PV.Dist.call, Table.inRange, hr.1, hr.2] using h

example : ∃ T, compileDist (.const 3) = some T ∧ kCoefficient T 500 = some 3 :=
  engine_coefficient (.inl ⟨3, rfl⟩) rfl

/-- **C30** (engine, what holds). For wavelengths up to the end of the spectrum and `u > 0` the engine
respects the redshift law. Missing: wavelengths above the spectrum, and `u = 0`. -/
theorem engine_redshift_partial (hD : mkDist T false = .ok D) (hpos : ∃ i < T.n, 0 < T.y i)
    {nm u x : ℝ} (h0 : 0 < u) (h1 : u < 1) (hle : nm ≤ T.x (T.n - 1))
    (h : kEmitWavelength T .redshift nm u = some x) : nm ≤ x := by
  have hD' := hD
  obtain ⟨rfl, hn, hx, hy⟩ := mkDist_ok hD
  rcases lt_or_ge nm (T.x 0) with hlt | hge
  · -- below the spectrum the lower limit is 0 and any sample is in range
    have hl := Table.cdf_last hy hn hpos
    obtain ⟨v, hv, -, h2, -⟩ := Dist.kInterp_total T.x T.cdf T.n (by omega) hx.mono _ _
      (reads_eq _ _) (reads_eq _ _) nm
    have hv0 : v = 0 := by rw [h2 hlt.le, Table.cdf_zero]
    obtain ⟨w, hw, hw1, -⟩ := Dist.kInterp_bounds T.cdf T.x T.n (by omega)
      (Table.cdf_mono hy hn) _ _ (reads_eq _ _) (reads_eq _ _) (v + (1 - v) * u) (T.x 0)
      (T.x (T.n - 1)) (fun i hi => ⟨hx.mono 0 i (by omega) hi, hx.mono i _ (by omega) (by omega)⟩)
    simp only [kEmitWavelength, reduceCtorEq, if_false, hv, Option.bind_some, hw] at h
    obtain rfl := Option.some.inj h
    linarith
  · obtain ⟨p, y, hp, hp0, hp1, -⟩ := Dist.sample_lookup hD' hpos hge hle
    have hgam : 0 < p + (1 - p) * u := by
      rcases hp0.lt_or_eq with h | rfl
      · nlinarith
      · simpa using h0
    have hs := Dist.sample_eq hD' hpos (p := p + (1 - p) * u) (by linarith) (by nlinarith)
    have he : emitWavelength (.table T false) .redshift nm u =
        .ok (interp T.cdf T.x T.n (p + (1 - p) * u)) := by
      simp only [emitWavelength, lowerLimit, hp, hs]
    have := engine_eq_python_emit hD' hpos h1 (m := .redshift) (nm := nm) (fun q hq => by
      have := limit_lookup hq
      rw [hp] at this
      obtain rfl : p = q := by simpa using this
      exact hgam) he
    rw [h] at this
    obtain rfl := Option.some.inj this
    exact (redshift hD' hpos h0.le h1 he).1

/-- **C30** (violated by the engine). Above its emission spectrum a luminophore always emits at the
end of the spectrum, a shorter wavelength than absorbed; Python raises instead. -/
theorem engine_blueshift_above (hD : mkDist T false = .ok D) (hpos : ∃ i < T.n, 0 < T.y i)
    {nm u : ℝ} (hgt : T.x (T.n - 1) < nm) :
    kEmitWavelength T .redshift nm u = some (T.x (T.n - 1)) ∧
    emitWavelength D .redshift nm u = .error .valueError := by
  have hD' := hD
  obtain ⟨rfl, hn, hx, hy⟩ := mkDist_ok hD
  have hl := Table.cdf_last hy hn hpos
  constructor
  · obtain ⟨v, hv, -, -, h3, -⟩ := Dist.kInterp_total T.x T.cdf T.n (by omega) hx.mono _ _
      (reads_eq _ _) (reads_eq _ _) nm
    have : T.x 0 ≤ T.x (T.n - 1) := hx.mono _ _ (by omega) (by omega)
    have hv1 : v = 1 := by rw [h3 (by linarith) hgt.le, hl]
    obtain ⟨w, hw, -, -, k3, -⟩ := Dist.kInterp_total T.cdf T.x T.n (by omega)
      (Table.cdf_mono hy hn) _ _ (reads_eq _ _) (reads_eq _ _) (v + (1 - v) * u)
    have hw1 : w = T.x (T.n - 1) := k3 (by rw [Table.cdf_zero, hv1]; norm_num)
      (by rw [hl, hv1]; norm_num)
    simp only [kEmitWavelength, reduceCtorEq, if_false, hv, Option.bind_some, hw, hw1]
  · have := ((Dist.out_of_range_raises hD' nm 0).1).2 (.inr hgt)
    simp [emitWavelength, lowerLimit, this]

/-- A spectrum that starts with zeros: 400, 500, 600 nm with values 0, 0, 1. -/
def lateStart : Table ℝ := ⟨3, fun i => 400 + 100 * i, fun i => if i < 2 then 0 else 1⟩

theorem lateStart_ok : mkDist lateStart false = .ok (.table lateStart false) := by
  unfold mkDist
  rw [if_neg, if_neg (by simp [lateStart]), if_neg, if_neg (by simp [lateStart])]
  · rintro ⟨i, hi, h⟩
    simp only [lateStart] at h
    split at h <;> norm_num at h
  · rw [not_not]
    intro i hi
    simp only [lateStart]; push_cast; linarith

/-- **C30** (violated by the engine at `u = 0`). A ray absorbed at 450 nm, where the emission spectrum
is still zero, is emitted at 400 nm. -/
theorem engine_blueshift_zero : kEmitWavelength lateStart .redshift 450 0 = some 400 := by
  obtain ⟨_, hn, hx, hy⟩ := mkDist_ok lateStart_ok
  have hpos : ∃ i < lateStart.n, 0 < lateStart.y i := ⟨2, by simp [lateStart], by simp [lateStart]⟩
  have x0 : lateStart.x 0 = 400 := by norm_num [lateStart]
  have x1 : lateStart.x 1 = 500 := by norm_num [lateStart]
  have x2 : lateStart.x 2 = 600 := by norm_num [lateStart]
  have c1 : lateStart.cdf 1 = 0 := by
    rw [Table.cdf_eq hy hn]; simp [Table.cum, lateStart]
  obtain ⟨v, hv, -, -, -, h4⟩ := Dist.kInterp_total lateStart.x lateStart.cdf lateStart.n (by omega)
    hx.mono _ _ (reads_eq _ _) (reads_eq _ _) 450
  have hv0 : v = 0 := by
    rw [h4 0 (by simp [lateStart]) (by rw [x0]; norm_num) (by rw [x0]; norm_num)
      (by rw [x1]; norm_num), Table.cdf_zero, c1]
    norm_num
  obtain ⟨w, hw, -, k2, -⟩ := Dist.kInterp_total lateStart.cdf lateStart.x lateStart.n (by omega)
    (Table.cdf_mono hy hn) _ _ (reads_eq _ _) (reads_eq _ _) (v + (1 - v) * 0)
  have hw0 : w = 400 := by rw [k2 (by rw [Table.cdf_zero, hv0]; norm_num), x0]
  simp only [kEmitWavelength, reduceCtorEq, if_false, hv, Option.bind_some, hw, hw0]

/-- Non-vacuity: absorbed at 550 nm, `u = 1/2`: emission succeeds in both codes. -/
example : ∃ x, emitWavelength (.table lateStart false) .redshift 550 (1 / 2) = .ok x ∧
    kEmitWavelength lateStart .redshift 550 (1 / 2) = some x := by
  have hpos : ∃ i < lateStart.n, 0 < lateStart.y i := ⟨2, by simp [lateStart], by simp [lateStart]⟩
  have hr := (redshift_raises lateStart_ok hpos (nm := 550) (u := 1 / 2) (by norm_num)
    (by norm_num)).1
  cases h : emitWavelength (.table lateStart false) .redshift 550 (1 / 2) with
  | error e => exact absurd (hr.1 ⟨e, h⟩) (by norm_num [lateStart])
  | ok x =>
    refine ⟨x, rfl, engine_eq_python_emit lateStart_ok hpos (by norm_num) ?_ h⟩
    intro p hp
    have hl := limit_lookup hp
    obtain ⟨q, y, hq, h0, -⟩ := Dist.sample_lookup lateStart_ok hpos (x := 550)
      (by norm_num [lateStart]) (by norm_num [lateStart])
    rw [hl] at hq
    obtain rfl : p = q := by simpa using hq
    linarith

example : (0 : ℝ) ≤ 3e-9 ∧ (0 : ℝ) ≤ 6e-9 ∧ (0 : ℝ) < 6e-9 + 3e-9 := by norm_num

end
end PV.Material
