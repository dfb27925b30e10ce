import Verif.Spec.Paths
import Verif.Lemmas.Chance
import Verif.Props.Sampling

/-!
C90: the chances of whole histories of light caught in an absorbing object.
-/

namespace PV.PathLaw
open PV PV.Spec MeasureTheory Set
noncomputable section
variable {ν κ : Type} [DecidableEq ν]
set_option linter.unusedSectionVars false

/-- What becomes of a ray inside the object. -/
inductive Ending
  | absorbed (k : ℕ) | left (k : ℕ) | killed
deriving DecidableEq

/-- One more reflection before. -/
def Ending.later : Ending → Ending
  | .absorbed k => .absorbed (k + 1)
  | .left k => .left (k + 1)
  | .killed => .killed

/-- The fate of a ray with `m` passes left, read off the numbers. -/
def fate (q r : ℝ) : ℕ → Numbers → Ending
  | 0, _ => .killed
  | m + 1, s =>
    if s 0 < 1 - q then .absorbed 0
    else if s 1 < r then (fate q r m (rest (rest s))).later
    else if m = 0 then .killed else .left 0

/-- The events of a fate. -/
def Ending.Tells (out : ℕ → Vec3 ℝ) : Ending → List (Step ℝ) → Prop
  | .absorbed k, es => ∃ x, (x = .nonradiative ∨ x = .react) ∧
      es.map (·.event) = List.replicate k .reflect ++ [.absorb, x]
  | .left k, es => es.map (·.event) = List.replicate k .reflect ++ [.transmit, .exit] ∧
      ∃ e, es.getLast? = some e ∧ e.ray.direction = out k
  | .killed, es => ∃ e, es.getLast? = some e ∧ e.event = .kill

variable {O : Ops ℝ ν κ Numbers}

theorem body_kill {h : HitInfo ν ℝ} {ray : Ray ℝ} (hs : Meets O ray.position ray.direction h)
    {maxsteps count : ℕ} (hc : maxsteps < count) (s : Numbers) :
    body O maxsteps none count ray s =
      ([⟨ray, .kill, { container := some (O.name h.container) }⟩], .stop) := by
  obtain ⟨xs, hx, hn⟩ := hs
  simp [body, hx, hn, hc]

theorem body_exit {h : HitInfo ν ℝ} {ray : Ray ℝ} (hs : Meets O ray.position ray.direction h)
    {maxsteps count : ℕ} (hc : count ≤ maxsteps) (hr : h.hit = O.root) (s : Numbers) :
    body O maxsteps none count ray s =
      ([⟨ray.propagate h.dist (O.refractiveIndex h.container), .exit,
            { hit := some (O.name h.hit), container := some (O.name h.container),
              adjacent := h.adjacent.map O.name }⟩], .stop) := by
  obtain ⟨xs, hx, hn⟩ := hs
  simp [body, hx, hn, hc.not_gt, beyond, hr]

theorem body_go {h : HitInfo ν ℝ} {ray : Ray ℝ} (hs : Meets O ray.position ray.direction h)
    {maxsteps count : ℕ} (hc : count ≤ maxsteps) (hr : h.hit ≠ O.root) {s s' : Numbers} {depth : Option ℝ}
    (hd : O.penetrationDepth h.container ray.wavelength s = .ok (depth, s')) :
    (∀ d, isAbsorbed depth h.dist = some d →
      body O maxsteps none count ray s = absorbBody O h.container ray d s') ∧
    (isAbsorbed depth h.dist = none →
      body O maxsteps none count ray s = surfaceBody O h ray s') := by
  obtain ⟨xs, hx, hn⟩ := hs
  constructor
  · intro d he
    simp [body, hx, hn, hc.not_gt, beyond, hr, hd, he]
  · intro he
    simp [body, hx, hn, hc.not_gt, beyond, hr, hd, he]

/-- The surface part of a pass. -/
theorem surface_splits {h : HitInfo ν ℝ} {p d back on : Vec3 ℝ} {r : ℝ} (hs : Splits O h p d back on r)
    {ray : Ray ℝ} (hp : ray.position + h.dist • ray.direction = p) (hd : ray.direction = d)
    (s : Numbers) :
    ∃ e ray', surfaceBody O h ray s = ([e], .cont ray' (rest s)) ∧ ray'.position = p ∧
      ray'.wavelength = ray.wavelength ∧ e.ray = ray' ∧
      (if s 0 < r then e.event = .reflect ∧ ray'.direction = back
        else e.event = .transmit ∧ ray'.direction = on) := by
  obtain ⟨m, hm⟩ := hs.normal
  set ray1 := ray.propagate h.dist (O.refractiveIndex h.container) with h1
  have p1 : ray1.position = p := hp
  have d1 : ray1.direction = d := hd
  unfold surfaceBody
  rw [← h1]
  dsimp only
  rw [p1, hm]
  dsimp only
  rw [hs.decides ray1 p1 d1]
  by_cases hr : s 0 < r
  · simp only [hr, decide_true, if_true]
    rw [hs.reflects ray1 p1 d1]
    exact ⟨_, _, rfl, p1, rfl, rfl, rfl, rfl⟩
  · simp only [hr, decide_false, if_false]
    rw [hs.transmits ray1 p1 d1]
    obtain ⟨a, ha⟩ := Option.ne_none_iff_exists'.1 hs.other
    rw [ha]
    exact ⟨_, _, rfl, p1, rfl, rfl, rfl, rfl⟩

/-- Once outside, a ray leaves the scene, unless its passes are used up. -/
theorem loop_outside {p d : Vec3 ℝ} {h : HitInfo ν ℝ} (hs : Meets O p d h) (hr : h.hit = O.root)
    {ray : Ray ℝ} (hp : ray.position = p) (hd : ray.direction = d) {maxsteps fuel count : ℕ}
    (s : Numbers) :
    ∃ e, loop O maxsteps none (fuel + 1) count ray s = ([e], .finished) ∧ e.ray.direction = d ∧
      e.event = if count < maxsteps then .exit else .kill := by
  unfold loop
  subst hp hd
  by_cases hc : count < maxsteps
  · rw [body_exit hs (by omega) hr]
    exact ⟨_, rfl, rfl, by rw [if_pos hc]⟩
  · rw [body_kill hs (by omega)]
    exact ⟨_, rfl, rfl, by rw [if_neg hc]⟩

theorem loop_fate {v : ν} {w a L r : ℝ} {pos dir out : ℕ → Vec3 ℝ} (hc : Caught O v L r pos dir out)
    (ha : Attenuates O v w a) (hpos : 0 < a) {maxsteps : ℕ} : ∀ (m count i : ℕ) (ray : Ray ℝ) (s : Numbers),
    count + m = maxsteps → (∀ j, 0 ≤ s j ∧ s j < 1) → ray.wavelength = w → ray.position = pos i →
    ray.direction = dir i →
    (loop O maxsteps none (m + 1) count ray s).2 = .finished ∧
    (fate (Real.exp (-(a * L))) r m s).Tells (fun k => out (i + k)) (loop O maxsteps none (m + 1) count ray s).1 := by
  intro m
  induction m with
  | zero =>
    intro count i ray s hm hu hw hp hd
    obtain ⟨h, hs, -⟩ := hc.inside i
    rw [← hp, ← hd] at hs
    unfold loop
    rw [body_kill hs (by omega)]
    exact ⟨rfl, _, rfl, rfl⟩
  | succ m ih =>
    intro count i ray s hm hu hw hp hd
    obtain ⟨h, hs, hcont, hL, hsp⟩ := hc.inside i
    have hs' := hs
    rw [← hp, ← hd] at hs'
    have hdep : O.penetrationDepth h.container ray.wavelength s =
        .ok (some (-Real.log (1 - s 0) / a), rest s) := by rw [hcont, hw]; exact ha.depth s
    obtain ⟨ga, gs⟩ := body_go (maxsteps := maxsteps) (count := count + 1) hs' (by omega) hsp.inner hdep
    unfold loop
    have habs : -Real.log (1 - s 0) / a < L ↔ s 0 < 1 - Real.exp (-(a * L)) := by
      rw [div_lt_iff₀ hpos, mul_comm, Sampling.log_lt (hu 0).2]
    simp only [isAbsorbed, hL] at ga gs
    by_cases h0 : s 0 < 1 - Real.exp (-(a * L))
    · rw [ga _ (by rw [if_pos (habs.2 h0)]), hcont]
      simp only [fate, h0, if_true]
      obtain ⟨e, e', he, h1, h2⟩ := ha.ends ray (-Real.log (1 - s 0) / a) (rest s) hw (fun j => hu (j + 1))
      rw [he]
      exact ⟨rfl, _, h2, by simp [h1]⟩
    · rw [gs (by rw [if_neg (habs.not.2 h0)])]
      simp only [fate, h0, if_false]
      obtain ⟨e, ray', hb, hp', hw', he, hev⟩ := surface_splits (ray := ray) hsp
        (by rw [hp, hd, hL, hc.next]) hd (rest s)
      rw [hb]
      dsimp only
      by_cases h1 : s 1 < r
      · have h1' : rest s 0 < r := h1
        rw [if_pos h1'] at hev
        simp only [h1, if_true]
        obtain ⟨hf, ht⟩ := ih (count + 1) (i + 1) ray' (rest (rest s)) (by omega) (fun j => hu (j + 2))
          (hw'.trans hw) hp' hev.2
        refine ⟨hf, ?_⟩
        generalize fate (Real.exp (-(a * L))) r m (rest (rest s)) = f at ht
        cases f with
        | absorbed k =>
          obtain ⟨x, hx, he'⟩ := ht
          exact ⟨x, hx, by simp [he', hev.1, List.replicate_succ]⟩
        | left k =>
          obtain ⟨he', l, hl, hd'⟩ := ht
          refine ⟨by simp [he', hev.1, List.replicate_succ], l, ?_, ?_⟩
          · rw [List.singleton_append, List.getLast?_cons, hl]; rfl
          · rw [hd']
            change out (i + 1 + k) = out (i + (k + 1))
            rw [Nat.add_assoc, Nat.add_comm 1 k]
        | killed =>
          obtain ⟨l, hl, hk⟩ := ht
          refine ⟨l, ?_, hk⟩
          rw [List.singleton_append, List.getLast?_cons, hl]; rfl
      · have h1' : ¬ rest s 0 < r := h1
        rw [if_neg h1'] at hev
        simp only [h1, if_false]
        obtain ⟨ho, hso, hro⟩ := hc.outside i
        obtain ⟨e', hl, hd', hk⟩ := loop_outside hso hro (fuel := m) (maxsteps := maxsteps)
          (count := count + 1) hp' hev.2 (rest (rest s))
        rw [hl]
        refine ⟨rfl, ?_⟩
        by_cases hm0 : m = 0
        · rw [if_pos hm0]
          rw [if_neg (by omega)] at hk
          exact ⟨e', rfl, hk⟩
        · rw [if_neg hm0]
          rw [if_pos (by omega)] at hk
          exact ⟨by simp [hev.1, hk], e', rfl, hd'⟩

/-! ### The chances of the endings -/

theorem fate_measurable (q r : ℝ) : ∀ (m : ℕ) (f : Ending), MeasurableSet {s | fate q r m s = f} := by
  intro m
  induction m with
  | zero => intro f; simp only [fate]; exact MeasurableSet.const _
  | succ m ih =>
    intro f
    have hm : ∀ f, MeasurableSet {s : Numbers | (fate q r m (rest (rest s))).later = f} := by
      intro f
      have : {s : Numbers | (fate q r m (rest (rest s))).later = f} =
          ⋃ g ∈ {g : Ending | g.later = f}, {s : Numbers | fate q r m (rest (rest s)) = g} := by
        ext s; simp
      rw [this]
      have hc : Countable Ending := by
        refine Function.Injective.countable (f := fun e : Ending =>
          match e with | .absorbed k => (0, k) | .left k => (1, k) | .killed => ((2 : ℕ), 0)) ?_
        intro a b h
        cases a <;> cases b <;> simp_all
      exact MeasurableSet.biUnion (Set.to_countable _)
        (fun g _ => (measurable_rest.comp measurable_rest) (ih g))
    have h0 : MeasurableSet {s : Numbers | s 0 < 1 - q} :=
      measurableSet_lt (measurable_pi_apply 0) measurable_const
    have h1 : MeasurableSet {s : Numbers | s 1 < r} :=
      measurableSet_lt (measurable_pi_apply 1) measurable_const
    have e : {s : Numbers | fate q r (m + 1) s = f} =
        ({s | s 0 < 1 - q} ∩ {s | Ending.absorbed 0 = f}) ∪
        ({s | s 0 < 1 - q}ᶜ ∩ (({s | s 1 < r} ∩ {s | (fate q r m (rest (rest s))).later = f}) ∪
          ({s | s 1 < r}ᶜ ∩ {s | (if m = 0 then Ending.killed else .left 0) = f}))) := by
      ext s
      simp only [fate, mem_union, mem_inter_iff, mem_compl_iff]
      by_cases a : s 0 < 1 - q <;> by_cases b : s 1 < r <;> simp [a, b]
    rw [e]
    exact (h0.inter (.const _)).union (h0.compl.inter ((h1.inter (hm f)).union (h1.compl.inter (.const _))))

/-- Two numbers that decide, and the others. -/
theorem chance_two {A B : Set ℝ} (hA : MeasurableSet A) (hB : MeasurableSet B) {E : Set Numbers}
    (hE : MeasurableSet E) :
    independent {s | s 0 ∈ A ∧ s 1 ∈ B ∧ rest (rest s) ∈ E} = uniform A * (uniform B * independent E) := by
  rw [← chance_first B hB E hE]
  exact chance_first A hA {s | s 0 ∈ B ∧ rest s ∈ E}
    (((measurable_pi_apply 0) hB).inter (measurable_rest hE))

theorem Ending.later_absorbed {f : Ending} {k : ℕ} :
    f.later = .absorbed k ↔ ∃ j, k = j + 1 ∧ f = .absorbed j := by
  cases f <;> simp [Ending.later, eq_comm]

theorem Ending.later_left {f : Ending} {k : ℕ} :
    f.later = .left k ↔ ∃ j, k = j + 1 ∧ f = .left j := by
  cases f <;> simp [Ending.later, eq_comm]

variable {q r : ℝ}

theorem ofReal_chain {x y z : ℝ} (hx : 0 ≤ x) (hy : 0 ≤ y) : ENNReal.ofReal x * (ENNReal.ofReal y *
    ENNReal.ofReal z) = ENNReal.ofReal (x * y * z) := by
  rw [← ENNReal.ofReal_mul hy, ← ENNReal.ofReal_mul hx, mul_assoc]

theorem below_measurable (c : ℝ) : MeasurableSet {u : ℝ | u < c} := measurableSet_Iio
theorem above_measurable (c : ℝ) : MeasurableSet {u : ℝ | ¬ u < c} := measurableSet_Iio.compl

theorem chance_absorbed (hq0 : 0 ≤ q) (hq1 : q ≤ 1) (hr0 : 0 ≤ r) (hr1 : r ≤ 1) : ∀ m k,
    independent {s | fate q r m s = .absorbed k} =
      if k < m then ENNReal.ofReal ((r * q) ^ k * (1 - q)) else 0 := by
  intro m
  induction m with
  | zero => intro k; simp [fate]
  | succ m ih =>
    intro k
    cases k with
    | zero =>
      have e : {s : Numbers | fate q r (m + 1) s = .absorbed 0} = {s | s 0 ∈ {u | u < 1 - q} ∧ rest s ∈ univ} := by
        ext s
        simp only [fate, mem_univ, and_true]
        by_cases a : s 0 < 1 - q
        · simp [-not_lt, a]
        · by_cases b : s 1 < r
          · simp [-not_lt, a, b, Ending.later_absorbed]
          · by_cases c : m = 0 <;> simp [-not_lt, a, b, c]
      rw [e, chance_first _ (below_measurable _) _ .univ, measure_univ, uniform_below (by linarith) (by linarith)]
      simp
    | succ k =>
      have e : {s : Numbers | fate q r (m + 1) s = .absorbed (k + 1)} =
          {s | s 0 ∈ {u | ¬ u < 1 - q} ∧ s 1 ∈ {u | u < r} ∧ rest (rest s) ∈ {s | fate q r m s = .absorbed k}} := by
        ext s
        simp only [fate]
        by_cases a : s 0 < 1 - q
        · simp [-not_lt, a]
        · by_cases b : s 1 < r
          · simp [-not_lt, a, b, Ending.later_absorbed]
          · by_cases c : m = 0 <;> simp [-not_lt, a, b, c]
      rw [e, chance_two (above_measurable _) (below_measurable _) (fate_measurable _ _ _ _), ih,
        uniform_below hr0 hr1, uniform_above (by linarith) (by linarith)]
      by_cases hk : k < m
      · rw [if_pos hk, if_pos (by omega), ofReal_chain (by linarith) hr0]
        congr 1; ring
      · rw [if_neg hk, if_neg (by omega)]; simp

theorem chance_left (hq0 : 0 ≤ q) (hq1 : q ≤ 1) (hr0 : 0 ≤ r) (hr1 : r ≤ 1) : ∀ m k,
    independent {s | fate q r m s = .left k} =
      if k + 1 < m then ENNReal.ofReal ((r * q) ^ k * (q * (1 - r))) else 0 := by
  intro m
  induction m with
  | zero => intro k; simp [fate]
  | succ m ih =>
    intro k
    cases k with
    | zero =>
      by_cases hm : m = 0
      · have e : {s : Numbers | fate q r (m + 1) s = .left 0} = ∅ := by
          ext s
          simp only [fate]
          by_cases a : s 0 < 1 - q
          · simp [-not_lt, a]
          · by_cases b : s 1 < r <;> simp [-not_lt, a, b, hm, Ending.later_left]
        rw [e, if_neg (by omega)]; simp
      · have e : {s : Numbers | fate q r (m + 1) s = .left 0} =
            {s | s 0 ∈ {u | ¬ u < 1 - q} ∧ s 1 ∈ {u | ¬ u < r} ∧ rest (rest s) ∈ univ} := by
          ext s
          simp only [fate]
          by_cases a : s 0 < 1 - q
          · simp [-not_lt, a]
          · by_cases b : s 1 < r <;> simp [-not_lt, a, b, hm, Ending.later_left]
        rw [e, chance_two (above_measurable _) (above_measurable _) .univ, measure_univ,
          uniform_above hr0 hr1, uniform_above (by linarith) (by linarith), if_pos (by omega), mul_one,
          ← ENNReal.ofReal_mul (by linarith)]
        congr 1; ring
    | succ k =>
      have e : {s : Numbers | fate q r (m + 1) s = .left (k + 1)} =
          {s | s 0 ∈ {u | ¬ u < 1 - q} ∧ s 1 ∈ {u | u < r} ∧ rest (rest s) ∈ {s | fate q r m s = .left k}} := by
        ext s
        simp only [fate]
        by_cases a : s 0 < 1 - q
        · simp [-not_lt, a]
        · by_cases b : s 1 < r
          · simp [-not_lt, a, b, Ending.later_left]
          · by_cases c : m = 0 <;> simp [-not_lt, a, b, c]
      rw [e, chance_two (above_measurable _) (below_measurable _) (fate_measurable _ _ _ _), ih,
        uniform_below hr0 hr1, uniform_above (by linarith) (by linarith)]
      by_cases hk : k + 1 < m
      · rw [if_pos hk, if_pos (by omega), ofReal_chain (by linarith) hr0]
        congr 1; ring
      · rw [if_neg hk, if_neg (by omega)]; simp

/-! ### Whole runs -/

/-- The whole run, read off the numbers. -/
theorem run_ending {v : ν} {w a L r : ℝ} {pos dir out : ℕ → Vec3 ℝ} {ray : Ray ℝ} {back : Vec3 ℝ}
    (hc : Caught O v L r pos dir out) (ha : Attenuates O v w a) (hpos : 0 < a)
    (he : Enters O r w ray (pos 0) (dir 0) back) {m : ℕ} {s : Numbers} (hu : ∀ j, 0 ≤ s j ∧ s j < 1) :
    ∃ es : List (Step ℝ), follow O (m + 2) none ray s = .ok ((ray, .generate) :: es.map fun e => (e.ray, e.event)) ∧
      if s 0 < r then es.map (·.event) = [.reflect, .exit] ∧
          ∃ e, es.getLast? = some e ∧ e.ray.direction = back
        else ∃ e es', es = e :: es' ∧ e.event = .transmit ∧
          (fate (Real.exp (-(a * L))) r (m + 1) (rest s)).Tells out es' := by
  obtain ⟨h, hs, hcl, hp, hsp⟩ := he.front
  have hdep : O.penetrationDepth h.container ray.wavelength s = .ok (none, s) := by rw [he.wave]; exact hcl s
  obtain ⟨-, gs⟩ := body_go (maxsteps := m + 2) (count := 1) hs (by omega) hsp.inner hdep
  obtain ⟨e, ray', hb, hp', hw', her, hev⟩ := surface_splits (ray := ray) hsp hp.symm rfl s
  have hl : loop O (m + 2) none (m + 2 + 1) 0 ray s =
      (e :: (loop O (m + 2) none (m + 1 + 1) 1 ray' (rest s)).1,
        (loop O (m + 2) none (m + 1 + 1) 1 ray' (rest s)).2) := by
    rw [loop, gs rfl, hb]; rfl
  have hf : ∀ l, loop O (m + 2) none (m + 1 + 1) 1 ray' (rest s) = (l, .finished) →
      follow O (m + 2) none ray s = .ok ((ray, .generate) :: (e :: l).map fun e => (e.ray, e.event)) := by
    intro l h'
    simp only [follow, stepForward, hl, h']
    rfl
  by_cases h0 : s 0 < r
  · rw [if_pos h0] at hev
    obtain ⟨ho, hso, hro⟩ := he.outside
    obtain ⟨e', hl', hd', hk⟩ := loop_outside hso hro (fuel := m + 1) (maxsteps := m + 2)
      (count := 1) hp' hev.2 (rest s)
    rw [if_pos (by omega)] at hk
    refine ⟨_, hf _ hl', ?_⟩
    rw [if_pos h0]
    exact ⟨by simp [hev.1, hk], e', rfl, hd'⟩
  · rw [if_neg h0] at hev
    obtain ⟨hfin, ht⟩ := loop_fate hc ha hpos (maxsteps := m + 2) (m + 1) 1 0 ray' (rest s) (by omega)
      (fun j => hu (j + 1)) (hw'.trans he.wave) hp' hev.2
    refine ⟨_, hf _ (Prod.ext rfl hfin), ?_⟩
    rw [if_neg h0]
    refine ⟨_, _, rfl, hev.1, ?_⟩
    simpa using ht

theorem fate_left_bound {q r : ℝ} : ∀ (m : ℕ) {s : Numbers} {k : ℕ}, fate q r m s = .left k → k + 1 < m := by
  intro m
  induction m with
  | zero => intro s k h; simp [fate] at h
  | succ m ih =>
    intro s k h
    simp only [fate] at h
    split at h
    · simp at h
    · split at h
      · obtain ⟨j, rfl, hj⟩ := Ending.later_left.1 h
        have := ih hj; omega
      · split at h
        · simp at h
        · cases h; omega

theorem fate_absorbed_bound {q r : ℝ} : ∀ (m : ℕ) {s : Numbers} {k : ℕ},
    fate q r m s = .absorbed k → k < m := by
  intro m
  induction m with
  | zero => intro s k h; simp [fate] at h
  | succ m ih =>
    intro s k h
    simp only [fate] at h
    split at h
    · cases h; omega
    · split at h
      · obtain ⟨j, rfl, hj⟩ := Ending.later_absorbed.1 h
        have := ih hj; omega
      · split at h <;> simp at h

/-- What happens for all numbers of the unit interval has the same chance. -/
theorem chance_congr {P Q : Numbers → Prop} (h : ∀ s, (∀ j, 0 ≤ s j ∧ s j < 1) → (P s ↔ Q s)) :
    chance P = chance Q := by
  apply measure_congr
  filter_upwards [in_unit] with s hs
  exact propext (h s hs)

section Laws
variable {v : ν} {w a L r : ℝ} {pos dir out : ℕ → Vec3 ℝ} {ray : Ray ℝ} {back : Vec3 ℝ}
variable (hc : Caught O v L r pos dir out) (ha : Attenuates O v w a) (hpos : 0 < a)
  (he : Enters O r w ray (pos 0) (dir 0) back)
include hc ha hpos he

theorem reflected_iff {m : ℕ} {s : Numbers} (hu : ∀ j, 0 ≤ s j ∧ s j < 1) :
    History O (m + 2) ray [.generate, .reflect, .exit] s ↔ s 0 < r := by
  obtain ⟨es, hf, hk⟩ := run_ending hc ha hpos he (m := m) hu
  constructor
  · rintro ⟨l, hl, hm⟩
    rw [hf] at hl; cases hl
    by_contra h0
    rw [if_neg h0] at hk
    obtain ⟨e, es', rfl, hev, -⟩ := hk
    simp [hev] at hm
  · intro h0
    rw [if_pos h0] at hk
    exact ⟨_, hf, by simpa [Function.comp_def] using hk.1⟩

theorem left_iff {m k : ℕ} {s : Numbers} (hu : ∀ j, 0 ≤ s j ∧ s j < 1) :
    History O (m + 2) ray ([.generate, .transmit] ++ List.replicate k .reflect ++ [.transmit, .exit]) s ↔
      ¬ s 0 < r ∧ fate (Real.exp (-(a * L))) r (m + 1) (rest s) = .left k := by
  obtain ⟨es, hf, hk⟩ := run_ending hc ha hpos he (m := m) hu
  constructor
  · rintro ⟨l, hl, hm⟩
    rw [hf] at hl; cases hl
    by_cases h0 : s 0 < r
    · rw [if_pos h0] at hk
      have hm' : es.map (·.event) = .transmit :: (List.replicate k .reflect ++ [.transmit, .exit]) := by
        simpa [Function.comp_def] using hm
      rw [hk.1] at hm'; simp at hm'
    · rw [if_neg h0] at hk
      obtain ⟨e, es', rfl, hev, ht⟩ := hk
      refine ⟨h0, ?_⟩
      have hm' : es'.map (·.event) = List.replicate k .reflect ++ [.transmit, .exit] := by
        simpa [Function.comp_def, hev] using hm
      cases hfa : fate (Real.exp (-(a * L))) r (m + 1) (rest s) with
      | absorbed j =>
        rw [hfa] at ht
        obtain ⟨x, hx, hl⟩ := ht
        have := congrArg List.getLast? (hl.symm.trans hm')
        simp at this
        subst this; simp at hx
      | left j =>
        rw [hfa] at ht
        have := congrArg List.length (ht.1.symm.trans hm')
        simp at this
        rw [this]
      | killed =>
        rw [hfa] at ht
        obtain ⟨x, hx, hl⟩ := ht
        have := congrArg List.getLast? hm'
        rw [List.getLast?_map, hx] at this
        simp [hl] at this
  · rintro ⟨h0, hfa⟩
    rw [if_neg h0, hfa] at hk
    obtain ⟨e, es', rfl, hev, ht, -⟩ := hk
    exact ⟨_, hf, by simpa [Function.comp_def, hev] using ht⟩

theorem absorbed_iff {m k : ℕ} {s : Numbers} (hu : ∀ j, 0 ≤ s j ∧ s j < 1) :
    (∃ x, (x = .nonradiative ∨ x = .react) ∧
      History O (m + 2) ray ([.generate, .transmit] ++ List.replicate k .reflect ++ [.absorb, x]) s) ↔
      ¬ s 0 < r ∧ fate (Real.exp (-(a * L))) r (m + 1) (rest s) = .absorbed k := by
  obtain ⟨es, hf, hk⟩ := run_ending hc ha hpos he (m := m) hu
  constructor
  · rintro ⟨x, hx, l, hl, hm⟩
    rw [hf] at hl; cases hl
    by_cases h0 : s 0 < r
    · rw [if_pos h0] at hk
      have hm' : es.map (·.event) = .transmit :: (List.replicate k .reflect ++ [.absorb, x]) := by
        simpa [Function.comp_def] using hm
      rw [hk.1] at hm'; simp at hm'
    · rw [if_neg h0] at hk
      obtain ⟨e, es', rfl, hev, ht⟩ := hk
      refine ⟨h0, ?_⟩
      have hm' : es'.map (·.event) = List.replicate k .reflect ++ [.absorb, x] := by
        simpa [Function.comp_def, hev] using hm
      cases hfa : fate (Real.exp (-(a * L))) r (m + 1) (rest s) with
      | absorbed j =>
        rw [hfa] at ht
        obtain ⟨y, hy, hl⟩ := ht
        have := congrArg List.length (hl.symm.trans hm')
        simp at this
        rw [this]
      | left j =>
        rw [hfa] at ht
        have := congrArg List.getLast? (ht.1.symm.trans hm')
        simp at this
        subst this; simp at hx
      | killed =>
        rw [hfa] at ht
        obtain ⟨y, hy, hl⟩ := ht
        have := congrArg List.getLast? hm'
        rw [List.getLast?_map, hy] at this
        simp [hl] at this
        subst this; simp at hx
  · rintro ⟨h0, hfa⟩
    rw [if_neg h0, hfa] at hk
    obtain ⟨e, es', rfl, hev, x, hx, ht⟩ := hk
    exact ⟨x, hx, _, hf, by simpa [Function.comp_def, hev] using ht⟩

theorem ends_iff {m : ℕ} {d : Vec3 ℝ} {s : Numbers} (hu : ∀ j, 0 ≤ s j ∧ s j < 1) :
    Ends O (m + 2) ray .exit d s ↔ (s 0 < r ∧ back = d) ∨
      (¬ s 0 < r ∧ ∃ k < m, fate (Real.exp (-(a * L))) r (m + 1) (rest s) = .left k ∧ out k = d) := by
  obtain ⟨es, hf, hk⟩ := run_ending hc ha hpos he (m := m) hu
  have key : ∀ e, es.getLast? = some e → (Ends O (m + 2) ray .exit d s ↔ e.event = .exit ∧ e.ray.direction = d) := by
    intro e hl
    have hlast : ((ray, Event.generate) :: es.map fun e => (e.ray, e.event)).getLast? = some (e.ray, e.event) := by
      rw [List.getLast?_cons, List.getLast?_map, hl]; rfl
    constructor
    · rintro ⟨l, x, h1, h2, h3⟩
      rw [hf] at h1; cases h1
      rw [hlast] at h2
      simp only [Option.some.injEq, Prod.mk.injEq] at h2
      exact ⟨h2.2, by rw [h2.1]; exact h3⟩
    · rintro ⟨h1, h2⟩
      exact ⟨_, e.ray, hf, by rw [hlast, h1], h2⟩
  by_cases h0 : s 0 < r
  · rw [if_pos h0] at hk
    obtain ⟨hev, e, hl, hd⟩ := hk
    have h1 : e.event = .exit := by
      have := congrArg List.getLast? hev
      rw [List.getLast?_map, hl] at this
      simpa using this
    rw [key e hl]
    simp [h0, h1, hd]
  · rw [if_neg h0] at hk
    obtain ⟨e0, es', rfl, hev, ht⟩ := hk
    have step : ∀ e, es'.getLast? = some e → (e0 :: es').getLast? = some e := by
      intro e h; rw [List.getLast?_cons, h]; rfl
    cases hfa : fate (Real.exp (-(a * L))) r (m + 1) (rest s) with
    | absorbed j =>
      rw [hfa] at ht
      obtain ⟨x, hx, hl⟩ := ht
      obtain ⟨e, he'⟩ : ∃ e, es'.getLast? = some e := by
        cases h : es'.getLast? with
        | some e => exact ⟨e, rfl⟩
        | none => rw [List.getLast?_eq_none_iff] at h; subst h; simp at hl
      have h1 : e.event = x := by
        have := congrArg List.getLast? hl
        rw [List.getLast?_map, he'] at this
        simpa using this
      rw [key e (step e he'), h1]
      rcases hx with rfl | rfl <;> simp [-not_lt, h0]
    | left j =>
      rw [hfa] at ht
      obtain ⟨hl, e, he', hd⟩ := ht
      have h1 : e.event = .exit := by
        have := congrArg List.getLast? hl
        rw [List.getLast?_map, he'] at this
        simpa using this
      have hj := fate_left_bound _ hfa
      rw [key e (step e he'), h1, hd]
      simp only [h0, false_and, not_false_eq_true, true_and, false_or]
      constructor
      · intro h; exact ⟨j, by omega, rfl, h⟩
      · rintro ⟨k, -, hk, h⟩; cases hk; exact h
    | killed =>
      rw [hfa] at ht
      obtain ⟨e, he', h1⟩ := ht
      rw [key e (step e he'), h1]
      simp [-not_lt, h0]

theorem caught_bounds (hr0 : 0 ≤ r) (hr1 : r ≤ 1) (hL : 0 ≤ L) :
    0 ≤ Real.exp (-(a * L)) ∧ Real.exp (-(a * L)) ≤ 1 :=
  ⟨(Real.exp_pos _).le, Real.exp_le_one_iff.2 (by nlinarith [mul_nonneg hpos.le hL])⟩

/-- Not getting in, and then `f`. -/
theorem chance_enter {m : ℕ} {f : Ending} (hr0 : 0 ≤ r) (hr1 : r ≤ 1) :
    chance (fun s => ¬ s 0 < r ∧ fate (Real.exp (-(a * L))) r (m + 1) (rest s) = f) =
      ENNReal.ofReal (1 - r) * independent {s | fate (Real.exp (-(a * L))) r (m + 1) s = f} := by
  rw [← uniform_above hr0 hr1]
  exact chance_first {u | ¬ u < r} (above_measurable r) _ (fate_measurable _ _ _ _)

/-- **C90** The light is reflected off the front with the reflectivity. -/
theorem reflected_law (hr0 : 0 ≤ r) (hr1 : r ≤ 1) (m : ℕ) :
    chance (History O (m + 2) ray [.generate, .reflect, .exit]) = ENNReal.ofReal r := by
  rw [chance_congr (Q := fun s => s 0 < r) fun s hu => reflected_iff hc ha hpos he hu,
    ← uniform_below hr0 hr1]
  have := chance_first {u | u < r} (below_measurable r) univ .univ
  simpa [chance] using this

/-- **C90** The light enters, is reflected inside `k` times and leaves with the product of the chances
of the single steps: `(1 − r) · q · (r q)ᵏ · (1 − r)`, where `q` is the Beer–Lambert transmission of
one chord. -/
theorem left_law (hr0 : 0 ≤ r) (hr1 : r ≤ 1) (hL : 0 ≤ L) {m k : ℕ} (hk : k < m) :
    chance (History O (m + 2) ray
        ([.generate, .transmit] ++ List.replicate k .reflect ++ [.transmit, .exit])) =
      ENNReal.ofReal ((1 - r) * (r * Real.exp (-(a * L))) ^ k * Real.exp (-(a * L)) * (1 - r)) := by
  obtain ⟨hq0, hq1⟩ := caught_bounds hc ha hpos he hr0 hr1 hL
  rw [chance_congr fun s hu => left_iff hc ha hpos he hu, chance_enter hc ha hpos he hr0 hr1,
    chance_left hq0 hq1 hr0 hr1, if_pos (by omega), ← ENNReal.ofReal_mul (by linarith)]
  congr 1; ring

/-- **C90** The light enters, is reflected inside `k` times and is then absorbed with the product of
the chances of the single steps. -/
theorem absorbed_law (hr0 : 0 ≤ r) (hr1 : r ≤ 1) (hL : 0 ≤ L) {m k : ℕ} (hk : k < m + 1) :
    chance (fun s => ∃ x, (x = .nonradiative ∨ x = .react) ∧ History O (m + 2) ray
        ([.generate, .transmit] ++ List.replicate k .reflect ++ [.absorb, x]) s) =
      ENNReal.ofReal ((1 - r) * (r * Real.exp (-(a * L))) ^ k * (1 - Real.exp (-(a * L)))) := by
  obtain ⟨hq0, hq1⟩ := caught_bounds hc ha hpos he hr0 hr1 hL
  rw [chance_congr fun s hu => absorbed_iff hc ha hpos he hu, chance_enter hc ha hpos he hr0 hr1,
    chance_absorbed hq0 hq1 hr0 hr1, if_pos (by omega), ← ENNReal.ofReal_mul (by linarith)]
  congr 1; ring

/-- **C90** The chance to leave the scene in a direction: the front reflection if it goes there, and
all the passes through the object whose last transmission goes there. -/
theorem ends_law (hr0 : 0 ≤ r) (hr1 : r ≤ 1) (hL : 0 ≤ L) (m : ℕ) (d : Vec3 ℝ) :
    chance (Ends O (m + 2) ray .exit d) =
      ENNReal.ofReal ((if back = d then r else 0) +
        ∑ k ∈ Finset.range m, if out k = d then
          (1 - r) * (r * Real.exp (-(a * L))) ^ k * Real.exp (-(a * L)) * (1 - r) else 0) := by
  classical
  obtain ⟨hq0, hq1⟩ := caught_bounds hc ha hpos he hr0 hr1 hL
  rw [chance_congr fun s hu => ends_iff hc ha hpos he hu]
  set q := Real.exp (-(a * L)) with hq
  have hterm : ∀ k, 0 ≤ (if out k = d then (1 - r) * (r * q) ^ k * q * (1 - r) else 0) := by
    intro k
    split
    · have : 0 ≤ (r * q) ^ k := pow_nonneg (mul_nonneg hr0 hq0) k
      have h1 : 0 ≤ 1 - r := by linarith
      positivity
    · exact le_rfl
  rw [ENNReal.ofReal_add (by split <;> simp [hr0]) (Finset.sum_nonneg fun k _ => hterm k),
    ENNReal.ofReal_sum_of_nonneg fun k _ => hterm k]
  have e : {s : Numbers | (s 0 < r ∧ back = d) ∨ (¬ s 0 < r ∧ ∃ k < m, fate q r (m + 1) (rest s) = .left k ∧ out k = d)} =
      {s | s 0 < r ∧ back = d} ∪
        ⋃ k ∈ Finset.range m, {s | (¬ s 0 < r ∧ fate q r (m + 1) (rest s) = .left k) ∧ out k = d} := by
    ext s
    simp only [mem_union, mem_iUnion, Finset.mem_range, exists_prop]
    constructor
    · rintro (h | ⟨h, k, hk, h1, h2⟩)
      · exact .inl h
      · exact .inr ⟨k, hk, ⟨h, h1⟩, h2⟩
    · rintro (h | ⟨k, hk, ⟨h, h1⟩, h2⟩)
      · exact .inl h
      · exact .inr ⟨h, k, hk, h1, h2⟩
  have hmeas : ∀ k, MeasurableSet {s : Numbers | (¬ s 0 < r ∧ fate q r (m + 1) (rest s) = .left k) ∧ out k = d} := by
    intro k
    exact ((((measurable_pi_apply 0) (above_measurable r)).inter
      (measurable_rest (fate_measurable _ _ _ _))).inter (.const _))
  unfold chance
  rw [e, measure_union, measure_biUnion_finset]
  · congr 1
    · by_cases hb : back = d
      · simp only [hb, and_true, if_true]
        rw [← uniform_below hr0 hr1]
        have := chance_first {u | u < r} (below_measurable r) univ .univ
        simpa using this
      · simp [hb]
    · refine Finset.sum_congr rfl fun k hk => ?_
      by_cases hb : out k = d
      · simp only [hb, and_true, if_true]
        have := chance_enter hc ha hpos he (m := m) (f := .left k) hr0 hr1
        rw [← hq] at this
        unfold chance at this
        rw [this, chance_left hq0 hq1 hr0 hr1, if_pos (by have := Finset.mem_range.1 hk; omega),
          ← ENNReal.ofReal_mul (by linarith)]
        congr 1; ring
      · simp [hb]
  · intro i _ j _ hij
    rw [Function.onFun, Set.disjoint_left]
    rintro s ⟨⟨-, h1⟩, -⟩ ⟨⟨-, h2⟩, -⟩
    rw [h1] at h2
    exact hij (by simpa using h2)
  · exact fun k _ => hmeas k
  · rw [Set.disjoint_left]
    rintro s ⟨h, -⟩ hs
    simp only [mem_iUnion] at hs
    obtain ⟨k, -, ⟨h', -⟩, -⟩ := hs
    exact h' h
  · exact Finset.measurableSet_biUnion _ fun k _ => hmeas k

theorem lost_iff {m : ℕ} {s : Numbers} (hu : ∀ j, 0 ≤ s j ∧ s j < 1) :
    Lost O (m + 2) ray s ↔
      ¬ s 0 < r ∧ ∃ k < m + 1, fate (Real.exp (-(a * L))) r (m + 1) (rest s) = .absorbed k := by
  obtain ⟨es, hf, hk⟩ := run_ending hc ha hpos he (m := m) hu
  have key : ∀ e, es.getLast? = some e →
      (Lost O (m + 2) ray s ↔ e.event = .nonradiative ∨ e.event = .react) := by
    intro e hl
    have hlast : ((ray, Event.generate) :: es.map fun e => (e.ray, e.event)).getLast? = some (e.ray, e.event) := by
      rw [List.getLast?_cons, List.getLast?_map, hl]; rfl
    constructor
    · rintro ⟨l, x, ev, h1, h2, h3⟩
      rw [hf] at h1; cases h1
      rw [hlast] at h2
      simp only [Option.some.injEq, Prod.mk.injEq] at h2
      rw [h2.2]; exact h3
    · intro h1
      exact ⟨_, e.ray, e.event, hf, hlast, h1⟩
  by_cases h0 : s 0 < r
  · rw [if_pos h0] at hk
    obtain ⟨hev, e, hl, hd⟩ := hk
    have h1 : e.event = .exit := by
      have := congrArg List.getLast? hev
      rw [List.getLast?_map, hl] at this
      simpa using this
    rw [key e hl]
    simp [h0, h1]
  · rw [if_neg h0] at hk
    obtain ⟨e0, es', rfl, hev, ht⟩ := hk
    have step : ∀ e, es'.getLast? = some e → (e0 :: es').getLast? = some e := by
      intro e h; rw [List.getLast?_cons, h]; rfl
    cases hfa : fate (Real.exp (-(a * L))) r (m + 1) (rest s) with
    | absorbed j =>
      rw [hfa] at ht
      obtain ⟨x, hx, hl⟩ := ht
      obtain ⟨e, he'⟩ : ∃ e, es'.getLast? = some e := by
        cases h : es'.getLast? with
        | some e => exact ⟨e, rfl⟩
        | none => rw [List.getLast?_eq_none_iff] at h; subst h; simp at hl
      have h1 : e.event = x := by
        have := congrArg List.getLast? hl
        rw [List.getLast?_map, he'] at this
        simpa using this
      rw [key e (step e he'), h1]
      exact ⟨fun _ => ⟨h0, j, fate_absorbed_bound _ hfa, rfl⟩, fun _ => hx⟩
    | left j =>
      rw [hfa] at ht
      obtain ⟨hl, e, he', hd⟩ := ht
      have h1 : e.event = .exit := by
        have := congrArg List.getLast? hl
        rw [List.getLast?_map, he'] at this
        simpa using this
      rw [key e (step e he'), h1]
      simp
    | killed =>
      rw [hfa] at ht
      obtain ⟨e, he', h1⟩ := ht
      rw [key e (step e he'), h1]
      simp

/-- **C90** The chance to be absorbed, after any number of reflections. -/
theorem lost_law (hr0 : 0 ≤ r) (hr1 : r ≤ 1) (hL : 0 ≤ L) (m : ℕ) :
    chance (Lost O (m + 2) ray) = ENNReal.ofReal (∑ k ∈ Finset.range (m + 1),
      (1 - r) * (r * Real.exp (-(a * L))) ^ k * (1 - Real.exp (-(a * L)))) := by
  obtain ⟨hq0, hq1⟩ := caught_bounds hc ha hpos he hr0 hr1 hL
  rw [chance_congr fun s hu => lost_iff hc ha hpos he hu]
  set q := Real.exp (-(a * L)) with hq
  have hterm : ∀ k, 0 ≤ (1 - r) * (r * q) ^ k * (1 - q) := by
    intro k
    have : 0 ≤ (r * q) ^ k := pow_nonneg (mul_nonneg hr0 hq0) k
    exact mul_nonneg (mul_nonneg (by linarith) this) (by linarith)
  rw [ENNReal.ofReal_sum_of_nonneg fun k _ => hterm k]
  have e : {s : Numbers | ¬ s 0 < r ∧ ∃ k < m + 1, fate q r (m + 1) (rest s) = .absorbed k} =
      ⋃ k ∈ Finset.range (m + 1), {s | ¬ s 0 < r ∧ fate q r (m + 1) (rest s) = .absorbed k} := by
    ext s
    simp only [mem_iUnion, Finset.mem_range, exists_prop]
    constructor
    · rintro ⟨h, k, hk, h1⟩; exact ⟨k, hk, h, h1⟩
    · rintro ⟨k, hk, h, h1⟩; exact ⟨h, k, hk, h1⟩
  have hmeas : ∀ k, MeasurableSet {s : Numbers | ¬ s 0 < r ∧ fate q r (m + 1) (rest s) = .absorbed k} :=
    fun k => by
      have h1 : MeasurableSet {s : Numbers | ¬ s 0 < r} :=
        (measurableSet_lt (measurable_pi_apply 0) measurable_const).compl
      have h2 : MeasurableSet {s : Numbers | fate q r (m + 1) (rest s) = .absorbed k} :=
        measurable_rest (fate_measurable q r (m + 1) (.absorbed k))
      exact h1.inter h2
  unfold chance
  rw [e, measure_biUnion_finset]
  · refine Finset.sum_congr rfl fun k hk => ?_
    have := chance_enter hc ha hpos he (m := m) (f := .absorbed k) hr0 hr1
    rw [← hq] at this
    unfold chance at this
    rw [this, chance_absorbed hq0 hq1 hr0 hr1, if_pos (Finset.mem_range.1 hk),
      ← ENNReal.ofReal_mul (by linarith)]
    congr 1; ring
  · intro i _ j _ hij
    rw [Function.onFun, Set.disjoint_left]
    rintro s ⟨-, h1⟩ ⟨-, h2⟩
    rw [h1] at h2
    exact hij (by simpa using h2)
  · exact fun k _ => hmeas k

end Laws

end
end PV.PathLaw
