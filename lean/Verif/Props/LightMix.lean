import Verif.Props.MeasurableDemo
import Verif.Props.EngineChance

/-!
**C127** Several lights: in the long run every light has the same weight.
-/

namespace PV.LightMix
open MeasureTheory Spec Measured Stream Library
open scoped ENNReal
noncomputable section
variable {n : ℕ}

/-! ### Averages of periodic sequences -/

theorem sum_periodic (a : ℕ → ℝ) (m : ℕ) : ∀ q r, r ≤ m →
    ∑ i ∈ Finset.range (m * q + r), a (i % m) = q * ∑ i ∈ Finset.range m, a i + ∑ i ∈ Finset.range r, a i := by
  have small : ∀ q r, r ≤ m → ∑ i ∈ Finset.range r, a ((m * q + i) % m) = ∑ i ∈ Finset.range r, a i := by
    intro q r hr
    refine Finset.sum_congr rfl fun i hi => ?_
    have : i < m := lt_of_lt_of_le (Finset.mem_range.1 hi) hr
    rw [Nat.mul_add_mod, Nat.mod_eq_of_lt this]
  have full : ∀ q : ℕ, ∑ i ∈ Finset.range (m * q), a (i % m) = q * ∑ i ∈ Finset.range m, a i := by
    intro q
    induction q with
    | zero => simp
    | succ q ih =>
      rw [Nat.mul_succ, Finset.sum_range_add, ih, small q m le_rfl]
      push_cast
      ring
  intro q r hr
  rw [Finset.sum_range_add, full, small q r hr]

/-- The mean of the first `k` terms is within `m / k` of the mean of a period. -/
theorem mean_periodic {a : ℕ → ℝ} (h0 : ∀ i, 0 ≤ a i) (h1 : ∀ i, a i ≤ 1) {m : ℕ} (hm : 0 < m) {k : ℕ} (hk : 0 < k) :
    |(∑ i ∈ Finset.range k, a (i % m)) / k - (∑ i ∈ Finset.range m, a i) / m| ≤ m / k := by
  have hr : k % m ≤ m := (Nat.mod_lt _ hm).le
  have e := sum_periodic a m (k / m) (k % m) hr
  rw [Nat.div_add_mod] at e
  have hk' : (0 : ℝ) < k := by exact_mod_cast hk
  have hm' : (0 : ℝ) < m := by exact_mod_cast hm
  have ek : (m : ℝ) * (k / m : ℕ) + (k % m : ℕ) = k := by exact_mod_cast Nat.div_add_mod k m
  have hb : ∀ r : ℕ, 0 ≤ ∑ i ∈ Finset.range r, a i ∧ ∑ i ∈ Finset.range r, a i ≤ r := by
    intro r
    refine ⟨Finset.sum_nonneg fun i _ => h0 i, ?_⟩
    calc ∑ i ∈ Finset.range r, a i ≤ ∑ _i ∈ Finset.range r, (1 : ℝ) := Finset.sum_le_sum fun i _ => h1 i
      _ = r := by simp
  obtain ⟨ha0, ha1⟩ := hb m
  obtain ⟨hs0, hs1⟩ := hb (k % m)
  have hrr : ((k % m : ℕ) : ℝ) ≤ m := by exact_mod_cast hr
  have hr0 : (0 : ℝ) ≤ ((k % m : ℕ) : ℝ) := by positivity
  rw [e]
  set A := ∑ i ∈ Finset.range m, a i
  set R := ∑ i ∈ Finset.range (k % m), a i
  set r : ℝ := ((k % m : ℕ) : ℝ)
  set q : ℝ := ((k / m : ℕ) : ℝ)
  have e2 : (q * A + R) / k - A / m = (m * R - r * A) / (k * m) := by
    field_simp
    rw [← ek]
    ring
  rw [e2, abs_div, abs_of_pos (mul_pos hk' hm'), div_le_div_iff₀ (mul_pos hk' hm') hk']
  have h3 : |m * R - r * A| ≤ m * m := by
    rw [abs_le]
    constructor <;> nlinarith
  nlinarith

theorem mean_limit {a : ℕ → ℝ} (h0 : ∀ i, 0 ≤ a i) (h1 : ∀ i, a i ≤ 1) {m : ℕ} (hm : 0 < m) {f : ℕ → ℝ}
    (hf : Filter.Tendsto (fun k : ℕ => f k - (∑ i ∈ Finset.range k, a (i % m)) / k) Filter.atTop (nhds 0)) :
    Filter.Tendsto f Filter.atTop (nhds ((∑ i ∈ Finset.range m, a i) / m)) := by
  have h2 : Filter.Tendsto (fun k : ℕ => (∑ i ∈ Finset.range k, a (i % m)) / (k : ℝ) - (∑ i ∈ Finset.range m, a i) / m) Filter.atTop (nhds 0) := by
    refine squeeze_zero_norm' ?_ (tendsto_const_div_atTop_nhds_zero_nat (m : ℝ))
    filter_upwards [Filter.eventually_gt_atTop 0] with k hk
    exact mean_periodic h0 h1 hm hk
  have h3 := (hf.add h2).add_const ((∑ i ∈ Finset.range m, a i) / m)
  rw [add_zero, zero_add] at h3
  refine h3.congr fun k => ?_
  ring

theorem chance_bounds (P : Numbers → Prop) : 0 ≤ (chance P).toReal ∧ (chance P).toReal ≤ 1 :=
  ⟨ENNReal.toReal_nonneg, ENNReal.toReal_le_of_le_ofReal zero_le_one (by rw [ENNReal.ofReal_one]; exact prob_le_one)⟩

/-! ### The Python tracer -/

section Python
variable (S : LScene n) (B : Trimesh) (method : EmitMethod) (maxsteps : ℕ) (maxpath : Option ℝ) (seeded : ℕ → Numbers)

/-- The chance of a fate when this is the only light of the scene. -/
def alone (L : Light.Lamp) (E : List (Ray ℝ × Event) → Prop) : ℝ :=
  (chance (Yields (throw (stage [L] S B method maxsteps maxpath seeded) 0) E)).toReal

/-- The mean over the lights. -/
def average (lamps : List Light.Lamp) (E : List (Ray ℝ × Event) → Prop) : ℝ :=
  (lamps.map fun L => alone S B method maxsteps maxpath seeded L E).sum / lamps.length

variable {S B method maxsteps maxpath seeded}

theorem throw_turn {lamps : List Light.Lamp} (i : ℕ) (hi : i % lamps.length < lamps.length) :
    throw (stage lamps S B method maxsteps maxpath seeded) i =
      throw (stage [lamps[i % lamps.length]] S B method maxsteps maxpath seeded) 0 := by
  funext s
  have h0 : lamps.length ≠ 0 := by omega
  unfold Stream.throw Simulate.emitAt
  simp only [stage, h0, if_false, List.getElem?_eq_getElem hi, List.length_singleton, Nat.zero_mod, one_ne_zero,
    List.getElem?_cons_zero]

theorem sum_lights (lamps : List Light.Lamp) (f : Light.Lamp → ℝ) (d : ℝ) :
    ∑ i ∈ Finset.range lamps.length, ((lamps[i]?).map f).getD d = (lamps.map f).sum := by
  induction lamps with
  | nil => simp
  | cons L lamps ih =>
    rw [List.length_cons, Finset.sum_range_succ', List.map_cons, List.sum_cons, add_comm]
    congr 1

theorem lights_safe {lamps : List Light.Lamp} (hne : lamps ≠ [])
    (safe : ∀ L ∈ lamps, ∀ᵐ s ∂independent, Yields (throw (stage [L] S B method maxsteps maxpath seeded) 0) (fun _ => True) s) (i : ℕ) :
    ∀ᵐ s ∂independent, Yields (throw (stage lamps S B method maxsteps maxpath seeded) i) (fun _ => True) s := by
  have hi : i % lamps.length < lamps.length := Nat.mod_lt _ (List.length_pos_iff.2 hne)
  rw [throw_turn i hi]
  exact safe _ (List.getElem_mem hi)

/-- The chances of the rays of a simulation repeat themselves from light to light. -/
theorem chance_turn {lamps : List Light.Lamp} (hne : lamps ≠ []) (E : List (Ray ℝ × Event) → Prop) (i : ℕ) :
    (chance (Yields (throw (stage lamps S B method maxsteps maxpath seeded) i) E)).toReal =
      ((lamps[i % lamps.length]?).map fun L => alone S B method maxsteps maxpath seeded L E).getD 0 := by
  have hi : i % lamps.length < lamps.length := Nat.mod_lt _ (List.length_pos_iff.2 hne)
  rw [throw_turn i hi, List.getElem?_eq_getElem hi]
  rfl

theorem turn_bounds (lamps : List Light.Lamp) (E : List (Ray ℝ × Event) → Prop) (i : ℕ) :
    0 ≤ ((lamps[i]?).map fun L => alone S B method maxsteps maxpath seeded L E).getD 0 ∧
      ((lamps[i]?).map fun L => alone S B method maxsteps maxpath seeded L E).getD 0 ≤ 1 := by
  cases lamps[i]? with
  | none => exact ⟨le_rfl, zero_le_one⟩
  | some L => exact chance_bounds _

/-- **C127** A simulation with several lights: with probability one the share of rays with a given fate tends to the mean, over the
lights, of the chance of that fate when the light is the only one. -/
theorem lights_average {lamps : List Light.Lamp} (hne : lamps ≠ []) (hl : ∀ L ∈ lamps, Honest L ∧ Measured.Regular L) (hB : BorelMesh B)
    (safe : ∀ L ∈ lamps, ∀ᵐ s ∂independent, Yields (throw (stage [L] S B method maxsteps maxpath seeded) 0) (fun _ => True) s)
    {E : List (Ray ℝ × Event) → Prop} (hE : Borel E) :
    ∀ᵐ s ∂independent, Filter.Tendsto (fun k : ℕ =>
      (tally E (Simulate.doSimulation (stage lamps S B method maxsteps maxpath seeded) k none s) : ℝ) / k)
      Filter.atTop (nhds (average S B method maxsteps maxpath seeded lamps E)) := by
  filter_upwards [share_converges (library_sound hl hB (lights_safe hne safe)) (E := E) fun i =>
    ray_decided lamps S B method maxsteps maxpath seeded (fun L h => (hl L h).2) hB hE i] with s hs
  simp only [chance_turn hne] at hs
  have h := mean_limit (fun i => (turn_bounds lamps E i).1) (fun i => (turn_bounds lamps E i).2) (List.length_pos_iff.2 hne) hs
  rwa [sum_lights] at h

/-- **C127** After `k` rays the share is within `ε + m / k` of the mean over the `m` lights, except with chance `2 exp (-2 k ε²)`. -/
theorem lights_error {lamps : List Light.Lamp} (hne : lamps ≠ []) (hl : ∀ L ∈ lamps, Honest L ∧ Measured.Regular L) (hB : BorelMesh B)
    (safe : ∀ L ∈ lamps, ∀ᵐ s ∂independent, Yields (throw (stage [L] S B method maxsteps maxpath seeded) 0) (fun _ => True) s)
    {E : List (Ray ℝ × Event) → Prop} (hE : Borel E) {k : ℕ} (hk : 0 < k) {ε : ℝ} (hε : 0 ≤ ε) :
    chance (fun s => ε + lamps.length / k ≤
      |(tally E (Simulate.doSimulation (stage lamps S B method maxsteps maxpath seeded) k none s) : ℝ) / k -
        average S B method maxsteps maxpath seeded lamps E|) ≤ ENNReal.ofReal (2 * Real.exp (-(2 * k * ε ^ 2))) := by
  refine le_trans (measure_mono fun s hs => ?_) (library_share_error hl hB (lights_safe hne safe) hE hk hε)
  have hs : ε + lamps.length / k ≤
      |(tally E (Simulate.doSimulation (stage lamps S B method maxsteps maxpath seeded) k none s) : ℝ) / k -
        average S B method maxsteps maxpath seeded lamps E| := hs
  show ε ≤ _
  simp only [chance_turn hne]
  have hp := mean_periodic (fun i => (turn_bounds (S := S) (B := B) (method := method) (maxsteps := maxsteps) (maxpath := maxpath)
    (seeded := seeded) lamps E i).1) (fun i => (turn_bounds lamps E i).2) (List.length_pos_iff.2 hne) hk
  rw [sum_lights] at hp
  have ht := abs_sub_le ((tally E (Simulate.doSimulation (stage lamps S B method maxsteps maxpath seeded) k none s) : ℝ) / k)
    ((∑ i ∈ Finset.range k, ((lamps[i % lamps.length]?).map fun L => alone S B method maxsteps maxpath seeded L E).getD 0) / k)
    (average S B method maxsteps maxpath seeded lamps E)
  have hp : |(∑ i ∈ Finset.range k, ((lamps[i % lamps.length]?).map fun L => alone S B method maxsteps maxpath seeded L E).getD 0) / k -
    average S B method maxsteps maxpath seeded lamps E| ≤ lamps.length / k := hp
  linarith

/-- **C127** The order in which the lights are listed does not change the limit. -/
theorem lights_order {lamps lamps' : List Light.Lamp} (h : lamps'.Perm lamps) (E : List (Ray ℝ × Event) → Prop) :
    average S B method maxsteps maxpath seeded lamps' E = average S B method maxsteps maxpath seeded lamps E := by
  unfold average
  rw [(h.map _).sum_eq, h.length_eq]

/-- **C127** Two groups of lights: the limit is the mean of the limits of the groups, weighted with the numbers of lights. -/
theorem lights_groups {l m : List Light.Lamp} (hl : l ≠ []) (hm : m ≠ []) (E : List (Ray ℝ × Event) → Prop) :
    (l.length + m.length : ℝ) * average S B method maxsteps maxpath seeded (l ++ m) E =
      l.length * average S B method maxsteps maxpath seeded l E + m.length * average S B method maxsteps maxpath seeded m E := by
  have h1 : (0 : ℝ) < l.length := by exact_mod_cast List.length_pos_iff.2 hl
  have h2 : (0 : ℝ) < m.length := by exact_mod_cast List.length_pos_iff.2 hm
  unfold average
  rw [List.map_append, List.sum_append, List.length_append]
  push_cast
  field_simp

end Python

/-! ### The engine -/

/-- **C127** A bundle of the engine that repeats the beams of `m` lights in turn, not logged: with probability one the share of rays
that a recorder reports tends to the mean, over the beams, of the chance that the recorder reports the beam. -/
theorem engine_average (S : LScene n) (method : EmitMethod) (T : RecTables ℝ (Fin (n + 1))) (maxsteps m : ℕ) (beams : ℕ → KRay ℝ Comp)
    {k : ℕ} (hk : 0 < k) (r : ℕ) :
    ∀ᵐ ω ∂batch, ∀ (threads : ℕ → ℕ) (es : ℕ → List (Tagged ℝ (Row ℝ (Fin (n + 1)) Comp))) (st : ℕ → TallyState ℝ),
      (∀ N, Execution N (threads N) (kRay (kOps S reader method) T maxsteps m 0 (Spec.launched (fun i => beams (i % k)) ω N)) (es N)) →
      (∀ N, engineResult T ((Mem.exec (es N)).merged (threads N)) r = some (st N)) →
      Filter.Tendsto (fun N : ℕ => ((st N).rays : ℝ) / N) Filter.atTop
        (nhds ((∑ i ∈ Finset.range k,
          (chance (fun s => Seen T r (kTraceOne (kOps S reader method) T none maxsteps (beams i) s).1)).toReal) / k)) := by
  filter_upwards [EngineChance.recorder_converges S method T maxsteps m 0 (fun i => beams (i % k)) r] with ω hω threads es st hes hst
  refine mean_limit (a := fun i => (chance (fun s => Seen T r (kTraceOne (kOps S reader method) T none maxsteps (beams i) s).1)).toReal)
    (fun i => (chance_bounds _).1) (fun i => (chance_bounds _).2) hk ?_
  have h := hω threads es st hes hst
  have e : ∀ i, EngineChance.written S method T maxsteps m 0 (fun i => beams (i % k)) i =
      fun s => (kTraceOne (kOps S reader method) T none maxsteps (beams (i % k)) s).1 := by
    intro i
    funext s
    simp [EngineChance.written, slotOf]
  simp only [e] at h
  exact h

/-! ### A bulb and a torch -/

/-- A light at the origin that shines upwards. -/
def torch : Light.Lamp := ⟨.default, .default, .default, "torch", .one⟩

theorem torch_throw (B : Trimesh) (seeded : ℕ → Numbers) (s : Numbers) :
    ∃ r : Ray ℝ, r.direction = ⟨0, 0, 1⟩ ∧ throw (stage [torch] emptyWorld B .kT 5 none seeded) 0 s =
      .ok ([(r, .generate), (r.propagate 10 1, .exit)], s) := by
  have h1 : Affine.one.point (0 : Vec3 ℝ) = 0 := by
    ext <;> simp [Affine.one, Affine.point, Affine.vec, Vec3.dot]
  have h2 : Affine.one.vec (⟨0, 0, 1⟩ : Vec3 ℝ) = ⟨0, 0, 1⟩ := by
    ext <;> simp [Affine.one, Affine.vec, Vec3.dot]
  have hl : launch torch s = .ok (⟨0, ⟨0, 0, 1⟩, 555, 0, 0, some "torch"⟩, s) := by
    have : launch torch s =
        .ok (⟨Affine.one.point (0 : Vec3 ℝ), Affine.one.vec (⟨0, 0, 1⟩ : Vec3 ℝ), 555, 0, 0, some "torch"⟩, s) := rfl
    rw [this, h1, h2]
  refine ⟨⟨0, ⟨0, 0, 1⟩, 555, 0, 0, some "torch"⟩, rfl, ?_⟩
  unfold Stream.throw Simulate.emitAt
  simp only [stage, List.length_singleton, Nat.mod_one]
  rw [if_neg (by norm_num)]
  simp only [List.getElem?_cons_zero, hl]
  exact empty_follow B _ rfl (by norm_num [Vec3.dot]) s

theorem torch_up (B : Trimesh) (seeded : ℕ → Numbers) : alone emptyWorld B .kT 5 none seeded torch Up = 1 := by
  have h : ∀ s, Yields (throw (stage [torch] emptyWorld B .kT 5 none seeded) 0) Up s := by
    intro s
    obtain ⟨r, hr, e⟩ := torch_throw B seeded s
    refine ⟨_, _, e, _, rfl, ?_⟩
    show 0 < r.direction.z
    rw [hr]
    norm_num
  unfold alone chance
  simp only [h]
  simp

/-- Of the rays of a bulb and a torch three quarters leave upwards in the long run. -/
example (seeded : ℕ → Numbers) :
    ∀ᵐ s ∂independent, Filter.Tendsto (fun k : ℕ =>
      (tally Up (Simulate.doSimulation (stage [bulb, torch] emptyWorld kBox .kT 5 none seeded) k none s) : ℝ) / k)
      Filter.atTop (nhds (3 / 4)) := by
  have h := lights_average (S := emptyWorld) (B := kBox) (method := .kT) (maxsteps := 5) (maxpath := none) (seeded := seeded)
    (lamps := [bulb, torch]) (by simp) (fun L hL => by
      simp only [List.mem_cons, List.not_mem_nil, or_false] at hL
      rcases hL with rfl | rfl
      · exact bulb_stock
      · refine ⟨⟨?_, ?_, ?_⟩, ?_, ?_, ?_⟩ <;> intro f h <;> cases h) borel_box (fun L hL => by
      simp only [List.mem_cons, List.not_mem_nil, or_false] at hL
      rcases hL with rfl | rfl
      · exact (bulb_sound kBox seeded).safe 0
      · refine ae_of_all _ fun s => ?_
        obtain ⟨r, -, e⟩ := torch_throw kBox seeded s
        exact ⟨_, _, e, trivial⟩) borel_up
  have hb : alone emptyWorld kBox .kT 5 none seeded bulb Up = 1 / 2 := by
    unfold alone
    rw [bulb_half, ENNReal.toReal_ofReal (by norm_num)]
  have e : average emptyWorld kBox .kT 5 none seeded [bulb, torch] Up = 3 / 4 := by
    unfold average
    simp only [List.map_cons, List.map_nil, hb, torch_up, List.sum_cons, List.sum_nil, List.length_cons, List.length_nil]
    norm_num
  rwa [e] at h

end
end PV.LightMix
