import Verif.Lemmas.TracerPath
import Mathlib.Data.Rat.Floor

/-!
Properties C01-C05 of the Python tracer, for every scene behaviour (`Ops`).
-/

namespace PV.Tracer
open PV Spec
set_option linter.unusedSectionVars false
variable {α ν κ σ : Type} [Field α] [LinearOrder α] [DecidableEq ν]

/-! ### A concrete scene used to show that hypotheses are met -/

/-- Slab `|z| ≤ 1` (node 1) inside a world `|z| ≤ 10` (node 0); rays along z; the random state
is a list of numbers. The slab scatters (component 0). -/
def demo : Ops ℚ (Fin 2) (Fin 1) (List ℚ) where
  root := 0
  name n := if n = 0 then "world" else "slab"
  eps := 1 / 1000
  distBetween p q := |p.z - q.z|
  intersections p d :=
    let cand : List (Fin 2 × ℚ) := [(0, -10), (0, 10), (1, -1), (1, 1)]
    let hits := cand.map fun c =>
      (⟨c.1, ⟨p.x, p.y, c.2⟩, (c.2 - p.z) / d.z⟩ : Inter (Fin 2) ℚ)
    .ok (sortedBy (·.dist) (hits.filter fun h => 1 / 1000 < h.dist))
  refractiveIndex n := if n = 0 then 1 else 3 / 2
  penetrationDepth n _ s :=
    if n = 0 then .ok (none, s) else
      match s with
      | u :: s => .ok (some (4 * |u|), s)
      | [] => .error .valueError
  component _ _ s := .ok (0, s)
  compName _ := "dye"
  compKind _ := .scatterer
  isRadiative _ _ s :=
    match s with
    | u :: s => .ok (decide (u < 1 / 2), s)
    | [] => .error .valueError
  emit _ _ r s := .ok ({ r with direction := -r.direction, source := some "dye" }, s)
  nonradiativeAbsorb _ r s := .ok ({ r with duration := r.duration + 1 }, s)
  normal _ p := .ok ⟨0, 0, if p.z < 0 then -1 else 1⟩
  isReflected _ _ _ _ s :=
    match s with
    | u :: s => .ok (decide (u < 1 / 10), s)
    | [] => .error .valueError
  reflect _ _ _ r s := .ok ({ r with direction := -r.direction }, s)
  transmit _ _ _ r s := .ok (r, s)

def demoRay : Ray ℚ := ⟨⟨0, 0, -2⟩, ⟨0, 0, 1⟩, 555, 0, 0, none⟩

/-- The events of the demo run. -/
def demoEvents (maxsteps : ℕ) (maxpath : Option ℚ) (u : List ℚ) : List Event :=
  (stepForward demo maxsteps maxpath (maxsteps + 1) demoRay u).1.map (·.event)

/-! ### C01 -/

/-- C01: every history follows the grammar, whatever the scene does, however far it is run. -/
theorem history_grammar (O : Ops α ν κ σ) (maxsteps : ℕ) (maxpath : Option α) (fuel : ℕ)
    (ray : Ray α) (s : σ) :
    Grammar ((stepForward O maxsteps maxpath fuel ray s).2 = .finished)
      ((stepForward O maxsteps maxpath fuel ray s).1.map (·.event)) :=
  (loop_tail O maxsteps maxpath fuel 0 ray s).grammar

/-- C01 for `follow`: a returned history follows the complete grammar. -/
theorem follow_grammar (O : Ops α ν κ σ) (maxsteps : ℕ) (maxpath : Option α)
    (ray : Ray α) (s : σ) (l : List (Ray α × Event))
    (h : follow O maxsteps maxpath ray s = .ok l) :
    Grammar True (l.map (·.2)) ∧ (l.head?.map (·.1)) = some ray := by
  unfold follow at h
  split at h
  · rename_i es he
    have hg := history_grammar O maxsteps maxpath (maxsteps + 1) ray s
    rw [he] at hg
    simp only [Except.ok.injEq] at h
    subst h
    have h1 : es = (stepForward O maxsteps maxpath (maxsteps + 1) ray s).1 := by rw [he]
    constructor
    · simpa [Function.comp_def] using hg
    · rw [h1]; simp [stepForward]
  · simp at h

example : demoEvents 10 none [1/8, 1/4, 1/4, 1/2, 1/2] =
    [.generate, .transmit, .absorb, .scatter, .transmit, .exit] := by decide +kernel
example : demoEvents 10 none [1/20, 1/8, 1/4] =
    [.generate, .reflect, .exit] := by decide +kernel
example : demoEvents 10 none [1/2, 1/8, 3/4] =
    [.generate, .transmit, .absorb, .nonradiative] := by decide +kernel

/-! ### C02 -/

/-- C02: the loop stops by itself: with fuel `maxsteps + 1` it never runs out, and more fuel
changes nothing. -/
theorem terminates (O : Ops α ν κ σ) (maxsteps : ℕ) (maxpath : Option α) (ray : Ray α) (s : σ) :
    (stepForward O maxsteps maxpath (maxsteps + 1) ray s).2 ≠ .outOfFuel ∧
    ∀ fuel, maxsteps + 1 ≤ fuel → stepForward O maxsteps maxpath fuel ray s
      = stepForward O maxsteps maxpath (maxsteps + 1) ray s := by
  obtain ⟨h1, h2⟩ := loop_fuel O maxsteps maxpath (maxsteps + 1) 0 ray s (by omega) (by omega)
  refine ⟨h1, fun fuel hf => ?_⟩
  obtain ⟨k, rfl⟩ := Nat.exists_eq_add_of_le hf
  simp only [stepForward, h2 k]

/-- C02: at most `2 * maxsteps + 2` events and at most `maxsteps` interactions. -/
theorem history_bounded (O : Ops α ν κ σ) (maxsteps : ℕ) (maxpath : Option α) (fuel : ℕ)
    (ray : Ray α) (s : σ) :
    let l := (stepForward O maxsteps maxpath fuel ray s).1
    l.length ≤ 2 * maxsteps + 2 ∧
      l.countP (fun e => Interaction e.event) ≤ maxsteps := by
  obtain ⟨h1, h2⟩ := loop_bounds O maxsteps maxpath fuel 0 ray s (by omega)
  simp only [stepForward, List.length_cons, interactions, Nat.sub_zero] at *
  refine ⟨by omega, ?_⟩
  rw [List.countP_cons_of_neg (by simp [Interaction])]
  exact h2

/-- C02: a run that ends without an exception ends in a terminal event, or the ray flies off
without hitting anything. -/
theorem ends_terminal_or_miss (O : Ops α ν κ σ) (maxsteps : ℕ) (maxpath : Option α) (fuel : ℕ)
    (ray : Ray α) (s : σ) (h : (stepForward O maxsteps maxpath fuel ray s).2 = .finished) :
    ∃ e, (stepForward O maxsteps maxpath fuel ray s).1.getLast? = some e ∧
      (Terminal e.event ∨ Sees O e.ray none) := by
  have key : ∀ prev : Step α, prev.ray = ray →
      ∃ e, (prev :: (loop O maxsteps maxpath fuel 0 ray s).1).getLast? = some e ∧
        (Terminal e.event ∨ Sees O e.ray none) := by
    refine loop_induct O maxsteps maxpath
      (fun _ _ ray es o => o = .finished → ∀ prev : Step α, prev.ray = ray →
        ∃ e, (prev :: es).getLast? = some e ∧ (Terminal e.event ∨ Sees O e.ray none))
      ?_ ?_ ?_ ?_ fuel 0 ray s h
    · intro _ _ h; simp at h
    · intro fuel count ray s es hp _ prev hprev
      cases hp with
      | miss hs => exact ⟨prev, rfl, .inr (hprev ▸ hs)⟩
      | kill => exact ⟨_, rfl, .inl (by simp [Terminal])⟩
      | exit => exact ⟨_, rfl, .inl (by simp [Terminal])⟩
      | decay h d comp s' s'' s''' ray' ev _ _ _ hev =>
        refine ⟨_, rfl, .inl ?_⟩
        rcases hev with ⟨rfl, _⟩ | ⟨rfl, _⟩ <;> simp [Terminal]
    · intro _ _ _ _ _ _ _ h; simp at h
    · intro fuel count ray s es ray' s' es' o hp ih ho prev _
      cases hp with
      | radiate h d comp s' s'' s''' ray' ev =>
        simpa using ih ho ⟨ray', ev, volInfo O h.container comp⟩ rfl
      | reflect h n => simpa using ih ho ⟨ray', .reflect, surfInfo O h n⟩ rfl
      | transmit h n => simpa using ih ho ⟨ray', .transmit, surfInfo O h n⟩ rfl
  exact key ⟨ray, .generate, {}⟩ rfl

/-- C02: KILL is given only after exactly `maxsteps` interactions or beyond the path limit, and
a ray that leaves through the root did so with fewer than `maxsteps` interactions. Together with
`ends_terminal_or_miss`: after `maxsteps` interactions a ray that still hits something is
killed. -/
theorem kill_reason (O : Ops α ν κ σ) (maxsteps : ℕ) (maxpath : Option α) (fuel : ℕ)
    (ray : Ray α) (s : σ) (e : Step α)
    (he : (stepForward O maxsteps maxpath fuel ray s).1.getLast? = some e) :
    let k := (stepForward O maxsteps maxpath fuel ray s).1.countP (fun e => Interaction e.event)
    (e.event = .kill → k = maxsteps ∨ ∃ m, maxpath = some m ∧ m < e.ray.travelled) ∧
    (e.event = .exit → k < maxsteps) := by
  have key : ∀ prev : Step α, prev.event ≠ .kill → prev.event ≠ .exit → ∀ e,
      (prev :: (loop O maxsteps maxpath fuel 0 ray s).1).getLast? = some e →
      let k := interactions (loop O maxsteps maxpath fuel 0 ray s).1
      (e.event = .kill → k = maxsteps - 0 ∨ ∃ m, maxpath = some m ∧ m < e.ray.travelled) ∧
      (e.event = .exit → k < maxsteps - 0) := by
    refine loop_induct O maxsteps maxpath
      (fun _ count ray es o => count ≤ maxsteps → ∀ prev : Step α, prev.event ≠ .kill →
        prev.event ≠ .exit → ∀ e, (prev :: es).getLast? = some e →
        let k := interactions es
        (e.event = .kill → k = maxsteps - count ∨ ∃ m, maxpath = some m ∧ m < e.ray.travelled) ∧
        (e.event = .exit → k < maxsteps - count))
      ?_ ?_ ?_ ?_ fuel 0 ray s (by omega)
    · intro _ _ _ prev h1 h2 e he
      simp at he; subst he; exact ⟨fun h => absurd h h1, fun h => absurd h h2⟩
    · intro fuel count ray s es hp hc prev h1 h2 e he
      cases hp with
      | miss hs =>
        simp at he; subst he; exact ⟨fun h => absurd h h1, fun h => absurd h h2⟩
      | kill h hs hk =>
        simp at he; subst he
        refine ⟨fun _ => ?_, by simp⟩
        rcases hk with hk | hk
        · left; simp [interactions, Interaction]; omega
        · right
          unfold beyond at hk
          split at hk
          · simp at hk
          · rename_i m; exact ⟨m, rfl, by simpa using hk⟩
      | exit h hl =>
        simp at he; subst he
        have := hl.steps
        refine ⟨by simp, fun _ => ?_⟩
        simp [interactions, Interaction]; omega
      | decay h d comp s' s'' s''' ray' ev _ _ _ hev =>
        simp at he; subst he
        rcases hev with ⟨rfl, _⟩ | ⟨rfl, _⟩ <;> simp
    · intro fuel count ray s es err hp hc prev h1 h2 e he
      cases hp with
      | raise =>
        simp at he; subst he; exact ⟨fun h => absurd h h1, fun h => absurd h h2⟩
      | absorbRaise => simp at he; subst he; simp
    · intro fuel count ray s es ray' s' es' o hp ih hc prev h1 h2 e he
      cases hp with
      | radiate h d comp s' s'' s''' ray' ev hA _ _ hev =>
        have hst := hA.live.steps
        have := ih (by omega) ⟨ray', ev, volInfo O h.container comp⟩
          (by rcases hev with ⟨rfl, _⟩ | ⟨rfl, _⟩ <;> simp)
          (by rcases hev with ⟨rfl, _⟩ | ⟨rfl, _⟩ <;> simp) e (by simpa using he)
        have hk : interactions ([⟨ray.propagate d (O.refractiveIndex h.container), .absorb,
            volInfo O h.container comp⟩, ⟨ray', ev, volInfo O h.container comp⟩] ++ es')
            = interactions es' + 1 := by
          rcases hev with ⟨rfl, _⟩ | ⟨rfl, _⟩ <;> simp [interactions, Interaction]
        simp only [hk] at this ⊢
        refine ⟨fun h => ?_, fun h => ?_⟩
        · rcases this.1 h with h | h
          · left; omega
          · exact .inr h
        · have := this.2 h; omega
      | reflect h n s' s'' s''' ray' hT =>
        have hst := hT.live.steps
        have := ih (by omega) ⟨ray', .reflect, surfInfo O h n⟩ (by simp) (by simp) e
          (by simpa using he)
        have hk : interactions ([⟨ray', .reflect, surfInfo O h n⟩] ++ es')
            = interactions es' + 1 := by simp [interactions, Interaction]
        simp only [hk] at this ⊢
        refine ⟨fun h => ?_, fun h => ?_⟩
        · rcases this.1 h with h | h
          · left; omega
          · exact .inr h
        · have := this.2 h; omega
      | transmit h n s' s'' s''' ray' hT =>
        have hst := hT.live.steps
        have := ih (by omega) ⟨ray', .transmit, surfInfo O h n⟩ (by simp) (by simp) e
          (by simpa using he)
        have hk : interactions ([⟨ray', .transmit, surfInfo O h n⟩] ++ es')
            = interactions es' + 1 := by simp [interactions, Interaction]
        simp only [hk] at this ⊢
        refine ⟨fun h => ?_, fun h => ?_⟩
        · rcases this.1 h with h | h
          · left; omega
          · exact .inr h
        · have := this.2 h; omega
  have hk : (stepForward O maxsteps maxpath fuel ray s).1.countP (fun e => Interaction e.event)
      = interactions (loop O maxsteps maxpath fuel 0 ray s).1 := by
    simp [stepForward, interactions, Interaction]
  rw [hk]
  exact key ⟨ray, .generate, {}⟩ (by simp) (by simp) e he

/-- Bouncing between the slab faces until the step limit: KILL after exactly 3 interactions. -/
example : demoEvents 3 none [1/2, 1, 1/20, 1, 1/20, 1] =
    [.generate, .transmit, .reflect, .reflect, .kill] := by decide +kernel
/-- A path limit kills earlier. -/
example : demoEvents 10 (some 2) [1/2, 1, 1/20, 1, 1/20, 1] =
    [.generate, .transmit, .reflect, .kill] := by decide +kernel
/-- With `maxsteps = 0` the ray is killed at once. -/
example : demoEvents 0 none [] = [.generate, .kill] := by decide +kernel
/-- A ray that hits nothing. -/
example : (stepForward demo 5 none 6 { demoRay with position := ⟨0, 0, 20⟩ } []) =
    ([⟨{ demoRay with position := ⟨0, 0, 20⟩ }, .generate, {}⟩], .finished) := by decide +kernel

/-! ### C03 -/

variable [IsStrictOrderedRing α]

/-- C03: between consecutive events the path length grows by the distance flown, the clock by
`n * d / c` in the medium named as container, plus a delay that only EMIT, NONRADIATIVE and REACT
may add; only REFLECT, TRANSMIT, ABSORB and EXIT end a flight of positive length. -/
theorem travelled_duration (O : Ops α ν κ σ) (hO : Lawful O) (maxsteps : ℕ) (maxpath : Option α)
    (fuel : ℕ) (ray : Ray α) (s : σ) (i : ℕ) (a b : Step α)
    (ha : (stepForward O maxsteps maxpath fuel ray s).1[i]? = some a)
    (hb : (stepForward O maxsteps maxpath fuel ray s).1[i + 1]? = some b) :
    ∃ (medium : ν) (d delay : α),
      b.info.container = some (O.name medium) ∧ 0 ≤ d ∧ 0 ≤ delay ∧
      b.ray.travelled = a.ray.travelled + d ∧
      b.ray.duration = a.ray.duration + O.refractiveIndex medium * d / 29979245800 + delay ∧
      (b.event ∉ [Event.reflect, .transmit, .absorb, .exit] → d = 0) ∧
      (b.event ∉ [Event.emit, .nonradiative, .react] → delay = 0) := by
  obtain ⟨n, d, delay, h1, h2, h3, h4, h5, _, h7, h8⟩ :=
    (stepForward_link O hO maxsteps maxpath fuel ray s ha hb).flight
  refine ⟨n, d, delay, h1, h2, h3, h4, h5, fun h => h7 ?_, fun h => ?_⟩
  · simpa [Flight] using h
  · simp only [List.mem_cons, List.not_mem_nil, or_false, not_or] at h
    exact h8 h.1 h.2.1 h.2.2

/-- C03: path length and clock never decrease along a history. -/
theorem monotone_clock (O : Ops α ν κ σ) (hO : Lawful O) (maxsteps : ℕ) (maxpath : Option α)
    (fuel : ℕ) (ray : Ray α) (s : σ) (i j : ℕ) (hij : i ≤ j) (a b : Step α)
    (ha : (stepForward O maxsteps maxpath fuel ray s).1[i]? = some a)
    (hb : (stepForward O maxsteps maxpath fuel ray s).1[j]? = some b) :
    a.ray.travelled ≤ b.ray.travelled ∧ a.ray.duration ≤ b.ray.duration := by
  obtain ⟨k, rfl⟩ := Nat.exists_eq_add_of_le hij
  clear hij
  induction k generalizing b with
  | zero => rw [Nat.add_zero, ha] at hb; cases hb; exact ⟨le_refl _, le_refl _⟩
  | succ k ih =>
    have hlt : i + k < (stepForward O maxsteps maxpath fuel ray s).1.length := by
      have := (List.getElem?_eq_some_iff.1 hb).1
      omega
    have hc := List.getElem?_eq_getElem hlt
    obtain ⟨h1, h2⟩ := ih _ hc
    obtain ⟨n, d, delay, _, hd, hdel, e1, e2, _⟩ :=
      travelled_duration O hO maxsteps maxpath fuel ray s (i + k) _ b hc hb
    have hn := hO.index_pos n
    have h3 : 0 ≤ O.refractiveIndex n * d / 29979245800 := by positivity
    constructor <;> linarith

/-- C03: no flight starts once the path limit is exceeded. -/
theorem killed_before_flight (O : Ops α ν κ σ) (hO : Lawful O) (maxsteps : ℕ) (m : α)
    (fuel : ℕ) (ray : Ray α) (s : σ) (i : ℕ) (a b : Step α)
    (ha : (stepForward O maxsteps (some m) fuel ray s).1[i]? = some a)
    (hb : (stepForward O maxsteps (some m) fuel ray s).1[i + 1]? = some b)
    (hm : m < a.ray.travelled) :
    b.event = .kill ∨ (a.event = .absorb ∧ Fate b.event) := by
  have hl := stepForward_link O hO maxsteps (some m) fuel ray s ha hb
  have hnf : ¬ Flight b.event := fun h => absurd (hl.path h m rfl) (not_le.2 hm)
  have hg := history_grammar O maxsteps (some m) fuel ray s
  have hb' : ((stepForward O maxsteps (some m) fuel ray s).1.map (·.event))[i + 1]?
      = some b.event := by simp [hb]
  have hfate : Fate b.event → a.event = .absorb := by
    intro h
    obtain ⟨j, hj, hja⟩ := hg.fateAbsorb _ _ hb' h
    obtain rfl : i = j := by omega
    simpa [ha] using hja
  have hgen : b.event ≠ .generate := by
    intro h
    rw [h] at hb'
    exact absurd (hg.once _ hb') (by omega)
  cases hbe : b.event <;> simp_all [Flight, Fate]

/-! ### C04 -/

/-- C04: rays travel in straight lines between events, and stay in place at EMIT, SCATTER,
NONRADIATIVE, REACT and KILL. -/
theorem straight_lines (O : Ops α ν κ σ) (hO : Lawful O) (maxsteps : ℕ) (maxpath : Option α)
    (fuel : ℕ) (ray : Ray α) (s : σ) (i : ℕ) (a b : Step α)
    (ha : (stepForward O maxsteps maxpath fuel ray s).1[i]? = some a)
    (hb : (stepForward O maxsteps maxpath fuel ray s).1[i + 1]? = some b) :
    b.ray.position = a.ray.position + (b.ray.travelled - a.ray.travelled) • a.ray.direction ∧
    (b.event ∈ [Event.emit, .scatter, .nonradiative, .react, .kill] →
      b.ray.position = a.ray.position) := by
  obtain ⟨n, d, delay, h1, h2, h3, h4, h5, h6, h7, h8⟩ :=
    (stepForward_link O hO maxsteps maxpath fuel ray s ha hb).flight
  have hd : b.ray.travelled - a.ray.travelled = d := by rw [h4]; ring
  refine ⟨by rw [hd, h6], fun h => ?_⟩
  have : d = 0 := by
    apply h7
    simp only [List.mem_cons, List.not_mem_nil, or_false] at h
    rcases h with h | h | h | h | h <;> simp [Flight, h]
  rw [h6, this, vec_add_zero_smul]

/-! ### C05 -/

/-- C05: the wavelength changes only at EMIT, the direction only at REFLECT, TRANSMIT, EMIT and
SCATTER, the source only at EMIT and SCATTER. -/
theorem what_changes (O : Ops α ν κ σ) (hO : Lawful O) (maxsteps : ℕ) (maxpath : Option α)
    (fuel : ℕ) (ray : Ray α) (s : σ) (i : ℕ) (a b : Step α)
    (ha : (stepForward O maxsteps maxpath fuel ray s).1[i]? = some a)
    (hb : (stepForward O maxsteps maxpath fuel ray s).1[i + 1]? = some b) :
    (b.ray.wavelength ≠ a.ray.wavelength → b.event = .emit) ∧
    (b.ray.direction ≠ a.ray.direction →
      b.event ∈ [Event.reflect, .transmit, .emit, .scatter]) ∧
    (b.ray.source ≠ a.ray.source → b.event ∈ [Event.emit, .scatter]) := by
  have hl := stepForward_link O hO maxsteps maxpath fuel ray s ha hb
  refine ⟨fun h => ?_, fun h => ?_, fun h => ?_⟩
  · by_contra hc; exact h (hl.wavelength hc)
  · by_contra hc
    simp only [List.mem_cons, List.not_mem_nil, or_false, not_or] at hc
    exact h (hl.direction hc.1 hc.2.1 hc.2.2.1 hc.2.2.2)
  · by_contra hc
    simp only [List.mem_cons, List.not_mem_nil, or_false, not_or] at hc
    exact h (hl.source hc.1 hc.2)

/-- Distances of forward hits are not negative. -/
theorem nextHit_dist_nonneg {eps : α} {f : Vec3 α → α} {xs : List (Inter ν α)}
    {h : HitInfo ν α} (hf : ∀ p, 0 ≤ f p) (hx : ∀ x ∈ xs, 0 ≤ x.dist)
    (hn : nextHit eps f xs = .ok (some h)) : 0 ≤ h.dist := by
  unfold nextHit at hn
  simp only at hn
  split at hn
  · simp at hn
  · rename_i x hl
    simp only [Except.ok.injEq, Option.some.injEq] at hn
    subst hn
    exact hx x (List.mem_of_mem_filter (p := fun x => ¬ |x.dist| < eps) (by rw [hl]; simp))
  · split at hn
    · simp at hn
    · simp only [Except.ok.injEq, Option.some.injEq] at hn
      subst hn
      exact hf _

/-- The demo scene is lawful, so C03-C05 apply to the histories displayed above. -/
theorem demo_lawful : Lawful demo where
  index_pos n := by simp only [demo]; split <;> norm_num
  depth_nonneg n w s d s' h := by
    simp only [demo] at h
    split at h
    · simp at h
    · split at h
      · simp only [Except.ok.injEq, Prod.mk.injEq, Option.some.injEq] at h
        obtain ⟨rfl, _⟩ := h
        positivity
      · simp at h
  dist_nonneg ray h hs := by
    obtain ⟨xs, hx, hn⟩ := hs
    refine nextHit_dist_nonneg (fun p => abs_nonneg _) ?_ hn
    simp only [demo, Except.ok.injEq] at hx
    subst hx
    intro x hxm
    rw [sortedBy, List.mem_insertionSort] at hxm
    have := (List.mem_filter.1 hxm).2
    simp only [decide_eq_true_eq] at this
    linarith
  emit n k ray s ray' s' _ h := by
    simp only [demo, Except.ok.injEq, Prod.mk.injEq] at h
    obtain ⟨rfl, _⟩ := h
    simp
  decay n k ray s ray' s' _ h := by
    simp only [demo, Except.ok.injEq, Prod.mk.injEq] at h
    obtain ⟨rfl, _⟩ := h
    exact ⟨1, by norm_num, rfl⟩
  reflect h c a ray s ray' s' h := by
    simp only [demo, Except.ok.injEq, Prod.mk.injEq] at h
    obtain ⟨rfl, _⟩ := h
    rfl
  transmit h c a ray s ray' s' h := by
    simp only [demo, Except.ok.injEq, Prod.mk.injEq] at h
    obtain ⟨rfl, _⟩ := h
    rfl

/-- A demo history in full: flight of 1 in the world, absorption after 1 in the slab (index 3/2),
scattering backwards, flight back. -/
example : ((stepForward demo 10 none 11 demoRay [1/8, 1/4, 1/4, 1/2, 1/2]).1.map
    fun e => (e.event, e.ray.position.z, e.ray.travelled, e.ray.direction.z, e.ray.source)) =
    [(.generate, -2, 0, 1, none), (.transmit, -1, 1, 1, none), (.absorb, 0, 2, 1, none),
      (.scatter, 0, 2, -1, some "dye"), (.transmit, -1, 3, -1, some "dye"),
      (.exit, -10, 12, -1, some "dye")] := by decide +kernel

end PV.Tracer
