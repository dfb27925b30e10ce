import Verif.Model.Simulate
import Verif.Props.Rng
import Verif.Props.Budget
import Mathlib.Algebra.BigOperators.Group.List.Basic
import Mathlib.Algebra.Order.BigOperators.Group.List

/-!
C22, C23, C24, C58, C59: splitting a run over workers, lights and bundles.
-/

namespace PV.Simulate
set_option linter.unusedSectionVars false
variable {ℓ ρ η σ : Type}

/-! ### C22 -/

theorem remainder_eq {n w : ℕ} (hw : 0 < w) (h : n / w ≠ 0) : remainder n w = n - n / w * w := by
  have h1 := Nat.div_mul_le_self n w
  have h2 := Nat.lt_div_mul_add (a := n) hw
  have h3 : w ≤ n / w * w := Nat.le_mul_of_pos_left _ (Nat.pos_of_ne_zero h)
  unfold remainder
  dsimp only
  split_ifs with hc
  · rw [Nat.mod_eq_sub_mod (by omega), Nat.mod_eq_of_lt (by omega)]
  · have : n / w * w = n := by omega
    rw [this, Nat.mod_self, Nat.sub_self]

/-- C22. The shares: one per worker, adding up to the number of rays, and each worker gets at least
`numRays / workers` rays. -/
theorem shares_spec {n w : ℕ} (hw : 0 < w) (h : n / w ≠ 0) :
    (shares n w).length = w ∧ (shares n w).sum = n ∧ ∀ x ∈ shares n w, n / w ≤ x := by
  obtain ⟨k, rfl⟩ : ∃ k, w = k + 1 := ⟨w - 1, by omega⟩
  have h1 := Nat.div_mul_le_self n (k + 1)
  unfold shares
  rw [List.replicate_succ]
  dsimp only
  refine ⟨by simp, ?_, ?_⟩
  · rw [remainder_eq hw h, List.sum_cons, List.sum_replicate, smul_eq_mul]
    have : n / (k + 1) * (k + 1) = n / (k + 1) * k + n / (k + 1) := by ring
    have : k * (n / (k + 1)) = n / (k + 1) * k := Nat.mul_comm _ _
    omega
  · intro x hx
    rcases List.mem_cons.1 hx with rfl | hx
    · omega
    · rw [List.eq_of_mem_replicate hx]

theorem traceFrom_length (P : Stage ℓ ρ η σ) : ∀ (k idx : ℕ) (s : σ) (hs : List η),
    traceFrom P idx k s = .ok hs → hs.length = k := by
  intro k
  induction k with
  | zero => intro idx s hs h; cases h; rfl
  | succ k ih =>
    intro idx s hs h
    unfold traceFrom at h
    cases he : emitAt P idx s with
    | error e => rw [he] at h; cases h
    | ok p =>
      rw [he] at h
      dsimp only at h
      cases ht : P.trace p.1 p.2 with
      | error e => rw [ht] at h; cases h
      | ok q =>
        rw [ht] at h
        dsimp only at h
        cases hr : traceFrom P (idx + 1) k q.2 with
        | error e => rw [hr] at h; cases h
        | ok hs' =>
          rw [hr] at h
          cases h
          rw [List.length_cons, ih _ _ _ hr]

theorem gather_length (P : Stage ℓ ρ η σ) (s : σ) : ∀ (l : List (ℕ × ℕ)) (hs : List η),
    gather P s l = .ok hs → hs.length = (l.map (·.1)).sum := by
  intro l
  induction l with
  | nil => intro hs h; cases h; rfl
  | cons p l ih =>
    intro hs h
    unfold gather at h
    cases hd : doSimulation P p.1 (some p.2) s with
    | error e => rw [hd] at h; cases h
    | ok a =>
      rw [hd] at h
      dsimp only at h
      cases hg : gather P s l with
      | error e => rw [hg] at h; cases h
      | ok b =>
        rw [hg] at h
        cases h
        rw [List.length_append, ih _ hg, List.map_cons, List.sum_cons,
          traceFrom_length P _ _ _ _ hd]

/-- C22. One history per requested ray, for every number of workers and rays. -/
theorem one_history_per_ray (P : Stage ℓ ρ η σ) (cpus numRays : ℕ) (workers seed : Option ℕ) (s : σ)
    (seeds : ℕ → ℕ) (hs : List η) (h : simulate P cpus numRays workers seed s seeds = .ok hs) :
    hs.length = numRays := by
  unfold simulate at h
  dsimp only at h
  split_ifs at h with h1 h2 h3
  · exact traceFrom_length P _ _ _ _ h
  · exact traceFrom_length P _ _ _ _ h
  · cases seed with
    | some k => cases h
    | none =>
      dsimp only at h
      have := gather_length P s _ _ h
      rw [List.map_map] at this
      rw [this]
      have e : ((fun x : ℕ × ℕ => x.1) ∘ fun p : ℕ × ℕ => (p.1, seeds p.2)) = Prod.fst := rfl
      rw [e, List.zipIdx_map_fst]
      exact (shares_spec (Nat.pos_of_ne_zero h2) h3).2.1

theorem traceFrom_ok (P : Stage ℓ ρ η σ) (hl : P.lights ≠ [])
    (he : ∀ l s, ∃ p, P.emit l s = .ok p) (ht : ∀ r s, ∃ p, P.trace r s = .ok p) :
    ∀ (k idx : ℕ) (s : σ), ∃ hs, traceFrom P idx k s = .ok hs := by
  intro k
  induction k with
  | zero => intro idx s; exact ⟨_, rfl⟩
  | succ k ih =>
    intro idx s
    have h0 : P.lights.length ≠ 0 := by simpa using hl
    have hlt := Nat.mod_lt idx (Nat.pos_of_ne_zero h0)
    obtain ⟨p, hp⟩ := he (P.lights[idx % P.lights.length]) s
    obtain ⟨q, hq⟩ := ht p.1 p.2
    obtain ⟨hs, h⟩ := ih (idx + 1) q.2
    refine ⟨q.1 :: hs, ?_⟩
    unfold traceFrom emitAt
    rw [if_neg h0, List.getElem?_eq_getElem hlt]
    dsimp only
    rw [hp]
    dsimp only
    rw [hq]
    dsimp only
    rw [h]

/-- C22. If lights and tracing do not fail, `simulate` fails in two cases only: no workers, or a seed
together with more than one process. -/
theorem fails_only (P : Stage ℓ ρ η σ) (hl : P.lights ≠ [])
    (he : ∀ l s, ∃ p, P.emit l s = .ok p) (ht : ∀ r s, ∃ p, P.trace r s = .ok p)
    (cpus numRays : ℕ) (workers seed : Option ℕ) (s : σ) (seeds : ℕ → ℕ) :
    (∃ hs, simulate P cpus numRays workers seed s seeds = .ok hs) ↔
      workers ≠ some 0 ∧ ¬ (seed.isSome ∧ 1 < workerCount cpus workers ∧
        workerCount cpus workers ≤ numRays) := by
  have hw0 : workerCount cpus workers = 0 ↔ workers = some 0 := by
    unfold workerCount
    cases workers with
    | none => simp
    | some w => simp
  unfold simulate
  dsimp only
  split_ifs with h1 h2 h3
  · have : workers ≠ some 0 := fun h => by rw [hw0.2 h] at h1; omega
    refine ⟨fun _ => ⟨this, fun h => by omega⟩, fun _ => traceFrom_ok P hl he ht _ _ _⟩
  · simp only [reduceCtorEq, exists_false, false_iff, not_and]
    intro h; exact absurd (hw0.1 h2) h
  · have : workers ≠ some 0 := fun h => h2 (hw0.2 h)
    have hlt : numRays < workerCount cpus workers := by
      rcases Nat.div_eq_zero_iff.1 h3 with h | h
      · omega
      · exact h
    refine ⟨fun _ => ⟨this, fun h => by omega⟩, fun _ => traceFrom_ok P hl he ht _ _ _⟩
  · have hle : workerCount cpus workers ≤ numRays := by
      by_contra hc
      exact h3 (Nat.div_eq_of_lt (by omega))
    have : workers ≠ some 0 := fun h => h2 (hw0.2 h)
    cases seed with
    | some k =>
      simp only [reduceCtorEq, exists_false, Option.isSome_some, true_and, false_iff, not_and,
        not_not]
      intro _; omega
    | none =>
      refine ⟨fun _ => ⟨this, fun h => by simp at h⟩, fun _ => ?_⟩
      dsimp only
      generalize (shares numRays (workerCount cpus workers)).zipIdx.map
        (fun p => (p.1, seeds p.2)) = l
      induction l with
      | nil => exact ⟨_, rfl⟩
      | cons p l ih =>
        obtain ⟨b, hb⟩ := ih
        obtain ⟨a, ha⟩ := traceFrom_ok P hl he ht p.1 0 (P.seeded p.2)
        refine ⟨a ++ b, ?_⟩
        unfold gather
        rw [show doSimulation P p.1 (some p.2) s = .ok a from ha]
        dsimp only
        rw [hb]

/-- C22. A seed with more than one process raises `ValueError`. -/
theorem seed_raises (P : Stage ℓ ρ η σ) (cpus numRays w seed : ℕ) (s : σ) (seeds : ℕ → ℕ)
    (hw : 2 ≤ w) (hn : w ≤ numRays) :
    simulate P cpus numRays (some w) (some seed) s seeds = .error .valueError := by
  unfold simulate workerCount
  dsimp only [Option.getD_some]
  rw [if_neg (by omega), if_neg (by omega), if_neg]
  have := Nat.div_pos hn (by omega)
  omega

/-- C22. A seeded run in one process is reproducible: it does not depend on the state in which
`np.random` was found, nor on the machine. -/
theorem seeded_reproducible (P : Stage ℓ ρ η σ) (cpus cpus' numRays seed : ℕ) (s s' : σ)
    (seeds seeds' : ℕ → ℕ) :
    simulate P cpus numRays (some 1) (some seed) s seeds =
      simulate P cpus' numRays (some 1) (some seed) s' seeds' := rfl

/-! ### C23 -/

/-- C23. `Scene.emit(n)` yields `n` rays and ray `i` comes from light `i mod L`. -/
theorem lights_in_rotation (P : Stage ℓ ρ η σ) : ∀ (n idx : ℕ) (s s' : σ) (rays : List ρ),
    emitFrom P idx n s = .ok (rays, s') →
    rays.length = n ∧ ∀ (i : ℕ) (ray : ρ), rays[i]? = some ray →
      ∃ l t t', P.lights[(idx + i) % P.lights.length]? = some l ∧ P.emit l t = .ok (ray, t') := by
  intro n
  induction n with
  | zero => intro idx s s' rays h; cases h; simp
  | succ n ih =>
    intro idx s s' rays h
    unfold emitFrom at h
    cases he : emitAt P idx s with
    | error e => rw [he] at h; cases h
    | ok p =>
      rw [he] at h
      dsimp only at h
      cases hr : emitFrom P (idx + 1) n p.2 with
      | error e => rw [hr] at h; cases h
      | ok q =>
        rw [hr] at h
        cases h
        obtain ⟨h1, h2⟩ := ih _ _ _ _ hr
        refine ⟨by rw [List.length_cons, h1], fun i ray hi => ?_⟩
        cases i with
        | succ i =>
          rw [List.getElem?_cons_succ] at hi
          obtain ⟨l, t, t', h3, h4⟩ := h2 i ray hi
          exact ⟨l, t, t', by rw [← h3]; congr 2; omega, h4⟩
        | zero =>
          rw [List.getElem?_cons_zero] at hi
          cases hi
          unfold emitAt at he
          split_ifs at he with hc
          cases hl : P.lights[idx % P.lights.length]? with
          | none => rw [hl] at he; cases he
          | some l =>
            rw [hl] at he
            exact ⟨l, s, p.2, rfl, he⟩

theorem mem_arange {a n L k : ℕ} (hL : 0 < L) (ha : a < L) :
    k ∈ arange a n L ↔ k < n ∧ k % L = a := by
  unfold arange
  rw [List.mem_map]
  constructor
  · rintro ⟨q, hq, rfl⟩
    rw [List.mem_range, Nat.lt_div_iff_mul_lt hL] at hq
    refine ⟨by omega, by rw [Nat.add_mul_mod_self_right, Nat.mod_eq_of_lt ha]⟩
  · rintro ⟨h1, h2⟩
    refine ⟨k / L, ?_, by rw [← h2, Nat.mod_add_div']⟩
    rw [List.mem_range, Nat.lt_div_iff_mul_lt hL]
    have h3 := Nat.mod_add_div k L
    have h4 : L * (k / L) = k / L * L := Nat.mul_comm _ _
    omega

theorem foldl_assign (lights : List ℓ) (n L : ℕ) (hL : 0 < L) :
    ∀ (start : ℕ) (arr : ℕ → Option ℓ) (k : ℕ), start + lights.length ≤ L →
      ((lights.zipIdx start).foldl (fun array p => assign array (arange p.2 n L) p.1) arr) k =
        if k < n ∧ start ≤ k % L ∧ k % L < start + lights.length then lights[k % L - start]?
        else arr k := by
  induction lights with
  | nil =>
    intro start arr k _
    rw [if_neg (by rintro ⟨_, h1, h2⟩; rw [List.length_nil] at h2; omega)]; rfl
  | cons l lights ih =>
    intro start arr k hle
    rw [List.length_cons] at hle ⊢
    rw [List.zipIdx_cons, List.foldl_cons, ih _ _ _ (by omega)]
    unfold assign
    by_cases hk : k < n
    · by_cases h1 : k % L = start
      · rw [if_neg (by omega), if_pos ((mem_arange hL (by omega)).2 ⟨hk, h1⟩), if_pos (by omega), h1]
        simp
      · rw [if_neg (c := k ∈ _) (fun h => h1 ((mem_arange hL (by omega)).1 h).2)]
        by_cases h2 : start + 1 ≤ k % L ∧ k % L < start + 1 + lights.length
        · rw [if_pos ⟨hk, h2⟩, if_pos ⟨hk, by omega, by omega⟩]
          have : k % L - start = (k % L - (start + 1)) + 1 := by omega
          rw [this, List.getElem?_cons_succ]
        · rw [if_neg (by omega), if_neg (by omega)]
    · rw [if_neg (fun h => hk h.1), if_neg (fun h => hk ((mem_arange hL (by omega)).1 h).1),
        if_neg (fun h => hk h.1)]

/-- C23. `emit_bundle` fills row `k` from the light that emits ray `k` of `Scene.emit`. -/
theorem bundle_same_light (lights : List ℓ) (numRays k : ℕ) (hk : k < numRays) :
    bundleLights lights numRays k = lights[k % lights.length]? := by
  cases lights with
  | nil => rfl
  | cons l ls =>
    unfold bundleLights
    have hL : 0 < (l :: ls).length := by simp
    rw [foldl_assign (l :: ls) numRays _ hL 0 _ k (by omega),
      if_pos ⟨hk, by omega, by have := Nat.mod_lt k hL; omega⟩, Nat.sub_zero]

/-- C23. Light `j` of `L` gets `n / L` of `n` rays, one more if `j < n % L`. -/
theorem rays_per_light (n L j : ℕ) (hj : j < L) :
    ((List.range n).filter fun i => i % L = j).length = n / L + if j < n % L then 1 else 0 := by
  induction n with
  | zero => simp
  | succ n ih =>
    rw [List.range_succ, List.filter_append, List.length_append, ih]
    have hL : 0 < L := by omega
    have hm := Nat.mod_lt n hL
    have hd := Nat.div_add_mod n L
    by_cases hc : n % L + 1 = L
    · obtain ⟨h2, h1⟩ := (Nat.div_mod_unique (a := n + 1) (d := n / L + 1) (c := 0) hL).2
        ⟨by rw [Nat.mul_add]; omega, hL⟩
      rw [h1, h2]
      by_cases hx : n % L = j
      · rw [if_neg (by omega), if_neg (by omega)]; simp [hx]
      · rw [if_pos (by omega), if_neg (by omega)]; simp [hx]
    · obtain ⟨h2, h1⟩ := (Nat.div_mod_unique (a := n + 1) (d := n / L) (c := n % L + 1) hL).2
        ⟨by omega, by omega⟩
      rw [h1, h2]
      by_cases hx : n % L = j
      · rw [if_neg (by omega), if_pos (by omega)]; simp [hx]
      · have : (j < n % L) ↔ (j < n % L + 1) := by omega
        simp [hx, this]

/-! Two lights, five rays: rows and rays 0, 2, 4 belong to the first light. -/

/-- Rays and histories are the names of the lights. -/
def twoLights : Stage String String String ℕ where
  lights := ["a", "b"]
  emit l s := .ok (l, s + 1)
  trace r s := .ok (r ++ toString s, s + 1)
  seeded k := k

example : emitFrom twoLights 0 5 0 = .ok (["a", "b", "a", "b", "a"], 5) ∧
    (List.range 5).map (bundleLights twoLights.lights 5) =
      [some "a", some "b", some "a", some "b", some "a"] := ⟨rfl, rfl⟩

example : simulate twoLights 8 5 (some 2) none 0 (fun i => 10 * i) =
    .ok ["a1", "b3", "a5", "a11", "b13"] := by decide +kernel
example : shares 5 2 = [3, 2] ∧ simulate twoLights 8 5 (some 2) (some 1) 0 id = .error .valueError ∧
    simulate twoLights 8 1 (some 2) (some 1) 0 id = .ok ["a2"] := by decide +kernel

/-! ### C58 -/

/-- C58 is violated: every worker starts again with the first light. Two rays on two workers both
come from light `a`, on one worker they come from `a` and `b`. -/
theorem workers_restart_rotation :
    simulate twoLights 8 2 (some 2) none 0 (fun i => 10 * i) = .ok ["a1", "a11"] ∧
    simulate twoLights 8 2 (some 1) none 0 (fun i => 10 * i) = .ok ["a1", "b3"] := by decide +kernel

/-- C58 is violated by `simulate_stream`: with bundles of one ray only the first light is used. -/
theorem bundles_restart_rotation :
    ((stream 4 1 0 9 0).1.flatMap fun p =>
      (List.range p.1).map (bundleLights twoLights.lights p.1)) =
      [some "a", some "a", some "a", some "a"] ∧
    (List.range 4).map (bundleLights twoLights.lights 4) =
      [some "a", some "b", some "a", some "b"] := by decide +kernel

/-- Without lights `Scene.emit` raises and `emit_bundle` leaves its rows empty (zero directions). -/
theorem no_lights (P : Stage ℓ ρ η σ) (h : P.lights = []) (s : σ) (n k : ℕ) :
    emitFrom P 0 (n + 1) s = .error .zeroDivision ∧ bundleLights P.lights n k = none := by
  unfold emitFrom emitAt
  rw [h]
  exact ⟨rfl, rfl⟩

/-! ### C59 -/

theorem traceFrom_prefix (P : Stage ℓ ρ η σ) : ∀ (k idx : ℕ) (s : σ) (n : ℕ) (a b : List η),
    traceFrom P idx (k + n) s = .ok a → traceFrom P idx k s = .ok b → b <+: a := by
  intro k
  induction k with
  | zero => intro idx s n a b _ h; cases h; exact List.nil_prefix
  | succ k ih =>
    intro idx s n a b ha hb
    rw [Nat.succ_add] at ha
    unfold traceFrom at ha hb
    cases he : emitAt P idx s with
    | error e => rw [he] at hb; cases hb
    | ok p =>
      rw [he] at ha hb
      dsimp only at ha hb
      cases ht : P.trace p.1 p.2 with
      | error e => rw [ht] at hb; cases hb
      | ok q =>
        rw [ht] at ha hb
        dsimp only at ha hb
        cases h1 : traceFrom P (idx + 1) (k + n) q.2 with
        | error e => rw [h1] at ha; cases ha
        | ok a' =>
          cases h2 : traceFrom P (idx + 1) k q.2 with
          | error e => rw [h2] at hb; cases hb
          | ok b' =>
            rw [h1] at ha
            rw [h2] at hb
            cases ha; cases hb
            exact List.cons_prefix_cons.2 ⟨rfl, ih _ _ _ _ _ h1 h2⟩

/-- C59 is violated: the seeds of the workers are drawn independently and not compared. If two of
them agree, the second worker repeats the rays of the first. -/
theorem equal_seeds_repeat (P : Stage ℓ ρ η σ) (cpus numRays seed : ℕ) (s : σ) (seeds : ℕ → ℕ)
    (h0 : seeds 0 = seed) (h1 : seeds 1 = seed) (hn : 2 ≤ numRays) (hs : List η)
    (h : simulate P cpus numRays (some 2) none s seeds = .ok hs) :
    ∃ a b, hs = a ++ b ∧ b <+: a ∧ b ≠ [] := by
  have hd : numRays / 2 ≠ 0 := by omega
  unfold simulate workerCount at h
  dsimp only [Option.getD_some] at h
  rw [if_neg (by omega), if_neg (by omega), if_neg hd] at h
  have hsh : shares numRays 2 = [numRays / 2 + remainder numRays 2, numRays / 2] := rfl
  rw [hsh] at h
  simp only [List.zipIdx_cons, List.zipIdx_nil, List.map_cons, List.map_nil, gather, h0,
    Nat.zero_add, h1] at h
  cases ha : doSimulation P (numRays / 2 + remainder numRays 2) (some seed) s with
  | error e => rw [ha] at h; cases h
  | ok a =>
    rw [ha] at h
    dsimp only at h
    cases hb : doSimulation P (numRays / 2) (some seed) s with
    | error e => rw [hb] at h; cases h
    | ok b =>
      rw [hb] at h
      simp only [List.append_nil] at h
      cases h
      refine ⟨a, b, rfl, traceFrom_prefix P _ _ _ _ _ _ ha hb, ?_⟩
      have := traceFrom_length P _ _ _ _ hb
      intro h
      rw [h] at this
      simp at this
      omega

example : simulate twoLights 8 5 (some 2) none 0 (fun _ => 7) =
    .ok ["a8", "b10", "a12", "a8", "b10"] := by decide +kernel

/-! ### C24 -/

theorem stream_spec (numRays bundle seed : ℕ) (hb : 0 < bundle) : ∀ (fuel traced : ℕ),
    traced ≤ numRays → numRays - traced < fuel →
    (stream numRays bundle seed fuel traced).2 = true ∧
    ((stream numRays bundle seed fuel traced).1.map (·.1)).sum = numRays - traced ∧
    (∀ p ∈ (stream numRays bundle seed fuel traced).1, 0 < p.1 ∧ p.1 ≤ bundle) ∧
    (stream numRays bundle seed fuel traced).1.flatMap (fun p => (List.range p.1).map (p.2 + ·)) =
      (List.range (numRays - traced)).map (seed + traced + ·) := by
  intro fuel
  induction fuel with
  | zero => intro _ _ h; omega
  | succ fuel ih =>
    intro traced ht hf
    unfold stream
    split_ifs with hc
    · have hm : 0 < min bundle (numRays - traced) := by omega
      have hm2 : min bundle (numRays - traced) ≤ numRays - traced := Nat.min_le_right _ _
      generalize hn : min bundle (numRays - traced) = n at hm hm2 ⊢
      obtain ⟨h1, h2, h3, h4⟩ := ih (traced + n) (by omega) (by omega)
      dsimp only
      refine ⟨h1, ?_, ?_, ?_⟩
      · rw [List.map_cons, List.sum_cons, h2]; omega
      · intro p hp
        rcases List.mem_cons.1 hp with rfl | hp
        · exact ⟨hm, by dsimp only; omega⟩
        · exact h3 p hp
      · rw [List.flatMap_cons, h4]
        have : numRays - traced = n + (numRays - (traced + n)) := by omega
        rw [this, List.range_add, List.map_append, List.map_map]
        congr 1
        apply List.map_congr_left
        intro k _
        simp only [Function.comp]
        omega
    · have : numRays - traced = 0 := by omega
      simp [this]

/-- C24. With a positive bundle size the loop ends, the bundles are not empty, not larger than
`bundle` and add up to the number of rays, and the seeds of the rays of all bundles are
`seed, seed + 1, …` in order. -/
theorem stream_covers (numRays bundle seed : ℕ) (hb : 0 < bundle) (fuel : ℕ) (hf : numRays < fuel) :
    let bundles := (stream numRays bundle seed fuel 0).1
    (stream numRays bundle seed fuel 0).2 = true ∧ (bundles.map (·.1)).sum = numRays ∧
    (∀ p ∈ bundles, 0 < p.1 ∧ p.1 ≤ bundle) ∧
    bundles.flatMap (fun p => (List.range p.1).map (p.2 + ·)) =
      (List.range numRays).map (seed + ·) := by
  simpa using stream_spec numRays bundle seed hb fuel 0 (by omega) (by omega)

/-- C24. The generators of the rays of all bundles are those of one bundle with the same seed. -/
theorem stream_generators (numRays bundle seed : ℕ) (hb : 0 < bundle) (fuel : ℕ)
    (hf : numRays < fuel) :
    (stream numRays bundle seed fuel 0).1.flatMap
      (fun p => (List.range p.1).map (Rng.rayState (BitVec.ofNat 64 p.2))) =
    (List.range numRays).map (Rng.rayState (BitVec.ofNat 64 seed)) := by
  have h := (stream_covers numRays bundle seed hb fuel hf).2.2.2
  have h' := congrArg (List.map fun k => Rng.seedState (BitVec.ofNat 64 k)) h
  rw [List.map_flatMap, List.map_map] at h'
  have e : ∀ k, Rng.rayState (BitVec.ofNat 64 k) =
      (fun k => Rng.seedState (BitVec.ofNat 64 k)) ∘ (k + ·) := by
    intro k; funext i
    simp only [Rng.rayState, Function.comp, BitVec.ofNat_add]
  have e2 : ∀ p : ℕ × ℕ, (List.range p.1).map (Rng.rayState (BitVec.ofNat 64 p.2)) =
      ((List.range p.1).map (p.2 + ·)).map fun k => Rng.seedState (BitVec.ofNat 64 k) := by
    intro p; rw [e, List.map_map]
  simp only [e2]
  rw [e seed, ← h']

/-! Tallies and histories of a stream. -/

section
open PV.Spec PV.EventLog PV.Budget
variable {α ν κ : Type} [Field α] [LinearOrder α] [FloorRing α] [DecidableEq ν]

/-- One traced bundle of a stream: its rays, number of threads and execution. -/
structure Part (α ν κ σ : Type) where
  bundle : List (Launch α κ σ)
  threads : ℕ
  es : List (Tagged α (Row α ν κ))

/-- Whether rays are recorded does not depend on their place in the bundle, or it does not matter
because the event budget is never reached. -/
def PlaceIndependent (K : KOps α ν κ σ) (maxsteps maxEvents recordEvery : ℕ)
    (bundle : List (Launch α κ σ)) : Prop :=
  recordEvery ≤ 1 ∨ BudgetSuffices K maxsteps maxEvents recordEvery bundle

/-- What a ray adds to the tallies. -/
def rayTallies (K : KOps α ν κ σ) (T : RecTables α ν) (maxsteps m re : ℕ) (l : Launch α κ σ) :
    List (Effect α (Row α ν κ)) :=
  (kTallies (ρ := Row α ν κ) T (callsOf
    (if re = 1 then (rayCut K maxsteps m l).1 else rayTrace K maxsteps l)) fun _ => false).1

theorem tallies_placed (K : KOps α ν κ σ) (T : RecTables α ν) (maxsteps m re : ℕ)
    (bundle : List (Launch α κ σ)) (hp : PlaceIndependent K maxsteps m re bundle)
    (i : ℕ) (l : Launch α κ σ) (hl : bundle[i]? = some l) :
    talliesOf (kRay K T maxsteps m re bundle i) = rayTallies K T maxsteps m re l := by
  unfold rayTallies
  rcases hp with hp | hp
  · rw [kRay_tallies K T maxsteps m re bundle i l hl]
    have : (re > 0 ∧ i % re = 0) ↔ re = 1 := by
      constructor
      · rintro ⟨h, _⟩; omega
      · rintro rfl; exact ⟨by omega, Nat.mod_one i⟩
    simp only [this]
  · rw [tallies_eq K T maxsteps m re bundle hp i l hl]
    split_ifs with h1
    · rcases hp with hp | hp
      · omega
      · have := hp l (List.mem_of_getElem? hl)
        rw [fullHistory_eq, List.length_cons] at this
        rw [rayCut_fits K maxsteps m l (by omega)]
    · rfl

theorem sum_range_getElem {β M : Type} [AddCommMonoid M] (l : List β) (f : ℕ → M) (g : β → M)
    (h : ∀ i b, l[i]? = some b → f i = g b) : ∑ i ∈ Finset.range l.length, f i = (l.map g).sum := by
  induction l generalizing f with
  | nil => simp
  | cons b l ih =>
    rw [List.length_cons, Finset.sum_range_succ', List.map_cons, List.sum_cons, add_comm,
      h 0 b (by simp), ih (fun i => f (i + 1)) fun i c hc => h (i + 1) c (by simpa using hc)]

theorem sum_execution (K : KOps α ν κ σ) (T : RecTables α ν) (maxsteps m re : ℕ)
    (bundle : List (Launch α κ σ)) (hp : PlaceIndependent K maxsteps m re bundle) (threads : ℕ)
    (es : List (Tagged α (Row α ν κ)))
    (h : Execution bundle.length threads (kRay K T maxsteps m re bundle) es)
    {M : Type} [AddCommMonoid M] (f : Effect α (Row α ν κ) → M)
    (hw : ∀ i r, f (.write i r) = 0) (hc : ∀ i n, f (.count i n) = 0) :
    (es.map fun e => f e.effect).sum =
      (bundle.map fun l => ((rayTallies K T maxsteps m re l).map f).sum).sum := by
  rw [Execution.sum_eq h]
  refine sum_range_getElem _ _ _ fun i l hl => ?_
  rw [sum_talliesOf f hw hc, tallies_placed K T maxsteps m re bundle hp i l hl]

/-- C24. Tallies summed over the bundles of a stream are the tallies of one bundle with all the
rays, for any threads and schedules, with `record_every` 0 or 1 or a sufficient event budget. -/
theorem stream_tallies_partial (K : KOps α ν κ σ) (T : RecTables α ν) (maxsteps maxEvents recordEvery : ℕ)
    (parts : List (Part α ν κ σ))
    (hp : PlaceIndependent K maxsteps maxEvents recordEvery (parts.flatMap (·.bundle)))
    (hx : ∀ p ∈ parts, Execution p.bundle.length p.threads
      (kRay K T maxsteps maxEvents recordEvery p.bundle) p.es)
    (threads : ℕ) (es : List (Tagged α (Row α ν κ)))
    (h : Execution (parts.flatMap (·.bundle)).length threads
      (kRay K T maxsteps maxEvents recordEvery (parts.flatMap (·.bundle))) es) (k : ℕ) :
    ((parts.map fun p => ((Mem.exec p.es).merged p.threads).distinct k).sum =
      ((Mem.exec es).merged threads).distinct k) ∧
    ((parts.map fun p => ((Mem.exec p.es).merged p.threads).cross k).sum =
      ((Mem.exec es).merged threads).cross k) ∧
    ((parts.map fun p => ((Mem.exec p.es).merged p.threads).sums k).sum =
      ((Mem.exec es).merged threads).sums k) ∧
    ((parts.map fun p => ((Mem.exec p.es).merged p.threads).bins k).sum =
      ((Mem.exec es).merged threads).bins k) := by
  have hpp : ∀ p ∈ parts, PlaceIndependent K maxsteps maxEvents recordEvery p.bundle := by
    intro p hm
    rcases hp with hp | hp | hp
    · exact .inl hp
    · exact .inr (.inl hp)
    · exact .inr (.inr fun l hl => hp l (List.mem_flatMap.2 ⟨p, hm, hl⟩))
  have key : ∀ {M : Type} [AddCommMonoid M] (f : Effect α (Row α ν κ) → M),
      (∀ i r, f (.write i r) = 0) → (∀ i n, f (.count i n) = 0) →
      (parts.map fun p => (p.es.map fun e => f e.effect).sum).sum =
        (es.map fun e => f e.effect).sum := by
    intro M _ f hw hc
    rw [sum_execution K T maxsteps maxEvents recordEvery _ hp threads es h f hw hc]
    clear h hp
    induction parts with
    | nil => simp
    | cons p ps ih =>
      rw [List.map_cons, List.sum_cons, List.flatMap_cons, List.map_append, List.sum_append,
        ih (fun q hq => hx q (List.mem_cons_of_mem _ hq))
          (fun q hq => hpp q (List.mem_cons_of_mem _ hq)),
        sum_execution K T maxsteps maxEvents recordEvery _ (hpp p List.mem_cons_self) _ _
          (hx p List.mem_cons_self) f hw hc]
  have hm : ∀ p ∈ parts, _ := fun p hp => merged_exec p.threads p.es (hx p hp).tid_lt
  obtain ⟨a1, a2, a3, a4⟩ := merged_exec threads es h.tid_lt
  rw [a1, a2, a3, a4]
  beta_reduce
  refine ⟨?_, ?_, ?_, ?_⟩
  · rw [← key (dDistinct k) (fun _ _ => rfl) (fun _ _ => rfl)]
    exact congrArg List.sum (List.map_congr_left fun p hp => congrFun (hm p hp).1 k)
  · rw [← key (dCross k) (fun _ _ => rfl) (fun _ _ => rfl)]
    exact congrArg List.sum (List.map_congr_left fun p hp => congrFun (hm p hp).2.1 k)
  · rw [← key (dSum k) (fun _ _ => rfl) (fun _ _ => rfl)]
    exact congrArg List.sum (List.map_congr_left fun p hp => congrFun (hm p hp).2.2.1 k)
  · rw [← key (dBin k) (fun _ _ => rfl) (fun _ _ => rfl)]
    exact congrArg List.sum (List.map_congr_left fun p hp => congrFun (hm p hp).2.2.2 k)

/-- Rays traced in order on one thread. -/
def inOrder (m re : ℕ) (bundle : List (Launch ℚ Unit Unit)) : List (Tagged ℚ (Row ℚ Bool Unit)) :=
  (List.range bundle.length).flatMap fun i =>
    (kRay fog oneRecorder 2 m re bundle i).map fun e => ⟨i, 0, e⟩

/-- Non-vacuity of `stream_tallies_partial`: three rays as bundles of two and one. -/
example :
    (([three.take 2, three.drop 2].map fun b => ((Mem.exec (inOrder 9 1 b)).merged 1).distinct 0).sum =
      3) ∧ ((Mem.exec (inOrder 9 1 three)).merged 1).distinct 0 = 3 := by decide +kernel

example : ∀ b ∈ [three.take 2, three.drop 2], Execution b.length 1 (kRay fog oneRecorder 2 9 1 b)
    (inOrder 9 1 b) := fun b _ => sequential b.length 1 (fun _ => 0) (fun _ => by omega) _

/-- C24 is violated when `record_every > 1` and the event budget is reached: the phase of
`record_every` starts again in each bundle, other rays are recorded, and recorded rays are cut
before they are tallied. -/
theorem stream_tallies_differ :
    (([three.take 1, three.take 1, three.take 1].map fun b =>
      ((Mem.exec (inOrder 3 2 b)).merged 1).distinct 0).sum = 0) ∧
    ((Mem.exec (inOrder 3 2 three)).merged 1).distinct 0 = 1 := by decide +kernel

/-- C24. Even with a large budget the rays with histories differ: streaming three rays one by one with
`record_every = 2` records all of them, tracing them together records two. -/
theorem stream_histories_differ :
    ((stream 3 1 0 9 0).1.map fun p => nRecorded 2 p.1) = [1, 1, 1] ∧ nRecorded 2 3 = 2 := by decide

/-- C24. With `record_every = 1` the histories of the bundles, one after the other, are those of one
bundle with all the rays. -/
theorem stream_histories_partial (K : KOps α ν κ σ) (T : RecTables α ν) (N : KNames ν κ)
    (maxsteps maxEvents : ℕ) (parts : List (Part α ν κ σ × List (Option String)))
    (hs : ∀ p ∈ parts, p.2.length = p.1.bundle.length)
    (hx : ∀ p ∈ parts, Execution p.1.bundle.length p.1.threads
      (kRay K T maxsteps maxEvents 1 p.1.bundle) p.1.es)
    (threads : ℕ) (es : List (Tagged α (Row α ν κ)))
    (h : Execution (parts.flatMap (·.1.bundle)).length threads
      (kRay K T maxsteps maxEvents 1 (parts.flatMap (·.1.bundle))) es) :
    (parts.mapM fun p => histories N (Mem.exec p.1.es) 1 maxEvents p.2).map List.flatten =
      histories N (Mem.exec es) 1 maxEvents (parts.flatMap (·.2)) := by
  have hrows : ∀ (bundle : List (Launch α κ σ)) (sources : List (Option String)),
      sources.length = bundle.length →
      ((List.range (nRecorded 1 bundle.length)).map fun j =>
        (loggedRows (kRay K T maxsteps maxEvents 1 bundle (j * 1))).map
          (eventOf N ((sources[j * 1]?).join))) =
      (bundle.zip sources).map fun q =>
        ((rayRows K maxsteps maxEvents q.1).take maxEvents).map (eventOf N q.2) := by
    intro bundle sources hl
    have hn : nRecorded 1 bundle.length = bundle.length := by
      unfold nRecorded; rw [if_pos (by omega)]; simp
    rw [hn]
    apply List.ext_getElem
    · simp [hl]
    · intro i h1 h2
      simp only [List.length_map, List.length_range] at h1
      have hb : bundle[i]? = some bundle[i] := List.getElem?_eq_getElem h1
      have hc : sources[i]? = some sources[i] := List.getElem?_eq_getElem (by omega)
      simp only [List.getElem_map, List.getElem_range, List.getElem_zip, Nat.mul_one]
      rw [logged_eq K T maxsteps maxEvents 1 bundle i _ hb (by omega) (Nat.mod_one i), hc]
      rfl
  have hlen : (parts.flatMap (·.2)).length = (parts.flatMap (·.1.bundle)).length := by
    clear h hx
    induction parts with
    | nil => rfl
    | cons p ps ih =>
      simp only [List.flatMap_cons, List.length_append]
      rw [hs p List.mem_cons_self, ih fun q hq => hs q (List.mem_cons_of_mem _ hq)]
  rw [histories_exact K T N maxsteps maxEvents 1 _ _ hlen threads es h, hrows _ _ hlen,
    mapM_some _ (fun p => (p.1.bundle.zip p.2).map fun q =>
        ((rayRows K maxsteps maxEvents q.1).take maxEvents).map (eventOf N q.2)) parts
      (fun p hp => by
        rw [histories_exact K T N maxsteps maxEvents 1 _ _ (hs p hp) _ _ (hx p hp),
          hrows _ _ (hs p hp)])]
  rw [Option.map_some]
  congr 1
  clear h hx hlen
  induction parts with
  | nil => rfl
  | cons p ps ih =>
    rw [List.map_cons, List.flatten_cons, ih fun q hq => hs q (List.mem_cons_of_mem _ hq),
      List.flatMap_cons, List.flatMap_cons, List.zip_append (hs p List.mem_cons_self).symm,
      List.map_append]

end

/-- C24. `bundle = 0` never ends. -/
theorem stream_zero_bundle (numRays seed : ℕ) (fuel traced : ℕ)
    (ht : traced < numRays) : (stream numRays 0 seed fuel traced).2 = false := by
  induction fuel with
  | zero => rfl
  | succ fuel ih =>
    unfold stream
    rw [if_pos ht]
    simpa using ih

example : stream 7 3 100 9 0 = ([(3, 100), (3, 103), (1, 106)], true) := by decide

end PV.Simulate
