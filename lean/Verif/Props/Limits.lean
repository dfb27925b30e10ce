import Verif.Spec.Limits
import Verif.Props.Resume
import Verif.Props.EngineChanceDemo

/-!
**C129** What happened before a limit was reached does not depend on the limit: raising a limit only continues the histories that had
been killed, and the killed rays bound the change of every result.
-/

namespace PV.Limits
open PV.Spec PV.Library PV.Resume

/-! ### The Python tracer -/

section python
variable {α ν κ σ : Type} [Field α] [LinearOrder α] [DecidableEq ν] {O : Ops α ν κ σ}

theorem beyond_laxer {p p' : Option α} (h : Laxer p p') {x : α} (hx : beyond x p' = true) : beyond x p = true := by
  cases p' with
  | none => cases hx
  | some b =>
    cases p with
    | none => exact h.elim
    | some a =>
      have hb : b < x := of_decide_eq_true hx
      exact decide_eq_true (lt_of_le_of_lt (show a ≤ b from h) hb)

/-- A pass is the same under higher limits, unless it is the one that kills the ray. -/
theorem body_raised {m m' : ℕ} (hm : m ≤ m') {p p' : Option α} (hp : Laxer p p') (count : ℕ) (ray : Ray α) (s : σ) :
    body O m p count ray s = body O m' p' count ray s ∨ ∃ i, body O m p count ray s = ([⟨ray, .kill, i⟩], .stop) := by
  unfold body
  rcases O.intersections ray.position ray.direction with e | xs
  · exact .inl rfl
  dsimp only
  rcases nextHit O.eps (O.distBetween ray.position) xs with e | _ | x
  · exact .inl rfl
  · exact .inl rfl
  dsimp only
  by_cases hk : count > m ∨ beyond ray.travelled p = true
  · exact .inr ⟨_, if_pos hk⟩
  · left
    have hk' : ¬ (count > m' ∨ beyond ray.travelled p' = true) := by
      rintro (h | h)
      · exact hk (.inl (by omega))
      · exact hk (.inr (beyond_laxer hp h))
    rw [if_neg hk, if_neg hk']

/-- A ray that goes on was not killed. -/
theorem cont_alive {m : ℕ} {p : Option α} {count : ℕ} {ray : Ray α} {s : σ} {es : List (Step α)} {r : Ray α} {t : σ}
    (h : body O m p count ray s = (es, .cont r t)) : ¬ Killed es := by
  rintro ⟨e, he, hk⟩
  unfold body at h
  rcases hi : O.intersections ray.position ray.direction with er | xs
  · rw [hi] at h
    cases h
  rw [hi] at h
  dsimp only at h
  rcases hn : nextHit O.eps (O.distBetween ray.position) xs with er | _ | x
  · rw [hn] at h
    cases h
  · rw [hn] at h
    cases h
  rw [hn] at h
  dsimp only at h
  split at h
  · cases h
  split at h
  · cases h
  rcases hd : O.penetrationDepth x.container ray.wavelength s with er | ⟨D, s⟩
  · rw [hd] at h
    cases h
  rw [hd] at h
  dsimp only at h
  cases ha : isAbsorbed D x.dist with
  | none =>
    rw [ha] at h
    dsimp only at h
    unfold surfaceBody at h
    dsimp only at h
    generalize ray.propagate x.dist (O.refractiveIndex x.container) = r' at h
    rcases h1 : O.normal x.hit r'.position with er | nrm
    · rw [h1] at h
      cases h
    rw [h1] at h
    dsimp only at h
    rcases h2 : O.isReflected x.hit x.container x.adjacent r' s with er | ⟨_ | _, s⟩
    · rw [h2] at h
      cases h
    · rw [h2] at h
      dsimp only at h
      rcases h3 : O.transmit x.hit x.container x.adjacent r' s with er | ⟨r2, s⟩
      · rw [h3] at h
        cases h
      rw [h3] at h
      dsimp only at h
      cases h4 : x.adjacent with
      | none =>
        rw [h4] at h
        cases h
      | some ad =>
        rw [h4] at h
        cases h
        rw [List.mem_singleton] at he
        subst he
        cases hk
    · rw [h2] at h
      dsimp only at h
      rcases h3 : O.reflect x.hit x.container x.adjacent r' s with er | ⟨r2, s⟩
      · rw [h3] at h
        cases h
      rw [h3] at h
      cases h
      rw [List.mem_singleton] at he
      subst he
      cases hk
  | some d =>
    rw [ha] at h
    dsimp only at h
    unfold absorbBody at h
    dsimp only at h
    generalize ray.propagate d (O.refractiveIndex x.container) = r' at h
    rcases h1 : O.component x.container r'.wavelength s with er | ⟨comp, s⟩
    · rw [h1] at h
      cases h
    rw [h1] at h
    dsimp only at h
    rcases h2 : O.isRadiative comp r' s with er | ⟨_ | _, s⟩
    · rw [h2] at h
      cases h
    · rw [h2] at h
      dsimp only at h
      rcases h3 : O.nonradiativeAbsorb comp r' s with er | ⟨r2, s⟩
      · rw [h3] at h
        cases h
      · rw [h3] at h
        dsimp only at h
        cases h4 : O.compKind comp <;> rw [h4] at h <;> cases h
    · rw [h2] at h
      dsimp only at h
      rcases h3 : O.emit x.container comp r' s with er | ⟨r2, s⟩
      · rw [h3] at h
        cases h
      · rw [h3] at h
        dsimp only at h
        cases h4 : O.compKind comp
        all_goals
          rw [h4] at h
          cases h
        all_goals
          simp only [List.mem_cons, List.not_mem_nil, or_false] at he
          rcases he with rfl | rfl <;> cases hk

theorem loop_raised {m m' : ℕ} (hm : m ≤ m') {p p' : Option α} (hp : Laxer p p') :
    ∀ (j count : ℕ), count + j = m → ∀ (ray : Ray α) (s : σ),
      loop O m' p' (m' + 1 - count) count ray s = loop O m p (j + 1) count ray s ∨
        ∃ a r i c o, loop O m p (j + 1) count ray s = (a ++ [⟨r, .kill, i⟩], .finished) ∧ ¬ Killed a ∧
          loop O m' p' (m' + 1 - count) count ray s = (a ++ c, o) := by
  intro j
  induction j with
  | zero =>
    intro count hc ray s
    obtain ⟨f, hf⟩ : ∃ f, m' + 1 - count = f + 1 := ⟨m' - count, by omega⟩
    rw [hf]
    have hs := body_shape (O := O) m p (count + 1) ray s
    rcases body_raised (O := O) hm hp (count + 1) ray s with hb | ⟨i, hb⟩
    · left
      unfold loop
      rw [← hb]
      rcases hx : body O m p (count + 1) ray s with ⟨es, (⟨r, t⟩ | _ | e)⟩
      · rw [hx] at hs
        obtain ⟨-, -, -, -, -, -, h⟩ := hs
        omega
      · rfl
      · rfl
    · right
      refine ⟨[], ray, i, _, _, ?_, ?_, rfl⟩
      · unfold loop
        rw [hb]
        rfl
      · rintro ⟨_, h, -⟩
        cases h
  | succ j ih =>
    intro count hc ray s
    obtain ⟨f, hf⟩ : ∃ f, m' + 1 - count = f + 1 := ⟨m' - count, by omega⟩
    have hf' : m' + 1 - (count + 1) = f := by omega
    rw [hf]
    rcases body_raised (O := O) hm hp (count + 1) ray s with hb | ⟨i, hb⟩
    · rw [show loop O m p (j + 1 + 1) count ray s = (match body O m p (count + 1) ray s with
        | (es, .stop) => (es, .finished)
        | (es, .raise e) => (es, .raised e)
        | (es, .cont ray s) => (es ++ (loop O m p (j + 1) (count + 1) ray s).1, (loop O m p (j + 1) (count + 1) ray s).2)) from rfl,
        show loop O m' p' (f + 1) count ray s = (match body O m' p' (count + 1) ray s with
        | (es, .stop) => (es, .finished)
        | (es, .raise e) => (es, .raised e)
        | (es, .cont ray s) => (es ++ (loop O m' p' f (count + 1) ray s).1, (loop O m' p' f (count + 1) ray s).2)) from rfl, ← hb]
      rcases hx : body O m p (count + 1) ray s with ⟨es, (⟨r, t⟩ | _ | e)⟩
      · dsimp only
        have hi := ih (count + 1) (by omega) r t
        rw [hf'] at hi
        rcases hi with h | ⟨a, r', i, c, o, h1, h2, h3⟩
        · left
          rw [h]
        · right
          refine ⟨es ++ a, r', i, c, o, ?_, ?_, ?_⟩
          · rw [h1, List.append_assoc]
          · rintro ⟨e, he, hk⟩
            rcases List.mem_append.1 he with he | he
            · exact cont_alive hx ⟨e, he, hk⟩
            · exact h2 ⟨e, he, hk⟩
          · rw [h3, List.append_assoc]
      · exact .inl rfl
      · exact .inl rfl
    · right
      refine ⟨[], ray, i, _, _, ?_, ?_, rfl⟩
      · unfold loop
        rw [hb]
        rfl
      · rintro ⟨_, h, -⟩
        cases h

/-- **C129** The same ray with the same random numbers under higher limits: either everything is the same, or the ray had been killed and
the history under the higher limits begins with everything that happened before the kill. -/
theorem limits_raised {m m' : ℕ} (hm : m ≤ m') {p p' : Option α} (hp : Laxer p p') (ray : Ray α) (s : σ) :
    stepForward O m' p' (m' + 1) ray s = stepForward O m p (m + 1) ray s ∨
      ∃ a r i, stepForward O m p (m + 1) ray s = (a ++ [⟨r, .kill, i⟩], .finished) ∧ ¬ Killed a ∧
        a <+: (stepForward O m' p' (m' + 1) ray s).1 := by
  rcases loop_raised (O := O) hm hp m 0 (by omega) ray s with h | ⟨a, r, i, c, o, h1, h2, h3⟩
  · left
    unfold stepForward
    rw [show m' + 1 = m' + 1 - 0 from rfl, h]
  · right
    refine ⟨⟨ray, .generate, {}⟩ :: a, r, i, ?_, ?_, ?_⟩
    · unfold stepForward
      rw [h1]
      rfl
    · rintro ⟨e, he, hk⟩
      rcases List.mem_cons.1 he with rfl | he
      · cases hk
      · exact h2 ⟨e, he, hk⟩
    · unfold stepForward
      rw [show m' + 1 = m' + 1 - 0 from rfl, h3]
      exact ⟨c, rfl⟩

/-- **C129** A history that ended by itself, or with an exception, is what it is under every higher limit. -/
theorem alive_same {m m' : ℕ} (hm : m ≤ m') {p p' : Option α} (hp : Laxer p p') (ray : Ray α) (s : σ)
    (h : ¬ Killed (stepForward O m p (m + 1) ray s).1) :
    stepForward O m' p' (m' + 1) ray s = stepForward O m p (m + 1) ray s := by
  rcases limits_raised (O := O) hm hp ray s with e | ⟨a, r, i, e, -, -⟩
  · exact e
  · exfalso
    apply h
    rw [e]
    exact ⟨_, List.mem_append_right _ (List.mem_singleton_self _), rfl⟩

/-- **C129** A ray that is killed under the higher limits is killed under the lower ones. -/
theorem killed_lower {m m' : ℕ} (hm : m ≤ m') {p p' : Option α} (hp : Laxer p p') (ray : Ray α) (s : σ)
    (h : Killed (stepForward O m' p' (m' + 1) ray s).1) : Killed (stepForward O m p (m + 1) ray s).1 := by
  by_contra hn
  rw [alive_same hm hp ray s hn] at h
  exact hn h

/-- **C129** Any kind of event other than a kill occurs at least as often under the higher limits. -/
theorem count_raised {m m' : ℕ} (hm : m ≤ m') {p p' : Option α} (hp : Laxer p p') (ray : Ray α) (s : σ) {f : Step α → Bool}
    (hf : ∀ e, f e = true → e.event ≠ .kill) :
    (stepForward O m p (m + 1) ray s).1.countP f ≤ (stepForward O m' p' (m' + 1) ray s).1.countP f := by
  rcases limits_raised (O := O) hm hp ray s with e | ⟨a, r, i, e, -, ha⟩
  · rw [e]
  · have h0 : f ⟨r, .kill, i⟩ = false := by
      by_contra h
      exact hf _ (by simpa using h) rfl
    rw [e]
    simp only [List.countP_append, List.countP_singleton, h0, Bool.false_eq_true, if_false, add_zero]
    exact ha.sublist.countP_le

end python

section chances
variable {ν κ : Type} [DecidableEq ν] {O : Ops ℝ ν κ Numbers}

/-- **C129** Whatever is asked about the history of a ray, and about the way it ends, the chances under two limits differ by no more than
the chance to be killed under the lower ones. -/
theorem chance_raised {m m' : ℕ} (hm : m ≤ m') {p p' : Option ℝ} (hp : Laxer p p') (ray : Ray ℝ) (E : List (Step ℝ) × Outcome → Prop) :
    chance (fun s => E (stepForward O m' p' (m' + 1) ray s)) ≤
        chance (fun s => E (stepForward O m p (m + 1) ray s)) + chance (fun s => Killed (stepForward O m p (m + 1) ray s).1) ∧
      chance (fun s => E (stepForward O m p (m + 1) ray s)) ≤
        chance (fun s => E (stepForward O m' p' (m' + 1) ray s)) + chance (fun s => Killed (stepForward O m p (m + 1) ray s).1) := by
  constructor
  · refine le_trans (MeasureTheory.measure_mono ?_) (MeasureTheory.measure_union_le _ _)
    intro s hs
    by_cases hk : Killed (stepForward O m p (m + 1) ray s).1
    · exact .inr hk
    · left
      have hs : E (stepForward O m' p' (m' + 1) ray s) := hs
      rw [alive_same hm hp ray s hk] at hs
      exact hs
  · refine le_trans (MeasureTheory.measure_mono ?_) (MeasureTheory.measure_union_le _ _)
    intro s hs
    by_cases hk : Killed (stepForward O m p (m + 1) ray s).1
    · exact .inr hk
    · left
      have hs : E (stepForward O m p (m + 1) ray s) := hs
      rw [← alive_same hm hp ray s hk] at hs
      exact hs

/-- **C129** The chance to be killed does not rise with the limits. -/
theorem killed_rarer {m m' : ℕ} (hm : m ≤ m') {p p' : Option ℝ} (hp : Laxer p p') (ray : Ray ℝ) :
    chance (fun s => Killed (stepForward O m' p' (m' + 1) ray s).1) ≤ chance (fun s => Killed (stepForward O m p (m + 1) ray s).1) :=
  MeasureTheory.measure_mono fun _ hs => killed_lower hm hp ray _ hs

end chances

/-! ### The engine -/

section engine
variable {ν κ σ : Type} [DecidableEq ν] (K : KOps ℝ ν κ σ) (T : RecTables ℝ ν)

theorem kBody_raised {m m' : ℕ} (hm : m ≤ m') (count : ℕ) (ray : KRay ℝ κ) (s : σ) :
    kBody K m count ray s = kBody K m' count ray s ∨
      ∃ v, kBody K m count ray s = ([.record ⟨.kill, none, some v, none, none, ray, none⟩,
        .tally ⟨.killed, v, none, kValues K v ray 0⟩], .stop) := by
  unfold kBody
  rcases K.nextHit ray.position ray.direction with _ | ⟨hit, container, adjacent, t0⟩
  · exact .inl rfl
  dsimp only
  by_cases hk : count > m
  · exact .inr ⟨_, if_pos hk⟩
  · left
    rw [if_neg hk, if_neg (show ¬ count > m' by omega)]

theorem kBody_cont {m count : ℕ} {ray r : KRay ℝ κ} {s t : σ} (h : (kBody K m count ray s).2 = .cont r t) : count ≤ m := by
  by_contra hc
  rw [kBody_stops K (by omega)] at h
  cases h

theorem trace_raised {m m' : ℕ} (hm : m ≤ m') : ∀ (j count : ℕ), count + j = m → ∀ (ray : KRay ℝ κ) (s : σ),
    callsOf (kTrace K m' (m' + 1 - count) count ray s) = callsOf (kTrace K m (j + 1) count ray s) ∨
      ∃ a v x c, callsOf (kTrace K m (j + 1) count ray s) = a ++ [⟨.killed, v, none, x⟩] ∧
        callsOf (kTrace K m' (m' + 1 - count) count ray s) = a ++ c := by
  intro j
  induction j with
  | zero =>
    intro count hc ray s
    obtain ⟨f, hf⟩ : ∃ f, m' + 1 - count = f + 1 := ⟨m' - count, by omega⟩
    rw [hf]
    rcases kBody_raised K hm (count + 1) ray s with hb | ⟨v, hb⟩
    · left
      unfold kTrace
      rw [← hb]
      dsimp only
      rcases hx : (kBody K m (count + 1) ray s).2 with ⟨r, t⟩ | _
      · have := kBody_cont K hx
        omega
      · rfl
    · right
      refine ⟨[], v, kValues K v ray 0, _, ?_, rfl⟩
      unfold kTrace
      rw [hb]
      rfl
  | succ j ih =>
    intro count hc ray s
    obtain ⟨f, hf⟩ : ∃ f, m' + 1 - count = f + 1 := ⟨m' - count, by omega⟩
    have hf' : m' + 1 - (count + 1) = f := by omega
    rw [hf]
    rcases kBody_raised K hm (count + 1) ray s with hb | ⟨v, hb⟩
    · rw [kTrace, kTrace, ← hb]
      rcases hx : (kBody K m (count + 1) ray s).2 with ⟨r, t⟩ | _
      · dsimp only
        rw [callsOf_append, callsOf_append]
        have hi := ih (count + 1) (by omega) r t
        rw [hf'] at hi
        rcases hi with h | ⟨a, v, x, c, h1, h2⟩
        · left
          rw [h]
        · right
          exact ⟨_ ++ a, v, x, c, by rw [h1, List.append_assoc], by rw [h2, List.append_assoc]⟩
      · exact .inl rfl
    · right
      refine ⟨[], v, kValues K v ray 0, _, ?_, rfl⟩
      unfold kTrace
      rw [hb]
      rfl

theorem cut_raised {m m' : ℕ} (hm : m ≤ m') (e : ℕ) : ∀ (j count nev : ℕ), count + j = m → ∀ (ray : KRay ℝ κ) (s : σ),
    callsOf (kCut K m' e (m' + 1 - count) count nev ray s).1 = callsOf (kCut K m e (j + 1) count nev ray s).1 ∨
      ∃ a v x c, callsOf (kCut K m e (j + 1) count nev ray s).1 = a ++ [⟨.killed, v, none, x⟩] ∧
        callsOf (kCut K m' e (m' + 1 - count) count nev ray s).1 = a ++ c := by
  intro j
  induction j with
  | zero =>
    intro count nev hc ray s
    obtain ⟨f, hf⟩ : ∃ f, m' + 1 - count = f + 1 := ⟨m' - count, by omega⟩
    rw [hf]
    unfold kCut
    by_cases he : nev + 1 ≥ e
    · rw [if_pos he, if_pos he]
      exact .inl rfl
    rw [if_neg he, if_neg he]
    rcases kBody_raised K hm (count + 1) ray s with hb | ⟨v, hb⟩
    · left
      rw [← hb]
      dsimp only
      rcases hx : (kBody K m (count + 1) ray s).2 with ⟨r, t⟩ | _
      · have := kBody_cont K hx
        omega
      · rfl
    · right
      refine ⟨[], v, kValues K v ray 0, _, ?_, rfl⟩
      rw [hb]
      rfl
  | succ j ih =>
    intro count nev hc ray s
    obtain ⟨f, hf⟩ : ∃ f, m' + 1 - count = f + 1 := ⟨m' - count, by omega⟩
    have hf' : m' + 1 - (count + 1) = f := by omega
    rw [hf, kCut, kCut]
    by_cases he : nev + 1 ≥ e
    · rw [if_pos he, if_pos he]
      exact .inl rfl
    rw [if_neg he, if_neg he]
    rcases kBody_raised K hm (count + 1) ray s with hb | ⟨v, hb⟩
    · rw [← hb]
      dsimp only
      rcases hx : (kBody K m (count + 1) ray s).2 with ⟨r, t⟩ | _
      · dsimp only
        rw [callsOf_append, callsOf_append]
        have hi := ih (count + 1) (nev + (rowsOf (kBody K m (count + 1) ray s).1).length) (by omega) r t
        rw [hf'] at hi
        rcases hi with h | ⟨a, v, x, c, h1, h2⟩
        · left
          rw [h]
        · right
          exact ⟨_ ++ a, v, x, c, by rw [h1, List.append_assoc], by rw [h2, List.append_assoc]⟩
      · exact .inl rfl
    · right
      refine ⟨[], v, kValues K v ray 0, _, ?_, rfl⟩
      rw [hb]
      rfl

/-- The calls of `tally` made for a ray under a higher limit. -/
theorem tallied_raised {m m' : ℕ} (hm : m ≤ m') (slot : LogSlot) (l : Launch ℝ κ σ) :
    EngineChance.tallied K m' slot l = EngineChance.tallied K m slot l ∨
      ∃ a v x c, EngineChance.tallied K m slot l = a ++ [⟨.killed, v, none, x⟩] ∧ EngineChance.tallied K m' slot l = a ++ c := by
  unfold EngineChance.tallied
  rcases slot with _ | ⟨b, e⟩
  · exact trace_raised K hm m 0 (by omega) l.ray l.rng
  · exact cut_raised K hm e m 0 _ (by omega) l.ray l.rng

theorem total_raised {m m' : ℕ} (hm : m ≤ m') (F : Effect ℝ (Row ℝ ν κ) → ℕ) (hw : ∀ i r, F (.write i r) = 0)
    (hc : ∀ i n, F (.count i n) = 0) (slot : LogSlot) (l : Launch ℝ κ σ) {r : ℕ} (hF : LocalTo T r F) {row : RecRow ℝ ν}
    (hr : T.recs[r]? = some row) (hk : row.event ≠ .killed) :
    total F (kTraceOne K T slot m l.ray l.rng).1 ≤ total F (kTraceOne K T slot m' l.ray l.rng).1 := by
  rw [EngineChance.total_ray K T m F hw hc slot l hF hr, EngineChance.total_ray K T m' F hw hc slot l hF hr]
  rcases tallied_raised K hm slot l with h | ⟨a, v, x, c, h1, h2⟩
  · rw [h]
  · have h0 : kCounts (⟨.killed, v, none, x⟩ : TallyCall ℝ ν) row = false := by
      unfold kCounts
      rw [if_pos (.inr hk)]
    rw [h1, h2, List.countP_append, List.countP_append, List.find?_append, List.find?_append, List.countP_singleton]
    simp only [h0, Bool.false_eq_true, if_false, add_zero]
    refine Nat.add_le_add (Nat.mul_le_mul_right _ (Nat.le_add_right _ _)) ?_
    rcases a.find? fun c => kCounts c row with _ | y
    · simp [h0]
    · simp

theorem kill_counted {m m' : ℕ} (hm : m ≤ m') (slot : LogSlot) (l : Launch ℝ κ σ) [Fintype ν] {k : ν → ℕ}
    (hk : ∀ v, ∃ row, T.recs[k v]? = some row ∧ row.node = v ∧ row.event = .killed ∧ row.facet = none) :
    EngineChance.tallied K m' slot l = EngineChance.tallied K m slot l ∨
      1 ≤ ∑ v, (alone (kTraceOne K T slot m l.ray l.rng).1).cross (k v) := by
  rcases tallied_raised K hm slot l with h | ⟨a, v, x, c, h1, -⟩
  · exact .inl h
  · right
    obtain ⟨row, hr, rfl, he, hf⟩ := hk v
    refine le_trans ?_ (Finset.single_le_sum (f := fun v => (alone (kTraceOne K T slot m l.ray l.rng).1).cross (k v))
      (fun _ _ => Nat.zero_le _) (Finset.mem_univ row.node))
    rw [(EngineChance.alone_eq _).2.1]
    dsimp only
    rw [EngineChance.total_ray K T m (dCross _) (fun _ _ => rfl) (fun _ _ => rfl) slot l (local_cross T _) hr, h1, List.countP_append]
    have h0 : kCounts (⟨.killed, row.node, none, x⟩ : TallyCall ℝ ν) row = true := by
      unfold kCounts
      rw [if_neg (by simp [he]), hf]
    simp [h0, dCross]
    omega

theorem alone_same {m m' : ℕ} (slot : LogSlot) (l : Launch ℝ κ σ)
    (h : EngineChance.tallied K m' slot l = EngineChance.tallied K m slot l) :
    alone (kTraceOne K T slot m' l.ray l.rng).1 = alone (kTraceOne K T slot m l.ray l.rng).1 := by
  have ht : talliesOf (kTraceOne K T slot m' l.ray l.rng).1 = talliesOf (kTraceOne K T slot m l.ray l.rng).1 := by
    unfold EngineChance.tallied at h
    rcases slot with _ | ⟨b, e⟩
    · rw [(kTraceOne_none K T m l).2, (kTraceOne_none K T m' l).2]
      dsimp only at h
      rw [h]
    · rw [(kTraceOne_some K T b e m l).2.1, (kTraceOne_some K T b e m' l).2.1]
      dsimp only at h
      rw [h]
  have key : ∀ {M : Type} [AddCommMonoid M] (F : Effect ℝ (Row ℝ ν κ) → M), (∀ i r, F (.write i r) = 0) → (∀ i n, F (.count i n) = 0) →
      total F (kTraceOne K T slot m' l.ray l.rng).1 = total F (kTraceOne K T slot m l.ray l.rng).1 := by
    intro M _ F hw hc
    unfold total
    rw [Budget.sum_talliesOf F hw hc (kTraceOne K T slot m' l.ray l.rng).1, ht, ← Budget.sum_talliesOf F hw hc]
  obtain ⟨a1, a2, a3, a4⟩ := EngineChance.alone_eq (kTraceOne K T slot m' l.ray l.rng).1
  obtain ⟨b1, b2, b3, b4⟩ := EngineChance.alone_eq (kTraceOne K T slot m l.ray l.rng).1
  rcases hA : alone (kTraceOne K T slot m' l.ray l.rng).1 with ⟨w1, w2, w3, w4⟩
  rcases hB : alone (kTraceOne K T slot m l.ray l.rng).1 with ⟨v1, v2, v3, v4⟩
  rw [hA] at a1 a2 a3 a4
  rw [hB] at b1 b2 b3 b4
  dsimp only at a1 a2 a3 a4 b1 b2 b3 b4
  subst a1 a2 a3 a4 b1 b2 b3 b4
  congr 1
  · funext i
    exact key _ (fun _ _ => rfl) (fun _ _ => rfl)
  · funext i
    exact key _ (fun _ _ => rfl) (fun _ _ => rfl)
  · funext i
    exact key _ (fun _ _ => rfl) (fun _ _ => rfl)
  · funext i
    exact key _ (fun _ _ => rfl) (fun _ _ => rfl)

variable {m m' e re : ℕ} (hm : m ≤ m') {bundle : List (Launch ℝ κ σ)} {threads threads' : ℕ} {es es' : List (Tagged ℝ (Row ℝ ν κ))}
  (hes : Execution bundle.length threads (kRay K T m e re bundle) es)
  (hes' : Execution bundle.length threads' (kRay K T m' e re bundle) es')
include hm hes hes'

/-- **C129** The engine: the same bundle under a higher step limit. Every recorder, except those for killed rays, reports at least as many
rays and crossings and has at least as many in every bin, with any numbers of threads and any schedules. -/
theorem recorders_raised {recs : List (ν × Recorder ℝ)} (hT : compileRecorders recs = some T) {r : ℕ} {row : RecRow ℝ ν}
    (hr : T.recs[r]? = some row) (hk : row.event ≠ .killed) {st st' : TallyState ℝ}
    (hst : engineResult T ((Mem.exec es).merged threads) r = some st)
    (hst' : engineResult T ((Mem.exec es').merged threads') r = some st') :
    st.rays ≤ st'.rays ∧ st.crossings ≤ st'.crossings ∧
      ∀ (h : ℕ) (f f' : ℕ → ℕ) (b : ℕ), st.bins[h]? = some f → st'.bins[h]? = some f' → f b ≤ f' b := by
  obtain ⟨a1, a2, -, a4⟩ := EngineChance.totals_add K T m e re hes
  obtain ⟨b1, b2, -, b4⟩ := EngineChance.totals_add K T m' e re hes'
  have hone : ∀ (g : Acc ℝ → ℕ) (F : Effect ℝ (Row ℝ ν κ) → ℕ), (∀ i r, F (.write i r) = 0) → (∀ i n, F (.count i n) = 0) →
      LocalTo T r F → (∀ ws : List (Effect ℝ (Row ℝ ν κ)), g (alone ws) = total F ws) →
      ∑ i ∈ Finset.range bundle.length, g (alone (kRay K T m e re bundle i)) ≤
        ∑ i ∈ Finset.range bundle.length, g (alone (kRay K T m' e re bundle i)) := by
    intro g F hw hc hF hg
    refine Finset.sum_le_sum fun i hi => ?_
    have hi := Finset.mem_range.1 hi
    have hl := List.getElem?_eq_getElem hi
    rw [EngineChance.alone_ray K T m e re bundle hl, EngineChance.alone_ray K T m' e re bundle hl, hg, hg]
    exact total_raised K T hm F hw hc _ _ hF hr hk
  have e1 : st.rays = ((Mem.exec es).merged threads).distinct r ∧ st.crossings = ((Mem.exec es).merged threads).cross r := by
    unfold engineResult at hst
    rw [hr] at hst
    cases hst
    exact ⟨rfl, rfl⟩
  have e2 : st'.rays = ((Mem.exec es').merged threads').distinct r ∧ st'.crossings = ((Mem.exec es').merged threads').cross r := by
    unfold engineResult at hst'
    rw [hr] at hst'
    cases hst'
    exact ⟨rfl, rfl⟩
  refine ⟨?_, ?_, fun h f f' b hf hf' => ?_⟩
  · rw [e1.1, e2.1, a1, b1]
    exact hone (fun a => a.distinct r) _ (fun _ _ => rfl) (fun _ _ => rfl) (local_distinct T r)
      fun ws => congrFun (EngineChance.alone_eq ws).1 r
  · rw [e1.2, e2.2, a2, b2]
    exact hone (fun a => a.cross r) _ (fun _ _ => rfl) (fun _ _ => rfl) (local_cross T r)
      fun ws => congrFun (EngineChance.alone_eq ws).2.1 r
  · obtain ⟨p, x, hp, hx, rfl⟩ := EngineChance.bins_eq T hT _ hst hf
    obtain ⟨p', x', hp', hx', rfl⟩ := EngineChance.bins_eq T hT _ hst' hf'
    rw [hp] at hp'
    cases hp'
    rw [hx] at hx'
    cases hx'
    dsimp only
    split
    · rename_i hb
      rw [a4, b4]
      exact hone (fun a => a.bins _) _ (fun _ _ => rfl) (fun _ _ => rfl) (local_bin hT r h p hp x hx b hb)
        fun ws => congrFun (EngineChance.alone_eq ws).2.2.2 _
    · exact le_rfl

variable [Fintype ν] {k : ν → ℕ} (hk : ∀ v, ∃ row, T.recs[k v]? = some row ∧ row.node = v ∧ row.event = .killed ∧ row.facet = none)
  {lost : ν → TallyState ℝ} (hlost : ∀ v, engineResult T ((Mem.exec es).merged threads) (k v) = some (lost v))
include hk hlost

theorem lost_sum : ∑ v, (lost v).crossings =
    ∑ i ∈ Finset.range bundle.length, ∑ v, (alone (kRay K T m e re bundle i)).cross (k v) := by
  rw [Finset.sum_comm]
  refine Finset.sum_congr rfl fun v _ => ?_
  obtain ⟨row, hr, -⟩ := hk v
  have h := hlost v
  unfold engineResult at h
  rw [hr] at h
  have h := Option.some.inj h
  rw [← h]
  exact congrFun (EngineChance.totals_add K T m e re hes).2.1 (k v)

/-- **C129** If the objects have recorders for killed rays, these bound the change: under a higher limit no recorder, and no bin, gains
more than the number of rays that were killed. -/
theorem killed_bound {recs : List (ν × Recorder ℝ)} (hT : compileRecorders recs = some T) {r : ℕ} {st st' : TallyState ℝ}
    (hst : engineResult T ((Mem.exec es).merged threads) r = some st)
    (hst' : engineResult T ((Mem.exec es').merged threads') r = some st') :
    st'.rays ≤ st.rays + ∑ v, (lost v).crossings ∧
      ∀ (h : ℕ) (f f' : ℕ → ℕ) (b : ℕ), st.bins[h]? = some f → st'.bins[h]? = some f' → f' b ≤ f b + ∑ v, (lost v).crossings := by
  obtain ⟨a1, -, -, a4⟩ := EngineChance.totals_add K T m e re hes
  obtain ⟨b1, -, -, b4⟩ := EngineChance.totals_add K T m' e re hes'
  rw [lost_sum K T hm hes hes' hk hlost]
  obtain ⟨row, hr, -⟩ := Option.map_eq_some_iff.1 (show T.recs[r]?.map _ = some st from hst)
  have hone : ∀ (g : Acc ℝ → ℕ), (∀ slot (l : Launch ℝ κ σ), g (alone (kTraceOne K T slot m' l.ray l.rng).1) ≤ 1) →
      ∑ i ∈ Finset.range bundle.length, g (alone (kRay K T m' e re bundle i)) ≤
        ∑ i ∈ Finset.range bundle.length, g (alone (kRay K T m e re bundle i)) +
          ∑ i ∈ Finset.range bundle.length, ∑ v, (alone (kRay K T m e re bundle i)).cross (k v) := by
    intro g hg
    rw [← Finset.sum_add_distrib]
    refine Finset.sum_le_sum fun i hi => ?_
    have hi := Finset.mem_range.1 hi
    have hl := List.getElem?_eq_getElem hi
    rw [EngineChance.alone_ray K T m e re bundle hl, EngineChance.alone_ray K T m' e re bundle hl]
    rcases kill_counted K T hm (slotOf re e i) bundle[i] hk with h | h
    · rw [alone_same K T _ _ h]
      exact Nat.le_add_right _ _
    · exact (hg _ _).trans (h.trans (Nat.le_add_left _ _))
  refine ⟨?_, fun h f f' b hf hf' => ?_⟩
  · have e1 : st.rays = ((Mem.exec es).merged threads).distinct r := by
      unfold engineResult at hst
      rw [hr] at hst
      cases hst
      rfl
    have e2 : st'.rays = ((Mem.exec es').merged threads').distinct r := by
      unfold engineResult at hst'
      rw [hr] at hst'
      cases hst'
      rfl
    rw [e1, e2, a1, b1]
    exact hone (fun a => a.distinct r) fun slot l => EngineChance.once K T m' slot l hr
  · obtain ⟨p, x, hp, hx, rfl⟩ := EngineChance.bins_eq T hT _ hst hf
    obtain ⟨p', x', hp', hx', rfl⟩ := EngineChance.bins_eq T hT _ hst' hf'
    rw [hp] at hp'
    cases hp'
    rw [hx] at hx'
    cases hx'
    dsimp only
    split
    · rename_i hb
      rw [a4, b4]
      exact hone (fun a => a.bins _) fun slot l => EngineChance.once_bin K T m' hT slot l hp hx hb
    · exact Nat.zero_le _

/-- **C129** If none is killed, a higher limit changes no result at all. -/
theorem none_killed (h0 : ∀ v, (lost v).crossings = 0) (r : ℕ) :
    engineResult T ((Mem.exec es').merged threads') r = engineResult T ((Mem.exec es).merged threads) r := by
  have hz := lost_sum K T hm hes hes' hk hlost
  rw [Finset.sum_eq_zero fun v _ => h0 v] at hz
  have hz := Finset.sum_eq_zero_iff.1 hz.symm
  have hsame : ∀ i ∈ Finset.range bundle.length, alone (kRay K T m' e re bundle i) = alone (kRay K T m e re bundle i) := by
    intro i hi
    have hi := Finset.mem_range.1 hi
    have hl := List.getElem?_eq_getElem hi
    have hzi := hz i (Finset.mem_range.2 hi)
    rw [EngineChance.alone_ray K T m e re bundle hl] at hzi
    rw [EngineChance.alone_ray K T m e re bundle hl, EngineChance.alone_ray K T m' e re bundle hl]
    rcases kill_counted K T hm (slotOf re e i) bundle[i] hk with h | h
    · exact alone_same K T _ _ h
    · omega
  obtain ⟨a1, a2, a3, a4⟩ := EngineChance.totals_add K T m e re hes
  obtain ⟨b1, b2, b3, b4⟩ := EngineChance.totals_add K T m' e re hes'
  have key : ∀ {M : Type} [AddCommMonoid M] (g : Acc ℝ → M), ∑ i ∈ Finset.range bundle.length, g (alone (kRay K T m' e re bundle i)) =
      ∑ i ∈ Finset.range bundle.length, g (alone (kRay K T m e re bundle i)) :=
    fun g => Finset.sum_congr rfl fun i hi => by rw [hsame i hi]
  have f1 : ((Mem.exec es').merged threads').distinct = ((Mem.exec es).merged threads).distinct := by
    rw [a1, b1]
    funext j
    exact key (fun a => a.distinct j)
  have f2 : ((Mem.exec es').merged threads').cross = ((Mem.exec es).merged threads).cross := by
    rw [a2, b2]
    funext j
    exact key (fun a => a.cross j)
  have f3 : ((Mem.exec es').merged threads').sums = ((Mem.exec es).merged threads).sums := by
    rw [a3, b3]
    funext j
    exact key (fun a => a.sums j)
  have f4 : ((Mem.exec es').merged threads').bins = ((Mem.exec es).merged threads).bins := by
    rw [a4, b4]
    funext j
    exact key (fun a => a.bins j)
  unfold engineResult
  rw [f1, f2, f3, f4]

end engine

/-! ### A black ball -/

/-- With no step allowed the lamp's ray is killed before it reaches the ball; with ten steps it is absorbed there. -/
example : Killed (stepForward (pyOps ballScene noBoxes halves .kT) 0 none 1 lampRay ()).1 ∧
    ¬ Killed (stepForward (pyOps ballScene noBoxes halves .kT) 10 none 11 lampRay ()).1 := by
  refine ⟨?_, ?_⟩
  · by_contra h
    have h' := alive_same (m := 0) (m' := 10) (by omega) (p := none) (p' := none) trivial lampRay () h
    rw [ball_run] at h'
    obtain ⟨t, -, h1, -⟩ := resumed (Q := fun _ => True) (O := pyOps ballScene noBoxes halves .kT) (maxsteps := 0) (maxpath := none)
      (fun _ _ _ _ _ _ _ _ => trivial) lampRay (s := ()) trivial (a := [⟨lampRay, .generate, {}⟩]) (by rw [← h']; rfl) rfl
    exact absurd h1 (by decide)
  · rw [ball_run]
    rintro ⟨e, he, hk⟩
    simp only [List.mem_cons, List.not_mem_nil, or_false] at he
    rcases he with rfl | rfl | rfl | rfl <;> cases hk

/-- Recorders for killed rays on the world and on the ball, and one for rays lost in the ball. -/
def killRec (name : String) : Recorder ℝ := { name := name, event := .killed, atol := 0 }

def killTables : RecTables ℝ (Fin 2) := ⟨[⟨0, .killed, none, 0, 0, 0⟩, ⟨1, .killed, none, 0, 0, 0⟩, ⟨1, .lost, none, 0, 0, 0⟩], [], 0⟩

theorem kill_compiles :
    compileRecorders [((0 : Fin 2), killRec "a"), (1, killRec "b"), (1, EngineChance.lostRec)] = some killTables := by
  simp [compileRecorders, compileRecs, compileHists, EngineChance.lostRec, killRec, killTables, Selector.isVolume]

/-- Every object has a recorder for killed rays. -/
example : ∀ v : Fin 2, ∃ row, killTables.recs[v.val]? = some row ∧ row.node = v ∧ row.event = .killed ∧ row.facet = none := by
  intro v
  match v with
  | 0 => exact ⟨_, rfl, rfl, rfl, rfl⟩
  | 1 => exact ⟨_, rfl, rfl, rfl, rfl⟩

/-- With no step allowed, a ray in the ball is killed there. -/
example (s : Numbers) : ∃ x, EngineChance.tallied (kOps ballScene reader .kT) 0 none ⟨EngineChance.midRay, s⟩ = [⟨.killed, 1, none, x⟩] := by
  refine ⟨kValues (kOps ballScene reader .kT) 1 EngineChance.midRay 0, ?_⟩
  unfold EngineChance.tallied rayTrace kTrace kBody
  simp only [EngineChance.midRay, EngineChance.mid_hit]
  rfl

/-- A bundle of one ray, and an execution of it. -/
example (m : ℕ) (s : Numbers) : Execution 1 1 (kRay (kOps ballScene reader .kT) killTables m 128 0 [⟨EngineChance.midRay, s⟩])
    ((kRay (kOps ballScene reader .kT) killTables m 128 0 [⟨EngineChance.midRay, s⟩] 0).map fun e => ⟨0, 0, e⟩) := by
  refine ⟨?_, ?_, ?_⟩
  · intro e he
    obtain ⟨x, -, rfl⟩ := List.mem_map.1 he
    exact Nat.one_pos
  · intro e he
    obtain ⟨x, -, rfl⟩ := List.mem_map.1 he
    exact Nat.one_pos
  · intro i hi
    obtain rfl : i = 0 := by omega
    rw [List.filter_eq_self.2 (fun e he => by
      obtain ⟨x, -, rfl⟩ := List.mem_map.1 he
      rfl), List.map_map]
    exact List.map_id _

end PV.Limits
