import Verif.Spec.StudioRun
import Mathlib.Tactic.Common

/-!
**C134** Runs of the studio: what is sent, what stops, what is shown.
-/

namespace PV.StudioRun
open Spec
variable {ν : Type} {fits : ν → ν → Bool} {q : Prop}

/-! ### The messages of a run -/

/-- What has been sent by a run in the phase given; `q` says that nothing has been stopped. -/
def Told (q : Prop) (i : ℕ) (t : Task ν) (ms : List (Msg ν)) : Prop :=
  match t.phase with
  | .created => ms = []
  | .announced m => ms = [.started i t.total m]
  | .tracing m v k => k ≤ t.total ∧ ms = chapter i t.total m v k
  | .over => ms = [] ∨ ∃ m v k, k ≤ t.total ∧ (ms = chapter i t.total m v k ∨
    ms = chapter i t.total m v k ++ [.done i] ∧ (q → k = t.total))

def Good (q : Prop) (S : Server ν) (out : List (Msg ν)) : Prop :=
  (∀ i t, S.tasks[i]? = some t → Told q i t (out.filter (fromRun i))) ∧ ∀ i, S.tasks.length ≤ i → out.filter (fromRun i) = []

theorem chapter_succ (i n : ℕ) (m v : ν) (k : ℕ) : chapter i n m v (k + 1) = chapter i n m v k ++ [.bundle i (k + 1) n m v] := by
  simp [chapter, List.range_succ]

/-- A message list of the run `i` only. -/
def Only (i : ℕ) (ms : List (Msg ν)) : Prop := ∀ m ∈ ms, ∀ j, fromRun j m = decide (j = i)

theorem Only.same {i : ℕ} {ms : List (Msg ν)} (h : Only i ms) : ms.filter (fromRun i) = ms :=
  List.filter_eq_self.2 fun m hm => by simp [h m hm]

theorem Only.other {i j : ℕ} {ms : List (Msg ν)} (h : Only i ms) (hij : j ≠ i) : ms.filter (fromRun j) = [] :=
  List.filter_eq_nil_iff.2 fun m hm => by simp [h m hm, hij]

theorem only_nil (i : ℕ) : Only (ν := ν) i [] := by simp [Only]

theorem put_good {S : Server ν} {out ms : List (Msg ν)} {i : ℕ} {t : Task ν} {p : Phase ν} (hg : Good q S out) (ht : S.tasks[i]? = some t)
    (ho : Only i ms) (h : Told q i t (out.filter (fromRun i)) → Told q i { t with phase := p } (out.filter (fromRun i) ++ ms)) :
    Good q (S.put i t p) (out ++ ms) := by
  obtain ⟨hl, -⟩ := List.getElem?_eq_some_iff.1 ht
  refine ⟨fun j u hu => ?_, fun j hj => ?_⟩
  · rw [List.filter_append]
    by_cases hij : j = i
    · subst hij
      simp only [Server.put, List.getElem?_set_self hl, Option.some.injEq] at hu
      rw [← hu, ho.same]
      exact h (hg.1 _ _ ht)
    · simp only [Server.put, List.getElem?_set_ne (Ne.symm hij)] at hu
      rw [ho.other hij, List.append_nil]
      exact hg.1 _ _ hu
  · simp only [Server.put, List.length_set] at hj
    rw [List.filter_append, hg.2 j hj, ho.other (by omega)]
    rfl

theorem turn_good {S : Server ν} {out : List (Msg ν)} {i : ℕ} {t : Task ν} (fails : Bool) (hq : q → S.stop = false) (hg : Good q S out)
    (ht : S.tasks[i]? = some t) :
    Good q (turn fits S i fails t).1 (out ++ (turn fits S i fails t).2) := by
  obtain ⟨n, p⟩ := t
  unfold turn
  rcases p with _ | m | ⟨m, v, k⟩ | _
  · dsimp only
    rcases S.scene with _ | v
    · exact put_good hg ht (only_nil i) fun h => by
        simp only [Told] at h ⊢
        rw [h]
        exact .inl rfl
    · dsimp only
      split_ifs
      · refine put_good hg ht (by simp [Only, fromRun, eq_comm]) fun h => ?_
        simp only [Told] at h ⊢
        rw [h]
        rfl
      · exact put_good hg ht (only_nil i) fun h => by
          simp only [Told] at h ⊢
          rw [h]
          exact .inl rfl
  · dsimp only
    rcases S.scene with _ | v
    · refine put_good hg ht (only_nil i) fun h => ?_
      simp only [Told] at h ⊢
      exact .inr ⟨m, m, 0, Nat.zero_le _, .inl (by rw [h]; rfl)⟩
    · refine put_good hg ht (only_nil i) fun h => ?_
      simp only [Told] at h ⊢
      exact ⟨Nat.zero_le _, by rw [h]; rfl⟩
  · dsimp only
    split_ifs with h1 h2 h3 h4
    · refine put_good hg ht (only_nil i) fun h => ?_
      simp only [Told] at h ⊢
      exact .inr ⟨m, v, k, h.1, .inl (by rw [List.append_nil, h.2])⟩
    · refine put_good hg ht (by simp [Only, fromRun, eq_comm]) fun h => ?_
      simp only [Told] at h ⊢
      exact .inr ⟨m, v, k, h.1, .inr ⟨by rw [h.2], fun q => by have := hq q; have := h.1; simp_all; omega⟩⟩
    · refine put_good hg ht (only_nil i) fun h => ?_
      simp only [Told] at h ⊢
      exact .inr ⟨m, v, k, h.1, .inl (by rw [List.append_nil, h.2])⟩
    · refine put_good hg ht (by simp [Only, fromRun, eq_comm]) fun h => ?_
      simp only [Told] at h ⊢
      refine ⟨by omega, ?_⟩
      rw [h.2, chapter_succ]
    · refine put_good hg ht (only_nil i) fun h => ?_
      simp only [Told] at h ⊢
      exact .inr ⟨m, v, k, h.1, .inl (by rw [List.append_nil, h.2])⟩
  · dsimp only
    rw [List.append_nil]
    exact hg

theorem told_over {i : ℕ} {t : Task ν} {ms : List (Msg ν)} (h : Told q i t ms) : Told q i { t with phase := .over } ms := by
  obtain ⟨n, p⟩ := t
  rcases p with _ | m | ⟨m, v, k⟩ | _ <;> simp only [Told] at h ⊢
  · exact .inl h
  · exact .inr ⟨m, m, 0, Nat.zero_le _, .inl (by rw [h]; rfl)⟩
  · exact .inr ⟨m, v, k, h.1, .inl h.2⟩
  · exact h

theorem step_good {S : Server ν} {out : List (Msg ν)} (a : Act ν) (hq : q → S.stop = false) (hg : Good q S out) :
    Good q (step fits S a).1 (out ++ (step fits S a).2) := by
  cases a with
  | edit v => simpa [step, Good] using hg
  | run n =>
    unfold step
    dsimp only
    split_ifs
    · rcases S.scene with _ | v
      · refine ⟨fun i t h => ?_, fun i h => ?_⟩
        · simpa [fromRun, List.filter_cons] using hg.1 i t h
        · simpa [fromRun, List.filter_cons] using hg.2 i h
      · refine ⟨fun i t h => ?_, fun i h => ?_⟩
        · dsimp only at h ⊢
          rw [List.append_nil]
          by_cases hi : i < S.tasks.length
          · rw [List.getElem?_append_left hi] at h
            exact hg.1 i t h
          · rw [hg.2 i (by omega)]
            rw [List.getElem?_append_right (by omega)] at h
            rw [List.mem_singleton.1 (List.mem_of_getElem? h)]
            rfl
        · dsimp only at h ⊢
          rw [List.append_nil]
          exact hg.2 i (by simp at h; omega)
    · simpa using hg
  | stop =>
    unfold step
    dsimp only
    split_ifs <;> simpa [Good] using hg
  | leave =>
    unfold step
    dsimp only
    split_ifs
    · refine ⟨fun i t h => ?_, fun i h => ?_⟩
      · dsimp only at h ⊢
        rw [List.append_nil]
        by_cases hi : S.tasks.length - 1 = i
        · subst hi
          rcases hl : S.tasks.getLast? with _ | u
          · rw [List.getLast?_eq_none_iff] at hl
            simp [hl] at h
          · have hu : S.tasks[S.tasks.length - 1]? = some u := by rw [← List.getLast?_eq_getElem?, hl]
            obtain ⟨hlt, -⟩ := List.getElem?_eq_some_iff.1 hu
            rw [List.getElem?_set_self hlt, Option.some.injEq] at h
            rw [← h, List.getLastD_eq_getLast?, hl]
            exact told_over (hg.1 _ _ hu)
        · rw [List.getElem?_set_ne hi] at h
          exact hg.1 i t h
      · dsimp only at h ⊢
        rw [List.append_nil]
        exact hg.2 i (by simpa using h)
    · simpa using hg
  | turn i fails =>
    unfold step
    dsimp only
    rcases ht : S.tasks[i]? with _ | t
    · simpa using hg
    · exact turn_good fails hq hg ht

theorem turn_flag (S : Server ν) (i : ℕ) (fails : Bool) (t : Task ν) : (turn fits S i fails t).1.stop = S.stop := by
  obtain ⟨n, p⟩ := t
  unfold turn
  rcases p with _ | m | ⟨m, v, k⟩ | _
  · dsimp only
    rcases S.scene with _ | v
    · rfl
    · dsimp only
      split_ifs <;> rfl
  · dsimp only
    rcases S.scene with _ | v <;> rfl
  · dsimp only
    split_ifs <;> rfl
  · rfl

theorem step_going {S : Server ν} {a : Act ν} (hs : S.stop = false) (h1 : a ≠ .stop) (h2 : a ≠ .leave) : (step fits S a).1.stop = false := by
  cases a with
  | edit v => exact hs
  | run n =>
    unfold step
    dsimp only
    split_ifs
    · rcases S.scene with _ | v
      · exact hs
      · rfl
    · exact hs
  | stop => exact absurd rfl h1
  | leave => exact absurd rfl h2
  | turn i fails =>
    unfold step
    dsimp only
    rcases S.tasks[i]? with _ | t
    · exact hs
    · exact (turn_flag S i fails t).trans hs

theorem exec_cons (S : Server ν) (a : Act ν) (as : List (Act ν)) :
    exec fits S (a :: as) = ((exec fits (step fits S a).1 as).1, (step fits S a).2 ++ (exec fits (step fits S a).1 as).2) := rfl

theorem exec_good (as : List (Act ν)) : ∀ (S : Server ν) (out : List (Msg ν)), (q → S.stop = false ∧ .stop ∉ as ∧ .leave ∉ as) → Good q S out →
    Good q (exec fits S as).1 (out ++ (exec fits S as).2) := by
  induction as with
  | nil => intro S out _ h; simpa [exec] using h
  | cons a as ih =>
    intro S out hq h
    rw [exec_cons, ← List.append_assoc]
    refine ih _ _ (fun q => ?_) (step_good a (fun q => (hq q).1) h)
    obtain ⟨h1, h2, h3⟩ := hq q
    refine ⟨step_going h1 (fun h => h2 (h ▸ List.mem_cons_self)) fun h => h3 (h ▸ List.mem_cons_self),
      fun h => h2 (List.mem_cons_of_mem _ h), fun h => h3 (List.mem_cons_of_mem _ h)⟩

theorem fresh_good (as : List (Act ν)) (hq : q → .stop ∉ as ∧ .leave ∉ as) :
    Good q (exec fits (fresh : Server ν) as).1 (exec fits fresh as).2 := by
  have := exec_good (fits := fits) (q := q) as (fresh : Server ν) [] (fun q => ⟨rfl, hq q⟩) ⟨by simp [fresh], by simp⟩
  simpa using this

theorem good_story {S : Server ν} {out : List (Msg ν)} (hg : Good q S out) (i : ℕ) :
    out.filter (fromRun i) = [] ∨ ∃ n m v k, k ≤ n ∧ (out.filter (fromRun i) = chapter i n m v k ∨
      out.filter (fromRun i) = chapter i n m v k ++ [.done i] ∧ (q → k = n)) := by
  rcases ht : S.tasks[i]? with _ | ⟨n, p⟩
  · exact .inl (hg.2 i (List.getElem?_eq_none_iff.1 ht))
  · have h := hg.1 i _ ht
    rcases p with _ | m | ⟨m, v, k⟩ | _ <;> simp only [Told] at h
    · exact .inl h
    · exact .inr ⟨n, m, m, 0, Nat.zero_le _, .inl (by rw [h]; rfl)⟩
    · exact .inr ⟨n, m, v, k, h.1, .inl h.2⟩
    · rcases h with h | ⟨m, v, k, h⟩
      · exact .inl h
      · exact .inr ⟨n, m, v, k, h⟩

/-- **C134** Whatever happens in whatever order, the messages of a run are its announcement, its bundles in order without gaps or
doubles, and at most one word that it is done, at the end. -/
theorem run_story (as : List (Act ν)) (i : ℕ) :
    (exec fits fresh as).2.filter (fromRun i) = [] ∨
      ∃ n m v k, k ≤ n ∧ ((exec fits fresh as).2.filter (fromRun i) = chapter i n m v k ∨
        (exec fits fresh as).2.filter (fromRun i) = chapter i n m v k ++ [.done i]) := by
  rcases good_story (fresh_good (fits := fits) (q := False) as (fun h => h.elim)) i with h | ⟨n, m, v, k, h1, h2 | ⟨h2, -⟩⟩
  · exact .inl h
  · exact .inr ⟨n, m, v, k, h1, .inl h2⟩
  · exact .inr ⟨n, m, v, k, h1, .inr h2⟩

/-- **C134** If nothing is stopped, a run that says it is done has sent all its bundles. -/
theorem done_means_all (as : List (Act ν)) (hs : .stop ∉ as) (hl : .leave ∉ as) (i : ℕ) (hd : .done i ∈ (exec fits fresh as).2) :
    ∃ n m v, (exec fits fresh as).2.filter (fromRun i) = chapter i n m v n ++ [.done i] := by
  have hd : Msg.done i ∈ (exec fits fresh as).2.filter (fromRun i) := List.mem_filter.2 ⟨hd, by simp [fromRun]⟩
  rcases good_story (fresh_good (fits := fits) (q := True) as (fun _ => ⟨hs, hl⟩)) i with h | ⟨n, m, v, k, h1, h2 | ⟨h2, h3⟩⟩
  · rw [h] at hd
    cases hd
  · rw [h2] at hd
    simp [chapter] at hd
  · rw [h3 trivial] at h2
    exact ⟨n, m, v, h2⟩

/-! ### Stopping -/

theorem turn_stopped {S : Server ν} (hs : S.stop = true) (i : ℕ) (fails : Bool) (t : Task ν) :
    (turn fits S i fails t).1.stop = true ∧ ∀ m ∈ (turn fits S i fails t).2, carries m = false := by
  obtain ⟨n, p⟩ := t
  unfold turn
  rcases p with _ | m | ⟨m, v, k⟩ | _
  · dsimp only
    rcases S.scene with _ | v
    · exact ⟨hs, by simp⟩
    · dsimp only
      split_ifs <;> exact ⟨hs, by simp [carries]⟩
  · dsimp only
    rcases S.scene with _ | v <;> exact ⟨hs, by simp⟩
  · dsimp only
    rw [hs]
    simp only [or_true, if_true]
    split_ifs <;> exact ⟨hs, by simp [carries]⟩
  · exact ⟨hs, by simp⟩

theorem step_stopped {S : Server ν} (hs : S.stop = true) {a : Act ν} (ha : ∀ n, a ≠ .run n) :
    (step fits S a).1.stop = true ∧ ∀ m ∈ (step fits S a).2, carries m = false := by
  cases a with
  | edit v => exact ⟨hs, by simp [step]⟩
  | run n => exact absurd rfl (ha n)
  | stop =>
    unfold step
    dsimp only
    split_ifs
    · exact ⟨rfl, by simp⟩
    · exact ⟨hs, by simp⟩
  | leave =>
    unfold step
    dsimp only
    split_ifs
    · exact ⟨rfl, by simp⟩
    · exact ⟨hs, by simp⟩
  | turn i fails =>
    unfold step
    dsimp only
    rcases S.tasks[i]? with _ | t
    · exact ⟨hs, by simp⟩
    · exact turn_stopped hs i fails t

theorem stopped_from (as : List (Act ν)) : ∀ (S : Server ν), S.stop = true → (∀ n, .run n ∉ as) →
    ∀ m ∈ (exec fits S as).2, carries m = false := by
  induction as with
  | nil => intro S _ _ m hm; simp [exec] at hm
  | cons a as ih =>
    intro S hs hn m hm
    obtain ⟨h1, h2⟩ := step_stopped (fits := fits) hs (a := a) fun n h => hn n (h ▸ List.mem_cons_self)
    rw [exec_cons] at hm
    rcases List.mem_append.1 hm with h | h
    · exact h2 m h
    · exact ih _ h1 (fun n h => hn n (List.mem_cons_of_mem _ h)) m h

/-- **C134** After a stop no results come any more, of any run, until a run is asked for. -/
theorem stop_stops (S : Server ν) (hc : S.connected = true) (as : List (Act ν)) (hn : ∀ n, .run n ∉ as) :
    ∀ m ∈ (exec fits S (.stop :: as)).2, carries m = false := by
  rw [exec_cons]
  intro m hm
  have e : step fits S .stop = ({ S with stop := true }, []) := by simp [step, hc]
  rw [e, List.nil_append] at hm
  exact stopped_from as _ rfl hn m hm

/-- **C134** (violated) But what the page does to start a run, a stop and a run, is the same as only asking for the run: runs that are
going on never see the stop. -/
theorem stop_lost (S : Server ν) (hs : S.scene ≠ none) (n : ℕ) (as : List (Act ν)) :
    exec fits S (startRun n ++ as) = exec fits S (.run n :: as) := by
  obtain ⟨scene, stop, tasks, connected⟩ := S
  rcases scene with _ | v
  · exact absurd rfl hs
  · cases connected <;> rfl

/-! ### Finishing -/

/-- An upper bound for the turns a task still needs. -/
def needs (t : Task ν) : ℕ :=
  match t.phase with
  | .created => t.total + 3
  | .announced _ => t.total + 2
  | .tracing _ _ k => t.total - k + 1
  | .over => 0

/-- A turn changes only the phase of its task. -/
theorem turn_needs {S : Server ν} {i : ℕ} {t : Task ν} (fails : Bool) (ht : S.tasks[i]? = some t) :
    ∃ p, (turn fits S i fails t).1.tasks = S.tasks.set i { t with phase := p } ∧ needs { t with phase := p } ≤ needs t - 1 := by
  obtain ⟨hl, he⟩ := List.getElem?_eq_some_iff.1 ht
  obtain ⟨n, p⟩ := t
  unfold turn
  rcases p with _ | m | ⟨m, v, k⟩ | _
  · dsimp only
    rcases S.scene with _ | v
    · exact ⟨_, rfl, by simp [needs]⟩
    · dsimp only
      split_ifs
      · exact ⟨_, rfl, by simp [needs]⟩
      · exact ⟨_, rfl, by simp [needs]⟩
  · dsimp only
    rcases S.scene with _ | v
    · exact ⟨_, rfl, by simp [needs]⟩
    · exact ⟨_, rfl, by simp [needs]⟩
  · dsimp only
    split_ifs with h1 h2 h3
    · exact ⟨_, rfl, by simp [needs]⟩
    · exact ⟨_, rfl, by simp [needs]⟩
    · exact ⟨_, rfl, by simp [needs]⟩
    · exact ⟨_, rfl, by simp only [needs]; omega⟩
    · exact ⟨_, rfl, by simp [needs]⟩
  · refine ⟨.over, ?_, by simp [needs]⟩
    dsimp only
    rw [← he, List.set_getElem_self]

theorem step_needs {S : Server ν} {i : ℕ} {t : Task ν} (a : Act ν) (ht : S.tasks[i]? = some t) :
    ∃ t', (step fits S a).1.tasks[i]? = some t' ∧ needs t' ≤ needs t - turnsOf i [a] := by
  obtain ⟨hl, he⟩ := List.getElem?_eq_some_iff.1 ht
  have z : ∀ b : Act ν, (∀ f, b ≠ .turn i f) → turnsOf i [b] = 0 := by
    intro b hb
    cases b with
    | turn j f =>
      have : j ≠ i := fun h => hb f (h ▸ rfl)
      simp [turnsOf, this]
    | _ => rfl
  cases a with
  | edit v => exact ⟨t, ht, by rw [z _ (by simp)]; exact Nat.le_refl _⟩
  | run n =>
    rw [z _ (by simp)]
    unfold step
    dsimp only
    split_ifs
    · rcases S.scene with _ | v
      · exact ⟨t, ht, Nat.le_refl _⟩
      · exact ⟨t, by dsimp only; rw [List.getElem?_append_left hl, ht], Nat.le_refl _⟩
    · exact ⟨t, ht, Nat.le_refl _⟩
  | stop =>
    rw [z _ (by simp)]
    unfold step
    dsimp only
    split_ifs <;> exact ⟨t, ht, Nat.le_refl _⟩
  | leave =>
    rw [z _ (by simp)]
    unfold step
    dsimp only
    split_ifs
    · by_cases hi : S.tasks.length - 1 = i
      · subst hi
        exact ⟨_, List.getElem?_set_self hl, by simp [needs]⟩
      · exact ⟨t, by dsimp only; rw [List.getElem?_set_ne hi, ht], Nat.le_refl _⟩
    · exact ⟨t, ht, Nat.le_refl _⟩
  | turn j fails =>
    by_cases hj : j = i
    · subst hj
      obtain ⟨p, h1, h2⟩ := turn_needs (fits := fits) fails ht
      refine ⟨{ t with phase := p }, ?_, by simpa [turnsOf] using h2⟩
      unfold step
      dsimp only
      rw [ht]
      dsimp only
      rw [h1, List.getElem?_set_self hl]
    · rw [z _ (by simp [hj])]
      refine ⟨t, ?_, Nat.le_refl _⟩
      unfold step
      dsimp only
      rcases hu : S.tasks[j]? with _ | u
      · exact ht
      · obtain ⟨p, h1, -⟩ := turn_needs (fits := fits) fails hu
        dsimp only
        rw [h1, List.getElem?_set_ne hj, ht]

theorem exec_needs (as : List (Act ν)) : ∀ (S : Server ν) (i : ℕ) (t : Task ν), S.tasks[i]? = some t →
    ∃ t', (exec fits S as).1.tasks[i]? = some t' ∧ needs t' ≤ needs t - turnsOf i as := by
  induction as with
  | nil => intro S i t h; exact ⟨t, h, by simp [turnsOf]⟩
  | cons a as ih =>
    intro S i t h
    obtain ⟨t1, h1, h2⟩ := step_needs (fits := fits) a h
    obtain ⟨t2, h3, h4⟩ := ih _ _ _ h1
    refine ⟨t2, by rw [exec_cons]; exact h3, ?_⟩
    have : turnsOf i (a :: as) = turnsOf i [a] + turnsOf i as := by
      rw [← List.singleton_append]
      exact List.countP_append
    omega

/-- **C134** Every run comes to an end: `n` bundles take at most `n + 3` turns, whatever else happens. -/
theorem run_ends (S : Server ν) (as : List (Act ν)) (i : ℕ) (t : Task ν) (ht : S.tasks[i]? = some t) (h : t.total + 3 ≤ turnsOf i as) :
    ∃ t', (exec fits S as).1.tasks[i]? = some t' ∧ t'.phase = .over := by
  obtain ⟨t', h1, h2⟩ := exec_needs (fits := fits) as S i t ht
  have h3 : needs t ≤ t.total + 3 := by
    obtain ⟨n, p⟩ := t
    rcases p with _ | m | ⟨m, v, k⟩ | _ <;> simp only [needs] <;> omega
  have h2 : needs t' = 0 := by omega
  refine ⟨t', h1, ?_⟩
  obtain ⟨n, p⟩ := t'
  rcases p with _ | m | ⟨m, v, k⟩ | _ <;> simp only [needs] at h2
  · omega
  · omega
  · omega
  · rfl

/-! ### What the page shows -/

/-- What a task in its phase means for the page. -/
def Aligned (S : Server ν) (P : Page ν) (i : ℕ) (t : Task ν) : Prop :=
  match t.phase with
  | .announced m => P.labels = some (i, m) ∧ S.scene = some m
  | .tracing m v _ => P.labels = some (i, m) ∧ m = v
  | _ => True

def Calm (S : Server ν) (P : Page ν) : Prop :=
  (∀ i t, S.tasks[i]? = some t → t.phase ≠ .over → i + 1 = S.tasks.length) ∧
  (∀ i t, S.tasks[i]? = some t → Aligned S P i t) ∧ Matches P

theorem put_calm {S : Server ν} {P P' : Page ν} {i : ℕ} {t : Task ν} {p : Phase ν} (hc : Calm S P) (ht : S.tasks[i]? = some t)
    (ho : t.phase ≠ .over) (ha : Aligned S P' i { t with phase := p }) (hm : Matches P') : Calm (S.put i t p) P' := by
  obtain ⟨hl, he⟩ := List.getElem?_eq_some_iff.1 ht
  have hi := hc.1 i t ht ho
  have other : ∀ j u, (S.put i t p).tasks[j]? = some u → j ≠ i → u.phase = .over := by
    intro j u hu hj
    simp only [Server.put, List.getElem?_set_ne (Ne.symm hj)] at hu
    by_contra h
    have := hc.1 j u hu h
    omega
  refine ⟨fun j u hu h => ?_, fun j u hu => ?_, hm⟩
  · by_cases hj : j = i
    · subst hj
      simpa [Server.put] using hi
    · exact absurd (other j u hu hj) h
  · by_cases hj : j = i
    · subst hj
      simp only [Server.put, List.getElem?_set_self hl, Option.some.injEq] at hu
      rw [← hu]
      exact ha
    · have := other j u hu hj
      simp [Aligned, this]

theorem turn_calm {S : Server ν} {P : Page ν} {i : ℕ} {t : Task ν} (fails : Bool) (hc : Calm S P) (ht : S.tasks[i]? = some t) :
    Calm (turn fits S i fails t).1 (P.readAll (turn fits S i fails t).2) := by
  have ha := hc.2.1 i t ht
  obtain ⟨n, p⟩ := t
  unfold turn
  rcases p with _ | m | ⟨m, v, k⟩ | _
  · dsimp only
    rcases hs : S.scene with _ | v
    · exact put_calm hc ht (by simp) trivial hc.2.2
    · dsimp only
      split_ifs
      · refine put_calm hc ht (by simp) ⟨rfl, hs⟩ ?_
        intro r v k h
        cases h
      · exact put_calm hc ht (by simp) trivial hc.2.2
  · dsimp only
    rcases hs : S.scene with _ | v
    · exact put_calm hc ht (by simp) trivial hc.2.2
    · refine put_calm hc ht (by simp) ⟨ha.1, ?_⟩ hc.2.2
      have := ha.2
      rw [hs] at this
      cases this
      rfl
  · dsimp only
    split_ifs
    · exact put_calm hc ht (by simp) trivial hc.2.2
    · exact put_calm hc ht (by simp) trivial hc.2.2
    · exact put_calm hc ht (by simp) trivial hc.2.2
    · obtain ⟨h1, rfl⟩ := ha
      refine put_calm hc ht (by simp) ⟨h1, rfl⟩ ?_
      intro r v k h
      cases h
      exact h1
    · exact put_calm hc ht (by simp) trivial hc.2.2
  · exact hc

theorem step_calm {S : Server ν} {P : Page ν} {a : Act ν} (hw : (∃ v, a = .edit v) ∨ (∃ n, a = .run n) → Idle S) (hc : Calm S P) :
    Calm (step fits S a).1 (P.readAll (step fits S a).2) := by
  cases a with
  | edit v =>
    have hi := hw (.inl ⟨v, rfl⟩)
    refine ⟨fun i t h ho => absurd (hi t (List.mem_of_getElem? h)) ho, fun i t h => ?_, hc.2.2⟩
    have := hi t (List.mem_of_getElem? h)
    simp [Aligned, this]
  | run n =>
    have hi := hw (.inr ⟨n, rfl⟩)
    unfold step
    dsimp only
    split_ifs
    · rcases S.scene with _ | v
      · exact hc
      · refine ⟨fun i t h ho => ?_, fun i t h => ?_, hc.2.2⟩
        · dsimp only at h ⊢
          by_cases hl : i < S.tasks.length
          · rw [List.getElem?_append_left hl] at h
            exact absurd (hi t (List.mem_of_getElem? h)) ho
          · obtain ⟨h1, -⟩ := List.getElem?_eq_some_iff.1 h
            simp only [List.length_append, List.length_singleton] at h1 ⊢
            omega
        · dsimp only at h
          rcases List.mem_append.1 (List.mem_of_getElem? h) with h | h
          · simp [Aligned, hi t h]
          · rw [List.mem_singleton.1 h]
            trivial
    · exact hc
  | stop =>
    unfold step
    dsimp only
    split_ifs <;> exact hc
  | leave =>
    unfold step
    dsimp only
    split_ifs
    · have key : ∀ (i : ℕ) (t : Task ν), (S.tasks.set (S.tasks.length - 1) { S.tasks.getLastD ⟨0, .over⟩ with phase := .over })[i]? = some t →
          t.phase = .over := by
        intro i t h
        by_cases hi : S.tasks.length - 1 = i
        · subst hi
          obtain ⟨hl, -⟩ := List.getElem?_eq_some_iff.1 h
          rw [List.length_set] at hl
          rw [List.getElem?_set_self hl, Option.some.injEq] at h
          rw [← h]
        · rw [List.getElem?_set_ne hi] at h
          by_contra ho
          have := hc.1 i t h ho
          omega
      refine ⟨fun i t h ho => absurd (key i t h) ho, fun i t h => ?_, hc.2.2⟩
      simp [Aligned, key i t h]
    · exact hc
  | turn i fails =>
    unfold step
    dsimp only
    rcases ht : S.tasks[i]? with _ | t
    · exact hc
    · exact turn_calm fails hc ht

theorem exec_calm (as : List (Act ν)) : ∀ (S : Server ν) (P : Page ν), Waits fits S as → Calm S P →
    Matches (P.readAll (exec fits S as).2) := by
  induction as with
  | nil => intro S P _ h; exact h.2.2
  | cons a as ih =>
    intro S P hw h
    rw [exec_cons]
    unfold Page.readAll
    rw [List.foldl_append]
    exact ih _ _ hw.2 (step_calm hw.1 h)

/-- **C134** For a user who waits for a run to end before changing the scene or starting the next, what is shown is always from the run whose
labels are shown, and from the scene they are made for. -/
theorem shown_matches_partial (as : List (Act ν)) (hw : Waits fits fresh as) : Matches ((blank : Page ν).readAll (exec fits fresh as).2) :=
  exec_calm as fresh blank hw ⟨by simp [fresh], by simp [fresh], by simp [Matches, blank]⟩

/-! ### What goes wrong otherwise -/

/-- **C134** (violated) A run is going on, the user moves something and the page starts a new run: the counts of the old run for the old
scene are shown with the labels of the new one. -/
theorem old_shown : (blank : Page ℕ).readAll (exec (fun _ _ => true) fresh
    ([.edit 1, .run 3, .turn 0 false, .turn 0 false, .turn 0 false, .edit 2] ++ startRun 3 ++ [.turn 1 false, .turn 0 false])).2 =
      ⟨some (1, 2), some (0, 1, 2), [0], (2, 3)⟩ := by decide

/-- **C134** (violated) And the old run can have the last word: everything has ended, and the page shows the scene as it was before. -/
theorem old_stays : (exec (fun _ _ => true) (fresh : Server ℕ)
    ([.edit 1, .run 2, .turn 0 false, .turn 0 false, .turn 0 false, .edit 2] ++ startRun 1 ++
      [.turn 1 false, .turn 1 false, .turn 1 false, .turn 1 false, .turn 0 false, .turn 0 false])).1.tasks.map (·.phase) = [.over, .over] ∧
    ((blank : Page ℕ).readAll (exec (fun _ _ => true) fresh
    ([.edit 1, .run 2, .turn 0 false, .turn 0 false, .turn 0 false, .edit 2] ++ startRun 1 ++
      [.turn 1 false, .turn 1 false, .turn 1 false, .turn 1 false, .turn 0 false, .turn 0 false])).2).latest = some (0, 1, 2) := by decide

/-- **C134** (violated) An edit between the announcement of a run and its first bundle: the run counts in one scene and is labelled
for another. -/
theorem wrong_labels : (exec (fun _ _ => true) (fresh : Server ℕ)
    [.edit 1, .run 2, .turn 0 false, .edit 2, .turn 0 false, .turn 0 false]).2 = [.started 0 2 1, .bundle 0 1 2 1 2] := by decide

/-- **C134** (violated) If the arrays do not even have the same size, or tracing raises, the run ends without a word. -/
theorem no_word : (exec (fun a b => a = b) (fresh : Server ℕ)
    [.edit 1, .run 2, .turn 0 false, .edit 2, .turn 0 false, .turn 0 false, .turn 0 false]).2 = [.started 0 2 1] ∧
    (exec (fun a b => a = b) (fresh : Server ℕ)
    [.edit 1, .run 2, .turn 0 false, .turn 0 false, .turn 0 true, .turn 0 false]).2 = [.started 0 2 1] := by decide

/-! ### The hypotheses are met -/

/-- A user who waits: two runs one after the other, with an edit between. -/
def patient : List (Act ℕ) := [.edit 1, .run 1, .turn 0 false, .turn 0 false, .turn 0 false, .turn 0 false, .edit 2, .run 2,
  .turn 1 false, .turn 1 false, .turn 1 false, .stop, .turn 1 false]

instance (S : Server ℕ) : Decidable (Idle S) := inferInstanceAs (Decidable (∀ t ∈ S.tasks, t.phase = .over))

example : Waits (fun _ _ => true) fresh patient := by
  simp only [patient, Waits, reduceCtorEq, exists_false, or_false, false_or, false_imp_iff, Act.edit.injEq, Act.run.injEq, exists_eq',
    true_imp_iff, true_and, and_true]
  decide

example : ((blank : Page ℕ).readAll (exec (fun _ _ => true) fresh patient).2) = ⟨some (1, 2), some (1, 2, 1), [1], (1, 1)⟩ := by decide

example : (exec (fun _ _ => true) (fresh : Server ℕ) (patient.take 6)).2.filter (fromRun 0) = chapter 0 1 1 1 1 ++ [.done 0] := by decide

example : (exec (fun _ _ => true) (fresh : Server ℕ) (patient.take 2)).1.tasks[0]? = some ⟨1, .created⟩ ∧
    1 + 3 ≤ turnsOf 0 (patient.drop 2) := by decide

end PV.StudioRun
