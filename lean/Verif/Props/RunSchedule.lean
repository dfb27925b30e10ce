import Verif.Model.RunSchedule
import Mathlib.Algebra.BigOperators.Group.Finset.Basic
import Mathlib.Algebra.BigOperators.Intervals
import Mathlib.Tactic.Linarith

/-!
C69 a studio run reports one scene, C70 stop stops, over all schedules of the event loop.
-/

namespace PV.Run
open Finset
variable {σ R : Type}

/-- Totals of a scene are added up. -/
def Machine.Adds [AddCommMonoid R] (M : Machine σ R) : Prop :=
  M.zero = 0 ∧ ∀ s a r, M.accumulate s s a r = some (a + r)

/-- What a task sends before and while it is at some point of its run of scene `c`. -/
def reports [AddCommMonoid R] (M : Machine σ R) (c : σ) (k : ℕ) : List (Msg σ R) :=
  .started c :: (List.range k).map fun j => .bundle c (j + 1) (∑ i ∈ range (j + 1), M.res c i)

/-- The task has compiled, streamed and reported one scene. -/
def Task.OneScene [AddCommMonoid R] (M : Machine σ R) (t : Task σ R) : Prop :=
  match t.pc with
  | .created => t.out = []
  | .started c => t.out = reports M c 0
  | .waiting c s k acc => c = s ∧ acc = ∑ i ∈ range k, M.res c i ∧ t.out = reports M c k ∧ k ≤ t.total
  | .sending c s k acc => c = s ∧ acc = ∑ i ∈ range k, M.res c i ∧ t.out = reports M c k ∧ k ≤ t.total
  | .finished => ∃ c k, t.out = reports M c k ++ [.done] ∧ k ≤ t.total
  | .failed => False

/-- Whoever is between compiling and streaming has compiled the present scene. -/
def Task.Fresh (scene : σ) (t : Task σ R) : Prop := ∀ c, t.pc = .started c → c = scene

/-- No document is applied while a task is between `compile_scene` and `simulate_stream`. -/
def Undisturbed (M : Machine σ R) (w : World σ R) : List (Act σ) → Prop
  | [] => True
  | a :: as =>
    (∀ s, a = .edit s → ∀ t ∈ w.tasks, ∀ c, t.pc ≠ .started c) ∧ Undisturbed M (w.step M a) as

theorem reports_succ [AddCommMonoid R] (M : Machine σ R) (c : σ) (k : ℕ) :
    reports M c (k + 1) = reports M c k ++ [.bundle c (k + 1) (∑ i ∈ range (k + 1), M.res c i)] := by
  simp [reports, List.range_succ]

theorem advance_oneScene [AddCommMonoid R] {M : Machine σ R} (hM : M.Adds) {scene : σ} {stop : Bool}
    {t : Task σ R} (h : t.OneScene M) (hf : t.Fresh scene) :
    (t.advance M scene stop).OneScene M ∧ (t.advance M scene stop).Fresh scene := by
  obtain ⟨total, pc, out⟩ := t
  cases pc with
  | created =>
    simp only [Task.OneScene] at h
    subst h
    simp [Task.advance, Task.OneScene, Task.Fresh, reports]
  | started c =>
    simp only [Task.OneScene] at h
    have hc := hf c rfl
    subst hc
    simp [Task.advance, Task.OneScene, Task.Fresh, h, hM.1]
  | waiting c s k acc =>
    simp only [Task.OneScene] at h
    obtain ⟨rfl, rfl, rfl, hk⟩ := h
    simp only [Task.advance]
    split
    · exact ⟨⟨c, k, rfl, hk⟩, fun c h => by cases h⟩
    · rename_i hn
      rw [not_or, not_le] at hn
      rw [hM.2]
      dsimp only
      refine ⟨⟨rfl, ?_, ?_, hn.1⟩, fun c h => by cases h⟩
      · rw [sum_range_succ]
      · rw [reports_succ, sum_range_succ]
  | sending c s k acc =>
    exact ⟨h, fun c h => by cases h⟩
  | finished => exact ⟨h, hf⟩
  | failed => exact absurd h id

theorem mem_modify {l : List (Task σ R)} {i : ℕ} {f : Task σ R → Task σ R} {t : Task σ R}
    (h : t ∈ l.modify i f) : t ∈ l ∨ ∃ u ∈ l, t = f u := by
  obtain ⟨j, hj, e⟩ := List.getElem_of_mem h
  rw [List.getElem_modify] at e
  have hj' : j < l.length := by simpa using hj
  split at e
  · exact .inr ⟨l[j], List.getElem_mem hj', e.symm⟩
  · exact .inl (by rw [← e]; exact List.getElem_mem hj')

/-- **C69**. In every schedule in which no document is applied between a task's compilation and its
first bundle: each task sends the recorder labels of one scene, and after `k` bundles the sum of the
first `k` results of that same scene. Edits at all other times do not matter. -/
theorem one_scene_partial [AddCommMonoid R] {M : Machine σ R} (hM : M.Adds) (acts : List (Act σ))
    {w : World σ R} (h : ∀ t ∈ w.tasks, t.OneScene M ∧ t.Fresh w.scene) (hu : Undisturbed M w acts) :
    ∀ t ∈ (w.exec M acts).tasks, t.OneScene M := by
  induction acts generalizing w with
  | nil => exact fun t ht => (h t ht).1
  | cons a acts ih =>
    refine ih (w := w.step M a) ?_ hu.2
    cases a with
    | edit s =>
      intro t ht
      exact ⟨(h t ht).1, fun c hc => absurd hc (hu.1 s rfl t ht c)⟩
    | run n =>
      intro t ht
      rcases List.mem_append.1 ht with ht | ht
      · exact h t ht
      · rw [List.mem_singleton] at ht
        subst ht
        exact ⟨rfl, fun c hc => by cases hc⟩
    | stop => exact h
    | resume i =>
      intro t ht
      rcases mem_modify ht with ht | ⟨u, hu', rfl⟩
      · exact h t ht
      · exact advance_oneScene hM (h u hu').1 (h u hu').2

/-- How far a task is. -/
def Task.progress (t : Task σ R) : ℕ :=
  match t.pc with
  | .created => 0
  | .started _ => 1
  | .waiting _ _ k _ => 2 * k + 2
  | .sending _ _ k _ => 2 * k + 1
  | .finished => 2 * t.total + 3
  | .failed => 2 * t.total + 3

/-- A finished task has reported all its bundles. -/
def Task.Full [AddCommMonoid R] (M : Machine σ R) (t : Task σ R) : Prop :=
  t.pc = .finished → ∃ c, t.out = reports M c t.total ++ [.done]

theorem advance_progress [AddCommMonoid R] {M : Machine σ R} (hM : M.Adds) {scene : σ} {t : Task σ R}
    (h : t.OneScene M) (hf : t.Full M) :
    (t.advance M scene false).Full M ∧ (t.advance M scene false).total = t.total ∧
      min (2 * t.total + 3) (t.progress + 1) ≤ (t.advance M scene false).progress := by
  obtain ⟨total, pc, out⟩ := t
  cases pc with
  | created => exact ⟨fun h => (by cases h), rfl, by simp [Task.advance, Task.progress]⟩
  | started c => exact ⟨fun h => (by cases h), rfl, by simp [Task.advance, Task.progress]⟩
  | waiting c s k acc =>
    simp only [Task.OneScene] at h
    obtain ⟨rfl, rfl, rfl, hk⟩ := h
    simp only [Task.advance, Bool.false_eq_true, or_false]
    split
    · rename_i hn
      obtain rfl : k = total := le_antisymm hk hn
      exact ⟨fun _ => ⟨c, rfl⟩, rfl, by simp [Task.progress]⟩
    · rw [hM.2]
      exact ⟨fun h => (by cases h), rfl, by simp only [Task.progress]; omega⟩
  | sending c s k acc => exact ⟨fun h => (by cases h), rfl, by simp only [Task.advance, Task.progress]; omega⟩
  | finished => exact ⟨hf, rfl, by simp only [Task.advance, Task.progress]; omega⟩
  | failed => exact absurd h id

theorem progress_counts [AddCommMonoid R] [DecidableEq σ] {M : Machine σ R} (hM : M.Adds)
    (acts : List (Act σ)) {w : World σ R} (h : ∀ t ∈ w.tasks, t.OneScene M ∧ t.Fresh w.scene)
    (hu : Undisturbed M w acts) (hstop : w.stop = false) (hs : .stop ∉ acts) {i : ℕ} {t : Task σ R}
    (hi : w.tasks[i]? = some t) (hfull : t.Full M) :
    ∃ u, (w.exec M acts).tasks[i]? = some u ∧ u.total = t.total ∧ u.Full M ∧
      min (2 * t.total + 3) (t.progress + acts.count (.resume i)) ≤ u.progress := by
  induction acts generalizing w t with
  | nil => exact ⟨t, hi, rfl, hfull, by simp⟩
  | cons a acts ih =>
    have hs' : .stop ∉ acts := fun h => hs (List.mem_cons_of_mem _ h)
    have hone : ∀ t ∈ (w.step M a).tasks, t.OneScene M ∧ t.Fresh (w.step M a).scene := by
      cases a with
      | edit s =>
        intro t ht
        exact ⟨(h t ht).1, fun c hc => absurd hc (hu.1 s rfl t ht c)⟩
      | run n =>
        intro t ht
        rcases List.mem_append.1 ht with ht | ht
        · exact h t ht
        · rw [List.mem_singleton] at ht
          subst ht
          exact ⟨rfl, fun c hc => by cases hc⟩
      | stop => exact h
      | resume i =>
        intro t ht
        rcases mem_modify ht with ht | ⟨u, hu', rfl⟩
        · exact h t ht
        · exact advance_oneScene hM (h u hu').1 (h u hu').2
    have hst : (w.step M a).stop = false := by
      cases a with
      | stop => exact absurd List.mem_cons_self hs
      | _ => first | exact hstop | rfl
    by_cases ha : a = .resume i
    · subst ha
      have hi' : (w.step M (.resume i)).tasks[i]? = some (t.advance M w.scene false) := by
        simp [World.step, hstop, hi]
      obtain ⟨f1, f2, f3⟩ := advance_progress hM (scene := w.scene)
        (h t (List.mem_of_getElem? hi)).1 hfull
      obtain ⟨u, u1, u2, u3, u4⟩ := ih hone hu.2 hst hs' hi' f1
      refine ⟨u, u1, u2.trans f2, u3, ?_⟩
      rw [List.count_cons_self]
      rw [f2] at u4
      omega
    · have hi' : (w.step M a).tasks[i]? = some t := by
        cases a with
        | edit s => exact hi
        | stop => exact hi
        | run n =>
          have hl : i < w.tasks.length := by
            by_contra hc
            rw [List.getElem?_eq_none (not_lt.1 hc)] at hi
            cases hi
          simp only [World.step]
          rw [List.getElem?_append_left hl, hi]
        | resume j =>
          have : j ≠ i := fun e => ha (by rw [e])
          simp only [World.step]
          simp [List.getElem?_modify, this, hi]
      obtain ⟨u, u1, u2, u3, u4⟩ := ih hone hu.2 hst hs' hi' hfull
      exact ⟨u, u1, u2, u3, by rw [List.count_cons_of_ne (fun e => ha e)]; exact u4⟩

/-- **C69**. A run of `n` bundles that is never stopped, resumed `2 * n + 3` times among anything
else, has sent exactly: the labels of a scene, the running totals of that scene after 1, …, `n`
bundles, and the end. -/
theorem run_complete [AddCommMonoid R] [DecidableEq σ] {M : Machine σ R} (hM : M.Adds)
    (acts : List (Act σ)) {w : World σ R} (h : ∀ t ∈ w.tasks, t.OneScene M ∧ t.Fresh w.scene)
    (hu : Undisturbed M w acts) (hstop : w.stop = false) (hs : .stop ∉ acts) {i n : ℕ}
    (hi : w.tasks[i]? = some { total := n }) (hn : 2 * n + 3 ≤ acts.count (.resume i)) :
    ∃ c, ((w.exec M acts).tasks[i]?).map Task.out = some (reports M c n ++ [.done]) := by
  obtain ⟨u, u1, u2, u3, u4⟩ := progress_counts hM acts h hu hstop hs hi (fun h => by cases h)
  have hone := one_scene_partial hM acts h hu u (List.mem_of_getElem? u1)
  have hp : 2 * n + 3 ≤ u.progress := by
    dsimp only at u4
    omega
  have hfin : u.pc = .finished := by
    obtain ⟨total, pc, out⟩ := u
    dsimp only at u2
    subst u2
    cases pc with
    | finished => rfl
    | failed => exact absurd hone id
    | created => simp [Task.progress] at hp
    | started c => simp [Task.progress] at hp
    | waiting c s k acc =>
      have := hone.2.2.2
      simp only [Task.progress] at hp
      dsimp only at this
      omega
    | sending c s k acc =>
      have := hone.2.2.2
      simp only [Task.progress] at hp
      dsimp only at this
      omega
  obtain ⟨c, hc⟩ := u3 hfin
  rw [u2] at hc
  exact ⟨c, by rw [u1, Option.map_some, hc]⟩

/-- The bundle messages sent. -/
def Task.bundles (t : Task σ R) : List (Msg σ R) :=
  t.out.filter fun m => match m with | .bundle .. => true | _ => false

theorem advance_stopped (M : Machine σ R) (scene : σ) (t : Task σ R) :
    (t.advance M scene true).bundles = t.bundles := by
  unfold Task.advance
  split <;> simp [Task.bundles]

/-- **C70**. After a stop message no task sends another bundle, as long as no run is started. -/
theorem stop_stops_partial (M : Machine σ R) (acts : List (Act σ)) (hr : ∀ n, .run n ∉ acts) {w : World σ R}
    (hw : w.stop = true) :
    ((w.exec M acts).tasks.map Task.bundles) = w.tasks.map Task.bundles := by
  induction acts generalizing w with
  | nil => rfl
  | cons a acts ih =>
    have hr' : ∀ n, .run n ∉ acts := fun n h => hr n (List.mem_cons_of_mem _ h)
    have step : (w.step M a).stop = true ∧
        (w.step M a).tasks.map Task.bundles = w.tasks.map Task.bundles := by
      cases a with
      | edit s => exact ⟨hw, rfl⟩
      | run n => exact absurd List.mem_cons_self (hr n)
      | stop => exact ⟨rfl, rfl⟩
      | resume i =>
        refine ⟨hw, ?_⟩
        simp only [World.step, hw]
        apply List.ext_getElem
        · simp
        · intro j h1 h2
          simp only [List.getElem_map, List.getElem_modify]
          split
          · exact advance_stopped M w.scene _
          · rfl
    exact (ih hr' step.1).trans step.2

/-- Scene `s` yields `s` counts a bundle. -/
def toy : Machine ℕ ℕ where
  zero := 0
  res s _ := s
  accumulate _ _ a r := some (a + r)

theorem toy_adds : toy.Adds := ⟨rfl, fun _ _ _ => rfl⟩

def compiledOf : Pc ℕ ℕ → Option ℕ
  | .started c => some c
  | _ => none

instance (w : World ℕ ℕ) (acts : List (Act ℕ)) : Decidable (Undisturbed toy w acts) := by
  induction acts generalizing w with
  | nil => exact isTrue trivial
  | cons a acts ih =>
    have : Decidable (∀ s, a = .edit s → ∀ t ∈ w.tasks, ∀ c, t.pc ≠ .started c) := by
      cases a with
      | edit s =>
        exact decidable_of_iff (∀ t ∈ w.tasks, ∀ c ∈ compiledOf t.pc, False)
          ⟨fun h s' _ t ht c hc => h t ht c (by rw [hc]; rfl), fun h t ht c hc => by
            refine h s rfl t ht c ?_
            unfold compiledOf at hc
            split at hc
            · rename_i hp
              rw [hp, Option.some.inj hc]
            · cases hc⟩
      | run n => exact isTrue fun s h => by cases h
      | stop => exact isTrue fun s h => by cases h
      | resume n => exact isTrue fun s h => by cases h
    have := ih (w.step toy a)
    exact instDecidableAnd

/-- A run with edits before it begins and while it streams. -/
def calm : List (Act ℕ) :=
  [.run 2, .edit 5, .resume 0, .resume 0, .edit 9, .resume 0, .resume 0, .resume 0, .resume 0, .resume 0]

example : Undisturbed toy ⟨3, false, [{ total := 2 }]⟩ (calm.drop 1) := by decide
example : (calm.drop 1).count (.resume 0) = 2 * 2 + 3 := by decide
example : (World.exec toy ⟨3, false, []⟩ calm).tasks.map Task.out =
    [[.started 5, .bundle 5 1 5, .bundle 5 2 10, .done]] := by decide
example : reports toy 5 2 ++ [.done] = [.started 5, .bundle 5 1 5, .bundle 5 2 10, .done] := by decide

/-- **C69 fails without the hypothesis**: a document applied while the `started` message is being
sent makes the run report the results of the new scene under the recorders of the old one. -/
theorem mixed_scenes : (World.exec toy ⟨3, false, []⟩
    [.run 1, .resume 0, .edit 8, .resume 0, .resume 0]).tasks.map Task.out =
      [[.started 3, .bundle 3 1 8]] := by decide

example : ¬ Undisturbed toy ⟨3, false, []⟩ [.run 1, .resume 0, .edit 8, .resume 0, .resume 0] := by
  decide

/-- Stopped while the second bundle is traced. -/
example : (World.exec toy ⟨3, false, []⟩
    [.run 9, .resume 0, .resume 0, .resume 0, .resume 0, .stop, .resume 0, .resume 0]).tasks.map Task.out =
      [[.started 3, .bundle 3 1 3, .done]] := by decide

/-- **C70 fails across runs**: a run started before the stopped one has noticed the flag revives it;
both then go on to the end. -/
theorem stopped_run_revived : (World.exec toy ⟨3, false, []⟩
    [.run 2, .resume 0, .resume 0, .resume 0, .resume 0, .stop, .run 1, .resume 0, .resume 0,
      .resume 0]).tasks.map Task.out =
      [[.started 3, .bundle 3 1 3, .bundle 3 2 6, .done], []] := by decide

end PV.Run
