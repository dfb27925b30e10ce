import Verif.Spec.Recorder
import Mathlib.Tactic.Ring
import Mathlib.Data.List.Induction
import Mathlib.Tactic.Common

namespace PV
set_option linter.unusedSectionVars false
open Spec
variable {α ν : Type} [Field α] [LinearOrder α] [FloorRing α]

theorem tallyMatches_iff (kind : Selector) (name : String) (s : Step α) :
    tallyMatches kind name s.event s.info = true ↔ SelectorEvent kind name s := by
  unfold tallyMatches SelectorEvent
  cases kind <;> cases s.event <;> simp

theorem facetOff_iff (atol : α) (f n : Vec3 α) :
    facetOff atol f n = false ↔
      |f.x - n.x| ≤ atol ∧ |f.y - n.y| ≤ atol ∧ |f.z - n.z| ≤ atol := by
  simp [facetOff, and_assoc]

open Classical in
/-- One event seen by one recorder. -/
noncomputable def one (E : TallyEnv α ν) (node : ν) (r : Recorder α)
    (p : Option (Ray α) × Step α) (seen : Bool) (st : TallyState α) : Bool × TallyState α :=
  if Counted E node r p.2 then
    if seen then (true, { st with crossings := st.crossings + 1 })
    else (true, TallyState.accumulate r { st with crossings := st.crossings + 1 }
      (valuesOf E node p))
  else (seen, st)

theorem eventNormal_eq {E : TallyEnv α ν} {node : ν} {step : Step α} {n : Option (Vec3 α)}
    (h : eventNormal E node step = .ok n) : n = normalOf E node step := by
  unfold eventNormal at h
  unfold normalOf
  split_ifs at h with h1
  · rw [h1.2]
    simp only [h1.1, if_true]
    cases he : E.exitNormal node step.ray.position with
    | error e => rw [he] at h; simp at h
    | ok m => rw [he] at h; simp at h; simp [Except.toOption, ← h]
  · cases h
    cases hnn : step.info.normal with
    | some m => rfl
    | none =>
      have : step.event ≠ .exit := fun he => h1 ⟨he, hnn⟩
      simp [this]

theorem facetSkip_iff (r : Recorder α) (n : Option (Vec3 α)) :
    facetSkip r n = false ↔ OnFacet r n := by
  unfold OnFacet facetSkip
  cases hf : r.facet with
  | none => simp
  | some f => cases n <;> simp [facetOff_iff]

theorem tallyPair_eq {E : TallyEnv α ν} {prev : Option (Ray α)} {step : Step α} {node : ν}
    {r : Recorder α} {seen seen' : List String} {st st' : TallyState α}
    (h : tallyPair E prev step node r seen st = .ok (seen', st')) :
    st' = (one E node r (prev, step) (decide (r.name ∈ seen)) st).2 ∧
    (r.name ∈ seen' ↔ (one E node r (prev, step) (decide (r.name ∈ seen)) st).1 = true) ∧
    ∀ x, x ≠ r.name → (x ∈ seen' ↔ x ∈ seen) := by
  unfold tallyPair at h
  by_cases hm : tallyMatches r.event (E.name node) step.event step.info = true
  swap
  · rw [if_pos (by simpa using hm)] at h
    have hc : ¬ Counted E node r step := fun hc => hm ((tallyMatches_iff _ _ _).2 hc.1)
    cases h
    simp [one, hc]
  · rw [if_neg (by simpa using hm)] at h
    have hi := (tallyMatches_iff _ _ _).1 hm
    cases hn : eventNormal E node step with
    | error e => rw [hn] at h; cases h
    | ok n =>
      rw [hn] at h
      have hn := eventNormal_eq hn
      subst hn
      dsimp only at h
      cases hb : facetSkip r (normalOf E node step) with
      | true =>
        have hc : ¬ Counted E node r step := fun hc => by
          simpa [hb] using (facetSkip_iff _ _).2 hc.2
        rw [hb, if_pos rfl] at h
        cases h
        simp [one, hc]
      | false =>
        have hc : Counted E node r step := ⟨hi, (facetSkip_iff _ _).1 hb⟩
        rw [hb, if_neg (by simp)] at h
        by_cases hs : r.name ∈ seen
        · rw [if_pos hs] at h
          cases h
          simp [one, hc, hs]
        · rw [if_neg hs] at h
          cases h
          refine ⟨?_, ?_, ?_⟩
          · simp only [one, hc, hs, if_true, decide_false, Bool.false_eq_true, if_false]
            rfl
          · simp [one, hc, hs]
          · intro y hy; simp [hy]

theorem tallyPairs_eq {E : TallyEnv α ν} {prev : Option (Ray α)} {step : Step α} :
    ∀ {ps ps' : List (ν × Recorder α × TallyState α)} {seen seen' : List String},
    (ps.map (·.2.1.name)).Nodup → tallyPairs E prev step ps seen = .ok (seen', ps') →
    ps' = ps.map (fun p => (p.1, p.2.1,
      (one E p.1 p.2.1 (prev, step) (decide (p.2.1.name ∈ seen)) p.2.2).2)) ∧
    (∀ p ∈ ps, (p.2.1.name ∈ seen' ↔
      (one E p.1 p.2.1 (prev, step) (decide (p.2.1.name ∈ seen)) p.2.2).1 = true)) ∧
    ∀ x, x ∉ ps.map (·.2.1.name) → (x ∈ seen' ↔ x ∈ seen) := by
  intro ps
  induction ps with
  | nil => intro ps' seen seen' _ h; simp only [tallyPairs] at h; cases h; simp
  | cons p ps ih =>
    intro ps' seen seen' hnd h
    obtain ⟨node, r, st⟩ := p
    simp only [tallyPairs] at h
    cases h1 : tallyPair E prev step node r seen st with
    | error e => rw [h1] at h; cases h
    | ok o =>
      obtain ⟨seen1, st1⟩ := o
      rw [h1] at h
      dsimp only at h
      cases h2 : tallyPairs E prev step ps seen1 with
      | error e => rw [h2] at h; cases h
      | ok o =>
        obtain ⟨seen2, ps2⟩ := o
        rw [h2] at h
        cases h
        simp only [List.map_cons, List.nodup_cons] at hnd
        obtain ⟨a1, a2, a3⟩ := tallyPair_eq h1
        obtain ⟨b1, b2, b3⟩ := ih hnd.2 h2
        have hne : ∀ q ∈ ps, q.2.1.name ≠ r.name := by
          intro q hq he
          exact hnd.1 (List.mem_map.2 ⟨q, hq, he⟩)
        have hsame : ∀ q ∈ ps, decide (q.2.1.name ∈ seen1) = decide (q.2.1.name ∈ seen) := by
          intro q hq
          simp [a3 _ (hne q hq)]
        refine ⟨?_, ?_, ?_⟩
        · rw [b1, a1, List.map_cons]
          congr 1
          refine List.map_congr_left fun q hq => ?_
          rw [hsame q hq]
        · intro q hq
          rcases List.mem_cons.1 hq with rfl | hq
          · rw [b3 _ hnd.1, a2]
          · rw [b2 q hq, hsame q hq]
        · intro x hx
          simp only [List.map_cons, List.mem_cons, not_or] at hx
          rw [b3 x hx.2, a3 x hx.1]

/-- One history seen by one recorder. -/
noncomputable def run (E : TallyEnv α ν) (node : ν) (r : Recorder α) :
    List (Step α) → Option (Ray α) → Bool → TallyState α → TallyState α
  | [], _, _, st => st
  | s :: rest, prev, seen, st =>
    let o := one E node r (prev, s) seen st
    run E node r rest (some s.ray) o.1 o.2

theorem tallyHistory_eq {E : TallyEnv α ν} :
    ∀ {h : List (Step α)} {prev : Option (Ray α)} {seen : List String}
      {ps ps' : List (ν × Recorder α × TallyState α)},
    (ps.map (·.2.1.name)).Nodup → tallyHistory E h prev seen ps = .ok ps' →
    ps' = ps.map (fun p => (p.1, p.2.1,
      run E p.1 p.2.1 h prev (decide (p.2.1.name ∈ seen)) p.2.2)) := by
  intro h
  induction h with
  | nil => intro prev seen ps ps' _ h; simp only [tallyHistory] at h; cases h; simp [run]
  | cons s rest ih =>
    intro prev seen ps ps' hnd h
    simp only [tallyHistory] at h
    cases h1 : tallyPairs E prev s ps seen with
    | error e => rw [h1] at h; cases h
    | ok o =>
      obtain ⟨seen1, ps1⟩ := o
      rw [h1] at h
      dsimp only at h
      obtain ⟨a1, a2, _⟩ := tallyPairs_eq hnd h1
      have hnd1 : (ps1.map (·.2.1.name)).Nodup := by
        rw [a1, List.map_map]
        exact hnd
      rw [ih hnd1 h, a1, List.map_map]
      refine List.map_congr_left fun q hq => ?_
      simp only [Function.comp, run]
      have := a2 q hq
      congr 3
      rw [Bool.eq_iff_iff]
      simpa using this

theorem tallyAll_eq {E : TallyEnv α ν} :
    ∀ {hs : List (List (Step α))} {ps ps' : List (ν × Recorder α × TallyState α)},
    (ps.map (·.2.1.name)).Nodup → tallyAll E hs ps = .ok ps' →
    ps' = ps.map (fun p => (p.1, p.2.1,
      hs.foldl (fun st h => run E p.1 p.2.1 h none false st) p.2.2)) := by
  intro hs
  induction hs with
  | nil => intro ps ps' _ h; simp only [tallyAll] at h; cases h; simp
  | cons h hs ih =>
    intro ps ps' hnd hh
    simp only [tallyAll] at hh
    cases h1 : tallyHistory E h none [] ps with
    | error e => rw [h1] at hh; cases hh
    | ok ps1 =>
      rw [h1] at hh
      dsimp only at hh
      have a1 := tallyHistory_eq hnd h1
      have hnd1 : (ps1.map (·.2.1.name)).Nodup := by
        rw [a1, List.map_map]
        exact hnd
      rw [ih hnd1 hh, a1, List.map_map]
      refine List.map_congr_left fun q hq => ?_
      simp

open Classical in
theorem run_eq (E : TallyEnv α ν) (node : ν) (r : Recorder α) :
    ∀ (h : List (Step α)) (prev : Option (Ray α)) (seen : Bool) (st : TallyState α),
    run E node r h prev seen st =
      let st' := { st with
        crossings := st.crossings + h.countP fun s => Counted E node r s }
      if seen then st'
      else match ((withPrev prev h).find? fun p => Counted E node r p.2).map (valuesOf E node) with
        | none => st'
        | some v => st'.accumulate r v := by
  intro h
  induction h with
  | nil => intro prev seen st; cases seen <;> simp [run, withPrev]
  | cons s rest ih =>
    intro prev seen st
    simp only [run]
    rw [ih]
    have hw : withPrev prev (s :: rest) = (prev, s) :: withPrev (some s.ray) rest := by
      simp [withPrev]
    rw [hw]
    by_cases hc : Counted E node r s
    · cases seen <;>
        simp [one, hc, TallyState.accumulate, add_assoc, add_comm 1]
    · cases seen <;> simp [one, hc]

/-- The bins of one histogram after the values `vs`. -/
def binsAfter (h : Hist α) (vs : List (Values α)) (b : ℕ → ℕ) (k : ℕ) : ℕ :=
  b k + vs.countP fun v => h.bin v = some k

theorem zipWith_map_right {β γ δ : Type} (f : β → γ → δ) (g : β → γ) :
    ∀ l : List β, List.zipWith f l (l.map g) = l.map fun x => f x (g x)
  | [] => rfl
  | x :: l => by simp [zipWith_map_right f g l]

open Classical in
theorem fold_run (E : TallyEnv α ν) (node : ν) (r : Recorder α) (hs : List (List (Step α))) :
    hs.foldl (fun st h => run E node r h none false st) (TallyState.init r) =
      { rays := (recorded E node r hs).length
        crossings := crossings E node r hs
        moments := fun i => (((recorded E node r hs).map fun v => v.get (momentProp i)).sum,
          ((recorded E node r hs).map fun v => v.get (momentProp i) * v.get (momentProp i)).sum)
        bins := r.hists.map fun h k => (recorded E node r hs).countP fun v => h.bin v = some k } := by
  induction hs using List.reverseRecOn with
  | nil => simp [recorded, crossings, TallyState.init]
  | append_singleton hs h ih =>
    rw [List.foldl_append, List.foldl_cons, List.foldl_nil, ih, run_eq]
    have hc : crossings E node r (hs ++ [h]) =
        crossings E node r hs + h.countP fun s => Counted E node r s := by
      simp [crossings]
    have hr : recorded E node r (hs ++ [h]) =
        recorded E node r hs ++ (firstValues E node r h).toList := by
      unfold recorded
      rw [List.filterMap_append]
      congr 1
    rw [hc, hr]
    simp only [Bool.false_eq_true, if_false]
    change (match firstValues E node r h with | none => _ | some v => _) = _
    cases hf : firstValues E node r h with
    | none => simp
    | some v =>
      simp only [TallyState.accumulate, Option.toList, List.map_append, List.map_cons, List.map_nil,
        List.sum_append, List.sum_cons, List.sum_nil, add_zero, List.length_append,
        List.length_cons, List.length_nil, zero_add]
      congr 1
      rw [zipWith_map_right]
      refine List.map_congr_left fun a _ => ?_
      funext k
      rw [List.countP_append]
      cases hb : a.bin v with
      | none => simp [hb]
      | some i =>
        simp only [incr, List.countP_cons, List.countP_nil, zero_add, hb, Option.some.injEq,
          decide_eq_true_eq]
        by_cases hk : k = i
        · simp [hk]
        · simp [hk, Ne.symm hk]

end PV
