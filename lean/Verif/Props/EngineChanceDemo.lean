import Verif.Props.EngineChance
import Verif.Props.AgreementDemo

/-!
C113: a bundle of rays from the middle of a black ball. The recorder of lost rays reports a share of `1 - 1/e`.
-/

namespace PV.EngineChance
open MeasureTheory Spec PV.Library
noncomputable section

theorem seen_call {ν κ σ : Type} [DecidableEq ν] (K : KOps ℝ ν κ σ) (T : RecTables ℝ ν) (maxsteps : ℕ) (slot : LogSlot)
    (l : Launch ℝ κ σ) {r : ℕ} {row : RecRow ℝ ν} (hr : T.recs[r]? = some row) :
    Seen T r (kTraceOne K T slot maxsteps l.ray l.rng).1 ↔ ∃ c ∈ tallied K maxsteps slot l, kCounts c row = true := by
  rw [seen_iff T hr, (alone_eq _).1]
  dsimp only
  rw [total_ray K T maxsteps (dDistinct r) (fun _ _ => rfl) (fun _ _ => rfl) slot l (local_distinct T r) hr]
  rcases h : (tallied K maxsteps slot l).find? fun c => kCounts c row with _ | c
  · have := List.find?_eq_none.1 h
    simp only [dDistinct, Option.map_none, Option.getD_none, smul_zero, add_zero]
    constructor
    · intro h; cases h
    · rintro ⟨c, h1, h2⟩
      exact absurd h2 (this c h1)
  · have hb := total_kBins_zero (dDistinct r : Effect ℝ (Row ℝ ν κ) → ℕ) (fun _ => rfl) T row c.values
    simp only [Option.map_some, Option.getD_some, hb]
    have h1 := List.mem_of_find?_eq_some h
    have h2 := List.find?_some h
    constructor
    · intro _
      exact ⟨c, h1, h2⟩
    · intro _
      simp [dDistinct, total, kSums]

theorem absorb_lost {ν κ σ : Type} (K : KOps ℝ ν κ σ) (c : ν) (ray : KRay ℝ κ) (d : ℝ) (s : σ)
    (h : K.kind (K.pick c ray.wavelength s).1 = .absorber) :
    ∃ os vals, kAbsorb K c ray d s = (os ++ [.tally ⟨.lost, c, none, vals⟩], .stop) := by
  obtain ⟨root, nextHit, nidx, depth, pick, kind, yields, phase, emission, radDelay, nrDelay, localPos, normal, acos,
    reflects, reflectDir, transmitDir⟩ := K
  dsimp only at h
  unfold kAbsorb
  simp only [KRay.advance, h, reduceCtorEq, or_self, if_false, Bool.false_eq_true]
  exact ⟨[_, _], _, rfl⟩

theorem surface_kept {ν κ σ : Type} [DecidableEq ν] (K : KOps ℝ ν κ σ) (h c a : ν) (ray : KRay ℝ κ) (t : ℝ) (s : σ) :
    ∃ os ray' s', kSurface K h c (some a) ray t s = (os, .cont ray' s') ∧ ∀ c ∈ callsOf os, c.sel ≠ .lost := by
  obtain ⟨root, nextHit, nidx, depth, pick, kind, yields, phase, emission, radDelay, nrDelay, localPos, normal, acos,
    reflects, reflectDir, transmitDir⟩ := K
  unfold kSurface
  simp only
  split
  · refine ⟨_, _, _, rfl, ?_⟩
    split <;> simp [callsOf]
  · refine ⟨_, _, _, rfl, ?_⟩
    split <;> simp [callsOf]

/-- The recorder of rays lost in the ball. -/
def lostRec : Recorder ℝ := { name := "lost", event := .lost, atol := 0 }

def lostTables : RecTables ℝ (Fin 2) := ⟨[⟨1, .lost, none, 0, 0, 0⟩], [], 0⟩

theorem lost_compiles : compileRecorders [((1 : Fin 2), lostRec)] = some lostTables := by
  simp [compileRecorders, compileRecs, compileHists, lostRec, lostTables, Selector.isVolume]

/-- A ray in the middle. -/
def midRay : KRay ℝ Comp := ⟨⟨0, 0, 0⟩, ⟨1, 0, 0⟩, 500, 0, 0, none⟩

theorem mid_hit : (kOps ballScene reader .kT).nextHit ⟨0, 0, 0⟩ ⟨1, 0, 0⟩ = some (1, 1, some 0, 1) := by
  have h : (fun v => kIntersect (ballScene.node v).geom ((ballScene.node v).w2l.point ⟨0, 0, 0⟩)
      ((ballScene.node v).w2l.vec ⟨1, 0, 0⟩)) = fun v : Fin 2 => if v = 0 then [10] else [1] := by
    funext v
    rw [ball_hits]
    by_cases h : v = 0 <;> norm_num [h, epsZero, List.filter_cons]
  show kNextHit (List.finRange 2) _ = _
  rw [h]
  have hf : List.finRange 2 = [0, 1] := rfl
  rw [hf]
  norm_num [kNextHit, kHits, kFirst, kSecond, kContainer, kMinT, List.zipIdx]

/-- The soot. -/
def soot : Comp := ⟨"soot", .absorber, .const 1, .const 0, 0, none, none, .isotropic⟩

theorem mid_sum : ((ballScene.node 1).kCoefs 500).sum = 1 := by
  simp [ballScene, LNode.kCoefs, Comp.kCoef, compileDist, kCoefficient, kInterp, reads]

theorem mid_pick (s : Numbers) : ((kOps ballScene reader .kT).pick 1 500 s).1 = soot := by
  unfold kOps
  dsimp only
  have : kPick ((ballScene.node 1).kCoefs 500) (reader.next s).1 = 0 := by
    simp [ballScene, LNode.kCoefs, Comp.kCoef, kPick, kPickFrom]
    split <;> rfl
  rw [this]
  simp [ballScene, soot]

theorem lost_iff {s : Numbers} (hs : ∀ i, 0 ≤ s i ∧ s i < 1) :
    Seen lostTables 0 (kTraceOne (kOps ballScene reader .kT) lostTables none 1 midRay s).1 ↔ s 0 < 1 - Real.exp (-1) := by
  rw [show kTraceOne (kOps ballScene reader .kT) lostTables none 1 midRay s =
    kTraceOne (kOps ballScene reader .kT) lostTables none 1 (⟨midRay, s⟩ : Launch ℝ Comp Numbers).ray
      (⟨midRay, s⟩ : Launch ℝ Comp Numbers).rng from rfl,
    seen_call (kOps ballScene reader .kT) lostTables 1 none ⟨midRay, s⟩ (r := 0) rfl]
  have hdepth : (kOps ballScene reader .kT).depth 1 500 s = (some (-Real.log (1 - s 0)), fun i => s (i + 1)) := by
    show kDepth reader _ s = _
    rw [mid_sum]
    unfold kDepth
    norm_num [reader]
  have hlog : -Real.log (1 - s 0) < 1 ↔ s 0 < 1 - Real.exp (-1) := by
    have h1 : 0 < 1 - s 0 := by linarith [(hs 0).2]
    rw [show -Real.log (1 - s 0) < 1 ↔ -1 < Real.log (1 - s 0) by constructor <;> intro h <;> linarith,
      Real.lt_log_iff_exp_lt h1]
    constructor <;> intro h <;> linarith
  have hbody : kBody (kOps ballScene reader .kT) 1 1 midRay s =
      if -Real.log (1 - s 0) < 1 then kAbsorb (kOps ballScene reader .kT) 1 midRay (-Real.log (1 - s 0)) (fun i => s (i + 1))
      else kSurface (kOps ballScene reader .kT) 1 1 (some 0) midRay 1 (fun i => s (i + 1)) := by
    unfold kBody
    simp only [midRay, mid_hit, hdepth, isAbsorbed]
    have : ¬ ((1 : Fin 2) = (kOps ballScene reader .kT).root) := by simp [kOps]
    rw [if_neg (by norm_num), if_neg this]
    split_ifs <;> rfl
  unfold tallied rayTrace
  dsimp only
  rw [← hlog]
  by_cases h : -Real.log (1 - s 0) < 1
  · rw [if_pos h] at hbody
    refine ⟨fun _ => h, fun _ => ?_⟩
    obtain ⟨os, vals, hab⟩ := absorb_lost (kOps ballScene reader .kT) 1 midRay (-Real.log (1 - s 0)) (fun i => s (i + 1)) (by
      show (((kOps ballScene reader .kT).pick 1 500 _).1).kind = _
      rw [mid_pick]
      rfl)
    refine ⟨⟨.lost, 1, none, vals⟩, ?_, rfl⟩
    unfold kTrace
    dsimp only
    rw [hbody, hab]
    simp [callsOf]
  · rw [if_neg h] at hbody
    refine ⟨fun h' => ?_, fun h' => absurd h' h⟩
    obtain ⟨c, hc, hcount⟩ := h'
    have hsel : c.sel = .lost := by
      unfold kCounts at hcount
      by_contra hne
      rw [if_pos (.inr fun h => hne h.symm)] at hcount
      cases hcount
    exfalso
    obtain ⟨os, ray, s', hsurf, hos⟩ := surface_kept (kOps ballScene reader .kT) 1 1 0 midRay 1 (fun i => s (i + 1))
    have htrace : kTrace (kOps ballScene reader .kT) 1 (1 + 1) 0 midRay s = os ++ kTrace (kOps ballScene reader .kT) 1 1 1 ray s' := by
      rw [kTrace]
      simp only [hbody, hsurf]
    have hsecond : ∀ c ∈ callsOf (kTrace (kOps ballScene reader .kT) 1 1 1 ray s'), c.sel ≠ .lost := by
      unfold kTrace kBody
      dsimp only
      rcases (kOps ballScene reader .kT).nextHit ray.position ray.direction with _ | ⟨a, b, e, t⟩
      · simp [callsOf]
      · simp [callsOf]
    rw [htrace] at hc
    simp only [callsOf, List.filterMap_append, List.mem_append] at hc
    rcases hc with hc | hc
    · exact hos c hc hsel
    · exact hsecond c hc hsel

theorem lost_chance : chance (fun s => Seen lostTables 0
    (kTraceOne (kOps ballScene reader .kT) lostTables none 1 midRay s).1) = ENNReal.ofReal (1 - Real.exp (-1)) := by
  have hexp : Real.exp (-1) < 1 := by
    rw [Real.exp_lt_one_iff]
    norm_num
  have e : chance (fun s => Seen lostTables 0 (kTraceOne (kOps ballScene reader .kT) lostTables none 1 midRay s).1) =
      independent {s | s 0 ∈ {u : ℝ | u < 1 - Real.exp (-1)} ∧ rest s ∈ Set.univ} := by
    apply measure_congr
    rw [Filter.eventuallyEq_set]
    filter_upwards [in_unit] with s hs
    simp only [Set.mem_univ, and_true]
    exact lost_iff hs
  rw [e, chance_first {u : ℝ | u < 1 - Real.exp (-1)} measurableSet_Iio _ MeasurableSet.univ, measure_univ, mul_one,
    uniform_below (by linarith) (by linarith [Real.exp_pos (-1)])]

/-- The share of lost rays tends to `1 - 1/e`, whatever the threads and the schedules. -/
example : ∀ᵐ ω ∂batch, ∀ (threads : ℕ → ℕ) (es : ℕ → List (Tagged ℝ (Row ℝ (Fin 2) Comp))) (st : ℕ → TallyState ℝ),
    (∀ k, Execution k (threads k) (kRay (kOps ballScene reader .kT) lostTables 1 0 0 (launched (fun _ => midRay) ω k)) (es k)) →
    (∀ k, engineResult lostTables ((Mem.exec (es k)).merged (threads k)) 0 = some (st k)) →
    Filter.Tendsto (fun k : ℕ => ((st k).rays : ℝ) / k) Filter.atTop (nhds (1 - Real.exp (-1))) := by
  have h := recorder_estimates ballScene .kT lostTables 1 0 midRay 0
  rw [lost_chance, ENNReal.toReal_ofReal (by
    have : Real.exp (-1) < 1 := by
      rw [Real.exp_lt_one_iff]
      norm_num
    linarith)] at h
  exact h

/-- Executions exist: one thread traces the rays in order. -/
theorem in_order {ρ : Type} (k : ℕ) (writes : ℕ → List (Effect ℝ ρ)) :
    Execution k 1 writes ((List.range k).flatMap fun i => (writes i).map fun e => ⟨i, 0, e⟩) where
  ray_lt e he := by
    obtain ⟨i, hi, h⟩ := List.mem_flatMap.1 he
    obtain ⟨w, -, rfl⟩ := List.mem_map.1 h
    exact List.mem_range.1 hi
  tid_lt e he := by
    obtain ⟨i, hi, h⟩ := List.mem_flatMap.1 he
    obtain ⟨w, -, rfl⟩ := List.mem_map.1 h
    exact Nat.one_pos
  order i hi := by
    induction k with
    | zero => omega
    | succ k ih =>
      rw [List.range_succ, List.flatMap_append, List.filter_append, List.map_append]
      simp only [List.flatMap_cons, List.flatMap_nil, List.append_nil]
      by_cases h : i = k
      · subst h
        have h1 : (((List.range i).flatMap fun j => (writes j).map fun e => (⟨j, 0, e⟩ : Tagged ℝ ρ)).filter
            fun e => e.ray = i) = [] := by
          rw [List.filter_eq_nil_iff]
          intro e he
          obtain ⟨j, hj, h⟩ := List.mem_flatMap.1 he
          obtain ⟨w, -, rfl⟩ := List.mem_map.1 h
          have := List.mem_range.1 hj
          simp
          omega
        have h2 : (((writes i).map fun e => (⟨i, 0, e⟩ : Tagged ℝ ρ)).filter fun e => e.ray = i) =
            (writes i).map fun e => ⟨i, 0, e⟩ := by
          rw [List.filter_eq_self]
          intro e he
          obtain ⟨w, -, rfl⟩ := List.mem_map.1 he
          simp
        rw [h1, h2]
        simp [Function.comp_def]
      · have h2 : (((writes k).map fun e => (⟨k, 0, e⟩ : Tagged ℝ ρ)).filter fun e => e.ray = i) = [] := by
          rw [List.filter_eq_nil_iff]
          intro e he
          obtain ⟨w, -, rfl⟩ := List.mem_map.1 he
          simp
          omega
        rw [h2, ih (by omega)]
        simp

end
end PV.EngineChance
