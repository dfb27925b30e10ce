import Verif.Props.EngineReemission
import Verif.Props.EngineChanceDemo
import Verif.Props.ReemissionDemo

/-!
C114: one step from the middle of a glowing ball.
-/

namespace PV.EngineReemission
open MeasureTheory Spec EngineThinning Budget Reemission EngineChance PV.Library
noncomputable section

theorem glow_mid (q : ℝ) : (kOps (glowScene q) reader .kT).nextHit ⟨0, 0, 0⟩ ⟨1, 0, 0⟩ = some (1, 1, some 0, 1) := mid_hit

theorem glow_sum (q : ℝ) : (((glowScene q).node 1).kCoefs 500).sum = 1 := by
  simp [glowScene, glow, LNode.kCoefs, Comp.kCoef, compileDist, kCoefficient, kInterp, reads]

theorem glow_absorbs (q : ℝ) {s : Numbers} (hs : ∀ i, 0 ≤ s i ∧ s i < 1) :
    1 ≤ oftenIn .absorb (fullHistory (kOps (glowScene q) reader .kT) 1 ⟨midRay, s⟩) ↔ s 0 < 1 - Real.exp (-1) := by
  rw [often_marks _ _ _ .absorb (by decide)]
  have hdepth : (kOps (glowScene q) reader .kT).depth 1 500 s = (some (-Real.log (1 - s 0)), fun i => s (i + 1)) := by
    show kDepth reader _ s = _
    rw [glow_sum]
    unfold kDepth
    norm_num [reader]
  have hlog : -Real.log (1 - s 0) < 1 ↔ s 0 < 1 - Real.exp (-1) := by
    have h1 : 0 < 1 - s 0 := by linarith [(hs 0).2]
    rw [show -Real.log (1 - s 0) < 1 ↔ -1 < Real.log (1 - s 0) by constructor <;> intro h <;> linarith,
      Real.lt_log_iff_exp_lt h1]
    constructor <;> intro h <;> linarith
  have hbody := body_go (maxsteps := 1) (count := 1) (K := kOps (glowScene q) reader .kT) (ray := midRay) (glow_mid q) (by omega)
    (by simp [kOps]) s
  rw [show (kOps (glowScene q) reader .kT).depth 1 midRay.wavelength s = _ from hdepth] at hbody
  have hend : ∀ ray t, marks (fun x => decide (x = Event.absorb)) (kTrace (kOps (glowScene q) reader .kT) 1 1 1 ray t) = 0 := by
    intro ray t
    unfold kTrace kBody
    dsimp only
    rcases (kOps (glowScene q) reader .kT).nextHit ray.position ray.direction with _ | ⟨a, b, e, t⟩ <;> simp
  rw [marks_trace, hbody, ← hlog]
  unfold go
  by_cases h : -Real.log (1 - s 0) < 1
  · simp only [isAbsorbed, h, if_true, iff_true]
    rw [total_absorb _ rfl rfl]
    unfold EngineThinning.stage
    simp
  · simp only [isAbsorbed, h, if_false, iff_false]
    rw [total_surface _ rfl rfl]
    dsimp only
    split_ifs <;> rw [hend] <;> omega

theorem glow_absorb_chance (q : ℝ) :
    chance (fun s => 1 ≤ oftenIn .absorb (fullHistory (kOps (glowScene q) reader .kT) 1 ⟨midRay, s⟩)) = ENNReal.ofReal (1 - Real.exp (-1)) := by
  have hexp : Real.exp (-1) < 1 := by
    rw [Real.exp_lt_one_iff]
    norm_num
  have e : chance (fun s => 1 ≤ oftenIn .absorb (fullHistory (kOps (glowScene q) reader .kT) 1 ⟨midRay, s⟩)) =
      independent {s | s 0 ∈ {u : ℝ | u < 1 - Real.exp (-1)} ∧ rest s ∈ Set.univ} := by
    apply measure_congr
    rw [Filter.eventuallyEq_set]
    filter_upwards [in_unit] with s hs
    simp only [Set.mem_univ, and_true]
    exact glow_absorbs q hs
  rw [e, chance_first {u : ℝ | u < 1 - Real.exp (-1)} measurableSet_Iio _ MeasurableSet.univ, measure_univ, mul_one,
    uniform_below (by linarith) (by linarith [Real.exp_pos (-1)])]

theorem glow_only (q : ℝ) : ∀ v, ∀ c ∈ ((glowScene q).node v).comps, c.kind = .luminophore ∧ c.qy = q := by
  intro v c hc
  by_cases hv : v = 0 <;> simp [glowScene, hv] at hc
  subst hc
  exact ⟨rfl, rfl⟩

/-- A dye of quantum yield 0.9 gives the light off again with a chance of `0.9 (1 - 1/e)`. -/
example : chance (fun s => 1 ≤ oftenIn .emit (fullHistory (kOps (glowScene 0.9) reader .kT) 1 ⟨midRay, s⟩)) =
    ENNReal.ofReal (0.9 * (1 - Real.exp (-1))) := by
  rw [engine_share_eq midRay (by norm_num) (by norm_num) (glow_only 0.9) one_pos, glow_absorb_chance,
    ENNReal.ofReal_mul (by norm_num)]

/-- The bounds hold for any number of steps. -/
example (maxsteps k : ℕ) :
    chance (fun s => k ≤ oftenIn .emit (fullHistory (kOps (glowScene 0.9) reader .kT) maxsteps ⟨midRay, s⟩)) ≤ ENNReal.ofReal 0.9 ^ k ∧
    meanCount (fun s => oftenIn .emit (fullHistory (kOps (glowScene 0.9) reader .kT) maxsteps ⟨midRay, s⟩)) ≤ ENNReal.ofReal 9 := by
  refine ⟨engine_reemitted midRay (by norm_num) (fun v c hc _ => (glow_only 0.9 v c hc).2.le) k, ?_⟩
  have h := engine_mean_reemitted (S := glowScene 0.9) (method := .kT) (maxsteps := maxsteps) midRay (q := 0.9) (by norm_num) (by norm_num)
    (fun v c hc _ => (glow_only 0.9 v c hc).2.le)
  rwa [show (0.9 : ℝ) / (1 - 0.9) = 9 by norm_num] at h

/-- The chance of being lost is positive. -/
example : chance (fun s => ∃ r ∈ fullHistory (kOps (glowScene 0.9) reader .kT) 1 ⟨midRay, s⟩, r.kind = .nonradiative) ≠ 0 := by
  rw [engine_lost midRay (by norm_num) (by norm_num) (glow_only 0.9), mean_rows midRay .absorb (by decide)]
  refine mul_ne_zero (by simp; norm_num) fun h => ?_
  have h := ENNReal.tsum_eq_zero.1 h 0
  rw [show (0 : ℕ) + 1 = 1 from rfl, glow_absorb_chance, ENNReal.ofReal_eq_zero] at h
  have : Real.exp (-1) < 1 := by
    rw [Real.exp_lt_one_iff]
    norm_num
  linarith

end
end PV.EngineReemission
