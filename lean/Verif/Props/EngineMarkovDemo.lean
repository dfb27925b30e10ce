import Verif.Props.EngineMarkov
import Verif.Props.SameLawDemo
import Verif.Props.EngineSlab

/-!
The hypotheses of the theorems about the engine in `EngineMarkov` are met: for light that falls vertically on a tinted slab, and for a dye in a
turned ball.
-/

namespace PV.Markov
open MeasureTheory Spec Library SameLaw
open scoped ENNReal

noncomputable section

/-- Vertical lines through the top and the bottom of a box. -/
def Down (s o d : Vec3 ℝ) : Prop := 0 < s.z ∧ |o.x| ≤ s.x / 2 ∧ |o.y| ≤ s.y / 2 ∧ d.x = 0 ∧ d.y = 0 ∧ (d.z = 1 ∨ d.z = -1)

open Classical in
/-- A mesh library that answers for such lines only. -/
def shaft : Trimesh := fun s o d => if Down s o d then [-(d.z * o.z) - s.z / 2, -(d.z * o.z) + s.z / 2] else []

theorem shaft_sound : TrimeshSound shaft := by
  rintro s ⟨a, b, c⟩ ⟨d, e, u⟩ - t ht
  unfold shaft at ht
  split_ifs at ht with hd
  · obtain ⟨hz, hx, hy, h1, h2, hu⟩ := hd
    dsimp only at h1 h2 hu hx hy
    subst h1 h2
    have hx' := abs_le.1 hx
    have hy' := abs_le.1 hy
    simp only [List.mem_cons, List.not_mem_nil, or_false] at ht
    rcases ht with rfl | rfl <;> rcases hu with rfl | rfl <;>
      simp [Solid.Surface, Solid.Closed, Solid.Inner] <;> grind
  · cases ht

theorem shaft_borel : BorelMesh shaft := by
  intro s
  have hm : MeasurableSet {v : Fin 6 → ℝ | Down s ⟨v 0, v 1, v 2⟩ ⟨v 3, v 4, v 5⟩} := by
    unfold Down
    dsimp only
    measurability
  constructor
  · intro k
    have : {v : Fin 6 → ℝ | (shaft s ⟨v 0, v 1, v 2⟩ ⟨v 3, v 4, v 5⟩).length = k} =
        {v | Down s ⟨v 0, v 1, v 2⟩ ⟨v 3, v 4, v 5⟩ ∧ 2 = k ∨ ¬ Down s ⟨v 0, v 1, v 2⟩ ⟨v 3, v 4, v 5⟩ ∧ 0 = k} := by
      ext v
      simp only [shaft, Set.mem_setOf_eq]
      split_ifs with h <;> simp [h]
    rw [this]
    exact (hm.inter (MeasurableSet.const _)).union (hm.compl.inter (MeasurableSet.const _))
  · intro i
    have : (fun v : Fin 6 → ℝ => (shaft s ⟨v 0, v 1, v 2⟩ ⟨v 3, v 4, v 5⟩).getD i 0) =
        {v : Fin 6 → ℝ | Down s ⟨v 0, v 1, v 2⟩ ⟨v 3, v 4, v 5⟩}.indicator
          fun v => [-(v 5 * v 2) - s.z / 2, -(v 5 * v 2) + s.z / 2].getD i 0 := by
      funext v
      by_cases h : Down s ⟨v 0, v 1, v 2⟩ ⟨v 3, v 4, v 5⟩
      · rw [Set.indicator_of_mem (show v ∈ {v : Fin 6 → ℝ | Down s ⟨v 0, v 1, v 2⟩ ⟨v 3, v 4, v 5⟩} from h), shaft, if_pos h]
      · rw [Set.indicator_of_notMem (show v ∉ {v : Fin 6 → ℝ | Down s ⟨v 0, v 1, v 2⟩ ⟨v 3, v 4, v 5⟩} from h), shaft, if_neg h]
        rfl
    rw [this]
    refine Measurable.indicator ?_ hm
    match i with
    | 0 => exact (((measurable_pi_apply 5).mul (measurable_pi_apply 2)).neg).sub_const _
    | 1 => exact (((measurable_pi_apply 5).mul (measurable_pi_apply 2)).neg).add_const _
    | k + 2 => exact measurable_const

theorem shaft_lit : Slab.Lit Slab.tinted shaft 555 2 0.1 0.2 (-3) := by
  have h := Slab.tinted_lit
  refine ⟨h.air, h.glass, h.differ, h.ratio, h.wide, h.thick, h.black, h.alpha, h.seen, h.within, h.below, h.inside, ?_⟩
  intro g u hu
  have h1 : |(0.1 : ℝ)| ≤ Slab.tinted.size.x / 2 := by norm_num [Slab.tinted, abs_of_pos]
  have h2 : |(0.2 : ℝ)| ≤ Slab.tinted.size.y / 2 := by norm_num [Slab.tinted, abs_of_pos]
  have h3 : 0 < Slab.tinted.size.z := by norm_num [Slab.tinted]
  change ((shaft Slab.tinted.size ⟨0.1, 0.2, g⟩ ⟨0, 0, u⟩).filter _).Perm (kBox Slab.tinted.size ⟨0.1, 0.2, g⟩ ⟨0, 0, u⟩)
  rw [Slab.box_line hu h3 h1 h2, show shaft Slab.tinted.size ⟨0.1, 0.2, g⟩ ⟨0, 0, u⟩ =
    [-(u * g) - Slab.tinted.size.z / 2, -(u * g) + Slab.tinted.size.z / 2] from if_pos ⟨h3, h1, h2, rfl, rfl, hu⟩]

/-- The chance that the engine lets light out of a tinted slab, by the first pass. -/
example (m : ℕ) : chance (fun s => EndsAs (fun x => x.2 = .exit) (rowsAdded (engineRun Slab.tinted.scene .full (m + 1) EngineSlab.slabRay s))) =
    ∫⁻ s, hopeEnd Slab.tinted.scene shaft .full none m EngineSlab.slabRay (fun x => x.2 = .exit) s ∂independent :=
  engine_first_step (EngineSlab.turnable shaft_lit) (EngineSlab.visible shaft_lit) shaft_sound shaft_borel m _ EngineSlab.slab_fresh
    (EngineSlab.regular_runs shaft_lit ⟨rfl, rfl, rfl⟩ _) (fun x h => by rw [h]; trivial) (ends_borel _)

/-- The chance that the engine lets light out of a tinted slab is at most the tracer's without a step limit. -/
example (m : ℕ) : chance (fun s => EndsAs (fun x => x.2 = .exit) (rowsAdded (engineRun Slab.tinted.scene .full m EngineSlab.slabRay s))) ≤
    unlimited Slab.tinted.scene shaft .full none (fun x => x.2 = .exit) EngineSlab.slabRay := by
  have hF : ∀ x : Ray ℝ × Event, x.2 = .exit → Spec.Event.fatal x.2 ∧ x.2 ≠ .kill := fun x h => by rw [h]; exact ⟨trivial, by simp⟩
  have h := engine_certificate (method := .full) (EngineSlab.turnable shaft_lit) (EngineSlab.visible shaft_lit) shaft_sound shaft_borel hF
    (ends_borel _) (fun ray => (solution _ _ _ shaft_borel hF (ends_borel _) ray).le) m EngineSlab.slabRay EngineSlab.slab_fresh
  rwa [show chance (fun s => ¬ Library.Regular Slab.tinted.scene shaft reader .full m EngineSlab.slabRay s) = 0 from
    EngineSlab.regular_runs shaft_lit ⟨rfl, rfl, rfl⟩ _, add_zero] at h

/-- For the dye in the turned ball, up to 2e-9. -/
example : chance (fun s => EndsAs (fun x => x.2 = .exit) (rowsAdded (engineRun (tilted 0.9) .full 1 coreRay s))) ≤
    unlimited (tilted 0.9) noBoxes .full none (fun x => x.2 = .exit) coreRay + ENNReal.ofReal 2e-9 := by
  have hS := tilt_turnable (q := 0.9) (by norm_num) (by norm_num)
  have hF : ∀ x : Ray ℝ × Event, x.2 = .exit → Spec.Event.fatal x.2 ∧ x.2 ≠ .kill := fun x h => by rw [h]; exact ⟨trivial, by simp⟩
  exact (engine_certificate (method := .full) hS (tilt_visible _) tilt_mesh nothing_borel hF (ends_borel _)
    (fun ray => (solution _ _ _ nothing_borel hF (ends_borel _) ray).le) 1 coreRay ⟨by norm_num [coreRay, Vec3.dot], rfl, rfl⟩).trans
      (add_le_add le_rfl (tilt_irregular hS.toAccepted))

end

end PV.Markov
