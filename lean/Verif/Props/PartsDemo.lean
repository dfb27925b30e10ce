import Verif.Props.Parts
import Verif.Props.SameLawDemo

/-!
C125: a dye written as two dyes.
-/

namespace PV.Parts
noncomputable section
open PV PV.Library PV.SameLaw PV.Reemission
variable {σ : Type}

/-- A part of the dye. -/
def share (q : ℝ) (name : String) (x : ℝ) : Comp := { glow q with name := name, absDist := .const x }

/-- The turned ball with the dye in two portions. -/
def halved (q : ℝ) : LScene 1 where
  node v := { (tilted q).node v with comps := if v = 0 then [] else [share q "first" (1 / 4), share q "second" (3 / 4)] }

/-- Both are called by the name of the dye. -/
def oneName (_ : String) : String := "glow"

theorem halved_split (q : ℝ) : Split oneName (tilted q) (halved q) where
  node _ := rfl
  parts v := by
    by_cases h : v = 0
    · exact ⟨[], by simp [tilted, glowScene, h], by simp [halved, h]⟩
    · refine ⟨[[share q "first" (1 / 4), share q "second" (3 / 4)]], ?_, by simp [halved, h]⟩
      have e : ((tilted q).node v).comps = [glow q] := by simp [tilted, glowScene, h]
      rw [e]
      refine .cons ⟨by simp, ?_, ?_, ?_⟩ .nil
      · intro p hp
        simp only [List.mem_cons, List.not_mem_nil, or_false] at hp
        rcases hp with rfl | rfl <;> rfl
      · intro p hp
        rfl
      · intro w
        refine ⟨[1 / 4, 3 / 4], rfl, by norm_num, ?_⟩
        show Except.ok (1 : ℝ) = _
        norm_num

theorem halved_comps (q : ℝ) (v : Fin 2) {c : Comp} (hc : c ∈ ((halved q).node v).comps) :
    ∃ name x, 0 ≤ x ∧ c = share q name x := by
  by_cases h : v = 0
  · simp [halved, h] at hc
  · simp only [halved, h, if_false, List.mem_cons, List.not_mem_nil, or_false] at hc
    rcases hc with rfl | rfl
    · exact ⟨_, _, by norm_num, rfl⟩
    · exact ⟨_, _, by norm_num, rfl⟩

theorem halved_accepted {q : ℝ} (h0 : 0 ≤ q) (h1 : q ≤ 1) : Accepted (halved q) where
  index_pos := (tilt_turnable h0 h1).index_pos
  rigid := (tilt_turnable h0 h1).rigid
  inverse := (tilt_turnable h0 h1).inverse
  comps v c hc := by
    obtain ⟨name, x, hx, rfl⟩ := halved_comps q v hc
    exact ⟨.inl ⟨x, hx, rfl⟩, by simp [share, glow], by simp [share, glow]⟩
  proper := (tilt_turnable h0 h1).proper
  ratio := (tilt_turnable h0 h1).ratio
  absorbs v c hc := by
    obtain ⟨name, x, hx, rfl⟩ := halved_comps q v hc
    exact .inl ⟨x, rfl⟩
  emits v c hc hk := by
    obtain ⟨name, x, hx, rfl⟩ := halved_comps q v hc
    exact ⟨_, Ending.flat_ok, 0, by norm_num [Ending.flat], by norm_num [Ending.flat]⟩
  phase v c hc hk := by
    obtain ⟨name, x, hx, rfl⟩ := halved_comps q v hc
    exact ⟨rfl, by simp [share, glow]⟩

example (q : ℝ) {R : Rand σ} (hR : R.Unit) (B : Trimesh) (method : EmitMethod) (maxsteps : ℕ) (maxpath : Option ℝ) (ray : Ray ℝ) (s : σ) :
    Library.run (tilted q) B R method maxsteps maxpath (ray.renamed oneName) s =
      (Library.run (halved q) B R method maxsteps maxpath ray s).map (·.renamed oneName) :=
  congrArg Prod.fst (python_split (halved_split q) hR B method maxsteps maxpath ray s)

example {q : ℝ} (h0 : 0 ≤ q) (h1 : q ≤ 1) : Split oneName (tilted q) (halved q) ∧ Accepted (tilted q) ∧ Accepted (halved q) :=
  ⟨halved_split q, (tilt_turnable h0 h1).toAccepted, halved_accepted h0 h1⟩

end
end PV.Parts
