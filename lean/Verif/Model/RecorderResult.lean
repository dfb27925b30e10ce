import Verif.Model.Recorder
import Mathlib.Analysis.SpecialFunctions.Pow.NNReal

/-!
Statistics reported for one recorder: `RecorderResult`, `/repo/pvtrace/engine/api.py:26-78`.
`none` stands for `nan`.
-/

namespace PV
noncomputable section

/-- `RecorderResult.mean`, `/repo/pvtrace/engine/api.py:42-46`. -/
def TallyState.mean (st : TallyState ℝ) (i : Fin 4) : Option ℝ :=
  if st.rays = 0 then none else some ((st.moments i).1 / st.rays)

/-- `RecorderResult.std`, `/repo/pvtrace/engine/api.py:48-55`. -/
def TallyState.std (st : TallyState ℝ) (i : Fin 4) : Option ℝ :=
  if st.rays = 0 then none
  else
    let mean := (st.moments i).1 / st.rays
    let variance := max ((st.moments i).2 / st.rays - mean * mean) 0
    some (Real.sqrt variance)

/-- `RecorderResult.error`, `/repo/pvtrace/engine/api.py:57-61`. -/
def TallyState.error (st : TallyState ℝ) (i : Fin 4) : Option ℝ :=
  if st.rays = 0 then none
  else (st.std i).map (· / Real.sqrt st.rays)

end

/-- Entry `k` of `np.linspace(start, stop, bins + 1)`, `/repo/pvtrace/engine/api.py:68-71`. -/
def Axis.edge {α : Type} [Field α] (a : Axis α) (k : ℕ) : α :=
  a.start + (a.stop - a.start) * k / a.bins

/-- `RecorderResult.histogram`, `/repo/pvtrace/engine/api.py:63-72`: the count at `(i, j)` of a
heatmap after `values.reshape(a.bins, b.bins)`. -/
def heatCount (b : Axis α) (values : ℕ → ℕ) (i j : ℕ) : ℕ := values (i * b.bins + j)

end PV
