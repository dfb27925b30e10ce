import Verif.Spec.Component
import Verif.Props.Dist
import Verif.Props.Material
import Mathlib.Tactic.Linarith

/-!
C88: which components can be made, and what they are.
-/

namespace PV.Component
noncomputable section
open Classical PV.Spec

theorem getD_row {l : List (ℝ × ℝ)} {i : ℕ} (h : i < l.length) : l.getD i (0, 0) = l[i] := by
  simp [List.getD, h]

theorem table_made (rows : List (ℝ × ℝ)) (hist : Bool) :
    (∃ D, mkDist (tableOf rows) hist = .ok D) ↔ Curve rows := by
  rw [Dist.accepted_iff]
  constructor
  · rintro ⟨h1, h2, h3⟩
    refine ⟨h1, ?_, ?_⟩
    · rw [List.pairwise_iff_getElem]
      intro i j hi hj hij
      simp only [List.length_map] at hi hj
      have := h2 i j hij hj
      simp only [tableOf, getD_row hi, getD_row hj] at this
      simpa using this
    · intro r hr
      obtain ⟨i, hi, rfl⟩ := List.mem_iff_getElem.1 hr
      have := h3 i hi
      simpa only [tableOf, getD_row hi] using this
  · rintro ⟨h1, h2, h3⟩
    refine ⟨h1, ?_, ?_⟩
    · intro i j hij hj
      change j < rows.length at hj
      have := List.pairwise_iff_getElem.1 h2 i j (by simp; omega) (by simpa using hj) hij
      simp only [tableOf, getD_row (show i < rows.length by omega), getD_row hj]
      simpa using this
    · intro i hi
      change i < rows.length at hi
      simp only [tableOf, getD_row hi]
      exact h3 _ (List.getElem_mem hi)

theorem foldl_sum (fs : List (ℝ → ℝ)) (w a : ℝ) :
    fs.foldl (fun y f => y + f w) a = a + (fs.map fun f => f w).sum := by
  induction fs generalizing a with
  | nil => simp
  | cons f fs ih => simp [ih, add_assoc]

theorem fromFunctions_eq (x : Option (List ℝ)) (fs : List (ℝ → ℝ)) (hist : Bool) :
    fromFunctions x fs hist = match x with
      | none => .error .valueError
      | some l => mkDist (tableOf (summed fs l)) hist := by
  cases x with
  | none => rfl
  | some l => simp only [fromFunctions, summed, foldl_sum, zero_add]

theorem absorption_made (c : Arg) (x : Option (List ℝ)) (hist : Bool) :
    (∃ d, absorption c x hist = .ok d) ↔ IsCoefficient x c := by
  cases c with
  | missing => simp [absorption, IsCoefficient]
  | float q => simp [absorption, IsCoefficient]
  | int n => simp [absorption, IsCoefficient]
  | array rows =>
    rw [IsCoefficient, ← table_made rows hist]
    simp only [absorption]
    cases mkDist (tableOf rows) hist <;> simp
  | functions fs =>
    simp only [absorption, IsCoefficient, fromFunctions_eq]
    cases x with
    | none => simp
    | some l =>
      simp only [reduceCtorEq, if_false, Option.some.injEq, exists_eq_left']
      rw [← table_made (summed fs l) hist]
      cases mkDist (tableOf (summed fs l)) hist <;> simp

theorem default_curve (l : List ℝ) :
    Curve (summed [defaultEmission] l) ↔ 2 ≤ l.length ∧ l.Pairwise (· < ·) := by
  have hmap : (summed [defaultEmission] l).map (·.1) = l := by simp [summed, Function.comp_def]
  constructor
  · rintro ⟨h1, h2, _⟩
    exact ⟨by simpa [summed] using h1, hmap ▸ h2⟩
  · rintro ⟨h1, h2⟩
    refine ⟨by simpa [summed] using h1, hmap.symm ▸ h2, ?_⟩
    intro r hr
    obtain ⟨w, _, rfl⟩ := List.mem_map.1 hr
    simp only [List.map_cons, List.map_nil, List.sum_cons, List.sum_nil, add_zero, defaultEmission, one_mul]
    exact (Real.exp_pos _).le

theorem emission_made (e : Arg) (x : Option (List ℝ)) (hist : Bool) :
    (∃ d, emission e x hist = .ok d) ↔ IsEmission x e := by
  cases e with
  | missing =>
    simp only [emission, IsEmission, fromFunctions_eq]
    cases x with
    | none => simp
    | some l =>
      simp only [Option.some.injEq, exists_eq_left']
      rw [table_made, default_curve]
  | float q => simp [emission, IsEmission]
  | int n => simp [emission, IsEmission]
  | array rows => exact table_made rows hist
  | functions fs =>
    simp only [emission, IsEmission, fromFunctions_eq]
    cases x with
    | none => simp
    | some l =>
      simp only [reduceCtorEq, if_false, Option.some.injEq, exists_eq_left']
      exact table_made _ _

theorem yield_iff (q rad nr : Option ℝ) (y : ℝ) : mkYield q rad nr = .ok y ↔ QuantumYieldIs q rad nr y := by
  constructor
  · intro h
    unfold mkYield at h
    split at h
    · split_ifs at h with h0
      cases h
      exact .lifetimes q h0
    · rename_i hno
      split at h
      · cases h
        refine .given _ ?_
        rcases rad with _ | r
        · exact .inl rfl
        rcases nr with _ | n
        · exact .inr rfl
        · exact (hno r n rfl rfl).elim
      · cases h
  · intro h
    cases h with
    | lifetimes q h0 => simp [mkYield, h0]
    | given q h =>
      rcases h with rfl | rfl
      · simp [mkYield]
      · cases rad <;> simp [mkYield]

/-- C88: a scatterer is made exactly from arguments that describe a coefficient and a quantum yield, and has that
quantum yield, the lifetimes, the phase function (isotropic by default) and the name it was given. -/
theorem scatterer_made (a : Args) (kind : CompKind) (m : Made) :
    scatterer a kind = .ok m ↔
      IsCoefficient a.x a.coefficient ∧ QuantumYieldIs a.quantumYield a.tauRad a.tauNr m.qy ∧
      absorption a.coefficient a.x a.hist = .ok m.absDist ∧ m.emsDist = none ∧
      m.name = a.name ∧ m.kind = kind ∧ m.tauRad = a.tauRad ∧ m.tauNr = a.tauNr ∧
      m.phase = a.phase.getD .isotropic := by
  rw [← absorption_made a.coefficient a.x a.hist, ← yield_iff]
  unfold scatterer
  cases h1 : absorption a.coefficient a.x a.hist with
  | error e => simp
  | ok d =>
    cases h2 : mkYield a.quantumYield a.tauRad a.tauNr with
    | error e => simp
    | ok q =>
      simp only [Except.ok.injEq, exists_eq', true_and]
      constructor
      · rintro rfl
        simp
      · rintro ⟨h2, h1, h3, h4, h5, h6, h7, h8⟩
        cases m
        simp_all

/-- C88: absorbers and reactors are made from any coefficient, unless the non-radiative lifetime is 0. -/
theorem absorber_made (c : Arg) (x : Option (List ℝ)) (tauNr : Option ℝ) (name : String) (hist : Bool)
    (kind : CompKind) :
    (∃ m, absorber c x tauNr name hist kind = .ok m) ↔ IsCoefficient x c ∧ tauNr ≠ some 0 := by
  unfold absorber
  simp only [scatterer_made]
  constructor
  · rintro ⟨m, h1, h2, _⟩
    refine ⟨h1, ?_⟩
    rintro rfl
    rw [← yield_iff] at h2
    simp [mkYield] at h2
  · rintro ⟨h1, h2⟩
    obtain ⟨d, hd⟩ := (absorption_made c x hist).2 h1
    cases tauNr with
    | none => exact ⟨⟨name, kind, d, none, 0, some 0, none, .isotropic⟩, h1, .given 0 (.inr rfl), hd, rfl, rfl, rfl, rfl, rfl, rfl⟩
    | some t =>
      exact ⟨⟨name, kind, d, none, t / (t + 0), some 0, some t, .isotropic⟩, h1,
        .lifetimes _ (by simpa using h2), hd, rfl, rfl, rfl, rfl, rfl, rfl⟩

/-- C88: a luminophore is made exactly from arguments that describe a coefficient, a quantum yield and an emission
spectrum. -/
theorem luminophore_made_partial (a : Args) (e : Arg) :
    (∃ m, luminophore a e = .ok m) ↔
      IsCoefficient a.x a.coefficient ∧ (∃ q, QuantumYieldIs a.quantumYield a.tauRad a.tauNr q) ∧ IsEmission a.x e := by
  rw [← emission_made e a.x a.hist, ← absorption_made a.coefficient a.x a.hist]
  simp only [← yield_iff]
  unfold luminophore scatterer
  cases absorption a.coefficient a.x a.hist with
  | error e => simp
  | ok d =>
    cases mkYield a.quantumYield a.tauRad a.tauNr with
    | error e => simp
    | ok q =>
      cases emission e a.x a.hist <;> simp

theorem call_row {rows : List (ℝ × ℝ)} {D : Dist ℝ} (h : mkDist (tableOf rows) false = .ok D) {w y : ℝ}
    (hr : (w, y) ∈ rows) : D.call w = .ok (some y) := by
  obtain ⟨i, hi, he⟩ := List.mem_iff_getElem.1 hr
  obtain ⟨rfl, h2, hx, hy⟩ := mkDist_ok h
  have hi' : i < (tableOf rows).n := hi
  have hw : w = (tableOf rows).x i := by simp [tableOf, hi, he]
  have hyv : y = (tableOf rows).y i := by simp [tableOf, hi, he]
  have h0 := hx.mono 0 i (by omega) hi'
  have h1 := hx.mono i ((tableOf rows).n - 1) (by omega) (by omega)
  have hr : (tableOf rows).inRange w := by
    unfold Table.inRange
    push Not
    rw [hw]
    exact ⟨h0, h1⟩
  subst hw
  simp only [Dist.call, hr, not_true, if_false, Bool.false_eq_true, npInterp_eq h0 h1, interp_knot hx hi', hyv]

/-- C88: at every wavelength its arguments mention, a component that is not a histogram has the coefficient they
give. -/
theorem coefficient_at {a : Args} {kind : CompKind} {m : Made} (h : scatterer a kind = .ok m) (hh : a.hist = false)
    {w y : ℝ} (hc : CoefficientAt a.x a.coefficient w y) : m.coefficient w = .ok (some y) := by
  obtain ⟨_, _, hd, _⟩ := (scatterer_made a kind m).1 h
  unfold Made.coefficient
  generalize a.coefficient = c at hd hc
  cases hc with
  | float q w =>
    simp only [absorption, Except.ok.injEq] at hd
    rw [← hd]
    rfl
  | array hr =>
    simp only [absorption, hh] at hd
    split at hd
    · cases hd
    · rename_i d hd'
      simp only [Except.ok.injEq] at hd
      rw [← hd]
      exact call_row hd' hr
  | functions hx hw =>
    rename_i fs l
    simp only [absorption, hh, hx, fromFunctions_eq, reduceCtorEq, if_false] at hd
    split at hd
    · cases hd
    · rename_i d hd'
      simp only [Except.ok.injEq] at hd
      rw [← hd]
      exact call_row hd' (List.mem_map.2 ⟨w, hw, rfl⟩)

/-- The coefficient table 400 nm: 1, 500 nm: 3. -/
def ramp : Args := { coefficient := .array [(400, 1), (500, 3)], name := "dye" }

theorem ramp_curve : Curve [(400, 1), (500, 3)] where
  long := by simp
  ascending := by simp; norm_num
  nonneg := by simp

/-- Non-vacuity: a table makes a scatterer, whose coefficient at 500 nm is 3. -/
example : ∃ m, scatterer ramp = .ok m ∧ m.coefficient 500 = .ok (some 3) := by
  obtain ⟨d, hd⟩ := (absorption_made ramp.coefficient ramp.x ramp.hist).2 ramp_curve
  have h : scatterer ramp = .ok ⟨"dye", .scatterer, d, none, 1, none, none, .isotropic⟩ :=
    (scatterer_made _ _ _).2 ⟨ramp_curve, .given 1 (.inl rfl), hd, rfl, rfl, rfl, rfl, rfl, rfl⟩
  exact ⟨_, h, coefficient_at h rfl (.array (by simp))⟩

/-- Non-vacuity: with an emission table it makes a luminophore. -/
example : ∃ m, luminophore ramp (.array [(400, 1), (500, 3)]) = .ok m :=
  (luminophore_made_partial _ _).2 ⟨ramp_curve, ⟨1, .given 1 (.inl rfl)⟩, ramp_curve⟩

/-- C88 is violated: the documentation promises a Gaussian emission spectrum if `emission` is `None`, but a luminophore
without `emission` and `x` cannot be made from any coefficient. -/
theorem default_emission_fails (a : Args) (hx : a.x = none) : ¬ ∃ m, luminophore a .missing = .ok m := by
  rw [luminophore_made_partial]
  rintro ⟨_, _, l, hl, _⟩
  rw [hx] at hl
  cases hl

/-- C88 is violated: a component with an integer coefficient is made, but asking for its coefficient fails at every
wavelength. -/
theorem integer_unusable (n : ℤ) (name : String) :
    ∃ m, scatterer { coefficient := .int n, name } = .ok m ∧ ∀ w, m.coefficient w = .error .attributeError :=
  ⟨_, rfl, fun _ => rfl⟩

/-- C88 is violated: a negative constant is accepted, unlike a negative value in a table. Python's tracer then
absorbs every ray at a distance that is not positive and fails when it chooses the component; the engine takes the
material as transparent. -/
theorem negative_accepted {σ : Type} (R : Rand σ) (hR : R.Unit) (q : ℝ) (hq : q < -1e-8) (name : String) (w : ℝ) (s : σ) :
    (∃ m, scatterer { coefficient := .float q, name } = .ok m ∧ m.coefficient w = .ok (some q)) ∧
    ∀ c : Comp, c.absDist = .const q →
      (∃ d s', penetrationDepth R [c] w s = .ok (some d, s') ∧ d ≤ 0) ∧
      pickComponent R [c] w s = .error .valueError ∧
      kDepth R q s = (none, s) := by
  refine ⟨⟨_, rfl, rfl⟩, fun c hc => ?_⟩
  have hcs : coefficients [c] w = .ok [q] := by simp [coefficients, Comp.coefficient, hc, Dist.call]
  refine ⟨?_, ?_, ?_⟩
  · unfold penetrationDepth
    rw [hcs]
    simp only [List.sum_cons, List.sum_nil, add_zero]
    rw [if_neg (by rw [abs_of_neg (by linarith)]; linarith)]
    refine ⟨_, _, rfl, ?_⟩
    obtain ⟨h0, h1⟩ := hR s
    have : Real.log (1 - (R.next s).1) ≤ 0 := Real.log_nonpos (by linarith) (by linarith)
    exact div_nonpos_of_nonneg_of_nonpos (by linarith) (by linarith)
  · unfold pickComponent
    rw [hcs]
    dsimp only
    rw [show pickIndex [q] (R.next s).1 = .error .valueError by
      unfold pickIndex
      rw [if_pos ⟨q, by simp, by linarith⟩]]
  · unfold kDepth
    rw [if_neg (by linarith)]

/-- C88 is violated: any number passes for a quantum yield, and negative lifetimes for lifetimes. -/
theorem yield_unchecked (q : ℝ) (c : Arg) (hc : IsCoefficient none c) :
    (∃ m, scatterer { coefficient := c, quantumYield := some q, name := "" } = .ok m ∧ m.qy = q) ∧
    ∃ m, scatterer { coefficient := c, tauRad := some (-1), tauNr := some 2, name := "" } = .ok m ∧ m.qy = 2 := by
  obtain ⟨d, hd⟩ := (absorption_made c none false).2 hc
  refine ⟨⟨⟨"", .scatterer, d, none, q, none, none, .isotropic⟩, ?_, rfl⟩,
    ⟨⟨"", .scatterer, d, none, 2, some (-1), some 2, .isotropic⟩, ?_, rfl⟩⟩
  · exact (scatterer_made _ _ _).2 ⟨hc, .given q (.inl rfl), hd, rfl, rfl, rfl, rfl, rfl, rfl⟩
  · refine (scatterer_made _ _ _).2 ⟨hc, ?_, hd, rfl, rfl, rfl, rfl, rfl, rfl⟩
    have := QuantumYieldIs.lifetimes (some 1) (rad := -1) (nr := 2) (by norm_num)
    norm_num at this
    exact this

end
end PV.Component
