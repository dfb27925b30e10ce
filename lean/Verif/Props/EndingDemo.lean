import Verif.Props.Ending
import Verif.Props.InsideDemo

/-!
C103: spectra that suit each other, an exception with the default settings, and consequences.
-/

namespace PV.Ending
open PV PV.Library PV.Solid PV.NextHit PV.Tracer PV.Geometry PV.Nested PV.Inside
noncomputable section
open Classical
variable {σ : Type} {n : ℕ} {S : LScene n} {B : Trimesh} {R : Rand σ} {method : EmitMethod}

/-! ### Spectra -/

theorem thermal_mono {a x : ℝ} (ha : 0 < a) (h : a ≤ x) : thermalShift a ≤ thermalShift x := by
  have hk : 0 < kB := by unfold kB; norm_num
  unfold thermalShift
  have hx := ha.trans_le h
  have : 1240 / x ≤ 1240 / a := div_le_div_of_nonneg_left (by norm_num) ha h
  exact div_le_div_of_nonneg_left (by norm_num) (by positivity) (by linarith)

theorem thermal_lt {x : ℝ} (hx : 0 < x) : thermalShift x < x := by
  have hk : 0 < kB := by unfold kB; norm_num
  unfold thermalShift
  rw [div_lt_iff₀ (by positivity)]
  have : x * (1240 / x + 3 / 2 * kB * 300) = 1240 + x * (3 / 2 * kB * 300) := by field_simp
  rw [this]
  have : 0 < x * (3 / 2 * kB * 300) := by positivity
  linarith

theorem emits_ok {D : Dist ℝ} {a b : ℝ} (h : Emits D method a b) {w u : ℝ} (hw : w ∈ Set.Icc a b) (h0 : 0 ≤ u)
    (h1 : u < 1) : ∃ w' ∈ Set.Icc a b, emitWavelength D method w u = .ok w' := by
  obtain ⟨T, hD, hpos, h⟩ := h
  have samp : ∀ p, 0 ≤ p → p ≤ 1 → ∃ x, D.sample (p + (1 - p) * u) = .ok (some x) ∧ T.x 0 ≤ x ∧ x ≤ T.x (T.n - 1) := by
    intro p hp0 hp1
    obtain ⟨x, _, hx, -, h2, h3, h4⟩ := Dist.sample_range_mono hD hpos (p := p + (1 - p) * u) (p' := 1)
      (by nlinarith) (by nlinarith) le_rfl
    exact ⟨x, hx, h2, h3.trans h4⟩
  have look : ∀ v, T.x 0 ≤ v → v ≤ T.x (T.n - 1) → ∃ p, D.lookup v = .ok (some p) ∧ 0 ≤ p ∧ p ≤ 1 := by
    intro v h2 h3
    obtain ⟨p, _, hp, -, hp0, hp1, hp2⟩ := (Dist.cdf_is_cdf hD hpos).2.2 v v h2 le_rfl h3
    exact ⟨p, hp, hp0, hp1.trans hp2⟩
  cases method with
  | full =>
    obtain ⟨x, hx, h2, h3⟩ := samp 0 le_rfl zero_le_one
    exact ⟨x, ⟨h.1.trans h2, h3.trans h.2⟩, by simp only [emitWavelength, lowerLimit, hx]⟩
  | redshift =>
    obtain ⟨p, hp, hp0, hp1⟩ := look w (h.1.trans hw.1) (hw.2.trans h.2.ge)
    obtain ⟨x, hx, h2, h3⟩ := samp p hp0 hp1
    have e : emitWavelength D .redshift w u = .ok x := by simp only [emitWavelength, lowerLimit, hp, hx]
    exact ⟨x, ⟨hw.1.trans (Material.redshift hD hpos h0 h1 e).1, h3.trans h.2.le⟩, e⟩
  | kT =>
    obtain ⟨ha, h2, h3, k, hk, hak, hy⟩ := h
    have hw0 := ha.trans_le hw.1
    obtain ⟨p, hp, hp0, hp1⟩ := look (thermalShift w) (h2.trans (thermal_mono ha hw.1))
      ((thermal_lt hw0).le.trans (hw.2.trans h3.ge))
    obtain ⟨x, hx, -, h5⟩ := samp p hp0 hp1
    have e : emitWavelength D .kT w u = .ok x := by
      simp only [emitWavelength, lowerLimit, if_neg hw0.ne', hp, hx]
    refine ⟨x, ⟨hak.trans ?_, h5.trans h3.le⟩, e⟩
    have hq0 : 0 ≤ p + (1 - p) * u := by nlinarith
    have hq1 : p + (1 - p) * u ≤ 1 := by nlinarith
    rw [Dist.sample_eq hD hpos hq0 hq1] at hx
    obtain ⟨rfl, hn, hmx, -⟩ := mkDist_ok hD
    have hc : T.cdf k = 0 := by
      unfold Table.cdf
      split_ifs
      · rfl
      · have : T.cum k = 0 := by
          unfold Table.cum
          refine Finset.sum_eq_zero fun i hi => ?_
          have := Finset.mem_range.1 hi
          rw [hy i (by omega), hy (i + 1) (by omega)]
          ring
        rw [this, zero_div]
    have hge : k ≤ segIdx T.cdf T.n (p + (1 - p) * u) :=
      Nat.le_findGreatest (by omega) (by rw [hc]; exact hq0)
    have := interp_ge (xs := T.cdf) (ys := T.x) (x := p + (1 - p) * u) hmx.mono (by omega) (by rw [Table.cdf_zero]; exact hq0)
    have hle := segIdx_le T.cdf T.n (p + (1 - p) * u)
    have hx' : interp T.cdf T.x T.n (p + (1 - p) * u) = x := by simpa using hx
    rw [← hx']
    exact (hmx.mono k _ hge (by omega)).trans this
  | boltzmann => exact h.elim
  | other => exact h.elim

theorem covers_ok {D : Dist ℝ} {a b : ℝ} (h : Covers D a b) {w : ℝ} (hw : w ∈ Set.Icc a b) :
    ∃ y, 0 ≤ y ∧ D.call w = .ok (some y) := by
  rcases h with ⟨y, hy, rfl⟩ | ⟨T, hD, h1, h2⟩
  · exact ⟨y, hy, rfl⟩
  · obtain ⟨v, h3, h4⟩ := Dist.call_nonneg hD (h1.trans hw.1) (hw.2.trans h2)
    exact ⟨v, h4, h3⟩

/-- **C103**, spectra. Materials can deal with the wavelengths from `a` to `b` if all their absorption spectra cover
them and all emission spectra suit them. -/
theorem tables_suit {a b : ℝ} (known : ∀ v, ∀ c ∈ (S.node v).comps, c.kind ≠ .other)
    (absorbs : ∀ v, ∀ c ∈ (S.node v).comps, Covers c.absDist a b)
    (emits : ∀ v, ∀ c ∈ (S.node v).comps, c.kind = .luminophore → Emits c.emsDist method a b)
    (phase : ∀ v, ∀ c ∈ (S.node v).comps, Reemits c → Drawable c.phase) : Suited S method (Set.Icc a b) where
  known := known
  coefficient v c hc _ hw := covers_ok (absorbs v c hc) hw
  phase := phase
  emission v c hc hk _ hw _ h0 h1 := emits_ok (emits v c hc hk) hw h0 h1

/-! ### An exception with the default settings -/

/-- **C103** (violated with the default way of choosing the emitted wavelength). Whatever the emission spectrum, a
luminophore that absorbs at the shortest wavelength of it cannot emit. -/
theorem default_emission_raises {T : Table ℝ} {D : Dist ℝ} {hist : Bool} (hD : mkDist T hist = .ok D)
    (h0 : 0 < T.x 0) (u : ℝ) : emitWavelength D .kT (T.x 0) u = .error .valueError := by
  have := (Dist.out_of_range_raises hD (thermalShift (T.x 0)) 0).1.2 (.inl (thermal_lt h0))
  simp only [emitWavelength, lowerLimit, if_neg h0.ne', this]

/-- A flat spectrum from 400 nm to 700 nm. -/
def flat : Table ℝ := ⟨4, fun i => 400 + 100 * i, fun _ => 1⟩

theorem flat_ok : mkDist flat false = .ok (.table flat false) := by
  unfold mkDist
  rw [if_neg, if_neg (by simp [flat]), if_neg, if_neg (by simp [flat])]
  · rintro ⟨i, -, h⟩
    norm_num [flat] at h
  · rw [not_not]
    intro i _
    simp only [flat]
    push_cast
    linarith

/-- A dye whose absorption spectrum and emission spectrum are both given from 400 nm to 700 nm. -/
def dye : Comp := ⟨"dye", .luminophore, .table flat false, .table flat false, 1, none, none, .isotropic⟩

/-- A ball with the dye in a world of radius 10. -/
def dyeScene : LScene 1 where
  node v := { ballScene.node v with comps := if v = 0 then [] else [dye] }

/-- A ray of 400 nm in the ball. -/
def violet : Ray ℝ := { innerRay with wavelength := 400 }

theorem dye_intersections (B : Trimesh) (o d : Vec3 ℝ) : dyeScene.intersections B o d = ballScene.intersections B o d :=
  rfl

theorem flat_call : (Dist.table flat false).call 400 = .ok (some 1) := by
  obtain ⟨-, hn, hx, -⟩ := mkDist_ok flat_ok
  have e : (400 : ℝ) = flat.x 0 := by norm_num [flat]
  have h0 : flat.x 0 ≤ 400 := e.ge
  have h1 : 400 ≤ flat.x (flat.n - 1) := by norm_num [flat]
  have hr : flat.inRange 400 := by unfold Table.inRange; push Not; exact ⟨h0, h1⟩
  simp only [Dist.call, hr, not_true_eq_false, Bool.false_eq_true, if_false, npInterp_eq h0 h1]
  rw [e, interp_knot hx (by omega)]
  rfl

theorem dye_suits : Suited dyeScene .redshift (Set.Icc 400 700) := by
  have hm : ∀ v, ∀ c ∈ (dyeScene.node v).comps, c = dye := by
    intro v c hc
    by_cases h : v = 0 <;> simp_all [dyeScene]
  have hl : flat.x (flat.n - 1) = 700 := by norm_num [flat]
  refine tables_suit (fun v c hc => ?_) (fun v c hc => ?_) (fun v c hc _ => ?_) (fun v c hc _ => ?_) <;>
    rw [hm v c hc]
  · simp [dye]
  · exact .inr ⟨flat, flat_ok, by norm_num [flat], hl.ge⟩
  · exact ⟨flat, flat_ok, ⟨0, by norm_num [flat], by norm_num [flat]⟩, by norm_num [flat], hl⟩
  · trivial

/-- **C103** (violated with the default way of choosing the emitted wavelength). A ray of 400 nm in the ball is
absorbed by the dye, and the tracer raises an exception, although both spectra of the dye include 400 nm. -/
theorem default_run_raises : follow (pyOps dyeScene noBoxes halves .kT) 10 none violet () =
    .error (.raised .valueError) := by
  have hb : body (pyOps dyeScene noBoxes halves .kT) 10 none (0 + 1) violet () =
      ([⟨violet.propagate (Real.log 2) 1, .absorb, ⟨none, some "ball", none, some "dye", none⟩⟩],
        .raise .valueError) := by
    unfold body
    have hi : (pyOps dyeScene noBoxes halves .kT).intersections violet.position violet.direction =
      .ok (ballScene.intersections noBoxes innerRay.position innerRay.direction) := rfl
    rw [hi]
    dsimp only
    have hn := inner_hit
    change nextHit (pyOps dyeScene noBoxes halves .kT).eps
      ((pyOps dyeScene noBoxes halves .kT).distBetween violet.position) _ = _ at hn
    rw [hn]
    dsimp only
    rw [if_neg (by simp [beyond]), if_neg (by decide)]
    have hcs : coefficients (dyeScene.node 1).comps 400 = .ok [1] := by
      simp [dyeScene, coefficients, Comp.coefficient, dye]
      rw [flat_call]
      rfl
    have hdep : (pyOps dyeScene noBoxes halves .kT).penetrationDepth 1 violet.wavelength () =
        .ok (some (Real.log 2), ()) := by
      show penetrationDepth halves (dyeScene.node 1).comps 400 () = _
      unfold penetrationDepth
      rw [hcs]
      norm_num [halves]
      rw [one_div, Real.log_inv, neg_neg]
    rw [hdep]
    have hlt : Real.log 2 < 2 := by
      have := Real.log_le_sub_one_of_pos (show (0 : ℝ) < 2 by norm_num)
      linarith
    simp only [isAbsorbed, hlt, if_true]
    unfold absorbBody
    have hpk : (pyOps dyeScene noBoxes halves .kT).component 1 400 () = .ok (dye, ()) := by
      show pickComponent halves (dyeScene.node 1).comps 400 () = _
      unfold pickComponent
      rw [hcs]
      dsimp only
      rw [Material.engine_eq_python_pick (by simp) (by simp) (by norm_num [halves])
        (by norm_num [halves]) (by
          intro k hk
          have hk : k = 0 ∨ k = 1 := by simp at hk; omega
          rcases hk with rfl | rfl <;> norm_num [halves])]
      norm_num [halves, kPick, kPickFrom, dyeScene]
    have hix : (pyOps dyeScene noBoxes halves .kT).refractiveIndex 1 = 1 := rfl
    have hwl : (violet.propagate (Real.log 2) 1).wavelength = 400 := rfl
    dsimp only
    rw [hix, hwl, hpk]
    dsimp only
    have hrad : (pyOps dyeScene noBoxes halves .kT).isRadiative dye (violet.propagate (Real.log 2) 1) () =
        .ok (true, ()) := by
      show Except.ok (dye.isRadiative halves ()) = _
      norm_num [Comp.isRadiative, dye, halves]
    rw [hrad]
    dsimp only
    have hem : (pyOps dyeScene noBoxes halves .kT).emit 1 dye (violet.propagate (Real.log 2) 1) () =
        .error .valueError := by
      have h : ∀ u : ℝ, emitWavelength dye.emsDist .kT 400 u = .error .valueError := fun u => by
        have := default_emission_raises flat_ok (by norm_num [flat]) u
        simpa [flat, dye] using this
      have hw : ((violet.propagate (Real.log 2) 1).representation (dyeScene.node 1).w2l).wavelength = 400 := rfl
      have he : dye.emit halves .kT ((violet.propagate (Real.log 2) 1).representation (dyeScene.node 1).w2l) () =
          .error .valueError := by
        unfold Comp.emit
        rw [hw]
        have hd : dye.phase.draw halves () = .ok (PV.isotropic halves ()) := rfl
        rw [hd]
        simp only [h]
        rfl
      unfold pyOps
      dsimp only
      rw [he]
    rw [hem]
    rfl
  unfold follow stepForward loop
  rw [hb]

/-- A spectrum that is dark up to 500 nm suits "kT" from 500 nm on. -/
def dark : Table ℝ := ⟨3, fun i => 300 + 200 * i, fun i => if i = 2 then 1 else 0⟩

example : Emits (.table dark false) .kT 500 700 := by
  refine ⟨dark, ?_, ⟨2, by norm_num [dark], by norm_num [dark]⟩, by norm_num, ?_, by norm_num [dark], 1,
    by norm_num [dark], by norm_num [dark], ?_⟩
  · unfold mkDist
    rw [if_neg, if_neg (by simp [dark]), if_neg, if_neg (by simp [dark])]
    · rintro ⟨i, -, h⟩
      simp only [dark] at h
      split at h <;> norm_num at h
    · rw [not_not]
      intro i _
      simp only [dark]
      push_cast
      linarith
  · norm_num [dark, thermalShift, kB]
  · intro i hi
    have : i ≠ 2 := by omega
    simp [dark, this]

/-! ### The hypotheses are met -/

example : ∃ h r e, follow (pyOps ballScene noBoxes halves .kT) 10 none lampRay () = .ok h ∧
    h.getLast? = some (r, e) ∧ Ends e := by
  obtain ⟨a, b, c, d, e, f, g⟩ := ball_regular
  have hW : Suited ballScene .kT Set.univ := by
    have hm : ∀ v, ∀ c ∈ (ballScene.node v).comps, c.kind = .absorber ∧ c.absDist = .const 1 := by
      intro v c hc
      by_cases h : v = 0 <;> simp_all [ballScene]
    refine ⟨fun v c hc => ?_, fun v c hc w _ => ⟨1, zero_le_one, ?_⟩, fun v c hc hr => ?_, fun v c hc hk => ?_⟩
    · simp [(hm v c hc).1]
    · rw [(hm v c hc).2]; rfl
    · simp [Reemits, (hm v c hc).1] at hr
    · simp [(hm v c hc).1] at hk
  have box : ∀ v size, (ballScene.node v).geom ≠ .box size := by
    intro v size
    by_cases h : v = 0 <;> simp [ballScene, h]
  refine every_ray_ends_partial a.toSound b ball_arranged c a.ratio hW (fun s => ⟨(d s).1.le, (d s).2⟩) e.unit trivial ?_
  intro count ray' s' h
  rcases ball_visited (reached_visited h) with ⟨_, rfl⟩ | ⟨_, rfl⟩
  · exact ⟨ball_general (x := -5) (by norm_num) (by norm_num) rfl rfl, fun h _ _ size hb => absurd hb (box _ size)⟩
  · exact ⟨ball_general (x := -1) (by norm_num) (by norm_num) rfl rfl, fun h _ _ size hb => absurd hb (box _ size)⟩

/-! ### Engine -/

/-- **C103**, engine. Where the states of a ray are regular, the engine's record of it is the history of the Python
tracer, and it ends with one of the four ends. -/
theorem engine_ray_ends_partial {W : Set ℝ} (hS : Supported S) (hv : ∀ v, Visible (S.node v).geom) (hA : Arranged S)
    (hB : TrimeshSound B) (hW : Suited S method W) (hR : ∀ s, 0 < (R.next s).1 ∧ (R.next s).1 < 1) {maxsteps : ℕ}
    {ray : Ray ℝ} {s : σ} (hf : Fresh ray) (hw : ray.wavelength ∈ W)
    (hreg : ∀ count ray' s', Visited S B R method maxsteps ray s count ray' s' →
      RegularState S B R ray' s' ∧ Smoothly S B ray') :
    ∃ e, ((Budget.fullHistory (kOps S R method) maxsteps (launchOf ray s)).map
        (Spec.eventOf (names S) ray.source)).getLast? = some e ∧ Ends e.event := by
  have hR' : R.Unit := fun s => ⟨(hR s).1.le, (hR s).2⟩
  obtain ⟨h1, e, h2, h3⟩ := loop_fine hS.toSound hv hA hB hS.ratio hW hR' (maxpath := none)
    (fun _ _ _ h => (hreg _ _ _ (reached_visited h)).2) (maxsteps + 1) 0 ray s hf.unit hw .start (by omega)
  have hr : Regular S B R method maxsteps ray s := by
    refine ⟨fun _ _ _ h => (hreg _ _ _ h).1, fun e => ?_⟩
    unfold stepForward
    simp [h1]
  rw [run_agrees hS hv hB hR method maxsteps ray hf s hr]
  refine ⟨e, ?_, h3⟩
  unfold run stepForward
  rw [List.getLast?_cons, h2]
  rfl

end
end PV.Ending
