import Verif.Props.MovedEngine
import Verif.Props.AgreementDemo
import Verif.Props.Phase

/-!
**C104**, cases: the black ball carried to another place, and a foggy ball that the engine does not
turn.
-/

namespace PV.Moved
open Spec Library Real
noncomputable section

/-- Half a turn about the x axis. -/
def flip : Affine ℝ := ⟨⟨1, 0, 0⟩, ⟨0, -1, 0⟩, ⟨0, 0, -1⟩, 0⟩

theorem flip_rigid : flip.Rigid := by norm_num [flip, Affine.Rigid, Vec3.dot]

theorem flip_inverse : flip.Inverse flip := by
  constructor <;> intro p <;> ext <;> simp [flip, Affine.point, Affine.vec, Vec3.dot]

/-- A quarter turn about the z axis followed by a shift, and its inverse. -/
def carry : Affine ℝ := ⟨⟨0, -1, 0⟩, ⟨1, 0, 0⟩, ⟨0, 0, 1⟩, ⟨0, 0, 7⟩⟩
def carryBack : Affine ℝ := ⟨⟨0, 1, 0⟩, ⟨-1, 0, 0⟩, ⟨0, 0, 1⟩, ⟨0, 0, -7⟩⟩

theorem carry_rigid : carry.Rigid := by norm_num [carry, Affine.Rigid, Vec3.dot]

theorem carry_inverse : carry.Inverse carryBack := by
  constructor <;> intro p <;> ext <;> simp [carry, carryBack, Affine.point, Affine.vec, Vec3.dot]

/-- The black ball turned and carried away: the history of the lamp's ray, from the place the lamp is
carried to. -/
example : stepForward (pyOps (ballScene.moved carry carryBack) noBoxes halves .kT) 10 none 11
      ⟨⟨0, -5, 7⟩, ⟨0, 1, 0⟩, 555, 0, 0, some "lamp"⟩ () =
    ((run ballScene noBoxes halves .kT 10 none lampRay ()).map (Step.moved carry), .finished) ∧
    (run ballScene noBoxes halves .kT 10 none lampRay ()).map (·.event) =
      [.generate, .transmit, .absorb, .nonradiative] := by
  have h := moved_history ballScene carry_rigid carry_inverse noBoxes halves .kT 10 none lampRay ()
  have e1 : carry.point lampRay.position = ⟨0, -5, 7⟩ := by
    ext <;> norm_num [carry, lampRay, Affine.point, Affine.vec, Vec3.dot]
  have e2 : carry.vec lampRay.direction = ⟨0, 1, 0⟩ := by
    ext <;> norm_num [carry, lampRay, Affine.vec, Vec3.dot]
  rw [e1, e2, ball_run] at h
  refine ⟨h, ?_⟩
  unfold run
  rw [ball_run]
  rfl

/-- The hypotheses of `turned_history` and `engine_shifted_partial` are met: the world of the black
ball is round and empty, and there are turns about its centre and shifts. -/
example : RoundWorld ballScene ∧ flip.t = 0 ∧ ∃ g gi : Affine ℝ, g.Inverse gi ∧ (∀ v, g.vec v = v) ∧
    g.point 0 ≠ 0 := by
  refine ⟨⟨⟨10, rfl⟩, rfl, rfl, rfl⟩, rfl, ⟨⟨1, 0, 0⟩, ⟨0, 1, 0⟩, ⟨0, 0, 1⟩, ⟨3, 0, 0⟩⟩,
    ⟨⟨1, 0, 0⟩, ⟨0, 1, 0⟩, ⟨0, 0, 1⟩, ⟨-3, 0, 0⟩⟩, ⟨fun p => ?_, fun p => ?_⟩, fun v => ?_, ?_⟩
  · ext <;> simp [Affine.point, Affine.vec, Vec3.dot]
  · ext <;> simp [Affine.vec, Vec3.dot]
  · ext <;> simp [Affine.vec, Vec3.dot]
  · simp [Affine.point, Affine.vec, Vec3.dot, Vec3.ext_iff]

/-- A ball of fog that throws light forward into a cone, in a world of radius 10. -/
def fog : LScene 1 where
  node v := if v = 0 then ⟨"world", .sphere 10, .one, .one, 1, .fresnel, []⟩
    else ⟨"fog", .sphere 5, .one, .one, 1, .null,
      [⟨"mist", .scatterer, .const 1, .const 0, 1, none, none, .cone (π / 4)⟩]⟩

/-- A scattering. -/
theorem scattered {σ : Type} {K : KOps ℝ (Fin 2) Comp σ} {c : Fin 2} {ray : KRay ℝ Comp} {d : ℝ}
    {s s1 s2 s3 : σ} {m : Comp} {dir : Vec3 ℝ} (h1 : K.pick c ray.wavelength s = (m, s1))
    (h2 : K.kind m = .scatterer) (h3 : K.yields m s1 = (true, s2)) (h4 : K.phase m s2 = (dir, s3)) :
    ∃ a b nx, kAbsorb K c ray d s = ([.record a, .record b], nx) ∧ b.kind = .scatter ∧
      b.ray.direction = dir := by
  obtain ⟨a1, a2, a3, a4, a5, a6, a7, a8, a9, a10, a11, a12, a13, a14, a15, a16, a17⟩ := K
  simp only at h1 h2 h3 h4
  unfold kAbsorb
  have hw : (ray.advance d (a3 c)).wavelength = ray.wavelength := rfl
  simp only [hw, h1, h2, h3, h4, true_or, if_true, reduceCtorEq, if_false]
  exact ⟨_, _, _, rfl, rfl, rfl⟩

/-- A pass that ends in an absorption and a scattering, seen in the event log. -/
theorem third_row {σ : Type} {K : KOps ℝ (Fin 2) Comp σ} (T : RecTables ℝ (Fin 2)) {ray : KRay ℝ Comp}
    {s s' : σ} {a b : Row ℝ (Fin 2) Comp} {nx : KNext ℝ Comp σ} {d : ℝ} (hroot : K.root = 0)
    (h1 : K.nextHit ray.position ray.direction = some (1, 1, some 0, 5))
    (h2 : K.depth 1 ray.wavelength s = (some d, s')) (h3 : d < 5)
    (h4 : kAbsorb K 1 ray d s' = ([.record a, .record b], nx)) :
    (kTraceOne K T (some (0, 10)) 10 ray s).1[2]? = some (.write 2 b) := by
  have hb : kBody K 10 1 ray s = ([.record a, .record b], nx) := by
    obtain ⟨a1, a2, a3, a4, a5, a6, a7, a8, a9, a10, a11, a12, a13, a14, a15, a16, a17⟩ := K
    simp only at hroot h1 h2
    unfold kBody
    simp only [h1, hroot]
    rw [if_neg (by norm_num), if_neg (by decide)]
    simp only [h2, isAbsorbed, h3, if_true]
    exact h4
  unfold kTraceOne
  dsimp only
  rw [kLoop]
  rw [if_neg (by simp [kExhausted, kRecord])]
  dsimp only
  rw [show 0 + 1 = 1 from rfl, hb]
  cases nx <;> simp [kRun, kRecord]

theorem coef_const (w x : ℝ) : ((compileDist (.const x)).bind (kCoefficient · w)).getD 0 = x := by
  obtain ⟨T, h1, h2⟩ := Material.engine_coefficient (D := .const x) (w := w) (c := x) (.inl ⟨x, rfl⟩) rfl
  rw [h1, Option.bind_some, h2, Option.getD_some]

/-- In a ball of fog that is looked at from the x axis, with all random numbers 1/2, the third row of
the log is a scattering into the upper half of the world, however the ball is turned about that
axis. -/
theorem fog_row {S : LScene 1} (hn : ∀ v, (S.node v).comps = (fog.node v).comps ∧
      (S.node v).geom = (fog.node v).geom ∧ (S.node v).w2l.point 0 = 0 ∧
      (S.node v).w2l.vec ⟨1, 0, 0⟩ = ⟨1, 0, 0⟩) (T : RecTables ℝ (Fin 2)) :
    ∃ b : Row ℝ (Fin 2) Comp,
      (kTraceOne (kOps S halves .kT) T (some (0, 10)) 10 ⟨0, ⟨1, 0, 0⟩, 555, 0, 0, none⟩ ()).1[2]? =
        some (.write 2 b) ∧ b.kind = .scatter ∧ 0 < b.ray.direction.z := by
  have hl : Real.log 2 < 5 := by
    have := Real.log_le_sub_one_of_pos (show (0 : ℝ) < 2 by norm_num)
    linarith
  have hnext : (kOps S halves .kT).nextHit 0 ⟨1, 0, 0⟩ = some (1, 1, some 0, 5) := by
    have h : (fun v => kIntersect (S.node v).geom ((S.node v).w2l.point 0)
        ((S.node v).w2l.vec ⟨1, 0, 0⟩)) = fun v : Fin 2 => if v = 0 then [10] else [5] := by
      funext v
      rw [(hn v).2.1, (hn v).2.2.1, (hn v).2.2.2]
      have := fun r hr => sphere_hits (r := r) (x := 0) (q := r) hr rfl
      by_cases h : v = 0
      · simp only [h, fog, if_true, kIntersect]
        rw [show (0 : Vec3 ℝ) = ⟨0, 0, 0⟩ from rfl, this 10 (by norm_num)]
        norm_num [epsZero, List.filter_cons]
      · simp only [h, fog, if_false, kIntersect]
        rw [show (0 : Vec3 ℝ) = ⟨0, 0, 0⟩ from rfl, this 5 (by norm_num)]
        norm_num [epsZero, List.filter_cons]
    show kNextHit (List.finRange 2) _ = _
    rw [h]
    have hf : List.finRange 2 = [0, 1] := rfl
    rw [hf]
    norm_num [kNextHit, kHits, kFirst, kSecond, kContainer, kMinT, List.zipIdx]
  have hc : (S.node 1).kCoefs 555 = [1] := by
    unfold LNode.kCoefs
    rw [(hn 1).1]
    simp [fog, Comp.kCoef, coef_const]
  have hd : (kOps S halves .kT).depth 1 555 () = (some (Real.log 2), ()) := by
    show kDepth halves ((S.node 1).kCoefs 555).sum () = _
    rw [hc]
    unfold kDepth
    norm_num [halves]
    rw [one_div, Real.log_inv, neg_neg]
  have hU : halves.Unit := fun _ => by norm_num [halves]
  have hz : 0 < (kSamplePhase halves .cone (π / 4) ()).1.z := by
    have := Phase.engine_cone_follows_world (R := halves) (s := ()) hU (t := π / 4)
      (by linarith [two_le_pi]) (by linarith [pi_pos]) Affine.one
    exact lt_of_lt_of_le (cos_pos_of_mem_Ioo ⟨by linarith [pi_pos], by linarith [pi_pos]⟩) this
  have hpk : (kOps S halves .kT).pick 1 555 () =
      (⟨"mist", .scatterer, .const 1, .const 0, 1, none, none, .cone (π / 4)⟩, ()) := by
    show (((S.node 1).comps[kPick ((S.node 1).kCoefs 555) (1 / 2)]?).getD noComp, ()) = _
    rw [hc, (hn 1).1]
    norm_num [kPick, kPickFrom, fog]
  obtain ⟨a, b, nx, hab, hk, hzb⟩ : ∃ a b nx, kAbsorb (kOps S halves .kT) 1
      ⟨0, ⟨1, 0, 0⟩, 555, 0, 0, none⟩ (Real.log 2) () = ([.record a, .record b], nx) ∧
      b.kind = .scatter ∧ b.ray.direction = (kSamplePhase halves .cone (π / 4) ()).1 := by
    refine scattered (K := kOps S halves .kT) hpk rfl (s2 := ()) ?_ (s3 := ()) rfl
    show (decide ((1 / 2 : ℝ) < 1), ()) = _
    norm_num
  exact ⟨b, third_row T rfl hnext hd hl hab, hk, by rw [hzb]; exact hz⟩


/-- **C104** (violated by the engine). A ball of fog turned upside down together with the ray that
enters it scatters the ray upwards all the same; carried along, the scattered ray would go down. -/
theorem engine_not_turned : ∃ (S : LScene 1) (g : Affine ℝ) (ray : KRay ℝ Comp), g.Rigid ∧
    g.Inverse g ∧ ∀ T : RecTables ℝ (Fin 2), ∃ a b : Row ℝ (Fin 2) Comp,
      (kTraceOne (kOps S halves .kT) T (some (0, 10)) 10 ray ()).1[2]? = some (.write 2 a) ∧
      (kTraceOne (kOps (S.moved g g) halves .kT) T (some (0, 10)) 10 (ray.moved g) ()).1[2]? =
        some (.write 2 b) ∧
      a.kind = .scatter ∧ b.kind = .scatter ∧ (g.vec a.ray.direction).z < 0 ∧ 0 < b.ray.direction.z := by
  refine ⟨fog, flip, ⟨0, ⟨1, 0, 0⟩, 555, 0, 0, none⟩, flip_rigid, flip_inverse, fun T => ?_⟩
  obtain ⟨a, ha, ka, za⟩ := fog_row (S := fog) (fun v => by
    by_cases h : v = 0 <;>
      simp [fog, h, Affine.one, Affine.point, Affine.vec, Vec3.dot, Vec3.ext_iff]) T
  obtain ⟨b, hb, kb, zb⟩ := fog_row (S := fog.moved flip flip) (fun v => by
    by_cases h : v = 0 <;>
      simp [fog, h, Affine.one, Affine.point, Affine.vec, Vec3.dot, Vec3.ext_iff, LScene.moved,
        LNode.moved, flip, Affine.comp, Affine.c0, Affine.c1, Affine.c2]) T
  refine ⟨a, b, ha, ?_, ka, kb, ?_, zb⟩
  · rw [← hb]
    congr 3
    simp [KRay.moved, flip, Affine.point, Affine.vec, Vec3.dot, Vec3.ext_iff]
  · simp only [flip, Affine.vec, Vec3.dot]
    linarith

end
end PV.Moved
