import Verif.Props.Sampling

/-!
C86. Absorption on the way out of the scene.
-/

namespace PV.LastSegment
open PV MeasureTheory Set
noncomputable section

/-- **C86, negation.** Whatever the world is filled with, a ray whose next surface is that of the world
leaves the scene for all random numbers: the Python tracer draws none on this segment. -/
theorem never_absorbed {n : ℕ} {σ : Type} (S : LScene n) (B : Trimesh) (R : Rand σ) (m : EmitMethod)
    {maxsteps count : ℕ} {ray : Ray ℝ} {h : HitInfo (Fin (n + 1)) ℝ}
    (hh : nextHit epsZero (distanceBetween ray.position)
      (S.intersections B ray.position ray.direction) = .ok (some h))
    (hcount : count ≤ maxsteps) (hroot : h.hit = 0) (s : σ) :
    ∃ e, body (pyOps S B R m) maxsteps none count ray s = ([e], .stop) ∧ e.event = .exit := by
  unfold body
  have hi : (pyOps S B R m).intersections ray.position ray.direction =
    .ok (S.intersections B ray.position ray.direction) := rfl
  rw [hi]
  dsimp only
  change nextHit (pyOps S B R m).eps ((pyOps S B R m).distBetween ray.position) _ = _ at hh
  rw [hh]
  dsimp only
  rw [if_neg (by simp [beyond, hcount]), if_pos (show h.hit = (pyOps S B R m).root from hroot)]
  exact ⟨_, rfl, rfl⟩

/-- **C86, negation.** The same for the engine. -/
theorem engine_never_absorbs {n : ℕ} {σ : Type} (S : LScene n) (R : Rand σ) (m : EmitMethod)
    {maxsteps count : ℕ} {ray : KRay ℝ Comp} {c : Fin (n + 1)} {a : Option (Fin (n + 1))} {t : ℝ}
    (hh : (kOps S R m).nextHit ray.position ray.direction = some (0, c, a, t))
    (hcount : count ≤ maxsteps) (s : σ) :
    (kBody (kOps S R m) maxsteps count ray s).2 = .stop ∧
    ∀ o ∈ (kBody (kOps S R m) maxsteps count ray s).1, ∀ r, o = .record r → r.kind = .exit := by
  unfold kBody
  rw [hh]
  dsimp only
  rw [if_neg (by omega), if_pos (show (0 : Fin (n + 1)) = (kOps S R m).root from rfl)]
  refine ⟨rfl, ?_⟩
  intro o ho r hr
  simp only [List.mem_cons, List.not_mem_nil, or_false] at ho
  rcases ho with rfl | rfl
  · cases hr; rfl
  · cases hr

/-- A world full of ink: attenuation 1 for every wavelength, radius 10. -/
def ink : LScene 0 := ⟨fun _ => ⟨"world", .sphere 10, .one, .one, 1, .fresnel,
  [⟨"ink", .absorber, .const 1, .const 0, 0, none, none, .isotropic⟩]⟩⟩

/-- A ray at the centre. -/
def centre : Ray ℝ := { position := 0, direction := ⟨1, 0, 0⟩, wavelength := 555, travelled := 0, duration := 0, source := none }

theorem ink_hit : nextHit epsZero (distanceBetween centre.position)
    (ink.intersections Library.noBoxes centre.position centre.direction) =
    .ok (some ⟨0, 0, none, ⟨10, 0, 0⟩, 10⟩) := by
  have hs : pySphere 10 (0 : Vec3 ℝ) ⟨1, 0, 0⟩ = [10] := by
    have h20 : Real.sqrt 400 = 20 := by
      rw [show (400 : ℝ) = 20 ^ 2 by norm_num]; exact Real.sqrt_sq (by norm_num)
    unfold pySphere
    norm_num [Vec3.dot, h20, sortedBy, List.insertionSort, List.orderedInsert]
  have hi : ink.intersections Library.noBoxes centre.position centre.direction =
      [⟨0, ⟨10, 0, 0⟩, 10⟩] := by
    have h1 : Real.sqrt 100 = 10 := by
      rw [show (100 : ℝ) = 10 ^ 2 by norm_num]; exact Real.sqrt_sq (by norm_num)
    have hv : (Affine.one : Affine ℝ).vec ⟨1, 0, 0⟩ = ⟨1, 0, 0⟩ := by
      simp [Affine.one, Affine.vec, Vec3.dot]
    have hp : (Affine.one : Affine ℝ).point 0 = 0 := by
      ext <;> simp [Affine.one, Affine.point, Affine.vec, Vec3.dot]
    have hq : (Affine.one : Affine ℝ).point (0 + (10 : ℝ) • ⟨1, 0, 0⟩) = ⟨10, 0, 0⟩ := by
      ext <;> simp [Affine.one, Affine.point, Affine.vec, Vec3.dot]
    unfold LScene.intersections
    simp only [List.finRange_succ, List.finRange_zero, List.map_nil, List.flatMap_cons, List.flatMap_nil,
      List.append_nil, LNode.pyTs, ink, pyIntersect, LNode.localOrigin, LNode.localDir, centre, hv, hp, hs,
      List.map_cons, List.map_nil, LNode.inter, hq]
    norm_num [distanceBetween, Vec3.norm, Vec3.dot, h1, epsZero, sortedBy, List.insertionSort,
      List.filter_cons]
  rw [hi]
  norm_num [nextHit, epsZero, List.filter_cons]

/-- **C86, negation.** A lamp in a world of ink, ten attenuation lengths from its edge: every ray gets
out, where one in `exp 10` should. -/
theorem ink_transparent {σ : Type} (R : Rand σ) (m : EmitMethod) (maxsteps : ℕ) (h1 : 1 ≤ maxsteps)
    (s : σ) : coefficients (ink.node 0).comps 555 = .ok [1] ∧
    ((stepForward (pyOps ink Library.noBoxes R m) maxsteps none 2 centre s).1.map (·.event) =
      [.generate, .exit] ∧
    (stepForward (pyOps ink Library.noBoxes R m) maxsteps none 2 centre s).2 = .finished) := by
  refine ⟨by simp [ink, coefficients, Comp.coefficient, Dist.call], ?_⟩
  obtain ⟨e, he, hev⟩ := never_absorbed ink Library.noBoxes R m ink_hit h1 rfl s
  unfold stepForward loop
  dsimp only
  rw [he]
  simp [hev]

/-- **C86, negation.** Faint media: with an attenuation of at most 1e-8 per unit no ray is absorbed
however far it goes, in either tracer. -/
theorem faint_never_absorbs {σ : Type} (R : Rand σ) {comps : List Comp} {w : ℝ} {cs : List ℝ}
    (hc : coefficients comps w = .ok cs) (hpos : ∀ c ∈ cs, 0 ≤ c) (hs : cs.sum ≤ 1e-8) (s : σ) :
    penetrationDepth R comps w s = .ok (none, s) ∧ kDepth R cs.sum s = (none, s) := by
  have h0 : 0 ≤ cs.sum := List.sum_nonneg hpos
  constructor
  · unfold penetrationDepth
    rw [hc]
    dsimp only
    rw [if_pos (by rw [abs_of_nonneg h0]; exact hs)]
  · unfold kDepth
    rw [if_neg (not_lt.2 hs)]

/-- Non-vacuity: haze of 1e-8 per unit. -/
example : coefficients [⟨"haze", .absorber, .const 1e-8, .const 0, 0, none, none, .isotropic⟩] 555 =
    .ok [1e-8] := by simp [coefficients, Comp.coefficient, Dist.call]

end
end PV.LastSegment
