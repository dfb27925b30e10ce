import Verif.Props.Scaled
import Verif.Props.AgreementDemo

/-!
The hypotheses of **C108** are met: the black ball of `PV.Library.ballScene` in a unit half as long.
-/

namespace PV.Scaled
open PV PV.Spec PV.Library
noncomputable section

/-- A black ball of radius 2 in a world of radius 20. -/
def bigScene : LScene 1 where
  node v := if v = 0 then ⟨"world", .sphere 20, .one, .one, 1, .fresnel, []⟩
    else ⟨"ball", .sphere 2, .one, .one, 1, .null,
      [⟨"soot", .absorber, .const (1 / 2), .const 0, 0, none, none, .isotropic⟩]⟩

theorem big_w2l (v : Fin 2) (p : Vec3 ℝ) : (bigScene.node v).w2l.point p = p ∧
    (bigScene.node v).w2l.vec p = p ∧ (bigScene.node v).l2w.point p = p ∧
    (bigScene.node v).l2w.vec p = p := by
  by_cases h : v = 0 <;>
    simp [bigScene, h, Affine.one, Affine.point, Affine.vec, Vec3.dot] <;>
    (cases p; simp [Vec3.ext_iff])

theorem big_scaled : ballScene.scaled 2 = bigScene := by
  unfold LScene.scaled bigScene
  congr 1
  funext v
  by_cases h : v = 0
  · simp only [h, ballScene, if_true, LNode.scaled, Geom.scaled, Affine.scaled, Affine.one, List.map_nil, LNode.mk.injEq, and_true,
      true_and]
    refine ⟨by norm_num, ?_⟩
    simp [Vec3.ext_iff]
  · simp only [h, ballScene, if_false, LNode.scaled, Geom.scaled, Affine.scaled, Affine.one, List.map_cons, List.map_nil,
      LNode.mk.injEq, and_true, true_and, Comp.scaled, Dist.thinned, Option.map_none]
    refine ⟨by norm_num, ?_⟩
    simp [Vec3.ext_iff]

theorem big_supported : Supported bigScene := big_scaled ▸ supported_scaled (by norm_num) ball_supported

theorem big_hits (x : ℝ) (v : Fin 2) :
    kIntersect (bigScene.node v).geom ((bigScene.node v).w2l.point ⟨x, 0, 0⟩)
      ((bigScene.node v).w2l.vec ⟨1, 0, 0⟩) =
    if v = 0 then [-x - 20, -x + 20].filter (fun t => t > epsZero)
    else [-x - 2, -x + 2].filter (fun t => t > epsZero) := by
  rw [(big_w2l v _).1, (big_w2l v _).2.1]
  by_cases h : v = 0
  · simp only [h, bigScene, if_true, kIntersect]
    exact sphere_hits (by norm_num) rfl
  · simp only [h, bigScene, if_false, kIntersect]
    exact sphere_hits (by norm_num) rfl

theorem big_first : (kOps bigScene halves .kT).nextHit ⟨-10, 0, 0⟩ ⟨1, 0, 0⟩ =
    some (1, 0, some 1, 8) := by
  have h : (fun v => kIntersect (bigScene.node v).geom ((bigScene.node v).w2l.point ⟨-10, 0, 0⟩)
      ((bigScene.node v).w2l.vec ⟨1, 0, 0⟩)) = fun v : Fin 2 => if v = 0 then [30] else [8, 12] := by
    funext v
    rw [big_hits]
    by_cases h : v = 0 <;> norm_num [h, epsZero, List.filter_cons]
  show kNextHit (List.finRange 2) _ = _
  rw [h]
  have hf : List.finRange 2 = [0, 1] := rfl
  rw [hf]
  norm_num [kNextHit, kHits, kFirst, kContainer, kMinT, List.zipIdx]

theorem big_second : (kOps bigScene halves .kT).nextHit ⟨-2, 0, 0⟩ ⟨1, 0, 0⟩ =
    some (1, 1, some 0, 4) := by
  have h : (fun v => kIntersect (bigScene.node v).geom ((bigScene.node v).w2l.point ⟨-2, 0, 0⟩)
      ((bigScene.node v).w2l.vec ⟨1, 0, 0⟩)) = fun v : Fin 2 => if v = 0 then [22] else [4] := by
    funext v
    rw [big_hits]
    by_cases h : v = 0 <;> norm_num [h, epsZero, List.filter_cons]
  show kNextHit (List.finRange 2) _ = _
  rw [h]
  have hf : List.finRange 2 = [0, 1] := rfl
  rw [hf]
  norm_num [kNextHit, kHits, kFirst, kSecond, kContainer, kMinT, List.zipIdx]

theorem big_origin (v : Fin 2) (p : Vec3 ℝ) : (bigScene.node v).localOrigin p = p :=
  (big_w2l v p).1

theorem big_dir (v : Fin 2) (p : Vec3 ℝ) : (bigScene.node v).localDir p = p :=
  (big_w2l v p).2.1

theorem big_ray {x : ℝ} (h1 : -12 < x) (h2 : x < 12) {ray : Ray ℝ} (hp : ray.position = ⟨x, 0, 0⟩)
    (hd : ray.direction = ⟨1, 0, 0⟩) : RegularRay bigScene noBoxes ray where
  clear v := by by_cases h : v = 0 <;> simp [bigScene, h, Geometry.ClearDir]
  line v := by
    rw [big_origin, big_dir, hp, hd]
    by_cases h : v = 0
    · simp only [bigScene, h, if_true, RegularLine]
      right
      norm_num [Geometry.disc, Vec3.dot]
      nlinarith
    · simp only [bigScene, h, if_false, RegularLine]
      right
      norm_num [Geometry.disc, Vec3.dot]
      nlinarith
  inside := by
    rw [big_origin, hp]
    norm_num [bigScene, Solid.Inner]
    nlinarith
  off t t0 t1 := by
    rw [big_origin, big_dir, hp, hd]
    rintro ⟨_, h⟩
    apply h
    have : t ≤ 1 := le_trans t1 (by norm_num [epsZero])
    norm_num [bigScene, Solid.Inner]
    nlinarith

theorem big_state {x t : ℝ} (h1 : -12 < x) (h2 : x < 12) {ray : Ray ℝ}
    (hp : ray.position = ⟨x, 0, 0⟩) (hd : ray.direction = ⟨1, 0, 0⟩) {c : Fin 2} {a : Option (Fin 2)}
    (hh : (kOps bigScene halves .kT).nextHit ⟨x, 0, 0⟩ ⟨1, 0, 0⟩ = some (1, c, a, t))
    (ht : (x + t) ^ 2 = 2 ^ 2) : RegularState bigScene noBoxes halves ray () where
  toRegularRay := big_ray h1 h2 hp hd
  pick v cs hcs hsum k hk := by
    by_cases h : v = 0
    · simp [bigScene, h, coefficients] at hcs
      cases hcs
      simp at hsum
    · have : cs = [1 / 2] := by
        simp [bigScene, h, coefficients, Comp.coefficient, PV.Dist.call] at hcs
        cases hcs
        rw [one_div]
      subst this
      have hk : k = 0 ∨ k = 1 := by simp at hk; omega
      rcases hk with rfl | rfl <;> norm_num [halves]
  surface h hn h0 := by
    have hag := hit_agrees big_supported.toAccepted (R := halves) (by rw [hd]; norm_num [Vec3.dot])
      (big_ray h1 h2 hp hd) .kT
    rw [hag, hp, hd, hh] at hn
    simp only [Option.map_some, NextHit.toInfo, Except.ok.injEq, Option.some.injEq] at hn
    subst hn
    rw [(big_w2l _ _).1]
    constructor
    · simpa [bigScene, Geometry.Smooth] using ht
    · simp [bigScene]

/-- The ray as the lamp emits it, and after entering the ball. -/
def bigLamp : Ray ℝ := ⟨⟨-10, 0, 0⟩, ⟨1, 0, 0⟩, 555, 0, 0, some "lamp"⟩
def bigInner : Ray ℝ := ⟨⟨-2, 0, 0⟩, ⟨1, 0, 0⟩, 555, 8, 8 / lightSpeed, some "lamp"⟩

theorem big_lamp_state : RegularState bigScene noBoxes halves bigLamp () :=
  big_state (by norm_num) (by norm_num) rfl rfl big_first (by norm_num)

theorem big_inner_state : RegularState bigScene noBoxes halves bigInner () :=
  big_state (by norm_num) (by norm_num) rfl rfl big_second (by norm_num)

theorem big_lamp_hit : nextHit epsZero (distanceBetween bigLamp.position)
    (bigScene.intersections noBoxes bigLamp.position bigLamp.direction) =
    .ok (some ⟨1, 0, some 1, ⟨-10, 0, 0⟩ + (8 : ℝ) • ⟨1, 0, 0⟩, 8⟩) := by
  have h := hit_agrees big_supported.toAccepted (R := halves) (ray := bigLamp) (by norm_num [bigLamp, Vec3.dot])
    big_lamp_state.toRegularRay .kT
  rw [h]
  show Except.ok (Option.map _ ((kOps bigScene halves .kT).nextHit ⟨-10, 0, 0⟩ ⟨1, 0, 0⟩)) = _
  rw [big_first]
  rfl

theorem big_inner_hit : nextHit epsZero (distanceBetween bigInner.position)
    (bigScene.intersections noBoxes bigInner.position bigInner.direction) =
    .ok (some ⟨1, 1, some 0, ⟨-2, 0, 0⟩ + (4 : ℝ) • ⟨1, 0, 0⟩, 4⟩) := by
  have h := hit_agrees big_supported.toAccepted (R := halves) (ray := bigInner)
    (by norm_num [bigInner, Vec3.dot]) big_inner_state.toRegularRay .kT
  rw [h]
  show Except.ok (Option.map _ ((kOps bigScene halves .kT).nextHit ⟨-2, 0, 0⟩ ⟨1, 0, 0⟩)) = _
  rw [big_second]
  rfl

theorem big_lamp_pass : body (pyOps bigScene noBoxes halves .kT) 10 none (0 + 1) bigLamp () =
    ([⟨bigInner, .transmit, ⟨some "ball", some "world", some "ball", none, some ⟨-1, 0, 0⟩⟩⟩],
      .cont bigInner ()) := by
  have hprop : bigLamp.propagate 8 1 = bigInner := by
    norm_num [Ray.propagate, bigLamp, bigInner, Vec3.ext_iff]
  unfold body
  have hi : (pyOps bigScene noBoxes halves .kT).intersections bigLamp.position bigLamp.direction =
    .ok (bigScene.intersections noBoxes bigLamp.position bigLamp.direction) := rfl
  rw [hi]
  dsimp only
  have hn := big_lamp_hit
  change nextHit (pyOps bigScene noBoxes halves .kT).eps
    ((pyOps bigScene noBoxes halves .kT).distBetween bigLamp.position) _ = _ at hn
  rw [hn]
  dsimp only
  rw [if_neg (by simp [beyond]), if_neg (by decide)]
  have hdep : (pyOps bigScene noBoxes halves .kT).penetrationDepth 0 bigLamp.wavelength () =
      .ok (none, ()) := by
    have h0 : coefficients (bigScene.node 0).comps 555 = .ok [] := rfl
    show penetrationDepth halves (bigScene.node 0).comps 555 () = _
    unfold penetrationDepth
    rw [h0]
    norm_num
  rw [hdep]
  dsimp only [isAbsorbed]
  unfold surfaceBody
  have hix : (pyOps bigScene noBoxes halves .kT).refractiveIndex 0 = 1 := rfl
  dsimp only
  rw [hix, hprop]
  have hnm : (pyOps bigScene noBoxes halves .kT).normal 1 bigInner.position = .ok ⟨-1, 0, 0⟩ := by
    simp only [pyOps, (big_w2l _ _).1, (big_w2l _ _).2.2.2]
    simp [bigScene, pyNormal, bigInner, Vec3.dot]
  rw [hnm]
  dsimp only
  have hre : (pyOps bigScene noBoxes halves .kT).isReflected 1 0 (some 1) bigInner () =
      .ok (false, ()) := by
    simp [pyOps, LScene.isReflected, LScene.reflectivity, bigScene, PV.isReflected]
  rw [hre]
  dsimp only
  have htr : (pyOps bigScene noBoxes halves .kT).transmit 1 0 (some 1) bigInner () =
      .ok (bigInner, ()) := by
    simp only [pyOps, LNode.turn, LScene.transmitted]
    simp [Ray.representation, (big_w2l _ _).1, (big_w2l _ _).2.1, (big_w2l _ _).2.2.1,
      (big_w2l _ _).2.2.2]
    simp [bigScene]
  rw [htr]
  rfl

/-- Where it is absorbed. -/
def bigLast : Ray ℝ := bigInner.propagate (2 * Real.log 2) 1

theorem big_inner_pass : body (pyOps bigScene noBoxes halves .kT) 10 none (1 + 1) bigInner () =
    ([⟨bigLast, .absorb, ⟨none, some "ball", none, some "soot", none⟩⟩,
      ⟨bigLast, .nonradiative, ⟨none, some "ball", none, some "soot", none⟩⟩], .stop) := by
  unfold body
  have hi : (pyOps bigScene noBoxes halves .kT).intersections bigInner.position bigInner.direction =
    .ok (bigScene.intersections noBoxes bigInner.position bigInner.direction) := rfl
  rw [hi]
  dsimp only
  have hn := big_inner_hit
  change nextHit (pyOps bigScene noBoxes halves .kT).eps
    ((pyOps bigScene noBoxes halves .kT).distBetween bigInner.position) _ = _ at hn
  rw [hn]
  dsimp only
  rw [if_neg (by simp [beyond]), if_neg (by decide)]
  have hcs : coefficients (bigScene.node 1).comps 555 = .ok [1 / 2] := by
    simp [bigScene, coefficients, Comp.coefficient, PV.Dist.call]
    done
  have hdep : (pyOps bigScene noBoxes halves .kT).penetrationDepth 1 bigInner.wavelength () =
      .ok (some (2 * Real.log 2), ()) := by
    show penetrationDepth halves (bigScene.node 1).comps 555 () = _
    unfold penetrationDepth
    rw [hcs]
    norm_num [halves]
    rw [one_div, Real.log_inv, neg_neg, div_inv_eq_mul, mul_comm]
  rw [hdep]
  have hlt : 2 * Real.log 2 < 4 := by
    have := Real.log_le_sub_one_of_pos (show (0 : ℝ) < 2 by norm_num)
    linarith
  simp only [isAbsorbed, hlt, if_true]
  unfold absorbBody
  have hpk : (pyOps bigScene noBoxes halves .kT).component 1 555 () =
      .ok (⟨"soot", .absorber, .const (1 / 2), .const 0, 0, none, none, .isotropic⟩, ()) := by
    show pickComponent halves (bigScene.node 1).comps 555 () = _
    unfold pickComponent
    rw [hcs]
    dsimp only
    rw [Material.engine_eq_python_pick (by simp) (by simp) (by norm_num [halves])
      (by norm_num [halves]) (by
        intro k hk
        have hk : k = 0 ∨ k = 1 := by simp at hk; omega
        rcases hk with rfl | rfl <;> norm_num [halves])]
    norm_num [halves, kPick, kPickFrom, bigScene]
  have hix : (pyOps bigScene noBoxes halves .kT).refractiveIndex 1 = 1 := rfl
  have hwl : (bigInner.propagate (2 * Real.log 2) 1).wavelength = 555 := rfl
  dsimp only
  rw [hix, hwl, hpk]
  rfl

theorem big_visited {count : ℕ} {ray : Ray ℝ} {s : Unit}
    (h : Visited bigScene noBoxes halves .kT 10 bigLamp () count ray s) :
    (count = 0 ∧ ray = bigLamp) ∨ (count = 1 ∧ ray = bigInner) := by
  induction h with
  | start => exact .inl ⟨rfl, rfl⟩
  | next h hb ih =>
    rcases ih with ⟨rfl, rfl⟩ | ⟨rfl, rfl⟩
    · rw [big_lamp_pass] at hb
      cases hb
      exact .inr ⟨rfl, rfl⟩
    · rw [big_inner_pass] at hb
      cases hb

theorem big_run : stepForward (pyOps bigScene noBoxes halves .kT) 10 none 11 bigLamp () =
    ([⟨bigLamp, .generate, {}⟩,
      ⟨bigInner, .transmit, ⟨some "ball", some "world", some "ball", none, some ⟨-1, 0, 0⟩⟩⟩,
      ⟨bigLast, .absorb, ⟨none, some "ball", none, some "soot", none⟩⟩,
      ⟨bigLast, .nonradiative, ⟨none, some "ball", none, some "soot", none⟩⟩], .finished) := by
  unfold stepForward loop
  rw [big_lamp_pass]
  dsimp only
  unfold loop
  rw [big_inner_pass]
  rfl

/-- All hypotheses of `run_agrees` and `engine_matches_python_partial` are met by a ray that enters
the ball and is absorbed there. -/
theorem big_regular : Supported bigScene ∧ (∀ v, Visible (bigScene.node v).geom) ∧
    TrimeshSound noBoxes ∧ (∀ s, 0 < (halves.next s).1 ∧ (halves.next s).1 < 1) ∧ Fresh bigLamp ∧
    Regular bigScene noBoxes halves .kT 10 bigLamp () ∧
    (run bigScene noBoxes halves .kT 10 none bigLamp ()).map (·.event) =
      [.generate, .transmit, .absorb, .nonradiative] := by
  refine ⟨big_supported, fun v => ?_, ?_, fun s => ?_, ⟨?_, rfl, rfl⟩, ⟨?_, ?_⟩, ?_⟩
  · by_cases h : v = 0 <;> norm_num [bigScene, h, Visible]
  · intro s o d _ t ht
    simp [noBoxes] at ht
  · norm_num [halves]
  · norm_num [bigLamp, Vec3.dot]
  · intro count ray s h
    rcases big_visited h with ⟨_, rfl⟩ | ⟨_, rfl⟩
    · exact big_lamp_state
    · exact big_inner_state
  · intro e
    rw [big_run]
    intro h
    cases h
  · unfold run
    rw [big_run]
    rfl


/-! ### The engine -/

/-- Where the ray is in the engine, at the surface of the ball. -/
def midRay : KRay ℝ Comp := ⟨⟨-1, 0, 0⟩, ⟨1, 0, 0⟩, 555, 4, 4 / lightSpeed, none⟩

theorem lamp_kpass : (kBody (kOps ballScene halves .kT) 10 (0 + 1) (launchOf lampRay ()).ray ()).2 = .cont midRay () := by
  have hadv : (launchOf lampRay ()).ray.advance 4 1 = midRay := by
    norm_num [KRay.advance, launchOf, lampRay, midRay, Vec3.ext_iff]
  have h1 : (kOps ballScene halves .kT).nextHit (launchOf lampRay ()).ray.position (launchOf lampRay ()).ray.direction =
      some (1, 0, some 1, 4) := ball_first
  have h2 : (kOps ballScene halves .kT).depth 0 (launchOf lampRay ()).ray.wavelength () = (none, ()) := by
    simp only [kOps, LNode.kCoefs, kDepth, ballScene, if_true, List.map_nil, List.sum_nil]
    norm_num
  rw [kBody_go _ h1 (by norm_num) (by decide) h2]
  simp only [isAbsorbed, kSurface]
  have h3 : (kOps ballScene halves .kT).nidx 0 = 1 := rfl
  rw [h3, hadv]
  have h4 : ∀ m d, (kOps ballScene halves .kT).reflects 1 0 1 m d () = (false, ()) := by
    intro m d
    show ballScene.kReflects halves 1 0 1 m d () = _
    simp [LScene.kReflects, ballScene, kIsReflected, halves]
  simp only [h4, Bool.false_eq_true, if_false]
  rfl

theorem mid_kpass : (kBody (kOps ballScene halves .kT) 10 (1 + 1) midRay ()).2 = .stop := by
  have h1 : (kOps ballScene halves .kT).nextHit midRay.position midRay.direction = some (1, 1, some 0, 2) := ball_second
  have hc : (ballScene.node 1).kCoefs 555 = [1] := by
    simp [LNode.kCoefs, ballScene, Comp.kCoef, compileDist, kCoefficient, kInterp, reads]
  have h2 : (kOps ballScene halves .kT).depth 1 midRay.wavelength () = (some (Real.log 2), ()) := by
    show kDepth halves ((ballScene.node 1).kCoefs 555).sum () = _
    rw [hc]
    norm_num [kDepth, halves]
    rw [one_div, Real.log_inv, neg_neg]
  have hlt : Real.log 2 < 2 := by
    have := Real.log_le_sub_one_of_pos (show (0 : ℝ) < 2 by norm_num)
    linarith
  rw [kBody_go _ h1 (by norm_num) (by decide) h2]
  simp only [isAbsorbed, hlt, if_true, kAbsorb]
  have h3 : ((kOps ballScene halves .kT).pick 1 (midRay.advance (Real.log 2) ((kOps ballScene halves .kT).nidx 1)).wavelength ()).1 =
      ⟨"soot", .absorber, .const 1, .const 0, 0, none, none, .isotropic⟩ := by
    show ((ballScene.node 1).comps[kPick ((ballScene.node 1).kCoefs 555) (1 / 2)]?).getD noComp = _
    rw [hc]
    norm_num [kPick, kPickFrom, ballScene]
  have h4 : (kOps ballScene halves .kT).kind ⟨"soot", .absorber, .const 1, .const 0, 0, none, none, .isotropic⟩ = .absorber := rfl
  simp only [h3, h4]
  simp

theorem ball_kreached {count : ℕ} {r : KRay ℝ Comp} {s : Unit}
    (h : KReached (kOps ballScene halves .kT) 10 (launchOf lampRay ()).ray () count r s) :
    (count = 0 ∧ r = (launchOf lampRay ()).ray) ∨ (count = 1 ∧ r = midRay) := by
  induction h with
  | start => exact .inl ⟨rfl, rfl⟩
  | next h hb ih =>
    rcases ih with ⟨rfl, rfl⟩ | ⟨rfl, rfl⟩
    · rw [lamp_kpass] at hb
      cases hb
      exact .inr ⟨rfl, rfl⟩
    · rw [mid_kpass] at hb
      cases hb

/-- On the axis of the ball, at `x = -5` or `x = -1`. -/
theorem ball_steady {x : ℝ} (hx : x = -5 ∨ x = -1) {r : KRay ℝ Comp} (hp : r.position = ⟨x, 0, 0⟩)
    (hd : r.direction = ⟨1, 0, 0⟩) : Steady ballScene 2 r where
  clear v := by by_cases h : v = 0 <;> simp [ballScene, h, Geometry.ClearDir]
  ahead v t h := by
    rw [(ball_w2l v _).1, hp, hd] at h
    have key : (x + t) ^ 2 = 100 ∨ (x + t) ^ 2 = 1 := by
      by_cases h0 : v = 0
      · left
        have h : Solid.Surface (.sphere 10) ((⟨x, 0, 0⟩ : Vec3 ℝ) + t • ⟨1, 0, 0⟩) := by simpa [ballScene, h0] using h
        obtain ⟨h1, h2⟩ := h
        simp only [Solid.Closed, Solid.Inner, Vec3.add_x, Vec3.add_y, Vec3.add_z, Vec3.smul_x, Vec3.smul_y, Vec3.smul_z] at h1 h2
        nlinarith
      · right
        have h : Solid.Surface (.sphere 1) ((⟨x, 0, 0⟩ : Vec3 ℝ) + t • ⟨1, 0, 0⟩) := by simpa [ballScene, h0] using h
        obtain ⟨h1, h2⟩ := h
        simp only [Solid.Closed, Solid.Inner, Vec3.add_x, Vec3.add_y, Vec3.add_z, Vec3.smul_x, Vec3.smul_y, Vec3.smul_z] at h1 h2
        nlinarith
    have he : (epsZero : ℝ) < 1 := by norm_num [epsZero]
    have he0 : (0 : ℝ) < epsZero := by norm_num [epsZero]
    have ht : t ≤ 0 ∨ 1 ≤ t := by
      by_contra hc
      push Not at hc
      rcases hx with rfl | rfl <;> rcases key with key | key <;> nlinarith
    constructor <;> intro h <;> rcases ht with ht | ht <;> linarith
  cap v l q t h := by
    by_cases h0 : v = 0 <;> simp [ballScene, h0] at h
  absorbs v := by
    by_cases h0 : v = 0
    · norm_num [LNode.kCoefs, ballScene, h0]
    · norm_num [LNode.kCoefs, ballScene, h0, Comp.kCoef, compileDist, kCoefficient, kInterp, reads]

theorem ball_all_steady : ∀ count r s, KReached (kOps ballScene halves .kT) 10 (launchOf lampRay ()).ray () count r s →
    Steady ballScene 2 r := by
  intro count r s h
  rcases ball_kreached h with ⟨-, rfl⟩ | ⟨-, rfl⟩
  · exact ball_steady (.inl rfl) rfl rfl
  · exact ball_steady (.inr rfl) rfl rfl

/-- The engine in both units. -/
example : Budget.fullHistory (kOps (ballScene.scaled 2) halves .kT) 10 ⟨(launchOf lampRay ()).ray.scaled 2, ()⟩ =
    (Budget.fullHistory (kOps ballScene halves .kT) 10 (launchOf lampRay ())).map (Row.scaled 2) :=
  (unit_irrelevant_partial (by norm_num) ball_supported.proper halves .kT 10 _ () ball_all_steady).1

/-- The Python tracer in both units: the ray is absorbed after 4 + log 2 in the one and twice as much in the other. -/
example : run (ballScene.scaled 2) noBoxes halves .kT 10 none (lampRay.scaled 2) () =
    (run ballScene noBoxes halves .kT 10 none lampRay ()).map (Step.scaled 2) := by
  obtain ⟨h1, h2, h3, h4, h5, h6, -⟩ := ball_regular
  obtain ⟨-, g2, -, -, -, g6, -⟩ := big_regular
  have e : lampRay.scaled 2 = bigLamp := by norm_num [lampRay, bigLamp, Ray.scaled, Vec3.ext_iff]
  refine unit_irrelevant_python_partial (by norm_num) h1 h2 ?_ h3 h3 h4 h5 h6 ?_ ball_all_steady
  · rw [big_scaled]; exact g2
  · rw [big_scaled, e]; exact g6

/-- The ball of the example absorbs the ray; with 1e-8 of the unit of length nothing is absorbed. -/
example : (∀ row ∈ Budget.fullHistory (kOps (ballScene.scaled 1e8) halves .kT) 10 ⟨(launchOf lampRay ()).ray.scaled 1e8, ()⟩,
      row.kind ≠ .absorb) ∧
    ∃ row ∈ Budget.fullHistory (kOps ballScene halves .kT) 10 (launchOf lampRay ()), row.kind = .absorb := by
  constructor
  · refine unit_decides (fun v w => ?_) (by norm_num) halves .kT 10 _ ()
    by_cases h0 : v = 0
    · norm_num [LNode.kCoefs, ballScene, h0]
    · norm_num [LNode.kCoefs, ballScene, h0, Comp.kCoef, compileDist, kCoefficient, kInterp, reads]
  · obtain ⟨h1, h2, h3, h4, h5, h6, h7⟩ := ball_regular
    have h := congrArg (List.map fun e : Step ℝ => e.event) (run_agrees h1 h2 h3 h4 .kT 10 lampRay h5 () h6)
    rw [h7, List.map_map] at h
    have : Event.absorb ∈ (Budget.fullHistory (kOps ballScene halves .kT) 10 (launchOf lampRay ())).map
        ((fun e : Step ℝ => e.event) ∘ Spec.eventOf (names ballScene) lampRay.source) := by
      rw [h]; decide
    obtain ⟨row, hm, he⟩ := List.mem_map.1 this
    exact ⟨row, hm, he⟩

end
end PV.Scaled
