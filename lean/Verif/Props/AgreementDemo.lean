import Verif.Props.Agreement

/-!
The hypotheses of **C09** are met: a ray that enters a black ball and is absorbed in it.
-/

namespace PV.Library
noncomputable section
open Spec

/-- A black ball of radius 1 in a world of radius 10. -/
def ballScene : LScene 1 where
  node v := if v = 0 then ⟨"world", .sphere 10, .one, .one, 1, .fresnel, []⟩
    else ⟨"ball", .sphere 1, .one, .one, 1, .null,
      [⟨"soot", .absorber, .const 1, .const 0, 0, none, none, .isotropic⟩]⟩

/-- A generator that always yields 1/2. -/
def halves : Rand Unit := ⟨fun s => (1 / 2, s)⟩

/-- No boxes. -/
def noBoxes : Trimesh := fun _ _ _ => []

theorem ball_w2l (v : Fin 2) (p : Vec3 ℝ) : (ballScene.node v).w2l.point p = p ∧
    (ballScene.node v).w2l.vec p = p ∧ (ballScene.node v).l2w.point p = p ∧
    (ballScene.node v).l2w.vec p = p := by
  by_cases h : v = 0 <;>
    simp [ballScene, h, Affine.one, Affine.point, Affine.vec, Vec3.dot] <;>
    (cases p; simp [Vec3.ext_iff])

theorem ball_supported : Supported ballScene where
  index_pos v := by by_cases h : v = 0 <;> norm_num [ballScene, h]
  rigid v := by by_cases h : v = 0 <;> simp [ballScene, h, one_rigid]
  inverse v := by by_cases h : v = 0 <;> simp [ballScene, h, one_inverse]
  comps v c hc := by
    by_cases h : v = 0
    · simp [ballScene, h] at hc
    · simp only [ballScene, h, if_false, List.mem_singleton] at hc
      subst hc
      exact ⟨.inl ⟨1, by norm_num, rfl⟩, by simp, by simp⟩
  proper v := by by_cases h : v = 0 <;> norm_num [ballScene, h, Solid.Proper]
  ratio v w := by by_cases h : v = 0 <;> by_cases h' : w = 0 <;> norm_num [ballScene, h, h']
  absorbs v c hc := by
    by_cases h : v = 0
    · simp [ballScene, h] at hc
    · simp only [ballScene, h, if_false, List.mem_singleton] at hc
      subst hc
      exact .inl ⟨1, rfl⟩
  emits v c hc hk := by
    by_cases h : v = 0
    · simp [ballScene, h] at hc
    · simp only [ballScene, h, if_false, List.mem_singleton] at hc
      subst hc
      cases hk
  phase v c hc hk := by
    by_cases h : v = 0
    · simp [ballScene, h] at hc
    · simp only [ballScene, h, if_false, List.mem_singleton] at hc
      subst hc
      rcases hk with hk | hk <;> cases hk
  upright v _ u := (ball_w2l v u).2.2.2

theorem sphere_hits {r x q : ℝ} (hq : 0 < q) (hr : q = r) :
    kSphere r ⟨x, 0, 0⟩ ⟨1, 0, 0⟩ = [-x - q, -x + q].filter (fun t => t > epsZero) := by
  subst hr
  have e : 2 * (⟨1, 0, 0⟩ : Vec3 ℝ).dot ⟨x, 0, 0⟩ * (2 * (⟨1, 0, 0⟩ : Vec3 ℝ).dot ⟨x, 0, 0⟩) -
      4 * (⟨1, 0, 0⟩ : Vec3 ℝ).dot ⟨1, 0, 0⟩ *
      ((⟨x, 0, 0⟩ : Vec3 ℝ).dot ⟨x, 0, 0⟩ - q * q) = (2 * q) ^ 2 := by
    simp [Vec3.dot]; ring
  have ha : (⟨1, 0, 0⟩ : Vec3 ℝ).dot ⟨1, 0, 0⟩ = 1 := by simp [Vec3.dot]
  have hb : (⟨1, 0, 0⟩ : Vec3 ℝ).dot ⟨x, 0, 0⟩ = x := by simp [Vec3.dot]
  unfold kSphere
  dsimp only
  rw [e, if_neg (not_lt.2 (by positivity)), Real.sqrt_sq (by linarith), ha, hb]
  congr 2 <;> [ring; (congr 1; ring)]

theorem ball_hits (x : ℝ) (v : Fin 2) :
    kIntersect (ballScene.node v).geom ((ballScene.node v).w2l.point ⟨x, 0, 0⟩)
      ((ballScene.node v).w2l.vec ⟨1, 0, 0⟩) =
    if v = 0 then [-x - 10, -x + 10].filter (fun t => t > epsZero)
    else [-x - 1, -x + 1].filter (fun t => t > epsZero) := by
  rw [(ball_w2l v _).1, (ball_w2l v _).2.1]
  by_cases h : v = 0
  · simp only [h, ballScene, if_true, kIntersect]
    exact sphere_hits (by norm_num) rfl
  · simp only [h, ballScene, if_false, kIntersect]
    exact sphere_hits (by norm_num) rfl

theorem ball_first : (kOps ballScene halves .kT).nextHit ⟨-5, 0, 0⟩ ⟨1, 0, 0⟩ =
    some (1, 0, some 1, 4) := by
  have h : (fun v => kIntersect (ballScene.node v).geom ((ballScene.node v).w2l.point ⟨-5, 0, 0⟩)
      ((ballScene.node v).w2l.vec ⟨1, 0, 0⟩)) = fun v : Fin 2 => if v = 0 then [15] else [4, 6] := by
    funext v
    rw [ball_hits]
    by_cases h : v = 0 <;> norm_num [h, epsZero, List.filter_cons]
  show kNextHit (List.finRange 2) _ = _
  rw [h]
  have hf : List.finRange 2 = [0, 1] := rfl
  rw [hf]
  norm_num [kNextHit, kHits, kFirst, kContainer, kMinT, List.zipIdx]

theorem ball_second : (kOps ballScene halves .kT).nextHit ⟨-1, 0, 0⟩ ⟨1, 0, 0⟩ =
    some (1, 1, some 0, 2) := by
  have h : (fun v => kIntersect (ballScene.node v).geom ((ballScene.node v).w2l.point ⟨-1, 0, 0⟩)
      ((ballScene.node v).w2l.vec ⟨1, 0, 0⟩)) = fun v : Fin 2 => if v = 0 then [11] else [2] := by
    funext v
    rw [ball_hits]
    by_cases h : v = 0 <;> norm_num [h, epsZero, List.filter_cons]
  show kNextHit (List.finRange 2) _ = _
  rw [h]
  have hf : List.finRange 2 = [0, 1] := rfl
  rw [hf]
  norm_num [kNextHit, kHits, kFirst, kSecond, kContainer, kMinT, List.zipIdx]

theorem ball_origin (v : Fin 2) (p : Vec3 ℝ) : (ballScene.node v).localOrigin p = p :=
  (ball_w2l v p).1

theorem ball_dir (v : Fin 2) (p : Vec3 ℝ) : (ballScene.node v).localDir p = p :=
  (ball_w2l v p).2.1

theorem ball_ray {x : ℝ} (h1 : -6 < x) (h2 : x < 6) {ray : Ray ℝ} (hp : ray.position = ⟨x, 0, 0⟩)
    (hd : ray.direction = ⟨1, 0, 0⟩) : RegularRay ballScene noBoxes ray where
  clear v := by by_cases h : v = 0 <;> simp [ballScene, h, Geometry.ClearDir]
  line v := by
    rw [ball_origin, ball_dir, hp, hd]
    by_cases h : v = 0
    · simp only [ballScene, h, if_true, RegularLine]
      right
      norm_num [Geometry.disc, Vec3.dot]
      nlinarith
    · simp only [ballScene, h, if_false, RegularLine]
      right
      norm_num [Geometry.disc, Vec3.dot]
      nlinarith
  inside := by
    rw [ball_origin, hp]
    norm_num [ballScene, Solid.Inner]
    nlinarith
  off t t0 t1 := by
    rw [ball_origin, ball_dir, hp, hd]
    rintro ⟨_, h⟩
    apply h
    have : t ≤ 1 := le_trans t1 (by norm_num [epsZero])
    norm_num [ballScene, Solid.Inner]
    nlinarith

theorem ball_state {x t : ℝ} (h1 : -6 < x) (h2 : x < 6) {ray : Ray ℝ}
    (hp : ray.position = ⟨x, 0, 0⟩) (hd : ray.direction = ⟨1, 0, 0⟩) {c : Fin 2} {a : Option (Fin 2)}
    (hh : (kOps ballScene halves .kT).nextHit ⟨x, 0, 0⟩ ⟨1, 0, 0⟩ = some (1, c, a, t))
    (ht : (x + t) ^ 2 = 1) : RegularState ballScene noBoxes halves ray () where
  toRegularRay := ball_ray h1 h2 hp hd
  pick v cs hcs hsum k hk := by
    by_cases h : v = 0
    · simp [ballScene, h, coefficients] at hcs
      cases hcs
      simp at hsum
    · have : cs = [1] := by
        simp [ballScene, h, coefficients, Comp.coefficient, PV.Dist.call] at hcs
        cases hcs
        rfl
      subst this
      have hk : k = 0 ∨ k = 1 := by simp at hk; omega
      rcases hk with rfl | rfl <;> norm_num [halves]
  surface h hn h0 := by
    have hag := hit_agrees ball_supported.toAccepted (R := halves) (by rw [hd]; norm_num [Vec3.dot])
      (ball_ray h1 h2 hp hd) .kT
    rw [hag, hp, hd, hh] at hn
    simp only [Option.map_some, NextHit.toInfo, Except.ok.injEq, Option.some.injEq] at hn
    subst hn
    rw [(ball_w2l _ _).1]
    constructor
    · simpa [ballScene, Geometry.Smooth] using ht
    · simp [ballScene]

/-- The ray as the lamp emits it, and after entering the ball. -/
def lampRay : Ray ℝ := ⟨⟨-5, 0, 0⟩, ⟨1, 0, 0⟩, 555, 0, 0, some "lamp"⟩
def innerRay : Ray ℝ := ⟨⟨-1, 0, 0⟩, ⟨1, 0, 0⟩, 555, 4, 4 / lightSpeed, some "lamp"⟩

theorem lamp_state : RegularState ballScene noBoxes halves lampRay () :=
  ball_state (by norm_num) (by norm_num) rfl rfl ball_first (by norm_num)

theorem inner_state : RegularState ballScene noBoxes halves innerRay () :=
  ball_state (by norm_num) (by norm_num) rfl rfl ball_second (by norm_num)

theorem lamp_hit : nextHit epsZero (distanceBetween lampRay.position)
    (ballScene.intersections noBoxes lampRay.position lampRay.direction) =
    .ok (some ⟨1, 0, some 1, ⟨-5, 0, 0⟩ + (4 : ℝ) • ⟨1, 0, 0⟩, 4⟩) := by
  have h := hit_agrees ball_supported.toAccepted (R := halves) (ray := lampRay) (by norm_num [lampRay, Vec3.dot])
    lamp_state.toRegularRay .kT
  rw [h]
  show Except.ok (Option.map _ ((kOps ballScene halves .kT).nextHit ⟨-5, 0, 0⟩ ⟨1, 0, 0⟩)) = _
  rw [ball_first]
  rfl

theorem inner_hit : nextHit epsZero (distanceBetween innerRay.position)
    (ballScene.intersections noBoxes innerRay.position innerRay.direction) =
    .ok (some ⟨1, 1, some 0, ⟨-1, 0, 0⟩ + (2 : ℝ) • ⟨1, 0, 0⟩, 2⟩) := by
  have h := hit_agrees ball_supported.toAccepted (R := halves) (ray := innerRay)
    (by norm_num [innerRay, Vec3.dot]) inner_state.toRegularRay .kT
  rw [h]
  show Except.ok (Option.map _ ((kOps ballScene halves .kT).nextHit ⟨-1, 0, 0⟩ ⟨1, 0, 0⟩)) = _
  rw [ball_second]
  rfl

theorem lamp_pass : body (pyOps ballScene noBoxes halves .kT) 10 none (0 + 1) lampRay () =
    ([⟨innerRay, .transmit, ⟨some "ball", some "world", some "ball", none, some ⟨-1, 0, 0⟩⟩⟩],
      .cont innerRay ()) := by
  have hprop : lampRay.propagate 4 1 = innerRay := by
    norm_num [Ray.propagate, lampRay, innerRay, Vec3.ext_iff]
  unfold body
  have hi : (pyOps ballScene noBoxes halves .kT).intersections lampRay.position lampRay.direction =
    .ok (ballScene.intersections noBoxes lampRay.position lampRay.direction) := rfl
  rw [hi]
  dsimp only
  have hn := lamp_hit
  change nextHit (pyOps ballScene noBoxes halves .kT).eps
    ((pyOps ballScene noBoxes halves .kT).distBetween lampRay.position) _ = _ at hn
  rw [hn]
  dsimp only
  rw [if_neg (by simp [beyond]), if_neg (by decide)]
  have hdep : (pyOps ballScene noBoxes halves .kT).penetrationDepth 0 lampRay.wavelength () =
      .ok (none, ()) := by
    have h0 : coefficients (ballScene.node 0).comps 555 = .ok [] := rfl
    show penetrationDepth halves (ballScene.node 0).comps 555 () = _
    unfold penetrationDepth
    rw [h0]
    norm_num
  rw [hdep]
  dsimp only [isAbsorbed]
  unfold surfaceBody
  have hix : (pyOps ballScene noBoxes halves .kT).refractiveIndex 0 = 1 := rfl
  dsimp only
  rw [hix, hprop]
  have hnm : (pyOps ballScene noBoxes halves .kT).normal 1 innerRay.position = .ok ⟨-1, 0, 0⟩ := by
    simp only [pyOps, (ball_w2l _ _).1, (ball_w2l _ _).2.2.2]
    simp [ballScene, pyNormal, innerRay, Vec3.dot]
  rw [hnm]
  dsimp only
  have hre : (pyOps ballScene noBoxes halves .kT).isReflected 1 0 (some 1) innerRay () =
      .ok (false, ()) := by
    simp [pyOps, LScene.isReflected, LScene.reflectivity, ballScene, PV.isReflected]
  rw [hre]
  dsimp only
  have htr : (pyOps ballScene noBoxes halves .kT).transmit 1 0 (some 1) innerRay () =
      .ok (innerRay, ()) := by
    simp only [pyOps, LNode.turn, LScene.transmitted]
    simp [Ray.representation, (ball_w2l _ _).1, (ball_w2l _ _).2.1, (ball_w2l _ _).2.2.1,
      (ball_w2l _ _).2.2.2]
    simp [ballScene]
  rw [htr]
  rfl

/-- Where it is absorbed. -/
def lastRay : Ray ℝ := innerRay.propagate (Real.log 2) 1

theorem inner_pass : body (pyOps ballScene noBoxes halves .kT) 10 none (1 + 1) innerRay () =
    ([⟨lastRay, .absorb, ⟨none, some "ball", none, some "soot", none⟩⟩,
      ⟨lastRay, .nonradiative, ⟨none, some "ball", none, some "soot", none⟩⟩], .stop) := by
  unfold body
  have hi : (pyOps ballScene noBoxes halves .kT).intersections innerRay.position innerRay.direction =
    .ok (ballScene.intersections noBoxes innerRay.position innerRay.direction) := rfl
  rw [hi]
  dsimp only
  have hn := inner_hit
  change nextHit (pyOps ballScene noBoxes halves .kT).eps
    ((pyOps ballScene noBoxes halves .kT).distBetween innerRay.position) _ = _ at hn
  rw [hn]
  dsimp only
  rw [if_neg (by simp [beyond]), if_neg (by decide)]
  have hcs : coefficients (ballScene.node 1).comps 555 = .ok [1] := by
    simp [ballScene, coefficients, Comp.coefficient, PV.Dist.call]
    done
  have hdep : (pyOps ballScene noBoxes halves .kT).penetrationDepth 1 innerRay.wavelength () =
      .ok (some (Real.log 2), ()) := by
    show penetrationDepth halves (ballScene.node 1).comps 555 () = _
    unfold penetrationDepth
    rw [hcs]
    norm_num [halves]
    rw [one_div, Real.log_inv, neg_neg]
  rw [hdep]
  have hlt : Real.log 2 < 2 := by
    have := Real.log_le_sub_one_of_pos (show (0 : ℝ) < 2 by norm_num)
    linarith
  simp only [isAbsorbed, hlt, if_true]
  unfold absorbBody
  have hpk : (pyOps ballScene noBoxes halves .kT).component 1 555 () =
      .ok (⟨"soot", .absorber, .const 1, .const 0, 0, none, none, .isotropic⟩, ()) := by
    show pickComponent halves (ballScene.node 1).comps 555 () = _
    unfold pickComponent
    rw [hcs]
    dsimp only
    rw [Material.engine_eq_python_pick (by simp) (by simp) (by norm_num [halves])
      (by norm_num [halves]) (by
        intro k hk
        have hk : k = 0 ∨ k = 1 := by simp at hk; omega
        rcases hk with rfl | rfl <;> norm_num [halves])]
    norm_num [halves, kPick, kPickFrom, ballScene]
  have hix : (pyOps ballScene noBoxes halves .kT).refractiveIndex 1 = 1 := rfl
  have hwl : (innerRay.propagate (Real.log 2) 1).wavelength = 555 := rfl
  dsimp only
  rw [hix, hwl, hpk]
  rfl

theorem ball_visited {count : ℕ} {ray : Ray ℝ} {s : Unit}
    (h : Visited ballScene noBoxes halves .kT 10 lampRay () count ray s) :
    (count = 0 ∧ ray = lampRay) ∨ (count = 1 ∧ ray = innerRay) := by
  induction h with
  | start => exact .inl ⟨rfl, rfl⟩
  | next h hb ih =>
    rcases ih with ⟨rfl, rfl⟩ | ⟨rfl, rfl⟩
    · rw [lamp_pass] at hb
      cases hb
      exact .inr ⟨rfl, rfl⟩
    · rw [inner_pass] at hb
      cases hb

theorem ball_run : stepForward (pyOps ballScene noBoxes halves .kT) 10 none 11 lampRay () =
    ([⟨lampRay, .generate, {}⟩,
      ⟨innerRay, .transmit, ⟨some "ball", some "world", some "ball", none, some ⟨-1, 0, 0⟩⟩⟩,
      ⟨lastRay, .absorb, ⟨none, some "ball", none, some "soot", none⟩⟩,
      ⟨lastRay, .nonradiative, ⟨none, some "ball", none, some "soot", none⟩⟩], .finished) := by
  unfold stepForward loop
  rw [lamp_pass]
  dsimp only
  unfold loop
  rw [inner_pass]
  rfl

/-- All hypotheses of `run_agrees` and `engine_matches_python_partial` are met by a ray that enters
the ball and is absorbed there. -/
theorem ball_regular : Supported ballScene ∧ (∀ v, Visible (ballScene.node v).geom) ∧
    TrimeshSound noBoxes ∧ (∀ s, 0 < (halves.next s).1 ∧ (halves.next s).1 < 1) ∧ Fresh lampRay ∧
    Regular ballScene noBoxes halves .kT 10 lampRay () ∧
    (run ballScene noBoxes halves .kT 10 none lampRay ()).map (·.event) =
      [.generate, .transmit, .absorb, .nonradiative] := by
  refine ⟨ball_supported, fun v => ?_, ?_, fun s => ?_, ⟨?_, rfl, rfl⟩, ⟨?_, ?_⟩, ?_⟩
  · by_cases h : v = 0 <;> norm_num [ballScene, h, Visible]
  · intro s o d _ t ht
    simp [noBoxes] at ht
  · norm_num [halves]
  · norm_num [lampRay, Vec3.dot]
  · intro count ray s h
    rcases ball_visited h with ⟨_, rfl⟩ | ⟨_, rfl⟩
    · exact lamp_state
    · exact inner_state
  · intro e
    rw [ball_run]
    intro h
    cases h
  · unfold run
    rw [ball_run]
    rfl

/-- What the engine records for that ray. -/
example : (Budget.fullHistory (kOps ballScene halves .kT) 10 (launchOf lampRay ())).map
    (fun row => (row.kind, row.ray.travelled)) =
    [(.generate, 0), (.transmit, 4), (.absorb, 4 + Real.log 2), (.nonradiative, 4 + Real.log 2)] := by
  obtain ⟨h1, h2, h3, h4, h5, h6, -⟩ := ball_regular
  have h := congrArg (List.map fun e : Step ℝ => (e.event, e.ray.travelled))
    (run_agrees h1 h2 h3 h4 .kT 10 lampRay h5 () h6)
  rw [List.map_map] at h
  refine Eq.trans h ?_
  unfold run
  rw [ball_run]
  rfl

end
end PV.Library
