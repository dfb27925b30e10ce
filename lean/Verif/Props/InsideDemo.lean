import Verif.Props.Inside
import Verif.Props.AgreementDemo

/-!
C96: consequences for the places of events and for the engine, a history that meets the hypotheses, and a
ray that touches a ball and is absorbed in it without being in it.
-/

namespace PV.Inside
open PV PV.Library PV.Solid PV.NextHit PV.Tracer PV.Geometry PV.Nested
noncomputable section
open Classical
variable {σ : Type} {n : ℕ}

/-- **C96**, place of events. The place of an event (an absorption, say) at least `EPS_ZERO` after the
previous event belongs to the object named as container. -/
theorem event_in_container_partial {S : LScene n} (hS : Sound S) (hv : ∀ v, Visible (S.node v).geom)
    (hA : Arranged S) {B : Trimesh} (hB : TrimeshSound B) {R : Rand σ} (hR : R.Unit) {method : EmitMethod}
    {maxsteps : ℕ} {maxpath : Option ℝ} {ray : Ray ℝ} {s : σ} (hd : ray.direction.dot ray.direction = 1)
    (hgen : ∀ count ray' s', Reached S B R method maxsteps maxpath ray s count ray' s' → General S B ray')
    {j : ℕ} {a b : Step ℝ} (ha : (run S B R method maxsteps maxpath ray s)[j]? = some a)
    (hb : (run S B R method maxsteps maxpath ray s)[j + 1]? = some b) {L : ℝ}
    (hL : b.ray.position = a.ray.position + L • a.ray.direction) (hL' : epsZero ≤ L) :
    ∃ c, b.info.container = some (S.node c).name ∧ Has (S.node c) b.ray.position := by
  obtain ⟨c, h1, h2⟩ := travels_in_container_partial hS hv hA hB hR hd hgen ha hb
  exact ⟨c, h1, hL ▸ (h2 L hL L hL' le_rfl).1⟩

theorem reached_visited {S : LScene n} {B : Trimesh} {R : Rand σ} {method : EmitMethod} {maxsteps : ℕ}
    {ray : Ray ℝ} {s : σ} {count : ℕ} {ray' : Ray ℝ} {s' : σ}
    (h : Reached S B R method maxsteps none ray s count ray' s') :
    Visited S B R method maxsteps ray s count ray' s' := by
  induction h with
  | start => exact .start
  | next _ hb ih => exact ih.next hb

/-- **C96**, engine. The history the engine records of a ray has the same property. -/
theorem engine_travels_in_container_partial {S : LScene n} (hS : Supported S)
    (hv : ∀ v, Visible (S.node v).geom) (hA : Arranged S) {B : Trimesh} (hB : TrimeshSound B) {R : Rand σ}
    (hR : ∀ s, 0 < (R.next s).1 ∧ (R.next s).1 < 1) {method : EmitMethod} {maxsteps : ℕ} {ray : Ray ℝ}
    {s : σ} (hf : Fresh ray) (hr : Regular S B R method maxsteps ray s)
    (hgen : ∀ count ray' s', Visited S B R method maxsteps ray s count ray' s' → General S B ray')
    {j : ℕ} {a b : Step ℝ}
    (ha : ((Budget.fullHistory (kOps S R method) maxsteps (launchOf ray s)).map
        (Spec.eventOf (names S) ray.source))[j]? = some a)
    (hb : ((Budget.fullHistory (kOps S R method) maxsteps (launchOf ray s)).map
        (Spec.eventOf (names S) ray.source))[j + 1]? = some b) :
    ∃ c, b.info.container = some (S.node c).name ∧
      ∀ L : ℝ, b.ray.position = a.ray.position + L • a.ray.direction → ∀ t : ℝ, epsZero ≤ t → t ≤ L →
        Has (S.node c) (a.ray.position + t • a.ray.direction) ∧
          (t < L → Medium S c (a.ray.position + t • a.ray.direction)) := by
  rw [run_agrees hS hv hB hR method maxsteps ray hf s hr] at ha hb
  exact travels_in_container_partial hS.toSound hv hA hB (fun s => ⟨(hR s).1.le, (hR s).2⟩) hf.unit
    (fun _ _ _ h => hgen _ _ _ (reached_visited h)) ha hb

/-! ### A history in general position -/

theorem ball_has (v : Fin 2) (p : Vec3 ℝ) : (Has (ballScene.node v) p ↔
    p.x ^ 2 + p.y ^ 2 + p.z ^ 2 ≤ if v = 0 then 100 else 1) ∧ (HasInner (ballScene.node v) p ↔
    p.x ^ 2 + p.y ^ 2 + p.z ^ 2 < if v = 0 then 100 else 1) := by
  unfold Has HasInner
  rw [(ball_w2l v p).1]
  by_cases h : v = 0
  · simp only [h, ballScene, if_true, Closed, Solid.Inner]; norm_num
  · simp only [h, ballScene, if_false, Closed, Solid.Inner]; norm_num

theorem ball_arranged : Arranged ballScene where
  proper := ball_supported.proper
  apart u v huv := by
    by_cases hu : u = 0
    · have hv : v ≠ 0 := fun h => huv (hu.trans h.symm)
      right; left
      intro p hp
      rw [(ball_has v p).1, if_neg hv] at hp
      rw [(ball_has u p).2, if_pos hu]
      linarith
    · by_cases hv : v = 0
      · left
        intro p hp
        rw [(ball_has u p).1, if_neg hu] at hp
        rw [(ball_has v p).2, if_pos hv]
        linarith
      · omega
  world v hv := by
    intro p hp
    rw [(ball_has v p).1, if_neg hv] at hp
    rw [(ball_has 0 p).2, if_pos rfl]
    linarith

theorem ball_general {x : ℝ} (h1 : -6 < x) (h2 : x < 6) {ray : Ray ℝ} (hp : ray.position = ⟨x, 0, 0⟩)
    (hd : ray.direction = ⟨1, 0, 0⟩) : General ballScene noBoxes ray where
  clear := (ball_ray h1 h2 hp hd).clear
  line := (ball_ray h1 h2 hp hd).line
  through v := by
    left
    refine ⟨-x, ?_⟩
    rw [(ball_has v _).2, hp, hd]
    split_ifs <;> norm_num
  room := by
    rw [(ball_has 0 _).2, hp, hd]
    norm_num [epsZero]
    nlinarith

/-- All hypotheses are met by the ray that enters the ball and is absorbed in it. -/
example : Sound ballScene ∧ (∀ v, Visible (ballScene.node v).geom) ∧ Arranged ballScene ∧
    TrimeshSound noBoxes ∧ halves.Unit ∧ lampRay.direction.dot lampRay.direction = 1 ∧
    (∀ count ray' s', Reached ballScene noBoxes halves .kT 10 none lampRay () count ray' s' →
      General ballScene noBoxes ray') ∧ Regular ballScene noBoxes halves .kT 10 lampRay () ∧
    (run ballScene noBoxes halves .kT 10 none lampRay ()).map (·.event) =
      [.generate, .transmit, .absorb, .nonradiative] := by
  obtain ⟨a, b, c, d, e, f, g⟩ := ball_regular
  refine ⟨a.toSound, b, ball_arranged, c, fun s => ⟨(d s).1.le, (d s).2⟩, e.unit, ?_, f, g⟩
  intro count ray' s' h
  rcases ball_visited (reached_visited h) with ⟨_, rfl⟩ | ⟨_, rfl⟩
  · exact ball_general (x := -5) (by norm_num) (by norm_num) rfl rfl
  · exact ball_general (x := -1) (by norm_num) (by norm_num) rfl rfl

/-! ### A ray that touches the ball -/

/-- A ray whose line touches the ball in one point. -/
def grazingRay : Ray ℝ := ⟨⟨-5, 1, 0⟩, ⟨1, 0, 0⟩, 555, 0, 0, some "lamp"⟩

theorem grazing_ball : (ballScene.node 1).pyTs noBoxes ⟨-5, 1, 0⟩ ⟨1, 0, 0⟩ = [5] := by
  have h : (ballScene.node 1).geom = .sphere 1 := rfl
  unfold LNode.pyTs
  rw [ball_origin, ball_dir, h]
  show pySphere 1 ⟨-5, 1, 0⟩ ⟨1, 0, 0⟩ = _
  norm_num [pySphere, Vec3.dot, sortedBy]

theorem grazing_world : (ballScene.node 0).pyTs noBoxes ⟨-5, 1, 0⟩ ⟨1, 0, 0⟩ = [5 + Real.sqrt 99] := by
  have h : (ballScene.node 0).geom = .sphere 10 := rfl
  unfold LNode.pyTs
  rw [ball_origin, ball_dir, h]
  show pySphere 10 ⟨-5, 1, 0⟩ ⟨1, 0, 0⟩ = _
  have hs : Real.sqrt 396 = 2 * Real.sqrt 99 := by
    rw [show (396 : ℝ) = 2 ^ 2 * 99 by norm_num, Real.sqrt_mul (by norm_num), Real.sqrt_sq (by norm_num)]
  have h9 : 9 < Real.sqrt 99 := Real.lt_sqrt_of_sq_lt (by norm_num)
  norm_num [pySphere, Vec3.dot, sortedBy, hs, List.orderedInsert]
  rw [if_pos (by linarith)]
  rw [List.filter_cons_of_neg (by simp; linarith), List.filter_cons_of_pos (by simp; linarith)]
  simp
  ring

theorem grazing_hit : nextHit epsZero (distanceBetween grazingRay.position)
    (ballScene.intersections noBoxes grazingRay.position grazingRay.direction) =
    .ok (some ⟨1, 1, some 0, ⟨-5, 1, 0⟩ + (5 : ℝ) • ⟨1, 0, 0⟩, 5⟩) := by
  have hd : (⟨1, 0, 0⟩ : Vec3 ℝ).dot ⟨1, 0, 0⟩ = 1 := by norm_num [Vec3.dot]
  show nextHit epsZero (distanceBetween ⟨-5, 1, 0⟩) (ballScene.intersections noBoxes ⟨-5, 1, 0⟩ ⟨1, 0, 0⟩) = _
  rw [intersections_eq ball_supported.rigid ball_supported.inverse noBoxes hd]
  have h9 : 9 < Real.sqrt 99 := Real.lt_sqrt_of_sq_lt (by norm_num)
  have hk : kHits (List.finRange 2) (fun v => (ballScene.node v).pyTs noBoxes ⟨-5, 1, 0⟩ ⟨1, 0, 0⟩) =
      [⟨0, 5 + Real.sqrt 99⟩, ⟨1, 5⟩] := by
    have hf : List.finRange 2 = [0, 1] := rfl
    rw [hf]
    simp only [kHits, List.flatMap_cons, List.flatMap_nil, grazing_ball, grazing_world]
    rfl
  have he : (epsZero : ℝ) < 1 := by norm_num [epsZero]
  unfold sceneInters
  rw [hk]
  simp only [List.map_cons, List.map_nil]
  rw [List.filter_cons_of_pos (by simp; linarith), List.filter_cons_of_pos (by simp; linarith),
    List.filter_nil]
  have hs : sortedBy (fun x : Inter (Fin 2) ℝ => x.dist)
      [⟨0, ⟨-5, 1, 0⟩ + (5 + Real.sqrt 99) • ⟨1, 0, 0⟩, 5 + Real.sqrt 99⟩, ⟨1, ⟨-5, 1, 0⟩ + (5 : ℝ) • ⟨1, 0, 0⟩, 5⟩] =
      [⟨1, ⟨-5, 1, 0⟩ + (5 : ℝ) • ⟨1, 0, 0⟩, 5⟩,
        ⟨0, ⟨-5, 1, 0⟩ + (5 + Real.sqrt 99) • ⟨1, 0, 0⟩, 5 + Real.sqrt 99⟩] := by
    unfold sortedBy
    simp only [List.insertionSort_cons, List.insertionSort_nil, List.orderedInsert]
    rw [if_neg (by linarith)]
  have e := hs
  unfold nextHit
  rw [e]
  rw [List.filter_cons_of_pos (by simp; linarith), List.filter_cons_of_pos (by
    simp only [decide_eq_true_eq, not_lt]; rw [abs_of_pos (by linarith)]; linarith), List.filter_nil]
  have hc : findContainer [(⟨1, ⟨-5, 1, 0⟩ + (5 : ℝ) • ⟨1, 0, 0⟩, 5⟩ : Inter (Fin 2) ℝ),
        ⟨0, ⟨-5, 1, 0⟩ + (5 + Real.sqrt 99) • ⟨1, 0, 0⟩, 5 + Real.sqrt 99⟩] = .ok 1 := by
    unfold findContainer
    simp [sortedBy]
  dsimp only
  rw [hc]
  dsimp only
  rw [distanceBetween_line hd (by norm_num)]
  rfl

/-- Where the touching ray is absorbed. -/
def grazedRay : Ray ℝ := grazingRay.propagate (Real.log 2) 1

theorem grazing_pass : body (pyOps ballScene noBoxes halves .kT) 10 none (0 + 1) grazingRay () =
    ([⟨grazedRay, .absorb, ⟨none, some "ball", none, some "soot", none⟩⟩,
      ⟨grazedRay, .nonradiative, ⟨none, some "ball", none, some "soot", none⟩⟩], .stop) := by
  unfold body
  have hi : (pyOps ballScene noBoxes halves .kT).intersections grazingRay.position grazingRay.direction =
    .ok (ballScene.intersections noBoxes grazingRay.position grazingRay.direction) := rfl
  rw [hi]
  dsimp only
  have hn := grazing_hit
  change nextHit (pyOps ballScene noBoxes halves .kT).eps
    ((pyOps ballScene noBoxes halves .kT).distBetween grazingRay.position) _ = _ at hn
  rw [hn]
  dsimp only
  rw [if_neg (by simp [beyond]), if_neg (by decide)]
  have hcs : coefficients (ballScene.node 1).comps 555 = .ok [1] := by
    simp [ballScene, coefficients, Comp.coefficient, PV.Dist.call]
    done
  have hdep : (pyOps ballScene noBoxes halves .kT).penetrationDepth 1 grazingRay.wavelength () =
      .ok (some (Real.log 2), ()) := by
    show penetrationDepth halves (ballScene.node 1).comps 555 () = _
    unfold penetrationDepth
    rw [hcs]
    norm_num [halves]
    rw [one_div, Real.log_inv, neg_neg]
  rw [hdep]
  have hlt : Real.log 2 < 5 := by
    have := Real.log_le_sub_one_of_pos (show (0 : ℝ) < 2 by norm_num)
    linarith
  simp only [isAbsorbed, hlt, if_true]
  unfold absorbBody
  have hpk : (pyOps ballScene noBoxes halves .kT).component 1 555 () =
      .ok (⟨"soot", .absorber, .const 1, .const 0, 0, none, none, .isotropic⟩, ()) := by
    show pickComponent halves (ballScene.node 1).comps 555 () = _
    unfold pickComponent
    rw [hcs]
    dsimp only
    rw [Material.engine_eq_python_pick (by simp) (by simp) (by norm_num [halves])
      (by norm_num [halves]) (by
        intro k hk
        have hk : k = 0 ∨ k = 1 := by simp at hk; omega
        rcases hk with rfl | rfl <;> norm_num [halves])]
    norm_num [halves, kPick, kPickFrom, ballScene]
  have hix : (pyOps ballScene noBoxes halves .kT).refractiveIndex 1 = 1 := rfl
  have hwl : (grazingRay.propagate (Real.log 2) 1).wavelength = 555 := rfl
  dsimp only
  rw [hix, hwl, hpk]
  rfl

/-- **C96** fails for rays that touch a sphere. The touching point is reported once, so the ball is
taken for the object around the ray, and the ray is absorbed by the material of the ball more than 3
away from it, in the empty world. -/
theorem grazing_absorbed_outside : Sound ballScene ∧ Arranged ballScene ∧
    ∃ b : Step ℝ, (run ballScene noBoxes halves .kT 10 none grazingRay ())[1]? = some b ∧
      b.event = .absorb ∧ b.info.container = some (ballScene.node 1).name ∧
      ¬ Has (ballScene.node 1) b.ray.position ∧ 4 < b.ray.position.norm := by
  refine ⟨ball_supported.toSound, ball_arranged, ⟨grazedRay, .absorb, ⟨none, some "ball", none, some "soot", none⟩⟩,
    ?_, rfl, rfl, ?_⟩
  · unfold Library.run stepForward loop
    rw [grazing_pass]
    rfl
  · have hlog : Real.log 2 ≤ 1 := by
      have := Real.log_le_sub_one_of_pos (show (0 : ℝ) < 2 by norm_num)
      linarith
    have hp : grazedRay.position = ⟨-5 + Real.log 2, 1, 0⟩ := by
      simp [grazedRay, grazingRay, Ray.propagate, Vec3.ext_iff]
    have h0 : 0 ≤ Real.log 2 := Real.log_nonneg (by norm_num)
    constructor
    · show ¬ Has (ballScene.node 1) grazedRay.position
      rw [(ball_has 1 _).1, hp, if_neg (by decide)]
      simp only [not_le]
      nlinarith
    · show 4 < grazedRay.position.norm
      rw [hp]
      unfold Vec3.norm
      apply Real.lt_sqrt_of_sq_lt
      simp only [Vec3.dot]
      nlinarith

end
end PV.Inside
