import Verif.Props.VariantsKernel
import Verif.Props.VariantsEngine
import Verif.Props.AgreementDemo

/-!
A scene for the theorems of `VariantsKernel`: a ball in a shell, and a further ball behind both.
-/

namespace PV.Variants
open PV PV.Library PV.NextHit PV.Compile PV.Alike
noncomputable section

def soot : Comp := ⟨"soot", .absorber, .const 1, .const 0, 0, none, none, .isotropic⟩

def onionNode : Fin 4 → LNode :=
  ![bead "world" 0 20 1 .null, bead "shell" 0 3 1 .null, { bead "ball" 0 1 1 .null with comps := [soot] },
    bead "far" 10 1 1 .null]

/-- An absorbing ball in a clear shell. -/
def onion : LScene 2 := ⟨fun v => onionNode v.castSucc⟩

/-- The same with a ball behind. -/
def onionFar : LScene 3 := ⟨onionNode⟩

/-- The ball is added before the shell. -/
def onionTurned : LScene 2 := ⟨fun v => onion.node (Equiv.swap 1 2 v)⟩

theorem onion_extended : Extended Fin.castSucc onion onionFar where
  world := rfl
  order := Fin.strictMono_castSucc
  node _ := rfl

theorem onion_reordered : Reordered (Equiv.swap 1 2) onion onionTurned where
  world := by decide
  node v := by
    show onion.node _ = _
    rw [Equiv.swap_apply_self]

theorem bead_engine {N : LNode} {c r : ℝ} (hg : N.geom = .sphere r) (hw : N.w2l = slide (-c)) (hr : 0 < r) (x : ℝ) :
    engineTs N ⟨x, 0, 0⟩ ⟨1, 0, 0⟩ = [c - x - r, c - x + r].filter (fun t => t > epsZero) := by
  unfold engineTs
  rw [hg, hw, slide_point, slide_vec]
  show kSphere r ⟨x + -c, 0, 0⟩ ⟨1, 0, 0⟩ = _
  rw [sphere_hits hr rfl]
  congr 2
  · ring
  · congr 1; ring

theorem onion_ts (x : ℝ) : (fun v => engineTs (onionNode v) ⟨x, 0, 0⟩ ⟨1, 0, 0⟩) =
    ![[0 - x - 20, 0 - x + 20].filter (fun t => t > epsZero), [0 - x - 3, 0 - x + 3].filter (fun t => t > epsZero),
      [0 - x - 1, 0 - x + 1].filter (fun t => t > epsZero), [10 - x - 1, 10 - x + 1].filter (fun t => t > epsZero)] := by
  funext v
  fin_cases v
  · exact bead_engine rfl rfl (by norm_num) x
  · exact bead_engine rfl rfl (by norm_num) x
  · exact bead_engine rfl rfl (by norm_num) x
  · exact bead_engine rfl rfl (by norm_num) x

theorem onion_ts' (x : ℝ) (v : Fin 3) : engineTs (onion.node v) ⟨x, 0, 0⟩ ⟨1, 0, 0⟩ =
    (![[0 - x - 20, 0 - x + 20].filter (fun t => t > epsZero), [0 - x - 3, 0 - x + 3].filter (fun t => t > epsZero),
      [0 - x - 1, 0 - x + 1].filter (fun t => t > epsZero)] : Fin 3 → List ℝ) v := by
  have := congrFun (onion_ts x) v.castSucc
  dsimp -failIfUnchanged only at this
  show engineTs (onionNode v.castSucc) _ _ = _
  rw [this]
  fin_cases v <;> rfl

theorem onion_at {x : ℝ} (a b c : List ℝ) (ha : [0 - x - 20, 0 - x + 20].filter (fun t => t > epsZero) = a)
    (hb : [0 - x - 3, 0 - x + 3].filter (fun t => t > epsZero) = b)
    (hc : [0 - x - 1, 0 - x + 1].filter (fun t => t > epsZero) = c) :
    (fun v => engineTs (onion.node v) ⟨x, 0, 0⟩ ⟨1, 0, 0⟩) = ![a, b, c] := by
  funext v
  rw [onion_ts', ha, hb, hc]

theorem onion_5 : (fun v => engineTs (onion.node v) ⟨-5, 0, 0⟩ ⟨1, 0, 0⟩) = ![[25], [2, 8], [4, 6]] := by
  apply onion_at <;> norm_num [epsZero, List.filter_cons]

theorem onion_3 : (fun v => engineTs (onion.node v) ⟨-3, 0, 0⟩ ⟨1, 0, 0⟩) = ![[23], [6], [2, 4]] := by
  apply onion_at <;> norm_num [epsZero, List.filter_cons]

theorem onion_1 : (fun v => engineTs (onion.node v) ⟨-1, 0, 0⟩ ⟨1, 0, 0⟩) = ![[21], [4], [2]] := by
  apply onion_at <;> norm_num [epsZero, List.filter_cons]

theorem far_ts {x : ℝ} (hx : x ≤ 0) : engineTs (onionFar.node 3) ⟨x, 0, 0⟩ ⟨1, 0, 0⟩ = [9 - x, 11 - x] := by
  show engineTs (onionNode 3) _ _ = _
  have := congrFun (onion_ts x) 3
  rw [this]
  have h1 : epsZero < 10 - x - 1 := lt_of_lt_of_le (by norm_num [epsZero]) (show (1 : ℝ) ≤ _ by linarith)
  have h2 : epsZero < 10 - x + 1 := lt_of_lt_of_le (by norm_num [epsZero]) (show (1 : ℝ) ≤ _ by linarith)
  show [10 - x - 1, 10 - x + 1].filter (fun t => t > epsZero) = _
  simp only [List.filter_cons, gt_iff_lt, h1, h2, decide_true, if_true, List.filter_nil]
  congr 1
  · ring
  · congr 1; ring

theorem third (a b c : List ℝ) : (![a, b, c] : Fin 3 → List ℝ) 2 = c := rfl

theorem onion_hit_5 : (kOps onion halves .kT).nextHit ⟨-5, 0, 0⟩ ⟨1, 0, 0⟩ = some (1, 0, some 1, 2) := by
  show kNextHit (List.finRange 3) (fun v => engineTs (onion.node v) ⟨-5, 0, 0⟩ ⟨1, 0, 0⟩) = _
  rw [onion_5, show List.finRange 3 = [0, 1, 2] from rfl]
  norm_num [kNextHit, kHits, kFirst, kSecond, kContainer, kMinT, List.zipIdx, third]

theorem onion_hit_3 : (kOps onion halves .kT).nextHit ⟨-3, 0, 0⟩ ⟨1, 0, 0⟩ = some (2, 1, some 2, 2) := by
  show kNextHit (List.finRange 3) (fun v => engineTs (onion.node v) ⟨-3, 0, 0⟩ ⟨1, 0, 0⟩) = _
  rw [onion_3, show List.finRange 3 = [0, 1, 2] from rfl]
  norm_num [kNextHit, kHits, kFirst, kSecond, kContainer, kMinT, List.zipIdx, third]

theorem onion_hit_1 : (kOps onion halves .kT).nextHit ⟨-1, 0, 0⟩ ⟨1, 0, 0⟩ = some (2, 2, some 1, 2) := by
  show kNextHit (List.finRange 3) (fun v => engineTs (onion.node v) ⟨-1, 0, 0⟩ ⟨1, 0, 0⟩) = _
  rw [onion_1, show List.finRange 3 = [0, 1, 2] from rfl]
  norm_num [kNextHit, kHits, kFirst, kSecond, kContainer, kMinT, List.zipIdx, third]

/-- A ray on the axis. -/
def OnAxis (x : ℝ) (r : KRay ℝ Comp) : Prop := r.position = ⟨x, 0, 0⟩ ∧ r.direction = ⟨1, 0, 0⟩ ∧ r.wavelength = 555

theorem onion_step {x t : ℝ} {r r' : KRay ℝ Comp} {s s' : Unit} {count : ℕ} {h c a : Fin 3} (hr : OnAxis x r)
    (hh : (kOps onion halves .kT).nextHit ⟨x, 0, 0⟩ ⟨1, 0, 0⟩ = some (h, c, some a, t)) (h0 : h ≠ 0)
    (hc : (onion.node c).comps = []) (hcount : ¬ count > 10)
    (hb : (kBody (kOps onion halves .kT) 10 count r s).2 = .cont r' s') : OnAxis (x + t) r' := by
  obtain ⟨h1, h2, h3⟩ := hr
  rw [← h1, ← h2] at hh
  have hD : (kOps onion halves .kT).depth c r.wavelength s = (none, s) := by
    simp only [kOps, LNode.kCoefs, hc, kDepth, List.map_nil, List.sum_nil]
    norm_num
  rw [kBody_go _ hh hcount h0 hD] at hb
  simp only [isAbsorbed, kSurface] at hb
  have hs : ∀ v, (onion.node v).surface = .null := by intro v; fin_cases v <;> rfl
  have hre : ∀ nrm d, (kOps onion halves .kT).reflects h c a nrm d s = (false, s) := by
    intro nrm d
    show onion.kReflects halves h c a nrm d s = _
    simp [LScene.kReflects, hs, kIsReflected]
  have htr : ∀ nrm d, (kOps onion halves .kT).transmitDir h c a nrm d = d := by
    intro nrm d
    show (match (onion.node h).surface with | .null => d | .fresnel => _) = _
    rw [hs]
  simp only [hre, htr, Bool.false_eq_true, if_false, KNext.cont.injEq] at hb
  obtain ⟨rfl, -⟩ := hb
  refine ⟨?_, h2, h3⟩
  simp [KRay.advance, h1, h2]

theorem onion_end {r : KRay ℝ Comp} {s : Unit} (hr : OnAxis (-1) r) :
    (kBody (kOps onion halves .kT) 10 (2 + 1) r s).2 = .stop := by
  obtain ⟨h1, h2, h3⟩ := hr
  have hh := onion_hit_1
  rw [← h1, ← h2] at hh
  have hc : (onion.node 2).kCoefs 555 = [1] := by
    have : (onion.node 2).comps = [soot] := rfl
    simp [LNode.kCoefs, this, soot, Comp.kCoef, compileDist, kCoefficient, kInterp, reads]
  have hD : (kOps onion halves .kT).depth 2 r.wavelength s = (some (Real.log 2), s) := by
    show kDepth halves ((onion.node 2).kCoefs r.wavelength).sum s = _
    rw [h3, hc]
    norm_num [kDepth, halves]
    rw [one_div, Real.log_inv, neg_neg]
  have hlt : Real.log 2 < 2 := by
    have := Real.log_le_sub_one_of_pos (show (0 : ℝ) < 2 by norm_num)
    linarith
  rw [kBody_go _ hh (by norm_num) (by decide) hD]
  simp only [isAbsorbed, hlt, if_true, kAbsorb]
  have hp : ∀ w, w = 555 → ((kOps onion halves .kT).pick 2 w s).1 = soot := by
    rintro w rfl
    show ((onion.node 2).comps[kPick ((onion.node 2).kCoefs 555) (1 / 2)]?).getD noComp = _
    have : (onion.node 2).comps = [soot] := rfl
    rw [hc, this]
    norm_num [kPick, kPickFrom]
  have hk : (kOps onion halves .kT).kind soot = .absorber := rfl
  simp only [hp _ (show (r.advance (Real.log 2) ((kOps onion halves .kT).nidx 2)).wavelength = 555 from h3), hk]
  simp

/-- The ray that starts at `x = -5`. -/
def axisRay : KRay ℝ Comp := ⟨⟨-5, 0, 0⟩, ⟨1, 0, 0⟩, 555, 0, 0, none⟩

theorem onion_reached {count : ℕ} {r : KRay ℝ Comp} {s : Unit}
    (h : KReached (kOps onion halves .kT) 10 axisRay () count r s) :
    (count = 0 ∧ OnAxis (-5) r) ∨ (count = 1 ∧ OnAxis (-3) r) ∨ (count = 2 ∧ OnAxis (-1) r) := by
  induction h with
  | start => exact .inl ⟨rfl, rfl, rfl, rfl⟩
  | next h hb ih =>
    rcases ih with ⟨rfl, hr⟩ | ⟨rfl, hr⟩ | ⟨rfl, hr⟩
    · right; left
      refine ⟨rfl, ?_⟩
      have := onion_step hr onion_hit_5 (by decide) rfl (by norm_num) hb
      norm_num at this
      exact this
    · right; right
      refine ⟨rfl, ?_⟩
      have := onion_step hr onion_hit_3 (by decide) rfl (by norm_num) hb
      norm_num at this
      exact this
    · rw [onion_end hr] at hb
      cases hb

theorem not_range {w : Fin 4} (hw : w ∉ Set.range (Fin.castSucc : Fin 3 → Fin 4)) : w = 3 := by
  by_contra h
  exact hw ⟨w.castLT (by omega), by simp⟩

theorem onion_clear {count : ℕ} {r : KRay ℝ Comp} {s : Unit}
    (h : KReached (kOps onion halves .kT) 10 axisRay () count r s) (w : Fin 4)
    (hw : w ∉ Set.range (Fin.castSucc : Fin 3 → Fin 4)) :
    OutOfWay (fun v => engineTs (onion.node v) r.position r.direction) (engineTs (onionFar.node w) r.position r.direction) := by
  rw [not_range hw]
  rcases onion_reached h with ⟨-, h1, h2, -⟩ | ⟨-, h1, h2, -⟩ | ⟨-, h1, h2, -⟩
  · rw [h1, h2, onion_5, far_ts (by norm_num)]
    refine ⟨by simp, .inr ⟨⟨0, by simp⟩, 1, 2, by simp, by simp, ?_, by intro x hx; simp at hx; rcases hx with rfl | rfl <;> norm_num⟩⟩
    intro v hv a ha
    fin_cases v
    · simp at ha; subst ha; norm_num
    · exact absurd rfl hv
    · simp at ha; rcases ha with rfl | rfl <;> norm_num
  · rw [h1, h2, onion_3, far_ts (by norm_num)]
    refine ⟨by simp, .inl fun x hx => ⟨2, 2, 2, 4, by simp, by simp, by norm_num, ?_, ?_⟩⟩ <;> 
      (simp at hx; rcases hx with rfl | rfl <;> norm_num)
  · rw [h1, h2, onion_1, far_ts (by norm_num)]
    refine ⟨by simp, .inl fun x hx => ⟨2, 1, 2, 4, by simp, by simp, by simp, ?_, ?_⟩⟩ <;> 
      (simp at hx; rcases hx with rfl | rfl <;> norm_num)

theorem onion_untied {count : ℕ} {r : KRay ℝ Comp} {s : Unit}
    (h : KReached (kOps onion halves .kT) 10 axisRay () count r s) : KUntied onion r := by
  intro u v t hu hv
  have key : ∀ f : Fin 3 → List ℝ, (fun v => engineTs (onion.node v) r.position r.direction) = f → t ∈ f u ∧ t ∈ f v :=
    fun f hf => by rw [← hf]; exact ⟨hu, hv⟩
  rcases onion_reached h with ⟨-, h1, h2, -⟩ | ⟨-, h1, h2, -⟩ | ⟨-, h1, h2, -⟩ <;> rw [h1, h2] at key
  · obtain ⟨a, b⟩ := key _ onion_5
    clear key hu hv
    fin_cases u <;> fin_cases v <;> first | rfl | (simp at a b; exfalso; rcases a with rfl | rfl <;> norm_num at b) |
      (simp at a b; exfalso; subst a; norm_num at b)
  · obtain ⟨a, b⟩ := key _ onion_3
    clear key hu hv
    fin_cases u <;> fin_cases v <;> first | rfl | (simp at a b; exfalso; rcases a with rfl | rfl <;> norm_num at b) |
      (simp at a b; exfalso; subst a; norm_num at b)
  · obtain ⟨a, b⟩ := key _ onion_1
    clear key hu hv
    fin_cases u <;> fin_cases v <;> first | rfl | (simp at a b; exfalso; rcases a with rfl | rfl <;> norm_num at b) |
      (simp at a b; exfalso; subst a; norm_num at b)

/-- The ball behind is ahead of the ray at all three passes and changes nothing. -/
example : Budget.fullHistory (kOps onionFar halves .kT) 10 ⟨axisRay, ()⟩ =
    (Budget.fullHistory (kOps onion halves .kT) 10 ⟨axisRay, ()⟩).map (Row.map Fin.castSucc id) :=
  (bystander_irrelevant_kernel_partial onion_extended halves .kT 10 axisRay () fun _ _ _ h => onion_clear h).1

/-- The order of shell and ball. -/
example : Budget.fullHistory (kOps onionTurned halves .kT) 10 ⟨axisRay, ()⟩ =
    (Budget.fullHistory (kOps onion halves .kT) 10 ⟨axisRay, ()⟩).map (Row.map (Equiv.swap 1 2) id) :=
  (order_irrelevant_kernel_partial onion_reordered halves .kT 10 axisRay () fun _ _ _ h => onion_untied h).1

theorem onion_apart : Apart onion := by
  intro u v p hu hv
  have key : ∀ w : Fin 3, Solid.Surface (onion.node w).geom ((onion.node w).w2l.point p) →
      p.x ^ 2 + p.y ^ 2 + p.z ^ 2 = (![20, 3, 1] : Fin 3 → ℝ) w ^ 2 := by
    intro w hw
    have e : (onion.node w).w2l.point p = p := by
      have : (onion.node w).w2l = slide (-0) := by fin_cases w <;> rfl
      rw [this, slide_point]; ext <;> simp
    rw [e] at hw
    have hg : (onion.node w).geom = .sphere ((![20, 3, 1] : Fin 3 → ℝ) w) := by fin_cases w <;> rfl
    rw [hg] at hw
    obtain ⟨h1, h2⟩ := hw
    simp only [Solid.Closed, Solid.Inner] at h1 h2
    nlinarith
  have hu := key u hu
  have hv := key v hv
  rw [hu] at hv
  fin_cases u <;> fin_cases v <;> first | rfl | (norm_num at hv)

/-- The same from the fact that the surfaces have no common point. -/
example : Budget.fullHistory (kOps onionTurned halves .kT) 10 ⟨axisRay, ()⟩ =
    (Budget.fullHistory (kOps onion halves .kT) 10 ⟨axisRay, ()⟩).map (Row.map (Equiv.swap 1 2) id) := by
  refine (order_irrelevant_kernel onion_reordered (fun v => ?_) onion_apart halves .kT 10 axisRay () fun _ _ _ _ v => ?_).1
  · have hg : (onion.node v).geom = .sphere ((![20, 3, 1] : Fin 3 → ℝ) v) := by fin_cases v <;> rfl
    rw [hg]
    fin_cases v <;> norm_num [Solid.Proper]
  · have hg : (onion.node v).geom = .sphere ((![20, 3, 1] : Fin 3 → ℝ) v) := by fin_cases v <;> rfl
    rw [hg]
    simp [Geometry.ClearDir]

theorem soot_good : GoodComp soot := ⟨.inl ⟨1, by norm_num, rfl⟩, by simp [soot], by simp [soot]⟩

theorem onion_ball_ts (B : Trimesh) : pythonTs B (onion.node 2) ⟨0, 0, 0⟩ ⟨1, 0, 0⟩ = [1] := by
  have : LNode.pyTs B (onion.node 2) ⟨0, 0, 0⟩ ⟨1, 0, 0⟩ = [0 - 0 - 1, 0 - 0 + 1].filter (fun t => t ≥ 0) :=
    bead_ts "ball" 0 1 .null (by norm_num) B 0
  rw [pythonTs, this]
  norm_num [epsZero, List.filter_cons]

theorem onion_0 (B : Trimesh) : (fun v => pythonTs B (onion.node v) ⟨0, 0, 0⟩ ⟨1, 0, 0⟩) = ![[20], [3], [1]] := by
  funext v
  fin_cases v
  · show pythonTs B (bead "world" 0 20 1 .null) _ _ = [20]
    rw [pythonTs, bead_ts _ _ _ _ (by norm_num)]
    norm_num [epsZero, List.filter_cons]
  · show pythonTs B (bead "shell" 0 3 1 .null) _ _ = [3]
    rw [pythonTs, bead_ts _ _ _ _ (by norm_num)]
    norm_num [epsZero, List.filter_cons]
  · exact onion_ball_ts B

theorem onion_sound : Sound onion where
  index_pos v := by fin_cases v <;> exact one_pos
  rigid v := by fin_cases v <;> exact slide_rigid _
  inverse v := by fin_cases v <;> exact slide_inverse _
  comps v c hc := by
    fin_cases v
    · cases hc
    · cases hc
    · have hc : c = soot := List.mem_singleton.1 hc
      subst hc
      exact soot_good

theorem onionFar_sound : Sound onionFar where
  index_pos v := by fin_cases v <;> exact one_pos
  rigid v := by fin_cases v <;> exact slide_rigid _
  inverse v := by fin_cases v <;> exact slide_inverse _
  comps v c hc := by
    fin_cases v
    · cases hc
    · cases hc
    · have hc : c = soot := List.mem_singleton.1 hc
      subst hc
      exact soot_good
    · cases hc

/-- A ray that starts in the middle. -/
def coreRay : Ray ℝ := ⟨⟨0, 0, 0⟩, ⟨1, 0, 0⟩, 555, 0, 0, none⟩

theorem core_hit : nextHit epsZero (distanceBetween coreRay.position)
    (onion.intersections noBoxes coreRay.position coreRay.direction) = .ok (some ⟨2, 2, some 1, ⟨1, 0, 0⟩, 1⟩) := by
  rw [python_choice onion_sound noBoxes (by norm_num [coreRay, Vec3.dot])]
  rw [if_neg (by rintro ⟨-, h⟩; exact h 2 (congrArg List.length (onion_ball_ts noBoxes)))]
  show Except.ok (Option.map _ (kNextHit (List.finRange 3) (fun v => pythonTs noBoxes (onion.node v) ⟨0, 0, 0⟩ ⟨1, 0, 0⟩))) = _
  rw [onion_0, show List.finRange 3 = [0, 1, 2] from rfl]
  norm_num [kNextHit, kHits, kFirst, kSecond, kContainer, kMinT, List.zipIdx, third, toInfo, coreRay, Vec3.ext_iff]

theorem core_pass : (body (pyOps onion noBoxes halves .kT) 10 none (0 + 1) coreRay ()).2 = .stop := by
  unfold body
  have hi : (pyOps onion noBoxes halves .kT).intersections coreRay.position coreRay.direction =
    .ok (onion.intersections noBoxes coreRay.position coreRay.direction) := rfl
  rw [hi]
  dsimp only
  have hn := core_hit
  change nextHit (pyOps onion noBoxes halves .kT).eps
    ((pyOps onion noBoxes halves .kT).distBetween coreRay.position) _ = _ at hn
  rw [hn]
  dsimp only
  rw [if_neg (by simp [beyond]), if_neg (show ¬ (2 : Fin 3) = (pyOps onion noBoxes halves .kT).root from show ¬ (2 : Fin 3) = 0 by decide)]
  have hcm : (onion.node 2).comps = [soot] := rfl
  have hcs : coefficients (onion.node 2).comps 555 = .ok [1] := by
    simp [hcm, soot, coefficients, Comp.coefficient, PV.Dist.call]
  have hdep : (pyOps onion noBoxes halves .kT).penetrationDepth 2 coreRay.wavelength () =
      .ok (some (Real.log 2), ()) := by
    show penetrationDepth halves (onion.node 2).comps 555 () = _
    unfold penetrationDepth
    rw [hcs]
    norm_num [halves]
    rw [one_div, Real.log_inv, neg_neg]
  rw [hdep]
  have hlt : Real.log 2 < 1 := by
    have := Real.log_lt_sub_one_of_pos (show (0 : ℝ) < 2 by norm_num) (by norm_num)
    linarith
  simp only [isAbsorbed, hlt, if_true]
  unfold absorbBody
  have hpk : (pyOps onion noBoxes halves .kT).component 2 555 () = .ok (soot, ()) := by
    show pickComponent halves (onion.node 2).comps 555 () = _
    unfold pickComponent
    rw [hcs]
    dsimp only
    rw [Material.engine_eq_python_pick (by simp) (by simp) (by norm_num [halves])
      (by norm_num [halves]) (by
        intro k hk
        have hk : k = 0 ∨ k = 1 := by simp at hk; omega
        rcases hk with rfl | rfl <;> norm_num [halves])]
    norm_num [halves, kPick, kPickFrom, hcm]
  have hix : (pyOps onion noBoxes halves .kT).refractiveIndex 2 = 1 := rfl
  have hwl : (coreRay.propagate (Real.log 2) 1).wavelength = 555 := rfl
  dsimp only
  rw [hix, hwl, hpk]
  rfl

theorem core_reached {count : ℕ} {r : Ray ℝ} {s : Unit}
    (h : Reached onion noBoxes halves .kT 10 none coreRay () count r s) : count = 0 ∧ r = coreRay := by
  induction h with
  | start => exact ⟨rfl, rfl⟩
  | next h hb ih =>
    obtain ⟨rfl, rfl⟩ := ih
    rw [core_pass] at hb
    cases hb

/-- The ball behind is ahead of a ray of the Python tracer and changes nothing. -/
example (fuel : ℕ) : stepForward (pyOps onionFar noBoxes halves .kT) 10 none fuel coreRay () =
    stepForward (pyOps onion noBoxes halves .kT) 10 none fuel coreRay () := by
  refine bystander_out_of_way_partial onion_extended onion_sound onionFar_sound (fun v => ?_) (fun s o d _ t ht => ?_)
    (by norm_num [coreRay, Vec3.dot]) (fun count r s h w hw => ?_) fuel
  · have hg : (onion.node v).geom = .sphere ((![20, 3, 1] : Fin 3 → ℝ) v) := by fin_cases v <;> rfl
    rw [hg]
    fin_cases v <;> norm_num [Visible]
  · simp [noBoxes] at ht
  · obtain ⟨-, rfl⟩ := core_reached h
    rw [not_range hw]
    have hf : pythonTs noBoxes (onionFar.node 3) coreRay.position coreRay.direction = [9, 11] := by
      show pythonTs noBoxes (bead "far" 10 1 1 .null) ⟨0, 0, 0⟩ ⟨1, 0, 0⟩ = _
      rw [pythonTs, bead_ts _ _ _ _ (by norm_num)]
      norm_num [epsZero, List.filter_cons]
    rw [hf]
    show OutOfWay (fun v => pythonTs noBoxes (onion.node v) ⟨0, 0, 0⟩ ⟨1, 0, 0⟩) _
    rw [onion_0]
    refine ⟨by simp, .inl fun x hx => ⟨2, 1, 1, 3, by simp, by simp, by simp, ?_, ?_⟩⟩ <;>
      (simp at hx; rcases hx with rfl | rfl <;> norm_num)

end
end PV.Variants
