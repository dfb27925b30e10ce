import Verif.Props.Variants
import Verif.Props.InsideDemo
import Verif.Props.Optics

/-!
**C105**–**C107**, cases and counterexamples: balls on the x axis.
-/

namespace PV.Variants
open PV PV.Library PV.Alike PV.NextHit
noncomputable section
variable {σ : Type} {n : ℕ}

/-- A shift along the x axis. -/
def slide (c : ℝ) : Affine ℝ := ⟨⟨1, 0, 0⟩, ⟨0, 1, 0⟩, ⟨0, 0, 1⟩, ⟨c, 0, 0⟩⟩

theorem slide_rigid (c : ℝ) : (slide c).Rigid := by norm_num [slide, Affine.Rigid, Vec3.dot]

theorem slide_inverse (c : ℝ) : (slide c).Inverse (slide (-c)) := by
  constructor <;> intro p <;> ext <;> simp [slide, Affine.point, Affine.vec, Vec3.dot]

theorem slide_vec (c : ℝ) (p : Vec3 ℝ) : (slide c).vec p = p := by
  ext <;> simp [slide, Affine.vec, Vec3.dot]

theorem slide_point (c : ℝ) (p : Vec3 ℝ) : (slide c).point p = ⟨p.x + c, p.y, p.z⟩ := by
  ext <;> simp [slide, Affine.point, Affine.vec, Vec3.dot]

/-- A clear ball with its centre on the x axis. -/
def bead (name : String) (c r index : ℝ) (k : SurfaceKind) : LNode :=
  ⟨name, .sphere r, slide c, slide (-c), index, k, []⟩

theorem bead_ts (name : String) (c : ℝ) {r : ℝ} (index : ℝ) (k : SurfaceKind) (hr : 1 ≤ r) (B : Trimesh) (x : ℝ) :
    (bead name c r index k).pyTs B ⟨x, 0, 0⟩ ⟨1, 0, 0⟩ = [c - x - r, c - x + r].filter (fun t => t ≥ 0) := by
  have e : LNode.pyTs B (bead name c r index k) ⟨x, 0, 0⟩ ⟨1, 0, 0⟩ = pySphere r ⟨x + -c, 0, 0⟩ ⟨1, 0, 0⟩ := by
    have h1 : (bead name c r index k).localOrigin ⟨x, 0, 0⟩ = ⟨x + -c, 0, 0⟩ := slide_point _ _
    have h2 : (bead name c r index k).localDir ⟨1, 0, 0⟩ = ⟨1, 0, 0⟩ := slide_vec _ _
    unfold LNode.pyTs
    rw [h1, h2]
    rfl
  rw [e]
  have hd : (2 * (⟨1, 0, 0⟩ : Vec3 ℝ).dot ⟨x + -c, 0, 0⟩) ^ 2 - 4 * (⟨1, 0, 0⟩ : Vec3 ℝ).dot ⟨1, 0, 0⟩ *
      ((⟨x + -c, 0, 0⟩ : Vec3 ℝ).dot ⟨x + -c, 0, 0⟩ - r ^ 2) = (2 * r) ^ 2 := by
    simp [Vec3.dot]; ring
  unfold pySphere
  dsimp only
  rw [hd, if_neg (not_lt.2 (by positivity)), if_neg (by rw [abs_of_nonneg (by positivity)]; norm_num; nlinarith),
    Real.sqrt_sq (by linarith)]
  have h1 : (-(2 * (⟨1, 0, 0⟩ : Vec3 ℝ).dot ⟨x + -c, 0, 0⟩) - 2 * r) / (2 * (⟨1, 0, 0⟩ : Vec3 ℝ).dot ⟨1, 0, 0⟩) = c - x - r := by
    simp [Vec3.dot]; ring
  have h2 : (-(2 * (⟨1, 0, 0⟩ : Vec3 ℝ).dot ⟨x + -c, 0, 0⟩) + 2 * r) / (2 * (⟨1, 0, 0⟩ : Vec3 ℝ).dot ⟨1, 0, 0⟩) = c - x + r := by
    simp [Vec3.dot]; ring
  rw [h1, h2]
  congr 1
  rw [sortedBy_cons, sortedBy_cons, sortedBy_nil, ins_nil, ins_cons, if_pos (by simp only [id]; linarith)]

/-- A scene of beads. -/
def beads (N : Fin (n + 1) → String × ℝ × ℝ × ℝ × SurfaceKind)   : LScene n where
  node v := bead (N v).1 (N v).2.1 (N v).2.2.1 (N v).2.2.2.1 (N v).2.2.2.2

theorem beads_sound {N : Fin (n + 1) → String × ℝ × ℝ × ℝ × SurfaceKind} (h : ∀ v, 0 < (N v).2.2.2.1) : Sound (beads N) where
  index_pos := h
  rigid _ := slide_rigid _
  inverse v := slide_inverse _
  comps v c hc := by cases hc

/-- A generator that always yields 0.03. -/
def low : Rand Unit := ⟨fun s => (0.03, s)⟩

/-- The second event of a history is what happens at the first surface. -/
theorem second_event {S : LScene n} {B : Trimesh} {R : Rand σ} {method : EmitMethod} {maxsteps : ℕ} {fuel : ℕ}
    {ray : Ray ℝ} {s s' : σ} {h c a : Fin (n + 1)} {p : Vec3 ℝ} {t : ℝ} {b : Bool} {m : Vec3 ℝ} {q : Ray ℝ × σ}
    (hn : nextHit epsZero (distanceBetween ray.position) (S.intersections B ray.position ray.direction) =
      .ok (some ⟨h, c, some a, p, t⟩)) (h0 : h ≠ 0) (hc : (S.node c).comps = [])
    (hm : (pyOps S B R method).normal h (ray.propagate t (S.node c).index).position = .ok m)
    (hb : (pyOps S B R method).isReflected h c (some a) (ray.propagate t (S.node c).index) s = .ok (b, s'))
    (hq : (if b then (pyOps S B R method).reflect h c (some a) (ray.propagate t (S.node c).index) s'
      else (pyOps S B R method).transmit h c (some a) (ray.propagate t (S.node c).index) s') = .ok q) :
    (stepForward (pyOps S B R method) (maxsteps + 1) none (fuel + 1) ray s).1[1]? =
      some ⟨q.1, if b then .reflect else .transmit,
        ⟨some (S.node h).name, some (S.node c).name, some (S.node a).name, none, some m⟩⟩ := by
  have hbody : body (pyOps S B R method) (maxsteps + 1) none (0 + 1) ray s =
      ([⟨q.1, if b then .reflect else .transmit,
        ⟨some (S.node h).name, some (S.node c).name, some (S.node a).name, none, some m⟩⟩], .cont q.1 q.2) := by
    unfold body
    have hi : (pyOps S B R method).intersections ray.position ray.direction =
      .ok (S.intersections B ray.position ray.direction) := rfl
    rw [hi]
    dsimp only
    change nextHit (pyOps S B R method).eps ((pyOps S B R method).distBetween ray.position) _ = _ at hn
    rw [hn]
    dsimp only
    rw [if_neg (by simp [beyond]), if_neg (show ¬ h = (pyOps S B R method).root from h0)]
    have hdep : (pyOps S B R method).penetrationDepth c ray.wavelength s = .ok (none, s) := by
      show penetrationDepth R (S.node c).comps ray.wavelength s = _
      rw [hc]
      have h0 : coefficients [] ray.wavelength = .ok [] := rfl
      unfold penetrationDepth
      rw [h0]
      norm_num
    rw [hdep]
    dsimp only [isAbsorbed]
    unfold surfaceBody
    dsimp only
    have hix : (pyOps S B R method).refractiveIndex c = (S.node c).index := rfl
    rw [hix, hm]
    dsimp only
    rw [hb]
    cases b with
    | true =>
      simp only [if_true] at hq
      dsimp only
      rw [hq]
      rfl
    | false =>
      simp only [Bool.false_eq_true, if_false] at hq
      dsimp only
      rw [hq]
      rfl
  unfold stepForward loop
  rw [hbody]
  simp

/-- What a bead answers where the axis meets it. -/
theorem bead_normal {N : Fin (n + 1) → String × ℝ × ℝ × ℝ × SurfaceKind} {B : Trimesh} {R : Rand σ} {method : EmitMethod}
    {h : Fin (n + 1)} {q : ℝ} (hq : q = 1 ∨ q = -1) (hr : (N h).2.2.1 = 1) {ray : Ray ℝ}
    (hp : ray.position = ⟨(N h).2.1 + q, 0, 0⟩) :
    (pyOps (beads N) B R method).normal h ray.position = .ok ⟨q, 0, 0⟩ ∧
      pyNormal ((beads N).node h).geom (ray.representation ((beads N).node h).w2l).position = .ok ⟨q, 0, 0⟩ := by
  have e : ((beads N).node h).w2l.point ray.position = ⟨q, 0, 0⟩ := by
    show (slide (-(N h).2.1)).point _ = _
    rw [slide_point, hp]
    ext <;> simp
  have hs : pyNormal ((beads N).node h).geom ⟨q, 0, 0⟩ = .ok ⟨q, 0, 0⟩ := by
    show pyNormal (.sphere (N h).2.2.1) _ = _
    rw [hr]
    rcases hq with rfl | rfl <;> simp [pyNormal, Vec3.dot]
  constructor
  · unfold pyOps
    dsimp only
    rw [e, hs]
    show Except.ok ((slide _).vec _) = _
    rw [slide_vec]
  · show pyNormal _ (((beads N).node h).w2l.point ray.position) = _
    rw [e, hs]

/-- Reflectivity on the axis. -/
theorem bead_reflectivity {N : Fin (n + 1) → String × ℝ × ℝ × ℝ × SurfaceKind} (hN : ∀ v, 0 < (N v).2.2.2.1) {h c a : Fin (n + 1)} {q : ℝ}
    (hq : q = 1 ∨ q = -1) (hr : (N h).2.2.1 = 1) (hf : (N h).2.2.2.2 = .fresnel) {ray : Ray ℝ}
    (hp : ray.position = ⟨(N h).2.1 + q, 0, 0⟩) (hd : ray.direction = ⟨1, 0, 0⟩) :
    (beads N).reflectivity h c (some a) (ray.representation ((beads N).node h).w2l) =
      .ok (some ((((N c).2.2.2.1 - (N a).2.2.2.1) / ((N c).2.2.2.1 + (N a).2.2.2.1)) ^ 2)) := by
  have hn := (bead_normal (B := noBoxes) (R := low) (method := .kT) hq hr hp).2
  have hs : ((beads N).node h).surface = .fresnel := hf
  have hdir : (ray.representation ((beads N).node h).w2l).direction = ⟨1, 0, 0⟩ := by
    show (slide _).vec _ = _
    rw [slide_vec, hd]
  unfold LScene.reflectivity
  rw [hs]
  dsimp only
  rw [hn]
  dsimp only
  rw [hdir]
  unfold pyReflectivity
  have hal : along ⟨q, 0, 0⟩ ⟨1, 0, 0⟩ = ⟨1, 0, 0⟩ := by
    rcases hq with rfl | rfl <;> simp [along, Vec3.dot, Vec3.ext_iff]
  have hang : angleBetween ⟨1, 0, 0⟩ ⟨1, 0, 0⟩ = 0 := by
    unfold angleBetween
    rw [if_pos]
    norm_num [allclose]
  rw [hal, hang]
  exact congrArg Except.ok (Optics.reflectivity_normal (hN c) (hN a))

/-! ### Two balls that touch -/

/-- A ball without a surface and a glass ball that touch at (1, 0, 0). -/
def touching : LScene 2 := beads ![("world", 0, 10, 1, .fresnel), ("left", 0, 1, 1, .null), ("right", 2, 1, 1.5, .fresnel)]

/-- The same, added in the other order. -/
def touching' : LScene 2 := beads ![("world", 0, 10, 1, .fresnel), ("right", 2, 1, 1.5, .fresnel), ("left", 0, 1, 1, .null)]

/-- From the centre of the left ball to the right. -/
def outRay : Ray ℝ := ⟨⟨0, 0, 0⟩, ⟨1, 0, 0⟩, 555, 0, 0, none⟩

theorem touching_reordered : Reordered (Equiv.swap 1 2) touching touching' where
  world := by decide
  node v := by
    match v with
    | 0 => rfl
    | 1 => rfl
    | 2 => rfl

theorem one_x : (⟨1, 0, 0⟩ : Vec3 ℝ).dot ⟨1, 0, 0⟩ = 1 := by norm_num [Vec3.dot]

theorem touching_sound : Sound touching := beads_sound fun v => by
  match v with
  | 0 => norm_num
  | 1 => norm_num
  | 2 => show (0 : ℝ) < 1.5; norm_num

theorem touching_hit : nextHit epsZero (distanceBetween outRay.position)
    (touching.intersections noBoxes outRay.position outRay.direction) =
      .ok (some ⟨1, 1, some 2, ⟨1, 0, 0⟩, 1⟩) := by
  have ha : ahead touching noBoxes ⟨0, 0, 0⟩ ⟨1, 0, 0⟩ = [⟨0, 10⟩, ⟨1, 1⟩, ⟨2, 1⟩, ⟨2, 3⟩] := by
    unfold ahead
    have h0 := bead_ts "world" 0 1 .fresnel (r := 10) (by norm_num) noBoxes 0
    have h1 := bead_ts "left" 0 1 .null (r := 1) (by norm_num) noBoxes 0
    have h2 := bead_ts "right" 2 1.5 .fresnel (r := 1) (by norm_num) noBoxes 0
    have hf : List.finRange 3 = [0, 1, 2] := rfl
    have e0 : touching.node 0 = bead "world" 0 10 1 .fresnel := rfl
    have e1 : touching.node 1 = bead "left" 0 1 1 .null := rfl
    have e2 : touching.node 2 = bead "right" 2 1 1.5 .fresnel := rfl
    simp only [hf, kHits, List.flatMap_cons, List.flatMap_nil, e0, e1, e2, h0, h1, h2]
    norm_num [keep, epsZero, List.filter_cons]
  show nextHit epsZero (distanceBetween ⟨0, 0, 0⟩) (touching.intersections noBoxes ⟨0, 0, 0⟩ ⟨1, 0, 0⟩) = _
  rw [inters_eq touching_sound noBoxes one_x, ha]
  norm_num [sortedBy_cons, sortedBy_nil, ins_nil, ins_cons, nextHit, epsZero, List.filter_cons, findContainer,
    distanceBetween, Vec3.norm, Vec3.dot, List.count_cons, Vec3.ext_iff, show ((0 : Fin 3) = 1) = False by decide, show ((0 : Fin (2 + 1)) = 2) = False by decide,
    show ((1 : Fin (2 + 1)) = 0) = False by decide, show ((1 : Fin (2 + 1)) = 2) = False by decide,
    show ((2 : Fin (2 + 1)) = 0) = False by decide, show ((2 : Fin (2 + 1)) = 1) = False by decide]

theorem touching_hit' : nextHit epsZero (distanceBetween outRay.position)
    (touching'.intersections noBoxes outRay.position outRay.direction) =
      .ok (some ⟨1, 2, some 1, ⟨1, 0, 0⟩, 1⟩) := by
  have ha : ahead touching' noBoxes ⟨0, 0, 0⟩ ⟨1, 0, 0⟩ = [⟨0, 10⟩, ⟨1, 1⟩, ⟨1, 3⟩, ⟨2, 1⟩] := by
    unfold ahead
    have h0 := bead_ts "world" 0 1 .fresnel (r := 10) (by norm_num) noBoxes 0
    have h1 := bead_ts "left" 0 1 .null (r := 1) (by norm_num) noBoxes 0
    have h2 := bead_ts "right" 2 1.5 .fresnel (r := 1) (by norm_num) noBoxes 0
    have hf : List.finRange 3 = [0, 1, 2] := rfl
    have e0 : touching'.node 0 = bead "world" 0 10 1 .fresnel := rfl
    have e1 : touching'.node 2 = bead "left" 0 1 1 .null := rfl
    have e2 : touching'.node 1 = bead "right" 2 1 1.5 .fresnel := rfl
    simp only [hf, kHits, List.flatMap_cons, List.flatMap_nil, e0, e1, e2, h0, h1, h2]
    norm_num [keep, epsZero, List.filter_cons]
  show nextHit epsZero (distanceBetween ⟨0, 0, 0⟩) (touching'.intersections noBoxes ⟨0, 0, 0⟩ ⟨1, 0, 0⟩) = _
  rw [inters_eq (reordered_sound touching_reordered touching_sound) noBoxes one_x, ha]
  norm_num [sortedBy_cons, sortedBy_nil, ins_nil, ins_cons, nextHit, epsZero, List.filter_cons, findContainer,
    distanceBetween, Vec3.norm, Vec3.dot, List.count_cons, Vec3.ext_iff, show ((0 : Fin 3) = 1) = False by decide, show ((0 : Fin (2 + 1)) = 2) = False by decide,
    show ((1 : Fin (2 + 1)) = 0) = False by decide, show ((1 : Fin (2 + 1)) = 2) = False by decide,
    show ((2 : Fin (2 + 1)) = 0) = False by decide, show ((2 : Fin (2 + 1)) = 1) = False by decide]

theorem out_moved (m : ℝ) : (outRay.propagate 1 m).position = ⟨1, 0, 0⟩ ∧ (outRay.propagate 1 m).direction = ⟨1, 0, 0⟩ := by
  constructor
  · norm_num [Ray.propagate, outRay, Vec3.ext_iff]
  · rfl

/-- **C105** (violated for objects that touch). Where two balls touch, the surface that decides is the one of the
ball that was added first: the ray passes in one order and is reflected in the other. -/
theorem order_decides : ∃ (S S' : LScene 2) (e : Fin 3 ≃ Fin 3) (ray : Ray ℝ), Reordered e S S' ∧ Sound S ∧
    (∀ v, Visible (S.node v).geom) ∧ ray.direction.dot ray.direction = 1 ∧ ∀ maxsteps fuel : ℕ,
    ∃ a b, (stepForward (pyOps S noBoxes low .kT) (maxsteps + 1) none (fuel + 1) ray ()).1[1]? = some a ∧
      (stepForward (pyOps S' noBoxes low .kT) (maxsteps + 1) none (fuel + 1) ray ()).1[1]? = some b ∧
      a.event = .transmit ∧ b.event = .reflect := by
  refine ⟨touching, touching', Equiv.swap 1 2, outRay, touching_reordered, touching_sound, fun v => ?_, one_x,
    fun maxsteps fuel => ?_⟩
  · match v with
    | 0 => show (1e-8 : ℝ) < 10 ^ 2; norm_num
    | 1 => show (1e-8 : ℝ) < 1 ^ 2; norm_num
    | 2 => show (1e-8 : ℝ) < 1 ^ 2; norm_num
  · have hp := out_moved
    obtain ⟨q, hq⟩ : ∃ q, (pyOps touching noBoxes low .kT).transmit 1 1 (some 2) (outRay.propagate 1 (touching.node 1).index) () = .ok q := by
      unfold pyOps
      dsimp only [LNode.turn]
      exact ⟨_, rfl⟩
    have hpos : ∀ m, (outRay.propagate 1 m).position = ⟨(0 : ℝ) + 1, 0, 0⟩ := fun m => by rw [(hp m).1, zero_add]
    have h1 := second_event (maxsteps := maxsteps) (fuel := fuel) (R := low) (method := .kT) (s := ()) (s' := ())
      (b := false) (q := q) (m := ⟨1, 0, 0⟩) touching_hit (by decide) rfl
      (bead_normal (q := 1) (.inl rfl) rfl (hpos _)).1 (by
        unfold pyOps LScene.isReflected
        have : touching.reflectivity 1 1 (some 2) ((outRay.propagate 1 (touching.node 1).index).representation (touching.node 1).w2l) = .ok (some 0) := rfl
        dsimp only
        rw [this]
        simp [PV.isReflected]) (by simpa using hq)
    have hpos' : ∀ m, (outRay.propagate 1 m).position = ⟨(2 : ℝ) + -1, 0, 0⟩ := fun m => by rw [(hp m).1]; norm_num
    have hr : touching'.reflectivity 1 2 (some 1)
        ((outRay.propagate 1 (touching'.node 2).index).representation (touching'.node 1).w2l) =
          .ok (some (((1 - 1.5) / (1 + 1.5)) ^ 2)) := bead_reflectivity (N := ![("world", 0, 10, 1, .fresnel), ("right", 2, 1, 1.5, .fresnel), ("left", 0, 1, 1, .null)])
      (h := 1) (c := 2) (a := 1) (q := -1) (fun v => by
        match v with
        | 0 => norm_num
        | 1 => show (0 : ℝ) < 1.5; norm_num
        | 2 => show (0 : ℝ) < 1; norm_num) (.inr rfl) rfl rfl (hpos' (touching'.node 2).index) (hp (touching'.node 2).index).2
    obtain ⟨q', hq'⟩ : ∃ q, (pyOps touching' noBoxes low .kT).reflect 1 2 (some 1) (outRay.propagate 1 (touching'.node 2).index) () = .ok q := by
      unfold pyOps
      dsimp only [LNode.turn]
      have hn : pyNormal (touching'.node 1).geom
          ((outRay.propagate 1 (touching'.node 2).index).representation (touching'.node 1).w2l).position = .ok ⟨-1, 0, 0⟩ :=
        (bead_normal (N := ![("world", 0, 10, 1, .fresnel), ("right", 2, 1, 1.5, .fresnel), ("left", 0, 1, 1, .null)])
        (h := 1) (B := noBoxes) (R := low) (method := .kT) (q := -1) (.inr rfl) rfl (hpos' (touching'.node 2).index)).2
      have : touching'.reflected 1 ((outRay.propagate 1 (touching'.node 2).index).representation (touching'.node 1).w2l) =
          .ok (specular ((outRay.propagate 1 (touching'.node 2).index).representation (touching'.node 1).w2l).direction ⟨-1, 0, 0⟩) := by
        unfold LScene.reflected
        have hs : (touching'.node 1).surface = .fresnel := rfl
        rw [hs]
        dsimp only
        rw [hn]
      rw [this]
      exact ⟨_, rfl⟩
    have h2 := second_event (maxsteps := maxsteps) (fuel := fuel) (R := low) (method := .kT) (s := ()) (s' := ())
      (b := true) (q := q') (m := ⟨-1, 0, 0⟩) touching_hit' (by decide) rfl
      (bead_normal (q := -1) (.inr rfl) rfl (hpos' _)).1 (by
        unfold pyOps LScene.isReflected
        dsimp only
        rw [hr]
        norm_num [PV.isReflected, low]) (by simpa using hq')
    exact ⟨_, _, h1, h2, rfl, rfl⟩

/-! ### A ball beyond the surface -/

/-- A glass ball. -/
def glass : LScene 1 := beads ![("world", 0, 10, 1, .fresnel), ("glass", 0, 1, 1.5, .fresnel)]

/-- The same with another glass ball to the right of it. -/
def crowded : LScene 2 := beads ![("world", 0, 10, 1, .fresnel), ("glass", 0, 1, 1.5, .fresnel), ("far", 5, 1, 1.5, .fresnel)]

theorem crowded_extended : Extended Fin.castSucc glass crowded where
  world := rfl
  order := Fin.strictMono_castSucc
  node v := by
    match v with
    | 0 => rfl
    | 1 => rfl

theorem glass_sound : Sound glass := beads_sound fun v => by
  match v with
  | 0 => norm_num
  | 1 => show (0 : ℝ) < 1.5; norm_num

theorem crowded_sound : Sound crowded := beads_sound fun v => by
  match v with
  | 0 => norm_num
  | 1 => show (0 : ℝ) < 1.5; norm_num
  | 2 => show (0 : ℝ) < 1.5; norm_num

theorem crowded_visible (v : Fin 3) : Visible (crowded.node v).geom := by
  match v with
  | 0 => show (1e-8 : ℝ) < 10 ^ 2; norm_num
  | 1 => show (1e-8 : ℝ) < 1 ^ 2; norm_num
  | 2 => show (1e-8 : ℝ) < 1 ^ 2; norm_num

theorem bead_has (name : String) (c r index : ℝ) (k : SurfaceKind) (p : Vec3 ℝ) :
    (Has (bead name c r index k) p ↔ (p.x - c) ^ 2 + p.y ^ 2 + p.z ^ 2 ≤ r ^ 2) ∧
    (HasInner (bead name c r index k) p ↔ (p.x - c) ^ 2 + p.y ^ 2 + p.z ^ 2 < r ^ 2) := by
  have e : (bead name c r index k).w2l.point p = ⟨p.x - c, p.y, p.z⟩ := by
    show (slide (-c)).point p = _
    rw [slide_point, sub_eq_add_neg]
  unfold Has HasInner
  rw [e]
  exact ⟨Iff.rfl, Iff.rfl⟩

theorem crowded_arranged : Arranged crowded := by
  have e0 : crowded.node 0 = bead "world" 0 10 1 .fresnel := rfl
  have e1 : crowded.node 1 = bead "glass" 0 1 1.5 .fresnel := rfl
  have e2 : crowded.node 2 = bead "far" 5 1 1.5 .fresnel := rfl
  have w1 : Within (crowded.node 1) (crowded.node 0) := by
    intro p
    rw [e0, e1, (bead_has ..).1, (bead_has ..).2]
    intro h
    nlinarith
  have w2 : Within (crowded.node 2) (crowded.node 0) := by
    intro p
    rw [e0, e2, (bead_has ..).1, (bead_has ..).2]
    intro h
    nlinarith [sq_nonneg p.y, sq_nonneg p.z]
  have a12 : ∀ p, ¬ (HasInner (crowded.node 1) p ∧ HasInner (crowded.node 2) p) := by
    intro p
    rw [e1, e2, (bead_has ..).2, (bead_has ..).2]
    rintro ⟨h1, h2⟩
    nlinarith [sq_nonneg p.y, sq_nonneg p.z, sq_nonneg (2 * p.x - 5)]
  constructor
  · intro v
    match v with
    | 0 => show (0 : ℝ) < 10; norm_num
    | 1 => show (0 : ℝ) < 1; norm_num
    | 2 => show (0 : ℝ) < 1; norm_num
  · intro u v huv
    match u, v with
    | 0, 0 => exact absurd rfl huv
    | 1, 1 => exact absurd rfl huv
    | 2, 2 => exact absurd rfl huv
    | 0, 1 => exact .inr (.inl w1)
    | 0, 2 => exact .inr (.inl w2)
    | 1, 0 => exact .inl w1
    | 2, 0 => exact .inl w2
    | 1, 2 => exact .inr (.inr a12)
    | 2, 1 => exact .inr (.inr fun p h => a12 p h.symm)
  · intro v hv
    match v with
    | 0 => exact absurd rfl hv
    | 1 => exact w1
    | 2 => exact w2

theorem glass_hit : nextHit epsZero (distanceBetween outRay.position)
    (glass.intersections noBoxes outRay.position outRay.direction) =
      .ok (some ⟨1, 1, some 0, ⟨1, 0, 0⟩, 1⟩) := by
  have ha : ahead glass noBoxes ⟨0, 0, 0⟩ ⟨1, 0, 0⟩ = [⟨0, 10⟩, ⟨1, 1⟩] := by
    unfold ahead
    have h0 := bead_ts "world" 0 1 .fresnel (r := 10) (by norm_num) noBoxes 0
    have h1 := bead_ts "glass" 0 1.5 .fresnel (r := 1) (by norm_num) noBoxes 0
    have hf : List.finRange 2 = [0, 1] := rfl
    have e0 : glass.node 0 = bead "world" 0 10 1 .fresnel := rfl
    have e1 : glass.node 1 = bead "glass" 0 1 1.5 .fresnel := rfl
    simp only [hf, kHits, List.flatMap_cons, List.flatMap_nil, e0, e1, h0, h1]
    norm_num [keep, epsZero, List.filter_cons]
  show nextHit epsZero (distanceBetween ⟨0, 0, 0⟩) (glass.intersections noBoxes ⟨0, 0, 0⟩ ⟨1, 0, 0⟩) = _
  rw [inters_eq glass_sound noBoxes one_x, ha]
  norm_num [sortedBy_cons, sortedBy_nil, ins_nil, ins_cons, nextHit, epsZero, List.filter_cons, findContainer,
    distanceBetween, Vec3.norm, Vec3.dot, List.count_cons, Vec3.ext_iff]

theorem crowded_hit : nextHit epsZero (distanceBetween outRay.position)
    (crowded.intersections noBoxes outRay.position outRay.direction) =
      .ok (some ⟨1, 1, some 2, ⟨1, 0, 0⟩, 1⟩) := by
  have ha : ahead crowded noBoxes ⟨0, 0, 0⟩ ⟨1, 0, 0⟩ = [⟨0, 10⟩, ⟨1, 1⟩, ⟨2, 4⟩, ⟨2, 6⟩] := by
    unfold ahead
    have h0 := bead_ts "world" 0 1 .fresnel (r := 10) (by norm_num) noBoxes 0
    have h1 := bead_ts "glass" 0 1.5 .fresnel (r := 1) (by norm_num) noBoxes 0
    have h2 := bead_ts "far" 5 1.5 .fresnel (r := 1) (by norm_num) noBoxes 0
    have hf : List.finRange 3 = [0, 1, 2] := rfl
    have e0 : crowded.node 0 = bead "world" 0 10 1 .fresnel := rfl
    have e1 : crowded.node 1 = bead "glass" 0 1 1.5 .fresnel := rfl
    have e2 : crowded.node 2 = bead "far" 5 1 1.5 .fresnel := rfl
    simp only [hf, kHits, List.flatMap_cons, List.flatMap_nil, e0, e1, e2, h0, h1, h2]
    norm_num [keep, epsZero, List.filter_cons]
  show nextHit epsZero (distanceBetween ⟨0, 0, 0⟩) (crowded.intersections noBoxes ⟨0, 0, 0⟩ ⟨1, 0, 0⟩) = _
  rw [inters_eq crowded_sound noBoxes one_x, ha]
  norm_num [sortedBy_cons, sortedBy_nil, ins_nil, ins_cons, nextHit, epsZero, List.filter_cons, findContainer,
    distanceBetween, Vec3.norm, Vec3.dot, List.count_cons, Vec3.ext_iff, show ((0 : Fin 3) = 1) = False by decide, show ((0 : Fin (2 + 1)) = 2) = False by decide,
    show ((1 : Fin (2 + 1)) = 0) = False by decide, show ((1 : Fin (2 + 1)) = 2) = False by decide,
    show ((2 : Fin (2 + 1)) = 0) = False by decide, show ((2 : Fin (2 + 1)) = 1) = False by decide]

/-- **C106** (violated). A ray inside a glass ball is reflected at its surface. With the same random numbers and
another glass ball four units behind that surface it is transmitted, although it has not come near that ball: the
tracer takes the next object along the line for the medium behind the surface. -/
theorem bystander_decides : ∃ (S : LScene 1) (S' : LScene 2) (e : Fin 2 → Fin 3) (ray : Ray ℝ), Extended e S S' ∧
    Sound S' ∧ (∀ v, Visible (S'.node v).geom) ∧ Arranged S' ∧ ray.direction.dot ray.direction = 1 ∧
    (∀ w, w ∉ Set.range e → ∀ p : Vec3 ℝ, p.x ^ 2 + p.y ^ 2 + p.z ^ 2 < 4 ^ 2 → ¬ Has (S'.node w) p) ∧
    ∀ maxsteps fuel : ℕ,
    ∃ a b, (stepForward (pyOps S noBoxes low .kT) (maxsteps + 1) none (fuel + 1) ray ()).1[1]? = some a ∧
      (stepForward (pyOps S' noBoxes low .kT) (maxsteps + 1) none (fuel + 1) ray ()).1[1]? = some b ∧
      a.event = .reflect ∧ b.event = .transmit ∧ a.ray.position = ⟨1, 0, 0⟩ ∧ b.ray.position = ⟨1, 0, 0⟩ ∧
      ray.position = ⟨0, 0, 0⟩ := by
  refine ⟨glass, crowded, Fin.castSucc, outRay, crowded_extended, crowded_sound, crowded_visible, crowded_arranged,
    one_x, ?_, fun maxsteps fuel => ?_⟩
  · intro w hw p hp
    have h2 : w = 2 := by
      match w with
      | 0 => exact absurd ⟨0, rfl⟩ hw
      | 1 => exact absurd ⟨1, rfl⟩ hw
      | 2 => rfl
    subst h2
    show ¬ Has (bead "far" 5 1 1.5 .fresnel) p
    rw [(bead_has ..).1]
    intro h
    nlinarith [sq_nonneg p.y, sq_nonneg p.z, sq_nonneg (p.x - 4)]
  · have hp := out_moved
    have hpos : ∀ m, (outRay.propagate 1 m).position = ⟨(0 : ℝ) + 1, 0, 0⟩ := fun m => by rw [(hp m).1, zero_add]
    have hr1 : glass.reflectivity 1 1 (some 0) ((outRay.propagate 1 (glass.node 1).index).representation (glass.node 1).w2l) =
        .ok (some (((1.5 - 1) / (1.5 + 1)) ^ 2)) :=
      bead_reflectivity (N := ![("world", 0, 10, 1, .fresnel), ("glass", 0, 1, 1.5, .fresnel)])
      (h := 1) (c := 1) (a := 0) (q := 1) (fun v => by
        match v with
        | 0 => norm_num
        | 1 => show (0 : ℝ) < 1.5; norm_num) (.inl rfl) rfl rfl (hpos _) (hp _).2
    have hr2 : crowded.reflectivity 1 1 (some 2) ((outRay.propagate 1 (crowded.node 1).index).representation (crowded.node 1).w2l) =
        .ok (some (((1.5 - 1.5) / (1.5 + 1.5)) ^ 2)) :=
      bead_reflectivity (N := ![("world", 0, 10, 1, .fresnel), ("glass", 0, 1, 1.5, .fresnel), ("far", 5, 1, 1.5, .fresnel)])
      (h := 1) (c := 1) (a := 2) (q := 1) (fun v => by
        match v with
        | 0 => norm_num
        | 1 => show (0 : ℝ) < 1.5; norm_num
        | 2 => show (0 : ℝ) < 1.5; norm_num) (.inl rfl) rfl rfl (hpos _) (hp _).2
    have back : ∀ (N : LNode) (ray : Ray ℝ), N.l2w = slide 0 → N.w2l = slide (-0) → ray.position = ⟨1, 0, 0⟩ →
        ∀ d (s : Unit), ∃ q, N.turn ray (.ok d) s = .ok q ∧ q.1.position = ⟨1, 0, 0⟩ := by
      intro N ray h1 h2 h3 d s
      refine ⟨_, rfl, ?_⟩
      simp only [LNode.turn, Ray.representation, h1, h2, slide_point, h3]
      norm_num
    have hn1 : pyNormal (glass.node 1).geom
        ((outRay.propagate 1 (glass.node 1).index).representation (glass.node 1).w2l).position = .ok ⟨1, 0, 0⟩ :=
      (bead_normal (N := ![("world", 0, 10, 1, .fresnel), ("glass", 0, 1, 1.5, .fresnel)])
        (h := 1) (B := noBoxes) (R := low) (method := .kT) (q := 1) (.inl rfl) rfl (hpos _)).2
    have hn2 : pyNormal (crowded.node 1).geom
        ((outRay.propagate 1 (crowded.node 1).index).representation (crowded.node 1).w2l).position = .ok ⟨1, 0, 0⟩ :=
      (bead_normal (N := ![("world", 0, 10, 1, .fresnel), ("glass", 0, 1, 1.5, .fresnel), ("far", 5, 1, 1.5, .fresnel)])
        (h := 1) (B := noBoxes) (R := low) (method := .kT) (q := 1) (.inl rfl) rfl (hpos _)).2
    obtain ⟨q, hq, hq'⟩ : ∃ q, (pyOps glass noBoxes low .kT).reflect 1 1 (some 0) (outRay.propagate 1 (glass.node 1).index) () = .ok q ∧
        q.1.position = ⟨1, 0, 0⟩ := by
      unfold pyOps LScene.reflected
      have hs : (glass.node 1).surface = .fresnel := rfl
      dsimp only
      rw [hs]
      dsimp only
      rw [hn1]
      exact back _ _ rfl rfl (hp _).1 _ _
    obtain ⟨t, ht⟩ : ∃ t, pyTransmit ⟨1, 0, 0⟩ ((outRay.propagate 1 (crowded.node 1).index).representation (crowded.node 1).w2l).direction
        (crowded.node 1).index (crowded.node 2).index = some t := by
      have hdir : ((outRay.propagate 1 (crowded.node 1).index).representation (crowded.node 1).w2l).direction = ⟨1, 0, 0⟩ :=
        slide_vec _ _
      rw [hdir]
      show ∃ t, pyTransmit ⟨1, 0, 0⟩ ⟨1, 0, 0⟩ 1.5 1.5 = some t
      refine Optics.transmit_defined (u := 0.03) (by norm_num) (by norm_num) (by norm_num) one_x one_x (by norm_num) ?_
      have : pyReflectivity ⟨1, 0, 0⟩ ⟨1, 0, 0⟩ 1.5 1.5 = some (((1.5 - 1.5) / (1.5 + 1.5)) ^ 2) := by
        unfold pyReflectivity
        have hal : along ⟨1, 0, 0⟩ ⟨1, 0, 0⟩ = (⟨1, 0, 0⟩ : Vec3 ℝ) := by simp [along, Vec3.dot, Vec3.ext_iff]
        have hang : angleBetween ⟨1, 0, 0⟩ ⟨1, 0, 0⟩ = 0 := by
          unfold angleBetween
          rw [if_pos]
          norm_num [allclose]
        rw [hal, hang]
        exact Optics.reflectivity_normal (by norm_num) (by norm_num)
      rw [this]
      norm_num [PV.isReflected]
    obtain ⟨r, hr, hr'⟩ : ∃ q, (pyOps crowded noBoxes low .kT).transmit 1 1 (some 2) (outRay.propagate 1 (crowded.node 1).index) () = .ok q ∧
        q.1.position = ⟨1, 0, 0⟩ := by
      unfold pyOps LScene.transmitted
      have hs : (crowded.node 1).surface = .fresnel := rfl
      dsimp only
      rw [hs]
      dsimp only
      rw [hn2]
      dsimp only
      rw [ht]
      exact back _ _ rfl rfl (hp _).1 _ _
    have h1 := second_event (maxsteps := maxsteps) (fuel := fuel) (R := low) (method := .kT) (s := ()) (s' := ())
      (b := true) (q := q) (m := ⟨1, 0, 0⟩) glass_hit (by decide) rfl
      (bead_normal (q := 1) (.inl rfl) rfl (hpos _)).1 (by
        unfold pyOps LScene.isReflected
        dsimp only
        rw [hr1]
        norm_num [PV.isReflected, low]) (by simpa using hq)
    have h2 := second_event (maxsteps := maxsteps) (fuel := fuel) (R := low) (method := .kT) (s := ()) (s' := ())
      (b := false) (q := r) (m := ⟨1, 0, 0⟩) crowded_hit (by decide) rfl
      (bead_normal (q := 1) (.inl rfl) rfl (hpos _)).1 (by
        unfold pyOps LScene.isReflected
        dsimp only
        rw [hr2]
        norm_num [PV.isReflected, low]) (by simpa using hr)
    exact ⟨_, _, h1, h2, rfl, rfl, hq', hr', rfl⟩

end
end PV.Variants
