import Verif.Props.Moved
import Verif.Props.Phase

/-!
C104 for the engine: an apparatus that is shifted behaves in the same way; one that is turned does
not, because the engine draws directions in the frame of the world.
-/

namespace PV.Moved
open PV PV.Alike PV.Library
noncomputable section
open Classical
variable {σ : Type} {n : ℕ} {g : Affine ℝ} {S S' : LScene n}

/-- Calls of one pass, carried along. -/
def outMoved {ν κ : Type} (g : Affine ℝ) : KOut ℝ ν κ → KOut ℝ ν κ
  | .record row => .record (row.moved g)
  | .tally c => .tally c

/-- End of a pass, carried along. -/
def kNextMoved {κ : Type} (g : Affine ℝ) : KNext ℝ κ σ → KNext ℝ κ σ
  | .cont r s => .cont (r.moved g) s
  | .stop => .stop

theorem advance_moved {κ : Type} (g : Affine ℝ) (r : KRay ℝ κ) (t m : ℝ) :
    (r.moved g).advance t m = (r.advance t m).moved g := by
  have key : ∀ p d : Vec3 ℝ, (⟨p.x + d.x * t, p.y + d.y * t, p.z + d.z * t⟩ : Vec3 ℝ) = p + t • d := by
    intro p d
    ext <;> simp [mul_comm]
  simp only [KRay.moved, KRay.advance, key, Affine.point_add_smul]


/-- The two engines differ only in where things are. -/
structure KSim {ν κ : Type} (g : Affine ℝ) (K K' : KOps ℝ ν κ σ) : Prop where
  root : K'.root = K.root
  nextHit : ∀ o d, K'.nextHit (g.point o) d = K.nextHit o d
  nidx : K'.nidx = K.nidx
  depth : K'.depth = K.depth
  pick : K'.pick = K.pick
  kind : K'.kind = K.kind
  yields : K'.yields = K.yields
  phase : K'.phase = K.phase
  emission : K'.emission = K.emission
  radDelay : K'.radDelay = K.radDelay
  nrDelay : K'.nrDelay = K.nrDelay
  localPos : ∀ v p, K'.localPos v (g.point p) = K.localPos v p
  normal : ∀ v p, K'.normal v (g.point p) = K.normal v p
  acos : K'.acos = K.acos
  reflects : K'.reflects = K.reflects
  reflectDir : K'.reflectDir = K.reflectDir
  transmitDir : K'.transmitDir = K.transmitDir

theorem placed_ksim (h : ∀ v, Placed g (S.node v) (S'.node v)) (ht : ∀ v, g.vec v = v) (R : Rand σ)
    (method : EmitMethod) : KSim g (kOps S R method) (kOps S' R method) := by
  have hc : ∀ v w, (S'.node v).kCoefs w = (S.node v).kCoefs w := by
    intro v w
    unfold LNode.kCoefs
    rw [(h v).comps]
  have hv : ∀ v p, (S'.node v).w2l.vec p = (S.node v).w2l.vec p := by
    intro v p
    conv_lhs => rw [← ht p]
    exact (h v).in_vec p
  constructor
  case nextHit => intro o d; simp only [kOps, (h _).geom, (h _).in_point, hv]
  case localPos => intro v p; exact (h v).in_point p
  case normal => intro v p; simp only [kOps, (h v).geom, (h v).in_point, (h v).out_vec, ht]
  all_goals simp only [kOps, (h _).index, (h _).comps, hc, LScene.kReflects, (h _).surface]

section
variable {ν κ : Type} {K K' : KOps ℝ ν κ σ} (h : KSim g K K') (ht : ∀ v, g.vec v = v)
include h ht

theorem values_alike (v : ν) (r : KRay ℝ κ) (a : ℝ) :
    kValues K' v (r.moved g) a = kValues K v r a := by
  unfold kValues
  have : (r.moved g).position = g.point r.position := rfl
  rw [this, h.localPos]
  rfl

theorem kAbsorb_alike (c : ν) (r : KRay ℝ κ) (d : ℝ) (s : σ) :
    kAbsorb K' c (r.moved g) d s =
      (((kAbsorb K c r d s).1.map (outMoved g)), kNextMoved g (kAbsorb K c r d s).2) := by
  obtain ⟨a1, a2, a3, a4, a5, a6, a7, a8, a9, a10, a11, a12, a13, a14, a15, a16, a17⟩ := K
  obtain ⟨b1, b2, b3, b4, b5, b6, b7, b8, b9, b10, b11, b12, b13, b14, b15, b16, b17⟩ := K'
  obtain ⟨h1, h2, h3, h4, h5, h6, h7, h8, h9, h10, h11, h12, h13, h14, h15, h16, h17⟩ := h
  simp only at h1 h2 h3 h4 h5 h6 h7 h8 h9 h10 h11 h12 h13 h14 h15 h16 h17
  subst h1 h3 h4 h5 h6 h7 h8 h9 h10 h11 h14 h15 h16 h17
  unfold kAbsorb
  simp only [advance_moved]
  generalize r.advance d _ = q
  have hw : (q.moved g).wavelength = q.wavelength := rfl
  have hp : (q.moved g).position = g.point q.position := rfl
  have hd : (q.moved g).direction = q.direction := ht _
  have ha : (q.moved g).travelled = q.travelled := rfl
  have hb : (q.moved g).duration = q.duration := rfl
  have hc : (q.moved g).source = q.source := rfl
  simp only [hw, hp, hd, ha, hb, hc, kValues, h12]
  split_ifs <;>
    simp only [outMoved, Row.moved, KRay.moved, kNextMoved, ht, List.map_cons, List.map_nil,
      Option.map_none]

theorem kSurface_alike [DecidableEq ν] (hit c : ν) (a : Option ν) (r : KRay ℝ κ) (t : ℝ) (s : σ) :
    kSurface K' hit c a (r.moved g) t s =
      (((kSurface K hit c a r t s).1.map (outMoved g)), kNextMoved g (kSurface K hit c a r t s).2) := by
  obtain ⟨a1, a2, a3, a4, a5, a6, a7, a8, a9, a10, a11, a12, a13, a14, a15, a16, a17⟩ := K
  obtain ⟨b1, b2, b3, b4, b5, b6, b7, b8, b9, b10, b11, b12, b13, b14, b15, b16, b17⟩ := K'
  obtain ⟨h1, h2, h3, h4, h5, h6, h7, h8, h9, h10, h11, h12, h13, h14, h15, h16, h17⟩ := h
  simp only at h1 h2 h3 h4 h5 h6 h7 h8 h9 h10 h11 h12 h13 h14 h15 h16 h17
  subst h1 h3 h4 h5 h6 h7 h8 h9 h10 h11 h14 h15 h16 h17
  unfold kSurface
  simp only [advance_moved]
  generalize r.advance t _ = q
  cases a with
  | none => rfl
  | some adj =>
    have hw : (q.moved g).wavelength = q.wavelength := rfl
    have hp : (q.moved g).position = g.point q.position := rfl
    have hd : (q.moved g).direction = q.direction := ht _
    have ha : (q.moved g).travelled = q.travelled := rfl
    have hb : (q.moved g).duration = q.duration := rfl
    have hc : (q.moved g).source = q.source := rfl
    simp only [hw, hp, hd, ha, hb, hc, kValues, h12, h13, kIncidence]
    split_ifs <;>
      simp only [outMoved, Row.moved, KRay.moved, kNextMoved, ht, List.map_cons, List.map_nil,
        Option.map_some, List.append_nil, List.cons_append, List.nil_append]

theorem kBody_alike [DecidableEq ν] (maxsteps count : ℕ) (r : KRay ℝ κ) (s : σ) :
    kBody K' maxsteps count (r.moved g) s =
      (((kBody K maxsteps count r s).1.map (outMoved g)), kNextMoved g (kBody K maxsteps count r s).2) := by
  have hv := values_alike h ht
  unfold kBody
  have hp : (r.moved g).position = g.point r.position := rfl
  have hd : (r.moved g).direction = r.direction := ht _
  have hw : (r.moved g).wavelength = r.wavelength := rfl
  rw [hp, hd, hw, h.nextHit]
  cases K.nextHit r.position r.direction with
  | none => rfl
  | some x =>
    obtain ⟨hit, c, a, t⟩ := x
    simp only [h.root, h.nidx, h.depth, hv]
    split_ifs
    · rfl
    · have hx : ∀ x y, kExitAngle K' x y = kExitAngle K x y := by
        intro x y; simp only [kExitAngle, h.acos]
      have hd' : ∀ q : KRay ℝ κ, (q.moved g).direction = q.direction := fun q => ht _
      have hp' : ∀ q : KRay ℝ κ, (q.moved g).position = g.point q.position := fun q => rfl
      simp only [advance_moved, hv, hp', hd', h.normal, hx]
      rfl
    · cases isAbsorbed (K.depth c r.wavelength s).1 t with
      | some d => exact kAbsorb_alike h ht _ _ _ _
      | none => exact kSurface_alike h ht _ _ _ _ _ _

end

variable {ν κ : Type} [DecidableEq ν] {K K' : KOps ℝ ν κ σ}

theorem tally_moved (T : RecTables ℝ ν) (c : TallyCall ℝ ν) : ∀ (rs : List (RecRow ℝ ν)) (i : ℕ)
    (seen : ℕ → Bool), (kTallyFrom T c rs i seen : List (Effect ℝ (Row ℝ ν κ)) × (ℕ → Bool)) =
      (((kTallyFrom T c rs i seen : List (Effect ℝ (Row ℝ ν κ)) × (ℕ → Bool)).1.map (Effect.moved g)),
        (kTallyFrom T c rs i seen : List (Effect ℝ (Row ℝ ν κ)) × (ℕ → Bool)).2) := by
  intro rs
  induction rs with
  | nil => intro i seen; rfl
  | cons r rs ih =>
    intro i seen
    have h1 : (kTallyOne T c r i seen : List (Effect ℝ (Row ℝ ν κ)) × (ℕ → Bool)).1.map (Effect.moved g)
        = (kTallyOne T c r i seen).1 := by
      unfold kTallyOne
      split_ifs
      · rfl
      · simp only [List.map_cons, List.map_append, Effect.moved]
        congr 3
        unfold kBins
        rw [List.map_filterMap]
        congr 1
        funext k
        cases T.hists[k]? with
        | none => rfl
        | some row =>
          show Option.map _ (Option.map _ _) = Option.map _ _
          rw [Option.map_map]
          rfl
      · rfl
    have h2 := congrArg Prod.fst (ih (i + 1) (kTallyOne T c r i seen : List (Effect ℝ (Row ℝ ν κ)) × (ℕ → Bool)).2)
    simp only at h2
    unfold kTallyFrom
    simp only [List.map_append, h1]
    rw [← h2]

theorem run_moved (T : RecTables ℝ ν) (slot : LogSlot) : ∀ (os : List (KOut ℝ ν κ)) (nev : ℕ)
    (seen : ℕ → Bool), kRun T slot (os.map (outMoved g)) nev seen =
      (((kRun T slot os nev seen).1.map (Effect.moved g)), (kRun T slot os nev seen).2) := by
  intro os
  induction os with
  | nil => intro nev seen; rfl
  | cons o os ih =>
    intro nev seen
    cases o with
    | record row =>
      simp only [List.map_cons, outMoved, kRun, List.map_append]
      have h1 : (kRecord slot nev (row.moved g) : List (Effect ℝ (Row ℝ ν κ)) × ℕ) =
          ((kRecord slot nev row : List (Effect ℝ (Row ℝ ν κ)) × ℕ).1.map (Effect.moved g),
            (kRecord slot nev row : List (Effect ℝ (Row ℝ ν κ)) × ℕ).2) := by
        unfold kRecord
        cases slot with
        | none => rfl
        | some p =>
          obtain ⟨a, b⟩ := p
          simp only
          split_ifs <;> rfl
      rw [h1, ih]
    | tally c =>
      simp only [List.map_cons, outMoved, kRun, List.map_append]
      have h1 := tally_moved (g := g) (κ := κ) T c T.recs 0 seen
      have h2 := congrArg Prod.fst h1
      simp only at h2
      rw [ih]
      unfold kTally
      rw [← h2]

theorem kLoop_alike (h : KSim g K K') (ht : ∀ v, g.vec v = v) (T : RecTables ℝ ν) (slot : LogSlot)
    (maxsteps : ℕ) : ∀ (fuel count nev : ℕ) (seen : ℕ → Bool) (r : KRay ℝ κ) (s : σ),
    kLoop K' T slot maxsteps fuel count nev seen (r.moved g) s =
      ((kLoop K T slot maxsteps fuel count nev seen r s).1.map (Effect.moved g),
        (kLoop K T slot maxsteps fuel count nev seen r s).2) := by
  intro fuel
  induction fuel with
  | zero => intros; rfl
  | succ fuel ih =>
    intro count nev seen r s
    unfold kLoop
    by_cases hx : kExhausted slot nev = true
    · simp only [hx, if_true]
      unfold kRecord
      cases slot with
      | none => rfl
      | some p =>
        obtain ⟨a, b⟩ := p
        simp only
        split_ifs <;> rfl
    · rw [if_neg hx, if_neg hx]
      dsimp only
      rw [kBody_alike h ht]
      generalize kBody K maxsteps (count + 1) r s = b
      obtain ⟨os, nx⟩ := b
      simp only
      have hr := run_moved (g := g) T slot os nev seen
      rw [hr]
      cases nx with
      | stop => rfl
      | cont r' s' =>
        simp only [kNextMoved, ih, List.map_append]

/-- **C104** (engine). An apparatus that is shifted, world and ray included, writes what it wrote
before: the same rows of the event log carried along, and exactly the same numbers in every recorder,
for every source of random numbers, event budget and set of recorders. -/
theorem engine_shifted_partial (S : LScene n) (ht : ∀ v, g.vec v = v) {gi : Affine ℝ}
    (hi : g.Inverse gi) (R : Rand σ) (method : EmitMethod) (T : RecTables ℝ (Fin (n + 1)))
    (slot : LogSlot) (maxsteps : ℕ) (ray : KRay ℝ Comp) (s : σ) :
    kTraceOne (kOps (S.moved g gi) R method) T slot maxsteps (ray.moved g) s =
      ((kTraceOne (kOps S R method) T slot maxsteps ray s).1.map (Effect.moved g),
        (kTraceOne (kOps S R method) T slot maxsteps ray s).2) := by
  have h' : KSim g (kOps S R method) (kOps (S.moved g gi) R method) :=
    placed_ksim (S := S) (S' := S.moved g gi) (fun v => placed hi (S.node v)) ht R method
  unfold kTraceOne
  have h1 : (kRecord slot 0 (⟨.generate, none, none, none, none, ray.moved g, none⟩ :
        Row ℝ (Fin (n + 1)) Comp) : List (Effect ℝ (Row ℝ (Fin (n + 1)) Comp)) × ℕ) =
      ((kRecord slot 0 (⟨.generate, none, none, none, none, ray, none⟩ :
        Row ℝ (Fin (n + 1)) Comp) : List (Effect ℝ (Row ℝ (Fin (n + 1)) Comp)) × ℕ).1.map
          (Effect.moved g),
        (kRecord slot 0 (⟨.generate, none, none, none, none, ray, none⟩ :
        Row ℝ (Fin (n + 1)) Comp) : List (Effect ℝ (Row ℝ (Fin (n + 1)) Comp)) × ℕ).2) := by
    unfold kRecord
    cases slot with
    | none => rfl
    | some p =>
      obtain ⟨a, b⟩ := p
      simp only
      split_ifs <;> rfl
  rw [h1]
  simp only [kLoop_alike h' ht, List.map_append]

/-- A pass that ends with a new direction, in two engines that draw the same numbers from the same
components. -/
theorem kAbsorb_turned {ν κ : Type} {K K' : KOps ℝ ν κ σ} (e1 : K'.nidx = K.nidx) (e2 : K'.pick = K.pick)
    (e3 : K'.kind = K.kind) (e4 : K'.yields = K.yields) (e5 : K'.phase = K.phase)
    (e6 : K'.emission = K.emission) (e7 : K'.radDelay = K.radDelay) (c : ν) (ray ray' : KRay ℝ κ)
    (d : ℝ) (s s' : σ) (he : (kAbsorb K c ray d s).2 = .cont ray' s') :
    ∃ ray'', (kAbsorb K' c (ray.moved g) d s).2 = .cont ray'' s' ∧
      ray''.position = g.point ray'.position ∧ ray''.direction = ray'.direction := by
  obtain ⟨a1, a2, a3, a4, a5, a6, a7, a8, a9, a10, a11, a12, a13, a14, a15, a16, a17⟩ := K
  obtain ⟨b1, b2, b3, b4, b5, b6, b7, b8, b9, b10, b11, b12, b13, b14, b15, b16, b17⟩ := K'
  simp only at e1 e2 e3 e4 e5 e6 e7
  subst e1 e2 e3 e4 e5 e6 e7
  unfold kAbsorb at he ⊢
  simp only [advance_moved] at he ⊢
  generalize ray.advance d _ = q at he ⊢
  have hw : (q.moved g).wavelength = q.wavelength := rfl
  rw [hw]
  generalize (if b6 (b5 c q.wavelength s).1 = CompKind.scatterer ∨
    b6 (b5 c q.wavelength s).1 = CompKind.luminophore then b7 (b5 c q.wavelength s).1 (b5 c q.wavelength s).2
    else (false, (b5 c q.wavelength s).2)) = y at he ⊢
  by_cases h1 : y.1 = true
  · rw [if_pos h1] at he ⊢
    by_cases h2 : b6 (b5 c q.wavelength s).1 = CompKind.luminophore
    · rw [if_pos h2] at he ⊢
      simp only [KNext.cont.injEq] at he ⊢
      obtain ⟨rfl, rfl⟩ := he
      exact ⟨_, ⟨rfl, rfl⟩, rfl, rfl⟩
    · rw [if_neg h2] at he ⊢
      simp only [KNext.cont.injEq] at he ⊢
      obtain ⟨rfl, rfl⟩ := he
      exact ⟨_, ⟨rfl, rfl⟩, rfl, rfl⟩
  · rw [if_neg h1] at he
    exact absurd he (by simp)

/-- **C104** (violated by the engine). Whatever the motion, a ray that is absorbed and re-emitted gets
the direction it would have got without the motion, not the carried one: the engine takes the drawn
direction as a direction of the world. -/
theorem engine_emission_not_turned (S : LScene n) (gi : Affine ℝ) (R : Rand σ)
    (method : EmitMethod) (c : Fin (n + 1)) (ray ray' : KRay ℝ Comp) (d : ℝ) (s s' : σ)
    (he : (kAbsorb (kOps S R method) c ray d s).2 = .cont ray' s') :
    ∃ ray'', (kAbsorb (kOps (S.moved g gi) R method) c (ray.moved g) d s).2 = .cont ray'' s' ∧
      ray''.position = g.point ray'.position ∧ ray''.direction = ray'.direction := by
  exact kAbsorb_turned (K := kOps S R method) (K' := kOps (S.moved g gi) R method) rfl rfl rfl rfl rfl
    rfl rfl c ray ray' d s s' he

end
end PV.Moved
