import Verif.Lemmas.Parts
import Verif.Props.Compile
import Verif.Props.Agreement

/-!
C125: what counts is the sum of the coefficients.
-/

namespace PV.Parts
noncomputable section
open PV PV.Library PV.Spec
set_option linter.unusedSectionVars false
variable {σ : Type} {n : ℕ} {f : String → String}

/-- `p` does what `c` does. -/
def Part (f : String → String) (c p : Comp) : Prop := p = { c with name := p.name, absDist := p.absDist } ∧ f p.name = c.name

theorem coefficients_append {l m : List Comp} {w : ℝ} {xs ys : List ℝ} (h : coefficients l w = .ok xs)
    (h' : coefficients m w = .ok ys) : coefficients (l ++ m) w = .ok (xs ++ ys) := by
  unfold coefficients at *
  rw [List.mapM_append, h, h']
  rfl

theorem coefficients_cons {c : Comp} {m : List Comp} {w x : ℝ} {ys : List ℝ} (h : c.coefficient w = .ok x)
    (h' : coefficients m w = .ok ys) : coefficients (c :: m) w = .ok (x :: ys) := by
  unfold coefficients at *
  rw [List.mapM_cons, h, h']
  rfl

theorem coefs_parts (w : ℝ) : ∀ {comps : List Comp} {pss : List (List Comp)}, List.Forall₂ (PartsOf f) comps pss →
    ∃ (xs ys : List ℝ) (gs : List (List (Comp × ℝ))), coefficients comps w = .ok xs ∧ coefficients pss.flatten w = .ok ys ∧
      (∀ x ∈ xs, 0 ≤ x) ∧ (∀ y ∈ ys, 0 ≤ y) ∧ xs.sum = ys.sum ∧
      List.Forall₂ (fun e g => g ≠ [] ∧ (∀ x ∈ g, 0 ≤ x.2 ∧ Part f e.1 x.1) ∧ e.2 = (g.map (·.2)).sum) (comps.zip xs) gs ∧
      gs.flatten = pss.flatten.zip ys
  | [], _, .nil => ⟨[], [], [], rfl, rfl, by simp, by simp, rfl, .nil, rfl⟩
  | c :: comps, ps :: pss, .cons h hs => by
    obtain ⟨xs, ys, gs, h1, h2, h3, h4, h5, h6, h7⟩ := coefs_parts w hs
    obtain ⟨zs, z1, z2, z3⟩ := h.adds w
    have hl : zs.length = ps.length := ((coefficients_ok z1).length_eq).symm
    have hz : (ps.zip zs).map (·.2) = zs := List.map_snd_zip (by omega)
    refine ⟨zs.sum :: xs, zs ++ ys, ps.zip zs :: gs, coefficients_cons z3 h1, coefficients_append z1 h2, ?_, ?_, ?_, ?_, ?_⟩
    · intro x hx
      rcases List.mem_cons.1 hx with rfl | hx
      · exact List.sum_nonneg z2
      · exact h3 x hx
    · intro y hy
      rcases List.mem_append.1 hy with hy | hy
      · exact z2 y hy
      · exact h4 y hy
    · simp [h5]
    · refine .cons ⟨?_, ?_, ?_⟩ h6
      · intro he
        have : (ps.zip zs).length = 0 := by rw [he]; rfl
        rw [List.length_zip, hl, Nat.min_self] at this
        exact h.some (List.length_eq_zero_iff.1 this)
      · rintro ⟨p, x⟩ hx
        obtain ⟨hp, hx'⟩ := List.of_mem_zip hx
        exact ⟨z2 x hx', h.same p hp, h.name p hp⟩
      · rw [hz]
    · rw [List.flatten_cons, List.flatten_cons, h7, List.zip_append hl.symm]

/-- `S` with other components. -/
def withComps (S : LScene n) (C : Fin (n + 1) → List Comp) : LScene n := ⟨fun v => { S.node v with comps := C v }⟩

theorem split_form {S S' : LScene n} (h : Split f S S') : ∃ C, S' = withComps S C := by
  refine ⟨fun v => (S'.node v).comps, ?_⟩
  cases S' with
  | mk node =>
    congr 1
    funext v
    exact h.node v

theorem python_sim {S S' : LScene n} (h : Split f S S') {R : Rand σ} (hR : R.Unit) (B : Trimesh) (method : EmitMethod) :
    Sim f (Part f) (pyOps S B R method) (pyOps S' B R method) := by
  obtain ⟨C, rfl⟩ := split_form h
  have hparts := h.parts
  constructor
  · rfl
  · rfl
  · rfl
  · rfl
  · rfl
  · rfl
  · funext v w s
    obtain ⟨pss, hp, hc⟩ := hparts v
    obtain ⟨xs, ys, gs, h1, h2, h3, h4, h5, -⟩ := coefs_parts w hp
    show penetrationDepth R ((withComps S C).node v).comps w s = penetrationDepth R (S.node v).comps w s
    unfold penetrationDepth
    rw [hc, h1, h2]
    dsimp only
    rw [h5]
  · intro v w s₀ d s₁ s hd
    obtain ⟨pss, hp, hc⟩ := hparts v
    obtain ⟨xs, ys, gs, h1, h2, h3, h4, h5, h6, h7⟩ := coefs_parts w hp
    have hpos : 0 < xs.sum := by
      change penetrationDepth R (S.node v).comps w s₀ = .ok (some d, s₁) at hd
      unfold penetrationDepth at hd
      rw [h1] at hd
      dsimp only at hd
      rcases (List.sum_nonneg h3).lt_or_eq with h' | h'
      · exact h'
      · rw [if_pos (by rw [← h']; norm_num)] at hd
        cases hd
    obtain ⟨h0, h1'⟩ := hR s
    obtain ⟨i, i1, i2, i3⟩ := pick_walk (coefficients_ok h1).length_eq.symm h3 hpos h0 h1'
    obtain ⟨j, j1, j2, j3⟩ := pick_walk (coefficients_ok h2).length_eq.symm h4 (h5 ▸ hpos) h0 h1'
    have hw := walk_parts edge_lt h6 ((R.next s).1 * xs.sum)
    rw [h7, i3, h5, j3] at hw
    have hi : i < (S.node v).comps.length := by rw [(coefficients_ok h1).length_eq]; exact i2
    have hj : j < pss.flatten.length := by rw [(coefficients_ok h2).length_eq]; exact j2
    rw [List.getElem?_eq_getElem hi, List.getElem?_eq_getElem hj] at hw
    cases hw with
    | some hw =>
      refine ⟨_, _, (R.next s).2, ?_, ?_, hw⟩
      · show pickComponent R (S.node v).comps w s = _
        unfold pickComponent
        rw [h1]
        dsimp only
        rw [i1]
        dsimp only
        rw [List.getElem?_eq_getElem hi]
      · show pickComponent R ((withComps S C).node v).comps w s = _
        unfold pickComponent
        rw [hc, h2]
        dsimp only
        rw [j1]
        dsimp only
        rw [List.getElem?_eq_getElem hj]
  · rintro c p ⟨-, hn⟩
    exact hn
  · rintro c p ⟨he, -⟩
    rw [he]
    rfl
  · rintro c p ⟨he, -⟩ r s
    rw [he]
    rfl
  · rintro c p ⟨he, hn⟩ v r s
    show (match c.emit R method ((r.renamed f).representation (S.node v).w2l) s with
      | .error e => Except.error e
      | .ok (ray, s) => .ok (ray.representation (S.node v).l2w, s)) = _
    have key : c.emit R method ((r.renamed f).representation (S.node v).w2l) s =
        (p.emit R method (r.representation (S.node v).w2l) s).map (Prod.map (·.renamed f) id) := by
      unfold Comp.emit
      have e1 : p.phase = c.phase := by rw [he]
      have e2 : p.kind = c.kind := by rw [he]
      have e3 : p.emsDist = c.emsDist := by rw [he]
      have e4 : p.tauRad = c.tauRad := by rw [he]
      rw [e1, e2, e3, e4, ← hn]
      rcases c.phase.draw R s with e | ⟨d, s⟩
      · rfl
      dsimp only
      split_ifs
      · have ew : ((r.renamed f).representation (S.node v).w2l).wavelength = (r.representation (S.node v).w2l).wavelength := rfl
        rw [ew]
        rcases emitWavelength c.emsDist method (r.representation (S.node v).w2l).wavelength (R.next s).1 with e | w
        · rfl
        dsimp only
        rcases truthy c.tauRad with _ | t <;> rfl
      · rfl
    rw [key]
    show _ = Except.map _ (match p.emit R method (r.representation (S.node v).w2l) s with
      | .error e => Except.error e
      | .ok (ray, s) => .ok (ray.representation (S.node v).l2w, s))
    rcases p.emit R method (r.representation (S.node v).w2l) s with e | ⟨r', s'⟩ <;> rfl
  · rintro c p ⟨he, hn⟩ r s
    show Except.ok (c.nonradiativeAbsorb R (r.renamed f) s) = Except.map _ (Except.ok (p.nonradiativeAbsorb R r s))
    have e1 : p.tauNr = c.tauNr := by rw [he]
    unfold Comp.nonradiativeAbsorb
    rw [e1]
    rcases truthy c.tauNr with _ | t <;> rfl
  · rfl
  · intro h c a r s
    rfl
  · intro h c a r s
    show (S.node h).turn (r.renamed f) (S.reflected h (r.representation (S.node h).w2l)) s =
      Except.map _ ((S.node h).turn r (S.reflected h (r.representation (S.node h).w2l)) s)
    rcases S.reflected h (r.representation (S.node h).w2l) with e | d <;> rfl
  · intro h c a r s
    show (S.node h).turn (r.renamed f) (S.transmitted h c a (r.representation (S.node h).w2l)) s =
      Except.map _ ((S.node h).turn r (S.transmitted h c a (r.representation (S.node h).w2l)) s)
    rcases S.transmitted h c a (r.representation (S.node h).w2l) with e | d <;> rfl

/-- **C125**, Python. With the same random numbers, the histories in a scene whose components are written as parts are
those of the scene with whole components, but for the names. -/
theorem python_split {S S' : LScene n} (h : Split f S S') {R : Rand σ} (hR : R.Unit) (B : Trimesh) (method : EmitMethod)
    (maxsteps : ℕ) (maxpath : Option ℝ) (ray : Ray ℝ) (s : σ) :
    stepForward (pyOps S B R method) maxsteps maxpath (maxsteps + 1) (ray.renamed f) s =
      ((stepForward (pyOps S' B R method) maxsteps maxpath (maxsteps + 1) ray s).1.map (·.renamed f),
        (stepForward (pyOps S' B R method) maxsteps maxpath (maxsteps + 1) ray s).2) := by
  unfold stepForward
  rw [loop_parts (python_sim h hR B method)]
  rfl

/-! ### Engine -/

/-- What is left of a component when its coefficient is forgotten and its name is `f` of it. -/
def strip (f : String → String) (c : Comp) : Comp := { c with name := f c.name, absDist := .const 0 }

theorem strip_part {c p : Comp} (h : Part f c p) : strip f p = strip id c := by
  obtain ⟨he, hn⟩ := h
  unfold strip
  rw [hn, he]
  rfl

/-- The engine's scene with forgotten coefficients. -/
def blind (S : LScene n) (R : Rand σ) (method : EmitMethod) : KOps ℝ (Fin (n + 1)) Comp σ :=
  { kOps S R method with pick := fun v w s => (strip id ((kOps S R method).pick v w s).1, ((kOps S R method).pick v w s).2) }

theorem whole_names (S : LScene n) (R : Rand σ) (method : EmitMethod) :
    (kOps S R method).Names (blind S R method) id (strip id) fun _ => True where
  inj := Function.injective_id
  root := rfl
  nextHit o d := by
    show (kOps S R method).nextHit o d = ((kOps S R method).nextHit o d).map _
    cases (kOps S R method).nextHit o d with
    | none => rfl
    | some x => obtain ⟨a, b, c, d⟩ := x; simp
  nidx _ := rfl
  depth _ _ _ := rfl
  pick _ _ _ _ _ _ := ⟨trivial, rfl⟩
  kind _ _ := rfl
  yields _ _ _ := rfl
  phase _ _ _ := rfl
  emission _ _ _ _ _ := rfl
  radDelay _ _ _ := rfl
  nrDelay _ _ _ := rfl
  localPos _ _ := rfl
  normal _ _ := rfl
  acos _ := rfl
  reflects _ _ _ _ _ _ := rfl
  reflectDir _ _ := rfl
  transmitDir _ _ _ _ _ := rfl

theorem split_names {S S' : LScene n} (h : Split f S S') (hS : Accepted S) (hS' : Accepted S') {R : Rand σ} (hR : R.Unit)
    (method : EmitMethod) : (kOps S' R method).Names (blind S R method) id (strip f) fun _ => True := by
  obtain ⟨C, rfl⟩ := split_form h
  have hparts := h.parts
  have hcoefs : ∀ v w, ∃ (xs ys : List ℝ) (gs : List (List (Comp × ℝ))), (S.node v).kCoefs w = xs ∧
      ((withComps S C).node v).kCoefs w = ys ∧ xs.sum = ys.sum ∧ xs.length = (S.node v).comps.length ∧
      ys.length = ((withComps S C).node v).comps.length ∧
      List.Forall₂ (fun e g => g ≠ [] ∧ (∀ x ∈ g, 0 ≤ x.2 ∧ Part f e.1 x.1) ∧ e.2 = (g.map (·.2)).sum) ((S.node v).comps.zip xs) gs ∧
      gs.flatten = ((withComps S C).node v).comps.zip ys := by
    intro v w
    obtain ⟨pss, hp, hc⟩ := hparts v
    obtain ⟨xs, ys, gs, h1, h2, h3, h4, h5, h6, h7⟩ := coefs_parts w hp
    rw [← hc] at h2 h7
    exact ⟨xs, ys, gs, kCoefs_eq hS v h1, kCoefs_eq hS' v h2, h5, (coefficients_ok h1).length_eq.symm,
      (coefficients_ok h2).length_eq.symm, h6, h7⟩
  refine
    { inj := Function.injective_id
      root := rfl
      nextHit := ?_
      nidx := fun _ => rfl
      depth := ?_
      pick := ?_
      kind := fun _ _ => rfl
      yields := fun _ _ _ => rfl
      phase := fun _ _ _ => rfl
      emission := fun _ _ _ _ _ => rfl
      radDelay := fun _ _ _ => rfl
      nrDelay := fun _ _ _ => rfl
      localPos := fun _ _ => rfl
      normal := fun _ _ => rfl
      acos := fun _ => rfl
      reflects := fun _ _ _ _ _ _ => rfl
      reflectDir := fun _ _ => rfl
      transmitDir := fun _ _ _ _ _ => rfl }
  · intro o d
    show (kOps S R method).nextHit o d = ((kOps S R method).nextHit o d).map _
    cases (kOps S R method).nextHit o d with
    | none => rfl
    | some x => obtain ⟨a, b, c, d⟩ := x; simp
  · intro v w s
    obtain ⟨xs, ys, gs, h1, h2, h3, -⟩ := hcoefs v w
    show kDepth R (((withComps S C).node v).kCoefs w).sum s = kDepth R ((S.node v).kCoefs w).sum s
    rw [h1, h2, h3]
  · intro v w s₀ d s hd
    obtain ⟨xs, ys, gs, h1, h2, h3, h4, h5, h6, h7⟩ := hcoefs v w
    refine ⟨trivial, ?_⟩
    have hpos : 0 < xs.sum := by
      change (kDepth R ((S.node v).kCoefs w).sum s₀).1 = some d at hd
      rw [h1] at hd
      unfold kDepth at hd
      split_ifs at hd with ha
      · linarith
    have hu := (hR s).2.le
    obtain ⟨i2, i3⟩ := kPick_walk (comps := (S.node v).comps) h4 hpos hu
    obtain ⟨j2, j3⟩ := kPick_walk (comps := ((withComps S C).node v).comps) h5 (h3 ▸ hpos) hu
    have hw := walk_parts edge_le h6 ((R.next s).1 * xs.sum)
    rw [h7, i3, h3, j3] at hw
    show (strip id (((S.node v).comps[kPick ((S.node v).kCoefs w) (R.next s).1]?).getD noComp), (R.next s).2) =
      (strip f ((((withComps S C).node v).comps[kPick (((withComps S C).node v).kCoefs w) (R.next s).1]?).getD noComp), (R.next s).2)
    rw [h1, h2]
    rw [h4] at i2
    rw [h5] at j2
    rw [List.getElem?_eq_getElem i2, List.getElem?_eq_getElem j2] at hw ⊢
    cases hw with
    | some hw => rw [Option.getD_some, Option.getD_some, strip_part hw]

theorem recs_id (T : RecTables ℝ (Fin (n + 1))) : T.map id = T := by
  cases T with
  | mk recs hists total =>
    unfold RecTables.map
    congr 1
    exact List.map_id _

theorem event_renamed {S S' : LScene n} (h : Split f S S') (src : Option String) {a b : Row ℝ (Fin (n + 1)) Comp}
    (hab : a.map id (strip id) = b.map id (strip f)) :
    eventOf (names S) (src.map f) a = (eventOf (names S') src b).renamed f := by
  obtain ⟨C, rfl⟩ := split_form h
  let N : KNames (Fin (n + 1)) Comp := names S
  have h1 : eventOf (names S) (src.map f) a = eventOf N (src.map f) (a.map id (strip id)) := by
    simp only [eventOf, Row.map, KRay.mapC, Option.map_map, Option.map_id, id]
    rfl
  have h2 : (eventOf (names (withComps S C)) src b).renamed f = eventOf N (src.map f) (b.map id (strip f)) := by
    simp only [eventOf, Row.map, KRay.mapC, Option.map_map, Option.map_id, id, Step.renamed, Ray.renamed]
    congr 2
    cases b.ray.source <;> rfl
  rw [h1, h2, hab]

/-- **C125**, engine. For every bundle of rays, all limits, recorders, random streams and schedules, the engine's histories in
a scene whose components are written as parts are those of the scene with whole components, but for the names, and all
recorders show the same counts, sums and bins. -/
theorem engine_split {S S' : LScene n} (h : Split f S S') (hS : Accepted S) (hS' : Accepted S') {R : Rand σ} (hR : R.Unit)
    (method : EmitMethod) (recs : RecTables ℝ (Fin (n + 1))) (maxsteps maxEvents recordEvery : ℕ)
    (bundle : List (Launch ℝ Empty σ)) (sources : List (Option String))
    (hs : sources.length = bundle.length) (threads threads' : ℕ)
    (es es' : List (Tagged ℝ (Row ℝ (Fin (n + 1)) Comp)))
    (he : Execution bundle.length threads (kRay (kOps S R method) recs maxsteps maxEvents
      recordEvery (bundle.map (Launch.mapC Empty.elim))) es)
    (he' : Execution bundle.length threads' (kRay (kOps S' R method) recs maxsteps maxEvents
      recordEvery (bundle.map (Launch.mapC Empty.elim))) es') :
    histories (names S) (Mem.exec es) recordEvery maxEvents (sources.map (Option.map f)) =
      (histories (names S') (Mem.exec es') recordEvery maxEvents sources).map (List.map (List.map (·.renamed f))) ∧
    (Mem.exec es).merged threads = (Mem.exec es').merged threads' := by
  have hray : ∀ i, (kRay (kOps S R method) recs maxsteps maxEvents recordEvery (bundle.map (Launch.mapC Empty.elim)) i).map
      (onTables (strip id)) = (kRay (kOps S' R method) recs maxsteps maxEvents recordEvery
        (bundle.map (Launch.mapC Empty.elim)) i).map (onTables (strip f)) := by
    intro i
    have a := kRay_names (whole_names S R method) recs maxsteps maxEvents recordEvery
      (bundle.map (Launch.mapC (Empty.elim : Empty → Comp))) i
    have b := kRay_names (split_names h hS hS' hR method) recs maxsteps maxEvents recordEvery
      (bundle.map (Launch.mapC (Empty.elim : Empty → Comp))) i
    rw [recs_id, Compile.launch_empty] at a b
    rw [a, b]
  constructor
  · rw [EventLog.histories_exact (kOps S R method) recs (names S) maxsteps maxEvents
      recordEvery (bundle.map (Launch.mapC Empty.elim)) (sources.map (Option.map f)) (by simpa using hs) threads es (by simpa using he),
      EventLog.histories_exact (kOps S' R method) recs (names S') maxsteps maxEvents
      recordEvery (bundle.map (Launch.mapC Empty.elim)) sources (by simpa using hs) threads' es' (by simpa using he')]
    rw [Option.map_some, List.map_map]
    congr 1
    simp only [List.length_map]
    apply List.map_congr_left
    intro j _
    have hj := congrArg loggedRows (hray (j * recordEvery))
    rw [onTables, onTables, Compile.logged_map, Compile.logged_map] at hj
    rw [Function.comp_apply, List.map_map]
    refine Compile.map_of_map hj fun x y hxy => ?_
    rw [Function.comp_apply, ← event_renamed h _ hxy]
    congr 1
    rw [List.getElem?_map]
    cases sources[j * recordEvery]? <;> rfl
  · have key : ∀ {M : Type} [AddCommMonoid M] (d : Effect ℝ (Row ℝ (Fin (n + 1)) Comp) → M),
        (∀ g e, d e = d (onTables (strip g) e)) →
        (es.map fun e => d e.effect).sum = (es'.map fun e => d e.effect).sum := by
      intro M _ d hd
      rw [PV.Execution.sum_eq he d, PV.Execution.sum_eq he' d]
      refine Finset.sum_congr rfl fun i _ => ?_
      have h1 : d = d ∘ onTables (strip id) := funext (hd id)
      have h2 : d = d ∘ onTables (strip f) := funext (hd f)
      conv_lhs => rw [h1, ← List.map_map]
      conv_rhs => rw [h2, ← List.map_map]
      rw [hray i]
    obtain ⟨a1, a2, a3, a4⟩ := merged_exec threads es he.tid_lt
    obtain ⟨b1, b2, b3, b4⟩ := merged_exec threads' es' he'.tid_lt
    have e1 : ((Mem.exec es).merged threads).distinct = ((Mem.exec es').merged threads').distinct := by
      rw [a1, b1]; funext k
      exact key (dDistinct k) fun g e => by cases e <;> rfl
    have e2 : ((Mem.exec es).merged threads).cross = ((Mem.exec es').merged threads').cross := by
      rw [a2, b2]; funext k
      exact key (dCross k) fun g e => by cases e <;> rfl
    have e3 : ((Mem.exec es).merged threads).sums = ((Mem.exec es').merged threads').sums := by
      rw [a3, b3]; funext k
      exact key (dSum k) fun g e => by cases e <;> rfl
    have e4 : ((Mem.exec es).merged threads).bins = ((Mem.exec es').merged threads').bins := by
      rw [a4, b4]; funext k
      exact key (dBin k) fun g e => by cases e <;> rfl
    generalize (Mem.exec es).merged threads = A at *
    generalize (Mem.exec es').merged threads' = B at *
    cases A; cases B
    simp_all

end
end PV.Parts
