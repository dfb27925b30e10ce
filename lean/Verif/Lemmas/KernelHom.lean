import Verif.Model.EngineResult

/-!
Two descriptions of one compiled scene: rays traced with one are the rays traced with the other, up
to the names of nodes and components.
-/

namespace PV
set_option linter.unusedSectionVars false
variable {α ν ν' ν'' κ κ' κ'' σ : Type}

/-- Renaming of components in the state of a ray. -/
def KRay.mapC (g : κ → κ') (r : KRay α κ) : KRay α κ' :=
  ⟨r.position, r.direction, r.wavelength, r.travelled, r.duration, r.source.map g⟩

/-- Renaming of nodes and components in a row of the log. -/
def Row.map (e : ν → ν') (g : κ → κ') (r : Row α ν κ) : Row α ν' κ' :=
  ⟨r.kind, r.hit.map e, r.container.map e, r.adjacent.map e, r.component.map g, r.ray.mapC g,
    r.normal⟩

def TallyCall.map (e : ν → ν') (c : TallyCall α ν) : TallyCall α ν' :=
  ⟨c.sel, e c.node, c.normal, c.values⟩

def KOut.map (e : ν → ν') (g : κ → κ') : KOut α ν κ → KOut α ν' κ'
  | .record r => .record (r.map e g)
  | .tally c => .tally (c.map e)

def KNext.map (g : κ → κ') : KNext α κ σ → KNext α κ' σ
  | .cont r s => .cont (r.mapC g) s
  | .stop => .stop

def Effect.map {ρ ρ' : Type} (f : ρ → ρ') : Effect α ρ → Effect α ρ'
  | .write i r => .write i (f r)
  | .count i n => .count i n
  | .distinct r => .distinct r
  | .cross r => .cross r
  | .sum i v => .sum i v
  | .bin i => .bin i

def RecTables.map (e : ν → ν') (T : RecTables α ν) : RecTables α ν' :=
  ⟨T.recs.map fun r => ⟨e r.node, r.event, r.facet, r.atol, r.histStart, r.histN⟩, T.hists,
    T.totalBins⟩

/-- `K` is `K'` with node `v` called `e v`, and with names of components that `g` resolves. `Q` holds
for the names in use. -/
structure KOps.Names (K : KOps α ν κ σ) (K' : KOps α ν' κ' σ) (e : ν' → ν) (g : κ → κ')
    (Q : κ → Prop) : Prop where
  inj : Function.Injective e
  root : K.root = e K'.root
  nextHit : ∀ o d, K.nextHit o d =
    (K'.nextHit o d).map fun x => (e x.1, e x.2.1, x.2.2.1.map e, x.2.2.2)
  nidx : ∀ v, K.nidx (e v) = K'.nidx v
  depth : ∀ v w s, K.depth (e v) w s = K'.depth v w s
  pick : ∀ v w s₀ d s, (K'.depth v w s₀).1 = some d → Q (K.pick (e v) w s).1 ∧
    (K'.pick v w s) = (g (K.pick (e v) w s).1, (K.pick (e v) w s).2)
  kind : ∀ c, Q c → K.kind c = K'.kind (g c)
  yields : ∀ c s, Q c → K.yields c s = K'.yields (g c) s
  phase : ∀ c s, Q c → K.phase c s = K'.phase (g c) s
  emission : ∀ c w s, Q c → K.kind c = .luminophore → K.emission c w s = K'.emission (g c) w s
  radDelay : ∀ c s, Q c → K.radDelay c s = K'.radDelay (g c) s
  nrDelay : ∀ c s, Q c → K.nrDelay c s = K'.nrDelay (g c) s
  localPos : ∀ v p, K.localPos (e v) p = K'.localPos v p
  normal : ∀ v p, K.normal (e v) p = K'.normal v p
  acos : ∀ x, K.acos x = K'.acos x
  reflects : ∀ h c a n d s, K.reflects (e h) (e c) (e a) n d s = K'.reflects h c a n d s
  reflectDir : ∀ d n, K.reflectDir d n = K'.reflectDir d n
  transmitDir : ∀ h c a n d, K.transmitDir (e h) (e c) (e a) n d = K'.transmitDir h c a n d

section
variable [Field α] [LinearOrder α]

theorem KRay.mapC_advance (g : κ → κ') (r : KRay α κ) (t n : α) :
    (r.advance t n).mapC g = (r.mapC g).advance t n := rfl

variable {K : KOps α ν κ σ} {K' : KOps α ν' κ' σ} {e : ν' → ν} {g : κ → κ'} {Q : κ → Prop}

theorem kValues_names (H : K.Names K' e g Q) (v : ν') (r : KRay α κ) (a : α) :
    kValues K (e v) r a = kValues K' v (r.mapC g) a := by
  simp only [kValues, KRay.mapC, H.localPos]

/-- The relation between what the two tracers do in a pass. -/
def SameOut (e : ν' → ν) (g : κ → κ') (a : List (KOut α ν κ) × KNext α κ σ)
    (b : List (KOut α ν' κ') × KNext α κ' σ) : Prop :=
  a.1.map (KOut.map id g) = b.1.map (KOut.map e id) ∧ a.2.map g = b.2

theorem kAbsorb_emit (K : KOps α ν κ σ) {v : ν} {r : KRay α κ} {d dl w : α} {s s1 s2 s3 s4 s5 : σ}
    {c : κ} {dir : Vec3 α} (hp : K.pick v (r.advance d (K.nidx v)).wavelength s = (c, s1))
    (hk : K.kind c = .luminophore) (hy : K.yields c s1 = (true, s2)) (hf : K.phase c s2 = (dir, s3))
    (he : K.emission c (r.advance d (K.nidx v)).wavelength s3 = (w, s4))
    (hr : K.radDelay c s4 = (dl, s5)) :
    kAbsorb K v r d s =
      ([.record ⟨.absorb, none, some v, none, some c, r.advance d (K.nidx v), none⟩,
        .record ⟨.emit, none, some v, none, some c,
          { r.advance d (K.nidx v) with
            direction := dir, source := some c, wavelength := w,
            duration := (r.advance d (K.nidx v)).duration + dl }, none⟩],
        .cont { r.advance d (K.nidx v) with
            direction := dir, source := some c, wavelength := w,
            duration := (r.advance d (K.nidx v)).duration + dl } s5) := by
  simp [kAbsorb, hp, hk, hy, hf, he, hr]

theorem kAbsorb_scatter (K : KOps α ν κ σ) {v : ν} {r : KRay α κ} {d : α} {s s1 s2 s3 : σ}
    {c : κ} {dir : Vec3 α} (hp : K.pick v (r.advance d (K.nidx v)).wavelength s = (c, s1))
    (hk : K.kind c = .scatterer) (hy : K.yields c s1 = (true, s2))
    (hf : K.phase c s2 = (dir, s3)) :
    kAbsorb K v r d s =
      ([.record ⟨.absorb, none, some v, none, some c, r.advance d (K.nidx v), none⟩,
        .record ⟨.scatter, none, some v, none, some c,
          { r.advance d (K.nidx v) with direction := dir, source := some c }, none⟩],
        .cont { r.advance d (K.nidx v) with direction := dir, source := some c } s3) := by
  simp [kAbsorb, hp, hk, hy, hf]

theorem kAbsorb_lost (K : KOps α ν κ σ) {v : ν} {r : KRay α κ} {d dl : α} {s s1 s2 s3 : σ}
    {c : κ} (hp : K.pick v (r.advance d (K.nidx v)).wavelength s = (c, s1))
    (hy : (if K.kind c = .scatterer ∨ K.kind c = .luminophore then K.yields c s1
      else (false, s1)) = (false, s2)) (hr : K.nrDelay c s2 = (dl, s3)) :
    kAbsorb K v r d s =
      ([.record ⟨.absorb, none, some v, none, some c, r.advance d (K.nidx v), none⟩,
        .record ⟨if K.kind c = .reactor then .react else .nonradiative, none, some v, none, some c,
          { r.advance d (K.nidx v) with duration := (r.advance d (K.nidx v)).duration + dl }, none⟩,
        .tally ⟨if K.kind c = .reactor then .reacted else .lost, v, none,
          kValues K v { r.advance d (K.nidx v) with
            duration := (r.advance d (K.nidx v)).duration + dl } 0⟩], .stop) := by
  simp [kAbsorb, hp, hy, hr]

theorem kAbsorb_names (H : K.Names K' e g Q) (v : ν') (r : KRay α κ) (d : α) (s₀ s : σ)
    (hd : (K'.depth v r.wavelength s₀).1 = some d) :
    SameOut e g (kAbsorb K (e v) r d s) (kAbsorb K' v (r.mapC g) d s) := by
  obtain ⟨hQ, hp'⟩ := H.pick v r.wavelength s₀ d s hd
  generalize hp : K.pick (e v) r.wavelength s = c at hQ hp'
  obtain ⟨c, s1⟩ := c
  dsimp only at hQ hp'
  have hk := H.kind c hQ
  generalize hy : (if K.kind c = CompKind.scatterer ∨ K.kind c = CompKind.luminophore then
    K.yields c s1 else (false, s1)) = y
  obtain ⟨y, s2⟩ := y
  cases y with
  | true =>
    have hre : K.kind c = CompKind.scatterer ∨ K.kind c = CompKind.luminophore := by
      by_contra hx
      rw [if_neg hx] at hy
      simp at hy
    rw [if_pos hre] at hy
    generalize hf : K.phase c s2 = f
    obtain ⟨dir, s3⟩ := f
    rcases hre with hs | hl
    · rw [kAbsorb_scatter K hp hs hy hf,
        kAbsorb_scatter K' hp' (hk ▸ hs) (H.yields c s1 hQ ▸ hy) (H.phase c s2 hQ ▸ hf)]
      exact ⟨by simp [KOut.map, Row.map, KRay.mapC, KRay.advance, H.nidx],
        by simp [KNext.map, KRay.mapC, KRay.advance, H.nidx]⟩
    · generalize hw : K.emission c r.wavelength s3 = w
      obtain ⟨w, s4⟩ := w
      generalize hdl : K.radDelay c s4 = dl
      obtain ⟨dl, s5⟩ := dl
      rw [kAbsorb_emit K hp hl hy hf hw hdl,
        kAbsorb_emit K' hp' (hk ▸ hl) (H.yields c s1 hQ ▸ hy) (H.phase c s2 hQ ▸ hf)
          (H.emission c _ s3 hQ hl ▸ hw) (H.radDelay c s4 hQ ▸ hdl)]
      exact ⟨by simp [KOut.map, Row.map, KRay.mapC, KRay.advance, H.nidx],
        by simp [KNext.map, KRay.mapC, KRay.advance, H.nidx]⟩
  | false =>
    generalize hdl : K.nrDelay c s2 = dl
    obtain ⟨dl, s3⟩ := dl
    have hy' := hy
    rw [hk, H.yields c s1 hQ] at hy'
    rw [kAbsorb_lost K hp hy hdl, kAbsorb_lost K' hp' hy' (H.nrDelay c s2 hQ ▸ hdl)]
    refine ⟨?_, rfl⟩
    rw [← hk]
    simp [KOut.map, Row.map, KRay.mapC, KRay.advance, TallyCall.map, kValues, H.localPos, H.nidx]

theorem kIncidence_names (H : K.Names K' e g Q) (n d : Vec3 α) :
    kIncidence K n d = kIncidence K' n d := by simp only [kIncidence, H.acos]

variable [DecidableEq ν] [DecidableEq ν']

theorem kSurface_reflect (K : KOps α ν κ σ) {h c a : ν} {r : KRay α κ} {t : α} {s s1 : σ} {n : Vec3 α}
    (hn : K.normal h (r.advance t (K.nidx c)).position = n)
    (hr : K.reflects h c a n r.direction s = (true, s1)) :
    kSurface K h c (some a) r t s =
      ([.record ⟨.reflect, some h, some c, some a, none,
          { r.advance t (K.nidx c) with direction := K.reflectDir r.direction n }, some n⟩] ++
        (if c ≠ h then [.tally ⟨.reflected, h, some n, kValues K h
          { r.advance t (K.nidx c) with direction := K.reflectDir r.direction n }
          (kIncidence K n r.direction)⟩] else []),
        .cont { r.advance t (K.nidx c) with direction := K.reflectDir r.direction n } s1) := by
  have hd : (r.advance t (K.nidx c)).direction = r.direction := rfl
  simp [kSurface, hn, hd, hr]

theorem kSurface_transmit (K : KOps α ν κ σ) {h c a : ν} {r : KRay α κ} {t : α} {s s1 : σ}
    {n : Vec3 α} (hn : K.normal h (r.advance t (K.nidx c)).position = n)
    (hr : K.reflects h c a n r.direction s = (false, s1)) :
    kSurface K h c (some a) r t s =
      ([.record ⟨.transmit, some h, some c, some a, none,
          { r.advance t (K.nidx c) with direction := K.transmitDir h c a n r.direction }, some n⟩,
        .tally ⟨if c = h then .escaping else .entering, h, some n, kValues K h
          { r.advance t (K.nidx c) with direction := K.transmitDir h c a n r.direction }
          (kIncidence K n r.direction)⟩],
        .cont { r.advance t (K.nidx c) with
          direction := K.transmitDir h c a n r.direction } s1) := by
  have hd : (r.advance t (K.nidx c)).direction = r.direction := rfl
  simp [kSurface, hn, hd, hr]

theorem kSurface_names (H : K.Names K' e g Q) (h c : ν') (a : Option ν') (r : KRay α κ) (t : α)
    (s : σ) :
    SameOut e g (kSurface K (e h) (e c) (a.map e) r t s) (kSurface K' h c a (r.mapC g) t s) := by
  cases a with
  | none =>
    unfold kSurface
    refine ⟨?_, rfl⟩
    simp [KOut.map, Row.map, KRay.mapC, KRay.advance, H.nidx]
  | some a =>
    have e1 : (K.normal (e h) (r.advance t (K.nidx (e c))).position) =
        K'.normal h ((r.mapC g).advance t (K'.nidx c)).position := by
      rw [H.normal, H.nidx]; rfl
    generalize hn : K'.normal h ((r.mapC g).advance t (K'.nidx c)).position = n at e1
    generalize hz : K'.reflects h c a n r.direction s = z
    obtain ⟨z, s1⟩ := z
    have hz' := hz
    rw [← H.reflects] at hz'
    have hec : e c = e h ↔ c = h := H.inj.eq_iff
    rw [Option.map_some]
    cases z with
    | true =>
      rw [kSurface_reflect K e1 hz', kSurface_reflect K' hn hz]
      refine ⟨?_, ?_⟩
      · by_cases hch : c = h
        · subst hch
          simp [KOut.map, Row.map, KRay.mapC, KRay.advance, H.nidx, H.reflectDir]
        · have : ¬ e c = e h := fun x => hch (hec.1 x)
          simp [hch, this, KOut.map, Row.map, KRay.mapC, KRay.advance, H.nidx, TallyCall.map,
            kValues, H.localPos, kIncidence_names H, H.reflectDir]
      · simp [KNext.map, KRay.mapC, KRay.advance, H.nidx, H.reflectDir]
    | false =>
      rw [kSurface_transmit K e1 hz', kSurface_transmit K' hn hz]
      refine ⟨?_, ?_⟩
      · simp [KOut.map, Row.map, KRay.mapC, KRay.advance, H.nidx, TallyCall.map, kValues,
          H.localPos, kIncidence_names H, H.transmitDir, hec]
      · simp [KNext.map, KRay.mapC, KRay.advance, H.nidx, H.transmitDir]

theorem kBody_volume (K : KOps α ν κ σ) {maxsteps count : ℕ} {r : KRay α κ} {s s1 : σ} {h c : ν}
    {a : Option ν} {t : α} {D : Option α}
    (hh : K.nextHit r.position r.direction = some (h, c, a, t)) (hc : ¬ count > maxsteps)
    (hr : ¬ h = K.root) (hD : K.depth c r.wavelength s = (D, s1)) :
    kBody K maxsteps count r s = (match isAbsorbed D t with
      | some d => kAbsorb K c r d s1
      | none => kSurface K h c a r t s1) := by
  simp only [kBody, hh, hc, if_false, hr, hD]
  cases isAbsorbed D t <;> rfl

theorem kBody_names (H : K.Names K' e g Q) (maxsteps count : ℕ) (r : KRay α κ) (s : σ) :
    SameOut e g (kBody K maxsteps count r s) (kBody K' maxsteps count (r.mapC g) s) := by
  unfold kBody
  have hp : (r.mapC g).position = r.position := rfl
  have hdir : (r.mapC g).direction = r.direction := rfl
  have hw : (r.mapC g).wavelength = r.wavelength := rfl
  rw [hp, hdir, hw, H.nextHit]
  cases hn : K'.nextHit r.position r.direction with
  | none => exact ⟨rfl, rfl⟩
  | some x =>
    obtain ⟨h, c, a, t⟩ := x
    simp only [Option.map_some]
    by_cases hc : count > maxsteps
    · simp only [hc, if_true]
      refine ⟨?_, rfl⟩
      simp [KOut.map, Row.map, KRay.mapC, TallyCall.map, kValues, H.localPos]
    · simp only [hc, if_false]
      by_cases hr : h = K'.root
      · have : e h = K.root := by rw [hr, H.root]
        simp only [hr, ← H.root, if_true]
        refine ⟨?_, rfl⟩
        simp [KOut.map, Row.map, KRay.mapC, KRay.advance, TallyCall.map, kValues, H.localPos, H.nidx,
          H.root, H.normal, kExitAngle, H.acos]
      · have : ¬ e h = K.root := by rw [H.root]; exact fun x => hr (H.inj x)
        generalize hD : K'.depth c r.wavelength s = D
        obtain ⟨D, s1⟩ := D
        have hb := kBody_volume K (r := r) (by rw [H.nextHit, hn]; rfl) hc this (H.depth c _ s ▸ hD)
        have hb' := kBody_volume K' (r := r.mapC g) hn hc hr hD
        unfold kBody at hb hb'
        rw [H.nextHit, hn] at hb
        rw [hp, hdir, hn] at hb'
        simp only [Option.map_some] at hb
        simp only [hc, if_false] at hb hb'
        rw [hb]
        refine Eq.subst (motive := fun z => SameOut e g _ z) hb'.symm ?_
        cases hA : isAbsorbed D t with
        | none => exact kSurface_names H h c a r t s1
        | some d =>
          refine kAbsorb_names H c r d s s1 ?_
          rw [hD]
          unfold isAbsorbed at hA
          cases D with
          | none => simp at hA
          | some D =>
            simp only at hA
            split_ifs at hA
            simpa using hA

end

section
variable [Field α] [LinearOrder α] [FloorRing α] [DecidableEq ν] [DecidableEq ν']
variable {K : KOps α ν κ σ} {K' : KOps α ν' κ' σ} {e : ν' → ν} {g : κ → κ'} {Q : κ → Prop}

theorem kTallyFrom_names {ρ ρ' ρ'' : Type} (f : ρ → ρ'') (f' : ρ' → ρ'') (he : Function.Injective e)
    (T : RecTables α ν') (c : TallyCall α ν') :
    ∀ (rs : List (RecRow α ν')) (i : ℕ) (seen : ℕ → Bool),
      (kTallyFrom (ρ := ρ) (T.map e) (c.map e)
          (rs.map fun r => ⟨e r.node, r.event, r.facet, r.atol, r.histStart, r.histN⟩) i seen).1.map
            (Effect.map f) = (kTallyFrom (ρ := ρ') T c rs i seen).1.map (Effect.map f') ∧
      (kTallyFrom (ρ := ρ) (T.map e) (c.map e)
          (rs.map fun r => ⟨e r.node, r.event, r.facet, r.atol, r.histStart, r.histN⟩) i seen).2 =
        (kTallyFrom (ρ := ρ') T c rs i seen).2 := by
  intro rs
  induction rs with
  | nil => intro i seen; exact ⟨rfl, rfl⟩
  | cons r rs ih =>
    intro i seen
    have hk : kCounts (c.map e) (⟨e r.node, r.event, r.facet, r.atol, r.histStart, r.histN⟩ :
        RecRow α ν) = kCounts c r := by
      have hec : e r.node = e c.node ↔ r.node = c.node := he.eq_iff
      unfold kCounts
      simp only [TallyCall.map, ne_eq, hec]
    have ho : (kTallyOne (ρ := ρ) (T.map e) (c.map e)
          ⟨e r.node, r.event, r.facet, r.atol, r.histStart, r.histN⟩ i seen).1.map (Effect.map f) =
          (kTallyOne (ρ := ρ') T c r i seen).1.map (Effect.map f') ∧
        (kTallyOne (ρ := ρ) (T.map e) (c.map e)
          ⟨e r.node, r.event, r.facet, r.atol, r.histStart, r.histN⟩ i seen).2 =
          (kTallyOne (ρ := ρ') T c r i seen).2 := by
      unfold kTallyOne
      rw [hk]
      cases kCounts c r with
      | false => exact ⟨rfl, rfl⟩
      | true =>
        simp only [if_true]
        cases seen i with
        | true => exact ⟨rfl, rfl⟩
        | false =>
          refine ⟨?_, rfl⟩
          simp only [Bool.false_eq_true, if_false, List.map_cons, List.map_append, Effect.map]
          congr 3
          simp only [kBins, List.map_filterMap]
          congr 1
          funext h
          simp only [RecTables.map]
          cases T.hists[h]? with
          | none => rfl
          | some row =>
            simp only [Option.map_map, TallyCall.map]
            rfl
    simp only [List.map_cons, kTallyFrom, List.map_append]
    rw [ho.1, ho.2]
    exact ⟨by rw [(ih (i + 1) _).1], (ih (i + 1) _).2⟩

theorem kTally_names {ρ ρ' ρ'' : Type} (f : ρ → ρ'') (f' : ρ' → ρ'') (he : Function.Injective e)
    (T : RecTables α ν') (c : TallyCall α ν') (seen : ℕ → Bool) :
    (kTally (ρ := ρ) (T.map e) (c.map e) seen).1.map (Effect.map f) =
      (kTally (ρ := ρ') T c seen).1.map (Effect.map f') ∧
    (kTally (ρ := ρ) (T.map e) (c.map e) seen).2 = (kTally (ρ := ρ') T c seen).2 :=
  kTallyFrom_names f f' he T c T.recs 0 seen

/-- Renaming of a row to the node names of one and the components of the other description. -/
abbrev onTables (g : κ → κ') : Effect α (Row α ν κ) → Effect α (Row α ν κ') :=
  Effect.map (Row.map id g)
abbrev onObjects (e : ν' → ν) : Effect α (Row α ν' κ') → Effect α (Row α ν κ') :=
  Effect.map (Row.map e id)

theorem kRecord_names (slot : LogSlot) (nev : ℕ) {a : Row α ν κ} {b : Row α ν' κ'}
    (h : a.map id g = b.map e id) :
    (kRecord slot nev a).1.map (onTables (α := α) g) = (kRecord slot nev b).1.map (onObjects e) ∧
      (kRecord (α := α) slot nev a).2 = (kRecord (α := α) slot nev b).2 := by
  unfold kRecord
  cases slot with
  | none => exact ⟨rfl, rfl⟩
  | some p =>
    dsimp only
    split_ifs
    · exact ⟨rfl, rfl⟩
    · exact ⟨by simp [onTables, onObjects, Effect.map, h], rfl⟩

theorem kRun_names (he : Function.Injective e) (T : RecTables α ν') (slot : LogSlot) :
    ∀ (a : List (KOut α ν κ)) (b : List (KOut α ν' κ')) (nev : ℕ) (seen : ℕ → Bool),
      a.map (KOut.map id g) = b.map (KOut.map e id) →
      (kRun (T.map e) slot a nev seen).1.map (onTables g) =
        (kRun T slot b nev seen).1.map (onObjects e) ∧
      (kRun (T.map e) slot a nev seen).2 = (kRun T slot b nev seen).2 := by
  intro a
  induction a with
  | nil =>
    intro b nev seen h
    cases b with
    | nil => exact ⟨rfl, rfl⟩
    | cons => simp at h
  | cons x a ih =>
    intro b nev seen h
    cases b with
    | nil => simp at h
    | cons y b =>
      simp only [List.map_cons, List.cons.injEq] at h
      obtain ⟨hx, hr⟩ := h
      cases x with
      | record r =>
        cases y with
        | tally c => simp [KOut.map] at hx
        | record r' =>
          simp only [KOut.map, KOut.record.injEq] at hx
          obtain ⟨h1, h2⟩ := kRecord_names (α := α) slot nev hx
          simp only [kRun, List.map_append, h1, h2]
          exact ⟨by rw [(ih b _ _ hr).1], (ih b _ _ hr).2⟩
      | tally c =>
        cases y with
        | record r => simp [KOut.map] at hx
        | tally c' =>
          simp only [KOut.map, KOut.tally.injEq] at hx
          have hc : c = c'.map e := by
            rw [← hx]; rfl
          subst hc
          obtain ⟨h1, h2⟩ := kTally_names (ρ := Row α ν κ) (ρ' := Row α ν' κ') (Row.map id g)
            (Row.map e id) he T c' seen
          simp only [kRun, List.map_append, h1, h2]
          exact ⟨by rw [(ih b _ _ hr).1], (ih b _ _ hr).2⟩

theorem kLoop_names (H : K.Names K' e g Q) (T : RecTables α ν') (slot : LogSlot) (maxsteps : ℕ) :
    ∀ (fuel count nev : ℕ) (seen : ℕ → Bool) (r : KRay α κ) (s : σ),
      (kLoop K (T.map e) slot maxsteps fuel count nev seen r s).1.map (onTables g) =
        (kLoop K' T slot maxsteps fuel count nev seen (r.mapC g) s).1.map (onObjects e) ∧
      (kLoop K (T.map e) slot maxsteps fuel count nev seen r s).2 =
        (kLoop K' T slot maxsteps fuel count nev seen (r.mapC g) s).2 := by
  intro fuel
  induction fuel with
  | zero => intros; exact ⟨rfl, rfl⟩
  | succ fuel ih =>
    intro count nev seen r s
    simp only [kLoop]
    split_ifs with hx
    · refine kRecord_names slot nev ?_
      simp [Row.map, KRay.mapC]
    · obtain ⟨hb1, hb2⟩ := kBody_names H maxsteps (count + 1) r s
      obtain ⟨hr1, hr2⟩ := kRun_names H.inj T slot _ _ nev seen hb1
      generalize kBody K maxsteps (count + 1) r s = A at *
      generalize kBody K' maxsteps (count + 1) (r.mapC g) s = B at *
      obtain ⟨A1, A2⟩ := A
      obtain ⟨B1, B2⟩ := B
      dsimp only at hb2 hr1 hr2 ⊢
      subst hb2
      rw [hr2]
      cases A2 with
      | stop => exact ⟨hr1, rfl⟩
      | cont r' s' =>
        simp only [KNext.map, List.map_append, hr1]
        exact ⟨by rw [(ih _ _ _ r' s').1], (ih _ _ _ r' s').2⟩

theorem kTraceOne_names (H : K.Names K' e g Q) (T : RecTables α ν') (slot : LogSlot) (maxsteps : ℕ)
    (r : KRay α κ) (s : σ) :
    (kTraceOne K (T.map e) slot maxsteps r s).1.map (onTables g) =
      (kTraceOne K' T slot maxsteps (r.mapC g) s).1.map (onObjects e) ∧
    (kTraceOne K (T.map e) slot maxsteps r s).2 =
      (kTraceOne K' T slot maxsteps (r.mapC g) s).2 := by
  have hrow : (⟨.generate, none, none, none, none, r, none⟩ : Row α ν κ).map id g =
      (⟨.generate, none, none, none, none, r.mapC g, none⟩ : Row α ν' κ').map e id := by
    simp [Row.map, KRay.mapC]
  obtain ⟨h1, h2⟩ := kRecord_names (α := α) slot 0 hrow
  simp only [kTraceOne, List.map_append, h1, h2]
  exact ⟨by rw [(kLoop_names H T slot maxsteps _ _ _ _ r s).1],
    (kLoop_names H T slot maxsteps _ _ _ _ r s).2⟩

/-- A launched ray, with renamed components. -/
def Launch.mapC (g : κ → κ') (l : Launch α κ σ) : Launch α κ' σ := ⟨l.ray.mapC g, l.rng⟩

theorem kRay_names (H : K.Names K' e g Q) (T : RecTables α ν') (maxsteps m re : ℕ)
    (bundle : List (Launch α κ σ)) (i : ℕ) :
    (kRay K (T.map e) maxsteps m re bundle i).map (onTables g) =
      (kRay K' T maxsteps m re (bundle.map (Launch.mapC g)) i).map (onObjects e) := by
  unfold kRay
  rw [List.getElem?_map]
  cases bundle[i]? with
  | none => rfl
  | some l =>
    simp only [Option.map_some]
    obtain ⟨h1, h2⟩ := kTraceOne_names H T (slotOf re m i) maxsteps l.ray l.rng
    have h1' : (kTraceOne K (T.map e) (slotOf re m i) maxsteps l.ray l.rng).1.map (onTables g) =
      (kTraceOne K' T (slotOf re m i) maxsteps (l.mapC g).ray (l.mapC g).rng).1.map
        (onObjects e) := h1
    have h2' : (kTraceOne K (T.map e) (slotOf re m i) maxsteps l.ray l.rng).2 =
      (kTraceOne K' T (slotOf re m i) maxsteps (l.mapC g).ray (l.mapC g).rng).2 := h2
    cases hs : slotOf re m i with
    | none => simpa [hs] using h1'
    | some p =>
      rw [hs] at h1' h2'
      simp only [List.map_append, h1', h2']
      rfl

end
end PV
