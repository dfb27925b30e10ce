import Verif.Lemmas.TracerGrammar

namespace PV
set_option linter.unusedSectionVars false
variable {α ν κ σ : Type} [Field α] [LinearOrder α] [DecidableEq ν]

/-- Component `k` can be selected in the material of node `n`. -/
def Offers (O : Ops α ν κ σ) (n : ν) (k : κ) : Prop :=
  ∃ w s s', O.component n w s = .ok (k, s')

/-- What the scene's parts must respect for the path laws: lifetimes and depths are not
negative, indices are positive, surfaces only turn a ray, emission keeps place and path
length, only a luminophore changes the wavelength. The library's own parts respect it
(`PV.Library.lawful`). -/
structure Lawful (O : Ops α ν κ σ) : Prop where
  index_pos : ∀ n, 0 < O.refractiveIndex n
  depth_nonneg : ∀ n w s d s', O.penetrationDepth n w s = .ok (some d, s') → 0 ≤ d
  dist_nonneg : ∀ ray h, Sees O ray (some h) → 0 ≤ h.dist
  emit : ∀ n k ray s ray' s', Offers O n k → O.emit n k ray s = .ok (ray', s') →
    ray'.position = ray.position ∧ ray'.travelled = ray.travelled ∧
    ray.duration ≤ ray'.duration ∧
    (O.compKind k ≠ .luminophore → ray'.wavelength = ray.wavelength ∧
      ray'.duration = ray.duration)
  decay : ∀ n k ray s ray' s', Offers O n k → O.nonradiativeAbsorb k ray s = .ok (ray', s') →
    ∃ delay, 0 ≤ delay ∧ ray' = { ray with duration := ray.duration + delay }
  reflect : ∀ h c a ray s ray' s', O.reflect h c a ray s = .ok (ray', s') →
    ray' = { ray with direction := ray'.direction }
  transmit : ∀ h c a ray s ray' s', O.transmit h c a ray s = .ok (ray', s') →
    ray' = { ray with direction := ray'.direction }

/-- Events that end a stretch of free flight. -/
def Flight (e : Event) : Prop :=
  e = .reflect ∨ e = .transmit ∨ e = .absorb ∨ e = .exit

/-- What links an event to the next one. -/
structure Link (O : Ops α ν κ σ) (maxpath : Option α) (a b : Step α) : Prop where
  flight : ∃ (n : ν) (d delay : α), b.info.container = some (O.name n) ∧ 0 ≤ d ∧ 0 ≤ delay ∧
    b.ray.travelled = a.ray.travelled + d ∧
    b.ray.duration = a.ray.duration + O.refractiveIndex n * d / lightSpeed + delay ∧
    b.ray.position = a.ray.position + d • a.ray.direction ∧
    (¬ Flight b.event → d = 0) ∧
    (b.event ≠ .emit → b.event ≠ .nonradiative → b.event ≠ .react → delay = 0)
  wavelength : b.event ≠ .emit → b.ray.wavelength = a.ray.wavelength
  direction : b.event ≠ .reflect → b.event ≠ .transmit → b.event ≠ .emit → b.event ≠ .scatter →
    b.ray.direction = a.ray.direction
  source : b.event ≠ .emit → b.event ≠ .scatter → b.ray.source = a.ray.source
  path : Flight b.event → ∀ m, maxpath = some m → a.ray.travelled ≤ m

theorem vec_add_zero_smul (p d : Vec3 α) : p + (0 : α) • d = p := by
  ext <;> simp

theorem propagate_duration (n d : α) : 1 / (lightSpeed / n / d) = n * d / lightSpeed := by
  rw [one_div, div_div, inv_div]

theorem Live.path_le {O : Ops α ν κ σ} {maxsteps : ℕ} {maxpath : Option α} {count : ℕ}
    {ray : Ray α} {h : HitInfo ν α} (hl : Live O maxsteps maxpath count ray h) :
    ∀ m, maxpath = some m → ray.travelled ≤ m := by
  intro m hm
  have := hl.path
  subst hm
  simpa [beyond] using this

variable [IsStrictOrderedRing α]

theorem link_flight {O : Ops α ν κ σ} {maxsteps : ℕ} {maxpath : Option α}
    {count : ℕ} {ray : Ray α} {h : HitInfo ν α} (hl : Live O maxsteps maxpath count ray h)
    {d : α} (hd : 0 ≤ d) {a b : Step α} (ha : a.ray = ray)
    (hb : b.ray = { (ray.propagate d (O.refractiveIndex h.container)) with
      direction := b.ray.direction })
    (hc : b.info.container = some (O.name h.container)) (hf : Flight b.event)
    (hdir : b.event = .absorb ∨ b.event = .exit → b.ray.direction = ray.direction) :
    Link O maxpath a b where
  flight := by
    refine ⟨h.container, d, 0, hc, hd, le_refl _, ?_, ?_, ?_, fun h => absurd hf h,
      fun _ _ _ => rfl⟩
    · rw [hb, ha]; rfl
    · rw [hb, ha]; simp only [Ray.propagate, propagate_duration, add_zero]
    · rw [hb, ha]; rfl
  wavelength _ := by rw [hb, ha]; rfl
  direction h1 h2 h3 h4 := by
    rw [ha]
    apply hdir
    rcases hf with h | h | h | h
    · exact absurd h h1
    · exact absurd h h2
    · exact .inl h
    · exact .inr h
  source _ _ := by rw [hb, ha]; rfl
  path _ := by rw [ha]; exact hl.path_le

theorem link_rest {O : Ops α ν κ σ} {maxpath : Option α} {a b : Step α} (c : ν)
    (hc : b.info.container = some (O.name c)) (hf : ¬ Flight b.event)
    (hpos : b.ray.position = a.ray.position) (htr : b.ray.travelled = a.ray.travelled)
    (hdur : a.ray.duration ≤ b.ray.duration)
    (hdur0 : b.event ≠ .emit → b.event ≠ .nonradiative → b.event ≠ .react →
      b.ray.duration = a.ray.duration)
    (hw : b.event ≠ .emit → b.ray.wavelength = a.ray.wavelength)
    (hdir : b.event ≠ .emit → b.event ≠ .scatter → b.ray.direction = a.ray.direction)
    (hsrc : b.event ≠ .emit → b.event ≠ .scatter → b.ray.source = a.ray.source) :
    Link O maxpath a b where
  flight := by
    refine ⟨c, 0, b.ray.duration - a.ray.duration, hc, le_refl _, sub_nonneg.2 hdur, ?_, ?_, ?_,
      fun _ => rfl, fun h1 h2 h3 => ?_⟩
    · rw [htr, add_zero]
    · ring
    · rw [hpos, vec_add_zero_smul]
    · rw [hdur0 h1 h2 h3, sub_self]
  wavelength := hw
  direction _ _ h3 h4 := hdir h3 h4
  source := hsrc
  path h := absurd h hf

/-- All consecutive events of a lawful scene's history are linked. -/
theorem loop_links (O : Ops α ν κ σ) (hO : Lawful O) (maxsteps : ℕ) (maxpath : Option α)
    (fuel count : ℕ) (ray : Ray α) (s : σ) :
    ∀ prev : Step α, prev.ray = ray →
      List.IsChain (Link O maxpath) (prev :: (loop O maxsteps maxpath fuel count ray s).1) := by
  refine loop_induct O maxsteps maxpath
    (fun _ _ ray es _ => ∀ prev : Step α, prev.ray = ray →
      List.IsChain (Link O maxpath) (prev :: es)) ?_ ?_ ?_ ?_ fuel count ray s
  · intros; simp
  · intro fuel count ray s es hp prev hprev
    cases hp with
    | miss => simp
    | kill h hs =>
      simp only [List.isChain_cons_cons, List.IsChain.singleton, and_true]
      exact link_rest h.container rfl (by simp [Flight]) (by rw [hprev]) (by rw [hprev])
        (by rw [hprev]) (fun _ _ _ => by rw [hprev]) (fun _ => by rw [hprev])
        (fun _ _ => by rw [hprev]) (fun _ _ => by rw [hprev])
    | exit h hl hr =>
      simp only [List.isChain_cons_cons, List.IsChain.singleton, and_true]
      exact link_flight hl (hO.dist_nonneg _ _ hl.sees) hprev rfl rfl (by simp [Flight])
        (fun _ => rfl)
    | decay h d comp s' s'' s''' ray' ev hA hr he hev =>
      obtain ⟨s1, hd, hk⟩ := hA.depth
      obtain ⟨delay, hdel, rfl⟩ := hO.decay _ _ _ _ _ _ ⟨_, _, _, hk⟩ he
      simp only [List.isChain_cons_cons, List.IsChain.singleton, and_true]
      refine ⟨link_flight hA.live (hO.depth_nonneg _ _ _ _ _ hd) hprev rfl rfl
        (by simp [Flight]) (fun _ => rfl), ?_⟩
      refine link_rest h.container rfl ?_ rfl rfl ?_ ?_ (fun _ => rfl) (fun _ _ => rfl)
        (fun _ _ => rfl)
      · rcases hev with ⟨rfl, _⟩ | ⟨rfl, _⟩ <;> simp [Flight]
      · simpa using hdel
      · intro _ h1 h2
        rcases hev with ⟨rfl, _⟩ | ⟨rfl, _⟩ <;> simp at h1 h2
  · intro fuel count ray s es e hp prev hprev
    cases hp with
    | raise => simp
    | absorbRaise h d comp s' e hA =>
      obtain ⟨s1, hd, _⟩ := hA.depth
      simp only [List.isChain_cons_cons, List.IsChain.singleton, and_true]
      exact link_flight hA.live (hO.depth_nonneg _ _ _ _ _ hd) hprev rfl rfl
        (by simp [Flight]) (fun _ => rfl)
  · intro fuel count ray s es ray' s' es' o hp ih prev hprev
    cases hp with
    | radiate h d comp s' s'' s''' ray' ev hA hr he hev =>
      obtain ⟨s1, hd, hk⟩ := hA.depth
      obtain ⟨e1, e2, e3, e4⟩ := hO.emit _ _ _ _ _ _ ⟨_, _, _, hk⟩ he
      simp only [List.cons_append, List.nil_append, List.isChain_cons_cons]
      refine ⟨link_flight hA.live (hO.depth_nonneg _ _ _ _ _ hd) hprev rfl rfl
        (by simp [Flight]) (fun _ => rfl), ?_, ih _ rfl⟩
      refine link_rest h.container rfl ?_ e1 e2 e3 ?_ ?_ ?_ ?_
      · rcases hev with ⟨rfl, _⟩ | ⟨rfl, _⟩ <;> simp [Flight]
      · intro h1 _ _
        rcases hev with ⟨rfl, _⟩ | ⟨rfl, h2, _⟩
        · simp at h1
        · exact (e4 h2).2
      · intro h1
        rcases hev with ⟨rfl, _⟩ | ⟨rfl, h2, _⟩
        · simp at h1
        · exact (e4 h2).1
      · intro h1 h2
        rcases hev with ⟨rfl, _⟩ | ⟨rfl, _⟩ <;> simp at h1 h2
      · intro h1 h2
        rcases hev with ⟨rfl, _⟩ | ⟨rfl, _⟩ <;> simp at h1 h2
    | reflect h n s' s'' s''' ray' hT _ he =>
      simp only [List.cons_append, List.nil_append, List.isChain_cons_cons]
      exact ⟨link_flight hT.live (hO.dist_nonneg _ _ hT.live.sees) hprev
        (hO.reflect _ _ _ _ _ _ _ he) rfl (by simp [Flight]) (by simp), ih _ rfl⟩
    | transmit h n s' s'' s''' ray' hT _ _ he =>
      simp only [List.cons_append, List.nil_append, List.isChain_cons_cons]
      exact ⟨link_flight hT.live (hO.dist_nonneg _ _ hT.live.sees) hprev
        (hO.transmit _ _ _ _ _ _ _ he) rfl (by simp [Flight]) (by simp), ih _ rfl⟩

theorem isChain_getElem? {β : Type} {R : β → β → Prop} : ∀ {l : List β}, List.IsChain R l →
    ∀ {i : ℕ} {a b : β}, l[i]? = some a → l[i + 1]? = some b → R a b := by
  intro l
  induction l with
  | nil => simp
  | cons x l ih =>
    intro h i a b ha hb
    cases l with
    | nil => simp at hb
    | cons y l =>
      rw [List.isChain_cons_cons] at h
      rcases i with _ | i
      · simp at ha hb; subst ha; subst hb; exact h.1
      · exact ih h.2 (by simpa using ha) (by simpa using hb)

theorem stepForward_link (O : Ops α ν κ σ) (hO : Lawful O) (maxsteps : ℕ) (maxpath : Option α)
    (fuel : ℕ) (ray : Ray α) (s : σ) {i : ℕ} {a b : Step α}
    (ha : (stepForward O maxsteps maxpath fuel ray s).1[i]? = some a)
    (hb : (stepForward O maxsteps maxpath fuel ray s).1[i + 1]? = some b) :
    Link O maxpath a b :=
  isChain_getElem? (loop_links O hO maxsteps maxpath fuel 0 ray s ⟨ray, .generate, {}⟩ rfl) ha hb

end PV
