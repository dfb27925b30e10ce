import Verif.Model.Tracer
import Verif.Spec.Grammar

/-!
A relational description of one pass of the tracer loop (`Pass`), and the proof that the
loop body only makes such passes. The property theorems reason by cases on `Pass`.
-/

namespace PV
set_option linter.unusedSectionVars false
variable {α ν κ σ : Type} [Field α] [LinearOrder α] [DecidableEq ν]

/-- `next_hit(scene, ray)` returns `r`. -/
def Sees (O : Ops α ν κ σ) (ray : Ray α) (r : Option (HitInfo ν α)) : Prop :=
  ∃ xs, O.intersections ray.position ray.direction = .ok xs ∧
    nextHit O.eps (O.distBetween ray.position) xs = .ok r

/-- The loop goes on after `next_hit` and the kill test. -/
structure Live (O : Ops α ν κ σ) (maxsteps : ℕ) (maxpath : Option α) (count : ℕ)
    (ray : Ray α) (h : HitInfo ν α) : Prop where
  sees : Sees O ray (some h)
  steps : count ≤ maxsteps
  path : beyond ray.travelled maxpath = false

/-- metadata of a volume event -/
def volInfo (O : Ops α ν κ σ) (container : ν) (comp : κ) : Meta α :=
  { component := some (O.compName comp), container := some (O.name container) }

/-- metadata of a surface event -/
def surfInfo (O : Ops α ν κ σ) (h : HitInfo ν α) (normal : Vec3 α) : Meta α :=
  { hit := some (O.name h.hit), container := some (O.name h.container),
    adjacent := h.adjacent.map O.name, normal := some normal }

/-- An absorption at depth `d` by `comp` in the container of `h`, giving the ray `ray'`. -/
structure Absorbs (O : Ops α ν κ σ) (maxsteps : ℕ) (maxpath : Option α) (count : ℕ)
    (ray : Ray α) (s : σ) (h : HitInfo ν α) (d : α) (comp : κ) (s' : σ) : Prop where
  live : Live O maxsteps maxpath count ray h
  notRoot : h.hit ≠ O.root
  depth : ∃ s1, O.penetrationDepth h.container ray.wavelength s = .ok (some d, s1) ∧
    O.component h.container ray.wavelength s1 = .ok (comp, s')
  inside : d < h.dist

/-- A surface interaction with `h`. -/
structure Touches (O : Ops α ν κ σ) (maxsteps : ℕ) (maxpath : Option α) (count : ℕ)
    (ray : Ray α) (s : σ) (h : HitInfo ν α) (normal : Vec3 α) (s' : σ) : Prop where
  live : Live O maxsteps maxpath count ray h
  notRoot : h.hit ≠ O.root
  depth : ∃ depth, O.penetrationDepth h.container ray.wavelength s = .ok (depth, s') ∧
    ∀ d, depth = some d → h.dist ≤ d
  normal : O.normal h.hit (ray.propagate h.dist (O.refractiveIndex h.container)).position
    = .ok normal

/-- What one pass of the loop can do. -/
inductive Pass (O : Ops α ν κ σ) (maxsteps : ℕ) (maxpath : Option α) (count : ℕ)
    (ray : Ray α) (s : σ) : List (Step α) → Next α σ → Prop
  | miss : Sees O ray none → Pass O maxsteps maxpath count ray s [] .stop
  | raise (e : Err) : Pass O maxsteps maxpath count ray s [] (.raise e)
  | kill (h : HitInfo ν α) : Sees O ray (some h) →
      (count > maxsteps ∨ beyond ray.travelled maxpath = true) →
      Pass O maxsteps maxpath count ray s
        [⟨ray, .kill, { container := some (O.name h.container) }⟩] .stop
  | exit (h : HitInfo ν α) : Live O maxsteps maxpath count ray h → h.hit = O.root →
      Pass O maxsteps maxpath count ray s
        [⟨ray.propagate h.dist (O.refractiveIndex h.container), .exit,
          { hit := some (O.name h.hit), container := some (O.name h.container),
            adjacent := h.adjacent.map O.name }⟩] .stop
  | absorbRaise (h : HitInfo ν α) (d : α) (comp : κ) (s' : σ) (e : Err) :
      Absorbs O maxsteps maxpath count ray s h d comp s' →
      Pass O maxsteps maxpath count ray s
        [⟨ray.propagate d (O.refractiveIndex h.container), .absorb, volInfo O h.container comp⟩]
        (.raise e)
  | radiate (h : HitInfo ν α) (d : α) (comp : κ) (s' s'' s''' : σ) (ray' : Ray α) (ev : Event) :
      Absorbs O maxsteps maxpath count ray s h d comp s' →
      O.isRadiative comp (ray.propagate d (O.refractiveIndex h.container)) s' = .ok (true, s'') →
      O.emit h.container comp (ray.propagate d (O.refractiveIndex h.container)) s''
        = .ok (ray', s''') →
      (ev = .emit ∧ O.compKind comp = .luminophore ∨
        ev = .scatter ∧ O.compKind comp ≠ .luminophore ∧ O.compKind comp ≠ .other) →
      Pass O maxsteps maxpath count ray s
        [⟨ray.propagate d (O.refractiveIndex h.container), .absorb, volInfo O h.container comp⟩,
          ⟨ray', ev, volInfo O h.container comp⟩] (.cont ray' s''')
  | decay (h : HitInfo ν α) (d : α) (comp : κ) (s' s'' s''' : σ) (ray' : Ray α) (ev : Event) :
      Absorbs O maxsteps maxpath count ray s h d comp s' →
      O.isRadiative comp (ray.propagate d (O.refractiveIndex h.container)) s' = .ok (false, s'') →
      O.nonradiativeAbsorb comp (ray.propagate d (O.refractiveIndex h.container)) s''
        = .ok (ray', s''') →
      (ev = .react ∧ O.compKind comp = .reactor ∨
        ev = .nonradiative ∧ O.compKind comp ≠ .reactor) →
      Pass O maxsteps maxpath count ray s
        [⟨ray.propagate d (O.refractiveIndex h.container), .absorb, volInfo O h.container comp⟩,
          ⟨ray', ev, volInfo O h.container comp⟩] .stop
  | reflect (h : HitInfo ν α) (n : Vec3 α) (s' s'' s''' : σ) (ray' : Ray α) :
      Touches O maxsteps maxpath count ray s h n s' →
      O.isReflected h.hit h.container h.adjacent
        (ray.propagate h.dist (O.refractiveIndex h.container)) s' = .ok (true, s'') →
      O.reflect h.hit h.container h.adjacent
        (ray.propagate h.dist (O.refractiveIndex h.container)) s'' = .ok (ray', s''') →
      Pass O maxsteps maxpath count ray s
        [⟨ray', .reflect, surfInfo O h n⟩] (.cont ray' s''')
  | transmit (h : HitInfo ν α) (n : Vec3 α) (s' s'' s''' : σ) (ray' : Ray α) :
      Touches O maxsteps maxpath count ray s h n s' →
      h.adjacent.isSome →
      O.isReflected h.hit h.container h.adjacent
        (ray.propagate h.dist (O.refractiveIndex h.container)) s' = .ok (false, s'') →
      O.transmit h.hit h.container h.adjacent
        (ray.propagate h.dist (O.refractiveIndex h.container)) s'' = .ok (ray', s''') →
      Pass O maxsteps maxpath count ray s
        [⟨ray', .transmit, surfInfo O h n⟩] (.cont ray' s''')

theorem isAbsorbed_some {depth : Option α} {full d : α} (h : isAbsorbed depth full = some d) :
    depth = some d ∧ d < full := by
  unfold isAbsorbed at h
  split at h
  · simp at h
  · split at h
    · simp_all
    · simp at h

theorem isAbsorbed_none {depth : Option α} {full : α} (h : isAbsorbed depth full = none) :
    ∀ d, depth = some d → full ≤ d := by
  intro d hd
  subst hd
  simpa [isAbsorbed] using h

theorem body_pass (O : Ops α ν κ σ) (maxsteps : ℕ) (maxpath : Option α) (count : ℕ)
    (ray : Ray α) (s : σ) :
    Pass O maxsteps maxpath count ray s (body O maxsteps maxpath count ray s).1
      (body O maxsteps maxpath count ray s).2 := by
  unfold body
  split
  · exact .raise _
  rename_i xs hxs
  split
  · exact .raise _
  · rename_i hn; exact .miss ⟨xs, hxs, hn⟩
  rename_i h hn
  have hs : Sees O ray (some h) := ⟨xs, hxs, hn⟩
  split
  · rename_i hk; exact .kill h hs hk
  rename_i hk
  simp only [not_or, not_lt, Bool.not_eq_true] at hk
  have hl : Live O maxsteps maxpath count ray h := ⟨hs, by omega, hk.2⟩
  split
  · rename_i hr; exact .exit h hl hr
  rename_i hr
  split
  · exact .raise _
  rename_i depth s1 hd
  split
  · rename_i d ha
    obtain ⟨rfl, hlt⟩ := isAbsorbed_some ha
    unfold absorbBody
    simp only
    split
    · exact .raise _
    rename_i comp s2 hc
    have hA : Absorbs O maxsteps maxpath count ray s h d comp s2 :=
      ⟨hl, hr, ⟨s1, hd, by simpa [Ray.propagate] using hc⟩, hlt⟩
    split
    · exact .absorbRaise h d comp s2 _ hA
    · rename_i s3 hrad
      split
      · exact .absorbRaise h d comp s2 _ hA
      rename_i ray' s4 he
      split
      · rename_i hk; exact .radiate h d comp s2 s3 s4 ray' .emit hA hrad he (.inl ⟨rfl, hk⟩)
      · exact .absorbRaise h d comp s2 _ hA
      · rename_i h1 h2
        exact .radiate h d comp s2 s3 s4 ray' .scatter hA hrad he (.inr ⟨rfl, h1, h2⟩)
    · rename_i s3 hrad
      split
      · exact .absorbRaise h d comp s2 _ hA
      rename_i ray' s4 he
      split
      · rename_i hk; exact .decay h d comp s2 s3 s4 ray' .react hA hrad he (.inl ⟨rfl, hk⟩)
      · rename_i h1
        exact .decay h d comp s2 s3 s4 ray' .nonradiative hA hrad he (.inr ⟨rfl, h1⟩)
  · rename_i ha
    unfold surfaceBody
    simp only
    split
    · exact .raise _
    rename_i n hnorm
    have hT : Touches O maxsteps maxpath count ray s h n s1 :=
      ⟨hl, hr, ⟨depth, hd, isAbsorbed_none ha⟩, hnorm⟩
    split
    · exact .raise _
    · rename_i s2 hrf
      split
      · exact .raise _
      rename_i ray' s3 he
      exact .reflect h n s1 s2 s3 ray' hT hrf he
    · rename_i s2 hrf
      split
      · exact .raise _
      rename_i ray' s3 he
      split
      · exact .raise _
      · rename_i a hadj
        exact .transmit h n s1 s2 s3 ray' hT (by simp [hadj]) hrf he

/-- Induction principle for the loop: a predicate on (starting state, events, outcome) that is
stable under each pass holds of the loop. -/
theorem loop_induct (O : Ops α ν κ σ) (maxsteps : ℕ) (maxpath : Option α)
    (P : ℕ → ℕ → Ray α → List (Step α) → Outcome → Prop)
    (hfuel : ∀ count ray, P 0 count ray [] .outOfFuel)
    (hstop : ∀ fuel count ray s es,
      Pass O maxsteps maxpath (count + 1) ray s es .stop → P (fuel + 1) count ray es .finished)
    (hraise : ∀ fuel count ray s es e,
      Pass O maxsteps maxpath (count + 1) ray s es (.raise e) →
      P (fuel + 1) count ray es (.raised e))
    (hcont : ∀ fuel count ray s es ray' s' es' o,
      Pass O maxsteps maxpath (count + 1) ray s es (.cont ray' s') →
      P fuel (count + 1) ray' es' o → P (fuel + 1) count ray (es ++ es') o) :
    ∀ fuel count ray s, P fuel count ray (loop O maxsteps maxpath fuel count ray s).1
      (loop O maxsteps maxpath fuel count ray s).2 := by
  intro fuel
  induction fuel with
  | zero => intro count ray s; exact hfuel count ray
  | succ fuel ih =>
    intro count ray s
    have hp := body_pass O maxsteps maxpath (count + 1) ray s
    unfold loop
    rcases hb : body O maxsteps maxpath (count + 1) ray s with ⟨es, nx⟩
    rw [hb] at hp
    cases nx with
    | stop => exact hstop fuel count ray s es hp
    | raise e => exact hraise fuel count ray s es e hp
    | cont ray' s' => exact hcont fuel count ray s es ray' s' _ _ hp (ih (count + 1) ray' s')

end PV
