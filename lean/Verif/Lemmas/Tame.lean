import Verif.Model.Stream
import Verif.Lemmas.Stream
import Mathlib.MeasureTheory.Constructions.BorelSpace.Real
import Mathlib.MeasureTheory.Function.SpecialFunctions.Basic

/-!
Measurable programs. A function into structured data is *tame* if the domain splits into countably many
measurable pieces, and on each piece the data has a fixed form whose numbers are measurable functions.
-/

namespace PV.Measured
open MeasureTheory
variable {X : Type} [MeasurableSpace X] {β γ δ : Type}

/-! ### Functions with countably many values -/

/-- Countably many values, each taken on a measurable set. -/
def Disc (b : X → β) : Prop := (Set.range b).Countable ∧ ∀ c, MeasurableSet {x | b x = c}

theorem Disc.set {b : X → β} (h : Disc b) (P : β → X → Prop) (hP : ∀ c, (∃ x, b x = c) → MeasurableSet {x | P c x}) :
    MeasurableSet {x | P (b x) x} := by
  have : {x | P (b x) x} = ⋃ c ∈ Set.range b, ({x | b x = c} ∩ {x | P c x}) := by
    ext x
    simp only [Set.mem_ofPred_eq, Set.mem_iUnion, Set.mem_inter_iff, exists_prop]
    constructor
    · intro hx
      exact ⟨b x, ⟨x, rfl⟩, rfl, hx⟩
    · rintro ⟨c, -, rfl, hx⟩
      exact hx
  rw [this]
  exact MeasurableSet.biUnion h.1 fun c hc => (h.2 c).inter (hP c hc)

theorem Disc.const (c : β) : Disc (fun _ : X => c) := by
  refine ⟨(Set.countable_singleton c).mono ?_, fun d => ?_⟩
  · rintro _ ⟨x, rfl⟩
    rfl
  · exact MeasurableSet.const _

theorem Disc.prop {P : X → Prop} (h : MeasurableSet {x | P x}) : Disc P := by
  refine ⟨Set.to_countable _, fun q => ?_⟩
  by_cases hq : q
  · have : {x | P x = q} = {x | P x} := by
      ext x
      simp [hq]
    rw [this]
    exact h
  · have : {x | P x = q} = {x | P x}ᶜ := by
      ext x
      simp [hq]
    rw [this]
    exact h.compl

theorem Disc.cases {b : X → β} (h : Disc b) {F : β → X → γ} (hF : ∀ c, (∃ x, b x = c) → Disc (F c)) :
    Disc (fun x => F (b x) x) := by
  refine ⟨?_, fun y => h.set (fun c x => F c x = y) fun c hc => (hF c hc).2 y⟩
  have : Set.range (fun x => F (b x) x) ⊆ ⋃ c ∈ Set.range b, Set.range (F c) := by
    rintro _ ⟨x, rfl⟩
    simp only [Set.mem_iUnion]
    exact ⟨b x, ⟨x, rfl⟩, x, rfl⟩
  exact (h.1.biUnion fun c hc => (hF c hc).1).mono this

theorem Disc.map {b : X → β} (h : Disc b) (g : β → γ) : Disc (fun x => g (b x)) :=
  h.cases (F := fun c _ => g c) fun c _ => Disc.const (g c)

/-! ### Shapes of data -/

/-- The functions into a type which have one form with measurable numbers. -/
class Shape (γ : Type) where
  basic : ∀ {X : Type} [MeasurableSpace X], (X → γ) → Prop

export Shape (basic)

def Tame [Shape γ] (F : X → γ) : Prop :=
  ∃ D : X → X → γ, Disc D ∧ (∀ x, basic (D x)) ∧ ∀ x, F x = D x x

section General
variable [Shape γ] [Shape δ]

theorem Tame.of {F : X → γ} (h : basic F) : Tame F := ⟨fun _ => F, Disc.const F, fun _ => h, fun _ => rfl⟩

theorem Tame.cases {b : X → β} (hb : Disc b) {F : β → X → γ} (hF : ∀ c, (∃ x, b x = c) → Tame (F c)) :
    Tame (fun x => F (b x) x) := by
  classical
  choose D h1 h2 h3 using hF
  refine ⟨fun x => D (b x) ⟨x, rfl⟩ x, ?_, fun x => h2 (b x) ⟨x, rfl⟩ x, fun x => h3 (b x) ⟨x, rfl⟩ x⟩
  have e : (fun x => D (b x) ⟨x, rfl⟩ x) = fun x =>
      (fun c x => if hc : ∃ x, b x = c then D c hc x else D (b x) ⟨x, rfl⟩ x) (b x) x := by
    funext x
    have hx : ∃ y, b y = b x := ⟨x, rfl⟩
    simp only [dif_pos hx]
  rw [e]
  refine hb.cases (F := fun c x => if hc : ∃ x, b x = c then D c hc x else D (b x) ⟨x, rfl⟩ x) fun c hc => ?_
  simp only [dif_pos hc]
  exact h1 c hc

theorem Tame.elim {f : X → γ} {F : X → δ} (hf : Tame f)
    (h : ∀ G : X → γ, basic G → ∃ K : X → δ, Tame K ∧ ∀ x, f x = G x → F x = K x) : Tame F := by
  obtain ⟨D, h1, h2, h3⟩ := hf
  classical
  choose K k1 k2 using h
  have e : F = fun x => (fun (G : X → γ) (x : X) => if hG : basic G then K G hG x else F x) (D x) x := by
    funext x
    simp only [dif_pos (h2 x)]
    exact k2 (D x) (h2 x) x (h3 x)
  rw [e]
  refine Tame.cases (F := fun (G : X → γ) (x : X) => if hG : basic G then K G hG x else F x) h1 ?_
  rintro c ⟨x, rfl⟩
  simp only [dif_pos (h2 x)]
  exact k1 _ _

theorem Tame.set {F : X → γ} (hF : Tame F) (P : γ → X → Prop)
    (h : ∀ G : X → γ, basic G → MeasurableSet {x | P (G x) x}) : MeasurableSet {x | P (F x) x} := by
  obtain ⟨D, h1, h2, h3⟩ := hF
  have : {x | P (F x) x} = {x | (fun G x => P (G x) x) (D x) x} := by
    ext x
    simp only [Set.mem_ofPred_eq, h3 x]
  rw [this]
  refine h1.set (fun G x => P (G x) x) ?_
  rintro c ⟨x, rfl⟩
  exact h _ (h2 x)

theorem Tame.disc {F : X → γ} {g : γ → β} (hF : Tame F) (h : ∀ G : X → γ, basic G → Disc (fun x => g (G x))) :
    Disc (fun x => g (F x)) := by
  obtain ⟨D, h1, h2, h3⟩ := hF
  have : (fun x => g (F x)) = fun x => (fun G x => g (G x)) (D x) x := by
    funext x
    simp only [h3 x]
  rw [this]
  refine h1.cases (F := fun G x => g (G x)) ?_
  rintro c ⟨x, rfl⟩
  exact h _ (h2 x)

theorem Tame.ite {p : X → Prop} [∀ x, Decidable (p x)] (hp : MeasurableSet {x | p x}) {A B : X → γ} (hA : Tame A)
    (hB : Tame B) : Tame (fun x => if p x then A x else B x) := by
  classical
  have e : (fun x => if p x then A x else B x) =
      fun x => (fun (q : Prop) x => if q then A x else B x) (p x) x := by
    funext x
    by_cases h : p x <;> simp [h]
  rw [e]
  refine Tame.cases (F := fun (q : Prop) x => if q then A x else B x) (Disc.prop hp) fun c _ => ?_
  by_cases h : c
  · simpa [h] using hA
  · simpa [h] using hB

end General

/-- Cases on the form of tame data, then go on. -/
syntax "tame_step " term " with" (ppSpace colGt rintroPat)+ : tactic

macro_rules
  | `(tactic| tame_step $t with $ps*) => `(tactic|
      (refine Tame.elim $t ?_
       rintro $ps* <;>
       (apply Exists.intro
        apply And.intro
        rotate_left
        · intro x hx
          simp only [hx]
          rfl)))

/-! ### Numbers -/

instance : Shape ℝ := ⟨fun F => Measurable F⟩
instance : Shape (ℕ → ℝ) := ⟨fun F => Measurable F⟩

theorem Tame.measurable {F : X → ℝ} (h : Tame F) : Measurable F := by
  intro A hA
  exact h.set (fun y _ => y ∈ A) fun G hG => hG hA

theorem Tame.numbers {F : X → ℕ → ℝ} (h : Tame F) : Measurable F := by
  intro A hA
  exact h.set (fun y _ => y ∈ A) fun G hG => hG hA

/-! ### Things without numbers -/

/-- Only constants are basic. -/
@[reducible] def plain (γ : Type) : Shape γ := ⟨fun F => ∃ c, F = fun _ => c⟩

instance : Shape Bool := plain _
instance : Shape ℕ := plain _
instance : Shape Unit := plain _
instance (n : ℕ) : Shape (Fin n) := plain _
instance : Shape Comp := plain _
instance : Shape Event := plain _
instance : Shape String := plain _

/-! ### Options, results, pairs, lists -/

instance [Shape γ] : Shape (Option γ) :=
  ⟨fun F => (F = fun _ => none) ∨ ∃ G, basic G ∧ F = fun x => some (G x)⟩

instance {ε : Type} [Shape γ] : Shape (Except ε γ) :=
  ⟨fun F => (∃ e, F = fun _ => .error e) ∨ ∃ G, basic G ∧ F = fun x => .ok (G x)⟩

instance [Shape γ] [Shape δ] : Shape (γ × δ) :=
  ⟨fun F => ∃ G H, basic G ∧ basic H ∧ F = fun x => (G x, H x)⟩

instance [Shape γ] : Shape (List γ) :=
  ⟨fun {X} _ F => ∃ L : List (X → γ), (∀ f ∈ L, basic f) ∧ F = fun x => L.map (fun f => f x)⟩

section Data
variable [Shape γ] [Shape δ]

theorem Tame.none : Tame (fun _ : X => (none : Option γ)) := .of (.inl rfl)

theorem Tame.error {ε : Type} (e : ε) : Tame (fun _ : X => (.error e : Except ε γ)) := .of (.inl ⟨e, rfl⟩)

theorem Tame.some {F : X → γ} (h : Tame F) : Tame (fun x => some (F x)) := by
  tame_step h with G hG
  exact .of (.inr ⟨_, hG, rfl⟩)

theorem Tame.ok {ε : Type} {F : X → γ} (h : Tame F) : Tame (fun x => (.ok (F x) : Except ε γ)) := by
  tame_step h with G hG
  exact .of (.inr ⟨_, hG, rfl⟩)

theorem Tame.pair {F : X → γ} {G : X → δ} (hF : Tame F) (hG : Tame G) : Tame (fun x => (F x, G x)) := by
  refine Tame.elim hF fun A hA => ⟨fun x => (A x, G x), ?_, fun x hx => by simp only [hx]⟩
  refine Tame.elim hG fun B hB => ⟨fun x => (A x, B x), ?_, fun x hx => by simp only [hx]⟩
  exact .of ⟨_, _, hA, hB, rfl⟩

theorem Tame.fst {F : X → γ × δ} (h : Tame F) : Tame (fun x => (F x).1) := by
  refine Tame.elim h ?_
  rintro _ ⟨A, B, hA, hB, rfl⟩
  exact ⟨A, .of hA, fun x hx => by simp only [hx]⟩

theorem Tame.snd {F : X → γ × δ} (h : Tame F) : Tame (fun x => (F x).2) := by
  refine Tame.elim h ?_
  rintro _ ⟨A, B, hA, hB, rfl⟩
  exact ⟨B, .of hB, fun x hx => by simp only [hx]⟩

theorem Tame.nil : Tame (fun _ : X => ([] : List γ)) := .of ⟨[], by simp, rfl⟩

theorem Tame.cons {f : X → γ} {h : X → List γ} (hf : Tame f) (hh : Tame h) : Tame (fun x => f x :: h x) := by
  refine Tame.elim hf fun A hA => ⟨fun x => A x :: h x, ?_, fun x hx => by simp only [hx]⟩
  refine Tame.elim hh ?_
  rintro _ ⟨L, hL, rfl⟩
  refine ⟨fun x => (A :: L).map (fun f => f x), .of ⟨A :: L, ?_, rfl⟩, fun x hx => by simp only [hx, List.map_cons]⟩
  intro f hf
  rcases List.mem_cons.1 hf with rfl | hf
  · exact hA
  · exact hL f hf

theorem Tame.basicList {L : List (X → γ)} (hL : ∀ f ∈ L, basic f) : Tame (fun x => L.map (fun f => f x)) :=
  .of ⟨L, hL, rfl⟩

/-- Functions of lists defined by recursion. -/
theorem Tame.list {h : X → List γ} (hh : Tame h) {F : List γ → X → δ} (h0 : Tame (F []))
    (h1 : ∀ (f : X → γ) (L : List (X → γ)), basic f → (∀ g ∈ L, basic g) →
      Tame (fun x => F (L.map (fun f => f x)) x) → Tame (fun x => F (f x :: L.map (fun f => f x)) x)) :
    Tame (fun x => F (h x) x) := by
  refine Tame.elim hh ?_
  rintro _ ⟨L, hL, rfl⟩
  refine ⟨fun x => F (L.map (fun f => f x)) x, ?_, fun x hx => by simp only [hx]⟩
  clear hh
  induction L with
  | nil => exact h0
  | cons f L ih =>
    have hL' : ∀ g ∈ L, basic g := fun g hg => hL g (List.mem_cons_of_mem _ hg)
    exact h1 f L (hL f List.mem_cons_self) hL' (ih hL')

theorem Tame.append {g h : X → List γ} (hg : Tame g) (hh : Tame h) : Tame (fun x => g x ++ h x) := by
  refine Tame.list (F := fun l x => l ++ h x) hg hh ?_
  intro f L hf hL ih
  exact Tame.cons (.of hf) ih

theorem Tame.filter {h : X → List γ} {p : X → γ → Bool} (hh : Tame h)
    (hp : ∀ f : X → γ, basic f → MeasurableSet {x | p x (f x) = true}) : Tame (fun x => (h x).filter (p x)) := by
  refine Tame.list (F := fun l x => l.filter (p x)) hh Tame.nil ?_
  intro f L hf hL ih
  have : (fun x => (f x :: L.map (fun f => f x)).filter (p x)) = fun x =>
      if p x (f x) = true then f x :: (L.map (fun f => f x)).filter (p x)
      else (L.map (fun f => f x)).filter (p x) := by
    funext x
    rw [List.filter_cons]
  rw [this]
  exact Tame.ite (hp f hf) (Tame.cons (.of hf) ih) ih

theorem Tame.map {h : X → List γ} {g : X → γ → δ} (hh : Tame h)
    (hg : ∀ f : X → γ, basic f → Tame (fun x => g x (f x))) : Tame (fun x => (h x).map (g x)) := by
  refine Tame.list (F := fun l x => l.map (g x)) hh Tame.nil ?_
  intro f L hf hL ih
  exact Tame.cons (hg f hf) ih

theorem Tame.flatMap {ι : Type} (l : List ι) {g : X → ι → List γ} (hg : ∀ i, Tame (fun x => g x i)) :
    Tame (fun x => l.flatMap (g x)) := by
  induction l with
  | nil => exact Tame.nil
  | cons i l ih =>
    have : (fun x => (i :: l).flatMap (g x)) = fun x => g x i ++ l.flatMap (g x) := by
      funext x
      exact List.flatMap_cons
    rw [this]
    exact Tame.append (hg i) ih

theorem Tame.sorted {h : X → List γ} {key : X → γ → ℝ} (hh : Tame h)
    (hk : ∀ f : X → γ, basic f → Measurable (fun x => key x (f x))) :
    Tame (fun x => sortedBy (key x) (h x)) := by
  have ins : ∀ (f : X → γ), basic f → ∀ (h : X → List γ), Tame h →
      Tame (fun x => (h x).orderedInsert (fun a b => key x a ≤ key x b) (f x)) := by
    intro f hf h hh
    refine Tame.list (F := fun l x => l.orderedInsert (fun a b => key x a ≤ key x b) (f x)) hh ?_ ?_
    · exact Tame.cons (.of hf) Tame.nil
    · intro g L hg hL ih
      have : (fun x => (g x :: L.map (fun f => f x)).orderedInsert (fun a b => key x a ≤ key x b) (f x)) =
          fun x => if key x (f x) ≤ key x (g x) then f x :: g x :: L.map (fun f => f x)
            else g x :: (L.map (fun f => f x)).orderedInsert (fun a b => key x a ≤ key x b) (f x) := by
        funext x
        rw [List.orderedInsert_cons]
      rw [this]
      exact Tame.ite (measurableSet_le (hk f hf) (hk g hg))
        (Tame.cons (.of hf) (Tame.cons (.of hg) (Tame.basicList hL))) (Tame.cons (.of hg) ih)
  unfold sortedBy
  refine Tame.list (F := fun l x => l.insertionSort (fun a b => key x a ≤ key x b)) hh Tame.nil ?_
  intro f L hf hL ih
  exact ins f hf _ ih

end Data

/-! ### Vectors, rays, intersections -/

instance : Shape (Vec3 ℝ) :=
  ⟨fun F => ∃ a b c, Measurable a ∧ Measurable b ∧ Measurable c ∧ F = fun x => ⟨a x, b x, c x⟩⟩

instance : Shape (Ray ℝ) :=
  ⟨fun F => ∃ p d w t u src, basic p ∧ basic d ∧ Measurable w ∧ Measurable t ∧ Measurable u ∧
    F = fun x => ⟨p x, d x, w x, t x, u x, src⟩⟩

instance : Shape (Step ℝ) := ⟨fun F => basic (fun x => (F x).ray) ∧ basic (fun x => (F x).event)⟩

instance {n : ℕ} : Shape (Inter (Fin n) ℝ) :=
  ⟨fun F => ∃ v p t, basic p ∧ Measurable t ∧ F = fun x => ⟨v, p x, t x⟩⟩

instance {n : ℕ} : Shape (HitInfo (Fin n) ℝ) :=
  ⟨fun F => ∃ v c a p t, basic p ∧ Measurable t ∧ F = fun x => ⟨v, c, a, p x, t x⟩⟩

section Vectors
variable {v w : X → Vec3 ℝ}

theorem vec_add (hv : basic v) (hw : basic w) : basic (fun x => v x + w x) := by
  obtain ⟨a, b, c, ha, hb, hc, rfl⟩ := hv
  obtain ⟨a', b', c', ha', hb', hc', rfl⟩ := hw
  exact ⟨_, _, _, ha.add ha', hb.add hb', hc.add hc', rfl⟩

theorem vec_sub (hv : basic v) (hw : basic w) : basic (fun x => v x - w x) := by
  obtain ⟨a, b, c, ha, hb, hc, rfl⟩ := hv
  obtain ⟨a', b', c', ha', hb', hc', rfl⟩ := hw
  exact ⟨_, _, _, ha.sub ha', hb.sub hb', hc.sub hc', rfl⟩

theorem vec_neg (hv : basic v) : basic (fun x => - v x) := by
  obtain ⟨a, b, c, ha, hb, hc, rfl⟩ := hv
  exact ⟨_, _, _, ha.neg, hb.neg, hc.neg, rfl⟩

theorem vec_smul {t : X → ℝ} (ht : Measurable t) (hv : basic v) : basic (fun x => t x • v x) := by
  obtain ⟨a, b, c, ha, hb, hc, rfl⟩ := hv
  exact ⟨_, _, _, ht.mul ha, ht.mul hb, ht.mul hc, rfl⟩

theorem vec_dot (hv : basic v) (hw : basic w) : Measurable (fun x => (v x).dot (w x)) := by
  obtain ⟨a, b, c, ha, hb, hc, rfl⟩ := hv
  obtain ⟨a', b', c', ha', hb', hc', rfl⟩ := hw
  simp only [Vec3.dot]
  fun_prop

theorem vec_const (c : Vec3 ℝ) : basic (fun _ : X => c) :=
  ⟨_, _, _, measurable_const, measurable_const, measurable_const, rfl⟩

theorem vec_norm (hv : basic v) : Measurable (fun x => (v x).norm) := by
  have := vec_dot hv hv
  unfold Vec3.norm
  fun_prop

theorem vec_point (m : Affine ℝ) (hv : basic v) : basic (fun x => m.point (v x)) := by
  obtain ⟨a, b, c, ha, hb, hc, rfl⟩ := hv
  refine ⟨_, _, _, ?_, ?_, ?_, rfl⟩ <;> simp only [Affine.point, Affine.vec, Vec3.dot] <;> fun_prop

theorem vec_vec (m : Affine ℝ) (hv : basic v) : basic (fun x => m.vec (v x)) := by
  obtain ⟨a, b, c, ha, hb, hc, rfl⟩ := hv
  refine ⟨_, _, _, ?_, ?_, ?_, rfl⟩ <;> simp only [Affine.vec, Vec3.dot] <;> fun_prop

/-- A tame vector is basic. -/
theorem Tame.vec (h : Tame v) : basic v := by
  refine ⟨fun x => (v x).x, fun x => (v x).y, fun x => (v x).z, ?_, ?_, ?_, rfl⟩ <;>
  · intro A hA
    first
      | (refine h.set (fun y _ => y.x ∈ A) ?_
         rintro _ ⟨a, b, c, ha, hb, hc, rfl⟩
         exact ha hA)
      | (refine h.set (fun y _ => y.y ∈ A) ?_
         rintro _ ⟨a, b, c, ha, hb, hc, rfl⟩
         exact hb hA)
      | (refine h.set (fun y _ => y.z ∈ A) ?_
         rintro _ ⟨a, b, c, ha, hb, hc, rfl⟩
         exact hc hA)

end Vectors

end PV.Measured
