import Verif.Lemmas.OrderLaw
import Verif.Lemmas.Thinning
import Verif.Props.Reemission
import Verif.Props.Measurable

/-!
The order of the components of a material does not change the law of the histories of the Python tracer.
-/

namespace PV.Order
open MeasureTheory Set PV.Spec PV.Sphere Measured PV.Turned PV.Parts PV.Stream PV.Reemission PV.Library
open scoped ENNReal
noncomputable section
variable {n : ℕ}

/-! ### The choice of a component -/

/-- The index computed for a number. -/
def index (cs : List ℝ) (u : ℝ) : ℕ :=
  match pickIndex cs u with
  | .ok i => i
  | .error _ => 0

theorem index_ok {cs : List ℝ} (h : ∀ c ∈ cs, 0 ≤ c) (hs : 0 < cs.sum) {u : ℝ} (h0 : 0 ≤ u) (h1 : u < 1) :
    index cs u < cs.length ∧ pickIndex cs u = .ok (index cs u) := by
  obtain ⟨i, hi, e, -⟩ := Material.component_total h hs h0 h1
  unfold index
  rw [e]
  exact ⟨hi, rfl⟩

theorem index_iff {cs : List ℝ} (h : ∀ c ∈ cs, 0 ≤ c) (hs : 0 < cs.sum) {u : ℝ} (h0 : 0 ≤ u) (h1 : u < 1) (i : ℕ) :
    index cs u = i ↔ pickIndex cs u = .ok i := by
  rw [(index_ok h hs h0 h1).2, Except.ok.injEq]

theorem mean_component {comps : List Comp} {cs : List ℝ} (hl : cs.length = comps.length) (h : ∀ c ∈ cs, 0 ≤ c) (hs : 0 < cs.sum)
    (g : Comp → ℝ≥0∞) :
    ∫⁻ u in Ioo (0 : ℝ) 1, g ((comps[index cs u]?).getD noComp) =
      ((comps.zip cs).map fun p => g p.1 * ENNReal.ofReal (p.2 / cs.sum)).sum := by
  refine mean_index hl (fun u hu => (index_ok h hs hu.1.le hu.2).1) (fun i hi => ?_) (fun i hi => ?_) g
  · have e : {u : ℝ | u ∈ Ioo (0 : ℝ) 1 ∧ index cs u = i} =
        Ioo 0 1 ∩ Ico ((cs.take i).sum / cs.sum) ((cs.take (i + 1)).sum / cs.sum) := by
      ext u
      constructor
      · rintro ⟨hu, hk⟩
        exact ⟨hu, (Material.component_interval h hs hi hu.1.le hu.2).1.1 ((index_iff h hs hu.1.le hu.2 i).1 hk)⟩
      · rintro ⟨hu, hk⟩
        exact ⟨hu, (index_iff h hs hu.1.le hu.2 i).2 ((Material.component_interval h hs hi hu.1.le hu.2).1.2 hk)⟩
    rw [e]
    exact measurableSet_Ioo.inter measurableSet_Ico
  · rw [← Material.component_probability h hs hi]
    congr 1
    ext u
    constructor
    · rintro ⟨hu, hk⟩
      exact ⟨hu, (index_iff h hs hu.1 hu.2 i).1 hk⟩
    · rintro ⟨hu, hk⟩
      exact ⟨hu, (index_iff h hs hu.1 hu.2 i).2 hk⟩

theorem component_at {comps : List Comp} {w : ℝ} {cs : List ℝ} (hcs : coefficients comps w = .ok cs) (h : ∀ c ∈ cs, 0 ≤ c)
    (hs : 0 < cs.sum) {u : ℝ} (h0 : 0 ≤ u) (h1 : u < 1) (Q : Comp → Numbers → Prop) (t : Numbers) :
    (∃ c t', pickComponent reader comps w (push (u, t)) = .ok (c, t') ∧ Q c t') ↔ Q ((comps[index cs u]?).getD noComp) t := by
  have hl : cs.length = comps.length := (PV.coefficients_ok hcs).length_eq.symm
  obtain ⟨h1, h2⟩ := index_ok h hs h0 h1
  have hlt : index cs u < comps.length := hl ▸ h1
  have e : pickComponent reader comps w (push (u, t)) = .ok (comps[index cs u], t) := by
    have hn : reader.next (push (u, t)) = (u, t) := rfl
    unfold pickComponent
    simp only [hcs, hn, h2, List.getElem?_eq_getElem hlt]
  rw [e, List.getElem?_eq_getElem hlt, Option.getD_some]
  exact ⟨fun ⟨_, _, h, q⟩ => by cases h; exact q, fun q => ⟨_, _, rfl, q⟩⟩

/-- What follows a component that can be chosen is measurable. -/
theorem component_section {comps : List Comp} {w : ℝ} {cs : List ℝ} (hcs : coefficients comps w = .ok cs) (h : ∀ c ∈ cs, 0 ≤ c)
    (hs : 0 < cs.sum) (Q : Comp → Numbers → Prop)
    (hQ : MeasurableSet {s | ∃ c t, pickComponent reader comps w s = .ok (c, t) ∧ Q c t}) {p : Comp × ℝ} (hp : p ∈ comps.zip cs)
    (hx : 0 < p.2) : MeasurableSet {t | Q p.1 t} := by
  have hl : cs.length = comps.length := (PV.coefficients_ok hcs).length_eq.symm
  obtain ⟨i, hi, e⟩ := List.mem_iff_getElem.1 hp
  rw [List.getElem_zip] at e
  have hi1 : i < comps.length := by simp at hi; omega
  have hi2 : i < cs.length := by omega
  obtain rfl : p = (comps[i], cs[i]) := e.symm
  have hne : volume {u : ℝ | u ∈ Ico (0 : ℝ) 1 ∧ pickIndex cs u = .ok i} ≠ 0 := by
    rw [Material.component_probability h hs hi2]
    exact (ENNReal.ofReal_pos.2 (div_pos hx hs)).ne'
  obtain ⟨u, hu, hk⟩ := nonempty_of_measure_ne_zero hne
  have hm : MeasurableSet {t | push (u, t) ∈ {s | ∃ c t, pickComponent reader comps w s = .ok (c, t) ∧ Q c t}} :=
    (measurable_push.comp measurable_prodMk_left) hQ
  have e2 : {t | push (u, t) ∈ {s | ∃ c t, pickComponent reader comps w s = .ok (c, t) ∧ Q c t}} = {t | Q comps[i] t} := by
    ext t
    have := component_at hcs h hs hu.1 hu.2 Q t
    rw [(index_iff h hs hu.1 hu.2 i).2 hk, List.getElem?_eq_getElem hi1, Option.getD_some] at this
    exact this
  rw [e2] at hm
  exact hm

theorem component_chance {comps : List Comp} {w : ℝ} {cs : List ℝ} (hcs : coefficients comps w = .ok cs) (h : ∀ c ∈ cs, 0 ≤ c)
    (hs : 0 < cs.sum) (Q : Comp → Numbers → Prop)
    (hQ : MeasurableSet {s | ∃ c t, pickComponent reader comps w s = .ok (c, t) ∧ Q c t}) :
    independent {s | ∃ c t, pickComponent reader comps w s = .ok (c, t) ∧ Q c t} =
      ((comps.zip cs).map fun p => independent {t | Q p.1 t} * ENNReal.ofReal (p.2 / cs.sum)).sum := by
  have hl : cs.length = comps.length := (PV.coefficients_ok hcs).length_eq.symm
  rw [first _ hQ, ← setLIntegral_congr Ioo_ae_eq_Icc, ← mean_component hl h hs fun c => independent {t | Q c t}]
  refine setLIntegral_congr_fun measurableSet_Ioo fun u hu => ?_
  congr 1
  ext t
  exact component_at hcs h hs hu.1.le hu.2 Q t

/-! ### Coefficients in another order -/

theorem coefficients_zip {comps : List Comp} {w : ℝ} {cs : List ℝ} :
    coefficients comps w = .ok cs ↔ comps.map (fun c => c.coefficient w) = cs.map .ok := by
  induction comps generalizing cs with
  | nil =>
    unfold coefficients
    cases cs with
    | nil => exact ⟨fun _ => rfl, fun _ => rfl⟩
    | cons x cs => exact ⟨fun h => (by cases h), fun h => (by cases h)⟩
  | cons c comps ih =>
    unfold coefficients at ih ⊢
    constructor
    · intro h
      rw [List.mapM_cons] at h
      cases hc : c.coefficient w with
      | error e => rw [hc] at h; cases h
      | ok x =>
        rw [hc] at h
        cases hm : comps.mapM (fun c => c.coefficient w) with
        | error e => rw [hm] at h; cases h
        | ok xs =>
          rw [hm] at h
          cases h
          rw [List.map_cons, List.map_cons, hc, ih.1 hm]
    · intro h
      cases cs with
      | nil => cases h
      | cons y cs =>
        simp only [List.map_cons, List.cons.injEq] at h
        rw [List.mapM_cons, h.1, ih.2 h.2]
        rfl

theorem coefficients_perm {a b : List Comp} (h : a.Perm b) {w : ℝ} {xs : List ℝ} (ha : coefficients a w = .ok xs) :
    ∃ ys, coefficients b w = .ok ys ∧ (a.zip xs).Perm (b.zip ys) := by
  induction h generalizing xs with
  | nil => exact ⟨xs, ha, .refl _⟩
  | cons c _ ih =>
    rw [coefficients_zip] at ha
    cases xs with
    | nil => cases ha
    | cons x xs =>
      simp only [List.map_cons, List.cons.injEq] at ha
      obtain ⟨ys, h1, h2⟩ := ih (coefficients_zip.2 ha.2)
      refine ⟨x :: ys, coefficients_zip.2 ?_, h2.cons _⟩
      rw [List.map_cons, List.map_cons, ha.1, coefficients_zip.1 h1]
  | swap c d l =>
    rw [coefficients_zip] at ha
    cases xs with
    | nil => cases ha
    | cons x xs =>
      cases xs with
      | nil => simp at ha
      | cons y xs =>
        simp only [List.map_cons, List.cons.injEq] at ha
        refine ⟨y :: x :: xs, coefficients_zip.2 ?_, .swap _ _ _⟩
        simp only [List.map_cons, ha]
  | trans _ _ ih1 ih2 =>
    obtain ⟨ys, h1, h2⟩ := ih1 ha
    obtain ⟨zs, h3, h4⟩ := ih2 h1
    exact ⟨zs, h3, h2.trans h4⟩

theorem zip_sums {a b : List Comp} {w : ℝ} {xs ys : List ℝ} (h : (a.zip xs).Perm (b.zip ys)) (hx : coefficients a w = .ok xs)
    (hy : coefficients b w = .ok ys) : xs.Perm ys := by
  have := h.map Prod.snd
  rwa [List.map_snd_zip (PV.coefficients_ok hx).length_eq.symm.le, List.map_snd_zip (PV.coefficients_ok hy).length_eq.symm.le] at this

theorem depth_perm {a b : List Comp} (h : a.Perm b) {w : ℝ} {s : Numbers} {d : Option ℝ} {t : Numbers}
    (ha : penetrationDepth reader a w s = .ok (d, t)) : penetrationDepth reader b w s = .ok (d, t) := by
  rcases hx : coefficients a w with e | xs
  · unfold penetrationDepth at ha
    rw [hx] at ha
    cases ha
  · obtain ⟨ys, hy, hz⟩ := coefficients_perm h hx
    have e := (zip_sums hz hx hy).sum_eq
    unfold penetrationDepth at ha ⊢
    rw [hx] at ha
    rw [hy]
    dsimp only at ha ⊢
    rw [← e]
    exact ha

/-! ### The tracer -/

/-- The rays and events of some steps. -/
def pairs (es : List (Step ℝ)) : List (Ray ℝ × Event) := es.map fun e => (e.ray, e.event)

/-- A condition on histories with measurable instances. -/
def Asks (E : List (Ray ℝ × Event) → Prop) : Prop :=
  ∀ b : Numbers → List (Ray ℝ × Event), basic b → MeasurableSet {s | E (b s)}

theorem Asks.prefix {E : List (Ray ℝ × Event) → Prop} (hE : Asks E) (L : List (Ray ℝ × Event)) : Asks fun l => E (L ++ l) := by
  rintro b ⟨M, hM, rfl⟩
  refine hE (fun s => L ++ M.map fun f => f s) ⟨(L.map fun o _ => o) ++ M, ?_, ?_⟩
  · intro f hf
    rcases List.mem_append.1 hf with h | h
    · obtain ⟨o, -, rfl⟩ := List.mem_map.1 h
      exact ⟨_, _, ray_basic o.1, ⟨o.2, rfl⟩, rfl⟩
    · exact hM f h
  · funext s
    simp [Function.comp_def]

section Tracer
variable {ν κ : Type} [DecidableEq ν] (O : Ops ℝ ν κ Numbers) (maxsteps : ℕ) (maxpath : Option ℝ)

/-- The rest of a ray's history is as asked. -/
def Out (fuel count : ℕ) (E : List (Ray ℝ × Event) → Prop) (ray : Ray ℝ) (s : Numbers) : Prop :=
  ∃ es t, passes O maxsteps maxpath fuel count ray s = .ok (es, t) ∧ E (pairs es)

/-- A pass and the rest are as asked. -/
def Cont (fuel count : ℕ) (E : List (Ray ℝ × Event) → Prop) (x : List (Step ℝ) × Option (Ray ℝ)) (t : Numbers) : Prop :=
  match x.2 with
  | none => E (pairs x.1)
  | some ray => Out O maxsteps maxpath fuel count (fun l => E (pairs x.1 ++ l)) ray t

variable {O maxsteps maxpath}

theorem out_succ {fuel count : ℕ} {E : List (Ray ℝ × Event) → Prop} {ray : Ray ℝ} (s : Numbers) :
    Out O maxsteps maxpath (fuel + 1) count E ray s ↔
      Ends (pass O maxsteps maxpath (count + 1) ray) (Cont O maxsteps maxpath fuel (count + 1) E) s := by
  unfold Out Reemission.Ends Cont Out
  rw [passes]
  rcases pass O maxsteps maxpath (count + 1) ray s with e | ⟨⟨es, _ | r⟩, t⟩
  · simp
  · simp
  · simp only [Except.ok.injEq, Prod.mk.injEq]
    constructor
    · rintro ⟨es', t', h1, h2⟩
      refine ⟨_, _, ⟨rfl, rfl⟩, ?_⟩
      dsimp only
      rcases h : passes O maxsteps maxpath fuel (count + 1) r t with e | ⟨es'', t''⟩
      · rw [h] at h1; cases h1
      · rw [h] at h1; cases h1
        exact ⟨es'', t', rfl, by simpa [pairs] using h2⟩
    · rintro ⟨_, _, ⟨rfl, rfl⟩, es', t', h1, h2⟩
      dsimp only at h1 h2
      rw [h1]
      exact ⟨_, _, rfl, by simpa [pairs] using h2⟩

theorem set_iff {p q : Numbers → Prop} (h : ∀ s, p s ↔ q s) : {s | p s} = {s | q s} := by
  ext s
  exact h s

theorem fair_same {β : Type} {f : Numbers → Except Err (β × Numbers)} (hf : Fair f) {A B : β → Numbers → Prop}
    (hA : MeasurableSet {s | ∃ b t, f s = .ok (b, t) ∧ A b t}) (hB : MeasurableSet {s | ∃ b t, f s = .ok (b, t) ∧ B b t})
    (h : ∀ b, (∃ s t, f s = .ok (b, t)) → MeasurableSet {t | A b t} → MeasurableSet {t | B b t} →
      independent {t | A b t} = independent {t | B b t}) :
    independent {s | ∃ b t, f s = .ok (b, t) ∧ A b t} = independent {s | ∃ b t, f s = .ok (b, t) ∧ B b t} := by
  have z : independent (∅ : Set Numbers) = 0 := measure_empty
  have h1 := hf.compare (c := 1) (d := 1) (W := fun _ _ => False) (fun s => Iff.rfl) hA (fun s => Iff.rfl) hB
    (fun _ _ _ _ => by simp) MeasurableSet.empty z fun s b t e m1 m2 _ _ => by rw [h b ⟨s, t, e⟩ m1 m2]
  have h2 := hf.compare (c := 1) (d := 1) (W := fun _ _ => False) (fun s => Iff.rfl) hB (fun s => Iff.rfl) hA
    (fun _ _ _ _ => by simp) MeasurableSet.empty z fun s b t e m1 m2 _ _ => by rw [h b ⟨s, t, e⟩ m2 m1]
  rw [one_mul, one_mul] at h1 h2
  exact le_antisymm h1 h2

theorem step_same {X Y : Type} {f : Numbers → Except Err (Y × Numbers)} {g : Numbers → Except Err (X × Numbers)}
    {g' : Y → Numbers → Except Err (X × Numbers)} {KA KB : X → Numbers → Prop} (hf : Fair f)
    (hA : MeasurableSet {s | Ends g KA s}) (hB : MeasurableSet {s | Ends g KB s}) (h1 : ∀ s e, f s = .error e → g s = .error e)
    (h2 : ∀ s b t, f s = .ok (b, t) → g s = g' b t)
    (h : ∀ b, (∃ s t, f s = .ok (b, t)) → MeasurableSet {t | Ends (g' b) KA t} → MeasurableSet {t | Ends (g' b) KB t} →
      independent {t | Ends (g' b) KA t} = independent {t | Ends (g' b) KB t}) :
    independent {s | Ends g KA s} = independent {s | Ends g KB s} := by
  have e : ∀ K, {s | Ends g K s} = {s | ∃ b t, f s = .ok (b, t) ∧ Ends (g' b) K t} := fun K => by
    ext s; exact ends_bind h1 h2 s
  rw [e] at hA hB ⊢
  rw [e]
  exact fair_same hf hA hB h

/-- Run a part of the program, then go on. -/
macro "same_step" t:term "with" b:ident hb:ident hA:ident hB:ident : tactic => `(tactic|
  (apply step_same $t $hA $hB
   · intro s e h
     simp only [h]
   · intro s b t h
     simp only [h]
     rfl
   intro $b $hb
   clear $hA $hB
   intro $hA $hB
   try dsimp only at $hA:ident $hB:ident ⊢))

variable {fuel count : ℕ} {KA KB : List (Step ℝ) × Option (Ray ℝ) → Numbers → Prop}

theorem surface_law (hO : FairOps O) (ih : ∀ x, independent {t | KA x t} = independent {t | KB x t}) (h : HitInfo ν ℝ) (ray : Ray ℝ)
    (hA : MeasurableSet {s | Ends (surfacePass O h ray) KA s}) (hB : MeasurableSet {s | Ends (surfacePass O h ray) KB s}) :
    independent {s | Ends (surfacePass O h ray) KA s} = independent {s | Ends (surfacePass O h ray) KB s} := by
  unfold surfacePass at hA hB ⊢
  dsimp only at hA hB ⊢
  generalize ray.propagate h.dist (O.refractiveIndex h.container) = r at hA hB ⊢
  generalize O.normal h.hit r.position = w at hA hB ⊢
  rcases w with e | nrm
  · simp only [ends_error]
  dsimp only at hA hB ⊢
  same_step (hO.reflected h.hit h.container h.adjacent r) with b hb hA hB
  cases b
  · simp only [Bool.false_eq_true, if_false] at hA hB ⊢
    same_step (hO.transmit h.hit h.container h.adjacent r) with next hb hA hB
    generalize h.adjacent = w at hA hB ⊢
    rcases w with _ | a
    · simp only [ends_error]
    · simp only [ends_ok]
      exact ih _
  · simp only [if_true] at hA hB ⊢
    same_step (hO.reflect h.hit h.container h.adjacent r) with next hb hA hB
    simp only [ends_ok]
    exact ih _

theorem stage_law (hO : FairOps O) (ih : ∀ x, independent {t | KA x t} = independent {t | KB x t}) (v : ν) (comp : κ) (r : Ray ℝ)
    (hA : MeasurableSet {s | Ends (Reemission.stage O v comp r) KA s}) (hB : MeasurableSet {s | Ends (Reemission.stage O v comp r) KB s}) :
    independent {s | Ends (Reemission.stage O v comp r) KA s} = independent {s | Ends (Reemission.stage O v comp r) KB s} := by
  unfold Reemission.stage at hA hB ⊢
  same_step (hO.radiative comp r) with b hb hA hB
  cases b
  · simp only [Bool.false_eq_true, if_false] at hA hB ⊢
    unfold lose at hA hB ⊢
    same_step (hO.absorb comp r) with next hb hA hB
    cases hk : O.compKind comp <;> simp only [hk, ends_ok] <;> exact ih _
  · simp only [if_true] at hA hB ⊢
    unfold shine at hA hB ⊢
    same_step (hO.emit v comp r) with next hb hA hB
    cases hk : O.compKind comp <;> simp only [hk, ends_ok, ends_error] <;> exact ih _

theorem cont_law {O' : Ops ℝ ν κ Numbers} {E : List (Ray ℝ × Event) → Prop} (hE : Asks E)
    (ih : ∀ E, Asks E → ∀ ray, independent {t | Out O' maxsteps maxpath fuel count E ray t} =
      independent {t | Out O maxsteps maxpath fuel count E ray t}) (x : List (Step ℝ) × Option (Ray ℝ)) :
    independent {t | Cont O' maxsteps maxpath fuel count E x t} = independent {t | Cont O maxsteps maxpath fuel count E x t} := by
  obtain ⟨es, _ | ray⟩ := x
  · rfl
  · exact ih _ (hE.prefix _) ray

/-- Absorption or the surface. -/
def fork (O : Ops ℝ ν κ Numbers) (h : HitInfo ν ℝ) (ray : Ray ℝ) (depth : Option ℝ) (s : Numbers) :
    Except Err ((List (Step ℝ) × Option (Ray ℝ)) × Numbers) :=
  match isAbsorbed depth h.dist with
  | some d => absorbPass O h.container ray d s
  | none => surfacePass O h ray s

/-- The part of a pass that draws numbers. -/
def tail (O : Ops ℝ ν κ Numbers) (h : HitInfo ν ℝ) (ray : Ray ℝ) (s : Numbers) :
    Except Err ((List (Step ℝ) × Option (Ray ℝ)) × Numbers) :=
  match O.penetrationDepth h.container ray.wavelength s with
  | .error e => .error e
  | .ok (depth, s) => fork O h ray depth s

theorem tail_iff {h : HitInfo ν ℝ} {ray : Ray ℝ} {K : List (Step ℝ) × Option (Ray ℝ) → Numbers → Prop} (s : Numbers) :
    Reemission.Ends (tail O h ray) K s ↔
      ∃ d t, O.penetrationDepth h.container ray.wavelength s = .ok (d, t) ∧ Reemission.Ends (fork O h ray d) K t :=
  ends_bind (fun s e he => by unfold tail; simp only [he]) (fun s b t he => by unfold tail; simp only [he]) s

theorem pass_tail (O : Ops ℝ ν κ Numbers) (count : ℕ) (ray : Ray ℝ) : pass O maxsteps maxpath count ray = fun s =>
    match O.intersections ray.position ray.direction with
    | .error e => .error e
    | .ok xs =>
      match nextHit O.eps (O.distBetween ray.position) xs with
      | .error e => .error e
      | .ok none => .ok (([], none), s)
      | .ok (some h) =>
        if count > maxsteps ∨ beyond ray.travelled maxpath then
          .ok (([⟨ray, .kill, { container := some (O.name h.container) }⟩], none), s)
        else if h.hit = O.root then
          .ok (([⟨ray.propagate h.dist (O.refractiveIndex h.container), .exit,
              { hit := some (O.name h.hit), container := some (O.name h.container),
                adjacent := h.adjacent.map O.name }⟩], none), s)
        else tail O h ray s := by
  funext s
  unfold pass tail fork
  rcases O.intersections ray.position ray.direction with e | xs
  · rfl
  dsimp only
  rcases nextHit O.eps (O.distBetween ray.position) xs with e | _ | h
  · rfl
  · rfl
  dsimp only
  split_ifs
  · rfl
  · rfl
  · rcases O.penetrationDepth h.container ray.wavelength s with e | ⟨d, s⟩
    · rfl
    dsimp only
    rcases isAbsorbed d h.dist with _ | x
    · rfl
    · rfl

/-- Other functions for the depth and the choice of a component that have the same law. -/
theorem loop_law (hO : FairOps O) {D : ν → ℝ → Numbers → Except Err (Option ℝ × Numbers)} {P : ν → ℝ → Numbers → Except Err (κ × Numbers)}
    (hD : ∀ v w s d t, D v w s = .ok (d, t) ↔ O.penetrationDepth v w s = .ok (d, t))
    (hP : ∀ v w, (∃ s d t, O.penetrationDepth v w s = .ok (some d, t)) → ∀ QA QB : κ → Numbers → Prop,
      MeasurableSet {s | ∃ c t, P v w s = .ok (c, t) ∧ QA c t} →
      MeasurableSet {s | ∃ c t, O.component v w s = .ok (c, t) ∧ QB c t} →
      (∀ c, MeasurableSet {t | QA c t} → MeasurableSet {t | QB c t} → independent {t | QA c t} = independent {t | QB c t}) →
      independent {s | ∃ c t, P v w s = .ok (c, t) ∧ QA c t} = independent {s | ∃ c t, O.component v w s = .ok (c, t) ∧ QB c t})
    (hMA : ∀ fuel count E, Asks E → ∀ ray,
      MeasurableSet {s | Out { O with penetrationDepth := D, component := P } maxsteps maxpath fuel count E ray s})
    (hMB : ∀ fuel count E, Asks E → ∀ ray, MeasurableSet {s | Out O maxsteps maxpath fuel count E ray s}) :
    ∀ fuel count E, Asks E → ∀ ray,
      independent {s | Out { O with penetrationDepth := D, component := P } maxsteps maxpath fuel count E ray s} =
        independent {s | Out O maxsteps maxpath fuel count E ray s} := by
  intro fuel
  induction fuel with
  | zero =>
    intro count E _ ray
    have z : ∀ O : Ops ℝ ν κ Numbers, {s | Out O maxsteps maxpath 0 count E ray s} = ∅ := fun O =>
      Set.eq_empty_of_forall_notMem fun t ⟨_, _, h, _⟩ => by cases h
    rw [z, z]
  | succ fuel ih =>
    intro count E hE ray
    have hA := hMA (fuel + 1) count E hE ray
    have hB := hMB (fuel + 1) count E hE ray
    have hK := cont_law (maxsteps := maxsteps) (maxpath := maxpath) hE (ih (count + 1))
    simp only [out_succ] at hA hB ⊢
    generalize Cont { O with penetrationDepth := D, component := P } maxsteps maxpath fuel (count + 1) E = KA at hA hK ⊢
    generalize Cont O maxsteps maxpath fuel (count + 1) E = KB at hB hK ⊢
    simp only [pass_tail] at hA hB ⊢
    generalize O.intersections ray.position ray.direction = w at hA hB ⊢
    rcases w with e | xs
    · simp only [ends_error]
    dsimp only at hA hB ⊢
    generalize nextHit O.eps (O.distBetween ray.position) xs = w at hA hB ⊢
    rcases w with e | _ | h
    · simp only [ends_error]
    · simp only [ends_ok]
      exact hK _
    dsimp only at hA hB ⊢
    split_ifs at hA hB ⊢
    · simp only [ends_ok]
      exact hK _
    · simp only [ends_ok]
      exact hK _
    have eA : ∀ s, _ ↔ _ := fun s => tail_iff (O := { O with penetrationDepth := D, component := P }) (K := KA) (h := h) (ray := ray) s
    have eB : ∀ s, _ ↔ _ := fun s => tail_iff (O := O) (K := KB) (h := h) (ray := ray) s
    simp only [hD] at eA
    replace hA := (congrArg MeasurableSet (set_iff eA)).mp hA
    replace hB := (congrArg MeasurableSet (set_iff eB)).mp hB
    refine ((congrArg independent (set_iff eA)).trans ?_).trans (congrArg independent (set_iff eB)).symm
    clear eA eB
    refine fair_same (hO.depth h.container ray.wavelength) hA hB ?_
    rintro depth ⟨s0, t0, hd⟩ hA hB
    rcases hx : isAbsorbed depth h.dist with _ | x
    · have ef : ∀ O : Ops ℝ ν κ Numbers, fork O h ray depth = surfacePass O h ray := fun O => by
        funext s
        unfold fork
        rw [hx]
      rw [ef] at hA hB ⊢
      rw [ef]
      exact surface_law hO hK h ray hA hB
    · have hd' : ∃ s d t, O.penetrationDepth h.container ray.wavelength s = .ok (some d, t) := by
        rcases depth with _ | d
        · cases hx
        · exact ⟨s0, d, t0, hd⟩
      have ef : ∀ O : Ops ℝ ν κ Numbers, fork O h ray depth = absorbPass O h.container ray x := fun O => by
        funext s
        unfold fork
        rw [hx]
      rw [ef] at hA hB ⊢
      rw [ef]
      have ea : ∀ (O : Ops ℝ ν κ Numbers) (K : List (Step ℝ) × Option (Ray ℝ) → Numbers → Prop) s,
          Reemission.Ends (absorbPass O h.container ray x) K s ↔
          ∃ c t, O.component h.container ray.wavelength s = .ok (c, t) ∧
            Reemission.Ends (Reemission.stage O h.container c (ray.propagate x (O.refractiveIndex h.container))) K t := by
        intro O K s
        exact ends_bind (f := O.component h.container ray.wavelength)
          (fun s e he => by
            rw [Reemission.absorb_parts]
            have he' : O.component h.container (ray.propagate x (O.refractiveIndex h.container)).wavelength s = .error e := he
            simp only [he'])
          (fun s b t he => by
            rw [Reemission.absorb_parts]
            have he' : O.component h.container (ray.propagate x (O.refractiveIndex h.container)).wavelength s = .ok (b, t) := he
            simp only [he']
            rfl) s
      have ha : ∀ (O : Ops ℝ ν κ Numbers) (K : List (Step ℝ) × Option (Ray ℝ) → Numbers → Prop),
          {s | Reemission.Ends (absorbPass O h.container ray x) K s} =
          {s | ∃ c t, O.component h.container ray.wavelength s = .ok (c, t) ∧
            Reemission.Ends (Reemission.stage O h.container c (ray.propagate x (O.refractiveIndex h.container))) K t} := fun O K => by
        ext s; exact ea O K s
      rw [ha] at hA hB ⊢
      rw [ha]
      exact hP h.container ray.wavelength hd' _ _ hA hB fun c m1 m2 => stage_law hO hK h.container c _ m1 m2

end Tracer

/-! ### Library scenes -/

variable {S : LScene n} {C : Fin (n + 1) → List Comp} {B : Trimesh} {method : EmitMethod} {maxsteps : ℕ} {maxpath : Option ℝ}

/-- The choice from a list in another order. -/
theorem component_perm {a b : List Comp} (hp : a.Perm b) {w : ℝ} {ys : List ℝ} (hy : coefficients b w = .ok ys) (h : ∀ c ∈ ys, 0 ≤ c)
    (hs : 0 < ys.sum) (QA QB : Comp → Numbers → Prop)
    (hA : MeasurableSet {s | ∃ c t, pickComponent reader a w s = .ok (c, t) ∧ QA c t})
    (hB : MeasurableSet {s | ∃ c t, pickComponent reader b w s = .ok (c, t) ∧ QB c t})
    (hQ : ∀ c, MeasurableSet {t | QA c t} → MeasurableSet {t | QB c t} → independent {t | QA c t} = independent {t | QB c t}) :
    independent {s | ∃ c t, pickComponent reader a w s = .ok (c, t) ∧ QA c t} =
      independent {s | ∃ c t, pickComponent reader b w s = .ok (c, t) ∧ QB c t} := by
  obtain ⟨xs, hx, hz⟩ := coefficients_perm hp.symm hy
  have hxy := zip_sums hz hy hx
  have h' : ∀ c ∈ xs, 0 ≤ c := fun c hc => h c (hxy.mem_iff.2 hc)
  have hs' : 0 < xs.sum := hxy.sum_eq ▸ hs
  rw [component_chance hx h' hs' QA hA, component_chance hy h hs QB hB, ← (hz.map _).sum_eq, ← hxy.sum_eq]
  refine congrArg List.sum (List.map_congr_left fun p hp => ?_)
  rcases (h p.2 (List.of_mem_zip hp).2).lt_or_eq with h0 | h0
  · rw [hQ p.1 (component_section hx h' hs' QA hA (hz.mem_iff.1 hp) h0) (component_section hy h hs QB hB hp h0)]
  · rw [← h0]
    simp

theorem out_set (S : LScene n) (hB : BorelMesh B) (fuel count : ℕ) {E : List (Ray ℝ × Event) → Prop} (hE : Asks E) (ray : Ray ℝ) :
    MeasurableSet {s | Out (pyOps S B reader method) maxsteps maxpath fuel count E ray s} := by
  refine (passes_tame (X := Numbers) S method (mesh_tame hB) maxsteps maxpath fuel count (ray_basic ray) measurable_id).set
    (fun y _ => ∃ es t, y = .ok (es, t) ∧ E (pairs es)) ?_
  rintro _ (⟨e, rfl⟩ | ⟨_, ⟨es, t, hes, ht, rfl⟩, rfl⟩)
  · simp
  · have e : {s : Numbers | ∃ c u, (.ok (es s, t s) : Except Err (List (Step ℝ) × Numbers)) = .ok (c, u) ∧ E (pairs c)} =
        {s | E (pairs (es s))} := by
      ext s
      exact ⟨fun ⟨_, _, h, hc⟩ => by cases h; exact hc, fun h => ⟨_, _, rfl, h⟩⟩
    rw [e]
    refine hE _ ?_
    obtain ⟨L, hL, rfl⟩ := hes
    refine ⟨L.map fun f s => ((f s).ray, (f s).event), ?_, ?_⟩
    · intro g hg
      obtain ⟨f, hf, rfl⟩ := List.mem_map.1 hg
      obtain ⟨h1, h2⟩ := hL f hf
      exact ⟨_, _, h1, h2, rfl⟩
    · funext s
      simp [pairs, Function.comp_def]

/-- The law of the histories of the Python tracer does not depend on the order of the components. -/
theorem python_law (hp : ∀ v, (C v).Perm (S.node v).comps) (hS : ∀ v, ∀ c ∈ (S.node v).comps, GoodComp c) (hB : BorelMesh B)
    (fuel count : ℕ) {E : List (Ray ℝ × Event) → Prop} (hE : Asks E) (ray : Ray ℝ) :
    independent {s | Out (pyOps (withComps S C) B reader method) maxsteps maxpath fuel count E ray s} =
      independent {s | Out (pyOps S B reader method) maxsteps maxpath fuel count E ray s} := by
  refine loop_law (O := pyOps S B reader method) (library_fair S method)
    (D := fun v w s => penetrationDepth reader (C v) w s) (P := fun v w s => pickComponent reader (C v) w s)
    (fun v w s d t => ⟨fun h => depth_perm (hp v) h, fun h => depth_perm (hp v).symm h⟩) ?_
    (fun fuel count E hE ray => out_set (withComps S C) hB fuel count hE ray)
    (fun fuel count E hE ray => out_set S hB fuel count hE ray) fuel count E hE ray
  rintro v w ⟨s0, d0, t0, hd⟩ QA QB hA hB hQ
  have hd : penetrationDepth reader (S.node v).comps w s0 = .ok (some d0, t0) := hd
  rcases hy : coefficients (S.node v).comps w with e | ys
  · unfold penetrationDepth at hd
    rw [hy] at hd
    cases hd
  · have hn := coefficients_nonneg (hS v) hy
    refine component_perm (hp v) hy hn ?_ QA QB hA hB hQ
    by_contra hneg
    have h0 : ys.sum = 0 := le_antisymm (not_lt.1 hneg) (List.sum_nonneg hn)
    unfold penetrationDepth at hd
    rw [hy] at hd
    dsimp only at hd
    rw [h0, if_pos (by norm_num)] at hd
    cases hd

end
end PV.Order
