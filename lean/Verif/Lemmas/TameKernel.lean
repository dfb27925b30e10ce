import Verif.Lemmas.TameTrace
import Verif.Lemmas.KernelRay

/-! Tracing a library scene in the compiled engine is a measurable program. -/

namespace PV.Measured
open MeasureTheory Spec
variable {X : Type} [MeasurableSpace X] {β γ δ : Type} {n : ℕ}

/-! ### Shapes -/

instance : Shape (KHit (Fin n) ℝ) := ⟨fun F => ∃ v t, Measurable t ∧ F = fun x => ⟨v, t x⟩⟩

instance : Shape (KRay ℝ Comp) :=
  ⟨fun F => ∃ p d w t u src, basic p ∧ basic d ∧ Measurable w ∧ Measurable t ∧ Measurable u ∧
    F = fun x => ⟨p x, d x, w x, t x, u x, src⟩⟩

instance : Shape (Row ℝ (Fin n) Comp) :=
  ⟨fun F => ∃ kind hit c a comp ray nrm, basic ray ∧ basic nrm ∧ F = fun x => ⟨kind, hit, c, a, comp, ray x, nrm x⟩⟩

instance : Shape (Values ℝ) :=
  ⟨fun F => ∃ w a d l p, Measurable w ∧ Measurable a ∧ Measurable d ∧ Measurable l ∧ basic p ∧
    F = fun x => ⟨w x, a x, d x, l x, p x⟩⟩

instance : Shape (TallyCall ℝ (Fin n)) :=
  ⟨fun F => ∃ sel v nrm vals, basic nrm ∧ basic vals ∧ F = fun x => ⟨sel, v, nrm x, vals x⟩⟩

instance : Shape (KOut ℝ (Fin n) Comp) :=
  ⟨fun F => (∃ r, basic r ∧ F = fun x => .record (r x)) ∨ ∃ c, basic c ∧ F = fun x => .tally (c x)⟩

instance : Shape (KNext ℝ Comp Numbers) :=
  ⟨fun F => (F = fun _ => .stop) ∨ ∃ r s, basic r ∧ Measurable s ∧ F = fun x => .cont (r x) (s x)⟩

instance : Shape (ℕ → Bool) := plain _

instance [Shape γ] : Shape (Effect ℝ γ) :=
  ⟨fun F => (∃ i r, basic r ∧ F = fun x => .write i (r x)) ∨ (∃ i k, F = fun _ => .count i k) ∨
    (∃ i, F = fun _ => .distinct i) ∨ (∃ i, F = fun _ => .cross i) ∨ (∃ i v, Measurable v ∧ F = fun x => .sum i (v x)) ∨
    ∃ i, F = fun _ => .bin i⟩

/-! ### Folds -/

theorem Tame.foldl [Shape γ] {ι : Type} (l : List ι) {f : X → γ → ι → γ}
    (h : ∀ i ∈ l, ∀ a : X → γ, basic a → Tame (fun x => f x (a x) i)) :
    ∀ {a : X → γ}, Tame a → Tame (fun x => l.foldl (f x) (a x)) := by
  induction l with
  | nil => exact fun h => h
  | cons i l ih =>
    intro a ha
    simp only [List.foldl_cons]
    refine ih (fun j hj => h j (List.mem_cons_of_mem _ hj)) ?_
    tame_step ha with b hb
    exact h i List.mem_cons_self b hb

/-! ### Geometry -/

section Geometry
variable {o d p : X → Vec3 ℝ}

theorem kSlab_tame (size : ℝ) {o d : X → ℝ} (ho : Measurable o) (hd : Measurable d) {acc : X → Option ℝ × Option ℝ}
    (ha : basic acc) : Tame (fun x => kSlab size (o x) (d x) (acc x)) := by
  obtain ⟨m, M, hm, hM, rfl⟩ := ha
  unfold kSlab
  dsimp only
  have pairs : Tame (fun x => if (-0.5 * size - o x) * (1 / d x) > (0.5 * size - o x) * (1 / d x) then
      ((0.5 * size - o x) * (1 / d x), (-0.5 * size - o x) * (1 / d x)) else
      ((-0.5 * size - o x) * (1 / d x), (0.5 * size - o x) * (1 / d x))) := by
    simp only [gt_iff_lt]
    refine Tame.ite (by meas) (Tame.pair (.of ?_) (.of ?_)) (Tame.pair (.of ?_) (.of ?_)) <;>
    · show Measurable _
      fun_prop
  refine Tame.ite (by simp only [tiny]; meas) (Tame.ite (by simp only [gt_iff_lt]; meas) Tame.none
    (Tame.some (Tame.pair (.of hm) (.of hM)))) ?_
  tame_step pairs with _ ⟨a, b, ha, hb, rfl⟩
  have ha : Measurable a := ha
  have hb : Measurable b := hb
  refine Tame.some (Tame.pair (Tame.some ?_) (Tame.some ?_))
  · rcases hm with rfl | ⟨m, hm, rfl⟩
    · exact .of ha
    · have hm : Measurable m := hm
      exact Tame.ite (by simp only [gt_iff_lt]; meas) (.of ha) (.of hm)
  · rcases hM with rfl | ⟨m, hm, rfl⟩
    · exact .of hb
    · have hm : Measurable m := hm
      exact Tame.ite (by meas) (.of hb) (.of hm)

theorem kBox_tame (size : Vec3 ℝ) (ho : basic o) (hd : basic d) : Tame (fun x => kBox size (o x) (d x)) := by
  obtain ⟨ox, oy, oz, h1, h2, h3, rfl⟩ := ho
  obtain ⟨dx, dy, dz, h4, h5, h6, rfl⟩ := hd
  unfold kBox
  have key : Tame (fun x => ((kSlab size.x (ox x) (dx x) (none, none)).bind (kSlab size.y (oy x) (dy x))).bind
      (kSlab size.z (oz x) (dz x))) := by
    refine Tame.elim (kSlab_tame size.x h1 h4 (acc := fun _ => (none, none)) ⟨_, _, .inl rfl, .inl rfl, rfl⟩) ?_
    rintro _ (rfl | ⟨a, ha, rfl⟩)
    · exact ⟨fun _ => none, Tame.none, fun x hx => by rw [hx]; rfl⟩
    refine ⟨fun x => (kSlab size.y (oy x) (dy x) (a x)).bind (kSlab size.z (oz x) (dz x)), ?_, fun x hx => by rw [hx]; rfl⟩
    refine Tame.elim (kSlab_tame size.y h2 h5 ha) ?_
    rintro _ (rfl | ⟨b, hb, rfl⟩)
    · exact ⟨fun _ => none, Tame.none, fun x hx => by rw [hx]; rfl⟩
    exact ⟨fun x => kSlab size.z (oz x) (dz x) (b x), kSlab_tame size.z h3 h6 hb, fun x hx => by rw [hx]; rfl⟩
  dsimp only
  tame_step key with _ (rfl | ⟨_, ⟨_, _, (rfl | ⟨a, ha, rfl⟩), (rfl | ⟨b, hb, rfl⟩), rfl⟩, rfl⟩)
  · exact Tame.nil
  · exact Tame.nil
  · exact Tame.nil
  · exact Tame.nil
  · have ha : Measurable a := ha
    have hb : Measurable b := hb
    refine Tame.ite (by meas) Tame.nil (Tame.filter (Tame.two ha hb) fun f hf => ?_)
    have hf : Measurable f := hf
    simp only [decide_eq_true_eq, gt_iff_lt]
    meas

theorem kSphere_tame (r : ℝ) (ho : basic o) (hd : basic d) : Tame (fun x => kSphere r (o x) (d x)) := by
  have h1 := vec_dot hd hd
  have h2 := vec_dot hd ho
  have h3 := vec_dot ho ho
  unfold kSphere
  dsimp only
  refine Tame.ite (by meas) Tame.nil (Tame.filter (Tame.two ?_ ?_) fun f hf => ?_)
  · show Measurable _
    fun_prop
  · show Measurable _
    fun_prop
  · have hf : Measurable f := hf
    simp only [decide_eq_true_eq, gt_iff_lt]
    meas

theorem kCylinder_tame (l r : ℝ) (ho : basic o) (hd : basic d) : Tame (fun x => kCylinder l r (o x) (d x)) := by
  obtain ⟨ox, oy, oz, h1, h2, h3, rfl⟩ := ho
  obtain ⟨dx, dy, dz, h4, h5, h6, rfl⟩ := hd
  unfold kCylinder
  dsimp only
  refine Tame.filter (Tame.append (Tame.ite ?_ (Tame.ite ?_ (Tame.filter (Tame.two ?_ ?_) fun f hf => ?_) Tame.nil) Tame.nil)
    (Tame.ite ?_ (Tame.filter (Tame.two ?_ ?_) fun f hf => ?_) Tame.nil)) fun f hf => ?_
  · simp only [gt_iff_lt]
    meas
  · simp only [ge_iff_le]
    meas
  · show Measurable _
    fun_prop
  · show Measurable _
    fun_prop
  · have hf : Measurable f := hf
    simp only [decide_eq_true_eq, gt_iff_lt]
    meas
  · simp only [gt_iff_lt]
    meas
  · show Measurable _
    fun_prop
  · show Measurable _
    fun_prop
  · have hf : Measurable f := hf
    simp only [decide_eq_true_eq]
    meas
  · have hf : Measurable f := hf
    simp only [decide_eq_true_eq, gt_iff_lt]
    meas

theorem kIntersect_tame (g : Geom) (ho : basic o) (hd : basic d) : Tame (fun x => kIntersect g (o x) (d x)) := by
  rcases g with size | r | ⟨l, r⟩
  · exact kBox_tame size ho hd
  · exact kSphere_tame r ho hd
  · exact kCylinder_tame l r ho hd

theorem get_measurable (hp : basic p) (i : Fin 3) : Measurable (fun x => (p x).get i) := by
  obtain ⟨px, py, pz, h1, h2, h3, rfl⟩ := hp
  fin_cases i <;> assumption

/-- The face chosen by `local_normal`. -/
noncomputable def bestFace (size p : Vec3 ℝ) : Option (ℝ × Fin 3 × ℝ) := faces.foldl (fun best f =>
  match best with
  | none => some (|p.get f.1 - f.2 * 0.5 * size.get f.1|, f)
  | some b => if |p.get f.1 - f.2 * 0.5 * size.get f.1| < b.1 then
      some (|p.get f.1 - f.2 * 0.5 * size.get f.1|, f) else some b) none

theorem kNormal_basic (g : Geom) (hp : basic p) : basic (fun x => kNormal g (p x)) := by
  refine Tame.vec ?_
  cases g with
  | box size =>
    have e : (fun x => kNormal (.box size) (p x)) = fun x =>
        match bestFace size (p x) with
        | none => axisNormal 0 1
        | some b => axisNormal b.2.1 b.2.2 := rfl
    rw [e]
    have key : Tame (fun x => bestFace size (p x)) := by
      refine Tame.foldl (a := fun _ => none) faces ?_ Tame.none
      intro f _ a ha
      have h := get_measurable hp f.1
      have h' : Tame (fun x => some (|(p x).get f.1 - f.2 * 0.5 * size.get f.1|, f)) := by
        refine Tame.some (Tame.pair (.of ?_) (.of ⟨_, _, ⟨f.1, rfl⟩, measurable_const (a := f.2), rfl⟩))
        show Measurable _
        fun_prop
      rcases ha with rfl | ⟨b, ⟨b1, b2, h1, h2, rfl⟩, rfl⟩
      · exact h'
      · have h1 : Measurable b1 := h1
        exact Tame.ite (by meas) h' (Tame.some (Tame.pair (.of h1) (.of h2)))
    tame_step key with _ (rfl | ⟨_, ⟨_, _, h1, ⟨_, s, ⟨i, rfl⟩, h2, rfl⟩, rfl⟩, rfl⟩)
    · exact .of (vec_const _)
    · have h2 : Measurable s := h2
      unfold axisNormal
      fin_cases i
      · exact .of ⟨_, _, _, h2, measurable_const, measurable_const, rfl⟩
      · exact .of ⟨_, _, _, measurable_const, h2, measurable_const, rfl⟩
      · exact .of ⟨_, _, _, measurable_const, measurable_const, h2, rfl⟩
  | sphere r =>
    have h := vec_dot hp hp
    obtain ⟨px, py, pz, h1, h2, h3, rfl⟩ := hp
    unfold kNormal
    dsimp only
    refine .of ⟨_, _, _, ?_, ?_, ?_, rfl⟩ <;> fun_prop
  | cylinder l r =>
    obtain ⟨px, py, pz, h1, h2, h3, rfl⟩ := hp
    unfold kNormal
    dsimp only
    refine Tame.ite (by meas) (.of (vec_const _)) (Tame.ite (by meas) (.of (vec_const _)) (.of ⟨_, _, _, ?_, ?_, ?_, rfl⟩)) <;> fun_prop

/-! ### The next interface -/

theorem kHits_tame {nodes : List (Fin n)} {ts : X → Fin n → List ℝ} (hts : ∀ v, Tame (fun x => ts x v)) :
    Tame (fun x => kHits nodes (ts x)) := by
  unfold kHits
  refine Tame.flatMap _ fun v => Tame.map (hts v) fun f hf => ?_
  exact .of ⟨_, _, hf, rfl⟩

theorem zip_basic {γ : Type} [Shape γ] (L : List (X → γ)) (k : ℕ) (x : X) :
    (L.map fun f => f x).zipIdx k = (L.zipIdx k).map fun e => (e.1 x, e.2) := by
  induction L generalizing k with
  | nil => rfl
  | cons f L ih => simp only [List.map_cons, List.zipIdx_cons, ih]

theorem mem_zip {γ : Type} {L : List γ} {k : ℕ} {e : γ × ℕ} (h : e ∈ L.zipIdx k) : e.1 ∈ L := by
  induction L generalizing k with
  | nil => cases h
  | cons a L ih =>
    rw [List.zipIdx_cons] at h
    rcases List.mem_cons.1 h with rfl | h
    · exact List.mem_cons_self
    · exact List.mem_cons_of_mem _ (ih h)

theorem kFirst_tame {a : X → KHit (Fin n) ℝ} (ha : basic a) {L : List (X → KHit (Fin n) ℝ)} (hL : ∀ f ∈ L, basic f) :
    Tame (fun x => kFirst (a x) (L.map fun f => f x)) := by
  unfold kFirst
  simp only [zip_basic, List.foldl_map]
  refine Tame.foldl (a := fun x => (a x, 0)) _ ?_ (Tame.pair (.of ha) (.of ⟨0, rfl⟩))
  rintro e he _ ⟨b, _, ⟨v, t, ht, rfl⟩, ⟨k, rfl⟩, rfl⟩
  obtain ⟨v', t', ht', e'⟩ := hL _ (mem_zip he)
  rw [e']
  dsimp only
  exact Tame.ite (by meas) (Tame.pair (.of ⟨_, _, ht', rfl⟩) (.of ⟨_, rfl⟩)) (Tame.pair (.of ⟨_, _, ht, rfl⟩) (.of ⟨_, rfl⟩))

theorem kSecond_tame (k : ℕ) {L : List (X → KHit (Fin n) ℝ)} (hL : ∀ f ∈ L, basic f) :
    Tame (fun x => kSecond k (L.map fun f => f x)) := by
  unfold kSecond
  simp only [zip_basic, List.foldl_map]
  refine Tame.foldl (a := fun _ => none) _ ?_ Tame.none
  intro e he acc hacc
  obtain ⟨v', t', ht', e'⟩ := hL _ (mem_zip he)
  rw [e']
  dsimp only
  refine Tame.ite (MeasurableSet.const _) ?_ (.of hacc)
  rcases hacc with rfl | ⟨_, ⟨v, t, ht, rfl⟩, rfl⟩
  · exact Tame.some (.of ⟨_, _, ht', rfl⟩)
  · exact Tame.ite (by meas) (Tame.some (.of ⟨_, _, ht', rfl⟩)) (Tame.some (.of ⟨_, _, ht, rfl⟩))

theorem kMinT_tame {l : X → List ℝ} (hl : basic l) : Tame (fun x => kMinT (l x)) := by
  obtain ⟨L, hL, rfl⟩ := hl
  unfold kMinT
  simp only [List.foldl_map]
  refine Tame.foldl (a := fun _ => none) _ ?_ Tame.none
  intro f hf acc hacc
  have h : Measurable f := hL f hf
  rcases hacc with rfl | ⟨t, ht, rfl⟩
  · exact Tame.some (.of h)
  · have ht : Measurable t := ht
    exact Tame.ite (by meas) (Tame.some (.of h)) (Tame.some (.of ht))

theorem kContainer_tame {nodes : List (Fin n)} {ts : X → Fin n → List ℝ} (hts : ∀ v, Tame (fun x => ts x v)) :
    Tame (fun x => kContainer nodes (ts x)) := by
  unfold kContainer
  refine Tame.foldl (a := fun _ => none) _ ?_ Tame.none
  intro v _ acc hacc
  tame_step (hts v) with l hl
  obtain ⟨L, hL, rfl⟩ := id hl
  simp only [List.length_map]
  refine Tame.ite (MeasurableSet.const _) ?_ (.of hacc)
  tame_step (kMinT_tame hl) with _ (rfl | ⟨m, hm, rfl⟩)
  · exact .of hacc
  have hm : Measurable m := hm
  rcases hacc with rfl | ⟨_, ⟨v, t, ht, rfl⟩, rfl⟩
  · exact Tame.some (.of ⟨_, _, hm, rfl⟩)
  · exact Tame.ite (by meas) (Tame.some (.of ⟨_, _, hm, rfl⟩)) (Tame.some (.of ⟨_, _, ht, rfl⟩))

theorem kNextHit_tame {nodes : List (Fin n)} {ts : X → Fin n → List ℝ} (hts : ∀ v, Tame (fun x => ts x v)) :
    Tame (fun x => kNextHit nodes (ts x)) := by
  unfold kNextHit
  dsimp only
  refine Tame.elim (kHits_tame (nodes := nodes) hts) ?_
  rintro _ ⟨L, hL, rfl⟩
  rcases L with _ | ⟨a, L⟩
  · exact ⟨_, Tame.none, fun x hx => by simp only [hx, List.map_nil]⟩
  refine ⟨_, ?_, fun x hx => by simp only [hx, List.map_cons]; rfl⟩
  have hL' : ∀ f ∈ L, basic f := fun f hf => hL f (List.mem_cons_of_mem _ hf)
  tame_step (kFirst_tame (hL a List.mem_cons_self) hL') with _ ⟨_, _, ⟨v, t, ht, rfl⟩, ⟨i, rfl⟩, rfl⟩
  rcases L with _ | ⟨b, L⟩
  · exact Tame.some (Tame.pair (.of ⟨v, rfl⟩) (Tame.pair (.of ⟨v, rfl⟩) (Tame.pair Tame.none (.of ht))))
  have h2 := kSecond_tame i hL
  have key : ∀ c : Fin n, Tame (fun x => some (v, c,
      (if c = v then (kSecond i ((a :: b :: L).map fun f => f x)).map (·.node) else some v : Option (Fin n)), t x)) := by
    intro c
    refine Tame.some (Tame.pair (.of ⟨v, rfl⟩) (Tame.pair (.of ⟨c, rfl⟩) (Tame.pair
      (Tame.ite (MeasurableSet.const _) ?_ (Tame.some (.of ⟨v, rfl⟩))) (.of ht))))
    refine Tame.elim h2 ?_
    rintro _ (rfl | ⟨_, ⟨c', t', ht', rfl⟩, rfl⟩)
    · exact ⟨_, Tame.none, fun x hx => by simp only [hx]; rfl⟩
    · exact ⟨fun _ => some c', Tame.some (.of ⟨c', rfl⟩), fun x hx => by simp only [hx]; rfl⟩
  refine Tame.elim (kContainer_tame (nodes := nodes) hts) ?_
  rintro _ (rfl | ⟨_, ⟨c, t', ht', rfl⟩, rfl⟩)
  · exact ⟨_, key v, fun x hx => by simp only [hx, List.map_cons]⟩
  · exact ⟨_, key c, fun x hx => by simp only [hx, List.map_cons]⟩

end Geometry

/-! ### Materials -/

section Materials
variable {w : X → ℝ} {s : X → Numbers}

theorem bisect_tame (xs : ℕ → Option ℝ) (hw : Measurable w) (fuel : ℕ) :
    ∀ lo hi, Tame (fun x => kBisect xs (w x) fuel lo hi) := by
  induction fuel with
  | zero => exact fun _ _ => Tame.none
  | succ fuel ih =>
    intro lo hi
    unfold kBisect
    refine Tame.ite (MeasurableSet.const _) ?_ (Tame.some (.of ⟨_, _, ⟨lo, rfl⟩, ⟨hi, rfl⟩, rfl⟩))
    dsimp only
    rcases xs ((lo + hi) / 2) with _ | m
    · exact Tame.none
    · exact Tame.ite (by meas) (ih _ _) (ih _ _)

theorem kInterp_tame (xs ys : ℕ → Option ℝ) (k : ℕ) (hw : Measurable w) : Tame (fun x => kInterp (w x) xs ys k) := by
  have c : ∀ y : Option ℝ, Tame (fun _ : X => y) := by
    rintro (_ | y)
    · exact Tame.none
    · exact Tame.some (.of measurable_const)
  unfold kInterp
  refine Tame.ite (MeasurableSet.const _) (c _) ?_
  rcases xs 0 with _ | x0
  · exact Tame.none
  refine Tame.ite (by meas) (c _) ?_
  rcases xs (k - 1) with _ | xn
  · exact Tame.none
  refine Tame.ite (by simp only [ge_iff_le]; meas) (c _) ?_
  tame_step (bisect_tame xs hw k 0 (k - 1)) with _ (rfl | ⟨_, ⟨_, _, ⟨lo, rfl⟩, ⟨hi, rfl⟩, rfl⟩, rfl⟩)
  · exact Tame.none
  dsimp -failIfUnchanged only
  rcases xs hi with _ | xhi <;> rcases xs lo with _ | xlo <;> rcases ys lo with _ | ylo <;> rcases ys hi with _ | yhi <;>
    try exact Tame.none
  refine Tame.ite (MeasurableSet.const _) (c _) (Tame.some (.of ?_))
  show Measurable _
  fun_prop

theorem getD_measurable {f : X → Option ℝ} (hf : Tame f) : Measurable (fun x => (f x).getD 0) := by
  refine Tame.measurable ?_
  refine Tame.elim hf ?_
  rintro _ (rfl | ⟨v, hv, rfl⟩)
  · exact ⟨fun _ => 0, .of measurable_const, fun x hx => by rw [hx]; rfl⟩
  · exact ⟨v, .of hv, fun x hx => by rw [hx]; rfl⟩

theorem kCoef_measurable (c : Comp) (hw : Measurable w) : Measurable (fun x => c.kCoef (w x)) := by
  unfold Comp.kCoef kCoefficient
  rcases compileDist c.absDist with _ | T
  · exact measurable_const
  · exact getD_measurable (kInterp_tame _ _ _ hw)

theorem kCoefs_basic (N : LNode) (hw : Measurable w) : basic (fun x => N.kCoefs (w x)) := by
  refine ⟨N.comps.map fun c x => c.kCoef (w x), ?_, ?_⟩
  · intro f hf
    obtain ⟨c, -, rfl⟩ := List.mem_map.1 hf
    exact kCoef_measurable c hw
  · funext x
    simp [LNode.kCoefs, Function.comp_def]

theorem kDepth_tame {a : X → ℝ} (ha : Measurable a) (hs : Measurable s) : Tame (fun x => kDepth reader (a x) (s x)) := by
  have h := next_measurable hs
  unfold kDepth
  refine Tame.ite (by simp only [gt_iff_lt]; meas) (Tame.pair (Tame.some (.of ?_)) (.of (rest_measurable hs)))
    (Tame.pair Tame.none (.of hs))
  show Measurable _
  fun_prop

theorem pickFrom_tame {target : X → ℝ} (ht : Measurable target) (L : List (X → ℝ)) (hL : ∀ f ∈ L, Measurable f) :
    ∀ {r : X → ℝ} (_ : Measurable r) (k : ℕ), Tame (fun x => kPickFrom (target x) (r x) k (L.map fun f => f x)) := by
  induction L with
  | nil => exact fun _ _ => Tame.none
  | cons f L ih =>
    intro r hr k
    have hf : Measurable f := hL f List.mem_cons_self
    simp only [List.map_cons, kPickFrom]
    exact Tame.ite (by meas) (Tame.some (.of ⟨k, rfl⟩)) (ih (fun g hg => hL g (List.mem_cons_of_mem _ hg)) (hr.add hf) (k + 1))

theorem kPick_tame {cs : X → List ℝ} (hcs : basic cs) {u : X → ℝ} (hu : Measurable u) : Tame (fun x => kPick (cs x) (u x)) := by
  have h := sum_measurable hcs
  obtain ⟨L, hL, rfl⟩ := hcs
  unfold kPick
  refine Tame.elim (pickFrom_tame (hu.mul h) L hL (r := fun _ => 0) measurable_const 0) ?_
  rintro _ (rfl | ⟨_, ⟨k, rfl⟩, rfl⟩)
  · exact ⟨fun _ => 0, .of ⟨0, rfl⟩, fun x hx => by rw [Pi.mul_apply] at hx; rw [hx]; rfl⟩
  · exact ⟨fun _ => k, .of ⟨k, rfl⟩, fun x hx => by rw [Pi.mul_apply] at hx; rw [hx]; rfl⟩

theorem kPhase_tame (tag : PhaseTag) (g : ℝ) (hs : Measurable s) : Tame (fun x => kSamplePhase reader tag g (s x)) := by
  have h1 := next_measurable hs
  have h2 := rest_measurable hs
  have h3 := next_measurable h2
  unfold kSamplePhase
  refine Tame.ite (MeasurableSet.const _) (Tame.pair (.of ⟨_, _, _, ?_, ?_, ?_, rfl⟩) (.of (rest_measurable h2)))
    (Tame.ite (MeasurableSet.const _) (Tame.pair (.of ⟨_, _, _, ?_, ?_, ?_, rfl⟩) (.of (rest_measurable h2)))
      (Tame.pair (.of ⟨_, _, _, ?_, ?_, ?_, rfl⟩) (.of (rest_measurable h2)))) <;> fun_prop

theorem kEmit_tame (T : Table ℝ) (method : EmitMethod) (hw : Measurable w) {u : X → ℝ} (hu : Measurable u) :
    Tame (fun x => kEmitWavelength T method (w x) (u x)) := by
  unfold kEmitWavelength
  dsimp only
  have key : Tame (fun x => if method = .full then some 0 else
      kInterp (if method = .kT then 1240 / (1240 / w x + 1.5 * kB * 300) else w x) (reads T.x T.n) (reads T.cdf T.n) T.n) := by
    refine Tame.ite (MeasurableSet.const _) (Tame.some (.of measurable_const)) (kInterp_tame _ _ _ ?_)
    exact Measurable.ite (MeasurableSet.const _) (by fun_prop) hw
  refine Tame.elim key ?_
  rintro _ (rfl | ⟨v, hv, rfl⟩)
  · exact ⟨fun _ => none, Tame.none, fun x hx => by rw [hx]; rfl⟩
  · have hv : Measurable v := hv
    exact ⟨fun x => kInterp (v x + (1 - v x) * u x) (reads T.cdf T.n) (reads T.x T.n) T.n,
      kInterp_tame _ _ _ (by fun_prop), fun x hx => by rw [hx]; rfl⟩

theorem kDelay_tame (tau : Option ℝ) (hs : Measurable s) : Tame (fun x => kDelay reader tau (s x)) := by
  have h := next_measurable hs
  unfold kDelay
  refine Tame.ite (MeasurableSet.const _) (Tame.pair (.of ?_) (.of (rest_measurable hs))) (Tame.pair (.of measurable_const) (.of hs))
  show Measurable _
  fun_prop

theorem below_tame (y : ℝ) (hs : Measurable s) :
    Tame (fun x => (decide ((reader.next (s x)).1 < y), (reader.next (s x)).2)) := by
  have h1 := next_measurable hs
  have : (fun x => (decide ((reader.next (s x)).1 < y), (reader.next (s x)).2)) = fun x =>
      if (reader.next (s x)).1 < y then (true, (reader.next (s x)).2) else (false, (reader.next (s x)).2) := by
    funext x
    split_ifs with h <;> simp [h]
  rw [this]
  exact Tame.ite (by meas) (Tame.pair (.of ⟨true, rfl⟩) (.of (rest_measurable hs)))
    (Tame.pair (.of ⟨false, rfl⟩) (.of (rest_measurable hs)))

end Materials

/-! ### Surfaces -/

section Surfaces
variable {s : X → Numbers} {m d : X → Vec3 ℝ}

theorem kFlip_basic (hm : basic m) (hd : basic d) : basic (fun x => kFlip (m x) (d x)) := by
  have := vec_dot hm hd
  unfold kFlip
  exact Tame.vec (Tame.ite (by meas) (.of (vec_neg hm)) (.of hm))

theorem kSpecular_basic (hm : basic m) (hd : basic d) : basic (fun x => kSpecular (d x) (m x)) := by
  have h1 := kFlip_basic hm hd
  exact vec_sub hd (vec_smul ((vec_dot h1 hd).const_mul 2) h1)

theorem clamp_measurable {f : X → ℝ} (hf : Measurable f) :
    Measurable (fun x => if f x > 1 then 1 else if f x < -1 then -1 else f x) := by
  simp only [gt_iff_lt]
  exact Measurable.ite (by meas) measurable_const (Measurable.ite (by meas) measurable_const hf)

theorem kAngle_measurable (hm : basic m) (hd : basic d) : Measurable (fun x => kAngle (m x) (d x)) := by
  have h := clamp_measurable (vec_dot (kFlip_basic hm hd) hd)
  unfold kAngle
  exact Real.measurable_arccos.comp h

theorem kFresnel_tame {a : X → ℝ} (n1 n2 : ℝ) (ha : Measurable a) : Tame (fun x => kFresnelR (a x) n1 n2) := by
  unfold kFresnelR
  dsimp only
  refine Tame.ite (by simp only [gt_iff_lt]; meas) (Tame.some (.of measurable_const)) (Tame.ite (by meas) Tame.none
    (Tame.ite (by meas) Tame.none (Tame.some (.of ?_))))
  show Measurable _
  fun_prop

theorem kRefract_tame (n1 n2 : ℝ) (hm : basic m) (hd : basic d) : Tame (fun x => kRefract (d x) (m x) n1 n2) := by
  have h1 := vec_dot hd hm
  unfold kRefract
  dsimp only
  have hs : Measurable (fun x => if (d x).dot (m x) < 0 then (-1 : ℝ) else 1) :=
    Measurable.ite (by meas) measurable_const measurable_const
  have hk : Measurable (fun x => (if (d x).dot (m x) < 0 then (-1 : ℝ) else 1) *
      (Real.sqrt (1 - n1 / n2 * (n1 / n2) * (1 - (d x).dot (m x) * (d x).dot (m x))) -
        (if (d x).dot (m x) < 0 then (-1 : ℝ) else 1) * (n1 / n2) * (d x).dot (m x))) :=
    hs.mul (Measurable.sub (f := fun x => Real.sqrt (1 - n1 / n2 * (n1 / n2) * (1 - (d x).dot (m x) * (d x).dot (m x))))
      (by fun_prop) ((hs.mul_const (n1 / n2)).mul h1))
  refine Tame.ite (by meas) Tame.none (Tame.some (.of ?_))
  exact vec_add (vec_smul measurable_const hd) (vec_smul hk hm)

/-- The reflectivity of a surface in the engine. -/
noncomputable def surfaceR (S : LScene n) (h c a : Fin (n + 1)) (nrm d : Vec3 ℝ) : Option ℝ :=
  match (S.node h).surface with
  | .null => some 0
  | .fresnel => kReflectivity nrm d (S.node c).index (S.node a).index

theorem kReflects_tame (S : LScene n) (h c a : Fin (n + 1)) (hm : basic m) (hd : basic d) (hs : Measurable s) :
    Tame (fun x => S.kReflects reader h c a (m x) (d x) (s x)) := by
  have h1 := next_measurable hs
  have h2 := rest_measurable hs
  have e : (fun x => S.kReflects reader h c a (m x) (d x) (s x)) = fun x =>
      ((kIsReflected (surfaceR S h c a (m x) (d x)) (reader.next (s x)).1).1,
        if (kIsReflected (surfaceR S h c a (m x) (d x)) (reader.next (s x)).1).2 then (reader.next (s x)).2 else s x) := rfl
  rw [e]
  have hr : Tame (fun x => surfaceR S h c a (m x) (d x)) := by
    unfold surfaceR
    cases (S.node h).surface with
    | null => exact Tame.some (.of measurable_const)
    | fresnel => exact kFresnel_tame _ _ (kAngle_measurable hm hd)
  have both : ∀ {p : X → Prop} [∀ x, Decidable (p x)] (t : X → Numbers), MeasurableSet {x | p x} → Measurable t →
      Tame (fun x => (decide (p x), t x)) := by
    intro p _ t hp ht
    have : (fun x => (decide (p x), t x)) = fun x => if p x then (true, t x) else (false, t x) := by
      funext x
      split_ifs with h <;> simp [h]
    rw [this]
    exact Tame.ite hp (Tame.pair (.of ⟨true, rfl⟩) (.of ht)) (Tame.pair (.of ⟨false, rfl⟩) (.of ht))
  refine Tame.elim hr ?_
  rintro _ (rfl | ⟨r, hR, rfl⟩)
  · refine ⟨fun x => (false, s x), Tame.pair (.of ⟨false, rfl⟩) (.of hs), fun x hx => ?_⟩
    rw [hx]
    simp [kIsReflected]
  · have hR : Measurable r := hR
    refine ⟨fun x => if 0 < r x then (decide ((reader.next (s x)).1 < r x), (reader.next (s x)).2) else (decide (1 < r x), s x),
      Tame.ite (by meas) (both _ (by meas) h2) (both _ (by meas) hs), fun x hx => ?_⟩
    rw [hx]
    simp only [kIsReflected]
    by_cases h : 0 < r x <;> simp [h]

theorem kTransmit_basic (n1 n2 : ℝ) (hm : basic m) (hd : basic d) :
    basic (fun x => (kTransmit (m x) (d x) n1 n2).getD (d x)) := by
  refine Tame.vec ?_
  refine Tame.elim (kRefract_tame n1 n2 (kFlip_basic hm hd) hd) ?_
  rintro _ (rfl | ⟨v, hv, rfl⟩)
  · exact ⟨d, .of hd, fun x hx => by unfold kTransmit; rw [hx]; rfl⟩
  · exact ⟨v, .of hv, fun x hx => by unfold kTransmit; rw [hx]; rfl⟩

end Surfaces

/-! ### The loop -/

section Loop
variable {s : X → Numbers} {ray : X → KRay ℝ Comp} (S : LScene n) (method : EmitMethod)

theorem advance_basic (h : basic ray) {t : X → ℝ} (ht : Measurable t) (k : ℝ) :
    basic (fun x => (ray x).advance (t x) k) := by
  obtain ⟨p, d, w, l, u, src, ⟨px, py, pz, h1, h2, h3, rfl⟩, ⟨dx, dy, dz, h4, h5, h6, rfl⟩, hw, hl, hu, rfl⟩ := h
  unfold KRay.advance
  dsimp only
  refine ⟨_, _, _, _, _, _, ⟨_, _, _, ?_, ?_, ?_, rfl⟩, ⟨_, _, _, h4, h5, h6, rfl⟩, hw, hl.add ht, ?_, rfl⟩ <;> fun_prop

theorem values_basic (v : Fin (n + 1)) (h : basic ray) {a : X → ℝ} (ha : Measurable a) :
    basic (fun x => kValues (kOps S reader method) v (ray x) (a x)) := by
  obtain ⟨p, d, w, t, u, src, hp, hd, hw, ht, hu, rfl⟩ := h
  exact ⟨_, _, _, _, _, hw, ha, hu, ht, vec_point (S.node v).w2l hp, rfl⟩

theorem record_basic {r : X → KRay ℝ Comp} (hr : basic r) {nrm : X → Option (Vec3 ℝ)} (hn : basic nrm) (kind : Event)
    (h c a : Option (Fin (n + 1))) (comp : Option Comp) :
    basic (fun x => (.record ⟨kind, h, c, a, comp, r x, nrm x⟩ : KOut ℝ (Fin (n + 1)) Comp)) :=
  .inl ⟨_, ⟨_, _, _, _, _, _, _, hr, hn, rfl⟩, rfl⟩

theorem tally_basic {nrm : X → Option (Vec3 ℝ)} (hn : basic nrm) {vals : X → Values ℝ} (hv : basic vals) (sel : Selector)
    (v : Fin (n + 1)) : basic (fun x => (.tally ⟨sel, v, nrm x, vals x⟩ : KOut ℝ (Fin (n + 1)) Comp)) :=
  .inr ⟨_, ⟨_, _, _, _, hn, hv, rfl⟩, rfl⟩

theorem three_tame {f g h : X → γ} [Shape γ] (hf : basic f) (hg : basic g) (hh : basic h) : Tame (fun x => [f x, g x, h x]) :=
  Tame.cons (.of hf) (Tame.two hg hh)

theorem kPickOp_tame (v : Fin (n + 1)) {w : X → ℝ} (hw : Measurable w) (hs : Measurable s) :
    Tame (fun x => (kOps S reader method).pick v (w x) (s x)) := by
  have h := kPick_tame (kCoefs_basic (S.node v) hw) (next_measurable hs)
  refine Tame.elim h ?_
  rintro _ ⟨k, rfl⟩
  exact ⟨fun x => (((S.node v).comps[k]?).getD noComp, (reader.next (s x)).2),
    Tame.pair (.of ⟨_, rfl⟩) (.of (rest_measurable hs)), fun x hx => by simp only [kOps, hx]⟩

theorem kEmission_tame (c : Comp) {w : X → ℝ} (hw : Measurable w) (hs : Measurable s) :
    Tame (fun x => (kOps S reader method).emission c (w x) (s x)) := by
  refine Tame.pair (.of ?_) (.of (rest_measurable hs))
  rcases compileDist c.emsDist with _ | T
  · exact measurable_const
  · exact getD_measurable (kEmit_tame T method hw (next_measurable hs))

theorem cont_tame {γ : Type} [Shape γ] {L : X → γ} (hL : Tame L) {r : X → KRay ℝ Comp} (hr : basic r) (hs : Measurable s) :
    Tame (fun x => (L x, (.cont (r x) (s x) : KNext ℝ Comp Numbers))) :=
  Tame.pair hL (.of (.inr ⟨_, _, hr, hs, rfl⟩))

theorem stop_tame {γ : Type} [Shape γ] {L : X → γ} (hL : Tame L) :
    Tame (fun x => (L x, (.stop : KNext ℝ Comp Numbers))) := Tame.pair hL (.of (.inl rfl))

theorem kAbsorb_tame (v : Fin (n + 1)) (hr : basic ray) {t : X → ℝ} (ht : Measurable t) (hs : Measurable s) :
    Tame (fun x => kAbsorb (kOps S reader method) v (ray x) (t x) (s x)) := by
  unfold kAbsorb
  dsimp only
  have hr1 := advance_basic hr ht (S.node v).index
  obtain ⟨p, d, w, l, u, src, hp, hd, hw, hl, hu, e⟩ := id hr1
  have e' : ∀ x, (ray x).advance (t x) ((kOps S reader method).nidx v) = ⟨p x, d x, w x, l x, u x, src⟩ := fun x => congrFun e x
  simp only [e']
  rw [e] at hr1
  tame_step (kPickOp_tame S method v hw hs) with _ ⟨_, s1, ⟨c, rfl⟩, hs1, rfl⟩
  have hs1 : Measurable s1 := hs1
  have hy : Tame (fun x => if (kOps S reader method).kind c = .scatterer ∨ (kOps S reader method).kind c = .luminophore then
      (kOps S reader method).yields c (s1 x) else (false, s1 x)) :=
    Tame.ite (MeasurableSet.const _) (below_tame c.qy hs1) (Tame.pair (.of ⟨false, rfl⟩) (.of hs1))
  tame_step hy with _ ⟨_, s2, ⟨b, rfl⟩, hs2, rfl⟩
  have hs2 : Measurable s2 := hs2
  cases b with
  | true =>
    simp only [if_true]
    have hph : Tame (fun x => (kOps S reader method).phase c (s2 x)) := kPhase_tame _ _ hs2
    tame_step hph with _ ⟨dir, s3, hdir, hs3, rfl⟩
    have hs3 : Measurable s3 := hs3
    refine Tame.ite (MeasurableSet.const _) ?_ ?_
    · tame_step (kEmission_tame S method c hw hs3) with _ ⟨w', s4, hw', hs4, rfl⟩
      have hs4 : Measurable s4 := hs4
      have hdl : Tame (fun x => (kOps S reader method).radDelay c (s4 x)) := kDelay_tame _ hs4
      tame_step hdl with _ ⟨q, s5, hq, hs5, rfl⟩
      have hq : Measurable q := hq
      have hr2 : basic (fun x => (⟨p x, dir x, w' x, l x, u x + q x, some c⟩ : KRay ℝ Comp)) :=
        ⟨_, _, _, _, _, _, hp, hdir, hw', hl, hu.add hq, rfl⟩
      exact cont_tame (Tame.two (record_basic hr1 (.inl rfl) _ _ _ _ _) (record_basic hr2 (.inl rfl) _ _ _ _ _)) hr2 hs5
    · have hr2 : basic (fun x => (⟨p x, dir x, w x, l x, u x, some c⟩ : KRay ℝ Comp)) :=
        ⟨_, _, _, _, _, _, hp, hdir, hw, hl, hu, rfl⟩
      exact cont_tame (Tame.two (record_basic hr1 (.inl rfl) _ _ _ _ _) (record_basic hr2 (.inl rfl) _ _ _ _ _)) hr2 hs3
  | false =>
    simp only [Bool.false_eq_true, if_false]
    have hdl : Tame (fun x => (kOps S reader method).nrDelay c (s2 x)) := kDelay_tame _ hs2
    tame_step hdl with _ ⟨q, s3, hq, hs3, rfl⟩
    have hq : Measurable q := hq
    have hr2 : basic (fun x => (⟨p x, d x, w x, l x, u x + q x, src⟩ : KRay ℝ Comp)) :=
      ⟨_, _, _, _, _, _, hp, hd, hw, hl, hu.add hq, rfl⟩
    exact stop_tame (three_tame (record_basic hr1 (.inl rfl) _ _ _ _ _) (record_basic hr2 (.inl rfl) _ _ _ _ _)
      (tally_basic (.inl rfl) (values_basic S method v hr2 measurable_const) _ _))

theorem kSurface_tame (h c : Fin (n + 1)) (a : Option (Fin (n + 1))) (hr : basic ray) {t : X → ℝ} (ht : Measurable t)
    (hs : Measurable s) : Tame (fun x => kSurface (kOps S reader method) h c a (ray x) (t x) (s x)) := by
  unfold kSurface
  dsimp only
  have hr1 := advance_basic hr ht (S.node c).index
  obtain ⟨p, d, w, l, u, src, hp, hd, hw, hl, hu, e⟩ := id hr1
  have e' : ∀ x, (ray x).advance (t x) ((kOps S reader method).nidx c) = ⟨p x, d x, w x, l x, u x, src⟩ := fun x => congrFun e x
  simp only [e']
  rw [e] at hr1
  rcases a with _ | a
  · exact stop_tame (Tame.one (record_basic hr1 (.inl rfl) _ _ _ _ _))
  dsimp only
  have hm : basic (fun x => (kOps S reader method).normal h (p x)) :=
    vec_vec (S.node h).l2w (kNormal_basic (S.node h).geom (vec_point (S.node h).w2l hp))
  generalize em : (fun x => (kOps S reader method).normal h (p x)) = m at hm
  have em' : ∀ x, (kOps S reader method).normal h (p x) = m x := fun x => congrFun em x
  simp only [em']
  have ha : Measurable (fun x => kIncidence (kOps S reader method) (m x) (d x)) := kAngle_measurable hm hd
  tame_step (show Tame (fun x => (kOps S reader method).reflects h c a (m x) (d x) (s x)) from
    kReflects_tame S h c a hm hd hs) with _ ⟨_, s1, ⟨b, rfl⟩, hs1, rfl⟩
  have hn : basic (fun x => some (m x)) := .inr ⟨_, hm, rfl⟩
  cases b with
  | true =>
    simp only [if_true]
    have hr2 : basic (fun x => (⟨p x, (kOps S reader method).reflectDir (d x) (m x), w x, l x, u x, src⟩ : KRay ℝ Comp)) :=
      ⟨_, _, _, _, _, _, hp, kSpecular_basic hm hd, hw, hl, hu, rfl⟩
    refine cont_tame (Tame.append (Tame.one (record_basic hr2 hn _ _ _ _ _)) (Tame.ite (MeasurableSet.const _)
      (Tame.one (tally_basic hn (values_basic S method h hr2 ha) _ _)) Tame.nil)) hr2 hs1
  | false =>
    simp only [Bool.false_eq_true, if_false]
    have hd2 : basic (fun x => (kOps S reader method).transmitDir h c a (m x) (d x)) := by
      unfold kOps
      dsimp only
      cases (S.node h).surface with
      | null => exact hd
      | fresnel => exact kTransmit_basic _ _ hm hd
    have hr2 : basic (fun x => (⟨p x, (kOps S reader method).transmitDir h c a (m x) (d x), w x, l x, u x, src⟩ : KRay ℝ Comp)) :=
      ⟨_, _, _, _, _, _, hp, hd2, hw, hl, hu, rfl⟩
    exact cont_tame (Tame.two (record_basic hr2 hn _ _ _ _ _) (tally_basic hn (values_basic S method h hr2 ha) _ _)) hr2 hs1

theorem kBody_tame (maxsteps count : ℕ) (hr : basic ray) (hs : Measurable s) :
    Tame (fun x => kBody (kOps S reader method) maxsteps count (ray x) (s x)) := by
  obtain ⟨p, d, w, l, u, src, hp, hd, hw, hl, hu, rfl⟩ := id hr
  unfold kBody
  dsimp only
  have hh : Tame (fun x => (kOps S reader method).nextHit (p x) (d x)) :=
    kNextHit_tame fun v => kIntersect_tame _ (vec_point (S.node v).w2l hp) (vec_vec (S.node v).w2l hd)
  tame_step hh with _ (rfl | ⟨_, ⟨_, _, ⟨h, rfl⟩, ⟨_, _, ⟨c, rfl⟩, ⟨a, t, ha, ht, rfl⟩, rfl⟩, rfl⟩, rfl⟩)
  · exact stop_tame Tame.nil
  have ht : Measurable t := ht
  obtain ⟨a, rfl⟩ : ∃ a', a = fun _ => a' := by
    rcases ha with rfl | ⟨_, ⟨a', rfl⟩, rfl⟩
    · exact ⟨_, rfl⟩
    · exact ⟨_, rfl⟩
  dsimp only
  refine Tame.ite (MeasurableSet.const _) (stop_tame (Tame.two (record_basic hr (.inl rfl) _ _ _ _ _)
    (tally_basic (.inl rfl) (values_basic S method c hr measurable_const) _ _))) (Tame.ite (MeasurableSet.const _) ?_ ?_)
  · have hr1 := advance_basic hr ht (S.node c).index
    obtain ⟨p', d', w', l', u', src', hp', hd', hw', hl', hu', e⟩ := id hr1
    have e' : ∀ x, (⟨p x, d x, w x, l x, u x, src⟩ : KRay ℝ Comp).advance (t x) ((kOps S reader method).nidx c) =
      ⟨p' x, d' x, w' x, l' x, u' x, src'⟩ := fun x => congrFun e x
    simp only [e']
    rw [e] at hr1
    have hm : basic (fun x => (kOps S reader method).normal h (p' x)) :=
      vec_vec (S.node h).l2w (kNormal_basic (S.node h).geom (vec_point (S.node h).w2l hp'))
    have hdot := vec_dot hm hd'
    have hang : Measurable (fun x => kExitAngle (kOps S reader method) ((kOps S reader method).normal h (p' x)) (d' x)) := by
      unfold kExitAngle
      refine Real.measurable_arccos.comp (g := Real.arccos) (Measurable.ite ?_ measurable_const ?_)
      · simp only [gt_iff_lt]
        meas
      · fun_prop
    exact stop_tame (Tame.two (record_basic hr1 (.inl rfl) _ _ _ _ _)
      (tally_basic (.inr ⟨_, hm, rfl⟩) (values_basic S method h hr1 hang) _ _))
  · have hdp : Tame (fun x => (kOps S reader method).depth c (w x) (s x)) :=
      kDepth_tame (sum_measurable (kCoefs_basic (S.node c) hw)) hs
    tame_step hdp with _ ⟨_, s1, rfl | ⟨depth, hdepth, rfl⟩, hs1, rfl⟩
    · exact kSurface_tame S method h c a hr ht hs1
    · have hdepth : Measurable depth := hdepth
      have hia : Tame (fun x => isAbsorbed (some (depth x)) (t x)) := by
        simp only [isAbsorbed]
        exact Tame.ite (by meas) (Tame.some (.of hdepth)) Tame.none
      tame_step hia with _ (rfl | ⟨k, hk, rfl⟩)
      · exact kSurface_tame S method h c a hr ht hs1
      · exact kAbsorb_tame S method c hr hk hs1

theorem kTrace_tame (maxsteps fuel : ℕ) : ∀ (count : ℕ) {ray : X → KRay ℝ Comp} {s : X → Numbers}, basic ray → Measurable s →
    Tame (fun x => kTrace (kOps S reader method) maxsteps fuel count (ray x) (s x)) := by
  induction fuel with
  | zero => exact fun _ _ _ _ _ => Tame.nil
  | succ fuel ih =>
    intro count ray s hr hs
    unfold kTrace
    dsimp only
    tame_step (kBody_tame S method maxsteps (count + 1) hr hs) with _ ⟨L, _, hL, (rfl | ⟨r, s1, hr1, hs1, rfl⟩), rfl⟩
    · exact .of hL
    · exact Tame.append (.of hL) (ih (count + 1) hr1 hs1)

end Loop

/-! ### Recorders -/

section Recorders
variable {vals : X → Values ℝ} {call : X → TallyCall ℝ (Fin n)} {γ : Type} [Shape γ]

theorem trunc_measurable {f : X → ℝ} (hf : Measurable f) : Measurable (fun x => truncZ (f x)) := by
  unfold truncZ
  exact Measurable.ite (by meas) (Int.measurable_floor.comp hf) (Int.measurable_ceil.comp hf)

theorem kBin_tame {v : X → ℝ} (hv : Measurable v) (lo hi : ℝ) (k : ℕ) : Tame (fun x => kBin (v x) lo hi k) := by
  have hz : Measurable (fun x => truncZ ((v x - lo) / (hi - lo) * (k : ℝ))) := trunc_measurable (by fun_prop)
  unfold kBin
  dsimp only
  have hd : Disc (fun x => truncZ ((v x - lo) / (hi - lo) * (k : ℝ))) :=
    ⟨Set.to_countable _, fun i => hz (measurableSet_singleton i)⟩
  exact Tame.cases hd (F := fun (i : ℤ) _ => if i < 0 ∨ i ≥ (k : ℤ) then none else some i.toNat) fun i _ => by
    split
    · exact Tame.none
    · exact Tame.some (.of ⟨_, rfl⟩)

theorem valuesGet_measurable (h : basic vals) (p : RayProp) : Measurable (fun x => (vals x).get p) := by
  obtain ⟨w, a, d, l, pos, hw, ha, hd, hl, ⟨px, py, pz, h1, h2, h3, rfl⟩, rfl⟩ := h
  cases p <;> assumption

theorem kHistBin_tame (r : HRow ℝ) (h : basic vals) : Tame (fun x => kHistBin r (vals x)) := by
  obtain ⟨pa, pb, na, nb, la, ha, lb, hb, off⟩ := r
  unfold kHistBin
  dsimp only
  tame_step (kBin_tame (valuesGet_measurable h pa) la ha na) with _ (rfl | ⟨_, ⟨i, rfl⟩, rfl⟩)
  · exact Tame.none
  cases pb with
  | none => exact Tame.some (.of ⟨_, rfl⟩)
  | some pb =>
    dsimp only
    tame_step (kBin_tame (valuesGet_measurable h pb) lb hb nb) with _ (rfl | ⟨_, ⟨i, rfl⟩, rfl⟩)
    · exact Tame.none
    · exact Tame.some (.of ⟨_, rfl⟩)

theorem kCounts_tame (h : basic call) (r : RecRow ℝ (Fin n)) : Tame (fun x => kCounts (call x) r) := by
  obtain ⟨sel, v, nrm, vals, hn, hv, rfl⟩ := h
  obtain ⟨rn, re, rf, ra, rs, rc⟩ := r
  have ff : Tame (fun _ : X => false) := .of ⟨_, rfl⟩
  have tt : Tame (fun _ : X => true) := .of ⟨_, rfl⟩
  unfold kCounts
  dsimp only
  refine Tame.ite (MeasurableSet.const _) ff ?_
  cases rf with
  | none => exact tt
  | some f =>
    dsimp only
    rcases hn with rfl | ⟨_, ⟨a, b, c, h1, h2, h3, rfl⟩, rfl⟩
    · exact ff
    · simp only [gt_iff_lt]
      exact Tame.ite (by meas) ff (Tame.ite (by meas) ff (Tame.ite (by meas) ff tt))

theorem kSums_tame (r : ℕ) (h : basic vals) : Tame (fun x => (kSums r (vals x) : List (Effect ℝ γ))) := by
  obtain ⟨w, a, d, l, pos, hw, ha, hd, hl, hp, rfl⟩ := h
  have one : ∀ i {f : X → ℝ}, Measurable f → Tame (fun x => (.sum i (f x) : Effect ℝ γ)) := fun i f hf =>
    .of (.inr (.inr (.inr (.inr (.inl ⟨_, _, hf, rfl⟩)))))
  unfold kSums
  dsimp only
  exact Tame.cons (one _ hw) (Tame.cons (one _ (hw.mul hw)) (Tame.cons (one _ ha) (Tame.cons (one _ (ha.mul ha))
    (Tame.cons (one _ hd) (Tame.cons (one _ (hd.mul hd)) (Tame.cons (one _ hl) (Tame.cons (one _ (hl.mul hl)) Tame.nil)))))))

theorem kBins_tame (T : RecTables ℝ (Fin n)) (r : RecRow ℝ (Fin n)) (h : basic vals) :
    Tame (fun x => (kBins T r (vals x) : List (Effect ℝ γ))) := by
  unfold kBins
  induction List.range' r.histStart r.histN with
  | nil => exact Tame.nil
  | cons i l ih =>
    simp only [List.filterMap_cons]
    rcases T.hists[i]? with _ | row
    · exact ih
    · dsimp only
      refine Tame.elim (kHistBin_tame row h) ?_
      rintro _ (rfl | ⟨_, ⟨b, rfl⟩, rfl⟩)
      · exact ⟨_, ih, fun x hx => by simp only [hx, Option.map_none]⟩
      · exact ⟨_, Tame.cons (.of (.inr (.inr (.inr (.inr (.inr ⟨b, rfl⟩)))))) ih, fun x hx => by
          simp only [hx, Option.map_some]⟩

theorem kTallyOne_tame (T : RecTables ℝ (Fin n)) (h : basic call) (r : RecRow ℝ (Fin n)) (i : ℕ) (seen : ℕ → Bool) :
    Tame (fun x => (kTallyOne T (call x) r i seen : List (Effect ℝ γ) × (ℕ → Bool))) := by
  have cross : basic (fun _ : X => (.cross i : Effect ℝ γ)) := .inr (.inr (.inr (.inl ⟨i, rfl⟩)))
  have dist : basic (fun _ : X => (.distinct i : Effect ℝ γ)) := .inr (.inr (.inl ⟨i, rfl⟩))
  have hv : basic (fun x => (call x).values) := by
    obtain ⟨sel, v, nrm, vals, hn, hv, rfl⟩ := h
    exact hv
  unfold kTallyOne
  tame_step (kCounts_tame h r) with _ ⟨b, rfl⟩
  cases b with
  | false =>
    simp only [Bool.false_eq_true, if_false]
    exact Tame.pair Tame.nil (.of ⟨_, rfl⟩)
  | true =>
    simp only [if_true]
    cases seen i with
    | true =>
      simp only [if_true]
      exact Tame.pair (Tame.one cross) (.of ⟨_, rfl⟩)
    | false =>
      simp only [Bool.false_eq_true, if_false]
      exact Tame.pair (Tame.cons (.of cross) (Tame.cons (.of dist) (Tame.append (kSums_tame i hv) (kBins_tame T r hv))))
        (.of ⟨_, rfl⟩)

theorem kTally_tame (T : RecTables ℝ (Fin n)) (h : basic call) (seen : ℕ → Bool) :
    Tame (fun x => (kTally T (call x) seen : List (Effect ℝ γ) × (ℕ → Bool))) := by
  unfold kTally
  have : ∀ (rs : List (RecRow ℝ (Fin n))) (i : ℕ) (seen : ℕ → Bool),
      Tame (fun x => (kTallyFrom T (call x) rs i seen : List (Effect ℝ γ) × (ℕ → Bool))) := by
    intro rs
    induction rs with
    | nil => exact fun i seen => Tame.pair Tame.nil (.of ⟨_, rfl⟩)
    | cons r rs ih =>
      intro i seen
      unfold kTallyFrom
      dsimp only
      tame_step (kTallyOne_tame (γ := γ) T h r i seen) with _ ⟨L, _, hL, ⟨seen', rfl⟩, rfl⟩
      tame_step (ih (i + 1) seen') with _ ⟨M, _, hM, ⟨seen'', rfl⟩, rfl⟩
      exact Tame.pair (Tame.append (.of hL) (.of hM)) (.of ⟨_, rfl⟩)
  exact this _ _ _

theorem kRecord_tame (slot : LogSlot) (nev : ℕ) {row : X → Row ℝ (Fin n) Comp} (h : basic row) :
    Tame (fun x => (kRecord slot nev (row x) : List (Effect ℝ (Row ℝ (Fin n) Comp)) × ℕ)) := by
  unfold kRecord
  rcases slot with _ | ⟨base, m⟩
  · exact Tame.pair Tame.nil (.of ⟨_, rfl⟩)
  · dsimp only
    split
    · exact Tame.pair Tame.nil (.of ⟨_, rfl⟩)
    · exact Tame.pair (Tame.one (.inl ⟨_, _, h, rfl⟩)) (.of ⟨_, rfl⟩)

theorem kRun_tame (T : RecTables ℝ (Fin n)) (slot : LogSlot) (L : List (X → KOut ℝ (Fin n) Comp)) (hL : ∀ f ∈ L, basic f) :
    ∀ (nev : ℕ) (seen : ℕ → Bool), Tame (fun x => kRun T slot (L.map fun f => f x) nev seen) := by
  induction L with
  | nil => exact fun nev seen => Tame.pair Tame.nil (Tame.pair (.of ⟨_, rfl⟩) (.of ⟨_, rfl⟩))
  | cons f L ih =>
    intro nev seen
    have ih := ih fun g hg => hL g (List.mem_cons_of_mem _ hg)
    rcases hL f List.mem_cons_self with ⟨r, hr, rfl⟩ | ⟨c, hc, rfl⟩
    · simp only [List.map_cons]
      unfold kRun
      dsimp only
      tame_step (kRecord_tame slot nev hr) with _ ⟨A, _, hA, ⟨nev', rfl⟩, rfl⟩
      tame_step (ih nev' seen) with _ ⟨B, _, hB, hC, rfl⟩
      exact Tame.pair (Tame.append (.of hA) (.of hB)) (.of hC)
    · simp only [List.map_cons]
      unfold kRun
      dsimp only
      tame_step (kTally_tame (γ := Row ℝ (Fin n) Comp) T hc seen) with _ ⟨A, _, hA, ⟨seen', rfl⟩, rfl⟩
      tame_step (ih nev seen') with _ ⟨B, _, hB, hC, rfl⟩
      exact Tame.pair (Tame.append (.of hA) (.of hB)) (.of hC)

theorem kLoop_tame (S : LScene n) (method : EmitMethod) (T : RecTables ℝ (Fin (n + 1))) (slot : LogSlot) (maxsteps fuel : ℕ) :
    ∀ (count nev : ℕ) (seen : ℕ → Bool) {ray : X → KRay ℝ Comp} {s : X → Numbers}, basic ray → Measurable s →
      Tame (fun x => kLoop (kOps S reader method) T slot maxsteps fuel count nev seen (ray x) (s x)) := by
  induction fuel with
  | zero => exact fun _ _ _ _ _ _ _ => Tame.pair Tame.nil (.of ⟨_, rfl⟩)
  | succ fuel ih =>
    intro count nev seen ray s hr hs
    unfold kLoop
    dsimp only
    refine Tame.ite (MeasurableSet.const _) (kRecord_tame slot nev ⟨_, _, _, _, _, _, _, hr, .inl rfl, rfl⟩) ?_
    tame_step (kBody_tame S method maxsteps (count + 1) hr hs) with _ ⟨_, _, ⟨L, hL, rfl⟩, (rfl | ⟨r, s1, hr1, hs1, rfl⟩), rfl⟩
    · tame_step (kRun_tame T slot L hL nev seen) with _ ⟨A, _, hA, ⟨_, _, ⟨nev', rfl⟩, ⟨seen', rfl⟩, rfl⟩, rfl⟩
      exact Tame.pair (.of hA) (.of ⟨_, rfl⟩)
    · tame_step (kRun_tame T slot L hL nev seen) with _ ⟨A, _, hA, ⟨_, _, ⟨nev', rfl⟩, ⟨seen', rfl⟩, rfl⟩, rfl⟩
      tame_step (ih (count + 1) nev' seen' hr1 hs1) with _ ⟨B, _, hB, hC, rfl⟩
      exact Tame.pair (Tame.append (.of hA) (.of hB)) (.of hC)

theorem kTraceOne_tame (S : LScene n) (method : EmitMethod) (T : RecTables ℝ (Fin (n + 1))) (slot : LogSlot) (maxsteps : ℕ)
    {ray : X → KRay ℝ Comp} {s : X → Numbers} (hr : basic ray) (hs : Measurable s) :
    Tame (fun x => kTraceOne (kOps S reader method) T slot maxsteps (ray x) (s x)) := by
  unfold kTraceOne
  dsimp only
  tame_step (kRecord_tame slot 0 (row := fun x => (⟨.generate, none, none, none, none, ray x, none⟩ : Row ℝ (Fin (n + 1)) Comp))
    ⟨_, _, _, _, _, _, _, hr, .inl rfl, rfl⟩) with _ ⟨A, _, hA, ⟨nev', rfl⟩, rfl⟩
  tame_step (kLoop_tame S method T slot maxsteps (maxsteps + 1) 0 nev' (fun _ => false) hr hs) with _ ⟨B, _, hB, hC, rfl⟩
  exact Tame.pair (Tame.append (.of hA) (.of hB)) (.of hC)

end Recorders

end PV.Measured
