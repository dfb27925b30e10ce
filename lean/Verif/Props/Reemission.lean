import Verif.Lemmas.Thinning
import Verif.Props.Measurable

/-!
C112: light is given off again `k` times with a chance of at most `q ^ k`.
-/

namespace PV.Reemission
open MeasureTheory Spec Stream Measured
noncomputable section
variable {n : ℕ} (S : LScene n) {B : Trimesh} (method : EmitMethod)

theorem ray_basic (ray : Ray ℝ) : basic (fun _ : Numbers => ray) :=
  ⟨_, _, _, _, _, _, vec_const ray.position, vec_const ray.direction, measurable_const, measurable_const, measurable_const, rfl⟩

theorem fair_of {γ : Type} [Shape γ] {f : Numbers → Except Err (γ × Numbers)} (hr : Reads f) (hf : Tame f) : Fair f := by
  obtain ⟨m, hm⟩ := hr
  exact ⟨m, hm, counted hm hf⟩

theorem library_fair : FairOps (pyOps S B reader method) where
  depth v w := fair_of ((library_reads S B method).depth v w) (depth_tame _ measurable_const measurable_id)
  component v w := fair_of ((library_reads S B method).component v w) (pick_tame _ measurable_const measurable_id)
  radiative c ray := fair_of ((library_reads S B method).radiative c ray) (Tame.ok (radiative_tame c measurable_id))
  emit v c ray := by
    refine fair_of ((library_reads S B method).emit v c ray) ?_
    have e : (pyOps S B reader method).emit v c ray = fun s : Numbers =>
        (match c.emit reader method (ray.representation (S.node v).w2l) s with
        | .error e => .error e
        | .ok (ray, s) => .ok (ray.representation (S.node v).l2w, s) : Except Err (Ray ℝ × Numbers)) := by
      funext s
      unfold pyOps
      dsimp only
      rcases c.emit reader method (ray.representation (S.node v).w2l) s with e | ⟨_, s⟩ <;> rfl
    rw [e]
    tame_step (emit_tame method c (representation_basic (S.node v).w2l (ray_basic ray)) (s := fun s => s) measurable_id) with
      _ (⟨e, rfl⟩ | ⟨_, ⟨ray2, s3, hr2, hs3, rfl⟩, rfl⟩)
    · exact Tame.error e
    · exact Tame.ok (Tame.pair (.of (representation_basic (S.node v).l2w hr2)) (.of hs3))
  absorb c ray := fair_of ((library_reads S B method).absorb c ray) (Tame.ok (nonradiative_tame c (ray_basic ray) measurable_id))
  reflected h c a ray := fair_of ((library_reads S B method).reflected h c a ray)
    (isReflected_tame S h c a (ray_basic ray) measurable_id)
  reflect h c a ray := fair_of ((library_reads S B method).reflect h c a ray)
    (turned_tame (S.node h) (ray_basic ray) (reflected_tame S h (representation_basic (S.node h).w2l (ray_basic ray))) measurable_id)
  transmit h c a ray := fair_of ((library_reads S B method).transmit h c a ray)
    (turned_tame (S.node h) (ray_basic ray) (transmitted_tame S h c a (representation_basic (S.node h).w2l (ray_basic ray))) measurable_id)

theorem marks_basic (m : Event → Bool) {G : Numbers → List (Step ℝ)} (hG : basic G) :
    ∃ c, ∀ s, marks m (G s) = c := by
  obtain ⟨L, hL, rfl⟩ := hG
  induction L with
  | nil => exact ⟨0, fun s => rfl⟩
  | cons f L ih =>
    obtain ⟨c, hc⟩ := ih fun g hg => hL g (List.mem_cons_of_mem _ hg)
    obtain ⟨-, ev, he⟩ := hL f List.mem_cons_self
    refine ⟨c + if m ev then 1 else 0, fun s => ?_⟩
    show marks m (f s :: L.map fun f => f s) = _
    rw [marks_cons, show marks m (L.map fun f => f s) = c from hc s, show (f s).event = ev from congrFun he s]

variable {maxsteps : ℕ} {maxpath : Option ℝ}

/-- What `passes` does has a chance. -/
theorem passes_set (hB : BorelMesh B) (fuel count : ℕ) (ray : Ray ℝ) (P : ℕ → ℕ → Prop) (m m' : Event → Bool) :
    MeasurableSet {s | ∃ es t, passes (pyOps S B reader method) maxsteps maxpath fuel count ray s = .ok (es, t) ∧
      P (marks m es) (marks m' es)} := by
  have ht := passes_tame (X := Numbers) (s := id) S method (mesh_tame hB) maxsteps maxpath fuel count (ray_basic ray) measurable_id
  refine ht.set (fun y _ => ∃ es t, y = .ok (es, t) ∧ P (marks m es) (marks m' es)) ?_
  rintro _ (⟨e, rfl⟩ | ⟨_, ⟨b, t, hb, ht, rfl⟩, rfl⟩)
  · simp
  · obtain ⟨c, hc⟩ := marks_basic m hb
    obtain ⟨c', hc'⟩ := marks_basic m' hb
    simp [hc, hc']

theorem many_set (hB : BorelMesh B) (m : Event → Bool) (fuel count : ℕ) (ray : Ray ℝ) (k : ℕ) :
    MeasurableSet {s | Many (pyOps S B reader method) m maxsteps maxpath fuel count ray k s} :=
  passes_set S method hB fuel count ray (fun a _ => k ≤ a) m m

theorem often_marks (e : Event) (h : e ≠ .generate) (ray : Ray ℝ) (es : List (Step ℝ)) :
    often e ((ray, .generate) :: es.map fun x => (x.ray, x.event)) = marks (fun x => decide (x = e)) es := by
  unfold often
  rw [List.filter_cons, if_neg (by simpa using h.symm), ← List.countP_eq_length_filter, List.countP_map]
  rfl

theorem often_two (a b : Event) (hab : a ≠ b) (l : List (Ray ℝ × Event)) :
    often a l + often b l = l.countP fun x => decide (x.2 = a) || decide (x.2 = b) := by
  unfold often
  rw [← List.countP_eq_length_filter, ← List.countP_eq_length_filter]
  induction l with
  | nil => rfl
  | cons x l ih =>
    simp only [List.countP_cons]
    have : ¬ (x.2 = a ∧ x.2 = b) := fun h => hab (h.1.symm.trans h.2)
    by_cases h1 : x.2 = a <;> by_cases h2 : x.2 = b <;> simp_all <;> omega

theorem follow_yields (O : Ops ℝ (Fin (n + 1)) Comp Numbers) (ray : Ray ℝ) (m : Event → Bool) (E : List (Ray ℝ × Event) → Prop)
    (k : ℕ) (h : ∀ es : List (Step ℝ), E ((ray, .generate) :: es.map fun x => (x.ray, x.event)) ↔ k ≤ marks m es) :
    {s | Yields (Stream.follow O maxsteps maxpath ray) E s} = {s | Many O m maxsteps maxpath (maxsteps + 1) 0 ray k s} := by
  ext s
  show Yields _ _ _ ↔ Many _ _ _ _ _ _ _ _ _
  unfold Yields Many Stream.follow
  rcases passes O maxsteps maxpath (maxsteps + 1) 0 ray s with e | ⟨es, t⟩
  · simp
  · simp [h]

theorem picked {comps : List Comp} {w : ℝ} {s : Numbers} {c : Comp} {t : Numbers}
    (h : pickComponent reader comps w s = .ok (c, t)) : c ∈ comps := by
  unfold pickComponent at h
  repeat' split at h
  all_goals cases h
  exact List.mem_of_getElem? (by assumption)

theorem radiative_law (c : Comp) (s : Numbers) (h : c.kind = .luminophore ∨ c.kind = .scatterer) :
    c.isRadiative reader s = (decide (s 0 < c.qy), rest s) := by
  unfold Comp.isRadiative
  rcases h with h | h <;> rw [h] <;> rfl

theorem radiative_never (c : Comp) (s : Numbers) (h : c.kind ≠ .luminophore) (h' : c.kind ≠ .scatterer) :
    c.isRadiative reader s = (false, s) := by
  unfold Comp.isRadiative
  rcases hc : c.kind <;> simp_all

theorem uniform_le {y q : ℝ} (hy : y ≤ q) (h0 : 0 ≤ q) : uniform {u | u < y} ≤ ENNReal.ofReal q := by
  by_cases h1 : q ≤ 1
  · calc uniform {u | u < y} ≤ uniform {u | u < q} := measure_mono fun u (hu : u < y) => hu.trans_le hy
      _ = ENNReal.ofReal q := uniform_below h0 h1
  · exact prob_le_one.trans (by rw [← ENNReal.ofReal_one]; exact ENNReal.ofReal_le_ofReal (not_le.1 h1).le)

/-- **C112** If no luminophore of the scene has a quantum yield above `q`, a ray is re-emitted `k` times or more with a
chance of at most `q ^ k`. -/
theorem reemitted (hB : BorelMesh B) (ray : Ray ℝ) {q : ℝ} (h0 : 0 ≤ q)
    (hq : ∀ v, ∀ c ∈ (S.node v).comps, c.kind = .luminophore → c.qy ≤ q) (k : ℕ) :
    chance (Yields (Stream.follow (pyOps S B reader method) maxsteps maxpath ray) (fun h => k ≤ often .emit h)) ≤
      ENNReal.ofReal q ^ k := by
  unfold chance
  rw [follow_yields _ ray (fun x => decide (x = .emit)) _ k fun es => by rw [often_marks _ (by decide)]]
  refine many_bound (library_fair S method) (fun e h => .inl (by simpa using h)) ?_ _ _ _ _ (many_set S method hB _ _ _ _ _)
  intro v w s c t hc hm
  have hl : c.kind = .luminophore := by
    have hm : given c.kind = .emit := of_decide_eq_true hm
    rcases h : c.kind <;> simp_all [given]
  refine .inl ⟨c.qy, uniform_le (hq v c (picked hc) hl) h0, fun ray s => ?_⟩
  show Except.ok _ = _
  rw [radiative_law c s (.inl hl)]

/-- **C112** The same for luminophores and scatterers together. -/
theorem given_off (hB : BorelMesh B) (ray : Ray ℝ) {q : ℝ} (h0 : 0 ≤ q)
    (hq : ∀ v, ∀ c ∈ (S.node v).comps, c.kind = .luminophore ∨ c.kind = .scatterer → c.qy ≤ q) (k : ℕ) :
    chance (Yields (Stream.follow (pyOps S B reader method) maxsteps maxpath ray)
      (fun h => k ≤ often .emit h + often .scatter h)) ≤ ENNReal.ofReal q ^ k := by
  unfold chance
  rw [follow_yields _ ray (fun x => decide (x = .emit) || decide (x = .scatter)) _ k fun es => by
    rw [often_two _ _ (by decide), List.countP_cons, List.countP_map]; rfl]
  refine many_bound (library_fair S method) (fun e h => by simpa using h) ?_ _ _ _ _ (many_set S method hB _ _ _ _ _)
  intro v w s c t hc hm
  by_cases hl : c.kind = .luminophore ∨ c.kind = .scatterer
  · refine .inl ⟨c.qy, uniform_le (hq v c (picked hc) hl) h0, fun ray s => ?_⟩
    show Except.ok _ = _
    rw [radiative_law c s hl]
  · refine .inr fun ray s => ?_
    show Except.ok _ = _
    rw [radiative_never c s (fun h => hl (.inl h)) fun h => hl (.inr h)]

/-! ### The share of the absorptions -/

/-- No exception, up to numbers that never come. -/
def Safe (f : Numbers → Except Err (List (Ray ℝ × Event) × Numbers)) : Prop := ∀ᵐ s ∂independent, ∃ x, f s = .ok x

theorem bad_set (hB : BorelMesh B) (fuel count : ℕ) (ray : Ray ℝ) :
    MeasurableSet {s | Bad (pyOps S B reader method) maxsteps maxpath fuel count ray s} := by
  have h := (passes_set (maxsteps := maxsteps) (maxpath := maxpath) S method hB fuel count ray (fun _ _ => True) isEmit isEmit).compl
  convert h using 1
  ext s
  simp only [Bad, Set.mem_compl_iff, Set.mem_ofPred_eq]
  rcases passes (pyOps S B reader method) maxsteps maxpath fuel count ray s with e | ⟨es, t⟩ <;> simp

theorem safe_bad {ray : Ray ℝ} (h : Safe (Stream.follow (pyOps S B reader method) maxsteps maxpath ray)) :
    independent {s | Bad (pyOps S B reader method) maxsteps maxpath (maxsteps + 1) 0 ray s} = 0 := by
  refine measure_eq_zero_iff_ae_notMem.2 ?_
  filter_upwards [h] with s ⟨x, hx⟩ ⟨e, he⟩
  unfold Stream.follow at hx
  rw [he] at hx
  cases hx

theorem uniform_ge {y q : ℝ} (hy : q ≤ y) (h1 : q ≤ 1) : ENNReal.ofReal q ≤ uniform {u | u < y} := by
  by_cases h0 : 0 ≤ q
  · calc ENNReal.ofReal q = uniform {u | u < q} := (uniform_below h0 h1).symm
      _ ≤ uniform {u | u < y} := measure_mono fun u (hu : u < q) => hu.trans_le hy
  · rw [ENNReal.ofReal_of_nonpos (not_le.1 h0).le]; exact zero_le

/-- **C112** If no luminophore has a quantum yield above `q`, `k` re-emissions are at most `q` times as likely as `k`
absorptions. -/
theorem share_le (hB : BorelMesh B) {ray : Ray ℝ} (hs : Safe (Stream.follow (pyOps S B reader method) maxsteps maxpath ray))
    {q : ℝ} (h0 : 0 ≤ q) (hq : ∀ v, ∀ c ∈ (S.node v).comps, c.kind = .luminophore → c.qy ≤ q) {k : ℕ} (hk : 0 < k) :
    chance (Yields (Stream.follow (pyOps S B reader method) maxsteps maxpath ray) (fun h => k ≤ often .emit h)) ≤
      ENNReal.ofReal q * chance (Yields (Stream.follow (pyOps S B reader method) maxsteps maxpath ray) (fun h => k ≤ often .absorb h)) := by
  obtain ⟨k, rfl⟩ : ∃ j, k = j + 1 := ⟨k - 1, by omega⟩
  unfold chance
  rw [follow_yields _ ray isEmit _ (k + 1) fun es => by rw [often_marks _ (by decide)]; rfl,
    follow_yields _ ray isAbsorb _ (k + 1) fun es => by rw [often_marks _ (by decide)]; rfl]
  have h := loop_compare (library_fair S method) (fun m fuel count ray k => many_set S method hB m fuel count ray k)
    quiet_emit quiet_absorb (bad_set S method hB) (upper (library_fair S method) (q := ENNReal.ofReal q) (maxsteps := maxsteps) (maxpath := maxpath) ?_) (maxsteps + 1) 0 k ray
      (safe_bad S method hs)
  · rw [one_mul] at h; exact h
  · rintro c ⟨v, w, s, t, hc⟩ hl
    refine ⟨c.qy, fun ray s => ?_, uniform_le (hq v c (picked hc) hl) h0⟩
    show Except.ok _ = _
    rw [radiative_law c s (.inl hl)]

/-- **C112** If there is nothing but luminophores with quantum yields of at least `q`, `k` re-emissions are at least `q` times
as likely as `k` absorptions. -/
theorem share_ge (hB : BorelMesh B) {ray : Ray ℝ} (hs : Safe (Stream.follow (pyOps S B reader method) maxsteps maxpath ray))
    {q : ℝ} (h1 : q ≤ 1) (hq : ∀ v, ∀ c ∈ (S.node v).comps, c.kind = .luminophore ∧ q ≤ c.qy) {k : ℕ} (hk : 0 < k) :
    ENNReal.ofReal q * chance (Yields (Stream.follow (pyOps S B reader method) maxsteps maxpath ray) (fun h => k ≤ often .absorb h)) ≤
      chance (Yields (Stream.follow (pyOps S B reader method) maxsteps maxpath ray) (fun h => k ≤ often .emit h)) := by
  obtain ⟨k, rfl⟩ : ∃ j, k = j + 1 := ⟨k - 1, by omega⟩
  unfold chance
  rw [follow_yields _ ray isAbsorb _ (k + 1) fun es => by rw [often_marks _ (by decide)]; rfl,
    follow_yields _ ray isEmit _ (k + 1) fun es => by rw [often_marks _ (by decide)]; rfl]
  have h := loop_compare (library_fair S method) (fun m fuel count ray k => many_set S method hB m fuel count ray k)
    quiet_absorb quiet_emit (bad_set S method hB) (lower (library_fair S method) (q := ENNReal.ofReal q) (maxsteps := maxsteps) (maxpath := maxpath) ?_) (maxsteps + 1) 0 k ray
      (safe_bad S method hs)
  · rw [one_mul] at h; exact h
  · rintro c ⟨v, w, s, t, hc⟩
    obtain ⟨hl, hy⟩ := hq v c (picked hc)
    refine ⟨hl, c.qy, fun ray s => ?_, uniform_ge hy h1⟩
    show Except.ok _ = _
    rw [radiative_law c s (.inl hl)]

/-- **C112** With luminophores of one quantum yield `q` and nothing else that absorbs, `k` re-emissions are exactly `q` times
as likely as `k` absorptions. -/
theorem share_eq (hB : BorelMesh B) {ray : Ray ℝ} (hs : Safe (Stream.follow (pyOps S B reader method) maxsteps maxpath ray))
    {q : ℝ} (h0 : 0 ≤ q) (h1 : q ≤ 1) (hq : ∀ v, ∀ c ∈ (S.node v).comps, c.kind = .luminophore ∧ c.qy = q) {k : ℕ} (hk : 0 < k) :
    chance (Yields (Stream.follow (pyOps S B reader method) maxsteps maxpath ray) (fun h => k ≤ often .emit h)) =
      ENNReal.ofReal q * chance (Yields (Stream.follow (pyOps S B reader method) maxsteps maxpath ray) (fun h => k ≤ often .absorb h)) :=
  le_antisymm (share_le S method hB hs h0 (fun v c hc _ => (hq v c hc).2.le) hk)
    (share_ge S method hB hs h1 (fun v c hc => ⟨(hq v c hc).1, (hq v c hc).2.ge⟩) hk)

/-! ### Means -/

/-- A mean number is the sum of the chances of one or more, two or more, and so on. -/
theorem mean_sum (hB : BorelMesh B) (ray : Ray ℝ) (e : Event) (he : e ≠ .generate) :
    meanOf e (Stream.follow (pyOps S B reader method) maxsteps maxpath ray) =
      ∑' k : ℕ, chance (Yields (Stream.follow (pyOps S B reader method) maxsteps maxpath ray) (fun h => k + 1 ≤ often e h)) := by
  have hm : ∀ k, MeasurableSet {s | Yields (Stream.follow (pyOps S B reader method) maxsteps maxpath ray) (fun h => k + 1 ≤ often e h) s} := by
    intro k
    rw [follow_yields _ ray (fun x => decide (x = e)) _ (k + 1) fun es => by rw [often_marks _ he]]
    exact many_set S method hB _ _ _ _ _
  have e1 : ∀ k, chance (Yields (Stream.follow (pyOps S B reader method) maxsteps maxpath ray) (fun h => k + 1 ≤ often e h)) =
      ∫⁻ s, Set.indicator {s | Yields (Stream.follow (pyOps S B reader method) maxsteps maxpath ray) (fun h => k + 1 ≤ often e h) s} 1 s ∂independent := by
    intro k
    rw [lintegral_indicator_one (hm k)]
    rfl
  simp only [e1]
  rw [← lintegral_tsum fun k => (measurable_one.indicator (hm k)).aemeasurable]
  unfold meanOf
  congr 1
  funext s
  rcases h : Stream.follow (pyOps S B reader method) maxsteps maxpath ray s with er | ⟨l, t⟩
  · refine (ENNReal.tsum_eq_zero.2 fun k => Set.indicator_of_notMem ?_ _).symm
    rintro ⟨l, t, h', -⟩
    rw [h] at h'; cases h'
  · dsimp only
    have e2 : ∀ k, Set.indicator {s | Yields (Stream.follow (pyOps S B reader method) maxsteps maxpath ray) (fun h => k + 1 ≤ often e h) s} (1 : Numbers → ENNReal) s =
        if k ∈ Finset.range (often e l) then 1 else 0 := by
      intro k
      by_cases hk : k < often e l
      · rw [if_pos (Finset.mem_range.2 hk), Set.indicator_of_mem (show s ∈ {s | Yields _ _ s} from ⟨l, t, h, hk⟩)]; rfl
      · rw [if_neg (by simpa using hk), Set.indicator_of_notMem]
        rintro ⟨l', t', h', h''⟩
        rw [h] at h'; cases h'
        exact hk h''
    simp only [e2]
    rw [tsum_eq_sum (s := Finset.range (often e l)) fun k hk => if_neg hk, Finset.sum_congr rfl fun k hk => if_pos hk]
    simp

/-- **C112** If no luminophore has a quantum yield above `q < 1`, a ray is re-emitted at most `q / (1 - q)` times in the
mean. -/
theorem mean_reemitted (hB : BorelMesh B) (ray : Ray ℝ) {q : ℝ} (h0 : 0 ≤ q) (h1 : q < 1)
    (hq : ∀ v, ∀ c ∈ (S.node v).comps, c.kind = .luminophore → c.qy ≤ q) :
    meanOf .emit (Stream.follow (pyOps S B reader method) maxsteps maxpath ray) ≤ ENNReal.ofReal (q / (1 - q)) := by
  rw [mean_sum S method hB ray .emit (by decide)]
  calc _ ≤ ∑' k : ℕ, ENNReal.ofReal q ^ (k + 1) := ENNReal.tsum_le_tsum fun k => reemitted S method hB ray h0 hq (k + 1)
    _ = ∑' k : ℕ, ENNReal.ofReal q * ENNReal.ofReal q ^ k := by simp only [pow_succ']
    _ = ENNReal.ofReal q * (1 - ENNReal.ofReal q)⁻¹ := by rw [ENNReal.tsum_mul_left, ENNReal.tsum_geometric]
    _ = ENNReal.ofReal (q / (1 - q)) := by
      rw [div_eq_mul_inv, ENNReal.ofReal_mul h0, ENNReal.ofReal_inv_of_pos (by linarith), ENNReal.ofReal_sub _ h0, ENNReal.ofReal_one]

/-- **C112** The mean number of re-emissions is at most `q` times the mean number of absorptions. -/
theorem mean_share_le (hB : BorelMesh B) {ray : Ray ℝ} (hs : Safe (Stream.follow (pyOps S B reader method) maxsteps maxpath ray))
    {q : ℝ} (h0 : 0 ≤ q) (hq : ∀ v, ∀ c ∈ (S.node v).comps, c.kind = .luminophore → c.qy ≤ q) :
    meanOf .emit (Stream.follow (pyOps S B reader method) maxsteps maxpath ray) ≤
      ENNReal.ofReal q * meanOf .absorb (Stream.follow (pyOps S B reader method) maxsteps maxpath ray) := by
  rw [mean_sum S method hB ray .emit (by decide), mean_sum S method hB ray .absorb (by decide), ← ENNReal.tsum_mul_left]
  exact ENNReal.tsum_le_tsum fun k => share_le S method hB hs h0 hq k.succ_pos

/-- **C112** With luminophores of one quantum yield `q` and nothing else that absorbs, the mean number of re-emissions is `q`
times the mean number of absorptions. -/
theorem mean_share (hB : BorelMesh B) {ray : Ray ℝ} (hs : Safe (Stream.follow (pyOps S B reader method) maxsteps maxpath ray))
    {q : ℝ} (h0 : 0 ≤ q) (h1 : q ≤ 1) (hq : ∀ v, ∀ c ∈ (S.node v).comps, c.kind = .luminophore ∧ c.qy = q) :
    meanOf .emit (Stream.follow (pyOps S B reader method) maxsteps maxpath ray) =
      ENNReal.ofReal q * meanOf .absorb (Stream.follow (pyOps S B reader method) maxsteps maxpath ray) := by
  rw [mean_sum S method hB ray .emit (by decide), mean_sum S method hB ray .absorb (by decide), ← ENNReal.tsum_mul_left]
  exact tsum_congr fun k => share_eq S method hB hs h0 h1 hq k.succ_pos

end
end PV.Reemission
