import Verif.Lemmas.EngineThinning
import Verif.Lemmas.TameKernel
import Verif.Props.Reemission
import Verif.Props.Budget
import Verif.Lemmas.CompileNames
import Verif.Spec.EngineReemission

/-!
C114: re-emission in the engine follows the quantum yield.
-/

namespace PV.EngineReemission
open MeasureTheory Spec Measured EngineThinning Budget
noncomputable section
variable {n : ℕ} (S : LScene n) (method : EmitMethod) (maxsteps : ℕ)

theorem kray_basic (ray : KRay ℝ Comp) : basic (fun _ : Numbers => ray) :=
  ⟨_, _, _, _, _, _, vec_const ray.position, vec_const ray.direction, measurable_const, measurable_const, measurable_const, rfl⟩

theorem tfair_of {γ : Type} [Measured.Shape γ] {f : Numbers → γ × Numbers} (hr : Reads (ε := Err) fun s => .ok (f s)) (hf : Tame f) :
    TFair f := Reemission.fair_of hr (Tame.ok hf)

theorem kDepth_reads (a : ℝ) : Reads (ε := Err) fun s => .ok (kDepth reader a s) := by
  unfold kDepth
  by_cases h : a > 1e-8
  · simp only [h, if_true]
    read_draw
    exact Reads.ok _
  · simp only [h, if_false]
    exact Reads.ok _

theorem kDelay_reads (tau : Option ℝ) : Reads (ε := Err) fun s => .ok (kDelay reader tau s) := by
  unfold kDelay
  by_cases h : tau.getD 0 > 0
  · simp only [h, if_true]
    read_draw
    exact Reads.ok _
  · simp only [h, if_false]
    exact Reads.ok _

theorem kPhase_reads (tag : PhaseTag) (g : ℝ) : Reads (ε := Err) fun s => .ok (kSamplePhase reader tag g s) := by
  unfold kSamplePhase
  by_cases h : tag = .henyeyGreenstein ∧ |g| ≥ epsZero
  · simp only [h, if_true]
    read_draw
    read_draw
    exact Reads.ok _
  · by_cases h2 : tag = .cone
    · simp only [h, h2, if_true, if_false]
      read_draw
      read_draw
      exact Reads.ok _
    · simp only [h, h2, if_false]
      read_draw
      read_draw
      exact Reads.ok _

theorem kReflects_reads (h c a : Fin (n + 1)) (nrm d : Vec3 ℝ) : Reads (ε := Err) fun s => .ok (S.kReflects reader h c a nrm d s) := by
  have e : (fun s => (.ok (S.kReflects reader h c a nrm d s) : Except Err (Bool × Numbers))) = fun s =>
      .ok ((kIsReflected (surfaceR S h c a nrm d) (reader.next s).1).1,
        if (kIsReflected (surfaceR S h c a nrm d) (reader.next s).1).2 then (reader.next s).2 else s) := rfl
  rw [e]
  generalize surfaceR S h c a nrm d = r
  rcases r with _ | r
  · exact Reads.ok _
  · by_cases hr : 0 < r
    · simp only [kIsReflected, hr, if_true]
      read_draw
      exact Reads.ok _
    · simp only [kIsReflected, hr, Bool.false_eq_true, if_false]
      exact Reads.ok _

theorem engine_fair : FairKOps (kOps S reader method) where
  depth v w := tfair_of (kDepth_reads _) (kDepth_tame measurable_const measurable_id)
  pick v w := tfair_of (by unfold kOps; dsimp only; read_draw; exact Reads.ok _) (kPickOp_tame S method v measurable_const measurable_id)
  phase c := tfair_of (kPhase_reads _ _) (kPhase_tame _ _ measurable_id)
  emission c w := tfair_of (by unfold kOps; dsimp only; read_draw; exact Reads.ok _) (kEmission_tame S method c measurable_const measurable_id)
  delay c := tfair_of (kDelay_reads _) (kDelay_tame _ measurable_id)
  reflects h c a nrm d := tfair_of (kReflects_reads S h c a nrm d) (kReflects_tame S h c a (vec_const nrm) (vec_const d) measurable_id)

theorem marks_basic (m : Event → Bool) {G : Numbers → List (KOut ℝ (Fin (n + 1)) Comp)} (hG : basic G) :
    ∃ c, ∀ s, marks m (G s) = c := by
  obtain ⟨L, hL, rfl⟩ := hG
  induction L with
  | nil => exact ⟨0, fun s => rfl⟩
  | cons f L ih =>
    obtain ⟨c, hc⟩ := ih fun g hg => hL g (List.mem_cons_of_mem _ hg)
    rcases hL f List.mem_cons_self with ⟨r, ⟨kind, hit, ct, a, comp, ray, nrm, -, -, rfl⟩, rfl⟩ | ⟨x, -, rfl⟩
    · refine ⟨c + if m kind then 1 else 0, fun s => ?_⟩
      show marks m (.record _ :: L.map fun f => f s) = _
      rw [marks_record, show marks m (L.map fun f => f s) = c from hc s]
    · refine ⟨c, fun s => ?_⟩
      show marks m (.tally _ :: L.map fun f => f s) = _
      rw [marks_tally, show marks m (L.map fun f => f s) = c from hc s]

theorem many_set (m : Event → Bool) (fuel count : ℕ) (ray : KRay ℝ Comp) (k : ℕ) :
    MeasurableSet {s | k ≤ marks m (kTrace (kOps S reader method) maxsteps fuel count ray s)} := by
  have ht := kTrace_tame (X := Numbers) (s := id) S method maxsteps fuel count (kray_basic ray) measurable_id
  refine ht.set (fun y _ => k ≤ marks m y) ?_
  intro b hb
  obtain ⟨c, hc⟩ := marks_basic m hb
  simp [hc]

/-- What is picked after a finite depth belongs to the node. -/
theorem absorbs {c : Comp} (h : EngineThinning.Absorbs (kOps S reader method) c) : ∃ v, c ∈ (S.node v).comps := by
  obtain ⟨v, w, s, t, h1, h2⟩ := h
  refine ⟨v, ?_⟩
  have hne : (S.node v).kCoefs w ≠ [] := by
    intro h0
    have : (kDepth reader ((S.node v).kCoefs w).sum s).1.isSome := h1
    rw [h0] at this
    unfold kDepth at this
    rw [List.sum_nil, if_neg (by norm_num)] at this
    cases this
  have hlt := Compile.kPick_lt (reader.next t).1 hne
  have hlen : ((S.node v).kCoefs w).length = (S.node v).comps.length := by simp [LNode.kCoefs]
  rw [hlen] at hlt
  have h2 : ((S.node v).comps[kPick ((S.node v).kCoefs w) (reader.next t).1]?).getD noComp = c := h2
  rw [List.getElem?_eq_getElem hlt, Option.getD_some] at h2
  rw [← h2]
  exact List.getElem_mem hlt

theorem draws (c : Comp) : Draws (kOps S reader method) c c.qy := fun _ => rfl

theorem often_marks (e : Event) (h : e ≠ .generate) (ray : KRay ℝ Comp) (s : Numbers) :
    oftenIn e (fullHistory (kOps S reader method) maxsteps ⟨ray, s⟩) =
      marks (fun x => decide (x = e)) (kTrace (kOps S reader method) maxsteps (maxsteps + 1) 0 ray s) := by
  rw [fullHistory_eq]
  unfold oftenIn marks
  rw [List.filter_cons, if_neg (by show ¬ decide (Event.generate = e) = true; exact fun h' => h (of_decide_eq_true h').symm), ← List.countP_eq_length_filter]
  rfl

/-- Two kinds of rows of a full history compared. -/
theorem rows_compare {mA mB : Event → Bool} {j : ℕ} {c d : ENNReal} (qA : Quiet mA) (qB : Quiet mB)
    (hC : AfterAbsorption (kOps S reader method) mA mB j maxsteps c d) (k : ℕ) (ray : KRay ℝ Comp) :
    c * chance (fun s => k + 1 ≤ marks mA (kTrace (kOps S reader method) maxsteps (maxsteps + 1) 0 ray s)) ≤
      d * chance (fun s => k + 1 ≤ marks mB (kTrace (kOps S reader method) maxsteps (maxsteps + 1) 0 ray s) + j) :=
  loop_compare (engine_fair S method) qA qB hC (many_set S method maxsteps) (maxsteps + 1) 0 k ray

theorem gives_lum {c : Comp} (hg : Reemission.isEmit (gives (kOps S reader method) c) = true) : c.kind = .luminophore := by
  by_contra hl
  have : gives (kOps S reader method) c = .scatter := if_neg hl
  rw [this] at hg
  cases hg

variable {S method maxsteps}

/-- **C114** If no luminophore of the scene has a quantum yield above `q`, one more re-emission is at most `q` times as likely. -/
theorem once_more (ray : KRay ℝ Comp) {q : ℝ} (h0 : 0 ≤ q)
    (hq : ∀ v, ∀ c ∈ (S.node v).comps, c.kind = .luminophore → c.qy ≤ q) (k : ℕ) :
    chance (fun s => k + 1 ≤ oftenIn .emit (fullHistory (kOps S reader method) maxsteps ⟨ray, s⟩)) ≤
      ENNReal.ofReal q * chance (fun s => k ≤ oftenIn .emit (fullHistory (kOps S reader method) maxsteps ⟨ray, s⟩)) := by
  have h := rows_compare S method maxsteps (mA := Reemission.isEmit) (mB := Reemission.isEmit) (j := 1) (c := 1) (d := ENNReal.ofReal q)
    (by unfold EngineThinning.Quiet; decide) (by unfold EngineThinning.Quiet; decide)
    (EngineThinning.upper (engine_fair S method) rfl rfl fun c hc hk => ⟨c.qy, draws S method c, fun hg => by
      obtain ⟨v, hv⟩ := absorbs S method hc
      refine ⟨Reemission.uniform_le (hq v c hv (gives_lum S method hg)) h0, ?_⟩
      rw [hg]; rfl⟩) k ray
  rw [one_mul] at h
  simp only [often_marks S method maxsteps .emit (by decide)]
  refine h.trans (mul_le_mul' le_rfl (measure_mono fun s (hs : k + 1 ≤ _ + 1) => ?_))
  exact Nat.le_of_succ_le_succ hs

/-- **C114** If no luminophore of the scene has a quantum yield above `q`, a ray is re-emitted `k` times or more with a chance
of at most `q ^ k`. -/
theorem engine_reemitted (ray : KRay ℝ Comp) {q : ℝ} (h0 : 0 ≤ q)
    (hq : ∀ v, ∀ c ∈ (S.node v).comps, c.kind = .luminophore → c.qy ≤ q) (k : ℕ) :
    chance (fun s => k ≤ oftenIn .emit (fullHistory (kOps S reader method) maxsteps ⟨ray, s⟩)) ≤ ENNReal.ofReal q ^ k := by
  induction k with
  | zero => rw [pow_zero]; exact prob_le_one
  | succ k ih =>
    rw [pow_succ']
    exact (once_more ray h0 hq k).trans (mul_le_mul' le_rfl ih)

/-- **C114** Luminophores and scatterers together: given off again `k` times or more with a chance of at most `q ^ k`. -/
theorem engine_given_off (ray : KRay ℝ Comp) {q : ℝ} (h0 : 0 ≤ q)
    (hq : ∀ v, ∀ c ∈ (S.node v).comps, c.kind = .luminophore ∨ c.kind = .scatterer → c.qy ≤ q) (k : ℕ) :
    chance (fun s => k ≤ oftenIn .emit (fullHistory (kOps S reader method) maxsteps ⟨ray, s⟩) +
      oftenIn .scatter (fullHistory (kOps S reader method) maxsteps ⟨ray, s⟩)) ≤ ENNReal.ofReal q ^ k := by
  simp only [often_marks S method maxsteps .emit (by decide), often_marks S method maxsteps .scatter (by decide)]
  set m : Event → Bool := fun x => decide (x = .emit) || decide (x = .scatter) with hm
  have e : ∀ os : List (KOut ℝ (Fin (n + 1)) Comp), marks (fun x => decide (x = Event.emit)) os +
      marks (fun x => decide (x = Event.scatter)) os = marks m os := by
    intro os
    unfold marks
    induction rowsOf os with
    | nil => rfl
    | cons r l ih =>
      rw [List.countP_cons, List.countP_cons, List.countP_cons, ← ih]
      dsimp only [m]
      rcases r.kind <;> simp <;> omega
  simp only [e]
  induction k with
  | zero => rw [pow_zero]; exact prob_le_one
  | succ k ih =>
    have h := rows_compare S method maxsteps (mA := m) (mB := m) (j := 1) (c := 1) (d := ENNReal.ofReal q)
      (by unfold EngineThinning.Quiet; decide) (by unfold EngineThinning.Quiet; decide)
      (EngineThinning.upper (engine_fair S method) rfl rfl fun c hc hk => ⟨c.qy, draws S method c, fun hg => by
        obtain ⟨v, hv⟩ := absorbs S method hc
        refine ⟨Reemission.uniform_le (hq v c hv hk.symm) h0, ?_⟩
        rw [hg]; rfl⟩) k ray
    rw [one_mul] at h
    rw [pow_succ']
    refine h.trans (mul_le_mul' le_rfl ((measure_mono fun s (hs : k + 1 ≤ _ + 1) => ?_).trans ih))
    exact Nat.le_of_succ_le_succ hs

/-- **C114** If no luminophore has a quantum yield above `q`, `k` re-emissions are at most `q` times as likely as `k`
absorptions. -/
theorem engine_share_le (ray : KRay ℝ Comp) {q : ℝ} (h0 : 0 ≤ q)
    (hq : ∀ v, ∀ c ∈ (S.node v).comps, c.kind = .luminophore → c.qy ≤ q) {k : ℕ} (hk : 0 < k) :
    chance (fun s => k ≤ oftenIn .emit (fullHistory (kOps S reader method) maxsteps ⟨ray, s⟩)) ≤
      ENNReal.ofReal q * chance (fun s => k ≤ oftenIn .absorb (fullHistory (kOps S reader method) maxsteps ⟨ray, s⟩)) := by
  obtain ⟨k, rfl⟩ : ∃ j, k = j + 1 := ⟨k - 1, by omega⟩
  have h := rows_compare S method maxsteps (mA := Reemission.isEmit) (mB := Reemission.isAbsorb) (j := 0) (c := 1) (d := ENNReal.ofReal q)
    (by unfold EngineThinning.Quiet; decide) (by unfold EngineThinning.Quiet; decide)
    (EngineThinning.upper (engine_fair S method) rfl rfl fun c hc hk => ⟨c.qy, draws S method c, fun hg => by
      obtain ⟨v, hv⟩ := absorbs S method hc
      have hl := gives_lum S method hg
      have he : gives (kOps S reader method) c = .emit := if_pos hl
      refine ⟨Reemission.uniform_le (hq v c hv hl) h0, ?_⟩
      rw [he]; rfl⟩) k ray
  rw [one_mul] at h
  simp only [often_marks S method maxsteps .emit (by decide), often_marks S method maxsteps .absorb (by decide)]
  exact h

/-- **C114** If there is nothing but luminophores with quantum yields of at least `q`, `k` re-emissions are at least `q` times
as likely as `k` absorptions. -/
theorem engine_share_ge (ray : KRay ℝ Comp) {q : ℝ} (h1 : q ≤ 1)
    (hq : ∀ v, ∀ c ∈ (S.node v).comps, c.kind = .luminophore ∧ q ≤ c.qy) {k : ℕ} (hk : 0 < k) :
    ENNReal.ofReal q * chance (fun s => k ≤ oftenIn .absorb (fullHistory (kOps S reader method) maxsteps ⟨ray, s⟩)) ≤
      chance (fun s => k ≤ oftenIn .emit (fullHistory (kOps S reader method) maxsteps ⟨ray, s⟩)) := by
  obtain ⟨k, rfl⟩ : ∃ j, k = j + 1 := ⟨k - 1, by omega⟩
  have h := rows_compare S method maxsteps (mA := Reemission.isAbsorb) (mB := Reemission.isEmit) (j := 0) (c := ENNReal.ofReal q) (d := 1)
    (by unfold EngineThinning.Quiet; decide) (by unfold EngineThinning.Quiet; decide)
    (EngineThinning.lower (engine_fair S method) fun c hc => by
      obtain ⟨v, hv⟩ := absorbs S method hc
      exact ⟨(hq v c hv).1, c.qy, draws S method c, Reemission.uniform_ge (hq v c hv).2 h1⟩) k ray
  rw [one_mul] at h
  simp only [often_marks S method maxsteps .emit (by decide), often_marks S method maxsteps .absorb (by decide)]
  exact h

/-- **C114** With luminophores of one quantum yield `q` and nothing else that absorbs, `k` re-emissions are exactly `q` times as
likely as `k` absorptions. -/
theorem engine_share_eq (ray : KRay ℝ Comp) {q : ℝ} (h0 : 0 ≤ q) (h1 : q ≤ 1)
    (hq : ∀ v, ∀ c ∈ (S.node v).comps, c.kind = .luminophore ∧ c.qy = q) {k : ℕ} (hk : 0 < k) :
    chance (fun s => k ≤ oftenIn .emit (fullHistory (kOps S reader method) maxsteps ⟨ray, s⟩)) =
      ENNReal.ofReal q * chance (fun s => k ≤ oftenIn .absorb (fullHistory (kOps S reader method) maxsteps ⟨ray, s⟩)) :=
  le_antisymm (engine_share_le ray h0 (fun v c hc _ => (hq v c hc).2.le) hk)
    (engine_share_ge ray h1 (fun v c hc => ⟨(hq v c hc).1, (hq v c hc).2.ge⟩) hk)

/-! ### Means -/

/-- A mean number is the sum of the chances of one or more, two or more, and so on. -/
theorem tail_sum {N : Numbers → ℕ} (hm : ∀ k, MeasurableSet {s | k ≤ N s}) :
    meanCount N = ∑' k : ℕ, chance (fun s => k + 1 ≤ N s) := by
  have e1 : ∀ k, chance (fun s => k + 1 ≤ N s) = ∫⁻ s, Set.indicator {s | k + 1 ≤ N s} 1 s ∂independent := by
    intro k
    rw [lintegral_indicator_one (hm (k + 1))]
    rfl
  simp only [e1]
  rw [← lintegral_tsum fun k => (measurable_one.indicator (hm (k + 1))).aemeasurable]
  unfold meanCount
  congr 1
  funext s
  have e2 : ∀ k, Set.indicator {s | k + 1 ≤ N s} (1 : Numbers → ENNReal) s = if k ∈ Finset.range (N s) then 1 else 0 := by
    intro k
    by_cases hk : k < N s
    · rw [if_pos (Finset.mem_range.2 hk), Set.indicator_of_mem (show s ∈ {s | k + 1 ≤ N s} from hk)]; rfl
    · rw [if_neg (by simpa using hk), Set.indicator_of_notMem]
      exact fun h => hk h
  simp only [e2]
  rw [tsum_eq_sum (s := Finset.range (N s)) fun k hk => if_neg hk, Finset.sum_congr rfl fun k hk => if_pos hk]
  simp

theorem mean_rows (ray : KRay ℝ Comp) (e : Event) (he : e ≠ .generate) :
    meanCount (fun s => oftenIn e (fullHistory (kOps S reader method) maxsteps ⟨ray, s⟩)) =
      ∑' k : ℕ, chance (fun s => k + 1 ≤ oftenIn e (fullHistory (kOps S reader method) maxsteps ⟨ray, s⟩)) :=
  tail_sum fun k => by
    simp only [often_marks S method maxsteps e he]
    exact many_set S method maxsteps _ _ _ _ _

/-- **C114** If no luminophore has a quantum yield above `q < 1`, a ray is re-emitted at most `q / (1 - q)` times in the mean,
however many steps are allowed. -/
theorem engine_mean_reemitted (ray : KRay ℝ Comp) {q : ℝ} (h0 : 0 ≤ q) (h1 : q < 1)
    (hq : ∀ v, ∀ c ∈ (S.node v).comps, c.kind = .luminophore → c.qy ≤ q) :
    meanCount (fun s => oftenIn .emit (fullHistory (kOps S reader method) maxsteps ⟨ray, s⟩)) ≤ ENNReal.ofReal (q / (1 - q)) := by
  rw [mean_rows ray .emit (by decide)]
  calc _ ≤ ∑' k : ℕ, ENNReal.ofReal q ^ (k + 1) := ENNReal.tsum_le_tsum fun k => engine_reemitted ray h0 hq (k + 1)
    _ = ∑' k : ℕ, ENNReal.ofReal q * ENNReal.ofReal q ^ k := by simp only [pow_succ']
    _ = ENNReal.ofReal q * (1 - ENNReal.ofReal q)⁻¹ := by rw [ENNReal.tsum_mul_left, ENNReal.tsum_geometric]
    _ = ENNReal.ofReal (q / (1 - q)) := by
      rw [div_eq_mul_inv, ENNReal.ofReal_mul h0, ENNReal.ofReal_inv_of_pos (by linarith), ENNReal.ofReal_sub _ h0, ENNReal.ofReal_one]

/-- **C114** The mean number of re-emissions is at most `q` times the mean number of absorptions. -/
theorem engine_mean_le (ray : KRay ℝ Comp) {q : ℝ} (h0 : 0 ≤ q)
    (hq : ∀ v, ∀ c ∈ (S.node v).comps, c.kind = .luminophore → c.qy ≤ q) :
    meanCount (fun s => oftenIn .emit (fullHistory (kOps S reader method) maxsteps ⟨ray, s⟩)) ≤
      ENNReal.ofReal q * meanCount (fun s => oftenIn .absorb (fullHistory (kOps S reader method) maxsteps ⟨ray, s⟩)) := by
  rw [mean_rows ray .emit (by decide), mean_rows ray .absorb (by decide), ← ENNReal.tsum_mul_left]
  exact ENNReal.tsum_le_tsum fun k => engine_share_le ray h0 hq k.succ_pos

/-- **C114** With luminophores of one quantum yield `q` and nothing else that absorbs, the mean number of re-emissions is `q`
times the mean number of absorptions. -/
theorem engine_mean (ray : KRay ℝ Comp) {q : ℝ} (h0 : 0 ≤ q) (h1 : q ≤ 1)
    (hq : ∀ v, ∀ c ∈ (S.node v).comps, c.kind = .luminophore ∧ c.qy = q) :
    meanCount (fun s => oftenIn .emit (fullHistory (kOps S reader method) maxsteps ⟨ray, s⟩)) =
      ENNReal.ofReal q * meanCount (fun s => oftenIn .absorb (fullHistory (kOps S reader method) maxsteps ⟨ray, s⟩)) := by
  rw [mean_rows ray .emit (by decide), mean_rows ray .absorb (by decide), ← ENNReal.tsum_mul_left]
  exact tsum_congr fun k => engine_share_eq ray h0 h1 hq k.succ_pos

/-! ### Losses -/

theorem absorb_balance (K : KOps ℝ (Fin (n + 1)) Comp Numbers) (v : Fin (n + 1)) (ray : KRay ℝ Comp) (x : ℝ) (s : Numbers) :
    marks (fun x => decide (x = Event.absorb)) (kAbsorb K v ray x s).1 =
      marks (fun x => decide (x = Event.emit)) (kAbsorb K v ray x s).1 + marks (fun x => decide (x = Event.scatter)) (kAbsorb K v ray x s).1 +
        (marks (fun x => decide (x = Event.nonradiative)) (kAbsorb K v ray x s).1 +
          marks (fun x => decide (x = Event.react)) (kAbsorb K v ray x s).1) ∧
    (marks (fun x => decide (x = Event.nonradiative)) (kAbsorb K v ray x s).1 +
      marks (fun x => decide (x = Event.react)) (kAbsorb K v ray x s).1 = 0 ∨
      (kAbsorb K v ray x s).2 = .stop ∧ marks (fun x => decide (x = Event.nonradiative)) (kAbsorb K v ray x s).1 +
      marks (fun x => decide (x = Event.react)) (kAbsorb K v ray x s).1 ≤ 1) := by
  unfold kAbsorb
  dsimp only
  split_ifs <;> simp_all

theorem surface_balance (K : KOps ℝ (Fin (n + 1)) Comp Numbers) (h v : Fin (n + 1)) (a : Option (Fin (n + 1))) (ray : KRay ℝ Comp) (x : ℝ)
    (s : Numbers) (m : Event → Bool) (m1 : m .reflect = false) (m2 : m .transmit = false) (m3 : m .kill = false) :
    marks m (kSurface K h v a ray x s).1 = 0 := by
  unfold kSurface
  rcases a with _ | a
  · simp [m3]
  · dsimp only
    split_ifs <;> simp [m1, m2]

/-- Every absorption ends in one way, and losing the light is the end. -/
theorem trace_balance (K : KOps ℝ (Fin (n + 1)) Comp Numbers) (maxsteps fuel : ℕ) : ∀ (count : ℕ) (ray : KRay ℝ Comp) (s : Numbers),
    marks (fun x => decide (x = Event.absorb)) (kTrace K maxsteps fuel count ray s) =
      marks (fun x => decide (x = Event.emit)) (kTrace K maxsteps fuel count ray s) +
        marks (fun x => decide (x = Event.scatter)) (kTrace K maxsteps fuel count ray s) +
        (marks (fun x => decide (x = Event.nonradiative)) (kTrace K maxsteps fuel count ray s) +
          marks (fun x => decide (x = Event.react)) (kTrace K maxsteps fuel count ray s)) ∧
    marks (fun x => decide (x = Event.nonradiative)) (kTrace K maxsteps fuel count ray s) +
      marks (fun x => decide (x = Event.react)) (kTrace K maxsteps fuel count ray s) ≤ 1 := by
  induction fuel with
  | zero => intro count ray s; exact ⟨rfl, by simp [kTrace]⟩
  | succ fuel ih =>
    intro count ray s
    have hb : (marks (fun x => decide (x = Event.absorb)) (kBody K maxsteps (count + 1) ray s).1 =
        marks (fun x => decide (x = Event.emit)) (kBody K maxsteps (count + 1) ray s).1 +
          marks (fun x => decide (x = Event.scatter)) (kBody K maxsteps (count + 1) ray s).1 +
        (marks (fun x => decide (x = Event.nonradiative)) (kBody K maxsteps (count + 1) ray s).1 +
          marks (fun x => decide (x = Event.react)) (kBody K maxsteps (count + 1) ray s).1)) ∧
        (marks (fun x => decide (x = Event.nonradiative)) (kBody K maxsteps (count + 1) ray s).1 +
          marks (fun x => decide (x = Event.react)) (kBody K maxsteps (count + 1) ray s).1 = 0 ∨
        (kBody K maxsteps (count + 1) ray s).2 = .stop ∧
        marks (fun x => decide (x = Event.nonradiative)) (kBody K maxsteps (count + 1) ray s).1 +
          marks (fun x => decide (x = Event.react)) (kBody K maxsteps (count + 1) ray s).1 ≤ 1) := by
      rcases e : K.nextHit ray.position ray.direction with _ | ⟨h, v, a, t0⟩
      · unfold kBody; simp [e]
      by_cases h1 : count + 1 > maxsteps
      · unfold kBody; simp [e, h1]
      by_cases h2 : h = K.root
      · unfold kBody; simp [e, h1, h2]
      rw [body_go e h1 h2]
      unfold go
      rcases isAbsorbed (K.depth v ray.wavelength s).1 t0 with _ | x
      · simp only
        refine ⟨?_, .inl ?_⟩ <;> simp [surface_balance]
      · exact absorb_balance K v ray x _
    obtain ⟨hb1, hb2⟩ := hb
    rw [kTrace]
    rcases hn : (kBody K maxsteps (count + 1) ray s).2 with ⟨r, t⟩ | _
    · rw [hn] at hb2
      have hb2 := hb2.resolve_right (by simp)
      obtain ⟨i1, i2⟩ := ih (count + 1) r t
      simp only [marks_append]
      omega
    · simp only
      omega

/-- The mean of a sum. -/
theorem mean_add {N M : Numbers → ℕ} (hm : ∀ k, MeasurableSet {s | k ≤ N s}) : meanCount (fun s => N s + M s) = meanCount N + meanCount M := by
  unfold meanCount
  simp only [Nat.cast_add]
  refine lintegral_add_left ?_ _
  have h : Measurable N := measurable_of_Ici hm
  exact measurable_from_top.comp h

theorem absorb_lum (K : KOps ℝ (Fin (n + 1)) Comp Numbers) (v : Fin (n + 1)) (ray : KRay ℝ Comp) (x : ℝ) (s : Numbers)
    (hl : K.kind (K.pick v ray.wavelength s).1 = .luminophore) :
    marks (fun x => decide (x = Event.scatter)) (kAbsorb K v ray x s).1 = 0 ∧ marks (fun x => decide (x = Event.react)) (kAbsorb K v ray x s).1 = 0 := by
  have hw : (ray.advance x (K.nidx v)).wavelength = ray.wavelength := rfl
  unfold kAbsorb
  simp only [hw, hl]
  split_ifs <;> simp_all

/-- Luminophores neither scatter nor react. -/
theorem trace_lum (K : KOps ℝ (Fin (n + 1)) Comp Numbers) (hK : ∀ c, EngineThinning.Absorbs K c → K.kind c = .luminophore) (maxsteps fuel : ℕ) :
    ∀ (count : ℕ) (ray : KRay ℝ Comp) (s : Numbers),
    marks (fun x => decide (x = Event.scatter)) (kTrace K maxsteps fuel count ray s) = 0 ∧
      marks (fun x => decide (x = Event.react)) (kTrace K maxsteps fuel count ray s) = 0 := by
  induction fuel with
  | zero => intro count ray s; exact ⟨rfl, rfl⟩
  | succ fuel ih =>
    intro count ray s
    have hb : marks (fun x => decide (x = Event.scatter)) (kBody K maxsteps (count + 1) ray s).1 = 0 ∧
        marks (fun x => decide (x = Event.react)) (kBody K maxsteps (count + 1) ray s).1 = 0 := by
      rcases e : K.nextHit ray.position ray.direction with _ | ⟨h, v, a, t0⟩
      · unfold kBody; simp [e]
      by_cases h1 : count + 1 > maxsteps
      · unfold kBody; simp [e, h1]
      by_cases h2 : h = K.root
      · unfold kBody; simp [e, h1, h2]
      rw [body_go e h1 h2]
      unfold go
      rcases hx : isAbsorbed (K.depth v ray.wavelength s).1 t0 with _ | x
      · constructor <;> simp [surface_balance]
      · refine absorb_lum K v ray x _ (hK _ ⟨v, ray.wavelength, s, _, ?_, rfl⟩)
        rcases hd : (K.depth v ray.wavelength s).1 with _ | y
        · rw [hd] at hx; cases hx
        · rfl
    rw [kTrace]
    rcases hn : (kBody K maxsteps (count + 1) ray s).2 with ⟨r, t⟩ | _
    · simp only [marks_append, ih (count + 1) r t, hb, add_zero, and_self]
    · exact hb

theorem often_pos (e : Event) (h : List (Row ℝ (Fin (n + 1)) Comp)) : 1 ≤ oftenIn e h ↔ ∃ r ∈ h, r.kind = e := by
  unfold oftenIn
  rw [Nat.one_le_iff_ne_zero, Ne, List.length_eq_zero_iff, List.filter_eq_nil_iff]
  simp

/-- The rows of one history. -/
theorem history_balance (ray : KRay ℝ Comp) (s : Numbers) :
    oftenIn .absorb (fullHistory (kOps S reader method) maxsteps ⟨ray, s⟩) =
      oftenIn .emit (fullHistory (kOps S reader method) maxsteps ⟨ray, s⟩) +
        oftenIn .scatter (fullHistory (kOps S reader method) maxsteps ⟨ray, s⟩) +
        (oftenIn .nonradiative (fullHistory (kOps S reader method) maxsteps ⟨ray, s⟩) +
          oftenIn .react (fullHistory (kOps S reader method) maxsteps ⟨ray, s⟩)) ∧
    oftenIn .nonradiative (fullHistory (kOps S reader method) maxsteps ⟨ray, s⟩) +
      oftenIn .react (fullHistory (kOps S reader method) maxsteps ⟨ray, s⟩) ≤ 1 := by
  simp only [often_marks S method maxsteps .absorb (by decide), often_marks S method maxsteps .emit (by decide),
    often_marks S method maxsteps .scatter (by decide), often_marks S method maxsteps .nonradiative (by decide),
    often_marks S method maxsteps .react (by decide)]
  exact trace_balance _ _ _ _ _ _

theorem rows_set (ray : KRay ℝ Comp) (e : Event) (he : e ≠ .generate) (k : ℕ) :
    MeasurableSet {s | k ≤ oftenIn e (fullHistory (kOps S reader method) maxsteps ⟨ray, s⟩)} := by
  simp only [often_marks S method maxsteps e he]
  exact many_set S method maxsteps _ _ _ _ _

/-- **C114** In every scene the chance that a ray ends in the material is the mean number of its absorptions less those of its
re-emissions and scatterings. -/
theorem engine_balance (ray : KRay ℝ Comp) :
    meanCount (fun s => oftenIn .absorb (fullHistory (kOps S reader method) maxsteps ⟨ray, s⟩)) =
      meanCount (fun s => oftenIn .emit (fullHistory (kOps S reader method) maxsteps ⟨ray, s⟩)) +
        meanCount (fun s => oftenIn .scatter (fullHistory (kOps S reader method) maxsteps ⟨ray, s⟩)) +
      chance (fun s => ∃ r ∈ fullHistory (kOps S reader method) maxsteps ⟨ray, s⟩, r.kind = .nonradiative ∨ r.kind = .react) := by
  have e1 : (fun s => oftenIn .absorb (fullHistory (kOps S reader method) maxsteps ⟨ray, s⟩)) = fun s =>
      oftenIn .emit (fullHistory (kOps S reader method) maxsteps ⟨ray, s⟩) +
        (oftenIn .scatter (fullHistory (kOps S reader method) maxsteps ⟨ray, s⟩) +
        (oftenIn .nonradiative (fullHistory (kOps S reader method) maxsteps ⟨ray, s⟩) +
          oftenIn .react (fullHistory (kOps S reader method) maxsteps ⟨ray, s⟩))) := by
    funext s
    rw [(history_balance ray s).1, add_assoc]
  rw [e1, mean_add (rows_set ray .emit (by decide)), mean_add (rows_set ray .scatter (by decide)), add_assoc]
  congr 2
  have hm : MeasurableSet {s | ∃ r ∈ fullHistory (kOps S reader method) maxsteps ⟨ray, s⟩, r.kind = .nonradiative ∨ r.kind = .react} := by
    have := (rows_set (S := S) (method := method) (maxsteps := maxsteps) ray .nonradiative (by decide) 1).union
      (rows_set (S := S) (method := method) (maxsteps := maxsteps) ray .react (by decide) 1)
    convert this using 1
    ext s
    simp only [Set.mem_union, Set.mem_ofPred_eq, often_pos]
    constructor
    · rintro ⟨r, hr, h | h⟩
      · exact .inl ⟨r, hr, h⟩
      · exact .inr ⟨r, hr, h⟩
    · rintro (⟨r, hr, h⟩ | ⟨r, hr, h⟩)
      · exact ⟨r, hr, .inl h⟩
      · exact ⟨r, hr, .inr h⟩
  unfold chance
  rw [← lintegral_indicator_one hm]
  unfold meanCount
  congr 1
  funext s
  have hb := (history_balance (S := S) (method := method) (maxsteps := maxsteps) ray s).2
  by_cases hs : ∃ r ∈ fullHistory (kOps S reader method) maxsteps ⟨ray, s⟩, r.kind = .nonradiative ∨ r.kind = .react
  · rw [Set.indicator_of_mem (show s ∈ {s | ∃ r ∈ fullHistory (kOps S reader method) maxsteps ⟨ray, s⟩, r.kind = .nonradiative ∨ r.kind = .react} from hs)]
    dsimp only
    have : oftenIn .nonradiative (fullHistory (kOps S reader method) maxsteps ⟨ray, s⟩) +
        oftenIn .react (fullHistory (kOps S reader method) maxsteps ⟨ray, s⟩) = 1 := by
      obtain ⟨r, hr, h | h⟩ := hs
      · have := (often_pos _ _).2 ⟨r, hr, h⟩; omega
      · have := (often_pos _ _).2 ⟨r, hr, h⟩; omega
    rw [this]; simp
  · rw [Set.indicator_of_notMem (show s ∉ {s | ∃ r ∈ fullHistory (kOps S reader method) maxsteps ⟨ray, s⟩, r.kind = .nonradiative ∨ r.kind = .react} from hs)]
    dsimp only
    have : oftenIn .nonradiative (fullHistory (kOps S reader method) maxsteps ⟨ray, s⟩) +
        oftenIn .react (fullHistory (kOps S reader method) maxsteps ⟨ray, s⟩) = 0 := by
      by_contra h
      have h : 1 ≤ oftenIn .nonradiative (fullHistory (kOps S reader method) maxsteps ⟨ray, s⟩) ∨
          1 ≤ oftenIn .react (fullHistory (kOps S reader method) maxsteps ⟨ray, s⟩) := by omega
      rcases h with h | h
      · obtain ⟨r, hr, h⟩ := (often_pos _ _).1 h; exact hs ⟨r, hr, .inl h⟩
      · obtain ⟨r, hr, h⟩ := (often_pos _ _).1 h; exact hs ⟨r, hr, .inr h⟩
    rw [this]; simp

/-- The mean of a number that is bounded is finite. -/
theorem mean_finite (ray : KRay ℝ Comp) (e : Event) :
    meanCount (fun s => oftenIn e (fullHistory (kOps S reader method) maxsteps ⟨ray, s⟩)) ≠ ⊤ := by
  refine ne_of_lt (lt_of_le_of_lt (b := ((2 * maxsteps + 3 : ℕ) : ENNReal)) ?_ (ENNReal.natCast_lt_top _))
  unfold meanCount
  calc _ ≤ ∫⁻ _ : Numbers, ((2 * maxsteps + 3 : ℕ) : ENNReal) ∂independent := lintegral_mono fun s => by
        exact Nat.cast_le.2 ((List.length_filter_le _ _).trans (full_history_complete _ _ _).2)
    _ = _ := by rw [lintegral_const, measure_univ, mul_one]

/-- **C114** With luminophores of one quantum yield `q` and nothing else that absorbs, a ray is lost in the material with a chance
of `1 - q` times the mean number of its absorptions. -/
theorem engine_lost (ray : KRay ℝ Comp) {q : ℝ} (h0 : 0 ≤ q) (h1 : q ≤ 1)
    (hq : ∀ v, ∀ c ∈ (S.node v).comps, c.kind = .luminophore ∧ c.qy = q) :
    chance (fun s => ∃ r ∈ fullHistory (kOps S reader method) maxsteps ⟨ray, s⟩, r.kind = .nonradiative) =
      ENNReal.ofReal (1 - q) * meanCount (fun s => oftenIn .absorb (fullHistory (kOps S reader method) maxsteps ⟨ray, s⟩)) := by
  have hl := trace_lum (kOps S reader method) (fun c hc => by
    obtain ⟨v, hv⟩ := absorbs S method hc
    exact (hq v c hv).1) maxsteps (maxsteps + 1) 0 ray
  have hs : ∀ s, oftenIn .scatter (fullHistory (kOps S reader method) maxsteps ⟨ray, s⟩) = 0 := fun s => by
    rw [often_marks S method maxsteps .scatter (by decide)]; exact (hl s).1
  have hr : ∀ s, ¬ ∃ r ∈ fullHistory (kOps S reader method) maxsteps ⟨ray, s⟩, r.kind = .react := fun s => by
    rw [← often_pos, often_marks S method maxsteps .react (by decide), (hl s).2]; omega
  have hb := engine_balance (S := S) (method := method) (maxsteps := maxsteps) ray
  rw [engine_mean ray h0 h1 hq] at hb
  simp only [hs] at hb
  have e0 : meanCount (fun _ => 0) = 0 := by simp [meanCount]
  rw [e0, add_zero] at hb
  have e1 : (fun s => ∃ r ∈ fullHistory (kOps S reader method) maxsteps ⟨ray, s⟩, r.kind = .nonradiative ∨ r.kind = .react) =
      fun s => ∃ r ∈ fullHistory (kOps S reader method) maxsteps ⟨ray, s⟩, r.kind = .nonradiative := by
    funext s
    refine propext ⟨?_, fun ⟨r, h, h'⟩ => ⟨r, h, .inl h'⟩⟩
    rintro ⟨r, h, h' | h'⟩
    · exact ⟨r, h, h'⟩
    · exact absurd ⟨r, h, h'⟩ (hr s)
  rw [e1] at hb
  have hf := mean_finite (S := S) (method := method) (maxsteps := maxsteps) ray .absorb
  generalize meanCount (fun s => oftenIn .absorb (fullHistory (kOps S reader method) maxsteps ⟨ray, s⟩)) = M at hb hf ⊢
  rw [ENNReal.ofReal_sub _ h0, ENNReal.ofReal_one, ENNReal.sub_mul (fun _ _ => hf), one_mul]
  exact ENNReal.eq_sub_of_add_eq (ENNReal.mul_ne_top ENNReal.ofReal_ne_top hf) (by rw [add_comm]; exact hb.symm)

end
end PV.EngineReemission
