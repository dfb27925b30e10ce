import Verif.Model.Renderer
import Mathlib.Data.List.Basic
import Mathlib.Tactic.Linarith

/-!
C54 the renderer keeps a bounded number of paths, C66 drawn paths follow the recorded ones.
-/

set_option linter.unusedSectionVars false

namespace PV.Renderer
open PV
variable {α : Type} [Field α] [LinearOrder α] [FloorRing α]

/-- The number in a name. -/
def Key.num : Key → ℕ
  | .rays n => n
  | .exit n => n

/-- Nothing is stored under a number not handed out yet. -/
def Clean (V : View α) : Prop := ∀ k : Key, V.index < k.num → V.objects k = none

/-- The lines stored under some identifiers, in order. -/
def lines (V : View α) (ids : List ℕ) : List (Obj α) := ids.filterMap fun n => V.objects (.rays n)

/-- `V'` is `V` with new objects under the new identifiers `ids`. -/
structure Grows (V V' : View α) (ids : List ℕ) : Prop where
  index : V'.index = V.index + ids.length
  range : ids = List.range' (V.index + 1) ids.length
  hist : V'.histories = V.histories
  old : ∀ k : Key, k.num ≤ V.index → V'.objects k = V.objects k
  new : ∀ n, n ∈ ids → (V'.objects (.rays n)).isSome ∨ (V'.objects (.exit n)).isSome
  beyond : ∀ k : Key, V'.index < k.num → V'.objects k = V.objects k

theorem Grows.refl (V : View α) : Grows V V [] := ⟨rfl, rfl, rfl, fun _ _ => rfl, by simp, fun _ _ => rfl⟩

theorem Grows.mem {V V' : View α} {ids : List ℕ} (h : Grows V V' ids) {n : ℕ} :
    n ∈ ids ↔ V.index < n ∧ n ≤ V'.index := by
  rw [h.range, List.mem_range'_1, h.index]; omega

theorem Grows.trans {U V W : View α} {a b : List ℕ} (h : Grows U V a) (g : Grows V W b) :
    Grows U W (a ++ b) where
  index := by rw [g.index, h.index, List.length_append]; omega
  range := by
    rw [List.length_append, ← List.range'_append_1]
    conv_lhs => rw [h.range, g.range]
    rw [h.index]
    congr 2
    omega
  hist := g.hist.trans h.hist
  old k hk := by rw [g.old k (by rw [h.index]; omega), h.old k hk]
  new n hn := by
    rcases List.mem_append.1 hn with hn | hn
    · have := (h.mem.1 hn).2
      rw [g.old (.rays n) this, g.old (.exit n) this]
      exact h.new n hn
    · exact g.new n hn
  beyond k hk := by
    rw [g.beyond k hk, h.beyond k (by rw [g.index] at hk; omega)]

theorem Grows.clean {V V' : View α} {ids : List ℕ} (h : Grows V V' ids) (hc : Clean V) : Clean V' :=
  fun k hk => by rw [h.beyond k hk]; exact hc k (by rw [h.index] at hk; omega)

theorem Grows.lines {U V W : View α} {a b : List ℕ} (h : Grows U V a) (g : Grows V W b) :
    lines W (a ++ b) = lines V a ++ lines W b := by
  unfold Renderer.lines
  rw [List.filterMap_append]
  congr 1
  apply List.filterMap_congr
  intro n hn
  exact g.old (.rays n) (h.mem.1 hn).2

theorem addLine_grows (V : View α) (a b : Vec3 α) (c : ℕ) :
    Grows V (V.addLine a b c).2 [(V.addLine a b c).1] where
  index := rfl
  range := rfl
  hist := rfl
  old k hk := by
    simp only [View.addLine, View.nextId, View.put]
    refine if_neg ?_
    rintro rfl
    simp only [Key.num] at hk
    omega
  new n hn := by
    rw [List.mem_singleton] at hn
    subst hn
    left
    simp [View.addLine, View.nextId, View.put]
  beyond k hk := by
    simp only [View.addLine, View.nextId, View.put] at hk ⊢
    refine if_neg ?_
    rintro rfl
    simp only [Key.num] at hk
    omega

theorem addBauble_grows (V : View α) (a : Vec3 α) (c : ℕ) :
    Grows V (V.nextId.2.put (.exit V.nextId.1) (.bauble a c)) [V.nextId.1] where
  index := rfl
  range := rfl
  hist := rfl
  old k hk := by
    simp only [View.nextId, View.put]
    refine if_neg ?_
    rintro rfl
    simp only [Key.num] at hk
    omega
  new n hn := by
    rw [List.mem_singleton] at hn
    subst hn
    right
    simp [View.nextId, View.put]
  beyond k hk := by
    simp only [View.nextId, View.put] at hk ⊢
    refine if_neg ?_
    rintro rfl
    simp only [Key.num] at hk
    omega

/-- Where the segment from `a` to `b` is drawn to end. -/
def stopOf (o : Options α) (last : Ray α) (a b : Ray α × Event) : Vec3 α :=
  if ¬ o.exclude ∧ b.1 = last then a.1.position + o.shortLength • a.1.direction else b.1.position

theorem addPart_grows (V : View α) (o : Options α) (last : Ray α) (a b : Ray α × Event) :
    Grows V (V.addPart o last a b).2 (V.addPart o last a b).1 := by
  unfold View.addPart
  dsimp only
  split
  · exact (addLine_grows V _ _ _).trans (addBauble_grows _ _ _)
  · exact addLine_grows V _ _ _

theorem addPart_lines {V : View α} (hc : Clean V) (o : Options α) (last : Ray α)
    (a b : Ray α × Event) :
    lines (V.addPart o last a b).2 (V.addPart o last a b).1 =
      [.line a.1.position (stopOf o last a b) (PV.Light.wavelengthToHexInt a.1.wavelength)] := by
  have hc1 : V.objects (.rays (V.index + 1 + 1)) = none := hc _ (by simp only [Key.num]; omega)
  unfold View.addPart
  dsimp only
  split
  · simp [lines, View.addLine, View.nextId, View.put, stopOf, hc1]
  · simp [lines, View.addLine, View.nextId, View.put, stopOf]

theorem addParts_grows (o : Options α) (last : Ray α) : ∀ (h : List (Ray α × Event)) (V : View α),
    Grows V (V.addParts o last h).2 (V.addParts o last h).1
  | a :: b :: rest, V => by
    unfold View.addParts
    exact (addPart_grows V o last a b).trans (addParts_grows o last (b :: rest) _)
  | [_], V => by unfold View.addParts; exact .refl V
  | [], V => by unfold View.addParts; exact .refl V

/-- The lines a history is drawn with. -/
def polyline (o : Options α) (last : Ray α) (h : List (Ray α × Event)) : List (Obj α) :=
  List.zipWith (fun a b => .line a.1.position (stopOf o last a b)
    (PV.Light.wavelengthToHexInt a.1.wavelength)) h h.tail

theorem addParts_lines (o : Options α) (last : Ray α) : ∀ (h : List (Ray α × Event)) (V : View α),
    Clean V → lines (V.addParts o last h).2 (V.addParts o last h).1 = polyline o last h
  | a :: b :: rest, V, hc => by
    have g := addPart_grows V o last a b
    have ih := addParts_lines o last (b :: rest) _ (g.clean hc)
    have := g.lines (addParts_grows o last (b :: rest) _)
    rw [ih, addPart_lines hc] at this
    rw [View.addParts]
    exact this
  | [_], V, _ => by unfold View.addParts; rfl
  | [], V, _ => by unfold View.addParts; rfl

theorem addParts_ne_nil {o : Options α} {last : Ray α} {h : List (Ray α × Event)} {V : View α}
    (hl : 2 ≤ h.length) : (V.addParts o last h).1 ≠ [] := by
  match h, hl with
  | a :: b :: rest, _ =>
    have g := addPart_grows V o last a b
    rw [View.addParts]
    dsimp only
    intro e
    rw [List.append_eq_nil_iff] at e
    have e' := e.1
    unfold View.addPart at e'
    dsimp only at e'
    split at e' <;> simp at e'

/-! ### Removal -/

theorem removeAll_objects (ids : List ℕ) : ∀ V : View α,
    (ids.foldl View.removeObject V).index = V.index ∧
    (ids.foldl View.removeObject V).histories = V.histories ∧
    (∀ k, (∀ n ∈ ids, k ≠ .rays n) → (ids.foldl View.removeObject V).objects k = V.objects k) ∧
    ∀ n ∈ ids, (ids.foldl View.removeObject V).objects (.rays n) = none := by
  induction ids with
  | nil => intro V; simp
  | cons a ids ih =>
    intro V
    obtain ⟨h1, h2, h3, h4⟩ := ih (V.removeObject a)
    refine ⟨h1, h2, ?_, ?_⟩
    · intro k hk
      rw [List.foldl_cons, h3 k (fun n hn => hk n (by simp [hn]))]
      simp only [View.removeObject]
      rw [if_neg (hk a (by simp))]
    · intro n hn
      rw [List.foldl_cons]
      by_cases hm : n ∈ ids
      · exact h4 n hm
      · rw [h3 (.rays n) (by intro m hm' e; cases e; exact hm hm')]
        rcases List.mem_cons.1 hn with rfl | hn
        · simp [View.removeObject]
        · exact absurd hn hm

theorem keep_objects (V : View α) (m : Option ℕ) (ids : List ℕ) :
    (V.keep m ids).1.index = V.index ∧
    ∀ k, (V.keep m ids).1.objects k = V.objects k ∨ (V.keep m ids).1.objects k = none ∧ ∃ n, k = .rays n := by
  unfold View.keep
  dsimp only
  split
  · split
    · exact ⟨rfl, fun k => .inl rfl⟩
    · rename_i old rest _
      obtain ⟨h1, h2, h3, h4⟩ := removeAll_objects old
        { V with histories := rest }
      refine ⟨h1, fun k => ?_⟩
      by_cases hk : ∃ n ∈ old, k = .rays n
      · obtain ⟨n, hn, rfl⟩ := hk
        exact .inr ⟨h4 n hn, n, rfl⟩
      · push Not at hk
        exact .inl (h3 k hk)
  · exact ⟨rfl, fun k => .inl rfl⟩

/-! ### C54 -/

theorem addHistory_cases (V : View α) (m : Option ℕ) (o : Options α) (h : List (Ray α × Event)) :
    (V.addHistory m o h).1 = V ∨
    ∃ last, (shown o h).getLast? = some last ∧ 2 ≤ (shown o h).length ∧
      V.addHistory m o h = (V.addParts o last.1 (shown o h)).2.keep m (V.addParts o last.1 (shown o h)).1 := by
  unfold View.addHistory
  split
  · exact .inl rfl
  · split
    · exact .inl rfl
    · dsimp only
      split
      · exact .inl rfl
      · cases hl : (shown o h).getLast? with
        | none => exact .inl rfl
        | some last =>
          dsimp only
          split
          · exact .inl rfl
          · exact .inr ⟨last, rfl, by omega, rfl⟩

theorem addRayPath_grows : ∀ (rays : List (Ray α)) (V : View α),
    Grows V (V.addRayPath rays).2 (V.addRayPath rays).1
  | a :: b :: rest, V => by
    unfold View.addRayPath
    exact (addLine_grows V _ _ _).trans (addRayPath_grows (b :: rest) _)
  | [_], V => by unfold View.addRayPath; exact .refl V
  | [], V => by unfold View.addRayPath; exact .refl V

theorem call_fresh (m : Option ℕ) (V : View α) (op : Op α) :
    V.index ≤ (V.call m op).index ∧
    ∀ k : Key, k.num ≤ V.index → (V.call m op).objects k = V.objects k ∨ (V.call m op).objects k = none := by
  cases op with
  | history o h =>
    simp only [View.call]
    rcases addHistory_cases V m o h with e | ⟨last, _, _, e⟩
    · rw [e]; exact ⟨le_refl _, fun k _ => .inl rfl⟩
    · rw [e]
      have g := addParts_grows o last.1 (shown o h) V
      obtain ⟨k1, k2⟩ := keep_objects (V.addParts o last.1 (shown o h)).2 m
        (V.addParts o last.1 (shown o h)).1
      refine ⟨by rw [k1, g.index]; omega, fun k hk => ?_⟩
      rcases k2 k with e | e
      · rw [e, g.old k hk]; exact .inl rfl
      · exact .inr e.1
  | line a b c =>
    have g := addLine_grows V a b c
    exact ⟨by simp only [View.call]; rw [g.index]; omega, fun k hk => .inl (g.old k hk)⟩
  | rayPath rays =>
    have g := addRayPath_grows rays V
    exact ⟨by simp only [View.call]; rw [g.index]; omega, fun k hk => .inl (g.old k hk)⟩
  | removeObject n =>
    refine ⟨le_refl _, fun k _ => ?_⟩
    simp only [View.call, View.removeObject]
    split
    · exact .inr rfl
    · exact .inl rfl
  | clear => exact ⟨le_refl _, fun k _ => .inr rfl⟩

/-- **C54**. Identifiers are never reused: whatever calls follow, the name of an object handed out so
far holds that object or nothing. -/
theorem identifiers_unique (m : Option ℕ) (ops : List (Op α)) (V : View α) :
    V.index ≤ (V.run m ops).index ∧
    ∀ k : Key, k.num ≤ V.index →
      (V.run m ops).objects k = V.objects k ∨ (V.run m ops).objects k = none := by
  induction ops generalizing V with
  | nil => exact ⟨le_refl _, fun k _ => .inl rfl⟩
  | cons op ops ih =>
    obtain ⟨c1, c2⟩ := call_fresh m V op
    obtain ⟨h1, h2⟩ := ih (V.call m op)
    refine ⟨le_trans c1 h1, fun k hk => ?_⟩
    rcases h2 k (le_trans hk c1) with e | e
    · rcases c2 k hk with e' | e'
      · exact .inl (e.trans e')
      · exact .inr (e.trans e')
    · exact .inr e

theorem appendMax_short {m : ℕ} {q : List (List ℕ)} (h : q.length < m) (x : List ℕ) :
    appendMax (some m) q x = q ++ [x] := by simp [appendMax, h]

/-- What holds between calls of `add_history`: the deque never is full, the lines on display are those
of the paths in the deque, and everything of these paths is on display. -/
structure Tidy (m : ℕ) (V : View α) : Prop where
  clean : Clean V
  short : V.histories.length < m
  below : ∀ ids ∈ V.histories, ∀ n ∈ ids, n ≤ V.index
  disjoint : V.histories.Pairwise fun a b => ∀ n ∈ a, n ∉ b
  lines : ∀ n, V.objects (.rays n) ≠ none → ∃ ids ∈ V.histories, n ∈ ids
  shown : ∀ ids ∈ V.histories, ∀ n ∈ ids, V.objects (.rays n) ≠ none ∨ V.objects (.exit n) ≠ none

theorem keep_tidy {m : ℕ} {V W : View α} {ids : List ℕ} (hV : Tidy m V) (g : Grows V W ids) :
    Tidy m (W.keep (some m) ids).1 ∧ (W.keep (some m) ids).2 = none ∧
      (W.keep (some m) ids).1.histories =
        (V.histories ++ [ids]).drop (V.histories.length + 2 - m) := by
  have hcW := g.clean hV.clean
  have hall : ∀ l ∈ V.histories ++ [ids], ∀ n ∈ l, n ≤ W.index ∧
      (W.objects (.rays n) ≠ none ∨ W.objects (.exit n) ≠ none) := by
    intro l hl n hn
    rcases List.mem_append.1 hl with hl | hl
    · have hb := hV.below l hl n hn
      refine ⟨by rw [g.index]; omega, ?_⟩
      rw [g.old (.rays n) hb, g.old (.exit n) hb]
      exact hV.shown l hl n hn
    · rw [List.mem_singleton] at hl
      subst hl
      refine ⟨(g.mem.1 hn).2, ?_⟩
      rcases g.new n hn with e | e
      · left; intro e'; rw [e'] at e; simp at e
      · right; intro e'; rw [e'] at e; simp at e
  have hdis : (V.histories ++ [ids]).Pairwise fun a b => ∀ n ∈ a, n ∉ b := by
    rw [List.pairwise_append]
    refine ⟨hV.disjoint, by simp, ?_⟩
    intro a ha b hb n hn hn'
    rw [List.mem_singleton] at hb
    subst hb
    have := hV.below a ha n hn
    have := (g.mem.1 hn').1
    omega
  have hlin : ∀ n, W.objects (.rays n) ≠ none → ∃ l ∈ V.histories ++ [ids], n ∈ l := by
    intro n hn
    by_cases h1 : n ≤ V.index
    · rw [g.old (.rays n) h1] at hn
      obtain ⟨l, hl, hm⟩ := hV.lines n hn
      exact ⟨l, List.mem_append_left _ hl, hm⟩
    · have h2 : n ≤ W.index := by
        by_contra h2
        exact hn (hcW (.rays n) (not_le.1 h2))
      exact ⟨ids, by simp, g.mem.2 ⟨by omega, h2⟩⟩
  have hs := hV.short
  unfold View.keep
  rw [g.hist, appendMax_short hs]
  dsimp only
  by_cases hfull : V.histories.length + 1 = m
  · rw [if_pos (by rw [List.length_append]; simp [hfull])]
    have hd : V.histories.length + 2 - m = 1 := by omega
    cases hq : V.histories ++ [ids] with
    | nil => simp at hq
    | cons old rest =>
      rw [hq] at hall hdis hlin
      obtain ⟨r1, r2, r3, r4⟩ := removeAll_objects old { W with histories := rest }
      have hlen : rest.length + 1 = V.histories.length + 1 := by
        have := congrArg List.length hq
        simpa using this.symm
      rw [List.pairwise_cons] at hdis
      refine ⟨⟨?_, ?_, ?_, ?_, ?_, ?_⟩, rfl, ?_⟩
      · intro k hk
        rw [r1] at hk
        by_cases hk' : ∃ n ∈ old, k = .rays n
        · obtain ⟨n, hn, rfl⟩ := hk'
          exact r4 n hn
        · push Not at hk'
          rw [r3 k hk']
          exact hcW k hk
      · rw [r2]; dsimp only; omega
      · intro l hl n hn
        rw [r2] at hl
        rw [r1]
        exact (hall l (List.mem_cons_of_mem _ hl) n hn).1
      · rw [r2]; exact hdis.2
      · intro n hn
        rw [r2]
        have hno : n ∉ old := fun h => hn (r4 n h)
        rw [r3 (.rays n) (by rintro j hj e; cases e; exact hno hj)] at hn
        obtain ⟨l, hl, hm⟩ := hlin n hn
        rcases List.mem_cons.1 hl with rfl | hl
        · exact absurd hm hno
        · exact ⟨l, hl, hm⟩
      · intro l hl n hn
        rw [r2] at hl
        have hno : n ∉ old := fun h => hdis.1 l hl n h hn
        rw [r3 (.rays n) (by rintro j hj e; cases e; exact hno hj),
          r3 (.exit n) (by rintro j hj e; cases e)]
        exact (hall l (List.mem_cons_of_mem _ hl) n hn).2
      · rw [hd, r2]; rfl
  · rw [if_neg (by rw [List.length_append]; simp [hfull])]
    have hd : V.histories.length + 2 - m = 0 := by omega
    refine ⟨⟨hcW, ?_, ?_, hdis, hlin, ?_⟩, rfl, ?_⟩
    · dsimp only; rw [List.length_append, List.length_singleton]; omega
    · intro l hl n hn; exact (hall l hl n hn).1
    · intro l hl n hn; exact (hall l hl n hn).2
    · rw [hd]; rfl

theorem addHistory_tidy {m : ℕ} {V : View α} (hV : Tidy m V) (o : Options α)
    (h : List (Ray α × Event)) : Tidy m (V.addHistory (some m) o h).1 := by
  rcases addHistory_cases V (some m) o h with e | ⟨last, _, _, e⟩
  · rw [e]; exact hV
  · rw [e]; exact (keep_tidy hV (addParts_grows o last.1 (shown o h) V)).1

theorem init_tidy {m : ℕ} (hm : 1 ≤ m) : Tidy m ({} : View α) :=
  ⟨fun _ _ => rfl, hm, by simp, by simp, by simp, by simp⟩

/-- **C54**. For every sequence of `add_history` calls: fewer than `max_histories` paths are kept, every
line on display belongs to one of them, every object of a kept path is on display, and paths share
no identifier. -/
theorem bounded {m : ℕ} (hm : 1 ≤ m) (calls : List (Options α × List (Ray α × Event))) :
    let V := View.run (some m) ({} : View α) (calls.map fun c => .history c.1 c.2)
    V.histories.length < m ∧
    (∀ n, V.objects (.rays n) ≠ none → ∃ ids ∈ V.histories, n ∈ ids) ∧
    (∀ ids ∈ V.histories, ∀ n ∈ ids, V.objects (.rays n) ≠ none ∨ V.objects (.exit n) ≠ none) ∧
    V.histories.Pairwise fun a b => ∀ n ∈ a, n ∉ b := by
  have key : ∀ (calls : List (Options α × List (Ray α × Event))) (V : View α), Tidy m V →
      Tidy m (View.run (some m) V (calls.map fun c => .history c.1 c.2)) := by
    intro calls
    induction calls with
    | nil => intro V hV; exact hV
    | cons c calls ih => intro V hV; exact ih _ (addHistory_tidy hV c.1 c.2)
  have t := key calls {} (init_tidy hm)
  exact ⟨t.short, t.lines, t.shown, t.disjoint⟩

/-- **C54**. The paths kept are the latest: a drawn path is appended and the oldest leaves once
`max_histories - 1` are exceeded. -/
theorem latest_kept_partial {m : ℕ} {V : View α} (hV : Tidy m V) {o : Options α}
    {h : List (Ray α × Event)} {last : Ray α × Event} (hw : o.worldSegment ≠ none)
    (hl : (shown o h).getLast? = some last) (h2 : 2 ≤ (shown o h).length) :
    (V.addHistory (some m) o h).2 = none ∧
    ∃ ids, ids ≠ [] ∧ (∀ n ∈ ids, V.index < n) ∧ (V.addHistory (some m) o h).1.histories =
      (V.histories ++ [ids]).drop (V.histories.length + 2 - m) := by
  have e : V.addHistory (some m) o h =
      (V.addParts o last.1 (shown o h)).2.keep (some m) (V.addParts o last.1 (shown o h)).1 := by
    unfold View.addHistory
    rw [if_neg hw, if_neg (by
      rintro ⟨_, rfl⟩
      unfold shown at h2
      split at h2 <;> simp at h2)]
    dsimp only
    rw [if_neg (by omega), hl]
    dsimp only
    rw [if_neg (by omega)]
  have g := addParts_grows o last.1 (shown o h) V
  have k := keep_tidy hV g
  rw [e]
  exact ⟨k.2.1, _, addParts_ne_nil h2, fun n hn => (g.mem.1 hn).1, k.2.2⟩

/-- **C54**. With world segments excluded, a ray that leaves the world without meeting anything is left out: nothing is drawn and nothing
is raised. -/
theorem passing_left_out (V : View α) (m : Option ℕ) {o : Options α} (hw : o.worldSegment ≠ none) (ho : o.exclude)
    {a b : Ray α × Event} (ha : a.2 ≠ .exit) (hb : b.2 = .exit) (rest : List (Ray α × Event)) :
    V.addHistory m o (a :: b :: rest) = (V, none) := by
  have hs : shown o (a :: b :: rest) = [a] := by
    unfold shown
    rw [if_pos ho, List.takeWhile_cons_of_pos (by simpa using ha), List.takeWhile_cons_of_neg (by simp [hb])]
  unfold View.addHistory
  rw [if_neg hw, if_neg (by rintro ⟨_, h⟩; cases h)]
  dsimp only
  rw [hs, if_pos ⟨ho, by simp, by simp⟩]

/-- **C54, violated**. A renderer for no histories raises whenever it draws one, and leaves the lines in the view. -/
theorem no_histories_raises {V : View α} (hV : V.histories = []) {o : Options α} {h : List (Ray α × Event)} {last : Ray α × Event}
    (hw : o.worldSegment ≠ none) (hl : (shown o h).getLast? = some last) (h2 : 2 ≤ (shown o h).length) :
    (V.addHistory (some 0) o h).2 = some .index ∧
      (V.addHistory (some 0) o h).1.objects = (V.addParts o last.1 (shown o h)).2.objects := by
  have e : V.addHistory (some 0) o h =
      (V.addParts o last.1 (shown o h)).2.keep (some 0) (V.addParts o last.1 (shown o h)).1 := by
    unfold View.addHistory
    rw [if_neg hw, if_neg (by
      rintro ⟨_, rfl⟩
      unfold shown at h2
      split at h2 <;> simp at h2)]
    dsimp only
    rw [if_neg (by omega), hl]
    dsimp only
    rw [if_neg (by omega)]
  have g := (addParts_grows o last.1 (shown o h) V).hist
  rw [e]
  unfold View.keep
  simp [g, hV, appendMax]

/-- **C54, violated**. A renderer for one history shows none: the path is taken away by the call that
draws it. -/
theorem one_history_shows_none (calls : List (Options α × List (Ray α × Event))) (n : ℕ) :
    (View.run (some 1) ({} : View α) (calls.map fun c => .history c.1 c.2)).objects (.rays n) =
      none := by
  by_contra h
  obtain ⟨h1, h2, _⟩ := bounded (le_refl 1) calls
  obtain ⟨ids, hi, _⟩ := h2 n h
  have : (View.run (some 1) ({} : View α) (calls.map fun c => .history c.1 c.2)).histories = [] :=
    List.length_eq_zero_iff.1 (by omega)
  rw [this] at hi
  simp at hi

/-- **C54, violated**. Baubles are never removed: only clearing the whole view takes one away. -/
theorem baubles_stay (m : Option ℕ) (ops : List (Op α)) (hops : ∀ op ∈ ops, op ≠ .clear)
    (V : View α) (n : ℕ) (hn : n ≤ V.index) :
    (V.run m ops).objects (.exit n) = V.objects (.exit n) := by
  induction ops generalizing V with
  | nil => rfl
  | cons op ops ih =>
    have hop := hops op (by simp)
    have hm := (call_fresh m V op).1
    have e : (V.call m op).objects (.exit n) = V.objects (.exit n) := by
      cases op with
      | history o h =>
        simp only [View.call]
        rcases addHistory_cases V m o h with e | ⟨last, _, _, e⟩
        · rw [e]
        · rw [e]
          have g := addParts_grows o last.1 (shown o h) V
          rcases (keep_objects (V.addParts o last.1 (shown o h)).2 m
            (V.addParts o last.1 (shown o h)).1).2 (.exit n) with e | ⟨_, j, e⟩
          · rw [e, g.old (.exit n) hn]
          · cases e
      | line a b c => exact (addLine_grows V a b c).old (.exit n) hn
      | rayPath rays => exact (addRayPath_grows rays V).old (.exit n) hn
      | removeObject j => rfl
      | clear => exact absurd rfl hop
    rw [← e]
    exact ih (fun op h => hops op (by simp [h])) (V.call m op) (le_trans hn hm)

/-! ### C66 -/

/-- **C66**. With `world_segment='exclude'` exactly the events from the first EXIT on are left out. -/
theorem shown_exclude_partial {o : Options α} (ho : o.exclude) (h : List (Ray α × Event)) :
    ∃ rest, h = shown o h ++ rest ∧ (∀ p ∈ shown o h, p.2 ≠ .exit) ∧
      ∀ p, rest.head? = some p → p.2 = .exit := by
  have e : shown o h = h.takeWhile fun p => p.2 ≠ .exit := if_pos ho
  refine ⟨h.dropWhile fun p => p.2 ≠ .exit, ?_, ?_, ?_⟩
  · rw [e, List.takeWhile_append_dropWhile]
  · rw [e]
    intro p hp
    simpa using List.all_eq_true.1 (List.all_takeWhile (p := fun p : Ray α × Event => decide (p.2 ≠ .exit))) p hp
  · intro p hp
    have := List.head?_dropWhile_not (fun p : Ray α × Event => decide (p.2 ≠ .exit)) h
    rw [hp] at this
    simpa using this

/-- **C66**. With `world_segment='exclude'` the drawn lines join the recorded positions one after the
other, up to the event before EXIT. -/
theorem excluded_path {V : View α} (hc : Clean V) {o : Options α} (ho : o.exclude)
    {h : List (Ray α × Event)} {last : Ray α} :
    let r := V.addParts o last (shown o h)
    lines r.2 r.1 = List.zipWith (fun a b => .line a.1.position b.1.position
      (PV.Light.wavelengthToHexInt a.1.wavelength)) (shown o h) (shown o h).tail := by
  intro r
  rw [addParts_lines o last (shown o h) V hc, polyline]
  have : (fun a b : Ray α × Event => Obj.line a.1.position (stopOf o last a b)
      (PV.Light.wavelengthToHexInt a.1.wavelength)) = fun a b =>
        Obj.line a.1.position b.1.position (PV.Light.wavelengthToHexInt a.1.wavelength) := by
    funext a b
    rw [stopOf, if_neg (by rintro ⟨h, _⟩; exact h ho)]
  rw [this]

/-- **C66**. By default the last segment has the length asked for; a segment joins the recorded positions
if the ray at its end differs from the last ray of the history. -/
theorem short_path {V : View α} (hc : Clean V) {o : Options α} (ho : ¬ o.exclude)
    {h : List (Ray α × Event)} {last : Ray α × Event} (hl : h.getLast? = some last) (i : ℕ)
    (hi : i + 1 < h.length) :
    let r := V.addParts o last.1 h
    ∃ stop, (lines r.2 r.1)[i]? = some (.line (h[i]).1.position stop
        (PV.Light.wavelengthToHexInt (h[i]).1.wavelength)) ∧
      ((h[i + 1]).1 ≠ last.1 → stop = (h[i + 1]).1.position) ∧
      (i + 2 = h.length → stop = (h[i]).1.position + o.shortLength • (h[i]).1.direction) := by
  intro r
  refine ⟨stopOf o last.1 h[i] h[i + 1], ?_, ?_, ?_⟩
  · rw [addParts_lines o last.1 h V hc, polyline, List.getElem?_zipWith,
      List.getElem?_eq_getElem (show i < h.length by omega), List.getElem?_tail,
      List.getElem?_eq_getElem hi]
  · intro hne
    rw [stopOf, if_neg (fun h => hne h.2)]
  · intro he
    have : h[i + 1] = last := by
      rw [List.getLast?_eq_getElem?] at hl
      have e : h.length - 1 = i + 1 := by omega
      rw [e, List.getElem?_eq_getElem hi] at hl
      exact Option.some.inj hl
    rw [stopOf, if_pos ⟨ho, by rw [this]⟩]

/-- A ray at `x = k` going up. -/
def mark (k : ℚ) : Ray ℚ := ⟨⟨k, 0, 0⟩, ⟨0, 0, 1⟩, 555, 0, 0, none⟩

/-- **C66, violated**. A ray that is absorbed ends with two equal rays (ABSORB, NONRADIATIVE). The
renderer takes the ABSORB point for the end of the path: the segment that reaches it is replaced by
a stub, and another stub goes on from the place where the ray died. -/
theorem absorbed_path_wrong :
    lines (({} : View ℚ).addParts { shortLength := 1 } (mark 5)
      [(mark 0, .generate), (mark 5, .absorb), (mark 5, .nonradiative)]).2
      (({} : View ℚ).addParts { shortLength := 1 } (mark 5)
      [(mark 0, .generate), (mark 5, .absorb), (mark 5, .nonradiative)]).1 =
    [.line ⟨0, 0, 0⟩ ⟨0, 0, 1⟩ 0xA3FF00, .line ⟨5, 0, 0⟩ ⟨5, 0, 1⟩ 0xA3FF00] := by decide +kernel

/-- The hypotheses of `short_path` and `latest_kept_partial` have instances, and two calls leave a bauble of
the first path behind. -/
example : Clean ({} : View ℚ) ∧ Tidy 2 ({} : View ℚ) := ⟨fun _ _ => rfl, init_tidy (by decide)⟩

def crossing : Op ℚ :=
  .history { shortLength := 1 } [(mark 0, .generate), (mark 1, .transmit), (mark 2, .exit)]

example : (View.run (some 2) {} [crossing, crossing]).histories = [[4, 5, 6]] := by decide +kernel
example : (View.run (some 2) {} [crossing, crossing]).objects (.rays 1) = none ∧
    (View.run (some 2) {} [crossing, crossing]).objects (.exit 3) =
      some (.bauble ⟨1, 0, 0⟩ 0xA3FF00) := by decide +kernel

example : ({ worldSegment := some false, shortLength := 1 } : Options ℚ).exclude ∧
    (({} : View ℚ).addHistory (some 2) { worldSegment := some false, shortLength := 1 } [(mark 0, .generate), (mark 2, .exit)]).2 = none ∧
    (({} : View ℚ).addHistory (some 0) { shortLength := 1 } [(mark 0, .generate), (mark 2, .exit)]).2 = some .index := by decide +kernel

end PV.Renderer
