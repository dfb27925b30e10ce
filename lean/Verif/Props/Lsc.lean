import Verif.Model.Lsc
import Verif.Model.Tracer
import Verif.Spec.Grammar
import Verif.Props.Tracer
import Mathlib.Algebra.Order.Field.Rat
import Mathlib.Data.Rat.Floor
import Mathlib.Tactic.FieldSimp
import Mathlib.Tactic.Linarith
import Mathlib.Tactic.NormNum
import Mathlib.Tactic.Positivity

/-!
C53 the counts of an LSC, C71 repeated simulation, C72 facets and solar cells, C73 mirrors.
-/

namespace PV.Lsc
open PV.Spec
open scoped BigOperators

section
variable {α : Type} [Field α] [LinearOrder α]

/-- The last event of a history. -/
def EndsIn (e : Event) (h : History α) : Prop := h.getLast?.map (·.2) = some e

instance (e : Event) (h : History α) : Decidable (EndsIn e h) := inferInstanceAs (Decidable (_ = _))

theorem record_spec {st st' : Store α} {h : History α} (hr : record st h = .ok st') :
    ∃ e, h[1]? = some e ∧ st'.entrance = st.entrance ++ [e] ∧
      st'.exit = st.exit ++
        (if EndsIn .absorb h ∨ EndsIn .kill h then h.getLast?.toList
         else if EndsIn .exit h then h.dropLast.getLast?.toList else []) ∧
      (EndsIn .exit h → h.dropLast.getLast?.isSome) := by
  unfold record at hr
  split at hr
  · rename_i e last he hl
    have ends : ∀ ev, EndsIn ev h ↔ last.2 = ev := fun ev => by simp [EndsIn, hl]
    simp only [ends]
    dsimp only at hr
    split at hr
    · rename_i hc
      cases hr
      refine ⟨e, he, rfl, by simp [hc, hl], fun hx => ?_⟩
      rw [hx] at hc
      simp at hc
    · rename_i hc
      split at hr
      · rename_i hx
        split at hr
        · rename_i p hp
          cases hr
          exact ⟨e, he, rfl, by simp [hx, hp], fun _ => by simp [hp]⟩
        · cases hr
      · rename_i hx
        cases hr
        exact ⟨e, he, rfl, by simp [hc, hx], fun h => absurd h hx⟩
  · cases hr

/-- Rows a history contributes to the rays that leave. -/
def leaving (h : History α) : History α :=
  if EndsIn .absorb h ∨ EndsIn .kill h then h.getLast?.toList
  else if EndsIn .exit h then h.dropLast.getLast?.toList else []

theorem recordAll_spec : ∀ {hs : List (History α)} {st st' : Store α}, recordAll st hs = .ok st' →
    st'.entrance = st.entrance ++ hs.filterMap (·[1]?) ∧ st'.exit = st.exit ++ hs.flatMap leaving ∧
      (∀ h ∈ hs, h[1]?.isSome) ∧ ∀ h ∈ hs, EndsIn .exit h → h.dropLast.getLast?.isSome
  | [], st, st', h => by cases h; simp
  | h :: hs, st, st', hr => by
    rw [recordAll] at hr
    split at hr
    · cases hr
    · rename_i st1 h1
      obtain ⟨e, a1, a2, a3, a4⟩ := record_spec h1
      obtain ⟨b1, b2, b3, b4⟩ := recordAll_spec hr
      refine ⟨?_, ?_, ?_, ?_⟩
      · rw [b1, a2]
        simp [a1]
      · rw [b2, a3]
        simp [leaving]
      · simp only [List.mem_cons, forall_eq_or_imp]
        exact ⟨by simp [a1], b3⟩
      · simp only [List.mem_cons, forall_eq_or_imp]
        exact ⟨a4, b4⟩

/-- A first simulation that succeeds, in terms of the histories. -/
theorem simulate_frame {D D' : Device α} {hs : List (History α)} (h : simulate D hs = (D', none)) :
    D.store = none ∧ D'.size = D.size ∧ D'.lights = D.lights ∧ D'.components = D.components ∧
      D'.cells = D.cells ∧ D'.counts = D.counts ∧
      (∃ st, recordAll {} hs = .ok st ∧ D'.df = some (frame D.size st) ∧ frame D.size st ≠ [] ∧
        D'.store = some st) := by
  unfold simulate at h
  split at h
  · simp at h
  · rename_i hs0
    split at h
    · simp at h
    · rename_i st hst
      simp only [Prod.mk.injEq] at h
      obtain ⟨rfl, h2⟩ := h
      refine ⟨hs0, rfl, rfl, rfl, rfl, rfl, st, hst, rfl, ?_, rfl⟩
      intro he
      simp [he] at h2

/-- The rays of one kind in the table. -/
def rowsOf (k : Kind) (rows : List (Row α)) : List (Row α) := rows.filter fun r => r.kind = k

theorem rowsOf_frame (size : Vec3 α) (st : Store α) :
    (rowsOf .entrance (frame size st)).length = st.entrance.length ∧
      rowsOf .exit (frame size st) =
        st.exit.map (fun e => ⟨e.1, .exit, e.2, label size e.1.position⟩) := by
  constructor
  · simp [rowsOf, frame, List.filter_map, Function.comp_def]
  · simp [rowsOf, frame, List.filter_map, Function.comp_def]

theorem length_filterMap_get {hs : List (History α)} (h : ∀ h ∈ hs, h[1]?.isSome) :
    (hs.filterMap (·[1]?)).length = hs.length := by
  induction hs with
  | nil => rfl
  | cons a hs ih =>
    simp only [List.mem_cons, forall_eq_or_imp] at h
    obtain ⟨e, he⟩ := Option.isSome_iff_exists.1 h.1
    simp [List.filterMap_cons, he, ih h.2]

theorem length_leaving {h : History α} (h1 : h[1]?.isSome)
    (hx : EndsIn .exit h → h.dropLast.getLast?.isSome) :
    (leaving h).length = if EndsIn .absorb h ∨ EndsIn .kill h ∨ EndsIn .exit h then 1 else 0 := by
  unfold leaving
  split
  · rename_i hc
    rw [if_pos (by tauto)]
    cases hl : h.getLast? with
    | none => simp [EndsIn, hl] at hc
    | some l => rfl
  · rename_i hc
    split
    · rename_i he
      rw [if_pos (by tauto)]
      obtain ⟨p, hp⟩ := Option.isSome_iff_exists.1 (hx he)
      simp [hp]
    · rename_i he
      rw [if_neg (by tauto)]
      rfl

/-- **C53, entrance.** Each history has one row among the entering rays; and the rows of leaving rays
are those of the histories that end in EXIT or KILL (or ABSORB), one each. -/
theorem rows_account {D D' : Device α} {hs : List (History α)} {rows : List (Row α)}
    (h : simulate D hs = (D', none)) (hr : D'.df = some rows) :
    (rowsOf .entrance rows).length = hs.length ∧
    (rowsOf .exit rows).length =
      hs.countP fun h => EndsIn .absorb h ∨ EndsIn .kill h ∨ EndsIn .exit h := by
  obtain ⟨-, -, -, -, -, -, st, hst, hdf, -, -⟩ := simulate_frame h
  rw [hdf] at hr
  cases hr
  obtain ⟨a1, a2, a3, a4⟩ := recordAll_spec hst
  obtain ⟨b1, b2⟩ := rowsOf_frame D.size st
  refine ⟨?_, ?_⟩
  · rw [b1, a1]
    simpa using length_filterMap_get a3
  · rw [b2, List.length_map, a2]
    clear hst hdf a1 a2 b1 b2 h
    simp only [List.nil_append]
    induction hs with
    | nil => rfl
    | cons x hs ih =>
      simp only [List.mem_cons, forall_eq_or_imp] at a3 a4
      rw [List.flatMap_cons, List.length_append, ih a3.2 a4.2, length_leaving a3.1 a4.1,
        List.countP_cons]
      simp only [decide_eq_true_eq]
      omega

/-- A history that `follow` returns does not end in ABSORB. -/
theorem not_endsIn_absorb {h : History α} (hg : Grammar True (h.map (·.2))) : ¬ EndsIn .absorb h := by
  intro he
  unfold EndsIn at he
  have hl : (h.map (·.2))[h.length - 1]? = some .absorb := by
    rw [List.getElem?_map, ← List.getLast?_eq_getElem?, he]
  rcases hg.absorbFate _ hl with ⟨e, he', -⟩ | ⟨-, hn⟩
  · have : h.length - 1 + 1 < (h.map (·.2)).length := by
      by_contra hc
      rw [List.getElem?_eq_none (not_lt.1 hc)] at he'
      cases he'
    rw [List.length_map] at this
    omega
  · exact hn trivial

/-- In a returned history with EXIT at the end, nothing before it is an ABSORB. -/
theorem leaving_event {h : History α} (hg : Grammar True (h.map (·.2))) {e : Ray α × Event}
    (he : e ∈ leaving h) : e.2 ≠ .absorb := by
  have hna := not_endsIn_absorb hg
  unfold leaving at he
  split at he
  · rename_i hc
    have hk : EndsIn .kill h := by tauto
    unfold EndsIn at hk
    cases hl : h.getLast? with
    | none => simp [hl] at he
    | some l =>
      simp only [hl, Option.toList_some, List.mem_singleton] at he
      subst he
      rw [hl] at hk
      simp only [Option.map_some, Option.some.injEq] at hk
      rw [hk]
      decide
  · split at he
    · rename_i hx
      intro hab
      have hlen : h.dropLast.getLast? = some e := by
        cases hl : h.dropLast.getLast? with
        | none => simp [hl] at he
        | some l =>
          simp only [hl, Option.toList_some, List.mem_singleton] at he
          rw [he]
      have hpos : 0 < h.dropLast.length := by
        rw [List.length_pos_iff]
        intro hnil
        rw [hnil] at hlen
        cases hlen
      rw [List.length_dropLast] at hpos
      have h2 : (h.map (·.2))[h.length - 2]? = some .absorb := by
        rw [List.getLast?_eq_getElem?, List.length_dropLast, List.getElem?_dropLast,
          if_pos (by omega)] at hlen
        rw [List.getElem?_map, show h.length - 2 = h.length - 1 - 1 by omega, hlen, Option.map_some, hab]
      rcases hg.absorbFate _ h2 with ⟨f, hf, hfate⟩ | ⟨hl, -⟩
      · have hx' : (h.map (·.2))[h.length - 2 + 1]? = some .exit := by
          rw [show h.length - 2 + 1 = h.length - 1 by omega, List.getElem?_map,
            ← List.getLast?_eq_getElem?, hx]
        rw [hx'] at hf
        cases hf
        rcases hfate with h | h | h | h <;> cases h
      · rw [List.length_map] at hl
        omega
    · cases he

/-- **C53 fails**: whatever is simulated, the loss reported by `summary` is zero. -/
theorem loss_always_zero {D D' : Device α} {hs : List (History α)} {s : Summary}
    (hg : ∀ h ∈ hs, Grammar True (h.map (·.2))) (h : simulate D hs = (D', none))
    (hs : summary D' = .ok s) : s.lost = 0 := by
  obtain ⟨-, -, -, -, -, -, st, hst, hdf, -, -⟩ := simulate_frame h
  obtain ⟨-, a2, -, -⟩ := recordAll_spec hst
  unfold summary at hs
  split at hs
  · cases hs
  · split at hs
    · cases hs
    · rename_i lost hl
      cases hs
      dsimp only
      unfold spectrum at hl
      rw [hdf] at hl
      dsimp only at hl
      split at hl
      · cases hl
      · cases hl
        rw [List.length_eq_zero_iff, List.filter_eq_nil_iff]
        intro r hr hw
        simp only [wanted, Bool.and_eq_true, decide_eq_true_eq] at hw
        obtain ⟨⟨⟨hk, -⟩, -⟩, he⟩ := hw
        rw [frame, List.mem_append] at hr
        rcases hr with hr | hr
        · obtain ⟨e, -, rfl⟩ := List.mem_map.1 hr
          cases hk
        · obtain ⟨e, hm, rfl⟩ := List.mem_map.1 hr
          rw [a2] at hm
          simp only [List.nil_append, List.mem_flatMap] at hm
          obtain ⟨x, hx, hm⟩ := hm
          have := leaving_event (hg x hx) hm
          simp at he
          exact this he

/-- The row has one of the names given. -/
def From (names : List String) (r : Row α) : Bool :=
  match r.ray.source with | none => false | some s => names.contains s

theorem number_eq (rows : List (Row α)) (f : Facet) (k : Kind) (names : List String) :
    number rows f k names = rows.countP fun r => decide (r.kind = k) && From names r && decide (r.facet = some f) := by
  rw [number, ← List.countP_eq_length_filter]
  refine congrArg (fun p => List.countP p rows) (funext fun r => ?_)
  simp only [wanted, From, List.isEmpty_cons, Bool.false_or, Bool.and_true]
  congr 1
  cases hf : r.facet with
  | none => simp
  | some g => simp [eq_comm]

/-- Rows with a facet, counted facet by facet. -/
theorem sum_facets (rows : List (Row α)) (p : Row α → Bool) :
    ∑ f, rows.countP (fun r => p r && decide (r.facet = some f)) =
      rows.countP fun r => p r && r.facet.isSome := by
  induction rows with
  | nil => simp
  | cons r rows ih =>
    simp only [List.countP_cons, Finset.sum_add_distrib, ih]
    congr 1
    cases hp : p r with
    | false => simp
    | true =>
      cases hf : r.facet with
      | none => simp
      | some g => simp [Finset.sum_ite_eq]

theorem countP_disjoint (rows : List (Row α)) (p q a b : Row α → Bool)
    (h : ∀ r, a r = true → b r = true → False) (hq : ∀ r, q r = (p r && (a r || b r))) :
    (rows.countP fun r => p r && a r) + (rows.countP fun r => p r && b r) = rows.countP q := by
  induction rows with
  | nil => rfl
  | cons r rows ih =>
    simp only [List.countP_cons, ← ih, hq]
    have := h r
    cases p r <;> cases ha : a r <;> cases hb : b r <;> simp_all <;> omega

/-- **C53, what is counted**: if no component has the name of a light, the Solar Out and Luminescent
Out columns together count each leaving row that lies on a facet and comes from a light or a
component of the device exactly once. -/
theorem out_columns (D : Device α) (rows : List (Row α))
    (hd : ∀ n, n ∈ D.lights → n ∈ D.components → False) :
    ∑ f, ((table D rows f).solarOut + (table D rows f).lumOut) =
      (rowsOf .exit rows).countP fun r => From (D.components ++ D.lights) r && r.facet.isSome := by
  simp only [table, number_eq, Finset.sum_add_distrib]
  rw [sum_facets rows (fun r => decide (r.kind = .exit) && From D.lights r),
    sum_facets rows (fun r => decide (r.kind = .exit) && From D.components r), rowsOf, List.countP_filter]
  have key := countP_disjoint rows (fun r => decide (r.kind = .exit) && r.facet.isSome)
    (fun r => From (D.components ++ D.lights) r && r.facet.isSome && decide (r.kind = .exit))
    (fun r => From D.lights r) (fun r => From D.components r) ?_ ?_
  · rw [← key]
    congr 1 <;>
    · refine congrArg (fun p => List.countP p rows) (funext fun r => ?_)
      cases decide (r.kind = .exit) <;> cases r.facet.isSome <;> simp
  · intro r h1 h2
    simp only [From] at h1 h2
    split at h1
    · cases h1
    · rename_i s hs
      simp only [hs, List.contains_iff_mem] at h1 h2
      exact hd s h1 h2
  · intro r
    simp only [From]
    cases r.ray.source with
    | none => simp
    | some n =>
      simp only [List.contains_eq_mem]
      by_cases h1 : n ∈ D.lights <;> by_cases h2 : n ∈ D.components <;>
        simp [h1, h2, Bool.and_comm]

/-- **C53 under conditions**: if every ray ends by leaving the world or being killed, and each row of a
leaving ray is on a facet and has a known source, the counts add up to the number of rays. -/
theorem counts_add_up_partial {D D' : Device α} {hs : List (History α)} {rows : List (Row α)}
    (hd : ∀ n, n ∈ D.lights → n ∈ D.components → False)
    (h : simulate D hs = (D', none)) (hr : D'.df = some rows)
    (hend : ∀ h ∈ hs, EndsIn .kill h ∨ EndsIn .exit h)
    (hrow : ∀ r ∈ rowsOf .exit rows, r.facet.isSome ∧ From (D.components ++ D.lights) r = true) :
    ∑ f, ((table D rows f).solarOut + (table D rows f).lumOut) = hs.length := by
  rw [out_columns D rows hd, List.countP_eq_length.2 ?_, (rows_account h hr).2, List.countP_eq_length]
  · intro x hx
    have := hend x hx
    simp only [decide_eq_true_eq]
    tauto
  · intro r hm
    rw [(hrow r hm).1, (hrow r hm).2]
    rfl

/-- **C53**. The summary splits the luminescent counts into those at facets with a cell and those at
the other facets. -/
theorem summary_splits {D : Device α} {c : Facet → Count} {s : Summary}
    (hc : (counts D).2 = .ok c) (h : summary D = .ok s) :
    s.collected = ∑ f ∈ D.cells, (c f).lumOut ∧ s.collected + s.escaped = ∑ f, (c f).lumOut ∧
      s.incident = ∑ f, (c f).solarIn := by
  unfold summary at h
  rw [hc] at h
  dsimp only at h
  split at h
  · cases h
  · cases h
    exact ⟨rfl, Finset.sum_add_sum_compl D.cells _, rfl⟩

/-- **C53 fails in general**: everything that is reported, the losses included, falls short of the rays
thrown by at least the number of rays that ended in a non-radiative absorption or a reaction. -/
theorem shortfall {D D' : Device α} {hs : List (History α)} {rows : List (Row α)} {s : Summary}
    (hd : ∀ n, n ∈ D.lights → n ∈ D.components → False)
    (hg : ∀ h ∈ hs, Grammar True (h.map (·.2))) (h : simulate D hs = (D', none))
    (hr : D'.df = some rows) (hsum : summary D' = .ok s) :
    ∑ f, ((table D rows f).solarOut + (table D rows f).lumOut) + s.lost +
      hs.countP (fun h => EndsIn .nonradiative h ∨ EndsIn .react h) ≤ hs.length := by
  rw [loss_always_zero hg h hsum, out_columns D rows hd]
  have h1 := List.countP_le_length (p := fun r : Row α => From (D.components ++ D.lights) r && r.facet.isSome)
    (l := rowsOf .exit rows)
  rw [(rows_account h hr).2] at h1
  have h2 : ∀ l : List (History α), l.countP (fun h => EndsIn .absorb h ∨ EndsIn .kill h ∨ EndsIn .exit h) +
      l.countP (fun h => EndsIn .nonradiative h ∨ EndsIn .react h) ≤ l.length := by
    intro l
    induction l with
    | nil => rfl
    | cons x l ih =>
      simp only [List.countP_cons, List.length_cons, decide_eq_true_eq]
      have : ¬ ((EndsIn .absorb x ∨ EndsIn .kill x ∨ EndsIn .exit x) ∧
          (EndsIn .nonradiative x ∨ EndsIn .react x)) := by
        simp only [EndsIn]
        rintro ⟨h1 | h1 | h1, h2 | h2⟩ <;> · rw [h1] at h2; cases h2
      split <;> split <;> first | omega | (exfalso; tauto)
  have := h2 hs
  omega

/-! ### C71 -/

/-- **C71 fails**: after a simulation that stored its rays every further one raises
`UnboundLocalError`, and changes nothing. -/
theorem second_simulation_fails {D D' : Device α} {hs : List (History α)}
    (h : simulate D hs = (D', none)) (hs' : List (History α)) :
    simulate D' hs' = (D', some .unboundLocal) := by
  obtain ⟨-, -, -, -, -, -, st, -, -, -, hst⟩ := simulate_frame h
  simp [simulate, hst]

/-- Calls of the interface. -/
inductive Call (α : Type)
  | simulate (hs : List (History α))
  | counts

/-- The device after a call. -/
def call (D : Device α) : Call α → Device α
  | .simulate hs => (simulate D hs).1
  | .counts => (counts D).1

/-- The cached table is that of the present rows, and rows are only there once they are stored. -/
def Current (D : Device α) : Prop :=
  (D.df.isSome → D.store.isSome) ∧ ∀ c, D.counts = some c → ∃ rows, D.df = some rows ∧ c = table D rows

theorem call_current {D : Device α} (h : Current D) (c : Call α) : Current (call D c) := by
  cases c with
  | simulate hs =>
    simp only [call]
    unfold simulate
    split
    · exact h
    · rename_i hn
      split
      · exact h
      · refine ⟨fun _ => rfl, fun c hc => ?_⟩
        obtain ⟨rows, hr, -⟩ := h.2 c hc
        have := h.1 (by rw [hr]; rfl)
        rw [hn] at this
        cases this
  | counts =>
    simp only [call]
    unfold counts
    split
    · exact h
    · rename_i rows hr
      split
      · exact h
      · split
        · exact h
        · refine ⟨fun _ => h.1 (by rw [hr]; rfl), fun c hc => ?_⟩
          cases hc
          exact ⟨rows, hr, rfl⟩

/-- **C53, cache**: after any calls, `counts` returns the table of the rows of the simulation. -/
theorem counts_current_partial {D : Device α} (h0 : D.store = none) (h1 : D.df = none) (h2 : D.counts = none)
    (cs : List (Call α)) {rows : List (Row α)} {c : Facet → Count}
    (hr : (cs.foldl call D).df = some rows) (hc : (counts (cs.foldl call D)).2 = .ok c) :
    c = table (cs.foldl call D) rows := by
  have hcur : Current (cs.foldl call D) := by
    have : Current D := ⟨fun h => (by rw [h1] at h; cases h), fun c hc => (by rw [h2] at hc; cases hc)⟩
    clear hr hc h0 h1 h2
    induction cs generalizing D with
    | nil => exact this
    | cons a cs ih => exact ih (call_current this a)
  unfold counts at hc
  rw [hr] at hc
  dsimp only at hc
  split at hc
  · rename_i c' hc'
    cases hc
    obtain ⟨rows', h1, h2⟩ := hcur.2 c hc'
    rw [hr] at h1
    cases h1
    exact h2
  · split at hc
    · cases hc
    · cases hc
      rfl

end

/-! ### A device with two rays: one leaves through the face with outward normal (0, -1, 0), one is lost -/

def at' (x y z : ℚ) (source : String) : Ray ℚ := ⟨⟨x, y, z⟩, ⟨0, -1, 0⟩, 555, 0, 0, some source⟩

def exits : History ℚ :=
  [(at' 0 0 2 "lamp", .generate), (at' 0 0 (1/2) "lamp", .transmit), (at' 0 0 0 "lamp", .absorb),
    (at' 0 0 0 "dye", .emit), (at' 0 (-1) 0 "dye", .transmit), (at' 0 (-50) 0 "dye", .exit)]

def dies : History ℚ :=
  [(at' 0 0 2 "lamp", .generate), (at' 0 0 (1/2) "lamp", .transmit), (at' 0 0 0 "lamp", .absorb),
    (at' 0 0 0 "lamp", .nonradiative)]

def slab : Device ℚ := { size := ⟨2, 2, 1⟩, lights := ["lamp"], components := ["dye"], cells := {.near} }

theorem exits_grammar : Grammar True (exits.map (·.2)) where
  start := rfl
  once := by
    intro i h
    match i with
    | 0 => rfl
    | 1 | 2 | 3 | 4 | 5 => cases h
    | n + 6 => cases h
  terminalLast := by
    intro i e h ht
    match i with
    | 0 | 1 | 2 | 3 | 4 => cases h; rcases ht with h | h | h | h <;> cases h
    | 5 => rfl
    | n + 6 => cases h
  absorbFate := by
    intro i h
    match i with
    | 2 => exact .inl ⟨.emit, rfl, .inl rfl⟩
    | 0 | 1 | 3 | 4 | 5 => cases h
    | n + 6 => cases h
  fateAbsorb := by
    intro i e h hf
    match i with
    | 3 => exact ⟨2, rfl, rfl⟩
    | 0 | 1 | 2 | 4 | 5 => cases h; rcases hf with h | h | h | h <;> cases h
    | n + 6 => cases h

example : (simulate slab [exits, dies]).2 = none := by decide +kernel
example : ((simulate slab [exits]).1.df.map fun rows => (rowsOf .exit rows).map fun r =>
    (r.facet.isSome, From ["dye", "lamp"] r)) = some [(true, true)] := by decide +kernel

/-- **C53 and C72 violated**: of two rays, one was collected by the cell `near` and one lost. The
summary says: nothing collected, one escaped, nothing lost. -/
theorem summary_wrong : summary (simulate slab [exits, dies]).1 = .ok ⟨0, 1, 2, 0⟩ := by decide +kernel

/-! ### C72 -/

section
variable {α : Type} [Field α] [LinearOrder α] [IsStrictOrderedRing α]

/-- Outward normal of the facet at which `add_solar_cell` puts a cell of that name. -/
def outward : Facet → Vec3 α
  | .left => ⟨-1, 0, 0⟩
  | .right => ⟨1, 0, 0⟩
  | .near => ⟨0, -1, 0⟩
  | .far => ⟨0, 1, 0⟩
  | .bottom => ⟨0, 0, -1⟩
  | .top => ⟨0, 0, 1⟩

/-- `x` is clear of the plane at `c` by more than rounding. -/
def Clear (x c : α) : Prop := 1e-12 + 1e-4 * |c| < |x - c|

/-- `p` is on the face of the box with outward normal `n`, and clear of the five other planes. -/
def OnFace (size n p : Vec3 α) : Prop :=
  (if n.x = 0 then Clear p.x (-(size.x / 2)) ∧ Clear p.x (size.x / 2)
    else p.x = n.x * (size.x / 2) ∧ Clear p.x (-(n.x * (size.x / 2)))) ∧
  (if n.y = 0 then Clear p.y (-(size.y / 2)) ∧ Clear p.y (size.y / 2)
    else p.y = n.y * (size.y / 2) ∧ Clear p.y (-(n.y * (size.y / 2)))) ∧
  (if n.z = 0 then Clear p.z (-(size.z / 2)) ∧ Clear p.z (size.z / 2)
    else p.z = n.z * (size.z / 2) ∧ Clear p.z (-(n.z * (size.z / 2))))

theorem close_self (c : α) : close c c = true := by
  have : (0 : α) ≤ epsZero + 1e-5 * |c| := by
    have h := abs_nonneg c
    unfold epsZero
    positivity
  simpa [close] using this

theorem close_clear {x c : α} (h : Clear x c) : close x c = false := by
  have h0 := abs_nonneg c
  unfold Clear at h
  simp only [close, decide_eq_false_iff_not, not_le]
  refine lt_of_le_of_lt ?_ h
  unfold epsZero
  have h1 : (2.220446049250313e-13 : α) ≤ 1e-12 := by norm_num
  have h2 : (1e-5 : α) * |c| ≤ 1e-4 * |c| := mul_le_mul_of_nonneg_right (by norm_num) h0
  linarith

theorem half (c : α) : (0.5 : α) * c = c / 2 ∧ (-0.5 : α) * c = -(c / 2) := by
  constructor <;> ring

/-- **C72 for four facets**: a point on the left, right, top or bottom face gets that label. -/
theorem labelled {size p : Vec3 α} {f : Facet} (hf : f ≠ .near ∧ f ≠ .far) (h : OnFace size (outward f) p) :
    label size p = some f := by
  unfold OnFace at h
  cases f <;>
    simp only [outward, if_true, one_ne_zero, neg_eq_zero, if_false, one_mul, neg_mul, neg_neg] at h <;>
    obtain ⟨⟨h1, h2⟩, ⟨h3, h4⟩, ⟨h5, h6⟩⟩ := h <;>
    first
      | exact absurd rfl hf.1
      | exact absurd rfl hf.2
      | (simp only [label, half]
         first
           | rw [h1] at h2 ⊢; simp [close_self, close_clear, *]
           | rw [h5] at h6 ⊢; simp [close_self, close_clear, *])

/-- **C72 fails for the two other facets**: the face that carries the cell `near` is labelled `far`,
and the other way round. -/
theorem near_far_swapped {size p : Vec3 α} :
    (OnFace size (outward .near) p → label size p = some .far) ∧
      (OnFace size (outward .far) p → label size p = some .near) := by
  unfold OnFace
  constructor <;> intro h <;>
    simp only [outward, if_true, one_ne_zero, neg_eq_zero, if_false, one_mul, neg_mul, neg_neg] at h <;>
    obtain ⟨⟨h1, h2⟩, ⟨h3, h4⟩, ⟨h5, h6⟩⟩ := h <;>
    · simp only [label, half]
      rw [h3] at h4 ⊢
      simp [close_self, close_clear, *]

end

/-- **C72**: the surface treats exactly the facets with a cell as cells: light passes straight on
and no random number decides; everywhere else but at a back mirror it is a Fresnel surface. -/
theorem cells_collect_partial (cells : Finset Facet) (hc : .top ∉ cells ∧ .bottom ∉ cells) (mirror : Bool)
    (f : Facet) (d : Vec3 ℝ) (n1 n2 u : ℝ) :
    (f ∈ cells → reflectivity cells mirror (outward f) d n1 n2 = some 0 ∧
      isReflected (reflectivity cells mirror (outward f) d n1 n2) u = (false, false) ∧
      transmitted cells (outward f) d n1 n2 = some d) ∧
    (f ∉ cells → ¬ (f = .bottom ∧ mirror = true) →
      reflectivity cells mirror (outward f) d n1 n2 = pyReflectivity (outward f) d n1 n2 ∧
      transmitted cells (outward f) d n1 n2 = pyTransmit (outward f) d n1 n2) := by
  have key : cellAt cells (outward f) = if f ∈ cells then some f else none := by
    unfold cellAt allclose
    cases f <;> norm_num [outward, hc.1, hc.2]
  have hm : allclose (⟨0, 0, -1⟩ : Vec3 ℝ) (outward f) ↔ f = .bottom := by
    unfold allclose
    cases f <;> norm_num [outward] <;> decide
  constructor
  · intro h
    have hb : f ≠ .bottom := fun e => hc.2 (e ▸ h)
    have hr : reflectivity cells mirror (outward f) d n1 n2 = some 0 := by
      rw [reflectivity, if_neg (fun h => hb (hm.1 h.1)), key, if_pos h]; rfl
    refine ⟨hr, ?_, ?_⟩
    · rw [hr]
      simp [isReflected]
    · rw [transmitted, key, if_pos h]; rfl
  · intro h hb
    constructor
    · rw [reflectivity, if_neg (fun h => hb ⟨hm.1 h.1, h.2⟩), key, if_neg h]
      simp
    · rw [transmitted, key, if_neg h]
      simp

/-! ### C73 -/

/-- **C73**: at a back-surface mirror every ray is reflected (for `u < 1`). -/
theorem back_mirror_reflects_partial (cells : Finset Facet) (d : Vec3 ℝ) (n1 n2 u : ℝ) (hu : u < 1) :
    (isReflected (reflectivity cells true (outward .bottom) d n1 n2) u).1 = true := by
  have hm : allclose (⟨0, 0, -1⟩ : Vec3 ℝ) (outward .bottom) := by
    unfold allclose
    norm_num [outward]
  rw [reflectivity, if_pos ⟨hm, rfl⟩]
  simp [isReflected, hu]

/-- **C73 fails**: the specular air-gap mirror, made of the same index as its surroundings, sends every
ray straight on, whatever the angle. -/
theorem air_gap_mirror_transparent (sample normal d : Vec3 ℝ) {n : ℝ} (hn : n ≠ 0) :
    airGapReflected false sample normal d n n = .ok (some d) := by
  have hdot : 0 ≤ d.dot (along normal d) := by
    unfold along
    split
    · rename_i h
      have : d.dot (-normal) = -(normal.dot d) := by
        simp only [Vec3.dot, Vec3.neg_x, Vec3.neg_y, Vec3.neg_z]
        ring
      rw [this]
      linarith
    · rename_i h
      have : d.dot normal = normal.dot d := by
        simp only [Vec3.dot]
        ring
      rw [this]
      linarith
  have hq : 1 - (n / n) ^ 2 * (1 - d.dot (along normal d) ^ 2) = d.dot (along normal d) ^ 2 := by
    rw [div_self hn]
    ring
  simp only [airGapReflected, Bool.false_eq_true, not_false_eq_true, if_true, pyTransmit, refract, hq]
  rw [if_neg (not_lt.2 (sq_nonneg _)), Real.sqrt_sq hdot, if_neg (not_lt.2 hdot), div_self hn]
  congr 2
  ext <;> simp

example : OnFace (⟨2, 2, 1⟩ : Vec3 ℚ) (outward .near) ⟨0, -1, 0⟩ := by
  unfold OnFace Clear outward
  norm_num [abs_of_pos, abs_of_neg]
example : OnFace (⟨2, 2, 1⟩ : Vec3 ℚ) (outward .left) ⟨-1, 0, 0⟩ := by
  unfold OnFace Clear outward
  norm_num [abs_of_pos, abs_of_neg]

end PV.Lsc
