import Verif.Spec.SceneFile
import Mathlib.Algebra.Order.Floor.Ring

/-!
The parser returns what the file describes, function by function.
-/

namespace PV.SceneFile
open PV PV.Doc PV.Spec
variable {α : Type} [Field α] [LinearOrder α] [FloorRing α]
set_option linter.unusedSectionVars false

theorem number_iff {v : Yaml α} {q : α} : v.number = .ok q ↔ value? v = some q := by
  cases v <;> simp [Yaml.number, value?]

theorem dict_iff {v : Yaml α} {d : List (String × Yaml α)} : v.dict = .ok d ↔ v = .map d := by
  cases v <;> simp [Yaml.dict]

theorem list_iff {v : Yaml α} {l : List (Yaml α)} : v.list = .ok l ↔ v = .seq l := by
  cases v <;> simp [Yaml.list]

theorem string_iff {v : Yaml α} {s : String} : v.string = .ok s ↔ v = .str s := by
  cases v <;> simp [Yaml.string]

theorem dget_iff {β : Type} {d : List (String × β)} {k : String} {v : β} :
    dget d k = .ok v ↔ d.lookup k = some v := by
  unfold dget
  cases d.lookup k <;> simp

theorem under_map (d : List (String × Yaml α)) (k : String) : under [k] (.map d) = d.lookup k := by
  unfold under
  cases h : d.lookup k <;> simp [under]

theorem under_cons (k : String) (ks : List String) (v : Yaml α) :
    under (k :: ks) v = (under [k] v).bind (under ks) := by
  cases v with
  | map d => rw [under_map]; rfl
  | _ => rfl

theorem under_cons_some {k : String} {ks : List String} {v w : Yaml α} (h : under [k] v = some w) :
    under (k :: ks) v = under ks w := by rw [under_cons, h]; rfl

theorem item_iff {k : String} {v w : Yaml α} : item k v = .ok w ↔ under [k] v = some w := by
  unfold item
  cases v with
  | map d =>
    rw [under_map]
    simp only [Yaml.dict]
    exact dget_iff
  | _ => simp [Yaml.dict, under]

theorem floats_iff {l : List (Yaml α)} {qs : List α} : floats l = .ok qs ↔ l.mapM value? = some qs := by
  induction l generalizing qs with
  | nil => simp [floats, eq_comm]
  | cons v l ih =>
    unfold floats
    rw [List.mapM_cons]
    cases hv : v.number with
    | error e =>
      have : value? v = none := by
        cases hq : value? v with
        | none => rfl
        | some q => rw [number_iff.2 hq] at hv; cases hv
      simp [this]
    | ok q =>
      rw [number_iff.1 hv]
      dsimp only
      cases hl : floats l with
      | error e =>
        have : l.mapM value? = none := by
          cases hq : l.mapM (value? (α := α)) with
          | none => rfl
          | some qs => rw [ih.2 hq] at hl; cases hl
        simp [this]
      | ok qs' => simp [ih.1 hl]

theorem args_iff {v : Yaml α} {qs : List α} : args v = .ok qs ↔ values? v = some qs := by
  unfold args
  cases v with
  | seq l => simp only [Yaml.list, values?]; exact floats_iff
  | _ => simp [Yaml.list, values?]

theorem asFloat_iff {F : Files α} {v : Yaml α} {q : α} : asFloat F v = .ok q ↔ float? F v = some q := by
  cases v with
  | str s => simp only [asFloat, float?]; cases F.float s <;> simp
  | _ => simp [asFloat, float?, value?]

theorem isIn_names {k : String} {v : Yaml α} (h : isIn k v = .ok true) : Names k v := by
  cases v with
  | map d =>
    left
    rw [under_map]
    simpa [isIn, has] using h
  | seq l =>
    right
    refine ⟨l, rfl, ?_⟩
    simp only [isIn, Except.ok.injEq, List.any_eq_true] at h
    obtain ⟨w, hw, h⟩ := h
    cases w <;> simp at h
    subst h; exact hw
  | _ => simp [isIn] at h

theorem triple_iff {v : Yaml α} {u : Vec3 α} : triple v = .ok u ↔ values? v = some [u.x, u.y, u.z] := by
  unfold triple
  cases h : args v with
  | error e =>
    have : values? v ≠ some [u.x, u.y, u.z] := fun hv => by rw [args_iff.2 hv] at h; cases h
    simp [this]
  | ok l =>
    rw [args_iff.1 h]
    constructor
    · intro h
      split at h
      · cases h
      · cases h; rename_i heq; cases heq; rfl
      · cases h
    · intro h
      cases h; rfl

theorem values_falsy {v : Yaml α} (h : truth v = false) : values? v = none ∨ values? v = some [] := by
  cases v with
  | seq l =>
    simp only [truth] at h
    have : l = [] := by simpa using h
    subst this
    right; rfl
  | _ => left; rfl

theorem optTriple_eq {d : List (String × Yaml α)} {key : String} {o : Option (Vec3 α)}
    (h : optTriple d key = .ok o) : o = vector? (.map d) key := by
  unfold optTriple at h
  unfold vector?
  rw [under_map]
  cases hl : d.lookup key with
  | none => rw [hl] at h; cases h; rfl
  | some v =>
    rw [hl] at h
    dsimp only at h
    cases ht : truth v with
    | false =>
      rw [if_neg (by simp [ht])] at h
      cases h
      rcases values_falsy ht with hv | hv <;> simp [hv]
    | true =>
      rw [if_pos ht] at h
      cases hv : triple v with
      | error e => rw [hv] at h; cases h
      | ok u =>
        rw [hv] at h
        cases h
        simp [triple_iff.1 hv]

/-! ### Spectra -/

theorem arange_eq [IsStrictOrderedRing α] {lo hi step : α} {x : List α} (h : arange lo (hi + step) step = .ok x) :
    step ≠ 0 ∧ (0 < step → Wavelengths lo hi step x) := by
  unfold arange at h
  by_cases h0 : step = 0
  · rw [if_pos h0] at h; cases h
  rw [if_neg h0] at h
  cases h
  refine ⟨h0, fun hp i => ?_⟩
  rw [List.getElem?_map]
  by_cases hi' : lo + (i : α) * step < hi + step
  · rw [if_pos hi']
    have : i < (⌈(hi + step - lo) / step⌉).toNat := by
      rw [Int.lt_toNat, Int.lt_ceil, lt_div_iff₀ hp]
      push_cast
      linarith
    rw [List.getElem?_range this]
    rfl
  · rw [if_neg hi']
    have : ¬ i < (⌈(hi + step - lo) / step⌉).toNat := by
      rw [Int.lt_toNat, Int.lt_ceil, lt_div_iff₀ hp]
      push_cast
      intro h
      exact hi' (by linarith)
    rw [List.getElem?_eq_none (by simpa using this)]
    rfl

theorem distOf_ok {l : List (α × α)} {hist : Bool} {D : Dist α} (h : distOf l hist = .ok D) :
    D = .table (tableOf l) hist ∧ 2 ≤ l.length := by
  unfold distOf at h
  cases hm : mkDist (tableOf l) hist with
  | error e => rw [hm] at h; cases h
  | ok D' =>
    rw [hm] at h
    cases h
    unfold mkDist at hm
    split_ifs at hm with h1 h2 h3 h4 h5
    cases hm
    refine ⟨rfl, ?_⟩
    have e1 : (tableOf l).n = l.length := rfl
    rw [e1] at h2 h4
    omega

theorem namedSpectrum_is [IsStrictOrderedRing α] {F : Files α} {em : Bool} {d : List (String × Yaml α)} {t : Columns α}
    (h : namedSpectrum F em d = .ok t) : SpectrumIs F em (.map d) t := by
  unfold namedSpectrum at h
  cases h1 : dget d "range" with
  | error e => rw [h1] at h; cases h
  | ok r =>
    rw [h1] at h; dsimp only at h
    cases h2 : item "min" r with
    | error e => rw [h2] at h; cases h
    | ok lo =>
      rw [h2] at h; dsimp only at h
      cases h3 : item "max" r with
      | error e => rw [h3] at h; cases h
      | ok hi =>
        rw [h3] at h; dsimp only at h
        cases h4 : item "spacing" r with
        | error e => rw [h4] at h; cases h
        | ok sp =>
          rw [h4] at h; dsimp only at h
          cases h5 : lo.number with
          | error e => rw [h5] at h; cases h
          | ok lo' =>
            cases h6 : hi.number with
            | error e => rw [h5, h6] at h; cases h
            | ok hi' =>
              cases h7 : sp.number with
              | error e => rw [h5, h6, h7] at h; cases h
              | ok sp' =>
                rw [h5, h6, h7] at h; dsimp only at h
                cases h8 : arange lo' (hi' + sp') sp' with
                | error e => rw [h8] at h; cases h
                | ok x =>
                  rw [h8] at h; dsimp only at h
                  cases h9 : dget d "name" with
                  | error e => rw [h9] at h; cases h
                  | ok n =>
                    rw [h9] at h; dsimp only at h
                    cases h10 : n.string with
                    | error e => rw [h10] at h; cases h
                    | ok name =>
                      rw [h10] at h; dsimp only at h
                      cases h11 : (if em = true then F.emission name else F.absorption name) with
                      | none => rw [h11] at h; cases h
                      | some f =>
                        rw [h11] at h
                        cases h
                        have hr : under ["range"] (.map d) = some r := by rw [under_map]; exact dget_iff.1 h1
                        obtain ⟨a1, a2⟩ := arange_eq h8
                        refine .named (n := name) (lo := lo') (hi := hi') (step := sp') ?_ h11 ?_ ?_ ?_ a1 a2
                        · rw [under_map, dget_iff.1 h9, string_iff.1 h10]
                        · rw [under_cons_some hr, item_iff.1 h2]; exact number_iff.1 h5
                        · rw [under_cons_some hr, item_iff.1 h3]; exact number_iff.1 h6
                        · rw [under_cons_some hr, item_iff.1 h4]; exact number_iff.1 h7

theorem parseSpectrum_is [IsStrictOrderedRing α] {F : Files α} {em : Bool} {v : Yaml α} {t : Columns α}
    (h : parseSpectrum F em v = .ok (some t)) : SpectrumIs F em v t := by
  unfold parseSpectrum at h
  cases v with
  | map d =>
    simp only [Yaml.dict] at h
    cases h1 : d.lookup "file" with
    | some f =>
      rw [h1] at h; dsimp only at h
      cases h2 : f.string with
      | error e => rw [h2] at h; cases h
      | ok f' =>
        rw [h2] at h; dsimp only at h
        cases h3 : F.csv f' with
        | error e => rw [h3] at h; cases h
        | ok t' =>
          rw [h3] at h; cases h
          exact .file (by rw [under_map, h1, string_iff.1 h2]) h3
    | none =>
      rw [h1] at h; dsimp only at h
      by_cases hn : has d "name" = true
      · rw [if_pos hn] at h
        cases h3 : namedSpectrum F em d with
        | error e => rw [h3] at h; cases h
        | ok t' => rw [h3] at h; cases h; exact namedSpectrum_is h3
      · rw [if_neg hn] at h; cases h
  | _ => simp [Yaml.dict] at h

theorem maxY_peak {l : List (α × α)} {m : α} (h : maxY l = some m) : Peak l m := by
  cases l with
  | nil => cases h
  | cons p ps =>
    simp only [maxY, Option.some.injEq] at h
    have key : ∀ (ps : List (α × α)) (a : α),
        ((ps.foldl (fun m q => max m q.2) a = a) ∨ ∃ r ∈ ps, r.2 = ps.foldl (fun m q => max m q.2) a) ∧
        a ≤ ps.foldl (fun m q => max m q.2) a ∧ ∀ r ∈ ps, r.2 ≤ ps.foldl (fun m q => max m q.2) a := by
      intro ps
      induction ps with
      | nil => intro a; exact ⟨Or.inl rfl, le_rfl, by simp⟩
      | cons q ps ih =>
        intro a
        obtain ⟨h1, h2, h3⟩ := ih (max a q.2)
        simp only [List.foldl_cons]
        refine ⟨?_, le_trans (le_max_left _ _) h2, ?_⟩
        · rcases h1 with h1 | ⟨r, hr, h1⟩
          · rcases max_choice a q.2 with e | e
            · left; rw [h1, e]
            · right; exact ⟨q, by simp, by rw [h1, e]⟩
          · right; exact ⟨r, by simp [hr], h1⟩
        · intro r hr
          rcases List.mem_cons.1 hr with rfl | hr
          · exact le_trans (le_max_right _ _) h2
          · exact h3 r hr
    obtain ⟨h1, h2, h3⟩ := key ps p.2
    rw [h] at h1 h2 h3
    constructor
    · rcases h1 with h1 | ⟨r, hr, h1⟩
      · exact ⟨p, by simp, h1.symm⟩
      · exact ⟨r, by simp [hr], h1⟩
    · intro r hr
      rcases List.mem_cons.1 hr with rfl | hr
      · exact h2
      · exact h3 r hr

theorem under_of_tableOf (l : List (α × α)) : tableOf l = tableWith l id := rfl

/-! ### Components -/

theorem scaleTo_ok {q : α} {t : Columns α} {l : List (α × α)} (h : scaleTo q t = .ok l) :
    ∃ m, Peak t.rows m ∧ m ≠ 0 ∧ l = t.rows.map fun p =>
      (p.1, if t.ints then ((truncZ (p.2 / m * q) : ℤ) : α) else p.2 / m * q) := by
  unfold scaleTo at h
  cases hm : maxY t.rows with
  | none => rw [hm] at h; cases h
  | some m =>
    rw [hm] at h
    dsimp only at h
    by_cases h0 : m = 0
    · rw [if_pos h0] at h; cases h
    · rw [if_neg h0] at h
      cases h
      exact ⟨m, maxY_peak hm, h0, rfl⟩

/-- Tables that agree on their rows. Entries beyond the end are not part of a table. -/
theorem tableOf_map (rows : List (α × α)) (f : α → α) (h0 : f 0 = 0) :
    tableOf (rows.map fun p => (p.1, f p.2)) = tableWith rows f := by
  unfold tableOf tableWith
  congr 1
  · simp
  · funext i
    by_cases hi : i < rows.length
    · simp [List.getD, List.getElem?_map, List.getElem?_eq_getElem hi]
    · simp [List.getD, List.getElem?_map, List.getElem?_eq_none (not_lt.1 hi)]
  · funext i
    by_cases hi : i < rows.length
    · simp [List.getD, List.getElem?_map, List.getElem?_eq_getElem hi]
    · simp [List.getD, List.getElem?_map, List.getElem?_eq_none (not_lt.1 hi), h0]

theorem truncZ_zero [IsStrictOrderedRing α] : truncZ (0 : α) = 0 := by simp [truncZ]

theorem truth_number {v : Yaml α} {q : α} (h : value? v = some q) [IsStrictOrderedRing α] :
    truth v = true ↔ q ≠ 0 := by
  cases v <;> simp [value?] at h
  · subst h; simp [truth]
  · subst h; simp [truth]

/-- The absorption part. -/
theorem absorption_is [IsStrictOrderedRing α] {F : Files α} {e : Yaml α} {hist ch : Bool} {sp : Option (Columns α)} {dist : Option (Dist α)}
    (hsp : ∀ t, sp = some t → ∃ v, under ["spectrum"] e = some v ∧ SpectrumIs F false v t)
    (h : absorptionOf hist (under ["coefficient"] e) sp = .ok (dist, ch)) :
    AbsorptionIs F e hist dist ∧ (ch → hist) ∧ ∀ T hh, dist = some (.table T hh) → ch = false := by
  unfold absorptionOf at h
  cases hc : under ["coefficient"] e with
  | none => rw [hc] at h; cases sp <;> cases h
  | some c =>
    rw [hc] at h
    cases hs : sp with
    | some t =>
      rw [hs] at h
      dsimp only at h
      by_cases ht : truth c = true
      · rw [if_pos ht] at h
        cases hq : c.number with
        | error er => rw [hq] at h; cases h
        | ok q =>
          rw [hq] at h; dsimp only at h
          cases hl : scaleTo q t with
          | error er => rw [hl] at h; cases h
          | ok l =>
            rw [hl] at h; dsimp only at h
            cases hD : distOf l hist with
            | error er => rw [hD] at h; cases h
            | ok D =>
              rw [hD] at h
              cases h
              obtain ⟨v, hv, hsv⟩ := hsp t hs
              obtain ⟨m, hm, hm0, hlm⟩ := scaleTo_ok hl
              have hval := number_iff.1 hq
              have hb : (under ["coefficient"] e).bind value? = some q := by rw [hc]; exact hval
              have hq0 := (truth_number hval).1 ht
              have hDt := (distOf_ok hD).1
              rw [hlm, tableOf_map t.rows (fun y => if t.ints then ((truncZ (y / m * q) : ℤ) : α) else y / m * q)
                (by simp [truncZ_zero])] at hDt
              rw [hDt]
              exact ⟨.scaled hb hq0 hv hsv hm hm0, by simp, fun _ _ _ => rfl⟩
      · rw [if_neg ht] at h; cases h
    | none =>
      rw [hs] at h
      dsimp only at h
      by_cases ht : truth c = true
      · rw [if_pos ht] at h
        simp only [Except.ok.injEq, Prod.mk.injEq] at h
        obtain ⟨rfl, rfl⟩ := h
        cases c with
        | num q =>
          refine ⟨.constant hc ?_, id, fun T hh h => by simp [constOf] at h⟩
          exact (truth_number (v := .num q) rfl).1 ht
        | null => exact ⟨.lost hc (by simp), id, fun T hh h => by simp [constOf] at h⟩
        | bool b => exact ⟨.lost hc (by simp), id, fun T hh h => by simp [constOf] at h⟩
        | int z => exact ⟨.lost hc (by simp), id, fun T hh h => by simp [constOf] at h⟩
        | str s => exact ⟨.lost hc (by simp), id, fun T hh h => by simp [constOf] at h⟩
        | seq l => exact ⟨.lost hc (by simp), id, fun T hh h => by simp [constOf] at h⟩
        | map l => exact ⟨.lost hc (by simp), id, fun T hh h => by simp [constOf] at h⟩
      · rw [if_neg ht] at h; cases h

theorem direction_is {F : Files α} {v : Yaml α} {a : Aiming α} (h : parseDirection F v = .ok a) :
    AimIs F v a := by
  unfold parseDirection at h
  cases h1 : isIn "isotropic" v with
  | error e => rw [h1] at h; cases h
  | ok b1 =>
    cases b1 with
    | true => rw [h1] at h; cases h; exact .isotropic (isIn_names h1)
    | false =>
      rw [h1] at h; dsimp only at h
      cases h2 : isIn "lambertian" v with
      | error e => rw [h2] at h; cases h
      | ok b2 =>
        cases b2 with
        | true => rw [h2] at h; cases h; exact .lambertian (isIn_names h2)
        | false =>
          rw [h2] at h; dsimp only at h
          cases h3 : isIn "cone" v with
          | error e => rw [h3] at h; cases h
          | ok b3 =>
            cases b3 with
            | true =>
              rw [h3] at h; dsimp only at h
              cases h4 : item "cone" v with
              | error e => rw [h4] at h; cases h
              | ok c =>
                rw [h4] at h; dsimp only at h
                cases h5 : item "half-angle" c with
                | error e => rw [h5] at h; cases h
                | ok w =>
                  rw [h5] at h; dsimp only at h
                  cases h6 : asFloat F w with
                  | error e => rw [h6] at h; cases h
                  | ok q =>
                    rw [h6] at h; cases h
                    refine .cone ?_
                    rw [under_cons_some (item_iff.1 h4), item_iff.1 h5]
                    exact asFloat_iff.1 h6
            | false =>
              rw [h3] at h; dsimp only at h
              cases h4 : isIn "henyey-greenstein" v with
              | error e => rw [h4] at h; cases h
              | ok b4 =>
                cases b4 with
                | false => rw [h4] at h; cases h
                | true =>
                  rw [h4] at h; dsimp only at h
                  cases h4 : item "henyey-greenstein" v with
                  | error e => rw [h4] at h; cases h
                  | ok c =>
                    rw [h4] at h; dsimp only at h
                    cases h5 : item "g" c with
                    | error e => rw [h5] at h; cases h
                    | ok w =>
                      rw [h5] at h; dsimp only at h
                      cases h6 : asFloat F w with
                      | error e => rw [h6] at h; cases h
                      | ok q =>
                        rw [h6] at h; cases h
                        refine .henyeyGreenstein ?_
                        rw [under_cons_some (item_iff.1 h4), item_iff.1 h5]
                        exact asFloat_iff.1 h6

theorem phase_is {F : Files α} {d : List (String × Yaml α)} {a : Aiming α} (h : phaseOf F d = .ok a) :
    PhaseIs F (.map d) a := by
  unfold phaseOf at h
  unfold PhaseIs
  rw [under_map]
  cases hl : d.lookup "phase-function" with
  | none => rw [hl] at h; cases h; exact Or.inl ⟨rfl, rfl⟩
  | some v => rw [hl] at h; exact Or.inr ⟨v, rfl, direction_is h⟩

theorem yield_is {d : List (String × Yaml α)} {q : α} (h : yieldOf d = .ok q) :
    YieldIs (.map d) q := by
  unfold yieldOf at h
  unfold YieldIs
  rw [under_map]
  cases hl : d.lookup "quantum-yield" with
  | none => rw [hl] at h; cases h; exact Or.inl ⟨rfl, rfl⟩
  | some v => rw [hl] at h; exact Or.inr (number_iff.1 h)

theorem hist_eq (d : List (String × Yaml α)) : histOf d = histogram (.map d) := by
  unfold histOf histogram
  rw [under_map]
  cases d.lookup "hist" <;> rfl

theorem absorber_is [IsStrictOrderedRing α] {F : Files α} {k : String} {v : Yaml α} {c : CompDef α}
    (h : parseAbsorber F k v = .ok c) {e : Yaml α} (he : under ["absorber"] e = some v) :
    ComponentIs F (k, e) c := by
  unfold parseAbsorber at h
  cases v with
  | map d =>
    simp only [Yaml.dict] at h
    cases hs : optSpectrum F d with
    | error er => rw [hs] at h; cases h
    | ok sp =>
      rw [hs] at h; dsimp only at h
      cases ha : absorptionOf (histOf d) (d.lookup "coefficient") sp with
      | error er => rw [ha] at h; cases h
      | ok r =>
        obtain ⟨dist, ch⟩ := r
        rw [ha] at h
        cases h
        rw [← under_map, hist_eq] at ha
        refine .absorber he (absorption_is (e := .map d) ?_ ha).1
        rintro t rfl
        unfold optSpectrum at hs
        cases hl : d.lookup "spectrum" with
        | none => rw [hl] at hs; cases hs
        | some s =>
          rw [hl] at hs
          exact ⟨s, by rw [under_map, hl], parseSpectrum_is hs⟩
  | _ => simp [Yaml.dict] at h

theorem scatterer_is [IsStrictOrderedRing α] {F : Files α} {k : String} {v : Yaml α} {c : CompDef α}
    (h : parseScatterer F k v = .ok c) {e : Yaml α} (he : under ["scatterer"] e = some v) :
    ComponentIs F (k, e) c := by
  unfold parseScatterer at h
  cases v with
  | map d =>
    simp only [Yaml.dict] at h
    cases h1 : phaseOf F d with
    | error er => rw [h1] at h; cases h
    | ok phase =>
      rw [h1] at h; dsimp only at h
      cases h2 : yieldOf d with
      | error er => rw [h2] at h; cases h
      | ok qy =>
        rw [h2] at h; dsimp only at h
        cases h3 : dget d "spectrum" with
        | error er => rw [h3] at h; cases h
        | ok s =>
          rw [h3] at h; dsimp only at h
          cases h4 : parseSpectrum F false s with
          | error er => rw [h4] at h; cases h
          | ok sp =>
            rw [h4] at h; dsimp only at h
            cases ha : absorptionOf (histOf d) (d.lookup "coefficient") sp with
            | error er => rw [ha] at h; cases h
            | ok r =>
              obtain ⟨dist, ch⟩ := r
              rw [ha] at h
              cases h
              rw [← under_map, hist_eq] at ha
              have hh := absorption_is (F := F) (e := .map d) (fun t ht => by
                subst ht
                exact ⟨s, by rw [under_map]; exact dget_iff.1 h3, parseSpectrum_is h4⟩) ha
              exact .scatterer he hh.1 (yield_is h2) (phase_is h1) hh.2.1
  | _ => simp [Yaml.dict] at h

theorem luminophore_is [IsStrictOrderedRing α] {F : Files α} {k : String} {v : Yaml α} {c : CompDef α}
    (h : parseLuminophore F k v = .ok c) {e : Yaml α} (he : under ["luminophore"] e = some v) :
    ComponentIs F (k, e) c := by
  unfold parseLuminophore at h
  cases hv : v.dict with
  | error er => rw [hv] at h; cases h
  | ok d =>
    rw [hv] at h; dsimp only at h
    cases h1 : item "absorption" v with
    | error er => rw [h1] at h; cases h
    | ok a =>
      rw [h1] at h; dsimp only at h
      cases h2 : a.dict with
      | error er => rw [h2] at h; cases h
      | ok ad =>
        rw [h2] at h; dsimp only at h
        cases hl : d.lookup "emission" with
        | none =>
          have hh : has d "emission" = false := by simp [has, hl]
          rw [hh] at h
          exfalso
          repeat' split at h
          all_goals first | (cases h; done) | skip
          all_goals simp_all
        | some ev =>
          have hh : has d "emission" = true := by simp [has, hl]
          have ho : optDict d "emission" = ev.dict := by simp [optDict, hl]
          rw [ho, hh] at h
          cases h3 : ev.dict with
          | error er => rw [h3] at h; cases h
          | ok ed =>
            rw [h3] at h; dsimp only at h
            cases h4 : phaseOf F ed with
            | error er => rw [h4] at h; cases h
            | ok phase =>
              rw [h4] at h; dsimp only at h
              cases h5 : yieldOf ed with
              | error er => rw [h5] at h; cases h
              | ok qy =>
                rw [h5] at h; dsimp only at h
                cases h6 : dget ad "spectrum" with
                | error er => rw [h6] at h; cases h
                | ok s =>
                  rw [h6] at h; dsimp only at h
                  cases h7 : parseSpectrum F false s with
                  | error er => rw [h7] at h; cases h
                  | ok sp =>
                    rw [h7, if_pos rfl] at h; dsimp only at h
                    cases h8 : dget ed "spectrum" with
                    | error er => rw [h8] at h; cases h
                    | ok es =>
                      rw [h8] at h; dsimp only at h
                      cases h9 : parseSpectrum F true es with
                      | error er => rw [h9] at h; cases h
                      | ok et =>
                        rw [h9] at h
                        cases et with
                        | none => cases h
                        | some et =>
                          dsimp only at h
                          cases ha : absorptionOf (histOf d) (ad.lookup "coefficient") sp with
                          | error er => rw [ha] at h; cases h
                          | ok r =>
                            obtain ⟨dist, ch⟩ := r
                            rw [ha] at h; dsimp only at h
                            cases hD : distOf et.rows (histOf d) with
                            | error er => rw [hD] at h; cases h
                            | ok ems =>
                              rw [hD] at h
                              cases h
                              have ev' := dict_iff.1 hv
                              subst ev'
                              have ea' := dict_iff.1 h2
                              subst ea'
                              have ee' := dict_iff.1 h3
                              subst ee'
                              rw [← under_map, hist_eq] at ha
                              have hh := absorption_is (F := F) (e := .map ad) (fun t ht => by
                                subst ht
                                exact ⟨s, by rw [under_map]; exact dget_iff.1 h6, parseSpectrum_is h7⟩) ha
                              rw [(distOf_ok hD).1, hist_eq]
                              exact .luminophore he (item_iff.1 h1) (by rw [under_map, hl]) hh.1
                                (by rw [under_map]; exact dget_iff.1 h8) (parseSpectrum_is h9)
                                (yield_is h5) (phase_is h4) hh.2.1

theorem component_is [IsStrictOrderedRing α] {F : Files α} {k : String} {v : Yaml α} {c : CompDef α}
    (h : parseComponent F k v = .ok c) : ComponentIs F (k, v) c := by
  unfold parseComponent at h
  cases v with
  | map d =>
    simp only [Yaml.dict] at h
    cases h1 : d.lookup "absorber" with
    | some a => rw [h1] at h; exact absorber_is h (by rw [under_map, h1])
    | none =>
      rw [h1] at h; dsimp only at h
      cases h2 : d.lookup "scatterer" with
      | some a => rw [h2] at h; exact scatterer_is h (by rw [under_map, h2])
      | none =>
        rw [h2] at h; dsimp only at h
        cases h3 : d.lookup "luminophore" with
        | some a => rw [h3] at h; exact luminophore_is h (by rw [under_map, h3])
        | none => rw [h3] at h; cases h
  | _ => simp [Yaml.dict] at h

theorem components_are [IsStrictOrderedRing α] {F : Files α} {l : List (String × Yaml α)} {cs : List (String × CompDef α)}
    (h : parseComponents F l = .ok cs) :
    List.Forall₂ (fun e c => c.1 = e.1 ∧ ComponentIs F e c.2) l cs := by
  induction l generalizing cs with
  | nil => cases h; exact .nil
  | cons e l ih =>
    obtain ⟨k, v⟩ := e
    unfold parseComponents at h
    cases h1 : parseComponent F k v with
    | error er => rw [h1] at h; cases h
    | ok c =>
      rw [h1] at h; dsimp only at h
      cases h2 : parseComponents F l with
      | error er => rw [h2] at h; cases h
      | ok cs' =>
        rw [h2] at h
        cases h
        exact .cons ⟨rfl, component_is h1⟩ (ih h2)

/-! ### Lights -/

theorem position_is {v : Yaml α} {p : Spot α} (h : parsePosition v = .ok p) : SpotIs v p := by
  unfold parsePosition at h
  cases h1 : isIn "rect" v with
  | error e => rw [h1] at h; cases h
  | ok b1 =>
    cases b1 with
    | true =>
      rw [h1] at h; dsimp only at h
      cases h2 : item "rect" v with
      | error e => rw [h2] at h; cases h
      | ok a =>
        rw [h2] at h; dsimp only at h
        split at h
        · cases h
        · rename_i ha
          cases h
          exact .rect (by rw [item_iff.1 h2]; exact args_iff.1 ha)
        · cases h
    | false =>
      rw [h1] at h; dsimp only at h
      cases h3 : isIn "cube" v with
      | error e => rw [h3] at h; cases h
      | ok b3 =>
        cases b3 with
        | true =>
          rw [h3] at h; dsimp only at h
          cases h2 : item "cube" v with
          | error e => rw [h2] at h; cases h
          | ok a =>
            rw [h2] at h; dsimp only at h
            split at h
            · cases h
            · rename_i ha
              cases h
              exact .cube (by rw [item_iff.1 h2]; exact args_iff.1 ha)
            · cases h
        | false =>
          rw [h3] at h; dsimp only at h
          cases h4 : isIn "circle" v with
          | error e => rw [h4] at h; cases h
          | ok b4 =>
            cases b4 with
            | true =>
              rw [h4] at h; dsimp only at h
              cases h2 : item "circle" v with
              | error e => rw [h2] at h; cases h
              | ok a =>
                rw [h2] at h; dsimp only at h
                cases ha : a.number with
                | error e => rw [ha] at h; cases h
                | ok r =>
                  rw [ha] at h; cases h
                  exact .circle (by rw [item_iff.1 h2]; exact number_iff.1 ha)
            | false => rw [h4] at h; cases h

theorem wavelength_is [IsStrictOrderedRing α] {F : Files α} {v : Yaml α} {c : Colour α}
    (h : parseWavelength F v = .ok c) : ColourIs F v c := by
  unfold parseWavelength at h
  cases h1 : isIn "nanometers" v with
  | error e => rw [h1] at h; cases h
  | ok b1 =>
    cases b1 with
    | true =>
      rw [h1] at h; dsimp only at h
      cases h2 : item "nanometers" v with
      | error e => rw [h2] at h; cases h
      | ok a =>
        rw [h2] at h; dsimp only at h
        cases ha : asFloat F a with
        | error e => rw [ha] at h; cases h
        | ok r =>
          rw [ha] at h; cases h
          exact .nanometers (by rw [item_iff.1 h2]; exact asFloat_iff.1 ha)
    | false =>
      rw [h1] at h; dsimp only at h
      cases h3 : isIn "spectrum" v with
      | error e => rw [h3] at h; cases h
      | ok b3 =>
        cases b3 with
        | false => rw [h3] at h; cases h
        | true =>
          rw [h3] at h; dsimp only at h
          cases h2 : item "spectrum" v with
          | error e => rw [h2] at h; cases h
          | ok sp =>
            rw [h2] at h; dsimp only at h
            cases h4 : parseSpectrum F false sp with
            | error e => rw [h4] at h; cases h
            | ok o =>
              cases o with
              | none => rw [h4] at h; cases h
              | some t =>
                rw [h4] at h; dsimp only at h
                cases h5 : distOf t.rows false with
                | error e => rw [h5] at h; cases h
                | ok D =>
                  rw [h5] at h; cases h
                  rw [(distOf_ok h5).1]
                  exact .spectrum (item_iff.1 h2) (parseSpectrum_is h4)

theorem maskPart_is {β : Type} {f : Yaml α → Except DErr β} {m : List (String × Yaml α)} {key : String}
    {o : Option β} (h : maskPart f m key = .ok o) :
    (∃ v b, (m.lookup key).filter truth = some v ∧ f v = .ok b ∧ o = some b) ∨
    ((m.lookup key).filter truth = none ∧ o = none) := by
  unfold maskPart at h
  cases hl : m.lookup key with
  | none => rw [hl] at h; cases h; exact Or.inr ⟨rfl, rfl⟩
  | some v =>
    rw [hl] at h; dsimp only at h
    by_cases ht : truth v = true
    · rw [if_pos ht] at h
      cases hb : f v with
      | error e => rw [hb] at h; cases h
      | ok b =>
        rw [hb] at h; cases h
        exact Or.inl ⟨v, b, by simp [ht], hb, rfl⟩
    · rw [if_neg ht] at h; cases h
      exact Or.inr ⟨by simp [ht], rfl⟩

theorem defaultColour_is [IsStrictOrderedRing α] {d : List (String × Yaml α)} {w : Option (Colour α)}
    (h : defaultColour d = .ok w) :
    (∃ q, (under ["wavelength"] (.map d)).bind value? = some q ∧ q ≠ 0 ∧ w = some (.constant q)) ∨
    ((under ["wavelength"] (.map d)).bind value? = some 0 ∧ w = some (.number 0)) ∨
    ((under ["wavelength"] (.map d) = none ∨ under ["wavelength"] (.map d) = some .null) ∧ w = none) := by
  unfold defaultColour at h
  rw [under_map]
  cases hl : d.lookup "wavelength" with
  | none => rw [hl] at h; cases h; exact Or.inr (Or.inr ⟨Or.inl rfl, rfl⟩)
  | some v =>
    rw [hl] at h
    have key : ∀ q, value? v = some q → w = some (if truth v then .constant q else .number q) →
        (∃ q, (some v).bind value? = some q ∧ q ≠ 0 ∧ w = some (.constant q)) ∨
        ((some v).bind value? = some 0 ∧ w = some (.number 0)) ∨
        ((some v = none ∨ some v = some .null) ∧ w = none) := by
      intro q hq hw
      by_cases h0 : q = 0
      · right; left
        have : ¬ truth v = true := fun ht => ((truth_number hq).1 ht) h0
        rw [if_neg this] at hw
        subst h0
        exact ⟨hq, hw⟩
      · left
        rw [if_pos ((truth_number hq).2 h0)] at hw
        exact ⟨q, hq, h0, hw⟩
    cases v with
    | null => cases h; exact Or.inr (Or.inr ⟨Or.inr rfl, rfl⟩)
    | num q => simp only [Yaml.number, Except.ok.injEq] at h; exact key q rfl h.symm
    | int z => simp only [Yaml.number, Except.ok.injEq] at h; exact key z rfl h.symm
    | _ => simp [Yaml.number] at h

theorem part_eq {d md : List (String × Yaml α)} (h : d.lookup "mask" = some (.map md)) (key : String) :
    part key (.map d) = (md.lookup key).filter truth := by
  unfold part
  have h' : under ["mask"] (.map d) = some (.map md) := by rw [under_map, h]
  rw [under_cons_some h', under_map]

theorem part_none_of {d : List (String × Yaml α)} (h : d.lookup "mask" = none) (key : String) :
    part key (.map d) = none := by
  unfold part
  have h' : under ["mask"] (.map d) = none := by rw [under_map, h]
  rw [under_cons, h']
  rfl

theorem part_none_falsy {d : List (String × Yaml α)} {m : Yaml α} (h : d.lookup "mask" = some m)
    (hf : ¬ truth m = true) (key : String) : part key (.map d) = none := by
  cases m with
  | map md =>
    have : md = [] := by simpa [truth] using hf
    subst this
    rw [part_eq h]; rfl
  | _ =>
    unfold part
    have h' := under_cons_some (k := "mask") (ks := [key]) (v := .map d) (by rw [under_map, h])
    rw [h']
    rfl

theorem light_is [IsStrictOrderedRing α] {F : Files α} {k : String} {v : Yaml α} {l : LightDef α}
    (h : parseLight F k v = .ok l) : l.name = k ∧ LightIs F v l := by
  unfold parseLight at h
  cases v with
  | map d =>
    rw [show (Yaml.map d).dict = .ok d from rfl] at h
    dsimp only at h
    cases hw : defaultColour d with
    | error e => rw [hw] at h; cases h
    | ok w =>
      rw [hw] at h; dsimp only at h
      have hdef := defaultColour_is hw
      cases hm : d.lookup "mask" with
      | none =>
        rw [hm] at h; cases h
        exact ⟨rfl, Or.inr ⟨part_none_of hm _, hdef⟩, Or.inr ⟨part_none_of hm _, rfl⟩,
          Or.inr ⟨part_none_of hm _, rfl⟩⟩
      | some m =>
        rw [hm] at h; dsimp only at h
        by_cases ht : truth m = true
        · rw [if_pos ht] at h
          cases hmd : m.dict with
          | error e => rw [hmd] at h; cases h
          | ok md =>
            rw [hmd] at h; dsimp only at h
            have em := dict_iff.1 hmd
            subst em
            cases h1 : maskPart (parseWavelength F) md "wavelength" with
            | error e => rw [h1] at h; cases h
            | ok w' =>
              rw [h1] at h; dsimp only at h
              cases h2 : maskPart parsePosition md "position" with
              | error e => rw [h2] at h; cases h
              | ok p =>
                rw [h2] at h; dsimp only at h
                cases h3 : maskPart (parseDirection F) md "direction" with
                | error e => rw [h3] at h; cases h
                | ok q =>
                  rw [h3] at h; cases h
                  refine ⟨rfl, ?_, ?_, ?_⟩
                  · rw [part_eq hm]
                    rcases maskPart_is h1 with ⟨v, b, a1, a2, rfl⟩ | ⟨a1, rfl⟩
                    · exact Or.inl ⟨v, b, a1, wavelength_is a2, rfl⟩
                    · exact Or.inr ⟨a1, hdef⟩
                  · rw [part_eq hm]
                    rcases maskPart_is h2 with ⟨v, b, a1, a2, rfl⟩ | ⟨a1, rfl⟩
                    · exact Or.inl ⟨v, b, a1, position_is a2, rfl⟩
                    · exact Or.inr ⟨a1, rfl⟩
                  · rw [part_eq hm]
                    rcases maskPart_is h3 with ⟨v, b, a1, a2, rfl⟩ | ⟨a1, rfl⟩
                    · exact Or.inl ⟨v, b, a1, direction_is a2, rfl⟩
                    · exact Or.inr ⟨a1, rfl⟩
        · rw [if_neg ht] at h; cases h
          exact ⟨rfl, Or.inr ⟨part_none_falsy hm ht _, hdef⟩, Or.inr ⟨part_none_falsy hm ht _, rfl⟩,
            Or.inr ⟨part_none_falsy hm ht _, rfl⟩⟩
  | _ => simp [Yaml.dict] at h

/-! ### Geometry -/

theorem pick_is {comps : List (String × CompDef α)} {ks : List (Yaml α)} {cs : List (CompDef α)}
    (h : pickComponents comps ks = .ok cs) :
    ∃ names : List String, ks = names.map .str ∧ names.map (fun k => comps.lookup k) = cs.map some := by
  induction ks generalizing cs with
  | nil => cases h; exact ⟨[], rfl, rfl⟩
  | cons k ks ih =>
    unfold pickComponents at h
    cases k with
    | str s =>
      dsimp only at h
      cases hl : comps.lookup s with
      | none => rw [hl] at h; cases h
      | some c =>
        rw [hl] at h; dsimp only at h
        cases hp : pickComponents comps ks with
        | error e => rw [hp] at h; cases h
        | ok cs' =>
          rw [hp] at h; cases h
          obtain ⟨names, rfl, hn⟩ := ih hp
          exact ⟨s :: names, rfl, by simp [hl, hn]⟩
    | _ => cases h

theorem material_is {comps : List (String × CompDef α)} {v : Yaml α} {m : MatDef α}
    (h : parseMaterial comps v = .ok m) : MaterialIs (fun k => comps.lookup k) v m := by
  unfold parseMaterial at h
  cases v with
  | map d =>
    simp only [Yaml.dict] at h
    cases h1 : componentKeys d with
    | error e => rw [h1] at h; cases h
    | ok keys =>
      rw [h1] at h; dsimp only at h
      cases h2 : pickComponents comps keys with
      | error e => rw [h2] at h; cases h
      | ok cs =>
        rw [h2] at h; dsimp only at h
        cases h3 : dget d "refractive-index" with
        | error e => rw [h3] at h; cases h
        | ok n =>
          rw [h3] at h; dsimp only at h
          cases h4 : n.number with
          | error e => rw [h4] at h; cases h
          | ok q =>
            rw [h4] at h; cases h
            refine ⟨by rw [under_map, dget_iff.1 h3]; exact number_iff.1 h4, ?_⟩
            unfold componentKeys at h1
            rw [under_map]
            cases hl : d.lookup "components" with
            | none =>
              rw [hl] at h1; cases h1
              cases h2
              exact Or.inl ⟨rfl, rfl⟩
            | some l =>
              rw [hl] at h1
              obtain ⟨names, rfl, hn⟩ := pick_is h2
              right
              exact ⟨names, by rw [list_iff.1 h1], hn⟩
  | _ => simp [Yaml.dict] at h

theorem shape_is {F : Files α} {kind : String} (hk : kind ∈ ["box", "cylinder", "sphere", "mesh"])
    {d : List (String × Yaml α)} {s : ShapeDef α} (h : parseShape F kind d = .ok s) {e : Yaml α}
    (he : under [kind] e = some (.map d)) : ShapeIs e s ∧ kindOf s = kind := by
  unfold parseShape at h
  by_cases k1 : kind = "box"
  · subst k1
    rw [if_pos rfl] at h
    cases h1 : dget d "size" with
    | error e => rw [h1] at h; cases h
    | ok w =>
      rw [h1] at h; dsimp only at h
      cases h2 : triple w with
      | error e => rw [h2] at h; cases h
      | ok u =>
        rw [h2] at h; cases h
        exact ⟨.box (w := w) (by rw [under_cons_some he, under_map]; exact dget_iff.1 h1)
          (triple_iff.1 h2), rfl⟩
  rw [if_neg k1] at h
  by_cases k2 : kind = "cylinder"
  · subst k2
    rw [if_pos rfl] at h
    cases h1 : dget d "length" with
    | error e => rw [h1] at h; cases h
    | ok w =>
      cases h2 : dget d "radius" with
      | error e => rw [h1, h2] at h; cases h
      | ok u =>
        rw [h1, h2] at h; dsimp only at h
        cases h3 : w.number with
        | error e => rw [h3] at h; cases h
        | ok l =>
          cases h4 : u.number with
          | error e => rw [h3, h4] at h; cases h
          | ok r =>
            rw [h3, h4] at h; cases h
            refine ⟨.cylinder ?_ ?_, rfl⟩
            · rw [under_cons_some he, under_map, dget_iff.1 h1]; exact number_iff.1 h3
            · rw [under_cons_some he, under_map, dget_iff.1 h2]; exact number_iff.1 h4
  rw [if_neg k2] at h
  by_cases k3 : kind = "sphere"
  · subst k3
    rw [if_pos rfl] at h
    cases h1 : dget d "radius" with
    | error e => rw [h1] at h; cases h
    | ok w =>
      rw [h1] at h; dsimp only at h
      cases h2 : w.number with
      | error e => rw [h2] at h; cases h
      | ok u =>
        rw [h2] at h; cases h
        refine ⟨.sphere ?_, rfl⟩
        rw [under_cons_some he, under_map, dget_iff.1 h1]; exact number_iff.1 h2
  rw [if_neg k3] at h
  have k4 : kind = "mesh" := by
    simp only [List.mem_cons, List.not_mem_nil, or_false] at hk
    tauto
  subst k4
  cases h1 : dget d "file" with
  | error e => rw [h1] at h; cases h
  | ok w =>
    rw [h1] at h; dsimp only at h
    cases h2 : w.string with
    | error e => rw [h2] at h; cases h
    | ok f =>
      rw [h2] at h; dsimp only at h
      cases h3 : F.mesh f with
      | error e => rw [h3] at h; cases h
      | ok u =>
        rw [h3] at h; cases h
        refine ⟨.mesh ?_, rfl⟩
        rw [under_cons_some he, under_map, dget_iff.1 h1, string_iff.1 h2]

theorem content_is [IsStrictOrderedRing α] {F : Files α} {comps : List (String × CompDef α)} {k : String}
    {d : List (String × Yaml α)} {c : Content α} (h : parseContent F comps k d = .ok c) :
    (∃ s m, c = .geometry s m ∧ GeometryIs (fun k => comps.lookup k) (.map d) s m) ∨
    ∃ l v, c = .light l ∧ under ["light"] (.map d) = some v ∧ l.name = k ∧ LightIs F v l := by
  unfold parseContent at h
  cases hf : ["box", "cylinder", "sphere", "mesh"].find? (has d) with
  | some kind =>
    rw [hf] at h; dsimp only at h
    have hk := List.mem_of_find?_eq_some hf
    cases h1 : dget d kind with
    | error e => rw [h1] at h; cases h
    | ok v =>
      rw [h1] at h; dsimp only at h
      have he : under [kind] (.map d) = some v := by rw [under_map]; exact dget_iff.1 h1
      unfold parseGeometry at h
      cases v with
      | map g =>
        simp only [Yaml.dict] at h
        cases h2 : parseShape F kind g with
        | error e => rw [h2] at h; cases h
        | ok s =>
          rw [h2] at h; dsimp only at h
          cases h3 : dget g "material" with
          | error e => rw [h3] at h; cases h
          | ok w =>
            rw [h3] at h; dsimp only at h
            cases h4 : parseMaterial comps w with
            | error e => rw [h4] at h; cases h
            | ok m =>
              rw [h4] at h; cases h
              obtain ⟨a1, a2⟩ := shape_is hk h2 he
              refine Or.inl ⟨s, m, rfl, a1, w, ?_, material_is h4⟩
              rw [a2, under_cons_some he, under_map]
              exact dget_iff.1 h3
      | _ => simp [Yaml.dict] at h
  | none =>
    rw [hf] at h; dsimp only at h
    cases hl : d.lookup "light" with
    | none => rw [hl] at h; cases h
    | some v =>
      rw [hl] at h; dsimp only at h
      cases h1 : parseLight F k v with
      | error e => rw [h1] at h; cases h
      | ok l =>
        rw [h1] at h; cases h
        obtain ⟨a1, a2⟩ := light_is h1
        exact Or.inr ⟨l, v, rfl, by rw [under_map, hl], a1, a2⟩

theorem parent_is {names : List String} {k : String} {d : List (String × Yaml α)} {p : Option String}
    (h : Doc.parentOf names k d = .ok p) : p = Spec.parentOf (k, .map d) := by
  unfold Doc.parentOf at h
  unfold Spec.parentOf
  by_cases hw : k = "world"
  · rw [if_pos hw] at h; cases h
    rw [if_pos hw]
  · rw [if_neg hw] at h
    rw [if_neg hw]
    dsimp only
    rw [under_map]
    cases hl : d.lookup "parent" with
    | none =>
      rw [hl] at h; dsimp only at h
      split at h
      · cases h; rfl
      · cases h
    | some v =>
      rw [hl] at h
      cases v with
      | null =>
        dsimp only at h
        split at h
        · cases h; rfl
        · cases h
      | str s =>
        simp only [Yaml.string] at h
        split at h
        · cases h; rfl
        · cases h
      | _ => simp [Yaml.string] at h

theorem parseNodes_cons {F : Files α} {comps : List (String × CompDef α)} {k : String} {v : Yaml α}
    {l : List (String × Yaml α)} {ps : List (String × List (String × Yaml α) × Content α)}
    (h : parseNodes F comps ((k, v) :: l) = .ok ps) :
    ∃ d c ps', v = .map d ∧ parseContent F comps k d = .ok c ∧ parseNodes F comps l = .ok ps' ∧
      ps = (k, d, c) :: ps' := by
  unfold parseNodes at h
  repeat' split at h
  all_goals first | (cases h; done) | skip
  cases h
  exact ⟨_, _, _, dict_iff.1 (by assumption), by assumption, by assumption, rfl⟩

theorem parseNodes_names {F : Files α} {comps : List (String × CompDef α)}
    {l : List (String × Yaml α)} {ps : List (String × List (String × Yaml α) × Content α)}
    (h : parseNodes F comps l = .ok ps) : ps.map (·.1) = l.map (·.1) := by
  induction l generalizing ps with
  | nil => cases h; rfl
  | cons e l ih =>
    obtain ⟨k, v⟩ := e
    obtain ⟨d, c, ps', rfl, _, h', rfl⟩ := parseNodes_cons h
    simp [ih h']

end PV.SceneFile
