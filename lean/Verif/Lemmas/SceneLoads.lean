import Verif.Lemmas.SceneFile
import Verif.Lemmas.SceneTree
import Verif.Props.Document

/-!
Files that satisfy the schema and `Spec.FileReady` load, function by function.
-/

namespace PV.SceneFile
open PV PV.Doc PV.Spec
variable {α : Type} [Field α] [LinearOrder α] [FloorRing α]
set_option linter.unusedSectionVars false

/-! ### The schema -/

theorem object_spec {props : List (String × Schema.Check α)} {req : List String} {closed : Bool}
    {v : Yaml α} (h : Schema.object props req closed v = true) :
    ∃ d, v = .map d ∧ (∀ k ∈ req, ∃ w, d.lookup k = some w) ∧
      ∀ k w, d.lookup k = some w → ∀ p, props.lookup k = some p → p w = true := by
  cases v with
  | map d =>
    simp only [Schema.object, Bool.and_eq_true, List.all_eq_true] at h
    refine ⟨d, rfl, fun k hk => ?_, fun k w hw p hp => ?_⟩
    · have := h.1 k hk
      simp only [has, Option.isSome_iff_exists] at this
      exact this
    · have := h.2 _ (lookup_mem hw)
      dsimp only at this
      rw [hp] at this
      exact this
  | _ => simp [Schema.object] at h

theorem named_spec {p : Schema.Check α} {req : List String} {v : Yaml α} (h : Schema.named p req v = true) :
    ∃ d, v = .map d ∧ (∀ k ∈ req, ∃ w, d.lookup k = some w) ∧ ∀ e ∈ d, p e.2 = true := by
  cases v with
  | map d =>
    simp only [Schema.named, Bool.and_eq_true, List.all_eq_true] at h
    refine ⟨d, rfl, fun k hk => ?_, fun e he => (h.2 e he).2⟩
    have := h.1 k hk
    simp only [has, Option.isSome_iff_exists] at this
    exact this
  | _ => simp [Schema.named] at h

theorem oneOf_exists {ps : List (Schema.Check α)} {v : Yaml α} (h : Schema.oneOf ps v = true) :
    ∃ p ∈ ps, p v = true := by
  simp only [Schema.oneOf, decide_eq_true_eq] at h
  have : ps.filter (· v) ≠ [] := fun he => by rw [he] at h; cases h
  obtain ⟨p, hp⟩ := List.exists_mem_of_ne_nil _ this
  rw [List.mem_filter] at hp
  exact ⟨p, hp.1, hp.2⟩

theorem number_value {v : Yaml α} (h : Schema.number v = true) : ∃ q, value? v = some q := by
  cases v <;> simp [Schema.number] at h <;> exact ⟨_, rfl⟩

theorem atLeast_value {m : α} {v : Yaml α} (h : Schema.atLeast m v = true) : ∃ q, value? v = some q ∧ m ≤ q := by
  cases v <;> simp [Schema.atLeast] at h <;> exact ⟨_, rfl, h⟩

theorem between_value {m M : α} {v : Yaml α} (h : Schema.between m M v = true) :
    ∃ q, value? v = some q ∧ m ≤ q ∧ q ≤ M := by
  cases v <;> simp [Schema.between] at h <;> exact ⟨_, rfl, h⟩

theorem string_value {v : Yaml α} (h : Schema.string v = true) : ∃ s, v = .str s := by
  cases v <;> simp [Schema.string] at h <;> exact ⟨_, rfl⟩

theorem array_strings {v : Yaml α} (h : Schema.array Schema.string 0 none v = true) :
    ∃ l : List String, v = .seq (l.map .str) := by
  cases v with
  | seq l =>
    simp only [Schema.array, Bool.and_eq_true, List.all_eq_true] at h
    replace h := h.1.1
    induction l with
    | nil => exact ⟨[], rfl⟩
    | cons w l ih =>
      obtain ⟨s, rfl⟩ := string_value (h w (by simp))
      obtain ⟨l', hl⟩ := ih (fun x hx => h x (by simp [hx]))
      injection hl with hl
      exact ⟨s :: l', by rw [hl]; rfl⟩
  | _ => simp [Schema.array] at h

/-! ### Spectra -/

theorem distOf_loads {rows : List (α × α)} {hist : Bool} (hl : 2 ≤ rows.length)
    (ha : (rows.map (·.1)).Pairwise (· < ·)) (hn : ∀ r ∈ rows, 0 ≤ r.2) :
    ∃ D, distOf rows hist = .ok D := by
  have hget : ∀ i (hi : i < rows.length), rows.getD i (0, 0) = rows[i] := by
    intro i hi
    simp [List.getElem?_eq_getElem hi]
  have h1 : ∀ i < (tableOf rows).n - 1, (tableOf rows).x i < (tableOf rows).x (i + 1) := by
    intro i hi
    have hi' : i + 1 < rows.length := by
      have : (tableOf rows).n = rows.length := rfl
      omega
    change (rows.getD i (0, 0)).1 < (rows.getD (i + 1) (0, 0)).1
    rw [hget i (by omega), hget (i + 1) hi']
    have := List.pairwise_iff_getElem.1 ha i (i + 1) (by simp; omega) (by simpa using hi') (by omega)
    simpa using this
  have h2 : ¬ ∃ i < (tableOf rows).n, (tableOf rows).y i < 0 := by
    rintro ⟨i, hi, h⟩
    have hi' : i < rows.length := hi
    change (rows.getD i (0, 0)).2 < 0 at h
    rw [hget i hi'] at h
    exact absurd (hn _ (List.getElem_mem hi')) (not_le.2 h)
  have hnl : (tableOf rows).n = rows.length := rfl
  refine ⟨.table (tableOf rows) hist, ?_⟩
  unfold distOf mkDist
  rw [if_neg (by push Not; exact h1), if_neg (by omega), if_neg h2, if_neg (by omega)]

theorem usable_dist {rows : List (α × α)} (h : Usable rows) (hist : Bool) : ∃ D, distOf rows hist = .ok D :=
  distOf_loads h.long h.ascending h.nonneg

theorem arange_is [IsStrictOrderedRing α] {lo hi step : α} {x : List α} (hp : 0 < step)
    (h : Wavelengths lo hi step x) : arange lo (hi + step) step = .ok x := by
  obtain ⟨y, hy⟩ : ∃ y, arange lo (hi + step) step = .ok y := by
    unfold arange
    rw [if_neg (ne_of_gt hp)]
    exact ⟨_, rfl⟩
  have h' := (arange_eq hy).2 hp
  rw [hy]
  congr 1
  exact List.ext_getElem? fun i => by rw [h i, h' i]

theorem spectrum_loads [IsStrictOrderedRing α] {F : Files α} {em : Bool} {e : Yaml α}
    (hs : Schema.spectrum e = true) (h : SpectrumReady F em e) :
    ∃ t, parseSpectrum F em e = .ok (some t) ∧ Usable t.rows := by
  simp only [Schema.spectrum, Schema.both, Bool.and_eq_true] at hs
  obtain ⟨d, rfl, -, -⟩ := object_spec hs.1
  cases h with
  | file hf hc hu =>
    rename_i f t
    refine ⟨t, ?_, hu⟩
    rw [under_map] at hf
    unfold parseSpectrum
    rw [show (Yaml.map d).dict = .ok d from rfl]
    dsimp only
    rw [hf]
    dsimp only
    rw [show (Yaml.str f : Yaml α).string = .ok f from rfl]
    dsimp only
    rw [hc]
  | named hn hc h1 h2 h3 hp hw hu =>
    rename_i n lo hi step x curve
    refine ⟨⟨false, x.zip (curve x)⟩, ?_, hu⟩
    rw [under_map] at hn
    obtain ⟨r, hr⟩ : ∃ r, under ["range"] (.map d) = some r := by
      cases hu : under ["range"] (.map d) with
      | none => rw [under_cons, hu] at h1; cases h1
      | some r => exact ⟨r, rfl⟩
    have hfile : d.lookup "file" = none := by
      cases hf : d.lookup "file" with
      | none => rfl
      | some w =>
        exfalso
        rw [under_map] at hr
        have := hs.2
        simp [Schema.oneOf, Schema.required, has, hf, hn, hr] at this
    have hitem : ∀ k q, (under ["range", k] (.map d)).bind value? = some q →
        ∃ w, item k r = .ok w ∧ w.number = .ok q := by
      intro k q hk
      rw [under_cons_some hr] at hk
      cases hw : under [k] r with
      | none => rw [hw] at hk; cases hk
      | some w => rw [hw] at hk; exact ⟨w, item_iff.2 hw, number_iff.2 hk⟩
    obtain ⟨w1, a1, b1⟩ := hitem _ _ h1
    obtain ⟨w2, a2, b2⟩ := hitem _ _ h2
    obtain ⟨w3, a3, b3⟩ := hitem _ _ h3
    rw [under_map] at hr
    have hname : has d "name" = true := by simp [has, hn]
    unfold parseSpectrum
    rw [show (Yaml.map d).dict = .ok d from rfl]
    dsimp only
    rw [hfile]
    dsimp only
    rw [if_pos hname]
    unfold namedSpectrum
    rw [dget_iff.2 hr]
    dsimp only
    rw [a1]
    dsimp only
    rw [a2]
    dsimp only
    rw [a3]
    dsimp only
    rw [b1, b2, b3]
    dsimp only
    rw [arange_is hp hw]
    dsimp only
    rw [dget_iff.2 hn]
    dsimp only
    rw [show (Yaml.str n : Yaml α).string = .ok n from rfl]
    dsimp only
    rw [hc]

theorem maxY_some {l : List (α × α)} (h : l ≠ []) : ∃ m, maxY l = some m := by
  cases l with
  | nil => exact absurd rfl h
  | cons p ps => exact ⟨_, rfl⟩

theorem truth_iff {v : Yaml α} {q : α} (h : value? v = some q) (h0 : q ≠ 0) [CharZero α] : truth v = true := by
  cases v <;> simp [value?] at h
  · subst h; simp [truth, h0]
  · subst h
    simp only [truth, decide_eq_true_eq]
    intro hz
    rw [hz] at h0
    simp at h0

theorem truncZ_nonneg [IsStrictOrderedRing α] {x : α} (h : 0 ≤ x) : 0 ≤ truncZ x := by
  unfold truncZ
  rw [if_pos h]
  exact Int.floor_nonneg.2 h

theorem scale_loads [IsStrictOrderedRing α] {t : Columns α} (hu : Usable t.rows) {q : α} (hq : 0 < q) (hist : Bool) :
    ∃ l D, scaleTo q t = .ok l ∧ distOf l hist = .ok D := by
  obtain ⟨m, hm⟩ := maxY_some (l := t.rows) (fun h => by have := hu.long; rw [h] at this; simp at this)
  obtain ⟨r, hr, hrp⟩ := hu.positive
  have hmp : 0 < m := lt_of_lt_of_le hrp ((maxY_peak hm).2 r hr)
  set f : α × α → α × α := fun p =>
      (p.1, if t.ints then ((truncZ (p.2 / m * q) : ℤ) : α) else p.2 / m * q) with hf
  have h1 : scaleTo q t = .ok (t.rows.map f) := by
    unfold scaleTo
    rw [hm]
    dsimp only
    rw [if_neg (ne_of_gt hmp)]
  obtain ⟨D, hD⟩ : ∃ D, distOf (t.rows.map f) hist = .ok D := by
    refine distOf_loads (by simpa using hu.long) ?_ ?_
    · have : (t.rows.map f).map (·.1) = t.rows.map (·.1) := by simp [hf]
      rw [this]; exact hu.ascending
    · intro r hr
      obtain ⟨p, hp, rfl⟩ := List.mem_map.1 hr
      have h0 : 0 ≤ p.2 / m * q := mul_nonneg (div_nonneg (hu.nonneg p hp) hmp.le) hq.le
      simp only [hf]
      split_ifs
      · exact_mod_cast truncZ_nonneg h0
      · exact h0
  exact ⟨_, D, h1, hD⟩

/-! ### Components -/

theorem coefficient_pos {d : List (String × Yaml α)} (h : CoefficientReady (.map d))
    (hs : ∀ w, d.lookup "coefficient" = some w → Schema.atLeast 0 w = true) :
    ∃ c q, d.lookup "coefficient" = some c ∧ value? c = some q ∧ 0 < q := by
  obtain ⟨q, hq, h0⟩ := h
  rw [under_map] at hq
  cases hc : d.lookup "coefficient" with
  | none => rw [hc] at hq; cases hq
  | some c =>
    rw [hc] at hq
    obtain ⟨q', hq', hpos⟩ := atLeast_value (hs c hc)
    have : q' = q := by
      have : value? c = some q := hq
      rw [hq'] at this; injection this
    subst this
    exact ⟨c, q', rfl, hq', lt_of_le_of_ne hpos (Ne.symm h0)⟩

theorem absorption_loads [IsStrictOrderedRing α] {c : Yaml α} {q : α} (hc : value? c = some q) (hq : 0 < q)
    {o : Option (Columns α)} (ho : ∀ t, o = some t → Usable t.rows) (hist : Bool) :
    ∃ r, absorptionOf hist (some c) o = .ok r := by
  have ht : truth c = true := truth_iff hc (ne_of_gt hq)
  cases o with
  | none =>
    unfold absorptionOf
    dsimp only
    rw [if_pos ht]
    exact ⟨_, rfl⟩
  | some t =>
    obtain ⟨l, D, h1, h2⟩ := scale_loads (ho t rfl) hq hist
    unfold absorptionOf
    dsimp only
    rw [if_pos ht, number_iff.2 hc]
    dsimp only
    rw [h1]
    dsimp only
    rw [h2]
    exact ⟨_, rfl⟩

theorem absorber_loads [IsStrictOrderedRing α] {F : Files α} {k : String} {v : Yaml α}
    (hs : Schema.absorber v = true) (hc : CoefficientReady v)
    (hsp : under ["spectrum"] v = none ∨ HasSpectrum F false v) : ∃ c, parseAbsorber F k v = .ok c := by
  simp only [Schema.absorber, Schema.both, Bool.and_eq_true] at hs
  obtain ⟨d, rfl, -, hp⟩ := object_spec hs.1
  obtain ⟨c, q, h1, h2, h3⟩ := coefficient_pos hc (fun w hw => hp _ w hw _ rfl)
  obtain ⟨o, ho, hu⟩ : ∃ o, optSpectrum F d = .ok o ∧ ∀ t, o = some t → Usable t.rows := by
    unfold optSpectrum
    rcases hsp with h | ⟨sp, h, hr⟩
    · rw [under_map] at h
      rw [h]
      exact ⟨none, rfl, by simp⟩
    · rw [under_map] at h
      obtain ⟨t, ht, hu⟩ := spectrum_loads (hp _ sp h _ rfl) hr
      rw [h]
      exact ⟨some t, ht, by simpa using hu⟩
  obtain ⟨r, hr⟩ := absorption_loads h2 h3 hu (histOf d)
  unfold parseAbsorber
  rw [show (Yaml.map d).dict = .ok d from rfl]
  dsimp only
  rw [ho]
  dsimp only
  rw [h1, hr]
  exact ⟨_, rfl⟩

theorem isIn_map (k : String) (d : List (String × Yaml α)) : isIn k (.map d) = .ok (has d k) := rfl

theorem direction_loads {F : Files α} {v : Yaml α} (hs : Schema.directionMask v = true) (hr : AimReady F v) :
    ∃ a, parseDirection F v = .ok a := by
  simp only [Schema.directionMask, Schema.both, Bool.and_eq_true] at hs
  obtain ⟨d, rfl, -, hp⟩ := object_spec hs.1
  unfold parseDirection
  rw [isIn_map, isIn_map, isIn_map, isIn_map]
  cases h1 : has d "isotropic" with
  | true => exact ⟨_, rfl⟩
  | false =>
    cases h2 : has d "lambertian" with
    | true => exact ⟨_, rfl⟩
    | false =>
      cases h3 : has d "cone" with
      | true =>
        dsimp only
        obtain ⟨c, hc⟩ := Option.isSome_iff_exists.1 h3
        have hco := hp _ c hc _ rfl
        obtain ⟨cd, rfl, hreq, hpc⟩ := object_spec hco
        obtain ⟨w, hw⟩ := hreq "half-angle" (by simp)
        rw [item_iff.2 ((under_map d "cone").trans hc)]
        dsimp only
        rw [item_iff.2 ((under_map cd "half-angle").trans hw)]
        dsimp only
        have hone := hpc _ w hw _ rfl
        obtain ⟨q, hq⟩ : ∃ q, float? F w = some q := by
          obtain ⟨p, hpm, hpt⟩ := oneOf_exists hone
          simp only [List.mem_cons, List.not_mem_nil, or_false] at hpm
          rcases hpm with rfl | rfl
          · obtain ⟨q, hq⟩ := number_value hpt
            cases w <;> simp [value?] at hq <;> exact ⟨_, rfl⟩
          · obtain ⟨s, rfl⟩ := string_value hpt
            have := hr s (by rw [under_cons, under_map, hc]; exact (under_map cd _).trans hw)
            exact Option.isSome_iff_exists.1 this
        rw [asFloat_iff.2 hq]
        exact ⟨_, rfl⟩
      | false =>
        cases h4 : has d "henyey-greenstein" with
        | true =>
          dsimp only
          obtain ⟨c, hc⟩ := Option.isSome_iff_exists.1 h4
          have hco := hp _ c hc _ rfl
          obtain ⟨cd, rfl, hreq, hpc⟩ := object_spec hco
          obtain ⟨w, hw⟩ := hreq "g" (by simp)
          rw [item_iff.2 ((under_map d "henyey-greenstein").trans hc)]
          dsimp only
          rw [item_iff.2 ((under_map cd "g").trans hw)]
          dsimp only
          obtain ⟨q, hq, -⟩ := between_value (hpc _ w hw _ rfl)
          have : float? F w = some q := by
            cases w <;> simp [value?] at hq <;> simp [float?, value?, hq]
          rw [asFloat_iff.2 this]
          exact ⟨_, rfl⟩
        | false =>
          exfalso
          have := hs.2
          simp [Schema.oneOf, Schema.required, h1, h2, h3, h4] at this

theorem phase_loads {F : Files α} {d : List (String × Yaml α)}
    (hs : ∀ w, d.lookup "phase-function" = some w → Schema.directionMask w = true ∧ AimReady F w) :
    ∃ a, phaseOf F d = .ok a := by
  unfold phaseOf
  cases h : d.lookup "phase-function" with
  | none => exact ⟨_, rfl⟩
  | some w => exact direction_loads (hs w h).1 (hs w h).2

theorem yield_loads {d : List (String × Yaml α)}
    (hs : ∀ w, d.lookup "quantum-yield" = some w → Schema.between 0 1 w = true) :
    ∃ a, yieldOf d = .ok a := by
  unfold yieldOf
  cases h : d.lookup "quantum-yield" with
  | none => exact ⟨_, rfl⟩
  | some w =>
    obtain ⟨q, hq, -⟩ := between_value (hs w h)
    exact ⟨q, number_iff.2 hq⟩

theorem scatterer_loads [IsStrictOrderedRing α] {F : Files α} {k : String} {v : Yaml α}
    (hs : Schema.scatterer v = true) (hc : CoefficientReady v) (hsp : HasSpectrum F false v)
    (hph : ∀ p, under ["phase-function"] v = some p → AimReady F p) : ∃ c, parseScatterer F k v = .ok c := by
  simp only [Schema.scatterer, Schema.both, Bool.and_eq_true] at hs
  obtain ⟨d, rfl, -, hp⟩ := object_spec hs.1
  obtain ⟨c, q, h1, h2, h3⟩ := coefficient_pos hc (fun w hw => hp _ w hw _ rfl)
  obtain ⟨sp, hl, hr⟩ := hsp
  rw [under_map] at hl
  obtain ⟨t, ht, hu⟩ := spectrum_loads (hp _ sp hl _ rfl) hr
  obtain ⟨a, ha⟩ := phase_loads (F := F) (d := d) (fun w hw =>
    ⟨hp _ w hw _ rfl, hph w ((under_map d _).trans hw)⟩)
  obtain ⟨y, hy⟩ := yield_loads (d := d) (fun w hw => hp _ w hw _ rfl)
  obtain ⟨r, hr⟩ := absorption_loads h2 h3 (o := some t) (by simpa using hu) (histOf d)
  unfold parseScatterer
  rw [show (Yaml.map d).dict = .ok d from rfl]
  dsimp only
  rw [ha]
  dsimp only
  rw [hy]
  dsimp only
  rw [dget_iff.2 hl]
  dsimp only
  rw [ht]
  dsimp only
  rw [h1, hr]
  exact ⟨_, rfl⟩

theorem luminophore_loads [IsStrictOrderedRing α] {F : Files α} {k : String} {v va ve : Yaml α}
    (hs : Schema.luminophore v = true) (ha : under ["absorption"] v = some va)
    (he : under ["emission"] v = some ve) (hc : CoefficientReady va) (hsa : HasSpectrum F false va)
    (hse : HasSpectrum F true ve)
    (hps : ∀ p, under ["phase-function"] ve = some p → Schema.directionMask p = true ∧ AimReady F p) :
    ∃ c, parseLuminophore F k v = .ok c := by
  obtain ⟨d, rfl, -, hp⟩ := object_spec hs
  rw [under_map] at ha he
  obtain ⟨ad, rfl, -, hpa⟩ := object_spec (hp _ va ha _ rfl)
  obtain ⟨ed, rfl, -, hpe⟩ := object_spec (hp _ ve he _ rfl)
  obtain ⟨c, q, h1, h2, h3⟩ := coefficient_pos hc (fun w hw => hpa _ w hw _ rfl)
  obtain ⟨sa, hla, hra⟩ := hsa
  obtain ⟨se, hle, hre⟩ := hse
  rw [under_map] at hla hle
  obtain ⟨ta, hta, hua⟩ := spectrum_loads (hpa _ sa hla _ rfl) hra
  obtain ⟨te, hte, hue⟩ := spectrum_loads (hpe _ se hle _ rfl) hre
  obtain ⟨y, hy⟩ := yield_loads (d := ed) (fun w hw => hpe _ w hw _ rfl)
  obtain ⟨a, hph⟩ := phase_loads (F := F) (d := ed) (fun w hw => hps w ((under_map ed _).trans hw))
  obtain ⟨r, hr⟩ := absorption_loads h2 h3 (o := some ta) (by simpa using hua) (histOf d)
  obtain ⟨D, hD⟩ := usable_dist hue (histOf d)
  have hhas : has d "emission" = true := by simp [has, he]
  unfold parseLuminophore
  rw [show (Yaml.map d).dict = .ok d from rfl]
  dsimp only
  rw [item_iff.2 ((under_map d _).trans ha)]
  dsimp only
  rw [show (Yaml.map ad).dict = .ok ad from rfl]
  dsimp only
  rw [show optDict d "emission" = .ok ed by unfold optDict; rw [he]; rfl]
  dsimp only
  rw [hph]
  dsimp only
  rw [hy]
  dsimp only
  rw [dget_iff.2 hla]
  dsimp only
  rw [hta]
  dsimp only
  rw [if_pos hhas, dget_iff.2 hle]
  dsimp only
  rw [hte]
  dsimp only
  rw [h1, hr]
  dsimp only
  rw [hD]
  exact ⟨_, rfl⟩

theorem component_one {d : List (String × Yaml α)} (h : Schema.component (.map d) = true) :
    (has d "scatterer" = true → has d "absorber" = false) ∧
    (has d "luminophore" = true → has d "absorber" = false ∧ has d "scatterer" = false) := by
  simp only [Schema.component, Schema.both, Bool.and_eq_true, Schema.oneOf, decide_eq_true_eq,
    Schema.required, List.all_cons, List.all_nil, Bool.and_true, List.filter_cons, List.filter_nil] at h
  have h := h.2
  generalize has d "luminophore" = b1 at h ⊢
  generalize has d "scatterer" = b2 at h ⊢
  generalize has d "absorber" = b3 at h ⊢
  cases b1 <;> cases b2 <;> cases b3 <;> simp_all

theorem lookup_of_has {β : Type} {d : List (String × β)} {k : String} (h : has d k = false) : d.lookup k = none := by
  simpa [has] using h

theorem component_loads [IsStrictOrderedRing α] {F : Files α} {k : String} {v : Yaml α}
    (hs : Schema.component v = true) (h : ComponentReady F v) : ∃ c, parseComponent F k v = .ok c := by
  have hs' := hs
  simp only [Schema.component, Schema.both, Bool.and_eq_true] at hs
  obtain ⟨d, rfl, -, hp⟩ := object_spec hs.1
  obtain ⟨hone1, hone2⟩ := component_one hs'
  unfold parseComponent
  rw [show (Yaml.map d).dict = .ok d from rfl]
  dsimp only
  cases h with
  | absorber hv hc hsp =>
    rw [under_map] at hv
    rw [hv]
    exact absorber_loads (hp _ _ hv _ rfl) hc hsp
  | scatterer hv hc hsp hph =>
    rw [under_map] at hv
    have := lookup_of_has (hone1 (by simp [has, hv]))
    rw [this, hv]
    exact scatterer_loads (hp _ _ hv _ rfl) hc hsp hph
  | luminophore hv ha he hc hsa hse hps =>
    rw [under_map] at hv
    have h1 := lookup_of_has (hone2 (by simp [has, hv])).1
    have h2 := lookup_of_has (hone2 (by simp [has, hv])).2
    rw [h1, h2, hv]
    exact luminophore_loads (hp _ _ hv _ rfl) ha he hc hsa hse hps

theorem components_load [IsStrictOrderedRing α] {F : Files α} {l : List (String × Yaml α)}
    (hs : ∀ e ∈ l, Schema.component e.2 = true) (h : ∀ e ∈ l, ComponentReady F e.2) :
    ∃ cs, parseComponents F l = .ok cs ∧ cs.map (·.1) = l.map (·.1) := by
  induction l with
  | nil => exact ⟨[], rfl, rfl⟩
  | cons e l ih =>
    obtain ⟨k, v⟩ := e
    obtain ⟨c, hc⟩ := component_loads (k := k) (hs (k, v) (by simp)) (h (k, v) (by simp))
    obtain ⟨cs, hcs, hk⟩ := ih (fun e he => hs e (by simp [he])) (fun e he => h e (by simp [he]))
    refine ⟨(k, c) :: cs, ?_, by simp [hk]⟩
    unfold parseComponents
    dsimp only at hc
    rw [hc]
    dsimp only
    rw [hcs]

/-! ### Lights -/

theorem values_args {v : Yaml α} {l : List α} (h : values? v = some l) : args v = .ok l := args_iff.2 h

theorem position_loads {v : Yaml α} (hs : Schema.positionMask v = true)
    (hr : ∀ r, under ["rect"] v = some r → ∃ x y, values? r = some [x, y])
    (hc : ∀ r, under ["cube"] v = some r → ∃ x y z, values? r = some [x, y, z]) :
    ∃ a, parsePosition v = .ok a := by
  simp only [Schema.positionMask, Schema.both, Bool.and_eq_true] at hs
  obtain ⟨d, rfl, -, hp⟩ := object_spec hs.1
  unfold parsePosition
  rw [isIn_map, isIn_map, isIn_map]
  cases h1 : has d "rect" with
  | true =>
    dsimp only
    obtain ⟨w, hw⟩ := Option.isSome_iff_exists.1 h1
    have hw' := (under_map d "rect").trans hw
    obtain ⟨x, y, hv⟩ := hr w hw'
    rw [item_iff.2 hw']
    dsimp only
    rw [values_args hv]
    exact ⟨_, rfl⟩
  | false =>
    cases h2 : has d "cube" with
    | true =>
      dsimp only
      obtain ⟨w, hw⟩ := Option.isSome_iff_exists.1 h2
      have hw' := (under_map d "cube").trans hw
      obtain ⟨x, y, z, hv⟩ := hc w hw'
      rw [item_iff.2 hw']
      dsimp only
      rw [values_args hv]
      exact ⟨_, rfl⟩
    | false =>
      cases h3 : has d "circle" with
      | true =>
        dsimp only
        obtain ⟨w, hw⟩ := Option.isSome_iff_exists.1 h3
        obtain ⟨q, hq⟩ := number_value (hp _ w hw _ rfl)
        rw [item_iff.2 ((under_map d "circle").trans hw)]
        dsimp only
        rw [number_iff.2 hq]
        exact ⟨_, rfl⟩
      | false =>
        exfalso
        have := hs.2
        simp [Schema.oneOf, Schema.required, h1, h2, h3] at this

theorem wavelength_loads [IsStrictOrderedRing α] {F : Files α} {v : Yaml α} (hs : Schema.wavelengthMask v = true)
    (hr : ∀ sp, under ["spectrum"] v = some sp → SpectrumReady F false sp) :
    ∃ a, parseWavelength F v = .ok a := by
  simp only [Schema.wavelengthMask, Schema.both, Bool.and_eq_true] at hs
  obtain ⟨d, rfl, -, hp⟩ := object_spec hs.1
  unfold parseWavelength
  rw [isIn_map, isIn_map]
  cases h1 : has d "nanometers" with
  | true =>
    dsimp only
    obtain ⟨w, hw⟩ := Option.isSome_iff_exists.1 h1
    obtain ⟨q, hq⟩ := number_value (hp _ w hw _ rfl)
    have : float? F w = some q := by
      cases w <;> simp [value?] at hq <;> simp [float?, value?, hq]
    rw [item_iff.2 ((under_map d _).trans hw)]
    dsimp only
    rw [asFloat_iff.2 this]
    exact ⟨_, rfl⟩
  | false =>
    cases h2 : has d "spectrum" with
    | true =>
      dsimp only
      obtain ⟨w, hw⟩ := Option.isSome_iff_exists.1 h2
      have hw' := (under_map d "spectrum").trans hw
      obtain ⟨t, ht, hu⟩ := spectrum_loads (hp _ w hw _ rfl) (hr w hw')
      obtain ⟨D, hD⟩ := usable_dist hu false
      rw [item_iff.2 hw']
      dsimp only
      rw [ht]
      dsimp only
      rw [hD]
      exact ⟨_, rfl⟩
    | false =>
      exfalso
      have := hs.2
      simp [Schema.oneOf, Schema.required, h1, h2] at this

/-- A choice between something that is no mapping and a mask. -/
theorem mask_of_oneOf {p q : Schema.Check α} {d : List (String × Yaml α)} (h : Schema.oneOf [p, q] (.map d) = true)
    (hp : p (.map d) = false) : q (.map d) = true := by
  obtain ⟨r, hr, ht⟩ := oneOf_exists h
  simp only [List.mem_cons, List.not_mem_nil, or_false] at hr
  rcases hr with rfl | rfl
  · rw [hp] at ht; cases ht
  · exact ht

theorem maskPart_loads {β : Type} {f : Yaml α → Except DErr β} {m : List (String × Yaml α)} {key : String}
    (h : ∀ w, m.lookup key = some w → truth w = true → ∃ b, f w = .ok b) :
    ∃ o, maskPart f m key = .ok o := by
  unfold maskPart
  cases hl : m.lookup key with
  | none => exact ⟨_, rfl⟩
  | some w =>
    dsimp only
    cases ht : truth w with
    | false => rw [if_neg (by simp)]; exact ⟨_, rfl⟩
    | true =>
      obtain ⟨b, hb⟩ := h w hl ht
      rw [if_pos rfl, hb]
      exact ⟨_, rfl⟩

theorem part_of {d md : List (String × Yaml α)} {key : String} {w : Yaml α} (hm : d.lookup "mask" = some (.map md))
    (hw : md.lookup key = some w) (ht : truth w = true) : part key (.map d) = some w := by
  unfold part
  rw [under_cons_some ((under_map d "mask").trans hm), under_map, hw]
  simp [ht]

theorem light_loads [IsStrictOrderedRing α] {F : Files α} {k : String} {v : Yaml α}
    (hs : Schema.object [("wavelength", Schema.number), ("mask", Schema.mask)] [] false v = true)
    (hr : LightReady F v) : ∃ l, parseLight F k v = .ok l := by
  obtain ⟨d, rfl, -, hp⟩ := object_spec hs
  obtain ⟨w, hw⟩ : ∃ w, defaultColour d = .ok w := by
    unfold defaultColour
    cases hl : d.lookup "wavelength" with
    | none => exact ⟨_, rfl⟩
    | some v =>
      obtain ⟨q, hq⟩ := number_value (hp _ v hl _ rfl)
      cases v <;> simp [value?] at hq
      all_goals exact ⟨_, rfl⟩
  unfold parseLight
  rw [show (Yaml.map d).dict = .ok d from rfl]
  dsimp only
  rw [hw]
  dsimp only
  cases hm : d.lookup "mask" with
  | none => exact ⟨_, rfl⟩
  | some m =>
    dsimp only
    obtain ⟨md, rfl, -, hpm⟩ := object_spec (hp _ m hm _ rfl)
    obtain ⟨o1, h1⟩ := maskPart_loads (f := parseWavelength F) (m := md) (key := "wavelength") (by
      intro w hw ht
      obtain ⟨⟨wd, rfl⟩, hsp⟩ := hr.wavelength w (part_of hm hw ht)
      exact wavelength_loads (mask_of_oneOf (hpm _ _ hw _ rfl) rfl) hsp)
    obtain ⟨o2, h2⟩ := maskPart_loads (f := parsePosition) (m := md) (key := "position") (by
      intro w hw ht
      obtain ⟨⟨wd, rfl⟩, hr1, hr2⟩ := hr.position w (part_of hm hw ht)
      exact position_loads (mask_of_oneOf (hpm _ _ hw _ rfl) rfl) hr1 hr2)
    obtain ⟨o3, h3⟩ := maskPart_loads (f := parseDirection F) (m := md) (key := "direction") (by
      intro w hw ht
      obtain ⟨⟨wd, rfl⟩, hr1⟩ := hr.direction w (part_of hm hw ht)
      exact direction_loads (mask_of_oneOf (hpm _ _ hw _ rfl) rfl) hr1)
    rw [show (Yaml.map md).dict = .ok md from rfl]
    dsimp only
    rw [h1, h2, h3]
    dsimp only
    split
    · exact ⟨_, rfl⟩
    · exact ⟨_, rfl⟩

/-! ### Nodes -/

theorem pick_loads {comps : List (String × CompDef α)} {l : List String} (h : ∀ n ∈ l, n ∈ comps.map (·.1)) :
    ∃ cs, pickComponents comps (l.map .str) = .ok cs := by
  induction l with
  | nil => exact ⟨[], rfl⟩
  | cons n l ih =>
    obtain ⟨cs, hcs⟩ := ih (fun m hm => h m (by simp [hm]))
    have : comps.lookup n ≠ none := fun hn => lookup_none.1 hn (h n (by simp))
    obtain ⟨c, hc⟩ := Option.ne_none_iff_exists'.1 this
    rw [List.map_cons]
    unfold pickComponents
    dsimp only
    rw [hc]
    dsimp only
    rw [hcs]
    exact ⟨_, rfl⟩

theorem material_loads {comps : List (String × CompDef α)} {v : Yaml α} (hs : Schema.material v = true)
    (hn : ∀ l : List (Yaml α), under ["components"] v = some (.seq l) → ∀ n, Yaml.str n ∈ l → n ∈ comps.map (·.1)) :
    ∃ m, parseMaterial comps v = .ok m := by
  obtain ⟨d, rfl, hreq, hp⟩ := object_spec hs
  obtain ⟨w, hw⟩ := hreq "refractive-index" (by simp)
  obtain ⟨q, hq, -⟩ := atLeast_value (hp _ w hw _ rfl)
  obtain ⟨keys, cs, hk, hcs⟩ : ∃ keys cs, componentKeys d = .ok keys ∧ pickComponents comps keys = .ok cs := by
    unfold componentKeys
    cases hl : d.lookup "components" with
    | none => exact ⟨[], [], rfl, rfl⟩
    | some l =>
      obtain ⟨names, rfl⟩ := array_strings (hp _ l hl _ rfl)
      obtain ⟨cs, hcs⟩ := pick_loads (comps := comps) (l := names) (fun n hm =>
        hn _ ((under_map d _).trans hl) n (List.mem_map_of_mem hm))
      exact ⟨_, cs, rfl, hcs⟩
  unfold parseMaterial
  rw [show (Yaml.map d).dict = .ok d from rfl]
  dsimp only
  rw [hk]
  dsimp only
  rw [hcs]
  dsimp only
  rw [dget_iff.2 hw]
  dsimp only
  rw [number_iff.2 hq]
  exact ⟨_, rfl⟩

theorem geometry_loads {F : Files α} {comps : List (String × CompDef α)} {kind : String}
    {d : List (String × Yaml α)} {s : ShapeDef α} (hsh : parseShape F kind d = .ok s) {m : Yaml α}
    (hm : d.lookup "material" = some m) (hs : Schema.material m = true)
    (hn : ∀ l : List (Yaml α), under ["components"] m = some (.seq l) → ∀ n, Yaml.str n ∈ l → n ∈ comps.map (·.1)) :
    ∃ c, parseGeometry F comps kind (.map d) = .ok c := by
  obtain ⟨mat, hmat⟩ := material_loads hs hn
  unfold parseGeometry
  rw [show (Yaml.map d).dict = .ok d from rfl]
  dsimp only
  rw [hsh]
  dsimp only
  rw [dget_iff.2 hm]
  dsimp only
  rw [hmat]
  exact ⟨_, rfl⟩

theorem content_loads [IsStrictOrderedRing α] {F : Files α} {comps : List (String × CompDef α)} {k : String}
    {d : List (String × Yaml α)} (hs : Schema.node (.map d) = true)
    (hr : NodeReady F (comps.map (·.1)) (.map d)) : ∃ c, parseContent F comps k d = .ok c := by
  simp only [Schema.node, Schema.both, Bool.and_eq_true] at hs
  obtain ⟨d', hd, -, hp⟩ := object_spec hs.1
  injection hd with hd
  subst hd
  have hnames : ∀ kind (g : List (String × Yaml α)) m, d.lookup kind = some (.map g) → g.lookup "material" = some m →
      ∀ l : List (Yaml α), under ["components"] m = some (.seq l) → ∀ n, Yaml.str n ∈ l → n ∈ comps.map (·.1) := by
    intro kind g m hk hm l hl n hn
    refine hr.names kind l ?_ n hn
    rw [under_cons_some ((under_map d kind).trans hk), under_cons_some ((under_map g _).trans hm)]
    exact hl
  unfold parseContent
  cases hf : ["box", "cylinder", "sphere", "mesh"].find? (has d) with
  | some kind =>
    dsimp only
    have hkind : has d kind = true := List.find?_some hf
    have hmem := List.mem_of_find?_eq_some hf
    obtain ⟨w, hw⟩ := Option.isSome_iff_exists.1 hkind
    rw [dget_iff.2 hw]
    dsimp only
    simp only [List.mem_cons, List.not_mem_nil, or_false] at hmem
    rcases hmem with rfl | rfl | rfl | rfl
    · obtain ⟨g, rfl, hreq, hpg⟩ := object_spec (hp _ w hw _ rfl)
      obtain ⟨sz, hsz⟩ := hreq "size" (by simp)
      obtain ⟨m, hm⟩ := hreq "material" (by simp)
      obtain ⟨x, y, z, hv⟩ := hr.size sz (by
        rw [under_cons_some ((under_map d _).trans hw)]; exact (under_map g _).trans hsz)
      refine geometry_loads (s := .box ⟨x, y, z⟩) ?_ hm (hpg _ m hm _ rfl) (hnames _ g m hw hm)
      unfold parseShape
      rw [if_pos rfl, dget_iff.2 hsz]
      dsimp only
      rw [(triple_iff (u := ⟨x, y, z⟩)).2 hv]
    · obtain ⟨g, rfl, hreq, hpg⟩ := object_spec (hp _ w hw _ rfl)
      obtain ⟨wl, hl⟩ := hreq "length" (by simp)
      obtain ⟨wr, hrr⟩ := hreq "radius" (by simp)
      obtain ⟨m, hm⟩ := hreq "material" (by simp)
      obtain ⟨ql, hql, -⟩ := atLeast_value (hpg _ wl hl _ rfl)
      obtain ⟨qr, hqr, -⟩ := atLeast_value (hpg _ wr hrr _ rfl)
      refine geometry_loads (s := .cylinder ql qr) ?_ hm (hpg _ m hm _ rfl) (hnames _ g m hw hm)
      unfold parseShape
      rw [if_neg (by decide), if_pos rfl, dget_iff.2 hl, dget_iff.2 hrr]
      dsimp only
      rw [number_iff.2 hql, number_iff.2 hqr]
    · obtain ⟨g, rfl, hreq, hpg⟩ := object_spec (hp _ w hw _ rfl)
      obtain ⟨wr, hrr⟩ := hreq "radius" (by simp)
      obtain ⟨m, hm⟩ := hreq "material" (by simp)
      obtain ⟨qr, hqr, -⟩ := atLeast_value (hpg _ wr hrr _ rfl)
      refine geometry_loads (s := .sphere qr) ?_ hm (hpg _ m hm _ rfl) (hnames _ g m hw hm)
      unfold parseShape
      rw [if_neg (by decide), if_neg (by decide), if_pos rfl, dget_iff.2 hrr]
      dsimp only
      rw [number_iff.2 hqr]
    · obtain ⟨g, rfl, hreq, hpg⟩ := object_spec (hp _ w hw _ rfl)
      obtain ⟨wf, hff⟩ := hreq "file" (by simp)
      obtain ⟨m, hm⟩ := hreq "material" (by simp)
      obtain ⟨f, rfl⟩ := string_value (hpg _ wf hff _ rfl)
      have hmesh := hr.mesh f (by
        rw [under_cons_some ((under_map d _).trans hw)]; exact (under_map g _).trans hff)
      refine geometry_loads (s := .mesh f) ?_ hm (hpg _ m hm _ rfl) (hnames _ g m hw hm)
      unfold parseShape
      rw [if_neg (by decide), if_neg (by decide), if_neg (by decide), dget_iff.2 hff]
      dsimp only
      rw [show (Yaml.str f : Yaml α).string = .ok f from rfl]
      dsimp only
      rw [hmesh]
  | none =>
    dsimp only
    have hno := List.find?_eq_none.1 hf
    cases hl : d.lookup "light" with
    | some w =>
      dsimp only
      obtain ⟨l, hl'⟩ := light_loads (k := k) (hp _ w hl _ rfl) (hr.light w ((under_map d _).trans hl))
      rw [hl']
      exact ⟨_, rfl⟩
    | none =>
      exfalso
      have h1 := hno "box" (by simp)
      have h2 := hno "cylinder" (by simp)
      have h3 := hno "sphere" (by simp)
      have h4 := hno "mesh" (by simp)
      have := hs.2
      have h5 : has d "light" = false := by simp [has, hl]
      simp [Schema.oneOf, Schema.required, h1, h2, h3, h4, h5] at this

theorem nodes_load [IsStrictOrderedRing α] {F : Files α} {comps : List (String × CompDef α)}
    {l : List (String × Yaml α)} (hs : ∀ e ∈ l, Schema.node e.2 = true)
    (hr : ∀ e ∈ l, NodeReady F (comps.map (·.1)) e.2) :
    ∃ ps, parseNodes F comps l = .ok ps ∧ List.Forall₂ (fun (e : String × Yaml α) p => p.1 = e.1 ∧ e.2 = .map p.2.1) l ps := by
  induction l with
  | nil => exact ⟨[], rfl, .nil⟩
  | cons e l ih =>
    obtain ⟨k, v⟩ := e
    have hv := hs (k, v) (by simp)
    have hrv := hr (k, v) (by simp)
    dsimp only at hv hrv
    obtain ⟨ps, hps, hf⟩ := ih (fun e he => hs e (by simp [he])) (fun e he => hr e (by simp [he]))
    have hv' := hv
    simp only [Schema.node, Schema.both, Bool.and_eq_true] at hv'
    obtain ⟨d, rfl, -⟩ := object_spec hv'.1
    obtain ⟨c, hc⟩ := content_loads (k := k) hv hrv
    refine ⟨(k, d, c) :: ps, ?_, .cons ⟨rfl, rfl⟩ hf⟩
    unfold parseNodes
    rw [show (Yaml.map d).dict = .ok d from rfl]
    dsimp only
    rw [hc]
    dsimp only
    rw [hps]

theorem optTriple_loads {d : List (String × Yaml α)} {key : String} (h : VectorReady (.map d) key) :
    ∃ o, optTriple d key = .ok o := by
  unfold optTriple
  unfold VectorReady at h
  rw [under_map] at h
  cases hl : d.lookup key with
  | none => exact ⟨_, rfl⟩
  | some v =>
    rw [hl] at h
    dsimp only
    rcases h with h | ⟨x, y, z, h⟩
    · cases h
    · rw [(triple_iff (u := ⟨x, y, z⟩)).2 h]
      split <;> exact ⟨_, rfl⟩

theorem rank_climb {rank : String → ℕ} {parents : List (String × String)}
    (h : ∀ e ∈ parents, rank e.2 < rank e.1) {fuel : ℕ} {n x : String} (hx : x ∈ climb parents fuel n) :
    rank x ≤ rank n := by
  induction fuel generalizing n with
  | zero => simp [climb] at hx; rw [hx]
  | succ f ih =>
    unfold climb at hx
    cases hl : parents.lookup n with
    | none => rw [hl] at hx; simp at hx; rw [hx]
    | some p =>
      rw [hl] at hx
      rcases List.mem_cons.1 hx with rfl | hx
      · exact le_rfl
      · have h1 := h _ (lookup_mem hl)
        have h2 := ih hx
        dsimp only at h1
        omega

theorem place_loads {names : List String} {rank : String → ℕ} {l : List (String × Yaml α)}
    {ps : List (String × List (String × Yaml α) × Content α)} {parents : List (String × String)}
    (hw : "world" ∈ names) (hf : List.Forall₂ (fun (e : String × Yaml α) p => p.1 = e.1 ∧ e.2 = .map p.2.1) l ps)
    (hs : ∀ e ∈ l, Schema.node e.2 = true) (hl : ∀ e ∈ l, VectorReady e.2 "location")
    (hd : ∀ e ∈ l, VectorReady e.2 "direction")
    (ht : ∀ e ∈ l, ∀ p, Spec.parentOf e = some p → p ∈ names ∧ rank p < rank e.1)
    (hp : ∀ e ∈ parents, rank e.2 < rank e.1) : ∃ ns, placeNodes names parents ps = .ok ns := by
  induction hf generalizing parents with
  | nil => exact ⟨[], rfl⟩
  | cons hr hf ih =>
    rename_i e p l ps
    obtain ⟨k, v⟩ := e
    obtain ⟨k', d, c⟩ := p
    obtain ⟨h1, h2⟩ := hr
    dsimp only at h1 h2
    subst h1 h2
    have hv := hs (k', .map d) (by simp)
    simp only [Schema.node, Schema.both, Bool.and_eq_true] at hv
    obtain ⟨d', hd', -, hpr⟩ := object_spec hv.1
    injection hd' with hd'
    subst hd'
    have hpar : Doc.parentOf names k' d = .ok (Spec.parentOf (k', Yaml.map d)) := by
      unfold Doc.parentOf Spec.parentOf
      dsimp only
      by_cases hk : k' = "world"
      · rw [if_pos hk, if_pos hk]
      · rw [if_neg hk, if_neg hk, under_map]
        have ht' := ht (k', .map d) (by simp)
        unfold Spec.parentOf at ht'
        dsimp only at ht'
        rw [if_neg hk, under_map] at ht'
        cases hpl : d.lookup "parent" with
        | none => dsimp only; rw [if_pos hw]
        | some w =>
          obtain ⟨q, hq, hqt⟩ := oneOf_exists (hpr _ w hpl _ rfl)
          simp only [List.mem_cons, List.not_mem_nil, or_false] at hq
          rcases hq with rfl | rfl
          · obtain ⟨s, rfl⟩ := string_value hqt
            dsimp only
            rw [show (Yaml.str s : Yaml α).string = .ok s from rfl]
            dsimp only
            rw [hpl] at ht'
            rw [if_pos (ht' s rfl).1]
          · cases w <;> simp [Schema.null] at hqt
            dsimp only
            rw [if_pos hw]
    obtain ⟨parents', hat, hp'⟩ : ∃ parents', attach parents k' (Spec.parentOf (k', Yaml.map d)) = .ok parents' ∧
        ∀ e ∈ parents', rank e.2 < rank e.1 := by
      cases hq : Spec.parentOf (k', Yaml.map d) with
      | none => exact ⟨parents, rfl, hp⟩
      | some q =>
        have hlt := (ht (k', .map d) (by simp) q hq).2
        dsimp only at hlt
        unfold attach
        dsimp only
        rw [if_neg (fun hx => by have := rank_climb hp hx; omega)]
        refine ⟨_, rfl, fun e he => ?_⟩
        rcases List.mem_cons.1 he with rfl | he
        · exact hlt
        · exact hp e he
    obtain ⟨loc, hloc⟩ := optTriple_loads (hl (k', .map d) (by simp))
    obtain ⟨dir, hdir⟩ := optTriple_loads (hd (k', .map d) (by simp))
    obtain ⟨ns, hns⟩ := ih (parents := parents') (fun e he => hs e (by simp [he])) (fun e he => hl e (by simp [he]))
      (fun e he => hd e (by simp [he])) (fun e he => ht e (by simp [he])) hp'
    unfold placeNodes
    rw [hpar]
    dsimp only
    rw [hat]
    dsimp only
    rw [hloc]
    dsimp only
    rw [hdir]
    dsimp only
    rw [hns]
    exact ⟨_, rfl⟩

end PV.SceneFile
