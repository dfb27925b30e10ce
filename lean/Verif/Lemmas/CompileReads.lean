import Verif.Lemmas.Compile
import Mathlib.Data.List.FinRange

namespace PV.Compile
noncomputable section
open Spec
set_option linter.unusedSectionVars false
variable {σ : Type}

/-! ### Interpolation reads only inside the table -/

theorem kBisect_congr {xs xs' : ℕ → Option ℝ} {n : ℕ} (h : ∀ i < n, xs i = xs' i) (x : ℝ) :
    ∀ fuel lo hi, lo ≤ hi → hi < n → kBisect xs x fuel lo hi = kBisect xs' x fuel lo hi ∧
      ∀ a b, kBisect xs x fuel lo hi = some (a, b) → a < n ∧ b < n := by
  intro fuel
  induction fuel with
  | zero => intro lo hi _ _; exact ⟨rfl, fun a b h => by cases h⟩
  | succ f ih =>
    intro lo hi hlh hn
    unfold kBisect
    by_cases hc : hi - lo > 1
    · simp only [if_pos hc]
      have hm : (lo + hi) / 2 < n := by omega
      rw [← h _ hm]
      cases xs ((lo + hi) / 2) with
      | none => exact ⟨rfl, fun a b h => by cases h⟩
      | some m =>
        dsimp only
        split_ifs
        · exact ih _ _ (by omega) hn
        · exact ih _ _ (by omega) (by omega)
    · simp only [if_neg hc]
      refine ⟨trivial, fun a b hab => ?_⟩
      cases hab
      exact ⟨by omega, hn⟩

theorem kInterp_congr {xs xs' ys ys' : ℕ → Option ℝ} {n : ℕ} (hn : 1 ≤ n)
    (hx : ∀ i < n, xs i = xs' i) (hy : ∀ i < n, ys i = ys' i) (x : ℝ) :
    kInterp x xs ys n = kInterp x xs' ys' n := by
  unfold kInterp
  rw [← hx 0 (by omega), ← hx (n - 1) (by omega), ← hy 0 (by omega), ← hy (n - 1) (by omega)]
  obtain ⟨hb, hr⟩ := kBisect_congr hx x n 0 (n - 1) (by omega) (by omega)
  rw [← hb]
  cases hk : kBisect xs x n 0 (n - 1) with
  | none => rfl
  | some p =>
    obtain ⟨a, b⟩ := p
    obtain ⟨ha, hb'⟩ := hr a b hk
    simp only [← hx a ha, ← hx b hb', ← hy a ha, ← hy b hb']

/-! ### Renaming nodes in the search for the next interface -/

variable {ν ν' : Type} {α : Type} [LinearOrder α]

def _root_.PV.KHit.mapN (e : ν' → ν) (h : KHit ν' α) : KHit ν α := ⟨e h.node, h.t⟩

theorem kHits_map (e : ν' → ν) (l : List ν') (ts : ν → List α) :
    kHits (l.map e) ts = (kHits l (ts ∘ e)).map (KHit.mapN e) := by
  simp [kHits, List.flatMap_map, List.map_flatMap, KHit.mapN, Function.comp_def]

theorem kFirst_map (e : ν' → ν) (x : KHit ν' α) (l : List (KHit ν' α)) :
    kFirst (x.mapN e) (l.map (KHit.mapN e)) = ((kFirst x l).1.mapN e, (kFirst x l).2) := by
  unfold kFirst
  rw [List.zipIdx_map, List.foldl_map]
  exact List.foldl_hom (fun b : KHit ν' α × ℕ => (b.1.mapN e, b.2)) (by
    intro b y
    by_cases h : y.1.t < b.1.t
    · simp [KHit.mapN, Prod.map, h]
    · simp [KHit.mapN, Prod.map, h]) (init := (x, 0))

theorem kSecond_map (e : ν' → ν) (i : ℕ) (l : List (KHit ν' α)) :
    kSecond i (l.map (KHit.mapN e)) = (kSecond i l).map (KHit.mapN e) := by
  unfold kSecond
  rw [List.zipIdx_map, List.foldl_map]
  exact List.foldl_hom (Option.map (KHit.mapN e)) (by
    intro b y
    by_cases hi : y.2 = i
    · simp [Prod.map, hi]
    cases b with
    | none => simp [Prod.map, hi]
    | some b =>
      by_cases h : y.1.t < b.t
      · simp [KHit.mapN, Prod.map, hi, h]
      · simp [KHit.mapN, Prod.map, hi, h]) (init := none)

theorem kContainer_map (e : ν' → ν) (l : List ν') (ts : ν → List α) :
    kContainer (l.map e) ts = (kContainer l (ts ∘ e)).map (KHit.mapN e) := by
  unfold kContainer
  rw [List.foldl_map]
  exact List.foldl_hom (Option.map (KHit.mapN e)) (by
    intro b y
    simp only [Function.comp]
    split_ifs
    · cases kMinT (ts (e y)) with
      | none => rfl
      | some m =>
        cases b with
        | none => rfl
        | some b =>
          by_cases h : m < b.t
          · simp [KHit.mapN, h]
          · simp [KHit.mapN, h]
    · rfl) (init := none)

theorem kNextHit_map [DecidableEq ν] [DecidableEq ν'] {e : ν' → ν} (he : Function.Injective e)
    (l : List ν') (ts : ν → List α) :
    kNextHit (l.map e) ts =
      (kNextHit l (ts ∘ e)).map fun x => (e x.1, e x.2.1, x.2.2.1.map e, x.2.2.2) := by
  unfold kNextHit
  rw [kHits_map]
  cases kHits l (ts ∘ e) with
  | nil => rfl
  | cons x xs =>
    simp only [List.map_cons]
    rw [kFirst_map]
    cases xs with
    | nil => rfl
    | cons y ys =>
      simp only [List.map_cons, Option.map_some]
      rw [← List.map_cons, ← List.map_cons, kSecond_map, kContainer_map]
      cases kContainer l (ts ∘ e) with
      | none =>
        simp only [Option.map_none, KHit.mapN, if_true, Option.map_map, Function.comp_def]
      | some c =>
        simp only [Option.map_some, KHit.mapN, he.eq_iff, Option.map_map, Function.comp_def]
        split_ifs <;> simp [Option.map_map, Function.comp_def]

/-! ### Rows of fixed width -/

theorem flat_get {β : Type} (f : β → List ℝ) (m : ℕ) (hf : ∀ o, (f o).length = m) :
    ∀ (os : List β) (i : ℕ) (o : β), os[i]? = some o → ∀ k < m,
      (os.flatMap f)[i * m + k]? = (f o)[k]? := by
  intro os
  induction os with
  | nil => intro i o h; simp at h
  | cons a os ih =>
    intro i o h k hk
    rw [List.flatMap_cons]
    cases i with
    | zero =>
      simp only [List.getElem?_cons_zero, Option.some.injEq] at h
      subst h
      rw [List.getElem?_append_left (by rw [hf]; omega)]
      congr 1
      omega
    | succ i =>
      rw [List.getElem?_cons_succ] at h
      rw [List.getElem?_append_right (by rw [hf]; nlinarith), ← ih i o h k hk, hf]
      congr 1
      have : (i + 1) * m = i * m + m := by ring
      omega

theorem flat_length {β : Type} (f : β → List ℝ) (m : ℕ) (hf : ∀ o, (f o).length = m)
    (os : List β) : (os.flatMap f).length = os.length * m := by
  induction os with
  | nil => simp
  | cons a os ih => simp [ih, hf, Nat.add_mul]; ring

theorem params_length (g : Geom) : (paramsOf g).length = 4 := by cases g <;> rfl

theorem flat16 (m : Affine ℝ) : m.flat.length = 16 := rfl

/-! ### Component rows of a node -/

theorem startsOf_length (s : ℕ) (os : List LNode) : (startsOf s os).length = os.length := by
  induction os generalizing s with
  | nil => rfl
  | cons a os ih => simp [startsOf, ih]

/-- Row `startsOf[i] + k` is component `k` of node `i`. -/
theorem starts_get : ∀ (os : List LNode) (s i : ℕ) (o : LNode), os[i]? = some o →
    ∃ a, (startsOf s os)[i]? = some (s + a) ∧ a + o.comps.length ≤ (os.flatMap (·.comps)).length ∧
      ∀ k < o.comps.length, (os.flatMap (·.comps))[a + k]? = o.comps[k]? := by
  intro os
  induction os with
  | nil => intro s i o h; simp at h
  | cons x os ih =>
    intro s i o h
    cases i with
    | zero =>
      simp only [List.getElem?_cons_zero, Option.some.injEq] at h
      subst h
      refine ⟨0, rfl, by simp, fun k hk => ?_⟩
      rw [List.flatMap_cons, Nat.zero_add, List.getElem?_append_left hk]
    | succ i =>
      rw [List.getElem?_cons_succ] at h
      obtain ⟨a, h1, h2, h3⟩ := ih (s + x.comps.length) i o h
      refine ⟨x.comps.length + a, ?_, ?_, fun k hk => ?_⟩
      · rw [startsOf, List.getElem?_cons_succ, h1]; congr 1; omega
      · rw [List.flatMap_cons, List.length_append]; omega
      · rw [List.flatMap_cons, List.getElem?_append_right (by omega), ← h3 k hk]
        congr 1
        omega

/-! ### The columns of the compiled scene -/

/-- What `compileScene` leaves in the tables for the nodes `os` with the component objects `cs`. -/
structure Linked (T : Tables) (os : List LNode) (cs : List PyComp) : Prop where
  comps : cs.map (·.comp) = os.flatMap (·.comps)
  names : T.nodes.names = os.map (·.name)
  geomType : T.nodes.geomType = os.map (fun o => typeOf o.geom)
  geomParams : T.nodes.geomParams = os.flatMap (fun o => paramsOf o.geom)
  l2w : T.nodes.l2w = os.flatMap (fun o => o.l2w.flat)
  w2l : T.nodes.w2l = os.flatMap (fun o => o.w2l.flat)
  nidx : T.nodes.nidx = os.map (·.index)
  surf : T.nodes.surf = os.map (fun o => surfOf o.surface)
  compStart : T.nodes.compStart = startsOf 0 os
  compCount : T.nodes.compCount = os.map (fun o => o.comps.length)
  compNames : T.compNames = cs.map (·.comp.name)
  rows : ∃ st : CState, T = mkTables T.nodes st ∧ Even st ∧ st.rows.length = cs.length ∧
    ∀ (j : ℕ) (c : PyComp), cs[j]? = some c → ∃ row, st.rows[j]? = some row ∧ RowOf st c row

theorem compile_linked {scene : List PyNode} {T : Tables} (h : compileScene scene = .ok T) :
    ∃ os, (geometryNodes scene).map objectOf = os.map some ∧
      (∀ x ∈ geometryNodes scene, rigidTest x.2.1) ∧
      Linked T os (pyComps (geometryNodes scene)) := by
  unfold compileScene at h
  split_ifs at h with h1 h2
  cases hc : compileNodes ({}, {}) (geometryNodes scene) with
  | error _ => rw [hc] at h; cases h
  | ok st =>
    obtain ⟨n, c⟩ := st
    rw [hc] at h
    cases h
    obtain ⟨os, h2, h3, h4, h5, h6, h7, h8, h9, g1, g2, g3, g4, g5, g6, g7, g8, g9⟩ :=
      compileNodes_spec _ (st := ({}, {})) ⟨rfl, rfl, rfl⟩ hc
    refine ⟨os, h2, h3, ⟨h4, ?_, ?_, ?_, ?_, ?_, ?_, ?_, ?_, ?_, ?_, c, rfl, h6, ?_, ?_⟩⟩
    · simpa [mkTables] using g1
    · simpa [mkTables] using g2
    · simpa [mkTables] using g3
    · simpa [mkTables] using g4
    · simpa [mkTables] using g5
    · simpa [mkTables] using g6
    · simpa [mkTables] using g7
    · simpa [mkTables] using g8
    · simpa [mkTables] using g9
    · simpa [mkTables] using h8
    · simpa using h7
    · intro j d hd
      simpa using h9 j d hd

/-- The entries of the component columns in one row. -/
structure CompRow (T : Tables) (j : ℕ) (c : Comp) : Prop where
  kind : T.kind j = c.kind
  qy : T.qy.getD j 0 = c.qy
  tauRad : T.tauRad.getD j 0 = c.tauRad.getD 0
  tauNr : T.tauNr.getD j 0 = c.tauNr.getD 0
  phase : T.phase j = (c.phase.tag.getD (.isotropic, 0)).1
  param : T.phaseParam.getD j 0 = (c.phase.tag.getD (.isotropic, 0)).2
  absorption : ∃ D, compileDist c.absDist = some D ∧ T.absN.getD j 0 = D.n ∧
    ∀ i < D.n, T.absX[T.absStart.getD j 0 + i]? = some (D.x i) ∧
      T.absY[T.absStart.getD j 0 + i]? = some (D.y i)
  emission : c.kind = .luminophore → ∃ D, compileDist c.emsDist = some D ∧ T.emsN.getD j 0 = D.n ∧
    ∀ i < D.n, T.emsX[T.emsStart.getD j 0 + i]? = some (D.x i) ∧
      T.emsCdf[T.emsStart.getD j 0 + i]? = some (D.cdf i)
  absFits : T.absStart.getD j 0 + T.absN.getD j 0 ≤ T.absX.length
  emsFits : T.emsStart.getD j 0 + T.emsN.getD j 0 ≤ T.emsX.length

theorem truthy_getD (t : Option ℝ) : (truthy t).getD 0 = t.getD 0 := by
  cases t with
  | none => rfl
  | some t =>
    unfold truthy
    by_cases h : t = 0
    · simp [h]
    · simp [h]

theorem rowInts_get {rows : List (List ℝ)} {j k : ℕ} {row : List ℝ} (h : rows[j]? = some row) (n : ℕ)
    (hr : row.getD k 0 = (n : ℝ)) : (rowInts rows k).getD j 0 = n := by
  unfold rowInts
  rw [List.getD_eq_getElem?_getD, List.getElem?_map, h]
  simp only [Option.map_some, Option.getD_some, hr, Nat.floor_natCast]

theorem rowCol_get {rows : List (List ℝ)} {j k : ℕ} {row : List ℝ} (h : rows[j]? = some row) :
    (rowCol rows k).getD j 0 = row.getD k 0 := by
  unfold rowCol
  rw [List.getD_eq_getElem?_getD, List.getElem?_map, h]
  rfl

theorem Linked.row {T : Tables} {os : List LNode} {cs : List PyComp} (L : Linked T os cs) {j : ℕ}
    {c : PyComp} (hj : cs[j]? = some c) : CompRow T j c.comp := by
  obtain ⟨st, hT, hev, hlen, hrows⟩ := L.rows
  obtain ⟨row, hrow, hr⟩ := hrows j c hj
  obtain ⟨ctype, pt, a, k, e, m, pp, h1, h2, h3, l1, l2, ⟨D, hD, hDn, hDx⟩, h5⟩ := hr.row
  have e6 : T.absStart.getD j 0 = a := by
    rw [hT]; exact rowInts_get hrow a (by rw [h3]; rfl)
  have e7 : T.absN.getD j 0 = k := by
    rw [hT]; exact rowInts_get hrow k (by rw [h3]; rfl)
  have e8 : T.emsStart.getD j 0 = e := by
    rw [hT]; exact rowInts_get hrow e (by rw [h3]; rfl)
  have e9 : T.emsN.getD j 0 = m := by
    rw [hT]; exact rowInts_get hrow m (by rw [h3]; rfl)
  have e0 : T.compType.getD j 0 = ctype := by
    rw [hT]; exact rowInts_get hrow ctype (by rw [h3]; rfl)
  have e4 : T.phaseType.getD j 0 = pt := by
    rw [hT]; exact rowInts_get hrow pt (by rw [h3]; rfl)
  have hph : ∃ t, c.comp.phase.tag = some t ∧ pt = t.1.code ∧ pp = t.2 := by
    unfold phaseTag at h2
    cases ht : c.comp.phase.tag with
    | none => rw [ht] at h2; cases h2
    | some t => rw [ht] at h2; cases h2; exact ⟨t, rfl, rfl, rfl⟩
  obtain ⟨t, ht, hpt, hpp⟩ := hph
  refine ⟨?_, ?_, ?_, ?_, ?_, ?_, ⟨D, hD, by rw [e7, hDn], ?_⟩, fun hl => ?_, ?_, ?_⟩
  · unfold Tables.kind
    rw [e0]
    cases hk : c.comp.kind <;> rw [hk] at h1 <;> cases h1 <;> rfl
  · rw [hT]; exact (rowCol_get hrow).trans (by rw [h3]; rfl)
  · rw [hT, ← truthy_getD]; exact (rowCol_get hrow).trans (by rw [h3]; rfl)
  · rw [hT, ← truthy_getD]; exact (rowCol_get hrow).trans (by rw [h3]; rfl)
  · unfold Tables.phase
    rw [e4, ht, hpt]
    obtain ⟨tag, p⟩ := t
    cases tag <;> rfl
  · rw [ht, hT]; exact (rowCol_get hrow).trans (by rw [h3]; exact hpp)
  · rw [e6, hDn, hT]; exact hDx
  · obtain ⟨E, hE, hEn, hEx⟩ := h5 hl
    refine ⟨E, hE, by rw [e9, hEn], ?_⟩
    rw [e8, hEn, hT]; exact hEx
  · rw [e6, e7, hT]; exact l1
  · rw [e8, e9, hT]; exact l2

end
end PV.Compile
