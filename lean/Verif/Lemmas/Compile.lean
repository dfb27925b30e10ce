import Verif.Spec.Compile
import Verif.Lemmas.KernelHom
import Verif.Props.Dist

namespace PV.Compile
noncomputable section
open Spec
set_option linter.unusedSectionVars false

/-- Row `row` of the component table describes `c`, and the spectra it points to are in the tables. -/
structure RowOf (st : CState) (c : PyComp) (row : List ℝ) : Prop where
  row : ∃ ctype pt a k e m : ℕ, ∃ pp : ℝ,
    kindTag c.comp.kind = .ok ctype ∧ phaseTag c.comp.phase = .ok (pt, pp) ∧
    row = [(ctype : ℝ), c.comp.qy, (truthy c.comp.tauRad).getD 0, (truthy c.comp.tauNr).getD 0,
      (pt : ℝ), pp, (a : ℝ), (k : ℝ), (e : ℝ), (m : ℝ)] ∧
    a + k ≤ st.absX.length ∧ e + m ≤ st.emsX.length ∧
    (∃ D, compileDist c.comp.absDist = some D ∧ D.n = k ∧
      ∀ i < k, st.absX[a + i]? = some (D.x i) ∧ st.absY[a + i]? = some (D.y i)) ∧
    (c.comp.kind = .luminophore → ∃ D, compileDist c.comp.emsDist = some D ∧ D.n = m ∧
      ∀ i < m, st.emsX[e + i]? = some (D.x i) ∧ st.emsCdf[e + i]? = some (D.cdf i))

/-- The tables only grow. -/
structure Ext (a b : CState) : Prop where
  rows : a.rows <+: b.rows
  absX : a.absX <+: b.absX
  absY : a.absY <+: b.absY
  emsX : a.emsX <+: b.emsX
  emsCdf : a.emsCdf <+: b.emsCdf
  names : a.names <+: b.names

theorem Ext.refl (a : CState) : Ext a a :=
  ⟨List.prefix_rfl, List.prefix_rfl, List.prefix_rfl, List.prefix_rfl, List.prefix_rfl,
    List.prefix_rfl⟩

theorem Ext.trans {a b c : CState} (h : Ext a b) (k : Ext b c) : Ext a c :=
  ⟨h.rows.trans k.rows, h.absX.trans k.absX, h.absY.trans k.absY, h.emsX.trans k.emsX,
    h.emsCdf.trans k.emsCdf, h.names.trans k.names⟩

theorem get_prefix {β : Type} {a b : List β} (h : a <+: b) {i : ℕ} {x : β} (hx : a[i]? = some x) :
    b[i]? = some x := by
  obtain ⟨t, rfl⟩ := h
  have : i < a.length := (List.getElem?_eq_some_iff.1 hx).1
  rw [List.getElem?_append_left this, hx]

theorem RowOf.ext {a b : CState} (h : Ext a b) {c : PyComp} {row : List ℝ} (hr : RowOf a c row) :
    RowOf b c row := by
  obtain ⟨ctype, pt, s, k, e, m, pp, h1, h2, h3, l1, l2, ⟨D, hD, hn, hx⟩, h5⟩ := hr.row
  refine ⟨ctype, pt, s, k, e, m, pp, h1, h2, h3, l1.trans h.absX.length_le,
    l2.trans h.emsX.length_le, ⟨D, hD, hn, fun i hi => ?_⟩, fun hl => ?_⟩
  · exact ⟨get_prefix h.absX (hx i hi).1, get_prefix h.absY (hx i hi).2⟩
  · obtain ⟨D, hD, hn, hx⟩ := h5 hl
    exact ⟨D, hD, hn, fun i hi =>
      ⟨get_prefix h.emsX (hx i hi).1, get_prefix h.emsCdf (hx i hi).2⟩⟩

/-- Columns of a spectrum have equal length. -/
def Even (st : CState) : Prop :=
  st.absX.length = st.absY.length ∧ st.emsX.length = st.emsCdf.length ∧
    st.names.length = st.rows.length

theorem column_get (f : ℕ → ℝ) {n i : ℕ} (h : i < n) : (column f n)[i]? = some (f i) := by
  simp [column, h]

theorem column_length (f : ℕ → ℝ) (n : ℕ) : (column f n).length = n := by simp [column]

theorem append_get {l : List ℝ} {k : List ℝ} {i : ℕ} : (l ++ k)[l.length + i]? = k[i]? := by
  rw [List.getElem?_append_right (by omega)]
  congr 1
  omega

theorem compileComp_spec {st st' : CState} {c : PyComp} (he : Even st)
    (h : compileComp st c = .ok st') :
    Ext st st' ∧ Even st' ∧ ∃ row, st'.rows = st.rows ++ [row] ∧
      st'.names = st.names ++ [c.comp.name] ∧ RowOf st' c row := by
  unfold compileComp at h
  cases hk : kindTag c.comp.kind with
  | error _ => rw [hk] at h; cases h
  | ok ctype =>
    rw [hk] at h
    cases hp : phaseTag c.comp.phase with
    | error _ => rw [hp] at h; cases h
    | ok pt =>
      obtain ⟨pt, pp⟩ := pt
      rw [hp] at h
      dsimp only at h
      cases ha : appendDist c st.absX.length with
      | error _ => rw [ha] at h; cases h
      | ok A =>
        obtain ⟨astart, an, ax, ay⟩ := A
        rw [ha] at h
        dsimp only at h
        cases hm : appendEmission c st.emsX.length with
        | error _ => rw [hm] at h; cases h
        | ok E =>
          obtain ⟨estart, en, ex, ec⟩ := E
          rw [hm] at h
          dsimp only at h
          cases h
          have hA : astart = st.absX.length ∧ ax.length = an ∧ ay.length = an ∧
              ∃ D, compileDist c.comp.absDist = some D ∧ D.n = an ∧
                ∀ i < an, ax[i]? = some (D.x i) ∧ ay[i]? = some (D.y i) := by
            unfold appendDist at ha
            by_cases hdist : c.hasDist = true
            swap
            · simp [hdist] at ha
            rw [if_neg (not_not.2 hdist)] at ha
            cases hd : c.comp.absDist with
            | const y =>
              rw [hd] at ha
              dsimp only at ha
              split_ifs at ha
              cases ha
              refine ⟨rfl, rfl, rfl, _, rfl, rfl, fun i hi => ?_⟩
              have : i = 0 := by omega
              subst this
              exact ⟨rfl, rfl⟩
            | table T hist =>
              rw [hd] at ha
              dsimp only at ha
              split_ifs at ha with hh
              cases ha
              refine ⟨rfl, column_length _ _, column_length _ _, T, ?_, rfl, fun i hi =>
                ⟨column_get _ hi, column_get _ hi⟩⟩
              simp [compileDist, hh]
          have hE : ex.length = en ∧ ec.length = en ∧ estart + en ≤ st.emsX.length + ex.length ∧
              (c.comp.kind = .luminophore → estart = st.emsX.length ∧
                ∃ D, compileDist c.comp.emsDist = some D ∧ D.n = en ∧
                ∀ i < en, ex[i]? = some (D.x i) ∧ ec[i]? = some (D.cdf i)) := by
            unfold appendEmission at hm
            split_ifs at hm with hl
            · cases hd : c.comp.emsDist with
              | const y => rw [hd] at hm; cases hm
              | table T hist =>
                rw [hd] at hm
                dsimp only at hm
                split_ifs at hm with hh
                cases hm
                refine ⟨column_length _ _, column_length _ _, by simp [column_length], fun _ => ⟨rfl, T, ?_, rfl, fun i hi =>
                  ⟨column_get _ hi, column_get _ hi⟩⟩⟩
                simp [compileDist, hh]
            · cases hm
              exact ⟨rfl, rfl, by simp, fun h => absurd h hl⟩
          obtain ⟨rfl, lax, lay, DA, hDA, hnA, hxA⟩ := hA
          obtain ⟨lex, lec, hle, hE⟩ := hE
          refine ⟨⟨List.prefix_append _ _, List.prefix_append _ _, List.prefix_append _ _,
            List.prefix_append _ _, List.prefix_append _ _, List.prefix_append _ _⟩,
            ⟨?_, ?_, ?_⟩, _, rfl, rfl, ⟨ctype, pt, _, an, estart, en, pp, hk, hp, rfl,
              by simp [lax], by simpa using hle, ⟨DA, hDA, hnA, fun i hi => ⟨?_, ?_⟩⟩, fun hl => ?_⟩⟩
          · simp [lax, lay, he.1]
          · simp [lex, lec, he.2.1]
          · simp [he.2.2]
          · rw [append_get]; exact (hxA i hi).1
          · rw [he.1, append_get]; exact (hxA i hi).2
          · obtain ⟨rfl, D, hD, hn, hx⟩ := hE hl
            refine ⟨D, hD, hn, fun i hi => ⟨?_, ?_⟩⟩
            · rw [append_get]; exact (hx i hi).1
            · rw [he.2.1, append_get]; exact (hx i hi).2

theorem compileComps_spec : ∀ (cs : List PyComp) {st st' : CState}, Even st →
    compileComps st cs = .ok st' →
    Ext st st' ∧ Even st' ∧ st'.rows.length = st.rows.length + cs.length ∧
      st'.names = st.names ++ cs.map (·.comp.name) ∧
      ∀ j c, cs[j]? = some c → ∃ row, st'.rows[st.rows.length + j]? = some row ∧ RowOf st' c row := by
  intro cs
  induction cs with
  | nil =>
    intro st st' he h
    cases h
    exact ⟨Ext.refl _, he, rfl, by simp, by simp⟩
  | cons c cs ih =>
    intro st st' he h
    unfold compileComps at h
    cases h1 : compileComp st c with
    | error _ => rw [h1] at h; cases h
    | ok st1 =>
      rw [h1] at h
      dsimp only at h
      obtain ⟨x1, e1, row, hr, hn, hrow⟩ := compileComp_spec he h1
      obtain ⟨x2, e2, hl, hn2, hj⟩ := ih e1 h
      refine ⟨x1.trans x2, e2, ?_, ?_, fun j d hd => ?_⟩
      · rw [hl, hr]; simp; omega
      · rw [hn2, hn]; simp
      · cases j with
        | zero =>
          simp only [List.getElem?_cons_zero, Option.some.injEq] at hd
          subst hd
          refine ⟨row, get_prefix x2.rows ?_, hrow.ext x2⟩
          rw [hr]; simp
        | succ j =>
          rw [List.getElem?_cons_succ] at hd
          obtain ⟨row', h', hr'⟩ := hj j d hd
          refine ⟨row', ?_, hr'⟩
          rw [← h', hr]
          congr 1
          simp; omega

/-- Numbers in `geom_params`. -/
def paramsOf : Geom → List ℝ
  | .box s => [s.x, s.y, s.z, 0]
  | .sphere r => [r, 0, 0, 0]
  | .cylinder l r => [l, r, 0, 0]

def typeOf : Geom → ℕ
  | .box _ => 0
  | .sphere _ => 1
  | .cylinder _ _ => 2

def surfOf : SurfaceKind → ℕ
  | .fresnel => 0
  | .null => 1

/-- The node tables of a list of objects, starting with `start` component rows. -/
def startsOf : ℕ → List LNode → List ℕ
  | _, [] => []
  | s, o :: os => s :: startsOf (s + o.comps.length) os

theorem compileNode_spec {st st' : NState × CState} {name : String} {l2w : Affine ℝ} {g : PyGeom}
    (h : compileNode st name l2w g = .ok st') :
    ∃ o m, objectOf (name, l2w, g) = some o ∧ g.material = some m ∧ rigidTest l2w ∧
      o.comps = m.comps.map (·.comp) ∧ compileComps st.2 m.comps = .ok st'.2 ∧
      st'.1 = { names := st.1.names ++ [o.name]
                geomType := st.1.geomType ++ [typeOf o.geom]
                geomParams := st.1.geomParams ++ paramsOf o.geom
                l2w := st.1.l2w ++ o.l2w.flat
                w2l := st.1.w2l ++ o.w2l.flat
                nidx := st.1.nidx ++ [o.index]
                surf := st.1.surf ++ [surfOf o.surface]
                compStart := st.1.compStart ++ [st.2.rows.length]
                compCount := st.1.compCount ++ [o.comps.length] } := by
  unfold compileNode at h
  cases hg : compileGeometry g.shape with
  | error _ => rw [hg] at h; cases h
  | ok G =>
    obtain ⟨gt, ps⟩ := G
    rw [hg] at h
    dsimp only at h
    split_ifs at h with hr
    cases hm : g.material with
    | none => rw [hm] at h; cases h
    | some m =>
      rw [hm] at h
      dsimp only at h
      cases hs : surfaceTag m.delegate with
      | error _ => rw [hs] at h; cases h
      | ok tag =>
        rw [hs] at h
        dsimp only at h
        cases hc : compileComps st.2 m.comps with
        | error _ => rw [hc] at h; cases h
        | ok cst =>
          rw [hc] at h
          dsimp only at h
          cases h
          cases hsh : g.shape with
          | other => rw [hsh] at hg; cases hg
          | known geom =>
            rw [hsh] at hg
            have hgt : gt = typeOf geom ∧ ps = paramsOf geom := by
              cases geom <;> (cases hg; exact ⟨rfl, rfl⟩)
            obtain ⟨rfl, rfl⟩ := hgt
            have hrig : rigidTest l2w := by
              by_contra hx; exact absurd hx (by simpa using hr)
            cases hd : m.delegate with
            | custom => rw [hd] at hs; cases hs
            | fresnel =>
              rw [hd] at hs
              cases hs
              refine ⟨⟨name, geom, l2w, l2w.inv, m.index, .fresnel, m.comps.map (·.comp)⟩, m, ?_, rfl,
                hrig, rfl, hc, ?_⟩
              · simp [objectOf, hsh, hm, hd]
              · simp [surfOf]
            | null =>
              rw [hd] at hs
              cases hs
              refine ⟨⟨name, geom, l2w, l2w.inv, m.index, .null, m.comps.map (·.comp)⟩, m, ?_, rfl,
                hrig, rfl, hc, ?_⟩
              · simp [objectOf, hsh, hm, hd]
              · simp [surfOf]

/-- The list of all component objects of a list of nodes. -/
def pyComps (xs : List (String × Affine ℝ × PyGeom)) : List PyComp :=
  xs.flatMap fun x => match x.2.2.material with
    | none => []
    | some m => m.comps

theorem compileNodes_spec : ∀ (xs : List (String × Affine ℝ × PyGeom)) {st st' : NState × CState},
    Even st.2 → compileNodes st xs = .ok st' →
    ∃ os : List LNode, xs.map objectOf = os.map some ∧ (∀ x ∈ xs, rigidTest x.2.1) ∧
      (pyComps xs).map (·.comp) = os.flatMap (·.comps) ∧
      Ext st.2 st'.2 ∧ Even st'.2 ∧
      st'.2.rows.length = st.2.rows.length + (pyComps xs).length ∧
      st'.2.names = st.2.names ++ (pyComps xs).map (·.comp.name) ∧
      (∀ j c, (pyComps xs)[j]? = some c →
        ∃ row, st'.2.rows[st.2.rows.length + j]? = some row ∧ RowOf st'.2 c row) ∧
      st'.1.names = st.1.names ++ os.map (·.name) ∧
      st'.1.geomType = st.1.geomType ++ os.map (fun o => typeOf o.geom) ∧
      st'.1.geomParams = st.1.geomParams ++ os.flatMap (fun o => paramsOf o.geom) ∧
      st'.1.l2w = st.1.l2w ++ os.flatMap (fun o => o.l2w.flat) ∧
      st'.1.w2l = st.1.w2l ++ os.flatMap (fun o => o.w2l.flat) ∧
      st'.1.nidx = st.1.nidx ++ os.map (·.index) ∧
      st'.1.surf = st.1.surf ++ os.map (fun o => surfOf o.surface) ∧
      st'.1.compStart = st.1.compStart ++ startsOf st.2.rows.length os ∧
      st'.1.compCount = st.1.compCount ++ os.map (fun o => o.comps.length) := by
  intro xs
  induction xs with
  | nil =>
    intro st st' he h
    cases h
    exact ⟨[], rfl, by simp, rfl, Ext.refl _, he, rfl, by simp [pyComps], by simp [pyComps], by simp,
      by simp, by simp, by simp, by simp, by simp, by simp, by simp [startsOf], by simp⟩
  | cons x xs ih =>
    intro st st' he h
    obtain ⟨name, l2w, g⟩ := x
    unfold compileNodes at h
    cases h1 : compileNode st name l2w g with
    | error _ => rw [h1] at h; cases h
    | ok st1 =>
      rw [h1] at h
      dsimp only at h
      obtain ⟨o, m, ho, hm, hrig, hcs, hc, hst⟩ := compileNode_spec h1
      obtain ⟨x1, e1, hl1, hn1, hj1⟩ := compileComps_spec _ he hc
      obtain ⟨os, h2, h3, h4, h5, h6, h7, h8, h9, g1, g2, g3, g4, g5, g6, g7, g8, g9⟩ := ih e1 h
      have hpc : pyComps ((name, l2w, g) :: xs) = m.comps ++ pyComps xs := by
        simp [pyComps, hm]
      refine ⟨o :: os, ?_, ?_, ?_, x1.trans h5, h6, ?_, ?_, ?_, ?_, ?_, ?_, ?_, ?_, ?_, ?_, ?_, ?_⟩
      · simp [ho, h2]
      · intro y hy
        rcases List.mem_cons.1 hy with rfl | hy
        · exact hrig
        · exact h3 y hy
      · rw [hpc]; simp [h4, hcs]
      · rw [h7, hl1, hpc]; simp; omega
      · rw [h8, hn1, hpc]; simp
      · intro j c hjc
        rw [hpc] at hjc
        by_cases hlt : j < m.comps.length
        · rw [List.getElem?_append_left hlt] at hjc
          obtain ⟨row, hr, hrow⟩ := hj1 j c hjc
          exact ⟨row, get_prefix h5.rows hr, hrow.ext h5⟩
        · rw [List.getElem?_append_right (by omega)] at hjc
          obtain ⟨row, hr, hrow⟩ := h9 _ c hjc
          refine ⟨row, ?_, hrow⟩
          rw [← hr, hl1]
          congr 1
          omega
      · rw [g1, hst]; simp
      · rw [g2, hst]; simp
      · rw [g3, hst]; simp
      · rw [g4, hst]; simp
      · rw [g5, hst]; simp
      · rw [g6, hst]; simp
      · rw [g7, hst]; simp
      · rw [g8, hst, hl1]
        have : m.comps.length = o.comps.length := by rw [hcs]; simp
        simp [startsOf, this]
      · rw [g9, hst]; simp

end
end PV.Compile
