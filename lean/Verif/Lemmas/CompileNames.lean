import Verif.Lemmas.CompileReads
import Verif.Lemmas.Material
import Verif.Spec.Agreement
import Verif.Spec.EventLog

namespace PV.Compile
noncomputable section
open Spec
set_option linter.unusedSectionVars false
variable {σ : Type} {n : ℕ}

/-- The object behind component row `j`. -/
def compAt (cs : List PyComp) (j : ℕ) : Comp := ((cs[j]?).map (·.comp)).getD noComp

theorem describes_nodes {scene : List PyNode} {S : LScene n} {os : List LNode}
    (hd : Describes scene S) (ho : (geometryNodes scene).map objectOf = os.map some) :
    os = (List.finRange (n + 1)).map S.node := by
  have h : os.map some = ((List.finRange (n + 1)).map S.node).map some := by
    rw [← ho, hd, List.map_map]; rfl
  exact List.map_injective_iff.2 (Option.some_injective _) h

theorem node_get {S : LScene n} {os : List LNode} (h : os = (List.finRange (n + 1)).map S.node)
    (v : Fin (n + 1)) : os[v.1]? = some (S.node v) := by
  subst h
  rw [List.getElem?_map, List.getElem?_eq_getElem (by simp; omega)]
  simp

theorem map_getD {β γ : Type} {f : β → γ} {l : List β} {i : ℕ} {x : β} (h : l[i]? = some x) (d : γ) :
    (l.map f).getD i d = f x := by
  rw [List.getD_eq_getElem?_getD, List.getElem?_map, h]; rfl

section
variable {T : Tables} {os : List LNode} {cs : List PyComp} {S : LScene n} (L : Linked T os cs)
  (hos : os = (List.finRange (n + 1)).map S.node)

theorem getD_flat (f : LNode → List ℝ) (m : ℕ) (hf : ∀ o, (f o).length = m)
    (hos : os = (List.finRange (n + 1)).map S.node) (v : Fin (n + 1)) (k : ℕ) (hk : k < m) :
    (os.flatMap f).getD (v.1 * m + k) 0 = (f (S.node v)).getD k 0 := by
  rw [List.getD_eq_getElem?_getD, List.getD_eq_getElem?_getD,
    flat_get f m hf os v.1 _ (node_get hos v) k hk]

include L hos

theorem linked_index (v : Fin (n + 1)) : T.index v.1 = (S.node v).index := by
  unfold Tables.index
  rw [L.nidx]
  exact map_getD (node_get hos v) 0

theorem linked_geom (v : Fin (n + 1)) : T.geom v.1 = (S.node v).geom := by
  unfold Tables.geom
  have ht : T.nodes.geomType.getD v.1 0 = typeOf (S.node v).geom := by
    rw [L.geomType]; exact map_getD (f := fun o : LNode => typeOf o.geom) (node_get hos v) 0
  have hp : ∀ k < 4, T.nodes.geomParams.getD (v.1 * 4 + k) 0 = (paramsOf (S.node v).geom).getD k 0 := by
    intro k hk
    rw [L.geomParams]
    exact getD_flat (fun o => paramsOf o.geom) 4 (fun o => params_length _) hos v k hk
  dsimp only
  rw [ht, hp 0 (by omega), hp 1 (by omega), hp 2 (by omega)]
  cases (S.node v).geom <;> simp [typeOf, paramsOf]

theorem linked_fresnel (v : Fin (n + 1)) :
    T.isFresnel v.1 = decide ((S.node v).surface = .fresnel) := by
  unfold Tables.isFresnel
  have ht : T.nodes.surf.getD v.1 0 = surfOf (S.node v).surface := by
    rw [L.surf]; exact map_getD (f := fun o : LNode => surfOf o.surface) (node_get hos v) 0
  rw [ht]
  cases (S.node v).surface <;> rfl

omit L in
theorem read_vec (m : LNode → Affine ℝ) (v : Fin (n + 1)) (x : Vec3 ℝ) :
    Tables.readVec (os.flatMap fun o => (m o).flat) v.1 x = (m (S.node v)).vec x := by
  have h := fun k hk => getD_flat (fun o => (m o).flat) 16 (fun o => flat16 _) hos v k hk
  unfold Tables.readVec
  dsimp only
  simp only [h _ (show 0 * 4 < 16 by omega), h _ (show 0 * 4 + 1 < 16 by omega),
    h _ (show 0 * 4 + 2 < 16 by omega), h _ (show 1 * 4 < 16 by omega),
    h _ (show 1 * 4 + 1 < 16 by omega), h _ (show 1 * 4 + 2 < 16 by omega),
    h _ (show 2 * 4 < 16 by omega), h _ (show 2 * 4 + 1 < 16 by omega),
    h _ (show 2 * 4 + 2 < 16 by omega)]
  rfl

omit L in
theorem read_point (m : LNode → Affine ℝ) (v : Fin (n + 1)) (x : Vec3 ℝ) :
    Tables.readPoint (os.flatMap fun o => (m o).flat) v.1 x = (m (S.node v)).point x := by
  have h := fun k hk => getD_flat (fun o => (m o).flat) 16 (fun o => flat16 _) hos v k hk
  unfold Tables.readPoint
  dsimp only
  simp only [h _ (show 0 * 4 < 16 by omega), h _ (show 0 * 4 + 1 < 16 by omega),
    h _ (show 0 * 4 + 2 < 16 by omega), h _ (show 1 * 4 < 16 by omega),
    h _ (show 1 * 4 + 1 < 16 by omega), h _ (show 1 * 4 + 2 < 16 by omega),
    h _ (show 2 * 4 < 16 by omega), h _ (show 2 * 4 + 1 < 16 by omega),
    h _ (show 2 * 4 + 2 < 16 by omega), h _ (show 0 * 4 + 3 < 16 by omega),
    h _ (show 1 * 4 + 3 < 16 by omega), h _ (show 2 * 4 + 3 < 16 by omega)]
  rfl

theorem linked_w2l_point (v : Fin (n + 1)) (p : Vec3 ℝ) :
    Tables.readPoint T.nodes.w2l v.1 p = (S.node v).w2l.point p := by
  rw [L.w2l]; exact read_point hos (·.w2l) v p

theorem linked_w2l_vec (v : Fin (n + 1)) (p : Vec3 ℝ) :
    Tables.readVec T.nodes.w2l v.1 p = (S.node v).w2l.vec p := by
  rw [L.w2l]; exact read_vec hos (·.w2l) v p

theorem linked_l2w_vec (v : Fin (n + 1)) (p : Vec3 ℝ) :
    Tables.readVec T.nodes.l2w v.1 p = (S.node v).l2w.vec p := by
  rw [L.l2w]; exact read_vec hos (·.l2w) v p

/-- First row of the components of a node. -/
theorem linked_start (v : Fin (n + 1)) :
    ∀ k < (S.node v).comps.length, ∃ c, cs[T.nodes.compStart.getD v.1 0 + k]? = some c ∧
      (S.node v).comps[k]? = some c.comp := by
  obtain ⟨a, h1, h2, h3⟩ := starts_get os 0 v.1 _ (node_get hos v)
  have hs : T.nodes.compStart.getD v.1 0 = a := by
    rw [L.compStart, List.getD_eq_getElem?_getD, h1]; simp
  intro k hk
  rw [hs]
  have h := h3 k hk
  rw [← L.comps, List.getElem?_map] at h
  cases hc : cs[a + k]? with
  | none =>
    rw [hc] at h
    have : (S.node v).comps[k]? = none := h.symm
    rw [List.getElem?_eq_none_iff] at this
    omega
  | some c => rw [hc] at h; exact ⟨c, rfl, h.symm⟩

theorem linked_count (v : Fin (n + 1)) :
    T.nodes.compCount.getD v.1 0 = (S.node v).comps.length := by
  rw [L.compCount]; exact map_getD (f := fun o : LNode => o.comps.length) (node_get hos v) 0

end

/-- The tables of the components are not empty. -/
def Filled (cs : List PyComp) : Prop :=
  ∀ c ∈ cs, (∀ D h, c.comp.absDist = .table D h → 1 ≤ D.n) ∧
    (c.comp.kind = .luminophore → ∃ D h, c.comp.emsDist = .table D h ∧ 1 ≤ D.n)

theorem built_filled {scene : List PyNode} (h : Built scene) :
    Filled (pyComps (geometryNodes scene)) := by
  intro c hc
  unfold pyComps at hc
  rw [List.mem_flatMap] at hc
  obtain ⟨x, hx, hm⟩ := hc
  cases hg : x.2.2.material with
  | none => rw [hg] at hm; cases hm
  | some m => rw [hg] at hm; exact h x hx m hg c hm

theorem compileDist_pos {d : Dist ℝ} {D : Table ℝ} (h : compileDist d = some D)
    (ht : ∀ D h, d = .table D h → 1 ≤ D.n) : 1 ≤ D.n := by
  cases d with
  | const y => cases h; exact le_refl 1
  | table E hist =>
    unfold compileDist at h
    cases hist
    · cases h; exact ht _ _ rfl
    · simp at h

theorem slice_reads {l : List ℝ} {a : ℕ} {f : ℕ → ℝ} {k : ℕ} (h : ∀ i < k, l[a + i]? = some (f i)) :
    ∀ i < k, Tables.slice l a i = reads f k i := by
  intro i hi
  unfold Tables.slice reads
  rw [h i hi, if_pos hi]

theorem row_coefficient {T : Tables} {j : ℕ} {c : PyComp} (hr : CompRow T j c.comp)
    (hf : ∀ D h, c.comp.absDist = .table D h → 1 ≤ D.n) (w : ℝ) :
    T.coefficient j w = c.comp.kCoef w := by
  obtain ⟨D, hD, hn, hx⟩ := hr.absorption
  unfold Tables.coefficient Comp.kCoef
  rw [hD, hn]
  show _ = (kCoefficient D w).getD 0
  unfold kCoefficient
  rw [kInterp_congr (compileDist_pos hD hf) (slice_reads fun i hi => (hx i hi).1)
    (slice_reads fun i hi => (hx i hi).2)]

theorem row_emission {T : Tables} {j : ℕ} {c : PyComp} (hr : CompRow T j c.comp)
    (hl : c.comp.kind = .luminophore) (hf : ∃ D h, c.comp.emsDist = .table D h ∧ 1 ≤ D.n)
    (method : EmitMethod) (w u : ℝ) :
    T.emission method j w u =
      (((compileDist c.comp.emsDist).bind fun T => kEmitWavelength T method w u).getD 0) := by
  obtain ⟨D, hD, hn, hx⟩ := hr.emission hl
  have hpos : 1 ≤ D.n := compileDist_pos hD fun E h he => by
    obtain ⟨E', h', he', h1⟩ := hf
    rw [he'] at he; cases he; exact h1
  unfold Tables.emission
  rw [hD, hn]
  show _ = (kEmitWavelength D method w u).getD 0
  unfold kEmitWavelength
  dsimp only
  rw [kInterp_congr hpos (slice_reads fun i hi => (hx i hi).1) (slice_reads fun i hi => (hx i hi).2)]
  congr 1
  congr 1
  funext p
  exact kInterp_congr hpos (slice_reads fun i hi => (hx i hi).2) (slice_reads fun i hi => (hx i hi).1) _

theorem linked_coefficients {T : Tables} {os : List LNode} {cs : List PyComp} {S : LScene n}
    (L : Linked T os cs) (hos : os = (List.finRange (n + 1)).map S.node) (hf : Filled cs)
    (v : Fin (n + 1)) (w : ℝ) : T.coefficients v.1 w = (S.node v).kCoefs w := by
  unfold Tables.coefficients LNode.kCoefs
  rw [linked_count L hos v]
  apply List.ext_getElem?
  intro k
  rw [List.getElem?_map, List.getElem?_map]
  by_cases hk : k < (S.node v).comps.length
  · obtain ⟨c, h1, h2⟩ := linked_start L hos v k hk
    rw [List.getElem?_range hk, h2]
    simp only [Option.map_some]
    rw [row_coefficient (L.row h1) (hf c (List.mem_of_getElem? h1)).1]
  · rw [List.getElem?_eq_none (by simpa using hk), List.getElem?_eq_none (by simpa using hk)]
    rfl

theorem kPick_lt {cs : List ℝ} (u : ℝ) (h : cs ≠ []) : kPick cs u < cs.length := by
  unfold kPick
  cases hp : kPickFrom (u * cs.sum) 0 0 cs with
  | none => simpa using List.length_pos_iff.2 h
  | some i =>
    obtain ⟨_, h2, _⟩ := (kPickFrom_spec _ cs 0 0).1 i hp
    simpa using h2

/-- The tables are the scene, with nodes and components called by their rows. -/
theorem linked_names {T : Tables} {os : List LNode} {cs : List PyComp} {S : LScene n}
    (L : Linked T os cs) (hos : os = (List.finRange (n + 1)).map S.node) (hf : Filled cs)
    (R : Rand σ) (method : EmitMethod) :
    (T.ops R method).Names (kOps S R method) Fin.val (compAt cs) (· < cs.length) := by
  have hrow : ∀ j, j < cs.length → ∃ c, cs[j]? = some c ∧ compAt cs j = c.comp ∧
      CompRow T j c.comp := by
    intro j hj
    refine ⟨cs[j], List.getElem?_eq_getElem hj, ?_, L.row (List.getElem?_eq_getElem hj)⟩
    simp [compAt, hj]
  have hlen : T.nodes.geomType.length = n + 1 := by rw [L.geomType, hos]; simp
  have hrange : List.range (n + 1) = (List.finRange (n + 1)).map Fin.val := by
    apply List.ext_getElem? ; intro i
    by_cases hi : i < n + 1
    · simp [hi]
    · simp [hi]
  refine
    { inj := Fin.val_injective
      root := rfl
      nextHit := ?_
      nidx := fun v => linked_index L hos v
      depth := ?_
      pick := ?_
      kind := ?_
      yields := ?_
      phase := ?_
      emission := ?_
      radDelay := ?_
      nrDelay := ?_
      localPos := fun v p => linked_w2l_point L hos v p
      normal := ?_
      acos := fun x => rfl
      reflects := ?_
      reflectDir := fun d m => rfl
      transmitDir := ?_ }
  · intro o d
    show kNextHit (List.range T.nodes.geomType.length) _ = _
    rw [hlen, hrange, kNextHit_map Fin.val_injective]
    congr 2
    funext v
    simp only [Function.comp, linked_geom L hos, linked_w2l_point L hos, linked_w2l_vec L hos]
  · intro v w s
    show kDepth R (T.coefficients v.1 w).sum s = kDepth R ((S.node v).kCoefs w).sum s
    rw [linked_coefficients L hos hf]
  · intro v w s₀ d s hd
    have hne : (S.node v).kCoefs w ≠ [] := by
      intro h0
      change (kDepth R ((S.node v).kCoefs w).sum s₀).1 = some d at hd
      rw [h0] at hd
      unfold kDepth at hd
      rw [if_neg (by norm_num)] at hd
      cases hd
    have hlt := kPick_lt (R.next s).1 hne
    have hlt' : kPick ((S.node v).kCoefs w) (R.next s).1 < (S.node v).comps.length := by
      simpa [LNode.kCoefs] using hlt
    obtain ⟨c, h1, h2⟩ := linked_start L hos v _ hlt'
    have hp : (T.ops R method).pick v.1 w s = (T.nodes.compStart.getD v.1 0 +
        kPick ((S.node v).kCoefs w) (R.next s).1, (R.next s).2) := by
      show (_, _) = _
      rw [← linked_coefficients L hos hf]
    have hq : (kOps S R method).pick v w s =
        (((S.node v).comps[kPick ((S.node v).kCoefs w) (R.next s).1]?).getD noComp, (R.next s).2) :=
      rfl
    rw [hp, hq, h2]
    refine ⟨(List.getElem?_eq_some_iff.1 h1).1, ?_⟩
    show _ = (compAt cs _, _)
    unfold compAt
    rw [h1]
    rfl
  · intro j hj
    obtain ⟨c, h1, h2, h3⟩ := hrow j hj
    rw [h2]; exact h3.kind
  · intro j s hj
    obtain ⟨c, h1, h2, h3⟩ := hrow j hj
    show (decide ((R.next s).1 < T.qy.getD j 0), (R.next s).2) =
      (decide ((R.next s).1 < (compAt cs j).qy), (R.next s).2)
    rw [h2, h3.qy]
  · intro j s hj
    obtain ⟨c, h1, h2, h3⟩ := hrow j hj
    show kSamplePhase R (T.phase j) (T.phaseParam.getD j 0) s =
      kSamplePhase R ((compAt cs j).phase.tag.getD (.isotropic, 0)).1
        ((compAt cs j).phase.tag.getD (.isotropic, 0)).2 s
    rw [h2, h3.phase, h3.param]
  · intro j w s hj hl
    obtain ⟨c, h1, h2, h3⟩ := hrow j hj
    have hl' : c.comp.kind = .luminophore := by rw [← h3.kind]; exact hl
    show (T.emission method j w (R.next s).1, (R.next s).2) =
      (((compileDist (compAt cs j).emsDist).bind fun T =>
        kEmitWavelength T method w (R.next s).1).getD 0, (R.next s).2)
    rw [h2, row_emission h3 hl' ((hf c (List.mem_of_getElem? h1)).2 hl')]
  · intro j s hj
    obtain ⟨c, h1, h2, h3⟩ := hrow j hj
    show Tables.delay R (T.tauRad.getD j 0) s = kDelay R (compAt cs j).tauRad s
    rw [h2, h3.tauRad]; rfl
  · intro j s hj
    obtain ⟨c, h1, h2, h3⟩ := hrow j hj
    show Tables.delay R (T.tauNr.getD j 0) s = kDelay R (compAt cs j).tauNr s
    rw [h2, h3.tauNr]; rfl
  · intro v p
    show Tables.readVec T.nodes.l2w v.1 (kNormal (T.geom v.1) (Tables.readPoint T.nodes.w2l v.1 p)) =
      (S.node v).l2w.vec (kNormal (S.node v).geom ((S.node v).w2l.point p))
    rw [linked_l2w_vec L hos, linked_geom L hos, linked_w2l_point L hos]
  · intro h c a m d s
    show (let r := if T.isFresnel h.1 then kReflectivity m d (T.index c.1) (T.index a.1) else some 0
      ((kIsReflected r (R.next s).1).1, if (kIsReflected r (R.next s).1).2 then (R.next s).2 else s))
      = S.kReflects R h c a m d s
    unfold LScene.kReflects
    rw [linked_fresnel L hos, linked_index L hos, linked_index L hos]
    cases (S.node h).surface <;> simp
  · intro h c a m d
    show (if T.isFresnel h.1 then (kTransmit m d (T.index c.1) (T.index a.1)).getD d else d) =
      (match (S.node h).surface with
        | .null => d
        | .fresnel => (kTransmit m d (S.node c).index (S.node a).index).getD d)
    rw [linked_fresnel L hos, linked_index L hos, linked_index L hos]
    cases (S.node h).surface <;> simp

end
end PV.Compile
