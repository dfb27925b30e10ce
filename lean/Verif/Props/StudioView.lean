import Verif.Model.StudioView
import Verif.Props.FileScene
import Verif.Spec.Solid
import Mathlib.Tactic.LinearCombination
import Mathlib.Tactic.FieldSimp
import Mathlib.Tactic.Positivity

/-!
C94: the viewport of the studio draws the scene that is traced.
-/

namespace PV.View
open PV PV.Doc PV.Spec PV.Compile

/-! ### Quaternions -/

/-- Orthonormal rows with determinant 1. -/
structure Rot (a b c d e f g h i : ℝ) : Prop where
  aa : a*a + b*b + c*c = 1
  dd : d*d + e*e + f*f = 1
  gg : g*g + h*h + i*i = 1
  ad : a*d + b*e + c*f = 0
  ag : a*g + b*h + c*i = 0
  dg : d*g + e*h + f*i = 0
  det : a*(e*i - f*h) - b*(d*i - f*g) + c*(d*h - e*g) = 1

section
variable {a b c d e f g h i : ℝ} (H : Rot a b c d e f g h i)
include H

theorem Rot.cof : a = e*i - f*h ∧ b = f*g - d*i ∧ c = d*h - e*g ∧ d = c*h - b*i ∧ e = a*i - c*g ∧ f = b*g - a*h ∧
    g = b*f - c*e ∧ h = c*d - a*f ∧ i = a*e - b*d := by
  obtain ⟨aa, dd, gg, ad, ag, dg, det⟩ := H
  refine ⟨?_, ?_, ?_, ?_, ?_, ?_, ?_, ?_, ?_⟩ <;> grind

theorem Rot.trans : Rot a d g b e h c f i := by
  obtain ⟨h1,h2,h3,h4,h5,h6,h7,h8,h9⟩ := H.cof
  obtain ⟨aa, dd, gg, ad, ag, dg, det⟩ := H
  constructor <;> grind

omit H in
/-- The numbers of a rotation given by a quaternion, `Matrix4.compose` with scale 1. -/
def Quat.Gives (q : Quat) (a b c d e f g h i : ℝ) : Prop :=
  1 - (q.y*(q.y+q.y) + q.z*(q.z+q.z)) = a ∧ q.x*(q.y+q.y) - q.w*(q.z+q.z) = b ∧ q.x*(q.z+q.z) + q.w*(q.y+q.y) = c ∧
  q.x*(q.y+q.y) + q.w*(q.z+q.z) = d ∧ 1 - (q.x*(q.x+q.x) + q.z*(q.z+q.z)) = e ∧ q.y*(q.z+q.z) - q.w*(q.x+q.x) = f ∧
  q.x*(q.z+q.z) - q.w*(q.y+q.y) = g ∧ q.y*(q.z+q.z) + q.w*(q.x+q.x) = h ∧ 1 - (q.x*(q.x+q.x) + q.y*(q.y+q.y)) = i

/-- A quaternion whose products are those read off a rotation gives it. -/
theorem Rot.gives0 {q : Quat} {s : ℝ} (hs : s * s = a + e + i + 1) (h0 : s ≠ 0) (hw : q.w = s / 2)
    (hx : q.x = (h - f) / (2 * s)) (hy : q.y = (c - g) / (2 * s)) (hz : q.z = (d - b) / (2 * s)) :
    q.Gives a b c d e f g h i := by
  have T := H.trans
  obtain ⟨h1,h2,h3,h4,h5,h6,h7,h8,h9⟩ := H.cof
  obtain ⟨aa, dd, gg, ad, ag, dg, det⟩ := H
  obtain ⟨aa', dd', gg', ad', ag', dg', det'⟩ := T
  unfold Quat.Gives
  rw [hw, hx, hy, hz]
  refine ⟨?_, ?_, ?_, ?_, ?_, ?_, ?_, ?_, ?_⟩ <;> field_simp <;> grind

theorem Rot.gives1 {q : Quat} {s : ℝ} (hs : s * s = 1 + a - e - i) (h0 : s ≠ 0) (hx : q.x = s / 2)
    (hw : q.w = (h - f) / (2 * s)) (hy : q.y = (b + d) / (2 * s)) (hz : q.z = (c + g) / (2 * s)) :
    q.Gives a b c d e f g h i := by
  have T := H.trans
  obtain ⟨h1,h2,h3,h4,h5,h6,h7,h8,h9⟩ := H.cof
  obtain ⟨aa, dd, gg, ad, ag, dg, det⟩ := H
  obtain ⟨aa', dd', gg', ad', ag', dg', det'⟩ := T
  unfold Quat.Gives
  rw [hw, hx, hy, hz]
  refine ⟨?_, ?_, ?_, ?_, ?_, ?_, ?_, ?_, ?_⟩ <;> field_simp <;> grind

theorem Rot.gives2 {q : Quat} {s : ℝ} (hs : s * s = 1 + e - a - i) (h0 : s ≠ 0) (hy : q.y = s / 2)
    (hw : q.w = (c - g) / (2 * s)) (hx : q.x = (b + d) / (2 * s)) (hz : q.z = (f + h) / (2 * s)) :
    q.Gives a b c d e f g h i := by
  have T := H.trans
  obtain ⟨h1,h2,h3,h4,h5,h6,h7,h8,h9⟩ := H.cof
  obtain ⟨aa, dd, gg, ad, ag, dg, det⟩ := H
  obtain ⟨aa', dd', gg', ad', ag', dg', det'⟩ := T
  unfold Quat.Gives
  rw [hw, hx, hy, hz]
  refine ⟨?_, ?_, ?_, ?_, ?_, ?_, ?_, ?_, ?_⟩ <;> field_simp <;> grind

theorem Rot.gives3 {q : Quat} {s : ℝ} (hs : s * s = 1 + i - a - e) (h0 : s ≠ 0) (hz : q.z = s / 2)
    (hw : q.w = (d - b) / (2 * s)) (hx : q.x = (c + g) / (2 * s)) (hy : q.y = (f + h) / (2 * s)) :
    q.Gives a b c d e f g h i := by
  have T := H.trans
  obtain ⟨h1,h2,h3,h4,h5,h6,h7,h8,h9⟩ := H.cof
  obtain ⟨aa, dd, gg, ad, ag, dg, det⟩ := H
  obtain ⟨aa', dd', gg', ad', ag', dg', det'⟩ := T
  unfold Quat.Gives
  rw [hw, hx, hy, hz]
  refine ⟨?_, ?_, ?_, ?_, ?_, ?_, ?_, ?_, ?_⟩ <;> field_simp <;> grind

/-- The quaternion read off a rotation gives it back. -/
theorem fromRotation_gives : (fromRotation a b c d e f g h i).Gives a b c d e f g h i := by
  unfold fromRotation
  dsimp only
  have sq : ∀ t : ℝ, 0 < t → Real.sqrt t * Real.sqrt t = t ∧ Real.sqrt t ≠ 0 := fun t ht =>
    ⟨Real.mul_self_sqrt ht.le, (Real.sqrt_pos.2 ht).ne'⟩
  split_ifs with h1 h2 h3
  · obtain ⟨e1, e2⟩ := sq (a + e + i + 1) (by linarith)
    refine H.gives0 e1 e2 ?_ ?_ ?_ ?_ <;> dsimp only <;> field_simp <;> norm_num <;> ring
  · obtain ⟨e1, e2⟩ := sq (1 + a - e - i) (by linarith)
    refine H.gives1 e1 e2 ?_ ?_ ?_ ?_ <;> dsimp only <;> ring
  · obtain ⟨e1, e2⟩ := sq (1 + e - a - i) (by
      rcases not_and_or.1 h2 with h2 | h2 <;> linarith)
    refine H.gives2 e1 e2 ?_ ?_ ?_ ?_ <;> dsimp only <;> ring
  · obtain ⟨e1, e2⟩ := sq (1 + i - a - e) (by
      rcases not_and_or.1 h2 with h2 | h2 <;> linarith)
    refine H.gives3 e1 e2 ?_ ?_ ?_ ?_ <;> dsimp only <;> ring
end

/-- The numbers of a matrix in column order. -/
def colMajor (m : Affine ℝ) : List ℝ :=
  [m.r0.x, m.r1.x, m.r2.x, 0, m.r0.y, m.r1.y, m.r2.y, 0, m.r0.z, m.r1.z, m.r2.z, 0, m.t.x, m.t.y, m.t.z, 1]

theorem columns_flat (m : Affine ℝ) : columns m.flat 0 = colMajor m := by
  simp [columns, Affine.flat, colMajor, List.range_succ]

theorem applyMatrix_colMajor (m : Affine ℝ) (p : Vec3 ℝ) : applyMatrix (colMajor m) p = m.point p := by
  simp [applyMatrix, colMajor, Affine.point, Affine.vec, Vec3.dot]
  ext <;> simp

theorem determinant_colMajor (m : Affine ℝ) : determinant (colMajor m) = m.det := by
  simp [determinant, colMajor, Affine.det]
  ring

theorem det_sq {m : Affine ℝ} (h : m.Rigid) : m.det = 1 ∨ m.det = -1 := by
  have key : m.det * m.det = 1 := by
    obtain ⟨h1, h2, h3, h4, h5, h6⟩ := h
    simp only [Vec3.dot] at h1 h2 h3 h4 h5 h6
    unfold Affine.det
    generalize m.r0.x = a at *; generalize m.r0.y = b at *; generalize m.r0.z = c at *
    generalize m.r1.x = d at *; generalize m.r1.y = e at *; generalize m.r1.z = f at *
    generalize m.r2.x = g at *; generalize m.r2.y = k at *; generalize m.r2.z = i at *
    have gram : (a*(e*i - f*k) - b*(d*i - f*g) + c*(d*k - e*g)) * (a*(e*i - f*k) - b*(d*i - f*g) + c*(d*k - e*g)) =
      (a*a+b*b+c*c)*((d*d+e*e+f*f)*(g*g+k*k+i*i) - (d*g+e*k+f*i)^2)
      - (a*d+b*e+c*f)*((a*d+b*e+c*f)*(g*g+k*k+i*i) - (d*g+e*k+f*i)*(a*g+b*k+c*i))
      + (a*g+b*k+c*i)*((a*d+b*e+c*f)*(d*g+e*k+f*i) - (d*d+e*e+f*f)*(a*g+b*k+c*i)) := by ring
    rw [gram, h1, h2, h3, h4, h5, h6]; norm_num
  exact mul_self_eq_one_iff.1 key

/-- Splitting a rigid matrix into position, rotation and scale and putting it together again changes
nothing, also for mirrored objects. -/
theorem compose_decompose {m : Affine ℝ} (h : m.Rigid) : compose (decompose (colMajor m)) = colMajor m := by
  have hdet := det_sq h
  obtain ⟨c1, c2, c3, -, -, -⟩ := h.cols
  obtain ⟨h1, h2, h3, h4, h5, h6⟩ := h
  simp only [Vec3.dot, Affine.c0, Affine.c1, Affine.c2] at *
  unfold decompose
  rw [determinant_colMajor]
  have l0 : length3 m.r0.x m.r1.x m.r2.x = 1 := by unfold length3; rw [c1, Real.sqrt_one]
  have l1 : length3 m.r0.y m.r1.y m.r2.y = 1 := by unfold length3; rw [c2, Real.sqrt_one]
  have l2 : length3 m.r0.z m.r1.z m.r2.z = 1 := by unfold length3; rw [c3, Real.sqrt_one]
  simp only [el, colMajor, List.getD_cons_zero, List.getD_cons_succ]
  rw [l0, l1, l2]
  rcases hdet with hd | hd
  · rw [hd, if_neg (by norm_num)]
    have H : Rot m.r0.x m.r0.y m.r0.z m.r1.x m.r1.y m.r1.z m.r2.x m.r2.y m.r2.z := by
      unfold Affine.det at hd
      constructor <;> linarith
    have G := fromRotation_gives H
    simp only [div_one, mul_one]
    generalize fromRotation m.r0.x m.r0.y m.r0.z m.r1.x m.r1.y m.r1.z m.r2.x m.r2.y m.r2.z = q at *
    obtain ⟨g1, g2, g3, g4, g5, g6, g7, g8, g9⟩ := G
    simp only [compose, mul_one, g1, g2, g3, g4, g5, g6, g7, g8, g9]
  · rw [hd, if_pos (by norm_num)]
    have H : Rot (-m.r0.x) m.r0.y m.r0.z (-m.r1.x) m.r1.y m.r1.z (-m.r2.x) m.r2.y m.r2.z := by
      unfold Affine.det at hd
      constructor <;> linarith
    have G := fromRotation_gives H
    have en : (1 : ℝ) / -1 = -1 := by norm_num
    simp only [en, div_one, mul_one, mul_neg]
    generalize fromRotation (-m.r0.x) m.r0.y m.r0.z (-m.r1.x) m.r1.y m.r1.z (-m.r2.x) m.r2.y m.r2.z = q at *
    obtain ⟨g1, g2, g3, g4, g5, g6, g7, g8, g9⟩ := G
    simp only [compose, mul_one, mul_neg, g1, g2, g3, g4, g5, g6, g7, g8, g9, neg_neg]

theorem applyMatrix_turn (q : Vec3 ℝ) : applyMatrix (rotationX (Real.pi / 2)) q = ⟨q.x, -q.z, q.y⟩ := by
  simp [applyMatrix, rotationX]

/-- The solid the page builds is the solid of the library. -/
theorem buildGeometry_closed (g : Geom) :
    ∀ type params, (match g with
      | .box s => type = "box" ∧ params = [s.x, s.y, s.z, 0]
      | .sphere r => type = "sphere" ∧ params = [r, 0, 0, 0]
      | .cylinder l r => type = "cylinder" ∧ params = [l, r, 0, 0]) →
    buildGeometry type params = {p | Solid.Closed g p} := by
  intro type params h
  cases g with
  | box s => obtain ⟨rfl, rfl⟩ := h; simp [buildGeometry, Solid.Closed]
  | sphere r => obtain ⟨rfl, rfl⟩ := h; simp [buildGeometry, Solid.Closed]
  | cylinder l r =>
    obtain ⟨rfl, rfl⟩ := h
    ext p
    simp only [buildGeometry, applyMatrix_turn, Solid.Closed]
    constructor
    · rintro ⟨q, ⟨h1, h2⟩, rfl⟩
      refine ⟨?_, ?_⟩ <;> simp at * <;> assumption
    · rintro ⟨h1, h2⟩
      refine ⟨⟨p.x, p.z, -p.y⟩, ⟨?_, ?_⟩, ?_⟩ <;> simp at * <;> assumption
/-! ### The drawn scene -/

theorem columns_at {n : ℕ} {os : List LNode} {S : LScene n}
    (hos : os = (List.finRange (n + 1)).map S.node) (v : Fin (n + 1)) :
    columns (os.flatMap fun o => o.l2w.flat) v.1 = colMajor (S.node v).l2w := by
  rw [← columns_flat]
  unfold columns
  refine List.map_congr_left fun k hk => ?_
  have hk := List.mem_range.1 hk
  rw [getD_flat (fun o => o.l2w.flat) 16 (fun o => flat16 _) hos v _ (by omega)]
  simp

/-- One entry shows one solid. -/
structure Shows (o : LNode) (first : Prop) (e : NodeEntry) : Prop where
  name : e.name = o.name
  /-- The points drawn are those of the solid in its place. -/
  place : drawn e = o.l2w.point '' {p | Solid.Closed o.geom p}
  root : e.root = true ↔ first
  index : e.index = o.index

theorem entry_shows {n : ℕ} {T : Tables} {os : List LNode} {cs : List PyComp} {S : LScene n}
    (L : Linked T os cs) (hos : os = (List.finRange (n + 1)).map S.node) (v : Fin (n + 1))
    (hr : (S.node v).l2w.Rigid) :
    ∃ e, nodeEntry T v.1 (S.node v).name = .ok e ∧ Shows (S.node v) (v.1 = 0) e := by
  have ht : T.nodes.geomType.getD v.1 0 = typeOf (S.node v).geom := by
    rw [L.geomType]; exact map_getD (f := fun o : LNode => typeOf o.geom) (node_get hos v) 0
  have hp : ((List.range 4).map fun k => T.nodes.geomParams.getD (v.1 * 4 + k) 0) =
      (paramsOf (S.node v).geom) := by
    have h4 : ∀ l : List ℝ, l.length = 4 → (List.range 4).map (fun k => l.getD k 0) = l := by
      intro l hl
      apply List.ext_getElem
      · simp [hl]
      · intro i h1 h2
        simp [List.getD_eq_getElem?_getD, h2]
    rw [← h4 _ (params_length (S.node v).geom)]
    refine List.map_congr_left fun k hk => ?_
    rw [L.geomParams]
    exact getD_flat (fun o => paramsOf o.geom) 4 (fun o => params_length _) hos v k (List.mem_range.1 hk)
  have hm : columns T.nodes.l2w v.1 = colMajor (S.node v).l2w := by rw [L.l2w]; exact columns_at hos v
  have hi : T.nodes.nidx.getD v.1 0 = (S.node v).index := linked_index L hos v
  unfold nodeEntry
  rw [ht]
  have key : ∀ type, geomName (typeOf (S.node v).geom) = some type →
      buildGeometry type (paramsOf (S.node v).geom) = {p | Solid.Closed (S.node v).geom p} := by
    intro type h
    cases hg : (S.node v).geom with
    | box s =>
      rw [hg] at h; cases h
      exact buildGeometry_closed (.box s) _ _ ⟨rfl, rfl⟩
    | sphere r =>
      rw [hg] at h; cases h
      exact buildGeometry_closed (.sphere r) _ _ ⟨rfl, rfl⟩
    | cylinder l r =>
      rw [hg] at h; cases h
      exact buildGeometry_closed (.cylinder l r) _ _ ⟨rfl, rfl⟩
  have hk : ∃ type, geomName (typeOf (S.node v).geom) = some type := by
    cases (S.node v).geom <;> exact ⟨_, rfl⟩
  obtain ⟨type, hty⟩ := hk
  rw [hty]
  refine ⟨_, rfl, rfl, ?_, by simp, hi⟩
  unfold drawn
  dsimp only
  rw [hp, key type hty, hm, compose_decompose hr]
  ext q
  simp only [Set.mem_image, applyMatrix_colMajor]

theorem entries_show {n : ℕ} {T : Tables} {os : List LNode} {cs : List PyComp} {S : LScene n}
    (L : Linked T os cs) (hos : os = (List.finRange (n + 1)).map S.node)
    (hr : ∀ v, (S.node v).l2w.Rigid) : ∀ (l : List (Fin (n + 1))) (i : ℕ),
    (∀ k (h : k < l.length), (l[k]).1 = i + k) →
    ∃ es, nodeEntries T i (l.map fun v => (S.node v).name) = .ok es ∧
      List.Forall₂ (fun v e => Shows (S.node v) (v = 0) e) l es
  | [], _, _ => ⟨[], rfl, .nil⟩
  | v :: l, i, h => by
    have h0 : v.1 = i := h 0 (by simp)
    obtain ⟨e, he, hs⟩ := entry_shows L hos v (hr v)
    obtain ⟨es, hes, hf⟩ := entries_show L hos hr l (i + 1) fun k hk => by
      have := h (k + 1) (by simp; omega)
      simp only [List.getElem_cons_succ] at this
      omega
    refine ⟨e :: es, ?_, .cons ?_ hf⟩
    · rw [List.map_cons, nodeEntries, ← h0, he]
      dsimp only
      rw [h0, hes]
    · have hv : v.1 = 0 ↔ v = 0 := by rw [Fin.ext_iff]; rfl
      exact ⟨hs.name, hs.place, by rw [hs.root, hv], hs.index⟩

/-- **C94.** The page shows exactly the solids of the scene that is traced, in the same order: each
with its name, its refractive index, and drawn at the points it occupies, also when it is turned or
mirrored. Only the first is marked as the root. -/
theorem viewport_shows_scene {n : ℕ} {scene : List PyNode} {T : Tables} {S : LScene n}
    (h : compileScene scene = .ok T) (hd : Describes scene S) (hr : ∀ v, (S.node v).l2w.Rigid) :
    ∃ es, payloadNodes T = .ok es ∧
      List.Forall₂ (fun v e => Shows (S.node v) (v = 0) e) (List.finRange (n + 1)) es := by
  obtain ⟨os, ho, -, L⟩ := compile_linked h
  have hos := describes_nodes hd ho
  obtain ⟨es, h1, h2⟩ := entries_show L hos hr (List.finRange (n + 1)) 0 (by simp)
  refine ⟨es, ?_, h2⟩
  unfold payloadNodes
  rw [L.names, hos, List.map_map]
  exact h1

/-! ### Scenes read from files -/

/-- The points a shape of a scene file occupies in its own frame. -/
def Occupies : ShapeDef ℝ → Vec3 ℝ → Prop
  | .box s, p => |p.x| ≤ s.x / 2 ∧ |p.y| ≤ s.y / 2 ∧ |p.z| ≤ s.z / 2
  | .sphere r, p => p.x ^ 2 + p.y ^ 2 + p.z ^ 2 ≤ r ^ 2
  | .cylinder l r, p => p.x ^ 2 + p.y ^ 2 ≤ r ^ 2 ∧ |p.z| ≤ l / 2
  | .mesh _, _ => False

variable {axis : Affine ℝ → Vec3 ℝ}

theorem forall₂_mem {β γ : Type} {R : β → γ → Prop} {l : List β} {m : List γ} (h : List.Forall₂ R l m)
    {y : γ} (hy : y ∈ m) : ∃ x ∈ l, R x y := by
  induction h with
  | nil => cases hy
  | cons hr _ ih =>
    rcases List.mem_cons.1 hy with rfl | hy
    · exact ⟨_, List.mem_cons_self, hr⟩
    · obtain ⟨x, hx, h⟩ := ih hy
      exact ⟨x, List.mem_cons_of_mem _ hx, h⟩

/-- **C94.** For a scene file the engine can trace, the page shows one solid for each node with a shape:
drawn at the points the shape occupies in the place of its node. -/
theorem file_viewport (ha : FileScene.Proper axis) {F : Files ℝ} {v : Yaml ℝ} {s : SceneDef ℝ}
    (h : parseFile F v = .ok s) (hn : ((entries "nodes" v).map (·.1)).Nodup) (hr : EngineReady s) :
    ∃ T es, compileScene (s.objects axis) = .ok T ∧ payloadNodes T = .ok es ∧
      (es.map (·.name)).Perm ((s.nodes.filter fun n => solid n.content).map (·.name)) ∧
      ∀ e ∈ es, ∃ n ∈ s.nodes, ∃ sh m, n.content = .geometry sh m ∧ e.name = n.name ∧
        e.index = m.index ∧ (e.root = true ↔ n.name = "world") ∧
        drawn e = (s.toWorld axis n.name).point '' {p | Occupies sh p} := by
  have ht := FileScene.tree h hn
  obtain ⟨-, -, T, hc, -, -⟩ := FileScene.file_same_run (σ := Unit) ha h hn hr
  obtain ⟨n, S, hd⟩ := FileScene.exists_described hc
  have hnode : ∀ w, ∃ x ∈ geometryNodes (s.objects axis), objectOf x = some (S.node w) := by
    intro w
    have : some (S.node w) ∈ (geometryNodes (s.objects axis)).map objectOf := by
      rw [show (geometryNodes (s.objects axis)).map objectOf = _ from hd]
      exact List.mem_map.2 ⟨w, List.mem_finRange w, rfl⟩
    obtain ⟨x, hx, e⟩ := List.mem_map.1 this
    exact ⟨x, hx, e⟩
  have hfile : ∀ x ∈ geometryNodes (s.objects axis), ∃ k ∈ s.nodes, ∃ sh m, k.content = .geometry sh m ∧
      x = (k.name, s.toWorld axis k.name, ⟨sh.object, some m.object, false⟩) := by
    intro x hx
    obtain ⟨k, hk, e⟩ := List.mem_filterMap.1 ((FileScene.geometryNodes_perm ht).mem_iff.1 hx)
    cases hcon : k.content with
    | light l => rw [hcon] at e; cases e
    | geometry sh m =>
      rw [hcon] at e
      simp only [Content.geometry?, Option.map_some, Option.some.injEq] at e
      exact ⟨k, hk, sh, m, hcon, e.symm⟩
  have hobj : ∀ w, ∃ k ∈ s.nodes, ∃ sh m g, k.content = .geometry sh m ∧ sh.object = .known g ∧
      (S.node w).name = k.name ∧ (S.node w).geom = g ∧ (S.node w).l2w = s.toWorld axis k.name ∧
      (S.node w).index = m.index := by
    intro w
    obtain ⟨x, hx, e⟩ := hnode w
    obtain ⟨k, hk, sh, m, hcon, rfl⟩ := hfile x hx
    cases hsh : sh.object with
    | other => simp [objectOf, hsh] at e
    | known g =>
      simp only [objectOf, hsh, MatDef.object, Option.some.injEq] at e
      exact ⟨k, hk, sh, m, g, hcon, hsh, by rw [← e], by rw [← e], by rw [← e], by rw [← e]⟩
  have hrig : ∀ w, (S.node w).l2w.Rigid := by
    intro w
    obtain ⟨k, -, -, -, -, -, -, -, -, e, -⟩ := hobj w
    rw [e]
    exact FileScene.toWorld_rigid ha s k.name
  obtain ⟨es, h1, h2⟩ := viewport_shows_scene hc hd hrig
  have hfin : (List.finRange (n + 1)).map (fun w => (S.node w).name) =
      (geometryNodes (s.objects axis)).map (·.1) := by
    have e2 : ∀ x o, objectOf x = some o → o.name = x.1 := by
      intro x o e
      unfold objectOf at e
      split at e
      · split at e
        · cases e
        · cases e; rfl
        · cases e; rfl
      · cases e
    have e3 := hd
    unfold Describes at e3
    have e4 : ∀ (l : List (String × Affine ℝ × PyGeom)) (k : List (Fin (n + 1))),
        l.map objectOf = k.map (fun w => some (S.node w)) → k.map (fun w => (S.node w).name) = l.map (·.1) := by
      intro l
      induction l with
      | nil => intro k hk; cases k with
        | nil => rfl
        | cons => cases hk
      | cons x l ih => intro k hk; cases k with
        | nil => cases hk
        | cons w k =>
          simp only [List.map_cons, List.cons.injEq] at hk ⊢
          exact ⟨e2 _ _ hk.1, ih k hk.2⟩
    exact e4 _ _ e3
  have hnames : es.map (·.name) = (geometryNodes (s.objects axis)).map (·.1) := by
    have e1 : es.map (·.name) = (List.finRange (n + 1)).map fun w => (S.node w).name := by
      clear h1
      generalize List.finRange (n + 1) = l at h2
      induction h2 with
      | nil => rfl
      | cons hs _ ih => rw [List.map_cons, List.map_cons, ih, hs.name]
    rw [e1, hfin]
  have hperm : ((geometryNodes (s.objects axis)).map (·.1)).Perm
      ((s.nodes.filter fun n => solid n.content).map (·.name)) := by
    have hp := (FileScene.geometryNodes_perm (axis := axis) ht).map (·.1)
    refine hp.trans (List.Perm.of_eq ?_)
    generalize s.nodes = l
    induction l with
    | nil => rfl
    | cons k l ih =>
      rw [List.filterMap_cons, List.filter_cons]
      cases hcon : k.content with
      | light _ => simpa [Content.geometry?, solid] using ih
      | geometry _ _ => simpa [Content.geometry?, solid] using ih
  have hdist : ((List.finRange (n + 1)).map fun w => (S.node w).name).Nodup := by
    rw [hfin]
    exact hperm.nodup_iff.2 (ht.names.sublist (List.filter_sublist.map _))
  have hzero : (S.node 0).name = "world" := by
    obtain ⟨k, hk, hkn, hhead⟩ := FileScene.objects_head (axis := axis) ht
    obtain ⟨k', hk', hkn', hsol⟩ := hr.world
    have : k = k' := List.inj_on_of_nodup_map ht.names hk hk' (by rw [hkn, hkn'])
    subst this
    obtain ⟨g, hg⟩ : ∃ g, k.content.geometry? = some g := by
      cases hcon : k.content with
      | light _ => rw [hcon] at hsol; cases hsol
      | geometry _ _ => exact ⟨_, rfl⟩
    have h0 : ((geometryNodes (s.objects axis)).map (·.1)).head? = some "world" := by
      unfold geometryNodes
      cases ho : s.objects axis with
      | nil => rw [ho] at hhead; cases hhead
      | cons x l =>
        rw [ho] at hhead
        cases hhead
        rw [List.filterMap_cons]
        simp [FileScene.object, hg, hkn]
    rw [← hfin, List.finRange_succ, List.map_cons, List.head?_cons] at h0
    exact Option.some.inj h0
  refine ⟨T, es, hc, h1, ?_, ?_⟩
  · rw [hnames]; exact hperm
  · intro e he
    obtain ⟨w, hw, hs⟩ := forall₂_mem h2 he
    obtain ⟨k, hk, sh, m, g, hcon, hsh, o1, o2, o3, o4⟩ := hobj w
    refine ⟨k, hk, sh, m, hcon, by rw [hs.name, o1], by rw [hs.index, o4], ?_, ?_⟩
    · rw [hs.root, ← o1, ← hzero]
      constructor
      · rintro rfl; rfl
      · intro e
        exact List.inj_on_of_nodup_map hdist (List.mem_finRange w) (List.mem_finRange 0) e
    · rw [hs.place, o2, o3]
      have : ∀ p, Solid.Closed g p ↔ Occupies sh p := by
        intro p
        cases sh <;> cases hsh <;> rfl
      ext p
      simp only [Set.mem_image, Set.mem_ofPred_eq, this]

/-- **C94.** The page shows every light of a scene file at the place of its node, with an arrow along the
z axis of the node. -/
theorem file_lights (axis : Affine ℝ → Vec3 ℝ) {F : Files ℝ} {v : Yaml ℝ} {s : SceneDef ℝ}
    (h : parseFile F v = .ok s) (hn : ((entries "nodes" v).map (·.1)).Nodup) :
    ((payloadLights axis s).map (·.name)).Perm ((s.nodes.filter fun n => !solid n.content).map (·.name)) ∧
    ∀ e ∈ payloadLights axis s, ∃ n ∈ s.nodes, solid n.content = false ∧ e.name = n.name ∧
      marker e = (s.toWorld axis n.name).point 0 ∧
      arrow e = ((s.toWorld axis n.name).point 0, (s.toWorld axis n.name).vec ⟨0, 0, 1⟩) := by
  have ht := FileScene.tree h hn
  have hp := SceneFile.perm_of_tree ht.names ht.ranked ht.world ht.parents
  have hone : ∀ n ∈ s.nodes, (match s.find n.name with
      | some ⟨name, .light _, _, _, _⟩ => some (⟨name, columns (s.toWorld axis name).flat 0⟩ : LightEntry)
      | _ => none) = if solid n.content then none
        else some ⟨n.name, colMajor (s.toWorld axis n.name)⟩ := by
    intro n hm
    rw [FileScene.find_of_mem ht.names hm]
    obtain ⟨name, content, parent, location, direction⟩ := n
    cases content with
    | light _ => simp [solid, columns_flat]
    | geometry _ _ => simp [solid]
  have hl : (payloadLights axis s).Perm (s.nodes.filterMap fun n => if solid n.content then none
        else some ⟨n.name, colMajor (s.toWorld axis n.name)⟩) := by
    refine (hp.filterMap _).trans (List.Perm.of_eq ?_)
    rw [List.filterMap_map]
    exact List.filterMap_congr fun n hm => hone n hm
  constructor
  · refine (hl.map _).trans (List.Perm.of_eq ?_)
    generalize s.nodes = l
    induction l with
    | nil => rfl
    | cons k l ih =>
      rw [List.filterMap_cons, List.filter_cons]
      cases solid k.content
      · simpa using ih
      · simpa using ih
  · intro e he
    obtain ⟨n, hm, hx⟩ := List.mem_filterMap.1 (hl.mem_iff.1 he)
    cases hs : solid n.content with
    | true => rw [hs] at hx; cases hx
    | false =>
      rw [hs] at hx
      cases hx
      refine ⟨n, hm, hs, rfl, ?_, ?_⟩
      · simp [marker, decompose, colMajor, Affine.point, Affine.vec, Vec3.dot]
        ext <;> simp
      · simp only [arrow, el, colMajor, List.getD_cons_zero, List.getD_cons_succ, Prod.mk.injEq]
        constructor <;> ext <;> simp [Affine.point, Affine.vec, Vec3.dot]

/-! ### Examples -/

/-- A mirrored and moved solid is drawn mirrored and moved. -/
example : (⟨⟨-1, 0, 0⟩, ⟨0, 1, 0⟩, ⟨0, 0, 1⟩, ⟨4, 5, 6⟩⟩ : Affine ℝ).det = -1 ∧
    applyMatrix (compose (decompose (colMajor ⟨⟨-1, 0, 0⟩, ⟨0, 1, 0⟩, ⟨0, 0, 1⟩, ⟨4, 5, 6⟩⟩))) ⟨1, 2, 3⟩ =
      ⟨3, 7, 9⟩ := by
  have hr : (⟨⟨-1, 0, 0⟩, ⟨0, 1, 0⟩, ⟨0, 0, 1⟩, ⟨4, 5, 6⟩⟩ : Affine ℝ).Rigid := by
    constructor <;> norm_num [Vec3.dot]
  refine ⟨by norm_num [Affine.det], ?_⟩
  rw [compose_decompose hr, applyMatrix_colMajor]
  ext <;> norm_num [Affine.point, Affine.vec, Vec3.dot]

/-- Non-vacuity of `file_viewport`: the file with a world, a turned ball and a lamp is shown as two
solids. -/
example : ∃ T es, compileScene (FileScene.ballDef.objects fun _ => ⟨0, 0, 1⟩) = .ok T ∧
    payloadNodes T = .ok es ∧ (es.map (·.name)).Perm ["world", "ball"] := by
  obtain ⟨T, es, h1, h2, h3, -⟩ := file_viewport (axis := fun _ => ⟨0, 0, 1⟩)
    (fun _ h => by simpa using congrArg Vec3.z h) FileScene.ball_loads FileScene.ball_names FileScene.ball_ready
  refine ⟨T, es, h1, h2, ?_⟩
  simpa [FileScene.ballDef, solid] using h3

/-- Non-vacuity of `file_lights`: the lamp of the same file is shown. -/
example : (payloadLights (fun _ => ⟨0, 0, 1⟩) FileScene.ballDef).map (·.name) = ["lamp"] := by
  have := (file_lights (fun _ => ⟨0, 0, 1⟩) FileScene.ball_loads FileScene.ball_names).1
  simpa [FileScene.ballDef, solid] using this

end PV.View
