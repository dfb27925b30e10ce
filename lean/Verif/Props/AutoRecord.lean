import Verif.Props.Document
import Verif.Props.Normals
import Verif.Model.Library
import Verif.Props.Tally

/-!
C67 in a scene: which of the face recorders of `record: true` counts a ray that leaves a box through
one of its faces.
-/

namespace PV.AutoRecord
open PV PV.Doc PV.Spec
noncomputable section

/-- The point `q`, in the coordinates of a box of this size, is on the face whose outward normal is
`σ` times axis `i`, off the edges. -/
structure OnFace (size q : Vec3 ℝ) (i : Fin 3) (σ : ℝ) : Prop where
  sign : σ = 1 ∨ σ = -1
  on : q.get i = σ * (size.get i / 2)
  off : ∀ j, j ≠ i → |q.get j| < size.get j / 2

/-- The six faces in the order of the recorders. -/
def order : List (Fin 3 × ℝ) := [(2, 1), (2, -1), (0, 1), (0, -1), (1, 1), (1, -1)]

variable {n : ℕ} {S : LScene n} {v : Fin (n + 1)} {size p : Vec3 ℝ} {i : Fin 3} {σ : ℝ} {τ : Type}
  {R : Rand τ} {method : EmitMethod}

/-- The engine's normal at a face of a box. -/
theorem world_normal (hg : (S.node v).geom = .box size) (hp : Solid.Proper (.box size))
    (hf : OnFace size ((S.node v).w2l.point p) i σ) :
    (kOps S R method).normal v p = (S.node v).l2w.vec (axisNormal i σ) := by
  have hs : 0 < size.get i := by
    obtain ⟨h0, h1, h2⟩ := hp
    fin_cases i <;> assumption
  change (S.node v).l2w.vec (kNormal _ _) = _
  rw [hg, Geometry.kNormal_face hf.sign hf.on hs hf.off]

/-- A value in the range of an axis has a bin. -/
theorem bin_of_range {a : Axis ℝ} (hb : 1 ≤ a.bins) {x : ℝ} (h : a.start ≤ x) (h' : x < a.stop) :
    ∃ k, binIndex x a = some k := by
  have hd : 0 < a.stop - a.start := by linarith
  have hn : (0 : ℝ) < a.bins := by exact_mod_cast hb
  have h0 : 0 ≤ (x - a.start) / (a.stop - a.start) * a.bins := by
    have : 0 ≤ x - a.start := by linarith
    positivity
  have h1 : (x - a.start) / (a.stop - a.start) * a.bins < a.bins := by
    have : (x - a.start) / (a.stop - a.start) < 1 := (div_lt_one hd).2 (by linarith)
    nlinarith
  refine ⟨⌊(x - a.start) / (a.stop - a.start) * a.bins⌋₊, Tally.binIndex_eq_some_iff.2 ⟨?_, ?_⟩⟩
  · exact (Nat.floor_lt h0).2 h1
  · rw [truncZ, if_pos h0]
    exact (Int.natCast_floor_eq_floor h0).symm

/-- What the recorder of a face is: its facet, and a heat map over the face. -/
theorem spec_face {name : String} {r : Recorder ℝ} (hr : r ∈ faceSpecs name size.x size.y size.z) :
    ∃ f ∈ order, r.facet = some (axisNormal f.1 f.2) ∧ r.atol = 1e-6 ∧
      ∀ a b, .heat a b ∈ r.hists → ∀ q : Vec3 ℝ, (∀ j, j ≠ f.1 → |q.get j| < size.get j / 2) →
        ∀ vs : Values ℝ, vs.position = q → ∃ k, (Hist.heat a b).bin vs = some k := by
  have key : ∀ (P P' : RayProp) (j j' : Fin 3) (vs : Values ℝ) (q : Vec3 ℝ), vs.position = q →
      vs.get P = q.get j → vs.get P' = q.get j' →
      |q.get j| < size.get j / 2 → |q.get j'| < size.get j' / 2 →
      ∃ k, (Hist.heat ⟨P, -(size.get j / 2), size.get j / 2, (faceBins (size.get j)).toNat⟩
        ⟨P', -(size.get j' / 2), size.get j' / 2, (faceBins (size.get j')).toNat⟩).bin vs = some k := by
    intro P P' j j' vs q hq e e' h h'
    have hb : ∀ s : ℝ, 1 ≤ (faceBins s).toNat := fun s => by
      have := (face_bins s).1
      omega
    rw [abs_lt] at h h'
    obtain ⟨k, hk⟩ := bin_of_range (a := ⟨P, -(size.get j / 2), size.get j / 2, (faceBins (size.get j)).toNat⟩)
      (hb _) h.1.le h.2
    obtain ⟨k', hk'⟩ := bin_of_range
      (a := ⟨P', -(size.get j' / 2), size.get j' / 2, (faceBins (size.get j')).toNat⟩) (hb _) h'.1.le h'.2
    simp only [Hist.bin, e, e', hk, hk']
    exact ⟨_, rfl⟩
  simp only [faceSpecs, List.mem_cons, List.not_mem_nil, or_false] at hr
  rcases hr with rfl | rfl | rfl | rfl | rfl | rfl
  · refine ⟨(2, 1), by simp [order], rfl, rfl, fun a b h q hq vs hv => ?_⟩
    simp at h
    rw [h.1, h.2]
    exact key .x .y 0 1 vs q hv (by rw [← hv]; rfl) (by rw [← hv]; rfl) (hq 0 (by decide)) (hq 1 (by decide))
  · refine ⟨(2, -1), by simp [order], rfl, rfl, fun a b h q hq vs hv => ?_⟩
    simp at h
    rw [h.1, h.2]
    exact key .x .y 0 1 vs q hv (by rw [← hv]; rfl) (by rw [← hv]; rfl) (hq 0 (by decide)) (hq 1 (by decide))
  · refine ⟨(0, 1), by simp [order], rfl, rfl, fun a b h q hq vs hv => ?_⟩
    simp at h
    rw [h.1, h.2]
    exact key .y .z 1 2 vs q hv (by rw [← hv]; rfl) (by rw [← hv]; rfl) (hq 1 (by decide)) (hq 2 (by decide))
  · refine ⟨(0, -1), by simp [order], rfl, rfl, fun a b h q hq vs hv => ?_⟩
    simp at h
    rw [h.1, h.2]
    exact key .y .z 1 2 vs q hv (by rw [← hv]; rfl) (by rw [← hv]; rfl) (hq 1 (by decide)) (hq 2 (by decide))
  · refine ⟨(1, 1), by simp [order], rfl, rfl, fun a b h q hq vs hv => ?_⟩
    simp at h
    rw [h.1, h.2]
    exact key .x .z 0 2 vs q hv (by rw [← hv]; rfl) (by rw [← hv]; rfl) (hq 0 (by decide)) (hq 2 (by decide))
  · refine ⟨(1, -1), by simp [order], rfl, rfl, fun a b h q hq vs hv => ?_⟩
    simp at h
    rw [h.1, h.2]
    exact key .x .z 0 2 vs q hv (by rw [← hv]; rfl) (by rw [← hv]; rfl) (hq 0 (by decide)) (hq 2 (by decide))

theorem mem_order {f : Fin 3 × ℝ} : f ∈ order ↔ f.2 = 1 ∨ f.2 = -1 := by
  obtain ⟨i, t⟩ := f
  simp only [order, List.mem_cons, List.not_mem_nil, or_false, Prod.mk.injEq]
  fin_cases i <;> simp <;> tauto

/-- Facets that agree within the tolerance are equal. -/
theorem axis_close {f g : Fin 3 × ℝ} (hf : f ∈ order) (hg : g ∈ order)
    (h : |(axisNormal f.1 f.2).x - (axisNormal g.1 g.2).x| ≤ 1e-6 ∧
      |(axisNormal f.1 f.2).y - (axisNormal g.1 g.2).y| ≤ 1e-6 ∧
      |(axisNormal f.1 f.2).z - (axisNormal g.1 g.2).z| ≤ 1e-6) : f = g := by
  obtain ⟨i, s⟩ := f
  obtain ⟨j, t⟩ := g
  rw [mem_order] at hf hg
  have h3 : |(-1 : ℝ) - 1| = 2 := by norm_num
  have h4 : |(1 : ℝ) - -1| = 2 := by norm_num
  simp only at hf hg
  rcases hf with rfl | rfl <;> rcases hg with rfl | rfl <;> fin_cases i <;> fin_cases j <;>
    simp [axisNormal] at h ⊢ <;> norm_num at h

theorem facets (name : String) : (faceSpecs name size.x size.y size.z).map (·.facet) =
    order.map fun f => some (axisNormal f.1 f.2) := rfl

theorem order_nodup : order.Nodup := by
  have h2 : (1 : ℝ) ≠ -1 := by norm_num
  simp [order, h2]

/-- There is one recorder for each face. -/
theorem one_each (name : String) {f : Fin 3 × ℝ} (hf : f ∈ order) :
    ∃! r, r ∈ faceSpecs name size.x size.y size.z ∧ r.facet = some (axisNormal f.1 f.2) := by
  have facet_at : ∀ k : ℕ, ((faceSpecs name size.x size.y size.z)[k]?).map (·.facet) =
      (order[k]?).map fun f => some (axisNormal f.1 f.2) := fun k => by
    rw [← List.getElem?_map, facets, List.getElem?_map]
  obtain ⟨k, hk⟩ := List.mem_iff_getElem?.1 hf
  have hr := facet_at k
  rw [hk] at hr
  obtain ⟨r, hr, he⟩ := Option.map_eq_some_iff.1 hr
  refine ⟨r, ⟨List.mem_of_getElem? hr, he⟩, ?_⟩
  rintro r' ⟨hm, he'⟩
  obtain ⟨j, hj⟩ := List.mem_iff_getElem?.1 hm
  have hr' := facet_at j
  rw [hj] at hr'
  obtain ⟨g, hg, hge⟩ := Option.map_eq_some_iff.1 hr'.symm
  replace hge := hge.trans he'
  have : g = f := by
    refine axis_close (List.mem_of_getElem? hg) hf ?_
    rw [Option.some.inj hge]
    norm_num
  rw [this, ← hk] at hg
  have hlt := (List.getElem?_eq_some_iff.1 hk).1
  rw [(List.getElem?_inj hlt order_nodup).1 hg.symm, hj] at hr
  exact Option.some.inj hr

/-- **C67**, the part that holds: a box that is not rotated, wherever it stands. At a point of a face,
off the edges, exactly one face recorder counts: that of the face, and its heat map counts too. -/
theorem face_counted_partial (hg : (S.node v).geom = .box size) (hp : Solid.Proper (.box size))
    (hf : OnFace size ((S.node v).w2l.point p) i σ) (hup : ∀ u, (S.node v).l2w.vec u = u) (name : String) :
    ∃ r ∈ faceSpecs name size.x size.y size.z, r.facet = some (axisNormal i σ) ∧
      (∀ r' ∈ faceSpecs name size.x size.y size.z,
        OnFacet r' (some ((kOps S R method).normal v p)) ↔ r' = r) ∧
      ∀ a b, .heat a b ∈ r.hists → ∀ vs : Values ℝ, vs.position = (S.node v).w2l.point p →
        ∃ k, (Hist.heat a b).bin vs = some k := by
  have hm : (i, σ) ∈ order := mem_order.2 hf.sign
  obtain ⟨r, ⟨hr, he⟩, hu⟩ := one_each (size := size) name hm
  rw [world_normal hg hp hf, hup]
  refine ⟨r, hr, he, fun r' hr' => ?_, fun a b hab vs hv => ?_⟩
  · obtain ⟨f, hfo, hfe, hat, _⟩ := spec_face hr'
    constructor
    · intro h
      obtain ⟨_, hN, hc⟩ := h _ hfe
      cases hN
      rw [hat] at hc
      have := axis_close hfo hm hc
      rw [this] at hfe
      exact hu r' ⟨hr', hfe⟩
    · rintro rfl f' hf'
      rw [he] at hf'
      cases hf'
      refine ⟨_, rfl, ?_⟩
      rw [hat]
      norm_num
  · obtain ⟨f, hfo, hfe, hat, hh⟩ := spec_face hr
    rw [he] at hfe
    have : f = (i, σ) := by
      refine axis_close hfo hm ?_
      rw [← Option.some.inj hfe]
      norm_num
    rw [this] at hh
    exact hh a b hab _ (fun j hj => hf.off j hj) vs hv

/-- **C67** is violated: facets are compared with normals in world coordinates. If the box is turned
about its vertical axis, no face recorder counts what leaves through its sides. -/
theorem rotated_missed (hg : (S.node v).geom = .box size) (hp : Solid.Proper (.box size))
    (hf : OnFace size ((S.node v).w2l.point p) i σ) {c s : ℝ}
    (hrot : ∀ u, (S.node v).l2w.vec u = ⟨c * u.x - s * u.y, s * u.x + c * u.y, u.z⟩)
    (hc : 1e-6 < |c|) (hs : 1e-6 < |s|) (hi : i ≠ 2) (name : String) :
    ∀ r ∈ faceSpecs name size.x size.y size.z, ¬ OnFacet r (some ((kOps S R method).normal v p)) := by
  intro r hr h
  rw [world_normal hg hp hf, hrot] at h
  obtain ⟨f, hfo, hfe, hat, _⟩ := spec_face hr
  obtain ⟨_, hN, h1, h2, h3⟩ := h _ hfe
  cases hN
  rw [hat] at h1 h2 h3
  obtain ⟨j, t⟩ := f
  rw [mem_order] at hfo
  simp only at hfo h1 h2 h3
  have hσ : |σ| = 1 := by rcases hf.sign with h | h <;> simp [h]
  have ht : |t| = 1 := by rcases hfo with h | h <;> simp [h]
  fin_cases i
  · fin_cases j <;> simp [axisNormal, abs_mul, hσ, ht] at h1 h2 h3 <;> norm_num at * <;> linarith
  · fin_cases j <;> simp [axisNormal, abs_mul, hσ, ht] at h1 h2 h3 <;> norm_num at * <;> linarith
  · simp at hi

/-- **C67** is violated also for quarter turns: what leaves through the local `+x` side of the box is
counted by the recorder called `north`, which is meant for the local `+y` side, and by no other; and its
heat map has no bin for it. -/
theorem turned_wrong (hg : (S.node v).geom = .box size) (hp : Solid.Proper (.box size))
    (hf : OnFace size ((S.node v).w2l.point p) 0 1)
    (hrot : ∀ u, (S.node v).l2w.vec u = ⟨-u.y, u.x, u.z⟩) (name : String) :
    (∀ r ∈ faceSpecs name size.x size.y size.z,
      (OnFacet r (some ((kOps S R method).normal v p)) ↔ r.facet = some ⟨0, 1, 0⟩)) ∧
    ∃ r ∈ faceSpecs name size.x size.y size.z, r.facet = some ⟨0, 1, 0⟩ ∧
      ∀ a b, .heat a b ∈ r.hists → ∀ vs : Values ℝ, vs.position = (S.node v).w2l.point p →
        (Hist.heat a b).bin vs = none := by
  have hN : (kOps S R method).normal v p = axisNormal 1 1 := by
    rw [world_normal hg hp hf, hrot]
    simp [axisNormal]
  have hm : ((1, 1) : Fin 3 × ℝ) ∈ order := mem_order.2 (.inl rfl)
  have e1 : (⟨0, 1, 0⟩ : Vec3 ℝ) = axisNormal 1 1 := by simp [axisNormal]
  rw [hN, e1]
  refine ⟨fun r hr => ?_, ?_⟩
  · obtain ⟨f, hfo, hfe, hat, _⟩ := spec_face hr
    constructor
    · intro h
      obtain ⟨_, hN, hc⟩ := h _ hfe
      cases hN
      rw [hat] at hc
      rw [hfe, axis_close hfo hm hc]
    · intro he f' hf'
      rw [he] at hf'
      cases hf'
      refine ⟨_, rfl, ?_⟩
      rw [hat]
      norm_num
  · refine ⟨_, by simp only [faceSpecs]; exact .tail _ (.tail _ (.tail _ (.tail _ (.head _)))), by rw [← e1], ?_⟩
    intro a b h vs hv
    simp at h
    have hx : vs.get .x = size.x / 2 := by
      have := hf.on
      rw [← hv] at this
      simpa [Values.get, Vec3.get] using this
    have : binIndex (vs.get .x) a = none := by
      rw [hx]
      refine Tally.beyond_stop a ?_ _ (by rw [h.1])
      rw [h.1]
      have := (face_bins size.x).1
      have := hp.1
      refine ⟨by simp only; linarith, by simp only; omega⟩
    have ha : a.prop = .x := by rw [h.1]
    simp only [Hist.bin, ha, this]

/-- A plate of 10 × 4 × 1 whose pose is the rotation about z with the given cosine and sine. -/
def plate (c s : ℝ) : LScene 0 where
  node _ :=
    { name := "lsc", geom := .box ⟨10, 4, 1⟩
      l2w := ⟨⟨c, -s, 0⟩, ⟨s, c, 0⟩, ⟨0, 0, 1⟩, ⟨0, 0, 0⟩⟩
      w2l := ⟨⟨c, s, 0⟩, ⟨-s, c, 0⟩, ⟨0, 0, 1⟩, ⟨0, 0, 0⟩⟩
      index := 1.5, surface := .fresnel, comps := [] }

theorem plate_turned (c s : ℝ) (v : Fin 1) (u : Vec3 ℝ) :
    ((plate c s).node v).l2w.vec u = ⟨c * u.x - s * u.y, s * u.x + c * u.y, u.z⟩ := by
  simp [plate, Affine.vec, Vec3.dot]
  ring

/-- The world point of the local point `(5, 1, 0)`, on the `+x` face. -/
theorem plate_face (c s : ℝ) (h : c ^ 2 + s ^ 2 = 1) (v : Fin 1) :
    OnFace ⟨10, 4, 1⟩ (((plate c s).node v).w2l.point ⟨5 * c - s, 5 * s + c, 0⟩) 0 1 := by
  have e : ((plate c s).node v).w2l.point ⟨5 * c - s, 5 * s + c, 0⟩ = ⟨5, 1, 0⟩ := by
    simp only [plate, Affine.point, Affine.vec, Vec3.dot]
    ext
    · simp
      linear_combination h * 5
    · simp
      linear_combination h
    · simp
  rw [e]
  refine ⟨.inl rfl, by norm_num [Vec3.get], fun j hj => ?_⟩
  fin_cases j
  · simp at hj
  · norm_num [Vec3.get]
  · norm_num [Vec3.get]

example : Solid.Proper (.box (⟨10, 4, 1⟩ : Vec3 ℝ)) := by
  refine ⟨?_, ?_, ?_⟩ <;> norm_num

/-- Not turned: `face_counted_partial` applies. -/
example (u : Vec3 ℝ) : ((plate 1 0).node 0).l2w.vec u = u := by
  rw [plate_turned]
  ext <;> simp

/-- Turned by the angle of the 3-4-5 triangle: `rotated_missed` applies. -/
example (v : Fin 1) : OnFace ⟨10, 4, 1⟩ (((plate 0.6 0.8).node v).w2l.point ⟨2.2, 4.6, 0⟩) 0 1 ∧
    (1e-6 : ℝ) < |0.6| ∧ (1e-6 : ℝ) < |0.8| := by
  refine ⟨?_, by norm_num [abs_of_pos], by norm_num [abs_of_pos]⟩
  have := plate_face 0.6 0.8 (by norm_num) v
  convert this using 3 <;> norm_num

/-- Turned by a right angle: `turned_wrong` applies. -/
example (u : Vec3 ℝ) : ((plate 0 1).node 0).l2w.vec u = ⟨-u.y, u.x, u.z⟩ := by
  rw [plate_turned]
  ext <;> simp

end
end PV.AutoRecord
