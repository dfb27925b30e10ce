import Verif.Spec.Mesh
import Verif.Lemmas.Sort

/-!
C132: a mesh is hit in order of distance, has a normal wherever it is hit, and rays enter and leave a
convex mesh where they should; a mesh is always centred.
-/

namespace PV.MeshShape
open PV PV.Spec

theorem epsZero_pos : (0 : ℝ) < PV.epsZero := by unfold PV.epsZero; norm_num

/-- C132: the intersections of a mesh are those trimesh finds, each as often, nearest first. -/
theorem intersections_sorted (L : TriLib) (m : Tri) (o d : Vec3 ℝ) :
    (meshIntersections L m o d).Perm (L.hits m o d) ∧
    (meshIntersections L m o d).Pairwise fun p q => vnorm (p - o) ≤ vnorm (q - o) := by
  unfold meshIntersections
  dsimp only
  split_ifs with h
  · rw [List.length_eq_zero_iff.1 h]
    exact ⟨.refl _, .nil⟩
  · exact ⟨perm_sortedBy _ _, pairwise_sortedBy _ _⟩

theorem mem_intersections {L : TriLib} {m : Tri} {o d q : Vec3 ℝ} :
    q ∈ meshIntersections L m o d ↔ q ∈ L.hits m o d :=
  (intersections_sorted L m o d).1.mem_iff

/-- C132: the first intersection is the nearest point where the ray crosses a face. -/
theorem first_nearest (L : TriLib) (m : Tri) (h : Trusted L m) (o d q : Vec3 ℝ)
    (rest : List (Vec3 ℝ)) (hq : meshIntersections L m o d = q :: rest)
    (f : ℕ) (a b c : Vec3 ℝ) (hf : Face m f a b c) (hd : (outward a b c).dot d ≠ 0)
    (t : ℝ) (ht : 0 ≤ t) (hp : InFace m f (o + t • d)) :
    vnorm (q - o) ≤ vnorm ((o + t • d) - o) := by
  have hm := mem_intersections.2 (h.complete o d f a b c t hf hd ht hp)
  have hs := (intersections_sorted L m o d).2
  rw [hq] at hm hs
  rcases List.mem_cons.1 hm with he | hr
  · rw [he]
  · exact (List.pairwise_cons.1 hs).1 _ hr

/-- C132: wherever a ray hits the mesh, the point is on the surface, and its normal is the outward
unit normal of a face it lies on. -/
theorem hit_normal (L : TriLib) (m : Tri) (h : Trusted L m) (o d q : Vec3 ℝ)
    (hq : q ∈ meshIntersections L m o d) :
    meshOnSurface L m q = true ∧
    ∃ f a b c n, ∃ k : ℝ, InFace m f q ∧ Face m f a b c ∧ meshNormal L m q = .ok n ∧ n.dot n = 1 ∧
      0 < k ∧ n = k • outward a b c := by
  obtain ⟨t, _, _, f0, hf0⟩ := h.sound o d q (mem_intersections.1 hq)
  obtain ⟨g, hg, hin⟩ := h.nearest q f0 hf0
  obtain ⟨a, b, c, hface, w⟩ := hin
  obtain ⟨n, k, hn, h1, hk, hnk⟩ := h.normal g a b c hface
  have h0 : |(0 : ℝ)| < PV.epsZero := by rw [abs_zero]; exact epsZero_pos
  refine ⟨?_, g, a, b, c, n, k, ⟨a, b, c, hface, w⟩, hface, ?_, h1, hk, hnk⟩
  · unfold meshOnSurface; rw [hg]; simpa using epsZero_pos
  · unfold meshNormal
    rw [hg]
    dsimp only
    rw [if_neg (not_not.2 h0), hn]

/-- A point of a face is level with it. -/
theorem face_level (m : Tri) (f : ℕ) (a b c q : Vec3 ℝ) (hf : Face m f a b c) (hq : InFace m f q) :
    (outward a b c).dot (q - a) = 0 := by
  obtain ⟨a', b', c', ⟨i, j, k, h1, h2, h3, h4⟩, u, v, w, _, _, _, hs, rfl⟩ := hq
  obtain ⟨i', j', k', g1, g2, g3, g4⟩ := hf
  rw [h1] at g1
  cases g1
  rw [h2] at g2; rw [h3] at g3; rw [h4] at g4
  cases g2; cases g3; cases g4
  have hu : u = 1 - v - w := by linarith
  subst hu
  simp only [outward, Vec3.cross, Vec3.dot, Vec3.sub_x, Vec3.sub_y, Vec3.sub_z, Vec3.add_x,
    Vec3.add_y, Vec3.add_z, Vec3.smul_x, Vec3.smul_y, Vec3.smul_z]
  ring

/-- The side of a face a ray through `q` goes to, from a point of the ray within the mesh. -/
theorem side (m : Tri) (f : ℕ) (a b c q d : Vec3 ℝ) (hf : Face m f a b c) (hq : InFace m f q)
    (s : ℝ) (hs : WithinMesh m (q + s • d)) : (outward a b c).dot d * s < 0 := by
  have h1 := hs f a b c hf
  have h0 := face_level m f a b c q hf hq
  have : (outward a b c).dot (q + s • d - a) = (outward a b c).dot (q - a) +
      (outward a b c).dot d * s := by
    rw [Vec3.dot_sub, Vec3.dot_add, Vec3.dot_smul, Vec3.dot_sub]
    ring
  rw [this, h0] at h1
  linarith

/-- C132: `is_entering` is right wherever a ray hits a convex mesh, also on edges and corners: a ray
that goes on to the inside of the mesh enters, a ray that comes from the inside does not. -/
theorem entering_right (L : TriLib) (m : Tri) (h : Trusted L m) (o d q : Vec3 ℝ)
    (hq : q ∈ meshIntersections L m o d) (s : ℝ) (hs : WithinMesh m (q + s • d)) :
    meshIsEntering L m q d = .ok (decide (0 < s)) := by
  obtain ⟨_, f, a, b, c, n, k, hin, hf, hn, _, hk, rfl⟩ := hit_normal L m h o d q hq
  have hside := side m f a b c q d hf hin s hs
  unfold meshIsEntering
  rw [hn]
  dsimp only
  rw [Vec3.smul_dot]
  by_cases hpos : 0 < s
  · rw [if_pos (by
      have : (outward a b c).dot d < 0 := by
        by_contra hc
        exact absurd hside (not_lt.2 (mul_nonneg (not_lt.1 hc) hpos.le))
      exact mul_neg_of_pos_of_neg hk this)]
    simp [hpos]
  · rw [if_neg (by
      have : 0 < (outward a b c).dot d := by
        by_contra hc
        exact absurd hside (not_lt.2 (mul_nonneg_of_nonpos_of_nonpos (not_lt.1 hc) (not_lt.1 hpos)))
      exact not_lt.2 (mul_pos hk this).le)]
    simp [hpos]

/-- C132: a ray that starts inside leaves wherever it hits. -/
theorem inside_leaves (L : TriLib) (m : Tri) (h : Trusted L m) (o d q : Vec3 ℝ) (ho : WithinMesh m o)
    (hq : q ∈ meshIntersections L m o d) : meshIsEntering L m q d = .ok false := by
  obtain ⟨t, ht, rfl, _⟩ := h.sound o d q (mem_intersections.1 hq)
  have he : o + t • d + (-t) • d = o := by ext <;> simp
  rw [entering_right L m h o d _ hq (-t) (by rw [he]; exact ho)]
  simp [ht]

/-- C132: a ray that passes the inside at `o + t0 d` enters at the hits before and leaves at the hits
after. -/
theorem passing (L : TriLib) (m : Tri) (h : Trusted L m) (o d : Vec3 ℝ) (t0 : ℝ)
    (h0 : WithinMesh m (o + t0 • d)) (t : ℝ) (hq : o + t • d ∈ meshIntersections L m o d) :
    meshIsEntering L m (o + t • d) d = .ok (decide (t < t0)) := by
  have he : o + t • d + (t0 - t) • d = o + t0 • d := by
    ext <;> simp only [Vec3.add_x, Vec3.add_y, Vec3.add_z, Vec3.smul_x, Vec3.smul_y, Vec3.smul_z] <;>
      ring
  rw [entering_right L m h o d _ hq (t0 - t) (by rw [he]; exact h0)]
  simp

theorem sub_eq_add (v c : Vec3 ℝ) : v - c = v + -c := by
  ext <;> simp <;> ring

theorem init_eq (L : TriLib) (m : Tri) :
    meshInit L m = { m with vertices := m.vertices.map (· + -L.centreMass m) } := by
  unfold meshInit
  simp only [sub_eq_add]

/-- C132: the mesh of a `Mesh` has its centre of mass at the origin, and the same faces. -/
theorem centred (L : TriLib) (m : Tri) (h : Trusted L m) :
    L.centreMass (meshInit L m) = 0 ∧ (meshInit L m).faces = m.faces := by
  refine ⟨?_, rfl⟩
  rw [init_eq, h.centre]
  ext <;> simp

/-- C132: making a second `Mesh` of the same object changes nothing. -/
theorem centred_again (L : TriLib) (m : Tri) (h : Trusted L m) :
    meshInit L (meshInit L m) = meshInit L m := by
  conv_lhs => rw [meshInit, (centred L m h).1]
  have : (fun x : Vec3 ℝ => x - 0) = id := by funext x; ext <;> simp
  rw [this, List.map_id]

/-- A `Mesh` does not stand where its file puts it: the same mesh moved by `v` gives the same
`Mesh`. -/
theorem position_lost (L : TriLib) (m : Tri) (h : Trusted L m) (v : Vec3 ℝ) :
    meshInit L { m with vertices := m.vertices.map (· + v) } = meshInit L m := by
  unfold meshInit
  rw [h.centre]
  simp only [List.map_map]
  congr 1
  refine List.map_congr_left fun x _ => ?_
  simp only [Function.comp]
  ext <;> simp <;> ring

/-- Making a `Mesh` changes the caller's object whenever that is not centred and has a vertex. -/
theorem caller_changed (L : TriLib) (m : Tri) (hc : L.centreMass m ≠ 0) (hv : m.vertices ≠ []) :
    meshInit L m ≠ m := by
  intro he
  apply hc
  have hv' := congrArg Tri.vertices he
  cases hm : m.vertices with
  | nil => exact absurd hm hv
  | cons x l =>
    simp only [meshInit, hm, List.map_cons, List.cons.injEq] at hv'
    have hx := hv'.1
    have h1 := congrArg Vec3.x hx
    have h2 := congrArg Vec3.y hx
    have h3 := congrArg Vec3.z hx
    simp only [Vec3.sub_x, Vec3.sub_y, Vec3.sub_z] at h1 h2 h3
    ext <;> simp <;> linarith

/-! ### A library that can be trusted, and a tetrahedron -/

noncomputable section
open Classical

/-- Where a ray meets the plane of a face. -/
def crossing (m : Tri) (o d : Vec3 ℝ) (f : ℕ) : Option (Vec3 ℝ) :=
  if h : ∃ t : ℝ, 0 ≤ t ∧ InFace m f (o + t • d) ∧
      ∃ a b c, Face m f a b c ∧ (outward a b c).dot d ≠ 0 then
    some (o + h.choose • d)
  else none

/-- The mean of the vertices. -/
def mean (m : Tri) : Vec3 ℝ := (1 / (m.vertices.length : ℝ)) • m.vertices.foldr (· + ·) 0

/-- Exact answers. -/
def reference : TriLib where
  centreMass := mean
  hits m o d := (List.range m.faces.length).filterMap (crossing m o d)
  onSurface m q := if h : ∃ f, InFace m f q then [(q, 0, h.choose)] else []
  faceNormal m f :=
    if h : ∃ n : Vec3 ℝ, ∃ a b c, Face m f a b c ∧
        n = (1 / vnorm (outward a b c)) • outward a b c then some h.choose
    else none

theorem face_unique {m : Tri} {f : ℕ} {a b c a' b' c' : Vec3 ℝ} (h : Face m f a b c)
    (h' : Face m f a' b' c') : a = a' ∧ b = b' ∧ c = c' := by
  obtain ⟨i, j, k, h1, h2, h3, h4⟩ := h
  obtain ⟨i', j', k', g1, g2, g3, g4⟩ := h'
  rw [h1] at g1
  cases g1
  rw [h2] at g2; rw [h3] at g3; rw [h4] at g4
  cases g2; cases g3; cases g4
  exact ⟨rfl, rfl, rfl⟩

theorem mean_moved (m : Tri) (hv : m.vertices ≠ []) (v : Vec3 ℝ) :
    mean { m with vertices := m.vertices.map (· + v) } = mean m + v := by
  have key : ∀ l : List (Vec3 ℝ), (l.map (· + v)).foldr (· + ·) 0 =
      l.foldr (· + ·) 0 + (l.length : ℝ) • v := by
    intro l
    induction l with
    | nil => ext <;> simp
    | cons x l ih =>
      rw [List.map_cons, List.foldr_cons, ih, List.foldr_cons, List.length_cons]
      ext <;> simp <;> ring
  have hn : (m.vertices.length : ℝ) ≠ 0 := by
    simpa using hv
  unfold mean
  dsimp only
  rw [key, List.length_map]
  ext <;> simp <;> field_simp

theorem dot_self_pos {n : Vec3 ℝ} (h : n ≠ 0) : 0 < n.dot n := by
  by_contra hc
  apply h
  have hc := not_lt.1 hc
  simp only [Vec3.dot] at hc
  ext
  · simp only [Vec3.zero_x]; nlinarith [mul_self_nonneg n.x, mul_self_nonneg n.y, mul_self_nonneg n.z]
  · simp only [Vec3.zero_y]; nlinarith [mul_self_nonneg n.x, mul_self_nonneg n.y, mul_self_nonneg n.z]
  · simp only [Vec3.zero_z]; nlinarith [mul_self_nonneg n.x, mul_self_nonneg n.y, mul_self_nonneg n.z]

/-- Every proper mesh has answers that can be trusted. -/
theorem reference_trusted (m : Tri) (hp : ProperMesh m) (hv : m.vertices ≠ []) :
    Trusted reference m where
  sound := by
    intro o d q hq
    obtain ⟨f, _, hf⟩ := List.mem_filterMap.1 hq
    unfold crossing at hf
    split_ifs at hf with h
    obtain ⟨h1, h2, _⟩ := h.choose_spec
    cases hf
    exact ⟨h.choose, h1, rfl, f, h2⟩
  complete := by
    intro o d f a b c t hf hd ht hin
    refine List.mem_filterMap.2 ⟨f, List.mem_range.2 ?_, ?_⟩
    · obtain ⟨i, j, k, h1, _⟩ := hf
      exact (List.getElem?_eq_some_iff.1 h1).1
    · have h : ∃ t : ℝ, 0 ≤ t ∧ InFace m f (o + t • d) ∧
          ∃ a b c, Face m f a b c ∧ (outward a b c).dot d ≠ 0 := ⟨t, ht, hin, a, b, c, hf, hd⟩
      unfold crossing
      rw [dif_pos h]
      obtain ⟨_, h2, _⟩ := h.choose_spec
      have e1 := face_level m f a b c _ hf hin
      have e2 := face_level m f a b c _ hf h2
      rw [Vec3.dot_sub, Vec3.dot_add, Vec3.dot_smul] at e1 e2
      have : (h.choose - t) * (outward a b c).dot d = 0 := by linarith
      rcases mul_eq_zero.1 this with h0 | h0
      · rw [sub_eq_zero.1 h0]
      · exact absurd h0 hd
  nearest := by
    intro q f hf
    have h : ∃ f, InFace m f q := ⟨f, hf⟩
    exact ⟨h.choose, by simp only [reference]; rw [dif_pos h], h.choose_spec⟩
  normal := by
    intro f a b c hf
    have h : ∃ n : Vec3 ℝ, ∃ a b c, Face m f a b c ∧
        n = (1 / vnorm (outward a b c)) • outward a b c := ⟨_, a, b, c, hf, rfl⟩
    obtain ⟨a', b', c', hf', hn⟩ := h.choose_spec
    obtain ⟨rfl, rfl, rfl⟩ := face_unique hf hf'
    have hpos := dot_self_pos (hp f a b c hf)
    have hs : 0 < vnorm (outward a b c) := Real.sqrt_pos.2 hpos
    refine ⟨h.choose, 1 / vnorm (outward a b c), by simp only [reference]; rw [dif_pos h], ?_,
      by positivity, hn⟩
    rw [hn, Vec3.smul_dot, Vec3.dot_smul]
    have hsq : vnorm (outward a b c) * vnorm (outward a b c) = (outward a b c).dot (outward a b c) :=
      Real.mul_self_sqrt hpos.le
    rw [← hsq]
    field_simp
  centre := fun v => mean_moved m hv v

/-- A tetrahedron with a corner at the origin, faces counterclockwise from outside. -/
def tetra : Tri where
  vertices := [⟨0, 0, 0⟩, ⟨1, 0, 0⟩, ⟨0, 1, 0⟩, ⟨0, 0, 1⟩]
  faces := [(0, 2, 1), (0, 1, 3), (0, 3, 2), (1, 2, 3)]

theorem tetra_faces {f : ℕ} {a b c : Vec3 ℝ} (h : Face tetra f a b c) :
    outward a b c = ⟨0, 0, -1⟩ ∧ a = ⟨0, 0, 0⟩ ∨ outward a b c = ⟨0, -1, 0⟩ ∧ a = ⟨0, 0, 0⟩ ∨
    outward a b c = ⟨-1, 0, 0⟩ ∧ a = ⟨0, 0, 0⟩ ∨ outward a b c = ⟨1, 1, 1⟩ ∧ a = ⟨1, 0, 0⟩ := by
  obtain ⟨i, j, k, h1, h2, h3, h4⟩ := h
  match f with
  | 0 | 1 | 2 | 3 =>
    simp only [tetra, List.getElem?_cons_zero, List.getElem?_cons_succ, Option.some.injEq,
      Prod.mk.injEq] at h1
    obtain ⟨rfl, rfl, rfl⟩ := h1
    simp only [tetra, List.getElem?_cons_zero, List.getElem?_cons_succ, Option.some.injEq] at h2 h3 h4
    subst h2 h3 h4
    simp [outward, Vec3.cross]
  | n + 4 => simp [tetra] at h1

theorem tetra_trusted : Trusted reference tetra := by
  refine reference_trusted _ ?_ (by simp [tetra])
  intro f a b c h he
  rcases tetra_faces h with ⟨h, _⟩ | ⟨h, _⟩ | ⟨h, _⟩ | ⟨h, _⟩ <;> rw [h] at he
  · have := congrArg Vec3.z he; norm_num at this
  · have := congrArg Vec3.y he; norm_num at this
  · have := congrArg Vec3.x he; norm_num at this
  · have := congrArg Vec3.x he; norm_num at this

theorem tetra_within : WithinMesh tetra ⟨1 / 5, 1 / 5, 1 / 5⟩ := by
  intro f a b c h
  rcases tetra_faces h with ⟨h, rfl⟩ | ⟨h, rfl⟩ | ⟨h, rfl⟩ | ⟨h, rfl⟩ <;> rw [h] <;>
    norm_num [Vec3.dot]

/-- A ray through the tetrahedron enters at height 0. -/
example : meshIsEntering reference tetra ⟨1 / 5, 1 / 5, 0⟩ ⟨0, 0, 1⟩ = .ok true := by
  have hface : Face tetra 0 ⟨0, 0, 0⟩ ⟨0, 1, 0⟩ ⟨1, 0, 0⟩ :=
    ⟨0, 2, 1, rfl, rfl, rfl, rfl⟩
  have hin : InFace tetra 0 ((⟨1 / 5, 1 / 5, -1⟩ : Vec3 ℝ) + (1 : ℝ) • (⟨0, 0, 1⟩ : Vec3 ℝ)) :=
    ⟨_, _, _, hface, 3 / 5, 1 / 5, 1 / 5, by norm_num, by norm_num, by norm_num, by norm_num, by
      ext <;> norm_num⟩
  have hhit := tetra_trusted.complete ⟨1 / 5, 1 / 5, -1⟩ ⟨0, 0, 1⟩ 0 _ _ _ 1 hface
    (by norm_num [outward, Vec3.cross, Vec3.dot]) (by norm_num) hin
  have := passing reference tetra tetra_trusted ⟨1 / 5, 1 / 5, -1⟩ ⟨0, 0, 1⟩ (6 / 5)
    (by
      have e : (⟨1 / 5, 1 / 5, -1⟩ : Vec3 ℝ) + (6 / 5 : ℝ) • (⟨0, 0, 1⟩ : Vec3 ℝ) =
          ⟨1 / 5, 1 / 5, 1 / 5⟩ := by ext <;> norm_num
      rw [e]; exact tetra_within) 1 (mem_intersections.2 hhit)
  have e : (⟨1 / 5, 1 / 5, -1⟩ : Vec3 ℝ) + (1 : ℝ) • (⟨0, 0, 1⟩ : Vec3 ℝ) = ⟨1 / 5, 1 / 5, 0⟩ := by
    ext <;> norm_num
  rw [e] at this
  rw [this]
  norm_num

/-- The tetrahedron is moved when a `Mesh` is made of it. -/
theorem tetra_moved : meshInit reference tetra ≠ tetra := by
  refine caller_changed _ _ ?_ (by simp [tetra])
  intro h
  have := congrArg Vec3.x h
  norm_num [reference, mean, tetra] at this

end

end PV.MeshShape
