import Verif.Model.StudioPlot
import Verif.Props.Tally
import Verif.Props.AutoRecord
import Mathlib.Analysis.Real.Pi.Bounds
import Mathlib.Analysis.SpecialFunctions.Trigonometric.Bounds

/-!
C92: the plots of the studio page against the counts they picture.
-/

namespace PV.Plot
open PV
noncomputable section

/-! ### Heat maps -/

theorem foldl_sets {β : Type} (S : (ℕ → Option ℕ) → β → ℕ → Option ℕ) (p w : ℕ) : ∀ (l : List β)
    (_ : ∀ x ∈ l, ∀ im, S im x p = some w ∨ S im x p = im p) (im : ℕ → Option ℕ)
    (_ : im p = some w ∨ ∃ x ∈ l, ∀ im, S im x p = some w), (l.foldl S im) p = some w := by
  intro l
  induction l with
  | nil =>
    rintro _ im (h | ⟨x, hx, _⟩)
    · exact h
    · cases hx
  | cons x l ih =>
    intro hS im h
    rw [List.foldl_cons]
    refine ih (fun y hy => hS y (List.mem_cons_of_mem _ hy)) _ ?_
    rcases h with h | ⟨y, hy, h⟩
    · rcases hS x List.mem_cons_self im with h' | h'
      · exact .inl h'
      · exact .inl (h'.trans h)
    · rcases List.mem_cons.1 hy with rfl | hy
      · exact .inl (h im)
      · exact .inr ⟨y, hy, h⟩

theorem foldl_keeps {β : Type} (S : (ℕ → Option ℕ) → β → ℕ → Option ℕ) (p : ℕ) : ∀ (l : List β)
    (_ : ∀ x ∈ l, ∀ im, S im x p = im p) (im : ℕ → Option ℕ), (l.foldl S im) p = im p := by
  intro l
  induction l with
  | nil => intro _ im; rfl
  | cons x l ih =>
    intro hS im
    rw [List.foldl_cons, ih (fun y hy => hS y (List.mem_cons_of_mem _ hy)), hS x List.mem_cons_self]

/-- The pixel in column `px` and row `py` from the top. -/
theorem heatImage_eq {na nb px py : ℕ} (hx : px < na) (hy : py < nb) :
    heatImage na nb (py * na + px) = some (px * nb + (nb - 1 - py)) := by
  have inj : ∀ ia < na, ∀ r, py * na + px = r * na + ia → ia = px ∧ r = py := by
    intro ia hi r h
    have h1 : (py * na + px) % na = px := by rw [mul_comm, Nat.mul_add_mod, Nat.mod_eq_of_lt hx]
    have h2 : (r * na + ia) % na = ia := by rw [mul_comm, Nat.mul_add_mod, Nat.mod_eq_of_lt hi]
    have h3 : (py * na + px) / na = py := by
      rw [mul_comm, Nat.mul_add_div (by omega), Nat.div_eq_of_lt hx, add_zero]
    have h4 : (r * na + ia) / na = r := by
      rw [mul_comm, Nat.mul_add_div (by omega), Nat.div_eq_of_lt hi, add_zero]
    exact ⟨by rw [← h2, ← h, h1], by rw [← h4, ← h, h3]⟩
  unfold heatImage
  refine foldl_sets _ _ _ _ (fun ia hia im => ?_) _ (.inr ⟨px, List.mem_range.2 hx, fun im => ?_⟩)
  · have hia := List.mem_range.1 hia
    by_cases h : ia = px
    · refine .inl ?_
      subst h
      refine foldl_sets _ _ _ _ (fun ib hib im => ?_) _ (.inr ⟨nb - 1 - py, List.mem_range.2 (by omega), fun im => ?_⟩)
      · have hib := List.mem_range.1 hib
        by_cases he : py * na + ia = (nb - 1 - ib) * na + ia
        · have := (inj ia hx _ he).2
          rw [if_pos he]
          exact .inl (by congr 2; omega)
        · exact .inr (if_neg he)
      · rw [if_pos]
        congr 2
        omega
    · refine .inr (foldl_keeps _ _ _ (fun ib _ im => ?_) _)
      rw [if_neg]
      intro he
      exact h (inj ia hia _ he).1
  · refine foldl_sets _ _ _ _ (fun ib hib im => ?_) _ (.inr ⟨nb - 1 - py, List.mem_range.2 (by omega), fun im => ?_⟩)
    · have hib := List.mem_range.1 hib
      by_cases he : py * na + px = (nb - 1 - ib) * na + px
      · have := (inj px hx _ he).2
        rw [if_pos he]
        exact .inl (by congr 2; omega)
      · exact .inr (if_neg he)
    · rw [if_pos]
      congr 2
      omega

theorem floor_lt_of {f : ℝ} {n : ℕ} (h0 : 0 ≤ f) (h1 : f < 1) (hn : 0 < n) : ⌊f * n⌋₊ < n := by
  have hn' : (0 : ℝ) < n := by exact_mod_cast hn
  rw [Nat.floor_lt (by positivity)]
  nlinarith

/-- Counting bins from the other end, off the lines between them. -/
theorem floor_flip {f : ℝ} {n : ℕ} (h0 : 0 ≤ f) (h1 : f < 1) (hn : 0 < n) (hk : ∀ k : ℕ, f * n ≠ k) :
    n - 1 - ⌊f * n⌋₊ = ⌊(1 - f) * n⌋₊ := by
  have hlt := floor_lt_of h0 h1 hn
  have hn' : (0 : ℝ) < n := by exact_mod_cast hn
  have ha := Nat.floor_le (show 0 ≤ f * n by positivity)
  have hb := Nat.lt_floor_add_one (f * n)
  have ha' : (⌊f * n⌋₊ : ℝ) < f * n := lt_of_le_of_ne ha (Ne.symm (hk _))
  generalize ⌊f * n⌋₊ = m at *
  obtain ⟨r, rfl⟩ : ∃ r, n = m + 1 + r := ⟨n - m - 1, by omega⟩
  have e : m + 1 + r - 1 - m = r := by omega
  rw [e, eq_comm, Nat.floor_eq_iff (by nlinarith)]
  push_cast at *
  constructor <;> nlinarith

/-- **C92**. The count named by the inspector is that of the bin painted under the pointer. -/
theorem picture_matches_inspector {na nb : ℕ} (ha : 0 < na) (hb : 0 < nb) {fx ft : ℝ}
    (hx : 0 ≤ fx) (hx' : fx < 1) (ht : 0 ≤ ft) (ht' : ft < 1) (hoff : ∀ k : ℕ, ft * nb ≠ k) :
    heatCanvas na nb fx ft =
      some ((inspectHeat na nb fx ft).1 * nb + (inspectHeat na nb fx ft).2) := by
  have h1 := floor_lt_of hx hx' ha
  have h2 := floor_lt_of ht ht' hb
  unfold heatCanvas inspectHeat
  dsimp only
  rw [heatImage_eq h1 h2, floor_flip ht ht' hb hoff]
  have h3 : ⌊(1 - ft) * nb⌋₊ ≤ nb - 1 := by
    rw [← floor_flip ht ht' hb hoff]
    omega
  rw [Nat.min_eq_right (by omega), Nat.min_eq_right h3]

/-- **C92**. The intervals named by the inspector are those whose rays its count counts, for values not
below the range. -/
theorem inspector_truth (a b : Axis ℝ) (ha : a.Valid) (hb : b.Valid) {fx ft : ℝ} (vs : Values ℝ)
    (hva : a.start ≤ vs.get a.prop) (hvb : b.start ≤ vs.get b.prop) :
    let i := (inspectHeat a.bins b.bins fx ft).1
    let j := (inspectHeat a.bins b.bins fx ft).2
    (Hist.heat a b).bin vs = some (i * b.bins + j) ↔
      (a.edge i ≤ vs.get a.prop ∧ vs.get a.prop < a.edge (i + 1)) ∧
      (b.edge j ≤ vs.get b.prop ∧ vs.get b.prop < b.edge (j + 1)) := by
  have h1 := ha.2
  have h2 := hb.2
  refine Tally.heat_bin_partial a b ha hb vs hva hvb _ _ ?_ ?_
  · unfold inspectHeat
    exact lt_of_le_of_lt (Nat.min_le_left _ _) (by omega)
  · unfold inspectHeat
    exact lt_of_le_of_lt (Nat.min_le_left _ _) (by omega)

/-! ### Overlays on the faces of boxes -/

/-- The bin of an axis that spans the face. -/
theorem axis_floor (P : RayProp) (s : ℝ) (hs : 0 < s) (n : ℕ) (hn : 0 < n) {t : ℝ} (h0 : 0 < t) (h1 : t < 1) :
    binIndex (quadPoint s t) ⟨P, -(s / 2), s / 2, n⟩ = some ⌊t * n⌋₊ := by
  have hn' : (0 : ℝ) < n := by exact_mod_cast hn
  rw [Tally.binIndex_eq_some_iff]
  refine ⟨floor_lt_of h0.le h1 hn, ?_⟩
  have e : (quadPoint s t - -(s / 2)) / (s / 2 - -(s / 2)) * (n : ℝ) = t * n := by
    unfold quadPoint
    field_simp
    ring
  simp only [e]
  unfold truncZ
  have : 0 ≤ t * n := by positivity
  rw [if_pos this, Int.natCast_floor_eq_floor this]

/-- The face overlay of a recorder: on the face of its facet, along the axes of its heat map. -/
theorem overlay_axes {i u v : Fin 3} {σ : ℝ} (hσ : σ = 1 ∨ σ = -1) {P Q : RayProp} (hP : axisIndex P = some u)
    (hQ : axisIndex Q = some v) (hu : u ≠ i) (hv : v ≠ i) :
    overlay (some (axisNormal i σ)) (some (P, Q)) = some ⟨i, σ, u, v⟩ := by
  have habs : |σ| = 1 := by rcases hσ with h | h <;> simp [h]
  have hsgn : ((SignType.sign σ : SignType) : ℝ) = σ := by rcases hσ with h | h <;> simp [h]
  have hf : ([0, 1, 2].find? fun j : Fin 3 => decide (|(axisNormal i σ).get j| > 0.5)) = some i := by
    have h1 : ¬ (1 : ℝ) ≤ 0.5 := by norm_num
    have h0 : ¬ (0.5 : ℝ) < 0 := by norm_num
    have h2 : (0.5 : ℝ) < 1 := by norm_num
    fin_cases i <;> simp [axisNormal, Vec3.get, List.find?, habs, h0, h2]
  have hg : (axisNormal i σ).get i = σ := by fin_cases i <;> simp [axisNormal, Vec3.get]
  simp only [overlay, hf, hP, hQ, hg, hsgn]
  rw [if_neg (by simp [hu, hv])]

/-- **C92**, the part that holds: if the heat map of a face recorder is over the two coordinates of the
face and its ranges are those of the face, as for the recorders of `record: true`, then every point of
the overlay is painted with the count of the bin of that point. -/
theorem overlay_exact_partial {size : Vec3 ℝ} {i u v : Fin 3} {σ : ℝ} (hσ : σ = 1 ∨ σ = -1)
    {P Q : RayProp} (hP : axisIndex P = some u) (hQ : axisIndex Q = some v) (hu : u ≠ i) (hv : v ≠ i)
    (hsu : 0 < size.get u) (hsv : 0 < size.get v) {na nb : ℕ} (hna : 0 < na) (hnb : 0 < nb)
    {x y : ℝ} (hx : 0 < x) (hx' : x < 1) (hy : 0 < y) (hy' : y < 1) (hoff : ∀ k : ℕ, (1 - y) * nb ≠ k)
    (vs : Values ℝ) (hvu : vs.position.get u = quadPoint (size.get u) x)
    (hvv : vs.position.get v = quadPoint (size.get v) y) :
    overlay (some (axisNormal i σ)) (some (P, Q)) = some ⟨i, σ, u, v⟩ ∧
    textured na nb x y = (Hist.heat ⟨P, -(size.get u / 2), size.get u / 2, na⟩
      ⟨Q, -(size.get v / 2), size.get v / 2, nb⟩).bin vs := by
  refine ⟨overlay_axes hσ hP hQ hu hv, ?_⟩
  have get : ∀ {R : RayProp} {w : Fin 3}, axisIndex R = some w → vs.get R = vs.position.get w := by
    intro R w h
    cases R <;> simp [axisIndex] at h <;> subst h <;> rfl
  unfold textured heatCanvas
  rw [heatImage_eq (floor_lt_of hx.le hx' hna) (floor_lt_of (by linarith) (by linarith) hnb),
    floor_flip (by linarith) (by linarith) hnb hoff, sub_sub_cancel]
  simp only [Hist.bin, get hP, get hQ, hvu, hvv, axis_floor P _ hsu na hna hx hx',
    axis_floor Q _ hsv nb hnb hy hy']

/-- The overlays of `record: true` meet the conditions: the top face of a box. -/
example (vs : Values ℝ) (hx : vs.position.x = quadPoint 10 0.33) (hy : vs.position.y = quadPoint 4 0.77) :
    textured 20 10 0.33 0.77 = (Hist.heat ⟨.x, -(10 / 2), 10 / 2, 20⟩ ⟨.y, -(4 / 2), 4 / 2, 10⟩).bin vs :=
  (overlay_exact_partial (size := ⟨10, 4, 1⟩) (i := 2) (u := 0) (v := 1) (σ := 1) (.inl rfl) rfl rfl
    (by decide) (by decide) (by norm_num [Vec3.get]) (by norm_num [Vec3.get]) (by norm_num) (by norm_num)
    (by norm_num) (by norm_num) (by norm_num) (by norm_num)
    (by
      intro k h
      norm_num at h
      have h1 : (2 : ℝ) < k := by linarith
      have h2 : (k : ℝ) < 3 := by linarith
      have h3 : 2 < k := by exact_mod_cast h1
      have h4 : k < 3 := by exact_mod_cast h2
      omega) vs hx hy).2

/-- **C92** is violated: the overlay is stretched over the whole face whatever the range of the heat map.
With x from 0 to 5 on a box of length 10, the point x = -2.5 is painted with the count of x from 1 to 1.5,
although rays there are not counted at all. -/
theorem overlay_stretched (b : Axis ℝ) (nb : ℕ) (hnb : 0 < nb) {y : ℝ} (hy : 0 < y) (hy' : y < 1)
    (hoff : ∀ k : ℕ, (1 - y) * nb ≠ k) (vs : Values ℝ) (hx : vs.position.x = quadPoint 10 0.25) :
    (∃ j < nb, textured 10 nb 0.25 y = some (2 * nb + j)) ∧
    (⟨.x, 0, 5, 10⟩ : Axis ℝ).edge 2 = 1 ∧ (⟨.x, 0, 5, 10⟩ : Axis ℝ).edge 3 = 1.5 ∧
    (Hist.heat ⟨.x, 0, 5, 10⟩ b).bin vs = none := by
  refine ⟨?_, by norm_num [Axis.edge], by norm_num [Axis.edge], ?_⟩
  · unfold textured heatCanvas
    rw [heatImage_eq (floor_lt_of (by norm_num) (by norm_num) (by norm_num))
      (floor_lt_of (by linarith) (by linarith) hnb)]
    refine ⟨nb - 1 - ⌊(1 - y) * nb⌋₊, by omega, ?_⟩
    have : ⌊(0.25 : ℝ) * (10 : ℕ)⌋₊ = 2 := by
      rw [Nat.floor_eq_iff (by norm_num)]
      norm_num
    rw [this]
  · have h : binIndex (vs.get .x) (⟨.x, 0, 5, 10⟩ : Axis ℝ) = none := by
      have e : vs.get .x = -2.5 := by
        change vs.position.x = _
        rw [hx]
        norm_num [quadPoint]
      rw [e]
      cases hb : binIndex (-2.5 : ℝ) (⟨.x, 0, 5, 10⟩ : Axis ℝ) with
      | none => rfl
      | some k =>
        have hv : (⟨.x, 0, 5, 10⟩ : Axis ℝ).Valid := by constructor <;> norm_num
        obtain ⟨_, h | h⟩ := (Tally.bin_exact _ hv _ _).1 hb
        · have := h.2.1
          have : (0 : ℝ) ≤ (⟨.x, 0, 5, 10⟩ : Axis ℝ).edge k := by
            unfold Axis.edge
            positivity
          linarith
        · have := h.2.1
          norm_num [Tally.width] at this
    simp only [Hist.bin, h]

/-- **C92** is violated: a heat map over wavelength and angle is painted on the face as if it were over
positions. -/
theorem overlay_not_positions (i : Fin 3) :
    overlay (some (axisNormal i 1)) (some (.wavelength, .angle)) = overlay (some (axisNormal i 1)) none := by
  rfl

/-! ### Bars -/

/-- C92: an overlay without a heat map of positions lies along the two other axes of the box, in their order. -/
theorem overlay_plain {f : Vec3 ℝ} {o : Overlay} (h : overlay (some f) none = some o) :
    o.u < o.v ∧ o.u ≠ o.axis ∧ o.v ≠ o.axis ∧ |f.get o.axis| > 0.5 ∧ ∀ i < o.axis, |f.get i| ≤ 0.5 := by
  unfold overlay at h
  dsimp only at h
  split at h
  · cases h
  · rename_i axis hx
    cases h
    have hi := List.find?_some hx
    simp only [decide_eq_true_eq] at hi
    have hall : ∀ i : Fin 3, i < axis → |f.get i| ≤ 0.5 := by
      intro i hlt
      have hx' := List.find?_eq_some_iff_getElem.1 hx
      obtain ⟨-, n, hn, hget, hbefore⟩ := hx'
      have hn3 : n < 3 := by simpa using hn
      have hidx : ∀ m (hm : m < 3), ([0, 1, 2] : List (Fin 3))[m]'(by simpa using hm) = ⟨m, hm⟩ := by
        intro m hm
        match m, hm with
        | 0, _ => rfl
        | 1, _ => rfl
        | 2, _ => rfl
      rw [hidx n hn3] at hget
      subst hget
      have := hbefore i.1 hlt
      rw [hidx i.1 i.2] at this
      simpa using this
    refine ⟨?_, ?_, ?_, hi, hall⟩
    all_goals
      clear hx hi hall
      dsimp only
      revert axis
      decide

example : ∃ o, overlay (some ⟨0, -1, 0⟩) none = some o ∧ o.axis = 1 := by
  have h : [0, 1, 2].find? (fun i : Fin 3 => decide (|(⟨0, -1, 0⟩ : Vec3 ℝ).get i| > 0.5)) = some 1 := by
    norm_num [List.find?, Vec3.get]
  exact ⟨_, by unfold overlay; dsimp only; rw [h], rfl⟩

/-- **C92**. The heights of bars are as the counts, and fit the canvas. -/
theorem bars_proportional (H : ℝ) (hH : 4 < H) (values : List ℕ) {v w : ℕ} :
    barHeight H values v * w = barHeight H values w * v ∧
    (v ∈ values → 0 ≤ barHeight H values v ∧ barHeight H values v ≤ H - 4) := by
  have hmax : ∀ (l : List ℕ) (m : ℕ), m ≤ l.foldl max m ∧ ∀ x ∈ l, x ≤ l.foldl max m := by
    intro l
    induction l with
    | nil => intro m; simp
    | cons a l ih =>
      intro m
      obtain ⟨h1, h2⟩ := ih (max m a)
      rw [List.foldl_cons]
      refine ⟨(le_max_left m a).trans h1, fun x hx => ?_⟩
      rcases List.mem_cons.1 hx with rfl | hx
      · exact (le_max_right m x).trans h1
      · exact h2 x hx
  obtain ⟨h1, h2⟩ := hmax values 1
  refine ⟨by unfold barHeight; ring, fun hv => ?_⟩
  have h2 := h2 v hv
  unfold barHeight
  generalize values.foldl max 1 = M at h1 h2
  have hM : (0 : ℝ) < M := by exact_mod_cast h1
  have hle : (v : ℝ) / M ≤ 1 := (div_le_one hM).2 (by exact_mod_cast h2)
  have h0 : (0 : ℝ) ≤ v / M := by positivity
  constructor <;> nlinarith

/-- **C92**, the part that holds for bars: over bar `i` of a histogram with at most half as many bins as
pixels the inspector names bin `i` or a neighbour, always one of the histogram's. -/
theorem bar_within_one_partial {W : ℝ} {n i : ℕ} (hn : 0 < n) (hW : 2 * n ≤ W) (hW' : 4 < W) (hi : i < n)
    {X : ℝ} (h0 : barLeft W n i ≤ X) (h1 : X < barLeft W n (i + 1)) :
    i ≤ inspectBar n (X / W) + 1 ∧ inspectBar n (X / W) ≤ i + 1 ∧ inspectBar n (X / W) < n := by
  have hn' : (0 : ℝ) < n := by exact_mod_cast hn
  have hi' : (i : ℝ) + 1 ≤ n := by exact_mod_cast hi
  have hi0 : (0 : ℝ) ≤ i := Nat.cast_nonneg i
  unfold barLeft at h0 h1
  push_cast at h1
  have hWp : 0 < W := by linarith
  have hb : 0 < (W - 2 * 2) / n := by apply div_pos <;> linarith
  have e : (W - 2 * 2) / n * n = W - 4 := by field_simp; ring
  generalize (W - 2 * 2) / (n : ℝ) = bw at *
  have hX : 0 ≤ X := by nlinarith
  have hlow : (i : ℝ) - 1 ≤ X / W * n := by
    rw [div_mul_eq_mul_div, le_div_iff₀ hWp]
    nlinarith
  have hhigh : X / W * n < i + 2 := by
    rw [div_mul_eq_mul_div, div_lt_iff₀ hWp]
    nlinarith
  have hnn : 0 ≤ X / W * n := by positivity
  unfold inspectBar
  refine ⟨?_, ?_, by omega⟩
  · have : i - 1 ≤ ⌊X / W * n⌋₊ := by
      apply Nat.le_floor
      rcases Nat.eq_zero_or_pos i with rfl | hp
      · simpa using hnn
      · rw [Nat.cast_sub hp]
        simpa using hlow
    omega
  · have : ⌊X / W * n⌋₊ < i + 2 := by
      rw [Nat.floor_lt hnn]
      push_cast
      exact hhigh
    omega

/-- **C92** is violated: with 150 bins on the canvas of 300 pixels the whole first bar is read as the
second bin. -/
theorem bar_misread {X : ℝ} (h0 : barLeft 300 150 0 ≤ X) (h1 : X ≤ barLeft 300 150 0 + barWidth 300 150) :
    inspectBar 150 (X / 300) = 1 := by
  norm_num [barLeft, barWidth] at h0 h1
  unfold inspectBar
  have : ⌊X / 300 * (150 : ℕ)⌋₊ = 1 := by
    rw [Nat.floor_eq_iff (by push_cast; linarith)]
    push_cast
    constructor <;> linarith
  rw [this]
  rfl

/-! ### Polar plots -/

theorem density_isotropic {c lo hi : ℝ} (h : 0.05 ≤ Real.sin ((lo + hi) / 2)) :
    density (c * (Real.cos lo - Real.cos hi)) ((lo + hi) / 2) = 2 * c * Real.sin ((hi - lo) / 2) := by
  unfold density
  rw [max_eq_left h, Real.cos_sub_cos]
  have : Real.sin ((lo + hi) / 2) ≠ 0 := by
    intro h0
    rw [h0] at h
    norm_num at h
  have e : (lo - hi) / 2 = -((hi - lo) / 2) := by ring
  rw [e, Real.sin_neg]
  field_simp

/-- **C92**. If counts are as the solid angles of their bins, the polar plot is a circular arc, as long as
no bin is too near the normal. -/
theorem isotropic_arc_partial (R c w : ℝ) (n : ℕ) (hpos : 1e-9 ≤ 2 * c * Real.sin (w / 2))
    (hmid : ∀ i < n, 0.05 ≤ Real.sin ((i * w + (i + 1) * w) / 2)) :
    let ds := (List.range n).map fun i : ℕ =>
      density (c * (Real.cos (i * w) - Real.cos ((i + 1) * w))) ((i * w + (i + 1) * w) / 2)
    ∀ d ∈ ds, radius R ds d = R := by
  intro ds d hd
  have hall : ∀ x ∈ ds, x = 2 * c * Real.sin (w / 2) := by
    intro x hx
    obtain ⟨i, hi, rfl⟩ := List.mem_map.1 hx
    rw [density_isotropic (hmid i (List.mem_range.1 hi))]
    congr 2
    ring
  have hfold : ∀ (l : List ℝ) (m D : ℝ), (∀ x ∈ l, x = D) → m ≤ D → l ≠ [] → l.foldl max m = D := by
    intro l
    induction l with
    | nil => intro m D _ _ h; exact absurd rfl h
    | cons a l ih =>
      intro m D h hm _
      rw [List.foldl_cons, h a List.mem_cons_self, max_eq_right hm]
      by_cases hl : l = []
      · rw [hl]; rfl
      · exact ih D D (fun x hx => h x (List.mem_cons_of_mem _ hx)) (le_refl _) hl
  unfold radius
  rw [hfold ds _ _ hall hpos (List.ne_nil_of_mem hd), hall d hd, div_self, one_mul]
  intro h0
  rw [h0] at hpos
  norm_num at hpos

/-- Nine bins of ten degrees meet the conditions. -/
example : 1e-9 ≤ 2 * (1000 : ℝ) * Real.sin (Real.pi / 18 / 2) ∧
    ∀ i < 9, (0.05 : ℝ) ≤ Real.sin (((i : ℕ) * (Real.pi / 18) + (i + 1) * (Real.pi / 18)) / 2) := by
  have hpi := Real.pi_pos
  have key : ∀ t : ℝ, 0 ≤ t → t ≤ 1 → t ≤ Real.sin (Real.pi / 2 * t) := by
    intro t h0 h1
    have := Real.mul_le_sin (x := Real.pi / 2 * t) (by positivity) (by nlinarith)
    have e : 2 / Real.pi * (Real.pi / 2 * t) = t := by field_simp
    rwa [e] at this
  constructor
  · have := key (1 / 18) (by norm_num) (by norm_num)
    have e : Real.pi / 18 / 2 = Real.pi / 2 * (1 / 18) := by ring
    rw [e]
    linarith
  · intro i hi
    have hi' : (i : ℝ) ≤ 8 := by exact_mod_cast Nat.le_of_lt_succ hi
    have h0 : (0 : ℝ) ≤ i := Nat.cast_nonneg i
    have := key ((2 * i + 1) / 18) (by positivity) (by linarith)
    have e : (i * (Real.pi / 18) + (i + 1) * (Real.pi / 18)) / 2 = Real.pi / 2 * ((2 * i + 1) / 18) := by ring
    rw [e]
    linarith

/-- **C92** is violated near the normal: with bins of one degree an isotropic distribution is drawn with
a dent, less than a fifth of the radius in the first bin. -/
theorem polar_dent {c : ℝ} (hc : 0 < c) :
    density (c * (Real.cos 0 - Real.cos (Real.pi / 180))) ((0 + Real.pi / 180) / 2) <
      1 / 5 * density (c * (Real.cos (Real.pi / 4 - Real.pi / 360) - Real.cos (Real.pi / 4 + Real.pi / 360)))
        ((Real.pi / 4 - Real.pi / 360 + (Real.pi / 4 + Real.pi / 360)) / 2) := by
  have hpi := Real.pi_pos
  have hpi' : Real.pi < 3.15 := Real.pi_lt_d2
  have hs0 : 0 < Real.sin (Real.pi / 360) := Real.sin_pos_of_pos_of_lt_pi (by positivity) (by linarith)
  have hs1 : Real.sin (Real.pi / 360) < Real.pi / 360 := Real.sin_lt (by positivity)
  rw [density_isotropic (lo := Real.pi / 4 - Real.pi / 360)]
  · have e1 : (Real.pi / 4 + Real.pi / 360 - (Real.pi / 4 - Real.pi / 360)) / 2 = Real.pi / 360 := by ring
    rw [e1]
    unfold density
    have e2 : (0 + Real.pi / 180) / 2 = Real.pi / 360 := by ring
    have e3 : (0 - Real.pi / 180) / 2 = -(Real.pi / 360) := by ring
    rw [Real.cos_sub_cos, e2, e3, Real.sin_neg, max_eq_right (by linarith)]
    generalize Real.sin (Real.pi / 360) = s at *
    rw [div_lt_iff₀ (by norm_num)]
    have : s < 0.00876 := by linarith
    nlinarith [mul_pos hc hs0]
  · have e : (Real.pi / 4 - Real.pi / 360 + (Real.pi / 4 + Real.pi / 360)) / 2 = Real.pi / 4 := by ring
    rw [e, Real.sin_pi_div_four]
    have : (1 : ℝ) ≤ √2 := Real.one_le_sqrt.2 (by norm_num)
    linarith

/-! ### Colours -/

/-- **C92**. Within one refresh a larger count never looks fainter, and the largest is the brightest. -/
theorem colours_ordered {M D v w : ℝ} (hM : 0 < M) (hD : 0 < D) (h : v ≤ w) :
    heatT M D v ≤ heatT M D w ∧ 0 ≤ heatT M D v ∧ heatT M D v ≤ 1 ∧ heatT M D M = 1 := by
  have hr : ∀ x, 0 ≤ heatT M D x ∧ heatT M D x ≤ 1 := by
    intro x
    unfold heatT
    split_ifs
    · constructor <;> norm_num
    · exact ⟨le_min zero_le_one (le_max_left _ _), min_le_left _ _⟩
  refine ⟨?_, (hr v).1, (hr v).2, ?_⟩
  · by_cases h0 : v ≤ 0
    · have : heatT M D v = 0 := if_pos h0
      rw [this]
      exact (hr w).1
    · unfold heatT
      rw [if_neg h0, if_neg (by linarith)]
      push Not at h0
      refine min_le_min_left _ (max_le_max_left _ ?_)
      have : Real.logb 10 (v / M) ≤ Real.logb 10 (w / M) := by
        rw [Real.logb_le_logb (by norm_num) (by positivity) (div_pos (by linarith) hM)]
        gcongr
      gcongr
  · unfold heatT
    rw [if_neg (by linarith), div_self hM.ne']
    simp

/-- No heat map entry exceeds the largest entry used for the colours. -/
theorem globalMax_bound (entries : List (List ℕ × Option (ℕ × ℕ))) :
    ∀ e ∈ entries, e.2.isSome → ∀ v ∈ e.1, v ≤ globalMax entries := by
  have inner : ∀ (l : List ℕ) (m : ℕ), m ≤ l.foldl (fun m v => if m < v then v else m) m ∧
      ∀ x ∈ l, x ≤ l.foldl (fun m v => if m < v then v else m) m := by
    intro l
    induction l with
    | nil => intro m; simp
    | cons a l ih =>
      intro m
      rw [List.foldl_cons]
      obtain ⟨h1, h2⟩ := ih (if m < a then a else m)
      have : m ≤ (if m < a then a else m) ∧ a ≤ (if m < a then a else m) := by split_ifs <;> omega
      refine ⟨this.1.trans h1, fun x hx => ?_⟩
      rcases List.mem_cons.1 hx with rfl | hx
      · exact this.2.trans h1
      · exact h2 x hx
  have outer : ∀ (l : List (List ℕ × Option (ℕ × ℕ))) (m : ℕ),
      m ≤ l.foldl (fun m e => if e.2.isNone then m else e.1.foldl (fun m v => if m < v then v else m) m) m ∧
      ∀ e ∈ l, e.2.isSome → ∀ v ∈ e.1,
        v ≤ l.foldl (fun m e => if e.2.isNone then m else e.1.foldl (fun m v => if m < v then v else m) m) m := by
    intro l
    induction l with
    | nil => intro m; simp
    | cons a l ih =>
      intro m
      rw [List.foldl_cons]
      obtain ⟨h1, h2⟩ := ih (if a.2.isNone then m else a.1.foldl (fun m v => if m < v then v else m) m)
      have hm : m ≤ (if a.2.isNone then m else a.1.foldl (fun m v => if m < v then v else m) m) := by
        split_ifs
        · exact le_refl _
        · exact (inner a.1 m).1
      refine ⟨hm.trans h1, fun e he hs v hv => ?_⟩
      rcases List.mem_cons.1 he with rfl | he
      · refine le_trans ?_ h1
        rw [if_neg (by cases h : e.2 <;> simp_all)]
        exact (inner e.1 m).2 v hv
      · exact h2 e he hs v hv
  exact (outer entries 1).2

end
end PV.Plot
