import Verif.Model.Spectrum
import Verif.Spec.Spectrum
import Verif.Props.Dyes

/-!
C110: the emission spectrum computed from an absorption spectrum.
-/

namespace PV.Spectrum
open PV.Spec

theorem conversion_pos : 0 < conversion := by unfold conversion h c q; norm_num

theorem energy_eq (w : ℝ) : conversion / w = photonEnergy w := by
  unfold conversion photonEnergy h c q
  rcases eq_or_ne w 0 with rfl | hw
  · simp
  · field_simp
    norm_num

theorem thermal_eq (T : ℝ) : kb / q * T = thermal T := by unfold thermal kb q; ring

theorem thermal_pos {T : ℝ} (hT : 0 < T) : 0 < thermal T := by unfold thermal; positivity

theorem energy_pos {w : ℝ} (hw : 0 < w) : 0 < photonEnergy w := by unfold photonEnergy; positivity

/-- Below the band gap wavelength a semiconductor absorbs `alpha`, above it nothing, and exactly there half. -/
theorem bandgap_step (x cutoff alpha : ℝ) :
    (x < cutoff → bandgap x cutoff alpha = alpha) ∧ (x = cutoff → bandgap x cutoff alpha = alpha / 2) ∧
      (cutoff < x → bandgap x cutoff alpha = 0) := by
  unfold bandgap
  refine ⟨fun h => ?_, fun h => ?_, fun h => ?_⟩
  · rw [if_pos (by linarith)]; ring
  · subst h; norm_num; ring
  · rw [if_neg (by linarith), if_neg (by intro h'; linarith)]; ring

/-- Wavelengths become photon energies, the other column stays. -/
theorem convert_energies {rows : List (ℝ × ℝ)} (h0 : ∀ r ∈ rows, r.1 ≠ 0) :
    convert (.floats rows) = some (.floats (rows.map fun r => (photonEnergy r.1, r.2))) := by
  simp only [convert, energy_eq]
  rw [if_neg]
  rintro ⟨r, hr, h⟩
  exact h0 r hr h

/-- Converting twice gives the spectrum back. -/
theorem convert_twice {rows : List (ℝ × ℝ)} (h0 : ∀ r ∈ rows, r.1 ≠ 0) :
    (convert (.floats rows)).bind convert = some (.floats rows) := by
  rw [convert_energies h0, Option.bind_some]
  simp only [← energy_eq]
  have hc := conversion_pos.ne'
  simp only [convert]
  rw [if_neg]
  · congr 2
    rw [List.map_map]
    conv_rhs => rw [← List.map_id rows]
    refine List.map_congr_left fun r hr => ?_
    have := h0 r hr
    simp only [Function.comp, id]
    ext
    · simp only; field_simp
    · rfl
  · rintro ⟨r, hr, h⟩
    obtain ⟨r', hr', rfl⟩ := List.mem_map.1 hr
    exact (div_ne_zero hc (h0 r' hr')) h

theorem radiated_eq (T mu : ℝ) (r : ℝ × ℝ) :
    radiated T mu r = 2 / (c ^ 2 * (h / q) ^ 3) * (r.2 * emissivity T mu r.1) := by
  unfold radiated emissivity
  rw [thermal_eq]
  ring

theorem factor_pos : 0 < 2 / (c ^ 2 * (h / q) ^ 3) := by unfold c h q; positivity

/-- The computation, when no entry is infinite: every row is divided by the largest value. -/
theorem emission_rows {rows : List (ℝ × ℝ)} {T mu : ℝ} (h0 : ∀ r ∈ rows, r.1 ≠ 0) (hT : T ≠ 0)
    (hmu : ∀ r ∈ rows, photonEnergy r.1 ≠ mu) {g : ℝ × ℝ → ℝ} (hg : ∀ r, g r = radiated T mu (photonEnergy r.1, r.2))
    {a : ℝ × ℝ} {l : List (ℝ × ℝ)} (hrows : rows = a :: l) (hM : Dyes.largest (g a) (l.map g) ≠ 0) :
    emission (.floats rows) T mu =
      some (.floats (rows.map fun r => (r.1, g r / Dyes.largest (g a) (l.map g)))) := by
  have hc := conversion_pos.ne'
  have hgf : (radiated T mu ∘ fun r : ℝ × ℝ => (photonEnergy r.1, r.2)) = g := by
    funext r; exact (hg r).symm
  unfold emission
  rw [convert_energies h0]
  simp only [Columns.rows]
  unfold emitted
  rw [if_neg]
  · rw [List.map_map, hgf]
    have e : rows.map g = g a :: l.map g := by rw [hrows]; rfl
    rw [e]
    simp only
    rw [if_neg hM, ← e, List.map_map, List.map_map, List.zip_map']
    rw [convert_energies]
    · rw [List.map_map]
      congr 2
      refine List.map_congr_left fun r hr => ?_
      have := h0 r hr
      simp only [Function.comp, ← energy_eq]
      congr 1
      field_simp
    · rintro r hr
      obtain ⟨r', hr', rfl⟩ := List.mem_map.1 hr
      simp only [Function.comp, ← energy_eq]
      exact div_ne_zero hc (h0 r' hr')
  · rintro (h | ⟨r, hr, h⟩)
    · exact hT h
    · obtain ⟨r', hr', rfl⟩ := List.mem_map.1 hr
      exact hmu r' hr' h

theorem emissivity_pos {T mu E : ℝ} (hT : 0 < T) (hE : E ≠ 0) (h : mu < E) : 0 < emissivity T mu E := by
  unfold emissivity
  refine div_pos (by positivity) ?_
  have : 0 < (E - mu) / thermal T := div_pos (by linarith) (thermal_pos hT)
  have := Real.add_one_lt_exp this.ne'
  linarith

theorem emissivity_neg {T mu E : ℝ} (hT : 0 < T) (hE : E ≠ 0) (h : E < mu) : emissivity T mu E < 0 := by
  unfold emissivity
  refine div_neg_of_pos_of_neg (by positivity) ?_
  have : (E - mu) / thermal T < 0 := div_neg_of_neg_of_pos (by linarith) (thermal_pos hT)
  have := Real.exp_lt_exp.2 this
  rw [Real.exp_zero] at this
  linarith

/-- **C110.** When every photon energy is above `mu` and something is absorbed, the emission is the one that belongs to the
absorption by the Bose–Einstein law, at the same wavelengths and with peak 1. -/
theorem emission_spec {rows : List (ℝ × ℝ)} {T mu : ℝ} (hT : 0 < T) (hw : ∀ r ∈ rows, 0 < r.1)
    (hmu : ∀ r ∈ rows, mu < photonEnergy r.1) (hy : ∀ r ∈ rows, 0 ≤ r.2) (hpos : ∃ r ∈ rows, 0 < r.2) :
    ∃ out, emission (.floats rows) T mu = some (.floats out) ∧ Emission T mu rows out := by
  obtain ⟨p, hp, hpp⟩ := hpos
  obtain ⟨a, l, hrows⟩ : ∃ a l, rows = a :: l := by
    cases rows with
    | nil => simp at hp
    | cons a l => exact ⟨a, l, rfl⟩
  set g : ℝ × ℝ → ℝ := fun r => radiated T mu (photonEnergy r.1, r.2) with hg
  have ge : ∀ r, g r = 2 / (c ^ 2 * (h / q) ^ 3) * (r.2 * emissivity T mu (photonEnergy r.1)) := fun r => radiated_eq _ _ _
  have hf := factor_pos
  have he : ∀ r ∈ rows, 0 < emissivity T mu (photonEnergy r.1) := fun r hr =>
    emissivity_pos hT (energy_pos (hw r hr)).ne' (hmu r hr)
  have g0 : ∀ r ∈ rows, 0 ≤ g r := fun r hr => by
    rw [ge]; exact mul_nonneg hf.le (mul_nonneg (hy r hr) (he r hr).le)
  have gp : 0 < g p := by rw [ge]; exact mul_pos hf (mul_pos hpp (he p hp))
  obtain ⟨h1, h2⟩ := Dyes.largest_spec (g a) (l.map g)
  have e : rows.map g = g a :: l.map g := by rw [hrows]; rfl
  rw [← e] at h1 h2
  have hM : 0 < Dyes.largest (g a) (l.map g) := gp.trans_le (h2 _ (List.mem_map_of_mem hp))
  refine ⟨_, emission_rows (fun r hr => (hw r hr).ne') hT.ne' (fun r hr => (hmu r hr).ne') (fun r => rfl) hrows hM.ne', ?_⟩
  obtain ⟨w, hw', hwe⟩ := List.mem_map.1 h1
  refine ⟨by rw [List.map_map]; rfl, ⟨2 / (c ^ 2 * (h / q) ^ 3) / Dyes.largest (g a) (l.map g), div_pos hf hM, fun i => ?_⟩, ?_, ?_⟩
  · rw [List.getElem?_map, Option.map_map]
    congr 1
    funext r
    show g r / _ = _
    rw [ge]; ring
  · rintro r hr
    obtain ⟨r', hr', rfl⟩ := List.mem_map.1 hr
    exact ⟨div_nonneg (g0 r' hr') hM.le, (div_le_one hM).2 (h2 _ (List.mem_map_of_mem hr'))⟩
  · exact ⟨_, List.mem_map_of_mem hw', by show g w / _ = 1; rw [hwe, div_self hM.ne']⟩

theorem largest_scale {k : ℝ} (hk : 0 ≤ k) (a : ℝ) (l : List ℝ) :
    Dyes.largest (k * a) (l.map (k * ·)) = k * Dyes.largest a l := by
  unfold Dyes.largest
  induction l generalizing a with
  | nil => rfl
  | cons b l ih => rw [List.map_cons, List.foldl_cons, List.foldl_cons, ← mul_max_of_nonneg _ _ hk, ih]

/-- The unit of the absorption does not matter: only its shape. -/
theorem emission_scale {rows : List (ℝ × ℝ)} {T mu k : ℝ} (hk : 0 < k) :
    emission (.floats (rows.map fun r => (r.1, k * r.2))) T mu = emission (.floats rows) T mu := by
  by_cases h0 : ∀ r ∈ rows, r.1 ≠ 0
  · have h0' : ∀ r ∈ rows.map fun r => (r.1, k * r.2), r.1 ≠ 0 := by
      rintro r hr
      obtain ⟨r', hr', rfl⟩ := List.mem_map.1 hr
      exact h0 r' hr'
    have kr : ∀ r : ℝ × ℝ, radiated T mu (r.1, k * r.2) = k * radiated T mu r := fun r => by
      simp only [radiated_eq]; ring
    have kr' : ∀ w y : ℝ, radiated T mu (w, k * y) = k * radiated T mu (w, y) := fun w y => kr (w, y)
    unfold emission
    rw [convert_energies h0, convert_energies h0']
    simp only [Columns.rows, List.map_map]
    unfold emitted
    have c1 : (∃ r ∈ rows.map ((fun r : ℝ × ℝ => (photonEnergy r.1, r.2)) ∘ fun r => (r.1, k * r.2)), r.1 = mu) ↔
        ∃ r ∈ rows.map (fun r : ℝ × ℝ => (photonEnergy r.1, r.2)), r.1 = mu := by
      simp only [List.mem_map, Function.comp]
      constructor
      · rintro ⟨_, ⟨r, hr, rfl⟩, h⟩
        exact ⟨_, ⟨r, hr, rfl⟩, h⟩
      · rintro ⟨_, ⟨r, hr, rfl⟩, h⟩
        exact ⟨_, ⟨r, hr, rfl⟩, h⟩
    by_cases hd : T = 0 ∨ ∃ r ∈ rows.map (fun r : ℝ × ℝ => (photonEnergy r.1, r.2)), r.1 = mu
    · rw [if_pos hd, if_pos (by rwa [c1])]
    · rw [if_neg hd, if_neg (by rwa [c1])]
      cases rows with
      | nil => rfl
      | cons a l =>
        simp only [List.map_cons, List.map_map, Function.comp_def]
        have e1 : radiated T mu (photonEnergy a.1, k * a.2) = k * radiated T mu (photonEnergy a.1, a.2) := kr (_, _)
        have e2 : (l.map fun r => radiated T mu (photonEnergy r.1, k * r.2)) =
            (l.map fun r => radiated T mu (photonEnergy r.1, r.2)).map (k * ·) := by
          rw [List.map_map]
          exact List.map_congr_left fun r _ => kr (_, _)
        rw [e1, e2, largest_scale hk.le]
        by_cases hM : Dyes.largest (radiated T mu (photonEnergy a.1, a.2)) (l.map fun r => radiated T mu (photonEnergy r.1, r.2)) = 0
        · rw [if_pos hM, if_pos (by rw [hM, mul_zero])]
        · rw [if_neg hM, if_neg (mul_ne_zero hk.ne' hM), mul_div_mul_left _ _ hk.ne']
          simp only [List.map_map, Function.comp_def, mul_div_mul_left _ _ hk.ne', kr']
  · have h0' : ¬ ∀ r ∈ rows.map fun r => (r.1, k * r.2), r.1 ≠ 0 := by
      intro h
      exact h0 fun r hr => h (r.1, k * r.2) (List.mem_map_of_mem (f := fun r : ℝ × ℝ => (r.1, k * r.2)) hr)
    push Not at h0 h0'
    unfold emission
    simp only [convert]
    rw [if_pos h0, if_pos h0']

/-- The law favours long wavelengths: above `mu` and `2 k T`, emission over absorption falls with the photon energy. -/
theorem emissivity_falls {T mu E E' : ℝ} (hT : 0 < T) (h2 : 2 * thermal T ≤ E) (hmu : mu < E) (h : E < E') :
    emissivity T mu E' < emissivity T mu E := by
  have ht := thermal_pos hT
  have hE : 0 < E := by linarith
  have u1 : 0 < (E - mu) / thermal T := div_pos (by linarith) ht
  have x1 : 0 < Real.exp ((E - mu) / thermal T) - 1 := by
    have := Real.add_one_lt_exp u1.ne'; linarith
  have d : 0 < (E' - E) / thermal T := div_pos (by linarith) ht
  have split : Real.exp ((E' - mu) / thermal T) = Real.exp ((E' - E) / thermal T) * Real.exp ((E - mu) / thermal T) := by
    rw [← Real.exp_add]; congr 1; ring
  have dx : 1 < Real.exp ((E' - E) / thermal T) := by
    have := Real.add_one_lt_exp d.ne'; linarith
  have ratio : (E' / E) ^ 2 ≤ Real.exp ((E' - E) / thermal T) := by
    have a1 : E' / E ≤ Real.exp ((E' - E) / E) := by
      have := Real.add_one_le_exp ((E' - E) / E)
      have e : E' / E = (E' - E) / E + 1 := by field_simp; ring
      linarith
    have a0 : 0 ≤ E' / E := div_nonneg (by linarith) hE.le
    calc (E' / E) ^ 2 ≤ Real.exp ((E' - E) / E) ^ 2 := pow_le_pow_left₀ a0 a1 2
      _ = Real.exp (2 * ((E' - E) / E)) := by rw [← Real.exp_nat_mul]; norm_num
      _ ≤ _ := by
        refine Real.exp_le_exp.2 ?_
        rw [← mul_div_assoc, div_le_div_iff₀ hE ht]
        nlinarith
  unfold emissivity
  rw [split]
  set X := Real.exp ((E - mu) / thermal T)
  set D := Real.exp ((E' - E) / thermal T)
  have hbig : D * (X - 1) < D * X - 1 := by linarith
  have hpos : 0 < D * (X - 1) := mul_pos (by linarith) x1
  rw [div_lt_div_iff₀ (hpos.trans hbig) x1]
  have r2 : E' ^ 2 ≤ D * E ^ 2 := by
    rw [div_pow, div_le_iff₀ (by positivity)] at ratio; exact ratio
  calc E' ^ 2 * (X - 1) ≤ D * E ^ 2 * (X - 1) := mul_le_mul_of_nonneg_right r2 x1.le
    _ = E ^ 2 * (D * (X - 1)) := by ring
    _ < E ^ 2 * (D * X - 1) := mul_lt_mul_of_pos_left hbig (by positivity)

/-- **The Stokes shift.** Of two wavelengths that are absorbed alike, the longer one is emitted more. -/
theorem emission_redder {rows out : List (ℝ × ℝ)} {T mu : ℝ} (hT : 0 < T) (h : Emission T mu rows out)
    {i j : ℕ} {w w' y u v : ℝ} (hi : rows[i]? = some (w, y)) (hj : rows[j]? = some (w', y)) (hy : 0 < y)
    (hw : 0 < w) (hlt : w < w') (h2 : 2 * thermal T ≤ photonEnergy w') (hmu : mu < photonEnergy w')
    (ho : out[i]? = some (w, u)) (ho' : out[j]? = some (w', v)) : u < v := by
  obtain ⟨k, hk, law⟩ := h.law
  have l1 := law i
  have l2 := law j
  rw [hi, ho] at l1
  rw [hj, ho'] at l2
  simp only [Option.map_some, Option.some.injEq] at l1 l2
  rw [l1, l2]
  have : photonEnergy w' < photonEnergy w := by
    rw [← energy_eq, ← energy_eq]
    exact div_lt_div_of_pos_left conversion_pos hw hlt
  have := emissivity_falls hT h2 hmu this
  exact mul_lt_mul_of_pos_left (mul_lt_mul_of_pos_left this hy) hk

/-- **C110 fails beyond `mu`.** An absorption spectrum that reaches wavelengths of a photon energy below `mu` (0.5 eV unless
given: 2480 nm) gets negative emission there. -/
theorem emission_negative {w w' y y' T mu : ℝ} (hT : 0 < T) (hw : 0 < w) (hw' : 0 < w') (hy : 0 < y) (hy' : 0 < y')
    (h : mu < photonEnergy w) (h' : photonEnergy w' < mu) :
    ∃ v < 0, emission (.floats [(w, y), (w', y')]) T mu = some (.floats [(w, 1), (w', v)]) := by
  set g : ℝ × ℝ → ℝ := fun r => radiated T mu (photonEnergy r.1, r.2) with hg
  have hf := factor_pos
  have g1 : 0 < g (w, y) := by
    simp only [hg, radiated_eq]
    exact mul_pos hf (mul_pos hy (emissivity_pos hT (energy_pos hw).ne' h))
  have g2 : g (w', y') < 0 := by
    simp only [hg, radiated_eq]
    exact mul_neg_of_pos_of_neg hf (mul_neg_of_pos_of_neg hy' (emissivity_neg hT (energy_pos hw').ne' h'))
  have hM : Dyes.largest (g (w, y)) ([(w', y')].map g) = g (w, y) := by
    simp only [Dyes.largest, List.map_cons, List.map_nil, List.foldl_cons, List.foldl_nil]
    exact max_eq_left (g2.trans g1).le
  refine ⟨g (w', y') / g (w, y), div_neg_of_neg_of_pos g2 g1, ?_⟩
  rw [emission_rows (g := g) (a := (w, y)) (l := [(w', y')]) _ hT.ne' _ (fun r => rfl) rfl (by rw [hM]; exact g1.ne'), hM]
  · simp only [List.map_cons, List.map_nil, div_self g1.ne']
  · simp [hw.ne', hw'.ne']
  · simp [h.ne', h'.ne]

/-- **C110 fails for integer arrays.** Energies are cut to whole electron volts, so the emission of a dye that absorbs at
555 nm comes out at 620 nm. -/
theorem emission_integers : ∃ w, 619 < w ∧ w < 620 ∧ emission (.ints [(555, 1)]) 300 0.5 = some (.floats [(w, 1)]) := by
  have c1 : 1239 < conversion := by unfold conversion h c q; norm_num
  have c2 : conversion < 1240 := by unfold conversion h c q; norm_num
  have c3 : (1238 : ℝ) < conversion := by linarith
  have t : truncate (conversion / ((555 : ℤ) : ℝ)) = 2 := by
    unfold truncate
    have := conversion_pos
    rw [if_pos (by push_cast; positivity), Int.floor_eq_iff]
    push_cast
    constructor <;> linarith
  have hg : radiated 300 0.5 (2, 1) ≠ 0 := by
    rw [radiated_eq]
    exact (mul_pos factor_pos (mul_pos one_pos (emissivity_pos (by norm_num) (by norm_num) (by norm_num)))).ne'
  refine ⟨conversion / 2, by linarith, by linarith, ?_⟩
  have e : convert (.ints [(555, 1)]) = some (.ints [(2, 1)]) := by
    simp only [convert, List.map_cons, List.map_nil, t]
    rw [if_neg (by simp)]
  have e' : Columns.rows (.ints [(2, 1)]) = [((2 : ℝ), (1 : ℝ))] := by simp [Columns.rows]
  unfold emission
  rw [e]
  simp only [e']
  unfold emitted
  rw [if_neg (by norm_num)]
  simp only [List.map_cons, List.map_nil, Dyes.largest, List.foldl_nil, List.zip_cons_cons, List.zip_nil_right]
  rw [if_neg hg, div_self hg]
  simp only [convert, List.map_cons, List.map_nil]
  rw [if_neg (by simp)]

/-- A dye that absorbs between 500 and 700 nm meets the hypotheses. -/
example : ∃ out, emission (.floats [(500, 0.5), (600, 1), (700, 0)]) 300 0.5 = some (.floats out) ∧
    Emission 300 0.5 [(500, 0.5), (600, 1), (700, 0)] out := by
  have big : ∀ w : ℝ, 0 < w → w ≤ 700 → 0.5 < photonEnergy w := fun w h0 h => by
    rw [← energy_eq, lt_div_iff₀ h0]
    have : 1239 < conversion := by unfold conversion Spectrum.h c q; norm_num
    linarith
  refine emission_spec (by norm_num) ?_ ?_ ?_ ⟨(600, 1), by simp, by norm_num⟩
  · simp
  · rintro r hr
    simp only [List.mem_cons, List.not_mem_nil, or_false] at hr
    rcases hr with rfl | rfl | rfl <;> exact big _ (by norm_num) (by norm_num)
  · simp; norm_num

/-- A mid-infrared absorber does not. -/
example : ∃ v < 0, emission (.floats [(1000, 1), (3000, 1)]) 300 0.5 = some (.floats [(1000, 1), (3000, v)]) := by
  refine emission_negative (by norm_num) (by norm_num) (by norm_num) (by norm_num) (by norm_num) ?_ ?_
  · rw [← energy_eq]; unfold conversion h c q; norm_num
  · rw [← energy_eq]; unfold conversion h c q; norm_num

end PV.Spectrum
