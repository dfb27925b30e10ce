import Verif.Model.Dyes
import Verif.Spec.SceneFile
import Mathlib.Analysis.Complex.ExponentialBounds
import Mathlib.Analysis.Real.Pi.Bounds
import Mathlib.Tactic.Linarith
import Mathlib.Tactic.NormNum
import Mathlib.Tactic.FieldSimp

/-!
C87: the spectra of the built-in dyes.
-/

namespace PV.Dyes
open PV.Doc PV.Spec

theorem gaussian_pos {g : ℝ × ℝ × ℝ} (h : 0 < g.1) (x : ℝ) : 0 < gaussian g x := mul_pos h (Real.exp_pos _)

theorem mixture_pos {l : List (ℝ × ℝ × ℝ)} (hne : l ≠ []) (h : ∀ g ∈ l, 0 < g.1) (x : ℝ) : 0 < mixture l x := by
  unfold mixture
  refine List.sum_pos _ ?_ (by simpa using hne)
  intro v hv
  obtain ⟨g, hg, rfl⟩ := List.mem_map.1 hv
  exact gaussian_pos (h g hg) x

theorem lumogen_pos (x : ℝ) : 0 < mixture lumogenPeaks x :=
  mixture_pos (by simp [lumogenPeaks]) (by simp only [lumogenPeaks, List.mem_cons, List.not_mem_nil, or_false]; rintro g (rfl | rfl | rfl | rfl | rfl) <;> norm_num) x

theorem fluro_pos (x : ℝ) : 0 < mixture fluroPeaks x :=
  mixture_pos (by simp [fluroPeaks]) (by simp only [fluroPeaks, List.mem_cons, List.not_mem_nil, or_false]; rintro g (rfl | rfl | rfl | rfl) <;> norm_num) x

theorem largest_spec (a : ℝ) (l : List ℝ) : largest a l ∈ a :: l ∧ ∀ v ∈ a :: l, v ≤ largest a l := by
  unfold largest
  induction l generalizing a with
  | nil => simp
  | cons b l ih =>
    obtain ⟨h1, h2⟩ := ih (max a b)
    simp only [List.foldl_cons]
    refine ⟨?_, ?_⟩
    · rcases List.mem_cons.1 h1 with h | h
      · rw [h]
        rcases max_choice a b with h | h <;> simp [h]
      · simp [h]
    · intro v hv
      have hm := h2 _ List.mem_cons_self
      rcases List.mem_cons.1 hv with rfl | hv
      · exact (le_max_left _ _).trans hm
      rcases List.mem_cons.1 hv with rfl | hv
      · exact (le_max_right _ _).trans hm
      · exact h2 _ (List.mem_cons_of_mem _ hv)

/-- What "normalised to a peak value of 1" means for the curve `g` tabulated at the wavelengths `x`:
the values are those of `g`, all divided by the largest of them. -/
structure Normalised (g : ℝ → ℝ) (x y : List ℝ) : Prop where
  length : y.length = x.length
  range : ∀ v ∈ y, 0 < v ∧ v ≤ 1
  peak : 1 ∈ y
  shape : ∃ w ∈ x, (∀ w' ∈ x, g w' ≤ g w) ∧ ∀ i : ℕ, y[i]? = x[i]?.map fun v => g v / g w

theorem normalise_spec {g : ℝ → ℝ} (hg : ∀ w, 0 < g w) {x : List ℝ} (hx : x ≠ []) :
    Normalised g x (normalise (x.map g)) := by
  obtain ⟨a, x, rfl⟩ := List.exists_cons_of_ne_nil hx
  obtain ⟨h1, h2⟩ := largest_spec (g a) (x.map g)
  have hpos : 0 < largest (g a) (x.map g) := (hg a).trans_le (h2 _ List.mem_cons_self)
  obtain ⟨w, hw, hwe⟩ : ∃ w ∈ a :: x, g w = largest (g a) (x.map g) := by
    rw [← List.map_cons] at h1
    exact List.mem_map.1 h1
  have key : normalise ((a :: x).map g) = (a :: x).map fun v => g v / largest (g a) (x.map g) := by
    simp [normalise]
  rw [key]
  have hle : ∀ w' ∈ a :: x, g w' ≤ largest (g a) (x.map g) := fun w' hw' =>
    h2 _ (by rw [← List.map_cons]; exact List.mem_map_of_mem hw')
  refine ⟨by simp, ?_, ?_, w, hw, fun w' hw' => hwe ▸ hle w' hw', ?_⟩
  · intro v hv
    obtain ⟨w', hw', rfl⟩ := List.mem_map.1 hv
    exact ⟨div_pos (hg _) hpos, (div_le_one hpos).2 (hle w' hw')⟩
  · exact List.mem_map.2 ⟨w, hw, by rw [hwe]; exact div_self hpos.ne'⟩
  · intro i
    rw [hwe, List.getElem?_map]

/-- C87: at any wavelengths, the absorption spectra of both dyes are their curves normalised to a peak of 1. -/
theorem absorption_normalised_partial {x : List ℝ} (hx : x ≠ []) :
    Normalised (mixture lumogenPeaks) x (lumogenAbsorption x) ∧
    Normalised (mixture fluroPeaks) x (fluroAbsorption x) :=
  ⟨normalise_spec lumogen_pos hx, normalise_spec fluro_pos hx⟩

example : Normalised (mixture lumogenPeaks) [400, 500, 600] (lumogenAbsorption [400, 500, 600]) :=
  (absorption_normalised_partial (by simp)).1

/-- C87: the emission of Lumogen F Red at each wavelength does not depend on the others, is in (0, 1], and is 1 at
600 nm only. -/
theorem lumogen_emission {x y : List ℝ} (h : lumogenEmission x = y) :
    y.length = x.length ∧ (∀ v ∈ y, 0 < v ∧ v ≤ 1) ∧ (1 ∈ y ↔ 600 ∈ x) := by
  subst h
  unfold lumogenEmission
  refine ⟨by simp, ?_, ?_⟩
  · intro v hv
    obtain ⟨w, _, rfl⟩ := List.mem_map.1 hv
    refine ⟨gaussian_pos (by norm_num) w, ?_⟩
    unfold gaussian
    rw [one_mul, Real.exp_le_one_iff]
    have := sq_nonneg ((600 - w) / 38.60)
    simp only
    linarith
  · simp only [List.mem_map, gaussian, one_mul]
    constructor
    · rintro ⟨w, hw, he⟩
      rw [Real.exp_eq_one_iff, neg_eq_zero, sq_eq_zero_iff, div_eq_zero_iff] at he
      have : w = 600 := by rcases he with h | h <;> norm_num at h <;> linarith
      exact this ▸ hw
    · intro h
      exact ⟨600, h, by norm_num⟩

theorem bell_integrable (a b : ℝ) :
    IntervalIntegrable (fun t : ℝ => Real.exp (-t ^ 2)) MeasureTheory.volume a b :=
  (by fun_prop : Continuous fun t : ℝ => Real.exp (-t ^ 2)).intervalIntegrable a b

theorem half_bell {y : ℝ} (hy : 0 ≤ y) : ∫ t in (0 : ℝ)..y, Real.exp (-t ^ 2) < √Real.pi / 2 := by
  have hall : ∫ t in Set.Ioi (0 : ℝ), Real.exp (-t ^ 2) = √Real.pi / 2 := by
    have := integral_gaussian_Ioi 1
    simpa using this
  have hint : MeasureTheory.IntegrableOn (fun t : ℝ => Real.exp (-t ^ 2)) (Set.Ioi 0) := by
    have := (integrable_exp_neg_mul_sq (b := 1) one_pos).integrableOn (s := Set.Ioi 0)
    simpa using this
  have hle : ∫ t in (0 : ℝ)..y + 1, Real.exp (-t ^ 2) ≤ √Real.pi / 2 := by
    rw [← hall, intervalIntegral.integral_of_le (by linarith)]
    refine MeasureTheory.setIntegral_mono_set hint ?_ ?_
    · exact Filter.Eventually.of_forall fun t => (Real.exp_pos _).le
    · exact (Set.Ioc_subset_Ioi_self).eventuallyLE
  have hsplit := intervalIntegral.integral_add_adjacent_intervals (bell_integrable 0 y) (bell_integrable y (y + 1))
  have hpos : 0 < ∫ t in y..y + 1, Real.exp (-t ^ 2) :=
    intervalIntegral.intervalIntegral_pos_of_pos (bell_integrable _ _) (fun t => Real.exp_pos _) (by linarith)
  linarith

theorem erf_neg (x : ℝ) : erf (-x) = -erf x := by
  unfold erf
  have : ∫ t in (0 : ℝ)..-x, Real.exp (-t ^ 2) = -∫ t in (0 : ℝ)..x, Real.exp (-t ^ 2) := by
    have h := intervalIntegral.integral_comp_neg (a := 0) (b := x) (fun t : ℝ => Real.exp (-t ^ 2))
    simp only [neg_zero, neg_sq] at h
    rw [h, intervalIntegral.integral_symm]
  rw [this]
  ring

theorem erf_lt {x : ℝ} (hx : 0 ≤ x) : erf x < 1 := by
  unfold erf
  have h := half_bell hx
  have hp : 0 < √Real.pi := Real.sqrt_pos.2 Real.pi_pos
  rw [div_mul_eq_mul_div, div_lt_one hp]
  linarith

theorem erf_nonneg {x : ℝ} (hx : 0 ≤ x) : 0 ≤ erf x := by
  unfold erf
  have : 0 ≤ ∫ t in (0 : ℝ)..x, Real.exp (-t ^ 2) :=
    intervalIntegral.integral_nonneg hx fun t _ => (Real.exp_pos _).le
  positivity

theorem erf_gt (x : ℝ) : -1 < erf x := by
  rcases le_total 0 x with h | h
  · linarith [erf_nonneg h]
  · have := erf_lt (neg_nonneg.2 h)
    rw [erf_neg] at this
    linarith

/-- C87: the emission of Fluro Red is positive at every wavelength. -/
theorem fluro_emission {x y : List ℝ} (h : fluroEmission x = y) : y.length = x.length ∧ ∀ v ∈ y, 0 < v := by
  subst h
  unfold fluroEmission
  refine ⟨by simp, fun v hv => ?_⟩
  obtain ⟨w, _, rfl⟩ := List.mem_map.1 hv
  unfold emg
  refine mul_pos (mul_pos ?_ (Real.exp_pos _)) ?_
  · have : 0 < √(2 * Real.pi) := Real.sqrt_pos.2 (by positivity)
    positivity
  · rw [abs_of_pos (by norm_num), div_self (by norm_num)]
    linarith [erf_gt ((w - 592.06478874548839) / (√2 * 19.981040318195117) -
      19.981040318195117 / (√2 * 12.723704058786568))]

/-- Every wavelength of the tables, with its value. -/
theorem zip_usable {x y : List ℝ} (hl : y.length = x.length) (h2 : 2 ≤ x.length) (hx : x.Pairwise (· < ·))
    (hy : ∀ v ∈ y, 0 < v) : Usable (x.zip y) where
  long := by simp [hl, h2]
  ascending := by rw [List.map_fst_zip (by omega)]; exact hx
  nonneg := fun r hr => (hy _ (List.of_mem_zip hr).2).le
  positive := by
    match x, y, hl, h2 with
    | a :: x, b :: y, _, _ => exact ⟨(a, b), by simp, hy b (by simp)⟩

/-- The wavelengths of a range that is not empty: at least two, in ascending order. -/
theorem wavelengths_ascending {lo hi step : ℝ} {x : List ℝ} (h : Wavelengths lo hi step x) (hs : 0 < step)
    (hlt : lo < hi) : 2 ≤ x.length ∧ x.Pairwise (· < ·) := by
  constructor
  · have := h 1
    rw [if_pos (by push_cast; linarith)] at this
    obtain ⟨hlt, _⟩ := List.getElem?_eq_some_iff.1 this
    omega
  · rw [List.pairwise_iff_getElem]
    intro i j hi hj hij
    have h1 := h i
    have h2 := h j
    rw [List.getElem?_eq_getElem hi] at h1
    rw [List.getElem?_eq_getElem hj] at h2
    split_ifs at h1 h2
    simp only [Option.some.injEq] at h1 h2
    rw [h1, h2]
    have : (i : ℝ) < j := by exact_mod_cast hij
    nlinarith

/-- C87: a scene file may name either dye with any range of wavelengths that is not empty and any positive
spacing; the spectrum is fit for use. -/
theorem named_ready {F : Files ℝ} (hA : F.absorption = absorption) (hE : F.emission = emission)
    (wantEmission : Bool) {e : Yaml ℝ} {n : String} (hn : n = "lumogen-f-red-305" ∨ n = "fluro-red")
    (hname : under ["name"] e = some (.str n)) {lo hi step : ℝ}
    (h1 : (under ["range", "min"] e).bind value? = some lo) (h2 : (under ["range", "max"] e).bind value? = some hi)
    (h3 : (under ["range", "spacing"] e).bind value? = some step) (hs : 0 < step) (hlt : lo < hi)
    {x : List ℝ} (hx : Wavelengths lo hi step x) : SpectrumReady F wantEmission e := by
  obtain ⟨hlen, hasc⟩ := wavelengths_ascending hx hs hlt
  have hne : x ≠ [] := by rintro rfl; simp at hlen
  have hA' := absorption_normalised_partial hne
  rcases hn with rfl | rfl <;> cases wantEmission
  · exact .named (curve := lumogenAbsorption) hname (by simp [hA, absorption]) h1 h2 h3 hs hx
      (zip_usable hA'.1.length hlen hasc fun v hv => (hA'.1.range v hv).1)
  · obtain ⟨hl, hr, _⟩ := lumogen_emission (x := x) rfl
    exact .named (curve := lumogenEmission) hname (by simp [hE, emission]) h1 h2 h3 hs hx
      (zip_usable hl hlen hasc fun v hv => (hr v hv).1)
  · exact .named (curve := fluroAbsorption) hname (by simp [hA, absorption]) h1 h2 h3 hs hx
      (zip_usable hA'.2.length hlen hasc fun v hv => (hA'.2.range v hv).1)
  · obtain ⟨hl, hr⟩ := fluro_emission (x := x) rfl
    exact .named (curve := fluroEmission) hname (by simp [hE, emission]) h1 h2 h3 hs hx (zip_usable hl hlen hasc hr)

theorem exp_neg_le {a : ℝ} (ha : 0 ≤ a) : Real.exp (-a) ≤ 1 / (1 + a) := by
  rw [Real.exp_neg, ← one_div]
  exact one_div_le_one_div_of_le (by linarith) (by linarith [Real.add_one_le_exp a])

theorem gaussian_le {g : ℝ × ℝ × ℝ} (h : 0 < g.1) (x : ℝ) :
    gaussian g x ≤ g.1 * (1 / (1 + ((g.2.1 - x) / g.2.2) ^ 2)) :=
  mul_le_mul_of_nonneg_left (exp_neg_le (sq_nonneg _)) h.le

theorem gaussian_ge {g : ℝ × ℝ × ℝ} (h : 0 < g.1) (x : ℝ) :
    g.1 * (1 - ((g.2.1 - x) / g.2.2) ^ 2) ≤ gaussian g x :=
  mul_le_mul_of_nonneg_left (by linarith [Real.add_one_le_exp (-((g.2.1 - x) / g.2.2) ^ 2)]) h.le

theorem mixture_le {l : List (ℝ × ℝ × ℝ)} (h : ∀ g ∈ l, 0 < g.1) (x : ℝ) :
    mixture l x ≤ (l.map fun g => g.1 * (1 / (1 + ((g.2.1 - x) / g.2.2) ^ 2))).sum :=
  List.sum_le_sum fun g hg => gaussian_le (h g hg) x

theorem peaks_pos : ∀ g ∈ lumogenPeaks, 0 < g.1 := by
  simp only [lumogenPeaks, List.mem_cons, List.not_mem_nil, or_false]
  rintro g (rfl | rfl | rfl | rfl | rfl) <;> norm_num

theorem at_600 : mixture lumogenPeaks 600 < 0.65 := by
  refine (mixture_le peaks_pos 600).trans_lt ?_
  simp only [lumogenPeaks, List.map_cons, List.map_nil, List.sum_cons, List.sum_nil]
  norm_num

theorem at_700 : mixture lumogenPeaks 700 < 0.08 := by
  refine (mixture_le peaks_pos 700).trans_lt ?_
  simp only [lumogenPeaks, List.map_cons, List.map_nil, List.sum_cons, List.sum_nil]
  norm_num

theorem first_le (x : ℝ) :
    gaussian (0.9454846839252642, 578.6167306868869, 22.69760939870020) x ≤ mixture lumogenPeaks x := by
  have h := peaks_pos
  simp only [mixture, lumogenPeaks, List.map_cons, List.map_nil, List.sum_cons, List.sum_nil]
  have h2 := gaussian_pos (h (0.6430326869158796, 535.1850303736512, 28.63029894331116) (by simp [lumogenPeaks])) x
  have h3 := gaussian_pos (h (0.1243340609168971, 494.5721783546976, 13.98438275367119) (by simp [lumogenPeaks])) x
  have h4 := gaussian_pos (h (0.3651471532322375, 440.4679754085741, 34.91923613222621) (by simp [lumogenPeaks])) x
  have h5 := gaussian_pos (h (0.7042787252835550, 336.0548556730901, 34.24136755250487) (by simp [lumogenPeaks])) x
  linarith

theorem above_600 : 0.1 < mixture lumogenPeaks 600 := by
  refine lt_of_lt_of_le ?_ ((gaussian_ge (by norm_num) 600).trans (first_le 600))
  norm_num

theorem above_580 : 0.9 < mixture lumogenPeaks 580 := by
  refine lt_of_lt_of_le ?_ ((gaussian_ge (by norm_num) 580).trans (first_le 580))
  norm_num

/-- C87 is violated: the absorption of Lumogen F Red at 600 nm depends on the other wavelengths of the array.
Tabulated at 600 and 700 nm it is 1, tabulated at 580 and 600 nm it is less than 0.73. -/
theorem absorption_depends :
    (lumogenAbsorption [600, 700])[0]? = some 1 ∧
    ∃ v : ℝ, (lumogenAbsorption [580, 600])[1]? = some v ∧ v < 0.73 := by
  have h6 := at_600
  have h7 := at_700
  have h6' := above_600
  have h5 := above_580
  constructor
  · simp only [lumogenAbsorption, List.map_cons, List.map_nil, normalise, largest, List.foldl_cons, List.foldl_nil]
    rw [max_eq_left (by linarith)]
    simp [div_self (lumogen_pos 600).ne']
  · refine ⟨_, rfl, ?_⟩
    simp only [largest, List.map_cons, List.map_nil, List.foldl_cons, List.foldl_nil]
    rw [max_eq_left (by linarith), div_lt_iff₀ (lumogen_pos 580)]
    linarith

/-- C87 is violated: the array of the documentation, `np.linspace(300, 800, 200)`, misses 600 nm, so the emission of
Lumogen F Red "normalised to peak value of 1.0" stays below 1. -/
theorem emission_below_one :
    ∀ v ∈ lumogenEmission ((List.range 200).map fun i : ℕ => 300 + (i : ℝ) * (500 / 199)), v < 1 := by
  intro v hv
  obtain ⟨_, hr, h1⟩ := lumogen_emission (x := (List.range 200).map fun i : ℕ => 300 + (i : ℝ) * (500 / 199)) rfl
  refine lt_of_le_of_ne (hr v hv).2 ?_
  rintro rfl
  obtain ⟨i, _, hi⟩ := List.mem_map.1 (h1.1 hv)
  have h' : (i : ℝ) * 5 = 597 := by linarith
  have h'' : i * 5 = 597 := by exact_mod_cast h'
  omega

theorem exp_neg_upper {s : ℝ} (h0 : 0 ≤ s) (h1 : s ≤ 1) :
    Real.exp (-s) ≤ 1 - s + s ^ 2 / 2 - s ^ 3 / 6 + s ^ 4 / 24 + s ^ 5 / 100 := by
  have h := Real.exp_bound (x := -s) (by rw [abs_neg, abs_of_nonneg h0]; exact h1) (n := 5) (by norm_num)
  rw [abs_neg, abs_of_nonneg h0] at h
  have h' := (abs_le.1 h).2
  simp only [Finset.sum_range_succ, Finset.sum_range_zero] at h'
  norm_num [Nat.factorial] at h'
  nlinarith [h']

theorem bell_le {y : ℝ} (hy : 0 ≤ y) (hy1 : y ≤ 1) :
    ∫ t in (0 : ℝ)..y, Real.exp (-t ^ 2) ≤
      y - y ^ 3 / 3 + y ^ 5 / 10 - y ^ 7 / 42 + y ^ 9 / 216 + y ^ 11 / 1100 := by
  have hd : ∀ t : ℝ, HasDerivAt (fun y : ℝ => y - y ^ 3 / 3 + y ^ 5 / 10 - y ^ 7 / 42 + y ^ 9 / 216 + y ^ 11 / 1100)
      (1 - t ^ 2 + (t ^ 2) ^ 2 / 2 - (t ^ 2) ^ 3 / 6 + (t ^ 2) ^ 4 / 24 + (t ^ 2) ^ 5 / 100) t := by
    intro t
    have h := ((((((hasDerivAt_id t).sub ((hasDerivAt_pow 3 t).div_const 3)).add
      ((hasDerivAt_pow 5 t).div_const 10)).sub ((hasDerivAt_pow 7 t).div_const 42)).add
      ((hasDerivAt_pow 9 t).div_const 216)).add ((hasDerivAt_pow 11 t).div_const 1100))
    refine h.congr_deriv ?_
    push_cast
    ring
  have hi : IntervalIntegrable (fun t : ℝ => 1 - t ^ 2 + (t ^ 2) ^ 2 / 2 - (t ^ 2) ^ 3 / 6 + (t ^ 2) ^ 4 / 24 +
      (t ^ 2) ^ 5 / 100) MeasureTheory.volume 0 y :=
    (by fun_prop : Continuous _).intervalIntegrable _ _
  have he := intervalIntegral.integral_eq_sub_of_hasDerivAt (fun t _ => hd t) hi
  refine (intervalIntegral.integral_mono_on hy (bell_integrable 0 y) hi ?_).trans_eq ?_
  · intro t ht
    exact exp_neg_upper (sq_nonneg t) (by nlinarith [ht.1, ht.2])
  · rw [he]
    norm_num

/-- C87 is violated: at 602 nm the emission of Fluro Red "normalised to peak value of 1.0" is above 1. -/
theorem emission_above_one : ∃ v, fluroEmission [602] = [v] ∧ 1 < v := by
  refine ⟨emg 602 1.1477763237584664 592.06478874548839 19.981040318195117 12.723704058786568, rfl, ?_⟩
  unfold emg
  rw [abs_of_pos (by norm_num), div_self (by norm_num), Real.sqrt_mul (by norm_num)]
  have hz : (602 - 592.06478874548839) / (√2 * 19.981040318195117) - 19.981040318195117 / (√2 * 12.723704058786568) =
      -((19.981040318195117 / 12.723704058786568 - (602 - 592.06478874548839) / 19.981040318195117) / √2) := by
    have : √2 ≠ 0 := by positivity
    field_simp
    ring
  rw [hz, erf_neg]
  have h2 : (1.41421 : ℝ) ≤ √2 := Real.le_sqrt_of_sq_le (by norm_num)
  have hpi : (1.77245 : ℝ) ≤ √Real.pi := Real.le_sqrt_of_sq_le (by linarith [Real.pi_gt_d6, (by norm_num : (1.77245 : ℝ) ^ 2 ≤ 3.141592)])
  generalize hq : (19.981040318195117 / 12.723704058786568 - (602 - 592.06478874548839) / 19.981040318195117 : ℝ) / √2 = q
  have hq0 : 0 ≤ q := by rw [← hq]; exact div_nonneg (by norm_num) (Real.sqrt_nonneg _)
  have hq1 : q ≤ 0.75884 := by
    rw [← hq, div_le_iff₀ (by linarith)]
    refine le_trans ?_ (mul_le_mul_of_nonneg_left h2 (by norm_num))
    norm_num
  have hmono : ∫ t in (0 : ℝ)..q, Real.exp (-t ^ 2) ≤ ∫ t in (0 : ℝ)..0.75884, Real.exp (-t ^ 2) := by
    have hs := intervalIntegral.integral_add_adjacent_intervals (bell_integrable 0 q) (bell_integrable q 0.75884)
    have : 0 ≤ ∫ t in q..0.75884, Real.exp (-t ^ 2) :=
      intervalIntegral.integral_nonneg hq1 fun t _ => (Real.exp_pos _).le
    linarith
  have hI : ∫ t in (0 : ℝ)..q, Real.exp (-t ^ 2) ≤ 0.63533 := by
    refine (hmono.trans (bell_le (by norm_num) (by norm_num))).trans ?_
    norm_num
  have hexp : (1.5710 : ℝ) ≤
      Real.exp (19.981040318195117 ^ 2 / (2 * 12.723704058786568 ^ 2) - (602 - 592.06478874548839) / 12.723704058786568) := by
    refine le_trans ?_ (Real.sum_le_exp_of_nonneg (by norm_num) 6)
    norm_num [Finset.sum_range_succ, Nat.factorial]
  generalize Real.exp (19.981040318195117 ^ 2 / (2 * 12.723704058786568 ^ 2) - (602 - 592.06478874548839) / 12.723704058786568) = e at hexp ⊢
  unfold erf
  generalize ∫ t in (0 : ℝ)..q, Real.exp (-t ^ 2) = I at hI ⊢
  have hp0 : √Real.pi ≠ 0 := by positivity
  have key : √2 * √Real.pi * (1 + -(2 / √Real.pi * I)) = √2 * (√Real.pi - 2 * I) := by
    field_simp
    ring
  have hA : (1.41421 : ℝ) * (1.77245 - 2 * 0.63533) ≤ √2 * (√Real.pi - 2 * I) :=
    mul_le_mul h2 (by linarith) (by norm_num) (Real.sqrt_nonneg _)
  have hB := mul_le_mul hexp hA (by norm_num) (by linarith)
  have : 1.1477763237584664 * 19.981040318195117 * (√2 * √Real.pi) / (2 * 12.723704058786568) * e *
      (1 + -(2 / √Real.pi * I)) =
      1.1477763237584664 * 19.981040318195117 / (2 * 12.723704058786568) * (e * (√2 * (√Real.pi - 2 * I))) := by
    rw [← key]
    ring
  rw [this]
  refine lt_of_lt_of_le ?_ (mul_le_mul_of_nonneg_left hB (by norm_num))
  norm_num

end PV.Dyes
