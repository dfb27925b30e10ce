import Verif.Props.Dist
import Verif.Props.Material
import Verif.Props.Directions
import Verif.Props.AgreementDemo
import Mathlib.MeasureTheory.Integral.IntervalIntegral.FundThmCalculus
import Mathlib.Analysis.SpecialFunctions.Integrals.Basic

/-!
C82: sampled wavelengths follow the spectrum. C83: free paths, decays and emissions have their
physical probabilities. Uniform random numbers are points of `[0, 1]` with length as probability.
-/

namespace PV.Sampling
open PV MeasureTheory Set
open scoped ENNReal

noncomputable section

variable {T : Table ℝ} {D : Dist ℝ}

/-- The share of random numbers for which the sample is at most `x`. -/
def share (D : Dist ℝ) (x : ℝ) : ℝ≥0∞ :=
  volume {p : ℝ | p ∈ Icc (0 : ℝ) 1 ∧ ∃ s, D.sample p = .ok (some s) ∧ s ≤ x}

/-- The value of the spectrum at `x`, 0 where it is not defined. -/
def spectrum (D : Dist ℝ) (x : ℝ) : ℝ :=
  match D.call x with
  | .ok (some y) => y
  | _ => 0

theorem volume_between {S : Set ℝ} {c : ℝ} (h0 : 0 ≤ c) (hlo : Ico 0 c ⊆ S) (hhi : S ⊆ Icc 0 c) :
    volume S = ENNReal.ofReal c := by
  apply le_antisymm
  · calc volume S ≤ volume (Icc 0 c) := measure_mono hhi
      _ = ENNReal.ofReal c := by rw [Real.volume_Icc, sub_zero]
  · calc ENNReal.ofReal c = volume (Ico 0 c) := by rw [Real.volume_Ico, sub_zero]
      _ ≤ volume S := measure_mono hlo

/-- **C82**. The distribution function of the samples is the cumulative function of the table: for
every `x` of the range, the share of samples up to `x` is `lookup(x)`. -/
theorem share_eq_lookup (hD : mkDist T false = .ok D) (hpos : ∃ i < T.n, 0 < T.y i) {x : ℝ}
    (h0 : T.x 0 ≤ x) (h1 : x ≤ T.x (T.n - 1)) :
    ∃ c, D.lookup x = .ok (some c) ∧ share D x = ENNReal.ofReal c := by
  obtain ⟨_, _, hc⟩ := Dist.cdf_is_cdf hD hpos
  obtain ⟨c, c', e, e', c0, _, c1⟩ := hc x x h0 le_rfl h1
  rw [e] at e'; cases e'
  refine ⟨c, e, volume_between c0 ?_ ?_⟩
  · rintro p ⟨p0, pc⟩
    obtain ⟨s, hs, hl⟩ := Dist.lookup_sample hD hpos p0 (by linarith)
    refine ⟨⟨p0, by linarith⟩, s, hs, ?_⟩
    by_contra hlt
    push Not at hlt
    have hr : s ≤ T.x (T.n - 1) := by
      have := (Dist.sample_range_mono hD hpos p0 le_rfl (by linarith : p ≤ 1))
      obtain ⟨a, b, ha, hb, _, _, h⟩ := this
      rw [hs] at hb; cases hb; exact h
    obtain ⟨a, b, ha, hb, _, hab, _⟩ := hc x s h0 hlt.le hr
    rw [e] at ha; rw [hl] at hb; cases ha; cases hb
    linarith
  · rintro p ⟨⟨p0, p1⟩, s, hs, hsx⟩
    refine ⟨p0, ?_⟩
    obtain ⟨s', hs', hl⟩ := Dist.lookup_sample hD hpos p0 p1
    rw [hs] at hs'; cases hs'
    have hr : T.x 0 ≤ s := by
      obtain ⟨a, b, ha, hb, h, _, _⟩ := Dist.sample_range_mono hD hpos p0 le_rfl p1
      rw [hs] at ha; cases ha; exact h
    obtain ⟨a, b, ha, hb, _, hab, _⟩ := hc s x hr hsx h1
    rw [hl] at ha; rw [e] at hb; cases ha; cases hb
    exact hab

theorem spectrum_eq (hD : mkDist T false = .ok D) {x : ℝ} (h0 : T.x 0 ≤ x)
    (h1 : x ≤ T.x (T.n - 1)) : spectrum D x = interp T.x T.y T.n x := by
  obtain ⟨rfl, hn, hx, hy⟩ := mkDist_ok hD
  have hr : T.inRange x := by unfold Table.inRange; push Not; exact ⟨h0, h1⟩
  simp [spectrum, Dist.call, hr, npInterp_eq h0 h1]

/-- One bin: the spectrum is integrable on it and its area is the trapezoid. -/
theorem bin_area (hD : mkDist T false = .ok D) {i : ℕ} (hi : i + 1 < T.n) :
    IntervalIntegrable (spectrum D) volume (T.x i) (T.x (i + 1)) ∧
    ∫ x in T.x i..T.x (i + 1), spectrum D x = (T.x (i + 1) - T.x i) * ((T.y i + T.y (i + 1)) / 2) := by
  obtain ⟨hE, hn, hx, hy⟩ := mkDist_ok hD
  have hlt : T.x i < T.x (i + 1) := hx _ _ (by omega) hi
  have he : (Ioo (T.x i) (T.x (i + 1))).EqOn (spectrum D) (seg T.x T.y i) := by
    intro x hxx
    rw [spectrum_eq hD ((hx.mono 0 i (by omega) (by omega)).trans hxx.1.le)
      (hxx.2.le.trans (hx.mono _ _ (by omega) (by omega))), interp_seg hx.mono hi hxx.1.le hxx.2]
  have hcont : Continuous (seg T.x T.y i) := by unfold seg; fun_prop
  constructor
  · refine (hcont.intervalIntegrable _ _).congr_uIoo ?_
    rw [uIoo_of_le hlt.le]; exact he.symm
  · rw [intervalIntegral.integral_congr_Ioo_of_le hlt.le he]
    have hne : T.x (i + 1) - T.x i ≠ 0 := by linarith
    have hd : ∀ x ∈ uIcc (T.x i) (T.x (i + 1)), HasDerivAt (fun x =>
        (T.y (i + 1) - T.y i) / (T.x (i + 1) - T.x i) * ((x - T.x i) ^ 2 / 2) + T.y i * x)
        (seg T.x T.y i x) x := by
      intro x _
      have d1 := ((((hasDerivAt_id x).sub_const (T.x i)).pow 2).div_const 2).const_mul
        ((T.y (i + 1) - T.y i) / (T.x (i + 1) - T.x i))
      have d2 := d1.add ((hasDerivAt_id x).const_mul (T.y i))
      refine d2.congr_deriv ?_
      simp [seg]
    rw [intervalIntegral.integral_eq_sub_of_hasDerivAt hd (hcont.intervalIntegrable _ _)]
    field_simp
    ring

/-- The area under the spectrum up to a knot. -/
theorem area_to (hD : mkDist T false = .ok D) {k : ℕ} (hk : k < T.n) :
    ∫ x in T.x 0..T.x k, spectrum D x =
      ∑ i ∈ Finset.range k, (T.x (i + 1) - T.x i) * ((T.y i + T.y (i + 1)) / 2) := by
  rw [← intervalIntegral.sum_integral_adjacent_intervals (a := T.x) (n := k) (fun i hi => (bin_area hD (by omega)).1)]
  exact Finset.sum_congr rfl (fun i hi => (bin_area hD (by have := Finset.mem_range.1 hi; omega)).2)

/-- The share of samples up to a knot. -/
theorem share_knot (hD : mkDist T false = .ok D) (hpos : ∃ i < T.n, 0 < T.y i) {k : ℕ}
    (hk : k < T.n) : share D (T.x k) = ENNReal.ofReal (T.cum k / T.cum (T.n - 1)) := by
  obtain ⟨hE, hn, hx, hy⟩ := mkDist_ok hD
  obtain ⟨c, e, hs⟩ := share_eq_lookup hD hpos (hx.mono 0 k (by omega) hk)
    (hx.mono k _ (by omega) (by omega))
  rw [Dist.lookup_eq hD (hx.mono 0 k (by omega) hk) (hx.mono k _ (by omega) (by omega)),
    interp_knot hx hk] at e
  cases e
  rw [hs, Table.cdf_eq hy hn]

/-- **C82**, proved part. For an evenly spaced spectrum the share of samples up to each tabulated
wavelength is the area under the spectrum up to it, divided by the total area. Missing: unevenly
spaced spectra (`uneven_spacing_wrong`) and wavelengths between two tabulated ones
(`inside_bin_wrong`); the code violates the property there. -/
theorem follows_spectrum_partial (hD : mkDist T false = .ok D) (hpos : ∃ i < T.n, 0 < T.y i) {h : ℝ}
    (heven : ∀ i, i + 1 < T.n → T.x (i + 1) - T.x i = h) {k : ℕ} (hk : k < T.n) :
    share D (T.x k) = ENNReal.ofReal ((∫ x in T.x 0..T.x k, spectrum D x) /
      ∫ x in T.x 0..T.x (T.n - 1), spectrum D x) := by
  obtain ⟨hE, hn, hx, hy⟩ := mkDist_ok hD
  have hh : 0 < h := by
    have := heven 0 (by omega)
    rw [← this]; exact sub_pos.2 (hx 0 1 (by omega) (by omega))
  have key : ∀ k < T.n, ∫ x in T.x 0..T.x k, spectrum D x = h * T.cum k := by
    intro k hk
    rw [area_to hD hk, Table.cum, Finset.mul_sum]
    refine Finset.sum_congr rfl (fun i hi => ?_)
    rw [heven i (by have := Finset.mem_range.1 hi; omega)]; ring
  rw [share_knot hD hpos hk, key k hk, key _ (by omega), mul_div_mul_left _ _ hh.ne']

/-- **C82** (violated). The cumulative function ignores the spacing: a flat spectrum tabulated at 0, 1
and 3 puts half of its samples below 1, where a third of its area is. -/
theorem uneven_spacing_wrong : ∃ (T : Table ℝ) (D : Dist ℝ), mkDist T false = .ok D ∧
    (∀ x, T.x 0 ≤ x → x ≤ T.x (T.n - 1) → spectrum D x = 1) ∧
    share D (T.x 1) = ENNReal.ofReal (1 / 2) ∧
    (∫ x in T.x 0..T.x 1, spectrum D x) / (∫ x in T.x 0..T.x (T.n - 1), spectrum D x) = 1 / 3 := by
  let T : Table ℝ := ⟨3, fun i => if i = 0 then 0 else if i = 1 then 1 else 3, fun _ => 1⟩
  have hD : mkDist T false = .ok (.table T false) := by
    obtain ⟨D, hD⟩ := (Dist.accepted_iff T false).2 ⟨by simp [T], fun i j hij hj => by
      have : T.n = 3 := rfl
      interval_cases j <;> interval_cases i <;> norm_num [T], by simp [T]⟩
    rw [hD, (mkDist_ok hD).1]
  have hp : ∃ i < T.n, 0 < T.y i := ⟨0, by simp [T], by simp [T]⟩
  refine ⟨T, _, hD, ?_, ?_, ?_⟩
  · intro x h0 h1
    rw [spectrum_eq hD h0 h1]
    unfold interp seg
    split <;> simp [T]
  · rw [share_knot hD hp (by simp [T])]
    norm_num [Table.cum, T, Finset.sum_range_succ]
  · rw [area_to hD (k := 1) (by simp [T]), show T.n - 1 = 2 from rfl, area_to hD (k := 2) (by simp [T])]
    norm_num [T, Finset.sum_range_succ]

/-- **C82** (violated). Within a bin samples are uniform even where the spectrum rises: of the
spectrum that rises from 0 at 0 to 1 at 1, half of the samples are below 1/2, where a quarter of its
area is. -/
theorem inside_bin_wrong : ∃ (T : Table ℝ) (D : Dist ℝ), mkDist T false = .ok D ∧
    (∀ x, 0 ≤ x → x ≤ 1 → spectrum D x = x) ∧ T.x 0 = 0 ∧ T.x (T.n - 1) = 1 ∧
    share D (1 / 2) = ENNReal.ofReal (1 / 2) ∧
    (∫ x in (0 : ℝ)..1 / 2, spectrum D x) / (∫ x in (0 : ℝ)..1, spectrum D x) = 1 / 4 := by
  let T : Table ℝ := ⟨2, fun i => i, fun i => i⟩
  have hD : mkDist T false = .ok (.table T false) := by
    obtain ⟨D, hD⟩ := (Dist.accepted_iff T false).2 ⟨by simp [T],
      fun i j hij hj => by simpa [T] using hij, by simp [T]⟩
    rw [hD, (mkDist_ok hD).1]
  have hp : ∃ i < T.n, 0 < T.y i := ⟨1, by simp [T], by simp [T]⟩
  have e : ∀ x, 0 ≤ x → x ≤ 1 → spectrum (.table T false) x = x := by
    intro x h0 h1
    rw [spectrum_eq hD (by simpa [T] using h0) (by simpa [T] using h1)]
    rcases h1.lt_or_eq with h | rfl
    · rw [interp_seg (j := 0) (mkDist_ok hD).2.2.1.mono (by simp [T]) (by simpa [T]) (by simpa [T])]
      simp [seg, T]
    · rw [interp_last (by simp [T])]; simp [T]
  refine ⟨T, _, hD, e, by simp [T], by simp [T], ?_, ?_⟩
  · obtain ⟨c, hc, hs⟩ := share_eq_lookup hD hp (x := 1 / 2) (by simp [T]) (by norm_num [T])
    rw [hs]
    rw [Dist.lookup_eq hD (by simp [T]) (by norm_num [T]),
      interp_seg (j := 0) (mkDist_ok hD).2.2.1.mono (by simp [T]) (by simp [T]) (by norm_num [T])] at hc
    cases hc
    norm_num [seg, T, Table.cdf, Table.cum, Table.maxCum]
  · have i : ∀ b : ℝ, 0 ≤ b → b ≤ 1 → ∫ x in (0 : ℝ)..b, spectrum (.table T false) x = b ^ 2 / 2 := by
      intro b h0 h1
      rw [intervalIntegral.integral_congr (g := fun x => x), integral_id]
      · ring
      · intro x hx
        rw [uIcc_of_le h0] at hx
        exact e x hx.1 (hx.2.trans h1)
    rw [i _ (by norm_num) (by norm_num), i _ (by norm_num) (by norm_num)]
    norm_num

/-- **C82** (histograms). Each tabulated wavelength of a histogram is drawn with the share of its
count in the total. -/
theorem histogram_shares (hD : mkDist T true = .ok D) (hpos : ∃ i < T.n, 0 < T.y i) {i : ℕ}
    (hi : i < T.n) :
    volume {p : ℝ | p ∈ Icc (0 : ℝ) 1 ∧ D.sample p = .ok (some (T.x i))} =
      ENNReal.ofReal (T.y i / ∑ j ∈ Finset.range T.n, T.y j) := by
  obtain ⟨rfl, hn, hx, hy⟩ := mkDist_ok hD
  have hm := Table.hcdf_mono hy
  have hl := Table.hcdf_last hy hpos
  have tot : T.hsum (T.n - 1) = ∑ j ∈ Finset.range T.n, T.y j := by
    unfold Table.hsum; rw [Nat.sub_add_cancel (by omega)]
  have samp : ∀ p ∈ Icc (0 : ℝ) 1, ((Dist.table T true).sample p = .ok (some (T.x i)) ↔
      searchLeft T.hcdf T.n p = i) := by
    rintro p ⟨p0, p1⟩
    have hs := searchLeft_spec hm p
    have hlt : searchLeft T.hcdf T.n p < T.n := by
      rcases Nat.lt_or_eq_of_le hs.1 with h | h
      · exact h
      · have := hs.2.1 (T.n - 1) (by omega)
        rw [hl] at this; linarith
    have hr : ¬ (p < 0 ∨ 1 < p) := by push Not; exact ⟨p0, p1⟩
    simp only [Dist.sample, if_neg hr, if_true, if_pos hlt, Except.ok.injEq, Option.some.injEq]
    constructor
    · intro h
      rcases lt_trichotomy (searchLeft T.hcdf T.n p) i with h' | h' | h'
      · exact absurd h (hx _ _ h' hi).ne
      · exact h'
      · exact absurd h (hx _ _ h' hlt).ne'
    · intro h; rw [h]
  have le1 : T.hcdf i ≤ 1 := by rw [← hl]; exact hm _ _ (by omega) (by omega)
  have nn : 0 ≤ T.hcdf 0 := by
    unfold Table.hcdf
    exact mul_nonneg (Table.hsum_nonneg hy (by omega)) (one_div_nonneg.2 (Table.hsum_nonneg hy (by omega)))
  rcases Nat.eq_zero_or_pos i with rfl | h
  · have e : {p : ℝ | p ∈ Icc (0 : ℝ) 1 ∧ (Dist.table T true).sample p = .ok (some (T.x 0))} =
        Icc 0 (T.hcdf 0) := by
      ext p
      constructor
      · rintro ⟨hp, h⟩
        rw [samp p hp] at h
        exact ⟨hp.1, (searchLeft_spec hm p).2.2 0 (by omega) (by omega)⟩
      · rintro ⟨p0, p1⟩
        have hp : p ∈ Icc (0 : ℝ) 1 := ⟨p0, p1.trans le1⟩
        refine ⟨hp, (samp p hp).2 ?_⟩
        by_contra hne
        have := (searchLeft_spec hm p).2.1 0 (by omega)
        linarith
    rw [e, Real.volume_Icc, sub_zero, Table.hcdf, tot, mul_one_div]
    simp [Table.hsum]
  · have e : {p : ℝ | p ∈ Icc (0 : ℝ) 1 ∧ (Dist.table T true).sample p = .ok (some (T.x i))} =
        Ioc (T.hcdf (i - 1)) (T.hcdf i) := by
      ext p
      constructor
      · rintro ⟨hp, h'⟩
        rw [samp p hp] at h'
        have hs := searchLeft_spec hm p
        exact ⟨hs.2.1 _ (by omega), hs.2.2 i (by omega) hi⟩
      · rintro ⟨p0, p1⟩
        have : T.hcdf 0 ≤ T.hcdf (i - 1) := hm _ _ (by omega) (by omega)
        have hp : p ∈ Icc (0 : ℝ) 1 := ⟨by linarith, p1.trans le1⟩
        refine ⟨hp, (samp p hp).2 ?_⟩
        have hs := searchLeft_spec hm p
        rcases lt_trichotomy (searchLeft T.hcdf T.n p) i with h' | h' | h'
        · have := hs.2.2 (i - 1) (by omega) (by omega); linarith
        · exact h'
        · have := hs.2.1 i h'; linarith
    rw [e, Real.volume_Ioc, ← tot]
    congr 1
    obtain ⟨j, rfl⟩ : ∃ j, i = j + 1 := ⟨i - 1, by omega⟩
    rw [Nat.add_sub_cancel]
    unfold Table.hcdf
    rw [Table.hsum_succ]; ring

/-- **C84** (violated). Between two edges a histogram returns the value of the bin to the right: the
edge search is from the left, so only the edge itself has the value of its own bin. -/
theorem histogram_shifted (hD : mkDist T true = .ok D) {i : ℕ} (hi : i + 1 < T.n) :
    spectrum D (T.x i) = T.y i ∧
    ∀ x, T.x i < x → x < T.x (i + 1) → spectrum D x = T.y (i + 1) := by
  obtain ⟨rfl, hn, hx, hy⟩ := mkDist_ok hD
  have val : ∀ x, T.x 0 ≤ x → x ≤ T.x (T.n - 1) →
      spectrum (.table T true) x = T.y (searchLeft T.x T.n x) := by
    intro x h0 h1
    have hr : T.inRange x := by unfold Table.inRange; push Not; exact ⟨h0, h1⟩
    simp [spectrum, Dist.call, hr]
  constructor
  · rw [val _ (hx.mono _ _ (by omega) (by omega)) (hx.mono _ _ (by omega) (by omega))]
    congr 1
    have hs := searchLeft_spec hx.mono (T.x i)
    rcases lt_trichotomy (searchLeft T.x T.n (T.x i)) i with h' | h' | h'
    · have := hs.2.2 _ le_rfl (by omega); have := hx _ _ h' (by omega); linarith
    · exact h'
    · have := hs.2.1 i h'; linarith
  · intro x h0 h1
    rw [val _ ((hx.mono 0 i (by omega) (by omega)).trans h0.le)
      (h1.le.trans (hx.mono _ _ (by omega) (by omega)))]
    congr 1
    have hs := searchLeft_spec hx.mono x
    rcases lt_trichotomy (searchLeft T.x T.n x) (i + 1) with h' | h' | h'
    · have := hs.2.2 i (by omega) (by omega); linarith
    · exact h'
    · have := hs.2.1 (i + 1) h'; linarith

/-- A histogram with counts 1 and 5 in the bins starting at 0 and 1: the value at 1/2 is 5. -/
theorem histogram_wrong : ∃ (T : Table ℝ) (D : Dist ℝ), mkDist T true = .ok D ∧
    T.x 0 < 1 / 2 ∧ (1 / 2 : ℝ) < T.x 1 ∧ T.y 0 = 1 ∧ spectrum D (1 / 2) = 5 := by
  let T : Table ℝ := ⟨2, fun i => i, fun i => if i = 0 then 1 else 5⟩
  obtain ⟨D, hD⟩ := (Dist.accepted_iff T true).2 ⟨by simp [T],
    fun i j hij hj => by simpa [T] using hij, by intro i hi; simp only [T]; split <;> norm_num⟩
  refine ⟨T, D, hD, by simp [T], by norm_num [T], by simp [T], ?_⟩
  rw [(histogram_shifted hD (i := 0) (by simp [T])).2 (1 / 2) (by simp [T]) (by norm_num [T])]
  simp [T]

/-! ## C83 -/

open PV.Directions (script)

theorem share_below {c : ℝ} (h0 : 0 ≤ c) (h1 : c ≤ 1) {P : ℝ → Prop}
    (h : ∀ u, 0 ≤ u → u < 1 → (P u ↔ u < c)) :
    volume {u : ℝ | u ∈ Ico (0 : ℝ) 1 ∧ P u} = ENNReal.ofReal c := by
  have e : {u : ℝ | u ∈ Ico (0 : ℝ) 1 ∧ P u} = Ico 0 c := by
    ext u
    constructor
    · rintro ⟨⟨a, b⟩, hp⟩; exact ⟨a, (h u a b).1 hp⟩
    · rintro ⟨a, b⟩; exact ⟨⟨a, b.trans_le h1⟩, (h u a (b.trans_le h1)).2 b⟩
  rw [e, Real.volume_Ico, sub_zero]

theorem log_lt {u a : ℝ} (h1 : u < 1) : -Real.log (1 - u) < a ↔ u < 1 - Real.exp (-a) := by
  rw [neg_lt, Real.lt_log_iff_exp_lt (by linarith)]
  constructor <;> intro h <;> linarith

theorem exp_range {a : ℝ} (h : 0 ≤ a) : 0 ≤ 1 - Real.exp (-a) ∧ 1 - Real.exp (-a) ≤ 1 :=
  ⟨by linarith [Real.exp_le_one_iff.2 (show -a ≤ 0 by linarith)], by linarith [Real.exp_pos (-a)]⟩

/-- **C82** (emission). A luminophore that absorbed at `nm` emits with method `redshift` according to the
part of its spectrum from `nm` on: wavelengths up to `x` have the share
`(cdf x - cdf nm) / (1 - cdf nm)`. With method `full` the whole spectrum is used. -/
theorem emission_law (hD : mkDist T false = .ok D) (hpos : ∃ i < T.n, 0 < T.y i) {nm x a b : ℝ}
    (hx : nm ≤ x) (hla : D.lookup nm = .ok (some a)) (hlb : D.lookup x = .ok (some b)) (ha : a < 1) :
    volume {u : ℝ | u ∈ Ico (0 : ℝ) 1 ∧ ∃ w, emitWavelength D .redshift nm u = .ok w ∧ w ≤ x} =
      ENNReal.ofReal ((b - a) / (1 - a)) ∧
    volume {u : ℝ | u ∈ Ico (0 : ℝ) 1 ∧ ∃ w, emitWavelength D .full nm u = .ok w ∧ w ≤ x} =
      ENNReal.ofReal b := by
  have rng : ∀ y c, D.lookup y = .ok (some c) → T.x 0 ≤ y ∧ y ≤ T.x (T.n - 1) := by
    intro y c h
    have := (Dist.out_of_range_raises hD y 0).1
    rw [h] at this
    by_contra hn
    simp only [not_and_or, not_le] at hn
    cases this.2 hn
  obtain ⟨_, _, hc⟩ := Dist.cdf_is_cdf hD hpos
  have ra := rng _ _ hla
  have rb := rng _ _ hlb
  have mono : ∀ y z c d, y ≤ z → D.lookup y = .ok (some c) → D.lookup z = .ok (some d) →
      0 ≤ c ∧ c ≤ d ∧ d ≤ 1 := by
    intro y z c d hyz h1 h2
    obtain ⟨p, p', e1, e2, h⟩ := hc y z (rng _ _ h1).1 hyz (rng _ _ h2).2
    rw [h1] at e1; rw [h2] at e2; cases e1; cases e2; exact h
  obtain ⟨a0, ab, b1⟩ := mono _ _ _ _ hx hla hlb
  have below : ∀ q, 0 ≤ q → q ≤ 1 → ∃ w, D.sample q = .ok (some w) ∧ (q < b → w ≤ x) ∧ (w ≤ x → q ≤ b) := by
    intro q q0 q1
    obtain ⟨w, hw, hl⟩ := Dist.lookup_sample hD hpos q0 q1
    refine ⟨w, hw, fun h => ?_, fun h => (mono _ _ _ _ h hl hlb).2.1⟩
    by_contra hn
    push Not at hn
    have := (mono _ _ _ _ hn.le hlb hl).2.1
    linarith
  have gen : ∀ (p1 : ℝ) (m : EmitMethod), 0 ≤ p1 → p1 < 1 → p1 ≤ b → lowerLimit D m nm = .ok p1 →
      volume {u : ℝ | u ∈ Ico (0 : ℝ) 1 ∧ ∃ w, emitWavelength D m nm u = .ok w ∧ w ≤ x} =
      ENNReal.ofReal ((b - p1) / (1 - p1)) := by
    intro p1 m p0 p1' pb hm
    have hq : 0 < 1 - p1 := by linarith
    have emit : ∀ u w, D.sample (p1 + (1 - p1) * u) = .ok (some w) → emitWavelength D m nm u = .ok w := by
      intro u w h; simp [emitWavelength, hm, h]
    have le1 : (b - p1) / (1 - p1) ≤ 1 := by rw [div_le_one hq]; linarith
    have key : ∀ u, (p1 + (1 - p1) * u < b ↔ u < (b - p1) / (1 - p1)) ∧
        (p1 + (1 - p1) * u ≤ b ↔ u ≤ (b - p1) / (1 - p1)) := by
      intro u
      rw [lt_div_iff₀ hq, le_div_iff₀ hq]
      constructor <;> constructor <;> intro h <;> linarith
    refine volume_between (div_nonneg (by linarith) hq.le) ?_ ?_
    · rintro u ⟨u0, u1⟩
      obtain ⟨w, hw, h1, _⟩ := below (p1 + (1 - p1) * u) (by positivity) (by nlinarith)
      exact ⟨⟨u0, by linarith⟩, w, emit u w hw, h1 ((key u).1.2 u1)⟩
    · rintro u ⟨⟨u0, u1⟩, w, hw, hwx⟩
      refine ⟨u0, (key u).2.1 ?_⟩
      obtain ⟨w', hw', _, h2⟩ := below (p1 + (1 - p1) * u) (by positivity) (by nlinarith)
      rw [emit u w' hw'] at hw; cases hw
      exact h2 hwx
  constructor
  · exact gen a .redshift a0 ha ab (by simp [lowerLimit, hla])
  · have := gen 0 .full le_rfl one_pos (a0.trans ab) rfl
    simpa using this

/-- **C83** (delays). The time a component with lifetime `τ` waits before it emits or dissipates is
exponentially distributed with mean `τ`, in both tracers. -/
theorem delays_exponential {c : Comp} {τ t : ℝ} (hτ : 0 < τ) (ht : 0 ≤ t) (ray : Ray ℝ) :
    (c.tauNr = some τ →
      volume {u : ℝ | u ∈ Ico (0 : ℝ) 1 ∧
        (c.nonradiativeAbsorb script ray [u]).1.duration < ray.duration + t} =
        ENNReal.ofReal (1 - Real.exp (-(t / τ)))) ∧
    volume {u : ℝ | u ∈ Ico (0 : ℝ) 1 ∧ (kDelay script (some τ) [u]).1 < t} =
        ENNReal.ofReal (1 - Real.exp (-(t / τ))) := by
  have hr := exp_range (div_nonneg ht hτ.le)
  have key : ∀ u, u < 1 → (-Real.log (1 - u) * τ < t ↔ u < 1 - Real.exp (-(t / τ))) := by
    intro u hu
    rw [← lt_div_iff₀ hτ, log_lt hu]
  constructor
  · intro h
    refine share_below hr.1 hr.2 (fun u _ h1 => ?_)
    rw [← key u h1]
    simp [Comp.nonradiativeAbsorb, h, truthy, hτ.ne', script]
  · refine share_below hr.1 hr.2 (fun u _ h1 => ?_)
    rw [← key u h1]
    simp [kDelay, hτ, script]

/-- **C83** (emission). A scatterer or luminophore re-emits with a probability equal to its quantum
yield. -/
theorem emission_probability {c : Comp} (hk : c.kind = .scatterer ∨ c.kind = .luminophore)
    (h0 : 0 ≤ c.qy) (h1 : c.qy ≤ 1) :
    volume {u : ℝ | u ∈ Ico (0 : ℝ) 1 ∧ (c.isRadiative script [u]).1 = true} =
      ENNReal.ofReal c.qy := by
  refine share_below h0 h1 (fun u _ _ => ?_)
  rcases hk with h | h <;> simp [Comp.isRadiative, h, script]

/-- **C83** (engine). The engine uses the same probabilities: free path, emission and, at a surface of
reflectivity `r`, reflection. The choice of component is `PV.Material.engine_component_probability`. -/
theorem engine_probabilities {n : ℕ} (S : LScene n) (m : EmitMethod) :
    (∀ (v : Fin (n + 1)) (w d : ℝ), 1e-8 < ((S.node v).kCoefs w).sum → 0 ≤ d →
      volume {u : ℝ | u ∈ Ico (0 : ℝ) 1 ∧ ∃ x l, (kOps S script m).depth v w [u] = (some x, l) ∧ x < d} =
        ENNReal.ofReal (1 - Real.exp (-(((S.node v).kCoefs w).sum * d)))) ∧
    (∀ c : Comp, 0 ≤ c.qy → c.qy ≤ 1 →
      volume {u : ℝ | u ∈ Ico (0 : ℝ) 1 ∧ ((kOps S script m).yields c [u]).1 = true} =
        ENNReal.ofReal c.qy) ∧
    (∀ (h c a : Fin (n + 1)) (nrm d : Vec3 ℝ) (r : ℝ), (S.node h).surface = .fresnel →
      kReflectivity nrm d (S.node c).index (S.node a).index = some r → 0 ≤ r → r ≤ 1 →
      volume {u : ℝ | u ∈ Ico (0 : ℝ) 1 ∧ ((kOps S script m).reflects h c a nrm d [u]).1 = true} =
        ENNReal.ofReal r) := by
  refine ⟨fun v w d ha hd => ?_, fun c h0 h1 => ?_, fun h c a nrm d r hs hr h0 h1 => ?_⟩
  · have hp : 0 < ((S.node v).kCoefs w).sum := lt_trans (by norm_num) ha
    have hr := exp_range (mul_nonneg hp.le hd)
    refine share_below hr.1 hr.2 (fun u _ u1 => ?_)
    have : -Real.log (1 - u) / ((S.node v).kCoefs w).sum < d ↔
        u < 1 - Real.exp (-(((S.node v).kCoefs w).sum * d)) := by
      rw [div_lt_iff₀ hp, mul_comm, log_lt u1]
    rw [← this]
    simp only [kOps, kDepth, gt_iff_lt, ha, if_true, script, List.headD_cons, List.tail_cons,
      Prod.mk.injEq, Option.some.injEq]
    constructor
    · rintro ⟨x, l, ⟨rfl, _⟩, h⟩; exact h
    · intro h; exact ⟨_, _, ⟨rfl, rfl⟩, h⟩
  · exact share_below h0 h1 (fun u _ _ => decide_eq_true_iff)
  · refine share_below h0 h1 (fun u u0 u1 => ?_)
    simp only [kOps, LScene.kReflects, hs, hr, script, List.headD_cons, kIsReflected]
    split_ifs with hz
    · exact decide_eq_true_iff
    · constructor
      · intro h'; have := of_decide_eq_true h'; linarith
      · intro h'; linarith

/-- **C83** (surface). A ray that meets a surface of reflectivity `r` is reflected with probability
`r`. -/
theorem reflection_probability {n : ℕ} (S : LScene n) {h c : Fin (n + 1)} {a : Option (Fin (n + 1))}
    {ray : Ray ℝ} {r : ℝ} (hr : S.reflectivity h c a (ray.representation (S.node h).w2l) = .ok (some r))
    (h0 : 0 ≤ r) (h1 : r ≤ 1) :
    volume {u : ℝ | u ∈ Ico (0 : ℝ) 1 ∧ ∃ s, S.isReflected script h c a ray [u] = .ok (true, s)} =
      ENNReal.ofReal r := by
  refine share_below h0 h1 (fun u u0 _ => ?_)
  unfold LScene.isReflected
  rw [hr]
  simp only [script, List.headD_cons, PV.isReflected]
  by_cases hz : r = 0
  · simp [hz, u0]
  · simp only [hz, if_false, Except.ok.injEq, Prod.mk.injEq, exists_and_left, exists_eq', and_true]
    exact decide_eq_true_iff

/-- The pass of the tracer that starts with a hit at distance `h.dist` inside an absorbing container,
as a function of the numbers drawn. -/
theorem pass_eq {n : ℕ} (S : LScene n) (B : Trimesh) (m : EmitMethod) {maxsteps count : ℕ} {ray : Ray ℝ}
    {h : HitInfo (Fin (n + 1)) ℝ} {cs : List ℝ}
    (hh : nextHit epsZero (distanceBetween ray.position)
      (S.intersections B ray.position ray.direction) = .ok (some h))
    (hcount : count ≤ maxsteps) (hroot : h.hit ≠ 0)
    (hc : coefficients (S.node h.container).comps ray.wavelength = .ok cs) (ha : 1e-8 < cs.sum)
    {u : ℝ} (h1 : u < 1) (rest : List ℝ) :
    body (pyOps S B script m) maxsteps none count ray (u :: rest) =
      if u < 1 - Real.exp (-(cs.sum * h.dist)) then
        absorbBody (pyOps S B script m) h.container ray (-Real.log (1 - u) / cs.sum) rest
      else surfaceBody (pyOps S B script m) h ray rest := by
  have hp : 0 < cs.sum := lt_trans (by norm_num) ha
  have hn : ¬ |cs.sum| ≤ 1e-8 := by rw [abs_of_pos hp]; exact not_le.2 ha
  have hd : (pyOps S B script m).penetrationDepth h.container ray.wavelength (u :: rest) =
      .ok (some (-Real.log (1 - u) / cs.sum), rest) := by
    simp only [pyOps, penetrationDepth]
    rw [hc]
    simp [hn, script]
  unfold body
  rw [show (pyOps S B script m).intersections ray.position ray.direction =
    .ok (S.intersections B ray.position ray.direction) from rfl]
  simp only
  rw [show (pyOps S B script m).eps = epsZero from rfl,
    show (pyOps S B script m).distBetween = distanceBetween from rfl, hh]
  simp only
  rw [if_neg (by simp [beyond]; omega), if_neg (by exact hroot), hd]
  simp only [isAbsorbed]
  have : -Real.log (1 - u) / cs.sum < h.dist ↔ u < 1 - Real.exp (-(cs.sum * h.dist)) := by
    rw [div_lt_iff₀ hp, mul_comm, log_lt h1]
  by_cases hlt : u < 1 - Real.exp (-(cs.sum * h.dist))
  · rw [if_pos (this.2 hlt), if_pos hlt]
  · rw [if_neg (fun h => hlt (this.1 h)), if_neg hlt]

/-- The events of the surface part are reflections and transmissions. -/
theorem surface_events {n : ℕ} (S : LScene n) (B : Trimesh) (m : EmitMethod) (h : HitInfo (Fin (n + 1)) ℝ)
    (ray : Ray ℝ) (l : List ℝ) :
    ∀ e ∈ (surfaceBody (pyOps S B script m) h ray l).1, e.event ≠ .absorb := by
  unfold surfaceBody
  cases hn : (pyOps S B script m).normal h.hit
    (ray.propagate h.dist ((pyOps S B script m).refractiveIndex h.container)).position with
  | error e => simp [hn]
  | ok nrm =>
    cases hr : (pyOps S B script m).isReflected h.hit h.container h.adjacent
      (ray.propagate h.dist ((pyOps S B script m).refractiveIndex h.container)) l with
    | error e => simp [hn, hr]
    | ok p =>
      obtain ⟨b, s⟩ := p
      cases b with
      | true =>
        cases hq : (pyOps S B script m).reflect h.hit h.container h.adjacent
          (ray.propagate h.dist ((pyOps S B script m).refractiveIndex h.container)) s with
        | error e => simp [hn, hr, hq]
        | ok q => simp [hn, hr, hq]
      | false =>
        cases hq : (pyOps S B script m).transmit h.hit h.container h.adjacent
          (ray.propagate h.dist ((pyOps S B script m).refractiveIndex h.container)) s with
        | error e => simp [hn, hr, hq]
        | ok q =>
          cases ha : h.adjacent with
          | none => simp [← ha, hn, hr, hq]
          | some a => simp [← ha, hn, hr, hq]

/-- The volume part starts with ABSORB at the chosen distance by the chosen component, has no other
ABSORB, and ends the history exactly if the component does not re-emit. -/
theorem absorb_shape {n : ℕ} (S : LScene n) (B : Trimesh) (m : EmitMethod) (c : Fin (n + 1))
    (ray : Ray ℝ) (d : ℝ) {l l' : List ℝ} {comp : Comp}
    (hp : pickComponent script (S.node c).comps ray.wavelength l = .ok (comp, l')) :
    ∃ tail next, absorbBody (pyOps S B script m) c ray d l =
        (⟨ray.propagate d (S.node c).index, .absorb,
          { component := some comp.name, container := some (S.node c).name }⟩ :: tail, next) ∧
      (∀ e ∈ tail, e.event ≠ .absorb) ∧
      (next = .stop ↔ (comp.isRadiative script l').1 = false) := by
  have hp' : (pyOps S B script m).component c
      (ray.propagate d ((pyOps S B script m).refractiveIndex c)).wavelength l = .ok (comp, l') := hp
  unfold absorbBody
  simp only
  rw [hp']
  simp only
  rw [show (pyOps S B script m).isRadiative comp
    (ray.propagate d ((pyOps S B script m).refractiveIndex c)) l' = .ok (comp.isRadiative script l') from rfl]
  obtain ⟨b, l2⟩ := comp.isRadiative script l'
  cases b with
  | true =>
    cases hq : (pyOps S B script m).emit c comp
        (ray.propagate d ((pyOps S B script m).refractiveIndex c)) l2 with
    | error e => exact ⟨_, _, by simp only [hq]; rfl, by simp, by simp⟩
    | ok q =>
      cases (pyOps S B script m).compKind comp <;>
        exact ⟨_, _, by simp only [hq]; rfl, by simp, by simp⟩
  | false =>
    cases hq : (pyOps S B script m).nonradiativeAbsorb comp
        (ray.propagate d ((pyOps S B script m).refractiveIndex c)) l2 with
    | error e => cases hq
    | ok q =>
      cases (pyOps S B script m).compKind comp <;>
        exact ⟨_, _, by simp only [hq]; rfl, by simp, by simp⟩

theorem picks {comps : List Comp} {w : ℝ} {cs l : List ℝ} (hc : coefficients comps w = .ok cs)
    (hpos : ∀ c ∈ cs, 0 ≤ c) (hp : 0 < cs.sum) (hl : 0 ≤ l.headD 0 ∧ l.headD 0 < 1) :
    ∃ comp, pickComponent script comps w l = .ok (comp, l.tail) := by
  obtain ⟨i, hi, e, _⟩ := Material.component_total hpos hp hl.1 hl.2
  have hi' : i < comps.length := by have := (coefficients_ok hc).length_eq; omega
  refine ⟨comps[i], ?_⟩
  unfold pickComponent
  rw [hc]
  simp only [script, e, List.getElem?_eq_getElem hi']

/-- **C83** (Beer–Lambert). A ray that has `h.dist` to go to the next surface in a material of total
attenuation `α = Σ αᵢ` is absorbed on the way with probability `1 - exp (-α · dist)`, and the point of
absorption is before distance `d` with probability `1 - exp (-α d)`. -/
theorem absorption_probability {n : ℕ} (S : LScene n) (B : Trimesh) (m : EmitMethod)
    {maxsteps count : ℕ} {ray : Ray ℝ} {h : HitInfo (Fin (n + 1)) ℝ} {cs : List ℝ}
    (hh : nextHit epsZero (distanceBetween ray.position)
      (S.intersections B ray.position ray.direction) = .ok (some h))
    (hcount : count ≤ maxsteps) (hroot : h.hit ≠ 0)
    (hc : coefficients (S.node h.container).comps ray.wavelength = .ok cs) (hpos : ∀ c ∈ cs, 0 ≤ c)
    (ha : 1e-8 < cs.sum) {d : ℝ} (hd0 : 0 ≤ d) (hd : d ≤ h.dist) {rest : List ℝ}
    (hrest : 0 ≤ rest.headD 0 ∧ rest.headD 0 < 1) :
    volume {u : ℝ | u ∈ Ico (0 : ℝ) 1 ∧
      ∃ e ∈ (body (pyOps S B script m) maxsteps none count ray (u :: rest)).1,
        e.event = .absorb ∧ e.ray.travelled < ray.travelled + d} =
      ENNReal.ofReal (1 - Real.exp (-(cs.sum * d))) := by
  have hp : 0 < cs.sum := lt_trans (by norm_num) ha
  have hr := exp_range (mul_nonneg hp.le hd0)
  refine share_below hr.1 hr.2 (fun u u0 u1 => ?_)
  rw [pass_eq S B m hh hcount hroot hc ha u1]
  have mono : 1 - Real.exp (-(cs.sum * d)) ≤ 1 - Real.exp (-(cs.sum * h.dist)) := by
    have : -(cs.sum * h.dist) ≤ -(cs.sum * d) := by nlinarith
    linarith [Real.exp_le_exp.2 this]
  by_cases hlt : u < 1 - Real.exp (-(cs.sum * h.dist))
  · rw [if_pos hlt]
    obtain ⟨comp, hpick⟩ := picks hc hpos hp hrest
    obtain ⟨tail, next, e, ht, _⟩ := absorb_shape S B m h.container ray (-Real.log (1 - u) / cs.sum) hpick
    rw [e]
    have : -Real.log (1 - u) / cs.sum < d ↔ u < 1 - Real.exp (-(cs.sum * d)) := by
      rw [div_lt_iff₀ hp, mul_comm, log_lt u1]
    rw [← this]
    constructor
    · rintro ⟨e, he, hev, htr⟩
      rcases List.mem_cons.1 he with rfl | he
      · simpa [Ray.propagate] using htr
      · exact absurd hev (ht e he)
    · intro h
      exact ⟨_, List.mem_cons_self, rfl, by simpa [Ray.propagate] using h⟩
  · rw [if_neg hlt]
    constructor
    · rintro ⟨e, he, hev, _⟩; exact absurd hev (surface_events S B m h ray rest e he)
    · intro h'; exact absurd (h'.trans_le mono) hlt

/-- The probability of emission after absorption: the quantum yield of scatterers and luminophores, and
0 for all other components. -/
def emits (c : Comp) : ℝ := if c.kind = .scatterer ∨ c.kind = .luminophore then c.qy else 0

/-- **C83** (whole interaction). The probability that a ray is absorbed before the next surface by the
`i`-th component and lost there is the product of the three: `1 - exp (-α · dist)`, the share `αᵢ / α`
of the component, and one minus its probability of emission. -/
theorem loss_probability {n : ℕ} (S : LScene n) (B : Trimesh) (m : EmitMethod)
    {maxsteps count : ℕ} {ray : Ray ℝ} {h : HitInfo (Fin (n + 1)) ℝ} {cs : List ℝ}
    (hh : nextHit epsZero (distanceBetween ray.position)
      (S.intersections B ray.position ray.direction) = .ok (some h))
    (hcount : count ≤ maxsteps) (hroot : h.hit ≠ 0) (hdist : 0 ≤ h.dist)
    (hc : coefficients (S.node h.container).comps ray.wavelength = .ok cs) (hpos : ∀ c ∈ cs, 0 ≤ c)
    (ha : 1e-8 < cs.sum) (hnames : ((S.node h.container).comps.map (·.name)).Nodup)
    {i : ℕ} (hi : i < (S.node h.container).comps.length) (hi' : i < cs.length)
    (q0 : 0 ≤ (S.node h.container).comps[i].qy) :
    volume {t : ℝ × ℝ × ℝ | (t.1 ∈ Ico (0 : ℝ) 1 ∧ t.2.1 ∈ Ico (0 : ℝ) 1 ∧ t.2.2 ∈ Ico (0 : ℝ) 1) ∧
      (∃ e ∈ (body (pyOps S B script m) maxsteps none count ray [t.1, t.2.1, t.2.2]).1,
        e.event = .absorb ∧ e.info.component = some (S.node h.container).comps[i].name) ∧
      (body (pyOps S B script m) maxsteps none count ray [t.1, t.2.1, t.2.2]).2 = .stop} =
    ENNReal.ofReal ((1 - Real.exp (-(cs.sum * h.dist))) * (cs[i] / cs.sum) *
      (1 - emits (S.node h.container).comps[i])) := by
  have q0' : 0 ≤ emits (S.node h.container).comps[i] := by unfold emits; split <;> simp [q0]
  have hp : 0 < cs.sum := lt_trans (by norm_num) ha
  have hr := exp_range (mul_nonneg hp.le hdist)
  have hlen := (coefficients_ok hc).length_eq
  have e : {t : ℝ × ℝ × ℝ | (t.1 ∈ Ico (0 : ℝ) 1 ∧ t.2.1 ∈ Ico (0 : ℝ) 1 ∧ t.2.2 ∈ Ico (0 : ℝ) 1) ∧
      (∃ e ∈ (body (pyOps S B script m) maxsteps none count ray [t.1, t.2.1, t.2.2]).1,
        e.event = .absorb ∧ e.info.component = some (S.node h.container).comps[i].name) ∧
      (body (pyOps S B script m) maxsteps none count ray [t.1, t.2.1, t.2.2]).2 = .stop} =
      Ico 0 (1 - Real.exp (-(cs.sum * h.dist))) ×ˢ
        ({v : ℝ | v ∈ Ico (0 : ℝ) 1 ∧ pickIndex cs v = .ok i} ×ˢ
          Ico (emits (S.node h.container).comps[i]) 1) := by
    have key : ∀ u v w, u < 1 → 0 ≤ v → v < 1 → u < 1 - Real.exp (-(cs.sum * h.dist)) →
        ∃ j, ∃ hj : j < (S.node h.container).comps.length, pickIndex cs v = .ok j ∧
        ((∃ e ∈ (body (pyOps S B script m) maxsteps none count ray [u, v, w]).1,
          e.event = .absorb ∧ e.info.component = some (S.node h.container).comps[i].name) ↔ i = j) ∧
        ((body (pyOps S B script m) maxsteps none count ray [u, v, w]).2 = .stop ↔
          ((S.node h.container).comps[j].isRadiative script [w]).1 = false) := by
      intro u v w u1 v0 v1 hu
      rw [pass_eq S B m hh hcount hroot hc ha u1, if_pos hu]
      obtain ⟨j, hj, ej, _⟩ := Material.component_total hpos hp v0 v1
      have hj' : j < (S.node h.container).comps.length := by omega
      have hpick : pickComponent script (S.node h.container).comps ray.wavelength [v, w] =
          .ok ((S.node h.container).comps[j], [w]) := by
        unfold pickComponent
        rw [hc]
        simp only [script, List.headD_cons, ej, List.getElem?_eq_getElem hj', List.tail_cons]
      obtain ⟨tail, next, eq, ht, hs⟩ :=
        absorb_shape S B m h.container ray (-Real.log (1 - u) / cs.sum) hpick
      rw [eq]
      refine ⟨j, hj', ej, ?_, hs⟩
      constructor
      · rintro ⟨e, he, hev, hn⟩
        rcases List.mem_cons.1 he with rfl | he
        · simp only [Option.some.injEq] at hn
          have := (List.Nodup.getElem_inj_iff hnames (i := j) (j := i) (hi := by simpa using hj')
            (hj := by simpa using hi)).1 (by simpa using hn)
          exact this.symm
        · exact absurd hev (ht e he)
      · rintro rfl
        exact ⟨_, List.mem_cons_self, rfl, rfl⟩
    have rad : ∀ w, 0 ≤ w → (((S.node h.container).comps[i].isRadiative script [w]).1 = false ↔
        emits (S.node h.container).comps[i] ≤ w) := by
      intro w w0
      unfold emits Comp.isRadiative
      cases (S.node h.container).comps[i].kind <;> simp [script, w0]
    ext ⟨u, v, w⟩
    constructor
    · rintro ⟨⟨⟨u0, u1⟩, ⟨v0, v1⟩, w0, w1⟩, hev, hst⟩
      have hu : u < 1 - Real.exp (-(cs.sum * h.dist)) := by
        by_contra hu
        simp only at hev
        rw [pass_eq S B m hh hcount hroot hc ha u1, if_neg hu] at hev
        obtain ⟨e, he, hee, _⟩ := hev
        exact surface_events S B m h ray _ e he hee
      obtain ⟨j, hj, ej, h1, h2⟩ := key u v w u1 v0 v1 hu
      obtain rfl := h1.1 hev
      exact ⟨⟨u0, hu⟩, ⟨⟨v0, v1⟩, ej⟩, (rad w w0).1 (h2.1 hst), w1⟩
    · rintro ⟨⟨u0, hu⟩, ⟨⟨v0, v1⟩, ej⟩, w0, w1⟩
      simp only at u0 hu v0 v1 ej w0 w1
      have u1 : u < 1 := hu.trans_le hr.2
      obtain ⟨j, hj, ej', h1, h2⟩ := key u v w u1 v0 v1 hu
      rw [ej] at ej'; cases ej'
      exact ⟨⟨⟨u0, u1⟩, ⟨v0, v1⟩, q0'.trans w0, w1⟩, h1.2 rfl,
        h2.2 ((rad w (q0'.trans w0)).2 w0)⟩
  rw [e, Measure.volume_eq_prod, Measure.prod_prod, Measure.volume_eq_prod, Measure.prod_prod,
    Material.component_probability hpos hp hi', Real.volume_Ico, Real.volume_Ico, sub_zero,
    ← mul_assoc, ← ENNReal.ofReal_mul hr.1, ← ENNReal.ofReal_mul (mul_nonneg hr.1
      (div_nonneg (hpos _ (List.getElem_mem hi')) hp.le))]

/-! Non-vacuity: a ray inside a black ball with 2 units to go. -/

open PV.Library (ballScene noBoxes innerRay inner_hit) in
example : volume {u : ℝ | u ∈ Ico (0 : ℝ) 1 ∧
      ∃ e ∈ (body (pyOps ballScene noBoxes script .kT) 10 none 2 innerRay (u :: [1 / 2])).1,
        e.event = .absorb ∧ e.ray.travelled < innerRay.travelled + 1} =
      ENNReal.ofReal (1 - Real.exp (-1)) := by
  have := absorption_probability ballScene noBoxes .kT (maxsteps := 10) (count := 2) inner_hit
    (cs := [1]) (d := 1) (rest := [1 / 2]) (by norm_num) (by decide)
    (by simp [ballScene, coefficients, Comp.coefficient, Dist.call]) (by simp) (by norm_num)
    (by norm_num) (by norm_num) (by norm_num)
  simpa using this

open PV.Library (ballScene noBoxes innerRay inner_hit) in
example : volume {t : ℝ × ℝ × ℝ |
      (t.1 ∈ Ico (0 : ℝ) 1 ∧ t.2.1 ∈ Ico (0 : ℝ) 1 ∧ t.2.2 ∈ Ico (0 : ℝ) 1) ∧
      (∃ e ∈ (body (pyOps ballScene noBoxes script .kT) 10 none 2 innerRay [t.1, t.2.1, t.2.2]).1,
        e.event = .absorb ∧ e.info.component = some "soot") ∧
      (body (pyOps ballScene noBoxes script .kT) 10 none 2 innerRay [t.1, t.2.1, t.2.2]).2 = .stop} =
      ENNReal.ofReal (1 - Real.exp (-2)) := by
  have := loss_probability ballScene noBoxes .kT (maxsteps := 10) (count := 2) inner_hit
    (cs := [1]) (i := 0) (by norm_num) (by decide) (by norm_num)
    (by simp [ballScene, coefficients, Comp.coefficient, Dist.call]) (by simp) (by norm_num)
    (by simp [ballScene]) (by simp [ballScene]) (by simp) (by simp [ballScene])
  simpa [ballScene, emits] using this

/-- A flat spectrum at 400, 500, 600, 700 nm meets the hypotheses of the first part. -/
example : ∃ (T : Table ℝ) (D : Dist ℝ), mkDist T false = .ok D ∧ (∃ i < T.n, 0 < T.y i) ∧
    ∀ i, i + 1 < T.n → T.x (i + 1) - T.x i = 100 := by
  let T : Table ℝ := ⟨4, fun i => 400 + 100 * i, fun _ => 1⟩
  obtain ⟨D, hD⟩ := (Dist.accepted_iff T false).2 ⟨by simp [T],
    fun i j hij hj => by simpa [T] using hij, by simp [T]⟩
  exact ⟨T, D, hD, ⟨0, by simp [T], by simp [T]⟩, fun i _ => by simp [T]; ring⟩

end
end PV.Sampling
