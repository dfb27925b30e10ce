import Verif.Spec.Reverse
import Verif.Lemmas.EngineHit
import Verif.Props.PathLaw
import Verif.Props.Optics
import Verif.Props.Budget

/-!
**C109**: light follows a path backwards with the probability with which it follows it forwards.
-/

namespace PV.Reverse
open PV PV.Library PV.Solid PV.Geometry PV.Nested PV.Inside PV.EngineHit PV.Spec PV.Budget
noncomputable section
variable {n : ℕ} {S : LScene n}

/-! ### Objects one in another -/

theorem inner_closed {g : Geom} {p : Vec3 ℝ} (h : Solid.Inner g p) : Closed g p := by
  cases g with
  | box s => exact ⟨h.1.le, h.2.1.le, h.2.2.le⟩
  | sphere r => exact le_of_lt h
  | cylinder l r => exact ⟨h.1.le, h.2.le⟩

theorem has_of_inner {N : LNode} {p : Vec3 ℝ} (h : HasInner N p) : Has N p := inner_closed h

theorem surface_exists {g : Geom} (hp : Proper g) : ∃ p, Surface g p := by
  cases g with
  | box s =>
    refine ⟨⟨s.x / 2, 0, 0⟩, ⟨?_, ?_, ?_⟩, fun h => ?_⟩
    · rw [abs_of_pos (half_pos hp.1)]
    · simpa using (half_pos hp.2.1).le
    · simpa using (half_pos hp.2.2).le
    · have := h.1
      rw [abs_of_pos (half_pos hp.1)] at this
      exact lt_irrefl _ this
  | sphere r => exact ⟨⟨r, 0, 0⟩, by simp [Closed], by simp [Solid.Inner]⟩
  | cylinder l r =>
    refine ⟨⟨r, 0, 0⟩, ⟨by simp, ?_⟩, fun h => ?_⟩
    · simpa using (half_pos hp.1).le
    · have := h.1
      simp at this

theorem within_irrefl {N : LNode} (hp : Proper N.geom) (hi : N.l2w.Inverse N.w2l) : ¬ Within N N := by
  intro h
  obtain ⟨p, h1, h2⟩ := surface_exists hp
  have := h (N.l2w.point p) (by unfold Has; rw [hi.1]; exact h1)
  unfold HasInner at this
  rw [hi.1] at this
  exact h2 this

theorem Within.trans {A B C : LNode} (h1 : Within A B) (h2 : Within B C) : Within A C :=
  fun p hp => h2 p (has_of_inner (h1 p hp))

theorem around_ne (hS : Sound S) (hN : Shells S) {h m : Fin (n + 1)} (ha : Around S h m) : h ≠ m := by
  rintro rfl
  exact within_irrefl (hN.proper h) (hS.inverse h) ha.1

theorem around_unique (hS : Sound S) (hN : Shells S) {h m m' : Fin (n + 1)} (ha : Around S h m) (hb : Around S h m') :
    m = m' := by
  rcases ha.2 m' hb.1 with h1 | h1
  · exact h1.symm
  · rcases hb.2 m ha.1 with h2 | h2
    · exact h2
    · exact absurd (Within.trans h1 h2) (within_irrefl (hN.proper m) (hS.inverse m))

theorem shells_arranged (hN : Shells S) : Arranged S where
  proper := hN.proper
  apart u v h := (hN.nested u v h).imp id .inl
  world := hN.world

theorem eps_pos : (0 : ℝ) < epsZero := by norm_num [epsZero]

theorem leg_line (hN : Shells S) {L : Leg n} (hf : Free S L) : Line S L.start L.dir where
  unit := hf.unit
  clear := hf.clear
  through := hf.through
  room := by
    obtain ⟨h1, -⟩ := hf.inside epsZero eps_pos hf.long
    by_cases h : L.medium = 0
    · rw [← h]; exact h1
    · exact hN.world _ h _ (has_of_inner h1)

section Leg
variable (hS : Sound S) (hN : Shells S) {L : Leg n} (hf : Free S L)
include hS hN hf

theorem crossing_surface {v : Fin (n + 1)} {t : ℝ} (h : t ∈ crossings epsZero (spanOf S L.start L.dir) v) :
    epsZero < t ∧ Surface (S.node v).geom ((S.node v).w2l.point (L.pos t)) := by
  obtain ⟨a, b, sv, hab, ht⟩ := NextHit.mem_crossings.1 h
  obtain ⟨h1, h2⟩ := spanOf_some sv
  refine ⟨ht, ?_⟩
  rcases hab with rfl | rfl
  · exact ⟨(h2 t).1.2 ⟨le_rfl, h1.le⟩, fun h => lt_irrefl _ ((h2 t).2.1 h).1⟩
  · exact ⟨(h2 t).1.2 ⟨h1.le, le_rfl⟩, fun h => lt_irrefl _ ((h2 t).2.1 h).2⟩

theorem surface_crossing {v : Fin (n + 1)} {t : ℝ} (ht : epsZero < t)
    (h : Surface (S.node v).geom ((S.node v).w2l.point (L.pos t))) : t ∈ crossings epsZero (spanOf S L.start L.dir) v := by
  cases hs : spanOf S L.start L.dir v with
  | none => exact absurd h.1 (span_none hS (shells_arranged hN) (leg_line hN hf) hs t)
  | some p =>
    obtain ⟨h1, h2⟩ := spanOf_some (a := p.1) (b := p.2) hs
    refine NextHit.mem_crossings.2 ⟨p.1, p.2, hs, ?_, ht⟩
    have h3 := (h2 t).1.1 h.1
    by_contra hc
    push Not at hc
    exact h.2 ((h2 t).2.2 ⟨lt_of_le_of_ne h3.1 (Ne.symm hc.1), lt_of_le_of_ne h3.2 hc.2⟩)

/-- An object that has the leg inside is left behind its end. -/
theorem inner_span {v : Fin (n + 1)} (h : ∀ t, 0 < t → t < L.len → HasInner (S.node v) (L.pos t)) :
    ∃ a b, spanOf S L.start L.dir v = some (a, b) ∧ a ≤ 0 ∧ L.len ≤ b ∧
      crossings epsZero (spanOf S L.start L.dir) v = [b] := by
  have hl := eps_pos.trans hf.long
  cases hs : spanOf S L.start L.dir v with
  | none =>
    have := h (L.len / 2) (half_pos hl) (half_lt_self hl)
    exact absurd (has_of_inner this) (span_none hS (shells_arranged hN) (leg_line hN hf) hs _)
  | some p =>
    obtain ⟨h1, h2⟩ := spanOf_some (a := p.1) (b := p.2) hs
    have ha : p.1 ≤ 0 := by
      by_contra hc
      push Not at hc
      have h3 : 0 < min p.1 L.len / 2 := half_pos (lt_min hc hl)
      have h4 : min p.1 L.len / 2 < min p.1 L.len := half_lt_self (lt_min hc hl)
      have := ((h2 _).2.1 (h _ h3 (h4.trans_le (min_le_right _ _)))).1
      exact absurd (h4.trans_le (min_le_left _ _)) (not_lt.2 this.le)
    have hb : L.len ≤ p.2 := by
      by_contra hc
      push Not at hc
      have h3 : max p.2 0 < L.len := max_lt hc hl
      obtain ⟨t, t1, t2⟩ := exists_between h3
      have := ((h2 _).2.1 (h _ ((le_max_right _ _).trans_lt t1) t2)).2
      exact absurd ((le_max_left _ _).trans_lt t1) (not_lt.2 this.le)
    refine ⟨p.1, p.2, rfl, ha, hb, ?_⟩
    unfold crossings
    rw [hs]
    have e1 : ¬ epsZero < p.1 := not_lt.2 (ha.trans eps_pos.le)
    have e2 : epsZero < p.2 := hf.long.trans_le hb
    simp [e1, e2]

theorem nested_span {u v : Fin (n + 1)} (hw : Within (S.node u) (S.node v)) {a b : ℝ}
    (hu : spanOf S L.start L.dir u = some (a, b)) : ∃ a' b', spanOf S L.start L.dir v = some (a', b') ∧ a' < a ∧ b < b' := by
  obtain ⟨h1, h2⟩ := spanOf_some hu
  have ha := hw _ ((h2 a).1.2 ⟨le_rfl, h1.le⟩)
  have hb := hw _ ((h2 b).1.2 ⟨h1.le, le_rfl⟩)
  cases hs : spanOf S L.start L.dir v with
  | none => exact absurd (has_of_inner ha) (span_none hS (shells_arranged hN) (leg_line hN hf) hs _)
  | some p =>
    obtain ⟨h3, h4⟩ := spanOf_some (a := p.1) (b := p.2) hs
    exact ⟨p.1, p.2, rfl, ((h4 _).2.1 ha).1, ((h4 _).2.1 hb).2⟩

/-- What the engine finds on a leg: the medium, and no surface before the end. -/
theorem leg_core : ∃ h a t, (kNextHit (List.finRange (n + 1)) fun v => engineTs (S.node v) L.start L.dir) =
      some (h, L.medium, a, t) ∧ L.len ≤ t ∧ t ∈ crossings epsZero (spanOf S L.start L.dir) h ∧
    (∀ v, ∀ s ∈ crossings epsZero (spanOf S L.start L.dir) v, t ≤ s) ∧
    ((a = none ∧ L.medium = h ∧ ∀ v, ∀ s ∈ crossings epsZero (spanOf S L.start L.dir) v, v = h ∧ s = t) ∨
      (L.medium ≠ h ∧ a = some h) ∨
      (L.medium = h ∧ ∃ b s, a = some b ∧ s ∈ crossings epsZero (spanOf S L.start L.dir) b ∧ b ≠ h ∧
        ∀ v, v ≠ h → ∀ r ∈ crossings epsZero (spanOf S L.start L.dir) v, s ≤ r)) := by
  obtain ⟨h, c, a, t, hn, ht, hmin, ⟨m, hm, hcm⟩, hadj⟩ := EngineHit.core hS (shells_arranged hN) (leg_line hN hf)
  have hle : ∀ v, ∀ s ∈ crossings epsZero (spanOf S L.start L.dir) v, L.len ≤ s := by
    intro v s hs
    obtain ⟨h1, h2⟩ := crossing_surface hS hN hf hs
    by_contra hc
    exact hf.between v s (eps_pos.trans h1) (not_le.1 hc) h2
  have hc : c = L.medium := by
    obtain ⟨a0, b0, s0, ha0, hb0, hc0⟩ := inner_span hS hN hf (fun t h1 h2 => (hf.inside t h1 h2).1)
    obtain ⟨ac, bc, sc, hcc, hec⟩ := NextHit.mem_crossings.1 (show m ∈ crossings epsZero (spanOf S L.start L.dir) c by rw [hm]; simp)
    obtain ⟨hab, h2⟩ := spanOf_some sc
    have hin : HasInner (S.node c) (L.pos (L.len / 2)) := by
      have hl := eps_pos.trans hf.long
      have hac : ¬ epsZero < ac := by
        intro hx
        have hy : epsZero < bc := hx.trans hab
        unfold crossings at hm
        rw [sc] at hm
        simp [hx, hy] at hm
      have hmb : m = bc := by
        rcases hcc with rfl | h
        · exact absurd hec hac
        · exact h
      refine (h2 _).2.2 ⟨?_, ?_⟩
      · by_contra hx
        push Not at hx
        have h3 : 0 < ac := (half_pos hl).trans_le hx
        refine hf.between c ac h3 ?_ ⟨(h2 ac).1.2 ⟨le_rfl, hab.le⟩, fun h => lt_irrefl _ ((h2 ac).2.1 h).1⟩
        exact (not_lt.1 hac).trans_lt hf.long
      · have := hle c m (by rw [hm]; simp)
        rw [hmb] at this
        linarith
    rcases (hf.inside _ (half_pos (eps_pos.trans hf.long)) (half_lt_self (eps_pos.trans hf.long))).2 c hin with h | h
    · exact h
    · exfalso
      obtain ⟨a1, b1, s1, -, hb1⟩ := nested_span hS hN hf h s0
      rw [sc] at s1
      obtain ⟨rfl, rfl⟩ := Prod.mk.inj (Option.some.inj s1)
      have h3 := hcm _ _ hc0
      rcases hcc with rfl | rfl
      · have : epsZero < bc := hec.trans hab
        unfold crossings at hm
        rw [sc] at hm
        simp [hec, this] at hm
      · linarith
  subst hc
  exact ⟨h, a, t, hn, hle h t ht, ht, hmin, hadj⟩

/-- What the engine finds where a leg ends on the surface of `h`. -/
theorem leg_hit {h m : Fin (n + 1)} (h0 : h ≠ 0) (hs : Surface (S.node h).geom ((S.node h).w2l.point L.finish))
    (hm : Sides S h L.medium m) :
    (kNextHit (List.finRange (n + 1)) fun v => engineTs (S.node v) L.start L.dir) = some (h, L.medium, some m, L.len) := by
  obtain ⟨h', a, t, hn, hlt, ht, hmin, hadj⟩ := leg_core hS hN hf
  have hlen := surface_crossing hS hN hf hf.long hs
  have et : t = L.len := le_antisymm (hmin h _ hlen) hlt
  subst et
  have eh : h' = h := by
    by_contra hne
    have hs' := (crossing_surface hS hN hf ht).2
    rcases hN.nested h' h hne with hw | hw
    · exact hs.2 (hw _ hs'.1)
    · exact hs'.2 (hw _ hs.1)
  subst eh
  rw [hn]
  rcases hadj with ⟨-, -, h3⟩ | ⟨h1, rfl⟩ | ⟨h1, b, s, rfl, hb, hbh, hbm⟩
  · exfalso
    have : HasInner (S.node 0) (L.pos L.len) := hN.world _ h0 _ hs.1
    have hw : ∃ a b, spanOf S L.start L.dir 0 = some (a, b) ∧ L.len < b := by
      cases hs : spanOf S L.start L.dir 0 with
      | none => exact absurd (has_of_inner this) (span_none hS (shells_arranged hN) (leg_line hN hf) hs _)
      | some p => exact ⟨p.1, p.2, rfl, (((spanOf_some (a := p.1) (b := p.2) hs).2 _).2.1 this).2⟩
    obtain ⟨a, b, h4, h5⟩ := hw
    exact h0 (h3 0 b (NextHit.mem_crossings.2 ⟨a, b, h4, .inr rfl, hf.long.trans h5⟩)).1.symm
  · rcases hm with ⟨h2, -⟩ | ⟨-, rfl⟩
    · exact absurd h2 h1
    · rfl
  · rcases hm with ⟨-, h2⟩ | ⟨h2, -⟩
    · have : m = b := by
        by_contra hne
        obtain ⟨ah, bh, sh, hla, hlb, -⟩ := inner_span hS hN hf (v := h')
          (by rw [← h1]; exact fun t h1 h2 => (hf.inside t h1 h2).1)
        obtain ⟨ab, bb, sb, hbb, -⟩ := NextHit.mem_crossings.1 hb
        have hle := hmin b s hb
        obtain ⟨hab, -⟩ := spanOf_some sh
        obtain ⟨hbb', -⟩ := spanOf_some sb
        have ebh : bh = L.len := by
          obtain ⟨x, y, sx, hxy, -⟩ := NextHit.mem_crossings.1 hlen
          rw [sh] at sx
          obtain ⟨rfl, rfl⟩ := Prod.mk.inj (Option.some.inj sx)
          rcases hxy with h | h
          · linarith [eps_pos.trans hf.long]
          · exact h.symm
        rcases hN.nested b h' hbh with hw | hw
        · obtain ⟨x, y, sx, hx, hy⟩ := nested_span hS hN hf hw sb
          rw [sh] at sx
          obtain ⟨rfl, rfl⟩ := Prod.mk.inj (Option.some.inj sx)
          rcases hbb with rfl | rfl <;> linarith
        · rcases h2.2 b hw with h3 | h3
          · exact hne h3.symm
          · obtain ⟨x, y, sm, hx, hy⟩ := nested_span hS hN hf h2.1 sh
            obtain ⟨x', y', sb', hx', hy'⟩ := nested_span hS hN hf h3 sm
            rw [sb] at sb'
            obtain ⟨rfl, rfl⟩ := Prod.mk.inj (Option.some.inj sb')
            have hmh : m ≠ h' := (around_ne hS hN h2).symm
            have := hbm m hmh y (NextHit.mem_crossings.2 ⟨x, y, sm, .inr rfl, by linarith [hf.long]⟩)
            rcases hbb with rfl | rfl
            · linarith
            · linarith
      rw [this]
    · exact absurd h1.symm (around_ne hS hN h2)

end Leg

/-! ### Running backwards -/

theorem back_pos (L : Leg n) (t : ℝ) : L.back.pos t = L.pos (L.len - t) := by
  unfold Leg.back Leg.finish Leg.pos
  ext <;> simp <;> ring

theorem back_finish (L : Leg n) : L.back.finish = L.start := by
  unfold Leg.finish
  rw [back_pos]
  unfold Leg.back Leg.pos
  ext <;> simp

theorem back_back (L : Leg n) : L.back.back = L := by
  have h := back_finish L
  cases L with
  | mk a d l m =>
    unfold Leg.back
    rw [Leg.mk.injEq]
    refine ⟨h, ?_, rfl, rfl⟩
    ext <;> simp

theorem clear_neg {g : Geom} {d : Vec3 ℝ} (h : ClearDir g d) : ClearDir g (-d) := by
  cases g with
  | box s => simpa [ClearDir, Geo.Clear] using h
  | sphere r => trivial
  | cylinder l r => simpa [ClearDir] using h

theorem free_back {L : Leg n} (hf : Free S L) : Free S L.back where
  unit := by
    change (-L.dir).dot (-L.dir) = 1
    rw [Vec3.neg_dot, Vec3.dot_neg, neg_neg, hf.unit]
  long := hf.long
  clear v := by
    change ClearDir _ ((S.node v).w2l.vec (-L.dir))
    rw [Affine.vec_neg]
    exact clear_neg (hf.clear v)
  through v := by
    rcases hf.through v with ⟨t, h⟩ | h
    · refine .inl ⟨L.len - t, ?_⟩
      rw [back_pos, sub_sub_cancel]
      exact h
    · refine .inr fun t => ?_
      rw [back_pos]
      exact h _
  between v t h0 h1 := by
    rw [back_pos]
    exact hf.between v _ (sub_pos.2 h1) (sub_lt_self _ h0)
  inside t h0 h1 := by
    rw [back_pos]
    exact hf.inside _ (sub_pos.2 h1) (sub_lt_self _ h0)

theorem survival_back (w : ℝ) (L : Leg n) : survival S w L.back = survival S w L := rfl

theorem sides_symm {h c m : Fin (n + 1)} (hs : Sides S h c m) : Sides S h m c := by
  rcases hs with ⟨rfl, h1⟩ | ⟨h1, rfl⟩
  · exact .inr ⟨h1, rfl⟩
  · exact .inl ⟨rfl, h1⟩

theorem corner_back {L L' : Leg n} {h m : Fin (n + 1)} {nrm : Vec3 ℝ} (c : Corner S L L' h m nrm) {m' : Fin (n + 1)}
    (hm : Sides S h L'.medium m') : Corner S L'.back L.back h m' nrm where
  place := by
    rw [back_finish, c.place]
    rfl
  object := c.object
  surface := by
    rw [back_finish, c.place]
    exact c.surface
  smooth := by
    rw [back_finish, c.place]
    exact c.smooth
  normal := by
    rw [back_finish, c.place]
    exact c.normal
  sides := hm

theorem corner_unit (hS : Sound S) {L L' : Leg n} {h m : Fin (n + 1)} {nrm : Vec3 ℝ} (c : Corner S L L' h m nrm) :
    nrm.dot nrm = 1 := by
  have := c.normal.1
  rwa [Affine.Inverse.dot_vec (hS.rigid h) (hS.inverse h)] at this

/-- Snell's law for the sines. -/
theorem snell_sq {d d' nrm : Vec3 ℝ} {n1 n2 : ℝ} (hd : d.dot d = 1) (hd' : d'.dot d' = 1) (hn : nrm.dot nrm = 1)
    (h : n1 • along d nrm = n2 • along d' nrm) : n1 ^ 2 * (1 - d.dot nrm ^ 2) = n2 ^ 2 * (1 - d'.dot nrm ^ 2) := by
  have h1 : (n1 • along d nrm).dot (n1 • along d nrm) = (n2 • along d' nrm).dot (n2 • along d' nrm) := by rw [h]
  unfold along at h1
  simp only [Vec3.smul_dot, Vec3.dot_smul, Vec3.sub_dot, Vec3.dot_sub, hd, hd', hn, nrm.dot_comm] at h1
  linear_combination h1

theorem unit_le {a b : Vec3 ℝ} (ha : a.dot a = 1) (hb : b.dot b = 1) : a.dot b ^ 2 ≤ 1 := by
  have h := Vec3.cross_dot_cross a b
  rw [ha, hb] at h
  have : 0 ≤ (a.cross b).dot (a.cross b) :=
    add_nonneg (add_nonneg (mul_self_nonneg _) (mul_self_nonneg _)) (mul_self_nonneg _)
  nlinarith

theorem fresnel_back {d d' nrm : Vec3 ℝ} {n1 n2 : ℝ} (h1 : 0 < n1) (h2 : 0 < n2) (hd : d.dot d = 1) (hd' : d'.dot d' = 1)
    (hn : nrm.dot nrm = 1) (h : n1 • along d nrm = n2 • along d' nrm) (ha : d.dot nrm ≠ 0) (hb : d'.dot nrm ≠ 0) :
    fresnelR (Real.arccos |d.dot nrm|) n1 n2 = fresnelR (Real.arccos |d'.dot nrm|) n2 n1 := by
  refine Optics.reflectivity_reverse h1 h2 (Real.arccos_nonneg _) ?_ (Real.arccos_nonneg _) ?_ ?_
  · rw [Real.arccos_lt_pi_div_two]; exact abs_pos.2 ha
  · rw [Real.arccos_lt_pi_div_two]; exact abs_pos.2 hb
  · rw [Real.sin_arccos, Real.sin_arccos, sq_abs, sq_abs]
    have e := snell_sq hd hd' hn h
    rw [← Real.sqrt_sq h1.le, ← Real.sqrt_sq h2.le, ← Real.sqrt_mul (sq_nonneg _), ← Real.sqrt_mul (sq_nonneg _), e]

/-- The laws of reflection and refraction hold backwards, with the same probability. -/
theorem turn_back (hS : Sound S) {L L' : Leg n} {r : ℝ} (hf : Free S L) (hf' : Free S L') (ht : Turn S L L' r) :
    Turn S L'.back L.back r := by
  cases ht with
  | @reflected h m nrm r' c kind graze medium mirror chance =>
    have hn := corner_unit hS c
    have e : L'.dir.dot nrm = -L.dir.dot nrm := by
      rw [mirror, Vec3.sub_dot, Vec3.smul_dot, hn]; ring
    have e2 : L'.back.dir.dot nrm = L.dir.dot nrm := by
      change (-L'.dir).dot nrm = _
      rw [Vec3.neg_dot, e, neg_neg]
    refine .reflected (corner_back c (m' := m) (by rw [medium]; exact c.sides)) kind (by rw [e2]; exact graze) medium.symm ?_ ?_
    · rw [e2]
      change -L.dir = -L'.dir - _
      rw [mirror]
      ext <;> simp <;> ring
    · rw [e2]
      change fresnelR _ (S.node L'.medium).index _ = _
      rw [medium]
      exact chance
  | @refracted h m nrm r' c kind medium snell across chance =>
    have hn := corner_unit hS c
    have e : ∀ d : Vec3 ℝ, (-d).dot nrm = -d.dot nrm := fun d => Vec3.neg_dot _ _
    refine .refracted (m := L.medium) (nrm := nrm) (corner_back c ?_) kind rfl ?_ ?_ ?_
    · rw [medium]
      exact sides_symm c.sides
    · change (S.node L'.medium).index • along (-L'.dir) nrm = (S.node L.medium).index • along (-L.dir) nrm
      have e3 : ∀ d : Vec3 ℝ, along (-d) nrm = -along d nrm := by
        intro d
        unfold along
        rw [e]
        ext <;> simp <;> ring
      rw [e3, e3, medium]
      have e4 : ∀ (a : ℝ) (v : Vec3 ℝ), a • (-v) = -(a • v) := by
        intro a v
        ext <;> simp
      rw [e4, e4, snell]
    · change 0 < (-L'.dir).dot nrm * (-L.dir).dot nrm
      rw [e, e]
      linarith
    · change fresnelR (Real.arccos |(-L'.dir).dot nrm|) (S.node L'.medium).index (S.node L.medium).index = _
      rw [e, abs_neg, medium, ← fresnel_back (hS.index_pos _) (hS.index_pos _) hf.unit hf'.unit hn snell, chance]
      · rintro h; rw [h] at across; simp at across
      · rintro h; rw [h] at across; simp at across
  | @passed h m nrm c kind medium straight =>
    refine .passed (m := L.medium) (corner_back c (nrm := nrm) ?_) kind rfl ?_
    · rw [medium]
      exact sides_symm c.sides
    · change -L.dir = -L'.dir
      rw [straight]

theorem path_free {w : ℝ} {L : Leg n} {Ls : List (Leg n)} {q : ℝ} (h : Path S w (L :: Ls) q) : Free S L := by
  cases h <;> assumption

theorem path_snoc {w : ℝ} {L L' : Leg n} {r : ℝ} (ht : Turn S L L' r) (hf : Free S L') : ∀ {Ls : List (Leg n)} {q : ℝ},
    Path S w (Ls ++ [L]) q → Path S w (Ls ++ [L, L']) (q * r * survival S w L')
  | [], q, h => by
    cases h with
    | last free => exact .turn free ht (.last hf)
  | [A], q, h => by
    cases h with
    | turn free turn next =>
      have := Path.turn free turn (path_snoc (Ls := []) ht hf next)
      rwa [← mul_assoc, ← mul_assoc] at this
  | A :: B :: Ls, q, h => by
    cases h with
    | turn free turn next =>
      have := Path.turn free turn (path_snoc (Ls := B :: Ls) ht hf next)
      rwa [← mul_assoc, ← mul_assoc] at this

/-- A path run backwards is a path with the same probability. -/
theorem path_back (hS : Sound S) {w : ℝ} {legs : List (Leg n)} {q : ℝ} (h : Path S w legs q) :
    Path S w (reversed legs) q := by
  induction h with
  | last free => exact .last (free_back free)
  | @turn L L' Ls r q free turn next ih =>
    have := path_snoc (Ls := (Ls.map Leg.back).reverse) (turn_back hS free (path_free next) turn) (free_back free)
      (by simpa [reversed] using ih)
    rw [survival_back] at this
    have e : reversed (L :: L' :: Ls) = (Ls.map Leg.back).reverse ++ [L'.back, L.back] := by simp [reversed]
    rw [e]
    convert this using 1
    ring

/-! ### What the engine does at a corner -/

theorem outward_unique {g : Geom} {p a b : Vec3 ℝ} (ha : Outward g p a) (hb : Outward g p b) : a = b := by
  have h : ∀ d : Vec3 ℝ, a.dot d < 0 ↔ b.dot d < 0 := fun d => (ha.2 d).trans (hb.2 d).symm
  have h1 : a.dot b = 1 := by
    by_contra hne
    have h2 := unit_le ha.1 hb.1
    have h3 : a.dot b < 1 := by
      rcases lt_or_gt_of_ne hne with h | h
      · exact h
      · nlinarith
    have h4 := (h (b - a)).1 (by rw [Vec3.dot_sub, ha.1]; linarith)
    rw [Vec3.dot_sub, hb.1, b.dot_comm] at h4
    linarith
  have h2 : (a - b).dot (a - b) = 0 := by
    rw [Vec3.sub_dot, Vec3.dot_sub, Vec3.dot_sub, ha.1, hb.1, b.dot_comm, h1]; ring
  unfold Vec3.dot at h2
  have hx : (a - b).x = 0 := by nlinarith [mul_self_nonneg (a - b).x, mul_self_nonneg (a - b).y, mul_self_nonneg (a - b).z]
  have hy : (a - b).y = 0 := by nlinarith [mul_self_nonneg (a - b).x, mul_self_nonneg (a - b).y, mul_self_nonneg (a - b).z]
  have hz : (a - b).z = 0 := by nlinarith [mul_self_nonneg (a - b).x, mul_self_nonneg (a - b).y, mul_self_nonneg (a - b).z]
  simp only [Vec3.sub_x, Vec3.sub_y, Vec3.sub_z] at hx hy hz
  ext <;> linarith

theorem corner_normal (hS : Sound S) (hN : Shells S) {L L' : Leg n} {h m : Fin (n + 1)} {nrm : Vec3 ℝ}
    (c : Corner S L L' h m nrm) :
    (S.node h).l2w.vec (kNormal (S.node h).geom ((S.node h).w2l.point L.finish)) = nrm := by
  rw [outward_unique (engine_normal (hN.proper h) c.smooth) c.normal, Affine.Inverse.vec_vec (hS.rigid h) (hS.inverse h)]

theorem kAngle_abs {d nrm : Vec3 ℝ} (hn : nrm.dot nrm = 1) (hd : d.dot d = 1) : kAngle nrm d = Real.arccos |d.dot nrm| := by
  rw [Optics.kAngle_eq hn hd]
  congr 1
  unfold PV.along
  rw [d.dot_comm]
  split
  · next h => rw [Vec3.neg_dot, abs_of_neg h]
  · next h => rw [abs_of_nonneg (not_lt.1 h)]

theorem transmit_snell {d d' nrm : Vec3 ℝ} {n1 n2 : ℝ} (h2 : 0 < n2) (hd : d.dot d = 1) (hd' : d'.dot d' = 1)
    (hn : nrm.dot nrm = 1) (h : n1 • along d nrm = n2 • along d' nrm) (ha : 0 < d.dot nrm * d'.dot nrm) :
    kTransmit nrm d n1 n2 = some d' := by
  have e := snell_sq hd hd' hn h
  have key : ∀ N : Vec3 ℝ, 0 < d.dot N → 0 < d'.dot N → d.dot N ^ 2 = d.dot nrm ^ 2 → d'.dot N ^ 2 = d'.dot nrm ^ 2 →
      n1 • along d N = n2 • along d' N → kRefract d N n1 n2 = some d' := by
    intro N p1 p2 e1 e2 hs
    have hq : 1 - n1 / n2 * (n1 / n2) * (1 - d.dot N * d.dot N) = d'.dot N ^ 2 := by
      rw [← sq (d.dot N), e1, e2]
      field_simp
      linear_combination -e
    unfold kRefract
    simp only [hq, if_neg (not_lt.2 (sq_nonneg (d'.dot N))), if_neg (not_lt.2 p1.le), Real.sqrt_sq p2.le]
    have hx := congrArg Vec3.x hs
    have hy := congrArg Vec3.y hs
    have hz := congrArg Vec3.z hs
    simp only [along, Vec3.smul_x, Vec3.smul_y, Vec3.smul_z, Vec3.sub_x, Vec3.sub_y, Vec3.sub_z] at hx hy hz
    congr 1
    ext
    · simp only; field_simp; linear_combination hx
    · simp only; field_simp; linear_combination hy
    · simp only; field_simp; linear_combination hz
  unfold kTransmit kFlip
  have en : ∀ v : Vec3 ℝ, along v (-nrm) = along v nrm := by
    intro v
    unfold along
    rw [Vec3.dot_neg]
    ext <;> simp
  rw [nrm.dot_comm]
  split
  · next hneg =>
    refine key _ (by rw [Vec3.dot_neg]; linarith) (by rw [Vec3.dot_neg]; nlinarith) (by rw [Vec3.dot_neg]; ring)
      (by rw [Vec3.dot_neg]; ring) (by rw [en, en]; exact h)
  · next hpos =>
    have h0 : 0 < d.dot nrm := lt_of_le_of_ne (not_lt.1 hpos) (by rintro e; rw [← e] at ha; simp at ha)
    exact key _ h0 (by nlinarith) rfl rfl h

/-! ### Conditions on the numbers read one after the other -/

/-- The numbers are in the sets, one after the other. -/
def Meet : List (Set ℝ) → Set Numbers
  | [] => Set.univ
  | A :: As => {s | s 0 ∈ A ∧ rest s ∈ Meet As}

theorem meet_measurable : ∀ {As : List (Set ℝ)}, (∀ A ∈ As, MeasurableSet A) → MeasurableSet (Meet As)
  | [], _ => MeasurableSet.univ
  | A :: As, h => ((measurable_pi_apply 0) (h A (by simp))).inter
      (measurable_rest (meet_measurable fun B hB => h B (by simp [hB])))

theorem meet_chance : ∀ {As : List (Set ℝ)}, (∀ A ∈ As, MeasurableSet A) → independent (Meet As) = (As.map uniform).prod
  | [], _ => by simp [Meet]
  | A :: As, h => by
    have := chance_first A (h A (by simp)) (Meet As) (meet_measurable fun B hB => h B (by simp [hB]))
    rw [meet_chance fun B hB => h B (by simp [hB])] at this
    simpa [Meet] using this

/-- A decision that reads numbers and goes on with the rest: `b` holds with probability `q`. -/
def Decides (b : Numbers → Prop) (next : Numbers → Numbers) (q : ℝ) : Prop :=
  0 ≤ q ∧ (∀ s, (∀ j, 0 ≤ s j ∧ s j < 1) → ∀ j, 0 ≤ next s j ∧ next s j < 1) ∧
    ∃ As : List (Set ℝ), (∀ A ∈ As, MeasurableSet A) ∧ (As.map uniform).prod = ENNReal.ofReal q ∧
      ∀ s, (∀ j, 0 ≤ s j ∧ s j < 1) → ∀ Bs, s ∈ Meet (As ++ Bs) ↔ b s ∧ next s ∈ Meet Bs

theorem depth_decides {a l : ℝ} (hl : 0 ≤ l) :
    Decides (fun s => ∀ d, (kDepth reader a s).1 = some d → l ≤ d) (fun s => (kDepth reader a s).2)
      (if a > 1e-8 then Real.exp (-(a * l)) else 1) := by
  unfold kDepth
  split
  · next ha =>
    have h0 : 0 < a := lt_trans (by norm_num) ha
    obtain ⟨e1, e2⟩ := Sampling.exp_range (mul_nonneg h0.le hl)
    refine ⟨(Real.exp_pos _).le, fun s hs j => hs (j + 1), [{u | ¬ u < 1 - Real.exp (-(a * l))}], ?_, ?_, ?_⟩
    · intro A hA
      rw [List.mem_singleton.1 hA]
      exact PathLaw.above_measurable _
    · simp only [List.map_cons, List.map_nil, List.prod_cons, List.prod_nil, mul_one]
      rw [uniform_above e1 e2, sub_sub_cancel]
    · intro s hs Bs
      change (¬ s 0 < _ ∧ rest s ∈ Meet Bs) ↔ (∀ d, some (-Real.log (1 - s 0) / a) = some d → l ≤ d) ∧ rest s ∈ Meet Bs
      have : s 0 < 1 - Real.exp (-(a * l)) ↔ -Real.log (1 - s 0) / a < l := by
        rw [div_lt_iff₀ h0, mul_comm l, Sampling.log_lt (hs 0).2]
      rw [this, not_lt]
      simp
  · refine ⟨zero_le_one, fun s hs => hs, [], by simp, by simp, fun s hs Bs => ?_⟩
    simp

theorem reflect_decides {r : ℝ} (h0 : 0 ≤ r) (h1 : r ≤ 1) :
    Decides (fun s => (kIsReflected (some r) (s 0)).1 = true) (fun s => if (kIsReflected (some r) (s 0)).2 then rest s else s) r ∧
    Decides (fun s => (kIsReflected (some r) (s 0)).1 = false) (fun s => if (kIsReflected (some r) (s 0)).2 then rest s else s)
      (1 - r) := by
  unfold kIsReflected
  rcases h0.lt_or_eq with hp | rfl
  · simp only [hp, if_true]
    refine ⟨⟨h0, fun s hs j => hs (j + 1), [{u | u < r}], ?_, ?_, fun s hs Bs => ?_⟩,
      ⟨by linarith, fun s hs j => hs (j + 1), [{u | ¬ u < r}], ?_, ?_, fun s hs Bs => ?_⟩⟩
    · intro A hA
      rw [List.mem_singleton.1 hA]
      exact PathLaw.below_measurable _
    · simp [uniform_below h0 h1]
    · simp [Meet]
    · intro A hA
      rw [List.mem_singleton.1 hA]
      exact PathLaw.above_measurable _
    · simp only [List.map_cons, List.map_nil, List.prod_cons, List.prod_nil, mul_one]
      exact uniform_above h0 h1
    · simp [Meet]
  · have e : ¬ (1 : ℝ) < 0 := by norm_num
    simp only [lt_irrefl, if_false, e, decide_false]
    refine ⟨⟨le_rfl, fun s hs => by simpa using hs, [∅], by simp, by simp, fun s hs Bs => ?_⟩,
      ⟨by norm_num, fun s hs => by simpa using hs, [], by simp, by simp, fun s hs Bs => by simp⟩⟩
    simp [Meet]

/-! ### Following a path -/

section Engine
variable {method : EmitMethod}

theorem absorb_rows (K : KOps ℝ (Fin (n + 1)) Comp Numbers) (c : Fin (n + 1)) (ray : KRay ℝ Comp) (d : ℝ) (s : Numbers) :
    ∃ row rs, rowsOf (kAbsorb K c ray d s).1 = row :: rs ∧ row.kind = .absorb ∧ row.container = some c ∧
      row.ray.travelled = ray.travelled + d := by
  rcases K with ⟨_, _, _, _, pick, kind, yields, phase, emission, radDelay, nrDelay, _, _, _, _, _, _⟩
  unfold kAbsorb
  simp only
  repeat' split
  all_goals refine ⟨_, _, rfl, ?_, ?_, ?_⟩ <;> rfl

theorem surface_rows (K : KOps ℝ (Fin (n + 1)) Comp Numbers) (h c : Fin (n + 1)) (a : Option (Fin (n + 1)))
    (ray : KRay ℝ Comp) (t : ℝ) (s : Numbers) :
    ∃ row rs, rowsOf (kSurface K h c a ray t s).1 = row :: rs ∧ row.container = some c ∧
      row.ray.travelled = ray.travelled + t := by
  rcases K with ⟨_, _, _, _, pick, kind, yields, phase, emission, radDelay, nrDelay, _, _, _, refl, _, _⟩
  unfold kSurface
  cases a with
  | none => exact ⟨_, _, rfl, rfl, rfl⟩
  | some a =>
    simp only
    split
    · split <;> exact ⟨_, _, rfl, rfl, rfl⟩
    · exact ⟨_, _, rfl, rfl, rfl⟩

theorem advance_position (ray : KRay ℝ Comp) {L : Leg n} (hp : ray.position = L.start) (hd : ray.direction = L.dir) (t i : ℝ) :
    (ray.advance t i).position = L.pos t := by
  unfold KRay.advance Leg.pos
  rw [hp, hd]
  ext <;> simp <;> ring

theorem surface_turns (K : KOps ℝ (Fin (n + 1)) Comp Numbers) {h c m : Fin (n + 1)} {ray : KRay ℝ Comp} {t : ℝ} {s s' : Numbers}
    {b : Bool} {nrm : Vec3 ℝ} (hn : K.normal h (ray.advance t (K.nidx c)).position = nrm)
    (hr : K.reflects h c m nrm ray.direction s = (b, s')) :
    ∃ (row : Row ℝ (Fin (n + 1)) Comp) (ray' : KRay ℝ Comp), rowsOf (kSurface K h c (some m) ray t s).1 = [row] ∧
      (kSurface K h c (some m) ray t s).2 = .cont ray' s' ∧ row.ray = ray' ∧ row.container = some c ∧
      ray'.position = (ray.advance t (K.nidx c)).position ∧ ray'.wavelength = ray.wavelength ∧
      (b = true → row.kind = .reflect ∧ ray'.direction = K.reflectDir ray.direction nrm) ∧
      (b = false → row.kind = .transmit ∧ ray'.direction = K.transmitDir h c m nrm ray.direction) := by
  rcases K with ⟨_, _, nidx, _, pick, kind, yields, phase, emission, radDelay, nrDelay, _, normal, _, refl, _, _⟩
  simp only at hn hr
  have hd : (ray.advance t (nidx c)).direction = ray.direction := rfl
  unfold kSurface
  simp only [hn, hd, hr]
  cases b with
  | true =>
    by_cases hc : c = h
    · simp only [hc, ne_eq, not_true_eq_false, if_false, if_true, List.append_nil]
      refine ⟨_, _, rfl, rfl, rfl, rfl, rfl, rfl, ?_, ?_⟩
      · exact fun _ => ⟨rfl, rfl⟩
      · exact fun h => absurd h (by decide)
    · simp only [hc, ne_eq, not_false_eq_true, if_true]
      refine ⟨_, _, rfl, rfl, rfl, rfl, rfl, rfl, ?_, ?_⟩
      · exact fun _ => ⟨rfl, rfl⟩
      · exact fun h => absurd h (by decide)
  | false =>
    refine ⟨_, _, rfl, rfl, rfl, rfl, rfl, rfl, ?_, ?_⟩
    · exact fun h => absurd h (by decide)
    · exact fun _ => ⟨rfl, rfl⟩

/-- At a corner the engine turns as the path does with the probability of the turn. -/
theorem turn_pass (hS : Sound S) (hN : Shells S) {L L' : Leg n} {r : ℝ} (hf : Free S L) (hf' : Free S L')
    (ht : Turn S L L' r) : ∃ (h m : Fin (n + 1)) (b : Numbers → Prop) (next : Numbers → Numbers), h ≠ 0 ∧
      Solid.Surface (S.node h).geom ((S.node h).w2l.point L.finish) ∧ Sides S h L.medium m ∧ Decides b next r ∧
      ∀ (ray : KRay ℝ Comp) (s : Numbers), ray.position = L.start → ray.direction = L.dir →
        ∃ (row : Row ℝ (Fin (n + 1)) Comp) (ray' : KRay ℝ Comp),
          rowsOf (kSurface (kOps S reader method) h L.medium (some m) ray L.len s).1 = [row] ∧
          (kSurface (kOps S reader method) h L.medium (some m) ray L.len s).2 = .cont ray' (next s) ∧ row.ray = ray' ∧
          row.container = some L.medium ∧ ray'.position = L'.start ∧ ray'.wavelength = ray.wavelength ∧
          (b s → row.kind = (if L'.medium = L.medium then .reflect else .transmit) ∧ ray'.direction = L'.dir) ∧
          (¬ b s → row.kind ≠ (if L'.medium = L.medium then .reflect else .transmit)) := by
  have hmne : ∀ {h m : Fin (n + 1)}, Sides S h L.medium m → m ≠ L.medium := by
    intro h m hs
    rcases hs with ⟨h1, h2⟩ | ⟨h1, h2⟩
    · rw [h1]; exact (around_ne hS hN h2).symm
    · rw [h2]; exact around_ne hS hN h1
  have hfres : ∀ {h m : Fin (n + 1)} {nrm : Vec3 ℝ} {r : ℝ}, nrm.dot nrm = 1 → L.dir.dot nrm ≠ 0 →
      fresnelR (Real.arccos |L.dir.dot nrm|) (S.node L.medium).index (S.node m).index = some r → 0 ≤ r ∧ r ≤ 1 := by
    intro h m nrm r hn hg hr
    obtain ⟨r', e, h0, h1⟩ := Optics.reflectivity_range (hS.index_pos L.medium) (hS.index_pos m)
      (Real.arccos_nonneg |L.dir.dot nrm|) (by rw [Real.arccos_lt_pi_div_two]; exact abs_pos.2 hg)
    rw [hr] at e
    cases e
    exact ⟨h0, h1⟩
  have hturn : ∀ {h m : Fin (n + 1)} {nrm : Vec3 ℝ} {rr : Option ℝ} (c : Corner S L L' h m nrm) (ray : KRay ℝ Comp) (s : Numbers),
      ray.position = L.start → ray.direction = L.dir →
      (match (S.node h).surface with
        | .null => some 0
        | .fresnel => kReflectivity nrm L.dir (S.node L.medium).index (S.node m).index) = rr →
      ∃ (row : Row ℝ (Fin (n + 1)) Comp) (ray' : KRay ℝ Comp),
        rowsOf (kSurface (kOps S reader method) h L.medium (some m) ray L.len s).1 = [row] ∧
        (kSurface (kOps S reader method) h L.medium (some m) ray L.len s).2 =
          .cont ray' (if (kIsReflected rr (s 0)).2 then rest s else s) ∧ row.ray = ray' ∧
        row.container = some L.medium ∧ ray'.position = L'.start ∧ ray'.wavelength = ray.wavelength ∧
        ((kIsReflected rr (s 0)).1 = true → row.kind = .reflect ∧ ray'.direction = kSpecular L.dir nrm) ∧
        ((kIsReflected rr (s 0)).1 = false → row.kind = .transmit ∧
          ray'.direction = (kOps S reader method).transmitDir h L.medium m nrm L.dir) := by
    intro h m nrm rr c ray s hp hd he
    have hpos := advance_position ray hp hd L.len (S.node L.medium).index
    have hk : S.kReflects reader h L.medium m nrm L.dir s =
        ((kIsReflected rr (s 0)).1, if (kIsReflected rr (s 0)).2 then rest s else s) := by
      unfold LScene.kReflects
      rw [← he]
      rfl
    have := surface_turns (kOps S reader method) (h := h) (c := L.medium) (m := m) (ray := ray) (t := L.len) (s := s) (nrm := nrm)
      (b := (kIsReflected rr (s 0)).1) (s' := if (kIsReflected rr (s 0)).2 then rest s else s)
      (by
        change (S.node h).l2w.vec (kNormal (S.node h).geom ((S.node h).w2l.point (ray.advance L.len (S.node L.medium).index).position)) = nrm
        rw [hpos]
        exact corner_normal hS hN c)
      (by rw [hd]; exact hk)
    rw [hd] at this
    obtain ⟨row, ray', h1, h2, h3, h4, h5, h6, h7, h8⟩ := this
    exact ⟨row, ray', h1, h2, h3, h4, (h5.trans hpos).trans c.place.symm, h6, h7, h8⟩
  cases ht with
  | @reflected h m nrm r' c kind graze medium mirror chance =>
    have hn := corner_unit hS c
    obtain ⟨h0, h1⟩ := hfres (h := h) hn graze chance
    refine ⟨h, m, _, _, c.object, c.surface, c.sides, (reflect_decides h0 h1).1, fun ray s hp hd => ?_⟩
    obtain ⟨row, ray', e1, e2, e3, e4, e5, e6, e7, e8⟩ := hturn c ray s hp hd (rr := some r)
      (by
        rw [kind]
        simp only
        rw [kReflectivity, kAngle_abs hn hf.unit, Optics.engine_reflectivity, chance])
    refine ⟨row, ray', e1, e2, e3, e4, e5, e6, fun hb => ?_, fun hb => ?_⟩
    · rw [if_pos medium, (e7 hb).1, (e7 hb).2, mirror, (Optics.reflection hn).2.2.2.2.2, Optics.specular_eq, nrm.dot_comm]
      exact ⟨rfl, rfl⟩
    · rw [if_pos medium, (e8 (by simpa using hb)).1]
      decide
  | @refracted h m nrm r' c kind medium snell across chance =>
    have hn := corner_unit hS c
    have graze : L.dir.dot nrm ≠ 0 := by
      intro h; rw [h] at across; simp at across
    obtain ⟨h0, h1⟩ := hfres (h := h) hn graze chance
    refine ⟨h, m, _, _, c.object, c.surface, c.sides, (reflect_decides h0 h1).2, fun ray s hp hd => ?_⟩
    obtain ⟨row, ray', e1, e2, e3, e4, e5, e6, e7, e8⟩ := hturn c ray s hp hd (rr := some r')
      (by
        rw [kind]
        simp only
        rw [kReflectivity, kAngle_abs hn hf.unit, Optics.engine_reflectivity, chance])
    have hne : ¬ L'.medium = L.medium := by rw [medium]; exact hmne c.sides
    refine ⟨row, ray', e1, e2, e3, e4, e5, e6, fun hb => ?_, fun hb => ?_⟩
    · refine ⟨by rw [if_neg hne, (e8 hb).1], (e8 hb).2.trans ?_⟩
      unfold kOps
      simp only [kind]
      rw [transmit_snell (hS.index_pos _) hf.unit hf'.unit hn snell across]
      rfl
    · rw [if_neg hne, (e7 (by simpa using hb)).1]
      decide
  | @passed h m nrm c kind medium straight =>
    have hd1 := (reflect_decides (r := 0) le_rfl zero_le_one).2
    rw [sub_zero] at hd1
    refine ⟨h, m, _, _, c.object, c.surface, c.sides, hd1, fun ray s hp hd => ?_⟩
    obtain ⟨row, ray', e1, e2, e3, e4, e5, e6, e7, e8⟩ := hturn c ray s hp hd (rr := some 0) (by rw [kind])
    have hne : ¬ L'.medium = L.medium := by rw [medium]; exact hmne c.sides
    refine ⟨row, ray', e1, e2, e3, e4, e5, e6, fun hb => ?_, fun hb => ?_⟩
    · refine ⟨by rw [if_neg hne, (e8 hb).1], (e8 hb).2.trans ?_⟩
      unfold kOps
      simp only [kind]
      exact straight.symm
    · rw [if_neg hne, (e7 (by simpa using hb)).1]
      decide

/-- The last leg. -/
theorem last_pass (hS : Sound S) (hN : Shells S) {w : ℝ} {L : Leg n} (hf : Free S L) (hw : Kept S w L) :
    ∃ (b : Numbers → Prop) (next : Numbers → Numbers), Decides b next (survival S w L) ∧
      ∀ (maxsteps count : ℕ) (ray : KRay ℝ Comp) (s : Numbers), ray.position = L.start → ray.direction = L.dir →
        ray.wavelength = w → ¬ count > maxsteps →
        ∃ row rs, rowsOf (kBody (kOps S reader method) maxsteps count ray s).1 = row :: rs ∧ row.container = some L.medium ∧
          (L.len ≤ row.ray.travelled - ray.travelled ↔ b s) := by
  obtain ⟨h, a, t, hn, hle, ht, hmin, -⟩ := leg_core hS hN hf
  refine ⟨_, _, depth_decides (a := ((S.node L.medium).kCoefs w).sum) (eps_pos.trans hf.long).le, fun maxsteps count ray s hp hd hwl hc => ?_⟩
  have hh : (kOps S reader method).nextHit ray.position ray.direction = some (h, L.medium, a, t) := by
    rw [hp, hd]; exact hn
  by_cases h0 : h = 0
  · have hm : L.medium = 0 := by
      by_contra hne
      obtain ⟨x, y, sx, hx, hy, hcr⟩ := inner_span hS hN hf (fun t h1 h2 => (hf.inside t h1 h2).1)
      obtain ⟨x', y', sx', hx', hy'⟩ := nested_span hS hN hf (hN.world _ hne) sx
      obtain ⟨x2, y2, sx2, ht2, ht3⟩ := NextHit.mem_crossings.1 ht
      rw [h0, sx'] at sx2
      obtain ⟨rfl, rfl⟩ := Prod.mk.inj (Option.some.inj sx2)
      have h1 := hmin L.medium y (by rw [hcr]; simp)
      rcases ht2 with rfl | rfl
      · linarith [eps_pos]
      · linarith
    have hw : ((S.node 0).kCoefs w).sum ≤ 1e-8 := by
      rcases hw with hw | ⟨v, hv, x, hx, hsx⟩
      · exact hw
      · exfalso
        have hc := surface_crossing hS hN hf hx hsx
        obtain ⟨a1, b1, s1, h1, -⟩ := NextHit.mem_crossings.1 hc
        obtain ⟨a2, b2, s2, h2, h3⟩ := nested_span hS hN hf (hN.world v hv) s1
        obtain ⟨a3, b3, s3, h4, h5⟩ := NextHit.mem_crossings.1 ht
        rw [h0, s2] at s3
        obtain ⟨rfl, rfl⟩ := Prod.mk.inj (Option.some.inj s3)
        have h6 := hmin v x hc
        have h7 := (spanOf_some s1).1
        obtain ⟨a4, b4, s4, h8, h9, -⟩ := inner_span hS hN hf (fun t h1 h2 => (hf.inside t h1 h2).1)
        rw [hm, s2] at s4
        obtain ⟨rfl, rfl⟩ := Prod.mk.inj (Option.some.inj s4)
        rcases h4 with rfl | rfl
        · linarith [eps_pos]
        · rcases h1 with rfl | rfl <;> linarith
    obtain ⟨e1, -⟩ := kBody_exit (kOps S reader method) hh hc (s := s) (h0 : h = (kOps S reader method).root)
    refine ⟨_, _, e1, rfl, ?_⟩
    rw [hm]
    unfold kDepth
    rw [if_neg (not_lt.2 hw)]
    simp [KRay.advance, hle]
  · have hg := kBody_go (kOps S reader method) (s := s) hh hc (h0 : h ≠ (kOps S reader method).root)
      (show (kOps S reader method).depth L.medium ray.wavelength s = ((kDepth reader ((S.node L.medium).kCoefs w).sum s).1,
        (kDepth reader ((S.node L.medium).kCoefs w).sum s).2) by rw [hwl]; rfl)
    rw [hg]
    generalize kDepth reader ((S.node L.medium).kCoefs w).sum s = D
    rcases D with ⟨dep, s1⟩
    cases dep with
    | none =>
      obtain ⟨row, rs, e1, e2, e3⟩ := surface_rows (kOps S reader method) h L.medium a ray t s1
      refine ⟨row, rs, e1, e2, ?_⟩
      rw [e3]
      simp [hle]
    | some d =>
      by_cases hdt : d < t
      · obtain ⟨row, rs, e1, -, e2, e3⟩ := absorb_rows (kOps S reader method) L.medium ray d s1
        refine ⟨row, rs, by simp only [isAbsorbed, hdt, if_true]; exact e1, e2, ?_⟩
        rw [e3]
        simp
      · obtain ⟨row, rs, e1, e2, e3⟩ := surface_rows (kOps S reader method) h L.medium a ray t s1
        refine ⟨row, rs, by simp only [isAbsorbed, hdt, if_false]; exact e1, e2, ?_⟩
        rw [e3]
        simp [hle, hle.trans (not_lt.1 hdt)]

theorem follows_iff (hS : Sound S) (hN : Shells S) {w : ℝ} {legs : List (Leg n)} {q : ℝ}
    (h : Path S w legs q) (hw : ∀ B, legs.getLast? = some B → Kept S w B) : 0 ≤ q ∧ ∃ As : List (Set ℝ), (∀ A ∈ As, MeasurableSet A) ∧ (As.map uniform).prod = ENNReal.ofReal q ∧
      ∀ (L : Leg n) (maxsteps fuel count : ℕ) (ray : KRay ℝ Comp) (s : Numbers) (r0 : Row ℝ (Fin (n + 1)) Comp),
        (∀ j, 0 ≤ s j ∧ s j < 1) → legs.head? = some L → ray.position = L.start → ray.direction = L.dir → ray.wavelength = w →
        r0.ray.travelled = ray.travelled → legs.length ≤ fuel → count + legs.length ≤ maxsteps →
        (Follows legs (r0 :: rowsOf (kTrace (kOps S reader method) maxsteps fuel count ray s)) ↔ s ∈ Meet As) := by
  induction h with
  | @last L free =>
    obtain ⟨b, next, ⟨h0, h1, As, h2, h3, h4⟩, hb⟩ := last_pass (method := method) hS hN free (hw L rfl)
    refine ⟨h0, As, h2, h3, ?_⟩
    rintro L0 maxsteps fuel count ray s r0 hs hL hp hd hwl ht hfu hc
    obtain rfl : L = L0 := Option.some.inj hL
    obtain ⟨fuel, rfl⟩ : ∃ k, fuel = k + 1 := ⟨fuel - 1, by simp at hfu; omega⟩
    obtain ⟨row, rs, e1, e2, e3⟩ := hb maxsteps (count + 1) ray s hp hd hwl (by simp at hc; omega)
    have e : ∃ rs', rowsOf (kTrace (kOps S reader method) maxsteps (fuel + 1) count ray s) = row :: rs' := by
      simp only [kTrace]
      split
      · exact ⟨_, e1⟩
      · exact ⟨_, by rw [rowsOf_append, e1]; rfl⟩
    obtain ⟨rs', e⟩ := e
    rw [e, ← List.append_nil As, h4 s hs []]
    simp only [Follows, ht, e2, e3, Meet, Set.mem_univ, and_true, true_and]
  | @turn L L' Ls r q free turn next ih =>
    obtain ⟨q0, As, m1, p1, ih⟩ := ih fun B hB => hw B (by rw [List.getLast?_cons_cons]; exact hB)
    obtain ⟨h, m, b, nx, hh0, hsurf, hsides, ⟨t0, t1, Bs, t2, t3, t4⟩, hpass⟩ :=
      turn_pass (method := method) hS hN free (path_free next) turn
    obtain ⟨d0, d1, Cs, d2, d3, d4⟩ := depth_decides (a := ((S.node L.medium).kCoefs w).sum) (eps_pos.trans free.long).le
    refine ⟨mul_nonneg (mul_nonneg d0 t0) q0, Cs ++ (Bs ++ As), ?_, ?_, ?_⟩
    · intro A hA
      rcases List.mem_append.1 hA with hA | hA
      · exact d2 A hA
      · rcases List.mem_append.1 hA with hA | hA
        · exact t2 A hA
        · exact m1 A hA
    · rw [List.map_append, List.map_append, List.prod_append, List.prod_append, d3, t3, p1, ← mul_assoc,
        ← ENNReal.ofReal_mul d0, ← ENNReal.ofReal_mul (mul_nonneg d0 t0)]
      rfl
    rintro L0 maxsteps fuel count ray s r0 hs hL hp hd hwl ht hfu hc
    obtain rfl : L = L0 := Option.some.inj hL
    simp only [List.length_cons] at hfu hc
    obtain ⟨fuel, rfl⟩ : ∃ k, fuel = k + 1 := ⟨fuel - 1, by omega⟩
    have hhit : (kOps S reader method).nextHit ray.position ray.direction = some (h, L.medium, some m, L.len) := by
      rw [hp, hd]; exact leg_hit hS hN free hh0 hsurf hsides
    have hg := kBody_go (kOps S reader method) (maxsteps := maxsteps) (count := count + 1) (s := s) hhit (by omega)
      (hh0 : h ≠ (kOps S reader method).root)
      (show (kOps S reader method).depth L.medium ray.wavelength s = ((kDepth reader ((S.node L.medium).kCoefs w).sum s).1,
        (kDepth reader ((S.node L.medium).kCoefs w).sum s).2) by rw [hwl]; rfl)
    rw [d4 s hs, kTrace]
    simp only
    rw [hg]
    have hs1 := d1 s hs
    beta_reduce at hs1
    generalize kDepth reader ((S.node L.medium).kCoefs w).sum s = D at hs1 ⊢
    rcases D with ⟨dep, s1⟩
    simp only at hs1 ⊢
    by_cases hab : ∀ d, dep = some d → L.len ≤ d
    · have hna : isAbsorbed dep L.len = none := by
        cases dep with
        | none => rfl
        | some d => simp [isAbsorbed, hab d rfl]
      rw [hna]
      simp only
      obtain ⟨row, ray', e1, e2, e3, e4, e5, e6, e7, e8⟩ := hpass ray s1 hp hd
      rw [e2]
      simp only
      rw [rowsOf_append, e1, t4 s1 hs1]
      simp only [List.singleton_append, Follows]
      by_cases hb : b s1
      · obtain ⟨k1, k2⟩ := e7 hb
        rw [ih L' maxsteps fuel (count + 1) ray' (nx s1) row (t1 s1 hs1) rfl e5 k2 (e6.trans hwl) (by rw [e3]) (by simp; omega)
          (by simp; omega)]
        exact ⟨fun h => ⟨hab, hb, h.2.2.2⟩, fun h => ⟨k1, e4, by rw [e3, e5], h.2.2⟩⟩
      · have k1 := e8 hb
        simp [k1, hb]
    · push Not at hab
      obtain ⟨d, rfl, hdl⟩ := hab
      have hna : isAbsorbed (some d) L.len = some d := by simp [isAbsorbed, hdl]
      rw [hna]
      simp only
      obtain ⟨row, rs, e1, e2, -⟩ := absorb_rows (kOps S reader method) L.medium ray d s1
      have hno : ∀ rs', ¬ Follows (L :: L' :: Ls) (r0 :: row :: rs') := by
        intro rs' hF
        have := hF.1
        rw [e2] at this
        split at this <;> cases this
      have hr : ¬ ∀ d', some d = some d' → L.len ≤ d' := fun hx => absurd (hx d rfl) (not_le.2 hdl)
      simp only [hr, false_and, iff_false]
      split
      · rw [e1]; exact hno _
      · rw [rowsOf_append, e1]; exact hno _

/-- **C109**. The probability with which a ray of the engine follows a path is the product of the parts that are not
absorbed on the legs and of the probabilities of the turns. -/
theorem follows_chance (hS : Sound S) (hN : Shells S) {w : ℝ} {legs : List (Leg n)} {q : ℝ} (h : Path S w legs q)
    {maxsteps : ℕ} (hm : legs.length ≤ maxsteps) {A B : Leg n} (hB : legs.getLast? = some B) (hw : Kept S w B) (hA : legs.head? = some A) {ray : KRay ℝ Comp}
    (hp : ray.position = A.start) (hd : ray.direction = A.dir) (hwl : ray.wavelength = w) :
    chance (fun s => Follows legs (fullHistory (kOps S reader method) maxsteps ⟨ray, s⟩)) = ENNReal.ofReal q := by
  obtain ⟨-, As, h1, h2, h3⟩ := follows_iff (method := method) hS hN h fun B' hB' => by
    rw [hB] at hB'
    cases hB'
    exact hw
  rw [← h2, ← meet_chance h1]
  refine PathLaw.chance_congr (Q := fun s => s ∈ Meet As) fun s hs => ?_
  rw [fullHistory_eq]
  exact h3 A maxsteps (maxsteps + 1) 0 ray s _ hs hA hp hd hwl rfl (by omega) (by omega)

/-- **C109**. Light follows a path backwards with the probability with which it follows it forwards: whatever surfaces it is
reflected at and refracted through and whatever it has to pass, in a scene of objects one in another, unless an end of the path lies on
a way out of an absorbing world. -/
theorem reciprocity (hS : Sound S) (hN : Shells S) {w : ℝ} {legs : List (Leg n)} {q : ℝ}
    (h : Path S w legs q) {maxsteps : ℕ} (hm : legs.length ≤ maxsteps) {A B : Leg n} (hA : legs.head? = some A)
    (hB : legs.getLast? = some B) (hwB : Kept S w B) (hwA : Kept S w A.back) {ray ray' : KRay ℝ Comp} (hp : ray.position = A.start) (hd : ray.direction = A.dir)
    (hwl : ray.wavelength = w) (hp' : ray'.position = B.finish) (hd' : ray'.direction = -B.dir) (hwl' : ray'.wavelength = w) :
    chance (fun s => Follows legs (fullHistory (kOps S reader method) maxsteps ⟨ray, s⟩)) =
      chance (fun s => Follows (reversed legs) (fullHistory (kOps S reader method) maxsteps ⟨ray', s⟩)) := by
  rw [follows_chance hS hN h hm hB hwB hA hp hd hwl]
  refine (follows_chance hS hN (path_back hS h) (by simpa [reversed] using hm) (A := B.back) (B := A.back) ?_ hwA ?_ hp' hd' hwl').symm
  · simp [reversed, hA]
  · simp [reversed, hB]

end Engine

end
end PV.Reverse
