import Verif.Props.Reverse
import Verif.Props.VariantsKernelDemo

/-!
The hypotheses of **C109** are met: light that enters a block of tinted glass at an angle and is reflected inside.
-/

namespace PV.Reverse
open PV PV.Library PV.Solid PV.Geometry PV.Spec PV.Budget
noncomputable section

/-- A block of glass of index 4/3 with soot in a round world. -/
def block : LScene 1 where
  node := ![⟨"world", .sphere 100, .one, .one, 1, .null, []⟩,
    ⟨"block", .box ⟨10, 10, 8⟩, .one, .one, 4 / 3, .fresnel, [Variants.soot]⟩]

theorem block_place (v : Fin 2) (p : Vec3 ℝ) : (block.node v).w2l.point p = p ∧ (block.node v).w2l.vec p = p := by
  have h : (block.node v).w2l = .one := by fin_cases v <;> rfl
  rw [h]
  exact ⟨Node.one_point p, Node.one_vec p⟩

theorem block_sound : Sound block where
  index_pos v := by fin_cases v <;> simp [block]
  rigid v := by
    have h : (block.node v).l2w = .one := by fin_cases v <;> rfl
    rw [h]
    norm_num [Affine.Rigid, Affine.one, Vec3.dot]
  inverse v := by
    have h : (block.node v).l2w = .one ∧ (block.node v).w2l = .one := by fin_cases v <;> exact ⟨rfl, rfl⟩
    rw [h.1, h.2]
    exact ⟨fun p => by rw [Node.one_point, Node.one_point], fun p => by rw [Node.one_vec, Node.one_vec]⟩
  comps v c hc := by
    have h : (block.node v).comps = if v = 0 then [] else [Variants.soot] := by fin_cases v <;> rfl
    rw [h] at hc
    split at hc
    · cases hc
    · rw [List.mem_singleton.1 hc]
      exact Variants.soot_good

theorem world_inner {p : Vec3 ℝ} : HasInner (block.node 0) p ↔ p.x ^ 2 + p.y ^ 2 + p.z ^ 2 < 100 ^ 2 := by
  unfold HasInner
  rw [(block_place 0 p).1]
  rfl

theorem glass_inner {p : Vec3 ℝ} : HasInner (block.node 1) p ↔ |p.x| < 10 / 2 ∧ |p.y| < 10 / 2 ∧ |p.z| < 8 / 2 := by
  unfold HasInner
  rw [(block_place 1 p).1]
  rfl

theorem glass_has {p : Vec3 ℝ} : Has (block.node 1) p ↔ |p.x| ≤ 10 / 2 ∧ |p.y| ≤ 10 / 2 ∧ |p.z| ≤ 8 / 2 := by
  unfold Has
  rw [(block_place 1 p).1]
  rfl

theorem glass_within : Within (block.node 1) (block.node 0) := by
  intro p hp
  obtain ⟨h1, h2, h3⟩ := glass_has.1 hp
  rw [world_inner]
  rw [abs_le] at h1 h2 h3
  nlinarith

theorem block_shells : Shells block where
  proper v := by fin_cases v <;> norm_num [block, Proper]
  nested u v h := by
    fin_cases u <;> fin_cases v
    · exact absurd rfl h
    · exact .inr glass_within
    · exact .inl glass_within
    · exact absurd rfl h
  world v h := by
    fin_cases v
    · exact absurd rfl h
    · exact glass_within

theorem glass_around : Around block 1 0 := by
  refine ⟨glass_within, fun w hw => ?_⟩
  fin_cases w
  · exact .inl rfl
  · exact absurd hw (within_irrefl (block_shells.proper 1) (block_sound.inverse 1))

/-- Down to the block, through it to its bottom, and a little way up again. -/
def leg0 : Leg 1 := ⟨⟨-7, 0, 7⟩, ⟨4 / 5, 0, -(3 / 5)⟩, 5, 0⟩
def leg1 : Leg 1 := ⟨⟨-3, 0, 4⟩, ⟨3 / 5, 0, -(4 / 5)⟩, 10, 1⟩
def leg2 : Leg 1 := ⟨⟨3, 0, -4⟩, ⟨3 / 5, 0, 4 / 5⟩, 1, 1⟩

theorem leg0_pos (t : ℝ) : leg0.pos t = ⟨-7 + t * (4 / 5), 0, 7 - t * (3 / 5)⟩ := by
  ext <;> simp [leg0, Leg.pos] <;> ring
theorem leg1_pos (t : ℝ) : leg1.pos t = ⟨-3 + t * (3 / 5), 0, 4 - t * (4 / 5)⟩ := by
  ext <;> simp [leg1, Leg.pos] <;> ring
theorem leg2_pos (t : ℝ) : leg2.pos t = ⟨3 + t * (3 / 5), 0, -4 + t * (4 / 5)⟩ := by
  ext <;> simp [leg2, Leg.pos]

theorem tiny_half : tiny ≤ 1 / 2 := by
  have h : (2 : ℝ) ≤ 10 ^ 300 := le_trans (by norm_num) (le_self_pow₀ (by norm_num : (1 : ℝ) ≤ 10) (by norm_num : 300 ≠ 0))
  have := inv_anti₀ (by norm_num : (0 : ℝ) < 2) h
  norm_num [tiny]
  linarith

theorem clear_dir {x z : ℝ} (hx : 1 / 2 ≤ |x|) (hz : 1 / 2 ≤ |z|) (v : Fin 2) :
    ClearDir (block.node v).geom ((block.node v).w2l.vec ⟨x, 0, z⟩) := by
  rw [(block_place v _).2]
  fin_cases v
  · trivial
  · refine ⟨.inr (le_trans ?_ hx), .inl rfl, .inr (le_trans ?_ hz)⟩ <;> exact tiny_half

theorem world_line {L : Leg 1} {t : ℝ} (h : HasInner (block.node 0) (L.pos t)) :
    ¬ Surface (block.node 0).geom ((block.node 0).w2l.point (L.pos t)) := fun hs => hs.2 h

theorem free0 : Free block leg0 where
  unit := by norm_num [leg0, Vec3.dot]
  long := by norm_num [leg0, epsZero]
  clear v := clear_dir (by norm_num [abs_of_pos]) (by norm_num [abs_of_pos]) v
  through v := by
    left
    fin_cases v
    · refine ⟨0, world_inner.2 ?_⟩
      rw [leg0_pos]
      norm_num
    · refine ⟨6, glass_inner.2 ?_⟩
      rw [leg0_pos]
      norm_num [abs_lt]
  between v t h0 h1 := by
    have h1 : t < 5 := h1
    fin_cases v
    · refine world_line (world_inner.2 ?_)
      rw [leg0_pos]
      nlinarith
    · intro hs
      have := (glass_has.1 hs.1).2.2
      rw [leg0_pos, abs_le] at this
      linarith [this.2]
  inside t h0 h1 := by
    have h1 : t < 5 := h1
    refine ⟨world_inner.2 ?_, fun w hw => ?_⟩
    · rw [leg0_pos]
      nlinarith
    · fin_cases w
      · exact .inl rfl
      · have := (glass_inner.1 hw).2.2
        rw [leg0_pos, abs_lt] at this
        linarith [this.2]

theorem glass_free {L : Leg 1} (hu : L.dir.dot L.dir = 1) (hl : epsZero < L.len)
    (hc : ∀ v, ClearDir (block.node v).geom ((block.node v).w2l.vec L.dir)) (hm : L.medium = 1)
    (hi : ∀ t, 0 < t → t < L.len → HasInner (block.node 1) (L.pos t)) : Free block L where
  unit := hu
  long := hl
  clear := hc
  through v := by
    have h := hi (L.len / 2) (half_pos (eps_pos.trans hl)) (half_lt_self (eps_pos.trans hl))
    left
    fin_cases v
    · exact ⟨_, glass_within _ (has_of_inner h)⟩
    · exact ⟨_, h⟩
  between v t h0 h1 := by
    fin_cases v
    · exact world_line (glass_within _ (has_of_inner (hi t h0 h1)))
    · exact fun hs => hs.2 (hi t h0 h1)
  inside t h0 h1 := by
    rw [hm]
    refine ⟨hi t h0 h1, fun w hw => ?_⟩
    fin_cases w
    · exact .inr glass_within
    · exact .inl rfl

theorem free1 : Free block leg1 := by
  refine glass_free (by norm_num [leg1, Vec3.dot]) (by norm_num [leg1, epsZero])
    (clear_dir (by norm_num [abs_of_pos]) (by norm_num [abs_of_pos])) rfl fun t h0 h1 => glass_inner.2 ?_
  have h1 : t < 10 := h1
  rw [leg1_pos]
  refine ⟨abs_lt.2 ⟨?_, ?_⟩, by norm_num, abs_lt.2 ⟨?_, ?_⟩⟩ <;> dsimp only <;> linarith

theorem free2 : Free block leg2 := by
  refine glass_free (by norm_num [leg2, Vec3.dot]) (by norm_num [leg2, epsZero])
    (clear_dir (by norm_num [abs_of_pos]) (by norm_num [abs_of_pos])) rfl fun t h0 h1 => glass_inner.2 ?_
  have h1 : t < 1 := h1
  rw [leg2_pos]
  refine ⟨abs_lt.2 ⟨?_, ?_⟩, by norm_num, abs_lt.2 ⟨?_, ?_⟩⟩ <;> dsimp only <;> linarith

/-- A corner on the top or the bottom. -/
theorem glass_corner {L L' : Leg 1} {x σ : ℝ} (hσ : σ = 1 ∨ σ = -1) (hx : |x| < 5) (hf : L.finish = ⟨x, 0, σ * 4⟩)
    (hp : L'.start = ⟨x, 0, σ * 4⟩) {m : Fin 2} (hm : Sides block 1 L.medium m) : Corner block L L' 1 m ⟨0, 0, σ⟩ := by
  have hz : |σ * 4| = 4 := by rcases hσ with rfl | rfl <;> norm_num [abs_of_pos]
  have hsm : Smooth 0 (block.node 1).geom ⟨x, 0, σ * 4⟩ := by
    refine .inr (.inr ⟨⟨?_, ?_⟩, ⟨?_, ?_⟩, ?_, ?_⟩) <;> dsimp only <;> norm_num [hz] <;> linarith
  have hn : kNormal (.box ⟨10, 10, 8⟩) (⟨x, 0, σ * 4⟩ : Vec3 ℝ) = axisNormal 2 σ := by
    refine kNormal_face hσ ?_ ?_ fun j hj => ?_
    · show σ * 4 = σ * (8 / 2)
      ring
    · show (0 : ℝ) < 8
      norm_num
    · match j with
      | 0 => show |x| < 10 / 2; linarith
      | 1 => show |(0 : ℝ)| < 10 / 2; norm_num
      | 2 => exact absurd rfl hj
  refine ⟨by rw [hp, hf], by decide, ?_, ?_, ?_, hm⟩
  · rw [(block_place 1 _).1, hf]
    refine ⟨⟨?_, ?_, ?_⟩, fun h => ?_⟩
    · show |x| ≤ 10 / 2
      linarith
    · show |(0 : ℝ)| ≤ 10 / 2
      norm_num
    · show |σ * 4| ≤ 8 / 2
      rw [hz]; norm_num
    · have : |σ * 4| < 8 / 2 := h.2.2
      rw [hz] at this
      norm_num at this
  · rw [(block_place 1 _).1, hf]
    exact hsm
  · rw [(block_place 1 _).1, (block_place 1 _).2, hf]
    have := engine_normal (block_shells.proper 1) hsm
    rw [show (block.node 1).geom = .box ⟨10, 10, 8⟩ from rfl, hn] at this
    exact this

theorem reflectivity_exists {c n1 n2 : ℝ} (hc : 0 < c) (h1 : 0 < n1) (h2 : 0 < n2) :
    ∃ r, fresnelR (Real.arccos c) n1 n2 = some r := by
  obtain ⟨r, h, -⟩ := Optics.reflectivity_range h1 h2 (Real.arccos_nonneg c) (by rw [Real.arccos_lt_pi_div_two]; exact hc)
  exact ⟨r, h⟩

/-- The path, with the reflectivities at the top and at the bottom. -/
theorem block_path (w : ℝ) : ∃ r r', Path block w [leg0, leg1, leg2]
    (survival block w leg0 * (1 - r) * (survival block w leg1 * r' * survival block w leg2)) := by
  obtain ⟨r, hr⟩ := reflectivity_exists (c := |leg0.dir.dot ⟨0, 0, 1⟩|) (n1 := (block.node 0).index) (n2 := (block.node 1).index)
    (by norm_num [leg0, Vec3.dot]) (block_sound.index_pos 0) (block_sound.index_pos 1)
  obtain ⟨r', hr'⟩ := reflectivity_exists (c := |leg1.dir.dot ⟨0, 0, -1⟩|) (n1 := (block.node 1).index) (n2 := (block.node 0).index)
    (by norm_num [leg1, Vec3.dot]) (block_sound.index_pos 1) (block_sound.index_pos 0)
  refine ⟨r, r', .turn free0 (.refracted (h := 1) (m := 1) (nrm := ⟨0, 0, 1⟩) ?_ rfl rfl ?_ ?_ hr)
    (.turn free1 (.reflected (h := 1) (m := 0) (nrm := ⟨0, 0, -1⟩) ?_ rfl ?_ rfl ?_ hr') (.last free2))⟩
  · refine glass_corner (x := -3) (.inl rfl) (by norm_num [abs_of_pos]) ?_ (by norm_num [leg1]) (.inr ⟨glass_around, rfl⟩)
    show leg0.pos 5 = _
    rw [leg0_pos]
    norm_num
  · show (1 : ℝ) • along leg0.dir ⟨0, 0, 1⟩ = (4 / 3 : ℝ) • along leg1.dir ⟨0, 0, 1⟩
    ext <;> norm_num [along, leg0, leg1, Vec3.dot]
  · norm_num [leg0, leg1, Vec3.dot]
  · refine glass_corner (x := 3) (.inr rfl) (by norm_num [abs_of_pos]) ?_ (by norm_num [leg2]) (.inl ⟨rfl, glass_around⟩)
    show leg1.pos 10 = _
    rw [leg1_pos]
    norm_num
  · norm_num [leg1, Vec3.dot]
  · ext <;> norm_num [leg1, leg2, Vec3.dot]

/-- The probability of coming from outside and being reflected in the block is that of the way back. -/
example (w : ℝ) : chance (fun s => Follows [leg0, leg1, leg2] (fullHistory (kOps block reader .kT) 5
      ⟨⟨⟨-7, 0, 7⟩, ⟨4 / 5, 0, -(3 / 5)⟩, w, 0, 0, none⟩, s⟩)) =
    chance (fun s => Follows [leg2.back, leg1.back, leg0.back] (fullHistory (kOps block reader .kT) 5
      ⟨⟨leg2.finish, -leg2.dir, w, 0, 0, none⟩, s⟩)) := by
  obtain ⟨r, r', h⟩ := block_path w
  have hw : ((block.node 0).kCoefs w).sum ≤ 1e-8 := by show (List.map _ []).sum ≤ _; norm_num
  exact reciprocity block_sound block_shells h (by norm_num) (A := leg0) (B := leg2) rfl rfl (.inl hw) (.inl hw) rfl rfl rfl rfl rfl rfl

/-! ### On the way out of an absorbing world -/

/-- A ball in a world full of soot. -/
def smog : LScene 1 where
  node := ![⟨"world", .sphere 20, .one, .one, 1, .null, [Variants.soot]⟩, ⟨"ball", .sphere 1, .one, .one, 1, .null, []⟩]

theorem smog_place (v : Fin 2) (p : Vec3 ℝ) : (smog.node v).w2l.point p = p ∧ (smog.node v).w2l.vec p = p := by
  have h : (smog.node v).w2l = .one := by fin_cases v <;> rfl
  rw [h]
  exact ⟨Node.one_point p, Node.one_vec p⟩

theorem smog_sound : Sound smog where
  index_pos v := by fin_cases v <;> simp [smog]
  rigid v := by
    have h : (smog.node v).l2w = .one := by fin_cases v <;> rfl
    rw [h]
    norm_num [Affine.Rigid, Affine.one, Vec3.dot]
  inverse v := by
    have h : (smog.node v).l2w = .one ∧ (smog.node v).w2l = .one := by fin_cases v <;> exact ⟨rfl, rfl⟩
    rw [h.1, h.2]
    exact ⟨fun p => by rw [Node.one_point, Node.one_point], fun p => by rw [Node.one_vec, Node.one_vec]⟩
  comps v c hc := by
    have h : (smog.node v).comps = if v = 0 then [Variants.soot] else [] := by fin_cases v <;> rfl
    rw [h] at hc
    split at hc
    · rw [List.mem_singleton.1 hc]
      exact Variants.soot_good
    · cases hc

theorem smog_inner {p : Vec3 ℝ} (v : Fin 2) : HasInner (smog.node v) p ↔ p.x ^ 2 + p.y ^ 2 + p.z ^ 2 < (![20, 1] : Fin 2 → ℝ) v ^ 2 := by
  unfold HasInner
  rw [(smog_place v p).1]
  fin_cases v <;> rfl

theorem smog_has {p : Vec3 ℝ} (v : Fin 2) : Has (smog.node v) p ↔ p.x ^ 2 + p.y ^ 2 + p.z ^ 2 ≤ (![20, 1] : Fin 2 → ℝ) v ^ 2 := by
  unfold Has
  rw [(smog_place v p).1]
  fin_cases v <;> rfl

theorem ball_within : Within (smog.node 1) (smog.node 0) := by
  intro p hp
  have h1 : p.x ^ 2 + p.y ^ 2 + p.z ^ 2 ≤ 1 ^ 2 := (smog_has 1).1 hp
  refine (smog_inner 0).2 ?_
  show _ < (20 : ℝ) ^ 2
  linarith

theorem smog_shells : Shells smog where
  proper v := by fin_cases v <;> norm_num [smog, Proper]
  nested u v h := by
    fin_cases u <;> fin_cases v
    · exact absurd rfl h
    · exact .inr ball_within
    · exact .inl ball_within
    · exact absurd rfl h
  world v h := by
    fin_cases v
    · exact absurd rfl h
    · exact ball_within

/-- Away from the ball. -/
def away : Leg 1 := ⟨⟨2, 0, 0⟩, ⟨1, 0, 0⟩, 3, 0⟩

theorem away_pos (t : ℝ) : away.pos t = ⟨2 + t, 0, 0⟩ := by
  ext <;> simp [away, Leg.pos]

theorem away_free : Free smog away where
  unit := by norm_num [away, Vec3.dot]
  long := by norm_num [away, epsZero]
  clear v := by fin_cases v <;> trivial
  through v := by
    left
    refine ⟨-2, (smog_inner v).2 ?_⟩
    rw [away_pos]
    fin_cases v <;> norm_num
  between v t h0 h1 hs := by
    have h1 : t < 3 := h1
    fin_cases v
    · refine hs.2 ((smog_inner 0).2 ?_)
      rw [away_pos]
      show _ < (20 : ℝ) ^ 2
      nlinarith
    · have : _ ≤ (1 : ℝ) ^ 2 := (smog_has 1).1 hs.1
      rw [away_pos] at this
      nlinarith
  inside t h0 h1 := by
    have h1 : t < 3 := h1
    refine ⟨(smog_inner 0).2 ?_, fun w hw => ?_⟩
    · rw [away_pos]
      show _ < (20 : ℝ) ^ 2
      nlinarith
    · fin_cases w
      · exact .inl rfl
      · have : _ < (1 : ℝ) ^ 2 := (smog_inner 1).1 hw
        rw [away_pos] at this
        nlinarith

theorem smog_coefs (w : ℝ) : ((smog.node 0).kCoefs w).sum = 1 := by
  have : (smog.node 0).comps = [Variants.soot] := rfl
  simp [LNode.kCoefs, this, Variants.soot, Comp.kCoef, compileDist, kCoefficient, kInterp, reads]

/-- **C109** (violation). An absorbing world absorbs light that comes in, but nothing of the light that goes out: along the same
three centimetres one ray in twenty survives inwards, and every ray outwards. -/
theorem way_out_free (w : ℝ) : Path smog w [away] (Real.exp (-3)) ∧
    chance (fun s => Follows [away] (fullHistory (kOps smog reader .kT) 5 ⟨⟨⟨2, 0, 0⟩, ⟨1, 0, 0⟩, w, 0, 0, none⟩, s⟩)) = 1 ∧
    chance (fun s => Follows (reversed [away]) (fullHistory (kOps smog reader .kT) 5
      ⟨⟨away.finish, -away.dir, w, 0, 0, none⟩, s⟩)) = ENNReal.ofReal (Real.exp (-3)) := by
  have hp : Path smog w [away] (Real.exp (-3)) := by
    have := Path.last (w := w) away_free
    rw [survival, show away.medium = 0 from rfl, smog_coefs, if_pos (by norm_num), show away.len = 3 from rfl, one_mul] at this
    exact this
  refine ⟨hp, ?_, ?_⟩
  · obtain ⟨h, a, t, hn, hle, ht, -⟩ := leg_core smog_sound smog_shells away_free
    have h0 : h = 0 := by
      by_contra hne
      have h1 : h = 1 := Fin.eq_one_of_ne_zero h hne
      subst h1
      obtain ⟨h2, h3⟩ := crossing_surface smog_sound smog_shells away_free ht
      have : _ ≤ (1 : ℝ) ^ 2 := (smog_has 1).1 h3.1
      rw [away_pos] at this
      have := eps_pos
      nlinarith
    have hall : ∀ s : Numbers, Follows [away] (fullHistory (kOps smog reader .kT) 5 ⟨⟨⟨2, 0, 0⟩, ⟨1, 0, 0⟩, w, 0, 0, none⟩, s⟩) := by
      intro s
      rw [fullHistory_eq]
      obtain ⟨e1, e2⟩ := kBody_exit (kOps smog reader .kT) (maxsteps := 5) (count := 0 + 1)
        (k := ⟨⟨2, 0, 0⟩, ⟨1, 0, 0⟩, w, 0, 0, none⟩) (s := s) hn (by norm_num) h0
      have e3 : rowsOf (rayTrace (kOps smog reader .kT) 5 ⟨⟨⟨2, 0, 0⟩, ⟨1, 0, 0⟩, w, 0, 0, none⟩, s⟩) =
          rowsOf (kBody (kOps smog reader .kT) 5 (0 + 1) ⟨⟨2, 0, 0⟩, ⟨1, 0, 0⟩, w, 0, 0, none⟩ s).1 := by
        unfold rayTrace kTrace
        simp only [e2]
      rw [e3, e1]
      refine ⟨rfl, ?_⟩
      simpa [KRay.advance, generateRow] using hle
    simp [chance, hall]
  · refine follows_chance smog_sound smog_shells (path_back smog_sound hp) (by norm_num [reversed]) (B := away.back) rfl
      (.inr ⟨1, by decide, 4, by norm_num [epsZero], ?_⟩) (A := away.back) rfl rfl rfl rfl
    rw [(smog_place 1 _).1, back_pos, away_pos]
    constructor
    · show (_ : ℝ) ≤ 1 ^ 2
      norm_num [away]
    · show ¬ (_ : ℝ) < 1 ^ 2
      norm_num [away]

end
end PV.Reverse
