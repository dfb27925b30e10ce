import Verif.Spec.LscScene
import Verif.Props.Component
import Verif.Props.Dyes
import Verif.Props.Transformable

/-!
C89: a concentrator is built as configured.
-/

namespace PV.Lsc
noncomputable section
open Classical PV.Component PV.Spec
variable {δ : Type}

/-- What calls other than `build` leave behind. -/
structure Tracks (c0 : Config δ) (calls : List (Ask δ)) (c : Config δ) : Prop where
  size : c.size = c0.size
  range : c.range = c0.range
  n0 : c.n0 = c0.n0
  n1 : c.n1 = c0.n1
  comps : c.comps = c0.comps ++ (ingredients calls).map (·, false)
  lights : c.lights = c0.lights ++ lamps calls
  gap : c.gap = true ↔ c0.gap = true ∨ WantsGap calls
  scene : c.scene = c0.scene

theorem after_append (spot : δ) (c : Config δ) (a b : List (Ask δ)) :
    c.after spot (a ++ b) = (c.after spot a).after spot b := by simp [Config.after]

theorem tracks (spot : δ) (c0 : Config δ) (calls : List (Ask δ)) (h : Ask.build ∉ calls) :
    Tracks c0 calls (c0.after spot calls) := by
  induction calls using List.reverseRecOn with
  | nil => exact ⟨rfl, rfl, rfl, rfl, by simp [ingredients, Config.after], by simp [lamps, Config.after],
      by simp [WantsGap, Config.after], rfl⟩
  | append_singleton calls k ih =>
    obtain ⟨h1, h2, h3, h4, h5, h6, h7, h8⟩ := ih (by simp_all)
    rw [after_append]
    generalize c0.after spot calls = c at *
    simp only [Config.after, List.foldl_cons, List.foldl_nil]
    cases k with
    | build => simp at h
    | addSolarCell f =>
      cases f with
      | notCollection => constructor <;> simp_all [Config.ask, ingredients, lamps, WantsGap]
      | names l =>
        simp only [Config.ask]
        split <;> constructor <;> simp_all [ingredients, lamps, WantsGap]
    | addAirGapMirror b =>
      constructor <;> simp_all [Config.ask, ingredients, lamps, WantsGap]
    | _ => constructor <;> simp_all [Config.ask, ingredients, lamps, WantsGap]

theorem makeComponents_ok : ∀ (l : List Ingredient) (e : List (Ingredient × Bool)) (made : List Made),
    makeComponents (l.map (·, false)) = (e, .ok made) → List.Forall₂ (fun i m => i.make = .ok m) l made
  | [], e, made, h => by
    simp only [List.map_nil, makeComponents, Prod.mk.injEq, Except.ok.injEq] at h
    rw [← h.2]
    exact .nil
  | i :: l, e, made, h => by
    simp only [List.map_cons, makeComponents, Bool.false_eq_true, if_false] at h
    split at h
    · simp at h
    · rename_i m hm
      split at h
      · simp at h
      · rename_i rest ms hr
        simp only [Prod.mk.injEq, Except.ok.injEq] at h
        rw [← h.2]
        exact .cons hm (makeComponents_ok l _ _ hr)

theorem makeComponents_of : ∀ (l : List Ingredient), (∀ i ∈ l, ∃ m, i.make = .ok m) →
    ∃ e made, makeComponents (l.map (·, false)) = (e, .ok made)
  | [], _ => ⟨_, _, rfl⟩
  | i :: l, h => by
    obtain ⟨m, hm⟩ := h i (by simp)
    obtain ⟨e, made, hr⟩ := makeComponents_of l fun j hj => h j (by simp [hj])
    exact ⟨(i, true) :: e, m :: made, by simp only [List.map_cons, makeComponents, Bool.false_eq_true, if_false, hm, hr]⟩

/-- `_make_scene` from entries that have not been touched. -/
theorem makeScene_fresh (spot : δ) (c : Config δ) (l : List Ingredient) (hc : c.comps = l.map (·, false))
    (hr : l = [] → c.range ≠ none) :
    makeScene spot c =
      match makeComponents ((if l = [] then defaultComponents (c.range.getD []) else l).map (·, false)) with
      | (comps, .error e) => ({ c with comps := comps }, .error e)
      | (comps, .ok made) =>
        ({ c with
          comps := comps, lights := if c.lights = [] then defaultLights spot c.size else c.lights,
          scene := some ⟨⟨"World", .box ⟨c.size.x * 100, c.size.y * 100, c.size.z * 100⟩ c.n0 [] .fresnel, atOrigin⟩,
            ⟨"LSC", .box c.size c.n1 made .cells, atOrigin⟩ :: (if c.gap then [gapNode c.size c.n0] else []) ++
              (if c.lights = [] then defaultLights spot c.size else c.lights).map lightNode⟩ }, .ok ()) := by
  have hlights : (if c.lights.isEmpty = true then defaultLights spot c.size else c.lights) =
      if c.lights = [] then defaultLights spot c.size else c.lights := by
    simp only [List.isEmpty_iff]
  unfold makeScene
  cases l with
  | nil =>
    obtain ⟨x, hx⟩ := Option.ne_none_iff_exists'.1 (hr rfl)
    rw [hc, hx]
    simp only [List.map_nil, List.isEmpty_nil, if_true, hlights, Option.getD_some]
    rfl
  | cons i l =>
    rw [hc]
    simp only [List.map_cons, List.isEmpty_cons, Bool.false_eq_true, if_false, hlights, reduceCtorEq]
    rfl

theorem origin_point (v : Vec3 ℝ) : atOrigin.pose.point v = v := by
  ext <;> simp [atOrigin, Tf.init, translationMatrix, Affine.point, Affine.vec, Vec3.dot]

theorem lamp_placed (l : Lamp δ) : LampPlaced l (lightNode l) := by
  obtain ⟨name, location, isInt, rotation, direction, wavelength, position⟩ := l
  cases rotation with
  | none =>
    refine ⟨rfl, rfl, ?_, ?_, ?_⟩
    · ext <;> simp [lightNode, Tf.run, Tf.apply, atOrigin, Tf.init, translationMatrix, Affine.point, Affine.vec, Vec3.dot]
    · intro _ v
      ext <;> simp [lightNode, Tf.run, Tf.apply, atOrigin, Tf.init, translationMatrix, Affine.vec, Vec3.dot]
    · simp
  | some r =>
    obtain ⟨angle, axis⟩ := r
    have hp : (lightNode ⟨name, location, isInt, some (angle, axis), direction, wavelength, position⟩).tf.pose =
        (rotationMatrix angle axis location).comp (translationMatrix location) := by
      simp [lightNode, Tf.run, Tf.apply, atOrigin, Tf.init, translationMatrix]
    refine ⟨rfl, rfl, ?_, by simp, ?_⟩
    · rw [hp, Affine.comp_point]
      have : (translationMatrix location).point 0 = location := by
        ext <;> simp [translationMatrix, Affine.point, Affine.vec, Vec3.dot]
      rw [this]
      ext <;> simp [rotationMatrix, Affine.point, Affine.vec]
    · intro a' x' h v
      simp only [Option.some.injEq, Prod.mk.injEq] at h
      obtain ⟨rfl, rfl⟩ := h
      rw [hp, Affine.comp_vec]
      have : (translationMatrix location).vec v = v := by
        ext <;> simp [translationMatrix, Affine.vec, Vec3.dot]
      rw [this]
      rfl

theorem sheet_placed (size : Vec3 ℝ) (n0 : ℝ) : SheetPlaced (δ := δ) size n0 (gapNode size n0) := by
  constructor
  · simp only [gapNode]
    congr 2
    norm_num
    ring
  · intro v
    have hp : (gapNode (δ := δ) size n0).tf.pose =
        (translationMatrix ⟨0, 0, -(0.5 * size.z + 0.25 * size.z)⟩).comp (translationMatrix 0) := by
      simp [gapNode, Tf.apply, atOrigin, Tf.init]
    rw [hp, Affine.comp_point]
    ext <;> simp [translationMatrix, Affine.point, Affine.vec, Vec3.dot]
    ring

/-- A component that can be made is what was asked for. -/
theorem made_as {i : Ingredient} {m : Made} (h : i.make = .ok m) : MadeAs i m := by
  cases i with
  | absorber name c =>
    simp only [Ingredient.make, Component.absorber] at h
    obtain ⟨_, hq, _, _, hn, hk, _⟩ := (scatterer_made _ _ _).1 h
    refine .absorber hn hk (fun w y hc => coefficient_at h rfl hc) ?_
    have := (yield_iff _ _ _ _).2 hq
    simpa [mkYield] using this.symm
  | luminophore name c e qy ph =>
    simp only [Ingredient.make, Component.luminophore] at h
    split at h
    · cases h
    rename_i m' hm
    split at h
    · cases h
    rename_i d hd
    cases h
    obtain ⟨_, hq, _, _, hn, hk, _, _, hp⟩ := (scatterer_made _ _ _).1 hm
    cases qy with
    | none => simpa [mkYield] using (yield_iff _ _ _ _).2 hq
    | some q =>
      refine .luminophore hn hk (fun w y hc => coefficient_at (a := ⟨c, none, some q, none, none, ph, false, name⟩) hm rfl hc)
        ?_ ?_ hp
      · rintro rows w y rfl hr
        exact ⟨d, rfl, call_row hd hr⟩
      · have := (yield_iff _ _ _ _).2 hq
        simpa [mkYield] using this.symm

/-- The components of the plate: those asked for, or the dye and background of the default plate. -/
def contents (x : List ℝ) (calls : List (Ask δ)) : List Ingredient :=
  if ingredients calls = [] then defaultComponents x else ingredients calls

/-- The lights of the scene: those asked for, or the default one. -/
def lighting (spot : δ) (size : Vec3 ℝ) (calls : List (Ask δ)) : List (Lamp δ) :=
  if lamps calls = [] then defaultLights spot size else lamps calls

/-- The default wavelengths, 400 to 799 nm. -/
def defaultRange : List ℝ := (List.range 400).map fun (i : ℕ) => 400 + (i : ℝ)

/-- C89: the first `simulate` or `show` makes the scene that the calls before it describe: world, plate with the
components in the order they were added, air gap mirror if asked for, lights in their places. -/
theorem as_configured_partial (spot : δ) (size : Vec3 ℝ) (range : Option (List ℝ)) (n0 n1 : ℝ) (calls : List (Ask δ))
    (hcalls : Ask.build ∉ calls)
    (hok : (((Config.init size range n0 n1).after spot calls).ask spot .build).2 = .ok ()) :
    ∃ S, ((Config.init size range n0 n1).after spot (calls ++ [.build])).scene = some S ∧
      BuiltAs size n0 n1 (contents defaultRange calls) (lighting spot size calls) (WantsGap calls) S := by
  obtain ⟨h1, h2, h3, h4, h5, h6, h7, h8⟩ := tracks spot (Config.init size range n0 n1) calls hcalls
  rw [after_append]
  generalize (Config.init size range n0 n1).after spot calls = c at *
  simp only [Config.after, List.foldl_cons, List.foldl_nil]
  have hs : c.scene = none := h8
  simp only [Config.ask, hs] at hok ⊢
  have h5' : c.comps = (ingredients calls).map (·, false) := by simpa [Config.init] using h5
  have h6' : c.lights = lamps calls := by simpa [Config.init] using h6
  have h7' : c.gap = true ↔ WantsGap calls := by simpa [Config.init] using h7
  have key : ∃ e made, makeScene spot c = ({ c with
        comps := e, lights := lighting spot size calls,
        scene := some ⟨⟨"World", .box ⟨c.size.x * 100, c.size.y * 100, c.size.z * 100⟩ c.n0 [] .fresnel, atOrigin⟩,
          ⟨"LSC", .box c.size c.n1 made .cells, atOrigin⟩ :: (if c.gap then [gapNode c.size c.n0] else []) ++
            (lighting spot size calls).map lightNode⟩ }, .ok ()) ∧
      List.Forall₂ (fun i m => i.make = .ok m) (contents defaultRange calls) made := by
    have hr : ingredients calls = [] → c.range ≠ none := by
      intro hi hn
      rw [makeScene, h5', hi, hn] at hok
      simp at hok
    have hcont : (if ingredients calls = [] then defaultComponents (c.range.getD []) else ingredients calls) =
        contents defaultRange calls := by
      unfold contents
      split_ifs with hi
      · have := hr hi
        rw [h2] at this ⊢
        cases range with
        | none => rfl
        | some x => simp [Config.init] at this
      · rfl
    rw [makeScene_fresh spot c _ h5' hr, hcont] at hok
    rw [makeScene_fresh spot c _ h5' hr, hcont]
    split at hok
    · simp at hok
    · rename_i e made he
      refine ⟨e, made, ?_, makeComponents_ok _ _ _ he⟩
      simp only [lighting, h6', h1]
      rfl
  obtain ⟨e, made, hm, hall⟩ := key
  rw [hm]
  refine ⟨_, rfl, ⟨?_, origin_point⟩, _, _, _, made, rfl, hall.imp fun _ _ => made_as, ?_, origin_point, ?_, ?_, ?_⟩
  · rw [h1, h3]
    simp only [Config.init]
    congr 1
    ext <;> simp [mul_comm]
  · rw [h1, h4]
    rfl
  · intro hg
    rw [if_pos (h7'.2 hg), h1, h3]
    exact ⟨_, rfl, sheet_placed _ _⟩
  · intro hg
    rw [if_neg (fun h => hg (h7'.1 h))]
  · rw [List.forall₂_map_right_iff]
    exact List.forall₂_same.2 fun l _ => lamp_placed l

theorem defaultRange_ok : 2 ≤ defaultRange.length ∧ defaultRange.Pairwise (· < ·) := by
  constructor
  · simp [defaultRange]
  · unfold defaultRange
    rw [List.pairwise_map]
    exact List.pairwise_lt_range.imp fun h => by
      have : ((_ : ℕ) : ℝ) < (_ : ℕ) := Nat.cast_lt.2 h
      linarith

theorem zip_curve {x y : List ℝ} (hl : y.length = x.length) (h2 : 2 ≤ x.length) (hx : x.Pairwise (· < ·))
    (hy : ∀ v ∈ y, 0 < v) : Curve (x.zip y) := by
  obtain ⟨h1, h2, h3, _⟩ := Dyes.zip_usable hl h2 hx hy
  exact ⟨h1, h2, h3⟩

/-- C89: by default the plate contains a dye with the absorption of Lumogen F Red, whose largest coefficient is 10 per
unit of length, its emission with the peak at 600 nm, quantum yield 1, and a background absorption of 0.1. -/
theorem default_contents : ∃ dye em,
    contents defaultRange ([] : List (Ask δ)) =
      [.luminophore "Lumogen F Red 305" (.array dye) (.array em) (some 1) none, .absorber "Background" (.float 0.1)] ∧
    dye.map (·.1) = defaultRange ∧ (∃ r ∈ dye, r.2 = 10) ∧ (∀ r ∈ dye, 0 < r.2 ∧ r.2 ≤ 10) ∧
    em.map (·.1) = defaultRange ∧ (∀ r ∈ em, r.2 = 1 ↔ r.1 = 600) ∧ ∀ r ∈ em, 0 < r.2 ∧ r.2 ≤ 1 := by
  have hne : defaultRange ≠ [] := by intro h; have := defaultRange_ok.1; simp [h] at this
  have hA := (Dyes.absorption_normalised_partial hne).1
  obtain ⟨hl, hr, _⟩ := Dyes.lumogen_emission (x := defaultRange) rfl
  generalize defaultRange = x at *
  refine ⟨_, _, by simp only [contents, ingredients, List.filterMap_nil, if_true]; rfl, ?_, ?_, ?_, ?_, ?_, ?_⟩
  · exact List.map_fst_zip (by rw [List.length_map, hA.length])
  · have : (10 : ℝ) ∈ (Dyes.lumogenAbsorption x).map (· * 10) := List.mem_map.2 ⟨1, hA.peak, by norm_num⟩
    rw [← List.map_snd_zip (l₁ := x) (l₂ := (Dyes.lumogenAbsorption x).map (· * 10))
      (by rw [List.length_map, hA.length])] at this
    obtain ⟨r, hr, he⟩ := List.mem_map.1 this
    exact ⟨r, hr, he⟩
  · intro r hr
    obtain ⟨u, hu, he⟩ := List.mem_map.1 (List.of_mem_zip (a := r.1) (b := r.2) hr).2
    have := hA.range u hu
    rw [← he]
    constructor <;> linarith
  · exact List.map_fst_zip (by rw [hl])
  · intro r hr
    obtain ⟨i, hi, rfl⟩ := List.mem_iff_getElem.1 hr
    simp only [List.getElem_zip, Dyes.lumogenEmission, List.getElem_map]
    generalize x[i]'_ = w
    simp only [Dyes.gaussian, one_mul]
    rw [Real.exp_eq_one_iff, neg_eq_zero, sq_eq_zero_iff, div_eq_zero_iff]
    constructor
    · rintro (h | h) <;> norm_num at h <;> linarith
    · rintro rfl
      norm_num
  · intro r hr'
    exact hr _ (List.of_mem_zip (a := r.1) (b := r.2) hr').2

/-- The default dye and background can be made. -/
theorem default_made {x : List ℝ} (h2 : 2 ≤ x.length) (hx : x.Pairwise (· < ·)) (i : Ingredient)
    (hi : i ∈ defaultComponents x) : ∃ m, i.make = .ok m := by
  have hne : x ≠ [] := by intro h; simp [h] at h2
  simp only [defaultComponents, List.mem_cons, List.not_mem_nil, or_false] at hi
  rcases hi with rfl | rfl
  · refine (luminophore_made_partial _ _).2 ⟨?_, ⟨1, .given 1 (.inl rfl)⟩, ?_⟩
    · have hA := (Dyes.absorption_normalised_partial hne).1
      refine zip_curve (by simpa using hA.length) h2 hx ?_
      intro v hv
      obtain ⟨u, hu, rfl⟩ := List.mem_map.1 hv
      have := (hA.range u hu).1
      linarith
    · obtain ⟨hl, hr, _⟩ := Dyes.lumogen_emission (x := x) rfl
      exact zip_curve hl h2 hx fun v hv => (hr v hv).1
  · exact (absorber_made _ _ _ _ _ _).2 ⟨trivial, by simp⟩

theorem all_made {l : List Ingredient} {made : List Made} (h : List.Forall₂ (fun i m => i.make = .ok m) l made) :
    ∀ i ∈ l, ∃ m, i.make = .ok m := by
  induction h with
  | nil => simp
  | cons h _ ih =>
    intro i hi
    rcases List.mem_cons.1 hi with rfl | hi
    · exact ⟨_, h⟩
    · exact ih i hi

/-- C89: the scene can be made exactly when every component that was added can be made and, if none was added, no
`wavelength_range` was given. -/
theorem builds_iff (spot : δ) (size : Vec3 ℝ) (range : Option (List ℝ)) (n0 n1 : ℝ) (calls : List (Ask δ))
    (hcalls : Ask.build ∉ calls) :
    (((Config.init size range n0 n1).after spot calls).ask spot .build).2 = .ok () ↔
      (∀ i ∈ ingredients calls, ∃ m, i.make = .ok m) ∧ (ingredients calls = [] → range = none) := by
  obtain ⟨h1, h2, h3, h4, h5, h6, h7, h8⟩ := tracks spot (Config.init size range n0 n1) calls hcalls
  generalize (Config.init size range n0 n1).after spot calls = c at *
  have hs : c.scene = none := h8
  have h5' : c.comps = (ingredients calls).map (·, false) := by simpa [Config.init] using h5
  simp only [Config.ask, hs]
  by_cases hr : ingredients calls = [] ∧ c.range = none
  · constructor
    · intro h
      rw [makeScene, h5', hr.1, hr.2] at h
      simp at h
    · rintro ⟨_, h⟩
      have := h hr.1
      rw [this] at h2
      rw [h2] at hr
      simp [Config.init] at hr
  have hr' : ingredients calls = [] → c.range ≠ none := fun hi hn => hr ⟨hi, hn⟩
  rw [makeScene_fresh spot c _ h5' hr']
  constructor
  · intro h
    split at h
    · simp at h
    · rename_i e made he
      have hall := all_made (makeComponents_ok _ _ _ he)
      refine ⟨fun i hi => hall i ?_, fun hi => ?_⟩
      · rw [if_neg (by rintro h; simp [h] at hi)]
        exact hi
      · have := hr' hi
        rw [h2] at this
        cases range with
        | none => rfl
        | some x => simp [Config.init] at this
  · rintro ⟨hall, hrange⟩
    have : ∀ i ∈ (if ingredients calls = [] then defaultComponents (c.range.getD []) else ingredients calls),
        ∃ m, i.make = .ok m := by
      split_ifs with hi
      · rw [h2, hrange hi]
        exact default_made defaultRange_ok.1 defaultRange_ok.2
      · exact hall
    obtain ⟨e, made, he⟩ := makeComponents_of _ this
    rw [he]

theorem makeScene_keeps (spot : δ) (c : Config δ) :
    (makeScene spot c).1.cells = c.cells ∧ (makeScene spot c).1.mirror = c.mirror := by
  unfold makeScene
  split
  · exact ⟨rfl, rfl⟩
  · dsimp only
    split <;> exact ⟨rfl, rfl⟩

theorem build_keeps (spot : δ) (c : Config δ) :
    (c.ask spot .build).1.cells = c.cells ∧ (c.ask spot .build).1.mirror = c.mirror := by
  simp only [Config.ask]
  split
  · exact ⟨rfl, rfl⟩
  · exact makeScene_keeps spot c

theorem facetNamed_iff (s : String) (f : Facet) : facetNamed s = some f ↔ Named s f := by
  unfold facetNamed
  constructor
  · intro h
    split_ifs at h with h1 h2 h3 h4
    · subst h1; cases h; exact .left
    · subst h2; cases h; exact .near
    · subst h3; cases h; exact .far
    · subst h4; cases h; exact .right
  · intro h
    cases h <;> decide

/-- C89: solar cells are on exactly the facets asked for, by calls before or after the scene is made. -/
theorem cells_asked (spot : δ) (size : Vec3 ℝ) (range : Option (List ℝ)) (n0 n1 : ℝ) (calls : List (Ask δ))
    (f : Facet) : f ∈ ((Config.init size range n0 n1).after spot calls).cells ↔ CellAsked calls f := by
  induction calls using List.reverseRecOn with
  | nil => simp [Config.after, Config.init, CellAsked]
  | append_singleton calls k ih =>
    have other : (∀ l, k ≠ .addSolarCell (.names l)) → (CellAsked (calls ++ [k]) f ↔ CellAsked calls f) := by
      intro hk
      unfold CellAsked
      constructor
      · rintro ⟨l, hl, h⟩
        rcases List.mem_append.1 hl with hl | hl
        · exact ⟨l, hl, h⟩
        · exact (hk l (List.mem_singleton.1 hl).symm).elim
      · rintro ⟨l, hl, h⟩
        exact ⟨l, List.mem_append_left _ hl, h⟩
    rw [after_append]
    generalize (Config.init size range n0 n1).after spot calls = c at *
    simp only [Config.after, List.foldl_cons, List.foldl_nil]
    cases k with
    | build => rw [(build_keeps spot c).1, other (by simp), ih]
    | addSolarCell a =>
      cases a with
      | notCollection => rw [other (by simp)]; exact ih
      | names l =>
        have hall : (l.all fun s => (facetNamed s).isSome) = true ↔ ∀ s ∈ l, ∃ g, Named s g := by
          simp only [List.all_eq_true, Option.isSome_iff_exists, facetNamed_iff]
        have hsplit : CellAsked (calls ++ [.addSolarCell (.names l)]) f ↔
            CellAsked calls f ∨ ((∀ s ∈ l, ∃ g, Named s g) ∧ ∃ s ∈ l, Named s f) := by
          unfold CellAsked
          constructor
          · rintro ⟨l', hl, h⟩
            rcases List.mem_append.1 hl with hl | hl
            · exact .inl ⟨l', hl, h⟩
            · cases List.mem_singleton.1 hl
              exact .inr h
          · rintro (⟨l', hl, h⟩ | h)
            · exact ⟨l', List.mem_append_left _ hl, h⟩
            · exact ⟨l, by simp, h⟩
        rw [hsplit, ← hall]
        simp only [Config.ask]
        split_ifs with h
        · simp only [Finset.mem_union, List.mem_toFinset, List.mem_filterMap, facetNamed_iff, ih, h, true_and]
          exact or_comm
        · simp only [ih, h, Bool.false_eq_true, false_and, or_false]
    | _ => rw [other (by simp)]; exact ih

/-- C89: the back surface is a mirror if and only if that was asked for, before or after the scene is made. -/
theorem mirror_asked (spot : δ) (size : Vec3 ℝ) (range : Option (List ℝ)) (n0 n1 : ℝ) (calls : List (Ask δ)) :
    ((Config.init size range n0 n1).after spot calls).mirror = true ↔ Ask.addBackSurfaceMirror ∈ calls := by
  induction calls using List.reverseRecOn with
  | nil => simp [Config.after, Config.init]
  | append_singleton calls k ih =>
    rw [after_append]
    generalize (Config.init size range n0 n1).after spot calls = c at *
    simp only [Config.after, List.foldl_cons, List.foldl_nil]
    cases k with
    | build => rw [(build_keeps spot c).2]; simp [ih]
    | addSolarCell a =>
      cases a with
      | notCollection => simp [Config.ask, ih]
      | names l =>
        simp only [Config.ask]
        split_ifs <;> simp [ih]
    | _ => simp [Config.ask, ih]

/-- C89 is violated: once the scene is made nothing changes it. Lights and components added later are not in the
scene although `light_names` and `component_names` list them. -/
theorem late_ignored (spot : δ) (c : Config δ) (S : Stage δ) (h : c.scene = some S) (calls : List (Ask δ)) :
    (c.after spot calls).scene = some S ∧
    (c.after spot calls).lightNames = .ok (c.lights.map (·.name) ++ (lamps calls).map (·.name)) := by
  have key : (c.after spot calls).scene = some S ∧ (c.after spot calls).lights = c.lights ++ lamps calls := by
    induction calls using List.reverseRecOn with
    | nil => simp [Config.after, h, lamps]
    | append_singleton calls k ih =>
      obtain ⟨h1, h2⟩ := ih
      rw [after_append]
      generalize c.after spot calls = d at *
      simp only [Config.after, List.foldl_cons, List.foldl_nil]
      cases k with
      | build => simp [Config.ask, h1, h2, lamps]
      | addSolarCell a =>
        cases a with
        | notCollection => simp [Config.ask, h1, h2, lamps]
        | names l =>
          simp only [Config.ask]
          split_ifs <;> simp [h1, h2, lamps]
      | _ => simp [Config.ask, h1, h2, lamps]
  refine ⟨key.1, ?_⟩
  unfold Config.lightNames
  rw [key.1, key.2]
  simp

/-- C89 is violated: `add_scatterer` always fails. -/
theorem scatterer_fails (spot : δ) (c : Config δ) (name : String) (co : Arg) (ph : Option Phase) :
    c.ask spot (.addScatterer name co ph) = (c, .error .name) := rfl

/-- C89 is violated: a concentrator that was given a `wavelength_range` cannot be simulated with its default dye. -/
theorem range_breaks (spot : δ) (size : Vec3 ℝ) (x : List ℝ) (n0 n1 : ℝ) (calls : List (Ask δ))
    (hcalls : Ask.build ∉ calls) (hi : ingredients calls = []) :
    (((Config.init size (some x) n0 n1).after spot calls).ask spot .build).2 ≠ .ok () := by
  rw [ne_eq, builds_iff spot size (some x) n0 n1 calls hcalls]
  rintro ⟨_, h⟩
  exact absurd (h hi) (by simp)

theorem popped (l l' : List (Ingredient × Bool)) (e : Err) (h : makeComponents l = (l', .error (.component e))) :
    ∃ i rest, l' = (i, true) :: rest := by
  cases l with
  | nil => simp [makeComponents] at h
  | cons p l =>
    obtain ⟨i, b⟩ := p
    cases b with
    | true => simp [makeComponents] at h
    | false =>
      cases hm : i.make with
      | error e =>
        simp only [makeComponents, hm, Bool.false_eq_true, if_false, Prod.mk.injEq] at h
        exact ⟨_, _, h.1.symm⟩
      | ok m =>
        rcases hr : makeComponents l with ⟨rest, _ | ms⟩
        · simp only [makeComponents, hm, hr, Bool.false_eq_true, if_false, Prod.mk.injEq] at h
          exact ⟨_, _, h.1.symm⟩
        · simp [makeComponents, hm, hr] at h

/-- C89 is violated: after one component could not be made, no later call repairs the concentrator; every `simulate`
fails with a `KeyError`. -/
theorem failure_sticks (spot : δ) (c : Config δ) (hs : c.scene = none) (e : Err)
    (h : (c.ask spot .build).2 = .error (.component e)) (calls : List (Ask δ)) :
    (((c.ask spot .build).1.after spot calls).ask spot .build).2 = .error .key := by
  have start : (c.ask spot .build).1.scene = none ∧ ∃ i rest, (c.ask spot .build).1.comps = (i, true) :: rest := by
    simp only [Config.ask, hs] at h ⊢
    revert h
    unfold makeScene
    split
    · simp
    · dsimp only
      split
      · rename_i l' e' hm
        intro h
        simp only [Except.error.injEq] at h
        subst h
        exact ⟨hs, popped _ _ _ hm⟩
      · simp
  have inv : ((c.ask spot .build).1.after spot calls).scene = none ∧
      ∃ i rest, ((c.ask spot .build).1.after spot calls).comps = (i, true) :: rest := by
    generalize (c.ask spot .build).1 = d at *
    induction calls using List.reverseRecOn with
    | nil => exact start
    | append_singleton calls k ih =>
      obtain ⟨h1, i, rest, h2⟩ := ih
      rw [after_append]
      generalize d.after spot calls = d' at *
      simp only [Config.after, List.foldl_cons, List.foldl_nil]
      cases k with
      | build => simp [Config.ask, h1, makeScene, h2, makeComponents]
      | addSolarCell a =>
        cases a with
        | notCollection => simp [Config.ask, h1, h2]
        | names l =>
          simp only [Config.ask]
          split_ifs <;> simp [h1, h2]
      | _ => simp [Config.ask, h1, h2]
  obtain ⟨h1, i, rest, h2⟩ := inv
  generalize (c.ask spot .build).1.after spot calls = d at h1 h2 ⊢
  simp [Config.ask, h1, makeScene, h2, makeComponents]

/-- C89: the air gap mirror is below the plate, separated from it by an eighth of its thickness, and in the world. -/
theorem sheet_clear {size : Vec3 ℝ} {n0 : ℝ} {p : Piece δ} (h : SheetPlaced size n0 p) (hz : 0 < size.z) {v : Vec3 ℝ}
    (h3 : |v.z| ≤ size.z / 4 / 2) :
    (p.tf.pose.point v).x = v.x ∧ (p.tf.pose.point v).y = v.y ∧
    (p.tf.pose.point v).z ≤ -(size.z / 2) - size.z / 8 ∧ -(100 * size.z / 2) < (p.tf.pose.point v).z := by
  rw [h.place]
  obtain ⟨h4, h5⟩ := abs_le.1 h3
  refine ⟨by simp, by simp, ?_, ?_⟩ <;> simp <;> linarith

/-- C89: the default light is above the plate, in the world, and shines downwards. -/
theorem default_light (spot : δ) {size : Vec3 ℝ} (hz : 0 < size.z) {l : Lamp δ} (hl : l ∈ defaultLights spot size)
    {p : Piece δ} (h : LampPlaced l p) :
    size.z / 2 < (p.tf.pose.point 0).z ∧ (p.tf.pose.point 0).z < 100 * size.z / 2 ∧
    p.tf.pose.vec ⟨0, 0, 1⟩ = ⟨0, 0, -1⟩ := by
  simp only [defaultLights, List.mem_cons, List.not_mem_nil, or_false] at hl
  subst hl
  refine ⟨?_, ?_, ?_⟩
  · rw [h.location]
    simp only
    linarith
  · rw [h.location]
    simp only
    linarith
  · rw [h.turned _ _ rfl]
    simp [rotationMatrix, Affine.vec, Vec3.dot, Pose.unitVector_of_unit]

/-- Calls that set up a plate with an absorber, two lights, a cell and an air gap mirror. -/
def demoCalls : List (Ask ℕ) :=
  [.addAbsorber "Ink" (.float 2), .addLight { name := "a", location := ⟨0, 0, 3⟩ }, .addSolarCell (.names ["left"]),
   .addAirGapMirror false, .addLight { name := "b", location := ⟨1, 0, 3⟩, rotation := some (Real.pi, ⟨1, 0, 0⟩) }]

/-- Non-vacuity: the scene of `demoCalls` is made. -/
example : (((Config.init ⟨5, 5, 1⟩ none 1 1.5).after 0 demoCalls).ask 0 .build).2 = .ok () ∧
    WantsGap demoCalls ∧ (lamps demoCalls).length = 2 ∧ CellAsked demoCalls .left := by
  refine ⟨(builds_iff 0 _ _ _ _ _ (by simp [demoCalls])).2 ⟨?_, fun _ => rfl⟩, ?_, ?_, ?_⟩
  · intro i hi
    simp only [demoCalls, ingredients, List.filterMap_cons, List.filterMap_nil, List.mem_cons, List.not_mem_nil,
      or_false] at hi
    subst hi
    exact (absorber_made _ _ _ _ _ _).2 ⟨trivial, by simp⟩
  · exact ⟨false, by simp [demoCalls]⟩
  · simp [demoCalls, lamps]
  · exact ⟨["left"], by simp [demoCalls], by simpa using ⟨.left, Named.left⟩, "left", by simp, .left⟩

/-- Non-vacuity of `failure_sticks`: a luminophore without coefficient. -/
example : (((Config.init ⟨5, 5, 1⟩ none 1 1.5 : Config ℕ).after 0
    [.addLuminophore "x" .missing .missing (some 1) none]).ask 0 .build).2 = .error (.component .valueError) := by
  simp [Config.after, Config.ask, Config.init, makeScene, makeComponents, Ingredient.make, Component.luminophore,
    Component.scatterer, Component.absorption]

end
end PV.Lsc
