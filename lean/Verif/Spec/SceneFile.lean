import Verif.Model.SceneFile

/-!
What a scene file describes: readings of a loaded file, independent of the parser.
-/

namespace PV.Spec
open PV PV.Doc
variable {α : Type} [Field α]

/-- The value under a path of keys. -/
def under : List String → Yaml α → Option (Yaml α)
  | [], v => some v
  | k :: ks, .map d => (d.lookup k).bind (under ks)
  | _ :: _, _ => none

/-- A number, written with or without a decimal point. -/
def value? : Yaml α → Option α
  | .num q => some q
  | .int z => some z
  | _ => none

/-- A list of numbers. -/
def values? : Yaml α → Option (List α)
  | .seq l => l.mapM value?
  | _ => none

/-- The entries of a section of the file in their order. -/
def entries (section_ : String) (doc : Yaml α) : List (String × Yaml α) :=
  match under [section_] doc with
  | some (.map d) => d
  | _ => []

/-- The key a shape is written under. -/
def kindOf : ShapeDef α → String
  | .box _ => "box"
  | .cylinder _ _ => "cylinder"
  | .sphere _ => "sphere"
  | .mesh _ => "mesh"

/-- The shape a node entry describes. -/
inductive ShapeIs (e : Yaml α) : ShapeDef α → Prop
  | box {w : Yaml α} {x y z : α} : under ["box", "size"] e = some w → values? w = some [x, y, z] →
      ShapeIs e (.box ⟨x, y, z⟩)
  | cylinder {l r : α} : (under ["cylinder", "length"] e).bind value? = some l →
      (under ["cylinder", "radius"] e).bind value? = some r → ShapeIs e (.cylinder l r)
  | sphere {r : α} : (under ["sphere", "radius"] e).bind value? = some r → ShapeIs e (.sphere r)
  | mesh {f : String} : under ["mesh", "file"] e = some (.str f) → ShapeIs e (.mesh f)

/-- The material an entry describes: its refractive index and the named components in their order. -/
structure MaterialIs (declared : String → Option (CompDef α)) (e : Yaml α) (m : MatDef α) : Prop where
  index : (under ["refractive-index"] e).bind value? = some m.index
  components : (under ["components"] e = none ∧ m.comps = []) ∨
    ∃ names : List String, under ["components"] e = some (.seq (names.map .str)) ∧
      names.map declared = m.comps.map some

/-- An optional vector: absent, empty, zero or null is none. -/
def vector? (e : Yaml α) (key : String) : Option (Vec3 α) :=
  match (under [key] e).bind values? with
  | some [x, y, z] => some ⟨x, y, z⟩
  | _ => none

/-- The parent an entry describes: none for `world`, otherwise the node it names or `world`. -/
def parentOf (e : String × Yaml α) : Option String :=
  if e.1 = "world" then none
  else match under ["parent"] e.2 with
    | some (.str p) => some p
    | _ => some "world"

/-- The geometry of a node entry. -/
structure GeometryIs (declared : String → Option (CompDef α)) (e : Yaml α) (s : ShapeDef α)
    (m : MatDef α) : Prop where
  shape : ShapeIs e s
  material : ∃ w, under [kindOf s, "material"] e = some w ∧ MaterialIs declared w m

/-! ### Spectra and components -/

/-- The wavelengths `lo, lo + step, ...` below `hi + step`, all of them. -/
def Wavelengths [LinearOrder α] (lo hi step : α) (x : List α) : Prop :=
  ∀ i : ℕ, x[i]? = if lo + (i : α) * step < hi + step then some (lo + (i : α) * step) else none

/-- The spectrum an entry describes: the columns of a file, or the named curve at the wavelengths of
the range. -/
inductive SpectrumIs [LinearOrder α] (F : Files α) (emission : Bool) (e : Yaml α) : Columns α → Prop
  | file {f : String} {t : Columns α} : under ["file"] e = some (.str f) → F.csv f = .ok t →
      SpectrumIs F emission e t
  | named {n : String} {lo hi step : α} {x : List α} {curve : List α → List α} :
      under ["name"] e = some (.str n) →
      (if emission then F.emission n else F.absorption n) = some curve →
      (under ["range", "min"] e).bind value? = some lo → (under ["range", "max"] e).bind value? = some hi →
      (under ["range", "spacing"] e).bind value? = some step →
      step ≠ 0 → (0 < step → Wavelengths lo hi step x) → SpectrumIs F emission e ⟨false, x.zip (curve x)⟩

/-- `hist: true`. -/
def histogram [LinearOrder α] (e : Yaml α) : Bool := truth ((under ["hist"] e).getD .null)

/-- The table of a spectrum with the values `f y` in place of `y`. -/
def tableWith (rows : List (α × α)) (f : α → α) : Table α :=
  ⟨rows.length, fun i => (rows.getD i (0, 0)).1, fun i => f (rows.getD i (0, 0)).2⟩

/-- The largest value of a spectrum. -/
def Peak [LinearOrder α] (rows : List (α × α)) (m : α) : Prop :=
  (∃ r ∈ rows, r.2 = m) ∧ ∀ r ∈ rows, r.2 ≤ m

/-- The absorption an entry describes: a spectrum scaled to the coefficient (truncated if the file has
integers only), or a constant. A coefficient without decimal point and without spectrum describes
nothing. -/
inductive AbsorptionIs [LinearOrder α] [FloorRing α] (F : Files α) (e : Yaml α) (hist : Bool) :
    Option (Dist α) → Prop
  | scaled {q m : α} {sp : Yaml α} {t : Columns α} : (under ["coefficient"] e).bind value? = some q →
      q ≠ 0 → under ["spectrum"] e = some sp → SpectrumIs F false sp t → Peak t.rows m → m ≠ 0 →
      AbsorptionIs F e hist (some (.table (tableWith t.rows fun y =>
        if t.ints then ((truncZ (y / m * q) : ℤ) : α) else y / m * q) hist))
  | constant {q : α} : under ["coefficient"] e = some (.num q) → q ≠ 0 →
      AbsorptionIs F e hist (some (.const q))
  | lost {v : Yaml α} : under ["coefficient"] e = some v → (∀ q, v ≠ .num q) → AbsorptionIs F e hist none

/-- The entry names a choice. -/
def Names (key : String) (e : Yaml α) : Prop :=
  (under [key] e).isSome ∨ ∃ l, e = .seq l ∧ Yaml.str key ∈ l

/-- A number or a string with a number. -/
def float? (F : Files α) : Yaml α → Option α
  | .str s => F.float s
  | .bool b => some (if b then 1 else 0)
  | v => value? v

/-- The directions an entry describes. -/
inductive AimIs (F : Files α) (e : Yaml α) : Aiming α → Prop
  | isotropic : Names "isotropic" e → AimIs F e .isotropic
  | lambertian : Names "lambertian" e → AimIs F e .lambertian
  | cone {q : α} : (under ["cone", "half-angle"] e).bind (float? F) = some q → AimIs F e (.cone q)
  | henyeyGreenstein {g : α} : (under ["henyey-greenstein", "g"] e).bind (float? F) = some g →
      AimIs F e (.henyeyGreenstein g)

/-- An optional phase function, isotropic by default. -/
def PhaseIs (F : Files α) (e : Yaml α) (p : Aiming α) : Prop :=
  (under ["phase-function"] e = none ∧ p = .isotropic) ∨ ∃ v, under ["phase-function"] e = some v ∧ AimIs F v p

/-- An optional quantum yield, 1 by default. -/
def YieldIs (e : Yaml α) (q : α) : Prop :=
  (under ["quantum-yield"] e = none ∧ q = 1) ∨ (under ["quantum-yield"] e).bind value? = some q

/-- The component an entry describes. -/
inductive ComponentIs [LinearOrder α] [FloorRing α] (F : Files α) (e : String × Yaml α) :
    CompDef α → Prop
  | absorber {v : Yaml α} {dist : Option (Dist α)} : under ["absorber"] e.2 = some v →
      AbsorptionIs F v (histogram v) dist →
      ComponentIs F e ⟨e.1, .absorber, dist, false, none, 0, .isotropic⟩
  | scatterer {v : Yaml α} {dist : Option (Dist α)} {ch : Bool} {qy : α} {phase : Aiming α} :
      under ["scatterer"] e.2 = some v → AbsorptionIs F v (histogram v) dist →
      YieldIs v qy → PhaseIs F v phase → (ch → histogram v) →
      ComponentIs F e ⟨e.1, .scatterer, dist, ch, none, qy, phase⟩
  | luminophore {v va ve sp : Yaml α} {dist : Option (Dist α)} {ch : Bool} {t : Columns α} {qy : α}
      {phase : Aiming α} : under ["luminophore"] e.2 = some v → under ["absorption"] v = some va →
      under ["emission"] v = some ve → AbsorptionIs F va (histogram v) dist →
      under ["spectrum"] ve = some sp → SpectrumIs F true sp t →
      YieldIs ve qy → PhaseIs F ve phase → (ch → histogram v) →
      ComponentIs F e ⟨e.1, .luminophore, dist, ch,
        some (.table (tableWith t.rows id) (histogram v)), qy, phase⟩

/-! ### Lights and nodes -/

/-- The wavelengths an entry describes. -/
inductive ColourIs [LinearOrder α] (F : Files α) (e : Yaml α) : Colour α → Prop
  | nanometers {q : α} : (under ["nanometers"] e).bind (float? F) = some q → ColourIs F e (.constant q)
  | spectrum {sp : Yaml α} {t : Columns α} : under ["spectrum"] e = some sp → SpectrumIs F false sp t →
      ColourIs F e (.spectrum (.table (tableWith t.rows id) false))

/-- The positions an entry describes. -/
inductive SpotIs (e : Yaml α) : Spot α → Prop
  | rect {x y : α} : (under ["rect"] e).bind values? = some [x, y] → SpotIs e (.rect x y)
  | cube {x y z : α} : (under ["cube"] e).bind values? = some [x, y, z] → SpotIs e (.cube x y z)
  | circle {r : α} : (under ["circle"] e).bind value? = some r → SpotIs e (.circle r)

/-- The part of a mask under a key, unless it is null, empty or 0. -/
def part [LinearOrder α] (key : String) (e : Yaml α) : Option (Yaml α) :=
  (under ["mask", key] e).filter truth

/-- The light an entry describes: the mask decides, then `wavelength`, then the defaults (none). -/
structure LightIs [LinearOrder α] (F : Files α) (e : Yaml α) (l : LightDef α) : Prop where
  wavelength :
    (∃ v c, part "wavelength" e = some v ∧ ColourIs F v c ∧ l.wavelength = some c) ∨
    (part "wavelength" e = none ∧
      ((∃ q, (under ["wavelength"] e).bind value? = some q ∧ q ≠ 0 ∧ l.wavelength = some (.constant q)) ∨
       ((under ["wavelength"] e).bind value? = some 0 ∧ l.wavelength = some (.number 0)) ∨
       ((under ["wavelength"] e = none ∨ under ["wavelength"] e = some .null) ∧ l.wavelength = none)))
  position :
    (∃ v p, part "position" e = some v ∧ SpotIs v p ∧ l.position = some p) ∨
    (part "position" e = none ∧ l.position = none)
  direction :
    (∃ v p, part "direction" e = some v ∧ AimIs F v p ∧ l.direction = some p) ∨
    (part "direction" e = none ∧ l.direction = none)

/-- The node an entry describes. -/
structure NodeIs [LinearOrder α] (F : Files α) (declared : String → Option (CompDef α))
    (e : String × Yaml α) (n : NodeDef α) : Prop where
  name : n.name = e.1
  parent : n.parent = parentOf e
  location : n.location = vector? e.2 "location"
  direction : n.direction = vector? e.2 "direction"
  content : (∃ s m, n.content = .geometry s m ∧ GeometryIs declared e.2 s m) ∨
    ∃ l v, n.content = .light l ∧ under ["light"] e.2 = some v ∧ l.name = e.1 ∧ LightIs F v l

/-! ### Files that can be loaded -/

/-- A spectrum fit for use: at least two rows, ascending wavelengths, no negative value and not all
zero. -/
structure Usable [LinearOrder α] (rows : List (α × α)) : Prop where
  long : 2 ≤ rows.length
  ascending : (rows.map (·.1)).Pairwise (· < ·)
  nonneg : ∀ r ∈ rows, 0 ≤ r.2
  positive : ∃ r ∈ rows, 0 < r.2

/-- The entry describes a spectrum fit for use. -/
inductive SpectrumReady [LinearOrder α] (F : Files α) (emission : Bool) (e : Yaml α) : Prop
  | file {f : String} {t : Columns α} : under ["file"] e = some (.str f) → F.csv f = .ok t →
      Usable t.rows → SpectrumReady F emission e
  | named {n : String} {lo hi step : α} {x : List α} {curve : List α → List α} :
      under ["name"] e = some (.str n) →
      (if emission then F.emission n else F.absorption n) = some curve →
      (under ["range", "min"] e).bind value? = some lo → (under ["range", "max"] e).bind value? = some hi →
      (under ["range", "spacing"] e).bind value? = some step → 0 < step →
      Wavelengths lo hi step x → Usable (x.zip (curve x)) → SpectrumReady F emission e

/-- A coefficient other than 0. -/
def CoefficientReady (e : Yaml α) : Prop := ∃ q, (under ["coefficient"] e).bind value? = some q ∧ q ≠ 0

/-- A spectrum is there and fit for use. -/
def HasSpectrum [LinearOrder α] (F : Files α) (emission : Bool) (e : Yaml α) : Prop :=
  ∃ sp, under ["spectrum"] e = some sp ∧ SpectrumReady F emission sp

/-- Half angles written as strings are numbers. -/
def AimReady (F : Files α) (e : Yaml α) : Prop :=
  ∀ s, under ["cone", "half-angle"] e = some (.str s) → (F.float s).isSome

/-- The entry describes a component that can be built. The schema says nothing about the phase function
of a luminophore. -/
inductive ComponentReady [LinearOrder α] (F : Files α) (e : Yaml α) : Prop
  | absorber {v : Yaml α} : under ["absorber"] e = some v → CoefficientReady v →
      (under ["spectrum"] v = none ∨ HasSpectrum F false v) → ComponentReady F e
  | scatterer {v : Yaml α} : under ["scatterer"] e = some v → CoefficientReady v → HasSpectrum F false v →
      (∀ p, under ["phase-function"] v = some p → AimReady F p) → ComponentReady F e
  | luminophore {v va ve : Yaml α} : under ["luminophore"] e = some v → under ["absorption"] v = some va →
      under ["emission"] v = some ve → CoefficientReady va → HasSpectrum F false va → HasSpectrum F true ve →
      (∀ p, under ["phase-function"] ve = some p → Schema.directionMask p = true ∧ AimReady F p) →
      ComponentReady F e

/-- A vector is absent or has three numbers. -/
def VectorReady (e : Yaml α) (key : String) : Prop :=
  under [key] e = none ∨ ∃ x y z, (under [key] e).bind values? = some [x, y, z]

/-- The light can be built: the parts of the mask are mappings with lists of the right lengths. -/
structure LightReady [LinearOrder α] (F : Files α) (e : Yaml α) : Prop where
  wavelength : ∀ w, part "wavelength" e = some w → (∃ d, w = .map d) ∧
    ∀ sp, under ["spectrum"] w = some sp → SpectrumReady F false sp
  position : ∀ w, part "position" e = some w → (∃ d, w = .map d) ∧
    (∀ r, under ["rect"] w = some r → ∃ x y, values? r = some [x, y]) ∧
    ∀ r, under ["cube"] w = some r → ∃ x y z, values? r = some [x, y, z]
  direction : ∀ w, part "direction" e = some w → (∃ d, w = .map d) ∧ AimReady F w

/-- The node can be built. -/
structure NodeReady [LinearOrder α] (F : Files α) (components : List String) (e : Yaml α) : Prop where
  size : ∀ w, under ["box", "size"] e = some w → ∃ x y z, values? w = some [x, y, z]
  mesh : ∀ f, under ["mesh", "file"] e = some (.str f) → F.mesh f = .ok ()
  names : ∀ kind (l : List (Yaml α)), under [kind, "material", "components"] e = some (.seq l) →
    ∀ name, Yaml.str name ∈ l → name ∈ components
  light : ∀ w, under ["light"] e = some w → LightReady F w
  location : VectorReady e "location"
  direction : VectorReady e "direction"

/-- What rays can be binned by. -/
def binnable : List String := ["wavelength", "angle", "duration", "pathlength", "x", "y", "z"]

/-- A property of rays with a range and at least one bin. -/
def AxisReady [LinearOrder α] (prop : String) (v : Yaml α) : Prop :=
  prop ∈ binnable ∧ ∃ start stop bins, values? v = some [start, stop, bins] ∧ start < stop ∧ 1 ≤ bins

/-- A histogram of one property, or the position map of two. -/
def HistogramReady [LinearOrder α] (e : String × Yaml α) : Prop :=
  (e.1 ≠ "position" ∧ AxisReady e.1 e.2) ∨
  (e.1 = "position" ∧ ∃ a b ra rb, e.2 = .seq [.str a, .str b, ra, rb] ∧ AxisReady a ra ∧ AxisReady b rb)

/-- The recorder is on a node of the file and its histograms make sense. -/
structure RecorderReady [LinearOrder α] (nodes : List String) (v : Yaml α) : Prop where
  node : ∀ n, under ["node"] v = some (.str n) → n ∈ nodes
  histograms : ∀ d, under ["histograms"] v = some (.map d) → ∀ e ∈ d, HistogramReady e

/-- Everything that has to hold besides the schema. -/
structure FileReady [LinearOrder α] (F : Files α) (v : Yaml α) : Prop where
  version : under ["version"] v = some (.str "1.0")
  nodes : under ["nodes"] v ≠ none
  component : ∀ e ∈ entries "components" v, ComponentReady F e.2
  node : ∀ e ∈ entries "nodes" v, NodeReady F ((entries "components" v).map (·.1)) e.2
  tree : ∃ rank : String → ℕ, ∀ e ∈ entries "nodes" v, ∀ p, parentOf e = some p →
    p ∈ (entries "nodes" v).map (·.1) ∧ rank p < rank e.1
  recorder : ∀ e ∈ entries "recorders" v, RecorderReady ((entries "nodes" v).map (·.1)) e.2
  recorded : ∀ e ∈ entries "nodes" v, under ["record"] e.2 = some (.bool true) →
    ∀ x y z, (under ["box", "size"] e.2).bind values? = some [x, y, z] → 0 < x ∧ 0 < y ∧ 0 < z

end PV.Spec
