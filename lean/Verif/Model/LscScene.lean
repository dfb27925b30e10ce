import Verif.Model.Component
import Verif.Model.Dyes
import Verif.Model.Lsc
import Verif.Model.Transformable

/-!
Configuration of the luminescent solar concentrator and the scene made from it,
`/repo/pvtrace/device/lsc.py:95-299`. `δ` is the type of the callables of lights.
-/

namespace PV.Lsc
noncomputable section
open Classical PV.Component
variable {δ : Type}

/-- Exceptions: `AttributeError`, `NameError`, `KeyError`, `ValueError`, and those of the component
constructors. -/
inductive BErr
  | attribute | name | key | value | component (e : Err)
deriving DecidableEq

/-- An entry of `_user_components`; the class is given by the constructor. -/
inductive Ingredient
  | luminophore (name : String) (coefficient emission : Arg) (quantumYield : Option ℝ) (phase : Option Phase)
  | absorber (name : String) (coefficient : Arg)

/-- An entry of `_user_lights`. `isInt`: the location is a tuple of integers. -/
structure Lamp (δ : Type) where
  name : String
  location : Vec3 ℝ
  isInt : Bool := false
  rotation : Option (ℝ × Vec3 ℝ) := none
  direction : Option δ := none
  wavelength : Option δ := none
  position : Option δ := none

/-- Surface delegates of the boxes. -/
inductive Coat
  | fresnel | cells | airGap
deriving DecidableEq

/-- What a node holds. -/
inductive Holds (δ : Type)
  | box (size : Vec3 ℝ) (index : ℝ) (comps : List Made) (coat : Coat)
  | light (direction wavelength position : Option δ)

/-- A node. -/
structure Piece (δ : Type) where
  name : String
  holds : Holds δ
  tf : Tf

/-- The scene: the world and its children in order. -/
structure Stage (δ : Type) where
  world : Piece δ
  children : List (Piece δ)

/-- `LSC`, `/repo/pvtrace/device/lsc.py:95-113`. In `comps` the flag says that `cls` and
`coefficient` have been popped from the entry. `range = none` is a missing attribute. -/
structure Config (δ : Type) where
  size : Vec3 ℝ
  range : Option (List ℝ)
  n0 : ℝ
  n1 : ℝ
  cells : Finset Facet := ∅
  mirror : Bool := false
  gap : Bool := false
  lambertian : Bool := false
  lights : List (Lamp δ) := []
  comps : List (Ingredient × Bool) := []
  scene : Option (Stage δ) := none

/-- `LSC.__init__`, `/repo/pvtrace/device/lsc.py:95-113`: `wavelength_range` is kept only if it is
`None`. -/
def Config.init (size : Vec3 ℝ) (wavelengthRange : Option (List ℝ)) (n0 n1 : ℝ) : Config δ where
  size := size
  range := match wavelengthRange with
    | none => some ((List.range 400).map fun (i : ℕ) => 400 + (i : ℝ))
    | some _ => none
  n0 := n0
  n1 := n1

/-- `_make_default_components`, `/repo/pvtrace/device/lsc.py:115-133`. -/
def defaultComponents (x : List ℝ) : List Ingredient :=
  [.luminophore "Lumogen F Red 305" (.array (x.zip ((Dyes.lumogenAbsorption x).map (· * 10))))
    (.array (x.zip (Dyes.lumogenEmission x))) (some 1) none,
   .absorber "Background" (.float 0.1)]

/-- `_make_default_lights`, `/repo/pvtrace/device/lsc.py:135-146`; `spot` is
`functools.partial(cone, np.radians(20))`. -/
def defaultLights (spot : δ) (size : Vec3 ℝ) : List (Lamp δ) :=
  [{ name := "Light", location := ⟨0, 0, size.z * 5⟩, rotation := some (Real.pi, ⟨1, 0, 0⟩), direction := some spot }]

/-- `cls(coefficient, **component_data)`, `/repo/pvtrace/device/lsc.py:167`. -/
def Ingredient.make : Ingredient → Except Err Made
  | .luminophore name c e qy phase =>
    Component.luminophore { coefficient := c, quantumYield := qy, phase := phase, name := name } e
  | .absorber name c => Component.absorber c none none name false

/-- The loop over the components, `/repo/pvtrace/device/lsc.py:163-168`: the entries with their flags
after it, and the result. -/
def makeComponents : List (Ingredient × Bool) → List (Ingredient × Bool) × Except BErr (List Made)
  | [] => ([], .ok [])
  | (i, popped) :: rest =>
    if popped then ((i, popped) :: rest, .error .key)
    else
      match i.make with
      | .error e => ((i, true) :: rest, .error (.component e))
      | .ok m =>
        match makeComponents rest with
        | (rest, .error e) => ((i, true) :: rest, .error e)
        | (rest, .ok ms) => ((i, true) :: rest, .ok (m :: ms))

/-- A node at the origin of its parent. -/
def atOrigin : Tf := Tf.init none

/-- The air gap mirror, `/repo/pvtrace/device/lsc.py:184-199`. `translate` of a location made of floats
raises nothing. -/
def gapNode (size : Vec3 ℝ) (n0 : ℝ) : Piece δ :=
  let thickness := 0.25 * size.z
  ⟨"Air Gap Mirror", .box ⟨size.x, size.y, thickness⟩ n0 [] .airGap,
    match atOrigin.apply (.translate ⟨0, 0, -(0.5 * size.z + thickness)⟩ false) with
    | .ok t => t
    | .error _ => atOrigin⟩

/-- A light node, `/repo/pvtrace/device/lsc.py:206-217`. Neither change raises. -/
def lightNode (l : Lamp δ) : Piece δ :=
  let changes := .setLocation l.location l.isInt ::
    match l.rotation with
    | none => []
    | some (angle, axis) => [TfOp.rotate angle axis]
  ⟨l.name, .light l.direction l.wavelength l.position,
    match atOrigin.run changes with
    | .ok t => t
    | .error _ => atOrigin⟩

/-- `_make_scene`, `/repo/pvtrace/device/lsc.py:148-219`. -/
def makeScene (spot : δ) (c : Config δ) : Config δ × Except BErr Unit :=
  match c.comps, c.range with
  | [], none => (c, .error .attribute)
  | comps, range =>
    let comps := if comps.isEmpty then (defaultComponents (range.getD [])).map (·, false) else comps
    match makeComponents comps with
    | (comps, .error e) => ({ c with comps := comps }, .error e)
    | (comps, .ok made) =>
      let lights := if c.lights.isEmpty then defaultLights spot c.size else c.lights
      let world : Piece δ := ⟨"World",
        .box ⟨c.size.x * 100, c.size.y * 100, c.size.z * 100⟩ c.n0 [] .fresnel, atOrigin⟩
      let plate : Piece δ := ⟨"LSC", .box c.size c.n1 made .cells, atOrigin⟩
      let gap := if c.gap then [gapNode c.size c.n0] else []
      ({ c with comps := comps, lights := lights,
                scene := some ⟨world, plate :: gap ++ lights.map lightNode⟩ }, .ok ())

/-- The argument of `add_solar_cell`. -/
inductive FacetArg
  | notCollection
  | names (l : List String)

/-- The facets a solar cell may be on, `/repo/pvtrace/device/lsc.py:284`. -/
def facetNamed (s : String) : Option Facet :=
  if s = "left" then some .left
  else if s = "near" then some .near
  else if s = "far" then some .far
  else if s = "right" then some .right
  else none

/-- Calls of the methods of an `LSC` that change its configuration; `build` stands for `simulate` and
`show`, which make the scene if there is none (`/repo/pvtrace/device/lsc.py:324-325,339-340`). -/
inductive Ask (δ : Type)
  | addLuminophore (name : String) (coefficient emission : Arg) (quantumYield : Option ℝ) (phase : Option Phase)
  | addAbsorber (name : String) (coefficient : Arg)
  | addScatterer (name : String) (coefficient : Arg) (phase : Option Phase)
  | addLight (l : Lamp δ)
  | addSolarCell (facets : FacetArg)
  | addBackSurfaceMirror
  | addAirGapMirror (lambertian : Bool)
  | build

/-- One call. `add_scatterer` (`/repo/pvtrace/device/lsc.py:250-258`) names the class `Scatterer`, which
the module does not import. -/
def Config.ask (spot : δ) (c : Config δ) : Ask δ → Config δ × Except BErr Unit
  | .addLuminophore name co e qy ph => ({ c with comps := c.comps ++ [(.luminophore name co e qy ph, false)] }, .ok ())
  | .addAbsorber name co => ({ c with comps := c.comps ++ [(.absorber name co, false)] }, .ok ())
  | .addScatterer _ _ _ => (c, .error .name)
  | .addLight l => ({ c with lights := c.lights ++ [l] }, .ok ())
  | .addSolarCell .notCollection => (c, .error .value)
  | .addSolarCell (.names l) =>
    if l.all fun s => (facetNamed s).isSome then
      ({ c with cells := (l.filterMap facetNamed).toFinset ∪ c.cells }, .ok ())
    else (c, .error .value)
  | .addBackSurfaceMirror => ({ c with mirror := true }, .ok ())
  | .addAirGapMirror lambertian => ({ c with gap := true, lambertian := lambertian }, .ok ())
  | .build =>
    match c.scene with
    | some _ => (c, .ok ())
    | none => makeScene spot c

/-- A sequence of calls, each of which may fail; the caller carries on. -/
def Config.after (spot : δ) (c : Config δ) (calls : List (Ask δ)) : Config δ :=
  calls.foldl (fun c k => (c.ask spot k).1) c

/-- `component_names`, `/repo/pvtrace/device/lsc.py:221-224`. -/
def Config.componentNames (c : Config δ) : Except BErr (List String) :=
  match c.scene with
  | none => .error .value
  | some _ => .ok (c.comps.map fun e => match e.1 with
    | .luminophore name _ _ _ _ => name
    | .absorber name _ => name)

/-- `light_names`, `/repo/pvtrace/device/lsc.py:226-229`. -/
def Config.lightNames (c : Config δ) : Except BErr (List String) :=
  match c.scene with
  | none => .error .value
  | some _ => .ok (c.lights.map (·.name))

end
end PV.Lsc
