import Verif.Model.Schema
import Verif.Model.Dist
import Verif.Model.Tracer

/-!
Reading scene files, `parse` and `parse_v_1_0` of `/repo/pvtrace/cli/parse.py:72-466` (recorders are in
`Verif.Model.Document`).

Simplifications: files and the modules with named spectra are functions; a location of one number,
which NumPy would spread over three axes, is an error here; a mapping asked for with `in` is the only
container besides lists.
-/

namespace PV.Doc
variable {α : Type} [Field α] [LinearOrder α] [FloorRing α]

/-- An array of two columns. `ints` says that it has an integer type: `pandas` reads columns of
integers as such, and then assigning floats truncates them. Cells that are no numbers are not
modelled. -/
structure Columns (α : Type) where
  ints : Bool
  rows : List (α × α)

/-- The world outside: `pandas.read_csv` of columns 1 and 2 (`load_spectrum`,
`/repo/pvtrace/cli/parse.py:228-243`), the absorption and emission functions of the named spectra
(`/repo/pvtrace/cli/parse.py:55`, array to array), `trimesh.exchange.load.load` and `float(str)`. -/
structure Files (α : Type) where
  csv : String → Except DErr (Columns α)
  absorption : String → Option (List α → List α)
  emission : String → Option (List α → List α)
  mesh : String → Except DErr Unit
  float : String → Option α

/-- A direction delegate by its constructor; `np.radians` is applied to the half angle. -/
inductive Aiming (α : Type)
  | isotropic
  | lambertian
  | cone (halfAngleDegrees : α)
  | henyeyGreenstein (g : α)
deriving DecidableEq

/-- A position delegate. -/
inductive Spot (α : Type)
  | rect (x y : α)
  | cube (x y z : α)
  | circle (radius : α)
deriving DecidableEq

/-- The `wavelength` of a light: a delegate or, for `wavelength: 0`, a number that cannot be called. -/
inductive Colour (α : Type)
  | constant (nanometers : α)
  | spectrum (d : Dist α)
  | number (q : α)

/-- The arguments of `Light(...)`. -/
structure LightDef (α : Type) where
  wavelength : Option (Colour α)
  position : Option (Spot α)
  direction : Option (Aiming α)
  name : String

/-- A component. `dist = none` if the coefficient is no float, see
`/repo/pvtrace/material/component.py:107-120`. -/
structure CompDef (α : Type) where
  name : String
  kind : CompKind
  dist : Option (Dist α)
  /-- `hist` of a constant coefficient -/
  constHist : Bool := false
  emission : Option (Dist α) := none
  qy : α
  phase : Aiming α

/-- `Material(refractive_index, components=...)`. -/
structure MatDef (α : Type) where
  index : α
  comps : List (CompDef α)

/-- A shape. -/
inductive ShapeDef (α : Type)
  | box (size : Vec3 α)
  | cylinder (length radius : α)
  | sphere (radius : α)
  | mesh (file : String)

/-- What hangs on a node. -/
inductive Content (α : Type)
  | geometry (s : ShapeDef α) (m : MatDef α)
  | light (l : LightDef α)

/-- A node with its place in the tree. -/
structure NodeDef (α : Type) where
  name : String
  content : Content α
  parent : Option String
  location : Option (Vec3 α)
  direction : Option (Vec3 α)

/-- The result of `parse_v_1_0`: the nodes in the order of the file and the recorders. -/
structure SceneDef (α : Type) where
  nodes : List (NodeDef α)
  recorders : List (String × Recorder α)

/-- Exceptions of `Distribution`. -/
def ofErr : Err → DErr
  | .indexError => .index
  | _ => .value

/-- `key in v`. -/
def isIn (key : String) : Yaml α → Except DErr Bool
  | .map d => .ok (has d key)
  | .seq l => .ok (l.any fun v => match v with | .str s => s = key | _ => false)
  | .str _ => .ok false
  | _ => .error .type

/-- `v[key]`. -/
def item (key : String) (v : Yaml α) : Except DErr (Yaml α) :=
  match v.dict with
  | .error e => .error e
  | .ok d => dget d key

/-- `float(v)`. -/
def asFloat (F : Files α) : Yaml α → Except DErr α
  | .num q => .ok q
  | .int z => .ok z
  | .bool b => .ok (if b then 1 else 0)
  | .str s => match F.float s with
    | some q => .ok q
    | none => .error .value
  | _ => .error .type

/-- The arguments of a call `f(*v)`. -/
def args (v : Yaml α) : Except DErr (List α) :=
  match v.list with
  | .error e => .error e
  | .ok l => floats l

/-- `np.arange(start, stop, step)`. -/
def arange (start stop step : α) : Except DErr (List α) :=
  if step = 0 then .error .value
  else .ok ((List.range (⌈(stop - start) / step⌉).toNat).map fun (i : ℕ) => start + (i : α) * step)

/-- `load_named_spectrum`, `/repo/pvtrace/cli/parse.py:214-226`. -/
def namedSpectrum (F : Files α) (emission : Bool) (spec : List (String × Yaml α)) :
    Except DErr (Columns α) :=
  match dget spec "range" with
  | .error e => .error e
  | .ok r =>
    match item "min" r with
    | .error e => .error e
    | .ok lo =>
      match item "max" r with
      | .error e => .error e
      | .ok hi =>
        match item "spacing" r with
        | .error e => .error e
        | .ok sp =>
          match lo.number, hi.number, sp.number with
          | .ok lo, .ok hi, .ok sp =>
            match arange lo (hi + sp) sp with
            | .error e => .error e
            | .ok x =>
              match dget spec "name" with
              | .error e => .error e
              | .ok n =>
                match n.string with
                | .error e => .error e
                | .ok name =>
                  match if emission then F.emission name else F.absorption name with
                  | none => .error .key
                  | some f => .ok ⟨false, x.zip (f x)⟩
          | _, _, _ => .error .type

/-- `parse_spectrum`, `/repo/pvtrace/cli/parse.py:86-91`; `none` is `None`. -/
def parseSpectrum (F : Files α) (emission : Bool) (v : Yaml α) :
    Except DErr (Option (Columns α)) :=
  match v.dict with
  | .error e => .error e
  | .ok d =>
    match d.lookup "file" with
    | some f =>
      match f.string with
      | .error e => .error e
      | .ok f =>
        match F.csv f with
        | .error e => .error e
        | .ok t => .ok (some t)
    | none =>
      if has d "name" then
        match namedSpectrum F emission d with
        | .error e => .error e
        | .ok t => .ok (some t)
      else .ok none

/-- The columns of a table. -/
def tableOf (l : List (α × α)) : Table α :=
  ⟨l.length, fun i => (l.getD i (0, 0)).1, fun i => (l.getD i (0, 0)).2⟩

/-- `Distribution(x, y, hist)` of the columns. -/
def distOf (l : List (α × α)) (hist : Bool) : Except DErr (Dist α) :=
  match mkDist (tableOf l) hist with
  | .error e => .error (ofErr e)
  | .ok d => .ok d

/-- `numpy.max` of the second column. -/
def maxY : List (α × α) → Option α
  | [] => none
  | p :: ps => some (ps.foldl (fun m q => max m q.2) p.2)

/-- `spectrum[:, 1] / numpy.max(spectrum[:, 1]) * coefficient`, `/repo/pvtrace/cli/parse.py:260`.
An array of integers takes the values truncated. An empty column has no maximum: `ValueError`. With maximum 0 every value becomes `nan` or `-inf`,
which `Distribution` refuses: `ValueError`. -/
def scaleTo (c : α) (t : Columns α) : Except DErr (List (α × α)) :=
  match maxY t.rows with
  | none => .error .value
  | some m =>
    if m = 0 then .error .value
    else .ok (t.rows.map fun p =>
      (p.1, if t.ints then ((truncZ (p.2 / m * c) : ℤ) : α) else p.2 / m * c))

/-! ### Delegates -/

/-- `parse_direction_mask`, `/repo/pvtrace/cli/parse.py:152-175`. -/
def parseDirection (F : Files α) (v : Yaml α) : Except DErr (Aiming α) :=
  match isIn "isotropic" v with
  | .error e => .error e
  | .ok true => .ok .isotropic
  | .ok false =>
    match isIn "lambertian" v with
    | .error e => .error e
    | .ok true => .ok .lambertian
    | .ok false =>
      match isIn "cone" v with
      | .error e => .error e
      | .ok true =>
        match item "cone" v with
        | .error e => .error e
        | .ok c =>
          match item "half-angle" c with
          | .error e => .error e
          | .ok h =>
            match asFloat F h with
            | .error e => .error e
            | .ok q => .ok (.cone q)
      | .ok false =>
        match isIn "henyey-greenstein" v with
        | .error e => .error e
        | .ok true =>
          match item "henyey-greenstein" v with
          | .error e => .error e
          | .ok c =>
            match item "g" c with
            | .error e => .error e
            | .ok h =>
              match asFloat F h with
              | .error e => .error e
              | .ok q => .ok (.henyeyGreenstein q)
        | .ok false => .error .value

/-- `parse_position_mask`, `/repo/pvtrace/cli/parse.py:140-150`. -/
def parsePosition (v : Yaml α) : Except DErr (Spot α) :=
  match isIn "rect" v with
  | .error e => .error e
  | .ok true =>
    match item "rect" v with
    | .error e => .error e
    | .ok a =>
      match args a with
      | .error e => .error e
      | .ok [x, y] => .ok (.rect x y)
      | .ok _ => .error .type
  | .ok false =>
    match isIn "cube" v with
    | .error e => .error e
    | .ok true =>
      match item "cube" v with
      | .error e => .error e
      | .ok a =>
        match args a with
        | .error e => .error e
        | .ok [x, y, z] => .ok (.cube x y z)
        | .ok _ => .error .type
    | .ok false =>
      match isIn "circle" v with
      | .error e => .error e
      | .ok true =>
        match item "circle" v with
        | .error e => .error e
        | .ok a =>
          match a.number with
          | .error e => .error e
          | .ok r => .ok (.circle r)
      | .ok false => .error .value

/-- `parse_wavelength_mask`, `/repo/pvtrace/cli/parse.py:177-187`. `None[:, 0]` is a `TypeError`. -/
def parseWavelength (F : Files α) (v : Yaml α) : Except DErr (Colour α) :=
  match isIn "nanometers" v with
  | .error e => .error e
  | .ok true =>
    match item "nanometers" v with
    | .error e => .error e
    | .ok n =>
      match asFloat F n with
      | .error e => .error e
      | .ok q => .ok (.constant q)
  | .ok false =>
    match isIn "spectrum" v with
    | .error e => .error e
    | .ok true =>
      match item "spectrum" v with
      | .error e => .error e
      | .ok sp =>
        match parseSpectrum F false sp with
        | .error e => .error e
        | .ok none => .error .type
        | .ok (some t) =>
          match distOf t.rows false with
          | .error e => .error e
          | .ok d => .ok (.spectrum d)
    | .ok false => .error .value

/-- `mask.get(key, None)`, and the delegate if the value is true. -/
def maskPart {β : Type} (f : Yaml α → Except DErr β) (m : List (String × Yaml α)) (key : String) :
    Except DErr (Option β) :=
  match m.lookup key with
  | none => .ok none
  | some v =>
    if truth v then
      match f v with
      | .error e => .error e
      | .ok b => .ok (some b)
    else .ok none

/-- The default wavelength, `/repo/pvtrace/cli/parse.py:192-194`. -/
def defaultColour (d : List (String × Yaml α)) : Except DErr (Option (Colour α)) :=
  match d.lookup "wavelength" with
  | none | some .null => .ok none
  | some v =>
    match v.number with
    | .error e => .error e
    | .ok q => .ok (some (if truth v then .constant q else .number q))

/-- `parse_light`, `/repo/pvtrace/cli/parse.py:189-212`. -/
def parseLight (F : Files α) (name : String) (v : Yaml α) : Except DErr (LightDef α) :=
  match v.dict with
  | .error e => .error e
  | .ok d =>
    match defaultColour d with
    | .error e => .error e
    | .ok w =>
      match d.lookup "mask" with
      | none => .ok ⟨w, none, none, name⟩
      | some m =>
        if truth m then
          match m.dict with
          | .error e => .error e
          | .ok md =>
            match maskPart (parseWavelength F) md "wavelength" with
            | .error e => .error e
            | .ok w' =>
              match maskPart parsePosition md "position" with
              | .error e => .error e
              | .ok p =>
                match maskPart (parseDirection F) md "direction" with
                | .error e => .error e
                | .ok q => .ok ⟨match w' with | some c => some c | none => w, p, q, name⟩
        else .ok ⟨w, none, none, name⟩

/-! ### Components -/

/-- An optional mapping, empty by default. -/
def optDict (d : List (String × Yaml α)) (key : String) : Except DErr (List (String × Yaml α)) :=
  match d.lookup key with
  | none => .ok []
  | some v => v.dict


/-- `spec["hist"] if "hist" in spec else False`, used as a truth value. -/
def histOf (d : List (String × Yaml α)) : Bool := truth ((d.lookup "hist").getD (.bool false))

/-- The coefficient argument for a constant: only a float gives a distribution,
`/repo/pvtrace/material/component.py:107-120`. -/
def constOf : Yaml α → Option (Dist α)
  | .num q => some (.const q)
  | _ => none

/-- Which spectrum a component gets from `coefficient` and `spectrum`: the three branches shared by
`parse_absorber`, `parse_scatterer` and `parse_luminophore`,
`/repo/pvtrace/cli/parse.py:259-267,292-318,352-385`. The second branch takes the truth of an array,
which is a `ValueError`. -/
def absorptionOf (hist : Bool) (coefficient : Option (Yaml α)) (spectrum : Option (Columns α)) :
    Except DErr (Option (Dist α) × Bool) :=
  match coefficient, spectrum with
  | some c, some t =>
    if truth c then
      match c.number with
      | .error e => .error e
      | .ok q =>
        match scaleTo q t with
        | .error e => .error e
        | .ok t =>
          match distOf t hist with
          | .error e => .error e
          | .ok d => .ok (some d, false)
    else .error .value
  | none, some _ => .error .value
  | some c, none => if truth c then .ok (constOf c, hist) else .error .value
  | none, none => .error .value

/-- An optional absorption spectrum, `/repo/pvtrace/cli/parse.py:255-257`. -/
def optSpectrum (F : Files α) (d : List (String × Yaml α)) : Except DErr (Option (Columns α)) :=
  match d.lookup "spectrum" with
  | none => .ok none
  | some s => parseSpectrum F false s

/-- `parse_absorber`, `/repo/pvtrace/cli/parse.py:245-267`: a constant coefficient drops `hist`. -/
def parseAbsorber (F : Files α) (name : String) (v : Yaml α) : Except DErr (CompDef α) :=
  match v.dict with
  | .error e => .error e
  | .ok d =>
    match optSpectrum F d with
    | .error e => .error e
    | .ok sp =>
      match absorptionOf (histOf d) (d.lookup "coefficient") sp with
      | .error e => .error e
      | .ok (dist, _) => .ok { name := name, kind := .absorber, dist := dist, qy := 0, phase := .isotropic }

/-- An optional phase function. -/
def phaseOf (F : Files α) (d : List (String × Yaml α)) : Except DErr (Aiming α) :=
  match d.lookup "phase-function" with
  | none => .ok .isotropic
  | some v => parseDirection F v

/-- An optional quantum yield. -/
def yieldOf (d : List (String × Yaml α)) : Except DErr α :=
  match d.lookup "quantum-yield" with
  | none => .ok 1
  | some v => v.number

/-- `parse_scatterer`, `/repo/pvtrace/cli/parse.py:272-318`: `spec["spectrum"]` must be there. -/
def parseScatterer (F : Files α) (name : String) (v : Yaml α) : Except DErr (CompDef α) :=
  match v.dict with
  | .error e => .error e
  | .ok d =>
    match phaseOf F d with
    | .error e => .error e
    | .ok phase =>
      match yieldOf d with
      | .error e => .error e
      | .ok qy =>
        match dget d "spectrum" with
        | .error e => .error e
        | .ok s =>
          match parseSpectrum F false s with
          | .error e => .error e
          | .ok sp =>
            match absorptionOf (histOf d) (d.lookup "coefficient") sp with
            | .error e => .error e
            | .ok (dist, ch) => .ok
              { name := name, kind := .scatterer, dist := dist, constHist := ch, qy := qy, phase := phase }

/-- `parse_luminophore`, `/repo/pvtrace/cli/parse.py:320-385`. -/
def parseLuminophore (F : Files α) (name : String) (v : Yaml α) : Except DErr (CompDef α) :=
  match v.dict with
  | .error e => .error e
  | .ok d =>
    match item "absorption" v with
    | .error e => .error e
    | .ok a =>
      match a.dict with
      | .error e => .error e
      | .ok ad =>
        match optDict d "emission" with
        | .error e => .error e
        | .ok ed =>
          match phaseOf F ed with
          | .error e => .error e
          | .ok phase =>
            match yieldOf ed with
            | .error e => .error e
            | .ok qy =>
              match dget ad "spectrum" with
              | .error e => .error e
              | .ok s =>
                match parseSpectrum F false s with
                | .error e => .error e
                | .ok sp =>
                  match (if has d "emission" then dget ed "spectrum" else .error .key) with
                  | .error e => .error e
                  | .ok es =>
                    match parseSpectrum F true es with
                    | .error e => .error e
                    | .ok none => .error .value
                    | .ok (some et) =>
                      match absorptionOf (histOf d) (ad.lookup "coefficient") sp with
                      | .error e => .error e
                      | .ok (dist, ch) =>
                        match distOf et.rows (histOf d) with
                        | .error e => .error e
                        | .ok ems => .ok
                          { name := name, kind := .luminophore, dist := dist, constHist := ch,
                            emission := some ems, qy := qy, phase := phase }

/-- `parse_component`, `/repo/pvtrace/cli/parse.py:387-394`. -/
def parseComponent (F : Files α) (name : String) (v : Yaml α) : Except DErr (CompDef α) :=
  match v.dict with
  | .error e => .error e
  | .ok d =>
    match d.lookup "absorber" with
    | some a => parseAbsorber F name a
    | none =>
      match d.lookup "scatterer" with
      | some s => parseScatterer F name s
      | none =>
        match d.lookup "luminophore" with
        | some l => parseLuminophore F name l
        | none => .error .value

/-- The component map, `/repo/pvtrace/cli/parse.py:418-422`. -/
def parseComponents (F : Files α) : List (String × Yaml α) → Except DErr (List (String × CompDef α))
  | [] => .ok []
  | (k, v) :: rest =>
    match parseComponent F k v with
    | .error e => .error e
    | .ok c =>
      match parseComponents F rest with
      | .error e => .error e
      | .ok cs => .ok ((k, c) :: cs)

/-! ### Nodes -/

/-- `[component_map[k] for k in component_keys]` with the check before it,
`/repo/pvtrace/cli/parse.py:101-110`. -/
def pickComponents (comps : List (String × CompDef α)) : List (Yaml α) → Except DErr (List (CompDef α))
  | [] => .ok []
  | k :: ks =>
    match k with
    | .str s =>
      match comps.lookup s with
      | none => .error .value
      | some c =>
        match pickComponents comps ks with
        | .error e => .error e
        | .ok cs => .ok (c :: cs)
    | _ => .error .value

/-- The names in `components`, none by default, `/repo/pvtrace/cli/parse.py:101-103`. -/
def componentKeys (d : List (String × Yaml α)) : Except DErr (List (Yaml α)) :=
  match d.lookup "components" with
  | none => .ok []
  | some l => l.list

/-- `parse_material`, `/repo/pvtrace/cli/parse.py:93-112`. -/
def parseMaterial (comps : List (String × CompDef α)) (v : Yaml α) : Except DErr (MatDef α) :=
  match v.dict with
  | .error e => .error e
  | .ok d =>
    match componentKeys d with
    | .error e => .error e
    | .ok keys =>
      match pickComponents comps keys with
      | .error e => .error e
      | .ok cs =>
        match dget d "refractive-index" with
        | .error e => .error e
        | .ok n =>
          match n.number with
          | .error e => .error e
          | .ok n => .ok ⟨n, cs⟩

/-- Three numbers; `trimesh.creation.box` wants three extents. -/
def triple (v : Yaml α) : Except DErr (Vec3 α) :=
  match args v with
  | .error e => .error e
  | .ok [x, y, z] => .ok ⟨x, y, z⟩
  | .ok _ => .error .value

/-- `parse_box`, `parse_cylinder`, `parse_sphere` and `parse_mesh`,
`/repo/pvtrace/cli/parse.py:114-138`: the shape. -/
def parseShape (F : Files α) (kind : String) (d : List (String × Yaml α)) : Except DErr (ShapeDef α) :=
  if kind = "box" then
    match dget d "size" with
    | .error e => .error e
    | .ok s =>
      match triple s with
      | .error e => .error e
      | .ok v => .ok (.box v)
  else if kind = "cylinder" then
    match dget d "length", dget d "radius" with
    | .ok l, .ok r =>
      match l.number, r.number with
      | .ok l, .ok r => .ok (.cylinder l r)
      | _, _ => .error .type
    | _, _ => .error .key
  else if kind = "sphere" then
    match dget d "radius" with
    | .error e => .error e
    | .ok r =>
      match r.number with
      | .error e => .error e
      | .ok r => .ok (.sphere r)
  else
    match dget d "file" with
    | .error e => .error e
    | .ok f =>
      match f.string with
      | .error e => .error e
      | .ok f =>
        match F.mesh f with
        | .error e => .error e
        | .ok _ => .ok (.mesh f)

/-- The geometry of a node. -/
def parseGeometry (F : Files α) (comps : List (String × CompDef α)) (kind : String) (v : Yaml α) :
    Except DErr (Content α) :=
  match v.dict with
  | .error e => .error e
  | .ok d =>
    match parseShape F kind d with
    | .error e => .error e
    | .ok s =>
      match dget d "material" with
      | .error e => .error e
      | .ok m =>
        match parseMaterial comps m with
        | .error e => .error e
        | .ok m => .ok (.geometry s m)

/-- `parse_node`, `/repo/pvtrace/cli/parse.py:396-416`. -/
def parseContent (F : Files α) (comps : List (String × CompDef α)) (name : String)
    (d : List (String × Yaml α)) : Except DErr (Content α) :=
  match ["box", "cylinder", "sphere", "mesh"].find? (has d) with
  | some kind =>
    match dget d kind with
    | .error e => .error e
    | .ok v => parseGeometry F comps kind v
  | none =>
    match d.lookup "light" with
    | some l =>
      match parseLight F name l with
      | .error e => .error e
      | .ok l => .ok (.light l)
    | none => .error .value

/-- The loop over node entries, `/repo/pvtrace/cli/parse.py:427-438`. -/
def parseNodes (F : Files α) (comps : List (String × CompDef α)) :
    List (String × Yaml α) → Except DErr (List (String × List (String × Yaml α) × Content α))
  | [] => .ok []
  | (k, v) :: rest =>
    match v.dict with
    | .error e => .error e
    | .ok d =>
      match parseContent F comps k d with
      | .error e => .error e
      | .ok c =>
        match parseNodes F comps rest with
        | .error e => .error e
        | .ok ns => .ok ((k, d, c) :: ns)

/-- `coordsys.get("parent", None)` and the node it names, `/repo/pvtrace/cli/parse.py:444-449`. -/
def parentOf (names : List String) (name : String) (d : List (String × Yaml α)) :
    Except DErr (Option String) :=
  if name = "world" then .ok none
  else
    match d.lookup "parent" with
    | none | some .null => if "world" ∈ names then .ok (some "world") else .error .key
    | some p =>
      match p.string with
      | .error e => .error e
      | .ok p => if p ∈ names then .ok (some p) else .error .key

/-- The way from a node to the root by the parents set so far: `iter_path_reverse` of anytree, at most
`fuel` steps. -/
def climb (parents : List (String × String)) : ℕ → String → List String
  | 0, n => [n]
  | fuel + 1, n =>
    match parents.lookup n with
    | none => [n]
    | some p => n :: climb parents fuel p

/-- `node.parent = parent` of anytree: a parent that is the node itself or below it is refused with
`LoopError`. `parents` are the parents set so far, and the result those after this one; there can be
no more steps to the root than parents set (`PV.SceneFile.climb_full`). -/
def attach (parents : List (String × String)) (k : String) :
    Option String → Except DErr (List (String × String))
  | none => .ok parents
  | some p => if k ∈ climb parents parents.length p then .error .loop else .ok ((k, p) :: parents)

/-- `if x:` for an optional list of numbers, then use as three numbers. -/
def optTriple (d : List (String × Yaml α)) (key : String) : Except DErr (Option (Vec3 α)) :=
  match d.lookup key with
  | none => .ok none
  | some v =>
    if truth v then
      match triple v with
      | .error e => .error e
      | .ok v => .ok (some v)
    else .ok none

/-- The loop assigning parents and transformations, `/repo/pvtrace/cli/parse.py:440-457`. anytree
refuses a parent below the node itself. `parents` are those assigned so far. -/
def placeNodes (names : List String) : List (String × String) →
    List (String × List (String × Yaml α) × Content α) → Except DErr (List (NodeDef α))
  | _, [] => .ok []
  | parents, (k, d, c) :: rest =>
    match parentOf names k d with
    | .error e => .error e
    | .ok p =>
      match attach parents k p with
      | .error e => .error e
      | .ok parents =>
        match optTriple d "location" with
        | .error e => .error e
        | .ok loc =>
          match optTriple d "direction" with
          | .error e => .error e
          | .ok dir =>
            match placeNodes names parents rest with
            | .error e => .error e
            | .ok ns => .ok (⟨k, c, p, loc, dir⟩ :: ns)

/-- `parse_v_1_0`, `/repo/pvtrace/cli/parse.py:418-466`. -/
def parseScene (F : Files α) (doc : List (String × Yaml α)) : Except DErr (SceneDef α) :=
  match optDict doc "components" with
  | .error e => .error e
  | .ok cs =>
    match parseComponents F cs with
    | .error e => .error e
    | .ok comps =>
      match dget doc "nodes" with
      | .error e => .error e
      | .ok v =>
        match v.dict with
        | .error e => .error e
        | .ok nodes =>
          match parseNodes F comps nodes with
          | .error e => .error e
          | .ok parsed =>
            match placeNodes (nodes.map (·.1)) [] parsed with
            | .error e => .error e
            | .ok placed =>
              match sceneRecorders doc with
              | .error e => .error e
              | .ok recs =>
                if "world" ∈ nodes.map (·.1) then .ok ⟨placed, recs⟩ else .error .key

/-- The children of a node in the order they were attached. -/
def SceneDef.children (s : SceneDef α) (name : String) : List String :=
  (s.nodes.filter fun n => n.parent = some name).map (·.name)

/-- `PreOrderIter(root)`, at most `fuel` levels. -/
def SceneDef.preorder (s : SceneDef α) : ℕ → String → List String
  | 0, _ => []
  | fuel + 1, n => n :: (s.children n).flatMap (s.preorder fuel)

/-- The names of the nodes of `Scene(nodes["world"])`, as the engine and the renderer visit them; no
node is deeper than there are nodes (`PV.SceneFile.scene_nodes`). -/
def SceneDef.visited (s : SceneDef α) : List String := s.preorder s.nodes.length "world"

/-- `parse`, `/repo/pvtrace/cli/parse.py:72-80`, of the loaded file. -/
def parseFile (F : Files α) (v : Yaml α) : Except DErr (SceneDef α) :=
  if ¬ Schema.document v then .error .invalid
  else
    match v.dict with
    | .error e => .error e
    | .ok doc =>
      match dget doc "version" with
      | .error e => .error e
      | .ok (.str "1.0") => parseScene F doc
      | .ok _ => .error .value

end PV.Doc
