import Verif.Model.Document

/-!
The schema of scene files, `/repo/pvtrace/cli/pvtrace-schema-scene-spec.json`, as
`jsonschema.validate` applies it (draft 7).

Two slips of the file are kept: `minItems` and `maxItems` written inside `items` apply to the numbers,
not to the array, and so do nothing; `"additionalProperties": false` written inside `properties`
forbids a property of that name and leaves other names free.

Simplification: a name matched by the pattern may not end in a line break.
-/

namespace PV.Schema
open PV PV.Doc
variable {α : Type} [Field α] [LinearOrder α]

/-- A check of one value. -/
abbrev Check (α : Type) := Yaml α → Bool

/-- `{"type": "number"}`; booleans are no numbers. -/
def number : Check α
  | .num _ | .int _ => true
  | _ => false

/-- `{"type": "number", "minimum": m}`. -/
def atLeast (m : α) : Check α
  | .num q => decide (m ≤ q)
  | .int z => decide (m ≤ z)
  | _ => false

/-- `{"type": "number", "minimum": m, "maximum": M}`. -/
def between (m M : α) : Check α
  | .num q => decide (m ≤ q ∧ q ≤ M)
  | .int z => decide (m ≤ z ∧ z ≤ M)
  | _ => false

/-- `{"type": "string"}`. -/
def string : Check α
  | .str _ => true
  | _ => false

/-- `{"type": "boolean"}`. -/
def boolean : Check α
  | .bool _ => true
  | _ => false

/-- `{"type": "null"}`. -/
def null : Check α
  | .null => true
  | _ => false

/-- `{"enum": [...]}` of strings. -/
def enum (l : List String) : Check α
  | .str s => l.contains s
  | _ => false

/-- `{"type": "array", "items": p}` with bounds on the length. -/
def array (p : Check α) (lo : ℕ) (hi : Option ℕ) : Check α
  | .seq l => l.all p && decide (lo ≤ l.length) && (match hi with | none => true | some h => decide (l.length ≤ h))
  | _ => false

/-- Exactly one of the checks. -/
def oneOf (ps : List (Check α)) : Check α := fun v => decide ((ps.filter (· v)).length = 1)

/-- `{"required": [...]}`. -/
def required (ks : List String) : Check α
  | .map d => ks.all (has d)
  | _ => true

/-- `{"type": "object", "properties": ..., "required": ..., "additionalProperties": ...}`. -/
def object (props : List (String × Check α)) (req : List String) (closed : Bool) : Check α
  | .map d => req.all (has d) &&
      d.all fun e => match props.lookup e.1 with
        | some p => p e.2
        | none => !closed
  | _ => false

/-- `{"type": "object", "patternProperties": {"^[a-zA-Z0-9._-]+$": p}, "additionalProperties": false}`. -/
def named (p : Check α) (req : List String) : Check α
  | .map d => req.all (has d) && d.all fun e =>
      !e.1.toList.isEmpty && e.1.toList.all (fun c => c.isAlphanum || c = '.' || c = '_' || c = '-') && p e.2
  | _ => false

/-- Both checks. -/
def both (p q : Check α) : Check α := fun v => p v && q v

/-- `point-like`, `/repo/pvtrace/cli/pvtrace-schema-scene-spec.json:439-447`. -/
def pointLike : Check α := array number 0 none

/-- `spectrum`, `/repo/pvtrace/cli/pvtrace-schema-scene-spec.json:614-660`. -/
def spectrum : Check α := both
  (object [("file", string), ("name", string),
    ("range", object [("min", number), ("max", number), ("spacing", number)] ["min", "max", "spacing"] true)]
    [] true)
  (oneOf [required ["file"], required ["name", "range"]])

/-- `direction-mask`, `/repo/pvtrace/cli/pvtrace-schema-scene-spec.json:345-413`. -/
def directionMask : Check α := both
  (object [("isotropic", null), ("lambertian", null),
    ("henyey-greenstein", object [("g", between (-1) 1)] ["g"] true),
    ("cone", object [("half-angle", oneOf [number, string])] ["half-angle"] true),
    ("additionalProperties", fun _ => false)] [] true)
  (oneOf [required ["isotropic"], required ["lambertian"], required ["cone"],
    required ["henyey-greenstein"]])

/-- `position-mask`, `/repo/pvtrace/cli/pvtrace-schema-scene-spec.json:302-344`. -/
def positionMask : Check α := both
  (object [("rect", array number 0 none), ("cube", array number 0 none), ("circle", number)] [] true)
  (oneOf [required ["rect"], required ["cube"], required ["circle"]])

/-- `wavelength-mask`, `/repo/pvtrace/cli/pvtrace-schema-scene-spec.json:414-438`. -/
def wavelengthMask : Check α := both
  (object [("nanometers", number), ("spectrum", spectrum)] [] true)
  (oneOf [required ["nanometers"], required ["spectrum"]])

/-- `mask`, `/repo/pvtrace/cli/pvtrace-schema-scene-spec.json:266-301`. -/
def mask : Check α := object
  [("position", oneOf [pointLike, positionMask]), ("direction", oneOf [pointLike, directionMask]),
    ("wavelength", oneOf [number, wavelengthMask])] [] false

/-- `material`, `/repo/pvtrace/cli/pvtrace-schema-scene-spec.json:448-466`. -/
def material : Check α := object
  [("refractive-index", atLeast 1), ("components", array string 0 none)] ["refractive-index"] false

/-- `node` with its shapes and light, `/repo/pvtrace/cli/pvtrace-schema-scene-spec.json:108-265`. -/
def node : Check α := both
  (object [("parent", oneOf [string, null]),
    ("box", object [("size", pointLike), ("material", material)] ["size", "material"] false),
    ("cylinder", object [("length", atLeast 0), ("radius", atLeast 0), ("material", material)]
      ["length", "radius", "material"] false),
    ("sphere", object [("radius", atLeast 0), ("material", material)] ["radius", "material"] false),
    ("mesh", object [("file", string), ("material", material)] ["file", "material"] false),
    ("light", object [("wavelength", number), ("mask", mask)] [] false),
    ("location", array number 0 none), ("direction", array number 0 none), ("record", boolean)] [] true)
  (oneOf [required ["box"], required ["cylinder"], required ["sphere"], required ["mesh"],
    required ["light"]])

/-- `absorber`, `/repo/pvtrace/cli/pvtrace-schema-scene-spec.json:580-613`. -/
def absorber : Check α := both
  (object [("coefficient", atLeast 0), ("hist", boolean), ("spectrum", spectrum)] [] true)
  (fun v => required ["coefficient"] v || required ["spectrum"] v)

/-- `scatterer`, `/repo/pvtrace/cli/pvtrace-schema-scene-spec.json:538-579`. -/
def scatterer : Check α := both
  (object [("coefficient", atLeast 0), ("hist", boolean), ("spectrum", spectrum),
    ("quantum-yield", between 0 1), ("phase-function", directionMask)] [] true)
  (fun v => required ["coefficient"] v || required ["spectrum"] v)

/-- `luminophore`, `/repo/pvtrace/cli/pvtrace-schema-scene-spec.json:505-537`. -/
def luminophore : Check α := object
  [("hist", boolean),
    ("absorption", object [("coefficient", atLeast 0), ("spectrum", spectrum)] [] false),
    ("emission", object [("quantum-yield", between 0 1), ("spectrum", spectrum)] [] false)] [] false

/-- `component`, `/repo/pvtrace/cli/pvtrace-schema-scene-spec.json:467-504`. -/
def component : Check α := both
  (object [("luminophore", luminophore), ("scatterer", scatterer), ("absorber", absorber),
    ("builtin", string)] [] true)
  (oneOf [required ["luminophore"], required ["scatterer"], required ["absorber"]])

/-- `recorder`, `/repo/pvtrace/cli/pvtrace-schema-scene-spec.json:63-107`. -/
def recorder : Check α := object
  [("node", string),
    ("event", enum ["entering", "escaping", "reflected", "lost", "reacted", "killed", "exit"]),
    ("facet", array number 3 (some 3)), ("atol", number),
    ("histograms", fun v => match v with
      | .map d => d.all fun e => array (fun _ => true) 0 none e.2
      | _ => false)] ["node", "event"] true

/-- The whole file, `/repo/pvtrace/cli/pvtrace-schema-scene-spec.json:1-61`. A component called `builtin` would have to be a boolean too. -/
def document : Check α := object
  [("version", string), ("nodes", named node ["world"]),
    ("components", both (named component []) (fun v => !(match v with | .map d => has d "builtin" | _ => false))),
    ("recorders", named recorder []), ("additionalProperties", fun _ => false)] [] false

end PV.Schema
