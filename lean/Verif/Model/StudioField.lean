import Verif.Model.Studio
import Verif.Model.SceneFile

/-!
The wavelength field of a light in the inspector of the studio page.
-/

namespace PV.Studio
open PV PV.Doc
variable {α : Type} [Field α] [LinearOrder α] [FloorRing α]

/-- What the field shows, `/repo/pvtrace/studio/static/app.js:744`: `lightSpec.wavelength ?? 555`. Simplification: not rounded to six
places. -/
def shownWavelength (light : List (String × Yaml α)) : Yaml α :=
  match light.lookup "wavelength" with
  | none => .num 555
  | some .null => .num 555
  | some v => v

/-- The number a field commits, `/repo/pvtrace/studio/static/app.js:571-572`: `parseFloat(i.value) || 0`; `none` is text that is no
number, such as an empty field. -/
def committed (typed : Option α) : α := typed.getD 0

/-- What committing the field does to the document, `/repo/pvtrace/studio/static/app.js:744-745` and
`/repo/pvtrace/studio/server.py:336-343`. Simplification: a whole number arrives as a float too; the reader treats both alike. -/
def commitWavelength (name : String) (typed : Option α) (doc : Yaml α) : Except DErr (Yaml α) :=
  setPath (.num (committed typed)) ["nodes", name, "light", "wavelength"] doc

/-- `doc[key]` as a dictionary, if it is one. -/
def dictAt (doc : List (String × Yaml α)) (key : String) : Option (List (String × Yaml α)) :=
  match doc.lookup key with
  | some (.map d) => some d
  | _ => none

/-- `spec.nodes[name].light`, `/repo/pvtrace/studio/static/app.js:742-743`. -/
def lightAt (doc : List (String × Yaml α)) (name : String) : Option (List (String × Yaml α)) :=
  ((dictAt doc "nodes").bind (dictAt · name)).bind (dictAt · "light")

/-- `lightSpec.mask?.direction?.cone`, `/repo/pvtrace/studio/static/app.js:746`. -/
def coneAt (light : List (String × Yaml α)) : Option (List (String × Yaml α)) :=
  ((dictAt light "mask").bind (dictAt · "direction")).bind (dictAt · "cone")

/-- The number in the cone field, if there is a cone field: `typeof cone["half-angle"] === "number"`,
`/repo/pvtrace/studio/static/app.js:747-748`. -/
def shownCone (light : List (String × Yaml α)) : Option α :=
  match (coneAt light).bind (·.lookup "half-angle") with
  | some (.num q) => some q
  | some (.int z) => some z
  | _ => none

/-- What committing the cone field does to the document, `/repo/pvtrace/studio/static/app.js:748-751`. -/
def commitCone (name : String) (typed : Option α) (doc : Yaml α) : Except DErr (Yaml α) :=
  setPath (.num (committed typed)) ["nodes", name, "light", "mask", "direction", "cone", "half-angle"] doc

end PV.Studio
