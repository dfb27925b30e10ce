import Verif.Model.StudioLive

/-!
What the live view of the studio should show.
-/

namespace PV.Spec
open PV PV.Live
variable {α ν κ : Type}

/-- The shape sent with a heat map. -/
def shapeOf : Hist α → Option (ℕ × ℕ)
  | .heat a b => some (a.bins, b.bins)
  | .one _ => none

/-- The axes of a histogram. -/
def axesOf : Hist α → List (Axis α)
  | .heat a b => [a, b]
  | .one a => [a]

/-- The numbers `s` sent for recorder `rec` are those of its result `st`: rays, crossings, mean
wavelength and angle, and each histogram with all its bins. -/
structure Shows [Field α] (rec : Recorder α) (st : TallyState α) (s : Shown α) : Prop where
  rays : s.rays = st.rays
  crossings : s.crossings = st.crossings
  wavelength : 0 < st.rays → s.meanWavelength = (st.moments 0).1 / st.rays
  angle : 0 < st.rays → s.meanAngle = (st.moments 1).1 / st.rays
  length : s.hists.length = rec.hists.length ∧ st.bins.length = rec.hists.length
  hist : ∀ (h : ℕ) (x : Hist α) (b : ℕ → ℕ), rec.hists[h]? = some x → st.bins[h]? = some b →
    s.hists[h]? = some ((List.range x.size).map b, shapeOf x)

/-- The description sent for a recorder: event, node, and for each histogram its properties and the
edges of its bins. -/
structure Labels [Field α] (nodeName : ν → String) (p : ν × Recorder α) (d : String × RecMeta α) : Prop where
  name : d.1 = p.2.name
  event : d.2.event = p.2.event
  node : d.2.node = nodeName p.1
  hists : d.2.hists.map (fun h => h.axes) =
    p.2.hists.map fun h => (axesOf h).map fun a => (a.prop, (List.range (a.bins + 1)).map a.edge)

/-- The path drawn for logged rows: the positions to six decimals and the wavelengths to two. -/
def PathOf [Field α] [LinearOrder α] (rows : List (Row α ν κ)) (p : Path α) : Prop :=
  List.Forall₂ (fun r q => |q.x - r.ray.position.x| ≤ 1 / (2 * 10 ^ 6) ∧
    |q.y - r.ray.position.y| ≤ 1 / (2 * 10 ^ 6) ∧ |q.z - r.ray.position.z| ≤ 1 / (2 * 10 ^ 6)) rows p.points ∧
  List.Forall₂ (fun r w => |w - r.ray.wavelength| ≤ 1 / (2 * 10 ^ 2)) rows p.wavelengths

end PV.Spec
