import Verif.Model.StudioLive
import Mathlib.Analysis.SpecialFunctions.Log.Base
import Mathlib.Analysis.SpecialFunctions.Trigonometric.Basic

/-!
The plots of the studio page, `/repo/pvtrace/studio/static/app.js`. Colours are left out: a picture is
the map from its points to the histogram entries painted there. Canvases and textures are continuous
here: smoothing between neighbouring canvas pixels by the graphics library is not modelled.
-/

namespace PV.Plot
noncomputable section

/-! ### Heat maps -/

/-- `image.data[pixel]` after the loops of `drawHeatmapInto`,
`/repo/pvtrace/studio/static/app.js:1038-1051`: which entry of `values` each pixel of the `na` by `nb`
image is painted with. Later writes win. -/
def heatImage (na nb : ℕ) : ℕ → Option ℕ :=
  (List.range na).foldl (fun image ia =>
    (List.range nb).foldl (fun image ib =>
      fun pixel => if pixel = (nb - 1 - ib) * na + ia then some (ia * nb + ib) else image pixel) image)
    fun _ => none

/-- `ctx.drawImage(off, 0, 0, width, height)` without smoothing,
`/repo/pvtrace/studio/static/app.js:1052-1056`: the entry of `values` seen at the fractions `fx` from the
left and `fy` from the top of the canvas. -/
def heatCanvas (na nb : ℕ) (fx fy : ℝ) : Option ℕ :=
  heatImage na nb (⌊fy * nb⌋₊ * na + ⌊fx * na⌋₊)

/-- `inspectBin` on a heat map, `/repo/pvtrace/studio/static/app.js:1092-1100`: the bin of each axis that
is named, for a click at these fractions of the canvas. The count shown is entry `ia * nb + ib`. -/
def inspectHeat (na nb : ℕ) (fx fyTop : ℝ) : ℕ × ℕ :=
  let fy := 1 - fyTop
  (min (na - 1) ⌊fx * na⌋₊, min (nb - 1) ⌊fy * nb⌋₊)

/-- `heatmapT`, `/repo/pvtrace/studio/static/app.js:1032-1036`. -/
def heatT (heatmapMax decades value : ℝ) : ℝ :=
  if value ≤ 0 then 0 else min 1 (max 0 (1 + Real.logb 10 (value / heatmapMax) / decades))

/-- `refreshHeatmaps`, `/repo/pvtrace/studio/static/app.js:1059-1068`: the largest entry of all heat
maps, at least 1. -/
def globalMax (entries : List (List ℕ × Option (ℕ × ℕ))) : ℕ :=
  entries.foldl (fun m e => if e.2.isNone then m else e.1.foldl (fun m v => if m < v then v else m) m) 1

/-- `AXIS_INDEX`, `/repo/pvtrace/studio/static/app.js:154`. -/
def axisIndex : RayProp → Option (Fin 3)
  | .x => some 0
  | .y => some 1
  | .z => some 2
  | _ => none

/-- A face overlay: the axis and side of its face, and the axes along `u` and `v`. -/
structure Overlay where
  axis : Fin 3
  sign : ℝ
  u : Fin 3
  v : Fin 3

/-- `[0, 1, 2].filter((i) => i !== axis)`. -/
def otherAxes (axis : Fin 3) : Fin 3 × Fin 3 :=
  if axis = 0 then (1, 2) else if axis = 1 then (0, 2) else (0, 1)

/-- `buildRecorderOverlay` for a recorder of a box, `/repo/pvtrace/studio/static/app.js:156-181`; `heat`
are the properties of its first heat map. -/
def overlay (facet : Option (Vec3 ℝ)) (heat : Option (RayProp × RayProp)) : Option Overlay :=
  match facet with
  | none => none
  | some f =>
    match [0, 1, 2].find? fun i : Fin 3 => decide (|f.get i| > 0.5) with
    | none => none
    | some axis =>
      let uv :=
        match heat with
        | none => otherAxes axis
        | some (a, b) =>
          match axisIndex a, axisIndex b with
          | some u, some v => if u = axis ∨ v = axis then otherAxes axis else (u, v)
          | _, _ => otherAxes axis
      some ⟨axis, SignType.sign (f.get axis), uv.1, uv.2⟩

/-- The vertices of the overlay with their texture coordinates,
`/repo/pvtrace/studio/static/app.js:188-197`: the node's own coordinates of the point of the quad with texture
coordinates `u` and `v`, along the two axes. -/
def quadPoint (size : ℝ) (t : ℝ) : ℝ := (2 * t - 1) * (size / 2)

/-- The entry of `values` painted at texture coordinates `u`, `v`: textures have `v = 0` at the bottom of
the canvas (`THREE.CanvasTexture`, `flipY`). -/
def textured (na nb : ℕ) (u v : ℝ) : Option ℕ := heatCanvas na nb u (1 - v)

/-! ### Bars -/

/-- Left end and width of bar `i`, and its height, `/repo/pvtrace/studio/static/app.js:973-988`. -/
def barLeft (W : ℝ) (n i : ℕ) : ℝ := 2 + i * ((W - 2 * 2) / n)
def barWidth (W : ℝ) (n : ℕ) : ℝ := max 1 ((W - 2 * 2) / n - 1)
def barHeight (H : ℝ) (values : List ℕ) (v : ℕ) : ℝ :=
  (v : ℝ) / ((values.foldl max 1 : ℕ) : ℝ) * (H - 2 * 2)

/-- `inspectBin` on a histogram, `/repo/pvtrace/studio/static/app.js:1101-1105`. -/
def inspectBar (n : ℕ) (fx : ℝ) : ℕ := min (n - 1) ⌊fx * n⌋₊

/-! ### Polar plots -/

/-- `density`, `/repo/pvtrace/studio/static/app.js:1004-1007`; `mid` is the middle of the bin. -/
def density (value mid : ℝ) : ℝ := value / max (Real.sin mid) 0.05

/-- The radius of the curve in bin `i`, `/repo/pvtrace/studio/static/app.js:1008-1018`. -/
def radius (R : ℝ) (densities : List ℝ) (d : ℝ) : ℝ := d / densities.foldl max 1e-9 * R

end
end PV.Plot
