import Verif.Model.StudioLive

/-!
The ray paths the studio page draws.
-/

namespace PV.Live

/-- `pathGroup` and `pathCount`, `/repo/pvtrace/studio/static/app.js:928`. A line is kept as the path it was made from: its vertices are
the points, its vertex colours those of the wavelengths. Simplification: numbers are not rounded to 32 bits. -/
structure Canvas (α : Type) where
  lines : List (Path α)
  count : ℕ

/-- `addPaths`, `/repo/pvtrace/studio/static/app.js:931-951`. -/
def Canvas.add (C : Canvas α) : List (Path α) → Canvas α
  | [] => C
  | p :: ps =>
    if 400 ≤ C.count then C
    else if p.points.length < 2 then C.add ps
    else Canvas.add ⟨C.lines ++ [p], C.count + 1⟩ ps

/-- `clearPaths`, `/repo/pvtrace/studio/static/app.js:953-956`. -/
def Canvas.clear (_ : Canvas α) : Canvas α := ⟨[], 0⟩

/-- What the messages of a run do to the paths: `started`, then the bundles,
`/repo/pvtrace/studio/static/app.js:1271-1288`. `done` leaves them. -/
def Canvas.show (C : Canvas α) (ms : List (Message α)) : Canvas α := ms.foldl (fun C m => C.add m.paths) C.clear

end PV.Live
