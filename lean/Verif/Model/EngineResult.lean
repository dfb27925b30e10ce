import Verif.Model.Kernel

/-!
Reading the event log back: `EngineResult`, `/repo/pvtrace/engine/api.py:81-194`.
-/

namespace PV
variable {α ν κ : Type}

/-- Event codes of the kernel, `/repo/pvtrace/engine/_kernel.pyx:36-45`. -/
def kernelCode : Event → ℕ
  | .generate => 0
  | .reflect => 1
  | .transmit => 2
  | .absorb => 3
  | .nonradiative => 4
  | .scatter => 5
  | .emit => 6
  | .exit => 7
  | .react => 8
  | .kill => 9

/-- `Event(code)`, `/repo/pvtrace/light/event.py:4-16`; `none` is `ValueError`. -/
def eventOfCode : ℕ → Option Event
  | 0 => some .generate
  | 1 => some .reflect
  | 2 => some .transmit
  | 3 => some .absorb
  | 4 => some .nonradiative
  | 5 => some .scatter
  | 6 => some .emit
  | 7 => some .exit
  | 8 => some .react
  | 9 => some .kill
  | _ => none

/-- `compiled.node_names` and `compiled.component_names`. -/
structure KNames (ν κ : Type) where
  node : ν → String
  component : κ → String

/-- Initial content of the log arrays, `/repo/pvtrace/engine/_kernel.pyx:1023-1035`. -/
def blankRow [Zero α] : Row α ν κ :=
  ⟨.generate, none, none, none, none, ⟨⟨0, 0, 0⟩, ⟨0, 0, 0⟩, 0, 0, 0, none⟩, none⟩

/-- One tuple of `histories()`, `/repo/pvtrace/engine/api.py:169-193`, with `source` the entry of
`sources` for the ray. `none` is the `ValueError` of `Event(...)`. -/
def readRow [Zero α] (N : KNames ν κ) (source : Option String) (row : Row α ν κ) :
    Option (Step α) :=
  (eventOfCode (kernelCode row.kind)).map fun event =>
    { ray :=
        { position := row.ray.position
          direction := row.ray.direction
          wavelength := row.ray.wavelength
          travelled := row.ray.travelled
          duration := row.ray.duration
          source :=
            match row.ray.source with
            | none => source
            | some c => some (N.component c) }
      event := event
      info :=
        { hit := row.hit.map N.node
          container := row.container.map N.node
          adjacent := row.adjacent.map N.node
          component := row.component.map N.component
          normal :=
            if event = .reflect ∨ event = .transmit then some (row.normal.getD ⟨0, 0, 0⟩)
            else none } }

/-- `recorded_indices`, `/repo/pvtrace/engine/api.py:111-116`: `arange(0, num_rays, record_every)`
has `ceil(num_rays / record_every)` entries. -/
def recordedIndices (recordEvery numRays : ℕ) : List ℕ :=
  if recordEvery ≤ 0 then []
  else (List.range ((numRays + recordEvery - 1) / recordEvery)).map (· * recordEvery)

/-- `histories()`, `/repo/pvtrace/engine/api.py:161-194`: history `j` for each recorded ray, from
the arrays after the loop. `sources` has one entry per ray. Indexing `sources` or the indices out of
range would raise `IndexError`, a `none` here. -/
def historyAt [Zero α] (N : KNames ν κ) (mem : Mem α (Row α ν κ)) (recordEvery maxEvents : ℕ)
    (sources : List (Option String)) (j : ℕ) : Option (List (Step α)) :=
  match (recordedIndices recordEvery sources.length)[j]? with
  | none => none
  | some i =>
    match sources[i]? with
    | none => none
    | some source =>
      ((List.range (mem.counts j)).map fun k => (mem.log (j * maxEvents + k)).getD blankRow).mapM
        (readRow N source)

def histories [Zero α] (N : KNames ν κ) (mem : Mem α (Row α ν κ)) (recordEvery maxEvents : ℕ)
    (sources : List (Option String)) : Option (List (List (Step α))) :=
  (List.range (nRecorded recordEvery sources.length)).mapM
    (historyAt N mem recordEvery maxEvents sources)

end PV
