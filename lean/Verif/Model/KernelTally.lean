import Verif.Model.Recorder

/-!
Recorders in the engine: the flat tables built by `_compile_recorders`
(`/repo/pvtrace/engine/compiler.py:135-204`), `tally` (`/repo/pvtrace/engine/_kernel.pyx:501-556`)
and `EngineResult.recorders` (`/repo/pvtrace/engine/api.py:114-134`).
-/

namespace PV
variable {α ν : Type}

/-- A row of `h_rows`, `/repo/pvtrace/engine/compiler.py:178-191`; `propB = none` is `-1`. -/
structure HRow (α : Type) where
  propA : RayProp
  propB : Option RayProp
  na : ℕ
  nb : ℕ
  loA : α
  hiA : α
  loB : α
  hiB : α
  offset : ℕ
deriving DecidableEq, Repr

/-- Entry `r` of the columns `rec_node`, `rec_event`, `rec_has_facet`/`rec_facet`, `rec_atol`,
`rec_hist_start` and `rec_hist_n`. -/
structure RecRow (α ν : Type) where
  node : ν
  event : Selector
  facet : Option (Vec3 α)
  atol : α
  histStart : ℕ
  histN : ℕ
deriving DecidableEq, Repr

/-- The recorder tables of a `CompiledScene`. -/
structure RecTables (α ν : Type) where
  recs : List (RecRow α ν)
  hists : List (HRow α)
  totalBins : ℕ
deriving DecidableEq, Repr

/-- `VOLUME_EVENTS`, `/repo/pvtrace/engine/compiler.py:23`. -/
def Selector.isVolume : Selector → Bool
  | .lost | .reacted | .killed => true
  | _ => false

/-- One histogram row, `/repo/pvtrace/engine/compiler.py:178-191`. -/
def compileHist [Zero α] [One α] (offset : ℕ) : Hist α → HRow α
  | .heat a b => ⟨a.prop, some b.prop, a.bins, b.bins, a.start, a.stop, b.start, b.stop, offset⟩
  | .one a => ⟨a.prop, none, a.bins, 1, a.start, a.stop, 0, 1, offset⟩

/-- The loop over the histograms of one recorder with the running `offset`,
`/repo/pvtrace/engine/compiler.py:177-191`. -/
def compileHists [Zero α] [One α] : ℕ → List (Hist α) → List (HRow α) × ℕ
  | offset, [] => ([], offset)
  | offset, h :: hs =>
    let r := compileHists (offset + h.size) hs
    (compileHist offset h :: r.1, r.2)

/-- The loop over the recorders, `/repo/pvtrace/engine/compiler.py:169-192`; `start` is
`len(h_rows)`. -/
def compileRecs [Zero α] [One α] : ℕ → ℕ → List (ν × Recorder α) →
    List (RecRow α ν) × List (HRow α) × ℕ
  | _, offset, [] => ([], [], offset)
  | start, offset, (node, r) :: ps =>
    let hs := compileHists offset r.hists
    let rest := compileRecs (start + r.hists.length) hs.2 ps
    (⟨node, r.event, r.facet, r.atol, start, r.hists.length⟩ :: rest.1, hs.1 ++ rest.2.1, rest.2.2)

/-- `_compile_recorders`, `/repo/pvtrace/engine/compiler.py:135-204`; `none` is
`UnsupportedSceneError`. `recs` lists the recorders of the geometry nodes in order. -/
def compileRecorders [Zero α] [One α] (recs : List (ν × Recorder α)) : Option (RecTables α ν) :=
  if recs.any (fun p => p.2.event.isVolume && p.2.facet.isSome) then none
  else if recs.length > 256 then none
  else if ¬ (recs.map (·.2.name)).Nodup then none
  else
    let t := compileRecs 0 0 recs
    some ⟨t.1, t.2.1, t.2.2⟩

/-- One write to memory shared between rays: a row of the event log, an entry of `counts`, or an
increment of an accumulator of the executing thread. `ρ` are log rows. -/
inductive Effect (α ρ : Type)
  | write (index : ℕ) (row : ρ)
  | count (index : ℕ) (nevents : ℕ)
  | distinct (r : ℕ)
  | cross (r : ℕ)
  | sum (index : ℕ) (value : α)
  | bin (index : ℕ)
deriving DecidableEq, Repr

/-- Arguments of a call of `tally`, `/repo/pvtrace/engine/_kernel.pyx:501-505`;
`normal = none` is `NULL`. -/
structure TallyCall (α ν : Type) where
  sel : Selector
  node : ν
  normal : Option (Vec3 α)
  values : Values α

section
variable [Field α] [LinearOrder α] [FloorRing α] [DecidableEq ν]

/-- Bin of one axis, `/repo/pvtrace/engine/_kernel.pyx:542-544`. -/
def kBin (v lo hi : α) (n : ℕ) : Option ℕ :=
  let i := truncZ ((v - lo) / (hi - lo) * (n : α))
  if i < 0 ∨ i ≥ (n : ℤ) then none else some i.toNat

/-- The bin incremented for histogram row `h`, `/repo/pvtrace/engine/_kernel.pyx:540-554`. -/
def kHistBin (h : HRow α) (v : Values α) : Option ℕ :=
  match kBin (v.get h.propA) h.loA h.hiA h.na with
  | none => none
  | some ia =>
    match h.propB with
    | none => some (h.offset + ia)
    | some pb =>
      match kBin (v.get pb) h.loB h.hiB h.nb with
      | none => none
      | some ib => some (h.offset + ia * h.nb + ib)

/-- Whether recorder `r` counts the call, `/repo/pvtrace/engine/_kernel.pyx:517-527`. -/
def kCounts (c : TallyCall α ν) (r : RecRow α ν) : Bool :=
  if r.node ≠ c.node ∨ r.event ≠ c.sel then false
  else
    match r.facet with
    | none => true
    | some f =>
      match c.normal with
      | none => false
      | some n =>
        if |f.x - n.x| > r.atol then false
        else if |f.y - n.y| > r.atol then false
        else if |f.z - n.z| > r.atol then false
        else true

variable {ρ : Type}

/-- The eight `sums[r * 8 + k] += ...`, `/repo/pvtrace/engine/_kernel.pyx:532-539`. -/
def kSums (r : ℕ) (v : Values α) : List (Effect α ρ) :=
  [.sum (r * 8 + 0) v.wavelength, .sum (r * 8 + 1) (v.wavelength * v.wavelength),
   .sum (r * 8 + 2) v.angle, .sum (r * 8 + 3) (v.angle * v.angle),
   .sum (r * 8 + 4) v.duration, .sum (r * 8 + 5) (v.duration * v.duration),
   .sum (r * 8 + 6) v.pathlength, .sum (r * 8 + 7) (v.pathlength * v.pathlength)]

/-- The loop over histograms, `/repo/pvtrace/engine/_kernel.pyx:540-554`. -/
def kBins (T : RecTables α ν) (r : RecRow α ν) (v : Values α) : List (Effect α ρ) :=
  (List.range' r.histStart r.histN).filterMap fun h =>
    match T.hists[h]? with
    | none => none
    | some row => (kHistBin row v).map .bin

/-- One pass of the loop of `tally`, `/repo/pvtrace/engine/_kernel.pyx:516-554`: writes and the new
value of `seen`. -/
def kTallyOne (T : RecTables α ν) (c : TallyCall α ν) (r : RecRow α ν) (i : ℕ) (seen : ℕ → Bool) :
    List (Effect α ρ) × (ℕ → Bool) :=
  if kCounts c r then
    if seen i then ([.cross i], seen)
    else (.cross i :: .distinct i :: (kSums i c.values ++ kBins T r c.values),
      fun j => if j = i then true else seen j)
  else ([], seen)

/-- The loop of `tally` from recorder `i` on. -/
def kTallyFrom (T : RecTables α ν) (c : TallyCall α ν) : List (RecRow α ν) → ℕ → (ℕ → Bool) →
    List (Effect α ρ) × (ℕ → Bool)
  | [], _, seen => ([], seen)
  | r :: rs, i, seen =>
    let o := kTallyOne T c r i seen
    let p := kTallyFrom T c rs (i + 1) o.2
    (o.1 ++ p.1, p.2)

/-- `tally`, `/repo/pvtrace/engine/_kernel.pyx:501-556`. -/
def kTally (T : RecTables α ν) (c : TallyCall α ν) (seen : ℕ → Bool) :
    List (Effect α ρ) × (ℕ → Bool) :=
  kTallyFrom T c T.recs 0 seen

end

/-- The accumulators of one thread. -/
structure Acc (α : Type) where
  distinct : ℕ → ℕ
  cross : ℕ → ℕ
  sums : ℕ → α
  bins : ℕ → ℕ

/-- `np.zeros(...)`, `/repo/pvtrace/engine/_kernel.pyx:1011-1014`. -/
def Acc.zero [Zero α] : Acc α := ⟨fun _ => 0, fun _ => 0, fun _ => 0, fun _ => 0⟩

/-- Effect of one write on the accumulators of the thread that executes it. -/
def Acc.apply [Add α] {ρ : Type} (a : Acc α) : Effect α ρ → Acc α
  | .write _ _ | .count _ _ => a
  | .distinct r => { a with distinct := incr a.distinct r }
  | .cross r => { a with cross := incr a.cross r }
  | .sum i v => { a with sums := fun k => if k = i then a.sums k + v else a.sums k }
  | .bin i => { a with bins := incr a.bins i }

/-- `EngineResult.recorders`, `/repo/pvtrace/engine/api.py:114-134`: the result of recorder `r`, from
the merged accumulators. `rec_sums` is reshaped to `(n, 4, 2)`; a slice of `rec_bins` is 0 beyond its
end here, as arrays of bins are functions. -/
def engineResult (T : RecTables α ν) (a : Acc α) (r : ℕ) : Option (TallyState α) :=
  T.recs[r]?.map fun row =>
    { rays := a.distinct r
      crossings := a.cross r
      moments := fun i => (a.sums (r * 8 + (i.val * 2 + 0)), a.sums (r * 8 + (i.val * 2 + 1)))
      bins := (List.range row.histN).filterMap fun h =>
        T.hists[row.histStart + h]?.map fun (hr : HRow α) k =>
          if k < hr.na * hr.nb then a.bins (hr.offset + k) else 0 }

end PV
