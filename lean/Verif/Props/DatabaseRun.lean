import Verif.Model.DatabaseRun
import Verif.Props.Database

/-!
C93: the database of a run that is killed, fails or ends.
-/

namespace PV.Database
open PV.Spec
variable {α π σ ε : Type}

/-- **C93**. The command either leaves the file as it was or starts with empty tables; an old
database is replaced only with `--overwrite` or after a yes. -/
theorem start_fresh (parsed : Except ε σ) (old : Option (Db α)) (overwrite answer : Bool) :
    (∃ scene, (prepare parsed old overwrite answer).1 = .ok scene ∧ parsed = .ok scene ∧
      (prepare parsed old overwrite answer).2 = some ⟨[], []⟩ ∧
      (old = none ∨ overwrite = true ∨ answer = true)) ∨
    (∃ e, (prepare parsed old overwrite answer).1 = .error e ∧
      (prepare parsed old overwrite answer).2 = old) := by
  unfold prepare
  cases parsed with
  | error e => exact .inr ⟨_, rfl, rfl⟩
  | ok scene =>
    cases old with
    | none => exact .inl ⟨scene, rfl, rfl, rfl, .inl rfl⟩
    | some db =>
      cases overwrite <;> cases answer <;> simp

section
variable [DecidableEq π]

/-- The state is reached by the command with these items. -/
def Reached (size skip : ℕ) (items : List (Item α π)) (r : Cli α π) : Prop :=
  Relation.ReflTransGen (Cli.Next size skip) (Cli.start items ⟨[], []⟩) r

/-- Bookkeeping of a reached state: `done` items are on disk, `now` is the item of the open
transaction, `lost` the item of the failed transaction. -/
structure Book (skip : ℕ) (items : List (Item α π)) (r : Cli α π)
    (done now lost : List (Item α π)) : Prop where
  all : done ++ now ++ lost ++ r.queue ++ r.pending = items
  disk : r.disk = (monitor skip done).db
  mon : r.mon = monitor skip (done ++ now ++ lost)
  now_len : now.length = if r.uncommitted then 1 else 0
  lost_len : lost.length = if r.thread = .dead then 1 else 0
  running : r.uncommitted = true → r.thread = .running
  stop : r.stop = true → r.sim ≠ .running
  quiet : r.stop = true → r.sim = .returned → r.pending = [] ∧ r.queue = []
  returned : r.sim = .returned → r.pending = []
  ended : r.thread = .returned → r.stop = true
  exit : ∀ b, r.exit = some b → r.stop = true ∧ r.thread ≠ .running ∧
    (b = true ↔ r.sim = .returned)

theorem book {size skip : ℕ} {items : List (Item α π)} {r : Cli α π}
    (h : Reached size skip items r) : ∃ done now lost, Book skip items r done now lost := by
  induction h with
  | refl =>
    refine ⟨[], [], [], ?_⟩
    constructor <;> simp [Cli.start, monitor, Monitor.init]
  | tail _ hn ih =>
    obtain ⟨done, now, lost, b⟩ := ih
    cases hn with
    | put x rest hp hq he =>
      refine ⟨done, now, lost, ?_⟩
      constructor
      · rw [← b.all, hp]; simp
      · exact b.disk
      · exact b.mon
      · exact b.now_len
      · exact b.lost_len
      · exact b.running
      · exact b.stop
      · intro hs hr
        have := b.returned hr
        rw [hp] at this
        cases this
      · intro hr
        have := b.returned hr
        rw [hp] at this
        cases this
      · exact b.ended
      · exact b.exit
    | get x rest ht hu hq =>
      have h0 : now = [] := by
        have := b.now_len
        simpa [hu] using this
      have h1 : lost = [] := by
        have := b.lost_len
        simpa [ht] using this
      subst h0 h1
      refine ⟨done, [x], [], ?_⟩
      constructor
      · rw [← b.all, hq]; simp
      · exact b.disk
      · have := b.mon
        simp only [List.append_nil] at this ⊢
        rw [monitor_concat, this]
      · simp
      · simpa using b.lost_len
      · exact fun _ => ht
      · exact b.stop
      · intro hs hr
        have := (b.quiet hs hr).2
        rw [hq] at this
        cases this
      · exact b.returned
      · exact b.ended
      · exact b.exit
    | commit ht hu =>
      have h1 : lost = [] := by
        have := b.lost_len
        simpa [ht] using this
      subst h1
      refine ⟨done ++ now, [], [], ?_⟩
      constructor
      · rw [← b.all]; simp
      · have := b.mon
        simp only [List.append_nil] at this
        rw [← this]
      · simpa using b.mon
      · simp
      · simpa using b.lost_len
      · simp
      · exact b.stop
      · exact b.quiet
      · exact b.returned
      · exact b.ended
      · exact b.exit
    | fail ht hu =>
      have h1 : lost = [] := by
        have := b.lost_len
        simpa [ht] using this
      subst h1
      refine ⟨done, [], now, ?_⟩
      constructor
      · rw [← b.all]; simp
      · exact b.disk
      · simpa using b.mon
      · simp
      · simpa [hu] using b.now_len
      · simp
      · exact b.stop
      · exact b.quiet
      · exact b.returned
      · simp
      · intro x hx
        exact ⟨(b.exit x hx).1, by simp, (b.exit x hx).2.2⟩
    | simReturns hs hp =>
      refine ⟨done, now, lost, ?_⟩
      constructor
      · exact b.all
      · exact b.disk
      · exact b.mon
      · exact b.now_len
      · exact b.lost_len
      · exact b.running
      · simp
      · intro h _
        exact absurd hs (b.stop h)
      · exact fun _ => hp
      · exact b.ended
      · intro x hx
        exact absurd hs (b.stop (b.exit x hx).1)
    | simRaises hs =>
      refine ⟨done, now, lost, ?_⟩
      constructor
      · exact b.all
      · exact b.disk
      · exact b.mon
      · exact b.now_len
      · exact b.lost_len
      · exact b.running
      · simp
      · simp
      · simp
      · exact b.ended
      · intro x hx
        exact absurd hs (b.stop (b.exit x hx).1)
    | setStop hs hq hn =>
      refine ⟨done, now, lost, ?_⟩
      constructor
      · exact b.all
      · exact b.disk
      · exact b.mon
      · exact b.now_len
      · exact b.lost_len
      · exact b.running
      · exact fun _ => hs
      · exact fun _ hr => ⟨b.returned hr, hq⟩
      · exact b.returned
      · exact fun _ => rfl
      · intro x hx
        exact ⟨rfl, (b.exit x hx).2⟩
    | finish hs hq hu ht =>
      refine ⟨done, now, lost, ?_⟩
      constructor
      · exact b.all
      · exact b.disk
      · exact b.mon
      · exact b.now_len
      · have := b.lost_len
        simpa [ht] using this
      · intro h
        rw [hu] at h
        cases h
      · exact b.stop
      · exact b.quiet
      · exact b.returned
      · exact fun _ => hs
      · intro x hx
        exact ⟨hs, by simp, (b.exit x hx).2.2⟩
    | leave hs ht he =>
      refine ⟨done, now, lost, ?_⟩
      constructor
      · exact b.all
      · exact b.disk
      · exact b.mon
      · exact b.now_len
      · exact b.lost_len
      · exact b.running
      · exact b.stop
      · exact b.quiet
      · exact b.returned
      · exact b.ended
      · intro x hx
        refine ⟨hs, ht, ?_⟩
        obtain rfl := Option.some.inj hx
        simp

/-- **C93**. Whenever the command is killed or fails, for every schedule and every failure, the file holds
the rows of the first items that arrived, and of nothing else: there is no other run in it and no
half-written item. Only the items in the queue, those not yet put, and the one in hand are missing. -/
theorem disk_is_prefix {size skip : ℕ} {items : List (Item α π)} {r : Cli α π}
    (h : Reached size skip items r) :
    ∃ stored hand, stored ++ hand ++ r.queue ++ r.pending = items ∧ hand.length ≤ 1 ∧
      r.disk = (monitor skip stored).db ∧
      (join r.disk).map asStep = stored.map Item.step ∧
      r.disk.rays.length = stored.length ∧ r.disk.events.length = stored.length := by
  obtain ⟨done, now, lost, b⟩ := book h
  refine ⟨done, now ++ lost, by rw [← b.all]; simp, ?_, b.disk, ?_, ?_, ?_⟩
  · rw [List.length_append, b.now_len, b.lost_len]
    by_cases hu : r.uncommitted = true
    · simp [hu, b.running hu]
    · have hu : r.uncommitted = false := by simpa using hu
      simp only [hu, Bool.false_eq_true, if_false]
      split_ifs <;> omega
  · rw [b.disk, written_once]
  · rw [b.disk, (monitor_db skip done).1, List.length_map]
  · rw [b.disk, (monitor_db skip done).2, List.length_map, List.length_zipIdx]

theorem rows_prefix (skip : ℕ) (l m : List (Item α π)) :
    (monitor skip l).db.rays <+: (monitor skip (l ++ m)).db.rays ∧
    (monitor skip l).db.events <+: (monitor skip (l ++ m)).db.events := by
  rw [(monitor_db skip l).1, (monitor_db skip l).2, (monitor_db skip _).1, (monitor_db skip _).2]
  constructor
  · rw [List.map_append]
    refine ⟨_, congrArg (· ++ _) (List.map_congr_left fun it hi => ?_)⟩
    rw [throwOf_append _ ((mem_keys _ _).2 ⟨it, hi, rfl⟩)]
  · rw [List.zipIdx_append, List.map_append]
    exact List.prefix_append _ _

/-- **C93**. What is in the file stays: the tables of an interrupted run are the beginnings of the tables
of the complete run, with the same throw ids. -/
theorem interrupted_tables {size skip : ℕ} {items : List (Item α π)} {r : Cli α π}
    (h : Reached size skip items r) :
    r.disk.rays <+: (monitor skip items).db.rays ∧ r.disk.events <+: (monitor skip items).db.events := by
  obtain ⟨done, now, lost, b⟩ := book h
  rw [b.disk, ← b.all]
  simp only [List.append_assoc]
  exact rows_prefix _ _ _

/-- **C93**. Every answer of `pvtrace count`, `spectrum` and `time` on the file of an interrupted run is
part of the answer on the complete one. -/
theorem interrupted_answers {β : Type} [DecidableEq β] [AddCommGroup α] [LinearOrder α]
    {size skip : ℕ} {items : List (Item α π)} {r : Cli α π}
    (h : Reached size skip items r) (c : Cmd) (node : String) (f : Filters α)
    (columns : RayRow α → β) :
    select r.disk c node f columns ⊆ select (monitor skip items).db c node f columns ∧
    count r.disk c node f ≤ count (monitor skip items).db c node f := by
  have key : ∀ {γ : Type} [DecidableEq γ] (columns : RayRow α → γ),
      select r.disk c node f columns ⊆ select (monitor skip items).db c node f columns := by
    intro γ _ columns
    obtain ⟨done, now, lost, b⟩ := book h
    rw [b.disk, ← b.all]
    simp only [List.append_assoc]
    rw [select_monitor, select_monitor]
    intro y hy
    rw [List.mem_dedup, List.mem_map] at hy ⊢
    obtain ⟨it, hi, rfl⟩ := hy
    obtain ⟨hi, ha⟩ := List.mem_filter.1 hi
    refine ⟨it, List.mem_filter.2 ⟨List.mem_append_left _ hi, ha⟩, ?_⟩
    rw [throwOf_append _ ((mem_keys _ _).2 ⟨it, hi, rfl⟩)]
  refine ⟨key columns, ?_⟩
  unfold count
  refine ((?_ : List.Nodup _).subperm (key RayRow.throwId)).length_le
  unfold select
  exact List.nodup_dedup _

/-- **C93**, with the condition that the writing thread has not failed: a command that prints `OK` has
stored everything. -/
theorem ok_complete_partial {size skip : ℕ} {items : List (Item α π)} {r : Cli α π}
    (h : Reached size skip items r) (ho : r.exit = some true) (ht : r.thread ≠ .dead) :
    r.disk = (monitor skip items).db := by
  obtain ⟨done, now, lost, b⟩ := book h
  obtain ⟨hs, hr, hb⟩ := b.exit _ ho
  obtain ⟨hp, hq⟩ := b.quiet hs (hb.1 rfl)
  have hu : r.uncommitted = false := by
    by_contra hu
    exact hr (b.running (by simpa using hu))
  have h0 : now = [] := by simpa [hu] using b.now_len
  have h1 : lost = [] := by simpa [ht] using b.lost_len
  have := b.all
  rw [hp, hq, h0, h1] at this
  simp only [List.append_nil] at this
  rw [b.disk, this]

/-- A failed run, seen from the user: a worker's exception does not cost any item that has been put into
the queue before `stop` is set. -/
theorem failed_run_keeps_queue {size skip : ℕ} {items : List (Item α π)} {r : Cli α π}
    (h : Reached size skip items r) (ht : r.thread = .returned) :
    ∃ stored, stored ++ r.queue ++ r.pending = items ∧ r.disk = (monitor skip stored).db := by
  obtain ⟨done, now, lost, b⟩ := book h
  have hu : r.uncommitted = false := by
    by_contra hu
    have := b.running (by simpa using hu)
    rw [ht] at this
    cases this
  have h0 : now = [] := by simpa [hu] using b.now_len
  have h1 : lost = [] := by simpa [ht] using b.lost_len
  refine ⟨done, ?_, b.disk⟩
  rw [← b.all, h0, h1]
  simp

/-! #### The end -/

/-- What is left to do. -/
def Cli.left (r : Cli α π) : ℕ :=
  4 * r.pending.length + 3 * r.queue.length + (if r.uncommitted then 2 else 0) +
  (if r.sim = .running then 1 else 0) + (if r.stop then 0 else 1) +
  (if r.thread = .running then 1 else 0) + (if r.exit = none then 1 else 0)

/-- **C93**. Every step brings the end nearer, so no schedule goes on for ever. -/
theorem every_step_counts {size skip : ℕ} {r r' : Cli α π} (h : Cli.Next size skip r r') :
    r'.left < r.left := by
  cases h with
  | put x rest hp hq he =>
    simp only [Cli.left, hp, List.length_append, List.length_cons, List.length_nil]
    omega
  | get x rest ht hu hq =>
    simp only [Cli.left, hq, hu, List.length_cons, if_true, Bool.false_eq_true, if_false]
    omega
  | commit ht hu =>
    simp only [Cli.left, hu, if_true, Bool.false_eq_true, if_false]
    omega
  | fail ht hu =>
    simp only [Cli.left, hu, ht, if_true, Bool.false_eq_true, if_false, reduceCtorEq]
    omega
  | simReturns hs hp =>
    simp only [Cli.left, hs, if_true, if_false, reduceCtorEq]
    omega
  | simRaises hs =>
    simp only [Cli.left, hs, if_true, if_false, reduceCtorEq]
    omega
  | setStop hs hq hn =>
    simp only [Cli.left, hn, if_true, if_false, Bool.false_eq_true]
    omega
  | finish hs hq hu ht =>
    simp only [Cli.left, ht, if_true, if_false, reduceCtorEq]
    omega
  | leave hs ht he =>
    simp only [Cli.left, he, if_true, if_false, reduceCtorEq]
    omega

/-- **C93**, with the condition that the writing thread has not failed: until the command ends there is a next
step that is no failure. With `every_step_counts`, every schedule that does not fail in the writing thread
ends. -/
theorem ends_partial {size skip : ℕ} (hsz : 0 < size) {items : List (Item α π)} {r : Cli α π}
    (h : Reached size skip items r) (ht : r.thread ≠ .dead) (he : r.exit = none) :
    ∃ r', Cli.Next size skip r r' ∧ r'.thread ≠ .dead ∧ (r'.sim = .raised → r.sim = .raised) := by
  obtain ⟨done, now, lost, b⟩ := book h
  by_cases hr : r.thread = .running
  · by_cases hu : r.uncommitted = true
    · exact ⟨_, .commit r hr hu, ht, id⟩
    · have hu : r.uncommitted = false := by simpa using hu
      cases hq : r.queue with
      | cons x rest => exact ⟨_, .get r x rest hr hu hq, ht, id⟩
      | nil =>
        by_cases hs : r.sim = .running
        · cases hp : r.pending with
          | nil => exact ⟨_, .simReturns r hs hp, ht, by simp⟩
          | cons x rest => exact ⟨_, .put r x rest hp (by rw [hq]; exact hsz) he, ht, id⟩
        · cases hn : r.stop with
          | false => exact ⟨_, .setStop r hs hq hn, ht, id⟩
          | true => exact ⟨_, .finish r hn hq hu hr, by simp, id⟩
  · have : r.thread = .returned := by
      cases h' : r.thread with
      | running => exact absurd h' hr
      | returned => rfl
      | dead => exact absurd h' ht
    exact ⟨_, .leave r (b.ended this) hr he, ht, id⟩

/-- Disagreement: once the writing thread has failed with items in the queue, the command never ends: the
main thread waits for the queue to become empty. -/
theorem dead_writer_hangs {size skip : ℕ} {r r' : Cli α π} (hd : r.thread = .dead) (hq : r.queue ≠ [])
    (hs : r.stop = false) (he : r.exit = none)
    (h : Relation.ReflTransGen (Cli.Next size skip) r r') : r'.exit = none := by
  have key : r'.thread = .dead ∧ r'.queue ≠ [] ∧ r'.stop = false ∧ r'.exit = none := by
    induction h with
    | refl => exact ⟨hd, hq, hs, he⟩
    | tail _ hn ih =>
      obtain ⟨h1, h2, h3, h4⟩ := ih
      cases hn with
      | put x rest hp hq he => exact ⟨h1, by simp, h3, h4⟩
      | get x rest ht hu hq => rw [h1] at ht; cases ht
      | commit ht hu => rw [h1] at ht; cases ht
      | fail ht hu => rw [h1] at ht; cases ht
      | simReturns hs hp => exact ⟨h1, h2, h3, h4⟩
      | simRaises hs => exact ⟨h1, h2, h3, h4⟩
      | setStop hs hq hn => exact absurd hq h2
      | finish hs hq hu ht => rw [h1] at ht; cases ht
      | leave hs ht he => rw [h3] at hs; cases hs
  exact key.2.2.2

/-- Disagreement: if the writing thread fails on the last item, the command prints `OK` although an event is
missing. -/
theorem ok_but_lost (size skip : ℕ) (hsz : 0 < size) (x : Item α π) :
    ∃ r, Reached size skip [x] r ∧ r.exit = some true ∧ r.disk = ⟨[], []⟩ ∧
      r.disk ≠ (monitor skip [x]).db := by
  let r0 : Cli α π := Cli.start [x] ⟨[], []⟩
  let r1 : Cli α π := { r0 with pending := [], queue := [x] }
  let r2 : Cli α π := { r1 with queue := [], mon := monitorItem skip r1.mon x, uncommitted := true }
  let r3 : Cli α π := { r2 with uncommitted := false, thread := .dead }
  let r4 : Cli α π := { r3 with sim := .returned }
  let r5 : Cli α π := { r4 with stop := true }
  let r6 : Cli α π := { r5 with exit := some true }
  have s1 : Cli.Next size skip r0 r1 := .put r0 x [] rfl hsz rfl
  have s2 : Cli.Next size skip r1 r2 := .get r1 x [] rfl rfl rfl
  have s3 : Cli.Next size skip r2 r3 := .fail r2 rfl rfl
  have s4 : Cli.Next size skip r3 r4 := .simReturns r3 rfl rfl
  have s5 : Cli.Next size skip r4 r5 := .setStop r4 (by simp [r4]) rfl rfl
  have s6 : Cli.Next size skip r5 r6 := .leave r5 rfl (by simp [r5, r4, r3]) rfl
  refine ⟨r6, ((((((Relation.ReflTransGen.refl.tail s1).tail s2).tail s3).tail s4).tail s5).tail s6),
    rfl, rfl, ?_⟩
  intro e
  have := congrArg (fun d : Db α => d.rays.length) e
  rw [(monitor_db skip [x]).1] at this
  simp [r6, r5, r4, r3, r2, r1, r0, Cli.start] at this

/-- The hang of `dead_writer_hangs` happens: two items in the queue, and the writer fails on the first. -/
theorem dead_writer_reached (size skip : ℕ) (hsz : 1 < size) (x y : Item α π) :
    ∃ r, Reached size skip [x, y] r ∧ r.thread = .dead ∧ r.queue ≠ [] ∧ r.stop = false ∧
      r.exit = none := by
  let r0 : Cli α π := Cli.start [x, y] ⟨[], []⟩
  let r1 : Cli α π := { r0 with pending := [y], queue := [x] }
  let r2 : Cli α π := { r1 with pending := [], queue := [x, y] }
  let r3 : Cli α π := { r2 with queue := [y], mon := monitorItem skip r2.mon x, uncommitted := true }
  let r4 : Cli α π := { r3 with uncommitted := false, thread := .dead }
  have s1 : Cli.Next size skip r0 r1 := .put r0 x [y] rfl (by simp [r0, Cli.start]; omega) rfl
  have s2 : Cli.Next size skip r1 r2 := .put r1 y [] rfl (by simpa [r1] using hsz) rfl
  have s3 : Cli.Next size skip r2 r3 := .get r2 x [y] rfl rfl rfl
  have s4 : Cli.Next size skip r3 r4 := .fail r3 rfl rfl
  exact ⟨r4, (((Relation.ReflTransGen.refl.tail s1).tail s2).tail s3).tail s4, rfl, by simp [r4, r3],
    rfl, rfl⟩

/-- A killed run with one of two items on disk. -/
theorem half_done_reached (size skip : ℕ) (hsz : 0 < size) (x y : Item α π) :
    ∃ r, Reached size skip [x, y] r ∧ r.pending = [y] ∧ r.disk = (monitor skip [x]).db ∧
      r.thread ≠ .dead ∧ r.exit = none := by
  let r0 : Cli α π := Cli.start [x, y] ⟨[], []⟩
  let r1 : Cli α π := { r0 with pending := [y], queue := [x] }
  let r2 : Cli α π := { r1 with queue := [], mon := monitorItem skip r1.mon x, uncommitted := true }
  let r3 : Cli α π := { r2 with uncommitted := false, disk := r2.mon.db }
  have s1 : Cli.Next size skip r0 r1 := .put r0 x [y] rfl hsz rfl
  have s2 : Cli.Next size skip r1 r2 := .get r1 x [] rfl rfl rfl
  have s3 : Cli.Next size skip r2 r3 := .commit r2 rfl rfl
  exact ⟨r3, ((Relation.ReflTransGen.refl.tail s1).tail s2).tail s3, rfl, rfl, by simp [r3, r2, r1, r0, Cli.start],
    rfl⟩

/-- A complete run of one item. -/
theorem ok_reached (size skip : ℕ) (hsz : 0 < size) (x : Item α π) :
    ∃ r, Reached size skip [x] r ∧ r.exit = some true ∧ r.thread = .returned := by
  let r0 : Cli α π := Cli.start [x] ⟨[], []⟩
  let r1 : Cli α π := { r0 with pending := [], queue := [x] }
  let r2 : Cli α π := { r1 with queue := [], mon := monitorItem skip r1.mon x, uncommitted := true }
  let r3 : Cli α π := { r2 with uncommitted := false, disk := r2.mon.db }
  let r4 : Cli α π := { r3 with sim := .returned }
  let r5 : Cli α π := { r4 with stop := true }
  let r6 : Cli α π := { r5 with thread := .returned }
  let r7 : Cli α π := { r6 with exit := some true }
  have s1 : Cli.Next size skip r0 r1 := .put r0 x [] rfl hsz rfl
  have s2 : Cli.Next size skip r1 r2 := .get r1 x [] rfl rfl rfl
  have s3 : Cli.Next size skip r2 r3 := .commit r2 rfl rfl
  have s4 : Cli.Next size skip r3 r4 := .simReturns r3 rfl rfl
  have s5 : Cli.Next size skip r4 r5 := .setStop r4 (by simp [r4]) rfl rfl
  have s6 : Cli.Next size skip r5 r6 := .finish r5 rfl rfl rfl rfl
  have s7 : Cli.Next size skip r6 r7 := .leave r6 rfl (by simp [r6]) rfl
  exact ⟨r7, ((((((Relation.ReflTransGen.refl.tail s1).tail s2).tail s3).tail s4).tail s5).tail s6).tail
    s7, rfl, rfl⟩

end

/-- An old database is not touched when the scene file is bad or the user says no, and replaced after a
yes. -/
example : (prepare (.error "bad" : Except String Unit) (some (⟨[], []⟩ : Db ℕ)) true true).1 =
    .error (.parse "bad") := rfl
example : (prepare (.ok () : Except String Unit) (some (⟨[], []⟩ : Db ℕ)) false false).1 =
    .error .aborted := rfl
example (d : Db ℕ) : prepare (.ok () : Except String Unit) (some d) false true =
    (.ok (), some ⟨[], []⟩) := rfl

end PV.Database
