import Verif.Model.Allocator
/-
kiel/zookeeper/allocator.py: `start`, `stop` and the helper they share; notifications that overlap.
-/
set_option autoImplicit false
namespace Kiel

/-! ### Notifications on two threads

kazoo calls a watch's function for the first time on the thread that sets the watch
(kiel/zookeeper/party.py:36, kiel/zookeeper/shared_set.py:35), and later on its own thread. -/

/-- How far the handling of a notification has come. -/
inductive Phase where
  | start (n : Note)
  | assigned (n : Note)                               -- the new set is in its attribute
  | read (n : Note) (members partitions : List String)  -- the sorted lists are made
  | finished (r : Res Unit)
  deriving DecidableEq, Repr

/-- kiel/zookeeper/allocator.py:181, 203. -/
def Alloc.collected (n : Note) (s : Alloc) : Alloc :=
  match n with
  | .members _ => { s with membersCollected := true }
  | .partitions _ => { s with partitionsCollected := true }

/-- One step of the handling of a notification (kiel/zookeeper/allocator.py:176-181, 195-203 and
246-270).  Simplification: the steps are as large as the shared attributes allow, except that
comparing and assigning, and making both lists, are one step each. -/
def Alloc.phase (fn : AllocFn) (p : Phase) (s : Alloc) : Phase × Alloc :=
  match p with
  | .start (.members l) =>
    if setEq (pySet l) s.members then (.finished (.ok ()), s.collected (.members l))
    else (.assigned (.members l), { s with members := pySet l })
  | .start (.partitions .none) => (.finished (.error .typeError), s)
  | .start (.partitions (some l)) =>
    if setEq (pySet l) s.partitions then
      (.finished (.ok ()), s.collected (.partitions (some l)))
    else (.assigned (.partitions (some l)), { s with partitions := pySet l })
  | .assigned n => (.read n (pySorted s.members) (pySorted s.partitions), s)
  | .read n ms ps =>
    match fn ms ps with
    | .error e => (.finished (.error e), s)
    | .ok d =>
      match ({ s with mapping := d } : Alloc).allocation with
      | (.error e, s) => (.finished (.error e), s)
      | (.ok _, s) => (.finished (.ok ()), ({ s with calls := s.calls + 1 } : Alloc).collected n)
  | .finished r => (.finished r, s)

/-- Two notifications being handled at the same time; `sched`: whose turn it is. -/
def Alloc.race (fn : AllocFn) : List Bool → Phase → Phase → Alloc → Phase × Phase × Alloc
  | [], p, q, s => (p, q, s)
  | true :: sched, p, q, s => Alloc.race fn sched (s.phase fn p).1 q (s.phase fn p).2
  | false :: sched, p, q, s => Alloc.race fn sched p (s.phase fn q).1 (s.phase fn q).2

/-! ### `create_attempter` -/

/-- The future `f`, the steps that have been run, and whatever state they work on. -/
structure Attempts (σ ι : Type) where
  failed : Option Exc
  state : σ
  ran : List ι

/-- kiel/zookeeper/allocator.py:280-287 (`attempt`, which `create_attempter` returns with the
future, kiel/zookeeper/allocator.py:289).  `failed`: the exception of the future, which
is what `f.done()` asks about, as it has no result before the end. -/
def attempt {σ ι : Type} (name : ι) (step : σ → Res Unit × σ) (a : Attempts σ ι) : Attempts σ ι :=
  match a.failed with
  | some _ => a
  | .none =>
    match step a.state with
    | (.ok _, s) => { a with state := s, ran := a.ran ++ [name] }
    | (.error e, s) => { failed := some e, state := s, ran := a.ran ++ [name] }

/-! ### `start` -/

inductive StartStep where
  | connect | partyStart | setStart | join | addPartitions
  deriving DecidableEq, Repr

/-- What happens outside while `start` runs.
* `connected`, `connectedAdd`: is `self.connected` set sooner or later, while
  `wait_on_event` waits for it (kiel/zookeeper/allocator.py:103, 224); `connect` itself
  (kiel/zookeeper/allocator.py:141-146) only registers a listener and has kazoo's threads started,
  which does not fail;
* `partyStart`, `setStart`: the failure of `ensure_path` or of setting the watch, or what the watch
  is first called with (kiel/zookeeper/party.py:34-38, kiel/zookeeper/shared_set.py:33-40);
* `join`, `addItems`: the outcome of `party.join` and of `shared_set.add_items`;
* `notes k`: the notifications kazoo's thread handles after the `k`-th step. -/
structure StartEnv where
  connect : Res Unit
  connected : Bool
  partyStart : Res (List String)
  setStart : Res (Option (List String))
  join : Res Unit
  connectedAdd : Bool
  addItems : Res Unit
  notes : Nat → List Note

/-- Notifications handled on the other thread, between two steps. -/
def elsewhere (fn : AllocFn) (ns : List Note) (a : Attempts Alloc StartStep) : Attempts Alloc StartStep :=
  { a with state := a.state.notifyAll fn ns }

/-- kiel/zookeeper/allocator.py:105: `party.start`; the watch calls `on_group_members_change`. -/
def startParty (fn : AllocFn) (env : StartEnv) (s : Alloc) : Res Unit × Alloc :=
  match env.partyStart with
  | .error e => (.error e, s)
  | .ok l => s.notify fn (.members l)

/-- kiel/zookeeper/allocator.py:106: `shared_set.start`; the watch calls `on_partition_change`. -/
def startSet (fn : AllocFn) (env : StartEnv) (s : Alloc) : Res Unit × Alloc :=
  match env.setStart with
  | .error e => (.error e, s)
  | .ok l => s.notify fn (.partitions l)

/-- kiel/zookeeper/allocator.py:105-107. -/
def startJoin (fn : AllocFn) (env : StartEnv) (a : Attempts Alloc StartStep) : Attempts Alloc StartStep :=
  let a := elsewhere fn (env.notes 1) (attempt .partyStart (startParty fn env) a)
  let a := elsewhere fn (env.notes 2) (attempt .setStart (startSet fn env) a)
  elsewhere fn (env.notes 3) (attempt .join (fun s => (env.join, s)) a)

/-- kiel/zookeeper/allocator.py:108. -/
def startAdd (fn : AllocFn) (env : StartEnv) (a : Attempts Alloc StartStep) : Attempts Alloc StartStep :=
  elsewhere fn (env.notes 4) (attempt .addPartitions (fun s => (env.addItems, s)) a)

/-- kiel/zookeeper/allocator.py:110-118. -/
def startEnd (a : Attempts Alloc StartStep) : Option (Res Unit) × Alloc × List StartStep :=
  match a.failed with
  | some e => (some (.error e), a.state, a.ran)
  | .none =>
    if a.state.membersCollected = true ∧ a.state.partitionsCollected = true then
      (some (.ok ()), a.state, a.ran)
    else (.none, a.state, a.ran)

/-- kiel/zookeeper/allocator.py:86-118 (`start`); `none`: it blocks for ever.
Simplification: notifications on kazoo's thread are handled between the steps, not during them. -/
def Alloc.start (fn : AllocFn) (env : StartEnv) (s : Alloc) :
    Option (Res Unit) × Alloc × List StartStep :=
  let a := attempt .connect (fun s => (env.connect, s)) ⟨.none, s, []⟩
  if env.connected = false then (.none, a.state, a.ran)
  else
    let b := startJoin fn env a
    if b.failed = .none ∧ env.connectedAdd = false then (.none, b.state, b.ran)
    else startEnd (startAdd fn env b)

/-! ### `stop` -/

inductive StopStep where
  | leave | stop | close
  deriving DecidableEq, Repr

/-- kiel/zookeeper/allocator.py:120-139 (`stop`), given what its three steps do to the outside
world. -/
def allocatorStop {σ : Type} (leave stop close : σ → Res Unit × σ) (s : σ) :
    Res Unit × σ × List StopStep :=
  let a := attempt .leave leave ⟨.none, s, []⟩
  let a := attempt .stop stop a
  let a := attempt .close close a
  match a.failed with
  | some e => (.error e, a.state, a.ran)
  | .none => (.ok (), a.state, a.ran)

end Kiel
