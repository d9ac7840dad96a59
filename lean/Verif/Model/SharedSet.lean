import Verif.Model.Allocator
/-
kiel/zookeeper/shared_set.py, and `add_partitions` and `remove_partitions` of
kiel/zookeeper/allocator.py.

The data of the set's node is JSON text for a list of strings; a node without data counts as the
empty list (kiel/zookeeper/shared_set.py:88, 94).  Simplification: it is modelled as that list;
for the text see Model/Json.lean.  The lock's path (kiel/zookeeper/shared_set.py:23-27) is the
set's with `/lock`: one lock for each set.
-/
set_option autoImplicit false
namespace Kiel

/-- A call of `add_items` or `remove_items`, with the set it is given. -/
inductive SetOp where
  | add (items : List String)
  | remove (items : List String)
  deriving DecidableEq, Repr

/-- What a call writes, given the data it read: kiel/zookeeper/shared_set.py:52-63 and 75-82.
`none`: nothing. -/
def SetOp.decision : SetOp → List String → Option (List String)
  | .add new, data =>
    let existing := pySet data
    if new.all (fun x => decide (x ∈ existing)) then .none
    else some (new.foldl addSet existing)
  | .remove old, data =>
    let existing := pySet data
    if old.all (fun x => decide (x ∉ existing)) then .none
    else some (existing.filter fun x => decide (x ∉ old))

/-- `self.client.set(self.path, …)` (kiel/zookeeper/shared_set.py:61-63, 82).  `json.dumps` makes
text, and kazoo takes nothing but byte strings: on Python 3 that is a `TypeError`.  `textOk`: text
is a byte string, as it is on Python 2. -/
def zkSet (textOk : Bool) (new data : List String) : Res Unit × List String :=
  if textOk then (.ok (), new) else (.error .typeError, data)

/-- A call nobody interferes with, and that zookeeper does not fail: kiel/zookeeper/shared_set.py:
42-63 (`add_items`), 65-82 (`remove_items`).  Outcome, data afterwards, and what was written. -/
def SetOp.call (textOk : Bool) (op : SetOp) (data : List String) :
    Res Unit × List String × List (List String) :=
  match op.decision data with
  | .none => (.ok (), data, [])
  | some new =>
    match zkSet textOk new data with
    | (.ok _, data) => (.ok (), data, [new])
    | (.error e, data) => (.error e, data, [])

/-! ### Any number of clients -/

/-- Where a client is in a call. -/
inductive SetPC where
  | idle
  | waiting (op : SetOp)                          -- for the lock
  | holding (op : SetOp)
  | got (op : SetOp) (data : List String)         -- after `client.get`
  | leaving (op : SetOp) (r : Res Unit)           -- about to release the lock
  deriving DecidableEq, Repr

/-- The clients of a shared set.  `log`: the calls that have ended, in that order, with their
outcomes. -/
structure SetSys where
  data : List String
  holder : Option Nat
  pc : Nat → SetPC
  log : List (SetOp × Res Unit)

/-- `f` with the value at `i` replaced. -/
def upd {α : Type} (f : Nat → α) (i : Nat) (x : α) : Nat → α := fun j => if j = i then x else f j

/-- Nobody is using the set. -/
def SetSys.init (data : List String) : SetSys := ⟨data, .none, fun _ => .idle, []⟩

/-- What can happen next.  Calls: kiel/zookeeper/shared_set.py:42-82.  The lock is kazoo's
`client.Lock`; what is assumed of it is that only one client holds it at a time, unless `leaky`:
then a client can lose it without noticing, which happens when its session expires.  Every access
to zookeeper can fail; a `set` that fails may have been carried out. -/
inductive SetStep (textOk leaky : Bool) : SetSys → SetSys → Prop where
  | call (s : SetSys) (c : Nat) (op : SetOp) (h : s.pc c = .idle) :
      SetStep textOk leaky s { s with pc := upd s.pc c (.waiting op) }
  | acquire (s : SetSys) (c : Nat) (op : SetOp) (h : s.pc c = .waiting op) (hl : s.holder = .none) :
      SetStep textOk leaky s { s with holder := some c, pc := upd s.pc c (.holding op) }
  | acquireFails (s : SetSys) (c : Nat) (op : SetOp) (e : Exc) (h : s.pc c = .waiting op) :
      SetStep textOk leaky s { s with pc := upd s.pc c .idle, log := s.log ++ [(op, .error e)] }
  | get (s : SetSys) (c : Nat) (op : SetOp) (h : s.pc c = .holding op) :
      SetStep textOk leaky s { s with pc := upd s.pc c (.got op s.data) }
  | getFails (s : SetSys) (c : Nat) (op : SetOp) (e : Exc) (h : s.pc c = .holding op) :
      SetStep textOk leaky s { s with pc := upd s.pc c (.leaving op (.error e)) }
  | nothing (s : SetSys) (c : Nat) (op : SetOp) (read : List String) (h : s.pc c = .got op read)
      (hd : op.decision read = .none) :
      SetStep textOk leaky s { s with pc := upd s.pc c (.leaving op (.ok ())) }
  | set (s : SetSys) (c : Nat) (op : SetOp) (read new : List String) (h : s.pc c = .got op read)
      (hd : op.decision read = some new) :
      SetStep textOk leaky s
        { s with
          data := (zkSet textOk new s.data).2
          pc := upd s.pc c (.leaving op (zkSet textOk new s.data).1) }
  | setFails (s : SetSys) (c : Nat) (op : SetOp) (read new : List String) (e : Exc) (done : Bool)
      (h : s.pc c = .got op read) (hd : op.decision read = some new) :
      SetStep textOk leaky s
        { s with
          data := if done then new else s.data
          pc := upd s.pc c (.leaving op (.error e)) }
  | release (s : SetSys) (c : Nat) (op : SetOp) (r : Res Unit) (h : s.pc c = .leaving op r) :
      SetStep textOk leaky s
        { s with
          holder := if s.holder = some c then .none else s.holder
          pc := upd s.pc c .idle
          log := s.log ++ [(op, r)] }
  | lost (s : SetSys) (c : Nat) (h : s.holder = some c) (hl : leaky = true) :
      SetStep textOk leaky s { s with holder := .none }

/-- What can happen from the start. -/
inductive SetReach (textOk leaky : Bool) (data : List String) : SetSys → Prop where
  | start : SetReach textOk leaky data (.init data)
  | step (s s' : SetSys) (h : SetReach textOk leaky data s) (h' : SetStep textOk leaky s s') :
      SetReach textOk leaky data s'

/-! ### `add_partitions` and `remove_partitions` -/

/-- The items made at kiel/zookeeper/allocator.py:212-217. -/
def addedItems (d : Dict String (List Int)) : List String :=
  d.foldl (fun acc e => (e.2.map fun i => e.1 ++ ":" ++ strInt i).foldl addSet acc) []

/-- kiel/zookeeper/allocator.py:205-226 (`add_partitions`), when there is a connection. -/
def addPartitions (textOk : Bool) (d : Dict String (List Int)) (data : List String) :
    Res Unit × List String × List (List String) :=
  (SetOp.add (addedItems d)).call textOk data

/-- The items made at kiel/zookeeper/allocator.py:241-244: `":".join` takes nothing but text. -/
def removedItems : Dict String Val → Res (List String)
  | [] => .ok []
  | (t, v) :: d =>
    match v with
    | .str p =>
      match removedItems d with
      | .error e => .error e
      | .ok items => .ok (addSet items (t ++ ":" ++ p))
    | _ => .error .typeError

/-- kiel/zookeeper/allocator.py:228-244 (`remove_partitions`), when there is a connection. -/
def removePartitions (textOk : Bool) (d : Dict String Val) (data : List String) :
    Res Unit × List String × List (List String) :=
  match removedItems d with
  | .error e => (.error e, data, [])
  | .ok items => (SetOp.remove items).call textOk data

end Kiel
