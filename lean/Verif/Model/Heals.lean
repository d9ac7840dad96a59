import Verif.Model.Cluster
/-
kiel/cluster.py: `heal()`s of one cluster that run at the same time, coroutine switch by coroutine
switch.
-/
set_option autoImplicit false
namespace Kiel

/-! ### `heal()` -/

/-- The attributes of a `Cluster` (kiel/cluster.py:26-31), with connections as objects: `made` are
all connections made so far, open or closing, and `conns` tells which of them is in use for a
broker. -/
structure Shared where
  made : List CConn
  conns : Dict Int Nat
  topics : Dict String (List Int)
  leaders : Dict String (Dict Int Int)
  deriving DecidableEq, Repr

/-- A connection by its number. -/
def Shared.conn (s : Shared) (n : Nat) : CConn := s.made.getD n ⟨"", 0, true⟩

/-- The cluster as Verif/Model/Cluster.lean has it. -/
def Shared.view (s : Shared) : Cluster :=
  ⟨s.conns.map fun e => (e.1, s.conn e.2), s.topics, s.leaders⟩

/-- Where a `heal()` waits: for the connection to a broker (kiel/cluster.py:194), with the rest of
the brokers, and what it will need afterwards; or for metadata (kiel/cluster.py:142). -/
inductive HealPhase where
  | connecting (broker : BrokerMd) (todo : List BrokerMd) (toDrop missing : List Int)
      (topics : List TopicMd)
  | asking
  deriving DecidableEq, Repr

/-- A cluster and the `heal()`s under way. -/
structure Healing where
  shared : Shared
  heals : Dict Nat HealPhase
  deriving DecidableEq, Repr

/-- What can happen.
* `heal`: a `heal()` has its first metadata and goes on (kiel/cluster.py:129-138);
* `connected`, `failed`: the connection a `heal()` waits for is made, or is not
  (kiel/cluster.py:192-209);
* `again`: the `get_metadata()` of kiel/cluster.py:142 returns;
* `noMetadata`: it raises, and with it the `heal()`;
* `lost`: a connection is lost;
* `stop`: `Cluster.stop` (kiel/cluster.py:265-270). -/
inductive HEv where
  | heal (i : Nat) (m : Metadata)
  | connected (i : Nat)
  | failed (i : Nat)
  | again (i : Nat) (m : Metadata)
  | noMetadata (i : Nat)
  | lost (n : Nat)
  | stop
  deriving DecidableEq, Repr

/-- How a `heal()` comes out of a step. -/
inductive HOut where
  | goesOn
  | returned
  | raised (e : Exc)
  deriving DecidableEq, Repr

/-- `abort()` and `close()` as the cluster sees them (kiel/cluster.py:212, 270): the connection is
closing. -/
def Shared.shut (s : Shared) (n : Nat) : Shared :=
  { s with made := s.made.modify n fun c => { c with closing := true } }

/-- kiel/cluster.py:211-212.  A Python set has no particular order; here it is the order of
`conns`. -/
def dropAll : List Int → Shared → Res Unit × Shared
  | [], s => (.ok (), s)
  | b :: bs, s =>
    match s.conns.get? b with
    | .none => (.error .keyError, s)
    | some n => dropAll bs (s.shut n)

/-- The end of `process_brokers`, and the rest of the round (kiel/cluster.py:211-214, 139-141). -/
def endRound (toDrop missing : List Int) (topics : List TopicMd) (s : Shared) :
    HOut × Option HealPhase × Shared :=
  match dropAll toDrop s with
  | (.error e, s) => (.raised e, .none, s)
  | (.ok _, s) =>
    let (mt, cl) := s.view.processTopics topics
    let s := { s with topics := cl.topics, leaders := cl.leaders }
    if missing = [] ∧ mt = [] then (.returned, .none, s) else (.goesOn, some .asking, s)

/-- The loop of kiel/cluster.py:188-209, up to where it waits. -/
def brokersLoop (toDrop missing : List Int) (topics : List TopicMd) :
    List BrokerMd → Shared → HOut × Option HealPhase × Shared
  | [], s => endRound toDrop missing topics s
  | b :: bs, s =>
    if s.conns.has b.id then brokersLoop toDrop missing topics bs s
    else (.goesOn, some (.connecting b bs toDrop missing topics), s)

/-- A round with the given metadata (kiel/cluster.py:138-139, 143-144, 184-186), up to where it waits. -/
def startRound (m : Metadata) (s : Shared) : HOut × Option HealPhase × Shared :=
  brokersLoop (s.conns.keys.filter fun k => decide (k ∉ m.brokers.map (·.id))) [] m.topics
    m.brokers s

/-- kiel/cluster.py:129-136. -/
def Shared.cull (s : Shared) : Shared :=
  { s with conns := s.conns.filter fun e => !(s.conn e.2).closing }

/-- What becomes of the `heal()` number `i` (kiel/cluster.py:113-144). -/
def Healing.put (h : Healing) (i : Nat) (r : HOut × Option HealPhase × Shared) : HOut × Healing :=
  match r with
  | (out, some p, s) => (out, ⟨s, h.heals.set i p⟩)
  | (out, .none, s) => (out, ⟨s, h.heals.erase i⟩)

/-- One step (kiel/cluster.py:126-144, 174-214, 265-270).  Simplification: which metadata a `heal()` gets, from which connection, is up to the
environment (see `getMetadata` in Verif/Model/Cluster.lean). -/
def Healing.step (h : Healing) : HEv → HOut × Healing
  | .heal i m => h.put i (startRound m h.shared.cull)
  | .connected i =>
    match h.heals.get? i with
    | some (.connecting b todo toDrop missing topics) =>
      let s := { h.shared with
        made := h.shared.made ++ [⟨b.host, b.port, false⟩]
        conns := h.shared.conns.set b.id h.shared.made.length }
      h.put i (brokersLoop toDrop missing topics todo s)
    | _ => (.goesOn, h)
  | .failed i =>
    match h.heals.get? i with
    | some (.connecting b todo toDrop missing topics) =>
      h.put i (brokersLoop toDrop (addSet missing b.id) topics todo h.shared)
    | _ => (.goesOn, h)
  | .again i m =>
    match h.heals.get? i with
    | some .asking => h.put i (startRound m h.shared)
    | _ => (.goesOn, h)
  | .noMetadata i => (.raised .noBrokers, { h with heals := h.heals.erase i })
  | .lost n => (.goesOn, { h with shared := h.shared.shut n })
  | .stop => (.goesOn, { h with shared := h.shared.conns.vals.foldl Shared.shut h.shared })

/-! ### `get_metadata()` -/

/-- The loop of kiel/cluster.py:159-167, with other coroutines running while it waits.  `size` is the
number of connections when it began, `left` the brokers it has yet to come to; `ask b` is what
becomes of the request to broker `b`, and `after b` are the connections when it fails.  A dictionary
that is iterated over and whose size has changed raises a RuntimeError when the next item is asked
for, even if there is none; on a closing connection `send` fails at once, without waiting. -/
def gatherFrom (ask : Int → Res Metadata) (after : Int → Dict Int CConn) (size : Nat) :
    List Int → Dict Int CConn → Res Metadata
  | [], conns => if conns.length ≠ size then .error .runtimeError else .error .noBrokers
  | b :: left, conns =>
    if conns.length ≠ size then .error .runtimeError
    else
      match conns.get? b with
      | .none => gatherFrom ask after size left conns
      | some c =>
        if c.closing then gatherFrom ask after size left conns
        else
          match ask b with
          | .ok m => .ok m
          | .error e =>
            if e = .streamClosed ∨ e = .brokerConnection then
              gatherFrom ask after size left (after b)
            else .error e

/-- kiel/cluster.py:146-172 (`get_metadata`), with other coroutines running meanwhile.  `order`: the
brokers in the order in which the loop comes to them.  That is the order of the dictionary if no
keys are added or removed; otherwise it depends on where in the table the keys are. -/
def gatherMetadata (ask : Int → Res Metadata) (after : Int → Dict Int CConn) (order : List Int)
    (conns : Dict Int CConn) : Res Metadata :=
  gatherFrom ask after conns.length order conns

end Kiel
