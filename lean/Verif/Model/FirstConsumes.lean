import Verif.Model.Overlap
import Verif.Model.Single
/-
kiel/clients/consumer.py and kiel/clients/single.py: whole `consume`s of one `SingleConsumer` that
run at the same time, the determining of offsets included, coroutine switch by coroutine switch.
-/
set_option autoImplicit false
namespace Kiel

variable {β δ : Type}

/-- Where a `consume` is that does not wait for messages yet: for the answers to its offset
requests (kiel/clients/consumer.py:92, kiel/clients/single.py:87), those in `pending` not having
come yet; or for the `heal()` of kiel/clients/consumer.py:100. -/
inductive FirstPhase where
  | determining (topic : String) (pending : List OReq)
  | healing (topic : String)
  deriving DecidableEq, Repr

/-- The topic of such a `consume` (kiel/clients/consumer.py:73). -/
def FirstPhase.topic : FirstPhase → String
  | .determining t _ => t
  | .healing t => t

/-- A `SingleConsumer` (kiel/clients/single.py:22) with the `consume`s that wait for messages, and
those that are not there yet. -/
structure SingleBusy (δ : Type) where
  base : Busy Unit δ
  starting : Dict Nat FirstPhase
  deriving DecidableEq, Repr

/-- What can happen.
* `call`: `consume` is called, at the time `now`, and runs until it waits
  (kiel/clients/consumer.py:73-130);
* `offsets`: an offset request is answered or fails, and this is handled
  (kiel/clients/client.py:81-102);
* `determined`: all have been, and the `consume` goes on until it waits again
  (kiel/clients/client.py:104-108, kiel/clients/consumer.py:96-130);
* `healed`: the `heal()` of kiel/clients/consumer.py:100 is done, and the `consume` goes on
  (102-130);
* `healFails`: that `heal()`, or the one at the end of the `send` of `determine_offsets`, raises;
* `base`: what can happen to `consume`s that wait for messages, and to the consumer otherwise. -/
inductive FirstEv (β : Type) where
  | call (i : Nat) (topic : String) (start : Start) (now : Int)
  | offsets (i : Nat) (broker : Int) (r : Res OResp)
  | determined (i : Nat)
  | healed (i : Nat)
  | healFails (i : Nat) (e : Exc)
  | base (ev : BEv Unit β)

/-- What is seen of it: requests (kiel/clients/client.py:76-79), `heal()` being called
(kiel/clients/consumer.py:100), and what `consume` returns or raises. -/
inductive FirstOut (δ : Type) where
  | nothing
  | asked (reqs : List OReq)
  | healing
  | sent (reqs : List FReq)
  | returned (topic : String) (out : Option (List δ))
  | raised (e : Exc)
  deriving DecidableEq, Repr

/-- What is seen of `consume`s that wait for messages (kiel/clients/consumer.py:130-136). -/
def BOut.first : BOut δ → FirstOut δ
  | .nothing => .nothing
  | .sent reqs => .sent reqs
  | .returned topic out => .returned topic out
  | .raised e => .raised e

/-- How a `consume` ends if `determine_offsets` raises (kiel/clients/consumer.py:91-95). -/
def determineEnd (topic : String) : Exc → FirstOut δ
  | .noOffsets => .returned topic (some [])
  | e => .raised e

/-- kiel/clients/consumer.py:106-130: the requests are made and sent. -/
def SingleBusy.fetch (cfg : CCfg β δ) (i : Nat) (topic : String) (parts : List Int)
    (s : SingleBusy δ) : FirstOut δ × SingleBusy δ :=
  match s.base.consumer.fetches cfg topic parts with
  | (.error e, c) => (.raised e, ⟨{ s.base with consumer := c }, s.starting.erase i⟩)
  | (.ok reqs, c) =>
    match sendStart (fun l => c.cluster.conns.has l) (cfg.write i "fetch") (reqs.map (·.broker)) with
    | some e => (.raised e, ⟨{ s.base with consumer := c }, s.starting.erase i⟩)
    | .none => (.sent reqs, ⟨⟨c, s.base.waiting.set i ⟨topic, reqs, []⟩⟩, s.starting.erase i⟩)

/-- kiel/clients/consumer.py:98-130: a `consume` of a topic the offsets of which are known, until
it waits. -/
def SingleBusy.proceed (cfg : CCfg β δ) (i : Nat) (topic : String) (s : SingleBusy δ) :
    FirstOut δ × SingleBusy δ :=
  match allocated s.base.consumer.cluster.topics topic with
  | some parts => s.fetch cfg i topic parts
  | .none => (.healing, { s with starting := s.starting.set i (.healing topic) })

/-- kiel/clients/single.py:44-87: `determine_offsets`, until it waits for the answers.
Serializing a request raises for the time (`offsetWrite`), or otherwise. -/
def SingleBusy.determine (cfg : CCfg β δ) (i : Nat) (topic : String) (start : Start) (now : Int)
    (s : SingleBusy δ) : FirstOut δ × SingleBusy δ :=
  let c : Single := s.base.consumer
  let (topics, parts) := c.cluster.topics.getDefault topic []
  match groupByLeader topic parts { c.cluster with topics := topics } [] with
  | (.error e, cl) => (determineEnd topic e, { s with base := { s.base with consumer := { c with cluster := cl } } })
  | (.ok ordered, cl) =>
    let c : Single := { c with cluster := cl }
    let reqs := ordered.map fun e => (⟨e.1, topic, startToTimestamp now start, e.2⟩ : OReq)
    match sendStart (fun l => cl.conns.has l) (offsetWrite (cfg.write i "offset") reqs)
        (reqs.map (·.broker)) with
    | some e => (determineEnd topic e, { s with base := { s.base with consumer := c } })
    | .none => (.asked reqs, ⟨{ s.base with consumer := c }, s.starting.set i (.determining topic reqs)⟩)

/-- One step (kiel/clients/consumer.py:72-136, kiel/clients/single.py:44-120,
kiel/clients/client.py:56-108).  Simplification: what `heal()` does, wherever it is called, is an
event of its own (`base (.other …)`). -/
def SingleBusy.step (cfg : CCfg β δ) (s : SingleBusy δ) : FirstEv β → FirstOut δ × SingleBusy δ
  | .call i topic start now =>
    if s.base.consumer.closing then (.returned topic .none, s)
    else if topic ∈ s.base.consumer.synced then s.proceed cfg i topic
    else s.determine cfg i topic start now
  | .offsets i broker r =>
    match s.starting.get? i with
    | some (.determining topic pending) =>
      if broker ∉ pending.map (·.broker) then (.nothing, s)
      else
        let left := pending.filter fun q => decide (q.broker ≠ broker)
        match r with
        | .error e =>
          (.nothing, ⟨{ s.base with consumer := if e = .streamClosed then s.base.consumer else { s.base.consumer with heal := true } },
            s.starting.set i (.determining topic left)⟩)
        | .ok resp =>
          match handleOffsetResponse resp s.base.consumer with
          | (.ok _, c) => (.nothing, ⟨{ s.base with consumer := c }, s.starting.set i (.determining topic left)⟩)
          | (.error e, c) => (determineEnd topic e, ⟨{ s.base with consumer := c }, s.starting.erase i⟩)
    | _ => (.nothing, s)
  | .determined i =>
    match s.starting.get? i with
    | some (.determining topic []) =>
      let c : Single := s.base.consumer
      let c : Single := { c with heal := false, synced := addSet c.synced topic }
      SingleBusy.proceed cfg i topic { s with base := { s.base with consumer := c } }
    | _ => (.nothing, s)
  | .healed i =>
    match s.starting.get? i with
    | some (.healing topic) =>
      match allocated s.base.consumer.cluster.topics topic with
      | some parts => s.fetch cfg i topic parts
      | .none => (.returned topic (some []), { s with starting := s.starting.erase i })
    | _ => (.nothing, s)
  | .healFails i e =>
    match s.starting.get? i with
    | some (.determining topic _) => (determineEnd topic e, { s with starting := s.starting.erase i })
    | some (.healing _) => (.raised e, { s with starting := s.starting.erase i })
    | .none => (.nothing, s)
  | .base (.consume _ _) => (.nothing, s)
  | .base ev => ((s.base.step Single.allocation cfg ev).1.first,
      { s with base := (s.base.step Single.allocation cfg ev).2 })

end Kiel
