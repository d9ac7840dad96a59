import Verif.Model.GroupOverlap
/-
kiel/clients/consumer.py and kiel/clients/grouped.py: whole `consume`s and `commit_offsets`s of one
`GroupedConsumer` that run at the same time, the determining of offsets included, coroutine switch
by coroutine switch.
-/
set_option autoImplicit false
namespace Kiel

variable {β δ : Type}

/-- Where a `consume` is that does not wait for messages yet: for the answer of the coordinator
`broker` to its request for the offsets of `parts` (kiel/clients/consumer.py:92,
kiel/clients/grouped.py:167); or, the answer having been handled, about to go on, with `retry`
(kiel/clients/grouped.py:168); or, the request having failed, about to find no result; or in the
`heal()` of kiel/clients/consumer.py:100. -/
inductive GroupPhase where
  | asking (topic : String) (parts : List Int) (broker : Int)
  | answered (topic : String) (parts : List Int) (broker : Int) (retry : Bool)
  | failed (topic : String)
  | healing (topic : String)
  deriving DecidableEq, Repr

/-- The topic of such a `consume` (kiel/clients/grouped.py:78). -/
def GroupPhase.topic : GroupPhase → String
  | .asking t _ _ => t
  | .answered t _ _ _ => t
  | .failed t => t
  | .healing t => t

/-- A `GroupedConsumer` (kiel/clients/grouped.py:18) with the `consume`s that wait for messages, the
commits under way, and the `consume`s that are not there yet. -/
structure GroupFirst (δ : Type) where
  group : GroupBusy δ
  starting : Dict Nat GroupPhase
  deriving DecidableEq, Repr

/-- What can happen.
* `call`: `consume` is called, and runs until it waits (kiel/clients/grouped.py:86,
  kiel/clients/consumer.py:87-130);
* `offsets`: its offset request is answered, and this is handled (kiel/clients/client.py:81-102);
* `offsetsFail`: that request fails, and this is handled (kiel/clients/client.py:84-95);
* `goOn`: the `send` of `determine_offsets` is done, with the `heal()` at its end, if any, and the
  `consume` goes on (kiel/clients/client.py:106-108, kiel/clients/grouped.py:166-168,
  kiel/clients/consumer.py:96-130);
* `healed`: the `heal()` of kiel/clients/consumer.py:100 is done, and the `consume` goes on;
* `healFails`: that `heal()`, or the one at the end of the `send` of `determine_offsets`, raises;
* `group`: what can happen to `consume`s that wait for messages, to commits, and to the consumer
  otherwise. -/
inductive FirstGroupEv (β : Type) where
  | call (i : Nat) (topic : String)
  | offsets (i : Nat) (r : OFResp)
  | offsetsFail (i : Nat) (e : Exc)
  | goOn (i : Nat)
  | healed (i : Nat)
  | healFails (i : Nat) (e : Exc)
  | group (ev : GroupEv β)

/-- What is seen of it: the request for offsets, to this broker, of these partitions of the topic
(kiel/clients/grouped.py:156-167), `heal()` being called (kiel/clients/consumer.py:100), and what
else there is to be seen. -/
inductive FirstGroupOut (δ : Type) where
  | wanted (broker : Int) (topic : String) (parts : List Int)
  | healing
  | group (out : GroupOut δ)
  deriving DecidableEq, Repr

/-- What is seen of the rest of a `consume` that is not `starting` any more
(kiel/clients/grouped.py:88-96). -/
def GroupFirst.leave (i : Nat) (x : GroupOut δ × GroupBusy δ) (s : GroupFirst δ) :
    FirstGroupOut δ × GroupFirst δ :=
  (.group x.1, ⟨x.2, s.starting.erase i⟩)

/-- kiel/clients/consumer.py:106-130: the requests are made and sent. -/
def GroupFirst.fetch (cfg : CCfg β δ) (i : Nat) (topic : String) (parts : List Int)
    (s : GroupFirst δ) : FirstGroupOut δ × GroupFirst δ :=
  match s.group.base.consumer.fetches cfg topic parts with
  | (.error e, c) => s.leave i (.raised e, { s.group with base := { s.group.base with consumer := c } })
  | (.ok reqs, c) =>
    match sendStart (fun l => c.cluster.conns.has l) (cfg.write i "fetch") (reqs.map (·.broker)) with
    | some e => s.leave i (.raised e, { s.group with base := { s.group.base with consumer := c } })
    | .none => s.leave i (.sent reqs,
        { s.group with base := ⟨c, s.group.base.waiting.set i ⟨topic, reqs, []⟩⟩ })

/-- kiel/clients/consumer.py:98-130: a `consume` of a topic the offsets of which are known, until
it waits. -/
def GroupFirst.proceed (cfg : CCfg β δ) (i : Nat) (topic : String) (s : GroupFirst δ) :
    FirstGroupOut δ × GroupFirst δ :=
  match Grouped.allocation s.group.base.consumer with
  | .error e => s.leave i (.raised e, s.group)
  | .ok a =>
    match allocated a topic with
    | some parts => s.fetch cfg i topic parts
    | .none => (.healing, { s with starting := s.starting.set i (.healing topic) })

/-- kiel/clients/grouped.py:167: the request is sent to the coordinator, if that is connected. -/
def GroupFirst.want (cfg : CCfg β δ) (i : Nat) (topic : String) (parts : List Int) (s : GroupFirst δ) :
    FirstGroupOut δ × GroupFirst δ :=
  match s.group.base.consumer.ext.coordinator with
  | .none => s.leave i (.raised .keyError, s.group)
  | some b =>
    if ¬ s.group.base.consumer.cluster.conns.has b then s.leave i (.raised .keyError, s.group)
    else
      match cfg.write i "offset_fetch" b with
      | some e => s.leave i (.raised e, s.group)
      | .none => (.wanted b topic parts, { s with starting := s.starting.set i (.asking topic parts b) })

/-- kiel/clients/grouped.py:142-167: `determine_offsets`, until it waits for the answer; looking
the topic up adds it to the allocation (160), if that is a `defaultdict`, and else raises. -/
def GroupFirst.determine (cfg : CCfg β δ) (i : Nat) (topic : String) (s : GroupFirst δ) :
    FirstGroupOut δ × GroupFirst δ :=
  let c : Grouped := s.group.base.consumer
  match c.ext.mapping with
  | .none => s.leave i (.raised .keyError, s.group)
  | some a =>
    if cfg.plain = true ∧ a.has topic = false then s.leave i (.raised .keyError, s.group)
    else
      let (a, parts) := Dict.getDefault a topic []
      let c : Grouped := { c with ext := { c.ext with mapping := some a } }
      GroupFirst.want cfg i topic parts
        { s with group := { s.group with base := { s.group.base with consumer := c } } }

/-- What becomes of a `consume` if `determine_offsets` raises: with a `NoOffsetsError`, the
`consume` of the base class returns nothing (kiel/clients/consumer.py:93-95). -/
def GroupFirst.undetermined (gcfg : GCfg) (cfg : CCfg β δ) (i : Nat) (topic : String) (e : Exc) (s : GroupFirst δ) :
    FirstGroupOut δ × GroupFirst δ :=
  match e with
  | .noOffsets => s.leave i (s.group.finish gcfg cfg i topic (some []))
  | e => s.leave i (.raised e, s.group)

/-- One step (kiel/clients/grouped.py:78-96, 142-210, kiel/clients/consumer.py:72-136,
kiel/clients/client.py:56-108).  Simplifications: those of `GroupBusy.step`, other than that about
the beginning of `consume`s; what `heal()` does, wherever it is called, is an event of its own
(`group (.base (.other …))`). -/
def GroupFirst.step (gcfg : GCfg) (cfg : CCfg β δ) (s : GroupFirst δ) :
    FirstGroupEv β → FirstGroupOut δ × GroupFirst δ
  | .call i topic =>
    if s.group.base.consumer.closing then s.leave i (s.group.finish gcfg cfg i topic .none)
    else if topic ∈ s.group.base.consumer.synced then s.proceed cfg i topic
    else s.determine cfg i topic
  | .offsets i r =>
    match s.starting.get? i with
    | some (.asking topic parts b) =>
      match handleOffsetFetchResponse r s.group.base.consumer with
      | (.ok retry, c) => (.group .nothing,
          ⟨{ s.group with base := { s.group.base with consumer := c } },
            s.starting.set i (.answered topic parts b retry)⟩)
      | (.error e, c) => GroupFirst.undetermined gcfg cfg i topic e
          { s with group := { s.group with base := { s.group.base with consumer := c } } }
    | _ => (.group .nothing, s)
  | .offsetsFail i e =>
    match s.starting.get? i with
    | some (.asking topic _ _) =>
      let c : Grouped := s.group.base.consumer
      let c : Grouped := if e = .streamClosed then c else { c with heal := true }
      (.group .nothing, ⟨{ s.group with base := { s.group.base with consumer := c } },
        s.starting.set i (.failed topic)⟩)
    | _ => (.group .nothing, s)
  | .goOn i =>
    match s.starting.get? i with
    | some (.answered topic parts b retry) =>
      let c : Grouped := s.group.base.consumer
      let c : Grouped := { c with heal := false }
      if c.ext.coordinator ≠ some b then
        s.leave i (.raised .keyError, { s.group with base := { s.group.base with consumer := c } })
      else if retry then GroupFirst.want cfg i topic parts
        { s with group := { s.group with base := { s.group.base with consumer := c } } }
      else
        let c : Grouped := { c with synced := addSet c.synced topic }
        GroupFirst.proceed cfg i topic
          { s with group := { s.group with base := { s.group.base with consumer := c } } }
    | some (.failed _) =>
      let c : Grouped := s.group.base.consumer
      let c : Grouped := { c with heal := false }
      s.leave i (.raised .keyError, { s.group with base := { s.group.base with consumer := c } })
    | _ => (.group .nothing, s)
  | .healed i =>
    match s.starting.get? i with
    | some (.healing topic) =>
      match Grouped.allocation s.group.base.consumer with
      | .error e => s.leave i (.raised e, s.group)
      | .ok a =>
        match allocated a topic with
        | some parts => s.fetch cfg i topic parts
        | .none => s.leave i (s.group.finish gcfg cfg i topic (some []))
    | _ => (.group .nothing, s)
  | .healFails i e =>
    match s.starting.get? i with
    | some (.asking _ _ _) => (.group .nothing, s)
    | some (.answered topic _ _ _) => s.undetermined gcfg cfg i topic e
    | some (.failed topic) => s.undetermined gcfg cfg i topic e
    | some (.healing _) => s.leave i (.raised e, s.group)
    | .none => (.group .nothing, s)
  | .group (.base (.consume _ _)) => (.group .nothing, s)
  | .group ev => (.group (s.group.step gcfg cfg ev).1, { s with group := (s.group.step gcfg cfg ev).2 })

end Kiel
