import Verif.Model.Client
/-
kiel/clients/producer.py.

`κ`, `β`: keys and serialized values of messages; `γ`: message sets ready to be put in a
request.
-/
set_option autoImplicit false
namespace Kiel

/-- `d[k]` of a `defaultdict` followed by a change of the value in place. -/
def Dict.upd {κ ν : Type} [DecidableEq κ] (d : Dict κ ν) (k : κ) (dflt : ν) (f : ν → ν) :
    Dict κ ν :=
  d.set k (f ((d.get? k).getD dflt))

/-- kiel/protocol/messages.py:148-171 (`Message`), as far as the producer sees it; `magic` and
`attributes` are 0 (kiel/clients/producer.py:107-108). -/
structure Msg (κ β : Type) where
  key : κ
  value : β
  deriving DecidableEq, Repr

/-- topic -> partition -> messages, for one request. -/
abbrev ByPartition (κ β : Type) := Dict String (Dict Int (List (Msg κ β)))

set_option synthInstance.maxSize 2000 in
instance {κ β : Type} [DecidableEq κ] [DecidableEq β] : DecidableEq (ByPartition κ β) :=
  inferInstanceAs (DecidableEq (List (String × List (Int × List (Msg κ β)))))

set_option synthInstance.maxSize 2000 in
instance {κ β : Type} [DecidableEq κ] [DecidableEq β] :
    DecidableEq (Dict Int (ByPartition κ β)) :=
  inferInstanceAs (DecidableEq (List (Int × ByPartition κ β)))

set_option synthInstance.maxSize 2000 in
/-- The attributes of a `Producer` (kiel/clients/producer.py:64-69) and of its base class
(kiel/clients/client.py:22-25), and the process-wide `last_id` of kiel/protocol/request.py:19-34. -/
structure Producer (κ β : Type) where
  cluster : Cluster
  unsent : Dict String (List (Msg κ β))
  sent : Dict Int (ByPartition κ β)
  heal : Bool
  closing : Bool
  lastId : Int
  deriving DecidableEq, Repr

/-- The functions and options given to `Producer(...)` (kiel/clients/producer.py:27-62).
`batchSize`: 0 also stands for `None`. -/
structure PCfg (α κ β : Type) where
  keyMaker : α → Res κ
  serializer : α → Res β
  batchSize : Int

/-- `SUPPORTED_COMPRESSION` (kiel/constants.py:3-8) and the check of
kiel/clients/producer.py:40-44. -/
def checkCompression (c : Option Int) : Res Unit :=
  if c ∈ [.none, some 1, some 2] then .ok () else .error .valueError

/-- A produce request as built by `flush`: the broker it is for, its correlation id, and
per topic and partition the message set. -/
structure PReq (γ : Type) where
  broker : Int
  corr : Int
  topics : List (String × List (Int × γ))
  deriving DecidableEq, Repr

section
variable {α κ β γ : Type}

/-- kiel/clients/producer.py:38 and 64-69: a new producer, its cluster and the state of
`last_id` being given. -/
def Producer.new (cl : Cluster) (lastId : Int) : Producer κ β := ⟨cl, [], [], false, false, lastId⟩

/-- kiel/clients/producer.py:71-76 (`unsent_count`). -/
def Producer.unsentCount (p : Producer κ β) : Nat := (p.unsent.vals.map List.length).sum

/-- kiel/clients/producer.py:117-125 (`queue_retries`). -/
def Producer.queueRetries (p : Producer κ β) (topic : String) (msgs : List (Msg κ β)) :
    Producer κ β :=
  { p with unsent := p.unsent.upd topic [] (· ++ msgs), heal := true }

set_option synthInstance.maxSize 2000 in
/-- `ordered` and `to_retry` of kiel/clients/producer.py:144-150. -/
structure Routing (κ β : Type) where
  ordered : Dict Int (ByPartition κ β)
  retry : Dict String (List (Msg κ β))
  deriving DecidableEq, Repr

/-- kiel/clients/producer.py:161: `ordered[leader][topic][partition].append(msg)`. -/
def putOrdered (o : Dict Int (ByPartition κ β)) (leader : Int) (topic : String)
    (partition : Int) (msg : Msg κ β) : Dict Int (ByPartition κ β) :=
  o.upd leader [] fun ts => ts.upd topic [] fun ps => ps.upd partition [] (· ++ [msg])

/-- The loop of kiel/clients/producer.py:153-161 over the messages of one topic.
`pick n key partitions`: what the `n`-th call of the partitioner in this flush does (it may
be random).  `cluster.topics` is a `defaultdict`: an unknown topic is inserted with no
partitions. -/
def routeMsgs (pick : Nat → κ → List Int → Res Int) (topic : String) :
    Nat → List (Msg κ β) → Cluster → Routing κ β → Res (Routing κ β) × Cluster
  | _, [], cl, r => (.ok r, cl)
  | n, m :: ms, cl, r =>
    let (topics, parts) := cl.topics.getDefault topic []
    let cl := { cl with topics := topics }
    match pick n m.key parts with
    | .error e => (.error e, cl)
    | .ok part =>
      match cl.getLeader topic part with
      | (.error e, cl) => (.error e, cl)
      | (.ok leader, cl) =>
        if ¬ cl.conns.has leader then
          routeMsgs pick topic (n + 1) ms cl
            { r with retry := r.retry.upd topic [] (· ++ [m]) }
        else
          routeMsgs pick topic (n + 1) ms cl
            { r with ordered := putOrdered r.ordered leader topic part m }

/-- The loop of kiel/clients/producer.py:152-161: `drain` takes the topics newest first (see
`C35_order`; the loop adds nothing to `unsent`); the list is what is left of `unsent`,
newest first.  Also the topics not yet taken when an exception ends the loop. -/
def routeTopics (pick : Nat → κ → List Int → Res Int) :
    Nat → List (String × List (Msg κ β)) → Cluster → Routing κ β →
      Res (Routing κ β) × Cluster × List (String × List (Msg κ β))
  | _, [], cl, r => (.ok r, cl, [])
  | n, (topic, ms) :: rest, cl, r =>
    match routeMsgs pick topic n ms cl r with
    | (.error e, cl) => (.error e, cl, rest)
    | (.ok r, cl) => routeTopics pick (n + ms.length) rest cl r

/-- kiel/clients/producer.py:174-185: the partitions of one topic of one request.
`comp`: `MessageSet.compressed(self.compression, msgs)`, see `compressedSet`. -/
def buildParts (comp : List (Msg κ β) → Res γ) (corr : Int) (topic : String) :
    Dict Int (List (Msg κ β)) → Dict Int (ByPartition κ β) → List (Int × γ) →
      Res (List (Int × γ)) × Dict Int (ByPartition κ β)
  | [], sent, acc => (.ok acc, sent)
  | (part, msgs) :: rest, sent, acc =>
    match comp msgs with
    | .error e => (.error e, sent)
    | .ok set =>
      buildParts comp corr topic rest
        (sent.upd corr [] fun ts => ts.upd topic [] fun ps => ps.set part msgs)
        (acc ++ [(part, set)])

/-- kiel/clients/producer.py:170-185: the topics of one request. -/
def buildTopics (comp : List (Msg κ β) → Res γ) (corr : Int) :
    ByPartition κ β → Dict Int (ByPartition κ β) → List (String × List (Int × γ)) →
      Res (List (String × List (Int × γ))) × Dict Int (ByPartition κ β)
  | [], sent, acc => (.ok acc, sent)
  | (topic, parts) :: rest, sent, acc =>
    match buildParts comp corr topic parts sent [] with
    | (.error e, sent) => (.error e, sent)
    | (.ok ps, sent) => buildTopics comp corr rest sent (acc ++ [(topic, ps)])

/-- kiel/clients/producer.py:163-185: one request per leader.  Result, `sent`, `last_id`. -/
def buildRequests (comp : List (Msg κ β) → Res γ) :
    Dict Int (ByPartition κ β) → Dict Int (ByPartition κ β) → Int → List (PReq γ) →
      Res (List (PReq γ)) × Dict Int (ByPartition κ β) × Int
  | [], sent, lastId, acc => (.ok acc, sent, lastId)
  | (leader, topics) :: rest, sent, lastId, acc =>
    match buildTopics comp (lastId + 1) topics sent [] with
    | (.error e, sent) => (.error e, sent, lastId + 1)
    | (.ok ts, sent) =>
      buildRequests comp rest sent (lastId + 1) (acc ++ [⟨leader, lastId + 1, ts⟩])

/-- kiel/clients/producer.py:127-188 (`flush` up to `self.send(requests)`; nothing else runs
meanwhile): the requests it is about to send, or the exception it raises.  `none`: nothing to
do. -/
def Producer.prepare (pick : Nat → κ → List Int → Res Int) (comp : List (Msg κ β) → Res γ)
    (p : Producer κ β) : Res (Option (List (PReq γ))) × Producer κ β :=
  if p.unsent.isEmpty then (.ok .none, p)
  else
    match routeTopics pick 0 p.unsent.reverse p.cluster ⟨[], []⟩ with
    | (.error e, cl, rest) => (.error e, { p with cluster := cl, unsent := rest.reverse })
    | (.ok r, cl, _) =>
      match buildRequests comp r.ordered p.sent p.lastId [] with
      | (.error e, sent, lastId) =>
        (.error e, { p with cluster := cl, unsent := [], sent := sent, lastId := lastId })
      | (.ok reqs, sent, lastId) =>
        (.ok (some reqs), r.retry.foldl (fun p e => p.queueRetries e.1 e.2)
          { p with cluster := cl, unsent := [], sent := sent, lastId := lastId })

/-- kiel/protocol/produce.py:66-107 (`ProduceResponse`): its correlation id and per topic the
partition ids and error codes.  The offsets are not used by the producer and left out. -/
structure PResp where
  corr : Int
  topics : List (String × List (Int × Int))
  deriving DecidableEq, Repr

/-- The body of the loop kiel/clients/producer.py:209-221. -/
def Producer.handlePart (p : Producer κ β) (corr : Int) (topic : String) (part code : Int) :
    Res Unit × Producer κ β :=
  if code = Err.noError then (.ok (), p)
  else if code ∈ Err.retriable then
    let ts := (p.sent.get? corr).getD []
    let ps := (ts.get? topic).getD []
    match ps.get? part with
    | .none => (.error .keyError, { p with sent := p.sent.set corr (ts.set topic ps) })
    | some msgs =>
      (.ok (), { p with sent := p.sent.set corr (ts.set topic (ps.erase part)) }.queueRetries
        topic msgs)
  else
    match errorCodes.get? code with
    | .none => (.error .keyError, p)
    | some _ => (.ok (), p)

/-- The inner loop of kiel/clients/producer.py:207-221; each partition comes with its topic. -/
def Producer.handleParts (corr : Int) :
    List (String × Int × Int) → Producer κ β → Res Unit × Producer κ β
  | [], p => (.ok (), p)
  | (topic, part, code) :: rest, p =>
    match p.handlePart corr topic part code with
    | (.error e, p) => (.error e, p)
    | (.ok _, p) => Producer.handleParts corr rest p

/-- The outer loop of kiel/clients/producer.py:207-221. -/
def Producer.handleTopics (corr : Int) :
    List (String × List (Int × Int)) → Producer κ β → Res Unit × Producer κ β
  | [], p => (.ok (), p)
  | (topic, parts) :: rest, p =>
    match Producer.handleParts corr (parts.map fun a => (topic, a.1, a.2)) p with
    | (.error e, p) => (.error e, p)
    | (.ok _, p) => Producer.handleTopics corr rest p

/-- kiel/clients/producer.py:192-223 (`handle_produce_response`). -/
def Producer.handleResponse (p : Producer κ β) (r : PResp) : Res Unit × Producer κ β :=
  match Producer.handleTopics r.corr r.topics p with
  | (.error e, p) => (.error e, p)
  | (.ok _, p) =>
    if p.sent.has r.corr then (.ok (), { p with sent := p.sent.erase r.corr })
    else (.error .keyError, p)

/-- The handlers of a `Producer`, with the heal flag kept in the state of the producer. -/
def producerHandlers : Handlers (Producer κ β) PResp Unit where
  api _ := "produce"
  handle r := some fun p =>
    match p.handleResponse r with
    | (res, p') => (res, { p' with heal := false }, p'.heal)

/-- What the environment does during one `flush`: the partitioner, what becomes of the
requests (in order of completion), exceptions raised when serializing requests, and
`cluster.heal()`. -/
structure FlushEnv (κ β γ : Type) where
  pick : Nat → κ → List Int → Res Int
  comp : List (Msg κ β) → Res γ
  write : Int → Option Exc
  outcomes : List (PReq γ) → List (Int × Res PResp)
  healC : Cluster → Res Unit × Cluster

/-- kiel/clients/producer.py:127-190 (`flush`), when no other coroutine uses the producer
meanwhile: result, producer afterwards, and the requests given to `send`. -/
def Producer.flush (env : FlushEnv κ β γ) (p : Producer κ β) :
    Res Unit × Producer κ β × List (PReq γ) :=
  match p.prepare env.pick env.comp with
  | (.error e, p) => (.error e, p, [])
  | (.ok .none, p) => (.ok (), p, [])
  | (.ok (some reqs), p) =>
    match clientSend producerHandlers (fun b => p.cluster.conns.has b) env.write
        (fun p => ((env.healC p.cluster).1, { p with cluster := (env.healC p.cluster).2 }))
        (reqs.map (·.broker)) (env.outcomes reqs) { p with heal := false } p.heal with
    | (.error e, p, heal, _) => (.error e, { p with heal := heal }, reqs)
    | (.ok _, p, heal, _) => (.ok (), { p with heal := heal }, reqs)

/-- kiel/clients/producer.py:105-114: the part of `produce` after the topic has been found. -/
def Producer.enqueue (cfg : PCfg α κ β) (p : Producer κ β) (topic : String) (message : α) :
    Res Bool × Producer κ β :=
  let (unsent, _) := p.unsent.getDefault topic []
  let p := { p with unsent := unsent }
  match cfg.keyMaker message with
  | .error e => (.error e, p)
  | .ok key =>
    match cfg.serializer message with
    | .error e => (.error e, p)
    | .ok value =>
      let p := { p with unsent := p.unsent.upd topic [] (· ++ [⟨key, value⟩]) }
      (.ok (cfg.batchSize = 0 ∨ (p.unsentCount : Int) ≥ cfg.batchSize), p)

/-- kiel/clients/producer.py:78-115 (`produce`), when no other coroutine uses the producer
meanwhile: result, producer afterwards, and the requests sent. -/
def Producer.produce (cfg : PCfg α κ β) (env : FlushEnv κ β γ) (p : Producer κ β)
    (topic : String) (message : α) : Res Unit × Producer κ β × List (PReq γ) :=
  if p.closing then (.ok (), p, [])
  else
    let (healed, p) : Res Unit × Producer κ β :=
      if p.cluster.topics.has topic then (.ok (), p)
      else ((env.healC p.cluster).1, { p with cluster := (env.healC p.cluster).2 })
    match healed with
    | .error e => (.error e, p, [])
    | .ok _ =>
      if ¬ p.cluster.topics.has topic then (.ok (), p, [])
      else
        match p.enqueue cfg topic message with
        | (.error e, p) => (.error e, p, [])
        | (.ok true, p) => p.flush env
        | (.ok false, p) => (.ok (), p, [])

/-- kiel/clients/client.py:34-45 (`close`) with kiel/clients/producer.py:225-230
(`wind_down`).  `cluster.stop()` is reached only if the flush does not raise. -/
def Producer.close (env : FlushEnv κ β γ) (p : Producer κ β) :
    Res Unit × Producer κ β × List (PReq γ) :=
  match { p with closing := true }.flush env with
  | (.error e, p, reqs) => (.error e, p, reqs)
  | (.ok _, p, reqs) => (.ok (), { p with cluster := p.cluster.stop }, reqs)

/-- What can happen to a producer, coroutine switch by coroutine switch.
* `produce`: a call of `produce`; if the topic is unknown it goes to wait for `heal()`;
* `resume`: a `produce` goes on after `heal()`;
* `flush`: a call of `flush`, by `produce`, `close` or the application, up to its `send`;
* `answer`: a response comes in and is handled;
* `failed`: the request ends with an exception (kiel/clients/client.py:83-95);
* `cluster`: connections come and go, metadata changes;
* `healed`: the end of a `send` (kiel/clients/client.py:104-106);
* `others`: other clients of this process create requests;
* `close`: `closing` is set. -/
inductive PEv (α κ β γ : Type) where
  | produce (topic : String) (message : α)
  | resume (topic : String) (message : α)
  | flush (pick : Nat → κ → List Int → Res Int) (comp : List (Msg κ β) → Res γ)
  | answer (r : PResp)
  | failed (corr : Int) (e : Exc)
  | cluster (cl : Cluster)
  | healed
  | others (n : Nat)
  | close

/-- One such step: what it raises, if anything, and the producer afterwards. -/
def Producer.step (cfg : PCfg α κ β) (p : Producer κ β) : PEv α κ β γ → Option Exc × Producer κ β
  | .produce topic message =>
    if p.closing ∨ ¬ p.cluster.topics.has topic then (.none, p)
    else
      match p.enqueue cfg topic message with
      | (.error e, p) => (some e, p)
      | (.ok _, p) => (.none, p)
  | .resume topic message =>
    if ¬ p.cluster.topics.has topic then (.none, p)
    else
      match p.enqueue cfg topic message with
      | (.error e, p) => (some e, p)
      | (.ok _, p) => (.none, p)
  | .flush pick comp =>
    match p.prepare pick comp with
    | (.error e, p) => (some e, p)
    | (.ok _, p) => (.none, p)
  | .answer r =>
    match p.handleResponse r with
    | (.error e, p) => (some e, p)
    | (.ok _, p) => (.none, p)
  | .failed _ e => (.none, if e = .streamClosed then p else { p with heal := true })
  | .cluster cl => (.none, { p with cluster := cl })
  | .healed => (.none, { p with heal := false })
  | .others n => (.none, { p with lastId := p.lastId + n })
  | .close => (.none, { p with closing := true })

end

end Kiel
