import Verif.Model.Producer
/-
kiel/clients/producer.py: calls of `produce`, `flush` and `close` of one producer that run at the same
time, coroutine switch by coroutine switch.
-/
set_option autoImplicit false
namespace Kiel

/-- What a flush is given when it begins: what the partitioner and the compression do, and the
exceptions raised when serializing requests (as in `FlushEnv`). -/
structure FlushStart (κ β γ : Type) where
  pick : Nat → κ → List Int → Res Int
  comp : List (Msg κ β) → Res γ
  write : Int → Option Exc

/-- Where a call is.
* `finding`: a `produce` in the `heal()` of kiel/clients/producer.py:99;
* `sending`: in the loop of `send` (kiel/clients/client.py:81-102), called by `flush`
  (kiel/clients/producer.py:190), with the requests that have not been settled; `stop`: the flush is
  that of `close`, so that `cluster.stop()` is to follow (kiel/clients/client.py:43-45);
* `healing`: in the `heal()` at the end of that `send` (kiel/clients/client.py:105). -/
inductive Producing (α γ : Type) where
  | finding (topic : String) (message : α)
  | sending (left : List (PReq γ)) (stop : Bool)
  | healing (stop : Bool)
  deriving DecidableEq, Repr

/-- A producer and its calls under way, numbered in some way.  The producer's part of them is in the
producer; a `produce` that has queued its message and flushes is a flush from then on
(kiel/clients/producer.py:114-115). -/
structure ProducerBusy (α κ β γ : Type) where
  producer : Producer κ β
  calls : Dict Nat (Producing α γ)

/-- What can happen.
* `produce`, `flush`, `close`: a call begins, and runs until it first has to wait;
* `found`: the `heal()` of a `produce` returns or raises (what it does to the cluster is `cluster`);
* `outcome`: a request is answered or fails, and this is handled (kiel/clients/client.py:81-102).  Of
  the answer only the topics are given: responses are handed out by correlation id
  (kiel/connection.py:125-126 and 148-151, see `Model/Connection.lean`), so that it has the request's;
* `goOn`: the loop of a `send` ends (kiel/clients/client.py:104-108);
* `healed`: the `heal()` of a `send` returns or raises;
* `cluster`: connections come and go, metadata changes;
* `others`: other clients of this process create requests. -/
inductive ProduceEv (α κ β γ : Type) where
  | produce (i : Nat) (topic : String) (message : α) (env : FlushStart κ β γ)
  | flush (i : Nat) (env : FlushStart κ β γ)
  | close (i : Nat) (env : FlushStart κ β γ)
  | found (i : Nat) (r : Res Unit) (env : FlushStart κ β γ)
  | outcome (i : Nat) (broker : Int) (r : Res (List (String × List (Int × Int))))
  | goOn (i : Nat)
  | healed (i : Nat) (r : Res Unit)
  | cluster (cl : Cluster)
  | others (n : Nat)

/-- What is seen of it: `heal()` is called, requests are sent, the call raises or returns.  `given`: the
requests given to the `send` that raised before its loop; those before the failing one have been sent. -/
inductive ProduceOut (γ : Type) where
  | nothing
  | heals
  | sent (reqs : List (PReq γ))
  | raised (e : Exc) (given : List (PReq γ))
  | returned
  deriving DecidableEq, Repr

variable {α κ β γ : Type}

/-- The end of a call that does not raise; for `close`, with `cluster.stop()`
(kiel/clients/client.py:45). -/
def ProducerBusy.over (s : ProducerBusy α κ β γ) (i : Nat) (stop : Bool) :
    ProduceOut γ × ProducerBusy α κ β γ :=
  (.returned,
    ⟨if stop then { s.producer with cluster := s.producer.cluster.stop } else s.producer,
      s.calls.erase i⟩)

/-- A call that ends by raising. -/
def ProducerBusy.fails (s : ProducerBusy α κ β γ) (i : Nat) (e : Exc)
    (given : List (PReq γ) := []) : ProduceOut γ × ProducerBusy α κ β γ :=
  (.raised e given, { s with calls := s.calls.erase i })

/-- kiel/clients/producer.py:127-190 (`flush`) up to the loop of its `send`
(kiel/clients/client.py:76-79).  When `send` raises there, the requests before the failing one have
been sent; their responses go unhandled (see `sendStart`). -/
def ProducerBusy.flushes (s : ProducerBusy α κ β γ) (i : Nat) (env : FlushStart κ β γ)
    (stop : Bool) : ProduceOut γ × ProducerBusy α κ β γ :=
  match s.producer.prepare env.pick env.comp with
  | (.error e, p) => { s with producer := p }.fails i e
  | (.ok .none, p) => { s with producer := p }.over i stop
  | (.ok (some reqs), p) =>
    match sendStart (fun b => p.cluster.conns.has b) env.write (reqs.map (·.broker)) with
    | some e => { s with producer := p }.fails i e reqs
    | .none => (.sent reqs, ⟨p, s.calls.set i (.sending reqs stop)⟩)

/-- kiel/clients/producer.py:105-115: the part of `produce` after the topic has been found. -/
def ProducerBusy.queues (cfg : PCfg α κ β) (s : ProducerBusy α κ β γ) (i : Nat) (topic : String)
    (message : α) (env : FlushStart κ β γ) : ProduceOut γ × ProducerBusy α κ β γ :=
  match s.producer.enqueue cfg topic message with
  | (.error e, p) => { s with producer := p }.fails i e
  | (.ok true, p) => { s with producer := p }.flushes i env false
  | (.ok false, p) => { s with producer := p }.over i false

/-- One step: kiel/clients/producer.py:78-115 (`produce`), kiel/clients/producer.py:127-190 (`flush`),
kiel/clients/producer.py:225-230 (`wind_down`), kiel/clients/client.py:34-45 (`close`),
kiel/clients/client.py:56-108 (`send`).  A number that is in use is not given to another call. -/
def ProducerBusy.step (cfg : PCfg α κ β) (s : ProducerBusy α κ β γ) :
    ProduceEv α κ β γ → ProduceOut γ × ProducerBusy α κ β γ
  | .produce i topic message env =>
    if s.calls.has i then (.nothing, s)
    else if s.producer.closing then s.over i false
    else if s.producer.cluster.topics.has topic then s.queues cfg i topic message env
    else (.heals, { s with calls := s.calls.set i (.finding topic message) })
  | .flush i env => if s.calls.has i then (.nothing, s) else s.flushes i env false
  | .close i env =>
    if s.calls.has i then (.nothing, s)
    else { s with producer := { s.producer with closing := true } }.flushes i env true
  | .found i r env =>
    match s.calls.get? i with
    | some (.finding topic message) =>
      match r with
      | .error e => s.fails i e
      | .ok _ =>
        if s.producer.cluster.topics.has topic then s.queues cfg i topic message env
        else s.over i false
    | _ => (.nothing, s)
  | .outcome i b r =>
    match s.calls.get? i with
    | some (.sending left stop) =>
      match left.find? (fun q => decide (q.broker = b)) with
      | .none => (.nothing, s)
      | some req =>
        let left' := left.filter fun q => decide (q.broker ≠ b)
        match r with
        | .error e =>
          (.nothing, ⟨if e = .streamClosed then s.producer else { s.producer with heal := true },
            s.calls.set i (.sending left' stop)⟩)
        | .ok topics =>
          match s.producer.handleResponse ⟨req.corr, topics⟩ with
          | (.error e, p) => { s with producer := p }.fails i e
          | (.ok _, p) => (.nothing, ⟨p, s.calls.set i (.sending left' stop)⟩)
    | _ => (.nothing, s)
  | .goOn i =>
    match s.calls.get? i with
    | some (.sending [] stop) =>
      if s.producer.heal then (.heals, { s with calls := s.calls.set i (.healing stop) })
      else s.over i stop
    | _ => (.nothing, s)
  | .healed i r =>
    match s.calls.get? i with
    | some (.healing stop) =>
      match r with
      | .error e => s.fails i e
      | .ok _ => { s with producer := { s.producer with heal := false } }.over i stop
    | _ => (.nothing, s)
  | .cluster cl => (.nothing, { s with producer := { s.producer with cluster := cl } })
  | .others n => (.nothing, { s with producer := { s.producer with lastId := s.producer.lastId + n } })

end Kiel
