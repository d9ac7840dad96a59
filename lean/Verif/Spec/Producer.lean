import Verif.Model.Producer
import Verif.Spec.Answers
import Verif.Spec.Codes
/-
What the properties of the producer speak of: queues, contents of requests, placements.
-/
set_option autoImplicit false
namespace Kiel.Spec

variable {α κ β γ : Type}

/-- The messages of a queue, with their topics. -/
def inQueue (q : Dict String (List (Msg κ β))) : List (String × Msg κ β) :=
  q.flatMap fun e => e.2.map fun m => (e.1, m)

/-- The messages of one request, with their topics. -/
def inRequest (ts : ByPartition κ β) : List (String × Msg κ β) :=
  ts.flatMap fun t => t.2.flatMap fun p => p.2.map fun m => (t.1, m)

/-- The messages of all requests that the producer keeps track of. -/
def inSent (sent : Dict Int (ByPartition κ β)) : List (String × Msg κ β) :=
  sent.flatMap fun e => inRequest e.2

/-- The queue of a topic. -/
def queueOf (q : Dict String (List (Msg κ β))) (t : String) : List (Msg κ β) := (q.get? t).getD []

/-- The messages kept for a partition of a request. -/
def sentFor (sent : Dict Int (ByPartition κ β)) (corr : Int) (t : String) (part : Int) :
    Option (List (Msg κ β)) :=
  (((sent.get? corr).getD []).get? t).bind fun ps => ps.get? part

/-- Where one message went: the partition chosen for it and the broker leading that. -/
structure Place (κ β : Type) where
  topic : String
  msg : Msg κ β
  part : Int
  leader : Int

/-- `pl` are the placements of the messages of the queue: every message of the queue is
placed once; topics are taken newest first, messages of a topic in their order; the `n`-th
message is placed by the `n`-th call of the partitioner, which is given its key and the
topic's partitions; its leader is the one the cluster knows. -/
structure Placements (pick : Nat → κ → List Int → Res Int) (cl : Cluster)
    (q : Dict String (List (Msg κ β))) (pl : List (Place κ β)) : Prop where
  all : pl.map (fun x => (x.topic, x.msg)) = inQueue q.reverse
  picked : ∀ i (h : i < pl.length),
    pick i pl[i].msg.key ((cl.topics.get? pl[i].topic).getD []) = .ok pl[i].part
  led : ∀ x ∈ pl, ((cl.leaders.get? x.topic).getD []).get? x.part = some x.leader

/-- The partitioner raises for the message, or the cluster knows no leader for the partition it
chooses. -/
def Unplaceable (pick : Nat → κ → List Int → Res Int) (cl : Cluster) (t : String) (m : Msg κ β)
    (e : Exc) : Prop :=
  ∃ n, pick n m.key ((cl.topics.get? t).getD []) = .error e ∨
    ∃ part, pick n m.key ((cl.topics.get? t).getD []) = .ok part ∧
      ((cl.leaders.get? t).getD []).get? part = .none ∧ e = .keyError

/-- The messages placed on a partition with the given leader, in order. -/
def placedOn (pl : List (Place κ β)) (leader : Int) (t : String) (part : Int) :
    List (Msg κ β) :=
  (pl.filter fun x => decide (x.leader = leader ∧ x.topic = t ∧ x.part = part)).map (·.msg)

/-- The messages of a topic whose leader is not connected, in order. -/
def unplaced (cl : Cluster) (pl : List (Place κ β)) (t : String) : List (Msg κ β) :=
  (pl.filter fun x => decide (x.topic = t) && !cl.conns.has x.leader).map (·.msg)

/-- Some request to broker `b` holds `set` for partition `part` of topic `t`. -/
def Holds (reqs : List (PReq γ)) (b : Int) (t : String) (part : Int) (set : γ) : Prop :=
  ∃ r ∈ reqs, r.broker = b ∧ ∃ e ∈ r.topics, e.1 = t ∧ (part, set) ∈ e.2

/-- No two requests for one broker or with one correlation id, no two entries for one topic in a
request, no two for one partition; no empty requests or entries. -/
def NoRepeats (reqs : List (PReq γ)) : Prop :=
  (reqs.map (·.broker)).Nodup ∧ (reqs.map (·.corr)).Nodup ∧
  ∀ r ∈ reqs, r.topics ≠ [] ∧ (r.topics.map (·.1)).Nodup ∧
    ∀ e ∈ r.topics, e.2 ≠ [] ∧ (e.2.map (·.1)).Nodup

/-- The response reports a retriable error for the partition. -/
def RetriableIn (r : PResp) (t : String) (part : Int) : Prop :=
  ∃ code, Retriable code ∧ (t, part, code) ∈ r.answers

instance (r : PResp) (t : String) (part : Int) : Decidable (RetriableIn r t part) :=
  decidable_of_iff (∃ a ∈ r.answers, a.1 = t ∧ a.2.1 = part ∧
      Retriable a.2.2) <| by
    constructor
    · rintro ⟨⟨t', p', c⟩, h, rfl, rfl, hc⟩
      exact ⟨c, hc, h⟩
    · rintro ⟨c, hc, h⟩
      exact ⟨_, h, rfl, rfl, hc⟩

/-- The messages of a request that an answer settles: those of the partitions that it does
not report a retriable error for. -/
def settled (ts : ByPartition κ β) (r : PResp) : List (String × Msg κ β) :=
  ts.flatMap fun t => (t.2.filter fun p => decide (¬ RetriableIn r t.1 p.1)).flatMap fun p =>
    p.2.map fun m => (t.1, m)

/-- The messages for which an answer reports a retriable error, in the order of the answer,
for one topic. -/
def retried (sent : Dict Int (ByPartition κ β)) (r : PResp) (t : String) : List (Msg κ β) :=
  r.answers.flatMap fun a =>
    if a.1 = t ∧ Retriable a.2.2 then (sentFor sent r.corr t a.2.1).getD [] else []

/-- An answer as brokers give it: about each partition of the request, once, with a code
of the protocol. -/
structure Proper (ts : ByPartition κ β) (r : PResp) : Prop where
  about : ∀ t part, (∃ ps ms, ts.get? t = some ps ∧ ps.get? part = some ms) ↔
    (t, part) ∈ r.answers.map fun a => (a.1, a.2.1)
  once : (r.answers.map fun a => (a.1, a.2.1)).Nodup
  codes : ∀ a ∈ r.answers, KnownCode a.2.2

/-- The message that an event makes the producer accept, if any. -/
def accepted (cfg : PCfg α κ β) (p : Producer κ β) : PEv α κ β γ → List (String × Msg κ β)
  | .produce t a => if p.closing ∨ ¬ p.cluster.topics.has t then [] else msg t a
  | .resume t a => if ¬ p.cluster.topics.has t then [] else msg t a
  | _ => []
where
  msg (t : String) (a : α) : List (String × Msg κ β) :=
    match cfg.keyMaker a, cfg.serializer a with
    | .ok k, .ok v => [(t, ⟨k, v⟩)]
    | _, _ => []

/-- The messages that an event settles. -/
def settledBy (p : Producer κ β) : PEv α κ β γ → List (String × Msg κ β)
  | .answer r => settled ((p.sent.get? r.corr).getD []) r
  | _ => []

/-- The events during which nothing is to be raised: flushes and answers. -/
def PEv.critical : PEv α κ β γ → Bool
  | .flush _ _ => true
  | .answer _ => true
  | _ => false

/-- A history from `p`: no flush and no handling of an answer raises; `acc` was accepted and
`fin` settled in it; it ends in the last producer. -/
inductive History (cfg : PCfg α κ β) : Producer κ β → List (PEv α κ β γ) →
    List (String × Msg κ β) → List (String × Msg κ β) → Producer κ β → Prop
  | nil (p) : History cfg p [] [] [] p
  | cons {p ev p' e evs acc fin p''} (hstep : p.step cfg ev = (e, p'))
      (hok : PEv.critical ev = true → e = .none) (hrest : History cfg p' evs acc fin p'') :
      History cfg p (ev :: evs) (accepted cfg p ev ++ acc) (settledBy p ev ++ fin) p''

end Kiel.Spec
