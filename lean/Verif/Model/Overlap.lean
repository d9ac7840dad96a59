import Verif.Model.Consumer
/-
kiel/clients/consumer.py and kiel/clients/client.py: `consume`s of one consumer that run at the
same time, coroutine switch by coroutine switch.
-/
set_option autoImplicit false
namespace Kiel

variable {ε β δ : Type}

/-- A `consume` that is waiting for answers (kiel/clients/client.py:76-102): its topic, the
requests that have not been answered, and `results`. -/
structure Waiting (δ : Type) where
  topic : String
  pending : List FReq
  results : Dict Int (List δ)
  deriving DecidableEq, Repr

/-- A consumer and the `consume`s under way, numbered in some way. -/
structure Busy (ε δ : Type) where
  consumer : Consumer ε
  waiting : Dict Nat (Waiting δ)
  deriving DecidableEq, Repr

/-- What can happen.
* `consume`: a call of `consume`, up to where it waits for answers
  (kiel/clients/consumer.py:72-130, kiel/clients/client.py:76-79);
* `outcome`: a request of a `consume` is answered or fails, and this is handled
  (kiel/clients/client.py:81-102);
* `finish`: all have been, and the `consume` returns (kiel/clients/client.py:104-108,
  kiel/clients/consumer.py:130-136);
* `healFails`: the `heal()` on kiel/clients/client.py:105 raises, and with it the `consume`;
* `other`: anything else: heals, rebalances. -/
inductive BEv (ε β : Type) where
  | consume (i : Nat) (topic : String)
  | outcome (i : Nat) (broker : Int) (r : Res (FResp β))
  | finish (i : Nat)
  | healFails (i : Nat) (e : Exc)
  | other (f : Consumer ε → Consumer ε)

/-- What is seen of it. -/
inductive BOut (δ : Type) where
  | nothing
  | sent (reqs : List FReq)
  | returned (topic : String) (out : Option (List δ))
  | raised (e : Exc)
  deriving DecidableEq, Repr

/-- One step.  Simplifications: `determine_offsets` and the `heal()` for a topic without
partitions (kiel/clients/consumer.py:90-100) are left out, that is a `consume` begins when they
are done (`nothing` otherwise); the `heal()` at the end of
`send` is an event of its own (`other`, or `healFails`). -/
def Busy.step (allocation : Consumer ε → Res (Dict String (List Int))) (cfg : CCfg β δ)
    (b : Busy ε δ) : BEv ε β → BOut δ × Busy ε δ
  | .consume i topic =>
    if b.consumer.closing then (.returned topic .none, b)
    else if topic ∉ b.consumer.synced then (.nothing, b)
    else
      match allocation b.consumer with
      | .error e => (.raised e, b)
      | .ok a =>
        match allocated a topic with
        | .none => (.nothing, b)
        | some parts =>
          match b.consumer.fetches cfg topic parts with
          | (.error e, c) => (.raised e, { b with consumer := c })
          | (.ok reqs, c) =>
            match sendStart (fun l => c.cluster.conns.has l) (cfg.write i "fetch")
                (reqs.map (·.broker)) with
            | some e => (.raised e, { b with consumer := c })
            | .none => (.sent reqs, ⟨c, b.waiting.set i ⟨topic, reqs, []⟩⟩)
  | .outcome i broker r =>
    match b.waiting.get? i with
    | .none => (.nothing, b)
    | some w =>
      if broker ∉ w.pending.map (·.broker) then (.nothing, b)
      else
        let left := w.pending.filter fun q => decide (q.broker ≠ broker)
        match r with
        | .error e =>
          (.nothing, ⟨if e = .streamClosed then b.consumer else { b.consumer with heal := true },
            b.waiting.set i { w with pending := left }⟩)
        | .ok resp =>
          match handleFetchResponse cfg resp b.consumer with
          | (.error e, c) => (.raised e, ⟨c, b.waiting.erase i⟩)
          | (.ok x, c) =>
            (.nothing, ⟨c, b.waiting.set i ⟨w.topic, left, w.results.set broker x⟩⟩)
  | .finish i =>
    match b.waiting.get? i with
    | .none => (.nothing, b)
    | some w =>
      if w.pending ≠ [] then (.nothing, b)
      else (.returned w.topic (some (w.results.vals.flatten.filter cfg.truthy)),
        ⟨{ b.consumer with heal := false }, b.waiting.erase i⟩)
  | .healFails i e =>
    match b.waiting.get? i with
    | .none => (.nothing, b)
    | some _ => (.raised e, { b with waiting := b.waiting.erase i })
  | .other f => (.nothing, { b with consumer := f b.consumer })

end Kiel
