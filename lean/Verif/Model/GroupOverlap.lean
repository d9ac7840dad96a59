import Verif.Model.Grouped
import Verif.Model.Overlap
/-
kiel/clients/grouped.py: `consume`s and `commit_offsets`s of one `GroupedConsumer` that run at the
same time, coroutine switch by coroutine switch.
-/
set_option autoImplicit false
namespace Kiel

variable {β δ : Type}

/-- Where a `commit_offsets` is: waiting for the answer to its request
(kiel/clients/grouped.py:243), or, the answer having been handled, about to go on
(kiel/clients/grouped.py:244-250) with `retry` and the metadata for that; or, the request having
failed, about to find no result (kiel/clients/grouped.py:244). -/
inductive CommitPhase where
  | asking (request : CommitReq)
  | answered (retry : Bool) (metadata : String)
  | failed
  deriving DecidableEq, Repr

/-- A `commit_offsets` under way; `result`: what the `consume` that called it will return
(kiel/clients/grouped.py:86-96), with its topic; `none` if the application called it. -/
structure Committing (δ : Type) where
  phase : CommitPhase
  result : Option (String × Option (List δ))
  deriving DecidableEq, Repr

/-- A `GroupedConsumer`, the `consume`s that wait for messages, and the commits under way, all of
them numbered in some way (kiel/clients/grouped.py:18-57, and the coroutines of 78-96 and
212-250). -/
structure GroupBusy (δ : Type) where
  base : Busy GExt δ
  commits : Dict Nat (Committing δ)
  deriving DecidableEq, Repr

/-- What can happen.
* `base`: what can happen to the base class's `consume`s; when one is done, the rest of `consume`
  follows (kiel/clients/grouped.py:88-96);
* `commit`: the application calls `commit_offsets` (kiel/clients/grouped.py:212-243);
* `answer`: the request of a commit is answered, and this is handled;
* `fails`: it fails, and this is handled (kiel/clients/client.py:84-95);
* `goOn`: the `send` of a commit is done, with the `heal()` at its end, if any, and the commit goes
  on (kiel/clients/client.py:106-108, kiel/clients/grouped.py:244-250);
* `healFails`: the `heal()` at the end of its `send` raises. -/
inductive GroupEv (β : Type) where
  | base (ev : BEv GExt β)
  | commit (k : Nat) (metadata : String)
  | answer (k : Nat) (r : CommitResp)
  | fails (k : Nat) (e : Exc)
  | goOn (k : Nat)
  | healFails (k : Nat) (e : Exc)

/-- What is seen of it: the requests sent (kiel/clients/client.py:76-79), and what `consume`
(kiel/clients/grouped.py:86-96) and `commit_offsets` (kiel/clients/grouped.py:212-250) come to. -/
inductive GroupOut (δ : Type) where
  | nothing
  | sent (reqs : List FReq)
  | asked (request : CommitReq)
  | returned (topic : String) (out : Option (List δ))
  | committed
  | raised (e : Exc)
  deriving DecidableEq, Repr

/-- kiel/clients/grouped.py:212-243: `commit_offsets` up to where it waits for the answer. -/
def GroupBusy.ask (cfg : CCfg β δ) (k : Nat) (metadata : String) (result : Option (String × Option (List δ)))
    (g : GroupBusy δ) : GroupOut δ × GroupBusy δ :=
  match g.base.consumer.ext.mapping with
  | .none => (.raised .keyError, { g with commits := g.commits.erase k })
  | some a =>
    let c : Grouped := g.base.consumer
    let (topics, o) := commitTopics c.ext.toCommit a c.offsets
    let base : Busy GExt δ := { g.base with consumer := { c with offsets := o } }
    match c.ext.coordinator with
    | .none => (.raised .keyError, ⟨base, g.commits.erase k⟩)
    | some b =>
      if ¬ c.cluster.conns.has b then (.raised .keyError, ⟨base, g.commits.erase k⟩)
      else
        match cfg.write k "offset_commit" b with
        | some e => (.raised e, ⟨base, g.commits.erase k⟩)
        | .none =>
          (.asked ⟨some b, metadata, topics⟩,
            ⟨base, g.commits.set k ⟨.asking ⟨some b, metadata, topics⟩, result⟩⟩)

/-- The number of a `consume` (kiel/clients/grouped.py:78) that an event is about. -/
def BEv.number : BEv GExt β → Nat
  | .consume i _ => i
  | .outcome i _ _ => i
  | .finish i => i
  | .healFails i _ => i
  | .other _ => 0

/-- kiel/clients/grouped.py:88-96: the rest of `consume`, after that of the base class. -/
def GroupBusy.finish (gcfg : GCfg) (cfg : CCfg β δ) (i : Nat) (topic : String) (out : Option (List δ))
    (g : GroupBusy δ) : GroupOut δ × GroupBusy δ :=
  if topic ∉ g.base.consumer.synced then (.returned topic (some []), g)
  else
    let c : Grouped := g.base.consumer
    let c : Grouped := { c with ext := { c.ext with toCommit := addSet c.ext.toCommit topic } }
    let g : GroupBusy δ := { g with base := { g.base with consumer := c } }
    if gcfg.autocommit then g.ask cfg i ("committed by " ++ gcfg.name) (some (topic, out))
    else (.returned topic out, g)

/-- One step.  Simplifications: those of `Busy.step`; the `heal()` at the end of the `send` of a
commit is an event of its own (`base (.other …)`, or `healFails`); the coordinator is the same
after the `yield` of kiel/clients/grouped.py:243 as before (it is set in `connect()` only). -/
def GroupBusy.step (gcfg : GCfg) (cfg : CCfg β δ) (g : GroupBusy δ) :
    GroupEv β → GroupOut δ × GroupBusy δ
  | .base ev =>
    match g.base.step Grouped.allocation cfg ev with
    | (.nothing, b) => (.nothing, { g with base := b })
    | (.sent reqs, b) => (.sent reqs, { g with base := b })
    | (.raised e, b) => (.raised e, { g with base := b })
    | (.returned topic out, b) => { g with base := b }.finish gcfg cfg ev.number topic out
  | .commit k metadata => g.ask cfg k metadata .none
  | .answer k r =>
    match g.commits.get? k with
    | some ⟨.asking req, result⟩ =>
      match handleCommitResponse r g.base.consumer with
      | (.error e, c) => (.raised e, ⟨{ g.base with consumer := c }, g.commits.erase k⟩)
      | (.ok (retry, adjust), c) =>
        (.nothing, ⟨{ g.base with consumer := c },
          g.commits.set k ⟨.answered retry (if adjust then "" else req.metadata), result⟩⟩)
    | _ => (.nothing, g)
  | .fails k e =>
    match g.commits.get? k with
    | some ⟨.asking _, result⟩ =>
      let c : Grouped := g.base.consumer
      let c : Grouped := if e = .streamClosed then c else { c with heal := true }
      (.nothing, ⟨{ g.base with consumer := c }, g.commits.set k ⟨.failed, result⟩⟩)
    | _ => (.nothing, g)
  | .goOn k =>
    let c : Grouped := g.base.consumer
    let b : Busy GExt δ := { g.base with consumer := { c with heal := false } }
    match g.commits.get? k with
    | some ⟨.answered retry metadata, result⟩ =>
      if retry then GroupBusy.ask cfg k metadata result { g with base := b }
      else
        match result with
        | some (topic, out) => (.returned topic out, ⟨b, g.commits.erase k⟩)
        | .none => (.committed, ⟨b, g.commits.erase k⟩)
    | some ⟨.failed, _⟩ => (.raised .keyError, ⟨b, g.commits.erase k⟩)
    | _ => (.nothing, g)
  | .healFails k e =>
    match g.commits.get? k with
    | .none => (.nothing, g)
    | some ⟨.asking _, _⟩ => (.nothing, g)
    | some _ => (.raised e, { g with commits := g.commits.erase k })

end Kiel
