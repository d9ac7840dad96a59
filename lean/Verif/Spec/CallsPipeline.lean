import Verif.Spec.Stored
import Verif.Spec.Pipeline
import Verif.Spec.FirstConsumes
import Verif.Spec.FirstGrouped
/-
A producer and a consumer with overlapping calls, and brokers that store what they are sent.
-/
set_option autoImplicit false
namespace Kiel.Spec

variable {α κ β γ ε δ σ : Type}

/-- The messages in a request, less those refused, for a partition: `x` is the correlation id, the topic
and the partition. -/
def heldFor (given : Dict Int (ByPartition κ β)) (x : Int × String × Int) : Option (List (Msg κ β)) :=
  ((given.get? x.1).bind fun ts => ts.get? x.2.1).bind fun ps => ps.get? x.2.2

/-- A producer and its calls, a consumer and its calls, of whatever kind, and the brokers:
* `given`: the requests handed to `send`, by correlation id, without what has been refused of them;
* `done`: which partitions of which requests have been stored;
* `logs`: what is stored, with its offsets. -/
structure Site (α κ β γ σ : Type) where
  producer : ProducerBusy α κ β γ
  given : Dict Int (ByPartition κ β)
  done : List (Int × String × Int)
  logs : String → Int → List (Int × β)
  consumer : σ

/-- A request is answered about each of its partitions: without an error if its messages have been
stored, and with an error that says that they have not if they have not. -/
structure Truthful (given : Dict Int (ByPartition κ β)) (done : List (Int × String × Int)) (corr : Int)
    (topics : List (String × List (Int × Int))) : Prop where
  codes : ∀ a ∈ topics, ∀ c ∈ a.2, c.2 = 0 ∨ Refuses c.2
  stored : ∀ t part ms, heldFor given (corr, t, part) = some ms → (corr, t, part) ∈ done →
    ¬ RefusedIn topics t part
  refused : ∀ t part ms, heldFor given (corr, t, part) = some ms → (corr, t, part) ∉ done →
    RefusedIn topics t part

/-- What a consumer's events are: against logs, from a state, what is returned, to a state. -/
abbrev Reads (σ β δ : Type) :=
  (String → Int → List (Int × β)) → σ → List (String × δ) → σ → Prop

/-- Events of the calls of `consume` of a consumer whose topics have their offsets; no two calls for the
same topic at a time, and none raises. -/
def busyReads (allocation : Consumer ε → Res (Dict String (List Int))) (cfg : CCfg β δ) :
    Reads (Busy ε δ) β δ := fun logs b outs b' =>
  ∃ ev out, Fair Batch logs b ev ∧ Apart b ev ∧ b.step allocation cfg ev = (out, b') ∧
    (∀ e, out ≠ .raised e) ∧ outs = returnedBy out

/-- Events of whole calls of `consume` of a `SingleConsumer`, and what brokers have told about offsets
so far; no two calls for the same topic at a time, and none raises that waits for messages. -/
def singleReads (cfg : CCfg β δ) : Reads (SingleBusy δ × List (String × List OPart)) β δ :=
  fun logs s outs s' => ∃ ev out, FairFirst Batch logs s.1 ev ∧ ApartFirst s.1 ev ∧
    s.1.step cfg ev = (out, s'.1) ∧ (∀ e bev, ev = .base bev → out ≠ .raised e) ∧
    outs = firstReturned out ∧ s'.2 = s.2 ++ toldBy s.1 ev

/-- Events of whole calls of `consume`, and of `commit_offsets`, of a `GroupedConsumer`, and what its
coordinator has told about offsets so far; no two calls for the same topic at a time, none raises that
waits for messages or has them, and no rebalance. -/
def groupReads (gcfg : GCfg) (cfg : CCfg β δ) :
    Reads (GroupFirst δ × List (String × List OFPart)) β δ :=
  fun logs s outs s' => ∃ ev out, FairGroup Batch logs s.1 ev ∧ ApartGroup s.1 ev ∧
    KeepsGroup s.1 ev out ∧ s.1.step gcfg cfg ev = (out, s'.1) ∧
    outs = groupGiven out ∧ s'.2 = s.2 ++ groupTold s.1 ev

/-- One thing that happens.  `acc`: what the producer accepts; `risk`: what is in its queue when a flush
raises; `foreign`: what others store; `outs`: what the consumer returns.
* `call`: an event of the calls of the producer;
* `stores`: a broker stores the messages for a partition of a request, at any time: whether or not the
  client still waits for an answer, but once;
* `foreign`: another producer's message is stored;
* `consumes`: an event of the calls of the consumer, which is answered from the logs as they are. -/
inductive Occurs (pcfg : PCfg α κ β) (dec : γ → List (Msg κ β)) (reads : Reads σ β δ) :
    Site α κ β γ σ → List (String × Msg κ β) → List (String × Msg κ β) → List (String × β) →
      List (String × δ) → Site α κ β γ σ → Prop
  | call {w : Site α κ β γ σ} {e : ProduceEv α κ β γ} (hd : Decodes dec e)
      (ht : ∀ corr topics, answeredIn w.producer e = some (corr, topics) →
        Truthful w.given w.done corr topics) :
      Occurs pcfg dec reads w (acceptedIn pcfg w.producer e) (riskIn pcfg w.producer e) [] []
        { w with producer := (w.producer.step pcfg e).2, given := storing pcfg dec w.producer e w.given }
  | stores {w : Site α κ β γ σ} {corr : Int} {t : String} {part : Int} {ms : List (Msg κ β)}
      {logs : String → Int → List (Int × β)} (hm : heldFor w.given (corr, t, part) = some ms)
      (hn : (corr, t, part) ∉ w.done)
      (hg : Grows w.logs logs fun t' part' =>
        if t' = t ∧ part' = part then ms.map (·.value) else []) :
      Occurs pcfg dec reads w [] [] [] []
        { w with done := (corr, t, part) :: w.done, logs := logs }
  | foreign {w : Site α κ β γ σ} {t : String} {part : Int} {v : β}
      {logs : String → Int → List (Int × β)}
      (hg : Grows w.logs logs fun t' part' => if t' = t ∧ part' = part then [v] else []) :
      Occurs pcfg dec reads w [] [] [(t, v)] [] { w with logs := logs }
  | consumes {w : Site α κ β γ σ} {outs : List (String × δ)} {c : σ}
      (hr : reads w.logs w.consumer outs c) :
      Occurs pcfg dec reads w [] [] [] outs { w with consumer := c }

/-- Things that happen one after the other, from `w0`. -/
inductive Runs (pcfg : PCfg α κ β) (dec : γ → List (Msg κ β)) (reads : Reads σ β δ)
    (w0 : Site α κ β γ σ) :
    List (String × Msg κ β) → List (String × Msg κ β) → List (String × β) → List (String × δ) →
      Site α κ β γ σ → Prop
  | nil : Runs pcfg dec reads w0 [] [] [] [] w0
  | snoc {w w' : Site α κ β γ σ} {acc acc' risk risk' : List (String × Msg κ β)}
      {foreign foreign' : List (String × β)} {outs outs' : List (String × δ)}
      (h : Runs pcfg dec reads w0 acc risk foreign outs w)
      (hs : Occurs pcfg dec reads w acc' risk' foreign' outs' w') :
      Runs pcfg dec reads w0 (acc ++ acc') (risk ++ risk') (foreign ++ foreign')
        (outs ++ outs') w'

/-- At first: a new producer, and nothing handed over. -/
def Site.new (cl : Cluster) (n : Int) (logs : String → Int → List (Int × β)) (c : σ) :
    Site α κ β γ σ := ⟨idleProducer cl n, [], [], logs, c⟩

end Kiel.Spec
