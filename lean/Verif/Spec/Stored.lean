import Verif.Spec.Produces
/-
What C109 speaks of: the messages that brokers may have stored.
-/
set_option autoImplicit false
namespace Kiel.Spec

variable {α κ β γ : Type}

/-- The error codes, of those after which the client tries again, that brokers give when they have not
stored the messages of a partition.  The two others are given when they have: `request_timed_out` (7),
when too few replicas had them in time, and `not_enough_replicas_after_append` (20). -/
def Refuses (code : Int) : Prop := code ∈ [2, 3, 5, 6, 14, 15, 16, 19]

instance (code : Int) : Decidable (Refuses code) := inferInstanceAs (Decidable (_ ∈ _))

/-- A partition's messages are refused in an answer. -/
def RefusedIn (topics : List (String × List (Int × Int))) (t : String) (part : Int) : Prop :=
  ∃ a ∈ topics, a.1 = t ∧ ∃ c ∈ a.2, c.1 = part ∧ Refuses c.2

instance (topics : List (String × List (Int × Int))) (t : String) (part : Int) :
    Decidable (RefusedIn topics t part) := inferInstanceAs (Decidable (∃ a ∈ topics, _))

/-- The messages of a request, by topic and partition, but for those refused. -/
def unrefused (topics : List (String × List (Int × Int))) (ts : ByPartition κ β) : ByPartition κ β :=
  ts.map fun t => (t.1, t.2.filter fun p => decide (¬ RefusedIn topics t.1 p.1))

/-- The messages in a request, as a broker reads them. -/
def contents (dec : γ → List (Msg κ β)) (q : PReq γ) : ByPartition κ β :=
  q.topics.map fun t => (t.1, t.2.map fun p => (p.1, dec p.2))

/-- The requests that are handed to `send`, whether or not it raises. -/
def handed : ProduceOut γ → List (PReq γ)
  | .sent reqs => reqs
  | .raised _ given => given
  | _ => []

/-- The correlation id of the request that is answered at an event, and the answer. -/
def answeredIn (s : ProducerBusy α κ β γ) :
    ProduceEv α κ β γ → Option (Int × List (String × List (Int × Int)))
  | .outcome i b (.ok topics) =>
    match s.calls.get? i with
    | some (.sending left _) =>
      (left.find? fun q => decide (q.broker = b)).map fun q => (q.corr, topics)
    | _ => .none
  | _ => .none

/-- The requests handed to `send` so far, without what was refused of them. -/
def storing (cfg : PCfg α κ β) (dec : γ → List (Msg κ β)) (s : ProducerBusy α κ β γ)
    (e : ProduceEv α κ β γ) (acc : Dict Int (ByPartition κ β)) : Dict Int (ByPartition κ β) :=
  (match answeredIn s e with
    | some (corr, topics) => acc.map fun x => if x.1 = corr then (x.1, unrefused topics x.2) else x
    | .none => acc) ++ (handed (s.step cfg e).1).map fun q => (q.corr, contents dec q)

/-- The messages that the brokers may have stored in a course of events, one for each time: those of
every request handed to `send`, but for the partitions for which the answer says that nothing was
stored.  Whether a request without answer was received is not known to the client. -/
def mayBeStored (cfg : PCfg α κ β) (dec : γ → List (Msg κ β)) :
    Dict Int (ByPartition κ β) → ProducerBusy α κ β γ → List (ProduceEv α κ β γ) →
    List (String × Msg κ β)
  | acc, _, [] => inSent acc
  | acc, s, e :: es => mayBeStored cfg dec (storing cfg dec s e acc) (s.step cfg e).2 es

/-- What a flush at this event is given. -/
def beginsWith : ProduceEv α κ β γ → Option (FlushStart κ β γ)
  | .produce _ _ _ env => some env
  | .flush _ env => some env
  | .close _ env => some env
  | .found _ _ env => some env
  | _ => .none

/-- Brokers read what was written. -/
def Decodes (dec : γ → List (Msg κ β)) (e : ProduceEv α κ β γ) : Prop :=
  ∀ env, beginsWith e = some env → ∀ ms x, env.comp ms = .ok x → dec x = ms

/-- No answer has one of the codes that are given although the messages have been stored. -/
def NoneAfterAppend (e : ProduceEv α κ β γ) : Prop :=
  ∀ i b topics, e = .outcome i b (.ok topics) →
    ∀ a ∈ topics, ∀ c ∈ a.2, c.2 ≠ 7 ∧ c.2 ≠ 20

end Kiel.Spec
