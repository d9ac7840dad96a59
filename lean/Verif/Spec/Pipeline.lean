import Verif.Spec.Delivery
import Verif.Spec.Order
import Verif.Spec.Progress
/-
A producer, brokers that store what they are sent, and a consumer.
-/
set_option autoImplicit false
namespace Kiel.Spec

variable {α κ β γ ε δ : Type}

/-- The messages of requests that get stored on a partition: those of the requests that are answered
without an error for it, in order. -/
def stored (read : γ → List (Msg κ β)) (answer : PReq γ → PResp) (reqs : List (PReq γ)) (t : String)
    (part : Int) : List (Msg κ β) :=
  reqs.flatMap fun r =>
    if (t, part, 0) ∈ (answer r).answers then inPartition read [r] t part else []

/-- The values `news` are appended to the logs, at offsets that brokers choose. -/
def Grows (logs logs' : String → Int → List (Int × β)) (news : String → Int → List β) : Prop :=
  ∀ t p, IsLog (logs' t p) ∧ ∃ add, logs' t p = logs t p ++ add ∧ add.map (·.2) = news t p

/-- What happens on the side of a producer and of the brokers' logs.  `acc`: what the producer
accepts; `foreign`: what others store.
* `flush`: a flush of the producer is answered, about each partition either without an error, and
  the messages are stored, or with a retriable error, and they are not;
* `other`: anything else that happens to the producer;
* `foreign`: another producer's message is stored. -/
inductive Made (pcfg : PCfg α κ β) (read : γ → List (Msg κ β)) :
    Producer κ β → (String → Int → List (Int × β)) → List (String × Msg κ β) →
      List (String × β) → Producer κ β → (String → Int → List (Int × β)) → Prop
  | flush {p p' : Producer κ β} {logs logs' : String → Int → List (Int × β)}
      {env : FlushEnv κ β γ} {answer : PReq γ → PResp} {reqs : List (PReq γ)}
      (ho : Orderly env answer p)
      (hcodes : ∀ r, ∀ a ∈ (answer r).answers, a.2.2 = 0 ∨ Retriable a.2.2)
      (hread : ∀ ms s, env.comp ms = .ok s → read s = ms)
      (hf : p.flush env = (.ok (), p', reqs))
      (hg : Grows logs logs' fun t part => (stored read answer reqs t part).map (·.value)) :
      Made pcfg read p logs [] [] p' logs'
  | other {p p' : Producer κ β} {logs : String → Int → List (Int × β)} {ev : PEv α κ β γ}
      {e : Option Exc} (hev : PEv.critical ev = false) (hstep : p.step pcfg ev = (e, p')) :
      Made pcfg read p logs (accepted pcfg p ev) [] p' logs
  | foreign {p : Producer κ β} {logs logs' : String → Int → List (Int × β)} {t : String}
      {part : Int} {v : β}
      (hg : Grows logs logs' fun t' part' => if t' = t ∧ part' = part then [v] else []) :
      Made pcfg read p logs [] [(t, v)] p logs'

/-- A producer, a consumer, and the logs of all partitions. -/
structure World (κ β ε : Type) where
  producer : Producer κ β
  consumer : Consumer ε
  logs : String → Int → List (Int × β)

/-- One thing that happens.  `acc`: what the producer accepts; `foreign`: what others store; `outs`:
what the consumer returns.
* `made`: something that concerns the producer and the logs;
* `consume`: a `consume`, answered from the logs as they are now. -/
inductive Happens (pcfg : PCfg α κ β) (read : γ → List (Msg κ β))
    (allocation : Consumer ε → Res (Dict String (List Int)))
    (determine : String → Consumer ε → Res Unit × Consumer ε) (cfg : CCfg β δ) :
    World κ β ε → List (String × Msg κ β) → List (String × β) → List (String × δ) →
      World κ β ε → Prop
  | made {w : World κ β ε} {acc : List (String × Msg κ β)} {foreign : List (String × β)}
      {p : Producer κ β} {logs : String → Int → List (Int × β)}
      (h : Made pcfg read w.producer w.logs acc foreign p logs) :
      Happens pcfg read allocation determine cfg w acc foreign []
        { w with producer := p, logs := logs }
  | consume {w : World κ β ε} {env : ConsumeEnv ε β} {topic : String} {out : List δ}
      {c : Consumer ε} {acts : List CAct}
      (hh : HonestFetch Batch w.logs env)
      (htick : ∀ n (c : Consumer ε), (env.tick n c).offsets = c.offsets)
      (hc : w.consumer.consume allocation (determine topic) cfg env topic =
        (.ok (some out), c, acts))
      (hd : CAct.determine ∉ acts) :
      Happens pcfg read allocation determine cfg w [] [] (out.map fun v => (topic, v))
        { w with consumer := c }

/-- Things that happen one after the other. -/
inductive Pipeline (pcfg : PCfg α κ β) (read : γ → List (Msg κ β))
    (allocation : Consumer ε → Res (Dict String (List Int)))
    (determine : String → Consumer ε → Res Unit × Consumer ε) (cfg : CCfg β δ) :
    World κ β ε → List (String × Msg κ β) → List (String × β) → List (String × δ) →
      World κ β ε → Prop
  | nil (w : World κ β ε) : Pipeline pcfg read allocation determine cfg w [] [] [] w
  | cons {w w1 w2 : World κ β ε} {acc acc' : List (String × Msg κ β)}
      {foreign foreign' : List (String × β)} {outs outs' : List (String × δ)}
      (h : Happens pcfg read allocation determine cfg w acc foreign outs w1)
      (hrest : Pipeline pcfg read allocation determine cfg w1 acc' foreign' outs' w2) :
      Pipeline pcfg read allocation determine cfg w (acc ++ acc') (foreign ++ foreign')
        (outs ++ outs') w2

/-- What a consumer can return of messages: those that can be deserialized and are not false to
Python. -/
def returnable (cfg : CCfg β δ) (made : List (String × β)) : List (String × δ) :=
  made.filterMap fun m => (decode cfg m.2).bind fun d =>
    if cfg.truthy d then some (m.1, d) else .none

/-- Messages that a producer accepted, without their keys. -/
def plain (acc : List (String × Msg κ β)) : List (String × β) := acc.map fun m => (m.1, m.2.value)

end Kiel.Spec
