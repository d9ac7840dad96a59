import Verif.Spec.Consumer
/-
Consumers that get somewhere.
-/
set_option autoImplicit false
namespace Kiel.Spec

variable {ε β δ : Type}

/-- A fetch at offset `o` from a log that holds compressed sets, which are sent whole: the messages
begin at the latest with the first one at or after `o`, and do not end before it. -/
def SetBatch (log : List (Int × β)) (o : Int) (ms : List (Int × β)) : Prop :=
  ∃ pre rest, log = pre ++ ms ++ rest ∧ (∀ m ∈ pre, m.1 < o) ∧ ∀ m ∈ rest, o ≤ m.1

/-- The messages of a log at or after `o` that can be deserialized. -/
def ahead (cfg : CCfg β δ) (log : List (Int × β)) (o : Int) : List (Int × β) :=
  log.filter fun m => decide (o ≤ m.1) && (decode cfg m.2).isSome

/-- During a `consume` that did `acts`, a broker answered for the partition, without an error, with
at least one message at or after `o` that can be deserialized. -/
def Supplied (cfg : CCfg β δ) (env : ConsumeEnv ε β) (acts : List CAct) (t : String) (p o : Int) :
    Prop :=
  ∃ reqs, CAct.fetch reqs ∈ acts ∧ ∃ b r, (b, .ok r) ∈ env.outcomes reqs ∧
    ∃ ps, r.topics = [(t, ps)] ∧ ∃ a ∈ ps, a.id = p ∧ a.code = 0 ∧
      ∃ m ∈ a.msgs, o ≤ m.1 ∧ (decode cfg m.2).isSome

/-- `Consumed`, counting the `consume`s in which the given partition was `Supplied`. -/
inductive ConsumedN (allocation : Consumer ε → Res (Dict String (List Int)))
    (determine : String → Consumer ε → Res Unit × Consumer ε) (cfg : CCfg β δ)
    (batch : List (Int × β) → Int → List (Int × β) → Prop)
    (logs : String → Int → List (Int × β)) (t : String) (p : Int) :
    Nat → Consumer ε → List (String × δ) → Consumer ε → Prop where
  | nil (c : Consumer ε) : ConsumedN allocation determine cfg batch logs t p 0 c [] c
  | cons {n k : Nat} {c c1 c2 : Consumer ε} {env : ConsumeEnv ε β} {topic : String} {out : List δ}
      {acts : List CAct} {outs : List (String × δ)} :
      HonestFetch batch logs env → (∀ n (c : Consumer ε), (env.tick n c).offsets = c.offsets) →
      c.consume allocation (determine topic) cfg env topic = (.ok (some out), c1, acts) →
      CAct.determine ∉ acts →
      (k = 0 ∨ k = 1 ∧ Supplied cfg env acts t p (offsetOf c.offsets t p)) →
      ConsumedN allocation determine cfg batch logs t p n c1 outs c2 →
      ConsumedN allocation determine cfg batch logs t p (n + k) c
        (out.map (fun v => (topic, v)) ++ outs) c2

end Kiel.Spec
