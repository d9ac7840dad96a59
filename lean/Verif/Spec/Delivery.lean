import Verif.Spec.Producer
/-
Flushes that are answered.
-/
set_option autoImplicit false
namespace Kiel.Spec
open Kiel

variable {α κ β γ : Type}

/-- An answer to a request as brokers give it: about each partition of the request, once, with a
code of the protocol. -/
structure AnswersReq (r : PReq γ) (a : PResp) : Prop where
  corr : a.corr = r.corr
  about : ∀ t part, (t, part) ∈ a.answers.map (fun x => (x.1, x.2.1)) ↔
    ∃ e ∈ r.topics, e.1 = t ∧ part ∈ e.2.map Prod.fst
  once : (a.answers.map fun x => (x.1, x.2.1)).Nodup
  codes : ∀ x ∈ a.answers, KnownCode x.2.2

/-- A flush of `p` during which nothing raises and every request is answered: the partitioner
chooses partitions that have leaders (connected or not), messages can be compressed, requests
serialized, and the brokers, in some order, give the answers `answer`, with any codes. -/
structure Orderly (env : FlushEnv κ β γ) (answer : PReq γ → PResp) (p : Producer κ β) : Prop where
  placed : ∀ e ∈ p.unsent, ∀ m ∈ e.2, ∀ n, ∃ part l,
    env.pick n m.key ((p.cluster.topics.get? e.1).getD []) = .ok part ∧
    ((p.cluster.leaders.get? e.1).getD []).get? part = some l
  comp : ∀ ms, ∃ s, env.comp ms = .ok s
  write : ∀ b, env.write b = .none
  heal : ∀ cl, (env.healC cl).1 = .ok ()
  answered : ∀ reqs, ∃ order : List (PReq γ), order.Perm reqs ∧
    env.outcomes reqs = order.map fun r => (r.broker, .ok (answer r))
  proper : ∀ reqs, NoRepeats reqs → ∀ r ∈ reqs, AnswersReq r (answer r)

/-- A message placed so is to be tried again: its leader is not connected, or answers with a
retriable error for its partition. -/
def TryAgain (cl : Cluster) (reqs : List (PReq γ)) (answer : PReq γ → PResp) (x : Place κ β) :
    Prop :=
  cl.conns.has x.leader = false ∨
    ∃ r ∈ reqs, r.broker = x.leader ∧ RetriableIn (answer r) x.topic x.part

instance (cl : Cluster) (reqs : List (PReq γ)) (answer : PReq γ → PResp) (x : Place κ β) :
    Decidable (TryAgain cl reqs answer x) :=
  inferInstanceAs (Decidable (_ ∨ _))

/-- The message of a place. -/
def Place.entry (x : Place κ β) : String × Msg κ β := (x.topic, x.msg)

/-- A history of a producer in which every flush is orderly and ends before the next thing
happens: messages are produced, flushes are made, the cluster changes.  `acc` was accepted;
`done` are the places where messages were handed over: at a leader that was connected and did
not answer with a retriable error. -/
inductive Flushes (cfg : PCfg α κ β) : Producer κ β → List (String × Msg κ β) →
    List (Place κ β) → Producer κ β → Prop
  | nil (p) : Flushes cfg p [] [] p
  | flush {p p' p'' : Producer κ β} {env : FlushEnv κ β γ} {answer : PReq γ → PResp}
      {reqs pl acc done} (ho : Orderly env answer p) (hf : p.flush env = (.ok (), p', reqs))
      (hp : Placements env.pick p.cluster p.unsent pl) (hrest : Flushes cfg p' acc done p'') :
      Flushes cfg p acc
        (pl.filter (fun x => decide (¬ TryAgain p.cluster reqs answer x)) ++ done) p''
  | other {p p' p'' : Producer κ β} {ev : PEv α κ β γ} {e acc done}
      (hev : PEv.critical ev = false) (hstep : p.step cfg ev = (e, p'))
      (hrest : Flushes cfg p' acc done p'') :
      Flushes cfg p (accepted cfg p ev ++ acc) done p''

/-- No trouble: every leader is connected, and no answer reports a retriable error. -/
structure Calm (answer : PReq γ → PResp) (cl : Cluster) : Prop where
  leaders : ∀ t part l, ((cl.leaders.get? t).getD []).get? part = some l → cl.conns.has l = true
  codes : ∀ r, ∀ a ∈ (answer r).answers, ¬ Retriable a.2.2

end Kiel.Spec
