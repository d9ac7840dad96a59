import Verif.Model.Grouped
import Verif.Spec.Codes
import Verif.Spec.Consumer
/-
Vocabulary for the properties of grouped consumers.
-/
set_option autoImplicit false
namespace Kiel.Spec

/-- The offset of partition `p` after adopting an answer: that of the last successful part for
it, else what it was. -/
def adopted (ps : List OFPart) (p : Int) (o : Int) : Int :=
  match (ps.filter fun q => decide (q.id = p ∧ q.code = 0)).getLast? with
  | some q => q.offset
  | .none => o

/-- What a commit should send: every allocated topic in question, with all its allocated
partitions, at the consumer's offsets. -/
def commitOf (toCommit : List String) (a : Dict String (List Int)) (o : Offsets) :
    List (String × List (Int × Int)) :=
  (a.filter fun e => decide (e.1 ∈ toCommit)).map fun e =>
    (e.1, e.2.map fun p => (p, offsetOf o e.1 p))

/-- Partition answers in a commit response. -/
def commitAnswers (r : CommitResp) : List (String × Int × Int) :=
  r.topics.flatMap fun t => t.2.map fun p => (t.1, p.1, p.2)

/-- A consumer whose connection to its coordinator is there and on which a request can be
written. -/
def Reaches {R : Type} (env : SendEnv R) (c : Grouped) (b : Int) : Prop :=
  c.cluster.conns.has b = true ∧ env.write = .none

/-- Healing succeeds and keeps the connections. -/
def HealsWell {R : Type} (env : SendEnv R) : Prop :=
  ∀ cl, (env.healC cl).1 = .ok () ∧ ∀ b, (env.healC cl).2.conns.has b = cl.conns.has b

end Kiel.Spec
