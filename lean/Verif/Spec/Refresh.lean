import Verif.Spec.Codes
import Verif.Model.Grouped
import Verif.Model.Single
import Verif.Spec.Answers
import Verif.Spec.Cluster
/-
What makes a client look at its cluster again.
-/
set_option autoImplicit false
namespace Kiel.Spec
open Kiel

/-- Some request failed, other than by its connection being closed, or got an answer that asks for
the cluster to be looked at. -/
def Troubled {R : Type} (Asks : R → Prop) (outs : List (Int × Res R)) : Prop :=
  ∃ o ∈ outs, (∃ e, o.2 = .error e ∧ e ≠ .streamClosed) ∨ ∃ r, o.2 = .ok r ∧ Asks r

/-- A partition of the first topic has a retriable code. -/
def FetchAsks {β : Type} (r : FResp β) : Prop :=
  ∃ t ps more, r.topics = (t, ps) :: more ∧ ∃ q ∈ ps, Retriable q.code

@[inherit_doc FetchAsks] def OffsetAsks (r : OResp) : Prop :=
  ∃ t ps more, r.topics = (t, ps) :: more ∧ ∃ q ∈ ps, Retriable q.code

/-- A partition of any topic has a retriable code. -/
def ProduceAsks (r : PResp) : Prop := ∃ t part code, (t, part, code) ∈ r.answers ∧ Retriable code

/-- The code is retriable. -/
def CoordinatorAsks (r : CoordResp) : Prop := Retriable r.code

/-- A partition of the first topic has a retriable code, other than "offsets load in progress". -/
def OffsetFetchAsks (r : OFResp) : Prop :=
  ∃ t ps more, r.topics = (t, ps) :: more ∧ ∃ q ∈ ps, Retriable q.code ∧ q.code ≠ 14

/-- A partition of any topic has a retriable code. -/
def CommitAsks (r : CommitResp) : Prop := ∃ t ∈ r.topics, ∃ a ∈ t.2, Retriable a.2

/-- Nothing that can be seen of a cluster has changed: connections, partitions, leaders. -/
def Unchanged (cl cl' : Cluster) : Prop :=
  cl'.conns = cl.conns ∧ (∀ t, partitionsOf cl' t = partitionsOf cl t) ∧
    ∀ t p, leaderOf cl' t p = leaderOf cl t p

end Kiel.Spec
