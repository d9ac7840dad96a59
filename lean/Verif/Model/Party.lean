import Verif.Model.Py
/-
kiel/zookeeper/party.py, over a model of the znodes it uses.
-/
set_option autoImplicit false
namespace Kiel

/-- kazoo's `NodeExistsError`. -/
def zkNodeExists : Exc := .other 1001
/-- kazoo's `NoNodeError`. -/
def zkNoNode : Exc := .other 1002
/-- kazoo's `SessionExpiredError`. -/
def zkSessionExpired : Exc := .other 1003

/-- The children of the party's node: their names and the sessions that own them
(`znode.owner_session_id`, 0 for a node that is not ephemeral), and the sessions that have
expired. -/
structure Zk where
  nodes : Dict String Int
  expired : List Int
  deriving DecidableEq, Repr

/-- `client.create(path, ephemeral=True, makepath=True)` (kiel/zookeeper/party.py:61). -/
def Zk.create (name : String) (sess : Int) (z : Zk) : Res Unit × Zk :=
  if sess ∈ z.expired then (.error zkSessionExpired, z)
  else if z.nodes.has name then (.error zkNodeExists, z)
  else (.ok (), { z with nodes := z.nodes.set name sess })

/-- The transaction of kiel/zookeeper/party.py:64-67: delete and create, all or nothing.
`txn.commit()` returns the results of the operations, exceptions included; it does not raise for
an operation that fails. -/
def Zk.replace (name : String) (sess : Int) (z : Zk) : Res Unit × Zk :=
  if sess ∈ z.expired then (.error zkSessionExpired, z)
  else if z.nodes.has name then (.ok (), { z with nodes := z.nodes.set name sess })
  else (.ok (), z)

/-- `client.delete(path)` (kiel/zookeeper/party.py:80). -/
def Zk.delete (name : String) (sess : Int) (z : Zk) : Res Unit × Zk :=
  if sess ∈ z.expired then (.error zkSessionExpired, z)
  else if z.nodes.has name then (.ok (), { z with nodes := z.nodes.erase name })
  else (.error zkNoNode, z)

/-- Zookeeper expires a session: its ephemeral nodes are gone. -/
def Zk.expire (sess : Int) (z : Zk) : Zk :=
  ⟨z.nodes.filter fun e => decide (e.2 ≠ sess), z.expired ++ [sess]⟩

/-- kiel/zookeeper/party.py:40-67 (`join`).  `between`: what others do to the nodes after
`client.exists` and before the node is created. -/
def partyJoin (name : String) (sess : Int) (between : Zk → Zk) (z : Zk) : Res Unit × Zk :=
  if sess ∈ z.expired then (.error zkSessionExpired, z)
  else
    match z.nodes.get? name with
    | .none => (between z).create name sess
    | some owner => if owner ≠ sess then (between z).replace name sess else (.ok (), between z)

/-- kiel/zookeeper/party.py:69-82 (`leave`). -/
def partyLeave (name : String) (sess : Int) (z : Zk) : Res Unit × Zk :=
  match z.delete name sess with
  | (.ok _, z) => (.ok (), z)
  | (.error e, z) => if e = zkNoNode then (.ok (), z) else (.error e, z)

/-- What can happen to a party. -/
inductive PartyEvent where
  | join (name : String) (sess : Int)
  | leave (name : String) (sess : Int)
  | expire (sess : Int)
  deriving DecidableEq, Repr

/-- One event; no event happens in the middle of another. -/
def partyEvent : PartyEvent → Zk → Zk
  | .join name sess, z => (partyJoin name sess id z).2
  | .leave name sess, z => (partyLeave name sess z).2
  | .expire sess, z => z.expire sess

/-- Events one after the other. -/
def partyRun (evs : List PartyEvent) (z : Zk) : Zk := evs.foldl (fun z e => partyEvent e z) z

end Kiel
