import Verif.Model.Allocator
/-
What consumers are called, and where their groups' data is in zookeeper.
-/
set_option autoImplicit false
namespace Kiel

/-- kiel/clients/consumer.py:36: `":".join([socket.gethostname(), str(id(self))])`.  `ident`: what
`id()` gives for the object, a number that differs between objects of one process that exist at the
same time. -/
def consumerName (host : String) (ident : Nat) : String := host ++ ":" ++ strInt ident

/-- kiel/zookeeper/allocator.py:72-77 (`members_path`). -/
def membersPath (group : String) : String := "/kiel/groups/" ++ group ++ "/members"

/-- kiel/zookeeper/allocator.py:79-84 (`partition_path`). -/
def partitionPath (group : String) : String := "/kiel/groups/" ++ group ++ "/partitions"

/-- kiel/zookeeper/shared_set.py:22-27 (`lock_path`). -/
def lockPath (path : String) : String := path ++ "/lock"

/-- kiel/zookeeper/party.py:55 and 77: `"/".join([self.path, self.member_name])`. -/
def memberPath (path name : String) : String := path ++ "/" ++ name

end Kiel
