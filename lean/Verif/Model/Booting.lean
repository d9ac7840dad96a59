import Verif.Model.Cluster
import Verif.Model.Wired
/-
kiel/cluster.py: how `start()` comes by its first metadata, over the connections it makes for this.
-/
set_option autoImplicit false
namespace Kiel

/-- Where the loop of `start()` is (kiel/cluster.py:83-104): it connects, with the hosts yet to come; it
waits for future `n` of the connection (kiel/cluster.py:101); or it is over. -/
inductive Boot where
  | connecting (rest : List (List Char))
  | waiting (c : Conn) (n : Nat)
  | over

/-- What can happen.
* `connected`: `conn.connect()` returns, and the request for metadata is sent
  (kiel/cluster.py:93-101); `w` is what writing it does;
* `refused`: `conn.connect()` raises (kiel/cluster.py:94-99);
* `wire`: something happens to the connection;
* `resumes`: `start()` goes on after what it waits for is done (kiel/cluster.py:101-104). -/
inductive BootEv where
  | connected (r : Req) (w : Write)
  | refused (e : Exc)
  | wire (e : ConnEv)
  | resumes

/-- What is seen of it: it begins to connect to a host, has its metadata, or raises. -/
inductive BootOut where
  | nothing
  | connecting (h : List Char × Int)
  | response (x : Reply)
  | raised (e : Exc)

/-- The loop of kiel/cluster.py:83-92 comes to the next host, or ends: kiel/cluster.py:106-107. -/
def bootNext : List (List Char) → BootOut × Boot
  | [] => (.raised .noBrokers, .over)
  | s :: rest =>
    match parseHost s with
    | .error e => (.raised e, .over)
    | .ok h => (.connecting h, .connecting rest)

/-- One step of kiel/cluster.py:83-107, over kiel/connection.py:101-206.
Simplifications: closing the connection once it has answered (kiel/cluster.py:103) is not shown, as
nobody else uses it; nor is the `heal()` that follows (kiel/cluster.py:110), see `Cluster.start`. -/
def Boot.step (cx : Codec) (depth : Nat) : Boot → BootEv → BootOut × Boot
  | .connecting _, .connected r w =>
    match Conn.init.send r w with
    | (.error e, _) => (.raised e, .over)
    | (.ok n, c) => (.nothing, .waiting c n)
  | .connecting rest, .refused _ => bootNext rest
  | .waiting c n, .wire e => (.nothing, .waiting (c.step cx depth e) n)
  | .waiting c n, .resumes =>
    match c.reply n with
    | .none => (.nothing, .waiting c n)
    | some (.ok x) => (.response x, .over)
    | some (.error e) => (.raised e, .over)
  | b, _ => (.nothing, b)

end Kiel
