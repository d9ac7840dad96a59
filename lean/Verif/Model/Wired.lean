import Verif.Model.Sends
import Verif.Model.Connection
/-
kiel/clients/client.py, kiel/connection.py: `send`s of one client that run at the same time, over the
connections they share.
-/
set_option autoImplicit false
namespace Kiel

variable {σ ρ : Type}

/-- A response as a handler gets it (kiel/clients/client.py:97-101): `response.api`,
`response.correlation_id` (kiel/connection.py:204) and its attributes.
Simplification: `api` is that of the request; the class of the response is looked up by it
(kiel/connection.py:201-203), cf. `correlation_cls`. -/
structure Reply where
  api : String
  corr : Int
  body : Val

/-- What a future that `Connection.send` returned has come to, if to anything. -/
def Conn.reply (c : Conn) (n : Nat) : Option (Res Reply) :=
  match c.futs[n]?, c.sent[n]? with
  | some (.result k v :: _), some r => some (.ok ⟨r.cls.api, k, v⟩)
  | some (.exc e :: _), _ => some (.error e)
  | _, _ => .none

/-- A client's `send`s (see `Sends`) and the connections.
* `pool`: all connections that were ever made, by number; futures keep those alive that are no longer
  used;
* `conns`: `cluster.conns` (kiel/cluster.py:26-31), the number of the connection to each broker;
* `waits`: per `send`, its `WaitIterator` (kiel/clients/client.py:76-79): for each broker the
  connection and the future. -/
structure Wired (σ ρ : Type) where
  sys : Sends σ ρ
  pool : List Conn
  conns : Dict Int Nat
  waits : Dict Nat (Dict Int (Nat × Nat))

/-- What can happen.
* `send`: a `send` begins (kiel/clients/client.py:76-79); `write` is what writing to each broker's
  stream does;
* `takes`: the loop of a `send` gets the next future that is done (kiel/clients/client.py:81-102);
* `finish`, `healed`, `other`: see `SEv`;
* `wire`: something happens to a connection: what the stream reports, or requests of others;
* `connects`, `drops`: `cluster.conns` gains a new connection (kiel/cluster.py:191-204), or loses one
  (kiel/cluster.py:129-136);
* `stops`: `cluster.stop()` (kiel/cluster.py:265-270). -/
inductive WEv (σ : Type) where
  | send (i : Nat) (requests : List (Int × Req)) (write : Int → Write)
  | takes (i : Nat) (b : Int)
  | finish (i : Nat)
  | healed (i : Nat) (r : Res Unit)
  | other (f : σ → σ)
  | wire (k : Nat) (e : ConnEv)
  | connects (b : Int)
  | drops (b : Int)
  | stops

/-- The dictionary comprehension of kiel/clients/client.py:76-79, with `Cluster.__getitem__`
(kiel/cluster.py:33-43): the futures, or the first exception; requests before it have been sent. -/
def sendAll (conns : Dict Int Nat) (write : Int → Write) :
    List (Int × Req) → List Conn → Res (Dict Int (Nat × Nat)) × List Conn
  | [], pool => (.ok [], pool)
  | (b, r) :: rest, pool =>
    match conns.get? b with
    | .none => (.error .keyError, pool)
    | some k =>
      match pool[k]? with
      | .none => (.error .keyError, pool)
      | some c =>
        match c.send r (write b) with
        | (.error e, c) => (.error e, pool.set k c)
        | (.ok n, c) =>
          match sendAll conns write rest (pool.set k c) with
          | (.error e, pool) => (.error e, pool)
          | (.ok l, pool) => (.ok ((b, k, n) :: l), pool)

/-- kiel/cluster.py:265-270 (`stop`): `Connection.close` of every connection in `conns`. -/
def closeAll (conns : Dict Int Nat) (pool : List Conn) : List Conn :=
  conns.vals.foldl (fun pool k => pool.modify k Conn.close) pool

/-- What the future of `send` number `i` for broker `b` has come to. -/
def Wired.reply (s : Wired σ ρ) (i : Nat) (b : Int) : Option (Res Reply) :=
  match (s.waits.get? i).bind (·.get? b) with
  | .none => .none
  | some (k, n) => (s.pool[k]?).bind (·.reply n)

/-- What an event is to the `send`s: see `Sends.step`. -/
def Wired.gives (s : Wired σ ρ) : WEv σ → SEv σ Reply
  | .send i requests write =>
    .send i (requests.map (·.1)) fun _ =>
      match (sendAll s.conns write requests s.pool).1 with
      | .error e => some e
      | .ok _ => .none
  | .takes i b =>
    match s.reply i b with
    | .none => .other id
    | some r => .outcome i b r
  | .finish i => .finish i
  | .healed i r => .healed i r
  | .other f => .other f
  | _ => .other id

/-- What an event does to the connections. -/
def Wired.net (cx : Codec) (depth : Nat) (s : Wired σ ρ) : WEv σ → Wired σ ρ
  | .send i requests write =>
    if s.sys.sends.has i then s
    else
      match sendAll s.conns write requests s.pool with
      | (.error _, pool) => { s with pool := pool }
      | (.ok l, pool) => { s with pool := pool, waits := s.waits.set i l }
  | .wire k e => { s with pool := s.pool.modify k fun c => c.step cx depth e }
  | .connects b => { s with pool := s.pool ++ [Conn.init], conns := s.conns.set b s.pool.length }
  | .drops b => { s with conns := s.conns.erase b }
  | .stops => { s with pool := closeAll s.conns s.pool }
  | _ => s

/-- One step: kiel/clients/client.py:56-108 (`send`) over kiel/connection.py:101-206. -/
def Wired.step (hs : Handlers σ Reply ρ) (cx : Codec) (depth : Nat) (s : Wired σ ρ) (e : WEv σ) :
    SOut ρ × Wired σ ρ :=
  let r := s.sys.step hs (fun _ _ => true) (s.gives e)
  (r.1, { s.net cx depth e with sys := r.2 })

end Kiel
