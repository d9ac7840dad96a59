import Verif.Model.Wired
/-
kiel/cluster.py: `get_metadata()` over the connections that it shares with the `send`s of a client.
-/
set_option autoImplicit false
namespace Kiel

variable {σ ρ : Type}

/-- A `get_metadata()` under way (kiel/cluster.py:159-167): it waits for future `fut` of connection
`conn`; `rest` are the connections it has yet to come to.
Simplification: `rest` are those of `cluster.conns` when it began; what becomes of the loop when
connections are added or removed meanwhile is the subject of `gatherFrom`. -/
structure Ask where
  conn : Nat
  fut : Nat
  rest : List Nat
  deriving DecidableEq

/-- A client's `send`s, its connections (see `Wired`), and the `get_metadata()` calls under way,
numbered in some way. -/
structure Asking (σ ρ : Type) where
  net : Wired σ ρ
  asks : Dict Nat Ask

/-- What can happen.
* `ask`: a `get_metadata()` begins (kiel/cluster.py:147-164); `r` is its first request, and `w` what
  writing it to the stream does;
* `resumes`: it goes on after what it waits for is done (kiel/cluster.py:162-172); `r` and `w` are for
  the next request, if there is one;
* `wired`: anything else, see `WEv`. -/
inductive AskEv (σ : Type) where
  | ask (j : Nat) (r : Req) (w : Write)
  | resumes (j : Nat) (r : Req) (w : Write)
  | wired (e : WEv σ)

/-- What is seen of a `get_metadata()`: it returns or raises. -/
inductive AskOut where
  | nothing
  | metadata (j : Nat) (x : Reply)
  | raised (j : Nat) (e : Exc)

/-- The loop of kiel/cluster.py:160-164 comes to the next connection, or ends: kiel/cluster.py:169-170. -/
def askNext (r : Req) (w : Write) : List Nat → List Conn → Res Ask × List Conn
  | [], pool => (.error .noBrokers, pool)
  | k :: rest, pool =>
    match pool[k]? with
    | .none => (.error .keyError, pool)
    | some c =>
      match c.send r w with
      | (.error e, c) => (.error e, pool.set k c)
      | (.ok n, c) => (.ok ⟨k, n, rest⟩, pool.set k c)

/-- What comes of it. -/
def Asking.goesOn (s : Asking σ ρ) (j : Nat) : Res Ask × List Conn → AskOut × Asking σ ρ
  | (.error e, pool) => (.raised j e, ⟨{ s.net with pool := pool }, s.asks.erase j⟩)
  | (.ok a, pool) => (.nothing, ⟨{ s.net with pool := pool }, s.asks.set j a⟩)

/-- One step: kiel/cluster.py:146-172 (`get_metadata`) over kiel/connection.py:101-206. -/
def Asking.step (hs : Handlers σ Reply ρ) (cx : Codec) (depth : Nat) (s : Asking σ ρ) :
    AskEv σ → AskOut × Asking σ ρ
  | .ask j r w =>
    if s.asks.has j then (.nothing, s)
    else s.goesOn j (askNext r w s.net.conns.vals s.net.pool)
  | .resumes j r w =>
    match s.asks.get? j with
    | .none => (.nothing, s)
    | some a =>
      match (s.net.pool[a.conn]?).bind (·.reply a.fut) with
      | .none => (.nothing, s)
      | some (.ok x) => (.metadata j x, { s with asks := s.asks.erase j })
      | some (.error e) =>
        if e = .streamClosed ∨ e = .brokerConnection then
          s.goesOn j (askNext r w a.rest s.net.pool)
        else (.raised j e, { s with asks := s.asks.erase j })
  | .wired e => (.nothing, { s with net := (s.net.step hs cx depth e).2 })

end Kiel
