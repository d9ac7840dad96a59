import Verif.Model.Client
/-
kiel/clients/client.py: `send`s of one client that run at the same time, coroutine switch by
coroutine switch.
-/
set_option autoImplicit false
namespace Kiel

variable {σ R ρ : Type}

/-- Where a `send` is: in its loop (kiel/clients/client.py:81-102), with the brokers whose requests
have not been settled and `results`; or in the `heal()` of kiel/clients/client.py:105. -/
inductive Sending (ρ : Type) where
  | looping (left : List Int) (results : Dict Int ρ)
  | healing (results : Dict Int ρ)
  deriving DecidableEq, Repr

/-- A client, its `heal_cluster` flag (kiel/clients/client.py:24), and its `send`s under way,
numbered in some way. -/
structure Sends (σ ρ : Type) where
  client : σ
  flag : Bool
  sends : Dict Nat (Sending ρ)
  deriving DecidableEq, Repr

/-- What can happen.
* `send`: a `send` begins, with requests for these brokers (kiel/clients/client.py:76-79); `write`
  as for `sendStart`;
* `outcome`: one of its requests is answered or fails, and this is handled
  (kiel/clients/client.py:81-102);
* `finish`: its loop ends (kiel/clients/client.py:104-108);
* `healed`: its `heal()` returns or raises (kiel/clients/client.py:105-108);
* `other`: anything else that changes the client. -/
inductive SEv (σ R : Type) where
  | send (i : Nat) (requests : List Int) (write : Int → Option Exc)
  | outcome (i : Nat) (broker : Int) (r : Res R)
  | finish (i : Nat)
  | healed (i : Nat) (r : Res Unit)
  | other (f : σ → σ)

/-- What is seen of it: `heal()` is called, or a `send` raises or returns. -/
inductive SOut (ρ : Type) where
  | nothing
  | healBegins (i : Nat)
  | raised (i : Nat) (e : Exc)
  | returned (i : Nat) (results : Dict Int ρ)
  deriving DecidableEq, Repr

/-- One step (kiel/clients/client.py:76-108).  `known`: the brokers with a connection. -/
def Sends.step (hs : Handlers σ R ρ) (known : σ → Int → Bool) (s : Sends σ ρ) :
    SEv σ R → SOut ρ × Sends σ ρ
  | .send i requests write =>
    if s.sends.has i then (.nothing, s)
    else
      match sendStart (known s.client) write requests with
      | some e => (.raised i e, s)
      | .none => (.nothing, { s with sends := s.sends.set i (.looping requests []) })
  | .outcome i b r =>
    match s.sends.get? i with
    | some (.looping left results) =>
      if b ∉ left then (.nothing, s)
      else
        match r with
        | .error e =>
          (.nothing, { s with flag := if e = .streamClosed then s.flag else true
                              sends := s.sends.set i (.looping (left.erase b) results) })
        | .ok r =>
          match hs.handle r with
          | .none =>
            (.raised i (.unhandledResponse (hs.api r)), { s with sends := s.sends.erase i })
          | some f =>
            match f s.client with
            | (.error e, c, ask) => (.raised i e, ⟨c, s.flag || ask, s.sends.erase i⟩)
            | (.ok x, c, ask) =>
              (.nothing, ⟨c, s.flag || ask,
                s.sends.set i (.looping (left.erase b) (results.set b x))⟩)
    | _ => (.nothing, s)
  | .finish i =>
    match s.sends.get? i with
    | some (.looping [] results) =>
      if s.flag then (.healBegins i, { s with sends := s.sends.set i (.healing results) })
      else (.returned i results, { s with sends := s.sends.erase i })
    | _ => (.nothing, s)
  | .healed i r =>
    match s.sends.get? i with
    | some (.healing results) =>
      match r with
      | .error e => (.raised i e, { s with sends := s.sends.erase i })
      | .ok _ => (.returned i results, { s with flag := false, sends := s.sends.erase i })
    | _ => (.nothing, s)
  | .other f => (.nothing, { s with client := f s.client })

end Kiel
