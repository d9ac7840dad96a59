import Verif.Model.Schemas
/-
kiel/connection.py: one connection to one broker, as a state machine driven by the calls of
its users and by what the Tornado stream reports.
-/
namespace Kiel

/-- How a future was settled: `set_result(response)` with the `correlation_id` attribute of
the response, or `set_exception` / `set_exc_info`. -/
inductive Outcome where
  | result (correlationId : Int) (response : Val)
  | exc (e : Exc)

/-- What `self.stream.write(payload)` does when called (kiel/connection.py:133): returns a
future, to be completed later, or raises. -/
inductive Write where
  | queued
  | raises (e : Exc)

/-- The attributes of a `Connection` (kiel/connection.py:50-58) and what it did so far.
Futures are numbered in the order in which `send` returned them.
* `futs`: per future, the list of its settlements so far (a Tornado 4 future does not object
  to being settled twice, so a list);
* `written`: the byte strings passed to `stream.write`;
* `sent`: history variable, the request for which each future was returned;
* `reading`: the read loop has not ended. -/
structure Conn where
  closing : Bool
  apiCorr : Dict Int String
  pending : Dict Int Nat
  futs : List (List Outcome)
  written : List Bytes
  sent : List Req
  reading : Bool

/-- A freshly connected connection: kiel/connection.py:50-58, 61-74. -/
def Conn.init : Conn := ⟨false, [], [], [], [], [], true⟩

/-- `fut.set_result(...)` / `fut.set_exception(...)`. -/
def settle (futs : List (List Outcome)) (i : Nat) (o : Outcome) : List (List Outcome) :=
  futs.modify i (· ++ [o])

/-- The loop of kiel/connection.py:168-176: `popitem` takes the newest item first. -/
def failAll (futs : List (List Outcome)) (pending : Dict Int Nat) (e : Exc) :
    List (List Outcome) :=
  pending.reverse.foldl (fun fs p => settle fs p.2 (.exc e)) futs

/-- kiel/connection.py:153-176 (`abort`).  `e` is the exception being handled, if any
(`sys.exc_info()`).
Simplification: futures run their callbacks on the next iteration of the I/O loop (Tornado's
`add_future`), so nothing else happens during the loop. -/
def Conn.abort (c : Conn) (e : Option Exc) : Conn :=
  if c.closing then c
  else { c with
    closing := true
    apiCorr := []
    pending := []
    futs := failAll c.futs c.pending (e.getD .brokerConnection) }

/-- kiel/connection.py:76-82 (`close`).  Closing the stream makes the read in progress fail
with `StreamClosedError`, a later event. -/
def Conn.close (c : Conn) : Conn := { c with closing := true }

/-- The handlers of kiel/connection.py:84-99 (`socket_error_handling`) for the exception
`e`. -/
def Conn.socketError (c : Conn) (e : Exc) : Conn :=
  if e = .streamClosed then { c with closing := true } else c.abort (some e)

/-- kiel/connection.py:101-135 (`send`): the number of the returned future, or the raised
exception, and the connection afterwards. -/
def Conn.send (c : Conn) (r : Req) (w : Write) : Res Nat × Conn :=
  let i := c.futs.length
  if c.closing then
    (.ok i, { c with futs := c.futs ++ [[.exc .brokerConnection]], sent := c.sent ++ [r] })
  else
    match r.serialize with
    | .error e => (.error e, c)
    | .ok payload =>
      match frame payload with
      | .error e => (.error e, c)
      | .ok payload =>
        let c := { c with
          apiCorr := c.apiCorr.set r.correlationId r.cls.api
          pending := c.pending.set r.correlationId i
          futs := c.futs ++ [[]]
          sent := c.sent ++ [r] }
        match w with
        | .queued => (.ok i, { c with written := c.written ++ [payload] })
        | .raises e => (.ok i, c.socketError e)

/-- kiel/connection.py:128-130 (`handle_write`), when the write completes. -/
def Conn.writeDone (c : Conn) (e : Option Exc) : Conn :=
  match e with
  | .none => c
  | some e => c.socketError e

/-- The rest of `read_message` (kiel/connection.py:201-206) once a whole frame was read:
the response, and the connection afterwards. -/
def Conn.readMessage (cx : Codec) (depth : Nat) (c : Conn) (correlationId : Int)
    (payload : Bytes) : Res Val × Conn :=
  match c.apiCorr.get? correlationId with
  | .none => (.error .keyError, c)
  | some api =>
    let c := { c with apiCorr := c.apiCorr.erase correlationId }
    match responseClasses.get? api with
    | .none => (.error .keyError, c)
    | some cls =>
      match cls.deserialize cx depth payload with
      | .error e => (.error e, c)
      | .ok v => (.ok v, c)

/-- An iteration of `read_loop` (kiel/connection.py:148-151) that reads a whole frame, and
the test of `self.closing` before the next one.  `payload`: whatever `read_bytes` returned; for a
frame whose declared size is below 4 that depends on Tornado's version. -/
def Conn.deliver (cx : Codec) (depth : Nat) (c : Conn) (correlationId : Int)
    (payload : Bytes) : Conn :=
  if ¬ c.reading then c
  else
    let c :=
      match c.readMessage cx depth correlationId payload with
      | (.error e, c) => c.socketError e
      | (.ok v, c) =>
        match c.pending.get? correlationId with
        | .none => c.socketError .keyError
        | some i => { c with
            pending := c.pending.erase correlationId
            futs := settle c.futs i (.result correlationId v) }
    { c with reading := !c.closing }

/-- An iteration of `read_loop` (kiel/connection.py:148-151) in which reading from the
stream raises `e`. -/
def Conn.readError (c : Conn) (e : Exc) : Conn :=
  if ¬ c.reading then c
  else
    let c := c.socketError e
    { c with reading := !c.closing }

/-- What can happen to a connection, in any order.  (More than the stream really does: e.g.
a frame may arrive although the stream was closed.) -/
inductive ConnEv where
  | send (r : Req) (w : Write)
  | writeDone (e : Option Exc)
  | deliver (correlationId : Int) (payload : Bytes)
  | readError (e : Exc)
  | abort
  | close

/-- One event. -/
def Conn.step (cx : Codec) (depth : Nat) (c : Conn) : ConnEv → Conn
  | .send r w => (c.send r w).2
  | .writeDone e => c.writeDone e
  | .deliver i p => c.deliver cx depth i p
  | .readError e => c.readError e
  | .abort => c.abort .none
  | .close => c.close

/-- A history. -/
def Conn.run (cx : Codec) (depth : Nat) (c : Conn) (evs : List ConnEv) : Conn :=
  evs.foldl (Conn.step cx depth) c

/-- The byte-level part of `read_message` (kiel/connection.py:192-200): a frame at the start
of the input, if it is complete: correlation id, payload, remaining input.  A declared size
below 4 makes `read_bytes` misbehave and is taken as "never complete" here. -/
def readFrame (input : Bytes) : Option (Int × Bytes × Bytes) :=
  match unpackInt 4 input 0 with
  | .error _ => .none
  | .ok size =>
    match unpackInt 4 input 4 with
    | .error _ => .none
    | .ok correlationId =>
      if size < 4 then .none
      else
        match unpackBytes (size - 4).toNat input 8 with
        | .error _ => .none
        | .ok payload => some (correlationId, payload, input.drop (8 + (size - 4).toNat))

/-- The frames at the start of the input and the incomplete rest.  `fuel` bounds their
number; a frame has at least eight bytes. -/
def readFrames : Nat → Bytes → List (Int × Bytes) × Bytes
  | 0, input => ([], input)
  | fuel + 1, input =>
    match readFrame input with
    | .none => ([], input)
    | some (i, p, rest) =>
      let (fs, r) := readFrames fuel rest
      ((i, p) :: fs, r)

end Kiel
