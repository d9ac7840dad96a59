import Verif.Model.Connection
/-
kiel/connection.py: a connection together with the bytes that have arrived.
-/
set_option autoImplicit false
namespace Kiel

/-- A connection and the bytes that Tornado's `IOStream` has received and not yet handed out. -/
structure Link where
  conn : Conn
  buffer : Bytes

/-- A new connection: kiel/connection.py:50-58, 61-74. -/
def Link.init : Link := ⟨Conn.init, []⟩

/-- What users and the network do: `send` (whose write is queued), or some bytes arrive. -/
inductive NetEv where
  | send (r : Req)
  | chunk (bytes : Bytes)

/-- Bytes arrive: the read loop (kiel/connection.py:138-151) takes every frame that is complete
(`read_message`, kiel/connection.py:178-206), however the bytes were cut into pieces.
Simplification: it does so before anything else happens.  (It takes a turn of the I/O loop or
two; what happens in between is a later event here.) -/
def Link.step (cx : Codec) (depth : Nat) (l : Link) : NetEv → Link
  | .send r => { l with conn := (l.conn.send r .queued).2 }
  | .chunk bytes =>
    let input := l.buffer ++ bytes
    let (frames, rest) := readFrames input.length input
    ⟨frames.foldl (fun c f => c.deliver cx depth f.1 f.2) l.conn, rest⟩

/-- A history. -/
def Link.run (cx : Codec) (depth : Nat) (l : Link) (evs : List NetEv) : Link :=
  evs.foldl (Link.step cx depth) l

end Kiel
