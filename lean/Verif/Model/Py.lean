/-
Python values, exceptions and dictionaries, as far as kiel uses them.

Target runtime: CPython 3 (kiel/iterables.py:1 uses `from __future__ import
generator_stop`, which Python 2 does not have) and Tornado 4.x (`Future.set_exc_info`,
used by kiel/connection.py:172, is gone in Tornado 5).
-/
namespace Kiel

/-- Python `bytes`. -/
abbrev Bytes := List UInt8

/-- Exceptions, as values.  The Kiel ones are in kiel/exc.py:1-46; `streamClosed` is
`tornado.iostream.StreamClosedError`; `other n` stands for any exception class the code
does not tell apart (socket errors, exceptions of user callbacks, ...).
Simplification: exception arguments are dropped, except for the api of
`UnhandledResponseError`. -/
inductive Exc where
  | structError | keyError | valueError | typeError | attributeError | indexError
  | unboundLocal | runtimeError | recursionError
  | brokerConnection          -- kiel/exc.py:22-32
  | streamClosed              -- tornado.iostream.StreamClosedError
  | noBrokers                 -- kiel/exc.py:8-12
  | noOffsets                 -- kiel/exc.py:15-19
  | unhandledResponse (api : String)  -- kiel/exc.py:35-46
  | other (n : Nat)
  deriving DecidableEq, Repr

/-- Result of a Python call: a value or a raised exception. -/
abbrev Res := Except Exc

deriving instance DecidableEq for Except

/-- Python values that can be attributes of protocol parts.
* `flt r` is a float whose `str()` is `r`;
* `obj r` is any other scalar object whose `str()` is `r`;
* `part kvs` is an instance of a `Part` subclass (kiel/protocol/part.py:4) with its
  attributes;
* `mset ms` is a `MessageSet` (kiel/protocol/messages.py:15-24), a list of
  (offset, message) tuples.
Text is Lean `String`: lone surrogates, which Python's `str` can hold and whose encoding
raises, are not modelled. -/
inductive Val where
  | none
  | int (i : Int)
  | flt (r : String)
  | str (s : String)
  | bytes (b : Bytes)
  | obj (r : String)
  | list (xs : List Val)
  | part (kvs : List (String × Val))
  | mset (ms : List (Val × Val))
  deriving Repr, Inhabited

/-- Python dictionaries with insertion order (CPython 3.6+; for 3.5, where the order is
arbitrary, no theorem that speaks of order should be relied on). -/
abbrev Dict (κ ν : Type) := List (κ × ν)

namespace Dict
variable {κ ν : Type} [DecidableEq κ]

/-- `d.get(k)` / `d[k]` (where `none` is a `KeyError`). -/
def get? : Dict κ ν → κ → Option ν
  | [], _ => .none
  | (k', v) :: r, k => if k' = k then some v else get? r k

/-- `d[k] = v`: in place if present, otherwise at the end. -/
def set : Dict κ ν → κ → ν → Dict κ ν
  | [], k, v => [(k, v)]
  | (k', v') :: r, k, v => if k' = k then (k', v) :: r else (k', v') :: set r k v

/-- `d.pop(k)` without its result / `del d[k]`. -/
def erase (d : Dict κ ν) (k : κ) : Dict κ ν := d.filter (fun e => decide (e.1 ≠ k))

/-- `k in d`. -/
def has (d : Dict κ ν) (k : κ) : Bool := (d.get? k).isSome

/-- `d.keys()`. -/
def keys (d : Dict κ ν) : List κ := d.map (·.1)

/-- `d.values()`. -/
def vals (d : Dict κ ν) : List ν := d.map (·.2)

/-- `collections.defaultdict`'s `d[k]` as an expression: the dictionary afterwards (a
missing key is inserted with its default) and the value. -/
def getDefault (d : Dict κ ν) (k : κ) (dflt : ν) : Dict κ ν × ν :=
  match d.get? k with
  | some v => (d, v)
  | .none => (d.set k dflt, dflt)

end Dict

/-- Sets of Python values that are only tested for membership, added to and discarded
from: duplicate-free lists. -/
def addSet {α : Type} [DecidableEq α] (s : List α) (x : α) : List α :=
  if x ∈ s then s else s ++ [x]

/-- `s.discard(x)`. -/
def discard {α : Type} [DecidableEq α] (s : List α) (x : α) : List α :=
  s.filter (fun y => decide (y ≠ x))

/-- `s.split(":")` (kiel/cluster.py:85, kiel/clients/grouped.py:310), on the characters of `s`. -/
def splitColon : List Char → List (List Char)
  | [] => [[]]
  | c :: r =>
    if c = ':' then [] :: splitColon r
    else
      match splitColon r with
      | [] => [[c]]
      | p :: ps => (c :: p) :: ps

end Kiel
