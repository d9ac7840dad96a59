import Verif.Model.Py
/-
The part of Python's `struct` module that kiel uses: the formats `b h i q` and `<n>s` in
network byte order ("!").  This is a library model: it is the trusted reading of the
`struct` documentation, not of kiel code.
-/
namespace Kiel

/-- One item of a `struct` format string.  kiel concatenates format strings
(kiel/protocol/part.py:47-50, primitives.py:206-209); no item ends in a digit, so the
concatenation of strings is the concatenation of items. -/
inductive Fmt where
  | b | h | i | q
  | s (n : Nat)
  deriving DecidableEq, Repr

/-- `struct.calcsize("!" + fmt)` for one item. -/
def Fmt.size : Fmt → Nat
  | .b => 1
  | .h => 2
  | .i => 4
  | .q => 8
  | .s n => n

/-- `struct.calcsize("!" + fmt)`. -/
def calcsize (fs : List Fmt) : Nat := (fs.map Fmt.size).sum

/-- Big-endian bytes of a natural number below `256^n`. -/
def natBE : Nat → Nat → Bytes
  | 0, _ => []
  | n + 1, x => natBE n (x / 256) ++ [UInt8.ofNat (x % 256)]

/-- Value of big-endian bytes. -/
def beNat (bs : Bytes) : Nat := bs.foldl (fun a b => a * 256 + b.toNat) 0

/-- `-2^(8n-1) ≤ v < 2^(8n-1)`, written so that it reduces well (`-(k+1)` is in range
exactly when `k < 2^(8n-1)`). -/
def inRange (n : Nat) : Int → Bool
  | .ofNat k => Nat.blt k (2 ^ (8 * n - 1))
  | .negSucc k => Nat.blt k (2 ^ (8 * n - 1))

/-- Packing a signed integer into `n` bytes: two's complement, `struct.error` when out of
range. -/
def packInt (n : Nat) (v : Int) : Res Bytes :=
  if inRange n v then
    .ok (natBE n (v % 2 ^ (8 * n)).toNat)
  else .error .structError

/-- Reading a signed integer. -/
def signedBE (bs : Bytes) : Int :=
  let x := beNat bs
  if x < 2 ^ (8 * bs.length - 1) then x else (x : Int) - 2 ^ (8 * bs.length)

/-- `struct.pack` of one item.  Integer formats take only integers (a float is refused in
Python 3); `<n>s` takes only bytes, cut or zero-padded to `n`. -/
def packOne : Fmt → Val → Res Bytes
  | .s n, .bytes b => .ok (b.take n ++ List.replicate (n - b.length) 0)
  | .s _, _ => .error .structError
  | f, .int v => packInt f.size v
  | _, _ => .error .structError

/-- `struct.pack("!" + fmt, *data)`; a wrong number of arguments is a `struct.error`. -/
def pack : List Fmt → List Val → Res Bytes
  | [], [] => .ok []
  | f :: fs, v :: vs =>
    match packOne f v with
    | .error e => .error e
    | .ok b =>
      match pack fs vs with
      | .error e => .error e
      | .ok bs => .ok (b ++ bs)
  | _, _ => .error .structError

/-- `struct.Struct("!" + f).unpack_from(buff, offset)[0]` for an integer item of width `n`;
too few bytes left (or an offset past the end) is a `struct.error`. -/
def unpackInt (n : Nat) (buff : Bytes) (offset : Nat) : Res Int :=
  if offset + n ≤ buff.length then .ok (signedBE ((buff.drop offset).take n))
  else .error .structError

/-- `struct.Struct("!%ds" % n).unpack_from(buff, offset)[0]`. -/
def unpackBytes (n : Nat) (buff : Bytes) (offset : Nat) : Res Bytes :=
  if offset + n ≤ buff.length then .ok ((buff.drop offset).take n)
  else .error .structError

end Kiel
