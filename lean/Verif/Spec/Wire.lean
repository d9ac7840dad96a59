import Verif.Model.Wire
/-
What the Kafka wire format looks like, written without reference to `struct` formats or to
the order in which kiel computes things.  Only the data types (`Ty`, `Val`, `Bytes`) and
library functions (UTF-8, CRC-32) are shared with the model.
-/
namespace Kiel.Spec
open Kiel

/-- `v` in `n` bytes, most significant byte first, two's complement. -/
def be (n : Nat) (v : Int) : Bytes :=
  (List.range n).map fun i =>
    UInt8.ofNat ((v % 256 ^ n).toNat / 256 ^ (n - 1 - i) % 256)

/-- `v` fits in a signed integer of `n` bytes. -/
def Fits (n : Nat) (v : Int) : Prop := -(2 ^ (8 * n - 1) : Int) ≤ v ∧ v < 2 ^ (8 * n - 1)

/-- The text or bytes a value stands for in a string or bytes field. -/
def content : Val → Option Bytes
  | .str s => some (encodeUtf8 s)
  | .bytes b => some b
  | .int i => some (encodeUtf8 (toString i))
  | .flt r => some (encodeUtf8 r)
  | .obj r => some (encodeUtf8 r)
  | _ => Option.none

/-- A length-prefixed field: the length in `n` bytes and the content; no value at all is
the length -1. -/
def sized (n : Nat) (v : Val) : Bytes :=
  match content v with
  | some b => be n b.length ++ b
  | .none => be n (-1)

/-- What the reader of a length-prefixed field sees: text if the content is UTF-8. -/
def sizedValue (v : Val) : Val :=
  match content v with
  | some b => match decodeUtf8 b with
    | some s => .str s
    | .none => .bytes b
  | .none => .none

/-- A value that can be written to a length-prefixed field. -/
def SizedOk (n : Nat) (v : Val) : Prop :=
  v = .none ∨ ∃ b, content v = some b ∧ b.length < 2 ^ (8 * n - 1)

/-- Integer held by an attribute (0 if it is something else). -/
def intOf : Val → Int
  | .int i => i
  | _ => 0

/-- An attribute of an instance; `None` if absent. -/
def attr : Val → String → Val
  | .part kvs, name => ((kvs.find? (fun e => e.1 == name)).map (·.2)).getD .none
  | _, _ => .none

/-- Everything in a message after its checksum. -/
def body (m : Val) : Bytes :=
  be 1 (intOf (attr m "magic")) ++ be 1 (intOf (attr m "attributes")) ++
    sized 4 (attr m "key") ++ sized 4 (attr m "value")

/-- A message: checksum and body. -/
def message (m : Val) : Bytes := be 4 (crc32 (body m)) ++ body m

/-- An entry of a message set: offset, size of the message, message. -/
def entry (e : Val × Val) : Bytes :=
  be 8 (intOf e.1) ++ be 4 (message e.2).length ++ message e.2

/-- The entries of a message set, without the leading size. -/
def entries (ms : List (Val × Val)) : Bytes := (ms.map entry).flatten

/-- Elements of an array value; `None` counts as empty. -/
def elems : Val → List Val
  | .list xs => xs
  | _ => []

/-- Messages of a message set value. -/
def msgs : Val → List (Val × Val)
  | .mset ms => ms
  | _ => []

mutual
/-- The bytes of a value of the given type. -/
def wire : Ty → Val → Bytes
  | .int8, v => be 1 (intOf v)
  | .int16, v => be 2 (intOf v)
  | .int32, v => be 4 (intOf v)
  | .int64, v => be 8 (intOf v)
  | .string, v => sized 2 v
  | .bytes, v => sized 4 v
  | .array t, v => be 4 (elems v).length ++ ((elems v).map (fun x => wire t x)).flatten
  | .part fs, v => wireFields fs v
  | .messageSet, v => be 4 (entries (msgs v)).length ++ entries (msgs v)
/-- The bytes of the fields of an instance, in declaration order. -/
def wireFields : Fields → Val → Bytes
  | .nil, _ => []
  | .cons name t rest, v => wire t (attr v name) ++ wireFields rest v
end

/-- A message that can be written: `magic` and `attributes` are bytes, `key` and `value`
fit. -/
structure MessageOk (m : Val) : Prop where
  isPart : ∃ kvs, m = .part kvs
  magic : ∃ i, attr m "magic" = .int i ∧ Fits 1 i
  attributes : ∃ i, attr m "attributes" = .int i ∧ Fits 1 i
  key : SizedOk 4 (attr m "key")
  value : SizedOk 4 (attr m "value")
  size : (message m).length < 2 ^ 31

mutual
/-- The values a type can carry. -/
def Ok : Ty → Val → Prop
  | .int8, v => ∃ i, v = .int i ∧ Fits 1 i
  | .int16, v => ∃ i, v = .int i ∧ Fits 2 i
  | .int32, v => ∃ i, v = .int i ∧ Fits 4 i
  | .int64, v => ∃ i, v = .int i ∧ Fits 8 i
  | .string, v => SizedOk 2 v
  | .bytes, v => SizedOk 4 v
  | .array t, v => (v = .none ∨ ∃ xs, v = .list xs) ∧ (elems v).length < 2 ^ 31 ∧
      ∀ x ∈ elems v, Ok t x
  | .part fs, v => (∃ kvs, v = .part kvs) ∧ OkFields fs v
  | .messageSet, v => ∃ ms, v = .mset ms ∧ (entries ms).length < 2 ^ 31 ∧
      ∀ e ∈ ms, (∃ i, e.1 = .int i ∧ Fits 8 i) ∧ MessageOk e.2 ∧
        crc32 (body e.2) ≠ 2 ^ 31
/-- The instances a list of fields can carry. -/
def OkFields : Fields → Val → Prop
  | .nil, _ => True
  | .cons name t rest, v => Ok t (attr v name) ∧ OkFields rest v
end

/-- The signed reading of a checksum. -/
def signed32 (c : Nat) : Int := if c < 2 ^ 31 then c else (c : Int) - 2 ^ 32

/-- What the reader of a message sees. -/
def messageValue (m : Val) : Val :=
  .part [("crc", .int (signed32 (crc32 (body m)))), ("magic", attr m "magic"),
    ("attributes", attr m "attributes"), ("key", sizedValue (attr m "key")),
    ("value", sizedValue (attr m "value"))]

mutual
/-- The value a reader sees after a value of the type was written (text where the bytes are
text, absent arrays as empty ones, absent attributes as `None`). -/
def seen : Ty → Val → Val
  | .string, v => sizedValue v
  | .bytes, v => sizedValue v
  | .array t, v => .list ((elems v).map (fun x => seen t x))
  | .part fs, v => .part (seenFields fs v)
  | .messageSet, v => .mset ((msgs v).map (fun e => (e.1, messageValue e.2)))
  | _, v => v
/-- Fields of an instance as a reader sees them. -/
def seenFields : Fields → Val → List (String × Val)
  | .nil, _ => []
  | .cons name t rest, v => (name, seen t (attr v name)) :: seenFields rest v
end

mutual
/-- Values whose message sets are not compressed: `attributes` is 0 in each message. -/
def Plain : Ty → Val → Prop
  | .array t, v => ∀ x ∈ elems v, Plain t x
  | .part fs, v => PlainFields fs v
  | .messageSet, v => ∀ e ∈ msgs v, attr e.2 "attributes" = .int 0
  | _, _ => True
/-- Fields without compressed message sets. -/
def PlainFields : Fields → Val → Prop
  | .nil, _ => True
  | .cons name t rest, v => Plain t (attr v name) ∧ PlainFields rest v
end

end Kiel.Spec
