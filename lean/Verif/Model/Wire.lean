import Verif.Model.Compression
/-
kiel/protocol/primitives.py, part.py, messages.py, request.py, response.py.
-/
namespace Kiel

mutual
/-- Classes usable as parts: the primitives (kiel/protocol/primitives.py:6-18, 54-58, 117-159),
`Array.of(t)` (kiel/protocol/primitives.py:162-182), subclasses of `Part`
(kiel/protocol/part.py:4-12) given by their `parts` tuple, and `MessageSet`
(kiel/protocol/messages.py:15). -/
inductive Ty where
  | int8 | int16 | int32 | int64
  | string | bytes
  | array (t : Ty)
  | part (fs : Fields)
  | messageSet
/-- The `parts` tuple of a `Part` subclass: names and classes, in order. -/
inductive Fields where
  | nil
  | cons (name : String) (t : Ty) (rest : Fields)
end

/-- UTF-8 encoding: `s.encode("utf-8")`. -/
def encodeUtf8 (s : String) : Bytes := s.toByteArray.data.toList

/-- `b.decode("utf-8")`; `none` is `UnicodeDecodeError`. -/
def decodeUtf8 (b : Bytes) : Option String := String.fromUTF8? ⟨b.toArray⟩

/-- The bytes kiel/protocol/primitives.py:77-83 turns a non-`None` value into.
Simplification: `str()` of lists, parts and message sets is not modelled (kiel never passes
them to a `String`/`Bytes` field); it is represented as a `TypeError`. -/
def varBytes : Val → Res Bytes
  | .bytes b => .ok b
  | .str s => .ok (encodeUtf8 s)
  | .int i => .ok (encodeUtf8 (toString i))
  | .flt r => .ok (encodeUtf8 r)
  | .obj r => .ok (encodeUtf8 r)
  | _ => .error .typeError

/-- kiel/protocol/primitives.py:60-89 (`VariablePrimitive.render`); `sz` is the format of
the size primitive. -/
def renderVar (sz : Fmt) : Val → Res (List Fmt × List Val)
  | .none => .ok ([sz], [.int (-1)])
  | v =>
    match varBytes v with
    | .error e => .error e
    | .ok b => .ok ([sz, .s b.length], [.int b.length, .bytes b])

/-- kiel/protocol/primitives.py:91-114 (`VariablePrimitive.parse`).  A size below -1 makes
the format string of line 103 invalid, which is a `struct.error`. -/
def parseVar (szWidth : Nat) (buff : Bytes) (offset : Nat) : Res (Val × Nat) :=
  match unpackInt szWidth buff offset with
  | .error e => .error e
  | .ok size =>
    let offset := offset + szWidth
    if size = -1 then .ok (.none, offset)
    else if size < 0 then .error .structError
    else
      match unpackBytes size.toNat buff offset with
      | .error e => .error e
      | .ok value =>
        match decodeUtf8 value with
        | some s => .ok (.str s, offset + size.toNat)
        | .none => .ok (.bytes value, offset + size.toNat)

/-- kiel/protocol/primitives.py:29-42 (`Primitive.parse`) for the integer primitives. -/
def parseInt (n : Nat) (buff : Bytes) (offset : Nat) : Res (Val × Nat) :=
  match unpackInt n buff offset with
  | .error e => .error e
  | .ok v => .ok (.int v, offset + n)

/-- `getattr(part, name, None)` (kiel/protocol/part.py:41,43). -/
def getAttr (kvs : List (String × Val)) (name : String) : Val :=
  match Dict.get? kvs name with
  | some v => v
  | .none => .none

/-- One step of CRC-32 (polynomial 0xEDB88320, reflected). -/
def crcBit (c : Nat) : Nat :=
  if c % 2 = 1 then Nat.xor 0xEDB88320 (c / 2) else c / 2

/-- One byte of CRC-32. -/
def crcByte (c : Nat) (b : UInt8) : Nat :=
  crcBit (crcBit (crcBit (crcBit (crcBit (crcBit (crcBit (crcBit (Nat.xor c b.toNat))))))))

/-- `zlib.crc32(payload)` (Python 3: unsigned). -/
def crc32 (bs : Bytes) : Nat := Nat.xor 0xFFFFFFFF (bs.foldl crcByte 0xFFFFFFFF)

/-- kiel/protocol/messages.py:160-182 (`Message.parts`, `Message.render`): the parts after `crc`
(`self.parts[1:]`) are rendered and packed, then prefixed with the CRC.  Note `>` in
line 177. -/
def renderMessage : Val → Res (List Fmt × List Val)
  | .part kvs =>
    match renderVar .i (getAttr kvs "key") with
    | .error e => .error e
    | .ok (kf, kd) =>
      match renderVar .i (getAttr kvs "value") with
      | .error e => .error e
      | .ok (vf, vd) =>
        match pack ([.b] ++ [.b] ++ kf ++ vf)
            ([getAttr kvs "magic"] ++ [getAttr kvs "attributes"] ++ kd ++ vd) with
        | .error e => .error e
        | .ok payload =>
          let crc : Int := crc32 payload
          let crc := if crc > 2 ^ 31 then crc - 2 ^ 32 else crc
          .ok ([.i, .s payload.length], [.int crc, .bytes payload])
  | _ => .error .attributeError

/-- The loop of kiel/protocol/messages.py:76-91: format, data and `total_size`.
`struct.calcsize(message_format)` of line 80 lacks the "!", but "i<n>s" has no padding in
native mode either. -/
def renderSetItems : List (Val × Val) → Res (List Fmt × List Val × Nat)
  | [] => .ok ([], [], 0)
  | (offset, message) :: rest =>
    match renderMessage message with
    | .error e => .error e
    | .ok (mf, md) =>
      let messageSize := calcsize mf
      let fmt := [.q] ++ [.i] ++ mf
      match renderSetItems rest with
      | .error e => .error e
      | .ok (f, d, total) =>
        .ok (fmt ++ f, [offset] ++ [.int messageSize] ++ md ++ d, calcsize fmt + total)

/-- kiel/protocol/messages.py:64-95 (`MessageSet.render`). -/
def renderSet (ms : List (Val × Val)) : Res (List Fmt × List Val) :=
  match renderSetItems ms with
  | .error e => .error e
  | .ok (f, d, total) => .ok (.i :: f, .int total :: d)

/-- Accumulate the renderings of a sequence of parts
(kiel/protocol/primitives.py:199-209, kiel/protocol/part.py:39-50). -/
def renderAll (r : Val → Res (List Fmt × List Val)) :
    List Val → Res (List Fmt × List Val)
  | [] => .ok ([], [])
  | v :: vs =>
    match r v with
    | .error e => .error e
    | .ok (f, d) =>
      match renderAll r vs with
      | .error e => .error e
      | .ok (fs, ds) => .ok (f ++ fs, d ++ ds)

mutual
/-- `render()` of a part of the given class: integers kiel/protocol/primitives.py:20-27, variable
primitives 60-89, `Array.render` kiel/protocol/primitives.py:184-209 (`None` is rendered as an empty
array), `Part.render` kiel/protocol/part.py:23-50, `MessageSet.render`.
Simplification: an attribute holding an instance of another class than the declared one is
not modelled; a value without `render` is an `AttributeError`, a non-list for an array a
`TypeError`. -/
def render : Ty → Val → Res (List Fmt × List Val)
  | .int8, v => .ok ([.b], [v])
  | .int16, v => .ok ([.h], [v])
  | .int32, v => .ok ([.i], [v])
  | .int64, v => .ok ([.q], [v])
  | .string, v => renderVar .h v
  | .bytes, v => renderVar .i v
  | .array _, .none => .ok ([.i], [.int 0])
  | .array t, .list xs =>
    match renderAll (fun v => render t v) xs with
    | .error e => .error e
    | .ok (f, d) => .ok (.i :: f, .int xs.length :: d)
  | .array _, _ => .error .typeError
  | .part fs, .part kvs => renderFields fs kvs
  | .part _, _ => .error .attributeError
  | .messageSet, .mset ms => renderSet ms
  | .messageSet, _ => .error .attributeError
/-- The loop of kiel/protocol/part.py:39-48. -/
def renderFields : Fields → List (String × Val) → Res (List Fmt × List Val)
  | .nil, _ => .ok ([], [])
  | .cons name t rest, kvs =>
    match render t (getAttr kvs name) with
    | .error e => .error e
    | .ok (f, d) =>
      match renderFields rest kvs with
      | .error e => .error e
      | .ok (fs, ds) => .ok (f ++ fs, d ++ ds)
end

/-- `struct.pack("!" + fmt, *data)` of a rendered part. -/
def encode (t : Ty) (v : Val) : Res Bytes :=
  match render t v with
  | .error e => .error e
  | .ok (f, d) => pack f d

/-- `range(count)` iterations of the item parser: kiel/protocol/primitives.py:211-228. -/
def parseItems (p : Bytes → Nat → Res (Val × Nat)) (buff : Bytes) :
    Nat → Nat → Res (List Val × Nat)
  | 0, offset => .ok ([], offset)
  | n + 1, offset =>
    match p buff offset with
    | .error e => .error e
    | .ok (v, offset) =>
      match parseItems p buff n offset with
      | .error e => .error e
      | .ok (vs, offset) => .ok (v :: vs, offset)

/-- `Part.parse` (kiel/protocol/part.py:52-68) on the `Message` parts. -/
def parseMessageParts (buff : Bytes) (offset : Nat) : Res (List (String × Val) × Nat) :=
  match parseInt 4 buff offset with
  | .error e => .error e
  | .ok (crc, offset) =>
    match parseInt 1 buff offset with
    | .error e => .error e
    | .ok (magic, offset) =>
      match parseInt 1 buff offset with
      | .error e => .error e
      | .ok (attributes, offset) =>
        match parseVar 4 buff offset with
        | .error e => .error e
        | .ok (key, offset) =>
          match parseVar 4 buff offset with
          | .error e => .error e
          | .ok (value, offset) =>
            .ok ([("crc", crc), ("magic", magic), ("attributes", attributes),
                  ("key", key), ("value", value)], offset)

/-- kiel/compression/gzip.py:29-42 on an arbitrary parsed value: `BytesIO(None)` is empty,
`BytesIO(str)` is a `TypeError`. -/
def gunzipVal (cx : Codec) : Val → Res Bytes
  | .bytes b => cx.gunzip b
  | .none => cx.gunzip []
  | _ => .error .typeError

/-- kiel/compression/snappy.py:58-85 on an arbitrary parsed value.  `len(None)` is a
`TypeError`; for text, `struct.unpack_from` is a `TypeError` as soon as the loop runs. -/
def unsnappyVal (cx : Codec) : Val → Res Bytes
  | .bytes b => snappyDecompress cx b
  | .str s =>
    if ¬ cx.snappyAvailable then .error .runtimeError
    else if (16 : Int) ≤ (s.length : Int) - 16 then .error .typeError
    else .ok []
  | _ => if ¬ cx.snappyAvailable then .error .runtimeError else .error .typeError

/-- The integer held by an `Int8`..`Int64` attribute of a parsed part. -/
def Val.toInt : Val → Int
  | .int i => i
  | _ => 0

/-- kiel/protocol/messages.py:184-208 (`Message.parse`).  `attributes & 3` is `% 4` for
negative numbers too.  GZIP = 1, SNAPPY = 2 (kiel/constants.py:4,6). -/
def parseMessage (cx : Codec) (buff : Bytes) (offset : Nat) :
    Res (List (String × Val) × Nat) :=
  match parseMessageParts buff offset with
  | .error e => .error e
  | .ok (kvs, offset) =>
    let compression := (getAttr kvs "attributes").toInt % 4
    if compression = 0 then .ok (kvs, offset)
    else if compression = 1 then
      match gunzipVal cx (getAttr kvs "value") with
      | .error e => .error e
      | .ok b => .ok (Dict.set kvs "value" (.bytes b), offset)
    else if compression = 2 then
      match unsnappyVal cx (getAttr kvs "value") with
      | .error e => .error e
      | .ok b => .ok (Dict.set kvs "value" (.bytes b), offset)
    else .ok (kvs, offset)

/-- The `try` block of kiel/protocol/messages.py:130-133, with the value of the variable
`offset` when an exception escapes from it (it is advanced field by field). -/
def parseSetEntry (cx : Codec) (buff : Bytes) (offset : Nat) :
    Except (Exc × Nat) (Val × List (String × Val) × Nat) :=
  match parseInt 8 buff offset with
  | .error e => .error (e, offset)
  | .ok (messageOffset, offset) =>
    match parseInt 4 buff offset with
    | .error e => .error (e, offset)
    | .ok (_, offset) =>
      match parseMessage cx buff offset with
      | .error e => .error (e, offset)
      | .ok (kvs, offset) => .ok (messageOffset, kvs, offset)

/-- The `while` loop of kiel/protocol/messages.py:129-143, as a function of what to do
with a nested set (`nested`).  `fuel` bounds the iterations; each one that does not leave
the loop consumes at least 26 bytes, so `buff.length + 1` is enough
(`Verif/Props/Parse.lean`, C06). Running out of fuel is marked by `recursionError`. -/
def parseSetLoop (cx : Codec) (nested : Bytes → Res (List (Val × Val)))
    (buff : Bytes) (stop : Int) : Nat → Nat → Res (List (Val × Val) × Nat)
  | 0, _ => .error .recursionError
  | fuel + 1, offset =>
    if (offset : Int) = stop then .ok ([], offset)
    else
      match parseSetEntry cx buff offset with
      | .error (.structError, offset) => .ok ([], offset)   -- `break`
      | .error (e, _) => .error e
      | .ok (messageOffset, kvs, offset) =>
        let here : Res (List (Val × Val)) :=
          if (getAttr kvs "attributes").toInt ≠ 0 then
            -- `cls.parse(message.value, 0, size=len(message.value))`
            match getAttr kvs "value" with
            | .bytes b => nested b
            | .str s => if s.length = 0 then .ok [] else .error .typeError
            | _ => .error .typeError
          else .ok [(messageOffset, .part kvs)]
        match here with
        | .error e => .error e
        | .ok ms =>
          match parseSetLoop cx nested buff stop fuel offset with
          | .error e => .error e
          | .ok (rest, offset) => .ok (ms ++ rest, offset)

/-- kiel/protocol/messages.py:110-145 (`MessageSet.parse`) with `size` given, on the whole
of `buff`: the recursive call of line 140.  `depth` is the recursion depth left: Python's
recursion limit. -/
def parseNested (cx : Codec) : Nat → Bytes → Res (List (Val × Val))
  | 0, _ => .error .recursionError
  | depth + 1, buff =>
    match parseSetLoop cx (parseNested cx depth) buff buff.length (buff.length + 1) 0 with
    | .error e => .error e
    | .ok (ms, _) => .ok ms

/-- kiel/protocol/messages.py:110-145 (`MessageSet.parse`) without `size`. -/
def parseSet (cx : Codec) (depth : Nat) (buff : Bytes) (offset : Nat) : Res (Val × Nat) :=
  match unpackInt 4 buff offset with
  | .error e => .error e
  | .ok size =>
    let offset := offset + 4
    match parseSetLoop cx (parseNested cx depth) buff (offset + size) (buff.length + 1)
        offset with
    | .error e => .error e
    | .ok (ms, offset) => .ok (.mset ms, offset)

mutual
/-- `parse(buff, offset)` of a class: integers primitives.py:29-42, variable primitives
91-114, `Array.parse` 211-228 (a negative count is an empty array), `Part.parse`
part.py:52-68, `MessageSet.parse`.  `depth` is the recursion budget for nested message
sets. -/
def parse (cx : Codec) (depth : Nat) : Ty → Bytes → Nat → Res (Val × Nat)
  | .int8, buff, offset => parseInt 1 buff offset
  | .int16, buff, offset => parseInt 2 buff offset
  | .int32, buff, offset => parseInt 4 buff offset
  | .int64, buff, offset => parseInt 8 buff offset
  | .string, buff, offset => parseVar 2 buff offset
  | .bytes, buff, offset => parseVar 4 buff offset
  | .array t, buff, offset =>
    match unpackInt 4 buff offset with
    | .error e => .error e
    | .ok count =>
      match parseItems (fun b o => parse cx depth t b o) buff count.toNat (offset + 4) with
      | .error e => .error e
      | .ok (vs, offset) => .ok (.list vs, offset)
  | .part fs, buff, offset =>
    match parseFields cx depth fs buff offset with
    | .error e => .error e
    | .ok (kvs, offset) => .ok (.part kvs, offset)
  | .messageSet, buff, offset => parseSet cx depth buff offset
/-- The loop of kiel/protocol/part.py:62-66. -/
def parseFields (cx : Codec) (depth : Nat) :
    Fields → Bytes → Nat → Res (List (String × Val) × Nat)
  | .nil, _, offset => .ok ([], offset)
  | .cons name t rest, buff, offset =>
    match parse cx depth t buff offset with
    | .error e => .error e
    | .ok (v, offset) =>
      match parseFields cx depth rest buff offset with
      | .error e => .error e
      | .ok (kvs, offset) => .ok ((name, v) :: kvs, offset)
end

/-- `Message(magic=..., attributes=..., key=..., value=...)`
(kiel/protocol/messages.py:55-60, clients/producer.py:106-111). -/
def mkMessage (attributes : Int) (key value : Val) : Val :=
  .part [("magic", .int 0), ("attributes", .int attributes), ("key", key),
         ("value", value)]

/-- kiel/protocol/messages.py:26-62 (`MessageSet.compressed`).  `compression` is `None` or
an integer; for an integer other than 1 and 2 the variable of line 59 is unbound. -/
def compressedSet (cx : Codec) (compression : Option Int) (msgs : List Val) :
    Res (List (Val × Val)) :=
  let plain := msgs.map (fun m => ((Val.int (-1)), m))
  match compression with
  | .none => .ok plain
  | some c =>
    if c = 0 then .ok plain
    else
      match renderSet plain with
      | .error e => .error e
      | .ok (f, d) =>
        match pack f.tail d.tail with
        | .error e => .error e
        | .ok raw =>
          let compressed : Res Bytes :=
            if c = 1 then .ok (cx.gzip raw)
            else if c = 2 then snappyCompress cx raw
            else .error .unboundLocal
          match compressed with
          | .error e => .error e
          | .ok b => .ok [(.int (-1), mkMessage c .none (.bytes b))]

end Kiel
