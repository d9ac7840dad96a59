import Verif.Model.SharedSet
import Verif.Model.Wire
/-
CPython's `json` as kiel uses it: `json.dumps(message, sort_keys=True)`
(kiel/clients/producer.py:46-47), `json.loads` (kiel/clients/consumer.py:39), and both in
kiel/zookeeper/shared_set.py:84-94.  It is not part of kiel; what is modelled is its documented
behaviour with the default options (`ensure_ascii`, separators `", "` and `": "`, `strict`).
-/
set_option autoImplicit false
namespace Kiel

/-- What JSON text can stand for.  Text is the list of its characters; lone surrogates, which
Python's `str` can hold, are left out.  `float t` is a float by the text JSON has for it.
Simplification: objects have text for keys (`dumps` would turn numbers and so on into text). -/
inductive Json where
  | null
  | bool (b : Bool)
  | int (i : Int)
  | float (t : List Char)
  | str (s : List Char)
  | arr (l : List Json)
  | obj (kvs : List (List Char × Json))
  deriving Repr, Inhabited

namespace Json

/-! ### Writing -/

/-- A hexadecimal digit, as `'{:x}'.format` writes it. -/
def hexDigit (n : Nat) : Char := if n < 10 then Char.ofNat (48 + n) else Char.ofNat (87 + n)

/-- `'\\u{0:04x}'.format(n)`. -/
def u4 (n : Nat) : List Char :=
  ['\\', 'u', hexDigit (n / 4096 % 16), hexDigit (n / 256 % 16), hexDigit (n / 16 % 16),
    hexDigit (n % 16)]

/-- How a character is written between quotes (`json.dumps` with `ensure_ascii`;
kiel/clients/producer.py:47, kiel/zookeeper/shared_set.py:88). -/
def escape (c : Char) : List Char :=
  if c = '"' then ['\\', '"']
  else if c = '\\' then ['\\', '\\']
  else if c = '\n' then ['\\', 'n']
  else if c = '\r' then ['\\', 'r']
  else if c = '\t' then ['\\', 't']
  else if c.toNat = 12 then ['\\', 'f']
  else if c.toNat = 8 then ['\\', 'b']
  else if 32 ≤ c.toNat ∧ c.toNat ≤ 126 then [c]
  else if c.toNat < 0x10000 then u4 c.toNat
  else u4 (0xd800 + (c.toNat - 0x10000) / 1024) ++ u4 (0xdc00 + (c.toNat - 0x10000) % 1024)

/-- Text as a JSON string. -/
def quote (s : List Char) : List Char := '"' :: (s.flatMap escape ++ ['"'])

/-- `", ".join(...)`. -/
def joinComma : List (List Char) → List Char
  | [] => []
  | [x] => x
  | x :: y :: r => x ++ (',' :: ' ' :: joinComma (y :: r))

/-- The order of `sorted(dct.items())` for different keys: by code points. -/
def keyLe {α : Type} (a b : List Char × α) : Bool := decide (a.1 ≤ b.1)

mutual
/-- `json.dumps(v, sort_keys=True)` (kiel/clients/producer.py:47); for lists of strings also
`json.dumps(v)` (kiel/zookeeper/shared_set.py:88). -/
def dumps : Json → List Char
  | .null => ['n', 'u', 'l', 'l']
  | .bool true => ['t', 'r', 'u', 'e']
  | .bool false => ['f', 'a', 'l', 's', 'e']
  | .int i => (strInt i).toList
  | .float t => t
  | .str s => quote s
  | .arr l => '[' :: (joinComma (dumpsList l) ++ [']'])
  | .obj kvs => '{' :: (joinComma (((dumpsPairs kvs).mergeSort keyLe).map fun p =>
      quote p.1 ++ (':' :: ' ' :: p.2)) ++ ['}'])
/-- The elements of an array. -/
def dumpsList : List Json → List (List Char)
  | [] => []
  | v :: r => dumps v :: dumpsList r
/-- The values of an object. -/
def dumpsPairs : List (List Char × Json) → List (List Char × List Char)
  | [] => []
  | (k, v) :: r => (k, dumps v) :: dumpsPairs r
end

/-! ### Reading -/

/-- Blanks between tokens. -/
def isWs (c : Char) : Bool := c = ' ' || c = '\t' || c = '\n' || c = '\r'

/-- `WHITESPACE.match(s, end).end()`. -/
def skipWs (s : List Char) : List Char := s.dropWhile isWs

/-- The value of a hexadecimal digit. -/
def hexVal (c : Char) : Option Nat :=
  if c.isDigit then some (c.toNat - 48)
  else if 'a' ≤ c ∧ c ≤ 'f' then some (c.toNat - 87)
  else if 'A' ≤ c ∧ c ≤ 'F' then some (c.toNat - 55)
  else .none

/-- Four hexadecimal digits. -/
def hex4 : List Char → Option (Nat × List Char)
  | a :: b :: c :: d :: r =>
    match hexVal a, hexVal b, hexVal c, hexVal d with
    | some a, some b, some c, some d => some (4096 * a + 256 * b + 16 * c + d, r)
    | _, _, _, _ => .none
  | _ => .none

/-- The character that a one-letter escape stands for. -/
def unescape (c : Char) : Option Char :=
  if c = '"' ∨ c = '\\' ∨ c = '/' then some c
  else if c = 'b' then some (Char.ofNat 8)
  else if c = 'f' then some (Char.ofNat 12)
  else if c = 'n' then some '\n'
  else if c = 'r' then some '\r'
  else if c = 't' then some '\t'
  else .none

/-- One character of a string, or its end.  Simplification: an escape for a lone surrogate is
refused. -/
def scanChar : List Char → Res (Option Char × List Char)
  | [] => .error .valueError
  | c :: r =>
    if c = '"' then .ok (.none, r)
    else if c = '\\' then
      match r with
      | [] => .error .valueError
      | e :: r =>
        if e ≠ 'u' then
          match unescape e with
          | some c => .ok (some c, r)
          | .none => .error .valueError
        else
          match hex4 r with
          | .none => .error .valueError
          | some (u, r) =>
            if 0xd800 ≤ u ∧ u ≤ 0xdbff then
              match r with
              | '\\' :: 'u' :: r =>
                match hex4 r with
                | .none => .error .valueError
                | some (u', r) =>
                  if 0xdc00 ≤ u' ∧ u' ≤ 0xdfff then
                    .ok (some (Char.ofNat (0x10000 + ((u - 0xd800) * 1024 + (u' - 0xdc00)))), r)
                  else .error .valueError
              | _ => .error .valueError
            else if 0xdc00 ≤ u ∧ u ≤ 0xdfff then .error .valueError
            else .ok (some (Char.ofNat u), r)
    else if c.toNat < 32 then .error .valueError
    else .ok (some c, r)

/-- The characters of a string up to its closing quote.  `fuel`: as many as there can be. -/
def scanChars : Nat → List Char → Res (List Char × List Char)
  | 0, _ => .error .valueError
  | fuel + 1, s =>
    match scanChar s with
    | .error e => .error e
    | .ok (.none, r) => .ok ([], r)
    | .ok (some c, r) =>
      match scanChars fuel r with
      | .error e => .error e
      | .ok (cs, r) => .ok (c :: cs, r)

/-- `scanstring`, after the opening quote. -/
def scanString (s : List Char) : Res (List Char × List Char) := scanChars (s.length + 1) s

/-- The fraction of a number, if there is one. -/
def scanFrac : List Char → List Char × List Char
  | '.' :: r =>
    if r.takeWhile Char.isDigit = [] then ([], '.' :: r)
    else ('.' :: r.takeWhile Char.isDigit, r.dropWhile Char.isDigit)
  | s => ([], s)

/-- The exponent of a number, if there is one. -/
def scanExp : List Char → List Char × List Char
  | [] => ([], [])
  | e :: r =>
    if e = 'e' ∨ e = 'E' then
      let (sign, ds) := match r with
        | '+' :: r => (['+'], r)
        | '-' :: r => (['-'], r)
        | r => ([], r)
      if ds.takeWhile Char.isDigit = [] then ([], e :: r)
      else (e :: (sign ++ ds.takeWhile Char.isDigit), ds.dropWhile Char.isDigit)
    else ([], e :: r)

/-- The integer part of a number without its sign. -/
def scanDigits : List Char → Option (List Char × List Char)
  | [] => .none
  | c :: r =>
    if c = '0' then some (['0'], r)
    else if c.isDigit then some (c :: r.takeWhile Char.isDigit, r.dropWhile Char.isDigit)
    else .none

/-- The sign of a number, if there is one. -/
def scanSign : List Char → List Char × List Char
  | [] => ([], [])
  | c :: r => if c = '-' then (['-'], r) else ([], c :: r)

/-- A number, given its integer part with sign, fraction and exponent.  Simplification: newer
Pythons refuse integers of more than 4300 digits. -/
def numberOf (i f e r : List Char) : Res (Json × List Char) :=
  if f = [] ∧ e = [] then
    match pyInt? i with
    | some i => .ok (.int i, r)
    | .none => .error .valueError
  else .ok (.float (i ++ f ++ e), r)

/-- A number: `-?(0|[1-9]\d*)(\.\d+)?([eE][-+]?\d+)?`, or one of the constants for which
Python has text. -/
def scanNumber (s : List Char) : Res (Json × List Char) :=
  match scanDigits (scanSign s).2 with
  | some (ds, r) =>
    numberOf ((scanSign s).1 ++ ds) (scanFrac r).1 (scanExp (scanFrac r).2).1
      (scanExp (scanFrac r).2).2
  | .none =>
    match s with
    | 'N' :: 'a' :: 'N' :: r => .ok (.float ['N', 'a', 'N'], r)
    | 'I' :: 'n' :: 'f' :: 'i' :: 'n' :: 'i' :: 't' :: 'y' :: r => .ok (.float "Infinity".toList, r)
    | '-' :: 'I' :: 'n' :: 'f' :: 'i' :: 'n' :: 'i' :: 't' :: 'y' :: r =>
      .ok (.float "-Infinity".toList, r)
    | _ => .error .valueError

/-- `dict(pairs)`. -/
def dictOf (pairs : List (List Char × Json)) : List (List Char × Json) :=
  pairs.foldl (fun d p => Dict.set d p.1 p.2) []

mutual
/-- `scan_once(s, 0)`: the value at the start of the text, and what follows it.  `fuel` bounds
the number of nested calls; Python's recursion limit is not modelled. -/
def scan : Nat → List Char → Res (Json × List Char)
  | 0, _ => .error .valueError
  | fuel + 1, s =>
    match s with
    | '"' :: r =>
      match scanString r with
      | .error e => .error e
      | .ok (t, r) => .ok (.str t, r)
    | '{' :: r =>
      match skipWs r with
      | '}' :: r => .ok (.obj [], r)
      | '"' :: r =>
        match scanMembers fuel r with
        | .error e => .error e
        | .ok (ps, r) => .ok (.obj (dictOf ps), r)
      | _ => .error .valueError
    | '[' :: r =>
      match skipWs r with
      | ']' :: r => .ok (.arr [], r)
      | r =>
        match scanElems fuel r with
        | .error e => .error e
        | .ok (vs, r) => .ok (.arr vs, r)
    | 'n' :: 'u' :: 'l' :: 'l' :: r => .ok (.null, r)
    | 't' :: 'r' :: 'u' :: 'e' :: r => .ok (.bool true, r)
    | 'f' :: 'a' :: 'l' :: 's' :: 'e' :: r => .ok (.bool false, r)
    | s => scanNumber s
/-- The elements of an array up to its end. -/
def scanElems : Nat → List Char → Res (List Json × List Char)
  | 0, _ => .error .valueError
  | fuel + 1, s =>
    match scan fuel s with
    | .error e => .error e
    | .ok (v, r) =>
      match skipWs r with
      | ']' :: r => .ok ([v], r)
      | ',' :: r =>
        match scanElems fuel (skipWs r) with
        | .error e => .error e
        | .ok (vs, r) => .ok (v :: vs, r)
      | _ => .error .valueError
/-- The members of an object, after the opening quote of a key, up to its end. -/
def scanMembers : Nat → List Char → Res (List (List Char × Json) × List Char)
  | 0, _ => .error .valueError
  | fuel + 1, s =>
    match scanString s with
    | .error e => .error e
    | .ok (k, r) =>
      match skipWs r with
      | ':' :: r =>
        match scan fuel (skipWs r) with
        | .error e => .error e
        | .ok (v, r) =>
          match skipWs r with
          | '}' :: r => .ok ([(k, v)], r)
          | ',' :: r =>
            match skipWs r with
            | '"' :: r =>
              match scanMembers fuel r with
              | .error e => .error e
              | .ok (ps, r) => .ok ((k, v) :: ps, r)
            | _ => .error .valueError
          | _ => .error .valueError
      | _ => .error .valueError
end

/-- `json.loads(s)` for text (kiel/clients/consumer.py:39, kiel/zookeeper/shared_set.py:94). -/
def loads (s : List Char) : Res Json :=
  if s.head? = some (Char.ofNat 0xfeff) then .error .valueError
  else
    match scan (s.length + 1) (skipWs s) with
    | .error e => .error e
    | .ok (v, r) => if skipWs r = [] then .ok v else .error .valueError

/-! ### Text from bytes -/

/-- What `json.detect_encoding` tells apart. -/
inductive Encoding where
  | utf8
  | utf8sig
  | utf16
  | utf16be
  | utf16le
  | utf32
  | utf32be
  | utf32le
  deriving DecidableEq, Repr

/-- `json.detect_encoding(b)`, which `json.loads` calls for bytes (kiel/clients/consumer.py:39): by the
byte order mark, or else by where there are zeros. -/
def detectEncoding (b : Bytes) : Encoding :=
  if b.take 4 = [0, 0, 0xfe, 0xff] ∨ b.take 4 = [0xff, 0xfe, 0, 0] then .utf32
  else if b.take 2 = [0xfe, 0xff] ∨ b.take 2 = [0xff, 0xfe] then .utf16
  else if b.take 3 = [0xef, 0xbb, 0xbf] then .utf8sig
  else
    match b with
    | b0 :: b1 :: b2 :: b3 :: _ =>
      if b0 = 0 then if b1 ≠ 0 then .utf16be else .utf32be
      else if b1 = 0 then if b2 ≠ 0 ∨ b3 ≠ 0 then .utf16le else .utf32le
      else .utf8
    | [b0, b1] => if b0 = 0 then .utf16be else if b1 = 0 then .utf16le else .utf8
    | _ => .utf8

/-- The numbers that pairs of bytes make, the more significant byte first or not; `none` if a byte is
left over (`UnicodeDecodeError`: truncated data; kiel/clients/consumer.py:39). -/
def units16 (big : Bool) : Bytes → Option (List Nat)
  | [] => some []
  | [_] => .none
  | a :: b :: r =>
    (units16 big r).map fun l =>
      (if big then a.toNat * 256 + b.toNat else b.toNat * 256 + a.toNat) :: l

/-- The same for four bytes each. -/
def units32 (big : Bool) : Bytes → Option (List Nat)
  | [] => some []
  | a :: b :: c :: d :: r =>
    (units32 big r).map fun l =>
      (if big then ((a.toNat * 256 + b.toNat) * 256 + c.toNat) * 256 + d.toNat
        else ((d.toNat * 256 + c.toNat) * 256 + b.toNat) * 256 + a.toNat) :: l
  | _ => .none

/-- The characters that UTF-16 code units stand for (`s.decode('utf-16-be', 'surrogatepass')` and so on,
in `json.loads`; kiel/clients/consumer.py:39).
Simplification: lone surrogates, which `surrogatepass` lets pass, are refused. -/
def chars16 : List Nat → Option (List Char)
  | [] => some []
  | [u] => if u < 0xd800 ∨ 0xe000 ≤ u then some [Char.ofNat u] else .none
  | u :: v :: r =>
    if u < 0xd800 ∨ 0xe000 ≤ u then (chars16 (v :: r)).map (Char.ofNat u :: ·)
    else if u < 0xdc00 ∧ 0xdc00 ≤ v ∧ v < 0xe000 then
      (chars16 r).map (Char.ofNat (0x10000 + (u - 0xd800) * 0x400 + (v - 0xdc00)) :: ·)
    else .none

/-- The same for UTF-32: code points. -/
def chars32 : List Nat → Option (List Char)
  | [] => some []
  | u :: r =>
    if u < 0xd800 ∨ (0xe000 ≤ u ∧ u < 0x110000) then (chars32 r).map (Char.ofNat u :: ·) else .none

/-- `b.decode(detect_encoding(b), 'surrogatepass')`, as `json.loads` does with bytes
(kiel/clients/consumer.py:39); `none` is `UnicodeDecodeError`, which is a `ValueError`. The decoders
`utf-16` and `utf-32` drop the byte order mark and obey it.
Simplification: lone surrogates are refused. -/
def decodeDetected (b : Bytes) : Option (List Char) :=
  match detectEncoding b with
  | .utf8 => (decodeUtf8 b).map String.toList
  | .utf8sig => (decodeUtf8 (b.drop 3)).map String.toList
  | .utf16 => (units16 (b.take 2 = [0xfe, 0xff]) (b.drop 2)).bind chars16
  | .utf16be => (units16 true b).bind chars16
  | .utf16le => (units16 false b).bind chars16
  | .utf32 => (units32 (b.take 4 = [0, 0, 0xfe, 0xff]) (b.drop 4)).bind chars32
  | .utf32be => (units32 true b).bind chars32
  | .utf32le => (units32 false b).bind chars32

end Json

/-- The default serializer of a producer (kiel/clients/producer.py:46-47, 56). -/
def jsonSerializer (m : Json) : Res Val := .ok (.str (String.ofList m.dumps))

/-- The default deserializer of a consumer (kiel/clients/consumer.py:39) on the value of a
message: text, or bytes that are not UTF-8 (kiel/protocol/primitives.py:106-111). -/
def jsonDeserializer : Val → Res Json
  | .str s => Json.loads s.toList
  | .bytes b =>
    match Json.decodeDetected b with
    | some t => Json.loads t
    | .none => .error .valueError
  | _ => .error .typeError

/-- kiel/zookeeper/shared_set.py:84-88 (`serialize`): the order of `list(data)` is arbitrary, here
that of the list. -/
def SharedSet.serialize (items : List Json) : List Char := Json.dumps (.arr items)

/-- What Python can hash, and so have in a set (kiel/zookeeper/shared_set.py:94): everything JSON
has but lists and objects. -/
def hashable : Json → Bool
  | .arr _ => false
  | .obj _ => false
  | _ => true

/-- `s.add(v)` (kiel/zookeeper/shared_set.py:59, 94).  `same` is `==`, which for numbers is not
what is written (`1 == 1.0`). -/
def addHashed (same : Json → Json → Bool) (s : List Json) (v : Json) : List Json :=
  if s.any (same · v) then s else s ++ [v]

/-- `set(l)` (kiel/zookeeper/shared_set.py:94). -/
def pyItems (same : Json → Json → Bool) (l : List Json) : List Json := l.foldl (addHashed same) []

/-- kiel/zookeeper/shared_set.py:90-94 (`deserialize`); no data, or empty data, count as `[]`.
`set(...)` of a string has its characters, of an object its keys; other values cannot be iterated
over. -/
def SharedSet.deserialize (same : Json → Json → Bool) (data : Option (List Char)) :
    Res (List Json) :=
  let text := match data with
    | .none => ['[', ']']
    | some [] => ['[', ']']
    | some t => t
  match Json.loads text with
  | .error e => .error e
  | .ok (.arr l) => if l.all hashable then .ok (pyItems same l) else .error .typeError
  | .ok (.str s) => .ok (pyItems same (s.map fun c => .str [c]))
  | .ok (.obj kvs) => .ok (pyItems same (kvs.map fun kv => .str kv.1))
  | .ok _ => .error .typeError

/-- `SetOp.decision` for a set that may have other items than strings: kiel/zookeeper/
shared_set.py:52-63 and 75-82. -/
def SetOp.decisionItems (same : Json → Json → Bool) : SetOp → List Json → Option (List Json)
  | .add new, existing =>
    if new.all (fun x => existing.any (same · (.str x.toList))) then .none
    else some ((new.map fun x => .str x.toList).foldl (addHashed same) existing)
  | .remove old, existing =>
    if old.all (fun x => !existing.any (same · (.str x.toList))) then .none
    else some (existing.filter fun v => !old.any (fun x => same v (.str x.toList)))

/-- A call nobody interferes with, on the text in the set's node: kiel/zookeeper/shared_set.py:
42-63 (`add_items`), 65-82 (`remove_items`).  Outcome, text afterwards, and what was written.
`textOk` as for `zkSet`. -/
def SetOp.callText (same : Json → Json → Bool) (textOk : Bool) (op : SetOp)
    (data : Option (List Char)) : Res Unit × Option (List Char) × List (List Char) :=
  match SharedSet.deserialize same data with
  | .error e => (.error e, data, [])
  | .ok existing =>
    match op.decisionItems same existing with
    | .none => (.ok (), data, [])
    | some new =>
      if textOk then (.ok (), some (SharedSet.serialize new), [SharedSet.serialize new])
      else (.error .typeError, data, [])

end Kiel
