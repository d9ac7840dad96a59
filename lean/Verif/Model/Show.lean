import Verif.Model.Wire
/-
kiel/protocol: `repr()` of requests, responses and what they are made of.
-/
set_option autoImplicit false
namespace Kiel

/-- `", ".join(…)`. -/
def joined : List (List Char) → List Char
  | [] => []
  | [x] => x
  | x :: xs => x ++ [',', ' '] ++ joined xs

/-- A hexadecimal digit. -/
def byteDigit (n : Nat) : Char := if n < 10 then Char.ofNat (48 + n) else Char.ofNat (87 + n)

/-- One byte within `repr()` of a bytestring with quotes `q`. -/
def showByte (q : Char) (b : UInt8) : List Char :=
  let c := Char.ofNat b.toNat
  if c = q ∨ c = '\\' then ['\\', c]
  else if c = '\t' then ['\\', 't']
  else if c = '\n' then ['\\', 'n']
  else if c = '\r' then ['\\', 'r']
  else if b.toNat < 32 ∨ 127 ≤ b.toNat then ['\\', 'x', byteDigit (b.toNat / 16), byteDigit (b.toNat % 16)]
  else [c]

/-- `repr()` of a bytestring: in double quotes if it has single quotes and no double ones. -/
def showBytes (b : Bytes) : List Char :=
  let q := if 39 ∈ b ∧ 34 ∉ b then '"' else '\''
  ['b', q] ++ b.flatMap (showByte q) ++ [q]

/-- `str()` of a plain value, as `%s` has it.  Simplification: what is no plain value where one is
expected is not followed. -/
def showScalar : Val → List Char
  | .none => "None".toList
  | .int i => (toString i).toList
  | .flt r => r.toList
  | .str s => s.toList
  | .bytes b => showBytes b
  | .obj r => r.toList
  | _ => []

/-- kiel/protocol/messages.py:217-218 (`Message.__repr__`). -/
def showMessage : Val → Res (List Char)
  | .part kvs =>
    match Dict.get? kvs "key", Dict.get? kvs "value" with
    | some k, some v => .ok (showScalar k ++ " => ".toList ++ showScalar v)
    | _, _ => .error .attributeError
  | v => .ok (showScalar v)

/-- Each in turn, up to the first that raises. -/
def showAll {α : Type} (f : α → Res (List Char)) : List α → Res (List (List Char))
  | [] => .ok []
  | x :: xs =>
    match f x with
    | .error e => .error e
    | .ok s =>
      match showAll f xs with
      | .error e => .error e
      | .ok l => .ok (s :: l)

/-- kiel/protocol/part.py:88, 93: what is shown of an attribute that is not set. -/
def unset : Ty → Val
  | .array _ => .list []
  | _ => .none

mutual
/-- `str()` of a value of an attribute of the given class: kiel/protocol/part.py:82-100
(`Part.__repr__`) with lines 90-95 for arrays, kiel/protocol/messages.py:107-108
(`MessageSet.__repr__`); `cls` tells the names of the classes.  Simplifications: classes that have
the same parts have the same name; an array of arrays (there is none) is shown like an array; text
in place of a list (which Python would take for a list of characters) raises. -/
def showVal (cls : Fields → String) : Ty → Val → Res (List Char)
  | .array t, .list xs =>
    match showAll (fun x => showVal cls t x) xs with
    | .error e => .error e
    | .ok l => .ok (['['] ++ joined l ++ [']'])
  | .array _, _ => .error .typeError
  | .part fs, .part kvs =>
    match showFields cls fs kvs with
    | .error e => .error e
    | .ok l => .ok ((cls fs).toList ++ ['('] ++ joined l ++ [')'])
  | .messageSet, .mset ms =>
    match showAll (fun e => showMessage e.2) ms with
    | .error e => .error e
    | .ok l => .ok (['['] ++ joined l ++ [']'])
  | _, v => .ok (showScalar v)
/-- kiel/protocol/part.py:84-95 (`subpart_string`) for each of the parts. -/
def showFields (cls : Fields → String) : Fields → List (String × Val) → Res (List (List Char))
  | .nil, _ => .ok []
  | .cons name t rest, kvs =>
    match showVal cls t ((Dict.get? kvs name).getD (unset t)) with
    | .error e => .error e
    | .ok s =>
      match showFields cls rest kvs with
      | .error e => .error e
      | .ok l => .ok ((name.toList ++ ['='] ++ s) :: l)
end

end Kiel
