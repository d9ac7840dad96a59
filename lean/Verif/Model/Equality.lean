import Verif.Model.Wire
/-
kiel/protocol: `==` on protocol structures.
-/
set_option autoImplicit false
namespace Kiel

/-- `==` on the scalars that attributes hold.  Simplification: a number never equals a float, and
objects other than numbers and text are equal if their `str()` is. -/
def eqScalar : Val → Val → Bool
  | .none, .none => true
  | .int i, .int j => i == j
  | .flt r, .flt s => r == s
  | .str s, .str s' => s == s'
  | .bytes b, .bytes b' => b == b'
  | .obj r, .obj s => r == s
  | _, _ => false

/-- `==` on the items of lists of the same length: up to the first that differ. -/
def eqItems {α : Type} (eq : α → α → Res Bool) : List α → List α → Res Bool
  | x :: xs, y :: ys =>
    match eq x y with
    | .error e => .error e
    | .ok false => .ok false
    | .ok true => eqItems eq xs ys
  | _, _ => .ok true

/-- `==` on lists.  Simplification: no item is the same object as the one it is compared with
(Python does not compare those). -/
def eqList {α : Type} (eq : α → α → Res Bool) (xs ys : List α) : Res Bool :=
  if xs.length ≠ ys.length then .ok false else eqItems eq xs ys

/-- kiel/protocol/messages.py:210-215 (`Message.__eq__`). -/
def eqMessage : Val → Val → Res Bool
  | .part a, .part b =>
    match Dict.get? a "key", Dict.get? b "key" with
    | some k, some k' =>
      if eqScalar k k' then
        match Dict.get? a "value", Dict.get? b "value" with
        | some v, some v' => .ok (eqScalar v v')
        | _, _ => .error .attributeError
      else .ok false
    | _, _ => .error .attributeError
  | _, _ => .error .attributeError

/-- `==` on the (offset, message) tuples of a message set. -/
def eqEntry (a b : Val × Val) : Res Bool := if eqScalar a.1 b.1 then eqMessage a.2 b.2 else .ok false

mutual
/-- `==` on two values of an attribute of the given class: scalars, lists,
kiel/protocol/part.py:70-80 (`Part.__eq__`), kiel/protocol/messages.py:97-105
(`MessageSet.__eq__`).  The attributes of parts are plain values, so `Primitive.__eq__`
(kiel/protocol/primitives.py:44-48) plays no part. -/
def eqVal : Ty → Val → Val → Res Bool
  | .array t, .list xs, .list ys => eqList (fun x y => eqVal t x y) xs ys
  | .part fs, .part a, .part b => .ok (eqFields fs a b)
  | .messageSet, .mset a, .mset b => eqList eqEntry a b
  | .messageSet, .mset _, _ => .error .attributeError
  | .messageSet, _, .mset _ => .error .attributeError
  | _, a, b => .ok (eqScalar a b)
/-- kiel/protocol/part.py:74-80: an `AttributeError`, be it in the comparison of attributes, makes the
instances differ. -/
def eqFields : Fields → List (String × Val) → List (String × Val) → Bool
  | .nil, _, _ => true
  | .cons name t rest, a, b =>
    match Dict.get? a name, Dict.get? b name with
    | some x, some y =>
      (match eqVal t x y with
        | .ok true => true
        | _ => false) && eqFields rest a b
    | _, _ => false
end

end Kiel
