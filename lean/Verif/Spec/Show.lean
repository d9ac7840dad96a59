import Verif.Spec.Equality
/-
What is to be said of `repr()` of protocol structures.
-/
set_option autoImplicit false
namespace Kiel.Spec
open Kiel

/-- A hexadecimal digit. -/
def digit (c : Char) : Option Nat :=
  "0123456789abcdef".toList.findIdx? (· == c)

/-- One byte of a bytes literal of Python with quotes `q`, and the rest of the literal. -/
def readByte (q : Char) : List Char → Option (UInt8 × List Char)
  | '\\' :: 'x' :: a :: b :: r =>
    match digit a, digit b with
    | some m, some n => some (UInt8.ofNat (16 * m + n), r)
    | _, _ => .none
  | '\\' :: 't' :: r => some (9, r)
  | '\\' :: 'n' :: r => some (10, r)
  | '\\' :: 'r' :: r => some (13, r)
  | '\\' :: c :: r => if c = '\\' ∨ c = '\'' ∨ c = '"' then some (UInt8.ofNat c.toNat, r) else .none
  | c :: r => if c ≠ '\\' ∧ c ≠ q ∧ 32 ≤ c.toNat ∧ c.toNat < 127 then some (UInt8.ofNat c.toNat, r) else .none
  | [] => .none

/-- What stands after the opening quote of a literal for these bytes. -/
inductive Literal (q : Char) : List Char → Bytes → Prop where
  | close : Literal q [q] []
  | byte {s r : List Char} {x : UInt8} {b : Bytes} : readByte q s = some (x, r) → Literal q r b →
      Literal q s (x :: b)

/-- How a plain value is shown: numbers in decimal, text as it is, bytes as a literal for them. -/
def ShowsScalar : Val → List Char → Prop
  | .none, s => s = ['N', 'o', 'n', 'e']
  | .int i, s => s = (toString i).toList
  | .flt r, s => s = r.toList
  | .obj r, s => s = r.toList
  | .str r, s => s = r.toList
  | .bytes b, s => ∃ q r, (q = '\'' ∨ q = '"') ∧ s = 'b' :: q :: r ∧ Literal q r b
  | _, _ => False

/-- The pieces occur in the text, in this order. -/
def InOrder : List (List Char → Prop) → List Char → Prop
  | [], _ => True
  | p :: ps, s => ∃ a m b, s = a ++ m ++ b ∧ p m ∧ InOrder ps b

/-- The same, and the text begins with the first of them. -/
def Begins : List (List Char → Prop) → List Char → Prop
  | [], _ => True
  | p :: ps, s => ∃ m b, s = m ++ b ∧ p m ∧ InOrder ps b

/-- The first piece, after the name. -/
def named (name : String) : List (List Char → Prop) → List (List Char → Prop)
  | [] => [(· = name.toList ++ ['='])]
  | p :: ps => (fun s => ∃ m, s = name.toList ++ ['='] ++ m ∧ p m) :: ps

/-- How a message is shown. -/
def ShowsMessage (m : Val) (s : List Char) : Prop :=
  ∃ k v, s = k ++ [' ', '=', '>', ' '] ++ v ∧ ShowsScalar (attr m "key") k ∧ ShowsScalar (attr m "value") v

mutual
/-- What is to be seen of a value: the name of its class, and all attributes with their names, in
the order in which they are declared. -/
def pieces (cls : Fields → String) : Ty → Val → List (List Char → Prop)
  | .array t, v => (· = ['[']) :: (elems v).flatMap (fun x => pieces cls t x) ++ [(· = [']'])]
  | .part fs, v => (· = (cls fs).toList ++ ['(']) :: piecesFields cls fs v ++ [(· = [')'])]
  | .messageSet, v => (· = ['[']) :: (msgs v).map (fun e => ShowsMessage e.2) ++ [(· = [']'])]
  | _, v => [ShowsScalar v]
/-- The same for the fields of an instance. -/
def piecesFields (cls : Fields → String) : Fields → Val → List (List Char → Prop)
  | .nil, _ => []
  | .cons name t rest, v => named name (pieces cls t (attr v name)) ++ piecesFields cls rest v
end

/-- It is a plain value. -/
def Scalar : Val → Prop
  | .list _ => False
  | .part _ => False
  | .mset _ => False
  | _ => True

mutual
/-- Values of which all can be shown: arrays that are set are lists, and messages have a key and a
value. -/
def Showable : Ty → Val → Prop
  | .array t, v => (∃ xs, v = .list xs) ∧ ∀ x ∈ elems v, Showable t x
  | .part fs, v => (∃ kvs, v = .part kvs) ∧ ShowableFields fs v
  | .messageSet, v => (∃ ms, v = .mset ms) ∧ ∀ e ∈ msgs v, HasAttr e.2 "key" ∧ HasAttr e.2 "value" ∧
      Scalar (attr e.2 "key") ∧ Scalar (attr e.2 "value")
  | _, v => Scalar v
/-- The same for the fields of an instance. -/
def ShowableFields : Fields → Val → Prop
  | .nil, _ => True
  | .cons name t rest, v =>
    (((∃ t', t = .array t') ∧ ¬ HasAttr v name) ∨ Showable t (attr v name)) ∧ ShowableFields rest v
end

end Kiel.Spec
