import Verif.Model.Py
/-
Numbers in text: `int(s)` of kiel/clients/grouped.py:311 and kiel/cluster.py:89.
-/
set_option autoImplicit false
namespace Kiel

/-- The digits without the single underscores between them that `int` allows
(kiel/clients/grouped.py:311). -/
def dropSeparators : Bool → List Char → List Char
  | _, [] => []
  | afterDigit, c :: l =>
    if afterDigit && c == '_' && l.head?.any Char.isDigit then dropSeparators false l
    else c :: dropSeparators c.isDigit l

/-- The value of a non-empty sequence of decimal digits (kiel/clients/grouped.py:311). -/
def pyNat? (l : List Char) : Option Nat :=
  let l := dropSeparators false l
  if l ≠ [] ∧ l.all Char.isDigit = true then some (Nat.ofDigitChars 10 l 0) else .none

/-- White space, as far as ASCII goes (kiel/clients/grouped.py:311). -/
def isBlank (c : Char) : Bool := c = ' ' || (9 ≤ c.toNat && c.toNat ≤ 13) || (28 ≤ c.toNat && c.toNat ≤ 31)

/-- `s.strip()`, which `int` does (kiel/clients/grouped.py:311). -/
def pyStrip (l : List Char) : List Char :=
  ((l.dropWhile isBlank).reverse.dropWhile isBlank).reverse

/-- `int(s)` (kiel/clients/grouped.py:311, kiel/cluster.py:89); `none` is a `ValueError`.
Simplification: Python also accepts digits and white space of other scripts. -/
def pyInt? (l : List Char) : Option Int :=
  match pyStrip l with
  | '-' :: l => (pyNat? l).map fun n => -(n : Int)
  | '+' :: l => (pyNat? l).map fun n => (n : Int)
  | l => (pyNat? l).map fun n => (n : Int)

end Kiel
