import Verif.Model.Json
/-
Which messages JSON can carry, and when Python takes two of them for equal.
-/
set_option autoImplicit false
namespace Kiel.Spec
open Kiel

/-- Text of a finite float as Python writes it: an integer part without superfluous zeros, with a
fraction, an exponent or both. -/
def FloatText (t : List Char) : Prop :=
  ∃ sign ds f e : List Char, t = sign ++ ds ++ f ++ e ∧ (sign = [] ∨ sign = ['-']) ∧
    (ds = ['0'] ∨ ∃ c r, ds = c :: r ∧ c ≠ '0' ∧ ∀ x ∈ ds, x.isDigit) ∧
    (f = [] ∨ ∃ r, f = '.' :: r ∧ r ≠ [] ∧ ∀ x ∈ r, x.isDigit) ∧
    (e = [] ∨ ∃ s r, e = 'e' :: (s ++ r) ∧ (s = [] ∨ s = ['+'] ∨ s = ['-']) ∧ r ≠ [] ∧
      ∀ x ∈ r, x.isDigit) ∧ ¬ (f = [] ∧ e = [])

/-- Values that Python can have: the keys of a dictionary are different, the floats are finite. -/
inductive ValidJson : Json → Prop
  | null : ValidJson .null
  | bool (b : Bool) : ValidJson (.bool b)
  | int (i : Int) : ValidJson (.int i)
  | float (t : List Char) (h : FloatText t) : ValidJson (.float t)
  | str (s : List Char) : ValidJson (.str s)
  | arr (l : List Json) (h : ∀ v ∈ l, ValidJson v) : ValidJson (.arr l)
  | obj (kvs : List (List Char × Json)) (hk : (kvs.map (·.1)).Nodup)
      (h : ∀ p ∈ kvs, ValidJson p.2) : ValidJson (.obj kvs)

/-- `a == b`, numbers having the same type (Python has `1 == 1.0 == True`, too): lists element by
element, dictionaries key by key, in whatever order. -/
inductive SameJson : Json → Json → Prop
  | null : SameJson .null .null
  | bool (b : Bool) : SameJson (.bool b) (.bool b)
  | int (i : Int) : SameJson (.int i) (.int i)
  | float (t : List Char) : SameJson (.float t) (.float t)
  | str (s : List Char) : SameJson (.str s) (.str s)
  | arr (l l' : List Json) (hl : l.length = l'.length)
      (h : ∀ (i : Nat) (x y : Json), l[i]? = some x → l'[i]? = some y → SameJson x y) :
      SameJson (.arr l) (.arr l')
  | obj (d d' : List (List Char × Json)) (hl : d.length = d'.length)
      (hk : ∀ k, k ∈ d.map (·.1) ↔ k ∈ d'.map (·.1))
      (h : ∀ k v v', (k, v) ∈ d → (k, v') ∈ d' → SameJson v v') :
      SameJson (.obj d) (.obj d')

/-- `==` on what Python has for JSON values, as far as strings are concerned: they are equal to
strings of the same characters and to nothing else. -/
structure StringsDiffer (same : Json → Json → Bool) : Prop where
  left : ∀ s v, same (.str s) v = true ↔ v = .str s
  right : ∀ v s, same v (.str s) = true ↔ v = .str s

/-- The strings in a collection of JSON values. -/
def strings (l : List Json) : Set String := {x | Json.str x.toList ∈ l}

/-- What else is in it. -/
def others (l : List Json) : List Json := l.filter fun v => match v with
  | .str _ => false
  | _ => true

end Kiel.Spec
