import Verif.Model.Json
/-
What JSON text is, and what it denotes: the grammar of RFC 8259.
-/
set_option autoImplicit false
namespace Kiel.Spec
open Kiel

/-- Insignificant white space. -/
def Blank (w : List Char) : Prop := ∀ c ∈ w, c = ' ' ∨ c = '\t' ∨ c = '\n' ∨ c = '\r'

/-- A hexadecimal digit, in either case, and its value. -/
def HexDigit (c : Char) (n : Nat) : Prop :=
  "0123456789abcdef".toList[n]? = some c ∨ "0123456789ABCDEF".toList[n]? = some c

/-- Four of them. -/
inductive Hex4 : List Char → Nat → Prop
  | mk (a b c d : Char) (w x y z : Nat) (ha : HexDigit a w) (hb : HexDigit b x)
      (hc : HexDigit c y) (hd : HexDigit d z) :
      Hex4 [a, b, c, d] (((w * 16 + x) * 16 + y) * 16 + z)

/-- How a character may be written in a string: itself, unless it is a quote, a backslash or a
control character; one of the short escapes; the number of its code point, or of its two
surrogates. -/
inductive CharText : List Char → Char → Prop
  | raw (c : Char) (h : 0x20 ≤ c.toNat) (hq : c ≠ '"') (hb : c ≠ '\\') : CharText [c] c
  | quote : CharText ['\\', '"'] '"'
  | backslash : CharText ['\\', '\\'] '\\'
  | slash : CharText ['\\', '/'] '/'
  | backspace : CharText ['\\', 'b'] '\x08'
  | formFeed : CharText ['\\', 'f'] '\x0c'
  | lineFeed : CharText ['\\', 'n'] '\n'
  | carriageReturn : CharText ['\\', 'r'] '\r'
  | tab : CharText ['\\', 't'] '\t'
  | unit (t : List Char) (c : Char) (h : Hex4 t c.toNat) : CharText ('\\' :: 'u' :: t) c
  | pair (t t' : List Char) (hi lo : Nat) (c : Char) (h : Hex4 t hi) (h' : Hex4 t' lo)
      (hhi : 0xd800 ≤ hi ∧ hi < 0xdc00) (hlo : 0xdc00 ≤ lo ∧ lo < 0xe000)
      (hc : c.toNat = 0x10000 + (hi - 0xd800) * 0x400 + (lo - 0xdc00)) :
      CharText ('\\' :: 'u' :: (t ++ '\\' :: 'u' :: t')) c

/-- What may stand between the quotes of a string, and its characters. -/
inductive StringText : List Char → List Char → Prop
  | nil : StringText [] []
  | cons (a : List Char) (c : Char) (t s : List Char) (h : CharText a c) (hs : StringText t s) :
      StringText (a ++ t) (c :: s)

/-- Decimal digits, at least one. -/
def Digits (ds : List Char) : Prop := ds ≠ [] ∧ ∀ c ∈ ds, '0' ≤ c ∧ c ≤ '9'

/-- The number that decimal digits denote: the last one counts once, the one before it ten times,
and so on. -/
def decimal : List Char → Nat
  | [] => 0
  | c :: r => (c.toNat - 48) * 10 ^ r.length + decimal r

/-- Digits without superfluous zeros. -/
def IntDigits (ds : List Char) : Prop := Digits ds ∧ (ds.head? = some '0' → ds = ['0'])

/-- A fraction. -/
def Fraction (f : List Char) : Prop := ∃ ds, f = '.' :: ds ∧ Digits ds

/-- An exponent. -/
def Exponent (e : List Char) : Prop := ∃ c s ds, e = c :: (s ++ ds) ∧ (c = 'e' ∨ c = 'E') ∧
  (s = [] ∨ s = ['+'] ∨ s = ['-']) ∧ Digits ds

/-- A value with white space around it. -/
structure Item where
  pre : List Char
  text : List Char
  post : List Char
  value : Json

/-- Its text. -/
def Item.whole (p : Item) : List Char := p.pre ++ p.text ++ p.post

/-- A member of an object: white space, the text between the quotes of its name, the name, white
space, and after a colon its value. -/
structure NamedItem where
  pre : List Char
  nameText : List Char
  name : List Char
  mid : List Char
  item : Item

/-- Its text. -/
def NamedItem.whole (p : NamedItem) : List Char :=
  p.pre ++ ('"' :: p.nameText) ++ ('"' :: p.mid) ++ (':' :: p.item.whole)

/-- Texts separated by commas. -/
def commas : List (List Char) → List Char
  | [] => []
  | [x] => x
  | x :: y :: r => x ++ (',' :: commas (y :: r))

/-- The dictionary has for every name the last value that came with it, and nothing else. -/
def LastWins (ps kvs : List (List Char × Json)) : Prop :=
  (kvs.map (·.1)).Nodup ∧ ∀ k v, (k, v) ∈ kvs ↔
    ∃ a b, ps = a ++ (k, v) :: b ∧ ∀ w, (k, w) ∉ b

/-- Text and the value it denotes.  `more` are constants taken for numbers that JSON does not
have.  Escapes for lone surrogates are left out. -/
inductive JsonText (more : List String) : List Char → Json → Prop
  | null : JsonText more "null".toList .null
  | true : JsonText more "true".toList (.bool true)
  | false : JsonText more "false".toList (.bool false)
  | nat (ds : List Char) (h : IntDigits ds) : JsonText more ds (.int (decimal ds))
  | neg (ds : List Char) (h : IntDigits ds) : JsonText more ('-' :: ds) (.int (-(decimal ds : Int)))
  | float (sign ds f e : List Char) (hs : sign = [] ∨ sign = ['-']) (h : IntDigits ds)
      (hf : f = [] ∨ Fraction f) (he : e = [] ∨ Exponent e) (hfe : f ≠ [] ∨ e ≠ []) :
      JsonText more (sign ++ ds ++ f ++ e) (.float (sign ++ ds ++ f ++ e))
  | const (t : String) (h : t ∈ more) : JsonText more t.toList (.float t.toList)
  | str (t s : List Char) (h : StringText t s) : JsonText more ('"' :: (t ++ ['"'])) (.str s)
  | arrEmpty (w : List Char) (h : Blank w) : JsonText more ('[' :: (w ++ [']'])) (.arr [])
  | arr (ps : List Item) (hne : ps ≠ []) (hw : ∀ p ∈ ps, Blank p.pre ∧ Blank p.post)
      (h : ∀ p ∈ ps, JsonText more p.text p.value) :
      JsonText more ('[' :: (commas (ps.map Item.whole) ++ [']'])) (.arr (ps.map (·.value)))
  | objEmpty (w : List Char) (h : Blank w) : JsonText more ('{' :: (w ++ ['}'])) (.obj [])
  | obj (ps : List NamedItem) (kvs : List (List Char × Json)) (hne : ps ≠ [])
      (hw : ∀ p ∈ ps, Blank p.pre ∧ StringText p.nameText p.name ∧ Blank p.mid ∧
        Blank p.item.pre ∧ Blank p.item.post)
      (h : ∀ p ∈ ps, JsonText more p.item.text p.item.value)
      (hkvs : LastWins (ps.map fun p => (p.name, p.item.value)) kvs) :
      JsonText more ('{' :: (commas (ps.map NamedItem.whole) ++ ['}'])) (.obj kvs)

/-- A whole text. -/
def JsonDocument (more : List String) (t : List Char) (v : Json) : Prop :=
  ∃ pre text post, t = pre ++ text ++ post ∧ Blank pre ∧ Blank post ∧ JsonText more text v

/-- The constants that Python writes for floats that are not finite. -/
def pyConstants : List String := ["NaN", "Infinity", "-Infinity"]

end Kiel.Spec
