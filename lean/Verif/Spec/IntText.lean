import Verif.Model.Py
/-
Which texts Python's `int` reads, as its documentation has it.
-/
set_option autoImplicit false
namespace Kiel.Spec

/-- `text` is a sequence of digits, possibly with single underscores between them; `ds` are the digits. -/
inductive DigitText : List Char → List Char → Prop where
  | one (d : Char) : d.isDigit = true → DigitText [d] [d]
  | next (d : Char) (text ds : List Char) : d.isDigit = true → DigitText text ds → DigitText (d :: text) (d :: ds)
  | sep (d : Char) (text ds : List Char) : d.isDigit = true → DigitText text ds →
      DigitText (d :: '_' :: text) (d :: ds)

/-- The ASCII characters that are white space in Python: tab to carriage return, the four separators, space. -/
def blanks : List Char := ['\t', '\n', '\x0b', '\x0c', '\r', '\x1c', '\x1d', '\x1e', '\x1f', ' ']

/-- The text is a decimal integer, possibly with a sign and white space around it; `v` is its value. -/
def IntText (text : List Char) (v : Int) : Prop :=
  ∃ pre sign body post ds, text = pre ++ (sign ++ body) ++ post ∧ (∀ c ∈ pre ++ post, c ∈ blanks) ∧
    DigitText body ds ∧
    ((sign = [] ∨ sign = ['+']) ∧ v = (Nat.ofDigitChars 10 ds 0 : Int) ∨
      sign = ['-'] ∧ v = -(Nat.ofDigitChars 10 ds 0 : Int))

end Kiel.Spec
