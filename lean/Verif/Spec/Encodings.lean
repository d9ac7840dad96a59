import Verif.Spec.JsonText
/-
UTF-16 and UTF-32, by what characters are encoded as.
-/
set_option autoImplicit false
namespace Kiel.Spec
open Kiel

/-- The two bytes of a number, the more significant one first, or last. -/
def twoBytes (big : Bool) (n : Nat) : Bytes :=
  if big then [UInt8.ofNat (n / 256), UInt8.ofNat n] else [UInt8.ofNat n, UInt8.ofNat (n / 256)]

/-- The four bytes. -/
def fourBytes (big : Bool) (n : Nat) : Bytes :=
  if big then twoBytes true (n / 65536) ++ twoBytes true n else twoBytes false n ++ twoBytes false (n / 65536)

/-- An encoding of Unicode; the order of bytes is big-endian or not. -/
inductive Utf where
  | utf8
  | utf16 (big : Bool)
  | utf32 (big : Bool)

/-- A character in it. -/
def Utf.char : Utf → Char → Bytes
  | .utf8, c => encodeUtf8 (String.singleton c)
  | .utf16 big, c =>
    if c.toNat < 0x10000 then twoBytes big c.toNat
    else twoBytes big (0xd800 + (c.toNat - 0x10000) / 0x400) ++
      twoBytes big (0xdc00 + (c.toNat - 0x10000) % 0x400)
  | .utf32 big, c => fourBytes big c.toNat

/-- Text in it. -/
def Utf.text (u : Utf) (t : List Char) : Bytes := t.flatMap u.char

/-- The byte order mark. -/
def byteOrderMark : Char := Char.ofNat 0xfeff

/-- Text, with or without a byte order mark. -/
def Utf.Encodes (u : Utf) (b : Bytes) (t : List Char) : Prop :=
  b = u.text t ∨ b = u.text (byteOrderMark :: t)

end Kiel.Spec
