import Mathlib.Algebra.Polynomial.Basic
import Mathlib.Data.ZMod.Basic
import Verif.Model.Py
/-
CRC-32 as the standards (ITU-T V.42, RFC 1952) define it: a remainder of polynomials over the
field of two elements.
-/
set_option autoImplicit false
namespace Kiel.Spec
open Kiel Polynomial

/-- The generator of CRC-32. -/
noncomputable def generator : (ZMod 2)[X] :=
  X ^ 32 + X ^ 26 + X ^ 23 + X ^ 22 + X ^ 16 + X ^ 12 + X ^ 11 + X ^ 10 + X ^ 8 + X ^ 7 + X ^ 5 +
    X ^ 4 + X ^ 2 + X + 1

/-- A sequence of bits as a polynomial, the first bit being the highest coefficient. -/
noncomputable def bitsPoly (bits : List Bool) : (ZMod 2)[X] :=
  bits.foldl (fun p b => p * X + if b then 1 else 0) 0

/-- The bits of a number below `2^n`, the least significant one first. -/
def lowBits (n x : Nat) : List Bool := (List.range n).map x.testBit

/-- The bits of a byte string in the order in which CRC-32 takes them: byte by byte, the least
significant bit first. -/
def messageBits (bs : Bytes) : List Bool := bs.flatMap fun b => lowBits 8 b.toNat

/-- `c` is the CRC-32 of `bs`: the message, its first 32 bits inverted and 32 zeros appended, is
divided by the generator; the bits of the remainder, inverted, are those of `c`, the highest
coefficient being the least significant bit. -/
def IsCrc32 (bs : Bytes) (c : Nat) : Prop :=
  c < 2 ^ 32 ∧ ∃ q : (ZMod 2)[X],
    bitsPoly (messageBits bs) * X ^ 32 +
        X ^ (8 * bs.length) * bitsPoly (List.replicate 32 true) =
      q * generator + bitsPoly ((lowBits 32 c).map not)

end Kiel.Spec
