import Verif.Lemmas.Parse
/- C06: parsing of arbitrary bytes. -/
namespace Kiel
open Spec

/-- **C06**: on any bytes, hostile ones included, a successful parse of any schema never
moves backwards and never ends past the buffer. -/
theorem C06_bounds (cx : Codec) (depth : Nat) (t : Ty) (buff : Bytes) (off off' : Nat) (v : Val)
    (hs : off ≤ buff.length) (h : parse cx depth t buff off = .ok (v, off')) :
    off ≤ off' ∧ off' ≤ buff.length := by
  have := parse_bounds cx depth buff t off v off' h
  omega

/-- **C06**: starting past the end of the buffer, anything that has at least one byte fails:
a parse that succeeds has not moved. -/
theorem C06_bounds_past (cx : Codec) (depth : Nat) (t : Ty) (buff : Bytes) (off off' : Nat)
    (v : Val) (hs : buff.length < off) (h : parse cx depth t buff off = .ok (v, off')) :
    off' = off := by
  have := parse_bounds cx depth buff t off v off' h
  omega

/-- **C06**, termination: the only unbounded loop, over the messages of a set, ends for
every buffer, every (even senseless) declared size and every start; its result is unique
and is the one the model's `parse` uses. -/
theorem C06_terminates (cx : Codec) (nested : Bytes → Res (List (Val × Val))) (buff : Bytes)
    (stop : Int) (off : Nat) :
    SetLoop cx nested buff stop off []
      (parseSetLoop cx nested buff stop (buff.length + 1) off) ∧
    ∀ r, SetLoop cx nested buff stop off [] r →
      r = parseSetLoop cx nested buff stop (buff.length + 1) off := by
  obtain ⟨r, hr, h⟩ := parseSetLoop_runs (cx := cx) (nested := nested) (buff := buff)
    (stop := stop) (buff.length + 1) off [] (by omega)
  have e : r = parseSetLoop cx nested buff stop (buff.length + 1) off := by
    rcases h with ⟨e, h, rfl⟩ | ⟨ms, o, h, rfl⟩
    · exact h.symm
    · simpa using h.symm
  subst e
  exact ⟨hr, fun r' h' => SetLoop_det h' hr⟩

-- Non-vacuity: a message set whose declared size is -1 ends at the end of the buffer with
-- a struct.error inside the loop, i.e. as an empty set (and does not run forever).
example (cx : Codec) : ∃ v, parse cx 0 .messageSet [0xff, 0xff, 0xff, 0xff, 1, 2] 0 = .ok (v, 4) :=
  ⟨.mset [], by simp [parse, parseSet, unpackInt, parseSetLoop, parseSetEntry, parseInt,
      signedBE, beNat]⟩

end Kiel
