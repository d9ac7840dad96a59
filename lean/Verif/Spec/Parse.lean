import Verif.Model.Wire
/-
The `while` loop of `MessageSet.parse` as an unbounded program: a big-step semantics with no
fuel.  It is used to say that the loop terminates, and to tie the fuelled function to it.
-/
namespace Kiel.Spec
open Kiel

/-- What one iteration does with a parsed entry. -/
def entryMessages (nested : Bytes → Res (List (Val × Val))) (messageOffset : Val)
    (kvs : List (String × Val)) : Res (List (Val × Val)) :=
  if (getAttr kvs "attributes").toInt ≠ 0 then
    match getAttr kvs "value" with
    | .bytes b => nested b
    | .str s => if s.length = 0 then .ok [] else .error .typeError
    | _ => .error .typeError
  else .ok [(messageOffset, .part kvs)]

/-- `SetLoop … offset acc result`: the loop, entered at `offset` having collected `acc`,
ends with `result`. -/
inductive SetLoop (cx : Codec) (nested : Bytes → Res (List (Val × Val))) (buff : Bytes)
    (stop : Int) : Nat → List (Val × Val) → Res (List (Val × Val) × Nat) → Prop
  | stop {offset : Nat} {acc} : (offset : Int) = stop →
      SetLoop cx nested buff stop offset acc (.ok (acc, offset))
  | cut {offset : Nat} {acc offset'} : (offset : Int) ≠ stop →
      parseSetEntry cx buff offset = .error (.structError, offset') →
      SetLoop cx nested buff stop offset acc (.ok (acc, offset'))
  | raise {offset : Nat} {acc e offset'} : (offset : Int) ≠ stop → e ≠ .structError →
      parseSetEntry cx buff offset = .error (e, offset') →
      SetLoop cx nested buff stop offset acc (.error e)
  | raiseNested {offset : Nat} {acc mo kvs offset' e} : (offset : Int) ≠ stop →
      parseSetEntry cx buff offset = .ok (mo, kvs, offset') →
      entryMessages nested mo kvs = .error e →
      SetLoop cx nested buff stop offset acc (.error e)
  | next {offset : Nat} {acc mo kvs offset' ms r} : (offset : Int) ≠ stop →
      parseSetEntry cx buff offset = .ok (mo, kvs, offset') →
      entryMessages nested mo kvs = .ok ms →
      SetLoop cx nested buff stop offset' (acc ++ ms) r →
      SetLoop cx nested buff stop offset acc r

end Kiel.Spec
