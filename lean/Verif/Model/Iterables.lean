import Verif.Model.Py
/-
kiel/iterables.py: `drain`.
-/
set_option autoImplicit false
namespace Kiel

/-- The collections `drain` works for (kiel/iterables.py:7-12). -/
inductive CollKind where
  | list | deque | dict | set
  deriving DecidableEq, Repr

/-- `next_item(iterable)` (kiel/iterables.py:14-22) on a collection given as the list of its
elements, oldest first (for a dictionary: its items; `popitem` takes the newest, CPython
3.7+).  `none`: it raises `IndexError` or `KeyError`.  `n`: which element `set.pop` happens to
take. -/
def nextItem {α : Type} (kind : CollKind) (n : Nat) (c : List α) : Option (α × List α) :=
  match kind with
  | .deque => match c with
    | [] => .none
    | x :: r => some (x, r)
  | .list | .dict => match c.getLast? with
    | .none => .none
    | some x => some (x, c.dropLast)
  | .set => match c[n % c.length]? with
    | .none => .none
    | some x => some (x, c.eraseIdx (n % c.length))

/-- What the consumer of the generator may do between two items: `coll.append(x)`,
`d[k] = v` or `s.add(x)`, where `same x y`: the keys, or elements, are equal.  A set keeps the element
that it has; in a dictionary, the new value takes the place of the old one. -/
def addItem {α : Type} (kind : CollKind) (same : α → α → Bool) (c : List α) (x : α) : List α :=
  match kind with
  | .list | .deque => c ++ [x]
  | .dict => if c.any (same x) then c.map (fun y => if same x y then x else y) else c ++ [x]
  | .set => if c.any (same x) then c else c ++ [x]

/-- A `drain` generator in use: the collection, whether the generator has returned, and what
it has yielded so far. -/
structure Drain (α : Type) where
  coll : List α
  done : Bool
  out : List α
  deriving DecidableEq, Repr

inductive DrainEv (α : Type) where
  | add (x : α)
  | next (n : Nat)
  deriving DecidableEq, Repr

/-- One step of the loop kiel/iterables.py:24-28, resumed by `next`; additions come from
outside. -/
def Drain.step {α : Type} (kind : CollKind) (same : α → α → Bool) (d : Drain α) :
    DrainEv α → Drain α
  | .add x => { d with coll := addItem kind same d.coll x }
  | .next n =>
    if d.done then d
    else
      match nextItem kind n d.coll with
      | .none => { d with done := true }
      | some (x, c) => { d with coll := c, out := d.out ++ [x] }

def Drain.run {α : Type} (kind : CollKind) (same : α → α → Bool) (d : Drain α)
    (evs : List (DrainEv α)) : Drain α :=
  evs.foldl (Drain.step kind same) d

end Kiel
