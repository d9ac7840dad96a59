import Verif.Model.Allocator
import Verif.Spec.Allocator
/-
What a sequence of notifications amounts to, independently of the code.
-/
set_option autoImplicit false
namespace Kiel.Spec

instance (a b : List String) : Decidable (SameSet a b) :=
  decidable_of_iff ((∀ x ∈ a, x ∈ b) ∧ ∀ x ∈ b, x ∈ a)
    ⟨fun h x => ⟨h.1 x, h.2 x⟩, fun h => ⟨fun x => (h x).1, fun x => (h x).2⟩⟩

/-- The members last notified; initially there are none. -/
def latestMembers (ns : List Note) : List String :=
  (ns.filterMap fun n => match n with | .members l => some l | _ => .none).getLast?.getD []

/-- The partitions last notified; initially there are none. -/
def latestPartitions (ns : List Note) : List String :=
  (ns.filterMap fun n => match n with | .partitions (some l) => some l | _ => .none).getLast?.getD []

/-- Does notification `n` differ from what the earlier ones said? -/
def IsChange (earlier : List Note) : Note → Prop
  | .members l => ¬ SameSet l (latestMembers earlier)
  | .partitions (some l) => ¬ SameSet l (latestPartitions earlier)
  | .partitions .none => False

instance (earlier : List Note) : (n : Note) → Decidable (IsChange earlier n)
  | .members _ => inferInstanceAs (Decidable (¬ _))
  | .partitions (some _) => inferInstanceAs (Decidable (¬ _))
  | .partitions .none => inferInstanceAs (Decidable False)

/-- How many of the notifications were changes. -/
def changes (ns : List Note) : Nat :=
  (List.range ns.length).countP fun k =>
    match ns[k]? with
    | some n => decide (IsChange (ns.take k) n)
    | .none => false

/-- An item of a topic with an ordinary name. -/
def PlainItem (x : String) : Prop := ∃ t : String, ∃ i : Int, PlainName t ∧ x = item (t, i)

/-- Notifications in which every partition satisfies `W`. -/
def NotesOf (W : String → Prop) (ns : List Note) : Prop :=
  ∀ l, Note.partitions (some l) ∈ ns → ∀ x ∈ l, W x

end Kiel.Spec
