import Verif.Spec.FirstGrouped
import Verif.Spec.Settled
/-
Vocabulary for groups whose members' calls overlap.
-/
set_option autoImplicit false
namespace Kiel.Spec

variable {β δ : Type}

/-- The members of a group with their calls under way, the offsets that the coordinator has for the
group, and the messages the members' `consume`s have returned. -/
structure Fleet (δ : Type) where
  members : Nat → GroupFirst δ
  group : String → Int → Int
  returned : List (String × δ)

/-- The member as such. -/
def Fleet.member (g : Fleet δ) (i : Nat) : Grouped := (g.members i).group.base.consumer

/-- Members of which none has a call under way. -/
def resting (members : Nat → Grouped) (i : Nat) : GroupFirst δ := ⟨⟨⟨members i, []⟩, []⟩, []⟩

/-- No call of the member is under way. -/
def AtRest (s : GroupFirst δ) : Prop :=
  s.starting = [] ∧ s.group.base.waiting = [] ∧ s.group.commits = []

/-- What the calls of a member that are under way have fetched, and will return. -/
def holds (cfg : CCfg β δ) (s : GroupFirst δ) : List (String × δ) :=
  committing s.group ++ underWay cfg s.group.base

/-- What else happens to a member (heals) changes neither its share nor what it is to commit. -/
def Unshared : FirstGroupEv β → Prop
  | .group (.base (.other f)) => ∀ c, (f c).ext.mapping = c.ext.mapping ∧
      (f c).ext.toCommit = c.ext.toCommit
  | _ => True

/-- The coordinator answers requests for offsets about all the partitions asked for, and only about
these; what it reports without an error is what it has. -/
def Tells (group : String → Int → Int) (s : GroupFirst δ) : FirstGroupEv β → Prop
  | .offsets i r => ∀ t parts b, s.starting.get? i = some (.asking t parts b) →
      ∀ ps, r.topics = [(t, ps)] →
        (∀ q ∈ ps, q.id ∈ parts ∧ (q.code = 0 → q.offset = group t q.id)) ∧
        ∀ p ∈ parts, ∃ q ∈ ps, q.id = p
  | _ => True

/-- Where the group stands with a partition: at the offset of the member that is to consume it, if
that one has determined its offsets, else at the offset that the coordinator has. -/
def Fleet.Stands (g : Fleet δ) (t : String) (p o : Int) : Prop :=
  (∃ i, p ∈ shareOf (g.member i) t ∧ t ∈ (g.member i).synced ∧
    o = offsetOf (g.member i).offsets t p) ∨
  ((∀ i, p ∈ shareOf (g.member i) t → t ∉ (g.member i).synced) ∧ o = g.group t p)

/-- The coordinator has the offsets at which the members are. -/
def Fleet.Committed (g : Fleet δ) : Prop :=
  ∀ i t p, p ∈ shareOf (g.member i) t → t ∈ (g.member i).synced →
    offsetOf (g.member i).offsets t p = g.group t p

/-- What can happen to a group.
* `event`: something happens to one of the members, a coroutine switch of one of its calls, say;
  `consume`s of the same topic by the same member do not overlap, and none raises that has fetched,
  or waits for, messages;
* `stored`: the coordinator stores an offset that it is being asked to store;
* `settle`: while no call is under way, and if it may be, the group is rebalanced, such that no two
  are to consume the same partition; who the members are may then be different, too. -/
inductive FleetStep (gcfg : Nat → GCfg) (cfg : CCfg β δ) (logs : String → Int → List (Int × β))
    (may : Fleet δ → Prop) : Fleet δ → Fleet δ → Prop where
  | event {g : Fleet δ} (i : Nat) (ev : FirstGroupEv β) (out : FirstGroupOut δ) (s : GroupFirst δ) :
      FairGroup Batch logs (g.members i) ev → ApartGroup (g.members i) ev →
      KeepsGroup (g.members i) ev out → Unshared ev → Tells g.group (g.members i) ev →
      (g.members i).step (gcfg i) cfg ev = (out, s) →
      FleetStep gcfg cfg logs may g
        ⟨fun j => if j = i then s else g.members j, g.group, g.returned ++ groupGiven out⟩
  | stored {g : Fleet δ} (i k : Nat) (req : CommitReq) (result : Option (String × Option (List δ)))
      (t : String) (p o : Int) : (g.members i).group.commits.get? k = some ⟨.asking req, result⟩ →
      (t, p, o) ∈ offsetsIn [req] →
      FleetStep gcfg cfg logs may g
        ⟨g.members, fun t' p' => if t' = t ∧ p' = p then o else g.group t' p', g.returned⟩
  | settle {g : Fleet δ} (members : Nat → Grouped) : (∀ i, AtRest (g.members i)) →
      may g → SharesApart members → (∀ i, NewlyTold (members i)) →
      FleetStep gcfg cfg logs may g ⟨resting members, g.group, g.returned⟩

/-- The histories of such a group; `base` are the offsets that its coordinator had first. -/
inductive FleetRun (gcfg : Nat → GCfg) (cfg : CCfg β δ) (logs : String → Int → List (Int × β))
    (may : Fleet δ → Prop) (base : String → Int → Int) : Fleet δ → Prop where
  | start (members : Nat → Grouped) : SharesApart members → (∀ i, NewlyTold (members i)) →
      FleetRun gcfg cfg logs may base ⟨resting members, base, []⟩
  | step {g g' : Fleet δ} : FleetRun gcfg cfg logs may base g → FleetStep gcfg cfg logs may g g' →
      FleetRun gcfg cfg logs may base g'

end Kiel.Spec
