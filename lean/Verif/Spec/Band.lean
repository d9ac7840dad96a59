import Verif.Spec.Fleet
/-
Vocabulary for groups whose members' calls overlap, that are rebalanced and whose members are lost
while calls are under way.
-/
set_option autoImplicit false
namespace Kiel.Spec

variable {β δ : Type}

/-- The members of a group with their calls under way, the commit requests they have sent, and the
messages their `consume`s have returned. -/
structure Band (δ : Type) where
  members : Nat → GroupFirst δ
  sent : List CommitReq
  returned : List (String × δ)

/-- The member as such. -/
def Band.member (g : Band δ) (i : Nat) : Grouped := (g.members i).group.base.consumer

/-- The same with one member's state replaced. -/
def Band.put (g : Band δ) (i : Nat) (s : GroupFirst δ) : Nat → GroupFirst δ :=
  fun j => if j = i then s else g.members j

/-- The offsets the coordinator may name: where the group began or earlier, or any offset that a
member has asked it to store, not necessarily the latest (the request may have failed, or be under
way). -/
def Band.Named (g : Band δ) (base : String → Int → Int) (t : String) (p o : Int) : Prop :=
  o ≤ base t p ∨ (t, p, o) ∈ offsetsIn g.sent

/-- What the coordinator reports, without an error, in answer to a request for offsets. -/
def Reports (named : String → Int → Int → Prop) (s : GroupFirst δ) : FirstGroupEv β → Prop
  | .offsets i r => ∀ t parts b, s.starting.get? i = some (.asking t parts b) →
      ∀ x ∈ r.topics, ∀ q ∈ x.2, q.code = 0 → named x.1 q.id q.offset
  | _ => True

/-- The commit request that is sent, if one is. -/
def requestIn : FirstGroupOut δ → List CommitReq
  | .group (.asked r) => [r]
  | _ => []

/-- A member that has been made, and connected, just now. -/
def JustMade (c : Grouped) : Prop := c.offsets = [] ∧ c.synced = [] ∧ c.ext.toCommit = []

/-- No `consume` of the member waits for messages, or for the cluster to be looked up because none of
the topic's partitions are known. -/
def NoneWaits (s : GroupFirst δ) : Prop :=
  s.group.base.waiting = [] ∧ ∀ x ∈ s.starting, ∀ t, x.2 ≠ .healing t

/-- The member is rebalanced. -/
def reshared (a : Dict String (List Int)) (s : GroupFirst δ) : GroupFirst δ :=
  ⟨⟨⟨Grouped.rebalanced a s.group.base.consumer, s.group.base.waiting⟩, s.group.commits⟩, s.starting⟩

/-- What happens to a group; `base` are the offsets at which it began.
* `event`: something happens to one of the members, a coroutine switch of one of its calls, say;
  no `consume` raises that has fetched, or waits for, messages;
* `rebalance`: one of the members is told another share, if it may be; its calls go on;
* `replaced`: a member that holds no messages is lost, with its calls, and replaced by a new one. -/
inductive BandStep (gcfg : Nat → GCfg) (cfg : CCfg β δ) (logs : String → Int → List (Int × β))
    (may : GroupFirst δ → Prop) (base : String → Int → Int) (g : Band δ) : Band δ → Prop where
  | event (i : Nat) (ev : FirstGroupEv β) (out : FirstGroupOut δ) (s : GroupFirst δ) :
      FairGroup WideBatch logs (g.members i) ev → KeepsGroup (g.members i) ev out →
      Reports (g.Named base) (g.members i) ev → (g.members i).step (gcfg i) cfg ev = (out, s) →
      BandStep gcfg cfg logs may base g
        ⟨g.put i s, g.sent ++ requestIn out, g.returned ++ groupGiven out⟩
  | rebalance (i : Nat) (a : Dict String (List Int)) : may (g.members i) →
      BandStep gcfg cfg logs may base g ⟨g.put i (reshared a (g.members i)), g.sent, g.returned⟩
  | replaced (i : Nat) (c : Grouped) : holds cfg (g.members i) = [] → JustMade c →
      BandStep gcfg cfg logs may base g ⟨g.put i (resting (fun _ => c) i), g.sent, g.returned⟩

/-- The histories of a group. -/
inductive BandRun (gcfg : Nat → GCfg) (cfg : CCfg β δ) (logs : String → Int → List (Int × β))
    (may : GroupFirst δ → Prop) (base : String → Int → Int) : Band δ → Prop where
  | start (members : Nat → Grouped) : (∀ i, JustMade (members i)) →
      BandRun gcfg cfg logs may base ⟨resting members, [], []⟩
  | step {g g' : Band δ} : BandRun gcfg cfg logs may base g → BandStep gcfg cfg logs may base g g' →
      BandRun gcfg cfg logs may base g'

/-- The message has been returned by a member, or is held by a call of one, which will return it. -/
def Band.Has (cfg : CCfg β δ) (g : Band δ) (x : String × δ) : Prop :=
  x ∈ g.returned ∨ ∃ i, x ∈ holds cfg (g.members i)

/-- Every message of a partition from where the group began (`base`) up to offset `o` is one of
those, unless it cannot be deserialized or is false to Python. -/
def Below (cfg : CCfg β δ) (logs : String → Int → List (Int × β)) (base : String → Int → Int)
    (has : String × δ → Prop) (t : String) (p o : Int) : Prop :=
  ∀ m ∈ logs t p, base t p ≤ m.1 → m.1 < o →
    ∀ d, decode cfg m.2 = some d → cfg.truthy d = true → has (t, d)

end Kiel.Spec
