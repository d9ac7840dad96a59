import Verif.Props.Handover
import Verif.Spec.Progress
/-
Vocabulary for groups that are rebalanced only while nothing waits to be committed.
-/
set_option autoImplicit false
namespace Kiel.Spec

variable {β δ : Type}

/-- The members of a group, the offsets that the coordinator has for it, and the messages the
members' `consume`s have returned. -/
structure Crew (δ : Type) where
  members : Nat → Grouped
  group : String → Int → Int
  returned : List (String × δ)

/-- The members with member `i` replaced. -/
def Crew.put (g : Crew δ) (i : Nat) (c : Grouped) : Nat → Grouped :=
  fun j => if j = i then c else g.members j

/-- No two members are to consume the same partition. -/
def SharesApart (members : Nat → Grouped) : Prop :=
  ∀ i j t p, p ∈ shareOf (members i) t → p ∈ shareOf (members j) t → i = j

/-- A member that has just been rebalanced and has nothing to commit. -/
structure NewlyTold (c : Grouped) : Prop where
  synced : c.synced = []
  committed : c.ext.toCommit = []
  mapping : ∀ a, c.ext.mapping = some a → a.keys.Nodup

/-- Where the group stands with a partition: at the offset of the member that is to consume it, if
that one has determined its offsets, else at the offset that the coordinator has. -/
def Crew.Stands (g : Crew δ) (t : String) (p o : Int) : Prop :=
  (∃ i, p ∈ shareOf (g.members i) t ∧ t ∈ (g.members i).synced ∧
    o = offsetOf (g.members i).offsets t p) ∨
  ((∀ i, p ∈ shareOf (g.members i) t → t ∉ (g.members i).synced) ∧ o = g.group t p)

/-- What a coordinator does with the requests of a `commit_offsets`: it stores nothing but what it
is asked to, and if it says that it has stored the offset of one partition of a topic, then it has
stored those of all the partitions of the topic that it was asked to store. -/
structure Stores (env : CommitEnv) (reqs : List CommitReq) (group group' : String → Int → Int) :
    Prop where
  only : ∀ t p, group' t p = group t p ∨ (t, p, group' t p) ∈ offsetsIn reqs
  all : ∀ n r, (env.send n).outcome = .ok r → ∀ t p, (t, p, 0) ∈ commitAnswers r →
    ∀ p' o, (t, p', o) ∈ offsetsIn reqs → group' t p' = o

/-- No rebalance meanwhile. -/
def Undisturbed (env : GroupEnv β) : Prop :=
  (∀ n c, env.base.tick n c = c) ∧ ∀ n c, env.commit.tick n c = c

/-- A `consume` of one of the members, that returns; the brokers serve `logs`, the coordinator names
the offsets that it has.
Simplification: what a member does in one `consume` (or `commit_offsets`) is one step of the
group. -/
inductive CrewConsume (cfg : CCfg β δ) (logs : String → Int → List (Int × β)) :
    Crew δ → ConsumeEnv GExt β → List CAct → Crew δ → Prop where
  | intro {g : Crew δ} (i : Nat) (gcfg : GCfg) (env : GroupEnv β) (fuel : Nat) (t : String)
      (result : Option (List δ)) (c : Grouped) (acts : List CAct) (reqs : List CommitReq)
      (group : String → Int → Int) :
      HonestGroup (fun t p o => o = g.group t p) t (shareOf (g.members i) t) env.offsets →
      HonestFetch Batch logs env.base → Undisturbed env →
      (g.members i).consume gcfg cfg env fuel t = (.done result, c, acts, reqs) →
      Stores env.commit reqs g.group group →
      CrewConsume cfg logs g env.base acts
        ⟨g.put i c, group, g.returned ++ (result.getD []).map fun d => (t, d)⟩

/-- What can happen to a group whose members consume and commit, and that is rebalanced (`settle`)
only while nothing waits to be committed, such that no two are to consume the same partition; who
the members are may then be different, too.
`failed`: a `consume` that raises before anything is fetched. -/
inductive CrewStep (cfg : CCfg β δ) (logs : String → Int → List (Int × β)) :
    Crew δ → Crew δ → Prop where
  | consume {g g' : Crew δ} {env : ConsumeEnv GExt β} {acts : List CAct} :
      CrewConsume cfg logs g env acts g' → CrewStep cfg logs g g'
  | failed {g : Crew δ} (i : Nat) (gcfg : GCfg) (env : GroupEnv β) (fuel : Nat) (t : String)
      (e : Exc) (c : Grouped) (acts : List CAct) (reqs : List CommitReq)
      (group : String → Int → Int) :
      HonestGroup (fun t p o => o = g.group t p) t (shareOf (g.members i) t) env.offsets →
      Undisturbed env →
      (g.members i).consume gcfg cfg env fuel t = (.raised e, c, acts, reqs) →
      (∀ reqs, CAct.fetch reqs ∉ acts) → Stores env.commit reqs g.group group →
      CrewStep cfg logs g ⟨g.put i c, group, g.returned⟩
  | commit {g : Crew δ} (i : Nat) (env : CommitEnv) (fuel : Nat) (name : String)
      (md : Option String) (group : String → Int → Int) : (∀ n c, env.tick n c = c) →
      Stores env ((g.members i).commit env fuel name md).2.2 g.group group →
      CrewStep cfg logs g
        ⟨g.put i ((g.members i).commit env fuel name md).2.1, group, g.returned⟩
  | settle {g : Crew δ} (members : Nat → Grouped) : (∀ i, (g.members i).ext.toCommit = []) →
      SharesApart members → (∀ i, NewlyTold (members i)) →
      CrewStep cfg logs g ⟨members, g.group, g.returned⟩

/-- The histories of such a group; `base` are the offsets that its coordinator had first. -/
inductive CrewRun (cfg : CCfg β δ) (logs : String → Int → List (Int × β))
    (base : String → Int → Int) : Crew δ → Prop where
  | start (members : Nat → Grouped) : SharesApart members → (∀ i, NewlyTold (members i)) →
      CrewRun cfg logs base ⟨members, base, []⟩
  | step {g g' : Crew δ} : CrewRun cfg logs base g → CrewStep cfg logs g g' →
      CrewRun cfg logs base g'

/-- What happens to such a group, counting the `consume`s in which a partition was `Supplied` with
what lies ahead of where the group stands. -/
inductive CrewRunN (cfg : CCfg β δ) (logs : String → Int → List (Int × β)) (t : String) (p : Int) :
    Nat → Crew δ → Crew δ → Prop where
  | nil (g : Crew δ) : CrewRunN cfg logs t p 0 g g
  | step {n : Nat} {g g' g'' : Crew δ} : CrewRunN cfg logs t p n g g' → CrewStep cfg logs g' g'' →
      CrewRunN cfg logs t p n g g''
  | supplied {n : Nat} {g g' g'' : Crew δ} {env : ConsumeEnv GExt β} {acts : List CAct} {o : Int} :
      CrewRunN cfg logs t p n g g' → CrewConsume cfg logs g' env acts g'' → g'.Stands t p o →
      Supplied cfg env acts t p o → CrewRunN cfg logs t p (n + 1) g g''

end Kiel.Spec
