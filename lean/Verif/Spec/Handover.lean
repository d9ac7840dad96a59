import Verif.Props.Commit
/-
Vocabulary for what the members of a group together have returned.
-/
set_option autoImplicit false
namespace Kiel.Spec

variable {β δ : Type}

/-- Every message of a partition from where the group began (`base`) up to offset `o` has been
returned, unless it cannot be deserialized or is false to Python. -/
def AllReturned (cfg : CCfg β δ) (logs : String → Int → List (Int × β))
    (base : String → Int → Int) (returned : List (String × δ)) (t : String) (p o : Int) : Prop :=
  ∀ m ∈ logs t p, base t p ≤ m.1 → m.1 < o →
    ∀ d, decode cfg m.2 = some d → cfg.truthy d = true → (t, d) ∈ returned

/-- The members of a group, the offsets they have committed (or tried to), and the messages
their `consume`s have returned. -/
structure Team (δ : Type) where
  members : Nat → Grouped
  committed : List (String × Int × Int)
  returned : List (String × δ)

/-- The topics, partitions and offsets in commit requests. -/
def offsetsIn (reqs : List CommitReq) : List (String × Int × Int) :=
  reqs.flatMap fun r => r.topics.flatMap fun t => t.2.map fun q => (t.1, q.1, q.2)

/-- The offsets a coordinator may name: where the group began or earlier, or anything a member
has committed. -/
def Team.Named (g : Team δ) (base : String → Int → Int) (t : String) (p o : Int) : Prop :=
  o ≤ base t p ∨ (t, p, o) ∈ g.committed

/-- What other threads may do to a member: while it consumes, while it commits, and in between. -/
structure Rules (β : Type) where
  during : GroupEnv β → Prop
  committing : CommitEnv → Prop
  between : Grouped → Grouped → Prop

/-- Rebalances (or anything that leaves the offsets alone) at any time except while messages are
being fetched. -/
def steady (β : Type) : Rules β where
  during env := (∀ n c, (env.base.tick n c).offsets = c.offsets) ∧
    (∀ c, (env.base.tick 1 c).synced = c.synced) ∧ (∀ c, (env.base.tick 2 c).synced = c.synced) ∧
    ∀ n c, (env.commit.tick n c).offsets = c.offsets
  committing env := ∀ n c, (env.tick n c).offsets = c.offsets
  between c c' := c'.offsets = c.offsets

/-- Rebalances only while nothing waits to be committed, and not while the offsets of the group
are being fetched. -/
def quiet (β : Type) : Rules β where
  during env := (∀ c, env.base.tick 0 c = c) ∧ QuietTick (env.base.tick 1) ∧
    QuietTick (env.base.tick 2) ∧ ∀ n, QuietTick (env.commit.tick n)
  committing env := ∀ n, QuietTick (env.tick n)
  between c c' := (∃ a : Dict String (List Int), a.keys.Nodup ∧ c.ext.toCommit = [] ∧
      c' = c.rebalanced a) ∨
    (c'.offsets = c.offsets ∧ c'.synced = c.synced ∧ c'.ext.toCommit = c.ext.toCommit ∧
      c'.ext.mapping = c.ext.mapping)

/-- The same team with member `i` replaced. -/
def Team.put (g : Team δ) (i : Nat) (c : Grouped) : Nat → Grouped :=
  fun j => if j = i then c else g.members j

/-- The histories of a group whose members consume, commit, are rebalanced, fail and are
replaced.  The brokers serve `logs` (compressed sets included); the coordinator names the
offsets committed, not necessarily the latest.
`consume`: one that returns.  `failed`: one that raises before anything is fetched.  `restart`: a member is
lost, whatever it was doing, and replaced by a new one.
Simplification: what a member does in one `consume` is one step of the group. -/
inductive TeamRun (rules : Rules β) (cfg : CCfg β δ) (logs : String → Int → List (Int × β))
    (base : String → Int → Int) : Team δ → Prop where
  | start (cl : Nat → Cluster) : TeamRun rules cfg logs base ⟨fun i => Grouped.new (cl i), [], []⟩
  | consume {g : Team δ} (i : Nat) (gcfg : GCfg) (env : GroupEnv β) (fuel : Nat) (t : String)
      (result : Option (List δ)) (c : Grouped) (acts : List CAct) (reqs : List CommitReq) :
      HonestGroup (g.Named base) t (shareOf (g.members i) t) env.offsets →
      HonestFetch WideBatch logs env.base → rules.during env →
      (g.members i).consume gcfg cfg env fuel t = (.done result, c, acts, reqs) →
      TeamRun rules cfg logs base g →
      TeamRun rules cfg logs base ⟨g.put i c, g.committed ++ offsetsIn reqs,
        g.returned ++ (result.getD []).map fun d => (t, d)⟩
  | failed {g : Team δ} (i : Nat) (gcfg : GCfg) (env : GroupEnv β) (fuel : Nat) (t : String)
      (e : Exc) (c : Grouped) (acts : List CAct) :
      HonestGroup (g.Named base) t (shareOf (g.members i) t) env.offsets → rules.during env →
      (g.members i).consume gcfg cfg env fuel t = (.raised e, c, acts, []) →
      (∀ reqs, CAct.fetch reqs ∉ acts) → TeamRun rules cfg logs base g →
      TeamRun rules cfg logs base ⟨g.put i c, g.committed, g.returned⟩
  | commit {g : Team δ} (i : Nat) (env : CommitEnv) (fuel : Nat) (name : String)
      (md : Option String) : rules.committing env → TeamRun rules cfg logs base g →
      TeamRun rules cfg logs base
        ⟨g.put i ((g.members i).commit env fuel name md).2.1,
         g.committed ++ offsetsIn ((g.members i).commit env fuel name md).2.2, g.returned⟩
  | restart {g : Team δ} (i : Nat) (cl : Cluster) : TeamRun rules cfg logs base g →
      TeamRun rules cfg logs base ⟨g.put i (Grouped.new cl), g.committed, g.returned⟩
  | other {g : Team δ} (i : Nat) (c : Grouped) : rules.between (g.members i) c →
      TeamRun rules cfg logs base g →
      TeamRun rules cfg logs base ⟨g.put i c, g.committed, g.returned⟩

end Kiel.Spec
