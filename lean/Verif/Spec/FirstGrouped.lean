import Verif.Model.FirstGrouped
import Verif.Spec.GroupOverlap
/-
What the properties of whole `consume`s of one `GroupedConsumer` that run at the same time speak
of.
-/
set_option autoImplicit false
namespace Kiel.Spec

variable {β δ : Type}

/-- The answers about partitions up to the first with a code that is neither success nor
retriable, which ends the handling of a response. -/
def heeded (ps : List OFPart) : List OFPart := ps.takeWhile fun q => decide (¬ Fatal q.code)

/-- What an event tells a `consume` that has asked for the group's offsets: a topic and answers
about its partitions. -/
def groupTold (s : GroupFirst δ) : FirstGroupEv β → List (String × List OFPart)
  | .offsets i r =>
    match s.starting.get? i with
    | some (.asking _ _ _) => r.topics.take 1
    | _ => []
  | _ => []

/-- Where partitions start, given where they would without `told`, in order: at the last offset
of the group that was reported in an answer, as far as that was heeded. -/
def groupStart : List (String × List OFPart) → (String → Int → Int) → String → Int → Int
  | [], o => o
  | (t, ps) :: told, o => groupStart told fun t' p => if t' = t then adopted (heeded ps) p (o t' p) else o t' p

/-- No call under way has this number. -/
def Unused (s : GroupFirst δ) (i : Nat) : Prop :=
  s.starting.get? i = .none ∧ s.group.base.waiting.get? i = .none ∧ s.group.commits.get? i = .none

/-- What the environment does: numbers of calls are not used twice at a time; answers to fetches
are honest; answers to requests for offsets are about the topic asked for; nothing else changes
offsets or makes them (un)known: no rebalance happens. -/
def FairGroup (batch : List (Int × β) → Int → List (Int × β) → Prop)
    (logs : String → Int → List (Int × β)) (s : GroupFirst δ) : FirstGroupEv β → Prop
  | .call i _ => Unused s i
  | .offsets i r => ∀ t parts b, s.starting.get? i = some (.asking t parts b) →
      ∃ ps, r.topics = [(t, ps)]
  | .group (.commit k _) => Unused s k
  | .group (.base (.other f)) => ∀ c, (f c).offsets = c.offsets ∧ (f c).synced = c.synced
  | .group (.base ev) => Fair batch logs s.group.base ev
  | _ => True

/-- `consume` is not called while another one for the same topic is under way. -/
def ApartGroup (s : GroupFirst δ) : FirstGroupEv β → Prop
  | .call _ topic => (∀ x ∈ s.starting, x.2.topic ≠ topic) ∧
      (∀ x ∈ s.group.base.waiting, x.2.topic ≠ topic) ∧
      ∀ x ∈ s.group.commits, ∀ y, x.2.result = some y → y.1 ≠ topic
  | _ => True

/-- No `consume` raises that has fetched, or waits for, messages. -/
def KeepsGroup (s : GroupFirst δ) (ev : FirstGroupEv β) (out : FirstGroupOut δ) : Prop :=
  ∀ e gev, out = .group (.raised e) → ev = .group gev → ByApplication s.group gev

/-- What a step returns to callers of `consume`. -/
def groupGiven : FirstGroupOut δ → List (String × δ)
  | .group out => givenBy out
  | _ => []

/-- What the `consume`s that are committing will return. -/
def committing (g : GroupBusy δ) : List (String × δ) :=
  g.commits.flatMap fun x =>
    match x.2.result with
    | some (topic, some out) => out.map fun v => (topic, v)
    | _ => []

/-- A course of events that are allowed; `outs` is what is returned, in order, and `told` what the
coordinator has told about offsets. -/
inductive FirstGroupCourse (gcfg : GCfg) (cfg : CCfg β δ)
    (ok : GroupFirst δ → FirstGroupEv β → FirstGroupOut δ → Prop) :
    GroupFirst δ → List (String × δ) → List (String × List OFPart) → GroupFirst δ → Prop where
  | nil (s : GroupFirst δ) : FirstGroupCourse gcfg cfg ok s [] [] s
  | cons {s s1 s2 : GroupFirst δ} {ev : FirstGroupEv β} {out : FirstGroupOut δ}
      {outs : List (String × δ)} {told : List (String × List OFPart)} :
      ok s ev out → s.step gcfg cfg ev = (out, s1) → FirstGroupCourse gcfg cfg ok s1 outs told s2 →
      FirstGroupCourse gcfg cfg ok s (groupGiven out ++ outs) (groupTold s ev ++ told) s2

end Kiel.Spec
