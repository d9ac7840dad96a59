import Verif.Model.GroupOverlap
import Verif.Spec.Overlap
import Verif.Spec.Grouped
/-
What the properties of `consume`s and `commit_offsets`s of one `GroupedConsumer` that run at the
same time speak of.
-/
set_option autoImplicit false
namespace Kiel.Spec

variable {β δ : Type}

/-- Numbers are not used twice at a time. -/
def FreshNumber (g : GroupBusy δ) : GroupEv β → Prop
  | .base (.consume i _) => g.commits.get? i = .none
  | .commit k _ => g.commits.get? k = .none ∧ g.base.waiting.get? k = .none
  | _ => True

/-- The base class's `consume`s are dealt with fairly. -/
def FairBase (batch : List (Int × β) → Int → List (Int × β) → Prop)
    (logs : String → Int → List (Int × β)) (g : GroupBusy δ) : GroupEv β → Prop
  | .base ev => Fair batch logs g.base ev
  | _ => True

/-- `consume`s of one topic do not overlap. -/
def ApartBase (g : GroupBusy δ) : GroupEv β → Prop
  | .base ev => Apart g.base ev
  | _ => True

/-- What else happens (heals) leaves alone which topics have their offsets, which partitions are
allocated and which topics are to be committed. -/
def Untouched (g : GroupBusy δ) : GroupEv β → Prop
  | .base (.other f) => (∀ t ∈ g.base.consumer.synced, t ∈ (f g.base.consumer).synced) ∧
      (f g.base.consumer).ext.mapping = g.base.consumer.ext.mapping ∧
      (f g.base.consumer).ext.toCommit = g.base.consumer.ext.toCommit
  | _ => True

/-- The event is part of a `commit_offsets` that the application called. -/
def ByApplication (g : GroupBusy δ) : GroupEv β → Prop
  | .base _ => False
  | .commit _ _ => True
  | .answer k _ => ∃ ph, g.commits.get? k = some ⟨ph, .none⟩
  | .fails k _ => ∃ ph, g.commits.get? k = some ⟨ph, .none⟩
  | .goOn k => ∃ ph, g.commits.get? k = some ⟨ph, .none⟩
  | .healFails k _ => ∃ ph, g.commits.get? k = some ⟨ph, .none⟩

/-- What a step returns to callers of `consume`. -/
def givenBy : GroupOut δ → List (String × δ)
  | .returned topic (some out) => out.map fun v => (topic, v)
  | _ => []

/-- What a step acknowledges: topic, partition, offset. -/
def acknowledgedBy (g : GroupBusy δ) : GroupEv β → List (String × Int × Int)
  | .answer k r =>
    match g.commits.get? k with
    | some ⟨.asking req, _⟩ => req.topics.flatMap fun x =>
        (x.2.filter fun q => decide ((x.1, q.1, 0) ∈ commitAnswers r)).map fun q => (x.1, q.1, q.2)
    | _ => []
  | _ => []

/-- A course of events that are allowed; `outs` is what `consume`s return, `acks` what is
acknowledged, in order. -/
inductive GroupCourse (gcfg : GCfg) (cfg : CCfg β δ)
    (ok : GroupBusy δ → GroupEv β → GroupOut δ → Prop) :
    GroupBusy δ → List (String × δ) → List (String × Int × Int) → GroupBusy δ → Prop where
  | nil (g : GroupBusy δ) : GroupCourse gcfg cfg ok g [] [] g
  | cons {g g1 g2 : GroupBusy δ} {ev : GroupEv β} {out : GroupOut δ} {outs : List (String × δ)}
      {acks : List (String × Int × Int)} :
      ok g ev out → g.step gcfg cfg ev = (out, g1) → GroupCourse gcfg cfg ok g1 outs acks g2 →
      GroupCourse gcfg cfg ok g (givenBy out ++ outs) (acknowledgedBy g ev ++ acks) g2

/-- The event is about the call with this number. -/
def Concerns (k : Nat) : GroupEv β → Prop
  | .base (.other _) => False
  | .base ev => ev.number = k
  | .commit i _ => i = k
  | .answer i _ => i = k
  | .fails i _ => i = k
  | .goOn i => i = k
  | .healFails i _ => i = k

/-- What becomes of the consumer. -/
def afterAll (gcfg : GCfg) (cfg : CCfg β δ) (g : GroupBusy δ) (evs : List (GroupEv β)) :
    GroupBusy δ :=
  evs.foldl (fun g ev => (g.step gcfg cfg ev).2) g

/-- What `consume`s that are committing have of a topic, and will return. -/
def beingCommitted (g : GroupBusy δ) (t : String) : List δ :=
  g.commits.flatMap fun x =>
    match x.2.result with
    | some (topic, some out) => if topic = t then out else []
    | _ => []

/-- What may happen in C102. -/
def Allowed (logs : String → Int → List (Int × β)) (g : GroupBusy δ) (ev : GroupEv β)
    (out : GroupOut δ) : Prop :=
  FreshNumber g ev ∧ FairBase WideBatch logs g ev ∧ Untouched g ev ∧
    ∀ e, out = .raised e → ByApplication g ev

/-- The answer is about the partitions of the topic that were asked for, and either all of them
are committed or all of them are to be committed once more. -/
def AnswersFor (t : String) (req : CommitReq) (r : CommitResp) : Prop :=
  (∀ p, (∃ ps ∈ req.topics, ps.1 = t ∧ p ∈ ps.2.map (·.1)) ↔ ∃ code, (t, p, code) ∈ commitAnswers r) ∧
  ((∀ p code, (t, p, code) ∈ commitAnswers r → code = 0) ∨
    ∀ p code, (t, p, code) ∈ commitAnswers r → Retriable code ∨ code = 12)

/-- What may happen in C103. -/
def AllowedFor (t : String) (logs : String → Int → List (Int × β)) (g : GroupBusy δ)
    (ev : GroupEv β) (out : GroupOut δ) : Prop :=
  FreshNumber g ev ∧ FairBase Batch logs g ev ∧ ApartBase g ev ∧ Untouched g ev ∧
    (∀ e, out = .raised e → ∀ b, ev = .base b → ∃ i, b = .finish i) ∧
    ∀ k r req result, ev = .answer k r → g.commits.get? k = some ⟨.asking req, result⟩ →
      AnswersFor t req r

end Kiel.Spec
