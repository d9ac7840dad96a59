import Verif.Props.Producer
import Verif.Props.Consumer
import Verif.Props.Single
import Verif.Props.Grouped
/- C71: error codes that the client does not know. -/
set_option autoImplicit false
namespace Kiel
open Spec

section fetch
variable {β δ ε : Type}

/-- C71 as stated, for fetch responses: what the response says of the other partitions counts,
whatever an unknown code is reported for. -/
def Spec.FetchIsolated : Prop :=
  ∀ (cfg : CCfg Nat Nat) (t : String) (pre post : List (FPart Nat)) (u : FPart Nat) (c : Single),
    u.code ≠ 0 → ¬ Retriable u.code → u.code ≠ 1 →
    handleFetchResponse cfg ⟨[(t, pre ++ u :: post)]⟩ c =
    handleFetchResponse cfg ⟨[(t, pre ++ post)]⟩ c

theorem fetchParts_pre (cfg : CCfg β δ) (t : String) (pre rest : List (FPart β))
    (c : Consumer ε) (out : List δ) (hp : ∀ q ∈ pre, KnownCode q.code) :
    ∃ out' c', handleFetchParts cfg t pre c out = (.ok out', c') ∧
      handleFetchParts cfg t (pre ++ rest) c out = handleFetchParts cfg t rest c' out' := by
  induction pre generalizing c out with
  | nil => exact ⟨out, c, rfl, rfl⟩
  | cons q pre ih =>
    simp only [List.mem_cons, forall_eq_or_imp] at hp
    simp only [List.cons_append, handleFetchParts]
    split
    · exact ih _ _ hp.2
    · split
      · exact ih _ _ hp.2
      · split
        · exact ih _ _ hp.2
        · obtain ⟨v, hv⟩ : ∃ v, errorCodes.get? q.code = some v := by
            cases h : errorCodes.get? q.code with
            | none => exact absurd hp.1 ((errorCodes_none _).1 h)
            | some v => exact ⟨v, rfl⟩
          simp only [hv]
          exact ih _ _ hp.2

/-- **C71** (what the code does): the first unknown code of a fetch response makes its handling
raise `KeyError`; what comes before counts, except that its messages are not delivered; what
comes after is ignored. -/
theorem C71_fetch (cfg : CCfg β δ) (t : String) (pre post : List (FPart β)) (u : FPart β)
    (more : List (String × List (FPart β))) (c : Consumer ε)
    (hp : ∀ q ∈ pre, KnownCode q.code) (hu : ¬ KnownCode u.code) :
    handleFetchResponse cfg ⟨(t, pre ++ u :: post) :: more⟩ c =
      (.error .keyError, (handleFetchResponse cfg ⟨[(t, pre)]⟩ c).2) := by
  obtain ⟨out, c', h1, h2⟩ := fetchParts_pre cfg t pre (u :: post) c [] hp
  have k0 : ¬ u.code = Err.noError := fun h => hu (by rw [h]; decide)
  have k1 : ¬ u.code ∈ Err.retriable := fun h => hu (by
    have : Retriable u.code := h
    unfold Retriable at this
    simp only [List.mem_cons, List.not_mem_nil, or_false] at this
    unfold KnownCode; omega)
  have k2 : ¬ u.code = Err.offsetOutOfRange := fun h => hu (by rw [h]; decide)
  simp only [handleFetchResponse, h1, h2, handleFetchParts, k0, k1, k2, if_false,
    (errorCodes_none _).2 hu]

/-- **C71** (partial: known codes): a known code that is neither retriable nor out of range (1)
costs nothing but what the partition itself might have delivered. -/
theorem C71_fetch_partial (cfg : CCfg β δ) (t : String) (pre post : List (FPart β)) (u : FPart β)
    (more : List (String × List (FPart β))) (c : Consumer ε)
    (hp : ∀ q ∈ pre, KnownCode q.code) (hu : KnownCode u.code) (hf : Fatal u.code)
    (h1 : u.code ≠ 1) :
    handleFetchResponse cfg ⟨(t, pre ++ u :: post) :: more⟩ c =
    handleFetchResponse cfg ⟨(t, pre ++ post) :: more⟩ c := by
  obtain ⟨out, c', _, h2⟩ := fetchParts_pre cfg t pre (u :: post) c [] hp
  obtain ⟨out2, c2, g1, g2⟩ := fetchParts_pre cfg t pre post c [] hp
  obtain ⟨v, hv⟩ : ∃ v, errorCodes.get? u.code = some v := by
    cases h : errorCodes.get? u.code with
    | none => exact absurd hu ((errorCodes_none _).1 h)
    | some v => exact ⟨v, rfl⟩
  have : (out2, c2) = (out, c') := by
    rename_i h3
    rw [h3] at g1
    simpa using Eq.symm g1
  cases this
  simp only [handleFetchResponse, g2, h2]
  simp only [handleFetchParts]
  rw [if_neg (show ¬ u.code = Err.noError from hf.1),
    if_neg (show ¬ u.code ∈ Err.retriable from hf.2),
    if_neg (show ¬ u.code = Err.offsetOutOfRange from h1)]
  simp only [hv]

end fetch

section produce
variable {κ β : Type}

/-- C71 as stated, for produce responses: the messages of a partition that a retriable error is
reported for are queued again. -/
def Spec.ProduceIsolated : Prop :=
  ∀ (p : Producer Nat Nat) (r : PResp) (t : String) (part code : Int) (m : Msg Nat Nat),
    (t, part, code) ∈ r.answers → Retriable code →
    m ∈ (sentFor p.sent r.corr t part).getD [] →
    m ∈ queueOf (p.handleResponse r).2.unsent t

theorem handleParts_append (corr : Int) (l l2 : List (String × Int × Int)) (p p1 : Producer κ β)
    (h : Producer.handleParts corr l p = (.ok (), p1)) :
    Producer.handleParts corr (l ++ l2) p = Producer.handleParts corr l2 p1 := by
  induction l generalizing p with
  | nil =>
    simp only [Producer.handleParts, Prod.mk.injEq, true_and] at h
    subst h; rfl
  | cons a l ih =>
    obtain ⟨t, part, code⟩ := a
    simp only [Producer.handleParts, List.cons_append] at h ⊢
    cases hh : p.handlePart corr t part code with
    | mk res p2 =>
      rw [hh] at h
      cases res with
      | error e => simp at h
      | ok u => exact ih p2 h

/-- **C71** (what the code does): with an unknown code in a proper answer to a request, handling
raises `KeyError`; only the answers before it put messages back, and the request goes on being
tracked as if it had not been answered. -/
theorem C71_produce (p : Producer κ β) (r : PResp) (hw : WF p)
    (pre post : List (String × Int × Int)) (u : String × Int × Int)
    (hr : r.answers = pre ++ u :: post) (hs : p.sent.has r.corr = true)
    (hk : ∀ a ∈ pre, KnownCode a.2.2) (hn : (pre.map fun a => (a.1, a.2.1)).Nodup)
    (ha : ∀ a ∈ pre, (sentFor p.sent r.corr a.1 a.2.1).isSome) (hu : ¬ KnownCode u.2.2) :
    ∃ p', p.handleResponse r = (.error .keyError, p') ∧ p'.sent.has r.corr = true ∧
      (∀ t, queueOf p'.unsent t = queueOf p.unsent t ++ pre.flatMap fun a =>
        if a.1 = t ∧ Retriable a.2.2 then (sentFor p.sent r.corr t a.2.1).getD [] else []) ∧
      (∀ c, c ≠ r.corr → p'.sent.get? c = p.sent.get? c) := by
  obtain ⟨p1, hp1⟩ := handleParts_total (corr := r.corr) pre p hw ha hn
    (fun a h => (errorCodes_has _).2 (hk a h))
  have g := handleParts_ok pre hw hp1
  have k0 : ¬ u.2.2 = Err.noError := fun h => hu (by rw [h]; decide)
  have k1 : ¬ u.2.2 ∈ Err.retriable := fun h => hu (by
    have : Retriable u.2.2 := h
    unfold Retriable at this
    simp only [List.mem_cons, List.not_mem_nil, or_false] at this
    unfold KnownCode; omega)
  refine ⟨p1, ?_, g.has hs, g.queue, g.others⟩
  unfold Producer.handleResponse
  rw [handleTopics_eq, hr, handleParts_append _ _ _ _ _ hp1]
  obtain ⟨t, part, code⟩ := u
  simp only [Producer.handleParts, Producer.handlePart]
  simp only at k0 k1 hu
  rw [if_neg k0, if_neg k1]
  simp only [(errorCodes_none _).2 hu]

/-- A known code that is not retriable changes nothing. -/
theorem handleParts_fatal (p : Producer κ β) (corr : Int)
    (pre post : List (String × Int × Int)) (u : String × Int × Int)
    (hu : KnownCode u.2.2) (hf : Fatal u.2.2) :
    Producer.handleParts corr (pre ++ u :: post) p = Producer.handleParts corr (pre ++ post) p := by
  obtain ⟨v, hv⟩ : ∃ v, errorCodes.get? u.2.2 = some v := by
    cases h : errorCodes.get? u.2.2 with
    | none => exact absurd hu ((errorCodes_none _).1 h)
    | some v => exact ⟨v, rfl⟩
  induction pre generalizing p with
  | nil =>
    obtain ⟨t, part, code⟩ := u
    simp only [List.nil_append, Producer.handleParts, Producer.handlePart]
    rw [if_neg (show ¬ code = Err.noError from hf.1),
      if_neg (show ¬ code ∈ Err.retriable from hf.2)]
    simp only at hv
    simp only [hv]
  | cons a pre ih =>
    simp only [List.cons_append, Producer.handleParts]
    split
    · rfl
    · exact ih _

/-- **C71** (partial: known codes): a known code that is not retriable changes nothing: the
answers about the other partitions are handled as if it were not there. -/
theorem C71_produce_partial (p : Producer κ β) (r r' : PResp) (hc : r'.corr = r.corr)
    (pre post : List (String × Int × Int)) (u : String × Int × Int)
    (hr : r.answers = pre ++ u :: post) (hr' : r'.answers = pre ++ post)
    (hu : KnownCode u.2.2) (hf : Fatal u.2.2) : p.handleResponse r = p.handleResponse r' := by
  unfold Producer.handleResponse
  rw [handleTopics_eq, handleTopics_eq, hr, hr', hc, handleParts_fatal p r.corr pre post u hu hf]

end produce

/-- **C71** (what the code does): the first unknown code in an offset response makes its handling
raise `KeyError`; what comes before counts, what comes after is ignored. -/
theorem C71_offset (t : String) (pre post : List OPart) (u : OPart)
    (more : List (String × List OPart)) (c : Single)
    (hp : ∀ q ∈ pre, ¬ Fatal q.code) (ho : ∀ q ∈ pre, q.code = 0 → q.offsets ≠ [])
    (hu : ¬ KnownCode u.code) :
    (handleOffsetResponse ⟨[(t, pre)]⟩ c).1 = .ok () ∧
    handleOffsetResponse ⟨(t, pre ++ u :: post) :: more⟩ c =
      (.error .keyError, (handleOffsetResponse ⟨[(t, pre)]⟩ c).2) := by
  have k0 : ¬ u.code = Err.noError := fun h => hu (by rw [h]; decide)
  have k1 : ¬ u.code ∈ Err.retriable := fun h => hu (by
    have : Retriable u.code := h
    unfold Retriable at this
    simp only [List.mem_cons, List.not_mem_nil, or_false] at this
    unfold KnownCode; omega)
  simp only [handleOffsetResponse]
  induction pre generalizing c with
  | nil => simp only [List.nil_append, handleOffsetParts, k0, k1, if_false,
      (errorCodes_none _).2 hu, and_self]
  | cons q pre ih =>
    simp only [List.mem_cons, forall_eq_or_imp] at hp ho
    simp only [List.cons_append, handleOffsetParts]
    split
    · rename_i h0
      cases hq : q.offsets with
      | nil => exact absurd hq (ho.1 h0)
      | cons o os => exact ih _ hp.2 ho.2
    · rename_i h0
      have : q.code ∈ Err.retriable := by
        by_contra hc
        exact hp.1 ⟨h0, hc⟩
      simp only [this, if_true]
      exact ih _ hp.2 ho.2

/-- **C71** (what the code does): the same for the offsets of a group. -/
theorem C71_offset_fetch (t : String) (pre post : List OFPart) (u : OFPart)
    (more : List (String × List OFPart)) (c : Grouped)
    (hp : ∀ q ∈ pre, ¬ Fatal q.code) (hu : ¬ KnownCode u.code) :
    handleOffsetFetchResponse ⟨(t, pre ++ u :: post) :: more⟩ c =
      (.error .keyError, (handleOffsetFetchResponse ⟨[(t, pre)]⟩ c).2) := by
  have k0 : ¬ u.code = Err.noError := fun h => hu (by rw [h]; decide)
  have k3 : ¬ u.code = Err.offsetsLoadInProgress := fun h => hu (by rw [h]; decide)
  have k1 : ¬ u.code ∈ Err.retriable := fun h => hu (by
    have : Retriable u.code := h
    unfold Retriable at this
    simp only [List.mem_cons, List.not_mem_nil, or_false] at this
    unfold KnownCode; omega)
  simp only [handleOffsetFetchResponse]
  generalize false = b
  induction pre generalizing c b with
  | nil => simp only [List.nil_append, handleOffsetFetchParts, k0, k1, k3, if_false,
      (errorCodes_none _).2 hu]
  | cons q pre ih =>
    simp only [List.mem_cons, forall_eq_or_imp] at hp
    simp only [List.cons_append, handleOffsetFetchParts]
    split
    · exact ih _ hp.2 _
    · rename_i h0
      split
      · exact ih _ hp.2 _
      · have : q.code ∈ Err.retriable := by
          by_contra hc
          exact hp.1 ⟨h0, hc⟩
        simp only [this, if_true]
        exact ih _ hp.2 _

theorem commitParts_pre (t : String) (pre rest : List (Int × Int)) (c : Grouped) (b : Bool × Bool)
    (hp : ∀ q ∈ pre, KnownCode q.2) :
    ∃ b' c', handleCommitParts t pre c b = (.ok b', c') ∧
      handleCommitParts t (pre ++ rest) c b = handleCommitParts t rest c' b' := by
  induction pre generalizing c b with
  | nil => exact ⟨b, c, rfl, rfl⟩
  | cons q pre ih =>
    obtain ⟨id, code⟩ := q
    obtain ⟨retry, adjust⟩ := b
    simp only [List.mem_cons, forall_eq_or_imp] at hp
    simp only [List.cons_append, handleCommitParts]
    split
    · exact ih _ _ hp.2
    · split
      · exact ih _ _ hp.2
      · split
        · exact ih _ _ hp.2
        · obtain ⟨v, hv⟩ : ∃ v, errorCodes.get? code = some v := by
            cases h : errorCodes.get? code with
            | none => exact absurd hp.1 ((errorCodes_none _).1 h)
            | some v => exact ⟨v, rfl⟩
          simp only [hv]
          exact ih _ _ hp.2

theorem commitTopics_pre (pre rest : List (String × List (Int × Int))) (c : Grouped)
    (b : Bool × Bool) (hp : ∀ t ∈ pre, ∀ q ∈ t.2, KnownCode q.2) :
    ∃ b' c', handleCommitTopics pre c b = (.ok b', c') ∧
      handleCommitTopics (pre ++ rest) c b = handleCommitTopics rest c' b' := by
  induction pre generalizing c b with
  | nil => exact ⟨b, c, rfl, rfl⟩
  | cons t pre ih =>
    obtain ⟨t, ps⟩ := t
    simp only [List.mem_cons, forall_eq_or_imp] at hp
    obtain ⟨b1, c1, h1, _⟩ := commitParts_pre t ps [] c b hp.1
    simp only [List.cons_append, handleCommitTopics, h1]
    exact ih c1 b1 hp.2

/-- **C71** (what the code does): the same for commits, over all topics of the response. -/
theorem C71_commit (tpre tpost : List (String × List (Int × Int))) (t : String)
    (pre post : List (Int × Int)) (u : Int × Int) (c : Grouped)
    (htp : ∀ t ∈ tpre, ∀ q ∈ t.2, KnownCode q.2) (hp : ∀ q ∈ pre, KnownCode q.2)
    (hu : ¬ KnownCode u.2) :
    handleCommitResponse ⟨tpre ++ (t, pre ++ u :: post) :: tpost⟩ c =
      (.error .keyError, (handleCommitResponse ⟨tpre ++ [(t, pre)]⟩ c).2) := by
  obtain ⟨b1, c1, g1, g2⟩ := commitTopics_pre tpre ((t, pre ++ u :: post) :: tpost) c
    (false, false) htp
  obtain ⟨b1', c1', g1', g2'⟩ := commitTopics_pre tpre [(t, pre)] c (false, false) htp
  rw [g1] at g1'
  cases g1'
  obtain ⟨b2, c2, k1, k2⟩ := commitParts_pre t pre (u :: post) c1 b1 hp
  have e0 : ¬ u.2 = Err.noError := fun h => hu (by rw [h]; decide)
  have e2 : ¬ u.2 = Err.offsetMetadataTooLarge := fun h => hu (by rw [h]; decide)
  have e1 : ¬ u.2 ∈ Err.retriable := fun h => hu (by
    have : Retriable u.2 := h
    unfold Retriable at this
    simp only [List.mem_cons, List.not_mem_nil, or_false] at this
    unfold KnownCode; omega)
  obtain ⟨id, code⟩ := u
  simp only at e0 e1 e2 hu
  simp only [handleCommitResponse, g2, g2', handleCommitTopics, k1, k2]
  simp only [handleCommitParts, e0, e1, e2, if_false, (errorCodes_none _).2 hu]

/-- **C71**: finding the coordinator of a group is not disturbed by any code; one that is neither
success nor retriable leaves the coordinator as it was. -/
theorem C71_coordinator (r : CoordResp) (c : Grouped) :
    ∃ done c', handleCoordinatorResponse r c = (.ok done, c') ∧
      (Fatal r.code → done = true ∧ c' = c) := by
  unfold handleCoordinatorResponse
  split
  · rename_i h
    exact ⟨_, _, rfl, fun hf => absurd h hf.1⟩
  · split
    · rename_i h
      exact ⟨_, _, rfl, fun hf => absurd h hf.2⟩
    · exact ⟨_, _, rfl, fun _ => ⟨rfl, rfl⟩⟩

/-- **C71** is false of the code: partition 0 has a message, partition 1 the code 72 of a newer
broker; nothing is delivered, and the message of partition 0 is skipped for good. -/
theorem C71_false_fetch : ¬ FetchIsolated := by
  intro h
  have := h exCCfg "t" [⟨0, 0, [(4, 7)]⟩] [] ⟨1, 72, []⟩ exConsumer (by decide) (by decide)
    (by decide)
  revert this
  decide +kernel

example : handleFetchResponse exCCfg ⟨[("t", [⟨0, 0, [(4, 7)]⟩, ⟨1, 72, []⟩, ⟨2, 0, [(9, 3)]⟩])]⟩
      exConsumer =
    (.error .keyError, { exConsumer with offsets := [("t", [(0, 5)])] }) := by decide +kernel

/-- A producer with a request in flight. -/
def exInFlight : Producer Nat Nat :=
  { exProducer with unsent := [], sent := [(42, [("t", [(0, [⟨0, 20⟩]), (1, [⟨1, 11⟩])])])] }

/-- **C71** is false of the code: the code 72 for partition 0 keeps the messages of partition 1,
which is to be tried again, from being queued. -/
theorem C71_false_produce : ¬ ProduceIsolated := by
  intro h
  have := h exInFlight ⟨42, [("t", [(0, 72), (1, 6)])]⟩ "t" 1 6 ⟨1, 11⟩ (by decide) (by decide)
    (by decide)
  revert this
  decide +kernel

-- Non-vacuity of C71_produce: the message of partition 1, answered before the unknown code, is
-- back in the queue; the one of partition 0 is not.
example : exInFlight.handleResponse ⟨42, [("t", [(1, 6), (0, 72)])]⟩ = (.error .keyError,
    { exInFlight with unsent := [("t", [⟨1, 11⟩])], heal := true,
                      sent := [(42, [("t", [(0, [⟨0, 20⟩])])])] }) := by decide +kernel
-- Non-vacuity of the others.
example : handleOffsetResponse ⟨[("t", [⟨0, 0, [5]⟩, ⟨1, 72, []⟩, ⟨2, 0, [8]⟩])]⟩ exConsumer =
    (.error .keyError, { exConsumer with offsets := [("t", [(0, 5)])] }) := by decide +kernel
example : (handleCommitResponse ⟨[("t", [(0, 0)]), ("u", [(0, 72)]), ("v", [(0, 0)])]⟩
      { Grouped.new exPCluster with ext := { (Grouped.new exPCluster).ext with
          toCommit := ["t", "u", "v"] } }).2.ext.toCommit = ["u", "v"] := by decide +kernel
example : KnownCode 10 ∧ Fatal 10 ∧ ¬ KnownCode 72 := by decide

end Kiel
