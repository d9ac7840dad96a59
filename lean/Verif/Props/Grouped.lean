import Verif.Lemmas.Grouped
import Verif.Props.Single
/-
C48-C55, C66, C67: the grouped consumer.
-/
set_option autoImplicit false
namespace Kiel
open Spec

variable {β δ : Type}

/-! ### C54 -/

/-- **C54**: an answer without fatal codes for a partition sets exactly the offsets of the
partitions (of its first topic) answered without error, and asks for a retry exactly if some
partition had a retriable error. -/
theorem C54_adopted (t : String) (ps : List OFPart) (more : List (String × List OFPart))
    (c : Grouped) (hf : ∀ q ∈ ps, ¬ Fatal q.code) :
    ∃ c' retry, handleOffsetFetchResponse ⟨(t, ps) :: more⟩ c = (.ok retry, c') ∧
      (retry = true ↔ ∃ q ∈ ps, Retriable q.code) ∧
      (∀ t' p, offsetOf c'.offsets t' p =
        if t' = t then adopted ps p (offsetOf c.offsets t' p) else offsetOf c.offsets t' p) ∧
      (c'.heal = true ↔ c.heal = true ∨ ∃ q ∈ ps, Retriable q.code ∧ q.code ≠ 14) ∧
      c'.synced = c.synced ∧ c'.ext = c.ext ∧ c'.cluster = c.cluster ∧ c'.closing = c.closing := by
  obtain ⟨o, h, h1, h2, h3⟩ := handleOffsetFetchParts_spec t ps c false hf []
  rw [List.append_nil] at h1
  refine ⟨{ c with offsets := o, heal := h }, decide (∃ q ∈ ps, Retriable q.code), ?_, ?_, h2, h3, rfl,
    rfl, rfl, rfl⟩
  · unfold handleOffsetFetchResponse
    simp only [h1, handleOffsetFetchParts, Bool.false_or]
  · simp

/-- **C54**: a fatal code is a `NoOffsetsError`; the partitions before it are adopted. -/
theorem C54_fatal (t : String) (pre post : List OFPart) (q : OFPart)
    (more : List (String × List OFPart)) (c : Grouped) (hf : ∀ q ∈ pre, ¬ Fatal q.code)
    (hq : Fatal q.code) (hk : KnownCode q.code) :
    ∃ c', handleOffsetFetchResponse ⟨(t, pre ++ q :: post) :: more⟩ c = (.error .noOffsets, c') ∧
      (∀ t' p, offsetOf c'.offsets t' p =
        if t' = t then adopted pre p (offsetOf c.offsets t' p) else offsetOf c.offsets t' p) ∧
      c'.synced = c.synced ∧ c'.ext = c.ext := by
  obtain ⟨o, h, h1, h2, h3⟩ := handleOffsetFetchParts_spec t pre c false hf (q :: post)
  refine ⟨{ c with offsets := o, heal := h }, ?_, h2, rfl, rfl⟩
  unfold handleOffsetFetchResponse
  simp only [h1, handleOffsetFetchParts]
  have h14 : q.code ≠ 14 := fun h => hq.2 (by rw [h]; decide)
  rw [if_neg (show ¬ q.code = Err.noError from hq.1),
    if_neg (show ¬ q.code = Err.offsetsLoadInProgress from h14),
    if_neg (show ¬ q.code ∈ Err.retriable from hq.2)]
  cases h : errorCodes.get? q.code with
  | none => exact absurd hk ((errorCodes_none _).1 h)
  | some v => rfl

/-- **C54**: a code the client does not know is a `KeyError`. -/
theorem C54_unknown (t : String) (pre post : List OFPart) (q : OFPart)
    (more : List (String × List OFPart)) (c : Grouped) (hf : ∀ q ∈ pre, ¬ Fatal q.code)
    (hq : Fatal q.code) (hk : ¬ KnownCode q.code) :
    (handleOffsetFetchResponse ⟨(t, pre ++ q :: post) :: more⟩ c).1 = .error .keyError := by
  obtain ⟨o, h, h1, h2, h3⟩ := handleOffsetFetchParts_spec t pre c false hf (q :: post)
  unfold handleOffsetFetchResponse
  simp only [h1, handleOffsetFetchParts]
  have h14 : q.code ≠ 14 := fun h => hq.2 (by rw [h]; decide)
  rw [if_neg (show ¬ q.code = Err.noError from hq.1),
    if_neg (show ¬ q.code = Err.offsetsLoadInProgress from h14),
    if_neg (show ¬ q.code ∈ Err.retriable from hq.2)]
  cases h : errorCodes.get? q.code with
  | none => rfl
  | some v => exact absurd ((errorCodes_none _).2 hk) (by simp [h])

/-- Either there is no fatal code, or there is a first one. -/
theorem fatal_split (ps : List OFPart) : (∀ q ∈ ps, ¬ Fatal q.code) ∨
    ∃ pre q post, ps = pre ++ q :: post ∧ (∀ q ∈ pre, ¬ Fatal q.code) ∧ Fatal q.code := by
  induction ps with
  | nil => exact Or.inl (by simp)
  | cons p ps ih =>
    by_cases hp : Fatal p.code
    · exact Or.inr ⟨[], p, ps, rfl, by simp, hp⟩
    · rcases ih with h | ⟨pre, q, post, rfl, h1, h2⟩
      · exact Or.inl (by simpa [hp] using h)
      · exact Or.inr ⟨p :: pre, q, post, rfl, by simpa [hp] using h1, h2⟩

/-- What any offset-fetch answer does. -/
theorem offsetFetch_any (r : OFResp) (c c' : Grouped) (res : Res Bool)
    (h : handleOffsetFetchResponse r c = (res, c')) :
    c'.ext = c.ext ∧ c'.synced = c.synced ∧ c'.closing = c.closing ∧ c'.cluster = c.cluster ∧
    (∀ t p, offsetOf c'.offsets t p = offsetOf c.offsets t p ∨
      ∃ ps more, r.topics = (t, ps) :: more ∧
        ∃ q ∈ ps, q.id = p ∧ q.code = 0 ∧ offsetOf c'.offsets t p = q.offset) := by
  obtain ⟨topics⟩ := r
  have key : ∀ t (ps : List OFPart) (c c' : Grouped) b res,
      handleOffsetFetchParts t ps c b = (res, c') →
      c'.ext = c.ext ∧ c'.synced = c.synced ∧ c'.closing = c.closing ∧ c'.cluster = c.cluster ∧
      ∀ t' p, offsetOf c'.offsets t' p = offsetOf c.offsets t' p ∨
        (t' = t ∧ ∃ q ∈ ps, q.id = p ∧ q.code = 0 ∧ offsetOf c'.offsets t' p = q.offset) := by
    intro t ps
    induction ps with
    | nil =>
      intro c c' b res h
      simp only [handleOffsetFetchParts, Prod.mk.injEq] at h
      obtain ⟨_, rfl⟩ := h
      exact ⟨rfl, rfl, rfl, rfl, fun _ _ => Or.inl rfl⟩
    | cons q ps ih =>
      intro c c' b res h
      simp only [handleOffsetFetchParts] at h
      have lift : ∀ (c0 : Grouped), c0.offsets = c.offsets →
          (∀ t' p, offsetOf c'.offsets t' p = offsetOf c0.offsets t' p ∨
            (t' = t ∧ ∃ q ∈ ps, q.id = p ∧ q.code = 0 ∧ offsetOf c'.offsets t' p = q.offset)) →
          ∀ t' p, offsetOf c'.offsets t' p = offsetOf c.offsets t' p ∨
            (t' = t ∧ ∃ q' ∈ q :: ps, q'.id = p ∧ q'.code = 0 ∧
              offsetOf c'.offsets t' p = q'.offset) := by
        intro c0 h0 hh t' p
        rcases hh t' p with h | ⟨h1, q', h2, h3⟩
        · exact Or.inl (by rw [h, h0])
        · exact Or.inr ⟨h1, q', List.mem_cons_of_mem _ h2, h3⟩
      split at h
      · rename_i h0
        obtain ⟨e1, e2, e3, e4, e5⟩ := ih _ _ _ _ h
        refine ⟨e1, e2, e3, e4, ?_⟩
        intro t' p
        rcases e5 t' p with h | ⟨h1, q', h2, h3⟩
        · rw [h]
          simp only [offsetOf_put]
          split
          · rename_i hh
            exact Or.inr ⟨hh.1.symm ▸ rfl, q, by simp, by simp [hh.2], h0, rfl⟩
          · exact Or.inl rfl
        · exact Or.inr ⟨h1, q', List.mem_cons_of_mem _ h2, h3⟩
      · split at h
        · obtain ⟨e1, e2, e3, e4, e5⟩ := ih _ _ _ _ h
          exact ⟨e1, e2, e3, e4, lift c rfl e5⟩
        · split at h
          · obtain ⟨e1, e2, e3, e4, e5⟩ := ih _ _ _ _ h
            exact ⟨e1, e2, e3, e4, lift { c with heal := true } rfl e5⟩
          · split at h <;>
            · simp only [Prod.mk.injEq] at h
              obtain ⟨_, rfl⟩ := h
              exact ⟨rfl, rfl, rfl, rfl, fun _ _ => Or.inl rfl⟩
  unfold handleOffsetFetchResponse at h
  cases topics with
  | nil =>
    simp only [Prod.mk.injEq] at h
    obtain ⟨_, rfl⟩ := h
    exact ⟨rfl, rfl, rfl, rfl, fun _ _ => Or.inl rfl⟩
  | cons x more =>
    obtain ⟨t, ps⟩ := x
    obtain ⟨e1, e2, e3, e4, e5⟩ := key t ps c c' false res h
    refine ⟨e1, e2, e3, e4, ?_⟩
    intro t' p
    rcases e5 t' p with h | ⟨rfl, h'⟩
    · exact Or.inl h
    · exact Or.inr ⟨ps, more, rfl, h'⟩


theorem determineLoop_rel (env : Nat → SendEnv OFResp) (P : Grouped → Prop)
    (hP : ∀ (c : Grouped) cl h, P c → P { c with cluster := cl, heal := h })
    (hH : ∀ n r, (env n).outcome = .ok r → ∀ c, P c → P (handleOffsetFetchResponse r c).2)
    (fuel n : Nat) (c : Grouped) (h : P c) : P (Grouped.determineLoop env fuel n c).2 := by
  induction fuel generalizing n c with
  | zero => exact h
  | succ fuel ih =>
    simp only [Grouped.determineLoop]
    have hs : P (c.sendCoordinator offsetFetchHandlers (env n)).2 := by
      unfold Grouped.sendCoordinator
      split
      · exact h
      · refine sendTo_rel _ _ _ P hP ?_ h
        intro r f ho hf c hc
        simp only [offsetFetchHandlers, Option.some.injEq] at hf
        subst hf
        exact hP _ _ _ (hH n r ho c hc)
    split
    · rename_i heq; rw [heq] at hs; exact hs
    · rename_i heq; rw [heq] at hs; exact ih _ _ hs
    · rename_i heq; rw [heq] at hs; exact hs

/-- **C54**: `determine_offsets` returns only after an answer without any error, which it has
adopted. -/
theorem C54_determine {plain : Bool} (env : Nat → SendEnv OFResp) (fuel : Nat) (topic : String) (c : Grouped)
    (h : (c.determine plain env fuel topic).1 = .done ()) :
    ∃ m r t ps more, (env m).outcome = .ok r ∧ r.topics = (t, ps) :: more ∧
      (∀ q ∈ ps, q.code = 0) ∧
      ∀ q ∈ ps, ∃ q' ∈ ps, q'.id = q.id ∧
        offsetOf (c.determine plain env fuel topic).2.1.offsets t q.id = q'.offset := by
  have key : ∀ fuel n (c : Grouped), (Grouped.determineLoop env fuel n c).1 = .done () →
      ∃ m r t ps more, (env m).outcome = .ok r ∧ r.topics = (t, ps) :: more ∧
      (∀ q ∈ ps, q.code = 0) ∧ ∀ q ∈ ps, ∃ q' ∈ ps, q'.id = q.id ∧
        offsetOf (Grouped.determineLoop env fuel n c).2.offsets t q.id = q'.offset := by
    intro fuel
    induction fuel with
    | zero => intro n c h; simp [Grouped.determineLoop] at h
    | succ fuel ih =>
      intro n c h
      simp only [Grouped.determineLoop] at h ⊢
      cases hs : c.sendCoordinator offsetFetchHandlers (env n) with
      | mk res c' =>
        rw [hs] at h
        cases res with
        | error e => simp at h
        | ok b =>
          cases b with
          | true => exact ih _ _ h
          | false =>
            unfold Grouped.sendCoordinator at hs
            split at hs
            · simp at hs
            · obtain ⟨r, f, c1, ask, cl, ho, hf, hfs, rfl⟩ := sendTo_inv hs
              simp only [offsetFetchHandlers, Option.some.injEq] at hf
              subst hf
              simp only at hfs
              cases hr : handleOffsetFetchResponse r { c with heal := false } with
              | mk res c2 =>
                rw [hr] at hfs
                simp only [Prod.mk.injEq] at hfs
                obtain ⟨rfl, rfl, rfl⟩ := hfs
                obtain ⟨topics⟩ := r
                cases topics with
                | nil => simp [handleOffsetFetchResponse] at hr
                | cons x more =>
                  obtain ⟨t, ps⟩ := x
                  refine ⟨n, _, t, ps, more, ho, rfl, ?_⟩
                  rcases fatal_split ps with hnf | ⟨pre, q, post, rfl, g1, g2⟩
                  · obtain ⟨c3, retry, e1, e2, e3, _⟩ :=
                      C54_adopted t ps more { c with heal := false } hnf
                    rw [hr] at e1
                    simp only [Prod.mk.injEq, Except.ok.injEq] at e1
                    obtain ⟨rfl, rfl⟩ := e1
                    have hz : ∀ q ∈ ps, q.code = 0 := by
                      intro q hq
                      have h1 := hnf q hq
                      have h2 : ¬ Retriable q.code := fun hh => by
                        have := e2.2 ⟨q, hq, hh⟩; simp at this
                      exact Decidable.byContradiction fun hh => h1 ⟨hh, h2⟩
                    refine ⟨hz, fun q hq => ?_⟩
                    simp only [e3, if_true]
                    unfold adopted
                    cases hl : (ps.filter fun q' => decide (q'.id = q.id ∧ q'.code = 0)).getLast? with
                    | none =>
                      rw [List.getLast?_eq_none_iff, List.filter_eq_nil_iff] at hl
                      exact absurd (hl q hq) (by simp [hz q hq])
                    | some q' =>
                      have := List.mem_of_getLast? hl
                      simp only [List.mem_filter, decide_eq_true_eq] at this
                      exact ⟨q', this.1, this.2.1, rfl⟩
                  · exfalso
                    by_cases hk : KnownCode q.code
                    · obtain ⟨c3, e1, _⟩ :=
                        C54_fatal t pre post q more { c with heal := false } g1 g2 hk
                      rw [hr] at e1; simp at e1
                    · have := C54_unknown t pre post q more { c with heal := false } g1 g2 hk
                      rw [hr] at this; simp at this
  unfold Grouped.determine at h ⊢
  cases hm : c.ext.mapping with
  | none => rw [hm] at h; simp at h
  | some a =>
    simp only [hm] at h ⊢
    split at h
    · simp at h
    · rename_i hp
      simp only [if_neg hp]
      exact key _ _ _ h

/-! ### C66: the coordinator moves -/

/-- Looking up the topic in the allocation does not raise. -/
def Spec.Known (plain : Bool) (a : Dict String (List Int)) (topic : String) : Prop :=
  plain = true → a.has topic = true

theorem known_not {plain : Bool} {a : Dict String (List Int)} {topic : String}
    (h : Known plain a topic) : ¬ (plain = true ∧ a.has topic = false) := by
  rintro ⟨h1, h2⟩
  rw [h h1] at h2
  cases h2

/-- **C66**, false: if the coordinator of the group moves, the broker that was it keeps answering
`not_coordinator_for_consumer` (16); `consume` asks it for ever, whatever the other brokers would
say. -/
theorem C66_stuck (gcfg : GCfg) (cfg : CCfg β δ) (env : GroupEnv β) (b : Int) (topic : String)
    (c : Grouped) (a : Dict String (List Int)) (hc : c.closing = false) (hs : topic ∉ c.synced)
    (hb : c.ext.coordinator = some b) (hm : c.ext.mapping = some a)
    (hpl : Known cfg.plain a topic) (hh : c.cluster.conns.has b = true)
    (henv : ∀ n, (env.offsets n).write = .none ∧ HealsWell (env.offsets n) ∧
      ∃ p ps more, (env.offsets n).outcome = .ok ⟨(topic, p :: ps) :: more⟩ ∧
        ∀ q ∈ p :: ps, q.code = 16)
    (fuel : Nat) :
    (c.consume gcfg cfg env fuel topic).1 = .running ∧
    (c.consume gcfg cfg env fuel topic).2.2 = ([.determine], []) := by
  have key : ∀ fuel n (c : Grouped), c.ext.coordinator = some b → c.cluster.conns.has b = true →
      (Grouped.determineLoop env.offsets fuel n c).1 = .running := by
    intro fuel
    induction fuel with
    | zero => intro n c _ _; rfl
    | succ fuel ih =>
      intro n c hb hh
      obtain ⟨hw, hwell, p, ps, more, ho, hq⟩ := henv n
      obtain ⟨c1, retry, e1, e2, _, _, _, e3, e4, _⟩ :=
        C54_adopted topic (p :: ps) more { c with heal := false } (by
          intro q hq'; rw [hq q hq']; decide)
      have hretry : retry = true := e2.2 ⟨p, by simp, by rw [hq p (by simp)]; decide⟩
      subst hretry
      obtain ⟨cl, g1, g2⟩ := sendTo_ok (hs := offsetFetchHandlers) (env := env.offsets n) (b := b)
        (c := c) ⟨hh, hw⟩ ho rfl (show _ = ((.ok true : Res Bool), ({ c1 with heal := false } : Grouped), c1.heal) by
          simp only [e1]) hwell
      simp only [Grouped.determineLoop, Grouped.sendCoordinator, hb, g1]
      refine ih _ _ ?_ ?_
      · simp only [e3]; exact hb
      · simp only [g2, e4]; exact hh
  have hd : (c.determine cfg.plain env.offsets fuel topic).1 = .running := by
    unfold Grouped.determine
    simp only [hm, if_neg (known_not hpl)]
    exact key _ _ _ hb hh
  unfold Grouped.consume
  rw [if_pos ⟨hc, hs, hd⟩]
  exact ⟨rfl, rfl⟩

/-! ### C49-C51: commits -/

/-- The answers ask for another attempt. -/
def Spec.Again (r : CommitResp) : Prop :=
  ∃ t ∈ r.topics, ∃ p ∈ t.2, Retriable p.2 ∨ p.2 = 12

/-- The metadata was too large for some partition. -/
def Spec.TooLarge (r : CommitResp) : Prop := ∃ t ∈ r.topics, ∃ p ∈ t.2, p.2 = 12

/-- Some partition of the topic was committed. -/
def Spec.Succeeded (r : CommitResp) (topic : String) : Prop :=
  ∃ t ∈ r.topics, t.1 = topic ∧ ∃ p ∈ t.2, p.2 = 0

instance (r : CommitResp) : Decidable (Again r) := by unfold Again; infer_instance
instance (r : CommitResp) : Decidable (TooLarge r) := by unfold TooLarge; infer_instance

theorem commitOf_congr {s s' : List String} {a : Dict String (List Int)} {o o' : Offsets}
    (hs : ∀ t, t ∈ s ↔ t ∈ s') (ho : ∀ t p, offsetOf o t p = offsetOf o' t p) :
    commitOf s a o = commitOf s' a o' := by
  unfold commitOf
  simp only [ho, hs]

/-- One round of `commit_offsets` that is answered. -/
theorem commit_round (env : CommitEnv) (fuel n : Nat) (md : String) (c : Grouped)
    (a : Dict String (List Int)) (b : Int) (r : CommitResp) (hm : c.ext.mapping = some a)
    (hb : c.ext.coordinator = some b) (hh : c.cluster.conns.has b = true)
    (hw : (env.send n).write = .none) (hwell : HealsWell (env.send n))
    (ho : (env.send n).outcome = .ok r) (hk : ∀ t ∈ r.topics, ∀ p ∈ t.2, KnownCode p.2) :
    ∃ c1 : Grouped, c1.ext.mapping = some a ∧ c1.ext.coordinator = some b ∧
      (∀ b, c1.cluster.conns.has b = c.cluster.conns.has b) ∧
      (∀ t p, offsetOf c1.offsets t p = offsetOf c.offsets t p) ∧ c1.synced = c.synced ∧
      (∀ t, t ∈ c1.ext.toCommit ↔ t ∈ c.ext.toCommit ∧ ¬ Succeeded r t) ∧
      Grouped.commitLoop env (fuel + 1) n md c =
        if Again r then
          ((Grouped.commitLoop env fuel (n + 1) (if TooLarge r then "" else md) (env.tick n c1)).1,
           (Grouped.commitLoop env fuel (n + 1) (if TooLarge r then "" else md) (env.tick n c1)).2.1,
           ⟨some b, md, commitOf c.ext.toCommit a c.offsets⟩ ::
            (Grouped.commitLoop env fuel (n + 1) (if TooLarge r then "" else md)
              (env.tick n c1)).2.2)
        else (.done (), env.tick n c1, [⟨some b, md, commitOf c.ext.toCommit a c.offsets⟩]) := by
  obtain ⟨k1, k2⟩ := commitTopics_spec c.ext.toCommit a c.offsets
  obtain ⟨s, h, g1, g2, g3⟩ := handleCommitTopics_spec r.topics
    { c with offsets := (commitTopics c.ext.toCommit a c.offsets).2, heal := false } (false, false) hk
  obtain ⟨cl, e1, e2⟩ := sendTo_ok (hs := commitHandlers) (env := env.send n) (b := b)
    (c := { c with offsets := (commitTopics c.ext.toCommit a c.offsets).2 }) ⟨hh, hw⟩ ho rfl
    (show _ = ((.ok (decide (Again r), decide (TooLarge r)) : Res (Bool × Bool)),
        (⟨c.cluster, (commitTopics c.ext.toCommit a c.offsets).2, c.synced, false, c.closing,
          ⟨c.ext.coordinator, s, c.ext.mapping⟩⟩ : Grouped), h) by
      simp only [handleCommitResponse, g1, Bool.false_or]; rfl) hwell
  refine ⟨⟨cl, (commitTopics c.ext.toCommit a c.offsets).2, c.synced, false, c.closing,
    ⟨c.ext.coordinator, s, c.ext.mapping⟩⟩, ?_, ?_, ?_, ?_, ?_, ?_, ?_⟩
  rotate_left 6
  · simp only [Grouped.commitLoop, hm, Grouped.sendCoordinator, hb, e1]
    by_cases hA : Again r
    · rw [if_pos hA, if_pos (by simpa using hA), ← k1]
      by_cases hT : TooLarge r
      · simp only [hT, decide_true, if_true]
      · simp only [hT, decide_false, if_false, Bool.false_eq_true]
    · rw [if_neg hA, if_neg (by simpa using hA), ← k1]
  · exact hm
  · exact hb
  · exact e2
  · exact k2
  · rfl
  · intro t; simp only [g2]; rfl

/-- A commit response changes at most the topics to commit, of which some are dropped, and the
`heal` flag. -/
theorem commitResponse_any (r : CommitResp) (c : Grouped) :
    (handleCommitResponse r c).2.offsets = c.offsets ∧
    (handleCommitResponse r c).2.ext.mapping = c.ext.mapping ∧
    (handleCommitResponse r c).2.ext.coordinator = c.ext.coordinator ∧
    (handleCommitResponse r c).2.synced = c.synced ∧
    (handleCommitResponse r c).2.closing = c.closing ∧
    ∀ t ∈ (handleCommitResponse r c).2.ext.toCommit, t ∈ c.ext.toCommit := by
  let P : Grouped → Prop := fun c' => c'.offsets = c.offsets ∧ c'.ext.mapping = c.ext.mapping ∧
    c'.ext.coordinator = c.ext.coordinator ∧ c'.synced = c.synced ∧ c'.closing = c.closing ∧
    ∀ t ∈ c'.ext.toCommit, t ∈ c.ext.toCommit
  have hparts : ∀ t ps (c' : Grouped) b, P c' → P (handleCommitParts t ps c' b).2 := by
    intro t ps
    induction ps with
    | nil => intro c' b h; exact h
    | cons p ps ih =>
      intro c' b h
      obtain ⟨id, code⟩ := p
      obtain ⟨retry, adjust⟩ := b
      simp only [handleCommitParts]
      split
      · exact ih _ _ ⟨h.1, h.2.1, h.2.2.1, h.2.2.2.1, h.2.2.2.2.1,
          fun t ht => h.2.2.2.2.2 t (mem_discard.1 ht).1⟩
      · split
        · exact ih _ _ h
        · split
          · exact ih _ _ h
          · split
            · exact h
            · exact ih _ _ h
  have htopics : ∀ ts (c' : Grouped) b, P c' → P (handleCommitTopics ts c' b).2 := by
    intro ts
    induction ts with
    | nil => intro c' b h; exact h
    | cons x ts ih =>
      intro c' b h
      obtain ⟨t, ps⟩ := x
      have := hparts t ps c' b h
      simp only [handleCommitTopics]
      split
      · rename_i heq; rw [heq] at this; exact this
      · rename_i heq; rw [heq] at this; exact ih _ _ this
  exact htopics _ _ _ ⟨rfl, rfl, rfl, rfl, rfl, fun _ h => h⟩

/-- What holds of the consumer through a commit: `P` is kept by whatever changes it. -/
theorem commitSend_rel (env : SendEnv CommitResp) (P : Grouped → Prop)
    (hP : ∀ (c : Grouped) cl h, P c → P { c with cluster := cl, heal := h })
    (hH : ∀ r c, P c → P (handleCommitResponse r c).2) (c : Grouped) (h : P c) :
    P (c.sendCoordinator commitHandlers env).2 := by
  unfold Grouped.sendCoordinator
  split
  · exact h
  · refine sendTo_rel _ _ _ P hP ?_ h
    intro r f ho hf c hc
    simp only [commitHandlers, Option.some.injEq] at hf
    subst hf
    exact hP _ _ _ (hH r c hc)

/-- **C49**: the request goes to the coordinator and names, for each topic to commit that is in
the allocation, exactly the allocated partitions, at the consumer's offsets. -/
theorem C49_first (env : CommitEnv) (fuel : Nat) (name : String) (md : Option String) (c : Grouped)
    (a : Dict String (List Int)) (hm : c.ext.mapping = some a) :
    ((c.commit env (fuel + 1) name md).2.2).head? =
      some ⟨c.ext.coordinator, md.getD ("committed by " ++ name),
        commitOf c.ext.toCommit a c.offsets⟩ := by
  obtain ⟨k1, _⟩ := commitTopics_spec c.ext.toCommit a c.offsets
  simp only [Grouped.commit, Grouped.commitLoop, hm, k1]
  split
  · rfl
  · split <;> rfl

/-- **C49**, `consume`: unless the group was rebalanced meanwhile, a topic that was consumed is
among those to commit; with `autocommit` the first commit request is sent at once, and holds its
allocated partitions at the offsets the consumer has arrived at; otherwise none is sent. -/
theorem C49_consumed {β δ : Type} (gcfg : GCfg) (cfg : CCfg β δ) (env : GroupEnv β) (fuel : Nat)
    (topic : String) (c c1 : Grouped) (result : Option (List δ)) (acts : List CAct)
    (a : Dict String (List Int))
    (hdet : ¬ (c.closing = false ∧ topic ∉ c.synced ∧
      (c.determine cfg.plain env.offsets (fuel + 1) topic).1 = .running))
    (hbase : Consumer.consume Grouped.allocation
      (Grouped.determineRes cfg.plain env.offsets (fuel + 1) topic) cfg env.base topic c =
        (.ok result, c1, acts)) (hsync : topic ∈ c1.synced) (hm : c1.ext.mapping = some a) :
    ∃ toCommit, (∀ t, t ∈ toCommit ↔ t ∈ c1.ext.toCommit ∨ t = topic) ∧
      (gcfg.autocommit = true → (c.consume gcfg cfg env (fuel + 1) topic).2.2.2.head? =
        some ⟨c1.ext.coordinator, "committed by " ++ gcfg.name,
          commitOf toCommit a c1.offsets⟩) ∧
      (gcfg.autocommit = false → (c.consume gcfg cfg env (fuel + 1) topic) =
        (.done result, { c1 with ext := { c1.ext with toCommit := toCommit } }, acts, [])) := by
  refine ⟨addSet c1.ext.toCommit topic, fun t => ?_, fun ha => ?_, fun ha => ?_⟩
  · unfold addSet
    split
    · rename_i h
      refine ⟨.inl, fun h' => h'.elim id ?_⟩
      rintro rfl; exact h
    · simp
  · have h1 := C49_first env.commit fuel gcfg.name .none
      ({ c1 with ext := { c1.ext with toCommit := addSet c1.ext.toCommit topic } } : Grouped) a hm
    unfold Grouped.consume
    rw [if_neg hdet, hbase]
    simp only [not_true, if_false, hsync, ha, if_true]
    refine Eq.trans ?_ h1
    split <;> rename_i h2 <;> simp only [h2]
  · unfold Grouped.consume
    rw [if_neg hdet, hbase]
    simp [hsync, ha]

/-- **C49**: the same goes for the further attempts, which may leave out topics. -/
theorem C49_every (env : CommitEnv) (hT : ∀ n c, env.tick n c = c) (fuel : Nat) (name : String)
    (md : Option String) (c : Grouped) (a : Dict String (List Int))
    (hm : c.ext.mapping = some a) :
    ∀ req ∈ (c.commit env fuel name md).2.2, req.coordinator = c.ext.coordinator ∧
      ∃ s, (∀ t ∈ s, t ∈ c.ext.toCommit) ∧ req.topics = commitOf s a c.offsets := by
  let P : Grouped → Prop := fun c' => (∀ t p, offsetOf c'.offsets t p = offsetOf c.offsets t p) ∧
    c'.ext.mapping = some a ∧ c'.ext.coordinator = c.ext.coordinator ∧
    ∀ t ∈ c'.ext.toCommit, t ∈ c.ext.toCommit
  have key : ∀ fuel n md (c' : Grouped), P c' →
      ∀ req ∈ (Grouped.commitLoop env fuel n md c').2.2, req.coordinator = c.ext.coordinator ∧
        ∃ s, (∀ t ∈ s, t ∈ c.ext.toCommit) ∧ req.topics = commitOf s a c.offsets := by
    intro fuel
    induction fuel with
    | zero => intro n md c' _ req h; simp [Grouped.commitLoop] at h
    | succ fuel ih =>
      intro n md c' hP req hreq
      obtain ⟨k1, k2⟩ := commitTopics_spec c'.ext.toCommit a c'.offsets
      have hfirst : ∀ req : CommitReq, req = ⟨c'.ext.coordinator, md, (commitTopics c'.ext.toCommit a c'.offsets).1⟩ →
          req.coordinator = c.ext.coordinator ∧
          ∃ s, (∀ t ∈ s, t ∈ c.ext.toCommit) ∧ req.topics = commitOf s a c.offsets := by
        rintro req rfl
        exact ⟨hP.2.2.1, c'.ext.toCommit, hP.2.2.2, by
          rw [k1]; exact commitOf_congr (fun _ => Iff.rfl) hP.1⟩
      have hsend := commitSend_rel (env.send n) P (fun c cl h hc => hc) (fun r c1 hc1 => by
          obtain ⟨e1, e2, e3, _, _, e4⟩ := commitResponse_any r c1
          exact ⟨by rw [e1]; exact hc1.1, by rw [e2]; exact hc1.2.1, by rw [e3]; exact hc1.2.2.1,
            fun t ht => hc1.2.2.2 t (e4 t ht)⟩)
        { c' with offsets := (commitTopics c'.ext.toCommit a c'.offsets).2 }
        ⟨fun t p => by rw [k2]; exact hP.1 t p, hP.2⟩
      simp only [Grouped.commitLoop, hP.2.1, hT] at hreq
      split at hreq
      · exact hfirst req (by simpa using hreq)
      · rename_i heq
        rw [heq] at hsend
        split at hreq
        · rcases List.mem_cons.1 hreq with h | h
          · exact hfirst req h
          · exact ih _ _ _ hsend req h
        · exact hfirst req (by simpa using hreq)
  exact key _ _ _ c ⟨fun _ _ => rfl, hm, rfl, fun _ h => h⟩

/-- The first two requests, if the answer to the first asks for another attempt. -/
theorem commit_second (env : CommitEnv) (hT : ∀ n c, env.tick n c = c) (fuel : Nat)
    (name : String) (md : Option String) (c : Grouped) (a : Dict String (List Int)) (b : Int)
    (r : CommitResp) (hm : c.ext.mapping = some a) (hb : c.ext.coordinator = some b)
    (hh : c.cluster.conns.has b = true) (hw : (env.send 0).write = .none)
    (hwell : HealsWell (env.send 0)) (ho : (env.send 0).outcome = .ok r)
    (hk : ∀ t ∈ r.topics, ∀ p ∈ t.2, KnownCode p.2) (hA : Again r) :
    ∃ rest s, (∀ t, t ∈ s ↔ t ∈ c.ext.toCommit ∧ ¬ Succeeded r t) ∧
      (c.commit env (fuel + 2) name md).2.2 =
        ⟨some b, md.getD ("committed by " ++ name), commitOf c.ext.toCommit a c.offsets⟩ ::
        ⟨some b, if TooLarge r then "" else md.getD ("committed by " ++ name),
          commitOf s a c.offsets⟩ :: rest := by
  obtain ⟨c1, e1, e2, e3, e4, e5, e6, e7⟩ := commit_round env (fuel + 1) 0
    (md.getD ("committed by " ++ name)) c a b r hm hb hh hw hwell ho hk
  rw [if_pos hA, hT] at e7
  obtain ⟨k1, _⟩ := commitTopics_spec c1.ext.toCommit a c1.offsets
  have hsecond : ((Grouped.commitLoop env (fuel + 1) 1
      (if TooLarge r then "" else md.getD ("committed by " ++ name)) c1).2.2).head? =
      some ⟨some b, if TooLarge r then "" else md.getD ("committed by " ++ name),
        commitOf c1.ext.toCommit a c1.offsets⟩ := by
    simp only [Grouped.commitLoop, e1, k1, e2]
    split
    · rfl
    · split <;> rfl
  obtain ⟨rest, hrest⟩ := List.head?_eq_some_iff.1 hsecond
  refine ⟨rest, c1.ext.toCommit, e6, ?_⟩
  simp only [Grouped.commit, e7]
  rw [hrest, commitOf_congr (fun _ => Iff.rfl) e4]

/-- **C50**, partial: a partition whose commit failed with a retriable error is committed again,
at the same offset, if no other partition of its topic succeeded. -/
theorem C50_retried_partial (env : CommitEnv) (hT : ∀ n c, env.tick n c = c) (fuel : Nat)
    (name : String) (md : Option String) (c : Grouped) (a : Dict String (List Int)) (b : Int)
    (r : CommitResp) (hm : c.ext.mapping = some a) (hb : c.ext.coordinator = some b)
    (hh : c.cluster.conns.has b = true) (hw : (env.send 0).write = .none)
    (hwell : HealsWell (env.send 0)) (ho : (env.send 0).outcome = .ok r)
    (hk : ∀ t ∈ r.topics, ∀ p ∈ t.2, KnownCode p.2)
    (t : String) (ps : List Int) (rs : List (Int × Int)) (p code : Int) (hat : (t, ps) ∈ a)
    (hp : p ∈ ps) (ht : t ∈ c.ext.toCommit) (hr : (t, rs) ∈ r.topics) (hrp : (p, code) ∈ rs)
    (hcode : Retriable code) (hno : ¬ Succeeded r t) :
    ∃ req1 req2 rest, (c.commit env (fuel + 2) name md).2.2 = req1 :: req2 :: rest ∧
      req2.coordinator = some b ∧
      ∃ qs, (t, qs) ∈ req2.topics ∧ qs = ps.map (fun p => (p, offsetOf c.offsets t p)) ∧
        (p, offsetOf c.offsets t p) ∈ qs := by
  obtain ⟨rest, s, h1, h2⟩ := commit_second env hT fuel name md c a b r hm hb hh hw hwell ho hk
    ⟨_, hr, _, hrp, Or.inl hcode⟩
  refine ⟨_, _, rest, h2, rfl, ps.map (fun p => (p, offsetOf c.offsets t p)), ?_, rfl,
    List.mem_map.2 ⟨p, hp, rfl⟩⟩
  simp only [commitOf, List.mem_map, List.mem_filter, decide_eq_true_eq]
  exact ⟨(t, ps), ⟨hat, (h1 t).2 ⟨ht, hno⟩⟩, rfl⟩

/-- **C50**: but once one partition of a topic succeeded, no partition of it is committed by the
retry, whether or not it failed. -/
theorem C50_dropped (env : CommitEnv) (hT : ∀ n c, env.tick n c = c) (fuel : Nat)
    (name : String) (md : Option String) (c : Grouped) (a : Dict String (List Int)) (b : Int)
    (r : CommitResp) (hm : c.ext.mapping = some a) (hb : c.ext.coordinator = some b)
    (hh : c.cluster.conns.has b = true) (hw : (env.send 0).write = .none)
    (hwell : HealsWell (env.send 0)) (ho : (env.send 0).outcome = .ok r)
    (hk : ∀ t ∈ r.topics, ∀ p ∈ t.2, KnownCode p.2) (hA : Again r) (t : String)
    (ht : Succeeded r t) :
    ∃ req1 req2 rest, (c.commit env (fuel + 2) name md).2.2 = req1 :: req2 :: rest ∧
      ∀ qs, (t, qs) ∉ req2.topics := by
  obtain ⟨rest, s, h1, h2⟩ := commit_second env hT fuel name md c a b r hm hb hh hw hwell ho hk hA
  refine ⟨_, _, rest, h2, ?_⟩
  intro qs hqs
  simp only [commitOf, List.mem_map, List.mem_filter, decide_eq_true_eq] at hqs
  obtain ⟨e, ⟨_, he⟩, heq⟩ := hqs
  simp only [Prod.mk.injEq] at heq
  rw [heq.1] at he
  exact ((h1 t).1 he).2 ht

/-- **C51**, partial: if the metadata is too large for some partition the commit is retried with
blank metadata, and the rest of it the same, topics that succeeded aside. -/
theorem C51_blank_partial (env : CommitEnv) (hT : ∀ n c, env.tick n c = c) (fuel : Nat)
    (name : String) (md : Option String) (c : Grouped) (a : Dict String (List Int)) (b : Int)
    (r : CommitResp) (hm : c.ext.mapping = some a) (hb : c.ext.coordinator = some b)
    (hh : c.cluster.conns.has b = true) (hw : (env.send 0).write = .none)
    (hwell : HealsWell (env.send 0)) (ho : (env.send 0).outcome = .ok r)
    (hk : ∀ t ∈ r.topics, ∀ p ∈ t.2, KnownCode p.2)
    (t : String) (rs : List (Int × Int)) (p : Int) (hr : (t, rs) ∈ r.topics)
    (hrp : (p, 12) ∈ rs) (hno : ∀ t ∈ c.ext.toCommit, ¬ Succeeded r t) :
    ∃ rest, (c.commit env (fuel + 2) name md).2.2 =
      ⟨some b, md.getD ("committed by " ++ name), commitOf c.ext.toCommit a c.offsets⟩ ::
      ⟨some b, "", commitOf c.ext.toCommit a c.offsets⟩ :: rest := by
  have hT' : TooLarge r := ⟨_, hr, _, hrp, rfl⟩
  obtain ⟨rest, s, h1, h2⟩ := commit_second env hT fuel name md c a b r hm hb hh hw hwell ho hk
    ⟨_, hr, _, hrp, Or.inr rfl⟩
  refine ⟨rest, ?_⟩
  rw [h2, if_pos hT', commitOf_congr (s := s) (s' := c.ext.toCommit) ?_ (fun _ _ => rfl)]
  intro t
  rw [h1]
  exact ⟨And.left, fun h => ⟨h, hno t h⟩⟩

/-- **C51**: metadata that was not found too large is kept by the retry. -/
theorem C51_kept (env : CommitEnv) (hT : ∀ n c, env.tick n c = c) (fuel : Nat)
    (name : String) (md : Option String) (c : Grouped) (a : Dict String (List Int)) (b : Int)
    (r : CommitResp) (hm : c.ext.mapping = some a) (hb : c.ext.coordinator = some b)
    (hh : c.cluster.conns.has b = true) (hw : (env.send 0).write = .none)
    (hwell : HealsWell (env.send 0)) (ho : (env.send 0).outcome = .ok r)
    (hk : ∀ t ∈ r.topics, ∀ p ∈ t.2, KnownCode p.2) (hA : Again r) (hn : ¬ TooLarge r) :
    ∃ req1 req2 rest, (c.commit env (fuel + 2) name md).2.2 = req1 :: req2 :: rest ∧
      req1.metadata = md.getD ("committed by " ++ name) ∧ req2.metadata = req1.metadata := by
  obtain ⟨rest, s, h1, h2⟩ := commit_second env hT fuel name md c a b r hm hb hh hw hwell ho hk hA
  refine ⟨_, _, rest, h2, rfl, by simp [hn]⟩

/-- **C51**: if there are only successes and fatal codes, there is no retry; `commit_offsets`
returns, and the topics with a success no longer need a commit. -/
theorem C51_fatal (env : CommitEnv) (hT : ∀ n c, env.tick n c = c) (fuel : Nat)
    (name : String) (md : Option String) (c : Grouped) (a : Dict String (List Int)) (b : Int)
    (r : CommitResp) (hm : c.ext.mapping = some a) (hb : c.ext.coordinator = some b)
    (hh : c.cluster.conns.has b = true) (hw : (env.send 0).write = .none)
    (hwell : HealsWell (env.send 0)) (ho : (env.send 0).outcome = .ok r)
    (hk : ∀ t ∈ r.topics, ∀ p ∈ t.2, KnownCode p.2)
    (hA : ∀ t ∈ r.topics, ∀ p ∈ t.2, p.2 = 0 ∨ (Fatal p.2 ∧ p.2 ≠ 12)) :
    (c.commit env (fuel + 1) name md).1 = .done () ∧
    (c.commit env (fuel + 1) name md).2.2.length = 1 ∧
    ∀ t, t ∈ (c.commit env (fuel + 1) name md).2.1.ext.toCommit ↔
      t ∈ c.ext.toCommit ∧ ¬ Succeeded r t := by
  obtain ⟨c1, e1, e2, e3, e4, e5, e6, e7⟩ := commit_round env fuel 0
    (md.getD ("committed by " ++ name)) c a b r hm hb hh hw hwell ho hk
  have hA' : ¬ Again r := by
    rintro ⟨t, ht, p, hp, h⟩
    rcases hA t ht p hp with h0 | h0
    · rw [h0] at h; exact absurd h (by decide)
    · rcases h with h | h
      · exact h0.1.2 h
      · exact h0.2 h
  rw [if_neg hA', hT] at e7
  simp only [Grouped.commit, e7]
  exact ⟨trivial, rfl, e6⟩

/-- **C51**: a code the client does not know is a `KeyError`, and not retried. -/
theorem C51_unknown (env : CommitEnv) (fuel : Nat)
    (name : String) (md : Option String) (c : Grouped) (a : Dict String (List Int)) (b : Int)
    (r : CommitResp) (hm : c.ext.mapping = some a) (hb : c.ext.coordinator = some b)
    (hh : c.cluster.conns.has b = true) (hw : (env.send 0).write = .none)
    (ho : (env.send 0).outcome = .ok r)
    (hk : ∃ t ∈ r.topics, ∃ p ∈ t.2, ¬ KnownCode p.2) :
    (c.commit env (fuel + 1) name md).1 = .raised .keyError ∧
    (c.commit env (fuel + 1) name md).2.2.length = 1 := by
  have hparts : ∀ t (ps : List (Int × Int)) (c : Grouped) b, (∃ p ∈ ps, ¬ KnownCode p.2) →
      ∃ c', handleCommitParts t ps c b = (.error .keyError, c') := by
    intro t ps
    induction ps with
    | nil => rintro c b ⟨p, hp, _⟩; simp at hp
    | cons q ps ih =>
      intro c b hq
      obtain ⟨id, code⟩ := q
      obtain ⟨retry, adjust⟩ := b
      simp only [List.mem_cons, exists_eq_or_imp] at hq
      simp only [handleCommitParts]
      have tl : KnownCode code → ∃ p ∈ ps, ¬ KnownCode p.2 := fun h =>
        hq.resolve_left (fun hn => hn h)
      split
      · rename_i h0; exact ih _ _ (tl (by rw [h0]; decide +kernel))
      · split
        · rename_i h0
          refine ih _ _ (tl ?_)
          revert h0
          simp only [Err.retriable, List.mem_cons, List.not_mem_nil, or_false]
          rintro (h | h | h | h | h | h | h | h | h | h) <;> (rw [h]; decide +kernel)
        · split
          · rename_i h0; exact ih _ _ (tl (by rw [h0]; decide +kernel))
          · split
            · exact ⟨c, rfl⟩
            · rename_i h0
              exact ih _ _ (tl (Decidable.byContradiction fun hn => by
                rw [(errorCodes_none _).2 hn] at h0; simp at h0))
  have htopics : ∀ (ts : List (String × List (Int × Int))) (c : Grouped) b,
      (∃ t ∈ ts, ∃ p ∈ t.2, ¬ KnownCode p.2) →
      ∃ c', handleCommitTopics ts c b = (.error .keyError, c') := by
    intro ts
    induction ts with
    | nil => rintro c b ⟨p, hp, _⟩; simp at hp
    | cons x ts ih =>
      intro c b hq
      obtain ⟨t, ps⟩ := x
      simp only [handleCommitTopics]
      by_cases hps : ∃ p ∈ ps, ¬ KnownCode p.2
      · obtain ⟨c', h⟩ := hparts t ps c b hps
        exact ⟨c', by rw [h]⟩
      · obtain ⟨s, h, g1, _⟩ := handleCommitParts_spec t ps c b (fun p hp =>
          Decidable.byContradiction fun hn => hps ⟨p, hp, hn⟩)
        rw [g1]
        refine ih _ _ ?_
        simp only [List.mem_cons, exists_eq_or_imp] at hq
        exact hq.resolve_left hps
  obtain ⟨c', h1⟩ := htopics r.topics
    { c with offsets := (commitTopics c.ext.toCommit a c.offsets).2, heal := false } (false, false) hk
  have h2 := sendTo_raises (hs := commitHandlers) (env := env.send 0) (b := b)
    (c := { c with offsets := (commitTopics c.ext.toCommit a c.offsets).2 }) ⟨hh, hw⟩ ho rfl
    (show _ = ((.error .keyError : Res (Bool × Bool)),
        (⟨c'.cluster, c'.offsets, c'.synced, false, c'.closing, c'.ext⟩ : Grouped), c'.heal) by
      simp only [handleCommitResponse, h1])
  simp only [Grouped.commit, Grouped.commitLoop, hm, Grouped.sendCoordinator, hb, h2]
  exact ⟨trivial, rfl⟩

end Kiel
