import Verif.Spec.Offsets
import Verif.Props.Single
import Verif.Lemmas.Grouped
/-
C77: where a single consumer starts.
-/
set_option autoImplicit false
namespace Kiel
open Spec

variable {β δ : Type}

theorem afterAnswer_nil (p o : Int) : afterAnswer [] p o = o := rfl

theorem afterAnswer_cons (q : OPart) (ps : List OPart) (p o : Int) :
    afterAnswer (q :: ps) p o = afterAnswer ps p (if q.id = p then
      (match reported q with
       | some x => if 0 ≤ x then x else o
       | .none => o) else o) := by
  unfold afterAnswer
  by_cases h : q.id = p
  · rw [if_pos h]
    have hp : decide (q.id = p) = true := by simpa using h
    rw [List.filter_cons, if_pos hp]
    cases hr : reported q with
    | none => simp [hr]
    | some x =>
      by_cases hx : 0 ≤ x
      · rw [List.filterMap_cons]
        simp only [hr, Option.filter, hx, decide_true, if_true]
        rw [List.getLast?_cons]
        simp
      · rw [List.filterMap_cons]
        simp [hr, Option.filter, hx]
  · have hp : ¬ decide (q.id = p) = true := by simpa using h
    rw [if_neg h, List.filter_cons, if_neg hp]

theorem handleOffsetParts_ok (t : String) (ps rest : List OPart) (c : Single)
    (hf : ∀ q ∈ ps, ¬ Fatal q.code) (ho : ∀ q ∈ ps, q.code = 0 → q.offsets ≠ []) :
    ∃ o s h, handleOffsetParts t (ps ++ rest) c =
        handleOffsetParts t rest { c with offsets := o, synced := s, heal := h } ∧
      (∀ t' p, offsetOf o t' p =
        if t' = t then afterAnswer ps p (offsetOf c.offsets t' p) else offsetOf c.offsets t' p) ∧
      (∀ t', t' ∈ s ↔ t' ∈ c.synced ∧ ¬ (t' = t ∧ ∃ q ∈ ps, Retriable q.code)) ∧
      (h = true ↔ c.heal = true ∨ ∃ q ∈ ps, Retriable q.code) := by
  induction ps generalizing c with
  | nil =>
    refine ⟨c.offsets, c.synced, c.heal, rfl, ?_, by simp, by simp⟩
    intro t' p; split <;> rfl
  | cons q ps ih =>
    simp only [List.mem_cons, forall_eq_or_imp] at hf ho
    by_cases h0 : q.code = 0
    · have hne := ho.1 h0
      have hnr : ¬ Retriable q.code := by rw [h0]; decide
      obtain ⟨x, xs, hx⟩ := List.exists_cons_of_ne_nil hne
      obtain ⟨o, s, h, g1, g2, g3, g4⟩ := ih
        (if x ≥ 0 then { c with offsets := c.offsets.put t q.id x } else c) hf.2 ho.2
      refine ⟨o, s, h, ?_, ?_, ?_, ?_⟩
      · have h0' : q.code = Err.noError := h0
        rw [List.cons_append, handleOffsetParts, if_pos h0', hx]
        simp only
        rw [g1]
        split <;> rfl
      · intro t' p
        rw [g2]
        have hrep : reported q = some x := by simp [reported, h0, hx]
        simp only [afterAnswer_cons, hrep]
        by_cases ht : t' = t
        · subst ht
          simp only [if_true]
          congr 1
          by_cases hx0 : x ≥ 0
          · simp only [hx0, if_true, offsetOf_put, true_and]
          · simp only [hx0, if_false]
            split <;> rfl
        · simp only [ht, if_false]
          by_cases hx0 : x ≥ 0
          · simp only [hx0, if_true, offsetOf_put]
            rw [if_neg]
            rintro ⟨e, _⟩
            exact ht e.symm
          · simp only [hx0, if_false]
      · intro t'
        rw [g3]
        simp only [List.mem_cons, exists_eq_or_imp, hnr, false_or]
        split <;> rfl
      · rw [g4]
        simp only [List.mem_cons, exists_eq_or_imp, hnr, false_or]
        split <;> rfl
    · have hr : Retriable q.code := by
        by_contra hr
        exact hf.1 ⟨h0, hr⟩
      have hr' : q.code ∈ Err.retriable := hr
      obtain ⟨o, s, h, g1, g2, g3, g4⟩ := ih
        { c with heal := true, synced := discard c.synced t } hf.2 ho.2
      refine ⟨o, s, h, ?_, ?_, ?_, ?_⟩
      · have h0' : ¬ q.code = Err.noError := h0
        rw [List.cons_append, handleOffsetParts, if_neg h0', if_pos hr', g1]
      · intro t' p
        have hrep : reported q = .none := by simp [reported, h0]
        rw [g2]
        simp only [afterAnswer_cons, hrep]
        split
        · congr 1; split <;> rfl
        · rfl
      · intro t'
        rw [g3]
        simp only [mem_discard, List.mem_cons, exists_eq_or_imp, hr, true_or, and_true]
        tauto
      · rw [g4]
        simp [hr]

/-- **C77**: an answer to an offset request without fatal codes sets exactly the offsets of the
partitions for which it reports one (the first it lists, if that is not negative); exactly if it
reports a retriable error for some partition, the topic's offsets are to be determined again and
the cluster to be healed. -/
theorem C77_adopted (t : String) (ps : List OPart) (more : List (String × List OPart)) (c : Single)
    (hf : ∀ q ∈ ps, ¬ Fatal q.code) (ho : ∀ q ∈ ps, q.code = 0 → q.offsets ≠ []) :
    ∃ c', handleOffsetResponse ⟨(t, ps) :: more⟩ c = (.ok (), c') ∧
      (∀ t' p, offsetOf c'.offsets t' p =
        if t' = t then afterAnswer ps p (offsetOf c.offsets t' p) else offsetOf c.offsets t' p) ∧
      (∀ t', t' ∈ c'.synced ↔ t' ∈ c.synced ∧ ¬ (t' = t ∧ ∃ q ∈ ps, Retriable q.code)) ∧
      (c'.heal = true ↔ c.heal = true ∨ ∃ q ∈ ps, Retriable q.code) ∧
      c'.cluster = c.cluster ∧ c'.closing = c.closing := by
  obtain ⟨o, s, h, g1, g2, g3, g4⟩ := handleOffsetParts_ok t ps [] c hf ho
  rw [List.append_nil] at g1
  exact ⟨_, g1, g2, g3, g4, rfl, rfl⟩

/-- **C77**: a fatal code is a `NoOffsetsError`, after which `consume` returns an empty list
(`C44_no_offsets`); the partitions before it are adopted, those after it are not. -/
theorem C77_fatal (t : String) (pre post : List OPart) (q : OPart)
    (more : List (String × List OPart)) (c : Single) (hf : ∀ q ∈ pre, ¬ Fatal q.code)
    (ho : ∀ q ∈ pre, q.code = 0 → q.offsets ≠ []) (hq : Fatal q.code) (hk : KnownCode q.code) :
    ∃ c', handleOffsetResponse ⟨(t, pre ++ q :: post) :: more⟩ c = (.error .noOffsets, c') ∧
      (∀ t' p, offsetOf c'.offsets t' p =
        if t' = t then afterAnswer pre p (offsetOf c.offsets t' p) else offsetOf c.offsets t' p) ∧
      (∀ t', t' ∈ c'.synced ↔ t' ∈ c.synced ∧ ¬ (t' = t ∧ ∃ q ∈ pre, Retriable q.code)) := by
  obtain ⟨o, s, h, g1, g2, g3, _⟩ := handleOffsetParts_ok t pre (q :: post) c hf ho
  refine ⟨{ c with offsets := o, synced := s, heal := h }, ?_, g2, g3⟩
  have h0 : ¬ q.code = Err.noError := hq.1
  have h1 : ¬ q.code ∈ Err.retriable := hq.2
  obtain ⟨n, hn⟩ : ∃ n, errorCodes.get? q.code = some n := by
    cases hn : errorCodes.get? q.code with
    | none => exact absurd hk ((errorCodes_none _).1 hn)
    | some n => exact ⟨n, rfl⟩
  simp only [handleOffsetResponse, g1, handleOffsetParts, if_neg h0, if_neg h1, hn]

/-- **C77**: an answer that lists no offset is an `IndexError`. -/
theorem C77_empty (t : String) (pre post : List OPart) (q : OPart)
    (more : List (String × List OPart)) (c : Single) (hf : ∀ q ∈ pre, ¬ Fatal q.code)
    (ho : ∀ q ∈ pre, q.code = 0 → q.offsets ≠ []) (hq : q.code = 0) (he : q.offsets = []) :
    (handleOffsetResponse ⟨(t, pre ++ q :: post) :: more⟩ c).1 = .error .indexError := by
  obtain ⟨o, s, h, g1, _⟩ := handleOffsetParts_ok t pre (q :: post) c hf ho
  simp only [handleOffsetResponse, g1]
  have h0 : q.code = Err.noError := hq
  rw [handleOffsetParts, if_pos h0, he]

/-! ### From the answers to the fetch -/

theorem handleOffsetParts_all (t : String) (o : Int → Int) (ho : ∀ p, 0 ≤ o p) (ps : List OPart)
    (c : Single) (h : ∀ x ∈ ps, reported x = some (o x.id)) :
    ∃ o', handleOffsetParts t ps c = (.ok (), { c with offsets := o' }) ∧
      ∀ t' p, offsetOf o' t' p = if t' = t ∧ p ∈ ps.map (·.id) then o p else offsetOf c.offsets t' p := by
  induction ps generalizing c with
  | nil => exact ⟨c.offsets, rfl, by simp⟩
  | cons q ps ih =>
    simp only [List.mem_cons, forall_eq_or_imp] at h
    have hq := h.1
    unfold reported at hq
    split at hq
    · rename_i h0
      have h0' : q.code = Err.noError := h0
      cases hx : q.offsets with
      | nil => rw [hx] at hq; simp at hq
      | cons x xs =>
        rw [hx] at hq
        simp only [List.head?_cons, Option.some.injEq] at hq
        subst hq
        obtain ⟨o', g1, g2⟩ := ih { c with offsets := c.offsets.put t q.id (o q.id) } h.2
        refine ⟨o', ?_, ?_⟩
        · rw [handleOffsetParts, if_pos h0', hx]
          simp only
          rw [if_pos (ho q.id), g1]
        · intro t' p
          rw [g2]
          simp only [offsetOf_put, List.map_cons, List.mem_cons]
          by_cases ht : t' = t
          · subst ht
            by_cases hp : p ∈ ps.map (·.id)
            · simp [hp]
            · by_cases he : p = q.id
              · subst he; simp
              · simp [hp, he, Ne.symm he]
          · simp [ht, Ne.symm ht]
    · simp at hq

theorem sendLoop_offsets (t : String) (o : Int → Int) (ho : ∀ p, 0 ≤ o p)
    (outs : List (Int × Res OResp)) (c : Single) (results : Dict Int Unit) (hh : c.heal = false)
    (h : ∀ x ∈ outs, ∃ (q : OReq) (r : OResp), q.topic = t ∧ x = (q.broker, .ok r) ∧
      AnswersAll o q r) :
    ∃ res o', sendLoop offsetHandlers outs results c false =
        (.ok res, { c with offsets := o', heal := false }, false) ∧
      (∀ t' p, offsetOf o' t' p = offsetOf c.offsets t' p ∨ t' = t ∧ offsetOf o' t' p = o p) ∧
      ∀ (q : OReq) (r : OResp) (p : Int), (q.broker, .ok r) ∈ outs → AnswersAll o q r →
        q.topic = t → p ∈ q.parts → offsetOf o' t p = o p := by
  induction outs generalizing c results with
  | nil =>
    exact ⟨results, c.offsets, by rw [← hh]; rfl, fun _ _ => .inl rfl, by simp⟩
  | cons x outs ih =>
    simp only [List.mem_cons, forall_eq_or_imp] at h
    obtain ⟨⟨q, r, hqt, rfl, ps, h1, h2, h3⟩, hrest⟩ := h
    obtain ⟨o1, g1, g2⟩ := handleOffsetParts_all t o ho ps c h3
    obtain ⟨res, o', k1, k2, k3⟩ := ih { c with offsets := o1, heal := false }
      (results.set q.broker ()) rfl hrest
    refine ⟨res, o', ?_, ?_, ?_⟩
    · simp only [sendLoop, offsetHandlers, handleOffsetResponse, h1, hqt, g1, hh, Bool.or_false]
      exact k1
    · intro t' p
      rcases k2 t' p with e | e
      · rw [e]
        simp only [g2]
        split
        · rename_i hc; exact .inr ⟨hc.1, rfl⟩
        · exact .inl rfl
      · exact .inr e
    · intro q' r' p hm ha ht hp
      rcases List.mem_cons.1 hm with e | e
      · simp only [Prod.mk.injEq, Except.ok.injEq] at e
        obtain ⟨_, rfl⟩ := e
        obtain ⟨ps', e1, e2, _⟩ := ha
        rw [h1] at e1
        simp only [List.cons.injEq, Prod.mk.injEq, and_true] at e1
        obtain ⟨_, rfl⟩ := e1
        rcases k2 t p with e | e
        · rw [e]
          simp only [g2]
          rw [if_pos ⟨trivial, (e2 p).2 hp⟩]
        · exact e.2
      · exact k3 q' r' p e ha ht hp

theorem sendStart_ok (known : Int → Bool) (write : Int → Option Exc) (bs : List Int)
    (hk : ∀ b ∈ bs, known b = true) (hw : ∀ b ∈ bs, write b = .none) :
    sendStart known write bs = .none := by
  induction bs with
  | nil => rfl
  | cons b bs ih =>
    simp only [List.mem_cons, forall_eq_or_imp] at hk hw
    simp [sendStart, hk.1, hw.1, ih hk.2 hw.2]

theorem determine_all (env : OffsetEnv) (t : String) (start : Start) (c : Single) (i : Int)
    (hs : stampOf start = some i) (hh : c.heal = false)
    (hl : ∀ p ∈ (c.cluster.topics.get? t).getD [], ∃ l, leaderOf c.cluster t p = some l ∧
      c.cluster.conns.has l = true)
    (hw : ∀ b, env.write b = .none) (o : Int → Int) (ho : ∀ p, 0 ≤ o p)
    (hperm : ∀ reqs, ((env.outcomes reqs).map (·.1)).Perm (reqs.map (·.broker)))
    (hans : ∀ reqs, ∀ x ∈ env.outcomes reqs, ∃ q ∈ reqs, ∃ r, x = (q.broker, .ok r) ∧
      AnswersAll o q r) :
    ∃ c1, c.determine env t start = (.ok (), c1) ∧ SameView c.cluster c1.cluster ∧
      c1.closing = c.closing ∧ c1.synced = c.synced ∧
      ∀ p ∈ (c.cluster.topics.get? t).getD [], offsetOf c1.offsets t p = o p := by
  have hl' : ∀ p ∈ (c.cluster.topics.get? t).getD [], ∃ l, leaderOf c.cluster t p = some l :=
    fun p hp => by obtain ⟨l, h, _⟩ := hl p hp; exact ⟨l, h⟩
  have hex := C43_requests_partial env t start c i hs hl'
  unfold Single.determine
  unfold Single.determineSent at hex ⊢
  simp only at hex ⊢
  cases hg : groupByLeader t (c.cluster.topics.getDefault t []).2
      { c.cluster with topics := (c.cluster.topics.getDefault t []).1 } [] with
  | mk res cl' =>
    have hg' := hg
    rw [getDefault_val] at hg'
    obtain ⟨hv, _, g2, _⟩ := groupByLeader_spec t _ c.cluster
      { c.cluster with topics := (c.cluster.topics.getDefault t []).1 } cl'
      ⟨rfl, fun t' => getDefault_getD _ t t' [], fun _ => rfl⟩ [] res (by simp [Dict.keys]) (by simp) hg'
    obtain ⟨g, rfl⟩ := g2 (by
      intro p hp
      obtain ⟨l, h⟩ := hl' p hp
      rw [h]; rfl)
    rw [hg] at hex
    simp only at hex ⊢
    have htime : startToTimestamp env.now start = .int i := by
      cases start <;> simp_all [stampOf, startToTimestamp, endOffset]
    rw [htime] at hex ⊢
    generalize hreqs : (g.map fun e => (⟨e.1, t, .int i, e.2⟩ : OReq)) = reqs at hex ⊢
    have hE : OffsetsExactly c.cluster t ((c.cluster.topics.get? t).getD []) (.int i) reqs := by
      split at hex <;> exact hex
    have hknown : ∀ b ∈ reqs.map (·.broker), cl'.conns.has b = true := by
      intro b hb
      obtain ⟨q, hq, rfl⟩ := List.mem_map.1 hb
      have hne := hE.nonempty q hq
      obtain ⟨p, hp⟩ := List.exists_mem_of_ne_nil _ hne
      rw [hE.named q hq, List.mem_filter, decide_eq_true_eq] at hp
      obtain ⟨l, h1, h2⟩ := hl p hp.1
      rw [hp.2, Option.some.injEq] at h1
      rw [hv.conns, h1]
      exact h2
    have hwrite : ∀ b ∈ reqs.map (·.broker), offsetWrite env.write reqs b = .none := by
      intro b _
      unfold offsetWrite
      split
      · rename_i f
        have := List.mem_of_find?_eq_some f
        have := (hE.fields _ this).2
        simp at this
      · exact hw b
    rw [clientSend, sendStart_ok _ _ _ hknown hwrite]
    obtain ⟨res, o', k1, k2, k3⟩ := sendLoop_offsets t o ho (env.outcomes reqs)
      { c with cluster := cl', heal := false } [] rfl (by
        intro x hx
        obtain ⟨q, hq, r, h1, h2⟩ := hans reqs x hx
        exact ⟨q, r, (hE.fields q hq).1, h1, h2⟩)
    rw [hh]
    simp only [k1]
    refine ⟨_, rfl, hv, rfl, rfl, ?_⟩
    intro p hp
    obtain ⟨q, hq, hlq⟩ := hE.all p hp
    have hqp : p ∈ q.parts := by
      rw [hE.named q hq, List.mem_filter, decide_eq_true_eq]
      exact ⟨hp, hlq⟩
    have hb : q.broker ∈ (env.outcomes reqs).map (·.1) :=
      (hperm reqs).mem_iff.2 (List.mem_map.2 ⟨q, hq, rfl⟩)
    obtain ⟨x, hx, hxb⟩ := List.mem_map.1 hb
    obtain ⟨q', hq', r, rfl, ha⟩ := hans reqs x hx
    have : q' = q := List.inj_on_of_nodup_map hE.brokers hq' hq hxb
    subst this
    exact k3 q' r p hx ha (hE.fields q' hq').1 hqp

/-- **C77**, end to end: a consumer that does not have its offsets for a topic asks for them, and
if every leader reports for each partition the offset `o` (the first of those listed), then its
fetch requests ask each partition from just that offset on. -/
theorem C77_starts (cfg : CCfg β δ) (oenv : OffsetEnv) (env : ConsumeEnv Unit β) (t : String)
    (start : Start) (c : Single) (i : Int) (parts : List Int) (o : Int → Int)
    (hs : stampOf start = some i) (hc : c.closing = false) (hh : c.heal = false)
    (hsy : t ∉ c.synced) (hp : c.cluster.topics.get? t = some parts) (hne : parts ≠ [])
    (hl : ∀ p ∈ parts, ∃ l, leaderOf c.cluster t p = some l ∧ c.cluster.conns.has l = true)
    (hw : ∀ b, oenv.write b = .none) (ho : ∀ p, 0 ≤ o p)
    (hperm : ∀ reqs, ((oenv.outcomes reqs).map (·.1)).Perm (reqs.map (·.broker)))
    (hans : ∀ reqs, ∀ x ∈ oenv.outcomes reqs, ∃ q ∈ reqs, ∃ r, x = (q.broker, .ok r) ∧
      AnswersAll o q r)
    (ht : ∀ c, env.tick 0 c = c) :
    ∃ reqs, (c.consume cfg oenv env t start).2.2 = [.determine, .fetch reqs] ∧
      (∀ p ∈ parts, ∃ r ∈ reqs, ∃ f ∈ r.parts, f.id = p) ∧
      ∀ r ∈ reqs, ∀ f ∈ r.parts, f.id ∈ parts ∧ f.offset = o f.id := by
  have hget : (c.cluster.topics.get? t).getD [] = parts := by rw [hp]; rfl
  obtain ⟨c1, h1, h2, h3, h4, h5⟩ := determine_all oenv t start c i hs hh (by rw [hget]; exact hl)
    hw o ho hperm hans
  rw [hget] at h5
  have hleader : ∀ p, leaderOf c1.cluster t p = leaderOf c.cluster t p := by
    intro p
    have := h2.leaders t
    unfold leaderOf
    rw [show c1.cluster.leaders.get? t = _ from rfl]
    cases e1 : c1.cluster.leaders.get? t <;> cases e2 : c.cluster.leaders.get? t <;>
      simp_all [Dict.get?]
  have htop : c1.cluster.topics.get? t = some parts := by
    have := h2.topics t
    rw [hget] at this
    cases e : c1.cluster.topics.get? t with
    | none => rw [e] at this; exact absurd this.symm hne
    | some x => rw [e] at this; simpa using this
  obtain ⟨reqs, k1, k2⟩ := C36_fetches Single.allocation
    (Single.determine oenv t start) cfg env t ({ c1 with synced := addSet c1.synced t } : Single) c1.cluster.topics parts
    (by rw [← hc]; exact h3) ((mem_addSet _ _ _).2 (.inl rfl)) rfl htop hne
    (fun p hp => by obtain ⟨l, h, _⟩ := hl p hp; exact ⟨l, by rw [hleader]; exact h⟩)
  refine ⟨reqs, ?_, ?_, ?_⟩
  · have hsyn : t ∈ addSet c1.synced t := (mem_addSet _ _ _).2 (.inl rfl)
    unfold Single.consume Consumer.consume
    simp only [hc, hsy, Bool.false_eq_true, if_false, h1, ht]
    unfold Consumer.consume at k1
    have hc1 : c1.closing = false := by rw [← hc]; exact h3
    simp only [hc1, hsyn, Bool.false_eq_true, if_false, if_true] at k1
    simp only [hc1, k1]
  · intro p hp
    obtain ⟨r, hr, hlr⟩ := k2.all p hp
    have : p ∈ r.parts.map (·.id) := by
      rw [k2.named r hr, List.mem_filter, decide_eq_true_eq]
      exact ⟨hp, hlr⟩
    obtain ⟨f, hf, he⟩ := List.mem_map.1 this
    exact ⟨r, hr, f, hf, he⟩
  · intro r hr f hf
    have hn : f.id ∈ r.parts.map (·.id) := List.mem_map.2 ⟨f, hf, rfl⟩
    rw [k2.named r hr, List.mem_filter] at hn
    refine ⟨hn.1, ?_⟩
    rw [k2.offsets r hr f hf]
    exact h5 _ hn.1

/-! ### Concrete cases -/

-- Non-vacuity of C77_adopted: one offset adopted (the first of two), one negative, one error.
example : handleOffsetResponse ⟨[("t", [⟨0, 0, [40, 3]⟩, ⟨1, 0, [-1]⟩, ⟨2, 6, []⟩])]⟩
      { exConsumer with offsets := [("t", [(1, 9), (2, 8)])] } =
    (.ok (), { exConsumer with
      offsets := [("t", [(1, 9), (2, 8), (0, 40)])], synced := [], heal := true }) := by
  decide +kernel

-- Non-vacuity of C77_fatal and C77_empty.
example : handleOffsetResponse ⟨[("t", [⟨0, 0, [40]⟩, ⟨1, 1, []⟩, ⟨2, 0, [7]⟩])]⟩ exConsumer =
    (.error .noOffsets, { exConsumer with offsets := [("t", [(0, 40)])] }) := by decide +kernel

example : (handleOffsetResponse ⟨[("t", [⟨0, 0, []⟩])]⟩ exConsumer).1 = .error .indexError := by
  decide +kernel

-- Non-vacuity of C77_starts: two leaders, three partitions; its conclusion, computed.
example : ∃ c : Single, stampOf .unset = some (-1) ∧ c.closing = false ∧ c.heal = false ∧
    "t" ∉ c.synced ∧ c.cluster.topics.get? "t" = some [0, 1, 2] ∧
    (∀ p ∈ [0, 1, 2], ∃ l, leaderOf c.cluster "t" p = some l ∧ c.cluster.conns.has l = true) ∧
    (∀ b, (exOffsets 0 [40]).write b = .none) ∧
    (∀ reqs, (((exOffsets 0 [40]).outcomes reqs).map (·.1)).Perm (reqs.map (·.broker))) ∧
    (∀ reqs, ∀ x ∈ (exOffsets 0 [40]).outcomes reqs, ∃ q ∈ reqs, ∃ r, x = (q.broker, .ok r) ∧
      AnswersAll (fun _ => 40) q r) ∧
    (c.consume exCCfg (exOffsets 0 [40]) (exServe fun _ => []) "t" .unset).2.2 =
      [.determine, .fetch [⟨7, 1000, 1, "t", [⟨0, 40, 50⟩, ⟨2, 40, 50⟩]⟩,
        ⟨8, 1000, 1, "t", [⟨1, 40, 100⟩]⟩]] := by
  refine ⟨{ exConsumer with
      cluster := ⟨[(7, ⟨"h", 1, false⟩), (8, ⟨"i", 2, false⟩)], [("t", [0, 1, 2])],
        [("t", [(0, 7), (1, 8), (2, 7)])]⟩
      synced := [] }, rfl, rfl, rfl, by simp, by decide +kernel, ?_, fun _ => rfl, ?_, ?_,
    by decide +kernel⟩
  · intro p hp
    simp only [List.mem_cons, List.not_mem_nil, or_false] at hp
    rcases hp with rfl | rfl | rfl
    · exact ⟨7, by decide +kernel, by decide +kernel⟩
    · exact ⟨8, by decide +kernel, by decide +kernel⟩
    · exact ⟨7, by decide +kernel, by decide +kernel⟩
  · intro reqs
    simp [exOffsets, Function.comp_def]
  · intro reqs x hx
    obtain ⟨q, hq, rfl⟩ := List.mem_map.1 hx
    exact ⟨q, hq, _, rfl, _, rfl, by simp, by
      intro y hy
      obtain ⟨p, _, rfl⟩ := List.mem_map.1 hy
      rfl⟩

end Kiel
