import Verif.Spec.Keeps
import Verif.Props.Stored
/- C120: what a producer keeps. -/
set_option autoImplicit false
namespace Kiel
open Spec

variable {α κ β γ : Type}

theorem prepare_nothing {pick : Nat → κ → List Int → Res Int} {comp : List (Msg κ β) → Res γ}
    {p p' : Producer κ β} (h : p.prepare pick comp = (.ok .none, p')) : p' = p := by
  unfold Producer.prepare at h
  split at h
  · simp only [Prod.mk.injEq, true_and] at h
    exact h.symm
  · split at h
    · simp at h
    · split at h <;> simp at h

theorem flushes_returned {s : ProducerBusy α κ β γ} {i : Nat} {env : FlushStart κ β γ} {stop : Bool}
    (h : (s.flushes i env stop).1 = .returned) :
    (s.flushes i env stop).2.producer.sent = s.producer.sent := by
  unfold ProducerBusy.flushes at h ⊢
  split at h
  · cases h
  · rename_i p hx
    obtain rfl := prepare_nothing hx
    cases stop <;> rfl
  · split at h <;> cases h

theorem queues_returned {cfg : PCfg α κ β} {s : ProducerBusy α κ β γ} {i : Nat} {t : String} {a : α}
    {env : FlushStart κ β γ} (h : (s.queues cfg i t a env).1 = .returned) :
    (s.queues cfg i t a env).2.producer.sent = s.producer.sent := by
  obtain ⟨h1, h2, h3, _⟩ := enqueue_others cfg s.producer t a
  unfold ProducerBusy.queues at h ⊢
  split at h
  · cases h
  · rename_i p hx
    rw [hx] at h3
    exact (flushes_returned h).trans h3
  · rename_i p hx
    rw [hx] at h3
    exact h3

/-- A call that returns leaves what is kept as it was. -/
theorem returned_keeps (cfg : PCfg α κ β) (s : ProducerBusy α κ β γ) (e : ProduceEv α κ β γ)
    (h : (s.step cfg e).1 = .returned) : (s.step cfg e).2.producer.sent = s.producer.sent := by
  have hover : ∀ i stop, (s.over i stop).2.producer.sent = s.producer.sent := by
    intro i stop
    cases stop <;> rfl
  revert h
  cases e with
  | produce i t a env =>
    simp only [ProducerBusy.step]
    split
    · exact fun _ => rfl
    · split
      · exact fun _ => hover _ _
      · split
        · exact queues_returned
        · exact fun _ => rfl
  | flush i env =>
    simp only [ProducerBusy.step]
    split
    · exact fun _ => rfl
    · exact flushes_returned
  | close i env =>
    simp only [ProducerBusy.step]
    split
    · exact fun _ => rfl
    · exact flushes_returned
  | found i r env =>
    simp only [ProducerBusy.step]
    split
    · split
      · exact fun h => nomatch h
      · split
        · exact queues_returned
        · exact fun _ => hover _ _
    · exact fun _ => rfl
  | outcome i b r =>
    simp only [ProducerBusy.step]
    split
    · split
      · exact fun _ => rfl
      · split
        · exact fun h => nomatch h
        · split <;> exact fun h => nomatch h
    · exact fun _ => rfl
  | goOn i =>
    simp only [ProducerBusy.step]
    split
    · split
      · exact fun _ => rfl
      · exact fun _ => hover _ _
    · exact fun _ => rfl
  | healed i r =>
    simp only [ProducerBusy.step]
    split
    · rename_i stop _
      split
      · exact fun h => nomatch h
      · exact fun _ => by cases stop <;> rfl
    · exact fun _ => rfl
  | cluster cl => exact fun _ => rfl
  | others n => exact fun h => nomatch h

theorem handleResponse_gone {p p' : Producer κ β} {r : PResp}
    (h : p.handleResponse r = (.ok (), p')) : p'.sent.get? r.corr = .none := by
  unfold Producer.handleResponse at h
  split at h
  · cases h
  · split at h
    · simp only [Prod.mk.injEq, true_and] at h
      subst h
      simp [Dict.get?_erase]
    · cases h

/-- What is kept after an event is kept for a request that is awaited, or that was lost now or before. -/
theorem keeps_step (cfg : PCfg α κ β) (s : ProducerBusy α κ β γ) (e : ProduceEv α κ β γ)
    (h : CallsWF s) (k : Int) (hk : ((s.step cfg e).2.producer.sent.get? k).isSome) :
    Awaited (s.step cfg e).2 k ∨ LostAt cfg s e k ∨
      ((s.producer.sent.get? k).isSome ∧ ¬ Awaited s k) := by
  have hnew : k ≤ (s.step cfg e).2.producer.lastId := by
    obtain ⟨v, hv⟩ := Option.isSome_iff_exists.1 hk
    exact (callsWF_step cfg s e h).wf.old k (List.mem_map.2 ⟨(k, v), Dict.mem_of_get? hv, rfl⟩)
  by_cases hsame : (s.step cfg e).2.producer.sent = s.producer.sent ∧
      (s.step cfg e).2.calls = s.calls
  · rw [hsame.1] at hk
    by_cases hw : Awaited s k
    · left
      obtain ⟨i, q, ⟨left, stop, h1, h2⟩, h3⟩ := hw
      exact ⟨i, q, ⟨left, stop, by rw [hsame.2]; exact h1, h2⟩, h3⟩
    · exact .inr (.inr ⟨hk, hw⟩)
  cases hi : whoseProduce e with
  | none =>
    cases e with
    | cluster cl => exact absurd ⟨rfl, rfl⟩ hsame
    | others n => exact absurd ⟨rfl, rfl⟩ hsame
    | _ => cases hi
  | some i =>
    by_cases ha : ∃ j b topics, e = .outcome j b (.ok topics)
    · obtain ⟨j, b, topics, rfl⟩ := ha
      cases hi
      rcases answerStep cfg s i b topics with hs | ⟨left, stop, q, h0, hm, hb, hfind, hs⟩
      · exact absurd (by rw [hs]; exact ⟨rfl, rfl⟩) hsame
      · obtain ⟨_, _, o3⟩ := handleResponse_others s.producer ⟨q.corr, topics⟩
        rcases hs with ⟨p, hp, hs⟩ | ⟨x, p, hp, hs⟩
        · rw [hp] at o3
          rw [hs] at hk ⊢
          have hne : k ≠ q.corr := by
            rintro rfl
            have := handleResponse_gone hp
            simp only at this
            simp only [this] at hk
            simp at hk
          rw [o3 k hne] at hk
          by_cases hw : Awaited s k
          · left
            obtain ⟨j, q', ⟨left', stop', h1, h2⟩, h3⟩ := hw
            by_cases hj : j = i
            · subst hj
              rw [h0] at h1
              cases h1
              refine ⟨j, q', ⟨left.filter fun q => decide (q.broker ≠ b), stop,
                by simp [Dict.get?_set], List.mem_filter.2 ⟨h2, ?_⟩⟩, h3⟩
              simp only [decide_eq_true_eq]
              intro hb'
              have := List.inj_on_of_nodup_map (h.brokers j left stop h0) h2 hm (hb'.trans hb.symm)
              subst this
              exact hne h3.symm
            · exact ⟨j, q', ⟨left', stop', by simp [Dict.get?_set, Ne.symm hj, h1], h2⟩, h3⟩
          · exact .inr (.inr ⟨hk, hw⟩)
        · rw [hp] at o3
          by_cases hw : Awaited s k
          · obtain ⟨j, q', ⟨left', stop', h1, h2⟩, h3⟩ := hw
            by_cases hj : j = i
            · subst hj
              exact .inr (.inl (.inr ⟨x, [], by rw [hs], .inr ⟨j, q', rfl, ⟨left', stop', h1, h2⟩, h3⟩⟩))
            · left
              rw [hs]
              exact ⟨j, q', ⟨left', stop', by simp [Dict.get?_erase, Ne.symm hj, h1], h2⟩, h3⟩
          · have hne : k ≠ q.corr := fun hkq => hw ⟨i, q, ⟨left, stop, h0, hm⟩, hkq.symm⟩
            rw [hs] at hk
            rw [o3 k hne] at hk
            exact .inr (.inr ⟨hk, hw⟩)
    · have hst := callStep cfg s e i hi (fun j b t he => ha ⟨j, b, t, he⟩)
      cases hst with
      | none ho hs => exact absurd (by rw [hs]; exact ⟨rfl, rfl⟩) hsame
      | waits w' hw' ho hs hb =>
        rw [hs] at hk ⊢
        by_cases hw : Awaited s k
        · left
          obtain ⟨j, q', ⟨left', stop', h1, h2⟩, h3⟩ := hw
          by_cases hj : j = i
          · subst hj
            rcases hb with hb | ⟨⟨st, hb⟩, _⟩ <;> rw [hb] at h1 <;> cases h1
            exact absurd h2 List.not_mem_nil
          · exact ⟨j, q', ⟨left', stop', by simp [Dict.get?_set, Ne.symm hj, h1], h2⟩, h3⟩
        · exact .inr (.inr ⟨hk, hw⟩)
      | ends ho hs hc hb =>
        have haw : Awaited s k → Awaited (s.step cfg e).2 k := by
          rintro ⟨j, q', ⟨left', stop', h1, h2⟩, h3⟩
          by_cases hj : j = i
          · subst hj
            rw [hb left' stop' h1] at h2
            exact absurd h2 List.not_mem_nil
          · exact ⟨j, q', ⟨left', stop', by rw [hc]; simp [Dict.get?_erase, Ne.symm hj, h1], h2⟩, h3⟩
        by_cases hw : Awaited s k
        · exact .inl (haw hw)
        rcases ho with ⟨x, ho⟩ | ho
        · by_cases hold : k ≤ s.producer.lastId
          · rw [hs.sent k hold] at hk
            exact .inr (.inr ⟨hk, hw⟩)
          · exact .inr (.inl (.inr ⟨x.1, x.2, ho, .inl ⟨by omega, hnew⟩⟩))
        · rw [returned_keeps cfg s e ho] at hk
          exact .inr (.inr ⟨hk, hw⟩)
      | fails b x he left q stop ho hb hq hqb hs hsent hc =>
        rw [hsent] at hk
        by_cases hw : Awaited s k
        · obtain ⟨j, q', ⟨left', stop', h1, h2⟩, h3⟩ := hw
          by_cases hj : j = i
          · subst hj
            rw [hb] at h1
            cases h1
            by_cases hqb' : q'.broker = b
            · exact .inr (.inl (.inl ⟨j, b, x, q', he, ⟨left, stop, hb, h2⟩, hqb', h3⟩))
            · left
              exact ⟨j, q', ⟨left.filter fun q => decide (q.broker ≠ b), stop,
                by rw [hc]; simp [Dict.get?_set], List.mem_filter.2 ⟨h2, by simpa using hqb'⟩⟩, h3⟩
          · left
            exact ⟨j, q', ⟨left', stop', by rw [hc]; simp [Dict.get?_set, Ne.symm hj, h1], h2⟩, h3⟩
        · exact .inr (.inr ⟨hk, hw⟩)
      | sends reqs stop pick comp p0 h0 hw0 hk' hacc hp ho hc hb =>
        obtain ⟨pl, _, g2, _, _, g5, _⟩ := prepare_ok (hw0 h.wf).old hp
        by_cases hin : (s.producer.sent.get? k).isSome
        · by_cases hw : Awaited s k
          · left
            obtain ⟨j, q', ⟨left', stop', h1, h2⟩, h3⟩ := hw
            by_cases hj : j = i
            · subst hj
              rcases hb with hb | ⟨t, a, hb⟩ <;> rw [hb] at h1 <;> cases h1
            · exact ⟨j, q', ⟨left', stop', by rw [hc]; simp [Dict.get?_set, Ne.symm hj, h1], h2⟩, h3⟩
          · exact .inr (.inr ⟨hin, hw⟩)
        · left
          have hmem : k ∈ (s.step cfg e).2.producer.sent.keys := by
            obtain ⟨v, hv⟩ := Option.isSome_iff_exists.1 hk
            exact List.mem_map.2 ⟨(k, v), Dict.mem_of_get? hv, rfl⟩
          rw [g2, hk'] at hmem
          simp only [Dict.keys, List.map_append, List.mem_append] at hmem
          rcases hmem with hmem | hmem
          · obtain ⟨⟨k', v⟩, hv, rfl⟩ := List.mem_map.1 hmem
            rw [Dict.get?_of_mem h.wf.nodup hv] at hin
            simp at hin
          · have : k ∈ reqs.map (·.corr) := by rw [g5]; exact hmem
            obtain ⟨q, hq, rfl⟩ := List.mem_map.1 this
            exact ⟨i, q, ⟨reqs, stop, by rw [hc]; simp [Dict.get?_set], hq⟩, rfl⟩

theorem afterCalls_snoc (cfg : PCfg α κ β) (s : ProducerBusy α κ β γ)
    (es : List (ProduceEv α κ β γ)) (e : ProduceEv α κ β γ) :
    afterCalls cfg s (es ++ [e]) = ((afterCalls cfg s es).step cfg e).2 := by
  rw [afterCalls_append]
  rfl

/-- **C120**: whatever a producer keeps of what it sent is kept for a request that is awaited, or that
was lost: it failed, or the call raised that awaited it or was about to send it. -/
theorem C120_kept_partial (cfg : PCfg α κ β) (cl : Cluster) (n : Int)
    (es : List (ProduceEv α κ β γ)) (k : Int)
    (hk : ((afterCalls cfg (idleProducer cl n) es).producer.sent.get? k).isSome) :
    Awaited (afterCalls cfg (idleProducer cl n) es) k ∨ LostIn cfg (idleProducer cl n) es k := by
  induction es using List.reverseRecOn with
  | nil => simp [afterCalls, idleProducer, Producer.new, Dict.get?] at hk
  | append_singleton es e ih =>
    rw [afterCalls_snoc] at hk ⊢
    rcases keeps_step cfg _ e (callsWF_after cfg _ es (callsWF_idle cl n)) k hk with h | h | ⟨h, h'⟩
    · exact .inl h
    · exact .inr ⟨es, e, [], rfl, h⟩
    · rcases ih h with h | ⟨pre, x, post, rfl, hx⟩
      · exact absurd h h'
      · exact .inr ⟨pre, x, post ++ [e], by simp, hx⟩

/-- **C120**: a producer none of whose calls is under way, none of whose requests has failed and none of
whose calls has raised, keeps nothing but what is queued. -/
theorem C120_at_rest_partial (cfg : PCfg α κ β) (cl : Cluster) (n : Int)
    (es : List (ProduceEv α κ β γ))
    (hrest : (afterCalls cfg (idleProducer cl n) es).calls = [])
    (hfail : ∀ i b x, .outcome i b (.error x) ∉ es)
    (hraise : ∀ o ∈ seenIn cfg (idleProducer cl n) es, ∀ x given, o ≠ .raised x given) :
    (afterCalls cfg (idleProducer cl n) es).producer.sent = [] := by
  rcases hd : (afterCalls cfg (idleProducer cl n) es).producer.sent with _ | ⟨⟨k, v⟩, d⟩
  · rfl
  exfalso
  rcases C120_kept_partial cfg cl n es k (by rw [hd]; simp [Dict.get?]) with
    ⟨i, q, ⟨left, stop, h, _⟩, _⟩ | ⟨pre, e, post, rfl, h⟩
  · rw [hrest] at h
    cases h
  · rcases h with ⟨i, b, x, q, rfl, _⟩ | ⟨x, given, h, _⟩
    · exact hfail i b x (by simp)
    · refine hraise _ ?_ x given h
      clear * -
      generalize (idleProducer cl n : ProducerBusy α κ β γ) = s
      induction pre generalizing s with
      | nil => simp [seenIn, afterCalls]
      | cons a pre ih =>
        simp only [List.cons_append, seenIn, afterCalls]
        exact List.mem_cons_of_mem _ (ih _)

/-- What is awaited is kept. -/
theorem awaited_step (cfg : PCfg α κ β) (s : ProducerBusy α κ β γ) (e : ProduceEv α κ β γ)
    (h : CallsWF s) (hk : ∀ k, Awaited s k → (s.producer.sent.get? k).isSome) (k : Int)
    (hw : Awaited (s.step cfg e).2 k) : ((s.step cfg e).2.producer.sent.get? k).isSome := by
  obtain ⟨j, q, hq, rfl⟩ := hw
  rcases waitsStep cfg s e h j q hq with h1 | h1
  · rcases (keptSent_step cfg s e q.corr (h.old j q h1)).2 with h2 | ⟨i, b, topics, q', rfl, h3, h4, h5⟩
    · rw [h2]
      exact hk _ ⟨j, q, h1, rfl⟩
    · -- it is answered
      obtain ⟨rfl, rfl⟩ := h.apart i j q' q h3 h1 h5
      exfalso
      obtain ⟨left', stop', g1, g2⟩ := h3
      obtain ⟨left1, stop1, k1, k2⟩ := hq
      rcases answerStep cfg s i b topics with hs | ⟨left, stop, q, h0, hm, hb, hfind, hs⟩
      · simp only [ProducerBusy.step, g1] at hs
        split at hs
        · rename_i hf
          have := List.find?_eq_none.1 hf q' g2
          simp [h4] at this
        · split at hs
          · cases hs
          · simp only [Prod.mk.injEq, true_and] at hs
            have hc := congrArg (fun s => s.calls.get? i) hs
            simp only [Dict.get?_set, if_pos, g1, Option.some.injEq, Producing.sending.injEq] at hc
            rw [← hc.1] at g2
            simp [h4] at g2
      · rcases hs with ⟨p, hp, hs⟩ | ⟨x, p, hp, hs⟩
        · rw [hs] at k1
          simp only [Dict.get?_set, if_pos, Option.some.injEq, Producing.sending.injEq] at k1
          rw [← k1.1] at k2
          simp [h4] at k2
        · rw [hs] at k1
          simp [Dict.get?_erase] at k1
  · -- it has just been sent
    obtain ⟨left, stop, g1, g2⟩ := hq
    have hnot : ∀ left stop, s.calls.get? j = some (.sending left stop) → q ∉ left := fun l st hl hm => by
      have := h.old j q ⟨l, st, hl, hm⟩
      omega
    have hj : whoseProduce e = some j := by
      by_contra hj
      rw [otherCalls_step cfg s e j hj] at g1
      exact hnot left stop g1 g2
    by_cases ha : ∃ j b topics, e = .outcome j b (.ok topics)
    · obtain ⟨i, b, topics, rfl⟩ := ha
      cases hj
      exfalso
      rcases answerStep cfg s j b topics with hs | ⟨left', stop', q', h0, hm, hb, hfind, hs⟩
      · rw [hs] at g1
        exact hnot left stop g1 g2
      · rcases hs with ⟨p, hp, hs⟩ | ⟨x, p, hp, hs⟩
        · rw [hs] at g1
          simp only [Dict.get?_set, if_pos, Option.some.injEq, Producing.sending.injEq] at g1
          rw [← g1.1] at g2
          exact hnot left' stop' h0 (List.mem_filter.1 g2).1
        · rw [hs] at g1
          simp [Dict.get?_erase] at g1
    · have hst := callStep cfg s e j hj (fun j b t he => ha ⟨j, b, t, he⟩)
      cases hst with
      | none ho hs => rw [hs] at g1; exact absurd g2 (hnot left stop g1)
      | waits w' hw' ho hs hb =>
        rw [hs] at g1
        simp only [Dict.get?_set, if_pos, Option.some.injEq] at g1
        exact absurd g1 (hw' left stop)
      | ends ho hs hc hb =>
        rw [hc] at g1
        simp [Dict.get?_erase] at g1
      | fails b x he left' q' stop' ho hb hq hqb hs hsent hc =>
        rw [hc] at g1
        simp only [Dict.get?_set, if_pos, Option.some.injEq, Producing.sending.injEq] at g1
        rw [← g1.1] at g2
        exact absurd (List.mem_filter.1 g2).1 (hnot left' stop' hb)
      | sends reqs stop' pick comp p0 h0 hw0 hk' hacc hp ho hc hb =>
        obtain ⟨pl, _, p2, _, _, p5, _⟩ := prepare_ok (hw0 h.wf).old hp
        rw [hc] at g1
        simp only [Dict.get?_set, if_pos, Option.some.injEq, Producing.sending.injEq] at g1
        rw [← g1.1] at g2
        have : q.corr ∈ (s.step cfg e).2.producer.sent.keys := by
          rw [p2]
          simp only [Dict.keys, List.map_append, List.mem_append]
          right
          have : q.corr ∈ reqs.map (·.corr) := List.mem_map_of_mem g2
          rw [p5] at this
          exact this
        rcases hg : (s.step cfg e).2.producer.sent.get? q.corr with _ | v
        · exact absurd this (Dict.get?_eq_none.1 hg)
        · rfl

theorem awaited_kept (cfg : PCfg α κ β) (cl : Cluster) (n : Int) (es : List (ProduceEv α κ β γ))
    (k : Int) (hk : Awaited (afterCalls cfg (idleProducer cl n) es) k) :
    ((afterCalls cfg (idleProducer cl n) es).producer.sent.get? k).isSome := by
  induction es using List.reverseRecOn generalizing k with
  | nil =>
    obtain ⟨i, q, ⟨left, stop, h, _⟩, _⟩ := hk
    cases h
  | append_singleton es e ih =>
    rw [afterCalls_snoc] at hk ⊢
    exact awaited_step cfg _ e (callsWF_after cfg _ es (callsWF_idle cl n)) ih k hk

/-- What is not awaited any more is not touched any more. -/
theorem unawaited_stays (cfg : PCfg α κ β) (s : ProducerBusy α κ β γ) (es : List (ProduceEv α κ β γ))
    (h : CallsWF s) (k : Int) (hk : k ≤ s.producer.lastId) (hw : ¬ Awaited s k) :
    (afterCalls cfg s es).producer.sent.get? k = s.producer.sent.get? k := by
  induction es generalizing s with
  | nil => rfl
  | cons e es ih =>
    obtain ⟨h1, h2⟩ := keptSent_step cfg s e k hk
    have h3 : (s.step cfg e).2.producer.sent.get? k = s.producer.sent.get? k := by
      rcases h2 with h2 | ⟨i, b, topics, q, _, h3, _, h5⟩
      · exact h2
      · exact absurd ⟨i, q, h3, h5⟩ hw
    rw [← h3]
    refine ih _ (callsWF_step cfg s e h) (hk.trans h1) ?_
    rintro ⟨j, q, hq, rfl⟩
    rcases waitsStep cfg s e h j q hq with h4 | h4
    · exact hw ⟨j, q, h4, rfl⟩
    · omega

/-- **C120**, what is missing: the messages of a request that fails are kept from then on, whatever
happens. -/
theorem C120_never_released (cfg : PCfg α κ β) (cl : Cluster) (n : Int)
    (es es' : List (ProduceEv α κ β γ)) (i : Nat) (q : PReq γ) (x : Exc)
    (hq : Waits (afterCalls cfg (idleProducer cl n) es) i q) :
    ∃ v, (afterCalls cfg (idleProducer cl n) es).producer.sent.get? q.corr = some v ∧
      (afterCalls cfg (idleProducer cl n) (es ++ .outcome i q.broker (.error x) :: es')).producer.sent.get?
        q.corr = some v ∧
      ¬ Awaited (afterCalls cfg (idleProducer cl n) (es ++ .outcome i q.broker (.error x) :: es'))
        q.corr := by
  obtain ⟨v, hv⟩ := Option.isSome_iff_exists.1 (awaited_kept cfg cl n es q.corr ⟨i, q, hq, rfl⟩)
  have hw := callsWF_after cfg _ es (callsWF_idle (α := α) (κ := κ) (β := β) (γ := γ) cl n)
  refine ⟨v, hv, ?_⟩
  rw [afterCalls_append]
  generalize afterCalls cfg (idleProducer cl n) es = s at *
  have hle := hw.old i q hq
  have hstep : ¬ Awaited (s.step cfg (.outcome i q.broker (.error x))).2 q.corr := by
    rintro ⟨j, q', hq', hc⟩
    rcases waitsStep cfg s _ hw j q' hq' with h1 | h1
    · obtain ⟨rfl, rfl⟩ := hw.apart j i q' q h1 hq hc
      obtain ⟨left, stop, g1, g2⟩ := hq
      obtain ⟨left', stop', k1, k2⟩ := hq'
      simp only [ProducerBusy.step, g1] at k1
      split at k1
      · rename_i hf
        have := List.find?_eq_none.1 hf q' g2
        simp at this
      · simp only [Dict.get?_set, if_pos, Option.some.injEq, Producing.sending.injEq] at k1
        rw [← k1.1] at k2
        simp at k2
    · omega
  have hkept := keptSent_step cfg s (.outcome i q.broker (.error x)) q.corr hle
  have hsame : (s.step cfg (.outcome i q.broker (.error x))).2.producer.sent.get? q.corr = some v := by
    rcases hkept.2 with h2 | ⟨_, _, _, _, h2, _⟩
    · rw [h2, hv]
    · cases h2
  refine ⟨?_, ?_⟩
  · exact (unawaited_stays cfg _ es' (callsWF_step cfg s _ hw) q.corr (hle.trans hkept.1) hstep).trans
      hsame
  · have key : ∀ (es : List (ProduceEv α κ β γ)) (s : ProducerBusy α κ β γ), CallsWF s →
        q.corr ≤ s.producer.lastId → ¬ Awaited s q.corr → ¬ Awaited (afterCalls cfg s es) q.corr := by
      intro es
      induction es with
      | nil => exact fun s _ _ h => h
      | cons e es ih =>
        intro s hw hle hn
        refine ih _ (callsWF_step cfg s e hw) (hle.trans (keptSent_step cfg s e q.corr hle).1) ?_
        rintro ⟨j, q', hq', hc⟩
        rcases waitsStep cfg s e hw j q' hq' with h4 | h4
        · exact hn ⟨j, q', h4, hc⟩
        · omega
    exact key es' _ (callsWF_step cfg s _ hw) (hle.trans hkept.1) hstep

/-- A message is produced and sent, the connection is lost, and the call returns. -/
def exUnreleased (i : Nat) : List (ProduceEv Nat Nat Nat (List (Msg Nat Nat))) :=
  [.produce i "t" 4 exBegin, .outcome i 7 (.error .streamClosed), .goOn i]

/-- `n` times. -/
def exUnreleaseds : Nat → List (ProduceEv Nat Nat Nat (List (Msg Nat Nat)))
  | 0 => []
  | n + 1 => exUnreleased 0 ++ exUnreleaseds n

theorem forgotten_once (D : Dict Int (ByPartition Nat Nat)) (m : Int) :
    afterCalls exAtOnce ⟨⟨exPCluster, [], D, false, false, m⟩, []⟩ (exUnreleased 0) =
      ⟨⟨exPCluster, [], D.upd (m + 1) [] fun ts => ts.upd "t" [] fun ps => ps.set 0 [⟨0, 4⟩],
        false, false, m + 1⟩, []⟩ ∧
    seenIn exAtOnce ⟨⟨exPCluster, [], D, false, false, m⟩, []⟩ (exUnreleased 0) =
      [.sent [⟨7, m + 1, [("t", [(0, [⟨0, 4⟩])])]⟩], .nothing, .returned] := by
  constructor <;> rfl

theorem forgotten_many (n : Nat) : ∀ (D : Dict Int (ByPartition Nat Nat)) (m : Int),
    (∀ k ∈ D.keys, k ≤ m) →
    ∃ D' m', afterCalls exAtOnce ⟨⟨exPCluster, [], D, false, false, m⟩, []⟩ (exUnreleaseds n) =
        ⟨⟨exPCluster, [], D', false, false, m'⟩, []⟩ ∧
      inSent D' = inSent D ++ List.replicate n ("t", ⟨0, 4⟩) ∧
      ∀ o ∈ seenIn exAtOnce ⟨⟨exPCluster, [], D, false, false, m⟩, []⟩ (exUnreleaseds n),
        ∀ x given, o ≠ .raised x given := by
  induction n with
  | zero => exact fun D m h => ⟨D, m, rfl, by simp, fun o ho => absurd ho List.not_mem_nil⟩
  | succ n ih =>
    intro D m h
    obtain ⟨h1, h2⟩ := forgotten_once D m
    have hnew : (m + 1) ∉ D.keys := fun hk => by have := h _ hk; omega
    have hD : (D.upd (m + 1) [] fun ts => ts.upd "t" [] fun ps => ps.set 0 [⟨0, 4⟩]) =
        D ++ [(m + 1, [("t", [(0, [⟨0, 4⟩])])])] := by
      unfold Dict.upd
      rw [Dict.get?_eq_none.2 hnew, Dict.set_of_not_mem hnew]
      rfl
    rw [hD] at h1
    obtain ⟨D', m', g1, g2, g3⟩ := ih (D ++ [(m + 1, [("t", [(0, [⟨0, 4⟩])])])]) (m + 1) (by
      intro k hk
      simp only [Dict.keys, List.map_append, List.mem_append, List.map_cons, List.map_nil,
        List.mem_singleton] at hk
      rcases hk with hk | hk
      · have := h k hk
        omega
      · omega)
    refine ⟨D', m', ?_, ?_, ?_⟩
    · rw [exUnreleaseds, afterCalls_append, h1, g1]
    · rw [g2, List.replicate_succ]
      simp [inSent, inRequest]
    · intro o ho
      have : seenIn exAtOnce ⟨⟨exPCluster, [], D, false, false, m⟩, []⟩ (exUnreleaseds (n + 1)) =
          [.sent [⟨7, m + 1, [("t", [(0, [⟨0, 4⟩])])]⟩], .nothing, .returned] ++
          seenIn exAtOnce ⟨⟨exPCluster, [], D ++ [(m + 1, [("t", [(0, [⟨0, 4⟩])])])], false, false,
            m + 1⟩, []⟩ (exUnreleaseds n) := by
        rw [← h2, ← h1]
        rfl
      rw [this] at ho
      rcases List.mem_append.1 ho with ho | ho
      · intro x given
        rintro rfl
        simp at ho
      · exact g3 o ho

/-- **C120** is false: a producer can keep any number of messages although nothing is queued, none of its
calls is under way, and none of them raised. -/
theorem C120_false (n : Nat) : ∃ es : List (ProduceEv Nat Nat Nat (List (Msg Nat Nat))),
    (afterCalls exAtOnce (idleProducer exPCluster 1) es).calls = [] ∧
    (afterCalls exAtOnce (idleProducer exPCluster 1) es).producer.unsent = [] ∧
    (∀ o ∈ seenIn exAtOnce (idleProducer exPCluster 1) es, ∀ x given, o ≠ .raised x given) ∧
    inSent (afterCalls exAtOnce (idleProducer exPCluster 1) es).producer.sent =
      List.replicate n ("t", ⟨0, 4⟩) := by
  obtain ⟨D', m', h1, h2, h3⟩ := forgotten_many n [] 1 (fun k hk => absurd hk List.not_mem_nil)
  refine ⟨exUnreleaseds n, ?_, ?_, h3, ?_⟩
  · exact congrArg ProducerBusy.calls h1
  · exact congrArg (fun s => s.producer.unsent) h1
  · exact (congrArg (fun s => inSent s.producer.sent) h1).trans (by simpa [inSent] using h2)

-- Non-vacuity: what is kept after a request failed, and while another is awaited.
example : LostIn exAtOnce (idleProducer exPCluster 1)
      (exUnreleased 0 ++ [.produce 1 "t" 5 exBegin]) 2 ∧
    Awaited (afterCalls exAtOnce (idleProducer exPCluster 1)
      (exUnreleased 0 ++ [.produce 1 "t" 5 exBegin])) 3 ∧
    (afterCalls exAtOnce (idleProducer exPCluster 1)
      (exUnreleased 0 ++ [.produce 1 "t" 5 exBegin])).producer.sent.keys = [2, 3] := by
  refine ⟨⟨[.produce 0 "t" 4 exBegin], .outcome 0 7 (.error .streamClosed), _, rfl, .inl ?_⟩, ?_, ?_⟩
  · exact ⟨0, 7, .streamClosed, ⟨7, 2, [("t", [(0, [⟨0, 4⟩])])]⟩, rfl,
      ⟨[⟨7, 2, [("t", [(0, [⟨0, 4⟩])])]⟩], false, by decide +kernel, by decide +kernel⟩, rfl, rfl⟩
  · exact ⟨1, ⟨7, 3, [("t", [(1, [⟨1, 5⟩])])]⟩,
      ⟨[⟨7, 3, [("t", [(1, [⟨1, 5⟩])])]⟩], false, by decide +kernel, by decide +kernel⟩, rfl⟩
  · decide +kernel

-- Two overlapping calls whose requests are answered, one of them with an error to be retried: nothing is
-- kept but the message queued again.
example : (afterCalls exAtOnce (idleProducer exPCluster 1) (exOverlap ++ exOverlapRest ++
      [.goOn 0, .healed 1 (.ok ()), .healed 0 (.ok ())])).producer.sent = [] :=
  C120_at_rest_partial exAtOnce exPCluster 1 _ (by decide +kernel)
    (by intro i b x h; simp [exOverlap, exOverlapRest] at h)
    (by
      have h : seenIn exAtOnce (idleProducer exPCluster 1) (exOverlap ++ exOverlapRest ++
          [.goOn 0, .healed 1 (.ok ()), .healed 0 (.ok ())]) =
        [.sent [⟨7, 2, [("t", [(0, [⟨0, 4⟩])])]⟩], .sent [⟨7, 3, [("t", [(1, [⟨1, 5⟩])])]⟩], .nothing,
          .nothing, .heals, .heals, .returned, .returned] := by decide +kernel
      rw [h]
      intro o ho x given
      rintro rfl
      simp at ho)

example : ∃ v, (afterCalls exAtOnce (idleProducer exPCluster 1)
      [.produce 0 "t" 4 exBegin]).producer.sent.get? 2 = some v ∧
    (afterCalls exAtOnce (idleProducer exPCluster 1) ([.produce 0 "t" 4 exBegin] ++
      .outcome 0 7 (.error .brokerConnection) :: [.goOn 0, .healed 0 (.ok ())])).producer.sent.get? 2 =
        some v ∧
    ¬ Awaited (afterCalls exAtOnce (idleProducer exPCluster 1) ([.produce 0 "t" 4 exBegin] ++
      .outcome 0 7 (.error .brokerConnection) :: [.goOn 0, .healed 0 (.ok ())])) 2 :=
  C120_never_released exAtOnce exPCluster 1 [.produce 0 "t" 4 exBegin] _ 0
    ⟨7, 2, [("t", [(0, [⟨0, 4⟩])])]⟩ .brokerConnection
    ⟨[⟨7, 2, [("t", [(0, [⟨0, 4⟩])])]⟩], false, by decide +kernel, by decide +kernel⟩

end Kiel
