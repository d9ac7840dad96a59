import Verif.Spec.ProducerHeals
import Verif.Props.Produces
import Verif.Props.Sends
/-
C78 for overlapping calls of a producer.
-/
set_option autoImplicit false
namespace Kiel
open Spec

variable {α κ β γ : Type}

theorem queueRetries_unsent (l : List (String × List (Msg κ β))) (p : Producer κ β) :
    (l.foldl (fun p e => p.queueRetries e.1 e.2) p).unsent = [] ↔ p.unsent = [] ∧ l = [] := by
  induction l generalizing p with
  | nil => simp
  | cons e l ih =>
    simp only [List.foldl_cons, ih, reduceCtorEq, and_false, iff_false, not_and]
    intro h
    exfalso
    have hne : ∀ (d : Dict String (List (Msg κ β))) k v, d.set k v ≠ [] := fun d k v => Dict.set_ne_nil d k v
    exact hne _ _ _ h

/-- A flush asks for a heal when it leaves messages in the queue, and only then. -/
theorem prepare_asks (pick : Nat → κ → List Int → Res Int) (comp : List (Msg κ β) → Res γ)
    (p : Producer κ β) :
    ((p.prepare pick comp).2.heal = true ↔ p.heal = true ∨
      (∃ reqs, (p.prepare pick comp).1 = .ok (some reqs)) ∧ (p.prepare pick comp).2.unsent ≠ []) := by
  unfold Producer.prepare
  split
  · simp
  · split
    · simp
    · rename_i r cl rest hr
      split
      · simp
      · rename_i reqs sent n hb
        have h1 := queueRetries_unsent r.retry { p with cluster := cl, unsent := [], sent := sent, lastId := n }
        obtain ⟨_, _, _, _, h5, _⟩ := queueRetries_fold r.retry
          { p with cluster := cl, unsent := [], sent := sent, lastId := n }
        simp only [h5, Bool.or_eq_true, Bool.not_eq_true', List.isEmpty_eq_false_iff, ne_eq, h1, true_and]
        simp

/-- An answer asks for a heal only if it has an error that is to be retried, and then it does, unless its
handling raises. -/
theorem handleResponse_heal (p : Producer κ β) (r : PResp) :
    ((p.handleResponse r).2.heal = true →
      p.heal = true ∨ ∃ a ∈ r.topics, ∃ c ∈ a.2, Retriable c.2) ∧
    (p.heal = true → (p.handleResponse r).2.heal = true) ∧
    ((p.handleResponse r).1 = .ok () → (∃ a ∈ r.topics, ∃ c ∈ a.2, Retriable c.2) →
      (p.handleResponse r).2.heal = true) := by
  have hpart : ∀ (p : Producer κ β) corr t part code,
      ((p.handlePart corr t part code).2.heal = true → p.heal = true ∨ Retriable code) ∧
      (p.heal = true → (p.handlePart corr t part code).2.heal = true) ∧
      ((p.handlePart corr t part code).1 = .ok () → Retriable code →
        (p.handlePart corr t part code).2.heal = true) := by
    intro p corr t part code
    unfold Producer.handlePart
    split
    · rename_i h0
      refine ⟨.inl, id, fun _ hr => ?_⟩
      rw [h0] at hr
      exact absurd hr (by decide)
    · split
      · rename_i hc
        dsimp only
        split
        · exact ⟨.inl, id, fun h => by cases h⟩
        · exact ⟨fun _ => .inr hc, fun _ => rfl, fun _ _ => rfl⟩
      · rename_i hc
        split <;> exact ⟨.inl, id, fun _ hr => absurd hr hc⟩
  have hparts : ∀ corr (l : List (String × Int × Int)) (p : Producer κ β),
      ((Producer.handleParts corr l p).2.heal = true → p.heal = true ∨ ∃ a ∈ l, Retriable a.2.2) ∧
      (p.heal = true → (Producer.handleParts corr l p).2.heal = true) ∧
      ((Producer.handleParts corr l p).1 = .ok () → (∃ a ∈ l, Retriable a.2.2) →
        (Producer.handleParts corr l p).2.heal = true) := by
    intro corr l
    induction l with
    | nil => intro p; exact ⟨.inl, id, fun _ ⟨a, ha, _⟩ => by cases ha⟩
    | cons a l ih =>
      intro p
      obtain ⟨t, part, code⟩ := a
      obtain ⟨h1, h2, h3⟩ := hpart p corr t part code
      simp only [Producer.handleParts]
      split
      · rename_i hx
        rw [hx] at h1 h2
        refine ⟨fun h => (h1 h).imp_right fun h => ⟨_, List.mem_cons_self, h⟩, h2, fun h => by cases h⟩
      · rename_i p1 hx
        rw [hx] at h1 h2 h3
        obtain ⟨i1, i2, i3⟩ := ih p1
        refine ⟨fun h => ?_, fun h => i2 (h2 h), fun hok ⟨a, ha, hr⟩ => ?_⟩
        · rcases i1 h with h | ⟨a, ha, hr⟩
          · exact (h1 h).imp_right fun h => ⟨_, List.mem_cons_self, h⟩
          · exact .inr ⟨a, List.mem_cons_of_mem _ ha, hr⟩
        · rcases List.mem_cons.1 ha with rfl | ha
          · exact i2 (h3 rfl hr)
          · exact i3 hok ⟨a, ha, hr⟩
  have hans : (∃ a ∈ r.answers, Retriable a.2.2) ↔ ∃ a ∈ r.topics, ∃ c ∈ a.2, Retriable c.2 := by
    simp only [PResp.answers, List.mem_flatMap, List.mem_map]
    constructor
    · rintro ⟨_, ⟨a, ha, c, hc, rfl⟩, hr⟩; exact ⟨a, ha, c, hc, hr⟩
    · rintro ⟨a, ha, c, hc, hr⟩; exact ⟨_, ⟨a, ha, c, hc, rfl⟩, hr⟩
  rw [← hans]
  obtain ⟨h1, h2, h3⟩ := hparts r.corr r.answers p
  unfold Producer.handleResponse
  rw [handleTopics_eq]
  split
  · rename_i hx
    rw [hx] at h1 h2
    exact ⟨h1, h2, fun h => by cases h⟩
  · rename_i hx
    rw [hx] at h1 h2 h3
    split
    · exact ⟨h1, h2, fun _ => h3 rfl⟩
    · exact ⟨h1, h2, fun h => by cases h⟩

/-- The flag at a flush. -/
theorem flushes_heal (s : ProducerBusy α κ β γ) (i : Nat) (env : FlushStart κ β γ) (stop : Bool) :
    (s.flushes i env stop).2.producer.heal = true ↔ s.producer.heal = true ∨
      ∃ reqs, ((s.flushes i env stop).1 = .sent reqs ∨
        reqs ≠ [] ∧ ∃ x, (s.flushes i env stop).1 = .raised x reqs) ∧
        (s.flushes i env stop).2.producer.unsent ≠ [] := by
  have hp := prepare_asks env.pick env.comp s.producer
  generalize hx : s.flushes i env stop = x
  unfold ProducerBusy.flushes at hx
  split at hx
  · rename_i e p h1
    rw [h1] at hp
    subst hx
    simp only [ProducerBusy.fails]
    rw [hp]
    simp
  · rename_i p h1
    rw [h1] at hp
    subst hx
    have : (({ s with producer := p } : ProducerBusy α κ β γ).over i stop).2.producer.heal = p.heal := by
      cases stop <;> rfl
    rw [this, hp]
    simp [ProducerBusy.over]
  · rename_i reqs p h1
    rw [h1] at hp
    split at hx
    · rename_i e h2
      subst hx
      simp only [ProducerBusy.fails]
      rw [hp]
      have hne : reqs ≠ [] := by
        rintro rfl
        simp [sendStart] at h2
      constructor
      · rintro (h | ⟨_, h⟩)
        · exact .inl h
        · exact .inr ⟨reqs, .inr ⟨hne, e, rfl⟩, h⟩
      · rintro (h | ⟨_, _, h⟩)
        · exact .inl h
        · exact .inr ⟨⟨reqs, rfl⟩, h⟩
    · subst hx
      rw [hp]
      constructor
      · rintro (h | ⟨_, h⟩)
        · exact .inl h
        · exact .inr ⟨reqs, .inl rfl, h⟩
      · rintro (h | ⟨_, _, h⟩)
        · exact .inl h
        · exact .inr ⟨⟨reqs, rfl⟩, h⟩

theorem queues_heal (cfg : PCfg α κ β) (s : ProducerBusy α κ β γ) (i : Nat) (t : String) (a : α)
    (env : FlushStart κ β γ) :
    (s.queues cfg i t a env).2.producer.heal = true ↔ s.producer.heal = true ∨
      ∃ reqs, ((s.queues cfg i t a env).1 = .sent reqs ∨
        reqs ≠ [] ∧ ∃ x, (s.queues cfg i t a env).1 = .raised x reqs) ∧
        (s.queues cfg i t a env).2.producer.unsent ≠ [] := by
  obtain ⟨_, _, _, _, h5⟩ := enqueue_others cfg s.producer t a
  generalize hx : s.queues cfg i t a env = x
  unfold ProducerBusy.queues at hx
  split at hx
  · rename_i h1; rw [h1] at h5; subst hx
    simp only [ProducerBusy.fails]
    rw [show _ = _ from h5]
    simp
  · rename_i p h1; rw [h1] at h5; subst hx
    rw [flushes_heal, show p.heal = _ from h5]
  · rename_i p h1; rw [h1] at h5; subst hx
    simp only [ProducerBusy.over, Bool.false_eq_true, if_false]
    rw [show p.heal = _ from h5]
    simp

/-- The flag at a step: it is set by what calls for a heal, and cleared when a heal has ended. -/
theorem heal_step (cfg : PCfg α κ β) (s : ProducerBusy α κ β γ) (e : ProduceEv α κ β γ) :
    ((s.step cfg e).2.producer.heal = true → ¬ HealEnds cfg s e ∧
      (s.producer.heal = true ∨ CallsForHeal cfg s e)) ∧
    (s.producer.heal = true → ¬ HealEnds cfg s e → (s.step cfg e).2.producer.heal = true) ∧
    (CallsForHeal cfg s e → (∀ i b topics x, e = .outcome i b (.ok topics) →
      (s.step cfg e).1 ≠ .raised x []) → (s.step cfg e).2.producer.heal = true) := by
  -- what begins with a flush
  have third : (∀ i, e ≠ .healed i (.ok ())) → (∀ i b r, e ≠ .outcome i b r) →
      ((s.step cfg e).2.producer.heal = true ↔ s.producer.heal = true ∨
        ∃ reqs, ((s.step cfg e).1 = .sent reqs ∨ reqs ≠ [] ∧ ∃ x, (s.step cfg e).1 = .raised x reqs) ∧
          (s.step cfg e).2.producer.unsent ≠ []) →
      ((s.step cfg e).2.producer.heal = true → ¬ HealEnds cfg s e ∧
        (s.producer.heal = true ∨ CallsForHeal cfg s e)) ∧
      (s.producer.heal = true → ¬ HealEnds cfg s e → (s.step cfg e).2.producer.heal = true) ∧
      (CallsForHeal cfg s e → (∀ i b topics x, e = .outcome i b (.ok topics) →
        (s.step cfg e).1 ≠ .raised x []) → (s.step cfg e).2.producer.heal = true) := by
    intro hn1 hn2 hiff
    refine ⟨fun h => ⟨fun ⟨i, hi, _⟩ => hn1 i hi, ?_⟩, fun h _ => hiff.2 (.inl h), fun h _ => ?_⟩
    · rcases hiff.1 h with h | h
      · exact .inl h
      · exact .inr (.inr (.inr h))
    · rcases h with ⟨i, b, x, q, he, _⟩ | ⟨i, b, topics, q, he, _⟩ | h
      · exact absurd he (hn2 _ _ _)
      · exact absurd he (hn2 _ _ _)
      · exact hiff.2 (.inr h)
  -- what neither sends nor changes the flag
  have simple : (s.step cfg e).2.producer.heal = s.producer.heal →
      (∀ reqs, (s.step cfg e).1 ≠ .sent reqs) → (∀ x reqs, (s.step cfg e).1 = .raised x reqs → reqs = []) →
      ((s.step cfg e).2.producer.heal = true ↔ s.producer.heal = true ∨
        ∃ reqs, ((s.step cfg e).1 = .sent reqs ∨ reqs ≠ [] ∧ ∃ x, (s.step cfg e).1 = .raised x reqs) ∧
          (s.step cfg e).2.producer.unsent ≠ []) := by
    intro h1 h2 h3
    rw [h1]
    constructor
    · exact .inl
    · rintro (h | ⟨reqs, h | ⟨hne, x, h⟩, _⟩)
      · exact h
      · exact absurd h (h2 _)
      · exact absurd (h3 x reqs h) hne
  cases e with
  | produce k t a env =>
    refine third (fun _ h => by cases h) (fun _ _ _ h => by cases h) ?_
    by_cases c1 : s.calls.has k = true
    · have hs : s.step cfg (.produce k t a env) = (.nothing, s) := by simp only [ProducerBusy.step, c1, if_true]
      exact simple (by rw [hs]) (by rw [hs]; exact fun _ h => by cases h)
        (by rw [hs]; exact fun _ _ h => by cases h)
    · by_cases c2 : s.producer.closing = true
      · have hs : s.step cfg (.produce k t a env) = s.over k false := by
          simp only [ProducerBusy.step, c2, if_true]; rw [if_neg c1]
        exact simple (by rw [hs]; rfl) (by rw [hs]; exact fun _ h => by cases h)
          (by rw [hs]; exact fun _ _ h => by cases h)
      · by_cases c3 : s.producer.cluster.topics.has t = true
        · have hs : s.step cfg (.produce k t a env) = s.queues cfg k t a env := by
            simp only [ProducerBusy.step, c3, if_true]; rw [if_neg c1, if_neg c2]
          rw [hs]; exact queues_heal cfg s k t a env
        · have hs : s.step cfg (.produce k t a env) =
              (.heals, { s with calls := s.calls.set k (.finding t a) }) := by
            simp only [ProducerBusy.step]; rw [if_neg c1, if_neg c2, if_neg c3]
          exact simple (by rw [hs]) (by rw [hs]; exact fun _ h => by cases h)
            (by rw [hs]; exact fun _ _ h => by cases h)
  | flush k env =>
    refine third (fun _ h => by cases h) (fun _ _ _ h => by cases h) ?_
    by_cases c1 : s.calls.has k = true
    · have hs : s.step cfg (.flush k env) = (.nothing, s) := by simp only [ProducerBusy.step, c1, if_true]
      exact simple (by rw [hs]) (by rw [hs]; exact fun _ h => by cases h)
        (by rw [hs]; exact fun _ _ h => by cases h)
    · have hs : s.step cfg (.flush k env) = s.flushes k env false := by
        simp only [ProducerBusy.step]; rw [if_neg c1]
      rw [hs]; exact flushes_heal s k env false
  | close k env =>
    refine third (fun _ h => by cases h) (fun _ _ _ h => by cases h) ?_
    by_cases c1 : s.calls.has k = true
    · have hs : s.step cfg (.close k env) = (.nothing, s) := by simp only [ProducerBusy.step, c1, if_true]
      exact simple (by rw [hs]) (by rw [hs]; exact fun _ h => by cases h)
        (by rw [hs]; exact fun _ _ h => by cases h)
    · have hs : s.step cfg (.close k env) =
          ({ s with producer := { s.producer with closing := true } } : ProducerBusy α κ β γ).flushes k env true := by
        simp only [ProducerBusy.step]; rw [if_neg c1]
      rw [hs]
      exact flushes_heal { s with producer := { s.producer with closing := true } } k env true
  | found k r env =>
    refine third (fun _ h => by cases h) (fun _ _ _ h => by cases h) ?_
    have hs : (∃ t a, s.step cfg (.found k r env) = s.queues cfg k t a env) ∨
        ((s.step cfg (.found k r env)).2.producer = s.producer ∧
          (∀ reqs, (s.step cfg (.found k r env)).1 ≠ .sent reqs) ∧
          ∀ x reqs, (s.step cfg (.found k r env)).1 = .raised x reqs → reqs = []) := by
      generalize hx : s.step cfg (.found k r env) = x
      simp only [ProducerBusy.step] at hx
      split at hx
      · split at hx
        · subst hx
          refine .inr ⟨rfl, fun _ h => (by cases h), fun _ _ h => (by cases h; rfl)⟩
        · split at hx
          · subst hx; exact .inl ⟨_, _, rfl⟩
          · subst hx
            exact .inr ⟨rfl, fun _ h => (by cases h), fun _ _ h => (by cases h)⟩
      · subst hx
        exact .inr ⟨rfl, fun _ h => (by cases h), fun _ _ h => (by cases h)⟩
    rcases hs with ⟨t, a, hs⟩ | ⟨h1, h2, h3⟩
    · rw [hs]; exact queues_heal cfg s k t a env
    · exact simple (by rw [h1]) h2 h3
  | outcome k b r =>
    have hne : ¬ HealEnds cfg s (.outcome k b r) := fun ⟨i, hi, _⟩ => by cases hi
    have hns : (∀ reqs, (s.step cfg (.outcome k b r)).1 ≠ .sent reqs) ∧
        ∀ x reqs, (s.step cfg (.outcome k b r)).1 = .raised x reqs → reqs = [] := by
      generalize hx : s.step cfg (.outcome k b r) = x
      simp only [ProducerBusy.step] at hx
      split at hx
      · split at hx
        · subst hx; exact ⟨fun _ h => (by cases h), fun _ _ h => (by cases h)⟩
        · split at hx
          · subst hx; exact ⟨fun _ h => (by cases h), fun _ _ h => (by cases h)⟩
          · split at hx
            · subst hx; exact ⟨fun _ h => (by cases h), fun _ _ h => (by cases h; rfl)⟩
            · subst hx; exact ⟨fun _ h => (by cases h), fun _ _ h => (by cases h)⟩
      · subst hx; exact ⟨fun _ h => (by cases h), fun _ _ h => (by cases h)⟩
    cases r with
    | error x =>
      have hst := callStep cfg s (.outcome k b (.error x)) k rfl (fun _ _ _ h => by cases h)
      by_cases hq : ∃ q, Waits s k q ∧ q.broker = b
      · obtain ⟨q, ⟨left, stop, h0, hm⟩, hb⟩ := hq
        have hf : ∃ q', left.find? (fun q => decide (q.broker = b)) = some q' := by
          rw [← Option.isSome_iff_exists, List.find?_isSome]
          exact ⟨q, hm, by simpa using hb⟩
        obtain ⟨q', hf⟩ := hf
        have hh : (s.step cfg (.outcome k b (.error x))).2.producer.heal =
            if x = .streamClosed then s.producer.heal else true := by
          simp only [ProducerBusy.step, h0, hf]
          split <;> rfl
        rw [hh]
        by_cases hx : x = .streamClosed
        · rw [if_pos hx]
          refine ⟨fun h => ⟨hne, .inl h⟩, fun h _ => h, fun h _ => ?_⟩
          rcases h with ⟨i, b', x', q2, he, hx', _⟩ | ⟨i, b', topics, q2, he, _⟩ | ⟨reqs, h | ⟨hn, x', h⟩, _⟩
          · cases he; exact absurd hx hx'
          · cases he
          · exact absurd h (hns.1 _)
          · exact absurd (hns.2 _ _ h) hn
        · rw [if_neg hx]
          exact ⟨fun _ => ⟨hne, .inr (.inl ⟨k, b, x, q, rfl, hx, ⟨left, stop, h0, hm⟩, hb⟩)⟩,
            fun _ _ => rfl, fun _ _ => rfl⟩
      · have hs : s.step cfg (.outcome k b (.error x)) = (.nothing, s) := by
          simp only [ProducerBusy.step]
          split
          · rename_i left stop h0
            split
            · rfl
            · rename_i q hf
              have h1 := List.find?_some hf
              simp only [decide_eq_true_eq] at h1
              exact absurd ⟨q, ⟨left, stop, h0, List.mem_of_find?_eq_some hf⟩, h1⟩ hq
          · rfl
        rw [hs]
        refine ⟨fun h => ⟨hne, .inl h⟩, fun h _ => h, fun h _ => ?_⟩
        rcases h with ⟨i, b', x', q2, he, hx', h3, h4⟩ | ⟨i, b', topics, q2, he, _⟩ | ⟨reqs, h | ⟨hn, x', h⟩, _⟩
        · cases he; exact absurd ⟨q2, h3, h4⟩ hq
        · cases he
        · exact absurd h (hns.1 _)
        · exact absurd (hns.2 _ _ h) hn
    | ok topics =>
      rcases answerStep cfg s k b topics with hs | ⟨left, stop, q, h0, hm, hb, hfind, hs⟩
      · by_cases hq : ∃ q, Waits s k q ∧ q.broker = b
        · -- the answer is handled, so this is not the case
          exfalso
          obtain ⟨q, ⟨left, stop, h0, hm⟩, hb⟩ := hq
          have hf : ∃ q', left.find? (fun q => decide (q.broker = b)) = some q' := by
            rw [← Option.isSome_iff_exists, List.find?_isSome]
            exact ⟨q, hm, by simpa using hb⟩
          obtain ⟨q', hf⟩ := hf
          simp only [ProducerBusy.step, h0, hf] at hs
          split at hs
          · cases hs
          · have hc := congrArg (fun x : ProduceOut γ × ProducerBusy α κ β γ => x.2.calls.get? k) hs
            simp only [Dict.get?_set, if_true, h0, Option.some.injEq, Producing.sending.injEq,
              and_true] at hc
            have : q ∈ left.filter fun q => decide (q.broker ≠ b) := by rw [hc]; exact hm
            simp [hb] at this
        · rw [hs]
          refine ⟨fun h => ⟨hne, .inl h⟩, fun h _ => h, fun h _ => ?_⟩
          rcases h with ⟨i, b', x', q2, he, hx', h3, h4⟩ | ⟨i, b', topics', q2, he, h3, h4, _⟩ |
            ⟨reqs, h | ⟨hn, x', h⟩, _⟩
          · cases he
          · cases he; exact absurd ⟨q2, h3, h4⟩ hq
          · exact absurd h (hns.1 _)
          · exact absurd (hns.2 _ _ h) hn
      · obtain ⟨g1, g2, g3⟩ := handleResponse_heal s.producer ⟨q.corr, topics⟩
        have hwq : Waits s k q := ⟨left, stop, h0, hm⟩
        have hcodes : CallsForHeal cfg s (.outcome k b (.ok topics)) →
            ∃ a ∈ topics, ∃ c ∈ a.2, Retriable c.2 := by
          intro h
          rcases h with ⟨i, b', x', q2, he, hx', h3, h4⟩ | ⟨i, b', topics', q2, he, h3, h4, h5⟩ |
            ⟨reqs, h | ⟨hn, x', h⟩, _⟩
          · cases he
          · cases he; exact h5
          · exact absurd h (hns.1 _)
          · exact absurd (hns.2 _ _ h) hn
        rcases hs with ⟨p, hp, hs⟩ | ⟨x, p, hp, hs⟩
        · rw [hp] at g1 g2 g3
          rw [hs]
          refine ⟨fun h => ⟨hne, (g1 h).imp_right fun h => .inr (.inl ⟨k, b, topics, q, rfl, hwq, hb, h⟩)⟩,
            fun h _ => g2 h, fun h _ => g3 rfl (hcodes h)⟩
        · rw [hp] at g1 g2
          rw [hs]
          refine ⟨fun h => ⟨hne, (g1 h).imp_right fun h => .inr (.inl ⟨k, b, topics, q, rfl, hwq, hb, h⟩)⟩,
            fun h _ => g2 h, fun h hx => absurd rfl (hx k b topics x rfl)⟩
  | goOn k =>
    refine third (fun _ h => by cases h) (fun _ _ _ h => by cases h) ?_
    have : (s.step cfg (.goOn k)).2.producer.heal = s.producer.heal ∧
        (∀ reqs, (s.step cfg (.goOn k)).1 ≠ .sent reqs) ∧
        ∀ x reqs, (s.step cfg (.goOn k)).1 = .raised x reqs → reqs = [] := by
      generalize hx : s.step cfg (.goOn k) = x
      simp only [ProducerBusy.step] at hx
      split at hx
      · rename_i stop _
        split at hx
        · subst hx; exact ⟨rfl, fun _ h => (by cases h), fun _ _ h => (by cases h)⟩
        · subst hx
          exact ⟨by cases stop <;> rfl, fun _ h => (by cases h), fun _ _ h => (by cases h)⟩
      · subst hx; exact ⟨rfl, fun _ h => (by cases h), fun _ _ h => (by cases h)⟩
    exact simple this.1 this.2.1 this.2.2
  | healed k r =>
    cases hc : s.calls.get? k with
    | none =>
      have hs : s.step cfg (.healed k r) = (.nothing, s) := by simp only [ProducerBusy.step, hc]
      have hne : ¬ HealEnds cfg s (.healed k r) := fun ⟨i, hi, ho⟩ => by rw [hs] at ho; cases ho
      rw [hs]
      refine ⟨fun h => ⟨hne, .inl h⟩, fun h _ => h, fun h _ => ?_⟩
      rcases h with ⟨i, b', x', q2, he, _⟩ | ⟨i, b', topics', q2, he, _⟩ | ⟨reqs, h | ⟨hn, x', h⟩, _⟩
      · cases he
      · cases he
      · rw [hs] at h; cases h
      · rw [hs] at h; cases h
    | some w =>
      by_cases hw : ∃ stop, w = .healing stop
      · obtain ⟨stop, rfl⟩ := hw
        cases r with
        | error x =>
          have hs : s.step cfg (.healed k (.error x)) = s.fails k x := by
            simp only [ProducerBusy.step, hc]
          have hne : ¬ HealEnds cfg s (.healed k (.error x)) := fun ⟨i, hi, ho⟩ => by cases hi
          rw [hs]
          refine ⟨fun h => ⟨hne, .inl h⟩, fun h _ => h, fun h _ => ?_⟩
          rcases h with ⟨i, b', x', q2, he, _⟩ | ⟨i, b', topics', q2, he, _⟩ | ⟨reqs, h | ⟨hn, x', h⟩, _⟩
          · cases he
          · cases he
          · rw [hs] at h; cases h
          · rw [hs] at h; cases h; exact absurd rfl hn
        | ok u =>
          cases u
          have hs : s.step cfg (.healed k (.ok ())) =
              ({ s with producer := { s.producer with heal := false } } : ProducerBusy α κ β γ).over k stop := by
            simp only [ProducerBusy.step, hc]
          have hy : HealEnds cfg s (.healed k (.ok ())) := ⟨k, rfl, by rw [hs]; rfl⟩
          have hh : (s.step cfg (.healed k (.ok ()))).2.producer.heal = false := by
            rw [hs]; cases stop <;> rfl
          rw [hh]
          refine ⟨fun h => (by cases h), fun _ h => absurd hy h, fun h _ => ?_⟩
          rcases h with ⟨i, b', x', q2, he, _⟩ | ⟨i, b', topics', q2, he, _⟩ | ⟨reqs, h | ⟨hn, x', h⟩, _⟩
          · cases he
          · cases he
          · rw [hs] at h; cases h
          · rw [hs] at h; cases h
      · have hs : s.step cfg (.healed k r) = (.nothing, s) := by
          cases w with
          | healing stop => exact absurd ⟨stop, rfl⟩ hw
          | _ => simp only [ProducerBusy.step, hc]
        have hne : ¬ HealEnds cfg s (.healed k r) := fun ⟨i, hi, ho⟩ => by rw [hs] at ho; cases ho
        rw [hs]
        refine ⟨fun h => ⟨hne, .inl h⟩, fun h _ => h, fun h _ => ?_⟩
        rcases h with ⟨i, b', x', q2, he, _⟩ | ⟨i, b', topics', q2, he, _⟩ | ⟨reqs, h | ⟨hn, x', h⟩, _⟩
        · cases he
        · cases he
        · rw [hs] at h; cases h
        · rw [hs] at h; cases h
  | cluster cl =>
    refine third (fun _ h => by cases h) (fun _ _ _ h => by cases h) ?_
    exact simple rfl (fun _ h => by cases h) (fun _ _ h => by cases h)
  | others n =>
    refine third (fun _ h => by cases h) (fun _ _ _ h => by cases h) ?_
    exact simple rfl (fun _ h => by cases h) (fun _ _ h => by cases h)

theorem heal_course (cfg : PCfg α κ β) (s : ProducerBusy α κ β γ) (es : List (ProduceEv α κ β γ))
    (h : s.producer.heal = true) (hn : NoHealEnds cfg s es) :
    (afterCalls cfg s es).producer.heal = true := by
  induction es generalizing s with
  | nil => exact h
  | cons e es ih =>
    exact ih _ ((heal_step cfg s e).2.1 h hn.1) hn.2

theorem heal_source (cfg : PCfg α κ β) (s : ProducerBusy α κ β γ) (es : List (ProduceEv α κ β γ))
    (h : (afterCalls cfg s es).producer.heal = true) :
    (s.producer.heal = true ∧ NoHealEnds cfg s es) ∨
    ∃ pre e post, es = pre ++ e :: post ∧ CallsForHeal cfg (afterCalls cfg s pre) e ∧
      NoHealEnds cfg (afterCalls cfg s (pre ++ [e])) post := by
  induction es generalizing s with
  | nil => exact .inl ⟨h, trivial⟩
  | cons e es ih =>
    rcases ih _ h with ⟨h1, h2⟩ | ⟨pre, e', post, rfl, h2, h3⟩
    · obtain ⟨g1, g2⟩ := (heal_step cfg s e).1 h1
      rcases g2 with g2 | g2
      · exact .inl ⟨g2, g1, h2⟩
      · exact .inr ⟨[], e, es, rfl, g2, h2⟩
    · exact .inr ⟨e :: pre, e', post, rfl, h2, h3⟩

/-- **C78**, for overlapping calls of a producer: after something that called for a heal (if it was not
an answer whose handling raised), no `send` returns before a `heal()` of a `send` has ended.  (What is
missing is that a heal which had begun before is good enough: see `C78_false`.) -/
theorem C78_producer_partial (cfg : PCfg α κ β) (cl : Cluster) (n : Int)
    (pre mid : List (ProduceEv α κ β γ)) (e : ProduceEv α κ β γ)
    (ht : CallsForHeal cfg (afterCalls cfg (idleProducer cl n) pre) e)
    (hr : ∀ i b topics x, e = .outcome i b (.ok topics) →
      ((afterCalls cfg (idleProducer cl n) pre).step cfg e).1 ≠ .raised x [])
    (hn : NoHealEnds cfg (afterCalls cfg (idleProducer cl n) (pre ++ [e])) mid) (i : Nat)
    (stop : Bool)
    (hc : (afterCalls cfg (idleProducer cl n) (pre ++ e :: mid)).calls.get? i = some (.sending [] stop)) :
    ((afterCalls cfg (idleProducer cl n) (pre ++ e :: mid)).step cfg (.goOn i)).1 = .heals := by
  have h1 := (heal_step cfg _ e).2.2 ht hr
  have h2 : (afterCalls cfg (idleProducer cl n) (pre ++ e :: mid)).producer.heal = true := by
    rw [show pre ++ e :: mid = (pre ++ [e]) ++ mid by simp, afterCalls_append]
    refine heal_course cfg _ mid ?_ hn
    rw [afterCalls_append]
    exact h1
  simp only [ProducerBusy.step, hc, h2, if_true]

/-- **C78**, second half, for overlapping calls of a producer: a `send` heals only if something has called
for it since the last heal of a `send` ended. -/
theorem C78_producer_only (cfg : PCfg α κ β) (cl : Cluster) (n : Int)
    (es : List (ProduceEv α κ β γ)) (i : Nat)
    (h : ((afterCalls cfg (idleProducer cl n) es).step cfg (.goOn i)).1 = .heals) :
    ∃ pre e post, es = pre ++ e :: post ∧
      CallsForHeal cfg (afterCalls cfg (idleProducer cl n) pre) e ∧
      NoHealEnds cfg (afterCalls cfg (idleProducer cl n) (pre ++ [e])) post := by
  have hh : (afterCalls cfg (idleProducer cl n) es).producer.heal = true := by
    generalize afterCalls cfg (idleProducer cl n) es = s at h
    simp only [ProducerBusy.step] at h
    split at h
    · split at h
      · assumption
      · cases h
    · cases h
  rcases heal_source cfg _ es hh with ⟨h1, _⟩ | h1
  · cases h1
  · exact h1

-- Non-vacuity: a `send` heals, as another call's request was answered with an error to be retried.
example : ((afterCalls exAtOnce (idleProducer exPCluster 1) (exOverlap ++
    [.outcome 1 7 (.ok [("t", [(1, 6)])]), .outcome 0 7 (.ok [("t", [(0, 0)])])])).step exAtOnce
      (.goOn 0)).1 = .heals := by decide +kernel

example := C78_producer_partial exAtOnce exPCluster 1 exOverlap [.outcome 0 7 (.ok [("t", [(0, 0)])])]
  (.outcome 1 7 (.ok [("t", [(1, 6)])]))
  (.inr (.inl ⟨1, 7, [("t", [(1, 6)])], ⟨7, 3, [("t", [(1, [⟨1, 5⟩])])]⟩, rfl,
    ⟨[⟨7, 3, [("t", [(1, [⟨1, 5⟩])])]⟩], false, by decide +kernel, by decide +kernel⟩, rfl,
    ("t", [(1, 6)]), by simp, (1, 6), by simp, by decide⟩))
  (by
    intro i b topics x he
    have : ((afterCalls exAtOnce (idleProducer exPCluster 1) exOverlap).step exAtOnce
      (.outcome 1 7 (.ok [("t", [(1, 6)])]))).1 = .nothing := by decide +kernel
    rw [this]
    exact fun h => by cases h)
  ⟨fun ⟨i, h, _⟩ => (by cases h), trivial⟩ 0 false (by decide +kernel)

end Kiel
