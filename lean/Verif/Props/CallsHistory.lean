import Verif.Spec.CallsHistory
import Verif.Props.Stored
import Verif.Props.Order
/-
Courses of overlapping calls of a producer are histories of it: C29 and C75 for them.
-/
set_option autoImplicit false
namespace Kiel
open Spec

variable {α κ β γ : Type}

theorem history_append {cfg : PCfg α κ β} {p p' p'' : Producer κ β} {evs evs' : List (PEv α κ β γ)}
    {acc fin acc' fin' : List (String × Msg κ β)} (h : History cfg p evs acc fin p')
    (h' : History cfg p' evs' acc' fin' p'') :
    History cfg p (evs ++ evs') (acc ++ acc') (fin ++ fin') p'' := by
  induction h with
  | nil p => exact h'
  | cons hstep hok _ ih =>
    rw [List.append_assoc, List.append_assoc]
    exact .cons hstep hok (ih h')

theorem requestsOf_append {cfg : PCfg α κ β} {p p' : Producer κ β} {evs : List (PEv α κ β γ)}
    {acc fin : List (String × Msg κ β)} (h : History cfg p evs acc fin p')
    (evs' : List (PEv α κ β γ)) :
    requestsOf cfg p (evs ++ evs') = requestsOf cfg p evs ++ requestsOf cfg p' evs' := by
  induction h with
  | nil p => rfl
  | cons hstep hok _ ih =>
    simp only [List.cons_append, requestsOf, hstep, ih, List.append_assoc]

/-- The steps of a producer that an event consists of. -/
structure Refines (cfg : PCfg α κ β) (p : Producer κ β) (e : ProduceEv α κ β γ)
    (acc fin : List (String × Msg κ β)) (reqs : List (PReq γ)) (p' : Producer κ β)
    (evs : List (PEv α κ β γ)) : Prop where
  history : History cfg p evs acc fin p'
  requests : requestsOf cfg p evs = reqs
  flushes : ∀ pick comp, PEv.flush pick comp ∈ evs →
    ∃ env, beginsWith e = some env ∧ pick = env.pick ∧ comp = env.comp
  answers : ∀ r, PEv.answer r ∈ evs → ∃ i b, e = .outcome i b (.ok r.topics)

theorem refines_nil (cfg : PCfg α κ β) (p : Producer κ β) (e : ProduceEv α κ β γ) :
    Refines cfg p e [] [] [] p [] :=
  ⟨.nil p, rfl, fun _ _ h => (by cases h), fun _ h => (by cases h)⟩

theorem refines_append {cfg : PCfg α κ β} {p p' p'' : Producer κ β} {e : ProduceEv α κ β γ}
    {acc fin acc' fin' : List (String × Msg κ β)} {reqs reqs' : List (PReq γ)}
    {evs evs' : List (PEv α κ β γ)} (h : Refines cfg p e acc fin reqs p' evs)
    (h' : Refines cfg p' e acc' fin' reqs' p'' evs') :
    Refines cfg p e (acc ++ acc') (fin ++ fin') (reqs ++ reqs') p'' (evs ++ evs') :=
  ⟨history_append h.history h'.history,
    by rw [requestsOf_append h.history, h.requests, h'.requests],
    fun _ _ hm => (List.mem_append.1 hm).elim (h.flushes _ _) (h'.flushes _ _),
    fun _ hm => (List.mem_append.1 hm).elim (h.answers _) (h'.answers _)⟩

/-- A step that neither sends, accepts nor settles. -/
theorem refines_one {cfg : PCfg α κ β} {p p' : Producer κ β} {e : ProduceEv α κ β γ}
    {ev : PEv α κ β γ} (hs : p.step cfg ev = (.none, p')) (ha : accepted cfg p ev = [])
    (hf : settledBy p ev = []) (hr : requestsBy p ev = [])
    (h1 : ∀ pick comp, ev ≠ .flush pick comp) (h2 : ∀ r, ev ≠ .answer r) :
    Refines cfg p e [] [] [] p' [ev] := by
  refine ⟨?_, ?_, fun _ _ h => ?_, fun _ h => ?_⟩
  · have := History.cons hs (fun _ => rfl) (.nil p')
    rwa [ha, hf] at this
  · simp only [requestsOf, hr, List.append_nil]
  · simp only [List.mem_singleton] at h
    exact absurd h.symm (h1 _ _)
  · simp only [List.mem_singleton] at h
    exact absurd h.symm (h2 _)

theorem refines_stop (cfg : PCfg α κ β) (p : Producer κ β) (e : ProduceEv α κ β γ) (stop : Bool) :
    ∃ evs, Refines cfg p e [] [] [] (if stop then { p with cluster := p.cluster.stop } else p) evs := by
  cases stop with
  | false => exact ⟨[], refines_nil cfg p e⟩
  | true => exact ⟨[.cluster p.cluster.stop], refines_one rfl rfl rfl rfl
      (fun _ _ h => by cases h) (fun _ h => by cases h)⟩

theorem flushes_refines (cfg : PCfg α κ β) (s : ProducerBusy α κ β γ) (i : Nat)
    (env : FlushStart κ β γ) (stop : Bool) (e : ProduceEv α κ β γ) (he : beginsWith e = some env)
    (hno : ∀ x, (s.flushes i env stop).1 ≠ .raised x []) :
    ∃ evs, Refines cfg s.producer e [] [] (handed (s.flushes i env stop).1)
      (s.flushes i env stop).2.producer evs := by
  have one : ∀ r p, s.producer.prepare env.pick env.comp = (.ok r, p) →
      Refines cfg s.producer e [] [] (r.getD []) p [.flush env.pick env.comp] := by
    intro r p hp
    refine ⟨?_, ?_, fun _ _ h => ?_, fun _ h => ?_⟩
    · exact History.cons (by simp only [Producer.step, hp]) (fun _ => rfl) (.nil p)
    · simp only [requestsOf, requestsBy, hp, List.append_nil]
      cases r <;> rfl
    · simp only [List.mem_singleton, PEv.flush.injEq] at h
      exact ⟨env, he, h.1, h.2⟩
    · simp at h
  generalize hx : s.flushes i env stop = x at hno ⊢
  unfold ProducerBusy.flushes at hx
  split at hx
  · subst hx; exact absurd rfl (hno _)
  · rename_i p hp
    subst hx
    obtain ⟨evs, h⟩ := refines_stop cfg p e stop
    exact ⟨_, refines_append (one _ _ hp) h⟩
  · rename_i reqs p hp
    split at hx
    · subst hx; exact ⟨_, one _ _ hp⟩
    · subst hx; exact ⟨_, one _ _ hp⟩

theorem enqueue_msg {cfg : PCfg α κ β} {p p' : Producer κ β} {t : String} {a : α} {b : Bool}
    (h : p.enqueue cfg t a = (.ok b, p')) : accepted.msg cfg t a ≠ [] := by
  unfold Producer.enqueue at h
  dsimp only at h
  unfold accepted.msg
  split at h
  · cases h
  · rename_i k hk
    split at h
    · cases h
    · rename_i v hv
      rw [hk, hv]; simp

theorem queues_refines (cfg : PCfg α κ β) (s : ProducerBusy α κ β γ) (i : Nat) (t : String) (a : α)
    (env : FlushStart κ β γ) (e : ProduceEv α κ β γ) (he : beginsWith e = some env)
    (ev : PEv α κ β γ)
    (hstep : ∀ r p, s.producer.enqueue cfg t a = (r, p) →
      ∃ x, s.producer.step cfg ev = (x, p))
    (hc : PEv.critical ev = false) (ha : accepted cfg s.producer ev = accepted.msg cfg t a)
    (hf : settledBy s.producer ev = []) (hr : requestsBy s.producer ev = [])
    (h1 : ∀ pick comp, ev ≠ .flush pick comp) (h2 : ∀ r, ev ≠ .answer r)
    (hno : ∀ x, (s.queues cfg i t a env).1 = .raised x [] → accepted.msg cfg t a = []) :
    ∃ evs, Refines cfg s.producer e (accepted.msg cfg t a) [] (handed (s.queues cfg i t a env).1)
      (s.queues cfg i t a env).2.producer evs := by
  have one : ∀ r p, s.producer.enqueue cfg t a = (r, p) →
      Refines cfg s.producer e (accepted.msg cfg t a) [] [] p [ev] := by
    intro r p hp
    obtain ⟨x, hx⟩ := hstep r p hp
    refine ⟨?_, ?_, fun _ _ h => ?_, fun _ h => ?_⟩
    · have := History.cons hx (fun h => by rw [hc] at h; cases h) (.nil p)
      rwa [ha, hf, List.append_nil] at this
    · simp only [requestsOf, hr, List.append_nil]
    · simp only [List.mem_singleton] at h
      exact absurd h.symm (h1 _ _)
    · simp only [List.mem_singleton] at h
      exact absurd h.symm (h2 _)
  generalize hx : s.queues cfg i t a env = x at hno ⊢
  unfold ProducerBusy.queues at hx
  split at hx
  · rename_i p hp
    subst hx; exact ⟨_, one _ _ hp⟩
  · rename_i p hp
    subst hx
    obtain ⟨evs, h⟩ := flushes_refines cfg { s with producer := p } i env false e he
      (fun x hx => enqueue_msg hp (hno x hx))
    have := refines_append (one _ _ hp) h
    rw [List.append_nil] at this
    exact ⟨_, this⟩
  · rename_i p hp
    subst hx; exact ⟨_, one _ _ hp⟩

/-- Every event of overlapping calls is a sequence of steps of the producer. -/
theorem refines_step (cfg : PCfg α κ β) (s : ProducerBusy α κ β γ) (e : ProduceEv α κ β γ)
    (hs : Smooth cfg s e) :
    ∃ evs, Refines cfg s.producer e (acceptedIn cfg s e) (settledIn cfg s e)
      (handed (s.step cfg e).1) (s.step cfg e).2.producer evs := by
  cases e with
  | produce i t a env =>
    show ∃ evs, Refines cfg s.producer _ _ [] _ _ evs
    unfold Smooth at hs
    simp only [ProducerBusy.step, acceptedIn] at hs ⊢
    by_cases h1 : s.calls.has i = true
    · simp only [h1, if_true, true_or] at hs ⊢
      exact ⟨_, refines_nil _ _ _⟩
    by_cases h2 : s.producer.closing = true
    · simp only [if_neg h1, h2, if_true, true_or, or_true] at hs ⊢
      exact ⟨_, refines_nil _ _ _⟩
    by_cases h3 : s.producer.cluster.topics.has t = true
    · have h4 : ¬ (s.calls.has i = true ∨ s.producer.closing = true ∨
          ¬ s.producer.cluster.topics.has t = true) := by tauto
      have h5 : ¬ (s.producer.closing = true ∨
          ¬ s.producer.cluster.topics.has t = true) := by tauto
      rw [if_neg h1, if_neg h2, if_pos h3, if_neg h4] at hs ⊢
      refine queues_refines cfg s i t a env _ rfl (.produce t a) ?_ rfl ?_ rfl rfl
        (fun _ _ h => by cases h) (fun _ h => by cases h) (fun x hx => (hs x hx).1)
      · intro r p hp
        simp only [Producer.step, if_neg h5, hp]
        cases r <;> exact ⟨_, rfl⟩
      · simp only [accepted, if_neg h5]
    · rw [if_neg h1, if_neg h2, if_neg h3, if_pos (.inr (.inr h3))] at hs ⊢
      exact ⟨_, refines_nil _ _ _⟩
  | flush i env =>
    show ∃ evs, Refines cfg s.producer _ [] [] _ _ evs
    unfold Smooth at hs
    simp only [ProducerBusy.step] at hs ⊢
    by_cases h1 : s.calls.has i = true
    · rw [if_pos h1] at hs ⊢
      exact ⟨_, refines_nil _ _ _⟩
    · rw [if_neg h1] at hs ⊢
      exact flushes_refines cfg s i env false _ rfl
        (fun x hx => (((hs x hx).2 i).1 env).1 rfl)
  | close i env =>
    show ∃ evs, Refines cfg s.producer _ [] [] _ _ evs
    unfold Smooth at hs
    simp only [ProducerBusy.step] at hs ⊢
    by_cases h1 : s.calls.has i = true
    · rw [if_pos h1] at hs ⊢
      exact ⟨_, refines_nil _ _ _⟩
    · rw [if_neg h1] at hs ⊢
      obtain ⟨evs, h⟩ := flushes_refines cfg
        { s with producer := { s.producer with closing := true } } i env true
        (.close (α := α) i env) rfl (fun x hx => (((hs x hx).2 i).1 env).2 rfl)
      exact ⟨_, refines_append (refines_one (ev := .close) rfl rfl rfl rfl
        (fun _ _ h => by cases h) (fun _ h => by cases h)) h⟩
  | found i r env =>
    show ∃ evs, Refines cfg s.producer _ _ [] _ _ evs
    unfold Smooth at hs
    cases r with
    | error x =>
      simp only [ProducerBusy.step, acceptedIn]
      split
      · exact ⟨_, refines_nil _ _ _⟩
      · exact ⟨_, refines_nil _ _ _⟩
    | ok u =>
      simp only [ProducerBusy.step, acceptedIn] at hs ⊢
      cases hc : s.calls.get? i with
      | none => exact ⟨_, refines_nil _ _ _⟩
      | some c =>
        cases c with
        | sending left stop => exact ⟨_, refines_nil _ _ _⟩
        | healing stop => exact ⟨_, refines_nil _ _ _⟩
        | finding t a =>
          simp only [hc] at hs ⊢
          by_cases h3 : s.producer.cluster.topics.has t = true
          · rw [if_pos h3, if_pos h3] at hs ⊢
            refine queues_refines cfg s i t a env _ rfl (.resume t a) ?_ rfl ?_ rfl rfl
              (fun _ _ h => by cases h) (fun _ h => by cases h) (fun x hx => (hs x hx).1)
            · intro r p hp
              simp only [Producer.step, if_neg (not_not.2 h3), hp]
              cases r <;> exact ⟨_, rfl⟩
            · simp only [accepted, if_neg (not_not.2 h3)]
          · rw [if_neg h3, if_neg h3] at hs ⊢
            exact ⟨_, refines_nil _ _ _⟩
  | outcome i b r =>
    show ∃ evs, Refines cfg s.producer _ [] _ _ _ evs
    unfold Smooth at hs
    cases r with
    | error x =>
      show ∃ evs, Refines cfg s.producer _ [] [] _ _ evs
      simp only [ProducerBusy.step]
      split
      · split
        · exact ⟨_, refines_nil _ _ _⟩
        · rename_i req _
          exact ⟨[.failed req.corr x], refines_one rfl rfl rfl rfl
            (fun _ _ h => by cases h) (fun _ h => by cases h)⟩
      · exact ⟨_, refines_nil _ _ _⟩
    | ok topics =>
      simp only [ProducerBusy.step, settledIn] at hs ⊢
      cases hc : s.calls.get? i with
      | none => exact ⟨_, refines_nil _ _ _⟩
      | some c =>
        cases c with
        | finding t a => exact ⟨_, refines_nil _ _ _⟩
        | healing stop => exact ⟨_, refines_nil _ _ _⟩
        | sending left stop =>
          simp only [hc] at hs ⊢
          cases hq : left.find? (fun q => decide (q.broker = b)) with
          | none => exact ⟨_, refines_nil _ _ _⟩
          | some q =>
            simp only [hq] at hs ⊢
            cases hh : s.producer.handleResponse ⟨q.corr, topics⟩ with
            | mk r p =>
              cases r with
              | error x =>
                simp only [hh] at hs
                exact absurd rfl (((hs x rfl).2 i).2 b topics)
              | ok u =>
                simp only [hh] at hs ⊢
                refine ⟨[.answer ⟨q.corr, topics⟩], ?_, rfl, fun _ _ h => ?_, fun r h => ?_⟩
                · have := History.cons (cfg := cfg) (p := s.producer)
                    (ev := (.answer ⟨q.corr, topics⟩ : PEv α κ β γ)) (e := .none) (p' := p)
                    (by simp only [Producer.step, hh]) (fun _ => rfl) (.nil p)
                  simpa only [accepted, settledBy, List.append_nil] using this
                · simp at h
                · simp only [List.mem_singleton, PEv.answer.injEq] at h
                  exact ⟨i, b, by rw [h]⟩
  | goOn i =>
    show ∃ evs, Refines cfg s.producer _ [] [] _ _ evs
    simp only [ProducerBusy.step]
    split
    · split
      · exact ⟨_, refines_nil _ _ _⟩
      · exact refines_stop cfg s.producer _ _
    · exact ⟨_, refines_nil _ _ _⟩
  | healed i r =>
    show ∃ evs, Refines cfg s.producer _ [] [] _ _ evs
    simp only [ProducerBusy.step]
    split
    · split
      · exact ⟨_, refines_nil _ _ _⟩
      · rename_i stop _ _ _
        obtain ⟨evs, h⟩ := refines_stop cfg { s.producer with heal := false } (.healed i (.ok _)) stop
        exact ⟨_, refines_append (refines_one (ev := .healed) rfl rfl rfl rfl
          (fun _ _ h => by cases h) (fun _ h => by cases h)) h⟩
    · exact ⟨_, refines_nil _ _ _⟩
  | cluster cl =>
    exact ⟨[.cluster cl], refines_one rfl rfl rfl rfl
      (fun _ _ h => by cases h) (fun _ h => by cases h)⟩
  | others n =>
    exact ⟨[.others n], refines_one rfl rfl rfl rfl
      (fun _ _ h => by cases h) (fun _ h => by cases h)⟩

/-- Every course of overlapping calls is a history of the producer. -/
theorem refines_course (cfg : PCfg α κ β) (f : κ → Int) (read : γ → List (Msg κ β)) (t : String)
    (part : Int) (es : List (ProduceEv α κ β γ)) : ∀ (s : ProducerBusy α κ β γ),
    Throughout cfg (Smooth cfg) s es → (∀ e ∈ es, KeyedBy f read e) →
    (∀ e ∈ es, NotRetried t part e) →
    ∃ evs, History cfg s.producer evs (inCourse cfg (acceptedIn cfg) s es)
        (inCourse cfg (settledIn cfg) s es) (afterCalls cfg s es).producer ∧
      requestsOf cfg s.producer evs = inCourse cfg (fun s e => handed (s.step cfg e).1) s es ∧
      ByKey f read evs ∧ ∀ r, PEv.answer r ∈ evs → ¬ RetriableIn r t part := by
  induction es with
  | nil =>
    intro s _ _ _
    exact ⟨[], .nil _, rfl, fun _ _ h => (by cases h), fun _ h => (by cases h)⟩
  | cons e es ih =>
    intro s hs hk hn
    obtain ⟨evs, h⟩ := refines_step cfg s e hs.1
    obtain ⟨evs', h1, h2, h3, h4⟩ := ih (s.step cfg e).2 hs.2
      (fun e he => hk e (.tail _ he)) (fun e he => hn e (.tail _ he))
    refine ⟨evs ++ evs', history_append h.history h1, ?_, ?_, ?_⟩
    · rw [requestsOf_append h.history, h.requests, h2]; rfl
    · intro pick comp hm
      rcases List.mem_append.1 hm with hm | hm
      · obtain ⟨env, he, rfl, rfl⟩ := h.flushes _ _ hm
        exact hk e (.head _) env he
      · exact h3 _ _ hm
    · intro r hm
      rcases List.mem_append.1 hm with hm | hm
      · obtain ⟨i, b, he⟩ := h.answers _ hm
        rintro ⟨code, hc, hin⟩
        simp only [PResp.answers, List.mem_flatMap, List.mem_map] at hin
        obtain ⟨a, ha, c, hc', heq⟩ := hin
        cases heq
        exact hn e (.head _) i b r.topics he a ha rfl c hc' rfl hc
      · exact h4 _ hm

/-- **C75**, for whole calls of `produce`, `flush` and `close` that overlap in any way: if partitions are
chosen by key, no flush and no handling of an answer raises, and no answer reports a retriable error for
a partition, the messages handed over for it, in order, followed by those still queued for it, are the
messages accepted for it, in order.  Missing: courses with retriable errors; see `C75_false`. -/
theorem C75_calls_partial (cfg : PCfg α κ β) (f : κ → Int) (read : γ → List (Msg κ β))
    (cl : Cluster) (n : Int) (es : List (ProduceEv α κ β γ)) (t : String) (part : Int)
    (hs : Throughout cfg (Smooth cfg) ⟨Producer.new cl n, []⟩ es)
    (hk : ∀ e ∈ es, KeyedBy f read e) (hn : ∀ e ∈ es, NotRetried t part e) :
    inPartition read
        (inCourse cfg (fun s e => handed (s.step cfg e).1) ⟨Producer.new cl n, []⟩ es) t part ++
      (queueOf (afterCalls cfg ⟨Producer.new cl n, []⟩ es).producer.unsent t).filter
        (fun m => decide (f m.key = part)) =
      ownOf f t part (inCourse cfg (acceptedIn cfg) ⟨Producer.new cl n, []⟩ es) := by
  obtain ⟨evs, h1, h2, h3, h4⟩ := refines_course cfg f read t part es _ hs hk hn
  rw [← h2]
  exact C75_order_partial cfg f read cl n evs _ _ _ t part h1 h3 h4

/-! ### Examples -/

theorem smooth_of_seen (cfg : PCfg α κ β) (es : List (ProduceEv α κ β γ)) :
    ∀ s, (∀ o ∈ seenIn cfg s es, ∀ x, o ≠ .raised x []) → Throughout cfg (Smooth cfg) s es := by
  induction es with
  | nil => intro s _; trivial
  | cons e es ih =>
    intro s h
    exact ⟨fun x hx => absurd hx (h _ (.head _) x), ih _ (fun o ho => h o (.tail _ ho))⟩

/-- Messages are pairs of a key and a number; two make a batch. -/
def exPairs : PCfg (Int × Nat) Int Nat := ⟨fun m => .ok m.1, fun m => .ok m.2, 2⟩

/-- Partitions by key, no compression. -/
def exKeyed : FlushStart Int Nat (List (Msg Int Nat)) := ⟨exByKey, .ok, fun _ => .none⟩

/-- Overlapping calls, answered out of order; partition 1 is to be tried again. -/
def exCallsOrder : List (ProduceEv (Int × Nat) Int Nat (List (Msg Int Nat))) :=
  [.produce 0 "t" (0, 10) exKeyed, .produce 1 "t" (1, 11) exKeyed, .produce 2 "t" (0, 12) exKeyed,
    .flush 3 exKeyed, .outcome 3 7 (.ok [("t", [(0, 0)])]),
    .outcome 1 7 (.ok [("t", [(0, 0), (1, 6)])]), .produce 4 "t" (0, 13) exKeyed,
    .produce 5 "t" (0, 14) exKeyed]

-- Non-vacuity: messages of partition 0 in three requests of overlapping calls, and one in the queue.
example : Throughout exPairs (Smooth exPairs) ⟨Producer.new exPCluster 0, []⟩ exCallsOrder ∧
    (∀ e ∈ exCallsOrder, KeyedBy id id e) ∧ (∀ e ∈ exCallsOrder, NotRetried "t" 0 e) ∧
    inPartition id (inCourse exPairs (fun s e => handed (s.step exPairs e).1)
      ⟨Producer.new exPCluster 0, []⟩ exCallsOrder) "t" 0 = [⟨0, 10⟩, ⟨0, 12⟩, ⟨0, 13⟩] ∧
    queueOf (afterCalls exPairs ⟨Producer.new exPCluster 0, []⟩ exCallsOrder).producer.unsent "t" =
      [⟨0, 14⟩] := by
  have hs : seenIn exPairs ⟨Producer.new exPCluster 0, []⟩ exCallsOrder =
      [.returned, .sent [⟨7, 1, [("t", [(0, [⟨0, 10⟩]), (1, [⟨1, 11⟩])])]⟩], .returned,
        .sent [⟨7, 2, [("t", [(0, [⟨0, 12⟩])])]⟩], .nothing, .nothing,
        .sent [⟨7, 3, [("t", [(1, [⟨1, 11⟩]), (0, [⟨0, 13⟩])])]⟩], .returned] := by decide +kernel
  refine ⟨smooth_of_seen _ _ _ ?_, ?_, ?_, by decide +kernel, by decide +kernel⟩
  · rw [hs]
    intro o ho x hx
    subst hx
    simp at ho
  · intro e he env hb
    have : env = exKeyed := by
      simp only [exCallsOrder, List.mem_cons, List.not_mem_nil, or_false] at he
      rcases he with rfl | rfl | rfl | rfl | rfl | rfl | rfl | rfl <;> cases hb <;> rfl
    subst this
    exact ⟨fun _ _ _ _ h => by cases h; rfl, fun _ _ h => by cases h; rfl⟩
  · intro e he i b topics hx
    simp only [exCallsOrder, List.mem_cons, List.not_mem_nil, or_false] at he
    rcases he with rfl | rfl | rfl | rfl | rfl | rfl | rfl | rfl <;> cases hx <;> decide

end Kiel
