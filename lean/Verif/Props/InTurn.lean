import Verif.Props.CallsHistory
/-
C75 for courses in which calls raise: no message overtakes another of its partition.
-/
set_option autoImplicit false
namespace Kiel
open Spec
open scoped List

variable {α κ β γ : Type}

/-! ### What is kept of a flush that raises -/

theorem kept_upd {sent : Dict Int (ByPartition κ β)} {corr : Int} {t : String} {part : Int}
    {msgs : List (Msg κ β)} {c : Int} {t' : String} {part' : Int} {ms : List (Msg κ β)}
    (h : sentFor (sent.upd corr [] fun ts => ts.upd t [] fun ps => ps.set part msgs) c t' part' =
      some ms) : sentFor sent c t' part' = some ms ∨ (t' = t ∧ part' = part ∧ ms = msgs) := by
  unfold sentFor at h ⊢
  rw [Dict.getD_upd] at h
  by_cases hc : corr = c
  · subst hc
    simp only [if_true, Dict.get?_upd] at h
    by_cases ht : t = t'
    · subst ht
      simp only [if_true, Option.bind_some, Dict.get?_set] at h
      by_cases hp : part = part'
      · subst hp
        simp only [if_true, Option.some.injEq] at h
        exact .inr ⟨rfl, rfl, h.symm⟩
      · simp only [hp, if_false] at h
        left
        cases hx : Dict.get? ((Dict.get? sent corr).getD []) t with
        | none => simp [hx, Dict.get?] at h
        | some v => simpa [hx] using h
    · simp only [ht, if_false] at h
      exact .inl h
  · simp only [hc, if_false] at h
    exact .inl h

/-- What is kept for a partition has only keys that `f` puts there. -/
def RightFor (f : κ → Int) (sent : Dict Int (ByPartition κ β)) : Prop :=
  ∀ corr t part ms, sentFor sent corr t part = some ms → ∀ m ∈ ms, f m.key = part

theorem buildParts_right {f : κ → Int} (comp : List (Msg κ β) → Res γ) (corr : Int) (t : String)
    (ps : Dict Int (List (Msg κ β))) (sent : Dict Int (ByPartition κ β)) (acc : List (Int × γ))
    (hp : ∀ q ∈ ps, ∀ m ∈ q.2, f m.key = q.1) (h : RightFor f sent) :
    RightFor f (buildParts comp corr t ps sent acc).2 := by
  induction ps generalizing sent acc with
  | nil => exact h
  | cons q ps ih =>
    simp only [buildParts]
    split
    · exact h
    · refine ih _ _ (fun q hq => hp q (.tail _ hq)) fun c t' part' ms hs m hm => ?_
      rcases kept_upd hs with hs | ⟨_, rfl, rfl⟩
      · exact h _ _ _ _ hs m hm
      · exact hp q (.head _) m hm

theorem buildTopics_right {f : κ → Int} (comp : List (Msg κ β) → Res γ) (corr : Int)
    (ts : ByPartition κ β) (sent : Dict Int (ByPartition κ β)) (acc : List (String × List (Int × γ)))
    (hp : ∀ x ∈ ts, ∀ q ∈ x.2, ∀ m ∈ q.2, f m.key = q.1) (h : RightFor f sent) :
    RightFor f (buildTopics comp corr ts sent acc).2 := by
  induction ts generalizing sent acc with
  | nil => exact h
  | cons x ts ih =>
    have h1 := buildParts_right comp corr x.1 x.2 sent [] (hp x (.head _)) h
    simp only [buildTopics]
    split
    · rename_i hx; rw [hx] at h1; exact h1
    · rename_i hx; rw [hx] at h1
      exact ih _ _ (fun x hx => hp x (.tail _ hx)) h1

theorem buildRequests_right {f : κ → Int} (comp : List (Msg κ β) → Res γ)
    (o : Dict Int (ByPartition κ β)) (sent : Dict Int (ByPartition κ β)) (n : Int)
    (acc : List (PReq γ)) (hp : ∀ e ∈ o, ∀ x ∈ e.2, ∀ q ∈ x.2, ∀ m ∈ q.2, f m.key = q.1)
    (h : RightFor f sent) : RightFor f (buildRequests comp o sent n acc).2.1 := by
  induction o generalizing sent n acc with
  | nil => exact h
  | cons e o ih =>
    have h1 := buildTopics_right comp (n + 1) e.2 sent [] (hp e (.head _)) h
    simp only [buildRequests]
    split
    · rename_i hx; rw [hx] at h1; exact h1
    · rename_i hx; rw [hx] at h1
      exact ih _ _ _ (fun x hx => hp x (.tail _ hx)) h1

/-- What is queued of a partition. -/
def ownQueue (f : κ → Int) (p : Producer κ β) (t : String) (part : Int) : List (Msg κ β) :=
  (queueOf p.unsent t).filter fun m => decide (f m.key = part)

/-- Whatever becomes of a flush: what it hands over for a partition and what it leaves queued were
queued, in this order. -/
theorem prepare_order {pick : Nat → κ → List Int → Res Int} {comp : List (Msg κ β) → Res γ}
    {read : γ → List (Msg κ β)} {f : κ → Int} {p : Producer κ β} (hw : WF p)
    (hn : p.unsent.keys.Nodup) (hk : KeptRight f p)
    (hf : ∀ n k parts q, pick n k parts = .ok q → q = f k)
    (hread : ∀ ms s, comp ms = .ok s → read s = ms) (t : String) (part : Int) :
    (p.prepare pick comp).2.unsent.keys.Nodup ∧ KeptRight f (p.prepare pick comp).2 ∧
    (∀ reqs, (p.prepare pick comp).1 = .ok (some reqs) →
      inPartition read reqs t part ++ ownQueue f (p.prepare pick comp).2 t part <+ ownQueue f p t part) ∧
    ownQueue f (p.prepare pick comp).2 t part <+ ownQueue f p t part := by
  generalize hx : p.prepare pick comp = x
  obtain ⟨r, p'⟩ := x
  cases r with
  | ok o =>
    cases o with
    | none =>
      obtain ⟨rfl, _⟩ := prepare_none hx
      exact ⟨hn, hk, by simp, .refl _⟩
    | some reqs =>
      have := flush_order (read := read) hw hn hf hread hx t part
      refine ⟨unsent_prepare hn hx, keptRight_prepare hw hf hx hk, fun _ e => ?_, ?_⟩
      · cases e
        unfold ownQueue
        rw [← this]
      · unfold ownQueue
        rw [← this]
        exact List.sublist_append_right _ _
  | error e =>
    unfold Producer.prepare at hx
    split at hx
    · cases hx
    · obtain ⟨g1, g2⟩ := routeTopics_ok pick 0 p.unsent.reverse p.cluster p.cluster ⟨[], []⟩
        (SameView.refl _)
      cases hr : routeTopics pick 0 p.unsent.reverse p.cluster ⟨[], []⟩ with
      | mk res cr =>
        obtain ⟨cl, rest⟩ := cr
        rw [hr] at hx g1 g2
        cases res with
        | error e' =>
          simp only [Prod.mk.injEq, Except.error.injEq] at hx
          obtain ⟨rfl, rfl⟩ := hx
          obtain ⟨gone, h1, h2, _⟩ := routeTopics_error _ _ _ _ _ _ _ (SameView.refl p.cluster) hr
          have h3 : p.unsent = rest.reverse ++ gone.reverse := by
            have := congrArg List.reverse h2
            simpa using this
          have hsub : List.Sublist rest.reverse p.unsent := h3 ▸ List.sublist_append_left _ _
          have hn' : (Dict.keys (rest.reverse : Dict String (List (Msg κ β)))).Nodup :=
            hn.sublist (hsub.map _)
          have hq : ownQueue f { p with cluster := cl, unsent := rest.reverse } t part <+
              ownQueue f p t part := by
            unfold ownQueue
            rw [← inQueue_own f _ hn t part, ← inQueue_own f _ hn' t part]
            exact ((List.Sublist.flatMap hsub _).filter _).map _
          exact ⟨hn', hk, by simp, hq⟩
        | ok r =>
          simp only at hx g2
          obtain ⟨pl, a1, a2, a3, a4⟩ := g2 r rfl
          subst a4
          have ht := tidyAll_routeTo p.cluster pl ⟨[], []⟩ tidyAll_nil
          have hpart : ∀ x ∈ pl, x.part = f x.msg.key := by
            intro x hx
            obtain ⟨i, hi, rfl⟩ := List.getElem_of_mem hx
            exact hf _ _ _ _ (a2 i hi)
          have hright : ∀ e ∈ (routeTo p.cluster pl ⟨[], []⟩).ordered, ∀ x ∈ e.2, ∀ q ∈ x.2,
              ∀ m ∈ q.2, f m.key = q.1 := by
            intro e he x hx q hq m hm
            have hs : sentFor (routeTo p.cluster pl ⟨[], []⟩).ordered e.1 x.1 q.1 = some q.2 :=
              (sentFor_mem ht _ _ _ _).2 ⟨_, he, _, hx, hq⟩
            have hro := routeTo_ordered p.cluster pl ⟨[], []⟩ e.1 x.1 q.1
            have hnil : sentFor ([] : Dict Int (ByPartition κ β)) e.1 x.1 q.1 = .none := rfl
            rw [hs] at hro
            simp only [hnil, Option.getD_none, List.nil_append, Option.getD_some] at hro
            rw [hro] at hm
            split at hm
            · unfold placedOn at hm
              obtain ⟨y, hy, rfl⟩ := List.mem_map.1 hm
              rw [List.mem_filter] at hy
              simp only [decide_eq_true_eq] at hy
              rw [← hpart y hy.1]
              exact hy.2.2.2
            · simp at hm
          have hb2 := buildRequests_right comp _ p.sent p.lastId [] hright hk
          split at hx
          · rename_i hb
            rw [hb] at hb2
            simp only [Prod.mk.injEq, Except.error.injEq] at hx
            obtain ⟨rfl, rfl⟩ := hx
            exact ⟨List.nodup_nil, hb2, by simp, List.nil_sublist _⟩
          · cases hx

/-! ### Answers -/

theorem handlePart_order {f : κ → Int} {p : Producer κ β} (hk : KeptRight f p) (corr : Int)
    (t' : String) (part' code : Int) {t : String} {part : Int}
    (hret : t' = t → part' = part → ¬ Retriable code) :
    KeptRight f (p.handlePart corr t' part' code).2 ∧
    ownQueue f (p.handlePart corr t' part' code).2 t part = ownQueue f p t part := by
  unfold Producer.handlePart
  have kept : ∀ ps : Dict Int (List (Msg κ β)),
      (∀ q ms, ps.get? q = some ms →
        ((((p.sent.get? corr).getD []).get? t').getD []).get? q = some ms) →
      RightFor f (p.sent.set corr (((p.sent.get? corr).getD []).set t' ps)) := by
    intro ps hps c t2 part2 ms hs m hm
    refine hk c t2 part2 ms ?_ m hm
    unfold sentFor at hs ⊢
    rw [Dict.get?_set] at hs
    by_cases hc : corr = c
    · subst hc
      simp only [if_true, Option.getD_some, Dict.get?_set] at hs
      by_cases ht : t' = t2
      · subst ht
        simp only [if_true, Option.bind_some] at hs
        have := hps _ _ hs
        cases hx : Dict.get? ((Dict.get? p.sent corr).getD []) t' with
        | none => simp [hx, Dict.get?] at this
        | some v => simpa [hx] using this
      · simpa only [ht, if_false] using hs
    · simpa only [hc, if_false] using hs
  split
  · exact ⟨hk, rfl⟩
  · split
    · rename_i hc
      simp only
      split
      · exact ⟨kept _ fun _ _ h => h, rfl⟩
      · rename_i ms hms
        refine ⟨kept _ fun q ms h => ?_, ?_⟩
        · rw [Dict.get?_erase] at h
          split at h
          · cases h
          · exact h
        · unfold ownQueue Producer.queueRetries queueOf
          simp only [Dict.getD_upd]
          by_cases ht : t' = t
          · subst ht
            simp only [if_true, List.filter_append]
            refine List.append_right_eq_self.2 (List.filter_eq_nil_iff.2 ?_)
            intro m hm
            have hs : sentFor p.sent corr t' part' = some ms := by
              unfold sentFor
              cases hx : Dict.get? ((Dict.get? p.sent corr).getD []) t' with
              | none => simp [hx, Dict.get?] at hms
              | some v => simpa [hx] using hms
            have := hk _ _ _ _ hs m hm
            simp only [decide_eq_true_eq]
            rintro rfl
            exact hret rfl this.symm (by simpa [Retriable, Err.retriable] using hc)
          · simp only [ht, if_false]
    · split <;> exact ⟨hk, rfl⟩

theorem handleParts_order {f : κ → Int} (corr : Int) (l : List (String × Int × Int))
    {p : Producer κ β} (hk : KeptRight f p) {t : String} {part : Int}
    (hret : ∀ code, (t, part, code) ∈ l → ¬ Retriable code) :
    KeptRight f (Producer.handleParts corr l p).2 ∧
    ownQueue f (Producer.handleParts corr l p).2 t part = ownQueue f p t part := by
  induction l generalizing p with
  | nil => exact ⟨hk, rfl⟩
  | cons a l ih =>
    obtain ⟨t', part', code⟩ := a
    have h1 := handlePart_order hk corr t' part' code (t := t) (part := part) (by
      rintro rfl rfl
      exact hret code (.head _))
    simp only [Producer.handleParts]
    cases hx : p.handlePart corr t' part' code with
    | mk r p1 =>
      rw [hx] at h1
      cases r with
      | error e => exact h1
      | ok u =>
        obtain ⟨k1, k2⟩ := ih h1.1 (fun c hc => hret c (.tail _ hc))
        exact ⟨k1, k2.trans h1.2⟩

theorem handleResponse_order {f : κ → Int} {p : Producer κ β} (hk : KeptRight f p) (r : PResp)
    {t : String} {part : Int} (hret : ¬ RetriableIn r t part) :
    KeptRight f (p.handleResponse r).2 ∧
    ownQueue f (p.handleResponse r).2 t part = ownQueue f p t part := by
  have h1 := handleParts_order r.corr r.answers hk (t := t) (part := part)
    (fun code hc hr => hret ⟨code, hr, hc⟩)
  unfold Producer.handleResponse
  rw [handleTopics_eq]
  cases hx : Producer.handleParts r.corr r.answers p with
  | mk res p1 =>
    rw [hx] at h1
    cases res with
    | error e => exact h1
    | ok u =>
      simp only
      split
      · refine ⟨fun c t' part' ms hs m hm => h1.1 c t' part' ms ?_ m hm, h1.2⟩
        unfold sentFor at hs ⊢
        simp only [Dict.get?_erase] at hs
        split at hs
        · simp [Dict.get?] at hs
        · exact hs
      · exact h1

/-! ### Calls -/

/-- What is needed of a producer. -/
structure OrderWF (f : κ → Int) (p : Producer κ β) : Prop where
  nodup : p.unsent.keys.Nodup
  kept : KeptRight f p

/-- After an event, what was handed over for the partition and what is queued were queued or accepted, in
this order. -/
structure InOrder (read : γ → List (Msg κ β)) (f : κ → Int) (t : String) (part : Int)
    (q : List (Msg κ β)) (r : ProduceOut γ × ProducerBusy α κ β γ) : Prop where
  wf : OrderWF f r.2.producer
  order : inPartition read (handed r.1) t part ++ ownQueue f r.2.producer t part <+ q

theorem flushes_order {read : γ → List (Msg κ β)} {f : κ → Int} {s : ProducerBusy α κ β γ}
    (hw : WF s.producer) (ho : OrderWF f s.producer) (i : Nat) {env : FlushStart κ β γ}
    (hf : ∀ n k parts q, env.pick n k parts = .ok q → q = f k)
    (hread : ∀ ms x, env.comp ms = .ok x → read x = ms) (stop : Bool) (t : String) (part : Int) :
    InOrder read f t part (ownQueue f s.producer t part) (s.flushes i env stop) := by
  obtain ⟨h1, h2, h3, h4⟩ := prepare_order hw ho.nodup ho.kept hf hread t part
  unfold ProducerBusy.flushes
  split
  · rename_i hx
    rw [hx] at h1 h2 h4
    exact ⟨⟨h1, h2⟩, h4⟩
  · rename_i hx
    rw [hx] at h1 h2 h4
    unfold ProducerBusy.over
    cases stop
    · exact ⟨⟨h1, h2⟩, h4⟩
    · exact ⟨⟨h1, h2⟩, h4⟩
  · rename_i reqs p hx
    rw [hx] at h1 h2 h3
    split
    · exact ⟨⟨h1, h2⟩, h3 _ rfl⟩
    · exact ⟨⟨h1, h2⟩, h3 _ rfl⟩

theorem queues_order {cfg : PCfg α κ β} {read : γ → List (Msg κ β)} {f : κ → Int}
    {s : ProducerBusy α κ β γ}
    (hw : WF s.producer) (ho : OrderWF f s.producer) (i : Nat) (topic : String) (a : α)
    {env : FlushStart κ β γ}
    (hf : ∀ n k parts q, env.pick n k parts = .ok q → q = f k)
    (hread : ∀ ms x, env.comp ms = .ok x → read x = ms) (t : String) (part : Int) :
    InOrder read f t part (ownQueue f s.producer t part ++ ownOf f t part (accepted.msg cfg topic a))
      (s.queues cfg i topic a env) := by
  have h1 := unsent_enqueue (cfg := cfg) topic a ho.nodup
  obtain ⟨g1, g2⟩ := enqueue_order (cfg := cfg) (f := f) (p := s.producer) (t' := topic) (a := a)
    Prod.mk.eta.symm t part
  have hw' : WF (s.producer.enqueue cfg topic a).2 := by
    obtain ⟨e1, _, e3, _⟩ := enqueue_others cfg s.producer topic a
    exact ⟨by rw [e3]; exact hw.nodup, by rw [e3, e1]; exact hw.old, by rw [e3]; exact hw.topics⟩
  have hk : KeptRight f (s.producer.enqueue cfg topic a).2 := by
    unfold KeptRight
    rw [g1]
    exact ho.kept
  have g2 : ownQueue f (s.producer.enqueue cfg topic a).2 t part = _ := g2
  unfold ProducerBusy.queues
  split
  · rename_i hx
    rw [hx] at h1 hk g2
    exact ⟨⟨h1, hk⟩, g2 ▸ List.Sublist.refl _⟩
  · rename_i p hx
    rw [hx] at h1 hk g2 hw'
    have := flushes_order (s := { s with producer := p }) hw' ⟨h1, hk⟩ i hf hread false t part
    exact ⟨this.wf, this.order.trans (by rw [g2]; exact .refl _)⟩
  · rename_i hx
    rw [hx] at h1 hk g2
    exact ⟨⟨h1, hk⟩, g2 ▸ List.Sublist.refl _⟩

theorem calls_order_step (cfg : PCfg α κ β) {read : γ → List (Msg κ β)} {f : κ → Int}
    {s : ProducerBusy α κ β γ} {e : ProduceEv α κ β γ} {t : String} {part : Int}
    (hw : WF s.producer) (ho : OrderWF f s.producer) (hk : KeyedBy f read e)
    (hn : NotRetried t part e) :
    InOrder read f t part (ownQueue f s.producer t part ++ ownOf f t part (acceptedIn cfg s e))
      (s.step cfg e) := by
  have same : ∀ (r : ProduceOut γ × ProducerBusy α κ β γ), handed r.1 = [] →
      r.2.producer.unsent = s.producer.unsent → r.2.producer.sent = s.producer.sent →
      InOrder read f t part (ownQueue f s.producer t part ++ ownOf f t part (acceptedIn cfg s e)) r := by
    intro r h1 h2 h3
    refine ⟨⟨by rw [h2]; exact ho.nodup, by unfold KeptRight; rw [h3]; exact ho.kept⟩, ?_⟩
    rw [h1]
    unfold ownQueue
    rw [h2]
    exact List.sublist_append_left _ _
  cases e with
  | produce k topic a env =>
    obtain ⟨k1, k2⟩ := hk env rfl
    simp only [ProducerBusy.step]
    split
    · exact same _ rfl rfl rfl
    · rename_i hx
      split
      · exact same _ rfl rfl rfl
      · rename_i hcl
        split
        · rename_i ht
          simp only [acceptedIn, hx, hcl, ht, not_true, or_self, if_false, Bool.false_eq_true]
          exact queues_order hw ho k topic a k1 k2 t part
        · exact same _ rfl rfl rfl
  | flush k env =>
    obtain ⟨k1, k2⟩ := hk env rfl
    simp only [ProducerBusy.step]
    split
    · exact same _ rfl rfl rfl
    · have := flushes_order (s := s) hw ho k k1 k2 false t part
      exact ⟨this.wf, this.order.trans (List.sublist_append_left _ _)⟩
  | close k env =>
    obtain ⟨k1, k2⟩ := hk env rfl
    simp only [ProducerBusy.step]
    split
    · exact same _ rfl rfl rfl
    · have := flushes_order (s := { s with producer := { s.producer with closing := true } })
        ⟨hw.nodup, hw.old, hw.topics⟩ ⟨ho.nodup, ho.kept⟩ k k1 k2 true t part
      exact ⟨this.wf, this.order.trans (List.sublist_append_left _ _)⟩
  | found k r env =>
    obtain ⟨k1, k2⟩ := hk env rfl
    simp only [ProducerBusy.step]
    split
    · rename_i topic a hc
      split
      · exact same _ rfl rfl rfl
      · split
        · rename_i ht
          simp only [acceptedIn, hc, ht, if_true]
          exact queues_order hw ho k topic a k1 k2 t part
        · exact same _ rfl rfl rfl
    · exact same _ rfl rfl rfl
  | outcome k b r =>
    simp only [ProducerBusy.step]
    split
    · split
      · exact same _ rfl rfl rfl
      · rename_i left stop hc q hq
        split
        · refine same _ rfl ?_ ?_ <;> (simp only; split <;> rfl)
        · rename_i topics
          have hret : ¬ RetriableIn ⟨q.corr, topics⟩ t part := by
            rintro ⟨code, h1, h2⟩
            obtain ⟨a, ha, h3, c, hc, h4, rfl⟩ := mem_answers.1 h2
            exact hn k b topics rfl a ha h3 c hc h4 h1
          have h1 := unsent_handleResponse ⟨q.corr, topics⟩ ho.nodup
          obtain ⟨h2, h3⟩ := handleResponse_order ho.kept ⟨q.corr, topics⟩ hret
          split
          · rename_i hx
            rw [hx] at h1 h2 h3
            exact ⟨⟨h1, h2⟩, List.Sublist.trans (l₂ := ownQueue f s.producer t part)
              (by rw [← h3]; exact .refl _) (List.sublist_append_left _ _)⟩
          · rename_i hx
            rw [hx] at h1 h2 h3
            exact ⟨⟨h1, h2⟩, List.Sublist.trans (l₂ := ownQueue f s.producer t part)
              (by rw [← h3]; exact .refl _) (List.sublist_append_left _ _)⟩
    · exact same _ rfl rfl rfl
  | goOn k =>
    simp only [ProducerBusy.step]
    split
    · split
      · exact same _ rfl rfl rfl
      · refine same _ rfl ?_ ?_ <;> (simp only [ProducerBusy.over]; split <;> rfl)
    · exact same _ rfl rfl rfl
  | healed k r =>
    simp only [ProducerBusy.step]
    split
    · split
      · exact same _ rfl rfl rfl
      · refine same _ rfl ?_ ?_ <;> (simp only [ProducerBusy.over]; split <;> rfl)
    · exact same _ rfl rfl rfl
  | cluster cl => exact same _ rfl rfl rfl
  | others n => exact same _ rfl rfl rfl

theorem calls_order (cfg : PCfg α κ β) {read : γ → List (Msg κ β)} {f : κ → Int} {t : String}
    {part : Int} (es : List (ProduceEv α κ β γ)) (s : ProducerBusy α κ β γ) (hw : CallsWF s)
    (ho : OrderWF f s.producer) (hk : ∀ e ∈ es, KeyedBy f read e) (hn : ∀ e ∈ es, NotRetried t part e) :
    inPartition read (inCourse cfg (fun s e => handed (s.step cfg e).1) s es) t part ++
      ownQueue f (afterCalls cfg s es).producer t part <+
    ownQueue f s.producer t part ++ ownOf f t part (inCourse cfg (acceptedIn cfg) s es) := by
  induction es generalizing s with
  | nil => simp [inCourse, afterCalls, inPartition, ownOf]
  | cons e es ih =>
    have h1 := calls_order_step cfg hw.wf ho (hk e (.head _)) (hn e (.head _))
    have h2 := ih _ (callsWF_step cfg s e hw) h1.wf (fun e he => hk e (.tail _ he))
      (fun e he => hn e (.tail _ he))
    simp only [inCourse, afterCalls, inPartition_append, own_append, List.append_assoc]
    refine (h2.append_left _).trans ?_
    rw [← List.append_assoc, ← List.append_assoc]
    exact h1.order.append_right _

/-- **C75**, calls that overlap in any way, and flushes and answers that raise: if partitions are chosen
by key and no answer reports a retriable error for a partition, then the messages handed over for it, in
order, and after them those still queued for it, were accepted for it in this order; some may be missing
(C33, C87), but none overtakes another and none is handed over twice.  Missing: courses with retriable
errors; see `C75_false`. -/
theorem C75_raising_partial (cfg : PCfg α κ β) (f : κ → Int) (read : γ → List (Msg κ β))
    (cl : Cluster) (n : Int) (es : List (ProduceEv α κ β γ)) (t : String) (part : Int)
    (hk : ∀ e ∈ es, KeyedBy f read e) (hn : ∀ e ∈ es, NotRetried t part e) :
    inPartition read
        (inCourse cfg (fun s e => handed (s.step cfg e).1) (idleProducer cl n) es) t part ++
      (queueOf (afterCalls cfg (idleProducer cl n) es).producer.unsent t).filter
        (fun m => decide (f m.key = part)) <+
      ownOf f t part (inCourse cfg (acceptedIn cfg) (idleProducer cl n) es) := by
  have := calls_order cfg es (idleProducer cl n) (callsWF_idle cl n)
    ⟨by simp [idleProducer, Producer.new, Dict.keys],
      by intro c t p ms hs; simp [idleProducer, Producer.new, sentFor, Dict.get?] at hs⟩ hk hn
  simpa [ownQueue, idleProducer, Producer.new, queueOf, Dict.get?] using this

/-- Compression fails. -/
def exBroken : FlushStart Int Nat (List (Msg Int Nat)) :=
  ⟨exByKey, fun _ => .error .indexError, fun _ => .none⟩

/-- A flush raises, one request's answer is lost; calls overlap. -/
def exCallsRaising : List (ProduceEv (Int × Nat) Int Nat (List (Msg Int Nat))) :=
  [.produce 0 "t" (0, 10) exKeyed, .produce 1 "t" (0, 11) exKeyed, .produce 2 "t" (0, 12) exKeyed,
    .flush 3 exBroken, .produce 4 "t" (0, 13) exKeyed, .outcome 1 7 (.error .brokerConnection),
    .flush 5 exKeyed]

-- Non-vacuity: the message of the flush that raises is lost, the others are handed over in order.
example : (∀ e ∈ exCallsRaising, KeyedBy id id e) ∧ (∀ e ∈ exCallsRaising, NotRetried "t" 0 e) ∧
    ProduceOut.raised .indexError [] ∈ seenIn exPairs ⟨Producer.new exPCluster 0, []⟩ exCallsRaising ∧
    inPartition id (inCourse exPairs (fun s e => handed (s.step exPairs e).1)
      ⟨Producer.new exPCluster 0, []⟩ exCallsRaising) "t" 0 = [⟨0, 10⟩, ⟨0, 11⟩, ⟨0, 13⟩] := by
  refine ⟨?_, ?_, by decide +kernel, by decide +kernel⟩
  · intro e he env hb
    have : env = exKeyed ∨ env = exBroken := by
      simp only [exCallsRaising, List.mem_cons, List.not_mem_nil, or_false] at he
      rcases he with rfl | rfl | rfl | rfl | rfl | rfl | rfl <;> cases hb <;> simp
    rcases this with rfl | rfl
    · exact ⟨fun _ _ _ _ h => by cases h; rfl, fun _ _ h => by cases h; rfl⟩
    · exact ⟨fun _ _ _ _ h => by cases h; rfl, fun _ _ h => by cases h⟩
  · intro e he i b topics hx
    simp only [exCallsRaising, List.mem_cons, List.not_mem_nil, or_false] at he
    rcases he with rfl | rfl | rfl | rfl | rfl | rfl | rfl <;> cases hx

end Kiel
