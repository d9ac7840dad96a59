import Verif.Spec.Produces
import Verif.Props.Ledger
import Verif.Props.Delivery
import Verif.Props.Endings
/-
C107, C108: overlapping calls of `produce`, `flush` and `close`; C87 and C105 for them.
-/
set_option autoImplicit false
namespace Kiel
open Spec

variable {α κ β γ : Type}

/-! ### What steps leave alone -/

theorem get?_upd_ne {ι ν : Type} [DecidableEq ι] (d : Dict ι ν) (k k' : ι) (v : ν) (f : ν → ν)
    (h : k ≠ k') : (d.upd k v f).get? k' = d.get? k' := by
  simp [Dict.upd, Dict.get?_set, h]

theorem buildParts_others (comp : List (Msg κ β) → Res γ) (corr : Int) (t : String)
    (ps : Dict Int (List (Msg κ β))) (sent : Dict Int (ByPartition κ β)) (acc : List (Int × γ))
    (k : Int) (hk : corr ≠ k) :
    (buildParts comp corr t ps sent acc).2.get? k = sent.get? k := by
  induction ps generalizing sent acc with
  | nil => rfl
  | cons e ps ih =>
    obtain ⟨part, ms⟩ := e
    simp only [buildParts]
    split
    · rfl
    · rw [ih, get?_upd_ne _ _ _ _ _ hk]

theorem buildTopics_others (comp : List (Msg κ β) → Res γ) (corr : Int)
    (ts : ByPartition κ β) (sent : Dict Int (ByPartition κ β)) (acc : List (String × List (Int × γ)))
    (k : Int) (hk : corr ≠ k) :
    (buildTopics comp corr ts sent acc).2.get? k = sent.get? k := by
  induction ts generalizing sent acc with
  | nil => rfl
  | cons e ts ih =>
    obtain ⟨t, ps⟩ := e
    have h1 := buildParts_others comp corr t ps sent [] k hk
    simp only [buildTopics]
    split
    · rename_i hb; rw [hb] at h1; exact h1
    · rename_i hb; rw [hb] at h1; rw [ih]; exact h1

theorem buildRequests_others (comp : List (Msg κ β) → Res γ) (o sent : Dict Int (ByPartition κ β))
    (n : Int) (acc : List (PReq γ)) :
    n ≤ (buildRequests comp o sent n acc).2.2 ∧
    ∀ k, k ≤ n → (buildRequests comp o sent n acc).2.1.get? k = sent.get? k := by
  induction o generalizing sent n acc with
  | nil => exact ⟨Int.le_refl _, fun _ _ => rfl⟩
  | cons e o ih =>
    obtain ⟨b, ts⟩ := e
    simp only [buildRequests]
    split
    · rename_i hb
      refine ⟨by simp only; omega, fun k hk => ?_⟩
      have h1 := buildTopics_others comp (n + 1) ts sent [] k (by omega)
      rw [hb] at h1; exact h1
    · rename_i ts' sent' hb
      obtain ⟨i1, i2⟩ := ih sent' (n + 1) (acc ++ [⟨b, n + 1, ts'⟩])
      refine ⟨by omega, fun k hk => ?_⟩
      have h1 := buildTopics_others comp (n + 1) ts sent [] k (by omega)
      rw [hb] at h1
      rw [i2 k (by omega)]; exact h1

theorem queueRetries_kept (l : List (String × List (Msg κ β))) (p : Producer κ β) :
    (l.foldl (fun p e => p.queueRetries e.1 e.2) p).sent = p.sent ∧
    (l.foldl (fun p e => p.queueRetries e.1 e.2) p).lastId = p.lastId ∧
    (l.foldl (fun p e => p.queueRetries e.1 e.2) p).closing = p.closing := by
  induction l generalizing p with
  | nil => exact ⟨rfl, rfl, rfl⟩
  | cons e l ih =>
    obtain ⟨h1, h2, h3⟩ := ih (p.queueRetries e.1 e.2)
    exact ⟨h1, h2, h3⟩

/-- A flush leaves what is kept for earlier requests alone, whether or not it raises. -/
theorem prepare_others (pick : Nat → κ → List Int → Res Int) (comp : List (Msg κ β) → Res γ)
    (p : Producer κ β) :
    p.lastId ≤ (p.prepare pick comp).2.lastId ∧ (p.prepare pick comp).2.closing = p.closing ∧
    ∀ k, k ≤ p.lastId → (p.prepare pick comp).2.sent.get? k = p.sent.get? k := by
  unfold Producer.prepare
  split
  · exact ⟨Int.le_refl _, rfl, fun _ _ => rfl⟩
  · split
    · exact ⟨Int.le_refl _, rfl, fun _ _ => rfl⟩
    · rename_i r cl rest hr
      have hb := buildRequests_others comp r.ordered p.sent p.lastId []
      split
      · rename_i hx; rw [hx] at hb; exact ⟨hb.1, rfl, hb.2⟩
      · rename_i sent n hx
        rw [hx] at hb
        obtain ⟨q1, q2, q3⟩ := queueRetries_kept r.retry
          { p with cluster := cl, unsent := [], sent := sent, lastId := n }
        exact ⟨by rw [q2]; exact hb.1, by rw [q3], fun k hk => by rw [q1]; exact hb.2 k hk⟩

theorem handlePart_others (p : Producer κ β) (corr : Int) (t : String) (part code : Int) :
    (p.handlePart corr t part code).2.lastId = p.lastId ∧
    (p.handlePart corr t part code).2.closing = p.closing ∧
    ∀ k, k ≠ corr → (p.handlePart corr t part code).2.sent.get? k = p.sent.get? k := by
  unfold Producer.handlePart
  split
  · exact ⟨rfl, rfl, fun _ _ => rfl⟩
  · split
    · dsimp only
      split
      · exact ⟨rfl, rfl, fun k hk => by simp [Dict.get?_set, Ne.symm hk]⟩
      · exact ⟨rfl, rfl, fun k hk => by simp [Producer.queueRetries, Dict.get?_set, Ne.symm hk]⟩
    · split <;> exact ⟨rfl, rfl, fun _ _ => rfl⟩

theorem handleParts_others (corr : Int) (l : List (String × Int × Int)) (p : Producer κ β) :
    (Producer.handleParts corr l p).2.lastId = p.lastId ∧
    (Producer.handleParts corr l p).2.closing = p.closing ∧
    ∀ k, k ≠ corr → (Producer.handleParts corr l p).2.sent.get? k = p.sent.get? k := by
  induction l generalizing p with
  | nil => exact ⟨rfl, rfl, fun _ _ => rfl⟩
  | cons a l ih =>
    obtain ⟨t, part, code⟩ := a
    obtain ⟨h1, h2, h3⟩ := handlePart_others p corr t part code
    simp only [Producer.handleParts]
    split
    · rename_i hx; rw [hx] at h1 h2 h3; exact ⟨h1, h2, h3⟩
    · rename_i p1 hx
      rw [hx] at h1 h2 h3
      obtain ⟨i1, i2, i3⟩ := ih p1
      exact ⟨i1.trans h1, i2.trans h2, fun k hk => (i3 k hk).trans (h3 k hk)⟩

/-- The handling of an answer leaves what is kept for other requests alone, whether or not it raises.
-/
theorem handleResponse_others (p : Producer κ β) (r : PResp) :
    (p.handleResponse r).2.lastId = p.lastId ∧ (p.handleResponse r).2.closing = p.closing ∧
    ∀ k, k ≠ r.corr → (p.handleResponse r).2.sent.get? k = p.sent.get? k := by
  unfold Producer.handleResponse
  rw [handleTopics_eq]
  obtain ⟨h1, h2, h3⟩ := handleParts_others r.corr r.answers p
  split
  · rename_i hx; rw [hx] at h1 h2 h3; exact ⟨h1, h2, h3⟩
  · rename_i p1 hx
    rw [hx] at h1 h2 h3
    split
    · exact ⟨h1, h2, fun k hk => by simp only [Dict.get?_erase, Ne.symm hk, if_false]; exact h3 k hk⟩
    · exact ⟨h1, h2, h3⟩

theorem enqueue_others (cfg : PCfg α κ β) (p : Producer κ β) (t : String) (a : α) :
    (p.enqueue cfg t a).2.lastId = p.lastId ∧ (p.enqueue cfg t a).2.closing = p.closing ∧
    (p.enqueue cfg t a).2.sent = p.sent ∧ (p.enqueue cfg t a).2.cluster = p.cluster ∧
    (p.enqueue cfg t a).2.heal = p.heal := by
  unfold Producer.enqueue
  dsimp only
  split
  · exact ⟨rfl, rfl, rfl, rfl, rfl⟩
  · split <;> exact ⟨rfl, rfl, rfl, rfl, rfl⟩

/-! ### Steps of calls -/

/-- What a step does to the producer, but for the handling of answers: nothing is changed in what is
kept for earlier requests. -/
structure Spares (p p' : Producer κ β) : Prop where
  lastId : p.lastId ≤ p'.lastId
  sent : ∀ k, k ≤ p.lastId → p'.sent.get? k = p.sent.get? k

theorem Spares.refl (p : Producer κ β) : Spares p p := ⟨Int.le_refl _, fun _ _ => rfl⟩

theorem Spares.trans {p p' p'' : Producer κ β} (h : Spares p p') (h' : Spares p' p'') :
    Spares p p'' :=
  ⟨h.lastId.trans h'.lastId, fun k hk => (h'.sent k (hk.trans h.lastId)).trans (h.sent k hk)⟩

/-- What is seen at the beginning of a flush: it ends, or its requests are sent. -/
theorem flushes_cases (s : ProducerBusy α κ β γ) (i : Nat) (env : FlushStart κ β γ) (stop : Bool) :
    Spares s.producer (s.flushes i env stop).2.producer ∧
    (s.flushes i env stop).2.producer.closing = s.producer.closing ∧
    (((∃ e : Exc × List (PReq γ), (s.flushes i env stop).1 = .raised e.1 e.2) ∨ (s.flushes i env stop).1 = .returned) ∧
        (s.flushes i env stop).2.calls = s.calls.erase i ∨
      ∃ reqs p, s.producer.prepare env.pick env.comp = (.ok (some reqs), p) ∧
        (s.flushes i env stop) = (.sent reqs, ⟨p, s.calls.set i (.sending reqs stop)⟩)) := by
  obtain ⟨h1, h2, h3⟩ := prepare_others env.pick env.comp s.producer
  unfold ProducerBusy.flushes
  split
  · rename_i hx; rw [hx] at h1 h2 h3
    exact ⟨⟨h1, h3⟩, h2, .inl ⟨.inl ⟨(_, _), rfl⟩, rfl⟩⟩
  · rename_i hx; rw [hx] at h1 h2 h3
    cases stop
    · exact ⟨⟨h1, h3⟩, h2, .inl ⟨.inr rfl, rfl⟩⟩
    · exact ⟨⟨h1, h3⟩, h2, .inl ⟨.inr rfl, rfl⟩⟩
  · rename_i hx
    rw [hx] at h1 h2 h3
    split
    · exact ⟨⟨h1, h3⟩, h2, .inl ⟨.inl ⟨(_, _), rfl⟩, rfl⟩⟩
    · exact ⟨⟨h1, h3⟩, h2, .inr ⟨_, _, hx, rfl⟩⟩

theorem queues_cases (cfg : PCfg α κ β) (s : ProducerBusy α κ β γ) (i : Nat) (t : String) (a : α)
    (env : FlushStart κ β γ) :
    Spares s.producer (s.queues cfg i t a env).2.producer ∧
    (s.queues cfg i t a env).2.producer.closing = s.producer.closing ∧
    (((∃ e : Exc × List (PReq γ), (s.queues cfg i t a env).1 = .raised e.1 e.2) ∨ (s.queues cfg i t a env).1 = .returned) ∧
        (s.queues cfg i t a env).2.calls = s.calls.erase i ∨
      ∃ reqs p p0, s.producer.enqueue cfg t a = (.ok true, p0) ∧
        p0.prepare env.pick env.comp = (.ok (some reqs), p) ∧
        (s.queues cfg i t a env) = (.sent reqs, ⟨p, s.calls.set i (.sending reqs false)⟩)) := by
  obtain ⟨h1, h2, h3, h4, h5⟩ := enqueue_others cfg s.producer t a
  have hs : Spares s.producer (s.producer.enqueue cfg t a).2 :=
    ⟨by rw [h1], fun k _ => by rw [h3]⟩
  unfold ProducerBusy.queues
  split
  · rename_i hx; rw [hx] at hs h2
    exact ⟨hs, h2, .inl ⟨.inl ⟨(_, _), rfl⟩, rfl⟩⟩
  · rename_i p0 hx
    rw [hx] at hs h2
    obtain ⟨g1, g2, g3⟩ := flushes_cases { s with producer := p0 } i env false
    refine ⟨hs.trans g1, g2.trans h2, ?_⟩
    rcases g3 with g3 | ⟨reqs, p, g3, g4⟩
    · exact .inl g3
    · exact .inr ⟨reqs, p, p0, hx, g3, g4⟩
  · rename_i hx; rw [hx] at hs h2
    exact ⟨hs, h2, .inl ⟨.inr rfl, rfl⟩⟩

/-- What happened at a step about call `i`, if it was not the handling of an answer; `acc` was
accepted. -/
inductive CallStep (acc : List (String × Msg κ β)) (ev : ProduceEv α κ β γ) (s : ProducerBusy α κ β γ) (i : Nat)
    (out : ProduceOut γ) (s' : ProducerBusy α κ β γ) : Prop
  /-- it does not apply -/
  | none (ho : out = .nothing) (hs : s' = s)
  /-- the call goes on, without requests -/
  | waits (w : Producing α γ) (hw : ∀ left stop, w ≠ .sending left stop)
      (ho : out = .heals) (hs : s' = { s with calls := s.calls.set i w })
      (hb : s.calls.get? i = .none ∨
        (∃ stop, s.calls.get? i = some (.sending [] stop)) ∧ ∀ t a, w ≠ .finding t a)
  /-- it ends -/
  | ends (ho : (∃ e : Exc × List (PReq γ), out = .raised e.1 e.2) ∨ out = .returned) (hs : Spares s.producer s'.producer)
      (hc : s'.calls = s.calls.erase i)
      (hb : ∀ left stop, s.calls.get? i = some (.sending left stop) → left = [])
  /-- it sends requests -/
  | sends (reqs : List (PReq γ)) (stop : Bool) (pick : Nat → κ → List Int → Res Int)
      (comp : List (Msg κ β) → Res γ) (p0 : Producer κ β) (h0 : Spares s.producer p0)
      (hw : WF s.producer → WF p0) (hk : p0.sent = s.producer.sent)
      (hacc : (inQueue p0.unsent).Perm (acc ++ inQueue s.producer.unsent))
      (hp : p0.prepare pick comp = (.ok (some reqs), s'.producer)) (ho : out = .sent reqs)
      (hc : s'.calls = s.calls.set i (.sending reqs stop))
      (hb : s.calls.get? i = .none ∨ ∃ t a, s.calls.get? i = some (.finding t a))
  /-- a request fails -/
  | fails (b : Int) (e : Exc) (he : ev = .outcome i b (.error e)) (left : List (PReq γ)) (q : PReq γ) (stop : Bool) (ho : out = .nothing)
      (hb : s.calls.get? i = some (.sending left stop)) (hq : q ∈ left) (hqb : q.broker = b)
      (hs : Spares s.producer s'.producer) (hsent : s'.producer.sent = s.producer.sent)
      (hc : s'.calls = s.calls.set i (.sending (left.filter fun q => decide (q.broker ≠ b)) stop))

theorem has_none {ν : Type} {d : Dict Nat ν} {i : Nat} (h : ¬ d.has i = true) : d.get? i = .none := by
  simp only [Dict.has, Bool.not_eq_true, Option.isSome_eq_false_iff, Option.isNone_iff_eq_none] at h
  exact h

theorem callStep (cfg : PCfg α κ β) (s : ProducerBusy α κ β γ) (e : ProduceEv α κ β γ) (i : Nat)
    (hi : whoseProduce e = some i) (hn : ∀ j b topics, e ≠ .outcome j b (.ok topics)) :
    CallStep (acceptedIn cfg s e) e s i (s.step cfg e).1 (s.step cfg e).2 := by
  have hq : ∀ t a env, acceptedIn cfg s e = accepted.msg cfg t a →
      (s.calls.get? i = .none ∨ ∃ t a, s.calls.get? i = some (.finding t a)) →
      CallStep (acceptedIn cfg s e) e s i (s.queues cfg i t a env).1 (s.queues cfg i t a env).2 := by
    intro t a env ha hb
    obtain ⟨g1, g2, g3⟩ := queues_cases cfg s i t a env
    rcases g3 with ⟨g3, g4⟩ | ⟨reqs, p, p0, g3, g4, g5⟩
    · exact .ends g3 g1 g4 (fun l st h => by rcases hb with hb | ⟨t, a, hb⟩ <;> rw [hb] at h <;> cases h)
    · obtain ⟨h1, h2, h3, _⟩ := enqueue_others cfg s.producer t a
      rw [g3] at h1 h3
      rw [g5]
      exact .sends reqs false env.pick env.comp p0 ⟨by rw [h1], fun k _ => by rw [h3]⟩
        (fun hw => ⟨by rw [h3]; exact hw.nodup, by rw [h1, h3]; exact hw.old,
          by rw [h3]; exact hw.topics⟩) h3 (by rw [ha]; exact (accepted_other g3).1) g4 rfl rfl hb
  have hf : ∀ (p0 : Producer κ β) env stop, acceptedIn cfg s e = [] → p0.sent = s.producer.sent →
      p0.unsent = s.producer.unsent → Spares s.producer p0 → (WF s.producer → WF p0) →
      (s.calls.get? i = .none ∨ ∃ t a, s.calls.get? i = some (.finding t a)) →
      CallStep (acceptedIn cfg s e) e s i (({ s with producer := p0 } : ProducerBusy α κ β γ).flushes i env stop).1
        (({ s with producer := p0 } : ProducerBusy α κ β γ).flushes i env stop).2 := by
    intro p0 env stop ha hk hu h0 hw hb
    obtain ⟨g1, g2, g3⟩ := flushes_cases { s with producer := p0 } i env stop
    rcases g3 with ⟨g3, g4⟩ | ⟨reqs, p, g4, g5⟩
    · exact .ends g3 (h0.trans g1) g4
        (fun l st h => by rcases hb with hb | ⟨t, a, hb⟩ <;> rw [hb] at h <;> cases h)
    · rw [g5]
      exact .sends reqs stop env.pick env.comp p0 h0 hw hk (by rw [ha, hu]; simp) g4 rfl rfl hb
  cases e with
  | produce k t a env =>
    cases hi
    simp only [ProducerBusy.step]
    split
    · exact .none rfl rfl
    · rename_i h0'
      have h0 := has_none h0'
      have hb : ∀ left stop, s.calls.get? i ≠ some (.sending left stop) := by simp [h0]
      split
      · exact .ends (.inr rfl) (Spares.refl _) rfl (fun l st h => absurd h (hb l st))
      · rename_i h1
        split
        · rename_i h2
          exact hq t a env (by simp [acceptedIn, h0', h1, h2]) (.inl h0)
        · exact .waits _ (fun _ _ h => by cases h) rfl rfl (.inl h0)
  | flush k env =>
    cases hi
    simp only [ProducerBusy.step]
    split
    · exact .none rfl rfl
    · rename_i h0
      have h0 := has_none h0
      exact hf s.producer env false rfl rfl rfl (Spares.refl _) id (.inl h0)
  | close k env =>
    cases hi
    simp only [ProducerBusy.step]
    split
    · exact .none rfl rfl
    · rename_i h0
      have h0 := has_none h0
      exact hf { s.producer with closing := true } env true rfl rfl rfl ⟨Int.le_refl _, fun _ _ => rfl⟩
        (fun hw => ⟨hw.nodup, hw.old, hw.topics⟩) (.inl h0)
  | found k r env =>
    cases hi
    simp only [ProducerBusy.step]
    split
    · rename_i t a h0
      have hb : ∀ left stop, s.calls.get? i ≠ some (.sending left stop) := by simp [h0]
      split
      · exact .ends (.inl ⟨(_, _), rfl⟩) (Spares.refl _) rfl (fun l st h => absurd h (hb l st))
      · split
        · rename_i h2
          exact hq t a env (by simp [acceptedIn, h0, h2]) (.inr ⟨t, a, h0⟩)
        · exact .ends (.inr rfl) (Spares.refl _) rfl (fun l st h => absurd h (hb l st))
    · exact .none rfl rfl
  | outcome k b r =>
    cases hi
    cases r with
    | ok topics => exact absurd rfl (hn _ _ _)
    | error e =>
      simp only [ProducerBusy.step]
      split
      · rename_i left stop h0
        split
        · exact .none rfl rfl
        · rename_i q hq
          have h1 := List.find?_some hq
          simp only [decide_eq_true_eq] at h1
          refine .fails b e rfl left q stop rfl h0 (List.mem_of_find?_eq_some hq) h1 ?_ ?_ rfl
          · dsimp only
            split <;> exact ⟨Int.le_refl _, fun _ _ => rfl⟩
          · dsimp only
            split <;> rfl
      · exact .none rfl rfl
  | goOn k =>
    cases hi
    simp only [ProducerBusy.step]
    split
    · rename_i stop h0
      split
      · exact .waits _ (fun _ _ h => by cases h) rfl rfl (.inr ⟨⟨_, h0⟩, fun _ _ h => by cases h⟩)
      · refine .ends (.inr rfl) ?_ rfl (fun l st h => ?_)
        · cases stop <;> exact ⟨Int.le_refl _, fun _ _ => rfl⟩
        · rw [h0] at h; cases h; rfl
    · exact .none rfl rfl
  | healed k r =>
    cases hi
    simp only [ProducerBusy.step]
    split
    · rename_i stop h0
      have hb : ∀ left stop, s.calls.get? i ≠ some (.sending left stop) := by simp [h0]
      split
      · exact .ends (.inl ⟨(_, _), rfl⟩) (Spares.refl _) rfl (fun l st h => absurd h (hb l st))
      · refine .ends (.inr rfl) ?_ rfl (fun l st h => absurd h (hb l st))
        cases stop <;> exact ⟨Int.le_refl _, fun _ _ => rfl⟩
    · exact .none rfl rfl
  | cluster cl => cases hi
  | others n => cases hi

/-- What happens at an answer. -/
theorem answerStep (cfg : PCfg α κ β) (s : ProducerBusy α κ β γ) (i : Nat) (b : Int)
    (topics : List (String × List (Int × Int))) :
    s.step cfg (.outcome i b (.ok topics)) = (.nothing, s) ∨
    ∃ left stop q, s.calls.get? i = some (.sending left stop) ∧ q ∈ left ∧ q.broker = b ∧
      left.find? (fun q => decide (q.broker = b)) = some q ∧
      ((∃ p, s.producer.handleResponse ⟨q.corr, topics⟩ = (.ok (), p) ∧
          s.step cfg (.outcome i b (.ok topics)) = (.nothing,
            ⟨p, s.calls.set i (.sending (left.filter fun q => decide (q.broker ≠ b)) stop)⟩)) ∨
        ∃ e p, s.producer.handleResponse ⟨q.corr, topics⟩ = (.error e, p) ∧
          s.step cfg (.outcome i b (.ok topics)) = (.raised e [], ⟨p, s.calls.erase i⟩)) := by
  simp only [ProducerBusy.step]
  split
  · rename_i left stop h0
    split
    · exact .inl rfl
    · rename_i q hq
      have h1 := List.find?_some hq
      simp only [decide_eq_true_eq] at h1
      refine .inr ⟨left, stop, q, h0, List.mem_of_find?_eq_some hq, h1, hq, ?_⟩
      split
      · rename_i e p hx; exact .inr ⟨e, p, hx, rfl⟩
      · rename_i p hx; exact .inl ⟨p, hx, rfl⟩
  · exact .inl rfl

/-! ### Accounting -/

theorem flushes_ledger (cfg : PCfg α κ β) (s : ProducerBusy α κ β γ) (i : Nat)
    (env : FlushStart κ β γ) (stop : Bool) (hw : WF s.producer) :
    WF (s.flushes i env stop).2.producer ∧ ∃ lost,
      (lost = [] ∨ (∃ e : Exc × List (PReq γ), (s.flushes i env stop).1 = .raised e.1 e.2) ∧
        ∃ kept, (inQueue s.producer.unsent).Perm (lost ++ kept)) ∧
      (inQueue s.producer.unsent ++ inSent s.producer.sent).Perm
        (inQueue (s.flushes i env stop).2.producer.unsent ++
          inSent (s.flushes i env stop).2.producer.sent ++ lost) := by
  have hl := fun e p' h => ledger_step (cfg := cfg) (e := e) (p' := p') (ev := (.flush env.pick env.comp :
    PEv α κ β γ)) hw h (fun r h => by cases h)
  unfold ProducerBusy.flushes
  split
  · rename_i e p hx
    obtain ⟨w, lost, kept, h1, h2⟩ := hl (some e) p (by simp only [Producer.step, hx])
    refine ⟨w, lost, .inr ⟨⟨(_, _), rfl⟩, kept, ?_⟩, ?_⟩
    · simpa [atRisk] using h1
    · simpa [accepted, ProducerBusy.fails] using h2
  · rename_i p hx
    obtain ⟨w, lost, kept, h1, h2⟩ := hl .none p (by simp only [Producer.step, hx])
    have hn : lost = [] := by
      have : lost = [] ∧ kept = [] := by simpa [atRisk] using h1
      exact this.1
    subst hn
    refine ⟨?_, [], .inl rfl, ?_⟩
    · cases stop
      · exact w
      · exact ⟨w.nodup, w.old, w.topics⟩
    · cases stop <;> simpa [accepted, settledBy, ProducerBusy.over] using h2
  · rename_i reqs p hx
    obtain ⟨w, lost, kept, h1, h2⟩ := hl .none p (by simp only [Producer.step, hx])
    have hn : lost = [] := by
      have : lost = [] ∧ kept = [] := by simpa [atRisk] using h1
      exact this.1
    subst hn
    split
    · exact ⟨w, [], .inl rfl, by simpa [accepted, settledBy, ProducerBusy.fails] using h2⟩
    · exact ⟨w, [], .inl rfl, by simpa [accepted, settledBy] using h2⟩

theorem queues_ledger (cfg : PCfg α κ β) (s : ProducerBusy α κ β γ) (i : Nat) (t : String) (a : α)
    (env : FlushStart κ β γ) (hw : WF s.producer) :
    WF (s.queues cfg i t a env).2.producer ∧ ∃ lost,
      (lost = [] ∨ ((∃ e : Exc × List (PReq γ), (s.queues cfg i t a env).1 = .raised e.1 e.2) ∧ accepted.msg cfg t a ≠ [] ∧
        ∃ kept, (accepted.msg cfg t a ++ inQueue s.producer.unsent).Perm (lost ++ kept))) ∧
      (accepted.msg cfg t a ++ (inQueue s.producer.unsent ++ inSent s.producer.sent)).Perm
        (inQueue (s.queues cfg i t a env).2.producer.unsent ++
          inSent (s.queues cfg i t a env).2.producer.sent ++ lost) := by
  obtain ⟨o1, o2, o3⟩ := accepted_other (cfg := cfg) (t := t) (a := a) (p := s.producer)
    (r := (s.producer.enqueue cfg t a).1) (p' := (s.producer.enqueue cfg t a).2) rfl
  have hw' : WF (s.producer.enqueue cfg t a).2 :=
    ⟨by rw [o2]; exact hw.nodup, by rw [o2, o3]; exact hw.old, by rw [o2]; exact hw.topics⟩
  have hmsg : ∀ b p, s.producer.enqueue cfg t a = (.ok b, p) → accepted.msg cfg t a ≠ [] := by
    intro b p h
    unfold Producer.enqueue at h
    unfold accepted.msg
    dsimp only at h
    split at h
    · cases h
    · rename_i hk
      split at h
      · cases h
      · rename_i hv
        simp [hk, hv]
  unfold ProducerBusy.queues
  split
  · rename_i e p hx
    rw [hx] at o1 o2 hw'
    refine ⟨hw', [], .inl rfl, ?_⟩
    have o2 : p.sent = s.producer.sent := o2
    simp only [ProducerBusy.fails, o2, List.append_nil]
    rw [← List.append_assoc]
    exact (o1.append_right _).symm
  · rename_i p hx
    have hm := hmsg _ _ hx
    rw [hx] at o1 o2 hw'
    obtain ⟨w, lost, hl, hp⟩ := flushes_ledger cfg { s with producer := p } i env false hw'
    refine ⟨w, lost, ?_, ?_⟩
    · rcases hl with hl | ⟨h1, kept, h2⟩
      · exact .inl hl
      · exact .inr ⟨h1, hm, kept, o1.symm.trans h2⟩
    · refine List.Perm.trans ?_ hp
      have o2 : p.sent = s.producer.sent := o2
      simp only [o2]
      rw [← List.append_assoc]
      exact (o1.append_right _).symm
  · rename_i p hx
    rw [hx] at o1 o2 hw'
    refine ⟨hw', [], .inl rfl, ?_⟩
    have o2 : p.sent = s.producer.sent := o2
    simp only [ProducerBusy.over, o2, List.append_nil, Bool.false_eq_true, if_false]
    rw [← List.append_assoc]
    exact (o1.append_right _).symm

/-- What holds at every point of every course: the producer is in order; the requests outstanding have
correlation ids that were given out, and different ones; those of one call are for different brokers. -/
structure CallsWF (s : ProducerBusy α κ β γ) : Prop where
  wf : WF s.producer
  old : ∀ i q, Waits s i q → q.corr ≤ s.producer.lastId
  apart : ∀ i j q q', Waits s i q → Waits s j q' → q.corr = q'.corr → i = j ∧ q = q'
  brokers : ∀ i left stop, s.calls.get? i = some (.sending left stop) → (left.map (·.broker)).Nodup

theorem calls_ledger_step (cfg : PCfg α κ β) (s : ProducerBusy α κ β γ) (e : ProduceEv α κ β γ)
    (h : CallsWF s) :
    WF (s.step cfg e).2.producer ∧ ∃ lost kept, (riskIn cfg s e).Perm (lost ++ kept) ∧
      (acceptedIn cfg s e ++ (inQueue s.producer.unsent ++ inSent s.producer.sent)).Perm
        (inQueue (s.step cfg e).2.producer.unsent ++ inSent (s.step cfg e).2.producer.sent ++
          settledIn cfg s e ++ lost) := by
  have hw := h.wf
  have simple : ∀ s' : ProducerBusy α κ β γ, (s.step cfg e).2 = s' → acceptedIn cfg s e = [] →
      settledIn cfg s e = [] → s'.producer.unsent = s.producer.unsent →
      s'.producer.sent = s.producer.sent → s.producer.lastId ≤ s'.producer.lastId →
      WF (s.step cfg e).2.producer ∧ ∃ lost kept, (riskIn cfg s e).Perm (lost ++ kept) ∧
        (acceptedIn cfg s e ++ (inQueue s.producer.unsent ++ inSent s.producer.sent)).Perm
          (inQueue (s.step cfg e).2.producer.unsent ++ inSent (s.step cfg e).2.producer.sent ++
            settledIn cfg s e ++ lost) := by
    intro s' h1 h2 h3 h4 h5 h6
    rw [h1, h2, h3]
    refine ⟨⟨by rw [h5]; exact hw.nodup, fun k hk => ?_, by rw [h5]; exact hw.topics⟩, [],
      riskIn cfg s e, by simp, by simp [h4, h5]⟩
    rw [h5] at hk
    exact (hw.old k hk).trans h6
  have hq : ∀ i t a env, acceptedIn cfg s e = accepted.msg cfg t a → settledIn cfg s e = [] →
      s.step cfg e = s.queues cfg i t a env →
      (∀ x : Exc × List (PReq γ), (s.step cfg e).1 = .raised x.1 x.2 → accepted.msg cfg t a ≠ [] →
        riskIn cfg s e = accepted.msg cfg t a ++ inQueue s.producer.unsent) →
      WF (s.step cfg e).2.producer ∧ ∃ lost kept, (riskIn cfg s e).Perm (lost ++ kept) ∧
        (acceptedIn cfg s e ++ (inQueue s.producer.unsent ++ inSent s.producer.sent)).Perm
          (inQueue (s.step cfg e).2.producer.unsent ++ inSent (s.step cfg e).2.producer.sent ++
            settledIn cfg s e ++ lost) := by
    intro i t a env h1 h2 h3 h4
    obtain ⟨w, lost, g1, g2⟩ := queues_ledger cfg s i t a env hw
    rw [h1, h2, h3, List.append_nil]
    rw [h3] at h4
    rcases g1 with g1 | ⟨⟨x, g1⟩, g3, kept, g4⟩
    · exact ⟨w, lost, riskIn cfg s e, by simp [g1], g2⟩
    · exact ⟨w, lost, kept, by rw [h4 x g1 g3]; exact g4, g2⟩
  have hf : ∀ i (p0 : Producer κ β) env stop, p0.unsent = s.producer.unsent →
      p0.sent = s.producer.sent → p0.lastId = s.producer.lastId → acceptedIn cfg s e = [] →
      settledIn cfg s e = [] →
      s.step cfg e = ({ s with producer := p0 } : ProducerBusy α κ β γ).flushes i env stop →
      (∀ x : Exc × List (PReq γ), (s.step cfg e).1 = .raised x.1 x.2 → riskIn cfg s e = inQueue s.producer.unsent) →
      WF (s.step cfg e).2.producer ∧ ∃ lost kept, (riskIn cfg s e).Perm (lost ++ kept) ∧
        (acceptedIn cfg s e ++ (inQueue s.producer.unsent ++ inSent s.producer.sent)).Perm
          (inQueue (s.step cfg e).2.producer.unsent ++ inSent (s.step cfg e).2.producer.sent ++
            settledIn cfg s e ++ lost) := by
    intro i p0 env stop e1 e2 e3 h1 h2 h3 h4
    have hw0 : WF p0 := ⟨by rw [e2]; exact hw.nodup, by rw [e2, e3]; exact hw.old,
      by rw [e2]; exact hw.topics⟩
    obtain ⟨w, lost, g1, g2⟩ := flushes_ledger cfg { s with producer := p0 } i env stop hw0
    simp only [e1, e2] at g1 g2
    rw [h1, h2, h3, List.append_nil]
    rw [h3] at h4
    rcases g1 with g1 | ⟨⟨x, g1⟩, kept, g4⟩
    · exact ⟨w, lost, riskIn cfg s e, by simp [g1], g2⟩
    · exact ⟨w, lost, kept, by rw [h4 x g1]; exact g4, g2⟩
  cases e with
  | produce i t a env =>
    by_cases h0 : s.calls.has i = true
    · exact simple s (by simp [ProducerBusy.step, h0]) (by simp [acceptedIn, h0]) rfl rfl rfl
        (Int.le_refl _)
    · by_cases h1 : s.producer.closing = true
      · exact simple { s with calls := s.calls.erase i } (by simp only [ProducerBusy.step, h0, h1]; rfl)
          (by simp [acceptedIn, h1]) rfl rfl rfl (Int.le_refl _)
      · by_cases h2 : s.producer.cluster.topics.has t = true
        · have ha : acceptedIn cfg s (.produce i t a env) = accepted.msg cfg t a := by
            simp [acceptedIn, h0, h1, h2]
          refine hq i t a env ha rfl (by simp [ProducerBusy.step, h0, h1, h2]) ?_
          intro x hx hne
          simp only [riskIn, hx]
          rw [ha, if_neg hne]
        · exact simple { s with calls := s.calls.set i (.finding t a) }
            (by simp only [ProducerBusy.step, h0, h1, h2]; rfl)
            (by simp [acceptedIn, h2]) rfl rfl rfl (Int.le_refl _)
  | flush i env =>
    by_cases h0 : s.calls.has i = true
    · exact simple s (by simp [ProducerBusy.step, h0]) rfl rfl rfl rfl (Int.le_refl _)
    · refine hf i s.producer env false rfl rfl rfl rfl rfl
        (by simp only [ProducerBusy.step, h0]; rfl) ?_
      intro x hx
      simp only [riskIn, hx]
  | close i env =>
    by_cases h0 : s.calls.has i = true
    · exact simple s (by simp [ProducerBusy.step, h0]) rfl rfl rfl rfl (Int.le_refl _)
    · refine hf i { s.producer with closing := true } env true rfl rfl rfl rfl rfl
        (by simp only [ProducerBusy.step, h0]; rfl) ?_
      intro x hx
      simp only [riskIn, hx]
  | found i r env =>
    by_cases hx : ∃ t a, s.calls.get? i = some (.finding t a)
    · obtain ⟨t, a, hx⟩ := hx
      cases r with
      | error x =>
        exact simple { s with calls := s.calls.erase i } (by simp only [ProducerBusy.step, hx]; rfl) rfl
          rfl rfl rfl (Int.le_refl _)
      | ok u =>
        by_cases h2 : s.producer.cluster.topics.has t = true
        · have ha : acceptedIn cfg s (.found i (.ok u) env) = accepted.msg cfg t a := by
            simp [acceptedIn, hx, h2]
          refine hq i t a env ha rfl (by simp [ProducerBusy.step, hx, h2]) ?_
          intro x hx hne
          simp only [riskIn, hx]
          rw [ha, if_neg hne]
        · exact simple { s with calls := s.calls.erase i }
            (by simp only [ProducerBusy.step, hx, h2]; rfl)
            (by simp [acceptedIn, hx, h2]) rfl rfl rfl (Int.le_refl _)
    · have hs : s.step cfg (.found i r env) = (.nothing, s) := by
        simp only [ProducerBusy.step]
        split
        · rename_i t a hy; exact absurd ⟨t, a, hy⟩ hx
        · rfl
      refine simple s (by rw [hs]) ?_ rfl rfl rfl (Int.le_refl _)
      cases r with
      | error x => rfl
      | ok u =>
        simp only [acceptedIn]
        split
        · rename_i t a hy; exact absurd ⟨t, a, hy⟩ hx
        · rfl
  | outcome i b r =>
    cases r with
    | error x =>
      have : (s.step cfg (.outcome i b (.error x))).2.producer = s.producer ∨
          (s.step cfg (.outcome i b (.error x))).2.producer = { s.producer with heal := true } := by
        simp only [ProducerBusy.step]
        split
        · split
          · exact .inl rfl
          · dsimp only; split
            · exact .inl rfl
            · exact .inr rfl
        · exact .inl rfl
      rcases this with h1 | h1
      · exact simple _ rfl rfl rfl (by rw [h1]) (by rw [h1]) (by rw [h1])
      · exact simple _ rfl rfl rfl (by rw [h1]) (by rw [h1]) (by rw [h1])
    | ok topics =>
      rcases answerStep cfg s i b topics with hs | ⟨left, stop, q, h0, hm, hb, hfind, hs⟩
      · by_cases hx : ∃ left stop q, s.calls.get? i = some (.sending left stop) ∧
          left.find? (fun q => decide (q.broker = b)) = some q
        · -- then it would have been handled
          obtain ⟨left, stop, q, hx, hfind⟩ := hx
          exfalso
          have := hs
          simp only [ProducerBusy.step, hx, hfind] at this
          split at this
          · cases this
          · simp only [Prod.mk.injEq, true_and] at this
            have h2 := congrArg (fun s => s.calls.get? i) this
            simp only [Dict.get?_set, if_true, hx, Option.some.injEq, Producing.sending.injEq] at h2
            have h3 := List.find?_some hfind
            have h4 := List.mem_of_find?_eq_some hfind
            rw [← h2.1, List.mem_filter] at h4
            simp only [decide_eq_true_eq] at h3
            simp [h3] at h4
        · refine simple s (by rw [hs]) rfl ?_ rfl rfl (Int.le_refl _)
          simp only [settledIn]
          split
          · rename_i left stop hy
            split
            · rename_i q hz _
              exact absurd ⟨left, stop, q, hy, hz⟩ hx
            · rfl
          · rfl
      · have hle : q.corr ≤ s.producer.lastId := h.old i q ⟨left, stop, h0, hm⟩
        rcases hs with ⟨p, hp, hs⟩ | ⟨x, p, hp, hs⟩
        · obtain ⟨w, lost, kept, g1, g2⟩ := ledger_step (cfg := cfg) (e := .none) (p' := p)
            (ev := (.answer ⟨q.corr, topics⟩ : PEv α κ β γ)) hw (by simp only [Producer.step, hp])
            (by intro r hr; cases hr; exact hle)
          have hn : lost = [] := by
            have : lost = [] ∧ kept = [] := by simpa [atRisk] using g1
            exact this.1
          subst hn
          have hse : settledIn cfg s (.outcome i b (.ok topics)) =
              settled ((s.producer.sent.get? q.corr).getD []) ⟨q.corr, topics⟩ := by
            simp only [settledIn, h0, hfind, hs]
          rw [hs, hse]
          exact ⟨w, [], riskIn cfg s (.outcome i b (.ok topics)), by simp, by
            simpa [accepted, acceptedIn, settledBy] using g2⟩
        · obtain ⟨w, lost, kept, g1, g2⟩ := ledger_step (cfg := cfg) (e := some x) (p' := p)
            (ev := (.answer ⟨q.corr, topics⟩ : PEv α κ β γ)) hw (by simp only [Producer.step, hp])
            (by intro r hr; cases hr; exact hle)
          have hn : lost = [] := by
            have : lost = [] ∧ kept = [] := by simpa [atRisk] using g1
            exact this.1
          subst hn
          have hse : settledIn cfg s (.outcome i b (.ok topics)) = [] := by
            simp only [settledIn, h0, hfind, hs]
          rw [hs, hse]
          exact ⟨w, [], riskIn cfg s (.outcome i b (.ok topics)), by simp, by
            simpa [accepted, acceptedIn, settledBy] using g2⟩
  | goOn i =>
    have : (s.step cfg (.goOn i)).2.producer = s.producer ∨
        (s.step cfg (.goOn i)).2.producer = { s.producer with cluster := s.producer.cluster.stop } := by
      simp only [ProducerBusy.step]
      split
      · rename_i stop _
        split
        · exact .inl rfl
        · cases stop
          · exact .inl rfl
          · exact .inr rfl
      · exact .inl rfl
    rcases this with h1 | h1
    · exact simple _ rfl rfl rfl (by rw [h1]) (by rw [h1]) (by rw [h1])
    · exact simple _ rfl rfl rfl (by rw [h1]) (by rw [h1]) (by rw [h1])
  | healed i r =>
    have : (s.step cfg (.healed i r)).2.producer.unsent = s.producer.unsent ∧
        (s.step cfg (.healed i r)).2.producer.sent = s.producer.sent ∧
        (s.step cfg (.healed i r)).2.producer.lastId = s.producer.lastId := by
      simp only [ProducerBusy.step]
      split
      · rename_i stop _
        split
        · exact ⟨rfl, rfl, rfl⟩
        · cases stop <;> exact ⟨rfl, rfl, rfl⟩
      · exact ⟨rfl, rfl, rfl⟩
    exact simple _ rfl rfl rfl this.1 this.2.1 (by rw [this.2.2])
  | cluster cl => exact simple _ rfl rfl rfl rfl rfl (Int.le_refl _)
  | others n => exact simple _ rfl rfl rfl rfl rfl (by simp only [ProducerBusy.step]; omega)

/-! ### Requests outstanding -/

theorem waits_set {s : ProducerBusy α κ β γ} {i j : Nat} {w : Producing α γ} {p : Producer κ β}
    {q : PReq γ} (h : Waits (⟨p, s.calls.set i w⟩ : ProducerBusy α κ β γ) j q) :
    (j ≠ i ∧ Waits s j q) ∨ (j = i ∧ ∃ left stop, w = .sending left stop ∧ q ∈ left) := by
  obtain ⟨left, stop, h1, h2⟩ := h
  simp only [Dict.get?_set] at h1
  split at h1
  · rename_i hij
    cases h1
    exact .inr ⟨hij.symm, left, stop, rfl, h2⟩
  · rename_i hij
    exact .inl ⟨fun h => hij h.symm, left, stop, h1, h2⟩

theorem waits_erase {s : ProducerBusy α κ β γ} {i j : Nat} {p : Producer κ β}
    {q : PReq γ} (h : Waits (⟨p, s.calls.erase i⟩ : ProducerBusy α κ β γ) j q) : Waits s j q := by
  obtain ⟨left, stop, h1, h2⟩ := h
  simp only [Dict.get?_erase] at h1
  split at h1
  · cases h1
  · exact ⟨left, stop, h1, h2⟩

/-- The requests of a flush have new correlation ids, and different ones, and are for different
brokers. -/
theorem prepare_reqs {pick : Nat → κ → List Int → Res Int} {comp : List (Msg κ β) → Res γ}
    {p p' : Producer κ β} {reqs : List (PReq γ)} (hw : WF p)
    (h : p.prepare pick comp = (.ok (some reqs), p')) :
    (∀ q ∈ reqs, p.lastId < q.corr ∧ q.corr ≤ p'.lastId) ∧
    (∀ q ∈ reqs, ∀ q' ∈ reqs, q.corr = q'.corr → q = q') ∧ (reqs.map (·.broker)).Nodup := by
  obtain ⟨pl, h1, h2, h3, h4, h5, h6, h7, h8, h9, h10⟩ := prepare_ok hw.old h
  obtain ⟨pl', _, _, _, hn, _⟩ := kept_flushed hw h
  obtain ⟨k1, k2⟩ := numbered_keys p.lastId (routeTo p.cluster pl ⟨[], []⟩).ordered
  refine ⟨fun q hq => ?_, fun q hq q' hq' he => ?_, hn.1⟩
  · have := k2 q.corr (h5 ▸ List.mem_map.2 ⟨q, hq, rfl⟩)
    rw [h3]; exact this
  · exact List.inj_on_of_nodup_map hn.2.1 hq hq' he

theorem callsWF_idle (cl : Cluster) (n : Int) :
    CallsWF (idleProducer cl n : ProducerBusy α κ β γ) := by
  have hn : ∀ i (q : PReq γ), ¬ Waits (idleProducer cl n : ProducerBusy α κ β γ) i q := by
    rintro i q ⟨left, stop, h, _⟩
    simp [idleProducer, Dict.get?] at h
  exact ⟨wf_new cl n, fun i q h => absurd h (hn i q), fun i _ q _ h => absurd h (hn i q),
    fun i left stop h => by simp [idleProducer, Dict.get?] at h⟩

/-- Requests outstanding after a step were outstanding before, or have just been sent. -/
theorem callsWF_step (cfg : PCfg α κ β) (s : ProducerBusy α κ β γ) (e : ProduceEv α κ β γ)
    (h : CallsWF s) : CallsWF (s.step cfg e).2 := by
  have w := (calls_ledger_step cfg s e h).1
  -- fewer requests outstanding
  have fewer : ∀ s' : ProducerBusy α κ β γ, s' = (s.step cfg e).2 →
      s.producer.lastId ≤ s'.producer.lastId → (∀ j q, Waits s' j q → Waits s j q) →
      (∀ j left stop, s'.calls.get? j = some (.sending left stop) → (left.map (·.broker)).Nodup) →
      CallsWF (s.step cfg e).2 := by
    rintro s' rfl h1 h2 h3
    exact ⟨w, fun j q hq => (h.old j q (h2 j q hq)).trans h1,
      fun j k q q' hq hq' hc => h.apart j k q q' (h2 j q hq) (h2 k q' hq') hc, h3⟩
  have less : ∀ (i : Nat) (left : List (PReq γ)) (stop : Bool) (b : Int) (p : Producer κ β),
      s.calls.get? i = some (.sending left stop) →
      (s.step cfg e).2 =
        ⟨p, s.calls.set i (.sending (left.filter fun q => decide (q.broker ≠ b)) stop)⟩ →
      s.producer.lastId ≤ p.lastId → CallsWF (s.step cfg e).2 := by
    intro i left stop b p h0 hs hl
    refine fewer _ rfl (by rw [hs]; exact hl) ?_ ?_
    · intro j q hq
      rw [hs] at hq
      rcases waits_set hq with ⟨_, hq⟩ | ⟨rfl, left', stop', hw, hq⟩
      · exact hq
      · cases hw
        exact ⟨left, stop, h0, (List.mem_filter.1 hq).1⟩
    · intro j left' stop' hj
      rw [hs] at hj
      simp only [Dict.get?_set] at hj
      split at hj
      · cases hj
        exact (h.brokers i left stop h0).sublist (List.filter_sublist.map _)
      · exact h.brokers j left' stop' hj
  have gone : ∀ (i : Nat) (p : Producer κ β), (s.step cfg e).2 = ⟨p, s.calls.erase i⟩ →
      s.producer.lastId ≤ p.lastId → CallsWF (s.step cfg e).2 := by
    intro i p hs hl
    refine fewer _ rfl (by rw [hs]; exact hl) ?_ ?_
    · intro j q hq
      rw [hs] at hq
      exact waits_erase hq
    · intro j left' stop' hj
      rw [hs] at hj
      simp only [Dict.get?_erase] at hj
      split at hj
      · cases hj
      · exact h.brokers j left' stop' hj
  cases hi : whoseProduce e with
  | none =>
    cases e with
    | cluster cl => exact fewer _ rfl (Int.le_refl _) (fun j q hq => hq) (fun j l st hj => h.brokers j l st hj)
    | others n =>
      exact fewer _ rfl (by simp only [ProducerBusy.step]; omega) (fun j q hq => hq)
        (fun j l st hj => h.brokers j l st hj)
    | _ => cases hi
  | some i =>
    by_cases ha : ∃ j b topics, e = .outcome j b (.ok topics)
    · obtain ⟨j, b, topics, rfl⟩ := ha
      rcases answerStep cfg s j b topics with hs | ⟨left, stop, q, h0, hm, hb, hfind, hs⟩
      · rw [hs]; exact h
      · have ho := handleResponse_others s.producer ⟨q.corr, topics⟩
        rcases hs with ⟨p, hp, hs⟩ | ⟨x, p, hp, hs⟩
        · rw [hp] at ho
          exact less j left stop b p h0 (by rw [hs]) (by rw [ho.1])
        · rw [hp] at ho
          exact gone j p (by rw [hs]) (by rw [ho.1])
    · have hst := callStep cfg s e i hi (fun j b t he => ha ⟨j, b, t, he⟩)
      cases hst with
      | none ho hs => rw [hs]; exact h
      | waits w' hw' ho hs hb =>
        refine fewer _ rfl (by rw [hs]) ?_ ?_
        · intro j q hq
          rw [hs] at hq
          rcases waits_set hq with ⟨_, hq⟩ | ⟨rfl, left', stop', hw, hq⟩
          · exact hq
          · exact absurd hw (hw' _ _)
        · intro j left' stop' hj
          rw [hs] at hj
          simp only [Dict.get?_set] at hj
          split at hj
          · simp only [Option.some.injEq] at hj; exact absurd hj (hw' _ _)
          · exact h.brokers j left' stop' hj
      | ends ho hs hc hb =>
        exact gone i (s.step cfg e).2.producer (by rw [← hc]) hs.lastId
      | fails b x he left q stop ho hb hq hqb hs hsent hc =>
        exact less i left stop b (s.step cfg e).2.producer hb (by rw [← hc]) hs.lastId
      | sends reqs stop pick comp p0 h0 hw0 hk hacc hp ho hc hb =>
        have hs : (s.step cfg e).2 =
            ⟨(s.step cfg e).2.producer, s.calls.set i (.sending reqs stop)⟩ := by rw [← hc]
        have hw0 := hw0 h.wf
        obtain ⟨r1, r2, r3⟩ := prepare_reqs hw0 hp
        have hl := (prepare_others pick comp p0).1
        rw [hp] at hl
        have old' : ∀ j q, Waits s j q → ∀ q' ∈ reqs, q.corr ≠ q'.corr := by
          intro j q hq q' hq' hc
          have := h.old j q hq
          have := (r1 q' hq').1
          have := h0.lastId
          omega
        refine ⟨w, ?_, ?_, ?_⟩
        · intro j q hq
          rw [hs] at hq
          rcases waits_set hq with ⟨_, hq⟩ | ⟨rfl, left', stop', hw, hq⟩
          · exact (h.old j q hq).trans (h0.lastId.trans hl)
          · cases hw; exact (r1 q hq).2
        · intro j k q q' hq hq' hcc
          rw [hs] at hq hq'
          rcases waits_set hq with ⟨_, a1⟩ | ⟨rfl, left', stop', hw, a1⟩
          · rcases waits_set hq' with ⟨_, a2⟩ | ⟨rfl, left', stop', hw', a2⟩
            · exact h.apart j k q q' a1 a2 hcc
            · cases hw'; exact absurd hcc (old' j q a1 q' a2)
          · cases hw
            rcases waits_set hq' with ⟨_, a2⟩ | ⟨rfl, left', stop', hw', a2⟩
            · exact absurd hcc.symm (old' k q' a2 q a1)
            · cases hw'; exact ⟨rfl, r2 q a1 q' a2 hcc⟩
        · intro j left' stop' hj
          rw [hs] at hj
          simp only [Dict.get?_set] at hj
          split at hj
          · cases hj; exact r3
          · exact h.brokers j left' stop' hj

theorem callsWF_after (cfg : PCfg α κ β) (s : ProducerBusy α κ β γ) (es : List (ProduceEv α κ β γ))
    (h : CallsWF s) : CallsWF (afterCalls cfg s es) := by
  induction es generalizing s with
  | nil => exact h
  | cons e es ih => exact ih _ (callsWF_step cfg s e h)

theorem inCourse_nil {X : Type} (cfg : PCfg α κ β)
    (f : ProducerBusy α κ β γ → ProduceEv α κ β γ → List X) (s : ProducerBusy α κ β γ) :
    inCourse cfg f s [] = [] := rfl

theorem calls_ledger (cfg : PCfg α κ β) (s : ProducerBusy α κ β γ) (es : List (ProduceEv α κ β γ))
    (h : CallsWF s) :
    ∃ lost kept, (inCourse cfg (riskIn cfg) s es).Perm (lost ++ kept) ∧
      (inCourse cfg (acceptedIn cfg) s es ++
        (inQueue s.producer.unsent ++ inSent s.producer.sent)).Perm
        (inQueue (afterCalls cfg s es).producer.unsent ++
          inSent (afterCalls cfg s es).producer.sent ++ inCourse cfg (settledIn cfg) s es ++ lost) := by
  induction es generalizing s with
  | nil => exact ⟨[], [], by simp [inCourse], by simp [inCourse, afterCalls]⟩
  | cons e es ih =>
    obtain ⟨_, l1, k1, r1, q1⟩ := calls_ledger_step cfg s e h
    obtain ⟨l2, k2, r2, q2⟩ := ih _ (callsWF_step cfg s e h)
    simp only [inCourse, afterCalls]
    generalize settledIn cfg s e = st at q1 ⊢
    generalize riskIn cfg s e = a at r1 ⊢
    generalize acceptedIn cfg s e = b at q1 ⊢
    generalize inCourse cfg (riskIn cfg) _ es = risk at r2 ⊢
    generalize inCourse cfg (settledIn cfg) _ es = fin at q2 ⊢
    generalize inCourse cfg (acceptedIn cfg) _ es = acc at q2 ⊢
    generalize inQueue s.producer.unsent ++ inSent s.producer.sent = A at q1 ⊢
    generalize inQueue (s.step cfg e).2.producer.unsent ++ inSent (s.step cfg e).2.producer.sent = B
      at q1 q2
    generalize inQueue (afterCalls cfg (s.step cfg e).2 es).producer.unsent ++
      inSent (afterCalls cfg (s.step cfg e).2 es).producer.sent = C at q2 ⊢
    refine ⟨l1 ++ l2, k1 ++ k2, ?_, ?_⟩
    · refine (r1.append r2).trans ?_
      simp only [List.append_assoc]
      refine List.Perm.append_left _ ?_
      exact List.perm_append_comm_assoc _ _ _
    · have e1 : (b ++ acc ++ A).Perm (acc ++ (b ++ A)) := by
        rw [List.append_assoc]; exact List.perm_append_comm_assoc _ _ _
      refine e1.trans ((q1.append_left _).trans ?_)
      have e2 : (acc ++ (B ++ st ++ l1)).Perm ((acc ++ B) ++ (st ++ l1)) := by
        simp only [List.append_assoc]; exact List.Perm.refl _
      refine e2.trans ((q2.append_right _).trans ?_)
      simp only [List.append_assoc]
      refine List.Perm.append_left _ ?_
      refine (List.perm_append_comm (l₁ := fin)).trans ?_
      simp only [List.append_assoc]
      refine (List.perm_append_comm_assoc _ _ _).trans (List.Perm.append_left _ ?_)
      refine (List.perm_append_comm (l₁ := l2)).trans ?_
      simp only [List.append_assoc]
      exact List.perm_append_comm_assoc _ _ _

/-- **C87**, for whole calls of `produce`, `flush` and `close` that overlap in any way: each message
accepted is, as often as it was accepted, in the queue, kept for a request, settled by an answer, or
lost; and those lost were in the queue when a flush raised. -/
theorem C87_calls (cfg : PCfg α κ β) (cl : Cluster) (n : Int) (es : List (ProduceEv α κ β γ)) :
    (afterCalls cfg (idleProducer cl n) es).producer.sent.keys.Nodup ∧
    ∃ lost kept, (inCourse cfg (riskIn cfg) (idleProducer cl n) es).Perm (lost ++ kept) ∧
      (inCourse cfg (acceptedIn cfg) (idleProducer cl n) es).Perm
        (inQueue (afterCalls cfg (idleProducer cl n) es).producer.unsent ++
          inSent (afterCalls cfg (idleProducer cl n) es).producer.sent ++
          inCourse cfg (settledIn cfg) (idleProducer cl n) es ++ lost) := by
  obtain ⟨lost, kept, h1, h2⟩ := calls_ledger cfg (idleProducer cl n) es (callsWF_idle cl n)
  refine ⟨(callsWF_after cfg _ es (callsWF_idle cl n)).wf.nodup, lost, kept, h1, ?_⟩
  simpa [idleProducer, Producer.new, inQueue, inSent] using h2

/-! ### C107 -/

theorem afterCalls_append (cfg : PCfg α κ β) (s : ProducerBusy α κ β γ)
    (es es' : List (ProduceEv α κ β γ)) :
    afterCalls cfg s (es ++ es') = afterCalls cfg (afterCalls cfg s es) es' := by
  induction es generalizing s with
  | nil => rfl
  | cons e es ih => exact ih _

/-- What is kept for a request changes only when that request is answered. -/
theorem keptSent_step (cfg : PCfg α κ β) (s : ProducerBusy α κ β γ) (e : ProduceEv α κ β γ)
    (k : Int) (hk : k ≤ s.producer.lastId) :
    s.producer.lastId ≤ (s.step cfg e).2.producer.lastId ∧
    ((s.step cfg e).2.producer.sent.get? k = s.producer.sent.get? k ∨
      ∃ i b topics q, e = .outcome i b (.ok topics) ∧ Waits s i q ∧ q.broker = b ∧ q.corr = k) := by
  cases hi : whoseProduce e with
  | none =>
    cases e with
    | cluster cl => exact ⟨Int.le_refl _, .inl rfl⟩
    | others n => exact ⟨by simp only [ProducerBusy.step]; omega, .inl rfl⟩
    | _ => cases hi
  | some i =>
    by_cases ha : ∃ j b topics, e = .outcome j b (.ok topics)
    · obtain ⟨j, b, topics, rfl⟩ := ha
      rcases answerStep cfg s j b topics with hs | ⟨left, stop, q, h0, hm, hb, hfind, hs⟩
      · rw [hs]; exact ⟨Int.le_refl _, .inl rfl⟩
      · obtain ⟨o1, _, o3⟩ := handleResponse_others s.producer ⟨q.corr, topics⟩
        rcases hs with ⟨p, hp, hs⟩ | ⟨x, p, hp, hs⟩
        · rw [hp] at o1 o3
          rw [hs]
          refine ⟨by rw [o1], ?_⟩
          by_cases hq : q.corr = k
          · exact .inr ⟨j, b, topics, q, rfl, ⟨left, stop, h0, hm⟩, hb, hq⟩
          · exact .inl (o3 k (fun h => hq h.symm))
        · rw [hp] at o1 o3
          rw [hs]
          refine ⟨by rw [o1], ?_⟩
          by_cases hq : q.corr = k
          · exact .inr ⟨j, b, topics, q, rfl, ⟨left, stop, h0, hm⟩, hb, hq⟩
          · exact .inl (o3 k (fun h => hq h.symm))
    · have hst := callStep cfg s e i hi (fun j b t he => ha ⟨j, b, t, he⟩)
      cases hst with
      | none ho hs => rw [hs]; exact ⟨Int.le_refl _, .inl rfl⟩
      | waits w' hw' ho hs hb => rw [hs]; exact ⟨Int.le_refl _, .inl rfl⟩
      | ends ho hs hc hb => exact ⟨hs.lastId, .inl (hs.sent k hk)⟩
      | fails b x he left q stop ho hb hq hqb hs hsent hc => exact ⟨hs.lastId, .inl (hs.sent k hk)⟩
      | sends reqs stop pick comp p0 h0 hw0 hk' hacc hp ho hc hb =>
        obtain ⟨g1, _, g3⟩ := prepare_others pick comp p0
        rw [hp] at g1 g3
        exact ⟨h0.lastId.trans g1, .inl ((g3 k (hk.trans h0.lastId)).trans (h0.sent k hk))⟩

/-- A step about another call leaves a call where it is. -/
theorem otherCalls_step (cfg : PCfg α κ β) (s : ProducerBusy α κ β γ) (e : ProduceEv α κ β γ) (j : Nat)
    (hj : whoseProduce e ≠ some j) : (s.step cfg e).2.calls.get? j = s.calls.get? j := by
  cases hi : whoseProduce e with
  | none =>
    cases e with
    | cluster cl => rfl
    | others n => rfl
    | _ => cases hi
  | some i =>
    have hij : i ≠ j := fun h => hj (by rw [hi, h])
    by_cases ha : ∃ j b topics, e = .outcome j b (.ok topics)
    · obtain ⟨k, b, topics, rfl⟩ := ha
      cases hi
      rcases answerStep cfg s i b topics with hs | ⟨left, stop, q, h0, hm, hb, hfind, hs⟩
      · rw [hs]
      · rcases hs with ⟨p, hp, hs⟩ | ⟨x, p, hp, hs⟩
        · rw [hs]; simp [Dict.get?_set, hij]
        · rw [hs]; simp [Dict.get?_erase, hij]
    · have hst := callStep cfg s e i hi (fun j b t he => ha ⟨j, b, t, he⟩)
      cases hst with
      | none ho hs => rw [hs]
      | waits w' hw' ho hs hb => rw [hs]; simp [Dict.get?_set, hij]
      | ends ho hs hc hb => rw [hc]; simp [Dict.get?_erase, hij]
      | fails b x he left q stop ho hb hq hqb hs hsent hc => rw [hc]; simp [Dict.get?_set, hij]
      | sends reqs stop pick comp p0 h0 hw0 hk hacc hp ho hc hb => rw [hc]; simp [Dict.get?_set, hij]

/-- Requests outstanding after a step were outstanding before, or have just been sent. -/
theorem waitsStep (cfg : PCfg α κ β) (s : ProducerBusy α κ β γ) (e : ProduceEv α κ β γ)
    (h : CallsWF s) (j : Nat) (q : PReq γ) (hq : Waits (s.step cfg e).2 j q) :
    Waits s j q ∨ s.producer.lastId < q.corr := by
  by_cases hj : whoseProduce e = some j
  swap
  · obtain ⟨left, stop, h1, h2⟩ := hq
    rw [otherCalls_step cfg s e j hj] at h1
    exact .inl ⟨left, stop, h1, h2⟩
  by_cases ha : ∃ j b topics, e = .outcome j b (.ok topics)
  · obtain ⟨k, b, topics, rfl⟩ := ha
    cases hj
    rcases answerStep cfg s j b topics with hs | ⟨left, stop, q', h0, hm, hb, hfind, hs⟩
    · rw [hs] at hq; exact .inl hq
    · rcases hs with ⟨p, hp, hs⟩ | ⟨x, p, hp, hs⟩
      · rw [hs] at hq
        rcases waits_set hq with ⟨_, hq⟩ | ⟨_, left', stop', hw, hq⟩
        · exact .inl hq
        · cases hw; exact .inl ⟨left, stop, h0, (List.mem_filter.1 hq).1⟩
      · rw [hs] at hq; exact .inl (waits_erase hq)
  · have hst := callStep cfg s e j hj (fun j b t he => ha ⟨j, b, t, he⟩)
    cases hst with
    | none ho hs => rw [hs] at hq; exact .inl hq
    | waits w' hw' ho hs hb =>
      rw [hs] at hq
      rcases waits_set hq with ⟨_, hq⟩ | ⟨_, left', stop', hw, hq⟩
      · exact .inl hq
      · exact absurd hw (hw' _ _)
    | ends ho hs hc hb =>
      have he : (s.step cfg e).2 = ⟨(s.step cfg e).2.producer, s.calls.erase j⟩ := by rw [← hc]
      rw [he] at hq; exact .inl (waits_erase hq)
    | fails b x he left q' stop ho hb hq' hqb hs hsent hc =>
      have hx : (s.step cfg e).2 = ⟨(s.step cfg e).2.producer,
          s.calls.set j (.sending (left.filter fun q => decide (q.broker ≠ b)) stop)⟩ := by rw [← hc]
      rw [hx] at hq
      rcases waits_set hq with ⟨_, hq⟩ | ⟨_, left', stop', hw, hq⟩
      · exact .inl hq
      · cases hw; exact .inl ⟨left, stop, hb, (List.mem_filter.1 hq).1⟩
    | sends reqs stop pick comp p0 h0 hw0 hk hacc hp ho hc hb =>
      have he : (s.step cfg e).2 =
          ⟨(s.step cfg e).2.producer, s.calls.set j (.sending reqs stop)⟩ := by rw [← hc]
      rw [he] at hq
      rcases waits_set hq with ⟨_, hq⟩ | ⟨_, left', stop', hw, hq⟩
      · exact .inl hq
      · cases hw
        have := ((prepare_reqs (hw0 h.wf) hp).1 q hq).1
        have := h0.lastId
        exact .inr (by omega)

theorem seenThrough_more {cfg : PCfg α κ β} {s : ProducerBusy α κ β γ} {i : Nat}
    {es : List (ProduceEv α κ β γ)} {q : PReq γ} (h : SeenThrough cfg s i es q)
    (e : ProduceEv α κ β γ)
    (hk : ((afterCalls cfg s es).step cfg e).2.producer.sent.get? q.corr =
      (afterCalls cfg s es).producer.sent.get? q.corr) : SeenThrough cfg s i (es ++ [e]) q := by
  cases h with
  | answered pre post topics split kept queue gone =>
    refine .answered pre (post ++ [e]) topics (by rw [split]; simp) kept queue ?_
    rw [afterCalls_append]
    exact hk.trans gone
  | failed x mem kept =>
    refine .failed x (List.mem_append_left _ mem) ?_
    rw [afterCalls_append]
    exact hk.trans kept

/-- A call under way, and each of its requests either outstanding, with its messages kept, or seen
through. -/
def UnderWay (cfg : PCfg α κ β) (s : ProducerBusy α κ β γ) (i : Nat) (reqs : List (PReq γ))
    (es : List (ProduceEv α κ β γ)) : Prop :=
  (∃ w, (afterCalls cfg s es).calls.get? i = some w ∧ ∀ t a, w ≠ .finding t a) ∧
  ∀ q ∈ reqs, q.corr ≤ (afterCalls cfg s es).producer.lastId ∧
    ((Waits (afterCalls cfg s es) i q ∧
        (afterCalls cfg s es).producer.sent.get? q.corr = s.producer.sent.get? q.corr) ∨
      ((∀ j q', Waits (afterCalls cfg s es) j q' → q'.corr ≠ q.corr) ∧ SeenThrough cfg s i es q))

theorem retried_congr {sent sent' : Dict Int (ByPartition κ β)} (r : PResp) (t : String)
    (h : sent.get? r.corr = sent'.get? r.corr) : retried sent r t = retried sent' r t := by
  simp only [retried, sentFor, h]

theorem underWay_step (cfg : PCfg α κ β) (s : ProducerBusy α κ β γ) (i : Nat)
    (reqs : List (PReq γ)) (es : List (ProduceEv α κ β γ)) (e : ProduceEv α κ β γ)
    (hw : CallsWF (afterCalls cfg s es)) (h : UnderWay cfg s i reqs es)
    (hne : (watchProducer cfg).ends e ((afterCalls cfg s es).step cfg e).1 ≠ some i) :
    UnderWay cfg s i reqs (es ++ [e]) := by
  have haft : afterCalls cfg s (es ++ [e]) = ((afterCalls cfg s es).step cfg e).2 := by
    rw [afterCalls_append]; rfl
  unfold UnderWay at h ⊢
  rw [haft]
  obtain ⟨⟨w, hcall, hwf⟩, hreq⟩ := h
  generalize hs0 : afterCalls cfg s es = s0 at *
  -- what stays
  have seen : ∀ q ∈ reqs, (∀ j q', Waits s0 j q' → q'.corr ≠ q.corr) → SeenThrough cfg s i es q →
      (∀ j q', Waits (s0.step cfg e).2 j q' → q'.corr ≠ q.corr) ∧
        SeenThrough cfg s i (es ++ [e]) q := by
    intro q hq h1 h2
    have hle := (hreq q hq).1
    refine ⟨fun j q' hq' hc => ?_, seenThrough_more h2 e ?_⟩
    · rcases waitsStep cfg s0 e hw j q' hq' with h3 | h3
      · exact h1 j q' h3 hc
      · omega
    · rw [hs0]
      rcases (keptSent_step cfg s0 e q.corr hle).2 with h3 | ⟨j, b, topics, q', rfl, h3, h4, h5⟩
      · exact h3
      · exact absurd h5 (h1 j q' h3)
  have le : ∀ q ∈ reqs, q.corr ≤ (s0.step cfg e).2.producer.lastId := fun q hq =>
    (hreq q hq).1.trans (keptSent_step cfg s0 e q.corr (hreq q hq).1).1
  -- a request that is done with
  have done : ∀ q ∈ reqs, Waits s0 i q →
      (¬ Waits (s0.step cfg e).2 i q) →
      ∀ j q', Waits (s0.step cfg e).2 j q' → q'.corr ≠ q.corr := by
    intro q hq h1 h2 j q' hq' hc
    rcases waitsStep cfg s0 e hw j q' hq' with h3 | h3
    · obtain ⟨rfl, rfl⟩ := hw.apart i j q q' h1 h3 hc.symm
      exact h2 hq'
    · have := (hreq q hq).1; omega
  by_cases hi : whoseProduce e = some i
  swap
  · -- about another call
    have hc := otherCalls_step cfg s0 e i hi
    refine ⟨⟨w, by rw [hc]; exact hcall, hwf⟩, fun q hq => ⟨le q hq, ?_⟩⟩
    rcases (hreq q hq).2 with ⟨h1, h2⟩ | ⟨h1, h2⟩
    · refine .inl ⟨?_, ?_⟩
      · obtain ⟨left, stop, a1, a2⟩ := h1
        exact ⟨left, stop, by rw [hc]; exact a1, a2⟩
      · rcases (keptSent_step cfg s0 e q.corr (hreq q hq).1).2 with h3 | ⟨j, b, topics, q', rfl, h3, h4, h5⟩
        · rw [h3]; exact h2
        · obtain ⟨rfl, rfl⟩ := hw.apart j i q' q h3 h1 h5
          exact absurd rfl hi
    · exact .inr (seen q hq h1 h2)
  -- a request of this call is answered or fails
  have one : ∀ (left : List (PReq γ)) (stop : Bool) (b : Int) (q0 : PReq γ),
      s0.calls.get? i = some (.sending left stop) → q0 ∈ left → q0.broker = b →
      (s0.step cfg e).2.calls.get? i =
        some (.sending (left.filter fun q => decide (q.broker ≠ b)) stop) →
      (∀ k, k ≠ q0.corr → k ≤ s0.producer.lastId →
        (s0.step cfg e).2.producer.sent.get? k = s0.producer.sent.get? k) →
      (q0 ∈ reqs → s0.producer.sent.get? q0.corr = s.producer.sent.get? q0.corr →
        SeenThrough cfg s i (es ++ [e]) q0) →
      (∃ w, (s0.step cfg e).2.calls.get? i = some w ∧ ∀ t a, w ≠ .finding t a) ∧
      ∀ q ∈ reqs, q.corr ≤ (s0.step cfg e).2.producer.lastId ∧
        ((Waits (s0.step cfg e).2 i q ∧
            (s0.step cfg e).2.producer.sent.get? q.corr = s.producer.sent.get? q.corr) ∨
          ((∀ j q', Waits (s0.step cfg e).2 j q' → q'.corr ≠ q.corr) ∧
            SeenThrough cfg s i (es ++ [e]) q)) := by
    intro left stop b q0 h0 hm hb hc hk hst
    refine ⟨⟨_, hc, fun t a h => by cases h⟩, fun q hq => ⟨le q hq, ?_⟩⟩
    rcases (hreq q hq).2 with ⟨h1, h2⟩ | ⟨h1, h2⟩
    · have hql : q ∈ left := by
        obtain ⟨left', stop', a1, a2⟩ := h1
        rw [h0] at a1; cases a1; exact a2
      by_cases hqb : q.broker = b
      · have : q = q0 :=
          List.inj_on_of_nodup_map (hw.brokers i left stop h0) hql hm (by rw [hqb, hb])
        subst this
        refine .inr ⟨done q hq h1 ?_, hst hq h2⟩
        rintro ⟨left', stop', a1, a2⟩
        rw [hc] at a1
        cases a1
        have := (List.mem_filter.1 a2).2
        simp [hqb] at this
      · refine .inl ⟨⟨_, _, hc, List.mem_filter.2 ⟨hql, by simpa using hqb⟩⟩, ?_⟩
        rw [hk q.corr ?_ (hreq q hq).1]; exact h2
        intro hcc
        obtain ⟨_, rfl⟩ := hw.apart i i q q0 h1 ⟨left, stop, h0, hm⟩ hcc
        exact hqb hb
    · exact .inr (seen q hq h1 h2)
  have same : (s0.step cfg e).2 = s0 →
      (∃ w, (s0.step cfg e).2.calls.get? i = some w ∧ ∀ t a, w ≠ .finding t a) ∧
      ∀ q ∈ reqs, q.corr ≤ (s0.step cfg e).2.producer.lastId ∧
        ((Waits (s0.step cfg e).2 i q ∧
            (s0.step cfg e).2.producer.sent.get? q.corr = s.producer.sent.get? q.corr) ∨
          ((∀ j q', Waits (s0.step cfg e).2 j q' → q'.corr ≠ q.corr) ∧
            SeenThrough cfg s i (es ++ [e]) q)) := by
    intro hs
    refine ⟨⟨w, by rw [hs]; exact hcall, hwf⟩, fun q hq => ⟨le q hq, ?_⟩⟩
    rcases (hreq q hq).2 with ⟨h1, h2⟩ | ⟨h1, h2⟩
    · exact .inl (by rw [hs]; exact ⟨h1, h2⟩)
    · exact .inr (seen q hq h1 h2)
  by_cases ha : ∃ j b topics, e = .outcome j b (.ok topics)
  · obtain ⟨k, b, topics, rfl⟩ := ha
    cases hi
    rcases answerStep cfg s0 i b topics with hs | ⟨left, stop, q0, h0, hm, hb, hfind, hs⟩
    · exact same (by rw [hs])
    · rcases hs with ⟨p, hp, hs⟩ | ⟨x, p, hp, hs⟩
      · obtain ⟨_, _, o3⟩ := handleResponse_others s0.producer ⟨q0.corr, topics⟩
        rw [hp] at o3
        refine one left stop b q0 h0 hm hb (by rw [hs]; simp [Dict.get?_set]) ?_ ?_
        · intro k hk _
          rw [hs]; exact o3 k hk
        · intro hq hkept
          obtain ⟨c1, _, _, c4, _⟩ := C30_retry s0.producer p ⟨q0.corr, topics⟩ hw.wf hp
          subst hb
          refine .answered es [] topics rfl (by rw [hs0]; exact hkept) ?_ ?_
          · intro t
            rw [haft, hs0, hs]
            simp only [c1 t]
            rw [retried_congr (sent' := s.producer.sent) _ _ hkept]
          · rw [haft, hs]; exact c4
      · exact absurd (by rw [hs]; rfl) hne
  · have hst := callStep cfg s0 e i hi (fun j b t he => ha ⟨j, b, t, he⟩)
    cases hst with
    | none ho hs => exact same hs
    | waits w' hw' ho hs hb =>
      rcases hb with hb | ⟨⟨stop, hb⟩, hnf⟩
      · rw [hb] at hcall; cases hcall
      · refine ⟨⟨w', by rw [hs]; simp [Dict.get?_set], hnf⟩, fun q hq => ⟨le q hq, ?_⟩⟩
        rcases (hreq q hq).2 with ⟨⟨left', stop', a1, a2⟩, h2⟩ | ⟨h1, h2⟩
        · rw [hb] at a1; cases a1; cases a2
        · exact .inr (seen q hq h1 h2)
    | ends ho hs hc hb =>
      refine absurd ?_ hne
      rcases ho with ⟨x, ho⟩ | ho <;> (rw [ho]; exact hi)
    | fails b x he left q0 stop ho hb hq hqb hs hsent hc =>
      refine one left stop b q0 hb hq hqb (by rw [hc]; simp [Dict.get?_set])
        (fun k _ hk => hs.sent k hk) ?_
      intro hq' hkept
      subst he
      subst hqb
      refine .failed x (by simp) ?_
      rw [haft, hsent]
      exact hkept
    | sends reqs' stop pick comp p0 h0 hw0 hk hacc hp ho hc hb =>
      rcases hb with hb | ⟨t, a, hb⟩
      · rw [hb] at hcall; cases hcall
      · rw [hb] at hcall; cases hcall; exact absurd rfl (hwf t a)

/-- What a flush takes from the queue is in its requests, or queued again. -/
theorem taken {pick : Nat → κ → List Int → Res Int} {comp : List (Msg κ β) → Res γ}
    {p p' : Producer κ β} {reqs : List (PReq γ)} (hw : WF p)
    (h : p.prepare pick comp = (.ok (some reqs), p')) :
    (inQueue p.unsent).Perm (inQueue p'.unsent ++
      reqs.flatMap fun q => inRequest ((p'.sent.get? q.corr).getD [])) := by
  obtain ⟨w, hp⟩ := step_perm (cfg := (⟨fun _ => .error .valueError, fun _ => .error .valueError, 0⟩ :
      PCfg Unit κ β)) (ev := (.flush pick comp : PEv Unit κ β γ)) (e := .none) (p' := p') hw
    (by simp only [Producer.step, h]) (fun _ => rfl)
  simp only [settledBy, accepted, List.append_nil, List.nil_append] at hp
  obtain ⟨pl, _, h2, _, _, h5, _⟩ := prepare_ok hw.old h
  generalize (routeTo p.cluster pl ⟨[], []⟩).ordered = o at h2 h5
  obtain ⟨k1, k2⟩ := numbered_keys p.lastId o
  have hnew : (reqs.flatMap fun q => inRequest ((p'.sent.get? q.corr).getD [])) =
      inSent (numbered p.lastId o) := by
    have e1 : (reqs.flatMap fun q => inRequest ((p'.sent.get? q.corr).getD [])) =
        (reqs.map (·.corr)).flatMap fun c => inRequest ((p'.sent.get? c).getD []) := by
      rw [List.flatMap_map]
    rw [e1, h5]
    simp only [Dict.keys, inSent]
    rw [List.flatMap_map]
    refine List.flatMap_congr fun x hx => ?_
    have : p'.sent.get? x.1 = some x.2 := Dict.get?_of_mem w.nodup (by rw [h2]; exact List.mem_append_right _ hx)
    rw [this]; rfl
  rw [hnew]
  rw [h2, inSent_append] at hp
  have h3 : (inQueue p'.unsent ++ inSent (numbered p.lastId o) ++ inSent p.sent).Perm
      (inQueue p.unsent ++ inSent p.sent) := by
    refine List.Perm.trans ?_ hp
    simp only [List.append_assoc]
    exact List.perm_append_comm.append_left _
  exact ((List.perm_append_right_iff _).1 h3).symm

/-- **C107** (partial: of the messages accepted before the call, those that were in the queue when the
flush began).  Whatever else is going on: when a call that flushed returns, the messages that were in
the queue when it flushed were put in its requests, or queued again, their leader not being connected;
and each of its requests has been answered, and so has been settled but for what was queued again, or
has failed. -/
theorem C107_seen_through_partial (cfg : PCfg α κ β) (cl : Cluster) (n : Int)
    (es0 : List (ProduceEv α κ β γ)) (s s1 : ProducerBusy α κ β γ)
    (hs : s = afterCalls cfg (idleProducer cl n) es0)
    (e : ProduceEv α κ β γ) (i : Nat) (reqs : List (PReq γ)) (hi : whoseProduce e = some i)
    (hsent : s.step cfg e = (.sent reqs, s1)) (es : List (ProduceEv α κ β γ))
    (hes : ∀ x ∈ ((watchProducer cfg).watch s1 es).1, (watchProducer cfg).ends x.1 x.2 ≠ some i)
    (e2 : ProduceEv α κ β γ) (hi2 : whoseProduce e2 = some i)
    (hret : ((afterCalls cfg s1 es).step cfg e2).1 = .returned) :
    (acceptedIn cfg s e ++ inQueue s.producer.unsent).Perm (inQueue s1.producer.unsent ++
      reqs.flatMap fun q => inRequest ((s1.producer.sent.get? q.corr).getD [])) ∧
    ∀ q ∈ reqs, SeenThrough cfg s1 i es q := by
  have hw : CallsWF s := hs ▸ callsWF_after cfg _ es0 (callsWF_idle cl n)
  have hw1 : CallsWF s1 := by have := callsWF_step cfg s e hw; rw [hsent] at this; exact this
  have hna : ∀ (st : ProducerBusy α κ β γ) j b topics,
      (∃ l, (st.step cfg (.outcome j b (.ok topics))).1 = .sent l) ∨
        (st.step cfg (.outcome j b (.ok topics))).1 = .returned → False := by
    intro st j b topics h
    rcases answerStep cfg st j b topics with hs | ⟨left, stop, q, h0, hm, hb, hfind, hs⟩
    · rw [hs] at h; rcases h with ⟨l, h⟩ | h <;> cases h
    · rcases hs with ⟨p, hp, hs⟩ | ⟨x, p, hp, hs⟩ <;>
        (rw [hs] at h; rcases h with ⟨l, h⟩ | h <;> cases h)
  -- the beginning
  have hst := callStep cfg s e i hi (fun j b t he => hna s j b t (.inl ⟨reqs, by rw [← he, hsent]⟩))
  have hbeg : (acceptedIn cfg s e ++ inQueue s.producer.unsent).Perm (inQueue s1.producer.unsent ++
      reqs.flatMap fun q => inRequest ((s1.producer.sent.get? q.corr).getD [])) ∧
      UnderWay cfg s1 i reqs [] := by
    rw [hsent] at hst
    cases hst with
    | none ho hs => cases ho
    | waits w' hw' ho hs hb => cases ho
    | ends ho hs hc hb => rcases ho with ⟨x, ho⟩ | ho <;> cases ho
    | fails b x he left q stop ho hb hq hqb hs hsent hc => cases ho
    | sends reqs' stop pick comp p0 h0 hw0 hk hacc hp ho hc hb =>
      cases ho
      refine ⟨hacc.symm.trans (taken (hw0 hw.wf) hp), ⟨.sending reqs stop, ?_,
        fun t a h => (by cases h)⟩, fun q hq => ⟨?_, .inl ⟨⟨reqs, stop, ?_, hq⟩, rfl⟩⟩⟩
      · rw [afterCalls, hc]; simp [Dict.get?_set]
      · exact ((prepare_reqs (hw0 hw.wf) hp).1 q hq).2
      · rw [afterCalls, hc]; simp [Dict.get?_set]
  -- on and on
  have key : ∀ (rest done : List (ProduceEv α κ β γ)), UnderWay cfg s1 i reqs done →
      (∀ x ∈ ((watchProducer cfg).watch (afterCalls cfg s1 done) rest).1,
        (watchProducer cfg).ends x.1 x.2 ≠ some i) → UnderWay cfg s1 i reqs (done ++ rest) := by
    intro rest
    induction rest with
    | nil => intro done h _; simpa using h
    | cons x rest ih =>
      intro done h hx
      simp only [Watched.watch, List.mem_cons, forall_eq_or_imp] at hx
      have h1 := underWay_step cfg s1 i reqs done x (callsWF_after cfg s1 done hw1) h hx.1
      have h2 := ih (done ++ [x]) h1 (by rw [afterCalls_append]; exact hx.2)
      simpa using h2
  have hend := key es [] hbeg.2 hes
  simp only [List.nil_append] at hend
  refine ⟨hbeg.1, fun q hq => ?_⟩
  rcases (hend.2 q hq).2 with ⟨⟨left, stop, a1, a2⟩, _⟩ | ⟨_, h⟩
  swap
  · exact h
  have hst := callStep cfg (afterCalls cfg s1 es) e2 i hi2
    (fun j b t he => hna _ j b t (.inr (by rw [← he, hret])))
  rw [hret] at hst
  cases hst with
  | none ho hs => cases ho
  | waits w' hw' ho hs hb => cases ho
  | ends ho hs hc hb => have := hb left stop a1; subst this; cases a2
  | fails b x he left q stop ho hb hq hqb hs hsent hc => cases ho
  | sends reqs' stop pick comp p0 h0 hw0 hk hacc hp ho hc hb => cases ho

/-- **C107** (partial): a flush that returns at once, without sending anything, found nothing in the
queue. -/
theorem C107_nothing_partial (cfg : PCfg α κ β) (s : ProducerBusy α κ β γ) (i : Nat)
    (env : FlushStart κ β γ) (h : (s.step cfg (.flush i env)).1 = .returned) :
    inQueue s.producer.unsent = [] := by
  simp only [ProducerBusy.step] at h
  split at h
  · cases h
  · unfold ProducerBusy.flushes at h
    split at h
    · cases h
    · rename_i hx
      rw [(prepare_none hx).2]; rfl
    · split at h <;> cases h

/-! ### C108 -/

/-- No `produce` waits for metadata. -/
def Spec.NoneFinding (s : ProducerBusy α κ β γ) : Prop :=
  ∀ i t a, s.calls.get? i ≠ some (.finding t a)

theorem closing_step (cfg : PCfg α κ β) (s : ProducerBusy α κ β γ) (e : ProduceEv α κ β γ)
    (hc : s.producer.closing = true) (hn : NoneFinding s) :
    acceptedIn cfg s e = [] ∧ (s.step cfg e).2.producer.closing = true ∧
      NoneFinding (s.step cfg e).2 := by
  have hset : ∀ (p : Producer κ β) (i : Nat) (w : Producing α γ), (∀ t a, w ≠ .finding t a) →
      NoneFinding (⟨p, s.calls.set i w⟩ : ProducerBusy α κ β γ) := by
    intro p i w hw j t a h
    simp only [Dict.get?_set] at h
    split at h
    · simp only [Option.some.injEq] at h; exact hw t a h
    · exact hn j t a h
  have herase : ∀ (p : Producer κ β) (i : Nat),
      NoneFinding (⟨p, s.calls.erase i⟩ : ProducerBusy α κ β γ) := by
    intro p i j t a h
    simp only [Dict.get?_erase] at h
    split at h
    · cases h
    · exact hn j t a h
  have hf : ∀ (p0 : Producer κ β) i env stop, p0.closing = true →
      (({ s with producer := p0 } : ProducerBusy α κ β γ).flushes i env stop).2.producer.closing = true ∧
      NoneFinding (({ s with producer := p0 } : ProducerBusy α κ β γ).flushes i env stop).2 := by
    intro p0 i env stop h0
    obtain ⟨g1, g2, g3⟩ := flushes_cases { s with producer := p0 } i env stop
    refine ⟨g2.trans h0, ?_⟩
    rcases g3 with ⟨g3, g4⟩ | ⟨reqs, p, g4, g5⟩
    · have : (({ s with producer := p0 } : ProducerBusy α κ β γ).flushes i env stop).2 =
          ⟨(({ s with producer := p0 } : ProducerBusy α κ β γ).flushes i env stop).2.producer,
            s.calls.erase i⟩ := by rw [← g4]
      rw [this]; exact herase _ _
    · rw [g5]; exact hset _ _ _ (fun t a h => by cases h)
  cases e with
  | produce i t a env =>
    refine ⟨by simp [acceptedIn, hc], ?_⟩
    simp only [ProducerBusy.step, hc, if_true]
    split
    · exact ⟨hc, hn⟩
    · exact ⟨hc, herase _ _⟩
  | flush i env =>
    refine ⟨rfl, ?_⟩
    simp only [ProducerBusy.step]
    split
    · exact ⟨hc, hn⟩
    · exact hf s.producer i env false hc
  | close i env =>
    refine ⟨rfl, ?_⟩
    simp only [ProducerBusy.step]
    split
    · exact ⟨hc, hn⟩
    · exact hf _ i env true rfl
  | found i r env =>
    have hx : s.step cfg (.found i r env) = (.nothing, s) := by
      simp only [ProducerBusy.step]
      split
      · rename_i t a h; exact absurd h (hn i t a)
      · rfl
    rw [hx]
    refine ⟨?_, hc, hn⟩
    cases r with
    | error x => rfl
    | ok u =>
      simp only [acceptedIn]
      split
      · rename_i t a h; exact absurd h (hn i t a)
      · rfl
  | outcome i b r =>
    refine ⟨rfl, ?_⟩
    cases r with
    | error x =>
      simp only [ProducerBusy.step]
      split
      · split
        · exact ⟨hc, hn⟩
        · refine ⟨?_, hset _ _ _ (fun t a h => by cases h)⟩
          dsimp only; split <;> exact hc
      · exact ⟨hc, hn⟩
    | ok topics =>
      rcases answerStep cfg s i b topics with hs | ⟨left, stop, q, h0, hm, hb, hfind, hs⟩
      · rw [hs]; exact ⟨hc, hn⟩
      · have ho := (handleResponse_others s.producer ⟨q.corr, topics⟩).2.1
        rcases hs with ⟨p, hp, hs⟩ | ⟨x, p, hp, hs⟩
        · rw [hp] at ho; rw [hs]
          exact ⟨ho.trans hc, hset _ _ _ (fun t a h => by cases h)⟩
        · rw [hp] at ho; rw [hs]
          exact ⟨ho.trans hc, herase _ _⟩
  | goOn i =>
    refine ⟨rfl, ?_⟩
    simp only [ProducerBusy.step]
    split
    · rename_i stop _
      split
      · exact ⟨hc, hset _ _ _ (fun t a h => by cases h)⟩
      · refine ⟨?_, herase _ _⟩
        cases stop <;> exact hc
    · exact ⟨hc, hn⟩
  | healed i r =>
    refine ⟨rfl, ?_⟩
    simp only [ProducerBusy.step]
    split
    · rename_i stop _
      split
      · exact ⟨hc, herase _ _⟩
      · refine ⟨?_, herase _ _⟩
        cases stop <;> exact hc
    · exact ⟨hc, hn⟩
  | cluster cl => exact ⟨rfl, hc, hn⟩
  | others n => exact ⟨rfl, hc, hn⟩

/-- **C108** (partial: no `produce` waits for metadata when the producer is closed).  From then on no
message is accepted, whatever is called and whatever calls are under way. -/
theorem C108_accepts_nothing_partial (cfg : PCfg α κ β) (s : ProducerBusy α κ β γ)
    (es : List (ProduceEv α κ β γ)) (hc : s.producer.closing = true) (hn : NoneFinding s) :
    inCourse cfg (acceptedIn cfg) s es = [] := by
  induction es generalizing s with
  | nil => rfl
  | cons e es ih =>
    obtain ⟨h1, h2, h3⟩ := closing_step cfg s e hc hn
    simp only [inCourse, h1, List.nil_append]
    exact ih _ h2 h3

theorem dict_nil {ν : Type} {d : Dict Nat ν} (h : ∀ i, d.get? i = .none) : d = [] := by
  cases d with
  | nil => rfl
  | cons e d => have := h e.1; simp [Dict.get?] at this

/-- Only the `close` is under way. -/
def OnlyClose (s : ProducerBusy α κ β γ) (i : Nat) : Prop :=
  s.producer.closing = true ∧ (∀ j, j ≠ i → s.calls.get? j = .none) ∧
  ((∃ left, s.calls.get? i = some (.sending left true)) ∨ s.calls.get? i = some (.healing true))

theorem onlyClose_step (cfg : PCfg α κ β) (s : ProducerBusy α κ β γ) (i : Nat)
    (e : ProduceEv α κ β γ) (h : OnlyClose s i) (he : ∀ j env, e ≠ .flush j env ∧ e ≠ .close j env)
    (hne : (watchProducer cfg).ends e (s.step cfg e).1 ≠ some i) : OnlyClose (s.step cfg e).2 i := by
  obtain ⟨hc, ho, hi⟩ := h
  have hcl := (closing_step cfg s e hc (by
    intro j t a hj
    by_cases hji : j = i
    · subst hji; rcases hi with ⟨left, hi⟩ | hi <;> (rw [hi] at hj; cases hj)
    · rw [ho j hji] at hj; cases hj)).2.1
  have hhas : s.calls.has i = true := by
    rcases hi with ⟨left, hi⟩ | hi <;> simp [Dict.has, hi]
  refine ⟨hcl, ?_, ?_⟩
  · intro j hj
    by_cases hw : whoseProduce e = some j
    · cases e with
      | produce k t a env =>
        cases hw
        simp only [ProducerBusy.step, hc, if_true]
        split
        · exact ho j hj
        · simp [ProducerBusy.over, Dict.get?_erase]
      | flush k env => exact absurd rfl (he k env).1
      | close k env => exact absurd rfl (he k env).2
      | found k r env => cases hw; simp [ProducerBusy.step, ho j hj]
      | outcome k b r => cases hw; simp [ProducerBusy.step, ho j hj]
      | goOn k => cases hw; simp [ProducerBusy.step, ho j hj]
      | healed k r => cases hw; simp [ProducerBusy.step, ho j hj]
      | cluster cl => cases hw
      | others n => cases hw
    · rw [otherCalls_step cfg s e j hw]; exact ho j hj
  · by_cases hw : whoseProduce e = some i
    swap
    · rw [otherCalls_step cfg s e i hw]; exact hi
    cases e with
    | produce k t a env => cases hw; simp only [ProducerBusy.step, hhas, if_true]; exact hi
    | flush k env => exact absurd rfl (he k env).1
    | close k env => exact absurd rfl (he k env).2
    | found k r env =>
      cases hw
      rcases hi with ⟨left, hi⟩ | hi
      · simp only [ProducerBusy.step, hi]; exact .inl ⟨left, rfl⟩
      · simp only [ProducerBusy.step, hi]; exact .inr trivial
    | outcome k b r =>
      cases hw
      rcases hi with ⟨left, hi⟩ | hi
      · generalize hx : s.step cfg (.outcome i b r) = x at hne ⊢
        simp only [ProducerBusy.step, hi] at hx
        split at hx
        · subst hx; exact .inl ⟨left, hi⟩
        · split at hx
          · subst hx; exact .inl ⟨_, (Dict.get?_set _ _ _ _).trans (if_pos rfl)⟩
          · split at hx
            · subst hx; exact absurd rfl hne
            · subst hx; exact .inl ⟨_, (Dict.get?_set _ _ _ _).trans (if_pos rfl)⟩
      · simp only [ProducerBusy.step, hi]; exact .inr trivial
    | goOn k =>
      cases hw
      rcases hi with ⟨left, hi⟩ | hi
      · generalize hx : s.step cfg (.goOn i) = x at hne ⊢
        simp only [ProducerBusy.step, hi] at hx
        cases left with
        | nil =>
          dsimp only at hx
          split at hx
          · subst hx; exact .inr (by simp only [Dict.get?_set, if_true])
          · subst hx; exact absurd rfl hne
        | cons q left => dsimp only at hx; subst hx; exact .inl ⟨_, hi⟩
      · simp only [ProducerBusy.step, hi]; exact .inr trivial
    | healed k r =>
      cases hw
      rcases hi with ⟨left, hi⟩ | hi
      · simp only [ProducerBusy.step, hi]; exact .inl ⟨left, rfl⟩
      · exfalso
        apply hne
        cases r <;> (simp only [ProducerBusy.step, hi]; rfl)
    | cluster cl => cases hw
    | others n => cases hw

theorem rest_step (cfg : PCfg α κ β) (s : ProducerBusy α κ β γ) (e : ProduceEv α κ β γ)
    (hc : s.producer.closing = true) (hn : s.calls = [])
    (he : ∀ j env, e ≠ .flush j env ∧ e ≠ .close j env) :
    ((s.step cfg e).1 = .nothing ∨ (s.step cfg e).1 = .returned) ∧ (s.step cfg e).2.calls = [] ∧
    (s.step cfg e).2.producer.closing = true ∧
    (s.step cfg e).2.producer.unsent = s.producer.unsent ∧
    (s.step cfg e).2.producer.sent = s.producer.sent := by
  have h0 : ∀ i, s.calls.get? i = .none := fun i => by rw [hn]; rfl
  cases e with
  | produce k t a env =>
    have : s.calls.has k = false := by simp [Dict.has, h0]
    simp only [ProducerBusy.step, hc, this, if_true]
    exact ⟨.inr rfl, by simp [ProducerBusy.over, hn, Dict.erase], hc, rfl, rfl⟩
  | flush k env => exact absurd rfl (he k env).1
  | close k env => exact absurd rfl (he k env).2
  | found k r env => simp only [ProducerBusy.step, h0]; exact ⟨.inl trivial, hn, hc, trivial, trivial⟩
  | outcome k b r => simp only [ProducerBusy.step, h0]; exact ⟨.inl trivial, hn, hc, trivial, trivial⟩
  | goOn k => simp only [ProducerBusy.step, h0]; exact ⟨.inl trivial, hn, hc, trivial, trivial⟩
  | healed k r => simp only [ProducerBusy.step, h0]; exact ⟨.inl trivial, hn, hc, trivial, trivial⟩
  | cluster cl => exact ⟨.inl rfl, hn, hc, rfl, rfl⟩
  | others n => exact ⟨.inl rfl, hn, hc, rfl, rfl⟩

theorem rest_on (cfg : PCfg α κ β) (s : ProducerBusy α κ β γ) (es : List (ProduceEv α κ β γ))
    (hc : s.producer.closing = true) (hn : s.calls = []) (he : OnlyProduces es) :
    (∀ o ∈ seenIn cfg s es, o = .nothing ∨ o = .returned) ∧ (afterCalls cfg s es).calls = [] ∧
    (afterCalls cfg s es).producer.unsent = s.producer.unsent ∧
    (afterCalls cfg s es).producer.sent = s.producer.sent := by
  induction es generalizing s with
  | nil => exact ⟨fun o h => (by cases h), hn, rfl, rfl⟩
  | cons e es ih =>
    obtain ⟨h1, h2, h3, h4, h5⟩ := rest_step cfg s e hc hn (he e List.mem_cons_self)
    obtain ⟨g1, g2, g3, g4⟩ := ih _ h3 h2 (fun x hx => he x (List.mem_cons_of_mem _ hx))
    refine ⟨?_, g2, g3.trans h4, g4.trans h5⟩
    intro o ho
    simp only [seenIn, List.mem_cons] at ho
    rcases ho with rfl | ho
    · exact h1
    · exact g1 o ho

theorem stop_closing (cl : Cluster) : ∀ x ∈ cl.stop.conns, x.2.closing = true := by
  intro x hx
  simp only [Cluster.stop, List.mem_map] at hx
  obtain ⟨y, _, rfl⟩ := hx
  rfl

theorem erase_only {d : Dict Nat (Producing α γ)} {i : Nat} (h : ∀ j, j ≠ i → d.get? j = .none) :
    d.erase i = [] := by
  refine dict_nil fun j => ?_
  rw [Dict.get?_erase]
  split
  · rfl
  · rename_i hne; exact h j (Ne.symm hne)

/-- **C108** (partial: no call is under way when `close` is called, and neither `flush` nor a second
`close` afterwards).  Whatever is produced meanwhile: when `close` returns, nothing is outstanding and no
call is under way, every connection is being closed, and from then on nothing is sent or queued, no heal
is started, and every call returns at once. -/
theorem C108_at_rest_partial (cfg : PCfg α κ β) (s : ProducerBusy α κ β γ) (h0 : s.calls = [])
    (i : Nat) (env : FlushStart κ β γ) (es pre : List (ProduceEv α κ β γ)) (e : ProduceEv α κ β γ)
    (hes : OnlyProduces es) (hsplit : .close i env :: es = pre ++ [e])
    (hpre : ∀ x ∈ ((watchProducer cfg).watch s pre).1, (watchProducer cfg).ends x.1 x.2 ≠ some i)
    (hi : whoseProduce e = some i)
    (hret : ((afterCalls cfg s pre).step cfg e).1 = .returned) :
    (∀ j q, ¬ Waits (afterCalls cfg s (.close i env :: es)) j q) ∧
    (∀ x ∈ (afterCalls cfg s (.close i env :: es)).producer.cluster.conns, x.2.closing = true) ∧
    ∀ es' : List (ProduceEv α κ β γ), OnlyProduces es' →
      (∀ o ∈ seenIn cfg (afterCalls cfg s (.close i env :: es)) es', o = .nothing ∨ o = .returned) ∧
      (afterCalls cfg s (.close i env :: es ++ es')).calls = [] ∧
      (afterCalls cfg s (.close i env :: es ++ es')).producer.unsent =
        (afterCalls cfg s (.close i env :: es)).producer.unsent ∧
      (afterCalls cfg s (.close i env :: es ++ es')).producer.sent =
        (afterCalls cfg s (.close i env :: es)).producer.sent := by
  have main : (afterCalls cfg s (.close i env :: es)).calls = [] ∧
      (afterCalls cfg s (.close i env :: es)).producer.closing = true ∧
      (∀ x ∈ (afterCalls cfg s (.close i env :: es)).producer.cluster.conns, x.2.closing = true) := by
    have hhas : s.calls.has i = false := by rw [h0]; rfl
    have hstep : s.step cfg (.close i env) =
        ({ s with producer := { s.producer with closing := true } } :
          ProducerBusy α κ β γ).flushes i env true := by
      simp only [ProducerBusy.step, hhas, Bool.false_eq_true, if_false]
    have hcl : ∀ (x : ProduceOut γ × ProducerBusy α κ β γ), x = s.step cfg (.close i env) →
        x.2.producer.closing = true := by
      intro x hx; subst hx; rw [hstep]; exact (flushes_cases _ i env true).2.1
    cases pre with
    | nil =>
      simp only [List.nil_append, List.cons.injEq] at hsplit
      obtain ⟨rfl, rfl⟩ := hsplit
      simp only [afterCalls] at hret ⊢
      refine ⟨?_, hcl _ rfl, ?_⟩ <;> rw [hstep] at hret ⊢
      · rcases (flushes_cases { s with producer := { s.producer with closing := true } } i env true).2.2
          with ⟨_, g⟩ | ⟨reqs, p, _, g⟩
        · rw [g]; simp [h0, Dict.erase]
        · rw [g] at hret; cases hret
      · unfold ProducerBusy.flushes at hret ⊢
        split at hret
        · cases hret
        · exact stop_closing _
        · split at hret <;> cases hret
    | cons a pre =>
      simp only [List.cons_append, List.cons.injEq] at hsplit
      obtain ⟨rfl, rfl⟩ := hsplit
      simp only [Watched.watch, List.mem_cons, forall_eq_or_imp] at hpre
      have hfirst : OnlyClose (s.step cfg (.close i env)).2 i := by
        refine ⟨hcl _ rfl, ?_⟩
        have h1 : (watchProducer cfg).ends (.close i env) (s.step cfg (.close i env)).1 ≠ some i :=
          hpre.1
        rw [hstep] at h1 ⊢
        rcases (flushes_cases { s with producer := { s.producer with closing := true } } i env true).2.2
          with ⟨g, _⟩ | ⟨reqs, p, _, g⟩
        · exfalso; apply h1
          rcases g with ⟨x, g⟩ | g <;> (rw [g]; rfl)
        · rw [g]
          refine ⟨fun j hj => ?_, .inl ⟨reqs, by simp [Dict.get?_set]⟩⟩
          simp only [Dict.get?_set, h0]
          rw [if_neg (Ne.symm hj)]; rfl
      have hon : ∀ (rest : List (ProduceEv α κ β γ)) (st : ProducerBusy α κ β γ), OnlyClose st i →
          (∀ e ∈ rest, ∀ j env, e ≠ .flush j env ∧ e ≠ .close j env) →
          (∀ x ∈ ((watchProducer cfg).watch st rest).1, (watchProducer cfg).ends x.1 x.2 ≠ some i) →
          OnlyClose (afterCalls cfg st rest) i := by
        intro rest
        induction rest with
        | nil => intro st h _ _; exact h
        | cons x rest ih =>
          intro st h hx hr
          simp only [Watched.watch, List.mem_cons, forall_eq_or_imp] at hr
          exact ih _ (onlyClose_step cfg st i x h (hx x List.mem_cons_self) hr.1)
            (fun y hy => hx y (List.mem_cons_of_mem _ hy)) hr.2
      have hlast := hon pre _ hfirst (fun x hx => hes x (by simp [hx])) hpre.2
      simp only [afterCalls] at hret
      have hl : afterCalls cfg s (.close i env :: (pre ++ [e])) =
          ((afterCalls cfg (s.step cfg (.close i env)).2 pre).step cfg e).2 := by
        rw [afterCalls, afterCalls_append]; rfl
      rw [hl]
      generalize afterCalls cfg (s.step cfg (.close i env)).2 pre = st at hlast hret
      obtain ⟨k1, k2, k3⟩ := hlast
      have hst : st.calls.has i = true := by
        rcases k3 with ⟨left, k3⟩ | k3 <;> simp [Dict.has, k3]
      generalize hx : st.step cfg e = x at hret
      cases e with
      | produce k t a env' =>
        cases hi; simp only [ProducerBusy.step, hst, if_true] at hx; subst hx; cases hret
      | flush k env' => exact absurd rfl (hes _ (by simp) k env').1
      | close k env' => exact absurd rfl (hes _ (by simp) k env').2
      | found k r env' =>
        cases hi
        rcases k3 with ⟨left, k3⟩ | k3 <;>
          (simp only [ProducerBusy.step, k3] at hx; subst hx; cases hret)
      | outcome k b r =>
        cases hi
        rcases k3 with ⟨left, k3⟩ | k3
        · simp only [ProducerBusy.step, k3] at hx
          split at hx
          · subst hx; cases hret
          · split at hx
            · subst hx; cases hret
            · split at hx <;> (subst hx; cases hret)
        · simp only [ProducerBusy.step, k3] at hx; subst hx; cases hret
      | goOn k =>
        cases hi
        rcases k3 with ⟨left, k3⟩ | k3
        · simp only [ProducerBusy.step, k3] at hx
          cases left with
          | nil =>
            dsimp only at hx
            split at hx
            · subst hx; cases hret
            · subst hx
              exact ⟨erase_only k2, k1, stop_closing _⟩
          | cons q left => dsimp only at hx; subst hx; cases hret
        · simp only [ProducerBusy.step, k3] at hx; subst hx; cases hret
      | healed k r =>
        cases hi
        rcases k3 with ⟨left, k3⟩ | k3
        · simp only [ProducerBusy.step, k3] at hx; subst hx; cases hret
        · simp only [ProducerBusy.step, k3] at hx
          cases r with
          | error x => dsimp only at hx; subst hx; cases hret
          | ok u =>
            dsimp only at hx; subst hx
            exact ⟨erase_only k2, k1, stop_closing _⟩
      | cluster cl => cases hi
      | others n => cases hi
  refine ⟨?_, main.2.2, fun es' he' => ?_⟩
  · rintro j q ⟨left, stop, h, _⟩
    rw [main.1] at h; cases h
  · rw [afterCalls_append]
    exact rest_on cfg _ es' main.2.1 main.1 he'

/-! ### C105: every call ends once -/

/-- **C105**, for `produce`, `flush` and `close` of one producer. -/
theorem C105_producer (cfg : PCfg α κ β) :
    EndsOnce (watchProducer cfg : Watched (ProducerBusy α κ β γ) _ _) fun s => s.calls = [] := by
  refine endsOnce_of _ _ (fun _ => True) (fun s h => ⟨trivial, fun i => ?_⟩) fun s e _ hf =>
    ⟨trivial, fun i => ?_⟩
  · simp [watchProducer, h, Dict.has, Dict.get?]
  · show (if (watchProducer cfg).ends e (s.step cfg e).1 = some i then 1 else 0) +
      held (s.step cfg e).2.calls i = (if (watchProducer cfg).calls e = some i then 1 else 0) +
        held s.calls i
    have hover : ∀ (e : ProduceEv α κ β γ) (k : Nat) (c n : Nat) (p : Producer κ β) (stop : Bool),
        whoseProduce e = some k → c = (if k = i then n else 0) → held s.calls k + n = 1 →
        (if (watchProducer cfg).ends e (({ s with producer := p } : ProducerBusy α κ β γ).over k
            stop).1 = some i then 1 else 0) +
          held (({ s with producer := p } : ProducerBusy α κ β γ).over k stop).2.calls i =
          c + held s.calls i := by
      intro e k c n p stop hk hc hn
      simp only [ProducerBusy.over, watchProducer, hk, held_erase, hc]
      by_cases h : k = i
      · subst h; simp; omega
      · simp [h]
    have hfail : ∀ (e : ProduceEv α κ β γ) (k : Nat) (c n : Nat) (p : Producer κ β) (x : Exc) (given : List (PReq γ)),
        whoseProduce e = some k → c = (if k = i then n else 0) → held s.calls k + n = 1 →
        (if (watchProducer cfg).ends e (({ s with producer := p } : ProducerBusy α κ β γ).fails k
            x given).1 = some i then 1 else 0) +
          held (({ s with producer := p } : ProducerBusy α κ β γ).fails k x given).2.calls i =
          c + held s.calls i := by
      intro e k c n p x given hk hc hn
      simp only [ProducerBusy.fails, watchProducer, hk, held_erase, hc]
      by_cases h : k = i
      · subst h; simp; omega
      · simp [h]
    have hset : ∀ (k : Nat) (c n : Nat) (w : Producing α γ),
        c = (if k = i then n else 0) → held s.calls k + n = 1 →
        held (s.calls.set k w) i = c + held s.calls i := by
      intro k c n w hc hn
      simp only [held_set, hc]
      by_cases h : k = i
      · subst h; simp; omega
      · simp [h]
    have hflush : ∀ (e : ProduceEv α κ β γ) (k : Nat) (c n : Nat) (p : Producer κ β)
        (env : FlushStart κ β γ) (stop : Bool),
        whoseProduce e = some k → c = (if k = i then n else 0) → held s.calls k + n = 1 →
        (if (watchProducer cfg).ends e (({ s with producer := p } : ProducerBusy α κ β γ).flushes k
            env stop).1 = some i then 1 else 0) +
          held (({ s with producer := p } : ProducerBusy α κ β γ).flushes k env stop).2.calls i =
          c + held s.calls i := by
      intro e k c n p env stop hk hc hn
      generalize hx : ({ s with producer := p } : ProducerBusy α κ β γ).flushes k env stop = x
      unfold ProducerBusy.flushes at hx
      split at hx
      · subst hx; exact hfail e k c n _ _ _ hk hc hn
      · subst hx; exact hover e k c n _ _ hk hc hn
      · split at hx
        · subst hx; exact hfail e k c n _ _ _ hk hc hn
        · subst hx
          have := hset k c n (.sending ‹_› stop) hc hn
          simpa [watchProducer] using this
    have hqueue : ∀ (e : ProduceEv α κ β γ) (k : Nat) (c n : Nat)
        (t : String) (a : α) (env : FlushStart κ β γ),
        whoseProduce e = some k → c = (if k = i then n else 0) → held s.calls k + n = 1 →
        (if (watchProducer cfg).ends e (s.queues cfg k t a env).1 = some i then 1 else 0) +
          held (s.queues cfg k t a env).2.calls i = c + held s.calls i := by
      intro e k c n t a env hk hc hn
      generalize hx : s.queues cfg k t a env = x
      unfold ProducerBusy.queues at hx
      split at hx
      · subst hx; exact hfail e k c n _ _ _ hk hc hn
      · subst hx; exact hflush e k c n _ _ _ hk hc hn
      · subst hx; exact hover e k c n _ _ hk hc hn
    generalize hx : s.step cfg e = x
    cases e with
    | produce k t a env =>
      have h0 : s.calls.has k = false := hf k rfl
      have h1 : held s.calls k = 0 := by simp [held, h0]
      have hc : (if (watchProducer cfg).calls (.produce k t a env : ProduceEv α κ β γ) = some i
          then 1 else 0) = if k = i then 1 else 0 := by simp [watchProducer]
      simp only [ProducerBusy.step, h0, Bool.false_eq_true, if_false] at hx
      split at hx
      · subst hx; exact hover _ k _ 1 s.producer _ rfl hc (by omega)
      · split at hx
        · subst hx; exact hqueue _ k _ 1 _ _ _ rfl hc (by omega)
        · subst hx
          have := hset k _ 1 (.finding t a) hc (by omega)
          simpa [watchProducer] using this
    | flush k env =>
      have h0 : s.calls.has k = false := hf k rfl
      have h1 : held s.calls k = 0 := by simp [held, h0]
      have hc : (if (watchProducer cfg).calls (.flush k env : ProduceEv α κ β γ) = some i
          then 1 else 0) = if k = i then 1 else 0 := by simp [watchProducer]
      simp only [ProducerBusy.step, h0, Bool.false_eq_true, if_false] at hx
      subst hx; exact hflush _ k _ 1 s.producer _ _ rfl hc (by omega)
    | close k env =>
      have h0 : s.calls.has k = false := hf k rfl
      have h1 : held s.calls k = 0 := by simp [held, h0]
      have hc : (if (watchProducer cfg).calls (.close k env : ProduceEv α κ β γ) = some i
          then 1 else 0) = if k = i then 1 else 0 := by simp [watchProducer]
      simp only [ProducerBusy.step, h0, Bool.false_eq_true, if_false] at hx
      subst hx; exact hflush _ k _ 1 _ _ _ rfl hc (by omega)
    | found k r env =>
      simp only [ProducerBusy.step] at hx
      split at hx
      · rename_i t a h
        have h1 := held_some h
        split at hx
        · subst hx; exact hfail _ k _ 0 s.producer _ _ rfl (by simp [watchProducer]) (by omega)
        · split at hx
          · subst hx; exact hqueue _ k _ 0 _ _ _ rfl (by simp [watchProducer]) (by omega)
          · subst hx; exact hover _ k _ 0 s.producer _ rfl (by simp [watchProducer]) (by omega)
      · subst hx; simp [watchProducer]
    | outcome k b r =>
      simp only [ProducerBusy.step] at hx
      split at hx
      · rename_i left stop h
        have h1 := held_some h
        split at hx
        · subst hx; simp [watchProducer]
        · split at hx
          · subst hx
            have := hset k 0 0 (.sending (left.filter fun q => decide (q.broker ≠ b)) stop) (by simp)
              (by omega)
            simpa [watchProducer] using this
          · split at hx
            · subst hx; exact hfail _ k _ 0 _ _ _ rfl (by simp [watchProducer]) (by omega)
            · subst hx
              have := hset k 0 0 (.sending (left.filter fun q => decide (q.broker ≠ b)) stop) (by simp)
                (by omega)
              simpa [watchProducer] using this
      · subst hx; simp [watchProducer]
    | goOn k =>
      simp only [ProducerBusy.step] at hx
      split at hx
      · rename_i stop h
        have h1 := held_some h
        split at hx
        · subst hx
          have := hset k 0 0 (.healing stop) (by simp) (by omega)
          simpa [watchProducer] using this
        · subst hx; exact hover _ k _ 0 s.producer _ rfl (by simp [watchProducer]) (by omega)
      · subst hx; simp [watchProducer]
    | healed k r =>
      simp only [ProducerBusy.step] at hx
      split at hx
      · rename_i stop h
        have h1 := held_some h
        split at hx
        · subst hx; exact hfail _ k _ 0 s.producer _ _ rfl (by simp [watchProducer]) (by omega)
        · subst hx; exact hover _ k _ 0 _ _ rfl (by simp [watchProducer]) (by omega)
      · subst hx; simp [watchProducer]
    | cluster cl => subst hx; simp [watchProducer, ProducerBusy.step]
    | others n => subst hx; simp [watchProducer, ProducerBusy.step]

/-- **C105**, for `produce`, `flush` and `close` of one producer: none gets stuck, however its requests
and heals end, provided they end. -/
theorem C105_producer_ends (cfg : PCfg α κ β) (r : Int → Res (List (String × List (Int × Int))))
    (h : Res Unit) (env : FlushStart κ β γ) :
    NeverStuck (watchProducer cfg : Watched (ProducerBusy α κ β γ) _ _) (OwnProduce r h env) := by
  intro s i hb
  have hheal : ∀ (s : ProducerBusy α κ β γ) (stop : Bool), s.calls.get? i = some (.healing stop) →
      ∃ es : List (ProduceEv α κ β γ),
        (∀ e ∈ es, OwnProduce r h env i e ∧ (watchProducer cfg).calls e = .none) ∧
        1 ≤ (watchProducer cfg).ended i ((watchProducer cfg).watch s es).1 := by
    intro s stop hg
    refine stuck_cons (.healed i h) ⟨.inr (.inr (.inr rfl)), rfl⟩ (.inl ?_)
    cases h <;> simp [watchProducer, ProducerBusy.step, hg, ProducerBusy.over, ProducerBusy.fails,
      whoseProduce]
  have hloop : ∀ (n : Nat) (left : List (PReq γ)) (s : ProducerBusy α κ β γ) (stop : Bool),
      left.length ≤ n → s.calls.get? i = some (.sending left stop) →
      ∃ es : List (ProduceEv α κ β γ),
        (∀ e ∈ es, OwnProduce r h env i e ∧ (watchProducer cfg).calls e = .none) ∧
        1 ≤ (watchProducer cfg).ended i ((watchProducer cfg).watch s es).1 := by
    intro n
    induction n with
    | zero =>
      intro left s stop hn hg
      have : left = [] := by cases left with | nil => rfl | cons a l => simp at hn
      subst this
      refine stuck_cons (.goOn i) ⟨.inr (.inr (.inl rfl)), rfl⟩ ?_
      show (watchProducer cfg).ends (.goOn i) (s.step cfg (.goOn i)).1 = some i ∨
        ∃ es : List (ProduceEv α κ β γ), _ ∧ 1 ≤ (watchProducer cfg).ended i
          ((watchProducer cfg).watch (s.step cfg (.goOn i)).2 es).1
      by_cases hf : s.producer.heal = true
      · right
        apply hheal _ stop
        simp [ProducerBusy.step, hg, hf, Dict.get?_set]
      · left
        simp [watchProducer, ProducerBusy.step, hg, hf, ProducerBusy.over, whoseProduce]
    | succ n ih =>
      intro left s stop hn hg
      cases left with
      | nil => exact ih [] s stop (Nat.zero_le _) hg
      | cons q left =>
        refine stuck_cons (.outcome i q.broker (r q.broker)) ⟨.inr (.inl ⟨_, rfl⟩), rfl⟩ ?_
        show (watchProducer cfg).ends (.outcome i q.broker (r q.broker))
            (s.step cfg (.outcome i q.broker (r q.broker))).1 = some i ∨
          ∃ es : List (ProduceEv α κ β γ), _ ∧ 1 ≤ (watchProducer cfg).ended i
            ((watchProducer cfg).watch (s.step cfg (.outcome i q.broker (r q.broker))).2 es).1
        have hlen : ((q :: left).filter fun p => decide (p.broker ≠ q.broker)).length ≤ n := by
          have := List.length_filter_le (fun p : PReq γ => decide (p.broker ≠ q.broker)) left
          simp only [List.length_cons] at hn
          simp only [ne_eq, not_true_eq_false, decide_false, Bool.false_eq_true, not_false_eq_true,
            List.filter_cons_of_neg] at this ⊢
          omega
        generalize hx : s.step cfg (.outcome i q.broker (r q.broker)) = x
        simp only [ProducerBusy.step, hg, List.find?_cons, decide_true] at hx
        split at hx
        · subst hx
          exact .inr (ih _ _ stop hlen (by simp only [Dict.get?_set, if_true]))
        · split at hx
          · subst hx; exact .inl rfl
          · subst hx
            exact .inr (ih _ _ stop hlen (by simp only [Dict.get?_set, if_true]))
  have hhas : s.calls.has i = true := hb
  cases hg : s.calls.get? i with
  | none => simp [Dict.has, hg] at hhas
  | some w =>
    cases w with
    | healing stop => exact hheal s stop hg
    | sending left stop => exact hloop _ left s stop (Nat.le_refl _) hg
    | finding t a =>
      refine stuck_cons (.found i h env) ⟨.inl rfl, rfl⟩ ?_
      show (watchProducer cfg).ends (.found i h env) (s.step cfg (.found i h env)).1 = some i ∨
        ∃ es : List (ProduceEv α κ β γ), _ ∧ 1 ≤ (watchProducer cfg).ended i
          ((watchProducer cfg).watch (s.step cfg (.found i h env)).2 es).1
      generalize hx : s.step cfg (.found i h env) = x
      simp only [ProducerBusy.step, hg] at hx
      cases h with
      | error e => dsimp only at hx; subst hx; exact .inl rfl
      | ok u =>
        dsimp only at hx
        split at hx
        · unfold ProducerBusy.queues at hx
          split at hx
          · subst hx; exact .inl rfl
          · unfold ProducerBusy.flushes at hx
            split at hx
            · subst hx; exact .inl rfl
            · subst hx; exact .inl rfl
            · split at hx
              · subst hx; exact .inl rfl
              · subst hx
                exact .inr (hloop _ _ _ false (Nat.le_refl _)
                  (by simp only [Dict.get?_set, if_true]; rfl))
          · subst hx; exact .inl rfl
        · subst hx; exact .inl rfl

/-! ### What is false, and concrete cases -/

/-- Partition by key; a flush's requests are sent. -/
def exBegin : FlushStart Nat Nat (List (Msg Nat Nat)) where
  pick _ k parts := match parts[k]? with
    | some p => .ok p
    | .none => .error .indexError
  comp ms := .ok ms
  write _ := .none

/-- Every message is sent at once. -/
def exAtOnce : PCfg Nat Nat Nat := ⟨fun n => .ok (n % 2), fun n => .ok n, 0⟩

/-- **C107** is false: the first message is in the request of the call that produced it when `flush` is
called, which returns at once, although that request is unanswered. -/
theorem C107_false : ∃ (es : List (ProduceEv Nat Nat Nat (List (Msg Nat Nat)))) (q : PReq _),
    (seenIn exAtOnce (idleProducer exPCluster 1) es) = [.sent [q], .returned] ∧
    inCourse exAtOnce (acceptedIn exAtOnce) (idleProducer exPCluster 1) es = [("t", ⟨0, 4⟩)] ∧
    inCourse exAtOnce (settledIn exAtOnce) (idleProducer exPCluster 1) es = [] ∧
    (afterCalls exAtOnce (idleProducer exPCluster 1) es).producer.unsent = [] ∧
    Waits (afterCalls exAtOnce (idleProducer exPCluster 1) es) 0 q :=
  ⟨[.produce 0 "t" 4 exBegin, .flush 1 exBegin], ⟨7, 2, [("t", [(0, [⟨0, 4⟩])])]⟩, by decide +kernel,
    by decide +kernel, by decide +kernel, by decide +kernel, [⟨7, 2, [("t", [(0, [⟨0, 4⟩])])]⟩], false,
    by decide +kernel, by decide +kernel⟩

/-- **C108** is false: a `close` that is called while a `produce` sends returns at once, and has every
connection closed, although the request is outstanding. -/
theorem C108_false_under_way : ∃ (es : List (ProduceEv Nat Nat Nat (List (Msg Nat Nat)))) (q : PReq _),
    (seenIn exAtOnce (idleProducer exPCluster 1) es) = [.sent [q], .returned] ∧
    (∃ env, es[1]? = some (.close 1 env)) ∧
    (∀ x ∈ (afterCalls exAtOnce (idleProducer exPCluster 1) es).producer.cluster.conns,
      x.2.closing = true) ∧
    Waits (afterCalls exAtOnce (idleProducer exPCluster 1) es) 0 q :=
  ⟨[.produce 0 "t" 4 exBegin, .close 1 exBegin], ⟨7, 2, [("t", [(0, [⟨0, 4⟩])])]⟩, by decide +kernel,
    ⟨exBegin, rfl⟩, by decide +kernel, [⟨7, 2, [("t", [(0, [⟨0, 4⟩])])]⟩], false, by decide +kernel,
    by decide +kernel⟩

/-- The same cluster before anything is known of the topic. -/
def exUnknown : Cluster := { exPCluster with topics := [], leaders := [] }

/-- **C108** is false: a `produce` that waits for metadata while the producer is closed goes on after it,
has its message queued and sent by the closed producer, and when the request fails the closed producer
heals. -/
theorem C108_false_queues : ∃ (es : List (ProduceEv Nat Nat Nat (List (Msg Nat Nat)))) (q : PReq _),
    (seenIn exAtOnce (idleProducer exUnknown 1) es) =
      [.heals, .returned, .nothing, .sent [q], .nothing, .heals] ∧
    (∃ env, es[1]? = some (.close 1 env)) ∧
    inCourse exAtOnce (acceptedIn exAtOnce) (afterCalls exAtOnce (idleProducer exUnknown 1) (es.take 2))
      (es.drop 2) = [("t", ⟨0, 4⟩)] :=
  ⟨[.produce 0 "t" 4 exBegin, .close 1 exBegin, .cluster exPCluster, .found 0 (.ok ()) exBegin,
      .outcome 0 7 (.error .brokerConnection), .goOn 0], ⟨7, 2, [("t", [(0, [⟨0, 4⟩])])]⟩, by decide +kernel,
    ⟨exBegin, rfl⟩, by decide +kernel⟩

/-- Two producing calls overlap: the second queues while the first's request is outstanding. -/
def exOverlap : List (ProduceEv Nat Nat Nat (List (Msg Nat Nat))) :=
  [.produce 0 "t" 4 exBegin, .produce 1 "t" 5 exBegin]

/-- The request of the second is answered with an error to be retried; then that of the first. -/
def exOverlapRest : List (ProduceEv Nat Nat Nat (List (Msg Nat Nat))) :=
  [.outcome 1 7 (.ok [("t", [(1, 6)])]), .outcome 0 7 (.ok [("t", [(0, 0)])]), .goOn 1]

-- Non-vacuity of C107: the second of two overlapping calls sends, its request is answered and so is the
-- other's, and it heals and returns, its message being queued again.
example : seenIn exAtOnce (idleProducer exPCluster 1) (exOverlap ++ exOverlapRest ++
      [.healed 1 (.ok ()), .flush 2 exBegin]) =
    [.sent [⟨7, 2, [("t", [(0, [⟨0, 4⟩])])]⟩], .sent [⟨7, 3, [("t", [(1, [⟨1, 5⟩])])]⟩], .nothing,
      .nothing, .heals, .returned, .sent [⟨7, 4, [("t", [(1, [⟨1, 5⟩])])]⟩]] := by decide +kernel

example : ∀ q ∈ [(⟨7, 3, [("t", [(1, [⟨1, 5⟩])])]⟩ : PReq (List (Msg Nat Nat)))],
    SeenThrough exAtOnce (afterCalls exAtOnce (idleProducer exPCluster 1) exOverlap) 1
      exOverlapRest q :=
  (C107_seen_through_partial exAtOnce exPCluster 1 [.produce 0 "t" 4 exBegin]
    (afterCalls exAtOnce (idleProducer exPCluster 1) [.produce 0 "t" 4 exBegin])
    (afterCalls exAtOnce (idleProducer exPCluster 1) exOverlap) rfl (.produce 1 "t" 5 exBegin) 1
    [⟨7, 3, [("t", [(1, [⟨1, 5⟩])])]⟩] rfl
    (by
      refine Prod.ext ?_ rfl
      show (ProducerBusy.step exAtOnce _ _).1 = _
      decide +kernel)
    exOverlapRest
    (by
      show ∀ x ∈ [_, _, _], _
      simp only [List.mem_cons, List.not_mem_nil, or_false, forall_eq_or_imp, forall_eq]
      refine ⟨?_, ?_, ?_⟩ <;> decide +kernel)
    (.healed 1 (.ok ())) rfl (by decide +kernel)).2

-- Non-vacuity of C107_nothing.
example : ((idleProducer exPCluster 1 : ProducerBusy Nat Nat Nat (List (Msg Nat Nat))).step exAtOnce
    (.flush 1 exBegin)).1 = .returned := by decide +kernel

/-- Two messages queued. -/
def exQueued : ProducerBusy Nat Nat Nat (List (Msg Nat Nat)) :=
  afterCalls exPCfg (idleProducer exPCluster 1)
    [.produce 0 "t" 1 exBegin, .produce 0 "t" 2 exBegin]

-- Non-vacuity of C108: while the queue is sent by `close`, something else is produced; it is refused.
example : exQueued.calls = [] ∧ seenIn exPCfg exQueued [.close 0 exBegin, .produce 1 "t" 8 exBegin,
      .outcome 0 7 (.ok [("t", [(0, 0), (1, 0)])]), .goOn 0, .produce 0 "t" 9 exBegin] =
    [.sent [⟨7, 2, [("t", [(1, [⟨1, 1⟩]), (0, [⟨0, 2⟩])])]⟩], .returned, .nothing, .returned,
      .returned] := by decide +kernel

example := C108_at_rest_partial exPCfg exQueued (by decide +kernel) 0 exBegin
  [.produce 1 "t" 8 exBegin, .outcome 0 7 (.ok [("t", [(0, 0), (1, 0)])]), .goOn 0]
  [.close 0 exBegin, .produce 1 "t" 8 exBegin, .outcome 0 7 (.ok [("t", [(0, 0), (1, 0)])])] (.goOn 0)
  (by
    intro e he i env
    simp only [List.mem_cons, List.not_mem_nil, or_false] at he
    rcases he with rfl | rfl | rfl <;> exact ⟨fun h => (by cases h), fun h => (by cases h)⟩)
  rfl
  (by
    show ∀ x ∈ [_, _, _], _
    simp only [List.mem_cons, List.not_mem_nil, or_false, forall_eq_or_imp, forall_eq]
    refine ⟨?_, ?_, ?_⟩ <;> decide +kernel)
  rfl (by decide +kernel)

-- Non-vacuity of C108_accepts_nothing: a closed producer with a request outstanding.
example : (afterCalls exAtOnce (idleProducer exPCluster 1)
      [.produce 0 "t" 4 exBegin, .close 1 exBegin]).producer.closing = true ∧
    NoneFinding (afterCalls exAtOnce (idleProducer exPCluster 1)
      [.produce 0 "t" 4 exBegin, .close 1 exBegin]) := by
  refine ⟨by decide +kernel, fun i t a => ?_⟩
  show Dict.get? [(0, Producing.sending [_] false)] i ≠ some (.finding t a)
  simp only [Dict.get?]
  split <;> exact fun h => (by cases h)

-- Non-vacuity of C105: two calls, both ending.
example : seenIn exAtOnce (idleProducer exUnknown 1) [.produce 0 "t" 4 exBegin, .close 1 exBegin,
      .cluster exPCluster, .found 0 (.ok ()) exBegin, .outcome 0 7 (.error .streamClosed), .goOn 0] =
    [.heals, .returned, .nothing, .sent [⟨7, 2, [("t", [(0, [⟨0, 4⟩])])]⟩], .nothing, .returned] := by
  decide +kernel

end Kiel
