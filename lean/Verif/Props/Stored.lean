import Verif.Spec.Stored
import Verif.Props.Produces
import Mathlib.Data.List.Flatten
/-
C109: no message is stored twice.
-/
set_option autoImplicit false
namespace Kiel
open Spec

variable {α κ β γ : Type}

/-! ### Dictionaries -/

theorem dict_nodup {ι ν : Type} {d : Dict ι ν} (h : d.keys.Nodup) : d.Nodup :=
  List.Nodup.of_map _ h

theorem sub_of_get? {ι ν γ : Type} [DecidableEq ι] (f : ι × ν → List γ) {d d' : Dict ι ν}
    (hd : d.keys.Nodup) (h : ∀ k v, d.get? k = some v → d'.get? k = some v) :
    ∃ rest, (d'.flatMap f).Perm (d.flatMap f ++ rest) := by
  have hs : List.Subperm d d' := by
    refine List.subperm_of_subset (dict_nodup hd) fun e he => ?_
    exact Dict.mem_of_get? (h e.1 e.2 (Dict.get?_of_mem hd he))
  obtain ⟨l, h1, h2⟩ := hs
  obtain ⟨r, h3⟩ := h2.exists_perm_append
  refine ⟨r.flatMap f, (h3.flatMap_right f).trans ?_⟩
  rw [List.flatMap_append]
  exact (h1.flatMap_right f).append_right _

theorem perm_of_get? {ι ν γ : Type} [DecidableEq ι] (f : ι × ν → List γ) {d d' : Dict ι ν}
    (hd : d.keys.Nodup) (hd' : d'.keys.Nodup) (h : ∀ k, d.get? k = d'.get? k) :
    (d.flatMap f).Perm (d'.flatMap f) := by
  refine List.Perm.flatMap_right f ((List.perm_ext_iff_of_nodup (dict_nodup hd) (dict_nodup hd')).2 ?_)
  intro e
  constructor
  · intro he
    exact Dict.mem_of_get? ((h e.1).symm.trans (Dict.get?_of_mem hd he))
  · intro he
    exact Dict.mem_of_get? ((h e.1).trans (Dict.get?_of_mem hd' he))

/-! ### Answers -/

theorem unrefused_set (topics : List (String × List (Int × Int))) (ts : ByPartition κ β) (t : String)
    (ps : Dict Int (List (Msg κ β)))
    (h : (ps.filter fun p => decide (¬ RefusedIn topics t p.1)) =
      ((ts.get? t).getD []).filter fun p => decide (¬ RefusedIn topics t p.1)) :
    inRequest (unrefused topics (ts.set t ps)) = inRequest (unrefused topics ts) := by
  induction ts with
  | nil =>
    have h' : (ps.filter fun p => decide (¬ RefusedIn topics t p.1)) = [] := h
    simp only [Dict.set, unrefused, List.map_cons, List.map_nil, inRequest, List.flatMap_cons,
      List.flatMap_nil, h', List.append_nil]
  | cons e r ih =>
    obtain ⟨a, b⟩ := e
    simp only [Dict.get?] at h
    simp only [Dict.set]
    split
    · rename_i ha
      subst ha
      simp only [if_true, Option.getD_some] at h
      simp only [unrefused, List.map_cons, h]
    · rename_i ha
      simp only [ha, if_false] at h
      have := ih h
      simp only [unrefused, inRequest, List.map_cons, List.flatMap_cons] at this ⊢
      rw [this]

theorem filter_erase {ν : Type} (P : Int → Prop) [DecidablePred P] (d : Dict Int ν) (k : Int)
    (h : P k) : ((d.erase k).filter fun p => decide (¬ P p.1)) = d.filter fun p => decide (¬ P p.1) := by
  simp only [Dict.erase, List.filter_filter]
  refine List.filter_congr fun q _ => ?_
  by_cases hq : q.1 = k
  · simp [hq, h]
  · simp [hq]

/-- Handling a partition of an answer takes only refused messages out of what is kept. -/
theorem handlePart_unrefused (topics : List (String × List (Int × Int))) (p : Producer κ β)
    (corr : Int) (t : String) (part code : Int) (hr : code ∈ Err.retriable → RefusedIn topics t part) :
    inRequest (unrefused topics (((p.handlePart corr t part code).2.sent.get? corr).getD [])) =
      inRequest (unrefused topics ((p.sent.get? corr).getD [])) := by
  unfold Producer.handlePart
  split
  · rfl
  · split
    · rename_i hc
      dsimp only
      split
      · simp only [Dict.get?_set, if_true, Option.getD_some]
        exact unrefused_set topics _ t _ rfl
      · simp only [Producer.queueRetries, Dict.get?_set, if_true, Option.getD_some]
        exact unrefused_set topics _ t _ (filter_erase (RefusedIn topics t) _ part (hr hc))
    · split <;> rfl

theorem handleParts_unrefused (topics : List (String × List (Int × Int))) (corr : Int)
    (l : List (String × Int × Int)) (p : Producer κ β)
    (hr : ∀ a ∈ l, a.2.2 ∈ Err.retriable → RefusedIn topics a.1 a.2.1) :
    inRequest (unrefused topics (((Producer.handleParts corr l p).2.sent.get? corr).getD [])) =
      inRequest (unrefused topics ((p.sent.get? corr).getD [])) := by
  induction l generalizing p with
  | nil => rfl
  | cons a l ih =>
    obtain ⟨t, part, code⟩ := a
    simp only [List.mem_cons, forall_eq_or_imp] at hr
    have h1 := handlePart_unrefused topics p corr t part code hr.1
    simp only [Producer.handleParts]
    split
    · rename_i hx; rw [hx] at h1; exact h1
    · rename_i p1 hx; rw [hx] at h1; exact (ih p1 hr.2).trans h1

theorem mem_answers {r : PResp} {t : String} {part code : Int} :
    (t, part, code) ∈ r.answers ↔ ∃ a ∈ r.topics, a.1 = t ∧ ∃ c ∈ a.2, c.1 = part ∧ c.2 = code := by
  simp only [PResp.answers, List.mem_flatMap, List.mem_map, Prod.mk.injEq]
  constructor
  · rintro ⟨a, ha, c, hc, rfl, rfl, rfl⟩; exact ⟨a, ha, rfl, c, hc, rfl, rfl⟩
  · rintro ⟨a, ha, rfl, c, hc, rfl, rfl⟩; exact ⟨a, ha, c, hc, rfl, rfl, rfl⟩

/-- Without the two codes that are given after storing, refused is what is tried again. -/
theorem refused_iff {topics : List (String × List (Int × Int))} {corr : Int}
    (h : ∀ a ∈ topics, ∀ c ∈ a.2, c.2 ≠ 7 ∧ c.2 ≠ 20) (t : String) (part : Int) :
    RefusedIn topics t part ↔ RetriedIn (⟨corr, topics⟩ : PResp).answers t part := by
  constructor
  · rintro ⟨a, ha, ht, c, hc, hp, hr⟩
    refine ⟨c.2, ?_, mem_answers.2 ⟨a, ha, ht, c, hc, hp, rfl⟩⟩
    have : ∀ x ∈ [(2 : Int), 3, 5, 6, 14, 15, 16, 19], x ∈ Err.retriable := by decide
    exact this _ hr
  · rintro ⟨code, hc, hm⟩
    obtain ⟨a, ha, ht, c, hcm, hp, rfl⟩ := mem_answers.1 hm
    refine ⟨a, ha, ht, c, hcm, hp, ?_⟩
    have : ∀ x ∈ Err.retriable, x ≠ 7 ∧ x ≠ 20 → Refuses x := by decide
    exact this _ hc (h a ha c hcm)

theorem unrefused_eq {topics : List (String × List (Int × Int))} {corr : Int}
    (h : ∀ a ∈ topics, ∀ c ∈ a.2, c.2 ≠ 7 ∧ c.2 ≠ 20) (ts : ByPartition κ β) :
    unrefused topics ts = dropRetried (⟨corr, topics⟩ : PResp).answers ts := by
  simp only [unrefused, dropRetried, refused_iff (corr := corr) h]

theorem unrefused_sub (topics : List (String × List (Int × Int))) (ts : ByPartition κ β) :
    ∃ rest, (inRequest ts).Perm (inRequest (unrefused topics ts) ++ rest) := by
  have hs : (inRequest (unrefused topics ts)).Sublist (inRequest ts) := by
    induction ts with
    | nil => exact List.Sublist.refl _
    | cons e r ih =>
      simp only [unrefused, inRequest, List.map_cons, List.flatMap_cons] at ih ⊢
      refine List.Sublist.append ?_ ih
      exact List.Sublist.flatMap List.filter_sublist _
  obtain ⟨l, h⟩ := hs.exists_perm_append
  exact ⟨l, h⟩

/-- What an answer leaves of what is kept: with what is settled, it has all that was not refused. -/
theorem answer_keeps {p p' : Producer κ β} {corr : Int} {topics : List (String × List (Int × Int))}
    {res : Res Unit} {ts : ByPartition κ β} (hw : WF p) (hw' : WF p')
    (h7 : ∀ a ∈ topics, ∀ c ∈ a.2, c.2 ≠ 7 ∧ c.2 ≠ 20) (hts : p.sent.get? corr = some ts)
    (h : p.handleResponse ⟨corr, topics⟩ = (res, p')) :
    ∃ rest, (inSent p'.sent ++ (if res = .ok () then settled ts ⟨corr, topics⟩ else [])).Perm
      (inRequest (unrefused topics ts) ++ inSent (p.sent.erase corr) ++ rest) := by
  obtain ⟨o1, o2, o3⟩ := handleResponse_others p ⟨corr, topics⟩
  rw [h] at o3
  have he : (inSent (p'.sent.erase corr)).Perm (inSent (p.sent.erase corr)) := by
    refine perm_of_get? _ (hw'.nodup.sublist ?_) (hw.nodup.sublist ?_) fun k => ?_
    · exact List.Sublist.map _ List.filter_sublist
    · exact List.Sublist.map _ List.filter_sublist
    · simp only [Dict.get?_erase]
      split
      · rfl
      · rename_i hk; exact o3 k (fun h => hk h.symm)
  unfold Producer.handleResponse at h
  rw [handleTopics_eq] at h
  have hu := handleParts_unrefused topics corr (⟨corr, topics⟩ : PResp).answers p (by
    rintro ⟨t, part, code⟩ ha hc
    exact (refused_iff (corr := corr) h7 t part).2 ⟨code, hc, ha⟩)
  rw [hts] at hu
  simp only [Option.getD_some] at hu
  have raises : res ≠ .ok () → inRequest (unrefused topics ((p'.sent.get? corr).getD [])) =
      inRequest (unrefused topics ts) →
      ∃ rest, (inSent p'.sent ++ (if res = .ok () then settled ts ⟨corr, topics⟩ else [])).Perm
        (inRequest (unrefused topics ts) ++ inSent (p.sent.erase corr) ++ rest) := by
    intro hne hq
    rw [if_neg hne, List.append_nil]
    by_cases hhas : p'.sent.has corr = true
    · obtain ⟨rest, hr⟩ := unrefused_sub topics ((p'.sent.get? corr).getD [])
      refine ⟨rest, (inSent_split hw'.nodup hhas).trans ?_⟩
      refine (hr.append he).trans ?_
      rw [hq, List.append_assoc, List.append_assoc]
      exact List.Perm.append_left _ List.perm_append_comm
    · have hnone : p'.sent.get? corr = .none := by
        simpa [Dict.has, Option.isSome_iff_ne_none] using hhas
      rw [hnone] at hq
      refine ⟨[], ?_⟩
      rw [← hq]
      simp only [Option.getD_none, unrefused, List.map_nil, inRequest, List.flatMap_nil,
        List.nil_append, List.append_nil]
      refine List.Perm.trans ?_ he
      refine perm_of_get? _ hw'.nodup (hw'.nodup.sublist (List.Sublist.map _ List.filter_sublist))
        fun k => ?_
      simp only [Dict.get?_erase]
      split
      · rename_i hk; rw [← hk]; exact hnone
      · rfl
  split at h
  · rename_i e p1 hx
    cases h
    rw [hx] at hu
    exact raises (fun h => by cases h) hu
  · rename_i p1 hx
    rw [hx] at hu
    split at h
    · cases h
      refine ⟨[], ?_⟩
      rw [if_pos rfl, List.append_nil, ← inRequest_drop, ← unrefused_eq h7]
      refine List.perm_append_comm.trans (List.Perm.append_left _ ?_)
      refine List.Perm.trans ?_ he
      rw [show (p1.sent.erase corr).erase corr = p1.sent.erase corr from by
        simp [Dict.erase, List.filter_filter]]
    · cases h
      exact raises (fun h => by cases h) hu

/-! ### Requests -/

/-- Requests are handed to `send` by flushes only. -/
theorem flushes_handed (s : ProducerBusy α κ β γ) (i : Nat) (env : FlushStart κ β γ) (stop : Bool)
    (h : handed (s.flushes i env stop).1 ≠ []) :
    s.producer.prepare env.pick env.comp =
      (.ok (some (handed (s.flushes i env stop).1)), (s.flushes i env stop).2.producer) := by
  generalize hx : s.flushes i env stop = x at h ⊢
  unfold ProducerBusy.flushes at hx
  split at hx
  · subst hx; exact absurd rfl h
  · subst hx; exact absurd rfl h
  · rename_i reqs p hp
    split at hx
    · subst hx; exact hp
    · subst hx; exact hp

theorem queues_handed (cfg : PCfg α κ β) (s : ProducerBusy α κ β γ) (i : Nat) (t : String) (a : α)
    (env : FlushStart κ β γ) (h : handed (s.queues cfg i t a env).1 ≠ []) :
    ∃ p0 : Producer κ β, p0.sent = s.producer.sent ∧ p0.lastId = s.producer.lastId ∧
      p0.prepare env.pick env.comp =
        (.ok (some (handed (s.queues cfg i t a env).1)), (s.queues cfg i t a env).2.producer) := by
  obtain ⟨h1, h2, h3, _⟩ := enqueue_others cfg s.producer t a
  generalize hx : s.queues cfg i t a env = x at h ⊢
  unfold ProducerBusy.queues at hx
  split at hx
  · subst hx; exact absurd rfl h
  · rename_i p hp
    rw [hp] at h1 h3
    subst hx
    exact ⟨p, h3, h1, flushes_handed { s with producer := p } i env false h⟩
  · subst hx; exact absurd rfl h

theorem step_handed (cfg : PCfg α κ β) (s : ProducerBusy α κ β γ) (e : ProduceEv α κ β γ)
    (h : handed (s.step cfg e).1 ≠ []) :
    ∃ (p0 : Producer κ β) (env : FlushStart κ β γ), beginsWith e = some env ∧
      p0.sent = s.producer.sent ∧ p0.lastId = s.producer.lastId ∧
      p0.prepare env.pick env.comp =
        (.ok (some (handed (s.step cfg e).1)), (s.step cfg e).2.producer) := by
  cases e with
  | produce k t a env =>
    generalize hx : s.step cfg (.produce k t a env) = x at h ⊢
    simp only [ProducerBusy.step] at hx
    split at hx
    · subst hx; exact absurd rfl h
    · split at hx
      · subst hx; exact absurd rfl h
      · split at hx
        · subst hx
          obtain ⟨p0, h1, h2, h3⟩ := queues_handed cfg s k t a env h
          exact ⟨p0, env, rfl, h1, h2, h3⟩
        · subst hx; exact absurd rfl h
  | flush k env =>
    generalize hx : s.step cfg (.flush k env) = x at h ⊢
    simp only [ProducerBusy.step] at hx
    split at hx
    · subst hx; exact absurd rfl h
    · subst hx
      exact ⟨s.producer, env, rfl, rfl, rfl, flushes_handed s k env false h⟩
  | close k env =>
    generalize hx : s.step cfg (.close k env) = x at h ⊢
    simp only [ProducerBusy.step] at hx
    split at hx
    · subst hx; exact absurd rfl h
    · subst hx
      exact ⟨{ s.producer with closing := true }, env, rfl, rfl, rfl,
        flushes_handed { s with producer := { s.producer with closing := true } } k env true h⟩
  | found k r env =>
    generalize hx : s.step cfg (.found k r env) = x at h ⊢
    simp only [ProducerBusy.step] at hx
    split at hx
    · split at hx
      · subst hx; exact absurd rfl h
      · split at hx
        · subst hx
          obtain ⟨p0, h1, h2, h3⟩ := queues_handed cfg s k _ _ env h
          exact ⟨p0, env, rfl, h1, h2, h3⟩
        · subst hx; exact absurd rfl h
    · subst hx; exact absurd rfl h
  | outcome k b r =>
    exfalso
    generalize hx : s.step cfg (.outcome k b r) = x at h
    simp only [ProducerBusy.step] at hx
    split at hx
    · split at hx
      · subst hx; exact h rfl
      · split at hx
        · subst hx; exact h rfl
        · split at hx <;> subst hx <;> exact h rfl
    · subst hx; exact h rfl
  | goOn k =>
    exfalso
    generalize hx : s.step cfg (.goOn k) = x at h
    simp only [ProducerBusy.step] at hx
    split at hx
    · split at hx <;> subst hx <;> exact h rfl
    · subst hx; exact h rfl
  | healed k r =>
    exfalso
    generalize hx : s.step cfg (.healed k r) = x at h
    simp only [ProducerBusy.step] at hx
    split at hx
    · split at hx <;> subst hx <;> exact h rfl
    · subst hx; exact h rfl
  | cluster cl => exact absurd rfl h
  | others n => exact absurd rfl h

/-- What brokers read in a request is what was routed to them. -/
theorem contents_of {dec : γ → List (Msg κ β)} {comp : List (Msg κ β) → Res γ}
    (hd : ∀ ms x, comp ms = .ok x → dec x = ms) {e : Int × ByPartition κ β} {q : PReq γ}
    (h : RequestBuilt comp e q) : contents dec q = e.2 := by
  have parts : ∀ (ps : Dict Int (List (Msg κ β))) (l : List (Int × γ)),
      List.Forall₂ (fun e r => e.1 = r.1 ∧ comp e.2 = .ok r.2) ps l →
      (l.map fun p => (p.1, dec p.2)) = ps := by
    intro ps l h
    induction h with
    | nil => rfl
    | cons h _ ih => rw [List.map_cons, ih, ← h.1, hd _ _ h.2]
  obtain ⟨_, h⟩ := h
  unfold contents
  generalize q.topics = l at h
  generalize e.2 = ts at h
  induction h with
  | nil => rfl
  | cons h _ ih => rw [List.map_cons, ih, ← h.1, parts _ _ h.2]

theorem contents_numbered {dec : γ → List (Msg κ β)} {comp : List (Msg κ β) → Res γ}
    (hd : ∀ ms x, comp ms = .ok x → dec x = ms) {o : Dict Int (ByPartition κ β)}
    {reqs : List (PReq γ)} (n : Int) (h : List.Forall₂ (RequestBuilt comp) o reqs)
    (hk : reqs.map (·.corr) = (numbered n o).keys) :
    (reqs.map fun q => (q.corr, contents dec q)) = numbered n o := by
  induction h generalizing n with
  | nil => rfl
  | cons h _ ih =>
    simp only [numbered, Dict.keys, List.map_cons, List.cons.injEq] at hk
    simp only [numbered, List.map_cons, contents_of hd h, hk.1]
    rw [ih (n + 1) hk.2]

/-- Requests outstanding after a step that is not an answer were so before, or are new. -/
theorem waits_back (cfg : PCfg α κ β) (s : ProducerBusy α κ β γ) (e : ProduceEv α κ β γ)
    (hn : ∀ j b topics, e ≠ .outcome j b (.ok topics)) (j : Nat) (q : PReq γ)
    (h : Waits (s.step cfg e).2 j q) :
    Waits s j q ∨ q ∈ handed (s.step cfg e).1 := by
  cases hi : whoseProduce e with
  | none =>
    cases e with
    | cluster cl => exact .inl h
    | others n => exact .inl h
    | _ => cases hi
  | some i =>
    have hst := callStep cfg s e i hi hn
    generalize (s.step cfg e).1 = out at hst ⊢
    generalize (s.step cfg e).2 = s' at hst h
    obtain ⟨p', c'⟩ := s'
    cases hst with
    | none ho hs => rw [hs] at h; exact .inl h
    | waits w hw ho hs hb =>
      rw [hs] at h
      rcases waits_set h with h | ⟨_, l, st, h, _⟩
      · exact .inl h.2
      · exact absurd h (hw l st)
    | ends ho hs hc hb =>
      simp only at hc
      subst hc
      exact .inl (waits_erase h)
    | sends reqs stop pick comp p0 h0 hw hk hacc hp ho hc hb =>
      simp only at hc
      subst hc
      subst ho
      rcases waits_set h with h | ⟨_, l, st, h, hm⟩
      · exact .inl h.2
      · cases h; exact .inr hm
    | fails b x he left q' stop ho hb hq hqb hs hsent hc =>
      simp only at hc
      subst hc
      rcases waits_set h with h | ⟨hj, l, st, h, hm⟩
      · exact .inl h.2
      · cases h
        subst hj
        exact .inl ⟨left, stop, hb, (List.mem_filter.1 hm).1⟩

theorem spares_step (cfg : PCfg α κ β) (s : ProducerBusy α κ β γ) (e : ProduceEv α κ β γ)
    (hn : ∀ j b topics, e ≠ .outcome j b (.ok topics)) :
    Spares s.producer (s.step cfg e).2.producer := by
  have h1 := fun k hk => keptSent_step cfg s e k hk
  refine ⟨(h1 s.producer.lastId (Int.le_refl _)).1, fun k hk => ?_⟩
  rcases (h1 k hk).2 with h | ⟨i, b, topics, q, he, _⟩
  · exact h
  · exact absurd he (hn i b topics)

/-! ### C109 -/

/-- The messages that may be stored, and the producer: those of outstanding requests are those it keeps
for them, and all are kept for a request or settled. -/
structure StoredInv (acc : Dict Int (ByPartition κ β)) (s : ProducerBusy α κ β γ)
    (fin : List (String × Msg κ β)) : Prop where
  nodup : acc.keys.Nodup
  old : ∀ k ∈ acc.keys, k ≤ s.producer.lastId
  waits : ∀ i q, Waits s i q → ∃ ts, acc.get? q.corr = some ts ∧ s.producer.sent.get? q.corr = some ts
  sub : ∃ rest, (inSent s.producer.sent ++ fin).Perm (inSent acc ++ rest)

theorem answeredIn_none {s : ProducerBusy α κ β γ} {e : ProduceEv α κ β γ}
    (hn : ∀ j b topics, e ≠ .outcome j b (.ok topics)) : answeredIn s e = .none := by
  cases e with
  | outcome i b r =>
    cases r with
    | ok t => exact absurd rfl (hn i b t)
    | error x => rfl
  | _ => rfl

theorem settledIn_none {cfg : PCfg α κ β} {s : ProducerBusy α κ β γ} {e : ProduceEv α κ β γ}
    (hn : ∀ j b topics, e ≠ .outcome j b (.ok topics)) : settledIn cfg s e = [] := by
  cases e with
  | outcome i b r =>
    cases r with
    | ok t => exact absurd rfl (hn i b t)
    | error x => rfl
  | _ => rfl

theorem mapped_keys (acc : Dict Int (ByPartition κ β)) (corr : Int)
    (f : ByPartition κ β → ByPartition κ β) :
    Dict.keys (acc.map fun x => if x.1 = corr then (x.1, f x.2) else x) = acc.keys := by
  simp only [Dict.keys, List.map_map]
  refine List.map_congr_left fun x _ => ?_
  simp only [Function.comp]
  split <;> rfl

theorem mapped_get? (acc : Dict Int (ByPartition κ β)) (corr : Int)
    (f : ByPartition κ β → ByPartition κ β) (k : Int) :
    Dict.get? (acc.map fun x => if x.1 = corr then (x.1, f x.2) else x) k =
      if k = corr then (acc.get? k).map f else acc.get? k := by
  induction acc with
  | nil => simp [Dict.get?]
  | cons x r ih =>
    simp only [List.map_cons, Dict.get?]
    by_cases hx : x.1 = corr
    · simp only [hx, if_true]
      by_cases hk : corr = k
      · subst hk; simp
      · simp only [hk, if_false, ih]
    · simp only [hx, if_false]
      by_cases hk : x.1 = k
      · subst hk; simp [hx]
      · simp only [hk, if_false, ih]

theorem maybe_step (cfg : PCfg α κ β) (dec : γ → List (Msg κ β)) (s : ProducerBusy α κ β γ)
    (e : ProduceEv α κ β γ) (acc : Dict Int (ByPartition κ β)) (fin : List (String × Msg κ β))
    (hw : CallsWF s) (hd : Decodes dec e) (h7 : NoneAfterAppend e) (h : StoredInv acc s fin) :
    StoredInv (storing cfg dec s e acc) (s.step cfg e).2 (settledIn cfg s e ++ fin) := by
  have hw' := callsWF_step cfg s e hw
  obtain ⟨rest, hsub⟩ := h.sub
  by_cases ha : ∃ j b topics, e = .outcome j b (.ok topics)
  · obtain ⟨i, b, topics, rfl⟩ := ha
    have h7' := h7 i b topics rfl
    have hh : handed (s.step cfg (.outcome i b (.ok topics))).1 = [] := by
      rcases answerStep cfg s i b topics with hs | ⟨left, stop, q, h0, hm, hb, hfind, hs⟩
      · rw [hs]; rfl
      · rcases hs with ⟨p, hp, hs⟩ | ⟨x, p, hp, hs⟩ <;> rw [hs] <;> rfl
    cases hans : answeredIn s (.outcome i b (.ok topics)) with
    | none =>
      have hstep : s.step cfg (.outcome i b (.ok topics)) = (.nothing, s) := by
        rcases answerStep cfg s i b topics with hs | ⟨left, stop, q, h0, hm, hb, hfind, hs⟩
        · exact hs
        · simp [answeredIn, h0, hfind] at hans
      have hset : settledIn cfg s (.outcome i b (.ok topics)) = [] := by
        simp only [answeredIn] at hans
        simp only [settledIn]
        split at hans
        · rename_i left stop h0
          simp only [Option.map_eq_none_iff] at hans
          simp only [h0, hans]
        · rename_i hne
          split
          · rename_i left stop h0; exact absurd h0 (hne left stop)
          · rfl
      rw [hset, hstep, storing, hans, hstep]
      simpa [handed] using h
    | some x =>
      have hstep : ∃ left stop q, s.calls.get? i = some (.sending left stop) ∧ q ∈ left ∧
          q.broker = b ∧ left.find? (fun q => decide (q.broker = b)) = some q ∧
          x = (q.corr, topics) := by
        simp only [answeredIn] at hans
        split at hans
        · rename_i left stop h0
          simp only [Option.map_eq_some_iff] at hans
          obtain ⟨q, hq, rfl⟩ := hans
          have h1 := List.find?_some hq
          simp only [decide_eq_true_eq] at h1
          exact ⟨left, stop, q, h0, List.mem_of_find?_eq_some hq, h1, hq, rfl⟩
        · cases hans
      obtain ⟨left, stop, q, h0, hm, hb, hfind, rfl⟩ := hstep
      obtain ⟨ts, t1, t2⟩ := h.waits i q ⟨left, stop, h0, hm⟩
      -- what is kept
      have hkey : ∃ more, (inSent (s.step cfg (.outcome i b (.ok topics))).2.producer.sent ++
          settledIn cfg s (.outcome i b (.ok topics))).Perm
          (inRequest (unrefused topics ts) ++ inSent (s.producer.sent.erase q.corr) ++ more) := by
        cases hr : s.producer.handleResponse ⟨q.corr, topics⟩ with
        | mk res p' =>
          have hp' : (s.step cfg (.outcome i b (.ok topics))).2.producer = p' := by
            simp only [ProducerBusy.step, h0, hfind, hr]
            cases res <;> rfl
          have hset : settledIn cfg s (.outcome i b (.ok topics)) =
              if res = .ok () then settled ts ⟨q.corr, topics⟩ else [] := by
            have ho : (s.step cfg (.outcome i b (.ok topics))).1 =
                match res with
                | .ok _ => .nothing
                | .error e => .raised e [] := by
              simp only [ProducerBusy.step, h0, hfind, hr]
              cases res <;> rfl
            cases res with
            | ok u =>
              cases u
              rw [if_pos rfl]
              simp only [settledIn, h0, hfind]
              split
              · rename_i hq _
                cases hq
                rw [t2]; rfl
              · rename_i hne; exact absurd ho (hne q rfl)
            | error e =>
              rw [if_neg (fun h => by cases h)]
              simp only [settledIn, h0, hfind]
              split
              · rename_i hx; rw [ho] at hx; cases hx
              · rfl
          rw [hset, hp']
          have hwf' := hw'.wf
          rw [hp'] at hwf'
          exact answer_keeps hw.wf hwf' h7' t2 hr
      obtain ⟨more, hkey⟩ := hkey
      have hsto : storing cfg dec s (.outcome i b (.ok topics)) acc =
          acc.map fun x => if x.1 = q.corr then (x.1, unrefused topics x.2) else x := by
        simp only [storing, hans, hh, List.map_nil, List.append_nil]
      rw [hsto]
      have hk1 := keptSent_step cfg s (.outcome i b (.ok topics))
      have hkeys := mapped_keys acc q.corr (unrefused topics)
      refine ⟨by rw [hkeys]; exact h.nodup, ?_, ?_, ?_⟩
      · rw [hkeys]
        exact fun k hk => (h.old k hk).trans (hk1 s.producer.lastId (Int.le_refl _)).1
      · intro j q' hq'
        have hq1 : Waits s j q' ∧ q'.corr ≠ q.corr := by
          have hne : Waits s j q' → (j = i → q'.broker ≠ b) → q'.corr ≠ q.corr := by
            intro hw1 hw2 hc
            obtain ⟨a1, a2⟩ := hw.apart j i q' q hw1 ⟨left, stop, h0, hm⟩ hc
            exact hw2 a1 (by rw [a2]; exact hb)
          rcases answerStep cfg s i b topics with hs | ⟨left', stop', q2, h0', hm', hb', hfind', hs⟩
          · -- the answer is handled, so this is not the case
            exfalso
            simp only [ProducerBusy.step, h0, hfind] at hs
            split at hs
            · cases hs
            · have hc := congrArg (fun x : ProduceOut γ × ProducerBusy α κ β γ => x.2.calls.get? i) hs
              simp only [Dict.get?_set, if_true, h0, Option.some.injEq, Producing.sending.injEq,
                and_true] at hc
              have : q ∈ left.filter fun q => decide (q.broker ≠ b) := by rw [hc]; exact hm
              simp [hb] at this
          · rw [h0] at h0'
            cases h0'
            rcases hs with ⟨p, hp, hs⟩ | ⟨x, p, hp, hs⟩
            · rw [hs] at hq'
              rcases waits_set hq' with ⟨hj, hq1⟩ | ⟨hj, l, st, hl, hq1⟩
              · exact ⟨hq1, hne hq1 (fun h => absurd h hj)⟩
              · cases hl
                subst hj
                simp only [List.mem_filter, decide_eq_true_eq] at hq1
                have hw1 : Waits s j q' := ⟨left, stop, h0, hq1.1⟩
                exact ⟨hw1, hne hw1 (fun _ => hq1.2)⟩
            · rw [hs] at hq'
              have hq1 := waits_erase hq'
              refine ⟨hq1, hne hq1 (fun hj => ?_)⟩
              subst hj
              obtain ⟨l, st, hl, _⟩ := hq'
              simp [Dict.get?_erase] at hl
        obtain ⟨ts', u1, u2⟩ := h.waits j q' hq1.1
        refine ⟨ts', by rw [mapped_get?, if_neg hq1.2]; exact u1, ?_⟩
        rcases (hk1 q'.corr (hw.old j q' hq1.1)).2 with hk | ⟨i', b', tp, q3, he, hw3, hb3, hc3⟩
        · exact hk.trans u2
        · exfalso
          cases he
          obtain ⟨l3, st3, hl3, hm3⟩ := hw3
          rw [h0] at hl3
          cases hl3
          have : q3 = q := List.inj_on_of_nodup_map (hw.brokers i left stop h0) hm3 hm (hb3.trans hb.symm)
          exact hq1.2 (by rw [← hc3, this])
      · have hmap : (inSent (acc.map fun x => if x.1 = q.corr then (x.1, unrefused topics x.2) else x)).Perm
            (inRequest (unrefused topics ts) ++ inSent (acc.erase q.corr)) := by
          have hg : Dict.get? (acc.map fun x => if x.1 = q.corr then (x.1, unrefused topics x.2) else x)
              q.corr = some (unrefused topics ts) := by rw [mapped_get?, if_pos rfl, t1]; rfl
          refine (inSent_split (by rw [hkeys]; exact h.nodup) (by unfold Dict.has; rw [hg]; rfl)).trans ?_
          rw [hg]
          refine List.Perm.append_left _ (perm_of_get? _ ?_ ?_ fun k => ?_)
          · exact List.Nodup.sublist (List.Sublist.map _ List.filter_sublist)
              (by rw [show List.map _ _ = _ from hkeys]; exact h.nodup)
          · exact List.Nodup.sublist (List.Sublist.map _ List.filter_sublist) h.nodup
          · simp only [Dict.get?_erase]
            split
            · rfl
            · rename_i hk
              rw [mapped_get?, if_neg (fun h => hk h.symm)]
        have s1 := inSent_split h.nodup (corr := q.corr) (by simp [Dict.has, t1])
        have s2 := inSent_split hw.wf.nodup (corr := q.corr) (by simp [Dict.has, t2])
        rw [t1] at s1
        rw [t2] at s2
        simp only [Option.getD_some] at s1 s2
        have hcancel : (inSent (s.producer.sent.erase q.corr) ++ fin).Perm
            (inSent (acc.erase q.corr) ++ rest) := by
          have := (s2.append_right fin).symm.trans (hsub.trans (s1.append_right rest))
          rw [List.append_assoc, List.append_assoc] at this
          exact (List.perm_append_left_iff _).1 this
        refine ⟨rest ++ more, ?_⟩
        rw [← List.append_assoc]
        refine (hkey.append_right fin).trans ?_
        refine List.Perm.trans ?_ ((hmap.append_right (rest ++ more)).symm)
        simp only [List.append_assoc]
        refine List.Perm.append_left _ ?_
        refine List.Perm.trans (List.Perm.append_left _ List.perm_append_comm) ?_
        rw [← List.append_assoc, ← List.append_assoc]
        exact hcancel.append_right more
  · have hn : ∀ j b topics, e ≠ .outcome j b (.ok topics) := fun j b t he => ha ⟨j, b, t, he⟩
    have hsp := spares_step cfg s e hn
    have hback := waits_back cfg s e hn
    have hold : ∀ i q, Waits s i q → ∃ ts, acc.get? q.corr = some ts ∧
        (s.step cfg e).2.producer.sent.get? q.corr = some ts := by
      intro i q hq
      obtain ⟨ts, t1, t2⟩ := h.waits i q hq
      exact ⟨ts, t1, (hsp.sent _ (hw.old i q hq)).trans t2⟩
    rw [settledIn_none hn, List.nil_append]
    by_cases hh : handed (s.step cfg e).1 = []
    · have hacc : storing cfg dec s e acc = acc := by
        simp only [storing, answeredIn_none hn, hh, List.map_nil, List.append_nil]
      rw [hacc]
      refine ⟨h.nodup, fun k hk => (h.old k hk).trans hsp.lastId, fun i q hq => ?_, ?_⟩
      · rcases hback i q hq with hq | hq
        · exact hold i q hq
        · rw [hh] at hq; cases hq
      · obtain ⟨more, hmore⟩ := sub_of_get? (fun e : Int × ByPartition κ β => inRequest e.2)
          (d' := (s.step cfg e).2.producer.sent) hw.wf.nodup (fun k v hk => by
            rw [hsp.sent k (hw.wf.old k (Dict.mem_keys.2 ⟨v, Dict.mem_of_get? hk⟩))]; exact hk)
        refine ⟨rest ++ more, (hmore.append_right fin).trans ?_⟩
        show ((inSent s.producer.sent ++ more) ++ fin).Perm _
        rw [← List.append_assoc]
        refine List.Perm.trans ?_ (hsub.append_right more)
        rw [List.append_assoc, List.append_assoc]
        exact List.Perm.append_left _ List.perm_append_comm
    · obtain ⟨p0, env, he, e1, e2, hp⟩ := step_handed cfg s e hh
      have hw0 : ∀ k ∈ p0.sent.keys, k ≤ p0.lastId := by rw [e1, e2]; exact hw.wf.old
      obtain ⟨pl, g1, g2, g3, g4, g5, _⟩ := prepare_ok hw0 hp
      have hnum := contents_numbered (dec := dec) (hd env he) p0.lastId g4 g5
      have hacc : storing cfg dec s e acc = acc ++
          numbered p0.lastId (routeTo p0.cluster pl ⟨[], []⟩).ordered := by
        simp only [storing, answeredIn_none hn, hnum]
      rw [hacc]
      generalize (routeTo p0.cluster pl ⟨[], []⟩).ordered = o at *
      rw [e1, e2] at g2
      rw [e2] at g3 g5 hnum ⊢
      obtain ⟨k1, k2⟩ := numbered_keys s.producer.lastId o
      have hnd : Dict.keys (acc ++ numbered s.producer.lastId o) |>.Nodup := by
        simp only [Dict.keys, List.map_append] at *
        rw [List.nodup_append]
        refine ⟨h.nodup, k1, ?_⟩
        rintro a ha b hb rfl
        have := h.old a ha
        have := k2 a hb
        omega
      refine ⟨hnd, ?_, ?_, ?_⟩
      · intro k hk
        simp only [Dict.keys, List.map_append, List.mem_append] at hk
        rcases hk with hk | hk
        · exact (h.old k hk).trans hsp.lastId
        · rw [g3]; exact (k2 k hk).2
      · intro i q hq
        rcases hback i q hq with hq | hq
        · obtain ⟨ts, u1, u2⟩ := hold i q hq
          exact ⟨ts, Dict.get?_of_mem hnd (List.mem_append_left _ (Dict.mem_of_get? u1)), u2⟩
        · have hm : (q.corr, contents dec q) ∈ numbered s.producer.lastId o := by
            rw [← hnum]; exact List.mem_map.2 ⟨q, hq, rfl⟩
          exact ⟨contents dec q, Dict.get?_of_mem hnd (List.mem_append_right _ hm),
            Dict.get?_of_mem hw'.wf.nodup (by rw [g2]; exact List.mem_append_right _ hm)⟩
      · refine ⟨rest, ?_⟩
        rw [g2, inSent_append, inSent_append]
        refine List.Perm.trans ?_ (List.Perm.trans (hsub.append_right (inSent (numbered s.producer.lastId o))) ?_)
        · simp only [List.append_assoc]
          exact List.Perm.append_left _ List.perm_append_comm
        · simp only [List.append_assoc]
          exact List.Perm.append_left _ List.perm_append_comm

theorem maybe_course (cfg : PCfg α κ β) (dec : γ → List (Msg κ β)) (s : ProducerBusy α κ β γ)
    (es : List (ProduceEv α κ β γ)) (acc : Dict Int (ByPartition κ β))
    (fin : List (String × Msg κ β)) (hw : CallsWF s) (hd : ∀ e ∈ es, Decodes dec e)
    (h7 : ∀ e ∈ es, NoneAfterAppend e) (h : StoredInv acc s fin) :
    ∃ rest, (inSent (afterCalls cfg s es).producer.sent ++ (inCourse cfg (settledIn cfg) s es ++ fin)).Perm
      (mayBeStored cfg dec acc s es ++ rest) := by
  induction es generalizing s acc fin with
  | nil => exact h.sub
  | cons e es ih =>
    simp only [List.mem_cons, forall_eq_or_imp] at hd h7
    obtain ⟨rest, hr⟩ := ih _ _ _ (callsWF_step cfg s e hw) hd.2 h7.2
      (maybe_step cfg dec s e acc fin hw hd.1 h7.1 h)
    refine ⟨rest, List.Perm.trans ?_ hr⟩
    simp only [inCourse, afterCalls, List.append_assoc]
    refine List.Perm.append_left _ ?_
    exact List.perm_append_comm_assoc _ _ _

/-- **C109**, but for the codes 7 and 20: whatever calls are made and however they overlap, whatever is
raised, whichever requests fail or go unanswered though they were received, what the brokers may have
stored has no message more often than it was accepted. -/
theorem C109_at_most_once_partial (cfg : PCfg α κ β) (dec : γ → List (Msg κ β)) (cl : Cluster) (n : Int)
    (es : List (ProduceEv α κ β γ)) (hd : ∀ e ∈ es, Decodes dec e)
    (h7 : ∀ e ∈ es, NoneAfterAppend e) :
    ∃ rest, (inCourse cfg (acceptedIn cfg) (idleProducer cl n) es).Perm
      (mayBeStored cfg dec [] (idleProducer cl n) es ++ rest) := by
  obtain ⟨_, lost, kept, _, h1⟩ := C87_calls cfg cl n es
  obtain ⟨rest, h2⟩ := maybe_course cfg dec (idleProducer cl n) es [] [] (callsWF_idle cl n) hd h7
    ⟨by simp [Dict.keys], by simp [Dict.keys],
      fun i q h => by obtain ⟨l, st, h, _⟩ := h; simp [idleProducer, Dict.get?] at h,
      [], by simp [idleProducer, Producer.new, inSent]⟩
  rw [List.append_nil] at h2
  refine ⟨rest ++ (inQueue (afterCalls cfg (idleProducer cl n) es).producer.unsent ++ lost), ?_⟩
  refine h1.trans ?_
  rw [← List.append_assoc]
  refine List.Perm.trans ?_ (h2.append_right _)
  simp only [List.append_assoc]
  refine List.perm_append_comm_assoc _ _ _ |>.trans (List.Perm.append_left _ ?_)
  exact List.perm_append_comm_assoc _ _ _

/-- **C109** is false: a broker stores a message and answers `not_enough_replicas_after_append`; the
client sends it again, and it is stored twice though it was produced once.  So with
`request_timed_out`. -/
theorem C109_false (code : Int) (hc : code = 7 ∨ code = 20) :
    ∃ es : List (ProduceEv Nat Nat Nat (List (Msg Nat Nat))),
      (∀ e ∈ es, Decodes id e) ∧
      inCourse exAtOnce (acceptedIn exAtOnce) (idleProducer exPCluster 1) es = [("t", ⟨0, 4⟩)] ∧
      seenIn exAtOnce (idleProducer exPCluster 1) es =
        [.sent [⟨7, 2, [("t", [(0, [⟨0, 4⟩])])]⟩], .nothing, .heals, .returned,
          .sent [⟨7, 3, [("t", [(0, [⟨0, 4⟩])])]⟩], .nothing, .returned] ∧
      mayBeStored exAtOnce id [] (idleProducer exPCluster 1) es = [("t", ⟨0, 4⟩), ("t", ⟨0, 4⟩)] := by
  refine ⟨[.produce 0 "t" 4 exBegin, .outcome 0 7 (.ok [("t", [(0, code)])]), .goOn 0,
    .healed 0 (.ok ()), .flush 1 exBegin, .outcome 1 7 (.ok [("t", [(0, 0)])]), .goOn 1], ?_, ?_⟩
  · intro e he env hb ms x hx
    simp only [List.mem_cons, List.not_mem_nil, or_false] at he
    rcases he with rfl | rfl | rfl | rfl | rfl | rfl | rfl <;> cases hb <;> cases hx <;> rfl
  · rcases hc with rfl | rfl <;> exact ⟨by decide +kernel, by decide +kernel, by decide +kernel⟩

/-- Overlapping calls: one message is refused and sent again, another's request goes without answer. -/
def exStored : List (ProduceEv Nat Nat Nat (List (Msg Nat Nat))) :=
  [.produce 0 "t" 4 exBegin, .produce 1 "t" 5 exBegin, .outcome 1 7 (.ok [("t", [(1, 6)])]),
    .outcome 0 7 (.error .brokerConnection), .flush 2 exBegin]

-- Non-vacuity: three requests, two of which may have been stored.
example : (∀ e ∈ exStored, Decodes id e) ∧ (∀ e ∈ exStored, NoneAfterAppend e) ∧
    (∃ a b c, seenIn exAtOnce (idleProducer exPCluster 1) exStored =
      [.sent [a], .sent [b], .nothing, .nothing, .sent [c]]) ∧
    mayBeStored exAtOnce id [] (idleProducer exPCluster 1) exStored =
      [("t", ⟨0, 4⟩), ("t", ⟨1, 5⟩)] := by
  refine ⟨?_, ?_, ⟨⟨7, 2, [("t", [(0, [⟨0, 4⟩])])]⟩, ⟨7, 3, [("t", [(1, [⟨1, 5⟩])])]⟩,
    ⟨7, 4, [("t", [(1, [⟨1, 5⟩])])]⟩, by decide +kernel⟩, by decide +kernel⟩
  · intro e he env hb ms x hx
    simp only [exStored, List.mem_cons, List.not_mem_nil, or_false] at he
    rcases he with rfl | rfl | rfl | rfl | rfl <;> cases hb <;> cases hx <;> rfl
  · intro e he i b topics hx a ha c hc
    simp only [exStored, List.mem_cons, List.not_mem_nil, or_false] at he
    rcases he with rfl | rfl | rfl | rfl | rfl <;> cases hx
    simp only [List.mem_cons, List.not_mem_nil, or_false] at ha
    subst ha
    simp only [List.mem_cons, List.not_mem_nil, or_false] at hc
    subst hc
    decide

end Kiel
