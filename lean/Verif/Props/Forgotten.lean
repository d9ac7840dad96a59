import Verif.Spec.Forgotten
import Verif.Props.Elections
import Verif.Props.KeyPlaces
import Verif.Props.Refused
/-
C140, C141: producers, and topics that their metadata do not list.
-/
set_option autoImplicit false
namespace Kiel
open Spec

variable {α κ β γ : Type}

/-! ### What a flush does to the table of partitions -/

theorem getDefault_has {ι ν : Type} [DecidableEq ι] (d : Dict ι ν) (k k' : ι) (v : ν) :
    (d.getDefault k v).1.has k' = true ↔ d.has k' = true ∨ k' = k := by
  unfold Dict.getDefault
  cases h : d.get? k with
  | some x =>
    simp only [Dict.has]
    constructor
    · exact .inl
    · rintro (h1 | rfl)
      · exact h1
      · rw [h]; rfl
  | none =>
    simp only [Dict.has, Dict.get?_set]
    by_cases hk : k' = k
    · subst hk; simp
    · simp [hk, Ne.symm hk]

theorem getLeader_topics (cl : Cluster) (t : String) (p : Int) : (cl.getLeader t p).2.topics = cl.topics := by
  unfold Cluster.getLeader
  dsimp only
  split <;> rfl

theorem routeMsgs_has (pick : Nat → κ → List Int → Res Int) (t t' : String) (n : Nat)
    (ms : List (Msg κ β)) (cl : Cluster) (r : Routing κ β) :
    (routeMsgs pick t n ms cl r).2.topics.has t' = true ↔
      cl.topics.has t' = true ∨ t' = t ∧ ms ≠ [] := by
  induction ms generalizing n cl r with
  | nil => simp [routeMsgs]
  | cons m ms ih =>
    have hd := getDefault_has cl.topics t t' ([] : List Int)
    simp only [routeMsgs]
    split
    · simpa using hd
    · rename_i part hp
      have hg := getLeader_topics { cl with topics := (cl.topics.getDefault t []).1 } t part
      split
      · rename_i hx
        rw [hx] at hg
        simp only at hg
        rw [hg]
        simpa using hd
      · rename_i l cl2 hx
        rw [hx] at hg
        simp only at hg
        have : ∀ r', (routeMsgs pick t (n + 1) ms cl2 r').2.topics.has t' = true ↔
            cl.topics.has t' = true ∨ t' = t ∧ m :: ms ≠ [] := by
          intro r'
          rw [ih, hg, hd]
          constructor
          · rintro ((h | h) | ⟨h, _⟩)
            · exact .inl h
            · exact .inr ⟨h, by simp⟩
            · exact .inr ⟨h, by simp⟩
          · rintro (h | ⟨h, _⟩)
            · exact .inl (.inl h)
            · exact .inl (.inr h)
        split <;> exact this _

theorem routeTopics_has (pick : Nat → κ → List Int → Res Int) (t' : String) (n : Nat)
    (q : List (String × List (Msg κ β))) (cl : Cluster) (r : Routing κ β) :
    (cl.topics.has t' = true → (routeTopics pick n q cl r).2.1.topics.has t' = true) ∧
    ((routeTopics pick n q cl r).2.1.topics.has t' = true →
      cl.topics.has t' = true ∨ ∃ m, (t', m) ∈ inQueue q) := by
  induction q generalizing n cl r with
  | nil => exact ⟨id, .inl⟩
  | cons e q ih =>
    obtain ⟨t, ms⟩ := e
    have h1 := routeMsgs_has pick t t' n ms cl r
    have hq : t' = t ∧ ms ≠ [] → ∃ m, (t', m) ∈ inQueue ((t, ms) :: q) := by
      rintro ⟨rfl, hne⟩
      obtain ⟨m, hm⟩ := List.exists_mem_of_ne_nil _ hne
      exact ⟨m, by simp only [inQueue, List.flatMap_cons, List.mem_append, List.mem_map]
                   exact .inl ⟨m, hm, rfl⟩⟩
    simp only [routeTopics]
    split
    · rename_i hx
      rw [hx] at h1
      simp only at h1
      exact ⟨fun h => h1.2 (.inl h), fun h => (h1.1 h).imp id hq⟩
    · rename_i r1 cl1 hx
      rw [hx] at h1
      simp only at h1
      obtain ⟨h2, h3⟩ := ih (n + ms.length) cl1 r1
      refine ⟨fun h => h2 (h1.2 (.inl h)), fun h => ?_⟩
      rcases h3 h with h4 | ⟨m, hm⟩
      · exact (h1.1 h4).imp id hq
      · refine .inr ⟨m, ?_⟩
        rw [inQueue_cons]
        exact List.mem_append_right _ hm

theorem mem_inQueue_reverse {q : Dict String (List (Msg κ β))} {x : String × Msg κ β} :
    x ∈ inQueue q.reverse ↔ x ∈ inQueue q := (inQueue_reverse_perm q).mem_iff

theorem retries_cluster (l : List (String × List (Msg κ β))) (q : Producer κ β) :
    (l.foldl (fun p e => p.queueRetries e.1 e.2) q).cluster = q.cluster := by
  induction l generalizing q with
  | nil => rfl
  | cons e l ih => exact ih _

theorem prepare_has (pick : Nat → κ → List Int → Res Int) (comp : List (Msg κ β) → Res γ)
    (p : Producer κ β) (t : String) :
    (p.cluster.topics.has t = true → (p.prepare pick comp).2.cluster.topics.has t = true) ∧
    ((p.prepare pick comp).2.cluster.topics.has t = true →
      p.cluster.topics.has t = true ∨ ∃ m, (t, m) ∈ inQueue p.unsent) := by
  have h := routeTopics_has pick t 0 p.unsent.reverse p.cluster ⟨[], []⟩
  simp only [mem_inQueue_reverse] at h
  unfold Producer.prepare
  split
  · exact ⟨id, .inl⟩
  · split
    · rename_i hr; rw [hr] at h; exact h
    · rename_i hr
      rw [hr] at h
      split
      · exact h
      · rw [retries_cluster]; exact h

/-! ### Messages for a topic without leaders -/

theorem noLeaders_of {cl cl' : Cluster} (h : SameView cl cl') {t : String} (hn : NoLeaders cl t) :
    NoLeaders cl' t := fun p => by rw [h.unchanged.2.2 t p]; exact hn p

theorem noLeaders_get {cl : Cluster} {t : String} (hn : NoLeaders cl t) (p : Int) :
    ((cl.leaders.get? t).getD []).get? p = .none := by
  have := hn p
  unfold leaderOf at this
  cases h : cl.leaders.get? t with
  | none => rfl
  | some d => rw [h] at this; exact this

theorem placements_none {pick : Nat → κ → List Int → Res Int} {cl : Cluster} {t : String}
    {q : Dict String (List (Msg κ β))} {pl : List (Place κ β)} (hn : NoLeaders cl t)
    (h : Placements pick cl q pl) {m : Msg κ β} (hm : (t, m) ∈ inQueue q) : False := by
  rw [← mem_inQueue_reverse, ← h.all, List.mem_map] at hm
  obtain ⟨x, hx, he⟩ := hm
  have hl := h.led x hx
  obtain ⟨rfl, _⟩ := Prod.mk.inj he
  rw [noLeaders_get hn] at hl
  cases hl

/-- A flush raises while messages of such a topic are queued, and drops some of the queue's end. -/
theorem prepare_forgotten (pick : Nat → κ → List Int → Res Int) (comp : List (Msg κ β) → Res γ)
    (p : Producer κ β) (hw : WF p) (t : String) (hn : NoLeaders p.cluster t) (m : Msg κ β)
    (hm : (t, m) ∈ inQueue p.unsent) :
    ∃ e p', p.prepare pick comp = (.error e, p') ∧ p'.sent = p.sent ∧ p'.heal = p.heal ∧
      p'.closing = p.closing ∧ ∃ kept gone, p.unsent = kept ++ gone ∧ gone ≠ [] ∧ p'.unsent = kept := by
  cases hp : p.prepare pick comp with
  | mk res p' =>
    cases res with
    | ok r =>
      cases r with
      | none =>
        rw [(prepare_none hp).2] at hm
        cases hm
      | some reqs =>
        obtain ⟨pl, h1, _⟩ := C28_routing pick comp p p' reqs hw hp
        exact (placements_none hn h1 hm).elim
    | error e =>
      rcases C33_loses pick comp p p' e hp with ⟨kept, gone, h1, h2, h3, x, hx, _⟩ | ⟨_, pl, h1, _⟩
      · refine ⟨e, p', rfl, h3, ?_, ?_, kept, gone, h1, List.ne_nil_of_mem hx, h2⟩
        · unfold Producer.prepare at hp
          split at hp
          · cases hp
          · split at hp
            · cases hp; rfl
            · split at hp
              · cases hp; rfl
              · cases hp
        · have := (prepare_others pick comp p).2.1
          rw [hp] at this
          exact this
      · exact (placements_none hn h1 hm).elim

theorem routeMsgs_unknown (pick : Nat → κ → List Int → Res Int) (t : String) (n : Nat)
    (ms : List (Msg κ β)) (cl : Cluster) (r : Routing κ β) (hn : NoLeaders cl t) (hne : ms ≠ []) :
    ∃ e cl', routeMsgs pick t n ms cl r = (.error e, cl') ∧ cl'.topics.has t = true := by
  have hh := (routeMsgs_has pick t t n ms cl r).2 (.inr ⟨rfl, hne⟩)
  have hok := (routeMsgs_ok pick t n ms cl cl r (SameView.refl _)).2
  cases hr : routeMsgs pick t n ms cl r with
  | mk res cl' =>
    rw [hr] at hh hok
    cases res with
    | error e => exact ⟨e, cl', rfl, hh⟩
    | ok r' =>
      obtain ⟨pl, h1, _, h3, _⟩ := hok r' rfl
      obtain ⟨m, hm⟩ := List.exists_mem_of_ne_nil _ hne
      have : (t, m) ∈ pl.map (fun x => (x.topic, x.msg)) := by
        rw [h1]
        exact List.mem_map.2 ⟨m, hm, rfl⟩
      obtain ⟨x, hx, he⟩ := List.mem_map.1 this
      have hl := h3 x hx
      obtain ⟨rfl, _⟩ := Prod.mk.inj he
      rw [noLeaders_get hn] at hl
      cases hl

/-- If the topic is the one queued last, its messages are lost, and it is in the table of partitions. -/
theorem prepare_last (pick : Nat → κ → List Int → Res Int) (comp : List (Msg κ β) → Res γ)
    (p : Producer κ β) (t : String) (hn : NoLeaders p.cluster t) (kept : Dict String (List (Msg κ β)))
    (ms : List (Msg κ β)) (hq : p.unsent = kept ++ [(t, ms)]) (hne : ms ≠ []) :
    ∃ e cl', p.prepare pick comp = (.error e, { p with cluster := cl', unsent := kept }) ∧
      cl'.topics.has t = true ∧ SameView p.cluster cl' := by
  obtain ⟨e, cl', h1, h2⟩ := routeMsgs_unknown pick t 0 ms p.cluster ⟨[], []⟩ hn hne
  have hv := (routeMsgs_ok pick t 0 ms p.cluster p.cluster ⟨[], []⟩ (SameView.refl _)).1
  rw [h1] at hv
  refine ⟨e, cl', ?_, h2, hv⟩
  unfold Producer.prepare
  rw [if_neg (by rw [hq]; simp), hq, List.reverse_append]
  simp only [List.reverse_cons, List.reverse_nil, List.nil_append, List.singleton_append, routeTopics]
  rw [h1]
  simp

/-! ### Every step -/

theorem enqueue_mem (cfg : PCfg α κ β) (p : Producer κ β) (topic : String) (a : α) (t : String)
    (m : Msg κ β) (h : (t, m) ∈ inQueue (p.enqueue cfg topic a).2.unsent) :
    t = topic ∨ (t, m) ∈ inQueue p.unsent := by
  cases hk : cfg.keyMaker a with
  | error e =>
    unfold Producer.enqueue at h
    simp only [hk] at h
    rw [inQueue_getDefault] at h
    exact .inr h
  | ok k =>
    cases hv : cfg.serializer a with
    | error e =>
      unfold Producer.enqueue at h
      simp only [hk, hv] at h
      rw [inQueue_getDefault] at h
      exact .inr h
    | ok v =>
      obtain ⟨p', b, h1, _, _, _, _, _, _, h8, _⟩ := enqueue_ok cfg p topic a k v hk hv
      rw [h1] at h
      have := h8.mem_iff.1 h
      rw [List.mem_cons] at this
      rcases this with h | h
      · exact .inl (Prod.mk.inj h).1
      · exact .inr h

/-- What is known of one step that does not change the cluster. -/
structure Forgot (t : String) (s : ProducerBusy α κ β γ) (x : ProduceOut γ × ProducerBusy α κ β γ) : Prop where
  leaders : NoLeaders s.producer.cluster t → NoLeaders x.2.producer.cluster t
  nothing : NoLeaders s.producer.cluster t → NotFor t (handed x.1)
  stays : s.producer.cluster.topics.has t = true → x.2.producer.cluster.topics.has t = true
  only : x.2.producer.cluster.topics.has t = true → s.producer.cluster.topics.has t = true ∨ Queued s t

theorem flushes_forgot (s : ProducerBusy α κ β γ) (hw : WF s.producer) (i : Nat) (env : FlushStart κ β γ)
    (stop : Bool) (t : String) : Forgot t s (s.flushes i env stop) := by
  have hv := prepare_view env.pick env.comp s.producer
  obtain ⟨h1, h2⟩ := prepare_has env.pick env.comp s.producer t
  unfold ProducerBusy.flushes
  split
  · rename_i hp
    rw [hp] at hv h1 h2
    exact ⟨fun h => noLeaders_of hv h, fun _ r hr => (List.not_mem_nil hr).elim, h1, h2⟩
  · rename_i hp
    rw [hp] at hv h1 h2
    cases stop
    · exact ⟨fun h => noLeaders_of hv h, fun _ r hr => (List.not_mem_nil hr).elim, h1, h2⟩
    · exact ⟨fun h => noLeaders_of hv h, fun _ r hr => (List.not_mem_nil hr).elim, h1, h2⟩
  · rename_i reqs p hp
    rw [hp] at hv h1 h2
    have key : NoLeaders s.producer.cluster t → NotFor t reqs := by
      intro hn r hr e he ht
      subst ht
      obtain ⟨pl, k1, k2, k3, _⟩ := C28_routing env.pick env.comp s.producer p reqs hw hp
      obtain ⟨_, _, k4⟩ := k2
      obtain ⟨_, _, k5⟩ := k4 r hr
      obtain ⟨q, hq⟩ := List.exists_mem_of_ne_nil _ (k5 e he).1
      have := ((k3 r.broker e.1 q.1 q.2).1 ⟨r, hr, rfl, e, he, rfl, hq⟩).2.1
      obtain ⟨m, hm⟩ := List.exists_mem_of_ne_nil _ this
      simp only [placedOn, List.mem_map, List.mem_filter, decide_eq_true_eq] at hm
      obtain ⟨x, ⟨hx, _, ht, _⟩, _⟩ := hm
      have hl := k1.led x hx
      rw [ht, noLeaders_get hn] at hl
      cases hl
    split
    · exact ⟨fun h => noLeaders_of hv h, key, h1, h2⟩
    · exact ⟨fun h => noLeaders_of hv h, key, h1, h2⟩

theorem enqueue_wf (cfg : PCfg α κ β) (p : Producer κ β) (t : String) (a : α) (hw : WF p) :
    WF (p.enqueue cfg t a).2 := by
  obtain ⟨e1, _, e3, _⟩ := enqueue_others cfg p t a
  exact ⟨by rw [e3]; exact hw.nodup, by rw [e3, e1]; exact hw.old, by rw [e3]; exact hw.topics⟩

theorem forgot_step (cfg : PCfg α κ β) (s : ProducerBusy α κ β γ) (e : ProduceEv α κ β γ)
    (hw : WF s.producer) (t : String) (hcl : NoNews e) : Forgot t s (s.step cfg e) := by
  have same : ∀ (r : ProduceOut γ × ProducerBusy α κ β γ), handed r.1 = [] →
      r.2.producer.cluster.topics = s.producer.cluster.topics →
      r.2.producer.cluster.leaders = s.producer.cluster.leaders → Forgot t s r := by
    intro r h1 h2 h3
    refine ⟨fun hn p => ?_, fun _ => ?_, fun h => by rw [h2]; exact h, fun h => .inl (by rw [← h2]; exact h)⟩
    · unfold leaderOf
      rw [h3]
      exact hn p
    · rw [h1]
      exact fun r hr => (List.not_mem_nil hr).elim
  have over : ∀ (s' : ProducerBusy α κ β γ) (i : Nat) (stop : Bool),
      s'.producer.cluster = s.producer.cluster → Forgot t s (s'.over i stop) := by
    intro s' i stop h
    cases stop
    · exact same _ rfl (by simp [ProducerBusy.over, h]) (by simp [ProducerBusy.over, h])
    · exact same _ rfl (by simp [ProducerBusy.over, h, Cluster.stop]) (by simp [ProducerBusy.over, h, Cluster.stop])
  have queues : ∀ (i : Nat) (topic : String) (a : α) (env : FlushStart κ β γ),
      s.producer.cluster.topics.has topic = true → Forgot t s (s.queues cfg i topic a env) := by
    intro i topic a env ht
    obtain ⟨_, _, _, h4, _⟩ := enqueue_others cfg s.producer topic a
    have hw' := enqueue_wf cfg s.producer topic a hw
    have hm := enqueue_mem cfg s.producer topic a t
    unfold ProducerBusy.queues
    split
    · rename_i hx
      rw [hx] at h4
      exact same _ rfl (by rw [← h4]; rfl) (by rw [← h4]; rfl)
    · rename_i p hx
      rw [hx] at h4 hw' hm
      have := flushes_forgot { s with producer := p } hw' i env false t
      refine ⟨fun h => this.leaders (by rw [h4]; exact h), fun h => this.nothing (by rw [h4]; exact h),
        fun h => this.stays (by rw [h4]; exact h), fun h => ?_⟩
      rcases this.only h with h | ⟨m, h⟩
      · exact .inl (by rw [← h4]; exact h)
      · rcases hm m h with rfl | h
        · exact .inl ht
        · exact .inr ⟨m, h⟩
    · rename_i hx
      rw [hx] at h4
      exact over _ _ _ h4
  cases e with
  | produce k topic a env =>
    simp only [ProducerBusy.step]
    split
    · exact same _ rfl rfl rfl
    · split
      · exact over _ _ _ rfl
      · split
        · rename_i ht
          exact queues _ _ _ _ ht
        · exact same _ rfl rfl rfl
  | flush k env =>
    simp only [ProducerBusy.step]
    split
    · exact same _ rfl rfl rfl
    · exact flushes_forgot s hw k env false t
  | close k env =>
    simp only [ProducerBusy.step]
    split
    · exact same _ rfl rfl rfl
    · have := flushes_forgot { s with producer := { s.producer with closing := true } }
        ⟨hw.nodup, hw.old, hw.topics⟩ k env true t
      exact ⟨this.leaders, this.nothing, this.stays, this.only⟩
  | found k r env =>
    simp only [ProducerBusy.step]
    split
    · split
      · exact same _ rfl rfl rfl
      · split
        · rename_i ht
          exact queues _ _ _ _ ht
        · exact over _ _ _ rfl
    · exact same _ rfl rfl rfl
  | outcome k b r =>
    simp only [ProducerBusy.step]
    split
    · split
      · exact same _ rfl rfl rfl
      · split
        · refine same _ rfl ?_ ?_
          · simp only
            split <;> rfl
          · simp only
            split <;> rfl
        · rename_i q _ _ topics
          have h := handleResponse_cluster s.producer ⟨q.corr, topics⟩
          split
          · rename_i hx
            rw [hx] at h
            exact same _ rfl (by rw [← h]; rfl) (by rw [← h]; rfl)
          · rename_i hx
            rw [hx] at h
            exact same _ rfl (by rw [← h]) (by rw [← h])
    · exact same _ rfl rfl rfl
  | goOn k =>
    simp only [ProducerBusy.step]
    split
    · split
      · exact same _ rfl rfl rfl
      · exact over _ _ _ rfl
    · exact same _ rfl rfl rfl
  | healed k r =>
    simp only [ProducerBusy.step]
    split
    · split
      · exact same _ rfl rfl rfl
      · exact over _ _ _ rfl
    · exact same _ rfl rfl rfl
  | cluster cl => exact hcl.elim
  | others n => exact same _ rfl rfl rfl

/-! ### C140 -/

/-- **C140**, what happens instead: as long as the cluster does not change, nothing is sent of a topic
without known leaders, whatever else happens. -/
theorem C140_never (cfg : PCfg α κ β) (s : ProducerBusy α κ β γ) (hw : CallsWF s) (t : String)
    (hn : NoLeaders s.producer.cluster t) (es : List (ProduceEv α κ β γ)) (he : ∀ e ∈ es, NoNews e) :
    NoLeaders (afterCalls cfg s es).producer.cluster t ∧ ∀ out ∈ seenIn cfg s es, NotFor t (handed out) := by
  induction es generalizing s with
  | nil => exact ⟨hn, fun _ h => (List.not_mem_nil h).elim⟩
  | cons e es ih =>
    have hf := forgot_step cfg s e hw.wf t (he e (by simp))
    obtain ⟨h1, h2⟩ := ih _ (callsWF_step cfg s e hw) (hf.leaders hn) (fun e' h => he e' (by simp [h]))
    refine ⟨h1, fun out ho => ?_⟩
    simp only [seenIn, List.mem_cons] at ho
    rcases ho with rfl | ho
    · exact hf.nothing hn
    · exact h2 out ho

theorem erase_unused {ν : Type} {d : Dict Nat ν} {i : Nat} (h : d.has i = false) : d.erase i = d := by
  apply Dict.erase_of_not_mem
  intro hi
  rw [Dict.has_iff.2 hi] at h
  cases h

theorem flushes_forgotten (s : ProducerBusy α κ β γ) (hw : WF s.producer) (t : String)
    (hn : NoLeaders s.producer.cluster t) (hq : Queued s t) (i : Nat) (env : FlushStart κ β γ) (stop : Bool) :
    ∃ x s', s.flushes i env stop = (.raised x [], s') ∧ s'.calls = s.calls.erase i ∧
      s'.producer.sent = s.producer.sent ∧ s'.producer.heal = s.producer.heal ∧
      ∃ kept gone, s.producer.unsent = kept ++ gone ∧ gone ≠ [] ∧ s'.producer.unsent = kept := by
  obtain ⟨m, hm⟩ := hq
  obtain ⟨x, p', h1, h2, h3, _, h5⟩ := prepare_forgotten env.pick env.comp s.producer hw t hn m hm
  refine ⟨x, ⟨p', s.calls.erase i⟩, ?_, rfl, h2, h3, h5⟩
  unfold ProducerBusy.flushes
  rw [h1]
  rfl

/-- **C140**, what happens instead: while messages of such a topic are queued, each `flush`, and `close`,
raises before anything is sent, and the messages of one topic at least (not only of the one without
leaders) are neither queued any more nor kept as sent. -/
theorem C140_raises (cfg : PCfg α κ β) (s : ProducerBusy α κ β γ) (hw : CallsWF s) (t : String)
    (hn : NoLeaders s.producer.cluster t) (hq : Queued s t) (i : Nat) (hi : s.calls.has i = false)
    (env : FlushStart κ β γ) (e : ProduceEv α κ β γ) (he : e = .flush i env ∨ e = .close i env) :
    ∃ x s', s.step cfg e = (.raised x [], s') ∧ s'.calls = s.calls ∧ s'.producer.sent = s.producer.sent ∧
      ∃ kept gone, s.producer.unsent = kept ++ gone ∧ gone ≠ [] ∧ s'.producer.unsent = kept := by
  rcases he with rfl | rfl
  · obtain ⟨x, s', h1, h2, h3, _, h4⟩ := flushes_forgotten s hw.wf t hn hq i env false
    refine ⟨x, s', ?_, by rw [h2, erase_unused hi], h3, h4⟩
    simp only [ProducerBusy.step, hi, Bool.false_eq_true, if_false]
    exact h1
  · obtain ⟨x, s', h1, h2, h3, _, h4⟩ := flushes_forgotten
      { s with producer := { s.producer with closing := true } } ⟨hw.wf.nodup, hw.wf.old, hw.wf.topics⟩
      t hn hq i env true
    refine ⟨x, s', ?_, by rw [h2]; exact erase_unused hi, h3, h4⟩
    simp only [ProducerBusy.step, hi, Bool.false_eq_true, if_false]
    exact h1

theorem unqueued_flushes (s : ProducerBusy α κ β γ) (hw : WF s.producer) (t : String) (hq : ¬ Queued s t)
    (i : Nat) (env : FlushStart κ β γ) (stop : Bool) : ¬ Queued (s.flushes i env stop).2 t := by
  have key : ∀ p' res, s.producer.prepare env.pick env.comp = (res, p') →
      ∀ m, (t, m) ∈ inQueue p'.unsent → (t, m) ∈ inQueue s.producer.unsent := by
    intro p' res hp m hm
    cases res with
    | error e =>
      rcases C33_loses _ _ _ _ _ hp with ⟨kept, gone, h1, h2, _⟩ | ⟨h1, _⟩
      · rw [h2] at hm
        rw [h1]
        simp only [inQueue, List.flatMap_append, List.mem_append]
        exact .inl hm
      · rw [h1] at hm
        cases hm
    | ok r =>
      cases r with
      | none => rw [(prepare_none hp).1] at hm; exact hm
      | some reqs =>
        obtain ⟨pl, h1, _, _, _, _, _, _, _, _, h10⟩ := prepare_ok hw.old hp
        have h2 := h10.mem_iff.1 hm
        have h3 := (routeTo_perm s.producer.cluster pl ⟨[], []⟩).mem_iff.1 (List.mem_append_right _ h2)
        rw [h1.all] at h3
        simpa [inSent, inQueue, ← mem_inQueue_reverse] using h3
  rintro ⟨m, hm⟩
  apply hq
  unfold ProducerBusy.flushes at hm
  split at hm
  · rename_i hp
    exact ⟨m, key _ _ hp m hm⟩
  · rename_i hp
    cases stop
    · exact ⟨m, key _ _ hp m hm⟩
    · exact ⟨m, key _ _ hp m hm⟩
  · rename_i hp
    split at hm <;> exact ⟨m, key _ _ hp m hm⟩

theorem unqueued_run (cfg : PCfg α κ β) (fs : List (Nat × FlushStart κ β γ)) (s : ProducerBusy α κ β γ)
    (hw : CallsWF s) (t : String) (hq : ¬ Queued s t) :
    ¬ Queued (afterCalls cfg s (fs.map fun f => .flush f.1 f.2)) t := by
  induction fs generalizing s with
  | nil => exact hq
  | cons f fs ih =>
    refine ih _ (callsWF_step cfg s _ hw) ?_
    simp only [ProducerBusy.step]
    split
    · exact hq
    · exact unqueued_flushes s hw.wf t hq f.1 f.2 false

/-- **C140**, what happens instead: once `flush` has been called as often as there are topics queued, the
messages of a topic without known leaders are gone, none having been sent (`C140_never`). -/
theorem C140_gone (cfg : PCfg α κ β) (fs : List (Nat × FlushStart κ β γ)) (s : ProducerBusy α κ β γ)
    (hw : CallsWF s) (t : String) (hn : NoLeaders s.producer.cluster t)
    (hi : ∀ f ∈ fs, s.calls.has f.1 = false) (hlen : s.producer.unsent.length ≤ fs.length) :
    ¬ Queued (afterCalls cfg s (fs.map fun f => .flush f.1 f.2)) t := by
  induction fs generalizing s with
  | nil =>
    rintro ⟨m, hm⟩
    have : s.producer.unsent = [] := List.length_eq_zero_iff.1 (by simpa using hlen)
    simp only [List.map_nil, afterCalls] at hm
    rw [this] at hm
    cases hm
  | cons f fs ih =>
    by_cases hq : Queued s t
    · obtain ⟨x, s', h1, h2, h3, kept, gone, h4, h5, h6⟩ := C140_raises cfg s hw t hn hq f.1
        (hi f (by simp)) f.2 _ (.inl rfl)
      have hs' : s' = (s.step cfg (.flush f.1 f.2)).2 := by rw [h1]
      have hf := forgot_step cfg s (.flush f.1 f.2) hw.wf t trivial
      simp only [List.map_cons, afterCalls]
      rw [← hs']
      refine ih s' (hs' ▸ callsWF_step cfg s _ hw) (hs' ▸ hf.leaders hn)
        (fun g hg => by rw [h2]; exact hi g (by simp [hg])) ?_
      rw [h6]
      rw [h4] at hlen
      have : 0 < gone.length := List.length_pos_of_ne_nil h5
      simp only [List.length_append, List.length_cons] at hlen
      omega
    · exact unqueued_run cfg (f :: fs) s hw t hq

/-- **C140**, elections: brokers answering for the topics they are asked about, once the producer's
cluster has been healed while some topic needed another look, nothing is sent of any other topic, until
the cluster changes; what was queued of them is lost when `flush` is called. -/
theorem C140_loses (cfg : PCfg α κ β) (s s1 : ProducerBusy α κ β γ) (hw : CallsWF s)
    (env : ClusterEnv) (fuel : Nat) (m : Metadata) (cl' : Cluster)
    (hon : Honest env) (hconn : ∀ n k, env.connect n k = .none) (response : Option Metadata)
    (hr : response = some m ∨
      response = .none ∧ getMetadata (env.ask 0 []) s.producer.cluster.conns = .ok m)
    (h : s.producer.cluster.heal env fuel response = (.done (), cl'))
    (t0 : String) (h0 : NeedsLook (Reachable s.producer.cluster m) m.topics t0) (t : String)
    (ht : ¬ NeedsLook (Reachable s.producer.cluster m) m.topics t)
    (hs1 : s1 = (s.step cfg (.cluster cl')).2) :
    (∀ es : List (ProduceEv α κ β γ), (∀ e ∈ es, NoNews e) → ∀ out ∈ seenIn cfg s1 es, NotFor t (handed out)) ∧
    ∀ fs : List (Nat × FlushStart κ β γ), (∀ f ∈ fs, s.calls.has f.1 = false) →
      s.producer.unsent.length ≤ fs.length →
      ¬ Queued (afterCalls cfg s1 (fs.map fun f => .flush f.1 f.2)) t := by
  have h' : s.producer.cluster.heal env fuel (some m) = (.done (), cl') := by
    rcases hr with rfl | ⟨rfl, hg⟩
    · exact h
    · rw [← heal_given env fuel m _ hg]; exact h
  have hl : NoLeaders cl' t := fun p => (heal_leaderless env fuel m _ cl' hon hconn h' t0 h0 t ht p).1
  have hw1 : CallsWF s1 := hs1 ▸ callsWF_step cfg s _ hw
  have hl1 : NoLeaders s1.producer.cluster t := by rw [hs1]; exact hl
  refine ⟨fun es he => (C140_never cfg s1 hw1 t hl1 es he).2, fun fs hi hlen => ?_⟩
  exact C140_gone cfg fs s1 hw1 t hl1 (by rw [hs1]; exact hi) (by rw [hs1]; exact hlen)

/-- **C140**, if no topic needs another look and no connection fails: after the healing, a flush sends all
that is queued.  Missing from the full claim: metadata in which another topic needs another look. -/
theorem C140_goes_on_partial (cfg : PCfg α κ β) (s : ProducerBusy α κ β γ) (hw : CallsWF s)
    (env : ClusterEnv) (fuel : Nat) (m : Metadata) (cl' : Cluster)
    (hconn : ∀ k, env.connect 0 k = .none)
    (ht : ∀ t, ¬ NeedsLook (Reachable s.producer.cluster m) m.topics t)
    (h : s.producer.cluster.heal env (fuel + 1) (some m) = (.done (), cl'))
    (hq : ∀ t, Queued s t → usable (· ∈ cl'.conns.keys) m.topics t ≠ []) (hsome : ∃ t, Queued s t)
    (i : Nat) (hi : s.calls.has i = false) (fenv : FlushStart κ β γ) (hpick : ChoosesOne fenv.pick)
    (hcomp : ∀ ms, ∃ x, fenv.comp ms = .ok x) (hwrite : ∀ b, fenv.write b = .none) :
    ∃ reqs pl, ((s.step cfg (.cluster cl')).2.step cfg (.flush i fenv)).1 = .sent reqs ∧
      Placements fenv.pick cl' s.producer.unsent pl ∧
      ∀ x ∈ pl, ∃ set, Holds reqs x.leader x.topic x.part set ∧
        fenv.comp (placedOn pl x.leader x.topic x.part) = .ok set := by
  obtain ⟨cl1, k1, hsync⟩ := C22_clean_partial env fuel m s.producer.cluster hconn ht
  rw [h] at k1
  obtain rfl : cl' = cl1 := (Prod.mk.inj k1).2
  have hlead : ∀ t p, p ∈ partitionsOf cl' t → ∃ l, leaderOf cl' t p = some l := by
    intro t p hp
    rw [hsync.topics t, List.mem_map] at hp
    obtain ⟨x, hx, hid⟩ := hp
    have hf : ((usable (· ∈ cl'.conns.keys) m.topics t).reverse.find? (fun x => decide (x.id = p))).isSome := by
      rw [List.find?_isSome]
      exact ⟨x, List.mem_reverse.2 hx, by simpa using hid⟩
    obtain ⟨y, hy⟩ := Option.isSome_iff_exists.1 hf
    exact ⟨y.leader, by rw [hsync.leaders t p, hy]; rfl⟩
  have hcon : ∀ t p l, leaderOf cl' t p = some l → cl'.conns.has l = true := by
    intro t p l hl
    rw [hsync.leaders t p, Option.map_eq_some_iff] at hl
    obtain ⟨y, hy, rfl⟩ := hl
    have hy' := List.mem_of_find?_eq_some hy
    rw [List.mem_reverse] at hy'
    unfold usable at hy'
    have := (List.mem_filter.1 hy').2
    simp only [decide_eq_true_eq] at this
    exact Dict.has_iff.2 this.2
  have hget : ∀ t p, leaderOf cl' t p = ((cl'.leaders.get? t).getD []).get? p := by
    intro t p
    unfold leaderOf
    cases cl'.leaders.get? t <;> rfl
  generalize hp1 : ({ s.producer with cluster := cl' } : Producer κ β) = p1
  have hu : p1.unsent = s.producer.unsent := by rw [← hp1]
  have hc : p1.cluster = cl' := by rw [← hp1]
  have hw1 : WF p1 := by rw [← hp1]; exact ⟨hw.wf.nodup, hw.wf.old, hw.wf.topics⟩
  have hne : p1.unsent ≠ [] := by
    obtain ⟨t, x, hx⟩ := hsome
    intro h0
    rw [← hu, h0] at hx
    cases hx
  obtain ⟨reqs, p', hprep⟩ := C28_succeeds fenv.pick fenv.comp p1 hne (by
    intro e he x hx n
    rw [hu] at he
    have hqe : Queued s e.1 := ⟨x, by
      simp only [inQueue, List.mem_flatMap, List.mem_map]
      exact ⟨e, he, x, hx, rfl⟩⟩
    have hpne : partitionsOf cl' e.1 ≠ [] := by
      rw [hsync.topics e.1]
      simpa using hq e.1 hqe
    obtain ⟨part, hpart, hpk⟩ := hpick n x.key _ hpne
    obtain ⟨l, hl⟩ := hlead e.1 part hpart
    exact ⟨part, l, by rw [hc]; exact hpk, by rw [hc, ← hget]; exact hl⟩) hcomp
  obtain ⟨pl, q1, q2, q3, q4, _⟩ := C28_routing fenv.pick fenv.comp p1 p' reqs hw1 hprep
  rw [hc, hu] at q1
  rw [hc] at q3 q4
  have hcp : p'.cluster.conns = cl'.conns := by
    have := (prepare_view fenv.pick fenv.comp p1).conns
    rw [hprep, hc] at this
    exact this
  refine ⟨reqs, pl, ?_, q1, fun x hx => ?_⟩
  · simp only [ProducerBusy.step, hi, Bool.false_eq_true, if_false, ProducerBusy.flushes, hp1, hprep]
    rw [sendStart_ok _ _ _ (fun b hb => ?_) (fun b _ => hwrite b)]
    obtain ⟨r, hr, rfl⟩ := List.mem_map.1 hb
    obtain ⟨_, _, k4⟩ := q2
    obtain ⟨k5, _, k6⟩ := k4 r hr
    obtain ⟨e, he⟩ := List.exists_mem_of_ne_nil _ k5
    obtain ⟨y, hy⟩ := List.exists_mem_of_ne_nil _ (k6 e he).1
    have := ((q3 r.broker e.1 y.1 y.2).1 ⟨r, hr, rfl, e, he, rfl, hy⟩).1
    rw [hcp]
    exact this
  · have hl := q1.led x hx
    have hk := hcon x.topic x.part x.leader (by rw [hget]; exact hl)
    have hnn : placedOn pl x.leader x.topic x.part ≠ [] := by
      apply List.ne_nil_of_mem (a := x.msg)
      simp only [placedOn, List.mem_map, List.mem_filter, decide_eq_true_eq]
      exact ⟨x, ⟨hx, rfl, rfl, rfl⟩, rfl⟩
    obtain ⟨set, hset⟩ := q4 x.leader x.topic x.part hk hnn
    exact ⟨set, hset, ((q3 _ _ _ _).1 hset).2.2⟩

/-- **C140**: what is queued when the cluster is healed is sent by the next flush, if the metadata report
nothing amiss with the topics queued, whatever they report of others. -/
def OthersSent (α κ β γ : Type) : Prop :=
  ∀ (cfg : PCfg α κ β) (cl : Cluster) (n : Int) (es : List (ProduceEv α κ β γ)) (s : ProducerBusy α κ β γ)
    (env : ClusterEnv) (fuel : Nat) (m : Metadata) (cl' : Cluster) (i : Nat) (fenv : FlushStart κ β γ)
    (t : String),
    s = afterCalls cfg (idleProducer cl n) es → Honest env → (∀ n k, env.connect n k = .none) →
    s.producer.cluster.heal env fuel (some m) = (.done (), cl') → (∀ t, Queued s t → Healthy m t) →
    s.calls.has i = false → ChoosesOne fenv.pick → (∀ ms, ∃ x, fenv.comp ms = .ok x) →
    (∀ b, fenv.write b = .none) → Queued s t →
    ∃ reqs, ((s.step cfg (.cluster cl')).2.step cfg (.flush i fenv)).1 = .sent reqs ∧ ¬ NotFor t reqs

/-! ### C141 -/

/-- Topic `t` is in the table of partitions, although no leader is known. -/
def Hidden (s : ProducerBusy α κ β γ) (t : String) : Prop :=
  NoLeaders s.producer.cluster t ∧ s.producer.cluster.topics.has t = true

/-- **C141**, how it comes about: a flush that fails since the leaders of the topic queued last are not
known leaves the topic in the table of partitions, with none; its messages are gone. -/
theorem C141_hides (cfg : PCfg α κ β) (s : ProducerBusy α κ β γ) (t : String)
    (hn : NoLeaders s.producer.cluster t) (i : Nat) (hi : s.calls.has i = false) (env : FlushStart κ β γ)
    (kept : Dict String (List (Msg κ β))) (ms : List (Msg κ β))
    (hq : s.producer.unsent = kept ++ [(t, ms)]) (hne : ms ≠ []) :
    ∃ x s', s.step cfg (.flush i env) = (.raised x [], s') ∧ Hidden s' t ∧ s'.producer.unsent = kept ∧
      s'.producer.sent = s.producer.sent ∧ s'.calls = s.calls := by
  obtain ⟨e, cl', h1, h2, h3⟩ := prepare_last env.pick env.comp s.producer t hn kept ms hq hne
  refine ⟨e, ⟨{ s.producer with cluster := cl', unsent := kept }, s.calls⟩, ?_, ⟨noLeaders_of h3 hn, h2⟩,
    rfl, rfl, rfl⟩
  simp only [ProducerBusy.step, hi, Bool.false_eq_true, if_false, ProducerBusy.flushes, h1,
    ProducerBusy.fails, erase_unused hi]

/-- **C141**, what happens instead: as long as the cluster does not change, calls of `produce` for the
topic do not have the metadata got afresh, and send nothing; if the batch is full they raise. -/
theorem C141_stuck (cfg : PCfg α κ β) (s0 : ProducerBusy α κ β γ) (hw : CallsWF s0) (t : String)
    (hh : Hidden s0 t) (es : List (ProduceEv α κ β γ)) (he : ∀ e ∈ es, NoNews e)
    (s : ProducerBusy α κ β γ) (hs : s = afterCalls cfg s0 es) (i : Nat) (hi : s.calls.has i = false)
    (hc : s.producer.closing = false) (a : α) (env : FlushStart κ β γ) :
    Hidden s t ∧
    ((∃ x, (s.step cfg (.produce i t a env)).1 = .raised x []) ∨
      (s.step cfg (.produce i t a env)).1 = .returned ∧ cfg.batchSize ≠ 0 ∧
        (queued s.producer.unsent + 1 : Int) < cfg.batchSize) := by
  have hh' : Hidden s t := by
    clear hi hc
    subst hs
    induction es generalizing s0 with
    | nil => exact hh
    | cons e es ih =>
      have hf := forgot_step cfg s0 e hw.wf t (he e (by simp))
      exact ih _ (callsWF_step cfg s0 e hw) ⟨hf.leaders hh.1, hf.stays hh.2⟩ (fun e' h => he e' (by simp [h]))
  have hws : CallsWF s := hs ▸ callsWF_after cfg s0 es hw
  refine ⟨hh', ?_⟩
  simp only [ProducerBusy.step, hi, hc, hh'.2, Bool.false_eq_true, if_false, if_true]
  unfold ProducerBusy.queues
  split
  · exact .inl ⟨_, rfl⟩
  · rename_i p hx
    have hcl := (enqueue_others cfg s.producer t a).2.2.2.1
    have hwp := enqueue_wf cfg s.producer t a hws.wf
    rw [hx] at hcl hwp
    have hq : ∃ m, (t, m) ∈ inQueue p.unsent := by
      cases hk : cfg.keyMaker a with
      | error e => simp [Producer.enqueue, hk] at hx
      | ok k =>
        cases hv : cfg.serializer a with
        | error e => simp [Producer.enqueue, hk, hv] at hx
        | ok v =>
          obtain ⟨p', b, h1, _, _, _, _, _, _, h8, _⟩ := enqueue_ok cfg s.producer t a k v hk hv
          rw [hx] at h1
          obtain rfl : p = p' := (Prod.mk.inj h1).2
          exact ⟨⟨k, v⟩, h8.mem_iff.2 (by simp)⟩
    obtain ⟨x, s', h1, _⟩ := flushes_forgotten { s with producer := p } hwp t
      (by show NoLeaders p.cluster t; rw [hcl]; exact hh'.1) hq i env false
    exact .inl ⟨x, by rw [h1]⟩
  · rename_i p hx
    right
    refine ⟨rfl, ?_⟩
    cases hk : cfg.keyMaker a with
    | error e => simp [Producer.enqueue, hk] at hx
    | ok k =>
      cases hv : cfg.serializer a with
      | error e => simp [Producer.enqueue, hk, hv] at hx
      | ok v =>
        obtain ⟨p', b, h1, _, _, _, _, _, _, _, h9⟩ := enqueue_ok cfg s.producer t a k v hk hv
        rw [hx] at h1
        obtain rfl : false = b := Except.ok.inj (Prod.mk.inj h1).1
        simp only [Bool.false_eq_true, false_iff, not_or, Int.not_le] at h9
        exact h9

/-- **C141**, what happens instead, message by message: each is accepted, each call raises, and each
message is lost, for as many calls as there are. -/
theorem C141_each (cfg : PCfg α κ β) (calls : List (Nat × α × FlushStart κ β γ)) (s : ProducerBusy α κ β γ)
    (t : String) (hh : Hidden s t) (hi : ∀ c ∈ calls, s.calls.has c.1 = false)
    (hc : s.producer.closing = false) (hb : cfg.batchSize ≤ 1) (hq : s.producer.unsent = [])
    (hk : ∀ c ∈ calls, ∃ k v, cfg.keyMaker c.2.1 = .ok k ∧ cfg.serializer c.2.1 = .ok v) :
    (∀ out ∈ seenIn cfg s (calls.map fun c => .produce c.1 t c.2.1 c.2.2), ∃ x, out = .raised x []) ∧
    ∃ cl', afterCalls cfg s (calls.map fun c => .produce c.1 t c.2.1 c.2.2) =
        { s with producer := { s.producer with cluster := cl' } } ∧ SameView s.producer.cluster cl' := by
  induction calls generalizing s with
  | nil => exact ⟨fun _ h => (List.not_mem_nil h).elim, s.producer.cluster, rfl, SameView.refl _⟩
  | cons c calls ih =>
    obtain ⟨k, v, hkey, hval⟩ := hk c (by simp)
    obtain ⟨p1, hp1⟩ : ∃ p1 : Producer κ β, p1 = { s.producer with unsent := [(t, [⟨k, v⟩])] } := ⟨_, rfl⟩
    have hen : s.producer.enqueue cfg t c.2.1 = (.ok true, p1) := by
      rw [hp1]
      unfold Producer.enqueue
      simp only [hkey, hval, hq]
      have hu : (Dict.upd [(t, [])] t [] fun x => x ++ [(⟨k, v⟩ : Msg κ β)]) = [(t, [⟨k, v⟩])] := by
        simp [Dict.upd, Dict.get?, Dict.set]
      simp [Dict.getDefault, Dict.get?, Dict.set, Producer.unsentCount, Dict.vals, hu, hb]
    obtain ⟨e, cl', h1, h2, h3⟩ := prepare_last c.2.2.pick c.2.2.comp p1 t (by rw [hp1]; exact hh.1) []
      [⟨k, v⟩] (by rw [hp1]; rfl) (by simp)
    have h1' : p1.prepare c.2.2.pick c.2.2.comp = (.error e, { s.producer with cluster := cl' }) := by
      rw [h1, hp1, ← hq]
    have h3 : SameView s.producer.cluster cl' := by rw [hp1] at h3; exact h3
    have hstep : s.step cfg (.produce c.1 t c.2.1 c.2.2) =
        (.raised e [], { s with producer := { s.producer with cluster := cl' } }) := by
      have hi' := hi c (by simp)
      simp only [ProducerBusy.step, hi', hc, hh.2, Bool.false_eq_true, if_false, if_true,
        ProducerBusy.queues, hen, ProducerBusy.flushes, h1', ProducerBusy.fails, erase_unused hi']
    simp only [List.map_cons, seenIn, afterCalls, hstep, List.mem_cons]
    obtain ⟨k1, cl2, k2, k3⟩ := ih { s with producer := { s.producer with cluster := cl' } }
      ⟨noLeaders_of h3 hh.1, h2⟩ (fun d hd => hi d (by simp [hd])) hc hq (fun d hd => hk d (by simp [hd]))
    refine ⟨?_, cl2, k2, h3.trans k3⟩
    rintro out (rfl | ho)
    · exact ⟨e, rfl⟩
    · exact k1 out ho

/-- **C141**, when it cannot come about: a topic gets into the table of partitions without the cluster
changing only if messages for it are queued. -/
theorem C141_only (cfg : PCfg α κ β) (s : ProducerBusy α κ β γ) (hw : CallsWF s) (t : String)
    (e : ProduceEv α κ β γ) (he : NoNews e) (h : s.producer.cluster.topics.has t = false)
    (h' : (s.step cfg e).2.producer.cluster.topics.has t = true) : Queued s t := by
  rcases (forgot_step cfg s e hw.wf t he).only h' with h1 | h1
  · rw [h] at h1
    cases h1
  · exact h1

/-- When `heal` returns, no topic is in the table of partitions without any. -/
theorem heal_listed (cl cl' : Cluster) (env : ClusterEnv) (fuel : Nat) (response : Option Metadata)
    (h : cl.heal env fuel response = (.done (), cl')) (t : String) : cl'.topics.get? t ≠ some [] := by
  have key : ∀ (connect : Nat → Option Exc) (cl0 : Cluster) (m : Metadata),
      (cl0.sync connect m).2.2.topics.get? t ≠ some [] := by
    intro connect cl0 m
    have := C19_topics (cl0.processBrokers connect m.brokers).2 m.topics t
    simp only [Cluster.sync]
    rw [this]
    split
    · simp
    · rename_i hne
      simpa using hne
  unfold Cluster.heal at h
  simp only at h
  split at h
  · cases h
  · exact healLoop_done env fuel 1 _ _ _ cl' (fun c _ _ => c.topics.get? t ≠ some []) (key _ _ _)
      (fun _ _ _ _ _ _ => key _ _ _) h

/-- **C141**, right after the cluster has been healed: `produce` for a topic of which the metadata list no
partition has them got afresh.  Missing from the full claim: producers that have tried to send queued
messages of the topic since. -/
theorem C141_fresh_partial (cfg : PCfg α κ β) (s : ProducerBusy α κ β γ) (env : ClusterEnv) (fuel : Nat)
    (response : Option Metadata) (cl' : Cluster)
    (h : s.producer.cluster.heal env fuel response = (.done (), cl')) (t : String)
    (ht : partitionsOf cl' t = []) (i : Nat) (hi : s.calls.has i = false)
    (hc : s.producer.closing = false) (a : α) (fenv : FlushStart κ β γ) :
    ((s.step cfg (.cluster cl')).2.step cfg (.produce i t a fenv)).1 = .heals := by
  have hno : cl'.topics.has t = false := by
    have hx := heal_listed s.producer.cluster cl' env fuel response h t
    unfold partitionsOf at ht
    cases hg : cl'.topics.get? t with
    | none => simp [Dict.has, hg]
    | some ids =>
      rw [hg] at ht hx
      exact absurd (congrArg some ht) hx
  simp [ProducerBusy.step, hi, hc, hno]

/-- **C141**: a call of `produce` for a topic of which no partition and no leader is known has the metadata
got afresh. -/
def LooksUp (α κ β γ : Type) : Prop :=
  ∀ (cfg : PCfg α κ β) (cl : Cluster) (n : Int) (es : List (ProduceEv α κ β γ)) (s : ProducerBusy α κ β γ)
    (i : Nat) (t : String) (a : α) (fenv : FlushStart κ β γ),
    s = afterCalls cfg (idleProducer cl n) es → partitionsOf s.producer.cluster t = [] →
    NoLeaders s.producer.cluster t → s.producer.closing = false → s.calls.has i = false →
    (s.step cfg (.produce i t a fenv)).1 = .heals

/-! ### Not vacuous, and false -/

/-- Partition by key, messages as they are. -/
def exTopicKeyed : FlushStart Nat Nat (List (Msg Nat Nat)) where
  pick _ k parts := match parts[k % parts.length]? with
    | some p => .ok p
    | .none => .error .indexError
  comp ms := .ok ms
  write _ := .none

theorem exTopicKeyed_chooses : ChoosesOne exTopicKeyed.pick := by
  intro n k ps hne
  have hlt : k % ps.length < ps.length := Nat.mod_lt _ (List.length_pos_of_ne_nil hne)
  refine ⟨ps[k % ps.length], List.getElem_mem hlt, ?_⟩
  simp [exTopicKeyed, List.getElem?_eq_getElem hlt]

/-- A message for topic a is queued; then one for topic c is to be produced, which is not known. -/
def exQueuedA : List (ProduceEv Nat Nat Nat (List (Msg Nat Nat))) :=
  [.produce 0 "a" 5 exTopicKeyed, .produce 1 "c" 6 exTopicKeyed]

/-- The producer then. -/
def exWaitsA : ProducerBusy Nat Nat Nat (List (Msg Nat Nat)) := afterCalls exPCfg (idleProducer exAllWell 0) exQueuedA

theorem exWaitsA_is : seenIn exPCfg (idleProducer exAllWell 0) exQueuedA = [.returned, .heals] ∧
    exWaitsA.producer.unsent = [("a", [⟨1, 5⟩])] ∧ exWaitsA.calls.has 2 = false ∧
    exWaitsA.producer.cluster.heal exEnv 5 (some exMeta) = (.done (), exOnlyB) := by decide +kernel

theorem exWaitsA_queued (t : String) (h : Queued exWaitsA t) : t = "a" := by
  obtain ⟨m, hm⟩ := h
  rw [exWaitsA_is.2.1] at hm
  simp only [inQueue, List.flatMap_cons, List.map_cons, List.map_nil, List.flatMap_nil, List.append_nil,
    List.mem_singleton, Prod.mk.injEq] at hm
  exact hm.1

theorem exWaitsA_queues : Queued exWaitsA "a" := ⟨⟨1, 5⟩, by rw [exWaitsA_is.2.1]; simp [inQueue]⟩

/-- **C140** is false: with an election for topic b, the message for topic a is not sent. -/
theorem C140_false : ¬ OthersSent Nat Nat Nat (List (Msg Nat Nat)) := by
  intro h
  obtain ⟨reqs, h1, _⟩ := h exPCfg exAllWell 0 exQueuedA exWaitsA exEnv 5 exMeta exOnlyB 2 exTopicKeyed "a" rfl
    exEnv_honest (fun _ _ => rfl) exWaitsA_is.2.2.2
    (fun t ht => by rw [exWaitsA_queued t ht]; exact exMeta_healthy) exWaitsA_is.2.2.1 exTopicKeyed_chooses
    (fun ms => ⟨ms, rfl⟩) (fun _ => rfl) exWaitsA_queues
  have h2 : ((exWaitsA.step exPCfg (.cluster exOnlyB)).2.step exPCfg (.flush 2 exTopicKeyed)).1 =
      .raised .indexError [] := by decide +kernel
  rw [h2] at h1
  cases h1

/-- What happens to that producer: the metadata come, topic c is not there, and topic a is given up. -/
def exLosesA : List (ProduceEv Nat Nat Nat (List (Msg Nat Nat))) :=
  exQueuedA ++ [.cluster exOnlyB, .found 1 (.ok ()) exTopicKeyed, .flush 2 exTopicKeyed]

theorem exLosesA_is : seenIn exPCfg (idleProducer exAllWell 0) exLosesA =
      [.returned, .heals, .nothing, .returned, .raised .indexError []] ∧
    afterCalls exPCfg (idleProducer exAllWell 0) exLosesA =
      ⟨⟨⟨exOnlyB.conns, [("b", [0]), ("a", [])], exOnlyB.leaders⟩, [], [], false, false, 0⟩, []⟩ := by
  constructor
  · decide +kernel
  · rfl

/-- **C141** is false: topic a is not known to that producer any more, and is not looked up. -/
theorem C141_false : ¬ LooksUp Nat Nat Nat (List (Msg Nat Nat)) := by
  intro h
  have h1 := h exPCfg exAllWell 0 exLosesA _ 3 "a" 8 exTopicKeyed rfl
    (by rw [exLosesA_is.2]; decide) (by rw [exLosesA_is.2]; intro p; rfl) (by rw [exLosesA_is.2])
    (by rw [exLosesA_is.2]; rfl)
  rw [exLosesA_is.2] at h1
  revert h1
  decide +kernel

-- `C140_gone`, `C141_hides`: the message for topic a is gone; `C141_each`: so are all further ones.
example : (afterCalls exPCfg (idleProducer exAllWell 0) exLosesA).producer.unsent = [] ∧
    Hidden (afterCalls exPCfg (idleProducer exAllWell 0) exLosesA) "a" := by
  rw [exLosesA_is.2]
  exact ⟨rfl, fun p => rfl, by decide⟩

example : seenIn { exPCfg with batchSize := 1 } (afterCalls exPCfg (idleProducer exAllWell 0) exLosesA)
    [.produce 3 "a" 8 exTopicKeyed, .produce 4 "a" 9 exTopicKeyed, .produce 5 "b" 10 exTopicKeyed, .produce 6 "a" 10 exTopicKeyed] =
    [.raised .indexError [], .raised .indexError [], .sent [⟨1, 1, [("b", [(0, [⟨0, 10⟩])])]⟩],
      .raised .indexError []] := by
  rw [exLosesA_is.2]
  decide +kernel

-- `C140_loses`: its hypotheses hold of that producer.
example : NeedsLook (Reachable exWaitsA.producer.cluster exMeta) exMeta.topics "b" ∧
    ¬ NeedsLook (Reachable exWaitsA.producer.cluster exMeta) exMeta.topics "a" := by
  constructor
  · exact ⟨⟨0, "b", [⟨5, 0, -1⟩]⟩, by simp [exMeta], rfl, Or.inr ⟨by simp, ⟨5, 0, -1⟩, by simp⟩⟩
  · rintro ⟨x, hx, hn, hx'⟩
    simp only [exMeta, List.mem_cons, List.not_mem_nil, or_false] at hx
    rcases hx with rfl | rfl
    · simp only [exMeta, List.mem_cons, List.not_mem_nil, or_false] at hx'
      rcases hx' with hx' | ⟨_, q, hq, hq'⟩
      · cases hx'
      · rcases hq with rfl | rfl <;> simp [Reachable] at hq'
    · simp at hn

-- `C140_goes_on_partial`: metadata in which all is well.
example : ((exWaitsA.step exPCfg (.cluster exAllWell)).2.step exPCfg (.flush 2 exTopicKeyed)).1 =
    .sent [⟨1, 1, [("a", [(1, [⟨1, 5⟩])])]⟩] := by decide +kernel

-- `C141_fresh_partial`: topic a is looked up as long as no flush has tried to send messages for it.
example : ((exWaitsA.step exPCfg (.cluster exOnlyB)).2.step exPCfg (.produce 2 "a" 7 exTopicKeyed)).1 = .heals := by
  decide +kernel

end Kiel
