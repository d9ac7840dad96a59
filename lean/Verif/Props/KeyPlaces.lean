import Verif.Props.InTurn
import Verif.Props.Heals
import Verif.Props.Cluster
/-
C135: messages with the same key go to the same partition.
-/
set_option autoImplicit false
namespace Kiel
open Spec

variable {α κ β γ : Type}

/-- Partitions are chosen by `f`, from the key and the list of partitions that is offered, whenever it
is called; message sets are such as `read` opens. -/
def Spec.ChosenBy (f : κ → List Int → Res Int) (read : γ → List (Msg κ β)) (e : ProduceEv α κ β γ) :
    Prop :=
  ∀ env, beginsWith e = some env →
    (∀ n k parts, env.pick n k parts = f k parts) ∧ ∀ ms s, env.comp ms = .ok s → read s = ms

/-- The partitions that metadata list for a topic, in order. -/
def Spec.listedIn (m : Metadata) (t : String) : List Int :=
  ((m.topics.filter fun x => x.name = t ∧ x.error ≠ 3 ∧ x.error ≠ 9).flatMap (·.parts)).map (·.id)

theorem prepare_view (pick : Nat → κ → List Int → Res Int) (comp : List (Msg κ β) → Res γ)
    (p : Producer κ β) : SameView p.cluster (p.prepare pick comp).2.cluster := by
  have hq : ∀ (l : List (String × List (Msg κ β))) (q : Producer κ β),
      (l.foldl (fun p e => p.queueRetries e.1 e.2) q).cluster = q.cluster := by
    intro l
    induction l with
    | nil => exact fun _ => rfl
    | cons e l ih => exact fun q => ih _
  unfold Producer.prepare
  split
  · exact SameView.refl _
  · have hv := (routeTopics_ok pick 0 p.unsent.reverse p.cluster p.cluster ⟨[], []⟩
      (SameView.refl _)).1
    split
    · rename_i hr; rw [hr] at hv; exact hv
    · rename_i hr
      rw [hr] at hv
      split
      · exact hv
      · rw [hq]; exact hv

theorem handleParts_cluster (corr : Int) (l : List (String × Int × Int)) (p : Producer κ β) :
    (Producer.handleParts corr l p).2.cluster = p.cluster := by
  have one : ∀ (p : Producer κ β) (t : String) (part code : Int),
      (p.handlePart corr t part code).2.cluster = p.cluster := by
    intro p t part code
    unfold Producer.handlePart
    split
    · rfl
    · split
      · dsimp only
        split <;> rfl
      · split <;> rfl
  induction l generalizing p with
  | nil => rfl
  | cons a l ih =>
    obtain ⟨t, part, code⟩ := a
    have h := one p t part code
    simp only [Producer.handleParts]
    split
    · rename_i hx; rw [hx] at h; exact h
    · rename_i hx; rw [hx] at h; rw [ih]; exact h

theorem handleResponse_cluster (p : Producer κ β) (r : PResp) :
    (p.handleResponse r).2.cluster = p.cluster := by
  unfold Producer.handleResponse
  rw [handleTopics_eq]
  have h := handleParts_cluster r.corr r.answers p
  split
  · rename_i hx; rw [hx] at h; exact h
  · rename_i hx
    rw [hx] at h
    split <;> exact h

/-- What is known of one step: what it sends of topic `t` is where `f` puts it, given the list of
partitions from before the step; that list is the same after it, unless the cluster changes. -/
def Placed (f : κ → List Int → Res Int) (read : γ → List (Msg κ β)) (t : String) (cl : Cluster)
    (x : ProduceOut γ × ProducerBusy α κ β γ) : Prop :=
  (∀ part, ∀ m ∈ inPartition read (handed x.1) t part, f m.key (partitionsOf cl t) = .ok part) ∧
  partitionsOf x.2.producer.cluster t = partitionsOf cl t

theorem flushes_placed {f : κ → List Int → Res Int} {read : γ → List (Msg κ β)}
    {s : ProducerBusy α κ β γ} (hw : WF s.producer) (i : Nat) {env : FlushStart κ β γ}
    (hf : ∀ n k parts, env.pick n k parts = f k parts)
    (hread : ∀ ms x, env.comp ms = .ok x → read x = ms) (stop : Bool) (t : String) :
    Placed f read t s.producer.cluster (s.flushes i env stop) := by
  have hv := prepare_view env.pick env.comp s.producer
  generalize hx : s.flushes i env stop = x
  unfold ProducerBusy.flushes at hx
  split at hx
  · rename_i hp
    rw [hp] at hv
    subst hx
    exact ⟨fun _ m hm => (List.not_mem_nil hm).elim, hv.topics t⟩
  · rename_i hp
    rw [hp] at hv
    subst hx
    refine ⟨fun _ m hm => (List.not_mem_nil hm).elim, ?_⟩
    simp only [ProducerBusy.over]
    split
    · exact hv.topics t
    · exact hv.topics t
  · rename_i reqs p hp
    rw [hp] at hv
    obtain ⟨pl, h1, _, h3, _, _⟩ := C28_routing env.pick env.comp s.producer p reqs hw hp
    have key : ∀ part, ∀ m ∈ inPartition read reqs t part,
        f m.key (partitionsOf s.producer.cluster t) = .ok part := by
      intro part m hm
      simp only [inPartition, List.mem_flatMap] at hm
      obtain ⟨r, hr, e, he, q, hq, hm⟩ := hm
      split at hm
      · rename_i hc
        obtain ⟨rfl, rfl⟩ := hc
        obtain ⟨_, _, hset⟩ := (h3 r.broker e.1 q.1 q.2).1 ⟨r, hr, rfl, e, he, rfl, hq⟩
        rw [hread _ _ hset] at hm
        simp only [placedOn, List.mem_map, List.mem_filter, decide_eq_true_eq] at hm
        obtain ⟨x, ⟨hx, _, ht, hpart⟩, rfl⟩ := hm
        obtain ⟨j, hj, rfl⟩ := List.mem_iff_getElem.1 hx
        have := h1.picked j hj
        rw [hf, ht, hpart] at this
        exact this
      · cases hm
    split at hx <;> subst hx
    · exact ⟨key, hv.topics t⟩
    · exact ⟨key, hv.topics t⟩

theorem step_placed (cfg : PCfg α κ β) {f : κ → List Int → Res Int} {read : γ → List (Msg κ β)}
    {s : ProducerBusy α κ β γ} {e : ProduceEv α κ β γ} (hw : WF s.producer)
    (hk : ChosenBy f read e) (t : String) (hcl : ∀ cl, e ≠ .cluster cl) :
    Placed f read t s.producer.cluster (s.step cfg e) := by
  have same : ∀ (r : ProduceOut γ × ProducerBusy α κ β γ), handed r.1 = [] →
      r.2.producer.cluster.topics = s.producer.cluster.topics →
      Placed f read t s.producer.cluster r := by
    intro r h1 h2
    refine ⟨fun _ m hm => ?_, by unfold partitionsOf; rw [h2]⟩
    rw [h1] at hm
    exact (List.not_mem_nil hm).elim
  have over : ∀ (s' : ProducerBusy α κ β γ) (i : Nat) (stop : Bool),
      s'.producer.cluster = s.producer.cluster →
      Placed f read t s.producer.cluster (s'.over i stop) := by
    intro s' i stop h
    refine same _ rfl ?_
    simp only [ProducerBusy.over]
    split
    · show s'.producer.cluster.topics = _
      rw [h]
    · rw [h]
  have queues : ∀ (i : Nat) (topic : String) (a : α) (env : FlushStart κ β γ),
      (∀ n k parts, env.pick n k parts = f k parts) → (∀ ms x, env.comp ms = .ok x → read x = ms) →
      Placed f read t s.producer.cluster (s.queues cfg i topic a env) := by
    intro i topic a env k1 k2
    obtain ⟨_, _, _, h4, _⟩ := enqueue_others cfg s.producer topic a
    have hw' : WF (s.producer.enqueue cfg topic a).2 := by
      obtain ⟨e1, _, e3, _⟩ := enqueue_others cfg s.producer topic a
      exact ⟨by rw [e3]; exact hw.nodup, by rw [e3, e1]; exact hw.old, by rw [e3]; exact hw.topics⟩
    unfold ProducerBusy.queues
    split
    · rename_i hx
      rw [hx] at h4
      exact same _ rfl (by rw [← h4]; rfl)
    · rename_i p hx
      rw [hx] at h4 hw'
      have := flushes_placed (s := { s with producer := p }) hw' i k1 k2 false t
      rw [h4] at this
      exact this
    · rename_i hx
      rw [hx] at h4
      exact over _ _ _ h4
  cases e with
  | produce k topic a env =>
    obtain ⟨k1, k2⟩ := hk env rfl
    simp only [ProducerBusy.step]
    split
    · exact same _ rfl rfl
    · split
      · exact over _ _ _ rfl
      · split
        · exact queues _ _ _ _ k1 k2
        · exact same _ rfl rfl
  | flush k env =>
    obtain ⟨k1, k2⟩ := hk env rfl
    simp only [ProducerBusy.step]
    split
    · exact same _ rfl rfl
    · exact flushes_placed hw k k1 k2 false t
  | close k env =>
    obtain ⟨k1, k2⟩ := hk env rfl
    simp only [ProducerBusy.step]
    split
    · exact same _ rfl rfl
    · exact flushes_placed (s := { s with producer := { s.producer with closing := true } })
        ⟨hw.nodup, hw.old, hw.topics⟩ k k1 k2 true t
  | found k r env =>
    obtain ⟨k1, k2⟩ := hk env rfl
    simp only [ProducerBusy.step]
    split
    · split
      · exact same _ rfl rfl
      · split
        · exact queues _ _ _ _ k1 k2
        · exact over _ _ _ rfl
    · exact same _ rfl rfl
  | outcome k b r =>
    simp only [ProducerBusy.step]
    split
    · split
      · exact same _ rfl rfl
      · split
        · refine same _ rfl ?_
          simp only
          split <;> rfl
        · rename_i q _ _ topics
          have h := handleResponse_cluster s.producer ⟨q.corr, topics⟩
          split
          · rename_i hx
            rw [hx] at h
            exact same _ rfl (by rw [← h]; rfl)
          · rename_i hx
            rw [hx] at h
            exact same _ rfl (by rw [← h])
    · exact same _ rfl rfl
  | goOn k =>
    simp only [ProducerBusy.step]
    split
    · split
      · exact same _ rfl rfl
      · exact over _ _ _ rfl
    · exact same _ rfl rfl
  | healed k r =>
    simp only [ProducerBusy.step]
    split
    · split
      · exact same _ rfl rfl
      · exact over _ _ _ rfl
    · exact same _ rfl rfl
  | cluster cl => exact absurd rfl (hcl cl)
  | others n => exact same _ rfl rfl

/-- **C135** (partial): in every course of overlapping calls, if the partitioner goes by the key and the
list it is offered, and finds no difference between the lists that the client has for the topic in the
course, each message goes to the partition that it chooses from `ps`. Missing: that these lists are
alike as long as the topic has the same partitions, see `C135_false_order` and
`C135_false_election`. -/
theorem C135_same_partial (cfg : PCfg α κ β) (f : κ → List Int → Res Int)
    (read : γ → List (Msg κ β)) (t : String) (ps : List Int) (cl : Cluster) (n : Int)
    (es : List (ProduceEv α κ β γ)) (hk : ∀ e ∈ es, ChosenBy f read e)
    (h0 : ∀ k, f k (partitionsOf cl t) = f k ps)
    (hcl : ∀ cl', .cluster cl' ∈ es → ∀ k, f k (partitionsOf cl' t) = f k ps) (part : Int) :
    ∀ m ∈ inPartition read (inCourse cfg (fun s e => handed (s.step cfg e).1) (idleProducer cl n) es)
      t part, f m.key ps = .ok part := by
  have key : ∀ (es : List (ProduceEv α κ β γ)) (s : ProducerBusy α κ β γ), CallsWF s →
      (∀ e ∈ es, ChosenBy f read e) → (∀ k, f k (partitionsOf s.producer.cluster t) = f k ps) →
      (∀ cl', .cluster cl' ∈ es → ∀ k, f k (partitionsOf cl' t) = f k ps) →
      ∀ m ∈ inPartition read (inCourse cfg (fun s e => handed (s.step cfg e).1) s es) t part,
        f m.key ps = .ok part := by
    intro es
    induction es with
    | nil => intro s _ _ _ _ m hm; cases hm
    | cons e es ih =>
      intro s hw hk h0 hcl m hm
      have rest : (∀ k, f k (partitionsOf (s.step cfg e).2.producer.cluster t) = f k ps) →
          m ∈ inPartition read (inCourse cfg (fun s e => handed (s.step cfg e).1) (s.step cfg e).2 es)
            t part → f m.key ps = .ok part := fun h hm =>
        ih _ (callsWF_step cfg s e hw) (fun e he => hk e (List.mem_cons_of_mem _ he)) h
          (fun cl' h => hcl cl' (List.mem_cons_of_mem _ h)) m hm
      have split : m ∈ inPartition read (handed (s.step cfg e).1) t part ∨
          m ∈ inPartition read (inCourse cfg (fun s e => handed (s.step cfg e).1) (s.step cfg e).2 es)
            t part := by
        simpa only [inPartition, inCourse, List.flatMap_append, List.mem_append] using hm
      by_cases hc : ∃ cl', e = .cluster cl'
      · obtain ⟨cl', rfl⟩ := hc
        rcases split with hm | hm
        · exact (List.not_mem_nil hm).elim
        · exact rest (hcl cl' (List.mem_cons_self ..)) hm
      · obtain ⟨h1, h2⟩ := step_placed cfg hw.wf (hk e (List.mem_cons_self ..)) t
          (fun cl' h => hc ⟨cl', h⟩)
        rcases split with hm | hm
        · rw [← h0]; exact h1 part m hm
        · exact rest (fun k => by rw [h2]; exact h0 k) hm
  exact key es _ (callsWF_idle cl n) hk h0 hcl

/-- **C135** (partial): hence messages with the same key are in the same partition. -/
theorem C135_keys_partial (cfg : PCfg α κ β) (f : κ → List Int → Res Int)
    (read : γ → List (Msg κ β)) (t : String) (ps : List Int) (cl : Cluster) (n : Int)
    (es : List (ProduceEv α κ β γ)) (hk : ∀ e ∈ es, ChosenBy f read e)
    (h0 : ∀ k, f k (partitionsOf cl t) = f k ps)
    (hcl : ∀ cl', .cluster cl' ∈ es → ∀ k, f k (partitionsOf cl' t) = f k ps) (part part' : Int)
    (m m' : Msg κ β) (hm : m ∈ inPartition read
      (inCourse cfg (fun s e => handed (s.step cfg e).1) (idleProducer cl n) es) t part)
    (hm' : m' ∈ inPartition read
      (inCourse cfg (fun s e => handed (s.step cfg e).1) (idleProducer cl n) es) t part')
    (hkey : m.key = m'.key) : part = part' := by
  have h1 := C135_same_partial cfg f read t ps cl n es hk h0 hcl part m hm
  have h2 := C135_same_partial cfg f read t ps cl n es hk h0 hcl part' m' hm'
  rw [hkey, h2] at h1
  exact (Except.ok.inj h1).symm

/-- **C135**: what the client lists after a `heal()` that returned is what the last answer that it saw
lists, in the order of that answer. -/
theorem C135_listed (env : ClusterEnv) (fuel : Nat) (response : Option Metadata)
    (cl cl' : Cluster) (h : cl.heal env fuel response = (.done (), cl')) :
    ∃ m, (response = some m ∨ ∃ n ts id, env.ask n ts id = .ok m) ∧
      ∀ t, partitionsOf cl' t = listedIn m t := by
  obtain ⟨m, hm, hs⟩ := C22_last_partial env fuel response cl cl' h
  refine ⟨m, hm, fun t => ?_⟩
  rw [hs.topics t]
  unfold usable listedIn
  congr 1
  refine List.filter_eq_self.2 fun p hp => ?_
  simp only [List.mem_flatMap, List.mem_filter, decide_eq_true_eq] at hp
  obtain ⟨x, ⟨hx, hn, h3, h9⟩, hp⟩ := hp
  have := hs.complete t
  simp only [NeedsLook] at this
  push Not at this
  have := (this x hx hn).2 h3 p hp
  simp only [decide_eq_true_eq]
  exact ⟨this.1, this.2⟩

/-! ### Examples -/

/-- The partitioner of docs/clients/producer.rst: `partitions[key % len(partitions)]`. -/
def exModulo (key : Nat) (parts : List Int) : Res Int :=
  match parts[key % parts.length]? with
  | some p => .ok p
  | .none => .error (.other 0)

/-- A partitioner that does not mind the order: partition 0 if there is one. -/
def exZeroFirst (_ : Nat) (parts : List Int) : Res Int :=
  if 0 ∈ parts then .ok 0 else if 1 ∈ parts then .ok 1 else .error (.other 0)

theorem exZeroFirst_any (k : Nat) (a b : List Int) (h : a.Perm b) :
    exZeroFirst k a = exZeroFirst k b := by
  simp only [exZeroFirst, h.mem_iff]

/-- A flush with a partitioner. -/
def exChoosing (f : Nat → List Int → Res Int) : FlushStart Nat Nat (List (Msg Nat Nat)) :=
  ⟨fun _ => f, .ok, fun _ => .none⟩

/-- Broker 7 leads partitions 0 and 1 of topic t, and says so in another order. -/
def exReordered : Metadata := ⟨[⟨7, "h", 9092⟩], [⟨0, "t", [⟨0, 1, 7⟩, ⟨0, 0, 7⟩]⟩]⟩

/-- No broker can be connected to, nor asked. -/
def exNoBrokers : ClusterEnv := ⟨fun _ _ _ => .error .brokerConnection, fun _ _ => some .streamClosed⟩

/-- The cluster after it has learned that. -/
def exOtherOrder : Cluster := (exPCluster.heal exNoBrokers 1 (some exReordered)).2

/-- **C135** is false: the partitions stay the same, but brokers may list them in another order, which
makes the partitioner of the documentation choose another one for the same key. -/
theorem C135_false_order :
    let es : List (ProduceEv Nat Nat Nat (List (Msg Nat Nat))) :=
      [.produce 0 "t" 4 (exChoosing exModulo), .cluster exOtherOrder,
       .produce 1 "t" 6 (exChoosing exModulo)]
    let reqs := inCourse exAtOnce (fun s e => handed (s.step exAtOnce e).1)
      (idleProducer exPCluster 1) es
    exPCluster.heal exNoBrokers 1 (some exReordered) = (.done (), exOtherOrder) ∧
    (partitionsOf exOtherOrder "t").Perm (partitionsOf exPCluster "t") ∧
    (∀ e ∈ es, ChosenBy exModulo id e) ∧
    inPartition id reqs "t" 0 = [⟨0, 4⟩] ∧ inPartition id reqs "t" 1 = [⟨0, 6⟩] := by
  refine ⟨by decide +kernel, by decide +kernel, ?_, by decide +kernel, by decide +kernel⟩
  intro e he env henv
  simp only [List.mem_cons, List.not_mem_nil, or_false] at he
  rcases he with rfl | rfl | rfl <;> cases henv <;>
    exact ⟨fun _ _ _ => rfl, fun ms x h => (Except.ok.inj h).symm⟩

/-- A connection to broker 7, and what the client knows. -/
def exSharedOne : Shared := ⟨[⟨"h", 9092, false⟩], [(7, 0)], [("t", [0, 1])], [("t", [(0, 7), (1, 7)])]⟩

/-- For partition 0, a leader is being elected. -/
def exElecting : Metadata := ⟨[⟨7, "h", 9092⟩], [⟨0, "t", [⟨5, 0, -1⟩, ⟨0, 1, 7⟩]⟩]⟩

/-- Broker 7 leads both. -/
def exElected : Metadata := ⟨[⟨7, "h", 9092⟩], [⟨0, "t", [⟨0, 0, 7⟩, ⟨0, 1, 7⟩]⟩]⟩

/-- While the client waits for more metadata, and afterwards. -/
def exDuring : Healing := ((⟨exSharedOne, []⟩ : Healing).step (.heal 0 exElecting)).2
def exAfterwards : Healing := (exDuring.step (.again 0 exElected)).2

/-- **C135** is false, whatever the order: while `heal()` waits for the election of a leader, other
calls find the partition missing, and the partitioner chooses another one for the same key. -/
theorem C135_false_election :
    let es : List (ProduceEv Nat Nat Nat (List (Msg Nat Nat))) :=
      [.produce 0 "t" 4 (exChoosing exZeroFirst), .cluster exDuring.shared.view,
       .produce 1 "t" 6 (exChoosing exZeroFirst), .cluster exAfterwards.shared.view,
       .produce 2 "t" 8 (exChoosing exZeroFirst)]
    let reqs := inCourse exAtOnce (fun s e => handed (s.step exAtOnce e).1)
      (idleProducer exSharedOne.view 1) es
    ((⟨exSharedOne, []⟩ : Healing).step (.heal 0 exElecting)).1 = .goesOn ∧
    (exDuring.step (.again 0 exElected)).1 = .returned ∧
    listedIn exElecting "t" = [0, 1] ∧ listedIn exElected "t" = [0, 1] ∧
    (∀ k a b, a.Perm b → exZeroFirst k a = exZeroFirst k b) ∧
    (∀ e ∈ es, ChosenBy exZeroFirst id e) ∧
    inPartition id reqs "t" 0 = [⟨0, 4⟩, ⟨0, 8⟩] ∧ inPartition id reqs "t" 1 = [⟨0, 6⟩] := by
  refine ⟨by decide +kernel, by decide +kernel, by decide +kernel, by decide +kernel,
    exZeroFirst_any, ?_, by decide +kernel, by decide +kernel⟩
  intro e he env henv
  simp only [List.mem_cons, List.not_mem_nil, or_false] at he
  rcases he with rfl | rfl | rfl | rfl | rfl <;> cases henv <;>
    exact ⟨fun _ _ _ => rfl, fun ms x h => (Except.ok.inj h).symm⟩

-- Non-vacuity of `C135_same_partial`, `C135_keys_partial` and `C135_listed`: the partitioner that does
-- not mind the order, and the other order.
example :
    let es : List (ProduceEv Nat Nat Nat (List (Msg Nat Nat))) :=
      [.produce 0 "t" 4 (exChoosing exZeroFirst), .cluster exOtherOrder,
       .produce 1 "t" 6 (exChoosing exZeroFirst)]
    (∀ e ∈ es, ChosenBy exZeroFirst id e) ∧
    (∀ cl', .cluster cl' ∈ es → ∀ k, exZeroFirst k (partitionsOf cl' "t") = exZeroFirst k [0, 1]) ∧
    inPartition id (inCourse exAtOnce (fun s e => handed (s.step exAtOnce e).1)
      (idleProducer exPCluster 1) es) "t" 0 = [⟨0, 4⟩, ⟨0, 6⟩] := by
  refine ⟨?_, ?_, by decide +kernel⟩
  · intro e he env henv
    simp only [List.mem_cons, List.not_mem_nil, or_false] at he
    rcases he with rfl | rfl | rfl <;> cases henv <;>
      exact ⟨fun _ _ _ => rfl, fun ms x h => (Except.ok.inj h).symm⟩
  · intro cl' h k
    simp only [List.mem_cons, List.not_mem_nil, or_false, reduceCtorEq, false_or,
      ProduceEv.cluster.injEq] at h
    subst h
    exact exZeroFirst_any _ _ _ (by decide +kernel)

end Kiel
