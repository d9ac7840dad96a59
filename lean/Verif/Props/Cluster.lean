import Verif.Spec.Cluster
import Verif.Lemmas.Cluster
import Mathlib.Tactic.ByContra
/-
C19-C24: the cluster's tables and connections.
-/
set_option autoImplicit false
namespace Kiel
open Spec

/-- **C19**: after `process_topics` a topic lists exactly its usable partitions, in response
order, and a topic without any is not known. -/
theorem C19_topics (cl : Cluster) (topics : List TopicMd) (t : String) :
    (cl.processTopics topics).2.topics.get? t =
      if usable (· ∈ cl.conns.keys) topics t = [] then .none
      else some ((usable (· ∈ cl.conns.keys) topics t).map (·.id)) :=
  (tablesInv_process cl.conns topics).topics t

/-- **C19**: the leader on record for a partition is the one that the metadata gives (the
last one, should a partition be listed twice); nothing else has a leader. -/
theorem C19_leaders (cl : Cluster) (topics : List TopicMd) (t : String) (p : Int) :
    leaderOf (cl.processTopics topics).2 t p =
      ((usable (· ∈ cl.conns.keys) topics t).reverse.find?
        (fun x => decide (x.id = p))).map (·.leader) :=
  (tablesInv_process cl.conns topics).leaders t p

theorem processTopics_conns (cl : Cluster) (topics : List TopicMd) :
    (cl.processTopics topics).2.conns = cl.conns := rfl

/-- **C19**: a listed partition has a leader on record, that leader is a known connection and
the one given by the metadata for that partition; an unlisted one has none. -/
theorem C19_known (cl : Cluster) (topics : List TopicMd) (t : String) (p : Int) :
    let cl' := (cl.processTopics topics).2
    (p ∈ partitionsOf cl' t ↔ ∃ l, leaderOf cl' t p = some l) ∧
    ∀ l, leaderOf cl' t p = some l → l ∈ cl'.conns.keys ∧
      ∃ x ∈ topics, x.name = t ∧ ∃ q ∈ x.parts, q.id = p ∧ q.leader = l := by
  intro cl'
  have hl := C19_leaders cl topics t p
  have ht := C19_topics cl topics t
  have hp : partitionsOf cl' t = (usable (· ∈ cl.conns.keys) topics t).map (·.id) := by
    unfold partitionsOf
    rw [ht]
    split
    · rename_i h; simp [h]
    · simp
  constructor
  · rw [hp, hl]
    constructor
    · intro h
      obtain ⟨q, hq, rfl⟩ := List.mem_map.1 h
      cases hf : (usable (· ∈ cl.conns.keys) topics t).reverse.find?
          (fun x => decide (x.id = q.id)) with
      | none =>
        have := List.find?_eq_none.1 hf q (List.mem_reverse.2 hq)
        simp at this
      | some x => exact ⟨x.leader, rfl⟩
    · rintro ⟨l, h⟩
      simp only [Option.map_eq_some_iff] at h
      obtain ⟨x, hx, rfl⟩ := h
      have h1 := List.mem_of_find?_eq_some hx
      have h2 := List.find?_some hx
      simp only [decide_eq_true_eq] at h2
      exact List.mem_map.2 ⟨x, List.mem_reverse.1 h1, h2⟩
  · intro l h
    rw [hl] at h
    simp only [Option.map_eq_some_iff] at h
    obtain ⟨q, hq, rfl⟩ := h
    have h1 := List.mem_reverse.1 (List.mem_of_find?_eq_some hq)
    have h2 := List.find?_some hq
    simp only [decide_eq_true_eq] at h2
    simp only [usable, List.mem_filter, List.mem_flatMap, decide_eq_true_eq] at h1
    obtain ⟨⟨x, ⟨hx1, hx2⟩, hx3⟩, hx4⟩ := h1
    exact ⟨hx4.2, x, hx1, hx2.1, q, hx3, h2, rfl⟩

/-- **C19**: `get_leader` returns the leader on record, or raises `KeyError`, and never
changes who leads what. -/
theorem C19_getLeader (cl : Cluster) (t : String) (p : Int) :
    (cl.getLeader t p).1 = (match leaderOf cl t p with
      | some l => .ok l
      | .none => .error .keyError) ∧
    ∀ t' p', leaderOf (cl.getLeader t p).2 t' p' = leaderOf cl t' p' := by
  unfold Cluster.getLeader leaderOf
  simp only [getDefault_snd]
  cases h : cl.leaders.get? t with
  | none =>
    simp only [Option.getD_none, Dict.get?, Option.bind_none, getDefault_get?, h, true_and]
    intro t' p'
    split
    · rename_i ht; subst ht; simp [h, Dict.get?]
    · rfl
  | some d =>
    simp only [Option.getD_some, Option.bind_some]
    constructor
    · cases d.get? p <;> rfl
    · intro t' p'
      cases d.get? p <;> simp only [getDefault_get?, h, Option.getD_some] <;>
      · split
        · rename_i ht; subst ht; simp [h]
        · rfl

/-- **C20**: `process_topics` reports exactly the topics that need another look, each once. -/
theorem C20_missing (cl : Cluster) (topics : List TopicMd) :
    (∀ t, t ∈ (cl.processTopics topics).1 ↔ NeedsLook (· ∈ cl.conns.keys) topics t) ∧
    (cl.processTopics topics).1.Nodup :=
  ⟨(tablesInv_process cl.conns topics).missing, (tablesInv_process cl.conns topics).nodup⟩

theorem addBrokers_spec (connect : Nat → Option Exc) (n : Nat) (bs : List BrokerMd)
    (conns : Dict Int CConn) (missing : List Int) :
    let r := addBrokers connect n bs conns missing
    (∀ id c, conns.get? id = some c → r.1.get? id = some c) ∧
    (∀ id c, conns.get? id = .none → r.1.get? id = some c → ∃ k b, bs[k]? = some b ∧
      b.id = id ∧ connect (n + k) = .none ∧ c = ⟨b.host, b.port, false⟩) ∧
    (∀ id, id ∈ r.2 → id ∈ missing ∨ ∃ k b, bs[k]? = some b ∧ b.id = id ∧
      connect (n + k) ≠ .none ∧ conns.get? id = .none) ∧
    (∀ id ∈ missing, id ∈ r.2) ∧
    (∀ k b, bs[k]? = some b → b.id ∈ r.1.keys ∨ (b.id ∈ r.2 ∧ connect (n + k) ≠ .none)) := by
  induction bs generalizing n conns missing with
  | nil => simp [addBrokers]; intro id c h h'; rw [h] at h'; cases h'
  | cons b bs ih =>
    have shift : ∀ k, n + 1 + k = n + (k + 1) := fun k => by omega
    unfold addBrokers
    by_cases hb : conns.has b.id = true
    · rw [if_pos hb]
      obtain ⟨h1, h2, h3, h4, h5⟩ := ih (n + 1) conns missing
      obtain ⟨c0, hc0⟩ : ∃ c, conns.get? b.id = some c := Option.isSome_iff_exists.1 hb
      refine ⟨h1, ?_, ?_, h4, ?_⟩
      · intro id c hn hs
        obtain ⟨k, b', hk⟩ := h2 id c hn hs
        exact ⟨k + 1, b', by simpa [shift] using hk⟩
      · intro id hi
        rcases h3 id hi with h | ⟨k, b', hk⟩
        · exact Or.inl h
        · exact Or.inr ⟨k + 1, b', by simpa [shift] using hk⟩
      · intro k b' hk
        cases k with
        | zero =>
          simp at hk; subst hk
          exact Or.inl (Dict.mem_keys.2 ⟨c0, Dict.mem_of_get? (h1 _ _ hc0)⟩)
        | succ k =>
          rw [List.getElem?_cons_succ] at hk
          simpa [shift] using h5 k b' hk
    · rw [if_neg hb]
      have hb0 : conns.get? b.id = .none := by
        cases h : conns.get? b.id with
        | none => rfl
        | some c => exact absurd (by simp [Dict.has, h]) hb
      cases hc : connect n with
      | none =>
        simp only
        obtain ⟨h1, h2, h3, h4, h5⟩ := ih (n + 1) (conns.set b.id ⟨b.host, b.port, false⟩) missing
        refine ⟨?_, ?_, ?_, h4, ?_⟩
        · intro id c hid
          apply h1
          rw [Dict.get?_set, if_neg]
          · exact hid
          · rintro rfl; rw [hb0] at hid; cases hid
        · intro id c hn hs
          by_cases hid : b.id = id
          · have := h1 id ⟨b.host, b.port, false⟩ (by simp [Dict.get?_set, hid])
            rw [hs] at this
            cases this
            exact ⟨0, b, by simp, hid, hc, rfl⟩
          · obtain ⟨k, b', hk⟩ := h2 id c (by rw [Dict.get?_set, if_neg hid]; exact hn) hs
            exact ⟨k + 1, b', by simpa [shift] using hk⟩
        · intro id hi
          rcases h3 id hi with h | ⟨k, b', hk1, hk2, hk3, hk4⟩
          · exact Or.inl h
          · refine Or.inr ⟨k + 1, b', by simpa using hk1, hk2, by simpa [shift] using hk3, ?_⟩
            rw [Dict.get?_set] at hk4
            split at hk4
            · cases hk4
            · exact hk4
        · intro k b' hk
          cases k with
          | zero =>
            simp at hk; subst hk
            exact Or.inl (Dict.mem_keys.2 ⟨_, Dict.mem_of_get?
              (h1 b.id ⟨b.host, b.port, false⟩ (by simp [Dict.get?_set]))⟩)
          | succ k =>
            rw [List.getElem?_cons_succ] at hk
            simpa [shift] using h5 k b' hk
      | some e =>
        simp only
        obtain ⟨h1, h2, h3, h4, h5⟩ := ih (n + 1) conns (addSet missing b.id)
        refine ⟨h1, ?_, ?_, ?_, ?_⟩
        · intro id c hn hs
          obtain ⟨k, b', hk⟩ := h2 id c hn hs
          exact ⟨k + 1, b', by simpa [shift] using hk⟩
        · intro id hi
          rcases h3 id hi with h | ⟨k, b', hk⟩
          · rcases (mem_addSet _ _ _).1 h with rfl | h
            · exact Or.inr ⟨0, b, by simp, rfl, by simp [hc], hb0⟩
            · exact Or.inl h
          · exact Or.inr ⟨k + 1, b', by simpa [shift] using hk⟩
        · intro id hi
          exact h4 id ((mem_addSet _ _ _).2 (Or.inr hi))
        · intro k b' hk
          cases k with
          | zero =>
            simp at hk; subst hk
            exact Or.inr ⟨h4 _ ((mem_addSet _ _ _).2 (Or.inl rfl)), by simp [hc]⟩
          | succ k =>
            rw [List.getElem?_cons_succ] at hk
            simpa [shift] using h5 k b' hk

theorem abortConn_get? (conns : Dict Int CConn) (id id' : Int) :
    (abortConn conns id).get? id' =
      if id = id' then (conns.get? id').map (fun c => { c with closing := true })
      else conns.get? id' := by
  unfold abortConn
  cases h : conns.get? id with
  | none =>
    simp only
    split
    · rename_i hi; subst hi; simp [h]
    · rfl
  | some c =>
    simp only [Dict.get?_set]
    split
    · rename_i hi; subst hi; simp [h]
    · rfl

theorem abortAll_get? (ids : List Int) (conns : Dict Int CConn) (id : Int) :
    (ids.foldl abortConn conns).get? id =
      if id ∈ ids then (conns.get? id).map (fun c => { c with closing := true })
      else conns.get? id := by
  induction ids generalizing conns with
  | nil => simp
  | cons i ids ih =>
    rw [List.foldl_cons, ih]
    simp only [abortConn_get?, List.mem_cons]
    by_cases h : i = id
    · subst h
      simp only [if_true, true_or]
      split <;> cases conns.get? i <;> simp
    · have h' : ¬ id = i := Ne.symm h
      simp only [if_neg h, h', false_or]

/-- **C21**: every broker of the metadata has a connection afterwards or is reported missing
(having just failed to connect); a connection that existed is kept as it is if its broker is
in the metadata and aborted otherwise; new connections are to the hosts and ports of the
metadata; only brokers that had no connection and failed to connect are reported; the tables
are not touched. -/
theorem C21_brokers (connect : Nat → Option Exc) (cl : Cluster) (brokers : List BrokerMd) :
    let missing := (cl.processBrokers connect brokers).1
    let cl' := (cl.processBrokers connect brokers).2
    (∀ k b, brokers[k]? = some b →
      b.id ∈ cl'.conns.keys ∨ (b.id ∈ missing ∧ connect k ≠ .none)) ∧
    (∀ id c, cl.conns.get? id = some c → cl'.conns.get? id = some
      (if id ∈ brokers.map (·.id) then c else { c with closing := true })) ∧
    (∀ id c, cl.conns.get? id = .none → cl'.conns.get? id = some c →
      ∃ k b, brokers[k]? = some b ∧ b.id = id ∧ connect k = .none ∧
        c = ⟨b.host, b.port, false⟩) ∧
    (∀ id ∈ missing, cl.conns.get? id = .none ∧
      ∃ k b, brokers[k]? = some b ∧ b.id = id ∧ connect k ≠ .none) ∧
    cl'.topics = cl.topics ∧ cl'.leaders = cl.leaders := by
  intro missing cl'
  obtain ⟨h1, h2, h3, h4, h5⟩ := addBrokers_spec connect 0 brokers cl.conns []
  simp only [Nat.zero_add, List.not_mem_nil, false_or] at h2 h3 h5
  have hget : ∀ id, cl'.conns.get? id =
      if id ∈ cl.conns.keys.filter (fun k => decide (k ∉ brokers.map (·.id))) then
        ((addBrokers connect 0 brokers cl.conns []).1.get? id).map
          (fun c => { c with closing := true })
      else (addBrokers connect 0 brokers cl.conns []).1.get? id :=
    fun id => abortAll_get? _ _ id
  refine ⟨?_, ?_, ?_, ?_, rfl, rfl⟩
  · intro k b hk
    rcases h5 k b hk with h | h
    · left
      obtain ⟨c, hc⟩ := Dict.mem_keys.1 h
      cases hg : cl'.conns.get? b.id with
      | some c' => exact Dict.mem_keys.2 ⟨c', Dict.mem_of_get? hg⟩
      | none =>
        rw [hget] at hg
        have hn : (addBrokers connect 0 brokers cl.conns []).1.get? b.id = .none := by
          split at hg
          · simpa using hg
          · exact hg
        exact absurd h (Dict.get?_eq_none.1 hn)
    · exact Or.inr h
  · intro id c hc
    rw [hget, h1 id c hc]
    have hk : id ∈ cl.conns.keys := Dict.mem_keys.2 ⟨c, Dict.mem_of_get? hc⟩
    by_cases hb : id ∈ brokers.map (·.id)
    · rw [if_neg (by simp only [List.mem_filter, decide_eq_true_eq]; exact fun h => h.2 hb),
        if_pos hb]
    · rw [if_pos (by simp only [List.mem_filter, decide_eq_true_eq]; exact ⟨hk, hb⟩), if_neg hb]
      rfl
  · intro id c hn hs
    rw [hget, if_neg] at hs
    · exact h2 id c hn hs
    · simp only [List.mem_filter]
      exact fun h => absurd h.1 (Dict.get?_eq_none.1 hn)
  · intro id hi
    obtain ⟨k, b, h6, h7, h8, h9⟩ := h3 id hi
    exact ⟨h9, k, b, h6, h7, h8⟩

/-- **C24**: the first connection that does not fail with a connection error decides: its
answer is returned, or its error raised. -/
theorem C24_first (ask : Int → Res Metadata) (pre post : Dict Int CConn) (id : Int) (c : CConn)
    (hpre : ∀ e ∈ pre, e.2.closing = true ∨ ask e.1 = .error .streamClosed ∨
      ask e.1 = .error .brokerConnection)
    (hc : c.closing = false) (ha : ask id ≠ .error .streamClosed)
    (hb : ask id ≠ .error .brokerConnection) :
    getMetadata ask (pre ++ (id, c) :: post) = ask id := by
  induction pre with
  | nil =>
    simp only [List.nil_append, getMetadata, hc, Bool.false_eq_true, if_false]
    cases h : ask id with
    | ok m => rfl
    | error e =>
      rw [h] at ha hb
      simp only [ne_eq, Except.error.injEq] at ha hb
      simp [ha, hb]
  | cons e pre ih =>
    obtain ⟨i, c'⟩ := e
    have ih := ih (fun e he => hpre e (List.mem_cons_of_mem _ he))
    rw [List.cons_append]
    unfold getMetadata
    rcases hpre (i, c') (by simp) with h | h | h
    · simp only at h; simp [h, ih]
    · simp only at h
      cases c'.closing <;> simp [h, ih]
    · simp only at h
      cases c'.closing <;> simp [h, ih]

/-- **C24**: if all fail with connection errors (or there are none), `NoBrokersError`. -/
theorem C24_none (ask : Int → Res Metadata) (conns : Dict Int CConn)
    (h : ∀ e ∈ conns, e.2.closing = true ∨ ask e.1 = .error .streamClosed ∨
      ask e.1 = .error .brokerConnection) :
    getMetadata ask conns = .error .noBrokers := by
  induction conns with
  | nil => rfl
  | cons e rest ih =>
    obtain ⟨i, c'⟩ := e
    have ih := ih (fun e he => h e (List.mem_cons_of_mem _ he))
    unfold getMetadata
    rcases h (i, c') (by simp) with h | h | h
    · simp only at h; simp [h, ih]
    · simp only at h
      cases c'.closing <;> simp [h, ih]
    · simp only at h
      cases c'.closing <;> simp [h, ih]

/-- C23 as stated: a bootstrap host that can be connected to and answers is enough. -/
def Spec.AnyHostIsEnough : Prop :=
  ∀ (connect : List Char × Int → Option Exc) (ask : List Char × Int → Res Metadata)
    (hosts : List (List Char)),
    (∃ s ∈ hosts, ∃ h m, parseHost s = .ok h ∧ connect h = .none ∧ ask h = .ok m) →
    ∃ m, bootstrap connect ask hosts = .ok (some m)

/-- **C23** (partial: the first host that can be connected to has to answer): the metadata of
the first host that can be connected to is what `start` heals with. -/
theorem C23_bootstrap_partial (connect : List Char × Int → Option Exc)
    (ask : List Char × Int → Res Metadata) (env : ClusterEnv) (fuel : Nat) (cl : Cluster)
    (pre post : List (List Char)) (s : List Char) (h : List Char × Int) (m : Metadata)
    (hpre : ∀ s ∈ pre, ∃ h, parseHost s = .ok h ∧ connect h ≠ .none)
    (hs : parseHost s = .ok h) (hc : connect h = .none) (ha : ask h = .ok m) :
    cl.start connect ask env fuel (pre ++ s :: post) = cl.heal env fuel (some m) := by
  have : bootstrap connect ask (pre ++ s :: post) = .ok (some m) := by
    induction pre with
    | nil => simp [bootstrap, hs, hc, ha]
    | cons x pre ih =>
      obtain ⟨h', h1, h2⟩ := hpre x (by simp)
      rw [List.cons_append, bootstrap, h1]
      simp only
      cases hx : connect h' with
      | none => exact absurd hx h2
      | some e => exact ih (fun s hs => hpre s (List.mem_cons_of_mem _ hs))
  simp [Cluster.start, this]

/-- **C23**: if no host can be connected to, `NoBrokersError`, and the cluster is unchanged. -/
theorem C23_none (connect : List Char × Int → Option Exc)
    (ask : List Char × Int → Res Metadata) (env : ClusterEnv) (fuel : Nat) (cl : Cluster)
    (hosts : List (List Char))
    (hh : ∀ s ∈ hosts, ∃ h, parseHost s = .ok h ∧ connect h ≠ .none) :
    cl.start connect ask env fuel hosts = (.raised .noBrokers, cl) := by
  have : bootstrap connect ask hosts = .ok .none := by
    induction hosts with
    | nil => rfl
    | cons x pre ih =>
      obtain ⟨h', h1, h2⟩ := hh x (by simp)
      rw [bootstrap, h1]
      simp only
      cases hx : connect h' with
      | none => exact absurd hx h2
      | some e => exact ih (fun s hs => hh s (List.mem_cons_of_mem _ hs))
  simp [Cluster.start, this]

/-- **C23** is false: when the first host that can be connected to fails the metadata
request, `start` raises that error, whatever the other hosts would do. -/
theorem C23_gives_up (connect : List Char × Int → Option Exc)
    (ask : List Char × Int → Res Metadata) (env : ClusterEnv) (fuel : Nat) (cl : Cluster)
    (pre post : List (List Char)) (s : List Char) (h : List Char × Int) (e : Exc)
    (hpre : ∀ s ∈ pre, ∃ h, parseHost s = .ok h ∧ connect h ≠ .none)
    (hs : parseHost s = .ok h) (hc : connect h = .none) (ha : ask h = .error e) :
    cl.start connect ask env fuel (pre ++ s :: post) = (.raised e, cl) := by
  have : bootstrap connect ask (pre ++ s :: post) = .error e := by
    induction pre with
    | nil => simp [bootstrap, hs, hc, ha]
    | cons x pre ih =>
      obtain ⟨h', h1, h2⟩ := hpre x (by simp)
      rw [List.cons_append, bootstrap, h1]
      simp only
      cases hx : connect h' with
      | none => exact absurd hx h2
      | some e => exact ih (fun s hs => hpre s (List.mem_cons_of_mem _ hs))
  simp [Cluster.start, this]

/-- **C23** is false. -/
theorem C23_false : ¬ AnyHostIsEnough := by
  intro h
  obtain ⟨m, hm⟩ := h (fun _ => .none)
    (fun a => if a.1 = ['a'] then .error .brokerConnection else .ok ⟨[], []⟩) [['a'], ['b']]
    ⟨['b'], by simp, (['b'], 9092), ⟨[], []⟩, by decide, rfl, by decide⟩
  revert hm
  have : bootstrap (fun _ => .none)
    (fun a => if a.1 = ['a'] then .error .brokerConnection else .ok ⟨[], []⟩) [['a'], ['b']] =
      .error .brokerConnection := by decide
  rw [this]
  intro h
  cases h

/-- Where the last metadata that `heal` processed comes from. -/
theorem healLoop_done (env : ClusterEnv) (fuel n : Nat) (mc : List Int) (mt : List String)
    (cl cl' : Cluster) (P : Cluster → List Int → List String → Prop)
    (hP : P cl mc mt)
    (hstep : ∀ n ts id m (cl : Cluster), env.ask n ts id = .ok m →
      P (cl.sync (env.connect n) m).2.2 (cl.sync (env.connect n) m).1
        (cl.sync (env.connect n) m).2.1)
    (h : healLoop env fuel n mc mt cl = (.done (), cl')) : P cl' [] [] := by
  induction fuel generalizing n mc mt cl with
  | zero => simp [healLoop] at h
  | succ fuel ih =>
    unfold healLoop at h
    split at h
    · rename_i hm
      obtain ⟨rfl, rfl⟩ := hm
      cases h
      exact hP
    · split at h
      · cases h
      · rename_i m hm
        refine ih _ _ _ _ ?_ h
        have : ∃ id, env.ask n mt id = .ok m := by
          generalize cl.conns = conns at hm
          induction conns with
          | nil => simp [getMetadata] at hm
          | cons e rest ih2 =>
            obtain ⟨i, c⟩ := e
            unfold getMetadata at hm
            split at hm
            · rename_i m' hm'
              cases hm
              split at hm'
              · cases hm'
              · exact ⟨i, hm'⟩
            · split at hm
              · exact ih2 hm
              · cases hm
        obtain ⟨id, hid⟩ := this
        exact hstep n mt id m cl hid

theorem getMetadata_mem {ask : Int → Res Metadata} {conns : Dict Int CConn} {m : Metadata}
    (hm : getMetadata ask conns = .ok m) : ∃ id, ask id = .ok m := by
  induction conns with
  | nil => simp [getMetadata] at hm
  | cons e rest ih2 =>
    obtain ⟨i, c⟩ := e
    unfold getMetadata at hm
    split at hm
    · rename_i m' hm'
      cases hm
      split at hm'
      · cases hm'
      · exact ⟨i, hm'⟩
    · split at hm
      · exact ih2 hm
      · cases hm

/-- The tables and connections are in sync with some metadata. -/
structure Spec.InSync (cl : Cluster) (m : Metadata) : Prop where
  brokers : ∀ b ∈ m.brokers, b.id ∈ cl.conns.keys
  topics : ∀ t, partitionsOf cl t = (usable (· ∈ cl.conns.keys) m.topics t).map (·.id)
  leaders : ∀ t p, leaderOf cl t p = ((usable (· ∈ cl.conns.keys) m.topics t).reverse.find?
        (fun x => decide (x.id = p))).map (·.leader)
  complete : ∀ t, ¬ NeedsLook (· ∈ cl.conns.keys) m.topics t

theorem sync_inSync (connect : Nat → Option Exc) (cl : Cluster) (m : Metadata)
    (h1 : (cl.sync connect m).1 = []) (h2 : (cl.sync connect m).2.1 = []) :
    InSync (cl.sync connect m).2.2 m := by
  have hb := C21_brokers connect cl m.brokers
  simp only [Cluster.sync] at h1 h2 ⊢
  generalize hcl : (cl.processBrokers connect m.brokers).2 = cl1 at *
  have ht := fun t => C19_topics cl1 m.topics t
  refine ⟨?_, ?_, C19_leaders cl1 m.topics, ?_⟩
  · intro b hbm
    obtain ⟨k, hk⟩ := List.getElem?_of_mem hbm
    rcases hb.1 k b hk with h | h
    · exact h
    · rw [h1] at h; exact absurd h.1 (by simp)
  · intro t
    have key : partitionsOf (cl1.processTopics m.topics).2 t =
        (usable (· ∈ cl1.conns.keys) m.topics t).map (·.id) := by
      unfold partitionsOf
      rw [ht t]
      split
      · rename_i h; rw [h]; rfl
      · rfl
    exact key
  · intro t hn
    have := ((C20_missing cl1 m.topics).1 t).2 hn
    rw [h2] at this
    simp at this

/-- **C22** (partial): when `heal` returns, the cluster is in sync with the last metadata it
saw: the given response, or an answer of a broker. What is missing: that metadata may be
about some topics only. -/
theorem C22_last_partial (env : ClusterEnv) (fuel : Nat) (response : Option Metadata)
    (cl cl' : Cluster) (h : cl.heal env fuel response = (.done (), cl')) :
    ∃ m, (response = some m ∨ ∃ n ts id, env.ask n ts id = .ok m) ∧ InSync cl' m := by
  let P : Cluster → List Int → List String → Prop := fun cl mc mt =>
    ∃ m, (response = some m ∨ ∃ n ts id, env.ask n ts id = .ok m) ∧
      ∃ n cl0, cl = (Cluster.sync (env.connect n) cl0 m).2.2 ∧
        mc = (Cluster.sync (env.connect n) cl0 m).1 ∧
        mt = (Cluster.sync (env.connect n) cl0 m).2.1
  have fin : P cl' [] [] → ∃ m, (response = some m ∨ ∃ n ts id, env.ask n ts id = .ok m) ∧
      InSync cl' m := by
    rintro ⟨m, hm, n, cl0, rfl, h2, h3⟩
    exact ⟨m, hm, sync_inSync _ _ _ h2.symm h3.symm⟩
  have step : ∀ n ts id m (cl : Cluster), env.ask n ts id = .ok m →
      P (cl.sync (env.connect n) m).2.2 (cl.sync (env.connect n) m).1
        (cl.sync (env.connect n) m).2.1 :=
    fun n ts id m cl hm => ⟨m, Or.inr ⟨n, ts, id, hm⟩, n, cl, rfl, rfl, rfl⟩
  apply fin
  unfold Cluster.heal at h
  simp only at h
  split at h
  · cases h
  · rename_i m hm
    refine healLoop_done env fuel 1 _ _ _ cl' P ?_ step h
    refine ⟨m, ?_, 0, cl.cull, rfl, rfl, rfl⟩
    cases response with
    | some m' => simp only [Except.ok.injEq] at hm; exact Or.inl (by rw [hm])
    | none =>
      obtain ⟨id, hid⟩ := getMetadata_mem hm
      exact Or.inr ⟨0, [], id, hid⟩

theorem missing_nil (connect : Nat → Option Exc) (hc : ∀ k, connect k = .none) (cl : Cluster)
    (m : Metadata) : (cl.sync connect m).1 = [] := by
  rw [List.eq_nil_iff_forall_not_mem]
  intro id hid
  obtain ⟨_, k, b, _, _, h⟩ := (C21_brokers connect cl m.brokers).2.2.2.1 id hid
  exact h (hc k)

/-- The brokers with a connection after the first round of a `heal` in which none fails. -/
theorem culled_keys (connect : Nat → Option Exc) (hc : ∀ k, connect k = .none) (cl : Cluster)
    (m : Metadata) (id : Int) :
    id ∈ (cl.cull.processBrokers connect m.brokers).2.conns.keys ↔ Reachable cl m id := by
  obtain ⟨h1, h2, h3, _⟩ := C21_brokers connect cl.cull m.brokers
  have hmem : ∀ c, (id, c) ∈ cl.cull.conns ↔ (id, c) ∈ cl.conns ∧ c.closing = false := by
    intro c; simp [Cluster.cull]
  constructor
  · intro hid
    cases hg : (cl.cull.processBrokers connect m.brokers).2.conns.get? id with
    | none => exact absurd hid (Dict.get?_eq_none.1 hg)
    | some c =>
      cases h0 : cl.cull.conns.get? id with
      | some c0 => exact .inr ⟨c0, (hmem c0).1 (Dict.mem_of_get? h0)⟩
      | none =>
        obtain ⟨k, b, h4, rfl, _⟩ := h3 id c h0 hg
        exact .inl (List.mem_map.2 ⟨b, List.mem_of_getElem? h4, rfl⟩)
  · rintro (hid | ⟨c, hm⟩)
    · obtain ⟨b, hb, rfl⟩ := List.mem_map.1 hid
      obtain ⟨k, hk⟩ := List.getElem?_of_mem hb
      rcases h1 k b hk with h | h
      · exact h
      · exact absurd (hc k) h.2
    · have hk : id ∈ cl.cull.conns.keys := Dict.mem_keys.2 ⟨c, (hmem c).2 hm⟩
      cases h0 : cl.cull.conns.get? id with
      | none => exact absurd hk (Dict.get?_eq_none.1 h0)
      | some c0 => exact Dict.mem_keys.2 ⟨_, Dict.mem_of_get? (h2 id c0 h0)⟩

theorem NeedsLook.congr {p q : Int → Prop} (h : ∀ x, p x ↔ q x) (topics : List TopicMd)
    (t : String) : NeedsLook p topics t ↔ NeedsLook q topics t := by
  unfold NeedsLook
  simp only [h]

/-- **C22** (partial): if no connection fails and the metadata given to `heal` leaves no topic
for another look, `heal` returns with the cluster in sync with that very metadata. -/
theorem C22_clean_partial (env : ClusterEnv) (fuel : Nat) (m : Metadata) (cl : Cluster)
    (hc : ∀ k, env.connect 0 k = .none) (ht : ∀ t, ¬ NeedsLook (Reachable cl m) m.topics t) :
    ∃ cl', cl.heal env (fuel + 1) (some m) = (.done (), cl') ∧ InSync cl' m := by
  have h1 := missing_nil (env.connect 0) hc cl.cull m
  have h2 : (cl.cull.sync (env.connect 0) m).2.1 = [] := by
    rw [List.eq_nil_iff_forall_not_mem]
    intro t h
    exact ht t ((NeedsLook.congr (culled_keys _ hc cl m) _ _).1 (((C20_missing _ _).1 t).1 h))
  exact ⟨_, by simp only [Cluster.heal, h1, h2, healLoop, and_self, if_true],
    sync_inSync _ _ _ h1 h2⟩

theorem sync_topics (connect : Nat → Option Exc) (cl : Cluster) (m : Metadata) (t : String)
    (h : partitionsOf (cl.sync connect m).2.2 t ≠ [] ∨ t ∈ (cl.sync connect m).2.1) :
    ∃ x ∈ m.topics, x.name = t := by
  rcases h with h | h
  · simp only [Cluster.sync, partitionsOf] at h
    rw [C19_topics] at h
    split at h
    · simp at h
    · rename_i hu
      obtain ⟨p, hp⟩ := List.exists_mem_of_ne_nil _ hu
      simp only [usable, List.mem_filter, List.mem_flatMap, decide_eq_true_eq] at hp
      obtain ⟨⟨x, ⟨hx1, hx2⟩, _⟩, _⟩ := hp
      exact ⟨x, hx1, hx2.1⟩
  · obtain ⟨x, h1, h2, _⟩ := ((C20_missing _ _).1 t).1 h
    exact ⟨x, h1, h2⟩

theorem healLoop_loses (env : ClusterEnv) (hon : Honest env)
    (hconn : ∀ n k, env.connect n k = .none) (M : List String) (fuel n : Nat)
    (mt : List String) (cl cl' : Cluster) (hM : ∀ t ∈ mt, t ∈ M)
    (hinv : mt ≠ [] ∨ ∀ t, partitionsOf cl t ≠ [] → t ∈ M)
    (h : healLoop env fuel n [] mt cl = (.done (), cl')) :
    ∀ t, partitionsOf cl' t ≠ [] → t ∈ M := by
  induction fuel generalizing n mt cl with
  | zero => simp [healLoop] at h
  | succ fuel ih =>
    unfold healLoop at h
    split at h
    · rename_i hm
      cases h
      rcases hinv with h1 | h1
      · exact absurd hm.2 h1
      · exact h1
    · rename_i hne
      split at h
      · cases h
      · rename_i m hm
        simp only [missing_nil (env.connect n) (hconn n)] at h
        obtain ⟨id, hid⟩ := getMetadata_mem hm
        have hmt : mt ≠ [] := fun h0 => hne ⟨rfl, h0⟩
        have hnames := hon n mt id m hid hmt
        refine ih _ _ _ ?_ (Or.inr ?_) h
        · intro t ht
          obtain ⟨x, hx, rfl⟩ := sync_topics _ _ _ t (Or.inr ht)
          exact hM _ (hnames x hx)
        · intro t ht
          obtain ⟨x, hx, rfl⟩ := sync_topics _ _ _ t (Or.inl ht)
          exact hM _ (hnames x hx)

/-- C22 as stated, for a `heal` without connection failures: topics healthy in the metadata
are known afterwards. -/
def Spec.HealKeepsHealthy : Prop :=
  ∀ (env : ClusterEnv) (fuel : Nat) (m : Metadata) (cl cl' : Cluster), Honest env →
    (∀ n k, env.connect n k = .none) → cl.heal env fuel (some m) = (.done (), cl') →
    ∀ t, Healthy m t → partitionsOf cl' t ≠ []

/-- **C22** is false in general: with brokers that answer for the topics asked for, whenever
one topic needs another look, `heal` returns knowing none of the topics that did not, however
healthy they are. -/
theorem C22_loses (env : ClusterEnv) (fuel : Nat) (m : Metadata) (cl cl' : Cluster)
    (hon : Honest env) (hconn : ∀ n k, env.connect n k = .none)
    (h : cl.heal env fuel (some m) = (.done (), cl'))
    (t0 : String) (h0 : NeedsLook (Reachable cl m) m.topics t0) :
    ∀ t, ¬ NeedsLook (Reachable cl m) m.topics t → partitionsOf cl' t = [] := by
  intro t ht
  unfold Cluster.heal at h
  simp only [missing_nil (env.connect 0) (hconn 0)] at h
  by_contra hne
  have hmt : ∀ t, t ∈ (cl.cull.sync (env.connect 0) m).2.1 ↔
      NeedsLook (Reachable cl m) m.topics t :=
    fun t => ((C20_missing _ _).1 t).trans (NeedsLook.congr (culled_keys _ (hconn 0) cl m) _ _)
  have := healLoop_loses env hon hconn (cl.cull.sync (env.connect 0) m).2.1 fuel 1 _ _ cl'
    (fun t h => h) (Or.inl (List.ne_nil_of_mem ((hmt t0).2 h0))) h t hne
  exact ht ((hmt t).1 this)

/-! ### Examples -/

/-- One broker; topic "a" is fine, "b" has an election under way. -/
def exMeta : Metadata :=
  ⟨[⟨1, "h", 9⟩], [⟨0, "a", [⟨0, 0, 1⟩, ⟨0, 1, 1⟩]⟩, ⟨0, "b", [⟨5, 0, -1⟩]⟩]⟩
/-- Asked for "b" it has settled; asked for everything, everything is fine. -/
def exEnv : ClusterEnv :=
  ⟨fun _ ts _ => .ok ⟨[⟨1, "h", 9⟩],
    [⟨0, "a", [⟨0, 0, 1⟩, ⟨0, 1, 1⟩]⟩, ⟨0, "b", [⟨0, 0, 1⟩]⟩].filter
      (fun x => ts = [] ∨ x.name ∈ ts)⟩, fun _ _ => .none⟩

theorem exEnv_honest : Honest exEnv := by
  intro n ts id m h hts x hx
  simp only [exEnv, Except.ok.injEq] at h
  subst h
  simp only [List.mem_filter, decide_eq_true_eq] at hx
  rcases hx.2 with h | h
  · exact absurd h hts
  · exact h

theorem exMeta_healthy : Healthy exMeta "a" := by
  constructor
  · exact ⟨⟨0, "a", [⟨0, 0, 1⟩, ⟨0, 1, 1⟩]⟩, by simp [exMeta], rfl⟩
  · intro x hx ht
    simp only [exMeta, List.mem_cons, List.not_mem_nil, or_false] at hx
    rcases hx with rfl | rfl
    · simp [exMeta]
    · simp at ht

/-- What happens: only "b" is known in the end. -/
theorem exHeal : Cluster.new.heal exEnv 5 (some exMeta) =
    (.done (), ⟨[(1, ⟨"h", 9, false⟩)], [("b", [0])], [("b", [(0, 1)])]⟩) := by decide +kernel

/-- **C22** is false. -/
theorem C22_false : ¬ HealKeepsHealthy := by
  intro h
  exact h exEnv 5 exMeta Cluster.new _ exEnv_honest (fun _ _ => rfl) exHeal "a" exMeta_healthy
    (by decide)

-- Non-vacuity of C22_loses.
example : NeedsLook (Reachable Cluster.new exMeta) exMeta.topics "b" :=
  ⟨⟨0, "b", [⟨5, 0, -1⟩]⟩, by simp [exMeta], rfl, Or.inr ⟨by simp, ⟨5, 0, -1⟩, by simp⟩⟩
-- Non-vacuity of C19-C21: tables, missing topics, aborted and failed brokers.
example : (Cluster.mk [(1, ⟨"h", 9, false⟩)] [("z", [7])] []).processTopics exMeta.topics =
    (["b"], ⟨[(1, ⟨"h", 9, false⟩)], [("a", [0, 1])], [("a", [(0, 1), (1, 1)])]⟩) := by
  decide +kernel
example : (Cluster.mk [(1, ⟨"h", 9, false⟩), (2, ⟨"i", 9, false⟩)] [] []).processBrokers
    (fun k => if k = 2 then some .streamClosed else .none)
    [⟨1, "h", 9⟩, ⟨3, "j", 9⟩, ⟨4, "k", 9⟩] =
    ([4], ⟨[(1, ⟨"h", 9, false⟩), (2, ⟨"i", 9, true⟩), (3, ⟨"j", 9, false⟩)], [], []⟩) := by
  decide +kernel
-- Non-vacuity of C22_clean_partial: a new cluster, a healthy topic.
example : ∀ t, ¬ NeedsLook (Reachable Cluster.new ⟨[⟨1, "h", 9⟩], [⟨0, "a", [⟨0, 0, 1⟩]⟩]⟩)
    [⟨0, "a", [⟨0, 0, 1⟩]⟩] t := by
  rintro t ⟨x, hx, rfl, h⟩
  simp only [List.mem_singleton] at hx
  subst hx
  revert h
  simp [Reachable]
example : Cluster.new.heal ⟨fun _ _ _ => .error .noBrokers, fun _ _ => .none⟩ 1
    (some ⟨[⟨1, "h", 9⟩], [⟨0, "a", [⟨0, 0, 1⟩]⟩]⟩) =
    (.done (), ⟨[(1, ⟨"h", 9, false⟩)], [("a", [0])], [("a", [(0, 1)])]⟩) := by decide +kernel
-- Non-vacuity of C23: the first host is down, the second answers.
example : parseHost ['a', ':', '9', '1'] = .ok (['a'], 91) := by decide
example : parseHost ['a', ':', '9', ':', '1'] = .error .valueError := by decide
example : parseHost "a: +9_1".toList = .ok (['a'], 91) := by decide +kernel
example : parseHost "a:9__1".toList = .error .valueError := by decide +kernel
example : bootstrap (fun h => if h.2 = 91 then some (.other 0) else .none)
    (fun _ => .ok ⟨[], []⟩) [['a', ':', '9', '1'], ['b']] = .ok (some ⟨[], []⟩) := by decide
-- Non-vacuity of C24.
example : getMetadata (fun i => if i = 2 then .error .streamClosed else .ok exMeta)
    [(1, ⟨"a", 1, true⟩), (2, ⟨"b", 1, false⟩), (3, ⟨"c", 1, false⟩)] = .ok exMeta := by decide

end Kiel
