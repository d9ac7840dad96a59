import Verif.Props.Cluster
/-
C91: how long healing takes.
-/
set_option autoImplicit false
namespace Kiel
open Spec

/-- The metadata that a `heal` may get to see: those it is given, and the answers to requests
about all topics or about some that include those of interest. -/
def Spec.MayBeSeen (env : ClusterEnv) (response : Option Metadata) (of : List String → Prop)
    (m : Metadata) : Prop :=
  response = some m ∨ ∃ n ts id, of ts ∧ env.ask n ts id = .ok m

theorem NeedsLook.mono {p q : Int → Prop} (h : ∀ x, q x → p x) {topics : List TopicMd}
    {t : String} (hn : NeedsLook p topics t) : NeedsLook q topics t := by
  unfold NeedsLook at hn ⊢
  grind

/-- After a round in which every listed broker can be connected to and no topic needs another
look, nothing is missing. -/
theorem sync_settled (connect : Nat → Option Exc) (cl : Cluster) (m : Metadata)
    (hc : ∀ j, connect j = .none)
    (ht : ∀ t, ¬ NeedsLook (· ∈ m.brokers.map (·.id)) m.topics t) :
    (cl.sync connect m).1 = [] ∧ (cl.sync connect m).2.1 = [] := by
  refine ⟨missing_nil connect hc cl m, ?_⟩
  rw [List.eq_nil_iff_forall_not_mem]
  intro t h
  refine ht t (NeedsLook.mono ?_ (((C20_missing _ _).1 t).1 h))
  intro x hx
  obtain ⟨b, hb, rfl⟩ := List.mem_map.1 hx
  obtain ⟨k, hk⟩ := List.getElem?_of_mem hb
  rcases (C21_brokers connect cl m.brokers).1 k b hk with h | h
  · exact h
  · exact absurd (hc k) h.2

theorem healLoop_ends (env : ClusterEnv) (k : Nat)
    (hconn : ∀ n, k ≤ n → ∀ j, env.connect n j = .none)
    (hok : ∀ n, k ≤ n → ∀ ts id m, env.ask n ts id = .ok m →
      ∀ t, ¬ NeedsLook (· ∈ m.brokers.map (·.id)) m.topics t)
    (fuel n : Nat) (mc : List Int) (mt : List String) (cl : Cluster)
    (hf : k + 2 ≤ fuel + n) (hf2 : 2 ≤ fuel) :
    (healLoop env fuel n mc mt cl).1 ≠ .running := by
  induction fuel generalizing n mc mt cl with
  | zero => omega
  | succ fuel ih =>
    unfold healLoop
    split
    · simp
    · split
      · simp
      · rename_i m hm
        obtain ⟨id, hid⟩ := getMetadata_mem hm
        by_cases hk : k ≤ n
        · obtain ⟨h1, h2⟩ := sync_settled (env.connect n) cl m (hconn n hk) (hok n hk mt id m hid)
          have : 1 ≤ fuel := by omega
          obtain ⟨f, rfl⟩ : ∃ f, fuel = f + 1 := ⟨fuel - 1, by omega⟩
          simp only [h1, h2]
          unfold healLoop
          simp
        · exact ih _ _ _ _ (by omega) (by omega)

/-- **C91**: if, from round `k` on, every broker can be connected to and no answer leaves a
topic for another look, healing is over after `k + 2` rounds at the latest. -/
theorem C91_ends (env : ClusterEnv) (k : Nat) (response : Option Metadata) (cl : Cluster)
    (hconn : ∀ n, k ≤ n → ∀ j, env.connect n j = .none)
    (hok : ∀ n, k ≤ n → ∀ ts id m, env.ask n ts id = .ok m →
      ∀ t, ¬ NeedsLook (· ∈ m.brokers.map (·.id)) m.topics t)
    (fuel : Nat) (hf : k + 2 ≤ fuel) :
    (cl.heal env fuel response).1 ≠ .running := by
  unfold Cluster.heal
  simp only
  split
  · simp
  · exact healLoop_ends env k hconn hok fuel 1 _ _ _ (by omega) (by omega)

/-- There is an open connection to the broker. -/
def Spec.OpenTo (cl : Cluster) (b : Int) : Prop :=
  ∃ c, cl.conns.get? b = some c ∧ c.closing = false

theorem getMetadata_answers (ask : Int → Res Metadata) (conns : Dict Int CConn) (b : Int)
    (c : CConn) (hm : (b, c) ∈ conns) (hc : c.closing = false)
    (hb : ∃ m, ask b = .ok m)
    (hall : ∀ id e, ask id = .error e → e = .streamClosed ∨ e = .brokerConnection) :
    ∃ m, getMetadata ask conns = .ok m := by
  induction conns with
  | nil => cases hm
  | cons x rest ih =>
    obtain ⟨i, d⟩ := x
    unfold getMetadata
    rcases List.mem_cons.1 hm with h | h
    · cases h
      obtain ⟨m, hm'⟩ := hb
      exact ⟨m, by simp [hc, hm']⟩
    · obtain ⟨m', hm'⟩ := ih h
      cases hd : d.closing with
      | true => exact ⟨m', by simp [hm']⟩
      | false =>
        cases ha : ask i with
        | ok m => exact ⟨m, by simp⟩
        | error e => exact ⟨m', by simp [hall i e ha, hm']⟩

theorem sync_open (connect : Nat → Option Exc) (cl : Cluster) (m : Metadata) (b : Int)
    (hl : ∃ x ∈ m.brokers, x.id = b)
    (hx : ∀ j x, m.brokers[j]? = some x → x.id = b → connect j = .none)
    (ho : ∀ c, cl.conns.get? b = some c → c.closing = false) :
    OpenTo (cl.sync connect m).2.2 b := by
  obtain ⟨h1, h2, h3, _⟩ := C21_brokers connect cl m.brokers
  obtain ⟨x, hxm, rfl⟩ := hl
  obtain ⟨j, hj⟩ := List.getElem?_of_mem hxm
  have key : ∀ c, (cl.processBrokers connect m.brokers).2.conns.get? x.id = some c →
      c.closing = false := by
    intro c hc
    cases h0 : cl.conns.get? x.id with
    | none =>
      obtain ⟨_, _, _, _, _, rfl⟩ := h3 _ c h0 hc
      rfl
    | some c0 =>
      have := h2 _ c0 h0
      rw [if_pos (List.mem_map.2 ⟨x, hxm, rfl⟩), hc] at this
      cases this
      exact ho c h0
  rcases h1 j x hj with h | h
  · cases hg : (cl.processBrokers connect m.brokers).2.conns.get? x.id with
    | none => exact absurd h (Dict.get?_eq_none.1 hg)
    | some c => exact ⟨c, hg, key c hg⟩
  · exact absurd (hx j x hj rfl) h.2

theorem cull_open (cl : Cluster) (b : Int) (c : CConn) (h : cl.cull.conns.get? b = some c) :
    c.closing = false := by
  have := Dict.mem_of_get? h
  simp only [Cluster.cull, List.mem_filter, Bool.not_eq_true'] at this
  exact this.2

theorem healLoop_answered (env : ClusterEnv) (b : Int)
    (hl : ∀ n ts id m, env.ask n ts id = .ok m → ∃ x ∈ m.brokers, x.id = b)
    (hx : ∀ n ts id m j x, env.ask n ts id = .ok m → m.brokers[j]? = some x → x.id = b →
      env.connect n j = .none)
    (hb : ∀ n ts, ∃ m, env.ask n ts b = .ok m)
    (hall : ∀ n ts id e, env.ask n ts id = .error e → e = .streamClosed ∨ e = .brokerConnection)
    (fuel n : Nat) (mc : List Int) (mt : List String) (cl : Cluster) (ho : OpenTo cl b)
    (e : Exc) : (healLoop env fuel n mc mt cl).1 ≠ .raised e := by
  induction fuel generalizing n mc mt cl with
  | zero => simp [healLoop]
  | succ fuel ih =>
    obtain ⟨c, hc, hcc⟩ := ho
    obtain ⟨m, hm⟩ := getMetadata_answers (env.ask n mt) cl.conns b c (Dict.mem_of_get? hc) hcc
      (hb n mt) (hall n mt)
    unfold healLoop
    split
    · simp
    · rw [hm]
      simp only
      obtain ⟨id, hid⟩ := getMetadata_mem hm
      apply ih
      refine sync_open _ _ _ _ (hl _ _ _ _ hid) (fun j x => hx _ _ _ _ j x hid) ?_
      intro c' hc'
      rw [hc] at hc'
      cases hc'
      exact hcc

/-- **C91**: if moreover some broker is listed in all metadata, can always be connected to and
answers all requests, and the others fail at most by being disconnected, `heal` returns -
in sync with the last metadata it saw. -/
theorem C91_returns (env : ClusterEnv) (k : Nat) (response : Option Metadata) (cl : Cluster)
    (hconn : ∀ n, k ≤ n → ∀ j, env.connect n j = .none)
    (hok : ∀ n, k ≤ n → ∀ ts id m, env.ask n ts id = .ok m →
      ∀ t, ¬ NeedsLook (· ∈ m.brokers.map (·.id)) m.topics t)
    (b : Int)
    (hl : ∀ m, MayBeSeen env response (fun _ => True) m → ∃ x ∈ m.brokers, x.id = b)
    (hx : ∀ n m j x, MayBeSeen env response (fun _ => True) m → m.brokers[j]? = some x → x.id = b →
      env.connect n j = .none)
    (hb : ∀ n ts, ∃ m, env.ask n ts b = .ok m)
    (hall : ∀ n ts id e, env.ask n ts id = .error e → e = .streamClosed ∨ e = .brokerConnection)
    (ho : response = .none → OpenTo cl b)
    (fuel : Nat) (hf : k + 2 ≤ fuel) :
    ∃ cl' m, cl.heal env fuel response = (.done (), cl') ∧
      MayBeSeen env response (fun _ => True) m ∧ InSync cl' m := by
  have hs : ∀ n ts id m, env.ask n ts id = .ok m → MayBeSeen env response (fun _ => True) m :=
    fun n ts id m h => .inr ⟨n, ts, id, trivial, h⟩
  have h1 := C91_ends env k response cl hconn hok fuel hf
  have h2 : ∀ e, (cl.heal env fuel response).1 ≠ .raised e := by
    intro e
    unfold Cluster.heal
    simp only
    split
    · rename_i e' h
      exfalso
      cases response with
      | some m => cases h
      | none =>
        obtain ⟨c, hc, hcc⟩ := ho rfl
        obtain ⟨m, hm⟩ := getMetadata_answers (env.ask 0 []) cl.conns b c (Dict.mem_of_get? hc)
          hcc (hb 0 []) (hall 0 [])
        simp only [hm] at h
        cases h
    · rename_i m h
      have hseen : MayBeSeen env response (fun _ => True) m := by
        cases response with
        | some m' => cases h; exact .inl rfl
        | none =>
          obtain ⟨id, hid⟩ := getMetadata_mem h
          exact hs _ _ _ _ hid
      exact healLoop_answered env b (fun n ts id m h => hl m (hs n ts id m h))
        (fun n ts id m j x h => hx n m j x (hs n ts id m h)) hb hall fuel 1 _ _ _
        (sync_open _ _ _ _ (hl m hseen) (fun j x => hx 0 m j x hseen) (cull_open cl b)) e
  cases hr : cl.heal env fuel response with
  | mk r cl' =>
    rw [hr] at h1 h2
    cases r with
    | running => exact absurd rfl h1
    | raised e => exact absurd rfl (h2 e)
    | done u =>
      obtain ⟨m, hm, hi⟩ := C22_last_partial env fuel response cl cl' hr
      exact ⟨cl', m, rfl, hm.imp id (fun ⟨n, ts, i, h⟩ => ⟨n, ts, i, trivial, h⟩), hi⟩

/-! ### Healing does not end while something is missing -/

theorem sync_unreachable (connect : Nat → Option Exc) (cl : Cluster) (m : Metadata) (b : Int)
    (h0 : b ∉ cl.conns.keys) (hl : ∃ x ∈ m.brokers, x.id = b)
    (hx : ∀ j x, m.brokers[j]? = some x → x.id = b → connect j ≠ .none) :
    b ∉ (cl.sync connect m).2.2.conns.keys ∧ b ∈ (cl.sync connect m).1 := by
  obtain ⟨h1, h2, h3, _⟩ := C21_brokers connect cl m.brokers
  have hn : cl.conns.get? b = .none := Dict.get?_eq_none.2 h0
  have key : b ∉ (cl.processBrokers connect m.brokers).2.conns.keys := by
    intro h
    cases hg : (cl.processBrokers connect m.brokers).2.conns.get? b with
    | none => exact absurd h (Dict.get?_eq_none.1 hg)
    | some c =>
      obtain ⟨j, x, hj, hxb, hc, _⟩ := h3 b c hn hg
      exact hx j x hj hxb hc
  refine ⟨key, ?_⟩
  obtain ⟨x, hxm, rfl⟩ := hl
  obtain ⟨j, hj⟩ := List.getElem?_of_mem hxm
  rcases h1 j x hj with h | h
  · exact absurd h key
  · exact h.1

theorem healLoop_unreachable (env : ClusterEnv) (b : Int)
    (hl : ∀ n ts id m, env.ask n ts id = .ok m → ∃ x ∈ m.brokers, x.id = b)
    (hx : ∀ n ts id m j x, env.ask n ts id = .ok m → m.brokers[j]? = some x → x.id = b →
      env.connect n j ≠ .none)
    (fuel n : Nat) (mc : List Int) (mt : List String) (cl : Cluster)
    (h0 : b ∉ cl.conns.keys) (hm : b ∈ mc) :
    (healLoop env fuel n mc mt cl).1 ≠ .done () := by
  induction fuel generalizing n mc mt cl with
  | zero => simp [healLoop]
  | succ fuel ih =>
    unfold healLoop
    rw [if_neg (by rintro ⟨rfl, -⟩; cases hm)]
    split
    · simp
    · rename_i m hm'
      obtain ⟨id, hid⟩ := getMetadata_mem hm'
      obtain ⟨h1, h2⟩ := sync_unreachable (env.connect n) cl m b h0 (hl _ _ _ _ hid)
        (fun j x => hx _ _ _ _ j x hid)
      exact ih _ _ _ _ h1 h2

/-- **C91**: as long as a broker that all metadata list cannot be connected to, `heal` does
not return, however many rounds it is given. -/
theorem C91_waits_broker (env : ClusterEnv) (response : Option Metadata) (cl : Cluster) (b : Int)
    (h0 : ∀ c, (b, c) ∈ cl.conns → c.closing = true)
    (hl : ∀ m, MayBeSeen env response (fun _ => True) m → ∃ x ∈ m.brokers, x.id = b)
    (hx : ∀ n m j x, MayBeSeen env response (fun _ => True) m → m.brokers[j]? = some x → x.id = b →
      env.connect n j ≠ .none)
    (fuel : Nat) : (cl.heal env fuel response).1 ≠ .done () := by
  have hs : ∀ n ts id m, env.ask n ts id = .ok m → MayBeSeen env response (fun _ => True) m :=
    fun n ts id m h => .inr ⟨n, ts, id, trivial, h⟩
  have hk : b ∉ cl.cull.conns.keys := by
    intro h
    obtain ⟨c, hc⟩ := Dict.mem_keys.1 h
    simp only [Cluster.cull, List.mem_filter, Bool.not_eq_true'] at hc
    rw [h0 c hc.1] at hc
    exact absurd hc.2 (by simp)
  unfold Cluster.heal
  simp only
  split
  · simp
  · rename_i m hm
    have hseen : MayBeSeen env response (fun _ => True) m := by
      cases response with
      | some m' => cases hm; exact .inl rfl
      | none =>
        obtain ⟨id, hid⟩ := getMetadata_mem hm
        exact hs _ _ _ _ hid
    obtain ⟨h1, h2⟩ := sync_unreachable (env.connect 0) cl.cull m b hk (hl m hseen)
      (fun j x => hx 0 m j x hseen)
    exact healLoop_unreachable env b (fun n ts id m h => hl m (hs n ts id m h))
      (fun n ts id m j x h => hx n m j x (hs n ts id m h)) fuel 1 _ _ _ h1 h2

theorem healLoop_leaderless (env : ClusterEnv) (t : String)
    (ht : ∀ n ts id m, t ∈ ts → env.ask n ts id = .ok m →
      NeedsLook (fun _ => True) m.topics t)
    (fuel n : Nat) (mc : List Int) (mt : List String) (cl : Cluster) (hm : t ∈ mt) :
    (healLoop env fuel n mc mt cl).1 ≠ .done () := by
  induction fuel generalizing n mc mt cl with
  | zero => simp [healLoop]
  | succ fuel ih =>
    unfold healLoop
    rw [if_neg (by rintro ⟨-, rfl⟩; cases hm)]
    split
    · simp
    · rename_i m hm'
      obtain ⟨id, hid⟩ := getMetadata_mem hm'
      exact ih _ _ _ _ (((C20_missing _ _).1 t).2
        (NeedsLook.mono (fun _ _ => trivial) (ht _ _ _ _ hm hid)))

/-- **C91**: as long as the answers that are about a topic report an election for one of its
partitions, or a missing replica, `heal` does not return. -/
theorem C91_waits_topic (env : ClusterEnv) (response : Option Metadata) (cl : Cluster)
    (t : String)
    (ht : ∀ m, MayBeSeen env response (fun ts => ts = [] ∨ t ∈ ts) m →
      NeedsLook (fun _ => True) m.topics t)
    (fuel : Nat) : (cl.heal env fuel response).1 ≠ .done () := by
  unfold Cluster.heal
  simp only
  split
  · simp
  · rename_i m hm
    have hseen : MayBeSeen env response (fun ts => ts = [] ∨ t ∈ ts) m := by
      cases response with
      | some m' => cases hm; exact .inl rfl
      | none =>
        obtain ⟨id, hid⟩ := getMetadata_mem hm
        exact .inr ⟨0, [], id, .inl rfl, hid⟩
    exact healLoop_leaderless env t
      (fun n ts id m h1 h2 => ht m (.inr ⟨n, ts, id, .inr h1, h2⟩)) fuel 1 _ _ _
      (((C20_missing _ _).1 t).2 (NeedsLook.mono (fun _ _ => trivial) (ht m hseen)))

/-- **C91**, for `connect()`: while some topic of the cluster - one that the client may have no
use for - has a partition without a leader, connecting a client does not return. -/
theorem C91_waits_start (connect : List Char × Int → Option Exc)
    (ask : List Char × Int → Res Metadata) (env : ClusterEnv) (cl : Cluster) (t : String)
    (h1 : ∀ h m, ask h = .ok m → NeedsLook (fun _ => True) m.topics t)
    (h2 : ∀ m, MayBeSeen env .none (fun ts => ts = [] ∨ t ∈ ts) m →
      NeedsLook (fun _ => True) m.topics t)
    (hosts : List (List Char)) (fuel : Nat) :
    (cl.start connect ask env fuel hosts).1 ≠ .done () := by
  have hb : ∀ m, bootstrap connect ask hosts = .ok (some m) → ∃ h, ask h = .ok m := by
    intro m
    induction hosts with
    | nil => simp [bootstrap]
    | cons s rest ih =>
      unfold bootstrap
      split
      · simp
      · split
        · exact ih
        · split
          · simp
          · rename_i h _ _ _ m' hm
            intro h'
            cases h'
            exact ⟨_, hm⟩
  unfold Cluster.start
  split
  · simp
  · simp
  · rename_i m hm
    obtain ⟨h, hh⟩ := hb m hm
    apply C91_waits_topic env (some m) cl t
    rintro m' (h' | h')
    · cases h'
      exact h1 h m hh
    · exact h2 m' (.inr h')

/-! ### Examples -/

/-- The election for "b" is over in round 2, asking for a topic or for all. -/
def exElection : ClusterEnv :=
  ⟨fun n ts _ => .ok ⟨[⟨1, "h", 9⟩],
    [⟨0, "a", [⟨0, 0, 1⟩]⟩, ⟨0, "b", [if n < 2 then ⟨5, 0, -1⟩ else ⟨0, 0, 1⟩]⟩].filter
      (fun x => ts = [] ∨ x.name ∈ ts)⟩, fun _ _ => .none⟩

-- C91_returns and C91_ends: the hypotheses hold for rounds 2 and later ...
example : ∃ cl' m, Cluster.new.heal exElection 4 (some exMeta) = (.done (), cl') ∧
    MayBeSeen exElection (some exMeta) (fun _ => True) m ∧ InSync cl' m := by
  refine C91_returns exElection 2 (some exMeta) Cluster.new (fun _ _ _ => rfl) ?_ 1 ?_
    (fun _ _ _ _ _ _ _ => rfl) (fun n ts => ⟨_, rfl⟩) (by simp [exElection]) (by simp) 4 (by simp)
  · intro n hn ts id m hm t
    simp only [exElection, Except.ok.injEq, if_neg (show ¬ n < 2 by omega)] at hm
    subst hm
    rintro ⟨x, hx, -, h⟩
    simp only [List.mem_filter, List.mem_cons, List.not_mem_nil, or_false] at hx
    rcases hx.1 with rfl | rfl <;> simp at h
  · rintro m (h | ⟨n, ts, id, -, h⟩)
    · cases h; exact ⟨⟨1, "h", 9⟩, by simp [exMeta], rfl⟩
    · simp only [exElection, Except.ok.injEq] at h
      subst h
      exact ⟨⟨1, "h", 9⟩, by simp, rfl⟩
-- ... and two rounds are not enough.
example : (Cluster.new.heal exElection 2 (some exMeta)).1 = .running := by decide +kernel

/-- Broker 2 is listed but down. -/
def exDown : ClusterEnv :=
  ⟨fun _ _ _ => .ok ⟨[⟨1, "h", 9⟩, ⟨2, "i", 9⟩], [⟨0, "a", [⟨0, 0, 1⟩]⟩]⟩,
    fun _ j => if j = 1 then some .streamClosed else .none⟩

-- C91_waits_broker: nothing that "a" needs is missing, but healing goes on.
example (fuel : Nat) : (Cluster.new.heal exDown fuel
    (some ⟨[⟨1, "h", 9⟩, ⟨2, "i", 9⟩], [⟨0, "a", [⟨0, 0, 1⟩]⟩]⟩)).1 ≠ .done () := by
  have hs : ∀ m, MayBeSeen exDown (some ⟨[⟨1, "h", 9⟩, ⟨2, "i", 9⟩], [⟨0, "a", [⟨0, 0, 1⟩]⟩]⟩)
      (fun _ => True) m → m.brokers = [⟨1, "h", 9⟩, ⟨2, "i", 9⟩] := by
    rintro m (h | ⟨n, ts, id, -, h⟩)
    · cases h; rfl
    · simp only [exDown, Except.ok.injEq] at h
      subst h; rfl
  refine C91_waits_broker exDown _ Cluster.new 2 (by simp [Cluster.new]) ?_ ?_ fuel
  · intro m hm
    exact ⟨⟨2, "i", 9⟩, by simp [hs m hm], rfl⟩
  · intro n m j x hm hj hx
    rw [hs m hm] at hj
    match j with
    | 0 => cases hj; simp at hx
    | 1 => simp [exDown]
    | j + 2 => simp at hj

-- C91_waits_topic, C91_waits_start: an election for "b" that never ends.
example (fuel : Nat) : (Cluster.new.start (fun _ => .none) (fun _ => .ok exMeta)
    ⟨fun _ _ _ => .ok exMeta, fun _ _ => .none⟩ fuel [['h']]).1 ≠ .done () := by
  have hn : NeedsLook (fun _ => True) exMeta.topics "b" :=
    ⟨⟨0, "b", [⟨5, 0, -1⟩]⟩, by simp [exMeta], rfl, .inr ⟨by simp, ⟨5, 0, -1⟩, by simp⟩⟩
  refine C91_waits_start _ _ _ _ "b" ?_ ?_ _ fuel
  · intro h m hm
    cases hm; exact hn
  · rintro m (h | ⟨n, ts, id, -, h⟩)
    · cases h
    · cases h; exact hn

end Kiel
