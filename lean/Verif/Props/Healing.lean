import Verif.Props.Cluster
/- C73: the connections after a heal. -/
set_option autoImplicit false
namespace Kiel
open Spec

/-- The metadata that a `heal` may get to see. -/
def Spec.Seen (env : ClusterEnv) (response : Option Metadata) (m : Metadata) : Prop :=
  response = some m ∨ ∃ n ts id, env.ask n ts id = .ok m

/-- Broker `id` is listed at that host and port. -/
def Spec.ListedAt (m : Metadata) (id : Int) (host : String) (port : Int) : Prop :=
  (⟨id, host, port⟩ : BrokerMd) ∈ m.brokers

/-- C73 as stated: after a `heal`, every broker that the metadata last seen lists has an open
connection to its host and port. -/
def Spec.HealReaches : Prop :=
  ∀ (env : ClusterEnv) (fuel : Nat) (m : Metadata) (cl cl' : Cluster),
    (∀ n ts id m', env.ask n ts id = .ok m' → m' = m) →
    cl.heal env fuel (some m) = (.done (), cl') →
    ∀ id host port, ListedAt m id host port → cl'.conns.get? id = some ⟨host, port, false⟩

theorem healLoop_inv (env : ClusterEnv) (fuel n : Nat) (mc : List Int) (mt : List String)
    (cl cl' : Cluster) (P : Cluster → List Int → Prop) (hP : P cl mc)
    (hstep : ∀ n ts id m (cl : Cluster) mc, env.ask n ts id = .ok m → P cl mc →
      P (cl.processBrokers (env.connect n) m.brokers).2
        (cl.processBrokers (env.connect n) m.brokers).1)
    (hconns : ∀ cl cl2 : Cluster, cl.conns = cl2.conns → ∀ mc, P cl mc → P cl2 mc)
    (h : healLoop env fuel n mc mt cl = (.done (), cl')) : P cl' [] := by
  induction fuel generalizing n mc mt cl with
  | zero => simp [healLoop] at h
  | succ fuel ih =>
    unfold healLoop at h
    split at h
    · rename_i hm
      obtain ⟨rfl, rfl⟩ := hm
      cases h
      exact hP
    · split at h
      · cases h
      · rename_i m hm
        obtain ⟨id, hid⟩ := getMetadata_mem hm
        refine ih _ _ _ _ ?_ h
        refine hconns (cl.processBrokers (env.connect n) m.brokers).2 _ ?_ _
          (hstep n mt id m cl mc hid hP)
        rfl

theorem heal_inv (env : ClusterEnv) (fuel : Nat) (response : Option Metadata) (cl cl' : Cluster)
    (P : Cluster → List Int → Prop)
    (h0 : ∀ m, Seen env response m →
      P (cl.cull.processBrokers (env.connect 0) m.brokers).2
        (cl.cull.processBrokers (env.connect 0) m.brokers).1)
    (hstep : ∀ n m (cl : Cluster) mc, Seen env response m → P cl mc →
      P (cl.processBrokers (env.connect n) m.brokers).2
        (cl.processBrokers (env.connect n) m.brokers).1)
    (hconns : ∀ cl cl2 : Cluster, cl.conns = cl2.conns → ∀ mc, P cl mc → P cl2 mc)
    (h : cl.heal env fuel response = (.done (), cl')) : P cl' [] := by
  unfold Cluster.heal at h
  simp only at h
  split at h
  · cases h
  · rename_i m hm
    have hseen : Seen env response m := by
      split at hm
      · cases hm; exact .inl rfl
      · obtain ⟨id, hid⟩ := getMetadata_mem hm
        exact .inr ⟨0, [], id, hid⟩
    refine healLoop_inv env fuel 1 _ _ _ cl' P ?_
      (fun n ts id m cl mc hid => hstep n m cl mc (.inr ⟨n, ts, id, hid⟩)) hconns h
    refine hconns (cl.cull.processBrokers (env.connect 0) m.brokers).2 _ ?_ _ (h0 m hseen)
    rfl

theorem cull_mem {cl : Cluster} {id : Int} {c : CConn} :
    (id, c) ∈ cl.cull.conns ↔ (id, c) ∈ cl.conns ∧ c.closing = false := by
  simp [Cluster.cull]

/-- **C73** (what does hold): after a `heal`, every connection was open before, and is the same
but for having been closed, or is to a host and port listed for the broker in metadata seen. -/
theorem C73_origin (env : ClusterEnv) (fuel : Nat) (response : Option Metadata) (cl cl' : Cluster)
    (h : cl.heal env fuel response = (.done (), cl')) (id : Int) (c : CConn)
    (hc : cl'.conns.get? id = some c) :
    (id, { c with closing := false }) ∈ cl.conns ∨
    ∃ m, Seen env response m ∧ ListedAt m id c.host c.port := by
  let Q : Int → CConn → Prop := fun id c => (id, { c with closing := false }) ∈ cl.conns ∨
    ∃ m, Seen env response m ∧ ListedAt m id c.host c.port
  have step : ∀ n m (cl1 : Cluster), Seen env response m →
      (∀ id c, cl1.conns.get? id = some c → Q id c) → ∀ id c,
      (cl1.processBrokers (env.connect n) m.brokers).2.conns.get? id = some c → Q id c := by
    intro n m cl1 hs hQ id c hc
    obtain ⟨_, h2, h3, _⟩ := C21_brokers (env.connect n) cl1 m.brokers
    cases h4 : cl1.conns.get? id with
    | some c0 =>
      rw [h2 id c0 h4] at hc
      have hq := hQ id c0 h4
      split at hc
      · cases hc; exact hq
      · cases hc; exact hq
    | none =>
      obtain ⟨k, b, h5, rfl, _, rfl⟩ := h3 id c h4 hc
      exact .inr ⟨m, hs, List.mem_of_getElem? h5⟩
  refine heal_inv env fuel response cl cl' (fun cl _ => ∀ id c, cl.conns.get? id = some c → Q id c)
    ?_ (fun n m cl1 _ hs hQ => step n m cl1 hs hQ) (fun cl1 cl2 he _ hQ => by rw [← he]; exact hQ)
    h id c hc
  intro m hs
  refine step 0 m cl.cull hs ?_
  intro id c hc
  have := cull_mem.1 (Dict.mem_of_get? hc)
  obtain ⟨h1, h2⟩ := this
  refine .inl ?_
  cases c
  simp only at h2
  subst h2
  exact h1

/-- **C73** (partial: brokers listed in all metadata seen): such a broker has an open connection
after a `heal`; the one it had, if that was open. -/
theorem C73_open_partial (env : ClusterEnv) (fuel : Nat) (response : Option Metadata)
    (cl cl' : Cluster) (hn : cl.conns.keys.Nodup)
    (h : cl.heal env fuel response = (.done (), cl')) (id : Int)
    (hall : ∀ m, Seen env response m → ∃ host port, ListedAt m id host port) :
    ∃ c, cl'.conns.get? id = some c ∧ c.closing = false ∧
      ∀ c0, cl.conns.get? id = some c0 → c0.closing = false → c = c0 := by
  let P : Cluster → List Int → Prop := fun cl1 mc =>
    (∀ c0, cl.conns.get? id = some c0 → c0.closing = false → cl1.conns.get? id = some c0) ∧
    (∀ c, cl1.conns.get? id = some c → c.closing = false) ∧
    (id ∈ mc ∨ ∃ c, cl1.conns.get? id = some c)
  have step : ∀ n m (cl1 : Cluster), Seen env response m →
      (∀ c0, cl.conns.get? id = some c0 → c0.closing = false → cl1.conns.get? id = some c0) →
      (∀ c, cl1.conns.get? id = some c → c.closing = false) →
      P (cl1.processBrokers (env.connect n) m.brokers).2
        (cl1.processBrokers (env.connect n) m.brokers).1 := by
    intro n m cl1 hs q1 q2
    obtain ⟨host, port, hl⟩ := hall m hs
    have hid : id ∈ m.brokers.map (·.id) := List.mem_map.2 ⟨_, hl, rfl⟩
    obtain ⟨h1, h2, h3, _⟩ := C21_brokers (env.connect n) cl1 m.brokers
    refine ⟨?_, ?_, ?_⟩
    · intro c0 hc0 ho
      have := h2 id c0 (q1 c0 hc0 ho)
      rw [if_pos hid] at this
      exact this
    · intro c hc
      cases h4 : cl1.conns.get? id with
      | some c0 =>
        rw [h2 id c0 h4, if_pos hid] at hc
        cases hc
        exact q2 _ h4
      | none =>
        obtain ⟨k, b, _, _, _, rfl⟩ := h3 id c h4 hc
        rfl
    · obtain ⟨k, hk⟩ := List.getElem?_of_mem hl
      rcases h1 k _ hk with h5 | h5
      · right
        simp only at h5
        cases hg : (cl1.processBrokers (env.connect n) m.brokers).2.conns.get? id with
        | some c => exact ⟨c, rfl⟩
        | none => exact absurd h5 (Dict.get?_eq_none.1 hg)
      · exact .inl h5.1
  have key : P cl' [] := by
    refine heal_inv env fuel response cl cl' P ?_ ?_ ?_ h
    · intro m hs
      refine step 0 m cl.cull hs ?_ ?_
      · intro c0 hc0 ho
        have hn' : cl.cull.conns.keys.Nodup := by
          refine List.Nodup.sublist ?_ hn
          exact List.Sublist.map _ List.filter_sublist
        exact Dict.get?_of_mem hn' (cull_mem.2 ⟨Dict.mem_of_get? hc0, ho⟩)
      · intro c hc
        exact (cull_mem.1 (Dict.mem_of_get? hc)).2
    · intro n m cl1 mc hs hP
      exact step n m cl1 hs hP.1 hP.2.1
    · intro cl1 cl2 he mc hP
      simpa only [P, he] using hP
  obtain ⟨k1, k2, k3⟩ := key
  rcases k3 with k3 | ⟨c, hc⟩
  · simp at k3
  · refine ⟨c, hc, k2 c hc, ?_⟩
    intro c0 hc0 ho
    have := k1 c0 hc0 ho
    rw [hc] at this
    exact Option.some.inj this

/-- **C73** (partial): such a broker that had no open connection, and whose host and port are the
same in all metadata seen, has an open connection to them. -/
theorem C73_connected_partial (env : ClusterEnv) (fuel : Nat) (response : Option Metadata)
    (cl cl' : Cluster) (hn : cl.conns.keys.Nodup)
    (h : cl.heal env fuel response = (.done (), cl')) (id : Int) (host : String) (port : Int)
    (hold : ∀ c, (id, c) ∈ cl.conns → c.closing = true)
    (hall : ∀ m, Seen env response m → ∀ host' port', ListedAt m id host' port' ↔
      host' = host ∧ port' = port) :
    cl'.conns.get? id = some ⟨host, port, false⟩ := by
  obtain ⟨c, h1, h2, _⟩ := C73_open_partial env fuel response cl cl' hn h id
    (fun m hm => ⟨host, port, (hall m hm host port).2 ⟨rfl, rfl⟩⟩)
  rcases C73_origin env fuel response cl cl' h id c h1 with h3 | ⟨m, h3, h4⟩
  · have := hold _ h3
    simp at this
  · obtain ⟨rfl, rfl⟩ := (hall m h3 _ _).1 h4
    rw [h1]
    cases c
    simp only at h2
    subst h2
    rfl

/-- **C73** is false of the code: a broker that is listed at a new address keeps its connection
to the old one. -/
theorem C73_moved : ({ conns := [(1, ⟨"old", 9, false⟩)], topics := [], leaders := [] } : Cluster).heal
    ⟨fun _ _ _ => .error .noBrokers, fun _ _ => .none⟩ 1 (some ⟨[⟨1, "new", 9⟩], []⟩) =
    (.done (), ⟨[(1, ⟨"old", 9, false⟩)], [], []⟩) := by decide +kernel

/-- **C73** is false of the code. -/
theorem C73_false : ¬ HealReaches := by
  intro h
  have := h ⟨fun _ _ _ => .error .noBrokers, fun _ _ => .none⟩ 1 ⟨[⟨1, "new", 9⟩], []⟩ _ _
    (by intro n ts id m' h; cases h) C73_moved 1 "new" 9 (by simp [ListedAt])
  simp [Dict.get?] at this

/-- **C73** is false of the code: a broker that is not listed in one round of a `heal` and listed
again in the next (another topic is still being created) is left with a closed connection, and
the partition it leads is taken to be usable. -/
theorem C73_relisted :
    ({ conns := [(1, ⟨"a", 9, false⟩), (2, ⟨"b", 9, false⟩)], topics := [], leaders := [] }
      : Cluster).heal
    ⟨fun _ _ _ => .ok ⟨[⟨1, "a", 9⟩, ⟨2, "b", 9⟩], [⟨0, "t", [⟨0, 0, 2⟩]⟩]⟩, fun _ _ => .none⟩ 2
    (some ⟨[⟨1, "a", 9⟩], [⟨0, "t", [⟨5, 0, -1⟩]⟩]⟩) =
    (.done (), ⟨[(1, ⟨"a", 9, false⟩), (2, ⟨"b", 9, true⟩)], [("t", [0])], [("t", [(0, 2)])]⟩) := by
  decide +kernel

-- Non-vacuity: broker 2 had a closed connection, broker 3 none; 2 fails to connect at first.
example : ({ conns := [(1, ⟨"a", 9, false⟩), (2, ⟨"b", 9, true⟩)], topics := [], leaders := [] }
      : Cluster).heal
    ⟨fun _ _ _ => .ok ⟨[⟨1, "a", 9⟩, ⟨2, "b", 9⟩, ⟨3, "c", 9⟩], []⟩,
      fun n k => if n = 0 ∧ k = 1 then some .streamClosed else .none⟩ 3
    (some ⟨[⟨1, "a", 9⟩, ⟨2, "b", 9⟩, ⟨3, "c", 9⟩], []⟩) =
    (.done (), ⟨[(1, ⟨"a", 9, false⟩), (3, ⟨"c", 9, false⟩), (2, ⟨"b", 9, false⟩)], [], []⟩) := by
  decide +kernel

end Kiel
