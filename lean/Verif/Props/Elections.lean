import Verif.Props.Leaderless
import Verif.Props.Connect
/-
C139: consumers of a group, and topics for which leaders are being elected.
-/
set_option autoImplicit false
namespace Kiel
open Spec

variable {β δ : Type}

/-- A `heal()` without metadata asks for them (kiel/cluster.py:126-127). -/
theorem heal_given (env : ClusterEnv) (fuel : Nat) (m : Metadata) (cl : Cluster)
    (h : getMetadata (env.ask 0 []) cl.conns = .ok m) :
    cl.heal env fuel .none = cl.heal env fuel (some m) := by
  unfold Cluster.heal
  rw [h]

/-- After a `heal`, only the partitions of topics it has looked at again are known. -/
theorem heal_leaderless (env : ClusterEnv) (fuel : Nat) (m : Metadata) (cl cl' : Cluster)
    (hon : Honest env) (hconn : ∀ n k, env.connect n k = .none)
    (h : cl.heal env fuel (some m) = (.done (), cl'))
    (t0 : String) (h0 : NeedsLook (Reachable cl m) m.topics t0) (t : String)
    (ht : ¬ NeedsLook (Reachable cl m) m.topics t) (p : Int) :
    leaderOf cl' t p = .none ∧ ¬ Lists cl'.topics t p := by
  have h1 := C22_loses env fuel m cl cl' hon hconn h t0 h0 t ht
  obtain ⟨m', _, hs⟩ := C22_last_partial env fuel (some m) cl cl' h
  have hu : usable (· ∈ cl'.conns.keys) m'.topics t = [] := by
    have := hs.topics t
    rw [h1] at this
    exact List.map_eq_nil_iff.1 this.symm
  have hl : ∀ q, leaderOf cl' t q = .none := by
    intro q
    rw [hs.leaders t q, hu]
    rfl
  refine ⟨hl p, ?_⟩
  rintro ⟨ids, hm, hp⟩
  have : item (t, p) ∈ itemsOf cl'.topics := ⟨t, ids, p, hm, hp, rfl⟩
  rw [heal_led env fuel (some m) cl cl' h] at this
  obtain ⟨t', p', l, h3, h4⟩ := this
  cases item_only h4
  rw [hl p] at h3
  cases h3

/-- **C139**, what happens instead: brokers answering for the topics they are asked about, once a
consumer of a group has been healed while some topic needed another look, it asks for no messages of
any other topic of which it has partitions, whatever happens, until it gets other metadata; and if it
has nothing else to do, `consume` raises for these topics, each time, and never heals. -/
theorem C139_loses (env : ClusterEnv) (fuel : Nat) (m : Metadata) (cl cl' : Cluster)
    (hon : Honest env) (hconn : ∀ n k, env.connect n k = .none) (response : Option Metadata)
    (hr : response = some m ∨ response = .none ∧ getMetadata (env.ask 0 []) cl.conns = .ok m)
    (h : cl.heal env fuel response = (.done (), cl'))
    (t0 : String) (h0 : NeedsLook (Reachable cl m) m.topics t0) (t : String)
    (ht : ¬ NeedsLook (Reachable cl m) m.topics t)
    (ok : Bool) (gcfg : GCfg) (cfg : CCfg β δ) (s s1 : Staff δ) (i : Nat)
    (hs1 : s1 = (s.step ok gcfg cfg (.heals i cl')).2) :
    (∀ (before : List (StaffEv β)) (ev : StaffEv β) (s' : Staff δ), (∀ e ∈ before, ¬ Learns i e) →
      s' = (s1.run ok gcfg cfg before).2 → own s' i t ≠ [] →
      ∀ out, (s'.step ok gcfg cfg ev).1 = some (i, out) → ∀ q, ¬ AsksAbout t q out) ∧
    (own s i t ≠ [] → Idle s i → t ∈ (s.client i).group.base.consumer.synced →
      (s.client i).group.base.consumer.closing = false →
      ∀ evs : List (StaffEv β), (∀ ev ∈ evs, OnlyCalls i t ev) →
      (∀ out, (i, out) ∈ (s1.run ok gcfg cfg evs).1 → out = .group (.raised .keyError)) ∧
      Idle (s1.run ok gcfg cfg evs).2 i) := by
  have h' : cl.heal env fuel (some m) = (.done (), cl') := by
    rcases hr with rfl | ⟨rfl, hg⟩
    · exact h
    · rw [← heal_given env fuel m cl hg]; exact h
  have hl := fun p => (heal_leaderless env fuel m cl cl' hon hconn h' t0 h0 t ht p).1
  have hc : s1.client i = (s.client i).informed cl' := by
    rw [hs1]
    simp [Staff.step, upd]
  have hless : ∀ p, Leaderless s1 i t p := by
    intro p
    unfold Leaderless
    rw [hc]
    exact hl p
  constructor
  · intro before ev s' hb hs' hne out hx
    obtain ⟨p, hp⟩ := List.exists_mem_of_ne_nil _ hne
    exact C137_never ok gcfg cfg s1 i t p (hless p) before ev hb s' hs' hp out hx
  · intro hne hi hsy hcl evs hev
    obtain ⟨p, hp⟩ := List.exists_mem_of_ne_nil _ hne
    have hp1 : p ∈ own s1 i t := by
      unfold own at hp ⊢
      rw [hc]
      exact hp
    obtain ⟨k1, k2, _⟩ := C137_raises ok gcfg cfg s1 i t p hp1 (hless p)
      (by unfold Idle at hi ⊢; rw [hc]; exact hi) (by rw [hc]; exact hsy) (by rw [hc]; exact hcl) evs hev
    exact ⟨k1, k2⟩

/-- **C139**, connecting: if some topic needs another look then, no partition of any other topic is
brought into the group (`Offers`: see `C136_never`). -/
theorem C139_brings (fn : AllocFn) (env : ConnectEnv) (fuel : Nat) (hosts : List (List Char)) (al : Alloc)
    (c c' : Grouped) (r : Run Unit) (al' : Alloc) (steps : List ConnectStep) (items : List String)
    (hon : Honest env.cluster) (hconn : ∀ n k, env.cluster.connect n k = .none)
    (h : Grouped.connect fn env fuel hosts al c = (r, c', al', steps, some items))
    (m : Metadata) (hm : bootstrap env.reach env.ask hosts = .ok (some m))
    (t0 : String) (h0 : NeedsLook (Reachable c.cluster m) m.topics t0) (t : String)
    (ht : ¬ NeedsLook (Reachable c.cluster m) m.topics t) (p : Int) :
    item (t, p) ∉ items ∧
    ∃ cl, c.cluster.start env.reach env.ask env.cluster fuel hosts = (.done (), cl) ∧
      ∀ (i : Nat) (co : Option Int), ¬ Offers t p (.connects i cl co : StaffEv β) := by
  unfold Grouped.connect at h
  cases hst : c.cluster.start env.reach env.ask env.cluster fuel hosts with
  | mk r0 cl =>
    rw [hst] at h
    cases r0 with
    | running => simp at h
    | raised e => simp at h
    | done u =>
      have hheal : c.cluster.heal env.cluster fuel (some m) = (.done (), cl) := by
        unfold Cluster.start at hst
        rw [hm] at hst
        exact hst
      have hno := (heal_leaderless env.cluster fuel m c.cluster cl hon hconn hheal t0 h0 t ht p).2
      refine ⟨?_, cl, rfl, fun i co => hno⟩
      have hoff : items = addedItems cl.topics := by
        rcases h2 : al.start fn env.zk with ⟨out, al1, ran⟩
        rw [h2] at h
        simp only at h
        rcases out with _ | _ | _ <;> simp only [Prod.mk.injEq] at h
        all_goals
          have h5 := h.2.2.2.2
          split at h5
          · exact (Option.some.inj h5).symm
          · cases h5
      intro hx
      have hx' : item (t, p) ∈ elements items := hx
      rw [hoff, addedItems_spec] at hx'
      obtain ⟨t', ids, q, h3, h4, h5⟩ := hx'
      cases item_only (e := (t, p)) (e' := (t', q)) h5
      exact hno ⟨ids, h3, h4⟩

/-- **C139**, if no topic needs another look, and no connection fails: after the healing, the next
`consume` of a topic asks for all partitions of it that the consumer has and the metadata list.
Missing from the full claim: metadata in which another topic needs another look. -/
theorem C139_goes_on_partial (env : ClusterEnv) (fuel : Nat) (m : Metadata) (cl cl' : Cluster)
    (hconn : ∀ k, env.connect 0 k = .none) (ht : ∀ t, ¬ NeedsLook (Reachable cl m) m.topics t)
    (h : cl.heal env (fuel + 1) (some m) = (.done (), cl'))
    (ok : Bool) (gcfg : GCfg) (cfg : CCfg β δ) (s : Staff δ) (i k : Nat) (t : String)
    (hne : own s i t ≠ [])
    (hlist : ∀ p ∈ own s i t, ∃ q ∈ usable (· ∈ cl'.conns.keys) m.topics t, q.id = p)
    (hcl : (s.client i).group.base.consumer.closing = false)
    (hs : t ∈ (s.client i).group.base.consumer.synced)
    (hw : ∀ l, cfg.write k "fetch" l = .none) :
    ∃ out, ((s.step ok gcfg cfg (.heals i cl')).2.step ok gcfg cfg (.client i (.call k t))).1 = some (i, out) ∧
      ∀ q ∈ own s i t, AsksAbout t q out := by
  obtain ⟨cl1, h1, hsync⟩ := C22_clean_partial env fuel m cl hconn ht
  rw [h] at h1
  obtain rfl : cl' = cl1 := (Prod.mk.inj h1).2
  obtain ⟨p, hp⟩ := List.exists_mem_of_ne_nil _ hne
  refine C137_healed_partial ok gcfg cfg s i k t p hp cl' hcl hs fun q hq => ?_
  obtain ⟨x, hx, hid⟩ := hlist q hq
  have hf : ((usable (· ∈ cl'.conns.keys) m.topics t).reverse.find? (fun x => decide (x.id = q))).isSome := by
    rw [List.find?_isSome]
    exact ⟨x, List.mem_reverse.2 hx, by simpa using hid⟩
  obtain ⟨y, hy⟩ := Option.isSome_iff_exists.1 hf
  refine ⟨y.leader, by rw [hsync.leaders t q, hy]; rfl, ?_, hw _⟩
  have hy' := List.mem_of_find?_eq_some hy
  rw [List.mem_reverse] at hy'
  unfold usable at hy'
  have := (List.mem_filter.1 hy').2
  simp only [decide_eq_true_eq] at this
  exact Dict.has_iff.2 this.2

/-- **C139**: a consumer of a group that is healed goes on with the topics of which the metadata report
nothing amiss, whatever else they report. -/
def Unharmed (β δ : Type) : Prop :=
  ∀ (ok : Bool) (gcfg : GCfg) (cfg : CCfg β δ) (name : Nat → String) (sess : Nat → Int)
    (evs : List (StaffEv β)) (i k : Nat) (t : String) (s : Staff δ) (env : ClusterEnv) (fuel : Nat)
    (m : Metadata) (cl' : Cluster),
    s = ((Staff.new name sess).run ok gcfg cfg evs).2 → Honest env → (∀ n k, env.connect n k = .none) →
    (∀ l, cfg.write k "fetch" l = .none) →
    (s.client i).group.base.consumer.cluster.heal env fuel (some m) = (.done (), cl') → Healthy m t →
    own s i t ≠ [] → (∀ p ∈ own s i t, ∃ x ∈ m.topics, x.name = t ∧ p ∈ x.parts.map (·.id)) →
    Idle s i → t ∈ (s.client i).group.base.consumer.synced →
    (s.client i).group.base.consumer.closing = false →
    ∃ out, ((s.step ok gcfg cfg (.heals i cl')).2.step ok gcfg cfg (.client i (.call k t))).1 = some (i, out) ∧
      ∀ q ∈ own s i t, AsksAbout t q out

/-! ### Not vacuous, and false -/

/-- What there is: topics a and b, all at one broker. -/
def exAllWell : Cluster :=
  ⟨[(1, ⟨"h", 9, false⟩)], [("a", [0, 1]), ("b", [0])], [("a", [(0, 1), (1, 1)]), ("b", [(0, 1)])]⟩

/-- Consumer 1 connects, is told that it is alone, and consumes topic a. -/
def exBusyBoth : List (StaffEv Nat) :=
  [.group (.state 1 .connected), .connects 1 exAllWell (some 1), .group (.seesMembers 1), .group (.seesItems 1),
    .client 1 (.call 0 "a"), .client 1 (.offsets 0 ⟨[("a", [⟨0, 5, 0⟩, ⟨1, 8, 0⟩])]⟩), .client 1 (.goOn 0),
    .client 1 (.group (.base (.outcome 0 1 (.ok ⟨[("a", [⟨0, 0, [(5, 3)]⟩, ⟨1, 0, []⟩])]⟩)))),
    .client 1 (.group (.base (.finish 0)))]

/-- The group then. -/
def exBothStaff : Staff Nat := ((Staff.new exNames (fun i => 10 + i)).run true exManual exCCfg exBusyBoth).2

theorem exBothStaff_is : own exBothStaff 1 "a" = [0, 1] ∧ Idle exBothStaff 1 ∧
    "a" ∈ (exBothStaff.client 1).group.base.consumer.synced ∧
    (exBothStaff.client 1).group.base.consumer.closing = false := by
  unfold Idle
  decide +kernel

/-- The metadata after a `heal()` that has found an election for topic b (`exHeal`). -/
def exOnlyB : Cluster := ⟨[(1, ⟨"h", 9, false⟩)], [("b", [0])], [("b", [(0, 1)])]⟩

theorem exBothHeal : (exBothStaff.client 1).group.base.consumer.cluster.heal exEnv 5 (some exMeta) =
    (.done (), exOnlyB) := by decide +kernel

/-- **C139** is false: with an election for topic b, consumer 1 cannot consume topic a any more. -/
theorem C139_false : ¬ Unharmed Nat Nat := by
  intro h
  obtain ⟨h1, h2, h3, h4⟩ := exBothStaff_is
  obtain ⟨out, k1, k2⟩ := h true exManual exCCfg exNames (fun i => 10 + i) exBusyBoth 1 0 "a" exBothStaff exEnv 5
    exMeta exOnlyB rfl exEnv_honest (fun _ _ => rfl) (fun _ => rfl) exBothHeal exMeta_healthy
    (by rw [h1]; simp) (by
      rw [h1]
      intro p hp
      refine ⟨⟨0, "a", [⟨0, 0, 1⟩, ⟨0, 1, 1⟩]⟩, by simp [exMeta], rfl, ?_⟩
      simpa using hp) h2 h3 h4
  have ho : (((exBothStaff.step true exManual exCCfg (.heals 1 exOnlyB)).2.step true exManual exCCfg
      (.client 1 (.call 0 "a"))).1) = some (1, .group (.raised .keyError)) := by decide +kernel
  rw [ho] at k1
  simp only [Option.some.injEq, Prod.mk.injEq, true_and] at k1
  subst k1
  obtain ⟨reqs, hr, _⟩ := k2 0 (by rw [h1]; simp)
  cases hr

-- `C139_loses`: its hypotheses hold of that.
example : NeedsLook (Reachable (exBothStaff.client 1).group.base.consumer.cluster exMeta) exMeta.topics "b" ∧
    ¬ NeedsLook (Reachable (exBothStaff.client 1).group.base.consumer.cluster exMeta) exMeta.topics "a" := by
  constructor
  · exact ⟨⟨0, "b", [⟨5, 0, -1⟩]⟩, by simp [exMeta], rfl, Or.inr ⟨by simp, ⟨5, 0, -1⟩, by simp⟩⟩
  · rintro ⟨x, hx, hn, hx'⟩
    simp only [exMeta, List.mem_cons, List.not_mem_nil, or_false] at hx
    rcases hx with rfl | rfl
    · simp only [exMeta, List.mem_cons, List.not_mem_nil, or_false] at hx'
      rcases hx' with hx' | ⟨_, q, hq, hq'⟩
      · cases hx'
      · rcases hq with rfl | rfl <;> simp [Reachable] at hq'
    · simp at hn

-- Topic b can be consumed, topic a cannot.
example : (exBothStaff.run true exManual exCCfg [.heals 1 exOnlyB, .client 1 (.call 0 "a"), .client 1 (.call 0 "b"),
    .client 1 (.offsets 0 ⟨[("b", [⟨0, 2, 0⟩])]⟩), .client 1 (.goOn 0), .client 1 (.call 1 "a")]).1 =
    [(1, .group (.raised .keyError)), (1, .wanted 1 "b" [0]), (1, .group .nothing),
      (1, .group (.sent [⟨1, 1000, 1, "b", [⟨0, 2, 100⟩]⟩])), (1, .group (.raised .keyError))] := by
  decide +kernel

-- `C139_goes_on_partial`: with metadata in which nothing is amiss.
example : (exBothStaff.run true exManual exCCfg [.heals 1 exAllWell, .client 1 (.call 0 "a")]).1 =
    [(1, .group (.sent [⟨1, 1000, 1, "a", [⟨0, 6, 50⟩, ⟨1, 8, 50⟩]⟩]))] := by
  decide +kernel

end Kiel
