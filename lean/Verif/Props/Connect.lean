import Verif.Model.Connect
import Verif.Props.Coordinator
import Verif.Props.Startup
import Verif.Props.SharedSet
import Verif.Props.Healing
/-
C90: connecting a consumer of a group.
-/
set_option autoImplicit false
namespace Kiel
open Spec

/-! ### What the cluster knows -/

theorem processPartition_nodup (conns : Dict Int CConn) (name : String) (t : Tables) (p : PartMd)
    (h : t.topics.keys.Nodup) : (processPartition conns name t p).topics.keys.Nodup := by
  unfold processPartition
  split
  · exact h
  · split
    · exact h
    · simp only
      refine Dict.nodup_set ?_ _ _
      unfold Dict.getDefault
      split
      · exact h
      · exact Dict.nodup_set h _ _

theorem processTopics_nodup (cl : Cluster) (topics : List TopicMd) :
    (cl.processTopics topics).2.topics.keys.Nodup := by
  have h : ∀ (topics : List TopicMd) (t : Tables), t.topics.keys.Nodup →
      (topics.foldl (processTopic cl.conns) t).topics.keys.Nodup := by
    intro topics
    induction topics with
    | nil => exact fun _ h => h
    | cons x topics ih =>
      intro t ht
      refine ih _ ?_
      unfold processTopic
      split
      · exact ht
      · split
        · exact ht
        · have : ∀ (ps : List PartMd) (t : Tables), t.topics.keys.Nodup →
              (ps.foldl (processPartition cl.conns x.name) t).topics.keys.Nodup := by
            intro ps
            induction ps with
            | nil => exact fun _ h => h
            | cons p ps ih2 => exact fun t ht => ih2 _ (processPartition_nodup _ _ _ _ ht)
          exact this _ _ ht
  exact h topics ⟨[], [], []⟩ List.nodup_nil

/-- The partitions with a leader, as text. -/
def Spec.led (cl : Cluster) : Set String := {x | ∃ t p l, leaderOf cl t p = some l ∧ x = item (t, p)}

/-- After a `heal`, the cluster's table of topics lists the partitions with a leader. -/
theorem heal_led (env : ClusterEnv) (fuel : Nat) (response : Option Metadata) (cl cl' : Cluster)
    (h : cl.heal env fuel response = (.done (), cl')) : itemsOf cl'.topics = led cl' := by
  have key : ∀ cl0 topics, itemsOf (Cluster.processTopics cl0 topics).2.topics
      = led (Cluster.processTopics cl0 topics).2 := by
    intro cl0 topics
    have hn := processTopics_nodup cl0 topics
    have hk := C19_known cl0 topics
    ext x
    simp only [itemsOf, led, Set.mem_ofPred_eq]
    constructor
    · rintro ⟨t, ps, i, h1, h2, rfl⟩
      have : i ∈ partitionsOf (Cluster.processTopics cl0 topics).2 t := by
        unfold partitionsOf
        rw [Dict.get?_of_mem hn h1]
        exact h2
      obtain ⟨l, hl⟩ := (hk t i).1.1 this
      exact ⟨t, i, l, hl, rfl⟩
    · rintro ⟨t, i, l, hl, rfl⟩
      have := (hk t i).1.2 ⟨l, hl⟩
      unfold partitionsOf at this
      cases hg : (Cluster.processTopics cl0 topics).2.topics.get? t with
      | none => rw [hg] at this; simp at this
      | some ps =>
        rw [hg] at this
        exact ⟨t, ps, i, Dict.mem_of_get? hg, this, rfl⟩
  unfold Cluster.heal at h
  simp only at h
  split at h
  · cases h
  · exact healLoop_done env fuel 1 _ _ _ cl' (fun cl _ _ => itemsOf cl.topics = led cl) (key _ _)
      (fun _ _ _ _ _ _ => key _ _) h

/-! ### The coordinator -/

/-- What an answer makes of the coordinator on record: success names it, a retriable or fatal
code leaves it. -/
def Spec.coordinatorAfter (r : CoordResp) (old : Option Int) : Option Int :=
  if r.code = 0 then some r.coordinator else old

theorem coordinator_inv (env : SendEnv CoordResp) (b : Int) (c c' : Grouped) (x : Bool)
    (h : c.sendTo coordinatorHandlers env b = (.ok x, c')) :
    ∃ r, env.outcome = .ok r ∧ (x = true ↔ ¬ Retriable r.code) ∧
      c'.ext = { c.ext with coordinator := coordinatorAfter r c.ext.coordinator } := by
  obtain ⟨r, f, s, a, cl, ho, hf, hx, rfl⟩ := sendTo_inv h
  refine ⟨r, ho, ?_⟩
  simp only [coordinatorHandlers, Option.some.injEq] at hf
  subst hf
  unfold coordinatorAfter
  simp only [handleCoordinatorResponse] at hx
  by_cases h0 : r.code = 0
  · rw [if_pos (show r.code = Err.noError from h0)] at hx
    simp only [Prod.mk.injEq, Except.ok.injEq] at hx
    obtain ⟨rfl, rfl, _⟩ := hx
    rw [if_pos h0, h0]
    exact ⟨by decide, rfl⟩
  · rw [if_neg (show ¬ r.code = Err.noError from h0)] at hx
    rw [if_neg h0]
    by_cases h1 : Retriable r.code
    · rw [if_pos (show r.code ∈ Err.retriable from h1)] at hx
      simp only [Prod.mk.injEq, Except.ok.injEq] at hx
      obtain ⟨rfl, rfl, _⟩ := hx
      exact ⟨by simp [h1], rfl⟩
    · rw [if_neg (show ¬ r.code ∈ Err.retriable from h1)] at hx
      simp only [Prod.mk.injEq, Except.ok.injEq] at hx
      obtain ⟨rfl, rfl, _⟩ := hx
      exact ⟨by simp [h1], rfl⟩

/-- When the search for the coordinator ends, all answers but the last were retriable, and the last
was not. -/
theorem coordinatorLoop_done (env : Nat → SendEnv CoordResp) (fuel : Nat) :
    ∀ (n : Nat) (bs : List Int) (c c' : Grouped) (asked : List Int),
    Grouped.coordinatorLoop env fuel n bs c = (.done (), c', asked) →
    ∃ k r, asked.length = k + 1 ∧ (env (n + k)).outcome = .ok r ∧ ¬ Retriable r.code ∧
      (∀ i, n ≤ i → i < n + k → ∃ q, (env i).outcome = .ok q ∧ Retriable q.code) ∧
      c'.ext = { c.ext with coordinator := coordinatorAfter r c.ext.coordinator } := by
  induction fuel with
  | zero => intro n bs c c' asked h; simp [Grouped.coordinatorLoop] at h
  | succ fuel ih =>
    intro n bs c c' asked h
    cases bs with
    | nil =>
      unfold Grouped.coordinatorLoop at h
      split at h
      · cases h
      · exact ih _ _ _ _ _ h
    | cons b bs =>
      unfold Grouped.coordinatorLoop at h
      rcases hs : c.sendTo coordinatorHandlers (env n) b with ⟨_ | x, c1⟩
      · simp [hs] at h
      · rw [hs] at h
        obtain ⟨r, ho, hx, he⟩ := coordinator_inv _ _ _ _ _ hs
        cases x with
        | true =>
          simp only [Prod.mk.injEq, true_and] at h
          obtain ⟨rfl, rfl⟩ := h
          exact ⟨0, r, rfl, ho, hx.1 rfl, fun i h1 h2 => by omega, he⟩
        | false =>
          simp only at h
          have hr : Retriable r.code := by
            by_contra hc; exact absurd (hx.2 hc) (by simp)
          have h0 : r.code ≠ 0 := by intro h; rw [h] at hr; exact absurd hr (by decide)
          rcases hl : Grouped.coordinatorLoop env fuel (n + 1) bs c1 with ⟨o, c2, asked'⟩
          rw [hl] at h
          simp only [Prod.mk.injEq] at h
          obtain ⟨rfl, rfl, rfl⟩ := h
          obtain ⟨k, q, g1, g2, g3, g4, g5⟩ := ih _ _ _ _ _ hl
          refine ⟨k + 1, q, by simp [g1], by rw [← g2]; congr 2; omega, g3, ?_, ?_⟩
          · intro i h1 h2
            by_cases hi : i = n
            · subst hi; exact ⟨r, ho, hr⟩
            · exact g4 i (by omega) (by omega)
          · rw [g5, he]
            simp [coordinatorAfter, h0]

/-! ### Connecting -/

/-- **C90**: the three steps are taken in order; the first failure is what `connect` raises, and
what comes after it is not begun.  (If none of them runs for ever.) -/
theorem C90_order (fn : AllocFn) (env : ConnectEnv) (fuel : Nat) (hosts : List (List Char)) (al : Alloc)
    (c : Grouped) (al' : Alloc) (r1 r2 : Res Unit) (ran : List StartStep) (cl : Cluster)
    (h1 : c.cluster.start env.reach env.ask env.cluster fuel hosts =
      ((match r1 with | .ok _ => .done () | .error e => .raised e), cl))
    (h2 : al.start fn env.zk = (some r2, al', ran))
    (h3 : (Grouped.determineCoordinator env.coord fuel
      (Grouped.allocatedBy al al' { c with cluster := cl })).1 ≠ .running) :
    let c2 := Grouped.allocatedBy al al' { c with cluster := cl }
    let r3 : Res Unit := (Grouped.determineCoordinator env.coord fuel c2).1.toRes
    let out := inOrder [(ConnectStep.cluster, r1), (.allocator, r2), (.coordinator, r3)]
    (Grouped.connect fn env fuel hosts al c).1.toRes = out.1 ∧
    (Grouped.connect fn env fuel hosts al c).2.2.2.1 = out.2 := by
  intro c2 r3 out
  unfold Grouped.connect
  rw [h1]
  cases r1 with
  | error e => exact ⟨rfl, rfl⟩
  | ok _ =>
    simp only [h2]
    cases r2 with
    | error e => exact ⟨rfl, rfl⟩
    | ok _ =>
      simp only [out, inOrder, r3, c2]
      rcases hd : Grouped.determineCoordinator env.coord fuel
        (Grouped.allocatedBy al al' { c with cluster := cl }) with ⟨_ | _ | _, c', asked⟩
      · exact ⟨rfl, rfl⟩
      · exact ⟨rfl, rfl⟩
      · rw [hd] at h3; exact absurd rfl h3

theorem bootstrap_ok (reach : List Char × Int → Option Exc) (ask : List Char × Int → Res Metadata)
    (hosts : List (List Char)) (m : Metadata) (h : bootstrap reach ask hosts = .ok (some m)) :
    ∃ x, ask x = .ok m := by
  induction hosts with
  | nil => simp [bootstrap] at h
  | cons s rest ih =>
    unfold bootstrap at h
    split at h
    · cases h
    · split at h
      · exact ih h
      · split at h
        · cases h
        · rename_i hm
          cases h
          exact ⟨_, hm⟩

/-- What the start of a cluster comes to when it returns. -/
theorem start_inSync (reach : List Char × Int → Option Exc) (ask : List Char × Int → Res Metadata)
    (env : ClusterEnv) (fuel : Nat) (hosts : List (List Char)) (cl cl' : Cluster)
    (h : cl.start reach ask env fuel hosts = (.done (), cl')) :
    (∃ m, ((∃ x, ask x = .ok m) ∨ ∃ n ts id, env.ask n ts id = .ok m) ∧ InSync cl' m) ∧
      itemsOf cl'.topics = led cl' := by
  unfold Cluster.start at h
  split at h
  · cases h
  · cases h
  · rename_i m hb
    obtain ⟨m', hm', hs⟩ := C22_last_partial env fuel (some m) cl cl' h
    refine ⟨⟨m', ?_, hs⟩, heal_led env fuel (some m) cl cl' h⟩
    rcases hm' with hm' | hm'
    · cases hm'
      exact .inl (bootstrap_ok _ _ _ _ hb)
    · exact .inr hm'

/-- What a new allocator's member can read after notifications. -/
theorem reads_after (name : String) (ns : List Note) (h : NotesOf PlainItem ns) :
    ((∃ a, ((Alloc.new name).notifyAll naiveFn ns).allocation.1 = .ok a) ↔ changes ns ≠ 0) ∧
    ∀ a, ((Alloc.new name).notifyAll naiveFn ns).allocation.1 = .ok a →
      ∀ ms ps, SortedSet ms (latestMembers ns) → SortedSet ps (latestPartitions ns) →
        ∃ d, naiveFn ms ps = .ok d ∧ ∀ t, (a.get? t).getD [] = lookup d.entries name t := by
  have h := C59_partial naiveFn PlainItem name (naive_usable name) ns h
  have key : (∃ a, ((Alloc.new name).notifyAll naiveFn ns).allocation.1 = .ok a) ↔ changes ns ≠ 0 := by
    constructor
    · rintro ⟨a, ha⟩ h0
      rw [h.2.2.2.1 h0] at ha
      cases ha
    · intro h0
      obtain ⟨d, a, _, _, h3, _⟩ := h.2.2.2.2 h0 _ _
        ⟨(pySorted_spec _ (nodup_pySet _)).1, fun x => ((pySorted_spec _ (nodup_pySet _)).2 x).trans (mem_pySet _ _)⟩
        ⟨(pySorted_spec _ (nodup_pySet _)).1, fun x => ((pySorted_spec _ (nodup_pySet _)).2 x).trans (mem_pySet _ _)⟩
      exact ⟨a, by rw [h3]⟩
  refine ⟨key, fun a ha ms ps hms hps => ?_⟩
  obtain ⟨d, a', g1, _, g3, g4⟩ := h.2.2.2.2 (key.1 ⟨a, ha⟩) ms ps hms hps
  rw [g3] at ha
  cases ha
  exact ⟨d, g1, g4⟩

theorem allocation_allocatedBy (before after : Alloc) (c : Grouped) (a : Dict String (List Int)) :
    Grouped.allocation (Grouped.allocatedBy before after c) = .ok a ↔ after.allocation.1 = .ok a := by
  unfold Grouped.allocation Grouped.allocatedBy
  cases after.allocation.1 <;> simp

/-- **C90**: what it means that `connect` has returned, for a new consumer.  All three steps were
taken; the cluster was in sync with metadata from some broker; exactly the partitions that had a
leader were offered to the group; the allocation can be read just if some notification changed the
set of members or of partitions, and is what the default allocator makes of the last ones; some broker answered the request for the coordinator with a code
that is not retriable, and the coordinator is known just if that answer named it. -/
theorem C90_returned (name : String) (env : ConnectEnv) (fuel : Nat) (hosts : List (List Char))
    (cl0 : Cluster) (c' : Grouped) (al' : Alloc) (steps : List ConnectStep) (off : Option (List String))
    (hplain : ∀ l p, env.zk.partyStart = .ok l → env.zk.setStart = .ok p →
      NotesOf PlainItem (startNotes env.zk l p ++ env.meanwhile))
    (h : Grouped.connect naiveFn env fuel hosts (Alloc.new name) (Grouped.new cl0) =
      (.done (), c', al', steps, off)) :
    steps = [.cluster, .allocator, .coordinator] ∧
    (∃ cl m, cl0.start env.reach env.ask env.cluster fuel hosts = (.done (), cl) ∧
      ((∃ x, env.ask x = .ok m) ∨ ∃ n ts id, env.cluster.ask n ts id = .ok m) ∧ InSync cl m ∧
      ∃ items, off = some items ∧ elements items = led cl) ∧
    (∃ l p, env.zk.partyStart = .ok l ∧ env.zk.setStart = .ok p ∧
      ((∃ a, Grouped.allocation c' = .ok a) ↔
        changes (startNotes env.zk l p ++ env.meanwhile) ≠ 0) ∧
      ∀ a, Grouped.allocation c' = .ok a → ∀ ms ps,
        SortedSet ms (latestMembers (startNotes env.zk l p ++ env.meanwhile)) →
        SortedSet ps (latestPartitions (startNotes env.zk l p ++ env.meanwhile)) →
        ∃ d, naiveFn ms ps = .ok d ∧ ∀ t, (a.get? t).getD [] = lookup d.entries name t) ∧
    ∃ k r, (env.coord k).outcome = .ok r ∧ ¬ Retriable r.code ∧
      (∀ i < k, ∃ q, (env.coord i).outcome = .ok q ∧ Retriable q.code) ∧
      c'.ext.coordinator = if r.code = 0 then some r.coordinator else .none := by
  unfold Grouped.connect at h
  rcases h1 : (Grouped.new cl0).cluster.start env.reach env.ask env.cluster fuel hosts with ⟨_ | _ | _, cl⟩
  case raised => simp [h1] at h
  case running => simp [h1] at h
  rw [h1] at h
  simp only at h
  rcases h2 : (Alloc.new name).start naiveFn env.zk with ⟨out, al1, ran⟩
  rw [h2] at h
  simp only at h
  rcases out with _ | _ | _
  · cases h
  · cases h
  · simp only at h
    rcases h3 : Grouped.determineCoordinator env.coord fuel (Grouped.allocatedBy (Alloc.new name) al1
        { Grouped.new cl0 with cluster := cl }) with ⟨o, c1, asked⟩
    rw [h3] at h
    simp only [Prod.mk.injEq] at h
    obtain ⟨rfl, rfl, rfl, rfl, rfl⟩ := h
    obtain ⟨k, r, _, g2, g3, g4, g5⟩ := coordinatorLoop_done env.coord fuel 0 [] _ _ _ h3
    obtain ⟨⟨m, hm, hs⟩, hled⟩ := start_inSync _ _ _ _ _ _ _ h1
    obtain ⟨l, p, hl, hp, rfl, hran⟩ := start_resolved _ _ _ _ _ h2
    have hreads := reads_after name _ (hplain l p hl hp)
    refine ⟨rfl, ⟨cl, m, h1, hm, hs, addedItems cl.topics, ?_, ?_⟩, ⟨l, p, hl, hp, ?_⟩, k, r, ?_, g3, ?_, ?_⟩
    · rw [if_pos (by rw [hran]; simp)]
    · rw [addedItems_spec, hled]
    · rw [notifyAll_append] at hreads
      simp only [allocation_allocatedBy]
      exact hreads
    · rw [← g2]; congr 2; omega
    · exact fun i hi => g4 i (by omega) (by omega)
    · simp only [Grouped.allocatedBy]
      rw [g5]
      rfl

/-- **C90**, partial: if some host answers with metadata that leaves nothing to be looked at again,
all of its brokers can be connected to, nothing fails in zookeeper, there is a member or a partition
to be seen there, and some broker names the coordinator, those asked before it having answered that
they cannot for now: then `connect` returns, and the consumer is ready.  Missing: `C90_false`. -/
theorem C90_ready_partial (name : String) (env : ConnectEnv) (fuel : Nat)
    (pre post : List (List Char)) (s : List Char) (x : List Char × Int) (m : Metadata)
    (hpre : ∀ s ∈ pre, ∃ y, parseHost s = .ok y ∧ env.reach y ≠ .none)
    (hs : parseHost s = .ok x) (hr : env.reach x = .none) (ha : env.ask x = .ok m)
    (hc : ∀ k, env.cluster.connect 0 k = .none) (hb : m.brokers ≠ [])
    (ht : ∀ t, ¬ NeedsLook (Reachable Cluster.new m) m.topics t)
    (l : List String) (p : List String)
    (hz : env.zk.connected = true ∧ env.zk.connectedAdd = true ∧ env.zk.connect = .ok () ∧
      env.zk.partyStart = .ok l ∧ env.zk.setStart = .ok (some p) ∧ env.zk.join = .ok () ∧
      env.zk.addItems = .ok ())
    (hplain : NotesOf PlainItem (startNotes env.zk l (some p) ++ env.meanwhile))
    (hsome : changes (startNotes env.zk l (some p) ++ env.meanwhile) ≠ 0)
    (ans : Nat → CoordResp) (k : Nat)
    (henv : ∀ i ≤ k, (env.coord i).outcome = .ok (ans i) ∧ (env.coord i).write = .none ∧
      HealsWell (env.coord i))
    (hretry : ∀ i < k, Retriable (ans i).code) (hok : (ans k).code = 0) (hf : 2 * k + 2 ≤ fuel) :
    ∃ c' al' cl items a, Grouped.connect naiveFn env fuel (pre ++ s :: post) (Alloc.new name)
        (Grouped.new Cluster.new) =
        (.done (), c', al', [.cluster, .allocator, .coordinator], some items) ∧
      Cluster.new.start env.reach env.ask env.cluster fuel (pre ++ s :: post) = (.done (), cl) ∧
      InSync cl m ∧ elements items = led cl ∧ Grouped.allocation c' = .ok a ∧
      c'.ext.coordinator = some (ans k).coordinator := by
  obtain ⟨fuel, rfl⟩ : ∃ f, fuel = f + 1 := ⟨fuel - 1, by omega⟩
  obtain ⟨cl, h1, hsync⟩ := C22_clean_partial env.cluster fuel m Cluster.new hc ht
  have h0 := C23_bootstrap_partial env.reach env.ask env.cluster (fuel + 1) Cluster.new pre post s x m
    hpre hs hr ha
  rw [h1] at h0
  obtain ⟨z1, z2, z3, z4, z5, z6, z7⟩ := hz
  have hst := C62_start_partial naiveFn PlainItem name (naive_usable name) env.zk z1 (.inl z2)
    (fun l' p' hl hp => by
      rw [z4] at hl; rw [z5] at hp; cases hl; cases hp
      exact fun l hl => hplain l (List.mem_append_left _ hl))
  rcases h2 : (Alloc.new name).start naiveFn env.zk with ⟨out, al', ran⟩
  rw [h2] at hst
  have hout : out = some (.ok ()) := by
    have := hst.1
    simp only at this
    rw [this]
    simp [startOutcomes, z3, z4, z5, z6, z7, setStartOutcome, inOrder, Except.map]
  subst hout
  obtain ⟨l', p', hl', hp', hal', hran'⟩ := start_resolved _ _ _ _ _ h2
  rw [z4] at hl'; rw [z5] at hp'; cases hl'; cases hp'
  have hreads := (reads_after name _ hplain).1
  rw [notifyAll_append, ← hal'] at hreads
  obtain ⟨a, hal⟩ := hreads.2 hsome
  have hne : cl.conns ≠ [] := by
    obtain ⟨b, hb'⟩ := List.exists_mem_of_ne_nil _ hb
    have := hsync.brokers b hb'
    intro he
    rw [he] at this
    simp [Dict.keys] at this
  obtain ⟨c', asked, g1, g2, _⟩ := C53_found_partial env.coord ans k (fuel + 1)
    (Grouped.allocatedBy (Alloc.new name) al' { Grouped.new Cluster.new with cluster := cl })
    henv hretry hok hne hf
  obtain ⟨_, r, _, _, _, _, g5⟩ := coordinatorLoop_done env.coord (fuel + 1) 0 [] _ _ _ g1
  have hran : StartStep.addPartitions ∈ ran := by
    rw [hran']; simp
  refine ⟨Grouped.allocatedBy al' (al'.notifyAll naiveFn env.meanwhile) c',
    al'.notifyAll naiveFn env.meanwhile, cl, addedItems cl.topics, a, ?_, h0, hsync, ?_, ?_, ?_⟩
  · unfold Grouped.connect
    rw [show (Grouped.new Cluster.new).cluster = Cluster.new from rfl, h0]
    simp only [h2, g1, if_pos hran]
  · rw [addedItems_spec, (start_inSync _ _ _ _ _ _ _ h0).2]
  · exact (allocation_allocatedBy _ _ _ _).2 hal
  · exact g2

theorem notify_calls (fn : AllocFn) (n : Note) (s : Alloc) : s.calls ≤ (s.notify fn n).2.calls := by
  have hreb : ∀ s : Alloc, s.calls ≤ (s.rebalance fn).2.calls := by
    intro s
    unfold Alloc.rebalance
    split
    · exact Nat.le_refl _
    · rename_i d _
      have ha : ∀ a : Alloc, a.allocation.2.calls = a.calls := by
        intro a
        unfold Alloc.allocation
        split
        · rfl
        · split <;> rfl
      have := ha { s with mapping := d }
      split
      · rename_i h; rw [h] at this; simp only at this ⊢; omega
      · rename_i h; rw [h] at this; simp only at this ⊢; omega
  cases n with
  | members l =>
    simp only [Alloc.notify, Alloc.onMembers]
    split
    · exact Nat.le_refl _
    · have := hreb { s with members := pySet l }
      split <;> rename_i h <;> rw [h] at this <;> exact this
  | partitions l =>
    simp only [Alloc.notify, Alloc.onPartitions]
    split
    · exact Nat.le_refl _
    · rename_i new _
      split
      · exact Nat.le_refl _
      · have := hreb { s with partitions := new }
        split <;> rename_i h <;> rw [h] at this <;> exact this

theorem notifyAll_calls (fn : AllocFn) (ns : List Note) (s : Alloc) :
    s.calls ≤ (s.notifyAll fn ns).calls := by
  induction ns generalizing s with
  | nil => exact Nat.le_refl _
  | cons n ns ih => exact (notify_calls fn n s).trans (ih _)

theorem coordinatorLoop_keeps (env : Nat → SendEnv CoordResp) (fuel : Nat) :
    ∀ (n : Nat) (bs : List Int) (c c' : Grouped) (asked : List Int),
    Grouped.coordinatorLoop env fuel n bs c = (.done (), c', asked) →
    c'.synced = c.synced ∧ c'.offsets = c.offsets := by
  induction fuel with
  | zero => intro n bs c c' asked h; simp [Grouped.coordinatorLoop] at h
  | succ fuel ih =>
    intro n bs c c' asked h
    cases bs with
    | nil =>
      unfold Grouped.coordinatorLoop at h
      split at h
      · cases h
      · exact ih _ _ _ _ _ h
    | cons b bs =>
      unfold Grouped.coordinatorLoop at h
      rcases hs : c.sendTo coordinatorHandlers (env n) b with ⟨_ | x, c1⟩
      · simp [hs] at h
      · rw [hs] at h
        have hk : c1.synced = c.synced ∧ c1.offsets = c.offsets := by
          obtain ⟨r, f, s, a, cl, ho, hf, hx, rfl⟩ := sendTo_inv hs
          simp only [coordinatorHandlers, Option.some.injEq] at hf
          subst hf
          simp only [handleCoordinatorResponse] at hx
          split at hx
          · simp only [Prod.mk.injEq] at hx
            obtain ⟨_, rfl, _⟩ := hx
            exact ⟨rfl, rfl⟩
          · split at hx <;> simp only [Prod.mk.injEq] at hx <;> obtain ⟨_, rfl, _⟩ := hx <;>
              exact ⟨rfl, rfl⟩
        cases x with
        | true =>
          simp only [Prod.mk.injEq, true_and] at h
          obtain ⟨rfl, rfl⟩ := h
          exact hk
        | false =>
          simp only at h
          rcases hl : Grouped.coordinatorLoop env fuel (n + 1) bs c1 with ⟨o, c2, asked'⟩
          rw [hl] at h
          simp only [Prod.mk.injEq] at h
          obtain ⟨rfl, rfl, rfl⟩ := h
          have := ih _ _ _ _ _ hl
          exact ⟨this.1.trans hk.1, this.2.trans hk.2⟩

/-- **C90**: offsets that were known before `connect` are to be determined anew just if the group was
rebalanced while it ran; none are changed by it. -/
theorem C90_offsets (fn : AllocFn) (env : ConnectEnv) (fuel : Nat) (hosts : List (List Char)) (al : Alloc)
    (c c' : Grouped) (al' : Alloc) (steps : List ConnectStep) (off : Option (List String))
    (h : Grouped.connect fn env fuel hosts al c = (.done (), c', al', steps, off)) :
    c'.offsets = c.offsets ∧ al.calls ≤ al'.calls ∧
    c'.synced = if al'.calls = al.calls then c.synced else [] := by
  unfold Grouped.connect at h
  rcases h1 : c.cluster.start env.reach env.ask env.cluster fuel hosts with ⟨_ | _ | _, cl⟩
  case raised => simp [h1] at h
  case running => simp [h1] at h
  rw [h1] at h
  simp only at h
  rcases h2 : al.start fn env.zk with ⟨out, al1, ran⟩
  rw [h2] at h
  simp only at h
  rcases out with _ | _ | _
  · cases h
  · cases h
  · simp only at h
    rcases h3 : Grouped.determineCoordinator env.coord fuel (Grouped.allocatedBy al al1
        { c with cluster := cl }) with ⟨o, c1, asked⟩
    rw [h3] at h
    simp only [Prod.mk.injEq] at h
    obtain ⟨rfl, rfl, rfl, rfl, rfl⟩ := h
    obtain ⟨g1, g2⟩ := coordinatorLoop_keeps env.coord fuel 0 [] _ _ _ h3
    obtain ⟨l, p, _, _, rfl, _⟩ := start_resolved _ _ _ _ _ h2
    have i1 := notifyAll_calls fn (startNotes env.zk l p) al
    have i2 := notifyAll_calls fn env.meanwhile (al.notifyAll fn (startNotes env.zk l p))
    refine ⟨by simp only [Grouped.allocatedBy]; rw [g2]; rfl, i1.trans i2, ?_⟩
    simp only [Grouped.allocatedBy] at g1 ⊢
    rw [g1]
    split
    · rename_i e
      rw [← e]
      split
      · rename_i e'; rw [if_pos e'.symm]
      · rename_i e'; rw [if_neg (fun x => e' x.symm)]
    · rename_i e
      rw [if_neg]
      intro e'
      omega

/-- **C90**: a `connect` that fails to start the cluster, or its allocator, leaves what the failed step has
made of it, and nothing else is touched. -/
theorem C90_failed (fn : AllocFn) (env : ConnectEnv) (fuel : Nat) (hosts : List (List Char)) (al : Alloc)
    (c : Grouped) (e : Exc) :
    (∀ cl, c.cluster.start env.reach env.ask env.cluster fuel hosts = (.raised e, cl) →
      Grouped.connect fn env fuel hosts al c =
        (.raised e, { c with cluster := cl }, al, [.cluster], .none)) ∧
    ∀ cl al' ran, c.cluster.start env.reach env.ask env.cluster fuel hosts = (.done (), cl) →
      al.start fn env.zk = (some (.error e), al', ran) →
      ∃ c' off, Grouped.connect fn env fuel hosts al c =
        (.raised e, c', al', [.cluster, .allocator], off) ∧
        c'.cluster = cl ∧ c'.offsets = c.offsets ∧ c'.ext.coordinator = c.ext.coordinator ∧
        (∀ a, Grouped.allocation c' = .ok a ↔ al'.allocation.1 = .ok a) ∧
        (off ≠ .none → StartStep.addPartitions ∈ ran) := by
  constructor
  · intro cl h1
    unfold Grouped.connect
    rw [h1]
  · intro cl al' ran h1 h2
    unfold Grouped.connect
    rw [h1]
    simp only [h2]
    refine ⟨_, _, rfl, rfl, rfl, rfl, fun a => allocation_allocatedBy _ _ _ _, fun h => ?_⟩
    by_contra hn
    rw [if_neg hn] at h
    exact h rfl

/-! ### Not ready -/

/-- C90 as stated: once `connect` has returned, the allocation can be read and there is a
coordinator. -/
def Spec.ConnectedIsReady : Prop :=
  ∀ (name : String) (env : ConnectEnv) (fuel : Nat) (hosts : List (List Char)) (c' : Grouped)
    (al' : Alloc) (steps : List ConnectStep) (off : Option (List String)),
    Grouped.connect naiveFn env fuel hosts (Alloc.new name) (Grouped.new Cluster.new) =
      (.done (), c', al', steps, off) →
    (∃ a, Grouped.allocation c' = .ok a) ∧ ∃ b, c'.ext.coordinator = some b

/-- One broker that leads two partitions; another member is there, and the consumer is told that it
has joined; the broker has no coordinator to name at first, then names itself. -/
def exConnect : ConnectEnv where
  reach _ := .none
  ask _ := .ok ⟨[⟨1, "h", 9⟩], [⟨0, "logs", [⟨0, 0, 1⟩, ⟨0, 1, 1⟩]⟩]⟩
  cluster := ⟨fun _ _ _ => .error .noBrokers, fun _ _ => .none⟩
  zk := exJoined
  coord n := ⟨.ok ⟨if n = 0 then 15 else 0, 1⟩, .none, fun cl => (.ok (), cl)⟩

theorem exConnect_runs : Grouped.connect naiveFn exConnect 4 ["h:9".toList] (Alloc.new "a")
    (Grouped.new Cluster.new) =
    (.done (), ⟨⟨[(1, ⟨"h", 9, false⟩)], [("logs", [0, 1])], [("logs", [(0, 1), (1, 1)])]⟩, [], [], false,
        false, ⟨some 1, [], some [("logs", [0])]⟩⟩,
      ⟨"a", ["b", "a"], ["logs:0", "logs:1"], true, true,
        ⟨[("a", [("logs", [0])]), ("b", [("logs", [1])])], true⟩, 3⟩,
      [.cluster, .allocator, .coordinator], some ["logs:0", "logs:1"]) := by decide +kernel

/-- A group that nobody has used. -/
theorem exNew_runs : Grouped.connect naiveFn { exConnect with zk := exFresh } 4 ["h:9".toList] (Alloc.new "a")
    (Grouped.new Cluster.new) =
    (.done (), ⟨⟨[(1, ⟨"h", 9, false⟩)], [("logs", [0, 1])], [("logs", [(0, 1), (1, 1)])]⟩, [], [], false,
        false, ⟨some 1, [], .none⟩⟩,
      ⟨"a", [], [], true, true, ⟨[], false⟩, 0⟩,
      [.cluster, .allocator, .coordinator], some ["logs:0", "logs:1"]) := by decide +kernel

/-- **C90** is false: in a group that nobody has used, the consumer does not see its own joining
before `connect` returns, and has no allocation. -/
theorem C90_false : ¬ ConnectedIsReady := by
  intro h
  obtain ⟨⟨a, ha⟩, _⟩ := h "a" { exConnect with zk := exFresh } 4 ["h:9".toList] _ _ _ _ exNew_runs
  simp [Grouped.allocation] at ha

/-- The broker's answer is a fatal code. -/
def exNoCoordinator : ConnectEnv :=
  { exConnect with coord := fun _ => ⟨.ok ⟨30, 1⟩, .none, fun cl => (.ok (), cl)⟩ }

theorem exNoCoordinator_runs : Grouped.connect naiveFn exNoCoordinator 4 ["h:9".toList] (Alloc.new "a")
    (Grouped.new Cluster.new) =
    (.done (), ⟨⟨[(1, ⟨"h", 9, false⟩)], [("logs", [0, 1])], [("logs", [(0, 1), (1, 1)])]⟩, [], [], false,
        false, ⟨.none, [], some [("logs", [0])]⟩⟩,
      ⟨"a", ["b", "a"], ["logs:0", "logs:1"], true, true,
        ⟨[("a", [("logs", [0])]), ("b", [("logs", [1])])], true⟩, 3⟩,
      [.cluster, .allocator, .coordinator], some ["logs:0", "logs:1"]) := by decide +kernel

/-- **C90** is false for another reason: an answer with a fatal code leaves the consumer without a
coordinator, and `connect` returns all the same. -/
theorem C90_false_coordinator : ¬ ConnectedIsReady := by
  intro h
  obtain ⟨_, b, hb⟩ := h "a" exNoCoordinator 4 ["h:9".toList] _ _ _ _ exNoCoordinator_runs
  simp at hb

/-- **C90**: a consumer that is not ready cannot consume: without a coordinator, or without an allocation,
`consume` raises a `KeyError` whatever happens outside, for any topic whose offsets have not been
determined, and sends nothing. -/
theorem C90_stuck {β δ : Type} (gcfg : GCfg) (cfg : CCfg β δ) (env : GroupEnv β) (fuel : Nat)
    (topic : String) (c : Grouped) (hc : c.closing = false) (ht : topic ∉ c.synced)
    (h : c.ext.coordinator = .none ∨ c.ext.mapping = .none) :
    (Grouped.consume gcfg cfg env (fuel + 1) topic c).1 = .raised .keyError ∧
    (Grouped.consume gcfg cfg env (fuel + 1) topic c).2.2 = ([.determine], []) := by
  have hd : (Grouped.determine cfg.plain env.offsets (fuel + 1) topic c).1 = .raised .keyError := by
    unfold Grouped.determine
    cases hm : c.ext.mapping with
    | none => rfl
    | some a =>
      rcases h with h | h
      · simp only [Grouped.determineLoop, Grouped.sendCoordinator, h]
        split <;> rfl
      · rw [hm] at h; cases h
  unfold Grouped.consume
  rw [if_neg (by rw [hd]; simp)]
  simp [Consumer.consume, hc, ht, Grouped.determineRes, hd, Run.toRes]

/-! ### Cases -/

/-- A case for `C90_ready_partial` and `C90_returned`: `exConnect_runs`. -/
example : parseHost "h:9".toList = .ok ("h".toList, 9) ∧
    (∀ t, ¬ NeedsLook (Reachable Cluster.new ⟨[⟨1, "h", 9⟩], [⟨0, "logs", [⟨0, 0, 1⟩, ⟨0, 1, 1⟩]⟩]⟩)
      [⟨0, "logs", [⟨0, 0, 1⟩, ⟨0, 1, 1⟩]⟩] t) ∧
    changes (startNotes exJoined ["b"] (some ["logs:0", "logs:1"])) = 3 ∧ Retriable 15 ∧
    HealsWell (exConnect.coord 0) := by
  refine ⟨by decide +kernel, ?_, by decide +kernel, by decide, fun cl => ⟨rfl, fun _ => rfl⟩⟩
  rintro t ⟨x, hx, rfl, h⟩
  simp only [List.mem_cons, List.not_mem_nil, or_false] at hx
  subst hx
  simp [Reachable] at h

/-- A case for `C90_order`: zookeeper refuses, and no broker is asked for the coordinator. -/
example : Grouped.connect naiveFn { exConnect with zk := { exJoined with join := .error (.other 7) } } 4
    ["h:9".toList] (Alloc.new "a") (Grouped.new Cluster.new) =
    (.raised (.other 7), ⟨⟨[(1, ⟨"h", 9, false⟩)], [("logs", [0, 1])], [("logs", [(0, 1), (1, 1)])]⟩, [], [],
        false, false, ⟨.none, [], some [("logs", [0])]⟩⟩,
      ⟨"a", ["b", "a"], ["logs:0", "logs:1"], true, true,
        ⟨[("a", [("logs", [0])]), ("b", [("logs", [1])])], true⟩, 3⟩,
      [.cluster, .allocator], .none) := by decide +kernel

/-- A case for `C90_order`: no host can be reached. -/
example : Grouped.connect naiveFn { exConnect with reach := fun _ => some .streamClosed } 4
    ["h:9".toList] (Alloc.new "a") (Grouped.new Cluster.new) =
    (.raised .noBrokers, Grouped.new Cluster.new, Alloc.new "a", [.cluster], .none) := by decide +kernel

/-- A case for `C90_offsets`: a member leaves while the coordinator is looked for, and the consumer has the
whole topic when `connect` returns. -/
theorem exMeanwhile_runs : Grouped.connect naiveFn { exConnect with meanwhile := [.members ["a"]] } 4
    ["h:9".toList] (Alloc.new "a")
    { Grouped.new Cluster.new with synced := ["logs"], offsets := [("logs", [(0, 5)])] } =
    (.done (), ⟨⟨[(1, ⟨"h", 9, false⟩)], [("logs", [0, 1])], [("logs", [(0, 1), (1, 1)])]⟩,
        [("logs", [(0, 5)])], [], false, false, ⟨some 1, [], some [("logs", [0, 1])]⟩⟩,
      ⟨"a", ["a"], ["logs:0", "logs:1"], true, true, ⟨[("a", [("logs", [0, 1])])], true⟩, 4⟩,
      [.cluster, .allocator, .coordinator], some ["logs:0", "logs:1"]) := by decide +kernel

example := C90_offsets _ _ _ _ _ _ _ _ _ _ exMeanwhile_runs

/-- A case for `C90_failed`: a host that is reached and does not answer. -/
example := (C90_failed naiveFn { exConnect with ask := fun _ => .error .streamClosed } 4 ["h:9".toList]
  (Alloc.new "a") (Grouped.new Cluster.new) .streamClosed).1 _ (by rfl)

end Kiel
