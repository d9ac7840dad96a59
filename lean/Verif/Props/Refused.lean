import Verif.Props.Order
/-
C124: messages for which no key or no value can be made.
-/
set_option autoImplicit false
namespace Kiel
open Spec

section
variable {α κ β γ : Type}

/-- The exception that keeps a message from being made: that of the key maker, or else that of
the serializer. -/
inductive Spec.Unmakeable (cfg : PCfg α κ β) (a : α) (e : Exc) : Prop
  | key (h : cfg.keyMaker a = .error e)
  | value (k : κ) (hk : cfg.keyMaker a = .ok k) (h : cfg.serializer a = .error e)

/-- The key and the value made for a message, if both can be made. -/
def Spec.made (cfg : PCfg α κ β) (a : α) : Option (Msg κ β) :=
  match cfg.keyMaker a, cfg.serializer a with
  | .ok k, .ok v => some ⟨k, v⟩
  | _, _ => .none

/-- Calls of `produce` that do not flush (there is room in the batch), one after the other. -/
def Spec.calls (cfg : PCfg α κ β) (p : Producer κ β) (l : List (String × α)) : Producer κ β :=
  l.foldl (fun p x => (p.step cfg (.produce x.1 x.2 : PEv α κ β Unit)).2) p

theorem inQueue_getDefault (q : Dict String (List (Msg κ β))) (t : String) :
    inQueue (q.getDefault t []).1 = inQueue q := by
  unfold Dict.getDefault
  cases h : q.get? t with
  | some x => rfl
  | none =>
    simp only
    induction q with
    | nil => rfl
    | cons e r ih =>
      obtain ⟨x, y⟩ := e
      simp only [Dict.get?] at h
      split at h
      · simp at h
      · rename_i hx
        have ih := ih h
        simp only [inQueue] at ih ⊢
        simp only [Dict.set, hx, if_false, List.flatMap_cons, ih]

theorem queueOf_getDefault (q : Dict String (List (Msg κ β))) (t t' : String) :
    queueOf (q.getDefault t []).1 t' = queueOf q t' := by
  unfold Dict.getDefault
  cases h : q.get? t with
  | some x => rfl
  | none =>
    simp only [queueOf, Dict.get?_set]
    split
    · rename_i h'; subst h'; simp [h]
    · rfl

theorem nodup_unsentDefault {q : Dict String (List (Msg κ β))} (hn : q.keys.Nodup) (t : String) :
    (q.getDefault t []).1.keys.Nodup := by
  unfold Dict.getDefault
  cases h : q.get? t with
  | some x => exact hn
  | none => exact Dict.nodup_set hn t []

theorem enqueue_refused {cfg : PCfg α κ β} {a : α} {e : Exc} (h : Unmakeable cfg a e)
    (p : Producer κ β) (t : String) :
    p.enqueue cfg t a = (.error e, { p with unsent := (p.unsent.getDefault t []).1 }) := by
  unfold Producer.enqueue
  cases h with
  | key h => simp only [h]
  | value k hk h => simp only [hk, h]

theorem made_cases (cfg : PCfg α κ β) (a : α) :
    (∃ k v, cfg.keyMaker a = .ok k ∧ cfg.serializer a = .ok v ∧ made cfg a = some ⟨k, v⟩) ∨
      (made cfg a = .none ∧ ∃ e, Unmakeable cfg a e) := by
  unfold made
  cases hk : cfg.keyMaker a with
  | error e => exact .inr ⟨rfl, e, .key hk⟩
  | ok k =>
    cases hv : cfg.serializer a with
    | error e => exact .inr ⟨rfl, e, .value k hk hv⟩
    | ok v => exact .inl ⟨k, v, rfl, rfl, rfl⟩

/-- **C124**: `produce` of a message for which the key maker or the serializer raises raises that
exception.  Nothing is sent, and all messages that were queued or in flight are where they
were. -/
theorem C124_raises (cfg : PCfg α κ β) (env : FlushEnv κ β γ) (p : Producer κ β) (t : String)
    (a : α) (e : Exc) (h : Unmakeable cfg a e) (hc : p.closing = false)
    (ht : p.cluster.topics.has t = true) :
    ∃ p', p.produce cfg env t a = (.error e, p', []) ∧ p'.cluster = p.cluster ∧
      p'.sent = p.sent ∧ p'.heal = p.heal ∧ p'.closing = p.closing ∧ p'.lastId = p.lastId ∧
      inQueue p'.unsent = inQueue p.unsent ∧
      ∀ t', queueOf p'.unsent t' = queueOf p.unsent t' := by
  refine ⟨{ p with unsent := (p.unsent.getDefault t []).1 }, ?_, rfl, rfl, rfl, rfl, rfl,
    inQueue_getDefault _ _, queueOf_getDefault _ _⟩
  unfold Producer.produce
  simp only [hc, ht, enqueue_refused h, Bool.false_eq_true, if_false, if_true, not_true_eq_false]

/-! ### Later flushes -/

/-- A call puts the message made at the end of its topic's queue, and nothing else. -/
theorem call_effect (cfg : PCfg α κ β) (p : Producer κ β) (x : String × α)
    (hc : p.closing = false) (ht : p.cluster.topics.has x.1 = true) :
    ∃ q, q = (p.step cfg (.produce x.1 x.2 : PEv α κ β Unit)).2 ∧ q.cluster = p.cluster ∧
      q.sent = p.sent ∧ q.closing = p.closing ∧ q.lastId = p.lastId ∧
      (p.unsent.keys.Nodup → q.unsent.keys.Nodup) ∧
      ∀ t, queueOf q.unsent t = queueOf p.unsent t ++
        if x.1 = t then (made cfg x.2).toList else [] := by
  have hs : (p.step cfg (.produce x.1 x.2 : PEv α κ β Unit)).2 = (p.enqueue cfg x.1 x.2).2 := by
    simp only [Producer.step, hc, ht, Bool.false_eq_true, not_true_eq_false, or_false, if_false]
    split <;> rename_i h <;> rw [h]
  rw [hs]
  refine ⟨_, rfl, ?_⟩
  rcases made_cases cfg x.2 with ⟨k, v, hk, hv, hm⟩ | ⟨hm, e, he⟩
  · obtain ⟨p', b, h1, h2, h3, h4, h5, h6, h7, -, -⟩ := enqueue_ok cfg p x.1 x.2 k v hk hv
    rw [h1]
    refine ⟨h2, h3, h5, h6, ?_, fun t => ?_⟩
    · intro hn
      have : p' = { p with unsent := ((p.unsent.getDefault x.1 []).1.upd x.1 []
          (fun y => y ++ [(⟨k, v⟩ : Msg κ β)])) } := by
        unfold Producer.enqueue at h1
        simp only [hk, hv, Prod.mk.injEq] at h1
        exact h1.2.symm
      rw [this]
      exact Dict.nodup_upd (nodup_unsentDefault hn x.1) x.1 [] (fun y => y ++ [(⟨k, v⟩ : Msg κ β)])
    · rw [h7 t, hm]
      by_cases h : x.1 = t
      · subst h; simp
      · simp [h, Ne.symm h]
  · rw [enqueue_refused he]
    refine ⟨rfl, rfl, rfl, rfl, fun hn => nodup_unsentDefault hn x.1, fun t => ?_⟩
    simp only [queueOf_getDefault, hm]
    simp

/-- After a number of calls the queue of a topic holds, after what was there, the messages made,
in the order of the calls. -/
theorem calls_effect (cfg : PCfg α κ β) (l : List (String × α)) (p : Producer κ β)
    (hc : p.closing = false) (ht : ∀ x ∈ l, p.cluster.topics.has x.1 = true) :
    (calls cfg p l).cluster = p.cluster ∧ (calls cfg p l).sent = p.sent ∧
      (calls cfg p l).lastId = p.lastId ∧
      (p.unsent.keys.Nodup → (calls cfg p l).unsent.keys.Nodup) ∧
      ∀ t, queueOf (calls cfg p l).unsent t = queueOf p.unsent t ++
        l.flatMap fun x => if x.1 = t then (made cfg x.2).toList else [] := by
  induction l generalizing p with
  | nil => simp [calls]
  | cons x l ih =>
    simp only [List.mem_cons, forall_eq_or_imp] at ht
    obtain ⟨q, hq, h1, h2, h3, h4, h5, h6⟩ := call_effect cfg p x hc ht.1
    have ih := ih q (h3 ▸ hc) (h1 ▸ ht.2)
    have e : calls cfg p (x :: l) = calls cfg q l := by rw [hq]; rfl
    rw [e]
    refine ⟨ih.1.trans h1, ih.2.1.trans h2, ih.2.2.1.trans h4, fun hn => ih.2.2.2.1 (h5 hn),
      fun t => ?_⟩
    rw [ih.2.2.2.2 t, h6 t]
    simp

theorem inQueue_topic (q : Dict String (List (Msg κ β))) (hn : q.keys.Nodup) (t : String) :
    ((inQueue q).filter fun x => decide (x.1 = t)).map (·.2) = queueOf q t := by
  have : ((inQueue q).filter fun x => decide (x.1 = t)).map (·.2) =
      q.flatMap fun e => if e.1 = t then e.2 else [] := by
    unfold inQueue
    rw [List.filter_flatMap, List.map_flatMap]
    congr 1
    funext e
    by_cases h : e.1 = t
    · simp [h, List.filter_map, Function.comp_def]
    · simp [h, List.filter_map, Function.comp_def]
  rw [this, flatMap_key q hn t (fun x => x)]
  unfold queueOf
  cases q.get? t <;> simp

theorem get?_reverse' {ν : Type} {q : Dict String ν} (hn : q.keys.Nodup) (t : String) :
    Dict.get? q.reverse t = q.get? t := by
  have hr : (Dict.keys q.reverse).Nodup := by
    simpa [Dict.keys, List.map_reverse] using hn
  cases h : q.get? t with
  | some v => exact Dict.get?_of_mem hr (List.mem_reverse.2 (Dict.mem_of_get? h))
  | none =>
    rw [Dict.get?_eq_none] at h ⊢
    simpa [Dict.keys, List.map_reverse] using h

theorem placed_topic {pick : Nat → κ → List Int → Res Int} {cl : Cluster}
    {q : Dict String (List (Msg κ β))} {pl : List (Place κ β)} (h : Placements pick cl q pl)
    (hn : q.keys.Nodup) (t : String) :
    (pl.filter fun x => decide (x.topic = t)).map (·.msg) = queueOf q t := by
  have hr : (Dict.keys q.reverse).Nodup := by
    simpa [Dict.keys, List.map_reverse] using hn
  have h1 := inQueue_topic q.reverse hr t
  rw [← h.all, List.filter_map, List.map_map] at h1
  have h2 : queueOf q.reverse t = queueOf q t := by
    unfold queueOf
    rw [get?_reverse' hn]
  rw [← h2, ← h1]
  rfl

open Classical in
/-- With a partitioner that goes by the key and the partitions alone, which messages are placed
where depends on the queues of the topics only. -/
theorem placedOn_queue {f : κ → List Int → Res Int} {cl : Cluster}
    {q : Dict String (List (Msg κ β))} {pl : List (Place κ β)}
    (h : Placements (fun _ => f) cl q pl) (hn : q.keys.Nodup) (b : Int) (t : String) (part : Int) :
    placedOn pl b t part = (queueOf q t).filter fun m =>
      decide (f m.key ((cl.topics.get? t).getD []) = .ok part ∧
        ((cl.leaders.get? t).getD []).get? part = some b) := by
  rw [← placed_topic h hn t, List.filter_map, List.filter_filter]
  unfold placedOn
  congr 1
  refine List.filter_congr fun x hx => ?_
  obtain ⟨i, hi, rfl⟩ := List.getElem_of_mem hx
  have h1 := h.picked i hi
  have h2 := h.led _ hx
  by_cases ht : pl[i].topic = t
  · subst ht
    simp only [Function.comp_apply, h1, true_and, decide_true, Bool.and_true, decide_eq_decide,
      Except.ok.injEq]
    constructor
    · rintro ⟨rfl, rfl⟩; exact ⟨rfl, h2⟩
    · rintro ⟨rfl, h3⟩; rw [h2] at h3; exact ⟨Option.some.inj h3, rfl⟩
  · simp [ht]

open Classical in
theorem unplaced_queue {f : κ → List Int → Res Int} {cl : Cluster}
    {q : Dict String (List (Msg κ β))} {pl : List (Place κ β)}
    (h : Placements (fun _ => f) cl q pl) (hn : q.keys.Nodup) (t : String) :
    unplaced cl pl t = (queueOf q t).filter fun m =>
      decide (∃ part b, f m.key ((cl.topics.get? t).getD []) = .ok part ∧
        ((cl.leaders.get? t).getD []).get? part = some b ∧ cl.conns.has b = false) := by
  rw [← placed_topic h hn t, List.filter_map, List.filter_filter]
  unfold unplaced
  congr 1
  refine List.filter_congr fun x hx => ?_
  obtain ⟨i, hi, rfl⟩ := List.getElem_of_mem hx
  have h1 := h.picked i hi
  have h2 := h.led _ hx
  by_cases ht : pl[i].topic = t
  · subst ht
    cases hb : cl.conns.has pl[i].leader with
    | false =>
      simp only [Function.comp_apply, h1, Except.ok.injEq, decide_true, Bool.not_false,
        Bool.and_true]
      symm
      rw [decide_eq_true_eq]
      exact ⟨_, _, rfl, h2, hb⟩
    | true =>
      simp only [Function.comp_apply, h1, Except.ok.injEq, decide_true, Bool.not_true,
        Bool.and_true, Bool.and_false]
      symm
      rw [decide_eq_false_iff_not]
      rintro ⟨_, b, rfl, h3, h4⟩
      rw [h2] at h3
      rw [← Option.some.inj h3, hb] at h4
      cases h4
  · simp [ht]

theorem queue_mem {q : Dict String (List (Msg κ β))} (hn : q.keys.Nodup)
    {e : String × List (Msg κ β)} (he : e ∈ q) : queueOf q e.1 = e.2 := by
  simp [queueOf, Dict.get?_of_mem hn he]

/-- What two flushes put into requests is the same if the queues of all topics are. -/
theorem prepare_same {f : κ → List Int → Res Int} {comp : List (Msg κ β) → Res γ}
    {p q p' : Producer κ β} {o : Option (List (PReq γ))} (hwp : WF p) (hwq : WF q)
    (hnp : p.unsent.keys.Nodup) (hnq : q.unsent.keys.Nodup) (hcl : q.cluster = p.cluster)
    (hq : ∀ t, queueOf q.unsent t = queueOf p.unsent t)
    (h : p.prepare (fun _ => f) comp = (.ok o, p')) :
    ∃ o' q', q.prepare (fun _ => f) comp = (.ok o', q') ∧
      (∀ b t part set, Holds (o'.getD []) b t part set ↔ Holds (o.getD []) b t part set) ∧
      ∀ t, queueOf q'.unsent t = queueOf p'.unsent t := by
  -- what a flush that succeeds does, in terms of the queues
  have key : ∀ {p p' : Producer κ β} {o : Option (List (PReq γ))}, WF p → p.unsent.keys.Nodup →
      p.prepare (fun _ => f) comp = (.ok o, p') →
      ∃ pl, Placements (fun _ => f) p.cluster p.unsent pl ∧
        (∀ b t part set, Holds (o.getD []) b t part set ↔ p.cluster.conns.has b = true ∧
          placedOn pl b t part ≠ [] ∧ comp (placedOn pl b t part) = .ok set) ∧
        (∀ b t part, p.cluster.conns.has b = true → placedOn pl b t part ≠ [] →
          ∃ set, Holds (o.getD []) b t part set) ∧
        ∀ t, queueOf p'.unsent t = unplaced p.cluster pl t := by
    intro p p' o hw hn h
    cases o with
    | some reqs =>
      obtain ⟨pl, h1, -, h3, h4, h5⟩ := C28_routing _ comp p p' reqs hw h
      exact ⟨pl, h1, h3, h4, h5⟩
    | none =>
      obtain ⟨rfl, h2⟩ := prepare_none h
      refine ⟨[], ⟨by simp [h2, inQueue], by simp, by simp⟩, ?_, ?_, ?_⟩
      · simp [placedOn, Holds]
      · simp [placedOn]
      · simp [unplaced, h2, queueOf, Dict.get?]
  obtain ⟨pl, a1, a2, a3, a4⟩ := key hwp hnp h
  have hplaced : ∀ {pl'}, Placements (fun _ => f) q.cluster q.unsent pl' → ∀ b t part,
      placedOn pl' b t part = placedOn pl b t part := by
    intro pl' hpl b t part
    rw [placedOn_queue hpl hnq, placedOn_queue a1 hnp, hq t, hcl]
  cases hr : q.prepare (fun _ => f) comp with
  | mk res q' =>
    cases res with
    | error e =>
      exfalso
      rcases C33_loses _ comp q q' e hr with ⟨kept, gone, e1, -, -, x, hx, m, hm, n, hun⟩ |
        ⟨-, pl', b1, b, t, part, b2, b3, b4⟩
      · have hxq : x ∈ q.unsent := by rw [e1]; simp [hx]
        have hmp : m ∈ (pl.filter fun y => decide (y.topic = x.1)).map (·.msg) := by
          rw [placed_topic a1 hnp, ← hq, queue_mem hnq hxq]
          exact hm
        obtain ⟨y, hy, rfl⟩ := List.mem_map.1 hmp
        obtain ⟨hy, hyt⟩ := List.mem_filter.1 hy
        have hyt := of_decide_eq_true hyt
        obtain ⟨i, hi, rfl⟩ := List.getElem_of_mem hy
        have c1 := a1.picked i hi
        have c2 := a1.led _ hy
        rw [hyt] at c1 c2
        rw [hcl] at hun
        simp only at hun
        rcases hun with hun | ⟨part, hun1, hun2, -⟩
        · rw [c1] at hun; cases hun
        · rw [c1] at hun1
          cases hun1
          rw [c2] at hun2
          cases hun2
      · rw [hplaced b1] at b3 b4
        rw [hcl] at b2
        obtain ⟨set, hset⟩ := a3 b t part b2 b3
        have := ((a2 b t part set).1 hset).2.2
        rw [this] at b4
        cases b4
    | ok o' =>
      obtain ⟨pl', b1, b2, b3, b4⟩ := key hwq hnq hr
      refine ⟨o', q', rfl, ?_, ?_⟩
      · intro b t part set
        rw [b2, a2, hplaced b1, hcl]
      · intro t
        rw [b4, a4, unplaced_queue b1 hnq, hcl, unplaced_queue a1 hnp, hq]

/-- **C124**: calls of `produce`, some of which raise because the key or the value cannot be
made, are followed by a flush, whose partitioner goes by keys and partitions: it puts into
requests, for each leader, topic and partition, just what it would have if the calls that raise
had not been made, and leaves the same queues; if it would not have raised, it does not. -/
theorem C124_as_if (cfg : PCfg α κ β) (f : κ → List Int → Res Int)
    (comp : List (Msg κ β) → Res γ) (p p' : Producer κ β) (l : List (String × α))
    (o : Option (List (PReq γ))) (hw : WF p) (hn : p.unsent.keys.Nodup)
    (hc : p.closing = false) (ht : ∀ x ∈ l, p.cluster.topics.has x.1 = true)
    (h : (calls cfg p (l.filter fun x => (made cfg x.2).isSome)).prepare (fun _ => f) comp =
      (.ok o, p')) :
    ∃ o' q', (calls cfg p l).prepare (fun _ => f) comp = (.ok o', q') ∧
      (∀ b t part set, Holds (o'.getD []) b t part set ↔ Holds (o.getD []) b t part set) ∧
      ∀ t, queueOf q'.unsent t = queueOf p'.unsent t := by
  obtain ⟨a1, a2, a3, a4, a5⟩ := calls_effect cfg l p hc ht
  obtain ⟨b1, b2, b3, b4, b5⟩ := calls_effect cfg (l.filter fun x => (made cfg x.2).isSome) p hc
    (fun x hx => ht x (List.mem_filter.1 hx).1)
  have wf : ∀ {q : Producer κ β}, q.sent = p.sent → q.lastId = p.lastId → WF q := by
    intro q e1 e2
    exact ⟨e1 ▸ hw.nodup, e1 ▸ e2 ▸ hw.old, e1 ▸ hw.topics⟩
  refine prepare_same (wf b2 b3) (wf a2 a3) (b4 hn) (a4 hn) (a1.trans b1.symm) (fun t => ?_) h
  rw [a5, b5]
  congr 1
  clear a1 a2 a3 a4 a5 b1 b2 b3 b4 b5 h ht
  induction l with
  | nil => rfl
  | cons x l ih =>
    simp only [List.flatMap_cons, ih, List.filter_cons]
    cases hm : made cfg x.2 <;> simp [hm]

/-- **C124**: after any calls of `produce`, what is queued of a topic are the messages for which key
and value could be made, in the order of the calls, and no others. -/
theorem C124_queued (cfg : PCfg α κ β) (p : Producer κ β) (l : List (String × α))
    (hc : p.closing = false) (ht : ∀ x ∈ l, p.cluster.topics.has x.1 = true) (t : String) :
    queueOf (calls cfg p l).unsent t = queueOf p.unsent t ++
      (l.filter fun x => decide (x.1 = t)).filterMap fun x => made cfg x.2 := by
  rw [(calls_effect cfg l p hc ht).2.2.2.2 t]
  congr 1
  induction l with
  | nil => rfl
  | cons x l ih =>
    simp only [List.mem_cons, forall_eq_or_imp] at ht
    simp only [List.flatMap_cons, ih ht.2, List.filter_cons]
    by_cases h : x.1 = t
    · cases hm : made cfg x.2 <;> simp [h, hm]
    · simp [h]

end

/-- As the producer of the documentation that keys messages by an attribute: for 13 there is no
key, for 17 no value. -/
def exRefusing : PCfg Nat Nat Nat where
  keyMaker n := if n = 13 then .error .keyError else .ok (n % 2)
  serializer n := if n = 17 then .error .typeError else .ok n
  batchSize := 9

-- Non-vacuity of C124.
example : Unmakeable exRefusing 13 .keyError := .key rfl
example : Unmakeable exRefusing 17 .typeError := .value 1 rfl rfl
example : (exProducer.produce exRefusing (exFlush (exPAnswer 0)) "t" 13).1 = .error .keyError ∧
    (exProducer.produce exRefusing (exFlush (exPAnswer 0)) "t" 17).1 = .error .typeError ∧
    (exProducer.produce exRefusing (exFlush (exPAnswer 0)) "t" 17).2.2 = [] ∧
    (exProducer.produce exRefusing (exFlush (exPAnswer 0)) "t" 17).2.1 = exProducer := by
  decide +kernel
-- A batch in which some calls raise: the others are flushed.
example :
    ((calls exRefusing exProducer [("t", 2), ("t", 13), ("t", 5), ("t", 17)]).flush
      (exFlush (exPAnswer 0))).2.2 =
    [⟨7, 42, [("t", [(1, [⟨1, 11⟩, ⟨1, 31⟩, ⟨1, 5⟩]), (0, [⟨0, 20⟩, ⟨0, 2⟩])])]⟩] ∧
    ((calls exRefusing exProducer [("t", 2), ("t", 5)]).flush (exFlush (exPAnswer 0))).2.2 =
    [⟨7, 42, [("t", [(1, [⟨1, 11⟩, ⟨1, 31⟩, ⟨1, 5⟩]), (0, [⟨0, 20⟩, ⟨0, 2⟩])])]⟩] := by
  decide +kernel
-- What remains of a call that raises: an entry for the topic, without messages.
example : calls exRefusing (Producer.new exPCluster 1) [("t", 13)] =
    { (Producer.new exPCluster 1 : Producer Nat Nat) with unsent := [("t", [])] } := by
  decide +kernel
example : exProducer.unsent.keys.Nodup ∧ WF exProducer :=
  ⟨by decide, by simp [exProducer, Dict.keys], by simp [exProducer, Dict.keys],
    by simp [exProducer]⟩

end Kiel
