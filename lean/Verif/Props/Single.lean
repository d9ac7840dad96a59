import Verif.Props.Consumer
import Verif.Props.Requests
/-
C42, C43, C65: the single consumer.
-/
set_option autoImplicit false
namespace Kiel
open Spec

variable {β δ : Type}

/-! ### Invariants of `send` -/

theorem sendLoop_inv {σ R ρ : Type} (hs : Handlers σ R ρ) (I : σ → Prop)
    (hI : ∀ r f, hs.handle r = some f → ∀ s, I s → I (f s).2.1)
    (outs : List (Int × Res R)) (results : Dict Int ρ) (s : σ) (heal : Bool) (h : I s) :
    I (sendLoop hs outs results s heal).2.1 := by
  induction outs generalizing results s heal with
  | nil => exact h
  | cons o outs ih =>
    obtain ⟨b, r⟩ := o
    cases r with
    | error e => exact ih _ _ _ h
    | ok r =>
      simp only [sendLoop]
      cases hf : hs.handle r with
      | none => exact h
      | some f =>
        have := hI r f hf s h
        simp only
        cases hfs : f s with
        | mk x y =>
          obtain ⟨s', ask⟩ := y
          rw [hfs] at this
          cases x with
          | error e => exact this
          | ok x => exact ih _ _ _ this

theorem clientSend_inv {σ R ρ : Type} (hs : Handlers σ R ρ) (I : σ → Prop)
    (hI : ∀ r f, hs.handle r = some f → ∀ s, I s → I (f s).2.1) (known : Int → Bool)
    (write : Int → Option Exc) (healC : σ → Res Unit × σ) (hH : ∀ s, I s → I (healC s).2)
    (requests : List Int) (outs : List (Int × Res R)) (s : σ) (heal : Bool) (h : I s) :
    I (clientSend hs known write healC requests outs s heal).2.1 := by
  unfold clientSend
  split
  · exact h
  · have hl := sendLoop_inv hs I hI outs [] s heal h
    split
    · rename_i heq; rw [heq] at hl; exact hl
    · rename_i heq; rw [heq] at hl; exact hl
    · rename_i s' heq
      rw [heq] at hl
      have := hH s' hl
      split
      · rename_i heq2; rw [heq2] at this; exact this
      · rename_i heq2; rw [heq2] at this; exact this

/-! ### C42 -/

/-- No offset is negative. -/
def Spec.NonNeg (o : Offsets) : Prop := ∀ t p, 0 ≤ offsetOf o t p

theorem handleOffsetParts_nonNeg (t : String) (ps : List OPart) (c : Single)
    (h : NonNeg c.offsets) : NonNeg (handleOffsetParts t ps c).2.offsets := by
  induction ps generalizing c with
  | nil => exact h
  | cons p ps ih =>
    simp only [handleOffsetParts]
    split
    · split
      · exact h
      · refine ih _ ?_
        split
        · intro t' p'
          simp only [offsetOf_put]
          split
          · assumption
          · exact h t' p'
        · exact h
    · split
      · exact ih _ h
      · split <;> exact h

theorem determine_nonNeg (env : OffsetEnv) (t : String) (start : Start) (c : Single)
    (h : NonNeg c.offsets) : NonNeg (c.determine env t start).2.offsets := by
  unfold Single.determine Single.determineSent
  simp only
  split
  · exact h
  · rename_i ordered cl _
    have := clientSend_inv offsetHandlers (fun c : Single => NonNeg c.offsets) ?_
      (fun b => cl.conns.has b)
      (offsetWrite env.write (ordered.map fun e => ⟨e.1, t, startToTimestamp env.now start, e.2⟩))
      (fun c => ((env.healC c.cluster).1, { c with cluster := (env.healC c.cluster).2 }))
      (fun s hs => hs) ((ordered.map fun e => (⟨e.1, t, startToTimestamp env.now start, e.2⟩ : OReq)).map (·.broker))
      (env.outcomes (ordered.map fun e => ⟨e.1, t, startToTimestamp env.now start, e.2⟩))
      { c with cluster := cl, heal := false } c.heal h
    · split
      · rename_i heq; rw [heq] at this; exact this
      · rename_i heq; rw [heq] at this; exact this
    · intro r f hf s hs
      simp only [offsetHandlers, Option.some.injEq] at hf
      subst hf
      simp only
      unfold handleOffsetResponse
      split
      · exact hs
      · exact handleOffsetParts_nonNeg _ _ _ hs

theorem after_nonNeg (cfg : CCfg β δ) (ms : List (Int × β)) (o : Int) (h : 0 ≤ o) :
    0 ≤ after cfg ms o := by
  rcases after_mem cfg ms o with h1 | ⟨m, _, _, h2, h1⟩ <;> omega

theorem consume_nonNeg (cfg : CCfg β δ) (oenv : OffsetEnv) (env : ConsumeEnv Unit β)
    (ht : ∀ n (c : Single), (env.tick n c).offsets = c.offsets) (t : String) (start : Start)
    (c : Single) (h : NonNeg c.offsets) : NonNeg (c.consume cfg oenv env t start).2.1.offsets := by
  have hfetch : ∀ (c : Single) parts, NonNeg c.offsets →
      NonNeg (Consumer.fetch cfg env t parts c).2.1.offsets := by
    intro c parts h
    cases hf : Consumer.fetch cfg env t parts c with
    | mk res x =>
      obtain ⟨c', acts⟩ := x
      rcases fetch_spec cfg env t parts c c' res acts hf with ⟨e, _, _, _, _, ho, _⟩ |
        ⟨reqs, c1, _, _, rfl, done, rest, _, ho, _⟩
      · intro t p; simp only [ho]; exact h t p
      · intro t p
        simp only [ht, ho]
        exact after_nonNeg _ _ _ (h t p)
  have hsync : ∀ c : Single, NonNeg c.offsets →
      NonNeg (Consumer.consumeSynced Single.allocation cfg env t c).2.1.offsets := by
    intro c h
    unfold Consumer.consumeSynced
    split
    · exact h
    · split
      · exact hfetch _ _ h
      · split
        · simp only [ht]; exact h
        · simp only
          split
          · simp only [ht]; exact h
          · split
            · simp only [ht]; exact h
            · refine hfetch _ _ ?_
              simp only [ht]; exact h
  unfold Single.consume Consumer.consume
  have hd := determine_nonNeg oenv t start c h
  split
  · exact h
  · split
    · exact hsync _ h
    · split
      · rename_i heq; rw [heq] at hd; simp only [ht]; exact hd
      · rename_i heq; rw [heq] at hd; simp only [ht]; exact hd
      · rename_i heq; rw [heq] at hd
        simp only
        exact hsync _ (by simp only [ht]; exact hd)

/-- The states a `SingleConsumer` can get into: by `consume` (with any answers, errors, start
values), `close`, and anything that happens to its cluster. -/
inductive Spec.SingleReach : Single → Prop where
  | new (cl : Cluster) : Spec.SingleReach (Single.new cl)
  | consume {β δ : Type} (cfg : CCfg β δ) (oenv : OffsetEnv) (env : ConsumeEnv Unit β)
      (t : String) (start : Start) (c : Single) :
      (∀ n (c : Single), env.tick n c = c) → Spec.SingleReach c →
      Spec.SingleReach (c.consume cfg oenv env t start).2.1
  | close (c : Single) : Spec.SingleReach c → Spec.SingleReach c.close
  | cluster (c : Single) (cl : Cluster) :
      Spec.SingleReach c → Spec.SingleReach { c with cluster := cl }

theorem Spec.SingleReach.nonNeg {c : Single} (h : SingleReach c) : NonNeg c.offsets := by
  induction h with
  | new cl => intro t p; simp [Single.new, offsetOf, Dict.get?]
  | consume cfg oenv env t start c ht _ ih =>
    exact consume_nonNeg cfg oenv env (fun n c => by rw [ht]) t start c ih
  | close c _ ih => exact ih
  | cluster c cl _ ih => exact ih

/-- **C42**: whatever happened before, and whatever happens during this `consume`, a
`SingleConsumer` never asks for a negative offset. -/
theorem C42_nonneg (cfg : CCfg β δ) (oenv : OffsetEnv) (env : ConsumeEnv Unit β) (t : String)
    (start : Start) (c : Single) (hc : SingleReach c) (ht : ∀ n (c : Single), env.tick n c = c)
    (reqs : List FReq) (hr : CAct.fetch reqs ∈ (c.consume cfg oenv env t start).2.2) :
    ∀ r ∈ reqs, ∀ p ∈ r.parts, 0 ≤ p.offset := by
  cases h : c.consume cfg oenv env t start with
  | mk res x =>
    obtain ⟨c', acts⟩ := x
    rw [h] at hr
    obtain ⟨c0, a, parts, h1, h2, h3, _, h5⟩ := consume_fetch h hr
    have h0 : NonNeg c0.offsets := h5 NonNeg hc.nonNeg
      (fun c h => determine_nonNeg oenv t start c h) (fun n c h => by rw [ht]; exact h)
    rcases fetch_spec cfg env t parts c0 c' res _ h3 with ⟨e, _, h4, _⟩ | ⟨reqs', c2, h4, h5, _⟩
    · simp at h4
    · simp only [List.cons.injEq, CAct.fetch.injEq, and_true] at h4
      subst h4
      intro r hr p hp
      rw [h5.offsets r hr p hp]
      exact h0 _ _

/-! ### C43 -/

/-- The integer an offset request should carry: the offset API's special values as they are,
and nothing given means the end. -/
def Spec.stampOf : Start → Option Int
  | .unset => some (-1)
  | .int i => some i
  | _ => .none

/-- The offset requests for a topic: one per leader, naming exactly the partitions it leads,
in order, all with the same time. -/
structure Spec.OffsetsExactly (cl : Cluster) (topic : String) (parts : List Int) (time : Stamp)
    (reqs : List OReq) : Prop where
  brokers : (reqs.map (·.broker)).Nodup
  fields : ∀ r ∈ reqs, r.topic = topic ∧ r.time = time
  named : ∀ r ∈ reqs, r.parts = parts.filter fun p => decide (leaderOf cl topic p = some r.broker)
  nonempty : ∀ r ∈ reqs, r.parts ≠ []
  all : ∀ p ∈ parts, ∃ r ∈ reqs, leaderOf cl topic p = some r.broker

theorem determineSent_spec (env : OffsetEnv) (t : String) (start : Start) (c : Single)
    (hl : ∀ p ∈ (c.cluster.topics.get? t).getD [], ∃ l, leaderOf c.cluster t p = some l) :
    OffsetsExactly c.cluster t ((c.cluster.topics.get? t).getD []) (startToTimestamp env.now start)
      (c.determineSent env t start).2.2 := by
  unfold Single.determineSent
  simp only
  cases hg : groupByLeader t (c.cluster.topics.getDefault t []).2
      { c.cluster with topics := (c.cluster.topics.getDefault t []).1 } [] with
  | mk res cl' =>
    rw [getDefault_val] at hg
    obtain ⟨hv, g1, g2, g3⟩ := groupByLeader_spec t _ c.cluster
      { c.cluster with topics := (c.cluster.topics.getDefault t []).1 } cl'
      ⟨rfl, fun t' => getDefault_getD _ t t' [], fun _ => rfl⟩ [] res (by simp [Dict.keys]) (by simp) hg
    obtain ⟨g, rfl⟩ := g2 (by
      intro p hp
      obtain ⟨l, h⟩ := hl p hp
      rw [h]; rfl)
    obtain ⟨k1, k2, k3, k4⟩ := g1 g rfl
    have hmem : ∀ e ∈ g, e.2 = ((c.cluster.topics.get? t).getD []).filter
        fun p => decide (leaderOf c.cluster t p = some e.1) := by
      intro e he
      have := k4 e.1
      rw [Dict.get?_of_mem k2 he] at this
      simpa [Dict.get?] using this
    have key : OffsetsExactly c.cluster t ((c.cluster.topics.get? t).getD [])
        (startToTimestamp env.now start)
        (g.map fun e => (⟨e.1, t, startToTimestamp env.now start, e.2⟩ : OReq)) := by
      refine ⟨?_, ?_, ?_, ?_, ?_⟩
      · simpa [Function.comp_def, Dict.keys] using k2
      · intro r hr
        obtain ⟨e, _, rfl⟩ := List.mem_map.1 hr
        exact ⟨rfl, rfl⟩
      · intro r hr
        obtain ⟨e, he, rfl⟩ := List.mem_map.1 hr
        exact hmem e he
      · intro r hr
        obtain ⟨e, he, rfl⟩ := List.mem_map.1 hr
        exact k3 e he
      · intro p hp
        obtain ⟨l, hlp⟩ := hl p hp
        have h4 := k4 l
        cases hgl : g.get? l with
        | none =>
          rw [hgl] at h4
          simp only [Dict.get?, Option.getD_none, List.nil_append] at h4
          have : p ∈ ((c.cluster.topics.get? t).getD []).filter
              fun p => decide (leaderOf c.cluster t p = some l) := by simp [hp, hlp]
          rw [← h4] at this
          simp at this
        | some ps =>
          exact ⟨⟨l, t, startToTimestamp env.now start, ps⟩,
            List.mem_map.2 ⟨(l, ps), Dict.mem_of_get? hgl, rfl⟩, hlp⟩
    simp only
    split <;> exact key

/-- **C43** (partial): with `BEGINNING`, `END`, another integer, or nothing (the end), offset
requests for just that point go to the leaders of all partitions of the topic.  Missing:
`datetime` and `timedelta`, for which nothing can be sent (see `C43_float`, `C43_false`). -/
theorem C43_requests_partial (env : OffsetEnv) (t : String) (start : Start) (c : Single) (i : Int)
    (hs : stampOf start = some i)
    (hl : ∀ p ∈ (c.cluster.topics.get? t).getD [], ∃ l, leaderOf c.cluster t p = some l) :
    OffsetsExactly c.cluster t ((c.cluster.topics.get? t).getD []) (.int i)
      (c.determineSent env t start).2.2 := by
  have h := determineSent_spec env t start c hl
  have : startToTimestamp env.now start = .int i := by
    cases start <;> simp_all [stampOf, startToTimestamp, endOffset]
  rwa [this] at h

/-- **C43**: for `BEGINNING` the requests ask for -2, for `END` or nothing for -1, which Kafka takes for
the earliest and the next offset. -/
theorem C43_named (env : OffsetEnv) (t : String) (c : Single)
    (hl : ∀ p ∈ (c.cluster.topics.get? t).getD [], ∃ l, leaderOf c.cluster t p = some l) :
    OffsetsExactly c.cluster t ((c.cluster.topics.get? t).getD []) (.int (-2))
      (c.determineSent env t (.int beginning)).2.2 ∧
    OffsetsExactly c.cluster t ((c.cluster.topics.get? t).getD []) (.int (-1))
      (c.determineSent env t (.int endOffset)).2.2 ∧
    OffsetsExactly c.cluster t ((c.cluster.topics.get? t).getD []) (.int (-1))
      (c.determineSent env t .unset).2.2 :=
  ⟨C43_requests_partial env t _ c _ rfl hl, C43_requests_partial env t _ c _ rfl hl,
    C43_requests_partial env t _ c _ rfl hl⟩

theorem packOne_err {f : Fmt} {v : Val} {e : Exc} (h : packOne f v = .error e) :
    e = .structError := by
  unfold packOne at h
  split at h
  · simp at h
  · exact (by simpa using h.symm)
  · unfold packInt at h
    split at h
    · simp at h
    · exact (by simpa using h.symm)
  · exact (by simpa using h.symm)

theorem pack_float (f1 : List Fmt) (d1 : List Val) (f2 : List Fmt) (d2 : List Val) (x : String)
    (h : f1.length = d1.length) :
    pack (f1 ++ .q :: f2) (d1 ++ .flt x :: d2) = .error .structError := by
  induction f1 generalizing d1 with
  | nil =>
    cases d1 with
    | nil => rfl
    | cons => simp at h
  | cons f f1 ih =>
    cases d1 with
    | nil => simp at h
    | cons d d1 =>
      simp only [List.cons_append, pack]
      cases hp : packOne f d with
      | error e => rw [packOne_err hp]
      | ok b => rw [ih d1 (by simpa using h)]

/-- The partition of an offset request, as kiel/clients/single.py:76-82 makes it. -/
def exOffsetPart (time : Val) (p : Int) : Val :=
  .part [("partition_id", .int p), ("time", time), ("max_offsets", .int 1)]

theorem renderAll_offsetParts (time : Val) (ps : List Int) :
    ∃ f d, renderAll (fun v => render Schema.offsetPartitionRequest v) (ps.map (exOffsetPart time)) =
      .ok (f, d) := by
  induction ps with
  | nil => exact ⟨[], [], rfl⟩
  | cons p ps ih =>
    obtain ⟨f, d, h⟩ := ih
    refine ⟨[.i, .q, .i] ++ f, [.int p, time, .int 1] ++ d, ?_⟩
    rw [List.map_cons, renderAll, h]
    rfl

/-- **C43**: on the wire, a `time` that is a float (whatever its digits) cannot be packed:
serializing the offset request raises `struct.error`. -/
theorem C43_float (lastId : Int) (topic : String) (p : Int) (ps : List Int) (x : String) :
    ∃ r, newRequest lastId Schema.offsetRequest
        [("replica_id", .int (-1)),
         ("topics", .list [.part [("name", .str topic),
           ("partitions", .list ((p :: ps).map (exOffsetPart (.flt x))))]])] = (.ok r, lastId + 1) ∧
      r.serialize = .error .structError := by
  obtain ⟨fr, dr, hr⟩ := renderAll_offsetParts (.flt x) ps
  refine ⟨⟨Schema.offsetRequest,
    [("replica_id", .int (-1)),
     ("topics", .list [.part [("name", .str topic),
       ("partitions", .list ((p :: ps).map (exOffsetPart (.flt x))))]]),
     ("client_id", .str clientId), ("api_key", .int 2), ("api_version", .int apiVersion),
     ("correlation_id", .int (lastId + 1))], lastId + 1⟩, ?_, ?_⟩
  · simp [newRequest, Schema.offsetRequest, mkCls, initPart, partNames, PartsItem.first,
      apiKeys, Dict.get?, Dict.set]
  · simp [Req.serialize, preambleParts, mkFields, renderFields, render, getAttr, Dict.get?,
      Schema.offsetRequest, mkCls, renderItems, PartsItem.unpack, renderVar, varBytes,
      renderAll, Schema.offsetTopicRequest, mkPart, hr,
      show render Schema.offsetPartitionRequest (exOffsetPart (.flt x) p) =
        .ok ([.i, .q, .i], [.int p, .flt x, .int 1]) from rfl]
    exact pack_float [.h, .h, .i, .h, .s _, .i, .i, .h, .s _, .i, .i]
      [.int _, .int _, .int _, .int _, .bytes _, .int _, .int _, .int _, .bytes _, .int _, .int _]
      _ _ _ rfl

/-- **C43** fails for points in time: if the topic has partitions and all their leaders are
known and connected, `consume` with a `datetime` or a `timedelta` on a topic not yet synced
raises `struct.error`. -/
theorem C43_raises (cfg : CCfg β δ) (oenv : OffsetEnv) (env : ConsumeEnv Unit β) (t : String)
    (start : Start) (c : Single) (hs : stampOf start = .none) (hc : c.closing = false)
    (ht : t ∉ c.synced) (hp : (c.cluster.topics.get? t).getD [] ≠ [])
    (hl : ∀ p ∈ (c.cluster.topics.get? t).getD [], ∃ l, leaderOf c.cluster t p = some l ∧
      c.cluster.conns.has l = true) :
    (c.consume cfg oenv env t start).1 = .error .structError ∧
    (c.consume cfg oenv env t start).2.2 = [.determine] := by
  have hex := determineSent_spec oenv t start c fun p hp => ⟨_, (hl p hp).choose_spec.1⟩
  have key : (c.determine oenv t start).1 = .error .structError := by
    unfold Single.determine
    unfold Single.determineSent at hex ⊢
    simp only at hex ⊢
    generalize hg : groupByLeader t (c.cluster.topics.getDefault t []).2
      { c.cluster with topics := (c.cluster.topics.getDefault t []).1 } [] = x at hex ⊢
    obtain ⟨res, cl'⟩ := x
    obtain ⟨hv, -, -, -⟩ := groupByLeader_spec t _ c.cluster
      { c.cluster with topics := (c.cluster.topics.getDefault t []).1 } cl'
      ⟨rfl, fun t' => getDefault_getD _ t t' [], fun _ => rfl⟩ [] res (by simp [Dict.keys]) (by simp) hg
    obtain ⟨p, hp'⟩ := List.exists_mem_of_ne_nil _ hp
    cases res with
    | error e =>
      obtain ⟨r, hr, _⟩ := hex.all p hp'
      simp at hr
    | ok g =>
      simp only at hex ⊢
      have hreqs : OffsetsExactly c.cluster t ((c.cluster.topics.get? t).getD [])
          (startToTimestamp oenv.now start)
          (g.map fun e => (⟨e.1, t, startToTimestamp oenv.now start, e.2⟩ : OReq)) := by
        revert hex; split <;> exact id
      obtain ⟨r, hr, _⟩ := hreqs.all p hp'
      cases g with
      | nil => simp at hr
      | cons e g =>
        have he : (⟨e.1, t, startToTimestamp oenv.now start, e.2⟩ : OReq) ∈
            (e :: g).map fun e => (⟨e.1, t, startToTimestamp oenv.now start, e.2⟩ : OReq) := by simp
        have hne := hreqs.nonempty _ he
        have hnm := hreqs.named _ he
        simp only at hne hnm
        have hknown : cl'.conns.has e.1 = true := by
          obtain ⟨q, hq⟩ := List.exists_mem_of_ne_nil _ hne
          rw [hnm, List.mem_filter, decide_eq_true_eq] at hq
          obtain ⟨l, h1, h2⟩ := hl q hq.1
          rw [hq.2, Option.some.injEq] at h1
          rw [hv.conns, h1]; exact h2
        have hw : offsetWrite oenv.write
            ((e :: g).map fun e => (⟨e.1, t, startToTimestamp oenv.now start, e.2⟩ : OReq)) e.1 =
            some .structError := by
          obtain ⟨us, hus⟩ : ∃ us, startToTimestamp oenv.now start = .float us := by
            cases start <;> simp_all [stampOf, startToTimestamp]
          obtain ⟨b, ps⟩ := e
          cases ps with
          | nil => exact absurd rfl hne
          | cons q ps => simp [offsetWrite, hus]
        have hstart : sendStart (fun b => cl'.conns.has b) (offsetWrite oenv.write
            ((e :: g).map fun e => (⟨e.1, t, startToTimestamp oenv.now start, e.2⟩ : OReq)))
            (((e :: g).map fun e => (⟨e.1, t, startToTimestamp oenv.now start, e.2⟩ : OReq)).map
              (·.broker)) = some .structError := by
          have : ∀ w l, w e.1 = some Exc.structError →
              sendStart (fun b => cl'.conns.has b) w (e.1 :: l) = some .structError := by
            intro w l h
            simp [sendStart, hknown, h]
          exact this _ _ hw
        unfold clientSend
        rw [hstart]
  unfold Single.consume Consumer.consume
  cases hd : c.determine oenv t start with
  | mk r c1 =>
    rw [hd] at key
    subst key
    simp [hc, ht]

/-! ### C65 -/

/-- **C65** fails: as soon as `determine_offsets` returns at all, the topic counts as synced
afterwards, whether or not any offset was obtained; only an `offset_out_of_range` to the very
next fetch can change that. -/
theorem C65_synced_anyway (cfg : CCfg β δ) (oenv : OffsetEnv) (env : ConsumeEnv Unit β)
    (t : String) (start : Start) (c c1 : Single) (u : Unit) (hc : c.closing = false)
    (ht : ∀ n (c : Single), env.tick n c = c)
    (hd : c.determine oenv t start = (.ok u, c1))
    (hcode : ∀ reqs b r, (b, .ok r) ∈ env.outcomes reqs → ∀ a ∈ answersOf r, a.2.code ≠ 1) :
    t ∉ c.synced → t ∈ (c.consume cfg oenv env t start).2.1.synced := by
  intro hs
  have hfetch : ∀ (c : Single) parts, t ∈ c.synced →
      t ∈ (Consumer.fetch cfg env t parts c).2.1.synced := by
    intro c parts h
    cases hf : Consumer.fetch cfg env t parts c with
    | mk res x =>
      obtain ⟨c', acts⟩ := x
      rcases fetch_spec cfg env t parts c c' res acts hf with ⟨e, _, _, _, _, _, ho, _⟩ |
        ⟨reqs, c1, _, _, rfl, done, rest, hdone, _, ho, _⟩
      · simp only [ho]; exact h
      · simp only [ht]
        rw [ho]
        refine ⟨h, ?_⟩
        rintro a ha _
        rcases hdone with hdone | hdone
        · have hin : a ∈ allAnswers (env.outcomes reqs) := by rw [← hdone]; simp [ha]
          simp only [allAnswers, List.mem_flatMap] at hin
          obtain ⟨⟨b, r⟩, ho, ha⟩ := hin
          cases r with
          | error e => simp at ha
          | ok r => exact hcode reqs b r ho a ha
        · rw [hdone] at ha; simp at ha
  have hadd : t ∈ addSet c1.synced t := by
    unfold addSet; split
    · assumption
    · simp
  unfold Single.consume Consumer.consume
  simp only [hc, Bool.false_eq_true, if_false, hs, hd, ht]
  unfold Consumer.consumeSynced
  simp only [Single.allocation, ht]
  split
  · exact hfetch _ _ hadd
  · split
    · exact hadd
    · split
      · exact hadd
      · exact hfetch _ _ hadd

/-! ### Concrete cases -/

/-- The leader answers offset requests with the given code, and serves `[(0, 5)]`. -/
def exOffsets (code : Int) (offsets : List Int) : OffsetEnv where
  now := 1000
  outcomes reqs := reqs.map fun r =>
    (r.broker, .ok ⟨[(r.topic, r.parts.map fun p => ⟨p, code, offsets⟩)]⟩)
  write _ := .none
  healC cl := (.ok (), cl)

-- Non-vacuity of C42: a reachable consumer that was told -1 (nothing there yet) asks for 0.
example : SingleReach (Single.new exCCluster) ∧
    ((Single.new exCCluster).consume exCCfg (exOffsets 0 [-1]) (exServe fun _ => [(0, 5)]) "t"
      .unset) = (.ok (some [5]), { exConsumer with offsets := [("t", [(0, 1)])] },
        [.determine, .fetch [⟨7, 1000, 1, "t", [⟨0, 0, 100⟩]⟩]]) :=
  ⟨.new _, by decide +kernel⟩

-- Non-vacuity of C43_requests_partial: two leaders.
example : (Single.determineSent (exOffsets 0 [40]) "t" (.int beginning) { exConsumer with
      cluster := ⟨[(7, ⟨"h", 1, false⟩), (8, ⟨"i", 2, false⟩)], [("t", [0, 1, 2])],
        [("t", [(0, 7), (1, 8), (2, 7)])]⟩ }) =
    (.ok (), { exConsumer with
      cluster := ⟨[(7, ⟨"h", 1, false⟩), (8, ⟨"i", 2, false⟩)], [("t", [0, 1, 2])],
        [("t", [(0, 7), (1, 8), (2, 7)])]⟩
      offsets := [("t", [(0, 40), (2, 40), (1, 40)])] },
      [⟨7, "t", .int (-2), [0, 2]⟩, ⟨8, "t", .int (-2), [1]⟩]) := by decide +kernel

/-- **C43** is false of the code: consuming from an hour ago raises `struct.error`. -/
theorem C43_false :
    ((Single.new exCCluster).consume exCCfg (exOffsets 0 [40]) (exServe fun _ => [(0, 5)]) "t"
      (.timedelta 3600000000)).1 = .error .structError := by decide +kernel

/-- **C65** is false of the code: the offset request is answered with a retriable error
(`not_leader_for_partition`), yet in the same call the partition is fetched from offset 0, and
the topic counts as synced. -/
theorem C65_false :
    (Single.new exCCluster).consume exCCfg (exOffsets 6 []) (exServe fun _ => [(0, 5)]) "t"
      (.int endOffset) = (.ok (some [5]), { exConsumer with offsets := [("t", [(0, 1)])] },
        [.determine, .fetch [⟨7, 1000, 1, "t", [⟨0, 0, 100⟩]⟩]]) := by decide +kernel

end Kiel
