import Verif.Model.Requests
import Verif.Spec.Requests
import Verif.Props.Requests
import Verif.Spec.Consumer
import Verif.Props.Producer
import Verif.Props.EndToEnd
import Verif.Props.Connection
/- C69: what the clients' requests look like on the wire. -/
set_option autoImplicit false
namespace Kiel
open Spec

theorem wire_text (s : String) : wire .string (.str s) = text s := by
  simp [wire, sized, content, text]

theorem ok_text {s : String} (h : TextFits s) : Ok .string (.str s) := by
  simp only [Ok]
  exact Or.inr ⟨_, rfl, h⟩

theorem wire_many {α : Type} (t : Ty) (f : α → Val) (g : α → Bytes) (l : List α)
    (h : ∀ x, wire t (f x) = g x) : wire (.array t) (.list (l.map f)) = many g l := by
  simp only [wire, elems, many, List.length_map, List.map_map]
  congr 3
  funext x
  exact h x

theorem ok_many {α : Type} (t : Ty) (f : α → Val) (P : α → Prop) (l : List α)
    (h : ∀ x, P x → Ok t (f x)) (hl : ManyFit P l) : Ok (.array t) (.list (l.map f)) := by
  simp only [Ok, elems, List.length_map]
  refine ⟨Or.inr ⟨_, rfl⟩, hl.1, ?_⟩
  intro x hx
  obtain ⟨y, hy, rfl⟩ := List.mem_map.1 hx
  exact h y (hl.2 y hy)

/-- A topic of a request, given how partitions are written. -/
def topicArg {α : Type} (f : α → Val) (t : String × List α) : Val :=
  .part [("name", .str t.1), ("partitions", .list (t.2.map f))]

theorem wire_byTopic {α : Type} (t : Ty) (f : α → Val) (g : α → Bytes)
    (ts : List (String × List α)) (h : ∀ x, wire t (f x) = g x) :
    wire (perTopic t) (.list (ts.map (topicArg f))) = byTopic g ts := by
  refine wire_many _ _ _ _ fun x => ?_
  simp only [struct, fieldsOf, topicArg, arr, wire, wireFields, attr]
  simp only [List.find?_cons_of_pos, beq_self_eq_true, Option.map_some, Option.getD_some]
  have : List.find? (fun e : String × Val => e.1 == "partitions")
      [("name", Val.str x.1), ("partitions", .list (x.2.map f))] =
      some ("partitions", .list (x.2.map f)) := rfl
  rw [this]
  have h2 := wire_many t f g x.2 h
  simp only [wire] at h2
  have h3 : sized 2 (.str x.1) = text x.1 := by simp [sized, content, text]
  simp only [Option.map_some, Option.getD_some, h2, h3, List.append_nil]

theorem ok_byTopic {α : Type} (t : Ty) (f : α → Val) (P : α → Prop)
    (ts : List (String × List α)) (h : ∀ x, P x → Ok t (f x)) (hts : ByTopicFit P ts) :
    Ok (perTopic t) (.list (ts.map (topicArg f))) := by
  refine ok_many _ _ (fun x : String × List α => TextFits x.1 ∧ ManyFit P x.2) _ ?_ hts
  rintro x ⟨h1, h2⟩
  simp only [struct, fieldsOf, topicArg, arr, Ok, OkFields]
  refine ⟨⟨_, rfl⟩, ?_, ?_, trivial⟩
  · exact ok_text h1
  · exact ok_many t f P x.2 h h2

/-- Requests of a documented class on the wire. -/
theorem onWire_ok (name api : String) (l : List (String × Ty)) (key : Int)
    (hkey : Dict.get? apiKeys api = some key) (hkf : Fits 2 key)
    (hn : ∀ n ∈ l.map (·.1), n ∉ ["client_id", "api_key", "api_version", "correlation_id"])
    (kw : List (String × Val)) (hd : Declared l kw) (lastId : Int) (b : Bytes)
    (hok : OkFields (fieldsOf l) (.part kw)) (hid : Fits 4 (lastId + 1))
    (hb : preamble key (lastId + 1) ++ wireFields (fieldsOf l) (.part kw) = b)
    (hlen : b.length < 2 ^ 31) :
    onWire (newRequest lastId (mkCls name api true l) kw) = .ok (framed b) := by
  obtain ⟨r, h1, _, _, h4⟩ := request_ok name api l key hkey hkf hn kw hd lastId
  have h5 := h4 hok hid
  rw [hb] at h5
  simp only [onWire, h1, h5]
  exact C04_frame b hlen

/-- **C69**: a metadata request. -/
theorem C69_metadata (lastId : Int) (topics : List String) (hid : Fits 4 (lastId + 1))
    (ht : ManyFit TextFits topics) (hlen : (metadataBytes (lastId + 1) topics).length < 2 ^ 31) :
    onWire (metadataMake lastId topics) = .ok (framed (metadataBytes (lastId + 1) topics)) := by
  refine onWire_ok _ _ _ 3 rfl (by unfold Fits; norm_num) (by decide) _ ?_ lastId _ ?_ hid ?_ hlen
  · intro e he; simp only [List.mem_singleton] at he; subst he; simp
  · exact ⟨ok_many _ _ TextFits _ (fun _ => ok_text) ht, trivial⟩
  · simp only [fieldsOf, wireFields, List.append_nil, metadataBytes]
    congr 1
    exact wire_many _ _ _ _ wire_text

/-- **C69**: a group coordinator request names the group. -/
theorem C69_coordinator (lastId : Int) (group : String) (hid : Fits 4 (lastId + 1))
    (hg : TextFits group) :
    onWire (coordinatorMake lastId group) = .ok (framed (coordinatorBytes (lastId + 1) group)) := by
  refine onWire_ok _ _ _ 10 rfl (by unfold Fits; norm_num) (by decide) _ ?_ lastId _ ?_ hid ?_ ?_
  · intro e he; simp only [List.mem_singleton] at he; subst he; simp
  · exact ⟨ok_text hg, trivial⟩
  · simp only [fieldsOf, wireFields, List.append_nil, coordinatorBytes]
    congr 1
  · unfold TextFits at hg
    have hbe : ∀ n v, (be n v).length = n := by intro n v; simp [be]
    simp only [coordinatorBytes, preamble, text, List.length_append, hbe, List.length_cons,
      List.length_nil]
    omega

/-- **C69**: an offset fetch request names the group, and the partitions of the topic. -/
theorem C69_offset_fetch (lastId : Int) (group topic : String) (parts : List Int)
    (hid : Fits 4 (lastId + 1)) (hg : TextFits group) (ht : TextFits topic)
    (hp : ManyFit (Fits 4) parts)
    (hlen : (offsetFetchBytes (lastId + 1) group [(topic, parts)]).length < 2 ^ 31) :
    onWire (offsetFetchMake lastId group topic parts) =
      .ok (framed (offsetFetchBytes (lastId + 1) group [(topic, parts)])) := by
  refine onWire_ok _ _ _ 9 rfl (by unfold Fits; norm_num) (by decide) _ ?_ lastId _ ?_ hid ?_ hlen
  · intro e he
    simp only [List.mem_cons, List.not_mem_nil, or_false] at he
    rcases he with rfl | rfl <;> simp
  · refine ⟨ok_text hg, ok_byTopic .int32 Val.int (Fits 4) [(topic, parts)] ?_ ?_, trivial⟩
    · intro x hx; exact ⟨x, rfl, hx⟩
    · exact ⟨by simp, by simpa using ⟨ht, hp⟩⟩
  · simp only [fieldsOf, wireFields, List.append_nil, offsetFetchBytes, List.append_assoc]
    congr 1
    exact congrArg₂ _ (wire_text group)
      (wire_byTopic .int32 Val.int (be 4) [(topic, parts)] (fun x => rfl))

/-- **C69**: an offset commit request names the group, and the topics and partitions with their
offsets, each with the metadata. -/
theorem C69_commit (lastId : Int) (group : String) (r : CommitReq)
    (hid : Fits 4 (lastId + 1)) (hg : TextFits group) (hm : TextFits r.metadata)
    (hp : ByTopicFit (fun p => Fits 4 p.1 ∧ Fits 8 p.2) r.topics)
    (hlen : (commitBytes (lastId + 1) group (r.topics.map fun t =>
      (t.1, t.2.map fun p => (p.1, p.2, r.metadata)))).length < 2 ^ 31) :
    onWire (r.make lastId group) = .ok (framed (commitBytes (lastId + 1) group
      (r.topics.map fun t => (t.1, t.2.map fun p => (p.1, p.2, r.metadata))))) := by
  refine onWire_ok _ _ _ 8 rfl (by unfold Fits; norm_num) (by decide) _ ?_ lastId _ ?_ hid ?_ hlen
  · intro e he
    simp only [List.mem_cons, List.not_mem_nil, or_false] at he
    rcases he with rfl | rfl <;> simp
  · refine ⟨ok_text hg, ok_byTopic _ (fun p : Int × Int =>
      .part [("partition_id", .int p.1), ("offset", .int p.2), ("metadata", .str r.metadata)])
      (fun p => Fits 4 p.1 ∧ Fits 8 p.2) r.topics ?_ hp, trivial⟩
    intro x hx
    exact ⟨⟨_, rfl⟩, ⟨_, rfl, hx.1⟩, ⟨_, rfl, hx.2⟩, ok_text hm, trivial⟩
  · simp only [fieldsOf, wireFields, List.append_nil, commitBytes, List.append_assoc]
    congr 1
    refine congrArg₂ _ (wire_text group) ?_
    have := wire_byTopic (struct [("partition_id", .int32), ("offset", .int64),
      ("metadata", .string)]) (fun p : Int × Int =>
      .part [("partition_id", .int p.1), ("offset", .int p.2), ("metadata", .str r.metadata)])
      (fun p => be 4 p.1 ++ be 8 p.2 ++ text r.metadata) r.topics
      (fun x => by
        simp only [struct, fieldsOf, wire, wireFields, List.append_nil, List.append_assoc]
        exact congrArg₂ _ rfl (congrArg₂ _ rfl (wire_text _)))
    refine Eq.trans this ?_
    simp only [byTopic, many, List.map_map, List.length_map, Function.comp_def, List.append_assoc]

/-- **C69**: an offset request asks for one offset of each partition, at the given time. -/
theorem C69_offset (lastId : Int) (r : OReq) (time : Int) (htime : r.time = .int time)
    (hid : Fits 4 (lastId + 1)) (ht : TextFits r.topic) (hf : Fits 8 time)
    (hp : ManyFit (Fits 4) r.parts)
    (hlen : (offsetBytes (lastId + 1) [(r.topic, r.parts.map fun p => (p, time, 1))]).length
      < 2 ^ 31) :
    onWire (r.make lastId) =
      .ok (framed (offsetBytes (lastId + 1) [(r.topic, r.parts.map fun p => (p, time, 1))])) := by
  refine onWire_ok _ _ _ 2 rfl (by unfold Fits; norm_num) (by decide) _ ?_ lastId _ ?_ hid ?_ hlen
  · intro e he
    simp only [List.mem_cons, List.not_mem_nil, or_false] at he
    rcases he with rfl | rfl <;> simp
  · refine ⟨⟨_, rfl, by unfold Fits; norm_num [consumerReplicaId]⟩, ok_byTopic _ (fun p : Int =>
      .part [("partition_id", .int p), ("time", r.time.val), ("max_offsets", .int 1)])
      (Fits 4) [(r.topic, r.parts)] ?_ ⟨by simp, by simpa using ⟨ht, hp⟩⟩, trivial⟩
    intro x hx
    exact ⟨⟨_, rfl⟩, ⟨_, rfl, hx⟩, ⟨time, by simp [attr, htime, Stamp.val], hf⟩,
      ⟨_, rfl, by unfold Fits; norm_num⟩, trivial⟩
  · simp only [fieldsOf, wireFields, List.append_nil, offsetBytes, List.append_assoc]
    congr 1
    refine congrArg₂ _ rfl ?_
    have := wire_byTopic (struct [("partition_id", .int32), ("time", .int64),
      ("max_offsets", .int32)]) (fun p : Int =>
      .part [("partition_id", .int p), ("time", r.time.val), ("max_offsets", .int 1)])
      (fun p => be 4 p ++ be 8 time ++ be 4 1) [(r.topic, r.parts)]
      (fun x => by
        simp only [struct, fieldsOf, wire, wireFields, List.append_nil, List.append_assoc]
        simp [attr, htime, Stamp.val, intOf])
    refine Eq.trans this ?_
    simp only [byTopic, many, List.map_map, List.length_map, List.map_cons, List.map_nil,
      List.length_cons, List.length_nil, Function.comp_def, List.append_assoc]

/-- **C69**: the fetch request to one of the brokers a `consume` asks: it names the partitions of
the topic that the broker leads, at the consumer's offsets, with the configured waiting time and
number of bytes. -/
theorem C69_fetch {ε β δ : Type} (cfg : CCfg β δ) (c : Consumer ε) (topic : String)
    (parts : List Int) (reqs : List FReq) (h : FetchesExactly cfg c topic parts reqs) (r : FReq)
    (hr : r ∈ reqs) (lastId : Int) (hid : Fits 4 (lastId + 1)) (ht : TextFits topic)
    (hw : Fits 4 cfg.maxWait) (hb : Fits 4 cfg.minBytes)
    (hp : ManyFit (fun p => Fits 4 p.id ∧ Fits 8 p.offset ∧ Fits 4 p.maxBytes) r.parts) :
    ∃ ps : List (Int × Int × Int),
      ps.map (·.1) =
        (parts.filter fun p => decide (leaderOf c.cluster topic p = some r.broker)) ∧
      (∀ p ∈ ps, p.2.1 = offsetOf c.offsets topic p.1) ∧
      (0 ≤ cfg.maxBytes → (ps.map (·.2.2)).sum ≤ cfg.maxBytes) ∧
      ((fetchBytes (lastId + 1) cfg.maxWait cfg.minBytes [(topic, ps)]).length < 2 ^ 31 →
        onWire (r.make lastId) =
          .ok (framed (fetchBytes (lastId + 1) cfg.maxWait cfg.minBytes [(topic, ps)]))) := by
  obtain ⟨h1, h2, h3⟩ := h.topics r hr
  refine ⟨r.parts.map fun p => (p.id, p.offset, p.maxBytes), ?_, ?_, ?_, ?_⟩
  · rw [← h.named r hr, List.map_map]; rfl
  · intro p hp
    obtain ⟨q, hq, rfl⟩ := List.mem_map.1 hp
    exact h.offsets r hr q hq
  · intro h0
    have := (h.bytes h0 r hr).2
    simpa [Function.comp_def] using this
  intro hlen
  refine onWire_ok _ _ _ 1 rfl (by unfold Fits; norm_num) (by decide) _ ?_ lastId _ ?_ hid ?_ hlen
  · intro e he
    simp only [List.mem_cons, List.not_mem_nil, or_false] at he
    rcases he with rfl | rfl | rfl | rfl <;> simp
  · refine ⟨⟨_, rfl, by unfold Fits; norm_num [consumerReplicaId]⟩, ⟨_, rfl, h2 ▸ hw⟩,
      ⟨_, rfl, h3 ▸ hb⟩, ok_byTopic _ (fun p : FPartReq =>
      .part [("partition_id", .int p.id), ("offset", .int p.offset), ("max_bytes", .int p.maxBytes)])
      (fun p => Fits 4 p.id ∧ Fits 8 p.offset ∧ Fits 4 p.maxBytes) [(r.topic, r.parts)] ?_
      ⟨by simp, by simpa [h1] using ⟨ht, hp⟩⟩, trivial⟩
    intro x hx
    exact ⟨⟨_, rfl⟩, ⟨_, rfl, hx.1⟩, ⟨_, rfl, hx.2.1⟩, ⟨_, rfl, hx.2.2⟩, trivial⟩
  · simp only [fieldsOf, wireFields, List.append_nil, fetchBytes, List.append_assoc]
    congr 1
    refine congrArg₂ _ rfl (congrArg₂ _ (by rw [← h2]; rfl) (congrArg₂ _ (by rw [← h3]; rfl) ?_))
    have := wire_byTopic (struct [("partition_id", .int32), ("offset", .int64),
      ("max_bytes", .int32)]) (fun p : FPartReq =>
      .part [("partition_id", .int p.id), ("offset", .int p.offset), ("max_bytes", .int p.maxBytes)])
      (fun p => be 4 p.id ++ be 8 p.offset ++ be 4 p.maxBytes) [(r.topic, r.parts)]
      (fun x => by
        simp only [struct, fieldsOf, wire, wireFields, List.append_nil, List.append_assoc]
        simp [attr, intOf])
    refine Eq.trans this ?_
    simp only [byTopic, many, List.map_map, List.length_map, List.map_cons, List.map_nil,
      List.length_cons, List.length_nil, Function.comp_def, List.append_assoc, h1]

/-- What the request to one broker holds of the messages placed by the partitioner: per topic and
partition a message set that, by the rules of the Kafka protocol, holds exactly the messages placed
there, in order. -/
structure Spec.HoldsPlaced (cx : Codec) (pl : List (Place Val Val)) (b : Int)
    (ts : List (String × List (Int × List (Val × Val)))) : Prop where
  topics : (ts.map (·.1)).Nodup
  parts : ∀ t ∈ ts, (t.2.map (·.1)).Nodup
  all : ∀ t part, (∃ ps, (t, ps) ∈ ts ∧ part ∈ ps.map (·.1)) ↔ placedOn pl b t part ≠ []
  holds : ∀ t ∈ ts, ∀ p ∈ t.2, SetHolds (KafkaPacked cx) p.2
    ((placedOn pl b t.1 p.1).map fun m => (-1, sizedValue m.key, sizedValue m.value))

/-- **C69**: the produce requests of a flush.  Every broker that leads a partition on which messages
were placed, and is connected, gets one, with the configured acknowledgements and timeout, that
holds exactly those messages. -/
theorem C69_produce (cx : Codec) (gz : GzipLaws cx) (sn : SnappyLaws cx) (comp : Option Int)
    (hc : checkCompression comp = .ok ()) (pick : Nat → Val → List Int → Res Int)
    (p p' : Producer Val Val) (reqs : List (PReq (List (Val × Val)))) (hw : WF p)
    (h : p.prepare pick (producerComp cx comp) = (.ok (some reqs), p')) :
    ∃ pl, Placements pick p.cluster p.unsent pl ∧ (reqs.map (·.broker)).Nodup ∧
      (∀ b, b ∈ reqs.map (·.broker) ↔
        p.cluster.conns.has b = true ∧ ∃ x ∈ pl, x.leader = b) ∧
      ∀ r ∈ reqs, (∀ t part, SetFits cx comp
          ((placedOn pl r.broker t part).map fun m => (m.key, m.value))) →
        HoldsPlaced cx pl r.broker r.topics ∧
        ∀ acks timeout, Fits 4 r.corr → Fits 2 acks → Fits 4 timeout →
          ByTopicFit (fun p => Fits 4 p.1) r.topics →
          let b := produceBytes r.corr acks timeout
            (r.topics.map fun t => (t.1, t.2.map fun p => (p.1, entries p.2)))
          b.length < 2 ^ 31 → onWire (r.make acks timeout) = .ok (framed b) := by
  obtain ⟨pl, h1, ⟨h2, _, h3⟩, h4, h5, _⟩ := C28_routing pick _ p p' reqs hw h
  have hmem : ∀ r ∈ reqs, ∀ t ∈ r.topics, ∀ q ∈ t.2, Holds reqs r.broker t.1 q.1 q.2 :=
    fun r hr t ht q hq => ⟨r, hr, rfl, t, ht, rfl, hq⟩
  refine ⟨pl, h1, h2, ?_, ?_⟩
  · intro b
    constructor
    · intro hb
      obtain ⟨r, hr, rfl⟩ := List.mem_map.1 hb
      obtain ⟨hne, _, hps⟩ := h3 r hr
      obtain ⟨t, ht⟩ := List.exists_mem_of_ne_nil _ hne
      obtain ⟨q, hq⟩ := List.exists_mem_of_ne_nil _ (hps t ht).1
      obtain ⟨c1, c2, _⟩ := (h4 _ _ _ _).1 (hmem r hr t ht q hq)
      refine ⟨c1, ?_⟩
      obtain ⟨m, hm⟩ := List.exists_mem_of_ne_nil _ c2
      obtain ⟨x, hx, _⟩ := List.mem_map.1 hm
      simp only [List.mem_filter, decide_eq_true_eq] at hx
      exact ⟨x, hx.1, hx.2.1⟩
    · rintro ⟨c1, x, hx, rfl⟩
      have hne : placedOn pl x.leader x.topic x.part ≠ [] :=
        List.ne_nil_of_mem (List.mem_map.2 ⟨x, by simp [hx], rfl⟩)
      obtain ⟨set, r, hr, e, _⟩ := h5 _ _ _ c1 hne
      exact List.mem_map.2 ⟨r, hr, e⟩
  intro r hr hfit
  have hsets : ∀ t ∈ r.topics, ∀ q ∈ t.2, Ok .messageSet (.mset q.2) ∧
      SetHolds (KafkaPacked cx) q.2 ((placedOn pl r.broker t.1 q.1).map
        fun m => (-1, sizedValue m.key, sizedValue m.value)) := by
    intro t ht q hq
    obtain ⟨_, _, c3⟩ := (h4 _ _ _ _).1 (hmem r hr t ht q hq)
    obtain ⟨ms, s1, s2, s3⟩ := sent_ok cx gz sn comp hc _ (hfit t.1 q.1)
    have : producerComp cx comp (placedOn pl r.broker t.1 q.1) = .ok ms := by
      rw [← s1, producerComp, messagesOf, List.map_map]
      rfl
    rw [c3] at this
    cases this
    rw [List.map_map] at s3
    exact ⟨s2, s3⟩
  refine ⟨⟨(h3 r hr).2.1, fun t ht => ((h3 r hr).2.2 t ht).2, ?_, fun t ht q hq =>
    (hsets t ht q hq).2⟩, ?_⟩
  · intro t part
    constructor
    · rintro ⟨ps, hps, hq⟩
      obtain ⟨q, hq', rfl⟩ := List.mem_map.1 hq
      exact ((h4 _ _ _ _).1 (hmem r hr _ hps q hq')).2.1
    · intro hne
      have hcon : p.cluster.conns.has r.broker = true := by
        obtain ⟨t, ht⟩ := List.exists_mem_of_ne_nil _ (h3 r hr).1
        obtain ⟨q, hq⟩ := List.exists_mem_of_ne_nil _ ((h3 r hr).2.2 t ht).1
        exact ((h4 _ _ _ _).1 (hmem r hr t ht q hq)).1
      obtain ⟨set, r', hr', e1, e, he, rfl, hq⟩ := h5 _ _ _ hcon hne
      have : r' = r := List.inj_on_of_nodup_map h2 hr' hr e1
      subst this
      exact ⟨e.2, he, List.mem_map.2 ⟨_, hq, rfl⟩⟩
  intro acks timeout hid ha htm hfits b hlen
  have hcorr : r.corr - 1 + 1 = r.corr := by omega
  refine onWire_ok _ _ _ 0 rfl (by unfold Fits; norm_num) (by decide) _ ?_ _ _ ?_ (by rw [hcorr]; exact hid) ?_ hlen
  · intro e he
    simp only [List.mem_cons, List.not_mem_nil, or_false] at he
    rcases he with rfl | rfl | rfl <;> simp
  · refine ⟨⟨_, rfl, ha⟩, ⟨_, rfl, htm⟩, ok_byTopic _
      (fun q : Int × List (Val × Val) =>
        .part [("partition_id", .int q.1), ("message_set", .mset q.2)])
      (fun q => Fits 4 q.1 ∧ Ok .messageSet (.mset q.2)) r.topics ?_ ?_, trivial⟩
    · intro x hx
      exact ⟨⟨_, rfl⟩, ⟨_, rfl, hx.1⟩, hx.2, trivial⟩
    · refine ⟨hfits.1, fun t ht => ⟨(hfits.2 t ht).1, (hfits.2 t ht).2.1, fun q hq =>
        ⟨(hfits.2 t ht).2.2 q hq, (hsets t ht q hq).1⟩⟩⟩
  · simp only [fieldsOf, wireFields, List.append_nil, b, produceBytes, List.append_assoc, hcorr]
    congr 1
    refine congrArg₂ _ rfl (congrArg₂ _ rfl ?_)
    have := wire_byTopic (struct [("partition_id", .int32), ("message_set", .messageSet)])
      (fun q : Int × List (Val × Val) =>
        .part [("partition_id", .int q.1), ("message_set", .mset q.2)])
      (fun q => be 4 q.1 ++ (be 4 (entries q.2).length ++ entries q.2)) r.topics
      (fun x => by
        simp only [struct, fieldsOf, wire, wireFields, List.append_nil]
        simp [attr, intOf, msgs])
    refine Eq.trans this ?_
    simp only [byTopic, many, List.map_map, List.length_map, Function.comp_def]

/-- **C69**: these are the bytes that sending such a request on an open connection writes. -/
theorem C69_written (c : Conn) (r : Req) (n : Int) (b : Bytes) (ho : c.closing = false)
    (h : onWire (.ok r, n) = .ok b) : (c.send r .queued).2.written = c.written ++ [b] := by
  simp only [onWire] at h
  cases hs : r.serialize with
  | error e => rw [hs] at h; simp at h
  | ok payload =>
    rw [hs] at h
    simp only at h
    simp [Conn.send, ho, hs, h]

/-! Non-vacuity. -/

instance (n : Nat) (i : Int) : Decidable (Fits n i) := by unfold Fits; infer_instance

example : onWire (metadataMake 41 ["ab"]) = .ok
    [0,0,0,22, 0,3, 0,0, 0,0,0,42, 0,4,107,105,101,108, 0,0,0,1, 0,2,97,98] := by
  rw [C69_metadata 41 ["ab"] (by decide +kernel) (by decide +kernel) (by decide +kernel)]
  decide +kernel

example : onWire (coordinatorMake 41 "g") = .ok
    [0,0,0,17, 0,10, 0,0, 0,0,0,42, 0,4,107,105,101,108, 0,1,103] := by
  rw [C69_coordinator 41 "g" (by decide +kernel) (by decide +kernel)]
  decide +kernel

example : onWire (offsetFetchMake 41 "g" "t" [3, 5]) = .ok
    [0,0,0,36, 0,9, 0,0, 0,0,0,42, 0,4,107,105,101,108, 0,1,103, 0,0,0,1, 0,1,116, 0,0,0,2,
     0,0,0,3, 0,0,0,5] := by
  rw [C69_offset_fetch 41 "g" "t" [3, 5] (by decide +kernel) (by decide +kernel)
    (by decide +kernel) (by decide +kernel) (by decide +kernel)]
  decide +kernel

example : onWire (CommitReq.make 41 "g" ⟨some 8, "m", [("t", [(3, 258)])]⟩) = .ok
    [0,0,0,43, 0,8, 0,0, 0,0,0,42, 0,4,107,105,101,108, 0,1,103, 0,0,0,1, 0,1,116, 0,0,0,1,
     0,0,0,3, 0,0,0,0,0,0,1,2, 0,1,109] := by
  rw [C69_commit 41 "g" ⟨some 8, "m", [("t", [(3, 258)])]⟩ (by decide +kernel) (by decide +kernel)
    (by decide +kernel) (by decide +kernel) (by decide +kernel)]
  decide +kernel

example : onWire (OReq.make 41 ⟨7, "t", .int (-2), [3]⟩) = .ok
    [0,0,0,45, 0,2, 0,0, 0,0,0,42, 0,4,107,105,101,108, 255,255,255,255, 0,0,0,1, 0,1,116, 0,0,0,1,
     0,0,0,3, 255,255,255,255,255,255,255,254, 0,0,0,1] := by
  rw [C69_offset 41 ⟨7, "t", .int (-2), [3]⟩ (-2) rfl (by decide +kernel) (by decide +kernel)
    (by decide +kernel) (by decide +kernel) (by decide +kernel)]
  decide +kernel

-- a time before now, in microseconds, is a `float` in the code and cannot be written
example : onWire (OReq.make 41 ⟨7, "t", .float 1500000, [3]⟩) = .error .structError := by
  decide +kernel

example : ∃ r, FetchesExactly exCCfg exConsumer "t" [0] [r] ∧ onWire (r.make 41) = .ok
    [0,0,0,53, 0,1, 0,0, 0,0,0,42, 0,4,107,105,101,108, 255,255,255,255, 0,0,3,232, 0,0,0,1,
     0,0,0,1, 0,1,116, 0,0,0,1, 0,0,0,0, 0,0,0,0,0,0,0,0, 0,0,0,100] := by
  obtain ⟨reqs, h1, h2⟩ := C36_fetches (fun c : Single => c.allocation) (fun c => (.ok (), c))
    exCCfg (exServe fun _ => []) "t" exConsumer _ [0] rfl (by simp [exConsumer]) rfl rfl (by simp)
    (by intro p hp; simp only [List.mem_singleton] at hp; subst hp; exact ⟨7, rfl⟩)
  have h3 : reqs = [⟨7, 1000, 1, "t", [⟨0, 0, 100⟩]⟩] := by
    have h4 : [CAct.fetch [⟨7, 1000, 1, "t", [⟨0, 0, 100⟩]⟩]] = [CAct.fetch reqs] := by
      rw [← h1]; decide +kernel
    simpa using h4.symm
  subst h3
  exact ⟨_, h2, by decide +kernel⟩

/-- A producer with two messages queued for topic t. -/
def exVProducer : Producer Val Val :=
  ⟨exPCluster, [("t", [⟨.none, .str "hello"⟩, ⟨.none, .str "w"⟩])], [], false, false, 41⟩

/-- The gzip container of the two messages. -/
def exVSet : List (Val × Val) :=
  [(.int (-1), mkMessage 1 .none (.bytes (storeCodec.gzip (entries (plainSet
    [(-1, .none, .str "hello"), (-1, .none, .str "w")])))))]

/-- The request with it. -/
def exVReq : PReq (List (Val × Val)) := ⟨7, 42, [("t", [(0, exVSet)])]⟩

theorem exVProducer_prepare : ∃ p', exVProducer.prepare (fun _ _ _ => .ok 0)
    (producerComp storeCodec (some 1)) = (.ok (some [exVReq]), p') :=
  ⟨⟨exPCluster, [], [(42, [("t", [(0, [⟨.none, .str "hello"⟩, ⟨.none, .str "w"⟩])])])], false,
    false, 42⟩, by krfl⟩

theorem exV_placements {pl : List (Place Val Val)}
    (h : Placements (fun _ _ _ => .ok 0) exVProducer.cluster exVProducer.unsent pl) :
    pl = [⟨"t", ⟨.none, .str "hello"⟩, 0, 7⟩, ⟨"t", ⟨.none, .str "w"⟩, 0, 7⟩] := by
  obtain ⟨h1, h2, h3⟩ := h
  have h4 : inQueue exVProducer.unsent.reverse =
      [("t", ⟨.none, .str "hello"⟩), ("t", ⟨.none, .str "w"⟩)] := rfl
  rw [h4] at h1
  match pl, h1, h2, h3 with
  | [⟨t, m, a, b⟩, ⟨t', m', a', b'⟩], h1, h2, h3 =>
    simp only [List.map_cons, List.map_nil, List.cons.injEq, Prod.mk.injEq, and_true] at h1
    obtain ⟨⟨rfl, rfl⟩, rfl, rfl⟩ := h1
    have e1 := h2 0 (by simp)
    have e2 := h2 1 (by simp)
    simp only [List.getElem_cons_zero, List.getElem_cons_succ, Except.ok.injEq] at e1 e2
    subst e1 e2
    have e3 := h3 _ (List.mem_cons_self ..)
    have e4 := h3 _ (List.mem_cons_of_mem _ (List.mem_cons_self ..))
    have e5 : ((exVProducer.cluster.leaders.get? "t").getD []).get? 0 = some 7 := rfl
    simp only [e5, Option.some.injEq] at e3 e4
    subst e3 e4
    rfl

-- both messages go to partition 0, in one gzip container
example : ∃ b, onWire (exVReq.make 1 500) = .ok (framed b) ∧ b.length = 125 := by
  obtain ⟨p', h⟩ := exVProducer_prepare
  obtain ⟨pl, h1, _, _, h4⟩ := C69_produce storeCodec storeCodec_gzip storeCodec_snappy (some 1) rfl
    _ _ p' _ ⟨by decide, by decide, by simp [exVProducer]⟩ h
  have h5 := exV_placements h1
  subst h5
  obtain ⟨_, h6⟩ := h4 exVReq (by simp) (by
    intro t part
    by_cases ht : t = "t" ∧ part = 0
    · obtain ⟨rfl, rfl⟩ := ht
      exact exTexts_fit (some 1) (.inr rfl)
    · have : placedOn [(⟨"t", ⟨.none, .str "hello"⟩, 0, 7⟩ : Place Val Val),
          ⟨"t", ⟨.none, .str "w"⟩, 0, 7⟩] exVReq.broker t part = [] := by
        have : ¬ ("t" = t ∧ 0 = part) := fun h => ht ⟨h.1.symm, h.2.symm⟩
        simp only [placedOn, List.filter_cons, List.filter_nil]
        simp [this]
      rw [this]
      exact ⟨by simp, fun _ => by decide +kernel, fun _ => ⟨by decide +kernel, by decide +kernel,
        by decide +kernel⟩, by simp⟩)
  exact ⟨_, h6 1 500 (by decide +kernel) (by decide +kernel) (by decide +kernel)
    (by decide +kernel) (by decide +kernel), by decide +kernel⟩

end Kiel
