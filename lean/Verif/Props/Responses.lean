import Verif.Model.Decode
import Verif.Props.Wire
/- C70: what the clients make of the responses on the wire. -/
set_option autoImplicit false
namespace Kiel
open Spec

theorem seen_many {α : Type} (t : Ty) (f : α → Val) (l : List α) :
    seen (.array t) (.list (l.map f)) = .list (l.map fun x => seen t (f x)) := by
  simp only [seen, elems, List.map_map, Function.comp_def]

theorem seen_byTopic {α : Type} (t : Ty) (f : α → Val) (ts : List (String × List α)) :
    seen (perTopic t) (.list (ts.map (topicArg f))) =
      .list (ts.map (topicArg fun x => seen t (f x))) := by
  refine (seen_many _ _ _).trans ?_
  congr 2
  funext x
  have h1 : seen .string (.str x.1) = .str x.1 := by simp only [seen]; exact sizedValue_str _
  have h2 := seen_many t f x.2
  have e1 : attr (topicArg f x) "name" = .str x.1 := rfl
  have e2 : attr (topicArg f x) "partitions" = .list (x.2.map f) := rfl
  simp only [struct, fieldsOf]
  rw [seen]
  simp only [seenFields, e1, e2, h1, arr, h2]
  rfl

theorem plain_many {α : Type} (t : Ty) (f : α → Val) (l : List α) (h : ∀ x, Plain t (f x)) :
    Plain (.array t) (.list (l.map f)) := by
  simp only [Plain, elems]
  intro x hx
  obtain ⟨y, _, rfl⟩ := List.mem_map.1 hx
  exact h y

theorem plain_byTopic {α : Type} (t : Ty) (f : α → Val) (ts : List (String × List α))
    (h : ∀ x, Plain t (f x)) : Plain (perTopic t) (.list (ts.map (topicArg f))) := by
  refine plain_many _ _ _ fun x => ?_
  simp only [struct, fieldsOf, Plain, PlainFields]
  refine ⟨trivial, ?_, trivial⟩
  exact plain_many t f x.2 h

theorem byTopic_read {α γ : Type} (g : Val → γ) (f : α → Val) (ts : List (String × List α)) :
    Val.byTopic g (.part [("topics", .list (ts.map (topicArg f)))]) =
      ts.map fun t => (t.1, t.2.map fun x => g (f x)) := by
  simp only [Val.byTopic, Val.fields, getAttr, Dict.get?, if_true, Val.items,
    List.map_map]
  refine List.map_congr_left fun x _ => ?_
  simp [Val.text, topicArg, Dict.get?, Function.comp_def]

/-- A response with answers by topic and partition. -/
theorem response_byTopic {α γ : Type} (cx : Codec) (depth : Nat) (name api : String) (t : Ty)
    (f : α → Val) (b : α → Bytes) (P : α → Prop) (g : Val → γ) (ts : List (String × List α))
    (hw : ∀ x, wire t (f x) = b x) (ho : ∀ x, P x → Ok t (f x)) (hp : ∀ x, Plain t (f x))
    (h : ByTopicFit P ts) (suf : Bytes) :
    ∃ v, (mkCls name api false [("topics", perTopic t)]).deserialize cx depth
        (byTopic b ts ++ suf) = .ok v ∧
      Val.byTopic g v = ts.map fun e => (e.1, e.2.map fun x => g (seen t (f x))) := by
  have hr := response_ok cx depth name api [("topics", perTopic t)]
    (.part [("topics", .list (ts.map (topicArg f)))])
    ⟨ok_byTopic t f P ts ho h, trivial⟩ ⟨plain_byTopic t f ts hp, trivial⟩ suf
  have e1 : attr (.part [("topics", .list (ts.map (topicArg f)))]) "topics" =
    .list (ts.map (topicArg f)) := rfl
  simp only [fieldsOf, wireFields, seenFields, e1, List.append_nil, wire_byTopic t f b ts hw,
    seen_byTopic] at hr
  exact ⟨_, hr, byTopic_read g _ ts⟩

/-- **C70**: a produce response is seen as the broker wrote it. -/
theorem C70_produce (cx : Codec) (depth : Nat) (corr : Int)
    (ts : List (String × List (Int × Int × Int)))
    (h : ByTopicFit (fun p => Fits 4 p.1 ∧ Fits 2 p.2.1 ∧ Fits 8 p.2.2) ts) (suf : Bytes) :
    ∃ v, Schema.produceResponse.deserialize cx depth (produceAnswer ts ++ suf) = .ok v ∧
      prespOf corr v = ⟨corr, ts.map fun t => (t.1, t.2.map fun p => (p.1, p.2.1))⟩ := by
  obtain ⟨v, h1, h2⟩ := response_byTopic cx depth "ProduceResponse" "produce"
    (struct [("partition_id", .int32), ("error_code", .int16), ("offset", .int64)])
    (fun p : Int × Int × Int => .part [("partition_id", .int p.1), ("error_code", .int p.2.1),
      ("offset", .int p.2.2)]) (fun p => be 4 p.1 ++ be 2 p.2.1 ++ be 8 p.2.2)
    (fun p => Fits 4 p.1 ∧ Fits 2 p.2.1 ∧ Fits 8 p.2.2)
    (fun p => ((getAttr p.fields "partition_id").toInt, (getAttr p.fields "error_code").toInt)) ts
    (fun x => by simp [struct, fieldsOf, wire, wireFields, attr, intOf])
    (fun x hx => ⟨⟨_, rfl⟩, ⟨_, rfl, hx.1⟩, ⟨_, rfl, hx.2.1⟩, ⟨_, rfl, hx.2.2⟩, trivial⟩)
    (fun x => ⟨trivial, trivial, trivial, trivial⟩) h suf
  exact ⟨v, h1, by rw [prespOf, h2]; rfl⟩

/-- **C70**: an offset response. -/
theorem C70_offset (cx : Codec) (depth : Nat) (ts : List (String × List (Int × Int × List Int)))
    (h : ByTopicFit (fun p => Fits 4 p.1 ∧ Fits 2 p.2.1 ∧ ManyFit (Fits 8) p.2.2) ts)
    (suf : Bytes) :
    ∃ v, Schema.offsetResponse.deserialize cx depth (offsetAnswer ts ++ suf) = .ok v ∧
      orespOf v = ⟨ts.map fun t => (t.1, t.2.map fun p => ⟨p.1, p.2.1, p.2.2⟩)⟩ := by
  obtain ⟨v, h1, h2⟩ := response_byTopic cx depth "OffsetResponse" "offset"
    (struct [("partition_id", .int32), ("error_code", .int16), ("offsets", arr .int64)])
    (fun p : Int × Int × List Int => .part [("partition_id", .int p.1), ("error_code", .int p.2.1),
      ("offsets", .list (p.2.2.map Val.int))]) (fun p => be 4 p.1 ++ be 2 p.2.1 ++ many (be 8) p.2.2)
    (fun p => Fits 4 p.1 ∧ Fits 2 p.2.1 ∧ ManyFit (Fits 8) p.2.2)
    (fun p => (⟨(getAttr p.fields "partition_id").toInt, (getAttr p.fields "error_code").toInt,
      (getAttr p.fields "offsets").items.map Val.toInt⟩ : OPart)) ts
    (fun x => by
      have := wire_many .int64 Val.int (be 8) x.2.2 (fun _ => rfl)
      simp only [struct, fieldsOf, arr]
      rw [wire]
      simp only [wireFields, List.append_nil, List.append_assoc]
      refine congrArg₂ _ rfl (congrArg₂ _ rfl ?_)
      exact this)
    (fun x hx => ⟨⟨_, rfl⟩, ⟨_, rfl, hx.1⟩, ⟨_, rfl, hx.2.1⟩,
      ok_many .int64 Val.int (Fits 8) x.2.2 (fun y hy => ⟨y, rfl, hy⟩) hx.2.2, trivial⟩)
    (fun x => ⟨trivial, trivial, plain_many .int64 Val.int x.2.2 (fun _ => trivial), trivial⟩) h suf
  refine ⟨v, h1, ?_⟩
  rw [orespOf, h2]
  refine congrArg OResp.mk (List.map_congr_left fun t _ =>
    congrArg (Prod.mk t.1) (List.map_congr_left fun p _ => ?_))
  simp [struct, fieldsOf, arr, seen, seenFields, attr, Val.fields, getAttr, Dict.get?, Val.toInt,
    Val.items, elems, Function.comp_def]

/-- **C70**: an offset commit response. -/
theorem C70_commit (cx : Codec) (depth : Nat) (ts : List (String × List (Int × Int)))
    (h : ByTopicFit (fun p => Fits 4 p.1 ∧ Fits 2 p.2) ts) (suf : Bytes) :
    ∃ v, Schema.commitResponse.deserialize cx depth (commitAnswer ts ++ suf) = .ok v ∧
      commitRespOf v = ⟨ts⟩ := by
  obtain ⟨v, h1, h2⟩ := response_byTopic cx depth "OffsetCommitResponse" "offset_commit"
    (struct [("partition_id", .int32), ("error_code", .int16)])
    (fun p : Int × Int => .part [("partition_id", .int p.1), ("error_code", .int p.2)])
    (fun p => be 4 p.1 ++ be 2 p.2)
    (fun p => Fits 4 p.1 ∧ Fits 2 p.2)
    (fun p => ((getAttr p.fields "partition_id").toInt, (getAttr p.fields "error_code").toInt)) ts
    (fun x => by simp [struct, fieldsOf, wire, wireFields, attr, intOf])
    (fun x hx => ⟨⟨_, rfl⟩, ⟨_, rfl, hx.1⟩, ⟨_, rfl, hx.2⟩, trivial⟩)
    (fun x => ⟨trivial, trivial, trivial⟩) h suf
  refine ⟨v, h1, ?_⟩
  rw [commitRespOf, h2]
  have h3 : ∀ t : String × List (Int × Int), (t.1, t.2.map fun x : Int × Int =>
      (((.part [("partition_id", .int x.1), ("error_code", .int x.2)] : Val).fields.head?.map
        fun e => e.2.toInt).getD 0, x.2)) = t := by
    intro t
    refine Prod.ext rfl ?_
    exact List.map_id'' (fun x => rfl) t.2
  refine congrArg CommitResp.mk ?_
  exact List.map_id'' h3 ts

/-- A string that may be null as an attribute. -/
def textArg : Option String → Val
  | some s => .str s
  | .none => .none

theorem wire_textOrNull (s : Option String) : wire .string (textArg s) = textOrNull s := by
  cases s with
  | none => rfl
  | some s => exact wire_text s

theorem ok_textOrNull {s : Option String} (h : ∀ t, s = some t → TextFits t) :
    Ok .string (textArg s) := by
  cases s with
  | none => simp only [Ok]; exact .inl rfl
  | some s => exact ok_text (h s rfl)

/-- **C70**: an offset fetch response. -/
theorem C70_offset_fetch (cx : Codec) (depth : Nat)
    (ts : List (String × List (Int × Int × Option String × Int)))
    (h : ByTopicFit (fun p => Fits 4 p.1 ∧ Fits 8 p.2.1 ∧ (∀ s, p.2.2.1 = some s → TextFits s) ∧
      Fits 2 p.2.2.2) ts)
    (suf : Bytes) :
    ∃ v, Schema.ofetchResponse.deserialize cx depth (offsetFetchAnswer ts ++ suf) = .ok v ∧
      ofrespOf v = ⟨ts.map fun t => (t.1, t.2.map fun p => ⟨p.1, p.2.1, p.2.2.2⟩)⟩ := by
  obtain ⟨v, h1, h2⟩ := response_byTopic cx depth "OffsetFetchResponse" "offset_fetch"
    (struct [("partition_id", .int32), ("offset", .int64), ("metadata", .string),
      ("error_code", .int16)])
    (fun p : Int × Int × Option String × Int => .part [("partition_id", .int p.1), ("offset", .int p.2.1),
      ("metadata", textArg p.2.2.1), ("error_code", .int p.2.2.2)])
    (fun p => be 4 p.1 ++ be 8 p.2.1 ++ textOrNull p.2.2.1 ++ be 2 p.2.2.2)
    (fun p => Fits 4 p.1 ∧ Fits 8 p.2.1 ∧ (∀ s, p.2.2.1 = some s → TextFits s) ∧ Fits 2 p.2.2.2)
    (fun p => (⟨(getAttr p.fields "partition_id").toInt, (getAttr p.fields "offset").toInt,
      (getAttr p.fields "error_code").toInt⟩ : OFPart)) ts
    (fun x => by
      simp only [struct, fieldsOf]
      rw [wire]
      simp only [wireFields, List.append_nil, List.append_assoc]
      exact congrArg₂ _ rfl (congrArg₂ _ rfl (congrArg₂ _ (wire_textOrNull _) rfl)))
    (fun x hx => ⟨⟨_, rfl⟩, ⟨_, rfl, hx.1⟩, ⟨_, rfl, hx.2.1⟩, ok_textOrNull hx.2.2.1,
      ⟨_, rfl, hx.2.2.2⟩, trivial⟩)
    (fun x => ⟨trivial, trivial, trivial, trivial, trivial⟩) h suf
  exact ⟨v, h1, by rw [ofrespOf, h2]; rfl⟩

/-- **C70**: a group coordinator response. -/
theorem C70_coordinator (cx : Codec) (depth : Nat) (code id : Int) (host : Option String) (port : Int)
    (h1 : Fits 2 code) (h2 : Fits 4 id) (h3 : ∀ s, host = some s → TextFits s) (h4 : Fits 4 port) (suf : Bytes) :
    ∃ v, Schema.coordinatorResponse.deserialize cx depth
        (coordinatorAnswer code id host port ++ suf) = .ok v ∧ coordRespOf v = ⟨code, id⟩ := by
  have hr := response_ok cx depth "GroupCoordinatorResponse" "group_coordinator"
    [("error_code", .int16), ("coordinator_id", .int32), ("coordinator_host", .string),
      ("coordinator_port", .int32)]
    (.part [("error_code", .int code), ("coordinator_id", .int id), ("coordinator_host", textArg host),
      ("coordinator_port", .int port)])
    ⟨⟨_, rfl, h1⟩, ⟨_, rfl, h2⟩, ok_textOrNull h3, ⟨_, rfl, h4⟩, trivial⟩
    ⟨trivial, trivial, trivial, trivial, trivial⟩ suf
  have hb : coordinatorAnswer code id host port = wireFields (fieldsOf
      [("error_code", .int16), ("coordinator_id", .int32), ("coordinator_host", .string),
      ("coordinator_port", .int32)])
      (.part [("error_code", .int code), ("coordinator_id", .int id),
        ("coordinator_host", textArg host), ("coordinator_port", .int port)]) := by
    simp only [fieldsOf, wireFields, List.append_nil, coordinatorAnswer, List.append_assoc]
    exact congrArg₂ _ rfl (congrArg₂ _ rfl (congrArg₂ _ (wire_textOrNull _).symm rfl))
  rw [hb]
  exact ⟨_, hr, rfl⟩

/-- Brokers, partitions and topics as instances. -/
def mdBrokerArg (b : MdBroker) : Val :=
  .part [("broker_id", .int b.id), ("host", .str b.host), ("port", .int b.port)]

@[inherit_doc mdBrokerArg] def mdPartArg (p : MdPart) : Val :=
  .part [("error_code", .int p.code), ("partition_id", .int p.id), ("leader", .int p.leader),
    ("replicas", .list (p.replicas.map Val.int)), ("isrs", .list (p.isr.map Val.int))]

@[inherit_doc mdBrokerArg] def mdTopicArg (t : MdTopic) : Val :=
  .part [("error_code", .int t.code), ("name", .str t.name),
    ("partitions", .list (t.parts.map mdPartArg))]

/-- The documented layout of the parts of a metadata response. -/
def mdBrokerTy : Ty := struct [("broker_id", .int32), ("host", .string), ("port", .int32)]
@[inherit_doc mdBrokerTy] def mdPartTy : Ty :=
  struct [("error_code", .int16), ("partition_id", .int32), ("leader", .int32),
    ("replicas", arr .int32), ("isrs", arr .int32)]
@[inherit_doc mdBrokerTy] def mdTopicTy : Ty :=
  struct [("error_code", .int16), ("name", .string), ("partitions", arr mdPartTy)]

theorem wire_mdBroker (b : MdBroker) : wire mdBrokerTy (mdBrokerArg b) = b.bytes := by
  simp only [mdBrokerTy, struct, fieldsOf]
  rw [wire]
  simp only [wireFields, List.append_nil, MdBroker.bytes, List.append_assoc]
  exact congrArg₂ _ rfl (congrArg₂ _ (wire_text _) rfl)

theorem wire_mdPart (p : MdPart) : wire mdPartTy (mdPartArg p) = p.bytes := by
  simp only [mdPartTy, struct, fieldsOf]
  rw [wire]
  simp only [wireFields, List.append_nil, MdPart.bytes, List.append_assoc]
  exact congrArg₂ _ rfl (congrArg₂ _ rfl (congrArg₂ _ rfl (congrArg₂ _
    (wire_many .int32 Val.int (be 4) p.replicas (fun _ => rfl))
    (wire_many .int32 Val.int (be 4) p.isr (fun _ => rfl)))))

theorem wire_mdTopic (t : MdTopic) : wire mdTopicTy (mdTopicArg t) = t.bytes := by
  simp only [mdTopicTy, struct, fieldsOf]
  rw [wire]
  simp only [wireFields, List.append_nil, MdTopic.bytes, List.append_assoc]
  exact congrArg₂ _ rfl (congrArg₂ _ (wire_text _)
    (wire_many mdPartTy mdPartArg MdPart.bytes t.parts wire_mdPart))

theorem ok_ints (l : List Int) (h : ManyFit (Fits 4) l) :
    Ok (.array .int32) (.list (l.map Val.int)) :=
  ok_many .int32 Val.int (Fits 4) l (fun y hy => ⟨y, rfl, hy⟩) h

theorem ok_mdPart (p : MdPart) (h : p.Fit) : Ok mdPartTy (mdPartArg p) :=
  ⟨⟨_, rfl⟩, ⟨_, rfl, h.code⟩, ⟨_, rfl, h.id⟩, ⟨_, rfl, h.leader⟩, ok_ints _ h.replicas,
    ok_ints _ h.isr, trivial⟩

theorem ok_mdTopic (t : MdTopic) (h : t.Fit) : Ok mdTopicTy (mdTopicArg t) :=
  ⟨⟨_, rfl⟩, ⟨_, rfl, h.code⟩, ok_text h.name,
    ok_many mdPartTy mdPartArg MdPart.Fit t.parts ok_mdPart h.parts, trivial⟩

theorem plain_mdPart (p : MdPart) : Plain mdPartTy (mdPartArg p) :=
  ⟨trivial, trivial, trivial, plain_many .int32 Val.int p.replicas (fun _ => trivial),
    plain_many .int32 Val.int p.isr (fun _ => trivial), trivial⟩

theorem plain_mdTopic (t : MdTopic) : Plain mdTopicTy (mdTopicArg t) :=
  ⟨trivial, trivial, plain_many mdPartTy mdPartArg t.parts plain_mdPart, trivial⟩

theorem seen_ints (l : List Int) :
    seen (.array .int32) (.list (l.map Val.int)) = .list (l.map Val.int) := by
  rw [seen_many]
  simp only [seen]

theorem seen_mdBroker (b : MdBroker) : seen mdBrokerTy (mdBrokerArg b) = mdBrokerArg b := by
  simp only [mdBrokerTy, struct, fieldsOf]
  rw [seen]
  have e1 : seen .string (.str b.host) = .str b.host := by simp only [seen]; exact sizedValue_str _
  have e2 : attr (mdBrokerArg b) "host" = .str b.host := rfl
  simp only [seenFields, e1, e2]
  rfl

theorem seen_mdPart (p : MdPart) : seen mdPartTy (mdPartArg p) = mdPartArg p := by
  simp only [mdPartTy, struct, fieldsOf, arr]
  rw [seen]
  have e1 : attr (mdPartArg p) "replicas" = .list (p.replicas.map Val.int) := rfl
  have e2 : attr (mdPartArg p) "isrs" = .list (p.isr.map Val.int) := rfl
  simp only [seenFields, e1, e2, seen_ints]
  rfl

theorem seen_mdTopic (t : MdTopic) : seen mdTopicTy (mdTopicArg t) = mdTopicArg t := by
  simp only [mdTopicTy, struct, fieldsOf, arr]
  rw [seen]
  have e1 : seen .string (.str t.name) = .str t.name := by simp only [seen]; exact sizedValue_str _
  have e2 : attr (mdTopicArg t) "name" = .str t.name := rfl
  have e3 : attr (mdTopicArg t) "partitions" = .list (t.parts.map mdPartArg) := rfl
  simp only [seenFields, e1, e2, e3, seen_many, seen_mdPart]
  rfl

/-- **C70**: a metadata response. -/
theorem C70_metadata (cx : Codec) (depth : Nat) (brokers : List MdBroker) (topics : List MdTopic)
    (hb : ManyFit MdBroker.Fit brokers) (ht : ManyFit MdTopic.Fit topics) (suf : Bytes) :
    ∃ v, Schema.metadataResponse.deserialize cx depth (metadataAnswer brokers topics ++ suf) =
        .ok v ∧
      metadataOf v = ⟨brokers.map fun b => ⟨b.id, b.host, b.port⟩,
        topics.map fun t => ⟨t.code, t.name, t.parts.map fun p => ⟨p.code, p.id, p.leader⟩⟩⟩ := by
  have hr := response_ok cx depth "MetadataResponse" "metadata"
    [("brokers", arr mdBrokerTy), ("topics", arr mdTopicTy)]
    (.part [("brokers", .list (brokers.map mdBrokerArg)), ("topics", .list (topics.map mdTopicArg))])
    ⟨ok_many mdBrokerTy mdBrokerArg MdBroker.Fit brokers (fun b h =>
        ⟨⟨_, rfl⟩, ⟨_, rfl, h.id⟩, ok_text h.host, ⟨_, rfl, h.port⟩, trivial⟩) hb,
      ok_many mdTopicTy mdTopicArg MdTopic.Fit topics ok_mdTopic ht, trivial⟩
    ⟨plain_many mdBrokerTy mdBrokerArg brokers (fun _ => ⟨trivial, trivial, trivial, trivial⟩),
      plain_many mdTopicTy mdTopicArg topics plain_mdTopic, trivial⟩ suf
  have e1 : attr (.part [("brokers", .list (brokers.map mdBrokerArg)),
    ("topics", .list (topics.map mdTopicArg))]) "brokers" = .list (brokers.map mdBrokerArg) := rfl
  have e2 : attr (.part [("brokers", .list (brokers.map mdBrokerArg)),
    ("topics", .list (topics.map mdTopicArg))]) "topics" = .list (topics.map mdTopicArg) := rfl
  simp only [fieldsOf, wireFields, seenFields, e1, e2, List.append_nil, arr,
    wire_many _ _ _ brokers wire_mdBroker, wire_many _ _ _ topics wire_mdTopic, seen_many,
    seen_mdBroker, seen_mdTopic] at hr
  refine ⟨_, hr, ?_⟩
  simp [metadataOf, Val.fields, getAttr, Dict.get?, Val.items, mdBrokerArg, mdTopicArg, mdPartArg,
    Val.toInt, Val.text, Function.comp_def]

-- Non-vacuity.
example : ByTopicFit (fun p : Int × Int × Int => Fits 4 p.1 ∧ Fits 2 p.2.1 ∧ Fits 8 p.2.2)
    [("t", [(0, 6, -1), (1, 0, 41)]), ("u", [])] := by decide +kernel
example : (Schema.produceResponse.deserialize storeCodec 1
      (produceAnswer [("t", [(0, 6, -1), (1, 0, 41)])])).map (prespOf 7) =
    .ok ⟨7, [("t", [(0, 6), (1, 0)])]⟩ := by decide +kernel
example : (Schema.offsetResponse.deserialize storeCodec 1
      (offsetAnswer [("t", [(0, 0, [5, 2]), (1, 6, [])])])).map orespOf =
    .ok ⟨[("t", [⟨0, 0, [5, 2]⟩, ⟨1, 6, []⟩])]⟩ := by decide +kernel
example : (Schema.ofetchResponse.deserialize storeCodec 1
    (offsetFetchAnswer [("t", [(0, -1, .none, 3), (1, 7, some "m", 0)])])).toOption.map ofrespOf =
    some ⟨[("t", [⟨0, -1, 3⟩, ⟨1, 7, 0⟩])]⟩ := by decide +kernel
example : (Schema.coordinatorResponse.deserialize storeCodec 1
    (coordinatorAnswer 15 (-1) .none (-1))).toOption.map coordRespOf = some ⟨15, -1⟩ := by
  decide +kernel
example : (Schema.metadataResponse.deserialize storeCodec 1
      (metadataAnswer [⟨1, "h", 9092⟩] [⟨0, "t", [⟨0, 0, 1, [1], [1]⟩, ⟨5, 1, -1, [], []⟩]⟩])).map
      metadataOf =
    .ok ⟨[⟨1, "h", 9092⟩], [⟨0, "t", [⟨0, 0, 1⟩, ⟨5, 1, -1⟩]⟩]⟩ := by decide +kernel
example : MdBroker.Fit ⟨1, "h", 9092⟩ := ⟨by decide, by decide +kernel, by decide⟩
example : MdTopic.Fit ⟨0, "t", [⟨0, 0, 1, [1], [1]⟩]⟩ :=
  ⟨by decide, by decide +kernel, by decide, by
    intro p hp
    simp only [List.mem_singleton] at hp
    subst hp
    exact ⟨by decide, by decide, by decide, by decide, by decide⟩⟩

end Kiel
