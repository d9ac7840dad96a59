import Verif.Model.Equality
import Verif.Spec.Equality
import Verif.Props.Primitives
import Verif.Model.Schemas
import Verif.Lemmas.Dict
import Mathlib.Data.List.Forall2
/-
C81: `==` on protocol structures.
-/
set_option autoImplicit false
namespace Kiel
open Spec

theorem eqScalar_iff (a b : Val) : eqScalar a b = true →  a = b := by
  cases a <;> cases b <;> simp [eqScalar]

theorem eqScalar_symm (a b : Val) : eqScalar a b = eqScalar b a := by
  cases a <;> cases b <;> simp [eqScalar, Bool.beq_comm]

theorem eqScalar_self {n : Nat} {v : Val} (h : SizedOk n v) : eqScalar v v = true := by
  rcases h with rfl | ⟨b, hb, _⟩
  · rfl
  · cases v <;> simp_all [eqScalar, content]

theorem eqScalar_seen {n : Nat} {v : Val} (h : SizedOk n v) :
    eqScalar v (sizedValue v) = true ↔ FaithfulScalar v := by
  constructor
  · intro he
    have := eqScalar_iff _ _ he
    rw [this]
    unfold sizedValue FaithfulScalar
    rcases h with rfl | ⟨b, hb, _⟩
    · simp [content]
    · rw [hb]
      simp only
      cases hd : decodeUtf8 b with
      | none => simp [hd]
      | some s => simp
  · intro hf
    have : sizedValue v = v := by
      rcases hf with rfl | ⟨s, rfl⟩ | ⟨b, rfl, hb⟩
      · rfl
      · simp [sizedValue, content, decode_encode]
      · simp [sizedValue, content, hb]
    rw [this]
    exact eqScalar_self h

theorem eqItems_true {α : Type} {eq : α → α → Res Bool} {xs ys : List α} (h : xs.length = ys.length) :
    eqItems eq xs ys = .ok true ↔ List.Forall₂ (fun x y => eq x y = .ok true) xs ys := by
  induction xs generalizing ys with
  | nil =>
    cases ys with
    | nil => simp [eqItems]
    | cons y ys => simp at h
  | cons x xs ih =>
    cases ys with
    | nil => simp at h
    | cons y ys =>
      simp only [eqItems, List.forall₂_cons]
      cases hx : eq x y with
      | error e => simp
      | ok b =>
        cases b with
        | false => simp
        | true => simpa using ih (by simpa using h)

theorem eqList_true {α : Type} {eq : α → α → Res Bool} {xs ys : List α} :
    eqList eq xs ys = .ok true ↔ List.Forall₂ (fun x y => eq x y = .ok true) xs ys := by
  unfold eqList
  split
  · rename_i h
    constructor
    · intro h'; simp at h'
    · intro h'; exact absurd h'.length_eq h
  · rename_i h
    exact eqItems_true (by simpa using h)

theorem forall₂_map_self {α : Type} {R : α → α → Prop} (f : α → α) (xs : List α) :
    List.Forall₂ R xs (xs.map f) ↔ ∀ x ∈ xs, R x (f x) := by
  induction xs with
  | nil => simp
  | cons x xs ih => simp [ih]

theorem get?_attr {kvs : List (String × Val)} {name : String} {v : Val}
    (h : Dict.get? kvs name = some v) : attr (.part kvs) name = v := by
  rw [← getAttr_eq, getAttr, h]

theorem hasAttr_iff (kvs : List (String × Val)) (name : String) :
    HasAttr (.part kvs) name ↔ Dict.get? kvs name = some (attr (.part kvs) name) := by
  constructor
  · rintro ⟨kvs', h, hm⟩
    cases h
    cases hg : Dict.get? kvs name with
    | none => exact absurd hm (Dict.get?_eq_none.1 hg)
    | some v => rw [get?_attr hg]
  · intro h
    exact ⟨kvs, rfl, Dict.mem_keys.2 ⟨_, Dict.mem_of_get? h⟩⟩

theorem eqMessage_seen {m : Val} (h : MessageOk m) :
    eqMessage m (messageValue m) = .ok true ↔ HasAttr m "key" ∧ HasAttr m "value" ∧
      FaithfulScalar (attr m "key") ∧ FaithfulScalar (attr m "value") := by
  obtain ⟨kvs, rfl⟩ := h.isPart
  have hk := eqScalar_seen h.key
  have hv := eqScalar_seen h.value
  have e1 : ∀ a b c d e : Val, Dict.get? [("crc", a), ("magic", b), ("attributes", c), ("key", d),
      ("value", e)] "key" = some d := by intros; rfl
  have e2 : ∀ a b c d e : Val, Dict.get? [("crc", a), ("magic", b), ("attributes", c), ("key", d),
      ("value", e)] "value" = some e := by intros; rfl
  simp only [messageValue, eqMessage, e1, e2]
  rw [hasAttr_iff, hasAttr_iff, ← hk, ← hv]
  cases g1 : Dict.get? kvs "key" with
  | none => simp
  | some k =>
    rw [get?_attr g1]
    simp only
    cases g2 : Dict.get? kvs "value" with
    | none =>
      simp only [true_and, reduceCtorEq, false_and, iff_false]
      split <;> simp
    | some v =>
      rw [get?_attr g2]
      simp only [true_and]
      split
      · rename_i ht; simp [ht]
      · rename_i hf; simp [hf]

/-- The named field is among the fields. -/
def Fields.Mem (name : String) (t : Ty) : Fields → Prop
  | .nil => False
  | .cons n t' rest => (n = name ∧ t' = t) ∨ Fields.Mem name t rest

theorem Fields.Mem.name {name : String} {t : Ty} : {fs : Fields} → Fields.Mem name t fs →
    name ∈ fieldNames fs
  | .nil, h => absurd h (by simp [Fields.Mem])
  | .cons n t' rest, h => by
    simp only [fieldNames, List.mem_cons]
    rcases h with ⟨h, _⟩ | h
    · exact .inl h.symm
    · exact .inr (Fields.Mem.name h)

theorem seenFields_get? {name : String} {t : Ty} (v : Val) : (fs : Fields) → DistinctFields fs →
    Fields.Mem name t fs → Dict.get? (seenFields fs v) name = some (seen t (attr v name))
  | .nil, _, h => absurd h (by simp [Fields.Mem])
  | .cons n t' rest, hd, h => by
    simp only [DistinctFields] at hd
    simp only [seenFields, Dict.get?]
    rcases h with ⟨rfl, rfl⟩ | h
    · simp
    · have hne : n ≠ name := by
        rintro rfl
        exact hd.1 h.name
      rw [if_neg hne]
      exact seenFields_get? v rest hd.2.2 h

mutual
theorem eqVal_seen : ∀ (t : Ty) (v : Val), Distinct t → Ok t v →
    (eqVal t v (seen t v) = .ok true ↔ Faithful t v)
  | .int8, v, _, h => by
    obtain ⟨i, rfl, _⟩ := h
    simp [seen, eqVal, eqScalar, Faithful]
  | .int16, v, _, h => by
    obtain ⟨i, rfl, _⟩ := h
    simp [seen, eqVal, eqScalar, Faithful]
  | .int32, v, _, h => by
    obtain ⟨i, rfl, _⟩ := h
    simp [seen, eqVal, eqScalar, Faithful]
  | .int64, v, _, h => by
    obtain ⟨i, rfl, _⟩ := h
    simp [seen, eqVal, eqScalar, Faithful]
  | .string, v, _, h => by
    simp only [seen, eqVal, Faithful, Except.ok.injEq]
    exact eqScalar_seen h
  | .bytes, v, _, h => by
    simp only [seen, eqVal, Faithful, Except.ok.injEq]
    exact eqScalar_seen h
  | .array t, v, hd, h => by
    simp only [Ok] at h
    simp only [Distinct] at hd
    obtain ⟨hv, _, hx⟩ := h
    rcases hv with rfl | ⟨xs, rfl⟩
    · simp [seen, eqVal, eqScalar, Faithful, elems]
    · simp only [elems] at hx
      simp only [seen, eqVal, Faithful, elems, eqList_true, forall₂_map_self]
      constructor
      · exact fun hh => ⟨by simp, fun x hxm => (eqVal_seen t x hd (hx x hxm)).1 (hh x hxm)⟩
      · exact fun hh x hxm => (eqVal_seen t x hd (hx x hxm)).2 (hh.2 x hxm)
  | .part fs, v, hd, h => by
    simp only [Ok] at h
    simp only [Distinct] at hd
    obtain ⟨⟨kvs, rfl⟩, h⟩ := h
    simp only [seen, eqVal, Faithful, Except.ok.injEq]
    exact eqFields_seen fs kvs _ hd h fun name t hm => seenFields_get? _ fs hd hm
  | .messageSet, v, _, h => by
    simp only [Ok] at h
    obtain ⟨ms, rfl, _, h⟩ := h
    simp only [seen, eqVal, Faithful, msgs, eqList_true, forall₂_map_self]
    have key : ∀ e ∈ ms, (eqEntry e (e.1, messageValue e.2) = .ok true ↔ HasAttr e.2 "key" ∧
        HasAttr e.2 "value" ∧ FaithfulScalar (attr e.2 "key") ∧ FaithfulScalar (attr e.2 "value")) := by
      intro e he
      obtain ⟨⟨i, hi, _⟩, hm, _⟩ := h e he
      rw [← eqMessage_seen hm]
      simp [eqEntry, hi, eqScalar]
    constructor
    · exact fun hh e he => (key e he).1 (hh e he)
    · exact fun hh e he => (key e he).2 (hh e he)
theorem eqFields_seen : ∀ (fs : Fields) (kvs w : List (String × Val)), DistinctFields fs →
    OkFields fs (.part kvs) →
    (∀ name t, Fields.Mem name t fs → Dict.get? w name = some (seen t (attr (.part kvs) name))) →
    (eqFields fs kvs w = true ↔ FaithfulFields fs (.part kvs))
  | .nil, _, _, _, _, _ => by simp [eqFields, FaithfulFields]
  | .cons name t rest, kvs, w, hd, h, hw => by
    simp only [DistinctFields] at hd
    simp only [OkFields] at h
    have h1 := eqVal_seen t (attr (.part kvs) name) hd.2.1 h.1
    have h2 := eqFields_seen rest kvs w hd.2.2 h.2 fun n t' hm => hw n t' (.inr hm)
    simp only [eqFields, FaithfulFields, hw name t (.inl ⟨rfl, rfl⟩), hasAttr_iff, ← h1, ← h2]
    cases hg : Dict.get? kvs name with
    | none => simp
    | some x =>
      rw [get?_attr hg]
      simp only [true_and, Bool.and_eq_true]
      cases he : eqVal t x (seen t x) with
      | error e => simp
      | ok b => cases b <;> simp
end

/-- **C81**: what is read back equals what was written exactly if it was written as what it is: no
attribute missing, no `None` for an array, and in length-prefixed fields only `None`, text, and bytes
that are not text. -/
theorem C81_read_back (cx : Codec) (depth : Nat) (t : Ty) (v : Val) (hd : Distinct t) (h : Ok t v)
    (hp : Plain t v) (pre suf : Bytes) :
    ∃ b w, encode t v = .ok b ∧
      parse cx depth t (pre ++ b ++ suf) pre.length = .ok (w, pre.length + b.length) ∧
      (eqVal t v w = .ok true ↔ Faithful t v) := by
  obtain ⟨b, h1, h2⟩ := C03_roundtrip cx depth t v h hp pre suf
  exact ⟨b, seen t v, h1, h2, eqVal_seen t v hd h⟩

mutual
theorem wire_eq : ∀ (t : Ty) (v w : Val), NoSets t → Ok t v → Ok t w → eqVal t v w = .ok true →
    wire t v = wire t w
  | .int8, v, w, _, _, _, h => by
    simp only [eqVal, Except.ok.injEq] at h; rw [eqScalar_iff _ _ h]
  | .int16, v, w, _, _, _, h => by
    simp only [eqVal, Except.ok.injEq] at h; rw [eqScalar_iff _ _ h]
  | .int32, v, w, _, _, _, h => by
    simp only [eqVal, Except.ok.injEq] at h; rw [eqScalar_iff _ _ h]
  | .int64, v, w, _, _, _, h => by
    simp only [eqVal, Except.ok.injEq] at h; rw [eqScalar_iff _ _ h]
  | .string, v, w, _, _, _, h => by
    simp only [eqVal, Except.ok.injEq] at h; rw [eqScalar_iff _ _ h]
  | .bytes, v, w, _, _, _, h => by
    simp only [eqVal, Except.ok.injEq] at h; rw [eqScalar_iff _ _ h]
  | .array t, v, w, hn, hv, hw, h => by
    simp only [NoSets] at hn
    simp only [Ok] at hv hw
    obtain ⟨hv1, _, hv2⟩ := hv
    obtain ⟨hw1, _, hw2⟩ := hw
    rcases hv1 with rfl | ⟨xs, rfl⟩ <;> rcases hw1 with rfl | ⟨ys, rfl⟩
    · rfl
    · simp [eqVal, eqScalar] at h
    · simp [eqVal, eqScalar] at h
    · simp only [eqVal, eqList_true] at h
      simp only [elems] at hv2 hw2
      simp only [wire, elems]
      rw [h.length_eq]
      have : ∀ xs ys : List Val, List.Forall₂ (fun x y => eqVal t x y = .ok true) xs ys →
          (∀ x ∈ xs, Ok t x) → (∀ y ∈ ys, Ok t y) →
          xs.map (fun x => wire t x) = ys.map (fun x => wire t x) := by
        intro xs
        induction xs with
        | nil => intro ys h _ _; cases h; rfl
        | cons x xs ih =>
          intro ys h h1 h2
          cases h with
          | cons e r =>
            simp only [List.map_cons]
            rw [wire_eq t _ _ hn (h1 _ (by simp)) (h2 _ (by simp)) e,
              ih _ r (fun x hx => h1 x (by simp [hx])) (fun x hx => h2 x (by simp [hx]))]
      rw [this xs ys h hv2 hw2]
  | .part fs, v, w, hn, hv, hw, h => by
    simp only [NoSets] at hn
    simp only [Ok] at hv hw
    obtain ⟨⟨a, rfl⟩, hv⟩ := hv
    obtain ⟨⟨b, rfl⟩, hw⟩ := hw
    simp only [eqVal, Except.ok.injEq] at h
    simp only [wire]
    exact wireFields_eq fs a b hn hv hw h
  | .messageSet, _, _, hn, _, _, _ => absurd hn (by simp [NoSets])
theorem wireFields_eq : ∀ (fs : Fields) (a b : List (String × Val)), NoSetsFields fs →
    OkFields fs (.part a) → OkFields fs (.part b) → eqFields fs a b = true →
    wireFields fs (.part a) = wireFields fs (.part b)
  | .nil, _, _, _, _, _, _ => rfl
  | .cons name t rest, a, b, hn, ha, hb, h => by
    simp only [NoSetsFields] at hn
    simp only [OkFields] at ha hb
    simp only [eqFields] at h
    simp only [wireFields]
    cases g1 : Dict.get? a name with
    | none => simp [g1] at h
    | some x =>
      cases g2 : Dict.get? b name with
      | none => simp [g1, g2] at h
      | some y =>
        simp only [g1, g2, Bool.and_eq_true] at h
        have he : eqVal t x y = .ok true := by
          cases hx : eqVal t x y with
          | error e => simp [hx] at h
          | ok r => cases r <;> simp_all
        have h1 := ha.1
        have h2 := hb.1
        rw [get?_attr g1] at h1 ⊢
        rw [get?_attr g2] at h2 ⊢
        rw [wire_eq t x y hn.1 h1 h2 he, wireFields_eq rest a b hn.2 ha.2 hb.2 h.2]
end

/-- **C81** (partial): equal instances are written as the same bytes.  Missing: message sets
(`C81_false_bytes`). -/
theorem C81_same_bytes_partial (t : Ty) (v w : Val) (hn : NoSets t) (hv : Ok t v) (hw : Ok t w)
    (h : eqVal t v w = .ok true) : encode t v = encode t w := by
  rw [C03_encode t v hv, C03_encode t w hw, wire_eq t v w hn hv hw h]

/-- **C81**: for message sets, equality is about offsets, keys and values, in order. -/
theorem C81_sets (a b : List (Val × Val)) (ha : ∀ e ∈ a, HasAttr e.2 "key" ∧ HasAttr e.2 "value")
    (hb : ∀ e ∈ b, HasAttr e.2 "key" ∧ HasAttr e.2 "value") :
    eqVal .messageSet (.mset a) (.mset b) = .ok true ↔
      List.Forall₂ (fun x y => eqScalar x.1 y.1 = true ∧
        eqScalar (attr x.2 "key") (attr y.2 "key") = true ∧
        eqScalar (attr x.2 "value") (attr y.2 "value") = true) a b := by
  simp only [eqVal, eqList_true]
  induction a generalizing b with
  | nil => simp
  | cons x a ih =>
    cases b with
    | nil => simp
    | cons y b =>
      simp only [List.forall₂_cons]
      rw [ih b (fun e he => ha e (by simp [he])) (fun e he => hb e (by simp [he]))]
      have key : eqEntry x y = .ok true ↔ (eqScalar x.1 y.1 = true ∧
          eqScalar (attr x.2 "key") (attr y.2 "key") = true ∧
          eqScalar (attr x.2 "value") (attr y.2 "value") = true) := by
        obtain ⟨hx1, hx2⟩ := ha x (by simp)
        obtain ⟨hy1, hy2⟩ := hb y (by simp)
        obtain ⟨o, m⟩ := x
        obtain ⟨o', m'⟩ := y
        simp only at *
        obtain ⟨kvs, rfl, _⟩ := id hx1
        obtain ⟨kvs', rfl, _⟩ := id hy1
        rw [hasAttr_iff] at hx1 hx2 hy1 hy2
        simp only [eqEntry, eqMessage, hx1, hx2, hy1, hy2]
        split
        · rename_i h1
          simp only [h1, true_and]
          split
          · rename_i h2; simp [h2]
          · rename_i h2; simp [h2]
        · rename_i h1; simp [h1]
      rw [key]

/-- **C81** is false of the code: a byte string that is text is read back as text, which in Python 3
it does not equal. -/
theorem C81_false_read (cx : Codec) :
    ∃ v b w, encode .bytes v = .ok b ∧ parse cx 0 .bytes b 0 = .ok (w, b.length) ∧
      eqVal .bytes v w = .ok false := by
  refine ⟨.bytes [0x61], [0, 0, 0, 1, 0x61], .str "a", by decide +kernel, ?_, by decide +kernel⟩
  have := C02_parse cx 0 VarClass.bytes (b := [0x61]) (by simp) [] []
  have h : decodeUtf8 [0x61] = some "a" := by
    rw [← decode_encode "a"]; congr 1
  rw [h] at this; exact this

/-- **C81** is false of the code: messages that differ in their attributes are equal. -/
theorem C81_false_bytes :
    let m (a : Int) : Val := .mset [(.int 0, .part [("magic", .int 0), ("attributes", .int a),
      ("key", .none), ("value", .str "x")])]
    eqVal .messageSet (m 0) (m 1) = .ok true ∧
    encode .messageSet (m 0) ≠ encode .messageSet (m 1) := by
  decide +kernel

/-- The fields among the items. -/
def itemFields : List PartsItem → Fields
  | [] => .nil
  | .pair n t :: is => .cons n t (itemFields is)
  | _ :: is => itemFields is

/-- **C81**: `C81_read_back` applies to all request and response classes. -/
theorem C81_classes : ∀ c ∈ Schema.requests ++ Schema.responses, Distinct (.part (itemFields c.items)) := by
  intro c hc
  simp only [Schema.requests, Schema.responses, List.cons_append, List.nil_append, List.mem_cons,
    List.not_mem_nil, or_false] at hc
  rcases hc with rfl | rfl | rfl | rfl | rfl | rfl | rfl | rfl | rfl | rfl | rfl | rfl | rfl | rfl |
    rfl | rfl | rfl | rfl | rfl | rfl | rfl | rfl | rfl | rfl | rfl | rfl | rfl | rfl <;>
  simp [Distinct, DistinctFields, itemFields, fieldNames, mkCls, mkPart, mkFields,
    Schema.metadataRequest, Schema.metadataBroker, Schema.metadataPartition, Schema.metadataTopic,
    Schema.metadataResponse, Schema.producePartitionRequest, Schema.produceTopicRequest,
    Schema.produceRequest, Schema.producePartitionResponse, Schema.produceTopicResponse,
    Schema.produceResponse, Schema.fetchPartitionRequest, Schema.fetchTopicRequest,
    Schema.fetchRequest, Schema.fetchPartitionResponse, Schema.fetchTopicResponse,
    Schema.fetchResponse, Schema.offsetPartitionRequest, Schema.offsetTopicRequest,
    Schema.offsetRequest, Schema.offsetPartitionResponse, Schema.offsetTopicResponse,
    Schema.offsetResponse, Schema.commitPartitionRequest, Schema.commitPartitionV1Request,
    Schema.commitTopicRequest, Schema.commitTopicV1Request, Schema.commitV0Request,
    Schema.commitV1Request, Schema.commitV2Request, Schema.commitPartitionResponse,
    Schema.commitTopicResponse, Schema.commitResponse, Schema.ofetchTopicRequest,
    Schema.ofetchRequest, Schema.ofetchPartitionResponse, Schema.ofetchTopicResponse,
    Schema.ofetchResponse, Schema.coordinatorRequest, Schema.coordinatorResponse,
    Schema.joinGroupProtocol, Schema.joinGroupRequest, Schema.joinGroupMember,
    Schema.joinGroupResponse, Schema.heartbeatRequest, Schema.heartbeatResponse,
    Schema.leaveGroupRequest, Schema.leaveGroupResponse, Schema.topicAssignment, Schema.assignment,
    Schema.memberAssignment, Schema.syncGroupRequest, Schema.syncGroupResponse,
    Schema.describeGroupsRequest, Schema.describeGroupsResponse, Schema.listGroupsRequest,
    Schema.groupDescription, Schema.memberDescription, Schema.listGroup, Schema.listGroupsResponse]

/-- An instance of `Spec.sample` with everything there. -/
def Spec.sampleFull : Val :=
  .part [("items", .list [.part [("name", .str "a"), ("tags", .list [.int 1, .int (-1)])],
    .part [("tags", .list []), ("name", .none)]]), ("id", .int 7)]

-- Non-vacuity of C81: both cases occur.
example : Distinct sample ∧ NoSets sample ∧ Ok sample sampleFull ∧ Faithful sample sampleFull ∧
    Ok sample sampleValue ∧ ¬ Faithful sample sampleValue := by
  refine ⟨?_, ?_, ?_, ?_, ?_, ?_⟩
  · simp [sample, Distinct, DistinctFields, fieldNames]
  · simp [sample, NoSets, NoSetsFields]
  · simp [sample, sampleFull, Ok, OkFields, attr, elems, Fits, SizedOk, content, encodeUtf8]
    decide
  · simp [sample, sampleFull, Faithful, FaithfulFields, HasAttr, FaithfulScalar, attr, elems]
  · simp [sample, sampleValue, Ok, OkFields, attr, elems, Fits, SizedOk, content, encodeUtf8]
    decide
  · simp [sample, sampleValue, Faithful, FaithfulFields, HasAttr, FaithfulScalar, attr, elems]
example : eqVal sample sampleFull (seen sample sampleFull) = .ok true :=
  (eqVal_seen sample sampleFull (by simp [sample, Distinct, DistinctFields, fieldNames])
    (by
      simp [sample, sampleFull, Ok, OkFields, attr, elems, Fits, SizedOk, content, encodeUtf8]
      decide)).2
    (by simp [sample, sampleFull, Faithful, FaithfulFields, HasAttr, FaithfulScalar, attr, elems])

end Kiel
