import Verif.Lemmas.Messages
import Verif.Lemmas.Schemas
/- Reading of whole fetch responses. -/
namespace Kiel
open Spec

/-- Reading well-formed items one after the other. -/
theorem parseItems_map {α : Type} {p : Bytes → Nat → Res (Val × Nat)} (w : α → Bytes)
    (v : α → Val) (l : List α)
    (h : ∀ a ∈ l, ∀ pre suf, p (pre ++ (w a ++ suf)) pre.length =
      .ok (v a, pre.length + (w a).length)) (pre suf : Bytes) (n : Nat) :
    parseItems p (pre ++ ((l.map w).flatten ++ suf)) (l.length + n) pre.length =
      match parseItems p (pre ++ ((l.map w).flatten ++ suf)) n
          (pre.length + (l.map w).flatten.length) with
      | .error e => .error e
      | .ok (vs, o) => .ok (l.map v ++ vs, o) := by
  induction l generalizing pre with
  | nil =>
    simp
    rcases parseItems p (pre ++ suf) n pre.length with e | ⟨r, o⟩ <;> rfl
  | cons a l ih =>
    have h1 := h a (by simp) pre ((l.map w).flatten ++ suf)
    have h2 := ih (fun a ha => h a (by simp [ha])) (pre ++ w a)
    have hb : pre ++ (((a :: l).map w).flatten ++ suf) =
        pre ++ (w a ++ ((l.map w).flatten ++ suf)) := by simp
    have hb2 : pre ++ w a ++ ((l.map w).flatten ++ suf) =
        pre ++ (w a ++ ((l.map w).flatten ++ suf)) := by simp
    have hn : (a :: l).length + n = (l.length + n) + 1 := by simp; omega
    rw [hb, hn, parseItems, h1]
    simp only
    rw [hb2, List.length_append] at h2
    rw [h2]
    have hl : pre.length + ((a :: l).map w).flatten.length =
        pre.length + (w a).length + (l.map w).flatten.length := by simp; omega
    rw [hl]
    rcases parseItems p (pre ++ (w a ++ ((l.map w).flatten ++ suf))) n
      (pre.length + (w a).length + (l.map w).flatten.length) with e | ⟨r, o⟩
    · rfl
    · simp

theorem parseItems_all {α : Type} {p : Bytes → Nat → Res (Val × Nat)} (w : α → Bytes)
    (v : α → Val) (l : List α)
    (h : ∀ a ∈ l, ∀ pre suf, p (pre ++ (w a ++ suf)) pre.length =
      .ok (v a, pre.length + (w a).length)) (pre suf : Bytes) :
    parseItems p (pre ++ ((l.map w).flatten ++ suf)) l.length pre.length =
      .ok (l.map v, pre.length + (l.map w).flatten.length) := by
  have := parseItems_map w v l h pre suf 0
  simpa [parseItems] using this

theorem parse_partHead {cx : Codec} {depth : Nat} {p : PartResp} {packed}
    (h : p.Ok packed) (pre suf : Bytes) (ms : Val) (o : Nat)
    (hset : parseSet cx depth (pre ++ (p.head ++ suf)) (pre.length + 14) = .ok (ms, o)) :
    parse cx depth Schema.fetchPartitionResponse (pre ++ (p.head ++ suf)) pre.length =
      .ok (.part [("partition_id", .int p.partition), ("error_code", .int p.error),
        ("highwater_mark_offset", .int p.highwater), ("message_set", ms)], o) := by
  have h1 := parseInt_be (n := 4) (by norm_num) h.partition pre
    (be 2 p.error ++ (be 8 p.highwater ++ suf))
  have h2 := parseInt_be (n := 2) (by norm_num) h.error (pre ++ be 4 p.partition)
    (be 8 p.highwater ++ suf)
  have h3 := parseInt_be (n := 8) (by norm_num) h.highwater
    (pre ++ be 4 p.partition ++ be 2 p.error) suf
  have hb : pre ++ (p.head ++ suf) =
      pre ++ (be 4 p.partition ++ (be 2 p.error ++ (be 8 p.highwater ++ suf))) := by
    simp [PartResp.head]
  rw [hb] at hset ⊢
  simp only [List.append_assoc, List.length_append, be_length] at h1 h2 h3
  simp only [← Nat.add_assoc] at h1 h2 h3
  simp only [Schema.fetchPartitionResponse, mkPart, mkFields, parse, parseFields, h1, h2, h3]
  have : pre.length + 4 + 2 + 8 = pre.length + 14 := by omega
  rw [this, hset]

theorem parse_part {cx : Codec} {depth : Nat} {p : PartResp} (h : p.Ok (Packed cx))
    (pre suf : Bytes) :
    parse cx (depth + 1) Schema.fetchPartitionResponse (pre ++ (p.wire ++ suf)) pre.length =
      .ok (p.value, pre.length + p.wire.length) := by
  have h1 := parseSet_stored (cx := cx) (depth := depth) h.stored h.size (pre ++ p.head) suf
  have hh : p.head.length = 14 := by simp [PartResp.head, be_length]
  have hb : pre ++ p.head ++ (be 4 (entries p.es).length ++ (entries p.es ++ suf)) =
      pre ++ (p.head ++ ((be 4 (entries p.es).length ++ entries p.es) ++ suf)) := by simp
  have hb2 : pre ++ (p.wire ++ suf) =
      pre ++ (p.head ++ ((be 4 (entries p.es).length ++ entries p.es) ++ suf)) := by
    simp [PartResp.wire]
  rw [hb, List.length_append, hh] at h1
  rw [hb2, parse_partHead h pre _ _ _ h1]
  simp [PartResp.value, PartResp.wire, hh, be_length]
  omega

theorem parse_partCut {cx : Codec} {depth : Nat} {p : PartResp} (h : p.Ok (Packed cx))
    {e : Val × Val} (he : EntryOk e) {k : Nat} (hk : k < (entry e).length)
    (hl : (entries p.es).length + k < 2 ^ 31) (pre : Bytes) :
    ∃ o, parse cx (depth + 1) Schema.fetchPartitionResponse (pre ++ p.cutWire e k) pre.length =
      .ok (p.value, o) := by
  obtain ⟨o, h1⟩ := parseSet_cut (cx := cx) (depth := depth) h.stored he hk hl (pre ++ p.head)
  have hh : p.head.length = 14 := by simp [PartResp.head, be_length]
  have hb : pre ++ p.head ++ cutSet p.es e k = pre ++ (p.head ++ cutSet p.es e k) := by simp
  rw [hb, List.length_append, hh] at h1
  exact ⟨o, by rw [PartResp.cutWire, parse_partHead h pre _ _ _ h1]; rfl⟩

theorem sizedValue_str (s : String) : sizedValue (.str s) = .str s := by
  simp [sizedValue, content, decode_encode]

/-- Reading of a topic, given how its partitions are read. -/
theorem parse_topicHead {cx : Codec} {depth : Nat} {name : String} {n : Nat}
    (hn : (encodeUtf8 name).length < 2 ^ 15) (hc : n < 2 ^ 31) (pre suf : Bytes)
    (vs : List Val) (o : Nat)
    (hp : parseItems (fun b o => parse cx depth Schema.fetchPartitionResponse b o)
      (pre ++ (sized 2 (.str name) ++ (be 4 n ++ suf))) n
      (pre.length + (sized 2 (.str name)).length + 4) = .ok (vs, o)) :
    parse cx depth Schema.fetchTopicResponse
        (pre ++ (sized 2 (.str name) ++ (be 4 n ++ suf))) pre.length =
      .ok (.part [("name", .str name), ("partitions", .list vs)], o) := by
  have h1 := parseVar_sized (n := 2) (by norm_num) (v := .str name)
    (.inr ⟨_, rfl, hn⟩) pre (be 4 n ++ suf)
  have h2 := unpackInt_be (n := 4) (by norm_num) (fits_nat (n := 4) hc)
    (pre ++ sized 2 (.str name)) suf
  simp only [List.append_assoc, List.length_append] at h2
  simp only [Schema.fetchTopicResponse, mkPart, mkFields, parse, parseFields, h1, h2,
    Int.toNat_natCast, sizedValue_str]
  rw [hp]

theorem parse_topic {cx : Codec} {depth : Nat} {t : String × List PartResp}
    (h : TopicOk (Packed cx) t) (pre suf : Bytes) :
    parse cx (depth + 1) Schema.fetchTopicResponse
        (pre ++ (topicBytes t ++ suf)) pre.length =
      .ok (topicVal t, pre.length + (topicBytes t).length) := by
  have hi := parseItems_all
    (p := fun b o => parse cx (depth + 1) Schema.fetchPartitionResponse b o)
    PartResp.wire PartResp.value t.2 (fun a ha pre suf => parse_part (h.parts a ha) pre suf)
    (pre ++ sized 2 (.str t.1) ++ be 4 t.2.length) suf
  have hb : pre ++ sized 2 (.str t.1) ++ be 4 t.2.length ++
      ((t.2.map PartResp.wire).flatten ++ suf) =
      pre ++ (sized 2 (.str t.1) ++ (be 4 t.2.length ++
        ((t.2.map PartResp.wire).flatten ++ suf))) := by simp
  have hb2 : pre ++ (topicBytes t ++ suf) =
      pre ++ (sized 2 (.str t.1) ++ (be 4 t.2.length ++
        ((t.2.map PartResp.wire).flatten ++ suf))) := by simp [topicBytes, topicWire]
  rw [hb] at hi
  simp only [List.length_append, be_length] at hi
  rw [hb2, parse_topicHead h.name h.count pre _ _ _ hi]
  simp [topicVal, topicValue, topicBytes, topicWire, be_length]
  omega

theorem parse_topicCut {cx : Codec} {depth : Nat} {t : String × List PartResp}
    (h : TopicOk (Packed cx) t) {p : PartResp} (hp : p.Ok (Packed cx))
    (hc : t.2.length + 1 < 2 ^ 31)
    {e : Val × Val} (he : EntryOk e) {k : Nat} (hk : k < (entry e).length)
    (hl : (entries p.es).length + k < 2 ^ 31) (pre : Bytes) :
    ∃ o, parse cx (depth + 1) Schema.fetchTopicResponse
        (pre ++ topicWire t.1 (t.2.map PartResp.wire ++ [p.cutWire e k])) pre.length =
      .ok (topicValue t.1 (t.2 ++ [p]), o) := by
  have hi := parseItems_map
    (p := fun b o => parse cx (depth + 1) Schema.fetchPartitionResponse b o)
    PartResp.wire PartResp.value t.2 (fun a ha pre suf => parse_part (h.parts a ha) pre suf)
    (pre ++ sized 2 (.str t.1) ++ be 4 ((t.2.length + 1 : Nat) : Int)) (p.cutWire e k) 1
  obtain ⟨o, ho⟩ := parse_partCut (depth := depth) hp he hk hl
    (pre ++ sized 2 (.str t.1) ++ be 4 ((t.2.length + 1 : Nat) : Int) ++
      (t.2.map PartResp.wire).flatten)
  simp only [List.append_assoc, List.length_append, be_length] at hi ho
  simp only [← Nat.add_assoc] at hi ho
  simp only [parseItems, ho] at hi
  refine ⟨o, ?_⟩
  have hb2 : pre ++ topicWire t.1 (t.2.map PartResp.wire ++ [p.cutWire e k]) =
      pre ++ (sized 2 (.str t.1) ++ (be 4 ((t.2.length + 1 : Nat) : Int) ++
        ((t.2.map PartResp.wire).flatten ++ p.cutWire e k))) := by simp [topicWire]
  rw [hb2, parse_topicHead h.name hc pre _ _ _ hi]
  simp [topicValue]

theorem fetch_deserialize {cx : Codec} {depth : Nat} {raw : Bytes} {n : Nat}
    (hc : n < 2 ^ 31) (vs : List Val) (o : Nat)
    (hp : parseItems (fun b o => parse cx depth Schema.fetchTopicResponse b o)
      (be 4 n ++ raw) n 4 = .ok (vs, o)) :
    Schema.fetchResponse.deserialize cx depth (be 4 n ++ raw) =
      .ok (.part [("topics", .list vs)]) := by
  have h2 := unpackInt_be (n := 4) (by norm_num) (fits_nat (n := 4) hc) [] raw
  simp only [List.nil_append, List.length_nil] at h2
  simp only [Cls.deserialize, Schema.fetchResponse, mkCls, List.map_cons, List.map_nil,
    parseItemsOf, PartsItem.unpack, parse, h2, Int.toNat_natCast, Nat.zero_add, hp]
  simp [initPart, partNames, PartsItem.first]

end Kiel
