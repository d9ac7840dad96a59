import Verif.Lemmas.Fetch
import Verif.Lemmas.Crc
import Verif.Util.Krfl
/- C07, C08, C12: message sets. -/
namespace Kiel
open Spec

/-- The message set with these offsets, keys and values. -/
def Spec.plainSet (l : List (Int × Val × Val)) : List (Val × Val) :=
  l.map fun m => (.int m.1, mkMessage 0 m.2.1 m.2.2)

/-- Offset, key and value fit, and the checksum is not 2^31 (see C08). -/
structure Spec.Writable (m : Int × Val × Val) : Prop where
  offset : Fits 8 m.1
  key : SizedOk 4 m.2.1
  value : SizedOk 4 m.2.2
  size : (message (mkMessage 0 m.2.1 m.2.2)).length < 2 ^ 31
  crc : crc32 (body (mkMessage 0 m.2.1 m.2.2)) ≠ 2 ^ 31

theorem messageOk_mk {c : Int} {k v : Val} (hc : Fits 1 c) (hk : SizedOk 4 k)
    (hv : SizedOk 4 v) (hs : (message (mkMessage c k v)).length < 2 ^ 31) :
    MessageOk (mkMessage c k v) where
  isPart := ⟨_, rfl⟩
  magic := ⟨0, by simp [mkMessage, attr], by unfold Fits; norm_num⟩
  attributes := ⟨c, by simp [mkMessage, attr], hc⟩
  key := by simpa [mkMessage, attr] using hk
  value := by simpa [mkMessage, attr] using hv
  size := hs

theorem plainEntry_mk {m : Int × Val × Val} (h : Writable m) :
    PlainEntry (.int m.1, mkMessage 0 m.2.1 m.2.2) where
  offset := ⟨m.1, rfl, h.offset⟩
  message := messageOk_mk (by unfold Fits; norm_num) h.key h.value h.size
  attributes := by simp [mkMessage, attr]

/-- **C07**: the rendering of a set of uncompressed messages is the size of the rest and,
per message, its offset, its size and the message itself. -/
theorem C07_encode (l : List (Int × Val × Val)) (h : ∀ m ∈ l, Writable m)
    (hl : (entries (plainSet l)).length < 2 ^ 31) :
    encode .messageSet (.mset (plainSet l)) =
      .ok (be 4 (entries (plainSet l)).length ++ (l.map fun m =>
        be 8 m.1 ++ be 4 (message (mkMessage 0 m.2.1 m.2.2)).length ++
          message (mkMessage 0 m.2.1 m.2.2)).flatten) := by
  obtain ⟨f, d, h1, h2⟩ := render_ok .messageSet (.mset (plainSet l)) ⟨plainSet l, rfl, hl, by
    intro e he
    simp only [plainSet, List.mem_map] at he
    obtain ⟨m, hm, rfl⟩ := he
    exact ⟨(plainEntry_mk (h m hm)).offset, (plainEntry_mk (h m hm)).message, (h m hm).crc⟩⟩
  simp only [encode, h1, h2, wire, msgs]
  congr 2
  simp only [entries, plainSet, List.map_map]
  rfl

theorem stored_plainSet {packed} {l : List (Int × Val × Val)} (h : ∀ m ∈ l, Writable m) :
    List.Forall₂ (Stored packed) (plainSet l) ((plainSet l).map fun e => [e]) := by
  induction l with
  | nil => exact .nil
  | cons m l ih =>
    exact .cons (.plain (plainEntry_mk (h m (by simp)))) (ih fun m hm => h m (by simp [hm]))

theorem view_plainSet (l : List (Int × Val × Val)) :
    view (.mset ((plainSet l).map fun e => (e.1, messageValue e.2))) =
      l.map fun m => (m.1, sizedValue m.2.1, sizedValue m.2.2) := by
  simp only [view, msgs, plainSet, List.map_map]
  rfl

/-- **C07**: parsing it back, anywhere in a buffer, gives the same offsets, keys and values
in the same order, and stops exactly at the end of the set. -/
theorem C07_parse (cx : Codec) (depth : Nat) (l : List (Int × Val × Val))
    (h : ∀ m ∈ l, Writable m) (hl : (entries (plainSet l)).length < 2 ^ 31) (raw : Bytes)
    (hr : encode .messageSet (.mset (plainSet l)) = .ok raw) (pre suf : Bytes) :
    ∃ v, parse cx depth .messageSet (pre ++ raw ++ suf) pre.length =
        .ok (v, pre.length + raw.length) ∧
      view v = l.map fun m => (m.1, sizedValue m.2.1, sizedValue m.2.2) := by
  have hraw : raw = be 4 (entries (plainSet l)).length ++ entries (plainSet l) := by
    rw [C07_encode l h hl] at hr
    cases hr
    congr 1
    simp only [entries, plainSet, List.map_map]
    rfl
  have h1 := parseSet_plain (cx := cx) (depth := depth) hl (ms := plainSet l) (by
    intro e he
    simp only [plainSet, List.mem_map] at he
    obtain ⟨m, hm, rfl⟩ := he
    exact ⟨(plainEntry_mk (h m hm)).offset, (plainEntry_mk (h m hm)).message,
      (plainEntry_mk (h m hm)).attributes⟩) pre suf
  refine ⟨_, ?_, view_plainSet l⟩
  have hb : pre ++ raw ++ suf =
      pre ++ (be 4 (entries (plainSet l)).length ++ (entries (plainSet l) ++ suf)) := by
    rw [hraw]; simp
  rw [hb, parse, h1, hraw]
  simp [be_length]

/-- Two messages, the second without a key and with a value that is not text. -/
def Spec.twoMessages : List (Int × Val × Val) :=
  [(41, .str "k", .str "v"), (42, .none, .bytes [0xff])]

theorem Spec.twoMessages_ok : ∀ m ∈ twoMessages, Writable m := by
  intro m hm
  simp only [twoMessages, List.mem_cons, List.not_mem_nil, or_false] at hm
  rcases hm with rfl | rfl
  · exact ⟨by unfold Fits; norm_num, .inr ⟨_, rfl, by decide +kernel⟩,
      .inr ⟨_, rfl, by decide +kernel⟩, by decide +kernel, by decide +kernel⟩
  · exact ⟨by unfold Fits; norm_num, .inl rfl, .inr ⟨_, rfl, by decide +kernel⟩,
      by decide +kernel, by decide +kernel⟩

-- Non-vacuity: the hypotheses of C07 hold for them.
example : (∀ m ∈ twoMessages, Writable m) ∧ (entries (plainSet twoMessages)).length < 2 ^ 31 :=
  ⟨twoMessages_ok, by decide +kernel⟩

theorem renderMessage_eq {m : Val} (h : MessageOk m) :
    renderMessage m = .ok ([.i, .s (body m).length],
      [.int (if ((crc32 (body m) : Nat) : Int) > 2 ^ 31 then (crc32 (body m) : Int) - 2 ^ 32
        else (crc32 (body m) : Int)), .bytes (body m)]) := by
  obtain ⟨⟨kvs, rfl⟩, ⟨mg, hmg, fmg⟩, ⟨at', hat, fat⟩, hk, hv, hs⟩ := h
  obtain ⟨kf, kd, hk1, hk2⟩ := renderVar_ok (sz := .i) (by simp) hk
  obtain ⟨vf, vd, hv1, hv2⟩ := renderVar_ok (sz := .i) (by simp) hv
  have p : pack ([.b] ++ [.b] ++ kf ++ vf) ([.int mg] ++ [.int at'] ++ kd ++ vd) =
      .ok (body (.part kvs)) := by
    unfold body
    rw [hmg, hat]
    exact pack_append (pack_append (pack_append (pack_int1 (f := .b) (by simp) fmg)
      (pack_int1 (f := .b) (by simp) fat)) hk2) hv2
  simp only [renderMessage, getAttr_eq, hk1, hv1, hmg, hat, p]

/-- What `struct.pack` makes of a rendered message. -/
def Spec.packed (m : Val) : Res Bytes :=
  match renderMessage m with
  | .error e => .error e
  | .ok (f, d) => pack f d

/-- **C08** (partial: the checksum 2^31 is excepted): a message is rendered as the CRC-32 of
its body, as a signed 32-bit integer, and the body. -/
theorem C08_crc_partial (m : Val) (h : MessageOk m) (hc : crc32 (body m) ≠ 2 ^ 31) :
    packed m = .ok (be 4 (crc32 (body m)) ++ body m) ∧
    ∃ c, Fits 4 c ∧ be 4 c = be 4 (crc32 (body m)) ∧ (c - crc32 (body m)) % 2 ^ 32 = 0 := by
  obtain ⟨f, d, h1, h2⟩ := renderMessage_ok h hc
  refine ⟨by simp only [packed, h1, h2, message], signed32 (crc32 (body m)), ?_, ?_, ?_⟩
  · have := crc32_lt (body m)
    unfold signed32 Fits
    split <;> norm_num <;> omega
  · unfold signed32; split
    · rfl
    · rw [be_mod4]
  · unfold signed32; split
    · simp
    · norm_num

/-- **C08** is false exactly when the checksum is 2^31: `struct.error`. -/
theorem C08_false (m : Val) (h : MessageOk m) (hc : crc32 (body m) = 2 ^ 31) :
    packed m = .error .structError := by
  simp only [packed, renderMessage_eq h, hc]
  have h1 : packInt 4 (2 ^ 31) = .error .structError := packInt_err (by unfold Fits; norm_num)
  have h2 : (if (((2 ^ 31 : Nat) : Int) > 2 ^ 31) then (((2 ^ 31 : Nat) : Int) - 2 ^ 32)
      else ((2 ^ 31 : Nat) : Int)) = 2 ^ 31 := by norm_num
  rw [h2]
  simp only [pack, packOne, Fmt.size, h1]

/-- **C08**, exactly: every body has one CRC-32, in the sense of the standards (a remainder of
polynomials, see Verif/Spec/Crc.lean); the message is rendered as that number and the body, unless
the number is 2^31, when rendering fails. -/
theorem C08_exact (m : Val) (h : MessageOk m) :
    ∃ c, IsCrc32 (body m) c ∧ (∀ d, IsCrc32 (body m) d → d = c) ∧
      packed m = if c = 2 ^ 31 then .error .structError else .ok (be 4 c ++ body m) := by
  refine ⟨crc32 (body m), isCrc32_crc32 _, fun d hd => isCrc32_unique hd (isCrc32_crc32 _), ?_⟩
  split
  · next hc => exact C08_false m h hc
  · next hc => exact (C08_crc_partial m h hc).1

/-- A JSON document whose message has the checksum 2^31. -/
def Spec.unlucky : Val := mkMessage 0 .none (.str "{\"id\": 140806257}")

theorem Spec.unlucky_ok : MessageOk unlucky :=
  messageOk_mk (by unfold Fits; norm_num) (.inl rfl) (.inr ⟨_, rfl, by decide +kernel⟩)
    (by decide +kernel)

/-- **C08** fails for a real message. -/
theorem C08_false_witness : MessageOk unlucky ∧ packed unlucky = .error .structError :=
  ⟨unlucky_ok, C08_false unlucky unlucky_ok (by decide +kernel)⟩

-- Non-vacuity of `C08_crc_partial`.
example : MessageOk (mkMessage 0 .none (.str "v")) ∧
    crc32 (body (mkMessage 0 .none (.str "v"))) ≠ 2 ^ 31 :=
  ⟨messageOk_mk (by unfold Fits; norm_num) (.inl rfl) (.inr ⟨_, rfl, by decide +kernel⟩)
    (by decide +kernel), by decide +kernel⟩
-- Non-vacuity of `C08_exact`.
example : MessageOk unlucky ∧ MessageOk (mkMessage 0 (.str "k") (.bytes [0xff])) :=
  ⟨unlucky_ok, messageOk_mk (by unfold Fits; norm_num) (.inr ⟨_, rfl, by decide +kernel⟩)
    (.inr ⟨_, rfl, by decide +kernel⟩) (by decide +kernel)⟩
-- The checksum is the usual one.
example : crc32 [0x31, 0x32, 0x33, 0x34, 0x35, 0x36, 0x37, 0x38, 0x39] = 0xCBF43926 := by
  decide +kernel

/-- **C12** (partial: the cut set has to be the last one of the response): whatever the
entry `e` that was cut, wherever it was cut, the response is read as the complete messages
of each partition.  Sets may hold compressed messages, also compressed by other clients. -/
theorem C12_last_partial (cx : Codec) (depth : Nat) (topics : List (String × List PartResp))
    (t : String × List PartResp) (p : PartResp) (e : Val × Val) (k : Nat)
    (hts : ∀ t ∈ topics, TopicOk (Packed cx) t) (htn : topics.length + 1 < 2 ^ 31)
    (ht : TopicOk (Packed cx) t) (hpn : t.2.length + 1 < 2 ^ 31) (hp : p.Ok (Packed cx))
    (he : EntryOk e) (hk : k < (entry e).length) (hl : (entries p.es).length + k < 2 ^ 31) :
    Schema.fetchResponse.deserialize cx (depth + 1)
      (fetchWire (topics.map topicBytes ++
        [topicWire t.1 (t.2.map PartResp.wire ++ [p.cutWire e k])])) =
    .ok (.part [("topics", .list (topics.map topicVal ++
      [topicValue t.1 (t.2 ++ [p])]))]) := by
  have hi := parseItems_map
    (p := fun b o => parse cx (depth + 1) Schema.fetchTopicResponse b o)
    topicBytes topicVal topics
    (fun t ht pre suf => parse_topic (hts t ht) pre suf)
    (be 4 ((topics.length + 1 : Nat) : Int))
    (topicWire t.1 (t.2.map PartResp.wire ++ [p.cutWire e k])) 1
  obtain ⟨o, ho⟩ := parse_topicCut (depth := depth) ht hp hpn he hk hl
    (be 4 ((topics.length + 1 : Nat) : Int) ++
      (topics.map topicBytes).flatten)
  simp only [List.append_assoc, List.length_append, be_length] at hi ho
  simp only [parseItems, ho] at hi
  have := fetch_deserialize (n := topics.length + 1) htn _ _ hi
  have hw : fetchWire (topics.map topicBytes ++
        [topicWire t.1 (t.2.map PartResp.wire ++ [p.cutWire e k])]) =
      be 4 ((topics.length + 1 : Nat) : Int) ++
        ((topics.map topicBytes).flatten ++
          topicWire t.1 (t.2.map PartResp.wire ++ [p.cutWire e k])) := by
    simp [fetchWire]
  rw [hw, this]

/-- **C07** for whole fetch responses, with any mixture of plain and compressed sets. -/
theorem C07_fetch (cx : Codec) (depth : Nat) (topics : List (String × List PartResp))
    (hts : ∀ t ∈ topics, TopicOk (Packed cx) t) (htn : topics.length < 2 ^ 31) (suf : Bytes) :
    Schema.fetchResponse.deserialize cx (depth + 1)
      (fetchWire (topics.map topicBytes) ++ suf) =
    .ok (.part [("topics", .list (topics.map topicVal))]) := by
  have hi := parseItems_all
    (p := fun b o => parse cx (depth + 1) Schema.fetchTopicResponse b o)
    topicBytes topicVal topics
    (fun t ht pre suf => parse_topic (hts t ht) pre suf)
    (be 4 (topics.length : Int)) suf
  simp only [be_length] at hi
  have := fetch_deserialize (n := topics.length) htn _ _ hi
  have hw : fetchWire (topics.map topicBytes) ++ suf =
      be 4 (topics.length : Int) ++
        ((topics.map topicBytes).flatten ++ suf) := by
    simp [fetchWire]
  rw [hw, this]

/-- A partition with one complete message. -/
def Spec.onePart : PartResp :=
  ⟨0, 0, 43, plainSet [(41, .none, .str "v")], [plainSet [(41, .none, .str "v")]]⟩
/-- A partition without messages. -/
def Spec.emptyPart : PartResp := ⟨1, 0, 7, [], []⟩
/-- A message. -/
def Spec.nextEntry : Val × Val := (.int 42, mkMessage 0 .none (.str "w"))

theorem Spec.onePart_ok {packed} : onePart.Ok packed where
  partition := by unfold Fits onePart; norm_num
  error := by unfold Fits onePart; norm_num
  highwater := by unfold Fits onePart; norm_num
  stored := stored_plainSet (packed := packed) (l := [(41, .none, .str "v")]) (by
    intro m hm
    simp only [List.mem_cons, List.not_mem_nil, or_false] at hm
    subst hm
    exact ⟨by unfold Fits; norm_num, .inl rfl, .inr ⟨_, rfl, by decide +kernel⟩,
      by decide +kernel, by decide +kernel⟩)
  size := by decide +kernel

theorem Spec.nextEntry_ok : EntryOk nextEntry where
  offset := ⟨42, rfl, by unfold Fits; norm_num⟩
  message := messageOk_mk (by unfold Fits; norm_num) (.inl rfl)
    (.inr ⟨_, rfl, by decide +kernel⟩) (by decide +kernel)

-- Non-vacuity of `C12_last_partial`: the second message is cut after 4 bytes.
example (cx : Codec) : TopicOk (Packed cx) ("t", []) ∧ onePart.Ok (Packed cx) ∧
    EntryOk nextEntry ∧ 4 < (entry nextEntry).length :=
  ⟨⟨by decide +kernel, by simp, by simp⟩, onePart_ok, nextEntry_ok, by decide +kernel⟩

/-- **C12** is false when another partition follows the cut set: the whole response is
refused with `struct.error` (which aborts the connection, C18), although every partition is
as the broker sent it. -/
theorem C12_false (cx : Codec) (depth : Nat) :
    Schema.fetchResponse.deserialize cx (depth + 1)
      (fetchWire [topicWire "t" [onePart.cutWire nextEntry 4, emptyPart.wire]]) =
    .error .structError := by
  krfl

end Kiel
