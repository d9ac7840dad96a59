import Verif.Props.Compression
import Verif.Props.Consumer
import Verif.Lemmas.Xerial
import Verif.Model.Decode
/- C64: what is produced is what is consumed. -/
set_option autoImplicit false
namespace Kiel
open Spec

theorem decodeUtf8_82 (r : Bytes) : decodeUtf8 (0x82 :: r) = none :=
  decodeUtf8_none_first (by decide)

theorem decodeUtf8_1f8b (r : Bytes) : decodeUtf8 (0x1f :: 0x8b :: r) = none :=
  decodeUtf8_none_second (by decide) (by decide)

theorem packed_of_kafka {cx : Codec} (hav : cx.snappyAvailable = true) {c : Int} {raw b : Bytes}
    (h : KafkaPackedLong cx c raw b) : Packed cx c raw b := by
  rcases h with ⟨rfl, ⟨r, rfl⟩, h⟩ | ⟨rfl, bs, hx, hl⟩
  · exact ⟨decodeUtf8_1f8b r, .inl ⟨rfl, h⟩⟩
  · refine ⟨?_, .inr ⟨rfl, snappyDecompress_xerial hav hx hl⟩⟩
    obtain ⟨r, _, rfl⟩ := hx.header
    exact decodeUtf8_82 _

theorem Stored.mono {p q : Int → Bytes → Bytes → Prop} (h : ∀ c raw b, p c raw b → q c raw b)
    {e : Val × Val} {out : List (Val × Val)} (hs : Stored p e out) : Stored q e out := by
  cases hs with
  | plain h => exact .plain h
  | container h1 h2 h3 h4 h5 => exact .container h1 h2 h3 (h _ _ _ h4) h5

/-- The messages fit into what they are sent in, and no checksum is 2^31 (C08). -/
def Spec.SetFits (cx : Codec) (c : Option Int) (l : List (Val × Val)) : Prop :=
  let raw := entries (plainSet (l.map fun m => (-1, m.1, m.2)))
  (∀ m ∈ l, Writable (-1, m.1, m.2)) ∧
  (c = .none → raw.length < 2 ^ 31) ∧
  (c = some 1 → ContainerOk 1 (cx.gzip raw)) ∧
  (c = some 2 → ∀ b, snappyCompress cx raw = .ok b → ContainerOk 2 b)

theorem holds_plain {packed : Int → Bytes → Bytes → Prop} {l : List (Int × Val × Val)}
    (h : ∀ m ∈ l, Writable m) :
    SetHolds packed (plainSet l) (l.map fun m => (m.1, sizedValue m.2.1, sizedValue m.2.2)) := by
  refine ⟨_, stored_plainSet h, ?_⟩
  clear h
  induction l with
  | nil => rfl
  | cons m l ih =>
    rw [List.map_cons, ih]
    simp [plainSet, intOf, mkMessage, attr]

theorem holds_container {packed : Int → Bytes → Bytes → Prop} {c : Int} {b : Bytes}
    {l : List (Int × Val × Val)} (hc : Fits 1 c) (hok : ContainerOk c b)
    (h : ∀ m ∈ l, Writable m) (hp : packed c (entries (plainSet l)) b) :
    SetHolds packed [(.int (-1), mkMessage c .none (.bytes b))]
      (l.map fun m => (m.1, sizedValue m.2.1, sizedValue m.2.2)) := by
  refine ⟨[plainSet l], .cons (.container (container_ok hc hok) (by simp [mkMessage, attr])
    (by simp [mkMessage, attr]) hp ?_) .nil, ?_⟩
  · intro e he
    simp only [plainSet, List.mem_map] at he
    obtain ⟨m, hm, rfl⟩ := he
    exact plainEntry_mk (h m hm)
  · simp [plainSet, Function.comp_def, intOf, mkMessage, attr]

/-- The message set of a produce request, with each compression setting. -/
theorem sent_ok (cx : Codec) (gz : GzipLaws cx) (sn : SnappyLaws cx) (c : Option Int)
    (hc : checkCompression c = .ok ()) (l : List (Val × Val)) (h : SetFits cx c l) :
    ∃ ms, compressedSet cx c (messagesOf l) = .ok ms ∧ Ok .messageSet (.mset ms) ∧
      SetHolds (KafkaPacked cx) ms (l.map fun m => (-1, sizedValue m.1, sizedValue m.2)) := by
  obtain ⟨hw, h0, h1, h2⟩ := h
  have hin : ∀ m ∈ l.map (fun m => ((-1 : Int), m.1, m.2)), Writable m := by
    intro m hm
    simp only [List.mem_map] at hm
    obtain ⟨a, ha, rfl⟩ := hm
    exact hw a ha
  have hlog : l.map (fun m => (((-1 : Int), sizedValue m.1, sizedValue m.2))) =
      (l.map fun m => ((-1 : Int), m.1, m.2)).map
        fun m => (m.1, sizedValue m.2.1, sizedValue m.2.2) := by simp
  obtain ⟨f, d, e1, e2⟩ := renderSet_plain hin
  have enc : ∀ (c : Int) (b : Bytes), Fits 1 c → ContainerOk c b →
      Ok .messageSet (.mset [(.int (-1), mkMessage c .none (.bytes b))]) := by
    intro c b hf hok
    have hes : entries [(Val.int (-1), mkMessage c .none (.bytes b))] =
        entry (Val.int (-1), mkMessage c .none (.bytes b)) := by simp [entries]
    refine ⟨_, rfl, by rw [hes]; exact hok.size, ?_⟩
    intro x hx
    simp only [List.mem_singleton] at hx
    subst hx
    exact ⟨(container_ok hf hok).offset, (container_ok hf hok).message, hok.crc⟩
  have hcs : c = .none ∨ c = some 1 ∨ c = some 2 := by
    unfold checkCompression at hc
    split at hc
    · next h => simpa using h
    · cases hc
  rcases hcs with rfl | rfl | rfl
  · refine ⟨plainSet (l.map fun m => (-1, m.1, m.2)), by simp [compressedSet, map_messagesOf],
      ⟨_, rfl, h0 rfl, ?_⟩, by rw [hlog]; exact holds_plain hin⟩
    intro e he
    obtain ⟨m, hm, rfl⟩ := List.mem_map.1 he
    exact ⟨(plainEntry_mk (hin m hm)).offset, (plainEntry_mk (hin m hm)).message, (hin m hm).crc⟩
  · have hok := h1 rfl
    refine ⟨[(.int (-1), mkMessage 1 .none (.bytes _))], ?_, enc 1 _ (by unfold Fits; norm_num) hok,
      ?_⟩
    · simp only [compressedSet, map_messagesOf, e1, e2]
      simp
    · rw [hlog]
      exact holds_container (by unfold Fits; norm_num) hok hin
        (.inl ⟨rfl, gz.magic _, gz.inverse _⟩)
  · obtain ⟨b, bs, hb, hx⟩ := snappyCompress_xerial sn
      (entries (plainSet (l.map fun m => (-1, m.1, m.2))))
    have hok := h2 rfl b hb
    refine ⟨[(.int (-1), mkMessage 2 .none (.bytes b))], ?_, enc 2 _ (by unfold Fits; norm_num) hok,
      ?_⟩
    · simp only [compressedSet, map_messagesOf, e1, e2, hb]
      simp
    · rw [hlog]
      exact holds_container (by unfold Fits; norm_num) hok hin (.inr ⟨rfl, bs, hx⟩)

/-- **C64**, sending: for each compression setting, the message set of a produce request is
written as a set that, by the rules of the Kafka protocol, holds exactly the messages it was
made of, in order.  (Not limited by the snappy bug: only kiel's reader has it.) -/
theorem C64_sent (cx : Codec) (gz : GzipLaws cx) (sn : SnappyLaws cx) (c : Option Int)
    (hc : checkCompression c = .ok ()) (l : List (Val × Val)) (h : SetFits cx c l) :
    ∃ ms, compressedSet cx c (messagesOf l) = .ok ms ∧
      encode .messageSet (.mset ms) = .ok (be 4 (entries ms).length ++ entries ms) ∧
      SetHolds (KafkaPacked cx) ms (l.map fun m => (-1, sizedValue m.1, sizedValue m.2)) := by
  obtain ⟨ms, h1, h2, h3⟩ := sent_ok cx gz sn c hc l h
  obtain ⟨f, d, h4, h5⟩ := render_ok _ _ h2
  refine ⟨ms, h1, ?_, h3⟩
  simp only [encode, h4, h5, wire, msgs]

/-- A partition of a fetch response: the entries on the wire, and the messages they hold. -/
structure Spec.Served where
  partition : Int
  error : Int
  highwater : Int
  es : List (Val × Val)
  log : List (Int × Val × Val)

/-- It fits, and holds the messages. -/
structure Spec.Served.Ok (cx : Codec) (p : Served) : Prop where
  partition : Fits 4 p.partition
  error : Fits 2 p.error
  highwater : Fits 8 p.highwater
  holds : SetHolds (KafkaPackedLong cx) p.es p.log
  size : (entries p.es).length < 2 ^ 31

/-- The partition on the wire. -/
def Spec.Served.wire (p : Served) : Bytes :=
  be 4 p.partition ++ be 2 p.error ++ be 8 p.highwater ++
    (be 4 (entries p.es).length ++ entries p.es)

/-- What the consumer should see of it. -/
def Spec.Served.seen (p : Served) : FPart Val :=
  ⟨p.partition, p.error, p.log.map fun m => (m.1, m.2.2)⟩

theorem Spec.Served.resp {cx : Codec} (hav : cx.snappyAvailable = true) (p : Served)
    (h : p.Ok cx) : ∃ q : PartResp, q.Ok (Packed cx) ∧ q.wire = p.wire ∧
      fpartOf q.value = p.seen := by
  obtain ⟨outs, ho, hl⟩ := h.holds
  refine ⟨⟨p.partition, p.error, p.highwater, p.es, outs⟩,
    ⟨h.partition, h.error, h.highwater, ho.imp fun _ _ => Stored.mono fun _ _ _ => packed_of_kafka hav,
      h.size⟩, ?_, ?_⟩
  · simp [PartResp.wire, PartResp.head, Served.wire]
  · have hm : ∀ (e : Val), e.toInt = intOf e := by
      intro e; cases e <;> rfl
    simp [fpartOf, Served.seen, PartResp.value, Val.fields, getAttr, Dict.get?, hm, intOf,
      Val.messages, hl, Function.comp_def, messageValue]

/-- A fetch response on the wire. -/
def Spec.servedWire (topics : List (String × List Served)) : Bytes :=
  fetchWire (topics.map fun t => topicWire t.1 (t.2.map Served.wire))

theorem Spec.Served.resps {cx : Codec} (hav : cx.snappyAvailable = true) :
    ∀ (ps : List Served), (∀ p ∈ ps, p.Ok cx) → ∃ qs : List PartResp,
      (∀ q ∈ qs, q.Ok (Packed cx)) ∧ qs.map PartResp.wire = ps.map Served.wire ∧
      qs.map (fun q => fpartOf q.value) = ps.map Served.seen
  | [], _ => ⟨[], by simp, rfl, rfl⟩
  | p :: ps, h => by
    obtain ⟨q, h1, h2, h3⟩ := p.resp hav (h p (by simp))
    obtain ⟨qs, h4, h5, h6⟩ := Served.resps hav ps fun p hp => h p (by simp [hp])
    refine ⟨q :: qs, ?_, by simp [h2, h5], by simp [h3, h6]⟩
    intro x hx
    rcases List.mem_cons.mp hx with rfl | hx
    · exact h1
    · exact h4 x hx

theorem Spec.Served.topics {cx : Codec} (hav : cx.snappyAvailable = true) :
    ∀ (ts : List (String × List Served)),
      (∀ t ∈ ts, (encodeUtf8 t.1).length < 2 ^ 15 ∧ t.2.length < 2 ^ 31 ∧
        ∀ p ∈ t.2, p.Ok cx) → ∃ rs : List (String × List PartResp),
      (∀ r ∈ rs, TopicOk (Packed cx) r) ∧
      rs.map topicBytes = ts.map (fun t => topicWire t.1 (t.2.map Served.wire)) ∧
      rs.map (fun r => (r.1, r.2.map fun q => fpartOf q.value)) =
        ts.map fun t => (t.1, t.2.map Served.seen)
  | [], _ => ⟨[], by simp, rfl, rfl⟩
  | t :: ts, h => by
    obtain ⟨n1, n2, n3⟩ := h t (by simp)
    obtain ⟨qs, h1, h2, h3⟩ := Served.resps hav t.2 n3
    obtain ⟨rs, h4, h5, h6⟩ := Served.topics hav ts fun t ht => h t (by simp [ht])
    refine ⟨(t.1, qs) :: rs, ?_, by simp [topicBytes, h2, h5], by simp [h3, h6]⟩
    intro x hx
    rcases List.mem_cons.mp hx with rfl | hx
    · refine ⟨n1, ?_, h1⟩
      have := congrArg List.length h2
      simp at this
      simpa [this] using n2
    · exact h4 x hx

/-- **C64**, receiving (partial: snappy streams have to end in a block of at least twelve
bytes): whatever plain, gzip or snappy sets a broker serves, compressed by whomever, the
consumer sees exactly the messages they hold, topic by topic and partition by partition. -/
theorem C64_received_partial (cx : Codec) (hav : cx.snappyAvailable = true) (depth : Nat)
    (topics : List (String × List Served)) (hn : topics.length < 2 ^ 31)
    (h : ∀ t ∈ topics, (encodeUtf8 t.1).length < 2 ^ 15 ∧ t.2.length < 2 ^ 31 ∧
      ∀ p ∈ t.2, p.Ok cx) (suf : Bytes) :
    ∃ v, Schema.fetchResponse.deserialize cx (depth + 1) (servedWire topics ++ suf) = .ok v ∧
      frespOf v = ⟨topics.map fun t => (t.1, t.2.map Served.seen)⟩ := by
  obtain ⟨rs, h1, h2, h3⟩ := Served.topics hav topics h
  have hl := congrArg List.length h2
  simp only [List.length_map] at hl
  have := C07_fetch cx depth rs h1 (by omega) suf
  rw [h2] at this
  refine ⟨_, this, ?_⟩
  simp only [frespOf, Val.fields, getAttr, Dict.get?, Val.items, ← h3]
  simp [topicVal, topicValue, Val.text, Dict.get?, Function.comp_def]

theorem zip_values {α : Type} (f : α → Val × Val) : ∀ (offs : List Int) (l : List α),
    (offs.zip (l.map f)).map (fun m => (m.1, m.2.2)) = offs.zip (l.map fun m => (f m).2)
  | [], _ => by simp
  | _ :: _, [] => by simp
  | _ :: offs, _ :: l => by simp [zip_values f offs l]

theorem values_zip {α β δ : Type} (cfg : CCfg β δ) (g : α → β) (f : α → δ) :
    ∀ (offs : List Int) (l : List α),
    offs.length = l.length → (∀ m ∈ l, cfg.deserializer (g m) = .ok (f m)) →
    values cfg (offs.zip (l.map g)) = l.map f
  | [], [], _, _ => rfl
  | _ :: offs, m :: l, hl, h => by
    have := values_zip cfg g f offs l (by simpa using hl) fun m hm => h m (by simp [hm])
    simp only [values] at this ⊢
    simp [decode, h m (by simp), Except.toOption]
    simpa [decode, Except.toOption] using this

theorem after_zip {α β δ : Type} (cfg : CCfg β δ) (g : α → β) (f : α → δ) (offs : List Int)
    (l : List α) (hl : offs.length = l.length) (h : ∀ m ∈ l, cfg.deserializer (g m) = .ok (f m))
    (h0 : ∀ o ∈ offs, 0 ≤ o) (o : Int) :
    after cfg (offs.zip (l.map g)) o = (offs.getLast?.map (· + 1)).getD o := by
  have hf : (offs.zip (l.map g)).filter
      (fun m => (decode cfg m.2).isSome && decide (0 ≤ m.1)) = offs.zip (l.map g) := by
    rw [List.filter_eq_self]
    intro m hm
    obtain ⟨a, b⟩ := m
    have hz := List.of_mem_zip hm
    obtain ⟨d, hd, hd'⟩ := List.mem_map.mp hz.2
    subst hd'
    simp [decode, h d hd, Except.toOption, h0 a hz.1]
  have hm : offs = (offs.zip (l.map g)).map (·.1) := by
    have := List.map_fst_zip (l₁ := offs) (l₂ := l.map g) (by simp [hl])
    exact this.symm
  have hlast : offs.getLast? = (offs.zip (l.map g)).getLast?.map (·.1) := by
    conv_lhs => rw [hm]
    rw [List.getLast?_map]
  rw [after, hf, hlast]
  cases (offs.zip (l.map g)).getLast? <;> simp

/-- `C64_roundtrip_partial`, when what the consumer makes of a message may be something else. -/
theorem roundtrip_map {α δ ε : Type} (cx : Codec) (gz : GzipLaws cx) (sn : SnappyLaws cx)
    (depth : Nat) (c : Option Int) (hc : checkCompression c = .ok ()) (key val : α → Val)
    (recv : α → δ) (cfg : CCfg Val δ) (l : List α)
    (hd : ∀ m ∈ l, cfg.deserializer (sizedValue (val m)) = .ok (recv m))
    (h : SetFits cx c (l.map fun m => (key m, val m))) :
    ∃ ms, compressedSet cx c (messagesOf (l.map fun m => (key m, val m))) = .ok ms ∧
      encode .messageSet (.mset ms) = .ok (be 4 (entries ms).length ++ entries ms) ∧
      SetHolds (KafkaPacked cx) ms (l.map fun m => (-1, sizedValue (key m), sizedValue (val m))) ∧
      ∀ (topic : String) (p : Served) (offs : List Int), (encodeUtf8 topic).length < 2 ^ 15 →
        p.Ok cx → p.error = 0 → offs.length = l.length →
        p.log = reoffset offs (l.map fun m => (-1, sizedValue (key m), sizedValue (val m))) →
        ∀ (suf : Bytes) (cons : Consumer ε),
        ∃ v c', Schema.fetchResponse.deserialize cx (depth + 1)
            (servedWire [(topic, [p])] ++ suf) = .ok v ∧
          handleFetchResponse cfg (frespOf v) cons = (.ok (l.map recv), c') ∧
          ((∀ o ∈ offs, 0 ≤ o) → offsetOf c'.offsets topic p.partition =
            (offs.getLast?.map (· + 1)).getD (offsetOf cons.offsets topic p.partition)) := by
  obtain ⟨ms, h1, h2, h3⟩ := C64_sent cx gz sn c hc _ h
  rw [List.map_map] at h3
  refine ⟨ms, h1, h2, h3, ?_⟩
  intro topic p offs ht hp he hlen hlog suf cons
  obtain ⟨v, h4, h5⟩ := C64_received_partial cx sn.available depth [(topic, [p])] (by simp) (by
    intro t ht'
    simp only [List.mem_singleton] at ht'
    subst ht'
    exact ⟨ht, by simp, by simpa using hp⟩) suf
  have hms : (p.log.map fun m => (m.1, m.2.2)) = offs.zip (l.map fun m => sizedValue (val m)) := by
    rw [hlog]
    simp only [reoffset, List.map_map]
    exact zip_values (fun m => (sizedValue (key m), sizedValue (val m))) offs l
  generalize hr : handleFetchResponse cfg (frespOf v) cons = r
  obtain ⟨res, c'⟩ := r
  obtain ⟨done, rest, s1, s2, s3, s4, s5⟩ := handleFetch_spec cfg _ cons c' res hr
  have ha : answersOf (frespOf v) = [(topic, p.seen)] := by rw [h5]; rfl
  have hk : KnownCode p.seen.code := by
    simp only [Served.seen, he]
    decide +kernel
  have hcode : p.seen.code = 0 := he
  have hid : p.seen.id = p.partition := rfl
  have hmsgs : p.seen.msgs = offs.zip (l.map fun m => sizedValue (val m)) := hms
  have hv : values cfg (fetched (answersOf (frespOf v))) = l.map recv := by
    rw [ha]
    simp only [fetched, hcode, decide_true, List.filter_cons_of_pos, List.filter_nil,
      List.flatMap_cons, List.flatMap_nil, List.append_nil, hmsgs]
    exact values_zip cfg _ recv offs l hlen hd
  cases res with
  | error e =>
    rcases s5 e rfl with ⟨h6, _⟩ | ⟨_, a, ha', hnk⟩
    · rw [h5] at h6; simp at h6
    · rw [ha] at ha'
      simp only [List.mem_singleton] at ha'
      subst ha'
      exact absurd hk hnk
  | ok out =>
    obtain ⟨hrest, hout, _, _⟩ := s4 out rfl
    refine ⟨v, c', h4, by rw [hr, hout, hv], ?_⟩
    intro h0
    subst hrest
    rw [List.append_nil] at s1
    rw [s2.offsets, ← s1, ha]
    simp only [fetchedFor, hcode, hid, and_self, decide_true, List.filter_cons_of_pos,
      List.filter_nil, List.flatMap_cons, List.flatMap_nil, List.append_nil, hmsgs]
    exact after_zip cfg _ recv offs l hlen hd h0 _

/-- **C64** (partial: the snappy block and the checksum, see above): the application's
messages `l` are serialized and put into a set with any supported compression; the bytes
written hold, by the protocol, these messages; whatever broker gives the messages offsets
and returns them in whatever form (re-compressed, split into several sets), the consumer with the inverse deserializer returns exactly `l`, in order, and goes on after the
last offset. -/
theorem C64_roundtrip_partial {δ ε : Type} (cx : Codec) (gz : GzipLaws cx) (sn : SnappyLaws cx)
    (depth : Nat) (c : Option Int) (hc : checkCompression c = .ok ()) (key val : δ → Val)
    (cfg : CCfg Val δ) (l : List δ) (hd : ∀ m ∈ l, cfg.deserializer (sizedValue (val m)) = .ok m)
    (h : SetFits cx c (l.map fun m => (key m, val m))) :
    ∃ ms, compressedSet cx c (messagesOf (l.map fun m => (key m, val m))) = .ok ms ∧
      encode .messageSet (.mset ms) = .ok (be 4 (entries ms).length ++ entries ms) ∧
      SetHolds (KafkaPacked cx) ms (l.map fun m => (-1, sizedValue (key m), sizedValue (val m))) ∧
      ∀ (topic : String) (p : Served) (offs : List Int), (encodeUtf8 topic).length < 2 ^ 15 →
        p.Ok cx → p.error = 0 → offs.length = l.length →
        p.log = reoffset offs (l.map fun m => (-1, sizedValue (key m), sizedValue (val m))) →
        ∀ (suf : Bytes) (cons : Consumer ε),
        ∃ v c', Schema.fetchResponse.deserialize cx (depth + 1)
            (servedWire [(topic, [p])] ++ suf) = .ok v ∧
          handleFetchResponse cfg (frespOf v) cons = (.ok l, c') ∧
          ((∀ o ∈ offs, 0 ≤ o) → offsetOf c'.offsets topic p.partition =
            (offs.getLast?.map (· + 1)).getD (offsetOf cons.offsets topic p.partition)) := by
  have := roundtrip_map (ε := ε) cx gz sn depth c hc key val id cfg l hd h
  rwa [List.map_id] at this

/-! Non-vacuity: two texts, produced with gzip, given the offsets 41 and 42 and returned in a
gzip set of the broker's. -/

/-- The consumer's options. -/
def Spec.exTextCfg : CCfg Val String where
  deserializer
    | .str s => .ok s
    | _ => .error .valueError
  truthy s := s ≠ ""
  maxWait := 0
  minBytes := 1
  maxBytes := 1000

/-- The messages as the broker stores them. -/
def Spec.exKept : List (Int × Val × Val) := [(41, .none, .str "hello"), (42, .none, .str "w")]

theorem Spec.exKept_ok : ∀ m ∈ exKept, Writable m := by
  intro m hm
  simp only [exKept, List.mem_cons, List.not_mem_nil, or_false] at hm
  rcases hm with rfl | rfl <;>
  exact ⟨by unfold Fits; norm_num, .inl rfl, .inr ⟨_, rfl, by decide +kernel⟩,
      by decide +kernel, by decide +kernel⟩

/-- As the broker serves them. -/
def Spec.exServed : Served :=
  ⟨0, 0, 43, [(.int (-1), mkMessage 1 .none (.bytes (storeCodec.gzip (entries (plainSet exKept)))))],
    exKept⟩

theorem Spec.exServed_ok : exServed.Ok storeCodec where
  partition := by unfold Fits exServed; norm_num
  error := by unfold Fits exServed; norm_num
  highwater := by unfold Fits exServed; norm_num
  holds := by
    have h := holds_container (packed := KafkaPackedLong storeCodec) (c := 1)
      (b := storeCodec.gzip (entries (plainSet exKept))) (l := exKept)
      (by unfold Fits; norm_num) ⟨by decide +kernel, by decide +kernel, by decide +kernel⟩
      exKept_ok (.inl ⟨rfl, storeCodec_gzip.magic _, storeCodec_gzip.inverse _⟩)
    have e1 : sizedValue (.str "hello") = .str "hello" := sizedValue_str "hello"
    have e2 : sizedValue (.str "w") = .str "w" := sizedValue_str "w"
    have e3 : sizedValue .none = .none := rfl
    simp only [exKept, List.map_cons, List.map_nil, e1, e2, e3] at h
    exact h
  size := by decide +kernel

theorem Spec.exTexts_fit (c : Option Int) (hc : c = .none ∨ c = some 1) :
    SetFits storeCodec c (["hello", "w"].map fun s => ((.none : Val), Val.str s)) := by
  refine ⟨?_, fun _ => by decide +kernel, fun _ => ⟨by decide +kernel, by decide +kernel,
    by decide +kernel⟩, fun h => by rcases hc with rfl | rfl <;> simp at h⟩
  intro m hm
  simp only [List.map_cons, List.map_nil, List.mem_cons, List.not_mem_nil, or_false] at hm
  rcases hm with rfl | rfl <;>
  exact ⟨by unfold Fits; norm_num, .inl rfl, .inr ⟨_, rfl, by decide +kernel⟩,
      by decide +kernel, by decide +kernel⟩

-- `C64_roundtrip_partial` applied to it.
example (cons : Consumer Unit) : ∃ v c',
    Schema.fetchResponse.deserialize storeCodec 1 (servedWire [("t", [exServed])]) = .ok v ∧
    handleFetchResponse exTextCfg (frespOf v) cons = (.ok ["hello", "w"], c') ∧
    offsetOf c'.offsets "t" 0 = 43 := by
  obtain ⟨ms, _, _, _, h⟩ := C64_roundtrip_partial (ε := Unit) storeCodec storeCodec_gzip
    storeCodec_snappy 0 (some 1) rfl (fun _ => .none) Val.str exTextCfg ["hello", "w"]
    (by
      intro m _
      rw [sizedValue_str]
      rfl) (exTexts_fit (some 1) (.inr rfl))
  obtain ⟨v, c', h1, h2, h3⟩ := h "t" exServed [41, 42] (by decide +kernel) exServed_ok rfl rfl
    (by simp only [List.map_cons, List.map_nil, sizedValue_str]; rfl) [] cons
  rw [List.append_nil] at h1
  exact ⟨v, c', h1, h2, h3 (by simp)⟩

end Kiel
