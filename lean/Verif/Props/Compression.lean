import Verif.Lemmas.Snappy
import Verif.Props.Messages
/- C09, C10, C11: compressed message sets. -/
namespace Kiel
open Spec

/-! ### C10: snappy framing -/

/-- **C10** (partial: the last block has to compress to at least 12 bytes): decompressing
what `compress` returned gives the data back, for every number of blocks. -/
theorem C10_roundtrip_partial (cx : Codec) (laws : SnappyLaws cx) (data : Bytes)
    (h : data ≠ [] → 12 ≤ (cx.snappyRaw (lastBlock data)).length) :
    ∃ c, snappyCompress cx data = .ok c ∧ snappyDecompress cx c = .ok data := by
  obtain ⟨out, h1, _, h3⟩ := snappy_blocks laws.inverse laws.size [] (by simp) data.length data
    (le_refl _) (by simpa using h)
  refine ⟨snappyHeader ++ out, ?_, ?_⟩
  · simp [snappyCompress, laws.available, h1]
  · have := h3 snappyHeader ((snappyHeader ++ out).length + 1) (by simp only [List.length_append]; omega)
    simp only [List.append_nil] at this
    simp only [snappyDecompress, laws.available, not_true_eq_false, if_false]
    exact this

/-- **C10** is false: when the last block compresses to fewer than 12 bytes, it is silently
lost.  `front` are the full blocks before it; the last of them, if any, compresses to at
least 8 bytes. -/
theorem C10_false (cx : Codec) (laws : SnappyLaws cx) (front last : Bytes) (n : Nat)
    (hf : front.length = 32768 * n) (hl : last ≠ []) (hl' : last.length ≤ 32768)
    (hs : (cx.snappyRaw last).length < 12)
    (hp : front ≠ [] → 8 ≤ (cx.snappyRaw (lastBlock front)).length) :
    ∃ c, snappyCompress cx (front ++ last) = .ok c ∧ snappyDecompress cx c = .ok front := by
  obtain ⟨out, h1, _, h3⟩ := snappy_blocks laws.inverse laws.size
    (be 4 (cx.snappyRaw last).length ++ cx.snappyRaw last) (by simp [be_length]; omega)
    front.length front (le_refl _) (by
      intro hne
      have := hp hne
      simp [be_length]
      omega)
  have h4 := snappyBlocks_append laws.size last hl hl' n front front.length
    (front ++ last).length out hf (le_refl _) (le_refl _) h1
  refine ⟨snappyHeader ++ (out ++ (be 4 (cx.snappyRaw last).length ++ cx.snappyRaw last)),
    ?_, ?_⟩
  · simp only [snappyCompress, laws.available, not_true_eq_false, if_false, h4]
  · have := h3 snappyHeader ((snappyHeader ++
      (out ++ (be 4 (cx.snappyRaw last).length ++ cx.snappyRaw last))).length + 1)
      (by simp; omega)
    simp only [snappyDecompress, laws.available, not_true_eq_false, if_false]
    exact this

/-- A codec obeying all the laws: gzip adds its magic bytes, snappy stores a length byte
and then the bytes themselves. -/
def Spec.storeCodec : Codec where
  gzip b := 0x1f :: 0x8b :: b
  gunzip
    | 0x1f :: 0x8b :: b => .ok b
    | _ => .error .valueError
  snappyAvailable := true
  snappyRaw b := 0 :: b
  unsnappyRaw
    | 0 :: b => .ok b
    | _ => .error .valueError

theorem Spec.storeCodec_gzip : GzipLaws storeCodec where
  inverse _ := rfl
  magic b := ⟨b, rfl⟩

theorem Spec.storeCodec_snappy : SnappyLaws storeCodec where
  available := rfl
  inverse _ _ := rfl
  size b hb := by simp only [storeCodec, List.length_cons]; omega

/-- **C10** fails on the two bytes "hi". -/
theorem C10_false_witness : SnappyLaws storeCodec ∧
    ∃ c, snappyCompress storeCodec [0x68, 0x69] = .ok c ∧
      snappyDecompress storeCodec c = .ok [] := by
  obtain ⟨c, h1, h2⟩ := C10_false storeCodec storeCodec_snappy [] [0x68, 0x69] 0 rfl (by simp)
    (by simp) (by decide) (by simp)
  exact ⟨storeCodec_snappy, c, h1, h2⟩

-- Non-vacuity of `C10_roundtrip_partial`: 20 bytes in one block, and a block boundary.
example : 12 ≤ (storeCodec.snappyRaw (lastBlock (List.replicate 20 7))).length := by decide
example (b : UInt8) : 12 ≤ (storeCodec.snappyRaw (lastBlock (List.replicate 32800 b))).length := by
  simp only [storeCodec, lastBlock, List.length_cons, List.length_drop, List.length_replicate]
  norm_num

/-- **C10**: `decompress` terminates on every input: more iterations than bytes are never
needed. -/
theorem C10_terminates (cx : Codec) (data : Bytes) (fuel : Nat) (h : data.length < fuel) :
    snappyUnblocks cx.unsnappyRaw data ((data.length : Int) - snappyHeader.length) fuel
        snappyHeader.length =
      snappyUnblocks cx.unsnappyRaw data ((data.length : Int) - snappyHeader.length)
        (data.length + 1) snappyHeader.length :=
  snappyUnblocks_fuel _ _ _ _ _ (by omega) _ (by omega)

/-- **C10**: without python-snappy both functions raise `RuntimeError`. -/
theorem C10_unavailable (cx : Codec) (h : cx.snappyAvailable = false) (data : Bytes) :
    snappyCompress cx data = .error .runtimeError ∧
    snappyDecompress cx data = .error .runtimeError := by
  simp [snappyCompress, snappyDecompress, h]

/-! ### C09 and C11 -/

theorem gzip_not_text {cx : Codec} (laws : GzipLaws cx) (b : Bytes) :
    decodeUtf8 (cx.gzip b) = none := by
  obtain ⟨r, hr⟩ := laws.magic b
  rw [hr]
  exact decodeUtf8_none_second (by decide) (by decide)

theorem gzip_packed {cx : Codec} (laws : GzipLaws cx) (raw : Bytes) :
    Packed cx 1 raw (cx.gzip raw) :=
  ⟨gzip_not_text laws raw, .inl ⟨rfl, laws.inverse raw⟩⟩

theorem snappy_not_text {cx : Codec} {data c : Bytes} (h : snappyCompress cx data = .ok c) :
    decodeUtf8 c = none := by
  unfold snappyCompress at h
  split at h
  · cases h
  · split at h
    · cases h
    · cases h
      exact decodeUtf8_none_first (by decide)

/-- The rendering of the messages to be compressed. -/
theorem renderSet_plain {l : List (Int × Val × Val)} (h : ∀ m ∈ l, Writable m) :
    ∃ f d, renderSet (plainSet l) = .ok (f, d) ∧
      pack f.tail d.tail = .ok (entries (plainSet l)) := by
  obtain ⟨f, d, h1, h2⟩ := renderSetItems_ok (ms := plainSet l) (by
    intro e he
    simp only [plainSet, List.mem_map] at he
    obtain ⟨m, hm, rfl⟩ := he
    exact ⟨(plainEntry_mk (h m hm)).offset, (plainEntry_mk (h m hm)).message, (h m hm).crc⟩)
  exact ⟨.i :: f, .int (entries (plainSet l)).length :: d, by simp only [renderSet, h1], h2⟩

/-- The messages with these keys and values. -/
def Spec.messagesOf (l : List (Val × Val)) : List Val := l.map fun m => mkMessage 0 m.1 m.2

theorem map_messagesOf (l : List (Val × Val)) :
    (messagesOf l).map (fun m => ((Val.int (-1)), m)) =
      plainSet (l.map fun m => (-1, m.1, m.2)) := by
  simp [messagesOf, plainSet]

/-- The container message fits and its checksum is not 2^31. -/
structure Spec.ContainerOk (c : Int) (b : Bytes) : Prop where
  value : b.length < 2 ^ 31
  size : (entry (.int (-1), mkMessage c .none (.bytes b))).length < 2 ^ 31
  crc : crc32 (body (mkMessage c .none (.bytes b))) ≠ 2 ^ 31

theorem container_ok {c : Int} {b : Bytes} (hc : Fits 1 c) (h : ContainerOk c b) :
    EntryOk (.int (-1), mkMessage c .none (.bytes b)) where
  offset := ⟨-1, rfl, by unfold Fits; norm_num⟩
  message := messageOk_mk hc (.inl rfl) (.inr ⟨b, rfl, h.value⟩) (by
    have := h.size
    simp [entry, be_length] at this
    omega)

/-- Rendering and parsing a container. -/
theorem container_roundtrip {cx : Codec} {depth : Nat} {c : Int} {b : Bytes}
    {inner : List (Int × Val × Val)} (hc : Fits 1 c) (h : ContainerOk c b)
    (hin : ∀ m ∈ inner, Writable m) (hp : Packed cx c (entries (plainSet inner)) b) :
    ∃ raw, encode .messageSet (.mset [(.int (-1), mkMessage c .none (.bytes b))]) = .ok raw ∧
      ∀ pre suf, ∃ v, parse cx (depth + 1) .messageSet (pre ++ raw ++ suf) pre.length =
          .ok (v, pre.length + raw.length) ∧
        view v = inner.map fun m => (m.1, sizedValue m.2.1, sizedValue m.2.2) := by
  set e : Val × Val := (.int (-1), mkMessage c .none (.bytes b)) with he
  have hok := container_ok hc h
  have hes : entries [e] = entry e := by simp [entries]
  obtain ⟨f, d, h1, h2⟩ := render_ok .messageSet (.mset [e])
    ⟨[e], rfl, by rw [hes]; exact h.size, by
      intro x hx
      simp only [List.mem_singleton] at hx
      subst hx
      exact ⟨hok.offset, hok.message, h.crc⟩⟩
  refine ⟨be 4 (entries [e]).length ++ entries [e], by simp only [encode, h1, h2, wire, msgs],
    ?_⟩
  intro pre suf
  have hst : Stored (Packed cx) e (plainSet inner) :=
    .container hok (by simp [he, mkMessage, attr]) (by simp [he, mkMessage, attr]) hp (by
      intro x hx
      simp only [plainSet, List.mem_map] at hx
      obtain ⟨m, hm, rfl⟩ := hx
      exact plainEntry_mk (hin m hm))
  have h3 := parseSet_stored (cx := cx) (depth := depth) (.cons hst .nil)
    (by rw [hes]; exact h.size) pre suf
  refine ⟨_, ?_, view_plainSet inner⟩
  have hb : pre ++ (be 4 (entries [e]).length ++ entries [e]) ++ suf =
      pre ++ (be 4 (entries [e]).length ++ (entries [e] ++ suf)) := by simp
  rw [hb, parse, h3]
  simp [be_length]

/-- **C09**: whatever the messages, `MessageSet.compressed(GZIP, msgs)` renders to bytes
that, anywhere in a response, parse back to the same keys and values in the same order. -/
theorem C09_roundtrip (cx : Codec) (laws : GzipLaws cx) (depth : Nat) (l : List (Val × Val))
    (h : ∀ m ∈ l, Writable (-1, m.1, m.2))
    (hc : ContainerOk 1 (cx.gzip (entries (plainSet (l.map fun m => (-1, m.1, m.2)))))) :
    ∃ ms raw, compressedSet cx (some 1) (messagesOf l) = .ok ms ∧
      encode .messageSet (.mset ms) = .ok raw ∧
      ∀ pre suf, ∃ v, parse cx (depth + 1) .messageSet (pre ++ raw ++ suf) pre.length =
          .ok (v, pre.length + raw.length) ∧
        view v = l.map fun m => (-1, sizedValue m.1, sizedValue m.2) := by
  have hin : ∀ m ∈ l.map (fun m => ((-1 : Int), m.1, m.2)), Writable m := by
    intro m hm
    simp only [List.mem_map] at hm
    obtain ⟨a, ha, rfl⟩ := hm
    exact h a ha
  obtain ⟨f, d, h1, h2⟩ := renderSet_plain hin
  obtain ⟨raw, h3, h4⟩ := container_roundtrip (cx := cx) (depth := depth) (c := 1)
    (by unfold Fits; norm_num) hc hin (gzip_packed laws _)
  refine ⟨_, raw, ?_, h3, ?_⟩
  · simp only [compressedSet, map_messagesOf, h1, h2]
    simp
  · intro pre suf
    obtain ⟨v, h5, h6⟩ := h4 pre suf
    exact ⟨v, h5, by rw [h6, List.map_map]; rfl⟩

/-- **C09**: a broker may also assign offsets to the compressed messages, mix compressed and
plain messages in a set, and put several sets in a response; all of them are read (see
`C07_fetch`, whose `Stored` entries include these containers). -/
theorem C09_stored (cx : Codec) (laws : GzipLaws cx) (i : Int) (hi : Fits 8 i)
    (inner : List (Int × Val × Val)) (h : ∀ m ∈ inner, Writable m)
    (hc : ContainerOk 1 (cx.gzip (entries (plainSet inner)))) :
    Stored (Packed cx) (.int i, mkMessage 1 .none (.bytes (cx.gzip (entries (plainSet inner)))))
      (plainSet inner) := by
  have hok := container_ok (c := 1) (by unfold Fits; norm_num) hc
  refine .container ⟨⟨i, rfl, hi⟩, hok.message⟩ (by simp [mkMessage, attr])
    (by simp [mkMessage, attr]) (gzip_packed laws _) ?_
  intro x hx
  simp only [plainSet, List.mem_map] at hx
  obtain ⟨m, hm, rfl⟩ := hx
  exact plainEntry_mk (h m hm)

/-- **C11** (partial: the last 32 KiB block has to compress to at least 12 bytes): the same
for snappy. -/
theorem C11_roundtrip_partial (cx : Codec) (laws : SnappyLaws cx) (depth : Nat)
    (l : List (Val × Val)) (h : ∀ m ∈ l, Writable (-1, m.1, m.2))
    (hb : 12 ≤ (cx.snappyRaw
      (lastBlock (entries (plainSet (l.map fun m => (-1, m.1, m.2)))))).length)
    (hc : ∀ c, snappyCompress cx (entries (plainSet (l.map fun m => (-1, m.1, m.2)))) = .ok c →
      ContainerOk 2 c) :
    ∃ ms raw, compressedSet cx (some 2) (messagesOf l) = .ok ms ∧
      encode .messageSet (.mset ms) = .ok raw ∧
      ∀ pre suf, ∃ v, parse cx (depth + 1) .messageSet (pre ++ raw ++ suf) pre.length =
          .ok (v, pre.length + raw.length) ∧
        view v = l.map fun m => (-1, sizedValue m.1, sizedValue m.2) := by
  have hin : ∀ m ∈ l.map (fun m => ((-1 : Int), m.1, m.2)), Writable m := by
    intro m hm
    simp only [List.mem_map] at hm
    obtain ⟨a, ha, rfl⟩ := hm
    exact h a ha
  obtain ⟨f, d, h1, h2⟩ := renderSet_plain hin
  have hgen : ∀ r, entries (plainSet (l.map fun m => (-1, m.1, m.2))) = r →
      ∃ c, snappyCompress cx r = .ok c ∧ snappyDecompress cx c = .ok r := by
    intro r hr
    rw [hr] at hb
    exact C10_roundtrip_partial cx laws r (fun _ => hb)
  obtain ⟨c, hc1, hc2⟩ := hgen _ rfl
  obtain ⟨raw, h3, h4⟩ := container_roundtrip (cx := cx) (depth := depth) (c := 2)
    (by unfold Fits; norm_num) (hc c hc1) hin
    ⟨snappy_not_text hc1, .inr ⟨rfl, hc2⟩⟩
  refine ⟨_, raw, ?_, h3, ?_⟩
  · simp only [compressedSet, map_messagesOf, h1, h2, hc1]
    simp
  · intro pre suf
    obtain ⟨v, h5, h6⟩ := h4 pre suf
    exact ⟨v, h5, by rw [h6, List.map_map]; rfl⟩

/-- **C11** is false: if the last block of the rendered messages compresses to fewer than 12
bytes, every message that reaches into it is silently lost when the set is read.  Here `l₁`
are the messages before the last block, `m` the one it starts in. -/
theorem C11_false (cx : Codec) (laws : SnappyLaws cx) (depth : Nat) (l₁ l₂ : List (Val × Val))
    (m : Val × Val) (h : ∀ x ∈ l₁ ++ m :: l₂, Writable (-1, x.1, x.2)) (n k : Nat)
    (hk : k < (entry (.int (-1), mkMessage 0 m.1 m.2)).length)
    (hn : (entries (plainSet (l₁.map fun m => (-1, m.1, m.2)))).length + k = 32768 * n)
    (hend : (entries (plainSet ((l₁ ++ m :: l₂).map fun m => (-1, m.1, m.2)))).length ≤
      32768 * n + 32768)
    (hs : (cx.snappyRaw ((entries (plainSet ((l₁ ++ m :: l₂).map fun m =>
      (-1, m.1, m.2)))).drop (32768 * n))).length < 12)
    (hp : ∀ b, b.length = 32768 → 8 ≤ (cx.snappyRaw b).length)
    (hc : ∀ c, snappyCompress cx (entries (plainSet ((l₁ ++ m :: l₂).map fun m =>
      (-1, m.1, m.2)))) = .ok c → ContainerOk 2 c) :
    ∃ ms raw, compressedSet cx (some 2) (messagesOf (l₁ ++ m :: l₂)) = .ok ms ∧
      encode .messageSet (.mset ms) = .ok raw ∧
      ∀ pre suf, ∃ v, parse cx (depth + 2) .messageSet (pre ++ raw ++ suf) pre.length =
          .ok (v, pre.length + raw.length) ∧
        view v = l₁.map fun m => (-1, sizedValue m.1, sizedValue m.2) := by
  have hin : ∀ x ∈ (l₁ ++ m :: l₂).map (fun m => ((-1 : Int), m.1, m.2)), Writable x := by
    intro x hx
    simp only [List.mem_map] at hx
    obtain ⟨a, ha, rfl⟩ := hx
    exact h a ha
  obtain ⟨f, d, h1, h2⟩ := renderSet_plain hin
  set e : Val × Val := (.int (-1), mkMessage 0 m.1 m.2) with he
  have hall : entries (plainSet ((l₁ ++ m :: l₂).map fun m => (-1, m.1, m.2))) =
      (entries (plainSet (l₁.map fun m => (-1, m.1, m.2))) ++ (entry e).take k) ++
      ((entry e).drop k ++ entries (plainSet (l₂.map fun m => (-1, m.1, m.2)))) := by
    rw [List.append_assoc, ← List.append_assoc ((entry e).take k), List.take_append_drop]
    simp [entries, plainSet, he]
  generalize hall' : entries (plainSet ((l₁ ++ m :: l₂).map fun m => (-1, m.1, m.2))) = all at *
  set front := entries (plainSet (l₁.map fun m => (-1, m.1, m.2))) ++ (entry e).take k with hfr
  have htk : ((entry e).take k).length = k := by simp; omega
  have hfl : front.length = 32768 * n := by rw [hfr, List.length_append, htk, hn]
  have hlast : all.drop (32768 * n) =
      (entry e).drop k ++ entries (plainSet (l₂.map fun m => (-1, m.1, m.2))) := by
    rw [hall, ← hfl, List.drop_left]
  rw [hlast] at hs
  set last := (entry e).drop k ++ entries (plainSet (l₂.map fun m => (-1, m.1, m.2))) with hla
  have hlne : last ≠ [] := by
    rw [hla]
    intro h0
    have := congrArg List.length h0
    simp at this
    omega
  have hll : last.length ≤ 32768 := by
    have := congrArg List.length hall
    rw [List.length_append, hfl] at this
    omega
  have hc10 : ∃ c, snappyCompress cx (front ++ last) = .ok c ∧
      snappyDecompress cx c = .ok front := by
    refine C10_false cx laws front last n hfl hlne hll hs ?_
    intro hne
    have hn1 : n ≠ 0 := by
      intro h0; subst h0
      exact hne (List.length_eq_zero_iff.mp (by omega))
    have hlb : (lastBlock front).length = 32768 := by
      unfold lastBlock
      rw [List.length_drop, hfl]
      omega
    exact hp _ hlb
  rw [← hall] at hc10
  obtain ⟨c, hc1, hc2⟩ := hc10
  have hck := hc c hc1
  have hok := container_ok (c := 2) (by unfold Fits; norm_num) hck
  set ce : Val × Val := (.int (-1), mkMessage 2 .none (.bytes c)) with hce
  have hes : entries [ce] = entry ce := by simp [entries]
  have hplain : ∀ x ∈ plainSet (l₁.map fun m => (-1, m.1, m.2)), PlainEntry x := by
    intro x hx
    simp only [plainSet, List.mem_map] at hx
    obtain ⟨y, ⟨a, ha, rfl⟩, rfl⟩ := hx
    exact plainEntry_mk (h a (by simp [ha]))
  have hnest := parseNested_cut (cx := cx) (depth := depth) hplain
    (plainEntry_mk (h m (by simp))).toEntryOk hk
  obtain ⟨f', d', h3, h4⟩ := render_ok .messageSet (.mset [ce])
    ⟨[ce], rfl, by rw [hes]; exact hck.size, by
      intro x hx
      simp only [List.mem_singleton] at hx
      subst hx
      exact ⟨hok.offset, hok.message, hck.crc⟩⟩
  refine ⟨[ce], be 4 (entry ce).length ++ entry ce, ?_, ?_, ?_⟩
  · simp only [compressedSet, map_messagesOf, h1, h2, hc1]
    simp [hce]
  · simp only [encode, h3, h4, wire, msgs, hes]
  · intro pre suf
    have h5 := parseSet_container (cx := cx) hok (by simp [hce, mkMessage, attr])
      (by simp [hce, mkMessage, attr]) ⟨snappy_not_text hc1, .inr ⟨rfl, hc2⟩⟩ hnest hck.size
      pre suf
    have hb : pre ++ (be 4 (entry ce).length ++ entry ce) ++ suf =
        pre ++ (be 4 (entry ce).length ++ (entry ce ++ suf)) := by simp
    have hlen : (be 4 (entry ce).length ++ entry ce).length = 4 + (entry ce).length := by
      simp [be_length]
    refine ⟨_, by rw [hb, parse, h5, hlen], ?_⟩
    rw [view_plainSet, List.map_map]
    rfl

/-- Two keyed messages. -/
def Spec.twoPairs : List (Val × Val) := [(.str "k", .str "v"), (.none, .bytes [0xff])]

theorem Spec.twoPairs_ok : ∀ m ∈ twoPairs, Writable (-1, m.1, m.2) := by
  intro m hm
  simp only [twoPairs, List.mem_cons, List.not_mem_nil, or_false] at hm
  rcases hm with rfl | rfl
  · exact ⟨by unfold Fits; norm_num, .inr ⟨_, rfl, by decide +kernel⟩,
      .inr ⟨_, rfl, by decide +kernel⟩, by decide +kernel, by decide +kernel⟩
  · exact ⟨by unfold Fits; norm_num, .inl rfl, .inr ⟨_, rfl, by decide +kernel⟩,
      by decide +kernel, by decide +kernel⟩

-- Non-vacuity of C09 and C11: a lawful codec and two messages meet the hypotheses.
example : GzipLaws storeCodec ∧ (∀ m ∈ twoPairs, Writable (-1, m.1, m.2)) ∧
    ContainerOk 1 (storeCodec.gzip (entries (plainSet (twoPairs.map fun m => (-1, m.1, m.2))))) :=
  ⟨storeCodec_gzip, twoPairs_ok, by decide +kernel, by decide +kernel, by decide +kernel⟩
example : 12 ≤ (storeCodec.snappyRaw
      (lastBlock (entries (plainSet (twoPairs.map fun m => (-1, m.1, m.2)))))).length ∧
    ∀ c, snappyCompress storeCodec (entries (plainSet (twoPairs.map fun m => (-1, m.1, m.2)))) =
      .ok c → ContainerOk 2 c := by
  refine ⟨by decide +kernel, ?_⟩
  intro c hc
  obtain rfl : c = snappyHeader ++ (0 :: 0 :: 0 :: 56 :: 0 ::
      entries (plainSet (twoPairs.map fun m => (-1, m.1, m.2)))) := by
    have : snappyCompress storeCodec (entries (plainSet (twoPairs.map fun m => (-1, m.1, m.2))))
        = .ok (snappyHeader ++ (0 :: 0 :: 0 :: 56 :: 0 ::
      entries (plainSet (twoPairs.map fun m => (-1, m.1, m.2))))) := by krfl
    rw [this] at hc
    cases hc
    rfl
  exact ⟨by decide +kernel, by decide +kernel, by decide +kernel⟩

end Kiel
