import Verif.Props.EndToEnd
/- A concrete message that is lost on its way from a snappy producer to a consumer. -/
set_option autoImplicit false
namespace Kiel
open Spec

/-- `n` more bytes `b`, the checksum being kept in evaluated form. -/
def repStep (b : UInt8) : Nat → Nat → Nat
  | 0, a => a
  | n + 1, 0 => repStep b n (crcByte 0 b)
  | n + 1, k + 1 => repStep b n (crcByte (k + 1) b)

/-- `128 * n` more bytes `b`. -/
def repChunks (b : UInt8) : Nat → Nat → Nat
  | 0, a => a
  | n + 1, a => match repStep b 128 a with
    | 0 => repChunks b n 0
    | k + 1 => repChunks b n (k + 1)

theorem repStep_eq (b : UInt8) : ∀ n a, repStep b n a = (List.replicate n b).foldl crcByte a
  | 0, _ => rfl
  | n + 1, 0 => by rw [repStep, repStep_eq]; rfl
  | n + 1, k + 1 => by rw [repStep, repStep_eq]; rfl

theorem repChunks_eq (b : UInt8) : ∀ n a,
    repChunks b n a = (List.replicate (128 * n) b).foldl crcByte a
  | 0, _ => rfl
  | n + 1, a => by
    have h : 128 * (n + 1) = 128 + 128 * n := by omega
    rw [h, List.replicate_add, List.foldl_append, ← repChunks_eq b n, ← repStep_eq, repChunks]
    split <;> simp [*]

theorem foldl_rep (b : UInt8) (n m a : Nat) :
    (List.replicate (128 * n + m) b).foldl crcByte a = repStep b m (repChunks b n a) := by
  rw [List.replicate_add, List.foldl_append, ← repChunks_eq, ← repStep_eq]

/-- 32743 times the letter "a". -/
def Spec.bigValue : Bytes := List.replicate 32743 0x61

/-- The message. -/
def Spec.bigMessage : Val × Val := (.none, .bytes bigValue)

/-- Everything of the message's entry before the value. -/
def Spec.bigHead : Bytes :=
  [0xff, 0xff, 0xff, 0xff, 0xff, 0xff, 0xff, 0xff, 0x00, 0x00, 0x7f, 0xf5]

/-- The part of the message before the value that is covered by the checksum. -/
def Spec.bigBody : Bytes := [0x00, 0x00, 0xff, 0xff, 0xff, 0xff, 0x00, 0x00, 0x7f, 0xe7]

theorem bigValue_length : bigValue.length = 32743 := List.length_replicate ..

theorem big_body : body (mkMessage 0 .none (.bytes bigValue)) = bigBody ++ bigValue := by
  have h : sized 4 (.bytes bigValue) = be 4 32743 ++ bigValue := by
    simp only [sized, content, bigValue_length]
    rfl
  have h2 : attr (mkMessage 0 .none (.bytes bigValue)) "value" = .bytes bigValue := by
    simp [mkMessage, attr]
  have h3 : be 1 (intOf (attr (mkMessage 0 .none (.bytes bigValue)) "magic")) ++
      be 1 (intOf (attr (mkMessage 0 .none (.bytes bigValue)) "attributes")) ++
      sized 4 (attr (mkMessage 0 .none (.bytes bigValue)) "key") = 
      [0x00, 0x00, 0xff, 0xff, 0xff, 0xff] := by
    simp only [mkMessage, attr]
    decide +kernel
  have h4 : be 4 32743 = [0x00, 0x00, 0x7f, 0xe7] := by decide +kernel
  rw [body, h3, h2, h, h4]
  rfl

theorem big_crc : crc32 (body (mkMessage 0 .none (.bytes bigValue))) = 1908751924 := by
  rw [big_body, crc32, List.foldl_append, bigValue,
    show 32743 = 128 * 255 + 103 from rfl, foldl_rep]
  decide +kernel


/-- The whole entry before the value. -/
def Spec.bigStart : Bytes := bigHead ++ [0x71, 0xc5, 0x3e, 0x34] ++ bigBody

theorem big_entry : entries (plainSet ([bigMessage].map fun m => (-1, m.1, m.2))) =
    bigStart ++ bigValue := by
  have hl : (message (mkMessage 0 .none (.bytes bigValue))).length = 32757 := by
    simp only [message, big_body, List.length_append, be_length, bigValue_length]
    rfl
  have hm : message (mkMessage 0 .none (.bytes bigValue)) =
      [0x71, 0xc5, 0x3e, 0x34] ++ (bigBody ++ bigValue) := by
    rw [message, big_crc, big_body]
    congr 1
  have hh : be 8 (-1) ++ be 4 ((32757 : Nat) : Int) = bigHead := by decide +kernel
  have he : entry (.int (-1), mkMessage 0 .none (.bytes bigValue)) = bigStart ++ bigValue := by
    have : entry (.int (-1), mkMessage 0 .none (.bytes bigValue)) =
      be 8 (-1) ++ be 4 (message (mkMessage 0 .none (.bytes bigValue))).length ++
        message (mkMessage 0 .none (.bytes bigValue)) := rfl
    rw [this, hl, hh, hm]
    simp [bigStart]
  simp only [entries, plainSet, bigMessage, List.map_cons, List.map_nil, List.flatten_cons,
    List.flatten_nil, List.append_nil, he]

/-- The value but for its last letter. -/
def Spec.manyA : Bytes := List.replicate 32742 0x61

/-- What the producer compresses it to (with a compressor that does not shrink anything). -/
def Spec.bigPacked : Bytes :=
  snappyHeader ++ ([0x00, 0x00, 0x80, 0x01, 0x00] ++ bigStart) ++
    (manyA ++ [0x00, 0x00, 0x00, 0x02, 0x00, 0x61])

theorem big_split : bigStart ++ bigValue = (bigStart ++ manyA) ++ [0x61] := by
  have : bigValue = manyA ++ [0x61] := by
    rw [bigValue, manyA, show 32743 = 32742 + 1 from rfl, List.replicate_add]
    rfl
  rw [this, List.append_assoc]

theorem big_front : (bigStart ++ manyA).length = 32768 := by
  rw [List.length_append, manyA, List.length_replicate]
  rfl

theorem big_compress : snappyCompress storeCodec (bigStart ++ bigValue) = .ok bigPacked := by
  have hlen : (bigStart ++ bigValue).length = 32767 + 1 + 1 := by
    rw [List.length_append, bigValue_length]; rfl
  have ht : (bigStart ++ bigValue).take 32768 = bigStart ++ manyA := by
    rw [big_split, ← big_front, List.take_left]
  have hd : (bigStart ++ bigValue).drop 32768 = [0x61] := by
    rw [big_split, ← big_front, List.drop_left]
  have hne : bigStart ++ bigValue ≠ [] := by simp [bigStart, bigHead]
  have h1 : packInt 4 ((storeCodec.snappyRaw (bigStart ++ manyA)).length : Int) =
      .ok [0x00, 0x00, 0x80, 0x01] := by
    have : (storeCodec.snappyRaw (bigStart ++ manyA)).length = 32769 := by
      simp only [storeCodec, List.length_cons, big_front]
    rw [this]
    exact (packInt_ok (n := 4) (v := ((32769 : Nat) : Int)) (by unfold Fits; norm_num)).trans
      (congrArg Except.ok (by decide +kernel))
  have h2 : snappyBlocks storeCodec.snappyRaw (32767 + 1) [0x61] =
      .ok [0x00, 0x00, 0x00, 0x02, 0x00, 0x61] := by
    rw [snappyBlocks, if_neg (by simp)]
    rfl
  rw [snappyCompress, hlen, snappyBlocks, if_neg hne]
  simp only [snappyBlockSize, Nat.reduceMul, ht, hd, h1, h2]
  simp [storeCodec, bigPacked]

theorem bigPacked_length : bigPacked.length = 32795 := by
  simp only [bigPacked, manyA, List.length_append, List.length_replicate]
  rfl

theorem big_container_body : body (mkMessage 2 .none (.bytes bigPacked)) =
    [0x00, 0x02, 0xff, 0xff, 0xff, 0xff, 0x00, 0x00, 0x80, 0x1b] ++ bigPacked := by
  have h : sized 4 (.bytes bigPacked) = be 4 32795 ++ bigPacked := by
    simp only [sized, content, bigPacked_length]
    rfl
  have h2 : attr (mkMessage 2 .none (.bytes bigPacked)) "value" = .bytes bigPacked := by
    simp [mkMessage, attr]
  have h3 : be 1 (intOf (attr (mkMessage 2 .none (.bytes bigPacked)) "magic")) ++
      be 1 (intOf (attr (mkMessage 2 .none (.bytes bigPacked)) "attributes")) ++
      sized 4 (attr (mkMessage 2 .none (.bytes bigPacked)) "key") =
      [0x00, 0x02, 0xff, 0xff, 0xff, 0xff] := by
    simp only [mkMessage, attr]
    decide +kernel
  have h4 : be 4 32795 = [0x00, 0x00, 0x80, 0x1b] := by decide +kernel
  rw [body, h3, h2, h, h4]
  rfl

theorem big_container_crc :
    crc32 (body (mkMessage 2 .none (.bytes bigPacked))) = 2116723071 := by
  rw [big_container_body, crc32, List.foldl_append, bigPacked, List.foldl_append,
    List.foldl_append, manyA, show 32742 = 128 * 255 + 102 from rfl, foldl_rep]
  decide +kernel

theorem big_container : ContainerOk 2 bigPacked where
  value := by rw [bigPacked_length]; norm_num
  size := by
    have : (message (mkMessage 2 .none (.bytes bigPacked))).length < 2 ^ 20 := by
      simp only [message, big_container_body, List.length_append, be_length, bigPacked_length]
      simp
    simp only [entry, List.length_append, be_length]
    omega
  crc := by rw [big_container_crc]; decide

theorem big_writable : Writable (-1, bigMessage.1, bigMessage.2) where
  offset := by unfold Fits; norm_num
  key := .inl rfl
  value := .inr ⟨bigValue, rfl, by rw [bigValue_length]; norm_num⟩
  size := by
    simp only [bigMessage, message, big_body, List.length_append, be_length, bigValue_length]
    decide
  crc := by
    simp only [bigMessage]
    rw [big_crc]
    decide

theorem big_fits : SetFits storeCodec (some 2) [bigMessage] := by
  refine ⟨by simpa using big_writable, by simp, by simp, ?_⟩
  intro _ b hb
  rw [big_entry, big_compress] at hb
  cases hb
  exact big_container

/-- **C64** and **C11** are false: the message fits, a lawful compressor is used, the bytes
written hold the message by the rules of the protocol, but a consumer that gets them back
sees no message at all (and no error). -/
theorem C64_false (depth : Nat) :
    GzipLaws storeCodec ∧ SnappyLaws storeCodec ∧ checkCompression (some 2) = .ok () ∧
    SetFits storeCodec (some 2) [bigMessage] ∧
    ∃ ms raw, compressedSet storeCodec (some 2) (messagesOf [bigMessage]) = .ok ms ∧
      encode .messageSet (.mset ms) = .ok raw ∧
      SetHolds (KafkaPacked storeCodec) ms [(-1, .none, sizedValue (.bytes bigValue))] ∧
      ∀ pre suf, ∃ v, parse storeCodec (depth + 2) .messageSet (pre ++ raw ++ suf) pre.length =
        .ok (v, pre.length + raw.length) ∧ view v = [] := by
  refine ⟨storeCodec_gzip, storeCodec_snappy, rfl, big_fits, ?_⟩
  obtain ⟨ms, h1, _, h3⟩ := C64_sent storeCodec storeCodec_gzip storeCodec_snappy (some 2) rfl
    [bigMessage] big_fits
  have hk : entry (.int (-1), mkMessage 0 bigMessage.1 bigMessage.2) = bigStart ++ bigValue := by
    have := big_entry
    simpa [entries, plainSet, bigMessage] using this
  obtain ⟨ms', raw, h4, h5, h6⟩ := C11_false storeCodec storeCodec_snappy depth [] [] bigMessage
    (by simpa using big_writable) 1 32768
    (by rw [hk, big_split, List.length_append, big_front]; simp)
    (by simp [entries, plainSet])
    (by
      have := big_entry
      simp only [List.nil_append]
      rw [this, big_split, List.length_append, big_front]
      simp)
    (by
      have := big_entry
      simp only [List.nil_append]
      rw [this, big_split, Nat.mul_one, ← big_front, List.drop_left]
      decide)
    (by
      intro b hb
      simp only [storeCodec, List.length_cons]
      omega)
    (by
      intro c hc
      simp only [List.nil_append] at hc
      rw [big_entry, big_compress] at hc
      cases hc
      exact big_container)
  simp only [List.nil_append] at h4
  rw [h1] at h4
  cases h4
  have hs : sizedValue .none = .none := rfl
  exact ⟨ms, raw, h1, h5,
    by simpa only [List.map_cons, List.map_nil, bigMessage, hs] using h3, h6⟩

end Kiel
