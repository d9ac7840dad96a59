import Verif.Lemmas.Wire
/- C01, C02, C03, C06 (offsets): primitives and composite structures on the wire. -/
namespace Kiel
open Spec

/-- The integer classes and their widths in bytes. -/
inductive Spec.IntClass : Ty → Nat → Prop
  | int8 : IntClass .int8 1
  | int16 : IntClass .int16 2
  | int32 : IntClass .int32 4
  | int64 : IntClass .int64 8

/-- **C01**, writing: big-endian two's complement of the declared width. -/
theorem C01_encode {t : Ty} {n : Nat} (ht : IntClass t n) {i : Int} (hi : Fits n i) :
    encode t (.int i) = .ok (be n i) ∧ (be n i).length = n := by
  refine ⟨?_, be_length n i⟩
  cases ht <;> simp only [encode, render]
  · exact pack_int1 (f := .b) (by simp) hi
  · exact pack_int1 (f := .h) (by simp) hi
  · exact pack_int1 (f := .i) (by simp) hi
  · exact pack_int1 (f := .q) (by simp) hi

/-- **C01**, reading at any position of any buffer. -/
theorem C01_parse (cx : Codec) (depth : Nat) {t : Ty} {n : Nat} (ht : IntClass t n) {i : Int}
    (hi : Fits n i) (pre suf : Bytes) :
    parse cx depth t (pre ++ be n i ++ suf) pre.length = .ok (.int i, pre.length + n) := by
  rw [List.append_assoc]
  cases ht <;> simp only [parse] <;> exact parseInt_be (by norm_num) hi pre suf

/-- **C01**: whatever is read fits the width, and the bytes read are its encoding, so
reading loses nothing either. -/
theorem C01_parse_inv (cx : Codec) (depth : Nat) {t : Ty} {n : Nat} (ht : IntClass t n)
    {buff : Bytes} {off off' : Nat} {v : Val} (h : parse cx depth t buff off = .ok (v, off')) :
    ∃ i, v = .int i ∧ Fits n i ∧ off' = off + n ∧ (buff.drop off).take n = be n i := by
  have key : ∀ n, 0 < n → parseInt n buff off = .ok (v, off') →
      ∃ i, v = .int i ∧ Fits n i ∧ off' = off + n ∧ (buff.drop off).take n = be n i := by
    intro n hn h
    unfold parseInt at h
    split at h
    · cases h
    · rename_i i hi
      cases h
      obtain ⟨hf, hl⟩ := unpackInt_fits hn hi
      refine ⟨i, rfl, hf, rfl, ?_⟩
      unfold unpackInt at hi
      rw [if_pos hl] at hi
      cases hi
      have hlen : ((buff.drop off).take n).length = n := by simp; omega
      generalize (buff.drop off).take n = bs at hlen ⊢
      subst hlen
      exact (be_signedBE bs).symm
  cases ht <;> simp only [parse] at h <;> exact key _ (by norm_num) h

/-- **C01**: integers out of range, and anything that is not an integer, are refused. -/
theorem C01_refused {t : Ty} {n : Nat} (ht : IntClass t n) {v : Val}
    (hv : ∀ i, v = .int i → ¬ Fits n i) : encode t v = .error .structError := by
  cases v with
  | int i =>
    have := hv i rfl
    cases ht <;> simp only [encode, render, pack, packOne, Fmt.size, packInt_err this]
  | _ => cases ht <;> rfl

-- Non-vacuity: -2 as Int16 inside a buffer; 128 is not an Int8; a float is refused.
example : encode .int16 (.int (-2)) = .ok [0xff, 0xfe] := rfl
example (cx : Codec) : parse cx 0 .int16 [7, 0xff, 0xfe, 9] 1 = .ok (.int (-2), 3) := by
  have := C01_parse cx 0 .int16 (i := -2) (by unfold Fits; norm_num) [7] [9]
  rwa [show be 2 (-2) = [0xff, 0xfe] by decide +kernel] at this
example : encode .int8 (.int 128) = .error .structError := rfl
example : encode .int64 (.flt "1.5") = .error .structError := rfl

/-- The variable-length classes and the widths of their length fields. -/
inductive Spec.VarClass : Ty → Nat → Prop
  | string : VarClass .string 2
  | bytes : VarClass .bytes 4

/-- **C02**, writing: length, then content. -/
theorem C02_encode {t : Ty} {n : Nat} (ht : VarClass t n) {v : Val} {b : Bytes}
    (hb : content v = some b) (hl : b.length < 2 ^ (8 * n - 1)) :
    encode t v = .ok (be n b.length ++ b) := by
  have hs : sized n v = be n b.length ++ b := by simp [sized, hb]
  cases ht
  · obtain ⟨f, d, h1, h2⟩ := renderVar_ok (sz := .h) (by simp) (Or.inr ⟨b, hb, hl⟩)
    simp only [encode, render, h1, h2]; exact congrArg _ hs
  · obtain ⟨f, d, h1, h2⟩ := renderVar_ok (sz := .i) (by simp) (Or.inr ⟨b, hb, hl⟩)
    simp only [encode, render, h1, h2]; exact congrArg _ hs

/-- **C02**: `None` is written as the length -1 and read back as `None`. -/
theorem C02_none (cx : Codec) (depth : Nat) {t : Ty} {n : Nat} (ht : VarClass t n)
    (pre suf : Bytes) :
    encode t .none = .ok (List.replicate n 0xff) ∧
    parse cx depth t (pre ++ List.replicate n 0xff ++ suf) pre.length =
      .ok (.none, pre.length + n) := by
  have h : List.replicate n 0xff = sized n Val.none := by cases ht <;> rfl
  have hl : (sized n Val.none).length = n := by simp [sized, content, be_length]
  refine ⟨by cases ht <;> rfl, ?_⟩
  rw [h, List.append_assoc]
  have := fun hn => parseVar_sized (n := n) hn (v := .none) (Or.inl rfl) pre suf
  rw [hl] at this
  cases ht <;> simp only [parse] <;> exact this (by norm_num)

/-- **C02**, reading: the text the content spells if it is UTF-8, otherwise the bytes. -/
theorem C02_parse (cx : Codec) (depth : Nat) {t : Ty} {n : Nat} (ht : VarClass t n)
    {b : Bytes} (hl : b.length < 2 ^ (8 * n - 1)) (pre suf : Bytes) :
    parse cx depth t (pre ++ (be n b.length ++ b) ++ suf) pre.length =
      .ok ((match decodeUtf8 b with | some s => .str s | none => .bytes b),
        pre.length + n + b.length) := by
  have h := fun hn => parseVar_sized (n := n) hn (v := .bytes b) (Or.inr ⟨b, rfl, hl⟩) pre suf
  have hs : sized n (.bytes b) = be n b.length ++ b := by simp [sized, content]
  simp only [hs, sizedValue, content, List.length_append, be_length, ← Nat.add_assoc] at h
  rw [List.append_assoc]
  cases ht <;> simp only [parse] <;> exact h (by norm_num)

/-- **C02**: text survives: writing and reading it back is the identity. -/
theorem C02_text (cx : Codec) (depth : Nat) {t : Ty} {n : Nat} (ht : VarClass t n)
    (s : String) (hl : (encodeUtf8 s).length < 2 ^ (8 * n - 1)) (pre suf : Bytes) :
    ∃ b, encode t (.str s) = .ok b ∧ parse cx depth t (pre ++ b ++ suf) pre.length =
      .ok (.str s, pre.length + b.length) := by
  refine ⟨_, C02_encode ht rfl hl, ?_⟩
  rw [C02_parse cx depth ht hl, decode_encode]
  simp [be_length, Nat.add_assoc]

/-- **C02**: byte strings survive too, up to being spelled as text: what comes back, written
again, gives the same bytes. -/
theorem C02_bytes (cx : Codec) (depth : Nat) {t : Ty} {n : Nat} (ht : VarClass t n)
    (b : Bytes) (hl : b.length < 2 ^ (8 * n - 1)) (pre suf : Bytes) :
    ∃ w v, encode t (.bytes b) = .ok w ∧ parse cx depth t (pre ++ w ++ suf) pre.length =
      .ok (v, pre.length + w.length) ∧ (v = .bytes b ∨ ∃ s, v = .str s ∧ encodeUtf8 s = b) := by
  refine ⟨_, (match decodeUtf8 b with | some s => .str s | none => .bytes b),
    C02_encode ht rfl hl, ?_, ?_⟩
  · rw [C02_parse cx depth ht hl]; simp [be_length, Nat.add_assoc]
  · cases h : decodeUtf8 b with
    | none => exact Or.inl rfl
    | some s => exact Or.inr ⟨s, rfl, encode_decode h⟩

/-- **C02**: other scalars come back as their `str()`. -/
theorem C02_scalar (cx : Codec) (depth : Nat) {t : Ty} {n : Nat} (ht : VarClass t n)
    (v : Val) (s : String)
    (hv : v = .obj s ∨ v = .flt s ∨ ∃ i : Int, v = .int i ∧ s = toString i)
    (hl : (encodeUtf8 s).length < 2 ^ (8 * n - 1)) (pre suf : Bytes) :
    ∃ b, encode t v = .ok b ∧ parse cx depth t (pre ++ b ++ suf) pre.length =
      .ok (.str s, pre.length + b.length) := by
  have hc : content v = some (encodeUtf8 s) := by
    rcases hv with rfl | rfl | ⟨i, rfl, rfl⟩ <;> rfl
  refine ⟨_, C02_encode ht hc hl, ?_⟩
  rw [C02_parse cx depth ht hl, decode_encode]
  simp [be_length, Nat.add_assoc]

/-- **C02**: what does not fit the length field is refused. -/
theorem C02_refused {t : Ty} {n : Nat} (ht : VarClass t n) {v : Val} {b : Bytes}
    (hb : content v = some b) (hl : 2 ^ (8 * n - 1) ≤ b.length) :
    encode t v = .error .structError := by
  cases ht
  · have := renderVar_refused (sz := .h) (by simp) hb hl
    simp only [encode, render]; exact this
  · have := renderVar_refused (sz := .i) (by simp) hb hl
    simp only [encode, render]; exact this

-- Non-vacuity: a text, bytes that are not UTF-8, bytes that are, a number.
example : encode .string (.str "héy") = .ok [0, 4, 0x68, 0xc3, 0xa9, 0x79] := by decide +kernel
example (cx : Codec) : parse cx 0 .string [0, 4, 0x68, 0xc3, 0xa9, 0x79] 0 =
    .ok (.str "héy", 6) := by
  have := C02_parse cx 0 VarClass.string (b := [0x68, 0xc3, 0xa9, 0x79]) (by simp) [] []
  have h : decodeUtf8 [0x68, 0xc3, 0xa9, 0x79] = some "héy" := by
    rw [← decode_encode "héy"]; congr 1
  rw [h] at this; exact this
example : encode .bytes (.int 42) = .ok [0, 0, 0, 2, 0x34, 0x32] := by decide +kernel
example : ∃ b : Bytes, 2 ^ (8 * 2 - 1) ≤ b.length :=
  ⟨List.replicate 32768 0, by rw [List.length_replicate]; norm_num⟩

/-- **C03**, writing: any structure is written in the Kafka format. -/
theorem C03_encode (t : Ty) (v : Val) (h : Ok t v) : encode t v = .ok (wire t v) := by
  obtain ⟨f, d, h1, h2⟩ := render_ok t v h
  simp only [encode, h1, h2]

/-- **C03**, reading: at any position of any buffer the same structure is read back and the
offset ends up just after it. -/
theorem C03_parse (cx : Codec) (depth : Nat) (t : Ty) (v : Val) (h : Ok t v) (hp : Plain t v)
    (pre suf : Bytes) :
    parse cx depth t (pre ++ wire t v ++ suf) pre.length =
      .ok (seen t v, pre.length + (wire t v).length) := by
  rw [List.append_assoc]; exact parse_wire cx depth t v h hp pre suf

/-- **C03**, put together. -/
theorem C03_roundtrip (cx : Codec) (depth : Nat) (t : Ty) (v : Val) (h : Ok t v)
    (hp : Plain t v) (pre suf : Bytes) :
    ∃ b, encode t v = .ok b ∧
      parse cx depth t (pre ++ b ++ suf) pre.length = .ok (seen t v, pre.length + b.length) :=
  ⟨_, C03_encode t v h, C03_parse cx depth t v h hp pre suf⟩

/-- Membership of a declared field. -/
inductive Spec.HasField : Fields → String → Ty → Prop
  | head {name t rest} : HasField (.cons name t rest) name t
  | tail {name t rest name' t'} : name' ≠ name → HasField rest name t →
      HasField (.cons name' t' rest) name t

/-- **C03**: the instance read back has, field by field, the attributes that were written. -/
theorem C03_attr (fs : Fields) (v : Val) (name : String) (t : Ty) (h : HasField fs name t) :
    attr (seen (.part fs) v) name = seen t (attr v name) := by
  simp only [seen]
  induction h with
  | head => simp [seenFields, attr]
  | @tail name t rest name' t' hne _ ih =>
    simp only [seenFields, attr, List.find?, beq_eq_false_iff_ne.mpr hne] at ih ⊢
    exact ih

/-- **C03**: the wire format is unambiguous: values with the same bytes are read as the same
value. -/
theorem C03_unambiguous (t : Ty) (v w : Val) (hv : Ok t v) (pv : Plain t v) (hw : Ok t w)
    (pw : Plain t w) (h : wire t v = wire t w) : seen t v = seen t w := by
  have cx : Codec := ⟨id, .ok, true, id, .ok⟩
  have h1 := C03_parse cx 0 t v hv pv [] []
  have h2 := C03_parse cx 0 t w hw pw [] []
  rw [h, h2] at h1
  simp only [Except.ok.injEq, Prod.mk.injEq] at h1
  exact h1.1.symm

/-- A structure with a nested array of structures, a missing attribute and an empty
(`None`) array. -/
def Spec.sample : Ty :=
  .part (.cons "id" .int32 <| .cons "items" (.array (.part
    (.cons "name" .string (.cons "tags" (.array .int64) .nil)))) .nil)

/-- An instance of `Spec.sample`. -/
def Spec.sampleValue : Val :=
  .part [("items", .list [.part [("name", .str "a"), ("tags", .list [.int 1, .int (-1)])],
    .part [("tags", .none)]]), ("id", .int 7)]

-- Non-vacuity of C03: the hypotheses hold for a nested instance, and this is what it
-- looks like on the wire.
example : Ok sample sampleValue ∧ Plain sample sampleValue := by
  simp [sample, sampleValue, Ok, OkFields, Plain, PlainFields, attr, elems, Fits, SizedOk,
    content, encodeUtf8]
  decide
example : wire sample sampleValue =
    [0, 0, 0, 7, 0, 0, 0, 2, 0, 1, 0x61, 0, 0, 0, 2, 0, 0, 0, 0, 0, 0, 0, 1,
     0xff, 0xff, 0xff, 0xff, 0xff, 0xff, 0xff, 0xff, 0xff, 0xff, 0, 0, 0, 0] := by
  decide +kernel

end Kiel
