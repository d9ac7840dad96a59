import Verif.Lemmas.Struct
/- Rendering and parsing agree with the wire format. -/
namespace Kiel
open Spec

theorem getAttr_eq (kvs : List (String × Val)) (name : String) :
    getAttr kvs name = attr (.part kvs) name := by
  induction kvs with
  | nil => rfl
  | cons e r ih =>
    obtain ⟨k, v⟩ := e
    simp only [getAttr, Dict.get?, attr, List.find?] at ih ⊢
    by_cases h : k = name
    · simp [h]
    · simp only [h, if_false, beq_eq_false_iff_ne.mpr h]
      exact ih

theorem decode_encode (s : String) : decodeUtf8 (encodeUtf8 s) = some s := by
  have hv : (⟨(encodeUtf8 s).toArray⟩ : ByteArray) = s.toByteArray := by
    simp [encodeUtf8]
  simp only [decodeUtf8, hv]
  unfold String.fromUTF8?
  rw [dif_pos s.isValidUTF8]
  rfl

theorem encode_decode {b : Bytes} {s : String} (h : decodeUtf8 b = some s) :
    encodeUtf8 s = b := by
  unfold decodeUtf8 String.fromUTF8? at h
  split at h
  · cases h
    simp [encodeUtf8, String.fromUTF8]
  · cases h

theorem pack_append {f1 f2 : List Fmt} {d1 d2 : List Val} {b1 b2 : Bytes}
    (h1 : pack f1 d1 = .ok b1) (h2 : pack f2 d2 = .ok b2) :
    pack (f1 ++ f2) (d1 ++ d2) = .ok (b1 ++ b2) := by
  induction f1 generalizing d1 b1 with
  | nil =>
    cases d1 with
    | nil => simp only [pack] at h1; cases h1; simpa using h2
    | cons _ _ => simp [pack] at h1
  | cons f fs ih =>
    cases d1 with
    | nil => simp [pack] at h1
    | cons v vs =>
      simp only [List.cons_append, pack] at h1 ⊢
      split at h1
      · cases h1
      · rename_i b hb
        split at h1
        · cases h1
        · rename_i bs hbs
          cases h1
          rw [ih hbs]
          simp

theorem packInt_length {n : Nat} {v : Int} {b : Bytes} (h : packInt n v = .ok b) :
    b.length = n := by
  unfold packInt at h
  split at h
  · cases h; simp [natBE_length]
  · cases h

theorem packOne_length {f : Fmt} {v : Val} {b : Bytes} (h : packOne f v = .ok b) :
    b.length = f.size := by
  cases f <;> cases v <;> simp only [packOne] at h <;> first
    | cases h; done
    | exact packInt_length h
    | (cases h; simp [Fmt.size]; omega)

theorem pack_length {f : List Fmt} {d : List Val} {b : Bytes} (h : pack f d = .ok b) :
    b.length = calcsize f := by
  induction f generalizing d b with
  | nil => cases d <;> simp [pack] at h; subst h; rfl
  | cons f fs ih =>
    cases d with
    | nil => simp [pack] at h
    | cons v vs =>
      simp only [pack] at h
      split at h
      · cases h
      · rename_i b hb
        split at h
        · cases h
        · rename_i bs hbs
          cases h
          simp [packOne_length hb, ih hbs, calcsize]

theorem pack_int1 {f : Fmt} (hf : ∀ n, f ≠ .s n) {i : Int} (h : Fits f.size i) :
    pack [f] [.int i] = .ok (be f.size i) := by
  have : packOne f (.int i) = .ok (be f.size i) := by
    cases f <;> first
      | (simp only [packOne]; exact packInt_ok h)
      | exact absurd rfl (hf _)
  simp [pack, this]

theorem fits_neg_one {n : Nat} : Fits n (-1) := by
  unfold Fits
  have : (0 : Int) < 2 ^ (8 * n - 1) := by positivity
  omega

theorem fits_nat {n k : Nat} (h : k < 2 ^ (8 * n - 1)) : Fits n (k : Int) := by
  unfold Fits
  have e : ((2 ^ (8 * n - 1) : Nat) : Int) = (2 : Int) ^ (8 * n - 1) := by norm_cast
  omega

theorem content_varBytes {v : Val} {b : Bytes} (h : content v = some b) :
    varBytes v = .ok b := by
  cases v <;> simp only [content] at h <;> cases h <;> rfl

/-- A length-prefixed field renders to its wire format. -/
theorem renderVar_ok {sz : Fmt} (hsz : ∀ n, sz ≠ .s n) {v : Val} (h : SizedOk sz.size v) :
    ∃ f d, renderVar sz v = .ok (f, d) ∧ pack f d = .ok (sized sz.size v) := by
  rcases h with rfl | ⟨b, hb, hl⟩
  · exact ⟨_, _, rfl, pack_int1 hsz fits_neg_one⟩
  · refine ⟨[sz, .s b.length], [.int b.length, .bytes b], ?_, ?_⟩
    · have hv := content_varBytes hb
      cases v <;> first
        | (simp only [content] at hb; cases hb; done)
        | simp only [renderVar, hv]
    · have h1 := pack_int1 hsz (fits_nat hl)
      have h2 : pack [.s b.length] [.bytes b] = .ok b := by simp [pack, packOne]
      have := pack_append h1 h2
      simpa [sized, hb] using this

theorem renderVar_refused {sz : Fmt} (hsz : ∀ n, sz ≠ .s n) {v : Val} {b : Bytes}
    (hb : content v = some b) (hl : 2 ^ (8 * sz.size - 1) ≤ b.length) :
    (match renderVar sz v with
      | .error e => (.error e : Res Bytes)
      | .ok (f, d) => pack f d) = .error .structError := by
  have hnf : ¬ Fits sz.size (b.length : Int) := by
    unfold Fits
    have e : ((2 ^ (8 * sz.size - 1) : Nat) : Int) = (2 : Int) ^ (8 * sz.size - 1) := by
      norm_cast
    omega
  have hv := content_varBytes hb
  have hr : renderVar sz v = .ok ([sz, .s b.length], [.int b.length, .bytes b]) := by
    cases v <;> first
      | (simp only [content] at hb; cases hb; done)
      | simp only [renderVar, hv]
  have hp : packOne sz (.int b.length) = .error .structError := by
    cases sz <;> first
      | exact packInt_err hnf
      | exact absurd rfl (hsz _)
  rw [hr]
  simp only [pack, hp]

/-- Reading back a length-prefixed field. -/
theorem parseVar_sized {n : Nat} (hn : 0 < n) {v : Val} (h : SizedOk n v) (pre suf : Bytes) :
    parseVar n (pre ++ (sized n v ++ suf)) pre.length =
      .ok (sizedValue v, pre.length + (sized n v).length) := by
  rcases h with rfl | ⟨b, hb, hl⟩
  · simp only [sized, content, sizedValue, parseVar, unpackInt_be hn fits_neg_one, be_length]
    rfl
  · have hs : sized n v = be n b.length ++ b := by simp [sized, hb]
    have e : pre ++ (sized n v ++ suf) = pre ++ (be n b.length ++ (b ++ suf)) := by
      simp [hs]
    have e2 : pre ++ (sized n v ++ suf) = (pre ++ be n b.length) ++ (b ++ suf) := by
      simp [hs]
    have h1 := unpackInt_be hn (fits_nat hl) pre (b ++ suf)
    rw [← e] at h1
    have h2 := unpackBytes_mid (pre ++ be n b.length) b suf
    rw [← e2] at h2
    simp only [List.length_append, be_length] at h2
    simp only [parseVar, h1]
    rw [if_neg (by omega), if_neg (by omega)]
    simp only [Int.toNat_natCast, h2]
    simp only [sizedValue, hb, hs, List.length_append, be_length]
    cases decodeUtf8 b <;> simp [Nat.add_assoc]

theorem parseInt_be {n : Nat} (hn : 0 < n) {i : Int} (h : Fits n i) (pre suf : Bytes) :
    parseInt n (pre ++ (be n i ++ suf)) pre.length = .ok (.int i, pre.length + n) := by
  simp only [parseInt, unpackInt_be hn h]

/-- CRC-32 is a 32-bit number. -/
theorem xor_lt {a b : Nat} (ha : a < 2 ^ 32) (hb : b < 2 ^ 32) : Nat.xor a b < 2 ^ 32 :=
  Nat.xor_lt_two_pow ha hb

theorem crcBit_lt {c : Nat} (h : c < 2 ^ 32) : crcBit c < 2 ^ 32 := by
  unfold crcBit
  split
  · exact xor_lt (by norm_num) (by omega)
  · omega

theorem crcByte_lt {c : Nat} (b : UInt8) (h : c < 2 ^ 32) : crcByte c b < 2 ^ 32 := by
  unfold crcByte
  have := b.toNat_lt
  iterate 8 apply crcBit_lt
  exact xor_lt h (by omega)

theorem crc32_lt (bs : Bytes) : crc32 bs < 2 ^ 32 := by
  unfold crc32
  apply xor_lt (by norm_num)
  have : ∀ (l : Bytes) (c : Nat), c < 2 ^ 32 → l.foldl crcByte c < 2 ^ 32 := by
    intro l
    induction l with
    | nil => intro c h; exact h
    | cons a l ih => intro c h; exact ih _ (crcByte_lt a h)
  exact this bs _ (by norm_num)

theorem be_mod4 (v : Int) : be 4 (v - 2 ^ 32) = be 4 v := by
  unfold be
  have : (v - 2 ^ 32) % 256 ^ 4 = v % 256 ^ 4 := by
    norm_num
  rw [this]

/-- Rendering of a message whose checksum is not 2^31. -/
theorem renderMessage_ok {m : Val} (h : MessageOk m) (hc : crc32 (body m) ≠ 2 ^ 31) :
    ∃ f d, renderMessage m = .ok (f, d) ∧ pack f d = .ok (message m) := by
  obtain ⟨⟨kvs, rfl⟩, ⟨mg, hmg, fmg⟩, ⟨at', hat, fat⟩, hk, hv, hs⟩ := h
  obtain ⟨kf, kd, hk1, hk2⟩ := renderVar_ok (sz := .i) (by simp) hk
  obtain ⟨vf, vd, hv1, hv2⟩ := renderVar_ok (sz := .i) (by simp) hv
  have p : pack ([.b] ++ [.b] ++ kf ++ vf) ([.int mg] ++ [.int at'] ++ kd ++ vd) =
      .ok (body (.part kvs)) := by
    unfold body
    rw [hmg, hat]
    exact pack_append (pack_append (pack_append (pack_int1 (f := .b) (by simp) fmg)
      (pack_int1 (f := .b) (by simp) fat)) hk2) hv2
  generalize hb : body (.part kvs) = pl at *
  have hlt := crc32_lt pl
  set c : Int := if ((crc32 pl : Nat) : Int) > 2 ^ 31 then (crc32 pl : Int) - 2 ^ 32
    else (crc32 pl : Int) with hcd
  refine ⟨[.i, .s pl.length], [.int c, .bytes pl], ?_, ?_⟩
  · simp only [renderMessage, getAttr_eq, hk1, hv1, hmg, hat, p]
    rfl
  · have fc : Fits 4 c := by
      rw [hcd]; unfold Fits
      split <;> norm_num <;> omega
    have h1 := pack_int1 (f := .i) (by simp) fc
    have h2 : pack [.s pl.length] [.bytes pl] = .ok pl := by simp [pack, packOne]
    have h3 := pack_append h1 h2
    have hbe : be 4 c = be 4 (crc32 pl) := by
      rw [hcd]; split
      · rw [be_mod4]
      · rfl
    simp only [message, hb, ← hbe]
    simpa [Fmt.size] using h3

theorem renderSetItems_ok {ms : List (Val × Val)}
    (h : ∀ e ∈ ms, (∃ i, e.1 = .int i ∧ Fits 8 i) ∧ MessageOk e.2 ∧
        crc32 (body e.2) ≠ 2 ^ 31) :
    ∃ f d, renderSetItems ms = .ok (f, d, (entries ms).length) ∧
      pack f d = .ok (entries ms) := by
  induction ms with
  | nil => exact ⟨[], [], rfl, rfl⟩
  | cons e r ih =>
    obtain ⟨o, m⟩ := e
    obtain ⟨⟨i, hi, fi⟩, hm, hc⟩ := h (o, m) (by simp)
    simp only at hi hm hc
    subst hi
    obtain ⟨mf, md, h1, h2⟩ := renderMessage_ok hm hc
    obtain ⟨f, d, h3, h4⟩ := ih (fun e he => h e (by simp [he]))
    have hl := pack_length h2
    have hsz := hm.size
    have p1 : pack ([.q] ++ [.i] ++ mf) ([.int i] ++ [.int (calcsize mf)] ++ md) =
        .ok (entry (.int i, m)) := by
      unfold entry
      simp only [intOf, hl]
      exact pack_append (pack_append (pack_int1 (f := .q) (by simp) fi)
        (pack_int1 (f := .i) (by simp) (fits_nat (by rw [← hl]; exact hsz)))) h2
    refine ⟨[.q] ++ [.i] ++ mf ++ f, [.int i] ++ [.int (calcsize mf)] ++ md ++ d, ?_, ?_⟩
    · simp only [renderSetItems, h1, h3, ← pack_length p1]
      simp [entries]
    · have := pack_append p1 h4
      simpa [entries] using this

mutual
/-- Rendering and packing a well-formed value gives its wire format. -/
theorem render_ok : ∀ (t : Ty) (v : Val), Ok t v →
    ∃ f d, render t v = .ok (f, d) ∧ pack f d = .ok (wire t v)
  | .int8, v, h => by
    obtain ⟨i, rfl, fi⟩ := h
    exact ⟨_, _, rfl, pack_int1 (f := .b) (by simp) fi⟩
  | .int16, v, h => by
    obtain ⟨i, rfl, fi⟩ := h
    exact ⟨_, _, rfl, pack_int1 (f := .h) (by simp) fi⟩
  | .int32, v, h => by
    obtain ⟨i, rfl, fi⟩ := h
    exact ⟨_, _, rfl, pack_int1 (f := .i) (by simp) fi⟩
  | .int64, v, h => by
    obtain ⟨i, rfl, fi⟩ := h
    exact ⟨_, _, rfl, pack_int1 (f := .q) (by simp) fi⟩
  | .string, v, h => by
    simp only [render, wire]; exact renderVar_ok (sz := .h) (by simp) h
  | .bytes, v, h => by
    simp only [render, wire]; exact renderVar_ok (sz := .i) (by simp) h
  | .array t, v, h => by
    simp only [Ok] at h
    obtain ⟨hv, hl, hx⟩ := h
    have key : ∀ xs : List Val, (∀ x ∈ xs, Ok t x) →
        ∃ f d, renderAll (fun v => render t v) xs = .ok (f, d) ∧
          pack f d = .ok ((xs.map (fun x => wire t x)).flatten) := by
      intro xs hxs
      induction xs with
      | nil => exact ⟨[], [], rfl, rfl⟩
      | cons x r ih =>
        obtain ⟨f1, d1, h1, h2⟩ := render_ok t x (hxs x (by simp))
        obtain ⟨f, d, h3, h4⟩ := ih (fun y hy => hxs y (by simp [hy]))
        refine ⟨f1 ++ f, d1 ++ d, ?_, ?_⟩
        · simp only [renderAll, h1, h3]
        · simpa using pack_append h2 h4
    rcases hv with rfl | ⟨xs, rfl⟩
    · exact ⟨[.i], [.int 0], by simp [render], by
        simpa [wire, elems, Fmt.size] using
          pack_int1 (f := .i) (i := 0) (by simp) (fits_nat (k := 0) (by positivity))⟩
    · obtain ⟨f, d, h1, h2⟩ := key xs hx
      refine ⟨.i :: f, .int xs.length :: d, ?_, ?_⟩
      · simp only [render, h1]
      · have := pack_append (pack_int1 (f := .i) (by simp) (fits_nat (by exact hl))) h2
        simpa [wire, elems, Fmt.size] using this
  | .part fs, v, h => by
    simp only [Ok] at h
    obtain ⟨⟨kvs, rfl⟩, hf⟩ := h
    obtain ⟨f, d, h1, h2⟩ := renderFields_ok fs kvs hf
    exact ⟨f, d, by simp only [render, h1], by simpa only [wire] using h2⟩
  | .messageSet, v, h => by
    simp only [Ok] at h
    obtain ⟨ms, rfl, hl, hm⟩ := h
    obtain ⟨f, d, h1, h2⟩ := renderSetItems_ok hm
    refine ⟨.i :: f, .int (entries ms).length :: d, ?_, ?_⟩
    · simp only [render, renderSet, h1]
    · have := pack_append (pack_int1 (f := .i) (by simp) (fits_nat (by exact hl))) h2
      simpa [wire, msgs, Fmt.size] using this
theorem renderFields_ok : ∀ (fs : Fields) (kvs : List (String × Val)),
    OkFields fs (.part kvs) →
    ∃ f d, renderFields fs kvs = .ok (f, d) ∧ pack f d = .ok (wireFields fs (.part kvs))
  | .nil, kvs, _ => ⟨[], [], by simp [renderFields], by simp [wireFields, pack]⟩
  | .cons name t rest, kvs, h => by
    simp only [OkFields] at h
    obtain ⟨f1, d1, h1, h2⟩ := render_ok t _ h.1
    obtain ⟨f, d, h3, h4⟩ := renderFields_ok rest kvs h.2
    refine ⟨f1 ++ f, d1 ++ d, ?_, ?_⟩
    · simp only [renderFields, getAttr_eq, h1, h3]
    · simpa only [wireFields] using pack_append h2 h4
end

/-- Parsing of a message. -/
theorem parseMessageParts_message {m : Val} (h : MessageOk m) (pre suf : Bytes) :
    parseMessageParts (pre ++ (message m ++ suf)) pre.length =
      .ok ([("crc", .int (signed32 (crc32 (body m)))), ("magic", attr m "magic"),
        ("attributes", attr m "attributes"), ("key", sizedValue (attr m "key")),
        ("value", sizedValue (attr m "value"))], pre.length + (message m).length) := by
  obtain ⟨_, ⟨mg, hmg, fmg⟩, ⟨at', hat, fat⟩, hk, hv, _⟩ := h
  have hlt := crc32_lt (body m)
  have fc : Fits 4 (signed32 (crc32 (body m))) := by
    unfold signed32 Fits
    split <;> norm_num <;> omega
  have hbe : be 4 (crc32 (body m)) = be 4 (signed32 (crc32 (body m))) := by
    unfold signed32; split
    · rfl
    · rw [be_mod4]
  have hbody : body m = be 1 mg ++ (be 1 at' ++ (sized 4 (attr m "key") ++
      sized 4 (attr m "value"))) := by
    unfold body; rw [hmg, hat]; simp [intOf]
  generalize hcr : signed32 (crc32 (body m)) = cr at *
  generalize attr m "key" = k at *
  generalize attr m "value" = w at *
  have hms : message m = be 4 cr ++ (be 1 mg ++ (be 1 at' ++ (sized 4 k ++ sized 4 w))) := by
    rw [message, hbe, hbody]
  have hlen : (message m).length = 4 + (1 + (1 + ((sized 4 k).length + (sized 4 w).length))) := by
    rw [hms]; simp [be_length]
  have hbuf : pre ++ (message m ++ suf) = pre ++ (be 4 cr ++ (be 1 mg ++ (be 1 at' ++
      (sized 4 k ++ (sized 4 w ++ suf))))) := by
    rw [hms]; simp
  have h1 := parseInt_be (n := 4) (by norm_num) fc pre
    (be 1 mg ++ (be 1 at' ++ (sized 4 k ++ (sized 4 w ++ suf))))
  have h2 := parseInt_be (n := 1) (by norm_num) fmg (pre ++ be 4 cr)
    (be 1 at' ++ (sized 4 k ++ (sized 4 w ++ suf)))
  have h3 := parseInt_be (n := 1) (by norm_num) fat (pre ++ be 4 cr ++ be 1 mg)
    (sized 4 k ++ (sized 4 w ++ suf))
  have h4 := parseVar_sized (n := 4) (by norm_num) hk
    (pre ++ be 4 cr ++ be 1 mg ++ be 1 at') (sized 4 w ++ suf)
  have h5 := parseVar_sized (n := 4) (by norm_num) hv
    (pre ++ be 4 cr ++ be 1 mg ++ be 1 at' ++ sized 4 k) suf
  simp only [List.append_assoc, List.length_append, be_length] at h1 h2 h3 h4 h5
  simp only [← Nat.add_assoc] at h1 h2 h3 h4 h5
  simp only [parseMessageParts, hbuf, h1, h2, h3, h4, h5, hmg, hat, hlen]
  congr 2
  omega

/-- Parsing of an uncompressed entry. -/
theorem parseSetEntry_plain {cx : Codec} {i : Int} {m : Val} (hi : Fits 8 i)
    (h : MessageOk m) (ha : attr m "attributes" = .int 0) (pre suf : Bytes) :
    parseSetEntry cx (pre ++ (entry (.int i, m) ++ suf)) pre.length =
      .ok (.int i, [("crc", .int (signed32 (crc32 (body m)))), ("magic", attr m "magic"),
        ("attributes", .int 0), ("key", sizedValue (attr m "key")),
        ("value", sizedValue (attr m "value"))], pre.length + (entry (.int i, m)).length) := by
  have hs := h.size
  have hbuf : pre ++ (entry (.int i, m) ++ suf) =
      pre ++ (be 8 i ++ (be 4 (message m).length ++ (message m ++ suf))) := by
    simp [entry, intOf]
  have hlen : (entry (.int i, m)).length = 8 + 4 + (message m).length := by
    simp [entry, be_length]; omega
  have h1 := parseInt_be (n := 8) (by norm_num) hi pre
    (be 4 (message m).length ++ (message m ++ suf))
  have h2 := parseInt_be (n := 4) (by norm_num) (fits_nat (n := 4) hs) (pre ++ be 8 i)
    (message m ++ suf)
  have h3 := parseMessageParts_message h (pre ++ be 8 i ++ be 4 (message m).length) suf
  simp only [List.append_assoc, List.length_append, be_length] at h1 h2 h3
  simp only [← Nat.add_assoc] at h1 h2 h3
  simp only [parseSetEntry, hbuf, h1, h2, parseMessage, h3, ha]
  simp only [getAttr, Dict.get?, Val.toInt]
  simp [hlen]
  omega

theorem entry_length_pos (e : Val × Val) : 0 < (entry e).length := by
  simp [entry, be_length]

/-- Parsing of a whole uncompressed set. -/
theorem parseSetLoop_plain {cx : Codec} {nested : Bytes → Res (List (Val × Val))}
    {ms : List (Val × Val)}
    (h : ∀ e ∈ ms, (∃ i, e.1 = .int i ∧ Fits 8 i) ∧ MessageOk e.2 ∧
        attr e.2 "attributes" = .int 0)
    (pre suf : Bytes) (fuel : Nat) (hf : ms.length < fuel) :
    parseSetLoop cx nested (pre ++ (entries ms ++ suf))
        ((pre.length : Int) + (entries ms).length) fuel pre.length =
      .ok (ms.map (fun e => (e.1, messageValue e.2)), pre.length + (entries ms).length) := by
  induction ms generalizing pre fuel with
  | nil =>
    obtain ⟨k, rfl⟩ : ∃ k, fuel = k + 1 := ⟨fuel - 1, by simp at hf; omega⟩
    simp [parseSetLoop, entries]
  | cons e r ih =>
    obtain ⟨o, m⟩ := e
    obtain ⟨⟨i, hi, fi⟩, hm, ha⟩ := h (o, m) (by simp)
    simp only at hi hm ha
    subst hi
    obtain ⟨k, rfl⟩ : ∃ k, fuel = k + 1 := ⟨fuel - 1, by simp at hf; omega⟩
    have he : entries ((.int i, m) :: r) = entry (.int i, m) ++ entries r := by
      simp [entries]
    have hp := entry_length_pos (.int i, m)
    have h1 := parseSetEntry_plain (cx := cx) fi hm ha pre (entries r ++ suf)
    have h2 := ih (fun e he => h e (by simp [he])) (pre ++ entry (.int i, m)) k
      (by simp at hf; omega)
    have hbuf : pre ++ (entries ((.int i, m) :: r) ++ suf) =
        pre ++ (entry (.int i, m) ++ (entries r ++ suf)) := by simp [he]
    simp only [List.append_assoc, List.length_append] at h2
    have hst : (pre.length : Int) + (entries ((.int i, m) :: r)).length =
        ((pre.length + (entry (.int i, m)).length : Nat) : Int) + (entries r).length := by
      rw [he]; simp; omega
    rw [parseSetLoop, if_neg (by rw [he]; simp; omega), hbuf, h1]
    simp only [getAttr, Dict.get?, Val.toInt]
    rw [hst, h2]
    simp [messageValue, ha, he]
    omega

theorem entries_length_ge (ms : List (Val × Val)) : ms.length ≤ (entries ms).length := by
  induction ms with
  | nil => simp
  | cons e r ih =>
    have := entry_length_pos e
    simp only [entries, List.map_cons, List.flatten_cons, List.length_append,
      List.length_cons] at ih ⊢
    omega

theorem parseSet_plain {cx : Codec} {depth : Nat} {ms : List (Val × Val)}
    (hl : (entries ms).length < 2 ^ 31)
    (h : ∀ e ∈ ms, (∃ i, e.1 = .int i ∧ Fits 8 i) ∧ MessageOk e.2 ∧
        attr e.2 "attributes" = .int 0)
    (pre suf : Bytes) :
    parseSet cx depth (pre ++ (be 4 (entries ms).length ++ (entries ms ++ suf))) pre.length =
      .ok (.mset (ms.map (fun e => (e.1, messageValue e.2))),
        pre.length + (4 + (entries ms).length)) := by
  have h1 := unpackInt_be (n := 4) (by norm_num) (fits_nat (n := 4) hl) pre (entries ms ++ suf)
  have hge := entries_length_ge ms
  have h2 := parseSetLoop_plain (cx := cx) (nested := parseNested cx depth) h
    (pre ++ be 4 (entries ms).length) suf
    ((pre ++ (be 4 (entries ms).length ++ (entries ms ++ suf))).length + 1)
    (by simp [be_length]; omega)
  simp only [parseSet, h1]
  simp only [List.append_assoc, List.length_append, be_length] at h2 ⊢
  rw [h2]
  simp only [Nat.add_assoc]

mutual
/-- Parsing the wire format of a well-formed value gives the value as a reader sees it. -/
theorem parse_wire (cx : Codec) (depth : Nat) : ∀ (t : Ty) (v : Val), Ok t v → Plain t v →
    ∀ pre suf, parse cx depth t (pre ++ (wire t v ++ suf)) pre.length =
      .ok (seen t v, pre.length + (wire t v).length)
  | .int8, v, h, _, pre, suf => by
    obtain ⟨i, rfl, fi⟩ := h
    simp only [parse, wire, seen, intOf, be_length]; exact parseInt_be (by norm_num) fi pre suf
  | .int16, v, h, _, pre, suf => by
    obtain ⟨i, rfl, fi⟩ := h
    simp only [parse, wire, seen, intOf, be_length]; exact parseInt_be (by norm_num) fi pre suf
  | .int32, v, h, _, pre, suf => by
    obtain ⟨i, rfl, fi⟩ := h
    simp only [parse, wire, seen, intOf, be_length]; exact parseInt_be (by norm_num) fi pre suf
  | .int64, v, h, _, pre, suf => by
    obtain ⟨i, rfl, fi⟩ := h
    simp only [parse, wire, seen, intOf, be_length]; exact parseInt_be (by norm_num) fi pre suf
  | .string, v, h, _, pre, suf => by
    simp only [parse, wire, seen]; exact parseVar_sized (by norm_num) h pre suf
  | .bytes, v, h, _, pre, suf => by
    simp only [parse, wire, seen]; exact parseVar_sized (by norm_num) h pre suf
  | .array t, v, h, hp, pre, suf => by
    simp only [Ok] at h
    simp only [Plain] at hp
    obtain ⟨_, hl, hx⟩ := h
    generalize hxs : elems v = xs at *
    have key : ∀ xs : List Val, (∀ x ∈ xs, Ok t x) → (∀ x ∈ xs, Plain t x) → ∀ pre : Bytes,
        parseItems (fun b o => parse cx depth t b o)
          (pre ++ ((xs.map (fun x => wire t x)).flatten ++ suf)) xs.length pre.length =
        .ok (xs.map (fun x => seen t x),
          pre.length + ((xs.map (fun x => wire t x)).flatten).length) := by
      intro xs
      induction xs with
      | nil => intro _ _ pre; simp [parseItems]
      | cons x r ih =>
        intro ho hpl pre
        have h1 := parse_wire cx depth t x (ho x (by simp)) (hpl x (by simp)) pre
          ((r.map (fun x => wire t x)).flatten ++ suf)
        have h2 := ih (fun y hy => ho y (by simp [hy])) (fun y hy => hpl y (by simp [hy]))
          (pre ++ wire t x)
        simp only [List.append_assoc, List.length_append] at h2
        simp only [List.map_cons, List.flatten_cons, List.append_assoc, List.length_cons,
          parseItems, h1, h2]
        simp [Nat.add_assoc]
    have h1 := unpackInt_be (n := 4) (by norm_num) (fits_nat (n := 4) hl) pre
      ((xs.map (fun x => wire t x)).flatten ++ suf)
    have h2 := key xs hx hp (pre ++ be 4 xs.length)
    simp only [List.append_assoc, List.length_append, be_length] at h2
    simp only [parse, wire, seen, hxs, List.append_assoc, h1, Int.toNat_natCast, h2,
      List.length_append, be_length, Nat.add_assoc]
  | .part fs, v, h, hp, pre, suf => by
    simp only [Ok] at h
    simp only [Plain] at hp
    have := parseFields_wire cx depth fs v h.2 hp pre suf
    simp only [parse, wire, seen, this]
  | .messageSet, v, h, hp, pre, suf => by
    simp only [Ok] at h
    simp only [Plain] at hp
    obtain ⟨ms, rfl, hl, hm⟩ := h
    have := parseSet_plain (cx := cx) (depth := depth) hl
      (fun e he => ⟨(hm e he).1, (hm e he).2.1, hp e he⟩) pre suf
    simp only [parse, wire, seen, msgs, List.append_assoc, this, List.length_append, be_length]
theorem parseFields_wire (cx : Codec) (depth : Nat) : ∀ (fs : Fields) (v : Val),
    OkFields fs v → PlainFields fs v →
    ∀ pre suf, parseFields cx depth fs (pre ++ (wireFields fs v ++ suf)) pre.length =
      .ok (seenFields fs v, pre.length + (wireFields fs v).length)
  | .nil, v, _, _, pre, suf => by simp [parseFields, wireFields, seenFields]
  | .cons name t rest, v, h, hp, pre, suf => by
    simp only [OkFields] at h
    simp only [PlainFields] at hp
    have h1 := parse_wire cx depth t (attr v name) h.1 hp.1 pre (wireFields rest v ++ suf)
    have h2 := parseFields_wire cx depth rest v h.2 hp.2 (pre ++ wire t (attr v name)) suf
    simp only [List.append_assoc, List.length_append] at h2
    simp only [parseFields, wireFields, seenFields, List.append_assoc, h1, h2,
      List.length_append, Nat.add_assoc]
end

end Kiel
