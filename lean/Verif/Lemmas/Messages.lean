import Verif.Spec.Messages
import Verif.Lemmas.Parse
import Verif.Lemmas.Utf8
/- Message sets: compressed containers, cut-off entries. -/
namespace Kiel
open Spec

/-- The decompression step of `Message.parse`. -/
def inflate (cx : Codec) (kvs : List (String × Val)) : Res (List (String × Val)) :=
  let compression := (getAttr kvs "attributes").toInt % 4
  if compression = 0 then .ok kvs
  else if compression = 1 then
    match gunzipVal cx (getAttr kvs "value") with
    | .error e => .error e
    | .ok b => .ok (Dict.set kvs "value" (.bytes b))
  else if compression = 2 then
    match unsnappyVal cx (getAttr kvs "value") with
    | .error e => .error e
    | .ok b => .ok (Dict.set kvs "value" (.bytes b))
  else .ok kvs

theorem parseMessage_inflate (cx : Codec) (buff : Bytes) (off : Nat) :
    parseMessage cx buff off =
      match parseMessageParts buff off with
      | .error e => .error e
      | .ok (kvs, off) =>
        match inflate cx kvs with
        | .error e => .error e
        | .ok kvs => .ok (kvs, off) := by
  unfold parseMessage
  rcases parseMessageParts buff off with e | ⟨kvs, o⟩
  · rfl
  · simp only [inflate]
    split
    · rfl
    · split
      · rcases gunzipVal cx (getAttr kvs "value") with e | b <;> rfl
      · split
        · rcases unsnappyVal cx (getAttr kvs "value") with e | b <;> rfl
        · rfl

/-- The parts of a message as the parser sees them. -/
def partsOf (m : Val) : List (String × Val) :=
  [("crc", .int (signed32 (crc32 (body m)))), ("magic", attr m "magic"),
    ("attributes", attr m "attributes"), ("key", sizedValue (attr m "key")),
    ("value", sizedValue (attr m "value"))]

/-- Parsing of an entry up to the decompression. -/
theorem parseSetEntry_ok {cx : Codec} {e : Val × Val} (h : EntryOk e) (pre suf : Bytes)
    {kvs} (hi : inflate cx (partsOf e.2) = .ok kvs) :
    parseSetEntry cx (pre ++ (entry e ++ suf)) pre.length =
      .ok (e.1, kvs, pre.length + (entry e).length) := by
  obtain ⟨o, m⟩ := e
  obtain ⟨⟨i, hi', fi⟩, hm⟩ := h
  simp only at hi' hm
  subst hi'
  have hs := hm.size
  have hbuf : pre ++ (entry (.int i, m) ++ suf) =
      pre ++ (be 8 i ++ (be 4 (message m).length ++ (message m ++ suf))) := by
    simp [entry, intOf]
  have hlen : (entry (.int i, m)).length = 8 + 4 + (message m).length := by
    simp [entry, be_length]; omega
  have h1 := parseInt_be (n := 8) (by norm_num) fi pre
    (be 4 (message m).length ++ (message m ++ suf))
  have h2 := parseInt_be (n := 4) (by norm_num) (fits_nat (n := 4) hs) (pre ++ be 8 i)
    (message m ++ suf)
  have h3 := parseMessageParts_message hm (pre ++ be 8 i ++ be 4 (message m).length) suf
  simp only [List.append_assoc, List.length_append, be_length] at h1 h2 h3
  simp only [← Nat.add_assoc] at h1 h2 h3
  rw [← partsOf] at h3
  simp only [parseSetEntry, hbuf, h1, h2, parseMessage_inflate, h3, hi, hlen]
  congr 3
  omega

theorem inflate_plain {cx : Codec} {m : Val} (h : attr m "attributes" = .int 0) :
    inflate cx (partsOf m) = .ok (partsOf m) := by
  simp [inflate, partsOf, h, getAttr, Dict.get?, Val.toInt]

/-- `b` is the compressed form of `raw` for this codec: it decompresses to it and is not
text. -/
def Packed (cx : Codec) (c : Int) (raw b : Bytes) : Prop :=
  decodeUtf8 b = none ∧
  ((c = 1 ∧ cx.gunzip b = .ok raw) ∨ (c = 2 ∧ snappyDecompress cx b = .ok raw))

theorem parseNested_plain {cx : Codec} {depth : Nat} {ms : List (Val × Val)}
    (h : ∀ e ∈ ms, PlainEntry e) :
    parseNested cx (depth + 1) (entries ms) =
      .ok (ms.map (fun e => (e.1, messageValue e.2))) := by
  have hge := entries_length_ge ms
  have h2 := parseSetLoop_plain (cx := cx) (nested := parseNested cx depth) (ms := ms)
    (fun e he => ⟨(h e he).offset, (h e he).message, (h e he).attributes⟩) [] []
    ((entries ms).length + 1) (by omega)
  simp at h2
  simp [parseNested, h2]

/-- An entry and the messages it stands for: what one iteration of the loop does. -/
theorem stored_step {cx : Codec} {depth : Nat} {e : Val × Val} {out}
    (h : Stored (Packed cx) e out) :
    ∃ kvs, (∀ pre suf, parseSetEntry cx (pre ++ (entry e ++ suf)) pre.length =
        .ok (e.1, kvs, pre.length + (entry e).length)) ∧
      entryMessages (parseNested cx (depth + 1)) e.1 kvs =
        .ok (out.map (fun e => (e.1, messageValue e.2))) := by
  cases h with
  | plain h =>
    refine ⟨_, fun pre suf => parseSetEntry_ok h.toEntryOk pre suf (inflate_plain h.attributes),
      ?_⟩
    simp [entryMessages, partsOf, h.attributes, getAttr, Dict.get?, Val.toInt, messageValue]
  | @container _ c b h ha hv hp hin =>
    obtain ⟨hu, hc⟩ := hp
    have hsv : sizedValue (attr e.2 "value") = .bytes b := by
      simp [sizedValue, hv, content, hu]
    have hn := parseNested_plain (cx := cx) (depth := depth) hin
    rcases hc with ⟨rfl, hg⟩ | ⟨rfl, hg⟩
    · refine ⟨Dict.set (partsOf e.2) "value" (.bytes (entries out)), fun pre suf =>
        parseSetEntry_ok h pre suf ?_, ?_⟩
      · simp [inflate, partsOf, ha, getAttr, Dict.get?, Val.toInt, hsv, gunzipVal, hg]
      · simp [entryMessages, partsOf, ha, getAttr, Dict.get?, Dict.set, Val.toInt, hn]
    · refine ⟨Dict.set (partsOf e.2) "value" (.bytes (entries out)), fun pre suf =>
        parseSetEntry_ok h pre suf ?_, ?_⟩
      · simp [inflate, partsOf, ha, getAttr, Dict.get?, Val.toInt, hsv, unsnappyVal, hg]
      · simp [entryMessages, partsOf, ha, getAttr, Dict.get?, Dict.set, Val.toInt, hn]

theorem entries_cons (e : Val × Val) (r : List (Val × Val)) :
    entries (e :: r) = entry e ++ entries r := by simp [entries]

/-- Reading the entries `es` and going on from there. -/
theorem parseSetLoop_stored {cx : Codec} {depth : Nat} {es : List (Val × Val)}
    {outs : List (List (Val × Val))} (h : List.Forall₂ (Stored (Packed cx)) es outs)
    (pre suf : Bytes) (stop : Int) (fuel : Nat)
    (hs : (pre.length : Int) + (entries es).length ≤ stop) :
    parseSetLoop cx (parseNested cx (depth + 1)) (pre ++ (entries es ++ suf)) stop
        (fuel + es.length) pre.length =
      match parseSetLoop cx (parseNested cx (depth + 1)) (pre ++ (entries es ++ suf)) stop
          fuel (pre.length + (entries es).length) with
      | .error e => .error e
      | .ok (rest, off) =>
        .ok (outs.flatten.map (fun e => (e.1, messageValue e.2)) ++ rest, off) := by
  induction h generalizing pre with
  | nil =>
    simp [entries]
    rcases parseSetLoop cx (parseNested cx (depth + 1)) (pre ++ suf) stop fuel pre.length with
      e | ⟨r, o⟩ <;> rfl
  | @cons e out es outs h1 h2 ih =>
    obtain ⟨kvs, hp, hm⟩ := stored_step (depth := depth) h1
    have hpos := entry_length_pos e
    have hbuf : pre ++ (entries (e :: es) ++ suf) =
        pre ++ (entry e ++ (entries es ++ suf)) := by simp [entries_cons]
    have hbuf' : pre ++ (entry e ++ (entries es ++ suf)) =
        (pre ++ entry e) ++ (entries es ++ suf) := by simp
    have hne : (pre.length : Int) ≠ stop := by
      rw [entries_cons] at hs
      simp at hs
      omega
    have ih' := ih (pre ++ entry e) (by rw [entries_cons] at hs; simp at hs ⊢; omega)
    rw [hbuf]
    have hf : fuel + (e :: es).length = (fuel + es.length) + 1 := by simp; omega
    rw [hf, parseSetLoop_succ, if_neg hne, hp pre (entries es ++ suf)]
    simp only [hm]
    rw [hbuf']
    rw [List.length_append] at ih'
    rw [ih']
    have hl : pre.length + (entries (e :: es)).length =
        pre.length + (entry e).length + (entries es).length := by
      simp [entries_cons]; omega
    rw [hl]
    rcases parseSetLoop cx (parseNested cx (depth + 1)) (pre ++ entry e ++ (entries es ++ suf))
      stop fuel (pre.length + (entry e).length + (entries es).length) with e' | ⟨r, o⟩
    · rfl
    · simp

theorem parseInt_mono {n : Nat} {buff suf : Bytes} {off : Nat} {r}
    (h : parseInt n buff off = .ok r) : parseInt n (buff ++ suf) off = .ok r := by
  unfold parseInt unpackInt at h ⊢
  by_cases hl : off + n ≤ buff.length
  · rw [if_pos hl] at h
    rw [if_pos (by simp; omega)]
    rw [List.drop_append_of_le_length (by omega), List.take_append_of_le_length (by simp; omega)]
    exact h
  · rw [if_neg hl] at h; cases h

theorem parseVar_mono {n : Nat} {buff suf : Bytes} {off : Nat} {r}
    (h : parseVar n buff off = .ok r) : parseVar n (buff ++ suf) off = .ok r := by
  unfold parseVar at h ⊢
  have hu : ∀ v, unpackInt n buff off = .ok v → unpackInt n (buff ++ suf) off = .ok v := by
    intro v hv
    unfold unpackInt at hv ⊢
    by_cases hl : off + n ≤ buff.length
    · rw [if_pos hl] at hv
      rw [if_pos (by simp; omega)]
      rw [List.drop_append_of_le_length (by omega),
        List.take_append_of_le_length (by simp; omega)]
      exact hv
    · rw [if_neg hl] at hv; cases hv
  rcases hi : unpackInt n buff off with e | size
  · rw [hi] at h; cases h
  · rw [hu _ hi]
    rw [hi] at h
    simp only at h ⊢
    split at h
    · rename_i hc; rw [if_pos hc]; exact h
    · rename_i hc
      rw [if_neg hc]
      split at h
      · cases h
      · rename_i hc2
        rw [if_neg hc2]
        rcases hb : unpackBytes size.toNat buff (off + n) with e | v
        · rw [hb] at h; cases h
        · have : unpackBytes size.toNat (buff ++ suf) (off + n) = .ok v := by
            unfold unpackBytes at hb ⊢
            by_cases hl : off + n + size.toNat ≤ buff.length
            · rw [if_pos hl] at hb
              rw [if_pos (by simp; omega)]
              rw [List.drop_append_of_le_length (by omega),
                List.take_append_of_le_length (by simp; omega)]
              exact hb
            · rw [if_neg hl] at hb; cases hb
          rw [this]
          rw [hb] at h
          exact h

theorem parseInt_error {n : Nat} {buff : Bytes} {off : Nat} {e}
    (h : parseInt n buff off = .error e) : e = .structError := by
  unfold parseInt unpackInt at h
  split at h
  · rename_i e' h'
    cases h
    split at h'
    · cases h'
    · cases h'; rfl
  · cases h

theorem parseVar_error {n : Nat} {buff : Bytes} {off : Nat} {e}
    (h : parseVar n buff off = .error e) : e = .structError := by
  unfold parseVar at h
  split at h
  · rename_i e' h'
    cases h
    unfold unpackInt at h'
    split at h'
    · cases h'
    · cases h'; rfl
  · simp only at h
    split at h
    · cases h
    · split at h
      · cases h; rfl
      · split at h
        · rename_i h'
          cases h
          unfold unpackBytes at h'
          split at h'
          · cases h'
          · cases h'; rfl
        · split at h <;> cases h

theorem parseMessageParts_mono {buff suf : Bytes} {off : Nat} {r}
    (h : parseMessageParts buff off = .ok r) : parseMessageParts (buff ++ suf) off = .ok r := by
  unfold parseMessageParts at h ⊢
  split at h
  · cases h
  · rename_i _ o1 h1
    rw [parseInt_mono h1]
    split at h
    · cases h
    · rename_i _ o2 h2
      simp only [parseInt_mono h2]
      split at h
      · cases h
      · rename_i _ o3 h3
        simp only [parseInt_mono h3]
        split at h
        · cases h
        · rename_i _ o4 h4
          simp only [parseVar_mono h4]
          split at h
          · cases h
          · rename_i _ o5 h5
            simp only [parseVar_mono h5]
            exact h

theorem parseMessageParts_error {buff : Bytes} {off : Nat} {e}
    (h : parseMessageParts buff off = .error e) : e = .structError := by
  unfold parseMessageParts at h
  split at h
  · rename_i h1; cases h; exact parseInt_error h1
  · split at h
    · rename_i h1; cases h; exact parseInt_error h1
    · split at h
      · rename_i h1; cases h; exact parseInt_error h1
      · split at h
        · rename_i h1; cases h; exact parseVar_error h1
        · split at h
          · rename_i h1; cases h; exact parseVar_error h1
          · cases h

/-- A cut-off entry at the end of the buffer raises `struct.error`. -/
theorem parseSetEntry_cut {cx : Codec} {e : Val × Val} (h : EntryOk e) (pre : Bytes) {k : Nat}
    (hk : k < (entry e).length) :
    ∃ o, parseSetEntry cx (pre ++ (entry e).take k) pre.length = .error (.structError, o) := by
  obtain ⟨o, m⟩ := e
  obtain ⟨⟨i, hi', fi⟩, hm⟩ := h
  simp only at hi' hm
  subst hi'
  have hs := hm.size
  have hfull : (pre ++ (entry (.int i, m)).take k) ++ (entry (.int i, m)).drop k =
      pre ++ (be 8 i ++ (be 4 (message m).length ++ (message m ++ []))) := by
    rw [List.append_assoc, List.take_append_drop]
    simp [entry, intOf]
  have hlen : (entry (.int i, m)).length = 8 + 4 + (message m).length := by
    simp [entry, be_length]; omega
  have h1 := parseInt_be (n := 8) (by norm_num) fi pre
    (be 4 (message m).length ++ (message m ++ []))
  have h2 := parseInt_be (n := 4) (by norm_num) (fits_nat (n := 4) hs) (pre ++ be 8 i)
    (message m ++ [])
  have h3 := parseMessageParts_message hm (pre ++ be 8 i ++ be 4 (message m).length) []
  simp only [List.append_assoc, List.length_append, be_length] at h1 h2 h3
  simp only [← Nat.add_assoc] at h1 h2 h3
  rw [← hfull] at h1 h2 h3
  unfold parseSetEntry
  rcases p1 : parseInt 8 (pre ++ (entry (.int i, m)).take k) pre.length with e1 | ⟨v1, o1⟩
  · exact ⟨_, by rw [parseInt_error p1]⟩
  · have q1 := parseInt_mono (suf := (entry (.int i, m)).drop k) p1
    rw [h1] at q1; cases q1
    simp only
    rcases p2 : parseInt 4 (pre ++ (entry (.int i, m)).take k) (pre.length + 8) with
      e2 | ⟨v2, o2⟩
    · exact ⟨_, by rw [parseInt_error p2]⟩
    · have q2 := parseInt_mono (suf := (entry (.int i, m)).drop k) p2
      rw [h2] at q2; cases q2
      simp only [parseMessage_inflate]
      rcases p3 : parseMessageParts (pre ++ (entry (.int i, m)).take k) (pre.length + 8 + 4) with
        e3 | ⟨v3, o3⟩
      · exact ⟨_, by rw [parseMessageParts_error p3]⟩
      · exfalso
        have q3 := parseMessageParts_mono (suf := (entry (.int i, m)).drop k) p3
        rw [h3] at q3
        have hb := (parseMessageParts_bounds p3).2
        cases q3
        simp at hb
        omega

/-- Reading of a set cut off at the end of the buffer. -/
theorem parseSet_cut {cx : Codec} {depth : Nat} {es : List (Val × Val)}
    {outs : List (List (Val × Val))} (h : List.Forall₂ (Stored (Packed cx)) es outs)
    {e : Val × Val} (he : EntryOk e) {k : Nat} (hk : k < (entry e).length)
    (hl : (entries es).length + k < 2 ^ 31) (pre : Bytes) :
    ∃ o, parseSet cx (depth + 1) (pre ++ cutSet es e k) pre.length =
      .ok (.mset (outs.flatten.map (fun e => (e.1, messageValue e.2))), o) := by
  have htk : ((entry e).take k).length = k := by simp; omega
  have hn : (entries es ++ (entry e).take k).length = (entries es).length + k := by
    simp; omega
  have h1 := unpackInt_be (n := 4) (by norm_num)
    (fits_nat (n := 4) (k := (entries es ++ (entry e).take k).length) (by rw [hn]; exact hl)) pre
    (entries es ++ (entry e).take k)
  have hge := entries_length_ge es
  set buff := pre ++ cutSet es e k with hbuf
  have hb : buff = (pre ++ be 4 (entries es ++ (entry e).take k).length) ++
      (entries es ++ (entry e).take k) := by simp [hbuf, cutSet]
  have hbl : buff.length = pre.length + 4 + (entries es).length + k := by
    rw [hb]; simp [be_length]; omega
  have h2 := parseSetLoop_stored (cx := cx) (depth := depth) h
    (pre ++ be 4 (entries es ++ (entry e).take k).length) ((entry e).take k)
    ((pre.length + 4 : Nat) + ((entries es ++ (entry e).take k).length : Nat))
    (buff.length + 1 - es.length) (by simp [be_length])
  rw [← hb] at h2
  have hfu : buff.length + 1 - es.length + es.length = buff.length + 1 := by omega
  rw [hfu] at h2
  simp only [List.length_append, be_length] at h2
  have hlast : ∃ o, parseSetLoop cx (parseNested cx (depth + 1)) buff
      ((pre.length + 4 : Nat) + ((entries es ++ (entry e).take k).length : Nat))
      (buff.length + 1 - es.length) (pre.length + 4 + (entries es).length) = .ok ([], o) := by
    obtain ⟨f, hf⟩ : ∃ f, buff.length + 1 - es.length = f + 1 :=
      ⟨buff.length - es.length, by omega⟩
    rw [hf, parseSetLoop_succ]
    by_cases hz : k = 0
    · rw [if_pos (by rw [hn]; push_cast; omega)]
      exact ⟨_, rfl⟩
    · rw [if_neg (by rw [hn]; push_cast; omega)]
      obtain ⟨o, ho⟩ := parseSetEntry_cut (cx := cx) he
        (pre ++ be 4 (entries es ++ (entry e).take k).length ++ entries es) hk
      have : pre ++ be 4 (entries es ++ (entry e).take k).length ++ entries es ++
          (entry e).take k = buff := by rw [hb]; simp
      rw [this] at ho
      have hl2 : (pre ++ be 4 (entries es ++ (entry e).take k).length ++ entries es).length =
          pre.length + 4 + (entries es).length := by simp [be_length]; omega
      rw [hl2] at ho
      rw [ho]
      exact ⟨o, rfl⟩
  obtain ⟨o, ho⟩ := hlast
  simp only [List.length_append] at ho
  rw [ho] at h2
  refine ⟨o, ?_⟩
  have hb2 : buff = pre ++ (be 4 (entries es ++ (entry e).take k).length ++
      (entries es ++ (entry e).take k)) := by simp [hbuf, cutSet]
  simp only [parseSet]
  rw [hb2, h1, ← hb2]
  simp only [List.length_append]
  rw [h2]
  simp

/-- Reading of a complete set, anywhere in the buffer. -/
theorem parseSet_stored {cx : Codec} {depth : Nat} {es : List (Val × Val)}
    {outs : List (List (Val × Val))} (h : List.Forall₂ (Stored (Packed cx)) es outs)
    (hl : (entries es).length < 2 ^ 31) (pre suf : Bytes) :
    parseSet cx (depth + 1) (pre ++ (be 4 (entries es).length ++ (entries es ++ suf)))
        pre.length =
      .ok (.mset (outs.flatten.map (fun e => (e.1, messageValue e.2))),
        pre.length + (4 + (entries es).length)) := by
  have h1 := unpackInt_be (n := 4) (by norm_num) (fits_nat (n := 4) hl) pre (entries es ++ suf)
  have hge := entries_length_ge es
  set buff := pre ++ (be 4 (entries es).length ++ (entries es ++ suf)) with hbuf
  have hb : buff = (pre ++ be 4 (entries es).length) ++ (entries es ++ suf) := by simp [hbuf]
  have hbl : buff.length = pre.length + 4 + (entries es).length + suf.length := by
    rw [hb]; simp [be_length]; omega
  have h2 := parseSetLoop_stored (cx := cx) (depth := depth) h
    (pre ++ be 4 (entries es).length) suf
    ((pre.length + 4 : Nat) + ((entries es).length : Nat))
    (buff.length + 1 - es.length) (by simp [be_length])
  rw [← hb] at h2
  have hfu : buff.length + 1 - es.length + es.length = buff.length + 1 := by omega
  rw [hfu] at h2
  simp only [List.length_append, be_length] at h2
  obtain ⟨f, hf⟩ : ∃ f, buff.length + 1 - es.length = f + 1 :=
      ⟨buff.length - es.length, by omega⟩
  rw [hf, parseSetLoop_succ (off := pre.length + 4 + (entries es).length),
    if_pos (by push_cast; omega)] at h2
  simp only [parseSet]
  rw [h1]
  simp only
  rw [h2]
  simp [Nat.add_assoc]

end Kiel

namespace Kiel
open Spec

/-- A nested set that was cut off. -/
theorem parseNested_cut {cx : Codec} {depth : Nat} {ms : List (Val × Val)}
    (h : ∀ e ∈ ms, PlainEntry e) {e : Val × Val} (he : EntryOk e) {k : Nat}
    (hk : k < (entry e).length) :
    parseNested cx (depth + 2) (entries ms ++ (entry e).take k) =
      .ok (ms.map (fun e => (e.1, messageValue e.2))) := by
  have hge := entries_length_ge ms
  have hst : List.Forall₂ (Stored (Packed cx)) ms (ms.map fun e => [e]) := by
    clear hge
    induction ms with
    | nil => exact .nil
    | cons m l ih => exact .cons (.plain (h m (by simp))) (ih fun m hm => h m (by simp [hm]))
  have htk : ((entry e).take k).length = k := by simp; omega
  set buff := entries ms ++ (entry e).take k with hbuf
  have hbl : buff.length = (entries ms).length + k := by rw [hbuf]; simp; omega
  have h2 := parseSetLoop_stored (cx := cx) (depth := depth) hst [] ((entry e).take k)
    buff.length (buff.length + 1 - ms.length) (by simp [hbl])
  have hfu : buff.length + 1 - ms.length + ms.length = buff.length + 1 := by omega
  simp only [List.nil_append, List.length_nil, Nat.zero_add, hfu, ← hbuf] at h2
  have hlast : ∃ o, parseSetLoop cx (parseNested cx (depth + 1)) buff buff.length
      (buff.length + 1 - ms.length) (entries ms).length = .ok ([], o) := by
    obtain ⟨f, hf⟩ : ∃ f, buff.length + 1 - ms.length = f + 1 :=
      ⟨buff.length - ms.length, by omega⟩
    rw [hf, parseSetLoop_succ]
    by_cases hz : k = 0
    · rw [if_pos (by omega)]
      exact ⟨_, rfl⟩
    · rw [if_neg (by omega)]
      obtain ⟨o, ho⟩ := parseSetEntry_cut (cx := cx) he (entries ms) hk
      rw [ho]
      exact ⟨o, rfl⟩
  obtain ⟨o, ho⟩ := hlast
  rw [ho] at h2
  have hfl : (ms.map fun e => [e]).flatten = ms := by
    clear * -
    induction ms with
    | nil => rfl
    | cons m l ih => simp [ih]
  rw [hfl] at h2
  simp only [List.append_nil] at h2
  rw [parseNested, h2]

/-- Reading of a set holding one container, whatever is in it. -/
theorem parseSet_container {cx : Codec} {depth : Nat} {e : Val × Val} {c : Int} {b raw : Bytes}
    {out} (h : EntryOk e) (ha : attr e.2 "attributes" = .int c)
    (hv : attr e.2 "value" = .bytes b) (hp : Packed cx c raw b)
    (hn : parseNested cx depth raw = .ok out) (hl : (entry e).length < 2 ^ 31)
    (pre suf : Bytes) :
    parseSet cx depth (pre ++ (be 4 (entry e).length ++ (entry e ++ suf))) pre.length =
      .ok (.mset out, pre.length + (4 + (entry e).length)) := by
  obtain ⟨hu, hc⟩ := hp
  have hsv : sizedValue (attr e.2 "value") = .bytes b := by
    simp [sizedValue, hv, content, hu]
  have h1 := unpackInt_be (n := 4) (by norm_num) (fits_nat (n := 4) hl) pre (entry e ++ suf)
  have hpos := entry_length_pos e
  have step : ∃ kvs, (∀ pre suf, parseSetEntry cx (pre ++ (entry e ++ suf)) pre.length =
        .ok (e.1, kvs, pre.length + (entry e).length)) ∧
      entryMessages (parseNested cx depth) e.1 kvs = .ok out := by
    rcases hc with ⟨rfl, hg⟩ | ⟨rfl, hg⟩
    · refine ⟨Dict.set (partsOf e.2) "value" (.bytes raw), fun pre suf =>
        parseSetEntry_ok h pre suf ?_, ?_⟩
      · simp [inflate, partsOf, ha, getAttr, Dict.get?, Val.toInt, hsv, gunzipVal, hg]
      · simp [entryMessages, partsOf, ha, getAttr, Dict.get?, Dict.set, Val.toInt, hn]
    · refine ⟨Dict.set (partsOf e.2) "value" (.bytes raw), fun pre suf =>
        parseSetEntry_ok h pre suf ?_, ?_⟩
      · simp [inflate, partsOf, ha, getAttr, Dict.get?, Val.toInt, hsv, unsnappyVal, hg]
      · simp [entryMessages, partsOf, ha, getAttr, Dict.get?, Dict.set, Val.toInt, hn]
  obtain ⟨kvs, hs, hm⟩ := step
  have hs' := hs (pre ++ be 4 (entry e).length) suf
  set buff := pre ++ (be 4 (entry e).length ++ (entry e ++ suf)) with hbuf
  have hb : pre ++ be 4 (entry e).length ++ (entry e ++ suf) = buff := by simp [hbuf]
  have hbl : buff.length = pre.length + 4 + (entry e).length + suf.length := by
    rw [← hb]; simp [be_length]; omega
  rw [hb, List.length_append, be_length] at hs'
  simp only [parseSet, h1]
  obtain ⟨f, hf⟩ : ∃ f, buff.length = f + 1 := ⟨buff.length - 1, by omega⟩
  rw [parseSetLoop_succ, if_neg (by push_cast; omega), hs']
  simp only [hm]
  rw [hf, parseSetLoop_succ, if_pos (by push_cast; omega)]
  simp [Nat.add_assoc]

end Kiel
