import Verif.Lemmas.Wire
/- Byte strings that are never mistaken for text. -/
namespace Kiel

theorem encodeUtf8_flat (s : String) :
    encodeUtf8 s = s.toList.flatMap String.utf8EncodeChar := by
  unfold encodeUtf8
  rw [← String.utf8Encode_toList]
  unfold List.utf8Encode
  simp

/-- The first byte of encoded text starts a character. -/
theorem encodeUtf8_first {s : String} {a : UInt8} {r : Bytes} (h : encodeUtf8 s = a :: r) :
    a.IsUTF8FirstByte := by
  rw [encodeUtf8_flat] at h
  cases hl : s.toList with
  | nil => rw [hl] at h; simp at h
  | cons c cs =>
    rw [hl, List.flatMap_cons] at h
    have hf := @UInt8.isUTF8FirstByte_getElem_zero_utf8EncodeChar c
    rcases hc : String.utf8EncodeChar c with _ | ⟨x, xs⟩
    · exact absurd hc String.utf8EncodeChar_ne_nil
    · simp only [hc, List.getElem_cons_zero] at hf
      rw [hc] at h
      simp only [List.cons_append, List.cons.injEq] at h
      exact h.1 ▸ hf

/-- Bytes starting with a byte that cannot start a character are not text. -/
theorem decodeUtf8_none_first {a : UInt8} {r : Bytes} (h : ¬ a.IsUTF8FirstByte) :
    decodeUtf8 (a :: r) = none := by
  rcases hd : decodeUtf8 (a :: r) with _ | s
  · rfl
  · exact absurd (encodeUtf8_first (encode_decode hd)) h

/-- Neither are bytes starting with an ASCII byte followed by such a byte. -/
theorem decodeUtf8_none_second {a b : UInt8} {r : Bytes} (ha : a < 0x80)
    (h : ¬ b.IsUTF8FirstByte) : decodeUtf8 (a :: b :: r) = none := by
  rcases hd : decodeUtf8 (a :: b :: r) with _ | s
  · rfl
  · exfalso
    have he := encode_decode hd
    rw [encodeUtf8_flat] at he
    cases hl : s.toList with
    | nil => rw [hl] at he; simp at he
    | cons c cs =>
      rw [hl, List.flatMap_cons] at he
      have hc1 : String.utf8EncodeChar c = [a] := by
        revert he
        fun_cases String.utf8EncodeChar c <;> intro he
        · simp only [List.cons_append, List.nil_append, List.cons.injEq] at he
          rw [he.1]
        all_goals
          exfalso
          simp only [List.cons_append, List.cons.injEq] at he
          have h1 := he.1
          rw [← h1] at ha
          simp only [UInt8.lt_iff_toNat_lt, UInt8.toNat_ofNat', UInt8.reduceToNat] at ha
          omega
      rw [hc1] at he
      simp only [List.cons_append, List.nil_append, List.cons.injEq, true_and] at he
      have : encodeUtf8 (String.ofList cs) = b :: r := by
        rw [encodeUtf8_flat]; simpa using he
      exact h (encodeUtf8_first this)

end Kiel
