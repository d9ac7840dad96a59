import Verif.Spec.Encodings
import Verif.Lemmas.Utf8
import Verif.Lemmas.Json
/- UTF-16 and UTF-32 are decoded as what they encode; no byte that ends up in UTF-8 is one of a byte
order mark of theirs. -/
set_option autoImplicit false
namespace Kiel
open Spec

theorem char_range (c : Char) : c.toNat < 0xd800 ∨ (0xe000 ≤ c.toNat ∧ c.toNat < 0x110000) := by
  have h := c.valid
  simp only [UInt32.isValidChar, Nat.isValidChar] at h
  have : c.toNat = c.val.toNat := rfl
  omega

theorem toNat_ofNat_char {n : Nat} (h : n < 0xd800 ∨ (0xe000 ≤ n ∧ n < 0x110000)) :
    (Char.ofNat n).toNat = n := by
  have hv : n.isValidChar := by simp only [Nat.isValidChar]; omega
  simp [Char.ofNat, hv, Char.ofNatAux, Char.toNat]

theorem byte_toNat (n : Nat) : (UInt8.ofNat n).toNat = n % 256 := by
  simp [UInt8.toNat_ofNat']

/-! ### Pairs of bytes and numbers -/

theorem units16_bytes (big : Bool) : ∀ l : List Nat, (∀ n ∈ l, n < 65536) →
    Json.units16 big (l.flatMap (twoBytes big)) = some l
  | [], _ => rfl
  | n :: l, h => by
    have ih := units16_bytes big l fun m hm => h m (List.mem_cons_of_mem _ hm)
    have hn := h n List.mem_cons_self
    rw [List.flatMap_cons]
    cases big <;>
    · simp only [twoBytes, if_true, Bool.false_eq_true, if_false, List.cons_append, List.nil_append,
        Json.units16, ih, Option.map_some, byte_toNat]
      congr 2
      omega

theorem units16_inv (big : Bool) : ∀ (k : Nat) (b : Bytes) (l : List Nat), b.length ≤ k →
    Json.units16 big b = some l → b = l.flatMap (twoBytes big) ∧ ∀ n ∈ l, n < 65536
  | _, [], l, _, h => by
    obtain rfl := Option.some.inj h
    exact ⟨rfl, by simp⟩
  | _, [_], l, _, h => by cases h
  | 0, a :: b :: r, l, hk, _ => by simp at hk
  | k + 1, a :: b :: r, l, hk, h => by
    simp only [Json.units16, Option.map_eq_some_iff] at h
    obtain ⟨l', h1, rfl⟩ := h
    obtain ⟨h2, h3⟩ := units16_inv big k r l' (by simp at hk; omega) h1
    have ha := a.toNat_lt
    have hb := b.toNat_lt
    refine ⟨?_, fun n hn => ?_⟩
    · rw [List.flatMap_cons, ← h2]
      cases big <;>
      · simp only [twoBytes, if_true, Bool.false_eq_true, if_false, List.cons_append, List.nil_append,
          List.cons.injEq, and_true]
        constructor <;> apply UInt8.toNat_inj.1 <;> rw [byte_toNat] <;> omega
    · rcases List.mem_cons.1 hn with rfl | hn
      · split <;> omega
      · exact h3 n hn

theorem units32_bytes (big : Bool) : ∀ l : List Nat, (∀ n ∈ l, n < 0x110000) →
    Json.units32 big (l.flatMap (fourBytes big)) = some l
  | [], _ => rfl
  | n :: l, h => by
    have ih := units32_bytes big l fun m hm => h m (List.mem_cons_of_mem _ hm)
    have hn := h n List.mem_cons_self
    rw [List.flatMap_cons]
    cases big <;>
    · simp only [fourBytes, twoBytes, if_true, Bool.false_eq_true, if_false, List.cons_append,
        List.nil_append, Json.units32, ih, Option.map_some, byte_toNat]
      congr 2
      omega

theorem units32_inv (big : Bool) : ∀ (k : Nat) (b : Bytes) (l : List Nat), b.length ≤ k →
    Json.units32 big b = some l → b = l.flatMap (fourBytes big)
  | _, [], l, _, h => by
    obtain rfl := Option.some.inj h
    rfl
  | _, [_], l, _, h => by cases h
  | _, [_, _], l, _, h => by cases h
  | _, [_, _, _], l, _, h => by cases h
  | 0, a :: b :: c :: d :: r, l, hk, _ => by simp at hk
  | k + 1, a :: b :: c :: d :: r, l, hk, h => by
    simp only [Json.units32, Option.map_eq_some_iff] at h
    obtain ⟨l', h1, rfl⟩ := h
    have h2 := units32_inv big k r l' (by simp at hk; omega) h1
    have ha := a.toNat_lt
    have hb := b.toNat_lt
    have hc := c.toNat_lt
    have hd := d.toNat_lt
    rw [List.flatMap_cons, ← h2]
    cases big <;>
    · simp only [fourBytes, twoBytes, if_true, Bool.false_eq_true, if_false, List.cons_append,
        List.nil_append, List.cons.injEq, and_true]
      refine ⟨?_, ?_, ?_, ?_⟩ <;> apply UInt8.toNat_inj.1 <;> rw [byte_toNat] <;> omega

/-! ### Numbers and characters -/

/-- The code units of a character. -/
def unitsOf (c : Char) : List Nat :=
  if c.toNat < 0x10000 then [c.toNat]
  else [0xd800 + (c.toNat - 0x10000) / 0x400, 0xdc00 + (c.toNat - 0x10000) % 0x400]

theorem unitsOf_lt (c : Char) : ∀ n ∈ unitsOf c, n < 65536 := by
  have := char_range c
  unfold unitsOf
  split <;> simp <;> omega

theorem chars16_units : ∀ t : List Char, Json.chars16 (t.flatMap unitsOf) = some t
  | [] => rfl
  | c :: t => by
    have ih := chars16_units t
    have hc := char_range c
    rw [List.flatMap_cons]
    unfold unitsOf
    split
    · rename_i h
      have h' : c.toNat < 0xd800 ∨ 0xe000 ≤ c.toNat := by omega
      show Json.chars16 (c.toNat :: t.flatMap unitsOf) = _
      cases hl : t.flatMap unitsOf with
      | nil =>
        rw [hl] at ih
        obtain rfl := Option.some.inj ih
        rw [Json.chars16, if_pos h', Char.ofNat_toNat]
      | cons v r => rw [Json.chars16, if_pos h', ← hl, ih, Char.ofNat_toNat]; rfl
    · show Json.chars16 (_ :: _ :: t.flatMap unitsOf) = _
      rw [Json.chars16, if_neg (by omega), if_pos (by omega), ih,
        show 0x10000 + (0xd800 + (c.toNat - 0x10000) / 0x400 - 0xd800) * 0x400 +
          (0xdc00 + (c.toNat - 0x10000) % 0x400 - 0xdc00) = c.toNat by omega, Char.ofNat_toNat]
      rfl

theorem chars16_inv : ∀ (k : Nat) (l : List Nat) (t : List Char), l.length ≤ k →
    (∀ n ∈ l, n < 65536) → Json.chars16 l = some t → l = t.flatMap unitsOf
  | _, [], t, _, _, h => by
    obtain rfl := Option.some.inj h
    rfl
  | _, [u], t, _, hu, h => by
    have hu := hu u List.mem_cons_self
    rw [Json.chars16] at h
    split at h
    · obtain rfl := Option.some.inj h
      have : (Char.ofNat u).toNat = u := toNat_ofNat_char (by omega)
      simp [unitsOf, this, hu]
    · cases h
  | 0, _ :: _ :: _, _, hk, _, _ => by simp at hk
  | k + 1, u :: v :: r, t, hk, hl, h => by
    have hu := hl u (by simp)
    have hv := hl v (by simp)
    have hk' : r.length ≤ k := by simp at hk; omega
    rw [Json.chars16] at h
    split at h
    · simp only [Option.map_eq_some_iff] at h
      obtain ⟨t', h1, rfl⟩ := h
      have := chars16_inv k (v :: r) t' (by simp at hk ⊢; omega)
        (fun n hn => hl n (List.mem_cons_of_mem _ hn)) h1
      have e : (Char.ofNat u).toNat = u := toNat_ofNat_char (by omega)
      rw [this, List.flatMap_cons, unitsOf, e, if_pos hu]
      rfl
    · split at h
      · rename_i h0 h2
        simp only [Option.map_eq_some_iff] at h
        obtain ⟨t', h1, rfl⟩ := h
        have := chars16_inv k r t' hk' (fun n hn => hl n (by simp [hn])) h1
        rw [List.flatMap_cons, unitsOf, toNat_ofNat_char (by omega), if_neg (by omega), ← this]
        simp only [List.cons_append, List.nil_append, List.cons.injEq, and_true]
        omega
      · cases h

theorem chars32_points : ∀ t : List Char, Json.chars32 (t.map Char.toNat) = some t
  | [] => rfl
  | c :: t => by
    rw [List.map_cons, Json.chars32, if_pos (char_range c), chars32_points t, Char.ofNat_toNat]
    rfl

theorem chars32_inv : ∀ (l : List Nat) (t : List Char), Json.chars32 l = some t → l = t.map Char.toNat
  | [], t, h => by
    obtain rfl := Option.some.inj h
    rfl
  | u :: r, t, h => by
    rw [Json.chars32] at h
    split at h
    · rename_i hu
      simp only [Option.map_eq_some_iff] at h
      obtain ⟨t', h1, rfl⟩ := h
      rw [List.map_cons, toNat_ofNat_char hu, ← chars32_inv r t' h1]
    · cases h

/-! ### Text -/

theorem text16 (big : Bool) (t : List Char) :
    (Utf.utf16 big).text t = (t.flatMap unitsOf).flatMap (twoBytes big) := by
  rw [Utf.text, List.flatMap_assoc]
  congr 1
  funext c
  simp only [Utf.char, unitsOf]
  split <;> simp

theorem text32 (big : Bool) (t : List Char) :
    (Utf.utf32 big).text t = (t.map Char.toNat).flatMap (fourBytes big) := by
  rw [Utf.text, List.flatMap_map]
  rfl

theorem text8 (t : List Char) : Utf.utf8.text t = encodeUtf8 (String.ofList t) := by
  rw [encodeUtf8_flat, String.toList_ofList, Utf.text]
  congr 1
  funext c
  simp only [Utf.char]
  rw [encodeUtf8_flat]
  simp

theorem decode16 (big : Bool) (t : List Char) :
    (Json.units16 big ((Utf.utf16 big).text t)).bind Json.chars16 = some t := by
  rw [text16, units16_bytes]
  · exact chars16_units t
  · intro n hn
    obtain ⟨c, _, hc⟩ := List.mem_flatMap.1 hn
    exact unitsOf_lt c n hc

theorem decode32 (big : Bool) (t : List Char) :
    (Json.units32 big ((Utf.utf32 big).text t)).bind Json.chars32 = some t := by
  rw [text32, units32_bytes]
  · exact chars32_points t
  · intro n hn
    obtain ⟨c, _, rfl⟩ := List.mem_map.1 hn
    have := char_range c
    omega

theorem decode8 (t : List Char) : (decodeUtf8 (Utf.utf8.text t)).map String.toList = some t := by
  rw [text8, decode_encode]
  simp

theorem decode16_inv {big : Bool} {b : Bytes} {t : List Char}
    (h : (Json.units16 big b).bind Json.chars16 = some t) : b = (Utf.utf16 big).text t := by
  rw [Option.bind_eq_some_iff] at h
  obtain ⟨l, h1, h2⟩ := h
  obtain ⟨h3, h4⟩ := units16_inv big _ b l le_rfl h1
  rw [text16, ← chars16_inv _ l t le_rfl h4 h2, h3]

theorem decode32_inv {big : Bool} {b : Bytes} {t : List Char}
    (h : (Json.units32 big b).bind Json.chars32 = some t) : b = (Utf.utf32 big).text t := by
  rw [Option.bind_eq_some_iff] at h
  obtain ⟨l, h1, h2⟩ := h
  rw [text32, ← chars32_inv l t h2, units32_inv big _ b l le_rfl h1]

theorem decode8_inv {b : Bytes} {t : List Char} (h : (decodeUtf8 b).map String.toList = some t) :
    b = Utf.utf8.text t := by
  rw [Option.map_eq_some_iff] at h
  obtain ⟨s, h1, rfl⟩ := h
  rw [text8, String.ofList_toList, encode_decode h1]

/-! ### Bytes of UTF-8 -/

theorem utf8_bytes {c : Char} {x : UInt8} (h : x ∈ String.utf8EncodeChar c) :
    x ≠ 0xfe ∧ x ≠ 0xff ∧ (x = 0 → c.toNat = 0) := by
  have k1 : ∀ b : BitVec 8, (UInt8.ofBitVec b &&& 0x1f ||| 0xc0) ≠ 0xfe ∧
      (UInt8.ofBitVec b &&& 0x1f ||| 0xc0) ≠ 0xff ∧ (UInt8.ofBitVec b &&& 0x1f ||| 0xc0) ≠ 0 := by
    decide +kernel
  have k2 : ∀ b : BitVec 8, (UInt8.ofBitVec b &&& 0x3f ||| 0x80) ≠ 0xfe ∧
      (UInt8.ofBitVec b &&& 0x3f ||| 0x80) ≠ 0xff ∧ (UInt8.ofBitVec b &&& 0x3f ||| 0x80) ≠ 0 := by
    decide +kernel
  have k3 : ∀ b : BitVec 8, (UInt8.ofBitVec b &&& 0x0f ||| 0xe0) ≠ 0xfe ∧
      (UInt8.ofBitVec b &&& 0x0f ||| 0xe0) ≠ 0xff ∧ (UInt8.ofBitVec b &&& 0x0f ||| 0xe0) ≠ 0 := by
    decide +kernel
  have k4 : ∀ b : BitVec 8, (UInt8.ofBitVec b &&& 0x07 ||| 0xf0) ≠ 0xfe ∧
      (UInt8.ofBitVec b &&& 0x07 ||| 0xf0) ≠ 0xff ∧ (UInt8.ofBitVec b &&& 0x07 ||| 0xf0) ≠ 0 := by
    decide +kernel
  have wrap : ∀ {y z : UInt8}, y = z → (z ≠ 0xfe ∧ z ≠ 0xff ∧ z ≠ 0) →
      y ≠ 0xfe ∧ y ≠ 0xff ∧ (y = 0 → c.toNat = 0) := by
    rintro y z rfl ⟨h1, h2, h3⟩
    exact ⟨h1, h2, fun h => absurd h h3⟩
  rw [String.utf8EncodeChar_eq_utf8EncodeCharFast] at h
  unfold String.utf8EncodeCharFast at h
  dsimp only at h
  split at h
  · rename_i hv
    simp only [List.mem_singleton] at h
    have hv' : c.toNat ≤ 0x7f := hv
    have hx : x.toNat = c.toNat := by
      rw [h, UInt32.toNat_toUInt8]
      show c.toNat % 2 ^ 8 = _
      omega
    refine ⟨?_, ?_, ?_⟩
    · rintro rfl; simp at hx; omega
    · rintro rfl; simp at hx; omega
    · rintro rfl; simp at hx; omega
  · split at h
    · simp only [List.mem_cons, List.not_mem_nil, or_false] at h
      rcases h with h | h
      · exact wrap h (k1 _)
      · exact wrap h (k2 _)
    · split at h
      · simp only [List.mem_cons, List.not_mem_nil, or_false] at h
        rcases h with h | h | h
        · exact wrap h (k3 _)
        · exact wrap h (k2 _)
        · exact wrap h (k2 _)
      · simp only [List.mem_cons, List.not_mem_nil, or_false] at h
        rcases h with h | h | h | h
        · exact wrap h (k4 _)
        · exact wrap h (k2 _)
        · exact wrap h (k2 _)
        · exact wrap h (k2 _)

/-- What has a byte of a byte order mark of UTF-16 or UTF-32 is not UTF-8. -/
theorem decodeUtf8_mark {b : Bytes} (h : 0xfe ∈ b ∨ 0xff ∈ b) : decodeUtf8 b = .none := by
  cases hd : decodeUtf8 b with
  | none => rfl
  | some s =>
    rw [← encode_decode hd, encodeUtf8_flat] at h
    rcases h with h | h <;> obtain ⟨c, _, hc⟩ := List.mem_flatMap.1 h
    · exact absurd rfl (utf8_bytes hc).1
    · exact absurd rfl (utf8_bytes hc).2.1

/-- Zeros in UTF-8 are zeros in the text. -/
theorem decodeUtf8_zero {b : Bytes} {s : String} (h : decodeUtf8 b = some s) (h0 : 0 ∈ b) :
    ∃ c ∈ s.toList, c.toNat = 0 := by
  rw [← encode_decode h, encodeUtf8_flat] at h0
  obtain ⟨c, h1, h2⟩ := List.mem_flatMap.1 h0
  exact ⟨c, h1, (utf8_bytes h2).2.2 rfl⟩

end Kiel
