import Verif.Lemmas.Encodings
import Verif.Props.JsonText
/- C115: JSON in UTF-16 and UTF-32, and with a byte order mark. -/
set_option autoImplicit false
namespace Kiel
open Spec

/-! ### JSON text begins with ASCII and has no zeros -/

/-- A text as JSON's: it begins with an ASCII character, and there are no zeros. -/
structure Plain (t : List Char) : Prop where
  first : ∃ c r, t = c :: r ∧ c.toNat < 128
  zeros : ∀ c ∈ t, c.toNat ≠ 0

theorem mem_commas {c : Char} : ∀ {l : List (List Char)}, c ∈ commas l → c = ',' ∨ ∃ x ∈ l, c ∈ x
  | [], h => by cases h
  | [x], h => .inr ⟨x, by simp, h⟩
  | x :: y :: r, h => by
    simp only [commas, List.mem_append, List.mem_cons] at h
    rcases h with h | h | h
    · exact .inr ⟨x, by simp, h⟩
    · exact .inl h
    · rcases mem_commas h with h | ⟨z, hz, h⟩
      · exact .inl h
      · exact .inr ⟨z, List.mem_cons_of_mem _ hz, h⟩

theorem blank_zero {w : List Char} (h : Blank w) : ∀ c ∈ w, c.toNat ≠ 0 := by
  intro c hc
  rcases h c hc with rfl | rfl | rfl | rfl <;> decide

theorem hexDigit_zero {c : Char} {n : Nat} (h : HexDigit c n) : c.toNat ≠ 0 := by
  have key : ∀ l : List Char, (∀ x ∈ l, x.toNat ≠ 0) → l[n]? = some c → c.toNat ≠ 0 :=
    fun l hl hc => hl c (List.mem_of_getElem? hc)
  rcases h with h | h
  · exact key _ (by decide) h
  · exact key _ (by decide) h

theorem hex4_zero {t : List Char} {n : Nat} (h : Hex4 t n) : ∀ c ∈ t, c.toNat ≠ 0 := by
  obtain ⟨a, b, c, d, w, x, y, z, ha, hb, hc, hd⟩ := h
  simp only [List.mem_cons, List.not_mem_nil, or_false]
  rintro e (rfl | rfl | rfl | rfl)
  · exact hexDigit_zero ha
  · exact hexDigit_zero hb
  · exact hexDigit_zero hc
  · exact hexDigit_zero hd

theorem charText_zero {t : List Char} {c : Char} (h : CharText t c) : ∀ d ∈ t, d.toNat ≠ 0 := by
  cases h with
  | raw _ h _ _ =>
    intro d hd
    rw [List.mem_singleton] at hd
    subst hd
    omega
  | unit t _ h =>
    intro d hd
    simp only [List.mem_cons] at hd
    rcases hd with rfl | rfl | hd
    · decide
    · decide
    · exact hex4_zero h d hd
  | pair t t' _ _ _ h h' _ _ _ =>
    intro d hd
    simp only [List.mem_cons, List.mem_append] at hd
    rcases hd with rfl | rfl | hd | rfl | rfl | hd
    · decide
    · decide
    · exact hex4_zero h d hd
    · decide
    · decide
    · exact hex4_zero h' d hd
  | _ => decide

theorem stringText_zero {t s : List Char} (h : StringText t s) : ∀ d ∈ t, d.toNat ≠ 0 := by
  induction h with
  | nil => simp
  | cons a c t s h hs ih =>
    intro d hd
    rcases List.mem_append.1 hd with hd | hd
    · exact charText_zero h d hd
    · exact ih d hd

theorem digits_range {ds : List Char} (h : Digits ds) : ∀ c ∈ ds, 48 ≤ c.toNat ∧ c.toNat < 128 := by
  intro c hc
  obtain ⟨h1, h2⟩ := h.2 c hc
  have h1' : 48 ≤ c.toNat := h1
  have h2' : c.toNat ≤ 57 := h2
  omega

theorem digits_plain {ds : List Char} (h : Digits ds) : Plain ds := by
  have hr := digits_range h
  cases ds with
  | nil => exact absurd rfl h.1
  | cons c r =>
    exact ⟨⟨c, r, rfl, (hr c List.mem_cons_self).2⟩, fun d hd => by have := hr d hd; omega⟩

theorem plain_cons {c : Char} {r : List Char} (h1 : 0 < c.toNat) (h2 : c.toNat < 128)
    (h3 : ∀ d ∈ r, d.toNat ≠ 0) : Plain (c :: r) :=
  ⟨⟨c, r, rfl, h2⟩, fun d hd => by
    rcases List.mem_cons.1 hd with rfl | hd
    · omega
    · exact h3 d hd⟩

theorem plain_append {t r : List Char} (h : Plain t) (h3 : ∀ d ∈ r, d.toNat ≠ 0) : Plain (t ++ r) := by
  obtain ⟨⟨c, s, rfl, hc⟩, hz⟩ := h
  exact ⟨⟨c, s ++ r, rfl, hc⟩, fun d hd => (List.mem_append.1 hd).elim (hz d) (h3 d)⟩

theorem ends_zero {t : List Char} {c : Char} (h : ∀ d ∈ t, d.toNat ≠ 0) (hc : c.toNat ≠ 0) :
    ∀ d ∈ t ++ [c], d.toNat ≠ 0 := by
  intro d hd
  rcases List.mem_append.1 hd with hd | hd
  · exact h d hd
  · rw [List.mem_singleton] at hd
    rwa [hd]

theorem commas_zero {l : List (List Char)} (h : ∀ x ∈ l, ∀ d ∈ x, d.toNat ≠ 0) :
    ∀ d ∈ commas l, d.toNat ≠ 0 := by
  intro d hd
  rcases mem_commas hd with rfl | ⟨x, hx, hd⟩
  · decide
  · exact h x hx d hd

theorem jsonText_plain {t : List Char} {v : Json} (h : JsonText pyConstants t v) : Plain t := by
  induction h with
  | null => exact plain_cons (by decide) (by decide) (by decide)
  | true => exact plain_cons (by decide) (by decide) (by decide)
  | false => exact plain_cons (by decide) (by decide) (by decide)
  | nat ds h => exact digits_plain h.1
  | neg ds h => exact plain_cons (by decide) (by decide) (digits_plain h.1).zeros
  | float sign ds f e hs h hf he _ =>
    refine plain_append (plain_append ?_ ?_) ?_
    · rcases hs with rfl | rfl
      · exact digits_plain h.1
      · exact plain_cons (by decide) (by decide) (digits_plain h.1).zeros
    · rcases hf with rfl | ⟨ds', rfl, hd⟩
      · simp
      · exact (plain_cons (by decide) (by decide) (digits_plain hd).zeros).zeros
    · rcases he with rfl | ⟨c, s, ds', rfl, hc, hs', hd⟩
      · simp
      · intro d hd'
        simp only [List.mem_cons, List.mem_append] at hd'
        rcases hd' with rfl | hd' | hd'
        · rcases hc with rfl | rfl <;> decide
        · rcases hs' with rfl | rfl | rfl
          · cases hd'
          · rw [List.mem_singleton] at hd'; subst hd'; decide
          · rw [List.mem_singleton] at hd'; subst hd'; decide
        · exact (digits_plain hd).zeros d hd'
  | const t h =>
    simp only [pyConstants, List.mem_cons, List.not_mem_nil, or_false] at h
    rcases h with rfl | rfl | rfl <;> exact plain_cons (by decide) (by decide) (by decide)
  | str t s h => exact plain_cons (by decide) (by decide) (ends_zero (stringText_zero h) (by decide))
  | arrEmpty w h => exact plain_cons (by decide) (by decide) (ends_zero (blank_zero h) (by decide))
  | arr ps _ hw _ ih =>
    refine plain_cons (by decide) (by decide) (ends_zero (commas_zero fun x hx => ?_) (by decide))
    obtain ⟨p, hp, rfl⟩ := List.mem_map.1 hx
    intro d hd
    simp only [Item.whole, List.mem_append] at hd
    rcases hd with (hd | hd) | hd
    · exact blank_zero (hw p hp).1 d hd
    · exact (ih p hp).zeros d hd
    · exact blank_zero (hw p hp).2 d hd
  | objEmpty w h => exact plain_cons (by decide) (by decide) (ends_zero (blank_zero h) (by decide))
  | obj ps kvs _ hw _ _ ih =>
    refine plain_cons (by decide) (by decide) (ends_zero (commas_zero fun x hx => ?_) (by decide))
    obtain ⟨p, hp, rfl⟩ := List.mem_map.1 hx
    obtain ⟨h1, h2, h3, h4, h5⟩ := hw p hp
    intro d hd
    simp only [NamedItem.whole, Item.whole, List.mem_append, List.mem_cons] at hd
    rcases hd with ((hd | rfl | hd) | rfl | hd) | rfl | (hd | hd) | hd
    · exact blank_zero h1 d hd
    · decide
    · exact stringText_zero h2 d hd
    · decide
    · exact blank_zero h3 d hd
    · decide
    · exact blank_zero h4 d hd
    · exact (ih p hp).zeros d hd
    · exact blank_zero h5 d hd

theorem document_plain {t : List Char} {v : Json} (h : JsonDocument pyConstants t v) : Plain t := by
  obtain ⟨pre, text, post, rfl, h1, h2, h3⟩ := h
  have hp := jsonText_plain h3
  refine plain_append ?_ (blank_zero h2)
  cases pre with
  | nil => exact hp
  | cons c pre =>
    have hc := h1 c List.mem_cons_self
    refine plain_cons ?_ ?_ fun d hd => (List.mem_append.1 hd).elim
      (blank_zero h1 d ∘ List.mem_cons_of_mem _) (hp.zeros d)
    · rcases hc with rfl | rfl | rfl | rfl <;> decide
    · rcases hc with rfl | rfl | rfl | rfl <;> decide

/-! ### The encoding is detected -/

theorem byte_ne {n m : Nat} (h : n % 256 ≠ m % 256) : UInt8.ofNat n ≠ UInt8.ofNat m := by
  intro e
  have := congrArg UInt8.toNat e
  rw [byte_toNat, byte_toNat] at this
  exact h this

theorem utf16_begins (big : Bool) (d : Char) (hd : d.toNat ≠ 0) :
    ∃ x y r, (Utf.utf16 big).char d = x :: y :: r ∧ (x ≠ 0 ∨ y ≠ 0) := by
  have hr := char_range d
  have key : ∀ n : Nat, 0 < n → n < 65536 → UInt8.ofNat n ≠ 0 ∨ UInt8.ofNat (n / 256) ≠ 0 := by
    intro n h0 h1
    by_cases h : n % 256 = 0
    · exact .inr (byte_ne (m := 0) (by omega))
    · exact .inl (byte_ne (m := 0) (by omega))
  simp only [Utf.char]
  split
  · rename_i h
    cases big
    · exact ⟨_, _, [], rfl, key _ (by omega) h⟩
    · exact ⟨_, _, [], rfl, (key _ (by omega) h).symm⟩
  · cases big
    · exact ⟨_, _, _, rfl, key _ (by omega) (by omega)⟩
    · exact ⟨_, _, _, rfl, (key _ (by omega) (by omega)).symm⟩

theorem utf8_begins (d : Char) (hd : d.toNat ≠ 0) : ∃ x r, Utf.utf8.char d = x :: r ∧ x ≠ 0 := by
  have h0 : Utf.utf8.char d = String.utf8EncodeChar d := by
    simp only [Utf.char]
    rw [encodeUtf8_flat]
    simp
  rw [h0]
  cases h : String.utf8EncodeChar d with
  | nil => exact absurd h String.utf8EncodeChar_ne_nil
  | cons x r =>
    refine ⟨x, r, rfl, fun e => hd ((utf8_bytes (c := d) (x := x) ?_).2.2 e)⟩
    rw [h]
    exact List.mem_cons_self

theorem utf8_ascii (c : Char) (hc : c.toNat < 128) : Utf.utf8.char c = [UInt8.ofNat c.toNat] := by
  have h0 : Utf.utf8.char c = String.utf8EncodeChar c := by
    simp only [Utf.char]
    rw [encodeUtf8_flat]
    simp
  rw [h0, String.utf8EncodeChar_eq_utf8EncodeCharFast]
  unfold String.utf8EncodeCharFast
  have h : c.val ≤ 0x7f := Nat.lt_succ_iff.1 hc
  dsimp only
  rw [if_pos h]
  congr 1

theorem detect_big16 {c : UInt8} (hc : c ≠ 0) (r : Bytes) (hr : r.length ≠ 1) :
    Json.detectEncoding (0 :: c :: r) = .utf16be := by
  unfold Json.detectEncoding
  rw [if_neg, if_neg, if_neg]
  · match r, hr with
    | [], _ => simp
    | [_], h => exact absurd rfl h
    | x :: y :: r, _ => simp [hc]
  · simp
  · simp
  · simp [hc]

theorem detect_little16 {c : UInt8} (hc : c ≠ 0) (r : Bytes)
    (hr : r = [] ∨ ∃ x y r', r = x :: y :: r' ∧ (x ≠ 0 ∨ y ≠ 0)) :
    Json.detectEncoding (c :: 0 :: r) = .utf16le := by
  unfold Json.detectEncoding
  rw [if_neg, if_neg, if_neg]
  · rcases hr with rfl | ⟨x, y, r, rfl, h⟩
    · simp [hc]
    · simp only [hc, if_false, if_true, ne_eq, h]
  · simp
  · simp
  · simp [hc]

theorem detect_utf8 {c : UInt8} (hc : c ≠ 0) (hf : c ≠ 0xff) (he : c ≠ 0xfe) (hg : c ≠ 0xef) (r : Bytes)
    (hr : ∀ x r', r = x :: r' → x ≠ 0) : Json.detectEncoding (c :: r) = .utf8 := by
  unfold Json.detectEncoding
  rw [if_neg, if_neg, if_neg]
  · match r with
    | [] => simp
    | [x] => simp [hc, hr x [] rfl]
    | [x, y] => simp
    | x :: y :: z :: r => simp [hc, hr x _ rfl]
  · simp [hg]
  · simp [he, hf]
  · simp [hc, hf]

theorem ascii_byte {c : Char} (h0 : c.toNat ≠ 0) (hc : c.toNat < 128) :
    UInt8.ofNat c.toNat ≠ 0 ∧ UInt8.ofNat c.toNat ≠ 0xff ∧ UInt8.ofNat c.toNat ≠ 0xfe ∧
      UInt8.ofNat c.toNat ≠ 0xef :=
  ⟨byte_ne (m := 0) (by omega), byte_ne (m := 0xff) (by omega), byte_ne (m := 0xfe) (by omega),
    byte_ne (m := 0xef) (by omega)⟩

theorem utf_cons (u : Utf) (c : Char) (r : List Char) : u.text (c :: r) = u.char c ++ u.text r := by
  simp [Utf.text]

/-- Without a byte order mark. -/
theorem detected {t : List Char} (h : Plain t) (u : Utf) : Json.decodeDetected (u.text t) = some t := by
  have ht := h.zeros
  obtain ⟨⟨c, r, rfl, hc⟩, _⟩ := h
  have h0 := ht c List.mem_cons_self
  obtain ⟨a1, a2, a3, a4⟩ := ascii_byte h0 hc
  have hz : UInt8.ofNat (c.toNat / 256) = 0 := by
    rw [show c.toNat / 256 = 0 by omega]; rfl
  have hz' : UInt8.ofNat (c.toNat / 65536) = 0 := by
    rw [show c.toNat / 65536 = 0 by omega]; rfl
  have hz'' : UInt8.ofNat (c.toNat / 65536 / 256) = 0 := by
    rw [show c.toNat / 65536 / 256 = 0 by omega]; rfl
  cases u with
  | utf8 =>
    have hd : Json.detectEncoding (Utf.utf8.text (c :: r)) = .utf8 := by
      rw [utf_cons, utf8_ascii c hc]
      refine detect_utf8 a1 a2 a3 a4 _ fun x r' e => ?_
      cases r with
      | nil => cases e
      | cons d r =>
        obtain ⟨y, s, h1, h2⟩ := utf8_begins d (ht d (by simp))
        rw [utf_cons, h1] at e
        exact (List.cons.inj e).1 ▸ h2
    rw [Json.decodeDetected, hd]
    exact decode8 _
  | utf16 big =>
    have hr : (Utf.utf16 big).text r = [] ∨
        ∃ x y r', (Utf.utf16 big).text r = x :: y :: r' ∧ (x ≠ 0 ∨ y ≠ 0) := by
      cases r with
      | nil => exact .inl rfl
      | cons d r =>
        obtain ⟨x, y, s, h1, h2⟩ := utf16_begins big d (ht d (by simp))
        rw [utf_cons, h1]
        exact .inr ⟨x, y, _, rfl, h2⟩
    have hch : (Utf.utf16 big).char c = twoBytes big c.toNat := if_pos (by omega)
    cases big with
    | true =>
      have hd : Json.detectEncoding ((Utf.utf16 true).text (c :: r)) = .utf16be := by
        rw [utf_cons, hch, twoBytes, if_pos rfl, hz]
        refine detect_big16 a1 _ ?_
        rcases hr with hr | ⟨x, y, r', hr, _⟩ <;> rw [hr] <;> simp
      rw [Json.decodeDetected, hd]
      exact decode16 true _
    | false =>
      have hd : Json.detectEncoding ((Utf.utf16 false).text (c :: r)) = .utf16le := by
        rw [utf_cons, hch, twoBytes, if_neg (by simp), hz]
        exact detect_little16 a1 _ hr
      rw [Json.decodeDetected, hd]
      exact decode16 false _
  | utf32 big =>
    cases big with
    | true =>
      have hd : Json.detectEncoding ((Utf.utf32 true).text (c :: r)) = .utf32be := by
        rw [utf_cons]
        simp only [Utf.char, fourBytes, twoBytes, if_true, hz, hz', hz'', List.cons_append,
          List.nil_append]
        unfold Json.detectEncoding
        rw [if_neg (by simp), if_neg (by simp), if_neg (by simp)]
        simp
      rw [Json.decodeDetected, hd]
      exact decode32 true _
    | false =>
      have hd : Json.detectEncoding ((Utf.utf32 false).text (c :: r)) = .utf32le := by
        rw [utf_cons]
        simp only [Utf.char, fourBytes, twoBytes, Bool.false_eq_true, if_false, hz, hz', hz'',
          List.cons_append, List.nil_append]
        unfold Json.detectEncoding
        rw [if_neg (by simp [a1]), if_neg (by simp), if_neg (by simp)]
        simp [a1]
      rw [Json.decodeDetected, hd]
      exact decode32 false _

theorem marked_char : Utf.utf8.char byteOrderMark = [0xef, 0xbb, 0xbf] ∧
    (Utf.utf16 true).char byteOrderMark = [0xfe, 0xff] ∧
    (Utf.utf16 false).char byteOrderMark = [0xff, 0xfe] ∧
    (Utf.utf32 true).char byteOrderMark = [0, 0, 0xfe, 0xff] ∧
    (Utf.utf32 false).char byteOrderMark = [0xff, 0xfe, 0, 0] := by decide +kernel

/-- With one. -/
theorem detected_marked {t : List Char} (h : Plain t) (u : Utf) :
    Json.decodeDetected (u.text (byteOrderMark :: t)) = some t := by
  obtain ⟨m1, m2, m3, m4, m5⟩ := marked_char
  cases u with
  | utf8 =>
    rw [utf_cons, m1]
    show Json.decodeDetected (0xef :: 0xbb :: 0xbf :: Utf.utf8.text t) = _
    have hd : Json.detectEncoding (0xef :: 0xbb :: 0xbf :: Utf.utf8.text t) = .utf8sig := by
      unfold Json.detectEncoding
      rw [if_neg (by simp), if_neg (by simp), if_pos (by simp)]
    rw [Json.decodeDetected, hd]
    exact decode8 t
  | utf16 big =>
    cases big with
    | true =>
      rw [utf_cons, m2]
      show Json.decodeDetected (0xfe :: 0xff :: (Utf.utf16 true).text t) = _
      have hd : Json.detectEncoding (0xfe :: 0xff :: (Utf.utf16 true).text t) = .utf16 := by
        unfold Json.detectEncoding
        rw [if_neg (by simp), if_pos (by simp)]
      rw [Json.decodeDetected, hd]
      exact decode16 true t
    | false =>
      rw [utf_cons, m3]
      show Json.decodeDetected (0xff :: 0xfe :: (Utf.utf16 false).text t) = _
      have hd : Json.detectEncoding (0xff :: 0xfe :: (Utf.utf16 false).text t) = .utf16 := by
        unfold Json.detectEncoding
        obtain ⟨⟨c, r, rfl, hc⟩, hz⟩ := h
        obtain ⟨x, y, s, h1, _⟩ := utf16_begins false c (hz c List.mem_cons_self)
        have hx : x ≠ 0 := by
          have e : (Utf.utf16 false).char c = twoBytes false c.toNat := if_pos (by omega)
          rw [e] at h1
          rw [← (List.cons.inj h1).1]
          exact (ascii_byte (hz c List.mem_cons_self) hc).1
        rw [if_neg (by rw [utf_cons, h1]; simp [hx]), if_pos (by simp)]
      rw [Json.decodeDetected, hd]
      exact decode16 false t
  | utf32 big =>
    cases big with
    | true =>
      rw [utf_cons, m4]
      show Json.decodeDetected (0 :: 0 :: 0xfe :: 0xff :: (Utf.utf32 true).text t) = _
      have hd : Json.detectEncoding (0 :: 0 :: 0xfe :: 0xff :: (Utf.utf32 true).text t) = .utf32 := by
        unfold Json.detectEncoding
        rw [if_pos (by simp)]
      rw [Json.decodeDetected, hd]
      exact decode32 true t
    | false =>
      rw [utf_cons, m5]
      show Json.decodeDetected (0xff :: 0xfe :: 0 :: 0 :: (Utf.utf32 false).text t) = _
      have hd : Json.detectEncoding (0xff :: 0xfe :: 0 :: 0 :: (Utf.utf32 false).text t) = .utf32 := by
        unfold Json.detectEncoding
        rw [if_pos (by simp)]
      rw [Json.decodeDetected, hd]
      exact decode32 false t

theorem encodes_detected {u : Utf} {b : Bytes} {t : List Char} (h : Plain t) (hb : u.Encodes b t) :
    Json.decodeDetected b = some t := by
  rcases hb with rfl | rfl
  · exact detected h u
  · exact detected_marked h u

/-- What the marks are that are detected. -/
theorem detect_marks (b : Bytes) :
    (Json.detectEncoding b = .utf8sig → b.take 3 = [0xef, 0xbb, 0xbf]) ∧
    (Json.detectEncoding b = .utf16 → b.take 2 = [0xfe, 0xff] ∨ b.take 2 = [0xff, 0xfe]) ∧
    (Json.detectEncoding b = .utf32 → b.take 4 = [0, 0, 0xfe, 0xff] ∨ b.take 4 = [0xff, 0xfe, 0, 0]) := by
  generalize he : Json.detectEncoding b = e
  unfold Json.detectEncoding at he
  split at he
  · subst he; simp_all
  · split at he
    · subst he; simp_all
    · split at he
      · subst he; simp_all
      · split at he
        · repeat' split at he
          all_goals subst he; simp
        · repeat' split at he
          all_goals subst he; simp
        · subst he; simp

/-- Nothing else is made text. -/
theorem decodeDetected_inv {b : Bytes} {t : List Char} (h : Json.decodeDetected b = some t) :
    ∃ u : Utf, u.Encodes b t := by
  obtain ⟨m1, m2, m3, m4, m5⟩ := marked_char
  obtain ⟨d1, d2, d3⟩ := detect_marks b
  have split4 : b = b.take 4 ++ b.drop 4 := (List.take_append_drop 4 b).symm
  have split3 : b = b.take 3 ++ b.drop 3 := (List.take_append_drop 3 b).symm
  have split2 : b = b.take 2 ++ b.drop 2 := (List.take_append_drop 2 b).symm
  unfold Json.decodeDetected at h
  split at h
  · exact ⟨.utf8, .inl (decode8_inv h)⟩
  · rename_i hd
    refine ⟨.utf8, .inr ?_⟩
    rw [utf_cons, m1, ← decode8_inv h, ← d1 hd, ← split3]
  · rename_i hd
    by_cases hm : b.take 2 = [0xfe, 0xff]
    · rw [decide_eq_true hm] at h
      refine ⟨.utf16 true, .inr ?_⟩
      rw [utf_cons, m2, ← decode16_inv h, ← hm, ← split2]
    · rw [decide_eq_false hm] at h
      refine ⟨.utf16 false, .inr ?_⟩
      rw [utf_cons, m3, ← decode16_inv h, ← (d2 hd).resolve_left hm, ← split2]
  · exact ⟨.utf16 true, .inl (decode16_inv h)⟩
  · exact ⟨.utf16 false, .inl (decode16_inv h)⟩
  · rename_i hd
    by_cases hm : b.take 4 = [0, 0, 0xfe, 0xff]
    · rw [decide_eq_true hm] at h
      refine ⟨.utf32 true, .inr ?_⟩
      rw [utf_cons, m4, ← decode32_inv h, ← hm, ← split4]
    · rw [decide_eq_false hm] at h
      refine ⟨.utf32 false, .inr ?_⟩
      rw [utf_cons, m5, ← decode32_inv h, ← (d3 hd).resolve_left hm, ← split4]
  · exact ⟨.utf32 true, .inl (decode32_inv h)⟩
  · exact ⟨.utf32 false, .inl (decode32_inv h)⟩

/-! ### C115 -/

theorem bytes_read {u : Utf} {b : Bytes} {t : List Char} {v : Json}
    (h : JsonDocument pyConstants t v) (hb : u.Encodes b t) :
    ∃ v', jsonDeserializer (.bytes b) = .ok v' ∧ SameJson v v' := by
  simp only [jsonDeserializer, encodes_detected (document_plain h) hb]
  exact Json.loads_of h

/-- What has zeros, and is UTF-8, is not JSON. -/
theorem zeros_refused {b : Bytes} (h0 : 0 ∈ b) (h : decodeUtf8 b ≠ .none) :
    jsonDeserializer (sizedValue (.bytes b)) = .error .valueError := by
  cases hd : decodeUtf8 b with
  | none => exact absurd hd h
  | some s =>
    obtain ⟨c, h1, h2⟩ := decodeUtf8_zero hd h0
    have := (C111_refuses s.toList).2 fun v hv => (document_plain hv).zeros c h1 h2
    rw [String.ofList_toList] at this
    simp only [sizedValue, content, hd, this]

/-- **C115**, what holds: a message that is JSON in UTF-16 or UTF-32 with a byte order mark is read as
the value it denotes. -/
theorem C115_marked_partial (t : List Char) (v : Json) (h : JsonDocument pyConstants t v) (u : Utf)
    (hu : u ≠ .utf8) : ∃ v', jsonDeserializer (sizedValue (.bytes (u.text (byteOrderMark :: t)))) = .ok v' ∧
      SameJson v v' := by
  have hn : decodeUtf8 (u.text (byteOrderMark :: t)) = .none := by
    obtain ⟨m1, m2, m3, m4, m5⟩ := marked_char
    refine decodeUtf8_mark (.inl ?_)
    rw [utf_cons]
    refine List.mem_append_left _ ?_
    cases u with
    | utf8 => exact absurd rfl hu
    | utf16 big => cases big <;> simp [m2, m3]
    | utf32 big => cases big <;> simp [m4, m5]
  simp only [sizedValue, content, hn]
  exact bytes_read h (.inr rfl)

/-- **C115**, what holds: a message that is JSON in UTF-8, UTF-16 or UTF-32 without a byte order mark
is read as the value it denotes if it is in UTF-8, or if its bytes are not UTF-8 by chance, as they
are if all characters are ASCII; otherwise it is refused. -/
theorem C115_unmarked_partial (t : List Char) (v : Json) (h : JsonDocument pyConstants t v) :
    (∃ v', jsonDeserializer (sizedValue (.bytes (Utf.utf8.text t))) = .ok v' ∧ SameJson v v') ∧
    ∀ u : Utf, u ≠ .utf8 →
      (decodeUtf8 (u.text t) = .none →
        ∃ v', jsonDeserializer (sizedValue (.bytes (u.text t))) = .ok v' ∧ SameJson v v') ∧
      (decodeUtf8 (u.text t) ≠ .none →
        jsonDeserializer (sizedValue (.bytes (u.text t))) = .error .valueError) := by
  refine ⟨?_, fun u hu => ⟨fun hn => ?_, fun hn => zeros_refused ?_ hn⟩⟩
  · rw [text8]
    simp only [sizedValue, content, decode_encode]
    exact C111_reads pyConstants (.inr rfl) t v h
  · simp only [sizedValue, content, hn]
    exact bytes_read h (.inl rfl)
  · obtain ⟨⟨c, r, rfl, hc⟩, _⟩ := document_plain h
    rw [utf_cons]
    refine List.mem_append_left _ ?_
    have hz : UInt8.ofNat (c.toNat / 256) = 0 := by
      rw [show c.toNat / 256 = 0 by omega]; rfl
    have hz' : UInt8.ofNat (c.toNat / 65536) = 0 := by
      rw [show c.toNat / 65536 = 0 by omega]; rfl
    cases u with
    | utf8 => exact absurd rfl hu
    | utf16 big =>
      have e : (Utf.utf16 big).char c = twoBytes big c.toNat := if_pos (by omega)
      rw [e]
      cases big <;> simp [twoBytes, hz]
    | utf32 big => cases big <;> simp [Utf.char, fourBytes, twoBytes, hz, hz']

theorem ascii_utf8 {b : Bytes} (h : ∀ x ∈ b, x.toNat < 128) : decodeUtf8 b ≠ .none := by
  have e : b = Utf.utf8.text (b.map fun x => Char.ofNat x.toNat) := by
    rw [Utf.text, List.flatMap_map]
    induction b with
    | nil => rfl
    | cons x b ih =>
      have hx := h x List.mem_cons_self
      have hn : (Char.ofNat x.toNat).toNat = x.toNat := toNat_ofNat_char (by omega)
      rw [List.flatMap_cons, ← ih fun y hy => h y (List.mem_cons_of_mem _ hy),
        utf8_ascii _ (by rw [hn]; exact hx), hn, UInt8.ofNat_toNat]
      rfl
  intro hn
  have := decode8 (b.map fun x => Char.ofNat x.toNat)
  rw [← e, hn] at this
  cases this

/-- **C115**: in UTF-16 and UTF-32 without a mark text of ASCII characters alone is refused. -/
theorem C115_false_ascii (t : List Char) (v : Json) (h : JsonDocument pyConstants t v)
    (ha : ∀ c ∈ t, c.toNat < 128) (u : Utf) (hu : u ≠ .utf8) :
    jsonDeserializer (sizedValue (.bytes (u.text t))) = .error .valueError := by
  refine ((C115_unmarked_partial t v h).2 u hu).2 (ascii_utf8 fun x hx => ?_)
  obtain ⟨c, hc, hx⟩ := List.mem_flatMap.1 hx
  have hc := ha c hc
  have key : ∀ n, n % 256 < 128 → (UInt8.ofNat n).toNat < 128 := fun n hn => by rwa [byte_toNat]
  cases u with
  | utf8 => exact absurd rfl hu
  | utf16 big =>
    have e : (Utf.utf16 big).char c = twoBytes big c.toNat := if_pos (by omega)
    rw [e] at hx
    cases big <;>
    · simp only [twoBytes, if_true, Bool.false_eq_true, if_false, List.mem_cons, List.not_mem_nil,
        or_false] at hx
      rcases hx with rfl | rfl <;> exact key _ (by omega)
  | utf32 big =>
    cases big <;>
    · simp only [Utf.char, fourBytes, twoBytes, if_true, Bool.false_eq_true, if_false, List.cons_append,
        List.nil_append, List.mem_cons, List.not_mem_nil, or_false] at hx
      rcases hx with rfl | rfl | rfl | rfl <;> exact key _ (by omega)

/-- **C115**: with a byte order mark JSON in UTF-8 is refused, too. -/
theorem C115_false_utf8_mark (t : List Char) :
    jsonDeserializer (sizedValue (.bytes (Utf.utf8.text (byteOrderMark :: t)))) = .error .valueError := by
  rw [text8]
  simp only [sizedValue, content, decode_encode, jsonDeserializer, String.toList_ofList]
  rw [Json.loads, if_pos]
  rfl

/-- **C115**: a message of which a value is made is JSON, in one of these encodings, that denotes the
value. -/
theorem C115_only (b : Bytes) (v : Json) (h : jsonDeserializer (sizedValue (.bytes b)) = .ok v) :
    ∃ (u : Utf) (t : List Char), u.Encodes b t ∧ JsonDocument pyConstants t v := by
  simp only [sizedValue, content] at h
  cases hd : decodeUtf8 b with
  | some s =>
    rw [hd] at h
    refine ⟨.utf8, s.toList, .inl ?_, ?_⟩
    · exact decode8_inv (by rw [hd]; rfl)
    · refine (C111_refuses s.toList).1 v ?_
      rw [String.ofList_toList]
      exact h
  | none =>
    rw [hd] at h
    simp only [jsonDeserializer] at h
    cases ht : Json.decodeDetected b with
    | none => rw [ht] at h; cases h
    | some t =>
      rw [ht] at h
      obtain ⟨u, hu⟩ := decodeDetected_inv ht
      exact ⟨u, t, hu, Json.loads_inv h⟩

/-- What a stored message carries for a consumer that expects JSON: text as for C111; bytes that are
not UTF-8 may be JSON in another encoding. -/
def Spec.Carries (m : Int × Val × Val) (o : Option Json) : Prop :=
  Denotes m o ∨ ∃ b, m.2.2 = .bytes b ∧
    match o with
    | some v => ∃ (u : Utf) (t : List Char), u.Encodes b t ∧ JsonDocument pyConstants t v
    | .none => ∀ (u : Utf) (t : List Char), u.Encodes b t → ∀ v, ¬ JsonDocument pyConstants t v

/-- **C115**: from whatever a broker serves, a consumer with the default deserializer returns what the
JSON among it denotes, that in bytes which are not UTF-8 included, and leaves out the rest. -/
theorem C115_delivered {ε : Type} (cx : Codec) (hav : cx.snappyAvailable = true) (depth : Nat)
    (cfg : CCfg Val Json) (hcfg : cfg.deserializer = jsonDeserializer) (topic : String)
    (ht : (encodeUtf8 topic).length < 2 ^ 15) (p : Served) (hp : p.Ok cx) (he : p.error = 0)
    (l : List (Option Json)) (hl : List.Forall₂ Carries p.log l) (suf : Bytes)
    (cons : Consumer ε) :
    ∃ v c' out, Schema.fetchResponse.deserialize cx (depth + 1)
        (servedWire [(topic, [p])] ++ suf) = .ok v ∧
      handleFetchResponse cfg (frespOf v) cons = (.ok out, c') ∧
      List.Forall₂ SameJson (l.filterMap id) out := by
  refine delivered_read cx hav depth cfg topic ht p hp he l (hl.imp fun m o h => ?_) suf cons
  rcases h with h | ⟨b, hb, h⟩
  · exact denotes_read hcfg h
  · cases o with
    | some v =>
      obtain ⟨u, t, h1, h2⟩ := h
      obtain ⟨v', h3, h4⟩ := bytes_read h2 h1
      refine ⟨v', ?_, h4⟩
      simp only [decode, hcfg, hb, h3, Except.toOption]
    | none =>
      show decode cfg m.2.2 = .none
      simp only [decode, hcfg, hb]
      cases hr : jsonDeserializer (.bytes b) with
      | error e => rfl
      | ok v =>
        simp only [jsonDeserializer] at hr
        cases hd : Json.decodeDetected b with
        | none => rw [hd] at hr; cases hr
        | some t =>
          rw [hd] at hr
          obtain ⟨u, hu⟩ := decodeDetected_inv hd
          exact absurd (Json.loads_inv hr) (h u t hu v)

/-! ### Concrete messages -/

/-- A string of one character. -/
theorem exQuoted (c : Char) (h : 0x20 ≤ c.toNat) (hq : c ≠ '"') (hb : c ≠ '\\') :
    JsonDocument pyConstants ['"', c, '"'] (.str [c]) :=
  ⟨[], ['"', c, '"'], [], rfl, by simp [Blank], by simp [Blank],
    .str [c] [c] (.cons [c] c [] [] (.raw c h hq hb) .nil)⟩

-- Non-vacuity of `C115_marked_partial`: "x" in UTF-16 with a mark.
example : ∃ v', jsonDeserializer (sizedValue (.bytes
      [0xff, 0xfe, 0x22, 0, 0x78, 0, 0x22, 0])) = .ok v' ∧ SameJson (.str ['x']) v' := by
  have := C115_marked_partial _ _ (exQuoted 'x' (by decide) (by decide) (by decide)) (.utf16 false)
    (by simp)
  rwa [show (Utf.utf16 false).text (byteOrderMark :: ['"', 'x', '"']) =
    [0xff, 0xfe, 0x22, 0, 0x78, 0, 0x22, 0] by decide +kernel] at this

-- Non-vacuity of `C115_unmarked_partial`: without a mark "é" is read, "x" is not.
example : (∃ v', jsonDeserializer (sizedValue (.bytes [0x22, 0, 0xe9, 0, 0x22, 0])) = .ok v' ∧
      SameJson (.str ['é']) v') ∧
    jsonDeserializer (sizedValue (.bytes [0x22, 0, 0x78, 0, 0x22, 0])) = .error .valueError := by
  have e1 : (Utf.utf16 false).text ['"', 'é', '"'] = [0x22, 0, 0xe9, 0, 0x22, 0] := by decide +kernel
  have e2 : (Utf.utf16 false).text ['"', 'x', '"'] = [0x22, 0, 0x78, 0, 0x22, 0] := by decide +kernel
  have h1 := ((C115_unmarked_partial _ _ (exQuoted 'é' (by decide) (by decide) (by decide))).2
    (.utf16 false) (by simp)).1
  have h2 := C115_false_ascii _ _ (exQuoted 'x' (by decide) (by decide) (by decide)) (by decide)
    (.utf16 false) (by simp)
  rw [e1] at h1
  rw [e2] at h2
  exact ⟨h1 (by decide +kernel), h2⟩

-- The same character beyond the basic plane, in UTF-16 with a mark: two code units.
example : (Utf.utf16 true).text (byteOrderMark :: ['"', '😀', '"']) =
      [0xfe, 0xff, 0, 0x22, 0xd8, 0x3d, 0xde, 0, 0, 0x22] ∧
    Json.decodeDetected [0xfe, 0xff, 0, 0x22, 0xd8, 0x3d, 0xde, 0, 0, 0x22] = some ['"', '😀', '"'] := by
  decide +kernel

/-- What is stored: "é" in UTF-16 without a mark, and bytes that are nothing. -/
def Spec.exWideLog : List (Int × Val × Val) :=
  [(41, .none, .bytes [0x22, 0, 0xe9, 0, 0x22, 0]), (42, .none, .bytes [0xff])]

def Spec.exWideServed : Served := ⟨0, 0, 43, plainSet exWideLog, exWideLog⟩

theorem Spec.exWideServed_ok : exWideServed.Ok storeCodec where
  partition := by unfold Fits exWideServed; norm_num
  error := by unfold Fits exWideServed; norm_num
  highwater := by unfold Fits exWideServed; norm_num
  holds := by
    have h := holds_plain (packed := KafkaPackedLong storeCodec) (l := exWideLog) (by
        intro m hm
        simp only [exWideLog, List.mem_cons, List.not_mem_nil, or_false] at hm
        rcases hm with rfl | rfl
        · exact ⟨by unfold Fits; norm_num, .inl rfl, .inr ⟨_, rfl, by decide +kernel⟩,
            by decide +kernel, by decide +kernel⟩
        · exact ⟨by unfold Fits; norm_num, .inl rfl, .inr ⟨_, rfl, by decide +kernel⟩,
            by decide +kernel, by decide +kernel⟩)
    have e1 : decodeUtf8 [0x22, 0, 0xe9, 0, 0x22, 0] = .none := by decide +kernel
    have e2 : decodeUtf8 [0xff] = .none := by decide +kernel
    have e3 : sizedValue .none = .none := rfl
    have e4 : sizedValue (.bytes [0x22, 0, 0xe9, 0, 0x22, 0]) = .bytes [0x22, 0, 0xe9, 0, 0x22, 0] := by
      simp only [sizedValue, content, e1]
    have e5 : sizedValue (.bytes [0xff]) = .bytes [0xff] := by
      simp only [sizedValue, content, e2]
    simp only [exWideLog, List.map_cons, List.map_nil, e3, e4, e5] at h
    exact h
  size := by decide +kernel

/-- `C115_delivered` applied to it. -/
example (cons : Consumer Unit) : ∃ v c' m',
    Schema.fetchResponse.deserialize storeCodec 1 (servedWire [("t", [exWideServed])]) = .ok v ∧
    handleFetchResponse exJsonCfg (frespOf v) cons = (.ok [m'], c') ∧
    SameJson (.str ['é']) m' := by
  have e1 : (Utf.utf16 false).text ['"', 'é', '"'] = [0x22, 0, 0xe9, 0, 0x22, 0] := by decide +kernel
  obtain ⟨v, c', out, h1, h2, h3⟩ := C115_delivered storeCodec storeCodec_snappy.available 0
    exJsonCfg rfl "t" (by decide +kernel) exWideServed exWideServed_ok rfl [some (.str ['é']), .none]
    (.cons (.inr ⟨_, rfl, .utf16 false, _, .inl e1.symm,
        exQuoted 'é' (by decide) (by decide) (by decide)⟩)
      (.cons (.inr ⟨_, rfl, fun u t hu v hv => by
        have := encodes_detected (document_plain hv) hu
        rw [show Json.decodeDetected [0xff] = .none by decide +kernel] at this
        cases this⟩) .nil)) [] cons
  rw [List.append_nil] at h1
  simp only [List.filterMap_cons, List.filterMap_nil, id] at h3
  cases h3 with
  | cons h ht =>
    cases ht
    exact ⟨v, c', _, h1, h2, h⟩

end Kiel
