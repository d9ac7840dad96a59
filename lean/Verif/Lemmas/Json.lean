import Verif.Spec.Json
import Verif.Lemmas.Allocator
import Verif.Lemmas.Dict
/-
Reading back JSON text.
-/
set_option autoImplicit false
namespace Kiel.Json
open Kiel.Spec

/-! ### Strings -/

theorem hexVal_hexDigit (n : Nat) (h : n < 16) : hexVal (hexDigit n) = some n := by
  have : ∀ n : Fin 16, hexVal (hexDigit n.1) = some n.1 := by decide
  exact this ⟨n, h⟩

theorem hex4_u4 (n : Nat) (h : n < 65536) (r : List Char) :
    hex4 ((u4 n).drop 2 ++ r) = some (n, r) := by
  have h1 := hexVal_hexDigit (n / 4096 % 16) (by omega)
  have h2 := hexVal_hexDigit (n / 256 % 16) (by omega)
  have h3 := hexVal_hexDigit (n / 16 % 16) (by omega)
  have h4 := hexVal_hexDigit (n % 16) (by omega)
  simp only [u4, List.drop_succ_cons, List.drop_zero, List.cons_append, List.nil_append, hex4, h1,
    h2, h3, h4, Option.some.injEq, Prod.mk.injEq, and_true]
  omega

theorem u4_cons (n : Nat) : u4 n = '\\' :: 'u' :: (u4 n).drop 2 := rfl

theorem char_valid (c : Char) : c.toNat < 0xd800 ∨ (0xdfff < c.toNat ∧ c.toNat < 0x110000) :=
  c.valid

theorem scanChar_escape (c : Char) (r : List Char) :
    scanChar (escape c ++ r) = .ok (some c, r) := by
  unfold escape
  split
  · subst_vars; rfl
  split
  · subst_vars; rfl
  split
  · subst_vars; rfl
  split
  · subst_vars; rfl
  split
  · subst_vars; rfl
  split
  · rename_i h
    have : c = Char.ofNat 12 := by rw [← h]; exact (Char.ofNat_toNat c).symm
    subst this; rfl
  split
  · rename_i h
    have : c = Char.ofNat 8 := by rw [← h]; exact (Char.ofNat_toNat c).symm
    subst this; rfl
  rename_i h1 h2 _ _ _ _ _
  split
  · rename_i h
    simp only [List.cons_append, List.nil_append, scanChar, h1, h2, if_false]
    rw [if_neg (by omega)]
  split
  · rename_i h3 h4
    rw [u4_cons]
    simp only [List.cons_append, scanChar]
    rw [if_neg (by decide), if_pos trivial, if_neg (by simp), hex4_u4 _ h4]
    have := char_valid c
    simp only
    rw [if_neg (by omega), if_neg (by omega), Char.ofNat_toNat]
  · rename_i h3 h4
    have hv := char_valid c
    have h5 : 0xd800 + (c.toNat - 0x10000) / 1024 < 65536 := by omega
    have h6 : 0xdc00 + (c.toNat - 0x10000) % 1024 < 65536 := by omega
    rw [u4_cons (0xd800 + _), u4_cons (0xdc00 + _)]
    simp only [List.cons_append, List.append_assoc, scanChar]
    rw [if_neg (by decide), if_pos trivial, if_neg (by simp), hex4_u4 _ h5]
    simp only
    rw [if_pos (by omega), hex4_u4 _ h6]
    simp only
    rw [if_pos (by omega)]
    have : 0x10000 + ((0xd800 + (c.toNat - 0x10000) / 1024 - 0xd800) * 1024 +
      (0xdc00 + (c.toNat - 0x10000) % 1024 - 0xdc00)) = c.toNat := by omega
    rw [this, Char.ofNat_toNat]

theorem scanChars_quote (s r : List Char) (fuel : Nat) (h : s.length < fuel) :
    scanChars fuel (s.flatMap escape ++ ('"' :: r)) = .ok (s, r) := by
  induction s generalizing fuel with
  | nil =>
    obtain ⟨f, rfl⟩ : ∃ f, fuel = f + 1 := ⟨fuel - 1, by simp at h; omega⟩
    rfl
  | cons c s ih =>
    obtain ⟨f, rfl⟩ : ∃ f, fuel = f + 1 := ⟨fuel - 1, by simp at h; omega⟩
    simp only [List.flatMap_cons, List.append_assoc, scanChars, scanChar_escape]
    rw [ih f (by simp at h; omega)]

theorem escape_ne_nil (c : Char) : 1 ≤ (escape c).length := by
  unfold escape u4
  repeat' split
  all_goals simp

theorem flatMap_escape_length (s : List Char) : s.length ≤ (s.flatMap escape).length := by
  induction s with
  | nil => simp
  | cons c s ih =>
    have := escape_ne_nil c
    simp only [List.flatMap_cons, List.length_append, List.length_cons]
    omega

theorem scanString_quote (s r : List Char) :
    scanString (s.flatMap escape ++ ('"' :: r)) = .ok (s, r) := by
  have := flatMap_escape_length s
  exact scanChars_quote s r _ (by simp only [List.length_append, List.length_cons]; omega)

/-! ### Numbers -/

/-- What can follow a value in a document. -/
def Stops (r : List Char) : Prop :=
  r = [] ∨ ∃ c t, r = c :: t ∧ (c = ',' ∨ c = ']' ∨ c = '}')

theorem Stops.notDigit {r : List Char} (h : Stops r) : ∀ c t, r = c :: t → c.isDigit = false := by
  rintro c t rfl
  rcases h with h | ⟨c', t', h, hc⟩
  · cases h
  · cases h; rcases hc with rfl | rfl | rfl <;> rfl

theorem takeWhile_digits (ds r : List Char) (hd : ∀ x ∈ ds, x.isDigit = true)
    (hr : ∀ c t, r = c :: t → c.isDigit = false) :
    (ds ++ r).takeWhile Char.isDigit = ds ∧ (ds ++ r).dropWhile Char.isDigit = r := by
  induction ds with
  | nil =>
    cases r with
    | nil => simp
    | cons c t => simp [hr c t rfl]
  | cons d ds ih =>
    have h1 := hd d (by simp)
    have h2 := ih (fun x hx => hd x (List.mem_cons_of_mem _ hx))
    simp [h1, h2]

theorem scanFrac_none (r : List Char) (h : ∀ t, r ≠ '.' :: t) : scanFrac r = ([], r) := by
  unfold scanFrac
  split
  · rename_i t; exact absurd rfl (h t)
  · rfl

theorem scanFrac_some (ds r : List Char) (h0 : ds ≠ []) (hd : ∀ x ∈ ds, x.isDigit = true)
    (hr : ∀ c t, r = c :: t → c.isDigit = false) :
    scanFrac ('.' :: (ds ++ r)) = ('.' :: ds, r) := by
  obtain ⟨h1, h2⟩ := takeWhile_digits ds r hd hr
  simp [scanFrac, h1, h2, h0]

theorem scanExp_none (r : List Char) (h : ∀ c t, r = c :: t → c ≠ 'e' ∧ c ≠ 'E') :
    scanExp r = ([], r) := by
  unfold scanExp
  split
  · rfl
  · rename_i c t
    have := h c t rfl
    simp [this]

theorem scanExp_some (s ds r : List Char) (hs : s = [] ∨ s = ['+'] ∨ s = ['-']) (h0 : ds ≠ [])
    (hd : ∀ x ∈ ds, x.isDigit = true) (hr : ∀ c t, r = c :: t → c.isDigit = false) :
    scanExp ('e' :: (s ++ (ds ++ r))) = ('e' :: (s ++ ds), r) := by
  obtain ⟨h1, h2⟩ := takeWhile_digits ds r hd hr
  rcases hs with rfl | rfl | rfl
  · cases ds with
    | nil => exact absurd rfl h0
    | cons d ds =>
      have hdd : d.isDigit = true := hd d (by simp)
      have hp : d ≠ '+' := by rintro rfl; revert hdd; decide
      have hm : d ≠ '-' := by rintro rfl; revert hdd; decide
      simp only [List.cons_append, List.nil_append] at h1 h2 ⊢
      simp only [scanExp, true_or, if_true]
      split
      · rename_i h; cases h; exact absurd rfl hp
      · rename_i h; cases h; exact absurd rfl hm
      · rw [h1, h2]; simp
  · simp [scanExp, h1, h2, h0]
  · simp [scanExp, h1, h2, h0]

theorem toDigits_head (n : Nat) : Nat.toDigits 10 n = ['0'] ∨
    ∃ c r, Nat.toDigits 10 n = c :: r ∧ c ≠ '0' := by
  induction n using Nat.strong_induction_on with
  | _ n ih =>
    by_cases h : n < 10
    · rw [Nat.toDigits_of_lt_base h]
      have : ∀ n : Fin 10, [n.1.digitChar] = ['0'] ∨ ∃ c r, [n.1.digitChar] = c :: r ∧ c ≠ '0' := by
        intro n
        by_cases h0 : n = 0
        · left; subst h0; rfl
        · right
          refine ⟨_, _, rfl, ?_⟩
          revert n
          decide
      exact this ⟨n, h⟩
    · right
      rw [Nat.toDigits_of_base_le (by decide) (by omega)]
      rcases ih (n / 10) (by omega) with h1 | ⟨c, r, h1, h2⟩
      · exfalso
        have h3 := Nat.ofDigitChars_toDigits (b := 10) (n := n / 10) (by decide) (by decide)
        rw [h1] at h3
        have : Nat.ofDigitChars 10 ['0'] 0 = 0 := by decide
        omega
      · exact ⟨c, r ++ [(n % 10).digitChar], by rw [h1]; rfl, h2⟩

theorem scanDigits_append (ds r : List Char)
    (h : ds = ['0'] ∨ ∃ c t, ds = c :: t ∧ c ≠ '0' ∧ ∀ x ∈ ds, x.isDigit = true)
    (hr : ∀ c t, r = c :: t → c.isDigit = false) : scanDigits (ds ++ r) = some (ds, r) := by
  rcases h with rfl | ⟨c, t, rfl, h0, hd⟩
  · rfl
  · obtain ⟨h1, h2⟩ := takeWhile_digits t r (fun x hx => hd x (List.mem_cons_of_mem _ hx)) hr
    simp [scanDigits, h0, hd c (by simp), h1, h2]

theorem digits_head {ds : List Char}
    (h : ds = ['0'] ∨ ∃ c t, ds = c :: t ∧ c ≠ '0' ∧ ∀ x ∈ ds, x.isDigit = true) :
    ∃ c t, ds = c :: t ∧ c.isDigit = true := by
  rcases h with rfl | ⟨c, t, rfl, h0, hd⟩
  · exact ⟨_, _, rfl, rfl⟩
  · exact ⟨c, t, rfl, hd c (by simp)⟩

/-- Integer part, fraction and exponent, with what follows them. -/
theorem scanNumber_parts (sign ds f e r : List Char) (hs : sign = [] ∨ sign = ['-'])
    (hds : ds = ['0'] ∨ ∃ c t, ds = c :: t ∧ c ≠ '0' ∧ ∀ x ∈ ds, x.isDigit = true)
    (h1 : scanFrac (f ++ (e ++ r)) = (f, e ++ r)) (h2 : scanExp (e ++ r) = (e, r))
    (hr : ∀ c t, f ++ (e ++ r) = c :: t → c.isDigit = false) :
    scanNumber (sign ++ ds ++ f ++ e ++ r) =
      numberOf (sign ++ ds) f e r := by
  have h3 := scanDigits_append ds (f ++ (e ++ r)) hds hr
  have h4 : scanSign (sign ++ ds ++ f ++ e ++ r) = (sign, ds ++ (f ++ (e ++ r))) := by
    rcases hs with rfl | rfl
    · obtain ⟨c, t, rfl, hc⟩ := digits_head hds
      have hm : c ≠ '-' := by rintro rfl; revert hc; decide
      simp [scanSign, hm]
    · simp [scanSign]
  simp only [scanNumber, h4, h3, h1, h2]

theorem Stops.frac {r : List Char} (h : Stops r) : scanFrac r = ([], r) := by
  apply scanFrac_none
  rintro t rfl
  rcases h with h | ⟨c', t', h, hc⟩
  · cases h
  · cases h; rcases hc with h | h | h <;> cases h

theorem Stops.exp {r : List Char} (h : Stops r) : scanExp r = ([], r) := by
  apply scanExp_none
  rintro c t rfl
  rcases h with h | ⟨c', t', h, hc⟩
  · cases h
  · cases h; rcases hc with rfl | rfl | rfl <;> decide

theorem strInt_parts (i : Int) : ∃ sign ds, (strInt i).toList = sign ++ ds ∧
    (sign = [] ∨ sign = ['-']) ∧
    (ds = ['0'] ∨ ∃ c t, ds = c :: t ∧ c ≠ '0' ∧ ∀ x ∈ ds, x.isDigit = true) := by
  have key : ∀ n, (Nat.toDigits 10 n = ['0'] ∨ ∃ c t, Nat.toDigits 10 n = c :: t ∧ c ≠ '0' ∧
      ∀ x ∈ Nat.toDigits 10 n, x.isDigit = true) := by
    intro n
    rcases toDigits_head n with h | ⟨c, r, h1, h2⟩
    · exact .inl h
    · exact .inr ⟨c, r, h1, h2, fun x hx => List.all_eq_true.1 (digits_isDigit n) x hx⟩
  cases i with
  | ofNat n => exact ⟨[], _, by simp [strInt], .inl rfl, key n⟩
  | negSucc n => exact ⟨['-'], _, by simp [strInt], .inr rfl, key (n + 1)⟩

theorem scanNumber_int (i : Int) (r : List Char) (h : Stops r) :
    scanNumber ((strInt i).toList ++ r) = .ok (.int i, r) := by
  obtain ⟨sign, ds, h1, h2, h3⟩ := strInt_parts i
  have := scanNumber_parts sign ds [] [] r h2 h3 (by simpa using h.frac) (by simpa using h.exp)
    (by simpa using h.notDigit)
  simp only [List.append_nil] at this
  rw [h1, this, ← h1]
  simp [numberOf, pyInt?_strInt]

theorem scanNumber_float (t r : List Char) (ht : FloatText t) (h : Stops r) :
    scanNumber (t ++ r) = .ok (.float t, r) := by
  obtain ⟨sign, ds, f, e, rfl, hs, hds, hf, he, hne⟩ := ht
  have h2 : scanExp (e ++ r) = (e, r) := by
    rcases he with rfl | ⟨s, ds', rfl, hs', h0, hd⟩
    · exact h.exp
    · have := scanExp_some s ds' r hs' h0 hd h.notDigit
      simpa using this
  have hnd : ∀ c t, e ++ r = c :: t → c.isDigit = false := by
    rcases he with rfl | ⟨s, ds', rfl, hs', h0, hd⟩
    · exact h.notDigit
    · intro c t hc; simp only [List.cons_append] at hc; cases hc; rfl
  have h1 : scanFrac (f ++ (e ++ r)) = (f, e ++ r) := by
    rcases hf with rfl | ⟨ds', rfl, h0, hd⟩
    · apply scanFrac_none
      intro t ht
      rcases he with rfl | ⟨s, ds', rfl, hs', h0, hd⟩
      · have h4 := h.frac
        simp only [List.nil_append] at ht
        rw [ht] at h
        rcases h with h | ⟨c', t', h, hc⟩
        · cases h
        · cases h; rcases hc with h | h | h <;> cases h
      · simp only [List.cons_append, List.nil_append] at ht; cases ht
    · exact scanFrac_some ds' (e ++ r) h0 hd hnd
  have := scanNumber_parts sign ds f e r hs hds h1 h2 (by
    rcases hf with rfl | ⟨ds', rfl, h0, hd⟩
    · exact hnd
    · intro c t hc; simp only [List.cons_append] at hc; cases hc; rfl)
  rw [this, numberOf, if_neg hne]

theorem scan_number (fuel : Nat) (c : Char) (t : List Char) (hc : c.isDigit = true ∨ c = '-') :
    scan (fuel + 1) (c :: t) = scanNumber (c :: t) := by
  unfold scan
  split
  all_goals first | rfl | (rename_i h; cases h; exact absurd hc (by decide))

/-! ### Values -/

mutual
/-- The value with the keys of all objects in order. -/
def canon : Json → Json
  | .arr l => .arr (canonList l)
  | .obj kvs => .obj ((canonPairs kvs).mergeSort keyLe)
  | v => v
/-- The elements of an array. -/
def canonList : List Json → List Json
  | [] => []
  | v :: r => canon v :: canonList r
/-- The values of an object. -/
def canonPairs : List (List Char × Json) → List (List Char × Json)
  | [] => []
  | (k, v) :: r => (k, canon v) :: canonPairs r
end

theorem dumpsList_eq (l : List Json) : dumpsList l = l.map dumps := by
  induction l with
  | nil => rfl
  | cons v l ih => simp [dumpsList, ih]
theorem canonList_eq (l : List Json) : canonList l = l.map canon := by
  induction l with
  | nil => rfl
  | cons v l ih => simp [canonList, ih]
theorem dumpsPairs_eq (l : List (List Char × Json)) :
    dumpsPairs l = l.map fun p => (p.1, dumps p.2) := by
  induction l with
  | nil => rfl
  | cons v l ih => simp [dumpsPairs, ih]
theorem canonPairs_eq (l : List (List Char × Json)) :
    canonPairs l = l.map fun p => (p.1, canon p.2) := by
  induction l with
  | nil => rfl
  | cons v l ih => simp [canonPairs, ih]

theorem sort_map {α β : Type} (g : α → β) (l : List (List Char × α)) :
    (l.map fun p => (p.1, g p.2)).mergeSort keyLe =
      (l.mergeSort keyLe).map fun p => (p.1, g p.2) := by
  rw [List.map_mergeSort]
  intro a _ b _
  rfl

theorem floatText_head {t : List Char} (h : FloatText t) :
    ∃ c r, t = c :: r ∧ (c.isDigit = true ∨ c = '-') := by
  obtain ⟨sign, ds, f, e, rfl, hs, hds, -⟩ := h
  obtain ⟨c, t, rfl, hc⟩ := digits_head hds
  rcases hs with rfl | rfl
  · exact ⟨c, _, rfl, .inl hc⟩
  · exact ⟨'-', _, rfl, .inr rfl⟩

theorem strInt_head (i : Int) :
    ∃ c r, (strInt i).toList = c :: r ∧ (c.isDigit = true ∨ c = '-') := by
  obtain ⟨sign, ds, h, hs, hds⟩ := strInt_parts i
  obtain ⟨c, t, rfl, hc⟩ := digits_head hds
  rw [h]
  rcases hs with rfl | rfl
  · exact ⟨c, _, rfl, .inl hc⟩
  · exact ⟨'-', _, rfl, .inr rfl⟩

theorem number_head {c : Char} (h : c.isDigit = true ∨ c = '-') : isWs c = false ∧ c ≠ ']' ∧ c.toNat < 128 := by
  rcases h with h | rfl
  · have hn : 48 ≤ c.toNat := by
      simp only [Char.isDigit, Bool.and_eq_true, decide_eq_true_eq] at h
      exact h.1
    have hn2 : c.toNat ≤ 57 := by
      simp only [Char.isDigit, Bool.and_eq_true, decide_eq_true_eq] at h
      exact h.2
    refine ⟨?_, by rintro rfl; revert hn2; decide, by omega⟩
    simp only [isWs, Bool.or_eq_false_iff, decide_eq_false_iff_not]
    refine ⟨⟨⟨?_, ?_⟩, ?_⟩, ?_⟩ <;> (rintro rfl; revert hn; decide)
  · decide

theorem dumps_head {v : Json} (hv : ValidJson v) :
    ∃ c t, dumps v = c :: t ∧ isWs c = false ∧ c ≠ ']' ∧ c.toNat < 128 := by
  cases hv with
  | null => exact ⟨_, _, rfl, by decide, by decide, by decide⟩
  | bool b => cases b <;> exact ⟨_, _, rfl, by decide, by decide, by decide⟩
  | int i =>
    obtain ⟨c, r, h1, h2⟩ := strInt_head i
    exact ⟨c, r, h1, number_head h2⟩
  | float t h =>
    obtain ⟨c, r, h1, h2⟩ := floatText_head h
    exact ⟨c, r, h1, number_head h2⟩
  | str s => exact ⟨'"', _, rfl, by decide, by decide, by decide⟩
  | arr l h => exact ⟨'[', _, by rw [dumps], by decide, by decide, by decide⟩
  | obj l h => exact ⟨'{', _, by rw [dumps], by decide, by decide, by decide⟩

theorem skipWs_dumps {v : Json} (hv : ValidJson v) (r : List Char) :
    skipWs (dumps v ++ r) = dumps v ++ r := by
  obtain ⟨c, t, h1, h2, -⟩ := dumps_head hv
  simp [skipWs, h1, h2]

theorem skipWs_space {v : Json} (hv : ValidJson v) (r : List Char) :
    skipWs (' ' :: (dumps v ++ r)) = dumps v ++ r := by
  have : skipWs (' ' :: (dumps v ++ r)) = skipWs (dumps v ++ r) := rfl
  rw [this, skipWs_dumps hv]

theorem joinComma_length_cons (x : List Char) (xs : List (List Char)) :
    x.length ≤ (joinComma (x :: xs)).length := by
  cases xs with
  | nil => simp [joinComma]
  | cons y r => simp [joinComma]

theorem scanElems_join (l : List Json) (hl : l ≠ []) (hv : ∀ v ∈ l, ValidJson v)
    (ih : ∀ v ∈ l, ∀ fuel r, (dumps v).length ≤ fuel → Stops r →
      scan fuel (dumps v ++ r) = .ok (canon v, r))
    (fuel : Nat) (r : List Char) (hf : (joinComma (l.map dumps)).length < fuel) :
    scanElems fuel (joinComma (l.map dumps) ++ (']' :: r)) = .ok (l.map canon, r) := by
  induction l generalizing fuel with
  | nil => exact absurd rfl hl
  | cons v l ihl =>
    obtain ⟨f, rfl⟩ : ∃ f, fuel = f + 1 := ⟨fuel - 1, by omega⟩
    cases l with
    | nil =>
      simp only [List.map_cons, List.map_nil, joinComma] at hf ⊢
      rw [scanElems, ih v (by simp) f _ (by omega) (.inr ⟨']', r, rfl, by simp⟩)]
      simp [skipWs, isWs]
    | cons w l =>
      simp only [List.map_cons, joinComma, List.length_append, List.length_cons] at hf
      have h1 := ih v (by simp) f (',' :: ' ' :: (joinComma ((w :: l).map dumps) ++ (']' :: r)))
        (by omega) (.inr ⟨',', _, rfl, by simp⟩)
      have h2 := ihl (by simp) (fun v hv' => hv v (List.mem_cons_of_mem _ hv'))
        (fun v hv' => ih v (List.mem_cons_of_mem _ hv')) f
        (by simp only [List.map_cons]; omega)
      simp only [List.map_cons, joinComma, List.append_assoc, List.cons_append] at h1 h2 ⊢
      rw [scanElems, h1]
      have h3 : skipWs (',' :: ' ' :: (joinComma (dumps w :: l.map dumps) ++ (']' :: r))) =
        ',' :: ' ' :: (joinComma (dumps w :: l.map dumps) ++ (']' :: r)) := rfl
      have h4 : skipWs (' ' :: (joinComma (dumps w :: l.map dumps) ++ (']' :: r))) =
          joinComma (dumps w :: l.map dumps) ++ (']' :: r) := by
        have hw := hv w (by simp)
        cases l with
        | nil => exact skipWs_space hw _
        | cons x l =>
          simp only [List.map_cons, joinComma, List.append_assoc]
          exact skipWs_space hw _
      simp only [h3, h4, h2]

/-- A member of an object as text. -/
def member (p : List Char × Json) : List Char := quote p.1 ++ (':' :: ' ' :: dumps p.2)

theorem join_member (p : List Char × Json) (l : List (List Char × Json)) :
    joinComma ((p :: l).map member) = '"' :: (joinComma ((p :: l).map member)).tail := by
  cases l <;> simp [joinComma, member, quote]

theorem scanMembers_join (l : List (List Char × Json)) (hl : l ≠ [])
    (hv : ∀ p ∈ l, ValidJson p.2)
    (ih : ∀ p ∈ l, ∀ fuel r, (dumps p.2).length ≤ fuel → Stops r →
      scan fuel (dumps p.2 ++ r) = .ok (canon p.2, r))
    (fuel : Nat) (r : List Char) (hf : (joinComma (l.map member)).length < fuel) :
    scanMembers fuel ((joinComma (l.map member)).tail ++ ('}' :: r)) =
      .ok (l.map fun p => (p.1, canon p.2), r) := by
  induction l generalizing fuel with
  | nil => exact absurd rfl hl
  | cons p l ihl =>
    obtain ⟨f, rfl⟩ : ∃ f, fuel = f + 1 := ⟨fuel - 1, by omega⟩
    have hp := hv p (by simp)
    cases l with
    | nil =>
      have h1 := ih p (by simp) f ('}' :: r)
        (by simp [joinComma, member, quote] at hf; omega) (.inr ⟨'}', r, rfl, by simp⟩)
      simp only [List.map_cons, List.map_nil, joinComma, member, quote, List.cons_append,
        List.tail_cons, List.append_assoc, List.nil_append]
      rw [scanMembers, scanString_quote]
      have h3 : ∀ t, skipWs (':' :: t) = ':' :: t := fun _ => rfl
      have h4 : ∀ t, skipWs ('}' :: t) = '}' :: t := fun _ => rfl
      simp only [h3, skipWs_space hp, h1, h4]
    | cons q l =>
      have hf' : (dumps p.2).length ≤ f ∧ (joinComma ((q :: l).map member)).length < f := by
        simp only [List.map_cons, joinComma, List.length_append, List.length_cons, member,
          quote] at hf ⊢
        constructor <;> omega
      have h1 := ih p (by simp) f
        (',' :: ' ' :: (joinComma ((q :: l).map member) ++ ('}' :: r))) hf'.1
        (.inr ⟨',', _, rfl, by simp⟩)
      have h2 := ihl (by simp) (fun v hv' => hv v (List.mem_cons_of_mem _ hv'))
        (fun v hv' => ih v (List.mem_cons_of_mem _ hv')) f hf'.2
      have h5 : joinComma ((p :: q :: l).map member) =
          member p ++ (',' :: ' ' :: joinComma ((q :: l).map member)) := rfl
      rw [h5]
      simp only [member, quote, List.cons_append, List.append_assoc, List.nil_append,
        List.tail_cons]
      change scanMembers (f + 1) (_ ++ ('"' :: ':' :: ' ' :: (dumps p.2 ++
        (',' :: ' ' :: (joinComma ((q :: l).map member) ++ ('}' :: r)))))) = _
      rw [scanMembers, scanString_quote]
      have h3 : ∀ t, skipWs (':' :: t) = ':' :: t := fun _ => rfl
      have h4 : ∀ t, skipWs (',' :: t) = ',' :: t := fun _ => rfl
      have h6 : skipWs (' ' :: (joinComma ((q :: l).map member) ++ ('}' :: r))) =
          '"' :: ((joinComma ((q :: l).map member)).tail ++ ('}' :: r)) := by
        rw [join_member q l]; rfl
      simp only [h3, skipWs_space hp, h1, h4, h6, h2]
      rfl

theorem dictOf_nodup (l : List (List Char × Json)) (h : (l.map (·.1)).Nodup) : dictOf l = l := by
  have set_new : ∀ (d : List (List Char × Json)) k v, k ∉ d.map (·.1) →
      Dict.set d k v = d ++ [(k, v)] := by
    intro d k v hk
    induction d with
    | nil => rfl
    | cons e d ih =>
      obtain ⟨k', v'⟩ := e
      simp only [List.map_cons, List.mem_cons, not_or] at hk
      simp only [Dict.set, if_neg (Ne.symm hk.1), ih hk.2, List.cons_append]
  have : ∀ (acc l : List (List Char × Json)), ((acc ++ l).map (·.1)).Nodup →
      l.foldl (fun d p => Dict.set d p.1 p.2) acc = acc ++ l := by
    intro acc l
    induction l generalizing acc with
    | nil => simp
    | cons p l ih =>
      intro hn
      have hp : p.1 ∉ acc.map (·.1) := by
        simp only [List.map_append, List.map_cons, List.nodup_append] at hn
        intro hm
        exact hn.2.2 _ hm _ (by simp) rfl
      simp only [List.foldl_cons]
      rw [set_new acc p.1 p.2 hp, ih _ (by simpa using hn)]
      simp
  exact this [] l (by simpa using h)

/-- Reading back a value that is followed by the rest of a document. -/
theorem scan_dumps (v : Json) (hv : ValidJson v) (fuel : Nat) (r : List Char)
    (hf : (dumps v).length ≤ fuel) (hr : Stops r) :
    scan fuel (dumps v ++ r) = .ok (canon v, r) := by
  have hpos : ∃ f, fuel = f + 1 := by
    obtain ⟨c, t, h, -⟩ := dumps_head hv
    rw [h] at hf
    exact ⟨fuel - 1, by simp at hf; omega⟩
  obtain ⟨f, rfl⟩ := hpos
  induction hv generalizing f r with
  | null => rfl
  | bool b => cases b <;> rfl
  | int i =>
    obtain ⟨c, t, h1, h2⟩ := strInt_head i
    have h3 := scanNumber_int i r hr
    simp only [dumps, canon, h1, List.cons_append] at h3 ⊢
    rw [scan_number _ _ _ h2, h3]
  | float t ht =>
    obtain ⟨c, t', h1, h2⟩ := floatText_head ht
    have h3 := scanNumber_float t r ht hr
    simp only [dumps, canon, h1, List.cons_append] at h3 ⊢
    rw [scan_number _ _ _ h2, h3]
  | str s =>
    simp only [dumps, quote, canon, List.cons_append, List.append_assoc, List.nil_append]
    rw [scan, scanString_quote]
  | arr l hl ih0 =>
    have ih : ∀ v ∈ l, ∀ fuel r, (dumps v).length ≤ fuel → Stops r →
        scan fuel (dumps v ++ r) = .ok (canon v, r) := by
      intro v hm fuel r h1 h2
      obtain ⟨c, t, h, -⟩ := dumps_head (hl v hm)
      obtain ⟨f, rfl⟩ : ∃ f, fuel = f + 1 := ⟨fuel - 1, by simp [h] at h1; omega⟩
      exact ih0 v hm r h2 f h1
    simp only [dumps, canon, dumpsList_eq, canonList_eq, List.length_cons, List.length_append,
      List.length_nil, List.cons_append, List.append_assoc, List.nil_append] at hf ⊢
    cases l with
    | nil => rfl
    | cons v l =>
      have h1 := scanElems_join (v :: l) (by simp) hl ih f r (by omega)
      obtain ⟨c, t, h2, h3, h4, -⟩ := dumps_head (hl v (by simp))
      obtain ⟨t', ht'⟩ : ∃ t', joinComma ((v :: l).map dumps) = c :: t' := by
        cases l with
        | nil => exact ⟨t, by simp [joinComma, h2]⟩
        | cons w l => exact ⟨_, by simp only [List.map_cons, joinComma, h2, List.cons_append]; rfl⟩
      rw [ht'] at h1 ⊢
      rw [scan]
      have h5 : skipWs (c :: t' ++ ']' :: r) = c :: t' ++ ']' :: r := by simp [skipWs, h3]
      rw [h5]
      simp only [List.cons_append] at h1 ⊢
      split
      · rename_i h; cases h; exact absurd rfl h4
      · rw [h1]
  | obj kvs hk hl ih0 =>
    have ih : ∀ p ∈ kvs, ∀ fuel r, (dumps p.2).length ≤ fuel → Stops r →
        scan fuel (dumps p.2 ++ r) = .ok (canon p.2, r) := by
      intro p hm fuel r h1 h2
      obtain ⟨c, t, h, -⟩ := dumps_head (hl p hm)
      obtain ⟨f, rfl⟩ : ∃ f, fuel = f + 1 := ⟨fuel - 1, by simp [h] at h1; omega⟩
      exact ih0 p hm r h2 f h1
    simp only [dumps, canon, dumpsPairs_eq, canonPairs_eq, sort_map, List.map_map,
      List.length_cons, List.length_append, List.length_nil, List.cons_append,
      List.append_assoc, List.nil_append] at hf ⊢
    have hperm := List.mergeSort_perm kvs keyLe
    change _ + (0 + 1) + 1 ≤ f + 1 at hf
    have hfun : ((fun p : List Char × List Char => quote p.1 ++ (':' :: ' ' :: p.2)) ∘
      fun p : List Char × Json => (p.1, dumps p.2)) = member := rfl
    rw [hfun] at hf ⊢
    have hl' : ∀ p ∈ kvs.mergeSort keyLe, ValidJson p.2 := fun p hp => hl p (hperm.mem_iff.1 hp)
    have ih' := fun p (hp : p ∈ kvs.mergeSort keyLe) => ih p (hperm.mem_iff.1 hp)
    have hk' : ((kvs.mergeSort keyLe).map (·.1)).Nodup := (hperm.map _).nodup_iff.2 hk
    revert hl' ih' hk' hf
    generalize kvs.mergeSort keyLe = ps
    intro hf hl' ih' hk'
    cases ps with
    | nil => rfl
    | cons p ps =>
      have h1 := scanMembers_join (p :: ps) (by simp) hl' ih' f r (by omega)
      rw [join_member p ps, scan]
      have h5 : skipWs ('"' :: (joinComma ((p :: ps).map member)).tail ++ ('}' :: r)) =
        '"' :: ((joinComma ((p :: ps).map member)).tail ++ ('}' :: r)) := rfl
      rw [h5]
      simp only [h1]
      rw [dictOf_nodup]
      simpa [List.map_map, Function.comp_def] using hk'

theorem keyLe_trans {α : Type} (a b c : List Char × α) (h1 : keyLe a b = true)
    (h2 : keyLe b c = true) : keyLe a c = true := by
  simp only [keyLe, decide_eq_true_eq] at *
  exact le_trans h1 h2

theorem keyLe_total {α : Type} (a b : List Char × α) : (keyLe a b || keyLe b a) = true := by
  simp only [keyLe, Bool.or_eq_true, decide_eq_true_eq]
  exact le_total _ _

/-- What is written does not depend on the order of keys. -/
theorem dumps_canon {v : Json} (hv : ValidJson v) : dumps (canon v) = dumps v := by
  induction hv with
  | null => rfl
  | bool b => rfl
  | int i => rfl
  | float t h => rfl
  | str s => rfl
  | arr l h ih =>
    simp only [canon, dumps, canonList_eq, dumpsList_eq, List.map_map]
    rw [List.map_congr_left (f := dumps ∘ canon) (g := dumps) (fun v hm => ih v hm)]
  | obj kvs hk h ih =>
    simp only [canon, dumps, canonPairs_eq, dumpsPairs_eq, sort_map]
    rw [List.mergeSort_of_pairwise (List.pairwise_mergeSort keyLe_trans keyLe_total kvs)]
    simp only [List.map_map]
    congr 3
    refine List.map_congr_left fun p hm => ?_
    have := ih p ((List.mergeSort_perm kvs keyLe).mem_iff.1 hm)
    simp only [Function.comp_apply, this]

/-- The value read back equals the one written. -/
theorem same_canon {v : Json} (hv : ValidJson v) : SameJson v (canon v) := by
  induction hv with
  | null => exact .null
  | bool b => exact .bool b
  | int i => exact .int i
  | float t h => exact .float t
  | str s => exact .str s
  | arr l h ih =>
    refine .arr _ _ (by simp [canonList_eq]) ?_
    intro i x y hx hy
    rw [canonList_eq, List.getElem?_map, hx] at hy
    cases hy
    exact ih x (List.mem_of_getElem? hx)
  | obj kvs hk h ih =>
    have hperm := List.mergeSort_perm kvs keyLe
    refine .obj _ _ (by simp [canonPairs_eq]) ?_ ?_
    · intro k
      rw [canonPairs_eq, sort_map, List.map_map]
      exact ((hperm.map (·.1)).mem_iff (a := k)).symm
    · intro k v v' h1 h2
      rw [canonPairs_eq, sort_map, List.mem_map] at h2
      obtain ⟨p, h2, h3⟩ := h2
      have h4 := hperm.mem_iff.1 h2
      cases h3
      have h5 : v = p.2 := by
        have := (List.nodup_map_iff_inj_on (List.Nodup.of_map _ hk)).1 hk _ h1 _ h4 rfl
        rw [← this]
      rw [h5]
      exact ih p h4

theorem loads_dumps {v : Json} (hv : ValidJson v) : loads (dumps v) = .ok (canon v) := by
  have h := scan_dumps v hv ((dumps v).length + 1) [] (by omega) (.inl rfl)
  have h2 := skipWs_dumps hv []
  rw [List.append_nil] at h h2
  rw [loads, if_neg, h2, h]
  · rfl
  · obtain ⟨c, t, h1, -, -, h2⟩ := dumps_head hv
    rw [h1]
    simp only [List.head?_cons, Option.some.injEq]
    rintro rfl
    revert h2
    decide

end Kiel.Json
