import Verif.Spec.JsonText
import Verif.Lemmas.Json
import Mathlib.Data.List.Induction
/-
`json.loads` and the grammar of JSON.
-/
set_option autoImplicit false
namespace Kiel.Json
open Kiel.Spec

/-! ### Characters -/

theorem hexVal_iff (c : Char) (n : Nat) : hexVal c = some n ↔ HexDigit c n := by
  constructor
  · intro h
    unfold hexVal at h
    have h0 : c = Char.ofNat c.toNat := (Char.ofNat_toNat c).symm
    have k1 : ∀ n : Fin 10, HexDigit (Char.ofNat (48 + n.1)) n.1 := by
      unfold HexDigit; decide
    have k2 : ∀ n : Fin 6, HexDigit (Char.ofNat (97 + n.1)) (10 + n.1) := by
      unfold HexDigit; decide
    have k3 : ∀ n : Fin 6, HexDigit (Char.ofNat (65 + n.1)) (10 + n.1) := by
      unfold HexDigit; decide
    split at h
    · rename_i hc
      cases h
      simp only [Char.isDigit, Bool.and_eq_true, decide_eq_true_eq] at hc
      have h1 : 48 ≤ c.toNat := hc.1
      have h2 : c.toNat ≤ 57 := hc.2
      have := k1 ⟨c.toNat - 48, by omega⟩
      rwa [show 48 + (c.toNat - 48) = c.toNat by omega, ← h0] at this
    split at h
    · rename_i hc
      cases h
      have h1 : 97 ≤ c.toNat := hc.1
      have h2 : c.toNat ≤ 102 := hc.2
      have := k2 ⟨c.toNat - 97, by omega⟩
      simp only at this
      rwa [show 97 + (c.toNat - 97) = c.toNat by omega,
        show 10 + (c.toNat - 97) = c.toNat - 87 by omega, ← h0] at this
    split at h
    · rename_i hc
      cases h
      have h1 : 65 ≤ c.toNat := hc.1
      have h2 : c.toNat ≤ 70 := hc.2
      have := k3 ⟨c.toNat - 65, by omega⟩
      simp only at this
      rwa [show 65 + (c.toNat - 65) = c.toNat by omega,
        show 10 + (c.toNat - 65) = c.toNat - 55 by omega, ← h0] at this
    · cases h
  · intro h
    have hn : n < 16 := by
      rcases h with h | h
      · exact (List.getElem?_eq_some_iff.1 h).1
      · exact (List.getElem?_eq_some_iff.1 h).1
    have k1 : ∀ n : Fin 16, ("0123456789abcdef".toList[n.1]?).bind hexVal = some n.1 := by decide
    have k2 : ∀ n : Fin 16, ("0123456789ABCDEF".toList[n.1]?).bind hexVal = some n.1 := by decide
    rcases h with h | h
    · have := k1 ⟨n, hn⟩
      rwa [h] at this
    · have := k2 ⟨n, hn⟩
      rwa [h] at this

theorem hex4_of {t : List Char} {n : Nat} (h : Hex4 t n) (r : List Char) :
    hex4 (t ++ r) = some (n, r) := by
  cases h with
  | mk a b c d w x y z ha hb hc hd =>
    simp only [List.cons_append, List.nil_append, hex4, (hexVal_iff _ _).2 ha,
      (hexVal_iff _ _).2 hb, (hexVal_iff _ _).2 hc, (hexVal_iff _ _).2 hd, Option.some.injEq,
      Prod.mk.injEq, and_true]
    omega

theorem hex4_inv {s r : List Char} {n : Nat} (h : hex4 s = some (n, r)) :
    ∃ t, s = t ++ r ∧ Hex4 t n := by
  unfold hex4 at h
  split at h
  · rename_i a b c d r'
    split at h
    · rename_i w x y z ha hb hc hd
      cases h
      refine ⟨[a, b, c, d], rfl, ?_⟩
      have := Hex4.mk a b c d w x y z ((hexVal_iff _ _).1 ha) ((hexVal_iff _ _).1 hb)
        ((hexVal_iff _ _).1 hc) ((hexVal_iff _ _).1 hd)
      rwa [show ((w * 16 + x) * 16 + y) * 16 + z = 4096 * w + 256 * x + 16 * y + z by omega] at this
    · cases h
  · cases h

theorem scanChar_of {a : List Char} {c : Char} (h : CharText a c) (r : List Char) :
    scanChar (a ++ r) = .ok (some c, r) := by
  cases h with
  | raw _ h hq hb =>
    simp only [List.cons_append, List.nil_append, scanChar, hq, hb, if_false]
    rw [if_neg (by omega)]
  | quote => rfl
  | backslash => rfl
  | slash => rfl
  | backspace => rfl
  | formFeed => rfl
  | lineFeed => rfl
  | carriageReturn => rfl
  | tab => rfl
  | unit t _ h =>
    have := char_valid c
    simp only [List.cons_append, scanChar]
    rw [if_neg (by decide), if_pos trivial, if_neg (by simp), hex4_of h]
    simp only
    rw [if_neg (by omega), if_neg (by omega), Char.ofNat_toNat]
  | pair t t' hi lo _ h h' hhi hlo hc =>
    simp only [List.cons_append, List.append_assoc, scanChar]
    rw [if_neg (by decide), if_pos trivial, if_neg (by simp), hex4_of h]
    simp only
    rw [if_pos (by omega), hex4_of h']
    simp only
    rw [if_pos (by omega)]
    rw [show 0x10000 + ((hi - 0xd800) * 1024 + (lo - 0xdc00)) = c.toNat by omega,
      Char.ofNat_toNat]

theorem unescape_inv {e c : Char} (h : unescape e = some c) : CharText ['\\', e] c := by
  unfold unescape at h
  split at h
  · rename_i he
    cases h
    rcases he with rfl | rfl | rfl
    · exact .quote
    · exact .backslash
    · exact .slash
  split at h
  · subst_vars; cases h; exact .backspace
  split at h
  · subst_vars; cases h; exact .formFeed
  split at h
  · subst_vars; cases h; exact .lineFeed
  split at h
  · subst_vars; cases h; exact .carriageReturn
  split at h
  · subst_vars; cases h; exact .tab
  · cases h

theorem toNat_ofNat_of {n : Nat} (h : n < 0xd800 ∨ (0xdfff < n ∧ n < 0x110000)) :
    (Char.ofNat n).toNat = n := by
  have hv : n.isValidChar := h
  simp only [Char.ofNat, hv, dif_pos]
  rfl

theorem hex4_lt {t : List Char} {n : Nat} (h : Hex4 t n) : n < 65536 := by
  have hl : ∀ {c : Char} {n : Nat}, HexDigit c n → n < 16 := by
    intro c n h
    rcases h with h | h
    · exact (List.getElem?_eq_some_iff.1 h).1
    · exact (List.getElem?_eq_some_iff.1 h).1
  cases h with
  | mk a b c d w x y z ha hb hc hd =>
    have := hl ha
    have := hl hb
    have := hl hc
    have := hl hd
    omega

theorem scanChar_inv {s r : List Char} {o : Option Char} (h : scanChar s = .ok (o, r)) :
    (o = .none ∧ s = '"' :: r) ∨ ∃ a c, o = some c ∧ s = a ++ r ∧ CharText a c := by
  unfold scanChar at h
  split at h
  · cases h
  rename_i c t
  split at h
  · subst_vars; cases h; exact .inl ⟨rfl, rfl⟩
  right
  split at h
  · rename_i h1 h2
    subst h2
    split at h
    · cases h
    rename_i e t
    split at h
    · split at h
      · rename_i c' hu
        cases h
        exact ⟨_, c', rfl, rfl, unescape_inv hu⟩
      · cases h
    · rename_i he
      have he : e = 'u' := by simpa using he
      subst he
      split at h
      · cases h
      rename_i u t' h4
      obtain ⟨t1, rfl, hx⟩ := hex4_inv h4
      have hlt := hex4_lt hx
      split at h
      · split at h
        · split at h
          · cases h
          rename_i u' t2 h5
          obtain ⟨t3, rfl, hx'⟩ := hex4_inv h5
          split at h
          · rename_i hr1 _ _ hr2
            cases h
            refine ⟨_, _, rfl, ?_, .pair t1 t3 u u' _ hx hx' (by omega) (by omega) ?_⟩
            · simp
            · rw [toNat_ofNat_of (by omega)]; omega
          · cases h
        · cases h
      split at h
      · cases h
      · cases h
        refine ⟨'\\' :: 'u' :: t1, _, rfl, rfl, .unit _ _ ?_⟩
        rwa [toNat_ofNat_of (by omega)]
  split at h
  · cases h
  · rename_i hq hb hc
    cases h
    exact ⟨[c], c, rfl, rfl, .raw c (by omega) hq hb⟩

theorem charText_pos {a : List Char} {c : Char} (h : CharText a c) : 1 ≤ a.length := by
  cases h <;> simp

/-! ### Strings -/

theorem scanChars_of {t s : List Char} (h : StringText t s) (fuel : Nat) (r : List Char)
    (hf : t.length < fuel) : scanChars fuel (t ++ '"' :: r) = .ok (s, r) := by
  induction h generalizing fuel with
  | nil =>
    obtain ⟨f, rfl⟩ : ∃ f, fuel = f + 1 := ⟨fuel - 1, by omega⟩
    rfl
  | cons a c t s h hs ih =>
    obtain ⟨f, rfl⟩ : ∃ f, fuel = f + 1 := ⟨fuel - 1, by omega⟩
    have := charText_pos h
    rw [List.length_append] at hf
    simp only [List.append_assoc, scanChars, scanChar_of h]
    rw [ih f (by omega)]

theorem scanString_of {t s : List Char} (h : StringText t s) (r : List Char) :
    scanString (t ++ '"' :: r) = .ok (s, r) :=
  scanChars_of h _ r (by simp only [List.length_append]; omega)

theorem scanChars_inv (fuel : Nat) {s r cs : List Char} (h : scanChars fuel s = .ok (cs, r)) :
    ∃ t, s = t ++ '"' :: r ∧ StringText t cs := by
  induction fuel generalizing s cs with
  | zero => cases h
  | succ f ih =>
    unfold scanChars at h
    split at h
    · cases h
    · rename_i r' hc
      cases h
      rcases scanChar_inv hc with ⟨-, rfl⟩ | ⟨a, c, h1, -⟩
      · exact ⟨[], rfl, .nil⟩
      · cases h1
    · rename_i c r' hc
      split at h
      · cases h
      · rename_i cs' r2 h2
        cases h
        obtain ⟨t, rfl, ht⟩ := ih h2
        rcases scanChar_inv hc with ⟨h1, -⟩ | ⟨a, c', h1, rfl, h3⟩
        · cases h1
        · cases h1
          exact ⟨a ++ t, by simp, .cons a c t cs' h3 ht⟩

theorem scanString_inv {s r cs : List Char} (h : scanString s = .ok (cs, r)) :
    ∃ t, s = t ++ '"' :: r ∧ StringText t cs := scanChars_inv _ h

/-! ### White space -/

theorem isWs_iff (c : Char) : isWs c = true ↔ (c = ' ' ∨ c = '\t' ∨ c = '\n' ∨ c = '\r') := by
  simp [isWs, or_assoc]

theorem skipWs_blank {w : List Char} (h : Blank w) (r : List Char) : skipWs (w ++ r) = skipWs r := by
  induction w with
  | nil => rfl
  | cons c w ih =>
    have hc := (isWs_iff c).2 (h c (by simp))
    have := ih fun x hx => h x (List.mem_cons_of_mem _ hx)
    simp only [skipWs, List.cons_append, List.dropWhile_cons, hc, if_true] at this ⊢
    exact this

theorem skipWs_inv (s : List Char) : ∃ w, Blank w ∧ s = w ++ skipWs s := by
  refine ⟨s.takeWhile isWs, ?_, List.takeWhile_append_dropWhile.symm⟩
  intro c hc
  exact (isWs_iff c).1 (List.all_eq_true.1 (List.all_takeWhile (p := isWs) (l := s)) c hc)

/-! ### Numbers -/

theorem isDigit_iff (c : Char) : c.isDigit = true ↔ '0' ≤ c ∧ c ≤ '9' := by
  simp only [Char.isDigit, Bool.and_eq_true, decide_eq_true_eq]
  rfl

/-- What can follow a number. -/
def Ends (r : List Char) : Prop :=
  ∀ c t, r = c :: t → c.isDigit = false ∧ c ≠ '.' ∧ c ≠ 'e' ∧ c ≠ 'E'

theorem intDigits_iff (ds : List Char) : IntDigits ds ↔
    (ds = ['0'] ∨ ∃ c t, ds = c :: t ∧ c ≠ '0' ∧ ∀ x ∈ ds, x.isDigit = true) := by
  constructor
  · rintro ⟨⟨h0, h1⟩, h2⟩
    cases ds with
    | nil => exact absurd rfl h0
    | cons c t =>
      by_cases hc : c = '0'
      · subst hc; exact .inl (h2 rfl)
      · exact .inr ⟨c, t, rfl, hc, fun x hx => (isDigit_iff x).2 (h1 x hx)⟩
  · rintro (rfl | ⟨c, t, rfl, hc, hd⟩)
    · exact ⟨⟨by simp, by decide⟩, fun _ => rfl⟩
    · exact ⟨⟨by simp, fun x hx => (isDigit_iff x).1 (hd x hx)⟩, fun h => by
        simp only [List.head?_cons, Option.some.injEq] at h; exact absurd h hc⟩

theorem ofDigitChars_decimal (ds : List Char) (acc : Nat) :
    Nat.ofDigitChars 10 ds acc = acc * 10 ^ ds.length + decimal ds := by
  induction ds generalizing acc with
  | nil => simp [Nat.ofDigitChars, decimal]
  | cons c ds ih =>
    have h : Nat.ofDigitChars 10 (c :: ds) acc =
      Nat.ofDigitChars 10 ds (10 * acc + (c.toNat - '0'.toNat)) := rfl
    rw [h, ih, decimal, List.length_cons]
    have h48 : '0'.toNat = 48 := rfl
    rw [h48, Nat.pow_succ, Nat.add_mul, Nat.add_assoc, Nat.mul_comm 10 acc, Nat.mul_assoc,
      Nat.mul_comm 10 (10 ^ _)]

theorem pyNat?_decimal {ds : List Char} (h0 : ds ≠ []) (hd : ∀ x ∈ ds, x.isDigit = true) :
    pyNat? ds = some (decimal ds) := by
  unfold pyNat?
  simp only [dropSeparators_digits _ hd]
  rw [if_pos ⟨h0, List.all_eq_true.2 hd⟩, ofDigitChars_decimal]
  simp

theorem pyInt?_decimal {ds : List Char} (h0 : ds ≠ []) (hd : ∀ x ∈ ds, x.isDigit = true) :
    pyInt? ds = some (decimal ds : Int) ∧ pyInt? ('-' :: ds) = some (-(decimal ds : Int)) := by
  have hb : ∀ c ∈ ds, isBlank c = false := fun c hc => digit_not_blank c (hd c hc)
  constructor
  · unfold pyInt?
    rw [pyStrip_plain _ hb]
    split
    · exact absurd (hd '-' (by simp)) (by decide)
    · exact absurd (hd '+' (by simp)) (by decide)
    · rw [pyNat?_decimal h0 hd]; rfl
  · unfold pyInt?
    rw [pyStrip_plain _ fun c hc => by
      rcases List.mem_cons.1 hc with rfl | hc
      · decide
      · exact hb _ hc]
    simp only [pyNat?_decimal h0 hd]
    rfl

theorem digits_isDigit_iff (ds : List Char) :
    Digits ds ↔ ds ≠ [] ∧ ∀ x ∈ ds, x.isDigit = true := by
  simp only [Digits, isDigit_iff]

theorem scanExp_of (c : Char) (s ds r : List Char) (hc : c = 'e' ∨ c = 'E')
    (hs : s = [] ∨ s = ['+'] ∨ s = ['-']) (h0 : ds ≠ [])
    (hd : ∀ x ∈ ds, x.isDigit = true) (hr : ∀ c t, r = c :: t → c.isDigit = false) :
    scanExp (c :: (s ++ (ds ++ r))) = (c :: (s ++ ds), r) := by
  obtain ⟨h1, h2⟩ := takeWhile_digits ds r hd hr
  rcases hs with rfl | rfl | rfl
  · cases ds with
    | nil => exact absurd rfl h0
    | cons d ds =>
      have hdd : d.isDigit = true := hd d (by simp)
      have hp : d ≠ '+' := by rintro rfl; revert hdd; decide
      have hm : d ≠ '-' := by rintro rfl; revert hdd; decide
      simp only [List.cons_append, List.nil_append] at h1 h2 ⊢
      simp only [scanExp, hc, if_true]
      split
      · rename_i h; cases h; exact absurd rfl hp
      · rename_i h; cases h; exact absurd rfl hm
      · rw [h1, h2]; simp
  · simp [scanExp, h1, h2, h0, hc]
  · simp [scanExp, h1, h2, h0, hc]

theorem scanNumber_of (sign ds f e r : List Char) (hs : sign = [] ∨ sign = ['-'])
    (h : IntDigits ds) (hf : f = [] ∨ Fraction f) (he : e = [] ∨ Exponent e) (hr : Ends r) :
    scanNumber (sign ++ ds ++ f ++ e ++ r) = numberOf (sign ++ ds) f e r := by
  have hnd : ∀ c t, r = c :: t → c.isDigit = false := fun c t hc => (hr c t hc).1
  have h2 : scanExp (e ++ r) = (e, r) := by
    rcases he with rfl | ⟨c, s, ds', rfl, hc, hs', hd⟩
    · exact scanExp_none r fun c t hc => (hr c t hc).2.2
    · obtain ⟨h0, hd⟩ := (digits_isDigit_iff _).1 hd
      have := scanExp_of c s ds' r hc hs' h0 hd hnd
      simpa using this
  have hnd2 : ∀ c t, e ++ r = c :: t → c.isDigit = false ∧ c ≠ '.' := by
    rcases he with rfl | ⟨c, s, ds', rfl, hc, hs', hd⟩
    · exact fun c t hc => ⟨(hr c t hc).1, (hr c t hc).2.1⟩
    · intro c' t hc'
      simp only [List.cons_append] at hc'
      cases hc'
      rcases hc with rfl | rfl <;> decide
  have h1 : scanFrac (f ++ (e ++ r)) = (f, e ++ r) := by
    rcases hf with rfl | ⟨ds', rfl, hd⟩
    · exact scanFrac_none _ fun t ht => (hnd2 _ _ ht).2 rfl
    · obtain ⟨h0, hd⟩ := (digits_isDigit_iff _).1 hd
      exact scanFrac_some ds' (e ++ r) h0 hd fun c t hc => (hnd2 c t hc).1
  refine scanNumber_parts sign ds f e r hs ((intDigits_iff ds).1 h) h1 h2 ?_
  rcases hf with rfl | ⟨ds', rfl, hd⟩
  · exact fun c t hc => (hnd2 c t hc).1
  · intro c t hc; simp only [List.cons_append] at hc; cases hc; rfl

theorem scanDigits_inv {s ds r : List Char} (h : scanDigits s = some (ds, r)) :
    s = ds ++ r ∧ IntDigits ds := by
  unfold scanDigits at h
  split at h
  · cases h
  rename_i c t
  split at h
  · subst_vars
    cases h
    exact ⟨rfl, (intDigits_iff _).2 (.inl rfl)⟩
  split at h
  · rename_i h0 hc
    cases h
    refine ⟨by simp, (intDigits_iff _).2 (.inr ⟨c, _, rfl, h0, ?_⟩)⟩
    intro x hx
    rcases List.mem_cons.1 hx with rfl | hx
    · exact hc
    · exact List.all_eq_true.1 (List.all_takeWhile (p := Char.isDigit) (l := t)) x hx
  · cases h

theorem takeWhile_digits_spec {t : List Char} (h : ¬ t.takeWhile Char.isDigit = []) :
    Digits (t.takeWhile Char.isDigit) :=
  (digits_isDigit_iff _).2 ⟨h, fun x hx =>
    List.all_eq_true.1 (List.all_takeWhile (p := Char.isDigit) (l := t)) x hx⟩

theorem scanFrac_inv (s : List Char) :
    s = (scanFrac s).1 ++ (scanFrac s).2 ∧ ((scanFrac s).1 = [] ∨ Fraction (scanFrac s).1) := by
  unfold scanFrac
  split
  · rename_i r
    split
    · exact ⟨rfl, .inl rfl⟩
    · rename_i h
      exact ⟨by simp, .inr ⟨_, rfl, takeWhile_digits_spec h⟩⟩
  · exact ⟨rfl, .inl rfl⟩

theorem scanExp_inv (s : List Char) :
    s = (scanExp s).1 ++ (scanExp s).2 ∧ ((scanExp s).1 = [] ∨ Exponent (scanExp s).1) := by
  unfold scanExp
  split
  · exact ⟨rfl, .inl rfl⟩
  rename_i e r
  split
  · rename_i he
    split
    rename_i sign ds hm
    have hm' : r = sign ++ ds ∧ (sign = [] ∨ sign = ['+'] ∨ sign = ['-']) := by
      split at hm <;> cases hm <;> simp
    obtain ⟨rfl, hs⟩ := hm'
    split
    · exact ⟨rfl, .inl rfl⟩
    · rename_i h
      exact ⟨by simp, .inr ⟨e, sign, _, rfl, he, hs, takeWhile_digits_spec h⟩⟩
  · exact ⟨rfl, .inl rfl⟩

theorem scanNumber_inv {s r : List Char} {v : Json} (h : scanNumber s = .ok (v, r)) :
    ∃ t, s = t ++ r ∧ JsonText pyConstants t v := by
  unfold scanNumber at h
  split at h
  · rename_i ds r' hd
    obtain ⟨h1, hds⟩ := scanDigits_inv hd
    obtain ⟨h2, hf⟩ := scanFrac_inv r'
    obtain ⟨h3, he⟩ := scanExp_inv (scanFrac r').2
    have hsgn : s = (scanSign s).1 ++ (scanSign s).2 ∧
        ((scanSign s).1 = [] ∨ (scanSign s).1 = ['-']) := by
      unfold scanSign
      split
      · simp
      · split
        · subst_vars; simp
        · simp
    have hall : s = (scanSign s).1 ++ ds ++ (scanFrac r').1 ++ (scanExp (scanFrac r').2).1 ++
        (scanExp (scanFrac r').2).2 := by
      simp only [List.append_assoc]
      rw [← h3, ← h2, ← h1, ← hsgn.1]
    revert hall h hf he
    generalize (scanFrac r').1 = f
    generalize (scanExp (scanFrac r').2).1 = e
    generalize (scanExp (scanFrac r').2).2 = r2
    have hs' := hsgn.2
    revert hs'
    generalize (scanSign s).1 = sg
    intro hs' h hf he hall
    unfold numberOf at h
    obtain ⟨h0, hdd⟩ := (digits_isDigit_iff _).1 hds.1
    split at h
    · rename_i hfe
      obtain ⟨rfl, rfl⟩ := hfe
      simp only [List.append_nil] at hall
      rcases hs' with rfl | rfl
      · rw [List.nil_append, (pyInt?_decimal h0 hdd).1] at h
        cases h
        exact ⟨ds, hall, .nat ds hds⟩
      · rw [List.cons_append, List.nil_append, (pyInt?_decimal h0 hdd).2] at h
        cases h
        exact ⟨'-' :: ds, hall, .neg ds hds⟩
    · rename_i hfe
      cases h
      refine ⟨_, hall, .float sg ds f e hs' hds hf he ?_⟩
      by_cases hf0 : f = []
      · exact .inr fun he0 => hfe ⟨hf0, he0⟩
      · exact .inl hf0
  · split at h
    · cases h; exact ⟨_, rfl, .const "NaN" (by simp [pyConstants])⟩
    · cases h; exact ⟨_, rfl, .const "Infinity" (by simp [pyConstants])⟩
    · cases h; exact ⟨_, rfl, .const "-Infinity" (by simp [pyConstants])⟩
    · cases h

/-! ### Objects -/

theorem lastWins_dictOf (ps : List (List Char × Json)) : LastWins ps (dictOf ps) := by
  induction ps using List.reverseRecOn with
  | nil => exact ⟨by simp [dictOf], fun k v => by simp [dictOf]⟩
  | append_singleton ps p ih =>
    have hd : dictOf (ps ++ [p]) = Dict.set (dictOf ps) p.1 p.2 := by
      simp [dictOf, List.foldl_append]
    obtain ⟨hn, hm⟩ := ih
    refine ⟨by rw [hd]; exact Dict.nodup_set hn _ _, ?_⟩
    intro k v
    have hset : (k, v) ∈ Dict.set (dictOf ps) p.1 p.2 ↔
        ((k, v) = (p.1, p.2) ∨ ((k, v) ∈ dictOf ps ∧ k ≠ p.1)) := Dict.mem_set hn
    rw [hd, hset, hm]
    constructor
    · rintro (h | ⟨⟨a, b, rfl, hb⟩, hk⟩)
      · exact ⟨ps, [], by rw [h], by simp⟩
      · refine ⟨a, b ++ [p], by simp, ?_⟩
        intro w hw
        rcases List.mem_append.1 hw with hw | hw
        · exact hb w hw
        · simp only [List.mem_singleton] at hw
          exact hk (by rw [← hw])
    · rintro ⟨a, b, h, hb⟩
      rcases List.eq_nil_or_concat b with rfl | ⟨b', q, rfl⟩
      · obtain ⟨-, h2⟩ := List.append_inj' h rfl
        left
        cases h2
        rfl
      · right
        rw [List.concat_eq_append] at h hb
        have h' : ps ++ [p] = (a ++ (k, v) :: b') ++ [q] := by rw [h]; simp
        obtain ⟨h1, h2⟩ := List.append_inj' h' rfl
        cases h2
        refine ⟨⟨a, b', h1, fun w hw => hb w (List.mem_append_left _ hw)⟩, ?_⟩
        rintro rfl
        exact hb p.2 (by simp)

theorem lastWins_keys {ps kvs : List (List Char × Json)} (h : LastWins ps kvs) (k : List Char) :
    k ∈ kvs.map (·.1) ↔ k ∈ ps.map (·.1) := by
  constructor
  · intro hk
    obtain ⟨⟨k', v⟩, h1, rfl⟩ := List.mem_map.1 hk
    obtain ⟨a, b, rfl, -⟩ := (h.2 k' v).1 h1
    simp
  · intro hk
    have : ∃ a v b, ps = a ++ (k, v) :: b ∧ ∀ w, (k, w) ∉ b := by
      clear h
      induction ps with
      | nil => simp at hk
      | cons p ps ih =>
        by_cases hm : k ∈ ps.map (·.1)
        · obtain ⟨a, v, b, rfl, hb⟩ := ih hm
          exact ⟨p :: a, v, b, rfl, hb⟩
        · simp only [List.map_cons, List.mem_cons] at hk
          rcases hk with rfl | hk
          · exact ⟨[], p.2, ps, rfl, fun w hw => hm (List.mem_map.2 ⟨_, hw, rfl⟩)⟩
          · exact absurd hk hm
    obtain ⟨a, v, b, h1, h2⟩ := this
    exact List.mem_map.2 ⟨(k, v), (h.2 k v).2 ⟨a, b, h1, h2⟩, rfl⟩

/-- Members with the same names and equal values. -/
def SameMember (p q : List Char × Json) : Prop := p.1 = q.1 ∧ SameJson p.2 q.2

theorem sameMember_names {ps qs : List (List Char × Json)} (h : List.Forall₂ SameMember ps qs) :
    ps.map (·.1) = qs.map (·.1) := by
  induction h with
  | nil => rfl
  | cons h1 _ ih => simp [h1.1, ih]

theorem lastWins_same {ps qs d d' : List (List Char × Json)} (h : List.Forall₂ SameMember ps qs)
    (hd : LastWins ps d) (hd' : LastWins qs d') : SameJson (.obj d) (.obj d') := by
  have hk : ∀ k, k ∈ d.map (·.1) ↔ k ∈ d'.map (·.1) := by
    intro k
    rw [lastWins_keys hd, lastWins_keys hd', sameMember_names h]
  refine .obj _ _ ?_ hk ?_
  · have := ((List.perm_ext_iff_of_nodup hd.1 hd'.1).2 hk).length_eq
    simpa using this
  · intro k v v' h1 h2
    obtain ⟨a, b, e1, hb⟩ := (hd.2 k v).1 h1
    obtain ⟨a', b', e2, hb'⟩ := (hd'.2 k v').1 h2
    clear hd hd' h1 h2 hk
    induction h generalizing a a' with
    | nil => simp at e1
    | @cons p q ps qs h0 hr ih =>
      have hnames := sameMember_names hr
      cases a with
      | nil =>
        cases e1
        cases a' with
        | nil => cases e2; exact h0.2
        | cons x a' =>
          simp only [List.cons_append, List.cons.injEq] at e2
          obtain ⟨rfl, rfl⟩ := e2
          have : k ∈ b.map (·.1) := by rw [hnames]; simp
          obtain ⟨⟨k', w⟩, hw, rfl⟩ := List.mem_map.1 this
          exact absurd hw (hb w)
      | cons y a =>
        simp only [List.cons_append, List.cons.injEq] at e1
        obtain ⟨rfl, rfl⟩ := e1
        cases a' with
        | nil =>
          cases e2
          have : k ∈ b'.map (·.1) := by rw [← hnames]; simp
          obtain ⟨⟨k', w⟩, hw, rfl⟩ := List.mem_map.1 this
          exact absurd hw (hb' w)
        | cons x a' =>
          simp only [List.cons_append, List.cons.injEq] at e2
          exact ih a rfl a' e2.2

/-! ### Values -/

theorem blank_ends {w : List Char} (h : Blank w) (r : List Char) (hr : Ends r) : Ends (w ++ r) := by
  cases w with
  | nil => exact hr
  | cons c w =>
    intro c' t e
    cases e
    rcases h c (by simp) with rfl | rfl | rfl | rfl <;> decide

theorem ends_nil : Ends [] := fun c t h => by cases h

theorem ends_cons {c : Char} (h : c = ',' ∨ c = ']' ∨ c = '}') (r : List Char) :
    Ends (c :: r) := by
  intro c' t e
  cases e
  rcases h with rfl | rfl | rfl <;> decide

theorem jsonText_head {t : List Char} {v : Json} (h : JsonText pyConstants t v) :
    ∃ c r, t = c :: r ∧ isWs c = false ∧ c ≠ ']' ∧ c ≠ Char.ofNat 0xfeff := by
  have hnum : ∀ {c : Char}, c.isDigit = true ∨ c = '-' →
      isWs c = false ∧ c ≠ ']' ∧ c ≠ Char.ofNat 0xfeff := by
    intro c hc
    obtain ⟨h1, h2, h3⟩ := number_head hc
    exact ⟨h1, h2, fun e => by subst e; revert h3; decide⟩
  cases h with
  | null => exact ⟨_, _, rfl, by decide, by decide, by decide⟩
  | true => exact ⟨_, _, rfl, by decide, by decide, by decide⟩
  | false => exact ⟨_, _, rfl, by decide, by decide, by decide⟩
  | nat _ h =>
    obtain ⟨c, t, rfl, hc⟩ := digits_head ((intDigits_iff _).1 h)
    exact ⟨c, t, rfl, hnum (.inl hc)⟩
  | neg ds h => exact ⟨_, _, rfl, by decide, by decide, by decide⟩
  | float sign ds f e hs h =>
    obtain ⟨c, t, rfl, hc⟩ := digits_head ((intDigits_iff _).1 h)
    rcases hs with rfl | rfl
    · exact ⟨c, _, rfl, hnum (.inl hc)⟩
    · exact ⟨'-', _, rfl, hnum (.inr rfl)⟩
  | const t h =>
    simp only [pyConstants, List.mem_cons, List.not_mem_nil, or_false] at h
    rcases h with rfl | rfl | rfl <;> exact ⟨_, _, rfl, by decide, by decide, by decide⟩
  | str t s h => exact ⟨_, _, rfl, by decide, by decide, by decide⟩
  | arrEmpty w h => exact ⟨_, _, rfl, by decide, by decide, by decide⟩
  | arr ps hne hw h => exact ⟨_, _, rfl, by decide, by decide, by decide⟩
  | objEmpty w h => exact ⟨_, _, rfl, by decide, by decide, by decide⟩
  | obj ps kvs hne hw h hk => exact ⟨_, _, rfl, by decide, by decide, by decide⟩

theorem skipWs_text {w t : List Char} {v : Json} (hw : Blank w) (h : JsonText pyConstants t v)
    (r : List Char) : skipWs (w ++ (t ++ r)) = t ++ r := by
  obtain ⟨c, t', rfl, hc, -⟩ := jsonText_head h
  rw [skipWs_blank hw]
  simp [skipWs, hc]

theorem skipWs_stop {w : List Char} (hw : Blank w) (c : Char) (hc : isWs c = false)
    (r : List Char) : skipWs (w ++ (c :: r)) = c :: r := by
  rw [skipWs_blank hw]
  simp [skipWs, hc]

/-- Reading a value works, whatever may follow it. -/
def Reads (t : List Char) (v : Json) : Prop := ∀ fuel r, t.length ≤ fuel → Ends r →
  ∃ v', scan fuel (t ++ r) = .ok (v', r) ∧ SameJson v v'

theorem scanElems_of (ps : List Item) (hne : ps ≠ [])
    (hw : ∀ p ∈ ps, Blank p.pre ∧ Blank p.post)
    (h : ∀ p ∈ ps, JsonText pyConstants p.text p.value) (ih : ∀ p ∈ ps, Reads p.text p.value)
    (fuel : Nat) (r : List Char) (hf : (commas (ps.map Item.whole)).length < fuel) :
    ∃ vs, scanElems fuel (skipWs (commas (ps.map Item.whole) ++ ']' :: r)) = .ok (vs, r) ∧
      List.Forall₂ SameJson (ps.map (·.value)) vs := by
  induction ps generalizing fuel with
  | nil => exact absurd rfl hne
  | cons p ps ihl =>
    obtain ⟨f, rfl⟩ : ∃ f, fuel = f + 1 := ⟨fuel - 1, by omega⟩
    obtain ⟨w1, w2⟩ := hw p (by simp)
    cases ps with
    | nil =>
      simp only [List.map_cons, List.map_nil, commas, Item.whole, List.length_append] at hf ⊢
      obtain ⟨v', h1, h2⟩ := ih p (by simp) f (p.post ++ ']' :: r) (by omega)
        (blank_ends w2 _ (ends_cons (by simp) _))
      refine ⟨[v'], ?_, .cons h2 .nil⟩
      simp only [List.append_assoc]
      rw [skipWs_text w1 (h p (by simp)), scanElems, h1]
      simp only [skipWs_stop w2 ']' (by decide)]
    | cons q ps =>
      simp only [List.map_cons, commas, Item.whole, List.length_append, List.length_cons] at hf
      obtain ⟨v', h1, h2⟩ := ih p (by simp) f
        (p.post ++ ',' :: (commas ((q :: ps).map Item.whole) ++ ']' :: r)) (by omega)
        (blank_ends w2 _ (ends_cons (by simp) _))
      obtain ⟨vs, h3, h4⟩ := ihl (by simp) (fun p hp => hw p (List.mem_cons_of_mem _ hp))
        (fun p hp => h p (List.mem_cons_of_mem _ hp))
        (fun p hp => ih p (List.mem_cons_of_mem _ hp)) f
        (by simp only [List.map_cons, Item.whole]; omega)
      refine ⟨v' :: vs, ?_, .cons h2 h4⟩
      have e : commas ((p :: q :: ps).map Item.whole) ++ ']' :: r =
          p.pre ++ (p.text ++ (p.post ++ ',' :: (commas ((q :: ps).map Item.whole) ++ ']' :: r))) := by
        simp [commas, Item.whole]
      rw [e, skipWs_text w1 (h p (by simp)), scanElems, h1]
      simp only [skipWs_stop w2 ',' (by decide), h3]

theorem scanMembers_of (ps : List NamedItem) (hne : ps ≠ [])
    (hw : ∀ p ∈ ps, Blank p.pre ∧ StringText p.nameText p.name ∧ Blank p.mid ∧
        Blank p.item.pre ∧ Blank p.item.post)
    (h : ∀ p ∈ ps, JsonText pyConstants p.item.text p.item.value)
    (ih : ∀ p ∈ ps, Reads p.item.text p.item.value)
    (fuel : Nat) (r : List Char) (hf : (commas (ps.map NamedItem.whole)).length < fuel) :
    ∃ s kvs, skipWs (commas (ps.map NamedItem.whole) ++ '}' :: r) = '"' :: s ∧
      scanMembers fuel s = .ok (kvs, r) ∧
      List.Forall₂ SameMember (ps.map fun p => (p.name, p.item.value)) kvs := by
  induction ps generalizing fuel with
  | nil => exact absurd rfl hne
  | cons p ps ihl =>
    obtain ⟨f, rfl⟩ : ∃ f, fuel = f + 1 := ⟨fuel - 1, by omega⟩
    obtain ⟨w1, w2, w3, w4, w5⟩ := hw p (by simp)
    cases ps with
    | nil =>
      simp only [List.map_cons, List.map_nil, commas, NamedItem.whole, Item.whole, List.length_append,
        List.length_cons] at hf
      obtain ⟨v', h1, h2⟩ := ih p (by simp) f (p.item.post ++ '}' :: r) (by omega)
        (blank_ends w5 _ (ends_cons (by simp) _))
      have e : commas ([p].map NamedItem.whole) ++ '}' :: r =
          p.pre ++ ('"' :: (p.nameText ++ '"' :: (p.mid ++ ':' :: (p.item.pre ++ (p.item.text ++
            (p.item.post ++ '}' :: r)))))) := by
        simp [commas, NamedItem.whole, Item.whole]
      refine ⟨_, [(p.name, v')], by rw [e, skipWs_stop w1 '"' (by decide)], ?_,
        .cons ⟨rfl, h2⟩ .nil⟩
      rw [scanMembers, scanString_of w2]
      simp only [skipWs_stop w3 ':' (by decide), skipWs_text w4 (h p (by simp)), h1,
        skipWs_stop w5 '}' (by decide)]
    | cons q ps =>
      have hf' : p.item.text.length ≤ f ∧ (commas ((q :: ps).map NamedItem.whole)).length < f := by
        simp only [List.map_cons, commas, NamedItem.whole, Item.whole, List.length_append,
          List.length_cons] at hf ⊢
        constructor <;> omega
      obtain ⟨v', h1, h2⟩ := ih p (by simp) f
        (p.item.post ++ ',' :: (commas ((q :: ps).map NamedItem.whole) ++ '}' :: r)) hf'.1
        (blank_ends w5 _ (ends_cons (by simp) _))
      obtain ⟨s, kvs, h3, h4, h5⟩ := ihl (by simp) (fun p hp => hw p (List.mem_cons_of_mem _ hp))
        (fun p hp => h p (List.mem_cons_of_mem _ hp))
        (fun p hp => ih p (List.mem_cons_of_mem _ hp)) f hf'.2
      have e : commas ((p :: q :: ps).map NamedItem.whole) ++ '}' :: r =
          p.pre ++ ('"' :: (p.nameText ++ '"' :: (p.mid ++ ':' :: (p.item.pre ++ (p.item.text ++
            (p.item.post ++ ',' :: (commas ((q :: ps).map NamedItem.whole) ++ '}' :: r))))))) := by
        simp [commas, NamedItem.whole, Item.whole]
      refine ⟨_, (p.name, v') :: kvs, by rw [e, skipWs_stop w1 '"' (by decide)], ?_,
        .cons ⟨rfl, h2⟩ h5⟩
      rw [scanMembers, scanString_of w2]
      simp only [skipWs_stop w3 ':' (by decide), skipWs_text w4 (h p (by simp)), h1,
        skipWs_stop w5 ',' (by decide), h3, h4]

theorem same_arr {l l' : List Json} (h : List.Forall₂ SameJson l l') :
    SameJson (.arr l) (.arr l') := by
  refine .arr _ _ h.length_eq ?_
  intro i x y hx hy
  obtain ⟨h1, rfl⟩ := List.getElem?_eq_some_iff.1 hx
  obtain ⟨h2, rfl⟩ := List.getElem?_eq_some_iff.1 hy
  exact List.Forall₂.get h h1 h2

theorem scan_of {t : List Char} {v : Json} (h : JsonText pyConstants t v) : Reads t v := by
  intro fuel r hf hr
  have hpos : ∃ f, fuel = f + 1 := by
    obtain ⟨c, t', rfl, -⟩ := jsonText_head h
    exact ⟨fuel - 1, by simp at hf; omega⟩
  obtain ⟨f, rfl⟩ := hpos
  have hnum : ∀ (sign ds f' e : List Char) (v : Json), (sign = [] ∨ sign = ['-']) →
      IntDigits ds → numberOf (sign ++ ds) f' e r = .ok (v, r) → (f' = [] ∨ Fraction f') →
      (e = [] ∨ Exponent e) → scan (f + 1) (sign ++ ds ++ f' ++ e ++ r) = .ok (v, r) := by
    intro sign ds f' e v hs hds hv hf' he
    rw [← hv, ← scanNumber_of sign ds f' e r hs hds hf' he hr]
    obtain ⟨c, t', rfl, hc⟩ := digits_head ((intDigits_iff _).1 hds)
    rcases hs with rfl | rfl
    · exact scan_number f c _ (.inl hc)
    · exact scan_number f '-' _ (.inr rfl)
  induction h generalizing f r with
  | null => exact ⟨_, rfl, .null⟩
  | true => exact ⟨_, rfl, .bool _⟩
  | false => exact ⟨_, rfl, .bool _⟩
  | nat ds h =>
    obtain ⟨h0, hd⟩ := (digits_isDigit_iff _).1 h.1
    have := hnum [] ds [] [] (.int (decimal ds)) (.inl rfl) h
      (by simp [numberOf, (pyInt?_decimal h0 hd).1]) (.inl rfl) (.inl rfl)
    exact ⟨_, by simpa using this, .int _⟩
  | neg ds h =>
    obtain ⟨h0, hd⟩ := (digits_isDigit_iff _).1 h.1
    have := hnum ['-'] ds [] [] (.int (-(decimal ds : Int))) (.inr rfl) h
      (by simp [numberOf, (pyInt?_decimal h0 hd).2]) (.inl rfl) (.inl rfl)
    exact ⟨_, by simpa using this, .int _⟩
  | float sign ds f' e hs h hf' he hfe =>
    refine ⟨_, hnum sign ds f' e _ hs h ?_ hf' he, .float _⟩
    rw [numberOf, if_neg]
    rintro ⟨h1, h2⟩
    rcases hfe with h | h
    · exact h h1
    · exact h h2
  | const t h =>
    refine ⟨.float t.toList, ?_, .float _⟩
    simp only [pyConstants, List.mem_cons, List.not_mem_nil, or_false] at h
    rcases h with rfl | rfl | rfl <;> rfl
  | str t s h =>
    refine ⟨.str s, ?_, .str _⟩
    simp only [List.cons_append, List.append_assoc, List.nil_append]
    rw [scan, scanString_of h]
  | arrEmpty w h =>
    refine ⟨.arr [], ?_, same_arr .nil⟩
    simp only [List.cons_append, List.append_assoc, List.nil_append]
    rw [scan, skipWs_stop h ']' (by decide)]
    rfl
  | arr ps hne hw h ih0 =>
    have ih : ∀ p ∈ ps, Reads p.text p.value := by
      intro p hp fuel r hf hr
      obtain ⟨c, t', h1, -⟩ := jsonText_head (h p hp)
      obtain ⟨f, rfl⟩ : ∃ f, fuel = f + 1 := ⟨fuel - 1, by simp [h1] at hf; omega⟩
      refine ih0 p hp r hr f hf ?_
      intro sign ds f' e v hs hds hv hf' he
      rw [← hv, ← scanNumber_of sign ds f' e r hs hds hf' he hr]
      obtain ⟨c, t', rfl, hc⟩ := digits_head ((intDigits_iff _).1 hds)
      rcases hs with rfl | rfl
      · exact scan_number f c _ (.inl hc)
      · exact scan_number f '-' _ (.inr rfl)
    simp only [List.length_cons, List.length_append, List.length_nil] at hf
    obtain ⟨vs, h1, h2⟩ := scanElems_of ps hne hw h ih f r (by omega)
    refine ⟨.arr vs, ?_, same_arr h2⟩
    simp only [List.cons_append, List.append_assoc, List.nil_append]
    rw [scan]
    cases ps with
    | nil => exact absurd rfl hne
    | cons p ps =>
      obtain ⟨c, t, e1, e2, e3, -⟩ := jsonText_head (h p (by simp))
      have hs : ∃ s, skipWs (commas ((p :: ps).map Item.whole) ++ ']' :: r) = c :: s := by
        cases ps with
        | nil =>
          refine ⟨t ++ (p.post ++ ']' :: r), ?_⟩
          have := skipWs_text (hw p (by simp)).1 (h p (by simp)) (p.post ++ ']' :: r)
          simp only [List.map_cons, List.map_nil, commas, Item.whole, List.append_assoc]
          rw [this, e1]; rfl
        | cons q ps =>
          refine ⟨t ++ (p.post ++ ',' :: (commas ((q :: ps).map Item.whole) ++ ']' :: r)), ?_⟩
          have := skipWs_text (hw p (by simp)).1 (h p (by simp))
            (p.post ++ ',' :: (commas ((q :: ps).map Item.whole) ++ ']' :: r))
          simp only [List.map_cons, commas, Item.whole, List.append_assoc, List.cons_append] at this ⊢
          rw [this, e1]; rfl
      obtain ⟨s, hs⟩ := hs
      rw [hs] at h1 ⊢
      split
      · rename_i hh; cases hh; exact absurd rfl e3
      · rw [h1]
  | objEmpty w h =>
    refine ⟨.obj [], ?_, .obj _ _ rfl (by simp) (by simp)⟩
    simp only [List.cons_append, List.append_assoc, List.nil_append]
    rw [scan, skipWs_stop h '}' (by decide)]
    rfl
  | obj ps kvs hne hw h hk ih0 =>
    have ih : ∀ p ∈ ps, Reads p.item.text p.item.value := by
      intro p hp fuel r hf hr
      obtain ⟨c, t', h1, -⟩ := jsonText_head (h p hp)
      obtain ⟨f, rfl⟩ : ∃ f, fuel = f + 1 := ⟨fuel - 1, by simp [h1] at hf; omega⟩
      refine ih0 p hp r hr f hf ?_
      intro sign ds f' e v hs hds hv hf' he
      rw [← hv, ← scanNumber_of sign ds f' e r hs hds hf' he hr]
      obtain ⟨c, t', rfl, hc⟩ := digits_head ((intDigits_iff _).1 hds)
      rcases hs with rfl | rfl
      · exact scan_number f c _ (.inl hc)
      · exact scan_number f '-' _ (.inr rfl)
    simp only [List.length_cons, List.length_append, List.length_nil] at hf
    obtain ⟨s, kvs', h1, h2, h3⟩ := scanMembers_of ps hne hw h ih f r (by omega)
    refine ⟨.obj (dictOf kvs'), ?_, lastWins_same h3 hk (lastWins_dictOf kvs')⟩
    simp only [List.cons_append, List.append_assoc, List.nil_append]
    rw [scan, h1]
    simp only [h2]

/-- What JSON text denotes is read. -/
theorem loads_of {t : List Char} {v : Json} (h : JsonDocument pyConstants t v) :
    ∃ v', loads t = .ok v' ∧ SameJson v v' := by
  obtain ⟨pre, text, post, rfl, h1, h2, h3⟩ := h
  obtain ⟨v', h4, h5⟩ := scan_of h3 ((pre ++ text ++ post).length + 1) post
    (by simp only [List.length_append]; omega)
    (by have := blank_ends h2 [] ends_nil; rwa [List.append_nil] at this)
  refine ⟨v', ?_, h5⟩
  have hb : ¬ (pre ++ text ++ post).head? = some (Char.ofNat 0xfeff) := by
    obtain ⟨c, t, rfl, -, -, h6⟩ := jsonText_head h3
    cases pre with
    | nil => simpa using h6
    | cons c' pre =>
      have := h1 c' (by simp)
      simp only [List.cons_append, List.head?_cons, Option.some.injEq]
      rintro rfl
      revert this
      decide
  rw [loads, if_neg hb]
  have e : skipWs (pre ++ text ++ post) = text ++ post := by
    rw [List.append_assoc, skipWs_text h1 h3]
  rw [e, h4]
  have e2 : skipWs post = [] := by
    have := skipWs_blank h2 []
    rwa [List.append_nil] at this
  simp only [e2, if_true]

theorem commas_pre (p : Item) (ps : List Item) (w : List Char) :
    w ++ commas ((p :: ps).map Item.whole) =
      commas (({ p with pre := w ++ p.pre } :: ps).map Item.whole) := by
  cases ps <;> simp [commas, Item.whole]

theorem commas_pre' (p : NamedItem) (ps : List NamedItem) (w : List Char) :
    w ++ commas ((p :: ps).map NamedItem.whole) =
      commas (({ p with pre := w ++ p.pre } :: ps).map NamedItem.whole) := by
  cases ps <;> simp [commas, NamedItem.whole]

theorem blank_append {v w : List Char} (hv : Blank v) (hw : Blank w) : Blank (v ++ w) := by
  intro c hc
  rcases List.mem_append.1 hc with h | h
  · exact hv c h
  · exact hw c h

theorem blank_nil : Blank [] := fun c hc => by cases hc

/-- Only JSON text is read, apart from three constants. -/
theorem scan_inv (fuel : Nat) :
    (∀ (s r : List Char) (v : Json), scan fuel s = .ok (v, r) →
      ∃ t, s = t ++ r ∧ JsonText pyConstants t v) ∧
    (∀ (s r : List Char) (vs : List Json), scanElems fuel s = .ok (vs, r) →
      ∃ p ps, s = commas ((p :: ps).map Item.whole) ++ ']' :: r ∧
        (∀ q ∈ p :: ps, (Blank q.pre ∧ Blank q.post) ∧ JsonText pyConstants q.text q.value) ∧
        vs = (p :: ps).map (·.value)) ∧
    ∀ (s r : List Char) (kvs : List (List Char × Json)), scanMembers fuel s = .ok (kvs, r) →
      ∃ p ps, '"' :: s = commas ((p :: ps).map NamedItem.whole) ++ '}' :: r ∧
        (∀ q ∈ p :: ps, (Blank q.pre ∧ StringText q.nameText q.name ∧ Blank q.mid ∧
          Blank q.item.pre ∧ Blank q.item.post) ∧ JsonText pyConstants q.item.text q.item.value) ∧
        kvs = (p :: ps).map fun p => (p.name, p.item.value) := by
  induction fuel with
  | zero => exact ⟨fun s r v h => (by cases h), fun s r v h => (by cases h),
      fun s r v h => (by cases h)⟩
  | succ f ih =>
    obtain ⟨i1, i2, i3⟩ := ih
    refine ⟨fun s r v h => ?_, fun s r vs h => ?_, fun s r kvs h => ?_⟩
    · rw [scan.eq_def] at h
      dsimp only at h
      split at h
      · split at h
        · cases h
        · rename_i hs
          cases h
          obtain ⟨t, rfl, ht⟩ := scanString_inv hs
          exact ⟨'"' :: (t ++ ['"']), by simp, .str t _ ht⟩
      · rename_i r'
        obtain ⟨w, hw, e⟩ := skipWs_inv r'
        split at h
        · rename_i r2 hr2
          cases h
          rw [hr2] at e
          exact ⟨'{' :: (w ++ ['}']), by simp [e], .objEmpty w hw⟩
        · rename_i r2 hr2
          split at h
          · cases h
          · rename_i kvs r3 hm
            cases h
            obtain ⟨p, ps, e1, e2, rfl⟩ := i3 _ _ _ hm
            rw [hr2, e1, ← List.append_assoc, commas_pre'] at e
            refine ⟨'{' :: (commas (({ p with pre := w ++ p.pre } :: ps).map NamedItem.whole) ++ ['}']),
              by simp only [List.cons_append, List.append_assoc, List.nil_append, e],
              .obj _ _ (by simp) ?_ ?_ (lastWins_dictOf _)⟩
            · intro q hq
              rcases List.mem_cons.1 hq with rfl | hq
              · obtain ⟨⟨a1, a2⟩, -⟩ := e2 p (by simp)
                exact ⟨blank_append hw a1, a2⟩
              · exact (e2 q (List.mem_cons_of_mem _ hq)).1
            · intro q hq
              rcases List.mem_cons.1 hq with rfl | hq
              · exact (e2 p (by simp)).2
              · exact (e2 q (List.mem_cons_of_mem _ hq)).2
        · cases h
      · rename_i r'
        obtain ⟨w, hw, e⟩ := skipWs_inv r'
        split at h
        · rename_i r2 hr2
          cases h
          rw [hr2] at e
          exact ⟨'[' :: (w ++ [']']), by simp [e], .arrEmpty w hw⟩
        · split at h
          · cases h
          · rename_i vs r3 hm
            cases h
            obtain ⟨p, ps, e1, e2, rfl⟩ := i2 _ _ _ hm
            rw [e1, ← List.append_assoc, commas_pre] at e
            refine ⟨'[' :: (commas (({ p with pre := w ++ p.pre } :: ps).map Item.whole) ++ [']']),
              by simp only [List.cons_append, List.append_assoc, List.nil_append, e],
              .arr ({ p with pre := w ++ p.pre } :: ps) (by simp) ?_ ?_⟩
            · intro q hq
              rcases List.mem_cons.1 hq with rfl | hq
              · obtain ⟨⟨a1, a2⟩, -⟩ := e2 p (by simp)
                exact ⟨blank_append hw a1, a2⟩
              · exact (e2 q (List.mem_cons_of_mem _ hq)).1
            · intro q hq
              rcases List.mem_cons.1 hq with rfl | hq
              · exact (e2 p (by simp)).2
              · exact (e2 q (List.mem_cons_of_mem _ hq)).2
      · cases h; exact ⟨_, rfl, .null⟩
      · cases h; exact ⟨_, rfl, .true⟩
      · cases h; exact ⟨_, rfl, .false⟩
      · exact scanNumber_inv h
    · rw [scanElems.eq_def] at h
      dsimp only at h
      split at h
      · cases h
      rename_i v r1 hv
      obtain ⟨t, rfl, ht⟩ := i1 _ _ _ hv
      obtain ⟨w, hw, e⟩ := skipWs_inv r1
      split at h
      · rename_i r2 hr2
        cases h
        rw [hr2] at e
        refine ⟨⟨[], t, w, v⟩, [], by simp [commas, Item.whole, e], ?_, rfl⟩
        intro q hq
        simp only [List.mem_singleton] at hq
        subst hq
        exact ⟨⟨blank_nil, hw⟩, ht⟩
      · rename_i r2 hr2
        obtain ⟨w2, hw2, e2⟩ := skipWs_inv r2
        split at h
        · cases h
        · rename_i vs r3 hm
          cases h
          obtain ⟨p, ps, e3, e4, rfl⟩ := i2 _ _ _ hm
          rw [hr2] at e
          rw [e3, ← List.append_assoc, commas_pre] at e2
          refine ⟨⟨[], t, w, v⟩, { p with pre := w2 ++ p.pre } :: ps, ?_, ?_, rfl⟩
          · rw [e, e2]
            simp [commas, Item.whole]
          · intro q hq
            rcases List.mem_cons.1 hq with rfl | hq
            · exact ⟨⟨blank_nil, hw⟩, ht⟩
            rcases List.mem_cons.1 hq with rfl | hq
            · obtain ⟨⟨a1, a2⟩, a3⟩ := e4 p (by simp)
              exact ⟨⟨blank_append hw2 a1, a2⟩, a3⟩
            · exact e4 q (List.mem_cons_of_mem _ hq)
      · cases h
    · rw [scanMembers.eq_def] at h
      dsimp only at h
      split at h
      · cases h
      rename_i k r1 hk
      obtain ⟨nt, rfl, hnt⟩ := scanString_inv hk
      obtain ⟨w, hw, e⟩ := skipWs_inv r1
      split at h
      · rename_i r2 hr2
        rw [hr2] at e
        obtain ⟨w2, hw2, e2⟩ := skipWs_inv r2
        split at h
        · cases h
        rename_i v r3 hv
        obtain ⟨t, e3, ht⟩ := i1 _ _ _ hv
        rw [e3] at e2
        obtain ⟨w3, hw3, e4⟩ := skipWs_inv r3
        split at h
        · rename_i r4 hr4
          cases h
          rw [hr4] at e4
          refine ⟨⟨[], nt, k, w, ⟨w2, t, w3, v⟩⟩, [], ?_, ?_, rfl⟩
          · rw [e, e2, e4]
            simp [commas, NamedItem.whole, Item.whole]
          · intro q hq
            simp only [List.mem_singleton] at hq
            subst hq
            exact ⟨⟨blank_nil, hnt, hw, hw2, hw3⟩, ht⟩
        · rename_i r4 hr4
          rw [hr4] at e4
          obtain ⟨w4, hw4, e5⟩ := skipWs_inv r4
          split at h
          · rename_i r5 hr5
            rw [hr5] at e5
            split at h
            · cases h
            · rename_i kvs r6 hm
              cases h
              obtain ⟨p, ps, e6, e7, rfl⟩ := i3 _ _ _ hm
              rw [e6, ← List.append_assoc, commas_pre'] at e5
              refine ⟨⟨[], nt, k, w, ⟨w2, t, w3, v⟩⟩, { p with pre := w4 ++ p.pre } :: ps, ?_, ?_,
                rfl⟩
              · rw [e, e2, e4, e5]
                simp [commas, NamedItem.whole, Item.whole]
              · intro q hq
                rcases List.mem_cons.1 hq with rfl | hq
                · exact ⟨⟨blank_nil, hnt, hw, hw2, hw3⟩, ht⟩
                rcases List.mem_cons.1 hq with rfl | hq
                · obtain ⟨⟨a1, a2⟩, a3⟩ := e7 p (by simp)
                  exact ⟨⟨blank_append hw4 a1, a2⟩, a3⟩
                · exact e7 q (List.mem_cons_of_mem _ hq)
          · cases h
        · cases h
      · cases h

theorem loads_inv {t : List Char} {v : Json} (h : loads t = .ok v) :
    JsonDocument pyConstants t v := by
  unfold loads at h
  split at h
  · cases h
  split at h
  · cases h
  rename_i v' r hs
  split at h
  · rename_i hr
    cases h
    obtain ⟨w, hw, e⟩ := skipWs_inv t
    obtain ⟨w', hw', e'⟩ := skipWs_inv r
    obtain ⟨text, e1, e2⟩ := (scan_inv _).1 _ _ _ hs
    rw [hr, List.append_nil] at e'
    refine ⟨w, text, r, ?_, hw, e' ▸ hw', e2⟩
    rw [List.append_assoc, ← e1, ← e]
  · cases h

theorem jsonText_mono {more more' : List String} (hm : ∀ x ∈ more, x ∈ more') {t : List Char}
    {v : Json} (h : JsonText more t v) : JsonText more' t v := by
  induction h with
  | null => exact .null
  | true => exact .true
  | false => exact .false
  | nat ds h => exact .nat ds h
  | neg ds h => exact .neg ds h
  | float sign ds f e hs h hf he hfe => exact .float sign ds f e hs h hf he hfe
  | const t h => exact .const t (hm t h)
  | str t s h => exact .str t s h
  | arrEmpty w h => exact .arrEmpty w h
  | arr ps hne hw h ih => exact .arr ps hne hw ih
  | objEmpty w h => exact .objEmpty w h
  | obj ps kvs hne hw h hk ih => exact .obj ps kvs hne hw ih hk

end Kiel.Json
