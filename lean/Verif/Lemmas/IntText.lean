import Verif.Model.Text
import Verif.Spec.IntText
import Verif.Lemmas.Allocator
/-
`int` reads exactly the texts that it is documented to read.
-/
set_option autoImplicit false
namespace Kiel
open Spec

theorem isBlank_iff (c : Char) : isBlank c = true ↔ c ∈ blanks := by
  have hc : ∀ d : Char, c = d ↔ c.toNat = d.toNat := fun d =>
    ⟨fun h => h ▸ rfl, fun h => Char.ext (UInt32.toNat_inj.1 h)⟩
  simp only [isBlank, blanks, List.mem_cons, List.not_mem_nil, or_false, hc, Bool.or_eq_true, Bool.and_eq_true,
    decide_eq_true_eq]
  simp only [show '\t'.toNat = 9 from rfl, show '\n'.toNat = 10 from rfl, show '\x0b'.toNat = 11 from rfl,
    show '\x0c'.toNat = 12 from rfl, show '\r'.toNat = 13 from rfl, show '\x1c'.toNat = 28 from rfl,
    show '\x1d'.toNat = 29 from rfl, show '\x1e'.toNat = 30 from rfl, show '\x1f'.toNat = 31 from rfl,
    show ' '.toNat = 32 from rfl]
  omega

theorem digit_not_sep (c : Char) (h : c.isDigit = true) : (c == '_') = false := by
  rw [beq_eq_false_iff_ne]
  rintro rfl
  revert h
  decide

theorem Spec.DigitText.head {text ds : List Char} (h : DigitText text ds) :
    ∃ d t, text = d :: t ∧ d.isDigit = true := by
  cases h with
  | one d hd => exact ⟨d, _, rfl, hd⟩
  | next d t ds hd _ => exact ⟨d, _, rfl, hd⟩
  | sep d t ds hd _ => exact ⟨d, _, rfl, hd⟩

theorem Spec.DigitText.last {text ds : List Char} (h : DigitText text ds) :
    ∃ d, text.getLast? = some d ∧ d.isDigit = true := by
  induction h with
  | one d hd => exact ⟨d, rfl, hd⟩
  | next d t ds _ h ih =>
    obtain ⟨e, h1, h2⟩ := ih
    exact ⟨e, by rw [List.getLast?_cons, h1]; rfl, h2⟩
  | sep d t ds _ h ih =>
    obtain ⟨e, h1, h2⟩ := ih
    exact ⟨e, by rw [List.getLast?_cons, List.getLast?_cons, h1]; rfl, h2⟩

theorem Spec.DigitText.digits {text ds : List Char} (h : DigitText text ds) : ds ≠ [] ∧ ds.all Char.isDigit = true := by
  induction h with
  | one d hd => simp [hd]
  | next d t ds hd _ ih => simp only [List.all_cons, hd, ih.2]; simp
  | sep d t ds hd _ ih => simp only [List.all_cons, hd, ih.2]; simp

theorem Spec.DigitText.drops {text ds : List Char} (h : DigitText text ds) (b : Bool) : dropSeparators b text = ds := by
  induction h generalizing b with
  | one d hd => simp [dropSeparators, digit_not_sep d hd]
  | next d t ds hd _ ih => simp [dropSeparators, digit_not_sep d hd, ih]
  | sep d t ds hd ht ih =>
    obtain ⟨e, t', rfl, he⟩ := ht.head
    have := ih false
    rw [← this]
    simp [dropSeparators, digit_not_sep d hd, hd, he]

theorem digitText_of_drops (n : Nat) (l : List Char) (hn : l.length ≤ n) (h1 : dropSeparators false l ≠ [])
    (h2 : (dropSeparators false l).all Char.isDigit = true) : DigitText l (dropSeparators false l) := by
  induction n generalizing l with
  | zero =>
    have : l = [] := List.length_eq_zero_iff.1 (Nat.le_zero.1 hn)
    subst this
    exact absurd rfl h1
  | succ n ih =>
    cases l with
    | nil => exact absurd rfl h1
    | cons c l =>
      have hc : dropSeparators false (c :: l) = c :: dropSeparators c.isDigit l := by simp [dropSeparators]
      rw [hc] at h2 ⊢
      simp only [List.all_cons, Bool.and_eq_true] at h2
      obtain ⟨hd, h2⟩ := h2
      rw [hd] at h2 ⊢
      have hlen : l.length ≤ n := by simpa using hn
      cases l with
      | nil => exact .one c hd
      | cons e l =>
        by_cases hs : (e == '_' && l.head?.any Char.isDigit) = true
        · have he : dropSeparators true (e :: l) = dropSeparators false l := by
            simp only [dropSeparators, Bool.true_and, hs, if_true]
          rw [he] at h2 ⊢
          simp only [Bool.and_eq_true, beq_iff_eq] at hs
          obtain ⟨rfl, hs⟩ := hs
          have hne : dropSeparators false l ≠ [] := by
            cases l with
            | nil => simp at hs
            | cons f l => simp [dropSeparators]
          exact .sep c l _ hd (ih l (by simp at hlen; omega) hne h2)
        · have he : dropSeparators true (e :: l) = dropSeparators false (e :: l) := by
            simp only [dropSeparators, Bool.true_and, Bool.false_and]
            rw [if_neg hs]
            rfl
          rw [he] at h2 ⊢
          exact .next c _ _ hd (ih _ hlen (by simp [dropSeparators]) h2)

theorem pyNat?_iff (l : List Char) (n : Nat) :
    pyNat? l = some n ↔ ∃ ds, DigitText l ds ∧ n = Nat.ofDigitChars 10 ds 0 := by
  simp only [pyNat?]
  constructor
  · intro h
    split at h
    · rename_i hc
      exact ⟨_, digitText_of_drops _ l (Nat.le_refl _) hc.1 hc.2, (Option.some.inj h).symm⟩
    · cases h
  · rintro ⟨ds, h, rfl⟩
    rw [h.drops, if_pos h.digits]

theorem takeWhile_blank (l : List Char) (c : Char) (h : c ∈ l.takeWhile isBlank) : isBlank c = true :=
  List.all_eq_true.1 (List.all_takeWhile (p := isBlank) (l := l)) c h

theorem pyStrip_split (l : List Char) : ∃ pre post, l = pre ++ pyStrip l ++ post ∧ ∀ c ∈ pre ++ post, isBlank c = true := by
  have h1 := List.takeWhile_append_dropWhile (p := isBlank) (l := l)
  have h2 := List.takeWhile_append_dropWhile (p := isBlank) (l := (l.dropWhile isBlank).reverse)
  refine ⟨l.takeWhile isBlank, ((l.dropWhile isBlank).reverse.takeWhile isBlank).reverse, ?_, ?_⟩
  · have h3 := congrArg List.reverse h2
    rw [List.reverse_append, List.reverse_reverse] at h3
    rw [pyStrip, List.append_assoc, h3, h1]
  · intro c hc
    rcases List.mem_append.1 hc with hc | hc
    · exact takeWhile_blank _ c hc
    · exact takeWhile_blank _ c (List.mem_reverse.1 hc)

theorem dropBlanks (pre m : List Char) (h : ∀ c ∈ pre, isBlank c = true) (hm : m.head?.any isBlank = false) :
    (pre ++ m).dropWhile isBlank = m := by
  induction pre with
  | nil =>
    cases m with
    | nil => rfl
    | cons c m => simp at hm; simp [hm]
  | cons c pre ih =>
    rw [List.cons_append, List.dropWhile_cons, h c List.mem_cons_self]
    exact ih fun c hc => h c (List.mem_cons_of_mem _ hc)

theorem pyStrip_of (pre m post : List Char) (h : ∀ c ∈ pre ++ post, isBlank c = true) (hne : m ≠ [])
    (hm : m.head?.any isBlank = false) (hl : m.getLast?.any isBlank = false) : pyStrip (pre ++ m ++ post) = m := by
  have h1 : (pre ++ m ++ post).dropWhile isBlank = m ++ post := by
    rw [List.append_assoc]
    refine dropBlanks pre (m ++ post) (fun c hc => h c (List.mem_append_left _ hc)) ?_
    cases m with
    | nil => exact absurd rfl hne
    | cons c m => exact hm
  have h2 : (m ++ post).reverse.dropWhile isBlank = m.reverse := by
    rw [List.reverse_append]
    refine dropBlanks _ _ (fun c hc => h c (List.mem_append_right _ (List.mem_reverse.1 hc))) ?_
    rw [List.head?_reverse]
    exact hl
  rw [pyStrip, h1, h2, List.reverse_reverse]

/-- `int` reads exactly the texts that are decimal integers, and gives their values. -/
theorem pyInt?_iff (l : List Char) (v : Int) : pyInt? l = some v ↔ IntText l v := by
  constructor
  · intro h
    obtain ⟨pre, post, h1, h2⟩ := pyStrip_split l
    have h2 : ∀ c ∈ pre ++ post, c ∈ blanks := fun c hc => (isBlank_iff c).1 (h2 c hc)
    unfold pyInt? at h
    split at h
    · rename_i m hm
      obtain ⟨_, h', rfl⟩ := Option.map_eq_some_iff.1 h
      obtain ⟨n, hn, h3⟩ := Option.bind_eq_some_iff.1 h'
      cases h3
      obtain ⟨ds, hd, rfl⟩ := (pyNat?_iff _ _).1 hn
      exact ⟨pre, ['-'], m, post, ds, by rw [hm] at h1; exact h1, h2, hd, .inr ⟨rfl, rfl⟩⟩
    · rename_i m hm
      obtain ⟨_, h', rfl⟩ := Option.map_eq_some_iff.1 h
      obtain ⟨n, hn, h3⟩ := Option.bind_eq_some_iff.1 h'
      cases h3
      obtain ⟨ds, hd, rfl⟩ := (pyNat?_iff _ _).1 hn
      exact ⟨pre, ['+'], m, post, ds, by rw [hm] at h1; exact h1, h2, hd, .inl ⟨.inr rfl, rfl⟩⟩
    · obtain ⟨_, h', rfl⟩ := Option.map_eq_some_iff.1 h
      obtain ⟨n, hn, h3⟩ := Option.bind_eq_some_iff.1 h'
      cases h3
      obtain ⟨ds, hd, rfl⟩ := (pyNat?_iff _ _).1 hn
      exact ⟨pre, [], _, post, ds, h1, h2, hd, .inl ⟨.inl rfl, rfl⟩⟩
  · rintro ⟨pre, sign, body, post, ds, rfl, h2, hd, hv⟩
    obtain ⟨d, t, rfl, h3⟩ := hd.head
    obtain ⟨e, h4, h5⟩ := hd.last
    have hn := (pyNat?_iff _ _).2 ⟨ds, hd, rfl⟩
    have hb : ∀ c ∈ pre ++ post, isBlank c = true := fun c hc => (isBlank_iff c).2 (h2 c hc)
    have hlast : ∀ s : List Char, (s ++ d :: t).getLast?.any isBlank = false := by
      intro s
      rw [List.getLast?_append, h4]
      simp [digit_not_blank e h5]
    have hstrip : pyStrip (pre ++ (sign ++ d :: t) ++ post) = sign ++ d :: t := by
      refine pyStrip_of pre _ post hb (by simp) ?_ (hlast sign)
      rcases hv with ⟨rfl | rfl, _⟩ | ⟨rfl, _⟩
      · simp [digit_not_blank d h3]
      · rfl
      · rfl
    unfold pyInt?
    rw [hstrip]
    rcases hv with ⟨rfl | rfl, rfl⟩ | ⟨rfl, rfl⟩
    · have hm : d ≠ '-' := by rintro rfl; revert h3; decide
      have hp : d ≠ '+' := by rintro rfl; revert h3; decide
      simp only [List.nil_append]
      split
      · rename_i heq; cases heq; exact absurd rfl hm
      · rename_i heq; cases heq; exact absurd rfl hp
      · rw [hn]; rfl
    · simp only [List.cons_append, List.nil_append, hn]; rfl
    · simp only [List.cons_append, List.nil_append, hn]; rfl

end Kiel
