import Verif.Model.Allocator
import Verif.Spec.Allocator
import Verif.Lemmas.Dict
import Mathlib.Tactic.ByContra
/-
Text, the round robin, sets and sorting.
-/
set_option autoImplicit false
namespace Kiel
open Spec

/-! ### Text -/

theorem splitColon_ne_nil (l : List Char) : splitColon l ≠ [] := by
  cases l with
  | nil => simp [splitColon]
  | cons c r =>
    simp only [splitColon]
    split
    · simp
    · split <;> simp

theorem splitColon_plain (l : List Char) (h : ':' ∉ l) : splitColon l = [l] := by
  induction l with
  | nil => rfl
  | cons c r ih =>
    simp only [List.mem_cons, not_or] at h
    simp only [splitColon, if_neg (Ne.symm h.1), ih h.2]

theorem splitColon_append (l r : List Char) (h : ':' ∉ l) :
    splitColon (l ++ ':' :: r) = l :: splitColon r := by
  induction l with
  | nil => simp [splitColon]
  | cons c l ih =>
    simp only [List.mem_cons, not_or] at h
    simp only [List.cons_append, splitColon, if_neg (Ne.symm h.1), ih h.2]

theorem splitColon_length (l : List Char) : (splitColon l).length = l.count ':' + 1 := by
  induction l with
  | nil => rfl
  | cons c r ih =>
    simp only [splitColon]
    split
    · next h => subst h; simp [ih]
    · next h =>
      have hne := splitColon_ne_nil r
      split
      · next h2 => exact absurd h2 hne
      · next p ps h2 =>
        rw [h2] at ih
        simp only [List.length_cons] at ih ⊢
        rw [List.count_cons_of_ne (by simpa using h)]
        omega

theorem digits_isDigit (n : Nat) : (Nat.toDigits 10 n).all Char.isDigit = true := by
  rw [List.all_eq_true]
  exact fun c hc => Nat.isDigit_of_mem_toDigits (by decide) (by decide) hc

theorem dropSeparators_digits (l : List Char) (h : ∀ c ∈ l, c.isDigit = true) (b : Bool) :
    dropSeparators b l = l := by
  induction l generalizing b with
  | nil => rfl
  | cons c l ih =>
    have hc : (c == '_') = false := by
      have := h c List.mem_cons_self
      rw [beq_eq_false_iff_ne]
      rintro rfl
      revert this
      decide
    simp only [dropSeparators, hc, Bool.and_false, Bool.false_and, Bool.false_eq_true, if_false]
    rw [ih fun c hc => h c (List.mem_cons_of_mem _ hc)]

theorem pyNat?_digits (n : Nat) : pyNat? (Nat.toDigits 10 n) = some n := by
  unfold pyNat?
  simp only [dropSeparators_digits _ (List.all_eq_true.1 (digits_isDigit n))]
  rw [if_pos ⟨Nat.toDigits_ne_nil, digits_isDigit n⟩, Nat.ofDigitChars_toDigits (by decide) (by decide)]

theorem pyStrip_plain (l : List Char) (h : ∀ c ∈ l, isBlank c = false) : pyStrip l = l := by
  have hd : ∀ l : List Char, (∀ c ∈ l, isBlank c = false) → l.dropWhile isBlank = l := by
    intro l h
    cases l with
    | nil => rfl
    | cons c l => rw [List.dropWhile_cons, h c List.mem_cons_self]; rfl
  rw [pyStrip, hd l h, hd l.reverse fun c hc => h c (List.mem_reverse.1 hc), List.reverse_reverse]

theorem digit_not_blank (c : Char) (h : c.isDigit = true) : isBlank c = false := by
  simp only [Char.isDigit, Bool.and_eq_true, decide_eq_true_eq] at h
  have h1 : 48 ≤ c.toNat := h.1
  simp only [isBlank, Bool.or_eq_false_iff, decide_eq_false_iff_not, Bool.and_eq_false_iff]
  refine ⟨⟨?_, .inr (by omega)⟩, .inr (by omega)⟩
  rintro rfl
  revert h1
  decide

theorem pyInt?_strInt (i : Int) : pyInt? (strInt i).toList = some i := by
  have hb : ∀ n, ∀ c ∈ Nat.toDigits 10 n, isBlank c = false := fun n c hc =>
    digit_not_blank c (List.all_eq_true.1 (digits_isDigit n) c hc)
  cases i with
  | ofNat n =>
    simp only [strInt, String.toList_ofList]
    unfold pyInt?
    rw [pyStrip_plain _ (hb n)]
    have h := digits_isDigit n
    have hn := pyNat?_digits n
    revert h hn
    generalize Nat.toDigits 10 n = l
    intro h hn
    split
    · simp at h
    · simp at h
    · rw [hn]; rfl
  | negSucc n =>
    simp only [strInt, String.toList_ofList]
    unfold pyInt?
    rw [pyStrip_plain _ fun c hc => by
      rcases List.mem_cons.1 hc with rfl | hc
      · decide
      · exact hb _ c hc]
    simp only [pyNat?_digits]
    rfl

theorem strInt_eq (i : Int) : strInt i = toString i := by
  cases i with
  | ofNat n => simp only [strInt]; rw [← Nat.repr_eq_ofList_toDigits]; rfl
  | negSucc n =>
    have : toString (Int.negSucc n) = "-" ++ (n + 1).repr := rfl
    rw [this, Nat.repr_eq_ofList_toDigits]
    simp only [strInt]
    apply String.toList_injective
    simp

theorem strInt_plain (i : Int) : ':' ∉ (strInt i).toList := by
  have hd : ∀ n, ':' ∉ Nat.toDigits 10 n := by
    intro n hc
    have := Nat.isDigit_of_mem_toDigits (by decide) (by decide) hc
    simp at this
  cases i with
  | ofNat n => simpa only [strInt, String.toList_ofList] using hd n
  | negSucc n =>
    simp only [strInt, String.toList_ofList, List.mem_cons, not_or]
    exact ⟨by decide, hd _⟩

theorem item_toList (p : String × Int) : (item p).toList = p.1.toList ++ ':' :: (strInt p.2).toList := by
  simp [item, strInt_eq]

theorem splitColon_item (p : String × Int) (h : PlainName p.1) :
    splitColon (item p).toList = [p.1.toList, (strInt p.2).toList] := by
  rw [item_toList, splitColon_append _ _ h, splitColon_plain _ (strInt_plain p.2)]

theorem item_inj (p q : String × Int) (hp : PlainName p.1) (hq : PlainName q.1) (h : item p = item q) : p = q := by
  have := splitColon_item p hp
  rw [h, splitColon_item q hq] at this
  simp only [List.cons.injEq, and_true] at this
  have h1 := String.toList_injective this.1
  have h2 := pyInt?_strInt q.2
  rw [this.2, pyInt?_strInt p.2] at h2
  obtain ⟨a, b⟩ := p; obtain ⟨c, d⟩ := q
  simp_all

/-! ### The round robin -/

theorem zipCycle_eq {α β : Type} (ms : List α) (hne : ms ≠ []) (ps : List β) :
    ∀ (k : Nat), k ≤ ms.length →
      (zipCycle ms (ms.drop k) ps).map (fun x => (some x.1, x.2))
        = ps.zipIdx.map (fun x => (ms[(k + x.2) % ms.length]?, x.1)) := by
  induction ps with
  | nil => intro k _; cases h : ms.drop k <;> rfl
  | cons p ps ih =>
    intro k hk
    have hpos : 0 < ms.length := List.length_pos_of_ne_nil hne
    have shift : ∀ k', (k' % ms.length = (k + 1) % ms.length) →
        ps.zipIdx.map (fun x => (ms[(k' + x.2) % ms.length]?, x.1))
          = (ps.zipIdx 1).map (fun x => (ms[(k + x.2) % ms.length]?, x.1)) := by
      intro k' hk'
      rw [show (1 : Nat) = 0 + 1 from rfl, List.zipIdx_succ]
      simp only [List.map_map]
      apply List.map_congr_left
      intro x _
      simp only [Function.comp, Prod.mk.injEq, and_true]
      congr 1
      rw [Nat.add_mod, hk', ← Nat.add_mod]
      congr 1
      omega
    simp only [List.zipIdx_cons, List.map_cons, Nat.zero_add]
    rcases Nat.lt_or_ge k ms.length with hlt | hge
    · rw [List.drop_eq_getElem_cons hlt]
      simp only [zipCycle, List.map_cons]
      rw [ih (k + 1) hlt, shift (k + 1) rfl, Nat.add_zero, Nat.mod_eq_of_lt hlt, List.getElem?_eq_getElem hlt]
    · have : k = ms.length := by omega
      subst this
      rw [List.drop_length]
      obtain ⟨m, rest, rfl⟩ := List.exists_cons_of_ne_nil hne
      simp only [zipCycle, List.map_cons]
      have := ih 1 (by simp)
      simp only [List.drop_succ_cons, List.drop_zero] at this
      rw [this, shift 1 (by simp)]
      simp

/-! ### Sets -/

theorem mem_addSet_iff {α : Type} [DecidableEq α] (s : List α) (x y : α) :
    y ∈ addSet s x ↔ y ∈ s ∨ y = x := by
  unfold addSet
  split
  · next h => constructor
              · exact Or.inl
              · rintro (h1 | rfl) <;> assumption
  · simp

theorem addSet_nodup {α : Type} [DecidableEq α] (s : List α) (x : α) (h : s.Nodup) :
    (addSet s x).Nodup := by
  unfold addSet
  split
  · exact h
  · next hx =>
    rw [List.nodup_append]
    refine ⟨h, by simp, ?_⟩
    intro a ha b hb
    simp only [List.mem_singleton] at hb
    subst hb
    rintro rfl
    exact hx ha

theorem mem_pySet (xs : List String) (y : String) : y ∈ pySet xs ↔ y ∈ xs := by
  have h : ∀ (xs s : List String), y ∈ xs.foldl addSet s ↔ y ∈ s ∨ y ∈ xs := by
    intro xs
    induction xs with
    | nil => simp
    | cons x xs ih =>
      intro s
      rw [List.foldl_cons, ih, mem_addSet_iff]
      simp only [List.mem_cons]
      tauto
  simp [pySet, h]

theorem nodup_pySet (xs : List String) : (pySet xs).Nodup := by
  have h : ∀ (xs s : List String), s.Nodup → (xs.foldl addSet s).Nodup := by
    intro xs
    induction xs with
    | nil => simp
    | cons x xs ih => intro s hs; exact ih _ (addSet_nodup s x hs)
  exact h xs [] List.nodup_nil

theorem setEq_iff (a b : List String) : setEq a b = true ↔ SameSet a b := by
  simp only [setEq, Bool.and_eq_true, List.all_eq_true, decide_eq_true_eq, SameSet]
  constructor
  · exact fun h x => ⟨h.1 x, h.2 x⟩
  · exact fun h => ⟨fun x => (h x).1, fun x => (h x).2⟩

theorem Spec.SortedSet.unique {l l' s s' : List String} (h : SortedSet l s) (h' : SortedSet l' s')
    (hs : SameSet s s') : l = l' := by
  have hp : l.Perm l' := by
    rw [List.perm_ext_iff_of_nodup (h.1.imp ne_of_lt) (h'.1.imp ne_of_lt)]
    intro a
    rw [h.2, h'.2, hs]
  exact hp.eq_of_pairwise (fun a b _ _ hab hba => absurd hab (not_lt_of_gt hba)) h.1 h'.1

theorem pySorted_spec (s : List String) (hs : s.Nodup) : SortedSet (pySorted s) s := by
  have hp : (pySorted s).Perm s := List.perm_insertionSort _ _
  have hn : (pySorted s).Nodup := hp.nodup_iff.2 hs
  refine ⟨?_, fun x => hp.mem_iff⟩
  have h1 : (pySorted s).Pairwise (· ≤ ·) := List.pairwise_insertionSort _ _
  have h2 : (pySorted s).Pairwise (· ≠ ·) := hn
  exact (h1.and h2).imp fun h => lt_of_le_of_ne h.1 h.2

end Kiel
