import Verif.Model.Iterables
import Mathlib.Data.List.Perm.Basic
/-
C35: `drain`.
-/
set_option autoImplicit false
namespace Kiel

variable {α : Type}

theorem nextItem_perm {kind : CollKind} {n : Nat} {c : List α} {x : α} {r : List α}
    (h : nextItem kind n c = some (x, r)) : (x :: r).Perm c := by
  have hl : (match c.getLast? with | .none => .none | some x => some (x, c.dropLast)) =
      some (x, r) → (x :: r).Perm c := by
    intro h
    split at h
    · simp at h
    · rename_i y hy
      simp only [Option.some.injEq, Prod.mk.injEq] at h
      obtain ⟨rfl, rfl⟩ := h
      have := List.dropLast_append_getLast? y hy
      conv => rhs; rw [← this]
      exact (List.perm_append_comm (l₁ := [y]))
  cases kind with
  | list => exact hl h
  | dict => exact hl h
  | deque =>
    simp only [nextItem] at h
    split at h
    · simp at h
    · simp only [Option.some.injEq, Prod.mk.injEq] at h
      obtain ⟨rfl, rfl⟩ := h
      exact List.Perm.refl _
  | set =>
    simp only [nextItem] at h
    split at h
    · simp at h
    · rename_i y hy
      simp only [Option.some.injEq, Prod.mk.injEq] at h
      obtain ⟨rfl, rfl⟩ := h
      obtain ⟨hlt, rfl⟩ := List.getElem?_eq_some_iff.1 hy
      exact List.getElem_cons_eraseIdx_perm hlt

theorem nextItem_none {kind : CollKind} {n : Nat} {c : List α} :
    nextItem kind n c = .none ↔ c = [] := by
  cases kind with
  | list | dict =>
    simp only [nextItem]
    cases c with
    | nil => simp
    | cons y c => simp [List.getLast?_cons]
  | deque => cases c <;> simp [nextItem]
  | set =>
    cases c with
    | nil => simp [nextItem]
    | cons y c =>
      have : n % (y :: c).length < (y :: c).length := Nat.mod_lt _ (by simp)
      simp only [nextItem, List.getElem?_eq_getElem this]
      simp

/-- Every addition in the history is a real one: for dictionaries, of a key not in it at that
moment; for sets, of an element not in it. -/
def Spec.Fresh (kind : CollKind) (same : α → α → Bool) : Drain α → List (DrainEv α) → Prop
  | _, [] => True
  | d, ev :: evs =>
    (∀ x, ev = .add x → kind = .dict ∨ kind = .set → ∀ y ∈ d.coll, same x y = false) ∧
      Fresh kind same (d.step kind same ev) evs

/-- The elements added in a history. -/
def Spec.added : List (DrainEv α) → List α
  | [] => []
  | .add x :: evs => x :: added evs
  | .next _ :: evs => added evs

open Spec

theorem drain_inv (kind : CollKind) (same : α → α → Bool) (evs : List (DrainEv α))
    (d : Drain α) (hf : Fresh kind same d evs) :
    ((d.run kind same evs).out ++ (d.run kind same evs).coll).Perm
      (d.out ++ d.coll ++ added evs) := by
  induction evs generalizing d with
  | nil => simp [Drain.run, added]
  | cons ev evs ih =>
    have h1 := ih _ hf.2
    simp only [Drain.run, List.foldl_cons] at h1 ⊢
    refine h1.trans ?_
    cases ev with
    | add x =>
      have : addItem kind same d.coll x = d.coll ++ [x] := by
        cases kind with
        | list | deque => rfl
        | dict | set =>
          have := hf.1 x rfl (by simp)
          simp only [addItem]
          rw [if_neg]
          simp only [List.any_eq_true, not_exists, not_and, Bool.not_eq_true]
          exact this
      simp [Drain.step, this, added]
    | next n =>
      simp only [Drain.step, added]
      split
      · exact List.Perm.refl _
      · split
        · exact List.Perm.refl _
        · rename_i x c hx
          have := nextItem_perm hx
          simp only [List.append_assoc, List.singleton_append]
          refine List.Perm.append_left _ ?_
          exact this.append_right (added evs)

/-- **C35**: at every point of every interleaving of additions and steps of the iteration,
the elements that were there at first or added since are exactly those yielded so far and
those still there; each once. -/
theorem C35_conserved (kind : CollKind) (same : α → α → Bool) (c : List α)
    (evs : List (DrainEv α)) (hf : Fresh kind same ⟨c, false, []⟩ evs) :
    ((Drain.run kind same ⟨c, false, []⟩ evs).out ++
      (Drain.run kind same ⟨c, false, []⟩ evs).coll).Perm (c ++ added evs) := by
  simpa using drain_inv kind same evs ⟨c, false, []⟩ hf

theorem addItem_mem (kind : CollKind) (same : α → α → Bool) (c : List α) (x y : α) (h : y ∈ addItem kind same c x) :
    y ∈ c ∨ y = x := by
  cases kind with
  | list | deque => simpa [addItem] using h
  | set =>
    simp only [addItem] at h
    split at h
    · exact .inl h
    · simpa using h
  | dict =>
    simp only [addItem] at h
    split at h
    · obtain ⟨z, hz, rfl⟩ := List.mem_map.1 h
      split
      · exact .inr rfl
      · exact .inl hz
    · simpa using h

theorem addItem_kept (kind : CollKind) (same : α → α → Bool) (hsymm : ∀ a b, same a b = true → same b a = true)
    (c : List α) (x y : α) (h : y ∈ c ∨ y = x) : ∃ z ∈ addItem kind same c x, z = y ∨ same z y = true := by
  have app : ∃ z ∈ c ++ [x], z = y ∨ same z y = true := ⟨y, by simpa using h, .inl rfl⟩
  cases kind with
  | list | deque => exact app
  | set =>
    simp only [addItem]
    split
    · rename_i ha
      obtain ⟨z, hz, hs⟩ := List.any_eq_true.1 ha
      rcases h with h | rfl
      · exact ⟨y, h, .inl rfl⟩
      · exact ⟨z, hz, .inr (hsymm _ _ hs)⟩
    · exact app
  | dict =>
    simp only [addItem]
    split
    · rename_i ha
      obtain ⟨z, hz, hs⟩ := List.any_eq_true.1 ha
      rcases h with h | rfl
      · refine ⟨if same x y then x else y, List.mem_map.2 ⟨y, h, rfl⟩, ?_⟩
        split
        · rename_i hxy; exact .inr hxy
        · exact .inl rfl
      · exact ⟨y, List.mem_map.2 ⟨z, hz, by simp [hs]⟩, .inl rfl⟩
    · exact app

theorem addItem_length (kind : CollKind) (same : α → α → Bool) (c : List α) (x : α) :
    (addItem kind same c x).length ≤ c.length + 1 := by
  cases kind <;> simp only [addItem] <;> (try split) <;> simp

theorem drain_again (kind : CollKind) (same : α → α → Bool) (hsymm : ∀ a b, same a b = true → same b a = true)
    (htrans : ∀ a b c, same a b = true → same b c = true → same a c = true) (evs : List (DrainEv α)) (d : Drain α) :
    let e := d.run kind same evs
    (∀ y ∈ e.out ++ e.coll, y ∈ d.out ++ d.coll ++ added evs) ∧
    (∀ x ∈ d.out ++ d.coll ++ added evs, ∃ y ∈ e.out ++ e.coll, y = x ∨ same y x = true) ∧
    (e.out ++ e.coll).length ≤ (d.out ++ d.coll ++ added evs).length := by
  induction evs generalizing d with
  | nil => exact ⟨by simp [Drain.run, added], fun x hx => ⟨x, by simpa [Drain.run, added] using hx, .inl rfl⟩,
      by simp [Drain.run, added]⟩
  | cons ev evs ih =>
    intro e
    obtain ⟨h1, h2, h3⟩ := ih (d.step kind same ev)
    have he : e = (d.step kind same ev).run kind same evs := by simp [e, Drain.run]
    rw [← he] at h1 h2 h3
    cases ev with
    | next n =>
      have hp : ((d.step kind same (.next n)).out ++ (d.step kind same (.next n)).coll).Perm (d.out ++ d.coll) := by
        simp only [Drain.step]
        split
        · exact List.Perm.refl _
        · split
          · exact List.Perm.refl _
          · rename_i x c hx
            simp only [List.append_assoc, List.singleton_append]
            exact List.Perm.append_left _ (nextItem_perm hx)
      have hq := hp.append_right (added evs)
      exact ⟨fun y hy => hq.subset (h1 y hy), fun x hx => h2 x (hq.symm.subset hx), Nat.le_trans h3 (Nat.le_of_eq hq.length_eq)⟩
    | add a =>
      have hout : (d.step kind same (.add a)).out = d.out := rfl
      have hcoll : (d.step kind same (.add a)).coll = addItem kind same d.coll a := rfl
      rw [hout, hcoll] at h1 h2 h3
      refine ⟨fun y hy => ?_, fun x hx => ?_, ?_⟩
      · have := h1 y hy
        simp only [added, List.mem_append, List.mem_cons] at this ⊢
        rcases this with (h | h) | h
        · exact .inl (.inl h)
        · rcases addItem_mem kind same _ _ _ h with h | h
          · exact .inl (.inr h)
          · exact .inr (.inl h)
        · exact .inr (.inr h)
      · have : ∃ z ∈ d.out ++ addItem kind same d.coll a ++ added evs, z = x ∨ same z x = true := by
          simp only [added, List.mem_append, List.mem_cons] at hx
          rcases hx with (h | h) | h | h
          · exact ⟨x, by simp [h], .inl rfl⟩
          · obtain ⟨z, hz, hs⟩ := addItem_kept kind same hsymm d.coll a x (.inl h)
            exact ⟨z, by simp [hz], hs⟩
          · obtain ⟨z, hz, hs⟩ := addItem_kept kind same hsymm d.coll a x (.inr h)
            exact ⟨z, by simp [hz], hs⟩
          · exact ⟨x, by simp [h], .inl rfl⟩
        obtain ⟨z, hz, hs⟩ := this
        obtain ⟨y, hy, ht⟩ := h2 z hz
        refine ⟨y, hy, ?_⟩
        rcases ht with rfl | ht
        · exact hs
        · rcases hs with rfl | hs
          · exact .inr ht
          · exact .inr (htrans _ _ _ ht hs)
      · have := addItem_length kind same d.coll a
        simp only [List.length_append, added, List.length_cons] at h3 ⊢
        omega

/-- **C35**, whatever is added: nothing is yielded that was not there or added, nor more than that, and for
whatever was there or is added either it or an equal one has been yielded or is still there. -/
theorem C35_again (kind : CollKind) (same : α → α → Bool) (hsymm : ∀ a b, same a b = true → same b a = true)
    (htrans : ∀ a b c, same a b = true → same b c = true → same a c = true) (c : List α) (evs : List (DrainEv α)) :
    let e := Drain.run kind same ⟨c, false, []⟩ evs
    (∀ y ∈ e.out ++ e.coll, y ∈ c ++ added evs) ∧
    (∀ x ∈ c ++ added evs, ∃ y ∈ e.out ++ e.coll, y = x ∨ same y x = true) ∧
    (e.out ++ e.coll).length ≤ (c ++ added evs).length := by
  simpa using drain_again kind same hsymm htrans evs ⟨c, false, []⟩

/-- **C35**: setting a key that is there replaces what has not been yielded yet, adding an element that is there
changes nothing. -/
theorem C35_replaced (same : α → α → Bool) (d : Drain α) (x y : α) (hy : y ∈ d.coll) (hs : same x y = true) :
    x ∈ (d.step .dict same (.add x)).coll ∧ (d.step .dict same (.add x)).coll.length = d.coll.length ∧
    (∀ z ∈ (d.step .dict same (.add x)).coll, z = x ∨ z ∈ d.coll ∧ same x z = false) ∧
    d.step .set same (.add x) = d := by
  have ha : d.coll.any (same x) = true := List.any_eq_true.2 ⟨y, hy, hs⟩
  simp only [Drain.step, addItem, ha, if_true]
  refine ⟨List.mem_map.2 ⟨y, hy, by simp [hs]⟩, by simp, fun z hz => ?_, trivial⟩
  obtain ⟨w, hw, rfl⟩ := List.mem_map.1 hz
  split
  · exact .inl rfl
  · rename_i h
    exact .inr ⟨hw, by simpa using h⟩

-- Non-vacuity: a key is set anew while the dictionary is drained.
example :
    let evs : List (DrainEv (Nat × Nat)) := [.next 0, .add (1, 11), .add (2, 21), .next 0, .next 0, .next 0]
    let e := Drain.run .dict (fun a b : Nat × Nat => a.1 == b.1) ⟨[(1, 10), (2, 20)], false, []⟩ evs
    e.out = [(2, 20), (2, 21), (1, 11)] ∧ e.coll = [] ∧ e.done = true := by decide

/-- **C35**: the iteration ends exactly when the collection is found empty: then everything,
additions included, has been yielded. -/
theorem C35_empties (kind : CollKind) (same : α → α → Bool) (c : List α)
    (evs : List (DrainEv α)) (n : Nat) (hf : Fresh kind same ⟨c, false, []⟩ evs)
    (hbefore : (Drain.run kind same ⟨c, false, []⟩ evs).done = false) :
    ((Drain.run kind same ⟨c, false, []⟩ (evs ++ [.next n])).done = true ↔
      (Drain.run kind same ⟨c, false, []⟩ evs).coll = []) ∧
    ((Drain.run kind same ⟨c, false, []⟩ (evs ++ [.next n])).done = true →
      (Drain.run kind same ⟨c, false, []⟩ (evs ++ [.next n])).coll = [] ∧
      (Drain.run kind same ⟨c, false, []⟩ (evs ++ [.next n])).out.Perm (c ++ added evs)) := by
  have h := C35_conserved kind same c evs hf
  have hrun : Drain.run kind same ⟨c, false, []⟩ (evs ++ [.next n]) =
      (Drain.run kind same ⟨c, false, []⟩ evs).step kind same (.next n) := by
    simp [Drain.run]
  rw [hrun]
  generalize Drain.run kind same ⟨c, false, []⟩ evs = d at *
  simp only [Drain.step, hbefore, Bool.false_eq_true, if_false]
  cases hx : nextItem kind n d.coll with
  | none =>
    have := nextItem_none.1 hx
    simp only [this, List.append_nil] at h ⊢
    simp [h]
  | some p =>
    have : d.coll ≠ [] := fun he => by rw [nextItem_none.2 he] at hx; simp at hx
    simp [this]

/-- `list(drain(x))` where `x` has `k` elements: `k + 1` steps. -/
def Spec.steps (ns : List Nat) : List (DrainEv α) := ns.map .next

theorem run_drained {kind : CollKind} {same : α → α → Bool} (order : List α → List α)
    (h0 : order [] = [])
    (hs : ∀ n x c r, nextItem kind n c = some (x, r) → order c = x :: order r)
    (ns : List Nat) (c out : List α) (hl : ns.length = c.length + 1) :
    Drain.run kind same ⟨c, false, out⟩ (steps ns) = ⟨[], true, out ++ order c⟩ := by
  induction ns generalizing c out with
  | nil => simp at hl
  | cons n ns ih =>
    simp only [steps, List.map_cons, Drain.run, List.foldl_cons, Drain.step, Bool.false_eq_true,
      if_false]
    cases hx : nextItem kind n c with
    | none =>
      have hc := nextItem_none.1 hx
      subst hc
      simp only [List.length_nil, Nat.zero_add, List.length_cons, Nat.add_eq_right,
        List.length_eq_zero_iff] at hl
      subst hl
      simp [h0]
    | some p =>
      obtain ⟨x, r⟩ := p
      have hp := (nextItem_perm hx).length_eq
      simp only [List.length_cons] at hp hl
      have := ih r (out ++ [x]) (by omega)
      simp only [steps, Drain.run] at this
      simp only [this, hs n x c r hx, List.append_assoc, List.singleton_append]

/-- **C35**: deques are drained oldest first; lists and dictionaries newest first; the
collection is empty afterwards. -/
theorem C35_order (same : α → α → Bool) (ns : List Nat) (c : List α)
    (hl : ns.length = c.length + 1) :
    Drain.run .deque same ⟨c, false, []⟩ (steps ns) = ⟨[], true, c⟩ ∧
    Drain.run .list same ⟨c, false, []⟩ (steps ns) = ⟨[], true, c.reverse⟩ ∧
    Drain.run .dict same ⟨c, false, []⟩ (steps ns) = ⟨[], true, c.reverse⟩ := by
  have hlast : ∀ (x : α) (c r : List α),
      (match c.getLast? with | .none => .none | some x => some (x, c.dropLast)) = some (x, r) →
      c.reverse = x :: r.reverse := by
    intro x c r h
    split at h
    · simp at h
    · rename_i y hy
      simp only [Option.some.injEq, Prod.mk.injEq] at h
      obtain ⟨rfl, rfl⟩ := h
      conv => lhs; rw [← List.dropLast_append_getLast? y hy]
      simp
  refine ⟨?_, ?_, ?_⟩
  · have := run_drained (kind := .deque) (same := same) (fun c => c) rfl
      (fun n x c r h => by
        have := nextItem_perm h
        cases c with
        | nil => simp [nextItem] at h
        | cons y c => simp only [nextItem, Option.some.injEq, Prod.mk.injEq] at h; simp [h])
      ns c [] hl
    simpa using this
  · have := run_drained (kind := .list) (same := same) List.reverse rfl
      (fun n x c r h => hlast x c r h) ns c [] hl
    simpa using this
  · have := run_drained (kind := .dict) (same := same) List.reverse rfl
      (fun n x c r h => hlast x c r h) ns c [] hl
    simpa using this

-- Non-vacuity: additions while draining a set; the second one arrives too late.
example : Drain.run .set (fun x y => decide (x = y)) ⟨[1, 2, 3], false, []⟩
    [.next 7, .add 9, .next 2, .next 0, .next 0, .next 5, .add 2, .next 0] =
    ⟨[2], true, [2, 9, 1, 3]⟩ := by decide +kernel
example : Fresh .set (fun x y => decide (x = y)) ⟨[1, 2, 3], false, []⟩
    [.next 7, .add 9, .next 2] := by
  simp [Fresh, Drain.step, nextItem]
example : Drain.run .list (fun x y => decide (x = y)) ⟨[1, 2, 3], false, []⟩
    [.next 0, .add 9, .next 0, .next 0, .next 0, .next 0] = ⟨[], true, [3, 9, 2, 1]⟩ := by
  decide +kernel

end Kiel
