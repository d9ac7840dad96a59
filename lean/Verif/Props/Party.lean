import Verif.Lemmas.Dict
import Verif.Spec.Party
import Mathlib.Data.List.Induction
import Mathlib.Tactic.ByContra
/-
Membership: C58.
-/
set_option autoImplicit false
namespace Kiel
open Spec

/-! ### Nodes -/

theorem get?_filter_owner (d : Dict String Int) (hn : d.keys.Nodup) (s : Int) (m : String) :
    Dict.get? (d.filter fun e => decide (e.2 ≠ s)) m
      = match d.get? m with | some o => if o = s then .none else some o | .none => .none := by
  induction d with
  | nil => rfl
  | cons e r ih =>
    obtain ⟨k, v⟩ := e
    simp only [Dict.keys, List.map_cons, List.nodup_cons] at hn
    have ih := ih hn.2
    simp only [List.filter_cons]
    by_cases hv : v = s
    · subst hv
      simp only [ne_eq, not_true_eq_false, decide_false, Bool.false_eq_true, if_false, Dict.get?]
      by_cases hk : k = m
      · subst hk
        have : Dict.get? r k = .none := Dict.get?_eq_none.2 hn.1
        simp only [if_true, ih, this]
      · simp only [if_neg hk]; exact ih
    · simp only [ne_eq, hv, not_false_eq_true, decide_true, if_true, Dict.get?]
      by_cases hk : k = m
      · simp [hk, hv]
      · simp only [if_neg hk]; exact ih

/-! ### C58, one call at a time -/

/-- **C58**, `join`: if nobody interferes with the member's node between the two accesses, the
node exists afterwards and belongs to the caller's session, whatever was there before, and other
nodes are as the others left them.  Missing from the full claim: interference, `C58_false`. -/
theorem C58_join_partial (name : String) (sess : Int) (between : Zk → Zk) (z : Zk)
    (hlive : sess ∉ z.expired) (hlive' : sess ∉ (between z).expired)
    (hsame : (between z).nodes.get? name = z.nodes.get? name) :
    ∃ z', partyJoin name sess between z = (.ok (), z') ∧ z'.nodes.get? name = some sess ∧
      z'.expired = (between z).expired ∧
      ∀ m, m ≠ name → z'.nodes.get? m = (between z).nodes.get? m := by
  unfold partyJoin
  rw [if_neg hlive]
  cases h : z.nodes.get? name with
  | none =>
    rw [h] at hsame
    refine ⟨⟨(between z).nodes.set name sess, (between z).expired⟩, by simp only [Zk.create, if_neg hlive', Dict.has, hsame, Option.isSome_none,
      Bool.false_eq_true, if_false], ?_, rfl, ?_⟩
    · simp [Dict.get?_set]
    · intro m hm; simp [Dict.get?_set, Ne.symm hm]
  | some owner =>
    rw [h] at hsame
    by_cases ho : owner = sess
    · subst ho
      exact ⟨between z, by simp, hsame, rfl, fun _ _ => rfl⟩
    · refine ⟨⟨(between z).nodes.set name sess, (between z).expired⟩, by simp only [ne_eq, ho, not_false_eq_true, if_true, Zk.replace, if_neg hlive', Dict.has,
        hsame, Option.isSome_some], ?_, rfl, ?_⟩
      · simp [Dict.get?_set]
      · intro m hm; simp [Dict.get?_set, Ne.symm hm]

/-- **C58**: the expiry of another session, such as the one that owned the node before, does not
remove the node; that of its own does. -/
theorem C58_expire (name : String) (sess other : Int) (z : Zk) (hn : z.nodes.keys.Nodup)
    (h : z.nodes.get? name = some sess) :
    (other ≠ sess → (z.expire other).nodes.get? name = some sess) ∧
    (z.expire sess).nodes.get? name = .none := by
  unfold Zk.expire
  simp only [get?_filter_owner _ hn, h]
  exact ⟨fun ho => by rw [if_neg (Ne.symm ho)], by simp⟩

/-- **C58**, `leave`: the node is gone, other nodes are untouched, and it does not matter if it was
gone already. -/
theorem C58_leave (name : String) (sess : Int) (z : Zk) (hlive : sess ∉ z.expired) :
    ∃ z', partyLeave name sess z = (.ok (), z') ∧ z'.nodes.get? name = .none ∧
      (∀ m, m ≠ name → z'.nodes.get? m = z.nodes.get? m) ∧
      (z.nodes.get? name = .none → z' = z) := by
  unfold partyLeave Zk.delete
  rw [if_neg hlive]
  cases h : z.nodes.get? name with
  | none =>
    have hh : z.nodes.has name = false := by simp [Dict.has, h]
    exact ⟨z, by simp [hh, zkNoNode], h, fun _ _ => rfl, fun _ => rfl⟩
  | some o =>
    have hh : z.nodes.has name = true := by simp [Dict.has, h]
    refine ⟨⟨z.nodes.erase name, z.expired⟩, by simp only [hh, if_true], ?_, ?_, by simp⟩
    · simp [Dict.get?_erase]
    · intro m hm; simp [Dict.get?_erase, Ne.symm hm]

/-- **C58 fails** when the stale session expires after `exists` has found its node and before the
transaction: `join` returns, and the consumer is not a member. -/
theorem C58_false : ∃ (z : Zk) (between : Zk → Zk),
    between = Zk.expire 1 ∧ z.nodes = [("a", 1), ("b", 7)] ∧ (2 ∉ (between z).expired) ∧
    partyJoin "a" 2 between z = (.ok (), between z) ∧ (between z).nodes = [("b", 7)] :=
  ⟨⟨[("a", 1), ("b", 7)], []⟩, Zk.expire 1, rfl, rfl, by decide +kernel, by decide +kernel, by decide +kernel⟩

/-- In general: if the node found is another session's and is gone by the time of the transaction,
`join` returns without an exception and without an effect. -/
theorem C58_lost_race (name : String) (sess owner : Int) (between : Zk → Zk) (z : Zk)
    (hlive : sess ∉ z.expired) (hlive' : sess ∉ (between z).expired)
    (h : z.nodes.get? name = some owner) (ho : owner ≠ sess)
    (hgone : (between z).nodes.get? name = .none) :
    partyJoin name sess between z = (.ok (), between z) := by
  unfold partyJoin
  rw [if_neg hlive, h]
  simp [ho, Zk.replace, hlive', Dict.has, hgone]

/-! ### C58, histories -/

theorem keys_nodup_event (e : PartyEvent) (z : Zk) (h : z.nodes.keys.Nodup) :
    (partyEvent e z).nodes.keys.Nodup := by
  cases e with
  | join m s =>
    simp only [partyEvent, partyJoin, id]
    split
    · exact h
    · split
      · unfold Zk.create
        split
        · exact h
        · split
          · exact h
          · exact Dict.nodup_set h _ _
      · split
        · unfold Zk.replace
          split
          · exact h
          · split
            · exact Dict.nodup_set h _ _
            · exact h
        · exact h
  | leave m s =>
    simp only [partyEvent, partyLeave, Zk.delete]
    split
    · next heq =>
      split at heq
      · cases heq
      · split at heq
        · obtain ⟨_, rfl⟩ := Prod.mk.inj heq; exact Dict.nodup_erase h _
        · cases heq
    · next heq =>
      split at heq
      · obtain ⟨_, rfl⟩ := Prod.mk.inj heq; split <;> exact h
      · split at heq
        · cases heq
        · obtain ⟨_, rfl⟩ := Prod.mk.inj heq; split <;> exact h
  | expire s =>
    simp only [partyEvent, Zk.expire, Dict.keys]
    exact h.sublist (List.filter_sublist.map _)

theorem join_event (name : String) (sess : Int) (z : Zk) (m : String) :
    (partyEvent (.join name sess) z).expired = z.expired ∧
    (partyEvent (.join name sess) z).nodes.get? m
      = if m = name ∧ sess ∉ z.expired then some sess else z.nodes.get? m := by
  simp only [partyEvent]
  by_cases hl : sess ∈ z.expired
  · simp [partyJoin, hl]
  · obtain ⟨z', h1, h2, h3, h4⟩ := C58_join_partial name sess id z hl hl rfl
    rw [h1]
    refine ⟨h3, ?_⟩
    by_cases hm : m = name
    · subst hm; simp [hl, h2]
    · simp [hm, h4 m hm]

theorem leave_event (name : String) (sess : Int) (z : Zk) (m : String) :
    (partyEvent (.leave name sess) z).expired = z.expired ∧
    (partyEvent (.leave name sess) z).nodes.get? m
      = if m = name ∧ sess ∉ z.expired then .none else z.nodes.get? m := by
  simp only [partyEvent]
  by_cases hl : sess ∈ z.expired
  · simp [partyLeave, Zk.delete, hl, zkSessionExpired, zkNoNode]
  · obtain ⟨z', h1, h2, h3, _⟩ := C58_leave name sess z hl
    have he : (partyLeave name sess z).2.expired = z.expired := by
      unfold partyLeave Zk.delete
      rw [if_neg hl]
      cases z.nodes.has name <;> rfl
    rw [h1] at he ⊢
    refine ⟨he, ?_⟩
    by_cases hm : m = name
    · subst hm; simp [hl, h2]
    · simp [hm, h3 m hm]

theorem partyRun_snoc (evs : List PartyEvent) (e : PartyEvent) (z : Zk) :
    partyRun (evs ++ [e]) z = partyEvent e (partyRun evs z) := by simp [partyRun]

/-- What holds after any events. -/
theorem partyRun_inv (evs : List PartyEvent) :
    (partyRun evs ⟨[], []⟩).nodes.keys.Nodup ∧
    (∀ s, s ∈ (partyRun evs ⟨[], []⟩).expired ↔ ended evs s) := by
  induction evs using List.reverseRecOn with
  | nil => exact ⟨List.nodup_nil, fun s => by simp [partyRun, ended]⟩
  | append_singleton evs e ih =>
    rw [partyRun_snoc]
    refine ⟨keys_nodup_event e _ ih.1, fun s => ?_⟩
    cases e with
    | join m s' => rw [(join_event m s' _ m).1, ih.2]; simp [ended]
    | leave m s' => rw [(leave_event m s' _ m).1, ih.2]; simp [ended]
    | expire s' =>
      simp only [partyEvent, Zk.expire, List.mem_append, List.mem_singleton, ih.2, ended]
      simp

theorem ended_snoc (evs : List PartyEvent) (e : PartyEvent) (s : Int) :
    ended (evs ++ [e]) s ↔ ended evs s ∨ e = .expire s := by
  simp [ended, eq_comm]

/-- A member stays one if the next event does not concern it. -/
theorem member_keep (evs : List PartyEvent) (e : PartyEvent) (m : String) (sess : Int)
    (he : e ≠ .expire sess)
    (hk : ∀ s, (e = .join m s ∨ e = .leave m s) → (e = .join m s ∧ s = sess) ∨ ended evs s) :
    Member evs m sess → Member (evs ++ [e]) m sess := by
  rintro ⟨before, after, rfl, h1, h2⟩
  refine ⟨before, after ++ [e], by simp, ?_, ?_⟩
  · rw [ended_snoc]; rintro (h | h)
    · exact h1 h
    · exact he h
  · intro mid e' rest heq s hs
    rcases List.append_eq_append_iff.1 heq with ⟨a', ha, hb⟩ | ⟨c', hc, hd⟩
    · -- `e'` is `e`
      cases a' with
      | nil =>
        simp only [List.append_nil] at ha
        simp only [List.nil_append] at hb
        obtain ⟨rfl, _⟩ := List.cons.inj hb
        subst ha
        exact hk s hs
      | cons x a' =>
        simp only [List.cons_append, List.cons.injEq] at hb
        have := congrArg List.length hb.2
        simp at this
    · cases c' with
      | nil =>
        simp only [List.append_nil] at hc
        simp only [List.nil_append, List.cons.injEq] at hd
        obtain ⟨rfl, _⟩ := hd
        subst hc
        exact hk s hs
      | cons x c' =>
        simp only [List.cons_append, List.cons.injEq] at hd
        obtain ⟨rfl, _⟩ := hd
        exact h2 mid e' c' hc s hs

/-- A member after an event was one before, or has just joined. -/
theorem member_back (evs : List PartyEvent) (e : PartyEvent) (m : String) (sess : Int)
    (h : Member (evs ++ [e]) m sess) :
    e ≠ .expire sess ∧ ((e = .join m sess ∧ ¬ ended evs sess) ∨ (Member evs m sess ∧
      ∀ s, (e = .join m s ∨ e = .leave m s) → (e = .join m s ∧ s = sess) ∨ ended evs s)) := by
  obtain ⟨before, after, heq, h1, h2⟩ := h
  rw [ended_snoc, not_or] at h1
  refine ⟨h1.2, ?_⟩
  induction after using List.reverseRecOn with
  | nil =>
    obtain ⟨rfl, h3⟩ := List.append_inj' heq rfl
    simp only [List.cons.injEq, and_true] at h3
    exact .inl ⟨h3, h1.1⟩
  | append_singleton after x _ =>
    have heq' : evs ++ [e] = (before ++ .join m sess :: after) ++ [x] := by rw [heq]; simp
    obtain ⟨rfl, h3⟩ := List.append_inj' heq' rfl
    simp only [List.cons.injEq, and_true] at h3
    subst h3
    refine .inr ⟨⟨before, after, rfl, h1.1, ?_⟩, ?_⟩
    · intro mid e' rest hh s hs
      exact h2 mid e' (rest ++ [e]) (by rw [hh]; simp) s hs
    · intro s hs
      exact h2 after e [] rfl s hs

/-- **C58.**  After any history of joins, leaves and expiries, by any sessions, the nodes are
exactly those of the members: whoever joined with a session that has not expired since, and for
whom no live session has since then left or joined. -/
theorem C58_history (evs : List PartyEvent) (m : String) (sess : Int) :
    (partyRun evs ⟨[], []⟩).nodes.get? m = some sess ↔ Member evs m sess := by
  induction evs using List.reverseRecOn generalizing sess with
  | nil =>
    simp only [partyRun, List.foldl_nil, Dict.get?, reduceCtorEq, Member, false_iff]
    rintro ⟨before, after, h, _⟩
    have := congrArg List.length h
    simp at this
  | append_singleton evs e ih =>
    rw [partyRun_snoc]
    have hinv := partyRun_inv evs
    cases e with
    | join m' s' =>
      rw [(join_event m' s' _ m).2]
      by_cases hc : m = m' ∧ s' ∉ (partyRun evs ⟨[], []⟩).expired
      · rw [if_pos hc]
        obtain ⟨rfl, hs⟩ := hc
        rw [hinv.2] at hs
        constructor
        · intro h
          obtain rfl := Option.some.inj h
          exact ⟨evs, [], rfl, by rw [ended_snoc]; simp [hs], by
            intro mid e rest h
            have := congrArg List.length h
            simp at this⟩
        · intro h
          rcases (member_back _ _ _ _ h).2 with h1 | ⟨_, h2⟩
          · simpa using h1.1
          · rcases h2 s' (.inl rfl) with h3 | h3
            · rw [h3.2]
            · exact absurd h3 hs
      · rw [if_neg hc, ih]
        constructor
        · intro h
          refine member_keep _ _ _ _ (by simp) ?_ h
          intro s hs
          simp only [PartyEvent.join.injEq, reduceCtorEq, or_false] at hs
          obtain ⟨rfl, rfl⟩ := hs
          right
          rw [← hinv.2]
          by_contra hn
          exact hc ⟨rfl, hn⟩
        · intro h
          rcases (member_back _ _ _ _ h).2 with ⟨h1, h1'⟩ | ⟨h2, _⟩
          · simp only [PartyEvent.join.injEq] at h1
            obtain ⟨rfl, rfl⟩ := h1
            exact absurd ⟨rfl, by rw [hinv.2]; exact h1'⟩ hc
          · exact h2
    | leave m' s' =>
      rw [(leave_event m' s' _ m).2]
      by_cases hc : m = m' ∧ s' ∉ (partyRun evs ⟨[], []⟩).expired
      · rw [if_pos hc]
        obtain ⟨rfl, hs⟩ := hc
        rw [hinv.2] at hs
        simp only [reduceCtorEq, false_iff]
        intro h
        rcases (member_back _ _ _ _ h).2 with h1 | ⟨_, h2⟩
        · simp at h1
        · rcases h2 s' (.inr rfl) with h3 | h3
          · simp at h3
          · exact hs h3
      · rw [if_neg hc, ih]
        constructor
        · intro h
          refine member_keep _ _ _ _ (by simp) ?_ h
          intro s hs
          simp only [reduceCtorEq, PartyEvent.leave.injEq, false_or] at hs
          obtain ⟨rfl, rfl⟩ := hs
          right
          rw [← hinv.2]
          by_contra hn
          exact hc ⟨rfl, hn⟩
        · intro h
          rcases (member_back _ _ _ _ h).2 with h1 | ⟨h2, _⟩
          · simp at h1
          · exact h2
    | expire s' =>
      simp only [partyEvent, Zk.expire, get?_filter_owner _ hinv.1]
      constructor
      · intro h
        cases ho : (partyRun evs ⟨[], []⟩).nodes.get? m with
        | none => rw [ho] at h; cases h
        | some o =>
          rw [ho] at h
          simp only at h
          split at h
          · cases h
          · next hne =>
            obtain rfl := Option.some.inj h
            refine member_keep _ _ _ _ (by simpa using Ne.symm hne) (by simp) ((ih _).1 ho)
      · intro h
        obtain ⟨h0, h1 | ⟨h2, _⟩⟩ := member_back _ _ _ _ h
        · simp at h1
        · rw [(ih _).2 h2]
          simp only [ne_eq, PartyEvent.expire.injEq] at h0
          simp [Ne.symm h0]

/-- A stale node is taken over, the old session expires, another member leaves. -/
example : partyRun [.join "a" 1, .join "b" 7, .join "a" 2, .expire 1, .leave "b" 7] ⟨[], []⟩
    = ⟨[("a", 2)], [1]⟩ := by decide +kernel

/-- A case for `C58_join_partial`: a stale node, and another member joining in between. -/
example : partyJoin "a" 2 (fun z => (z.create "c" 9).2) ⟨[("a", 1), ("b", 7)], []⟩
    = (.ok (), ⟨[("a", 2), ("b", 7), ("c", 9)], []⟩) := by decide +kernel

end Kiel
