import Verif.Props.Notify
import Verif.Model.Startup
import Verif.Spec.Startup
/-
Notifications that overlap (C59), `start` (C60, C62) and `stop` (C62).
-/
set_option autoImplicit false
namespace Kiel
open Spec

/-! ### C59: where it fails -/

/-- The steps of `phase`, run without interruption, are `notify`. -/
theorem C59_one_at_a_time (fn : AllocFn) (n : Note) (q : Phase) (s : Alloc) :
    Alloc.race fn [true, true, true] (.start n) q s = (.finished (s.notify fn n).1, q, (s.notify fn n).2) := by
  cases n with
  | members l =>
    simp only [Alloc.race, Alloc.notify, Alloc.onMembers]
    by_cases h : setEq (pySet l) s.members = true
    · simp only [Alloc.phase, h, if_true, Alloc.collected]
    · simp only [Alloc.phase, h, Bool.false_eq_true, if_false, Alloc.rebalance]
      cases fn (pySorted (pySet l)) (pySorted s.partitions) with
      | error e => rfl
      | ok d =>
        simp only [Alloc.allocation]
        cases d.entries.get? s.name with
        | some a => rfl
        | none => cases d.dflt <;> rfl
  | partitions o =>
    cases o with
    | none => rfl
    | some l =>
      simp only [Alloc.race, Alloc.notify, Alloc.onPartitions, Option.map_some]
      by_cases h : setEq (pySet l) s.partitions = true
      · simp only [Alloc.phase, h, if_true, Alloc.collected]
      · simp only [Alloc.phase, h, Bool.false_eq_true, if_false, Alloc.rebalance]
        cases fn (pySorted s.members) (pySorted (pySet l)) with
        | error e => rfl
        | ok d =>
          simp only [Alloc.allocation]
          cases d.entries.get? s.name with
          | some a => rfl
          | none => cases d.dflt <;> rfl

/-- A custom allocator that leaves out members without partitions, in a plain dictionary. -/
def exSparse : AllocFn := fun ms ps =>
  match naiveAllocator ms ps with
  | .ok d => .ok ⟨d, false⟩
  | .error e => .error e

/-- **C59 fails** for such an allocator: consumer `b` is told that it has no partitions any more,
and its callback is not called; it is not called for either of the two changes. -/
theorem C59_false :
    ∃ ns : List Note, NotesOf PlainItem ns ∧ changes ns = 2 ∧
      ((Alloc.new "b").notifyAll exSparse ns).calls = 0 ∧
      ((Alloc.new "b").notifyAll exSparse ns).allocation.1 = .error .keyError :=
  ⟨[.members ["a", "b"], .partitions (some ["logs:0"])],
    fun l hl x hx => by
      simp only [List.mem_cons, reduceCtorEq, Note.partitions.injEq, Option.some.injEq,
        List.not_mem_nil, or_false, false_or] at hl
      subst hl
      simp only [List.mem_singleton] at hx
      exact ⟨"logs", 0, by decide +kernel, by rw [hx]; decide +kernel⟩,
    by decide +kernel, by decide +kernel, by decide +kernel⟩

/-- **C59 fails** when notifications overlap: member `a` handles, on the thread that called
`start`, the first notification of the partitions, while kazoo's thread handles that `b` has
joined.  Both finish without an exception, yet the mapping gives `a` what it had alone. -/
theorem C59_false_race :
    ∃ (s s' : Alloc) (sched : List Bool),
      s = (Alloc.new "a").notifyAll naiveFn [.members ["a"]] ∧
      Alloc.race naiveFn sched (.start (.partitions (some ["logs:0", "logs:1"]))) (.start (.members ["a", "b"])) s
        = (.finished (.ok ()), .finished (.ok ()), s') ∧
      pySorted s'.members = ["a", "b"] ∧ pySorted s'.partitions = ["logs:0", "logs:1"] ∧
      s'.allocation.1 = .ok [("logs", [0, 1])] ∧
      naiveAllocator ["a", "b"] ["logs:0", "logs:1"]
        = .ok [("a", [("logs", [0])]), ("b", [("logs", [1])])] :=
  ⟨_, ⟨"a", ["a", "b"], ["logs:0", "logs:1"], true, true, ⟨[("a", [("logs", [0, 1])])], true⟩, 3⟩,
    [true, true, false, false, false, true], rfl, by decide +kernel, by decide +kernel,
    by decide +kernel, by decide +kernel, by decide +kernel⟩

/-! ### A case for C47 and C59 -/

def exNotesA : List Note :=
  [.members ["b"], .partitions (some []), .members ["b", "a"],
    .partitions (some ["logs:1", "hits:0", "logs:0"]), .members ["a", "b"]]

def exNotesB : List Note :=
  [.members ["b"], .partitions (some ["logs:0"]), .partitions .none,
    .partitions (some ["hits:0", "logs:0", "logs:1", "logs:0"]), .members ["a", "b"]]

theorem exNotes_plain : NotesOf PlainItem exNotesA ∧ NotesOf PlainItem exNotesB := by
  have h1 : PlainItem "logs:0" := ⟨"logs", 0, by decide +kernel, by decide +kernel⟩
  have h2 : PlainItem "logs:1" := ⟨"logs", 1, by decide +kernel, by decide +kernel⟩
  have h3 : PlainItem "hits:0" := ⟨"hits", 0, by decide +kernel, by decide +kernel⟩
  constructor
  · intro l hl x hx
    simp only [exNotesA, List.mem_cons, reduceCtorEq, Note.partitions.injEq, Option.some.injEq,
        List.not_mem_nil, or_false, false_or] at hl
    rcases hl with rfl | rfl
    · simp at hx
    · simp only [List.mem_cons, List.not_mem_nil, or_false] at hx
      rcases hx with rfl | rfl | rfl <;> assumption
  · intro l hl x hx
    simp only [exNotesB, List.mem_cons, reduceCtorEq, Note.partitions.injEq, Option.some.injEq,
        List.not_mem_nil, or_false, false_or] at hl
    rcases hl with rfl | rfl
    · simp only [List.mem_cons, List.not_mem_nil, or_false] at hx
      rcases hx with rfl; assumption
    · simp only [List.mem_cons, List.not_mem_nil, or_false] at hx
      rcases hx with rfl | rfl | rfl | rfl <;> assumption

/-- Two consumers, told in different orders. -/
example : NotesOf PlainItem exNotesA ∧ NotesOf PlainItem exNotesB ∧
    SameSet (latestMembers exNotesA) (latestMembers exNotesB) ∧
    SameSet (latestPartitions exNotesA) (latestPartitions exNotesB) ∧
    "a" ∈ latestMembers exNotesA ∧ "b" ∈ latestMembers exNotesB ∧
    changes exNotesA = 3 ∧ changes exNotesB = 4 ∧
    ((Alloc.new "a").notifyAll naiveFn exNotesA).allocation.1 = .ok [("hits", [0]), ("logs", [1])] ∧
    ((Alloc.new "b").notifyAll naiveFn exNotesB).allocation.1 = .ok [("logs", [0])] :=
  ⟨exNotes_plain.1, exNotes_plain.2, by decide +kernel, by decide +kernel, by decide +kernel,
    by decide +kernel, by decide +kernel, by decide +kernel, by decide +kernel, by decide +kernel⟩

/-! ### C60 -/

/-- The notifications handled by the time `start` returns, given what the two watches were first
called with. -/
def startNotes (env : StartEnv) (l : List String) (p : Option (List String)) : List Note :=
  [.members l] ++ env.notes 1 ++ [.partitions p] ++ env.notes 2 ++ env.notes 3 ++ env.notes 4

theorem notifyAll_append (fn : AllocFn) (a b : List Note) (s : Alloc) :
    s.notifyAll fn (a ++ b) = (s.notifyAll fn a).notifyAll fn b := by
  induction a generalizing s with
  | nil => rfl
  | cons n a ih => exact ih _

theorem attempt_ok {σ ι : Type} (name : ι) (step : σ → Res Unit × σ) (a : Attempts σ ι)
    (h : (attempt name step a).failed = .none) :
    a.failed = .none ∧ (step a.state).1 = .ok () ∧
      attempt name step a = ⟨.none, (step a.state).2, a.ran ++ [name]⟩ := by
  unfold attempt at h ⊢
  cases ha : a.failed with
  | some e => rw [ha] at h; simp only at h; rw [ha] at h; cases h
  | none =>
    rw [ha] at h
    simp only at h ⊢
    cases hs : step a.state with
    | mk r s =>
      rw [hs] at h
      cases r with
      | error e => cases h
      | ok _ => exact ⟨trivial, rfl, rfl⟩

/-- If `start` resolves without an error then every step was run and none failed. -/
theorem start_resolved (fn : AllocFn) (env : StartEnv) (s s' : Alloc) (ran : List StartStep)
    (h : s.start fn env = (some (.ok ()), s', ran)) :
    ∃ l p, env.partyStart = .ok l ∧ env.setStart = .ok p ∧
      s' = s.notifyAll fn (startNotes env l p) ∧
      ran = [.connect, .partyStart, .setStart, .join, .addPartitions] := by
  unfold Alloc.start at h
  simp only at h
  split at h
  · cases h
  · split at h
    · cases h
    · unfold startEnd at h
      split at h
      · cases h
      · next hf =>
        split at h
        · simp only [Prod.mk.injEq] at h
          obtain ⟨_, hs, hr⟩ := h
          let a0 : Attempts Alloc StartStep :=
            attempt .connect (fun s => (env.connect, s)) ⟨.none, s, []⟩
          let a1 := attempt .partyStart (startParty fn env) a0
          let a2 := attempt .setStart (startSet fn env) (elsewhere fn (env.notes 1) a1)
          let a3 := attempt .join (fun s => (env.join, s)) (elsewhere fn (env.notes 2) a2)
          let a4 := attempt .addPartitions (fun s => (env.addItems, s)) (elsewhere fn (env.notes 3) a3)
          have hs : (a4.state).notifyAll fn (env.notes 4) = s' := hs
          have hr : a4.ran = ran := hr
          obtain ⟨h5, _, e5⟩ := attempt_ok _ (fun s => (env.addItems, s)) (elsewhere fn (env.notes 3) a3) hf
          obtain ⟨h4, _, e4⟩ := attempt_ok _ (fun s => (env.join, s)) (elsewhere fn (env.notes 2) a2) h5
          obtain ⟨h3, o3, e3⟩ := attempt_ok _ (startSet fn env) (elsewhere fn (env.notes 1) a1) h4
          obtain ⟨h2, o2, e2⟩ := attempt_ok _ (startParty fn env) a0 h3
          obtain ⟨h1, _, e1⟩ := attempt_ok _ (fun s => (env.connect, s)) ⟨.none, s, []⟩ h2
          unfold startParty at o2
          unfold startSet at o3
          cases hp : env.partyStart with
          | error e => rw [hp] at o2; cases o2
          | ok l =>
            cases hq : env.setStart with
            | error e => rw [hq] at o3; cases o3
            | ok p =>
              have t0 : a0 = ⟨.none, s, [.connect]⟩ := e1
              have t1 : a1 = ⟨.none, (s.notify fn (.members l)).2, [.connect, .partyStart]⟩ := by
                rw [show a1 = _ from e2, t0]
                simp only [startParty, hp]; rfl
              have t2 : a2 = ⟨.none, (((s.notify fn (.members l)).2.notifyAll fn (env.notes 1)).notify fn
                  (.partitions p)).2, [.connect, .partyStart, .setStart]⟩ := by
                rw [show a2 = _ from e3, t1]
                simp only [startSet, hq, elsewhere]; rfl
              have t3 : a3 = ⟨.none, (elsewhere fn (env.notes 2) a2).state, a2.ran ++ [.join]⟩ := e4
              have t4 : a4 = ⟨.none, (elsewhere fn (env.notes 3) a3).state, a3.ran ++ [.addPartitions]⟩ := e5
              refine ⟨l, p, rfl, rfl, ?_, ?_⟩
              · rw [← hs, t4, t3, t2]
                simp only [startNotes, notifyAll_append]
                rfl
              · rw [← hr, t4, t3, t2]
                rfl
        · cases h

/-- **C60**, exactly: with the default allocator and proper items, once `start` has resolved the
allocation can be read if and only if some notification handled by then was a change. -/
theorem C60_exact (name : String) (env : StartEnv) (s : Alloc) (ran : List StartStep)
    (hplain : ∀ l p, env.partyStart = .ok l → env.setStart = .ok p → NotesOf PlainItem (startNotes env l p))
    (h : (Alloc.new name).start naiveFn env = (some (.ok ()), s, ran)) :
    ∃ l p, env.partyStart = .ok l ∧ env.setStart = .ok p ∧
      ((∃ a, s.allocation.1 = .ok a) ↔ changes (startNotes env l p) ≠ 0) := by
  obtain ⟨l, p, hl, hp, rfl, _⟩ := start_resolved _ _ _ _ _ h
  refine ⟨l, p, hl, hp, ?_⟩
  have h := C59_partial naiveFn PlainItem name (naive_usable name) _ (hplain l p hl hp)
  constructor
  · rintro ⟨a, ha⟩ h0
    rw [h.2.2.2.1 h0] at ha
    cases ha
  · intro h0
    obtain ⟨d, a, _, _, h3, _⟩ := h.2.2.2.2 h0 _ _
      ⟨(pySorted_spec _ (nodup_pySet _)).1, fun x => ((pySorted_spec _ (nodup_pySet _)).2 x).trans (mem_pySet _ _)⟩
      ⟨(pySorted_spec _ (nodup_pySet _)).1, fun x => ((pySorted_spec _ (nodup_pySet _)).2 x).trans (mem_pySet _ _)⟩
    exact ⟨a, by rw [h3]⟩

theorem changes_mono (a b : List Note) : changes a ≤ changes (a ++ b) := by
  induction b using List.reverseRecOn with
  | nil => simp
  | append_singleton b n ih => rw [← List.append_assoc, changes_snoc]; omega

/-- Notifications that are not changes leave both sets empty. -/
theorem changes_zero (ns : List Note) (h : changes ns = 0) :
    SameSet (latestMembers ns) [] ∧ SameSet (latestPartitions ns) [] := by
  induction ns using List.reverseRecOn with
  | nil => exact ⟨SameSet.refl _, SameSet.refl _⟩
  | append_singleton ns n ih =>
    rw [changes_snoc] at h
    obtain ⟨h1, h2⟩ := ih (by omega)
    have hc : ¬ IsChange ns n := by intro hc; rw [if_pos hc] at h; omega
    cases n with
    | members l =>
      simp only [IsChange, not_not] at hc
      rw [latestMembers_members, latestPartitions_members]
      exact ⟨hc.trans h1, h2⟩
    | partitions o =>
      cases o with
      | none => rw [latestMembers_partitions, latestPartitions_none]; exact ⟨h1, h2⟩
      | some l =>
        simp only [IsChange, not_not] at hc
        rw [latestMembers_partitions, latestPartitions_some]
        exact ⟨h1, hc.trans h2⟩

/-- A notification that names anything makes for a change, sooner or later. -/
theorem changes_of_mem (ns : List Note) (n : Note) (hn : n ∈ ns)
    (hne : ∃ x, n = .members x ∧ x ≠ [] ∨ n = .partitions (some x) ∧ x ≠ []) : changes ns ≠ 0 := by
  intro h0
  obtain ⟨a, b, rfl⟩ := List.append_of_mem hn
  have h1 : changes (a ++ [n]) = 0 := by
    have := changes_mono (a ++ [n]) b
    rw [List.append_assoc, List.singleton_append] at this
    omega
  obtain ⟨hm, hp⟩ := changes_zero _ h1
  obtain ⟨x, ⟨rfl, hx⟩ | ⟨rfl, hx⟩⟩ := hne
  · rw [latestMembers_members] at hm
    cases x with
    | nil => exact hx rfl
    | cons y x => exact absurd ((hm y).1 (by simp)) (by simp)
  · rw [latestPartitions_some] at hp
    cases x with
    | nil => exact hx rfl
    | cons y x => exact absurd ((hp y).1 (by simp)) (by simp)

/-- **C60** if, when `start` is called, the group already has a member or a partition (or a
notification of one was handled in time).  Missing from the full claim: a new group, `C60_false`. -/
theorem C60_partial (name : String) (env : StartEnv) (s : Alloc) (ran : List StartStep)
    (hplain : ∀ l p, env.partyStart = .ok l → env.setStart = .ok p → NotesOf PlainItem (startNotes env l p))
    (hsome : ∀ l p, env.partyStart = .ok l → env.setStart = .ok p → l ≠ [] ∨ (∃ x, p = some x ∧ x ≠ []) ∨
      ∃ n ∈ startNotes env l p, ∃ x, n = .members x ∧ x ≠ [] ∨ n = .partitions (some x) ∧ x ≠ [])
    (h : (Alloc.new name).start naiveFn env = (some (.ok ()), s, ran)) :
    ∃ a, s.allocation.1 = .ok a := by
  obtain ⟨l, p, hl, hp, hiff⟩ := C60_exact name env s ran hplain h
  refine hiff.2 ?_
  rcases hsome l p hl hp with h1 | ⟨x, rfl, hx⟩ | ⟨n, hn, hx⟩
  · exact changes_of_mem _ (.members l) (by simp [startNotes]) ⟨l, .inl ⟨rfl, h1⟩⟩
  · exact changes_of_mem _ (.partitions (some x)) (by simp [startNotes]) ⟨x, .inr ⟨rfl, hx⟩⟩
  · exact changes_of_mem _ n hn hx

/-- A group nobody has used before: no members, no data; nothing fails, and the notification of
the consumer's own joining arrives after `start` has returned. -/
def exFresh : StartEnv := ⟨.ok (), true, .ok [], .ok (some []), .ok (), true, .ok (), fun _ => []⟩

/-- **C60 fails** for the first consumer of a group. -/
theorem C60_false :
    ∃ (env : StartEnv) (s : Alloc) (ran : List StartStep),
      (Alloc.new "a").start naiveFn env = (some (.ok ()), s, ran) ∧
      s.allocation.1 = .error .keyError :=
  ⟨exFresh, _, _, rfl, by decide +kernel⟩

/-- A case for `C60_partial`: another member is there. -/
def exJoined : StartEnv :=
  ⟨.ok (), true, .ok ["b"], .ok (some ["logs:0", "logs:1"]), .ok (), true, .ok (),
    fun n => if n = 3 then [.members ["b", "a"]] else []⟩

example : (Alloc.new "a").start naiveFn exJoined
    = (some (.ok ()), ⟨"a", ["b", "a"], ["logs:0", "logs:1"], true, true,
        ⟨[("a", [("logs", [0])]), ("b", [("logs", [1])])], true⟩, 3⟩,
      [.connect, .partyStart, .setStart, .join, .addPartitions]) := by decide +kernel

/-! ### C62 -/

/-- **C62**, `stop`: its steps are run in order up to the first that fails, whose exception is the
outcome. -/
theorem C62_stop {σ : Type} (leave stop close : σ → Res Unit × σ) (s : σ) :
    let s1 := (leave s).2
    let s2 := (stop s1).2
    let out := inOrder [(StopStep.leave, (leave s).1), (.stop, (stop s1).1), (.close, (close s2).1)]
    (allocatorStop leave stop close s).1 = out.1 ∧ (allocatorStop leave stop close s).2.2 = out.2 := by
  simp only [allocatorStop, attempt]
  rcases h1 : leave s with ⟨_ | _, s1⟩
  · simp [inOrder]
  · rcases h2 : stop s1 with ⟨_ | _, s2⟩
    · simp [inOrder]
    · rcases h3 : close s2 with ⟨_ | _, s3⟩
      · simp [inOrder]
      · simp [inOrder]

/-- What the step that sets the watch on the partitions comes to: a missing node is a failure. -/
def setStartOutcome : Res (Option (List String)) → Res Unit
  | .error e => .error e
  | .ok .none => .error .typeError
  | .ok (some _) => .ok ()

/-- The outcomes of the steps of `start`. -/
def startOutcomes (env : StartEnv) : List (StartStep × Res Unit) :=
  [(.connect, env.connect), (.partyStart, env.partyStart.map fun _ => ()),
    (.setStart, setStartOutcome env.setStart), (.join, env.join), (.addPartitions, env.addItems)]

theorem collected_notify (fn : AllocFn) (n : Note) (s : Alloc) :
    (s.membersCollected = true → (s.notify fn n).2.membersCollected = true) ∧
    (s.partitionsCollected = true → (s.notify fn n).2.partitionsCollected = true) := by
  have hr : ∀ s : Alloc, (s.rebalance fn).2.membersCollected = s.membersCollected ∧
      (s.rebalance fn).2.partitionsCollected = s.partitionsCollected := by
    intro s
    unfold Alloc.rebalance
    split
    · exact ⟨rfl, rfl⟩
    · next d hd =>
      unfold Alloc.allocation
      simp only
      cases d.entries.get? s.name with
      | some a => exact ⟨rfl, rfl⟩
      | none => cases d.dflt <;> exact ⟨rfl, rfl⟩
  cases n with
  | members l =>
    simp only [Alloc.notify, Alloc.onMembers]
    split
    · exact ⟨fun _ => rfl, id⟩
    · have := hr { s with members := pySet l }
      split <;> next e => rw [e] at this; simp only at this; exact ⟨by simp [this.1], by simp [this.2]⟩
  | partitions o =>
    cases o with
    | none => exact ⟨id, id⟩
    | some l =>
      simp only [Alloc.notify, Alloc.onPartitions, Option.map_some]
      split
      · exact ⟨id, fun _ => rfl⟩
      · have := hr { s with partitions := pySet l }
        split <;> next e => rw [e] at this; simp only at this; exact ⟨by simp [this.1], by simp [this.2]⟩

theorem collected_all (fn : AllocFn) (ns : List Note) (s : Alloc) :
    (s.membersCollected = true → (s.notifyAll fn ns).membersCollected = true) ∧
    (s.partitionsCollected = true → (s.notifyAll fn ns).partitionsCollected = true) := by
  induction ns generalizing s with
  | nil => exact ⟨id, id⟩
  | cons n ns ih =>
    have h1 := collected_notify fn n s
    have h2 := ih (s.notify fn n).2
    exact ⟨fun h => h2.1 (h1.1 h), fun h => h2.2 (h1.2 h)⟩

theorem collected_ok (fn : AllocFn) (n : Note) (s : Alloc) (h : (s.notify fn n).1 = .ok ()) :
    match n with
    | .members _ => (s.notify fn n).2.membersCollected = true
    | .partitions _ => (s.notify fn n).2.partitionsCollected = true := by
  cases n with
  | members l =>
    simp only [Alloc.notify, Alloc.onMembers] at h ⊢
    split
    · rfl
    · next hne =>
      rw [if_neg hne] at h
      split
      · next e => rw [e] at h; cases h
      · rfl
  | partitions o =>
    cases o with
    | none => cases h
    | some l =>
      simp only [Alloc.notify, Alloc.onPartitions, Option.map_some] at h ⊢
      split
      · rfl
      · next hne =>
        rw [if_neg hne] at h
        split
        · next e => rw [e] at h; cases h
        · rfl

/-- What the attempts so far amount to, given the outcomes of the steps. -/
def Follows {σ ι : Type} (outs : List (ι × Res Unit)) (a : Attempts σ ι) : Prop :=
  inOrder outs = (match a.failed with | some e => .error e | .none => .ok (), a.ran)

theorem inOrder_append {ι : Type} (outs more : List (ι × Res Unit)) :
    inOrder (outs ++ more) = match inOrder outs with
      | (.error e, ran) => (.error e, ran)
      | (.ok _, ran) => ((inOrder more).1, ran ++ (inOrder more).2) := by
  induction outs with
  | nil => rfl
  | cons x outs ih =>
    obtain ⟨i, r⟩ := x
    cases r with
    | error e => rfl
    | ok _ =>
      simp only [List.cons_append, inOrder, ih]
      rcases inOrder outs with ⟨_ | _, ran⟩ <;> rfl

theorem follows_attempt {σ ι : Type} (outs : List (ι × Res Unit)) (a : Attempts σ ι) (name : ι)
    (step : σ → Res Unit × σ) (o : Res Unit) (h : Follows outs a)
    (ho : a.failed = .none → (step a.state).1 = o) :
    Follows (outs ++ [(name, o)]) (attempt name step a) := by
  unfold Follows at h ⊢
  rw [inOrder_append, h]
  unfold attempt
  cases hf : a.failed with
  | some e => simp [hf]
  | none =>
    have ho := ho hf
    rcases hs : step a.state with ⟨_ | _, s⟩
    · rw [hs] at ho; subst ho; rfl
    · rw [hs] at ho; subst ho; rw [← hf]; simp [inOrder, hf]

/-- **C62**, `start`, provided zookeeper can be reached (before the last step, if it comes to
that): the steps are run in order up to the first
that fails, and the future is resolved with exactly that.  For any allocator function that does not
raise.  Missing from the full claim: `C62_false`. -/
theorem C62_start_partial (fn : AllocFn) (W : String → Prop) (name : String) (hfn : Usable fn name W)
    (env : StartEnv) (hc : env.connected = true)
    (hc' : env.connectedAdd = true ∨ ∃ e, (inOrder ((startOutcomes env).take 4)).1 = .error e)
    (hW : ∀ l p, env.partyStart = .ok l → env.setStart = .ok p → NotesOf W (startNotes env l p)) :
    ((Alloc.new name).start fn env).1 = some (inOrder (startOutcomes env)).1 ∧
      ((Alloc.new name).start fn env).2.2 = (inOrder (startOutcomes env)).2 := by
  have hsub : ∀ l p, env.partyStart = .ok l → env.setStart = .ok p →
      NotesOf W (env.notes 1) ∧ (∀ x, p = some x → ∀ y ∈ x, W y) := by
    intro l p hl hp
    have := hW l p hl hp
    exact ⟨fun x hx => this x (by simp [startNotes, hx]),
      fun x hx => this x (by simp [startNotes, hx])⟩
  let a0 : Attempts Alloc StartStep := attempt .connect (fun s => (env.connect, s)) ⟨.none, Alloc.new name, []⟩
  let a1 := attempt .partyStart (startParty fn env) a0
  let b1 := elsewhere fn (env.notes 1) a1
  let a2 := attempt .setStart (startSet fn env) b1
  have f0 : Follows [(StartStep.connect, env.connect)] a0 :=
    follows_attempt [] _ _ _ _ rfl fun _ => rfl
  have s0 : a0.state = Alloc.new name := by
    show (attempt _ _ _).state = _
    unfold attempt
    cases env.connect <;> rfl
  have o1 : ((Alloc.new name).notify fn (.members [])).1 = .ok () := by rfl
  have t1 : ∀ l, Tracks fn W name [.members l] ((Alloc.new name).notify fn (.members l)).2 ∧
      ((Alloc.new name).notify fn (.members l)).1 = .ok () := by
    intro l
    have := tracks_step fn W name hfn [] _ (tracks_new fn W name) (.members l) (by simp)
    exact ⟨this.1, by rw [this.2]; rfl⟩
  have f1 : Follows [(StartStep.connect, env.connect), (.partyStart, env.partyStart.map fun _ => ())] a1 := by
    refine follows_attempt _ a0 _ _ _ f0 fun _ => ?_
    rw [s0]
    unfold startParty
    cases env.partyStart with
    | error e => rfl
    | ok l => exact (t1 l).2
  have f2 : Follows [(StartStep.connect, env.connect), (.partyStart, env.partyStart.map fun _ => ()),
      (.setStart, setStartOutcome env.setStart)] a2 := by
    refine follows_attempt _ b1 _ _ _ f1 fun hn => ?_
    have hn : a1.failed = .none := hn
    obtain ⟨_, _, e1⟩ := attempt_ok _ _ _ hn
    have hb : b1.state = ((startParty fn env (Alloc.new name)).2).notifyAll fn (env.notes 1) := by
      show (a1.state).notifyAll fn (env.notes 1) = _
      rw [show a1 = _ from e1]
      simp only [s0]
    rw [hb]
    unfold startSet setStartOutcome
    cases hq : env.setStart with
    | error e => rfl
    | ok p =>
      cases hp : env.partyStart with
      | error e =>
        have : (startParty fn env a0.state).1 = .ok () := (attempt_ok _ _ _ hn).2.1
        unfold startParty at this
        rw [hp] at this
        cases this
      | ok l =>
        have hsp : (startParty fn env (Alloc.new name)).2 = ((Alloc.new name).notify fn (.members l)).2 := by
          unfold startParty; rw [hp]
        rw [hsp]
        obtain ⟨w1, w2⟩ := hsub l p hp hq
        have tr := tracks_all fn W name hfn (env.notes 1) w1 _ _ (t1 l).1
        have := (tracks_step fn W name hfn _ _ tr (.partitions p) (by
          intro x hx; exact w2 x (Note.partitions.inj hx))).2
        refine this.trans ?_
        cases p <;> rfl
  have f3 : Follows [(StartStep.connect, env.connect), (.partyStart, env.partyStart.map fun _ => ()),
      (.setStart, setStartOutcome env.setStart), (.join, env.join)] (startJoin fn env a0) :=
    follows_attempt _ (elsewhere fn (env.notes 2) a2) _ _ _ f2 fun _ => rfl
  have f4 : Follows (startOutcomes env) (startAdd fn env (startJoin fn env a0)) :=
    follows_attempt _ (startJoin fn env a0) _ _ _ f3 fun _ => rfl
  have hstart : (Alloc.new name).start fn env = startEnd (startAdd fn env (startJoin fn env a0)) := by
    unfold Alloc.start
    dsimp only
    rw [if_neg (by simp [hc]), if_neg]
    rintro ⟨h1, h2⟩
    rcases hc' with hc' | ⟨e, he⟩
    · rw [hc'] at h2; cases h2
    · have f3' : inOrder ((startOutcomes env).take 4) = _ := f3
      rw [f3', show (startJoin fn env a0).failed = .none from h1] at he
      cases he
  rw [hstart]
  unfold Follows at f4
  rw [f4]
  unfold startEnd
  cases hf : (startAdd fn env (startJoin fn env a0)).failed with
  | some e => exact ⟨rfl, rfl⟩
  | none =>
    have hcol : (startAdd fn env (startJoin fn env a0)).state.membersCollected = true ∧
        (startAdd fn env (startJoin fn env a0)).state.partitionsCollected = true := by
      obtain ⟨h5, _, e5⟩ := attempt_ok _ (fun s => (env.addItems, s)) (startJoin fn env a0) hf
      obtain ⟨h4, _, e4⟩ := attempt_ok _ (fun s => (env.join, s)) (elsewhere fn (env.notes 2) a2) h5
      obtain ⟨h3, o3, e3⟩ := attempt_ok _ (startSet fn env) b1 h4
      obtain ⟨h2, o2, e2⟩ := attempt_ok _ (startParty fn env) a0 h3
      have m1 : a1.state.membersCollected = true := by
        rw [show a1 = _ from e2]
        unfold startParty at o2 ⊢
        cases hp : env.partyStart with
        | error e => rw [hp] at o2; cases o2
        | ok l => rw [hp] at o2; exact collected_ok fn (.members l) _ o2
      have m2 : b1.state.membersCollected = true := (collected_all fn _ _).1 m1
      have m3 : a2.state.membersCollected = true ∧ a2.state.partitionsCollected = true := by
        rw [show a2 = _ from e3]
        unfold startSet at o3 ⊢
        cases hp : env.setStart with
        | error e => rw [hp] at o3; cases o3
        | ok p =>
          rw [hp] at o3
          exact ⟨(collected_notify fn _ _).1 m2, collected_ok fn (.partitions p) _ o3⟩
      have m4 : (startJoin fn env a0).state.membersCollected = true ∧
          (startJoin fn env a0).state.partitionsCollected = true := by
        have : (startJoin fn env a0).state
            = ((a2.state.notifyAll fn (env.notes 2))).notifyAll fn (env.notes 3) := by
          show (elsewhere fn (env.notes 3) (attempt .join (fun s => (env.join, s))
            (elsewhere fn (env.notes 2) a2))).state = _
          rw [e4]; rfl
        rw [this, ← notifyAll_append]
        exact ⟨(collected_all fn _ _).1 m3.1, (collected_all fn _ _).2 m3.2⟩
      have : (startAdd fn env (startJoin fn env a0)).state
          = (startJoin fn env a0).state.notifyAll fn (env.notes 4) := by
        unfold startAdd
        rw [e5]; rfl
      rw [this]
      exact ⟨(collected_all fn _ _).1 m4.1, (collected_all fn _ _).2 m4.2⟩
    simp only
    rw [if_pos hcol]
    exact ⟨rfl, rfl⟩

/-- **C62 fails** for `start`: if `connect` fails, so that there never is a connection, the call
does not return, and the exception is delivered to nobody. -/
theorem C62_false (fn : AllocFn) (s : Alloc) (env : StartEnv) (e : Exc) (h : env.connect = .error e)
    (hc : env.connected = false) :
    (s.start fn env).1 = .none ∧ (s.start fn env).2.2 = [.connect] ∧
      (inOrder (startOutcomes env)).1 = .error e := by
  unfold Alloc.start startOutcomes attempt
  simp [h, hc, inOrder]

/-- Setting the watch on the partitions fails: nothing after it is run. -/
example : (Alloc.new "a").start naiveFn { exJoined with setStart := .error (.other 7) }
    = (some (.error (.other 7)), ⟨"a", ["b", "a"], [], true, false, ⟨[("a", [])], true⟩, 2⟩,
      [.connect, .partyStart, .setStart]) := by decide +kernel

-- The same if the connection is lost then.
example : ((Alloc.new "a").start naiveFn
    { exJoined with setStart := .error (.other 7), connectedAdd := false }).1
    = some (.error (.other 7)) := by decide +kernel

-- It is lost after joining: `start` waits for ever.
example : ((Alloc.new "a").start naiveFn { exJoined with connectedAdd := false }).1 = .none ∧
    ((Alloc.new "a").start naiveFn { exJoined with connectedAdd := false }).2.2
      = [.connect, .partyStart, .setStart, .join] := by decide +kernel

/-- A connection that cannot be stopped. -/
example : allocatorStop (fun s => (.ok (), s + 1)) (fun s => (.error (.other 3), s)) (fun s => (.ok (), s + 10))
    (0 : Nat) = (.error (.other 3), 1, [.leave, .stop]) := by decide +kernel

end Kiel
