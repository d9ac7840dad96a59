import Verif.Lemmas.Allocator
import Verif.Spec.SharedSet
/-
The shared set: C56, C57 and C61.
-/
set_option autoImplicit false
namespace Kiel
open Spec

theorem mem_foldl_addSet (new s : List String) (x : String) :
    x ∈ new.foldl addSet s ↔ x ∈ s ∨ x ∈ new := by
  induction new generalizing s with
  | nil => simp
  | cons y new ih => rw [List.foldl_cons, ih, mem_addSet_iff]; simp only [List.mem_cons]; tauto

/-! ### C57 -/

/-- The decision is right: nothing is written only if nothing changes, and what is written is what
the operation makes of the data. -/
theorem decision_spec (op : SetOp) (data : List String) :
    match op.decision data with
    | .none => apply (elements data) op = elements data
    | some new => elements new = apply (elements data) op ∧ apply (elements data) op ≠ elements data := by
  cases op with
  | add items =>
    simp only [SetOp.decision]
    by_cases h : items.all (fun x => decide (x ∈ pySet data)) = true
    · rw [if_pos h]
      simp only [List.all_eq_true, decide_eq_true_eq, mem_pySet] at h
      ext x
      simp only [apply, elements, Set.mem_union, Set.mem_ofPred_eq]
      exact ⟨fun hx => hx.elim id (h x), Or.inl⟩
    · rw [if_neg h]
      simp only [List.all_eq_true, decide_eq_true_eq, mem_pySet, not_forall] at h
      obtain ⟨x, hx, hn⟩ := h
      constructor
      · ext y
        simp only [apply, elements, Set.mem_union, Set.mem_ofPred_eq, mem_foldl_addSet, mem_pySet]
      · intro he
        have : x ∈ apply (elements data) (.add items) := Or.inr hx
        rw [he] at this
        exact hn this
  | remove items =>
    simp only [SetOp.decision]
    by_cases h : items.all (fun x => decide (x ∉ pySet data)) = true
    · rw [if_pos h]
      simp only [List.all_eq_true, decide_eq_true_eq, mem_pySet] at h
      ext x
      simp only [apply, elements, Set.mem_sdiff, Set.mem_ofPred_eq]
      exact ⟨fun hx => hx.1, fun hx => ⟨hx, fun hi => h x hi hx⟩⟩
    · rw [if_neg h]
      simp only [List.all_eq_true, decide_eq_true_eq, mem_pySet, not_forall, not_not] at h
      obtain ⟨x, hx, hn⟩ := h
      constructor
      · ext y
        simp only [apply, elements, Set.mem_sdiff, Set.mem_ofPred_eq, List.mem_filter, mem_pySet,
          decide_eq_true_eq]
      · intro he
        have : x ∈ elements data := hn
        rw [← he] at this
        exact this.2 hx

/-- **C57**, on Python 2: a call that would change nothing writes nothing; any other call writes
once, exactly the union or difference.  Missing from the full claim: on Python 3 nothing can be
written, `C57_python3`. -/
theorem C57_partial (op : SetOp) (data : List String) :
    (apply (elements data) op = elements data → op.call true data = (.ok (), data, [])) ∧
    (apply (elements data) op ≠ elements data → ∃ new, op.call true data = (.ok (), new, [new]) ∧
      elements new = apply (elements data) op) := by
  have h := decision_spec op data
  unfold SetOp.call
  cases hd : op.decision data with
  | none =>
    rw [hd] at h
    exact ⟨fun _ => rfl, fun hn => absurd h hn⟩
  | some new =>
    rw [hd] at h
    exact ⟨fun he => absurd he h.2, fun _ => ⟨new, rfl, h.1⟩⟩

/-- When a call changes nothing: items all present, or all absent. -/
theorem C57_when (items data : List String) :
    (apply (elements data) (.add items) = elements data ↔ ∀ x ∈ items, x ∈ data) ∧
    (apply (elements data) (.remove items) = elements data ↔ ∀ x ∈ items, x ∉ data) := by
  simp only [apply, elements, Set.ext_iff, Set.mem_union, Set.mem_sdiff, Set.mem_ofPred_eq]
  constructor
  · exact ⟨fun h x hx => (h x).1 (.inr hx), fun h x => ⟨fun hx => hx.elim id (h x), .inl⟩⟩
  · exact ⟨fun h x hx hd => ((h x).2 hd).2 hx, fun h x => ⟨fun hx => hx.1, fun hd => ⟨hd, fun hx => h x hx hd⟩⟩⟩

/-- On Python 3 nothing is ever written: a call that would change the set raises. -/
theorem C57_python3 (op : SetOp) (data : List String) :
    op.call false data = if apply (elements data) op = elements data then (.ok (), data, [])
      else (.error .typeError, data, []) := by
  have h := decision_spec op data
  unfold SetOp.call
  cases hd : op.decision data with
  | none => rw [hd] at h; rw [if_pos h]
  | some new => rw [hd] at h; rw [if_neg h.2]; rfl

/-- **C57 fails** on Python 3. -/
theorem C57_false : ∃ (op : SetOp) (data : List String),
    apply (elements data) op ≠ elements data ∧ op.call false data = (.error .typeError, data, []) :=
  ⟨.add ["logs:0"], [], by
    intro h
    have : "logs:0" ∈ apply (elements []) (.add ["logs:0"]) := Or.inr (by simp [elements])
    rw [h] at this
    simp [elements] at this, by decide +kernel⟩

/-- Both kinds of call, with and without effect. -/
example :
    (SetOp.add ["a:0", "b:0"]).call true ["a:0"] = (.ok (), ["a:0", "b:0"], [["a:0", "b:0"]]) ∧
    (SetOp.add ["a:0"]).call true ["b:0", "a:0"] = (.ok (), ["b:0", "a:0"], []) ∧
    (SetOp.remove ["a:0", "c:0"]).call true ["b:0", "a:0"] = (.ok (), ["b:0"], [["b:0"]]) ∧
    (SetOp.remove ["c:0"]).call true ["b:0", "a:0"] = (.ok (), ["b:0", "a:0"], []) := by
  decide +kernel

/-! ### C56 -/

/-- The call that is about to end, having had its effect. -/
def SetSys.ending (s : SetSys) : List (SetOp × Res Unit) :=
  match s.holder with
  | .none => []
  | some c =>
    match s.pc c with
    | .leaving op r => [(op, r)]
    | _ => []

/-- Is the client inside the lock? -/
def SetPC.inside : SetPC → Prop
  | .idle => False
  | .waiting _ => False
  | _ => True

/-- What holds of the system at all times. -/
structure SetInv (init : List String) (s : SetSys) : Prop where
  excl : ∀ c, (s.pc c).inside ↔ s.holder = some c
  fresh : ∀ c op read, s.pc c = .got op read → read = s.data
  lin : ∃ ops, TookEffect (s.log ++ s.ending) ops ∧ elements s.data = applyAll (elements init) ops

theorem upd_same {α : Type} (f : Nat → α) (i : Nat) (x : α) : upd f i x i = x := by simp [upd]

theorem upd_other {α : Type} (f : Nat → α) (i j : Nat) (x : α) (h : j ≠ i) : upd f i x j = f j := by
  simp [upd, h]

theorem ending_of (s : SetSys) (c : Nat) (h : s.holder = some c)
    (hn : ∀ op r, s.pc c ≠ .leaving op r) : s.ending = [] := by
  unfold SetSys.ending
  rw [h]
  cases hp : s.pc c with
  | leaving op r => exact absurd hp (hn op r)
  | _ => simp only [hp]

theorem applyAll_append (s : Set String) (ops : List SetOp) (op : SetOp) :
    applyAll s (ops ++ [op]) = apply (applyAll s ops) op := by simp [applyAll]

theorem setInv_step (textOk : Bool) (init : List String) (s s' : SetSys) (h : SetInv init s)
    (hs : SetStep textOk false s s') : SetInv init s' := by
  obtain ⟨hex, hfr, ops, hte, hda⟩ := h
  -- the clients other than `c`, when `c` moves inside the lock
  have exIn : ∀ (c : Nat) (p : SetPC), (s.pc c).inside → p.inside →
      ∀ j, (upd s.pc c p j).inside ↔ s.holder = some j := by
    intro c p hc hp j
    by_cases hj : j = c
    · subst hj; rw [upd_same]; exact ⟨fun _ => (hex j).1 hc, fun _ => hp⟩
    · rw [upd_other _ _ _ _ hj]; exact hex j
  have frIn : ∀ (c : Nat) (p : SetPC) (d : List String), (s.pc c).inside → (∀ op read, p ≠ .got op read) →
      ∀ j op read, upd s.pc c p j = .got op read → read = d := by
    intro c p d hc hp j op read hj
    by_cases hjc : j = c
    · subst hjc; rw [upd_same] at hj; exact absurd hj (hp op read)
    · rw [upd_other _ _ _ _ hjc] at hj
      have h1 := (hex c).1 hc
      have h2 := (hex j).1 (by rw [hj]; trivial)
      rw [h1] at h2
      exact absurd (Option.some.inj h2).symm hjc
  have endIn : ∀ (c : Nat), (s.pc c).inside → (∀ op r, s.pc c ≠ .leaving op r) → s.ending = [] :=
    fun c hc hn => ending_of s c ((hex c).1 hc) hn
  have endAt : ∀ (c : Nat) (d : List String) (op : SetOp) (r : Res Unit) (lg : List (SetOp × Res Unit)),
      (s.pc c).inside → (⟨d, s.holder, upd s.pc c (.leaving op r), lg⟩ : SetSys).ending = [(op, r)] := by
    intro c d op r lg hc
    unfold SetSys.ending
    simp only [(hex c).1 hc, upd_same]
  cases hs with
  | call c op hc =>
    refine ⟨?_, ?_, ops, ?_, hda⟩
    · intro j
      by_cases hj : j = c
      · subst hj
        simp only [upd_same, SetPC.inside, false_iff]
        intro hh
        have := (hex j).2 hh
        rw [hc] at this
        exact this
      · simp only [upd_other _ _ _ _ hj]; exact hex j
    · intro j op' read hj
      by_cases hjc : j = c
      · subst hjc; simp [upd_same] at hj
      · simp only [upd_other _ _ _ _ hjc] at hj; exact hfr j op' read hj
    · have : ({ s with pc := upd s.pc c (.waiting op) } : SetSys).ending = s.ending := by
        unfold SetSys.ending
        cases hh : s.holder with
        | none => rfl
        | some c' =>
          have hne : c' ≠ c := by
            rintro rfl
            have := (hex c').2 hh
            rw [hc] at this
            exact this
          simp only [upd_other _ _ _ _ hne]
      rw [this]; exact hte
  | acquire c op hc hl =>
    have hend : s.ending = [] := by unfold SetSys.ending; rw [hl]
    refine ⟨?_, ?_, ops, ?_, hda⟩
    · intro j
      by_cases hj : j = c
      · subst hj; simp [upd_same, SetPC.inside]
      · simp only [upd_other _ _ _ _ hj]
        rw [hex j, hl]
        simp [Ne.symm hj]
    · intro j op' read hj
      by_cases hjc : j = c
      · subst hjc; simp [upd_same] at hj
      · simp only [upd_other _ _ _ _ hjc] at hj; exact hfr j op' read hj
    · rw [hend] at hte
      rw [ending_of _ c rfl (by intro op' r; simp [upd_same])]
      exact hte
  | acquireFails c op e hc =>
    have hend : ({ s with pc := upd s.pc c .idle, log := s.log ++ [(op, .error e)] } : SetSys).ending
        = s.ending := by
      unfold SetSys.ending
      cases hh : s.holder with
      | none => rfl
      | some c' =>
        have hne : c' ≠ c := by
          rintro rfl
          have := (hex c').2 hh
          rw [hc] at this
          exact this
        simp only [upd_other _ _ _ _ hne]
    refine ⟨?_, ?_, ?_⟩
    · intro j
      by_cases hj : j = c
      · subst hj
        simp only [upd_same, SetPC.inside, false_iff]
        intro hh
        have := (hex j).2 hh
        rw [hc] at this
        exact this
      · simp only [upd_other _ _ _ _ hj]; exact hex j
    · intro j op' read hj
      by_cases hjc : j = c
      · subst hjc; simp [upd_same] at hj
      · simp only [upd_other _ _ _ _ hjc] at hj; exact hfr j op' read hj
    · rw [hend]
      simp only
      -- the failed call goes before the one that is about to end
      rcases hE : s.ending with _ | ⟨⟨op1, r1⟩, _ | _⟩
      · rw [hE, List.append_nil] at hte
        exact ⟨ops, by rw [List.append_nil]; exact .no op e _ _ hte, hda⟩
      · rw [hE] at hte
        generalize hL : s.log ++ [(op1, r1)] = L at hte
        cases hte with
        | nil => simp at hL
        | yes op2 r2 log2 ops2 h2 =>
          obtain ⟨rfl, h3⟩ := List.append_inj' hL rfl
          simp only [List.cons.injEq, Prod.mk.injEq, and_true] at h3
          obtain ⟨rfl, rfl⟩ := h3
          exact ⟨_, .yes op1 r1 _ _ (.no op e _ _ h2), hda⟩
        | no op2 e2 log2 _ h2 =>
          obtain ⟨rfl, h3⟩ := List.append_inj' hL rfl
          simp only [List.cons.injEq, Prod.mk.injEq, and_true] at h3
          obtain ⟨rfl, rfl⟩ := h3
          exact ⟨_, .no op1 e2 _ _ (.no op e _ _ h2), hda⟩
      · exfalso
        unfold SetSys.ending at hE
        split at hE
        · cases hE
        · split at hE <;> simp at hE
  | get c op hc =>
    have hi : (s.pc c).inside := by rw [hc]; trivial
    refine ⟨exIn c _ hi trivial, ?_, ops, ?_, hda⟩
    · intro j op' read hj
      by_cases hjc : j = c
      · subst hjc; simp only [upd_same, SetPC.got.injEq] at hj; exact hj.2.symm
      · simp only [upd_other _ _ _ _ hjc] at hj; exact hfr j op' read hj
    · rw [endIn c hi (by intro op r; rw [hc]; simp)] at hte
      rw [ending_of (⟨s.data, s.holder, upd s.pc c (.got op s.data), s.log⟩ : SetSys) c ((hex c).1 hi)
        (by intro op' r; simp [upd_same])]
      exact hte
  | getFails c op e hc =>
    have hi : (s.pc c).inside := by rw [hc]; trivial
    refine ⟨exIn c _ hi trivial, frIn c _ _ hi (by simp), ops, ?_, hda⟩
    rw [endIn c hi (by intro op r; rw [hc]; simp), List.append_nil] at hte
    rw [endAt c _ _ _ _ hi]
    exact .no op e _ _ hte
  | nothing c op read hc hd =>
    have hi : (s.pc c).inside := by rw [hc]; trivial
    obtain rfl := hfr c op read hc
    refine ⟨exIn c _ hi trivial, frIn c _ _ hi (by simp), ops ++ [op], ?_, ?_⟩
    · rw [endIn c hi (by intro op r; rw [hc]; simp), List.append_nil] at hte
      rw [endAt c _ _ _ _ hi]
      exact .yes op _ _ _ hte
    · have := decision_spec op s.data
      rw [hd] at this
      rw [applyAll_append, ← hda, this]
  | set c op read new hc hd =>
    have hi : (s.pc c).inside := by rw [hc]; trivial
    obtain rfl := hfr c op read hc
    have hte' := hte
    rw [endIn c hi (by intro op r; rw [hc]; simp), List.append_nil] at hte'
    cases textOk with
    | true =>
      refine ⟨exIn c _ hi trivial, frIn c _ _ hi (by simp), ops ++ [op], ?_, ?_⟩
      · rw [endAt c _ _ _ _ hi]
        exact .yes op _ _ _ hte'
      · have := decision_spec op s.data
        rw [hd] at this
        rw [applyAll_append, ← hda]
        exact this.1
    | false =>
      refine ⟨exIn c _ hi trivial, frIn c _ _ hi (by simp), ops, ?_, hda⟩
      rw [endAt c _ _ _ _ hi]
      exact .no op _ _ _ hte'
  | setFails c op read new e done hc hd =>
    have hi : (s.pc c).inside := by rw [hc]; trivial
    obtain rfl := hfr c op read hc
    have hte' := hte
    rw [endIn c hi (by intro op r; rw [hc]; simp), List.append_nil] at hte'
    cases done with
    | true =>
      refine ⟨exIn c _ hi trivial, frIn c _ _ hi (by simp), ops ++ [op], ?_, ?_⟩
      · rw [endAt c _ _ _ _ hi]
        exact .yes op _ _ _ hte'
      · have := decision_spec op s.data
        rw [hd] at this
        rw [applyAll_append, ← hda]
        exact this.1
    | false =>
      refine ⟨exIn c _ hi trivial, frIn c _ _ hi (by simp), ops, ?_, hda⟩
      rw [endAt c _ _ _ _ hi]
      exact .no op _ _ _ hte'
  | release c op r hc =>
    have hi : (s.pc c).inside := by rw [hc]; trivial
    have hh := (hex c).1 hi
    have hend : s.ending = [(op, r)] := by unfold SetSys.ending; rw [hh]; simp only [hc]
    refine ⟨?_, ?_, ops, ?_, hda⟩
    · intro j
      simp only [hh, if_true]
      by_cases hj : j = c
      · subst hj; simp [upd_same, SetPC.inside]
      · simp only [upd_other _ _ _ _ hj, reduceCtorEq, iff_false]
        intro hin
        have := (hex j).1 hin
        rw [hh] at this
        exact hj (Option.some.inj this).symm
    · exact frIn c _ _ hi (by simp)
    · rw [hend] at hte
      have : (⟨s.data, if s.holder = some c then .none else s.holder, upd s.pc c .idle,
          s.log ++ [(op, r)]⟩ : SetSys).ending = [] := by
        unfold SetSys.ending; simp only [hh, if_true]
      rw [this, List.append_nil]
      exact hte
  | lost c h hl => cases hl

theorem setInv_reach (textOk : Bool) (init : List String) (s : SetSys)
    (h : SetReach textOk false init s) : SetInv init s := by
  induction h with
  | start =>
    refine ⟨?_, ?_, [], .nil, rfl⟩
    · intro c; simp [SetSys.init, SetPC.inside]
    · intro c op read hc; simp [SetSys.init] at hc
  | step s s' _ h' ih => exact setInv_step textOk init s s' ih h'

/-- **C56.**  Whatever the clients did, with any accesses to zookeeper failing, the data is what
the calls that took effect make of the initial data, in the order in which they ended; a call that
returned took effect, one that raised may have.  (The last of them may be a call that is about to
end.)  No two clients are inside the lock. -/
theorem C56_linearizable (textOk : Bool) (init : List String) (s : SetSys)
    (h : SetReach textOk false init s) :
    (∃ ops, TookEffect (s.log ++ s.ending) ops ∧ elements s.data = applyAll (elements init) ops) ∧
    ∀ c c', (s.pc c).inside → (s.pc c').inside → c = c' := by
  have hi := setInv_reach textOk init s h
  refine ⟨hi.lin, fun c c' h1 h2 => ?_⟩
  have := ((hi.excl c).1 h1).symm.trans ((hi.excl c').1 h2)
  exact Option.some.inj this

theorem tookEffect_all (log : List (SetOp × Res Unit)) (ops : List SetOp) (h : TookEffect log ops)
    (hok : ∀ x ∈ log, x.2 = .ok ()) : ops = log.map (·.1) := by
  induction h with
  | nil => rfl
  | yes op r log ops _ ih => simp [ih fun x hx => hok x (by simp [hx])]
  | no op e log ops _ ih =>
    have := hok (op, .error e) (by simp)
    simp at this

/-- **C56** when nobody is inside the lock and no call has raised: the data is exactly what the
completed calls make of it, in the order in which they returned. -/
theorem C56_quiet (textOk : Bool) (init : List String) (s : SetSys)
    (h : SetReach textOk false init s) (hq : s.holder = .none) (hok : ∀ x ∈ s.log, x.2 = .ok ()) :
    elements s.data = applyAll (elements init) (s.log.map (·.1)) := by
  obtain ⟨⟨ops, h1, h2⟩, _⟩ := C56_linearizable textOk init s h
  have he : s.ending = [] := by unfold SetSys.ending; rw [hq]
  rw [he, List.append_nil] at h1
  rw [h2, tookEffect_all _ _ h1 hok]

/-! A run of two clients whose calls overlap. -/

def exRun : SetSys :=
  ⟨["a:0", "b:0"], .none, fun _ => .idle, [(.add ["a:0"], .ok ()), (.add ["b:0"], .ok ())]⟩

/-- Client 1 waits while client 0 is inside. -/
theorem exRun_reach : ∃ s, SetReach true false [] s ∧ s.data = exRun.data ∧ s.holder = .none ∧
    s.log = exRun.log := by
  let p0 : Nat → SetPC := fun _ => .idle
  let p1 := upd p0 0 (.waiting (.add ["a:0"]))
  let p2 := upd p1 1 (.waiting (.add ["b:0"]))
  let p3 := upd p2 0 (.holding (.add ["a:0"]))
  let p4 := upd p3 0 (.got (.add ["a:0"]) [])
  let p5 := upd p4 0 (.leaving (.add ["a:0"]) (.ok ()))
  let p6 := upd p5 0 .idle
  let p7 := upd p6 1 (.holding (.add ["b:0"]))
  let p8 := upd p7 1 (.got (.add ["b:0"]) ["a:0"])
  let p9 := upd p8 1 (.leaving (.add ["b:0"]) (.ok ()))
  have r1 : SetReach true false [] ⟨[], .none, p1, []⟩ := .step _ _ .start (.call _ 0 _ rfl)
  have r2 : SetReach true false [] ⟨[], .none, p2, []⟩ := .step _ _ r1 (.call _ 1 _ rfl)
  have r3 : SetReach true false [] ⟨[], some 0, p3, []⟩ := .step _ _ r2 (.acquire _ 0 _ rfl rfl)
  have r4 : SetReach true false [] ⟨[], some 0, p4, []⟩ := .step _ _ r3 (.get _ 0 _ rfl)
  have r5 : SetReach true false [] ⟨["a:0"], some 0, p5, []⟩ :=
    .step _ _ r4 (.set _ 0 _ [] ["a:0"] rfl (by decide +kernel))
  have r6 : SetReach true false [] ⟨["a:0"], .none, p6, [(.add ["a:0"], .ok ())]⟩ :=
    .step _ _ r5 (.release _ 0 _ _ rfl)
  have r7 : SetReach true false [] ⟨["a:0"], some 1, p7, [(.add ["a:0"], .ok ())]⟩ :=
    .step _ _ r6 (.acquire _ 1 _ rfl rfl)
  have r8 : SetReach true false [] ⟨["a:0"], some 1, p8, [(.add ["a:0"], .ok ())]⟩ :=
    .step _ _ r7 (.get _ 1 _ rfl)
  have r9 : SetReach true false [] ⟨["a:0", "b:0"], some 1, p9, [(.add ["a:0"], .ok ())]⟩ :=
    .step _ _ r8 (.set _ 1 _ ["a:0"] ["a:0", "b:0"] rfl (by decide +kernel))
  exact ⟨_, .step _ _ r9 (.release _ 1 _ _ rfl), rfl, rfl, rfl⟩

/-- If a client can lose its lock without noticing, because its session has expired, updates are
lost: the write is not tied to the version of the data that was read. -/
theorem C56_leaky : ∃ s, SetReach true true [] s ∧ s.holder = .none ∧
    s.log = [(.add ["b:0"], .ok ()), (.add ["a:0"], .ok ())] ∧ s.data = ["a:0"] := by
  let p0 : Nat → SetPC := fun _ => .idle
  let p1 := upd p0 0 (.waiting (.add ["a:0"]))
  let p2 := upd p1 1 (.waiting (.add ["b:0"]))
  let p3 := upd p2 0 (.holding (.add ["a:0"]))
  let p4 := upd p3 0 (.got (.add ["a:0"]) [])
  let p5 := upd p4 1 (.holding (.add ["b:0"]))
  let p6 := upd p5 1 (.got (.add ["b:0"]) [])
  let p7 := upd p6 1 (.leaving (.add ["b:0"]) (.ok ()))
  let p8 := upd p7 1 .idle
  let p9 := upd p8 0 (.leaving (.add ["a:0"]) (.ok ()))
  have r1 : SetReach true true [] ⟨[], .none, p1, []⟩ := .step _ _ .start (.call _ 0 _ rfl)
  have r2 : SetReach true true [] ⟨[], .none, p2, []⟩ := .step _ _ r1 (.call _ 1 _ rfl)
  have r3 : SetReach true true [] ⟨[], some 0, p3, []⟩ := .step _ _ r2 (.acquire _ 0 _ rfl rfl)
  have r4 : SetReach true true [] ⟨[], some 0, p4, []⟩ := .step _ _ r3 (.get _ 0 _ rfl)
  have r4' : SetReach true true [] ⟨[], .none, p4, []⟩ := .step _ _ r4 (.lost _ 0 rfl rfl)
  have r5 : SetReach true true [] ⟨[], some 1, p5, []⟩ := .step _ _ r4' (.acquire _ 1 _ rfl rfl)
  have r6 : SetReach true true [] ⟨[], some 1, p6, []⟩ := .step _ _ r5 (.get _ 1 _ rfl)
  have r7 : SetReach true true [] ⟨["b:0"], some 1, p7, []⟩ :=
    .step _ _ r6 (.set _ 1 _ [] ["b:0"] rfl (by decide +kernel))
  have r8 : SetReach true true [] ⟨["b:0"], .none, p8, [(.add ["b:0"], .ok ())]⟩ :=
    .step _ _ r7 (.release _ 1 _ _ rfl)
  have r9 : SetReach true true [] ⟨["a:0"], .none, p9, [(.add ["b:0"], .ok ())]⟩ :=
    .step _ _ r8 (.set _ 0 _ [] ["a:0"] rfl (by decide +kernel))
  exact ⟨_, .step _ _ r9 (.release _ 0 _ _ rfl), rfl, rfl, rfl⟩

/-! ### C61 -/

/-- The items of a dictionary of topics and partition ids. -/
def Spec.itemsOf (d : Dict String (List Int)) : Set String :=
  {x | ∃ t ids i, (t, ids) ∈ d ∧ i ∈ ids ∧ x = item (t, i)}

theorem addedItems_spec (d : Dict String (List Int)) : elements (addedItems d) = itemsOf d := by
  have h : ∀ (d : Dict String (List Int)) (acc : List String) (x : String),
      x ∈ d.foldl (fun acc e => (e.2.map fun i => e.1 ++ ":" ++ strInt i).foldl addSet acc) acc
        ↔ x ∈ acc ∨ x ∈ itemsOf d := by
    intro d
    induction d with
    | nil => intro acc x; simp [itemsOf]
    | cons e d ih =>
      intro acc x
      obtain ⟨t, ids⟩ := e
      rw [List.foldl_cons, ih, mem_foldl_addSet]
      simp only [List.mem_map, itemsOf, Set.mem_ofPred_eq, List.mem_cons, Prod.mk.injEq, strInt_eq, item]
      constructor
      · rintro ((h | ⟨i, hi, rfl⟩) | ⟨t', ids', i, h1, h2, h3⟩)
        · exact .inl h
        · exact .inr ⟨t, ids, i, .inl ⟨rfl, rfl⟩, hi, rfl⟩
        · exact .inr ⟨t', ids', i, .inr h1, h2, h3⟩
      · rintro (h | ⟨t', ids', i, ⟨rfl, rfl⟩ | h1, h2, h3⟩)
        · exact .inl (.inl h)
        · exact .inl (.inr ⟨i, h2, h3.symm⟩)
        · exact .inr ⟨t', ids', i, h1, h2, h3⟩
  ext x
  simp only [elements, addedItems, Set.mem_ofPred_eq, h]
  simp

/-- **C61**, `add_partitions`, on Python 2: exactly the items `topic:id` are added.  Missing from
the full claim: Python 3 (`C57_python3`), and removing (`C61_remove`). -/
theorem C61_add_partial (d : Dict String (List Int)) (data : List String) :
    ∃ new w, addPartitions true d data = (.ok (), new, w) ∧ elements new = elements data ∪ itemsOf d := by
  have h := C57_partial (.add (addedItems d)) data
  unfold addPartitions
  rw [← addedItems_spec]
  by_cases he : apply (elements data) (.add (addedItems d)) = elements data
  · exact ⟨data, [], h.1 he, he.symm⟩
  · obtain ⟨new, h1, h2⟩ := h.2 he
    exact ⟨new, [new], h1, h2⟩

/-- `remove_partitions` with lists (or numbers) for values raises, and removes nothing. -/
theorem C61_remove (textOk : Bool) (d : Dict String Val) (data : List String)
    (t : String) (v : Val) (h : (t, v) ∈ d) (hv : ∀ p, v ≠ .str p) :
    removePartitions textOk d data = (.error .typeError, data, []) := by
  have : removedItems d = .error .typeError := by
    induction d with
    | nil => simp at h
    | cons e d ih =>
      obtain ⟨t', v'⟩ := e
      unfold removedItems
      rcases List.mem_cons.1 h with hh | hh
      · simp only [Prod.mk.injEq] at hh
        obtain ⟨rfl, rfl⟩ := hh
        split
        · next p => exact absurd rfl (hv p)
        · rfl
      · cases v' with
        | str p => simp only [ih hh]
        | _ => rfl
  unfold removePartitions
  rw [this]

/-- `remove_partitions` works for dictionaries of topics and, as text, a single partition. -/
theorem C61_remove_text_partial (d : Dict String String) (data : List String) :
    ∃ new w, removePartitions true (d.map fun e => (e.1, Val.str e.2)) data = (.ok (), new, w) ∧
      elements new = elements data \ {x | ∃ t p, (t, p) ∈ d ∧ x = t ++ ":" ++ p} := by
  have hi : ∃ items, removedItems (d.map fun e => (e.1, Val.str e.2)) = .ok items ∧
      elements items = {x | ∃ t p, (t, p) ∈ d ∧ x = t ++ ":" ++ p} := by
    induction d with
    | nil => exact ⟨[], rfl, by simp [elements]⟩
    | cons e d ih =>
      obtain ⟨items, h1, h2⟩ := ih
      obtain ⟨t, p⟩ := e
      refine ⟨addSet items (t ++ ":" ++ p), by simp only [List.map_cons, removedItems, h1], ?_⟩
      ext x
      have h2 : x ∈ items ↔ ∃ t p, (t, p) ∈ d ∧ x = t ++ ":" ++ p := by
        rw [Set.ext_iff] at h2
        exact h2 x
      simp only [elements, Set.mem_ofPred_eq, mem_addSet_iff, h2, List.mem_cons, Prod.mk.injEq]
      constructor
      · rintro (⟨t', p', h, rfl⟩ | rfl)
        · exact ⟨t', p', .inr h, rfl⟩
        · exact ⟨t, p, .inl ⟨rfl, rfl⟩, rfl⟩
      · rintro ⟨t', p', ⟨rfl, rfl⟩ | h, rfl⟩
        · exact .inr rfl
        · exact .inl ⟨t', p', h, rfl⟩
  obtain ⟨items, h1, h2⟩ := hi
  have h := C57_partial (.remove items) data
  unfold removePartitions
  rw [h1, ← h2]
  simp only
  by_cases he : apply (elements data) (.remove items) = elements data
  · exact ⟨data, [], h.1 he, he.symm⟩
  · obtain ⟨new, h3, h4⟩ := h.2 he
    exact ⟨new, [new], h3, h4⟩

/-- **C61 fails**: removing the one partition that is there. -/
theorem C61_false : removePartitions true [("logs", .list [.int 0])] ["logs:0"]
    = (.error .typeError, ["logs:0"], []) :=
  C61_remove true _ _ "logs" (.list [.int 0]) (by simp) (by simp)

example : addPartitions true [("logs", [0, 1]), ("hits", [10])] ["logs:1"]
    = (.ok (), ["logs:1", "logs:0", "hits:10"], [["logs:1", "logs:0", "hits:10"]]) := by decide +kernel

example : (removePartitions true [("logs", .str "0")] ["logs:1", "logs:0"])
    = (.ok (), ["logs:1"], [["logs:1"]]) := by decide +kernel

end Kiel
