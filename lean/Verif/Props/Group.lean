import Verif.Props.Notify
import Verif.Props.SharedSet
import Verif.Props.Party
import Verif.Spec.Group
/-
Consumer groups as a whole: C82 to C85.
-/
set_option autoImplicit false
namespace Kiel
open Spec

/-! ### Invariants -/

theorem notify_name (fn : AllocFn) (n : Note) (s : Alloc) : (s.notify fn n).2.name = s.name := by
  have hr : ∀ s : Alloc, (s.rebalance fn).2.name = s.name := by
    intro s
    unfold Alloc.rebalance Alloc.allocation
    split
    · rfl
    · split
      · next h =>
        split at h
        · cases h
        · split at h
          · cases h
          · obtain ⟨_, rfl⟩ := Prod.mk.inj h; rfl
      · next h =>
        split at h
        · obtain ⟨_, rfl⟩ := Prod.mk.inj h; rfl
        · split at h
          · obtain ⟨_, rfl⟩ := Prod.mk.inj h; rfl
          · cases h
  cases n with
  | members l =>
    simp only [Alloc.notify, Alloc.onMembers]
    split
    · rfl
    · have := hr { s with members := pySet l }
      split <;> next h => rw [h] at this; exact this
  | partitions o =>
    cases o with
    | none => rfl
    | some l =>
      simp only [Alloc.notify, Alloc.onPartitions, Option.map_some]
      split
      · rfl
      · have := hr { s with partitions := pySet l }
        split <;> next h => rw [h] at this; exact this

theorem step_name (ok : Bool) (g : Group) (e : GEv) (i : Nat) :
    ((g.step ok e).mate i).alloc.name = (g.mate i).alloc.name := by
  cases e with
  | state j st =>
    simp only [Group.step, upd]
    split
    · next h => subst h; unfold Mate.connectionChange; split <;> [rfl; split <;> rfl]
    · rfl
  | session j s => simp only [Group.step, upd]; split <;> [(next h => subst h; rfl); rfl]
  | expire s => rfl
  | join j => rfl
  | leave j => rfl
  | add j d => simp only [Group.step]; split <;> rfl
  | remove j d => simp only [Group.step]; split <;> rfl
  | seesMembers j =>
    simp only [Group.step, Group.tell, upd]
    split
    · next h => subst h; exact notify_name ..
    · rfl
  | seesItems j =>
    simp only [Group.step, Group.tell, upd]
    split
    · next h => subst h; exact notify_name ..
    · rfl

theorem run_name (ok : Bool) (evs : List GEv) (g : Group) (i : Nat) :
    ((g.run ok evs).mate i).alloc.name = (g.mate i).alloc.name := by
  induction evs generalizing g with
  | nil => rfl
  | cons e evs ih => exact (ih (g.step ok e)).trans (step_name ok g e i)

theorem grun_append (ok : Bool) (evs evs' : List GEv) (g : Group) :
    g.run ok (evs ++ evs') = (g.run ok evs).run ok evs' := List.foldl_append ..

/-- The consumers' allocators are where their notifications have brought them. -/
theorem run_alloc (ok : Bool) (evs : List GEv) (g : Group) (i : Nat) :
    ((g.run ok evs).mate i).alloc = (g.mate i).alloc.notifyAll naiveFn (told ok i evs g) := by
  induction evs generalizing g with
  | nil => rfl
  | cons e evs ih =>
    refine (ih (g.step ok e)).trans ?_
    cases e with
    | state j st =>
      simp only [told, List.nil_append]
      congr 1
      simp only [Group.step, upd]
      split
      · next h => subst h; unfold Mate.connectionChange; split <;> [rfl; split <;> rfl]
      · rfl
    | session j s =>
      simp only [told, List.nil_append]
      congr 1
      simp only [Group.step, upd]
      split <;> [(next h => subst h; rfl); rfl]
    | expire s => rfl
    | join j => rfl
    | leave j => rfl
    | add j d =>
      simp only [told, List.nil_append]
      congr 1
      simp only [Group.step]; split <;> rfl
    | remove j d =>
      simp only [told, List.nil_append]
      congr 1
      simp only [Group.step]; split <;> rfl
    | seesMembers j =>
      simp only [told]
      by_cases h : j = i
      · subst h
        simp only [if_true, List.singleton_append, Alloc.notifyAll]
        congr 1
        simp [Group.step, Group.tell, upd, Dict.keys]
      · simp only [if_neg h, List.nil_append]
        congr 1
        simp [Group.step, Group.tell, upd, Ne.symm h]
    | seesItems j =>
      simp only [told]
      by_cases h : j = i
      · subst h
        simp only [if_true, List.singleton_append, Alloc.notifyAll]
        congr 1
        simp [Group.step, Group.tell, upd]
      · simp only [if_neg h, List.nil_append]
        congr 1
        simp [Group.step, Group.tell, upd, Ne.symm h]

theorem call_mem (ok : Bool) (op : SetOp) (data : List String) (x : String)
    (h : x ∈ (op.call ok data).2.1) : x ∈ data ∨ ∃ items, op = .add items ∧ x ∈ items := by
  have hd := decision_spec op data
  unfold SetOp.call at h
  cases he : op.decision data with
  | none => rw [he] at h; exact .inl h
  | some new =>
    rw [he] at h hd
    cases ok with
    | false => exact .inl h
    | true =>
      have hx : x ∈ elements new := h
      rw [hd.1] at hx
      cases op with
      | add items => exact hx.elim .inl fun hi => .inr ⟨items, rfl, hi⟩
      | remove items => exact .inl hx.1

/-- The partitions of a group have ordinary names. -/
theorem items_plain (ok : Bool) (evs : List GEv) (hplain : PlainAdds evs) (g : Group)
    (hg : ∀ x ∈ g.items, PlainItem x) : ∀ x ∈ (g.run ok evs).items, PlainItem x := by
  induction evs generalizing g with
  | nil => exact hg
  | cons e evs ih =>
    refine ih (fun i d h => hplain i d (List.mem_cons_of_mem _ h)) (g.step ok e) ?_
    cases e with
    | add j d =>
      simp only [Group.step]
      split
      · intro x hx
        rcases call_mem ok _ _ x hx with h | ⟨items, h, hi⟩
        · exact hg x h
        · obtain rfl := SetOp.add.inj h
          have : x ∈ elements (addedItems d) := hi
          rw [addedItems_spec] at this
          obtain ⟨t, ids, i, h1, _, rfl⟩ := this
          exact ⟨t, i, hplain j d (by simp) (t, ids) h1, rfl⟩
      · exact hg
    | remove j d =>
      simp only [Group.step]
      split
      · intro x hx
        simp only [removePartitions] at hx
        cases hr : removedItems d with
        | error e => rw [hr] at hx; exact hg x hx
        | ok items =>
          rw [hr] at hx
          rcases call_mem ok _ _ x hx with h | ⟨items, h, _⟩
          · exact hg x h
          · cases h
      · exact hg
    | _ => exact hg

theorem told_plain (ok : Bool) (i : Nat) (evs : List GEv) (hplain : PlainAdds evs) (g : Group)
    (hg : ∀ x ∈ g.items, PlainItem x) : NotesOf PlainItem (told ok i evs g) := by
  induction evs generalizing g with
  | nil => intro l hl; simp [told] at hl
  | cons e evs ih =>
    intro l hl
    unfold told at hl
    rcases List.mem_append.1 hl with h | h
    · cases e with
      | seesItems j =>
        simp only at h
        split at h
        · simp only [List.mem_singleton, Note.partitions.injEq, Option.some.injEq] at h
          subst h; exact hg
        · simp at h
      | seesMembers j => simp only at h; split at h <;> simp at h
      | _ => simp at h
    · refine ih (fun i d h => hplain i d (List.mem_cons_of_mem _ h)) (g.step ok e) ?_ l h
      exact items_plain ok [e] (fun i d h => hplain i d (by
        rw [List.mem_singleton] at h; simp [h])) g hg

/-- How the nodes change. -/
theorem step_nodes (ok : Bool) (g : Group) (e : GEv) :
    (g.step ok e).zk = match e with
      | .expire s => partyEvent (.expire s) g.zk
      | .join i => partyEvent (.join (g.mate i).alloc.name (g.mate i).sess) g.zk
      | .leave i => partyEvent (.leave (g.mate i).alloc.name (g.mate i).sess) g.zk
      | _ => g.zk := by
  cases e with
  | add j d => simp only [Group.step]; split <;> rfl
  | remove j d => simp only [Group.step]; split <;> rfl
  | _ => rfl

theorem run_nodup (ok : Bool) (evs : List GEv) (g : Group) (hg : g.zk.nodes.keys.Nodup) :
    (g.run ok evs).zk.nodes.keys.Nodup := by
  induction evs generalizing g with
  | nil => exact hg
  | cons e evs ih =>
    refine ih (g.step ok e) ?_
    rw [step_nodes]
    cases e with
    | expire s => exact keys_nodup_event _ _ hg
    | join i => exact keys_nodup_event _ _ hg
    | leave i => exact keys_nodup_event _ _ hg
    | _ => exact hg

theorem expire_get? (s : Int) (z : Zk) (hn : z.nodes.keys.Nodup) (m : String) :
    (z.expire s).nodes.get? m = if z.nodes.get? m = some s then .none else z.nodes.get? m := by
  unfold Zk.expire
  rw [get?_filter_owner _ hn]
  cases h : z.nodes.get? m with
  | none => simp
  | some o => by_cases ho : o = s <;> simp [ho]

/-- Every node is a consumer's. -/
theorem run_owned (ok : Bool) (evs : List GEv) (g : Group) (hn : g.zk.nodes.keys.Nodup)
    (hg : ∀ m, (g.zk.nodes.get? m).isSome → ∃ i, (g.mate i).alloc.name = m) :
    ∀ m, ((g.run ok evs).zk.nodes.get? m).isSome → ∃ i, (g.mate i).alloc.name = m := by
  induction evs generalizing g with
  | nil => exact hg
  | cons e evs ih =>
    intro m hm
    have := ih (g.step ok e) (run_nodup ok [e] g hn) (by
      intro m hm
      simp only [step_name]
      rw [step_nodes] at hm
      cases e with
      | expire s =>
        simp only [partyEvent, expire_get? s g.zk hn] at hm
        split at hm
        · simp at hm
        · exact hg m hm
      | join i =>
        simp only [(join_event _ _ g.zk m).2] at hm
        split at hm
        · next h => exact ⟨i, h.1.symm⟩
        · exact hg m hm
      | leave i =>
        simp only [(leave_event _ _ g.zk m).2] at hm
        split at hm
        · simp at hm
        · exact hg m hm
      | _ => exact hg m hm) m hm
    simpa only [step_name] using this

theorem changes_pos (ns : List Note) (name : String) (h : name ∈ latestMembers ns) :
    changes ns ≠ 0 := by
  induction ns using List.reverseRecOn with
  | nil => simp [latestMembers] at h
  | append_singleton ns n ih =>
    rw [changes_snoc]
    cases n with
    | members l =>
      rw [latestMembers_members] at h
      by_cases hc : IsChange ns (.members l)
      · simp [hc]
      · simp only [IsChange, not_not] at hc
        have := ih ((hc name).1 h)
        omega
    | partitions o =>
      rw [latestMembers_partitions] at h
      have := ih h
      omega

theorem joined_iff (g : Group) (i : Nat) :
    Joined g i ↔ (g.mate i).alloc.name ∈ g.zk.nodes.map (·.1) := by
  unfold Joined
  exact Dict.has_iff (d := g.zk.nodes)

/-! ### C82 -/

/-- **C82.**  After any events, once every consumer in the group has been told its current members
and partitions: the partitions of the group are exactly those that its consumers are to consume, and
no two of them are to consume the same one. -/
theorem C82_settled (ok : Bool) (name : Nat → String) (sess : Nat → Int)
    (hname : ∀ i j, name i = name j → i = j) (evs : List GEv) (hplain : PlainAdds evs)
    (g : Group) (hg : g = (Group.new name sess).run ok evs)
    (hup : ∀ i, Joined g i → UpToDate ok i evs (Group.new name sess)) (hsome : ∃ i, Joined g i)
    (t : String) (p : Int) :
    (PlainName t → (InGroup g t p ↔ ∃ i, Joined g i ∧ Consumes g i t p)) ∧
    ∀ i j, Joined g i → Joined g j → Consumes g i t p → Consumes g j t p → i = j := by
  subst hg
  let g0 := Group.new name sess
  let ms := pySorted (pySet ((g0.run ok evs).zk.nodes.map (·.1)))
  let ps := pySorted (pySet (g0.run ok evs).items)
  have hms : SortedSet ms (pySet ((g0.run ok evs).zk.nodes.map (·.1))) := pySorted_spec _ (nodup_pySet _)
  have hps : SortedSet ps (pySet (g0.run ok evs).items) := pySorted_spec _ (nodup_pySet _)
  have conv : ∀ (l s s' : List String), SortedSet l s → SameSet s s' → SortedSet l s' :=
    fun l s s' h1 h2 => ⟨h1.1, fun x => (h1.2 x).trans (h2 x)⟩
  have hg0 : ∀ x ∈ g0.items, PlainItem x := by simp [g0, Group.new]
  have hnm : ∀ i, ((g0.run ok evs).mate i).alloc.name = name i := fun i => run_name ok evs g0 i
  have hmemms : ∀ m, m ∈ ms ↔ m ∈ (g0.run ok evs).zk.nodes.map (·.1) :=
    fun m => (hms.2 m).trans (mem_pySet _ _)
  have hmemps : ∀ x, x ∈ ps ↔ x ∈ (g0.run ok evs).items := fun m => (hps.2 m).trans (mem_pySet _ _)
  have hj : ∀ i, Joined (g0.run ok evs) i ↔ name i ∈ ms := fun i => by
    rw [joined_iff, hmemms, hnm]
  -- what each of them has
  have each : ∀ i, Joined (g0.run ok evs) i → ∃ mp a, naiveAllocator ms ps = .ok mp ∧
      ((g0.run ok evs).mate i).alloc.allocation.1 = .ok a ∧ ∀ t, (a.get? t).getD [] = lookup mp (name i) t := by
    intro i hi
    obtain ⟨hM, hP⟩ := hup i hi
    have hns := told_plain ok i evs hplain g0 hg0
    obtain ⟨_, h⟩ := C59_default (name i) (told ok i evs g0) hns
    have hpos : changes (told ok i evs g0) ≠ 0 := by
      apply changes_pos _ (name i)
      rw [hM]
      rw [joined_iff, hnm] at hi
      exact hi
    obtain ⟨mp, a, e1, _, e3, e4⟩ := h hpos ms ps (conv _ _ _ hms ((sameSet_pySet _).trans hM.symm))
      (conv _ _ _ hps ((sameSet_pySet _).trans hP.symm))
    refine ⟨mp, a, e1, ?_, e4⟩
    rw [run_alloc]
    have : (Alloc.new (name i)).notifyAll naiveFn (told ok i evs g0)
      = (g0.mate i).alloc.notifyAll naiveFn (told ok i evs g0) := rfl
    rw [← this, e3]
  -- the partitions, split
  obtain ⟨parts, hparts, hplain'⟩ := split_items ps fun x hx =>
    items_plain ok evs hplain g0 hg0 x ((hmemps x).1 hx)
  have hnod : parts.Nodup := by
    have : (parts.map item).Nodup := by rw [← hparts]; exact hps.1.imp ne_of_lt
    exact this.of_map _
  obtain ⟨i0, hi0⟩ := hsome
  have hne : ms ≠ [] := List.ne_nil_of_mem ((hj i0).1 hi0)
  obtain ⟨mp, f1, f2, f3, _⟩ := C45_exactly_one ms hne parts hnod hplain'
  rw [← hparts] at f1
  have hcons : ∀ i, Joined (g0.run ok evs) i →
      (Consumes (g0.run ok evs) i t p ↔ p ∈ lookup mp (name i) t) := by
    intro i hi
    obtain ⟨mp', a, e1, e2, e3⟩ := each i hi
    rw [f1] at e1
    obtain rfl := Except.ok.inj e1
    constructor
    · rintro ⟨a', h1, h2⟩
      rw [e2] at h1
      obtain rfl := Except.ok.inj h1
      rw [← e3]; exact h2
    · intro h
      exact ⟨a, e2, by rw [e3]; exact h⟩
  constructor
  · intro ht
    constructor
    · intro hin
      have hx : item (t, p) ∈ ps := (hmemps _).2 hin
      rw [hparts] at hx
      obtain ⟨q, hq, he⟩ := List.mem_map.1 hx
      obtain rfl := item_inj q (t, p) (hplain' q hq) ht he
      obtain ⟨m, hm, hl, _⟩ := f2 t p hq
      have hm' := (hmemms m).1 hm
      obtain ⟨i, hi⟩ := run_owned ok evs g0 (by simp [g0, Group.new, Dict.keys])
        (by simp [g0, Group.new, Dict.get?]) m ((Dict.has_iff (d := (g0.run ok evs).zk.nodes)).2 hm')
      have hi : name i = m := hi
      subst hi
      exact ⟨i, (hj i).2 hm, (hcons i ((hj i).2 hm)).2 hl⟩
    · rintro ⟨i, hi, hc⟩
      have := (f3 _ _ _ ((hcons i hi).1 hc)).2
      refine (hmemps _).1 ?_
      rw [hparts]
      exact List.mem_map.2 ⟨_, this, rfl⟩
  · intro i j hi hj' hci hcj
    have h1 := (hcons i hi).1 hci
    have h2 := (hcons j hj').1 hcj
    obtain ⟨m, _, _, hu⟩ := f2 t p (f3 _ _ _ h1).2
    exact hname _ _ ((hu _ h1).trans (hu _ h2).symm)

/-- Telling changes neither the members nor the partitions of a group. -/
theorem onlyTold_run (ok : Bool) (evs : List GEv) (h : OnlyTold evs) (g : Group) :
    (g.run ok evs).zk = g.zk ∧ (g.run ok evs).items = g.items := by
  induction evs generalizing g with
  | nil => exact ⟨rfl, rfl⟩
  | cons e evs ih =>
    obtain ⟨i, he⟩ := h e List.mem_cons_self
    have ih := ih (fun e he => h e (List.mem_cons_of_mem _ he)) (g.step ok e)
    have : (g.step ok e).zk = g.zk ∧ (g.step ok e).items = g.items := by
      rcases he with rfl | rfl <;> exact ⟨rfl, rfl⟩
    exact ⟨ih.1.trans this.1, ih.2.trans this.2⟩

theorem told_append (ok : Bool) (i : Nat) (evs evs' : List GEv) (g : Group) :
    told ok i (evs ++ evs') g = told ok i evs g ++ told ok i evs' (g.run ok evs) := by
  induction evs generalizing g with
  | nil => rfl
  | cons e evs ih =>
    show _ ++ told ok i (evs ++ evs') _ = (_ ++ told ok i evs _) ++ _
    rw [ih, List.append_assoc]
    rfl

/-- What is told, when nothing else happens, is what there is. -/
theorem onlyTold_told (ok : Bool) (i : Nat) (evs : List GEv) (h : OnlyTold evs) (g : Group) :
    (∀ n ∈ told ok i evs g, n = .members (g.zk.nodes.map (·.1)) ∨ n = .partitions (some g.items)) ∧
    (.seesMembers i ∈ evs → Note.members (g.zk.nodes.map (·.1)) ∈ told ok i evs g) ∧
    (.seesItems i ∈ evs → Note.partitions (some g.items) ∈ told ok i evs g) := by
  induction evs generalizing g with
  | nil => simp [told]
  | cons e evs ih =>
    obtain ⟨j, he⟩ := h e List.mem_cons_self
    have ih := ih (fun e he => h e (List.mem_cons_of_mem _ he)) (g.step ok e)
    have hs : (g.step ok e).zk = g.zk ∧ (g.step ok e).items = g.items := by
      rcases he with rfl | rfl <;> exact ⟨rfl, rfl⟩
    rw [hs.1, hs.2] at ih
    obtain ⟨ih1, ih2, ih3⟩ := ih
    rcases he with rfl | rfl
    · simp only [told]
      refine ⟨?_, ?_, ?_⟩
      · intro n hn
        rcases List.mem_append.1 hn with hn | hn
        · split at hn
          · exact Or.inl (List.mem_singleton.1 hn)
          · simp at hn
        · exact ih1 n hn
      · intro hm
        rcases List.mem_cons.1 hm with hm | hm
        · injection hm with hm
          simp [hm]
        · exact List.mem_append_right _ (ih2 hm)
      · intro hm
        rcases List.mem_cons.1 hm with hm | hm
        · cases hm
        · exact List.mem_append_right _ (ih3 hm)
    · simp only [told]
      refine ⟨?_, ?_, ?_⟩
      · intro n hn
        rcases List.mem_append.1 hn with hn | hn
        · split at hn
          · exact Or.inr (List.mem_singleton.1 hn)
          · simp at hn
        · exact ih1 n hn
      · intro hm
        rcases List.mem_cons.1 hm with hm | hm
        · cases hm
        · exact List.mem_append_right _ (ih2 hm)
      · intro hm
        rcases List.mem_cons.1 hm with hm | hm
        · injection hm with hm
          simp [hm]
        · exact List.mem_append_right _ (ih3 hm)

/-- The last of some values that are all the same. -/
theorem getLast?_same {α : Type} (a b : List α) (x : α) (hb : ∀ y ∈ b, y = x) (hx : x ∈ b) :
    (a ++ b).getLast? = some x := by
  have hne : b ≠ [] := List.ne_nil_of_mem hx
  rw [List.getLast?_append, List.getLast?_eq_some_getLast hne, Option.some_or]
  exact congrArg some (hb _ (List.getLast_mem hne))

theorem onlyTold_upToDate (ok : Bool) (i : Nat) (before evs : List GEv) (h : OnlyTold evs)
    (h1 : .seesMembers i ∈ evs) (h2 : .seesItems i ∈ evs) (g : Group) :
    UpToDate ok i (before ++ evs) g := by
  unfold UpToDate
  rw [told_append, grun_append, (onlyTold_run ok evs h _).1, (onlyTold_run ok evs h _).2]
  obtain ⟨k1, k2, k3⟩ := onlyTold_told ok i evs h (g.run ok before)
  constructor
  · unfold latestMembers
    rw [List.filterMap_append, getLast?_same _ _ ((g.run ok before).zk.nodes.map (·.1))]
    · exact fun _ => Iff.rfl
    · intro y hy
      obtain ⟨n, hn, e⟩ := List.mem_filterMap.1 hy
      rcases k1 n hn with rfl | rfl
      · exact (Option.some.inj e).symm
      · cases e
    · exact List.mem_filterMap.2 ⟨_, k2 h1, rfl⟩
  · unfold latestPartitions
    rw [List.filterMap_append, getLast?_same _ _ (g.run ok before).items]
    · exact fun _ => Iff.rfl
    · intro y hy
      obtain ⟨n, hn, e⟩ := List.mem_filterMap.1 hy
      rcases k1 n hn with rfl | rfl
      · cases e
      · exact (Option.some.inj e).symm
    · exact List.mem_filterMap.2 ⟨_, k3 h2, rfl⟩

/-- **C82**: groups do settle.  Whatever has happened: once nothing happens any more but consumers
being told what there is, and each that is in the group has been told both, each partition of
the group is to be consumed by exactly one of them. -/
theorem C82_settles (ok : Bool) (name : Nat → String) (sess : Nat → Int)
    (hname : ∀ i j, name i = name j → i = j) (before evs : List GEv) (hplain : PlainAdds before)
    (h : OnlyTold evs) (g g' : Group) (hg : g = (Group.new name sess).run ok before)
    (hg' : g' = g.run ok evs)
    (hall : ∀ i, Joined g i → .seesMembers i ∈ evs ∧ .seesItems i ∈ evs) (hsome : ∃ i, Joined g i)
    (t : String) (p : Int) (ht : PlainName t) (hin : InGroup g t p) :
    ∃ i, Joined g i ∧ Consumes g' i t p ∧ ∀ j, Joined g j → Consumes g' j t p → j = i := by
  have hj : ∀ i, Joined g' i ↔ Joined g i := by
    intro i
    unfold Joined
    rw [hg', run_name, (onlyTold_run ok evs h g).1]
  have hin' : InGroup g' t p := by
    unfold InGroup
    rw [hg', (onlyTold_run ok evs h g).2]
    exact hin
  have hplain' : PlainAdds (before ++ evs) := by
    intro i d hm
    rcases List.mem_append.1 hm with hm | hm
    · exact hplain i d hm
    · obtain ⟨j, hj⟩ := h _ hm
      rcases hj with hj | hj <;> cases hj
  have hrun : g' = (Group.new name sess).run ok (before ++ evs) := by
    rw [hg', hg, grun_append]
  obtain ⟨i0, hi0⟩ := hsome
  have := C82_settled ok name sess hname (before ++ evs) hplain' g' hrun
    (fun i hi => onlyTold_upToDate ok i before evs h (hall i ((hj i).1 hi)).1
      (hall i ((hj i).1 hi)).2 _) ⟨i0, (hj i0).2 hi0⟩ t p
  obtain ⟨i, hi, hc⟩ := (this.1 ht).1 hin'
  exact ⟨i, (hj i).1 hi, hc, fun j hjj hcj => this.2 j i ((hj j).2 hjj) hi hcj hc⟩

/-! ### C83 -/

/-- A consumer that is not in the group, and has been told so, is to consume nothing. -/
theorem C83_gives_up (ok : Bool) (name : Nat → String) (sess : Nat → Int) (evs : List GEv)
    (hplain : PlainAdds evs) (g : Group) (hg : g = (Group.new name sess).run ok evs) (i : Nat)
    (hup : UpToDate ok i evs (Group.new name sess)) (hout : ¬ Joined g i) (t : String) (p : Int) :
    ¬ Consumes g i t p := by
  subst hg
  let g0 := Group.new name sess
  rintro ⟨a, h1, h2⟩
  have hg0 : ∀ x ∈ g0.items, PlainItem x := by simp [g0, Group.new]
  have hns := told_plain ok i evs hplain g0 hg0
  rw [run_alloc] at h1
  have h1 : ((Alloc.new (name i)).notifyAll naiveFn (told ok i evs g0)).allocation.1 = .ok a := h1
  have h59 := C59_partial naiveFn PlainItem (name i) (naive_usable (name i)) _ hns
  by_cases h0 : changes (told ok i evs g0) = 0
  · rw [h59.2.2.2.1 h0] at h1; cases h1
  · obtain ⟨_, h⟩ := C59_default (name i) _ hns
    let ms := pySorted (pySet (latestMembers (told ok i evs g0)))
    let ps := pySorted (pySet (latestPartitions (told ok i evs g0)))
    have hms : SortedSet ms (pySet (latestMembers (told ok i evs g0))) := pySorted_spec _ (nodup_pySet _)
    have hps : SortedSet ps (pySet (latestPartitions (told ok i evs g0))) := pySorted_spec _ (nodup_pySet _)
    have conv : ∀ (l s s' : List String), SortedSet l s → SameSet s s' → SortedSet l s' :=
      fun l s s' h1 h2 => ⟨h1.1, fun x => (h1.2 x).trans (h2 x)⟩
    obtain ⟨mp, a', e1, _, e3, e4⟩ := h h0 ms ps (conv _ _ _ hms (sameSet_pySet _))
      (conv _ _ _ hps (sameSet_pySet _))
    rw [e3] at h1
    obtain rfl := Except.ok.inj h1
    rw [e4] at h2
    have hnot : name i ∉ ms := by
      intro hm
      have := (mem_pySet _ _).1 ((hms.2 _).1 hm)
      rw [hup.1] at this
      refine hout ((joined_iff _ _).2 ?_)
      rw [run_name]
      exact this
    obtain ⟨parts, hparts, hplain'⟩ := split_items ps fun x hx =>
      latest_plain _ PlainItem hns x ((mem_pySet _ _).1 ((hps.2 x).1 hx))
    by_cases hne : ms = []
    · rw [hne, C45_no_members] at e1
      obtain rfl := Except.ok.inj e1
      simp [lookup, Dict.get?] at h2
    · have hnod : parts.Nodup := by
        have : (parts.map item).Nodup := by rw [← hparts]; exact hps.1.imp ne_of_lt
        exact this.of_map _
      obtain ⟨mp', f1, _, f3, _⟩ := C45_exactly_one ms hne parts hnod hplain'
      rw [← hparts, e1] at f1
      obtain rfl := Except.ok.inj f1
      exact hnot (f3 _ _ _ h2).1

/-- Without `join` nobody gets a node. -/
theorem stays_out (ok : Bool) (evs : List GEv) (i : Nat) (hno : GEv.join i ∉ evs) (g : Group)
    (hname : ∀ j, (g.mate j).alloc.name = (g.mate i).alloc.name → j = i)
    (hn : g.zk.nodes.keys.Nodup) (hg : ¬ Joined g i) : ¬ Joined (g.run ok evs) i := by
  induction evs generalizing g with
  | nil => exact hg
  | cons e evs ih =>
    refine ih (fun h => hno (List.mem_cons_of_mem _ h)) (g.step ok e)
      (by simpa only [step_name] using hname) (run_nodup ok [e] g hn) ?_
    unfold Joined at hg ⊢
    rw [step_name, step_nodes]
    cases e with
    | expire s =>
      simp only [partyEvent, expire_get? s g.zk hn]
      split
      · simp
      · exact hg
    | join j =>
      simp only [(join_event _ _ g.zk _).2]
      split
      · next h =>
        have := hname j h.1.symm
        subst this
        simp at hno
      · exact hg
    | leave j =>
      simp only [(leave_event _ _ g.zk _).2]
      split
      · simp
      · exact hg
    | _ => exact hg

theorem new_nodup (ok : Bool) (name : Nat → String) (sess : Nat → Int) (evs : List GEv) :
    ((Group.new name sess).run ok evs).zk.nodes.keys.Nodup :=
  run_nodup ok evs _ (by simp [Group.new, Dict.keys])

/-- A consumer whose node's session expires is out, and stays out unless it joins again. -/
theorem expired_out (ok : Bool) (name : Nat → String) (sess : Nat → Int)
    (hname : ∀ i j, name i = name j → i = j) (evs evs' : List GEv) (i : Nat) (s : Int)
    (hs : ((Group.new name sess).run ok evs).zk.nodes.get? (name i) = some s)
    (hno : GEv.join i ∉ evs') :
    ¬ Joined ((Group.new name sess).run ok (evs ++ .expire s :: evs')) i := by
  rw [grun_append]
  refine stays_out ok evs' i hno (((Group.new name sess).run ok evs).step ok (.expire s)) ?_
    (run_nodup ok [.expire s] _ (new_nodup ok name sess evs)) ?_
  · intro j h
    rw [step_name, step_name, run_name, run_name] at h
    exact hname j i h
  · unfold Joined
    rw [step_name, step_nodes, run_name]
    have : ((Group.new name sess).mate i).alloc.name = name i := rfl
    rw [this]
    simp only [partyEvent, expire_get? s _ (new_nodup ok name sess evs), hs, if_true]
    simp

/-- **C83.**  The session that owns a consumer's node expires; anything else happens then, except
that the consumer joins again.  Once everybody has been told, the consumer is to consume nothing
any more, and each partition of the group is to be consumed by exactly one of those in it. -/
theorem C83_taken_over (ok : Bool) (name : Nat → String) (sess : Nat → Int)
    (hname : ∀ i j, name i = name j → i = j) (before after : List GEv) (i : Nat) (s : Int)
    (hs : ((Group.new name sess).run ok before).zk.nodes.get? (name i) = some s)
    (hno : GEv.join i ∉ after)
    (evs : List GEv) (hevs : evs = before ++ .expire s :: after) (hplain : PlainAdds evs)
    (g : Group) (hg : g = (Group.new name sess).run ok evs)
    (hup : ∀ j, Joined g j ∨ j = i → UpToDate ok j evs (Group.new name sess))
    (hsome : ∃ j, Joined g j) (t : String) (p : Int) (ht : PlainName t) :
    ¬ Consumes g i t p ∧
    (InGroup g t p → ∃ j, j ≠ i ∧ Joined g j ∧ Consumes g j t p ∧
      ∀ k, Joined g k → Consumes g k t p → k = j) := by
  have hout : ¬ Joined g i := by
    rw [hg, hevs]; exact expired_out ok name sess hname before after i s hs hno
  refine ⟨C83_gives_up ok name sess evs hplain g hg i (hup i (.inr rfl)) hout t p, fun hin => ?_⟩
  have h := C82_settled ok name sess hname evs hplain g hg (fun j hj => hup j (.inl hj)) hsome t p
  obtain ⟨j, hj, hc⟩ := (h.1 ht).1 hin
  refine ⟨j, ?_, hj, hc, fun k hk hck => h.2 k j hk hj hck hc⟩
  rintro rfl
  exact hout hj

/-! ### C84 -/

/-- **C84** is false, in general: whatever happens after the session was lost (a new session,
connection states, notifications), the consumer is not a member again unless `join` is called,
which nothing but `start` does. -/
theorem C84_gone (ok : Bool) (name : Nat → String) (sess : Nat → Int)
    (hname : ∀ i j, name i = name j → i = j) (before after : List GEv) (i : Nat) (s : Int)
    (hs : ((Group.new name sess).run ok before).zk.nodes.get? (name i) = some s)
    (hno : GEv.join i ∉ after) :
    ¬ Joined ((Group.new name sess).run ok (before ++ .expire s :: after)) i :=
  expired_out ok name sess hname before after i s hs hno

/-- **C84**, if the consumer joins again with a session that has not expired: it is a member again.
Missing from the full claim: nothing calls `join` again (`C84_gone`, `C84_false`). -/
theorem C84_rejoins_partial (ok : Bool) (g : Group) (i : Nat)
    (hs : (g.mate i).sess ∉ g.zk.expired) : Joined (g.step ok (.join i)) i := by
  unfold Joined
  rw [step_name, step_nodes]
  simp only [(join_event _ _ g.zk _).2]
  rw [if_pos ⟨trivial, hs⟩]
  rfl

/-! ### C85 -/

theorem run_connected (ok : Bool) (evs : List GEv) (g : Group) (i : Nat) :
    ((g.run ok evs).mate i).connected =
      match lastState i evs with
      | .none => (g.mate i).connected
      | some st => decide (st = .connected) := by
  induction evs using List.reverseRecOn with
  | nil => rfl
  | append_singleton evs e ih =>
    rw [grun_append]
    have hl : ∀ st, lastState i (evs ++ [.state i st]) = some st := by
      intro st; simp [lastState]
    have hn : (∀ st, e ≠ .state i st) → lastState i (evs ++ [e]) = lastState i evs := by
      intro h
      unfold lastState
      rw [List.filterMap_append]
      cases e with
      | state j st =>
        have : j ≠ i := fun hj => h st (by rw [hj])
        simp [this]
      | _ => simp
    show (((g.run ok evs).step ok e).mate i).connected = _
    cases e with
    | state j st =>
      by_cases hj : j = i
      · subst hj
        rw [hl]
        simp only [Group.step, upd, if_true, Mate.connectionChange]
        cases st <;> rfl
      · rw [hn (by intro st' h; cases h; exact hj rfl), ← ih]
        simp [Group.step, upd, Ne.symm hj]
    | session j s =>
      rw [hn (by simp), ← ih]
      simp only [Group.step, upd]
      split <;> [(next h => subst h; rfl); rfl]
    | add j d => rw [hn (by simp), ← ih]; simp only [Group.step]; split <;> rfl
    | remove j d => rw [hn (by simp), ← ih]; simp only [Group.step]; split <;> rfl
    | seesMembers j =>
      rw [hn (by simp), ← ih]
      simp only [Group.step, Group.tell, upd]
      split <;> [(next h => subst h; rfl); rfl]
    | seesItems j =>
      rw [hn (by simp), ← ih]
      simp only [Group.step, Group.tell, upd]
      split <;> [(next h => subst h; rfl); rfl]
    | expire s => rw [hn (by simp), ← ih]; rfl
    | join j => rw [hn (by simp), ← ih]; rfl
    | leave j => rw [hn (by simp), ← ih]; rfl

/-- **C85.**  After any events: `add_partitions` and `remove_partitions` go on exactly if the last
state reported to the consumer is that it is connected; then they do to the group's partitions
what they do, and otherwise nothing. -/
theorem C85_waits (ok : Bool) (name : Nat → String) (sess : Nat → Int) (evs : List GEv) (i : Nat) :
    let g := (Group.new name sess).run ok evs
    (∀ d, (g.step ok (.add i d)).items =
      if lastState i evs = some .connected then (addPartitions ok d g.items).2.1 else g.items) ∧
    (∀ d, (g.step ok (.remove i d)).items =
      if lastState i evs = some .connected then (removePartitions ok d g.items).2.1 else g.items) := by
  intro g
  have hc : (g.mate i).connected = decide (lastState i evs = some .connected) := by
    refine (run_connected ok evs _ i).trans ?_
    cases lastState i evs with
    | none => rfl
    | some st => simp
  constructor
  all_goals
    intro d
    simp only [Group.step, hc, decide_eq_true_eq]
    split <;> rfl

/-! ### Examples -/

/-- Consumers named `""`, `"a"`, `"aa"` and so on. -/
def exNames (i : Nat) : String := String.ofList (List.replicate i 'a')

theorem exNames_inj (i j : Nat) (h : exNames i = exNames j) : i = j := by
  have := String.ofList_injective h
  simpa using congrArg List.length this

/-- Consumers 1 and 2 start; consumer 1 adds three partitions of `t`; both are told. -/
def exStarted : List GEv :=
  [.state 1 .connected, .state 2 .connected, .join 1, .seesMembers 1, .seesItems 1,
   .add 1 [("t", [0, 1, 2])], .seesItems 1, .join 2, .seesMembers 2, .seesMembers 1, .seesItems 2]

/-- Consumer 1's session expires and it gets a new one. -/
def exExpired : List GEv :=
  [.state 1 .suspended, .seesMembers 2, .state 1 .lost, .session 1 77, .state 1 .connected, .seesMembers 1]

def exGroup : Group := Group.new exNames (fun i => 10 + i)

theorem exInGroup (evs : List GEv) (l : List Nat)
    (h : ∀ x ∈ (exGroup.run true evs).zk.nodes.map (·.1), x ∈ l.map exNames) (i : Nat)
    (hi : Joined (exGroup.run true evs) i) : i ∈ l := by
  rw [joined_iff, run_name] at hi
  have := h _ hi
  obtain ⟨j, hj, e⟩ := List.mem_map.1 this
  rw [← exNames_inj j i e]; exact hj

theorem exUp (evs : List GEv) (i : Nat)
    (h : (decide (∀ x ∈ latestMembers (told true i evs exGroup), x ∈ (exGroup.run true evs).zk.nodes.keys) &&
      decide (∀ x ∈ (exGroup.run true evs).zk.nodes.keys, x ∈ latestMembers (told true i evs exGroup)) &&
      decide (∀ x ∈ latestPartitions (told true i evs exGroup), x ∈ (exGroup.run true evs).items) &&
      decide (∀ x ∈ (exGroup.run true evs).items, x ∈ latestPartitions (told true i evs exGroup))) = true) :
    UpToDate true i evs exGroup := by
  simp only [Bool.and_eq_true, decide_eq_true_eq] at h
  exact ⟨fun x => ⟨h.1.1.1 x, h.1.1.2 x⟩, fun x => ⟨h.1.2 x, h.2 x⟩⟩

/-- C82's hypotheses hold after `exStarted`, where the two consumers share the partitions. -/
example : PlainAdds exStarted ∧
    (∀ i, Joined (exGroup.run true exStarted) i → UpToDate true i exStarted exGroup) ∧
    Joined (exGroup.run true exStarted) 1 ∧ Joined (exGroup.run true exStarted) 2 ∧
    Consumes (exGroup.run true exStarted) 1 "t" 0 ∧ Consumes (exGroup.run true exStarted) 2 "t" 1 := by
  refine ⟨?_, ?_, by unfold Joined; decide +kernel, by unfold Joined; decide +kernel,
    ⟨_, rfl, by decide +kernel⟩, ⟨_, rfl, by decide +kernel⟩⟩
  · intro i d h e he
    simp [exStarted] at h
    obtain ⟨_, rfl⟩ := h
    simp at he
    subst he
    unfold PlainName
    decide +kernel
  · intro i hi
    have := exInGroup exStarted [1, 2] (by decide +kernel) i hi
    simp at this
    rcases this with rfl | rfl <;> exact exUp _ _ (by decide +kernel)

/-- C82_settles' hypotheses hold when both consumers of `exStarted` are told again. -/
example : OnlyTold [.seesItems 2, .seesMembers 1, .seesMembers 2, .seesItems 1] ∧
    (∀ i, Joined (exGroup.run true exStarted) i →
      .seesMembers i ∈ [GEv.seesItems 2, .seesMembers 1, .seesMembers 2, .seesItems 1] ∧
      .seesItems i ∈ [GEv.seesItems 2, .seesMembers 1, .seesMembers 2, .seesItems 1]) ∧
    InGroup (exGroup.run true exStarted) "t" 1 := by
  refine ⟨?_, ?_, ?_⟩
  · simp [OnlyTold]
  · intro i hi
    have := exInGroup exStarted [1, 2] (by decide +kernel) i hi
    simp at this
    rcases this with rfl | rfl <;> simp
  · unfold InGroup
    decide +kernel

/-- Its hypothesis that everybody has been told is needed: before consumer 1 is told that consumer 2
has joined, both are to consume partition 1. -/
theorem C82_untold : ∃ evs : List GEv,
    Joined (exGroup.run true evs) 1 ∧ Joined (exGroup.run true evs) 2 ∧
    Consumes (exGroup.run true evs) 1 "t" 1 ∧ Consumes (exGroup.run true evs) 2 "t" 1 := by
  refine ⟨[.state 1 .connected, .state 2 .connected, .join 1, .add 1 [("t", [0, 1, 2])], .seesMembers 1,
    .seesItems 1, .join 2, .seesMembers 2, .seesItems 2], ?_⟩
  exact ⟨by unfold Joined; decide +kernel, by unfold Joined; decide +kernel,
    ⟨_, rfl, by decide +kernel⟩, ⟨_, rfl, by decide +kernel⟩⟩

/-- C83's hypotheses hold when consumer 1's session expires; consumer 2 takes over. -/
example : ((exGroup).run true exStarted).zk.nodes.get? (exNames 1) = some 11 ∧ GEv.join 1 ∉ exExpired ∧
    (∀ j, Joined (exGroup.run true (exStarted ++ .expire 11 :: exExpired)) j ∨ j = 1 →
      UpToDate true j (exStarted ++ .expire 11 :: exExpired) exGroup) ∧
    Joined (exGroup.run true (exStarted ++ .expire 11 :: exExpired)) 2 ∧
    Consumes (exGroup.run true (exStarted ++ .expire 11 :: exExpired)) 2 "t" 0 := by
  refine ⟨by decide +kernel, by simp [exExpired], ?_, by unfold Joined; decide +kernel,
    ⟨_, rfl, by decide +kernel⟩⟩
  rintro j (hj | rfl)
  · have := exInGroup (exStarted ++ .expire 11 :: exExpired) [2] (by decide +kernel) j hj
    simp at this
    subst this
    exact exUp _ _ (by decide +kernel)
  · exact exUp _ _ (by decide +kernel)

/-- **C84** fails: consumer 1 is connected again, with a session that is alive, and has been told
everything; it is not in the group and has nothing to consume. -/
theorem C84_false :
    let g := exGroup.run true (exStarted ++ .expire 11 :: exExpired)
    (g.mate 1).connected = true ∧ (g.mate 1).sess ∉ g.zk.expired ∧ ¬ Joined g 1 ∧
    ∀ t p, ¬ Consumes g 1 t p := by
  have hout : ¬ Joined (exGroup.run true (exStarted ++ .expire 11 :: exExpired)) 1 := by
    unfold Joined; decide +kernel
  refine ⟨by decide +kernel, by decide +kernel, hout, fun t p => ?_⟩
  refine C83_gives_up true exNames _ _ ?_ _ rfl 1 (exUp _ _ (by decide +kernel)) hout t p
  intro i d h e he
  simp [exStarted, exExpired] at h
  obtain ⟨_, rfl⟩ := h
  simp at he
  subst he
  unfold PlainName
  decide +kernel

/-- C84_rejoins_partial's hypothesis holds of the new session. -/
example : ((exGroup.run true (exStarted ++ .expire 11 :: exExpired)).mate 1).sess ∉
    (exGroup.run true (exStarted ++ .expire 11 :: exExpired)).zk.expired := by decide +kernel

/-- C85: after `suspended` consumer 1's partitions are not added; consumer 2's are. -/
example : lastState 1 (exStarted ++ [.state 1 .suspended]) = some .suspended ∧
    ((exGroup.run true (exStarted ++ [.state 1 .suspended])).step true (.add 1 [("u", [0])])).items =
      (exGroup.run true exStarted).items ∧
    "u:0" ∈ ((exGroup.run true (exStarted ++ [.state 1 .suspended])).step true (.add 2 [("u", [0])])).items := by
  decide +kernel

end Kiel
