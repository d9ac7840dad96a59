import Verif.Props.Allocator
import Verif.Spec.Notify
/-
Notifications: C47 and C59.
-/
set_option autoImplicit false
namespace Kiel
open Spec

/-! ### `changes` and `latest…`, one notification at a time -/

theorem changes_snoc (ns : List Note) (n : Note) :
    changes (ns ++ [n]) = changes ns + if IsChange ns n then 1 else 0 := by
  unfold changes
  rw [List.length_append, List.length_singleton, List.range_succ, List.countP_append]
  congr 1
  · apply List.countP_congr
    intro k hk
    have hk : k < ns.length := List.mem_range.1 hk
    rw [List.getElem?_append_left hk, List.take_append_of_le_length (Nat.le_of_lt hk)]
  · simp only [List.countP_singleton, List.getElem?_concat_length, List.take_left, decide_eq_true_eq]

theorem latestMembers_members (ns : List Note) (l : List String) :
    latestMembers (ns ++ [.members l]) = l := by simp [latestMembers]

theorem latestMembers_partitions (ns : List Note) (l : Option (List String)) :
    latestMembers (ns ++ [.partitions l]) = latestMembers ns := by simp [latestMembers]

theorem latestPartitions_members (ns : List Note) (l : List String) :
    latestPartitions (ns ++ [.members l]) = latestPartitions ns := by simp [latestPartitions]

theorem latestPartitions_some (ns : List Note) (l : List String) :
    latestPartitions (ns ++ [.partitions (some l)]) = l := by simp [latestPartitions]

theorem latestPartitions_none (ns : List Note) :
    latestPartitions (ns ++ [.partitions .none]) = latestPartitions ns := by simp [latestPartitions]

theorem Spec.SameSet.refl (a : List String) : SameSet a a := fun _ => Iff.rfl
theorem Spec.SameSet.symm {a b : List String} (h : SameSet a b) : SameSet b a := fun x => (h x).symm
theorem Spec.SameSet.trans {a b c : List String} (h : SameSet a b) (h' : SameSet b c) : SameSet a c :=
  fun x => (h x).trans (h' x)

theorem sameSet_pySet (a : List String) : SameSet (pySet a) a := mem_pySet a

/-! ### The allocator -/

/-- An allocator function that does not raise, and whose result can be read for `name`, provided
the partitions satisfy `W`. -/
def Usable (fn : AllocFn) (name : String) (W : String → Prop) : Prop :=
  ∀ ms ps, (∀ x ∈ ps, W x) → ∃ d, fn ms ps = .ok d ∧ (d.dflt = true ∨ (d.entries.get? name).isSome)

theorem split_items (ps : List String) (hps : ∀ x ∈ ps, PlainItem x) :
    ∃ parts : List (String × Int), ps = parts.map item ∧ ∀ p ∈ parts, PlainName p.1 := by
  induction ps with
  | nil => exact ⟨[], rfl, by simp⟩
  | cons x ps ih =>
    obtain ⟨parts, h1, h2⟩ := ih fun y hy => hps y (by simp [hy])
    obtain ⟨t, i, ht, rfl⟩ := hps x (by simp)
    exact ⟨(t, i) :: parts, by simp [h1], by simpa using ⟨ht, fun a b h => h2 (a, b) h⟩⟩

/-- The default allocator can be used by everyone. -/
theorem naive_usable (name : String) : Usable naiveFn name PlainItem := by
  intro ms ps hps
  obtain ⟨parts, rfl, hp⟩ := split_items ps hps
  by_cases hne : ms = []
  · subst hne
    exact ⟨⟨[], true⟩, by simp only [naiveFn, C45_no_members], .inl rfl⟩
  · obtain ⟨mp, h, _⟩ := C45_exact ms hne parts hp
    exact ⟨⟨mp, true⟩, by simp only [naiveFn, h], .inl rfl⟩

/-- Where an allocator is after the notifications `ns`. -/
structure Tracks (fn : AllocFn) (W : String → Prop) (name : String) (ns : List Note) (s : Alloc) : Prop where
  name_eq : s.name = name
  nodupM : s.members.Nodup
  nodupP : s.partitions.Nodup
  sameM : SameSet s.members (latestMembers ns)
  sameP : SameSet s.partitions (latestPartitions ns)
  calls : s.calls = changes ns
  good : ∀ x ∈ s.partitions, W x
  zero : changes ns = 0 → s.mapping = ⟨[], false⟩
  pos : changes ns ≠ 0 → ∃ d, fn (pySorted s.members) (pySorted s.partitions) = .ok d ∧
    s.mapping.dflt = d.dflt ∧ (∀ m t, lookup s.mapping.entries m t = lookup d.entries m t) ∧
    (s.mapping.entries.get? name).isSome

theorem lookup_set_nil (d : Mapping) (k : String) (h : d.get? k = .none) (m t : String) :
    lookup (d.set k []) m t = lookup d m t := by
  unfold lookup
  rw [Dict.get?_set]
  by_cases hk : k = m
  · subst hk; simp [h]
  · simp [hk]

theorem rebalance_ok (fn : AllocFn) (s : Alloc) (d : Mapped)
    (h : fn (pySorted s.members) (pySorted s.partitions) = .ok d)
    (hd : d.dflt = true ∨ (d.entries.get? s.name).isSome) :
    ∃ d', s.rebalance fn = (.ok (), { s with mapping := d', calls := s.calls + 1 }) ∧
      d'.dflt = d.dflt ∧ (∀ m t, lookup d'.entries m t = lookup d.entries m t) ∧
      (d'.entries.get? s.name).isSome := by
  unfold Alloc.rebalance Alloc.allocation
  simp only [h]
  cases hg : d.entries.get? s.name with
  | some a => exact ⟨d, rfl, rfl, fun _ _ => rfl, by simp [hg]⟩
  | none =>
    have hd' : d.dflt = true := by simpa [hg] using hd
    simp only [hd', if_true]
    exact ⟨⟨d.entries.set s.name [], d.dflt⟩, by rw [hd'], hd', lookup_set_nil d.entries s.name hg,
      by simp [Dict.get?_set]⟩

theorem pySorted_mem (s : List String) (x : String) : x ∈ pySorted s ↔ x ∈ s :=
  (List.perm_insertionSort _ _).mem_iff

theorem tracks_step (fn : AllocFn) (W : String → Prop) (name : String) (hfn : Usable fn name W)
    (ns : List Note) (s : Alloc) (h : Tracks fn W name ns s) (n : Note)
    (hn : ∀ l, n = .partitions (some l) → ∀ x ∈ l, W x) :
    Tracks fn W name (ns ++ [n]) (s.notify fn n).2 ∧
      ((s.notify fn n).1 = if n = .partitions .none then .error .typeError else .ok ()) := by
  have hname := h.name_eq
  cases n with
  | members l =>
    simp only [Alloc.notify, Alloc.onMembers, reduceCtorEq, if_false]
    by_cases he : setEq (pySet l) s.members = true
    · have hs : SameSet l (latestMembers ns) :=
        (sameSet_pySet l).symm.trans (((setEq_iff _ _).1 he).trans h.sameM)
      have hc : changes (ns ++ [.members l]) = changes ns := by
        rw [changes_snoc, if_neg (by simpa [IsChange] using hs)]; rfl
      rw [if_pos he]
      refine ⟨⟨hname, h.nodupM, h.nodupP, ?_, ?_, ?_, h.good, ?_, ?_⟩, rfl⟩
      · rw [latestMembers_members]; exact h.sameM.trans hs.symm
      · rw [latestPartitions_members]; exact h.sameP
      · rw [hc]; exact h.calls
      · rw [hc]; exact h.zero
      · rw [hc]; exact h.pos
    · have hs : ¬ SameSet l (latestMembers ns) := fun hs =>
        he ((setEq_iff _ _).2 ((sameSet_pySet l).trans (hs.trans h.sameM.symm)))
      have hc : changes (ns ++ [.members l]) = changes ns + 1 := by
        rw [changes_snoc, if_pos (by simpa [IsChange] using hs)]
      rw [if_neg he]
      obtain ⟨d, hd, hr⟩ := hfn (pySorted (pySet l)) (pySorted s.partitions)
        fun x hx => h.good x ((pySorted_mem _ _).1 hx)
      obtain ⟨d', e1, e2, e3, e4⟩ := rebalance_ok fn { s with members := pySet l } d hd
        (by rw [show ({ s with members := pySet l } : Alloc).name = name from hname]; exact hr)
      rw [e1]
      refine ⟨⟨hname, nodup_pySet l, h.nodupP, ?_, ?_, ?_, h.good, ?_, ?_⟩, rfl⟩
      · rw [latestMembers_members]; exact sameSet_pySet l
      · rw [latestPartitions_members]; exact h.sameP
      · rw [hc, ← h.calls]
      · rw [hc]; intro hh; omega
      · intro _
        refine ⟨d, hd, e2, e3, ?_⟩
        simp only at e4
        rw [← hname]; exact e4
  | partitions o =>
    cases o with
    | none =>
      simp only [Alloc.notify, Alloc.onPartitions, Option.map_none, if_true]
      have hc : changes (ns ++ [.partitions .none]) = changes ns := by
        rw [changes_snoc, if_neg (by simp [IsChange])]; rfl
      refine ⟨⟨hname, h.nodupM, h.nodupP, ?_, ?_, ?_, h.good, ?_, ?_⟩, trivial⟩
      · rw [latestMembers_partitions]; exact h.sameM
      · rw [latestPartitions_none]; exact h.sameP
      · rw [hc]; exact h.calls
      · rw [hc]; exact h.zero
      · rw [hc]; exact h.pos
    | some l =>
      simp only [Alloc.notify, Alloc.onPartitions, Option.map_some, Note.partitions.injEq,
        reduceCtorEq, if_false]
      have hW : ∀ x ∈ pySet l, W x := fun x hx => hn l rfl x ((mem_pySet l x).1 hx)
      by_cases he : setEq (pySet l) s.partitions = true
      · have hs : SameSet l (latestPartitions ns) :=
          (sameSet_pySet l).symm.trans (((setEq_iff _ _).1 he).trans h.sameP)
        have hc : changes (ns ++ [.partitions (some l)]) = changes ns := by
          rw [changes_snoc, if_neg (by simpa [IsChange] using hs)]; rfl
        rw [if_pos he]
        refine ⟨⟨hname, h.nodupM, h.nodupP, ?_, ?_, ?_, h.good, ?_, ?_⟩, rfl⟩
        · rw [latestMembers_partitions]; exact h.sameM
        · rw [latestPartitions_some]; exact h.sameP.trans hs.symm
        · rw [hc]; exact h.calls
        · rw [hc]; exact h.zero
        · rw [hc]; exact h.pos
      · have hs : ¬ SameSet l (latestPartitions ns) := fun hs =>
          he ((setEq_iff _ _).2 ((sameSet_pySet l).trans (hs.trans h.sameP.symm)))
        have hc : changes (ns ++ [.partitions (some l)]) = changes ns + 1 := by
          rw [changes_snoc, if_pos (by simpa [IsChange] using hs)]
        rw [if_neg he]
        obtain ⟨d, hd, hr⟩ := hfn (pySorted s.members) (pySorted (pySet l))
          fun x hx => hW x ((pySorted_mem _ _).1 hx)
        obtain ⟨d', e1, e2, e3, e4⟩ := rebalance_ok fn { s with partitions := pySet l } d hd
          (by rw [show ({ s with partitions := pySet l } : Alloc).name = name from hname]; exact hr)
        rw [e1]
        refine ⟨⟨hname, h.nodupM, nodup_pySet l, ?_, ?_, ?_, hW, ?_, ?_⟩, rfl⟩
        · rw [latestMembers_partitions]; exact h.sameM
        · rw [latestPartitions_some]; exact sameSet_pySet l
        · rw [hc, ← h.calls]
        · rw [hc]; intro hh; omega
        · intro _
          refine ⟨d, hd, e2, e3, ?_⟩
          simp only at e4
          rw [← hname]; exact e4

theorem tracks_new (fn : AllocFn) (W : String → Prop) (name : String) :
    Tracks fn W name [] (Alloc.new name) :=
  ⟨rfl, List.nodup_nil, List.nodup_nil, SameSet.refl _, SameSet.refl _, rfl, by simp [Alloc.new],
    fun _ => rfl, fun h => absurd rfl h⟩

theorem tracks_all (fn : AllocFn) (W : String → Prop) (name : String) (hfn : Usable fn name W)
    (ns : List Note) (hns : NotesOf W ns) : ∀ (done : List Note) (s : Alloc),
    Tracks fn W name done s → Tracks fn W name (done ++ ns) (s.notifyAll fn ns) := by
  induction ns with
  | nil => intro done s h; rw [List.append_nil]; exact h
  | cons n ns ih =>
    intro done s h
    have := ih (fun l hl => hns l (by simp [hl])) (done ++ [n]) (s.notify fn n).2
      (tracks_step fn W name hfn done s h n (fun l hl => hns l (by simp [hl]))).1
    rw [List.append_assoc] at this
    exact this

/-! ### C59 -/

/-- **C59**, for any allocator function that does not raise and gives the consumer an entry (or a
`defaultdict`).  After any notifications the members and partitions are the latest ones, the
callback has run once per change, and, if there was a change at all, the mapping is the function
applied to the sorted latest members and partitions.
Missing from the full claim: functions that raise, or that leave the consumer out: `C59_false`;
notifications that overlap in time: `C59_false_race`. -/
theorem C59_partial (fn : AllocFn) (W : String → Prop) (name : String) (hfn : Usable fn name W)
    (ns : List Note) (hns : NotesOf W ns) :
    let s := (Alloc.new name).notifyAll fn ns
    SameSet s.members (latestMembers ns) ∧ SameSet s.partitions (latestPartitions ns) ∧
    s.calls = changes ns ∧
    (changes ns = 0 → s.allocation.1 = .error .keyError) ∧
    (changes ns ≠ 0 → ∀ ms ps, SortedSet ms (latestMembers ns) → SortedSet ps (latestPartitions ns) →
      ∃ d a, fn ms ps = .ok d ∧ (∀ m t, lookup s.mapping.entries m t = lookup d.entries m t) ∧
        s.allocation = (.ok a, s) ∧ ∀ t, (a.get? t).getD [] = lookup d.entries name t) := by
  intro s
  have h : Tracks fn W name ([] ++ ns) s := tracks_all fn W name hfn ns hns [] _ (tracks_new fn W name)
  rw [List.nil_append] at h
  refine ⟨h.sameM, h.sameP, h.calls, ?_, ?_⟩
  · intro h0
    have := h.zero h0
    simp [Alloc.allocation, this, Dict.get?]
  · intro h0 ms ps hms hps
    obtain ⟨d, h1, h2, h3, h4⟩ := h.pos h0
    obtain rfl := (pySorted_spec _ h.nodupM).unique hms h.sameM
    obtain rfl := (pySorted_spec _ h.nodupP).unique hps h.sameP
    obtain ⟨a, ha⟩ := Option.isSome_iff_exists.1 h4
    refine ⟨d, a, h1, h3, ?_, ?_⟩
    · unfold Alloc.allocation
      rw [h.name_eq, ha]
    · intro t
      rw [← h3]
      simp [lookup, ha]

/-- **C59** for the default allocator: nothing is required of the consumer's name or of the
notifications except that items are `topic:id`. -/
theorem C59_default (name : String) (ns : List Note) (hns : NotesOf PlainItem ns) :
    let s := (Alloc.new name).notifyAll naiveFn ns
    s.calls = changes ns ∧
    (changes ns ≠ 0 → ∀ ms ps, SortedSet ms (latestMembers ns) → SortedSet ps (latestPartitions ns) →
      ∃ mp a, naiveAllocator ms ps = .ok mp ∧ (∀ m t, lookup s.mapping.entries m t = lookup mp m t) ∧
        s.allocation = (.ok a, s) ∧ ∀ t, (a.get? t).getD [] = lookup mp name t) := by
  have h := C59_partial naiveFn PlainItem name (naive_usable name) ns hns
  refine ⟨h.2.2.1, fun h0 ms ps hms hps => ?_⟩
  obtain ⟨d, a, h1, h2, h3, h4⟩ := h.2.2.2.2 h0 ms ps hms hps
  unfold naiveFn at h1
  cases hn : naiveAllocator ms ps with
  | error e => rw [hn] at h1; cases h1
  | ok mp =>
    rw [hn] at h1
    obtain rfl := Except.ok.inj h1
    exact ⟨mp, a, rfl, h2, h3, h4⟩

/-- A notification that changes nothing leaves mapping and callback alone. -/
theorem C59_unchanged (fn : AllocFn) (W : String → Prop) (name : String) (hfn : Usable fn name W)
    (ns : List Note) (hns : NotesOf W ns) (n : Note) (hc : ¬ IsChange ns n) :
    let s := (Alloc.new name).notifyAll fn ns
    (s.notify fn n).2.mapping = s.mapping ∧ (s.notify fn n).2.calls = s.calls := by
  intro s
  have h : Tracks fn W name ([] ++ ns) s := tracks_all fn W name hfn ns hns [] _ (tracks_new fn W name)
  rw [List.nil_append] at h
  cases n with
  | members l =>
    simp only [IsChange, not_not] at hc
    have : setEq (pySet l) s.members = true :=
      (setEq_iff _ _).2 ((sameSet_pySet l).trans (hc.trans h.sameM.symm))
    simp only [Alloc.notify, Alloc.onMembers, if_pos this]
    trivial
  | partitions o =>
    cases o with
    | none => exact ⟨rfl, rfl⟩
    | some l =>
      simp only [IsChange, not_not] at hc
      have : setEq (pySet l) s.partitions = true :=
        (setEq_iff _ _).2 ((sameSet_pySet l).trans (hc.trans h.sameP.symm))
      simp only [Alloc.notify, Alloc.onPartitions, Option.map_some, if_pos this]
      trivial

/-! ### C47 -/

theorem latest_plain (ns : List Note) (W : String → Prop) (hns : NotesOf W ns) (x : String)
    (hx : x ∈ latestPartitions ns) : W x := by
  induction ns using List.reverseRecOn with
  | nil => simp [latestPartitions] at hx
  | append_singleton ns n ih =>
    have ih := ih fun l hl => hns l (by simp [hl])
    cases n with
    | members l => rw [latestPartitions_members] at hx; exact ih hx
    | partitions o =>
      cases o with
      | none => rw [latestPartitions_none] at hx; exact ih hx
      | some l => rw [latestPartitions_some] at hx; exact hns l (by simp) x hx

/-- **C47.**  Two consumers with the default allocator whose latest members and partitions are the
same sets, however they were told, have the same mapping; each sees its own share of it, shares of
different consumers are disjoint, and the shares of all members together are exactly the
partitions. -/
theorem C47_agree (name name' : String) (ns ns' : List Note)
    (hns : NotesOf PlainItem ns) (hns' : NotesOf PlainItem ns')
    (hM : SameSet (latestMembers ns) (latestMembers ns'))
    (hP : SameSet (latestPartitions ns) (latestPartitions ns'))
    (hin : name ∈ latestMembers ns) (hin' : name' ∈ latestMembers ns') :
    ∃ mp : Mapping, ∃ a a',
      ((Alloc.new name).notifyAll naiveFn ns).allocation.1 = .ok a ∧
      ((Alloc.new name').notifyAll naiveFn ns').allocation.1 = .ok a' ∧
      (∀ t, (a.get? t).getD [] = lookup mp name t) ∧
      (∀ t, (a'.get? t).getD [] = lookup mp name' t) ∧
      (∀ m m' t i, i ∈ lookup mp m t → i ∈ lookup mp m' t → m = m') ∧
      (∀ t i, PlainName t → (item (t, i) ∈ latestPartitions ns ↔
        ∃ m ∈ latestMembers ns, i ∈ lookup mp m t)) := by
  have hpos : ∀ (ns : List Note) (name : String), name ∈ latestMembers ns → changes ns ≠ 0 := by
    intro ns
    induction ns using List.reverseRecOn with
    | nil => intro name h; simp [latestMembers] at h
    | append_singleton ns n ih =>
      intro name h
      rw [changes_snoc]
      cases n with
      | members l =>
        rw [latestMembers_members] at h
        by_cases hc : IsChange ns (.members l)
        · simp [hc]
        · simp only [IsChange, not_not] at hc
          have := ih name ((hc name).1 h)
          omega
      | partitions o =>
        rw [latestMembers_partitions] at h
        have := ih name h
        omega
  obtain ⟨_, h⟩ := C59_default name ns hns
  obtain ⟨_, h'⟩ := C59_default name' ns' hns'
  let ms := pySorted (pySet (latestMembers ns))
  let ps := pySorted (pySet (latestPartitions ns))
  have hms : SortedSet ms (pySet (latestMembers ns)) := pySorted_spec _ (nodup_pySet _)
  have hps : SortedSet ps (pySet (latestPartitions ns)) := pySorted_spec _ (nodup_pySet _)
  have conv : ∀ (l s s' : List String), SortedSet l s → SameSet s s' → SortedSet l s' :=
    fun l s s' h1 h2 => ⟨h1.1, fun x => (h1.2 x).trans (h2 x)⟩
  obtain ⟨mp, a, e1, _, e3, e4⟩ := h (hpos ns name hin) ms ps (conv _ _ _ hms (sameSet_pySet _))
    (conv _ _ _ hps (sameSet_pySet _))
  obtain ⟨mp', a', e1', _, e3', e4'⟩ := h' (hpos ns' name' hin') ms ps
    (conv _ _ _ hms ((sameSet_pySet _).trans hM)) (conv _ _ _ hps ((sameSet_pySet _).trans hP))
  rw [e1] at e1'
  obtain rfl := Except.ok.inj e1'
  -- the partitions, split
  have hW : ∀ x ∈ ps, PlainItem x := by
    intro x hx
    have hx := (hps.2 x).1 hx
    rw [mem_pySet] at hx
    exact latest_plain ns PlainItem hns x hx
  obtain ⟨parts, hparts, hplain⟩ := split_items ps hW
  have hnod : parts.Nodup := by
    have : (parts.map item).Nodup := by rw [← hparts]; exact hps.1.imp ne_of_lt
    exact this.of_map _
  have hne : ms ≠ [] := by
    apply List.ne_nil_of_mem (a := name)
    exact (hms.2 name).2 ((mem_pySet _ _).2 hin)
  obtain ⟨mp2, f1, f2, f3, _⟩ := C45_exactly_one ms hne parts hnod hplain
  rw [← hparts, e1] at f1
  obtain rfl := Except.ok.inj f1
  have hmemms : ∀ m, m ∈ ms ↔ m ∈ latestMembers ns := fun m => (hms.2 m).trans (mem_pySet _ _)
  have hmemps : ∀ x, x ∈ ps ↔ x ∈ latestPartitions ns := fun m => (hps.2 m).trans (mem_pySet _ _)
  refine ⟨mp, a, a', by rw [e3], by rw [e3'], e4, e4', ?_, ?_⟩
  · intro m m' t i h1 h2
    obtain ⟨m0, _, _, hu⟩ := f2 t i (f3 m t i h1).2
    rw [hu m h1, hu m' h2]
  · intro t i ht
    rw [← hmemps, hparts]
    constructor
    · intro hi
      obtain ⟨p, hp, he⟩ := List.mem_map.1 hi
      obtain rfl := item_inj p (t, i) (hplain p hp) ht he
      obtain ⟨m, hm, hl, _⟩ := f2 t i hp
      exact ⟨m, (hmemms m).1 hm, hl⟩
    · rintro ⟨m, _, hl⟩
      exact List.mem_map.2 ⟨(t, i), (f3 m t i hl).2, rfl⟩

end Kiel
