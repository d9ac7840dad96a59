import Verif.Spec.Names
import Verif.Props.Group
/-
C125: consumers are told apart by their names.  C126: groups are kept apart in zookeeper.
-/
set_option autoImplicit false
namespace Kiel
open Spec

/-! ### C125 -/

theorem strNat_inj (a b : Nat) (h : strInt a = strInt b) : a = b := by
  have h1 := pyInt?_strInt (a : Int)
  rw [h, pyInt?_strInt] at h1
  exact Int.ofNat_inj.1 (Option.some.inj h1).symm

theorem last_split {c : Char} (a b d e : List Char) (hd : c ∉ d) (he : c ∉ e)
    (h : a ++ c :: d = b ++ c :: e) : a = b ∧ d = e := by
  rcases List.append_eq_append_iff.1 h with ⟨x, h1, h2⟩ | ⟨x, h1, h2⟩
  · cases x with
    | nil => simp at h1 h2; exact ⟨h1.symm, h2⟩
    | cons y x =>
      simp only [List.cons_append, List.cons.injEq] at h2
      exact absurd (by rw [h2.2]; simp) hd
  · cases x with
    | nil => simp at h1 h2; exact ⟨h1, h2.symm⟩
    | cons y x =>
      simp only [List.cons_append, List.cons.injEq] at h2
      exact absurd (by rw [h2.2]; simp) he

/-- **C125**: the names of two consumers are the same exactly if they are on the same host and have
the same address, whichever processes they are in. -/
theorem C125_names (a b : Being) : a.name = b.name ↔ a.host = b.host ∧ a.address = b.address := by
  constructor
  · intro h
    have h : (consumerName a.host a.address).toList = (consumerName b.host b.address).toList :=
      congrArg String.toList h
    simp only [consumerName, String.toList_append, List.append_assoc] at h
    have hc : (":" : String).toList = [':'] := rfl
    rw [hc] at h
    obtain ⟨h1, h2⟩ := last_split _ _ _ _ (strInt_plain _) (strInt_plain _) h
    exact ⟨String.toList_injective h1, strNat_inj _ _ (String.toList_injective h2)⟩
  · rintro ⟨h1, h2⟩
    simp only [Being.name, h1, h2]

/-- **C125**, for consumers no two of which are in different processes of one host: they are told
apart.  Missing from the full claim: consumers in several processes of a host (`C125_false`). -/
theorem C125_apart_partial (b : Nat → Being) (ht : Together b)
    (hp : ∀ i j, (b i).host = (b j).host → (b i).process = (b j).process) (i j : Nat)
    (h : (b i).name = (b j).name) : i = j := by
  obtain ⟨h1, h2⟩ := (C125_names _ _).1 h
  exact ht i j h1 (hp i j h1) h2

/-- **C125**, for such consumers: once all consumers in the group have been told its members and
partitions, each partition belongs to exactly one consumer. -/
theorem C125_settled_partial (ok : Bool) (b : Nat → Being) (sess : Nat → Int) (ht : Together b)
    (hp : ∀ i j, (b i).host = (b j).host → (b i).process = (b j).process) (evs : List GEv)
    (hplain : PlainAdds evs) (g : Group) (hg : g = (Group.new (fun i => (b i).name) sess).run ok evs)
    (hup : ∀ i, Joined g i → UpToDate ok i evs (Group.new (fun i => (b i).name) sess))
    (hsome : ∃ i, Joined g i) (t : String) (p : Int) (hpn : PlainName t) (hin : InGroup g t p) :
    ∃ i, Joined g i ∧ Consumes g i t p ∧ ∀ j, Joined g j → Consumes g j t p → j = i := by
  obtain ⟨h1, h2⟩ := C82_settled ok _ sess (C125_apart_partial b ht hp) evs hplain g hg hup hsome t p
  obtain ⟨i, hi, hc⟩ := (h1 hpn).1 hin
  exact ⟨i, hi, hc, fun j hj hcj => h2 j i hj hi hcj hc⟩

/-- What a consumer that has been told everything is to consume is settled by its name. -/
theorem consumes_by_name (ok : Bool) (name : Nat → String) (sess : Nat → Int) (evs : List GEv)
    (hplain : PlainAdds evs) (i j : Nat) (hname : name i = name j)
    (hj : Joined ((Group.new name sess).run ok evs) j)
    (hi' : UpToDate ok i evs (Group.new name sess)) (hj' : UpToDate ok j evs (Group.new name sess))
    (t : String) (p : Int) (h : Consumes ((Group.new name sess).run ok evs) i t p) :
    Consumes ((Group.new name sess).run ok evs) j t p := by
  let g0 := Group.new name sess
  have hg0 : ∀ x ∈ g0.items, PlainItem x := by simp [g0, Group.new]
  have hnm : ∀ i, ((g0.run ok evs).mate i).alloc.name = name i := fun i => run_name ok evs g0 i
  have hi : Joined (g0.run ok evs) i := by
    rw [joined_iff, hnm, hname, ← hnm, ← joined_iff]; exact hj
  have each : ∀ i, Joined (g0.run ok evs) i → UpToDate ok i evs g0 →
      ∃ mp a, naiveAllocator (pySorted (pySet ((g0.run ok evs).zk.nodes.map (·.1))))
          (pySorted (pySet (g0.run ok evs).items)) = .ok mp ∧
        ((g0.run ok evs).mate i).alloc.allocation.1 = .ok a ∧
        ∀ t, (a.get? t).getD [] = lookup mp (name i) t := by
    intro i hi hup
    obtain ⟨hM, hP⟩ := hup
    have conv : ∀ (l s s' : List String), SortedSet l s → SameSet s s' → SortedSet l s' :=
      fun l s s' h1 h2 => ⟨h1.1, fun x => (h1.2 x).trans (h2 x)⟩
    obtain ⟨_, h⟩ := C59_default (name i) (told ok i evs g0) (told_plain ok i evs hplain g0 hg0)
    have hpos : changes (told ok i evs g0) ≠ 0 := by
      apply changes_pos _ (name i)
      rw [hM]
      rw [joined_iff, hnm] at hi
      exact hi
    obtain ⟨mp, a, e1, _, e3, e4⟩ := h hpos _ _
      (conv _ _ _ (pySorted_spec _ (nodup_pySet _)) ((sameSet_pySet _).trans hM.symm))
      (conv _ _ _ (pySorted_spec _ (nodup_pySet _)) ((sameSet_pySet _).trans hP.symm))
    refine ⟨mp, a, e1, ?_, e4⟩
    rw [run_alloc]
    exact congrArg Prod.fst e3
  obtain ⟨mp, a, e1, e2, e3⟩ := each i hi hi'
  obtain ⟨mp', a', f1, f2, f3⟩ := each j hj hj'
  rw [f1] at e1
  obtain rfl := Except.ok.inj e1
  obtain ⟨a0, h1, h2⟩ := h
  have h1 : ((g0.run ok evs).mate i).alloc.allocation.1 = .ok a0 := h1
  rw [e2] at h1
  obtain rfl := Except.ok.inj h1
  refine ⟨a', f2, ?_⟩
  rw [f3, ← hname, ← e3]
  exact h2

/-- **C125** fails for two consumers in different processes of a host that happen to have the same
address: in every history, once both have been told the members and partitions, they are to consume
exactly the same partitions; and if either leaves, neither is in the group any more. -/
theorem C125_twins (ok : Bool) (b : Nat → Being) (sess : Nat → Int) (evs : List GEv)
    (hplain : PlainAdds evs) (g : Group) (hg : g = (Group.new (fun i => (b i).name) sess).run ok evs)
    (i j : Nat) (hh : (b i).host = (b j).host) (ha : (b i).address = (b j).address) :
    (Joined g i ↔ Joined g j) ∧
    (Joined g i → UpToDate ok i evs (Group.new (fun i => (b i).name) sess) →
      UpToDate ok j evs (Group.new (fun i => (b i).name) sess) →
      ∀ t p, Consumes g i t p ↔ Consumes g j t p) ∧
    ((g.mate i).sess ∉ g.zk.expired → ¬ Joined (g.step ok (.leave i)) j) := by
  subst hg
  have hname := (C125_names (b i) (b j)).2 ⟨hh, ha⟩
  have hnm : ∀ i, ((((Group.new (fun i => (b i).name) sess).run ok evs).mate i).alloc.name) =
    (b i).name := fun i => run_name ok evs _ i
  have hjj : Joined ((Group.new (fun i => (b i).name) sess).run ok evs) i ↔
      Joined ((Group.new (fun i => (b i).name) sess).run ok evs) j := by
    rw [joined_iff, joined_iff, hnm, hnm, hname]
  refine ⟨hjj, fun hi hi' hj' t p => ⟨?_, ?_⟩, ?_⟩
  · exact consumes_by_name ok _ sess evs hplain i j hname (hjj.1 hi) hi' hj' t p
  · exact consumes_by_name ok _ sess evs hplain j i hname.symm hi hj' hi' t p
  · intro hs
    unfold Joined
    rw [step_name, step_nodes]
    simp only [(leave_event _ _ _ _).2, hnm, hname]
    simp [hs]

/-- Two consumers, each in a process of its own, on one host, and one on another host. -/
def exBeings : Nat → Being
  | 0 => ⟨"worker", 311, 140213, "g"⟩
  | 1 => ⟨"worker", 312, 140213, "g"⟩
  | n + 2 => ⟨"other", 7, n, "g"⟩

/-- Both are started, partitions are added, and both are told everything. -/
def exTwins : List GEv :=
  [.state 0 .connected, .state 1 .connected, .join 0, .seesMembers 0, .seesItems 0,
   .add 0 [("t", [0, 1])], .seesItems 0, .join 1, .seesMembers 1, .seesMembers 0, .seesItems 1]

/-- **C125** is false of the code: both consumers are in the group and have been told everything,
and each is to consume every partition. -/
theorem C125_false : Together exBeings ∧
    let g0 := Group.new (fun i => (exBeings i).name) (fun i => 10 + i)
    let g := g0.run true exTwins
    PlainAdds exTwins ∧ Joined g 0 ∧ Joined g 1 ∧ UpToDate true 0 exTwins g0 ∧
    UpToDate true 1 exTwins g0 ∧
    (Consumes g 0 "t" 0 ∧ Consumes g 1 "t" 0) ∧ (Consumes g 0 "t" 1 ∧ Consumes g 1 "t" 1) := by
  constructor
  · intro i j
    rcases i with _ | _ | i <;> rcases j with _ | _ | j <;> simp [exBeings]
  · have up : ∀ i, (latestMembers (told true i exTwins
          (Group.new (fun i => (exBeings i).name) (fun i => 10 + i))) =
        ((Group.new (fun i => (exBeings i).name) (fun i => 10 + i)).run true
          exTwins).zk.nodes.map (·.1)) →
        (latestPartitions (told true i exTwins
          (Group.new (fun i => (exBeings i).name) (fun i => 10 + i))) =
        ((Group.new (fun i => (exBeings i).name) (fun i => 10 + i)).run true exTwins).items) →
        UpToDate true i exTwins (Group.new (fun i => (exBeings i).name) (fun i => 10 + i)) := by
      intro i h1 h2
      exact ⟨fun _ => by rw [h1], fun _ => by rw [h2]⟩
    refine ⟨?_, by unfold Joined; decide +kernel, by unfold Joined; decide +kernel,
      up 0 (by decide +kernel) (by decide +kernel), up 1 (by decide +kernel) (by decide +kernel),
      ⟨⟨_, rfl, by decide +kernel⟩, ⟨_, rfl, by decide +kernel⟩⟩,
      ⟨_, rfl, by decide +kernel⟩, ⟨_, rfl, by decide +kernel⟩⟩
    intro i d h e he
    simp [exTwins] at h
    obtain ⟨_, rfl⟩ := h
    simp at he
    subst he
    unfold PlainName
    decide +kernel

-- Non-vacuity of C125's other parts: one process on each host, addresses that coincide or not.
example : let b : Nat → Being := fun n => ⟨if n = 0 then "worker" else "other", 7, n, "g"⟩
    Together b ∧ (∀ i j, (b i).host = (b j).host → (b i).process = (b j).process) ∧
    (b 0).name = "worker:0" ∧ (b 12).name = "other:12" :=
  ⟨fun _ _ _ _ h => h, fun _ _ _ => rfl, by decide +kernel, by decide +kernel⟩

/-! ### C126 -/

theorem first_split {c : Char} (a b d e : List Char) (ha : c ∉ a) (hb : c ∉ b)
    (h : a ++ c :: d = b ++ c :: e) : a = b ∧ d = e := by
  induction a generalizing b with
  | nil =>
    cases b with
    | nil => simpa using h
    | cons y b =>
      simp only [List.nil_append, List.cons_append, List.cons.injEq] at h
      exact absurd (by simp [h.1]) hb
  | cons x a ih =>
    cases b with
    | nil =>
      simp only [List.nil_append, List.cons_append, List.cons.injEq] at h
      exact absurd (by simp [h.1]) ha
    | cons y b =>
      simp only [List.cons_append, List.cons.injEq] at h
      obtain ⟨h1, h2⟩ := ih b (fun hc => ha (by simp [hc])) (fun hc => hb (by simp [hc])) h.2
      exact ⟨by rw [h.1, h1], h2⟩

/-- Every node that a consumer has made is beneath its group's. -/
theorem makes_below {g n q : String} (h : Makes g n q) : ∃ rest,
    q.toList = "/kiel/groups/".toList ++ (g.toList ++ '/' :: rest) ∧
    (rest = "members".toList ∨ (∃ r, rest = 'p' :: r) ∨
      rest = "members".toList ++ '/' :: n.toList) := by
  cases h with
  | members => exact ⟨_, by simp [membersPath], .inl rfl⟩
  | partitions => exact ⟨"partitions".toList, by simp [partitionPath], .inr (.inl ⟨_, rfl⟩)⟩
  | member => exact ⟨_, by simp [membersPath, memberPath], .inr (.inr rfl)⟩
  | lock =>
    exact ⟨"partitions".toList ++ "/lock".toList, by simp [partitionPath, lockPath],
      .inr (.inl ⟨_, rfl⟩)⟩
  | waiting s =>
    exact ⟨"partitions".toList ++ "/lock".toList ++ '/' :: s.toList,
      by simp [partitionPath, lockPath, memberPath], .inr (.inl ⟨_, rfl⟩)⟩

/-- **C126**: the children of a group's node for members, which is what its consumers take for the
members, are exactly the names of the group's consumers, whatever other groups there are, if the
names of the groups and of the consumers are not empty and hold no slash.  Missing from the full claim: other names
of groups (`C126_false`). -/
theorem C126_members_partial (is : String → String → Prop)
    (hn : ∀ g n, is g n → OneNode g ∧ OneNode n) (g n : String) (hg : OneNode g) :
    Child (fun q => ∃ g' n', is g' n' ∧ Makes g' n' q) (membersPath g) n ↔ is g n := by
  constructor
  · rintro ⟨hs, q, ⟨g', n', hi, hm⟩, hq⟩
    obtain ⟨tail, ht, hq⟩ : ∃ tail : List Char, (tail = [] ∨ ∃ r, tail = '/' :: r) ∧
        q.toList = "/kiel/groups/".toList ++ (g.toList ++ '/' :: ("members".toList ++ '/' ::
          (n.toList ++ tail))) := by
      rcases hq with hq | ⟨r, hq⟩
      · exact ⟨[], .inl rfl, by rw [hq]; simp [membersPath]⟩
      · exact ⟨'/' :: r, .inr ⟨r, rfl⟩, by rw [← hq]; simp [membersPath]⟩
    obtain ⟨rest, h1, h2⟩ := makes_below hm
    rw [hq] at h1
    obtain ⟨hgg, hr⟩ := first_split _ _ _ _ hg.2 (hn g' n' hi).1.2 (List.append_cancel_left h1)
    obtain rfl := String.toList_injective hgg
    rcases h2 with rfl | ⟨r, rfl⟩ | rfl
    · have := congrArg (fun l => decide ('/' ∈ l)) hr
      simp at this
    · simp at hr
    · have hr := List.append_cancel_left hr
      simp only [List.cons.injEq, true_and] at hr
      rcases ht with rfl | ⟨r, rfl⟩
      · rw [List.append_nil] at hr
        rw [String.toList_injective hr]; exact hi
      · exact absurd (by rw [← hr]; simp) (hn _ _ hi).2.2
  · intro hi
    refine ⟨(hn g n hi).2.2, _, ⟨g, n, hi, .member⟩, .inl ?_⟩
    simp [memberPath]

/-- **C126**: no two groups watch or write the same node, whatever they are called: different
groups have different nodes for members and for partitions, and different locks, and none of these
is one of another kind. -/
theorem C126_separate (g g' : String) :
    (membersPath g = membersPath g' → g = g') ∧ (partitionPath g = partitionPath g' → g = g') ∧
    (lockPath (partitionPath g) = lockPath (partitionPath g') → g = g') ∧
    membersPath g ≠ partitionPath g' ∧ membersPath g ≠ lockPath (partitionPath g') ∧
    partitionPath g ≠ lockPath (partitionPath g') := by
  have hl : ∀ {a b : String}, a = b → a.toList.reverse.take 2 = b.toList.reverse.take 2 :=
    fun h => by rw [h]
  refine ⟨fun h => ?_, fun h => ?_, fun h => ?_, fun h => ?_, fun h => ?_, fun h => ?_⟩
  · have := congrArg String.toList h
    exact String.toList_injective (by simpa [membersPath] using this)
  · have := congrArg String.toList h
    exact String.toList_injective (by simpa [partitionPath] using this)
  · have := congrArg String.toList h
    exact String.toList_injective (by simpa [partitionPath, lockPath] using this)
  · have h2 := hl h
    simp [membersPath, partitionPath] at h2
  · have h2 := hl h
    simp [membersPath, partitionPath, lockPath] at h2
  · have h2 := hl h
    simp [partitionPath, lockPath] at h2

/-- **C126**: what a consumer is called is not empty and holds no slash if that goes for the name of its host. -/
theorem C126_one_node (b : Being) (h : OneNode b.host) : OneNode b.name := by
  unfold OneNode Being.name consumerName at *
  refine ⟨fun hc => ?_, ?_⟩
  · have := congrArg String.toList hc
    simp at this
  simp only [String.toList_append, List.mem_append, not_or]
  refine ⟨⟨h.2, by decide⟩, ?_⟩
  intro hc
  simp only [strInt, String.toList_ofList] at hc
  have := Nat.isDigit_of_mem_toDigits (by decide) (by decide) hc
  simp at this

/-- **C126** is false of the code: a group that is called `a/members` makes all consumers of group
`a` believe in a member `members`, who does not exist; partitions are given to it, which nobody
consumes. -/
theorem C126_false :
    let is : String → String → Prop := fun g n => g = "a" ∧ n = "h:1" ∨ g = "a/members" ∧ n = "h:2"
    Child (fun q => ∃ g' n', is g' n' ∧ Makes g' n' q) (membersPath "a") "members" ∧
    ¬ is "a" "members" ∧
    naiveAllocator ["h:1", "members"] ["t:0", "t:1"] =
      .ok [("h:1", [("t", [0])]), ("members", [("t", [1])])] := by
  refine ⟨⟨by decide, _, ⟨"a/members", "h:2", .inr ⟨rfl, rfl⟩, .members⟩, .inl ?_⟩, ?_, by decide +kernel⟩
  · decide +kernel
  · simp

-- Non-vacuity of C126: two groups with two consumers each.
example : let is : String → String → Prop := fun g n =>
      (g = "a" ∨ g = "b") ∧ (n = "h:1" ∨ n = "h:2")
    (∀ g n, is g n → OneNode g ∧ OneNode n) ∧ OneNode "a" ∧ is "a" "h:2" ∧
      membersPath "a" = "/kiel/groups/a/members" ∧
      memberPath (membersPath "a") "h:2" = "/kiel/groups/a/members/h:2" := by
  refine ⟨?_, by unfold OneNode; decide, ⟨.inl rfl, .inr rfl⟩, by decide +kernel, by decide +kernel⟩
  rintro g n ⟨rfl | rfl, rfl | rfl⟩ <;> exact ⟨by unfold OneNode; decide, by unfold OneNode; decide⟩

end Kiel
