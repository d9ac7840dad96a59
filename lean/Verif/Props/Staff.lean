import Verif.Spec.Staff
import Verif.Props.Group
import Verif.Props.Halves
/-
C136: partitions that come into being while a group runs.
-/
set_option autoImplicit false
namespace Kiel
open Spec

variable {β δ : Type}

/-! ### What the default allocator gives was there to be given -/

/-- A partition's item that reads as a partition reads as that one. -/
theorem item_reads {e : String × Int} {x y : List Char} {i : Int}
    (hs : splitColon (item e).toList = [x, y]) (hi : pyInt? y = some i) :
    (String.ofList x, i) = e := by
  have hlen := splitColon_length (item e).toList
  rw [hs] at hlen
  have hp : PlainName e.1 := by
    intro hc
    rw [item_toList, List.count_append, List.count_cons_self] at hlen
    have := List.count_pos_iff.2 hc
    simp only [List.length_cons, List.length_nil] at hlen
    omega
  rw [splitColon_item e hp] at hs
  simp only [List.cons.injEq, and_true] at hs
  obtain ⟨rfl, rfl⟩ := hs
  rw [pyInt?_strInt] at hi
  cases hi
  simp

theorem last_colon {a a' b b' : List Char} (hb : ':' ∉ b) (hb' : ':' ∉ b')
    (h : a ++ ':' :: b = a' ++ ':' :: b') : a = a' ∧ b = b' := by
  rcases List.append_eq_append_iff.1 h with ⟨c, h1, h2⟩ | ⟨c, h1, h2⟩
  · cases c with
    | nil => simp_all
    | cons x c =>
      simp only [List.cons_append, List.cons.injEq] at h2
      exact absurd (by rw [h2.2]; simp) hb
  · cases c with
    | nil => simp_all
    | cons x c =>
      simp only [List.cons_append, List.cons.injEq] at h2
      exact absurd (by rw [h2.2]; simp) hb'

/-- Different partitions have different items. -/
theorem item_only {e e' : String × Int} (h : item e = item e') : e = e' := by
  have hl := congrArg String.toList h
  rw [item_toList, item_toList] at hl
  obtain ⟨h1, h2⟩ := last_colon (strInt_plain e.2) (strInt_plain e'.2) hl
  have h3 := pyInt?_strInt e.2
  rw [h2, pyInt?_strInt] at h3
  exact Prod.ext (String.toList_injective h1) (Option.some.inj h3).symm

theorem allocLoop_given : ∀ (L : List (String × String)) (d d' : Mapping), allocLoop L d = .ok d' →
    (∀ x ∈ L, ∃ e, x.2 = item e) →
    ∀ m t p, p ∈ lookup d' m t → p ∈ lookup d m t ∨ item (t, p) ∈ L.map (·.2)
  | [], d, d', h, _, m, t, p, hp => by cases h; exact .inl hp
  | (m0, x) :: L, d, d', h, hx, m, t, p, hp => by
    obtain ⟨e, he⟩ := hx (m0, x) (List.mem_cons_self ..)
    simp only at he
    subst he
    simp only [allocLoop] at h
    split at h
    · rename_i a b hs
      split at h
      · cases h
      · rename_i i hi
        have hr := item_reads hs hi
        rcases allocLoop_given L _ d' h (fun y hy => hx y (List.mem_cons_of_mem _ hy)) m t p hp with h1 | h1
        · rw [lookup_append, List.mem_append] at h1
          rcases h1 with h1 | h1
          · exact .inl h1
          · split at h1
            · rename_i hmt
              simp only [List.mem_singleton] at h1
              subst h1
              rw [← hmt.2, hr]
              exact .inr (List.mem_cons_self ..)
            · cases h1
        · exact .inr (List.mem_cons_of_mem _ h1)
    · cases h

theorem zipCycle_from {α γ : Type} (ms : List α) : ∀ (ps : List γ) (r : List α),
    ∀ x ∈ zipCycle ms r ps, x.2 ∈ ps
  | [], r, x, h => by cases r <;> cases h
  | p :: ps, r, x, h => by
    cases r with
    | cons m r =>
      rcases List.mem_cons.1 h with rfl | h
      · exact List.mem_cons_self ..
      · exact List.mem_cons_of_mem _ (zipCycle_from ms ps r x h)
    | nil =>
      simp only [zipCycle] at h
      split at h
      · cases h
      · rcases List.mem_cons.1 h with rfl | h
        · exact List.mem_cons_self ..
        · exact List.mem_cons_of_mem _ (zipCycle_from _ ps _ x h)

/-- The default allocator gives nobody what is not in the group. -/
theorem naive_given {ms ps : List String} {mp : Mapping} (h : naiveAllocator ms ps = .ok mp)
    (hps : ∀ x ∈ ps, ∃ e, x = item e) (m t : String) (p : Int) (hp : p ∈ lookup mp m t) :
    item (t, p) ∈ ps := by
  have hz := zipCycle_from ms ps ms
  rcases allocLoop_given _ _ _ h (fun x hx => hps _ (hz x hx)) m t p hp with h1 | h1
  · simp [lookup, Dict.get?] at h1
  · obtain ⟨x, hx, he⟩ := List.mem_map.1 h1
    rw [← he]
    exact hz x hx

/-! ### Allocators -/

/-- What an allocator has given its consumer. -/
def givenBy (s : Alloc) (t : String) : List Int := lookup s.mapping.entries s.name t

theorem allocation_given {s : Alloc} {a : Dict String (List Int)} (h : s.allocation.1 = .ok a)
    (t : String) : (a.get? t).getD [] = givenBy s t := by
  unfold Alloc.allocation at h
  unfold givenBy lookup
  split at h
  · rename_i hg
    cases h
    rw [hg]
    rfl
  · rename_i hg
    split at h
    · cases h
      rw [hg]
      rfl
    · cases h

/-- What an allocator knows is among `items`, and what it has given is not partition `p` of `t`. -/
structure Without (t : String) (p : Int) (s : Alloc) : Prop where
  items : ∀ x ∈ s.partitions, ∃ e, x = item e ∧ e ≠ (t, p)
  given : p ∉ givenBy s t

theorem rebalance_naive (s : Alloc) :
    (∃ e, naiveAllocator (pySorted s.members) (pySorted s.partitions) = .error e ∧
      (s.rebalance naiveFn) = (.error e, s)) ∨
    ∃ mp, naiveAllocator (pySorted s.members) (pySorted s.partitions) = .ok mp ∧
      (s.rebalance naiveFn).1 = .ok () ∧ (s.rebalance naiveFn).2.calls = s.calls + 1 ∧
      (s.rebalance naiveFn).2.partitions = s.partitions ∧
      ∀ t, givenBy (s.rebalance naiveFn).2 t = lookup mp s.name t := by
  unfold Alloc.rebalance naiveFn
  cases hn : naiveAllocator (pySorted s.members) (pySorted s.partitions) with
  | error e => exact .inl ⟨e, rfl, rfl⟩
  | ok mp =>
    refine .inr ⟨mp, rfl, ?_⟩
    simp only [Alloc.allocation]
    cases hg : mp.get? s.name with
    | some a => exact ⟨rfl, rfl, rfl, fun t => rfl⟩
    | none =>
      refine ⟨by simp, by simp, by simp, fun t => ?_⟩
      simp [givenBy, lookup, Dict.get?_set, hg]

theorem without_rebalance {t : String} {p : Int} {s : Alloc} (h : Without t p s) :
    Without t p (s.rebalance naiveFn).2 := by
  rcases rebalance_naive s with ⟨e, _, h1⟩ | ⟨mp, h1, _, _, h2, h3⟩
  · rw [h1]; exact h
  · refine ⟨by rw [h2]; exact h.items, ?_⟩
    rw [h3]
    intro hp
    have hm : ∀ x, x ∈ pySorted s.partitions ↔ x ∈ s.partitions := fun x =>
      (List.perm_insertionSort _ _).mem_iff
    have := naive_given h1 (fun x hx => by
      obtain ⟨e, he, _⟩ := h.items x ((hm x).1 hx)
      exact ⟨e, he⟩) _ t p hp
    obtain ⟨e, he, hne⟩ := h.items _ ((hm _).1 this)
    exact hne (item_only he).symm

theorem without_notify {t : String} {p : Int} {s : Alloc} (h : Without t p s) (n : Note)
    (hn : ∀ l, n = .partitions (some l) → ∀ x ∈ l, ∃ e, x = item e ∧ e ≠ (t, p)) :
    Without t p (s.notify naiveFn n).2 := by
  cases n with
  | members l =>
    simp only [Alloc.notify, Alloc.onMembers]
    split
    · exact ⟨h.items, h.given⟩
    · have hr := without_rebalance (s := { s with members := pySet l }) ⟨h.items, h.given⟩
      split
      · rename_i hx; rw [hx] at hr; exact hr
      · rename_i hx; rw [hx] at hr; exact ⟨hr.items, hr.given⟩
  | partitions o =>
    cases o with
    | none => exact h
    | some l =>
      simp only [Alloc.notify, Alloc.onPartitions, Option.map_some]
      split
      · exact ⟨h.items, h.given⟩
      · have hr := without_rebalance (s := { s with partitions := pySet l })
          ⟨fun x hx => hn l rfl x ((mem_pySet l x).1 hx), h.given⟩
        split
        · rename_i hx; rw [hx] at hr; exact hr
        · rename_i hx; rw [hx] at hr; exact ⟨hr.items, hr.given⟩

/-- Without a rebalance, what is given stays the same. -/
theorem notify_uncalled {s : Alloc} {n : Note} (h : s.calls = (s.notify naiveFn n).2.calls) (t : String) :
    givenBy (s.notify naiveFn n).2 t = givenBy s t := by
  cases n with
  | members l =>
    simp only [Alloc.notify, Alloc.onMembers] at h ⊢
    split
    · rfl
    · rename_i hne
      rw [if_neg hne] at h
      rcases rebalance_naive { s with members := pySet l } with ⟨e, _, h1⟩ | ⟨mp, _, h1, h2, _⟩
      · rw [h1]; rfl
      · cases hr : ({ s with members := pySet l } : Alloc).rebalance naiveFn with
        | mk r s' =>
          rw [hr] at h h1 h2
          cases h1
          simp only at h h2
          omega
  | partitions o =>
    cases o with
    | none => rfl
    | some l =>
      simp only [Alloc.notify, Alloc.onPartitions, Option.map_some] at h ⊢
      split
      · rfl
      · rename_i hne
        rw [if_neg hne] at h
        rcases rebalance_naive { s with partitions := pySet l } with ⟨e, _, h1⟩ | ⟨mp, _, h1, h2, _⟩
        · rw [h1]; rfl
        · cases hr : ({ s with partitions := pySet l } : Alloc).rebalance naiveFn with
          | mk r s' =>
            rw [hr] at h h1 h2
            cases h1
            simp only at h h2
            omega

/-! ### What consumers take to be their own -/

/-- The partitions a consumer takes to be its own. -/
def mine (s : GroupFirst δ) (t : String) : List Int :=
  match s.group.base.consumer.ext.mapping with
  | some a => (a.get? t).getD []
  | .none => []

theorem mine_same {s s' : GroupFirst δ}
    (h : s'.group.base.consumer.ext.mapping = s.group.base.consumer.ext.mapping) : mine s' = mine s := by
  unfold mine
  rw [h]

/-- A step in which a consumer keeps what it takes to be its own, and asks for nothing else. -/
def Sticks (s : GroupFirst δ) (x : FirstGroupOut δ × GroupFirst δ) : Prop :=
  mine x.2 = mine s ∧ ∀ t p, AsksAbout t p x.1 → p ∈ mine s t

theorem sticks_leave {s s' : GroupFirst δ} (i : Nat) (x : GroupOut δ × GroupBusy δ)
    (h1 : x.2.base.consumer.ext.mapping = s.group.base.consumer.ext.mapping)
    (h2 : ∀ reqs, x.1 ≠ .sent reqs) : Sticks s (s'.leave i x) := by
  refine ⟨mine_same h1, ?_⟩
  rintro t p ⟨reqs, hr, _⟩
  simp only [GroupFirst.leave, FirstGroupOut.group.injEq] at hr
  exact absurd hr (h2 reqs)

theorem sticks_still {s s' : GroupFirst δ} {out : FirstGroupOut δ}
    (h1 : s'.group.base.consumer.ext.mapping = s.group.base.consumer.ext.mapping)
    (h2 : ∀ reqs, out ≠ .group (.sent reqs)) : Sticks s (out, s') := by
  refine ⟨mine_same h1, ?_⟩
  rintro t p ⟨reqs, hr, _⟩
  exact absurd hr (h2 reqs)

theorem sticks_fetch (cfg : CCfg β δ) (i : Nat) (topic : String) (ps : List Int) (s : GroupFirst δ)
    (h : ∀ p ∈ ps, p ∈ mine s topic) : Sticks s (s.fetch cfg i topic ps) := by
  unfold GroupFirst.fetch
  cases hf : s.group.base.consumer.fetches cfg topic ps with
  | mk res c =>
    obtain ⟨_, _, _, _, _, h2, h3, _⟩ := fetches_spec cfg topic ps s.group.base.consumer c res hf
    have e2 : c.ext.mapping = s.group.base.consumer.ext.mapping := by rw [h2]
    cases res with
    | error e => exact sticks_leave i _ e2 (by simp)
    | ok reqs =>
      dsimp only
      split
      · exact sticks_leave i _ e2 (by simp)
      · refine ⟨mine_same e2, ?_⟩
        rintro t p ⟨reqs', hr, q, hq, he, f, hf1, hf2⟩
        simp only [GroupFirst.leave, FirstGroupOut.group.injEq, GroupOut.sent.injEq] at hr
        subst hr
        have hx := h3 reqs rfl
        have := (hx.topics q hq).1
        rw [he] at this
        subst this
        refine h p ?_
        have hm : f.id ∈ q.parts.map (·.id) := List.mem_map.2 ⟨f, hf1, rfl⟩
        rw [hx.named q hq, hf2] at hm
        exact (List.mem_filter.1 hm).1

theorem mine_allocated {s : GroupFirst δ} {a : Dict String (List Int)} {topic : String} {ps : List Int}
    (ha : Grouped.allocation s.group.base.consumer = .ok a) (hp : allocated a topic = some ps) :
    mine s topic = ps := by
  unfold Grouped.allocation at ha
  unfold mine
  split at ha
  · cases ha
  · rename_i hm
    cases ha
    rw [hm]
    simp [(allocated_some.1 hp).1]

theorem sticks_proceed (cfg : CCfg β δ) (i : Nat) (topic : String) (s : GroupFirst δ) :
    Sticks s (s.proceed cfg i topic) := by
  unfold GroupFirst.proceed
  split
  · exact sticks_leave i _ rfl (by simp)
  · rename_i a ha
    split
    · rename_i ps hp
      exact sticks_fetch cfg i topic ps s fun p h => by rw [mine_allocated ha hp]; exact h
    · exact sticks_still rfl (by simp)

theorem sticks_want (cfg : CCfg β δ) (i : Nat) (topic : String) (ps : List Int) (s : GroupFirst δ) :
    Sticks s (s.want cfg i topic ps) := by
  unfold GroupFirst.want
  split
  · exact sticks_leave i _ rfl (by simp)
  · split
    · exact sticks_leave i _ rfl (by simp)
    · split
      · exact sticks_leave i _ rfl (by simp)
      · exact sticks_still rfl (by simp)

theorem Sticks.via {s s' : GroupFirst δ} {x : FirstGroupOut δ × GroupFirst δ} (h : Sticks s' x)
    (hm : mine s' = mine s) : Sticks s x :=
  ⟨h.1.trans hm, fun t p ha => by rw [← hm]; exact h.2 t p ha⟩

theorem sticks_undetermined (gcfg : GCfg) (cfg : CCfg β δ) (i : Nat) (topic : String) (e : Exc)
    (s : GroupFirst δ) : Sticks s (s.undetermined gcfg cfg i topic e) := by
  unfold GroupFirst.undetermined
  split
  · exact sticks_leave i _ (finish_share _ _ _ _ _ _) (finish_not_sent _ _ _ _ _ _)
  · exact sticks_leave i _ rfl (by simp)

/-- Whatever a consumer does, and whatever it is answered: it keeps what it takes to be its own, and
asks for nothing else. -/
theorem sticks_step (gcfg : GCfg) (cfg : CCfg β δ) (s : GroupFirst δ) (ev : FirstGroupEv β)
    (ho : ∀ f, ev ≠ .group (.base (.other f))) : Sticks s (s.step gcfg cfg ev) := by
  cases ev with
  | call i topic =>
    simp only [GroupFirst.step]
    split
    · exact sticks_leave i _ (finish_share _ _ _ _ _ _) (finish_not_sent _ _ _ _ _ _)
    · split
      · exact sticks_proceed cfg i topic s
      · unfold GroupFirst.determine
        dsimp only
        split
        · exact sticks_leave i _ rfl (by simp)
        · rename_i a ha
          split
          · exact sticks_leave i _ rfl (by simp)
          · refine (sticks_want cfg i topic _ _).via ?_
            funext t
            simp only [mine, ha, getDefault_getD]
  | offsets i r =>
    simp only [GroupFirst.step]
    split
    · rename_i topic ps b hi
      cases hc : handleOffsetFetchResponse r s.group.base.consumer with
      | mk res c =>
        have h1 : c.ext = s.group.base.consumer.ext := handleOffsetFetch_ext hc
        cases res with
        | error e =>
          refine (sticks_undetermined gcfg cfg i topic e _).via ?_
          exact mine_same (congrArg GExt.mapping h1)
        | ok retry => exact sticks_still (congrArg GExt.mapping h1) (by simp)
    · exact sticks_still rfl (by simp)
  | offsetsFail i e =>
    simp only [GroupFirst.step]
    split
    · refine sticks_still ?_ (by simp)
      dsimp only
      split <;> rfl
    · exact sticks_still rfl (by simp)
  | goOn i =>
    simp only [GroupFirst.step]
    split
    · split
      · exact sticks_leave i _ rfl (by simp)
      · split
        · exact (sticks_want cfg i _ _ _).via (mine_same rfl)
        · exact (sticks_proceed cfg i _ _).via (mine_same rfl)
    · exact sticks_leave i _ rfl (by simp)
    · exact sticks_still rfl (by simp)
  | healed i =>
    simp only [GroupFirst.step]
    split
    · split
      · exact sticks_leave i _ rfl (by simp)
      · rename_i a ha
        split
        · rename_i ps hp
          exact sticks_fetch cfg i _ ps s fun p h => by rw [mine_allocated ha hp]; exact h
        · exact sticks_leave i _ (finish_share _ _ _ _ _ _) (finish_not_sent _ _ _ _ _ _)
    · exact sticks_still rfl (by simp)
  | healFails i e =>
    simp only [GroupFirst.step]
    split
    · exact sticks_still rfl (by simp)
    · exact sticks_undetermined gcfg cfg i _ e s
    · exact sticks_undetermined gcfg cfg i _ e s
    · exact sticks_leave i _ rfl (by simp)
    · exact sticks_still rfl (by simp)
  | group ev =>
    by_cases hc : ∃ j t, ev = .base (.consume j t)
    · obtain ⟨j, t, rfl⟩ := hc
      exact sticks_still rfl (by simp)
    · have hg := group_share (gcfg := gcfg) (cfg := cfg) (g := s.group) (ev := ev)
        (fun j t e => hc ⟨j, t, e⟩) (by
          unfold NoRebalance
          split
          · rename_i f hf
            exact absurd hf (ho f)
          · trivial)
      have he : s.step gcfg cfg (.group ev) =
          (.group (s.group.step gcfg cfg ev).1, { s with group := (s.group.step gcfg cfg ev).2 }) := by
        unfold GroupFirst.step
        split
        all_goals first
          | rfl
          | (rename_i h; cases h; exact absurd ⟨_, _, rfl⟩ hc)
          | (rename_i h; cases h; rfl)
          | (rename_i h; cases h)
      rw [he]
      refine sticks_still hg.2.1 ?_
      intro reqs hr
      simp only [FirstGroupOut.group.injEq] at hr
      exact hg.2.2 reqs hr

/-! ### Groups -/

theorem step_alloc (ok : Bool) (g : Group) (ev : GEv) (i : Nat) :
    ((g.step ok ev).mate i).alloc = (g.mate i).alloc ∨
    ∃ n, ((g.step ok ev).mate i).alloc = ((g.mate i).alloc.notify naiveFn n).2 ∧
      ∀ l, n = .partitions (some l) → l = g.items := by
  cases ev with
  | state j st =>
    left
    simp only [Group.step, upd]
    split
    · next h => subst h; unfold Mate.connectionChange; split <;> [rfl; split <;> rfl]
    · rfl
  | session j s =>
    left
    simp only [Group.step, upd]
    split <;> [(next h => subst h; rfl); rfl]
  | expire s => exact .inl rfl
  | join j => exact .inl rfl
  | leave j => exact .inl rfl
  | add j d => left; simp only [Group.step]; split <;> rfl
  | remove j d => left; simp only [Group.step]; split <;> rfl
  | seesMembers j =>
    simp only [Group.step, Group.tell, upd]
    split
    · next h => subst h; exact .inr ⟨_, rfl, by simp⟩
    · exact .inl rfl
  | seesItems j =>
    simp only [Group.step, Group.tell, upd]
    split
    · next h => subst h; exact .inr ⟨_, rfl, by simp⟩
    · exact .inl rfl

/-- Consumers take for their own what their allocators have given them. -/
def Agrees (s : Staff δ) : Prop := ∀ i t, own s i t = givenBy (s.group.mate i).alloc t

theorem given_error {s : Alloc} {e : Exc} (h : s.allocation.1 = .error e) (t : String) :
    givenBy s t = [] := by
  unfold Alloc.allocation at h
  unfold givenBy lookup
  split at h
  · cases h
  · rename_i hg
    rw [hg]
    rfl

theorem agrees_inZk {s : Staff δ} (h : Agrees s) (ok : Bool) (ev : GEv) : Agrees (s.inZk ok ev) := by
  intro i t
  have hs : own (s.inZk ok ev) i t = mine ((s.client i).allocatedBy (s.group.mate i).alloc
    ((s.group.step ok ev).mate i).alloc) t := rfl
  rw [hs]
  show _ = givenBy ((s.group.step ok ev).mate i).alloc t
  unfold GroupFirst.allocatedBy
  split
  · rename_i hc
    refine (h i t).trans ?_
    rcases step_alloc ok s.group ev i with h1 | ⟨n, h1, _⟩
    · rw [h1]
    · rw [h1] at hc ⊢
      exact (notify_uncalled hc t).symm
  · unfold mine Grouped.allocatedBy
    dsimp only
    cases ha : ((s.group.step ok ev).mate i).alloc.allocation.1 with
    | ok a => exact allocation_given ha t
    | error e => exact (given_error ha t).symm

theorem agrees_upd {s : Staff δ} (h : Agrees s) (i : Nat) (x : GroupFirst δ)
    (hx : mine x = mine (s.client i)) : Agrees { s with client := upd s.client i x } := by
  intro j t
  refine Eq.trans ?_ (h j t)
  show mine (upd s.client i x j) t = mine (s.client j) t
  unfold upd
  split
  · next e => subst e; rw [hx]
  · rfl

theorem client_step (ok : Bool) (gcfg : GCfg) (cfg : CCfg β δ) (s : Staff δ) (i : Nat)
    (ev : FirstGroupEv β) :
    s.step ok gcfg cfg (.client i ev) = (.none, s) ∨
    (∀ f, ev ≠ .group (.base (.other f))) ∧ s.step ok gcfg cfg (.client i ev) =
      (some (i, ((s.client i).step gcfg cfg ev).1),
        { s with client := upd s.client i ((s.client i).step gcfg cfg ev).2 }) := by
  by_cases h : ∃ f, ev = .group (.base (.other f))
  · obtain ⟨f, rfl⟩ := h
    exact .inl rfl
  · refine .inr ⟨fun f e => h ⟨f, e⟩, ?_⟩
    unfold Staff.step
    split
    all_goals first
      | (rename_i he; cases he; exact absurd ⟨_, rfl⟩ h)
      | (rename_i he; cases he; done)
      | (rename_i he; cases he; rfl)

theorem agrees_step {s : Staff δ} (h : Agrees s) (ok : Bool) (gcfg : GCfg) (cfg : CCfg β δ)
    (ev : StaffEv β) : Agrees (s.step ok gcfg cfg ev).2 := by
  cases ev with
  | group ev => exact agrees_inZk h ok ev
  | heals i cl => exact agrees_upd h i ((s.client i).informed cl) rfl
  | connects i cl co =>
    exact agrees_inZk (agrees_inZk (agrees_upd h i (((s.client i).informed cl).coordinatedBy co) rfl) _ _) _ _
  | client i ev =>
    rcases client_step ok gcfg cfg s i ev with he | ⟨ho, he⟩
    · rw [he]; exact h
    · rw [he]
      exact agrees_upd h i _ (sticks_step gcfg cfg (s.client i) ev ho).1

theorem agrees_run (ok : Bool) (gcfg : GCfg) (cfg : CCfg β δ) : ∀ (evs : List (StaffEv β)) (s : Staff δ),
    Agrees s → Agrees (s.run ok gcfg cfg evs).2
  | [], _, h => h
  | ev :: evs, _, h => agrees_run ok gcfg cfg evs _ (agrees_step h ok gcfg cfg ev)

theorem agrees_new (name : Nat → String) (sess : Nat → Int) : Agrees (Staff.new name sess : Staff δ) :=
  fun _ _ => rfl

/-! ### Partitions nobody has offered -/

/-- Nobody in the group knows of partition `p` of `t`, or has been given it. -/
structure Unaware (t : String) (p : Int) (s : Staff δ) : Prop where
  agrees : Agrees s
  items : ∀ x ∈ s.group.items, ∃ e, x = item e ∧ e ≠ (t, p)
  allocs : ∀ i, Without t p (s.group.mate i).alloc

theorem items_without (ok : Bool) {t : String} {p : Int} {g : Group} {ev : GEv}
    (h : ∀ x ∈ g.items, ∃ e, x = item e ∧ e ≠ (t, p))
    (ha : ∀ i d, ev = .add i d → ¬ Lists d t p) :
    ∀ x ∈ (g.step ok ev).items, ∃ e, x = item e ∧ e ≠ (t, p) := by
  cases ev with
  | add j d =>
    simp only [Group.step]
    split
    · intro x hx
      rcases call_mem ok _ _ x hx with h1 | ⟨items, h1, hi⟩
      · exact h x h1
      · obtain rfl := SetOp.add.inj h1
        have : x ∈ elements (addedItems d) := hi
        rw [addedItems_spec] at this
        obtain ⟨t', ids, i, h1, h2, rfl⟩ := this
        refine ⟨_, rfl, ?_⟩
        rintro ⟨⟩
        exact ha j d rfl ⟨ids, h1, h2⟩
    · exact h
  | remove j d =>
    simp only [Group.step]
    split
    · intro x hx
      simp only [removePartitions] at hx
      cases hr : removedItems d with
      | error e => rw [hr] at hx; exact h x hx
      | ok items =>
        rw [hr] at hx
        rcases call_mem ok _ _ x hx with h1 | ⟨items, h1, _⟩
        · exact h x h1
        · cases h1
    · exact h
  | _ => exact h

theorem unaware_inZk {t : String} {p : Int} {s : Staff δ} (h : Unaware t p s) (ok : Bool) (ev : GEv)
    (ha : ∀ i d, ev = .add i d → ¬ Lists d t p) : Unaware t p (s.inZk ok ev) := by
  refine ⟨agrees_inZk h.agrees ok ev, items_without ok h.items ha, fun i => ?_⟩
  show Without t p ((s.group.step ok ev).mate i).alloc
  rcases step_alloc ok s.group ev i with h1 | ⟨n, h1, h2⟩
  · rw [h1]; exact h.allocs i
  · rw [h1]
    exact without_notify (h.allocs i) n fun l hl => by rw [h2 l hl]; exact h.items

theorem unaware_step {t : String} {p : Int} {s : Staff δ} (h : Unaware t p s) (ok : Bool) (gcfg : GCfg)
    (cfg : CCfg β δ) (ev : StaffEv β) (ho : ¬ Offers t p ev) :
    Unaware t p (s.step ok gcfg cfg ev).2 ∧
      ∀ x, (s.step ok gcfg cfg ev).1 = some x → ¬ AsksAbout t p x.2 := by
  cases ev with
  | group ev =>
    refine ⟨unaware_inZk h ok ev ?_, by simp [Staff.step]⟩
    rintro i d rfl
    exact ho
  | heals i cl =>
    exact ⟨⟨agrees_step h.agrees ok gcfg cfg (.heals i cl), h.items, h.allocs⟩, by simp [Staff.step]⟩
  | connects i cl co =>
    refine ⟨?_, by simp [Staff.step]⟩
    refine unaware_inZk (unaware_inZk (s := ⟨s.group, _⟩) ⟨agrees_upd h.agrees i
      (((s.client i).informed cl).coordinatedBy co) rfl, h.items, h.allocs⟩ ok _ (by simp)) ok _ ?_
    rintro i d ⟨⟩
    exact ho
  | client i ev =>
    have hag := agrees_step h.agrees ok gcfg cfg (.client i ev)
    rcases client_step ok gcfg cfg s i ev with he | ⟨hne, he⟩
    · rw [he]; exact ⟨h, by simp⟩
    · rw [he] at hag ⊢
      refine ⟨⟨hag, h.items, h.allocs⟩, ?_⟩
      rintro x ⟨⟩ hx
      have := (sticks_step gcfg cfg (s.client i) ev hne).2 t p hx
      have hg : mine (s.client i) t = givenBy (s.group.mate i).alloc t := h.agrees i t
      rw [hg] at this
      exact (h.allocs i).given this

theorem unaware_run {t : String} {p : Int} (ok : Bool) (gcfg : GCfg) (cfg : CCfg β δ) :
    ∀ (evs : List (StaffEv β)) (s : Staff δ), Unaware t p s → (∀ ev ∈ evs, ¬ Offers t p ev) →
    ∀ x ∈ (s.run ok gcfg cfg evs).1, ¬ AsksAbout t p x.2
  | [], _, _, _, x, hx => by cases hx
  | ev :: evs, s, h, ho, x, hx => by
    obtain ⟨h1, h2⟩ := unaware_step h ok gcfg cfg ev (ho ev (List.mem_cons_self ..))
    rcases List.mem_append.1 hx with hx | hx
    · exact h2 x (Option.mem_toList.1 hx)
    · exact unaware_run ok gcfg cfg evs _ h1 (fun e he => ho e (List.mem_cons_of_mem _ he)) x hx

/-- **C136**, what happens instead: whatever happens in a group, whatever metadata its consumers get,
whatever they are told and however they are answered, as long as no consumer connects and finds the
partition, and the application does not add it itself, nobody ever asks for its messages. -/
theorem C136_never (ok : Bool) (gcfg : GCfg) (cfg : CCfg β δ) (name : Nat → String) (sess : Nat → Int)
    (evs : List (StaffEv β)) (t : String) (p : Int) (h : ∀ ev ∈ evs, ¬ Offers t p ev) :
    ∀ x ∈ ((Staff.new name sess).run ok gcfg cfg evs).1, ¬ AsksAbout t p x.2 :=
  unaware_run ok gcfg cfg evs _ ⟨agrees_new name sess, fun _ hx => absurd hx List.not_mem_nil,
    fun _ => ⟨fun _ hx => absurd hx List.not_mem_nil, fun hx => absurd hx List.not_mem_nil⟩⟩ h

/-- **C136**, even a weak form of it: once a consumer of the group has metadata that lists a
partition, things can go so that the partition is consumed, without a consumer being connected anew,
or the application adding the partition. -/
def TakenUp (β δ : Type) : Prop :=
  ∀ (ok : Bool) (gcfg : GCfg) (cfg : CCfg β δ) (name : Nat → String) (sess : Nat → Int)
    (evs : List (StaffEv β)) (t : String) (p : Int) (i : Nat),
    (∀ ev ∈ evs, ¬ Offers t p ev) →
    Joined ((Staff.new name sess).run ok gcfg cfg evs).2.group i →
    Lists (((Staff.new name sess).run ok gcfg cfg evs).2.client i).group.base.consumer.cluster.topics t p →
    ∃ more : List (StaffEv β), (∀ ev ∈ more, ¬ Offers t p ev) ∧
      ∃ x ∈ ((Staff.new name sess).run ok gcfg cfg (evs ++ more)).1, AsksAbout t p x.2

/-! ### Consumers that connect anew -/

theorem run_group (ok : Bool) (gcfg : GCfg) (cfg : CCfg β δ) : ∀ (evs : List (StaffEv β)) (s : Staff δ),
    (s.run ok gcfg cfg evs).2.group = s.group.run ok (evs.flatMap inZookeeper)
  | [], _ => rfl
  | ev :: evs, s => by
    have ih := run_group ok gcfg cfg evs (s.step ok gcfg cfg ev).2
    rw [List.flatMap_cons, grun_append]
    refine ih.trans (congrArg (Group.run ok _) ?_)
    cases ev with
    | client i ev =>
      rcases client_step ok gcfg cfg s i ev with he | ⟨_, he⟩ <;> rw [he] <;> rfl
    | _ => rfl

theorem own_consumes {s : Staff δ} (h : Agrees s) (i : Nat) (t : String) (p : Int) :
    p ∈ own s i t ↔ Consumes s.group i t p := by
  rw [h i t]
  constructor
  · intro hp
    cases ha : (s.group.mate i).alloc.allocation.1 with
    | ok a => exact ⟨a, ha, by rw [allocation_given ha]; exact hp⟩
    | error e => rw [given_error ha] at hp; cases hp
  · rintro ⟨a, ha, hp⟩
    rw [allocation_given ha] at hp
    exact hp

/-- **C136**, for partitions that a consumer finds when it connects (on Python 2): after whatever has
happened before, and once all consumers in the group have been told who and what there is, exactly
one of them takes the partition for its own.  Missing from the full claim: partitions that no
consumer finds when it connects (`C136_never`), and Python 3. -/
theorem C136_connects_partial (gcfg : GCfg) (cfg : CCfg β δ) (name : Nat → String) (sess : Nat → Int)
    (hname : ∀ i j, name i = name j → i = j) (before after : List (StaffEv β)) (j : Nat) (cl : Cluster)
    (co : Option Int) (t : String) (p : Int)
    (hplain : PlainAdds ((before ++ [StaffEv.connects j cl co]).flatMap inZookeeper))
    (hl : Lists cl.topics t p)
    (s s' : Staff δ) (hs : s = ((Staff.new name sess).run true gcfg cfg before).2)
    (hs' : s' = ((Staff.new name sess).run true gcfg cfg (before ++ .connects j cl co :: after)).2)
    (hconn : (s.group.mate j).connected = true) (hlive : (s.group.mate j).sess ∉ s.group.zk.expired)
    (hafter : OnlyTold (after.flatMap inZookeeper))
    (hall : ∀ i, Joined s'.group i → StaffEv.group (.seesMembers i) ∈ after ∧
      StaffEv.group (.seesItems i) ∈ after) :
    ∃ i, Joined s'.group i ∧ p ∈ own s' i t ∧
      ∀ k, Joined s'.group k → p ∈ own s' k t → k = i := by
  have hag : Agrees s' := by rw [hs']; exact agrees_run true gcfg cfg _ _ (agrees_new name sess)
  let B := (before ++ [StaffEv.connects j cl co]).flatMap (inZookeeper (β := β))
  have hB : B = before.flatMap inZookeeper ++ [.join j, .add j cl.topics] := by
    simp [B, inZookeeper]
  have h1 : s.group = (Group.new name sess).run true (before.flatMap inZookeeper) := by
    rw [hs, run_group]; rfl
  have h3 : s'.group = ((Group.new name sess).run true B).run true (after.flatMap inZookeeper) := by
    rw [hs', run_group, ← grun_append, ← List.flatMap_append]
    simp [Staff.new]
  have h2 : (Group.new name sess).run true B = (s.group.step true (.join j)).step true (.add j cl.topics) := by
    rw [hB, grun_append, ← h1]; rfl
  have hj : ∀ i, Joined s'.group i ↔ Joined ((Group.new name sess).run true B) i := by
    intro i
    unfold Joined
    rw [h3, run_name, (onlyTold_run true _ hafter _).1]
  obtain ⟨ids, hids, hp⟩ := hl
  have ht : PlainName t := hplain j cl.topics (by
    show GEv.add j cl.topics ∈ B
    rw [hB]
    simp) (t, ids) hids
  have hjoin : Joined ((Group.new name sess).run true B) j := by
    unfold Joined
    rw [h2, step_name, step_name, step_nodes, step_nodes]
    simp only [(join_event _ _ s.group.zk _).2, hlive, not_false_eq_true, and_self, if_true,
      Option.isSome_some]
  have hin : InGroup ((Group.new name sess).run true B) t p := by
    unfold InGroup
    rw [h2]
    have hc : ((s.group.step true (.join j)).mate j).connected = true := hconn
    obtain ⟨new, w, h4, h5⟩ := C61_add_partial cl.topics (s.group.step true (.join j)).items
    simp only [Group.step] at hc h4 ⊢
    simp only [if_pos hc, h4]
    have : item (t, p) ∈ elements new := by
      rw [h5]
      exact .inr ⟨t, ids, p, hids, hp, rfl⟩
    exact this
  obtain ⟨i, h4, h5, h6⟩ := C82_settles true name sess hname B (after.flatMap inZookeeper) hplain hafter
    _ s'.group rfl h3 (fun i hi => by
      obtain ⟨k1, k2⟩ := hall i ((hj i).2 hi)
      exact ⟨List.mem_flatMap.2 ⟨_, k1, List.mem_singleton.2 rfl⟩,
        List.mem_flatMap.2 ⟨_, k2, List.mem_singleton.2 rfl⟩⟩) ⟨j, hjoin⟩ t p ht hin
  exact ⟨i, (hj i).2 h4, (own_consumes hag i t p).2 h5, fun k hk hp =>
    h6 k ((hj k).1 hk) ((own_consumes hag k t p).1 hp)⟩

/-- **C136**, for partitions that a consumer takes for its own: if it has offsets of the topic, and
all leaders are known, connected, and can be written to, calling `consume` asks for them. -/
theorem C136_asks_partial (ok : Bool) (gcfg : GCfg) (cfg : CCfg β δ) (s : Staff δ) (i k : Nat) (t : String)
    (p : Int) (hp : p ∈ own s i t) (c : Grouped) (hc : c = (s.client i).group.base.consumer)
    (hcl : c.closing = false) (hs : t ∈ c.synced)
    (hl : ∀ q ∈ own s i t, ∃ l, leaderOf c.cluster t q = some l ∧ c.cluster.conns.has l = true ∧
      cfg.write k "fetch" l = .none) :
    ∃ out, (s.step ok gcfg cfg (.client i (.call k t))).1 = some (i, out) ∧
      ∀ q ∈ own s i t, AsksAbout t q out := by
  subst hc
  have he : s.step ok gcfg cfg (.client i (.call k t)) = (some (i, ((s.client i).step gcfg cfg (.call k t)).1),
      { s with client := upd s.client i ((s.client i).step gcfg cfg (.call k t)).2 }) := rfl
  refine ⟨_, by rw [he], fun q hq => ?_⟩
  obtain ⟨a, ha, hal⟩ : ∃ a, (s.client i).group.base.consumer.ext.mapping = some a ∧
      allocated a t = some (own s i t) := by
    unfold own at hp ⊢
    cases hm : (s.client i).group.base.consumer.ext.mapping with
    | none => rw [hm] at hp; cases hp
    | some a =>
      rw [hm] at hp
      refine ⟨a, rfl, allocated_some.2 ⟨?_, List.ne_nil_of_mem hp⟩⟩
      cases hg : a.get? t with
      | none => simp [hg] at hp
      | some ps => simp [hg]
  have hall : Grouped.allocation (s.client i).group.base.consumer = .ok a := by
    unfold Grouped.allocation; rw [ha]
  have hst : (s.client i).step gcfg cfg (.call k t) = (s.client i).fetch cfg k t (own s i t) := by
    simp only [GroupFirst.step, hcl, Bool.false_eq_true, if_false, hs, if_true, GroupFirst.proceed, hall, hal]
  rw [hst]
  unfold GroupFirst.fetch
  cases hf : (s.client i).group.base.consumer.fetches cfg t (own s i t) with
  | mk res c =>
    obtain ⟨h1, _, _, _, _, _, h3, h4, _⟩ := fetches_spec cfg t _ _ c res hf
    obtain ⟨reqs, rfl⟩ := h4 fun q hq => by
      obtain ⟨l, hl, _⟩ := hl q hq
      simp [hl]
    have hx := h3 reqs rfl
    have hb : ∀ r ∈ reqs, ∃ q ∈ own s i t,
        leaderOf (s.client i).group.base.consumer.cluster t q = some r.broker := by
      intro r hr
      obtain ⟨f, hf⟩ := List.exists_mem_of_ne_nil _ (hx.nonempty r hr)
      have hm : f.id ∈ r.parts.map (·.id) := List.mem_map.2 ⟨f, hf, rfl⟩
      rw [hx.named r hr, List.mem_filter] at hm
      exact ⟨f.id, hm.1, by simpa using hm.2⟩
    have hsend : sendStart (fun l => c.cluster.conns.has l) (cfg.write k "fetch") (reqs.map (·.broker)) =
        .none := by
      refine sendStart_ok _ _ _ ?_ ?_
      · intro b hb'
        obtain ⟨r, hr, rfl⟩ := List.mem_map.1 hb'
        obtain ⟨q, hq, hlead⟩ := hb r hr
        obtain ⟨l, k1, k2, _⟩ := hl q hq
        rw [hlead] at k1
        cases k1
        rw [h1.conns]
        exact k2
      · intro b hb'
        obtain ⟨r, hr, rfl⟩ := List.mem_map.1 hb'
        obtain ⟨q, hq, hlead⟩ := hb r hr
        obtain ⟨l, k1, _, k3⟩ := hl q hq
        rw [hlead] at k1
        cases k1
        exact k3
    dsimp only
    rw [hsend]
    obtain ⟨r, hr, hlead⟩ := hx.all q hq
    refine ⟨reqs, rfl, r, hr, (hx.topics r hr).1, ?_⟩
    have hm : q ∈ r.parts.map (·.id) := by
      rw [hx.named r hr, List.mem_filter]
      exact ⟨hq, by simpa using hlead⟩
    obtain ⟨f, hf1, hf2⟩ := List.mem_map.1 hm
    exact ⟨f, hf1, hf2⟩

/-- What a consumer has, of what `connect()` has set. -/
def Equipped (cl : Cluster) (co : Option Int) (closing : Bool) (c : Grouped) : Prop :=
  c.cluster = cl ∧ c.ext.coordinator = co ∧ c.closing = closing

theorem equipped_inZk {cl : Cluster} {co : Option Int} {b : Bool} {s : Staff δ} {i : Nat}
    (h : Equipped cl co b (s.client i).group.base.consumer) (ok : Bool) (ev : GEv) :
    Equipped cl co b ((s.inZk ok ev).client i).group.base.consumer := by
  simp only [Staff.inZk, GroupFirst.allocatedBy]
  split
  · exact h
  · exact h

theorem equipped_told {cl : Cluster} {co : Option Int} {b : Bool} (ok : Bool) (gcfg : GCfg)
    (cfg : CCfg β δ) (i : Nat) (told : List GEv) : ∀ s : Staff δ,
    Equipped cl co b (s.client i).group.base.consumer →
    Equipped cl co b ((s.run ok gcfg cfg (told.map StaffEv.group)).2.client i).group.base.consumer := by
  induction told with
  | nil => exact fun s h => h
  | cons ev told ih => exact fun s h => ih _ (equipped_inZk h ok ev)

/-- **C136**, for partitions that a consumer takes for its own once it has connected and been told
who and what there is, and of whose topic it has no offsets yet: calling `consume` asks the
coordinator that `connect` has found for the offsets of all of them, if it can be written to. -/
theorem C136_begins_partial (ok : Bool) (gcfg : GCfg) (cfg : CCfg β δ) (s s' : Staff δ) (i k : Nat)
    (cl : Cluster) (b : Int) (told : List GEv)
    (hs' : s' = (s.run ok gcfg cfg (.connects i cl (some b) :: told.map StaffEv.group)).2)
    (hcl : (s.client i).group.base.consumer.closing = false) (hb : cl.conns.has b = true)
    (hw : cfg.write k "offset_fetch" b = .none) (t : String) (p : Int) (hp : p ∈ own s' i t)
    (hs : t ∉ (s'.client i).group.base.consumer.synced) :
    (s'.step ok gcfg cfg (.client i (.call k t))).1 = some (i, .wanted b t (own s' i t)) := by
  have he : Equipped cl (some b) false (s'.client i).group.base.consumer := by
    rw [hs']
    refine equipped_told ok gcfg cfg i told _ (equipped_inZk (equipped_inZk ?_ ok _) ok _)
    simp only [upd, if_true]
    exact ⟨rfl, rfl, hcl⟩
  obtain ⟨h1, h2, h3⟩ := he
  have hstep : (s'.step ok gcfg cfg (.client i (.call k t))).1 =
      some (i, ((s'.client i).step gcfg cfg (.call k t)).1) := rfl
  rw [hstep]
  unfold own at hp ⊢
  cases hm : (s'.client i).group.base.consumer.ext.mapping with
  | none => rw [hm] at hp; cases hp
  | some a =>
    rw [hm] at hp
    cases hg : a.get? t with
    | none => simp [hg] at hp
    | some ps =>
      have hh : a.has t = true := by simp [Dict.has, hg]
      simp only [GroupFirst.step, h3, Bool.false_eq_true, if_false, hs, GroupFirst.determine, hm, hh,
        Dict.getDefault, hg, GroupFirst.want, h1, h2, hb, hw]
      simp

/-! ### Not vacuous, and false -/

/-- The metadata once topic t has a second partition. -/
def exSplit : Cluster := ⟨[(7, ⟨"h", 9092, false⟩)], [("t", [0, 1])], [("t", [(0, 7), (1, 7)])]⟩

/-- Consumer 1 connects, and is told that it is alone. -/
def exHired : List (StaffEv Nat) :=
  [.group (.state 1 .connected), .connects 1 exCCluster (some 7), .group (.seesMembers 1),
    .group (.seesItems 1)]

/-- Then it gets metadata that list partition 1 of t, and consumes t. -/
def exLater : List (StaffEv Nat) :=
  [.heals 1 exSplit, .client 1 (.call 0 "t"), .client 1 (.offsets 0 ⟨[("t", [⟨0, 5, 0⟩])]⟩),
    .client 1 (.goOn 0)]

theorem exLater_offers : ∀ ev ∈ exHired ++ exLater, ¬ Offers "t" 1 ev := by
  simp [exHired, exLater, Offers, Lists, exCCluster]

/-- **C136** is false: consumer 1 has metadata that list partition 1 of topic t, and consumes
partition 0 of it only, whatever happens next (`C136_never`). -/
theorem C136_false : ¬ TakenUp Nat Nat := by
  intro h
  obtain ⟨more, h1, x, hx, ha⟩ := h true exManual exCCfg exNames (fun i => 10 + i) (exHired ++ exLater)
    "t" 1 1 exLater_offers (by unfold Joined; decide +kernel) ⟨[0, 1], by decide +kernel, by decide⟩
  refine C136_never true exManual exCCfg exNames (fun i => 10 + i) _ "t" 1 (fun ev he => ?_) x hx ha
  rcases List.mem_append.1 he with he | he
  · exact exLater_offers ev he
  · exact h1 ev he

-- `C136_never`: what is seen of that is a request for the offset of partition 0, and one for its
-- messages.
example : ((Staff.new exNames (fun i => 10 + i)).run true exManual exCCfg (exHired ++ exLater)).1 =
    [(1, .wanted 7 "t" [0]), (1, .group .nothing), (1, .group (.sent [⟨7, 1000, 1, "t", [⟨0, 5, 100⟩]⟩]))] := by
  decide +kernel

/-- All are told what there is. -/
def exAllTold : List (StaffEv Nat) :=
  [.group (.seesMembers 1), .group (.seesMembers 2), .group (.seesItems 2), .group (.seesItems 1)]

-- `C136_connects_partial`: consumer 2 connects, and partition 1 is its own.
example (s s' : Staff Nat)
    (hs : s = ((Staff.new exNames (fun i => 10 + i)).run true exManual exCCfg
      (exHired ++ exLater ++ [.group (.state 2 .connected)])).2)
    (hs' : s' = ((Staff.new exNames (fun i => 10 + i)).run true exManual exCCfg
      (exHired ++ exLater ++ [.group (.state 2 .connected)] ++ .connects 2 exSplit (some 7) :: exAllTold)).2) :
    (s.group.mate 2).connected = true ∧ (s.group.mate 2).sess ∉ s.group.zk.expired ∧
    OnlyTold (exAllTold.flatMap inZookeeper) ∧
    PlainAdds ((exHired ++ exLater ++ [StaffEv.group (.state 2 .connected)] ++
      [StaffEv.connects 2 exSplit (some 7)]).flatMap inZookeeper) ∧
    s'.group.zk.nodes.keys = ["a", "aa"] ∧ own s' 1 "t" = [0] ∧ own s' 2 "t" = [1] := by
  subst hs hs'
  refine ⟨by decide +kernel, by decide +kernel, ?_, ?_, by decide +kernel, by decide +kernel, by decide +kernel⟩
  · simp [OnlyTold, exAllTold, inZookeeper]
  · simp [PlainAdds, exHired, exLater, inZookeeper, exCCluster, exSplit]
    rintro i d (⟨_, rfl⟩ | ⟨_, rfl⟩) a b hb
    all_goals
      simp only [List.mem_singleton, Prod.mk.injEq] at hb
      rw [hb.1]
      decide

-- `C136_asks_partial`: consumer 2 consumes it.
example (s : Staff Nat)
    (hs : s = ((Staff.new exNames (fun i => 10 + i)).run true exManual exCCfg
      (exHired ++ exLater ++ [.group (.state 2 .connected)] ++ .connects 2 exSplit (some 7) :: exAllTold ++
        [.client 2 (.call 0 "t"), .client 2 (.offsets 0 ⟨[("t", [⟨1, 3, 0⟩])]⟩), .client 2 (.goOn 0)])).2) :
    1 ∈ own s 2 "t" ∧ (s.client 2).group.base.consumer.closing = false ∧
    "t" ∈ (s.client 2).group.base.consumer.synced ∧
    leaderOf (s.client 2).group.base.consumer.cluster "t" 1 = some 7 ∧
    (s.step true exManual exCCfg (.client 2 (.call 1 "t"))).1 =
      some (2, .group (.sent [⟨7, 1000, 1, "t", [⟨1, 3, 100⟩]⟩])) := by
  subst hs
  decide +kernel

-- Non-vacuity of `C136_begins_partial`: partition 0 of t, once consumer 1 has been told that it is alone.
example : ((((Staff.new exNames (fun i => 10 + i)).run true exManual exCCfg exHired).2.step true exManual exCCfg
    (.client 1 (.call 0 "t"))).1 : Option (Nat × FirstGroupOut Nat)) = some (1, .wanted 7 "t" [0]) :=
  C136_begins_partial true exManual exCCfg
    ((Staff.new exNames (fun i => 10 + i)).run true exManual exCCfg [.group (.state 1 .connected)]).2 _ 1 0
    exCCluster 7 [.seesMembers 1, .seesItems 1] rfl (by decide +kernel) (by decide +kernel) (by decide +kernel)
    "t" 0 (by decide +kernel) (by decide +kernel)

end Kiel
