import Verif.Props.Commit
/-
C122: consuming a topic of which the consumer was given no partitions.
-/
set_option autoImplicit false
namespace Kiel
open Spec

variable {β δ : Type}

/-! ### What is claimed -/

/-- The consumer is ready, and its request for the group's offsets of `topic`, of which it has been
given no partitions, is answered by naming the topic alone.  Brokers can be reached, and rebalances
are not under way. -/
structure Spec.AllIsWell (env : GroupEnv β) (c : Grouped) (a : Dict String (List Int))
    (topic : String) : Prop where
  open' : c.closing = false
  coordinator : ∃ b, c.ext.coordinator = some b ∧ c.cluster.conns.has b = true
  share : c.ext.mapping = some a
  none : (a.get? topic).getD [] = []
  answer : ∃ more, (env.offsets 0).outcome = .ok ⟨(topic, []) :: more⟩
  sent : (env.offsets 0).write = .none
  heals : HealsWell (env.offsets 0) ∧ ∀ cl, (env.base.heal cl).1 = .ok ()
  still : ∀ n c, env.base.tick n c = c

/-- C122, for consumers that leave committing to the application. -/
def Spec.NoShareNoMessages : Prop :=
  ∀ (gcfg : GCfg) (cfg : CCfg Nat Nat) (env : GroupEnv Nat) (fuel : Nat) (topic : String) (c : Grouped)
    (a : Dict String (List Int)), AllIsWell env c a topic → gcfg.autocommit = false →
    (c.consume gcfg cfg env (fuel + 1) topic).1 = .done (some [])

/-! ### Lemmas -/

theorem allocated_nothing {a : Dict String (List Int)} {topic : String}
    (h : (a.get? topic).getD [] = []) : allocated a topic = .none := by
  unfold allocated
  cases hg : a.get? topic with
  | none => rfl
  | some l => rw [hg] at h; simp only [Option.getD_some] at h; subst h; rfl

/-- Without a share nothing is fetched. -/
theorem nothing_synced (cfg : CCfg β δ) (env : ConsumeEnv GExt β) (topic : String) (c : Grouped)
    (ht : ∀ n c, env.tick n c = c) (h : shareOf c topic = []) :
    (∀ out, (c.consumeSynced Grouped.allocation cfg env topic).1 = .ok out → out = some []) ∧
    (c.consumeSynced Grouped.allocation cfg env topic).2.2.length ≤ 1 ∧
    ∀ x ∈ (c.consumeSynced Grouped.allocation cfg env topic).2.2, x = .heal := by
  unfold Consumer.consumeSynced Grouped.allocation
  unfold shareOf at h
  cases hm : c.ext.mapping with
  | none => simp
  | some a =>
    rw [hm] at h
    simp only [allocated_nothing h]
    cases hh : env.heal c.cluster with
    | mk r cl => cases r <;> simp [ht, hm, allocated_nothing h]

/-! ### C122 -/

/-- **C122**: whatever becomes of its requests, and whichever allocator is used, a `consume` of a
topic of which the consumer has no partitions fetches nothing, and returns no messages (a consumer
that is closing returns nothing at all). -/
theorem C122_nothing (gcfg : GCfg) (cfg : CCfg β δ) (env : GroupEnv β) (fuel : Nat) (topic : String)
    (c : Grouped) (ht : ∀ n c, env.base.tick n c = c) (h : shareOf c topic = []) :
    (∀ reqs, CAct.fetch reqs ∉ (c.consume gcfg cfg env fuel topic).2.2.1) ∧
    ∀ out, (c.consume gcfg cfg env fuel topic).1 = .done out →
      out = if c.closing = true ∧ topic ∈ c.synced then .none else some [] := by
  have hdet : shareOf (c.determine cfg.plain env.offsets fuel topic).2.1 topic = [] := by
    refine determine_inv fuel topic c (fun c' => shareOf c' topic = []) (fun _ _ _ h => h) ?_ ?_ h
    · intro c' a ha hc'
      simp only [shareOf, ha] at hc' ⊢
      rw [getDefault_getD]
      exact hc'
    · intro n r _ c' hc'
      have he := (offsetFetch_any r c' (handleOffsetFetchResponse r c').2
        (handleOffsetFetchResponse r c').1 rfl).1
      rw [← hc']
      simp only [shareOf, he]
  have hbase : ∀ bres cb acts, Consumer.consume Grouped.allocation
      (Grouped.determineRes cfg.plain env.offsets fuel topic) cfg env.base topic c = (bres, cb, acts) →
      (∀ reqs, CAct.fetch reqs ∉ acts) ∧
      ∀ out, bres = .ok out → topic ∈ cb.synced → out = if c.closing = true then .none else some [] := by
    intro bres cb acts hb
    unfold Consumer.consume at hb
    split at hb
    · rename_i hcl
      cases hb
      exact ⟨by simp, fun out h1 _ => by cases h1; simp [hcl]⟩
    · rename_i hcl
      rw [if_neg hcl]
      split at hb
      · obtain ⟨h1, _, h2⟩ := nothing_synced cfg env.base topic c ht h
        rw [hb] at h1 h2
        refine ⟨fun reqs hr => ?_, fun out ho _ => h1 out ho⟩
        have := h2 _ hr
        cases this
      · rename_i hs
        split at hb
        · cases hb
          exact ⟨by simp, fun out ho _ => by cases ho; rfl⟩
        · cases hb
          exact ⟨by simp, fun out ho => by cases ho⟩
        · rename_i c1 hd
          simp only [Grouped.determineRes, Prod.mk.injEq] at hd
          simp only [ht] at hb
          have hc1 : shareOf c1 topic = [] := by rw [← hd.2]; exact hdet
          obtain ⟨h1, _, h2⟩ := nothing_synced cfg env.base topic
            { c1 with synced := addSet c1.synced topic } ht hc1
          generalize hx : Consumer.consumeSynced Grouped.allocation cfg env.base topic
            { c1 with synced := addSet c1.synced topic } = x at hb h1 h2
          obtain ⟨r, c2, acts2⟩ := x
          cases hb
          refine ⟨fun reqs hr => ?_, fun out ho _ => h1 out ho⟩
          rcases List.mem_cons.1 hr with hr | hr
          · cases hr
          · have := h2 _ hr
            cases this
  rcases gconsume_cases gcfg cfg env fuel topic c with ⟨_, _, _, h1⟩ | ⟨bres, cb, acts, hb, hcase⟩
  · rw [h1]
    exact ⟨by simp, fun out ho => by cases ho⟩
  · obtain ⟨g1, g2⟩ := hbase _ _ _ hb
    have hcs : c.closing = true → cb.synced = c.synced := by
      intro hcl
      simp only [Consumer.consume, hcl, if_true, Prod.mk.injEq] at hb
      rw [← hb.2.1]
    have hout : ∀ out, bres = .ok out → topic ∈ cb.synced →
        out = if c.closing = true ∧ topic ∈ c.synced then .none else some [] := by
      intro out ho hs
      rw [g2 out ho hs]
      cases hcl : c.closing with
      | false => simp
      | true =>
        rw [hcs hcl] at hs
        simp [hs]
    have hleft : topic ∉ cb.synced →
        some [] = if c.closing = true ∧ topic ∈ c.synced then .none else some ([] : List δ) := by
      intro hs
      rw [if_neg]
      rintro ⟨h1, h2⟩
      rw [hcs h1] at hs
      exact hs h2
    rcases hcase with ⟨e, _, h1⟩ | ⟨r, _, hs, h1⟩ | ⟨r, hr, hs, _, h1⟩ | ⟨r, cr, hr, hs, _, _, h1, h2⟩
    · rw [h1]; exact ⟨g1, fun out ho => by cases ho⟩
    · rw [h1]; exact ⟨g1, fun out ho => by cases ho; exact hleft hs⟩
    · rw [h1]; exact ⟨g1, fun out ho => by cases ho; exact hout _ hr hs⟩
    · rw [h1]
      refine ⟨g1, fun out ho => ?_⟩
      rcases h2 with ⟨_, h2⟩ | ⟨e, _, h2⟩ | ⟨_, h2⟩
      · rw [h2] at ho
        cases ho
        exact hout _ hr hs
      · rw [h2] at ho; cases ho
      · rw [h2] at ho; cases ho

/-- **C122**, partial: a consumer that is ready returns no messages, without raising, of a topic of
which it has no partitions, having asked for the group's offsets once and reloaded the metadata; if
the topic is listed in its share, or else if the dictionary of its share adds what it is asked for, as that of
the default allocator does.  Missing: other allocators (`C122_raises`). -/
theorem C122_default_partial (gcfg : GCfg) (cfg : CCfg β δ) (env : GroupEnv β) (fuel : Nat)
    (topic : String) (c : Grouped) (a : Dict String (List Int)) (h : AllIsWell env c a topic)
    (hk : Known cfg.plain a topic) (hauto : gcfg.autocommit = false) :
    (c.consume gcfg cfg env (fuel + 1) topic).1 = .done (some []) ∧
    (c.consume gcfg cfg env (fuel + 1) topic).2.2 =
      (if topic ∈ c.synced then [.heal] else [.determine, .heal], []) ∧
    topic ∈ (c.consume gcfg cfg env (fuel + 1) topic).2.1.synced := by
  obtain ⟨h1, ⟨b, hb, hc⟩, h3, h4, ⟨more, h5⟩, h6, ⟨h7, h8⟩, h9⟩ := h
  have hsy : ∀ (c' : Grouped) a', c'.ext.mapping = some a' → (a'.get? topic).getD [] = [] →
      c'.consumeSynced Grouped.allocation cfg env.base topic =
        (.ok (some []), { c' with cluster := (env.base.heal c'.cluster).2 }, [.heal]) := by
    intro c' a' ha hn
    unfold Consumer.consumeSynced Grouped.allocation
    simp only [ha, allocated_nothing hn]
    have := h8 c'.cluster
    cases hh : env.base.heal c'.cluster with
    | mk r cl =>
      rw [hh] at this
      cases this
      simp [h9, ha, allocated_nothing hn]
  by_cases hs : topic ∈ c.synced
  · unfold Grouped.consume
    simp only [h1, hs, not_true_eq_false, false_and, and_false, if_false, Consumer.consume,
      Bool.false_eq_true, if_true, hsy c a h3 h4, hauto]
    exact ⟨trivial, trivial, trivial⟩
  · have hd : ∃ cl, c.determine cfg.plain env.offsets (fuel + 1) topic = (.done (),
        { c with cluster := cl, heal := false, ext := { c.ext with mapping := some (Dict.getDefault a topic []).1 } },
        some []) := by
      obtain ⟨cl, g1, _⟩ := sendTo_ok (hs := offsetFetchHandlers) (env := env.offsets 0) (b := b)
        (c := ⟨c.cluster, c.offsets, c.synced, c.heal, c.closing,
          ⟨some b, c.ext.toCommit, some (Dict.getDefault a topic []).1⟩⟩)
        ⟨hc, h6⟩ h5 rfl rfl h7
      refine ⟨cl, ?_⟩
      have hp : (Dict.getDefault a topic []).2 = [] := by rw [getDefault_val]; exact h4
      simp only [Grouped.determine, h3, if_neg (known_not hk), Grouped.determineLoop,
        Grouped.sendCoordinator, hb, g1, hp]
    obtain ⟨cl, hd⟩ := hd
    have hsyn : topic ∈ addSet c.synced topic := by
      unfold addSet
      split
      · assumption
      · simp
    unfold Grouped.consume
    simp only [hd, reduceCtorEq, and_false, if_false, Consumer.consume, h1, hs, Bool.false_eq_true,
      Grouped.determineRes, Run.toRes, h9]
    rw [hsy _ _ rfl (by rw [getDefault_getD]; exact h4)]
    simp only [hsyn, not_true_eq_false, if_false, hauto, Bool.false_eq_true]
    exact ⟨trivial, trivial, trivial⟩

/-- **C122**, false of an allocator that returns dictionaries as documented: whatever happens
outside, the first `consume` of a topic that is not in the consumer's share raises a `KeyError`
before anything is sent, and leaves the consumer as it is, so that all others do as well. -/
theorem C122_raises (gcfg : GCfg) (cfg : CCfg β δ) (env : GroupEnv β) (fuel : Nat) (topic : String)
    (c : Grouped) (a : Dict String (List Int)) (hc : c.closing = false) (hs : topic ∉ c.synced)
    (hm : c.ext.mapping = some a) (hp : cfg.plain = true) (hn : a.has topic = false) :
    c.consume gcfg cfg env fuel topic = (.raised .keyError, env.base.tick 0 c, [.determine], []) ∧
    (c.determine cfg.plain env.offsets fuel topic).2.2 = .none := by
  have hd : c.determine cfg.plain env.offsets fuel topic = (.raised .keyError, c, .none) := by
    simp only [Grouped.determine, hm, hp, hn, and_self, if_true]
  refine ⟨?_, by rw [hd]⟩
  unfold Grouped.consume
  simp [Consumer.consume, hc, hs, Grouped.determineRes, hd, Run.toRes]

/-- **C122**, false: broker 8 is the coordinator, and the share, a plain dictionary, has topics A and
B. -/
theorem C122_false : ¬ NoShareNoMessages := by
  intro h
  have := h exManual { exCCfg with plain := true } ⟨exOF "C" [] 0, exFetch 0 exStill, exCommit (.ok ⟨[]⟩)⟩ 0
    "C" exGrouped [("A", [0]), ("B", [0])]
    ⟨rfl, ⟨8, rfl, by decide⟩, rfl, by decide, ⟨[], rfl⟩, rfl, ⟨exSend_well _, fun _ => rfl⟩, fun _ _ => rfl⟩
    rfl
  revert this
  decide +kernel

-- `C122_default_partial`: the same with the default allocator's dictionaries.
example : AllIsWell (β := Nat) ⟨exOF "C" [] 0, exFetch 0 exStill, exCommit (.ok ⟨[]⟩)⟩ exGrouped
      [("A", [0]), ("B", [0])] "C" ∧
    (exGrouped.consume exManual exCCfg ⟨exOF "C" [] 0, exFetch 0 exStill, exCommit (.ok ⟨[]⟩)⟩ 1 "C").1 =
      .done (some []) :=
  ⟨⟨rfl, ⟨8, rfl, by decide⟩, rfl, by decide, ⟨[], rfl⟩, rfl, ⟨exSend_well _, fun _ => rfl⟩,
    fun _ _ => rfl⟩, by decide +kernel⟩

-- `C122_nothing`: the answer lacks the topic, and `consume` raises an `IndexError`.
example : shareOf exGrouped "C" = [] ∧
    exGrouped.consume exManual exCCfg ⟨fun _ => exSend (.ok ⟨[]⟩), exFetch 0 exStill, exCommit (.ok ⟨[]⟩)⟩ 1
      "C" = (.raised .indexError,
        { exGrouped with ext := ⟨some 8, [], some [("A", [0]), ("B", [0]), ("C", [])]⟩ }, [.determine], []) := by
  decide +kernel

end Kiel
