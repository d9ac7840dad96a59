import Verif.Spec.Handover
/-
C96: no message below a committed offset is lost to the group.
-/
set_option autoImplicit false
namespace Kiel
open Spec

variable {ε β δ : Type}

/-- The ways `BaseConsumer.consume` can go. -/
theorem consume_parts {allocation : Consumer ε → Res (Dict String (List Int))}
    {determine : Consumer ε → Res Unit × Consumer ε} {cfg : CCfg β δ} {env : ConsumeEnv ε β}
    {topic : String} {c cb : Consumer ε} {r : Res (Option (List δ))} {acts : List CAct}
    (h : c.consume allocation determine cfg env topic = (r, cb, acts)) :
    (r = .ok .none ∧ cb = c) ∨
    (∃ e c1, topic ∉ c.synced ∧ determine c = (.error e, c1) ∧ cb = env.tick 0 c1 ∧
      (r = .ok (some []) ∨ r = .error e)) ∨
    ∃ c0, ((topic ∈ c.synced ∧ c0 = c) ∨ (∃ c1, topic ∉ c.synced ∧ determine c = (.ok (), c1) ∧
        c0 = { env.tick 0 c1 with synced := addSet (env.tick 0 c1).synced topic })) ∧
      ((cb = c0 ∧ ∃ e, r = .error e) ∨
       (∃ cl, cb = env.tick 1 { c0 with cluster := cl } ∧ (r = .ok (some []) ∨ ∃ e, r = .error e)) ∨
       ∃ ca parts acts', (ca = c0 ∨ ∃ cl, ca = env.tick 1 { c0 with cluster := cl }) ∧
         Consumer.fetch cfg env topic parts ca = (r, cb, acts') ∧ (∀ a ∈ acts', a ∈ acts) ∧
         ∃ al, allocation ca = .ok al ∧ allocated al topic = some parts) := by
  have hsync : ∀ (c0 cb : Consumer ε) (r : Res (Option (List δ))) acts,
      c0.consumeSynced allocation cfg env topic = (r, cb, acts) →
      (cb = c0 ∧ ∃ e, r = .error e) ∨
       (∃ cl, cb = env.tick 1 { c0 with cluster := cl } ∧ (r = .ok (some []) ∨ ∃ e, r = .error e)) ∨
       ∃ ca parts acts', (ca = c0 ∨ ∃ cl, ca = env.tick 1 { c0 with cluster := cl }) ∧
         Consumer.fetch cfg env topic parts ca = (r, cb, acts') ∧ (∀ a ∈ acts', a ∈ acts) ∧
         ∃ al, allocation ca = .ok al ∧ allocated al topic = some parts := by
    intro c0 cb r acts h
    unfold Consumer.consumeSynced at h
    split at h
    · rename_i e _
      simp only [Prod.mk.injEq] at h
      exact Or.inl ⟨h.2.1.symm, e, h.1.symm⟩
    · split at h
      · rename_i hal _ parts hparts
        exact Or.inr (Or.inr ⟨c0, parts, acts, Or.inl rfl, h, fun _ h => h, _, hal, hparts⟩)
      · split at h
        · rename_i e cl _
          simp only [Prod.mk.injEq] at h
          exact Or.inr (Or.inl ⟨cl, h.2.1.symm, Or.inr ⟨e, h.1.symm⟩⟩)
        · rename_i cl _
          simp only at h
          split at h
          · rename_i e _
            simp only [Prod.mk.injEq] at h
            exact Or.inr (Or.inl ⟨cl, h.2.1.symm, Or.inr ⟨e, h.1.symm⟩⟩)
          · split at h
            · simp only [Prod.mk.injEq] at h
              exact Or.inr (Or.inl ⟨cl, h.2.1.symm, Or.inl h.1.symm⟩)
            · rename_i hal _ parts hparts
              cases hf : Consumer.fetch cfg env topic parts
                (env.tick 1 { c0 with cluster := cl }) with
              | mk r' x =>
                obtain ⟨c', acts'⟩ := x
                rw [hf] at h
                simp only [Prod.mk.injEq] at h
                obtain ⟨rfl, rfl, rfl⟩ := h
                exact Or.inr (Or.inr ⟨_, parts, acts', Or.inr ⟨cl, rfl⟩, hf,
                  fun _ h => List.mem_cons_of_mem _ h, _, hal, hparts⟩)
  unfold Consumer.consume at h
  split at h
  · simp only [Prod.mk.injEq] at h
    exact Or.inl ⟨h.1.symm, h.2.1.symm⟩
  · split at h
    · rename_i hs
      exact Or.inr (Or.inr ⟨c, Or.inl ⟨hs, rfl⟩, hsync _ _ _ _ h⟩)
    · rename_i hs
      split at h
      · rename_i c1 hd
        simp only [Prod.mk.injEq] at h
        exact Or.inr (Or.inl ⟨_, c1, hs, hd, h.2.1.symm, Or.inl h.1.symm⟩)
      · rename_i e c1 _ hd
        simp only [Prod.mk.injEq] at h
        exact Or.inr (Or.inl ⟨e, c1, hs, hd, h.2.1.symm, Or.inr h.1.symm⟩)
      · rename_i c1 hd
        simp only at h
        cases hc : ({ env.tick 0 c1 with synced := addSet (env.tick 0 c1).synced topic } :
            Consumer ε).consumeSynced allocation cfg env topic with
        | mk r' x =>
          obtain ⟨c', acts'⟩ := x
          rw [hc] at h
          simp only [Prod.mk.injEq] at h
          obtain ⟨rfl, rfl, rfl⟩ := h
          refine Or.inr (Or.inr ⟨_, Or.inr ⟨c1, hs, hd, rfl⟩, ?_⟩)
          rcases hsync _ _ _ _ hc with h | h | ⟨ca, parts, acts'', h1, h2, h3, h4⟩
          · exact Or.inl h
          · exact Or.inr (Or.inl h)
          · exact Or.inr (Or.inr ⟨ca, parts, acts'', h1, h2,
              fun a ha => List.mem_cons_of_mem _ (h3 a ha), h4⟩)

theorem allReturned_mono {cfg : CCfg β δ} {logs : String → Int → List (Int × β)}
    {base : String → Int → Int} {returned more : List (String × δ)} {t : String} {p o : Int}
    (h : AllReturned cfg logs base returned t p o) :
    AllReturned cfg logs base (returned ++ more) t p o :=
  fun m hm h1 h2 d hd ht => List.mem_append_left _ (h m hm h1 h2 d hd ht)

/-- What a fetch moves an offset over has been returned by it. -/
theorem fetch_returned {cfg : CCfg β δ} {logs : String → Int → List (Int × β)}
    (hl : ∀ t p, IsLog (logs t p)) {base : String → Int → Int} {returned : List (String × δ)}
    {env : ConsumeEnv ε β} (hh : HonestFetch WideBatch logs env) {c : Consumer ε} {topic : String}
    {parts : List Int} {reqs : List FReq} (hf : FetchesExactly cfg c topic parts reqs)
    {t : String} {p : Int} (h : AllReturned cfg logs base returned t p (offsetOf c.offsets t p)) :
    AllReturned cfg logs base (returned ++
      ((values cfg (fetched (allAnswers (env.outcomes reqs)))).filter cfg.truthy).map
        fun d => (topic, d)) t p
      (after cfg (fetchedFor (allAnswers (env.outcomes reqs)) t p) (offsetOf c.offsets t p)) := by
  intro m hm h1 h2 d hd htr
  by_cases hlt : m.1 < offsetOf c.offsets t p
  · exact List.mem_append_left _ (h m hm h1 hlt d hd htr)
  · refine List.mem_append_right _ ?_
    rcases honest_one hh hf t p with hn | ⟨rfl, hb⟩
    · rw [hn, after_nil] at h2; omega
    · have hin := wide_window cfg _ _ _ (hl t p) hb m hm (by omega) h2
      refine List.mem_map.2 ⟨d, ?_, rfl⟩
      rw [List.mem_filter]
      refine ⟨List.mem_filterMap.2 ⟨m, ?_, hd⟩, htr⟩
      simp only [fetchedFor, fetched, List.mem_flatMap, List.mem_filter, decide_eq_true_eq]
        at hin ⊢
      obtain ⟨a, ⟨ha, _, _, h0⟩, hm⟩ := hin
      exact ⟨a, ⟨ha, h0⟩, hm⟩

theorem named_returned {cfg : CCfg β δ} {logs : String → Int → List (Int × β)}
    {base : String → Int → Int} {g : Team δ}
    (h : ∀ t p o, (t, p, o) ∈ g.committed → AllReturned cfg logs base g.returned t p o)
    (t : String) (p o : Int) (hn : g.Named base t p o) :
    AllReturned cfg logs base g.returned t p o := by
  rcases hn with hn | hn
  · intro m _ h1 h2; omega
  · exact h t p o hn

theorem mem_offsetsIn {reqs : List CommitReq} {t : String} {p o : Int}
    (h : (t, p, o) ∈ offsetsIn reqs) :
    ∃ r ∈ reqs, ∃ qs, (t, qs) ∈ r.topics ∧ (p, o) ∈ qs := by
  simp only [offsetsIn, List.mem_flatMap, List.mem_map, Prod.mk.injEq] at h
  obtain ⟨r, hr, x, hx, q, hq, rfl, rfl, rfl⟩ := h
  exact ⟨r, hr, x.2, hx, hq⟩

theorem HonestGroup.imp {fg fg' : String → Int → Int → Prop} (h : ∀ t p o, fg t p o → fg' t p o)
    {topic : String} {asked : List Int} {env : Nat → SendEnv OFResp}
    (hg : HonestGroup fg topic asked env) : HonestGroup fg' topic asked env := by
  intro n r hr
  obtain ⟨ps, more, h1, h2, h3⟩ := hg n r hr
  exact ⟨ps, more, h1, fun q hq hc => h _ _ _ (h2 q hq hc), h3⟩

/-- The topic stays synced over an honest fetch. -/
theorem honest_codes {batch : List (Int × β) → Int → List (Int × β) → Prop}
    {logs : String → Int → List (Int × β)} {env : ConsumeEnv ε β}
    (hh : HonestFetch batch logs env) (reqs : List FReq) :
    ∀ a ∈ allAnswers (env.outcomes reqs), a.2.code ≠ 1 := by
  intro a ha
  simp only [allAnswers, List.mem_flatMap] at ha
  obtain ⟨⟨b, o⟩, ho, ha⟩ := ha
  cases o with
  | error e => simp at ha
  | ok r =>
    simp only at ha
    obtain ⟨q, _, _, ps, hr, _, hps⟩ := (hh reqs).2 b r ho
    simp only [answersOf, hr, List.mem_map] at ha
    obtain ⟨p, hp, rfl⟩ := ha
    exact (hps p hp).1

/-! ### Rebalances at any time except while messages are being fetched -/

/-- Everything below the member's offsets has been returned. -/
def Spec.Steady (P : String → Int → Int → Prop) (c : Grouped) : Prop :=
  ∀ t p, P t p (offsetOf c.offsets t p)

theorem determine_steady {plain : Bool} {P : String → Int → Int → Prop} {env : Nat → SendEnv OFResp}
    {topic : String} {asked : List Int} (hg : HonestGroup P topic asked env) (fuel : Nat)
    {c : Grouped} (h : Steady P c) : Steady P (c.determine plain env fuel topic).2.1 := by
  refine determine_inv fuel topic c (Steady P) (fun _ _ _ h => h) (fun _ _ _ h => h) ?_ h
  intro n r ho c hc t p
  obtain ⟨_, _, _, _, e5⟩ := offsetFetch_any r c (handleOffsetFetchResponse r c).2
    (handleOffsetFetchResponse r c).1 rfl
  rcases e5 t p with h | ⟨ps, more, g1, q, g2, g3, g4, g5⟩
  · rw [h]; exact hc t p
  · obtain ⟨ps', more', k1, k2, _⟩ := hg n r ho
    rw [g1] at k1
    simp only [List.cons.injEq, Prod.mk.injEq] at k1
    obtain ⟨⟨rfl, rfl⟩, _⟩ := k1
    rw [g5, ← g3]
    exact k2 q g2 g4

theorem commit_steady {P : String → Int → Int → Prop} {env : CommitEnv}
    (hT : ∀ n c, (env.tick n c).offsets = c.offsets) (fuel : Nat) (name : String)
    (md : Option String) {c : Grouped} (h : Steady P c) :
    Steady P (c.commit env fuel name md).2.1 ∧
    ∀ t p o, (t, p, o) ∈ offsetsIn (c.commit env fuel name md).2.2 → P t p o := by
  obtain ⟨h1, h2⟩ := commitLoop_inv (env := env) (Steady P) (fun _ _ _ h => h)
    (fun c o ho h t p => by rw [ho]; exact h t p)
    (fun r c h t p => by rw [(commitResponse_any r c).1]; exact h t p)
    (fun n c h t p => by rw [hT]; exact h t p) fuel 0
    (md.getD ("committed by " ++ name)) c h
  refine ⟨h1, ?_⟩
  intro t p o ho
  obtain ⟨req, hreq, qs, hq, hp⟩ := mem_offsetsIn ho
  obtain ⟨c', a, hs, _, hr⟩ := h2 req hreq
  rw [hr] at hq
  simp only [commitOf, List.mem_map, Prod.mk.injEq] at hq
  obtain ⟨e, _, rfl, rfl⟩ := hq
  simp only [List.mem_map, Prod.mk.injEq] at hp
  obtain ⟨p', _, rfl, rfl⟩ := hp
  exact hs _ _

theorem mem_addSet_self (l : List String) (t : String) : t ∈ addSet l t := by
  unfold addSet
  split
  · assumption
  · simp

/-- Where `consume` starts to look for partitions, everything is still as it should be. -/
theorem start_steady {plain : Bool} {P : String → Int → Int → Prop} {env : GroupEnv β} {fuel : Nat}
    {topic : String} {c c0 : Grouped} (hg : HonestGroup P topic (shareOf c topic) env.offsets)
    (h0 : ∀ n c, (env.base.tick n c).offsets = c.offsets) (h : Steady P c)
    (hc : (topic ∈ c.synced ∧ c0 = c) ∨ (∃ c1, topic ∉ c.synced ∧
      Grouped.determineRes plain env.offsets fuel topic c = (.ok (), c1) ∧
      c0 = { env.base.tick 0 c1 with synced := addSet (env.base.tick 0 c1).synced topic })) :
    Steady P c0 ∧ topic ∈ c0.synced := by
  rcases hc with ⟨hs, rfl⟩ | ⟨c1, _, hd, rfl⟩
  · exact ⟨h, hs⟩
  · simp only [Grouped.determineRes, Prod.mk.injEq] at hd
    refine ⟨fun t p => ?_, mem_addSet_self _ _⟩
    simp only [h0]
    rw [← hd.2]
    exact determine_steady hg fuel h t p

theorem base_steady {cfg : CCfg β δ} {logs : String → Int → List (Int × β)}
    (hl : ∀ t p, IsLog (logs t p)) {base : String → Int → Int} {returned : List (String × δ)}
    {env : GroupEnv β} {fuel : Nat} {topic : String} {c cb : Grouped}
    {result : Option (List δ)} {acts : List CAct}
    (hg : HonestGroup (AllReturned cfg logs base returned) topic (shareOf c topic) env.offsets)
    (hh : HonestFetch WideBatch logs env.base) (hr : (steady β).during env)
    (h : Steady (AllReturned cfg logs base returned) c)
    (hb : Consumer.consume Grouped.allocation (Grouped.determineRes cfg.plain env.offsets fuel topic) cfg
      env.base topic c = (.ok result, cb, acts)) :
    (topic ∈ cb.synced → Steady (AllReturned cfg logs base
      (returned ++ (result.getD []).map fun d => (topic, d))) cb) ∧
    (topic ∉ cb.synced → Steady (AllReturned cfg logs base returned) cb) := by
  obtain ⟨h0, h1, h2, _⟩ := hr
  have hmore : ∀ {c : Grouped}, Steady (AllReturned cfg logs base returned) c →
      Steady (AllReturned cfg logs base (returned ++ (result.getD []).map fun d => (topic, d))) c :=
    fun h t p => allReturned_mono (h t p)
  rcases consume_parts hb with ⟨_, rfl⟩ | ⟨e, c1, _, hd, rfl, _⟩ | ⟨c0, hc0, hcase⟩
  · exact ⟨fun _ => hmore h, fun _ => h⟩
  · simp only [Grouped.determineRes, Prod.mk.injEq] at hd
    have : Steady (AllReturned cfg logs base returned) (env.base.tick 0 c1) := by
      intro t p
      rw [h0, ← hd.2]
      exact determine_steady hg fuel h t p
    exact ⟨fun _ => hmore this, fun _ => this⟩
  · obtain ⟨hs0, ht0⟩ := start_steady hg h0 h hc0
    rcases hcase with ⟨_, e, he⟩ | ⟨cl, rfl, _⟩ | ⟨ca, parts, acts', hca, hf, _⟩
    · simp at he
    · have : Steady (AllReturned cfg logs base returned)
          (env.base.tick 1 { c0 with cluster := cl }) := by
        intro t p; rw [h0]; exact hs0 t p
      exact ⟨fun _ => hmore this, fun _ => this⟩
    · have hsa : Steady (AllReturned cfg logs base returned) ca ∧ topic ∈ ca.synced := by
        rcases hca with rfl | ⟨cl, rfl⟩
        · exact ⟨hs0, ht0⟩
        · exact ⟨fun t p => by rw [h0]; exact hs0 t p, by rw [h1]; exact ht0⟩
      rcases fetch_spec cfg env.base topic parts ca cb (.ok result) acts' hf with
        ⟨e, he, _⟩ | ⟨reqs, c1, _, hex, rfl, done, rest, _, ho, hs, _, _, hok⟩
      · simp at he
      · obtain ⟨_, hdone, hout⟩ := hok result rfl
        have hres := hout (hh reqs).1
        subst hdone
        refine ⟨fun _ t p => ?_, fun hn => absurd ?_ hn⟩
        · rw [h0, ho, hres]
          exact fetch_returned hl hh hex (hsa.1 t p)
        · rw [h2, hs]
          exact ⟨hsa.2, fun a ha _ => honest_codes hh reqs a ha⟩

theorem failed_steady {P : String → Int → Int → Prop} {cfg : CCfg β δ}
    {env : GroupEnv β} {fuel : Nat} {topic : String} {c cb : Grouped} {r : Res (Option (List δ))}
    {acts : List CAct} (hg : HonestGroup P topic (shareOf c topic) env.offsets)
    (h0 : ∀ n c, (env.base.tick n c).offsets = c.offsets) (h : Steady P c)
    (hb : Consumer.consume Grouped.allocation (Grouped.determineRes cfg.plain env.offsets fuel topic) cfg
      env.base topic c = (r, cb, acts)) (hn : ∀ reqs, CAct.fetch reqs ∉ acts) :
    Steady P cb := by
  rcases consume_parts hb with ⟨_, rfl⟩ | ⟨e, c1, _, hd, rfl, _⟩ | ⟨c0, hc0, hcase⟩
  · exact h
  · simp only [Grouped.determineRes, Prod.mk.injEq] at hd
    intro t p
    rw [h0, ← hd.2]
    exact determine_steady hg fuel h t p
  · obtain ⟨hs0, _⟩ := start_steady hg h0 h hc0
    rcases hcase with ⟨rfl, _⟩ | ⟨cl, rfl, _⟩ | ⟨ca, parts, acts', hca, hf, hin, _⟩
    · exact hs0
    · intro t p; rw [h0]; exact hs0 t p
    · have hsa : Steady P ca := by
        rcases hca with rfl | ⟨cl, rfl⟩
        · exact hs0
        · intro t p; rw [h0]; exact hs0 t p
      rcases fetch_spec cfg env.base topic parts ca cb r acts' hf with
        ⟨_, _, _, _, _, ho, _⟩ | ⟨reqs, c1, ha, _⟩
      · intro t p; rw [ho]; exact hsa t p
      · exact absurd (hin _ (by rw [ha]; simp)) (hn reqs)

/-- The invariant of a group: everything below an offset that was committed, or that a member
would read from, has been returned. -/
def Spec.TeamSteady (cfg : CCfg β δ) (logs : String → Int → List (Int × β))
    (base : String → Int → Int) (g : Team δ) : Prop :=
  (∀ t p o, (t, p, o) ∈ g.committed → AllReturned cfg logs base g.returned t p o) ∧
  ∀ i, Steady (AllReturned cfg logs base g.returned) (g.members i)

theorem teamSteady_put {cfg : CCfg β δ} {logs : String → Int → List (Int × β)}
    {base : String → Int → Int} {g : Team δ} (h : TeamSteady cfg logs base g) (i : Nat)
    (c : Grouped) (new : List (String × Int × Int)) (more : List (String × δ))
    (hc : Steady (AllReturned cfg logs base (g.returned ++ more)) c)
    (hnew : ∀ t p o, (t, p, o) ∈ new → AllReturned cfg logs base (g.returned ++ more) t p o) :
    TeamSteady cfg logs base ⟨g.put i c, g.committed ++ new, g.returned ++ more⟩ := by
  refine ⟨fun t p o ho => ?_, fun j => ?_⟩
  · rcases List.mem_append.1 ho with ho | ho
    · exact allReturned_mono (h.1 t p o ho)
    · exact hnew t p o ho
  · simp only [Team.put]
    split
    · exact hc
    · exact fun t p => allReturned_mono (h.2 j t p)

theorem new_steady {cfg : CCfg β δ} {logs : String → Int → List (Int × β)}
    (hl : ∀ t p, IsLog (logs t p)) (base : String → Int → Int) (returned : List (String × δ))
    (cl : Cluster) : Steady (AllReturned cfg logs base returned) (Grouped.new cl) := by
  intro t p m hm _ h2
  have := (hl t p).nonneg m hm
  have h0 : offsetOf (Grouped.new cl).offsets t p = 0 := rfl
  rw [h0] at h2
  omega

theorem teamRun_steady {cfg : CCfg β δ} {logs : String → Int → List (Int × β)}
    (hl : ∀ t p, IsLog (logs t p)) {base : String → Int → Int} {g : Team δ}
    (h : TeamRun (steady β) cfg logs base g) : TeamSteady cfg logs base g := by
  induction h with
  | start cl => exact ⟨by simp, fun i => new_steady hl base [] _⟩
  | @consume g i gcfg env fuel t result c acts reqs hg hh hr hc _ ih =>
    have hg' := HonestGroup.imp (named_returned ih.1) hg
    rcases gconsume_cases gcfg cfg env fuel t (g.members i) with ⟨_, _, _, h3⟩ |
      ⟨bres, cb, acts', hb, hcase⟩
    · rw [hc] at h3; simp at h3
    · rcases hcase with ⟨e, _, h3⟩ | ⟨r, rfl, hs, h3⟩ | ⟨r, rfl, hs, _, h3⟩ |
        ⟨r, cr, rfl, hs, _, hcr, h3, h4⟩
      · rw [hc] at h3; simp at h3
      · rw [hc] at h3
        simp only [Prod.mk.injEq, Run.done.injEq] at h3
        obtain ⟨rfl, rfl, _, rfl⟩ := h3
        refine teamSteady_put ih i c [] _ ?_ (by simp)
        simpa using (base_steady hl hg' hh hr (ih.2 i) hb).2 hs
      · rw [hc] at h3
        simp only [Prod.mk.injEq, Run.done.injEq] at h3
        obtain ⟨rfl, rfl, _, rfl⟩ := h3
        refine teamSteady_put ih i _ [] _ ?_ (by simp)
        exact (base_steady hl hg' hh hr (ih.2 i) hb).1 hs
      · rw [hc] at h3 h4
        have hr' : result = r := by
          rcases h4 with ⟨_, h⟩ | ⟨e, _, h⟩ | ⟨_, h⟩
          · simpa using h
          · simp at h
          · simp at h
        subst hr'
        simp only [Prod.mk.injEq] at h3
        obtain ⟨rfl, _, rfl⟩ := h3
        have hbase := (base_steady hl hg' hh hr (ih.2 i) hb).1 hs
        have hcom := commit_steady (P := AllReturned cfg logs base (g.returned ++
            (result.getD []).map fun d => (t, d))) (env := env.commit) hr.2.2.2 fuel gcfg.name .none
          (c := { cb with ext := { cb.ext with toCommit := addSet cb.ext.toCommit t } }) hbase
        rw [← hcr] at hcom
        exact teamSteady_put ih i _ _ _ hcom.1 hcom.2
  | @failed g i gcfg env fuel t e c acts hg hr hc hn _ ih =>
    have hg' := HonestGroup.imp (named_returned ih.1) hg
    have := teamSteady_put ih i c [] [] (by
      simp only [List.append_nil]
      rcases gconsume_cases gcfg cfg env fuel t (g.members i) with ⟨_, _, _, h3⟩ |
        ⟨bres, cb, acts', hb, hcase⟩
      · rw [hc] at h3; simp at h3
      · rcases hcase with ⟨e', rfl, h3⟩ | ⟨r, rfl, hs, h3⟩ | ⟨r, rfl, hs, _, h3⟩ |
          ⟨r, cr, rfl, hs, _, hcr, h3, h4⟩
        · rw [hc] at h3
          simp only [Prod.mk.injEq] at h3
          obtain ⟨_, rfl, rfl, _⟩ := h3
          exact failed_steady hg' hr.1 (ih.2 i) hb hn
        · rw [hc] at h3; simp at h3
        · rw [hc] at h3; simp at h3
        · rw [hc] at h3
          simp only [Prod.mk.injEq] at h3
          obtain ⟨rfl, rfl, _⟩ := h3
          rw [hcr]
          have hf0 := failed_steady hg' hr.1 (ih.2 i) hb hn
          have hf : Steady (AllReturned cfg logs base g.returned)
              { cb with ext := { cb.ext with toCommit := addSet cb.ext.toCommit t } } :=
            fun t p => hf0 t p
          exact (commit_steady hr.2.2.2 fuel gcfg.name .none hf).1) (by simp)
    simpa using this
  | @commit g i env fuel name md hr _ ih =>
    have hcom := commit_steady (P := AllReturned cfg logs base (g.returned ++ [])) (env := env) hr
      fuel name md (c := g.members i) (by simpa using ih.2 i)
    have := teamSteady_put ih i _ _ [] hcom.1 hcom.2
    simpa using this
  | @restart g i cl _ ih =>
    have := teamSteady_put ih i (Grouped.new cl) [] [] (new_steady hl base _ cl) (by simp)
    simpa using this
  | @other g i c hr _ ih =>
    have := teamSteady_put ih i c [] [] (fun t p => by
      rw [show c.offsets = (g.members i).offsets from hr]
      exact allReturned_mono (ih.2 i t p)) (by simp)
    simpa using this

/-! ### Rebalances while nothing waits to be committed -/

/-- No message: what is legitimate is what the group says. -/
def Spec.noLog : String → Int → Int → Prop := fun _ _ _ => False

theorem legit_noLog {P : String → Int → Int → Prop} {t : String} {p o : Int}
    (h : Legit P noLog t p o) : P t p o := by
  rcases h with h | ⟨_, h, _⟩
  · exact h
  · exact h.elim

theorem safe_mono {P Q : String → Int → Int → Prop} (hPQ : ∀ t p o, P t p o → Q t p o)
    {c : Grouped} (h : Safe P noLog c) : Safe Q noLog c := by
  intro a ha
  obtain ⟨h1, h2⟩ := h a ha
  exact ⟨h1, fun t ht p hp => Or.inl (hPQ _ _ _ (legit_noLog (h2 t ht p hp)))⟩

/-- A member with no topic synced and none to be committed. -/
theorem safe_idle {P : String → Int → Int → Prop} {c : Grouped}
    (hm : ∀ a, c.ext.mapping = some a → a.keys.Nodup) (hs : ∀ t, t ∉ c.synced)
    (hc : c.ext.toCommit = []) : Safe P noLog c := by
  intro a ha
  refine ⟨hm a ha, ?_⟩
  rintro t (ht | ht)
  · exact absurd ht (hs t)
  · rw [hc] at ht; simp at ht

theorem determineRes_ok {plain : Bool} {env : Nat → SendEnv OFResp} {fuel : Nat} {topic : String} {c c1 : Grouped}
    (h : Grouped.determineRes plain env fuel topic c = (.ok (), c1)) :
    (c.determine plain env fuel topic).1 = .done () ∧ (c.determine plain env fuel topic).2.1 = c1 := by
  simp only [Grouped.determineRes, Prod.mk.injEq] at h
  refine ⟨?_, h.2⟩
  have hr := h.1
  cases hrun : (c.determine plain env fuel topic).1 with
  | done u => rfl
  | raised e => rw [hrun] at hr; simp [Run.toRes] at hr
  | running => rw [hrun] at hr; simp [Run.toRes] at hr

theorem start_quiet {plain : Bool} {P : String → Int → Int → Prop} {env : GroupEnv β} {fuel : Nat}
    {topic : String} {c c0 : Grouped} (hg : HonestGroup P topic (shareOf c topic) env.offsets)
    (h0 : ∀ c, env.base.tick 0 c = c) (h : Safe P noLog c)
    (hc : (topic ∈ c.synced ∧ c0 = c) ∨ (∃ c1, topic ∉ c.synced ∧
      Grouped.determineRes plain env.offsets fuel topic c = (.ok (), c1) ∧
      c0 = { env.base.tick 0 c1 with synced := addSet (env.base.tick 0 c1).synced topic })) :
    Safe P noLog c0 ∧ topic ∈ c0.synced := by
  rcases hc with ⟨hs, rfl⟩ | ⟨c1, _, hd, rfl⟩
  · exact ⟨h, hs⟩
  · obtain ⟨hd1, rfl⟩ := determineRes_ok hd
    refine ⟨?_, mem_addSet_self _ _⟩
    rw [h0]
    exact determine_synced hg hd1 h

theorem base_quiet {cfg : CCfg β δ} {logs : String → Int → List (Int × β)}
    (hl : ∀ t p, IsLog (logs t p)) {base : String → Int → Int} {returned : List (String × δ)}
    {env : GroupEnv β} {fuel : Nat} {topic : String} {c cb : Grouped}
    {result : Option (List δ)} {acts : List CAct}
    (hg : HonestGroup (AllReturned cfg logs base returned) topic (shareOf c topic) env.offsets)
    (hh : HonestFetch WideBatch logs env.base) (hr : (quiet β).during env)
    (h : Safe (AllReturned cfg logs base returned) noLog c)
    (hb : Consumer.consume Grouped.allocation (Grouped.determineRes cfg.plain env.offsets fuel topic) cfg
      env.base topic c = (.ok result, cb, acts)) :
    (topic ∈ cb.synced → Safe (AllReturned cfg logs base
      (returned ++ (result.getD []).map fun d => (topic, d))) noLog cb) ∧
    (topic ∉ cb.synced → Safe (AllReturned cfg logs base returned) noLog cb) := by
  obtain ⟨h0, h1, h2, _⟩ := hr
  have hmore : ∀ {c : Grouped}, Safe (AllReturned cfg logs base returned) noLog c →
      Safe (AllReturned cfg logs base (returned ++ (result.getD []).map fun d => (topic, d)))
        noLog c := fun h => safe_mono (fun _ _ _ h => allReturned_mono h) h
  rcases consume_parts hb with ⟨_, rfl⟩ | ⟨e, c1, _, hd, rfl, _⟩ | ⟨c0, hc0, hcase⟩
  · exact ⟨fun _ => hmore h, fun _ => h⟩
  · simp only [Grouped.determineRes, Prod.mk.injEq] at hd
    have : Safe (AllReturned cfg logs base returned) noLog (env.base.tick 0 c1) := by
      rw [h0, ← hd.2]
      exact determine_safe hg fuel h
    exact ⟨fun _ => hmore this, fun _ => this⟩
  · obtain ⟨hs0, ht0⟩ := start_quiet hg h0 h hc0
    rcases hcase with ⟨_, e, he⟩ | ⟨cl, rfl, _⟩ | ⟨ca, parts, acts', hca, hf, _⟩
    · simp at he
    · have : Safe (AllReturned cfg logs base returned) noLog
          (env.base.tick 1 { c0 with cluster := cl }) := Safe.tick h1 hs0
      exact ⟨fun _ => hmore this, fun _ => this⟩
    · have hsa : Safe (AllReturned cfg logs base returned) noLog ca ∧
          (topic ∈ ca.synced ∨ ((∀ t, t ∉ ca.synced) ∧ ca.ext.toCommit = [])) := by
        rcases hca with rfl | ⟨cl, rfl⟩
        · exact ⟨hs0, Or.inl ht0⟩
        · refine ⟨Safe.tick h1 hs0, ?_⟩
          rcases h1 { c0 with cluster := cl } with h | ⟨hn, a, _, h⟩
          · rw [h]; exact Or.inl ht0
          · rw [h]; exact Or.inr ⟨by simp [Grouped.rebalanced], hn⟩
      rcases fetch_spec cfg env.base topic parts ca cb (.ok result) acts' hf with
        ⟨e, he, _⟩ | ⟨reqs, c1, _, hex, rfl, done, rest, _, ho, hs, _, hext, hok⟩
      · simp at he
      · obtain ⟨_, hdone, hout⟩ := hok result rfl
        have hres := hout (hh reqs).1
        subst hdone
        have hc1 : Safe (AllReturned cfg logs base (returned ++
            (result.getD []).map fun d => (topic, d))) noLog c1 := by
          intro a ha
          rw [hext] at ha
          obtain ⟨k1, k2⟩ := hsa.1 a ha
          refine ⟨k1, fun t ht p hp => Or.inl ?_⟩
          rw [hext] at ht
          rw [ho, hres]
          exact fetch_returned hl hh hex (legit_noLog (k2 t (ht.imp_left fun h => ((hs t).1 h).1) p hp))
        have hkeys : ∀ a, c1.ext.mapping = some a → a.keys.Nodup := fun a ha => (hc1 a ha).1
        refine ⟨fun _ => Safe.tick h2 hc1, fun hn => ?_⟩
        rcases h2 c1 with h | ⟨hnil, a, hk, h⟩
        · rw [h] at hn ⊢
          rcases hsa.2 with hin | ⟨he1, he2⟩
          · exact absurd ((hs topic).2 ⟨hin, fun a ha _ => honest_codes hh reqs a ha⟩) hn
          · exact safe_idle hkeys (fun t ht => he1 t ((hs t).1 ht).1) (by rw [hext]; exact he2)
        · rw [h]
          refine safe_idle ?_ (by simp [Grouped.rebalanced]) hnil
          intro a' ha'
          simp only [Grouped.rebalanced, Option.some.injEq] at ha'
          exact ha' ▸ hk

theorem failed_quiet {P : String → Int → Int → Prop} {cfg : CCfg β δ}
    {env : GroupEnv β} {fuel : Nat} {topic : String} {c cb : Grouped} {r : Res (Option (List δ))}
    {acts : List CAct} (hg : HonestGroup P topic (shareOf c topic) env.offsets)
    (h0 : ∀ c, env.base.tick 0 c = c) (h1 : QuietTick (env.base.tick 1)) (h : Safe P noLog c)
    (hb : Consumer.consume Grouped.allocation (Grouped.determineRes cfg.plain env.offsets fuel topic) cfg
      env.base topic c = (r, cb, acts)) (hn : ∀ reqs, CAct.fetch reqs ∉ acts) :
    Safe P noLog cb := by
  rcases consume_parts hb with ⟨_, rfl⟩ | ⟨e, c1, _, hd, rfl, _⟩ | ⟨c0, hc0, hcase⟩
  · exact h
  · simp only [Grouped.determineRes, Prod.mk.injEq] at hd
    rw [h0, ← hd.2]
    exact determine_safe hg fuel h
  · obtain ⟨hs0, _⟩ := start_quiet hg h0 h hc0
    rcases hcase with ⟨rfl, _⟩ | ⟨cl, rfl, _⟩ | ⟨ca, parts, acts', hca, hf, hin, _⟩
    · exact hs0
    · exact Safe.tick h1 hs0
    · have hsa : Safe P noLog ca := by
        rcases hca with rfl | ⟨cl, rfl⟩
        · exact hs0
        · exact Safe.tick h1 hs0
      rcases fetch_spec cfg env.base topic parts ca cb r acts' hf with
        ⟨_, _, _, _, _, ho, hs, _, _, hext⟩ | ⟨reqs, c1, ha, _⟩
      · intro a ha
        rw [hext] at ha
        obtain ⟨k1, k2⟩ := hsa a ha
        refine ⟨k1, fun t ht p hp => ?_⟩
        rw [hext, hs] at ht
        rw [ho]
        exact k2 t ht p hp
      · exact absurd (hin _ (by rw [ha]; simp)) (hn reqs)

/-- The invariant of a group: everything below an offset that was committed, or that a member
might commit, has been returned. -/
def Spec.TeamQuiet (cfg : CCfg β δ) (logs : String → Int → List (Int × β))
    (base : String → Int → Int) (g : Team δ) : Prop :=
  (∀ t p o, (t, p, o) ∈ g.committed → AllReturned cfg logs base g.returned t p o) ∧
  ∀ i, Safe (AllReturned cfg logs base g.returned) noLog (g.members i)

theorem teamQuiet_put {cfg : CCfg β δ} {logs : String → Int → List (Int × β)}
    {base : String → Int → Int} {g : Team δ} (h : TeamQuiet cfg logs base g) (i : Nat)
    (c : Grouped) (new : List (String × Int × Int)) (more : List (String × δ))
    (hc : Safe (AllReturned cfg logs base (g.returned ++ more)) noLog c)
    (hnew : ∀ t p o, (t, p, o) ∈ new → AllReturned cfg logs base (g.returned ++ more) t p o) :
    TeamQuiet cfg logs base ⟨g.put i c, g.committed ++ new, g.returned ++ more⟩ := by
  refine ⟨fun t p o ho => ?_, fun j => ?_⟩
  · rcases List.mem_append.1 ho with ho | ho
    · exact allReturned_mono (h.1 t p o ho)
    · exact hnew t p o ho
  · simp only [Team.put]
    split
    · exact hc
    · exact safe_mono (fun _ _ _ h => allReturned_mono h) (h.2 j)

theorem commit_quiet {P : String → Int → Int → Prop} {env : CommitEnv}
    (hT : ∀ n, QuietTick (env.tick n)) (fuel : Nat) (name : String) (md : Option String)
    {c : Grouped} (h : Safe P noLog c) :
    Safe P noLog (c.commit env fuel name md).2.1 ∧
    ∀ t p o, (t, p, o) ∈ offsetsIn (c.commit env fuel name md).2.2 → P t p o := by
  obtain ⟨h1, h2⟩ := commit_safe hT fuel name md h
  refine ⟨h1, fun t p o ho => ?_⟩
  obtain ⟨req, hreq, qs, hq, hp⟩ := mem_offsetsIn ho
  exact legit_noLog (h2 req hreq t qs p o hq hp)

theorem safe_toCommit {P : String → Int → Int → Prop} {c : Grouped} {topic : String}
    (hs : topic ∈ c.synced) (h : Safe P noLog c) :
    Safe P noLog { c with ext := { c.ext with toCommit := addSet c.ext.toCommit topic } } := by
  intro a ha
  obtain ⟨k1, k2⟩ := h a ha
  refine ⟨k1, fun t ht p hp => k2 t ?_ p hp⟩
  rcases ht with ht | ht
  · exact Or.inl ht
  · simp only [addSet] at ht
    split at ht
    · exact Or.inr ht
    · rcases List.mem_append.1 ht with ht | ht
      · exact Or.inr ht
      · simp only [List.mem_singleton] at ht
        exact Or.inl (ht ▸ hs)

theorem teamRun_quiet {cfg : CCfg β δ} {logs : String → Int → List (Int × β)}
    (hl : ∀ t p, IsLog (logs t p)) {base : String → Int → Int} {g : Team δ}
    (h : TeamRun (quiet β) cfg logs base g) : TeamQuiet cfg logs base g := by
  have hnew : ∀ (ret : List (String × δ)) cl,
      Safe (AllReturned cfg logs base ret) noLog (Grouped.new cl) :=
    fun ret cl a ha => by simp [Grouped.new] at ha
  induction h with
  | start cl => exact ⟨by simp, fun i => hnew [] _⟩
  | @consume g i gcfg env fuel t result c acts reqs hg hh hr hc _ ih =>
    have hg' := HonestGroup.imp (named_returned ih.1) hg
    rcases gconsume_cases gcfg cfg env fuel t (g.members i) with ⟨_, _, _, h3⟩ |
      ⟨bres, cb, acts', hb, hcase⟩
    · rw [hc] at h3; simp at h3
    · rcases hcase with ⟨e, _, h3⟩ | ⟨r, rfl, hs, h3⟩ | ⟨r, rfl, hs, _, h3⟩ |
        ⟨r, cr, rfl, hs, _, hcr, h3, h4⟩
      · rw [hc] at h3; simp at h3
      · rw [hc] at h3
        simp only [Prod.mk.injEq, Run.done.injEq] at h3
        obtain ⟨rfl, rfl, _, rfl⟩ := h3
        refine teamQuiet_put ih i c [] _ ?_ (by simp)
        simpa using (base_quiet hl hg' hh hr (ih.2 i) hb).2 hs
      · rw [hc] at h3
        simp only [Prod.mk.injEq, Run.done.injEq] at h3
        obtain ⟨rfl, rfl, _, rfl⟩ := h3
        refine teamQuiet_put ih i _ [] _ ?_ (by simp)
        exact safe_toCommit hs ((base_quiet hl hg' hh hr (ih.2 i) hb).1 hs)
      · rw [hc] at h3 h4
        have hr' : result = r := by
          rcases h4 with ⟨_, h⟩ | ⟨e, _, h⟩ | ⟨_, h⟩
          · simpa using h
          · simp at h
          · simp at h
        subst hr'
        simp only [Prod.mk.injEq] at h3
        obtain ⟨rfl, _, rfl⟩ := h3
        have hcom := commit_quiet (env := env.commit) hr.2.2.2 fuel gcfg.name .none
          (safe_toCommit hs ((base_quiet hl hg' hh hr (ih.2 i) hb).1 hs))
        rw [← hcr] at hcom
        exact teamQuiet_put ih i _ _ _ hcom.1 hcom.2
  | @failed g i gcfg env fuel t e c acts hg hr hc hn _ ih =>
    have hg' := HonestGroup.imp (named_returned ih.1) hg
    have := teamQuiet_put ih i c [] [] (by
      simp only [List.append_nil]
      rcases gconsume_cases gcfg cfg env fuel t (g.members i) with ⟨_, _, _, h3⟩ |
        ⟨bres, cb, acts', hb, hcase⟩
      · rw [hc] at h3; simp at h3
      · rcases hcase with ⟨e', rfl, h3⟩ | ⟨r, rfl, hs, h3⟩ | ⟨r, rfl, hs, _, h3⟩ |
          ⟨r, cr, rfl, hs, _, hcr, h3, h4⟩
        · rw [hc] at h3
          simp only [Prod.mk.injEq] at h3
          obtain ⟨_, rfl, rfl, _⟩ := h3
          exact failed_quiet hg' hr.1 hr.2.1 (ih.2 i) hb hn
        · rw [hc] at h3; simp at h3
        · rw [hc] at h3; simp at h3
        · rw [hc] at h3
          simp only [Prod.mk.injEq] at h3
          obtain ⟨rfl, rfl, _⟩ := h3
          rw [hcr]
          exact (commit_quiet hr.2.2.2 fuel gcfg.name .none
            (safe_toCommit hs (failed_quiet hg' hr.1 hr.2.1 (ih.2 i) hb hn))).1) (by simp)
    simpa using this
  | @commit g i env fuel name md hr _ ih =>
    have hcom := commit_quiet (P := AllReturned cfg logs base (g.returned ++ [])) (env := env) hr
      fuel name md (c := g.members i) (by simpa using ih.2 i)
    have := teamQuiet_put ih i _ _ [] hcom.1 hcom.2
    simpa using this
  | @restart g i cl _ ih =>
    have := teamQuiet_put ih i (Grouped.new cl) [] [] (hnew _ cl) (by simp)
    simpa using this
  | @other g i c hr _ ih =>
    have := teamQuiet_put ih i c [] [] (by
      simp only [List.append_nil]
      rcases hr with ⟨a, ha, hc, rfl⟩ | ⟨h1, h2, h3, h4⟩
      · refine safe_idle ?_ (by simp [Grouped.rebalanced]) hc
        intro a' ha'
        simp only [Grouped.rebalanced, Option.some.injEq] at ha'
        exact ha' ▸ ha
      · intro a ha
        rw [h4] at ha
        rw [h1, h2, h3]
        exact ih.2 i a ha) (by simp)
    simpa using this

/-! ### C96 -/

/-- **C96**, partial: every message of a partition between where the group began and an offset
any member has committed has been returned by a `consume` of some member (unless it cannot be
deserialized or is false to Python), whatever the brokers' answers, lost connections, partitions
changing hands, and members lost in the middle of whatever they do and replaced.  Rebalances may
happen at any time except while messages are being fetched.  Missing: `consume`s that raise after
messages were fetched and whose member goes on (`C96_false_commit`), members lost between an automatic
commit and the return of `consume` (`C96_false_crash`), and rebalances while messages are
being fetched (but see `C96_quiet_partial`; `C96_false_rebalance`). -/
theorem C96_steady_partial (cfg : CCfg β δ) (logs : String → Int → List (Int × β))
    (hl : ∀ t p, IsLog (logs t p)) (base : String → Int → Int) (g : Team δ)
    (h : TeamRun (steady β) cfg logs base g) (t : String) (p o : Int)
    (ho : (t, p, o) ∈ g.committed) : AllReturned cfg logs base g.returned t p o :=
  (teamRun_steady hl h).1 t p o ho

/-- **C96**, partial: the same if rebalances happen only while nothing waits to be committed (so,
with automatic commits that succeed, at any time: while messages are being fetched too), and not
while the group's offsets are being fetched. -/
theorem C96_quiet_partial (cfg : CCfg β δ) (logs : String → Int → List (Int × β))
    (hl : ∀ t p, IsLog (logs t p)) (base : String → Int → Int) (g : Team δ)
    (h : TeamRun (quiet β) cfg logs base g) (t : String) (p o : Int)
    (ho : (t, p, o) ∈ g.committed) : AllReturned cfg logs base g.returned t p o :=
  (teamRun_quiet hl h).1 t p o ho

/-- **C96**, partial: and no member is ahead of what was returned: before the offset at which it
goes on reading a partition of its share there is no message the group has not returned. -/
theorem C96_position_partial (cfg : CCfg β δ) (logs : String → Int → List (Int × β))
    (hl : ∀ t p, IsLog (logs t p)) (base : String → Int → Int) (g : Team δ)
    (h : TeamRun (quiet β) cfg logs base g) (i : Nat) (t : String) (ht : t ∈ (g.members i).synced)
    (p : Int) (hp : p ∈ shareOf (g.members i) t) :
    AllReturned cfg logs base g.returned t p (offsetOf (g.members i).offsets t p) := by
  unfold shareOf at hp
  cases hm : (g.members i).ext.mapping with
  | none => simp [hm] at hp
  | some a =>
    rw [hm] at hp
    exact legit_noLog (((teamRun_quiet hl h).2 i a hm).2 t (Or.inl ht) p hp)

/-! ### A concrete group

Partition 0 of topic A holds two messages, which brokers serve one at a time. -/

/-- The messages. -/
def exHLog : List (Int × Nat) := [(0, 5), (1, 6)]

/-- The one message at or after an offset. -/
def exOneByOne (o : Int) : List (Int × Nat) :=
  if o ≤ 0 then [(0, 5)] else if o ≤ 1 then [(1, 6)] else []

/-- Consuming with the log served like this; rebalances as in `tick`. -/
def exHFetch (tick : Nat → Grouped → Grouped) : ConsumeEnv GExt Nat where
  outcomes := (exServe exOneByOne).outcomes
  write _ := .none
  heal cl := (.ok (), cl)
  healC cl := (.ok (), cl)
  tick := tick

theorem exHFetch_honest (tick : Nat → Grouped → Grouped) :
    HonestFetch WideBatch (fun _ _ => exHLog) (exHFetch tick) := by
  refine fun reqs => exServe_honest WideBatch exHLog exOneByOne ?_ reqs
  intro o
  unfold exOneByOne
  split
  · exact ⟨[], [(1, 6)], rfl, by simp⟩
  · split
    · exact ⟨[(0, 5)], [], rfl, by simp; omega⟩
    · refine ⟨[(0, 5), (1, 6)], [], rfl, ?_⟩
      simp only [List.mem_cons, List.not_mem_nil, or_false, forall_eq_or_imp, forall_eq]
      omega

theorem exHLog_isLog : IsLog exHLog := ⟨by decide, by decide⟩

/-- A member that has its coordinator and no partition, and one that has partition 0 of A. -/
def exIdle : Grouped := { Grouped.new exGCluster with ext := ⟨some 8, [], some []⟩ }
def exBusy : Grouped := { Grouped.new exGCluster with ext := ⟨some 8, [], some [("A", [0])]⟩ }

/-- The coordinator answers `o`; commits go well. -/
def exHEnv (o : Int) : GroupEnv Nat :=
  ⟨exOF "A" [0] o, exHFetch exStill, exCommit (.ok ⟨[("A", [(0, 0)])]⟩)⟩

theorem exOF_named {fg : String → Int → Int → Prop} {t : String} (parts : List Int) (o : Int)
    (h : ∀ p ∈ parts, fg t p o) : HonestGroup fg t parts (exOF t parts o) := by
  intro n r hr
  simp only [exOF, exSend, Except.ok.injEq] at hr
  subst hr
  refine ⟨_, [], rfl, ?_, ?_⟩
  · intro q hq _
    obtain ⟨p, hp, rfl⟩ := List.mem_map.1 hq
    exact h p hp
  · intro p hp
    exact ⟨_, List.mem_map.2 ⟨p, hp, rfl⟩, rfl⟩

/-- C96 is not vacuous: member 0 consumes a message, partition 0 moves to member 1, which goes on
from the offset committed. -/
theorem exTeam_run (rules : Rules Nat) (hd : ∀ o, rules.during (exHEnv o))
    (hb : ∀ c : Grouped, c.offsets = [] → c.ext = ⟨.none, [], .none⟩ → c.synced = [] →
      ∀ a : Dict String (List Int), a.keys.Nodup → ∃ c1, rules.between c c1 ∧
        rules.between c1 { c with ext := ⟨some 8, [], some a⟩ }) :
    ∃ g : Team Nat, TeamRun rules exCCfg (fun _ _ => exHLog) (fun _ _ => 0) g ∧
      g.committed = [("A", 0, 1), ("A", 0, 2)] ∧ g.returned = [("A", 5), ("A", 6)] := by
  have h0 : TeamRun rules exCCfg (fun _ _ => exHLog) (fun _ _ => 0)
      (⟨fun _ => Grouped.new exGCluster, [], []⟩ : Team Nat) := TeamRun.start fun _ => exGCluster
  obtain ⟨c1, k1, k2⟩ := hb (Grouped.new exGCluster) rfl rfl rfl [("A", [0])] (by decide)
  have h2 := TeamRun.other (c := exBusy) 0 (by simp only [Team.put, if_true]; exact k2)
    (TeamRun.other (c := c1) 0 k1 h0)
  have h3 := TeamRun.consume (i := 0) (gcfg := exAuto) (env := exHEnv 0) (fuel := 5) (t := "A")
    (result := some [5])
    (c := { exBusy with offsets := [("A", [(0, 1)])], synced := ["A"] })
    (acts := [.determine, .fetch [⟨7, 1000, 1, "A", [⟨0, 0, 100⟩]⟩]])
    (reqs := [⟨some 8, "committed by x", [("A", [(0, 1)])]⟩])
    (by
      have : shareOf exBusy "A" = [0] := by decide +kernel
      simp only [Team.put, if_true, this]
      exact exOF_named [0] 0 (fun p _ => Or.inl (by simp)))
    (exHFetch_honest _) (hd 0) (by simp only [Team.put, if_true]; decide +kernel) h2
  have h4 := TeamRun.restart (i := 0) exGCluster h3
  have h5 := TeamRun.other (c := exBusy) 1 (by simp only [Team.put, if_true]; exact k2)
    (TeamRun.other (c := c1) 1 (by simpa [Team.put] using k1) h4)
  have h6 := TeamRun.consume (i := 1) (gcfg := exAuto) (env := exHEnv 1) (fuel := 5) (t := "A")
    (result := some [6])
    (c := { exBusy with offsets := [("A", [(0, 2)])], synced := ["A"] })
    (acts := [.determine, .fetch [⟨7, 1000, 1, "A", [⟨0, 1, 100⟩]⟩]])
    (reqs := [⟨some 8, "committed by x", [("A", [(0, 2)])]⟩])
    (by
      have : shareOf exBusy "A" = [0] := by decide +kernel
      simp only [Team.put, if_true, this]
      refine exOF_named [0] 1 (fun p hp => Or.inr ?_)
      simp only [List.mem_singleton] at hp
      subst hp
      simp [offsetsIn])
    (exHFetch_honest _) (hd 1) (by simp only [Team.put, if_true]; decide +kernel) h5
  exact ⟨_, h6, by simp [offsetsIn], by simp⟩

/-- `C96_steady_partial` is not vacuous. -/
example : ∃ g : Team Nat,
    TeamRun (steady Nat) exCCfg (fun _ _ => exHLog) (fun _ _ => 0) g ∧
      g.committed = [("A", 0, 1), ("A", 0, 2)] ∧ g.returned = [("A", 5), ("A", 6)] :=
  exTeam_run _ (fun _ => ⟨fun _ _ => rfl, fun _ => rfl, fun _ => rfl, fun _ _ => rfl⟩)
    (fun c _ _ _ _ _ => ⟨c, rfl, rfl⟩)

/-- `C96_quiet_partial`, `C96_position_partial` are not vacuous. -/
example : ∃ g : Team Nat,
    TeamRun (quiet Nat) exCCfg (fun _ _ => exHLog) (fun _ _ => 0) g ∧
      g.committed = [("A", 0, 1), ("A", 0, 2)] ∧ g.returned = [("A", 5), ("A", 6)] :=
  exTeam_run _ (fun _ => ⟨fun _ => rfl, fun _ => Or.inl rfl, fun _ => Or.inl rfl,
      fun _ _ => Or.inl rfl⟩)
    (fun c _ hx hs a ha => ⟨c.rebalanced a, Or.inl ⟨a, ha, by rw [hx], rfl⟩,
      Or.inr ⟨rfl, by rw [hs]; rfl, by rw [Grouped.rebalanced, hx], rfl⟩⟩)

/-- **C96**, false: the connection to the coordinator is lost during the automatic commit of the
first message.  `consume` raises, the message is not returned; the next `consume` returns the
second message and commits offset 2. -/
theorem C96_false_commit :
    let r := exBusy.consume exAuto exCCfg
      ⟨exOF "A" [0] 0, exHFetch exStill, exCommit (.error .brokerConnection)⟩ 5 "A"
    let r' := r.2.1.consume exAuto exCCfg (exHEnv 0) 5 "A"
    r.1 = .raised .keyError ∧ r'.1 = .done (some [6]) ∧
    offsetsIn r'.2.2.2 = [("A", 0, 2)] ∧ exHLog = [(0, 5), (1, 6)] := by decide +kernel

/-- **C96**, false: with automatic commits the offset is committed while `consume` has not yet
returned (here because the commit is to be retried): a member lost now takes the message with
it. -/
theorem C96_false_crash :
    let r := exBusy.consume exAuto exCCfg
      ⟨exOF "A" [0] 0, exHFetch exStill, exCommit (.ok ⟨[("A", [(0, 7)])]⟩)⟩ 1 "A"
    r.1 = .running ∧ offsetsIn r.2.2.2 = [("A", 0, 1)] := by decide +kernel

/-- **C96**, false: without automatic commits.  The first message is consumed; while the second
is being fetched the group is rebalanced, so it is dropped; then offsets are committed. -/
theorem C96_false_rebalance :
    let r := exBusy.consume exManual exCCfg (exHEnv 0) 5 "A"
    let r' := r.2.1.consume exManual exCCfg
      ⟨exOF "A" [0] 0, exHFetch fun n c => if n = 2 then c.rebalanced [("A", [0])] else c,
       exCommit (.ok ⟨[]⟩)⟩ 5 "A"
    r.1 = .done (some [5]) ∧ r'.1 = .done (some []) ∧
    offsetsIn (r'.2.1.commit (exCommit (.ok ⟨[("A", [(0, 0)])]⟩)) 5 "x" .none).2.2 =
      [("A", 0, 2)] := by decide +kernel

end Kiel
