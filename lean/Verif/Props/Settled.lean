import Verif.Spec.Settled
import Verif.Props.Pipeline
import Verif.Props.Group
/-
C100: a group that is rebalanced only while nothing waits to be committed returns every message
exactly once.
-/
set_option autoImplicit false
namespace Kiel
open Spec

variable {β δ : Type}

/-! ### One member -/

/-- `determine_offsets` leaves everything alone but the offsets of its topic. -/
theorem determine_frame {plain : Bool} {P : String → Int → Int → Prop} {env : Nat → SendEnv OFResp}
    {topic : String} {asked : List Int} (hg : HonestGroup P topic asked env) (fuel : Nat)
    (c : Grouped) :
    (c.determine plain env fuel topic).2.1.synced = c.synced ∧
    (c.determine plain env fuel topic).2.1.ext.toCommit = c.ext.toCommit ∧
    (∀ t, shareOf (c.determine plain env fuel topic).2.1 t = shareOf c t) ∧
    (∀ a, (c.determine plain env fuel topic).2.1.ext.mapping = some a →
      (∀ a, c.ext.mapping = some a → a.keys.Nodup) → a.keys.Nodup) ∧
    ∀ t p, t ≠ topic → offsetOf (c.determine plain env fuel topic).2.1.offsets t p =
      offsetOf c.offsets t p := by
  refine determine_inv fuel topic c (fun c' : Grouped => c'.synced = c.synced ∧
    c'.ext.toCommit = c.ext.toCommit ∧ (∀ t, shareOf c' t = shareOf c t) ∧
    (∀ a, c'.ext.mapping = some a → (∀ a, c.ext.mapping = some a → a.keys.Nodup) → a.keys.Nodup) ∧
    ∀ t p, t ≠ topic → offsetOf c'.offsets t p = offsetOf c.offsets t p)
    (fun _ _ _ h => h) ?_ ?_ ⟨rfl, rfl, fun _ => rfl, fun a ha h => h a ha, fun _ _ _ => rfl⟩
  · rintro c' a ha ⟨h1, h2, h3, h4, h5⟩
    refine ⟨h1, h2, fun t => ?_, fun a' ha' hn => ?_, h5⟩
    · rw [← h3 t]
      simp only [shareOf, ha, getDefault_getD]
    · simp only [Option.some.injEq] at ha'
      rw [← ha']
      exact nodup_getDefault (h4 a ha hn) _ _
  · rintro n r ho c' ⟨h1, h2, h3, h4, h5⟩
    obtain ⟨e1, e2, _, _, e5⟩ := offsetFetch_any r c' (handleOffsetFetchResponse r c').2
      (handleOffsetFetchResponse r c').1 rfl
    refine ⟨by rw [e2, h1], by rw [e1, h2], fun t => by rw [← h3 t]; simp only [shareOf, e1],
      by rw [e1]; exact h4, fun t p ht => ?_⟩
    rcases e5 t p with h | ⟨ps, more, g1, _⟩
    · rw [h, h5 t p ht]
    · obtain ⟨ps', more', k1, _⟩ := hg n r ho
      rw [g1] at k1
      simp only [List.cons.injEq, Prod.mk.injEq] at k1
      exact absurd k1.1.1 ht

/-- If it succeeds, the offsets are the group's. -/
theorem determine_adopts {plain : Bool} {P : String → Int → Int → Prop} {env : Nat → SendEnv OFResp}
    {topic : String} {fuel : Nat} {c : Grouped} (hg : HonestGroup P topic (shareOf c topic) env)
    (hd : (c.determine plain env fuel topic).1 = .done ()) (p : Int) (hp : p ∈ shareOf c topic) :
    P topic p (offsetOf (c.determine plain env fuel topic).2.1.offsets topic p) := by
  obtain ⟨m, r, t', ps, more, ho, hr, hz, hq⟩ := C54_determine env fuel topic c hd
  obtain ⟨ps', more', k1, k2, k3⟩ := hg m r ho
  rw [hr] at k1
  simp only [List.cons.injEq, Prod.mk.injEq] at k1
  obtain ⟨⟨rfl, rfl⟩, _⟩ := k1
  obtain ⟨q, hq1, rfl⟩ := k3 p hp
  obtain ⟨q', hq', hid, hoff⟩ := hq q hq1
  rw [hoff, ← hid]
  exact k2 q' hq' (hz q' hq')

/-- Where a member stands with a partition. -/
def Spec.whereIs (group : String → Int → Int) (c : Grouped) (t : String) (p : Int) : Int :=
  if t ∈ c.synced then offsetOf c.offsets t p else group t p

/-- What a `consume` of `topic`, commits aside, does to a member and returns. -/
structure Spec.Moved (cfg : CCfg β δ) (logs : String → Int → List (Int × β))
    (group : String → Int → Int) (topic : String) (c c' : Grouped) (out : List δ) : Prop where
  share : ∀ t, shareOf c' t = shareOf c t
  nodup : (∀ a, c.ext.mapping = some a → a.keys.Nodup) → ∀ a, c'.ext.mapping = some a → a.keys.Nodup
  toCommit : c'.ext.toCommit = c.ext.toCommit
  grows : ∀ t ∈ c.synced, t ∈ c'.synced
  only : ∀ t ∈ c'.synced, t ≠ topic → t ∈ c.synced
  other : ∀ t p, t ≠ topic → offsetOf c'.offsets t p = offsetOf c.offsets t p
  mono : ∀ t, ∀ p ∈ shareOf c t, whereIs group c t p ≤ whereIs group c' t p
  reads : Interleaving (fun t p => if p ∈ shareOf c t then
      window cfg (logs t p) (whereIs group c t p) (whereIs group c' t p) else [])
    (out.map fun d => (topic, d))
  nothing : topic ∉ c'.synced → out = []

/-- The same for one that reads nothing. -/
structure Spec.Stayed (group : String → Int → Int) (topic : String) (c c' : Grouped) : Prop where
  share : ∀ t, shareOf c' t = shareOf c t
  nodup : (∀ a, c.ext.mapping = some a → a.keys.Nodup) → ∀ a, c'.ext.mapping = some a → a.keys.Nodup
  toCommit : c'.ext.toCommit = c.ext.toCommit
  grows : ∀ t ∈ c.synced, t ∈ c'.synced
  only : ∀ t ∈ c'.synced, t ≠ topic → t ∈ c.synced
  other : ∀ t p, t ≠ topic → offsetOf c'.offsets t p = offsetOf c.offsets t p
  same : ∀ t, ∀ p ∈ shareOf c t, whereIs group c' t p = whereIs group c t p

theorem Spec.Stayed.refl (group : String → Int → Int) (topic : String) (c : Grouped) :
    Stayed group topic c c :=
  ⟨fun _ => rfl, fun h => h, rfl, fun _ h => h, fun _ h _ => h, fun _ _ _ => rfl, fun _ _ _ => rfl⟩

theorem Spec.Stayed.moved {cfg : CCfg β δ} {logs : String → Int → List (Int × β)}
    {group : String → Int → Int} {topic : String} {c c' : Grouped} (h : Stayed group topic c c') :
    Moved cfg logs group topic c c' [] where
  share := h.share
  nodup := h.nodup
  toCommit := h.toCommit
  grows := h.grows
  only := h.only
  other := h.other
  mono t p hp := by rw [h.same t p hp]
  reads := by
    refine ⟨[], rfl, fun t p => ?_⟩
    beta_reduce
    split
    · rw [h.same t p (by assumption), window_empty]; rfl
    · rfl
  nothing _ := rfl

/-- Where `consume` starts to look for partitions. -/
theorem start_stayed {plain : Bool} {group : String → Int → Int} {env : GroupEnv β} {fuel : Nat}
    {topic : String} {c c0 : Grouped}
    (hg : HonestGroup (fun t p o => o = group t p) topic (shareOf c topic) env.offsets)
    (h0 : ∀ n c, env.base.tick n c = c)
    (hc : (topic ∈ c.synced ∧ c0 = c) ∨ (∃ c1, topic ∉ c.synced ∧
      Grouped.determineRes plain env.offsets fuel topic c = (.ok (), c1) ∧
      c0 = { env.base.tick 0 c1 with synced := addSet (env.base.tick 0 c1).synced topic })) :
    Stayed group topic c c0 ∧ topic ∈ c0.synced := by
  rcases hc with ⟨hs, rfl⟩ | ⟨c1, hns, hd, rfl⟩
  · exact ⟨Stayed.refl _ _ _, hs⟩
  · obtain ⟨hd1, rfl⟩ := determineRes_ok hd
    obtain ⟨e1, e2, e3, e4, e5⟩ := determine_frame hg fuel c
    simp only [h0]
    have hmem : ∀ t, t ∈ addSet (c.determine plain env.offsets fuel topic).2.1.synced topic ↔
        t ∈ c.synced ∨ t = topic := by
      intro t
      rw [e1]
      unfold addSet
      split
      · exact ⟨Or.inl, fun h => h.elim id fun h => h ▸ (by assumption)⟩
      · simp
    refine ⟨⟨e3, fun h a ha => e4 a ha h, e2, fun t ht => (hmem t).2 (Or.inl ht), ?_, e5, ?_⟩,
      mem_addSet_self _ _⟩
    · intro t ht hne
      exact ((hmem t).1 ht).resolve_right hne
    · intro t p hp
      unfold whereIs
      by_cases htt : t = topic
      · subst htt
        rw [if_pos (mem_addSet_self _ _), if_neg hns]
        exact determine_adopts hg hd1 p hp
      · by_cases ht : t ∈ c.synced
        · rw [if_pos ((hmem t).2 (Or.inl ht)), if_pos ht]
          exact e5 t p htt
        · rw [if_neg (fun h => (((hmem t).1 h).elim ht htt)), if_neg ht]

theorem failed_determine_stayed {plain : Bool} {group : String → Int → Int} {env : GroupEnv β} {fuel : Nat}
    {topic : String} {c c1 : Grouped} {e : Exc}
    (hg : HonestGroup (fun t p o => o = group t p) topic (shareOf c topic) env.offsets)
    (hns : topic ∉ c.synced)
    (hd : Grouped.determineRes plain env.offsets fuel topic c = (.error e, c1)) :
    Stayed group topic c c1 := by
  simp only [Grouped.determineRes, Prod.mk.injEq] at hd
  obtain ⟨e1, e2, e3, e4, e5⟩ := determine_frame (plain := plain) hg fuel c
  rw [hd.2] at e1 e2 e3 e4 e5
  refine ⟨e3, fun h a ha => e4 a ha h, e2, fun t ht => e1 ▸ ht, fun t ht _ => e1 ▸ ht, e5, ?_⟩
  intro t p hp
  unfold whereIs
  rw [e1]
  by_cases ht : t ∈ c.synced
  · rw [if_pos ht, if_pos ht]
    exact e5 t p (fun h => hns (h ▸ ht))
  · rw [if_neg ht, if_neg ht]

/-- What is fetched is of partitions that were asked for. -/
theorem honest_share {ε : Type} {batch : List (Int × β) → Int → List (Int × β) → Prop}
    {logs : String → Int → List (Int × β)} {env : ConsumeEnv ε β} (hh : HonestFetch batch logs env)
    {cfg : CCfg β δ} {c : Consumer ε} {topic : String} {parts : List Int} {reqs : List FReq}
    (hf : FetchesExactly cfg c topic parts reqs) (t : String) (p : Int)
    (hp : ¬ (t = topic ∧ p ∈ parts)) : fetchedFor (allAnswers (env.outcomes reqs)) t p = [] := by
  unfold fetchedFor
  rw [List.filter_eq_nil_iff.2]
  · rfl
  · intro a ha
    simp only [decide_eq_true_eq]
    rintro ⟨rfl, rfl, h0⟩
    refine hp ?_
    simp only [allAnswers, List.mem_flatMap] at ha
    obtain ⟨⟨b, r⟩, ho, ha⟩ := ha
    cases r with
    | error e => simp at ha
    | ok r =>
      obtain ⟨q, hq, _, ps, hps, _, hparts⟩ := (hh reqs).2 b r ho
      simp only [answersOf, hps, List.mem_map] at ha
      obtain ⟨x, hx, rfl⟩ := ha
      obtain ⟨f, hfm, hfid, _⟩ := (hparts x hx).2 h0
      refine ⟨(hf.topics q hq).1, ?_⟩
      have hmem : x.id ∈ q.parts.map (·.id) := List.mem_map.2 ⟨f, hfm, hfid⟩
      rw [hf.named q hq] at hmem
      exact (List.mem_filter.1 hmem).1

theorem allocated_share {c : Grouped} {a : Dict String (List Int)} {topic : String}
    {parts : List Int} (h1 : c.allocation = .ok a) (h2 : allocated a topic = some parts) :
    parts = shareOf c topic := by
  unfold Grouped.allocation at h1
  unfold shareOf
  cases hm : c.ext.mapping with
  | none => rw [hm] at h1; simp at h1
  | some a' =>
    rw [hm] at h1
    simp only [Except.ok.injEq] at h1
    subst h1
    unfold allocated at h2
    split at h2
    · rename_i q qs hq
      simp only [Option.some.injEq] at h2
      simp only [hq, Option.getD_some, h2]
    · simp at h2

theorem Spec.Stayed.cluster {group : String → Int → Int} {topic : String} {c c' : Grouped}
    (h : Stayed group topic c c') (cl : Cluster) : Stayed group topic c { c' with cluster := cl } :=
  ⟨h.share, h.nodup, h.toCommit, h.grows, h.only, h.other, h.same⟩

/-- A `consume` of the base class that returns. -/
theorem base_moved {cfg : CCfg β δ} {logs : String → Int → List (Int × β)}
    (hl : ∀ t p, IsLog (logs t p)) {group : String → Int → Int}
    {env : GroupEnv β} {fuel : Nat} {topic : String} {c cb : Grouped}
    {result : Option (List δ)} {acts : List CAct}
    (hg : HonestGroup (fun t p o => o = group t p) topic (shareOf c topic) env.offsets)
    (hh : HonestFetch Batch logs env.base) (h0 : ∀ n c, env.base.tick n c = c)
    (hb : Consumer.consume Grouped.allocation (Grouped.determineRes cfg.plain env.offsets fuel topic) cfg
      env.base topic c = (.ok result, cb, acts)) :
    Moved cfg logs group topic c cb (result.getD []) := by
  rcases consume_parts hb with ⟨hr, rfl⟩ | ⟨e, c1, hns, hd, rfl, hr⟩ | ⟨c0, hc0, hcase⟩
  · simp only [Except.ok.injEq] at hr
    rw [hr]
    exact (Stayed.refl _ _ _).moved
  · have : result.getD [] = [] := by
      rcases hr with h | h
      · simp only [Except.ok.injEq] at h; rw [h]; rfl
      · simp at h
    rw [this, h0]
    exact (failed_determine_stayed hg hns hd).moved
  · obtain ⟨hs0, ht0⟩ := start_stayed hg h0 hc0
    rcases hcase with ⟨_, e, he⟩ | ⟨cl, rfl, hr⟩ | ⟨ca, parts, acts', hca, hf, _, al, hal, hparts⟩
    · simp at he
    · have : result.getD [] = [] := by
        rcases hr with h | ⟨e, h⟩
        · simp only [Except.ok.injEq] at h; rw [h]; rfl
        · simp at h
      rw [this, h0]
      exact (hs0.cluster cl).moved
    · have hsa : Stayed group topic c ca ∧ topic ∈ ca.synced := by
        rcases hca with rfl | ⟨cl, rfl⟩
        · exact ⟨hs0, ht0⟩
        · rw [h0]; exact ⟨hs0.cluster cl, ht0⟩
      obtain ⟨hsa, hta⟩ := hsa
      have hpa : parts = shareOf c topic := (allocated_share hal hparts).trans (hsa.share topic)
      rcases fetch_spec cfg env.base topic parts ca cb (.ok result) acts' hf with
        ⟨e, he, _⟩ | ⟨reqs, c1, _, hex, rfl, done, rest, _, ho, hs, _, hext, hok⟩
      · simp at he
      · obtain ⟨_, hdone, hout⟩ := hok result rfl
        have hres := hout (hh reqs).1
        subst hdone
        have hsy : ∀ t, t ∈ c1.synced ↔ t ∈ ca.synced := fun t =>
          (hs t).trans ⟨fun h => h.1, fun h => ⟨h, fun a ha _ => honest_codes hh reqs a ha⟩⟩
        obtain ⟨w1, src, w2, w3⟩ := fetch_window hl hh hex _ _ (fun _ _ => rfl) ho
        have hnone : ∀ t p, ¬ (t = topic ∧ p ∈ shareOf c topic) →
            offsetOf c1.offsets t p = offsetOf ca.offsets t p := by
          intro t p hn
          rw [ho, honest_share hh hex t p (by rw [hpa]; exact hn), after_nil]
        have hview : ∀ t, ∀ p ∈ shareOf c t, (whereIs group c t p ≤ whereIs group c1 t p) ∧
            window cfg (logs t p) (whereIs group c t p) (whereIs group c1 t p) =
            window cfg (logs t p) (offsetOf ca.offsets t p) (offsetOf c1.offsets t p) := by
          intro t p hp
          rw [← hsa.same t p hp]
          unfold whereIs
          by_cases ht : t ∈ ca.synced
          · rw [if_pos ht, if_pos ((hsy t).2 ht)]
            exact ⟨w1 t p, rfl⟩
          · have hne : ¬ (t = topic ∧ p ∈ shareOf c topic) := fun h => ht (h.1 ▸ hta)
            rw [if_neg ht, if_neg (fun h => ht ((hsy t).1 h)), hnone t p hne, window_empty,
              window_empty]
            exact ⟨Int.le_refl _, rfl⟩
        rw [h0, hres]
        refine ⟨fun t => ?_, ?_, ?_, fun t ht => (hsy t).2 (hsa.grows t ht),
          fun t ht hne => hsa.only t ((hsy t).1 ht) hne, fun t p hne => ?_,
          fun t p hp => (hview t p hp).1, ⟨src, w2, fun t p => ?_⟩,
          fun h => absurd ((hsy topic).2 hta) h⟩
        · rw [← hsa.share t]; simp only [shareOf, hext]
        · rw [hext]; exact hsa.nodup
        · rw [hext]; exact hsa.toCommit
        · rw [hnone t p (fun h => hne h.1), hsa.other t p hne]
        · rw [w3]
          beta_reduce
          by_cases hp : p ∈ shareOf c t
          · rw [if_pos hp, (hview t p hp).2]
          · rw [if_neg hp, hnone t p (fun h => hp (h.1 ▸ h.2)), window_empty]

/-- One that fetches nothing, whatever becomes of it. -/
theorem base_stayed {cfg : CCfg β δ} {group : String → Int → Int}
    {env : GroupEnv β} {fuel : Nat} {topic : String} {c cb : Grouped}
    {r : Res (Option (List δ))} {acts : List CAct}
    (hg : HonestGroup (fun t p o => o = group t p) topic (shareOf c topic) env.offsets)
    (h0 : ∀ n c, env.base.tick n c = c)
    (hb : Consumer.consume Grouped.allocation (Grouped.determineRes cfg.plain env.offsets fuel topic) cfg
      env.base topic c = (r, cb, acts)) (hn : ∀ reqs, CAct.fetch reqs ∉ acts) :
    Stayed group topic c cb := by
  rcases consume_parts hb with ⟨hr, rfl⟩ | ⟨e, c1, hns, hd, rfl, hr⟩ | ⟨c0, hc0, hcase⟩
  · exact Stayed.refl _ _ _
  · rw [h0]
    exact failed_determine_stayed hg hns hd
  · obtain ⟨hs0, ht0⟩ := start_stayed hg h0 hc0
    rcases hcase with ⟨rfl, _⟩ | ⟨cl, rfl, hr⟩ | ⟨ca, parts, acts', hca, hf, hin, _⟩
    · exact hs0
    · rw [h0]; exact hs0.cluster cl
    · have hsa : Stayed group topic c ca := by
        rcases hca with rfl | ⟨cl, rfl⟩
        · exact hs0
        · rw [h0]; exact hs0.cluster cl
      rcases fetch_spec cfg env.base topic parts ca cb r acts' hf with
        ⟨_, _, _, _, _, ho, hs, _, _, hext⟩ | ⟨reqs, c1, ha, _⟩
      · refine ⟨fun t => ?_, ?_, by rw [hext]; exact hsa.toCommit, fun t ht => hs ▸ hsa.grows t ht,
          fun t ht => hsa.only t (hs ▸ ht), fun t p hne => by rw [ho]; exact hsa.other t p hne, ?_⟩
        · rw [← hsa.share t]; simp only [shareOf, hext]
        · rw [hext]; exact hsa.nodup
        · intro t p hp
          rw [← hsa.same t p hp]
          unfold whereIs
          rw [hs, ho]
      · exact absurd (hin _ (by rw [ha]; simp)) (hn reqs)

/-! ### Commits -/

/-- What a commit leaves alone. -/
structure Spec.Kept (c c' : Grouped) : Prop where
  mapping : c'.ext.mapping = c.ext.mapping
  synced : c'.synced = c.synced
  offsets : ∀ t p, offsetOf c'.offsets t p = offsetOf c.offsets t p
  fewer : ∀ t ∈ c'.ext.toCommit, t ∈ c.ext.toCommit

/-- A topic ceases to wait to be committed only because of an answer without an error. -/
theorem commitResponse_discards (r : CommitResp) (c : Grouped) (t : String)
    (h : t ∈ c.ext.toCommit) (h' : t ∉ (handleCommitResponse r c).2.ext.toCommit) :
    ∃ p, (t, p, 0) ∈ commitAnswers r := by
  have hparts : ∀ t' ps (c : Grouped) b, t ∈ c.ext.toCommit →
      t ∉ (handleCommitParts t' ps c b).2.ext.toCommit → t = t' ∧ ∃ p, (p, 0) ∈ ps := by
    intro t' ps
    induction ps with
    | nil => intro c b h h'; exact absurd h h'
    | cons q ps ih =>
      intro c b h h'
      obtain ⟨id, code⟩ := q
      obtain ⟨retry, adjust⟩ := b
      have lift : (t = t' ∧ ∃ p, (p, 0) ∈ ps) → t = t' ∧ ∃ p, (p, 0) ∈ (id, code) :: ps :=
        fun ⟨h1, p, h2⟩ => ⟨h1, p, List.mem_cons_of_mem _ h2⟩
      simp only [handleCommitParts] at h'
      split at h'
      · rename_i h0
        by_cases htt : t = t'
        · refine ⟨htt, id, ?_⟩
          rw [h0]
          exact List.mem_cons_self
        · exact lift (ih _ _ (mem_discard.2 ⟨h, htt⟩) h')
      · split at h'
        · exact lift (ih _ _ (by exact h) h')
        · split at h'
          · exact lift (ih _ _ (by exact h) h')
          · split at h'
            · exact absurd h h'
            · exact lift (ih _ _ h h')
  have htopics : ∀ ts (c : Grouped) b, t ∈ c.ext.toCommit →
      t ∉ (handleCommitTopics ts c b).2.ext.toCommit → ∃ p ps, (t, ps) ∈ ts ∧ (p, 0) ∈ ps := by
    intro ts
    induction ts with
    | nil => intro c b h h'; exact absurd h h'
    | cons x ts ih =>
      intro c b h h'
      obtain ⟨t', ps⟩ := x
      by_cases hin : t ∈ (handleCommitParts t' ps c b).2.ext.toCommit
      · simp only [handleCommitTopics] at h'
        split at h'
        · rename_i heq
          rw [heq] at hin
          exact absurd hin h'
        · rename_i heq
          rw [heq] at hin
          obtain ⟨p, qs, h1, h2⟩ := ih _ _ hin h'
          exact ⟨p, qs, List.mem_cons_of_mem _ h1, h2⟩
      · obtain ⟨rfl, p, hp⟩ := hparts t' ps c b h hin
        exact ⟨p, ps, List.mem_cons_self, hp⟩
  obtain ⟨p, ps, h1, h2⟩ := htopics _ _ _ h h'
  refine ⟨p, ?_⟩
  simp only [commitAnswers, List.mem_flatMap, List.mem_map]
  exact ⟨(t, ps), h1, (p, 0), h2, rfl⟩

theorem share_entry {c : Grouped} (hn : ∀ a, c.ext.mapping = some a → a.keys.Nodup)
    {a : Dict String (List Int)} (ha : c.ext.mapping = some a) {t : String} {ps : List Int}
    (h : (t, ps) ∈ a) : shareOf c t = ps := by
  simp only [shareOf, ha, Dict.get?_of_mem (hn a ha) h, Option.getD_some]

theorem entry_share {c : Grouped} {a : Dict String (List Int)} (ha : c.ext.mapping = some a)
    {t : String} {p : Int} (h : p ∈ shareOf c t) : (t, shareOf c t) ∈ a := by
  simp only [shareOf, ha] at h ⊢
  cases hg : a.get? t with
  | none => rw [hg] at h; simp at h
  | some ps => exact Dict.mem_of_get? hg

/-- All about a commit: what it leaves alone, what it asks for, and what has been stored if a topic
ceases to wait. -/
theorem commitLoop_kept {env : CommitEnv} (hT : ∀ n c, env.tick n c = c) (fuel n : Nat)
    (md : String) (c : Grouped) (hn : ∀ a, c.ext.mapping = some a → a.keys.Nodup) :
    Kept c (Grouped.commitLoop env fuel n md c).2.1 ∧
    (∀ t p o, (t, p, o) ∈ offsetsIn (Grouped.commitLoop env fuel n md c).2.2 →
      t ∈ c.ext.toCommit ∧ p ∈ shareOf c t ∧ o = offsetOf c.offsets t p) ∧
    (∀ t ∈ c.ext.toCommit, t ∉ (Grouped.commitLoop env fuel n md c).2.1.ext.toCommit →
      (∃ m r, (env.send m).outcome = .ok r ∧ ∃ p, (t, p, 0) ∈ commitAnswers r) ∧
      ∀ p ∈ shareOf c t, (t, p, offsetOf c.offsets t p) ∈
        offsetsIn (Grouped.commitLoop env fuel n md c).2.2) := by
  induction fuel generalizing n md c with
  | zero =>
    exact ⟨⟨rfl, rfl, fun _ _ => rfl, fun _ h => h⟩, by simp [Grouped.commitLoop, offsetsIn],
      fun t h h' => absurd h h'⟩
  | succ fuel ih =>
    cases hm : c.ext.mapping with
    | none =>
      simp only [Grouped.commitLoop, hm]
      exact ⟨⟨hm ▸ rfl, rfl, fun _ _ => rfl, fun _ h => h⟩, by simp [offsetsIn],
        fun t h h' => absurd h h'⟩
    | some a =>
      obtain ⟨k1, k2⟩ := commitTopics_spec c.ext.toCommit a c.offsets
      -- the request
      have hreq : ∀ (rs : List CommitReq) co t p o,
          (t, p, o) ∈ offsetsIn (⟨co, md, (commitTopics c.ext.toCommit a c.offsets).1⟩ :: rs) ↔
          (t ∈ c.ext.toCommit ∧ p ∈ shareOf c t ∧ o = offsetOf c.offsets t p) ∨
            (t, p, o) ∈ offsetsIn rs := by
        intro rs co t p o
        have : (t, p, o) ∈ offsetsIn [⟨co, md, (commitTopics c.ext.toCommit a c.offsets).1⟩] ↔
            t ∈ c.ext.toCommit ∧ p ∈ shareOf c t ∧ o = offsetOf c.offsets t p := by
          rw [k1]
          simp only [offsetsIn, List.flatMap_cons, List.flatMap_nil, List.append_nil, commitOf,
            List.mem_flatMap, List.mem_map, List.mem_filter, decide_eq_true_eq]
          constructor
          · rintro ⟨x, ⟨e, ⟨he, het⟩, rfl⟩, q, hq, h⟩
            obtain ⟨p', hp', rfl⟩ := List.mem_map.1 hq
            simp only [Prod.mk.injEq] at h
            obtain ⟨rfl, rfl, rfl⟩ := h
            have hs := share_entry hn hm (t := e.1) (ps := e.2) he
            exact ⟨het, hs ▸ hp', rfl⟩
          · rintro ⟨h1, h2, rfl⟩
            exact ⟨_, ⟨(t, shareOf c t), ⟨entry_share hm h2, h1⟩, rfl⟩, (p, offsetOf c.offsets t p),
              List.mem_map.2 ⟨p, h2, rfl⟩, rfl⟩
        rw [show offsetsIn (⟨co, md, (commitTopics c.ext.toCommit a c.offsets).1⟩ :: rs) =
          offsetsIn [⟨co, md, (commitTopics c.ext.toCommit a c.offsets).1⟩] ++ offsetsIn rs from by
            simp [offsetsIn], List.mem_append, this]
      -- its answer
      let P : Grouped → Prop := fun c' => Kept c c' ∧
        ∀ t ∈ c.ext.toCommit, t ∉ c'.ext.toCommit →
          ∃ r, (env.send n).outcome = .ok r ∧ ∃ p, (t, p, 0) ∈ commitAnswers r
      have hsend : P (Grouped.sendCoordinator commitHandlers (env.send n)
          { c with offsets := (commitTopics c.ext.toCommit a c.offsets).2 }).2 := by
        have hstart : P { c with offsets := (commitTopics c.ext.toCommit a c.offsets).2 } :=
          ⟨⟨rfl, rfl, k2, fun _ h => h⟩, fun t h h' => absurd h h'⟩
        unfold Grouped.sendCoordinator
        split
        · exact hstart
        · have hP : ∀ (c : Grouped) cl h, P c → P { c with cluster := cl, heal := h } :=
            fun _ _ _ h => ⟨⟨h.1.1, h.1.2, h.1.3, h.1.4⟩, h.2⟩
          refine sendTo_rel _ _ _ P hP ?_ hstart
          intro r f ho hf c' hc'
          simp only [commitHandlers, Option.some.injEq] at hf
          subst hf
          refine hP _ _ _ ?_
          obtain ⟨e1, e2, _, e4, _, e6⟩ := commitResponse_any r c'
          refine ⟨⟨e2.trans hc'.1.1, e4.trans hc'.1.2, fun t p => by rw [e1]; exact hc'.1.3 t p,
            fun t ht => hc'.1.4 t (e6 t ht)⟩, fun t ht hnt => ?_⟩
          by_cases hin : t ∈ c'.ext.toCommit
          · exact ⟨r, ho, commitResponse_discards r c' t hin hnt⟩
          · exact hc'.2 t ht hin
      have hdone : ∀ c' : Grouped, P c' → ∀ (rs : List CommitReq) co,
          ∀ t ∈ c.ext.toCommit, t ∉ c'.ext.toCommit →
          (∃ m r, (env.send m).outcome = .ok r ∧ ∃ p, (t, p, 0) ∈ commitAnswers r) ∧
          ∀ p ∈ shareOf c t, (t, p, offsetOf c.offsets t p) ∈
            offsetsIn (⟨co, md, (commitTopics c.ext.toCommit a c.offsets).1⟩ :: rs) :=
        fun c' hc' rs co t ht hnt => ⟨⟨n, hc'.2 t ht hnt⟩,
          fun p hp => (hreq rs co t p _).2 (Or.inl ⟨ht, hp, rfl⟩)⟩
      simp only [Grouped.commitLoop, hm, hT]
      split
      · rename_i heq
        rw [heq] at hsend
        exact ⟨hsend.1, fun t p o h => ((hreq _ _ t p o).1 h).resolve_right (by simp [offsetsIn]),
          hdone _ hsend _ _⟩
      · rename_i retry adjust c1 heq
        rw [heq] at hsend
        split
        · have hn1 : ∀ a, c1.ext.mapping = some a → a.keys.Nodup := by
            rw [show c1.ext.mapping = c.ext.mapping from hsend.1.1]; exact hn
          obtain ⟨i1, i2, i3⟩ := ih (n + 1) (if adjust then "" else md) c1 hn1
          have hsh : ∀ t, shareOf c1 t = shareOf c t := fun t => by
            simp only [shareOf, show c1.ext.mapping = c.ext.mapping from hsend.1.1]
          refine ⟨⟨i1.1.trans hsend.1.1, i1.2.trans hsend.1.2,
            fun t p => (i1.3 t p).trans (hsend.1.3 t p), fun t ht => hsend.1.4 t (i1.4 t ht)⟩,
            fun t p o h => ?_, fun t ht hnt => ?_⟩
          · rcases (hreq _ _ t p o).1 h with h | h
            · exact h
            · obtain ⟨j1, j2, j3⟩ := i2 t p o h
              exact ⟨hsend.1.4 t j1, hsh t ▸ j2, j3.trans (hsend.1.3 t p)⟩
          · by_cases hin : t ∈ c1.ext.toCommit
            · exact ⟨(i3 t hin hnt).1, fun p hp => (hreq _ _ t p _).2 (Or.inl ⟨ht, hp, rfl⟩)⟩
            · exact hdone _ hsend _ _ t ht hin
        · exact ⟨hsend.1, fun t p o h => ((hreq _ _ t p o).1 h).resolve_right (by simp [offsetsIn]),
            hdone _ hsend _ _⟩

/-! ### The group -/

/-- The invariant: `pos` is where the group stands. -/
structure Spec.CrewInv (cfg : CCfg β δ) (logs : String → Int → List (Int × β))
    (base pos : String → Int → Int) (g : Crew δ) : Prop where
  apart : SharesApart g.members
  nodup : ∀ i a, (g.members i).ext.mapping = some a → a.keys.Nodup
  waiting : ∀ i, ∀ t ∈ (g.members i).ext.toCommit, t ∈ (g.members i).synced
  settled : ∀ i t, t ∉ (g.members i).ext.toCommit → ∀ p ∈ shareOf (g.members i) t,
    whereIs g.group (g.members i) t p = g.group t p
  owned : ∀ i t, ∀ p ∈ shareOf (g.members i) t, pos t p = whereIs g.group (g.members i) t p
  free : ∀ t p, (∀ i, p ∉ shareOf (g.members i) t) → pos t p = g.group t p
  mono : ∀ t p, base t p ≤ pos t p
  reads : Interleaving (fun t p => window cfg (logs t p) (base t p) (pos t p)) g.returned

theorem crew_stands {cfg : CCfg β δ} {logs : String → Int → List (Int × β)}
    {base pos : String → Int → Int} {g : Crew δ} (h : CrewInv cfg logs base pos g) (t : String)
    (p o : Int) : g.Stands t p o ↔ o = pos t p := by
  constructor
  · rintro (⟨i, h1, h2, rfl⟩ | ⟨h1, rfl⟩)
    · rw [h.owned i t p h1, whereIs, if_pos h2]
    · by_cases hex : ∃ i, p ∈ shareOf (g.members i) t
      · obtain ⟨i, hi⟩ := hex
        rw [h.owned i t p hi, whereIs, if_neg (h1 i hi)]
      · rw [h.free t p (fun i hi => hex ⟨i, hi⟩)]
  · rintro rfl
    by_cases hex : ∃ i, p ∈ shareOf (g.members i) t ∧ t ∈ (g.members i).synced
    · obtain ⟨i, hi, hs⟩ := hex
      exact Or.inl ⟨i, hi, hs, by rw [h.owned i t p hi, whereIs, if_pos hs]⟩
    · refine Or.inr ⟨fun i hi hs => hex ⟨i, hi, hs⟩, ?_⟩
      by_cases hex2 : ∃ i, p ∈ shareOf (g.members i) t
      · obtain ⟨i, hi⟩ := hex2
        rw [h.owned i t p hi, whereIs, if_neg (fun hs => hex ⟨i, hi, hs⟩)]
      · exact h.free t p (fun i hi => hex2 ⟨i, hi⟩)

/-- A member does something to its own partitions only. -/
theorem crew_put {cfg : CCfg β δ} {logs : String → Int → List (Int × β)}
    (hl : ∀ t p, IsLog (logs t p)) {base pos : String → Int → Int} {g : Crew δ}
    (h : CrewInv cfg logs base pos g) (i : Nat) (c : Grouped) (group : String → Int → Int)
    (more : List (String × δ)) (hsh : ∀ t, shareOf c t = shareOf (g.members i) t)
    (hnd : ∀ a, c.ext.mapping = some a → a.keys.Nodup) (hwait : ∀ t ∈ c.ext.toCommit, t ∈ c.synced)
    (hset : ∀ t, t ∉ c.ext.toCommit → ∀ p ∈ shareOf c t, whereIs group c t p = group t p)
    (hgroup : ∀ t p, p ∉ shareOf (g.members i) t → group t p = g.group t p)
    (hmono : ∀ t, ∀ p ∈ shareOf (g.members i) t,
      whereIs g.group (g.members i) t p ≤ whereIs group c t p)
    (hreads : Interleaving (fun t p => if p ∈ shareOf (g.members i) t then
      window cfg (logs t p) (whereIs g.group (g.members i) t p) (whereIs group c t p) else []) more) :
    ∃ pos', CrewInv cfg logs base pos' ⟨g.put i c, group, g.returned ++ more⟩ ∧
      ∀ t p, pos t p ≤ pos' t p := by
  have hput : ∀ j t, shareOf (g.put i c j) t = shareOf (g.members j) t := by
    intro j t
    unfold Crew.put
    split
    · rename_i h; rw [h, hsh]
    · rfl
  have hother : ∀ j, j ≠ i → ∀ t, ∀ p ∈ shareOf (g.members j) t, group t p = g.group t p :=
    fun j hj t p hp => hgroup t p fun hp' => hj (h.apart j i t p hp hp')
  refine ⟨fun t p => if p ∈ shareOf (g.members i) t then whereIs group c t p else pos t p,
    ⟨fun j k t p hj hk => ?_, fun j a ha => ?_, fun j t ht => ?_, fun j t ht p hp => ?_,
    fun j t p hp => ?_, fun t p hp => ?_, fun t p => ?_, ?_⟩, fun t p => ?_⟩
  · exact h.apart j k t p (hput j t ▸ hj) (hput k t ▸ hk)
  · simp only [Crew.put] at ha
    split at ha
    · exact hnd a ha
    · exact h.nodup j a ha
  · simp only [Crew.put] at ht ⊢
    split at ht
    · rename_i hj; rw [if_pos hj]; exact hwait t ht
    · rename_i hj; rw [if_neg hj]; exact h.waiting j t ht
  · simp only [Crew.put] at ht hp ⊢
    split at ht
    · rename_i hj; rw [if_pos hj] at hp ⊢; exact hset t ht p hp
    · rename_i hj
      rw [if_neg hj] at hp ⊢
      have e := hother j hj t p hp
      have := h.settled j t ht p hp
      unfold whereIs at this ⊢
      rw [e]
      exact this
  · have hp' : p ∈ shareOf (g.members j) t := hput j t ▸ hp
    by_cases hj : j = i
    · subst hj
      simp only [Crew.put, if_pos hp', if_true]
    · simp only [Crew.put, if_neg hj]
      rw [if_neg (fun hpi => hj (h.apart j i t p hp' hpi)), h.owned j t p hp']
      unfold whereIs
      rw [hother j hj t p hp']
  · have hp' : ∀ j, p ∉ shareOf (g.members j) t := fun j => hput j t ▸ hp j
    rw [if_neg (hp' i), h.free t p hp']
    exact (hgroup t p (hp' i)).symm
  · split
    · rename_i hp
      have := h.mono t p
      rw [h.owned i t p hp] at this
      exact Int.le_trans this (hmono t p hp)
    · exact h.mono t p
  · have := interleaving_append h.reads hreads
    convert this using 3 with t p
    split
    · rename_i hp
      have h1 := h.mono t p
      have h2 := hmono t p hp
      rw [h.owned i t p hp] at h1 ⊢
      unfold window
      rw [← List.filter_append, ← values_append, window_append _ (hl t p).sorted _ _ _ h1 h2]
    · rw [List.append_nil]
  · beta_reduce
    split
    · rename_i hp
      rw [h.owned i t p hp]
      exact hmono t p hp
    · exact Int.le_refl _

/-- A `consume`, in whatever way it goes on after the base class is done, or a commit. -/
theorem crew_step {cfg : CCfg β δ} {logs : String → Int → List (Int × β)}
    (hl : ∀ t p, IsLog (logs t p)) {base pos : String → Int → Int} {g : Crew δ}
    (h : CrewInv cfg logs base pos g) (i : Nat) {topic : String} {cb c : Grouped} {out : List δ}
    (hm : Moved cfg logs g.group topic (g.members i) cb out)
    (pending : List String) (hwait : ∀ t ∈ pending, t ∈ cb.synced)
    (hset : ∀ t, t ∉ pending → ∀ p ∈ shareOf cb t, whereIs g.group cb t p = g.group t p)
    {env : CommitEnv} {reqs : List CommitReq} {group : String → Int → Int}
    (hk : Kept { cb with ext := { cb.ext with toCommit := pending } } c)
    (hreqs : ∀ t p o, (t, p, o) ∈ offsetsIn reqs →
      t ∈ pending ∧ p ∈ shareOf cb t ∧ o = offsetOf cb.offsets t p)
    (hdone : ∀ t ∈ pending, t ∉ c.ext.toCommit →
      (∃ m r, (env.send m).outcome = .ok r ∧ ∃ p, (t, p, 0) ∈ commitAnswers r) ∧
      ∀ p ∈ shareOf cb t, (t, p, offsetOf cb.offsets t p) ∈ offsetsIn reqs)
    (hst : Stores env reqs g.group group) :
    ∃ pos', CrewInv cfg logs base pos'
      ⟨g.put i c, group, g.returned ++ out.map fun d => (topic, d)⟩ ∧
      ∀ t p, pos t p ≤ pos' t p := by
  have hshc : ∀ t, shareOf c t = shareOf cb t := fun t => by
    simp only [shareOf, hk.mapping]
  have hsame : ∀ t p, (t ∉ pending ∨ p ∉ shareOf cb t) → group t p = g.group t p := by
    intro t p hn
    rcases hst.only t p with h | h
    · exact h
    · obtain ⟨h1, h2, _⟩ := hreqs _ _ _ h
      rcases hn with hn | hn
      · exact absurd h1 hn
      · exact absurd h2 hn
  have hview : ∀ t p, whereIs group c t p = whereIs g.group cb t p := by
    intro t p
    unfold whereIs
    have hs : c.synced = cb.synced := hk.synced
    have ho : offsetOf c.offsets t p = offsetOf cb.offsets t p := hk.offsets t p
    rw [hs, ho]
    split
    · rfl
    · rename_i hns
      exact hsame t p (Or.inl fun hp => hns (hwait t hp))
  refine crew_put hl h i c group _ (fun t => (hshc t).trans (hm.share t)) ?_ ?_ ?_ ?_ ?_ ?_
  · rw [hk.mapping]
    exact hm.nodup (h.nodup i)
  · intro t ht
    rw [hk.synced]
    exact hwait t (hk.fewer t ht)
  · intro t ht p hp
    rw [hshc] at hp
    rw [hview]
    by_cases hpend : t ∈ pending
    · obtain ⟨⟨m, r, h1, q, h2⟩, h3⟩ := hdone t hpend ht
      rw [hst.all m r h1 t q h2 p _ (h3 p hp), whereIs, if_pos (hwait t hpend)]
    · rw [hset t hpend p hp, hsame t p (Or.inl hpend)]
  · intro t p hp
    exact hsame t p (Or.inr fun h => hp (hm.share t ▸ h))
  · intro t p hp
    rw [hview]
    exact hm.mono t p hp
  · simp only [hview]
    exact hm.reads

theorem stayed_settled {cfg : CCfg β δ} {logs : String → Int → List (Int × β)}
    {base pos : String → Int → Int} {g : Crew δ} (h : CrewInv cfg logs base pos g) {i : Nat}
    {topic : String} {cb : Grouped} (hs : Stayed g.group topic (g.members i) cb) :
    (∀ t ∈ cb.ext.toCommit, t ∈ cb.synced) ∧
    ∀ t, t ∉ cb.ext.toCommit → ∀ p ∈ shareOf cb t, whereIs g.group cb t p = g.group t p := by
  refine ⟨fun t ht => ?_, fun t ht p hp => ?_⟩
  · rw [hs.toCommit] at ht
    exact hs.grows t (h.waiting i t ht)
  · rw [hs.toCommit] at ht
    rw [hs.share] at hp
    rw [hs.same t p hp]
    exact h.settled i t ht p hp

/-- The topic just consumed is waiting. -/
theorem moved_settled {cfg : CCfg β δ} {logs : String → Int → List (Int × β)}
    {base pos : String → Int → Int} {g : Crew δ} (h : CrewInv cfg logs base pos g) {i : Nat}
    {topic : String} {cb : Grouped} {out : List δ}
    (hm : Moved cfg logs g.group topic (g.members i) cb out) (pending : List String)
    (hp1 : ∀ t ∈ cb.ext.toCommit, t ∈ pending)
    (hp2 : topic ∈ cb.synced → topic ∈ pending) :
    ∀ t, t ∉ pending → ∀ p ∈ shareOf cb t, whereIs g.group cb t p = g.group t p := by
  intro t ht p hps
  rw [hm.share] at hps
  by_cases htt : t = topic
  · subst htt
    rw [whereIs, if_neg (fun h => ht (hp2 h))]
  · have hn : t ∉ (g.members i).ext.toCommit := fun h => ht (hp1 t (hm.toCommit ▸ h))
    have := h.settled i t hn p hps
    unfold whereIs at this ⊢
    rw [hm.other t p htt]
    by_cases hs : t ∈ (g.members i).synced
    · rw [if_pos hs] at this
      rw [if_pos (hm.grows t hs)]
      exact this
    · rw [if_neg (fun h => hs (hm.only t h htt))]

theorem waits_for {cfg : CCfg β δ} {logs : String → Int → List (Int × β)}
    {base pos : String → Int → Int} {g : Crew δ} (h : CrewInv cfg logs base pos g) {i : Nat}
    {topic : String} {cb : Grouped} {out : List δ}
    (hm : Moved cfg logs g.group topic (g.members i) cb out) (hs : topic ∈ cb.synced) :
    ∀ t ∈ addSet cb.ext.toCommit topic, t ∈ cb.synced := by
  intro t ht
  rcases (mem_addSet _ _ _).1 ht with rfl | ht
  · exact hs
  · exact hm.grows t (h.waiting i t (hm.toCommit ▸ ht))

theorem kept_refl (c : Grouped) : Kept c c := ⟨rfl, rfl, fun _ _ => rfl, fun _ h => h⟩

/-- Whatever happens, the group does not go back. -/
theorem crewStep_inv {cfg : CCfg β δ} {logs : String → Int → List (Int × β)}
    (hl : ∀ t p, IsLog (logs t p)) {base pos : String → Int → Int} {g g' : Crew δ}
    (hstep : CrewStep cfg logs g g') (ih : CrewInv cfg logs base pos g) :
    ∃ pos', CrewInv cfg logs base pos' g' ∧ ∀ t p, pos t p ≤ pos' t p := by
  cases hstep with
  | @consume _ _ _ hcons =>
    obtain ⟨i, gcfg, env, fuel, t, result, c, acts, reqs, group, hg, hh, hu, hc, hst⟩ := hcons
    rcases gconsume_cases gcfg cfg env fuel t (g.members i) with ⟨_, _, _, h3⟩ |
      ⟨bres, cb, acts', hb, hcase⟩
    · rw [hc] at h3; simp at h3
    · rcases hcase with ⟨e, _, h3⟩ | ⟨r, rfl, hs, h3⟩ | ⟨r, rfl, hs, _, h3⟩ |
        ⟨r, cr, rfl, hs, _, hcr, h3, h4⟩
      · rw [hc] at h3; simp at h3
      · rw [hc] at h3
        simp only [Prod.mk.injEq, Run.done.injEq] at h3
        obtain ⟨rfl, rfl, _, rfl⟩ := h3
        have hm := base_moved hl hg hh hu.1 hb
        rw [hm.nothing hs] at hm
        have hw : ∀ t ∈ c.ext.toCommit, t ∈ c.synced := fun t ht =>
          hm.grows t (ih.waiting i t (hm.toCommit ▸ ht))
        exact crew_step hl ih i hm c.ext.toCommit hw
          (moved_settled ih hm _ (fun _ h => h) (fun h => absurd h hs)) (kept_refl c)
          (by simp [offsetsIn]) (fun t ht hn => absurd ht hn) hst
      · rw [hc] at h3
        simp only [Prod.mk.injEq, Run.done.injEq] at h3
        obtain ⟨rfl, rfl, _, rfl⟩ := h3
        have hm := base_moved hl hg hh hu.1 hb
        have hw := waits_for ih hm hs
        exact crew_step hl ih i hm _ hw
          (moved_settled ih hm _ (fun t ht => (mem_addSet _ _ _).2 (Or.inr ht))
            (fun _ => (mem_addSet _ _ _).2 (Or.inl rfl))) (kept_refl _)
          (by simp [offsetsIn]) (fun t ht hn => absurd ht hn) hst
      · rw [hc] at h3 h4
        have hr' : result = r := by
          rcases h4 with ⟨_, h⟩ | ⟨e, _, h⟩ | ⟨_, h⟩
          · simpa using h
          · simp at h
          · simp at h
        subst hr'
        simp only [Prod.mk.injEq] at h3
        obtain ⟨rfl, _, rfl⟩ := h3
        have hm := base_moved hl hg hh hu.1 hb
        have hw := waits_for ih hm hs
        obtain ⟨k1, k2, k3⟩ := commitLoop_kept hu.2 fuel 0 ("committed by " ++ gcfg.name)
          { cb with ext := { cb.ext with toCommit := addSet cb.ext.toCommit t } }
          (hm.nodup (ih.nodup i))
        rw [hcr] at hst ⊢
        exact crew_step hl ih i hm _ hw
          (moved_settled ih hm _ (fun t ht => (mem_addSet _ _ _).2 (Or.inr ht))
            (fun _ => (mem_addSet _ _ _).2 (Or.inl rfl))) k1 k2 k3 hst
  | @failed i gcfg env fuel t e c acts reqs group hg hu hc hn hst =>
    rcases gconsume_cases gcfg cfg env fuel t (g.members i) with ⟨_, _, _, h3⟩ |
      ⟨bres, cb, acts', hb, hcase⟩
    · rw [hc] at h3; simp at h3
    · rcases hcase with ⟨e, _, h3⟩ | ⟨r, rfl, hs, h3⟩ | ⟨r, rfl, hs, _, h3⟩ |
        ⟨r, cr, rfl, hs, _, hcr, h3, h4⟩
      · rw [hc] at h3
        simp only [Prod.mk.injEq] at h3
        obtain ⟨_, rfl, rfl, rfl⟩ := h3
        have hs := base_stayed hg hu.1 hb hn
        obtain ⟨k1, k2⟩ := stayed_settled ih hs
        have := crew_step hl ih i (out := []) hs.moved c.ext.toCommit k1 k2 (kept_refl c)
          (by simp [offsetsIn]) (fun t ht hn => absurd ht hn) hst
        simpa using this
      · rw [hc] at h3; simp at h3
      · rw [hc] at h3; simp at h3
      · rw [hc] at h3
        simp only [Prod.mk.injEq] at h3
        obtain ⟨rfl, rfl, rfl⟩ := h3
        have hst' := base_stayed hg hu.1 hb hn
        have hm : Moved cfg logs g.group t (g.members i) cb [] := hst'.moved
        have hw := waits_for ih hm hs
        obtain ⟨k1, k2, k3⟩ := commitLoop_kept hu.2 fuel 0 ("committed by " ++ gcfg.name)
          { cb with ext := { cb.ext with toCommit := addSet cb.ext.toCommit t } }
          (hm.nodup (ih.nodup i))
        rw [hcr] at hst ⊢
        have := crew_step hl ih i hm _ hw
          (moved_settled ih hm _ (fun t ht => (mem_addSet _ _ _).2 (Or.inr ht))
            (fun _ => (mem_addSet _ _ _).2 (Or.inl rfl))) k1 k2 k3 hst
        rw [List.map_nil, List.append_nil] at this
        exact this
  | @commit i env fuel name md group ht hst =>
    have hs := Stayed.refl g.group "" (g.members i)
    obtain ⟨k1, k2⟩ := stayed_settled ih hs
    obtain ⟨j1, j2, j3⟩ := commitLoop_kept ht fuel 0 (md.getD ("committed by " ++ name))
      (g.members i) (ih.nodup i)
    have := crew_step hl ih i (out := []) hs.moved _ k1 k2 j1 j2 j3 hst
    rw [List.map_nil, List.append_nil] at this
    exact this
  | @settle members hq ha hf =>
    have hpos : ∀ t p, pos t p = g.group t p := by
      intro t p
      by_cases hex : ∃ i, p ∈ shareOf (g.members i) t
      · obtain ⟨i, hi⟩ := hex
        rw [ih.owned i t p hi]
        exact ih.settled i t (by rw [hq i]; simp) p hi
      · exact ih.free t p (fun i hi => hex ⟨i, hi⟩)
    refine ⟨pos, ⟨ha, fun i => (hf i).mapping, fun i t ht => ?_, fun i t _ p _ => ?_,
      fun i t p _ => ?_, fun t p _ => hpos t p, ih.mono, ih.reads⟩, fun _ _ => Int.le_refl _⟩
    · rw [(hf i).committed] at ht; simp at ht
    · simp [whereIs, (hf i).synced]
    · simp [whereIs, (hf i).synced, hpos]

theorem crewRun_inv {cfg : CCfg β δ} {logs : String → Int → List (Int × β)}
    (hl : ∀ t p, IsLog (logs t p)) {base : String → Int → Int} {g : Crew δ}
    (h : CrewRun cfg logs base g) : ∃ pos, CrewInv cfg logs base pos g := by
  induction h with
  | start members ha hf =>
    refine ⟨base, ha, fun i => (hf i).mapping, fun i t ht => ?_, fun i t _ p _ => ?_,
      fun i t p _ => ?_, fun _ _ _ => rfl, fun _ _ => Int.le_refl _, [], rfl, fun t p => ?_⟩
    · rw [(hf i).committed] at ht; simp at ht
    · simp [whereIs, (hf i).synced]
    · simp [whereIs, (hf i).synced]
    · beta_reduce
      rw [window_empty]; rfl
  | @step g g' _ hstep ih =>
    obtain ⟨pos, ih⟩ := ih
    obtain ⟨pos', h, _⟩ := crewStep_inv hl hstep ih
    exact ⟨pos', h⟩

/-! ### C100 -/

/-- **C100**: what the members of such a group have returned is an interleaving of what the group
has read of each partition; and that is exactly the messages between the offset that the coordinator
had in the beginning and the offset where the group stands, each once and in order, whoever has read
it, less those that cannot be deserialized or are false to Python. -/
theorem C100_exactly_once (cfg : CCfg β δ) (logs : String → Int → List (Int × β))
    (hl : ∀ t p, IsLog (logs t p)) (base : String → Int → Int) (g : Crew δ)
    (h : CrewRun cfg logs base g) :
    ∃ pos : String → Int → Int, (∀ t p o, g.Stands t p o ↔ o = pos t p) ∧
      (∀ t p, base t p ≤ pos t p) ∧
      Interleaving (fun t p => (values cfg ((logs t p).filter fun m =>
        decide (base t p ≤ m.1 ∧ m.1 < pos t p))).filter cfg.truthy) g.returned := by
  obtain ⟨pos, hi⟩ := crewRun_inv hl h
  exact ⟨pos, crew_stands hi, hi.mono, hi.reads⟩

/-- **C100**: while nothing waits to be committed, the group stands where its coordinator says. -/
theorem C100_committed (cfg : CCfg β δ) (logs : String → Int → List (Int × β))
    (hl : ∀ t p, IsLog (logs t p)) (base : String → Int → Int) (g : Crew δ)
    (h : CrewRun cfg logs base g) (hq : ∀ i, (g.members i).ext.toCommit = []) :
    ∀ t p o, g.Stands t p o ↔ o = g.group t p := by
  obtain ⟨pos, hi⟩ := crewRun_inv hl h
  intro t p o
  rw [crew_stands hi]
  have : pos t p = g.group t p := by
    by_cases hex : ∃ i, p ∈ shareOf (g.members i) t
    · obtain ⟨i, hip⟩ := hex
      rw [hi.owned i t p hip]
      exact hi.settled i t (by rw [hq i]; simp) p hip
    · exact hi.free t p (fun i hip => hex ⟨i, hip⟩)
  rw [this]

/-- **C100**: once the group stands at the end of every log, all messages have been returned,
exactly once. -/
theorem C100_all (cfg : CCfg β δ) (logs : String → Int → List (Int × β))
    (hl : ∀ t p, IsLog (logs t p)) (base : String → Int → Int) (g : Crew δ)
    (h : CrewRun cfg logs base g)
    (hend : ∀ t p, ∃ o, g.Stands t p o ∧ ∀ m ∈ logs t p, o ≤ m.1 → decode cfg m.2 = .none) :
    Interleaving (fun t p => (values cfg ((logs t p).filter fun m =>
      decide (base t p ≤ m.1))).filter cfg.truthy) g.returned := by
  obtain ⟨pos, hs, hm, hr⟩ := C100_exactly_once cfg logs hl base g h
  convert hr using 3 with t p
  obtain ⟨o, ho, he⟩ := hend t p
  rw [hs] at ho
  subst ho
  have hnil : ahead cfg (logs t p) (pos t p) = [] := by
    unfold ahead
    rw [List.filter_eq_nil_iff]
    intro m hmem
    simp only [Bool.and_eq_true, decide_eq_true_eq, not_and]
    intro hle
    rw [he m hmem hle]
    simp
  have := window_rest cfg (hl t p) (hm t p)
  rw [rest_done cfg hnil, List.append_nil] at this
  exact this

/-- **C100**: when everybody in a group has been told what it consists of, and those that are not in
it have nothing to consume, then no two are to consume the same partition, and each of the
group's partitions is to be consumed by somebody: what `settle` asks for. -/
theorem C100_group (ok : Bool) (name : Nat → String) (sess : Nat → Int)
    (hname : ∀ i j, name i = name j → i = j) (evs : List GEv) (hplain : PlainAdds evs)
    (g : Group) (hg : g = (Group.new name sess).run ok evs)
    (hup : ∀ i, Joined g i → UpToDate ok i evs (Group.new name sess)) (hsome : ∃ i, Joined g i)
    (members : Nat → Grouped)
    (hin : ∀ i, Joined g i → ∃ a, (g.mate i).alloc.allocation.1 = .ok a ∧
      (members i).ext.mapping = some a)
    (hout : ∀ i, ¬ Joined g i → (members i).ext.mapping = some []) :
    SharesApart members ∧
    ∀ t p, PlainName t → (InGroup g t p ↔ ∃ i, p ∈ shareOf (members i) t) := by
  have key : ∀ i t p, p ∈ shareOf (members i) t ↔ Joined g i ∧ Consumes g i t p := by
    intro i t p
    by_cases hj : Joined g i
    · obtain ⟨a, ha, hm⟩ := hin i hj
      unfold shareOf
      rw [hm]
      constructor
      · intro h
        exact ⟨hj, a, ha, h⟩
      · rintro ⟨_, a', ha', h⟩
        rw [ha] at ha'
        obtain rfl := Except.ok.inj ha'
        exact h
    · unfold shareOf
      rw [hout i hj]
      constructor
      · intro h
        exact absurd h (by simp [Dict.get?])
      · exact fun h => absurd h.1 hj
  constructor
  · intro i j t p hi hj
    rw [key] at hi hj
    exact (C82_settled ok name sess hname evs hplain g hg hup hsome t p).2 i j hi.1 hj.1 hi.2 hj.2
  · intro t p ht
    rw [(C82_settled ok name sess hname evs hplain g hg hup hsome t p).1 ht]
    exact exists_congr fun i => (key i t p).symm

/-! ### A concrete group -/

theorem exHFetch_batch : HonestFetch Batch (fun _ _ => exHLog) (exHFetch exStill) := by
  refine fun reqs => exServe_honest Batch exHLog exOneByOne ?_ reqs
  intro o
  unfold exOneByOne Batch exHLog
  by_cases h0 : o ≤ 0
  · have : o ≤ 1 := by omega
    simp [h0, this]
  · by_cases h1 : o ≤ 1
    · simp [h0, h1]
    · simp [h0, h1]

/-- One has partition 0 of A, the others nothing. -/
def exOwner (k : Nat) : Nat → Grouped := fun i => if i = k then exBusy else exIdle

theorem exOwner_fresh (k i : Nat) : NewlyTold (exOwner k i) := by
  unfold exOwner
  split
  · exact ⟨rfl, rfl, fun a h => by obtain rfl := Option.some.inj h; decide⟩
  · exact ⟨rfl, rfl, fun a h => by obtain rfl := Option.some.inj h; decide⟩

theorem exOwner_apart (k : Nat) : SharesApart (exOwner k) := by
  have h : ∀ i t p, p ∈ shareOf (exOwner k i) t → i = k := by
    intro i t p hp
    by_contra hne
    rw [exOwner, if_neg hne] at hp
    simp [exIdle, shareOf, Dict.get?] at hp
  intro i j t p hi hj
  rw [h i t p hi, h j t p hj]

/-- The offset of partition 0 of A. -/
def exAt (o : Int) : String → Int → Int := fun t p => if t = "A" ∧ p = 0 then o else 0

theorem exStores (o o' : Int) (r : Res CommitResp) (b : Option Int) (md : String) :
    Stores (exCommit r) [⟨b, md, [("A", [(0, o')])]⟩] (exAt o) (exAt o') := by
  constructor
  · intro t p
    by_cases h : t = "A" ∧ p = 0
    · obtain ⟨rfl, rfl⟩ := h
      exact Or.inr (by simp [offsetsIn, exAt])
    · exact Or.inl (by simp [exAt, h])
  · intro n r' _ t p _ p' o'' h
    simp only [offsetsIn, List.flatMap_cons, List.flatMap_nil, List.append_nil, List.map_cons,
      List.map_nil, List.mem_singleton, Prod.mk.injEq] at h
    obtain ⟨rfl, rfl, rfl⟩ := h
    simp [exAt]

/-- The owner after its first message, and after committing that. -/
def exBusy1 : Grouped :=
  { exBusy with offsets := [("A", [(0, 1)])], synced := ["A"],
                ext := ⟨some 8, ["A"], some [("A", [0])]⟩ }
def exBusy2 : Grouped := { exBusy with offsets := [("A", [(0, 1)])], synced := ["A"] }
def exBusy3 : Grouped := { exBusy with offsets := [("A", [(0, 2)])], synced := ["A"] }

theorem exBusy1_commit : Grouped.commit (exCommit (.ok ⟨[("A", [(0, 0)])]⟩)) 5 "x" .none exBusy1 =
    (.done (), exBusy2, [⟨some 8, "committed by x", [("A", [(0, 1)])]⟩]) := by decide +kernel

/-- C100 is not vacuous: member 0 consumes a message without committing, and then commits; the
partition moves to member 1, which consumes the next message, committing automatically. -/
example : ∃ g : Crew Nat, CrewRun exCCfg (fun _ _ => exHLog) (exAt 0) g ∧
    g.returned = [("A", 5), ("A", 6)] ∧ g.group "A" 0 = 2 ∧
    ∀ i, (g.members i).ext.toCommit = [] := by
  have h0 : CrewRun exCCfg (fun _ _ => exHLog) (exAt 0) (⟨exOwner 0, exAt 0, []⟩ : Crew Nat) :=
    CrewRun.start _ (exOwner_apart 0) (exOwner_fresh 0)
  have hshare : ∀ k, shareOf (exOwner k k) "A" = [0] := by
    intro k
    rw [exOwner, if_pos rfl]
    decide +kernel
  have h1 := h0.step <| .consume <| .intro (i := 0) (gcfg := exManual) (env := exHEnv 0)
    (fuel := 5) (t := "A") (result := some [5]) (c := exBusy1)
    (acts := [.determine, .fetch [⟨7, 1000, 1, "A", [⟨0, 0, 100⟩]⟩]])
    (reqs := []) (group := exAt 0)
    (by
      rw [hshare]
      refine exOF_named [0] 0 ?_
      simp [exAt])
    exHFetch_batch ⟨fun _ _ => rfl, fun _ _ => rfl⟩ (by decide +kernel)
    ⟨fun _ _ => Or.inl rfl, fun _ _ _ _ _ _ _ _ h => absurd h (by simp [offsetsIn])⟩
  have h2 := h1.step <| CrewStep.commit (i := 0) (env := exCommit (.ok ⟨[("A", [(0, 0)])]⟩)) (fuel := 5)
    (name := "x") (md := .none) (group := exAt 1) (fun _ _ => rfl)
    (by
      simp only [Crew.put, if_true]
      rw [exBusy1_commit]
      exact exStores 0 1 _ _ _)
  have h3 := h2.step <| CrewStep.settle (members := exOwner 1)
    (by
      intro i
      simp only [Crew.put, if_true]
      rw [exBusy1_commit]
      split
      · rfl
      · exact (exOwner_fresh 0 i).committed)
    (exOwner_apart 1) (exOwner_fresh 1)
  have h4 := h3.step <| .consume <| .intro (i := 1) (gcfg := exAuto) (env := exHEnv 1)
    (fuel := 5) (t := "A") (result := some [6]) (c := exBusy3)
    (acts := [.determine, .fetch [⟨7, 1000, 1, "A", [⟨0, 1, 100⟩]⟩]])
    (reqs := [⟨some 8, "committed by x", [("A", [(0, 2)])]⟩]) (group := exAt 2)
    (by
      rw [hshare]
      refine exOF_named [0] 1 ?_
      simp [exAt])
    exHFetch_batch ⟨fun _ _ => rfl, fun _ _ => rfl⟩ (by decide +kernel)
    (by exact exStores 1 2 _ _ _)
  refine ⟨_, h4, rfl, rfl, fun i => ?_⟩
  simp only [Crew.put]
  split
  · rfl
  · exact (exOwner_fresh 1 i).committed

/-- Without the commit, member 1 is told offset 0, and the message is returned again. -/
example : (exBusy.consume exManual exCCfg (exHEnv 0) 5 "A").1 = .done (some [5]) ∧
    ((exBusy.consume exManual exCCfg (exHEnv 0) 5 "A").2.1).ext.toCommit = ["A"] ∧
    (exBusy.consume exAuto exCCfg (exHEnv 0) 5 "A").1 = .done (some [5]) := by decide +kernel

end Kiel
