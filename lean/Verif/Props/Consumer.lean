import Verif.Lemmas.Log
/-
C36-C41, C44: fetching and deserializing messages.
-/
set_option autoImplicit false
namespace Kiel
open Spec

variable {ε β δ : Type}

theorem allocated_some {a : Dict String (List Int)} {t : String} {ps : List Int} :
    allocated a t = some ps ↔ a.get? t = some ps ∧ ps ≠ [] := by
  unfold allocated
  cases h : a.get? t with
  | none => simp
  | some l => cases l with
    | nil =>
      simp only [Option.some.injEq, false_iff, not_and, reduceCtorEq]
      intro h; subst h; simp
    | cons x l =>
      simp only [Option.some.injEq]
      constructor
      · intro h; subst h; simp
      · exact And.left

/-- If a `consume` sends fetch requests, it does so in some state `c0`, in which the topic has
partitions allocated. -/
theorem consume_fetch {allocation : Consumer ε → Res (Dict String (List Int))}
    {determine : Consumer ε → Res Unit × Consumer ε} {cfg : CCfg β δ} {env : ConsumeEnv ε β}
    {topic : String} {c c' : Consumer ε} {res : Res (Option (List δ))} {acts : List CAct}
    {reqs : List FReq}
    (h : c.consume allocation determine cfg env topic = (res, c', acts))
    (hr : CAct.fetch reqs ∈ acts) :
    ∃ (c0 : Consumer ε) (a : Dict String (List Int)) (parts : List Int),
      allocation c0 = .ok a ∧ allocated a topic = some parts ∧
      c0.fetch cfg env topic parts = (res, c', [.fetch reqs]) ∧
      c.closing = false ∧
      ∀ I : Offsets → Prop, I c.offsets →
        (∀ c : Consumer ε, I c.offsets → I (determine c).2.offsets) →
        (∀ n (c : Consumer ε), I c.offsets → I (env.tick n c).offsets) → I c0.offsets := by
  have hacts : ∀ (c0 : Consumer ε) parts acts0,
      c0.fetch cfg env topic parts = (res, c', acts0) → CAct.fetch reqs ∈ acts0 →
      acts0 = [.fetch reqs] := by
    intro c0 parts acts0 hf hm
    rcases fetch_spec cfg env topic parts c0 c' res acts0 hf with ⟨e, _, h2, _⟩ | ⟨reqs', c2, h1, _⟩
    · subst h2; simp at hm
    · subst h1; simp only [List.mem_singleton, CAct.fetch.injEq] at hm; rw [hm]
  have key : ∀ (c1 : Consumer ε) (acts1 : List CAct),
      c1.consumeSynced allocation cfg env topic = (res, c', acts1) → CAct.fetch reqs ∈ acts1 →
      ∃ (c0 : Consumer ε) (a : Dict String (List Int)) (parts : List Int),
        allocation c0 = .ok a ∧ allocated a topic = some parts ∧
        c0.fetch cfg env topic parts = (res, c', [.fetch reqs]) ∧
        ∀ I : Offsets → Prop, I c1.offsets →
          (∀ n (c : Consumer ε), I c.offsets → I (env.tick n c).offsets) → I c0.offsets := by
    intro c1 acts1 h hr
    unfold Consumer.consumeSynced at h
    split at h
    · simp only [Prod.mk.injEq] at h; rw [← h.2.2] at hr; simp at hr
    · rename_i a ha
      split at h
      · rename_i parts hp
        refine ⟨c1, a, parts, ha, hp, ?_, fun I h _ => h⟩
        rw [h, hacts c1 parts acts1 h hr]
      · split at h
        · simp only [Prod.mk.injEq] at h; rw [← h.2.2] at hr; simp at hr
        · simp only at h
          split at h
          · simp only [Prod.mk.injEq] at h; rw [← h.2.2] at hr; simp at hr
          · rename_i a2 ha2
            split at h
            · simp only [Prod.mk.injEq] at h; rw [← h.2.2] at hr; simp at hr
            · rename_i parts hp
              generalize hf : Consumer.fetch cfg env topic parts _ = x at h
              obtain ⟨r, c3, acts3⟩ := x
              simp only [Prod.mk.injEq] at h
              obtain ⟨rfl, rfl, rfl⟩ := h
              have hr' : CAct.fetch reqs ∈ acts3 := by simpa using hr
              refine ⟨_, a2, parts, ha2, hp, ?_, fun I h ht => ht _ _ h⟩
              rw [hf, hacts _ parts acts3 hf hr']
  unfold Consumer.consume at h
  split at h
  · simp only [Prod.mk.injEq] at h; rw [← h.2.2] at hr; simp at hr
  · rename_i hcl
    have hcl : c.closing = false := by simpa using hcl
    split at h
    · obtain ⟨c0, a, parts, h1, h2, h3, h4⟩ := key c acts h hr
      exact ⟨c0, a, parts, h1, h2, h3, hcl, fun I h _ ht => h4 I h ht⟩
    · split at h
      · simp only [Prod.mk.injEq] at h; rw [← h.2.2] at hr; simp at hr
      · simp only [Prod.mk.injEq] at h; rw [← h.2.2] at hr; simp at hr
      · rename_i x cd hdet
        simp only at h
        generalize hf : Consumer.consumeSynced allocation cfg env topic _ = x at h
        obtain ⟨r, c3, acts3⟩ := x
        simp only [Prod.mk.injEq] at h
        obtain ⟨rfl, rfl, rfl⟩ := h
        obtain ⟨c0, a, parts, h1, h2, h3, h4⟩ := key _ acts3 hf (by simpa using hr)
        refine ⟨c0, a, parts, h1, h2, h3, hcl, fun I h hd ht => h4 I (ht _ _ ?_) ht⟩
        have := hd c h
        rw [hdet] at this
        exact this

/-! ### C36 -/

/-- **C36**: whenever `consume` fetches, its requests are exactly those for the partitions
allocated at that moment: each in one request, to its leader, at the consumer's offset for it,
and the byte limits of a request add up to at most `max_bytes`. -/
theorem C36_requests (allocation : Consumer ε → Res (Dict String (List Int)))
    (determine : Consumer ε → Res Unit × Consumer ε) (cfg : CCfg β δ) (env : ConsumeEnv ε β)
    (topic : String) (c c' : Consumer ε) (res : Res (Option (List δ))) (acts : List CAct)
    (reqs : List FReq)
    (h : c.consume allocation determine cfg env topic = (res, c', acts))
    (hr : CAct.fetch reqs ∈ acts) :
    ∃ (c0 : Consumer ε) (a : Dict String (List Int)) (parts : List Int),
      allocation c0 = .ok a ∧ a.get? topic = some parts ∧ parts ≠ [] ∧
      FetchesExactly cfg c0 topic parts reqs := by
  obtain ⟨c0, a, parts, h1, h2, h3, _, _⟩ := consume_fetch h hr
  rcases fetch_spec cfg env topic parts c0 c' res _ h3 with ⟨e, _, h4, _⟩ | ⟨reqs', c2, h4, h5, _⟩
  · simp at h4
  · simp only [List.cons.injEq, CAct.fetch.injEq, and_true] at h4
    subst h4
    exact ⟨c0, a, parts, h1, (allocated_some.1 h2).1, (allocated_some.1 h2).2, h5⟩

/-- **C36**: a consumer that has its offsets and partitions, all with known leaders, fetches
right away, from the state it is in. -/
theorem C36_fetches (allocation : Consumer ε → Res (Dict String (List Int)))
    (determine : Consumer ε → Res Unit × Consumer ε) (cfg : CCfg β δ) (env : ConsumeEnv ε β)
    (topic : String) (c : Consumer ε) (a : Dict String (List Int)) (parts : List Int)
    (hc : c.closing = false) (hs : topic ∈ c.synced) (ha : allocation c = .ok a)
    (hp : a.get? topic = some parts) (hne : parts ≠ [])
    (hl : ∀ p ∈ parts, ∃ l, leaderOf c.cluster topic p = some l) :
    ∃ reqs, (c.consume allocation determine cfg env topic).2.2 = [.fetch reqs] ∧
      FetchesExactly cfg c topic parts reqs := by
  have hal : allocated a topic = some parts := allocated_some.2 ⟨hp, hne⟩
  have he : c.consume allocation determine cfg env topic = c.fetch cfg env topic parts := by
    unfold Consumer.consume Consumer.consumeSynced
    simp only [hc, Bool.false_eq_true, if_false, hs, if_true, ha, hal]
  rw [he]
  cases hf : c.fetch cfg env topic parts with
  | mk res x =>
    obtain ⟨c', acts⟩ := x
    rcases fetch_spec cfg env topic parts c c' res acts hf with ⟨e, _, _, ⟨p, hp, hn⟩, _⟩ |
      ⟨reqs, c2, h4, h5, _⟩
    · obtain ⟨l, hl⟩ := hl p hp
      rw [hn] at hl; simp at hl
    · exact ⟨reqs, h4, h5⟩

/-- **C36**: a consumer that has its offsets but no partitions refreshes the metadata once; then it
fetches what is allocated, or returns an empty list if there still is nothing. -/
theorem C36_unallocated (allocation : Consumer ε → Res (Dict String (List Int)))
    (determine : Consumer ε → Res Unit × Consumer ε) (cfg : CCfg β δ) (env : ConsumeEnv ε β)
    (topic : String) (c : Consumer ε) (a a' : Dict String (List Int)) (cl : Cluster)
    (hc : c.closing = false) (hs : topic ∈ c.synced) (ha : allocation c = .ok a)
    (hp : (a.get? topic).getD [] = []) (hh : env.heal c.cluster = (.ok (), cl))
    (ha' : allocation (env.tick 1 { c with cluster := cl }) = .ok a') :
    ((a'.get? topic).getD [] = [] → c.consume allocation determine cfg env topic =
      (.ok (some []), env.tick 1 { c with cluster := cl }, [.heal])) ∧
    (∀ parts, a'.get? topic = some parts → parts ≠ [] →
      (∀ p ∈ parts, ∃ l, leaderOf (env.tick 1 { c with cluster := cl }).cluster topic p = some l) →
      ∃ reqs, (c.consume allocation determine cfg env topic).2.2 = [.heal, .fetch reqs] ∧
        FetchesExactly cfg (env.tick 1 { c with cluster := cl }) topic parts reqs) := by
  have hnone : ∀ d : Dict String (List Int), (d.get? topic).getD [] = [] →
      allocated d topic = .none := by
    intro d hd
    unfold allocated
    split
    · rename_i h; rw [h] at hd; simp at hd
    · rfl
  unfold Consumer.consume Consumer.consumeSynced
  rw [if_neg (by simp [hc]), if_pos hs]
  simp only [ha, hnone a hp, hh, ha']
  constructor
  · intro h
    simp only [hnone a' h]
  · intro parts h1 h2 hl
    simp only [allocated_some.2 ⟨h1, h2⟩]
    cases hf : (env.tick 1 { c with cluster := cl }).fetch cfg env topic parts with
    | mk res x =>
      obtain ⟨c', acts⟩ := x
      rcases fetch_spec cfg env topic parts _ c' res acts hf with ⟨e, _, _, ⟨p, hp, hn⟩, _⟩ |
        ⟨reqs, c2, h4, h5, _⟩
      · obtain ⟨l, hl⟩ := hl p hp
        rw [hn] at hl; simp at hl
      · exact ⟨reqs, by rw [h4], h5⟩

/-- **C36**: a consumer that does not have its offsets determines them first; then it fetches what is
allocated, from the offsets it has after that. -/
theorem C36_determined (allocation : Consumer ε → Res (Dict String (List Int)))
    (determine : Consumer ε → Res Unit × Consumer ε) (cfg : CCfg β δ) (env : ConsumeEnv ε β)
    (topic : String) (c c1 : Consumer ε) (u : Unit) (a : Dict String (List Int)) (parts : List Int)
    (hc : c.closing = false) (hs : topic ∉ c.synced) (hd : determine c = (.ok u, c1))
    (ha : allocation { env.tick 0 c1 with synced := addSet (env.tick 0 c1).synced topic } = .ok a)
    (hp : a.get? topic = some parts) (hne : parts ≠ [])
    (hl : ∀ p ∈ parts, ∃ l, leaderOf (env.tick 0 c1).cluster topic p = some l) :
    ∃ reqs, (c.consume allocation determine cfg env topic).2.2 = [.determine, .fetch reqs] ∧
      FetchesExactly cfg (env.tick 0 c1) topic parts reqs := by
  have hal : allocated a topic = some parts := allocated_some.2 ⟨hp, hne⟩
  unfold Consumer.consume Consumer.consumeSynced
  simp only [hc, Bool.false_eq_true, if_false, hs, hd, ha, hal]
  generalize hc0 : ({ env.tick 0 c1 with synced := addSet (env.tick 0 c1).synced topic } :
    Consumer ε) = c0
  have e1 : c0.cluster = (env.tick 0 c1).cluster := by rw [← hc0]
  have e2 : c0.offsets = (env.tick 0 c1).offsets := by rw [← hc0]
  cases hf : c0.fetch cfg env topic parts with
  | mk res x =>
    obtain ⟨c', acts⟩ := x
    rcases fetch_spec cfg env topic parts c0 c' res acts hf with ⟨e, _, _, ⟨p, hp, hn⟩, _⟩ |
      ⟨reqs, c2, h4, h5, _⟩
    · obtain ⟨l, hl⟩ := hl p hp
      rw [e1, hl] at hn; simp at hn
    · refine ⟨reqs, by rw [h4], ?_⟩
      obtain ⟨b1, b2, b3, b4, b5, b6, b7, b8⟩ := h5
      rw [e1] at b3 b5
      rw [e2] at b6
      exact ⟨b1, b2, b3, b4, b5, b6, b7, b8⟩

/-- **C36**: put differently, if no partition is allocated twice, each is asked for exactly
once. -/
theorem C36_once (cfg : CCfg β δ) (c : Consumer ε) (topic : String) (parts : List Int)
    (reqs : List FReq) (h : FetchesExactly cfg c topic parts reqs) (hn : parts.Nodup) :
    (reqs.flatMap fun r => r.parts.map (·.id)).Perm parts := by
  have hcongr : ∀ (l : List FReq), (∀ r ∈ l, r ∈ reqs) → (l.flatMap fun r => r.parts.map (·.id)) =
      l.flatMap fun r => parts.filter fun p => decide (leaderOf c.cluster topic p = some r.broker) := by
    intro l
    induction l with
    | nil => intro _; rfl
    | cons r l ih =>
      intro hl
      simp only [List.mem_cons, forall_eq_or_imp] at hl
      rw [List.flatMap_cons, List.flatMap_cons, ih hl.2, h.named r hl.1]
  rw [hcongr reqs fun _ hr => hr]
  refine (List.perm_ext_iff_of_nodup ?_ hn).2 ?_
  · have hb := h.brokers
    have : ∀ (l : List FReq), (l.map (·.broker)).Nodup →
        (l.flatMap fun r => parts.filter fun p =>
          decide (leaderOf c.cluster topic p = some r.broker)).Nodup := by
      intro l
      induction l with
      | nil => intro _; simp
      | cons r l ih =>
        intro hl
        simp only [List.map_cons, List.nodup_cons] at hl
        rw [List.flatMap_cons, List.nodup_append]
        refine ⟨hn.filter _, ih hl.2, ?_⟩
        intro x hx y hy hxy
        subst hxy
        simp only [List.mem_filter, decide_eq_true_eq, List.mem_flatMap] at hx hy
        obtain ⟨r', hr', hy⟩ := hy
        rw [hx.2] at hy
        simp only [Option.some.injEq] at hy
        exact hl.1 (List.mem_map.2 ⟨r', hr', hy.2.symm⟩)
    exact this reqs hb
  · intro p
    simp only [List.mem_flatMap, List.mem_filter, decide_eq_true_eq]
    constructor
    · rintro ⟨r, _, hp, _⟩; exact hp
    · intro hp
      obtain ⟨r, hr, hl⟩ := h.all p hp
      exact ⟨r, hr, hp, hl⟩

/-! ### C37, C41 -/

/-- **C37**: a fetch response that is handled leaves every partition's offset just after the
last message for it (in a successful part) that was deserialized and has a non-negative offset;
without any such message the offset is what it was. -/
theorem C37_offsets (cfg : CCfg β δ) (r : FResp β) (c : Consumer ε) (out : List δ)
    (h : (handleFetchResponse cfg r c).1 = .ok out) (t : String) (p : Int) :
    offsetOf (handleFetchResponse cfg r c).2.offsets t p =
      after cfg (fetchedFor (answersOf r) t p) (offsetOf c.offsets t p) ∧
    out = values cfg (fetched (answersOf r)) := by
  obtain ⟨done, rest, h1, h2, h3, h4, h5⟩ := handleFetch_spec cfg r c
    (handleFetchResponse cfg r c).2 (handleFetchResponse cfg r c).1 rfl
  obtain ⟨g1, g2, _⟩ := h4 out h
  subst g1
  rw [List.append_nil] at h1
  exact ⟨by rw [h2.offsets, h1], g2⟩

/-- **C37**: partitions the response is not about keep their offsets, even if handling it
raises. -/
theorem C37_others (cfg : CCfg β δ) (r : FResp β) (c : Consumer ε) (t : String) (p : Int)
    (h : ∀ a ∈ answersOf r, ¬ (a.1 = t ∧ a.2.id = p)) :
    offsetOf (handleFetchResponse cfg r c).2.offsets t p = offsetOf c.offsets t p := by
  obtain ⟨done, rest, h1, h2, _⟩ := handleFetch_spec cfg r c
    (handleFetchResponse cfg r c).2 (handleFetchResponse cfg r c).1 rfl
  rw [h2.offsets]
  have : fetchedFor done t p = [] := by
    have : done.filter (fun a => decide (a.1 = t ∧ a.2.id = p ∧ a.2.code = 0)) = [] := by
      rw [List.filter_eq_nil_iff]
      intro a ha
      have := h a (by rw [h1]; simp [ha])
      simp only [decide_eq_true_eq]
      exact fun hx => this ⟨hx.1, hx.2.1⟩
    simp only [fetchedFor, this, List.flatMap_nil]
  rw [this]; rfl

/-- **C41**: a response with known codes is handled completely; what it does depends on the
codes only as documented: a heal is wanted exactly if a code is retriable; topics with an
`offset_out_of_range` (1) are no longer synced; only the parts without error deliver messages
and move offsets; nothing else changes. -/
theorem C41_codes (cfg : CCfg β δ) (r : FResp β) (c : Consumer ε) (ht : r.topics ≠ [])
    (hk : ∀ a ∈ answersOf r, KnownCode a.2.code) :
    ∃ c', handleFetchResponse cfg r c = (.ok (values cfg (fetched (answersOf r))), c') ∧
      (c'.heal = true ↔ c.heal = true ∨ ∃ a ∈ answersOf r,
        a.2.code ∈ [2, 3, 5, 6, 7, 14, 15, 16, 19, 20]) ∧
      (∀ t, t ∈ c'.synced ↔ t ∈ c.synced ∧ ¬ ∃ a ∈ answersOf r, a.1 = t ∧ a.2.code = 1) ∧
      (∀ t p, offsetOf c'.offsets t p =
        after cfg (fetchedFor (answersOf r) t p) (offsetOf c.offsets t p)) ∧
      c'.cluster = c.cluster ∧ c'.closing = c.closing ∧ c'.ext = c.ext := by
  cases hh : handleFetchResponse cfg r c with
  | mk res c' =>
    obtain ⟨done, rest, h1, h2, h3, h4, h5⟩ := handleFetch_spec cfg r c c' res hh
    cases res with
    | error e =>
      rcases h5 e rfl with ⟨h, _⟩ | ⟨_, a, ha, hna⟩
      · exact absurd h ht
      · exact absurd (hk a ha) hna
    | ok out =>
      obtain ⟨g1, g2, _⟩ := h4 out rfl
      subst g1
      rw [List.append_nil] at h1
      rw [← h1] at h2 h3
      refine ⟨c', by rw [g2], h3, ?_, h2.offsets, h2.cluster, h2.closing, h2.ext⟩
      intro t
      rw [h2.synced]
      refine and_congr_right fun _ => ?_
      constructor
      · rintro h ⟨a, ha, h1, h2⟩; exact h a ha h1 h2
      · intro h a ha h1 h2; exact h ⟨a, ha, h1, h2⟩

/-- **C41**: a code that is not in the table raises a `KeyError`, out of `consume`. -/
theorem C41_unknown (cfg : CCfg β δ) (r : FResp β) (c : Consumer ε) (ht : r.topics ≠ [])
    (hk : ∃ a ∈ answersOf r, ¬ KnownCode a.2.code) :
    (handleFetchResponse cfg r c).1 = .error .keyError := by
  cases hh : handleFetchResponse cfg r c with
  | mk res c' =>
    obtain ⟨done, rest, h1, h2, h3, h4, h5⟩ := handleFetch_spec cfg r c c' res hh
    cases res with
    | error e =>
      rcases h5 e rfl with ⟨h, _⟩ | ⟨rfl, _⟩
      · exact absurd h ht
      · rfl
    | ok out =>
      obtain ⟨a, ha, hna⟩ := hk
      exact absurd ((h4 out rfl).2.2.2 a ha) hna

/-! ### C38 -/

/-- The part of a log between two offsets, as `consume` returns it. -/
def Spec.window (cfg : CCfg β δ) (log : List (Int × β)) (o o' : Int) : List δ :=
  (values cfg (log.filter fun m => decide (o ≤ m.1 ∧ m.1 < o'))).filter cfg.truthy

theorem window_empty (cfg : CCfg β δ) (log : List (Int × β)) (o : Int) : window cfg log o o = [] := by
  have : log.filter (fun m => decide (o ≤ m.1 ∧ m.1 < o)) = [] := by
    rw [List.filter_eq_nil_iff]
    intro m _
    simp only [decide_eq_true_eq]; omega
  rw [window, this]; rfl

/-- One fetch. -/
theorem fetch_window {cfg : CCfg β δ} {env : ConsumeEnv ε β}
    {logs : String → Int → List (Int × β)} (hl : ∀ t p, IsLog (logs t p))
    (hh : HonestFetch Batch logs env) {topic : String} {c0 : Consumer ε} {parts : List Int}
    {reqs : List FReq} (hf : FetchesExactly cfg c0 topic parts reqs) (o o' : String → Int → Int)
    (ho : ∀ t p, offsetOf c0.offsets t p = o t p)
    (ho' : ∀ t p, o' t p = after cfg (fetchedFor (allAnswers (env.outcomes reqs)) t p) (o t p)) :
    (∀ t p, o t p ≤ o' t p) ∧
    Interleaving (fun t p => window cfg (logs t p) (o t p) (o' t p))
      (((values cfg (fetched (allAnswers (env.outcomes reqs)))).filter cfg.truthy).map
        fun v => (topic, v)) := by
  have htop := honest_topic hh hf
  have hwin : ∀ t p, o t p ≤ o' t p ∧
      (values cfg (fetchedFor (allAnswers (env.outcomes reqs)) t p)).filter cfg.truthy =
        window cfg (logs t p) (o t p) (o' t p) := by
    intro t p
    have hone := honest_one hh hf t p
    rw [ho] at hone
    rw [ho']
    rcases hone with h | ⟨_, h⟩
    · rw [h, after_nil, window_empty]
      exact ⟨Int.le_refl _, rfl⟩
    · obtain ⟨w1, w2⟩ := batch_window cfg _ _ _ (hl t p) h
      exact ⟨w1, by rw [window, ← w2]⟩
  refine ⟨fun t p => (hwin t p).1, labelled cfg (allAnswers (env.outcomes reqs)), ?_, fun t p => ?_⟩
  · rw [← labelled_values, List.map_map]
    refine List.map_congr_left fun x hx => ?_
    rw [labelled_topic cfg _ topic (fun a ha => (htop a ha).1) x hx]
    rfl
  · rw [labelled_for, (hwin t p).2]

/-- One `consume`. -/
theorem consume_window {allocation : Consumer ε → Res (Dict String (List Int))}
    {determine : Consumer ε → Res Unit × Consumer ε} {cfg : CCfg β δ} {env : ConsumeEnv ε β}
    {logs : String → Int → List (Int × β)} (hl : ∀ t p, IsLog (logs t p))
    {topic : String} {c c1 : Consumer ε} {out : List δ} {acts : List CAct}
    (hh : HonestFetch Batch logs env) (htick : ∀ n (c : Consumer ε), (env.tick n c).offsets = c.offsets)
    (hc : c.consume allocation determine cfg env topic = (.ok (some out), c1, acts))
    (hd : CAct.determine ∉ acts) :
    (∀ t p, offsetOf c.offsets t p ≤ offsetOf c1.offsets t p) ∧
    Interleaving (fun t p => window cfg (logs t p) (offsetOf c.offsets t p) (offsetOf c1.offsets t p))
      (out.map fun v => (topic, v)) := by
  rcases consume_step htick (fun reqs => (hh reqs).1) hc hd with ⟨rfl, ho⟩ |
    ⟨c0, parts, reqs, h1, h2, h3, h4⟩
  · refine ⟨fun t p => by rw [ho], [], rfl, fun t p => ?_⟩
    simp only [ho, window_empty]
    rfl
  · rw [h3]
    exact fetch_window hl hh h2 _ _ h1 h4

/-- **C38** (partial): from brokers that serve plain logs in order, whatever the batch sizes,
errors (other than `offset_out_of_range`), lost connections, heals and changes of leaders in
between: what a sequence of `consume`s has returned is an interleaving of what it has read of each
partition, and that is exactly the messages of its log between the offset it started from and the
offset it has reached, each once and in order, less those that cannot be deserialized or are false
to Python.  Missing: logs with compressed sets (see `C38_no_skip`, `C38_false_twice`) and
`consume`s that raise (see `C38_false_lost`). -/
theorem C38_exactly_once_partial (allocation : Consumer ε → Res (Dict String (List Int)))
    (determine : String → Consumer ε → Res Unit × Consumer ε) (cfg : CCfg β δ)
    (logs : String → Int → List (Int × β)) (hl : ∀ t p, IsLog (logs t p))
    (c c' : Consumer ε) (outs : List (String × δ))
    (h : Consumed allocation determine cfg Batch logs c outs c') :
    (∀ t p, offsetOf c.offsets t p ≤ offsetOf c'.offsets t p) ∧
    Interleaving (fun t p => (values cfg ((logs t p).filter fun m =>
      decide (offsetOf c.offsets t p ≤ m.1 ∧ m.1 < offsetOf c'.offsets t p))).filter cfg.truthy)
      outs := by
  induction h with
  | nil c => exact ⟨fun _ _ => Int.le_refl _, [], rfl, fun t p => (window_empty cfg (logs t p) _).symm⟩
  | cons hh htick hc hd hrun ih =>
    obtain ⟨ih1, src2, ih2, ih3⟩ := ih
    obtain ⟨g1, src1, g2, g3⟩ := consume_window hl hh htick hc hd
    refine ⟨fun t p => Int.le_trans (g1 t p) (ih1 t p), src1 ++ src2,
      by rw [List.map_append, g2, ih2], fun t p => ?_⟩
    simp only [List.filter_append, List.map_append, g3, ih3, window]
    rw [← List.filter_append, ← values_append,
      window_append _ (hl t p).sorted _ _ _ (g1 t p) (ih1 t p)]

/-- **C38** (partial), if values tell which partition they are from: those of a partition are
returned in the order of its log. -/
theorem C38_order_partial (allocation : Consumer ε → Res (Dict String (List Int)))
    (determine : String → Consumer ε → Res Unit × Consumer ε) (cfg : CCfg β δ)
    (logs : String → Int → List (Int × β)) (hl : ∀ t p, IsLog (logs t p)) (tag : δ → Int)
    (htag : ∀ t p, ∀ m ∈ logs t p, ∀ d, decode cfg m.2 = some d → tag d = p)
    (c c' : Consumer ε) (outs : List (String × δ))
    (h : Consumed allocation determine cfg Batch logs c outs c') (t : String) (p : Int) :
    (outs.filter fun x => decide (x.1 = t ∧ tag x.2 = p)).map (·.2) =
      (values cfg ((logs t p).filter fun m => decide (offsetOf c.offsets t p ≤ m.1 ∧
        m.1 < offsetOf c'.offsets t p))).filter cfg.truthy := by
  obtain ⟨-, src, h1, h2⟩ := C38_exactly_once_partial allocation determine cfg logs hl c c' outs h
  beta_reduce at h2
  have hsrc : ∀ x ∈ src, tag x.2 = x.1.2 := by
    intro x hx
    have hm : x.2 ∈ (src.filter fun y => decide (y.1 = (x.1.1, x.1.2))).map (·.2) :=
      List.mem_map.2 ⟨x, List.mem_filter.2 ⟨hx, by simp⟩, rfl⟩
    rw [h2] at hm
    obtain ⟨m, hm1, hm2⟩ := List.mem_filterMap.1 (List.mem_filter.1 hm).1
    exact htag _ _ m (List.mem_filter.1 hm1).1 _ hm2
  rw [← h2 t p, ← h1, List.filter_map, List.map_map]
  refine congrArg _ (List.filter_congr fun x hx => ?_)
  simp only [Function.comp_apply, hsrc x hx, Prod.ext_iff]

/-- **C38**: brokers with compressed sets included, nothing is skipped: every message of a log
between the offset at which a sequence of `consume`s started and the offset it has reached has
been returned (unless it cannot be deserialized or is false to Python). -/
theorem C38_no_skip (allocation : Consumer ε → Res (Dict String (List Int)))
    (determine : String → Consumer ε → Res Unit × Consumer ε) (cfg : CCfg β δ)
    (logs : String → Int → List (Int × β)) (hl : ∀ t p, IsLog (logs t p))
    (c c' : Consumer ε) (outs : List (String × δ))
    (h : Consumed allocation determine cfg WideBatch logs c outs c') (t : String) (p : Int)
    (m : Int × β) (hm : m ∈ logs t p) (d : δ) (hd : decode cfg m.2 = some d)
    (htr : cfg.truthy d = true) (h1 : offsetOf c.offsets t p ≤ m.1)
    (h2 : m.1 < offsetOf c'.offsets t p) : (t, d) ∈ outs := by
  induction h with
  | nil c => omega
  | @cons c c1 c2 env topic out acts outs hh htick hc hdet hrun ih =>
    by_cases hlt : m.1 < offsetOf c1.offsets t p
    · refine List.mem_append_left _ ?_
      rcases consume_step htick (fun reqs => (hh reqs).1) hc hdet with ⟨rfl, ho⟩ |
        ⟨c0, parts, reqs, g1, g2, g3, g4⟩
      · rw [ho] at hlt; omega
      · rw [g4] at hlt
        rcases honest_one hh g2 t p with hn | ⟨rfl, hb⟩
        · rw [hn, after_nil] at hlt; omega
        · rw [g1] at hb
          have hin := wide_window cfg _ _ _ (hl t p) hb m hm h1 hlt
          refine List.mem_map.2 ⟨d, ?_, rfl⟩
          rw [g3, List.mem_filter]
          refine ⟨List.mem_filterMap.2 ⟨m, ?_, hd⟩, htr⟩
          simp only [fetchedFor, fetched, List.mem_flatMap, List.mem_filter, decide_eq_true_eq]
            at hin ⊢
          obtain ⟨a, ⟨ha, _, _, h0⟩, hm⟩ := hin
          exact ⟨a, ⟨ha, h0⟩, hm⟩
    · exact List.mem_append_right _ (ih (by omega) h2)

/-! ### C39 -/

/-- **C39** (partial): what `consume` returns after fetching is every value the deserializer
produced from the answers, in the order of the answers, of the partitions in each, and of the
messages in each, except for values that are false to Python.  Missing: those (see
`C39_false`). -/
theorem C39_results_partial (allocation : Consumer ε → Res (Dict String (List Int)))
    (determine : Consumer ε → Res Unit × Consumer ε) (cfg : CCfg β δ) (env : ConsumeEnv ε β)
    (topic : String) (c c' : Consumer ε) (out : Option (List δ)) (acts : List CAct)
    (reqs : List FReq) (hn : ((env.outcomes reqs).map (·.1)).Nodup)
    (h : c.consume allocation determine cfg env topic = (.ok out, c', acts))
    (hr : CAct.fetch reqs ∈ acts) :
    out = some ((values cfg (fetched (allAnswers (env.outcomes reqs)))).filter cfg.truthy) := by
  obtain ⟨c0, a, parts, h1, h2, h3, _, _⟩ := consume_fetch h hr
  rcases fetch_spec cfg env topic parts c0 c' _ _ h3 with ⟨e, h4, _⟩ |
    ⟨reqs', c2, h4, _, _, done, rest, _, _, _, _, _, h9⟩
  · simp at h4
  · simp only [List.cons.injEq, CAct.fetch.injEq, and_true] at h4
    subst h4
    exact (h9 out rfl).2.2 hn

/-! ### C40 -/

/-- **C40** (partial): a message that cannot be deserialized does not keep the others of its
batch from being delivered, and the consumer moves past it if one that can follows in the batch.
Missing: it does not otherwise (see `C40_stuck`, `C40_false`). -/
theorem C40_skipped_partial (cfg : CCfg β δ) (log ms : List (Int × β)) (hl : IsLog log) (o : Int)
    (hb : Batch log o ms) (pre post : List (Int × β)) (bad : Int × β)
    (hms : ms = pre ++ bad :: post) (hbad : decode cfg bad.2 = .none) :
    values cfg ms = values cfg pre ++ values cfg post ∧
    ((∃ m ∈ post, (decode cfg m.2).isSome) → bad.1 < after cfg ms o) := by
  subst hms
  refine ⟨?_, ?_⟩
  · simp [values, hbad]
  · rintro ⟨m, hm, hd⟩
    obtain ⟨rest, hr⟩ := hb
    have hs : ((pre ++ bad :: post) ++ rest).Pairwise fun a b => a.1 < b.1 := by
      rw [hr]; exact hl.sorted.sublist List.filter_sublist
    have hsp := (List.pairwise_append.1 (List.pairwise_append.1 hs).1).2.1
    simp only [List.pairwise_cons] at hsp
    rw [show pre ++ bad :: post = (pre ++ [bad]) ++ post by simp, after_append]
    unfold after
    cases hlast : (post.filter fun m => (decode cfg m.2).isSome && decide (0 ≤ m.1)).getLast? with
    | none =>
      rw [List.getLast?_eq_none_iff, List.filter_eq_nil_iff] at hlast
      have h0 : 0 ≤ m.1 := by
        have : m ∈ log.filter fun m => decide (o ≤ m.1) := by rw [← hr]; simp [hm]
        exact hl.nonneg m (List.mem_filter.1 this).1
      exact absurd (by simp [hd, h0]) (hlast m hm)
    | some x =>
      have hx := (List.mem_filter.1 (List.mem_of_getLast? hlast)).1
      have := hsp.1 x hx
      simp only
      omega

/-- **C40** fails: as long as a batch holds nothing that can be deserialized, the consumer
stays where it is and will ask for the same messages again. -/
theorem C40_stuck (cfg : CCfg β δ) (r : FResp β) (c : Consumer ε) (t : String) (p : Int)
    (h : ∀ m ∈ fetchedFor (answersOf r) t p, decode cfg m.2 = .none) :
    offsetOf (handleFetchResponse cfg r c).2.offsets t p = offsetOf c.offsets t p := by
  obtain ⟨done, rest, h1, h2, _⟩ := handleFetch_spec cfg r c
    (handleFetchResponse cfg r c).2 (handleFetchResponse cfg r c).1 rfl
  rw [h2.offsets]
  rcases after_mem cfg (fetchedFor done t p) (offsetOf c.offsets t p) with h3 | ⟨m, hm, hd, _⟩
  · exact h3
  · have := h m (by rw [h1, fetchedFor_append]; simp [hm])
    rw [this] at hd; simp at hd

/-! ### C44 -/

/-- **C44**: a closing consumer does nothing and returns nothing. -/
theorem C44_closing (allocation : Consumer ε → Res (Dict String (List Int)))
    (determine : Consumer ε → Res Unit × Consumer ε) (cfg : CCfg β δ) (env : ConsumeEnv ε β)
    (topic : String) (c : Consumer ε) (h : c.closing = true) :
    c.consume allocation determine cfg env topic = (.ok .none, c, []) := by
  simp [Consumer.consume, h]

theorem consumeSynced_acts (allocation : Consumer ε → Res (Dict String (List Int)))
    (cfg : CCfg β δ) (env : ConsumeEnv ε β) (topic : String) (c : Consumer ε) :
    CAct.determine ∉ (c.consumeSynced allocation cfg env topic).2.2 := by
  have hf : ∀ (c : Consumer ε) parts, CAct.determine ∉ (c.fetch cfg env topic parts).2.2 := by
    intro c parts
    cases hf : c.fetch cfg env topic parts with
    | mk r x =>
      obtain ⟨c', acts⟩ := x
      rcases fetch_spec cfg env topic parts c c' r acts hf with ⟨e, _, h2, _⟩ | ⟨reqs', c2, h1, _⟩
      · subst h2; simp
      · subst h1; simp
  unfold Consumer.consumeSynced
  split
  · simp
  · split
    · exact hf _ _
    · split
      · simp
      · simp only
        split
        · simp
        · split
          · simp
          · simpa using hf _ _

/-- **C44**: offsets are determined exactly if the topic is not synced (and the consumer is not
closing), before anything else. -/
theorem C44_exactly (allocation : Consumer ε → Res (Dict String (List Int)))
    (determine : Consumer ε → Res Unit × Consumer ε) (cfg : CCfg β δ) (env : ConsumeEnv ε β)
    (topic : String) (c : Consumer ε) :
    (CAct.determine ∈ (c.consume allocation determine cfg env topic).2.2 ↔
      c.closing = false ∧ topic ∉ c.synced) ∧
    (c.closing = false → topic ∉ c.synced → ∃ rest,
      (c.consume allocation determine cfg env topic).2.2 = .determine :: rest ∧
      CAct.determine ∉ rest) := by
  unfold Consumer.consume
  by_cases hc : c.closing = true
  · simp [hc]
  · have hc' : c.closing = false := by simpa using hc
    rw [if_neg hc]
    by_cases hs : topic ∈ c.synced
    · rw [if_pos hs]
      exact ⟨⟨fun h => absurd h (consumeSynced_acts _ _ _ _ _), fun h => absurd hs h.2⟩,
        fun _ h => absurd hs h⟩
    · rw [if_neg hs]
      split
      · exact ⟨by simp [hc', hs], fun _ _ => ⟨[], rfl, by simp⟩⟩
      · exact ⟨by simp [hc', hs], fun _ _ => ⟨[], rfl, by simp⟩⟩
      · refine ⟨by simp [hc', hs], fun _ _ => ⟨_, rfl, consumeSynced_acts _ _ _ _ _⟩⟩

/-- **C44**: if the offsets cannot be determined (`NoOffsetsError`), `consume` returns an empty
list, fetches nothing, and the topic stays as `determine_offsets` left it: not synced, so the
next `consume` tries again. -/
theorem C44_no_offsets (allocation : Consumer ε → Res (Dict String (List Int)))
    (determine : Consumer ε → Res Unit × Consumer ε) (cfg : CCfg β δ) (env : ConsumeEnv ε β)
    (topic : String) (c c1 : Consumer ε) (hc : c.closing = false) (hs : topic ∉ c.synced)
    (hd : determine c = (.error .noOffsets, c1)) :
    c.consume allocation determine cfg env topic = (.ok (some []), env.tick 0 c1, [.determine]) := by
  simp [Consumer.consume, hc, hs, hd]

/-- **C44**: any other exception is passed on. -/
theorem C44_raises (allocation : Consumer ε → Res (Dict String (List Int)))
    (determine : Consumer ε → Res Unit × Consumer ε) (cfg : CCfg β δ) (env : ConsumeEnv ε β)
    (topic : String) (c c1 : Consumer ε) (e : Exc) (hc : c.closing = false)
    (hs : topic ∉ c.synced) (he : e ≠ .noOffsets) (hd : determine c = (.error e, c1)) :
    c.consume allocation determine cfg env topic = (.error e, env.tick 0 c1, [.determine]) := by
  simp only [Consumer.consume, hc, hs, hd, Bool.false_eq_true, if_false]

/-! ### Concrete consumers -/

/-- Values are numbers; 99 cannot be deserialized, 0 is false. -/
def exCCfg : CCfg Nat Nat where
  deserializer n := if n = 99 then .error .valueError else .ok n
  truthy n := decide (n ≠ 0)
  maxWait := 1000
  minBytes := 1
  maxBytes := 100

/-- Broker 7 leads partition 0 of topic t. -/
def exCCluster : Cluster := ⟨[(7, ⟨"h", 9092, false⟩)], [("t", [0])], [("t", [(0, 7)])]⟩

/-- A consumer that has its offsets. -/
def exConsumer : Single := ⟨exCCluster, [], ["t"], false, false, ()⟩

/-- The broker answers a request for one partition with `serve offset`. -/
def exServe (serve : Int → List (Int × Nat)) : ConsumeEnv Unit Nat where
  outcomes reqs := match reqs with
    | [⟨b, _, _, t, [f]⟩] => [(b, .ok ⟨[(t, [⟨f.id, 0, serve f.offset⟩])]⟩)]
    | _ => []
  write _ := .none
  heal cl := (.ok (), cl)
  healC cl := (.ok (), cl)
  tick _ c := c

theorem exServe_honest (batch : List (Int × Nat) → Int → List (Int × Nat) → Prop)
    (log : List (Int × Nat)) (serve : Int → List (Int × Nat)) (h : ∀ o, batch log o (serve o)) :
    HonestFetch batch (fun _ _ => log) (exServe serve) := by
  intro reqs
  simp only [exServe]
  split
  · rename_i b w m t f
    refine ⟨by simp, ?_⟩
    intro b' r hr
    simp only [List.mem_singleton, Prod.mk.injEq, Except.ok.injEq] at hr
    obtain ⟨rfl, rfl⟩ := hr
    refine ⟨⟨b', w, m, t, [f]⟩, by simp, rfl, [⟨f.id, 0, serve f.offset⟩], rfl, by simp, ?_⟩
    intro p hp
    simp only [List.mem_singleton] at hp
    subst hp
    exact ⟨by simp, fun _ => ⟨f, by simp, rfl, h _⟩⟩
  · exact ⟨by simp, by simp⟩

/-- No offsets are determined. -/
def exNoDetermine (_ : String) (c : Single) : Res Unit × Single := (.ok (), c)

-- Non-vacuity of C36: two leaders, three partitions.
example : (({ exConsumer with
      cluster := ⟨[(7, ⟨"h", 1, false⟩), (8, ⟨"i", 2, false⟩)], [("t", [0, 1, 2])],
        [("t", [(0, 7), (1, 8), (2, 7)])]⟩, offsets := [("t", [(2, 40)])] } : Single).consume
      Single.allocation (exNoDetermine "t") exCCfg (exServe fun _ => []) "t").2.2 =
    [.fetch [⟨7, 1000, 1, "t", [⟨0, 0, 50⟩, ⟨2, 40, 50⟩]⟩, ⟨8, 1000, 1, "t", [⟨1, 0, 100⟩]⟩]] := by
  decide +kernel

-- Non-vacuity of C36_unallocated: the metadata did not know the topic before.
example : (({ exConsumer with cluster := ⟨[(7, ⟨"h", 9092, false⟩)], [], []⟩ } : Single).consume
      Single.allocation (exNoDetermine "t") exCCfg
      { exServe (fun _ => [(0, 5)]) with heal := fun _ => (.ok (), exCCluster) } "t") =
    (.ok (some [5]), { exConsumer with offsets := [("t", [(0, 1)])] },
      [.heal, .fetch [⟨7, 1000, 1, "t", [⟨0, 0, 100⟩]⟩]]) := by decide +kernel

-- Non-vacuity of C36_determined: the offset found is the one asked for.
example : (({ exConsumer with synced := [] } : Single).consume Single.allocation
      (fun c => (.ok (), { c with offsets := [("t", [(0, 30)])] })) exCCfg (exServe fun _ => []) "t").2.2 =
    [.determine, .fetch [⟨7, 1000, 1, "t", [⟨0, 30, 100⟩]⟩]] := by decide +kernel

-- Non-vacuity of C37 and C41: three partitions, one failing, one with poison at its end.
example : handleFetchResponse exCCfg
      ⟨[("t", [⟨0, 0, [(4, 7), (5, 99), (6, 0), (7, 99)]⟩, ⟨1, 6, [(1, 1)]⟩, ⟨2, 1, []⟩])]⟩ exConsumer =
    (.ok [7, 0], { exConsumer with heal := true, synced := [], offsets := [("t", [(0, 7)])] }) := by
  decide +kernel

-- Non-vacuity of C41_unknown.
example : (handleFetchResponse exCCfg ⟨[("t", [⟨0, 13, []⟩])]⟩ exConsumer).1 =
    .error .keyError := by decide +kernel

/-- A log with gaps and a poisonous message. -/
def exLog : List (Int × Nat) := [(0, 5), (3, 99), (4, 6)]

theorem exLog_ok : IsLog exLog := ⟨by decide, by decide⟩

-- Non-vacuity of C38: two messages at a time.
example : ∃ c', Consumed Single.allocation exNoDetermine exCCfg Batch (fun _ _ => exLog) exConsumer
    [("t", 5), ("t", 6)] c' ∧ offsetOf c'.offsets "t" 0 = 5 := by
  have hb : ∀ o : Int, Batch exLog o ((exLog.filter fun m => decide (o ≤ m.1)).take 2) :=
    fun o => List.take_prefix _ _
  refine ⟨{ exConsumer with offsets := [("t", [(0, 5)])] }, ?_, by decide +kernel⟩
  have h1 := exServe_honest Batch exLog _ hb
  refine Consumed.cons (c1 := { exConsumer with offsets := [("t", [(0, 1)])] }) (out := [5])
    (acts := [.fetch [⟨7, 1000, 1, "t", [⟨0, 0, 100⟩]⟩]]) (outs := [("t", 6)])
    h1 (fun _ _ => rfl) (by decide +kernel) (by decide) ?_
  exact Consumed.cons (out := [6]) (outs := [])
    (acts := [.fetch [⟨7, 1000, 1, "t", [⟨0, 1, 100⟩]⟩]])
    h1 (fun _ _ => rfl) (by decide +kernel) (by decide) (Consumed.nil _)

/-- **C38** is false of the code for logs with compressed sets: a set that ends with a message
that cannot be deserialized is sent whole again, and its other messages are returned again and
again. -/
theorem C38_false_twice : ∃ c',
    HonestFetch WideBatch (fun _ _ => [(0, 5), (1, 99)]) (exServe fun _ => [(0, 5), (1, 99)]) ∧
    Consumed Single.allocation exNoDetermine exCCfg WideBatch (fun _ _ => [(0, 5), (1, 99)])
      exConsumer [("t", 5), ("t", 5)] c' := by
  have hb : ∀ o : Int, WideBatch [(0, 5), (1, 99)] o [(0, 5), (1, (99 : Nat))] :=
    fun o => ⟨[], [], rfl, by simp⟩
  have h1 := exServe_honest WideBatch [(0, 5), (1, 99)] (fun _ => [(0, 5), (1, 99)]) hb
  refine ⟨{ exConsumer with offsets := [("t", [(0, 1)])] }, h1, ?_⟩
  refine Consumed.cons (c1 := { exConsumer with offsets := [("t", [(0, 1)])] }) (out := [5])
    (acts := [.fetch [⟨7, 1000, 1, "t", [⟨0, 0, 100⟩]⟩]]) (outs := [("t", 5)])
    h1 (fun _ _ => rfl) (by decide +kernel) (by decide) ?_
  exact Consumed.cons (out := [5]) (outs := [])
    (acts := [.fetch [⟨7, 1000, 1, "t", [⟨0, 1, 100⟩]⟩]])
    h1 (fun _ _ => rfl) (by decide +kernel) (by decide) (Consumed.nil _)

/-- Two brokers; the second one's connection is lost, and the cluster cannot be healed. -/
def exLossy : ConsumeEnv Unit Nat where
  outcomes _ := [(7, .ok ⟨[("t", [⟨0, 0, [(0, 5)]⟩])]⟩), (8, .error .brokerConnection)]
  write _ := .none
  heal cl := (.ok (), cl)
  healC cl := (.error .noBrokers, cl)
  tick _ c := c

/-- **C38** is false of the code if `consume` raises: the messages that were fetched are not
returned, yet the offset is past them. (Here the healing fails; a handler that raises does the
same.) -/
theorem C38_false_lost :
    let c : Consumer Unit := { exConsumer with
      cluster := ⟨[(7, ⟨"h", 1, false⟩), (8, ⟨"i", 2, false⟩)], [("t", [0, 1])],
        [("t", [(0, 7), (1, 8)])]⟩ }
    let r := c.consume Single.allocation (exNoDetermine "t") exCCfg exLossy "t"
    r.1 = .error .noBrokers ∧ offsetOf r.2.1.offsets "t" 0 = 1 := by decide +kernel

/-- **C39** is false of the code: a value that is false to Python is dropped, though the offset
moves past it. -/
theorem C39_false :
    let r := Consumer.consume (c := exConsumer) Single.allocation (exNoDetermine "t") exCCfg
      (exServe fun _ => [(0, 5), (1, 0)]) "t"
    r.1 = .ok (some [5]) ∧ exCCfg.deserializer 0 = .ok 0 ∧
      offsetOf r.2.1.offsets "t" 0 = 2 := by decide +kernel

-- Non-vacuity of C40_skipped_partial.
example : Batch exLog 0 exLog ∧ exLog = [(0, 5)] ++ (3, 99) :: [(4, 6)] ∧
    decode exCCfg 99 = .none ∧ after exCCfg exLog 0 = 5 := by
  refine ⟨⟨[], by decide⟩, rfl, rfl, by decide⟩

/-- **C40** is false of the code: with a batch of only messages that cannot be deserialized,
`consume` returns nothing, changes nothing, and so asks for the same batch for ever. -/
theorem C40_false :
    let c : Consumer Unit := { exConsumer with offsets := [("t", [(0, 3)])] }
    c.consume Single.allocation (exNoDetermine "t") exCCfg (exServe fun _ => [(3, 99)]) "t" =
      (.ok (some []), c, [.fetch [⟨7, 1000, 1, "t", [⟨0, 3, 100⟩]⟩]]) := by decide +kernel

end Kiel
