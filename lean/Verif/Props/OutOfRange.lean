import Verif.Props.LateTopic
import Verif.Props.Commit
/-
C131, C132: what becomes of a consumer, and of the other partitions, when an offset is out of range.
-/
set_option autoImplicit false
namespace Kiel
open Spec

variable {β δ : Type}

/-! ### The single consumer -/

/-- The broker that is asked for messages of partition `p` of topic `t` from offset `o` on answers
that this is out of range. -/
def Spec.SaysOutOfRange (env : ConsumeEnv Unit β) (t : String) (p o : Int) : Prop :=
  ∀ reqs, (∃ r ∈ reqs, r.topic = t ∧ ∃ f ∈ r.parts, f.id = p ∧ f.offset = o) →
    ∃ a ∈ allAnswers (env.outcomes reqs), a.1 = t ∧ a.2.id = p ∧ a.2.code = 1

theorem fetch_unsynced {ε : Type} (cfg : CCfg β δ) (env : ConsumeEnv ε β) (t : String)
    (p : Int) (parts : List Int) (hp : p ∈ parts) (c : Consumer ε) (c' : Consumer ε)
    (out : Option (List δ)) (acts : List CAct)
    (h : c.fetch cfg env t parts = (.ok out, c', acts))
    (ht : ∀ c, t ∈ (env.tick 2 c).synced → t ∈ c.synced)
    (hr : ∀ reqs, (∃ r ∈ reqs, r.topic = t ∧
      ∃ f ∈ r.parts, f.id = p ∧ f.offset = offsetOf c.offsets t p) →
      ∃ a ∈ allAnswers (env.outcomes reqs), a.1 = t ∧ a.2.code = 1) : t ∉ c'.synced := by
  rcases fetch_spec cfg env t parts c c' _ acts h with ⟨e, h1, _⟩ |
    ⟨reqs, c1, _, hx, rfl, done, rest, _, _, hs, _, _, ho⟩
  · cases h1
  · intro hin
    have hin := (hs t).1 (ht _ hin)
    obtain ⟨_, rfl, _⟩ := ho out rfl
    obtain ⟨r, hr1, hl⟩ := hx.all p hp
    have : p ∈ r.parts.map (·.id) := by
      rw [hx.named r hr1, List.mem_filter, decide_eq_true_eq]
      exact ⟨hp, hl⟩
    obtain ⟨f, hf, he⟩ := List.mem_map.1 this
    obtain ⟨a, ha, h1, h2⟩ := hr reqs ⟨r, hr1, (hx.topics r hr1).1, f, hf, he, by rw [hx.offsets r hr1 f hf, he]⟩
    exact hin.2 a ha h1 h2

/-- **C132**, for single consumers: when an offset is out of range, the offsets of the topic are
determined anew by the next call. -/
theorem C132_noticed (cfg : CCfg β δ) (oenv : OffsetEnv) (env : ConsumeEnv Unit β) (t : String)
    (start : Start) (p o : Int) (c : Single) (out : Option (List δ)) (reqs : List FReq)
    (ht : ∀ n (c : Single), env.tick n c = c) (hr : SaysOutOfRange env t p o)
    (hout : (c.consume cfg oenv env t start).1 = .ok out)
    (hreq : CAct.fetch reqs ∈ (c.consume cfg oenv env t start).2.2)
    (hp : ∃ r ∈ reqs, ∃ f ∈ r.parts, f.id = p ∧ f.offset = o) :
    t ∉ (c.consume cfg oenv env t start).2.1.synced := by
  cases h : c.consume cfg oenv env t start with
  | mk res x =>
    obtain ⟨c', acts⟩ := x
    rw [h] at hout hreq
    obtain rfl : res = .ok out := hout
    obtain ⟨c0, a, parts, h1, h2, h3, _⟩ := consume_fetch h hreq
    rcases fetch_spec cfg env t parts c0 c' _ _ h3 with ⟨e, h4, _⟩ | ⟨reqs', c2, h4, h5, _⟩
    · cases h4
    · simp only [List.cons.injEq, CAct.fetch.injEq, and_true] at h4
      subst h4
      obtain ⟨r, hr1, f, hf, he, hfo⟩ := hp
      have hn : f.id ∈ r.parts.map (·.id) := List.mem_map.2 ⟨f, hf, rfl⟩
      rw [h5.named r hr1, List.mem_filter, he] at hn
      exact fetch_unsynced cfg env t p parts hn.1 c0 c' out _ h3 (fun c h => by rwa [ht] at h)
        (fun reqs ⟨r', hr', hr2, f', hf', he', ho'⟩ => by
          obtain ⟨a, ha, h1, _, h2⟩ := hr reqs ⟨r', hr', hr2, f', hf', he', by
            rw [ho', ← hfo, h5.offsets r hr1 f hf, he]⟩
          exact ⟨a, ha, h1, h2⟩)

/-- **C132** for single consumers, and what it does to **C131**: once an offset of the topic was
out of range, the next call fetches all partitions of the topic, whichever it was, from the
offsets that brokers report for the start that is given to that call; if these are in range, so
are the fetches. -/
theorem C132_single (cfg cfg' : CCfg β δ) (oenv oenv' : OffsetEnv) (env env' : ConsumeEnv Unit β)
    (t : String) (start start' : Start) (p w : Int) (c c' : Single) (out : Option (List δ))
    (reqs : List FReq) (i : Int) (parts : List Int) (o : Int → Int)
    -- the first call
    (ht : ∀ n (c : Single), env.tick n c = c) (hr : SaysOutOfRange env t p w)
    (hout : (c.consume cfg oenv env t start).1 = .ok out)
    (hreq : CAct.fetch reqs ∈ (c.consume cfg oenv env t start).2.2)
    (hp : ∃ r ∈ reqs, ∃ f ∈ r.parts, f.id = p ∧ f.offset = w)
    (hc' : c' = (c.consume cfg oenv env t start).2.1)
    -- the second call
    (hs : stampOf start' = some i) (hc : c'.closing = false) (hh : c'.heal = false)
    (hpt : c'.cluster.topics.get? t = some parts) (hne : parts ≠ [])
    (hl : ∀ p ∈ parts, ∃ l, leaderOf c'.cluster t p = some l ∧ c'.cluster.conns.has l = true)
    (hw : ∀ b, oenv'.write b = .none) (ho : ∀ p, 0 ≤ o p)
    (hperm : ∀ reqs, ((oenv'.outcomes reqs).map (·.1)).Perm (reqs.map (·.broker)))
    (hans : ∀ reqs, ∀ x ∈ oenv'.outcomes reqs, ∃ q ∈ reqs, ∃ r, x = (q.broker, .ok r) ∧
      AnswersAll o q r)
    (ht' : ∀ c, env'.tick 0 c = c) :
    ∃ reqs, (c'.consume cfg' oenv' env' t start').2.2 = [.determine, .fetch reqs] ∧
      (∀ p ∈ parts, ∃ r ∈ reqs, ∃ f ∈ r.parts, f.id = p) ∧
      ∀ r ∈ reqs, ∀ f ∈ r.parts, f.id ∈ parts ∧ f.offset = o f.id :=
  C77_starts cfg' oenv' env' t start' c' i parts o hs hc hh
    (hc' ▸ C132_noticed cfg oenv env t start p w c out reqs ht hr hout hreq hp) hpt hne hl hw ho hperm
    hans ht'

/-- The answers are about topic `t` only. -/
def Spec.OnlyAbout (oenv : OffsetEnv) (env : ConsumeEnv Unit β) (t : String) : Prop :=
  (∀ reqs b r, (b, .ok r) ∈ oenv.outcomes reqs → ∀ x ∈ r.topics, x.1 = t) ∧
  ∀ reqs b r, (b, .ok r) ∈ env.outcomes reqs → ∀ x ∈ r.topics, x.1 = t

theorem answers_about {env : ConsumeEnv Unit β} {t : String}
    (ho : ∀ reqs b r, (b, .ok r) ∈ env.outcomes reqs → ∀ x ∈ r.topics, x.1 = t)
    (reqs : List FReq) (a : String × FPart β) (ha : a ∈ allAnswers (env.outcomes reqs)) :
    a.1 = t := by
  unfold allAnswers at ha
  rw [List.mem_flatMap] at ha
  obtain ⟨⟨b, res⟩, h1, h2⟩ := ha
  cases res with
  | error e => simp at h2
  | ok r =>
    simp only [answersOf] at h2
    split at h2
    · cases h2
    · rename_i hr
      obtain ⟨q, _, rfl⟩ := List.mem_map.1 h2
      exact ho reqs b r h1 (_, _) (by rw [hr]; exact List.mem_cons_self ..)

theorem handleOffsetParts_others (t' t : String) (hne : t' ≠ t) (ps : List OPart) (c : Single) :
    t' ∈ (handleOffsetParts t ps c).2.synced ↔ t' ∈ c.synced := by
  induction ps generalizing c with
  | nil => exact Iff.rfl
  | cons q ps ih =>
    simp only [handleOffsetParts]
    split
    · split
      · exact Iff.rfl
      · refine (ih _).trans ?_
        split <;> exact Iff.rfl
    · split
      · exact (ih _).trans (by simp [mem_discard, hne])
      · split <;> exact Iff.rfl

theorem determine_others (env : OffsetEnv) (t t' : String) (hne : t' ≠ t) (start : Start)
    (ho : ∀ reqs b r, (b, .ok r) ∈ env.outcomes reqs → ∀ x ∈ r.topics, x.1 = t) (c : Single) :
    t' ∈ (c.determine env t start).2.synced ↔ t' ∈ c.synced := by
  unfold Single.determine Single.determineSent
  simp only
  split
  · exact Iff.rfl
  · rename_i ordered cl _
    have := clientSend_inv_mem offsetHandlers (fun s : Single => t' ∈ s.synced ↔ t' ∈ c.synced)
      (fun b => cl.conns.has b)
      (offsetWrite env.write (ordered.map fun e => ⟨e.1, t, startToTimestamp env.now start, e.2⟩))
      (fun c => ((env.healC c.cluster).1, { c with cluster := (env.healC c.cluster).2 }))
      (fun s hs => hs)
      ((ordered.map fun e => (⟨e.1, t, startToTimestamp env.now start, e.2⟩ : OReq)).map (·.broker))
      (env.outcomes (ordered.map fun e => ⟨e.1, t, startToTimestamp env.now start, e.2⟩)) ?_
      { c with cluster := cl, heal := false } c.heal Iff.rfl
    · split
      · rename_i heq; rw [heq] at this; exact this
      · rename_i heq; rw [heq] at this; exact this
    · intro b r f hm hf s hs
      simp only [offsetHandlers, Option.some.injEq] at hf
      subst hf
      simp only
      unfold handleOffsetResponse
      split
      · exact hs
      · rename_i t'' ps more hr
        obtain rfl : t'' = t := ho _ b r hm (t'', ps) (by rw [hr]; simp)
        exact (handleOffsetParts_others t' t'' hne ps s).trans hs

theorem consume_others (cfg : CCfg β δ) (oenv : OffsetEnv) (env : ConsumeEnv Unit β)
    (ht : ∀ n (c : Single), env.tick n c = c) (t t' : String) (hne : t' ≠ t)
    (ho : OnlyAbout oenv env t) (start : Start) (c : Single) :
    t' ∈ (c.consume cfg oenv env t start).2.1.synced ↔ t' ∈ c.synced := by
  have hfetch : ∀ (c : Single) parts,
      t' ∈ (Consumer.fetch cfg env t parts c).2.1.synced ↔ t' ∈ c.synced := by
    intro c parts
    cases hf : Consumer.fetch cfg env t parts c with
    | mk res x =>
      obtain ⟨c', acts⟩ := x
      rcases fetch_spec cfg env t parts c c' res acts hf with ⟨e, _, _, _, _, _, hs, _⟩ |
        ⟨reqs, c1, _, _, rfl, done, rest, hd, _, hs, _⟩
      · simp only [hs]
      · simp only [ht, hs]
        refine ⟨fun h => h.1, fun h => ⟨h, fun a ha hat => ?_⟩⟩
        rcases hd with hd | hd
        · have : a ∈ allAnswers (env.outcomes reqs) := by rw [← hd]; simp [ha]
          exact absurd (hat.symm.trans (answers_about ho.2 reqs a this)) hne
        · rw [hd] at ha; cases ha
  have hsync : ∀ c : Single, t' ∈ (Consumer.consumeSynced Single.allocation cfg env t c).2.1.synced ↔
      t' ∈ c.synced := by
    intro c
    unfold Consumer.consumeSynced
    split
    · exact Iff.rfl
    · split
      · exact hfetch _ _
      · split
        · simp only [ht]
        · simp only
          split
          · simp only [ht]
          · split
            · simp only [ht]
            · refine (hfetch _ _).trans ?_
              simp only [ht]
  unfold Single.consume Consumer.consume
  have hd := determine_others oenv t t' hne start ho.1 c
  split
  · exact Iff.rfl
  · split
    · exact hsync _
    · split
      · rename_i heq; rw [heq] at hd; simp only [ht]; exact hd
      · rename_i heq; rw [heq] at hd; simp only [ht]; exact hd
      · rename_i heq; rw [heq] at hd
        simp only
        refine (hsync _).trans ?_
        simp only [ht, mem_addSet, hne, false_or]
        exact hd

/-- **C131** (partial): the partitions of other topics are left where they are, whatever the
answers are, and need not be determined anew.  Missing: the other partitions of the same topic. -/
theorem C131_topics_partial (cfg : CCfg β δ) (oenv : OffsetEnv) (env : ConsumeEnv Unit β)
    (t t' : String) (start : Start) (c : Single) (ht : ∀ n (c : Single), env.tick n c = c)
    (ho : OnlyAbout oenv env t) (hne : t' ≠ t) :
    (∀ p, offsetOf (c.consume cfg oenv env t start).2.1.offsets t' p = offsetOf c.offsets t' p) ∧
    (t' ∈ (c.consume cfg oenv env t start).2.1.synced ↔ t' ∈ c.synced) :=
  ⟨fun p => consume_untold cfg oenv env ht t' p
    (fun reqs b r h x hx he => absurd (he.symm.trans (ho.1 reqs b r h x hx)) hne)
    (fun reqs b r h x hx he => absurd (he.symm.trans (ho.2 reqs b r h x hx)) hne) t start c _ rfl,
    consume_others cfg oenv env ht t t' hne ho start c⟩

/-! ### The consumer of a group -/

/-- Partition `p` of topic `t` is the consumer's. -/
def Spec.Owns (t : String) (p : Int) (c : Grouped) : Prop :=
  ∃ a ps, c.ext.mapping = some a ∧ a.get? t = some ps ∧ p ∈ ps

/-- What happens besides does not concern partition `p` of topic `t`, other than that it may be
asked for anew where to start. -/
structure Spec.Aside (t : String) (p : Int) (f : Grouped → Grouped) : Prop where
  offset : ∀ c, offsetOf (f c).offsets t p = offsetOf c.offsets t p
  synced : ∀ c, t ∈ (f c).synced → t ∈ c.synced
  closing : ∀ c, (f c).closing = c.closing
  owns : ∀ c, Owns t p c → Owns t p (f c)

/-- The offset `o` that is committed for partition `p` of topic `t` is out of range: the
coordinator reports it, and the partition's leader refuses it. -/
structure Spec.Stale (env : GroupEnv β) (t : String) (p o : Int) : Prop where
  told : ∀ n r, (env.offsets n).outcome = .ok r → ∃ ps more, r.topics = (t, ps) :: more ∧
    (∃ q ∈ ps, q.id = p) ∧ ∀ q ∈ ps, q.id = p → q.offset = o
  refused : ∀ reqs, (∃ r ∈ reqs, r.topic = t ∧ ∃ f ∈ r.parts, f.id = p ∧ f.offset = o) →
    ∃ a ∈ allAnswers (env.base.outcomes reqs), a.1 = t ∧ a.2.id = p ∧ a.2.code = 1
  nothing : ∀ reqs, (∀ r ∈ reqs, ∀ f ∈ r.parts, f.id = p → f.offset = o) →
    ∀ a ∈ allAnswers (env.base.outcomes reqs), a.1 = t → a.2.id = p → a.2.code ≠ 0
  tick : ∀ n, Aside t p (env.base.tick n)

/-- The consumer is to fetch partition `p` of topic `t` from offset `o`, or to ask first. -/
structure Spec.StandsAt (t : String) (p o : Int) (c : Grouped) : Prop where
  offset : t ∈ c.synced → offsetOf c.offsets t p = o
  owns : Owns t p c
  opened : c.closing = false

theorem Spec.StandsAt.aside {t : String} {p o : Int} {f : Grouped → Grouped} (hf : Aside t p f)
    {c : Grouped} (h : StandsAt t p o c) : StandsAt t p o (f c) :=
  ⟨fun hs => (hf.offset c).trans (h.offset (hf.synced c hs)), hf.owns c h.owns,
    (hf.closing c).trans h.opened⟩

theorem fetch_stale (cfg : CCfg β δ) (env : GroupEnv β) (t : String) (p o : Int)
    (he : Stale env t p o) (parts : List Int) (hp : p ∈ parts) (c c' : Grouped)
    (res : Res (Option (List δ))) (acts : List CAct)
    (h : c.fetch cfg env.base t parts = (res, c', acts)) (ho : offsetOf c.offsets t p = o)
    (hc : c.closing = false) (hown : Owns t p c) :
    StandsAt t p o c' ∧ (∀ out, res = .ok out → t ∉ c'.synced) := by
  refine ⟨?_, ?_⟩
  · rcases fetch_spec cfg env.base t parts c c' _ acts h with
      ⟨e, _, _, _, _, h1, h2, _, h4, h5⟩ |
      ⟨reqs, c1, _, hx, rfl, done, rest, hd, h1, h2, h3, h4, _⟩
    · refine ⟨fun _ => (h1 t p).trans ho, ?_, h4.trans hc⟩
      obtain ⟨a, ps, k⟩ := hown
      exact ⟨a, ps, h5 ▸ k⟩
    · refine StandsAt.aside (he.tick 2) ⟨fun _ => ?_, ?_, h3.trans hc⟩
      · rw [h1]
        have : fetchedFor done t p = [] := by
          unfold fetchedFor
          rw [List.flatMap_eq_nil_iff]
          intro a ha
          rw [List.mem_filter, decide_eq_true_eq] at ha
          rcases hd with hd | hd
          · exact absurd ha.2.2.2 (he.nothing reqs (fun r hr f hf hid => by
            rw [hx.offsets r hr f hf, hid, ho]) a (by rw [← hd]; simp [ha.1]) ha.2.1 ha.2.2.1)
          · rw [hd] at ha; simp at ha
        rw [this]
        exact ho
      · obtain ⟨a, ps, k⟩ := hown
        exact ⟨a, ps, h4 ▸ k⟩
  · rintro out rfl
    refine fetch_unsynced cfg env.base t p parts hp c c' out acts h (he.tick 2).synced ?_
    rintro reqs ⟨r, hr, ht, f, hf, h1, h2⟩
    obtain ⟨a, ha, h3, _, h4⟩ := he.refused reqs ⟨r, hr, ht, f, hf, h1, h2.trans ho⟩
    exact ⟨a, ha, h3, h4⟩

theorem allocated_owns {t : String} {p : Int} {c : Grouped} (h : Owns t p c) :
    ∃ a parts, Grouped.allocation c = .ok a ∧ allocated a t = some parts ∧ p ∈ parts := by
  obtain ⟨a, ps, h1, h2, h3⟩ := h
  refine ⟨a, ps, by unfold Grouped.allocation; rw [h1], allocated_some.2 ⟨h2, ?_⟩, h3⟩
  rintro rfl
  cases h3

theorem consumeSynced_stale (cfg : CCfg β δ) (env : GroupEnv β) (t : String) (p o : Int)
    (he : Stale env t p o) (c c' : Grouped) (res : Res (Option (List δ))) (acts : List CAct)
    (h : Consumer.consumeSynced Grouped.allocation cfg env.base t c = (res, c', acts))
    (ho : offsetOf c.offsets t p = o) (hc : c.closing = false) (hown : Owns t p c) :
    StandsAt t p o c' ∧ (∀ out, res = .ok out → t ∉ c'.synced) := by
  obtain ⟨a, parts, h1, h2, h3⟩ := allocated_owns hown
  unfold Consumer.consumeSynced at h
  simp only [h1, h2] at h
  exact fetch_stale cfg env t p o he parts h3 c c' res acts h ho hc hown

theorem determine_stale {plain : Bool} (env : GroupEnv β) (t : String) (p o : Int)
    (he : Stale env t p o) (fuel : Nat) (c : Grouped) (hown : Owns t p c)
    (hc : c.closing = false) :
    Owns t p (c.determine plain env.offsets fuel t).2.1 ∧
    (c.determine plain env.offsets fuel t).2.1.closing = false ∧
    (c.determine plain env.offsets fuel t).2.1.synced = c.synced ∧
    ((c.determine plain env.offsets fuel t).1 = .done () →
      offsetOf (c.determine plain env.offsets fuel t).2.1.offsets t p = o) := by
  refine ⟨?_, ?_, ?_, ?_⟩
  · obtain ⟨a, ps, h1, h2, h3⟩ := hown
    have hg : (Dict.getDefault a t []).1 = a := by
      unfold Dict.getDefault; rw [h2]
    unfold Grouped.determine
    simp only [h1]
    split
    · exact ⟨a, ps, h1, h2, h3⟩
    · have := determineLoop_rel env.offsets (fun c => c.ext.mapping = some a) (fun _ _ _ h => h)
        (fun n r _ c hc => by
          rw [(offsetFetch_any r c (handleOffsetFetchResponse r c).2 (handleOffsetFetchResponse r c).1 rfl).1]; exact hc) fuel 0
        { c with ext := { c.ext with mapping := some (Dict.getDefault a t []).1 } }
        (by simp only [hg])
      exact ⟨a, ps, this, h2, h3⟩
  · unfold Grouped.determine
    split
    · exact hc
    · split
      · exact hc
      · exact determineLoop_rel env.offsets (fun c => c.closing = false) (fun _ _ _ h => h)
          (fun n r _ c hc => by rw [(offsetFetch_any r c (handleOffsetFetchResponse r c).2 (handleOffsetFetchResponse r c).1 rfl).2.2.1]; exact hc) fuel 0 _ hc
  · unfold Grouped.determine
    split
    · rfl
    · split
      · rfl
      · exact determineLoop_rel env.offsets (fun c' => c'.synced = c.synced) (fun _ _ _ h => h)
          (fun n r _ c hc => by rw [(offsetFetch_any r c (handleOffsetFetchResponse r c).2 (handleOffsetFetchResponse r c).1 rfl).2.1]; exact hc) fuel 0 _ rfl
  · intro hd
    obtain ⟨m, r, t', ps, more, h1, h2, _, h3⟩ := C54_determine env.offsets fuel t c hd
    obtain ⟨ps', more', h4, ⟨q, hq, hid⟩, h5⟩ := he.told m r h1
    rw [h2] at h4
    obtain ⟨⟨rfl, rfl⟩, -⟩ : (t' = t ∧ ps = ps') ∧ more = more' := by simpa using h4
    obtain ⟨q', hq', hid', ho'⟩ := h3 q hq
    rw [← hid, ho']
    exact h5 q' hq' (hid'.trans hid)

/-- **C132** fails for consumers of a group, and with it **C131**: while the offset committed for
one partition is out of range, `consume` returns no message of the topic at all, fetched as others
may be, commits nothing, and is as far as before. -/
theorem C132_stalls (gcfg : GCfg) (cfg : CCfg β δ) (env : GroupEnv β) (fuel : Nat) (t : String)
    (p o : Int) (he : Stale env t p o) (c : Grouped) (h : StandsAt t p o c) :
    StandsAt t p o (c.consume gcfg cfg env fuel t).2.1 ∧
    (∀ out, (c.consume gcfg cfg env fuel t).1 = .done out → out = some []) ∧
    (c.consume gcfg cfg env fuel t).2.2.2 = [] := by
  obtain ⟨d1, d2, d3, d4⟩ := determine_stale (plain := cfg.plain) env t p o he fuel c h.owns h.opened
  have hdet : t ∉ c.synced → StandsAt t p o (c.determine cfg.plain env.offsets fuel t).2.1 :=
    fun hs => ⟨fun hx => absurd (d3 ▸ hx) hs, d1, d2⟩
  unfold Grouped.consume
  split
  · rename_i hrun
    exact ⟨StandsAt.aside (he.tick 0) (hdet hrun.2.1), by simp, rfl⟩
  · rename_i hrun
    have key : ∀ res c' acts, Consumer.consume Grouped.allocation
        (Grouped.determineRes cfg.plain env.offsets fuel t) cfg env.base t c = (res, c', acts) →
        StandsAt t p o c' ∧ (∀ out : Option (List δ), res = .ok out → t ∉ c'.synced) := by
      intro res c' acts hcons
      unfold Consumer.consume at hcons
      rw [if_neg (by rw [h.opened]; decide)] at hcons
      split at hcons
      · rename_i hs
        exact consumeSynced_stale cfg env t p o he c c' res acts hcons (h.offset hs) h.opened h.owns
      · rename_i hs
        have hnr : (c.determine cfg.plain env.offsets fuel t).1 ≠ .running :=
          fun hx => hrun ⟨h.opened, hs, hx⟩
        have e1 : ∀ r c1, Grouped.determineRes cfg.plain env.offsets fuel t c = (r, c1) →
            r = (c.determine cfg.plain env.offsets fuel t).1.toRes ∧
            c1 = (c.determine cfg.plain env.offsets fuel t).2.1 := by
          intro r c1 h
          simp only [Grouped.determineRes, Prod.mk.injEq] at h
          exact ⟨h.1.symm, h.2.symm⟩
        split at hcons
        · rename_i c1 heq
          obtain ⟨-, rfl⟩ := e1 _ _ heq
          simp only [Prod.mk.injEq] at hcons
          obtain ⟨rfl, rfl, -⟩ := hcons
          refine ⟨StandsAt.aside (he.tick 0) (hdet hs), fun out _ hx => ?_⟩
          exact hs (d3 ▸ (he.tick 0).synced _ hx)
        · rename_i c1 heq
          obtain ⟨-, rfl⟩ := e1 _ _ heq
          simp only [Prod.mk.injEq] at hcons
          obtain ⟨rfl, rfl, -⟩ := hcons
          exact ⟨StandsAt.aside (he.tick 0) (hdet hs), fun out h => by cases h⟩
        · rename_i u c1 heq
          obtain ⟨hdone, rfl⟩ := e1 _ _ heq
          have hdone : (c.determine cfg.plain env.offsets fuel t).1 = .done () := by
            cases hr : (c.determine cfg.plain env.offsets fuel t).1 with
            | done u => rfl
            | raised e => rw [hr] at hdone; cases hdone
            | running => exact absurd hr hnr
          simp only at hcons
          simp only [Prod.mk.injEq] at hcons
          obtain ⟨rfl, rfl, -⟩ := hcons
          have hown := (he.tick 0).owns _ d1
          exact consumeSynced_stale cfg env t p o he _ _ _ _ rfl
            (((he.tick 0).offset _).trans (d4 hdone)) (((he.tick 0).closing _).trans d2) hown
    cases hcons : Consumer.consume Grouped.allocation
        (Grouped.determineRes cfg.plain env.offsets fuel t) cfg env.base t c with
    | mk res x =>
      obtain ⟨c', acts⟩ := x
      obtain ⟨k1, k2⟩ := key res c' acts hcons
      cases res with
      | error e => exact ⟨k1, by simp, rfl⟩
      | ok out =>
        have := k2 out rfl
        simp only [this, not_false_eq_true, if_true]
        exact ⟨k1, by simp⟩

/-- A life of a consumer of a group as far as one topic goes: calls of `consume` for it, and what
happens in between.  The results, and the commits, of the calls. -/
def Spec.callsOn (gcfg : GCfg) (cfg : CCfg β δ) (t : String) :
    List (GroupEnv β × Nat × (Grouped → Grouped)) → Grouped →
    List (Run (Option (List δ)) × List CommitReq)
  | [], _ => []
  | (env, fuel, between) :: rest, c =>
    let r := (between c).consume gcfg cfg env fuel t
    (r.1, r.2.2.2) :: callsOn gcfg cfg t rest r.2.1

/-- **C132** fails for consumers of a group, for ever: as long as the committed offset of one of its
partitions is out of range, no call of `consume` for the topic returns a message, however often it
is called, and none commits anything that would make a difference. -/
theorem C132_stuck (gcfg : GCfg) (cfg : CCfg β δ) (t : String) (p o : Int)
    (life : List (GroupEnv β × Nat × (Grouped → Grouped)))
    (he : ∀ x ∈ life, Stale x.1 t p o ∧ Aside t p x.2.2) (c : Grouped) (h : StandsAt t p o c) :
    ∀ x ∈ callsOn gcfg cfg t life c, (∀ out, x.1 = .done out → out = some []) ∧ x.2 = [] := by
  induction life generalizing c with
  | nil => intro x hx; cases hx
  | cons y life ih =>
    obtain ⟨env, fuel, between⟩ := y
    obtain ⟨h1, h2⟩ := he _ (List.mem_cons_self ..)
    obtain ⟨k1, k2, k3⟩ := C132_stalls gcfg cfg env fuel t p o h1 (between c) (h.aside h2)
    intro x hx
    rcases List.mem_cons.1 hx with rfl | hx
    · exact ⟨k2, k3⟩
    · exact ih (fun y hy => he y (List.mem_cons_of_mem _ hy)) _ k1 x hx

/-! ### Concrete cases -/

/-- Two partitions: 0 has been deleted up to 20, and has nothing since; 1 has messages at 3 and 4,
of which the broker sends one at a time. -/
def exRanges (q : FReq) : Int × Res (FResp Nat) :=
  (q.broker, .ok ⟨[(q.topic, q.parts.map fun f =>
    if f.id = 0 then ⟨0, if f.offset = 20 then 0 else 1, []⟩
    else ⟨1, 0, ([(3, 5), (4, 6)].filter fun m => decide (f.offset ≤ m.1)).take 1⟩)]⟩)

@[inherit_doc exRanges]
def exRangeEnv : ConsumeEnv Unit Nat := { exServe (fun _ => []) with
  outcomes := fun reqs => reqs.map exRanges }

/-- Where these partitions begin and end. -/
def exRangeOffsets : OffsetEnv := { exOffsets 0 [] with
  outcomes := fun reqs => reqs.map fun r => (r.broker, .ok ⟨[(r.topic, r.parts.map fun p =>
    ⟨p, 0, [if p = 0 then 20 else if r.time = .int endOffset then 5 else 3]⟩)]⟩) }

/-- A consumer that has read partition 0 up to 10, which is not there any more. -/
def exLagging : Single := { exConsumer with
  cluster := ⟨[(7, ⟨"h", 1, false⟩)], [("t", [0, 1])], [("t", [(0, 7), (1, 7)])]⟩
  offsets := [("t", [(0, 10), (1, 3)])] }

/-- **C131** is false of the code: message 5 is returned; then, as partition 0 was out of range,
message 6 of partition 1 is passed over (and never returned), or message 5 is returned again, by
calls that start from the end, or from the beginning. -/
theorem C131_false :
    (exLagging.consume exCCfg exRangeOffsets exRangeEnv "t" .unset).1 = .ok (some [5]) ∧
    ((exLagging.consume exCCfg exRangeOffsets exRangeEnv "t" .unset).2.1.consume exCCfg
      exRangeOffsets exRangeEnv "t" .unset).1 = .ok (some []) ∧
    offsetOf ((exLagging.consume exCCfg exRangeOffsets exRangeEnv "t" .unset).2.1.consume exCCfg
      exRangeOffsets exRangeEnv "t" .unset).2.1.offsets "t" 1 = 5 ∧
    ((exLagging.consume exCCfg exRangeOffsets exRangeEnv "t" (.int beginning)).2.1.consume exCCfg
      exRangeOffsets exRangeEnv "t" (.int beginning)).1 = .ok (some [5]) := by decide +kernel

/-- The group has committed 10 for partition 0 and 3 for partition 1. -/
def exStaleEnv (o : Int) : GroupEnv Nat :=
  ⟨fun _ => exSend (.ok ⟨[("B", [⟨0, o, 0⟩, ⟨1, 3, 0⟩])]⟩),
    { exFetch 0 exStill with outcomes := fun reqs => reqs.map exRanges },
    exCommit (.ok ⟨[("B", [(0, 0), (1, 0)])]⟩)⟩

/-- A consumer that has both partitions. -/
def exStaleConsumer : Grouped :=
  { Grouped.new ⟨[(7, ⟨"h", 1, false⟩), (8, ⟨"i", 2, false⟩)], [("B", [0, 1])],
      [("B", [(0, 7), (1, 7)])]⟩ with ext := ⟨some 8, [], some [("B", [0, 1])]⟩ }

theorem exRanges_answers (reqs : List FReq) (a : String × FPart Nat) :
    a ∈ allAnswers (reqs.map exRanges) ↔ ∃ r ∈ reqs, ∃ f ∈ r.parts, a = (r.topic,
      if f.id = 0 then ⟨0, if f.offset = 20 then 0 else 1, []⟩
      else ⟨1, 0, ([(3, 5), (4, 6)].filter fun m => decide (f.offset ≤ m.1)).take 1⟩) := by
  induction reqs with
  | nil => simp [allAnswers]
  | cons r reqs ih =>
    simp only [List.map_cons, allAnswers_cons, List.mem_append, ih, List.mem_cons,
      exists_eq_or_imp]
    refine or_congr ?_ Iff.rfl
    simp only [exRanges, answersOf, List.mem_map, List.map_map, Function.comp_apply]
    exact ⟨fun ⟨f, hf, h⟩ => ⟨f, hf, h.symm⟩, fun ⟨f, hf, h⟩ => ⟨f, hf, h.symm⟩⟩

theorem exRange_says : SaysOutOfRange exRangeEnv "t" 0 10 := by
  rintro reqs ⟨r, hr, ht, f, hf, h1, h2⟩
  exact ⟨_, (exRanges_answers reqs _).2 ⟨r, hr, f, hf, rfl⟩, ht, by simp [h1], by simp [h1, h2]⟩

theorem exStale_stale (o : Int) (ho : o ≠ 20) : Stale (exStaleEnv o) "B" 0 o := by
  refine ⟨?_, ?_, ?_, fun n => ⟨fun _ => rfl, fun _ h => h, fun _ => rfl, fun _ h => h⟩⟩
  · intro n r h
    simp only [exStaleEnv, exSend, Except.ok.injEq] at h
    subst h
    exact ⟨_, _, rfl, ⟨_, List.mem_cons_self .., rfl⟩, by simp⟩
  · rintro reqs ⟨r, hr, ht, f, hf, h1, h2⟩
    exact ⟨_, (exRanges_answers reqs _).2 ⟨r, hr, f, hf, rfl⟩, ht, by simp [h1], by simp [h1, h2, ho]⟩
  · intro reqs hreq a ha _ hp
    obtain ⟨r, hr, f, hf, rfl⟩ := (exRanges_answers reqs a).1 ha
    by_cases h0 : f.id = 0
    · simp [h0, hreq r hr f hf h0, ho]
    · simp [h0] at hp

theorem exStale_stands : StandsAt "B" 0 10 exStaleConsumer :=
  ⟨fun h => absurd h (by decide), ⟨_, _, rfl, rfl, by decide⟩, rfl⟩

/-- Hypotheses of **C132** (forever) met: a life of any number of calls. -/
example (n : Nat) : ∀ x ∈ callsOn exAuto exCCfg "B" (List.replicate n (exStaleEnv 10, 5, id))
    exStaleConsumer, (∀ out, x.1 = .done out → out = some []) ∧ x.2 = [] :=
  C132_stuck exAuto exCCfg "B" 0 10 _ (fun x hx => by
    obtain rfl := List.eq_of_mem_replicate hx
    exact ⟨exStale_stale 10 (by decide), fun _ => rfl, fun _ h => h, fun _ => rfl, fun _ h => h⟩) _ exStale_stands

/-- The ends of these partitions. -/
def exRangeEnds : OffsetEnv := { exOffsets 0 [] with
  outcomes := fun reqs => reqs.map fun r => (r.broker, .ok ⟨[(r.topic, r.parts.map fun p =>
    ⟨p, 0, [if p = 0 then 20 else 5]⟩)]⟩) }

/-- Hypotheses of **C132** (noticed, and the next call) met. -/
example : ∃ reqs, (((exLagging.consume exCCfg exRangeEnds exRangeEnv "t" .unset).2.1).consume
      exCCfg exRangeEnds exRangeEnv "t" .unset).2.2 = [.determine, .fetch reqs] ∧
      (∀ p ∈ [0, 1], ∃ r ∈ reqs, ∃ f ∈ r.parts, f.id = p) ∧
      ∀ r ∈ reqs, ∀ f ∈ r.parts, f.id ∈ [0, 1] ∧ f.offset = if f.id = 0 then 20 else 5 :=
  C132_single exCCfg exCCfg exRangeEnds exRangeEnds exRangeEnv exRangeEnv "t" .unset .unset
    0 10 exLagging _ (some [5]) [⟨7, 1000, 1, "t", [⟨0, 10, 50⟩, ⟨1, 3, 50⟩]⟩] (-1) [0, 1]
    (fun p => if p = 0 then 20 else 5) (fun _ _ => rfl) exRange_says (by decide +kernel)
    (by decide +kernel) (by decide) rfl rfl (by decide +kernel) (by decide +kernel)
    (by decide +kernel) (by decide) (by decide +kernel) (fun _ => rfl) (fun p => by
      show 0 ≤ if p = 0 then (20 : Int) else 5
      split <;> decide)
    (fun reqs => by simp [exRangeEnds, Function.comp_def])
    (fun reqs x hx => by
      obtain ⟨q, hq, rfl⟩ := List.mem_map.1 hx
      refine ⟨q, hq, _, rfl, _, rfl, fun p => by simp [List.map_map, Function.comp_def], fun y hy => ?_⟩
      obtain ⟨p, _, rfl⟩ := List.mem_map.1 hy
      rfl)
    (fun _ => rfl)

/-- Hypotheses of **C131** (other topics) met. -/
example (s : Start) :
    let oenv : OffsetEnv := { exRangeEnds with
      outcomes := fun reqs => exRangeEnds.outcomes (reqs.filter fun r => r.topic = "t") }
    let env : ConsumeEnv Unit Nat := { exRangeEnv with
      outcomes := fun reqs => exRangeEnv.outcomes (reqs.filter fun r => r.topic = "t") }
    let c : Single := { exLagging with offsets := [("t", [(0, 10), (1, 3)]), ("u", [(0, 7)])], synced := ["t", "u"] }
    (∀ p, offsetOf (c.consume exCCfg oenv env "t" s).2.1.offsets "u" p = offsetOf c.offsets "u" p) ∧
    ("u" ∈ (c.consume exCCfg oenv env "t" s).2.1.synced ↔ "u" ∈ c.synced) :=
  C131_topics_partial exCCfg _ _ "t" "u" s _ (fun _ _ => rfl) ⟨fun reqs b r h x hx => by
    obtain ⟨q, hq, he⟩ := List.mem_map.1 h
    cases he
    rw [List.mem_filter, decide_eq_true_eq] at hq
    simp only [List.mem_singleton] at hx
    rw [hx, hq.2], fun reqs b r h x hx => by
    obtain ⟨q, hq, he⟩ := List.mem_map.1 h
    cases he
    rw [List.mem_filter, decide_eq_true_eq] at hq
    simp only [List.mem_singleton] at hx
    rw [hx, hq.2]⟩ (by decide)

/-- **C132** is false of the code: partition 1 has messages, which a consumer returns if the
offset of partition 0 is in range; if it is not, none is returned, nor by the calls after. -/
theorem C132_false :
    (exStaleConsumer.consume exAuto exCCfg (exStaleEnv 20) 5 "B").1 = .done (some [5]) ∧
    (exStaleConsumer.consume exAuto exCCfg (exStaleEnv 10) 5 "B").1 = .done (some []) ∧
    ((exStaleConsumer.consume exAuto exCCfg (exStaleEnv 10) 5 "B").2.1.consume exAuto exCCfg
      (exStaleEnv 10) 5 "B").1 = .done (some []) := by decide +kernel

end Kiel
