import Verif.Spec.GroupOverlap
import Verif.Props.Overlap
import Verif.Props.Commit
import Verif.Lemmas.Grouped
/-
C102, C103: `consume`s and `commit_offsets`s of one `GroupedConsumer` that run at the same time.
-/
set_option autoImplicit false
namespace Kiel
open Spec

variable {β δ : Type}

/-! ### The parts of a step -/

/-- What a step of the base class leaves alone. -/
theorem busy_keeps {ε : Type} {allocation : Consumer ε → Res (Dict String (List Int))}
    {cfg : CCfg β δ} {batch : List (Int × β) → Int → List (Int × β) → Prop}
    {logs : String → Int → List (Int × β)} {b b' : Busy ε δ} {ev : BEv ε β} {out : BOut δ}
    (hf : Fair batch logs b ev) (h : b.step allocation cfg ev = (out, b'))
    (ho : ∀ f, ev ≠ .other f) :
    b'.consumer.ext = b.consumer.ext ∧
    ((∀ e, out ≠ .raised e) → ∀ t ∈ b.consumer.synced, t ∈ b'.consumer.synced) := by
  cases ev with
  | consume i topic =>
    simp only [Busy.step] at h
    split at h
    · cases h; exact ⟨rfl, fun _ t ht => ht⟩
    · split at h
      · cases h; exact ⟨rfl, fun _ t ht => ht⟩
      · split at h
        · cases h; exact ⟨rfl, fun _ t ht => ht⟩
        · split at h
          · cases h; exact ⟨rfl, fun _ t ht => ht⟩
          · split at h
            · rename_i hfe
              obtain ⟨_, _, g3, _, _, g6, _⟩ := fetches_spec _ _ _ _ _ _ hfe
              cases h
              exact ⟨g6, fun _ t ht => by rw [g3]; exact ht⟩
            · rename_i hfe
              obtain ⟨_, _, g3, _, _, g6, _⟩ := fetches_spec _ _ _ _ _ _ hfe
              split at h <;> cases h <;> exact ⟨g6, fun _ t ht => by rw [g3]; exact ht⟩
  | outcome i broker r =>
    simp only [Busy.step] at h
    split at h
    · cases h; exact ⟨rfl, fun _ t ht => ht⟩
    · rename_i w hw
      split at h
      · cases h; exact ⟨rfl, fun _ t ht => ht⟩
      · rename_i hb
        rw [not_not] at hb
        obtain ⟨q, hq, hqb⟩ := List.mem_map.1 hb
        split at h
        · cases h
          simp only
          split <;> exact ⟨rfl, fun _ t ht => ht⟩
        · rename_i resp
          have hhon := hf w hw q hq hqb
          split at h
          · rename_i hh
            obtain ⟨done, rest, _, h2, _⟩ := handleFetch_spec _ _ _ _ _ hh
            cases h
            exact ⟨h2.ext, fun hno => absurd rfl (hno _)⟩
          · rename_i hh
            obtain ⟨done, rest, h1, h2, _⟩ := handleFetch_spec _ _ _ _ _ hh
            cases h
            refine ⟨h2.ext, fun _ t ht => (h2.synced t).2 ⟨ht, ?_⟩⟩
            intro a ha _ hc
            obtain ⟨ps, k1, _, k3⟩ := hhon
            have : a ∈ answersOf resp := by rw [h1]; exact List.mem_append_left _ ha
            simp only [answersOf, k1, List.mem_map] at this
            obtain ⟨x, hx, rfl⟩ := this
            exact (k3 x hx).1 hc
  | finish i =>
    simp only [Busy.step] at h
    split at h
    · cases h; exact ⟨rfl, fun _ t ht => ht⟩
    · split at h <;> cases h <;> exact ⟨rfl, fun _ t ht => ht⟩
  | healFails i e =>
    simp only [Busy.step] at h
    split at h <;> cases h <;> exact ⟨rfl, fun _ t ht => ht⟩
  | other f => exact absurd rfl (ho f)

/-- What a consumer that has only had its offsets looked at has kept. -/
structure SameBase (b b' : Busy GExt δ) : Prop where
  waiting : b'.waiting = b.waiting
  offsets : ∀ t p, offsetOf b'.consumer.offsets t p = offsetOf b.consumer.offsets t p
  synced : b'.consumer.synced = b.consumer.synced
  mapping : b'.consumer.ext.mapping = b.consumer.ext.mapping

theorem SameBase.refl (b : Busy GExt δ) : SameBase b b := ⟨rfl, fun _ _ => rfl, rfl, rfl⟩

theorem SameBase.trans {b b' b'' : Busy GExt δ} (h : SameBase b b') (h' : SameBase b' b'') :
    SameBase b b'' :=
  ⟨h'.waiting.trans h.waiting, fun t p => (h'.offsets t p).trans (h.offsets t p),
    h'.synced.trans h.synced, h'.mapping.trans h.mapping⟩

theorem ask_spec {cfg : CCfg β δ} {k : Nat} {metadata : String} {result : Option (String × Option (List δ))}
    {g g' : GroupBusy δ} {out : GroupOut δ} (h : g.ask cfg k metadata result = (out, g')) :
    SameBase g.base g'.base ∧ g'.base.consumer.ext = g.base.consumer.ext ∧
    ((∃ e, out = .raised e) ∧ g'.commits = g.commits.erase k ∨
      ∃ a b, g.base.consumer.ext.mapping = some a ∧
        out = .asked ⟨some b, metadata, commitOf g.base.consumer.ext.toCommit a
          g.base.consumer.offsets⟩ ∧
        g'.commits = g.commits.set k ⟨.asking ⟨some b, metadata,
          commitOf g.base.consumer.ext.toCommit a g.base.consumer.offsets⟩, result⟩) := by
  unfold GroupBusy.ask at h
  split at h
  · cases h
    exact ⟨SameBase.refl _, rfl, .inl ⟨⟨_, rfl⟩, rfl⟩⟩
  · rename_i a ha
    obtain ⟨h1, h2⟩ := commitTopics_spec g.base.consumer.ext.toCommit a g.base.consumer.offsets
    have hsb : ∀ o, (∀ t p, offsetOf o t p = offsetOf g.base.consumer.offsets t p) →
        SameBase g.base { g.base with consumer := { g.base.consumer with offsets := o } } :=
      fun o ho => ⟨rfl, ho, rfl, rfl⟩
    simp only at h
    split at h
    · cases h
      exact ⟨hsb _ h2, rfl, .inl ⟨⟨_, rfl⟩, rfl⟩⟩
    · split at h
      · cases h
        exact ⟨hsb _ h2, rfl, .inl ⟨⟨_, rfl⟩, rfl⟩⟩
      · rename_i b hb _
        split at h
        · cases h
          exact ⟨hsb _ h2, rfl, .inl ⟨⟨_, rfl⟩, rfl⟩⟩
        · cases h
          refine ⟨hsb _ h2, rfl, .inr ⟨a, b, ha, ?_, ?_⟩⟩
          · rw [h1]
          · simp only [h1]

/-- What the answer to a commit does, whatever its codes. -/
theorem handleCommitParts_any (t : String) (ps : List (Int × Int)) (c : Grouped) (b : Bool × Bool) :
    ∃ s h, (handleCommitParts t ps c b).2 = { c with heal := h, ext := { c.ext with toCommit := s } } ∧
      (∀ t' ∈ c.ext.toCommit, (t' = t → ∀ p ∈ ps, p.2 ≠ 0) → t' ∈ s) ∧
      ∀ r, (handleCommitParts t ps c b).1 = .ok r →
        (b.1 = true ∨ ∃ p ∈ ps, Retriable p.2 ∨ p.2 = 12) → r.1 = true := by
  induction ps generalizing c b with
  | nil =>
    refine ⟨c.ext.toCommit, c.heal, rfl, fun t' ht _ => ht, ?_⟩
    intro r hr hb
    simp only [handleCommitParts, Except.ok.injEq] at hr
    subst hr
    rcases hb with hb | ⟨p, hp, _⟩
    · exact hb
    · simp at hp
  | cons p ps ih =>
    obtain ⟨i, code⟩ := p
    obtain ⟨retry, adjust⟩ := b
    simp only [handleCommitParts]
    split
    · rename_i h0
      obtain ⟨s, h, g1, g2, g3⟩ :=
        ih { c with ext := { c.ext with toCommit := discard c.ext.toCommit t } } (retry, adjust)
      refine ⟨s, h, g1, ?_, ?_⟩
      · intro t' ht' hne
        have htt : t' ≠ t := fun e => hne e (i, code) (by simp) h0
        exact g2 t' (mem_discard.2 ⟨ht', htt⟩) fun e => absurd e htt
      · rintro r hr hb
        refine g3 r hr ?_
        rcases hb with hb | ⟨q, hq, hc⟩
        · exact .inl hb
        · rcases List.mem_cons.1 hq with rfl | hq
          · simp only at hc
            rw [show code = 0 from h0] at hc
            exact absurd hc (by decide)
          · exact .inr ⟨q, hq, hc⟩
    · split
      · obtain ⟨s, h, g1, g2, g3⟩ := ih { c with heal := true } (true, adjust)
        exact ⟨s, h, g1, fun t' ht' hne => g2 t' ht' fun e q hq => hne e q (List.mem_cons_of_mem _ hq),
          fun r hr _ => g3 r hr (.inl rfl)⟩
      · split
        · obtain ⟨s, h, g1, g2, g3⟩ := ih c (true, true)
          exact ⟨s, h, g1, fun t' ht' hne => g2 t' ht' fun e q hq => hne e q (List.mem_cons_of_mem _ hq),
            fun r hr _ => g3 r hr (.inl rfl)⟩
        · rename_i hr12 h12
          split
          · exact ⟨c.ext.toCommit, c.heal, rfl, fun t' ht _ => ht, fun r hr => by simp at hr⟩
          · obtain ⟨s, h, g1, g2, g3⟩ := ih c (retry, adjust)
            refine ⟨s, h, g1, fun t' ht' hne => g2 t' ht' fun e q hq => hne e q (List.mem_cons_of_mem _ hq),
              fun r hr hb => g3 r hr ?_⟩
            rcases hb with hb | ⟨q, hq, hc⟩
            · exact .inl hb
            · rcases List.mem_cons.1 hq with rfl | hq
              · rcases hc with hc | hc
                · exact absurd hc hr12
                · exact absurd hc h12
              · exact .inr ⟨q, hq, hc⟩

theorem handleCommitTopics_any (ts : List (String × List (Int × Int))) (c : Grouped)
    (b : Bool × Bool) :
    ∃ s h, (handleCommitTopics ts c b).2 = { c with heal := h, ext := { c.ext with toCommit := s } } ∧
      (∀ t' ∈ c.ext.toCommit, (∀ x ∈ ts, x.1 = t' → ∀ p ∈ x.2, p.2 ≠ 0) → t' ∈ s) ∧
      ∀ r, (handleCommitTopics ts c b).1 = .ok r →
        (b.1 = true ∨ ∃ x ∈ ts, ∃ p ∈ x.2, Retriable p.2 ∨ p.2 = 12) → r.1 = true := by
  induction ts generalizing c b with
  | nil =>
    refine ⟨c.ext.toCommit, c.heal, rfl, fun t' ht _ => ht, ?_⟩
    intro r hr hb
    simp only [handleCommitTopics, Except.ok.injEq] at hr
    subst hr
    rcases hb with hb | ⟨p, hp, _⟩
    · exact hb
    · simp at hp
  | cons x ts ih =>
    obtain ⟨t, ps⟩ := x
    obtain ⟨s, h, g1, g2, g3⟩ := handleCommitParts_any t ps c b
    simp only [handleCommitTopics]
    split
    · rename_i e c' he
      rw [he] at g1
      simp only at g1
      subst g1
      exact ⟨s, h, rfl, fun t' ht' hne => g2 t' ht' fun e q hq => hne _ (List.mem_cons_self ..) e.symm q hq,
        fun r hr => by simp at hr⟩
    · rename_i r1 c' he
      rw [he] at g1 g3
      simp only at g1
      subst g1
      obtain ⟨s', h', k1, k2, k3⟩ := ih { c with heal := h, ext := { c.ext with toCommit := s } } r1
      refine ⟨s', h', k1, ?_, ?_⟩
      · intro t' ht' hne
        exact k2 t' (g2 t' ht' fun e q hq => hne _ (List.mem_cons_self ..) e.symm q hq)
          fun x hx => hne x (List.mem_cons_of_mem _ hx)
      · intro r hr hb
        refine k3 r hr ?_
        rcases hb with hb | ⟨y, hy, q, hq, hc⟩
        · exact .inl (g3 r1 rfl (.inl hb))
        · rcases List.mem_cons.1 hy with rfl | hy
          · exact .inl (g3 r1 rfl (.inr ⟨q, hq, hc⟩))
          · exact .inr ⟨y, hy, q, hq, hc⟩

theorem mem_commitAnswers {r : CommitResp} {t : String} {p code : Int} :
    (t, p, code) ∈ commitAnswers r ↔ ∃ x ∈ r.topics, x.1 = t ∧ (p, code) ∈ x.2 := by
  simp only [commitAnswers, List.mem_flatMap, List.mem_map, Prod.mk.injEq]
  constructor
  · rintro ⟨x, hx, q, hq, rfl, rfl, rfl⟩
    exact ⟨x, hx, rfl, hq⟩
  · rintro ⟨x, hx, rfl, hq⟩
    exact ⟨x, hx, _, hq, rfl, rfl, rfl⟩

/-- The same for the response as a whole. -/
theorem handleCommit_any {r : CommitResp} {c c' : Grouped} {res : Res (Bool × Bool)}
    (h : handleCommitResponse r c = (res, c')) :
    c'.offsets = c.offsets ∧ c'.synced = c.synced ∧ c'.ext.mapping = c.ext.mapping ∧
    (∀ t ∈ c.ext.toCommit, (∀ p, (t, p, 0) ∉ commitAnswers r) → t ∈ c'.ext.toCommit) ∧
    ∀ x, res = .ok x → (∃ t p code, (t, p, code) ∈ commitAnswers r ∧ (Retriable code ∨ code = 12)) →
      x.1 = true := by
  obtain ⟨s, hh, g1, g2, g3⟩ := handleCommitTopics_any r.topics c (false, false)
  have h' : handleCommitTopics r.topics c (false, false) = (res, c') := h
  rw [h'] at g1 g3
  simp only at g1 g3
  subst g1
  refine ⟨rfl, rfl, rfl, ?_, ?_⟩
  · intro t ht hn
    refine g2 t ht fun x hx hxt p hp h0 => hn p.1 (mem_commitAnswers.2 ⟨x, hx, hxt, ?_⟩)
    rw [← h0]
    exact hp
  · rintro x hx ⟨t, p, code, ha, hc⟩
    obtain ⟨y, hy, _, hp⟩ := mem_commitAnswers.1 ha
    exact g3 x hx (.inr ⟨y, hy, _, hp, hc⟩)

theorem busy_returned {ε : Type} {allocation : Consumer ε → Res (Dict String (List Int))}
    {cfg : CCfg β δ} {b b' : Busy ε δ} {ev : BEv ε β} {topic : String} {res : Option (List δ)}
    (h : b.step allocation cfg ev = (.returned topic res, b')) :
    (∃ i, ev = .consume i topic ∧ res = .none ∧ b' = b) ∨
    ∃ i w, ev = .finish i ∧ b.waiting.get? i = some w ∧ w.topic = topic ∧
      b' = ⟨{ b.consumer with heal := false }, b.waiting.erase i⟩ := by
  cases ev with
  | consume i t =>
    simp only [Busy.step] at h
    split at h
    · cases h; exact .inl ⟨i, rfl, rfl, rfl⟩
    · split at h
      · cases h
      · split at h
        · cases h
        · split at h
          · cases h
          · split at h
            · cases h
            · split at h <;> cases h
  | outcome i broker r =>
    simp only [Busy.step] at h
    split at h
    · cases h
    · split at h
      · cases h
      · split at h
        · cases h
        · split at h <;> cases h
  | finish i =>
    simp only [Busy.step] at h
    split at h
    · cases h
    · rename_i w hw
      split at h
      · cases h
      · cases h
        exact .inr ⟨i, w, rfl, hw, rfl, rfl⟩
  | healFails i e =>
    simp only [Busy.step] at h
    split at h <;> cases h
  | other f => simp [Busy.step] at h

/-- The `consume`s that wait are for topics that have their offsets. -/
theorem waiting_synced {cfg : CCfg β δ} {batch : List (Int × β) → Int → List (Int × β) → Prop}
    {logs : String → Int → List (Int × β)} {g : GroupBusy δ} {b' : Busy GExt δ} {ev : BEv GExt β}
    {out : BOut δ} (hs : SoundBusy g.base)
    (hw : ∀ x ∈ g.base.waiting, x.2.topic ∈ g.base.consumer.synced)
    (hf : Fair batch logs g.base ev) (hu : Untouched g (.base ev))
    (h : g.base.step Grouped.allocation cfg ev = (out, b')) (hno : ∀ e, out ≠ .raised e) :
    ∀ x ∈ b'.waiting, x.2.topic ∈ b'.consumer.synced := by
  have hk : ∀ t ∈ g.base.consumer.synced, t ∈ b'.consumer.synced := by
    by_cases ho : ∃ f, ev = .other f
    · obtain ⟨f, rfl⟩ := ho
      simp only [Busy.step, Prod.mk.injEq] at h
      obtain ⟨rfl, rfl⟩ := h
      exact hu.1
    · exact (busy_keeps hf h fun f e => ho ⟨f, e⟩).2 hno
  obtain ⟨_, hcase⟩ := busy_step hs h hno (by rintro i t rfl; exact hf) (by rintro f rfl; exact hf)
  have hn := hs.nodup
  intro x hx
  rcases hcase with ⟨_, h2, _⟩ | ⟨i, topic, parts, reqs, rfl, _, _, h3, _⟩ |
    ⟨i, w, broker, h1, _, h3, _⟩ | ⟨i, w, q, r, rfl, h1, _, _, h4, _⟩ | ⟨i, w, h1, _, _, h4, _⟩
  · exact hk _ (hw x (h2 ▸ hx))
  · by_cases ht : topic ∈ g.base.consumer.synced
    · rw [h3] at hx
      rcases List.mem_append.1 hx with hx | hx
      · exact hk _ (hw x hx)
      · simp only [List.mem_singleton] at hx
        subst hx
        exact hk _ ht
    · simp only [Busy.step] at h
      split at h
      · cases h
        have := congrArg List.length h3
        simp at this
      · cases h
        have := congrArg List.length h3
        simp at this
  · rw [h3] at hx
    rcases mem_of_set hn hx with rfl | ⟨hx, _⟩
    · exact hk _ (hw (i, w) (Dict.mem_of_get? h1))
    · exact hk _ (hw x hx)
  · rw [h4] at hx
    rcases mem_of_set hn hx with rfl | ⟨hx, _⟩
    · exact hk _ (hw (i, w) (Dict.mem_of_get? h1))
    · exact hk _ (hw x hx)
  · rw [h4] at hx
    exact hk _ (hw x (Dict.mem_erase.1 hx).1)

/-! ### C102 -/

/-- What a commit will hand to the caller of `consume`, of one topic. -/
def resultFor (t : String) : Option (String × Option (List δ)) → List δ
  | some (topic, some out) => if topic = t then out else []
  | _ => []

theorem mem_beingCommitted {g : GroupBusy δ} {t : String} {d : δ} :
    d ∈ beingCommitted g t ↔ ∃ x ∈ g.commits, d ∈ resultFor t x.2.result := by
  unfold beingCommitted
  rw [List.mem_flatMap]
  rfl

theorem Covered.keep {ε : Type} {cfg : CCfg β δ} {log : List (Int × β)} {t : String} {p o f : Int}
    {b b' : Busy ε δ} {outs : List (String × δ)} (h : Covered cfg log t p o f b outs)
    (hw : b'.waiting = b.waiting)
    (ho : offsetOf b'.consumer.offsets t p = offsetOf b.consumer.offsets t p) :
    Covered cfg log t p o f b' outs := by
  refine ⟨⟨hw ▸ h.sound.nodup, hw ▸ h.sound.each⟩, ho ▸ h.now, hw ▸ h.asked, ?_⟩
  intro m hm d hd htr g1 g2
  rw [mem_inHand, hw, ← mem_inHand]
  exact h.got m hm d hd htr g1 g2

/-- The invariant. -/
structure Kept (gcfg : GCfg) (cfg : CCfg β δ) (log : List (Int × β)) (t : String) (p o : Int)
    (g : GroupBusy δ) (outs : List (String × δ)) : Prop where
  keys : g.commits.keys.Nodup
  apart : ∀ i, i ∈ g.base.waiting.keys → i ∉ g.commits.keys
  synced : ∀ x ∈ g.base.waiting, x.2.topic ∈ g.base.consumer.synced
  manual : gcfg.autocommit = false → ∀ x ∈ g.commits, x.2.result = .none
  cov : ∃ bouts f, Covered cfg log t p o f g.base bouts ∧
    ∀ d, (t, d) ∈ bouts → (t, d) ∈ outs ∨ ∃ x ∈ g.commits, d ∈ resultFor t x.2.result

/-- A commit is begun, or begun once more. -/
theorem kept_ask {gcfg : GCfg} {cfg : CCfg β δ} {log : List (Int × β)} {t : String} {p o f : Int}
    {g g' : GroupBusy δ} {outs bouts : List (String × δ)} {k : Nat} {metadata : String}
    {result : Option (String × Option (List δ))} {out : GroupOut δ}
    (hkeys : g.commits.keys.Nodup) (hapart : ∀ i, i ∈ g.base.waiting.keys → i ∉ g.commits.keys)
    (hk : k ∉ g.base.waiting.keys)
    (hsyn : ∀ x ∈ g.base.waiting, x.2.topic ∈ g.base.consumer.synced)
    (hman : gcfg.autocommit = false → (∀ x ∈ g.commits, x.2.result = .none) ∧ result = .none)
    (hc : Covered cfg log t p o f g.base bouts)
    (hb : ∀ d, (t, d) ∈ bouts → (t, d) ∈ outs ∨
      (∃ x ∈ g.commits, x.1 ≠ k ∧ d ∈ resultFor t x.2.result) ∨ d ∈ resultFor t result)
    (h : g.ask cfg k metadata result = (out, g')) (hr : ∀ e, out = .raised e → result = .none) :
    Kept gcfg cfg log t p o g' outs ∧ givenBy out = [] := by
  obtain ⟨hsame, _, hcase⟩ := ask_spec h
  have hc' := hc.keep hsame.waiting (hsame.offsets t p)
  rcases hcase with ⟨⟨e, rfl⟩, hcm⟩ | ⟨a, b, _, rfl, hcm⟩
  · have hres := hr _ rfl
    refine ⟨⟨?_, ?_, ?_, ?_, bouts, f, hc', ?_⟩, rfl⟩
    · rw [hcm]; exact Dict.nodup_erase hkeys k
    · intro i hi hi'
      rw [hsame.waiting] at hi
      rw [hcm] at hi'
      obtain ⟨v, hv⟩ := Dict.mem_keys.1 hi'
      exact hapart i hi (Dict.mem_keys.2 ⟨v, (Dict.mem_erase.1 hv).1⟩)
    · rw [hsame.waiting, hsame.synced]; exact hsyn
    · intro ha x hx
      rw [hcm] at hx
      exact (hman ha).1 x (Dict.mem_erase.1 hx).1
    · intro d hd
      rcases hb d hd with h1 | ⟨x, hx, hne, hd'⟩ | h1
      · exact .inl h1
      · exact .inr ⟨x, by rw [hcm]; exact Dict.mem_erase.2 ⟨hx, hne⟩, hd'⟩
      · rw [hres] at h1
        simp [resultFor] at h1
  · refine ⟨⟨?_, ?_, ?_, ?_, bouts, f, hc', ?_⟩, rfl⟩
    · rw [hcm]; exact Dict.nodup_set hkeys k _
    · intro i hi hi'
      rw [hsame.waiting] at hi
      rw [hcm] at hi'
      obtain ⟨v, hv⟩ := Dict.mem_keys.1 hi'
      rcases mem_of_set hkeys hv with e | ⟨e, _⟩
      · cases e; exact hk hi
      · exact hapart i hi (Dict.mem_keys.2 ⟨v, e⟩)
    · rw [hsame.waiting, hsame.synced]; exact hsyn
    · intro ha x hx
      rw [hcm] at hx
      rcases mem_of_set hkeys hx with rfl | ⟨e, _⟩
      · exact (hman ha).2
      · exact (hman ha).1 x e
    · intro d hd
      rcases hb d hd with h1 | ⟨x, hx, hne, hd'⟩ | h1
      · exact .inl h1
      · exact .inr ⟨x, by rw [hcm]; exact (Dict.mem_set hkeys).2 (.inr ⟨hx, hne⟩), hd'⟩
      · exact .inr ⟨_, by rw [hcm]; exact (Dict.mem_set hkeys).2 (.inl rfl), h1⟩

/-- A commit ends; what it had is returned. -/
theorem kept_drop {gcfg : GCfg} {cfg : CCfg β δ} {log : List (Int × β)} {t : String} {p o : Int}
    {g g' : GroupBusy δ} {outs outs' : List (String × δ)} {k : Nat}
    (hx : Kept gcfg cfg log t p o g outs) (hw : g'.base.waiting = g.base.waiting)
    (ho : offsetOf g'.base.consumer.offsets t p = offsetOf g.base.consumer.offsets t p)
    (hs : g'.base.consumer.synced = g.base.consumer.synced) (hc : g'.commits = g.commits.erase k)
    (hsub : ∀ x ∈ outs, x ∈ outs')
    (hd : ∀ cm, g.commits.get? k = some cm → ∀ d ∈ resultFor t cm.result, (t, d) ∈ outs') :
    Kept gcfg cfg log t p o g' outs' := by
  obtain ⟨bouts, f, hcov, hb⟩ := hx.cov
  refine ⟨by rw [hc]; exact Dict.nodup_erase hx.keys k, ?_, by rw [hw, hs]; exact hx.synced, ?_,
    bouts, f, hcov.keep hw ho, ?_⟩
  · intro i hi hi'
    rw [hc] at hi'
    obtain ⟨v, hv⟩ := Dict.mem_keys.1 hi'
    exact hx.apart i (hw ▸ hi) (Dict.mem_keys.2 ⟨v, (Dict.mem_erase.1 hv).1⟩)
  · rw [hc]
    exact fun ha x hxm => hx.manual ha x (Dict.mem_erase.1 hxm).1
  · intro d hdb
    rcases hb d hdb with h1 | ⟨x, hxm, hd'⟩
    · exact .inl (hsub _ h1)
    · by_cases hxk : x.1 = k
      · have := Dict.get?_of_mem hx.keys (show (x.1, x.2) ∈ g.commits from hxm)
        rw [hxk] at this
        exact .inl (hd _ this d hd')
      · exact .inr ⟨x, by rw [hc]; exact Dict.mem_erase.2 ⟨hxm, hxk⟩, hd'⟩

theorem kept_step {gcfg : GCfg} {cfg : CCfg β δ} {logs : String → Int → List (Int × β)}
    (hl : ∀ t p, IsLog (logs t p)) {t : String} {p o : Int} {g g' : GroupBusy δ} {ev : GroupEv β}
    {out : GroupOut δ} {outs : List (String × δ)} (hx : Kept gcfg cfg (logs t p) t p o g outs)
    (hok : Allowed logs g ev out) (h : g.step gcfg cfg ev = (out, g')) :
    Kept gcfg cfg (logs t p) t p o g' (outs ++ givenBy out) := by
  obtain ⟨hfresh, hfair, hund, hraise⟩ := hok
  obtain ⟨bouts, f, hcov, hb⟩ := hx.cov
  cases ev with
  | base bev =>
    cases hs : g.base.step Grouped.allocation cfg bev with
    | mk bo b' =>
      -- numbers stay apart
      have hapart : (∀ e, bo ≠ .raised e) → ∀ i, i ∈ b'.waiting.keys → i ∉ g.commits.keys := by
        intro hno i hi
        obtain ⟨v, hv⟩ := Dict.mem_keys.1 hi
        obtain ⟨_, hcase⟩ := busy_step hcov.sound hs hno
          (by rintro i t rfl; exact hfair) (by rintro f rfl; exact hfair)
        have hn := hcov.sound.nodup
        rcases hcase with ⟨_, h2, _⟩ | ⟨j, topic, parts, reqs, rfl, _, _, h3, _⟩ |
          ⟨j, w, broker, h1, _, h3, _⟩ | ⟨j, w, q, r, rfl, h1, _, _, h4, _⟩ | ⟨j, w, h1, _, _, h4, _⟩
        · exact hx.apart i (h2 ▸ hi)
        · rw [h3] at hv
          rcases List.mem_append.1 hv with hv | hv
          · exact hx.apart i (Dict.mem_keys.2 ⟨v, hv⟩)
          · simp only [List.mem_singleton, Prod.mk.injEq] at hv
            rw [hv.1]
            exact Dict.get?_eq_none.1 hfresh
        · rw [h3] at hv
          rcases mem_of_set hn hv with e | ⟨e, _⟩
          · cases e; exact hx.apart _ (Dict.mem_keys.2 ⟨w, Dict.mem_of_get? h1⟩)
          · exact hx.apart i (Dict.mem_keys.2 ⟨v, e⟩)
        · rw [h4] at hv
          rcases mem_of_set hn hv with e | ⟨e, _⟩
          · cases e; exact hx.apart _ (Dict.mem_keys.2 ⟨w, Dict.mem_of_get? h1⟩)
          · exact hx.apart i (Dict.mem_keys.2 ⟨v, e⟩)
        · rw [h4] at hv
          exact hx.apart i (Dict.mem_keys.2 ⟨v, (Dict.mem_erase.1 hv).1⟩)
      simp only [GroupBusy.step] at h
      rw [hs] at h
      cases bo with
      | nothing =>
        cases h
        obtain ⟨f', hc'⟩ := covered_step hl hcov hfair hs (by simp)
        refine ⟨hx.keys, hapart (by simp), waiting_synced hcov.sound hx.synced hfair hund hs (by simp),
          hx.manual, bouts, f', ?_, ?_⟩
        · simpa [returnedBy] using hc'
        · simpa [givenBy] using hb
      | sent reqs =>
        cases h
        obtain ⟨f', hc'⟩ := covered_step hl hcov hfair hs (by simp)
        refine ⟨hx.keys, hapart (by simp), waiting_synced hcov.sound hx.synced hfair hund hs (by simp),
          hx.manual, bouts, f', ?_, ?_⟩
        · simpa [returnedBy] using hc'
        · simpa [givenBy] using hb
      | raised e =>
        cases h
        exact absurd (hraise e rfl) id
      | returned topic res =>
        obtain ⟨f', hc'⟩ := covered_step hl hcov hfair hs (by simp)
        have hsyn := waiting_synced hcov.sound hx.synced hfair hund hs (by simp)
        have hap := hapart (by simp)
        -- the number is not that of a commit, and no longer that of a waiting `consume`
        have hnum : bev.number ∉ g.commits.keys ∧ bev.number ∉ b'.waiting.keys := by
          rcases busy_returned hs with ⟨i, rfl, _, rfl⟩ | ⟨i, w, rfl, hw, _, rfl⟩
          · exact ⟨Dict.get?_eq_none.1 hfresh, Dict.get?_eq_none.1 hfair⟩
          · refine ⟨hx.apart i (Dict.mem_keys.2 ⟨w, Dict.mem_of_get? hw⟩), ?_⟩
            intro hi
            obtain ⟨v, hv⟩ := Dict.mem_keys.1 hi
            exact (Dict.mem_erase.1 hv).2 rfl
        simp only [GroupBusy.finish] at h
        split at h
        · rename_i hns
          cases h
          have hnil : returnedBy (.returned topic res) = [] := by
            rcases busy_returned hs with ⟨i, rfl, rfl, rfl⟩ | ⟨i, w, rfl, hw, rfl, rfl⟩
            · rfl
            · exact absurd (hx.synced _ (Dict.mem_of_get? hw)) hns
          rw [hnil, List.append_nil] at hc'
          exact ⟨hx.keys, hap, hsyn, hx.manual, bouts, f', hc', by simpa [givenBy] using hb⟩
        · split at h
          · rename_i hauto
            have key := kept_ask (gcfg := gcfg) (outs := outs)
              (bouts := bouts ++ returnedBy (.returned topic res))
              (g := { base := { b' with consumer := { b'.consumer with ext := { b'.consumer.ext with toCommit := addSet b'.consumer.ext.toCommit topic } } }, commits := g.commits })
              hx.keys hap hnum.2 hsyn (by rw [hauto]; simp) (hc'.keep rfl rfl) ?_ h ?_
            · rw [key.2, List.append_nil]
              exact key.1
            · intro d hd
              rcases List.mem_append.1 hd with hd | hd
              · rcases hb d hd with h1 | ⟨x, hxm, hd'⟩
                · exact .inl h1
                · refine .inr (.inl ⟨x, hxm, ?_, hd'⟩)
                  exact fun e => hnum.1 (e ▸ Dict.mem_keys.2 ⟨x.2, hxm⟩)
              · cases res with
                | none => simp [returnedBy] at hd
                | some l =>
                  simp only [returnedBy, List.mem_map, Prod.mk.injEq] at hd
                  obtain ⟨v, hv, rfl, rfl⟩ := hd
                  exact .inr (.inr (by simpa [resultFor] using hv))
            · intro e he
              exact absurd (hraise e he) id
          · cases h
            refine ⟨hx.keys, hap, hsyn, hx.manual, _, f', hc'.keep rfl rfl, ?_⟩
            intro d hd
            rcases List.mem_append.1 hd with hd | hd
            · rcases hb d hd with h1 | h1
              · exact .inl (List.mem_append_left _ h1)
              · exact .inr h1
            · exact .inl (List.mem_append_right _ (by cases res <;> exact hd))
  | commit k metadata =>
    have key := kept_ask (gcfg := gcfg) (outs := outs) (bouts := bouts) hx.keys hx.apart
      (Dict.get?_eq_none.1 hfresh.2) hx.synced (fun ha => ⟨hx.manual ha, rfl⟩) hcov ?_ h
      (fun _ _ => rfl)
    · rw [key.2, List.append_nil]
      exact key.1
    · intro d hd
      rcases hb d hd with h1 | ⟨x, hxm, hd'⟩
      · exact .inl h1
      · refine .inr (.inl ⟨x, hxm, ?_, hd'⟩)
        rintro rfl
        exact Dict.get?_eq_none.1 hfresh.1 (Dict.mem_keys.2 ⟨x.2, hxm⟩)
  | answer k r =>
    simp only [GroupBusy.step] at h
    split at h
    · rename_i req result hg
      have hm := Dict.mem_of_get? hg
      split at h
      · rename_i e c' hh
        obtain ⟨g1, g2, g3, g4, g5⟩ := handleCommit_any hh
        cases h
        obtain ⟨ph, hph⟩ := hraise e rfl
        rw [hg] at hph
        cases hph
        simp only [givenBy, List.append_nil]
        exact kept_drop hx rfl (by simp only [g1]) g2 rfl (fun _ hd => hd)
          fun cm hcm d hd => by rw [hg] at hcm; cases hcm; simp [resultFor] at hd
      · rename_i retry adjust c' hh
        obtain ⟨g1, g2, g3, g4, g5⟩ := handleCommit_any hh
        cases h
        refine ⟨Dict.nodup_set hx.keys k _, ?_, ?_, ?_, bouts, f, hcov.keep rfl (by simp only [g1]), ?_⟩
        · intro i hi hi'
          obtain ⟨v, hv⟩ := Dict.mem_keys.1 hi'
          rcases mem_of_set hx.keys hv with e | ⟨e, _⟩
          · cases e; exact hx.apart k hi (Dict.mem_keys.2 ⟨_, hm⟩)
          · exact hx.apart i hi (Dict.mem_keys.2 ⟨v, e⟩)
        · simp only [g2]; exact hx.synced
        · intro ha x hxm
          rcases mem_of_set hx.keys hxm with rfl | ⟨e, _⟩
          · exact hx.manual ha (k, ⟨.asking req, result⟩) hm
          · exact hx.manual ha x e
        · intro d hd
          simp only [givenBy, List.append_nil]
          rcases hb d hd with h1 | ⟨x, hxm, hd'⟩
          · exact .inl h1
          · by_cases hxk : x.1 = k
            · have := Dict.get?_of_mem hx.keys (show (x.1, x.2) ∈ g.commits from hxm)
              rw [hxk, hg] at this
              rw [← Option.some.inj this] at hd'
              exact .inr ⟨_, (Dict.mem_set hx.keys).2 (.inl rfl), hd'⟩
            · exact .inr ⟨x, (Dict.mem_set hx.keys).2 (.inr ⟨hxm, hxk⟩), hd'⟩
    · cases h
      simpa [givenBy] using hx
  | fails k e =>
    simp only [GroupBusy.step] at h
    split at h
    · rename_i req result hg
      have hm := Dict.mem_of_get? hg
      cases h
      refine ⟨Dict.nodup_set hx.keys k _, ?_, ?_, ?_, bouts, f, hcov.keep rfl ?_, ?_⟩
      · intro i hi hi'
        obtain ⟨v, hv⟩ := Dict.mem_keys.1 hi'
        rcases mem_of_set hx.keys hv with e | ⟨e, _⟩
        · cases e; exact hx.apart k hi (Dict.mem_keys.2 ⟨_, hm⟩)
        · exact hx.apart i hi (Dict.mem_keys.2 ⟨v, e⟩)
      · simp only; split <;> exact hx.synced
      · intro ha x hxm
        rcases mem_of_set hx.keys hxm with rfl | ⟨e, _⟩
        · exact hx.manual ha (k, ⟨.asking req, result⟩) hm
        · exact hx.manual ha x e
      · simp only; split <;> rfl
      · intro d hd
        simp only [givenBy, List.append_nil]
        rcases hb d hd with h1 | ⟨x, hxm, hd'⟩
        · exact .inl h1
        · by_cases hxk : x.1 = k
          · have := Dict.get?_of_mem hx.keys (show (x.1, x.2) ∈ g.commits from hxm)
            rw [hxk, hg] at this
            rw [← Option.some.inj this] at hd'
            exact .inr ⟨_, (Dict.mem_set hx.keys).2 (.inl rfl), hd'⟩
          · exact .inr ⟨x, (Dict.mem_set hx.keys).2 (.inr ⟨hxm, hxk⟩), hd'⟩
    · cases h
      simpa [givenBy] using hx
  | goOn k =>
    simp only [GroupBusy.step] at h
    split at h
    · rename_i retry metadata result hg
      have hm := Dict.mem_of_get? hg
      split at h
      · have key := kept_ask (gcfg := gcfg) (outs := outs) (bouts := bouts)
          (g := ⟨{ g.base with consumer := { g.base.consumer with heal := false } }, g.commits⟩)
          hx.keys hx.apart (fun hi => hx.apart k hi (Dict.mem_keys.2 ⟨_, hm⟩)) hx.synced
          (fun ha => ⟨hx.manual ha, hx.manual ha _ hm⟩) (hcov.keep rfl rfl) ?_ h ?_
        · rw [key.2, List.append_nil]
          exact key.1
        · intro d hd
          rcases hb d hd with h1 | ⟨x, hxm, hd'⟩
          · exact .inl h1
          · by_cases hxk : x.1 = k
            · have := Dict.get?_of_mem hx.keys (show (x.1, x.2) ∈ g.commits from hxm)
              rw [hxk, hg] at this
              rw [← Option.some.inj this] at hd'
              exact .inr (.inr hd')
            · exact .inr (.inl ⟨x, hxm, hxk, hd'⟩)
        · intro e he
          obtain ⟨ph, hph⟩ := hraise e he
          rw [hg] at hph
          cases hph
          rfl
      · split at h
        · rename_i topic res
          cases h
          refine kept_drop hx rfl rfl rfl rfl (fun _ hd => List.mem_append_left _ hd) ?_
          intro cm hcm d hd
          rw [hg] at hcm
          cases hcm
          cases res with
          | none => simp [resultFor] at hd
          | some l =>
            simp only [resultFor] at hd
            split at hd
            · rename_i ht
              subst ht
              exact List.mem_append_right _ (List.mem_map.2 ⟨d, hd, rfl⟩)
            · simp at hd
        · cases h
          refine kept_drop hx rfl rfl rfl rfl (fun _ hd => List.mem_append_left _ hd) ?_
          intro cm hcm d hd
          rw [hg] at hcm
          cases hcm
          simp [resultFor] at hd
    · rename_i result hg
      cases h
      obtain ⟨ph, hph⟩ := hraise _ rfl
      rw [hg] at hph
      cases hph
      simp only [givenBy, List.append_nil]
      exact kept_drop hx rfl rfl rfl rfl (fun _ hd => hd)
          fun cm hcm d hd => by rw [hg] at hcm; cases hcm; simp [resultFor] at hd
    · cases h
      simpa [givenBy] using hx
  | healFails k e =>
    simp only [GroupBusy.step] at h
    split at h
    · cases h
      simpa [givenBy] using hx
    · cases h
      simpa [givenBy] using hx
    · cases h
      obtain ⟨ph, hph⟩ := hraise _ rfl
      simp only [givenBy, List.append_nil]
      exact kept_drop hx rfl rfl rfl rfl (fun _ hd => hd)
        fun cm hcm d hd => by rw [hph] at hcm; cases hcm; simp [resultFor] at hd

theorem kept_course {gcfg : GCfg} {cfg : CCfg β δ} {logs : String → Int → List (Int × β)}
    (hl : ∀ t p, IsLog (logs t p)) {t : String} {p o : Int} {g g' : GroupBusy δ}
    {outs : List (String × δ)} {acks : List (String × Int × Int)}
    (h : GroupCourse gcfg cfg (Allowed logs) g outs acks g') :
    ∀ outs0, Kept gcfg cfg (logs t p) t p o g outs0 →
      Kept gcfg cfg (logs t p) t p o g' (outs0 ++ outs) := by
  induction h with
  | nil => intro outs0 hx; simpa using hx
  | cons hok hs _ ih =>
    intro outs0 hx
    rw [← List.append_assoc]
    exact ih _ (kept_step hl hx hok hs)

theorem kept_start (gcfg : GCfg) (cfg : CCfg β δ) (log : List (Int × β)) (t : String) (p : Int)
    (c : Grouped) :
    Kept gcfg cfg log t p (offsetOf c.offsets t p) (⟨⟨c, []⟩, []⟩ : GroupBusy δ) [] :=
  ⟨by simp [Dict.keys], by simp [Dict.keys], by simp, by simp, [], offsetOf c.offsets t p,
    ⟨⟨by simp [Dict.keys], by simp⟩, Int.le_refl _, by simp, fun m _ d _ _ g1 g2 => by omega⟩,
    by simp⟩

/-- A request that a step sends says where the consumer is. -/
theorem asked_offsets {gcfg : GCfg} {cfg : CCfg β δ} {g g' : GroupBusy δ} {ev : GroupEv β}
    {req : CommitReq} (h : g.step gcfg cfg ev = (.asked req, g')) {t : String}
    {parts : List (Int × Int)} {p o : Int} (ht : (t, parts) ∈ req.topics) (hp : (p, o) ∈ parts) :
    o = offsetOf g'.base.consumer.offsets t p := by
  have key : ∀ (g1 : GroupBusy δ) k md result, g1.ask cfg k md result = (.asked req, g') →
      o = offsetOf g'.base.consumer.offsets t p := by
    intro g1 k md result ha
    obtain ⟨hsame, _, ⟨⟨e, h1⟩, _⟩ | ⟨a, b, _, h2, _⟩⟩ := ask_spec ha
    · cases h1
    · cases h2
      rw [hsame.offsets]
      simp only [commitOf, List.mem_map, Prod.mk.injEq] at ht
      obtain ⟨x, _, rfl, rfl⟩ := ht
      simp only [List.mem_map, Prod.mk.injEq] at hp
      obtain ⟨q, _, rfl, rfl⟩ := hp
      rfl
  cases ev with
  | base bev =>
    simp only [GroupBusy.step] at h
    split at h
    · cases h
    · cases h
    · cases h
    · simp only [GroupBusy.finish] at h
      split at h
      · cases h
      · split at h
        · exact key _ _ _ _ h
        · cases h
  | commit k md => exact key _ _ _ _ h
  | answer k r =>
    simp only [GroupBusy.step] at h
    split at h
    · split at h <;> cases h
    · cases h
  | fails k e =>
    simp only [GroupBusy.step] at h
    split at h <;> cases h
  | goOn k =>
    simp only [GroupBusy.step] at h
    split at h
    · split at h
      · exact key _ _ _ _ h
      · split at h <;> cases h
    · cases h
    · cases h
  | healFails k e =>
    simp only [GroupBusy.step] at h
    split at h <;> cases h

/-- **C102** for any `consume`s and commits that run at the same time, as long as only commits of
the application raise and nothing else changes offsets: whatever a request to commit a position
covers has been returned to the application, or is held by a `consume` that waits for other
brokers, or by one that is committing.  (Messages that cannot be deserialized or are false to
Python are not returned at all.) -/
theorem C102_covered_partial (gcfg : GCfg) (cfg : CCfg β δ) (logs : String → Int → List (Int × β))
    (hl : ∀ t p, IsLog (logs t p)) (c : Grouped) (g g' : GroupBusy δ) (outs : List (String × δ))
    (acks : List (String × Int × Int)) (ev : GroupEv β) (req : CommitReq)
    (h : GroupCourse gcfg cfg (Allowed logs) ⟨⟨c, []⟩, []⟩ outs acks g)
    (hok : Allowed logs g ev (.asked req)) (hs : g.step gcfg cfg ev = (.asked req, g'))
    (t : String) (parts : List (Int × Int)) (ht : (t, parts) ∈ req.topics)
    (p o : Int) (hp : (p, o) ∈ parts) (m : Int × β) (hm : m ∈ logs t p) (d : δ)
    (hd : decode cfg m.2 = some d) (htr : cfg.truthy d = true)
    (h1 : offsetOf c.offsets t p ≤ m.1) (h2 : m.1 < o) :
    (t, d) ∈ outs ∨ d ∈ inHand cfg g'.base t ∨ d ∈ beingCommitted g' t := by
  have hk := kept_step hl (kept_course hl h [] (kept_start gcfg cfg (logs t p) t p c)) hok hs
  simp only [givenBy, List.nil_append, List.append_nil] at hk
  obtain ⟨bouts, f, hcov, hb⟩ := hk.cov
  rw [asked_offsets hs ht hp] at h2
  rcases hcov.got m hm d hd htr h1 (Int.lt_of_lt_of_le h2 hcov.now) with e | e
  · rcases hb d e with e | e
    · exact .inl e
    · exact .inr (.inr (mem_beingCommitted.2 e))
  · exact .inr (.inl e)

/-- **C102**, with `autocommit` off: if no `consume` of the topic is under way when the request is
sent, all that it covers has been returned to the application. -/
theorem C102_returned_partial (gcfg : GCfg) (cfg : CCfg β δ) (logs : String → Int → List (Int × β))
    (hl : ∀ t p, IsLog (logs t p)) (ha : gcfg.autocommit = false) (c : Grouped)
    (g g' : GroupBusy δ) (outs : List (String × δ)) (acks : List (String × Int × Int))
    (ev : GroupEv β) (req : CommitReq)
    (h : GroupCourse gcfg cfg (Allowed logs) ⟨⟨c, []⟩, []⟩ outs acks g)
    (hok : Allowed logs g ev (.asked req)) (hs : g.step gcfg cfg ev = (.asked req, g'))
    (t : String) (parts : List (Int × Int)) (ht : (t, parts) ∈ req.topics)
    (hw : ∀ x ∈ g'.base.waiting, x.2.topic ≠ t)
    (p o : Int) (hp : (p, o) ∈ parts) (m : Int × β) (hm : m ∈ logs t p) (d : δ)
    (hd : decode cfg m.2 = some d) (htr : cfg.truthy d = true)
    (h1 : offsetOf c.offsets t p ≤ m.1) (h2 : m.1 < o) :
    (t, d) ∈ outs := by
  rcases C102_covered_partial gcfg cfg logs hl c g g' outs acks ev req h hok hs t parts ht p o hp
    m hm d hd htr h1 h2 with e | e | e
  · exact e
  · obtain ⟨x, hx, hxt, _⟩ := mem_inHand.1 e
    exact absurd hxt (hw x hx)
  · have hk := kept_step hl (kept_course hl h [] (kept_start gcfg cfg (logs t p) t p c)) hok hs
    obtain ⟨x, hx, hd'⟩ := mem_beingCommitted.1 e
    rw [hk.manual ha x hx] at hd'
    simp [resultFor] at hd'

/-! ### C103 -/

theorem Exact.keep {ε : Type} {cfg : CCfg β δ} {logs : String → Int → List (Int × β)}
    {o : String → Int → Int} {b b' : Busy ε δ} {outs : List (String × δ)}
    (h : Exact cfg logs o b outs) (hw : b'.waiting = b.waiting)
    (ho : ∀ t p, offsetOf b'.consumer.offsets t p = offsetOf b.consumer.offsets t p) :
    Exact cfg logs o b' outs := by
  refine ⟨⟨hw ▸ h.sound.nodup, hw ▸ h.sound.each⟩, hw ▸ h.one, ?_, ?_, ?_⟩
  · rw [hw]
    intro p x hx q hq f hf hid
    rw [ho]
    exact h.asked p x hx q hq f hf hid
  · intro t p
    rw [ho]
    exact h.le t p
  · obtain ⟨so, hand, h1, h2, h3, h4⟩ := h.got
    refine ⟨so, hand, h1, hw ▸ h2, hw ▸ h3, ?_⟩
    intro t p
    rw [ho]
    exact h4 t p

/-- `consume`s of different topics never put an offset back. -/
theorem exact_forward {ε : Type} {allocation : Consumer ε → Res (Dict String (List Int))}
    {cfg : CCfg β δ} {logs : String → Int → List (Int × β)} (hl : ∀ t p, IsLog (logs t p))
    {o : String → Int → Int} {b b' : Busy ε δ} {ev : BEv ε β} {out : BOut δ}
    {outs : List (String × δ)} (hx : Exact cfg logs o b outs) (hf : Fair Batch logs b ev)
    (h : b.step allocation cfg ev = (out, b')) (hno : ∀ e, out ≠ .raised e) (t : String) (p : Int) :
    offsetOf b.consumer.offsets t p ≤ offsetOf b'.consumer.offsets t p := by
  obtain ⟨_, hcase⟩ := busy_step hx.sound h hno
    (by rintro i t rfl; exact hf) (by rintro f rfl; exact hf)
  rcases hcase with ⟨_, _, h3⟩ | ⟨i, topic, parts, reqs, rfl, _, _, _, h4⟩ |
    ⟨i, w, broker, _, _, _, h4⟩ | ⟨i, w, q, r, rfl, h1, h2, _, _, h5⟩ | ⟨i, w, _, _, _, _, h5⟩
  · rw [h3]
  · rw [h4]
  · rw [h4]
  · have hm := Dict.mem_of_get? h1
    have hqt : q.topic = w.topic := (hx.sound.each _ hm).topic q h2
    rcases honest_answer (hf w h1 q h2 rfl) t p with hz | ⟨e, f, hfm, hfid, hb⟩
    · rw [h5, hz, after_nil]
    · rw [hqt] at e
      subst e
      rw [hx.asked p _ hm q h2 f hfm hfid] at hb
      rw [h5]
      exact (batch_window cfg _ _ _ (hl _ _) hb).1
  · rw [h5]

/-- What holds throughout. -/
structure Steady (cfg : CCfg β δ) (logs : String → Int → List (Int × β)) (g : GroupBusy δ) :
    Prop where
  keys : g.commits.keys.Nodup
  exact : ∃ o bouts, Exact cfg logs o g.base bouts

/-- For one partition: the position `o` has not been committed, and that will be noticed; `old`
are commits that need not know of it. -/
structure Due (t : String) (p o : Int) (old : List Nat) (g : GroupBusy δ) : Prop where
  wanted : t ∈ g.base.consumer.ext.toCommit
  mapped : ∃ a ps, g.base.consumer.ext.mapping = some a ∧ (t, ps) ∈ a ∧ p ∈ ps
  reached : o ≤ offsetOf g.base.consumer.offsets t p
  asking : ∀ x ∈ g.commits, ∀ req, x.2.phase = .asking req →
    (x.1 ∈ old ∧ ∀ y ∈ req.topics, y.1 ≠ t) ∨
      ∃ parts o', (t, parts) ∈ req.topics ∧ (p, o') ∈ parts ∧ o ≤ o'
  answered : ∀ x ∈ g.commits, ∀ retry md, x.2.phase = .answered retry md → x.1 ∈ old ∨ retry = true

theorem due_drop {t : String} {p o : Int} {old : List Nat} {g g' : GroupBusy δ} {k : Nat}
    (hd : Due t p o old g) (hw : t ∈ g'.base.consumer.ext.toCommit)
    (hm : g'.base.consumer.ext.mapping = g.base.consumer.ext.mapping)
    (ho : offsetOf g'.base.consumer.offsets t p = offsetOf g.base.consumer.offsets t p)
    (hc : g'.commits = g.commits.erase k) : Due t p o old g' := by
  refine ⟨hw, by rw [hm]; exact hd.mapped, by rw [ho]; exact hd.reached, ?_, ?_⟩
  · rw [hc]; exact fun x hx => hd.asking x (Dict.mem_erase.1 hx).1
  · rw [hc]; exact fun x hx => hd.answered x (Dict.mem_erase.1 hx).1

theorem due_ask {cfg : CCfg β δ} {t : String} {p o : Int} {old : List Nat} {g g' : GroupBusy δ} {k : Nat}
    {metadata : String} {result : Option (String × Option (List δ))} {out : GroupOut δ}
    (hk : g.commits.keys.Nodup) (hd : Due t p o old g) (h : g.ask cfg k metadata result = (out, g')) :
    Due t p o old g' := by
  obtain ⟨hsame, hext, hcase⟩ := ask_spec h
  rcases hcase with ⟨_, hcm⟩ | ⟨a, b, ha, _, hcm⟩
  · exact due_drop hd (by rw [hext]; exact hd.wanted) hsame.mapping (hsame.offsets t p) hcm
  · refine ⟨by rw [hext]; exact hd.wanted, by rw [hext]; exact hd.mapped,
      by rw [hsame.offsets]; exact hd.reached, ?_, ?_⟩
    · rw [hcm]
      intro x hx req hreq
      rcases mem_of_set hk hx with rfl | ⟨hx, _⟩
      · simp only [CommitPhase.asking.injEq] at hreq
        subst hreq
        right
        obtain ⟨a', ps, ha', hps, hp⟩ := hd.mapped
        rw [ha] at ha'
        cases ha'
        refine ⟨ps.map fun q => (q, offsetOf g.base.consumer.offsets t q),
          offsetOf g.base.consumer.offsets t p, ?_, ?_, hd.reached⟩
        · simp only [commitOf, List.mem_map, List.mem_filter, decide_eq_true_eq]
          exact ⟨(t, ps), ⟨hps, hd.wanted⟩, rfl⟩
        · exact List.mem_map.2 ⟨p, hp, rfl⟩
      · exact hd.asking x hx req hreq
    · rw [hcm]
      intro x hx retry md hreq
      rcases mem_of_set hk hx with rfl | ⟨hx, _⟩
      · simp at hreq
      · exact hd.answered x hx retry md hreq

theorem steady_ask {cfg : CCfg β δ} {logs : String → Int → List (Int × β)} {g g' : GroupBusy δ}
    {k : Nat} {metadata : String} {result : Option (String × Option (List δ))} {out : GroupOut δ}
    (hs : Steady cfg logs g) (h : g.ask cfg k metadata result = (out, g')) : Steady cfg logs g' := by
  obtain ⟨hsame, _, hcase⟩ := ask_spec h
  obtain ⟨o, bouts, he⟩ := hs.exact
  refine ⟨?_, o, bouts, he.keep hsame.waiting hsame.offsets⟩
  rcases hcase with ⟨_, hcm⟩ | ⟨a, b, ha, _, hcm⟩
  · rw [hcm]; exact Dict.nodup_erase hs.keys k
  · rw [hcm]; exact Dict.nodup_set hs.keys k _

theorem due_step {gcfg : GCfg} {cfg : CCfg β δ} {logs : String → Int → List (Int × β)}
    (hl : ∀ t p, IsLog (logs t p)) {t : String} {g g' : GroupBusy δ} {ev : GroupEv β}
    {out : GroupOut δ} (hst : Steady cfg logs g) (hok : AllowedFor t logs g ev out)
    (h : g.step gcfg cfg ev = (out, g')) :
    Steady cfg logs g' ∧ ∀ p o old, Due t p o old g →
      (∃ o', o ≤ o' ∧ (t, p, o') ∈ acknowledgedBy g ev) ∨ Due t p o old g' := by
  obtain ⟨hfresh, hfair, happ, hund, hraise, hans⟩ := hok
  obtain ⟨o1, bouts, he⟩ := hst.exact
  cases ev with
  | base bev =>
    cases hs : g.base.step Grouped.allocation cfg bev with
    | mk bo b' =>
      simp only [GroupBusy.step] at h
      rw [hs] at h
      have hnr : ∀ e, bo ≠ .raised e := by
        rintro e rfl
        cases h
        obtain ⟨i, rfl⟩ := hraise e rfl bev rfl
        simp only [Busy.step] at hs
        split at hs
        · cases hs
        · split at hs <;> cases hs
      have he' := exact_step hl he hfair happ hs hnr
      have hfw := exact_forward hl he hfair hs hnr
      have hst' : Steady cfg logs (⟨b', g.commits⟩ : GroupBusy δ) := ⟨hst.keys, o1, _, he'⟩
      have hext : b'.consumer.ext.mapping = g.base.consumer.ext.mapping ∧
          b'.consumer.ext.toCommit = g.base.consumer.ext.toCommit := by
        by_cases ho : ∃ f, bev = .other f
        · obtain ⟨f, rfl⟩ := ho
          simp only [Busy.step, Prod.mk.injEq] at hs
          obtain ⟨rfl, rfl⟩ := hs
          exact hund.2
        · rw [(busy_keeps hfair hs fun f e => ho ⟨f, e⟩).1]
          exact ⟨rfl, rfl⟩
      have hdue : ∀ p o old, Due t p o old g → Due t p o old (⟨b', g.commits⟩ : GroupBusy δ) :=
        fun p o old hd => ⟨by rw [hext.2]; exact hd.wanted, by rw [hext.1]; exact hd.mapped,
          Int.le_trans hd.reached (hfw t p), hd.asking, hd.answered⟩
      cases bo with
      | nothing => cases h; exact ⟨hst', fun p o old hd => .inr (hdue p o old hd)⟩
      | sent reqs => cases h; exact ⟨hst', fun p o old hd => .inr (hdue p o old hd)⟩
      | raised e => exact absurd rfl (hnr e)
      | returned topic res =>
        simp only [GroupBusy.finish] at h
        split at h
        · cases h; exact ⟨hst', fun p o old hd => .inr (hdue p o old hd)⟩
        · have hst2 : Steady cfg logs (⟨{ b' with consumer := { b'.consumer with ext := { b'.consumer.ext with toCommit := addSet b'.consumer.ext.toCommit topic } } }, g.commits⟩ : GroupBusy δ) :=
            ⟨hst.keys, o1, _, he'.keep rfl fun _ _ => rfl⟩
          have hdue2 : ∀ p o old, Due t p o old g → Due t p o old (⟨{ b' with consumer := { b'.consumer with ext := { b'.consumer.ext with toCommit := addSet b'.consumer.ext.toCommit topic } } }, g.commits⟩ : GroupBusy δ) :=
            fun p o old hd =>
              have hd := hdue p o old hd
              ⟨(mem_addSet _ _ _).2 (.inr hd.wanted), hd.mapped, hd.reached, hd.asking, hd.answered⟩
          split at h
          · exact ⟨steady_ask hst2 h, fun p o old hd => .inr (due_ask hst2.keys (hdue2 p o old hd) h)⟩
          · cases h; exact ⟨hst2, fun p o old hd => .inr (hdue2 p o old hd)⟩
  | commit k metadata =>
    exact ⟨steady_ask hst h, fun p o old hd => .inr (due_ask hst.keys hd h)⟩
  | answer k r =>
    simp only [GroupBusy.step] at h
    split at h
    · rename_i req result hg
      have hm := Dict.mem_of_get? hg
      obtain ⟨hasked, hcodes⟩ := hans k r req result rfl hg
      -- what is acknowledged
      have hack : ∀ p o old, Due t p o old g →
          (∃ o', o ≤ o' ∧ (t, p, o') ∈ acknowledgedBy g (.answer k r : GroupEv β)) ∨
          (∀ q, (t, q, 0) ∉ commitAnswers r) ∧
            (k ∈ old ∨ ∃ code, (t, p, code) ∈ commitAnswers r ∧ (Retriable code ∨ code = 12)) := by
        intro p o old hd
        rcases hd.asking _ hm req rfl with ⟨hold, hnone⟩ | ⟨parts, o', hp1, hp2, hle⟩
        · refine .inr ⟨fun q hq => ?_, .inl hold⟩
          obtain ⟨ps, hps, e, _⟩ := (hasked q).2 ⟨0, hq⟩
          exact hnone ps hps e
        · obtain ⟨code, hcode⟩ := (hasked p).1 ⟨_, hp1, rfl, List.mem_map.2 ⟨_, hp2, rfl⟩⟩
          rcases hcodes with h0 | hr
          · left
            refine ⟨o', hle, ?_⟩
            have hz := h0 p code hcode
            subst hz
            simp only [acknowledgedBy, hg, List.mem_flatMap, List.mem_map, List.mem_filter,
              decide_eq_true_eq, Prod.mk.injEq]
            exact ⟨_, hp1, _, ⟨hp2, hcode⟩, rfl, rfl, rfl⟩
          · refine .inr ⟨fun q hq => absurd (hr q 0 hq) (by decide), .inr ⟨code, hcode, hr p code hcode⟩⟩
      split at h
      · rename_i e c' hh
        obtain ⟨g1, g2, g3, g4, g5⟩ := handleCommit_any hh
        cases h
        refine ⟨⟨Dict.nodup_erase hst.keys k, o1, bouts, he.keep rfl fun _ _ => by simp only [g1]⟩, ?_⟩
        intro p o old hd
        rcases hack p o old hd with h1 | ⟨h1, _⟩
        · exact .inl h1
        · exact .inr (due_drop hd (g4 t hd.wanted h1) g3 (by simp only [g1]) rfl)
      · rename_i retry adjust c' hh
        obtain ⟨g1, g2, g3, g4, g5⟩ := handleCommit_any hh
        cases h
        refine ⟨⟨Dict.nodup_set hst.keys k _, o1, bouts, he.keep rfl fun _ _ => by simp only [g1]⟩, ?_⟩
        intro p o old hd
        rcases hack p o old hd with h1 | ⟨h1, h2⟩
        · exact .inl h1
        · refine .inr ⟨g4 t hd.wanted h1, by simp only [g3]; exact hd.mapped,
            by simp only [g1]; exact hd.reached, ?_, ?_⟩
          · intro x hx req' hreq
            rcases mem_of_set hst.keys hx with rfl | ⟨hx, _⟩
            · simp at hreq
            · exact hd.asking x hx req' hreq
          · intro x hx retry' md hreq
            rcases mem_of_set hst.keys hx with rfl | ⟨hx, _⟩
            · simp only [CommitPhase.answered.injEq] at hreq
              rw [← hreq.1]
              rcases h2 with h2 | ⟨code, h2, h3⟩
              · exact .inl h2
              · exact .inr (g5 _ rfl ⟨t, p, code, h2, h3⟩)
            · exact hd.answered x hx retry' md hreq
    · cases h
      exact ⟨hst, fun p o old hd => .inr hd⟩
  | fails k e =>
    simp only [GroupBusy.step] at h
    split at h
    · cases h
      refine ⟨⟨Dict.nodup_set hst.keys k _, o1, bouts, he.keep rfl fun _ _ => ?_⟩, ?_⟩
      · simp only; split <;> rfl
      · intro p o old hd
        refine .inr ⟨?_, ?_, ?_, ?_, ?_⟩
        · simp only; split <;> exact hd.wanted
        · simp only; split <;> exact hd.mapped
        · simp only; split <;> exact hd.reached
        · intro x hx req' hreq
          rcases mem_of_set hst.keys hx with rfl | ⟨hx, _⟩
          · simp at hreq
          · exact hd.asking x hx req' hreq
        · intro x hx retry' md hreq
          rcases mem_of_set hst.keys hx with rfl | ⟨hx, _⟩
          · simp at hreq
          · exact hd.answered x hx retry' md hreq
    · cases h
      exact ⟨hst, fun p o old hd => .inr hd⟩
  | goOn k =>
    simp only [GroupBusy.step] at h
    split at h
    · split at h
      · exact ⟨steady_ask (g := ⟨{ g.base with consumer := { g.base.consumer with heal := false } }, g.commits⟩)
            ⟨hst.keys, o1, bouts, he.keep rfl fun _ _ => rfl⟩ h,
          fun p o old hd => .inr (due_ask
            (g := ⟨{ g.base with consumer := { g.base.consumer with heal := false } }, g.commits⟩)
            hst.keys ⟨hd.wanted, hd.mapped, hd.reached, hd.asking, hd.answered⟩ h)⟩
      · split at h <;> cases h <;>
          exact ⟨⟨Dict.nodup_erase hst.keys k, o1, bouts, he.keep rfl fun _ _ => rfl⟩,
            fun p o old hd => .inr (due_drop hd hd.wanted rfl rfl rfl)⟩
    · cases h
      exact ⟨⟨Dict.nodup_erase hst.keys k, o1, bouts, he.keep rfl fun _ _ => rfl⟩,
        fun p o old hd => .inr (due_drop hd hd.wanted rfl rfl rfl)⟩
    · cases h
      exact ⟨hst, fun p o old hd => .inr hd⟩
  | healFails k e =>
    simp only [GroupBusy.step] at h
    split at h <;> cases h
    · exact ⟨hst, fun p o old hd => .inr hd⟩
    · exact ⟨hst, fun p o old hd => .inr hd⟩
    · exact ⟨⟨Dict.nodup_erase hst.keys k, o1, bouts, he⟩,
        fun p o old hd => .inr (due_drop hd hd.wanted rfl rfl rfl)⟩

theorem due_course {gcfg : GCfg} {cfg : CCfg β δ} {logs : String → Int → List (Int × β)}
    (hl : ∀ t p, IsLog (logs t p)) {t : String} {g g' : GroupBusy δ}
    {outs : List (String × δ)} {acks : List (String × Int × Int)}
    (h : GroupCourse gcfg cfg (AllowedFor t logs) g outs acks g') (hst : Steady cfg logs g) :
    Steady cfg logs g' ∧ ∀ p o old, Due t p o old g →
      (∃ o', o ≤ o' ∧ (t, p, o') ∈ acks) ∨ Due t p o old g' := by
  induction h with
  | nil => exact ⟨hst, fun p o old hd => .inr hd⟩
  | cons hok hs _ ih =>
    obtain ⟨h1, h2⟩ := due_step hl hst hok hs
    obtain ⟨h3, h4⟩ := ih h1
    refine ⟨h3, fun p o old hd => ?_⟩
    rcases h2 p o old hd with ⟨o', hle, ha⟩ | hd
    · exact .inl ⟨o', hle, List.mem_append_left _ ha⟩
    · rcases h4 p o old hd with ⟨o', hle, ha⟩ | hd
      · exact .inl ⟨o', hle, List.mem_append_right _ ha⟩
      · exact .inr hd

theorem steady_start (cfg : CCfg β δ) (logs : String → Int → List (Int × β)) (c : Grouped) :
    Steady cfg logs (⟨⟨c, []⟩, []⟩ : GroupBusy δ) := by
  refine ⟨by simp [Dict.keys], fun t p => offsetOf c.offsets t p, [],
    ⟨⟨by simp [Dict.keys], by simp⟩, by simp, by simp, fun _ _ => Int.le_refl _, [], fun _ => [],
      rfl, by simp, fun _ _ => rfl, ?_⟩⟩
  intro t p
  have : (logs t p).filter (fun m => decide (offsetOf c.offsets t p ≤ m.1 ∧
      m.1 < offsetOf c.offsets t p)) = [] := by
    rw [List.filter_eq_nil_iff]
    intro m _
    simp only [decide_eq_true_eq]
    omega
  simp only
  rw [this]
  rfl

/-- **C103** for `consume`s of different topics and any commits that run at the same time, in any
course of events in which nothing else disturbs the consumer and the coordinator answers about a
topic as a whole: suppose that a topic is to be committed, and that no request under way is about
it.  Once a commit that is called from then on returns, a position as far as the consumer was then
has been acknowledged. -/
theorem C103_committed_partial (gcfg : GCfg) (cfg : CCfg β δ)
    (logs : String → Int → List (Int × β)) (hl : ∀ t p, IsLog (logs t p)) (t : String) (p : Int)
    (c : Grouped) (g0 g1 g2 : GroupBusy δ) (outs0 outs : List (String × δ))
    (acks0 acks : List (String × Int × Int))
    (h0 : GroupCourse gcfg cfg (AllowedFor t logs) ⟨⟨c, []⟩, []⟩ outs0 acks0 g0)
    (hw : t ∈ g0.base.consumer.ext.toCommit)
    (hm : ∃ a ps, g0.base.consumer.ext.mapping = some a ∧ (t, ps) ∈ a ∧ p ∈ ps)
    (hn : ∀ x ∈ g0.commits, ∀ req, x.2.phase = .asking req → ∀ y ∈ req.topics, y.1 ≠ t)
    (h1 : GroupCourse gcfg cfg (AllowedFor t logs) g0 outs acks g1)
    (k : Nat) (hk : k ∉ g0.commits.keys) (out : GroupOut δ)
    (hs : g1.step gcfg cfg (.goOn k) = (out, g2))
    (hout : out = .committed ∨ ∃ topic res, out = .returned topic res) :
    ∃ o, offsetOf g0.base.consumer.offsets t p ≤ o ∧ (t, p, o) ∈ acks := by
  have hst := (due_course hl h0 (steady_start cfg logs c)).1
  have hd : Due t p (offsetOf g0.base.consumer.offsets t p) g0.commits.keys g0 :=
    ⟨hw, hm, Int.le_refl _, fun x hx req hr => .inl ⟨Dict.mem_keys.2 ⟨x.2, hx⟩, hn x hx req hr⟩,
      fun x hx _ _ _ => .inl (Dict.mem_keys.2 ⟨x.2, hx⟩)⟩
  rcases (due_course hl h1 hst).2 p _ _ hd with ha | hd
  · exact ha
  · exfalso
    simp only [GroupBusy.step] at hs
    split at hs
    · rename_i retry md result hg
      rcases hd.answered _ (Dict.mem_of_get? hg) retry md rfl with h | rfl
      · exact hk h
      · rw [if_pos rfl] at hs
        obtain ⟨_, _, ⟨⟨e, rfl⟩, _⟩ | ⟨a, b, _, rfl, _⟩⟩ := ask_spec hs
        · rcases hout with h | ⟨_, _, h⟩ <;> cases h
        · rcases hout with h | ⟨_, _, h⟩ <;> cases h
    · cases hs
      rcases hout with h | ⟨_, _, h⟩ <;> cases h
    · cases hs
      rcases hout with h | ⟨_, _, h⟩ <;> cases h

/-- **C103**, what is to be committed: a topic of which a `consume` returns messages is. -/
theorem C103_wanted {gcfg : GCfg} {cfg : CCfg β δ} {g g' : GroupBusy δ} {ev : BEv GExt β}
    {topic : String} {m : δ} {ms : List δ}
    (h : g.step gcfg cfg (.base ev) = (.returned topic (some (m :: ms)), g')) :
    topic ∈ g'.base.consumer.ext.toCommit := by
  simp only [GroupBusy.step] at h
  split at h
  · cases h
  · cases h
  · cases h
  · simp only [GroupBusy.finish] at h
    split at h
    · cases h
    · split at h
      · obtain ⟨_, _, ⟨⟨e, h1⟩, _⟩ | ⟨a, b, _, h1, _⟩⟩ := ask_spec h <;> cases h1
      · cases h
        simp only [addSet]
        split
        · assumption
        · simp

/-! ### Commits of which nothing is heard -/

theorem ask_get? {cfg : CCfg β δ} {k j : Nat} (md : String) (result : Option (String × Option (List δ)))
    (g : GroupBusy δ) (hj : j ≠ k) : (g.ask cfg j md result).2.commits.get? k = g.commits.get? k := by
  cases ha : g.ask cfg j md result with
  | mk out g' =>
    obtain ⟨_, _, h | ⟨_, _, _, _, h⟩⟩ := ask_spec ha
    · simp only [h.2, Dict.get?_erase, if_neg hj]
    · simp only [h, Dict.get?_set, if_neg hj]

/-- What does not concern a commit leaves it alone. -/
theorem step_unconcerned {gcfg : GCfg} {cfg : CCfg β δ} {k : Nat} (g : GroupBusy δ) (ev : GroupEv β)
    (hev : ¬ Concerns k ev) : (g.step gcfg cfg ev).2.commits.get? k = g.commits.get? k := by
  cases ev with
  | base ev =>
    simp only [GroupBusy.step]
    split
    · rfl
    · rfl
    · rfl
    · rename_i topic out b h
      have hn : ev.number ≠ k := by
        intro he
        cases ev with
        | other f => simp [Busy.step] at h
        | _ => exact hev he
      unfold GroupBusy.finish
      split
      · rfl
      · dsimp only
        split
        · rw [ask_get? _ _ _ hn]
        · rfl
  | commit j md =>
    simp only [GroupBusy.step]
    exact ask_get? _ _ _ hev
  | answer j r =>
    have hj : j ≠ k := hev
    simp only [GroupBusy.step]
    split
    · split
      · simp only [Dict.get?_erase, if_neg hj]
      · simp only [Dict.get?_set, if_neg hj]
    · rfl
  | fails j e =>
    have hj : j ≠ k := hev
    simp only [GroupBusy.step]
    split
    · simp only [Dict.get?_set, if_neg hj]
    · rfl
  | goOn j =>
    have hj : j ≠ k := hev
    simp only [GroupBusy.step]
    split
    · split
      · exact ask_get? _ _ _ hev
      · split <;> simp only [Dict.get?_erase, if_neg hj]
    · simp only [Dict.get?_erase, if_neg hj]
    · rfl
  | healFails j e =>
    have hj : j ≠ k := hev
    simp only [GroupBusy.step]
    split
    · rfl
    · rfl
    · simp only [Dict.get?_erase, if_neg hj]

theorem afterAll_unconcerned {gcfg : GCfg} {cfg : CCfg β δ} {k : Nat} (evs : List (GroupEv β))
    (g : GroupBusy δ) (hev : ∀ ev ∈ evs, ¬ Concerns k ev) :
    (afterAll gcfg cfg g evs).commits.get? k = g.commits.get? k := by
  induction evs generalizing g with
  | nil => rfl
  | cons ev evs ih =>
    simp only [afterAll, List.foldl_cons]
    rw [show List.foldl (fun g ev => (g.step gcfg cfg ev).2) (g.step gcfg cfg ev).2 evs =
      afterAll gcfg cfg (g.step gcfg cfg ev).2 evs from rfl, ih _ fun ev h => hev ev (by simp [h])]
    exact step_unconcerned g ev (hev ev (by simp))

/-- **C51** for commits that overlap with other calls: whatever happens meanwhile, a commit that was
answered with a code that asks for it goes on with a commit of what is to be committed then, with
blank metadata if some partition's code says that it was too large, and else with the same; or it
raises, if the coordinator cannot be reached then or serializing the request raises.  With any other
answer it is done. -/
theorem C51_overlap (gcfg : GCfg) (cfg : CCfg β δ) (g : GroupBusy δ) (k : Nat) (req : CommitReq)
    (result : Option (String × Option (List δ))) (r : CommitResp) (evs : List (GroupEv β))
    (hk : g.commits.get? k = some ⟨.asking req, result⟩)
    (hr : ∀ t ∈ r.topics, ∀ p ∈ t.2, KnownCode p.2) (hev : ∀ ev ∈ evs, ¬ Concerns k ev) :
    let g2 := afterAll gcfg cfg (g.step gcfg cfg (.answer k r)).2 evs
    (Again r → ∀ a, g2.base.consumer.ext.mapping = some a →
      (∀ b, g2.base.consumer.ext.coordinator = some b → g2.base.consumer.cluster.conns.has b = true →
        (g2.step gcfg cfg (.goOn k : GroupEv β)).1 =
          match cfg.write k "offset_commit" b with
          | some e => .raised e
          | .none => .asked ⟨some b, if TooLarge r then "" else req.metadata,
              commitOf g2.base.consumer.ext.toCommit a g2.base.consumer.offsets⟩) ∧
      ((∀ b, g2.base.consumer.ext.coordinator = some b →
          g2.base.consumer.cluster.conns.has b = false) →
        (g2.step gcfg cfg (.goOn k : GroupEv β)).1 = .raised .keyError)) ∧
    (¬ Again r → (g2.step gcfg cfg (.goOn k : GroupEv β)).1 =
      match result with
      | some (topic, out) => .returned topic out
      | .none => .committed) := by
  intro g2
  have hg2 : g2.commits.get? k = some ⟨.answered (decide (Again r))
      (if TooLarge r then "" else req.metadata), result⟩ := by
    rw [afterAll_unconcerned evs _ hev]
    obtain ⟨s, h, g1, _, _⟩ := handleCommitTopics_spec r.topics g.base.consumer (false, false) hr
    have g1' : ∃ c, handleCommitResponse r g.base.consumer =
        (.ok (decide (Again r), decide (TooLarge r)), c) := by
      simp only [Bool.false_or] at g1
      exact ⟨_, g1⟩
    obtain ⟨c, g1'⟩ := g1'
    simp only [GroupBusy.step, hk, g1', Dict.get?_set, if_true, decide_eq_true_eq]
  clear_value g2
  constructor
  · intro hA a ha
    obtain ⟨k1, k2⟩ := commitTopics_spec g2.base.consumer.ext.toCommit a g2.base.consumer.offsets
    constructor
    · intro b hb hc
      simp only [GroupBusy.step, hg2, hA, decide_true, if_true, GroupBusy.ask, ha, hb, hc]
      cases cfg.write k "offset_commit" b <;> simp [k1]
    · intro hc
      simp only [GroupBusy.step, hg2, hA, decide_true, if_true, GroupBusy.ask, ha]
      cases hb : g2.base.consumer.ext.coordinator with
      | none => rfl
      | some b => simp [hc b hb]
  · intro hA
    simp only [GroupBusy.step, hg2, hA, decide_false]
    cases result with
    | none => rfl
    | some x => rfl

/-! ### Concrete courses -/

/-- A course given by its events. -/
def groupRun (gcfg : GCfg) (cfg : CCfg β δ) :
    GroupBusy δ → List (GroupEv β) → List (String × δ) × List (String × Int × Int) × GroupBusy δ
  | g, [] => ([], [], g)
  | g, ev :: evs =>
    let r := groupRun gcfg cfg (g.step gcfg cfg ev).2 evs
    (givenBy (g.step gcfg cfg ev).1 ++ r.1, acknowledgedBy g ev ++ r.2.1, r.2.2)

/-- All of its events are allowed. -/
def RunOk (gcfg : GCfg) (cfg : CCfg β δ) (ok : GroupBusy δ → GroupEv β → GroupOut δ → Prop) :
    GroupBusy δ → List (GroupEv β) → Prop
  | _, [] => True
  | g, ev :: evs =>
    ok g ev (g.step gcfg cfg ev).1 ∧ RunOk gcfg cfg ok (g.step gcfg cfg ev).2 evs

theorem course_run {gcfg : GCfg} {cfg : CCfg β δ}
    {ok : GroupBusy δ → GroupEv β → GroupOut δ → Prop} (evs : List (GroupEv β)) :
    ∀ g, RunOk gcfg cfg ok g evs → GroupCourse gcfg cfg ok g (groupRun gcfg cfg g evs).1
      (groupRun gcfg cfg g evs).2.1 (groupRun gcfg cfg g evs).2.2 := by
  induction evs with
  | nil => exact fun g _ => .nil g
  | cons ev evs ih => exact fun g h => .cons h.1 rfl (ih _ h.2)

/-- Brokers 7 and 8 lead partitions 0 and 1 of topic t, both of which are allocated to the
consumer; broker 8 is the coordinator. -/
def exTwoBrokers : Grouped :=
  ⟨⟨[(7, ⟨"h", 9092, false⟩), (8, ⟨"i", 9092, false⟩)], [("t", [0, 1])],
    [("t", [(0, 7), (1, 8)])]⟩, [], ["t"], false, false, ⟨some 8, [], some [("t", [0, 1])]⟩⟩

/-- A batch of a log without compressed sets is one with them. -/
theorem batch_wide {log ms : List (Int × β)} {o : Int} (hl : IsLog log) (h : Batch log o ms) :
    WideBatch log o ms := by
  obtain ⟨rest, hr⟩ := h
  have key : ∀ l : List (Int × β), l.Pairwise (fun a b => a.1 < b.1) →
      ∃ pre, l = pre ++ l.filter (fun m => decide (o ≤ m.1)) ∧ ∀ m ∈ pre, m.1 < o := by
    intro l
    induction l with
    | nil => exact fun _ => ⟨[], rfl, by simp⟩
    | cons x l ih =>
      intro hp
      rw [List.pairwise_cons] at hp
      by_cases hx : o ≤ x.1
      · refine ⟨[], ?_, by simp⟩
        rw [List.nil_append, eq_comm, List.filter_eq_self]
        intro m hm
        simp only [decide_eq_true_eq]
        rcases List.mem_cons.1 hm with rfl | hm
        · exact hx
        · have := hp.1 m hm
          omega
      · obtain ⟨pre, h1, h2⟩ := ih hp.2
        refine ⟨x :: pre, ?_, ?_⟩
        · rw [List.filter_cons_of_neg (by simpa using hx), List.cons_append, ← h1]
        · intro m hm
          rcases List.mem_cons.1 hm with rfl | hm
          · omega
          · exact h2 m hm
  obtain ⟨pre, h1, h2⟩ := key log hl.sorted
  exact ⟨pre, rest, by rw [List.append_assoc, hr]; exact h1, h2⟩

/-- An answer about one partition of t. -/
def exPart (p : Int) (ms : List (Int × Nat)) : FResp Nat := ⟨[("t", [⟨p, 0, ms⟩])]⟩

/-- The logs of t: that of partition 1 is empty. -/
def exPartLogs (t : String) (p : Int) : List (Int × Nat) := if t = "t" ∧ p = 0 then exLog else []

theorem exPartLogs_ok (t : String) (p : Int) : IsLog (exPartLogs t p) := by
  unfold exPartLogs
  split
  · exact exLog_ok
  · exact ⟨by simp, by simp⟩

/-- A check of what the concrete courses have to obey. -/
def exHonest (q : FReq) (r : FResp Nat) : Bool :=
  match r.topics with
  | [(t, ps)] => decide (t = q.topic) && decide ((ps.map (·.id)).Nodup) && ps.all fun p =>
      decide (p.code = 0) && q.parts.any fun f => decide (f.id = p.id) &&
        (p.msgs.isPrefixOf ((exPartLogs q.topic p.id).filter fun m => decide (f.offset ≤ m.1)))
  | _ => false

theorem exHonest_sound {q : FReq} {r : FResp Nat} (h : exHonest q r = true) :
    HonestAnswer Batch exPartLogs q r := by
  unfold exHonest at h
  split at h
  · rename_i t ps hr
    simp only [Bool.and_eq_true, decide_eq_true_eq, List.all_eq_true, List.any_eq_true,
      List.isPrefixOf_iff_prefix] at h
    obtain ⟨⟨rfl, h1⟩, h2⟩ := h
    refine ⟨ps, hr, h1, fun p hp => ?_⟩
    obtain ⟨h3, f, hf, h4, h5⟩ := h2 p hp
    exact ⟨by omega, fun _ => ⟨f, hf, h4, h5⟩⟩
  · cases h

def exAnswers (req : CommitReq) (r : CommitResp) : Bool :=
  decide (r.topics.map (fun x => (x.1, x.2.map (·.1))) =
    req.topics.map fun x => (x.1, x.2.map (·.1))) &&
  (decide (∀ x ∈ commitAnswers r, x.2.2 = 0) || decide (∀ x ∈ commitAnswers r, x.2.2 = 14 ∨ x.2.2 = 12))

theorem exAnswers_sound {req : CommitReq} {r : CommitResp} (h : exAnswers req r = true) (t : String) :
    AnswersFor t req r := by
  simp only [exAnswers, Bool.and_eq_true, Bool.or_eq_true, decide_eq_true_eq] at h
  obtain ⟨h1, h2⟩ := h
  constructor
  · intro p
    constructor
    · rintro ⟨x, hx, rfl, hp⟩
      have : (x.1, x.2.map (·.1)) ∈ r.topics.map (fun x => (x.1, x.2.map (·.1))) := by
        rw [h1]; exact List.mem_map.2 ⟨x, hx, rfl⟩
      obtain ⟨y, hy, e⟩ := List.mem_map.1 this
      simp only [Prod.mk.injEq] at e
      rw [← e.2] at hp
      obtain ⟨q, hq, rfl⟩ := List.mem_map.1 hp
      exact ⟨q.2, mem_commitAnswers.2 ⟨y, hy, e.1, hq⟩⟩
    · rintro ⟨code, hc⟩
      obtain ⟨y, hy, rfl, hq⟩ := mem_commitAnswers.1 hc
      have : (y.1, y.2.map (·.1)) ∈ req.topics.map (fun x => (x.1, x.2.map (·.1))) := by
        rw [← h1]; exact List.mem_map.2 ⟨y, hy, rfl⟩
      obtain ⟨x, hx, e⟩ := List.mem_map.1 this
      simp only [Prod.mk.injEq] at e
      exact ⟨x, hx, e.1, by rw [e.2]; exact List.mem_map.2 ⟨_, hq, rfl⟩⟩
  · rcases h2 with h2 | h2
    · exact .inl fun p code hc => h2 _ hc
    · refine .inr fun p code hc => ?_
      rcases h2 _ hc with e | e
      · simp only at e; subst e; exact .inl (by decide)
      · exact .inr e

def exCheck (g : GroupBusy Nat) (ev : GroupEv Nat) (out : GroupOut Nat) : Bool :=
  (match out with
    | .raised _ => false
    | _ => true) &&
  match ev with
  | .base (.consume i t) => decide (g.base.waiting.get? i = .none ∧ g.commits.get? i = .none ∧
      ∀ x ∈ g.base.waiting, x.2.topic ≠ t)
  | .base (.outcome i broker (.ok r)) =>
    match g.base.waiting.get? i with
    | .none => true
    | some w => w.pending.all fun q => decide (q.broker ≠ broker) || exHonest q r
  | .base (.finish _) => true
  | .commit k _ => decide (g.commits.get? k = .none ∧ g.base.waiting.get? k = .none)
  | .answer k r =>
    match g.commits.get? k with
    | some ⟨.asking req, _⟩ => exAnswers req r
    | _ => true
  | .goOn _ => true
  | _ => false

theorem exCheck_sound {g : GroupBusy Nat} {ev : GroupEv Nat} {out : GroupOut Nat}
    (h : exCheck g ev out = true) (t : String) :
    Allowed exPartLogs g ev out ∧ AllowedFor t exPartLogs g ev out := by
  simp only [exCheck, Bool.and_eq_true] at h
  obtain ⟨h1, h2⟩ := h
  have hno : ∀ e, out ≠ .raised e := by rintro e rfl; cases h1
  have fair : Fair Batch exPartLogs g.base
      (match ev with | .base b => b | _ => .finish 0) ∧ FreshNumber g ev ∧ ApartBase g ev ∧
      Untouched g ev ∧ ∀ k r req result, ev = .answer k r →
        g.commits.get? k = some ⟨.asking req, result⟩ → AnswersFor t req r := by
    split at h2
    · simp only [decide_eq_true_eq] at h2
      exact ⟨h2.1, h2.2.1, h2.2.2, trivial, by simp⟩
    · rename_i i broker r
      refine ⟨?_, trivial, trivial, trivial, by simp⟩
      intro w hw q hq hb
      dsimp only at h2
      rw [hw] at h2
      simp only [List.all_eq_true, Bool.or_eq_true, decide_eq_true_eq] at h2
      rcases h2 q hq with h3 | h3
      · exact absurd hb h3
      · exact exHonest_sound h3
    · exact ⟨trivial, trivial, trivial, trivial, by simp⟩
    · simp only [decide_eq_true_eq] at h2
      exact ⟨trivial, h2, trivial, trivial, by simp⟩
    · refine ⟨trivial, trivial, trivial, trivial, ?_⟩
      rintro k r req result e hg
      cases e
      dsimp only at h2
      rw [hg] at h2
      exact exAnswers_sound h2 t
    · exact ⟨trivial, trivial, trivial, trivial, by simp⟩
    · cases h2
  obtain ⟨f1, f2, f3, f4, f5⟩ := fair
  have fb : FairBase Batch exPartLogs g ev := by
    cases ev with
    | base b => exact f1
    | _ => trivial
  refine ⟨⟨f2, ?_, f4, fun e he => absurd he (hno e)⟩, f2, fb, f3, f4,
    fun e he => absurd he (hno e), f5⟩
  cases ev with
  | base b =>
    cases b with
    | outcome i broker r =>
      cases r with
      | error e => trivial
      | ok r =>
        intro w hw q hq hb
        obtain ⟨ps, k1, k2, k3⟩ := f1 w hw q hq hb
        refine ⟨ps, k1, k2, fun p hp => ⟨(k3 p hp).1, fun hc => ?_⟩⟩
        obtain ⟨f, hf, hid, hbt⟩ := (k3 p hp).2 hc
        exact ⟨f, hf, hid, batch_wide (exPartLogs_ok _ _) hbt⟩
    | consume i t => exact f1
    | finish i => exact f1
    | healFails i e => exact f1
    | other f => exact f1
  | _ => trivial

def exRunCheck (gcfg : GCfg) : GroupBusy Nat → List (GroupEv Nat) → Bool
  | _, [] => true
  | g, ev :: evs => exCheck g ev (g.step gcfg exCCfg ev).1 && exRunCheck gcfg (g.step gcfg exCCfg ev).2 evs

theorem exRunCheck_sound {gcfg : GCfg} (t : String) (evs : List (GroupEv Nat)) :
    ∀ g, exRunCheck gcfg g evs = true →
      RunOk gcfg exCCfg (Allowed exPartLogs) g evs ∧ RunOk gcfg exCCfg (AllowedFor t exPartLogs) g evs := by
  induction evs with
  | nil => exact fun g _ => ⟨trivial, trivial⟩
  | cons ev evs ih =>
    intro g h
    simp only [exRunCheck, Bool.and_eq_true] at h
    exact ⟨⟨(exCheck_sound h.1 t).1, (ih _ h.2).1⟩, ⟨(exCheck_sound h.1 t).2, (ih _ h.2).2⟩⟩

theorem exCourse {gcfg : GCfg} (evs : List (GroupEv Nat)) (g : GroupBusy Nat)
    (outs : List (String × Nat)) (acks : List (String × Int × Int))
    (hc : exRunCheck gcfg g evs = true) (h1 : (groupRun gcfg exCCfg g evs).1 = outs)
    (h2 : (groupRun gcfg exCCfg g evs).2.1 = acks) (t : String) :
    GroupCourse gcfg exCCfg (Allowed exPartLogs) g outs acks (groupRun gcfg exCCfg g evs).2.2 ∧
    GroupCourse gcfg exCCfg (AllowedFor t exPartLogs) g outs acks
      (groupRun gcfg exCCfg g evs).2.2 := by
  obtain ⟨c1, c2⟩ := exRunCheck_sound t evs g hc
  subst h1 h2
  exact ⟨course_run evs g c1, course_run evs g c2⟩

def exGroupIdle : GroupBusy Nat := ⟨⟨exTwoBrokers, []⟩, []⟩

/-- Where a course leads. -/
def exEnd (g : GroupBusy Nat) (evs : List (GroupEv Nat)) : GroupBusy Nat :=
  (groupRun exManual exCCfg g evs).2.2

/-- A `consume` of t returns one message. -/
def exOne : List (GroupEv Nat) :=
  [.base (.consume 0 "t"), .base (.outcome 0 7 (.ok (exPart 0 [(0, 5)]))),
   .base (.outcome 0 8 (.ok (exPart 1 []))), .base (.finish 0)]

/-- Then, of another one, broker 7 has answered, but broker 8 has not. -/
def exHalf : List (GroupEv Nat) :=
  exOne ++ [.base (.consume 1 "t"), .base (.outcome 1 7 (.ok (exPart 0 [(3, 99), (4, 6)])))]

/-- **C102** is false of the code as it stands: a `commit_offsets` that is called while a `consume`
waits for one more broker commits the messages that this `consume` has got from others and not
returned. -/
theorem C102_false : ∃ (g g' : GroupBusy Nat) (req : CommitReq),
    GroupCourse exManual exCCfg (Allowed exPartLogs) ⟨⟨exTwoBrokers, []⟩, []⟩ [("t", 5)] [] g ∧
    Allowed exPartLogs g (.commit 5 "") (.asked req) ∧
    g.step exManual exCCfg (.commit 5 "" : GroupEv Nat) = (.asked req, g') ∧
    req.topics = [("t", [(0, 5), (1, 0)])] ∧ (4, 6) ∈ exPartLogs "t" 0 ∧
    decode exCCfg 6 = some 6 := by
  refine ⟨exEnd exGroupIdle exHalf, ((exEnd exGroupIdle exHalf).step exManual exCCfg (.commit 5 "")).2,
    ⟨some 8, "", [("t", [(0, 5), (1, 0)])]⟩,
    (exCourse exHalf exGroupIdle _ _ (by decide +kernel) (by decide +kernel) (by decide +kernel) "t").1,
    (exCheck_sound (by decide +kernel) "t").1, Prod.ext ?_ rfl, rfl, by decide, by decide⟩
  decide +kernel

-- Non-vacuity of `C102_covered_partial` and `C102_returned_partial`: after both have answered, the
-- `consume` returns; then nothing is in hand.
example : ∃ (g g' : GroupBusy Nat) (req : CommitReq),
    GroupCourse exManual exCCfg (Allowed exPartLogs) ⟨⟨exTwoBrokers, []⟩, []⟩
      [("t", 5), ("t", 6)] [] g ∧
    Allowed exPartLogs g (.commit 5 "") (.asked req) ∧
    g.step exManual exCCfg (.commit 5 "" : GroupEv Nat) = (.asked req, g') ∧
    req.topics = [("t", [(0, 5), (1, 0)])] ∧ g'.base.waiting = [] := by
  let evs : List (GroupEv Nat) :=
    exHalf ++ [.base (.outcome 1 8 (.ok (exPart 1 []))), .base (.finish 1)]
  refine ⟨exEnd exGroupIdle evs, ((exEnd exGroupIdle evs).step exManual exCCfg (.commit 5 "")).2,
    ⟨some 8, "", [("t", [(0, 5), (1, 0)])]⟩,
    (exCourse evs exGroupIdle _ _ (by decide +kernel) (by decide +kernel) (by decide +kernel) "t").1,
    (exCheck_sound (by decide +kernel) "t").1, Prod.ext ?_ rfl, rfl, ?_⟩
  · decide +kernel
  · decide +kernel

/-- A `consume` of t returns one message, and `commit_offsets` is called; meanwhile another
`consume` returns one more; then the commit is answered. -/
def exLate : List (GroupEv Nat) :=
  exOne ++ [.commit 10 "", .base (.consume 1 "t"),
   .base (.outcome 1 7 (.ok (exPart 0 [(3, 99), (4, 6)]))),
   .base (.outcome 1 8 (.ok (exPart 1 []))), .base (.finish 1),
   .answer 10 ⟨[("t", [(0, 0), (1, 0)])]⟩]

/-- **C103** is false of the code as it stands: both messages have been returned; a
`commit_offsets` that is called after that sends nothing about the topic, and returns; only the
first message is committed. -/
theorem C103_false : ∃ (g0 g1 g2 : GroupBusy Nat),
    GroupCourse exManual exCCfg (AllowedFor "t" exPartLogs) ⟨⟨exTwoBrokers, []⟩, []⟩
      [("t", 5), ("t", 6)] [("t", 0, 1), ("t", 1, 0)] g0 ∧
    offsetOf g0.base.consumer.offsets "t" 0 = 5 ∧ 11 ∉ g0.commits.keys ∧
    GroupCourse exManual exCCfg (AllowedFor "t" exPartLogs) g0 [] [] g1 ∧
    g1.step exManual exCCfg (.goOn 11 : GroupEv Nat) = (.committed, g2) := by
  refine ⟨exEnd exGroupIdle exLate, exEnd (exEnd exGroupIdle exLate) [.commit 11 "", .answer 11 ⟨[]⟩],
    ((exEnd (exEnd exGroupIdle exLate) [.commit 11 "", .answer 11 ⟨[]⟩]).step exManual exCCfg
      (.goOn 11)).2,
    (exCourse exLate exGroupIdle _ _ (by decide +kernel) (by decide +kernel) (by decide +kernel) "t").2,
    ?_, ?_, (exCourse _ _ _ _ (by decide +kernel) (by decide +kernel) (by decide +kernel) "t").2,
    Prod.ext ?_ rfl⟩
  · decide +kernel
  · decide +kernel
  · decide +kernel

/-- The coordinator first wants the commit to be tried once more (14); another `consume` goes on. -/
def exRetry : List (GroupEv Nat) := [.commit 11 "x", .base (.consume 1 "t"),
    .answer 11 ⟨[("t", [(0, 14), (1, 14)])]⟩, .base (.outcome 1 7 (.ok (exPart 0 [(3, 99), (4, 6)]))),
    .base (.outcome 1 8 (.ok (exPart 1 []))), .goOn 11, .base (.finish 1),
    .answer 11 ⟨[("t", [(0, 0), (1, 0)])]⟩]

-- Non-vacuity of `C103_committed_partial`.
example : ∃ (g0 g1 g2 : GroupBusy Nat),
    GroupCourse exManual exCCfg (AllowedFor "t" exPartLogs) ⟨⟨exTwoBrokers, []⟩, []⟩
      [("t", 5)] [] g0 ∧ offsetOf g0.base.consumer.offsets "t" 0 = 1 ∧ g0.commits = [] ∧
    "t" ∈ g0.base.consumer.ext.toCommit ∧
    g0.base.consumer.ext.mapping = some [("t", [0, 1])] ∧
    GroupCourse exManual exCCfg (AllowedFor "t" exPartLogs) g0 [("t", 6)]
      [("t", 0, 5), ("t", 1, 0)] g1 ∧
    g1.step exManual exCCfg (.goOn 11 : GroupEv Nat) = (.committed, g2) := by
  refine ⟨exEnd exGroupIdle exOne, exEnd (exEnd exGroupIdle exOne) exRetry,
    ((exEnd (exEnd exGroupIdle exOne) exRetry).step exManual exCCfg (.goOn 11)).2,
    (exCourse exOne exGroupIdle _ _ (by decide +kernel) (by decide +kernel) (by decide +kernel) "t").2,
    ?_, ?_, ?_, ?_, (exCourse exRetry (exEnd exGroupIdle exOne) _ _ (by decide +kernel) (by decide +kernel) (by decide +kernel) "t").2,
    Prod.ext ?_ rfl⟩
  · decide +kernel
  · decide +kernel
  · decide +kernel
  · decide +kernel
  · decide +kernel

-- Non-vacuity of `C51_overlap`: the metadata is too large, and meanwhile another `consume` returns.
example :
    let g := exEnd exGroupIdle (exOne ++ [.commit 11 "long", .base (.consume 1 "t")])
    let evs : List (GroupEv Nat) := [.base (.outcome 1 7 (.ok (exPart 0 [(3, 99), (4, 6)]))),
      .base (.outcome 1 8 (.ok (exPart 1 []))), .base (.finish 1)]
    g.commits.get? 11 = some ⟨.asking ⟨some 8, "long", [("t", [(0, 1), (1, 0)])]⟩, .none⟩ ∧
    ((afterAll exManual exCCfg (g.step exManual exCCfg
      (.answer 11 ⟨[("t", [(0, 12), (1, 12)])]⟩ : GroupEv Nat)).2 evs).step exManual exCCfg
        (.goOn 11 : GroupEv Nat)).1 = .asked ⟨some 8, "", [("t", [(0, 5), (1, 0)])]⟩ := by
  decide +kernel

-- Serializing the commits of call 11 raises: it ends, and the `consume` meanwhile is not concerned.
example :
    let cfg : CCfg Nat Nat := { exCCfg with
      write := fun k api _ => if k = 11 ∧ api = "offset_commit" then some .structError else .none }
    let g := exEnd exGroupIdle (exOne ++ [.base (.consume 1 "t")])
    let x := g.step exManual cfg (.commit 11 "long" : GroupEv Nat)
    let evs : List (GroupEv Nat) := [.base (.outcome 1 7 (.ok (exPart 0 [(3, 99), (4, 6)]))),
      .base (.outcome 1 8 (.ok (exPart 1 [])))]
    x.1 = .raised .structError ∧ x.2.commits.has 11 = false ∧
    ((afterAll exManual cfg x.2 evs).step exManual cfg (.base (.finish 1) : GroupEv Nat)).1 =
      .returned "t" (some [6]) := by
  decide +kernel

end Kiel
