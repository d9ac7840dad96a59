import Verif.Spec.Sends
import Verif.Props.Refresh
import Verif.Props.Client
import Verif.Props.Overlap
/-
C25, C78: `send`s of one client that run at the same time.
-/
set_option autoImplicit false
namespace Kiel
open Spec

variable {σ R ρ ε α κ β γ δ : Type}

theorem sendCourse_cons (hs : Handlers σ R ρ) (known : σ → Int → Bool) (s : Sends σ ρ) (e : SEv σ R)
    (es : List (SEv σ R)) : (sendCourse hs known s (e :: es)).1 =
      (s.step hs known e).1 :: (sendCourse hs known (s.step hs known e).2 es).1 := rfl

/-! ### C78: errors lead to heals -/

/-- What a step can do while the flag is set and nobody is healing. -/
theorem step_flagged (hs : Handlers σ R ρ) (known : σ → Int → Bool) (s : Sends σ ρ) (e : SEv σ R)
    (hf : s.flag = true) (hq : NoneHealing s) :
    (∃ k, (s.step hs known e).1 = .healBegins k) ∨
    ((∀ j res, (s.step hs known e).1 ≠ .returned j res) ∧ (s.step hs known e).2.flag = true ∧
      NoneHealing (s.step hs known e).2) := by
  have hset : ∀ (i : Nat) (left : List Int) (results : Dict Int ρ) (j : Nat) (res : Dict Int ρ),
      (s.sends.set i (.looping left results)).get? j ≠ some (.healing res) := by
    intro i left results j res
    rw [Dict.get?_set]
    split
    · simp
    · exact hq j res
  have hera : ∀ (i j : Nat) (res : Dict Int ρ), (s.sends.erase i).get? j ≠ some (.healing res) := by
    intro i j res
    rw [Dict.get?_erase]
    split
    · simp
    · exact hq j res
  cases e with
  | send i requests write =>
    right
    simp only [Sends.step]
    split
    · exact ⟨by simp, hf, hq⟩
    · split
      · exact ⟨by simp, hf, hq⟩
      · exact ⟨by simp, hf, hset i requests []⟩
  | outcome i b r =>
    right
    simp only [Sends.step]
    split
    · split
      · exact ⟨by simp, hf, hq⟩
      · split
        · refine ⟨by simp, ?_, hset _ _ _⟩
          simp [hf]
        · split
          · exact ⟨by simp, hf, hera _⟩
          · split
            · exact ⟨by simp, by simp [hf], hera _⟩
            · exact ⟨by simp, by simp [hf], hset _ _ _⟩
    · exact ⟨by simp, hf, hq⟩
  | finish i =>
    simp only [Sends.step, hf, if_true]
    split
    · exact .inl ⟨i, rfl⟩
    · exact .inr ⟨by simp, hf, hq⟩
  | healed i r =>
    right
    simp only [Sends.step]
    split
    · rename_i res h
      exact absurd h (hq i res)
    · exact ⟨by simp, hf, hq⟩
  | other f => exact .inr ⟨by simp [Sends.step], hf, hq⟩

/-- Nothing returns before a heal begins, if the flag is set and nobody is healing. -/
theorem returns_after_heal (hs : Handlers σ R ρ) (known : σ → Int → Bool) (es : List (SEv σ R)) :
    ∀ (s : Sends σ ρ), s.flag = true → NoneHealing s →
    ∀ (pre post : List (SOut ρ)) (j : Nat) (res : Dict Int ρ),
      (sendCourse hs known s es).1 = pre ++ .returned j res :: post →
      ∃ k, SOut.healBegins k ∈ pre := by
  induction es with
  | nil => intro s _ _ pre post j res h; simp [sendCourse] at h
  | cons e es ih =>
    intro s hf hq pre post j res h
    rw [sendCourse_cons] at h
    cases pre with
    | nil =>
      simp only [List.nil_append, List.cons.injEq] at h
      rcases step_flagged hs known s e hf hq with ⟨k, hk⟩ | ⟨hk, _⟩
      · rw [hk] at h; exact absurd h.1 (by simp)
      · exact absurd h.1 (hk j res)
    | cons o pre =>
      simp only [List.cons_append, List.cons.injEq] at h
      rcases step_flagged hs known s e hf hq with ⟨k, hk⟩ | ⟨_, hf', hq'⟩
      · exact ⟨k, by rw [← h.1, hk]; exact List.mem_cons_self⟩
      · obtain ⟨k, hk⟩ := ih _ hf' hq' pre post j res h.2
        exact ⟨k, List.mem_cons_of_mem _ hk⟩

theorem heals_after (hs : Handlers σ R ρ) (known : σ → Int → Bool) (Asks : R → Prop)
    (Clean : σ → Prop)
    (ha : ∀ r f s x s' a, hs.handle r = some f → Clean s → f s = (.ok x, s', a) →
      Clean s' ∧ (a = true ↔ Asks r)) : HealsAfter hs known Asks Clean := by
  intro s i b r hc hq ho ht hn es pre post j res h
  obtain ⟨left, results, hl, hb⟩ := ho
  have key : (s.step hs known (.outcome i b r)).2.flag = true := by
    simp only [Sends.step, hl] at hn ⊢
    rw [if_neg (by simpa using hb)] at hn ⊢
    cases r with
    | error e =>
      have : e ≠ .streamClosed := ht
      simp [this]
    | ok r =>
      simp only at hn ⊢
      cases hh : hs.handle r with
      | none => simp [hh] at hn
      | some f =>
        rw [hh] at hn
        simp only at hn ⊢
        cases hf : f s.client with
        | mk x y =>
          obtain ⟨c, ask⟩ := y
          rw [hf] at hn
          cases x with
          | error e => simp at hn
          | ok x =>
            simp only
            rw [((ha r f _ x c ask hh hc hf).2).2 ht]
            simp
  have key2 : NoneHealing (s.step hs known (.outcome i b r)).2 := by
    intro j res
    simp only [Sends.step, hl] at hn ⊢
    rw [if_neg (by simpa using hb)] at hn ⊢
    have hset : ∀ (left : List Int) (results : Dict Int ρ),
        (s.sends.set i (.looping left results)).get? j ≠ some (.healing res) := by
      intro left results
      rw [Dict.get?_set]
      split
      · simp
      · exact hq j res
    have hera : (s.sends.erase i).get? j ≠ some (.healing res) := by
      rw [Dict.get?_erase]
      split
      · simp
      · exact hq j res
    cases r with
    | error e => exact hset _ _
    | ok r =>
      simp only
      split
      · exact hera
      · split
        · exact hera
        · exact hset _ _
  exact returns_after_heal hs known es _ key key2 pre post j res h

theorem heals_only_after (hs : Handlers σ R ρ) (known : σ → Int → Bool) (Asks : R → Prop)
    (Clean : σ → Prop)
    (ha : ∀ r f s x s' a, hs.handle r = some f → Clean s → f s = (.ok x, s', a) →
      Clean s' ∧ (a = true ↔ Asks r)) : HealsOnlyAfter hs known Asks Clean := by
  intro s es
  induction es generalizing s with
  | nil => intro pre post k _ _ _ h; simp [sendCourse] at h
  | cons e es ih =>
    intro pre post k hf hc hoth h
    rw [sendCourse_cons] at h
    have key : (∃ i e', (s.step hs known e).1 = .raised i e') ∨
        (∃ i b r, e = .outcome i b r ∧ Trouble Asks r) ∨
        ((∀ k, (s.step hs known e).1 ≠ .healBegins k) ∧ (s.step hs known e).2.flag = false ∧
          Clean (s.step hs known e).2.client) := by
      cases e with
      | send i requests write =>
        simp only [Sends.step]
        split
        · exact .inr (.inr ⟨by simp, hf, hc⟩)
        · split
          · exact .inl ⟨_, _, rfl⟩
          · exact .inr (.inr ⟨by simp, hf, hc⟩)
      | outcome i b r =>
        by_cases ht : Trouble Asks r
        · exact .inr (.inl ⟨i, b, r, rfl, ht⟩)
        simp only [Sends.step]
        split
        · split
          · exact .inr (.inr ⟨by simp, hf, hc⟩)
          · cases r with
            | error e =>
              have : e = .streamClosed := by simpa [Trouble] using ht
              exact .inr (.inr ⟨by simp, by simp [this, hf], hc⟩)
            | ok r =>
              simp only
              split
              · exact .inl ⟨_, _, rfl⟩
              · rename_i f hh
                split
                · exact .inl ⟨_, _, rfl⟩
                · rename_i x c ask hx
                  obtain ⟨h1, h2⟩ := ha r f _ x c ask hh hc hx
                  have : ask = false := by
                    rw [Bool.eq_false_iff]
                    exact fun h => ht (h2.1 h)
                  exact .inr (.inr ⟨by simp, by simp [this, hf], h1⟩)
        · exact .inr (.inr ⟨by simp, hf, hc⟩)
      | finish i =>
        simp only [Sends.step, hf]
        split
        · exact .inr (.inr ⟨by simp, by simp, by simpa using hc⟩)
        · exact .inr (.inr ⟨by simp, hf, hc⟩)
      | healed i r =>
        simp only [Sends.step]
        split
        · split
          · exact .inl ⟨_, _, rfl⟩
          · exact .inr (.inr ⟨by simp, rfl, hc⟩)
        · exact .inr (.inr ⟨by simp, hf, hc⟩)
      | other f =>
        exact .inr (.inr ⟨by simp [Sends.step], hf, hoth f List.mem_cons_self _ hc⟩)
    cases pre with
    | nil =>
      simp only [List.nil_append, List.cons.injEq] at h
      rcases key with ⟨i, e', hk⟩ | ⟨i, b, r, rfl, ht⟩ | ⟨hk, _⟩
      · rw [hk] at h; exact absurd h.1 (by simp)
      · exfalso
        have h1 := h.1
        simp only [Sends.step] at h1
        split at h1
        · split at h1
          · simp at h1
          · split at h1
            · simp at h1
            · split at h1
              · simp at h1
              · split at h1 <;> simp at h1
        · simp at h1
      · exact absurd h.1 (hk k)
    | cons o pre =>
      simp only [List.cons_append, List.cons.injEq] at h
      rcases key with ⟨i, e', hk⟩ | ⟨i, b, r, rfl, ht⟩ | ⟨_, hf', hc'⟩
      · exact .inl ⟨i, e', by rw [← h.1, hk]; exact List.mem_cons_self⟩
      · exact .inr ⟨i, b, r, by simp, ht⟩
      · rcases ih _ pre post k hf' hc' (fun f hm => hoth f (List.mem_cons_of_mem _ hm)) h.2 with
          ⟨i, e', hm⟩ | ⟨i, b, r, hm, ht⟩
        · exact .inl ⟨i, e', List.mem_cons_of_mem _ hm⟩
        · exact .inr ⟨i, b, r, by simp [hm], ht⟩


/-- **C78** (partial), for each kind of request a client sends: when a request fails, other than by
its connection closing, or is answered with a code that asks for it, while no `heal()` of the client
is under way, then no `send` of the client returns before a `heal()` has begun – whatever other
`send`s do.
Missing: with a `heal()` under way this is false, see `C78_false`. -/
theorem C78_heals_partial :
    (∀ known, HealsAfter (producerHandlers (κ := κ) (β := β)) known ProduceAsks (·.heal = false)) ∧
    (∀ (cfg : CCfg β δ) known, HealsAfter (fetchHandlers (ε := ε) cfg) known FetchAsks (·.heal = false)) ∧
    (∀ known, HealsAfter offsetHandlers known OffsetAsks (·.heal = false)) ∧
    (∀ known, HealsAfter coordinatorHandlers known CoordinatorAsks (·.heal = false)) ∧
    (∀ known, HealsAfter offsetFetchHandlers known OffsetFetchAsks (·.heal = false)) ∧
    ∀ known, HealsAfter commitHandlers known CommitAsks (·.heal = false) := by
  refine ⟨fun known => heals_after _ _ _ _ ?_, fun cfg known => heals_after _ _ _ _ ?_,
    fun known => heals_after _ _ _ _ ?_, fun known => heals_after _ _ _ _ ?_,
    fun known => heals_after _ _ _ _ ?_, fun known => heals_after _ _ _ _ ?_⟩
  · intro r f s x s' a hr hs h
    obtain ⟨h1, h2⟩ := produce_asks s.cluster r f s x s' a true hr ⟨hs, rfl, fun _ => rfl⟩ h
    exact ⟨h1.1, h2⟩
  · intro r f s x s' a hr hs h
    obtain ⟨h1, h2⟩ := fetch_asks cfg s.cluster r f s x s' a hr ⟨hs, rfl⟩ h
    exact ⟨h1.1, h2⟩
  · intro r f s x s' a hr hs h
    obtain ⟨h1, h2⟩ := offset_asks s.cluster r f s x s' a hr ⟨hs, rfl⟩ h
    exact ⟨h1.1, h2⟩
  · intro r f s x s' a hr hs h
    obtain ⟨h1, h2⟩ := coordinator_asks s.cluster r f s x s' a hr ⟨hs, rfl⟩ h
    exact ⟨h1.1, h2⟩
  · intro r f s x s' a hr hs h
    obtain ⟨h1, h2⟩ := offsetFetch_asks s.cluster r f s x s' a hr ⟨hs, rfl⟩ h
    exact ⟨h1.1, h2⟩
  · intro r f s x s' a hr hs h
    obtain ⟨h1, h2⟩ := commit_asks s.cluster r f s x s' a hr ⟨hs, rfl⟩ h
    exact ⟨h1.1, h2⟩

/-- The flag stays set until a heal returns; until then no `send` returns. -/
theorem step_awaits (hs : Handlers σ R ρ) (known : σ → Int → Bool) (s : Sends σ ρ) (e : SEv σ R)
    (hf : s.flag = true) :
    (∃ k, e = .healed k (.ok ())) ∨
    ((∀ j res, (s.step hs known e).1 ≠ .returned j res) ∧ (s.step hs known e).2.flag = true) := by
  cases e with
  | send i requests write =>
    right
    simp only [Sends.step]
    split
    · exact ⟨by simp, hf⟩
    · split <;> exact ⟨by simp, hf⟩
  | outcome i b r =>
    right
    simp only [Sends.step]
    split
    · split
      · exact ⟨by simp, hf⟩
      · split
        · exact ⟨by simp, by simp [hf]⟩
        · split
          · exact ⟨by simp, hf⟩
          · split <;> exact ⟨by simp, by simp [hf]⟩
    · exact ⟨by simp, hf⟩
  | finish i =>
    right
    simp only [Sends.step, hf, if_true]
    split
    · exact ⟨by simp, rfl⟩
    · exact ⟨by simp, hf⟩
  | healed i r =>
    cases r with
    | ok x => exact .inl ⟨i, rfl⟩
    | error e =>
      right
      simp only [Sends.step]
      split <;> exact ⟨by simp, hf⟩
  | other f => exact .inr ⟨by simp [Sends.step], hf⟩

theorem returns_after_healed (hs : Handlers σ R ρ) (known : σ → Int → Bool) (es : List (SEv σ R)) :
    ∀ (s : Sends σ ρ), s.flag = true →
    ∀ (pre post : List (SOut ρ)) (j : Nat) (res : Dict Int ρ),
      (sendCourse hs known s es).1 = pre ++ .returned j res :: post →
      ∃ k, SEv.healed k (.ok ()) ∈ es.take (pre.length + 1) := by
  induction es with
  | nil => intro s _ pre post j res h; simp [sendCourse] at h
  | cons e es ih =>
    intro s hf pre post j res h
    rw [sendCourse_cons] at h
    rcases step_awaits hs known s e hf with ⟨k, hk⟩ | ⟨hk, hf'⟩
    · exact ⟨k, by simp [hk]⟩
    · cases pre with
      | nil =>
        simp only [List.nil_append, List.cons.injEq] at h
        exact absurd h.1 (hk j res)
      | cons o pre =>
        simp only [List.cons_append, List.cons.injEq] at h
        obtain ⟨k, hm⟩ := ih _ hf' pre post j res h.2
        exact ⟨k, by simp only [List.length_cons, List.take_succ_cons]; exact List.mem_cons_of_mem _ hm⟩

theorem healed_before (hs : Handlers σ R ρ) (known : σ → Int → Bool) (Asks Met : R → Prop)
    (Clean : σ → Prop)
    (ha : ∀ r f s x s' a, hs.handle r = some f → Clean s → f s = (.ok x, s', a) →
      Clean s' ∧ (a = true ↔ Asks r))
    (hm : ∀ r, Met r → ∃ f, hs.handle r = some f ∧ ∀ s, (f s).2.2 = true) :
    HealedBefore hs known Asks Met Clean := by
  intro s i b r hc ho ht es pre post j res h
  refine returns_after_healed hs known es _ ?_ pre post j res h
  obtain ⟨left, results, hl, hb⟩ := ho
  rcases ht with ⟨ht, hn⟩ | ⟨x, rfl, hx⟩
  · simp only [Sends.step, hl] at hn ⊢
    rw [if_neg (by simpa using hb)] at hn ⊢
    cases r with
    | error e =>
      have : e ≠ .streamClosed := ht
      simp [this]
    | ok r =>
      simp only at hn ⊢
      cases hh : hs.handle r with
      | none => simp [hh] at hn
      | some f =>
        rw [hh] at hn
        simp only at hn ⊢
        cases hf : f s.client with
        | mk x y =>
          obtain ⟨c, ask⟩ := y
          rw [hf] at hn
          cases x with
          | error e => simp at hn
          | ok x =>
            simp only
            rw [((ha r f _ x c ask hh hc hf).2).2 ht]
            simp
  · obtain ⟨f, hf, hg⟩ := hm x hx
    have hg' := hg s.client
    simp only [Sends.step, hl]
    rw [if_neg (by simpa using hb)]
    simp only [hf]
    cases hx : f s.client with
    | mk y z =>
      obtain ⟨c, ask⟩ := z
      rw [hx] at hg'
      simp only at hg'
      subst hg'
      cases y <;> simp

theorem knownCode_get? {code : Int} (h : KnownCode code) : errorCodes.get? code ≠ .none :=
  fun hn => (errorCodes_none code).1 hn h

theorem fetch_met (cfg : CCfg β δ) (t : String) (ps : List (FPart β)) :
    ∀ (c : Consumer ε) (out : List δ),
    (c.heal = true ∨ ∃ pre q post, ps = pre ++ q :: post ∧ Retriable q.code ∧ ∀ x ∈ pre, KnownCode x.code) →
    (handleFetchParts cfg t ps c out).2.heal = true := by
  have hd : ∀ (p : Int) (ms : List (Int × β)) (c : Consumer ε) (out : List δ),
      (deserializeMessages cfg t p ms c out).2.heal = c.heal := by
    intro p ms
    induction ms with
    | nil => intro c out; rfl
    | cons m ms ih =>
      intro c out
      obtain ⟨o, v⟩ := m
      simp only [deserializeMessages]
      cases cfg.deserializer v with
      | error e => exact ih c out
      | ok v =>
        simp only
        split <;> exact ih _ _
  induction ps with
  | nil =>
    rintro c out (h | ⟨pre, q, post, h, _⟩)
    · exact h
    · simp at h
  | cons p ps ih =>
    intro c out h
    have hh : c.heal = true ∨ Retriable p.code ∨ KnownCode p.code ∧
        ∃ pre q post, ps = pre ++ q :: post ∧ Retriable q.code ∧ ∀ x ∈ pre, KnownCode x.code := by
      rcases h with h | ⟨pre, q, post, h, hq, hp⟩
      · exact .inl h
      · cases pre with
        | nil =>
          simp only [List.nil_append, List.cons.injEq] at h
          exact .inr (.inl (h.1 ▸ hq))
        | cons x pre =>
          simp only [List.cons_append, List.cons.injEq] at h
          exact .inr (.inr ⟨h.1 ▸ hp x (by simp), pre, q, post, h.2, hq,
            fun y hy => hp y (by simp [hy])⟩)
    simp only [handleFetchParts]
    split
    · rename_i h0
      refine ih _ _ ?_
      rw [hd]
      rcases hh with h | h | h
      · exact .inl h
      · rw [h0] at h; exact absurd h (by decide)
      · exact .inr h.2
    · split
      · exact ih _ _ (.inl rfl)
      · rename_i h1
        have h1' : ¬ Retriable p.code := h1
        have hh' : c.heal = true ∨ KnownCode p.code ∧
            ∃ pre q post, ps = pre ++ q :: post ∧ Retriable q.code ∧ ∀ x ∈ pre, KnownCode x.code := by
          rcases hh with h | h | h
          · exact .inl h
          · exact absurd h h1'
          · exact .inr h
        split
        · exact ih _ _ (hh'.imp id And.right)
        · split
          · rename_i hn
            exact hh'.resolve_right fun h => knownCode_get? h.1 hn
          · exact ih _ _ (hh'.imp id And.right)

theorem offset_met (t : String) (ps : List OPart) :
    ∀ (c : Single),
    (c.heal = true ∨ ∃ pre q post, ps = pre ++ q :: post ∧ Retriable q.code ∧
      ∀ x ∈ pre, Retriable x.code ∨ x.code = 0 ∧ x.offsets ≠ []) →
    (handleOffsetParts t ps c).2.heal = true := by
  induction ps with
  | nil =>
    rintro c (h | ⟨pre, q, post, h, _⟩)
    · exact h
    · simp at h
  | cons p ps ih =>
    intro c h
    have hh : c.heal = true ∨ Retriable p.code ∨ (p.code = 0 ∧ p.offsets ≠ []) ∧
        ∃ pre q post, ps = pre ++ q :: post ∧ Retriable q.code ∧
          ∀ x ∈ pre, Retriable x.code ∨ x.code = 0 ∧ x.offsets ≠ [] := by
      rcases h with h | ⟨pre, q, post, h, hq, hp⟩
      · exact .inl h
      · cases pre with
        | nil =>
          simp only [List.nil_append, List.cons.injEq] at h
          exact .inr (.inl (h.1 ▸ hq))
        | cons x pre =>
          simp only [List.cons_append, List.cons.injEq] at h
          rcases hp x (by simp) with h' | h'
          · exact .inr (.inl (h.1 ▸ h'))
          · exact .inr (.inr ⟨h.1 ▸ h', pre, q, post, h.2, hq, fun y hy => hp y (by simp [hy])⟩)
    simp only [handleOffsetParts]
    split
    · rename_i h0
      have hh' : c.heal = true ∨ (p.code = 0 ∧ p.offsets ≠ []) ∧
          ∃ pre q post, ps = pre ++ q :: post ∧ Retriable q.code ∧
            ∀ x ∈ pre, Retriable x.code ∨ x.code = 0 ∧ x.offsets ≠ [] := by
        rcases hh with h | h | h
        · exact .inl h
        · rw [h0] at h; exact absurd h (by decide)
        · exact .inr h
      split
      · rename_i hn
        exact hh'.resolve_right fun h => h.1.2 hn
      · refine ih _ ?_
        refine hh'.imp (fun h => ?_) And.right
        split <;> exact h
    · rename_i h0
      split
      · exact ih _ (.inl rfl)
      · rename_i h1
        have h1' : ¬ Retriable p.code := h1
        have hc : c.heal = true := by
          rcases hh with h | h | h
          · exact h
          · exact absurd h h1'
          · exact absurd h.1.1 h0
        split <;> exact hc

theorem offsetFetch_met (t : String) (ps : List OFPart) :
    ∀ (c : Grouped) (retry : Bool),
    (c.heal = true ∨ ∃ pre q post, ps = pre ++ q :: post ∧ (Retriable q.code ∧ q.code ≠ 14) ∧
      ∀ x ∈ pre, Retriable x.code ∨ x.code = 0) →
    (handleOffsetFetchParts t ps c retry).2.heal = true := by
  induction ps with
  | nil =>
    rintro c retry (h | ⟨pre, q, post, h, _⟩)
    · exact h
    · simp at h
  | cons p ps ih =>
    intro c retry h
    have hh : c.heal = true ∨ (Retriable p.code ∧ p.code ≠ 14) ∨ (Retriable p.code ∨ p.code = 0) ∧
        ∃ pre q post, ps = pre ++ q :: post ∧ (Retriable q.code ∧ q.code ≠ 14) ∧
          ∀ x ∈ pre, Retriable x.code ∨ x.code = 0 := by
      rcases h with h | ⟨pre, q, post, h, hq, hp⟩
      · exact .inl h
      · cases pre with
        | nil =>
          simp only [List.nil_append, List.cons.injEq] at h
          exact .inr (.inl (h.1 ▸ hq))
        | cons x pre =>
          simp only [List.cons_append, List.cons.injEq] at h
          exact .inr (.inr ⟨h.1 ▸ hp x (by simp), pre, q, post, h.2, hq,
            fun y hy => hp y (by simp [hy])⟩)
    simp only [handleOffsetFetchParts]
    split
    · rename_i h0
      refine ih _ _ ?_
      rcases hh with h | h | h
      · exact .inl h
      · rw [h0] at h; exact absurd h.1 (by decide)
      · exact .inr h.2
    · rename_i h0
      split
      · rename_i h14
        refine ih _ _ ?_
        rcases hh with h | h | h
        · exact .inl h
        · exact absurd h14 h.2
        · exact .inr h.2
      · split
        · exact ih _ _ (.inl rfl)
        · rename_i h1
          have h1' : ¬ Retriable p.code := h1
          have hc : c.heal = true := by
            rcases hh with h | h | h
            · exact h
            · exact absurd h.1 h1'
            · exact absurd (h.1.resolve_left h1') h0
          split <;> exact hc

theorem commitParts_met (t : String) (ps : List (Int × Int)) :
    ∀ (c : Grouped) (b : Bool × Bool),
    ((c.heal = true ∨ ∃ pre q post, ps = pre ++ q :: post ∧ Retriable q.2 ∧ ∀ x ∈ pre, KnownCode x.2) →
      (handleCommitParts t ps c b).2.heal = true) ∧
    ((∀ x ∈ ps, KnownCode x.2) → ∃ y c', handleCommitParts t ps c b = (.ok y, c')) := by
  induction ps with
  | nil =>
    intro c b
    refine ⟨?_, fun _ => ⟨_, _, rfl⟩⟩
    rintro (h | ⟨pre, q, post, h, _⟩)
    · exact h
    · simp at h
  | cons p ps ih =>
    intro c b
    obtain ⟨n, code⟩ := p
    obtain ⟨retry, adjust⟩ := b
    refine ⟨fun h => ?_, fun h => ?_⟩
    · have hh : c.heal = true ∨ Retriable code ∨ KnownCode code ∧
          ∃ pre q post, ps = pre ++ q :: post ∧ Retriable q.2 ∧ ∀ x ∈ pre, KnownCode x.2 := by
        rcases h with h | ⟨pre, q, post, h, hq, hp⟩
        · exact .inl h
        · cases pre with
          | nil =>
            simp only [List.nil_append, List.cons.injEq] at h
            rw [← h.1] at hq
            exact .inr (.inl hq)
          | cons x pre =>
            simp only [List.cons_append, List.cons.injEq] at h
            have := hp x (by simp)
            rw [← h.1] at this
            exact .inr (.inr ⟨this, pre, q, post, h.2, hq, fun y hy => hp y (by simp [hy])⟩)
      simp only [handleCommitParts]
      split
      · rename_i h0
        refine (ih _ _).1 ?_
        rcases hh with h | h | h
        · exact .inl h
        · rw [h0] at h; exact absurd h (by decide)
        · exact .inr h.2
      · split
        · exact (ih _ _).1 (.inl rfl)
        · rename_i h1
          have h1' : ¬ Retriable code := h1
          have hh' : c.heal = true ∨ KnownCode code ∧
              ∃ pre q post, ps = pre ++ q :: post ∧ Retriable q.2 ∧ ∀ x ∈ pre, KnownCode x.2 := by
            rcases hh with h | h | h
            · exact .inl h
            · exact absurd h h1'
            · exact .inr h
          split
          · exact (ih _ _).1 (hh'.imp id And.right)
          · split
            · rename_i hn
              exact hh'.resolve_right fun h => knownCode_get? h.1 hn
            · exact (ih _ _).1 (hh'.imp id And.right)
    · have h' : ∀ x ∈ ps, KnownCode x.2 := fun x hx => h x (by simp [hx])
      simp only [handleCommitParts]
      split
      · exact (ih _ _).2 h'
      · split
        · exact (ih _ _).2 h'
        · split
          · exact (ih _ _).2 h'
          · split
            · rename_i hn
              exact absurd hn (knownCode_get? (h (n, code) (by simp)))
            · exact (ih _ _).2 h'

theorem commit_met (ts : List (String × List (Int × Int))) :
    ∀ (c : Grouped) (b : Bool × Bool),
    (c.heal = true ∨ ∃ before t pre q post more, ts = before ++ (t, pre ++ q :: post) :: more ∧
      Retriable q.2 ∧ (∀ x ∈ pre, KnownCode x.2) ∧ ∀ y ∈ before, ∀ x ∈ y.2, KnownCode x.2) →
    (handleCommitTopics ts c b).2.heal = true := by
  induction ts with
  | nil =>
    rintro c b (h | ⟨before, t, pre, q, post, more, h, _⟩)
    · exact h
    · simp at h
  | cons y ts ih =>
    intro c b h
    obtain ⟨t, ps⟩ := y
    simp only [handleCommitTopics]
    obtain ⟨g1, g2⟩ := commitParts_met t ps c b
    have hh : (handleCommitParts t ps c b).2.heal = true ∨
        (∃ y c', handleCommitParts t ps c b = (.ok y, c')) ∧
        ∃ before t pre q post more, ts = before ++ (t, pre ++ q :: post) :: more ∧
          Retriable q.2 ∧ (∀ x ∈ pre, KnownCode x.2) ∧ ∀ y ∈ before, ∀ x ∈ y.2, KnownCode x.2 := by
      rcases h with h | ⟨before, t', pre, q, post, more, h, hq, hp, hb⟩
      · exact .inl (g1 (.inl h))
      · cases before with
        | nil =>
          simp only [List.nil_append, List.cons.injEq, Prod.mk.injEq] at h
          exact .inl (g1 (.inr ⟨pre, q, post, h.1.2, hq, hp⟩))
        | cons x before =>
          simp only [List.cons_append, List.cons.injEq] at h
          have hx := hb x (by simp)
          rw [← h.1] at hx
          exact .inr ⟨g2 hx, before, t', pre, q, post, more, h.2, hq, hp,
            fun y hy => hb y (by simp [hy])⟩
    cases hr : handleCommitParts t ps c b with
    | mk y c' =>
      rw [hr] at hh
      cases y with
      | error e =>
        simp only
        refine hh.resolve_right ?_
        rintro ⟨⟨y, c', h⟩, _⟩
        simp at h
      | ok y =>
        simp only at hh ⊢
        exact ih c' y (hh.imp id And.right)

/-- **C78**, **C89** for `send`s that overlap: when a request fails, other than by its connection
closing, or is answered with a code that asks for it, then no `send` of the client returns before a
`heal()` of the client has returned, however many of them raise – and also when the handler of the
answer raises, after it has met such a code.  (For produce responses that raise this is not shown.) -/
theorem C78_healed :
    (∀ known, HealedBefore (producerHandlers (κ := κ) (β := β)) known ProduceAsks (fun _ => False)
      (·.heal = false)) ∧
    (∀ (cfg : CCfg β δ) known, HealedBefore (fetchHandlers (ε := ε) cfg) known FetchAsks FetchMet
      (·.heal = false)) ∧
    (∀ known, HealedBefore offsetHandlers known OffsetAsks OffsetMet (·.heal = false)) ∧
    (∀ known, HealedBefore coordinatorHandlers known CoordinatorAsks (fun _ => False)
      (·.heal = false)) ∧
    (∀ known, HealedBefore offsetFetchHandlers known OffsetFetchAsks OffsetFetchMet
      (·.heal = false)) ∧
    ∀ known, HealedBefore commitHandlers known CommitAsks CommitMet (·.heal = false) := by
  refine ⟨fun known => healed_before _ _ _ _ _ ?_ ?_, fun cfg known => healed_before _ _ _ _ _ ?_ ?_,
    fun known => healed_before _ _ _ _ _ ?_ ?_, fun known => healed_before _ _ _ _ _ ?_ ?_,
    fun known => healed_before _ _ _ _ _ ?_ ?_, fun known => healed_before _ _ _ _ _ ?_ ?_⟩
  · intro r f s x s' a hr hs h
    obtain ⟨h1, h2⟩ := produce_asks s.cluster r f s x s' a true hr ⟨hs, rfl, fun _ => rfl⟩ h
    exact ⟨h1.1, h2⟩
  · exact fun _ h => h.elim
  · intro r f s x s' a hr hs h
    obtain ⟨h1, h2⟩ := fetch_asks cfg s.cluster r f s x s' a hr ⟨hs, rfl⟩ h
    exact ⟨h1.1, h2⟩
  · rintro r ⟨t, pre, q, post, more, ht, hq, hp⟩
    refine ⟨_, rfl, fun s => ?_⟩
    have := fetch_met cfg t (pre ++ q :: post) s [] (.inr ⟨pre, q, post, rfl, hq, hp⟩)
    simp only [handleFetchResponse, ht]
    exact this
  · intro r f s x s' a hr hs h
    obtain ⟨h1, h2⟩ := offset_asks s.cluster r f s x s' a hr ⟨hs, rfl⟩ h
    exact ⟨h1.1, h2⟩
  · rintro r ⟨t, pre, q, post, more, ht, hq, hp⟩
    refine ⟨_, rfl, fun s => ?_⟩
    have := offset_met t (pre ++ q :: post) s (.inr ⟨pre, q, post, rfl, hq, hp⟩)
    simp only [handleOffsetResponse, ht]
    exact this
  · intro r f s x s' a hr hs h
    obtain ⟨h1, h2⟩ := coordinator_asks s.cluster r f s x s' a hr ⟨hs, rfl⟩ h
    exact ⟨h1.1, h2⟩
  · exact fun _ h => h.elim
  · intro r f s x s' a hr hs h
    obtain ⟨h1, h2⟩ := offsetFetch_asks s.cluster r f s x s' a hr ⟨hs, rfl⟩ h
    exact ⟨h1.1, h2⟩
  · rintro r ⟨t, pre, q, post, more, ht, hq, hp⟩
    refine ⟨_, rfl, fun s => ?_⟩
    have := offsetFetch_met t (pre ++ q :: post) s false (.inr ⟨pre, q, post, rfl, hq, hp⟩)
    simp only [handleOffsetFetchResponse, ht]
    exact this
  · intro r f s x s' a hr hs h
    obtain ⟨h1, h2⟩ := commit_asks s.cluster r f s x s' a hr ⟨hs, rfl⟩ h
    exact ⟨h1.1, h2⟩
  · intro r hr
    exact ⟨_, rfl, fun s => commit_met r.topics s (false, false) (.inr hr)⟩

/-- **C78**, the other half: no `heal()` begins unless there was such trouble, or a `send` raised. -/
theorem C78_only :
    (∀ known, HealsOnlyAfter (producerHandlers (κ := κ) (β := β)) known ProduceAsks (·.heal = false)) ∧
    (∀ (cfg : CCfg β δ) known,
      HealsOnlyAfter (fetchHandlers (ε := ε) cfg) known FetchAsks (·.heal = false)) ∧
    (∀ known, HealsOnlyAfter offsetHandlers known OffsetAsks (·.heal = false)) ∧
    (∀ known, HealsOnlyAfter coordinatorHandlers known CoordinatorAsks (·.heal = false)) ∧
    (∀ known, HealsOnlyAfter offsetFetchHandlers known OffsetFetchAsks (·.heal = false)) ∧
    ∀ known, HealsOnlyAfter commitHandlers known CommitAsks (·.heal = false) := by
  refine ⟨fun known => heals_only_after _ _ _ _ ?_, fun cfg known => heals_only_after _ _ _ _ ?_,
    fun known => heals_only_after _ _ _ _ ?_, fun known => heals_only_after _ _ _ _ ?_,
    fun known => heals_only_after _ _ _ _ ?_, fun known => heals_only_after _ _ _ _ ?_⟩
  · intro r f s x s' a hr hs h
    obtain ⟨h1, h2⟩ := produce_asks s.cluster r f s x s' a true hr ⟨hs, rfl, fun _ => rfl⟩ h
    exact ⟨h1.1, h2⟩
  · intro r f s x s' a hr hs h
    obtain ⟨h1, h2⟩ := fetch_asks cfg s.cluster r f s x s' a hr ⟨hs, rfl⟩ h
    exact ⟨h1.1, h2⟩
  · intro r f s x s' a hr hs h
    obtain ⟨h1, h2⟩ := offset_asks s.cluster r f s x s' a hr ⟨hs, rfl⟩ h
    exact ⟨h1.1, h2⟩
  · intro r f s x s' a hr hs h
    obtain ⟨h1, h2⟩ := coordinator_asks s.cluster r f s x s' a hr ⟨hs, rfl⟩ h
    exact ⟨h1.1, h2⟩
  · intro r f s x s' a hr hs h
    obtain ⟨h1, h2⟩ := offsetFetch_asks s.cluster r f s x s' a hr ⟨hs, rfl⟩ h
    exact ⟨h1.1, h2⟩
  · intro r f s x s' a hr hs h
    obtain ⟨h1, h2⟩ := commit_asks s.cluster r f s x s' a hr ⟨hs, rfl⟩ h
    exact ⟨h1.1, h2⟩

/-- What the model of overlapping `consume`s (C76) keeps of it: the flag is set exactly by trouble. -/
theorem C78_consumes (allocation : Consumer ε → Res (Dict String (List Int))) (cfg : CCfg β δ)
    (b b' : Busy ε δ) (i : Nat) (broker : Int) (r : Res (FResp β)) (w : Waiting δ)
    (hw : b.waiting.get? i = some w) (hb : broker ∈ w.pending.map (·.broker))
    (h : b.step allocation cfg (.outcome i broker r) = (.nothing, b')) :
    b'.consumer.heal = true ↔ b.consumer.heal = true ∨ Trouble FetchAsks r := by
  simp only [Busy.step, hw] at h
  rw [if_neg (by simpa using hb)] at h
  cases r with
  | error e =>
    simp only [Prod.mk.injEq, true_and] at h
    subst h
    by_cases he : e = .streamClosed <;> simp [Trouble, he]
  | ok r =>
    simp only at h
    cases hh : handleFetchResponse cfg r b.consumer with
    | mk x c =>
      rw [hh] at h
      cases x with
      | error e => simp at h
      | ok x =>
        simp only [Prod.mk.injEq, true_and] at h
        subst h
        cases ht : r.topics with
        | nil => simp [handleFetchResponse, ht] at hh
        | cons tp more =>
          obtain ⟨t, ps⟩ := tp
          simp only [handleFetchResponse, ht] at hh
          rw [(handleFetchParts_heal cfg t ps b.consumer c [] x hh).2]
          simp [Trouble, FetchAsks, ht]

/-- What the model of overlapping `produce`s and `flush`es (C29, C87) keeps of it. -/
theorem C78_flushes (cfg : PCfg α κ β) (p p' : Producer κ β) (corr : Int) (r : Res PResp)
    (h : p.step (γ := γ) cfg (match r with | .ok r => .answer r | .error e => .failed corr e) =
      (.none, p')) :
    p'.heal = true ↔ p.heal = true ∨ Trouble ProduceAsks r := by
  cases r with
  | error e =>
    simp only [Producer.step, Prod.mk.injEq, true_and] at h
    subst h
    by_cases he : e = .streamClosed <;> simp [Trouble, he]
  | ok r =>
    simp only [Producer.step] at h
    cases hh : p.handleResponse r with
    | mk x p1 =>
      rw [hh] at h
      cases x with
      | error e => simp at h
      | ok x =>
        simp only [Prod.mk.injEq, true_and] at h
        subst h
        unfold Producer.handleResponse at hh
        rw [handleTopics_eq] at hh
        cases hp : Producer.handleParts r.corr r.answers p with
        | mk y p2 =>
          cases y with
          | error e => simp [hp] at hh
          | ok y =>
            rw [hp] at hh
            simp only at hh
            split at hh
            · simp only [Prod.mk.injEq, true_and] at hh
              subst hh
              simp only
              rw [(handleParts_heal r.corr r.answers p p2 hp).2.1]
              simp [Trouble, ProduceAsks]
            · simp at hh

/-- A fetch of partition 0 of topic t was answered with `code`. -/
def exCoded (code : Int) : FResp Nat := ⟨[("t", [⟨0, code, []⟩])]⟩

/-- A consumer is in its `send` number 0, and in its `send` number 1. -/
def exSends : Sends Single (List Nat) :=
  ⟨exConsumer, false, [(0, .looping [7] []), (1, .looping [7, 8] [])]⟩

/-- **C78** is false: `send` 0 is told that broker 7 is not the leader, and heals; meanwhile `send` 1
is told the same of broker 8; when the `heal()` of `send` 0 is done, the flag is cleared, and
`send` 1 returns though no `heal()` has begun since it was told. -/
theorem C78_false :
    let known := fun (c : Single) b => c.cluster.conns.has b
    let s := (sendCourse (fetchHandlers exCCfg) known exSends
      [.outcome 0 7 (.ok (exCoded 6)), .finish 0, .outcome 1 7 (.ok (exCoded 0))]).2
    Outstanding s 1 8 ∧ Trouble FetchAsks (.ok (exCoded 6)) ∧
    (sendCourse (fetchHandlers exCCfg) known s
      [.outcome 1 8 (.ok (exCoded 6)), .healed 0 (.ok ()), .finish 1]).1 =
        [.nothing, .returned 0 [(7, [])], .returned 1 [(7, []), (8, [])]] := by
  refine ⟨⟨[8], [(7, [])], by decide +kernel, by simp⟩,
    ⟨"t", [⟨0, 6, []⟩], [], rfl, ⟨0, 6, []⟩, by simp, by show _ ∈ _; decide +kernel⟩,
    by decide +kernel⟩

-- Non-vacuity of C78_healed: the handler of an answer raises (99 is no code it knows) after it has met
-- "not coordinator"; the next `send` heals, and, as that raises, the next one does once more.
example :
    let r : CommitResp := ⟨[("t", [(0, 16), (1, 99)])]⟩
    let s : Sends Grouped (Bool × Bool) := ⟨exGrouped, false, [(1, .looping [8] []), (2, .looping [8] []),
      (3, .looping [8] [])]⟩
    CommitMet r ∧ Outstanding s 1 8 ∧
    (sendCourse commitHandlers (fun _ _ => true) s [.outcome 1 8 (.ok r),
      .outcome 2 8 (.ok ⟨[("t", [(0, 0)])]⟩), .finish 2, .healed 2 (.error .noBrokers),
      .outcome 3 8 (.ok ⟨[("t", [(0, 0)])]⟩), .finish 3, .healed 3 (.ok ())]).1 =
    [.raised 1 .keyError, .nothing, .healBegins 2, .raised 2 .noBrokers, .nothing, .healBegins 3,
      .returned 3 [(8, (false, false))]] := by
  refine ⟨⟨[], "t", [], (0, 16), [(1, 99)], [], rfl, by decide, by simp, by simp⟩,
    ⟨[8], [], rfl, by simp⟩, by decide +kernel⟩

-- Non-vacuity: two `send`s, the error is seen by the first, the other one heals.
example :
    let known := fun (c : Single) b => c.cluster.conns.has b
    exSends.client.heal = false ∧ exSends.flag = false ∧ NoneHealing exSends ∧
    Outstanding exSends 0 7 ∧ Trouble FetchAsks (.ok (exCoded 6)) ∧
    (sendCourse (fetchHandlers exCCfg) known exSends
      [.outcome 0 7 (.ok (exCoded 6)), .outcome 1 7 (.ok (exCoded 0)),
       .outcome 1 8 (.error .streamClosed), .finish 1, .healed 1 (.ok ()), .finish 0]).1 =
      [.nothing, .nothing, .nothing, .healBegins 1, .returned 1 [(7, [])], .returned 0 [(7, [])]] := by
  refine ⟨rfl, rfl, ?_, ⟨[7], [], by decide +kernel, by simp⟩,
    ⟨"t", [⟨0, 6, []⟩], [], rfl, ⟨0, 6, []⟩, by simp, by show _ ∈ _; decide +kernel⟩,
    by decide +kernel⟩
  intro i results h
  have := Dict.mem_of_get? h
  simp [exSends] at this

/-! ### C25: results -/

/-- Steps that do not settle a request of `send` number `i`. -/
theorem step_frame (hs : Handlers σ R ρ) (known : σ → Int → Bool) (s : Sends σ ρ) (e : SEv σ R)
    (i : Nat) (v : Sending ρ) (hi : s.sends.get? i = some v) (he : ∀ b r, e ≠ .outcome i b r)
    (hr : ∀ res, (s.step hs known e).1 ≠ .returned i res)
    (hx : ∀ e', (s.step hs known e).1 ≠ .raised i e') :
    (s.step hs known e).2.sends.get? i = some v ∨
    ∃ results, v = .looping [] results ∧
      (s.step hs known e).2.sends.get? i = some (.healing results) := by
  have hhas : s.sends.has i = true := by simp [Dict.has, hi]
  cases e with
  | send j requests write =>
    simp only [Sends.step]
    split
    · exact .inl hi
    · rename_i hj
      have hij : i ≠ j := by rintro rfl; exact hj hhas
      split
      · exact .inl hi
      · simp only [Dict.get?_set]
        rw [if_neg (by tauto)]
        exact .inl hi
  | outcome j b r =>
    have hij : i ≠ j := by rintro rfl; exact he b r rfl
    left
    simp only [Sends.step]
    split
    · split
      · exact hi
      · split
        · simp only [Dict.get?_set]
          rw [if_neg (by tauto)]
          exact hi
        · split
          · simp only [Dict.get?_erase]
            rw [if_neg (by tauto)]
            exact hi
          · split
            · simp only [Dict.get?_erase]
              rw [if_neg (by tauto)]
              exact hi
            · simp only [Dict.get?_set]
              rw [if_neg (by tauto)]
              exact hi
    · exact hi
  | finish j =>
    by_cases hij : i = j
    · subst hij
      simp only [Sends.step, hi] at hr ⊢
      cases v with
      | healing res => exact .inl hi
      | looping left res =>
        cases left with
        | cons b left => exact .inl hi
        | nil =>
          simp only at hr ⊢
          cases hf : s.flag with
          | false => simp [hf] at hr
          | true => exact .inr ⟨res, rfl, by simp [Dict.get?_set]⟩
    · left
      simp only [Sends.step]
      split
      · split
        · simp only [Dict.get?_set]
          rw [if_neg (by tauto)]
          exact hi
        · simp only [Dict.get?_erase]
          rw [if_neg (by tauto)]
          exact hi
      · exact hi
  | healed j r =>
    by_cases hij : i = j
    · subst hij
      simp only [Sends.step, hi] at hr hx ⊢
      cases v with
      | looping left res => exact .inl hi
      | healing res => cases r <;> simp at hr hx
    · left
      simp only [Sends.step]
      split
      · split
        · simp only [Dict.get?_erase]
          rw [if_neg (by tauto)]
          exact hi
        · simp only [Dict.get?_erase]
          rw [if_neg (by tauto)]
          exact hi
      · exact hi
  | other f => exact .inl hi

/-- What a step returns for `i`. -/
theorem step_returned (hs : Handlers σ R ρ) (known : σ → Int → Bool) (s : Sends σ ρ) (e : SEv σ R)
    (i : Nat) (res : Dict Int ρ) (h : (s.step hs known e).1 = .returned i res) :
    s.sends.get? i = some (.looping [] res) ∨ s.sends.get? i = some (.healing res) := by
  cases e with
  | send j requests write =>
    simp only [Sends.step] at h
    split at h
    · simp at h
    · split at h <;> simp at h
  | outcome j b r =>
    simp only [Sends.step] at h
    split at h
    · split at h
      · simp at h
      · split at h
        · simp at h
        · split at h
          · simp at h
          · split at h <;> simp at h
    · simp at h
  | finish j =>
    simp only [Sends.step] at h
    split at h
    · rename_i res' hj
      split at h
      · simp at h
      · simp only [SOut.returned.injEq] at h
        obtain ⟨rfl, rfl⟩ := h
        exact .inl hj
    · simp at h
  | healed j r =>
    simp only [Sends.step] at h
    split at h
    · rename_i res' hj
      split at h
      · simp at h
      · simp only [SOut.returned.injEq] at h
        obtain ⟨rfl, rfl⟩ := h
        exact .inr hj
    · simp at h
  | other f => simp [Sends.step] at h

theorem overlap_results (hs : Handlers σ R ρ) (known : σ → Int → Bool) (i : Nat)
    (es : List (SEv σ R)) : ∀ (s : Sends σ ρ) (left : List Int) (results : Dict Int ρ)
    (pre post : List (SOut ρ)) (res : Dict Int ρ),
    (s.sends.get? i = some (.looping left results) ∨
      left = [] ∧ s.sends.get? i = some (.healing results)) →
    left.Nodup → (∀ b ∈ left, b ∉ results.keys) →
    (sendCourse hs known s es).1 = pre ++ .returned i res :: post →
    (∀ res', SOut.returned i res' ∉ pre) → (∀ e, SOut.raised i e ∉ pre) →
    ((cameTo i (es.take pre.length)).map (·.1)).Nodup →
    (∀ o ∈ cameTo i (es.take pre.length), o.1 ∈ left) →
    ((cameTo i (es.take pre.length)).map (·.1)).Perm left ∧ ∃ out, res = results ++ out ∧
    out.keys = ((cameTo i (es.take pre.length)).filter (·.2.isOk)).map (·.1) ∧
    ∀ b x, (b, x) ∈ out → ∃ r f c, (b, .ok r) ∈ cameTo i (es.take pre.length) ∧
      hs.handle r = some f ∧ (f c).1 = .ok x := by
  induction es with
  | nil => intro s left results pre post res _ _ _ h; simp [sendCourse] at h
  | cons e es ih =>
    intro s left results pre post res hp hl hd h hu1 hu2 hm1 hm2
    rw [sendCourse_cons] at h
    cases pre with
    | nil =>
      simp only [List.nil_append, List.cons.injEq] at h
      have hres : left = [] ∧ res = results := by
        rcases step_returned hs known s e i res h.1 with g | g <;> rcases hp with k | ⟨k0, k⟩ <;>
          rw [g] at k <;> simp_all
      obtain ⟨rfl, rfl⟩ := hres
      exact ⟨by simp [cameTo], [], by simp, by simp [cameTo, Dict.keys], by simp⟩
    | cons o pre =>
      simp only [List.cons_append, List.cons.injEq] at h
      obtain ⟨ho, h⟩ := h
      have hu1' : ∀ res', SOut.returned i res' ∉ pre := fun r hr => hu1 r (List.mem_cons_of_mem _ hr)
      have hu2' : ∀ e, SOut.raised i e ∉ pre := fun r hr => hu2 r (List.mem_cons_of_mem _ hr)
      have hr1 : ∀ res', (s.step hs known e).1 ≠ .returned i res' := by
        intro r hr; exact hu1 r (by rw [← ho, hr]; exact List.mem_cons_self)
      have hr2 : ∀ e', (s.step hs known e).1 ≠ .raised i e' := by
        intro r hr; exact hu2 r (by rw [← ho, hr]; exact List.mem_cons_self)
      by_cases he : ∃ b r, e = .outcome i b r
      · obtain ⟨b, r, rfl⟩ := he
        have hc : cameTo i ((SEv.outcome i b r :: es).take (o :: pre).length) =
            (b, r) :: cameTo i (es.take pre.length) := by
          simp [cameTo]
        rw [hc] at hm1 hm2 ⊢
        have hbl : b ∈ left := hm2 (b, r) List.mem_cons_self
        have hp' : s.sends.get? i = some (.looping left results) := by
          rcases hp with k | ⟨k, _⟩
          · exact k
          · rw [k] at hbl; cases hbl
        simp only [List.map_cons, List.nodup_cons] at hm1
        have hm2' : ∀ o ∈ cameTo i (es.take pre.length), o.1 ∈ left.erase b := by
          intro q hq
          rw [hl.mem_erase_iff]
          refine ⟨?_, hm2 q (List.mem_cons_of_mem _ hq)⟩
          rintro rfl
          exact hm1.1 (List.mem_map_of_mem hq)
        have hperm : ((cameTo i (es.take pre.length)).map (·.1)).Perm (left.erase b) →
            (((b, r) :: cameTo i (es.take pre.length)).map (·.1)).Perm left := by
          intro hp
          rw [List.map_cons]
          exact (hp.cons b).trans (List.perm_cons_erase hbl).symm
        cases r with
        | error e' =>
          have hs' : (s.step hs known (.outcome i b (.error e'))).2.sends.get? i =
              some (.looping (left.erase b) results) := by
            simp only [Sends.step, hp']
            rw [if_neg (by simpa using hbl)]
            simp [Dict.get?_set]
          obtain ⟨g1, out, g2, g3, g4⟩ := ih _ (left.erase b) results pre post res (.inl hs')
            (hl.erase b) (fun x hx => hd x (List.mem_of_mem_erase hx)) h hu1' hu2' hm1.2 hm2'
          refine ⟨hperm g1, out, g2, ?_, ?_⟩
          · rw [g3]; simp [Except.isOk, Except.toBool]
          · intro b' x hb
            obtain ⟨r, f, c, k1, k2, k3⟩ := g4 b' x hb
            exact ⟨r, f, c, List.mem_cons_of_mem _ k1, k2, k3⟩
        | ok r =>
          have key : ∃ f x, hs.handle r = some f ∧ (f s.client).1 = .ok x ∧
              (s.step hs known (.outcome i b (.ok r))).2.sends.get? i =
                some (.looping (left.erase b) (results.set b x)) := by
            simp only [Sends.step, hp'] at hr2 ⊢
            rw [if_neg (by simpa using hbl)] at hr2 ⊢
            cases hh : hs.handle r with
            | none => simp [hh] at hr2
            | some f =>
              rw [hh] at hr2
              simp only at hr2 ⊢
              cases hf : f s.client with
              | mk y z =>
                obtain ⟨c, ask⟩ := z
                rw [hf] at hr2
                cases y with
                | error e => simp at hr2
                | ok x => exact ⟨f, x, rfl, by rw [hf], by simp [Dict.get?_set]⟩
          obtain ⟨f, x, k1, k2, k3⟩ := key
          have hset : results.set b x = results ++ [(b, x)] := Dict.set_of_not_mem (hd b hbl)
          rw [hset] at k3
          obtain ⟨g1, out, g2, g3, g4⟩ := ih _ (left.erase b) (results ++ [(b, x)]) pre post res
            (.inl k3) (hl.erase b)
            (by
              intro y hy hk
              rw [hl.mem_erase_iff] at hy
              simp only [Dict.keys, List.map_append, List.map_cons, List.map_nil, List.mem_append,
                List.mem_singleton] at hk
              rcases hk with hk | hk
              · exact hd y hy.2 hk
              · exact hy.1 hk) h hu1' hu2' hm1.2 hm2'
          refine ⟨hperm g1, (b, x) :: out, by rw [g2]; simp, ?_, ?_⟩
          · simp only [Dict.keys, List.map_cons] at g3 ⊢
            rw [g3]
            simp [Except.isOk, Except.toBool]
          · intro b' x' hb
            rcases List.mem_cons.1 hb with hb | hb
            · simp only [Prod.mk.injEq] at hb
              obtain ⟨rfl, rfl⟩ := hb
              exact ⟨r, f, s.client, List.mem_cons_self, k1, k2⟩
            · obtain ⟨r, f, c, k1, k2, k3⟩ := g4 b' x' hb
              exact ⟨r, f, c, List.mem_cons_of_mem _ k1, k2, k3⟩
      · have he' : ∀ b r, e ≠ .outcome i b r := fun b r h => he ⟨b, r, h⟩
        have hc : cameTo i ((e :: es).take (o :: pre).length) = cameTo i (es.take pre.length) := by
          cases e with
          | outcome j b r =>
            have : j ≠ i := by rintro rfl; exact he' b r rfl
            simp [cameTo, this]
          | _ => simp [cameTo]
        rw [hc] at hm1 hm2 ⊢
        refine ih _ left results pre post res ?_ hl hd h hu1' hu2' hm1 hm2
        rcases hp with k | ⟨rfl, k⟩
        · rcases step_frame hs known s e i _ k he' hr1 hr2 with g | ⟨res', g1, g2⟩
          · exact .inl g
          · simp only [Sending.looping.injEq] at g1
            obtain ⟨rfl, rfl⟩ := g1
            exact .inr ⟨rfl, g2⟩
        · rcases step_frame hs known s e i _ k he' hr1 hr2 with g | ⟨res', g1, g2⟩
          · exact .inr ⟨rfl, g⟩
          · cases g1

/-- **C25**, with other `send`s and anything else going on meanwhile: when a `send` returns, each of
its requests has been settled, and its dictionary has exactly one entry for each broker that
answered, in that order, holding what the handler returned for that broker's response.
(`hm`: requests are settled once; `hu`: until then nothing else has the same number.) -/
theorem C25_overlap (hs : Handlers σ R ρ) (known : σ → Int → Bool) (s : Sends σ ρ) (i : Nat)
    (requests : List Int) (write : Int → Option Exc) (hi : s.sends.has i = false)
    (hr : requests.Nodup) (hb : (s.step hs known (.send i requests write)).1 = .nothing)
    (es : List (SEv σ R)) (pre post : List (SOut ρ)) (res : Dict Int ρ)
    (h : (sendCourse hs known (s.step hs known (.send i requests write)).2 es).1 =
      pre ++ .returned i res :: post)
    (hu : (∀ res', SOut.returned i res' ∉ pre) ∧ ∀ e, SOut.raised i e ∉ pre)
    (hm : ((cameTo i (es.take pre.length)).map (·.1)).Nodup ∧
      ∀ o ∈ cameTo i (es.take pre.length), o.1 ∈ requests) :
    ((cameTo i (es.take pre.length)).map (·.1)).Perm requests ∧
    res.keys = ((cameTo i (es.take pre.length)).filter (·.2.isOk)).map (·.1) ∧
    ∀ b x, (b, x) ∈ res → ∃ r f c, (b, .ok r) ∈ cameTo i (es.take pre.length) ∧
      hs.handle r = some f ∧ (f c).1 = .ok x := by
  have h0 : (s.step hs known (.send i requests write)).2.sends.get? i =
      some (.looping requests []) := by
    simp only [Sends.step, hi] at hb ⊢
    cases hs0 : sendStart (known s.client) write requests with
    | some e => simp [hs0] at hb
    | none => simp [Dict.get?_set]
  obtain ⟨g1, out, g2, g3, g4⟩ := overlap_results hs known i es _ requests [] pre post res (.inl h0)
    hr (by simp [Dict.keys]) h hu.1 hu.2 hm.1 hm.2
  rw [List.nil_append] at g2
  subst g2
  exact ⟨g1, g3, g4⟩

-- Non-vacuity: `send` 2 begins while two others are under way.
example :
    let known := fun (c : Single) b => c.cluster.conns.has b
    exSends.sends.has 2 = false ∧ [(7 : Int)].Nodup ∧
    (exSends.step (fetchHandlers exCCfg) known (.send 2 [7] fun _ => .none)).1 = .nothing ∧
    (sendCourse (fetchHandlers exCCfg) known
      (exSends.step (fetchHandlers exCCfg) known (.send 2 [7] fun _ => .none)).2
      [.outcome 0 7 (.ok (exFetched "t" [(0, 5)])), .finish 0,
       .outcome 2 7 (.ok (exFetched "t" [(1, 6)])), .finish 2]).1 =
      [.nothing, .returned 0 [(7, [5])], .nothing, .returned 2 [(7, [6])]] := by
  decide +kernel

theorem sendCourse_append (hs : Handlers σ R ρ) (known : σ → Int → Bool) (es es' : List (SEv σ R)) :
    ∀ (s : Sends σ ρ), sendCourse hs known s (es ++ es') =
      ((sendCourse hs known s es).1 ++ (sendCourse hs known (sendCourse hs known s es).2 es').1,
        (sendCourse hs known (sendCourse hs known s es).2 es').2) := by
  induction es with
  | nil => intro s; rfl
  | cons e es ih =>
    intro s
    rw [List.cons_append, sendCourse, ih]
    rfl

/-- With no `send` under way, nothing comes of outcomes. -/
theorem sendCourse_idle (hs : Handlers σ R ρ) (known : σ → Int → Bool) (outs : List (Int × Res R))
    (s : σ) (heal : Bool) :
    (sendCourse hs known (⟨s, heal, []⟩ : Sends σ ρ) (outs.map fun o => .outcome 0 o.1 o.2)).2 =
      ⟨s, heal, []⟩ := by
  induction outs with
  | nil => rfl
  | cons o outs ih => exact ih

/-- The loop of `send`, when nothing else happens. -/
theorem sendCourse_loop (hs : Handlers σ R ρ) (known : σ → Int → Bool) (outs : List (Int × Res R)) :
    ∀ (left : List Int) (results : Dict Int ρ) (s : σ) (heal : Bool),
    (outs.map (·.1)).Perm left →
    match sendLoop hs outs results s heal with
    | (.ok res, s', heal') =>
      (sendCourse hs known ⟨s, heal, [(0, .looping left results)]⟩
        (outs.map fun o => .outcome 0 o.1 o.2)).2 = ⟨s', heal', [(0, .looping [] res)]⟩
    | (.error e, s', heal') =>
      SOut.raised 0 e ∈ (sendCourse hs known ⟨s, heal, [(0, .looping left results)]⟩
        (outs.map fun o => .outcome 0 o.1 o.2)).1 ∧
      (sendCourse hs known ⟨s, heal, [(0, .looping left results)]⟩
        (outs.map fun o => .outcome 0 o.1 o.2)).2 = ⟨s', heal', []⟩ := by
  induction outs with
  | nil =>
    intro left results s heal hp
    have : left = [] := by simpa using hp.symm
    subst this
    rfl
  | cons o outs ih =>
    intro left results s heal hp
    obtain ⟨b, r⟩ := o
    have hb : b ∈ left := hp.subset (by simp)
    have hp' : (outs.map (·.1)).Perm (left.erase b) := by
      have := hp.erase b
      simpa using this
    have hstep : ∀ (v : SOut ρ × Sends σ ρ),
        (⟨s, heal, [(0, .looping left results)]⟩ : Sends σ ρ).step hs known (.outcome 0 b r) = v →
        sendCourse hs known (⟨s, heal, [(0, .looping left results)]⟩ : Sends σ ρ)
          (((b, r) :: outs).map fun o => .outcome 0 o.1 o.2) =
        (v.1 :: (sendCourse hs known v.2 (outs.map fun o => .outcome 0 o.1 o.2)).1,
          (sendCourse hs known v.2 (outs.map fun o => .outcome 0 o.1 o.2)).2) := by
      rintro v rfl; rfl
    have hget : Dict.get? ([(0, .looping left results)] : Dict Nat (Sending ρ)) 0 =
        some (.looping left results) := rfl
    cases r with
    | error e =>
      have := hstep (.nothing, ⟨s, if e = .streamClosed then heal else true,
        [(0, .looping (left.erase b) results)]⟩) (by
          simp only [Sends.step, hget]
          rw [if_neg (by simpa using hb)]
          rfl)
      rw [this]
      have := ih (left.erase b) results s (if e = .streamClosed then heal else true) hp'
      rw [sendLoop]
      split at this
      · exact this
      · exact ⟨List.mem_cons_of_mem _ this.1, this.2⟩
    | ok r =>
      rw [sendLoop]
      cases hh : hs.handle r with
      | none =>
        have := hstep (.raised 0 (.unhandledResponse (hs.api r)), ⟨s, heal, []⟩) (by
          simp only [Sends.step, hget]
          rw [if_neg (by simpa using hb)]
          simp only [hh]
          rfl)
        rw [this]
        exact ⟨List.mem_cons_self, sendCourse_idle hs known _ _ _⟩
      | some f =>
        simp only
        cases hf : f s with
        | mk x y =>
          obtain ⟨s1, ask⟩ := y
          cases x with
          | error e =>
            have := hstep (.raised 0 e, ⟨s1, heal || ask, []⟩) (by
              simp only [Sends.step, hget]
              rw [if_neg (by simpa using hb)]
              simp only [hh, hf]
              rfl)
            rw [this]
            exact ⟨List.mem_cons_self, sendCourse_idle hs known _ _ _⟩
          | ok x =>
            have := hstep (.nothing, ⟨s1, heal || ask,
              [(0, .looping (left.erase b) (results.set b x))]⟩) (by
                simp only [Sends.step, hget]
                rw [if_neg (by simpa using hb)]
                simp only [hh, hf]
                rfl)
            rw [this]
            have := ih (left.erase b) (results.set b x) s1 (heal || ask) hp'
            simp only
            split at this
            · exact this
            · exact ⟨List.mem_cons_of_mem _ this.1, this.2⟩

/-- The two models of `send` agree: with nothing else going on, the steps of a `send` come to what
`clientSend` says: it raises, or returns, or heals before it does. -/
theorem sends_alone (hs : Handlers σ R ρ) (known : σ → Int → Bool) (write : Int → Option Exc)
    (healC : σ → Res Unit × σ) (requests : List Int) (outs : List (Int × Res R))
    (hp : (outs.map (·.1)).Perm requests) (s : σ) (heal : Bool) :
    let es : List (SEv σ R) := .send 0 requests write ::
      ((outs.map fun o => .outcome 0 o.1 o.2) ++ [.finish 0])
    match clientSend hs (known s) write healC requests outs s heal with
    | (.ok res, s', flag, false) => SOut.returned 0 res ∈ (sendCourse hs known ⟨s, heal, []⟩ es).1 ∧
        (sendCourse hs known ⟨s, heal, []⟩ es).2 = ⟨s', flag, []⟩
    | (.error e, s', flag, false) => SOut.raised 0 e ∈ (sendCourse hs known ⟨s, heal, []⟩ es).1 ∧
        (sendCourse hs known ⟨s, heal, []⟩ es).2 = ⟨s', flag, []⟩
    | (r, s', flag, true) => SOut.healBegins 0 ∈ (sendCourse hs known ⟨s, heal, []⟩ es).1 ∧
        ∃ s1 res, (sendCourse hs known ⟨s, heal, []⟩ es).2 = ⟨s1, true, [(0, .healing res)]⟩ ∧
        (healC s1).2 = s' ∧
        (Sends.step hs known ⟨s', true, [(0, .healing res)]⟩ (.healed 0 (healC s1).1)) =
          (match r with | .ok res => .returned 0 res | .error e => .raised 0 e, ⟨s', flag, []⟩) := by
  intro es
  unfold clientSend
  cases h0 : sendStart (known s) write requests with
  | some e =>
    have hst : Sends.step hs known (⟨s, heal, []⟩ : Sends σ ρ) (.send 0 requests write) =
        (.raised 0 e, ⟨s, heal, []⟩) := by
      simp [Sends.step, h0, Dict.has, Dict.get?]
    simp only [es, sendCourse, hst, sendCourse_append, sendCourse_idle]
    exact ⟨List.mem_cons_self, rfl⟩
  | none =>
    have hst : Sends.step hs known (⟨s, heal, []⟩ : Sends σ ρ) (.send 0 requests write) =
        (.nothing, ⟨s, heal, [(0, .looping requests [])]⟩) := by
      simp only [Sends.step, h0]
      rfl
    have hl := sendCourse_loop hs known outs requests [] s heal hp
    simp only [es, sendCourse, hst, sendCourse_append]
    cases h1 : sendLoop hs outs [] s heal with
    | mk x y =>
      obtain ⟨s1, f⟩ := y
      rw [h1] at hl
      cases x with
      | error e =>
        simp only at hl ⊢
        rw [hl.2]
        exact ⟨by simp [hl.1], rfl⟩
      | ok res =>
        simp only at hl ⊢
        rw [hl]
        cases f with
        | false => exact ⟨by simp [Sends.step, Dict.get?], rfl⟩
        | true =>
          simp only
          cases h2 : healC s1 with
          | mk z s2 =>
            cases z with
            | error e =>
              refine ⟨by simp [Sends.step, Dict.get?], s1, res, rfl, by rw [h2], ?_⟩
              rw [h2]; rfl
            | ok z =>
              refine ⟨by simp [Sends.step, Dict.get?], s1, res, rfl, by rw [h2], ?_⟩
              rw [h2]; rfl

end Kiel
