import Verif.Props.Endings
/-
C134: what brokers that do not answer hold up.
-/
set_option autoImplicit false
namespace Kiel
open Spec

variable {σ R ρ β δ : Type}

/-! ### `send` -/

/-- **C134** fails for every kind of request: a `send` one of whose requests is not answered (nor
its connection lost) does not return, nor heal, whatever else happens; others' answers that its
handlers choke on may make it raise. -/
theorem C134_send (hs : Handlers σ R ρ) (known : σ → Int → Bool) (i : Nat) (b : Int)
    (es : List (SEv σ R)) (s : Sends σ ρ) (left : List Int) (results : Dict Int ρ)
    (hi : s.sends.get? i = some (.looping left results)) (hb : b ∈ left)
    (hsil : ∀ e ∈ es, (∀ r, e ≠ .outcome i b r) ∧ ∀ q w, e ≠ .send i q w) :
    ∀ o ∈ (sendCourse hs known s es).1, (∀ x, o ≠ .returned i x) ∧ o ≠ .healBegins i := by
  have key : ∀ (es : List (SEv σ R)) (s : Sends σ ρ),
      (∀ e ∈ es, (∀ r, e ≠ .outcome i b r) ∧ ∀ q w, e ≠ .send i q w) →
      (s.sends.get? i = .none ∨
        ∃ left results, s.sends.get? i = some (.looping left results) ∧ b ∈ left) →
      ∀ o ∈ (sendCourse hs known s es).1, (∀ x, o ≠ .returned i x) ∧ o ≠ .healBegins i := by
    intro es
    induction es with
    | nil => intro s _ _ o ho; cases ho
    | cons e es ih =>
      intro s hsil hinv o ho
      obtain ⟨he1, he2⟩ := hsil e (List.mem_cons_self ..)
      have hrest := fun x hx => hsil x (List.mem_cons_of_mem _ hx)
      have step : ((∀ x, (s.step hs known e).1 ≠ .returned i x) ∧
          (s.step hs known e).1 ≠ .healBegins i) ∧
          ((s.step hs known e).2.sends.get? i = .none ∨
            ∃ left results, (s.step hs known e).2.sends.get? i = some (.looping left results) ∧
              b ∈ left) := by
        generalize hx : s.step hs known e = x
        cases e with
        | send k q w =>
          have hk : k ≠ i := fun h => he2 q w (by rw [h])
          simp only [Sends.step] at hx
          split at hx
          · subst hx; exact ⟨by simp, hinv⟩
          · split at hx <;> subst hx
            · exact ⟨by simp, hinv⟩
            · exact ⟨by simp, by simpa [Dict.get?_set, hk] using hinv⟩
        | outcome k b' r =>
          simp only [Sends.step] at hx
          split at hx
          · rename_i left results hg
            split at hx
            · subst hx; exact ⟨by simp, hinv⟩
            · by_cases hk : k = i
              · subst hk
                have hne : b' ≠ b := fun h => he1 r (by rw [h])
                have hbl : b ∈ left.erase b' := by
                  rcases hinv with h | ⟨l, y, h, hb⟩
                  · rw [hg] at h; cases h
                  · rw [hg] at h
                    cases h
                    exact (List.mem_erase_of_ne hne.symm).2 hb
                split at hx
                · subst hx
                  exact ⟨by simp, .inr ⟨_, _, by simp only [Dict.get?_set, if_true]; rfl, hbl⟩⟩
                · split at hx
                  · subst hx
                    exact ⟨by simp, .inl (by simp [Dict.get?_erase])⟩
                  · split at hx <;> subst hx
                    · exact ⟨by simp, .inl (by simp [Dict.get?_erase])⟩
                    · exact ⟨by simp, .inr ⟨_, _, by simp only [Dict.get?_set, if_true]; rfl, hbl⟩⟩
              · split at hx
                · subst hx
                  exact ⟨by simp, by simpa [Dict.get?_set, hk] using hinv⟩
                · split at hx
                  · subst hx
                    exact ⟨by simp, by simpa [Dict.get?_erase, hk] using hinv⟩
                  · split at hx <;> subst hx
                    · exact ⟨by simp, by simpa [Dict.get?_erase, hk] using hinv⟩
                    · exact ⟨by simp, by simpa [Dict.get?_set, hk] using hinv⟩
          · subst hx; exact ⟨by simp, hinv⟩
        | finish k =>
          simp only [Sends.step] at hx
          split at hx
          · rename_i results hg
            have hk : k ≠ i := by
              rintro rfl
              rcases hinv with h | ⟨l, y, h, hb⟩
              · rw [hg] at h; cases h
              · rw [hg] at h; cases h; cases hb
            split at hx <;> subst hx
            · exact ⟨by simpa using hk, by simpa [Dict.get?_set, hk] using hinv⟩
            · exact ⟨by simp [hk], by simpa [Dict.get?_erase, hk] using hinv⟩
          · subst hx; exact ⟨by simp, hinv⟩
        | healed k r =>
          simp only [Sends.step] at hx
          split at hx
          · rename_i results hg
            have hk : k ≠ i := by
              rintro rfl
              rcases hinv with h | ⟨l, y, h, hb⟩
              · rw [hg] at h; cases h
              · rw [hg] at h; cases h
            split at hx <;> subst hx
            · exact ⟨by simp, by simpa [Dict.get?_erase, hk] using hinv⟩
            · exact ⟨by simp [hk], by simpa [Dict.get?_erase, hk] using hinv⟩
          · subst hx; exact ⟨by simp, hinv⟩
        | other f => subst hx; exact ⟨by simp [Sends.step], hinv⟩
      simp only [sendCourse] at ho
      rcases List.mem_cons.1 ho with rfl | ho
      · exact step.1
      · exact ih _ hrest step.2 o ho
  exact key es s hsil (.inr ⟨left, results, hi, hb⟩)

/-- **C134** (partial): a `send` that asks broker `b` nothing ends when its own requests have come
to something, though `b` never answers anybody.  Missing: `send`s that ask it something, together
with other brokers. -/
theorem C134_others_partial (hs : Handlers σ R ρ) (known : σ → Int → Bool) (r : Int → Res R)
    (h : Res Unit) (b : Int) (s : Sends σ ρ) (i : Nat) (left : List Int) (results : Dict Int ρ)
    (hi : s.sends.get? i = some (.looping left results)) (hb : b ∉ left) :
    ∃ es : List (SEv σ R), (∀ e ∈ es, OwnSend r h i e ∧ ∀ k x, e ≠ .outcome k b x) ∧
      1 ≤ (watchSends hs known).ended i ((watchSends hs known).watch s es).1 := by
  have one : ∀ (s : Sends σ ρ) (e : SEv σ R), (OwnSend r h i e ∧ ∀ k x, e ≠ .outcome k b x) →
      ((watchSends hs known).ends e (s.step hs known e).1 = some i ∨
        ∃ es : List (SEv σ R), (∀ e ∈ es, OwnSend r h i e ∧ ∀ k x, e ≠ .outcome k b x) ∧
          1 ≤ (watchSends hs known).ended i
            ((watchSends hs known).watch (s.step hs known e).2 es).1) →
      ∃ es : List (SEv σ R), (∀ e ∈ es, OwnSend r h i e ∧ ∀ k x, e ≠ .outcome k b x) ∧
        1 ≤ (watchSends hs known).ended i ((watchSends hs known).watch s es).1 := by
    rintro s e ho (h | ⟨es, h1, h2⟩)
    · exact ⟨[e], by simpa using ho, by
        show 1 ≤ List.countP _ [(e, (s.step hs known e).1)]
        simp [h]⟩
    · refine ⟨e :: es, ?_, ?_⟩
      · intro e' he'
        rcases List.mem_cons.1 he' with rfl | he'
        · exact ho
        · exact h1 e' he'
      · simp only [Watched.ended, Watched.watch, List.countP_cons] at h2 ⊢
        exact Nat.le_trans h2 (Nat.le_add_right ..)
  induction left generalizing s results with
  | nil =>
    refine one s (.finish i) ⟨.inr (.inl rfl), by simp⟩ ?_
    by_cases hf : s.flag = true
    · right
      refine one _ (.healed i h) ⟨.inr (.inr rfl), by simp⟩ (.inl ?_)
      cases h <;> simp [watchSends, Sends.step, hi, hf, Dict.get?_set]
    · left
      simp [watchSends, Sends.step, hi, hf]
  | cons a left ih =>
    have hab : a ≠ b := fun e => hb (by simp [e])
    have hb' : b ∉ left := fun e => hb (by simp [e])
    refine one s (.outcome i a (r a)) ⟨.inl ⟨a, rfl⟩, by
      rintro k x hx
      cases hx
      exact hab rfl⟩ ?_
    generalize hx : s.step hs known (.outcome i a (r a)) = x
    simp only [Sends.step, hi, List.mem_cons, true_or, not_true_eq_false, if_false,
      List.erase_cons_head] at hx
    split at hx
    · subst hx
      exact .inr (ih _ results (by simp [Dict.get?_set]) hb')
    · split at hx
      · subst hx; exact .inl rfl
      · split at hx <;> subst hx
        · exact .inl rfl
        · exact .inr (ih _ _ (by simp only [Dict.get?_set, if_true]; rfl) hb')

/-! ### `consume` -/

/-- Nothing changes about call `i`. -/
def SameFor (i : Nat) (s s' : SingleBusy δ) : Prop :=
  s'.starting.get? i = s.starting.get? i ∧ s'.base.waiting.get? i = s.base.waiting.get? i

theorem fetch_sameFor (cfg : CCfg β δ) {i j : Nat} (hj : j ≠ i) (topic : String) (parts : List Int)
    (s : SingleBusy δ) : SameFor i s (s.fetch cfg j topic parts).2 := by
  unfold SingleBusy.fetch
  split
  · exact ⟨by simp [Dict.get?_erase, hj], rfl⟩
  · split
    · exact ⟨by simp [Dict.get?_erase, hj], rfl⟩
    · exact ⟨by simp [Dict.get?_erase, hj], by simp [Dict.get?_set, hj]⟩

theorem proceed_sameFor (cfg : CCfg β δ) {i j : Nat} (hj : j ≠ i) (topic : String)
    (s : SingleBusy δ) : SameFor i s (s.proceed cfg j topic).2 := by
  unfold SingleBusy.proceed
  split
  · exact fetch_sameFor cfg hj topic _ s
  · exact ⟨by simp [Dict.get?_set, hj], rfl⟩

theorem determine_sameFor (cfg : CCfg β δ) {i j : Nat} (hj : j ≠ i) (topic : String) (start : Start)
    (now : Int) (s : SingleBusy δ) : SameFor i s (s.determine cfg j topic start now).2 := by
  unfold SingleBusy.determine
  simp only
  split
  · exact ⟨rfl, rfl⟩
  · split
    · exact ⟨rfl, rfl⟩
    · exact ⟨by simp [Dict.get?_set, hj], rfl⟩

/-- Call `i` is over, or waits for an answer of broker `b`. -/
def HeldUp (i : Nat) (b : Int) (s : SingleBusy δ) : Prop :=
  s.starting.get? i = .none ∧ (s.base.waiting.get? i = .none ∨
    ∃ w, s.base.waiting.get? i = some w ∧ ∃ q ∈ w.pending, q.broker = b) ∨
  s.base.waiting.get? i = .none ∧ ∃ topic pending,
    s.starting.get? i = some (.determining topic pending) ∧ ∃ q ∈ pending, q.broker = b

theorem HeldUp.same {i : Nat} {b : Int} {s s' : SingleBusy δ} (h : HeldUp i b s)
    (hs : SameFor i s s') : HeldUp i b s' := by
  unfold HeldUp
  rw [hs.1, hs.2]
  exact h

/-- Nothing is sent, and no message is returned. -/
def Spec.NoMessages : FirstOut δ → Prop
  | .nothing => True
  | .raised _ => True
  | .returned _ out => out = some []
  | _ => False

theorem determineEnd_noMessages (topic : String) (e : Exc) :
    NoMessages (determineEnd topic e : FirstOut δ) := by
  cases e <;> first | rfl | trivial

/-- The broker's answer to call `i`. -/
def Spec.AnswersTo (i : Nat) (b : Int) : FirstEv β → Prop
  | .offsets j b' _ => j = i ∧ b' = b
  | .base (.outcome j b' _) => j = i ∧ b' = b
  | _ => False

theorem step_heldUp (cfg : CCfg β δ) (i : Nat) (b : Int) (s : SingleBusy δ) (e : FirstEv β)
    (h : HeldUp i b s) (hcall : ∀ t st now, e ≠ .call i t st now) (hans : ¬ AnswersTo i b e) :
    HeldUp i b (s.step cfg e).2 ∧ (whose e = some i → NoMessages (s.step cfg e).1) := by
  cases e with
  | call j t st now =>
    have hj : j ≠ i := fun hj => hcall t st now (by rw [hj])
    refine ⟨h.same ?_, fun hw => absurd (Option.some.inj hw) hj⟩
    simp only [SingleBusy.step]
    split
    · exact ⟨rfl, rfl⟩
    · split
      · exact proceed_sameFor cfg hj t s
      · exact determine_sameFor cfg hj t st now s
  | offsets j b' r =>
    by_cases hj : j = i
    · subst hj
      have hb : b' ≠ b := fun hb => hans ⟨rfl, hb⟩
      generalize hx : s.step cfg (.offsets j b' r) = x
      simp only [SingleBusy.step] at hx
      split at hx
      · rename_i topic pending hg
        have hC : s.base.waiting.get? j = .none ∧ ∃ q ∈ pending, q.broker = b := by
          rcases h with ⟨h, _⟩ | ⟨h1, t, p, h2, h3⟩
          · rw [hg] at h; cases h
          · rw [hg] at h2; cases h2; exact ⟨h1, h3⟩
        obtain ⟨hw, q, hq, hqb⟩ := hC
        have hleft : ∃ q ∈ pending.filter (fun q => decide (q.broker ≠ b')), q.broker = b :=
          ⟨q, List.mem_filter.2 ⟨hq, by simp [hqb, hb.symm]⟩, hqb⟩
        split at hx
        · subst hx; exact ⟨h, fun _ => trivial⟩
        · split at hx
          · subst hx
            refine ⟨.inr ⟨hw, _, _, by simp only [Dict.get?_set, if_true]; rfl, hleft⟩, fun _ => trivial⟩
          · split at hx <;> subst hx
            · exact ⟨.inr ⟨hw, _, _, by simp only [Dict.get?_set, if_true]; rfl, hleft⟩, fun _ => trivial⟩
            · exact ⟨.inl ⟨by simp [Dict.get?_erase], .inl hw⟩, fun _ => determineEnd_noMessages ..⟩
      · subst hx; exact ⟨h, fun _ => trivial⟩
    · refine ⟨h.same ?_, fun hw => absurd (Option.some.inj hw) hj⟩
      simp only [SingleBusy.step]
      split
      · split
        · exact ⟨rfl, rfl⟩
        · split
          · exact ⟨by simp [Dict.get?_set, hj], rfl⟩
          · split
            · exact ⟨by simp [Dict.get?_set, hj], rfl⟩
            · exact ⟨by simp [Dict.get?_erase, hj], rfl⟩
      · exact ⟨rfl, rfl⟩
  | determined j =>
    by_cases hj : j = i
    · subst hj
      simp only [SingleBusy.step]
      split
      · rename_i topic hg
        rcases h with ⟨h, _⟩ | ⟨h1, t, p, h2, q, hq, _⟩
        · rw [hg] at h; cases h
        · rw [hg] at h2; cases h2; cases hq
      · exact ⟨h, fun _ => trivial⟩
    · refine ⟨h.same ?_, fun hw => absurd (Option.some.inj hw) hj⟩
      simp only [SingleBusy.step]
      split
      · obtain ⟨h1, h2⟩ := proceed_sameFor cfg hj ‹_› { s with base := { s.base with
          consumer := ({ s.base.consumer with heal := false
                                              synced := addSet s.base.consumer.synced ‹_› } : Single) } }
        exact ⟨h1, h2⟩
      · exact ⟨rfl, rfl⟩
  | healed j =>
    by_cases hj : j = i
    · subst hj
      simp only [SingleBusy.step]
      split
      · rename_i topic hg
        rcases h with ⟨h, _⟩ | ⟨h1, t, p, h2, q, hq, _⟩
        · rw [hg] at h; cases h
        · rw [hg] at h2; cases h2
      · exact ⟨h, fun _ => trivial⟩
    · refine ⟨h.same ?_, fun hw => absurd (Option.some.inj hw) hj⟩
      simp only [SingleBusy.step]
      split
      · split
        · exact fetch_sameFor cfg hj _ _ s
        · exact ⟨by simp [Dict.get?_erase, hj], rfl⟩
      · exact ⟨rfl, rfl⟩
  | healFails j e =>
    by_cases hj : j = i
    · subst hj
      simp only [SingleBusy.step]
      split
      · rename_i topic pending hg
        have hw : s.base.waiting.get? j = .none := by
          rcases h with ⟨h, _⟩ | ⟨h1, _⟩
          · rw [hg] at h; cases h
          · exact h1
        exact ⟨.inl ⟨by simp [Dict.get?_erase], .inl hw⟩, fun _ => determineEnd_noMessages ..⟩
      · rename_i hg
        rcases h with ⟨h, _⟩ | ⟨h1, t, p, h2, q, hq, _⟩
        · rw [hg] at h; cases h
        · rw [hg] at h2; cases h2
      · exact ⟨h, fun _ => trivial⟩
    · refine ⟨h.same ?_, fun hw => absurd (Option.some.inj hw) hj⟩
      simp only [SingleBusy.step]
      split
      · exact ⟨by simp [Dict.get?_erase, hj], rfl⟩
      · exact ⟨by simp [Dict.get?_erase, hj], rfl⟩
      · exact ⟨rfl, rfl⟩
  | base ev =>
    cases ev with
    | consume j t => exact ⟨h, fun hw => by cases hw⟩
    | outcome j b' r =>
      by_cases hj : j = i
      · subst hj
        have hb : b' ≠ b := fun hb => hans ⟨rfl, hb⟩
        generalize hx : s.step cfg (.base (.outcome j b' r)) = x
        simp only [SingleBusy.step, Busy.step] at hx
        split at hx
        · subst hx; exact ⟨h, fun _ => trivial⟩
        · rename_i w hg
          have hB : s.starting.get? j = .none ∧ ∃ q ∈ w.pending, q.broker = b := by
            rcases h with ⟨h, h' | ⟨w', h', h''⟩⟩ | ⟨h1, _⟩
            · rw [hg] at h'; cases h'
            · rw [hg] at h'; cases h'; exact ⟨h, h''⟩
            · rw [hg] at h1; cases h1
          obtain ⟨hst, q, hq, hqb⟩ := hB
          have hleft : ∃ q ∈ w.pending.filter (fun q => decide (q.broker ≠ b')), q.broker = b :=
            ⟨q, List.mem_filter.2 ⟨hq, by simp [hqb, hb.symm]⟩, hqb⟩
          split at hx
          · subst hx; exact ⟨h, fun _ => trivial⟩
          · split at hx
            · subst hx
              exact ⟨.inl ⟨hst, .inr ⟨_, by simp only [Dict.get?_set, if_true]; rfl, hleft⟩⟩,
                fun _ => trivial⟩
            · split at hx <;> subst hx
              · exact ⟨.inl ⟨hst, .inl (by simp [Dict.get?_erase])⟩, fun _ => trivial⟩
              · exact ⟨.inl ⟨hst, .inr ⟨_, by simp only [Dict.get?_set, if_true]; rfl, hleft⟩⟩,
                  fun _ => trivial⟩
      · refine ⟨h.same ?_, fun hw => absurd (Option.some.inj hw) hj⟩
        simp only [SingleBusy.step, Busy.step]
        split
        · exact ⟨rfl, rfl⟩
        · split
          · exact ⟨rfl, rfl⟩
          · split
            · exact ⟨rfl, by simp [Dict.get?_set, hj]⟩
            · split
              · exact ⟨rfl, by simp [Dict.get?_erase, hj]⟩
              · exact ⟨rfl, by simp [Dict.get?_set, hj]⟩
    | finish j =>
      by_cases hj : j = i
      · subst hj
        simp only [SingleBusy.step, Busy.step]
        split
        · exact ⟨h, fun _ => trivial⟩
        · rename_i w hg
          split
          · exact ⟨h, fun _ => trivial⟩
          · rename_i hp
            rcases h with ⟨h, h' | ⟨w', h', q, hq, _⟩⟩ | ⟨h1, _⟩
            · rw [hg] at h'; cases h'
            · rw [hg] at h'
              cases h'
              rw [Decidable.not_not.1 hp] at hq
              cases hq
            · rw [hg] at h1; cases h1
      · refine ⟨h.same ?_, fun hw => absurd (Option.some.inj hw) hj⟩
        simp only [SingleBusy.step, Busy.step]
        split
        · exact ⟨rfl, rfl⟩
        · split
          · exact ⟨rfl, rfl⟩
          · exact ⟨rfl, by simp [Dict.get?_erase, hj]⟩
    | healFails j e =>
      by_cases hj : j = i
      · subst hj
        simp only [SingleBusy.step, Busy.step]
        split
        · exact ⟨h, fun _ => trivial⟩
        · rename_i w hg
          have hst : s.starting.get? j = .none := by
            rcases h with ⟨h, _⟩ | ⟨h1, _⟩
            · exact h
            · rw [hg] at h1; cases h1
          exact ⟨.inl ⟨hst, .inl (by simp [Dict.get?_erase])⟩, fun _ => trivial⟩
      · refine ⟨h.same ?_, fun hw => absurd (Option.some.inj hw) hj⟩
        simp only [SingleBusy.step, Busy.step]
        split
        · exact ⟨rfl, rfl⟩
        · exact ⟨rfl, by simp [Dict.get?_erase, hj]⟩
    | other f => exact ⟨h, fun hw => by cases hw⟩

theorem watch_heldUp (cfg : CCfg β δ) (i : Nat) (b : Int) (es : List (FirstEv β))
    (s : SingleBusy δ) (h : HeldUp i b s)
    (hes : ∀ e ∈ es, (∀ t st now, e ≠ .call i t st now) ∧ ¬ AnswersTo i b e) :
    ∀ x ∈ ((watchSingle cfg).watch s es).1, whose x.1 = some i → NoMessages x.2 := by
  induction es generalizing s with
  | nil => intro x hx; cases hx
  | cons e es ih =>
    obtain ⟨h1, h2⟩ := step_heldUp cfg i b s e h (hes e (List.mem_cons_self ..)).1
      (hes e (List.mem_cons_self ..)).2
    intro x hx
    rcases List.mem_cons.1 hx with rfl | hx
    · exact h2
    · exact ih _ h1 (fun e he => hes e (List.mem_cons_of_mem _ he)) x hx

theorem fetch_sent (cfg : CCfg β δ) {i : Nat} {topic : String} {parts : List Int}
    {s : SingleBusy δ} {reqs : List FReq} (h : (s.fetch cfg i topic parts).1 = .sent reqs) (b : Int)
    (hb : ∃ q ∈ reqs, q.broker = b) : HeldUp i b (s.fetch cfg i topic parts).2 := by
  unfold SingleBusy.fetch at h ⊢
  split at h
  · cases h
  · rename_i hf
    simp only
    split at h
    · cases h
    · rename_i hst
      cases h
      simp only
      exact .inl ⟨by simp [Dict.get?_erase], .inr ⟨_, by simp only [Dict.get?_set, if_true]; rfl, hb⟩⟩

theorem proceed_sent (cfg : CCfg β δ) {i : Nat} {topic : String}
    {s : SingleBusy δ} {reqs : List FReq} (h : (s.proceed cfg i topic).1 = .sent reqs) (b : Int)
    (hb : ∃ q ∈ reqs, q.broker = b) : HeldUp i b (s.proceed cfg i topic).2 := by
  unfold SingleBusy.proceed at h ⊢
  split at h
  · rename_i hp
    exact fetch_sent cfg h b hb
  · cases h

/-- **C134** fails for `consume`: once call `i` has asked broker `b`, among others, for messages, it
returns none unless `b` answers, or is lost. -/
theorem C134_consume (cfg : CCfg β δ) (i : Nat) (b : Int) (s : SingleBusy δ) (e : FirstEv β)
    (reqs : List FReq) (he : whose e = some i) (hs : (s.step cfg e).1 = .sent reqs)
    (hb : ∃ q ∈ reqs, q.broker = b) (es : List (FirstEv β))
    (hes : ∀ e ∈ es, (∀ t st now, e ≠ .call i t st now) ∧ ¬ AnswersTo i b e) :
    ∀ x ∈ ((watchSingle cfg).watch (s.step cfg e).2 es).1, whose x.1 = some i → NoMessages x.2 := by
  refine watch_heldUp cfg i b es _ ?_ hes
  cases e with
  | call j t st now =>
    obtain rfl : j = i := Option.some.inj he
    simp only [SingleBusy.step] at hs ⊢
    split at hs
    · cases hs
    · rename_i hc
      rw [if_neg hc]
      split at hs
      · rename_i ht
        rw [if_pos ht]
        exact proceed_sent cfg hs b hb
      · unfold SingleBusy.determine at hs
        simp only at hs
        split at hs
        · rename_i e' _ _
          cases e' <;> cases hs
        · split at hs
          · rename_i e' _
            cases e' <;> cases hs
          · cases hs
  | offsets j b' r =>
    simp only [SingleBusy.step] at hs
    split at hs
    · split at hs
      · cases hs
      · split at hs
        · cases hs
        · split at hs
          · cases hs
          · rename_i e' _ _
            cases e' <;> cases hs
    · cases hs
  | determined j =>
    obtain rfl : j = i := Option.some.inj he
    simp only [SingleBusy.step] at hs ⊢
    split at hs
    · rename_i hg
      exact proceed_sent cfg hs b hb
    · cases hs
  | healed j =>
    obtain rfl : j = i := Option.some.inj he
    simp only [SingleBusy.step] at hs ⊢
    split at hs
    · rename_i hg
      split at hs
      · rename_i hp
        exact fetch_sent cfg hs b hb
      · cases hs
    · cases hs
  | healFails j e =>
    simp only [SingleBusy.step] at hs
    split at hs
    · cases e <;> cases hs
    · cases hs
    · cases hs
  | base ev =>
    cases ev with
    | consume j t => cases he
    | outcome j b' r =>
      simp only [SingleBusy.step, Busy.step] at hs
      split at hs
      · cases hs
      · split at hs
        · cases hs
        · split at hs
          · cases hs
          · split at hs <;> cases hs
    | finish j =>
      simp only [SingleBusy.step, Busy.step] at hs
      split at hs
      · cases hs
      · split at hs <;> cases hs
    | healFails j e =>
      simp only [SingleBusy.step, Busy.step] at hs
      split at hs <;> cases hs
    | other f => cases he

/-- **C134** fails for `consume`: likewise while it waits to be told offsets. -/
theorem C134_offsets (cfg : CCfg β δ) (i : Nat) (b : Int) (s : SingleBusy δ) (topic : String)
    (start : Start) (now : Int) (reqs : List OReq) (hi : (watchSingle (β := β) cfg).busy s i = false)
    (hs : (s.step cfg (.call i topic start now)).1 = .asked reqs)
    (hb : ∃ q ∈ reqs, q.broker = b) (es : List (FirstEv β))
    (hes : ∀ e ∈ es, (∀ t st now, e ≠ .call i t st now) ∧ ¬ AnswersTo i b e) :
    ∀ x ∈ ((watchSingle cfg).watch (s.step cfg (.call i topic start now)).2 es).1,
      whose x.1 = some i → NoMessages x.2 := by
  refine watch_heldUp cfg i b es _ ?_ hes
  have hw : s.base.waiting.get? i = .none := by
    simp only [watchSingle, Bool.or_eq_false_iff, Dict.has, Option.isSome_eq_false_iff] at hi
    simpa using hi.2
  simp only [SingleBusy.step] at hs ⊢
  split at hs
  · cases hs
  · rename_i hc
    rw [if_neg hc]
    split at hs
    · unfold SingleBusy.proceed SingleBusy.fetch at hs
      split at hs
      · split at hs
        · cases hs
        · split at hs <;> cases hs
      · cases hs
    · rename_i ht
      rw [if_neg ht]
      unfold SingleBusy.determine at hs ⊢
      simp only at hs ⊢
      split at hs
      · rename_i e' _ _
        cases e' <;> cases hs
      · rename_i hg
        split at hs
        · rename_i e' _
          cases e' <;> cases hs
        · rename_i hst
          simp only
          cases hs
          exact .inr ⟨hw, _, _, by simp only [Dict.get?_set, if_true]; rfl, hb⟩

/-- Brokers 7 and 8 lead partitions 0 and 1 of topic t, which a consumer stands at the beginning
of. -/
def exBeginnings : SingleBusy Nat :=
  ⟨⟨⟨⟨[(7, ⟨"h", 9092, false⟩), (8, ⟨"i", 9092, false⟩)], [("t", [0, 1])],
    [("t", [(0, 7), (1, 8)])]⟩, [("t", [(0, 0), (1, 0)])], ["t"], false, false, ()⟩, []⟩, []⟩

/-- A request for the messages of partition `p` of topic t from offset `o` on. -/
def exReqAt (b p o : Int) : FReq := ⟨b, 1000, 1, "t", [⟨p, o, 100⟩]⟩

/-- **C134** is false: both brokers are asked; broker 7 answers with a message; broker 8 does not
answer. The `consume` never returns the message; yet the next one asks broker 7 for what comes
after it. -/
theorem C134_false :
    let s := (exBeginnings.step exCCfg (.call 0 "t" (.int beginning) 0 : FirstEv Nat)).2
    let s' := (s.step exCCfg (.base (.outcome 0 7 (.ok ⟨[("t", [⟨0, 0, [(0, 5)]⟩])]⟩)))).2
    (exBeginnings.step exCCfg (.call 0 "t" (.int beginning) 0 : FirstEv Nat)).1 =
      .sent [exReqAt 7 0 0, exReqAt 8 1 0] ∧
    (∀ es : List (FirstEv Nat),
      (∀ e ∈ es, (∀ t st now, e ≠ .call 0 t st now) ∧ ¬ AnswersTo 0 8 e) →
      ∀ x ∈ ((watchSingle exCCfg).watch s
        (.base (.outcome 0 7 (.ok ⟨[("t", [⟨0, 0, [(0, 5)]⟩])]⟩)) :: es)).1,
        whose x.1 = some 0 → NoMessages x.2) ∧
    (s'.step exCCfg (.call 1 "t" (.int beginning) 0 : FirstEv Nat)).1 =
      .sent [exReqAt 7 0 1, exReqAt 8 1 0] := by
  refine ⟨by decide +kernel, fun es hes => ?_, by decide +kernel⟩
  refine C134_consume exCCfg 0 8 exBeginnings (.call 0 "t" (.int beginning) 0)
    [exReqAt 7 0 0, exReqAt 8 1 0] rfl (by decide +kernel)
    ⟨exReqAt 8 1 0, by simp, rfl⟩ _ fun e he => ?_
  rcases List.mem_cons.1 he with rfl | he
  · exact ⟨by simp, fun h => by simp [AnswersTo] at h⟩
  · exact hes e he

-- Non-vacuity of `C134_send`: `send` number 1 waits for broker 8; other things happen.
example :
    exSends.sends.get? 1 = some (.looping [7, 8] []) ∧
    ∀ e ∈ ([.outcome 0 7 (.ok (exCoded 0)), .finish 0, .outcome 1 7 (.ok (exCoded 0)), .finish 1] :
        List (SEv Single (FResp Nat))),
      (∀ r, e ≠ .outcome 1 8 r) ∧ ∀ q w, e ≠ .send 1 q w := by
  refine ⟨by decide +kernel, ?_⟩
  simp

-- Non-vacuity of `C134_offsets`: a consumer of the same cluster that has read nothing yet.
example :
    let s : SingleBusy Nat := { exBeginnings with base := { exBeginnings.base with
      consumer := ({ exBeginnings.base.consumer with synced := [] } : Single) } }
    (watchSingle (β := Nat) exCCfg).busy s 0 = false ∧
    ∃ reqs, (s.step exCCfg (.call 0 "t" (.int beginning) 0 : FirstEv Nat)).1 = .asked reqs ∧
      ∃ q ∈ reqs, q.broker = 8 := by
  refine ⟨by decide +kernel, _, rfl, ?_⟩
  decide +kernel

end Kiel
