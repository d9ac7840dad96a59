import Verif.Spec.Endings
import Verif.Lemmas.Grouped
import Verif.Props.Sends
import Verif.Props.FirstConsumes
import Verif.Props.GroupOverlap
/-
C105: every call ends once, whatever calls overlap.
-/
set_option autoImplicit false
namespace Kiel
open Spec

variable {σ R ρ β δ S E O : Type}

/-- How often a number is in use. -/
def held {α : Type} (d : Dict Nat α) (i : Nat) : Nat := (d.has i).toNat

theorem held_set {α : Type} (d : Dict Nat α) (k : Nat) (v : α) (i : Nat) :
    held (d.set k v) i = if k = i then 1 else held d i := by
  simp only [held, Dict.has, Dict.get?_set]
  by_cases h : k = i <;> simp [h]

theorem held_erase {α : Type} (d : Dict Nat α) (k i : Nat) :
    held (d.erase k) i = if k = i then 0 else held d i := by
  simp only [held, Dict.has, Dict.get?_erase]
  by_cases h : k = i <;> simp [h]

theorem held_some {α : Type} {d : Dict Nat α} {i : Nat} {v : α} (h : d.get? i = some v) :
    held d i = 1 := by simp [held, Dict.has, h]

theorem held_none {α : Type} {d : Dict Nat α} {i : Nat} (h : d.get? i = .none) :
    held d i = 0 := by simp [held, Dict.has, h]

theorem held_le {α : Type} (d : Dict Nat α) (i : Nat) : held d i ≤ 1 := by
  simp only [held]; cases d.has i <;> simp

/-- Step by step. -/
theorem endsOnce_of (w : Watched S E O) (Idle : S → Prop) (Inv : S → Prop)
    (hidle : ∀ s, Idle s → Inv s ∧ ∀ i, w.busy s i = false)
    (hstep : ∀ s e, Inv s → (∀ i, w.calls e = some i → w.busy s i = false) →
      Inv (w.step s e).2 ∧ ∀ i,
        (if w.ends e (w.step s e).1 = some i then 1 else 0) +
            (w.busy (w.step s e).2 i).toNat =
          (if w.calls e = some i then 1 else 0) + (w.busy s i).toNat) :
    EndsOnce w Idle := by
  have key : ∀ (es : List E) (s : S) (i : Nat), Inv s → w.NumbersFree s es →
      w.ended i (w.watch s es).1 + (w.busy (w.watch s es).2 i).toNat =
        w.called i (w.watch s es).1 + (w.busy s i).toNat := by
    intro es
    induction es with
    | nil => intro s i _ _; simp [Watched.watch, Watched.ended, Watched.called]
    | cons e es ih =>
      intro s i hs hf
      obtain ⟨hi, hc⟩ := hstep s e hs hf.1
      have h1 := ih _ i hi hf.2
      have h2 := hc i
      simp only [Watched.watch, Watched.ended, Watched.called, List.countP_cons, decide_eq_true_eq]
        at h1 ⊢
      omega
  intro s es i hs hf
  obtain ⟨hi, hb⟩ := hidle s hs
  have := key es s i hi hf
  simpa [hb i] using this

/-- **C105** for `send`: whatever `send`s overlap, each ends once, by returning or raising. -/
theorem C105_sends (hs : Handlers σ R ρ) (known : σ → Int → Bool) :
    EndsOnce (watchSends hs known) fun s => s.sends = [] := by
  refine endsOnce_of _ _ (fun _ => True) (fun s h => ⟨trivial, fun i => ?_⟩) fun s e _ hf =>
    ⟨trivial, fun i => ?_⟩
  · simp [watchSends, h, Dict.has, Dict.get?]
  · show (if (watchSends hs known).ends e (s.step hs known e).1 = some i then 1 else 0) +
      held (s.step hs known e).2.sends i = (if (watchSends hs known).calls e = some i then 1 else 0) +
        held s.sends i
    generalize hx : s.step hs known e = x
    cases e with
    | send k requests write =>
      have h0 : s.sends.has k = false := hf k rfl
      have h1 : held s.sends k = 0 := by simp [held, h0]
      simp only [Sends.step, h0, Bool.false_eq_true, if_false] at hx
      split at hx <;> subst hx
      · by_cases h : k = i <;> simp [watchSends, h]
      · simp only [watchSends, held_set]
        by_cases h : k = i
        · subst h; simp [h1]
        · simp [h]
    | outcome k b r =>
      simp only [Sends.step] at hx
      split at hx
      · rename_i left results h
        have h1 := held_some h
        split at hx
        · subst hx; simp [watchSends]
        · split at hx
          · subst hx
            simp only [watchSends, held_set]
            by_cases h : k = i
            · subst h; simp [h1]
            · simp [h]
          · split at hx
            · subst hx
              simp only [watchSends, held_erase]
              by_cases h : k = i
              · subst h; simp [h1]
              · simp [h]
            · split at hx <;> subst hx
              · simp only [watchSends, held_erase]
                by_cases h : k = i
                · subst h; simp [h1]
                · simp [h]
              · simp only [watchSends, held_set]
                by_cases h : k = i
                · subst h; simp [h1]
                · simp [h]
      · subst hx; simp [watchSends]
    | finish k =>
      simp only [Sends.step] at hx
      split at hx
      · rename_i results h
        have h1 := held_some h
        split at hx <;> subst hx
        · simp only [watchSends, held_set]
          by_cases h : k = i
          · subst h; simp [h1]
          · simp [h]
        · simp only [watchSends, held_erase]
          by_cases h : k = i
          · subst h; simp [h1]
          · simp [h]
      · subst hx; simp [watchSends]
    | healed k r =>
      simp only [Sends.step] at hx
      split at hx
      · rename_i results h
        have h1 := held_some h
        split at hx <;> subst hx <;>
        · simp only [watchSends, held_erase]
          by_cases h : k = i
          · subst h; simp [h1]
          · simp [h]
      · subst hx; simp [watchSends]
    | other f => subst hx; simp [watchSends, Sends.step]

/-! ### `consume`s of a `SingleConsumer` -/

/-- How often a number is in use. -/
def SingleBusy.uses (s : SingleBusy δ) (i : Nat) : Nat := held s.starting i + held s.base.waiting i

/-- Whether this is the end of a call. -/
def FirstOut.last : FirstOut δ → Nat
  | .returned _ _ => 1
  | .raised _ => 1
  | _ => 0

/-- What happens is about call `i`, which ends or is then under way. -/
def Moves (i : Nat) (s : SingleBusy δ) (x : FirstOut δ × SingleBusy δ) : Prop :=
  ∀ j, (if i = j then x.1.last else 0) + x.2.uses j = if i = j then 1 else s.uses j

theorem determineEnd_last (topic : String) (e : Exc) : (determineEnd topic e : FirstOut δ).last = 1 := by
  cases e <;> rfl

theorem moves_fetch (cfg : CCfg β δ) (i : Nat) (topic : String) (parts : List Int) (s : SingleBusy δ)
    (h : held s.base.waiting i = 0) : Moves i s (s.fetch cfg i topic parts) := by
  generalize hx : s.fetch cfg i topic parts = x
  intro j
  simp only [SingleBusy.fetch] at hx
  split at hx
  · subst hx
    by_cases hj : i = j
    · subst hj; simp [FirstOut.last, SingleBusy.uses, held_erase, h]
    · simp [SingleBusy.uses, held_erase, hj]
  · split at hx <;> subst hx
    · by_cases hj : i = j
      · subst hj; simp [FirstOut.last, SingleBusy.uses, held_erase, h]
      · simp [SingleBusy.uses, held_erase, hj]
    · by_cases hj : i = j
      · subst hj; simp [FirstOut.last, SingleBusy.uses, held_erase, held_set]
      · simp [SingleBusy.uses, held_erase, held_set, hj]

theorem moves_proceed (cfg : CCfg β δ) (i : Nat) (topic : String) (s : SingleBusy δ)
    (h : held s.base.waiting i = 0) : Moves i s (s.proceed cfg i topic) := by
  simp only [SingleBusy.proceed]
  split
  · exact moves_fetch cfg i topic _ s h
  · intro j
    by_cases hj : i = j
    · subst hj; simp [FirstOut.last, SingleBusy.uses, held_set, h]
    · simp [SingleBusy.uses, held_set, hj]

theorem moves_determine {cfg : CCfg β δ} (i : Nat) (topic : String) (start : Start) (now : Int) (s : SingleBusy δ)
    (h : held s.base.waiting i = 0) (h' : held s.starting i = 0) :
    Moves i s (s.determine cfg i topic start now) := by
  generalize hx : s.determine cfg i topic start now = x
  intro j
  simp only [SingleBusy.determine] at hx
  split at hx
  · subst hx
    by_cases hj : i = j
    · subst hj; simp [determineEnd_last, SingleBusy.uses, h, h']
    · simp [SingleBusy.uses, hj]
  · split at hx <;> subst hx
    · by_cases hj : i = j
      · subst hj; simp [determineEnd_last, SingleBusy.uses, h, h']
      · simp [SingleBusy.uses, hj]
    · by_cases hj : i = j
      · subst hj; simp [FirstOut.last, SingleBusy.uses, held_set, h]
      · simp [SingleBusy.uses, held_set, hj]

/-- The same if only what is not counted differs. -/
theorem Moves.of {i : Nat} {s s' : SingleBusy δ} {x : FirstOut δ × SingleBusy δ} (h : Moves i s' x)
    (he : ∀ j, s'.uses j = s.uses j) : Moves i s x := fun j => by rw [h j, he]

/-- Nothing is seen, and no call ends or begins. -/
def Rests (s : SingleBusy δ) (x : FirstOut δ × SingleBusy δ) : Prop :=
  x.1.last = 0 ∧ ∀ j, x.2.uses j = s.uses j

/-- What an event can do. -/
theorem single_moves (cfg : CCfg β δ) (s : SingleBusy δ) (e : FirstEv β) (hinv : ∀ i, s.uses i ≤ 1)
    (hf : ∀ i t st now, e = .call i t st now → s.uses i = 0) :
    Rests s (s.step cfg e) ∧ (∀ i t st now, e ≠ .call i t st now) ∨
    ∃ i, whose e = some i ∧ Moves i s (s.step cfg e) ∧
      ((∃ t st now, e = .call i t st now) ∨ s.uses i = 1 ∧ ∀ i t st now, e ≠ .call i t st now) := by
  have hu : ∀ i, s.uses i = held s.starting i + held s.base.waiting i := fun _ => rfl
  generalize hx : s.step cfg e = x
  cases e with
  | call i topic start now =>
    have h0 := hf i topic start now rfl
    have hst : held s.starting i = 0 := by have := hu i; omega
    have hwt : held s.base.waiting i = 0 := by have := hu i; omega
    refine .inr ⟨i, rfl, ?_, .inl ⟨topic, start, now, rfl⟩⟩
    simp only [SingleBusy.step] at hx
    split at hx
    · subst hx
      intro j
      by_cases hj : i = j
      · subst hj; simp [FirstOut.last, h0]
      · simp [hj]
    · split at hx
      · subst hx; exact moves_proceed cfg i topic s hwt
      · subst hx; exact moves_determine i topic start now s hwt hst
  | offsets i broker r =>
    simp only [SingleBusy.step] at hx
    split at hx
    · rename_i topic pending h
      have h1 := held_some h
      have hwt : held s.base.waiting i = 0 := by have := hu i; have := hinv i; omega
      split at hx
      · subst hx; exact .inl ⟨⟨rfl, fun _ => rfl⟩, by simp⟩
      · refine .inr ⟨i, rfl, ?_, .inr ⟨by rw [hu]; omega, by simp⟩⟩
        have hm : ∀ (c : Single) (ph : FirstPhase), Moves i s
            (.nothing, ⟨{ s.base with consumer := c }, s.starting.set i ph⟩) := by
          intro c ph j
          by_cases hj : i = j
          · subst hj; simp [FirstOut.last, SingleBusy.uses, held_set, hwt]
          · simp [SingleBusy.uses, held_set, hj]
        split at hx
        · subst hx; exact hm _ _
        · split at hx
          · subst hx; exact hm _ _
          · subst hx
            intro j
            by_cases hj : i = j
            · subst hj; simp [determineEnd_last, SingleBusy.uses, held_erase, hwt]
            · simp [SingleBusy.uses, held_erase, hj]
    · subst hx; exact .inl ⟨⟨rfl, fun _ => rfl⟩, by simp⟩
  | determined i =>
    simp only [SingleBusy.step] at hx
    split at hx
    · rename_i topic h
      have h1 := held_some h
      have hwt : held s.base.waiting i = 0 := by have := hu i; have := hinv i; omega
      subst hx
      refine .inr ⟨i, rfl, Moves.of (moves_proceed cfg i topic _ ?_) ?_,
        .inr ⟨by rw [hu]; omega, by simp⟩⟩
      · exact hwt
      · exact fun _ => rfl
    · subst hx; exact .inl ⟨⟨rfl, fun _ => rfl⟩, by simp⟩
  | healed i =>
    simp only [SingleBusy.step] at hx
    split at hx
    · rename_i topic h
      have h1 := held_some h
      have hwt : held s.base.waiting i = 0 := by have := hu i; have := hinv i; omega
      refine .inr ⟨i, rfl, ?_, .inr ⟨by rw [hu]; omega, by simp⟩⟩
      split at hx
      · subst hx; exact moves_fetch cfg i topic _ s hwt
      · subst hx
        intro j
        by_cases hj : i = j
        · subst hj; simp [FirstOut.last, SingleBusy.uses, held_erase, hwt]
        · simp [SingleBusy.uses, held_erase, hj]
    · subst hx; exact .inl ⟨⟨rfl, fun _ => rfl⟩, by simp⟩
  | healFails i e =>
    simp only [SingleBusy.step] at hx
    split at hx
    · rename_i topic pending h
      have h1 := held_some h
      have hwt : held s.base.waiting i = 0 := by have := hu i; have := hinv i; omega
      refine .inr ⟨i, rfl, ?_, .inr ⟨by rw [hu]; omega, by simp⟩⟩
      subst hx
      intro j
      by_cases hj : i = j
      · subst hj; simp [determineEnd_last, SingleBusy.uses, held_erase, hwt]
      · simp [SingleBusy.uses, held_erase, hj]
    · rename_i topic h
      have h1 := held_some h
      have hwt : held s.base.waiting i = 0 := by have := hu i; have := hinv i; omega
      refine .inr ⟨i, rfl, ?_, .inr ⟨by rw [hu]; omega, by simp⟩⟩
      subst hx
      intro j
      by_cases hj : i = j
      · subst hj; simp [FirstOut.last, SingleBusy.uses, held_erase, hwt]
      · simp [SingleBusy.uses, held_erase, hj]
    · subst hx; exact .inl ⟨⟨rfl, fun _ => rfl⟩, by simp⟩
  | base ev =>
    cases ev with
    | consume i t => subst hx; exact .inl ⟨⟨rfl, fun _ => rfl⟩, by simp⟩
    | other f => subst hx; exact .inl ⟨⟨rfl, fun _ => rfl⟩, by simp⟩
    | outcome i broker r =>
      simp only [SingleBusy.step, Busy.step] at hx
      split at hx
      · subst hx; exact .inl ⟨⟨rfl, fun _ => rfl⟩, by simp⟩
      · rename_i w h
        have h1 := held_some h
        have hst : held s.starting i = 0 := by have := hu i; have := hinv i; omega
        split at hx
        · subst hx; exact .inl ⟨⟨rfl, fun _ => rfl⟩, by simp⟩
        · refine .inr ⟨i, rfl, ?_, .inr ⟨by rw [hu]; omega, by simp⟩⟩
          split at hx
          · subst hx
            intro j
            by_cases hj : i = j
            · subst hj; simp [BOut.first, FirstOut.last, SingleBusy.uses, held_set, hst]
            · simp [SingleBusy.uses, held_set, hj]
          · split at hx
            · subst hx
              intro j
              by_cases hj : i = j
              · subst hj; simp [BOut.first, FirstOut.last, SingleBusy.uses, held_erase, hst]
              · simp [SingleBusy.uses, held_erase, hj]
            · subst hx
              intro j
              by_cases hj : i = j
              · subst hj; simp [BOut.first, FirstOut.last, SingleBusy.uses, held_set, hst]
              · simp [SingleBusy.uses, held_set, hj]
    | finish i =>
      simp only [SingleBusy.step, Busy.step] at hx
      split at hx
      · subst hx; exact .inl ⟨⟨rfl, fun _ => rfl⟩, by simp⟩
      · rename_i w h
        have h1 := held_some h
        have hst : held s.starting i = 0 := by have := hu i; have := hinv i; omega
        split at hx
        · subst hx; exact .inl ⟨⟨rfl, fun _ => rfl⟩, by simp⟩
        · refine .inr ⟨i, rfl, ?_, .inr ⟨by rw [hu]; omega, by simp⟩⟩
          subst hx
          intro j
          by_cases hj : i = j
          · subst hj; simp [BOut.first, FirstOut.last, SingleBusy.uses, held_erase, hst]
          · simp [SingleBusy.uses, held_erase, hj]
    | healFails i e =>
      simp only [SingleBusy.step, Busy.step] at hx
      split at hx
      · subst hx; exact .inl ⟨⟨rfl, fun _ => rfl⟩, by simp⟩
      · rename_i w h
        have h1 := held_some h
        have hst : held s.starting i = 0 := by have := hu i; have := hinv i; omega
        refine .inr ⟨i, rfl, ?_, .inr ⟨by rw [hu]; omega, by simp⟩⟩
        subst hx
        intro j
        by_cases hj : i = j
        · subst hj; simp [BOut.first, FirstOut.last, SingleBusy.uses, held_erase, hst]
        · simp [SingleBusy.uses, held_erase, hj]

/-- **C105** for `consume` of a `SingleConsumer`, from the call on. -/
theorem C105_single (cfg : CCfg β δ) :
    EndsOnce (watchSingle cfg) fun s => s.starting = [] ∧ s.base.waiting = [] := by
  have hb : ∀ (s : SingleBusy δ) (i : Nat), s.uses i ≤ 1 →
      ((watchSingle (β := β) cfg).busy s i).toNat = s.uses i := by
    intro s i h
    simp only [watchSingle, SingleBusy.uses, held] at h ⊢
    revert h
    cases s.starting.has i <;> cases s.base.waiting.has i <;> simp
  refine endsOnce_of _ _ (fun s => ∀ i, s.uses i ≤ 1) (fun s h => ⟨fun i => ?_, fun i => ?_⟩)
    fun s e hinv hf => ?_
  · simp [SingleBusy.uses, h.1, h.2, held, Dict.has, Dict.get?]
  · simp [watchSingle, h.1, h.2, Dict.has, Dict.get?]
  · have hf' : ∀ i t st now, e = .call i t st now → s.uses i = 0 := by
      rintro i t st now rfl
      rw [← hb s i (hinv i), hf i rfl]; rfl
    have hl : ∀ i, whose e = some i → ∀ j, (if (watchSingle cfg).ends e (s.step cfg e).1 = some j
        then 1 else 0) = if i = j then (s.step cfg e).1.last else 0 := by
      intro i hi j
      cases hx : (s.step cfg e).1 <;> simp [watchSingle, FirstOut.last, hi]
    show (∀ i, (s.step cfg e).2.uses i ≤ 1) ∧ _
    rcases single_moves cfg s e hinv hf' with ⟨⟨h1, h2⟩, h3⟩ | ⟨i, hi, hm, hc⟩
    · refine ⟨fun i => by rw [h2]; exact hinv i, fun i => ?_⟩
      rw [hb s i (hinv i), show (watchSingle cfg).step s e = s.step cfg e from rfl,
        hb _ i (by rw [h2]; exact hinv i), h2]
      have hn : (watchSingle (δ := δ) cfg).calls e = .none := by
        cases e <;> first | rfl | exact absurd rfl (h3 _ _ _ _)
      have he : (watchSingle cfg).ends e (s.step cfg e).1 = .none := by
        cases hx : (s.step cfg e).1 <;> simp_all [watchSingle, FirstOut.last]
      simp [hn, he]
    · have hle : ∀ j, (s.step cfg e).2.uses j ≤ 1 := by
        intro j
        have := hm j
        have h2 := hinv j
        by_cases hj : i = j
        · simp only [hj, if_true] at this; omega
        · simp only [hj, if_false] at this; omega
      refine ⟨hle, fun j => ?_⟩
      rw [hb s j (hinv j), show (watchSingle cfg).step s e = s.step cfg e from rfl, hb _ j (hle j),
        hl i hi j, hm j]
      rcases hc with ⟨t, st, now, rfl⟩ | ⟨h1, h3⟩
      · have h0 := hf' i t st now rfl
        by_cases hj : i = j
        · subst hj; simp [watchSingle, h0]
        · simp [watchSingle, hj]
      · have hn : (watchSingle (δ := δ) cfg).calls e = .none := by
          cases e <;> first | rfl | exact absurd rfl (h3 _ _ _ _)
        by_cases hj : i = j
        · subst hj; simp [hn, h1]
        · simp [hn, hj]

/-! ### `consume`s and `commit_offsets`s of a `GroupedConsumer` -/

/-- Whether this is the end of a call. -/
def GroupOut.last : GroupOut δ → Nat
  | .returned _ _ => 1
  | .committed => 1
  | .raised _ => 1
  | _ => 0

/-- How often a number is in use. -/
def GroupBusy.uses (g : GroupBusy δ) (i : Nat) : Nat := held g.base.waiting i + held g.commits i

/-- What happens is about call `i`, which ends or is then under way. -/
def MovesGroup (i : Nat) (g : GroupBusy δ) (x : GroupOut δ × GroupBusy δ) : Prop :=
  ∀ j, (if i = j then x.1.last else 0) + x.2.uses j = if i = j then 1 else g.uses j

theorem moves_ask {cfg : CCfg β δ} (k : Nat) (metadata : String) (result : Option (String × Option (List δ)))
    (g : GroupBusy δ) (h : held g.base.waiting k = 0) : MovesGroup k g (g.ask cfg k metadata result) := by
  have he : ∀ (b : Busy GExt δ), b.waiting = g.base.waiting →
      ∀ e, MovesGroup k g (.raised e, ⟨b, g.commits.erase k⟩) := by
    intro b hb e j
    by_cases hj : k = j
    · subst hj; simp [GroupOut.last, GroupBusy.uses, held_erase, hb, h]
    · simp [GroupBusy.uses, held_erase, hb, hj]
  generalize hx : g.ask cfg k metadata result = x
  simp only [GroupBusy.ask] at hx
  split at hx
  · subst hx; exact he _ rfl _
  · split at hx
    · subst hx; exact he _ rfl _
    · split at hx
      · subst hx; exact he _ rfl _
      · split at hx <;> subst hx
        · exact he _ rfl _
        · intro j
          by_cases hj : k = j
          · subst hj; simp [GroupOut.last, GroupBusy.uses, held_set, h]
          · simp [GroupBusy.uses, held_set, hj]

theorem moves_finish (gcfg : GCfg) {cfg : CCfg β δ} (i : Nat) (topic : String) (out : Option (List δ)) (g : GroupBusy δ)
    (h : held g.base.waiting i = 0) (h' : held g.commits i = 0) :
    MovesGroup i g (g.finish gcfg cfg i topic out) := by
  generalize hx : g.finish gcfg cfg i topic out = x
  simp only [GroupBusy.finish] at hx
  split at hx
  · subst hx
    intro j
    by_cases hj : i = j
    · subst hj; simp [GroupOut.last, GroupBusy.uses, h, h']
    · simp [hj]
  · split at hx <;> subst hx
    · have := moves_ask (cfg := cfg) i ("committed by " ++ gcfg.name) (some (topic, out))
        { g with base := { g.base with consumer := { g.base.consumer with ext := { g.base.consumer.ext with toCommit := addSet g.base.consumer.ext.toCommit topic } } } } h
      exact this
    · intro j
      by_cases hj : i = j
      · subst hj; simp [GroupOut.last, GroupBusy.uses, h, h']
      · simp [GroupBusy.uses, hj]

/-- How often a number is in use. -/
def GroupFirst.uses (s : GroupFirst δ) (i : Nat) : Nat := held s.starting i + s.group.uses i

/-- Whether this is the end of a call. -/
def FirstGroupOut.last : FirstGroupOut δ → Nat
  | .group out => out.last
  | _ => 0

/-- What happens is about call `i`, which ends or is then under way. -/
def MovesFirst (i : Nat) (s : GroupFirst δ) (x : FirstGroupOut δ × GroupFirst δ) : Prop :=
  ∀ j, (if i = j then x.1.last else 0) + x.2.uses j = if i = j then 1 else s.uses j

theorem MovesGroup.leave {i : Nat} {s : GroupFirst δ} {g : GroupBusy δ} {x : GroupOut δ × GroupBusy δ}
    (h : MovesGroup i g x) (hg : ∀ j, g.uses j = s.group.uses j) : MovesFirst i s (s.leave i x) := by
  intro j
  have := h j
  by_cases hj : i = j
  · subst hj
    simp only [if_true] at this
    simp [GroupFirst.leave, GroupFirst.uses, FirstGroupOut.last, held_erase, this]
  · simp only [hj, if_false, Nat.zero_add] at this
    simp [GroupFirst.leave, GroupFirst.uses, held_erase, hj, this, hg]

theorem moves_raised (i : Nat) (e : Exc) (g : GroupBusy δ) (h : g.uses i = 0) :
    MovesGroup i g (.raised e, g) := by
  intro j
  by_cases hj : i = j
  · subst hj; simp [GroupOut.last, h]
  · simp [hj]

theorem MovesFirst.of {i : Nat} {s s' : GroupFirst δ} {x : FirstGroupOut δ × GroupFirst δ}
    (h : MovesFirst i s' x) (he : ∀ j, s'.uses j = s.uses j) : MovesFirst i s x :=
  fun j => by rw [h j, he]

theorem moves_starting (i : Nat) (out : FirstGroupOut δ) (ph : GroupPhase) (s : GroupFirst δ)
    (g : GroupBusy δ) (ho : out.last = 0) (hg : ∀ j, g.uses j = s.group.uses j)
    (h : s.group.uses i = 0) : MovesFirst i s (out, ⟨g, s.starting.set i ph⟩) := by
  intro j
  by_cases hj : i = j
  · subst hj; simp [ho, GroupFirst.uses, held_set, hg, h]
  · simp [GroupFirst.uses, held_set, hg, hj]

theorem moves_want {cfg : CCfg β δ} (i : Nat) (topic : String) (parts : List Int) (s : GroupFirst δ)
    (h : s.group.uses i = 0) : MovesFirst i s (s.want cfg i topic parts) := by
  generalize hx : s.want cfg i topic parts = x
  simp only [GroupFirst.want] at hx
  split at hx
  · subst hx; exact (moves_raised i _ _ h).leave fun _ => rfl
  · split at hx
    · subst hx; exact (moves_raised i _ _ h).leave fun _ => rfl
    · split at hx <;> subst hx
      · exact (moves_raised i _ _ h).leave fun _ => rfl
      · exact moves_starting i _ _ s s.group rfl (fun _ => rfl) h

theorem moves_determine_group {cfg : CCfg β δ} (i : Nat) (topic : String) (s : GroupFirst δ)
    (h : s.group.uses i = 0) : MovesFirst i s (s.determine cfg i topic) := by
  generalize hx : s.determine cfg i topic = x
  simp only [GroupFirst.determine] at hx
  split at hx
  · subst hx; exact (moves_raised i _ _ h).leave fun _ => rfl
  · split at hx <;> subst hx
    · exact (moves_raised i _ _ h).leave fun _ => rfl
    refine MovesFirst.of (moves_want i topic _ _ ?_) ?_
    · exact h
    · exact fun _ => rfl

theorem moves_fetch_group (cfg : CCfg β δ) (i : Nat) (topic : String) (parts : List Int)
    (s : GroupFirst δ) (h : s.group.uses i = 0) : MovesFirst i s (s.fetch cfg i topic parts) := by
  have hr : ∀ (e : Exc) (c : Grouped), MovesFirst i s
      (s.leave i (.raised e, { s.group with base := { s.group.base with consumer := c } })) :=
    fun e c => (moves_raised i e { s.group with base := { s.group.base with consumer := c } } h).leave
      fun _ => rfl
  generalize hx : s.fetch cfg i topic parts = x
  simp only [GroupFirst.fetch] at hx
  split at hx
  · subst hx; exact hr _ _
  · split at hx <;> subst hx
    · exact hr _ _
    · refine MovesGroup.leave (g := s.group) ?_ fun _ => rfl
      have hc : held s.group.commits i = 0 := by simp only [GroupBusy.uses] at h; omega
      intro j
      by_cases hj : i = j
      · subst hj; simp [GroupOut.last, GroupBusy.uses, held_set, hc]
      · simp [GroupBusy.uses, held_set, hj]

theorem moves_proceed_group (cfg : CCfg β δ) (i : Nat) (topic : String) (s : GroupFirst δ)
    (h : s.group.uses i = 0) : MovesFirst i s (s.proceed cfg i topic) := by
  generalize hx : s.proceed cfg i topic = x
  simp only [GroupFirst.proceed] at hx
  split at hx
  · subst hx; exact (moves_raised i _ _ h).leave fun _ => rfl
  · split at hx <;> subst hx
    · exact moves_fetch_group cfg i topic _ s h
    · exact moves_starting i _ _ s s.group rfl (fun _ => rfl) h

theorem moves_undetermined (gcfg : GCfg) {cfg : CCfg β δ} (i : Nat) (topic : String) (e : Exc) (s : GroupFirst δ)
    (h : s.group.uses i = 0) : MovesFirst i s (s.undetermined gcfg cfg i topic e) := by
  have hw : held s.group.base.waiting i = 0 := by simp only [GroupBusy.uses] at h; omega
  have hc : held s.group.commits i = 0 := by simp only [GroupBusy.uses] at h; omega
  generalize hx : s.undetermined gcfg cfg i topic e = x
  simp only [GroupFirst.undetermined] at hx
  split at hx <;> subst hx
  · exact (moves_finish gcfg i topic _ _ hw hc).leave fun _ => rfl
  · exact (moves_raised i _ _ h).leave fun _ => rfl

/-- A step of the `GroupBusy`, when it is about a call that is not `starting`. -/
theorem MovesGroup.within {i : Nat} {s : GroupFirst δ} {x : GroupOut δ × GroupBusy δ}
    (h : MovesGroup i s.group x) (hs : held s.starting i = 0) :
    MovesFirst i s (.group x.1, { s with group := x.2 }) := by
  intro j
  have := h j
  by_cases hj : i = j
  · subst hj
    simp only [if_true] at this
    simp [GroupFirst.uses, FirstGroupOut.last, hs, this]
  · simp only [hj, if_false, Nat.zero_add] at this
    simp [GroupFirst.uses, hj, this]

/-- What an event of the base class's `consume`s can do. -/
theorem group_base_moves (gcfg : GCfg) (cfg : CCfg β δ) (g : GroupBusy δ) (ev : BEv GExt β)
    (hinv : ∀ i, g.uses i ≤ 1) (hc : ∀ i t, ev ≠ .consume i t) :
    ((g.step gcfg cfg (.base ev)).1.last = 0 ∧ ∀ j, (g.step gcfg cfg (.base ev)).2.uses j = g.uses j) ∨
    (∀ f, ev ≠ .other f) ∧ held g.base.waiting ev.number = 1 ∧
      MovesGroup ev.number g (g.step gcfg cfg (.base ev)) := by
  have hu : ∀ i, g.uses i = held g.base.waiting i + held g.commits i := fun _ => rfl
  generalize hx : g.step gcfg cfg (.base ev) = x
  simp only [GroupBusy.step] at hx
  cases ev with
  | consume i t => exact absurd rfl (hc i t)
  | other f =>
    simp only [Busy.step] at hx
    subst hx
    exact .inl ⟨rfl, fun _ => rfl⟩
  | outcome i broker r =>
    generalize hy : g.base.step Grouped.allocation cfg (.outcome i broker r) = y at hx
    simp only [Busy.step] at hy
    split at hy
    · subst hy; subst hx; exact .inl ⟨rfl, fun _ => rfl⟩
    · rename_i w h
      have h1 := held_some h
      have hcm : held g.commits i = 0 := by have := hu i; have := hinv i; omega
      split at hy
      · subst hy; subst hx; exact .inl ⟨rfl, fun _ => rfl⟩
      · refine .inr ⟨by simp, h1, ?_⟩
        split at hy
        · subst hy; subst hx
          intro j
          by_cases hj : i = j
          · subst hj; simp [BEv.number, GroupOut.last, GroupBusy.uses, held_set, hcm]
          · simp [BEv.number, GroupBusy.uses, held_set, hj]
        · split at hy
          · subst hy; subst hx
            intro j
            by_cases hj : i = j
            · subst hj; simp [BEv.number, GroupOut.last, GroupBusy.uses, held_erase, hcm]
            · simp [BEv.number, GroupBusy.uses, held_erase, hj]
          · subst hy; subst hx
            intro j
            by_cases hj : i = j
            · subst hj; simp [BEv.number, GroupOut.last, GroupBusy.uses, held_set, hcm]
            · simp [BEv.number, GroupBusy.uses, held_set, hj]
  | finish i =>
    generalize hy : g.base.step Grouped.allocation cfg (.finish i) = y at hx
    simp only [Busy.step] at hy
    split at hy
    · subst hy; subst hx; exact .inl ⟨rfl, fun _ => rfl⟩
    · rename_i w h
      have h1 := held_some h
      have hcm : held g.commits i = 0 := by have := hu i; have := hinv i; omega
      split at hy
      · subst hy; subst hx; exact .inl ⟨rfl, fun _ => rfl⟩
      · refine .inr ⟨by simp, h1, ?_⟩
        subst hy; subst hx
        have hm := moves_finish (cfg := cfg) gcfg i w.topic (some (w.results.vals.flatten.filter cfg.truthy))
          { g with base := ⟨{ g.base.consumer with heal := false }, g.base.waiting.erase i⟩ }
          (by simp [held_erase]) hcm
        intro j
        have := hm j
        by_cases hj : i = j
        · subst hj; simpa [BEv.number] using this
        · simp only [hj, if_false, GroupBusy.uses, held_erase] at this
          simpa [BEv.number, hj, GroupBusy.uses] using this
  | healFails i e =>
    generalize hy : g.base.step Grouped.allocation cfg (.healFails i e) = y at hx
    simp only [Busy.step] at hy
    split at hy
    · subst hy; subst hx; exact .inl ⟨rfl, fun _ => rfl⟩
    · rename_i w h
      have h1 := held_some h
      have hcm : held g.commits i = 0 := by have := hu i; have := hinv i; omega
      refine .inr ⟨by simp, h1, ?_⟩
      subst hy; subst hx
      intro j
      by_cases hj : i = j
      · subst hj; simp [BEv.number, GroupOut.last, GroupBusy.uses, held_erase, hcm]
      · simp [BEv.number, GroupBusy.uses, held_erase, hj]

/-- The number of a commit that an event is about. -/
def GroupEv.commitNumber : GroupEv β → Option Nat
  | .base _ => .none
  | .commit k _ => some k
  | .answer k _ => some k
  | .fails k _ => some k
  | .goOn k => some k
  | .healFails k _ => some k

/-- What an event of a commit can do. -/
theorem group_commit_moves (gcfg : GCfg) (cfg : CCfg β δ) (g : GroupBusy δ) (ev : GroupEv β) (k : Nat)
    (hinv : ∀ i, g.uses i ≤ 1) (hk : ev.commitNumber = some k)
    (hf : ∀ m, ev = .commit k m → g.uses k = 0) :
    ((g.step gcfg cfg ev).1.last = 0 ∧ (∀ j, (g.step gcfg cfg ev).2.uses j = g.uses j) ∧
      ∀ m, ev ≠ .commit k m) ∨
    MovesGroup k g (g.step gcfg cfg ev) ∧ ((∃ m, ev = .commit k m) ∨
      held g.commits k = 1 ∧ ∀ m, ev ≠ .commit k m) := by
  have hu : ∀ i, g.uses i = held g.base.waiting i + held g.commits i := fun _ => rfl
  have hset : held g.base.waiting k = 0 → ∀ (c : Grouped) (cm : Committing δ),
      MovesGroup k g (.nothing, ⟨{ g.base with consumer := c }, g.commits.set k cm⟩) := by
    intro hw c cm j
    by_cases hj : k = j
    · subst hj; simp [GroupOut.last, GroupBusy.uses, held_set, hw]
    · simp [GroupBusy.uses, held_set, hj]
  have hera : held g.base.waiting k = 0 → ∀ (c : Grouped) (out : GroupOut δ), out.last = 1 →
      MovesGroup k g (out, ⟨{ g.base with consumer := c }, g.commits.erase k⟩) := by
    intro hw c out ho j
    by_cases hj : k = j
    · subst hj; simp [ho, GroupBusy.uses, held_erase, hw]
    · simp [GroupBusy.uses, held_erase, hj]
  generalize hx : g.step gcfg cfg ev = x
  cases ev with
  | base ev => cases hk
  | commit i m =>
    cases hk
    have := hf m rfl
    subst hx
    exact .inr ⟨moves_ask _ _ _ _ (by have := hu k; omega), .inl ⟨m, rfl⟩⟩
  | answer i r =>
    cases hk
    simp only [GroupBusy.step] at hx
    split at hx
    · rename_i req result h
      have h1 := held_some h
      have hw : held g.base.waiting k = 0 := by have := hu k; have := hinv k; omega
      refine .inr ⟨?_, .inr ⟨h1, by simp⟩⟩
      split at hx <;> subst hx
      · exact hera hw _ _ rfl
      · exact hset hw _ _
    · subst hx; exact .inl ⟨rfl, fun _ => rfl, by simp⟩
  | fails i e =>
    cases hk
    simp only [GroupBusy.step] at hx
    split at hx
    · rename_i req result h
      have h1 := held_some h
      have hw : held g.base.waiting k = 0 := by have := hu k; have := hinv k; omega
      refine .inr ⟨?_, .inr ⟨h1, by simp⟩⟩
      subst hx
      exact hset hw _ _
    · subst hx; exact .inl ⟨rfl, fun _ => rfl, by simp⟩
  | goOn i =>
    cases hk
    simp only [GroupBusy.step] at hx
    split at hx
    · rename_i retry metadata result h
      have h1 := held_some h
      have hw : held g.base.waiting k = 0 := by have := hu k; have := hinv k; omega
      refine .inr ⟨?_, .inr ⟨h1, by simp⟩⟩
      split at hx
      · subst hx; exact moves_ask _ _ _ _ hw
      · split at hx <;> subst hx <;> exact hera hw _ _ rfl
    · rename_i result h
      have h1 := held_some h
      have hw : held g.base.waiting k = 0 := by have := hu k; have := hinv k; omega
      subst hx
      exact .inr ⟨hera hw _ _ rfl, .inr ⟨h1, by simp⟩⟩
    · subst hx; exact .inl ⟨rfl, fun _ => rfl, by simp⟩
  | healFails i e =>
    cases hk
    simp only [GroupBusy.step] at hx
    split at hx
    · subst hx; exact .inl ⟨rfl, fun _ => rfl, by simp⟩
    · subst hx; exact .inl ⟨rfl, fun _ => rfl, by simp⟩
    · rename_i cm _ h
      have h1 := held_some h
      have hw : held g.base.waiting k = 0 := by have := hu k; have := hinv k; omega
      subst hx
      exact .inr ⟨hera hw g.base.consumer _ rfl, .inr ⟨h1, by simp⟩⟩

/-- A call is begun with this number. -/
def callsGroup : FirstGroupEv β → Option Nat
  | .call i _ => some i
  | .group (.commit k _) => some k
  | _ => .none

/-- What an event can do. -/
theorem group_moves (gcfg : GCfg) (cfg : CCfg β δ) (s : GroupFirst δ) (e : FirstGroupEv β)
    (hinv : ∀ i, s.uses i ≤ 1) (hf : ∀ i, callsGroup e = some i → s.uses i = 0) :
    ((s.step gcfg cfg e).1.last = 0 ∧ (∀ j, (s.step gcfg cfg e).2.uses j = s.uses j) ∧
      callsGroup e = .none) ∨
    ∃ i, whoseCall e = some i ∧ MovesFirst i s (s.step gcfg cfg e) ∧
      (callsGroup e = some i ∨ s.uses i = 1 ∧ callsGroup e = .none) := by
  have hu : ∀ i, s.uses i = held s.starting i + s.group.uses i := fun _ => rfl
  have hg : ∀ i, s.group.uses i ≤ 1 := fun i => by have := hu i; have := hinv i; omega
  generalize hx : s.step gcfg cfg e = x
  cases e with
  | call i topic =>
    have h0 := hf i rfl
    have h : s.group.uses i = 0 := by have := hu i; omega
    have hw : held s.group.base.waiting i = 0 := by simp only [GroupBusy.uses] at h; omega
    have hc : held s.group.commits i = 0 := by simp only [GroupBusy.uses] at h; omega
    refine .inr ⟨i, rfl, ?_, .inl rfl⟩
    simp only [GroupFirst.step] at hx
    split at hx
    · subst hx; exact (moves_finish gcfg i topic _ _ hw hc).leave fun _ => rfl
    · split at hx <;> subst hx
      · exact moves_proceed_group cfg i topic s h
      · exact moves_determine_group i topic s h
  | offsets i r =>
    simp only [GroupFirst.step] at hx
    split at hx
    · rename_i topic parts b hp
      have h1 := held_some hp
      have h : s.group.uses i = 0 := by have := hu i; have := hinv i; omega
      refine .inr ⟨i, rfl, ?_, .inr ⟨by rw [hu]; omega, rfl⟩⟩
      split at hx <;> subst hx
      · exact moves_starting i _ _ s _ rfl (fun _ => rfl) h
      · refine MovesFirst.of (moves_undetermined gcfg i topic _ _ ?_) ?_
        · exact h
        · exact fun _ => rfl
    · subst hx; exact .inl ⟨rfl, fun _ => rfl, rfl⟩
  | offsetsFail i e =>
    simp only [GroupFirst.step] at hx
    split at hx
    · rename_i topic parts b hp
      have h1 := held_some hp
      have h : s.group.uses i = 0 := by have := hu i; have := hinv i; omega
      refine .inr ⟨i, rfl, ?_, .inr ⟨by rw [hu]; omega, rfl⟩⟩
      subst hx
      exact moves_starting i _ _ s _ rfl (fun _ => rfl) h
    · subst hx; exact .inl ⟨rfl, fun _ => rfl, rfl⟩
  | goOn i =>
    simp only [GroupFirst.step] at hx
    split at hx
    · rename_i topic parts b retry hp
      have h1 := held_some hp
      have h : s.group.uses i = 0 := by have := hu i; have := hinv i; omega
      refine .inr ⟨i, rfl, ?_, .inr ⟨by rw [hu]; omega, rfl⟩⟩
      split at hx
      · subst hx
        refine MovesGroup.leave (moves_raised i _ _ ?_) ?_
        · exact h
        · exact fun _ => rfl
      · split at hx <;> subst hx
        · refine MovesFirst.of (moves_want i topic parts _ ?_) ?_
          · exact h
          · exact fun _ => rfl
        · refine MovesFirst.of (moves_proceed_group cfg i topic _ ?_) ?_
          · exact h
          · exact fun _ => rfl
    · rename_i topic hp
      have h1 := held_some hp
      have h : s.group.uses i = 0 := by have := hu i; have := hinv i; omega
      refine .inr ⟨i, rfl, ?_, .inr ⟨by rw [hu]; omega, rfl⟩⟩
      subst hx
      refine MovesGroup.leave (moves_raised i _ _ ?_) ?_
      · exact h
      · exact fun _ => rfl
    · subst hx; exact .inl ⟨rfl, fun _ => rfl, rfl⟩
  | healed i =>
    simp only [GroupFirst.step] at hx
    split at hx
    · rename_i topic hp
      have h1 := held_some hp
      have h : s.group.uses i = 0 := by have := hu i; have := hinv i; omega
      have hw : held s.group.base.waiting i = 0 := by simp only [GroupBusy.uses] at h; omega
      have hc : held s.group.commits i = 0 := by simp only [GroupBusy.uses] at h; omega
      refine .inr ⟨i, rfl, ?_, .inr ⟨by rw [hu]; omega, rfl⟩⟩
      split at hx
      · subst hx; exact (moves_raised i _ _ h).leave fun _ => rfl
      · split at hx <;> subst hx
        · exact moves_fetch_group cfg i topic _ s h
        · exact (moves_finish gcfg i topic _ _ hw hc).leave fun _ => rfl
    · subst hx; exact .inl ⟨rfl, fun _ => rfl, rfl⟩
  | healFails i e =>
    simp only [GroupFirst.step] at hx
    split at hx
    · subst hx; exact .inl ⟨rfl, fun _ => rfl, rfl⟩
    · rename_i topic parts b retry hp
      have h1 := held_some hp
      have h : s.group.uses i = 0 := by have := hu i; have := hinv i; omega
      subst hx
      exact .inr ⟨i, rfl, moves_undetermined gcfg i topic e s h, .inr ⟨by rw [hu]; omega, rfl⟩⟩
    · rename_i topic hp
      have h1 := held_some hp
      have h : s.group.uses i = 0 := by have := hu i; have := hinv i; omega
      subst hx
      exact .inr ⟨i, rfl, moves_undetermined gcfg i topic e s h, .inr ⟨by rw [hu]; omega, rfl⟩⟩
    · rename_i topic hp
      have h1 := held_some hp
      have h : s.group.uses i = 0 := by have := hu i; have := hinv i; omega
      subst hx
      exact .inr ⟨i, rfl, (moves_raised i _ _ h).leave fun _ => rfl, .inr ⟨by rw [hu]; omega, rfl⟩⟩
    · subst hx; exact .inl ⟨rfl, fun _ => rfl, rfl⟩
  | group ev =>
    have hbase : ∀ bev : BEv GExt β, ev = .base bev → (∀ i t, bev ≠ .consume i t) →
        (x.1.last = 0 ∧ (∀ j, x.2.uses j = s.uses j) ∧ callsGroup (.group ev) = .none) ∨
        ∃ i, whoseCall (.group ev) = some i ∧ MovesFirst i s x ∧
          (callsGroup (.group ev) = some i ∨ s.uses i = 1 ∧ callsGroup (.group ev) = .none) := by
      rintro bev rfl hc
      have hx' : (.group (s.group.step gcfg cfg (.base bev)).1,
          { s with group := (s.group.step gcfg cfg (.base bev)).2 }) = x := by
        rw [← hx]
        cases bev <;> first | rfl | exact absurd rfl (hc _ _)
      subst hx'
      rcases group_base_moves gcfg cfg s.group bev hg hc with ⟨h1, h2⟩ | ⟨h0, h1, h2⟩
      · exact .inl ⟨h1, fun j => by simp only [GroupFirst.uses, h2], rfl⟩
      · have hst : held s.starting bev.number = 0 := by
          have := hinv bev.number
          simp only [GroupFirst.uses, GroupBusy.uses] at this
          omega
        refine .inr ⟨bev.number, ?_, h2.within hst, .inr ⟨?_, rfl⟩⟩
        · cases bev <;> first | rfl | exact absurd rfl (hc _ _) | exact absurd rfl (h0 _)
        · have := hinv bev.number
          simp only [GroupFirst.uses, GroupBusy.uses] at this ⊢
          omega
    have hcommit : ∀ k, ev.commitNumber = some k →
        (x.1.last = 0 ∧ (∀ j, x.2.uses j = s.uses j) ∧ callsGroup (.group ev) = .none) ∨
        ∃ i, whoseCall (.group ev) = some i ∧ MovesFirst i s x ∧
          (callsGroup (.group ev) = some i ∨ s.uses i = 1 ∧ callsGroup (.group ev) = .none) := by
      intro k hk
      have hx' : (.group (s.group.step gcfg cfg ev).1,
          { s with group := (s.group.step gcfg cfg ev).2 }) = x := by
        rw [← hx]
        cases ev <;> first | rfl | cases hk
      subst hx'
      have hw : whoseCall (.group ev) = some k := by cases ev <;> first | exact hk | cases hk
      have hf' : ∀ m, ev = .commit k m → s.uses k = 0 := by
        rintro m rfl
        exact hf k rfl
      have hn : (∀ m, ev ≠ .commit k m) → callsGroup (.group ev) = .none := by
        intro h
        cases ev with
        | commit i m => cases hk; exact absurd rfl (h m)
        | base bev => cases hk
        | _ => rfl
      rcases group_commit_moves gcfg cfg s.group ev k hg hk
        (fun m hm => by have := hf' m hm; have := hu k; omega) with ⟨h1, h2, h3⟩ | ⟨h1, h2⟩
      · exact .inl ⟨h1, fun j => by simp only [GroupFirst.uses, h2], hn h3⟩
      · rcases h2 with ⟨m, rfl⟩ | ⟨h2, h3⟩
        · have h0 := hf' m rfl
          exact .inr ⟨k, hw, h1.within (by have := hu k; omega), .inl rfl⟩
        · have := hinv k
          simp only [GroupFirst.uses, GroupBusy.uses] at this
          exact .inr ⟨k, hw, h1.within (by omega), .inr ⟨by
            simp only [GroupFirst.uses, GroupBusy.uses]; omega, hn h3⟩⟩
    cases ev with
    | base bev =>
      cases bev with
      | consume i t => subst hx; exact .inl ⟨rfl, fun _ => rfl, rfl⟩
      | _ => exact hbase _ rfl (by simp)
    | _ => exact hcommit _ rfl

/-- **C105** for `consume` and `commit_offsets` of a `GroupedConsumer`, from the call on. -/
theorem C105_grouped (gcfg : GCfg) (cfg : CCfg β δ) :
    EndsOnce (watchGrouped gcfg cfg) fun s =>
      s.starting = [] ∧ s.group.base.waiting = [] ∧ s.group.commits = [] := by
  have hb : ∀ (s : GroupFirst δ) (i : Nat), s.uses i ≤ 1 →
      ((watchGrouped (β := β) gcfg cfg).busy s i).toNat = s.uses i := by
    intro s i h
    simp only [watchGrouped, GroupFirst.uses, GroupBusy.uses, held] at h ⊢
    revert h
    cases s.starting.has i <;> cases s.group.base.waiting.has i <;>
      cases s.group.commits.has i <;> simp
  have hcalls : ∀ e, (watchGrouped (δ := δ) gcfg cfg).calls e = callsGroup e := fun e => by
    cases e with
    | group ev => cases ev <;> rfl
    | _ => rfl
  refine endsOnce_of _ _ (fun s => ∀ i, s.uses i ≤ 1) (fun s h => ⟨fun i => ?_, fun i => ?_⟩)
    fun s e hinv hf => ?_
  · simp [GroupFirst.uses, GroupBusy.uses, h.1, h.2.1, h.2.2, held, Dict.has, Dict.get?]
  · simp [watchGrouped, h.1, h.2.1, h.2.2, Dict.has, Dict.get?]
  · have hf' : ∀ i, callsGroup e = some i → s.uses i = 0 := by
      intro i hi
      rw [← hb s i (hinv i), hf i (by rw [hcalls]; exact hi)]; rfl
    have hl : ∀ i, whoseCall e = some i → ∀ j,
        (if (watchGrouped gcfg cfg).ends e (s.step gcfg cfg e).1 = some j then 1 else 0) =
          if i = j then (s.step gcfg cfg e).1.last else 0 := by
      intro i hi j
      cases hx : (s.step gcfg cfg e).1 with
      | group out => cases out <;> simp [watchGrouped, FirstGroupOut.last, GroupOut.last, hi]
      | _ => simp [watchGrouped, FirstGroupOut.last]
    show (∀ i, (s.step gcfg cfg e).2.uses i ≤ 1) ∧ _
    rcases group_moves gcfg cfg s e hinv hf' with ⟨h1, h2, h3⟩ | ⟨i, hi, hm, hc⟩
    · refine ⟨fun i => by rw [h2]; exact hinv i, fun i => ?_⟩
      rw [hb s i (hinv i), show (watchGrouped gcfg cfg).step s e = s.step gcfg cfg e from rfl,
        hb _ i (by rw [h2]; exact hinv i), h2, hcalls, h3]
      have he : (watchGrouped gcfg cfg).ends e (s.step gcfg cfg e).1 = .none := by
        cases hx : (s.step gcfg cfg e).1 with
        | group out =>
          rw [hx] at h1
          cases out <;> first | rfl | simp [FirstGroupOut.last, GroupOut.last] at h1
        | _ => rfl
      simp [he]
    · have hle : ∀ j, (s.step gcfg cfg e).2.uses j ≤ 1 := by
        intro j
        have := hm j
        have h2 := hinv j
        by_cases hj : i = j
        · simp only [hj, if_true] at this; omega
        · simp only [hj, if_false] at this; omega
      refine ⟨hle, fun j => ?_⟩
      rw [hb s j (hinv j), show (watchGrouped gcfg cfg).step s e = s.step gcfg cfg e from rfl,
        hb _ j (hle j), hl i hi j, hm j, hcalls]
      rcases hc with h | ⟨h1, h3⟩
      · have h0 := hf' i h
        by_cases hj : i = j
        · subst hj; simp [h, h0]
        · simp [h, hj]
      · by_cases hj : i = j
        · subst hj; simp [h3, h1]
        · simp [h3, hj]

/-! ### No call gets stuck -/

/-- One more event. -/
theorem stuck_cons {w : Watched S E O} {own : Nat → E → Prop} {i : Nat} {s : S} (e : E)
    (ho : own i e ∧ w.calls e = .none)
    (h : w.ends e (w.step s e).1 = some i ∨ ∃ es : List E, (∀ e ∈ es, own i e ∧ w.calls e = .none) ∧
      1 ≤ w.ended i (w.watch (w.step s e).2 es).1) :
    ∃ es : List E, (∀ e ∈ es, own i e ∧ w.calls e = .none) ∧ 1 ≤ w.ended i (w.watch s es).1 := by
  rcases h with h | ⟨es, h1, h2⟩
  · exact ⟨[e], by simpa using ho, by simp [Watched.ended, Watched.watch, h]⟩
  · refine ⟨e :: es, ?_, ?_⟩
    · intro e' he'
      rcases List.mem_cons.1 he' with rfl | he'
      · exact ho
      · exact h1 e' he'
    · simp only [Watched.ended, Watched.watch, List.countP_cons] at h2 ⊢
      omega

/-- What `send` number `i` waits for: its requests come to `r`, and its `heal()`, if there is one, to
`h`. -/
def OwnSend (r : Int → Res R) (h : Res Unit) (i : Nat) (e : SEv σ R) : Prop :=
  (∃ b, e = .outcome i b (r b)) ∨ e = .finish i ∨ e = .healed i h

/-- **C105**: whatever the requests of a `send` come to, and whatever `heal()` does, it ends when they
have: it does not wait for other `send`s. -/
theorem C105_sends_end (hs : Handlers σ R ρ) (known : σ → Int → Bool) (r : Int → Res R) (h : Res Unit) :
    NeverStuck (watchSends hs known) (OwnSend r h) := by
  intro s i hb
  have hheal : ∀ (s : Sends σ ρ) (results : Dict Int ρ), s.sends.get? i = some (.healing results) →
      ∃ es : List (SEv σ R), (∀ e ∈ es, OwnSend r h i e ∧ (watchSends hs known).calls e = .none) ∧
        1 ≤ (watchSends hs known).ended i ((watchSends hs known).watch s es).1 := by
    intro s results hg
    refine stuck_cons (.healed i h) ⟨.inr (.inr rfl), rfl⟩ (.inl ?_)
    cases h <;> simp [watchSends, Sends.step, hg]
  have hloop : ∀ (left : List Int) (s : Sends σ ρ) (results : Dict Int ρ),
      s.sends.get? i = some (.looping left results) →
      ∃ es : List (SEv σ R), (∀ e ∈ es, OwnSend r h i e ∧ (watchSends hs known).calls e = .none) ∧
        1 ≤ (watchSends hs known).ended i ((watchSends hs known).watch s es).1 := by
    intro left
    induction left with
    | nil =>
      intro s results hg
      refine stuck_cons (.finish i) ⟨.inr (.inl rfl), rfl⟩ ?_
      show (watchSends hs known).ends (.finish i) (s.step hs known (.finish i)).1 = some i ∨
        ∃ es : List (SEv σ R), _ ∧ 1 ≤ (watchSends hs known).ended i
          ((watchSends hs known).watch (s.step hs known (.finish i)).2 es).1
      by_cases hf : s.flag = true
      · right
        apply hheal _ results
        simp [Sends.step, hg, hf, Dict.get?_set]
      · left
        simp [watchSends, Sends.step, hg, hf]
    | cons b left ih =>
      intro s results hg
      refine stuck_cons (.outcome i b (r b)) ⟨.inl ⟨b, rfl⟩, rfl⟩ ?_
      show (watchSends hs known).ends (.outcome i b (r b)) (s.step hs known (.outcome i b (r b))).1 =
          some i ∨ ∃ es : List (SEv σ R), _ ∧ 1 ≤ (watchSends hs known).ended i
          ((watchSends hs known).watch (s.step hs known (.outcome i b (r b))).2 es).1
      generalize hx : s.step hs known (.outcome i b (r b)) = x
      simp only [Sends.step, hg, List.mem_cons, true_or, not_true_eq_false, if_false,
        List.erase_cons_head] at hx
      split at hx
      · subst hx
        exact .inr (ih _ results (by simp [Dict.get?_set]))
      · split at hx
        · subst hx; exact .inl rfl
        · split at hx <;> subst hx
          · exact .inl rfl
          · exact .inr (ih _ _ (by simp only [Dict.get?_set, if_true]; rfl))
  have hhas : s.sends.has i = true := hb
  cases hg : s.sends.get? i with
  | none => simp [Dict.has, hg] at hhas
  | some ph =>
    cases ph with
    | looping left results => exact hloop left s results hg
    | healing results => exact hheal s results hg

/-- What `consume` number `i` of a `SingleConsumer` waits for: its requests come to `ro` and `rf`, and
`heal()` is done. -/
def OwnSingle (ro : Int → Res OResp) (rf : Int → Res (FResp β)) (i : Nat) (e : FirstEv β) : Prop :=
  (∃ b, e = .offsets i b (ro b)) ∨ e = .determined i ∨ e = .healed i ∨
    (∃ b, e = .base (.outcome i b (rf b))) ∨ e = .base (.finish i)

/-- **C105**: whatever the requests of a `consume` of a `SingleConsumer` come to, it ends when they
have, and `heal()`, if it is called, is done: it does not wait for other calls. -/
theorem C105_single_ends (cfg : CCfg β δ) (ro : Int → Res OResp) (rf : Int → Res (FResp β)) :
    NeverStuck (watchSingle cfg) (OwnSingle ro rf) := by
  intro s i hb
  have hwait : ∀ (n : Nat) (s : SingleBusy δ) (w : Waiting δ), w.pending.length ≤ n →
      s.base.waiting.get? i = some w →
      ∃ es : List (FirstEv β), (∀ e ∈ es, OwnSingle ro rf i e ∧ (watchSingle (δ := δ) cfg).calls e = .none) ∧
        1 ≤ (watchSingle cfg).ended i ((watchSingle cfg).watch s es).1 := by
    intro n
    induction n with
    | zero =>
      intro s w hn hg
      have hp : w.pending = [] := List.length_eq_zero_iff.1 (by omega)
      refine stuck_cons (.base (.finish i)) ⟨.inr (.inr (.inr (.inr rfl))), rfl⟩ (.inl ?_)
      simp [watchSingle, SingleBusy.step, Busy.step, hg, hp, BOut.first, whose]
    | succ n ih =>
      intro s w hn hg
      cases hp : w.pending with
      | nil => exact ih s w (by simp [hp]) hg
      | cons q qs =>
        refine stuck_cons (.base (.outcome i q.broker (rf q.broker)))
          ⟨.inr (.inr (.inr (.inl ⟨_, rfl⟩))), rfl⟩ ?_
        show (watchSingle cfg).ends (.base (.outcome i q.broker (rf q.broker)))
            (s.step cfg (.base (.outcome i q.broker (rf q.broker)))).1 = some i ∨
          ∃ es : List (FirstEv β), _ ∧ 1 ≤ (watchSingle cfg).ended i
            ((watchSingle cfg).watch (s.step cfg (.base (.outcome i q.broker (rf q.broker)))).2 es).1
        have hlen : (w.pending.filter fun x => decide (x.broker ≠ q.broker)).length ≤ n := by
          rw [hp, List.filter_cons]
          simp only [ne_eq, not_true_eq_false, decide_false, Bool.false_eq_true, if_false]
          have := List.length_filter_le (fun x : FReq => decide (¬ x.broker = q.broker)) qs
          rw [hp] at hn
          simp only [List.length_cons] at hn
          omega
        generalize hx : s.step cfg (.base (.outcome i q.broker (rf q.broker))) = x
        have hm : q.broker ∈ w.pending.map (·.broker) := by simp [hp]
        simp only [SingleBusy.step, Busy.step, hg, hm, not_true_eq_false, if_false] at hx
        split at hx
        · subst hx
          exact .inr (ih _ _ hlen (by simp only [Dict.get?_set, if_true]; rfl))
        · split at hx <;> subst hx
          · exact .inl rfl
          · exact .inr (ih _ _ hlen (by simp only [Dict.get?_set, if_true]; rfl))
  have hfetch : ∀ (e : FirstEv β) (s s1 : SingleBusy δ) (topic : String) (parts : List Int),
      OwnSingle ro rf i e → whose e = some i → (watchSingle (δ := δ) cfg).calls e = .none →
      s.step cfg e = s1.fetch cfg i topic parts →
      ∃ es : List (FirstEv β), (∀ e ∈ es, OwnSingle ro rf i e ∧ (watchSingle (δ := δ) cfg).calls e = .none) ∧
        1 ≤ (watchSingle cfg).ended i ((watchSingle cfg).watch s es).1 := by
    intro e s s1 topic parts ho hw hc hs
    refine stuck_cons e ⟨ho, hc⟩ ?_
    show (watchSingle cfg).ends e (s.step cfg e).1 = some i ∨ ∃ es : List (FirstEv β), _ ∧
      1 ≤ (watchSingle cfg).ended i ((watchSingle cfg).watch (s.step cfg e).2 es).1
    rw [hs]
    generalize hx : s1.fetch cfg i topic parts = x
    simp only [SingleBusy.fetch] at hx
    split at hx
    · subst hx; exact .inl hw
    · split at hx <;> subst hx
      · exact .inl hw
      · exact .inr (hwait _ _ _ Nat.le.refl (by simp only [Dict.get?_set, if_true]; rfl))
  have hheal : ∀ (s : SingleBusy δ) (topic : String), s.starting.get? i = some (.healing topic) →
      ∃ es : List (FirstEv β), (∀ e ∈ es, OwnSingle ro rf i e ∧ (watchSingle (δ := δ) cfg).calls e = .none) ∧
        1 ≤ (watchSingle cfg).ended i ((watchSingle cfg).watch s es).1 := by
    intro s topic hg
    cases ha : allocated s.base.consumer.cluster.topics topic with
    | none =>
      refine stuck_cons (.healed i) ⟨.inr (.inr (.inl rfl)), rfl⟩ (.inl ?_)
      simp [watchSingle, SingleBusy.step, hg, ha, whose]
    | some parts =>
      exact hfetch (.healed i) s s topic parts (.inr (.inr (.inl rfl))) rfl rfl
        (by simp [SingleBusy.step, hg, ha])
  have hdet : ∀ (n : Nat) (s : SingleBusy δ) (topic : String) (pending : List OReq),
      pending.length ≤ n → s.starting.get? i = some (.determining topic pending) →
      ∃ es : List (FirstEv β), (∀ e ∈ es, OwnSingle ro rf i e ∧ (watchSingle (δ := δ) cfg).calls e = .none) ∧
        1 ≤ (watchSingle cfg).ended i ((watchSingle cfg).watch s es).1 := by
    intro n
    induction n with
    | zero =>
      intro s topic pending hn hg
      have hp : pending = [] := List.length_eq_zero_iff.1 (by omega)
      subst hp
      cases ha : allocated s.base.consumer.cluster.topics topic with
      | some parts =>
        exact hfetch (.determined i) s _ topic parts (.inr (.inl rfl)) rfl rfl
          (by simp only [SingleBusy.step, hg, SingleBusy.proceed, ha]; rfl)
      | none =>
        refine stuck_cons (.determined i) ⟨.inr (.inl rfl), rfl⟩ (.inr ?_)
        apply hheal _ topic
        simp [watchSingle, SingleBusy.step, hg, SingleBusy.proceed, ha, Dict.get?_set]
    | succ n ih =>
      intro s topic pending hn hg
      cases hp : pending with
      | nil => exact ih s topic [] (by simp) (by rw [hg, hp])
      | cons q qs =>
        refine stuck_cons (.offsets i q.broker (ro q.broker)) ⟨.inl ⟨_, rfl⟩, rfl⟩ ?_
        show (watchSingle cfg).ends (.offsets i q.broker (ro q.broker))
            (s.step cfg (.offsets i q.broker (ro q.broker))).1 = some i ∨
          ∃ es : List (FirstEv β), _ ∧ 1 ≤ (watchSingle cfg).ended i
            ((watchSingle cfg).watch (s.step cfg (.offsets i q.broker (ro q.broker))).2 es).1
        have hlen : (pending.filter fun x => decide (x.broker ≠ q.broker)).length ≤ n := by
          rw [hp, List.filter_cons]
          simp only [ne_eq, not_true_eq_false, decide_false, Bool.false_eq_true, if_false]
          have := List.length_filter_le (fun x : OReq => decide (¬ x.broker = q.broker)) qs
          rw [hp] at hn
          simp only [List.length_cons] at hn
          omega
        generalize hx : s.step cfg (.offsets i q.broker (ro q.broker)) = x
        have hm : q.broker ∈ pending.map (·.broker) := by simp [hp]
        simp only [SingleBusy.step, hg, hm, not_true_eq_false, if_false] at hx
        split at hx
        · subst hx
          exact .inr (ih _ topic _ hlen (by simp only [Dict.get?_set, if_true]))
        · split at hx <;> subst hx
          · exact .inr (ih _ topic _ hlen (by simp only [Dict.get?_set, if_true]))
          · rename_i e' c hh
            left
            cases e' <;> rfl
  have hhas : s.starting.has i = true ∨ s.base.waiting.has i = true := by
    simpa [watchSingle] using hb
  rcases hhas with h | h
  · cases hg : s.starting.get? i with
    | none => simp [Dict.has, hg] at h
    | some ph =>
      cases ph with
      | determining topic pending => exact hdet _ s topic pending Nat.le.refl hg
      | healing topic => exact hheal s topic hg
  · cases hg : s.base.waiting.get? i with
    | none => simp [Dict.has, hg] at h
    | some w => exact hwait _ s w Nat.le.refl hg

theorem offsetFetch_settled (t : String) (ps : List OFPart) (c c' : Grouped)
    (h : ∀ q ∈ ps, ¬ Retriable q.code) : handleOffsetFetchParts t ps c false ≠ (.ok true, c') := by
  induction ps generalizing c with
  | nil => simp [handleOffsetFetchParts]
  | cons q ps ih =>
    simp only [List.mem_cons, forall_eq_or_imp] at h
    have h14 : q.code ≠ Err.offsetsLoadInProgress := fun he => h.1 (by rw [he]; decide)
    have hr : q.code ∉ Err.retriable := h.1
    simp only [handleOffsetFetchParts, h14, hr, if_false]
    split
    · exact ih _ h.2
    · split <;> simp

theorem commitParts_settled (t : String) (ps : List (Int × Int)) (c : Grouped) (a : Bool)
    (h : ∀ q ∈ ps, ¬ Retriable q.2 ∧ q.2 ≠ 12) :
    (∃ e, (handleCommitParts t ps c (false, a)).1 = .error e) ∨
      (handleCommitParts t ps c (false, a)).1 = .ok (false, a) := by
  induction ps generalizing c with
  | nil => exact .inr rfl
  | cons q ps ih =>
    obtain ⟨p, code⟩ := q
    simp only [List.mem_cons, forall_eq_or_imp] at h
    have h12 : code ≠ Err.offsetMetadataTooLarge := h.1.2
    have hr : code ∉ Err.retriable := h.1.1
    simp only [handleCommitParts, h12, hr, if_false]
    split
    · exact ih _ h.2
    · split
      · exact .inl ⟨_, rfl⟩
      · exact ih _ h.2

theorem commitTopics_settled (ts : List (String × List (Int × Int))) (c : Grouped) (a : Bool)
    (h : ∀ t ∈ ts, ∀ q ∈ t.2, ¬ Retriable q.2 ∧ q.2 ≠ 12) :
    (∃ e, (handleCommitTopics ts c (false, a)).1 = .error e) ∨
      (handleCommitTopics ts c (false, a)).1 = .ok (false, a) := by
  induction ts generalizing c with
  | nil => exact .inr rfl
  | cons x ts ih =>
    obtain ⟨t, ps⟩ := x
    simp only [List.mem_cons, forall_eq_or_imp] at h
    simp only [handleCommitTopics]
    rcases commitParts_settled t ps c a h.1 with ⟨e, he⟩ | he
    · left
      split
      · exact ⟨_, rfl⟩
      · rename_i hh; rw [hh] at he; cases he
    · split
      · rename_i hh; rw [hh] at he; cases he
      · rename_i hh
        rw [hh] at he
        cases he
        exact ih _ h.2

/-- What `consume` or `commit_offsets` number `i` of a `GroupedConsumer` waits for: its requests come
to `ro`, `rf` and `rc`, and `heal()` is done. -/
def OwnGrouped (ro : Res OFResp) (rf : Int → Res (FResp β)) (rc : Res CommitResp) (i : Nat)
    (e : FirstGroupEv β) : Prop :=
  e = (match ro with | .ok r => .offsets i r | .error x => .offsetsFail i x) ∨ e = .goOn i ∨
    e = .healed i ∨ (∃ b, e = .group (.base (.outcome i b (rf b)))) ∨
    e = .group (.base (.finish i)) ∨
    e = .group (match rc with | .ok r => .answer i r | .error x => .fails i x) ∨ e = .group (.goOn i)

/-- A call can be brought to its end. -/
def Lands (gcfg : GCfg) (cfg : CCfg β δ) (own : Nat → FirstGroupEv β → Prop) (i : Nat)
    (s : GroupFirst δ) : Prop :=
  ∃ es : List (FirstGroupEv β),
    (∀ e ∈ es, own i e ∧ (watchGrouped (δ := δ) gcfg cfg).calls e = .none) ∧
      1 ≤ (watchGrouped gcfg cfg).ended i ((watchGrouped gcfg cfg).watch s es).1

theorem lands_step {gcfg : GCfg} {cfg : CCfg β δ} {own : Nat → FirstGroupEv β → Prop} {i : Nat}
    {s : GroupFirst δ} (e : FirstGroupEv β) (ho : own i e) (hw : whoseCall e = some i)
    (hc : callsGroup e = .none)
    (h : (s.step gcfg cfg e).1.last = 1 ∨ Lands gcfg cfg own i (s.step gcfg cfg e).2) :
    Lands gcfg cfg own i s := by
  have hc' : (watchGrouped (δ := δ) gcfg cfg).calls e = .none := by
    rw [← hc]
    cases e with
    | group ev => cases ev <;> rfl
    | _ => rfl
  refine stuck_cons e ⟨ho, hc'⟩ ?_
  rcases h with h | h
  · left
    show (watchGrouped gcfg cfg).ends e (s.step gcfg cfg e).1 = some i
    revert h
    cases (s.step gcfg cfg e).1 with
    | group out => cases out <;> simp [FirstGroupOut.last, GroupOut.last, watchGrouped, hw]
    | _ => simp [FirstGroupOut.last]
  · exact .inr h

/-- The call is over, or waits for the answer to a commit. -/
def OverOrAsking (i : Nat) (x : GroupOut δ × GroupBusy δ) : Prop :=
  x.1.last = 1 ∨ ∃ req result, x.2.commits.get? i = some ⟨.asking req, result⟩

theorem ask_over {cfg : CCfg β δ} (k : Nat) (m : String) (result : Option (String × Option (List δ)))
    (g : GroupBusy δ) : OverOrAsking k (g.ask cfg k m result) := by
  generalize hx : g.ask cfg k m result = x
  simp only [GroupBusy.ask] at hx
  split at hx
  · subst hx; exact .inl rfl
  · split at hx
    · subst hx; exact .inl rfl
    · split at hx
      · subst hx; exact .inl rfl
      · split at hx <;> subst hx
        · exact .inl rfl
        · exact .inr ⟨_, _, by simp only [Dict.get?_set, if_true]; rfl⟩

theorem finish_over (gcfg : GCfg) {cfg : CCfg β δ} (i : Nat) (topic : String) (out : Option (List δ))
    (g : GroupBusy δ) : OverOrAsking i (g.finish gcfg cfg i topic out) := by
  generalize hx : g.finish gcfg cfg i topic out = x
  simp only [GroupBusy.finish] at hx
  split at hx
  · subst hx; exact .inl rfl
  · split at hx <;> subst hx
    · exact ask_over _ _ _ _
    · exact .inl rfl

/-- **C105**: whatever the requests of a `consume` or `commit_offsets` of a `GroupedConsumer` come to,
as long as the answers of the coordinator do not ask for another try, it ends when they have, and
`heal()`, if it is called, is done: it does not wait for other calls. -/
theorem C105_grouped_ends (gcfg : GCfg) (cfg : CCfg β δ) (ro : Res OFResp)
    (rf : Int → Res (FResp β)) (rc : Res CommitResp)
    (hro : ∀ r, ro = .ok r → ∀ t ∈ r.topics, ∀ q ∈ t.2, ¬ Retriable q.code)
    (hrc : ∀ r, rc = .ok r → ∀ t ∈ r.topics, ∀ q ∈ t.2, ¬ Retriable q.2 ∧ q.2 ≠ 12) :
    NeverStuck (watchGrouped (δ := δ) gcfg cfg) (OwnGrouped ro rf rc) := by
  intro s i hb
  show Lands gcfg cfg (OwnGrouped ro rf rc) i s
  have hsettled : ∀ (s : GroupFirst δ) (m : String) (result : Option (String × Option (List δ))),
      s.group.commits.get? i = some ⟨.answered false m, result⟩ →
      Lands gcfg cfg (OwnGrouped ro rf rc) i s := by
    intro s m result hg
    refine lands_step (.group (.goOn i)) (.inr (.inr (.inr (.inr (.inr (.inr rfl)))))) rfl rfl (.inl ?_)
    cases result <;> simp [GroupFirst.step, GroupBusy.step, hg, FirstGroupOut.last, GroupOut.last]
  have hfailed : ∀ (s : GroupFirst δ) (result : Option (String × Option (List δ))),
      s.group.commits.get? i = some ⟨.failed, result⟩ →
      Lands gcfg cfg (OwnGrouped ro rf rc) i s := by
    intro s result hg
    refine lands_step (.group (.goOn i)) (.inr (.inr (.inr (.inr (.inr (.inr rfl)))))) rfl rfl (.inl ?_)
    simp [GroupFirst.step, GroupBusy.step, hg, FirstGroupOut.last, GroupOut.last]
  have hasking : ∀ (s : GroupFirst δ) (req : CommitReq) (result : Option (String × Option (List δ))),
      s.group.commits.get? i = some ⟨.asking req, result⟩ →
      Lands gcfg cfg (OwnGrouped ro rf rc) i s := by
    intro s req result hg
    cases rc with
    | error x =>
      refine lands_step (.group (.fails i x)) (.inr (.inr (.inr (.inr (.inr (.inl rfl)))))) rfl rfl ?_
      refine .inr (hfailed _ result ?_)
      simp [GroupFirst.step, GroupBusy.step, hg, Dict.get?_set]
    | ok rc =>
    replace hrc := hrc rc rfl
    refine lands_step (.group (.answer i rc)) (.inr (.inr (.inr (.inr (.inr (.inl rfl)))))) rfl rfl ?_
    generalize hx : s.step gcfg cfg (.group (.answer i rc)) = x
    simp only [GroupFirst.step, GroupBusy.step, hg] at hx
    rcases commitTopics_settled rc.topics s.group.base.consumer false hrc with ⟨e, he⟩ | he
    · left
      have hh : ∃ c, handleCommitResponse rc s.group.base.consumer = (.error e, c) :=
        ⟨_, Prod.ext he rfl⟩
      obtain ⟨c, hh⟩ := hh
      rw [hh] at hx
      subst hx
      rfl
    · right
      have hh : ∃ c, handleCommitResponse rc s.group.base.consumer = (.ok (false, false), c) :=
        ⟨_, Prod.ext he rfl⟩
      obtain ⟨c, hh⟩ := hh
      rw [hh] at hx
      subst hx
      exact hsettled _ _ _ (by simp only [Dict.get?_set, if_true]; rfl)
  have hover : ∀ (e : FirstGroupEv β) (s : GroupFirst δ) (x : GroupOut δ × GroupBusy δ)
      (d : Dict Nat GroupPhase), OwnGrouped ro rf rc i e → whoseCall e = some i →
      callsGroup e = .none → s.step gcfg cfg e = (.group x.1, ⟨x.2, d⟩) → OverOrAsking i x →
      Lands gcfg cfg (OwnGrouped ro rf rc) i s := by
    intro e s x d ho hw hc hs hx
    refine lands_step e ho hw hc ?_
    rw [hs]
    rcases hx with hx | ⟨req, result, hx⟩
    · exact .inl hx
    · exact .inr (hasking _ req result hx)
  have hcommit : ∀ (s : GroupFirst δ) (cm : Committing δ), s.group.commits.get? i = some cm →
      Lands gcfg cfg (OwnGrouped ro rf rc) i s := by
    intro s cm hg
    obtain ⟨ph, result⟩ := cm
    cases ph with
    | asking req => exact hasking s req result hg
    | failed => exact hfailed s result hg
    | answered retry m =>
      cases retry with
      | false => exact hsettled s m result hg
      | true =>
        exact hover (.group (.goOn i)) s _ _ (.inr (.inr (.inr (.inr (.inr (.inr rfl)))))) rfl rfl
          (by simp only [GroupFirst.step, GroupBusy.step, hg, if_true]; rfl) (ask_over i m result _)
  have hwait : ∀ (n : Nat) (s : GroupFirst δ) (w : Waiting δ), w.pending.length ≤ n →
      s.group.base.waiting.get? i = some w → Lands gcfg cfg (OwnGrouped ro rf rc) i s := by
    intro n
    induction n with
    | zero =>
      intro s w hn hg
      have hp : w.pending = [] := List.length_eq_zero_iff.1 (by omega)
      refine hover (.group (.base (.finish i))) s _ s.starting (.inr (.inr (.inr (.inr (.inl rfl))))) rfl rfl ?_
        (finish_over gcfg (cfg := cfg) i w.topic (some (w.results.vals.flatten.filter cfg.truthy))
          ⟨⟨{ s.group.base.consumer with heal := false }, s.group.base.waiting.erase i⟩, s.group.commits⟩)
      simp only [GroupFirst.step, GroupBusy.step, Busy.step, hg, hp, ne_eq, not_true_eq_false, if_false,
        BEv.number]
    | succ n ih =>
      intro s w hn hg
      cases hp : w.pending with
      | nil => exact ih s w (by simp [hp]) hg
      | cons q qs =>
        refine lands_step (.group (.base (.outcome i q.broker (rf q.broker))))
          (.inr (.inr (.inr (.inl ⟨_, rfl⟩)))) rfl rfl ?_
        have hlen : (w.pending.filter fun x => decide (x.broker ≠ q.broker)).length ≤ n := by
          rw [hp, List.filter_cons]
          simp only [ne_eq, not_true_eq_false, decide_false, Bool.false_eq_true, if_false]
          have := List.length_filter_le (fun x : FReq => decide (¬ x.broker = q.broker)) qs
          rw [hp] at hn
          simp only [List.length_cons] at hn
          omega
        generalize hx : s.step gcfg cfg (.group (.base (.outcome i q.broker (rf q.broker)))) = x
        have hm : q.broker ∈ w.pending.map (·.broker) := by simp [hp]
        simp only [GroupFirst.step, GroupBusy.step] at hx
        generalize hy : s.group.base.step Grouped.allocation cfg (.outcome i q.broker (rf q.broker)) = y at hx
        simp only [Busy.step, hg, hm, not_true_eq_false, if_false] at hy
        split at hy
        · subst hy; subst hx
          exact .inr (ih _ _ hlen (by simp only [Dict.get?_set, if_true]; rfl))
        · split at hy
          · subst hy; subst hx; exact .inl rfl
          · subst hy; subst hx
            exact .inr (ih _ _ hlen (by simp only [Dict.get?_set, if_true]; rfl))
  have hfetch : ∀ (e : FirstGroupEv β) (s s1 : GroupFirst δ) (topic : String) (parts : List Int),
      OwnGrouped ro rf rc i e → whoseCall e = some i → callsGroup e = .none →
      s.step gcfg cfg e = s1.fetch cfg i topic parts → Lands gcfg cfg (OwnGrouped ro rf rc) i s := by
    intro e s s1 topic parts ho hw hc hs
    refine lands_step e ho hw hc ?_
    rw [hs]
    generalize hx : s1.fetch cfg i topic parts = x
    simp only [GroupFirst.fetch] at hx
    split at hx
    · subst hx; exact .inl rfl
    · split at hx <;> subst hx
      · exact .inl rfl
      · exact .inr (hwait _ _ _ Nat.le.refl (by simp only [GroupFirst.leave, Dict.get?_set, if_true]; rfl))
  have hheal : ∀ (s : GroupFirst δ) (topic : String), s.starting.get? i = some (.healing topic) →
      Lands gcfg cfg (OwnGrouped ro rf rc) i s := by
    intro s topic hg
    cases ha : Grouped.allocation s.group.base.consumer with
    | error e =>
      exact hover (.healed i) s (.raised e, s.group) _ (.inr (.inr (.inl rfl))) rfl rfl
        (by simp only [GroupFirst.step, hg, ha, GroupFirst.leave]; rfl) (.inl rfl)
    | ok a =>
      cases hal : allocated a topic with
      | none =>
        exact hover (.healed i) s _ _ (.inr (.inr (.inl rfl))) rfl rfl
          (by simp only [GroupFirst.step, hg, ha, hal, GroupFirst.leave]; rfl)
          (finish_over gcfg (cfg := cfg) i topic (some []) s.group)
      | some parts =>
        exact hfetch (.healed i) s s topic parts (.inr (.inr (.inl rfl))) rfl rfl
          (by simp only [GroupFirst.step, hg, ha, hal])
  have hproceed : ∀ (e : FirstGroupEv β) (s s1 : GroupFirst δ) (topic : String),
      OwnGrouped ro rf rc i e → whoseCall e = some i → callsGroup e = .none →
      s.step gcfg cfg e = s1.proceed cfg i topic → Lands gcfg cfg (OwnGrouped ro rf rc) i s := by
    intro e s s1 topic ho hw hc hs
    cases ha : Grouped.allocation s1.group.base.consumer with
    | error e' =>
      exact hover e s (.raised e', s1.group) _ ho hw hc
        (by rw [hs]; simp only [GroupFirst.proceed, ha, GroupFirst.leave]; rfl) (.inl rfl)
    | ok a =>
      cases hal : allocated a topic with
      | none =>
        refine lands_step e ho hw hc (.inr (hheal _ topic ?_))
        rw [hs]
        simp [GroupFirst.proceed, ha, hal, Dict.get?_set]
      | some parts =>
        exact hfetch e s s1 topic parts ho hw hc (by rw [hs]; simp only [GroupFirst.proceed, ha, hal])
  have hdone : ∀ (s : GroupFirst δ) (topic : String) (parts : List Int) (b : Int),
      s.starting.get? i = some (.answered topic parts b false) →
      Lands gcfg cfg (OwnGrouped ro rf rc) i s := by
    intro s topic parts b hg
    by_cases hcb : s.group.base.consumer.ext.coordinator = some b
    · refine hproceed (.goOn i) s { s with group := { s.group with base := { s.group.base with consumer := { s.group.base.consumer with heal := false, synced := addSet s.group.base.consumer.synced topic } } } }
        topic (.inr (.inl rfl)) rfl rfl ?_
      simp [GroupFirst.step, hg, hcb]
    · refine lands_step (.goOn i) (.inr (.inl rfl)) rfl rfl (.inl ?_)
      simp [GroupFirst.step, hg, hcb, GroupFirst.leave, FirstGroupOut.last, GroupOut.last]
  have hlost : ∀ (s : GroupFirst δ) (topic : String), s.starting.get? i = some (.failed topic) →
      Lands gcfg cfg (OwnGrouped ro rf rc) i s := by
    intro s topic hg
    refine lands_step (.goOn i) (.inr (.inl rfl)) rfl rfl (.inl ?_)
    simp [GroupFirst.step, hg, GroupFirst.leave, FirstGroupOut.last, GroupOut.last]
  have hwant : ∀ (s : GroupFirst δ) (topic : String) (parts : List Int) (b : Int),
      s.starting.get? i = some (.asking topic parts b) →
      Lands gcfg cfg (OwnGrouped ro rf rc) i s := by
    intro s topic parts b hg
    cases ro with
    | error x =>
      refine lands_step (.offsetsFail i x) (.inl rfl) rfl rfl (.inr (hlost _ topic ?_))
      simp [GroupFirst.step, hg, Dict.get?_set]
    | ok ro =>
    replace hro := hro ro rfl
    generalize hh : handleOffsetFetchResponse ro s.group.base.consumer = y
    obtain ⟨res, c⟩ := y
    cases res with
    | ok retry =>
      cases retry with
      | true =>
        exfalso
        simp only [handleOffsetFetchResponse] at hh
        split at hh
        · cases hh
        · rename_i t ps more ht
          exact offsetFetch_settled t ps _ c (hro (t, ps) (by rw [ht]; simp)) hh
      | false =>
        refine lands_step (.offsets i ro) (.inl rfl) rfl rfl (.inr (hdone _ topic parts b ?_))
        simp [GroupFirst.step, hg, hh, Dict.get?_set]
    | error e =>
      by_cases he : e = .noOffsets
      · subst he
        exact hover (.offsets i ro) s _ _ (.inl rfl) rfl rfl
          (by simp only [GroupFirst.step, hg, hh, GroupFirst.undetermined, GroupFirst.leave]; rfl)
          (finish_over gcfg (cfg := cfg) i topic (some []) { s.group with base := { s.group.base with consumer := c } })
      · refine lands_step (.offsets i ro) (.inl rfl) rfl rfl (.inl ?_)
        simp only [GroupFirst.step, hg, hh, GroupFirst.undetermined]
        cases e <;> rfl
  have hhas : (s.starting.has i = true ∨ s.group.base.waiting.has i = true) ∨
      s.group.commits.has i = true := by
    simpa [watchGrouped] using hb
  rcases hhas with (h | h) | h
  · cases hg : s.starting.get? i with
    | none => simp [Dict.has, hg] at h
    | some ph =>
      cases ph with
      | asking topic parts b => exact hwant s topic parts b hg
      | answered topic parts b retry =>
        cases retry with
        | false => exact hdone s topic parts b hg
        | true =>
          refine lands_step (.goOn i) (.inr (.inl rfl)) rfl rfl ?_
          generalize hx : s.step gcfg cfg (.goOn i) = x
          simp only [GroupFirst.step, hg, if_true] at hx
          split at hx
          · subst hx; exact .inl rfl
          · simp only [GroupFirst.want] at hx
            split at hx
            · subst hx; exact .inl rfl
            · split at hx
              · subst hx; exact .inl rfl
              split at hx <;> subst hx
              · exact .inl rfl
              · exact .inr (hwant _ topic parts _ (by simp only [Dict.get?_set, if_true]; rfl))
      | healing topic => exact hheal s topic hg
      | failed topic => exact hlost s topic hg
  · cases hg : s.group.base.waiting.get? i with
    | none => simp [Dict.has, hg] at h
    | some w => exact hwait _ s w Nat.le.refl hg
  · cases hg : s.group.commits.get? i with
    | none => simp [Dict.has, hg] at h
    | some cm => exact hcommit s cm hg

/-! ### Concrete courses -/

/-- A check of `NumbersFree`. -/
def Spec.Watched.free (w : Watched S E O) : S → List E → Bool
  | _, [] => true
  | s, e :: es =>
    (match w.calls e with
      | some i => !w.busy s i
      | .none => true) && w.free (w.step s e).2 es

theorem free_sound {w : Watched S E O} {s : S} {es : List E} (h : w.free s es = true) :
    w.NumbersFree s es := by
  induction es generalizing s with
  | nil => trivial
  | cons e es ih =>
    simp only [Watched.free, Bool.and_eq_true] at h
    refine ⟨fun i hi => ?_, ih h.2⟩
    have := h.1
    rw [hi] at this
    simpa using this

-- Non-vacuity: two `send`s overlap; number 0 is used again; the last one is still under way.
example :
    let w := watchSends (fetchHandlers exCCfg) fun (c : Single) b => c.cluster.conns.has b
    let s : Sends Single (List Nat) := ⟨exConsumer, false, []⟩
    let es : List (SEv Single (FResp Nat)) := [.send 0 [7] fun _ => .none, .send 1 [7] fun _ => .none,
      .outcome 1 7 (.ok (exCoded 6)), .outcome 0 7 (.error .streamClosed), .finish 1, .healed 1 (.ok ()),
      .finish 0, .send 0 [7] fun _ => .none]
    w.NumbersFree s es ∧ w.called 0 (w.watch s es).1 = 2 ∧ w.ended 0 (w.watch s es).1 = 1 ∧
      w.ended 1 (w.watch s es).1 = 1 ∧ w.busy (w.watch s es).2 0 = true :=
  ⟨free_sound (by decide +kernel), by decide +kernel, by decide +kernel, by decide +kernel,
    by decide +kernel⟩

-- Non-vacuity: first `consume`s of two topics, one of which raises; the number is used again.
example :
    let w := watchSingle exCCfg
    let s : SingleBusy Nat := ⟨⟨exNew, []⟩, []⟩
    let es : List (FirstEv Nat) := [.call 0 "t" .unset 0, .call 1 "u" .unset 0,
      .offsets 0 7 (.ok (exTold "t" 2)), .healFails 1 .noBrokers, .determined 0, .call 1 "u" .unset 0,
      .base (.outcome 0 7 (.ok (exFetched "t" [(2, 7)]))), .base (.finish 0)]
    w.NumbersFree s es ∧ w.called 1 (w.watch s es).1 = 2 ∧ w.ended 1 (w.watch s es).1 = 1 ∧
      w.ended 0 (w.watch s es).1 = 1 ∧ w.busy (w.watch s es).2 1 = true :=
  ⟨free_sound (by decide +kernel), by decide +kernel, by decide +kernel, by decide +kernel,
    by decide +kernel⟩

-- Non-vacuity: a first `consume` determines its offsets at the second try, gets messages, and commits;
-- meanwhile the application commits.
example :
    let w := watchGrouped ⟨"me", true⟩ exCCfg
    let s : GroupFirst Nat := ⟨⟨⟨{ exTwoBrokers with synced := [] }, []⟩, []⟩, []⟩
    let es : List (FirstGroupEv Nat) := [.call 0 "t", .offsets 0 ⟨[("t", [⟨0, 3, 0⟩, ⟨1, -1, 14⟩])]⟩,
      .group (.commit 5 "x"), .goOn 0, .offsets 0 ⟨[("t", [⟨0, 3, 0⟩, ⟨1, 0, 0⟩])]⟩, .goOn 0,
      .group (.base (.outcome 0 7 (.ok (exPart 0 [(3, 99), (4, 6)])))), .group (.answer 5 ⟨[]⟩),
      .group (.base (.outcome 0 8 (.ok (exPart 1 [])))), .group (.base (.finish 0)), .group (.goOn 5),
      .group (.answer 0 ⟨[("t", [(0, 0), (1, 0)])]⟩)]
    w.NumbersFree s es ∧ w.ended 5 (w.watch s es).1 = 1 ∧ w.ended 0 (w.watch s es).1 = 0 ∧
      w.busy (w.watch s es).2 0 = true ∧
      ((w.watch s es).2.step ⟨"me", true⟩ exCCfg (.group (.goOn 0) : FirstGroupEv Nat)).1 =
        .group (.returned "t" (some [6])) :=
  ⟨free_sound (by decide +kernel), by decide +kernel, by decide +kernel, by decide +kernel,
    by decide +kernel⟩

end Kiel
