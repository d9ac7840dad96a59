import Verif.Spec.FirstConsumes
import Verif.Props.Overlap
import Verif.Props.Offsets
/-
C104: whole `consume`s of a single consumer that run at the same time.
-/
set_option autoImplicit false
namespace Kiel
open Spec

variable {ε β δ : Type}

/-! ### Answers to offset requests -/

theorem handleOffsetParts_taken (t : String) (ps : List OPart) (c : Single) :
    (∀ t' p, offsetOf (handleOffsetParts t ps c).2.offsets t' p =
      if t' = t then afterAnswer (taken ps) p (offsetOf c.offsets t' p)
      else offsetOf c.offsets t' p) ∧
    ∀ t', t' ∈ (handleOffsetParts t ps c).2.synced ↔
      t' ∈ c.synced ∧ ¬ (t' = t ∧ ∃ q ∈ taken ps, Retriable q.code) := by
  have hsplit : taken ps ++ ps.dropWhile
      (fun q => decide (Retriable q.code ∨ q.code = 0 ∧ q.offsets ≠ [])) = ps :=
    List.takeWhile_append_dropWhile
  have hmem : ∀ q ∈ taken ps, Retriable q.code ∨ q.code = 0 ∧ q.offsets ≠ [] := fun q hq => by
    have hall := List.all_eq_true.1 (List.all_takeWhile (l := ps)
      (p := fun q : OPart => decide (Retriable q.code ∨ q.code = 0 ∧ q.offsets ≠ []))) q hq
    exact of_decide_eq_true hall
  obtain ⟨o, s, h, g1, g2, g3, _⟩ := handleOffsetParts_ok t (taken ps) (ps.dropWhile
      (fun q => decide (Retriable q.code ∨ q.code = 0 ∧ q.offsets ≠ []))) c
    (fun q hq => by
      rintro ⟨h0, hr⟩
      rcases hmem q hq with h | h
      · exact hr h
      · exact h0 h.1)
    (fun q hq h0 => by
      rcases hmem q hq with h | h
      · rw [h0] at h; exact absurd h (by decide)
      · exact h.2)
  rw [hsplit] at g1
  have hend : ∀ c : Single, (handleOffsetParts t (ps.dropWhile
      (fun q => decide (Retriable q.code ∨ q.code = 0 ∧ q.offsets ≠ []))) c).2 = c := by
    intro c
    cases hd : ps.dropWhile (fun q => decide (Retriable q.code ∨ q.code = 0 ∧ q.offsets ≠ [])) with
    | nil => rfl
    | cons q rest =>
      have hq := List.head?_dropWhile_not
        (fun q : OPart => decide (Retriable q.code ∨ q.code = 0 ∧ q.offsets ≠ [])) ps
      rw [hd] at hq
      simp only [List.head?_cons, decide_eq_false_iff_not, not_or, not_and] at hq
      obtain ⟨h1, h2⟩ := hq
      rw [handleOffsetParts]
      split
      · rename_i h0
        have := h2 h0
        rw [not_not] at this
        rw [this]
      · split
        · rename_i hr
          exact absurd hr h1
        · split <;> rfl
  rw [g1, hend]
  exact ⟨g2, g3⟩

theorem startOf_append (a b : List (String × List OPart)) (o : String → Int → Int) :
    startOf (a ++ b) o = startOf b (startOf a o) := by
  induction a generalizing o with
  | nil => rfl
  | cons x a ih =>
    obtain ⟨t, ps⟩ := x
    exact ih _

/-! ### The invariant -/

/-- Nothing happens to messages. -/
theorem exact_same {cfg : CCfg β δ} {logs : String → Int → List (Int × β)}
    {o : String → Int → Int} {b b' : Busy ε δ} {outs : List (String × δ)}
    (hx : Exact cfg logs o b outs) (hw : b'.waiting = b.waiting)
    (ho : ∀ t p, offsetOf b'.consumer.offsets t p = offsetOf b.consumer.offsets t p) :
    Exact cfg logs o b' outs := by
  obtain ⟨so, hand, hso, hhand, hnone, got⟩ := hx.got
  refine ⟨⟨by rw [hw]; exact hx.sound.nodup, by rw [hw]; exact hx.sound.each⟩,
    by rw [hw]; exact hx.one, ?_, fun t p => by rw [ho]; exact hx.le t p,
    so, hand, hso, by rw [hw]; exact hhand, by rw [hw]; exact hnone,
    fun t p => by rw [ho]; exact got t p⟩
  intro p x hxm q hq f hf hid
  rw [hw] at hxm
  rw [ho]
  exact hx.asked p x hxm q hq f hf hid

theorem interval_empty (log : List (Int × β)) (x : Int) :
    log.filter (fun m => decide (x ≤ m.1 ∧ m.1 < x)) = [] := by
  rw [List.filter_eq_nil_iff]
  intro m _
  simp only [decide_eq_true_eq]
  omega

/-- A topic of which nothing has been consumed, and for which no `consume` waits, starts
elsewhere. -/
theorem exact_moved {cfg : CCfg β δ} {logs : String → Int → List (Int × β)}
    {o o' : String → Int → Int} {b b' : Busy ε δ} {outs : List (String × δ)} {t : String}
    (hx : Exact cfg logs o b outs) (hw : b'.waiting = b.waiting)
    (ht : ∀ x ∈ b.waiting, x.2.topic ≠ t)
    (h0 : ∀ p, o t p = offsetOf b.consumer.offsets t p)
    (h1 : ∀ p, o' t p = offsetOf b'.consumer.offsets t p)
    (h2 : ∀ t' p, t' ≠ t → offsetOf b'.consumer.offsets t' p = offsetOf b.consumer.offsets t' p)
    (h3 : ∀ t' p, t' ≠ t → o' t' p = o t' p) : Exact cfg logs o' b' outs := by
  obtain ⟨so, hand, hso, hhand, hnone, got⟩ := hx.got
  refine ⟨⟨by rw [hw]; exact hx.sound.nodup, by rw [hw]; exact hx.sound.each⟩,
    by rw [hw]; exact hx.one, ?_, ?_,
    so, hand, hso, by rw [hw]; exact hhand, by rw [hw]; exact hnone, ?_⟩
  · intro p x hxm q hq f hf hid
    rw [hw] at hxm
    rw [h2 _ _ (ht x hxm)]
    exact hx.asked p x hxm q hq f hf hid
  · intro t' p
    by_cases he : t' = t
    · rw [he, h1]
    · rw [h2 _ _ he, h3 _ _ he]; exact hx.le t' p
  · intro t' p
    by_cases he : t' = t
    · have := got t' p
      rw [he, h0, interval_empty] at this
      rw [he, h1, interval_empty]
      exact this
    · rw [h2 _ _ he, h3 _ _ he]; exact got t' p

/-- What an account of messages has to stand, to be kept through whole `consume`s that run at the
same time: `X o b outs` says about the messages of the logs from the offsets `o` on which of them
are in `outs`, or held by the `consume`s that wait in `b`. -/
structure Account (batch : List (Int × β) → Int → List (Int × β) → Prop)
    (cfg : CCfg β δ) (logs : String → Int → List (Int × β))
    (X : (String → Int → Int) → Busy ε δ → List (String × δ) → Prop) : Prop where
  sound : ∀ {o b outs}, X o b outs → SoundBusy b
  same : ∀ {o b b' outs}, X o b outs → b'.waiting = b.waiting →
    (∀ t p, offsetOf b'.consumer.offsets t p = offsetOf b.consumer.offsets t p) → X o b' outs
  moved : ∀ {o o' b b' outs t}, X o b outs → b'.waiting = b.waiting →
    (∀ x ∈ b.waiting, x.2.topic ≠ t) → (∀ p, o t p = offsetOf b.consumer.offsets t p) →
    (∀ p, o' t p = offsetOf b'.consumer.offsets t p) →
    (∀ t' p, t' ≠ t → offsetOf b'.consumer.offsets t' p = offsetOf b.consumer.offsets t' p) →
    (∀ t' p, t' ≠ t → o' t' p = o t' p) → X o' b' outs
  begins : ∀ {o b b' outs outs'}, X o b outs → SoundBusy b' → ∀ {i topic parts reqs},
    (∀ x ∈ b.waiting, x.2.topic ≠ topic) → outs' = [] →
    FetchesExactly cfg b.consumer topic parts reqs →
    b'.waiting = b.waiting ++ [(i, ⟨topic, reqs, []⟩)] →
    (∀ t p, offsetOf b'.consumer.offsets t p = offsetOf b.consumer.offsets t p) →
    X o b' (outs ++ outs')
  step : ∀ {allocation : Consumer ε → Res (Dict String (List Int))} {o b b' ev out outs},
    X o b outs → Fair batch logs b ev → Apart b ev → b.step allocation cfg ev = (out, b') →
    (∀ e, out ≠ .raised e) → X o b' (outs ++ returnedBy out)

theorem account_exact {cfg : CCfg β δ} {logs : String → Int → List (Int × β)}
    (hl : ∀ t p, IsLog (logs t p)) :
    Account (ε := ε) Batch cfg logs (Exact cfg logs) where
  sound h := h.sound
  same := exact_same
  moved := exact_moved
  begins := exact_begins
  step := exact_step hl

/-- That nothing is skipped. -/
def AllCovered (cfg : CCfg β δ) (logs : String → Int → List (Int × β)) (o : String → Int → Int)
    (b : Busy ε δ) (outs : List (String × δ)) : Prop :=
  ∀ t p, ∃ f, Covered cfg (logs t p) t p (o t p) f b outs

theorem account_covered {cfg : CCfg β δ} {logs : String → Int → List (Int × β)}
    (hl : ∀ t p, IsLog (logs t p)) :
    Account (ε := ε) WideBatch cfg logs (AllCovered cfg logs) where
  sound h := (h "" 0).choose_spec.sound
  same := by
    intro o b b' outs h hw ho t p
    obtain ⟨f, hf⟩ := h t p
    refine ⟨f, ⟨by rw [hw]; exact hf.sound.nodup, by rw [hw]; exact hf.sound.each⟩,
      by rw [ho]; exact hf.now, by rw [hw]; exact hf.asked, ?_⟩
    intro m hm d hd htr g1 g2
    rw [mem_inHand, hw, ← mem_inHand]
    exact hf.got m hm d hd htr g1 g2
  moved := by
    intro o o' b b' outs t h hw ht h0 h1 h2 h3 t' p
    obtain ⟨f, hf⟩ := h t' p
    have hs : SoundBusy b' := ⟨by rw [hw]; exact hf.sound.nodup, by rw [hw]; exact hf.sound.each⟩
    by_cases he : t' = t
    · subst he
      refine ⟨o' t' p, hs, by rw [h1], ?_, fun m _ d _ _ g1 g2 => by omega⟩
      intro x hx hxt
      rw [hw] at hx
      exact absurd hxt (ht x hx)
    · refine ⟨f, hs, by rw [h2 _ _ he]; exact hf.now, by rw [hw]; exact hf.asked, ?_⟩
      intro m hm d hd htr g1 g2
      rw [mem_inHand, hw, ← mem_inHand]
      exact hf.got m hm d hd htr (by rw [h3 _ _ he] at g1; exact g1) g2
  begins := by
    intro o b b' outs outs' h hs i topic parts reqs ha h1 h2 h3 h4 t p
    obtain ⟨f, hf⟩ := h t p
    refine ⟨f, hs, by rw [h4]; exact hf.now, ?_, ?_⟩
    · intro x hx hxt q hq g hg hid
      rw [h3] at hx
      rcases List.mem_append.1 hx with e | e
      · exact hf.asked x e hxt q hq g hg hid
      · simp only [List.mem_singleton] at e
        subst e
        simp only at hxt hq
        subst hxt
        rw [h2.offsets q hq g hg, hid]
        exact hf.now
    · intro m hm d hd htr g1 g2
      rw [h1, List.append_nil]
      refine (hf.got m hm d hd htr g1 g2).imp_right fun hh => ?_
      obtain ⟨x, hx, hr⟩ := mem_inHand.1 hh
      exact mem_inHand.2 ⟨x, by rw [h3]; exact List.mem_append_left _ hx, hr⟩
  step := by
    intro allocation o b b' ev out outs h hf ha hs hno t p
    obtain ⟨f, hc⟩ := h t p
    exact covered_step hl hc hf hs hno

variable {batch : List (Int × β) → Int → List (Int × β) → Prop}

/-- The invariant: what is known about the messages; numbers and topics of `consume`s under way
differ; a topic is known to have offsets exactly if its `consume` is past determining them; and
nothing has been consumed of those that are not. -/
structure FirstExact (X : (String → Int → Int) → Busy Unit δ → List (String × δ) → Prop)
    (o : String → Int → Int) (s : SingleBusy δ) (outs : List (String × δ)) : Prop where
  base : X o s.base outs
  keys : s.starting.keys.Nodup
  one : ∀ x ∈ s.starting, ∀ y ∈ s.starting, x.2.topic = y.2.topic → x = y
  apart : ∀ x ∈ s.starting, ∀ w ∈ s.base.waiting, w.2.topic ≠ x.2.topic
  free : ∀ x ∈ s.starting, s.base.waiting.get? x.1 = .none
  waits : ∀ w ∈ s.base.waiting, w.2.topic ∈ s.base.consumer.synced
  asks : ∀ i t pending, (i, FirstPhase.determining t pending) ∈ s.starting →
    t ∉ s.base.consumer.synced ∧ ∀ q ∈ pending, q.topic = t
  heals : ∀ i t, (i, FirstPhase.healing t) ∈ s.starting → t ∈ s.base.consumer.synced
  fresh : ∀ t, t ∉ s.base.consumer.synced → ∀ p, o t p = offsetOf s.base.consumer.offsets t p

theorem FirstExact.erase {X : (String → Int → Int) → Busy Unit δ → List (String × δ) → Prop}
    {o : String → Int → Int} {s : SingleBusy δ} {outs : List (String × δ)}
    (h : FirstExact X o s outs) (i : Nat) :
    FirstExact X o ⟨s.base, s.starting.erase i⟩ outs := by
  have hm : ∀ x ∈ s.starting.erase i, x ∈ s.starting := fun x hx => (Dict.mem_erase.1 hx).1
  exact ⟨h.base, Dict.nodup_erase h.keys _, fun x hx y hy => h.one x (hm x hx) y (hm y hy),
    fun x hx => h.apart x (hm x hx), fun x hx => h.free x (hm x hx), h.waits,
    fun j t pending hx => h.asks j t pending (hm _ hx), fun j t hx => h.heals j t (hm _ hx), h.fresh⟩

/-- The consumer changes, but neither offsets nor what is known about them. -/
theorem FirstExact.same {cfg : CCfg β δ} {logs : String → Int → List (Int × β)}
    {X : (String → Int → Int) → Busy Unit δ → List (String × δ) → Prop}
    (hX : Account batch cfg logs X)
    {o : String → Int → Int} {s : SingleBusy δ} {outs : List (String × δ)}
    (h : FirstExact X o s outs) {c : Single}
    (ho : ∀ t p, offsetOf c.offsets t p = offsetOf s.base.consumer.offsets t p)
    (hs : ∀ t, t ∈ c.synced ↔ t ∈ s.base.consumer.synced) :
    FirstExact X o ⟨⟨c, s.base.waiting⟩, s.starting⟩ outs :=
  ⟨hX.same h.base rfl ho, h.keys, h.one, h.apart, h.free, fun w hw => (hs _).2 (h.waits w hw),
    fun j t pending hx => ⟨fun hc => (h.asks j t pending hx).1 ((hs _).1 hc),
      (h.asks j t pending hx).2⟩, fun j t hx => (hs _).2 (h.heals j t hx),
    fun t ht p => by
      have := h.fresh t (fun hc => ht ((hs _).2 hc)) p
      rw [this]; exact (ho t p).symm⟩

/-- A `consume` enters another phase. -/
theorem FirstExact.set {X : (String → Int → Int) → Busy Unit δ → List (String × δ) → Prop}
    {o : String → Int → Int} {s : SingleBusy δ} {outs : List (String × δ)} {i : Nat} {ph : FirstPhase}
    (hk : s.starting.keys.Nodup)
    (h : FirstExact X o ⟨s.base, s.starting.erase i⟩ outs)
    (hi : s.base.waiting.get? i = .none) (hw : ∀ w ∈ s.base.waiting, w.2.topic ≠ ph.topic)
    (hst : ∀ x ∈ s.starting, x.1 ≠ i → x.2.topic ≠ ph.topic)
    (h1 : ∀ t pending, ph = .determining t pending →
      t ∉ s.base.consumer.synced ∧ ∀ q ∈ pending, q.topic = t)
    (h2 : ∀ t, ph = .healing t → t ∈ s.base.consumer.synced) :
    FirstExact X o ⟨s.base, s.starting.set i ph⟩ outs := by
  have hm : ∀ x ∈ s.starting.set i ph, x = (i, ph) ∨ x ∈ s.starting ∧ x.1 ≠ i :=
    fun x hx => mem_of_set hk hx
  have he : ∀ x, x ∈ s.starting ∧ x.1 ≠ i → x ∈ s.starting.erase i := fun x hx => Dict.mem_erase.2 hx
  refine ⟨h.base, Dict.nodup_set hk _ _, ?_, ?_, ?_, h.waits, ?_, ?_, h.fresh⟩
  · intro x hx y hy hxy
    rcases hm x hx with rfl | hx <;> rcases hm y hy with rfl | hy
    · rfl
    · exact absurd hxy.symm (hst y hy.1 hy.2)
    · exact absurd hxy (hst x hx.1 hx.2)
    · exact h.one x (he x hx) y (he y hy) hxy
  · intro x hx
    rcases hm x hx with rfl | hx
    · exact hw
    · exact h.apart x (he x hx)
  · intro x hx
    rcases hm x hx with rfl | hx
    · exact hi
    · exact h.free x (he x hx)
  · intro j t pending hx
    rcases hm _ hx with hx | hx
    · exact h1 t pending (Prod.mk.inj hx).2.symm
    · exact h.asks j t pending (he _ hx)
  · intro j t hx
    rcases hm _ hx with hx | hx
    · exact h2 t (Prod.mk.inj hx).2.symm
    · exact h.heals j t (he _ hx)

theorem first_fetch {cfg : CCfg β δ} {logs : String → Int → List (Int × β)}
    {X : (String → Int → Int) → Busy Unit δ → List (String × δ) → Prop}
    (hX : Account batch cfg logs X)
    {o : String → Int → Int} {s s' : SingleBusy δ} {outs : List (String × δ)} {i : Nat}
    {topic : String} {parts : List Int} {out : FirstOut δ}
    (h : FirstExact X o ⟨s.base, s.starting.erase i⟩ outs)
    (hi : s.base.waiting.get? i = .none) (hw : ∀ w ∈ s.base.waiting, w.2.topic ≠ topic)
    (hst : ∀ x ∈ s.starting, x.1 ≠ i → x.2.topic ≠ topic)
    (hy : topic ∈ s.base.consumer.synced)
    (hs : s.fetch cfg i topic parts = (out, s')) :
    FirstExact X o s' (outs ++ firstReturned out) := by
  unfold SingleBusy.fetch at hs
  cases hf : s.base.consumer.fetches cfg topic parts with
  | mk res c =>
    obtain ⟨_, f2, f3, _, _, _, f7, _⟩ := fetches_spec cfg topic parts _ _ _ hf
    have hsame := h.same hX (c := c) f2 (by intro t; rw [f3])
    rw [hf] at hs
    cases res with
    | error e =>
      cases hs
      simpa [firstReturned] using hsame
    | ok reqs =>
      dsimp only at hs
      split at hs
      · cases hs
        simpa [firstReturned] using hsame
      · cases hs
        have hfe := f7 _ rfl
        have hk := Dict.get?_eq_none.1 hi
        have hset := Dict.set_of_not_mem (v := (⟨topic, reqs, []⟩ : Waiting δ)) hk
        have hsound : SoundBusy (⟨c, s.base.waiting.set i ⟨topic, reqs, []⟩⟩ : Busy Unit δ) := by
          refine ⟨Dict.nodup_set (hX.sound h.base).nodup _ _, ?_⟩
          intro x hx
          rcases mem_of_set (hX.sound h.base).nodup hx with rfl | ⟨hx, _⟩
          · exact soundWait_fetches hfe
          · exact (hX.sound h.base).each x hx
        have hm : ∀ w ∈ s.base.waiting.set i (⟨topic, reqs, []⟩ : Waiting δ),
            w = (i, ⟨topic, reqs, []⟩) ∨ w ∈ s.base.waiting ∧ w.1 ≠ i :=
          fun w hw => mem_of_set (hX.sound h.base).nodup hw
        have hst' : ∀ x ∈ s.starting.erase i, x.2.topic ≠ topic := fun x hx =>
          hst x (Dict.mem_erase.1 hx).1 (Dict.mem_erase.1 hx).2
        refine ⟨hX.begins h.base hsound hw rfl hfe hset f2, hsame.keys, hsame.one, ?_, ?_, ?_,
          hsame.asks, hsame.heals, hsame.fresh⟩
        · intro x hx w hw'
          rcases hm w hw' with rfl | hw'
          · exact fun e => hst' x hx e.symm
          · exact h.apart x hx w hw'.1
        · intro x hx
          have : i ≠ x.1 := fun e => (Dict.mem_erase.1 hx).2 e.symm
          simp only [Dict.get?_set, if_neg this]
          exact h.free x hx
        · intro w hw'
          rcases hm w hw' with rfl | hw'
          · show topic ∈ c.synced
            rw [f3]; exact hy
          · exact hsame.waits w hw'.1

theorem first_proceed {cfg : CCfg β δ} {logs : String → Int → List (Int × β)}
    {X : (String → Int → Int) → Busy Unit δ → List (String × δ) → Prop}
    (hX : Account batch cfg logs X)
    {o : String → Int → Int} {s s' : SingleBusy δ} {outs : List (String × δ)} {i : Nat}
    {topic : String} {out : FirstOut δ} (hk : s.starting.keys.Nodup)
    (h : FirstExact X o ⟨s.base, s.starting.erase i⟩ outs)
    (hi : s.base.waiting.get? i = .none) (hw : ∀ w ∈ s.base.waiting, w.2.topic ≠ topic)
    (hst : ∀ x ∈ s.starting, x.1 ≠ i → x.2.topic ≠ topic)
    (hy : topic ∈ s.base.consumer.synced)
    (hs : s.proceed cfg i topic = (out, s')) :
    FirstExact X o s' (outs ++ firstReturned out) := by
  unfold SingleBusy.proceed at hs
  split at hs
  · exact first_fetch hX h hi hw hst hy hs
  · cases hs
    rw [show firstReturned (FirstOut.healing : FirstOut δ) = [] from rfl, List.append_nil]
    refine h.set hk hi hw hst ?_ ?_
    · intro t pending e; cases e
    · intro t e; cases e; exact hy

theorem firstReturned_end (topic : String) (e : Exc) :
    firstReturned (determineEnd topic e : FirstOut δ) = [] := by cases e <;> rfl

theorem first_determine {cfg : CCfg β δ} {logs : String → Int → List (Int × β)}
    {X : (String → Int → Int) → Busy Unit δ → List (String × δ) → Prop}
    (hX : Account batch cfg logs X)
    {o : String → Int → Int} {s s' : SingleBusy δ} {outs : List (String × δ)} {i : Nat}
    {topic : String} {start : Start} {now : Int} {out : FirstOut δ}
    (h : FirstExact X o s outs) (hi : s.base.waiting.get? i = .none)
    (hw : ∀ w ∈ s.base.waiting, w.2.topic ≠ topic)
    (hst : ∀ x ∈ s.starting, x.2.topic ≠ topic)
    (hy : topic ∉ s.base.consumer.synced)
    (hs : s.determine cfg i topic start now = (out, s')) :
    FirstExact X o s' (outs ++ firstReturned out) := by
  unfold SingleBusy.determine at hs
  dsimp only at hs
  split at hs
  · rename_i e cl hg
    cases hs
    simpa [firstReturned_end] using h.same hX (c := { s.base.consumer with cluster := cl })
      (fun _ _ => rfl) (fun _ => Iff.rfl)
  · rename_i ordered cl hg
    have hsame := h.same hX (c := { s.base.consumer with cluster := cl }) (fun _ _ => rfl)
      (fun _ => Iff.rfl)
    split at hs
    · cases hs
      simpa [firstReturned_end] using hsame
    · cases hs
      rw [show ∀ r, firstReturned (FirstOut.asked r : FirstOut δ) = [] from fun _ => rfl,
        List.append_nil]
      refine FirstExact.set (s := ⟨⟨{ s.base.consumer with cluster := cl }, s.base.waiting⟩,
        s.starting⟩) h.keys (hsame.erase i) hi hw (fun x hx _ => hst x hx) ?_ ?_
      · intro t pending e
        cases e
        refine ⟨hy, ?_⟩
        intro q hq
        obtain ⟨e, _, rfl⟩ := List.mem_map.1 hq
        rfl
      · intro t e; cases e

/-- What happens to `consume`s that wait for messages, if nothing raises: those under way stay
what they are, offsets of other topics too, and topics with known offsets. -/
theorem waiting_step {allocation : Consumer ε → Res (Dict String (List Int))} {cfg : CCfg β δ}
    {logs : String → Int → List (Int × β)} {b b' : Busy ε δ} {ev : BEv ε β} {out : BOut δ}
    (hs : SoundBusy b) (h : b.step allocation cfg ev = (out, b')) (hno : ∀ e, out ≠ .raised e)
    (hc : ∀ i t, ev ≠ .consume i t) (hf : Fair batch logs b ev)
    (hoff : ∀ f, ev = .other f → ∀ c, (f c).offsets = c.offsets ∧ (f c).synced = c.synced) :
    (∀ x ∈ b'.waiting, ∃ y ∈ b.waiting, y.1 = x.1 ∧ y.2.topic = x.2.topic) ∧
    (∀ t, t ∈ b'.consumer.synced ↔ t ∈ b.consumer.synced) ∧
    ∀ t, (∀ x ∈ b.waiting, x.2.topic ≠ t) → ∀ p,
      offsetOf b'.consumer.offsets t p = offsetOf b.consumer.offsets t p := by
  cases ev with
  | consume i t => exact absurd rfl (hc i t)
  | outcome i broker r =>
    simp only [Busy.step] at h
    split at h
    · cases h; exact ⟨fun x hx => ⟨x, hx, rfl, rfl⟩, fun _ => Iff.rfl, fun _ _ _ => rfl⟩
    · rename_i w hw
      have hm := Dict.mem_of_get? hw
      split at h
      · cases h; exact ⟨fun x hx => ⟨x, hx, rfl, rfl⟩, fun _ => Iff.rfl, fun _ _ _ => rfl⟩
      · rename_i hb
        rw [not_not, List.mem_map] at hb
        obtain ⟨q, hq, rfl⟩ := hb
        split at h
        · simp only [Prod.mk.injEq] at h
          obtain ⟨rfl, rfl⟩ := h
          refine ⟨?_, fun t => by simp only; split <;> rfl, fun t _ p => by simp only; split <;> rfl⟩
          intro x hx
          rcases mem_of_set hs.nodup hx with rfl | ⟨hx, _⟩
          · exact ⟨_, hm, rfl, rfl⟩
          · exact ⟨x, hx, rfl, rfl⟩
        · rename_i resp
          split at h
          · cases h; exact absurd rfl (hno _)
          · rename_i x c hh
            simp only [Prod.mk.injEq] at h
            obtain ⟨rfl, rfl⟩ := h
            obtain ⟨done, rest, g1, g2, _, g4, _⟩ := handleFetch_spec cfg resp _ _ _ hh
            obtain ⟨rfl, rfl, _⟩ := g4 _ rfl
            rw [List.append_nil] at g1
            subst g1
            have hhon : HonestAnswer batch logs q resp := hf w hw q hq rfl
            have hqt : q.topic = w.topic := (hs.each _ hm).topic q hq
            refine ⟨?_, ?_, ?_⟩
            · intro x hx
              rcases mem_of_set hs.nodup hx with rfl | ⟨hx, _⟩
              · exact ⟨_, hm, rfl, rfl⟩
              · exact ⟨x, hx, rfl, rfl⟩
            · intro t
              rw [g2.synced]
              refine and_iff_left fun a ha _ => ?_
              obtain ⟨ps, k1, _, k3⟩ := hhon
              simp only [answersOf, k1, List.mem_map] at ha
              obtain ⟨y, hy, rfl⟩ := ha
              exact (k3 y hy).1
            · intro t ht p
              simp only
              rw [g2.offsets]
              rcases honest_answer hhon t p with hz | ⟨e, _⟩
              · rw [hz, after_nil]
              · exact absurd (e.trans hqt).symm (ht _ hm)
  | finish i =>
    simp only [Busy.step] at h
    split at h
    · cases h; exact ⟨fun x hx => ⟨x, hx, rfl, rfl⟩, fun _ => Iff.rfl, fun _ _ _ => rfl⟩
    · split at h
      · cases h; exact ⟨fun x hx => ⟨x, hx, rfl, rfl⟩, fun _ => Iff.rfl, fun _ _ _ => rfl⟩
      · simp only [Prod.mk.injEq] at h
        obtain ⟨rfl, rfl⟩ := h
        exact ⟨fun x hx => ⟨x, (Dict.mem_erase.1 hx).1, rfl, rfl⟩, fun _ => Iff.rfl,
          fun _ _ _ => rfl⟩
  | healFails i e =>
    simp only [Busy.step] at h
    split at h <;> simp only [Prod.mk.injEq] at h
    · obtain ⟨rfl, rfl⟩ := h
      exact ⟨fun x hx => ⟨x, hx, rfl, rfl⟩, fun _ => Iff.rfl, fun _ _ _ => rfl⟩
    · exact absurd h.1.symm (hno e)
  | other f =>
    simp only [Busy.step, Prod.mk.injEq] at h
    obtain ⟨rfl, rfl⟩ := h
    exact ⟨fun x hx => ⟨x, hx, rfl, rfl⟩, fun t => by simp only [(hoff f rfl _).2],
      fun t _ p => by simp only [(hoff f rfl _).1]⟩

theorem first_base {cfg : CCfg β δ} {logs : String → Int → List (Int × β)}
    {X : (String → Int → Int) → Busy Unit δ → List (String × δ) → Prop}
    (hX : Account batch cfg logs X)
    {o : String → Int → Int} {s : SingleBusy δ}
    {outs : List (String × δ)} {ev : BEv Unit β} {out : BOut δ} {b : Busy Unit δ}
    (h : FirstExact X o s outs) (hc : ∀ i t, ev ≠ .consume i t)
    (hf : FairFirst batch logs s (.base ev))
    (hs : s.base.step Single.allocation cfg ev = (out, b)) (hno : ∀ e, out ≠ .raised e) :
    FirstExact X o ⟨b, s.starting⟩ (outs ++ returnedBy out) := by
  have hoff : ∀ f, ev = .other f → ∀ c, (f c).offsets = c.offsets ∧ (f c).synced = c.synced := by
    rintro f rfl; exact hf
  have hfair : Fair batch logs s.base ev := by
    cases ev with
    | other f => exact fun c => (hf c).1
    | consume i t => exact absurd rfl (hc i t)
    | outcome i broker r => exact hf
    | finish i => exact hf
    | healFails i e => exact hf
  have hap : Apart s.base ev := by
    cases ev with
    | consume i t => exact absurd rfl (hc i t)
    | _ => trivial
  have hex := hX.step h.base hfair hap hs hno
  obtain ⟨w1, w2, w3⟩ := waiting_step (hX.sound h.base) hs hno hc hfair hoff
  refine ⟨hex, h.keys, h.one, ?_, ?_, ?_, ?_, ?_, ?_⟩
  · intro x hx w hw
    obtain ⟨y, hy, _, e⟩ := w1 w hw
    rw [← e]
    exact h.apart x hx y hy
  · intro x hx
    have := h.free x hx
    rw [Dict.get?_eq_none] at this ⊢
    intro hk
    rw [Dict.mem_keys] at hk
    obtain ⟨v, hv⟩ := hk
    obtain ⟨y, hy, e, _⟩ := w1 _ hv
    exact this (Dict.mem_keys.2 ⟨y.2, by rw [← e]; exact hy⟩)
  · intro w hw
    obtain ⟨y, hy, _, e⟩ := w1 w hw
    rw [← e]
    exact (w2 _).2 (h.waits y hy)
  · intro i t pending hx
    exact ⟨fun hc => (h.asks i t pending hx).1 ((w2 _).1 hc), (h.asks i t pending hx).2⟩
  · intro i t hx
    exact (w2 _).2 (h.heals i t hx)
  · intro t ht p
    have ht' : t ∉ s.base.consumer.synced := fun hc => ht ((w2 _).2 hc)
    rw [h.fresh t ht' p]
    refine (w3 t (fun x hx e => ht' ?_) p).symm
    rw [← e]
    exact h.waits x hx

theorem firstReturned_first (out : BOut δ) : firstReturned out.first = returnedBy out := by
  cases out with
  | returned t o => cases o <;> rfl
  | _ => rfl

/-- The response to an offset request. -/
theorem first_offsets {cfg : CCfg β δ} {logs : String → Int → List (Int × β)}
    {X : (String → Int → Int) → Busy Unit δ → List (String × δ) → Prop}
    (hX : Account batch cfg logs X)
    {o : String → Int → Int} {s : SingleBusy δ} {outs : List (String × δ)} {i : Nat} {t : String}
    {pending : List OReq} (h : FirstExact X o s outs)
    (hi : s.starting.get? i = some (.determining t pending)) (ps : List OPart) :
    FirstExact X (startOf [(t, taken ps)] o)
      ⟨⟨(handleOffsetParts t ps s.base.consumer).2, s.base.waiting⟩, s.starting⟩ outs := by
  have hm := Dict.mem_of_get? hi
  obtain ⟨g1, g2⟩ := handleOffsetParts_taken t ps s.base.consumer
  have hty := (h.asks i t pending hm).1
  have hwt : ∀ w ∈ s.base.waiting, w.2.topic ≠ t := h.apart _ hm
  have hsync : ∀ t', t' ∈ (handleOffsetParts t ps s.base.consumer).2.synced ↔
      t' ∈ s.base.consumer.synced := by
    intro t'
    rw [g2]
    refine and_iff_left_of_imp fun hc => ?_
    rintro ⟨rfl, _⟩
    exact hty hc
  refine ⟨hX.moved (t := t) h.base rfl hwt (h.fresh t hty) ?_ ?_ ?_, h.keys, h.one, h.apart,
    h.free, fun w hw => (hsync _).2 (h.waits w hw), ?_, fun j t' hx => (hsync _).2 (h.heals j t' hx),
    ?_⟩
  · intro p
    simp only [g1, startOf, if_true, h.fresh t hty p]
  · intro t' p ht'
    simp only [g1, if_neg ht']
  · intro t' p ht'
    simp only [startOf, if_neg ht']
  · intro j t' pending' hx
    exact ⟨fun hc => (h.asks j t' pending' hx).1 ((hsync _).1 hc), (h.asks j t' pending' hx).2⟩
  · intro t' ht' p
    have ht0 : t' ∉ s.base.consumer.synced := fun hc => ht' ((hsync _).2 hc)
    simp only [g1, startOf]
    split
    · rw [h.fresh t' ht0 p]
    · exact h.fresh t' ht0 p

theorem first_step {cfg : CCfg β δ} {logs : String → Int → List (Int × β)}
    {X : (String → Int → Int) → Busy Unit δ → List (String × δ) → Prop}
    (hX : Account batch cfg logs X)
    {o : String → Int → Int} {s s' : SingleBusy δ}
    {outs : List (String × δ)} {ev : FirstEv β} {out : FirstOut δ}
    (h : FirstExact X o s outs) (hf : FairFirst batch logs s ev) (ha : ApartFirst s ev)
    (hs : s.step cfg ev = (out, s')) (hno : ∀ e bev, ev = .base bev → out ≠ .raised e) :
    FirstExact X (startOf (toldBy s ev) o) s' (outs ++ firstReturned out) := by
  cases ev with
  | call i topic start now =>
    obtain ⟨a1, a2⟩ := ha
    simp only [SingleBusy.step] at hs
    show FirstExact X o s' _
    split at hs
    · cases hs
      simpa [firstReturned] using h
    · split at hs
      · rename_i hy
        exact first_proceed hX h.keys (h.erase i) hf.1 a1 (fun x hx _ => a2 x hx) hy hs
      · rename_i hy
        exact first_determine hX h hf.1 a1 a2 hy hs
  | offsets i broker r =>
    simp only [SingleBusy.step] at hs
    split at hs
    · rename_i topic pending hi
      have hm := Dict.mem_of_get? hi
      obtain ⟨hty, hqt⟩ := h.asks i topic pending hm
      have hne : ∀ x ∈ s.starting, x.1 ≠ i → x.2.topic ≠ topic := fun x hx hxi e =>
        hxi (congrArg Prod.fst (h.one x hx _ hm e))
      split at hs
      · rename_i hb
        cases hs
        have : toldBy s (.offsets i broker r : FirstEv β) = ([] : List (String × List OPart)) := by
          cases r with
          | error e => rfl
          | ok r => simp only [toldBy, hi, if_neg hb]
        rw [this]
        simpa [firstReturned, startOf] using h
      · rename_i hb
        rw [not_not] at hb
        obtain ⟨q, hq, hqb⟩ := List.mem_map.1 hb
        cases r with
        | error e =>
          cases hs
          rw [show firstReturned (FirstOut.nothing : FirstOut δ) = [] from rfl, List.append_nil]
          have hsame := h.same hX (c := if e = .streamClosed then s.base.consumer else
            { s.base.consumer with heal := true }) (fun _ _ => by split <;> rfl)
            (fun _ => by split <;> rfl)
          show FirstExact X o _ outs
          refine FirstExact.set (s := ⟨⟨if e = .streamClosed then s.base.consumer else
            { s.base.consumer with heal := true }, s.base.waiting⟩, s.starting⟩) h.keys
            (hsame.erase i) (h.free _ hm) (h.apart _ hm) hne ?_ ?_
          · intro t pend e'
            cases e'
            exact ⟨(hsame.asks i topic pending hm).1, fun q hq => hqt q (List.mem_filter.1 hq).1⟩
          · intro t e'; cases e'
        | ok r =>
          obtain ⟨ps, hr⟩ := hf topic pending hi q hq hqb
          rw [hqt q hq] at hr
          have htold : toldBy s (.offsets i broker (.ok r) : FirstEv β) = [(topic, taken ps)] := by
            simp only [toldBy, hi, if_pos hb, hr]
            rfl
          rw [htold]
          have hh := first_offsets hX h hi ps
          have hresp : handleOffsetResponse r s.base.consumer =
              handleOffsetParts topic ps s.base.consumer := by
            simp only [handleOffsetResponse, hr]
          simp only [hresp] at hs
          cases hc : handleOffsetParts topic ps s.base.consumer with
          | mk res c =>
            rw [hc] at hs hh
            have hers := hh.erase i
            split at hs
            · cases hs
              rename_i heq
              cases heq
              rw [show firstReturned (FirstOut.nothing : FirstOut δ) = [] from rfl, List.append_nil]
              refine FirstExact.set (s := ⟨⟨c, s.base.waiting⟩, s.starting⟩) h.keys hers
                (h.free _ hm) (h.apart _ hm) hne ?_ ?_
              · intro t pend e'
                cases e'
                exact ⟨(hh.asks i topic pending hm).1, fun q hq => hqt q (List.mem_filter.1 hq).1⟩
              · intro t e'; cases e'
            · rename_i heq
              cases heq
              cases hs
              simpa [firstReturned_end] using hers
    · rename_i hi
      cases hs
      have : toldBy s (.offsets i broker r : FirstEv β) = ([] : List (String × List OPart)) := by
        cases r with
        | error e => rfl
        | ok r =>
          simp only [toldBy]
      rw [this]
      simpa [firstReturned, startOf] using h
  | determined i =>
    simp only [SingleBusy.step] at hs
    show FirstExact X o s' _
    split at hs
    · rename_i topic hi
      have hm := Dict.mem_of_get? hi
      have hne : ∀ x ∈ s.starting, x.1 ≠ i → x.2.topic ≠ topic := fun x hx hxi e =>
        hxi (congrArg Prod.fst (h.one x hx _ hm e))
      refine first_proceed hX (s := ⟨⟨{ s.base.consumer with heal := false, synced := addSet s.base.consumer.synced topic }, s.base.waiting⟩, s.starting⟩)
        h.keys ?_ (h.free _ hm) (h.apart _ hm) hne ((mem_addSet _ _ _).2 (.inl rfl)) hs
      have he := h.erase i
      refine ⟨hX.same he.base rfl fun _ _ => rfl, he.keys, he.one, he.apart, he.free,
        fun w hw => (mem_addSet _ _ _).2 (.inr (he.waits w hw)), ?_,
        fun j t hx => (mem_addSet _ _ _).2 (.inr (he.heals j t hx)), ?_⟩
      · intro j t pending hx
        refine ⟨fun hc => ?_, (he.asks j t pending hx).2⟩
        rcases (mem_addSet _ _ _).1 hc with hc | hc
        · exact hne _ (Dict.mem_erase.1 hx).1 (Dict.mem_erase.1 hx).2 hc
        · exact (he.asks j t pending hx).1 hc
      · intro t ht p
        exact h.fresh t (fun hc => ht ((mem_addSet _ _ _).2 (.inr hc))) p
    · cases hs
      simpa [firstReturned] using h
  | healed i =>
    simp only [SingleBusy.step] at hs
    show FirstExact X o s' _
    split at hs
    · rename_i topic hi
      have hm := Dict.mem_of_get? hi
      have hne : ∀ x ∈ s.starting, x.1 ≠ i → x.2.topic ≠ topic := fun x hx hxi e =>
        hxi (congrArg Prod.fst (h.one x hx _ hm e))
      split at hs
      · exact first_fetch hX (h.erase i) (h.free _ hm) (h.apart _ hm) hne (h.heals i topic hm) hs
      · cases hs
        simpa [firstReturned] using h.erase i
    · cases hs
      simpa [firstReturned] using h
  | healFails i e =>
    simp only [SingleBusy.step] at hs
    show FirstExact X o s' _
    split at hs
    · cases hs
      simpa [firstReturned_end] using h.erase i
    · cases hs
      simpa [firstReturned] using h.erase i
    · cases hs
      simpa [firstReturned] using h
  | base bev =>
    show FirstExact X o s' _
    by_cases hc : ∃ i t, bev = .consume i t
    · obtain ⟨i, t, rfl⟩ := hc
      cases hs
      simpa [firstReturned] using h
    · push Not at hc
      have hs' : ((s.base.step Single.allocation cfg bev).1.first,
          ({ s with base := (s.base.step Single.allocation cfg bev).2 } : SingleBusy δ)) =
          (out, s') := by
        cases bev with
        | consume i t => exact absurd rfl (hc i t)
        | _ => exact hs
      cases hb : s.base.step Single.allocation cfg bev with
      | mk bout b =>
        rw [hb] at hs'
        cases hs'
        rw [firstReturned_first]
        refine first_base hX h hc hf hb fun e he => ?_
        exact hno e bev rfl (by rw [he]; rfl)

/-- **C104**, for whole `consume`s of one single consumer that run at the same time, first ones of
their topics and later ones, provided no two of them are for the same topic: in any interleaving of
calls, answers and failures of offset requests and of fetches, heals and returns, in which brokers
answer fetches with what is in their logs and no `consume` raises that waits for messages, what has
been returned, followed by what the `consume`s under way hold and will return, is an interleaving
of the messages of the partitions' logs from the offset brokers last reported for the partition
(where it was, if they reported none) to the offset now, each once and in order, less those that
cannot be deserialized or are false to Python.  Missing: `consume`s of the same topic at the same
time (`C104_false_skips`, `C104_false_repeats`), and what is missing of C76. -/
theorem C104_exactly_once_partial (cfg : CCfg β δ) (logs : String → Int → List (Int × β))
    (hl : ∀ t p, IsLog (logs t p)) (c : Single) (s : SingleBusy δ) (outs : List (String × δ))
    (told : List (String × List OPart))
    (h : FirstCourse cfg (fun s ev => FairFirst Batch logs s ev ∧ ApartFirst s ev)
      ⟨⟨c, []⟩, []⟩ outs told s) :
    (∀ t p, startOf told (offsetOf c.offsets) t p ≤ offsetOf s.base.consumer.offsets t p) ∧
    Interleaving (fun t p => (values cfg ((logs t p).filter fun m =>
        decide (startOf told (offsetOf c.offsets) t p ≤ m.1 ∧
          m.1 < offsetOf s.base.consumer.offsets t p))).filter cfg.truthy)
      (outs ++ underWay cfg s.base) := by
  have hX : Account Batch cfg logs (Exact (ε := Unit) cfg logs) := account_exact hl
  have key : ∀ (s0 : SingleBusy δ) (outs1 : List (String × δ)) (told1 : List (String × List OPart)),
      FirstCourse cfg (fun s ev => FairFirst Batch logs s ev ∧ ApartFirst s ev) s0 outs1 told1 s →
      ∀ o outs0, FirstExact (Exact cfg logs) o s0 outs0 →
        FirstExact (Exact cfg logs) (startOf told1 o) s (outs0 ++ outs1) := by
    intro s0 outs1 told1 hc
    induction hc with
    | nil => intro o outs0 hx; rw [List.append_nil]; exact hx
    | cons hok hs hno _ ih =>
      intro o outs0 hx
      rw [← List.append_assoc, startOf_append]
      exact ih h _ _ (first_step hX hx hok.1 hok.2 hs hno)
  have h0 : FirstExact (Exact cfg logs) (offsetOf c.offsets) (⟨⟨c, []⟩, []⟩ : SingleBusy δ) [] := by
    refine ⟨⟨⟨by simp [Dict.keys], by simp⟩, by simp, by simp, fun _ _ => Int.le_refl _, [],
      fun _ => [], rfl, by simp, fun _ _ => rfl, fun t p => ?_⟩, by simp [Dict.keys], by simp,
      by simp, by simp, by simp, by simp, by simp, fun _ _ _ => rfl⟩
    rw [interval_empty]
    rfl
  have hx := (key _ _ _ h _ [] h0).base
  rw [List.nil_append] at hx
  obtain ⟨so, hand, hso, hhand, hnone, got⟩ := hx.got
  have hnd : (s.base.waiting.map fun x => x.2.topic).Nodup :=
    List.Nodup.map_on (fun x hxm y hym e => hx.one x hxm y hym e)
      (List.Nodup.of_map _ hx.sound.nodup)
  refine ⟨hx.le, so ++ s.base.waiting.flatMap fun x => hand x.2.topic, ?_, fun t p => ?_⟩
  · rw [List.map_append, List.map_flatMap]
    congr 1
    unfold underWay
    exact List.flatMap_congr fun x hxm => hhand x hxm
  · beta_reduce
    rw [← got t p, ← ofPart_waiting (fun x hxm => strip_topic (hhand x hxm)) hnd t p (hnone t),
      ← ofPart_append]
    rfl

/-- **C104**, for brokers with compressed sets, which may begin before the offset asked for, and
otherwise as `C104_exactly_once_partial`: nothing is skipped.  Every message of a log from the
offset brokers last reported on (where the partition was, if they reported none) to the offset now
has been returned or is held by a `consume` under way, which will return it (unless it cannot be
deserialized or is false to Python). -/
theorem C104_no_skip_partial (cfg : CCfg β δ) (logs : String → Int → List (Int × β))
    (hl : ∀ t p, IsLog (logs t p)) (c : Single) (s : SingleBusy δ) (outs : List (String × δ))
    (told : List (String × List OPart))
    (h : FirstCourse cfg (fun s ev => FairFirst WideBatch logs s ev ∧ ApartFirst s ev)
      ⟨⟨c, []⟩, []⟩ outs told s)
    (t : String) (p : Int) (m : Int × β) (hm : m ∈ logs t p) (d : δ)
    (hd : decode cfg m.2 = some d) (htr : cfg.truthy d = true)
    (h1 : startOf told (offsetOf c.offsets) t p ≤ m.1)
    (h2 : m.1 < offsetOf s.base.consumer.offsets t p) :
    (t, d) ∈ outs ∨ d ∈ inHand cfg s.base t := by
  have hX : Account WideBatch cfg logs (AllCovered (ε := Unit) cfg logs) := account_covered hl
  have key : ∀ (s0 : SingleBusy δ) (outs1 : List (String × δ)) (told1 : List (String × List OPart)),
      FirstCourse cfg (fun s ev => FairFirst WideBatch logs s ev ∧ ApartFirst s ev) s0 outs1 told1 s →
      ∀ o outs0, FirstExact (AllCovered cfg logs) o s0 outs0 →
        FirstExact (AllCovered cfg logs) (startOf told1 o) s (outs0 ++ outs1) := by
    intro s0 outs1 told1 hc
    induction hc with
    | nil => intro o outs0 hx; rw [List.append_nil]; exact hx
    | cons hok hs hno _ ih =>
      intro o outs0 hx
      rw [← List.append_assoc, startOf_append]
      exact ih h h2 _ _ (first_step hX hx hok.1 hok.2 hs hno)
  have h0 : FirstExact (AllCovered cfg logs) (offsetOf c.offsets)
      (⟨⟨c, []⟩, []⟩ : SingleBusy δ) [] :=
    ⟨fun t p => ⟨offsetOf c.offsets t p, ⟨by simp [Dict.keys], by simp⟩, Int.le_refl _, by simp,
      fun m _ d _ _ g1 g2 => absurd g2 (Int.not_lt.2 g1)⟩, by simp [Dict.keys], by simp, by simp, by simp, by simp,
      by simp, by simp, fun _ _ _ => rfl⟩
  obtain ⟨f, hf⟩ := (key _ _ _ h _ [] h0).base t p
  exact hf.got m hm d hd htr h1 (by have := hf.now; omega)

/-! ### Concrete courses -/

/-- An offset answer about partition 0 of the topic t. -/
def exTold (t : String) (o : Int) : OResp := ⟨[(t, [⟨0, 0, [o]⟩])]⟩

theorem exTold_fair {batch : List (Int × Nat) → Int → List (Int × Nat) → Prop}
    {logs : String → Int → List (Int × Nat)} {s : SingleBusy Nat} {i : Nat}
    {broker : Int} {t : String} {o : Int} {pending : List OReq}
    (hi : s.starting.get? i = some (.determining t pending)) (hp : ∀ q ∈ pending, q.topic = t) :
    FairFirst batch logs s (.offsets i broker (.ok (exTold t o))) := by
  intro t' pending' h q hq _
  rw [hi] at h
  cases h
  exact ⟨_, by rw [hp q hq]; rfl⟩

/-- Broker 7 leads partition 0 of the topics t and u; no offsets are known. -/
def exNew : Single :=
  ⟨⟨[(7, ⟨"h", 9092, false⟩)], [("t", [0]), ("u", [0])], [("t", [(0, 7)]), ("u", [(0, 7)])]⟩, [],
    [], false, false, ()⟩

def exLog5 : List (Int × Nat) := [(0, 5), (1, 6), (2, 7), (3, 8), (4, 9)]

theorem exLog5_ok : IsLog exLog5 := ⟨by decide, by decide⟩

/-- The offset request, and the fetch at `o`. -/
def exAsk (t : String) (time : Int) : OReq := ⟨7, t, .int time, [0]⟩
@[inherit_doc exAsk] def exFetchAt (t : String) (o : Int) : FReq := ⟨7, 1000, 1, t, [⟨0, o, 100⟩]⟩

theorem exFetched_first {batch : List (Int × Nat) → Int → List (Int × Nat) → Prop}
    {logs : String → Int → List (Int × Nat)} {s : SingleBusy Nat} {i : Nat}
    {t : String} {o : Int} {ms : List (Int × Nat)} {w : Waiting Nat}
    (hw : s.base.waiting.get? i = some w) (hp : w.pending = [exFetchAt t o])
    (hb : batch (logs t 0) o ms) :
    FairFirst batch logs s (.base (.outcome i 7 (.ok (exFetched t ms)))) :=
  exFetched_honest (b := s.base) hw hp hb

-- Non-vacuity of `C104_exactly_once_partial`: first `consume`s of two topics; the one of t gets
-- its offset, and messages, while that of u waits for its own.
example : ∃ s, FirstCourse exCCfg
      (fun s ev => FairFirst Batch (fun _ _ => exLog5) s ev ∧ ApartFirst s ev) ⟨⟨exNew, []⟩, []⟩
      [("t", 7), ("t", 8)] [("t", [⟨0, 0, [2]⟩]), ("u", [⟨0, 0, [4]⟩])] s ∧
      s.base.waiting = [(1, ⟨"u", [exFetchAt "u" 4], []⟩)] ∧
      s.base.consumer.offsets = [("t", [(0, 4)]), ("u", [(0, 4)])] := by
  refine ⟨⟨⟨{ exNew with offsets := [("t", [(0, 4)]), ("u", [(0, 4)])], synced := ["t", "u"] },
    [(1, ⟨"u", [exFetchAt "u" 4], []⟩)]⟩, []⟩, ?_, rfl, rfl⟩
  refine FirstCourse.cons (ev := .call 0 "t" .unset 0) (out := .asked [exAsk "t" (-1)])
    (s1 := ⟨⟨exNew, []⟩, [(0, .determining "t" [exAsk "t" (-1)])]⟩) (outs := [("t", 7), ("t", 8)])
    (told := [("t", [⟨0, 0, [2]⟩]), ("u", [⟨0, 0, [4]⟩])])
    ⟨⟨by decide, by decide⟩, by decide, by decide⟩ (by decide +kernel) (by simp) ?_
  refine FirstCourse.cons (ev := .call 1 "u" .unset 0) (out := .asked [exAsk "u" (-1)])
    (s1 := ⟨⟨exNew, []⟩, [(0, .determining "t" [exAsk "t" (-1)]),
      (1, .determining "u" [exAsk "u" (-1)])]⟩) (outs := [("t", 7), ("t", 8)])
    (told := [("t", [⟨0, 0, [2]⟩]), ("u", [⟨0, 0, [4]⟩])])
    ⟨⟨by decide, by decide⟩, by decide, by decide⟩ (by decide +kernel) (by simp) ?_
  refine FirstCourse.cons (ev := .offsets 0 7 (.ok (exTold "t" 2))) (out := .nothing)
    (s1 := ⟨⟨{ exNew with offsets := [("t", [(0, 2)])] }, []⟩, [(0, .determining "t" []),
      (1, .determining "u" [exAsk "u" (-1)])]⟩) (outs := [("t", 7), ("t", 8)])
    (told := [("u", [⟨0, 0, [4]⟩])])
    ⟨exTold_fair (pending := [exAsk "t" (-1)]) rfl (by decide), trivial⟩ (by decide +kernel)
    (by simp) ?_
  refine FirstCourse.cons (ev := .determined 0) (out := .sent [exFetchAt "t" 2])
    (s1 := ⟨⟨{ exNew with offsets := [("t", [(0, 2)])], synced := ["t"] },
      [(0, ⟨"t", [exFetchAt "t" 2], []⟩)]⟩, [(1, .determining "u" [exAsk "u" (-1)])]⟩)
    (outs := [("t", 7), ("t", 8)]) (told := [("u", [⟨0, 0, [4]⟩])])
    ⟨trivial, trivial⟩ (by decide +kernel) (by simp) ?_
  refine FirstCourse.cons (ev := .base (.outcome 0 7 (.ok (exFetched "t" [(2, 7), (3, 8)]))))
    (out := .nothing)
    (s1 := ⟨⟨{ exNew with offsets := [("t", [(0, 4)])], synced := ["t"] },
      [(0, ⟨"t", [], [(7, [7, 8])]⟩)]⟩, [(1, .determining "u" [exAsk "u" (-1)])]⟩)
    (outs := [("t", 7), ("t", 8)]) (told := [("u", [⟨0, 0, [4]⟩])])
    ⟨exFetched_first (o := 2) rfl rfl ⟨[(4, 9)], by decide⟩, trivial⟩ (by decide +kernel)
    (by simp) ?_
  refine FirstCourse.cons (ev := .base (.finish 0)) (out := .returned "t" (some [7, 8]))
    (s1 := ⟨⟨{ exNew with offsets := [("t", [(0, 4)])], synced := ["t"] }, []⟩,
      [(1, .determining "u" [exAsk "u" (-1)])]⟩)
    (outs := []) (told := [("u", [⟨0, 0, [4]⟩])])
    ⟨trivial, trivial⟩ (by decide +kernel) (by simp) ?_
  refine FirstCourse.cons (ev := .offsets 1 7 (.ok (exTold "u" 4))) (out := .nothing)
    (s1 := ⟨⟨{ exNew with offsets := [("t", [(0, 4)]), ("u", [(0, 4)])], synced := ["t"] }, []⟩,
      [(1, .determining "u" [])]⟩) (outs := []) (told := [])
    ⟨exTold_fair (pending := [exAsk "u" (-1)]) rfl (by decide), trivial⟩ (by decide +kernel)
    (by simp) ?_
  exact FirstCourse.cons (ev := .determined 1) (out := .sent [exFetchAt "u" 4])
    (outs := []) (told := []) ⟨trivial, trivial⟩ (by decide +kernel) (by simp) (FirstCourse.nil _)

-- Non-vacuity of `C104_no_skip_partial`: the broker reports offset 1, and sends a compressed set
-- that begins before it.
example : ∃ s, FirstCourse exCCfg
      (fun s ev => FairFirst WideBatch (fun _ _ => exLog5) s ev ∧ ApartFirst s ev)
      ⟨⟨exNew, []⟩, []⟩ [("t", 5), ("t", 6), ("t", 7)] [("t", [⟨0, 0, [1]⟩])] s ∧
      startOf [("t", [⟨0, 0, [1]⟩])] (offsetOf exNew.offsets) "t" 0 = 1 ∧
      offsetOf s.base.consumer.offsets "t" 0 = 3 := by
  refine ⟨⟨⟨{ exNew with offsets := [("t", [(0, 3)])], synced := ["t"] }, []⟩, []⟩, ?_,
    by decide +kernel, by decide +kernel⟩
  refine FirstCourse.cons (ev := .call 0 "t" .unset 0) (out := .asked [exAsk "t" (-1)])
    (s1 := ⟨⟨exNew, []⟩, [(0, .determining "t" [exAsk "t" (-1)])]⟩)
    (outs := [("t", 5), ("t", 6), ("t", 7)]) (told := [("t", [⟨0, 0, [1]⟩])])
    ⟨⟨by decide, by decide⟩, by decide, by decide⟩ (by decide +kernel) (by simp) ?_
  refine FirstCourse.cons (ev := .offsets 0 7 (.ok (exTold "t" 1))) (out := .nothing)
    (s1 := ⟨⟨{ exNew with offsets := [("t", [(0, 1)])] }, []⟩, [(0, .determining "t" [])]⟩)
    (outs := [("t", 5), ("t", 6), ("t", 7)]) (told := [])
    ⟨exTold_fair (pending := [exAsk "t" (-1)]) rfl (by decide), trivial⟩ (by decide +kernel)
    (by simp) ?_
  refine FirstCourse.cons (ev := .determined 0) (out := .sent [exFetchAt "t" 1])
    (s1 := ⟨⟨{ exNew with offsets := [("t", [(0, 1)])], synced := ["t"] },
      [(0, ⟨"t", [exFetchAt "t" 1], []⟩)]⟩, []⟩)
    (outs := [("t", 5), ("t", 6), ("t", 7)]) (told := [])
    ⟨trivial, trivial⟩ (by decide +kernel) (by simp) ?_
  refine FirstCourse.cons
    (ev := .base (.outcome 0 7 (.ok (exFetched "t" [(0, 5), (1, 6), (2, 7)])))) (out := .nothing)
    (s1 := ⟨⟨{ exNew with offsets := [("t", [(0, 3)])], synced := ["t"] },
      [(0, ⟨"t", [], [(7, [5, 6, 7])]⟩)]⟩, []⟩)
    (outs := [("t", 5), ("t", 6), ("t", 7)]) (told := [])
    ⟨exFetched_first (o := 1) rfl rfl ⟨[], [(3, 8), (4, 9)], rfl, by simp⟩, trivial⟩
    (by decide +kernel) (by simp) ?_
  exact FirstCourse.cons (ev := .base (.finish 0)) (out := .returned "t" (some [5, 6, 7]))
    (outs := []) (told := []) ⟨trivial, trivial⟩ (by decide +kernel) (by simp) (FirstCourse.nil _)

/-- **C104** is false of the code for first `consume`s of the same topic: each determines the
offset, the second one's answer, which is later, moves it on while the first one fetches, and the
messages in between are not returned by either: what is returned is no unbroken stretch of the
log. -/
theorem C104_false_skips : ∃ outs told s, FirstCourse exCCfg (FairFirst Batch fun _ _ => exLog5)
      ⟨⟨exNew, []⟩, []⟩ outs told s ∧
    s.base.waiting = [] ∧ s.starting = [] ∧ offsetOf s.base.consumer.offsets "t" 0 = 5 ∧
    outs = [("t", 7), ("t", 9)] ∧ (2, 7) ∈ exLog5 ∧ (3, 8) ∈ exLog5 ∧ (4, 9) ∈ exLog5 := by
  refine ⟨[("t", 7), ("t", 9)], [("t", [⟨0, 0, [2]⟩]), ("t", [⟨0, 0, [4]⟩])],
    ⟨⟨{ exNew with offsets := [("t", [(0, 5)])], synced := ["t"] }, []⟩, []⟩, ?_, rfl, rfl,
    by decide +kernel, rfl, by decide, by decide, by decide⟩
  refine FirstCourse.cons (ev := .call 0 "t" .unset 0) (out := .asked [exAsk "t" (-1)])
    (s1 := ⟨⟨exNew, []⟩, [(0, .determining "t" [exAsk "t" (-1)])]⟩) (outs := [("t", 7), ("t", 9)])
    (told := [("t", [⟨0, 0, [2]⟩]), ("t", [⟨0, 0, [4]⟩])])
    ⟨by decide, by decide⟩ (by decide +kernel) (by simp) ?_
  refine FirstCourse.cons (ev := .call 1 "t" .unset 0) (out := .asked [exAsk "t" (-1)])
    (s1 := ⟨⟨exNew, []⟩, [(0, .determining "t" [exAsk "t" (-1)]),
      (1, .determining "t" [exAsk "t" (-1)])]⟩) (outs := [("t", 7), ("t", 9)])
    (told := [("t", [⟨0, 0, [2]⟩]), ("t", [⟨0, 0, [4]⟩])])
    ⟨by decide, by decide⟩ (by decide +kernel) (by simp) ?_
  refine FirstCourse.cons (ev := .offsets 0 7 (.ok (exTold "t" 2))) (out := .nothing)
    (s1 := ⟨⟨{ exNew with offsets := [("t", [(0, 2)])] }, []⟩, [(0, .determining "t" []),
      (1, .determining "t" [exAsk "t" (-1)])]⟩) (outs := [("t", 7), ("t", 9)])
    (told := [("t", [⟨0, 0, [4]⟩])])
    (exTold_fair (pending := [exAsk "t" (-1)]) rfl (by decide)) (by decide +kernel)
    (by simp) ?_
  refine FirstCourse.cons (ev := .determined 0) (out := .sent [exFetchAt "t" 2])
    (s1 := ⟨⟨{ exNew with offsets := [("t", [(0, 2)])], synced := ["t"] },
      [(0, ⟨"t", [exFetchAt "t" 2], []⟩)]⟩, [(1, .determining "t" [exAsk "t" (-1)])]⟩)
    (outs := [("t", 7), ("t", 9)]) (told := [("t", [⟨0, 0, [4]⟩])])
    trivial (by decide +kernel) (by simp) ?_
  refine FirstCourse.cons (ev := .offsets 1 7 (.ok (exTold "t" 4))) (out := .nothing)
    (s1 := ⟨⟨{ exNew with offsets := [("t", [(0, 4)])], synced := ["t"] },
      [(0, ⟨"t", [exFetchAt "t" 2], []⟩)]⟩, [(1, .determining "t" [])]⟩)
    (outs := [("t", 7), ("t", 9)]) (told := [])
    (exTold_fair (pending := [exAsk "t" (-1)]) rfl (by decide)) (by decide +kernel)
    (by simp) ?_
  refine FirstCourse.cons (ev := .determined 1) (out := .sent [exFetchAt "t" 4])
    (s1 := ⟨⟨{ exNew with offsets := [("t", [(0, 4)])], synced := ["t"] },
      [(0, ⟨"t", [exFetchAt "t" 2], []⟩), (1, ⟨"t", [exFetchAt "t" 4], []⟩)]⟩, []⟩)
    (outs := [("t", 7), ("t", 9)]) (told := [])
    trivial (by decide +kernel) (by simp) ?_
  refine FirstCourse.cons (ev := .base (.outcome 0 7 (.ok (exFetched "t" [(2, 7)]))))
    (out := .nothing)
    (s1 := ⟨⟨{ exNew with offsets := [("t", [(0, 3)])], synced := ["t"] },
      [(0, ⟨"t", [], [(7, [7])]⟩), (1, ⟨"t", [exFetchAt "t" 4], []⟩)]⟩, []⟩)
    (outs := [("t", 7), ("t", 9)]) (told := [])
    (exFetched_first (o := 2) rfl rfl ⟨[(3, 8), (4, 9)], by decide⟩) (by decide +kernel)
    (by simp) ?_
  refine FirstCourse.cons (ev := .base (.finish 0)) (out := .returned "t" (some [7]))
    (s1 := ⟨⟨{ exNew with offsets := [("t", [(0, 3)])], synced := ["t"] },
      [(1, ⟨"t", [exFetchAt "t" 4], []⟩)]⟩, []⟩)
    (outs := [("t", 9)]) (told := []) trivial (by decide +kernel) (by simp) ?_
  refine FirstCourse.cons (ev := .base (.outcome 1 7 (.ok (exFetched "t" [(4, 9)]))))
    (out := .nothing)
    (s1 := ⟨⟨{ exNew with offsets := [("t", [(0, 5)])], synced := ["t"] },
      [(1, ⟨"t", [], [(7, [9])]⟩)]⟩, []⟩)
    (outs := [("t", 9)]) (told := [])
    (exFetched_first (o := 4) rfl rfl ⟨[], by decide⟩) (by decide +kernel) (by simp) ?_
  exact FirstCourse.cons (ev := .base (.finish 1)) (out := .returned "t" (some [9]))
    (outs := []) (told := []) trivial (by decide +kernel) (by simp) (FirstCourse.nil _)

/-- **C104** is false of the code for first `consume`s of the same topic: the second one's answer
puts the offset back to the start when the first one has returned messages, and these are
returned again. -/
theorem C104_false_repeats : ∃ outs told s, FirstCourse exCCfg (FairFirst Batch fun _ _ => exLog5)
      ⟨⟨exNew, []⟩, []⟩ outs told s ∧
    s.base.waiting = [] ∧ s.starting = [] ∧ (told.map (·.2)) = [[⟨0, 0, [0]⟩], [⟨0, 0, [0]⟩]] ∧
    outs = [("t", 5), ("t", 6), ("t", 5), ("t", 6)] := by
  refine ⟨[("t", 5), ("t", 6), ("t", 5), ("t", 6)], [("t", [⟨0, 0, [0]⟩]), ("t", [⟨0, 0, [0]⟩])],
    ⟨⟨{ exNew with offsets := [("t", [(0, 2)])], synced := ["t"] }, []⟩, []⟩, ?_, rfl, rfl,
    rfl, rfl⟩
  refine FirstCourse.cons (ev := .call 0 "t" (.int beginning) 0) (out := .asked [exAsk "t" (-2)])
    (s1 := ⟨⟨exNew, []⟩, [(0, .determining "t" [exAsk "t" (-2)])]⟩)
    (outs := [("t", 5), ("t", 6), ("t", 5), ("t", 6)])
    (told := [("t", [⟨0, 0, [0]⟩]), ("t", [⟨0, 0, [0]⟩])])
    ⟨by decide, by decide⟩ (by decide +kernel) (by simp) ?_
  refine FirstCourse.cons (ev := .call 1 "t" (.int beginning) 0) (out := .asked [exAsk "t" (-2)])
    (s1 := ⟨⟨exNew, []⟩, [(0, .determining "t" [exAsk "t" (-2)]),
      (1, .determining "t" [exAsk "t" (-2)])]⟩) (outs := [("t", 5), ("t", 6), ("t", 5), ("t", 6)])
    (told := [("t", [⟨0, 0, [0]⟩]), ("t", [⟨0, 0, [0]⟩])])
    ⟨by decide, by decide⟩ (by decide +kernel) (by simp) ?_
  refine FirstCourse.cons (ev := .offsets 0 7 (.ok (exTold "t" 0))) (out := .nothing)
    (s1 := ⟨⟨{ exNew with offsets := [("t", [(0, 0)])] }, []⟩, [(0, .determining "t" []),
      (1, .determining "t" [exAsk "t" (-2)])]⟩) (outs := [("t", 5), ("t", 6), ("t", 5), ("t", 6)])
    (told := [("t", [⟨0, 0, [0]⟩])])
    (exTold_fair (pending := [exAsk "t" (-2)]) rfl (by decide)) (by decide +kernel)
    (by simp) ?_
  refine FirstCourse.cons (ev := .determined 0) (out := .sent [exFetchAt "t" 0])
    (s1 := ⟨⟨{ exNew with offsets := [("t", [(0, 0)])], synced := ["t"] },
      [(0, ⟨"t", [exFetchAt "t" 0], []⟩)]⟩, [(1, .determining "t" [exAsk "t" (-2)])]⟩)
    (outs := [("t", 5), ("t", 6), ("t", 5), ("t", 6)]) (told := [("t", [⟨0, 0, [0]⟩])])
    trivial (by decide +kernel) (by simp) ?_
  refine FirstCourse.cons (ev := .base (.outcome 0 7 (.ok (exFetched "t" [(0, 5), (1, 6)]))))
    (out := .nothing)
    (s1 := ⟨⟨{ exNew with offsets := [("t", [(0, 2)])], synced := ["t"] },
      [(0, ⟨"t", [], [(7, [5, 6])]⟩)]⟩, [(1, .determining "t" [exAsk "t" (-2)])]⟩)
    (outs := [("t", 5), ("t", 6), ("t", 5), ("t", 6)]) (told := [("t", [⟨0, 0, [0]⟩])])
    (exFetched_first (o := 0) rfl rfl ⟨[(2, 7), (3, 8), (4, 9)], by decide⟩) (by decide +kernel)
    (by simp) ?_
  refine FirstCourse.cons (ev := .base (.finish 0)) (out := .returned "t" (some [5, 6]))
    (s1 := ⟨⟨{ exNew with offsets := [("t", [(0, 2)])], synced := ["t"] }, []⟩,
      [(1, .determining "t" [exAsk "t" (-2)])]⟩)
    (outs := [("t", 5), ("t", 6)]) (told := [("t", [⟨0, 0, [0]⟩])])
    trivial (by decide +kernel) (by simp) ?_
  refine FirstCourse.cons (ev := .offsets 1 7 (.ok (exTold "t" 0))) (out := .nothing)
    (s1 := ⟨⟨{ exNew with offsets := [("t", [(0, 0)])], synced := ["t"] }, []⟩,
      [(1, .determining "t" [])]⟩)
    (outs := [("t", 5), ("t", 6)]) (told := [])
    (exTold_fair (pending := [exAsk "t" (-2)]) rfl (by decide)) (by decide +kernel)
    (by simp) ?_
  refine FirstCourse.cons (ev := .determined 1) (out := .sent [exFetchAt "t" 0])
    (s1 := ⟨⟨{ exNew with offsets := [("t", [(0, 0)])], synced := ["t"] },
      [(1, ⟨"t", [exFetchAt "t" 0], []⟩)]⟩, []⟩)
    (outs := [("t", 5), ("t", 6)]) (told := []) trivial (by decide +kernel) (by simp) ?_
  refine FirstCourse.cons (ev := .base (.outcome 1 7 (.ok (exFetched "t" [(0, 5), (1, 6)]))))
    (out := .nothing)
    (s1 := ⟨⟨{ exNew with offsets := [("t", [(0, 2)])], synced := ["t"] },
      [(1, ⟨"t", [], [(7, [5, 6])]⟩)]⟩, []⟩)
    (outs := [("t", 5), ("t", 6)]) (told := [])
    (exFetched_first (o := 0) rfl rfl ⟨[(2, 7), (3, 8), (4, 9)], by decide⟩) (by decide +kernel)
    (by simp) ?_
  exact FirstCourse.cons (ev := .base (.finish 1)) (out := .returned "t" (some [5, 6]))
    (outs := []) (told := []) trivial (by decide +kernel) (by simp) (FirstCourse.nil _)

end Kiel
