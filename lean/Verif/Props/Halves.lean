import Verif.Spec.Halves
import Verif.Props.Fleet
import Verif.Props.GroupAlone
/-
C128: rebalances in the middle of calls, whole and half done.
-/
set_option autoImplicit false
namespace Kiel
open Spec

variable {β δ : Type}

theorem Spec.AskedFor.more {t : String} {parts : List Int} {i : Nat} {h : Story β δ}
    (ha : AskedFor t parts i h) (l : Story β δ) : AskedFor t parts i (h ++ l) := by
  obtain ⟨ev, b, h1, h2⟩ := ha
  exact ⟨ev, b, List.mem_append_left _ h1, h2⟩

theorem Spec.ToldOf.more {t : String} {parts : List Int} {h : Story β δ}
    (ha : ToldOf t parts h) (l : Story β δ) : ToldOf t parts (h ++ l) := by
  obtain ⟨l1, l2, i, r, out, rfl, h2⟩ := ha
  exact ⟨l1, l2 ++ l, i, r, out, by simp, h2⟩

/-- What holds of a consumer after the story `h` that began with a rebalance. -/
structure Since (t : String) (parts : List Int) (h : Story β δ) (s : GroupFirst δ) : Prop where
  synced : t ∈ s.group.base.consumer.synced → ToldOf t parts h
  share : ∃ a, s.group.base.consumer.ext.mapping = some a ∧ (a.get? t).getD [] = parts
  asking : ∀ i p b, s.starting.get? i = some (.asking t p b) → p = parts ∧ AskedFor t parts i h
  answered : ∀ i p b r, s.starting.get? i = some (.answered t p b r) → p = parts ∧ ToldOf t parts h
  healing : ∀ i, s.starting.get? i = some (.healing t) → ToldOf t parts h

theorem Since.mono {t : String} {parts : List Int} {h : Story β δ} {s : GroupFirst δ}
    (hs : Since t parts h s) (l : Story β δ) : Since t parts (h ++ l) s :=
  ⟨fun x => (hs.synced x).more l, hs.share, fun i p b x => ⟨(hs.asking i p b x).1, (hs.asking i p b x).2.more l⟩,
    fun i p b r x => ⟨(hs.answered i p b r x).1, (hs.answered i p b r x).2.more l⟩,
    fun i x => (hs.healing i x).more l⟩

/-- The consumer changes in a way that does not matter, and calls stay where they are, or leave. -/
theorem Since.still {t : String} {parts : List Int} {h : Story β δ} {s s' : GroupFirst δ}
    (hs : Since t parts h s)
    (h1 : t ∈ s'.group.base.consumer.synced → t ∈ s.group.base.consumer.synced)
    (h2 : s'.group.base.consumer.ext.mapping = s.group.base.consumer.ext.mapping)
    (h3 : ∀ i ph, s'.starting.get? i = some ph → s.starting.get? i = some ph) :
    Since t parts h s' :=
  ⟨fun x => hs.synced (h1 x), h2 ▸ hs.share, fun i p b x => hs.asking i p b (h3 _ _ x),
    fun i p b r x => hs.answered i p b r (h3 _ _ x), fun i x => hs.healing i (h3 _ _ x)⟩

theorem erase_still {ν : Type} (d : Dict Nat ν) (i j : Nat) (v : ν) (h : (d.erase i).get? j = some v) :
    d.get? j = some v := by
  rw [Dict.get?_erase] at h
  split at h
  · cases h
  · exact h

theorem Since.leave {t : String} {parts : List Int} {h : Story β δ} {s : GroupFirst δ}
    (hs : Since t parts h s) (i : Nat) (x : GroupOut δ × GroupBusy δ)
    (h1 : t ∈ x.2.base.consumer.synced → t ∈ s.group.base.consumer.synced)
    (h2 : x.2.base.consumer.ext.mapping = s.group.base.consumer.ext.mapping) :
    Since t parts h (s.leave i x).2 :=
  hs.still h1 h2 fun _ _ hx => erase_still _ _ _ _ hx

theorem ask_share {cfg : CCfg β δ} {k : Nat} {md : String}
    {result : Option (String × Option (List δ))} (g : GroupBusy δ) :
    (g.ask cfg k md result).2.base.consumer.ext = g.base.consumer.ext := by
  unfold GroupBusy.ask
  split
  · rfl
  · dsimp only
    split
    · rfl
    · split
      · rfl
      · split <;> rfl

theorem finish_share (gcfg : GCfg) (cfg : CCfg β δ) (i : Nat) (topic : String)
    (out : Option (List δ)) (g : GroupBusy δ) :
    (g.finish gcfg cfg i topic out).2.base.consumer.ext.mapping =
      g.base.consumer.ext.mapping := by
  unfold GroupBusy.finish
  split
  · rfl
  · dsimp only
    split
    · rw [ask_share]
    · rfl

theorem ask_not_sent {cfg : CCfg β δ} {k : Nat} {md : String}
    {result : Option (String × Option (List δ))} (g : GroupBusy δ) (reqs : List FReq) :
    (g.ask cfg k md result).1 ≠ .sent reqs := by
  unfold GroupBusy.ask
  split
  · simp
  · dsimp only
    split
    · simp
    · split
      · simp
      · split <;> simp

theorem finish_not_sent (gcfg : GCfg) (cfg : CCfg β δ) (i : Nat) (topic : String)
    (out : Option (List δ)) (g : GroupBusy δ) (reqs : List FReq) :
    (g.finish gcfg cfg i topic out).1 ≠ .sent reqs := by
  unfold GroupBusy.finish
  split
  · simp
  · dsimp only
    split
    · exact ask_not_sent _ _
    · simp

theorem handleOffsetFetch_synced {r : OFResp} {c c' : Grouped} {res : Res Bool}
    (h : handleOffsetFetchResponse r c = (res, c')) : c'.synced = c.synced := by
  unfold handleOffsetFetchResponse at h
  split at h
  · cases h; rfl
  · rename_i t ps _ _
    have := (handleOffsetFetchParts_heeded t ps c false).2
    rw [h] at this
    exact this

/-- The part of a `consume` that asks for messages: it does so as it may, and nothing else. -/
theorem since_fetch {t : String} {parts : List Int} {h : Story β δ} {s : GroupFirst δ}
    (cfg : CCfg β δ) (hs : Since t parts h s) (i : Nat) (topic : String) (ps : List Int)
    (hk : topic = t → ToldOf t parts h) :
    Since t parts h (s.fetch cfg i topic ps).2 ∧
      (Fetches t (s.fetch cfg i topic ps).1 → ToldOf t parts h) := by
  unfold GroupFirst.fetch
  cases hf : s.group.base.consumer.fetches cfg topic ps with
  | mk res c =>
    obtain ⟨_, _, h1, _, _, h2, h3, _⟩ := fetches_spec cfg topic ps s.group.base.consumer c res hf
    have e2 : c.ext.mapping = s.group.base.consumer.ext.mapping := by rw [h2]
    cases res with
    | error e =>
      refine ⟨hs.leave i _ (fun x => h1 ▸ x) e2, ?_⟩
      rintro ⟨reqs, hr, _⟩
      simp [GroupFirst.leave] at hr
    | ok reqs =>
      dsimp only
      split
      · refine ⟨hs.leave i _ (fun x => h1 ▸ x) e2, ?_⟩
        rintro ⟨reqs, hr, _⟩
        simp [GroupFirst.leave] at hr
      · refine ⟨hs.leave i _ (fun x => h1 ▸ x) e2, ?_⟩
        rintro ⟨reqs', hr, q, hq, he⟩
        simp only [GroupFirst.leave, FirstGroupOut.group.injEq, GroupOut.sent.injEq] at hr
        subst hr
        exact hk (by rw [← he]; exact ((h3 reqs rfl).topics q hq).1.symm)

theorem since_proceed {t : String} {parts : List Int} {h : Story β δ} {s : GroupFirst δ}
    (cfg : CCfg β δ) (hs : Since t parts h s) (i : Nat) (topic : String)
    (hk : topic = t → ToldOf t parts h) :
    Since t parts h (s.proceed cfg i topic).2 ∧
      (Fetches t (s.proceed cfg i topic).1 → ToldOf t parts h) := by
  unfold GroupFirst.proceed
  split
  · refine ⟨hs.leave i _ id rfl, ?_⟩
    rintro ⟨reqs, hr, _⟩
    simp [GroupFirst.leave] at hr
  · split
    · exact since_fetch cfg hs i topic _ hk
    · refine ⟨⟨hs.synced, hs.share, fun j p b x => ?_, fun j p b r x => ?_, fun j x => ?_⟩, ?_⟩
      · rw [Dict.get?_set] at x
        split at x
        · cases x
        · exact hs.asking j p b x
      · rw [Dict.get?_set] at x
        split at x
        · cases x
        · exact hs.answered j p b r x
      · rw [Dict.get?_set] at x
        split at x
        · cases x; exact hk rfl
        · exact hs.healing j x
      · rintro ⟨reqs, hr, _⟩
        cases hr

theorem not_fetches_group {t : String} {out : GroupOut δ} (h : ∀ reqs, out ≠ .sent reqs) :
    ¬ Fetches t (FirstGroupOut.group out) := by
  rintro ⟨reqs, hr, _⟩
  cases hr
  exact h _ rfl

/-- Asking for offsets; the story goes on with that step, by `ev`. -/
theorem since_want {t : String} {parts : List Int} {h : Story β δ} {s : GroupFirst δ}
    (cfg : CCfg β δ) (hs : Since t parts h s) (i : Nat) (topic : String) (ps : List Int)
    (ev : FirstGroupEv β) (hp : topic = t → ps = parts) (he : ev = .call i topic ∨ ev = .goOn i) :
    Since t parts (h ++ [(ev, (s.want cfg i topic ps).1)]) (s.want cfg i topic ps).2 ∧
      ¬ Fetches t (s.want cfg i topic ps).1 := by
  unfold GroupFirst.want
  split
  · exact ⟨(hs.leave i _ id rfl).mono _, not_fetches_group (by simp)⟩
  · rename_i b hb
    split
    · exact ⟨(hs.leave i _ id rfl).mono _, not_fetches_group (by simp)⟩
    · split
      · exact ⟨(hs.leave i _ id rfl).mono _, not_fetches_group (by simp)⟩
      · have hm := hs.mono [(ev, FirstGroupOut.wanted b topic ps)]
        refine ⟨⟨hm.synced, hm.share, fun j p b' x => ?_, fun j p b' r x => ?_, fun j x => ?_⟩, ?_⟩
        · rw [Dict.get?_set] at x
          split at x
          · rename_i hj
            subst hj
            cases x
            have := hp rfl
            subst this
            exact ⟨rfl, ev, b, List.mem_append_right _ (List.mem_singleton.2 rfl), he⟩
          · exact hm.asking j p b' x
        · rw [Dict.get?_set] at x
          split at x
          · cases x
          · exact hm.answered j p b' r x
        · rw [Dict.get?_set] at x
          split at x
          · cases x
          · exact hm.healing j x
        · rintro ⟨reqs, hr, _⟩
          cases hr

theorem since_undetermined {t : String} {parts : List Int} {h : Story β δ} {s : GroupFirst δ}
    (gcfg : GCfg) (cfg : CCfg β δ) (hs : Since t parts h s) (i : Nat) (topic : String) (e : Exc) :
    Since t parts h (s.undetermined gcfg cfg i topic e).2 ∧
      ¬ Fetches t (s.undetermined gcfg cfg i topic e).1 := by
  unfold GroupFirst.undetermined
  split
  · refine ⟨hs.leave i _ (fun x => (finish_kept gcfg i topic _ _).1 ▸ x) (finish_share _ _ _ _ _ _),
      not_fetches_group ?_⟩
    exact finish_not_sent gcfg cfg i topic _ _
  · exact ⟨hs.leave i _ id rfl, not_fetches_group (by simp)⟩

theorem busy_share {cfg : CCfg β δ} {b : Busy GExt δ} {ev : BEv GExt β}
    (hc : ∀ i t, ev ≠ .consume i t)
    (ho : ∀ f, ev = .other f → ∀ c, (f c).synced = c.synced ∧ (f c).ext.mapping = c.ext.mapping) :
    (∀ t ∈ (b.step Grouped.allocation cfg ev).2.consumer.synced, t ∈ b.consumer.synced) ∧
    (b.step Grouped.allocation cfg ev).2.consumer.ext.mapping = b.consumer.ext.mapping ∧
    ∀ reqs, (b.step Grouped.allocation cfg ev).1 ≠ .sent reqs := by
  refine ⟨(busy_kept hc fun f hf c => (ho f hf c).1).1, ?_, ?_⟩
  · cases ev with
    | consume i t => exact absurd rfl (hc i t)
    | other f => exact (ho f rfl _).2
    | healFails i e => simp only [Busy.step]; split <;> rfl
    | finish i =>
      simp only [Busy.step]
      split
      · rfl
      · split <;> rfl
    | outcome i broker r =>
      simp only [Busy.step]
      split
      · rfl
      · split
        · rfl
        · split
          · dsimp only; split <;> rfl
          · rename_i resp
            cases hh : handleFetchResponse cfg resp b.consumer with
            | mk res c =>
              obtain ⟨done, rest, h1, h2, h3, h4, h5⟩ := handleFetch_spec cfg resp b.consumer c res hh
              cases res with
              | error e => exact congrArg GExt.mapping h2.ext
              | ok x => exact congrArg GExt.mapping h2.ext
  · cases ev with
    | consume i t => exact absurd rfl (hc i t)
    | other f => simp [Busy.step]
    | healFails i e => simp only [Busy.step]; split <;> simp
    | finish i =>
      simp only [Busy.step]
      split
      · simp
      · split <;> simp
    | outcome i broker r =>
      simp only [Busy.step]
      split
      · simp
      · split
        · simp
        · split
          · simp
          · rename_i resp
            cases hh : handleFetchResponse cfg resp b.consumer with
            | mk res c => cases res <;> simp

theorem group_share {gcfg : GCfg} {cfg : CCfg β δ} {g : GroupBusy δ} {ev : GroupEv β}
    (hc : ∀ i t, ev ≠ .base (.consume i t)) (ho : NoRebalance (.group ev)) :
    (∀ t ∈ (g.step gcfg cfg ev).2.base.consumer.synced, t ∈ g.base.consumer.synced) ∧
    (g.step gcfg cfg ev).2.base.consumer.ext.mapping = g.base.consumer.ext.mapping ∧
    ∀ reqs, (g.step gcfg cfg ev).1 ≠ .sent reqs := by
  cases ev with
  | base bev =>
    have hb := busy_share (cfg := cfg) (b := g.base) (ev := bev)
      (fun i t e => hc i t (by rw [e])) (by rintro f rfl; exact ho)
    simp only [GroupBusy.step]
    cases hbs : g.base.step Grouped.allocation cfg bev with
    | mk out b =>
      rw [hbs] at hb
      obtain ⟨h1, h2, h3⟩ := hb
      cases out with
      | returned topic out =>
        refine ⟨fun t ht => h1 t ?_,
          (finish_share _ _ _ _ _ _).trans h2, finish_not_sent _ _ _ _ _ _⟩
        rw [(finish_kept gcfg _ _ _ _).1] at ht
        exact ht
      | sent reqs => exact absurd rfl (h3 reqs)
      | nothing => exact ⟨h1, h2, by simp⟩
      | raised e => exact ⟨h1, h2, by simp⟩
  | commit k md =>
    exact ⟨fun t ht => (ask_kept (cfg := cfg) g).1 ▸ ht, congrArg GExt.mapping (ask_share g), ask_not_sent g⟩
  | answer k r =>
    simp only [GroupBusy.step]
    split
    · cases hh : handleCommitResponse r g.base.consumer with
      | mk res c =>
        obtain ⟨_, h1, h2, _⟩ := handleCommit_any hh
        cases res with
        | error e => exact ⟨fun t ht => h1 ▸ ht, h2, by simp⟩
        | ok x => exact ⟨fun t ht => h1 ▸ ht, h2, by simp⟩
    · exact ⟨fun t ht => ht, rfl, by simp⟩
  | fails k e =>
    simp only [GroupBusy.step]
    split
    · by_cases he : e = .streamClosed
      · simp [he]
      · simp [he]
    · exact ⟨fun t ht => ht, rfl, by simp⟩
  | goOn k =>
    simp only [GroupBusy.step]
    split
    · split
      · refine ⟨fun t ht => ?_, congrArg GExt.mapping (ask_share _), ask_not_sent _⟩
        rw [(ask_kept _).1] at ht
        exact ht
      · split <;> exact ⟨fun t ht => ht, rfl, by simp⟩
    · exact ⟨fun t ht => ht, rfl, by simp⟩
    · exact ⟨fun t ht => ht, rfl, by simp⟩
  | healFails k e =>
    simp only [GroupBusy.step]
    split <;> exact ⟨fun t ht => ht, rfl, by simp⟩

theorem since_step {t : String} {parts : List Int} {h : Story β δ} {s : GroupFirst δ}
    (gcfg : GCfg) (cfg : CCfg β δ) (hs : Since t parts h s) (ev : FirstGroupEv β)
    (ho : NoRebalance ev) :
    Since t parts (h ++ [(ev, (s.step gcfg cfg ev).1)]) (s.step gcfg cfg ev).2 ∧
      (Fetches t (s.step gcfg cfg ev).1 → ToldOf t parts h) := by
  have up : ∀ x : FirstGroupOut δ × GroupFirst δ,
      Since t parts h x.2 ∧ (Fetches t x.1 → ToldOf t parts h) →
      Since t parts (h ++ [(ev, x.1)]) x.2 ∧ (Fetches t x.1 → ToldOf t parts h) :=
    fun x hx => ⟨hx.1.mono _, hx.2⟩
  have stay : ∀ g : GroupOut δ, (∀ reqs, g ≠ .sent reqs) →
      Since t parts h s ∧ (Fetches t (FirstGroupOut.group g) → ToldOf t parts h) :=
    fun g hg => ⟨hs, fun hf => absurd hf (not_fetches_group hg)⟩
  have gone : ∀ (i : Nat) (x : GroupOut δ × GroupBusy δ),
      (t ∈ x.2.base.consumer.synced → t ∈ s.group.base.consumer.synced) →
      x.2.base.consumer.ext.mapping = s.group.base.consumer.ext.mapping → (∀ reqs, x.1 ≠ .sent reqs) →
      Since t parts h (s.leave i x).2 ∧ (Fetches t (s.leave i x).1 → ToldOf t parts h) :=
    fun i x h1 h2 h3 => ⟨hs.leave i x h1 h2, fun hf => absurd hf (not_fetches_group h3)⟩
  have fin : ∀ (i : Nat) (topic : String) (out : Option (List δ)),
      Since t parts h (s.leave i (s.group.finish gcfg cfg i topic out)).2 ∧
        (Fetches t (s.leave i (s.group.finish gcfg cfg i topic out)).1 → ToldOf t parts h) :=
    fun i topic out => gone i _ (fun x => (finish_kept gcfg i topic out _).1 ▸ x)
      (finish_share _ _ _ _ _ _) (finish_not_sent _ _ _ _ _ _)
  cases ev with
  | call i topic =>
    simp only [GroupFirst.step]
    split
    · exact up _ (fin i topic _)
    · split
      · rename_i hy
        exact up _ (since_proceed cfg hs i topic fun e => hs.synced (e ▸ hy))
      · unfold GroupFirst.determine
        dsimp only
        obtain ⟨a, ha, hp⟩ := hs.share
        simp only [ha]
        split
        · exact up _ (gone i _ id rfl (by simp))
        · have hs' : Since t parts h ⟨{ s.group with base := { s.group.base with consumer :=
              { s.group.base.consumer with ext := { s.group.base.consumer.ext with
                mapping := some (Dict.getDefault a topic []).1 } } } }, s.starting⟩ :=
            ⟨hs.synced, ⟨_, rfl, by rw [getDefault_getD]; exact hp⟩, hs.asking,
              hs.answered, hs.healing⟩
          have := since_want cfg hs' i topic (Dict.getDefault a topic []).2 (.call i topic)
            (fun e => by rw [getDefault_val, e]; exact hp) (.inl rfl)
          exact ⟨this.1, fun hf => absurd hf this.2⟩
  | offsets i r =>
    simp only [GroupFirst.step]
    split
    · rename_i topic ps b hi
      cases hc : handleOffsetFetchResponse r s.group.base.consumer with
      | mk res c =>
        have h1 : c.ext = s.group.base.consumer.ext := handleOffsetFetch_ext hc
        have h2 : c.synced = s.group.base.consumer.synced := handleOffsetFetch_synced hc
        have hs' : Since t parts h ⟨{ s.group with base := { s.group.base with consumer := c } },
            s.starting⟩ := hs.still (fun x => h2 ▸ x) (congrArg GExt.mapping h1) fun _ _ x => x
        cases res with
        | error e =>
          have := since_undetermined gcfg cfg hs' i topic e
          exact up _ ⟨this.1, fun hf => absurd hf this.2⟩
        | ok retry =>
          dsimp only
          have hm := hs'.mono [(FirstGroupEv.offsets i r, (FirstGroupOut.group .nothing : FirstGroupOut δ))]
          refine ⟨⟨hm.synced, hm.share, fun j p b' x => ?_, fun j p b' r' x => ?_, fun j x => ?_⟩,
            fun hf => absurd hf (not_fetches_group (by simp))⟩
          · rw [Dict.get?_set] at x
            split at x
            · cases x
            · exact hm.asking j p b' x
          · rw [Dict.get?_set] at x
            split at x
            · cases x
              obtain ⟨h3, h4⟩ := hs.asking i _ _ hi
              exact ⟨h3, h, [], i, r, _, rfl, h4⟩
            · exact hm.answered j p b' r' x
          · rw [Dict.get?_set] at x
            split at x
            · cases x
            · exact hm.healing j x
    · exact up _ (stay _ (by simp))
  | offsetsFail i e =>
    simp only [GroupFirst.step]
    split
    · refine up _ ⟨?_, fun hf => absurd hf (not_fetches_group (by simp))⟩
      have hs' : Since t parts h ⟨{ s.group with base := { s.group.base with consumer :=
          if e = .streamClosed then s.group.base.consumer else
            { s.group.base.consumer with heal := true } } }, s.starting⟩ := by
        split
        · exact hs
        · exact hs.still id rfl fun _ _ x => x
      refine ⟨hs'.synced, hs'.share, fun j p b' x => ?_, fun j p b' r' x => ?_, fun j x => ?_⟩
      · rw [Dict.get?_set] at x
        split at x
        · cases x
        · exact hs.asking j p b' x
      · rw [Dict.get?_set] at x
        split at x
        · cases x
        · exact hs.answered j p b' r' x
      · rw [Dict.get?_set] at x
        split at x
        · cases x
        · exact hs.healing j x
    · exact up _ (stay _ (by simp))
  | goOn i =>
    simp only [GroupFirst.step]
    split
    · rename_i topic ps b retry hi
      split
      · exact up _ (gone i _ id rfl (by simp))
      · split
        · have hs' : Since t parts h ⟨{ s.group with base := { s.group.base with consumer :=
              { s.group.base.consumer with heal := false } } }, s.starting⟩ :=
            hs.still id rfl fun _ _ x => x
          have := since_want cfg hs' i topic ps (.goOn i)
            (fun e => (hs.answered i ps b retry (e ▸ hi)).1) (.inr rfl)
          exact ⟨this.1, fun hf => absurd hf this.2⟩
        · have hk : topic = t → ToldOf t parts h := fun e => (hs.answered i ps b retry (e ▸ hi)).2
          have hs' : Since t parts h ⟨{ s.group with base := { s.group.base with consumer :=
              { s.group.base.consumer with
                heal := false
                synced := addSet s.group.base.consumer.synced topic } } }, s.starting⟩ := by
            refine ⟨fun x => ?_, hs.share, hs.asking, hs.answered, hs.healing⟩
            rcases (mem_addSet _ _ _).1 x with x | x
            · exact hk x.symm
            · exact hs.synced x
          exact up _ (since_proceed cfg hs' i topic hk)
    · exact up _ (gone i _ id rfl (by simp))
    · exact up _ (stay _ (by simp))
  | healed i =>
    simp only [GroupFirst.step]
    split
    · rename_i topic hi
      split
      · exact up _ (gone i _ id rfl (by simp))
      · split
        · exact up _ (since_fetch cfg hs i topic _ fun e => hs.healing i (e ▸ hi))
        · exact up _ (fin i topic _)
    · exact up _ (stay _ (by simp))
  | healFails i e =>
    have und : ∀ topic, Since t parts h (s.undetermined gcfg cfg i topic e).2 ∧
        (Fetches t (s.undetermined gcfg cfg i topic e).1 → ToldOf t parts h) := fun topic =>
      ⟨(since_undetermined gcfg cfg hs i topic e).1,
        fun hf => absurd hf (since_undetermined gcfg cfg hs i topic e).2⟩
    simp only [GroupFirst.step]
    split
    · exact up _ (stay _ (by simp))
    · exact up _ (und _)
    · exact up _ (und _)
    · exact up _ (gone i _ id rfl (by simp))
    · exact up _ (stay _ (by simp))
  | group gev =>
    by_cases hc : ∃ i t, gev = .base (.consume i t)
    · obtain ⟨i, t', rfl⟩ := hc
      exact up _ (stay _ (by simp))
    · have hst : s.step gcfg cfg (.group gev) =
          (.group (s.group.step gcfg cfg gev).1, ⟨(s.group.step gcfg cfg gev).2, s.starting⟩) := by
        cases gev with
        | base bev =>
          cases bev with
          | consume i t => exact absurd ⟨i, t, rfl⟩ hc
          | _ => rfl
        | _ => rfl
      rw [hst]
      obtain ⟨h1, h2, h3⟩ := group_share (gcfg := gcfg) (cfg := cfg) (g := s.group) (ev := gev)
        (fun i t e => hc ⟨i, t, e⟩) ho
      exact up (_, _) ⟨hs.still (h1 t) h2 fun _ _ x => x,
        fun hf => absurd hf (not_fetches_group h3)⟩

theorem since_story {t : String} {parts : List Int} (gcfg : GCfg) (cfg : CCfg β δ)
    (evs : List (FirstGroupEv β)) : ∀ (h : Story β δ) (s : GroupFirst δ), Since t parts h s →
    (∀ ev ∈ evs, NoRebalance ev) →
    ∀ pre ev out post, (story gcfg cfg s evs).1 = pre ++ (ev, out) :: post → Fetches t out →
      ToldOf t parts (h ++ pre) := by
  induction evs with
  | nil =>
    intro h s _ _ pre ev out post he
    simp [story] at he
  | cons e evs ih =>
    intro h s hs hn pre ev out post he hf
    have hst := since_step gcfg cfg hs e (hn e List.mem_cons_self)
    simp only [story] at he
    cases pre with
    | nil =>
      simp only [List.nil_append, List.cons.injEq, Prod.mk.injEq] at he
      obtain ⟨⟨rfl, rfl⟩, _⟩ := he
      rw [List.append_nil]
      exact hst.2 hf
    | cons x pre =>
      simp only [List.cons_append, List.cons.injEq] at he
      obtain ⟨rfl, he⟩ := he
      have := ih _ _ hst.1 (fun ev h => hn ev (List.mem_cons_of_mem _ h)) pre ev out post he hf
      simpa using this

theorem story_append (gcfg : GCfg) (cfg : CCfg β δ) (evs evs' : List (FirstGroupEv β))
    (s : GroupFirst δ) : story gcfg cfg s (evs ++ evs') =
      ((story gcfg cfg s evs).1 ++ (story gcfg cfg (story gcfg cfg s evs).2 evs').1,
        (story gcfg cfg (story gcfg cfg s evs).2 evs').2) := by
  induction evs generalizing s with
  | nil => rfl
  | cons e evs ih => simp only [List.cons_append, story, ih]

/-- **C128**, partial: a rebalance happens while any calls of the consumer are under way, but none
of a `consume` of the topic that does not wait for messages yet.  From then on, until the next
rebalance, messages of the topic are asked for only after the coordinator has been asked for the
offsets of the new share, and has answered.  Missing: rebalances of which only the first half has
happened (`C128_false_lost`, `C128_false_rewinds`), and `consume`s that do not wait for messages yet
(`C128_false_healing`, `C48_false`). -/
theorem C128_asks_partial (gcfg : GCfg) (cfg : CCfg β δ) (s : GroupFirst δ)
    (a : Dict String (List Int)) (t : String)
    (hfree : ∀ i ph, s.starting.get? i = some ph → ph.topic ≠ t)
    (evs : List (FirstGroupEv β)) (hn : ∀ ev ∈ evs, NoRebalance ev)
    (pre post : Story β δ) (ev : FirstGroupEv β) (out : FirstGroupOut δ)
    (he : (story gcfg cfg s (.remap a :: .unsync :: evs)).1 = pre ++ (ev, out) :: post)
    (hf : Fetches t out) : ToldOf t ((a.get? t).getD []) pre := by
  have hs : Since t ((a.get? t).getD [])
      ([(.remap a, .group .nothing), (.unsync, .group .nothing)] : Story β δ)
      (story gcfg cfg s [.remap a, .unsync]).2 :=
    ⟨fun x => by simp [story, FirstGroupEv.remap, FirstGroupEv.unsync, GroupFirst.step,
        GroupBusy.step, Busy.step, Grouped.unsynced] at x, ⟨a, rfl, rfl⟩,
      fun i p b x => absurd rfl (hfree i _ x), fun i p b r x => absurd rfl (hfree i _ x),
      fun i x => absurd rfl (hfree i _ x)⟩
  rw [show (FirstGroupEv.remap a :: .unsync :: evs) = [.remap a, .unsync] ++ evs from rfl,
    story_append] at he
  have hno : ∀ o : FirstGroupOut δ, o = .group .nothing → ¬ Fetches t o := by
    rintro _ rfl ⟨reqs, hr, _⟩
    cases hr
  match pre, he with
  | [], he =>
    simp only [story, List.cons_append, List.nil_append, List.cons.injEq, Prod.mk.injEq] at he
    exact absurd hf (hno _ he.1.2.symm)
  | [x], he =>
    simp only [story, List.cons_append, List.nil_append, List.cons.injEq, Prod.mk.injEq] at he
    exact absurd hf (hno _ he.2.1.2.symm)
  | x :: y :: pre, he =>
    simp only [story, List.cons_append, List.nil_append, List.cons.injEq] at he
    obtain ⟨rfl, rfl, he⟩ := he
    exact since_story gcfg cfg evs _ _ hs hn pre ev out post he hf

theorem fetch_starts (cfg : CCfg β δ) (s : GroupFirst δ) (i : Nat) (t : String) (parts : List Int) :
    (∀ b t' ps, (s.fetch cfg i t parts).1 ≠ .wanted b t' ps) ∧
    ∀ x ∈ startsOf (s.fetch cfg i t parts).1, x.1 = t ∧ x.2.1 ∈ parts ∧
      x.2.2 = offsetOf s.group.base.consumer.offsets t x.2.1 := by
  unfold GroupFirst.fetch
  cases hf : s.group.base.consumer.fetches cfg t parts with
  | mk res c =>
    obtain ⟨_, _, _, _, _, _, h3, _⟩ := fetches_spec cfg t parts _ c res hf
    cases res with
    | error e => exact ⟨by simp [GroupFirst.leave], by simp [startsOf, GroupFirst.leave]⟩
    | ok reqs =>
      dsimp only
      split
      · exact ⟨by simp [GroupFirst.leave], by simp [startsOf, GroupFirst.leave]⟩
      · refine ⟨by simp [GroupFirst.leave], fun x hx => ?_⟩
        simp only [startsOf, GroupFirst.leave, List.mem_flatMap, List.mem_map] at hx
        obtain ⟨q, hq, p, hpq, rfl⟩ := hx
        have hx := h3 reqs rfl
        refine ⟨(hx.topics q hq).1, ?_, hx.offsets q hq p hpq⟩
        have : p.id ∈ q.parts.map (·.id) := List.mem_map_of_mem hpq
        rw [hx.named q hq] at this
        exact List.mem_of_mem_filter this

/-- **C128**, what happens otherwise: a `consume` of a topic with known offsets that begins when
only the first half of a rebalance has happened does not ask the coordinator; what it fetches, it
fetches at the offsets it had, which are 0 for partitions it never had. -/
theorem C128_half (gcfg : GCfg) (cfg : CCfg β δ) (s : GroupFirst δ) (a : Dict String (List Int))
    (i : Nat) (t : String) (hc : s.group.base.consumer.closing = false)
    (hs : t ∈ s.group.base.consumer.synced) :
    let out := ((s.step gcfg cfg (.remap a)).2.step gcfg cfg (.call i t)).1
    (∀ b t' ps, out ≠ .wanted b t' ps) ∧
    ∀ x ∈ startsOf out, x.1 = t ∧ x.2.1 ∈ (a.get? t).getD [] ∧
      x.2.2 = offsetOf s.group.base.consumer.offsets t x.2.1 := by
  have h1 : (s.step gcfg cfg (.remap a)).2 = ⟨{ s.group with base := { s.group.base with consumer :=
      (Grouped.remapped a s.group.base.consumer) } }, s.starting⟩ := rfl
  simp only [h1]
  simp only [GroupFirst.step, Grouped.remapped, hc, hs, if_true, GroupFirst.proceed,
    Grouped.allocation, Bool.false_eq_true, if_false]
  cases ha : allocated a t with
  | none => exact ⟨by simp, by simp [startsOf]⟩
  | some parts =>
    have hp : (a.get? t).getD [] = parts := by
      unfold allocated at ha
      split at ha
      · rename_i h; cases ha; rw [h]; rfl
      · cases ha
    rw [hp]
    exact fetch_starts cfg _ i t parts

/-- **C128**: if the second half has happened when such a `consume` ends, and no other has
determined the topic's offsets meanwhile, it returns nothing, and the topic is not committed because
of it. -/
theorem C128_discarded (gcfg : GCfg) (cfg : CCfg β δ) (s : GroupFirst δ) (i : Nat) (w : Waiting δ)
    (hw : s.group.base.waiting.get? i = some w) (hp : w.pending = [])
    (hs : w.topic ∉ s.group.base.consumer.synced) :
    (s.step gcfg cfg (.group (.base (.finish i)))).1 = .group (.returned w.topic (some [])) ∧
    (s.step gcfg cfg (.group (.base (.finish i)))).2.group.base.consumer.ext =
      s.group.base.consumer.ext := by
  simp [GroupFirst.step, GroupBusy.step, Busy.step, hw, hp, GroupBusy.finish, hs]

theorem set_length_new {κ ν : Type} [DecidableEq κ] (d : Dict κ ν) (k : κ) (v : ν)
    (h : d.get? k = .none) : (d.set k v).length = d.length + 1 := by
  induction d with
  | nil => rfl
  | cons e d ih =>
    obtain ⟨k', v'⟩ := e
    simp only [Dict.get?] at h
    split at h
    · cases h
    · rename_i hk
      simp only [Dict.set, hk, if_false, List.length_cons, ih h]

theorem lookups_same (ts : List String) (a : Dict String (List Int)) (h : ∀ t ∈ ts, a.has t = true) :
    ts.foldl (fun a t => (a.getDefault t []).1) a = a := by
  induction ts with
  | nil => rfl
  | cons t ts ih =>
    simp only [List.mem_cons, forall_eq_or_imp] at h
    have : (a.getDefault t []).1 = a := by
      have h1 := h.1
      unfold Dict.has at h1
      unfold Dict.getDefault
      cases hg : a.get? t with
      | none => rw [hg] at h1; cases h1
      | some v => rfl
    rw [List.foldl_cons, this]
    exact ih h.2

theorem lookups_grow (ts : List String) (a : Dict String (List Int)) :
    a.length ≤ (ts.foldl (fun a t => (a.getDefault t []).1) a).length ∧
    ((∃ t ∈ ts, a.has t = false) →
      a.length < (ts.foldl (fun a t => (a.getDefault t []).1) a).length) := by
  induction ts generalizing a with
  | nil => simp
  | cons t ts ih =>
    rw [List.foldl_cons]
    by_cases ht : a.has t = true
    · have := lookups_same [t] a (by simpa using ht)
      simp only [List.foldl_cons, List.foldl_nil] at this
      rw [this]
      refine ⟨(ih a).1, ?_⟩
      rintro ⟨t', h1, h2⟩
      rcases List.mem_cons.1 h1 with rfl | h1
      · rw [ht] at h2; cases h2
      · exact (ih a).2 ⟨t', h1, h2⟩
    · have hl : ((a.getDefault t []).1).length = a.length + 1 := by
        unfold Dict.getDefault
        cases hg : a.get? t with
        | none => exact set_length_new a t [] hg
        | some v => simp [Dict.has, hg] at ht
      have := (ih (a.getDefault t []).1).1
      exact ⟨by omega, fun _ => by omega⟩

/-- **C128**, when the second half never happens: if the consumer's thread looks a topic up that is
not in the new share, while that is iterated over, the rebalance ends with a `RuntimeError`, before
the consumer is told. -/
theorem C128_unfinished (a : Dict String (List Int)) (looked : List (List String)) :
    (logShare a.length a.keys looked a).1 = .error .runtimeError ↔
      ∃ ts ∈ looked.take (a.length + 1), ∃ t ∈ ts, a.has t = false := by
  have key : ∀ (left : List String) (looked : List (List String)),
      (logShare a.length left looked a).1 = .error .runtimeError ↔
        ∃ ts ∈ looked.take (left.length + 1), ∃ t ∈ ts, a.has t = false := by
    have hbad : ∀ left, ∀ {x : List String} {xs : List (List String)},
        (x.foldl (fun a t => (a.getDefault t []).1) a).length ≠ a.length →
        (logShare a.length left (x :: xs) a).1 = .error .runtimeError := by
      intro left x xs h
      cases left <;> unfold logShare <;> exact congrArg Prod.fst (if_pos h)
    intro left
    induction left with
    | nil =>
      intro looked
      cases looked with
      | nil => simp [logShare]
      | cons x xs =>
        by_cases hx : ∃ t ∈ x, a.has t = false
        · have := (lookups_grow x a).2 hx
          simp only [List.length_nil, Nat.zero_add, List.take_succ_cons,
            List.take_zero, List.mem_singleton, exists_eq_left]
          rw [hbad _ this.ne']
          exact ⟨fun _ => hx, fun _ => rfl⟩
        · have h1 : ∀ t ∈ x, a.has t = true := by simpa using hx
          unfold logShare
          simp only [List.headD_cons, List.length_nil, Nat.zero_add, List.take_succ_cons,
            List.take_zero, List.mem_singleton, exists_eq_left, lookups_same x a h1]
          simpa using h1
    | cons k left ih =>
      intro looked
      cases looked with
      | nil => simpa [logShare] using ih []
      | cons x xs =>
        by_cases hx : ∃ t ∈ x, a.has t = false
        · have := (lookups_grow x a).2 hx
          rw [hbad _ this.ne']
          exact ⟨fun _ => ⟨x, by simp, hx⟩, fun _ => rfl⟩
        · have h1 : ∀ t ∈ x, a.has t = true := by simpa using hx
          rw [logShare]
          simp only [List.headD_cons, lookups_same x a h1, List.tail_cons, ne_eq, not_true,
            if_false, List.length_cons]
          rw [ih xs, List.take_succ_cons]
          constructor
          · rintro ⟨ts, h2, h3⟩
            exact ⟨ts, List.mem_cons_of_mem _ h2, h3⟩
          · rintro ⟨ts, h2, h3⟩
            rcases List.mem_cons.1 h2 with rfl | h2
            · exact absurd h3 hx
            · exact ⟨ts, h2, h3⟩
  have := key a.keys looked
  rwa [show a.keys.length = a.length by simp [Dict.keys]] at this

/-! ### Concrete courses -/

/-- A consumer that has both partitions of B, led by brokers 7 and 8, and is about to begin. -/
def exHalfStart : GroupFirst Nat :=
  ⟨⟨⟨{ Grouped.new exGCluster with ext := ⟨some 8, [], some [("B", [0, 1])]⟩ }, []⟩, []⟩, []⟩

/-- The broker's answer for one partition of B. -/
def exHalfGot (i : Nat) (broker p : Int) (ms : List (Int × Nat)) : FirstGroupEv Nat :=
  .group (.base (.outcome i broker (.ok ⟨[("B", [⟨p, 0, ms⟩])]⟩)))

/-- It fetches both partitions, but is rebalanced meanwhile: partition 1 is taken from it, and what
it has fetched is dropped.  It consumes partition 0. -/
def exHalfBefore : List (FirstGroupEv Nat) :=
  [.call 0 "B", .offsets 0 ⟨[("B", [⟨0, 0, 0⟩, ⟨1, 0, 0⟩])]⟩, .goOn 0,
   exHalfGot 0 7 0 [(0, 5)], exHalfGot 0 8 1 [(0, 6)],
   .remap [("B", [0])], .unsync, .group (.base (.finish 0)),
   .call 1 "B", .offsets 1 ⟨[("B", [⟨0, 0, 0⟩])]⟩, .goOn 1, exHalfGot 1 7 0 [(0, 5)],
   .group (.base (.finish 1)), .group (.answer 1 ⟨[("B", [(0, 0)])]⟩), .group (.goOn 1)]

/-- It is given partition 1 back, and consumes when the first half of that has happened. -/
def exHalfAfter : List (FirstGroupEv Nat) :=
  [.remap [("B", [0, 1])], .call 2 "B", exHalfGot 2 7 0 [], exHalfGot 2 8 1 [(1, 9)],
   .group (.base (.finish 2)), .group (.answer 2 ⟨[("B", [(0, 0), (1, 0)])]⟩), .group (.goOn 2),
   .unsync]

/-- **C128** is false of the code, and messages are lost: the `consume` in the middle of the
rebalance fetches partition 1 from where the consumer had once been, and commits that.  Message 6,
at offset 0 of partition 1, has not been returned by it, and nobody had committed it. -/
theorem C128_false_lost :
    ((story exAuto exCCfg exHalfStart (exHalfBefore ++ exHalfAfter)).1.map (·.2)).filter
      (fun o => decide (o ≠ .group .nothing)) =
    [.wanted 8 "B" [0, 1],
     .group (.sent [⟨7, 1000, 1, "B", [⟨0, 0, 100⟩]⟩, ⟨8, 1000, 1, "B", [⟨1, 0, 100⟩]⟩]),
     .group (.returned "B" (some [])),
     .wanted 8 "B" [0],
     .group (.sent [⟨7, 1000, 1, "B", [⟨0, 0, 100⟩]⟩]),
     .group (.asked ⟨some 8, "committed by x", [("B", [(0, 1)])]⟩),
     .group (.returned "B" (some [5])),
     .group (.sent [⟨7, 1000, 1, "B", [⟨0, 1, 100⟩]⟩, ⟨8, 1000, 1, "B", [⟨1, 1, 100⟩]⟩]),
     .group (.asked ⟨some 8, "committed by x", [("B", [(0, 1), (1, 2)])]⟩),
     .group (.returned "B" (some [9]))] := by decide +kernel

/-- **C128** is false of the code, and the group's offset goes back: the consumer has partition 0
only and is given partition 1, of which others have consumed and committed 50 messages; the
`consume` in the middle of the rebalance fetches it from the beginning, returns the first of them
again, and commits offset 1. -/
theorem C128_false_rewinds :
    ((story exAuto exCCfg
        ⟨⟨⟨{ Grouped.new exGCluster with
              synced := ["B"], offsets := [("B", [(0, 7)])]
              ext := ⟨some 8, [], some [("B", [0])]⟩ }, []⟩, []⟩, []⟩
        [.remap [("B", [0, 1])], .call 0 "B", exHalfGot 0 7 0 [], exHalfGot 0 8 1 [(0, 6)],
         .group (.base (.finish 0)), .group (.answer 0 ⟨[("B", [(0, 0), (1, 0)])]⟩),
         .group (.goOn 0), .unsync]).1.map (·.2)).filter (fun o => decide (o ≠ .group .nothing)) =
    [.group (.sent [⟨7, 1000, 1, "B", [⟨0, 7, 100⟩]⟩, ⟨8, 1000, 1, "B", [⟨1, 0, 100⟩]⟩]),
     .group (.asked ⟨some 8, "committed by x", [("B", [(0, 7), (1, 1)])]⟩),
     .group (.returned "B" (some [6]))] := by decide +kernel

/-- **C128** is false of the code, for good: while the new share is iterated over, the consumer is
asked to consume C, which is not in it; the rebalance raises, and the consumer is never told.  Any
later `consume` of B fetches the new partition 1 from the beginning. -/
theorem C128_false_for_good :
    (logShare 1 ["B"] [[], ["C"]] [("B", [0, 1])]).1 = .error .runtimeError ∧
    (story exAuto exCCfg
        ⟨⟨⟨{ Grouped.new exGCluster with
              synced := ["B"], offsets := [("B", [(0, 7)])]
              ext := ⟨some 8, [], some [("B", [0])]⟩ }, []⟩, []⟩, []⟩
        [.remap [("B", [0, 1])], .call 0 "C", .offsets 0 ⟨[("C", [])]⟩, .goOn 0, .healed 0,
         .group (.answer 0 ⟨[]⟩), .group (.goOn 0), .call 1 "B"]).1.map (·.2) =
    [.group .nothing, .wanted 8 "C" [], .group .nothing, .healing,
     .group (.asked ⟨some 8, "committed by x", [("C", [])]⟩), .group .nothing,
     .group (.returned "C" (some [])),
     .group (.sent [⟨7, 1000, 1, "B", [⟨0, 7, 100⟩]⟩, ⟨8, 1000, 1, "B", [⟨1, 0, 100⟩]⟩])] := by
  decide +kernel

/-- **C128** is false of the code also for whole rebalances: the consumer has no partitions of B,
so its `consume` looks the cluster up; meanwhile it is given both.  It fetches them from the
beginning, whatever the group has committed. -/
theorem C128_false_healing :
    ((story exAuto exCCfg
        ⟨⟨⟨{ Grouped.new exGCluster with
              synced := ["B"], ext := ⟨some 8, [], some [("A", [0])]⟩ }, []⟩, []⟩, []⟩
        [.call 0 "B", .remap [("B", [0, 1])], .unsync, .healed 0]).1.map (·.2)) =
    [.healing, .group .nothing, .group .nothing,
     .group (.sent [⟨7, 1000, 1, "B", [⟨0, 0, 100⟩]⟩, ⟨8, 1000, 1, "B", [⟨1, 0, 100⟩]⟩])] := by
  decide +kernel

-- Non-vacuity of C128_asks_partial: the rebalance in the first course happens while a `consume`
-- waits for messages, and the next one fetches; of C128_discarded: that `consume` ends then.
example :
    let s := (story exAuto exCCfg exHalfStart (exHalfBefore.take 5)).2
    s.starting = [] ∧ s.group.base.waiting.map (fun w => (w.2.topic, w.2.pending)) = [("B", [])] ∧
    (exHalfBefore.drop 5).map (fun ev => match ev with
      | .group (.base (.other _)) => true
      | _ => false) = [true, true, false, false, false, false, false, false, false, false] ∧
    ((story exAuto exCCfg s (exHalfBefore.drop 5)).1.map (·.2))[5]? =
      some (.group (.sent [⟨7, 1000, 1, "B", [⟨0, 0, 100⟩]⟩])) := by decide +kernel

-- C128_unfinished: looking up what is there does no harm.
example : (logShare 1 ["B"] [["B"], ["B"], ["C"]] [("B", [0, 1])]).1 = .ok () := by decide +kernel

-- Non-vacuity of C128_half: the state in the first course before partition 1 is given back.
example :
    let c := (story exAuto exCCfg exHalfStart exHalfBefore).2.group.base.consumer
    c.closing = false ∧ c.synced = ["B"] ∧ offsetOf c.offsets "B" 1 = 1 := by decide +kernel

end Kiel
