import Verif.Spec.Overlap
import Verif.Lemmas.Log
import Verif.Props.Consumer
/-
C76: `consume`s that run at the same time.
-/
set_option autoImplicit false
namespace Kiel
open Spec

variable {ε β δ : Type}

/-! ### What always holds of the `consume`s under way -/

/-- Numbers differ; a `consume` waits for one answer per broker, for its own topic, and has no
results yet from brokers it waits for; a partition is in one request only. -/
structure SoundWait (w : Waiting δ) : Prop where
  brokers : (w.pending.map (·.broker)).Nodup
  fresh : ∀ q ∈ w.pending, q.broker ∉ w.results.keys
  topic : ∀ q ∈ w.pending, q.topic = w.topic
  once : ∀ q ∈ w.pending, ∀ q' ∈ w.pending, ∀ f ∈ q.parts, ∀ f' ∈ q'.parts, f.id = f'.id → q = q'

structure SoundBusy (b : Busy ε δ) : Prop where
  nodup : b.waiting.keys.Nodup
  each : ∀ x ∈ b.waiting, SoundWait x.2

theorem soundWait_fetches {cfg : CCfg β δ} {c : Consumer ε} {topic : String} {parts : List Int}
    {reqs : List FReq} (h : FetchesExactly cfg c topic parts reqs) :
    SoundWait (⟨topic, reqs, []⟩ : Waiting δ) := by
  refine ⟨h.brokers, by simp [Dict.keys], fun q hq => (h.topics q hq).1, ?_⟩
  intro q hq q' hq' f hf f' hf' he
  have key : ∀ q ∈ reqs, ∀ f ∈ q.parts, leaderOf c.cluster topic f.id = some q.broker := by
    intro q hq f hf
    have : f.id ∈ q.parts.map (·.id) := List.mem_map.2 ⟨f, hf, rfl⟩
    rw [h.named q hq, List.mem_filter] at this
    simpa using this.2
  have e1 := key q hq f hf
  have e2 := key q' hq' f' hf'
  rw [he, e2] at e1
  exact List.inj_on_of_nodup_map h.brokers hq hq' (Option.some.inj e1).symm

theorem soundWait_left {w : Waiting δ} (h : SoundWait w) (broker : Int) :
    SoundWait { w with pending := w.pending.filter fun q => decide (q.broker ≠ broker) } :=
  ⟨h.brokers.sublist (List.filter_sublist.map _),
    fun q hq => h.fresh q (List.mem_filter.1 hq).1,
    fun q hq => h.topic q (List.mem_filter.1 hq).1,
    fun q hq q' hq' => h.once q (List.mem_filter.1 hq).1 q' (List.mem_filter.1 hq').1⟩

theorem soundWait_result {w : Waiting δ} (h : SoundWait w) (broker : Int) (x : List δ) :
    SoundWait (⟨w.topic, w.pending.filter fun q => decide (q.broker ≠ broker),
      w.results.set broker x⟩ : Waiting δ) := by
  have h' := soundWait_left h broker
  refine ⟨h'.brokers, ?_, h'.topic, h'.once⟩
  intro q hq hk
  rw [Dict.keys_set] at hk
  have hm := List.mem_filter.1 hq
  simp only [decide_eq_true_eq] at hm
  split at hk
  · exact h.fresh q hm.1 hk
  · rcases List.mem_append.1 hk with hk | hk
    · exact h.fresh q hm.1 hk
    · exact hm.2 (by simpa using hk)

theorem mem_of_set {κ ν : Type} [DecidableEq κ] {d : Dict κ ν} {k : κ} {v : ν} {e : κ × ν}
    (hn : d.keys.Nodup) (h : e ∈ d.set k v) : e = (k, v) ∨ e ∈ d ∧ e.1 ≠ k := by
  have := (Dict.mem_set hn).1 h
  tauto

/-- The three kinds of steps that do not raise. -/
theorem busy_step {allocation : Consumer ε → Res (Dict String (List Int))} {cfg : CCfg β δ}
    {b b' : Busy ε δ} {ev : BEv ε β} {out : BOut δ} (hs : SoundBusy b)
    (h : b.step allocation cfg ev = (out, b')) (hno : ∀ e, out ≠ .raised e)
    (hnew : ∀ i t, ev = .consume i t → b.waiting.get? i = .none)
    (hoff : ∀ f, ev = .other f → ∀ c, (f c).offsets = c.offsets) :
    SoundBusy b' ∧
    -- nothing much
    ((returnedBy out = [] ∧ b'.waiting = b.waiting ∧
        ∀ t p, offsetOf b'.consumer.offsets t p = offsetOf b.consumer.offsets t p) ∨
    -- a `consume` begins
    (∃ i topic parts reqs, ev = .consume i topic ∧ returnedBy out = [] ∧
        FetchesExactly cfg b.consumer topic parts reqs ∧
        b'.waiting = b.waiting ++ [(i, ⟨topic, reqs, []⟩)] ∧
        ∀ t p, offsetOf b'.consumer.offsets t p = offsetOf b.consumer.offsets t p) ∨
    -- a request fails
    (∃ i w broker, b.waiting.get? i = some w ∧ returnedBy out = [] ∧
        b'.waiting = b.waiting.set i
          { w with pending := w.pending.filter fun q => decide (q.broker ≠ broker) } ∧
        ∀ t p, offsetOf b'.consumer.offsets t p = offsetOf b.consumer.offsets t p) ∨
    -- an answer
    (∃ i w q r, ev = .outcome i q.broker (.ok r) ∧ b.waiting.get? i = some w ∧ q ∈ w.pending ∧
        returnedBy out = [] ∧
        b'.waiting = b.waiting.set i
          ⟨w.topic, w.pending.filter fun x => decide (x.broker ≠ q.broker),
            w.results ++ [(q.broker, values cfg (fetched (answersOf r)))]⟩ ∧
        ∀ t p, offsetOf b'.consumer.offsets t p =
          after cfg (fetchedFor (answersOf r) t p) (offsetOf b.consumer.offsets t p)) ∨
    -- the end of a `consume`
    (∃ i w, b.waiting.get? i = some w ∧ w.pending = [] ∧
        returnedBy out = (w.results.vals.flatten.filter cfg.truthy).map (fun v => (w.topic, v)) ∧
        b'.waiting = b.waiting.erase i ∧
        ∀ t p, offsetOf b'.consumer.offsets t p = offsetOf b.consumer.offsets t p)) := by
  cases ev with
  | consume i topic =>
    simp only [Busy.step] at h
    split at h
    · cases h; exact ⟨hs, .inl ⟨rfl, rfl, fun _ _ => rfl⟩⟩
    · split at h
      · cases h; exact ⟨hs, .inl ⟨rfl, rfl, fun _ _ => rfl⟩⟩
      · split at h
        · cases h; exact absurd rfl (hno _)
        · split at h
          · cases h; exact ⟨hs, .inl ⟨rfl, rfl, fun _ _ => rfl⟩⟩
          · rename_i parts _
            split at h
            · cases h; exact absurd rfl (hno _)
            · rename_i reqs c hf
              split at h
              · cases h; exact absurd rfl (hno _)
              · simp only [Prod.mk.injEq] at h
                obtain ⟨rfl, rfl⟩ := h
                obtain ⟨_, f2, _, _, _, _, f7, _⟩ := fetches_spec cfg topic parts _ _ _ hf
                have hfe := f7 _ rfl
                have hk := Dict.get?_eq_none.1 (hnew i topic rfl)
                have hset := Dict.set_of_not_mem (v := (⟨topic, reqs, []⟩ : Waiting δ)) hk
                refine ⟨⟨Dict.nodup_set hs.nodup _ _, ?_⟩, .inr (.inl ⟨i, topic, parts, reqs, rfl, rfl,
                  hfe, hset, f2⟩)⟩
                intro x hx
                rcases mem_of_set hs.nodup hx with rfl | ⟨hx, _⟩
                · exact soundWait_fetches hfe
                · exact hs.each x hx
  | outcome i broker r =>
    simp only [Busy.step] at h
    split at h
    · cases h; exact ⟨hs, .inl ⟨rfl, rfl, fun _ _ => rfl⟩⟩
    · rename_i w hw
      have hsw := hs.each _ (Dict.mem_of_get? hw)
      split at h
      · cases h; exact ⟨hs, .inl ⟨rfl, rfl, fun _ _ => rfl⟩⟩
      · rename_i hb
        rw [not_not, List.mem_map] at hb
        obtain ⟨q, hq, rfl⟩ := hb
        split at h
        · rename_i e
          simp only [Prod.mk.injEq] at h
          obtain ⟨rfl, rfl⟩ := h
          refine ⟨⟨Dict.nodup_set hs.nodup _ _, ?_⟩, .inr (.inr (.inl ⟨i, w, q.broker, hw, rfl, rfl,
            fun _ _ => ?_⟩))⟩
          · intro x hx
            rcases mem_of_set hs.nodup hx with rfl | ⟨hx, _⟩
            · exact soundWait_left hsw _
            · exact hs.each x hx
          · simp only; split <;> rfl
        · rename_i resp
          split at h
          · cases h; exact absurd rfl (hno _)
          · rename_i x c hh
            simp only [Prod.mk.injEq] at h
            obtain ⟨rfl, rfl⟩ := h
            obtain ⟨done, rest, g1, g2, _, g4, _⟩ := handleFetch_spec cfg resp _ _ _ hh
            obtain ⟨rfl, rfl, _⟩ := g4 _ rfl
            rw [List.append_nil] at g1
            subst g1
            have hset := Dict.set_of_not_mem (v := values cfg (fetched (answersOf resp)))
              (hsw.fresh q hq)
            refine ⟨⟨Dict.nodup_set hs.nodup _ _, ?_⟩, .inr (.inr (.inr (.inl ⟨i, w, q, resp, rfl, hw,
              hq, rfl, ?_, g2.offsets⟩)))⟩
            · intro x hx
              rcases mem_of_set hs.nodup hx with rfl | ⟨hx, _⟩
              · exact soundWait_result hsw _ _
              · exact hs.each x hx
            · simp only [hset]
  | finish i =>
    simp only [Busy.step] at h
    split at h
    · cases h; exact ⟨hs, .inl ⟨rfl, rfl, fun _ _ => rfl⟩⟩
    · rename_i w hw
      split at h
      · cases h; exact ⟨hs, .inl ⟨rfl, rfl, fun _ _ => rfl⟩⟩
      · rename_i hp
        rw [not_not] at hp
        simp only [Prod.mk.injEq] at h
        obtain ⟨rfl, rfl⟩ := h
        exact ⟨⟨Dict.nodup_erase hs.nodup _, fun x hx => hs.each x (Dict.mem_erase.1 hx).1⟩,
          .inr (.inr (.inr (.inr ⟨i, w, hw, hp, rfl, rfl, fun _ _ => rfl⟩)))⟩
  | healFails i e =>
    simp only [Busy.step] at h
    split at h <;> simp only [Prod.mk.injEq] at h
    · obtain ⟨rfl, rfl⟩ := h
      exact ⟨hs, .inl ⟨rfl, rfl, fun _ _ => rfl⟩⟩
    · exact absurd h.1.symm (hno e)
  | other f =>
    simp only [Busy.step, Prod.mk.injEq] at h
    obtain ⟨rfl, rfl⟩ := h
    exact ⟨⟨hs.nodup, hs.each⟩, .inl ⟨rfl, rfl, fun t p => by simp only [hoff f rfl]⟩⟩

/-! ### One answer -/

theorem honest_answer {batch : List (Int × β) → Int → List (Int × β) → Prop}
    {logs : String → Int → List (Int × β)} {q : FReq} {r : FResp β}
    (h : HonestAnswer batch logs q r) (t : String) (p : Int) :
    fetchedFor (answersOf r) t p = [] ∨
    t = q.topic ∧ ∃ f ∈ q.parts, f.id = p ∧ batch (logs t p) f.offset (fetchedFor (answersOf r) t p) := by
  obtain ⟨ps, h1, h2, h3⟩ := h
  have ha : answersOf r = ps.map fun x => (q.topic, x) := by simp [answersOf, h1]
  rw [ha]
  by_cases ht : t = q.topic
  · subst ht
    by_cases hx : ∃ x ∈ ps, x.id = p ∧ x.code = 0
    · obtain ⟨x, hx, rfl, h0⟩ := hx
      right
      obtain ⟨f, hf, hid, hb⟩ := (h3 x hx).2 h0
      refine ⟨rfl, f, hf, hid, ?_⟩
      have : fetchedFor (ps.map fun x => (q.topic, x)) q.topic x.id = x.msgs := by
        unfold fetchedFor
        rw [List.filter_map, List.flatMap_map]
        clear h1 ha h3 hb
        induction ps with
        | nil => simp at hx
        | cons y ps ih =>
          simp only [List.map_cons, List.nodup_cons] at h2
          rcases List.mem_cons.1 hx with rfl | hx
          · have hnone : ps.filter ((fun a : String × FPart β => decide (a.1 = q.topic ∧ a.2.id = x.id ∧
                a.2.code = 0)) ∘ fun x => (q.topic, x)) = [] := by
              rw [List.filter_eq_nil_iff]
              intro z hz
              simp only [Function.comp_apply, decide_eq_true_eq]
              rintro ⟨_, e, _⟩
              exact h2.1 (List.mem_map.2 ⟨z, hz, e⟩)
            rw [List.filter_cons, hnone]
            simp [h0]
          · have hne : y.id ≠ x.id := fun e => h2.1 (List.mem_map.2 ⟨x, hx, e.symm⟩)
            rw [List.filter_cons]
            simp only [Function.comp_apply, hne, false_and, and_false, decide_false,
              Bool.false_eq_true, if_false]
            exact ih h2.2 hx
      rw [this]
      exact hb
    · left
      unfold fetchedFor
      rw [List.filter_eq_nil_iff.2 ?_]
      · rfl
      · intro a ha
        obtain ⟨x, hm, rfl⟩ := List.mem_map.1 ha
        simp only [decide_eq_true_eq]
        rintro ⟨_, e1, e2⟩
        exact hx ⟨x, hm, e1, e2⟩
  · left
    unfold fetchedFor
    rw [List.filter_eq_nil_iff.2 ?_]
    · rfl
    · intro a ha
      obtain ⟨x, hm, rfl⟩ := List.mem_map.1 ha
      simp only [decide_eq_true_eq]
      rintro ⟨e, _⟩
      exact ht e.symm

/-! ### C76: one `consume` per topic at a time -/

/-- Without the partition. -/
def strip (x : (String × Int) × δ) : String × δ := (x.1.1, x.2)

/-- Those of one partition. -/
def ofPart (t : String) (p : Int) (l : List ((String × Int) × δ)) : List δ :=
  (l.filter fun x => decide (x.1 = (t, p))).map (·.2)

theorem ofPart_append (t : String) (p : Int) (a b : List ((String × Int) × δ)) :
    ofPart t p (a ++ b) = ofPart t p a ++ ofPart t p b := by simp [ofPart]

theorem ofPart_other {t : String} {p : Int} {l : List ((String × Int) × δ)}
    (h : ∀ x ∈ l, x.1.1 ≠ t) : ofPart t p l = [] := by
  unfold ofPart
  rw [List.filter_eq_nil_iff.2]
  · rfl
  · intro x hx
    simp only [decide_eq_true_eq]
    exact fun e => h x hx (by rw [e])

/-- The invariant: `so` and `hand` say which partition everything returned, or held by the
`consume` of a topic, is of. -/
structure Exact (cfg : CCfg β δ) (logs : String → Int → List (Int × β)) (o : String → Int → Int)
    (b : Busy ε δ) (outs : List (String × δ)) : Prop where
  sound : SoundBusy b
  one : ∀ x ∈ b.waiting, ∀ y ∈ b.waiting, x.2.topic = y.2.topic → x = y
  asked : ∀ p, ∀ x ∈ b.waiting, ∀ q ∈ x.2.pending, ∀ f ∈ q.parts, f.id = p →
    f.offset = offsetOf b.consumer.offsets x.2.topic p
  le : ∀ t p, o t p ≤ offsetOf b.consumer.offsets t p
  got : ∃ (so : List ((String × Int) × δ)) (hand : String → List ((String × Int) × δ)),
    so.map strip = outs ∧
    (∀ x ∈ b.waiting, (hand x.2.topic).map strip =
      (x.2.results.vals.flatten.filter cfg.truthy).map fun v => (x.2.topic, v)) ∧
    (∀ t, (∀ x ∈ b.waiting, x.2.topic ≠ t) → hand t = []) ∧
    ∀ t p, ofPart t p so ++ ofPart t p (hand t) =
      (values cfg ((logs t p).filter fun m => decide (o t p ≤ m.1 ∧
        m.1 < offsetOf b.consumer.offsets t p))).filter cfg.truthy

theorem strip_topic {l : List ((String × Int) × δ)} {vs : List δ} {t : String}
    (h : l.map strip = vs.map fun v => (t, v)) : ∀ x ∈ l, x.1.1 = t := by
  intro x hx
  have : strip x ∈ l.map strip := List.mem_map.2 ⟨x, hx, rfl⟩
  rw [h, List.mem_map] at this
  obtain ⟨v, _, e⟩ := this
  exact (congrArg Prod.fst e).symm

/-- A `consume` begins. -/
theorem exact_begins {cfg : CCfg β δ} {logs : String → Int → List (Int × β)}
    {o : String → Int → Int} {b b' : Busy ε δ} {outs outs' : List (String × δ)}
    (hx : Exact cfg logs o b outs) (hs' : SoundBusy b') {i : Nat} {topic : String}
    {parts : List Int} {reqs : List FReq} (ha : ∀ x ∈ b.waiting, x.2.topic ≠ topic)
    (h1 : outs' = []) (h2 : FetchesExactly cfg b.consumer topic parts reqs)
    (h3 : b'.waiting = b.waiting ++ [(i, ⟨topic, reqs, []⟩)])
    (h4 : ∀ t p, offsetOf b'.consumer.offsets t p = offsetOf b.consumer.offsets t p) :
    Exact cfg logs o b' (outs ++ outs') := by
  obtain ⟨so, hand, hso, hhand, hnone, got⟩ := hx.got
  have hmem : ∀ x, x ∈ b'.waiting ↔ x ∈ b.waiting ∨ x = (i, ⟨topic, reqs, []⟩) := by
    intro x
    rw [h3, List.mem_append, List.mem_singleton]
  refine ⟨hs', ?_, ?_, fun t p => by rw [h4]; exact hx.le t p, so, hand,
    by rw [h1, List.append_nil]; exact hso, ?_, ?_, fun t p => by rw [h4]; exact got t p⟩
  · intro x hxm y hym he
    rcases (hmem x).1 hxm with e1 | rfl <;> rcases (hmem y).1 hym with e2 | rfl
    · exact hx.one x e1 y e2 he
    · exact absurd he (ha x e1)
    · exact absurd he.symm (ha y e2)
    · rfl
  · intro p x hxm q hq f hf' hid
    rw [h4]
    rcases (hmem x).1 hxm with e1 | rfl
    · exact hx.asked p x e1 q hq f hf' hid
    · simp only at hq
      rw [h2.offsets q hq f hf', hid]
  · intro x hxm
    rcases (hmem x).1 hxm with e1 | rfl
    · exact hhand x e1
    · rw [hnone topic ha]
      rfl
  · intro t ht
    exact hnone t fun x hxm => ht x ((hmem x).2 (.inl hxm))

theorem exact_step {allocation : Consumer ε → Res (Dict String (List Int))} {cfg : CCfg β δ}
    {logs : String → Int → List (Int × β)} (hl : ∀ t p, IsLog (logs t p))
    {o : String → Int → Int} {b b' : Busy ε δ} {ev : BEv ε β} {out : BOut δ}
    {outs : List (String × δ)} (hx : Exact cfg logs o b outs)
    (hf : Fair Batch logs b ev) (ha : Apart b ev)
    (h : b.step allocation cfg ev = (out, b')) (hno : ∀ e, out ≠ .raised e) :
    Exact cfg logs o b' (outs ++ returnedBy out) := by
  obtain ⟨hs', hcase⟩ := busy_step hx.sound h hno
    (by rintro i t rfl; exact hf) (by rintro f rfl; exact hf)
  have hn := hx.sound.nodup
  obtain ⟨so, hand, hso, hhand, hnone, got⟩ := hx.got
  rcases hcase with ⟨h1, h2, h3⟩ | ⟨i, topic, parts, reqs, rfl, h1, h2, h3, h4⟩ |
    ⟨i, w, broker, h1, h2, h3, h4⟩ | ⟨i, w, q, r, rfl, h1, h2, h3, h4, h5⟩ | ⟨i, w, h1, h2, h3, h4, h5⟩
  · -- nothing much
    refine ⟨hs', by rw [h2]; exact hx.one, ?_, fun t p => by rw [h3]; exact hx.le t p,
      so, hand, by rw [h1, List.append_nil]; exact hso, by rw [h2]; exact hhand,
      by rw [h2]; exact hnone, fun t p => by rw [h3]; exact got t p⟩
    intro p x hxm q hq f hf' hid
    rw [h2] at hxm
    rw [h3]
    exact hx.asked p x hxm q hq f hf' hid
  · exact exact_begins hx hs' ha h1 h2 h3 h4
  · -- a request fails
    have hm := Dict.mem_of_get? h1
    have hmem : ∀ x ∈ b'.waiting, x = (i, { w with
        pending := (w.pending.filter fun q => decide (q.broker ≠ broker)) }) ∨ x ∈ b.waiting ∧ x.1 ≠ i := by
      intro x hxm
      rw [h3] at hxm
      exact mem_of_set hn hxm
    have hnew : (i, { w with pending := (w.pending.filter fun q => decide (q.broker ≠ broker)) }) ∈
        b'.waiting := by rw [h3]; exact (Dict.mem_set hn).2 (.inl rfl)
    refine ⟨hs', ?_, ?_, fun t p => by rw [h4]; exact hx.le t p, so, hand,
      by rw [h2, List.append_nil]; exact hso, ?_, ?_, fun t p => by rw [h4]; exact got t p⟩
    · intro x hxm y hym he
      rcases hmem x hxm with rfl | ⟨e1, n1⟩ <;> rcases hmem y hym with rfl | ⟨e2, n2⟩
      · rfl
      · exact absurd (congrArg Prod.fst (hx.one y e2 _ hm he.symm)) n2
      · exact absurd (congrArg Prod.fst (hx.one x e1 _ hm he)) n1
      · exact hx.one x e1 y e2 he
    · intro p x hxm q hq f hf' hid
      rw [h4]
      rcases hmem x hxm with rfl | ⟨e1, _⟩
      · exact hx.asked p _ hm q (List.mem_filter.1 hq).1 f hf' hid
      · exact hx.asked p x e1 q hq f hf' hid
    · intro x hxm
      rcases hmem x hxm with rfl | ⟨e1, _⟩
      · exact hhand (i, w) hm
      · exact hhand x e1
    · intro t ht
      refine hnone t fun x hxm => ?_
      by_cases hxi : x.1 = i
      · have e : x = (i, w) := by
          have := Dict.get?_of_mem hn (show (x.1, x.2) ∈ b.waiting from hxm)
          rw [hxi, h1] at this
          exact Prod.ext hxi (Option.some.inj this).symm
        rw [e]
        have := ht _ hnew
        exact this
      · exact ht x (by rw [h3]; exact (Dict.mem_set hn).2 (.inr ⟨hxm, hxi⟩))
  · -- an answer
    have hm := Dict.mem_of_get? h1
    have hsw := hx.sound.each _ hm
    have hhon : HonestAnswer Batch logs q r := hf w h1 q h2 rfl
    have hqt : q.topic = w.topic := hsw.topic q h2
    have hmem : ∀ x ∈ b'.waiting, x = (i, ⟨w.topic,
        (w.pending.filter fun x => decide (x.broker ≠ q.broker)),
        w.results ++ [(q.broker, values cfg (fetched (answersOf r)))]⟩) ∨
        x ∈ b.waiting ∧ x.1 ≠ i := by
      intro x hxm
      rw [h4] at hxm
      exact mem_of_set hn hxm
    have hnew : (i, (⟨w.topic, (w.pending.filter fun x => decide (x.broker ≠ q.broker)),
        w.results ++ [(q.broker, values cfg (fetched (answersOf r)))]⟩ : Waiting δ)) ∈
        b'.waiting := by rw [h4]; exact (Dict.mem_set hn).2 (.inl rfl)
    have hlt : ∀ x ∈ labelled cfg (answersOf r), x.1.1 = w.topic := by
      refine labelled_topic cfg _ _ fun a ham => ?_
      obtain ⟨ps, g1, _, _⟩ := hhon
      simp only [answersOf, g1, List.mem_map] at ham
      obtain ⟨x, _, rfl⟩ := ham
      exact hqt
    have hls : (labelled cfg (answersOf r)).map strip =
        ((values cfg (fetched (answersOf r))).filter cfg.truthy).map fun v => (w.topic, v) := by
      rw [← labelled_values, List.map_map]
      exact List.map_congr_left fun x hxm => by
        simp only [strip, Function.comp_apply, hlt x hxm]
    have hne : ∀ x ∈ b.waiting, x.1 ≠ i → x.2.topic ≠ w.topic := fun x hxm hxi e =>
      hxi (congrArg Prod.fst (hx.one x hxm _ hm e))
    -- a partition the answer says nothing of
    have hsame : ∀ t p, fetchedFor (answersOf r) t p = [] →
        offsetOf b'.consumer.offsets t p = offsetOf b.consumer.offsets t p := by
      intro t p hz
      rw [h5, hz, after_nil]
    refine ⟨hs', ?_, ?_, ?_, so, fun t => if t = w.topic then
      hand t ++ labelled cfg (answersOf r) else hand t,
      by rw [h3, List.append_nil]; exact hso, ?_, ?_, ?_⟩
    · intro x hxm y hym he
      rcases hmem x hxm with rfl | ⟨e1, n1⟩ <;> rcases hmem y hym with rfl | ⟨e2, n2⟩
      · rfl
      · exact absurd (congrArg Prod.fst (hx.one y e2 _ hm he.symm)) n2
      · exact absurd (congrArg Prod.fst (hx.one x e1 _ hm he)) n1
      · exact hx.one x e1 y e2 he
    · intro p x hxm q' hq' f' hf' hid
      rcases hmem x hxm with rfl | ⟨e1, n1⟩
      · obtain ⟨k1, k2⟩ := List.mem_filter.1 hq'
        rcases honest_answer hhon w.topic p with hz | ⟨_, f, hfm, hfid, _⟩
        · rw [hsame _ _ hz]
          exact hx.asked p _ hm q' k1 f' hf' hid
        · have := hsw.once q h2 q' k1 f hfm f' hf' (hfid.trans hid.symm)
          subst this
          simp at k2
      · rcases honest_answer hhon x.2.topic p with hz | ⟨e, _⟩
        · rw [hsame _ _ hz]
          exact hx.asked p x e1 q' hq' f' hf' hid
        · exact absurd (e.trans hqt) (hne x e1 n1)
    · intro t p
      rcases honest_answer hhon t p with hz | ⟨e, f, hfm, hfid, hb⟩
      · rw [hsame _ _ hz]
        exact hx.le t p
      · rw [hqt] at e
        subst e
        rw [hx.asked p _ hm q h2 f hfm hfid] at hb
        rw [h5]
        exact Int.le_trans (hx.le _ _) (batch_window cfg _ _ _ (hl _ _) hb).1
    · intro x hxm
      rcases hmem x hxm with rfl | ⟨e1, n1⟩
      · have := hhand _ hm
        simp only at this
        simp only [if_true, List.map_append, this, hls, Dict.vals, List.map_cons, List.map_nil,
          List.flatten_append, List.flatten_cons, List.flatten_nil, List.append_nil,
          List.filter_append]
      · beta_reduce
        rw [if_neg (hne x e1 n1)]
        exact hhand x e1
    · intro t ht
      have ht' : t ≠ w.topic := fun e => ht _ hnew e.symm
      beta_reduce
      rw [if_neg ht']
      refine hnone t fun x hxm => ?_
      by_cases hxi : x.1 = i
      · have e : x = (i, w) := by
          have := Dict.get?_of_mem hn (show (x.1, x.2) ∈ b.waiting from hxm)
          rw [hxi, h1] at this
          exact Prod.ext hxi (Option.some.inj this).symm
        rw [e]
        exact fun e => ht' e.symm
      · exact ht x (by rw [h4]; exact (Dict.mem_set hn).2 (.inr ⟨hxm, hxi⟩))
    · intro t p
      have hp : ofPart t p (if t = w.topic then hand t ++ labelled cfg (answersOf r) else hand t) =
          ofPart t p (hand t) ++ (values cfg (fetchedFor (answersOf r) t p)).filter cfg.truthy := by
        by_cases ht : t = w.topic
        · rw [if_pos ht, ofPart_append]
          congr 1
          exact labelled_for cfg _ t p
        · rw [if_neg ht, ← labelled_for cfg _ t p]
          have := ofPart_other (t := t) (p := p) (l := labelled cfg (answersOf r))
            (fun x hxm e => ht (e.symm.trans (hlt x hxm)))
          unfold ofPart at this ⊢
          rw [this, List.append_nil]
      beta_reduce
      rw [hp, ← List.append_assoc, got t p]
      rcases honest_answer hhon t p with hz | ⟨e, f, hfm, hfid, hb⟩
      · rw [hz, hsame _ _ hz]
        simp [values]
      · rw [hqt] at e
        subst e
        rw [hx.asked p _ hm q h2 f hfm hfid] at hb
        obtain ⟨w1, w2⟩ := batch_window cfg _ _ _ (hl w.topic p) hb
        rw [h5, w2, ← List.filter_append, ← values_append,
          window_append _ (hl w.topic p).sorted _ _ _ (hx.le w.topic p) w1]
  · -- the end of a `consume`
    have hm := Dict.mem_of_get? h1
    have hmem : ∀ x, x ∈ b'.waiting ↔ x ∈ b.waiting ∧ x.1 ≠ i := by
      intro x; rw [h4]; exact Dict.mem_erase
    have hne : ∀ x ∈ b.waiting, x.1 ≠ i → x.2.topic ≠ w.topic := fun x hxm hxi e =>
      hxi (congrArg Prod.fst (hx.one x hxm _ hm e))
    refine ⟨hs', fun x hxm y hym => hx.one x ((hmem x).1 hxm).1 y ((hmem y).1 hym).1, ?_,
      fun t p => by rw [h5]; exact hx.le t p, so ++ hand w.topic,
      fun t => if t = w.topic then [] else hand t, ?_, ?_, ?_, ?_⟩
    · intro p x hxm q hq f hf' hid
      rw [h5]
      exact hx.asked p x ((hmem x).1 hxm).1 q hq f hf' hid
    · rw [List.map_append, hso, h3]
      congr 1
      exact hhand _ hm
    · intro x hxm
      obtain ⟨k1, k2⟩ := (hmem x).1 hxm
      beta_reduce
      rw [if_neg (hne x k1 k2)]
      exact hhand x k1
    · intro t ht
      beta_reduce
      by_cases hwt : t = w.topic
      · rw [if_pos hwt]
      · rw [if_neg hwt]
        refine hnone t fun x hxm => ?_
        by_cases hxi : x.1 = i
        · have e : x = (i, w) := by
            have := Dict.get?_of_mem hn (show (x.1, x.2) ∈ b.waiting from hxm)
            rw [hxi, h1] at this
            exact Prod.ext hxi (Option.some.inj this).symm
          rw [e]
          exact fun e => hwt e.symm
        · exact ht x ((hmem x).2 ⟨hxm, hxi⟩)
    · intro t p
      beta_reduce
      rw [h5, ← got t p, ofPart_append]
      by_cases hwt : t = w.topic
      · subst hwt
        simp [ofPart]
      · rw [if_neg hwt, ofPart_other (l := hand w.topic), List.append_nil]
        exact fun x hxm e => hwt (e.symm.trans (strip_topic (hhand _ hm) x hxm))

/-- What is held, per partition. -/
theorem ofPart_waiting {hand : String → List ((String × Int) × δ)} {l : List (Nat × Waiting δ)}
    (hand_topic : ∀ x ∈ l, ∀ y ∈ hand x.2.topic, y.1.1 = x.2.topic)
    (hu : (l.map fun x => x.2.topic).Nodup) (t : String) (p : Int)
    (hnone : (∀ x ∈ l, x.2.topic ≠ t) → hand t = []) :
    ofPart t p (l.flatMap fun x => hand x.2.topic) = ofPart t p (hand t) := by
  by_cases hex : ∃ x ∈ l, x.2.topic = t
  · clear hnone
    obtain ⟨x, hxm, rfl⟩ := hex
    induction l with
    | nil => simp at hxm
    | cons y l ih =>
      simp only [List.map_cons, List.nodup_cons, List.mem_map, not_exists, not_and] at hu
      rw [List.flatMap_cons, ofPart_append]
      rcases List.mem_cons.1 hxm with rfl | hxl
      · have : ofPart x.2.topic p (l.flatMap fun x => hand x.2.topic) = [] := by
          refine ofPart_other fun z hz => ?_
          obtain ⟨v, hv, hzv⟩ := List.mem_flatMap.1 hz
          rw [hand_topic v (List.mem_cons_of_mem _ hv) z hzv]
          exact hu.1 v hv
        rw [this, List.append_nil]
      · rw [ih (fun v hv => hand_topic v (List.mem_cons_of_mem _ hv)) hu.2 hxl, ofPart_other,
          List.nil_append]
        intro z hz
        rw [hand_topic y List.mem_cons_self z hz]
        exact fun e => hu.1 x hxl e.symm
  · push Not at hex
    rw [hnone hex]
    refine ofPart_other fun z hz => ?_
    obtain ⟨v, hv, hzv⟩ := List.mem_flatMap.1 hz
    rw [hand_topic v hv z hzv]
    exact hex v hv

/-- **C76**, for `consume`s of one consumer that run at the same time, provided no two of them are
for the same topic: in any interleaving of their beginnings, the answers and failures of their
requests and their returns, with brokers that answer with what is in their logs and in which
nothing raises, what has been returned, followed by what the `consume`s under way hold and will
return, is an interleaving of the messages of the partitions' logs between the offset at the start
and the offset now, each once and in order, less those that cannot be deserialized or are false to
Python; and no offset goes back.  Missing: `consume`s of the same topic at the same time
(`C76_false`, `C76_no_skip`), `consume`s that raise (`C38_false_lost`) and compressed sets
(`C38_false_twice`). -/
theorem C76_exactly_once_partial (allocation : Consumer ε → Res (Dict String (List Int)))
    (cfg : CCfg β δ) (logs : String → Int → List (Int × β)) (hl : ∀ t p, IsLog (logs t p))
    (c : Consumer ε) (b : Busy ε δ) (outs : List (String × δ))
    (h : Course allocation cfg (fun b ev => Fair Batch logs b ev ∧ Apart b ev) ⟨c, []⟩ outs b) :
    (∀ t p, offsetOf c.offsets t p ≤ offsetOf b.consumer.offsets t p) ∧
    Interleaving (fun t p => (values cfg ((logs t p).filter fun m =>
        decide (offsetOf c.offsets t p ≤ m.1 ∧ m.1 < offsetOf b.consumer.offsets t p))).filter
          cfg.truthy)
      (outs ++ underWay cfg b) := by
  have key : ∀ (b0 : Busy ε δ) (outs1 : List (String × δ)) (o : String → Int → Int),
      Course allocation cfg (fun b ev => Fair Batch logs b ev ∧ Apart b ev) b0 outs1 b →
      ∀ outs0, Exact cfg logs o b0 outs0 → Exact cfg logs o b (outs0 ++ outs1) := by
    intro b0 outs1 o hc
    induction hc with
    | nil => intro outs0 hx; rw [List.append_nil]; exact hx
    | cons hok hs hno _ ih =>
      intro outs0 hx
      rw [← List.append_assoc]
      exact ih h _ (exact_step hl hx hok.1 hok.2 hs hno)
  have h0 : Exact cfg logs (fun t p => offsetOf c.offsets t p) (⟨c, []⟩ : Busy ε δ) [] := by
    refine ⟨⟨by simp [Dict.keys], by simp⟩, by simp, by simp, fun _ _ => Int.le_refl _, [],
      fun _ => [], rfl, by simp, fun _ _ => rfl, fun t p => ?_⟩
    have : (logs t p).filter (fun m => decide (offsetOf c.offsets t p ≤ m.1 ∧
        m.1 < offsetOf c.offsets t p)) = [] := by
      rw [List.filter_eq_nil_iff]
      intro m _
      simp only [decide_eq_true_eq]; omega
    simp only [this]
    rfl
  have hx := key _ _ _ h [] h0
  rw [List.nil_append] at hx
  obtain ⟨so, hand, hso, hhand, hnone, got⟩ := hx.got
  have hnd : (b.waiting.map fun x => x.2.topic).Nodup :=
    List.Nodup.map_on (fun x hxm y hym e => hx.one x hxm y hym e)
      (List.Nodup.of_map _ hx.sound.nodup)
  refine ⟨hx.le, so ++ b.waiting.flatMap fun x => hand x.2.topic, ?_, fun t p => ?_⟩
  · rw [List.map_append, List.map_flatMap]
    congr 1
    unfold underWay
    exact List.flatMap_congr fun x hxm => hhand x hxm
  · beta_reduce
    rw [← got t p, ← ofPart_waiting (fun x hxm => strip_topic (hhand x hxm)) hnd t p (hnone t),
      ← ofPart_append]
    rfl

/-! ### C76: any `consume`s -/

theorem after_either (cfg : CCfg β δ) (ms : List (Int × β)) (o o' : Int) :
    after cfg ms o = o ∧ after cfg ms o' = o' ∨ after cfg ms o = after cfg ms o' := by
  unfold after
  split
  · exact .inr rfl
  · exact .inl ⟨rfl, rfl⟩

theorem mem_inHand {cfg : CCfg β δ} {b : Busy ε δ} {t : String} {d : δ} :
    d ∈ inHand cfg b t ↔ ∃ x ∈ b.waiting, x.2.topic = t ∧ d ∈ x.2.results.vals.flatten ∧
      cfg.truthy d = true := by
  unfold inHand
  rw [List.mem_flatMap]
  refine exists_congr fun x => and_congr_right fun _ => ?_
  split
  · rename_i ht
    rw [List.mem_filter]; exact ⟨fun h => ⟨ht, h⟩, fun h => h.2⟩
  · rename_i ht
    exact ⟨fun h => absurd h List.not_mem_nil, fun h => absurd h.1 ht⟩

/-- The invariant, for one partition: everything below `f` has been returned or is in hand, and
nothing is asked for beyond it. -/
structure Covered (cfg : CCfg β δ) (log : List (Int × β)) (t : String) (p o f : Int)
    (b : Busy ε δ) (outs : List (String × δ)) : Prop where
  sound : SoundBusy b
  now : offsetOf b.consumer.offsets t p ≤ f
  asked : ∀ x ∈ b.waiting, x.2.topic = t → ∀ q ∈ x.2.pending, ∀ g ∈ q.parts, g.id = p →
    g.offset ≤ f
  got : ∀ m ∈ log, ∀ d, decode cfg m.2 = some d → cfg.truthy d = true → o ≤ m.1 → m.1 < f →
    (t, d) ∈ outs ∨ d ∈ inHand cfg b t

theorem covered_step {allocation : Consumer ε → Res (Dict String (List Int))} {cfg : CCfg β δ}
    {logs : String → Int → List (Int × β)} (hl : ∀ t p, IsLog (logs t p))
    {t : String} {p o f : Int} {b b' : Busy ε δ} {ev : BEv ε β} {out : BOut δ}
    {outs : List (String × δ)} (hx : Covered cfg (logs t p) t p o f b outs)
    (hf : Fair WideBatch logs b ev)
    (h : b.step allocation cfg ev = (out, b')) (hno : ∀ e, out ≠ .raised e) :
    ∃ f', Covered cfg (logs t p) t p o f' b' (outs ++ returnedBy out) := by
  obtain ⟨hs', hcase⟩ := busy_step hx.sound h hno
    (by rintro i t rfl; exact hf) (by rintro f rfl; exact hf)
  have hn := hx.sound.nodup
  rcases hcase with ⟨h1, h2, h3⟩ | ⟨i, topic, parts, reqs, rfl, h1, h2, h3, h4⟩ |
    ⟨i, w, broker, h1, h2, h3, h4⟩ | ⟨i, w, q, r, rfl, h1, h2, h3, h4, h5⟩ | ⟨i, w, h1, h2, h3, h4, h5⟩
  · refine ⟨f, hs', by rw [h3]; exact hx.now, by rw [h2]; exact hx.asked, ?_⟩
    intro m hm d hd htr g1 g2
    rw [h1, List.append_nil, mem_inHand, h2, ← mem_inHand]
    exact hx.got m hm d hd htr g1 g2
  · refine ⟨f, hs', by rw [h4]; exact hx.now, ?_, ?_⟩
    · intro x hxm hxt q hq g hg hid
      rw [h3] at hxm
      rcases List.mem_append.1 hxm with e1 | e1
      · exact hx.asked x e1 hxt q hq g hg hid
      · simp only [List.mem_singleton] at e1
        subst e1
        simp only at hxt hq
        subst hxt
        rw [h2.offsets q hq g hg, hid]
        exact hx.now
    · intro m hm d hd htr g1 g2
      rw [h1, List.append_nil]
      refine (hx.got m hm d hd htr g1 g2).imp_right fun hh => ?_
      obtain ⟨x, hxm, hr⟩ := mem_inHand.1 hh
      exact mem_inHand.2 ⟨x, by rw [h3]; exact List.mem_append_left _ hxm, hr⟩
  · have hm' := Dict.mem_of_get? h1
    refine ⟨f, hs', by rw [h4]; exact hx.now, ?_, ?_⟩
    · intro x hxm hxt q hq g hg hid
      rw [h3] at hxm
      rcases mem_of_set hn hxm with rfl | ⟨e1, _⟩
      · exact hx.asked _ hm' hxt q (List.mem_filter.1 hq).1 g hg hid
      · exact hx.asked x e1 hxt q hq g hg hid
    · intro m hm d hd htr g1 g2
      rw [h2, List.append_nil]
      refine (hx.got m hm d hd htr g1 g2).imp_right fun hh => ?_
      obtain ⟨⟨j, v⟩, hxm, hr⟩ := mem_inHand.1 hh
      by_cases hji : j = i
      · subst hji
        have := Dict.get?_of_mem hn hxm
        rw [h1] at this
        cases this
        have hnew : (j, { w with
            pending := (w.pending.filter fun q => decide (q.broker ≠ broker)) }) ∈ b'.waiting := by
          rw [h3]; exact (Dict.mem_set hn).2 (.inl rfl)
        exact mem_inHand.2 ⟨_, hnew, hr⟩
      · exact mem_inHand.2 ⟨_, by rw [h3]; exact (Dict.mem_set hn).2 (.inr ⟨hxm, hji⟩), hr⟩
  · have hm' := Dict.mem_of_get? h1
    have hsw := hx.sound.each _ hm'
    have hhon : HonestAnswer WideBatch logs q r := hf w h1 q h2 rfl
    have hqt : q.topic = w.topic := hsw.topic q h2
    have hent : (i, (⟨w.topic, (w.pending.filter fun x => decide (x.broker ≠ q.broker)),
        w.results ++ [(q.broker, values cfg (fetched (answersOf r)))]⟩ : Waiting δ)) ∈
        b'.waiting := by rw [h4]; exact (Dict.mem_set hn).2 (.inl rfl)
    -- what was in hand still is
    have hkeep : ∀ d, d ∈ inHand cfg b t → d ∈ inHand cfg b' t := by
      intro d hh
      obtain ⟨⟨j, v⟩, hxm, ht, hd, htr⟩ := mem_inHand.1 hh
      by_cases hji : j = i
      · subst hji
        have := Dict.get?_of_mem hn hxm
        rw [h1] at this
        cases this
        refine mem_inHand.2 ⟨_, hent, ht, ?_, htr⟩
        simp only [Dict.vals, List.map_append, List.flatten_append]
        exact List.mem_append_left _ hd
      · exact mem_inHand.2 ⟨_, by rw [h4]; exact (Dict.mem_set hn).2 (.inr ⟨hxm, hji⟩), ht, hd, htr⟩
    have hasked : ∀ x ∈ b'.waiting, x.2.topic = t → ∀ q ∈ x.2.pending, ∀ g ∈ q.parts, g.id = p →
        g.offset ≤ f := by
      intro x hxm hxt q hq g hg hid
      rw [h4] at hxm
      rcases mem_of_set hn hxm with rfl | ⟨e1, _⟩
      · exact hx.asked _ hm' hxt q (List.mem_filter.1 hq).1 g hg hid
      · exact hx.asked x e1 hxt q hq g hg hid
    rcases honest_answer hhon t p with hz | ⟨htq, g, hgm, hgid, hb⟩
    · refine ⟨f, hs', by rw [h5, hz, after_nil]; exact hx.now, hasked, ?_⟩
      intro m hm d hd htr g1 g2
      rw [h3, List.append_nil]
      exact (hx.got m hm d hd htr g1 g2).imp_right (hkeep d)
    · have hgf : g.offset ≤ f := hx.asked _ hm' (hqt.symm.trans htq.symm) q h2 g hgm hgid
      have hnew : ∀ m ∈ logs t p, ∀ d, decode cfg m.2 = some d → cfg.truthy d = true →
          g.offset ≤ m.1 → m.1 < after cfg (fetchedFor (answersOf r) t p) g.offset →
          d ∈ inHand cfg b' t := by
        intro m hm d hd htr g1 g2
        have hin := wide_window cfg _ _ _ (hl t p) hb m hm g1 g2
        refine mem_inHand.2 ⟨_, hent, hqt.symm.trans htq.symm, ?_, htr⟩
        simp only [Dict.vals, List.map_append, List.flatten_append, List.map_cons, List.map_nil,
          List.flatten_cons, List.flatten_nil, List.append_nil]
        refine List.mem_append_right _ (List.mem_filterMap.2 ⟨m, ?_, hd⟩)
        simp only [fetchedFor, fetched, List.mem_flatMap, List.mem_filter, decide_eq_true_eq]
          at hin ⊢
        obtain ⟨a, ⟨ha, _, _, h0⟩, hm⟩ := hin
        exact ⟨a, ⟨ha, h0⟩, hm⟩
      refine ⟨max f (after cfg (fetchedFor (answersOf r) t p) g.offset), hs', ?_, ?_, ?_⟩
      · rw [h5]
        have hnow := hx.now
        rcases after_either cfg (fetchedFor (answersOf r) t p) g.offset
          (offsetOf b.consumer.offsets t p) with ⟨_, e⟩ | e <;> omega
      · intro x hxm hxt q hq g hg hid
        have := hasked x hxm hxt q hq g hg hid
        omega
      · intro m hm d hd htr g1 g2
        rw [h3, List.append_nil]
        by_cases hlt : m.1 < f
        · exact (hx.got m hm d hd htr g1 hlt).imp_right (hkeep d)
        · exact .inr (hnew m hm d hd htr (by omega) (by omega))
  · refine ⟨f, hs', by rw [h5]; exact hx.now, ?_, ?_⟩
    · intro x hxm hxt q hq g hg hid
      rw [h4] at hxm
      exact hx.asked x (Dict.mem_erase.1 hxm).1 hxt q hq g hg hid
    · intro m hm d hd htr g1 g2
      rcases hx.got m hm d hd htr g1 g2 with hh | hh
      · exact .inl (List.mem_append_left _ hh)
      · obtain ⟨⟨j, v⟩, hxm, ht, hd, htr⟩ := mem_inHand.1 hh
        by_cases hji : j = i
        · subst hji
          have := Dict.get?_of_mem hn hxm
          rw [h1] at this
          cases this
          refine .inl (List.mem_append_right _ ?_)
          rw [h3]
          exact List.mem_map.2 ⟨d, List.mem_filter.2 ⟨hd, htr⟩, by rw [← ht]⟩
        · exact .inr (mem_inHand.2 ⟨_, by rw [h4]; exact Dict.mem_erase.2 ⟨hxm, hji⟩, ht, hd, htr⟩)

/-- **C76**, for any `consume`s that run at the same time, of the same topic too, and brokers with
compressed sets: nothing is skipped.  Every message of a log between the offset at the start and
the offset now has been returned or is held by a `consume` under way, which will return it (unless
it cannot be deserialized or is false to Python). -/
theorem C76_no_skip (allocation : Consumer ε → Res (Dict String (List Int)))
    (cfg : CCfg β δ) (logs : String → Int → List (Int × β)) (hl : ∀ t p, IsLog (logs t p))
    (c : Consumer ε) (b : Busy ε δ) (outs : List (String × δ))
    (h : Course allocation cfg (Fair WideBatch logs) ⟨c, []⟩ outs b)
    (t : String) (p : Int) (m : Int × β) (hm : m ∈ logs t p) (d : δ)
    (hd : decode cfg m.2 = some d) (htr : cfg.truthy d = true)
    (h1 : offsetOf c.offsets t p ≤ m.1) (h2 : m.1 < offsetOf b.consumer.offsets t p) :
    (t, d) ∈ outs ∨ d ∈ inHand cfg b t := by
  have key : ∀ (b0 : Busy ε δ) (outs1 : List (String × δ)) (o : Int),
      Course allocation cfg (Fair WideBatch logs) b0 outs1 b →
      ∀ outs0 f, Covered cfg (logs t p) t p o f b0 outs0 →
      ∃ f', Covered cfg (logs t p) t p o f' b (outs0 ++ outs1) := by
    intro b0 outs1 o hc
    induction hc with
    | nil => intro outs0 f hx; rw [List.append_nil]; exact ⟨f, hx⟩
    | cons hok hs hno _ ih =>
      intro outs0 f hx
      rw [← List.append_assoc]
      obtain ⟨f', hx'⟩ := covered_step hl hx hok hs hno
      exact ih h h2 _ f' hx'
  have h0 : Covered cfg (logs t p) t p (offsetOf c.offsets t p) (offsetOf c.offsets t p)
      (⟨c, []⟩ : Busy ε δ) [] :=
    ⟨⟨by simp [Dict.keys], by simp⟩, Int.le_refl _, by simp, fun m _ d _ _ g1 g2 => by omega⟩
  obtain ⟨f, hf⟩ := key _ _ _ h [] _ h0
  exact hf.got m hm d hd htr h1 (by have := hf.now; omega)

/-! ### Concrete courses -/

/-- An answer about partition 0. -/
def exFetched (t : String) (ms : List (Int × Nat)) : FResp Nat := ⟨[(t, [⟨0, 0, ms⟩])]⟩

theorem exFetched_honest {batch : List (Int × Nat) → Int → List (Int × Nat) → Prop}
    {logs : String → Int → List (Int × Nat)} {b : Busy Unit Nat} {i : Nat} {broker : Int}
    {t : String} {o : Int} {ms : List (Int × Nat)} {w : Waiting Nat}
    (hw : b.waiting.get? i = some w) (hp : w.pending = [⟨broker, 1000, 1, t, [⟨0, o, 100⟩]⟩])
    (hb : batch (logs t 0) o ms) : Fair batch logs b (.outcome i broker (.ok (exFetched t ms))) := by
  intro w' hw' q hq _
  rw [hw] at hw'
  cases hw'
  rw [hp, List.mem_singleton] at hq
  subst hq
  refine ⟨_, rfl, by simp, ?_⟩
  intro p hp
  simp only [List.mem_singleton] at hp
  subst hp
  exact ⟨by simp, fun _ => ⟨⟨0, o, 100⟩, by simp, rfl, hb⟩⟩

/-- Broker 7 leads partition 0 of the topics t and u. -/
def exTwoTopics : Single :=
  ⟨⟨[(7, ⟨"h", 9092, false⟩)], [("t", [0]), ("u", [0])], [("t", [(0, 7)]), ("u", [(0, 7)])]⟩, [],
    ["t", "u"], false, false, ()⟩

-- Non-vacuity of `C76_exactly_once_partial` and `C76_no_skip`: `consume`s of two topics, the one
-- that begins first is answered last and has not returned.
example : ∃ b, Course Single.allocation exCCfg
      (fun b ev => Fair Batch (fun _ _ => exLog) b ev ∧ Apart b ev) ⟨exTwoTopics, []⟩
      [("u", 5)] b ∧ inHand exCCfg b "t" = [5, 6] ∧ offsetOf b.consumer.offsets "t" 0 = 5 ∧
      offsetOf b.consumer.offsets "u" 0 = 1 := by
  refine ⟨⟨{ exTwoTopics with offsets := [("t", [(0, 5)]), ("u", [(0, 1)])] },
    [(0, ⟨"t", [], [(7, [5, 6])]⟩)]⟩, ?_, by decide +kernel, by decide +kernel, by decide +kernel⟩
  refine Course.cons (ev := .consume 0 "t") (out := .sent [⟨7, 1000, 1, "t", [⟨0, 0, 100⟩]⟩])
    (b1 := ⟨{ exTwoTopics with offsets := [("t", [(0, 0)])] },
      [(0, ⟨"t", [⟨7, 1000, 1, "t", [⟨0, 0, 100⟩]⟩], []⟩)]⟩)
    ⟨by show Dict.get? _ _ = _; decide, by show ∀ x ∈ _, _; decide⟩ (by decide +kernel)
    (by simp) (outs := [("u", 5)]) ?_
  refine Course.cons (ev := .consume 1 "u") (out := .sent [⟨7, 1000, 1, "u", [⟨0, 0, 100⟩]⟩])
    (b1 := ⟨{ exTwoTopics with offsets := [("t", [(0, 0)]), ("u", [(0, 0)])] },
      [(0, ⟨"t", [⟨7, 1000, 1, "t", [⟨0, 0, 100⟩]⟩], []⟩),
       (1, ⟨"u", [⟨7, 1000, 1, "u", [⟨0, 0, 100⟩]⟩], []⟩)]⟩)
    ⟨by show Dict.get? _ _ = _; decide, by show ∀ x ∈ _, _; decide⟩ (by decide +kernel)
    (by simp) (outs := [("u", 5)]) ?_
  refine Course.cons (ev := .outcome 1 7 (.ok (exFetched "u" [(0, 5), (3, 99)]))) (out := .nothing)
    (b1 := ⟨{ exTwoTopics with offsets := [("t", [(0, 0)]), ("u", [(0, 1)])] },
      [(0, ⟨"t", [⟨7, 1000, 1, "t", [⟨0, 0, 100⟩]⟩], []⟩), (1, ⟨"u", [], [(7, [5])]⟩)]⟩)
    ⟨exFetched_honest rfl rfl ⟨[(4, 6)], by decide⟩, trivial⟩ (by decide +kernel) (by simp)
    (outs := [("u", 5)]) ?_
  refine Course.cons (ev := .finish 1) (out := .returned "u" (some [5]))
    (b1 := ⟨{ exTwoTopics with offsets := [("t", [(0, 0)]), ("u", [(0, 1)])] },
      [(0, ⟨"t", [⟨7, 1000, 1, "t", [⟨0, 0, 100⟩]⟩], []⟩)]⟩)
    ⟨trivial, trivial⟩ (by decide +kernel) (by simp) (outs := []) ?_
  exact Course.cons (ev := .outcome 0 7 (.ok (exFetched "t" exLog))) (out := .nothing) (outs := [])
    ⟨exFetched_honest rfl rfl ⟨[], by decide⟩, trivial⟩ (by decide +kernel) (by simp) (Course.nil _)

/-- **C76** is false of the code for `consume`s of the same topic: both ask for the same messages;
the answer that comes last puts the offset back to where it ends, and a message is returned twice,
and those behind it will be. -/
theorem C76_false : ∃ b1 b2,
    Course Single.allocation exCCfg (Fair Batch fun _ _ => exLog) ⟨exConsumer, []⟩
      [("t", 5), ("t", 6)] b1 ∧
    offsetOf b1.consumer.offsets "t" 0 = 5 ∧
    Course Single.allocation exCCfg (Fair Batch fun _ _ => exLog) b1 [("t", 5)] b2 ∧
    offsetOf b2.consumer.offsets "t" 0 = 1 := by
  refine ⟨⟨{ exConsumer with offsets := [("t", [(0, 5)])] },
      [(1, ⟨"t", [⟨7, 1000, 1, "t", [⟨0, 0, 100⟩]⟩], []⟩)]⟩,
    ⟨{ exConsumer with offsets := [("t", [(0, 1)])] }, []⟩, ?_, by decide +kernel, ?_,
    by decide +kernel⟩
  · refine Course.cons (ev := .consume 0 "t") (out := .sent [⟨7, 1000, 1, "t", [⟨0, 0, 100⟩]⟩])
      (b1 := ⟨{ exConsumer with offsets := [("t", [(0, 0)])] },
        [(0, ⟨"t", [⟨7, 1000, 1, "t", [⟨0, 0, 100⟩]⟩], []⟩)]⟩)
      (by show Dict.get? _ _ = _; decide) (by decide +kernel)
      (by simp) (outs := [("t", 5), ("t", 6)]) ?_
    refine Course.cons (ev := .consume 1 "t") (out := .sent [⟨7, 1000, 1, "t", [⟨0, 0, 100⟩]⟩])
      (b1 := ⟨{ exConsumer with offsets := [("t", [(0, 0)])] },
        [(0, ⟨"t", [⟨7, 1000, 1, "t", [⟨0, 0, 100⟩]⟩], []⟩),
         (1, ⟨"t", [⟨7, 1000, 1, "t", [⟨0, 0, 100⟩]⟩], []⟩)]⟩)
      (by show Dict.get? _ _ = _; decide) (by decide +kernel)
      (by simp) (outs := [("t", 5), ("t", 6)]) ?_
    refine Course.cons (ev := .outcome 0 7 (.ok (exFetched "t" exLog))) (out := .nothing)
      (b1 := ⟨{ exConsumer with offsets := [("t", [(0, 5)])] },
        [(0, ⟨"t", [], [(7, [5, 6])]⟩), (1, ⟨"t", [⟨7, 1000, 1, "t", [⟨0, 0, 100⟩]⟩], []⟩)]⟩)
      (exFetched_honest rfl rfl ⟨[], by decide⟩) (by decide +kernel) (by simp)
      (outs := [("t", 5), ("t", 6)]) ?_
    exact Course.cons (ev := .finish 0) (out := .returned "t" (some [5, 6])) trivial
      (by decide +kernel) (by simp) (outs := []) (Course.nil _)
  · refine Course.cons (ev := .outcome 1 7 (.ok (exFetched "t" [(0, 5)]))) (out := .nothing)
      (b1 := ⟨{ exConsumer with offsets := [("t", [(0, 1)])] }, [(1, ⟨"t", [], [(7, [5])]⟩)]⟩)
      (exFetched_honest rfl rfl ⟨[(3, 99), (4, 6)], by decide⟩) (by decide +kernel) (by simp)
      (outs := [("t", 5)]) ?_
    exact Course.cons (ev := .finish 1) (out := .returned "t" (some [5])) trivial
      (by decide +kernel) (by simp) (outs := []) (Course.nil _)

end Kiel
