import Verif.Props.FirstGrouped
import Verif.Props.Settled
import Verif.Props.Pipeline
import Verif.Spec.Fleet
/-
C112: groups whose members' calls overlap.
-/
set_option autoImplicit false
namespace Kiel
open Spec

variable {β δ : Type}

/-! ### Messages of several members -/

/-- If what each member returns can be attributed to partitions, so can what all return. -/
theorem attribute_all (src : Nat → List ((String × Int) × δ)) (who : List (Nat × String × δ))
    (h : ∀ i, (src i).map strip = (who.filter fun x => decide (x.1 = i)).map (·.2)) :
    ∃ all : List (Nat × (String × Int) × δ), all.map (fun x => (x.1, strip x.2)) = who ∧
      ∀ i, (all.filter fun x => decide (x.1 = i)).map (·.2) = src i := by
  induction who generalizing src with
  | nil =>
    refine ⟨[], rfl, fun i => ?_⟩
    have := h i
    simp only [List.filter_nil, List.map_nil, List.map_eq_nil_iff] at this
    simp [this]
  | cons x who ih =>
    obtain ⟨j, v⟩ := x
    have hj := h j
    simp only [List.filter_cons, decide_true, if_true, List.map_cons] at hj
    obtain ⟨y, ys, hsrc, hy, hys⟩ : ∃ y ys, src j = y :: ys ∧ strip y = v ∧
        ys.map strip = (who.filter fun x => decide (x.1 = j)).map (·.2) := by
      cases hs : src j with
      | nil => rw [hs] at hj; cases hj
      | cons y ys =>
        rw [hs] at hj
        simp only [List.map_cons, List.cons.injEq] at hj
        exact ⟨y, ys, rfl, hj.1, hj.2⟩
    obtain ⟨all, h1, h2⟩ := ih (fun i => if i = j then ys else src i) (fun i => by
      split
      · rename_i e; subst e; exact hys
      · rename_i e
        have := h i
        rwa [List.filter_cons, if_neg (by simpa using fun e' => e e'.symm)] at this)
    refine ⟨(j, y) :: all, by simp [h1, hy], fun i => ?_⟩
    rw [List.filter_cons]
    have hi := h2 i
    split
    · rename_i e
      have e : j = i := by simpa using e
      subst e
      rw [if_pos rfl] at hi
      rw [List.map_cons, hi, hsrc]
    · rename_i e
      rw [if_neg (fun e' => e (by simp [e']))] at hi
      exact hi

/-- If each partition is read by one member at most, then what all return is an interleaving of the
partitions' messages. -/
theorem interleaving_members {per : Nat → String → Int → List δ} {tot : String → Int → List δ}
    (who : List (Nat × String × δ))
    (h : ∀ i, Interleaving (per i) ((who.filter fun x => decide (x.1 = i)).map (·.2)))
    (ht : ∀ t p, ∃ j, tot t p = per j t p ∧ ∀ i, i ≠ j → per i t p = []) :
    Interleaving tot (who.map (·.2)) := by
  choose src h1 h2 using h
  obtain ⟨all, a1, a2⟩ := attribute_all src who h1
  refine ⟨all.map (·.2), ?_, fun t p => ?_⟩
  · rw [← a1]
    simp [strip]
  · obtain ⟨j, hj, hne⟩ := ht t p
    rw [hj, ← h2 j t p, ← a2 j, List.filter_map, List.filter_map, List.filter_filter]
    congr 2
    refine List.filter_congr fun x hx => ?_
    simp only [Function.comp_apply]
    by_cases hp : x.2.1 = (t, p)
    · have : x.1 = j := by
        by_contra hx1
        have h0 := h2 x.1 t p
        rw [hne x.1 hx1, ← a2 x.1, List.filter_map, List.filter_filter] at h0
        simp only [List.map_eq_nil_iff, List.filter_eq_nil_iff] at h0
        exact h0 x hx (by simp [hp])
      simp [hp, this]
    · simp [hp]

/-! ### One member -/

/-- What is known of a `consume` that does not wait for messages yet. -/
def FineStart (σ : String → List Int) (B o : String → Int → Int) : GroupPhase → Prop
  | .asking t parts _ => parts = σ t
  | .answered t parts _ r => parts = σ t ∧ (r = false → ∀ p ∈ σ t, o t p = B t p)
  | _ => True

/-- What is known of a commit. -/
def FineCommit (σ : String → List Int) (c : Grouped) (ph : CommitPhase) : Prop :=
  ∀ req, ph = .asking req → ∀ t p x, (t, p, x) ∈ offsetsIn [req] → t ∈ c.synced ∧ p ∈ σ t

/-- A member asks for, and commits, the partitions of its share only, and only if it has their
offsets; these start where the coordinator said. -/
structure Owns (σ : String → List Int) (B o : String → Int → Int) (s : GroupFirst δ) : Prop where
  share : ∀ t, shareOf s.group.base.consumer t = σ t
  nodup : ∀ a, s.group.base.consumer.ext.mapping = some a → a.keys.Nodup
  starts : ∀ x ∈ s.starting, FineStart σ B o x.2
  waits : ∀ w ∈ s.group.base.waiting, ∀ q ∈ w.2.pending, ∀ f ∈ q.parts, f.id ∈ σ w.2.topic
  due : ∀ t ∈ s.group.base.consumer.ext.toCommit, t ∈ s.group.base.consumer.synced
  sent : ∀ x ∈ s.group.commits, FineCommit σ s.group.base.consumer x.2.phase
  outside : ∀ t p, p ∉ σ t → offsetOf s.group.base.consumer.offsets t p = o t p
  begins : ∀ t ∈ s.group.base.consumer.synced, ∀ p ∈ σ t, o t p = B t p

variable {gcfg : GCfg} {cfg : CCfg β δ} {logs : String → Int → List (Int × β)}
  {σ : String → List Int} {B o : String → Int → Int} {outs extra : List (String × δ)}

theorem Owns.to {s s' : GroupFirst δ} (h : Owns σ B o s)
    (hm : s'.group.base.consumer.ext.mapping = s.group.base.consumer.ext.mapping)
    (hst : ∀ x ∈ s'.starting, x ∈ s.starting ∨ FineStart σ B o x.2)
    (hw : ∀ w ∈ s'.group.base.waiting, (∃ y ∈ s.group.base.waiting, y.2.topic = w.2.topic ∧
      ∀ q ∈ w.2.pending, q ∈ y.2.pending) ∨ ∀ q ∈ w.2.pending, ∀ f ∈ q.parts, f.id ∈ σ w.2.topic)
    (hy : ∀ t, t ∈ s'.group.base.consumer.synced ↔ t ∈ s.group.base.consumer.synced)
    (hd : ∀ t ∈ s'.group.base.consumer.ext.toCommit, t ∈ s.group.base.consumer.ext.toCommit ∨
      t ∈ s.group.base.consumer.synced)
    (hc : ∀ x ∈ s'.group.commits, (∃ y ∈ s.group.commits, y.2.phase = x.2.phase) ∨
      FineCommit σ s.group.base.consumer x.2.phase)
    (ho : ∀ t p, p ∉ σ t → offsetOf s'.group.base.consumer.offsets t p =
      offsetOf s.group.base.consumer.offsets t p) : Owns σ B o s' where
  share t := by
    rw [← h.share t]
    unfold shareOf
    rw [hm]
  nodup a ha := h.nodup a (hm ▸ ha)
  starts x hx := (hst x hx).elim (h.starts x) id
  waits w hw' q hq f hf := by
    rcases hw w hw' with ⟨y, hy, e, hp⟩ | hfine
    · exact e ▸ h.waits y hy q (hp q hq) f hf
    · exact hfine q hq f hf
  due t ht := (hy t).2 ((hd t ht).elim (h.due t) id)
  sent x hx req hreq t p v hv := by
    have : FineCommit σ s.group.base.consumer x.2.phase := by
      rcases hc x hx with ⟨y, hy, e⟩ | hfine
      · exact e ▸ h.sent y hy
      · exact hfine
    obtain ⟨h1, h2⟩ := this req hreq t p v hv
    exact ⟨(hy t).2 h1, h2⟩
  outside t p hp := (ho t p hp).trans (h.outside t p hp)
  begins t ht := h.begins t ((hy t).1 ht)

theorem mem_offsetsIn_commitOf {t : String} {p x : Int} {b : Option Int} {md : String}
    {ts : List String} {a : Dict String (List Int)} {of : Offsets}
    (h : (t, p, x) ∈ offsetsIn [⟨b, md, commitOf ts a of⟩]) :
    t ∈ ts ∧ ∃ ps, (t, ps) ∈ a ∧ p ∈ ps := by
  simp only [offsetsIn, commitOf, List.flatMap_cons, List.flatMap_nil, List.append_nil,
    List.mem_flatMap, List.mem_map, List.mem_filter, decide_eq_true_eq] at h
  obtain ⟨y, ⟨⟨t', ps⟩, ⟨h1, h2⟩, rfl⟩, q, hq, e⟩ := h
  obtain ⟨p', hp, rfl⟩ := List.mem_map.1 hq
  cases e
  exact ⟨h2, ps, h1, hp⟩

theorem Owns.ask {g : GroupBusy δ} {st : Dict Nat GroupPhase} (h : Owns σ B o ⟨g, st⟩) (k : Nat)
    (md : String) (result : Option (String × Option (List δ))) :
    Owns σ B o ⟨(g.ask cfg k md result).2, st⟩ := by
  generalize ha : g.ask cfg k md result = x
  obtain ⟨out, g'⟩ := x
  obtain ⟨h1, h2, h3⟩ := ask_spec ha
  refine h.to h1.mapping (fun x hx => .inl hx)
    (fun w hw => .inl ⟨w, by rw [← h1.waiting]; exact hw, rfl, fun q hq => hq⟩)
    (fun t => by dsimp only; rw [h1.synced]) (fun t ht => .inl ?_) ?_ (fun t p _ => h1.offsets t p)
  · dsimp only at ht
    rw [h2] at ht
    exact ht
  · rcases h3 with ⟨_, h3⟩ | ⟨a, b, ha, _, h3⟩
    · dsimp only
      rw [h3]
      exact fun x hx => .inl ⟨x, (Dict.mem_erase.1 hx).1, rfl⟩
    · dsimp only
      rw [h3]
      intro x hx
      rcases mem_set_or hx with rfl | hx
      · right
        intro req hreq t p v hv
        cases hreq
        obtain ⟨m1, ps, m2, m3⟩ := mem_offsetsIn_commitOf hv
        refine ⟨h.due t m1, ?_⟩
        rw [← h.share t]
        unfold shareOf
        dsimp only
        rw [ha]
        dsimp only
        rw [Dict.get?_of_mem (h.nodup a ha) m2]
        exact m3
      · exact .inl ⟨x, hx, rfl⟩

theorem Owns.finish {g : GroupBusy δ} {st : Dict Nat GroupPhase} (h : Owns σ B o ⟨g, st⟩) (i : Nat)
    (topic : String) (out : Option (List δ)) :
    Owns σ B o ⟨(g.finish gcfg cfg i topic out).2, st⟩ := by
  unfold GroupBusy.finish
  split
  · exact h
  · rename_i hy
    rw [not_not] at hy
    have h' : Owns σ B o (⟨{ g with base := { g.base with consumer := { g.base.consumer with
        ext := { g.base.consumer.ext with toCommit := addSet g.base.consumer.ext.toCommit topic } } } },
        st⟩ : GroupFirst δ) := by
      refine h.to rfl (fun x hx => .inl hx) (fun w hw => .inl ⟨w, hw, rfl, fun q hq => hq⟩)
        (fun t => Iff.rfl) (fun t ht => ?_) (fun x hx => .inl ⟨x, hx, rfl⟩) (fun t p _ => rfl)
      rcases (mem_addSet _ _ _).1 ht with rfl | ht
      · exact .inr hy
      · exact .inl ht
    dsimp only
    split
    · exact h'.ask _ _ _
    · exact h'

theorem Owns.erase {s : GroupFirst δ} (h : Owns σ B o s) (i : Nat) :
    Owns σ B o ⟨s.group, s.starting.erase i⟩ :=
  { h with starts := fun x hx => h.starts x (Dict.mem_erase.1 hx).1 }

/-- The consumer changes in nothing that matters here. -/
theorem Owns.same {s : GroupFirst δ} (h : Owns σ B o s) {c : Grouped}
    (h1 : c.ext = s.group.base.consumer.ext) (h2 : c.synced = s.group.base.consumer.synced)
    (h3 : ∀ t p, offsetOf c.offsets t p = offsetOf s.group.base.consumer.offsets t p) :
    Owns σ B o ⟨{ s.group with base := { s.group.base with consumer := c } }, s.starting⟩ :=
  h.to (by dsimp only; rw [h1]) (fun x hx => .inl hx)
    (fun w hw => .inl ⟨w, hw, rfl, fun q hq => hq⟩) (fun t => by dsimp only; rw [h2])
    (fun t ht => .inl (by dsimp only at ht; rwa [h1] at ht)) (fun x hx => .inl ⟨x, hx, rfl⟩)
    (fun t p _ => h3 t p)

theorem Owns.set {s : GroupFirst δ} (h : Owns σ B o s) (i : Nat) {ph : GroupPhase}
    (hf : FineStart σ B o ph) : Owns σ B o ⟨s.group, s.starting.set i ph⟩ :=
  ⟨h.share, h.nodup, fun x hx => by
      rcases mem_set_or hx with rfl | hx
      · exact hf
      · exact h.starts x hx, h.waits, h.due, h.sent, h.outside, h.begins⟩

theorem owns_fetch {s : GroupFirst δ} {i : Nat} {topic : String} {parts : List Int}
    (h : Owns σ B o s) (hp : parts = σ topic) : Owns σ B o (s.fetch cfg i topic parts).2 := by
  unfold GroupFirst.fetch
  cases hc : s.group.base.consumer.fetches cfg topic parts with
  | mk r c =>
    obtain ⟨_, f2, f3, _, _, f6, f7, _⟩ := fetches_spec cfg topic parts _ _ _ hc
    have h' := (h.same f6 f3 f2).erase i
    cases r with
    | error e => exact h'
    | ok reqs =>
      dsimp only
      split
      · exact h'
      · have hfe := f7 reqs rfl
        refine h'.to rfl (fun x hx => .inl hx) (fun w hw => ?_) (fun t => Iff.rfl)
          (fun t ht => .inl ht) (fun x hx => .inl ⟨x, hx, rfl⟩) (fun t p _ => rfl)
        rcases mem_set_or hw with rfl | hw
        · right
          intro q hq f hf
          have : f.id ∈ q.parts.map (·.id) := List.mem_map.2 ⟨f, hf, rfl⟩
          rw [hfe.named q hq] at this
          have := (List.mem_filter.1 this).1
          rwa [hp] at this
        · exact .inl ⟨w, hw, rfl, fun q hq => hq⟩

theorem owns_proceed {s : GroupFirst δ} {i : Nat} {topic : String}
    (h : Owns σ B o s) : Owns σ B o (s.proceed cfg i topic).2 := by
  unfold GroupFirst.proceed
  split
  · exact h.erase i
  · rename_i a ha
    split
    · rename_i parts hp
      exact owns_fetch h ((allocated_share ha hp).trans (h.share topic))
    · exact h.set i trivial

theorem owns_want {s : GroupFirst δ} {i : Nat} {topic : String} {parts : List Int}
    (h : Owns σ B o s) (hp : parts = σ topic) : Owns σ B o (s.want cfg i topic parts).2 := by
  unfold GroupFirst.want
  split
  · exact h.erase i
  · split
    · exact h.erase i
    · split
      · exact h.erase i
      · exact h.set i hp

theorem owns_determine {s : GroupFirst δ} {i : Nat} {topic : String}
    (h : Owns σ B o s) : Owns σ B o (s.determine cfg i topic).2 := by
  unfold GroupFirst.determine
  dsimp only
  split
  · exact h.erase i
  · rename_i a ha
    split
    · exact h.erase i
    have hsh : ∀ t, (((a.getDefault topic []).1).get? t).getD [] = σ t := by
      intro t
      rw [getDefault_getD, ← h.share t]
      unfold shareOf
      rw [ha]
    refine owns_want { h with share := hsh, nodup := ?_ } ?_
    · rintro a' e
      cases e
      unfold Dict.getDefault
      split
      · exact h.nodup a ha
      · exact Dict.nodup_set (h.nodup a ha) _ _
    · rw [getDefault_val, ← h.share topic]
      unfold shareOf
      rw [ha]

theorem owns_undetermined {s : GroupFirst δ} {i : Nat} {topic : String} {e : Exc}
    (h : Owns σ B o s) : Owns σ B o (s.undetermined gcfg cfg i topic e).2 := by
  unfold GroupFirst.undetermined
  split
  · exact (h.erase i).finish _ _ _
  · exact h.erase i

theorem heeded_all {ps : List OFPart} (h : ∀ q ∈ ps, q.code = 0) : heeded ps = ps := by
  induction ps with
  | nil => rfl
  | cons q ps ih =>
    have h0 := h q List.mem_cons_self
    unfold heeded at ih ⊢
    rw [List.takeWhile_cons, if_pos (by simp [h0, Fatal]), ih fun x hx => h x (List.mem_cons_of_mem _ hx)]

theorem handleOffsetFetchParts_ext (t : String) (ps : List OFPart) (c : Grouped) (b : Bool) :
    (handleOffsetFetchParts t ps c b).2.ext = c.ext := by
  induction ps generalizing c b with
  | nil => rfl
  | cons q ps ih =>
    simp only [handleOffsetFetchParts]
    split
    · rw [ih]
    · split
      · rw [ih]
      · split
        · rw [ih]
        · split <;> rfl

theorem handleCommitParts_fewer (t : String) (ps : List (Int × Int)) (c : Grouped) (b : Bool × Bool) :
    ∀ t' ∈ (handleCommitParts t ps c b).2.ext.toCommit, t' ∈ c.ext.toCommit := by
  induction ps generalizing c b with
  | nil => exact fun t' h => h
  | cons q ps ih =>
    intro t' ht
    simp only [handleCommitParts] at ht
    split at ht
    · have := ih _ _ t' ht
      exact (mem_discard.1 this).1
    · split at ht
      · exact ih { c with heal := true } _ t' ht
      · split at ht
        · exact ih _ _ t' ht
        · split at ht
          · exact ht
          · exact ih _ _ t' ht

theorem handleCommit_fewer (r : CommitResp) (c : Grouped) :
    ∀ t ∈ (handleCommitResponse r c).2.ext.toCommit, t ∈ c.ext.toCommit := by
  have : ∀ ts (c : Grouped) b, ∀ t ∈ (handleCommitTopics ts c b).2.ext.toCommit,
      t ∈ c.ext.toCommit := by
    intro ts
    induction ts with
    | nil => exact fun c b t h => h
    | cons x ts ih =>
      intro c b t ht
      simp only [handleCommitTopics] at ht
      have hp := handleCommitParts_fewer x.1 x.2 c b t
      cases hh : handleCommitParts x.1 x.2 c b with
      | mk res c1 =>
        rw [hh] at ht hp
        cases res with
        | error e => exact hp ht
        | ok b1 => exact hp (ih _ _ t ht)
  exact this r.topics c _

/-- What happens to the base class's `consume`s leaves alone what is not theirs. -/
theorem busy_owns {b b' : Busy GExt δ} {ev : BEv GExt β} {out : BOut δ} (hs : SoundBusy b)
    (h : b.step Grouped.allocation cfg ev = (out, b')) (hno : ∀ e, out ≠ .raised e)
    (hc : ∀ i t, ev ≠ .consume i t) (hf : Fair Batch logs b ev)
    (hoff : ∀ f, ev = .other f → ∀ c, (f c).ext.mapping = c.ext.mapping ∧
      (f c).ext.toCommit = c.ext.toCommit) :
    (b'.consumer.ext.mapping = b.consumer.ext.mapping ∧
      b'.consumer.ext.toCommit = b.consumer.ext.toCommit) ∧
    (∀ w ∈ b'.waiting, ∃ y ∈ b.waiting, y.2.topic = w.2.topic ∧
      ∀ q ∈ w.2.pending, q ∈ y.2.pending) ∧
    ∀ t p, (∀ x ∈ b.waiting, ∀ q ∈ x.2.pending, ∀ f ∈ q.parts, x.2.topic = t → f.id ≠ p) →
      offsetOf b'.consumer.offsets t p = offsetOf b.consumer.offsets t p := by
  have same : ∀ w ∈ b.waiting, ∃ y ∈ b.waiting, y.2.topic = w.2.topic ∧
      ∀ q ∈ w.2.pending, q ∈ y.2.pending := fun w hw => ⟨w, hw, rfl, fun q hq => hq⟩
  have erased : ∀ i, ∀ w ∈ b.waiting.erase i, ∃ y ∈ b.waiting, y.2.topic = w.2.topic ∧
      ∀ q ∈ w.2.pending, q ∈ y.2.pending :=
    fun i w hw => same w (Dict.mem_erase.1 hw).1
  cases ev with
  | consume i t => exact absurd rfl (hc i t)
  | other f =>
    simp only [Busy.step, Prod.mk.injEq] at h
    obtain ⟨rfl, rfl⟩ := h
    exact ⟨hoff f rfl _, same, fun t p _ => by rw [show (f b.consumer).offsets = _ from hf _]⟩
  | healFails i e =>
    simp only [Busy.step] at h
    split at h
    · cases h; exact ⟨⟨rfl, rfl⟩, same, fun _ _ _ => rfl⟩
    · cases h; exact absurd rfl (hno e)
  | finish i =>
    simp only [Busy.step] at h
    split at h
    · cases h; exact ⟨⟨rfl, rfl⟩, same, fun _ _ _ => rfl⟩
    · split at h
      · cases h; exact ⟨⟨rfl, rfl⟩, same, fun _ _ _ => rfl⟩
      · cases h; exact ⟨⟨rfl, rfl⟩, erased i, fun _ _ _ => rfl⟩
  | outcome i broker r =>
    simp only [Busy.step] at h
    split at h
    · cases h; exact ⟨⟨rfl, rfl⟩, same, fun _ _ _ => rfl⟩
    · rename_i w hw
      have hm := Dict.mem_of_get? hw
      have hset : ∀ w' : Waiting δ, w'.topic = w.topic → (∀ q ∈ w'.pending, q ∈ w.pending) →
          ∀ x ∈ b.waiting.set i w', ∃ y ∈ b.waiting, y.2.topic = x.2.topic ∧
            ∀ q ∈ x.2.pending, q ∈ y.2.pending := by
        intro w' e hq x hx
        rcases mem_set_or hx with rfl | hx
        · exact ⟨_, hm, e.symm, hq⟩
        · exact same x hx
      split at h
      · cases h; exact ⟨⟨rfl, rfl⟩, same, fun _ _ _ => rfl⟩
      · rename_i hb
        rw [not_not, List.mem_map] at hb
        obtain ⟨q, hq, rfl⟩ := hb
        split at h
        · rename_i e
          cases h
          refine ⟨?_, hset _ rfl fun q hq => (List.mem_filter.1 hq).1, fun t p _ => ?_⟩
          · dsimp only
            split <;> exact ⟨rfl, rfl⟩
          · dsimp only
            split <;> rfl
        · rename_i resp
          split at h
          · cases h; exact absurd rfl (hno _)
          · rename_i x c hh
            cases h
            obtain ⟨done, rest, h1, h2, h3, h4, h5⟩ := handleFetch_spec cfg resp b.consumer c _ hh
            obtain ⟨rfl, _⟩ := h4 _ rfl
            rw [List.append_nil] at h1
            subst h1
            refine ⟨by dsimp only; rw [h2.ext]; exact ⟨rfl, rfl⟩,
              hset _ rfl fun q hq => (List.mem_filter.1 hq).1, fun t p hp => ?_⟩
            have hon := hf w hw q hq rfl
            dsimp only
            rw [h2.offsets t p]
            rcases honest_answer hon t p with h0 | ⟨rfl, f, hf', rfl, _⟩
            · rw [h0]; rfl
            · exact absurd rfl (hp _ hm q hq f hf' ((hs.each _ hm).topic q hq).symm)

/-- What happens to a member leaves alone what is not its own. -/
theorem owns_step {group : String → Int → Int} {s s' : GroupFirst δ} {ev : FirstGroupEv β}
    {out : FirstGroupOut δ} (hx : GroupExact (Exact cfg logs) o s outs []) (h : Owns σ B o s)
    (hf : FairGroup Batch logs s ev) (hk : KeepsGroup s ev out) (hu : Unshared ev)
    (ht : Tells group s ev)
    (hg : ∀ t, t ∉ s.group.base.consumer.synced → ∀ p ∈ σ t, group t p = B t p)
    (hs : s.step gcfg cfg ev = (out, s')) :
    Owns σ B (groupStart (groupTold s ev) o) s' := by
  cases ev with
  | call i topic =>
    show Owns σ B o s'
    simp only [GroupFirst.step] at hs
    split at hs
    · cases hs; exact (h.erase i).finish _ _ _
    · split at hs
      · have := owns_proceed (cfg := cfg) (i := i) (topic := topic) h
        rwa [hs] at this
      · have := owns_determine (cfg := cfg) (i := i) (topic := topic) h
        rwa [hs] at this
  | offsets i r =>
    simp only [GroupFirst.step] at hs
    split at hs
    · rename_i topic parts b hi
      obtain ⟨ps, hr⟩ := hf topic parts b hi
      obtain ⟨t1, t2⟩ := ht topic parts b hi ps hr
      have hm := Dict.mem_of_get? hi
      have hty : topic ∉ s.group.base.consumer.synced := hx.asks _ hm (fun t' e => by cases e)
      have hparts : parts = σ topic := h.starts _ hm
      have hfr := (uses_starting hx.differ hi).free
      obtain ⟨g1, g2⟩ := handleOffsetFetchParts_heeded topic ps s.group.base.consumer false
      have g3 := handleOffsetFetchParts_ext topic ps s.group.base.consumer false
      have hresp : handleOffsetFetchResponse r s.group.base.consumer =
          handleOffsetFetchParts topic ps s.group.base.consumer false := by
        simp only [handleOffsetFetchResponse, hr]
      have htold : groupTold s (.offsets i r : FirstGroupEv β) = [(topic, ps)] := by
        simp only [groupTold, hi, hr, List.take]
      rw [htold]
      rw [hresp] at hs
      cases hc : handleOffsetFetchParts topic ps s.group.base.consumer false with
      | mk res c =>
        rw [hc] at hs g1 g2 g3
        dsimp only at g1 g2 g3
        have h' : Owns σ B (groupStart [(topic, ps)] o)
            ⟨{ s.group with base := { s.group.base with consumer := c } }, s.starting.erase i⟩ := by
          refine ⟨fun t => ?_, ?_, ?_, h.waits, ?_, ?_, ?_, ?_⟩
          · rw [← h.share t]
            unfold shareOf
            dsimp only
            rw [g3]
          · dsimp only; rw [g3]; exact h.nodup
          · intro x hx
            have hne := hfr.starts x hx
            have hfine := h.starts x (Dict.mem_erase.1 hx).1
            cases hph : x.2 with
            | answered t ps' b r =>
              rw [hph] at hfine hne
              refine ⟨hfine.1, fun hr p hp => ?_⟩
              simp only [groupStart]
              rw [if_neg (fun e => hne (by rw [← e]; rfl))]
              exact hfine.2 hr p hp
            | asking t ps' b => rw [hph] at hfine; exact hfine
            | failed t => trivial
            | healing t => trivial
          · dsimp only; rw [g2, g3]; exact h.due
          · intro x hx req hq t p v hv
            dsimp only
            rw [g2]
            exact h.sent x hx req hq t p v hv
          · intro t p hp
            dsimp only
            rw [g1]
            simp only [groupStart]
            rw [h.outside t p hp]
          · intro t ht p hp
            dsimp only at ht
            rw [g2] at ht
            simp only [groupStart]
            rw [if_neg (fun e : t = topic => hty (e ▸ ht))]
            exact h.begins t ht p hp
        cases res with
        | ok retry =>
          cases hs
          refine ⟨h'.share, h'.nodup, fun x hx' => ?_, h'.waits, h'.due, h'.sent, h'.outside, h'.begins⟩
          rcases mem_of_set hx.differ.starting hx' with rfl | ⟨hx', hne⟩
          · refine ⟨hparts, fun hret p hp => ?_⟩
            subst hret
            have h0 := handleOffsetFetchParts_done _ _ _ _ _ hc
            have hhe : heeded ps = ps := heeded_all h0
            simp only [groupStart, if_true, hhe, adopted]
            rw [← hparts] at hp
            obtain ⟨q, hq, hqp⟩ := t2 p hp
            cases hl : (ps.filter fun q => decide (q.id = p ∧ q.code = 0)).getLast? with
            | none =>
              rw [List.getLast?_eq_none_iff, List.filter_eq_nil_iff] at hl
              exact absurd (by simp [hqp, h0 q hq]) (hl q hq)
            | some q' =>
              have hmem := List.mem_of_getLast? hl
              obtain ⟨m1, m2⟩ := List.mem_filter.1 hmem
              simp only [decide_eq_true_eq] at m2
              dsimp only
              rw [(t1 q' m1).2 m2.2, m2.1]
              exact hg topic hty p (hparts ▸ hp)
          · exact h'.starts x (Dict.mem_erase.2 ⟨hx', hne⟩)
        | error e =>
          have h'' : Owns σ B (groupStart [(topic, ps)] o) (GroupFirst.undetermined gcfg cfg i topic e
              ⟨{ s.group with base := { s.group.base with consumer := c } }, s.starting⟩).2 := by
            unfold GroupFirst.undetermined
            split
            · exact h'.finish _ _ _
            · exact h'
          have hs' : GroupFirst.undetermined gcfg cfg i topic e
              ⟨{ s.group with base := { s.group.base with consumer := c } }, s.starting⟩ =
              (out, s') := hs
          rwa [hs'] at h''
    · rename_i hno
      cases hs
      have : groupTold s (.offsets i r : FirstGroupEv β) = [] := by
        simp only [groupTold]
      rw [this]
      exact h
  | offsetsFail i e =>
    show Owns σ B o s'
    simp only [GroupFirst.step] at hs
    split at hs
    · cases hs
      exact (h.same (c := if e = .streamClosed then s.group.base.consumer else
        { s.group.base.consumer with heal := true }) (by split <;> rfl) (by split <;> rfl)
        (fun t p => by split <;> rfl)).set i trivial
    · cases hs; exact h
  | goOn i =>
    show Owns σ B o s'
    simp only [GroupFirst.step] at hs
    have hheal := h.same (c := { s.group.base.consumer with heal := false }) rfl rfl (fun _ _ => rfl)
    split at hs
    · rename_i topic parts b retry hi
      obtain ⟨hp, hfine⟩ := h.starts _ (Dict.mem_of_get? hi)
      split at hs
      · cases hs; exact hheal.erase i
      · split at hs
        · have := owns_want (cfg := cfg) (i := i) hheal hp
          rwa [hs] at this
        · rename_i hr
          have h' : ∀ c : Grouped, c = { s.group.base.consumer with heal := false, synced := addSet s.group.base.consumer.synced topic } →
              Owns σ B o (⟨{ s.group with base := { s.group.base with consumer := c } }, s.starting⟩ :
                GroupFirst δ) := by
            rintro c rfl
            refine ⟨hheal.share, hheal.nodup, hheal.starts, hheal.waits,
              fun t ht => (mem_addSet _ _ _).2 (.inr (h.due t ht)), fun x hx req hq t p v hv => ?_,
              hheal.outside, fun t ht => ?_⟩
            · obtain ⟨e1, e2⟩ := h.sent x hx req hq t p v hv
              exact ⟨(mem_addSet _ _ _).2 (.inr e1), e2⟩
            · rcases (mem_addSet _ _ _).1 ht with rfl | ht
              · exact hfine (Bool.not_eq_true retry |>.mp hr)
              · exact h.begins t ht
          have := owns_proceed (cfg := cfg) (i := i) (topic := topic) (h' _ rfl)
          rwa [hs] at this
    · cases hs; exact hheal.erase i
    · cases hs; exact h
  | healed i =>
    show Owns σ B o s'
    simp only [GroupFirst.step] at hs
    split at hs
    · rename_i topic hi
      split at hs
      · cases hs; exact h.erase i
      · rename_i a ha
        split at hs
        · rename_i parts hp
          have := owns_fetch (cfg := cfg) (i := i) h ((allocated_share ha hp).trans (h.share topic))
          rwa [hs] at this
        · cases hs; exact (h.erase i).finish _ _ _
    · cases hs; exact h
  | healFails i e =>
    show Owns σ B o s'
    simp only [GroupFirst.step] at hs
    split at hs
    · cases hs; exact h
    · rename_i topic _ _ _ _
      have := owns_undetermined (gcfg := gcfg) (cfg := cfg) (i := i) (topic := topic) (e := e) h
      rwa [hs] at this
    · rename_i topic _
      have := owns_undetermined (gcfg := gcfg) (cfg := cfg) (i := i) (topic := topic) (e := e) h
      rwa [hs] at this
    · cases hs; exact h.erase i
    · cases hs; exact h
  | group gev =>
    show Owns σ B o s'
    have hcommits : ∀ (cs : Dict Nat (Committing δ)) (c : Grouped),
        c.ext.mapping = s.group.base.consumer.ext.mapping → c.synced = s.group.base.consumer.synced →
        c.offsets = s.group.base.consumer.offsets →
        (∀ t ∈ c.ext.toCommit, t ∈ s.group.base.consumer.ext.toCommit) →
        (∀ x ∈ cs, x ∈ s.group.commits ∨ ∀ req, x.2.phase ≠ .asking req) →
        Owns σ B o ⟨⟨{ s.group.base with consumer := c }, cs⟩, s.starting⟩ := by
      intro cs c c1 c2 c3 c4 c5
      refine h.to c1 (fun x hx => .inl hx) (fun w hw => .inl ⟨w, hw, rfl, fun q hq => hq⟩)
        (fun t => by dsimp only; rw [c2]) (fun t ht => .inl (c4 t ht)) (fun x hx => ?_)
        (fun t p _ => by dsimp only; rw [c3])
      rcases c5 x hx with hx | hx
      · exact .inl ⟨x, hx, rfl⟩
      · exact .inr fun req hr => absurd hr (hx req)
    have hset : ∀ k ph (result : Option (String × Option (List δ))), (∀ req, ph ≠ .asking req) →
        ∀ x ∈ s.group.commits.set k ⟨ph, result⟩, x ∈ s.group.commits ∨
          ∀ req, x.2.phase ≠ .asking req := by
      intro k ph result hn x hx
      rcases mem_set_or hx with rfl | hx
      · exact .inr hn
      · exact .inl hx
    have herase : ∀ k, ∀ x ∈ s.group.commits.erase k, x ∈ s.group.commits ∨
        ∀ req, x.2.phase ≠ .asking req := fun k x hx => .inl (Dict.mem_erase.1 hx).1
    by_cases hcns : ∃ i t, gev = .base (.consume i t)
    · obtain ⟨i, t, rfl⟩ := hcns
      cases hs; exact h
    have hst : s.step gcfg cfg (.group gev) = (.group (s.group.step gcfg cfg gev).1,
        ⟨(s.group.step gcfg cfg gev).2, s.starting⟩) := by
      cases gev with
      | base bev =>
        cases bev with
        | consume i t => exact absurd ⟨i, t, rfl⟩ hcns
        | _ => rfl
      | _ => rfl
    rw [hst] at hs
    cases hs
    cases gev with
    | base bev =>
      have hc : ∀ i t, bev ≠ .consume i t := fun i t e => hcns ⟨i, t, by rw [e]⟩
      have hoff : ∀ f, bev = .other f → ∀ c, (f c).offsets = c.offsets ∧ (f c).synced = c.synced := by
        rintro f rfl; exact hf
      have hun : ∀ f, bev = .other f → ∀ c, (f c).ext.mapping = c.ext.mapping ∧
          (f c).ext.toCommit = c.ext.toCommit := by
        rintro f rfl; exact hu
      have hfair : Fair Batch logs s.group.base bev := by
        cases bev with
        | other f => exact fun c => (hf c).1
        | consume i t => exact absurd rfl (hc i t)
        | outcome i broker r => exact hf
        | finish i => exact hf
        | healFails i e => exact hf
      have hno : ∀ e, (s.group.step gcfg cfg (.base bev)).1 ≠ .raised e := by
        intro e he
        exact hk e _ (by rw [he]) rfl
      obtain ⟨bouts, hb, _⟩ := hx.base
      simp only [GroupBusy.step] at hno ⊢
      cases hbs : s.group.base.step Grouped.allocation cfg bev with
      | mk bout b =>
        rw [hbs] at hno
        have hnob : ∀ e, bout ≠ .raised e := by
          rintro e rfl
          exact hno e rfl
        obtain ⟨w1, w2, w3⟩ := waiting_step hb.sound hbs hnob hc hfair hoff
        obtain ⟨⟨v1, v2⟩, v3, v4⟩ := busy_owns hb.sound hbs hnob hc hfair hun
        have h' : Owns σ B o (⟨{ s.group with base := b }, s.starting⟩ : GroupFirst δ) := by
          refine h.to v1 (fun x hx => .inl hx) (fun w hw => .inl (v3 w hw)) w2
            (fun t ht => .inl ?_) (fun x hx => .inl ⟨x, hx, rfl⟩)
            fun t p hp => v4 t p fun x hx q hq f hf e e' => hp ?_
          · dsimp only at ht
            rwa [v2] at ht
          · rw [← e', ← e]
            exact h.waits x hx q hq f hf
        cases bout with
        | returned topic out => exact h'.finish _ _ _
        | _ => exact h'
    | commit k md => exact h.ask _ _ _
    | answer k r =>
      simp only [GroupBusy.step]
      split
      · have hfew := handleCommit_fewer r s.group.base.consumer
        cases hh : handleCommitResponse r s.group.base.consumer with
        | mk res c =>
          rw [hh] at hfew
          obtain ⟨a1, a2, a3, _⟩ := handleCommit_any hh
          cases res with
          | error e => exact hcommits _ c a3 a2 a1 hfew (herase k)
          | ok x => exact hcommits _ c a3 a2 a1 hfew (hset _ _ _ (fun req e => by cases e))
      · exact h
    | fails k e =>
      simp only [GroupBusy.step]
      split
      · refine hcommits _ (if e = .streamClosed then s.group.base.consumer else
          { s.group.base.consumer with heal := true }) ?_ ?_ ?_ ?_ (hset _ _ _ (fun req e => by cases e))
        · split <;> rfl
        · split <;> rfl
        · split <;> rfl
        · split <;> exact fun t ht => ht
      · exact h
    | goOn k =>
      simp only [GroupBusy.step]
      split
      · split
        · exact (hcommits s.group.commits { s.group.base.consumer with heal := false } rfl rfl rfl
            (fun t ht => ht) (fun x hx => .inl hx)).ask _ _ _
        · split
          · exact hcommits _ { s.group.base.consumer with heal := false } rfl rfl rfl
              (fun t ht => ht) (herase k)
          · exact hcommits _ { s.group.base.consumer with heal := false } rfl rfl rfl
              (fun t ht => ht) (herase k)
      · exact hcommits _ { s.group.base.consumer with heal := false } rfl rfl rfl
          (fun t ht => ht) (herase k)
      · exact h
    | healFails k e =>
      simp only [GroupBusy.step]
      split
      · exact h
      · exact h
      · exact hcommits _ s.group.base.consumer rfl rfl rfl (fun t ht => ht) (herase k)

/-- What a member knows offsets of, it goes on knowing. -/
theorem grows_step {s s' : GroupFirst δ} {ev : FirstGroupEv β}
    {out : FirstGroupOut δ} (hx : GroupExact (Exact cfg logs) o s outs [])
    (hf : FairGroup Batch logs s ev) (hk : KeepsGroup s ev out)
    (hs : s.step gcfg cfg ev = (out, s')) :
    ∀ t ∈ s.group.base.consumer.synced, t ∈ s'.group.base.consumer.synced := by
  have hfetch : ∀ (s : GroupFirst δ) i topic parts,
      (s.fetch cfg i topic parts).2.group.base.consumer.synced = s.group.base.consumer.synced := by
    intro s i topic parts
    have hf := fetches_synced (cfg := cfg) (topic := topic) (parts := parts) s.group.base.consumer
    unfold GroupFirst.fetch
    cases hc : s.group.base.consumer.fetches cfg topic parts with
    | mk r c =>
      rw [hc] at hf
      cases r with
      | error e => exact hf
      | ok reqs =>
        dsimp only
        split <;> exact hf
  have hproceed : ∀ (s : GroupFirst δ) i topic,
      (s.proceed cfg i topic).2.group.base.consumer.synced = s.group.base.consumer.synced := by
    intro s i topic
    unfold GroupFirst.proceed
    split
    · rfl
    · split
      · exact hfetch _ _ _ _
      · rfl
  have hwant : ∀ (s : GroupFirst δ) i topic parts,
      (s.want cfg i topic parts).2.group.base.consumer.synced = s.group.base.consumer.synced := by
    intro s i topic parts
    unfold GroupFirst.want
    split
    · rfl
    · split
      · rfl
      · split <;> rfl
  have hund : ∀ (s : GroupFirst δ) i topic e,
      (s.undetermined gcfg cfg i topic e).2.group.base.consumer.synced = s.group.base.consumer.synced := by
    intro s i topic e
    unfold GroupFirst.undetermined
    split
    · exact (finish_kept _ _ _ _ _).1
    · rfl
  suffices hmain : ∀ t ∈ s.group.base.consumer.synced,
      t ∈ (s.step gcfg cfg ev).2.group.base.consumer.synced by
    rw [hs] at hmain; exact hmain
  intro t ht
  cases ev with
  | call i topic =>
    simp only [GroupFirst.step]
    split
    · exact (finish_kept gcfg i topic .none s.group).1 ▸ ht
    · split
      · rw [hproceed]; exact ht
      · unfold GroupFirst.determine
        dsimp only
        split
        · exact ht
        · split
          · exact ht
          · rw [hwant]; exact ht
  | offsets i r =>
    simp only [GroupFirst.step]
    split
    · rename_i topic parts b hi
      obtain ⟨ps, hr⟩ := hf topic parts b hi
      have hy := (handleOffsetFetchParts_heeded topic ps s.group.base.consumer false).2
      have hresp : handleOffsetFetchResponse r s.group.base.consumer =
          handleOffsetFetchParts topic ps s.group.base.consumer false := by
        simp only [handleOffsetFetchResponse, hr]
      simp only [hresp]
      cases hc : handleOffsetFetchParts topic ps s.group.base.consumer false with
      | mk res c =>
        rw [hc] at hy
        cases res with
        | ok retry => exact hy ▸ ht
        | error e =>
          dsimp only
          rw [hund]
          exact hy ▸ ht
    · exact ht
  | offsetsFail i e =>
    simp only [GroupFirst.step]
    split
    · show t ∈ (if e = .streamClosed then s.group.base.consumer else
        { s.group.base.consumer with heal := true }).synced
      split <;> exact ht
    · exact ht
  | goOn i =>
    simp only [GroupFirst.step]
    split
    · split
      · exact ht
      · split
        · rw [hwant]; exact ht
        · rw [hproceed]; exact (mem_addSet _ _ _).2 (.inr ht)
    · exact ht
    · exact ht
  | healed i =>
    simp only [GroupFirst.step]
    split
    · split
      · exact ht
      · split
        · rw [hfetch]; exact ht
        · exact (finish_kept gcfg i _ (some []) s.group).1 ▸ ht
    · exact ht
  | healFails i e =>
    simp only [GroupFirst.step]
    split
    · exact ht
    · rw [hund]; exact ht
    · rw [hund]; exact ht
    · exact ht
    · exact ht
  | group gev =>
    by_cases hcns : ∃ i t, gev = .base (.consume i t)
    · obtain ⟨i, t, rfl⟩ := hcns
      exact ht
    have hst : s.step gcfg cfg (.group gev) = (.group (s.group.step gcfg cfg gev).1,
        ⟨(s.group.step gcfg cfg gev).2, s.starting⟩) := by
      cases gev with
      | base bev =>
        cases bev with
        | consume i t => exact absurd ⟨i, t, rfl⟩ hcns
        | _ => rfl
      | _ => rfl
    rw [hst] at hs ⊢
    cases hs
    dsimp only
    cases gev with
    | base bev =>
      have hc : ∀ i t, bev ≠ .consume i t := fun i t e => hcns ⟨i, t, by rw [e]⟩
      have hoff : ∀ f, bev = .other f → ∀ c, (f c).offsets = c.offsets ∧ (f c).synced = c.synced := by
        rintro f rfl; exact hf
      have hfair : Fair Batch logs s.group.base bev := by
        cases bev with
        | other f => exact fun c => (hf c).1
        | consume i t => exact absurd rfl (hc i t)
        | outcome i broker r => exact hf
        | finish i => exact hf
        | healFails i e => exact hf
      have hno : ∀ e, (s.group.step gcfg cfg (.base bev)).1 ≠ .raised e := by
        intro e he
        exact hk e _ (by rw [he]) rfl
      obtain ⟨bouts, hb, _⟩ := hx.base
      simp only [GroupBusy.step] at hno ⊢
      cases hbs : s.group.base.step Grouped.allocation cfg bev with
      | mk bout b =>
        rw [hbs] at hno
        have hnob : ∀ e, bout ≠ .raised e := by
          rintro e rfl
          exact hno e rfl
        obtain ⟨_, w2, _⟩ := waiting_step hb.sound hbs hnob hc hfair hoff
        cases bout with
        | returned topic out =>
          dsimp only
          rw [(finish_kept _ _ _ _ _).1]
          exact (w2 t).2 ht
        | _ => exact (w2 t).2 ht
    | commit k md => exact (ask_kept (k := k) (md := md) (result := .none) s.group).1 ▸ ht
    | answer k r =>
      simp only [GroupBusy.step]
      split
      · cases hh : handleCommitResponse r s.group.base.consumer with
        | mk res c =>
          have hy := (handleCommit_any hh).2.1
          cases res with
          | error e => exact hy ▸ ht
          | ok x => exact hy ▸ ht
      · exact ht
    | fails k e =>
      simp only [GroupBusy.step]
      split
      · show t ∈ (if e = .streamClosed then s.group.base.consumer else
          { s.group.base.consumer with heal := true }).synced
        split <;> exact ht
      · exact ht
    | goOn k =>
      simp only [GroupBusy.step]
      split
      · split
        · rw [(ask_kept _).1]; exact ht
        · split <;> exact ht
      · exact ht
      · exact ht
    | healFails k e =>
      simp only [GroupBusy.step]
      split <;> exact ht

/-! ### The group -/

open Classical in
/-- Where the group stands. -/
noncomputable def fleetPos (g : Fleet δ) (t : String) (p : Int) : Int :=
  if h : ∃ i, p ∈ shareOf (g.member i) t ∧ t ∈ (g.member i).synced then
    offsetOf (g.member h.choose).offsets t p
  else g.group t p

/-- The invariant between two rebalances: `B` is where the group stood, and `before` what had been
returned, at the first; `σ` are the members' shares, `o` where they started reading, and `who` says
what has been returned by whom since. -/
structure FleetInv (cfg : CCfg β δ) (logs : String → Int → List (Int × β))
    (base B : String → Int → Int) (σ : Nat → String → List Int) (o : Nat → String → Int → Int)
    (n : Nat) (before : List (String × δ)) (who : List (Nat × String × δ)) (g : Fleet δ) : Prop where
  le : ∀ t p, base t p ≤ B t p
  read : Interleaving (fun t p => (values cfg ((logs t p).filter fun m =>
    decide (base t p ≤ m.1 ∧ m.1 < B t p))).filter cfg.truthy) before
  apart : ∀ i j t p, p ∈ σ i t → p ∈ σ j t → i = j
  exact : ∀ i, GroupExact (Exact cfg logs) (o i) (g.members i)
    ((who.filter fun x => decide (x.1 = i)).map (·.2)) []
  owns : ∀ i, Owns (σ i) B (o i) (g.members i)
  stored : ∀ t p, g.group t p = B t p ∨ ∃ i, p ∈ σ i t ∧ t ∈ (g.member i).synced
  few : ∀ i, n ≤ i → AtRest (g.members i)
  returned : g.returned = before ++ who.map (·.2)

variable {gs : Nat → GCfg} {base : String → Int → Int} {τ : Nat → String → List Int}
  {oo : Nat → String → Int → Int} {n : Nat} {before : List (String × δ)}
  {who : List (Nat × String × δ)} {g g' : Fleet δ}

theorem FleetInv.share (h : FleetInv cfg logs base B τ oo n before who g) (i : Nat) (t : String) :
    shareOf (g.member i) t = τ i t := (h.owns i).share t

/-- Where the group stands, by members. -/
theorem FleetInv.pos (h : FleetInv cfg logs base B τ oo n before who g) (t : String) (p : Int) :
    (∀ i, p ∈ τ i t → t ∈ (g.member i).synced →
      fleetPos g t p = offsetOf (g.member i).offsets t p) ∧
    ((∀ i, p ∈ τ i t → t ∉ (g.member i).synced) → fleetPos g t p = B t p) := by
  classical
  constructor
  · intro i hi hy
    have hex : ∃ i, p ∈ shareOf (g.member i) t ∧ t ∈ (g.member i).synced :=
      ⟨i, by rw [h.share]; exact hi, hy⟩
    have := hex.choose_spec.1
    rw [h.share] at this
    unfold fleetPos
    rw [dif_pos hex, h.apart _ i t p this hi]
  · intro hno
    have hex : ¬ ∃ i, p ∈ shareOf (g.member i) t ∧ t ∈ (g.member i).synced := by
      rintro ⟨i, hi, hy⟩
      rw [h.share] at hi
      exact hno i hi hy
    unfold fleetPos
    rw [dif_neg hex]
    rcases h.stored t p with hs | ⟨i, hi, hy⟩
    · exact hs
    · exact absurd hy (hno i hi)

theorem FleetInv.stands (h : FleetInv cfg logs base B τ oo n before who g) (t : String) (p x : Int) :
    g.Stands t p x ↔ x = fleetPos g t p := by
  obtain ⟨h1, h2⟩ := h.pos t p
  constructor
  · rintro (⟨i, hi, hy, rfl⟩ | ⟨hno, rfl⟩)
    · rw [h.share] at hi
      exact (h1 i hi hy).symm
    · have hno' : ∀ i, p ∈ τ i t → t ∉ (g.member i).synced :=
        fun i hi => hno i (by rw [h.share]; exact hi)
      rw [h2 hno']
      rcases h.stored t p with hs | ⟨i, hi, hy⟩
      · exact hs
      · exact absurd hy (hno' i hi)
  · rintro rfl
    by_cases hex : ∃ i, p ∈ τ i t ∧ t ∈ (g.member i).synced
    · obtain ⟨i, hi, hy⟩ := hex
      exact .inl ⟨i, by rw [h.share]; exact hi, hy, h1 i hi hy⟩
    · have hno : ∀ i, p ∈ τ i t → t ∉ (g.member i).synced := fun i hi hy => hex ⟨i, hi, hy⟩
      refine .inr ⟨fun i hi => hno i (by rw [← h.share]; exact hi), ?_⟩
      rw [h2 hno]
      rcases h.stored t p with hs | ⟨i, hi, hy⟩
      · exact hs.symm
      · exact absurd hy (hno i hi)

/-- Which messages each member has read. -/
theorem FleetInv.window (h : FleetInv cfg logs base B τ oo n before who g) (t : String) (p : Int) :
    B t p ≤ fleetPos g t p ∧ ∃ j,
      (values cfg ((logs t p).filter fun m => decide (B t p ≤ m.1 ∧ m.1 < fleetPos g t p))).filter
        cfg.truthy =
      (values cfg ((logs t p).filter fun m => decide (oo j t p ≤ m.1 ∧
        m.1 < offsetOf (g.member j).offsets t p))).filter cfg.truthy ∧
      ∀ i, i ≠ j → (values cfg ((logs t p).filter fun m => decide (oo i t p ≤ m.1 ∧
        m.1 < offsetOf (g.member i).offsets t p))).filter cfg.truthy = [] := by
  obtain ⟨h1, h2⟩ := h.pos t p
  have hnone : ∀ i, ¬ (p ∈ τ i t ∧ t ∈ (g.member i).synced) →
      (values cfg ((logs t p).filter fun m => decide (oo i t p ≤ m.1 ∧
        m.1 < offsetOf (g.member i).offsets t p))).filter cfg.truthy = [] := by
    intro i hi
    have e : offsetOf (g.member i).offsets t p = oo i t p := by
      by_cases hp : p ∈ τ i t
      · exact ((h.exact i).fresh t (fun hy => hi ⟨hp, hy⟩) p).symm
      · exact (h.owns i).outside t p hp
    rw [e, interval_empty]
    rfl
  by_cases hex : ∃ i, p ∈ τ i t ∧ t ∈ (g.member i).synced
  · obtain ⟨j, hj, hy⟩ := hex
    have hb := (h.owns j).begins t hy p hj
    rw [h1 j hj hy]
    refine ⟨?_, j, by rw [hb], fun i hij => hnone i fun hi => hij (h.apart i j t p hi.1 hj)⟩
    rw [← hb]
    exact ((h.exact j).reads).1 t p
  · have hno : ∀ i, p ∈ τ i t → t ∉ (g.member i).synced := fun i hi hy => hex ⟨i, hi, hy⟩
    rw [h2 hno]
    refine ⟨Int.le_refl _, 0, ?_, fun i _ => hnone i fun hi => hex ⟨i, hi⟩⟩
    rw [interval_empty, hnone 0 fun hi => hex ⟨0, hi⟩]
    rfl

theorem atRest_holds {s : GroupFirst δ} (h : AtRest s) : holds cfg s = [] := by
  obtain ⟨_, h2, h3⟩ := h
  unfold holds
  rw [committing_eq, h3, show underWay cfg s.group.base = [] by unfold underWay; rw [h2]; rfl]
  rfl

theorem labelled_same (i : Nat) (l : List (String × δ)) :
    ((l.map fun v => (i, v)).filter fun x => decide (x.1 = i)).map (·.2) = l := by
  induction l with
  | nil => rfl
  | cons v l ih => simp only [List.map_cons, List.filter_cons, decide_true, if_true, ih]

theorem labelled_other {i j : Nat} (h : i ≠ j) (l : List (String × δ)) :
    (l.map fun v => (i, v)).filter (fun x => decide (x.1 = j)) = [] := by
  rw [List.filter_eq_nil_iff]
  intro x hx
  obtain ⟨v, _, rfl⟩ := List.mem_map.1 hx
  simpa using h

theorem filter_held (f : Nat → List (String × δ)) (n i : Nat) (h : n ≤ i → f i = []) :
    (((List.range n).flatMap fun j => (f j).map fun v => (j, v)).filter
      fun x => decide (x.1 = i)).map (·.2) = f i := by
  have one : ∀ j, (((f j).map fun v => (j, v)).filter fun x => decide (x.1 = i)).map (·.2) =
      if j = i then f i else [] := by
    intro j
    split
    · rename_i e
      subst e
      exact labelled_same j _
    · rename_i e
      rw [labelled_other e]
      rfl
  induction n with
  | zero => simp [h (Nat.zero_le i)]
  | succ n ih =>
    rw [List.range_succ, List.flatMap_append, List.filter_append, List.map_append]
    simp only [List.flatMap_cons, List.flatMap_nil, List.append_nil]
    rw [one]
    by_cases hi : n = i
    · subst hi
      rw [if_pos rfl]
      have : ∀ m, m ≤ n → (((List.range m).flatMap fun j => (f j).map fun v => (j, v)).filter
          fun x => decide (x.1 = n)) = [] := by
        intro m hm
        rw [List.filter_eq_nil_iff]
        intro x hx
        obtain ⟨j, hj, hx⟩ := List.mem_flatMap.1 hx
        obtain ⟨v, _, rfl⟩ := List.mem_map.1 hx
        have := List.mem_range.1 hj
        simp only [decide_eq_true_eq]
        omega
      rw [this n (Nat.le_refl n)]
      rfl
    · rw [if_neg hi, List.append_nil]
      exact ih fun hle => h (by omega)

/-- What has been returned, and what is still held. -/
theorem FleetInv.reads (hl : ∀ t p, IsLog (logs t p))
    (h : FleetInv cfg logs base B τ oo n before who g) :
    (∀ t p, base t p ≤ fleetPos g t p) ∧
    Interleaving (fun t p => (values cfg ((logs t p).filter fun m =>
      decide (base t p ≤ m.1 ∧ m.1 < fleetPos g t p))).filter cfg.truthy)
      (g.returned ++ (List.range n).flatMap fun i => holds cfg (g.members i)) := by
  refine ⟨fun t p => Int.le_trans (h.le t p) (h.window t p).1, ?_⟩
  have hm := interleaving_members (per := fun i t p => (values cfg ((logs t p).filter fun m =>
      decide (oo i t p ≤ m.1 ∧ m.1 < offsetOf (g.member i).offsets t p))).filter cfg.truthy)
    (tot := fun t p => (values cfg ((logs t p).filter fun m =>
      decide (B t p ≤ m.1 ∧ m.1 < fleetPos g t p))).filter cfg.truthy)
    (who ++ (List.range n).flatMap fun i => (holds cfg (g.members i)).map fun v => (i, v))
    (fun i => by
      rw [List.filter_append, List.map_append, filter_held _ n i fun hi => atRest_holds (h.few i hi)]
      have := ((h.exact i).reads).2
      rwa [List.append_assoc] at this)
    (fun t p => (h.window t p).2)
  have := interleaving_append h.read hm
  rw [List.map_append, ← List.append_assoc, ← h.returned, List.map_flatMap] at this
  simp only [List.map_map, Function.comp_def, List.map_id'] at this
  convert this using 3 with t p
  rw [← List.filter_append, ← values_append]
  congr 2
  exact (window_append _ (hl t p).sorted _ _ _ (h.le t p) (h.window t p).1).symm

theorem fleet_start {members : Nat → Grouped} (h1 : SharesApart members)
    (h2 : ∀ i, NewlyTold (members i)) (le : ∀ t p, base t p ≤ B t p)
    (hr : Interleaving (fun t p => (values cfg ((logs t p).filter fun m =>
      decide (base t p ≤ m.1 ∧ m.1 < B t p))).filter cfg.truthy) before) :
    FleetInv cfg logs base B (fun i => shareOf (members i)) (fun i => offsetOf (members i).offsets) 0
      before [] (⟨resting members, B, before⟩ : Fleet δ) where
  le := le
  read := hr
  apart := h1
  exact i := groupExact_new _
  owns i := by
    refine ⟨fun t => rfl, (h2 i).mapping, by simp [resting], by simp [resting], ?_, by simp [resting],
      fun t p _ => rfl, ?_⟩
    · show ∀ t ∈ (members i).ext.toCommit, _
      rw [(h2 i).committed]
      simp
    · show ∀ t ∈ (members i).synced, _
      rw [(h2 i).synced]
      simp
  stored t p := .inl rfl
  few i _ := ⟨rfl, rfl, rfl⟩
  returned := by simp

theorem fleet_step (hl : ∀ t p, IsLog (logs t p))
    (h : FleetInv cfg logs base B τ oo n before who g) (hs : FleetStep gs cfg logs Fleet.Committed g g') :
    ∃ B τ oo n before who, FleetInv cfg logs base B τ oo n before who g' := by
  cases hs with
  | event i ev out s hf ha hk hu ht hst =>
    have he := group_step (account_exact hl) (h.exact i) hf ha hk hst
    have hunk : ∀ t, t ∉ (g.member i).synced → ∀ p ∈ τ i t, g.group t p = B t p := by
      intro t hty p hp
      rcases h.stored t p with hs | ⟨j, hj, hy⟩
      · exact hs
      · rw [h.apart j i t p hj hp] at hy
        exact absurd hy hty
    have ho := owns_step (h.exact i) (h.owns i) hf hk hu ht hunk hst
    have hgrow : ∀ t ∈ (g.member i).synced, t ∈ s.group.base.consumer.synced :=
      grows_step (h.exact i) hf hk hst
    refine ⟨B, τ, fun j => if j = i then groupStart (groupTold (g.members i) ev) (oo i) else oo j,
      max n (i + 1), before, who ++ (groupGiven out).map fun v => (i, v), h.le, h.read, h.apart, ?_, ?_,
      ?_, ?_, ?_⟩
    · intro j
      dsimp only
      rw [List.filter_append, List.map_append]
      by_cases hj : j = i
      · subst hj
        rw [if_pos rfl, if_pos rfl]
        rw [labelled_same]
        exact he
      · rw [if_neg hj, if_neg hj]
        rw [labelled_other fun e => hj e.symm, List.map_nil, List.append_nil]
        exact h.exact j
    · intro j
      dsimp only
      by_cases hj : j = i
      · subst hj
        rw [if_pos rfl, if_pos rfl]
        exact ho
      · rw [if_neg hj, if_neg hj]
        exact h.owns j
    · intro t p
      rcases h.stored t p with hs | ⟨j, hj, hy⟩
      · exact .inl hs
      · refine .inr ⟨j, hj, ?_⟩
        unfold Fleet.member
        dsimp only
        split
        · rename_i e
          rw [e] at hy
          exact hgrow t hy
        · exact hy
    · intro j hj
      dsimp only
      rw [if_neg (by omega)]
      exact h.few j (by omega)
    · dsimp only
      rw [h.returned, List.map_append, List.append_assoc]
      simp
  | stored i k req result t p x hk hx =>
    obtain ⟨hy, hp⟩ := (h.owns i).sent _ (Dict.mem_of_get? hk) req rfl t p x hx
    refine ⟨B, τ, oo, n, before, who, { h with stored := fun t' p' => ?_ }⟩
    dsimp only
    split
    · rename_i e
      rw [e.1, e.2]
      exact .inr ⟨i, hp, hy⟩
    · exact h.stored t' p'
  | settle members hrest hcom h1 h2 =>
    have hpos : fleetPos g = g.group := by
      funext t p
      obtain ⟨f1, f2⟩ := h.pos t p
      by_cases hex : ∃ i, p ∈ τ i t ∧ t ∈ (g.member i).synced
      · obtain ⟨i, hi, hy⟩ := hex
        rw [f1 i hi hy]
        exact hcom i t p (by rw [h.share]; exact hi) hy
      · have hno : ∀ i, p ∈ τ i t → t ∉ (g.member i).synced := fun i hi hy => hex ⟨i, hi, hy⟩
        rw [f2 hno]
        rcases h.stored t p with hs | ⟨i, hi, hy⟩
        · exact hs.symm
        · exact absurd hy (hno i hi)
    obtain ⟨r1, r2⟩ := h.reads hl
    rw [hpos] at r1 r2
    rw [show ((List.range n).flatMap fun i => holds cfg (g.members i)) = [] by
      rw [List.flatMap_eq_nil_iff]; exact fun i _ => atRest_holds (hrest i), List.append_nil] at r2
    exact ⟨_, _, _, _, _, _, fleet_start h1 h2 r1 r2⟩

theorem fleetRun_inv (hl : ∀ t p, IsLog (logs t p)) (h : FleetRun gs cfg logs Fleet.Committed base g) :
    ∃ B τ oo n before who, FleetInv cfg logs base B τ oo n before who g := by
  induction h with
  | start members h1 h2 =>
    refine ⟨base, _, _, _, _, _, fleet_start h1 h2 (fun _ _ => Int.le_refl _) ?_⟩
    convert interleaving_nil (δ := δ) using 3 with t p
    rw [interval_empty]
    rfl
  | step _ hs ih =>
    obtain ⟨B, τ, oo, n, before, who, hi⟩ := ih
    exact fleet_step hl hi hs

/-- **C112**: in any history of a group whose members' calls overlap in any way, within a member and
between members, except that a member's `consume`s of the same topic do not, and that is rebalanced
only while no call is under way and the coordinator has the offsets at which the members are: what
has been returned, followed by what the calls under way hold and will return, is an interleaving of
the messages of the partitions' logs, from the offset that the coordinator had in the beginning to
the one where the group stands, each once and in order, whoever has read it, less those that cannot
be deserialized or are false to Python. -/
theorem C112_exactly_once (gcfg : Nat → GCfg) (cfg : CCfg β δ) (logs : String → Int → List (Int × β))
    (hl : ∀ t p, IsLog (logs t p)) (base : String → Int → Int) (g : Fleet δ)
    (h : FleetRun gcfg cfg logs Fleet.Committed base g) :
    ∃ (n : Nat) (pos : String → Int → Int), (∀ i, n ≤ i → AtRest (g.members i)) ∧
      (∀ t p o, g.Stands t p o ↔ o = pos t p) ∧ (∀ t p, base t p ≤ pos t p) ∧
      Interleaving (fun t p => (values cfg ((logs t p).filter fun m =>
          decide (base t p ≤ m.1 ∧ m.1 < pos t p))).filter cfg.truthy)
        (g.returned ++ (List.range n).flatMap fun i => holds cfg (g.members i)) := by
  obtain ⟨B, τ, oo, n, before, who, hi⟩ := fleetRun_inv hl h
  exact ⟨n, fleetPos g, hi.few, hi.stands, (hi.reads hl).1, (hi.reads hl).2⟩

/-- **C112**, when no call is under way: what has been returned is exactly that. -/
theorem C112_returned (gcfg : Nat → GCfg) (cfg : CCfg β δ) (logs : String → Int → List (Int × β))
    (hl : ∀ t p, IsLog (logs t p)) (base : String → Int → Int) (g : Fleet δ)
    (h : FleetRun gcfg cfg logs Fleet.Committed base g) (hr : ∀ i, AtRest (g.members i)) :
    ∃ pos : String → Int → Int, (∀ t p o, g.Stands t p o ↔ o = pos t p) ∧
      (∀ t p, base t p ≤ pos t p) ∧
      Interleaving (fun t p => (values cfg ((logs t p).filter fun m =>
        decide (base t p ≤ m.1 ∧ m.1 < pos t p))).filter cfg.truthy) g.returned := by
  obtain ⟨n, pos, _, h1, h2, h3⟩ := C112_exactly_once gcfg cfg logs hl base g h
  refine ⟨pos, h1, h2, ?_⟩
  rwa [show ((List.range n).flatMap fun i => holds cfg (g.members i)) = [] by
    rw [List.flatMap_eq_nil_iff]; exact fun i _ => atRest_holds (hr i), List.append_nil] at h3

/-- **C112**: once no call is under way and the group stands at the end of every log, all messages
have been returned, exactly once. -/
theorem C112_all (gcfg : Nat → GCfg) (cfg : CCfg β δ) (logs : String → Int → List (Int × β))
    (hl : ∀ t p, IsLog (logs t p)) (base : String → Int → Int) (g : Fleet δ)
    (h : FleetRun gcfg cfg logs Fleet.Committed base g) (hr : ∀ i, AtRest (g.members i))
    (hend : ∀ t p, ∃ o, g.Stands t p o ∧ ∀ m ∈ logs t p, o ≤ m.1 → decode cfg m.2 = .none) :
    Interleaving (fun t p => (values cfg ((logs t p).filter fun m =>
      decide (base t p ≤ m.1))).filter cfg.truthy) g.returned := by
  obtain ⟨pos, hs, hm, hread⟩ := C112_returned gcfg cfg logs hl base g h hr
  convert hread using 3 with t p
  obtain ⟨o, ho, he⟩ := hend t p
  rw [hs] at ho
  subst ho
  have hnil : ahead cfg (logs t p) (pos t p) = [] := by
    unfold ahead
    rw [List.filter_eq_nil_iff]
    intro m hmem
    simp only [Bool.and_eq_true, decide_eq_true_eq, not_and]
    intro hle
    rw [he m hmem hle]
    simp
  have := window_rest cfg (hl t p) (hm t p)
  rw [rest_done cfg hnil, List.append_nil] at this
  exact this

/-! ### Concrete groups -/

/-- What the coordinator tells, checked. -/
def exTells (group : String → Int → Int) (s : GroupFirst Nat) : FirstGroupEv Nat → Bool
  | .offsets i r =>
    match s.starting.get? i with
    | some (.asking t parts _) => r.topics.all fun x =>
        x.2.all (fun q => decide (q.id ∈ parts ∧ (q.code = 0 → q.offset = group t q.id))) &&
        parts.all fun p => x.2.any fun q => decide (q.id = p)
    | _ => true
  | _ => true

theorem exTells_sound {group : String → Int → Int} {s : GroupFirst Nat} {ev : FirstGroupEv Nat}
    (h : exTells group s ev = true) : Tells group s ev := by
  cases ev with
  | offsets i r =>
    intro t parts b hi ps hr
    simp only [exTells, hi, hr, List.all_cons, List.all_nil, Bool.and_true, Bool.and_eq_true,
      List.all_eq_true, decide_eq_true_eq, List.any_eq_true] at h
    exact h
  | _ => trivial

theorem exUnshared {apart : Bool} {s : GroupFirst Nat} {ev : FirstGroupEv Nat}
    {out : FirstGroupOut Nat} (h : exFirstCheck apart s ev out = true) : Unshared ev := by
  cases ev with
  | group gev =>
    cases gev with
    | base bev =>
      cases bev with
      | other f => simp [exFirstCheck] at h
      | _ => trivial
    | _ => trivial
  | _ => trivial

/-- Something happens to a member. -/
def exFleetEv (gs : Nat → GCfg) (g : Fleet Nat) (i : Nat) (ev : FirstGroupEv Nat) : Fleet Nat :=
  ⟨fun j => if j = i then ((g.members i).step (gs i) exCCfg ev).2 else g.members j, g.group,
    g.returned ++ groupGiven ((g.members i).step (gs i) exCCfg ev).1⟩

def exFleetRun (gs : Nat → GCfg) : Fleet Nat → List (Nat × FirstGroupEv Nat) → Fleet Nat
  | g, [] => g
  | g, (i, ev) :: evs => exFleetRun gs (exFleetEv gs g i ev) evs

def exFleetCheck (gs : Nat → GCfg) : Fleet Nat → List (Nat × FirstGroupEv Nat) → Bool
  | _, [] => true
  | g, (i, ev) :: evs =>
    exFirstCheck true (g.members i) ev ((g.members i).step (gs i) exCCfg ev).1 &&
      exTells g.group (g.members i) ev && exFleetCheck gs (exFleetEv gs g i ev) evs

theorem exFleet {gs : Nat → GCfg} {may : Fleet Nat → Prop} {base : String → Int → Int}
    (evs : List (Nat × FirstGroupEv Nat)) : ∀ g : Fleet Nat,
      FleetRun gs exCCfg exPartLogs may base g → exFleetCheck gs g evs = true →
      FleetRun gs exCCfg exPartLogs may base (exFleetRun gs g evs) := by
  induction evs with
  | nil => exact fun g h _ => h
  | cons x evs ih =>
    intro g h hc
    simp only [exFleetCheck, Bool.and_eq_true] at hc
    obtain ⟨⟨h1, h2⟩, h3⟩ := hc
    obtain ⟨k1, k2, k3⟩ := exFirstCheck_sound h1
    exact ih _ (h.step (.event x.1 x.2 _ _ k1 (k2 rfl) k3 (exUnshared h1) (exTells_sound h2) rfl)) h3

theorem exFleet_other {gs : Nat → GCfg} (evs : List (Nat × FirstGroupEv Nat)) (i : Nat)
    (h : i ∉ evs.map (·.1)) : ∀ g : Fleet Nat, (exFleetRun gs g evs).members i = g.members i := by
  induction evs with
  | nil => exact fun g => rfl
  | cons x evs ih =>
    intro g
    simp only [List.map_cons, List.mem_cons, not_or] at h
    rw [exFleetRun, ih h.2]
    exact if_neg h.1

/-- A member with this share. -/
def exMember (a : Dict String (List Int)) : Grouped := { exGroupNew with ext := ⟨some 7, [], some a⟩ }

/-- One member has the partition of t, another that of u, the others nothing. -/
def exMembers2 (a b : Nat) : Nat → Grouped := fun i =>
  if i = a then exMember [("t", [0])] else if i = b then exMember [("u", [0])] else exMember []

theorem exMembers2_told (a b i : Nat) : NewlyTold (exMembers2 a b i) := by
  unfold exMembers2
  split
  · exact ⟨rfl, rfl, fun a h => by obtain rfl := Option.some.inj h; decide⟩
  · split
    · exact ⟨rfl, rfl, fun a h => by obtain rfl := Option.some.inj h; decide⟩
    · exact ⟨rfl, rfl, fun a h => by obtain rfl := Option.some.inj h; decide⟩

theorem exMembers2_apart (a b : Nat) : SharesApart (exMembers2 a b) := by
  have h : ∀ i t p, p ∈ shareOf (exMembers2 a b i) t → i = a ∧ t = "t" ∨ i = b ∧ t = "u" := by
    intro i t p hp
    unfold exMembers2 at hp
    split at hp
    · rename_i e
      refine .inl ⟨e, ?_⟩
      by_contra ht
      exact absurd hp (by simp [shareOf, exMember, Dict.get?, if_neg (Ne.symm ht)])
    · split at hp
      · rename_i e
        refine .inr ⟨e, ?_⟩
        by_contra ht
        exact absurd hp (by simp [shareOf, exMember, Dict.get?, if_neg (Ne.symm ht)])
      · simp [shareOf, exMember, Dict.get?] at hp
  intro i j t p hi hj
  rcases h i t p hi with ⟨e1, e2⟩ | ⟨e1, e2⟩ <;> rcases h j t p hj with ⟨e3, e4⟩ | ⟨e3, e4⟩
  · rw [e1, e3]
  · rw [e2] at e4; exact absurd e4 (by decide)
  · rw [e2] at e4; exact absurd e4 (by decide)
  · rw [e1, e3]

theorem exAtRest (s : GroupFirst Nat) : (s.starting.isEmpty && s.group.base.waiting.isEmpty &&
    s.group.commits.isEmpty) = true → AtRest s := by
  simp only [Bool.and_eq_true, List.isEmpty_iff]
  exact fun h => ⟨h.1.1, h.1.2, h.2⟩

/-- Members 0 and 1 consume t and u, with automatic commits, their calls overlapping. -/
def exFleetFirst : List (Nat × FirstGroupEv Nat) :=
  [(0, .call 0 "t"), (1, .call 0 "u"), (0, .offsets 0 (exGroupTold "t" 0)), (0, .goOn 0),
   (0, .group (.base (.outcome 0 7 (.ok (exPart 0 [(0, 5)]))))), (1, .offsets 0 (exGroupTold "u" 0)),
   (0, .group (.base (.finish 0))), (1, .goOn 0)]

/-- Then the offset of t is stored, and the calls come to their ends. -/
def exFleetThen : List (Nat × FirstGroupEv Nat) :=
  [(1, .group (.base (.outcome 0 7 (.ok ⟨[("u", [⟨0, 0, []⟩])]⟩)))),
   (0, .group (.answer 0 ⟨[("t", [(0, 0)])]⟩)), (0, .group (.goOn 0)),
   (1, .group (.base (.finish 0))), (1, .group (.answer 0 ⟨[("u", [(0, 0)])]⟩)), (1, .group (.goOn 0))]

/-- Then member 1 has got t. -/
def exFleetLast : List (Nat × FirstGroupEv Nat) :=
  [(1, .call 5 "t"), (1, .offsets 5 (exGroupTold "t" 1)), (1, .goOn 5),
   (1, .group (.base (.outcome 5 7 (.ok (exPart 0 [(3, 99), (4, 6)])))))]

def exFleetStored (g : Fleet Nat) (t : String) (p o : Int) : Fleet Nat :=
  ⟨g.members, fun t' p' => if t' = t ∧ p' = p then o else g.group t' p', g.returned⟩

def exFleet1 : Fleet Nat :=
  exFleetRun (fun _ => exAuto) ⟨resting (exMembers2 0 1), fun _ _ => 0, []⟩ exFleetFirst
def exFleet2 : Fleet Nat := exFleetRun (fun _ => exAuto) (exFleetStored exFleet1 "t" 0 1) exFleetThen
def exFleet3 : Fleet Nat := exFleetRun (fun _ => exAuto)
  ⟨resting (exMembers2 1 0), exFleet2.group, exFleet2.returned⟩ exFleetLast

theorem exFleet2_other (i : Nat) (h0 : i ≠ 0) (h1 : i ≠ 1) :
    exFleet2.members i = resting (exMembers2 0 1) i := by
  rw [exFleet2, exFleet_other _ i (by simp [exFleetThen, h0, h1]), exFleetStored, exFleet1,
    exFleet_other _ i (by simp [exFleetFirst, h0, h1])]

theorem exFleet2_rest (i : Nat) : AtRest (exFleet2.members i) := by
  by_cases h0 : i = 0
  · subst h0; exact exAtRest _ (by decide +kernel)
  · by_cases h1 : i = 1
    · subst h1; exact exAtRest _ (by decide +kernel)
    · rw [exFleet2_other i h0 h1]; exact ⟨rfl, rfl, rfl⟩

theorem exFleet2_committed : exFleet2.Committed := by
  intro i t p hp ht
  by_cases h0 : i = 0
  · subst h0
    rw [show (exFleet2.member 0).synced = ["t"] by decide +kernel, List.mem_singleton] at ht
    subst ht
    rw [show shareOf (exFleet2.member 0) "t" = [0] by decide +kernel, List.mem_singleton] at hp
    subst hp
    decide +kernel
  · by_cases h1 : i = 1
    · subst h1
      rw [show (exFleet2.member 1).synced = ["u"] by decide +kernel, List.mem_singleton] at ht
      subst ht
      rw [show shareOf (exFleet2.member 1) "u" = [0] by decide +kernel, List.mem_singleton] at hp
      subst hp
      decide +kernel
    · rw [Fleet.member, exFleet2_other i h0 h1] at ht
      simp [resting, exMembers2, h0, h1, exMember, exGroupNew] at ht

theorem exFleet3_run : FleetRun (fun _ => exAuto) exCCfg exPartLogs Fleet.Committed (fun _ _ => 0)
    exFleet3 := by
  have h1 : FleetRun (fun _ => exAuto) exCCfg exPartLogs Fleet.Committed (fun _ _ => 0) exFleet1 :=
    exFleet _ _ (.start _ (exMembers2_apart 0 1) (exMembers2_told 0 1)) (by decide +kernel)
  have h2 : FleetRun (fun _ => exAuto) exCCfg exPartLogs Fleet.Committed (fun _ _ => 0) exFleet2 :=
    exFleet _ _ (h1.step (.stored 0 0 ⟨some 7, "committed by x", [("t", [(0, 1)])]⟩ (some ("t", some [5]))
      "t" 0 1 (by decide +kernel) (by decide +kernel))) (by decide +kernel)
  exact exFleet _ _ (h2.step (.settle (exMembers2 1 0) exFleet2_rest exFleet2_committed
    (exMembers2_apart 1 0) (exMembers2_told 1 0))) (by decide +kernel)

-- Non-vacuity of `C112_exactly_once`: the history above; one message has been returned by member 0,
-- another is held by a `consume` of member 1, after a rebalance.
example : FleetRun (fun _ => exAuto) exCCfg exPartLogs Fleet.Committed (fun _ _ => 0) exFleet3 ∧
    exFleet3.returned = [("t", 5)] ∧ holds exCCfg (exFleet3.members 1) = [("t", 6)] ∧
    offsetOf (exFleet3.member 1).offsets "t" 0 = 5 :=
  ⟨exFleet3_run, by decide +kernel, by decide +kernel, by decide +kernel⟩

/-- That `consume` comes to its end. -/
def exFleet4 : Fleet Nat := exFleetRun (fun _ => exAuto) exFleet3
  [(1, .group (.base (.finish 5))), (1, .group (.answer 5 ⟨[("t", [(0, 0)])]⟩)), (1, .group (.goOn 5))]

theorem exFleet4_run : FleetRun (fun _ => exAuto) exCCfg exPartLogs Fleet.Committed (fun _ _ => 0)
    exFleet4 := exFleet _ _ exFleet3_run (by decide +kernel)

theorem exFleet4_rest (i : Nat) : AtRest (exFleet4.members i) := by
  by_cases h1 : i = 1
  · subst h1; exact exAtRest _ (by decide +kernel)
  · rw [exFleet4, exFleet_other _ i (by simp [h1]), exFleet3,
      exFleet_other _ i (by simp [exFleetLast, h1])]
    exact ⟨rfl, rfl, rfl⟩

-- Non-vacuity of `C112_returned` and `C112_all`: no call is under way, and all has been read.
example : FleetRun (fun _ => exAuto) exCCfg exPartLogs Fleet.Committed (fun _ _ => 0) exFleet4 ∧
    (∀ i, AtRest (exFleet4.members i)) ∧
    (∀ t p, ∃ o, exFleet4.Stands t p o ∧
      ∀ m ∈ exPartLogs t p, o ≤ m.1 → decode exCCfg m.2 = .none) ∧
    exFleet4.returned = [("t", 5), ("t", 6)] := by
  refine ⟨exFleet4_run, exFleet4_rest, fun t p => ?_, by decide +kernel⟩
  by_cases h : t = "t" ∧ p = 0
  · obtain ⟨rfl, rfl⟩ := h
    exact ⟨5, .inl ⟨1, by decide +kernel, by decide +kernel, by decide +kernel⟩, by decide +kernel⟩
  · obtain ⟨pos, hs, _⟩ := C112_returned _ _ _ exPartLogs_ok _ _ exFleet4_run exFleet4_rest
    exact ⟨pos t p, (hs t p _).2 rfl, fun m hm => by simp [exPartLogs, if_neg h] at hm⟩

/-- Member 0, with commits by the application, consumes t; while its `commit_offsets` is under way,
so is another `consume`, which comes to its end, and then the `commit_offsets` does. -/
def exForgotFirst : List (Nat × FirstGroupEv Nat) :=
  [(0, .call 0 "t"), (0, .offsets 0 (exGroupTold "t" 0)), (0, .goOn 0),
   (0, .group (.base (.outcome 0 7 (.ok (exPart 0 [(0, 5)]))))), (0, .group (.base (.finish 0))),
   (0, .group (.commit 1 ""))]

def exForgotThen : List (Nat × FirstGroupEv Nat) :=
  [(0, .call 2 "t"), (0, .group (.base (.outcome 2 7 (.ok (exPart 0 [(3, 99), (4, 6)]))))),
   (0, .group (.base (.finish 2))), (0, .group (.answer 1 ⟨[("t", [(0, 0)])]⟩)), (0, .group (.goOn 1))]

/-- After the rebalance, member 1 consumes t. -/
def exForgotLast : List (Nat × FirstGroupEv Nat) :=
  [(1, .call 0 "t"), (1, .offsets 0 (exGroupTold "t" 1)), (1, .goOn 0),
   (1, .group (.base (.outcome 0 7 (.ok (exPart 0 [(3, 99), (4, 6)]))))), (1, .group (.base (.finish 0)))]

def exForgot1 : Fleet Nat :=
  exFleetRun (fun _ => exManual) ⟨resting (exMembers2 0 1), fun _ _ => 0, []⟩ exForgotFirst
def exForgot2 : Fleet Nat := exFleetRun (fun _ => exManual) (exFleetStored exForgot1 "t" 0 1) exForgotThen
def exForgot3 : Fleet Nat := exFleetRun (fun _ => exManual)
  ⟨resting (exMembers2 1 0), exForgot2.group, exForgot2.returned⟩ exForgotLast

theorem exForgot2_other (i : Nat) (h0 : i ≠ 0) :
    exForgot2.members i = resting (exMembers2 0 1) i := by
  rw [exForgot2, exFleet_other _ i (by simp [exForgotThen, h0]), exFleetStored, exForgot1,
    exFleet_other _ i (by simp [exForgotFirst, h0])]

/-- That the coordinator has the offsets cannot be replaced by: no member has anything left to
commit. A `commit_offsets` that is answered forgets what was to be committed when it was answered,
not when it was called, hence also what a `consume` has returned meanwhile; after a rebalance the
message is returned again. -/
theorem C112_false_nothing_waits : ∃ g : Fleet Nat, FleetRun (fun _ => exManual) exCCfg exPartLogs
      (fun g => ∀ i, (g.member i).ext.toCommit = []) (fun _ _ => 0) g ∧
    (∀ i, AtRest (g.members i)) ∧ g.returned = [("t", 5), ("t", 6), ("t", 6)] ∧
    exPartLogs "t" 0 = [(0, 5), (3, 99), (4, 6)] := by
  refine ⟨exForgot3, ?_, fun i => ?_, by decide +kernel, by decide +kernel⟩
  · have h1 : FleetRun (fun _ => exManual) exCCfg exPartLogs
        (fun g => ∀ i, (g.member i).ext.toCommit = []) (fun _ _ => 0) exForgot1 :=
      exFleet _ _ (.start _ (exMembers2_apart 0 1) (exMembers2_told 0 1)) (by decide +kernel)
    have h2 : FleetRun (fun _ => exManual) exCCfg exPartLogs
        (fun g => ∀ i, (g.member i).ext.toCommit = []) (fun _ _ => 0) exForgot2 :=
      exFleet _ _ (h1.step (.stored 0 1 ⟨some 7, "", [("t", [(0, 1)])]⟩ none
        "t" 0 1 (by decide +kernel) (by decide +kernel))) (by decide +kernel)
    refine exFleet _ _ (h2.step (.settle (exMembers2 1 0) (fun i => ?_) (fun i => ?_)
      (exMembers2_apart 1 0) (exMembers2_told 1 0))) (by decide +kernel)
    · by_cases h0 : i = 0
      · subst h0; exact exAtRest _ (by decide +kernel)
      · rw [exForgot2_other i h0]; exact ⟨rfl, rfl, rfl⟩
    · by_cases h0 : i = 0
      · subst h0; decide +kernel
      · rw [Fleet.member, exForgot2_other i h0]
        simp only [resting, exMembers2, exMember]
        split
        · rfl
        · split <;> rfl
  · by_cases h0 : i = 1
    · subst h0; exact exAtRest _ (by decide +kernel)
    · rw [exForgot3, exFleet_other _ i (by simp [exForgotLast, h0])]
      exact ⟨rfl, rfl, rfl⟩

end Kiel
