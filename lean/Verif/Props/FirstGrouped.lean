import Verif.Spec.FirstGrouped
import Verif.Props.GroupOverlap
import Verif.Props.FirstConsumes
/-
C106: whole `consume`s of a grouped consumer that run at the same time, with its commits.
-/
set_option autoImplicit false
namespace Kiel
open Spec

variable {β δ : Type}

/-! ### Order within a topic -/

/-- What is of one topic. -/
def ofTopic (t : String) (l : List (String × δ)) : List (String × δ) :=
  l.filter fun x => decide (x.1 = t)

theorem ofTopic_append (t : String) (a b : List (String × δ)) :
    ofTopic t (a ++ b) = ofTopic t a ++ ofTopic t b := by simp [ofTopic]

theorem ofTopic_same (t : String) (vs : List δ) :
    ofTopic t (vs.map fun v => (t, v)) = vs.map fun v => (t, v) := by
  unfold ofTopic
  rw [List.filter_eq_self]
  intro x hx
  obtain ⟨v, _, rfl⟩ := List.mem_map.1 hx
  simp

theorem ofTopic_other {t t' : String} (h : t' ≠ t) (vs : List δ) :
    ofTopic t (vs.map fun v => (t', v)) = [] := by
  unfold ofTopic
  rw [List.filter_eq_nil_iff]
  intro x hx
  obtain ⟨v, _, rfl⟩ := List.mem_map.1 hx
  simpa using h

/-- Whether a list is an interleaving of the partitions depends on what is of each topic only. -/
theorem interleaving_topics {per : String → Int → List δ} {a b : List (String × δ)}
    (h : ∀ t, ofTopic t a = ofTopic t b) (hi : Interleaving per a) : Interleaving per b := by
  induction b generalizing per a with
  | nil =>
    cases a with
    | nil => exact hi
    | cons x a =>
      have := h x.1
      simp [ofTopic] at this
  | cons y b ih =>
    obtain ⟨t, v⟩ := y
    obtain ⟨src, h1, h2⟩ := hi
    have ht := h t
    have hy : ofTopic t ((t, v) :: b) = (t, v) :: ofTopic t b := by simp [ofTopic]
    rw [hy] at ht
    obtain ⟨pre, post, hab, hpre, hpost⟩ : ∃ pre post, a = pre ++ (t, v) :: post ∧
        (∀ x ∈ pre, x.1 ≠ t) ∧ ofTopic t post = ofTopic t b := by
      obtain ⟨pre, post, e1, e2, _, e4⟩ := List.filter_eq_cons_iff.1 ht
      refine ⟨pre, post, e1, fun x hx e => ?_, e4⟩
      exact absurd (decide_eq_true e) (by simpa using e2 x hx)
    rw [hab] at h1
    obtain ⟨s1, s2, e0, e1, e2⟩ := List.map_eq_append_iff.1 h1
    obtain ⟨z, s3, e3, e4, e5⟩ := List.map_eq_cons_iff.1 e2
    obtain ⟨⟨tz, p⟩, vz⟩ := z
    simp only [Prod.mk.injEq] at e4
    obtain ⟨rfl, rfl⟩ := e4
    have hs1 : ∀ x ∈ s1, x.1.1 ≠ tz := fun x hx => hpre (x.1.1, x.2) (by
      rw [← e1]; exact List.mem_map.2 ⟨x, hx, rfl⟩)
    have hnew : ∀ t' p', ((s1 ++ s3).filter fun x => decide (x.1 = (t', p'))).map (·.2) =
        if (t', p') = (tz, p) then (per t' p').tail else per t' p' := by
      intro t' p'
      rw [← h2 t' p', e0, e3]
      simp only [List.filter_append, List.map_append, List.filter_cons]
      split
      · rename_i e
        cases e
        have : s1.filter (fun x => decide (x.1 = (tz, p))) = [] := by
          rw [List.filter_eq_nil_iff]
          intro x hx
          simp only [decide_eq_true_eq]
          exact fun e => hs1 x hx (by rw [e])
        simp [this]
      · rename_i e
        rw [if_neg]
        simp only [decide_eq_true_eq]
        exact fun e' => e e'.symm
    have htopics : ∀ t', ofTopic t' (pre ++ post) = ofTopic t' b := by
      intro t'
      by_cases e : t' = tz
      · subst e
        rw [ofTopic_append, hpost]
        have : ofTopic t' pre = [] := by
          unfold ofTopic
          rw [List.filter_eq_nil_iff]
          intro x hx
          simpa using hpre x hx
        rw [this, List.nil_append]
      · have := h t'
        rw [hab] at this
        simpa [ofTopic, List.filter_cons, Ne.symm e] using this
    obtain ⟨src', k1, k2⟩ := ih (per := fun t' p' => if (t', p') = (tz, p) then (per t' p').tail
      else per t' p') htopics ⟨s1 ++ s3, by rw [List.map_append, e1, e5], hnew⟩
    refine ⟨((tz, p), vz) :: src', by rw [List.map_cons, k1], fun t' p' => ?_⟩
    rw [List.filter_cons]
    by_cases e : (t', p') = (tz, p)
    · cases e
      simp only [decide_true, if_true, List.map_cons, k2]
      have hz := h2 tz p
      rw [e0, e3, List.filter_append, List.map_append] at hz
      have : s1.filter (fun x => decide (x.1 = (tz, p))) = [] := by
        rw [List.filter_eq_nil_iff]
        intro x hx
        simp only [decide_eq_true_eq]
        exact fun e => hs1 x hx (by rw [e])
      rw [this] at hz
      rw [← hz]
      simp
    · rw [if_neg (by simp only [decide_eq_true_eq]; exact fun e' => e e'.symm), k2]
      exact if_neg e

/-! ### Who is under way -/

theorem Dict.split {κ ν : Type} [DecidableEq κ] {d : Dict κ ν} {k : κ} {v : ν} (hn : d.keys.Nodup)
    (h : d.get? k = some v) : ∃ pre post, d = pre ++ (k, v) :: post ∧ d.erase k = pre ++ post ∧
      ∀ v', d.set k v' = pre ++ (k, v') :: post := by
  induction d with
  | nil => cases h
  | cons x d ih =>
    obtain ⟨k', v0⟩ := x
    simp only [Dict.keys, List.map_cons, List.nodup_cons] at hn
    by_cases hk : k' = k
    · subst hk
      simp only [Dict.get?, if_true, Option.some.injEq] at h
      subst h
      refine ⟨[], d, rfl, ?_, fun v' => by simp [Dict.set]⟩
      have := Dict.erase_of_not_mem (d := d) (k := k') hn.1
      simpa [Dict.erase] using this
    · simp only [Dict.get?, if_neg hk] at h
      obtain ⟨pre, post, e1, e2, e3⟩ := ih hn.2 h
      refine ⟨(k', v0) :: pre, post, by rw [e1]; rfl, ?_, fun v' => ?_⟩
      · have : Dict.erase ((k', v0) :: d) k = (k', v0) :: Dict.erase d k := by
          simp [Dict.erase, hk]
        rw [this, e2]
        rfl
      · simp [Dict.set, hk, e3]

/-- The calls under way: numbers and topics. -/
def uses (s : GroupFirst δ) : List (Nat × Option String) :=
  (s.starting.map fun x => (x.1, some x.2.topic)) ++
    (s.group.base.waiting.map fun x => (x.1, some x.2.topic)) ++
    s.group.commits.map fun x => (x.1, x.2.result.map (·.1))

/-- They differ in number and in topic. -/
structure Differ (l : List (Nat × Option String)) : Prop where
  numbers : (l.map (·.1)).Nodup
  topics : (l.filterMap (·.2)).Nodup

theorem Differ.perm {l l' : List (Nat × Option String)} (h : Differ l) (hp : l.Perm l') :
    Differ l' :=
  ⟨(hp.map _).nodup_iff.1 h.numbers, (hp.filterMap _).nodup_iff.1 h.topics⟩

theorem Differ.sub {l l' : List (Nat × Option String)} (h : Differ l) (hs : l'.Sublist l) :
    Differ l' :=
  ⟨h.numbers.sublist (hs.map _), h.topics.sublist (hs.filterMap _)⟩

theorem Differ.starting {s : GroupFirst δ} (h : Differ (uses s)) : s.starting.keys.Nodup := by
  have := h.numbers
  simp only [uses, List.map_append, List.map_map] at this
  exact this.of_append_left.of_append_left

theorem Differ.commits {s : GroupFirst δ} (h : Differ (uses s)) : s.group.commits.keys.Nodup := by
  have := h.numbers
  simp only [uses, List.map_append, List.map_map] at this
  exact this.of_append_right

/-- The call that has number `i` and topic `t` (if it is a `consume`) is none of those of `s`. -/
structure Free (i : Nat) (t : Option String) (s : GroupFirst δ) : Prop where
  starting : i ∉ s.starting.keys
  waiting : i ∉ s.group.base.waiting.keys
  commits : i ∉ s.group.commits.keys
  starts : ∀ x ∈ s.starting, t ≠ some x.2.topic
  waits : ∀ x ∈ s.group.base.waiting, t ≠ some x.2.topic
  results : ∀ x ∈ s.group.commits, ∀ y, x.2.result = some y → t ≠ some y.1

theorem Differ.free {i : Nat} {t : Option String} {s : GroupFirst δ}
    (h : Differ ((i, t) :: uses s)) : Free i t s := by
  have h1 := h.numbers
  have h2 := h.topics
  rw [List.map_cons, List.nodup_cons] at h1
  have n1 := h1.1
  simp only [uses, List.map_append, List.mem_append, not_or, List.map_map] at n1
  have n2 : ∀ t', t = some t' → t' ∉ (uses s).filterMap (·.2) := by
    rintro t' rfl
    exact (List.nodup_cons.1 h2).1
  refine ⟨n1.1.1, n1.1.2, n1.2, fun x hx e => n2 _ e ?_, fun x hx e => n2 _ e ?_,
    fun x hx y hy e => n2 _ e ?_⟩
  · exact List.mem_filterMap.2 ⟨(x.1, some x.2.topic), List.mem_append_left _
      (List.mem_append_left _ (List.mem_map.2 ⟨x, hx, rfl⟩)), rfl⟩
  · exact List.mem_filterMap.2 ⟨(x.1, some x.2.topic), List.mem_append_left _
      (List.mem_append_right _ (List.mem_map.2 ⟨x, hx, rfl⟩)), rfl⟩
  · exact List.mem_filterMap.2 ⟨(x.1, x.2.result.map (·.1)), List.mem_append_right _
      (List.mem_map.2 ⟨x, hx, rfl⟩), by rw [hy]; rfl⟩

theorem Free.differ {i : Nat} {t : Option String} {s : GroupFirst δ} (hf : Free i t s)
    (h : Differ (uses s)) : Differ ((i, t) :: uses s) := by
  refine ⟨?_, ?_⟩
  · rw [List.map_cons, List.nodup_cons]
    refine ⟨?_, h.numbers⟩
    simp only [uses, List.map_append, List.mem_append, not_or, List.map_map]
    exact ⟨⟨hf.starting, hf.waiting⟩, hf.commits⟩
  · cases t with
    | none => exact h.topics
    | some t =>
      refine List.nodup_cons.2 ⟨?_, h.topics⟩
      simp only [uses, List.filterMap_append, List.mem_append, not_or, List.mem_filterMap,
        List.mem_map, not_exists, not_and]
      refine ⟨⟨?_, ?_⟩, ?_⟩
      · rintro _ ⟨x, hx, rfl⟩ e
        exact hf.starts x hx e.symm
      · rintro _ ⟨x, hx, rfl⟩ e
        exact hf.waits x hx e.symm
      · rintro _ ⟨x, hx, rfl⟩ e
        obtain ⟨y, hy, e⟩ := Option.map_eq_some_iff.1 e
        exact hf.results x hx y hy (by rw [e])

theorem Dict.set_perm {κ ν : Type} [DecidableEq κ] {d : Dict κ ν} (hn : d.keys.Nodup) (k : κ)
    (v : ν) : (d.set k v).Perm ((k, v) :: d.erase k) := by
  cases h : d.get? k with
  | none =>
    have hk := Dict.get?_eq_none.1 h
    rw [Dict.set_of_not_mem hk, Dict.erase_of_not_mem hk]
    exact List.perm_append_comm
  | some v0 =>
    obtain ⟨pre, post, _, e2, e3⟩ := Dict.split hn h
    rw [e3, e2]
    exact List.perm_middle

theorem uses_start {g : GroupBusy δ} {st : Dict Nat GroupPhase} (hn : st.keys.Nodup) (i : Nat)
    (ph : GroupPhase) : (uses ⟨g, st.set i ph⟩).Perm ((i, some ph.topic) :: uses ⟨g, st.erase i⟩) := by
  unfold uses
  rw [← List.cons_append, ← List.cons_append]
  exact (((Dict.set_perm hn i ph).map _).append_right _).append_right _

theorem uses_wait {c : Grouped} {w : Dict Nat (Waiting δ)} {cs : Dict Nat (Committing δ)}
    {st : Dict Nat GroupPhase} (hn : w.keys.Nodup) (i : Nat) (x : Waiting δ) :
    (uses ⟨⟨⟨c, w.set i x⟩, cs⟩, st⟩).Perm
      ((i, some x.topic) :: uses ⟨⟨⟨c, w.erase i⟩, cs⟩, st⟩) := by
  unfold uses
  rw [← List.cons_append]
  refine List.Perm.append_right _ ?_
  exact (((Dict.set_perm hn i x).map _).append_left _).trans List.perm_middle

theorem uses_commit {b : Busy GExt δ} {cs : Dict Nat (Committing δ)}
    {st : Dict Nat GroupPhase} (hn : cs.keys.Nodup) (i : Nat) (x : Committing δ) :
    (uses ⟨⟨b, cs.set i x⟩, st⟩).Perm
      ((i, x.result.map (·.1)) :: uses ⟨⟨b, cs.erase i⟩, st⟩) := by
  unfold uses
  exact (((Dict.set_perm hn i x).map _).append_left _).trans List.perm_middle

theorem set_same {κ ν : Type} [DecidableEq κ] {d : Dict κ ν} {k : κ} {v : ν}
    (hn : d.keys.Nodup) (h : d.get? k = some v) : d.set k v = d := by
  obtain ⟨pre, post, e1, _, e3⟩ := Dict.split hn h
  rw [e3]; exact e1.symm

/-- A `consume` that is starting, and the others. -/
theorem uses_starting {s : GroupFirst δ} {i : Nat} {ph : GroupPhase} (h : Differ (uses s))
    (hi : s.starting.get? i = some ph) :
    Differ ((i, some ph.topic) :: uses ⟨s.group, s.starting.erase i⟩) := by
  have := uses_start (g := s.group) h.starting i ph
  rw [set_same h.starting hi] at this
  exact h.perm this

theorem uses_committing {s : GroupFirst δ} {i : Nat} {x : Committing δ} (h : Differ (uses s))
    (hi : s.group.commits.get? i = some x) :
    Differ ((i, x.result.map (·.1)) ::
      uses ⟨⟨s.group.base, s.group.commits.erase i⟩, s.starting⟩) := by
  have := uses_commit (b := s.group.base) (st := s.starting) h.commits i x
  rw [set_same h.commits hi] at this
  exact h.perm this

theorem uses_waiting {s : GroupFirst δ} {i : Nat} {x : Waiting δ} (h : Differ (uses s))
    (hi : s.group.base.waiting.get? i = some x) (hn : s.group.base.waiting.keys.Nodup) :
    Differ ((i, some x.topic) ::
      uses ⟨⟨⟨s.group.base.consumer, s.group.base.waiting.erase i⟩, s.group.commits⟩, s.starting⟩) := by
  have := uses_wait (c := s.group.base.consumer) (cs := s.group.commits) (st := s.starting) hn i x
  rw [set_same hn hi] at this
  exact h.perm this

/-! ### The invariant -/

/-- What a commit will have its `consume` return. -/
def heldBy (r : Option (String × Option (List δ))) : List (String × δ) :=
  match r with
  | some (topic, some out) => out.map fun v => (topic, v)
  | _ => []

theorem givenBy_returned (t : String) (o : Option (List δ)) :
    givenBy (.returned t o) = heldBy (some (t, o)) := by cases o <;> rfl

theorem committing_eq (g : GroupBusy δ) :
    committing g = g.commits.flatMap fun x => heldBy x.2.result := rfl

theorem heldBy_topic (t : String) (r : Option (String × Option (List δ)))
    (h : ∀ y, r = some y → y.1 ≠ t) : ofTopic t (heldBy r) = [] := by
  unfold heldBy
  split
  · exact ofTopic_other (h _ rfl) _
  · rfl

theorem held_topic (t : String) (l : List (Nat × Committing δ))
    (h : ∀ x ∈ l, ∀ y, x.2.result = some y → y.1 ≠ t) :
    ofTopic t (l.flatMap fun x => heldBy x.2.result) = [] := by
  induction l with
  | nil => rfl
  | cons x l ih =>
    rw [List.flatMap_cons, ofTopic_append, heldBy_topic t _ (h x (List.mem_cons_self ..)),
      ih fun y hy => h y (List.mem_cons_of_mem _ hy)]
    rfl

/-- One more commit, the `consume` of which is of another topic than the others. -/
theorem committing_set {b b' : Busy GExt δ} {cs : Dict Nat (Committing δ)} {k : Nat}
    {x : Committing δ} (hn : cs.keys.Nodup)
    (h : ∀ y ∈ cs.erase k, ∀ z, y.2.result = some z → x.result.map (·.1) ≠ some z.1) (t : String) :
    ofTopic t (committing ⟨b, cs.set k x⟩) =
      ofTopic t (committing ⟨b', cs.erase k⟩ ++ heldBy x.result) := by
  simp only [committing_eq]
  obtain ⟨pre, post, e2, e3⟩ : ∃ pre post, cs.erase k = pre ++ post ∧
      cs.set k x = pre ++ (k, x) :: post := by
    cases hk : cs.get? k with
    | none =>
      have hk := Dict.get?_eq_none.1 hk
      exact ⟨cs, [], by rw [Dict.erase_of_not_mem hk, List.append_nil],
        by rw [Dict.set_of_not_mem hk]⟩
    | some v =>
      obtain ⟨pre, post, _, e2, e3⟩ := Dict.split hn hk
      exact ⟨pre, post, e2, e3 x⟩
  rw [e2] at h
  rw [e2, e3]
  simp only [List.flatMap_append, List.flatMap_cons, ofTopic_append, List.append_assoc]
  congr 1
  by_cases ht : x.result.map (·.1) = some t
  · rw [held_topic t post fun y hy z hz e => h y (List.mem_append_right _ hy) z hz (by rw [ht, e]),
      List.append_nil, List.nil_append]
  · rw [heldBy_topic t x.result fun y hy e => ht (by rw [hy]; exact congrArg some e),
      List.nil_append, List.append_nil]

/-- The invariant: what is known about the messages, `extra` being held by a call that is on its
way from waiting for messages to committing, or from committing to its end; numbers and topics of
calls under way differ; a topic is known to have offsets exactly if its `consume` is past
determining them; and nothing has been consumed of those that are not. -/
structure GroupExact (X : (String → Int → Int) → Busy GExt δ → List (String × δ) → Prop)
    (o : String → Int → Int) (s : GroupFirst δ) (outs extra : List (String × δ)) : Prop where
  base : ∃ bouts, X o s.group.base bouts ∧
    ∀ t, ofTopic t bouts = ofTopic t (outs ++ (committing s.group ++ extra))
  differ : Differ (uses s)
  waits : ∀ w ∈ s.group.base.waiting, w.2.topic ∈ s.group.base.consumer.synced
  asks : ∀ x ∈ s.starting, (∀ t, x.2 ≠ .healing t) → x.2.topic ∉ s.group.base.consumer.synced
  heals : ∀ i t, (i, GroupPhase.healing t) ∈ s.starting → t ∈ s.group.base.consumer.synced
  fresh : ∀ t, t ∉ s.group.base.consumer.synced →
    ∀ p, o t p = offsetOf s.group.base.consumer.offsets t p

variable {gcfg : GCfg} {cfg : CCfg β δ} {logs : String → Int → List (Int × β)}
  {o : String → Int → Int} {outs extra : List (String × δ)}
  {batch : List (Int × β) → Int → List (Int × β) → Prop}
  {X : (String → Int → Int) → Busy GExt δ → List (String × δ) → Prop}

theorem GroupExact.erase {s : GroupFirst δ} (h : GroupExact X o s outs extra) (i : Nat) :
    GroupExact X o ⟨s.group, s.starting.erase i⟩ outs extra := by
  have hm : ∀ x ∈ s.starting.erase i, x ∈ s.starting := fun x hx => (Dict.mem_erase.1 hx).1
  refine ⟨h.base, h.differ.sub ?_, h.waits, fun x hx => h.asks x (hm x hx),
    fun j t hx => h.heals j t (hm _ hx), h.fresh⟩
  unfold uses
  exact ((List.filter_sublist.map _).append_right _).append_right _

/-- The consumer changes, but neither offsets nor what is known about them. -/
theorem GroupExact.same (hX : Account batch cfg logs X) {s : GroupFirst δ} (h : GroupExact X o s outs extra) {c : Grouped}
    (ho : ∀ t p, offsetOf c.offsets t p = offsetOf s.group.base.consumer.offsets t p)
    (hs : ∀ t, t ∈ c.synced ↔ t ∈ s.group.base.consumer.synced) :
    GroupExact X o ⟨⟨⟨c, s.group.base.waiting⟩, s.group.commits⟩, s.starting⟩ outs extra := by
  obtain ⟨bouts, hb, hr⟩ := h.base
  exact ⟨⟨bouts, hX.same hb rfl ho, hr⟩, h.differ, fun w hw => (hs _).2 (h.waits w hw),
    fun x hx hh hc => h.asks x hx hh ((hs _).1 hc), fun j t hx => (hs _).2 (h.heals j t hx),
    fun t ht p => (h.fresh t (fun hc => ht ((hs _).2 hc)) p).trans (ho t p).symm⟩

/-- A `consume` enters a phase before it fetches. -/
theorem GroupExact.start {g : GroupBusy δ} {st : Dict Nat GroupPhase} {i : Nat} {ph : GroupPhase}
    (hk : st.keys.Nodup) (h : GroupExact X o ⟨g, st.erase i⟩ outs extra)
    (hd : Differ ((i, some ph.topic) :: uses ⟨g, st.erase i⟩))
    (h1 : (∀ t, ph ≠ .healing t) → ph.topic ∉ g.base.consumer.synced)
    (h2 : ∀ t, ph = .healing t → t ∈ g.base.consumer.synced) :
    GroupExact X o ⟨g, st.set i ph⟩ outs extra := by
  have hm : ∀ x ∈ st.set i ph, x = (i, ph) ∨ x ∈ st.erase i := fun x hx =>
    (mem_of_set hk hx).imp id Dict.mem_erase.2
  refine ⟨h.base, hd.perm (uses_start hk i ph).symm, h.waits, ?_, ?_, h.fresh⟩
  · intro x hx
    rcases hm x hx with rfl | hx
    · exact h1
    · exact h.asks x hx
  · intro j t hx
    rcases hm _ hx with hx | hx
    · exact h2 t (Prod.mk.inj hx).2.symm
    · exact h.heals j t hx

/-- Messages are asked for. -/
theorem group_fetch (hX : Account batch cfg logs X) {s s' : GroupFirst δ} {i : Nat} {topic : String} {parts : List Int}
    {out : FirstGroupOut δ} (h : GroupExact X o ⟨s.group, s.starting.erase i⟩ outs [])
    (hd : Differ ((i, some topic) :: uses ⟨s.group, s.starting.erase i⟩))
    (hy : topic ∈ s.group.base.consumer.synced)
    (hs : s.fetch cfg i topic parts = (out, s')) :
    GroupExact X o s' (outs ++ groupGiven out) [] := by
  unfold GroupFirst.fetch at hs
  cases hf : s.group.base.consumer.fetches cfg topic parts with
  | mk res c =>
    obtain ⟨_, f2, f3, _, _, _, f7, _⟩ := fetches_spec cfg topic parts _ _ _ hf
    have hsame := h.same hX (c := c) f2 (by intro t; rw [f3])
    rw [hf] at hs
    cases res with
    | error e =>
      cases hs
      simpa [groupGiven, givenBy] using hsame
    | ok reqs =>
      dsimp only at hs
      split at hs
      · cases hs
        simpa [groupGiven, givenBy] using hsame
      · cases hs
        have hfe := f7 _ rfl
        have hfr := hd.free
        have hset := Dict.set_of_not_mem (v := (⟨topic, reqs, []⟩ : Waiting δ)) hfr.waiting
        obtain ⟨bouts, hb, hr⟩ := h.base
        have hsound : SoundBusy (⟨c, s.group.base.waiting.set i ⟨topic, reqs, []⟩⟩ : Busy GExt δ) := by
          refine ⟨Dict.nodup_set (hX.sound hb).nodup _ _, ?_⟩
          intro x hx
          rcases mem_of_set (hX.sound hb).nodup hx with rfl | ⟨hx, _⟩
          · exact soundWait_fetches hfe
          · exact (hX.sound hb).each x hx
        have hex := hX.begins (outs' := []) hb hsound
          (fun x hx e => hfr.waits x hx (by rw [e])) rfl hfe hset f2
        rw [List.append_nil] at hex
        refine ⟨⟨bouts, hex, ?_⟩, ?_, ?_, hsame.asks, hsame.heals, hsame.fresh⟩
        · intro t
          have e : outs ++ groupGiven (.group (.sent reqs) : FirstGroupOut δ) = outs :=
            List.append_nil _
          have := hr t
          rw [← e] at this
          exact this
        · refine Differ.perm ?_ (uses_wait (hX.sound hb).nodup i _).symm
          rw [Dict.erase_of_not_mem hfr.waiting]
          exact hd
        · intro w hw'
          rcases mem_of_set (hX.sound hb).nodup hw' with rfl | hw'
          · show topic ∈ c.synced
            rw [f3]; exact hy
          · exact hsame.waits w hw'.1

theorem group_proceed (hX : Account batch cfg logs X) {s s' : GroupFirst δ} {i : Nat} {topic : String}
    {out : FirstGroupOut δ} (hk : s.starting.keys.Nodup)
    (h : GroupExact X o ⟨s.group, s.starting.erase i⟩ outs [])
    (hd : Differ ((i, some topic) :: uses ⟨s.group, s.starting.erase i⟩))
    (hy : topic ∈ s.group.base.consumer.synced)
    (hs : s.proceed cfg i topic = (out, s')) :
    GroupExact X o s' (outs ++ groupGiven out) [] := by
  unfold GroupFirst.proceed at hs
  split at hs
  · cases hs
    simpa [groupGiven, givenBy] using h
  · split at hs
    · exact group_fetch hX h hd hy hs
    · cases hs
      rw [show groupGiven (FirstGroupOut.healing : FirstGroupOut δ) = [] from rfl, List.append_nil]
      refine h.start hk hd (fun hn => absurd rfl (hn topic)) ?_
      intro t e; cases e; exact hy

theorem group_want {s s' : GroupFirst δ} {i : Nat} {topic : String} {parts : List Int}
    {out : FirstGroupOut δ} (hk : s.starting.keys.Nodup)
    (h : GroupExact X o ⟨s.group, s.starting.erase i⟩ outs [])
    (hd : Differ ((i, some topic) :: uses ⟨s.group, s.starting.erase i⟩))
    (hy : topic ∉ s.group.base.consumer.synced)
    (hs : s.want cfg i topic parts = (out, s')) :
    GroupExact X o s' (outs ++ groupGiven out) [] := by
  unfold GroupFirst.want at hs
  split at hs
  · cases hs
    simpa [groupGiven, givenBy] using h
  · split at hs
    · cases hs
      simpa [groupGiven, givenBy] using h
    · rename_i b _ _
      split at hs
      · cases hs
        simpa [groupGiven, givenBy] using h
      cases hs
      rw [show groupGiven (FirstGroupOut.wanted b topic parts : FirstGroupOut δ) = [] from rfl,
        List.append_nil]
      exact h.start hk hd (fun _ => hy) (fun t e => by cases e)

theorem group_determine (hX : Account batch cfg logs X) {s s' : GroupFirst δ} {i : Nat} {topic : String}
    {out : FirstGroupOut δ} (hk : s.starting.keys.Nodup)
    (h : GroupExact X o ⟨s.group, s.starting.erase i⟩ outs [])
    (hd : Differ ((i, some topic) :: uses ⟨s.group, s.starting.erase i⟩))
    (hy : topic ∉ s.group.base.consumer.synced)
    (hs : s.determine cfg i topic = (out, s')) :
    GroupExact X o s' (outs ++ groupGiven out) [] := by
  unfold GroupFirst.determine at hs
  dsimp only at hs
  split at hs
  · cases hs
    simpa [groupGiven, givenBy] using h
  · rename_i a _
    split at hs
    · cases hs
      simpa [groupGiven, givenBy] using h
    have hsame := h.same hX (c := { s.group.base.consumer with ext := { s.group.base.consumer.ext with mapping := some (Dict.getDefault a topic []).1 } })
      (fun _ _ => rfl) fun _ => Iff.rfl
    exact group_want (s := ⟨⟨⟨{ s.group.base.consumer with ext := { s.group.base.consumer.ext with mapping := some (Dict.getDefault a topic []).1 } }, s.group.base.waiting⟩, s.group.commits⟩, s.starting⟩)
      hk hsame hd hy hs

/-- A request to commit is made, or cannot be made. -/
theorem group_ask (hX : Account batch cfg logs X) {g g' : GroupBusy δ} {st : Dict Nat GroupPhase} {k : Nat} {md : String}
    {result : Option (String × Option (List δ))} {out : GroupOut δ} (hk : g.commits.keys.Nodup)
    (h : GroupExact X o ⟨⟨g.base, g.commits.erase k⟩, st⟩ outs (heldBy result))
    (hd : Differ ((k, result.map (·.1)) :: uses ⟨⟨g.base, g.commits.erase k⟩, st⟩))
    (hs : g.ask cfg k md result = (out, g'))
    (hno : ∀ e, out = .raised e → heldBy result = []) :
    GroupExact X o ⟨g', st⟩ (outs ++ givenBy out) [] := by
  obtain ⟨hsb, _, hc⟩ := ask_spec hs
  have hsame := h.same hX (c := g'.base.consumer) hsb.offsets (by intro t; rw [hsb.synced])
  have hg' : ∀ cs, (⟨⟨g'.base.consumer, g.base.waiting⟩, cs⟩ : GroupBusy δ) = ⟨g'.base, cs⟩ := by
    intro cs
    rw [← hsb.waiting]
  rw [hg'] at hsame
  rcases hc with ⟨⟨e, rfl⟩, hcs⟩ | ⟨a, b, _, rfl, hcs⟩
  · rw [hno _ rfl] at hsame
    rw [show givenBy (.raised e : GroupOut δ) = [] from rfl, List.append_nil]
    rw [← hcs] at hsame
    exact hsame
  · obtain ⟨b', cs'⟩ := g'
    simp only at hcs hsame
    subst hcs
    obtain ⟨bouts, hb, hr⟩ := hsame.base
    refine ⟨⟨bouts, hb, ?_⟩, ?_, hsame.waits, hsame.asks, hsame.heals, hsame.fresh⟩
    · intro t
      have hset := committing_set (b := b') (b' := b') (x := ⟨.asking ⟨some b, md, commitOf g.base.consumer.ext.toCommit a g.base.consumer.offsets⟩, result⟩)
        hk hd.free.results t
      rw [hr t, ofTopic_append, ← hset]
      simp [givenBy, ofTopic_append]
    · refine Differ.perm ?_ (uses_commit hk k _).symm
      have : uses (⟨⟨b', g.commits.erase k⟩, st⟩ : GroupFirst δ) =
          uses ⟨⟨g.base, g.commits.erase k⟩, st⟩ := by
        unfold uses
        rw [show b'.waiting = g.base.waiting from hsb.waiting]
      rw [this]
      exact hd

/-- The end of a `consume`, after that of the base class. -/
theorem group_finish (hX : Account batch cfg logs X) {g g' : GroupBusy δ} {st : Dict Nat GroupPhase} {i : Nat} {topic : String}
    {res : Option (List δ)} {out : GroupOut δ}
    (h : GroupExact X o ⟨g, st⟩ outs (heldBy (some (topic, res))))
    (hd : Differ ((i, some topic) :: uses ⟨g, st⟩))
    (hy : heldBy (some (topic, res)) = [] ∨ topic ∈ g.base.consumer.synced)
    (hs : g.finish gcfg cfg i topic res = (out, g'))
    (hno : ∀ e, out = .raised e → heldBy (some (topic, res)) = []) :
    GroupExact X o ⟨g', st⟩ (outs ++ givenBy out) [] := by
  unfold GroupBusy.finish at hs
  split at hs
  · rename_i hn
    cases hs
    rw [hy.resolve_right hn] at h
    simpa [givenBy] using h
  · dsimp only at hs
    have hsame := h.same hX (c := { g.base.consumer with ext := { g.base.consumer.ext with
      toCommit := addSet g.base.consumer.ext.toCommit topic } }) (fun _ _ => rfl) fun _ => Iff.rfl
    have hfr := hd.free
    split at hs
    · refine group_ask hX (g := ⟨⟨{ g.base.consumer with ext := { g.base.consumer.ext with
        toCommit := addSet g.base.consumer.ext.toCommit topic } }, g.base.waiting⟩, g.commits⟩)
        h.differ.commits ?_ ?_ hs hno
      · rw [Dict.erase_of_not_mem hfr.commits]
        exact hsame
      · rw [Dict.erase_of_not_mem hfr.commits]
        exact hd
    · cases hs
      obtain ⟨bouts, hb, hr⟩ := hsame.base
      refine ⟨⟨bouts, hb, ?_⟩, hsame.differ, hsame.waits, hsame.asks, hsame.heals, hsame.fresh⟩
      intro t
      rw [hr t, givenBy_returned]
      simp only [ofTopic_append, List.append_nil, List.append_assoc]
      congr 1
      by_cases ht : t = topic
      · rw [committing_eq, held_topic t _ fun x hx y hy e => hfr.results x hx y hy (by
          rw [e, ht])]
        simp
      · rw [heldBy_topic t _ fun y hy e => ht (by cases hy; exact e.symm)]
        simp

/-- What happens to `consume`s that wait for messages leaves them waiting, or one of them is done. -/
theorem busy_topics {ε : Type} {allocation : Consumer ε → Res (Dict String (List Int))}
    {b b' : Busy ε δ} {ev : BEv ε β} {out : BOut δ} (hn : b.waiting.keys.Nodup)
    (h : b.step allocation cfg ev = (out, b')) (hno : ∀ e, out ≠ .raised e)
    (hc : ∀ i t, ev ≠ .consume i t) :
    (b'.waiting.map (fun x => (x.1, some x.2.topic)) = b.waiting.map (fun x => (x.1, some x.2.topic)) ∧
      out = .nothing) ∨
    ∃ i w, ev = .finish i ∧ b.waiting.get? i = some w ∧ b'.waiting = b.waiting.erase i ∧
      out = .returned w.topic (some (w.results.vals.flatten.filter cfg.truthy)) := by
  have hset : ∀ i w w', b.waiting.get? i = some w → w'.topic = w.topic →
      (b.waiting.set i w').map (fun x => (x.1, some x.2.topic)) =
        b.waiting.map fun x => (x.1, some x.2.topic) := by
    intro i w w' hi ht
    obtain ⟨pre, post, e1, _, e3⟩ := Dict.split hn hi
    rw [e3, e1]
    simp [ht]
  cases ev with
  | consume i t => exact absurd rfl (hc i t)
  | outcome i broker r =>
    simp only [Busy.step] at h
    split at h
    · cases h; exact .inl ⟨rfl, rfl⟩
    · rename_i w hw
      split at h
      · cases h; exact .inl ⟨rfl, rfl⟩
      · split at h
        · cases h; exact .inl ⟨hset i w _ hw rfl, rfl⟩
        · split at h
          · cases h; exact absurd rfl (hno _)
          · cases h; exact .inl ⟨hset i w _ hw rfl, rfl⟩
  | finish i =>
    simp only [Busy.step] at h
    split at h
    · cases h; exact .inl ⟨rfl, rfl⟩
    · rename_i w hw
      split at h
      · cases h; exact .inl ⟨rfl, rfl⟩
      · cases h; exact .inr ⟨i, w, rfl, hw, rfl, rfl⟩
  | healFails i e =>
    simp only [Busy.step] at h
    split at h
    · cases h; exact .inl ⟨rfl, rfl⟩
    · cases h; exact absurd rfl (hno _)
  | other f =>
    simp only [Busy.step] at h
    cases h; exact .inl ⟨rfl, rfl⟩

/-- An event of the base class's `consume`s. -/
theorem group_base (hX : Account batch cfg logs X) {s : GroupFirst δ} {ev : BEv GExt β}
    {out : GroupOut δ} {g' : GroupBusy δ} (h : GroupExact X o s outs [])
    (hc : ∀ i t, ev ≠ .consume i t) (hf : FairGroup batch logs s (.group (.base ev)))
    (hs : s.group.step gcfg cfg (.base ev) = (out, g')) (hno : ∀ e, out ≠ .raised e) :
    GroupExact X o ⟨g', s.starting⟩ (outs ++ givenBy out) [] := by
  have hoff : ∀ f, ev = .other f → ∀ c, (f c).offsets = c.offsets ∧ (f c).synced = c.synced := by
    rintro f rfl; exact hf
  have hfair : Fair batch logs s.group.base ev := by
    cases ev with
    | other f => exact fun c => (hf c).1
    | consume i t => exact absurd rfl (hc i t)
    | outcome i broker r => exact hf
    | finish i => exact hf
    | healFails i e => exact hf
  have hap : Apart s.group.base ev := by
    cases ev with
    | consume i t => exact absurd rfl (hc i t)
    | _ => trivial
  obtain ⟨bouts, hb, hr⟩ := h.base
  cases hbs : s.group.base.step Grouped.allocation cfg ev with
  | mk bout b =>
    have hnob : ∀ e, bout ≠ .raised e := by
      rintro e rfl
      simp only [GroupBusy.step, hbs] at hs
      cases hs
      exact hno e rfl
    have hex := hX.step hb hfair hap hbs hnob
    obtain ⟨w1, w2, w3⟩ := waiting_step (hX.sound hb) hbs hnob hc hfair hoff
    have hwaits : ∀ w ∈ b.waiting, w.2.topic ∈ b.consumer.synced := by
      intro w hw
      obtain ⟨y, hy, _, e⟩ := w1 w hw
      rw [← e]
      exact (w2 _).2 (h.waits y hy)
    have hfresh : ∀ t, t ∉ b.consumer.synced → ∀ p, o t p = offsetOf b.consumer.offsets t p := by
      intro t ht p
      have ht' : t ∉ s.group.base.consumer.synced := fun hc => ht ((w2 _).2 hc)
      rw [h.fresh t ht' p]
      refine (w3 t (fun x hx e => ht' ?_) p).symm
      rw [← e]
      exact h.waits x hx
    have hasks : ∀ x ∈ s.starting, (∀ t, x.2 ≠ .healing t) → x.2.topic ∉ b.consumer.synced :=
      fun x hx hh hc => h.asks x hx hh ((w2 _).1 hc)
    have hheals : ∀ i t, (i, GroupPhase.healing t) ∈ s.starting → t ∈ b.consumer.synced :=
      fun i t hx => (w2 _).2 (h.heals i t hx)
    rcases busy_topics (hX.sound hb).nodup hbs hnob hc with ⟨e1, rfl⟩ | ⟨i, w, rfl, hw, e1, rfl⟩
    · simp only [GroupBusy.step, hbs] at hs
      cases hs
      refine ⟨⟨bouts, by simpa [returnedBy] using hex, fun t => ?_⟩, ?_, hwaits, hasks, hheals, hfresh⟩
      · have e : outs ++ givenBy (.nothing : GroupOut δ) = outs := List.append_nil _
        rw [e]
        exact hr t
      · have : uses (⟨⟨b, s.group.commits⟩, s.starting⟩ : GroupFirst δ) = uses s := by
          unfold uses
          rw [show (⟨⟨b, s.group.commits⟩, s.starting⟩ : GroupFirst δ).group.base.waiting = b.waiting
            from rfl, e1]
        show Differ (uses (⟨⟨b, s.group.commits⟩, s.starting⟩ : GroupFirst δ))
        rw [this]
        exact h.differ
    · have hd := uses_waiting h.differ hw (hX.sound hb).nodup
      have huse : uses (⟨⟨b, s.group.commits⟩, s.starting⟩ : GroupFirst δ) =
          uses ⟨⟨⟨s.group.base.consumer, s.group.base.waiting.erase i⟩, s.group.commits⟩, s.starting⟩ := by
        unfold uses
        rw [show (⟨⟨b, s.group.commits⟩, s.starting⟩ : GroupFirst δ).group.base.waiting = b.waiting
            from rfl, e1]
      rw [← huse] at hd
      simp only [GroupBusy.step, hbs] at hs
      refine group_finish hX ?_ hd (.inr ?_) hs fun e he => absurd he (hno e)
      · refine ⟨⟨_, hex, fun t => ?_⟩, hd.sub (List.sublist_cons_self ..), hwaits, hasks, hheals,
          hfresh⟩
        rw [ofTopic_append, hr t]
        simp [ofTopic_append, returnedBy, heldBy, committing]
      · exact (w2 _).2 (h.waits _ (Dict.mem_of_get? hw))

theorem heldBy_none : heldBy (.none : Option (String × Option (List δ))) = [] := rfl

/-- A commit is over, and so is the `consume` that called it, if any. -/
theorem group_over {s : GroupFirst δ} {k : Nat} {x : Committing δ}
    (h : GroupExact X o s outs []) (hk : s.group.commits.get? k = some x) :
    GroupExact X o ⟨⟨s.group.base, s.group.commits.erase k⟩, s.starting⟩ outs
      (heldBy x.result) := by
  obtain ⟨bouts, hb, hr⟩ := h.base
  have hd := uses_committing h.differ hk
  refine ⟨⟨bouts, hb, fun t => ?_⟩, hd.sub (List.sublist_cons_self ..), h.waits, h.asks, h.heals,
    h.fresh⟩
  rw [hr t, List.append_nil, ofTopic_append t outs, ofTopic_append t outs]
  congr 1
  have := committing_set (b := s.group.base) (b' := s.group.base) (k := k) (x := x)
    h.differ.commits hd.free.results t
  rw [set_same h.differ.commits hk] at this
  exact this

/-- A commit goes on. -/
theorem group_again {s : GroupFirst δ} {k : Nat} {x : Committing δ} {ph : CommitPhase}
    (h : GroupExact X o s outs []) (hk : s.group.commits.get? k = some x) :
    GroupExact X o ⟨⟨s.group.base, s.group.commits.set k ⟨ph, x.result⟩⟩, s.starting⟩ outs [] := by
  obtain ⟨bouts, hb, hr⟩ := h.base
  obtain ⟨pre, post, e1, _, e3⟩ := Dict.split h.differ.commits hk
  have hu : uses (⟨⟨s.group.base, s.group.commits.set k ⟨ph, x.result⟩⟩, s.starting⟩ : GroupFirst δ) =
      uses s := by
    unfold uses
    rw [e3, e1]
    simp
  refine ⟨⟨bouts, hb, fun t => ?_⟩, hu ▸ h.differ, h.waits, h.asks, h.heals, h.fresh⟩
  rw [hr t, committing_eq, committing_eq, e3, e1]
  simp

/-- What is returned at the end of a commit. -/
theorem GroupExact.give {s : GroupFirst δ} {r : Option (String × Option (List δ))}
    (h : GroupExact X o s outs (heldBy r))
    (hf : ∀ x ∈ s.group.commits, ∀ y, x.2.result = some y → r.map (·.1) ≠ some y.1) :
    GroupExact X o s (outs ++ heldBy r) [] := by
  obtain ⟨bouts, hb, hr⟩ := h.base
  refine ⟨⟨bouts, hb, fun t => ?_⟩, h.differ, h.waits, h.asks, h.heals, h.fresh⟩
  rw [hr t]
  simp only [ofTopic_append, List.append_nil, List.append_assoc]
  congr 1
  by_cases ht : r.map (·.1) = some t
  · rw [committing_eq, held_topic t _ fun x hx y hy e => hf x hx y hy (by rw [ht, e])]
    simp
  · rw [heldBy_topic t r fun y hy e => ht (by rw [hy]; exact congrArg some e)]
    simp

/-- An event of a commit. -/
theorem group_commit (hX : Account batch cfg logs X) {s : GroupFirst δ} {ev : GroupEv β} {out : GroupOut δ} {g' : GroupBusy δ}
    (h : GroupExact X o s outs []) (hb : ∀ b, ev ≠ .base b)
    (hf : FairGroup batch logs s (.group ev)) (hs : s.group.step gcfg cfg ev = (out, g'))
    (hno : ∀ e, out = .raised e → ByApplication s.group ev) :
    GroupExact X o ⟨g', s.starting⟩ (outs ++ givenBy out) [] := by
  have hsg : ∀ (c : Grouped) (cs : Dict Nat (Committing δ)) {x},
      GroupExact X o ⟨⟨s.group.base, cs⟩, s.starting⟩ outs x →
      (∀ t p, offsetOf c.offsets t p = offsetOf s.group.base.consumer.offsets t p) →
      c.synced = s.group.base.consumer.synced →
      GroupExact X o ⟨⟨⟨c, s.group.base.waiting⟩, cs⟩, s.starting⟩ outs x :=
    fun c cs x hx ho hy => hx.same hX ho (by intro t; rw [hy])
  cases ev with
  | base b => exact absurd rfl (hb b)
  | commit k md =>
    obtain ⟨u1, u2, u3⟩ : Unused s k := hf
    have hfr : Free k .none s := ⟨Dict.get?_eq_none.1 u1, Dict.get?_eq_none.1 u2,
      Dict.get?_eq_none.1 u3, by simp, by simp, by simp⟩
    refine group_ask hX (g := s.group) (k := k) (md := md) (result := .none) h.differ.commits ?_ ?_ hs
      fun _ _ => rfl
    · rw [Dict.erase_of_not_mem hfr.commits]
      exact h
    · rw [Dict.erase_of_not_mem hfr.commits]
      exact hfr.differ h.differ
  | answer k r =>
    simp only [GroupBusy.step] at hs
    split at hs
    · rename_i req result hk
      cases hh : handleCommitResponse r s.group.base.consumer with
      | mk res c =>
        obtain ⟨c1, c2, _⟩ := handleCommit_any hh
        rw [hh] at hs
        cases res with
        | error e =>
          cases hs
          obtain ⟨ph, hph⟩ := hno e rfl
          rw [hk] at hph
          cases hph
          have := hsg c _ (group_over h hk) (by simp [c1]) c2
          simpa [givenBy, heldBy] using this
        | ok x =>
          obtain ⟨retry, adjust⟩ := x
          cases hs
          have := hsg c _ (group_again (ph := .answered retry (if adjust = true then "" else req.metadata)) h hk)
            (by simp [c1]) c2
          simpa [givenBy] using this
    · cases hs
      simpa [givenBy] using h
  | fails k e =>
    simp only [GroupBusy.step] at hs
    split at hs
    · rename_i req result hk
      cases hs
      have := hsg (if e = .streamClosed then s.group.base.consumer else
        { s.group.base.consumer with heal := true }) _ (group_again (ph := .failed) h hk)
        (by intro t p; split <;> rfl) (by split <;> rfl)
      simpa [givenBy] using this
    · cases hs
      simpa [givenBy] using h
  | goOn k =>
    simp only [GroupBusy.step] at hs
    split at hs
    · rename_i retry md result hk
      have hd := uses_committing h.differ hk
      have hov := hsg { s.group.base.consumer with heal := false } _ (group_over h hk)
        (fun _ _ => rfl) rfl
      have hfr := hd.free
      split at hs
      · refine group_ask hX (g := ⟨⟨{ s.group.base.consumer with heal := false }, s.group.base.waiting⟩,
          s.group.commits⟩) h.differ.commits hov hd hs fun e he => ?_
        obtain ⟨ph, hph⟩ := hno e he
        rw [hk] at hph
        cases hph
        rfl
      · split at hs
        · cases hs
          rw [givenBy_returned]
          exact hov.give hfr.results
        · cases hs
          simpa [givenBy, heldBy] using hov
    · rename_i result hk
      cases hs
      obtain ⟨ph, hph⟩ := hno _ rfl
      rw [hk] at hph
      cases hph
      have hov := hsg { s.group.base.consumer with heal := false } _ (group_over h hk)
        (fun _ _ => rfl) rfl
      simpa [givenBy, heldBy] using hov
    · cases hs
      simpa [givenBy] using h
  | healFails k e =>
    simp only [GroupBusy.step] at hs
    split at hs
    · cases hs
      simpa [givenBy] using h
    · cases hs
      simpa [givenBy] using h
    · rename_i x _ hk
      cases hs
      obtain ⟨ph, hph⟩ := hno _ rfl
      rw [hk] at hph
      cases hph
      simpa [givenBy, heldBy] using group_over h hk

/-! ### Answers of the coordinator -/

theorem handleOffsetFetchParts_heeded (t : String) (ps : List OFPart) (c : Grouped) (b : Bool) :
    (∀ t' p, offsetOf (handleOffsetFetchParts t ps c b).2.offsets t' p =
      if t' = t then adopted (heeded ps) p (offsetOf c.offsets t' p)
      else offsetOf c.offsets t' p) ∧
    (handleOffsetFetchParts t ps c b).2.synced = c.synced := by
  have hsplit : heeded ps ++ ps.dropWhile (fun q => decide (¬ Fatal q.code)) = ps :=
    List.takeWhile_append_dropWhile
  have hmem : ∀ q ∈ heeded ps, ¬ Fatal q.code := fun q hq => by
    have hall := List.all_eq_true.1 (List.all_takeWhile (l := ps)
      (p := fun q : OFPart => decide (¬ Fatal q.code))) q hq
    exact of_decide_eq_true hall
  obtain ⟨off, hl, g1, g2, _⟩ := handleOffsetFetchParts_spec t (heeded ps) c b hmem
    (ps.dropWhile (fun q => decide (¬ Fatal q.code)))
  rw [hsplit] at g1
  have hend : ∀ (c : Grouped) (b : Bool), (handleOffsetFetchParts t
      (ps.dropWhile (fun q => decide (¬ Fatal q.code))) c b).2 = c := by
    intro c b
    cases hd : ps.dropWhile (fun q => decide (¬ Fatal q.code)) with
    | nil => rfl
    | cons q rest =>
      have hq := List.head?_dropWhile_not (fun q : OFPart => decide (¬ Fatal q.code)) ps
      rw [hd] at hq
      simp only [List.head?_cons, decide_eq_false_iff_not, not_not] at hq
      rw [handleOffsetFetchParts, if_neg (show ¬ q.code = Err.noError from hq.1),
        if_neg (show ¬ q.code = Err.offsetsLoadInProgress from fun e => hq.2 (by rw [e]; decide)),
        if_neg (show ¬ q.code ∈ Err.retriable from hq.2)]
      split <;> rfl
  rw [g1, hend]
  exact ⟨g2, rfl⟩

theorem groupStart_append (a b : List (String × List OFPart)) (o : String → Int → Int) :
    groupStart (a ++ b) o = groupStart b (groupStart a o) := by
  induction a generalizing o with
  | nil => rfl
  | cons x a ih =>
    obtain ⟨t, ps⟩ := x
    exact ih _

/-- The coordinator's answer about offsets. -/
theorem group_offsets (hX : Account batch cfg logs X) {s : GroupFirst δ} {i : Nat} {t : String} {parts : List Int} {b : Int}
    (h : GroupExact X o s outs []) (hi : s.starting.get? i = some (.asking t parts b))
    (ps : List OFPart) :
    GroupExact X (groupStart [(t, ps)] o)
      ⟨⟨⟨(handleOffsetFetchParts t ps s.group.base.consumer false).2, s.group.base.waiting⟩,
        s.group.commits⟩, s.starting⟩ outs [] := by
  have hm := Dict.mem_of_get? hi
  obtain ⟨g1, g2⟩ := handleOffsetFetchParts_heeded t ps s.group.base.consumer false
  have hty : t ∉ s.group.base.consumer.synced := h.asks _ hm (fun t' e => by cases e)
  have hfr := (uses_starting h.differ hi).free
  have hwt : ∀ w ∈ s.group.base.waiting, w.2.topic ≠ t := fun w hw e => hfr.waits w hw (by rw [e]; rfl)
  obtain ⟨bouts, hb, hr⟩ := h.base
  refine ⟨⟨bouts, hX.moved (t := t) hb rfl hwt (h.fresh t hty) ?_ ?_ ?_, hr⟩, h.differ, ?_, ?_, ?_, ?_⟩
  · intro p
    simp only [g1, groupStart, if_true, h.fresh t hty p]
  · intro t' p ht'
    simp only [g1, if_neg ht']
  · intro t' p ht'
    simp only [groupStart, if_neg ht']
  · simp only [g2]; exact h.waits
  · simp only [g2]; exact h.asks
  · simp only [g2]; exact h.heals
  · simp only [g2]
    intro t' ht' p
    simp only [g1, groupStart]
    split
    · rw [h.fresh t' ht' p]
    · exact h.fresh t' ht' p

theorem group_undetermined (hX : Account batch cfg logs X) {s s' : GroupFirst δ} {i : Nat} {topic : String} {e : Exc}
    {out : FirstGroupOut δ} (h : GroupExact X o ⟨s.group, s.starting.erase i⟩ outs [])
    (hd : Differ ((i, some topic) :: uses ⟨s.group, s.starting.erase i⟩))
    (hs : s.undetermined gcfg cfg i topic e = (out, s')) :
    GroupExact X o s' (outs ++ groupGiven out) [] := by
  unfold GroupFirst.undetermined at hs
  split at hs
  · cases hs
    exact group_finish hX (res := some []) h hd (.inl rfl) rfl fun _ _ => rfl
  · cases hs
    simpa [groupGiven, givenBy] using h

theorem group_step (hX : Account batch cfg logs X) {s s' : GroupFirst δ} {ev : FirstGroupEv β}
    {out : FirstGroupOut δ} (h : GroupExact X o s outs []) (hf : FairGroup batch logs s ev)
    (ha : ApartGroup s ev) (hk : KeepsGroup s ev out) (hs : s.step gcfg cfg ev = (out, s')) :
    GroupExact X (groupStart (groupTold s ev) o) s' (outs ++ groupGiven out) [] := by
  cases ev with
  | call i topic =>
    obtain ⟨a1, a2, a3⟩ := ha
    obtain ⟨u1, u2, u3⟩ := hf
    have hfr : Free i (some topic) s := ⟨Dict.get?_eq_none.1 u1, Dict.get?_eq_none.1 u2,
      Dict.get?_eq_none.1 u3, fun x hx e => a1 x hx (Option.some.inj e).symm,
      fun x hx e => a2 x hx (Option.some.inj e).symm,
      fun x hx y hy e => a3 x hx y hy (Option.some.inj e).symm⟩
    have he : s.starting.erase i = s.starting := Dict.erase_of_not_mem hfr.starting
    have hd := hfr.differ h.differ
    have hd' : Differ ((i, some topic) :: uses ⟨s.group, s.starting.erase i⟩) := by rw [he]; exact hd
    simp only [GroupFirst.step] at hs
    show GroupExact X o s' _ _
    split at hs
    · cases hs
      exact group_finish hX (res := .none) (h.erase i) hd' (.inl rfl) rfl fun _ _ => rfl
    · split at hs
      · rename_i hy
        exact group_proceed hX h.differ.starting (h.erase i) hd' hy hs
      · rename_i hy
        exact group_determine hX h.differ.starting (h.erase i) hd' hy hs
  | offsets i r =>
    simp only [GroupFirst.step] at hs
    split at hs
    · rename_i topic parts b hi
      have hm := Dict.mem_of_get? hi
      have hty : topic ∉ s.group.base.consumer.synced := h.asks _ hm (fun t' e => by cases e)
      obtain ⟨ps, hr⟩ := hf topic parts b hi
      have htold : groupTold s (.offsets i r : FirstGroupEv β) = [(topic, ps)] := by
        simp only [groupTold, hi, hr]
        rfl
      rw [htold]
      have hh := group_offsets hX h hi ps
      have hd := uses_starting h.differ hi
      have hy' := (handleOffsetFetchParts_heeded topic ps s.group.base.consumer false).2
      have hresp : handleOffsetFetchResponse r s.group.base.consumer =
          handleOffsetFetchParts topic ps s.group.base.consumer false := by
        simp only [handleOffsetFetchResponse, hr]
      simp only [hresp] at hs
      cases hc : handleOffsetFetchParts topic ps s.group.base.consumer false with
      | mk res c =>
        rw [hc] at hs hh hy'
        have hers := hh.erase i
        cases res with
        | ok retry =>
          cases hs
          rw [show groupGiven (.group .nothing : FirstGroupOut δ) = [] from rfl, List.append_nil]
          refine GroupExact.start (ph := .answered topic parts b retry) h.differ.starting hers hd
            (fun _ => ?_) (fun t e => by cases e)
          show topic ∉ c.synced
          rw [show c.synced = s.group.base.consumer.synced from hy']
          exact hty
        | error e =>
          exact group_undetermined hX (s := ⟨⟨⟨c, s.group.base.waiting⟩, s.group.commits⟩, s.starting⟩)
            hers hd hs
    · rename_i hi
      cases hs
      have : groupTold s (.offsets i r : FirstGroupEv β) = ([] : List (String × List OFPart)) := by
        simp only [groupTold]
      rw [this]
      simpa [groupGiven, givenBy, groupStart] using h
  | offsetsFail i e =>
    simp only [GroupFirst.step] at hs
    show GroupExact X o s' _ _
    split at hs
    · rename_i topic parts b hi
      have hm := Dict.mem_of_get? hi
      have hty : topic ∉ s.group.base.consumer.synced := h.asks _ hm (fun t' e => by cases e)
      have hd := uses_starting h.differ hi
      cases hs
      rw [show groupGiven (.group .nothing : FirstGroupOut δ) = [] from rfl, List.append_nil]
      have hsame := (h.erase i).same hX (c := if e = .streamClosed then s.group.base.consumer else
        { s.group.base.consumer with heal := true }) (fun _ _ => by split <;> rfl)
        (fun _ => by split <;> rfl)
      refine GroupExact.start (ph := .failed topic) h.differ.starting hsame hd (fun _ => ?_)
        (fun t e => by cases e)
      show topic ∉ (if e = .streamClosed then s.group.base.consumer else
        { s.group.base.consumer with heal := true }).synced
      split
      · exact hty
      · exact hty
    · cases hs
      simpa [groupGiven, givenBy] using h
  | goOn i =>
    simp only [GroupFirst.step] at hs
    show GroupExact X o s' _ _
    split at hs
    · rename_i topic parts b retry hi
      have hm := Dict.mem_of_get? hi
      have hty : topic ∉ s.group.base.consumer.synced := h.asks _ hm (fun t' e => by cases e)
      have hd := uses_starting h.differ hi
      have hsame := (h.erase i).same hX (c := { s.group.base.consumer with heal := false })
        (fun _ _ => rfl) (fun _ => Iff.rfl)
      split at hs
      · cases hs
        simpa [groupGiven, givenBy] using hsame
      · split at hs
        · exact group_want (s := ⟨⟨⟨{ s.group.base.consumer with heal := false }, s.group.base.waiting⟩, s.group.commits⟩, s.starting⟩)
            h.differ.starting hsame hd hty hs
        · refine group_proceed hX (s := ⟨⟨⟨{ s.group.base.consumer with heal := false, synced := addSet s.group.base.consumer.synced topic }, s.group.base.waiting⟩, s.group.commits⟩, s.starting⟩)
            h.differ.starting ?_ hd ((mem_addSet _ _ _).2 (.inl rfl)) hs
          have he := h.erase i
          obtain ⟨bouts, hb, hr⟩ := he.base
          refine ⟨⟨bouts, hX.same hb rfl fun _ _ => rfl, hr⟩, he.differ,
            fun w hw => (mem_addSet _ _ _).2 (.inr (he.waits w hw)), ?_,
            fun j t hx => (mem_addSet _ _ _).2 (.inr (he.heals j t hx)), ?_⟩
          · intro x hx hh hc
            rcases (mem_addSet _ _ _).1 hc with hc | hc
            · exact hd.free.starts x hx (by rw [hc]; rfl)
            · exact he.asks x hx hh hc
          · intro t ht p
            exact h.fresh t (fun hc => ht ((mem_addSet _ _ _).2 (.inr hc))) p
    · cases hs
      have hsame := (h.erase i).same hX (c := { s.group.base.consumer with heal := false })
        (fun _ _ => rfl) (fun _ => Iff.rfl)
      simpa [groupGiven, givenBy] using hsame
    · cases hs
      simpa [groupGiven, givenBy] using h
  | healed i =>
    simp only [GroupFirst.step] at hs
    show GroupExact X o s' _ _
    split at hs
    · rename_i topic hi
      have hd := uses_starting h.differ hi
      split at hs
      · cases hs
        simpa [groupGiven, givenBy] using h.erase i
      · split at hs
        · exact group_fetch hX (h.erase i) hd (h.heals i topic (Dict.mem_of_get? hi)) hs
        · cases hs
          exact group_finish hX (res := some []) (h.erase i) hd (.inl rfl) rfl fun _ _ => rfl
    · cases hs
      simpa [groupGiven, givenBy] using h
  | healFails i e =>
    simp only [GroupFirst.step] at hs
    show GroupExact X o s' _ _
    split at hs
    · cases hs
      simpa [groupGiven, givenBy] using h
    · rename_i hi
      exact group_undetermined hX (h.erase i) (uses_starting h.differ hi) hs
    · rename_i hi
      exact group_undetermined hX (h.erase i) (uses_starting h.differ hi) hs
    · cases hs
      simpa [groupGiven, givenBy] using h.erase i
    · cases hs
      simpa [groupGiven, givenBy] using h
  | group gev =>
    show GroupExact X o s' _ _
    by_cases hc : ∃ i t, gev = .base (.consume i t)
    · obtain ⟨i, t, rfl⟩ := hc
      cases hs
      simpa [groupGiven, givenBy] using h
    · have hs' : (FirstGroupOut.group (s.group.step gcfg cfg gev).1,
          ({ s with group := (s.group.step gcfg cfg gev).2 } : GroupFirst δ)) = (out, s') := by
        cases gev with
        | base bev =>
          cases bev with
          | consume i t => exact absurd ⟨i, t, rfl⟩ hc
          | _ => exact hs
        | _ => exact hs
      cases hg : s.group.step gcfg cfg gev with
      | mk gout g' =>
        rw [hg] at hs'
        cases hs'
        by_cases hbase : ∃ bev, gev = .base bev
        · obtain ⟨bev, rfl⟩ := hbase
          refine group_base hX h (fun i t e => hc ⟨i, t, by rw [e]⟩) hf hg fun e he => ?_
          exact hk e _ (by rw [he]) rfl
        · exact group_commit hX h (fun b e => hbase ⟨b, e⟩) hf hg fun e he => hk e _ (by rw [he]) rfl

theorem groupExact_new (c : Grouped) : GroupExact (Exact cfg logs) (offsetOf c.offsets)
    (⟨⟨⟨c, []⟩, []⟩, []⟩ : GroupFirst δ) [] [] := by
  refine ⟨⟨[], ⟨⟨by simp [Dict.keys], by simp⟩, by simp, by simp, fun _ _ => Int.le_refl _, [],
    fun _ => [], rfl, by simp, fun _ _ => rfl, fun t p => ?_⟩, fun t => rfl⟩,
    ⟨by simp [uses], by simp [uses]⟩, by simp, by simp, by simp, fun _ _ _ => rfl⟩
  rw [interval_empty]
  rfl

/-- What the invariant says about messages. -/
theorem GroupExact.reads {s : GroupFirst δ} (hge : GroupExact (Exact cfg logs) o s outs []) :
    (∀ t p, o t p ≤ offsetOf s.group.base.consumer.offsets t p) ∧
    Interleaving (fun t p => (values cfg ((logs t p).filter fun m =>
        decide (o t p ≤ m.1 ∧ m.1 < offsetOf s.group.base.consumer.offsets t p))).filter cfg.truthy)
      (outs ++ committing s.group ++ underWay cfg s.group.base) := by
  obtain ⟨bouts, hx, hr⟩ := hge.base
  obtain ⟨so, hand, hso, hhand, hnone, got⟩ := hx.got
  have hnd : (s.group.base.waiting.map fun x => x.2.topic).Nodup :=
    List.Nodup.map_on (fun x hxm y hym e => hx.one x hxm y hym e)
      (List.Nodup.of_map _ hx.sound.nodup)
  refine ⟨hx.le, interleaving_topics (a := bouts ++ underWay cfg s.group.base) (fun t => ?_)
    ⟨so ++ s.group.base.waiting.flatMap fun x => hand x.2.topic, ?_, fun t p => ?_⟩⟩
  · rw [ofTopic_append, hr t, List.append_nil, ← ofTopic_append]
  · rw [List.map_append, List.map_flatMap]
    congr 1
    unfold underWay
    exact List.flatMap_congr fun x hxm => hhand x hxm
  · beta_reduce
    rw [← got t p, ← ofPart_waiting (fun x hxm => strip_topic (hhand x hxm)) hnd t p (hnone t),
      ← ofPart_append]
    rfl

/-- **C106**, for whole `consume`s of one grouped consumer that run at the same time, first ones of
their topics and later ones, with automatic commits or without, and with calls of `commit_offsets`,
provided no two `consume`s are for the same topic and no rebalance happens: in any interleaving of
calls, answers and failures of all kinds of requests, heals and returns, in which brokers answer
fetches with what is in their logs and no `consume` raises that has fetched, or waits for, messages:
what has been returned, followed by what the `consume`s under way hold and will return, is an
interleaving of the messages of the partitions' logs from the group's offset that the coordinator
last reported (where it was, if it reported none) to the offset now, each once and in order, less
those that cannot be deserialized or are false to Python. -/
theorem C106_exactly_once_partial (gcfg : GCfg) (cfg : CCfg β δ)
    (logs : String → Int → List (Int × β)) (hl : ∀ t p, IsLog (logs t p)) (c : Grouped)
    (s : GroupFirst δ) (outs : List (String × δ)) (told : List (String × List OFPart))
    (h : FirstGroupCourse gcfg cfg (fun s ev out => FairGroup Batch logs s ev ∧ ApartGroup s ev ∧
      KeepsGroup s ev out) ⟨⟨⟨c, []⟩, []⟩, []⟩ outs told s) :
    (∀ t p, groupStart told (offsetOf c.offsets) t p ≤ offsetOf s.group.base.consumer.offsets t p) ∧
    Interleaving (fun t p => (values cfg ((logs t p).filter fun m =>
        decide (groupStart told (offsetOf c.offsets) t p ≤ m.1 ∧
          m.1 < offsetOf s.group.base.consumer.offsets t p))).filter cfg.truthy)
      (outs ++ committing s.group ++ underWay cfg s.group.base) := by
  have key : ∀ (s0 : GroupFirst δ) (outs1 : List (String × δ)) (told1 : List (String × List OFPart)),
      FirstGroupCourse gcfg cfg (fun s ev out => FairGroup Batch logs s ev ∧ ApartGroup s ev ∧
        KeepsGroup s ev out) s0 outs1 told1 s →
      ∀ o outs0, GroupExact (Exact cfg logs) o s0 outs0 [] →
        GroupExact (Exact cfg logs) (groupStart told1 o) s (outs0 ++ outs1) [] := by
    intro s0 outs1 told1 hc
    induction hc with
    | nil => intro o outs0 hx; rw [List.append_nil]; exact hx
    | cons hok hs _ ih =>
      intro o outs0 hx
      rw [← List.append_assoc, groupStart_append]
      exact ih h _ _ (group_step (account_exact hl) hx hok.1 hok.2.1 hok.2.2 hs)
  have hge := key _ _ _ h _ [] (groupExact_new c)
  rw [List.nil_append] at hge
  exact hge.reads

/-- **C106**, when no call is under way: what has been returned is exactly that. -/
theorem C106_returned_partial (gcfg : GCfg) (cfg : CCfg β δ)
    (logs : String → Int → List (Int × β)) (hl : ∀ t p, IsLog (logs t p)) (c : Grouped)
    (s : GroupFirst δ) (outs : List (String × δ)) (told : List (String × List OFPart))
    (h : FirstGroupCourse gcfg cfg (fun s ev out => FairGroup Batch logs s ev ∧ ApartGroup s ev ∧
      KeepsGroup s ev out) ⟨⟨⟨c, []⟩, []⟩, []⟩ outs told s)
    (hw : s.group.base.waiting = []) (hc : s.group.commits = []) :
    Interleaving (fun t p => (values cfg ((logs t p).filter fun m =>
        decide (groupStart told (offsetOf c.offsets) t p ≤ m.1 ∧
          m.1 < offsetOf s.group.base.consumer.offsets t p))).filter cfg.truthy) outs := by
  have := (C106_exactly_once_partial gcfg cfg logs hl c s outs told h).2
  rwa [show committing s.group = [] by rw [committing_eq, hc]; rfl,
    show underWay cfg s.group.base = [] by unfold underWay; rw [hw]; rfl, List.append_nil,
    List.append_nil] at this

/-- **C106**, for brokers with compressed sets, which may begin before the offset asked for, and
otherwise as `C106_exactly_once_partial`: nothing is skipped.  Every message of a log from the
group's offset that the coordinator last reported on to the offset now has been returned or is held
by a `consume` under way, which will return it (unless it cannot be deserialized or is false to
Python). -/
theorem C106_no_skip_partial (gcfg : GCfg) (cfg : CCfg β δ)
    (logs : String → Int → List (Int × β)) (hl : ∀ t p, IsLog (logs t p)) (c : Grouped)
    (s : GroupFirst δ) (outs : List (String × δ)) (told : List (String × List OFPart))
    (h : FirstGroupCourse gcfg cfg (fun s ev out => FairGroup WideBatch logs s ev ∧
      ApartGroup s ev ∧ KeepsGroup s ev out) ⟨⟨⟨c, []⟩, []⟩, []⟩ outs told s)
    (t : String) (p : Int) (m : Int × β) (hm : m ∈ logs t p) (d : δ)
    (hd : decode cfg m.2 = some d) (htr : cfg.truthy d = true)
    (h1 : groupStart told (offsetOf c.offsets) t p ≤ m.1)
    (h2 : m.1 < offsetOf s.group.base.consumer.offsets t p) :
    (t, d) ∈ outs ++ committing s.group ∨ d ∈ inHand cfg s.group.base t := by
  have key : ∀ (s0 : GroupFirst δ) (outs1 : List (String × δ)) (told1 : List (String × List OFPart)),
      FirstGroupCourse gcfg cfg (fun s ev out => FairGroup WideBatch logs s ev ∧ ApartGroup s ev ∧
        KeepsGroup s ev out) s0 outs1 told1 s →
      ∀ o outs0, GroupExact (AllCovered cfg logs) o s0 outs0 [] →
        GroupExact (AllCovered cfg logs) (groupStart told1 o) s (outs0 ++ outs1) [] := by
    intro s0 outs1 told1 hc
    induction hc with
    | nil => intro o outs0 hx; rw [List.append_nil]; exact hx
    | cons hok hs _ ih =>
      intro o outs0 hx
      rw [← List.append_assoc, groupStart_append]
      exact ih h h2 _ _ (group_step (account_covered hl) hx hok.1 hok.2.1 hok.2.2 hs)
  have h0 : GroupExact (AllCovered cfg logs) (offsetOf c.offsets)
      (⟨⟨⟨c, []⟩, []⟩, []⟩ : GroupFirst δ) [] [] :=
    ⟨⟨[], fun t p => ⟨offsetOf c.offsets t p, ⟨by simp [Dict.keys], by simp⟩, Int.le_refl _,
      by simp, fun m _ d _ _ g1 g2 => absurd g2 (Int.not_lt.2 g1)⟩, fun t => rfl⟩,
      ⟨by simp [uses], by simp [uses]⟩, by simp, by simp, by simp, fun _ _ _ => rfl⟩
  have hge := key _ _ _ h _ [] h0
  rw [List.nil_append] at hge
  obtain ⟨bouts, hx, hr⟩ := hge.base
  obtain ⟨f, hf⟩ := hx t p
  refine (hf.got m hm d hd htr h1 (by have := hf.now; omega)).imp_left fun hin => ?_
  have : (t, d) ∈ ofTopic t bouts := List.mem_filter.2 ⟨hin, by simp⟩
  rw [hr t, List.append_nil] at this
  exact (List.mem_filter.1 this).1

/-! ### Offsets are determined first -/

theorem mem_set_or {α : Type} {d : Dict Nat α} {k : Nat} {v : α} {x : Nat × α}
    (h : x ∈ d.set k v) : x = (k, v) ∨ x ∈ d := by
  induction d with
  | nil => exact .inl (List.mem_singleton.1 h)
  | cons y d ih =>
    rw [Dict.set] at h
    split at h
    · rename_i hk
      rcases List.mem_cons.1 h with h | h
      · exact .inl (by rw [h, hk])
      · exact .inr (List.mem_cons_of_mem _ h)
    · rcases List.mem_cons.1 h with rfl | h
      · exact .inr List.mem_cons_self
      · exact (ih h).imp id (List.mem_cons_of_mem _)

/-- The topics of interest are those of `K`: `consume`s wait for messages of these only, and
consider only these known. -/
structure Determined (K : String → Prop) (s : GroupFirst δ) : Prop where
  synced : ∀ t ∈ s.group.base.consumer.synced, K t
  waits : ∀ w ∈ s.group.base.waiting, K w.2.topic
  heals : ∀ i t, (i, GroupPhase.healing t) ∈ s.starting → K t
  done : ∀ i t parts b, (i, GroupPhase.answered t parts b false) ∈ s.starting → K t

theorem Determined.mono {K K' : String → Prop} {s : GroupFirst δ} (h : Determined K s)
    (hk : ∀ t, K t → K' t) : Determined K' s :=
  ⟨fun t ht => hk t (h.synced t ht), fun w hw => hk _ (h.waits w hw),
    fun i t hi => hk t (h.heals i t hi), fun i t p b hi => hk t (h.done i t p b hi)⟩

theorem Determined.moved {K : String → Prop} {s s' : GroupFirst δ} (h : Determined K s)
    (hs : ∀ t ∈ s'.group.base.consumer.synced, K t)
    (hw : ∀ w ∈ s'.group.base.waiting, K w.2.topic)
    (ht : ∀ x ∈ s'.starting, x ∈ s.starting ∨ (∀ t, x.2 = .healing t → K t) ∧
      ∀ t p b, x.2 = .answered t p b false → K t) : Determined K s' := by
  refine ⟨hs, hw, fun i t hi => ?_, fun i t p b hi => ?_⟩
  · rcases ht _ hi with h1 | ⟨h1, _⟩
    · exact h.heals i t h1
    · exact h1 t rfl
  · rcases ht _ hi with h1 | ⟨_, h1⟩
    · exact h.done i t p b h1
    · exact h1 t p b rfl

theorem ask_kept {k : Nat} {md : String} {result : Option (String × Option (List δ))}
    (g : GroupBusy δ) : (g.ask cfg k md result).2.base.consumer.synced = g.base.consumer.synced ∧
      (g.ask cfg k md result).2.base.waiting = g.base.waiting := by
  obtain ⟨h, _⟩ := ask_spec (g := g) (k := k) (metadata := md) (result := result) rfl
  exact ⟨h.synced, h.waiting⟩

theorem finish_kept (gcfg : GCfg) (i : Nat) (topic : String) (out : Option (List δ))
    (g : GroupBusy δ) : (g.finish gcfg cfg i topic out).2.base.consumer.synced = g.base.consumer.synced ∧
      (g.finish gcfg cfg i topic out).2.base.waiting = g.base.waiting := by
  unfold GroupBusy.finish
  split
  · exact ⟨rfl, rfl⟩
  · dsimp only
    split
    · exact ask_kept _
    · exact ⟨rfl, rfl⟩

theorem Determined.left {K : String → Prop} {s : GroupFirst δ} (h : Determined K s) (i : Nat)
    (x : GroupOut δ × GroupBusy δ) (h1 : x.2.base.consumer.synced = s.group.base.consumer.synced)
    (h2 : x.2.base.waiting = s.group.base.waiting) : Determined K (s.leave i x).2 :=
  h.moved (fun t ht => h.synced t (h1 ▸ ht)) (fun w hw => h.waits w (h2 ▸ hw))
    fun _ hx => .inl (Dict.mem_erase.1 hx).1

theorem fetches_synced {cfg : CCfg β δ} {topic : String} {parts : List Int} (c : Grouped) :
    (c.fetches cfg topic parts).2.synced = c.synced := by
  exact (fetches_spec cfg topic parts c _ _ rfl).2.2.1

theorem determined_fetch {K : String → Prop} {s : GroupFirst δ} {i : Nat} {topic : String}
    {parts : List Int} (h : Determined K s) (hk : K topic) :
    Determined K (s.fetch cfg i topic parts).2 := by
  have hf := fetches_synced (cfg := cfg) (topic := topic) (parts := parts) s.group.base.consumer
  unfold GroupFirst.fetch
  cases hc : s.group.base.consumer.fetches cfg topic parts with
  | mk r c =>
    rw [hc] at hf
    cases r with
    | error e => exact h.left i _ hf rfl
    | ok reqs =>
      dsimp only
      split
      · exact h.left i _ hf rfl
      · refine h.moved (fun t ht => h.synced t (hf ▸ ht)) (fun w hw => ?_)
          fun _ hx => .inl (Dict.mem_erase.1 hx).1
        rcases mem_set_or hw with rfl | hw
        · exact hk
        · exact h.waits w hw

theorem determined_proceed {K : String → Prop} {s : GroupFirst δ} {i : Nat} {topic : String}
    (h : Determined K s) (hk : K topic) : Determined K (s.proceed cfg i topic).2 := by
  unfold GroupFirst.proceed
  split
  · exact h.left i _ rfl rfl
  · split
    · exact determined_fetch h hk
    · refine h.moved h.synced h.waits fun x hx => ?_
      rcases mem_set_or hx with rfl | hx
      · exact .inr ⟨fun t e => by cases e; exact hk, fun t p b e => (by cases e)⟩
      · exact .inl hx

theorem determined_want {K : String → Prop} {s : GroupFirst δ} {i : Nat} {topic : String}
    {parts : List Int} (h : Determined K s) : Determined K (s.want cfg i topic parts).2 := by
  unfold GroupFirst.want
  split
  · exact h.left i _ rfl rfl
  · split
    · exact h.left i _ rfl rfl
    · split
      · exact h.left i _ rfl rfl
      · refine h.moved h.synced h.waits fun x hx => ?_
        rcases mem_set_or hx with rfl | hx
        · exact .inr ⟨fun t e => (by cases e), fun t p b e => (by cases e)⟩
        · exact .inl hx

theorem determined_undetermined {K : String → Prop} {s : GroupFirst δ} {i : Nat} {topic : String}
    {e : Exc} (h : Determined K s) : Determined K (s.undetermined gcfg cfg i topic e).2 := by
  unfold GroupFirst.undetermined
  split
  · exact h.left i _ (finish_kept _ _ _ _ _).1 (finish_kept _ _ _ _ _).2
  · exact h.left i _ rfl rfl

/-- Only answers without any error let a `consume` go on. -/
theorem handleOffsetFetchParts_done (t : String) (ps : List OFPart) (c c' : Grouped) (b : Bool)
    (h : handleOffsetFetchParts t ps c b = (.ok false, c')) : ∀ q ∈ ps, q.code = 0 := by
  have hb : ∀ (ps : List OFPart) (c c' : Grouped),
      handleOffsetFetchParts t ps c true ≠ (.ok false, c') := by
    intro ps
    induction ps with
    | nil => intro c c' h; cases h
    | cons q ps ih =>
      intro c c' h
      simp only [handleOffsetFetchParts] at h
      split at h
      · exact ih _ _ h
      · split at h
        · exact ih _ _ h
        · split at h
          · exact ih _ _ h
          · split at h <;> cases h
  induction ps generalizing c b with
  | nil => exact fun q hq => absurd hq List.not_mem_nil
  | cons q ps ih =>
    simp only [handleOffsetFetchParts] at h
    split at h
    · rename_i hq
      rintro x hx
      rcases List.mem_cons.1 hx with rfl | hx
      · exact hq
      · exact ih _ _ h x hx
    · split at h
      · exact absurd h (hb _ _ _)
      · split at h
        · exact absurd h (hb _ _ _)
        · split at h <;> cases h

theorem busy_kept {ev : BEv GExt β} {b : Busy GExt δ} (hc : ∀ i t, ev ≠ .consume i t)
    (hoff : ∀ f, ev = .other f → ∀ c, (f c).synced = c.synced) :
    (∀ t ∈ (b.step Grouped.allocation cfg ev).2.consumer.synced, t ∈ b.consumer.synced) ∧
    ∀ w ∈ (b.step Grouped.allocation cfg ev).2.waiting, ∃ y ∈ b.waiting, y.2.topic = w.2.topic := by
  have same : ∀ w ∈ b.waiting, ∃ y ∈ b.waiting, y.2.topic = w.2.topic := fun w hw => ⟨w, hw, rfl⟩
  have erased : ∀ i, ∀ w ∈ b.waiting.erase i, ∃ y ∈ b.waiting, y.2.topic = w.2.topic :=
    fun i w hw => ⟨w, (Dict.mem_erase.1 hw).1, rfl⟩
  cases ev with
  | consume i t => exact absurd rfl (hc i t)
  | other f => exact ⟨fun t ht => by rw [← hoff f rfl b.consumer]; exact ht, same⟩
  | healFails i e =>
    simp only [Busy.step]
    split
    · exact ⟨fun t ht => ht, same⟩
    · exact ⟨fun t ht => ht, erased i⟩
  | finish i =>
    simp only [Busy.step]
    split
    · exact ⟨fun t ht => ht, same⟩
    · split
      · exact ⟨fun t ht => ht, same⟩
      · exact ⟨fun t ht => ht, erased i⟩
  | outcome i broker r =>
    simp only [Busy.step]
    split
    · exact ⟨fun t ht => ht, same⟩
    · rename_i w hw
      have hset : ∀ w' : Waiting δ, w'.topic = w.topic → ∀ x ∈ b.waiting.set i w',
          ∃ y ∈ b.waiting, y.2.topic = x.2.topic := by
        intro w' e x hx
        rcases mem_set_or hx with rfl | hx
        · exact ⟨_, Dict.mem_of_get? hw, e.symm⟩
        · exact ⟨x, hx, rfl⟩
      split
      · exact ⟨fun t ht => ht, same⟩
      · split
        · rename_i e
          refine ⟨fun t ht => ?_, hset _ rfl⟩
          revert ht
          show t ∈ (if e = .streamClosed then b.consumer else { b.consumer with heal := true }).synced → _
          split <;> exact id
        · rename_i resp
          cases hh : handleFetchResponse cfg resp b.consumer with
          | mk res c =>
            obtain ⟨done, rest, h1, h2, h3, h4, h5⟩ := handleFetch_spec cfg resp b.consumer c res hh
            have hsub : ∀ t ∈ c.synced, t ∈ b.consumer.synced := fun t ht => ((h2.synced t).1 ht).1
            cases res with
            | error e => exact ⟨hsub, erased i⟩
            | ok x => exact ⟨hsub, hset _ rfl⟩

theorem determined_step {K : String → Prop} {batch : List (Int × β) → Int → List (Int × β) → Prop}
    {s : GroupFirst δ} {ev : FirstGroupEv β} (h : Determined K s) (hf : FairGroup batch logs s ev) :
    Determined (fun t => K t ∨ ∃ ps, (t, ps) ∈ groupTold s ev ∧ ∀ q ∈ ps, q.code = 0)
      (s.step gcfg cfg ev).2 := by
  have hmono := h.mono (K' := fun t => K t ∨ ∃ ps, (t, ps) ∈ groupTold s ev ∧ ∀ q ∈ ps, q.code = 0)
    fun t ht => .inl ht
  have hup : ∀ s' : GroupFirst δ, Determined K s' → Determined (fun t => K t ∨ ∃ ps, (t, ps) ∈
      groupTold s ev ∧ ∀ q ∈ ps, q.code = 0) s' := fun s' h => h.mono fun t ht => .inl ht
  have hcons : ∀ c : Grouped, c.synced = s.group.base.consumer.synced →
      Determined K ⟨{ s.group with base := { s.group.base with consumer := c } }, s.starting⟩ :=
    fun c hc => h.moved (fun t ht => h.synced t (hc ▸ ht)) h.waits fun x hx => .inl hx
  cases ev with
  | call i topic =>
    simp only [GroupFirst.step]
    split
    · exact hmono.left i _ (finish_kept _ _ _ _ _).1 (finish_kept _ _ _ _ _).2
    · split
      · rename_i hy
        exact hup _ (determined_proceed h (h.synced topic hy))
      · unfold GroupFirst.determine
        dsimp only
        split
        · exact hmono.left i _ rfl rfl
        · split
          · exact hmono.left i _ rfl rfl
          · exact hup _ (determined_want (hcons _ rfl))
  | offsets i r =>
    simp only [GroupFirst.step]
    split
    · rename_i topic parts b hi
      obtain ⟨ps, hr⟩ := hf topic parts b hi
      have hy := (handleOffsetFetchParts_heeded topic ps s.group.base.consumer false).2
      have hresp : handleOffsetFetchResponse r s.group.base.consumer =
          handleOffsetFetchParts topic ps s.group.base.consumer false := by
        simp only [handleOffsetFetchResponse, hr]
      simp only [hresp]
      cases hc : handleOffsetFetchParts topic ps s.group.base.consumer false with
      | mk res c =>
        rw [hc] at hy
        cases res with
        | ok retry =>
          refine (hup _ (hcons c hy)).moved (hup _ (hcons c hy)).synced (hup _ (hcons c hy)).waits
            fun x hx => ?_
          rcases mem_set_or hx with rfl | hx
          · refine .inr ⟨fun t e => (by cases e), fun t p b e => .inr ?_⟩
            cases e
            refine ⟨ps, ?_, handleOffsetFetchParts_done _ _ _ _ _ hc⟩
            simp only [groupTold, hi, hr]
            exact List.mem_singleton.2 rfl
          · exact .inl hx
        | error e => exact hup _ (determined_undetermined (hcons c hy))
    · exact hmono
  | offsetsFail i e =>
    simp only [GroupFirst.step]
    split
    · have hc := hcons (if e = .streamClosed then s.group.base.consumer else
        { s.group.base.consumer with heal := true }) (by split <;> rfl)
      refine hup _ (hc.moved hc.synced hc.waits fun x hx => ?_)
      rcases mem_set_or hx with rfl | hx
      · exact .inr ⟨fun t e => (by cases e), fun t p b e => (by cases e)⟩
      · exact .inl hx
    · exact hmono
  | goOn i =>
    simp only [GroupFirst.step]
    split
    · rename_i topic parts b retry hi
      split
      · exact hmono.left i _ rfl rfl
      · split
        · exact hup _ (determined_want (hcons _ rfl))
        · rename_i hr
          have hk : K topic := h.done i topic parts b (by
            have := Dict.mem_of_get? hi
            rwa [Bool.not_eq_true retry |>.mp hr] at this)
          refine hup _ (determined_proceed (h.moved (fun t ht => ?_) h.waits fun x hx => .inl hx) hk)
          rcases (mem_addSet _ _ _).1 ht with rfl | ht
          · exact hk
          · exact h.synced t ht
    · exact hmono.left i _ rfl rfl
    · exact hmono
  | healed i =>
    simp only [GroupFirst.step]
    split
    · rename_i topic hi
      split
      · exact hmono.left i _ rfl rfl
      · split
        · exact hup _ (determined_fetch h (h.heals i topic (Dict.mem_of_get? hi)))
        · exact hmono.left i _ (finish_kept _ _ _ _ _).1 (finish_kept _ _ _ _ _).2
    · exact hmono
  | healFails i e =>
    simp only [GroupFirst.step]
    split
    · exact hmono
    · exact hup _ (determined_undetermined h)
    · exact hup _ (determined_undetermined h)
    · exact hmono.left i _ rfl rfl
    · exact hmono
  | group gev =>
    have hgo : ∀ g' : GroupBusy δ, (∀ t ∈ g'.base.consumer.synced, t ∈ s.group.base.consumer.synced) →
        (∀ w ∈ g'.base.waiting, ∃ y ∈ s.group.base.waiting, y.2.topic = w.2.topic) →
        Determined K ⟨g', s.starting⟩ := fun g' h1 h2 =>
      h.moved (fun t ht => h.synced t (h1 t ht))
        (fun w hw => by obtain ⟨y, hy, e⟩ := h2 w hw; exact e ▸ h.waits y hy) fun x hx => .inl hx
    have hsame : ∀ g' : GroupBusy δ, g'.base.consumer.synced = s.group.base.consumer.synced →
        g'.base.waiting = s.group.base.waiting → Determined K ⟨g', s.starting⟩ := fun g' h1 h2 =>
      hgo g' (fun t ht => h1 ▸ ht) fun w hw => ⟨w, h2 ▸ hw, rfl⟩
    by_cases hc : ∃ i t, gev = .base (.consume i t)
    · obtain ⟨i, t, rfl⟩ := hc
      exact hmono
    · have hst : (s.step gcfg cfg (.group gev)).2 = ⟨(s.group.step gcfg cfg gev).2, s.starting⟩ := by
        cases gev with
        | base bev =>
          cases bev with
          | consume i t => exact absurd ⟨i, t, rfl⟩ hc
          | _ => rfl
        | _ => rfl
      rw [hst]
      apply hup
      cases gev with
      | base bev =>
        have hb := busy_kept (cfg := cfg) (b := s.group.base) (ev := bev)
          (fun i t e => hc ⟨i, t, by rw [e]⟩) (by rintro f rfl c; exact (hf c).2)
        simp only [GroupBusy.step]
        cases hbs : s.group.base.step Grouped.allocation cfg bev with
        | mk out b =>
          rw [hbs] at hb
          cases out with
          | returned topic out =>
            refine hgo _ ?_ ?_
            · rw [(finish_kept _ _ _ _ _).1]; exact hb.1
            · rw [(finish_kept _ _ _ _ _).2]; exact hb.2
          | _ => exact hgo _ hb.1 hb.2
      | commit k md => exact hsame _ (ask_kept _).1 (ask_kept _).2
      | answer k r =>
        simp only [GroupBusy.step]
        split
        · cases hh : handleCommitResponse r s.group.base.consumer with
          | mk res c =>
            have hy := (handleCommit_any hh).2.1
            cases res with
            | error e => exact hsame _ hy rfl
            | ok x => exact hsame _ hy rfl
        · exact h
      | fails k e =>
        simp only [GroupBusy.step]
        split
        · refine hsame _ ?_ rfl
          show (if e = .streamClosed then s.group.base.consumer else
            { s.group.base.consumer with heal := true }).synced = _
          split <;> rfl
        · exact h
      | goOn k =>
        simp only [GroupBusy.step]
        split
        · split
          · exact hsame _ (ask_kept _).1 (ask_kept _).2
          · split
            · exact hsame _ rfl rfl
            · exact hsame _ rfl rfl
        · exact hsame _ rfl rfl
        · exact h
      | healFails k e =>
        simp only [GroupBusy.step]
        split
        · exact h
        · exact h
        · exact hsame _ rfl rfl

/-- **C106**, where the messages start: in any interleaving, overlapping `consume`s of the same
topic included, a `consume` waits for messages of a topic only if the topic's offsets were known at
the beginning, or the coordinator has since reported them without any error. -/
theorem C106_determined (gcfg : GCfg) (cfg : CCfg β δ)
    (batch : List (Int × β) → Int → List (Int × β) → Prop) (logs : String → Int → List (Int × β))
    (c : Grouped) (s : GroupFirst δ) (outs : List (String × δ)) (told : List (String × List OFPart))
    (h : FirstGroupCourse gcfg cfg (fun s ev _ => FairGroup batch logs s ev) ⟨⟨⟨c, []⟩, []⟩, []⟩
      outs told s) : ∀ w ∈ s.group.base.waiting,
    w.2.topic ∈ c.synced ∨ ∃ ps, (w.2.topic, ps) ∈ told ∧ ∀ q ∈ ps, q.code = 0 := by
  have key : ∀ (s0 s : GroupFirst δ) (outs : List (String × δ)) (told : List (String × List OFPart)),
      FirstGroupCourse gcfg cfg (fun s ev _ => FairGroup batch logs s ev) s0 outs told s →
      ∀ K, Determined K s0 → Determined (fun t => K t ∨ ∃ ps, (t, ps) ∈ told ∧
        ∀ q ∈ ps, q.code = 0) s := by
    intro s0 s outs told h
    induction h with
    | nil s => exact fun K hK => hK.mono fun t ht => .inl ht
    | cons hok hs _ ih =>
      intro K hK
      have h1 := determined_step (gcfg := gcfg) (cfg := cfg) hK hok
      rw [hs] at h1
      refine (ih _ h1).mono fun t ht => ?_
      rcases ht with (ht | ⟨ps, h1, h2⟩) | ⟨ps, h1, h2⟩
      · exact .inl ht
      · exact .inr ⟨ps, List.mem_append_left _ h1, h2⟩
      · exact .inr ⟨ps, List.mem_append_right _ h1, h2⟩
  exact (key _ _ _ _ h (· ∈ c.synced) ⟨fun t ht => ht, fun w hw => absurd hw List.not_mem_nil,
    fun i t hi => absurd hi List.not_mem_nil, fun i t p b hi => absurd hi List.not_mem_nil⟩).waits

/-! ### Concrete courses -/

theorem _root_.Kiel.Spec.FirstGroupCourse.weaken {gcfg : GCfg} {cfg : CCfg β δ}
    {ok ok' : GroupFirst δ → FirstGroupEv β → FirstGroupOut δ → Prop} {s s' : GroupFirst δ}
    {outs : List (String × δ)} {told : List (String × List OFPart)}
    (h : FirstGroupCourse gcfg cfg ok s outs told s') (hw : ∀ s ev out, ok s ev out → ok' s ev out) :
    FirstGroupCourse gcfg cfg ok' s outs told s' := by
  induction h with
  | nil s => exact .nil s
  | cons h1 h2 _ ih => exact .cons (hw _ _ _ h1) h2 ih

/-- A course given by its events. -/
def firstGroupRun (gcfg : GCfg) (cfg : CCfg β δ) : GroupFirst δ → List (FirstGroupEv β) →
    List (String × δ) × List (String × List OFPart) × GroupFirst δ
  | s, [] => ([], [], s)
  | s, ev :: evs =>
    let r := firstGroupRun gcfg cfg (s.step gcfg cfg ev).2 evs
    (groupGiven (s.step gcfg cfg ev).1 ++ r.1, groupTold s ev ++ r.2.1, r.2.2)

/-- A check of what the concrete courses have to obey; `apart`: `consume`s of one topic do not
overlap. -/
def exFirstCheck (apart : Bool) (s : GroupFirst Nat) (ev : FirstGroupEv Nat) (out : FirstGroupOut Nat) :
    Bool :=
  (match out with
    | .group (.raised _) => false
    | _ => true) &&
  match ev with
  | .call i t => decide (s.starting.get? i = .none ∧ s.group.base.waiting.get? i = .none ∧
      s.group.commits.get? i = .none) && (!apart || decide ((∀ x ∈ s.starting, x.2.topic ≠ t) ∧
      (∀ x ∈ s.group.base.waiting, x.2.topic ≠ t) ∧
      ∀ x ∈ s.group.commits, x.2.result.map (·.1) ≠ some t))
  | .offsets i r =>
    match s.starting.get? i with
    | some (.asking t _ _) => decide (r.topics.map (·.1) = [t])
    | _ => true
  | .goOn _ => true
  | .group (.commit k _) => decide (s.starting.get? k = .none ∧ s.group.base.waiting.get? k = .none ∧
      s.group.commits.get? k = .none)
  | .group (.base (.outcome i broker (.ok r))) =>
    match s.group.base.waiting.get? i with
    | .none => true
    | some w => w.pending.all fun q => decide (q.broker ≠ broker) || exHonest q r
  | .group (.base (.finish _)) => true
  | .group (.answer _ _) => true
  | .group (.goOn _) => true
  | _ => false

theorem exFirstCheck_sound {apart : Bool} {s : GroupFirst Nat} {ev : FirstGroupEv Nat}
    {out : FirstGroupOut Nat} (h : exFirstCheck apart s ev out = true) :
    FairGroup Batch exPartLogs s ev ∧ (apart = true → ApartGroup s ev) ∧ KeepsGroup s ev out := by
  simp only [exFirstCheck, Bool.and_eq_true] at h
  obtain ⟨h1, h2⟩ := h
  have hno : KeepsGroup s ev out := by
    rintro e gev rfl _
    cases h1
  split at h2
  · simp only [Bool.and_eq_true, Bool.or_eq_true, decide_eq_true_eq, Bool.not_eq_true'] at h2
    obtain ⟨h2, h3⟩ := h2
    refine ⟨h2, fun ha => ?_, hno⟩
    obtain ⟨k1, k2, k3⟩ := h3.resolve_left (by simp [ha])
    exact ⟨k1, k2, fun x hx y hy e => k3 x hx (by rw [hy, ← e]; rfl)⟩
  · rename_i i r
    refine ⟨?_, fun _ => trivial, hno⟩
    intro t parts b hi
    rw [hi] at h2
    simp only [decide_eq_true_eq] at h2
    obtain ⟨x, l, e1, e2, e3⟩ := List.map_eq_cons_iff.1 h2
    rw [List.map_eq_nil_iff] at e3
    exact ⟨x.2, by rw [e1, e3, ← e2]⟩
  · exact ⟨trivial, fun _ => trivial, hno⟩
  · simp only [decide_eq_true_eq] at h2
    exact ⟨h2, fun _ => trivial, hno⟩
  · rename_i i broker r
    refine ⟨?_, fun _ => trivial, hno⟩
    intro w hw q hq hb
    rw [hw] at h2
    simp only [List.all_eq_true, Bool.or_eq_true, decide_eq_true_eq] at h2
    rcases h2 q hq with h3 | h3
    · exact absurd hb h3
    · exact exHonest_sound h3
  · exact ⟨trivial, fun _ => trivial, hno⟩
  · exact ⟨trivial, fun _ => trivial, hno⟩
  · exact ⟨trivial, fun _ => trivial, hno⟩
  · cases h2

def exFirstRunCheck (apart : Bool) (gcfg : GCfg) : GroupFirst Nat → List (FirstGroupEv Nat) → Bool
  | _, [] => true
  | s, ev :: evs => exFirstCheck apart s ev (s.step gcfg exCCfg ev).1 &&
      exFirstRunCheck apart gcfg (s.step gcfg exCCfg ev).2 evs

theorem exFirstCourse {gcfg : GCfg} (apart : Bool) (evs : List (FirstGroupEv Nat)) :
    ∀ s : GroupFirst Nat, exFirstRunCheck apart gcfg s evs = true →
      FirstGroupCourse gcfg exCCfg (fun s ev out => FairGroup Batch exPartLogs s ev ∧
          (apart = true → ApartGroup s ev) ∧ KeepsGroup s ev out) s
        (firstGroupRun gcfg exCCfg s evs).1 (firstGroupRun gcfg exCCfg s evs).2.1
        (firstGroupRun gcfg exCCfg s evs).2.2 := by
  induction evs with
  | nil => exact fun s _ => .nil s
  | cons ev evs ih =>
    intro s h
    simp only [exFirstRunCheck, Bool.and_eq_true] at h
    exact .cons (exFirstCheck_sound h.1) rfl (ih _ h.2)

/-- Broker 7 leads partition 0 of the topics t and u, and coordinates the group; no offsets are
known. -/
def exGroupNew : Grouped :=
  ⟨⟨[(7, ⟨"h", 9092, false⟩)], [("t", [0]), ("u", [0])], [("t", [(0, 7)]), ("u", [(0, 7)])]⟩, [],
    [], false, false, ⟨some 7, [], some [("t", [0]), ("u", [0])]⟩⟩

def exGroupStart : GroupFirst Nat := ⟨⟨⟨exGroupNew, []⟩, []⟩, []⟩

/-- The coordinator reports an offset. -/
def exGroupTold (t : String) (o : Int) : OFResp := ⟨[(t, [⟨0, o, 0⟩])]⟩

/-- First `consume`s of t and u with automatic commits: that of t gets its offset, and messages,
and commits, while that of u waits for its own; the application commits, too; then another
`consume` of t. -/
def exBothTopics : List (FirstGroupEv Nat) :=
  [.call 0 "t", .call 1 "u", .offsets 0 (exGroupTold "t" 0), .goOn 0,
   .group (.base (.outcome 0 7 (.ok (exPart 0 [(0, 5)])))), .group (.base (.finish 0)),
   .offsets 1 (exGroupTold "u" 4), .group (.commit 2 "x"), .goOn 1,
   .group (.answer 0 ⟨[("t", [(0, 0)])]⟩), .group (.goOn 0), .call 3 "t",
   .group (.base (.outcome 3 7 (.ok (exPart 0 [(3, 99), (4, 6)])))), .group (.base (.finish 3))]

-- Non-vacuity of `C106_exactly_once_partial`: the course above; one message has been returned, one
-- is held by a `consume` that commits, and one cannot be deserialized.
example : ∃ s, FirstGroupCourse exAuto exCCfg (fun s ev out => FairGroup Batch exPartLogs s ev ∧
      ApartGroup s ev ∧ KeepsGroup s ev out) exGroupStart [("t", 5)]
      [("t", [⟨0, 0, 0⟩]), ("u", [⟨0, 4, 0⟩])] s ∧
    committing s.group = [("t", 6)] ∧ s.group.base.waiting.map (·.1) = [1] ∧
    offsetOf s.group.base.consumer.offsets "t" 0 = 5 := by
  refine ⟨(firstGroupRun exAuto exCCfg exGroupStart exBothTopics).2.2, ?_, by decide +kernel,
    by decide +kernel, by decide +kernel⟩
  have h := exFirstCourse (gcfg := exAuto) true exBothTopics exGroupStart (by decide +kernel)
  rw [show (firstGroupRun exAuto exCCfg exGroupStart exBothTopics).1 = [("t", 5)] by decide +kernel,
    show (firstGroupRun exAuto exCCfg exGroupStart exBothTopics).2.1 =
      [("t", [⟨0, 0, 0⟩]), ("u", [⟨0, 4, 0⟩])] by decide +kernel] at h
  simpa using h

/-- A first `consume` of t; the coordinator reports offset 3, and the broker sends a compressed set
that begins before it. -/
def exWide : List (FirstGroupEv Nat) :=
  [.call 0 "t", .offsets 0 (exGroupTold "t" 3), .goOn 0,
   .group (.base (.outcome 0 7 (.ok (exPart 0 [(0, 5), (3, 99), (4, 6)])))),
   .group (.base (.finish 0))]

-- Non-vacuity of `C106_no_skip_partial`.
example : ∃ s, FirstGroupCourse exManual exCCfg (fun s ev out => FairGroup WideBatch exPartLogs s ev ∧
      ApartGroup s ev ∧ KeepsGroup s ev out) exGroupStart [("t", 5), ("t", 6)]
      [("t", [⟨0, 3, 0⟩])] s ∧
    groupStart [("t", [⟨0, 3, 0⟩])] (offsetOf exGroupNew.offsets) "t" 0 = 3 ∧
    offsetOf s.group.base.consumer.offsets "t" 0 = 5 := by
  refine ⟨(firstGroupRun exManual exCCfg exGroupStart exWide).2.2, ?_, by decide +kernel,
    by decide +kernel⟩
  rw [show [("t", 5), ("t", 6)] = (firstGroupRun exManual exCCfg exGroupStart exWide).1 by
    decide +kernel, show [("t", [⟨0, 3, 0⟩])] =
    (firstGroupRun exManual exCCfg exGroupStart exWide).2.1 by decide +kernel]
  have key : ∀ {s ev out}, exFirstCheck true s ev out = true → (∀ i b r,
      ev ≠ .group (.base (.outcome i b r))) → FairGroup WideBatch exPartLogs s ev ∧
      ApartGroup s ev ∧ KeepsGroup s ev out := by
    intro s ev out h hn
    obtain ⟨h1, h2, h3⟩ := exFirstCheck_sound h
    refine ⟨?_, h2 rfl, h3⟩
    match ev, h1, hn with
    | .call _ _, h1, _ => exact h1
    | .offsets _ _, h1, _ => exact h1
    | .offsetsFail _ _, h1, _ => exact h1
    | .goOn _, h1, _ => exact h1
    | .healed _, h1, _ => exact h1
    | .healFails _ _, h1, _ => exact h1
    | .group (.base (.outcome i b r)), _, hn => exact absurd rfl (hn i b r)
    | .group (.base (.consume _ _)), h1, _ => exact h1
    | .group (.base (.finish _)), h1, _ => exact h1
    | .group (.base (.healFails _ _)), h1, _ => exact h1
    | .group (.base (.other _)), h1, _ => exact h1
    | .group (.commit _ _), h1, _ => exact h1
    | .group (.answer _ _), h1, _ => exact h1
    | .group (.fails _ _), h1, _ => exact h1
    | .group (.goOn _), h1, _ => exact h1
    | .group (.healFails _ _), h1, _ => exact h1
  refine .cons (key (by decide +kernel) (by simp)) rfl ?_
  refine .cons (key (by decide +kernel) (by simp)) rfl ?_
  refine .cons (key (by decide +kernel) (by simp)) rfl ?_
  refine .cons ⟨?_, trivial, fun e gev h => ?_⟩ rfl ?_
  · intro w hw q hq _
    rw [show w = ⟨"t", [⟨7, 1000, 1, "t", [⟨0, 3, 100⟩]⟩], []⟩ from
      (Option.some.inj (hw.symm.trans (by decide +kernel)))] at hq
    rw [List.mem_singleton.1 hq]
    refine ⟨_, rfl, by decide, ?_⟩
    intro p hp
    rw [List.mem_singleton.1 hp]
    exact ⟨by decide, fun _ => ⟨⟨0, 3, 100⟩, by simp, rfl, [], [], by decide +kernel, by simp⟩⟩
  · rw [show (GroupFirst.step exManual exCCfg _ _).1 = FirstGroupOut.group .nothing by
      decide +kernel] at h
    cases h
  exact .cons (key (by decide +kernel) (by simp)) rfl (.nil _)

/-- The coordinator asks for another try of the first `consume` of t. -/
def exLoading : List (FirstGroupEv Nat) :=
  [.call 0 "t", .offsets 0 ⟨[("t", [⟨0, 0, 14⟩])]⟩, .goOn 0, .offsets 0 (exGroupTold "t" 3), .goOn 0]

-- Non-vacuity of `C106_determined`: the `consume` waits for messages after the second answer.
example : ∃ s, FirstGroupCourse exAuto exCCfg (fun s ev _ => FairGroup Batch exPartLogs s ev)
      exGroupStart [] [("t", [⟨0, 0, 14⟩]), ("t", [⟨0, 3, 0⟩])] s ∧
    s.group.base.waiting.map (fun x => x.2.topic) = ["t"] ∧ exGroupNew.synced = [] := by
  refine ⟨(firstGroupRun exAuto exCCfg exGroupStart exLoading).2.2, ?_, by decide +kernel, rfl⟩
  have h := exFirstCourse (gcfg := exAuto) true exLoading exGroupStart (by decide +kernel)
  rw [show (firstGroupRun exAuto exCCfg exGroupStart exLoading).1 = [] by decide +kernel,
    show (firstGroupRun exAuto exCCfg exGroupStart exLoading).2.1 =
      [("t", [⟨0, 0, 14⟩]), ("t", [⟨0, 3, 0⟩])] by decide +kernel] at h
  exact h.weaken fun _ _ _ h => h.1

/-- Two first `consume`s of t. -/
def exSameTopic : List (FirstGroupEv Nat) :=
  [.call 0 "t", .call 1 "t", .offsets 0 (exGroupTold "t" 0), .goOn 0,
   .group (.base (.outcome 0 7 (.ok (exPart 0 [(0, 5)])))), .group (.base (.finish 0)),
   .offsets 1 (exGroupTold "t" 0), .goOn 1,
   .group (.base (.outcome 1 7 (.ok (exPart 0 [(0, 5)])))), .group (.base (.finish 1))]

/-- **C106** is false of the code for first `consume`s of the same topic: the coordinator's answer
to the second puts the offset back to the group's when the first one has returned messages, and
these are returned again. -/
theorem C106_false_repeats : ∃ s, FirstGroupCourse exManual exCCfg
      (fun s ev out => FairGroup Batch exPartLogs s ev ∧ KeepsGroup s ev out) exGroupStart
      [("t", 5), ("t", 5)] [("t", [⟨0, 0, 0⟩]), ("t", [⟨0, 0, 0⟩])] s ∧
    s.group.base.waiting = [] ∧ s.starting = [] ∧ s.group.commits = [] ∧
    exPartLogs "t" 0 = [(0, 5), (3, 99), (4, 6)] := by
  refine ⟨(firstGroupRun exManual exCCfg exGroupStart exSameTopic).2.2, ?_, by decide +kernel,
    by decide +kernel, by decide +kernel, by decide +kernel⟩
  have h := exFirstCourse (gcfg := exManual) false exSameTopic exGroupStart (by decide +kernel)
  rw [show (firstGroupRun exManual exCCfg exGroupStart exSameTopic).1 = [("t", 5), ("t", 5)] by
      decide +kernel,
    show (firstGroupRun exManual exCCfg exGroupStart exSameTopic).2.1 =
      [("t", [⟨0, 0, 0⟩]), ("t", [⟨0, 0, 0⟩])] by decide +kernel] at h
  simpa using h

/-- The second one's answer, which tells what another member has committed since, comes while the
first one fetches. -/
def exSkipTopic : List (FirstGroupEv Nat) :=
  [.call 0 "t", .call 1 "t", .offsets 0 (exGroupTold "t" 0), .goOn 0,
   .offsets 1 (exGroupTold "t" 4), .goOn 1,
   .group (.base (.outcome 1 7 (.ok (exPart 0 [(4, 6)])))), .group (.base (.finish 1)),
   .group (.base (.outcome 0 7 (.ok (exPart 0 [(0, 5)])))), .group (.base (.finish 0))]

/-- **C106** is false of the code for first `consume`s of the same topic: messages are returned in
the wrong order, and the offset ends before one that has been returned. -/
theorem C106_false_order : ∃ s, FirstGroupCourse exManual exCCfg
      (fun s ev out => FairGroup Batch exPartLogs s ev ∧ KeepsGroup s ev out) exGroupStart
      [("t", 6), ("t", 5)] [("t", [⟨0, 0, 0⟩]), ("t", [⟨0, 4, 0⟩])] s ∧
    s.group.base.waiting = [] ∧ s.starting = [] ∧ s.group.commits = [] ∧
    offsetOf s.group.base.consumer.offsets "t" 0 = 1 ∧ (4, 6) ∈ exPartLogs "t" 0 := by
  refine ⟨(firstGroupRun exManual exCCfg exGroupStart exSkipTopic).2.2, ?_, by decide +kernel,
    by decide +kernel, by decide +kernel, by decide +kernel, by decide +kernel⟩
  have h := exFirstCourse (gcfg := exManual) false exSkipTopic exGroupStart (by decide +kernel)
  rw [show (firstGroupRun exManual exCCfg exGroupStart exSkipTopic).1 = [("t", 6), ("t", 5)] by
      decide +kernel,
    show (firstGroupRun exManual exCCfg exGroupStart exSkipTopic).2.1 =
      [("t", [⟨0, 0, 0⟩]), ("t", [⟨0, 4, 0⟩])] by decide +kernel] at h
  simpa using h

end Kiel
