import Verif.Props.Fleet
import Verif.Spec.Band
/-
C114: groups whose members' calls overlap, that are rebalanced while calls are under way.
-/
set_option autoImplicit false
namespace Kiel
open Spec

variable {β δ : Type}

variable {gcfg : GCfg} {cfg : CCfg β δ} {logs : String → Int → List (Int × β)}
  {base : String → Int → Int} {H H' : String × δ → Prop}

theorem below_mono (hh : ∀ x, H x → H' x) {t : String} {p o : Int}
    (h : Below cfg logs base H t p o) : Below cfg logs base H' t p o :=
  fun m hm h1 h2 d hd htr => hh _ (h m hm h1 h2 d hd htr)

/-! ### What is held -/

theorem mem_committing {g : GroupBusy δ} {x : String × δ} :
    x ∈ committing g ↔ ∃ c ∈ g.commits, x ∈ heldBy c.2.result := by
  rw [committing_eq, List.mem_flatMap]

theorem mem_underWay {ε : Type} {b : Busy ε δ} {x : String × δ} :
    x ∈ underWay cfg b ↔ ∃ w ∈ b.waiting, w.2.topic = x.1 ∧ x.2 ∈ w.2.results.vals.flatten ∧
      cfg.truthy x.2 = true := by
  unfold underWay
  rw [List.mem_flatMap]
  refine exists_congr fun w => and_congr_right fun _ => ?_
  simp only [List.mem_map, List.mem_filter]
  constructor
  · rintro ⟨v, hv, rfl⟩
    exact ⟨rfl, hv⟩
  · rintro ⟨e, hv⟩
    exact ⟨x.2, hv, by rw [e]⟩

theorem mem_holds {s : GroupFirst δ} {x : String × δ} :
    x ∈ holds cfg s ↔ (∃ c ∈ s.group.commits, x ∈ heldBy c.2.result) ∨
      ∃ w ∈ s.group.base.waiting, w.2.topic = x.1 ∧ x.2 ∈ w.2.results.vals.flatten ∧
        cfg.truthy x.2 = true := by
  unfold holds
  rw [List.mem_append, mem_committing, mem_underWay]

theorem key_of_set {α : Type} {d : Dict Nat α} {k j : Nat} {v : α} (h : j ∈ (d.set k v).keys) :
    j = k ∨ j ∈ d.keys := by
  obtain ⟨x, hx, rfl⟩ := List.mem_map.1 h
  rcases mem_set_or hx with rfl | hx
  · exact .inl rfl
  · exact .inr (List.mem_map.2 ⟨x, hx, rfl⟩)

theorem key_of_erase {α : Type} {d : Dict Nat α} {k j : Nat} (h : j ∈ (d.erase k).keys) :
    j ∈ d.keys ∧ j ≠ k := by
  obtain ⟨x, hx, rfl⟩ := List.mem_map.1 h
  obtain ⟨h1, h2⟩ := Dict.mem_erase.1 hx
  exact ⟨List.mem_map.2 ⟨x, h1, rfl⟩, h2⟩

/-! ### One member -/

/-- The invariant of a member: calls have different numbers; `consume`s wait for messages, or look the
cluster up, for topics only that have their offsets; and all messages below the member's offsets, and below those at which
it has asked for messages, are accounted for. -/
structure Backed (cfg : CCfg β δ) (logs : String → Int → List (Int × β))
    (base : String → Int → Int) (H : String × δ → Prop) (s : GroupFirst δ) : Prop where
  sound : SoundBusy s.group.base
  nodup : s.group.commits.keys.Nodup
  starts : ∀ j ∈ s.starting.keys, j ∉ s.group.base.waiting.keys ∧ j ∉ s.group.commits.keys
  apart : ∀ j ∈ s.group.base.waiting.keys, j ∉ s.group.commits.keys
  waits : ∀ w ∈ s.group.base.waiting, w.2.topic ∈ s.group.base.consumer.synced
  heals : ∀ j t, (j, GroupPhase.healing t) ∈ s.starting → t ∈ s.group.base.consumer.synced
  own : ∀ t p, Below cfg logs base H t p (offsetOf s.group.base.consumer.offsets t p)
  asked : ∀ w ∈ s.group.base.waiting, ∀ q ∈ w.2.pending, ∀ f ∈ q.parts,
    Below cfg logs base H w.2.topic f.id f.offset

theorem Backed.mono (hh : ∀ x, H x → H' x) {s : GroupFirst δ} (h : Backed cfg logs base H s) :
    Backed cfg logs base H' s :=
  { h with own := fun t p => below_mono hh (h.own t p)
           asked := fun w hw q hq f hf => below_mono hh (h.asked w hw q hq f hf) }

theorem Backed.erase {s : GroupFirst δ} (h : Backed cfg logs base H s) (i : Nat) :
    Backed cfg logs base H ⟨s.group, s.starting.erase i⟩ :=
  { h with starts := fun j hj => h.starts j (key_of_erase hj).1
           heals := fun j t hj => h.heals j t (Dict.mem_erase.1 hj).1 }

theorem Backed.set {s : GroupFirst δ} (h : Backed cfg logs base H s) (i : Nat) (ph : GroupPhase)
    (h1 : i ∉ s.group.base.waiting.keys) (h2 : i ∉ s.group.commits.keys)
    (h3 : ∀ t, ph = .healing t → t ∈ s.group.base.consumer.synced) :
    Backed cfg logs base H ⟨s.group, s.starting.set i ph⟩ :=
  { h with heals := fun j t hj => (mem_set_or hj).elim (fun e => h3 t (Prod.mk.inj e).2.symm) (h.heals j t)
           starts := fun j hj => (key_of_set hj).elim (fun e => (by rw [e]; exact ⟨h1, h2⟩)) (h.starts j) }

/-- The consumer changes, but has the same offsets, and knows no fewer. -/
theorem Backed.same {s : GroupFirst δ} (h : Backed cfg logs base H s) {c : Grouped}
    (ho : ∀ t p, Below cfg logs base H t p (offsetOf c.offsets t p))
    (hs : ∀ t ∈ s.group.base.consumer.synced, t ∈ c.synced) :
    Backed cfg logs base H ⟨{ s.group with base := { s.group.base with consumer := c } }, s.starting⟩ :=
  ⟨⟨h.sound.nodup, h.sound.each⟩, h.nodup, h.starts, h.apart, fun w hw => hs _ (h.waits w hw),
    fun j t hj => hs _ (h.heals j t hj), ho, h.asked⟩

/-- What has become of a member: it is well, what was held has been returned or still is, and what
it has asked to be stored is accounted for. -/
structure Passes (cfg : CCfg β δ) (logs : String → Int → List (Int × β))
    (base : String → Int → Int) (H : String × δ → Prop) (held : String × δ → Prop)
    (r : FirstGroupOut δ × GroupFirst δ) : Prop where
  backed : Backed cfg logs base H r.2
  keep : ∀ x, held x → x ∈ groupGiven r.1 ∨ x ∈ holds cfg r.2
  sent : ∀ t p o, (t, p, o) ∈ offsetsIn (requestIn r.1) → Below cfg logs base H t p o

/-- Nothing is returned, committed or dropped. -/
theorem Backed.passes {s : GroupFirst δ} {held : String × δ → Prop} {out : FirstGroupOut δ}
    (h : Backed cfg logs base H s) (hk : ∀ x, held x → x ∈ holds cfg s) (hr : requestIn out = []) :
    Passes cfg logs base H held (out, s) :=
  ⟨h, fun x hx => .inr (hk x hx), fun t p o ho => by rw [hr] at ho; cases ho⟩

theorem passes_ask {g : GroupBusy δ} {st : Dict Nat GroupPhase} {k : Nat} {md : String}
    {result : Option (String × Option (List δ))} (h : Backed cfg logs base H ⟨g, st⟩)
    (h1 : k ∉ st.keys) (h2 : k ∉ g.base.waiting.keys)
    (hno : (∀ e, (g.ask cfg k md result).1 ≠ .raised e) ∨ heldBy result = []) :
    Passes cfg logs base H
      (fun x => x ∈ holds cfg ⟨⟨g.base, g.commits.erase k⟩, st⟩ ∨ x ∈ heldBy result)
      (.group (g.ask cfg k md result).1, ⟨(g.ask cfg k md result).2, st⟩) := by
  generalize ha : g.ask cfg k md result = x at hno
  obtain ⟨out, g'⟩ := x
  obtain ⟨s1, s2, s3⟩ := ask_spec ha
  have hsound : SoundBusy g'.base := ⟨by rw [s1.waiting]; exact h.sound.nodup,
    by rw [s1.waiting]; exact h.sound.each⟩
  have hown : ∀ t p, Below cfg logs base H t p (offsetOf g'.base.consumer.offsets t p) := by
    intro t p
    rw [s1.offsets]
    exact h.own t p
  rcases s3 with ⟨⟨e, rfl⟩, s3⟩ | ⟨a, b, hm, rfl, s3⟩
  · refine ⟨⟨hsound, ?_, ?_, ?_, ?_, ?_, hown, ?_⟩, ?_, ?_⟩
    · dsimp only; rw [s3]; exact Dict.nodup_erase h.nodup _
    · dsimp only
      rw [s3, s1.waiting]
      exact fun j hj => ⟨(h.starts j hj).1, fun hc => (h.starts j hj).2 (key_of_erase hc).1⟩
    · dsimp only
      rw [s3, s1.waiting]
      exact fun j hj hc => h.apart j hj (key_of_erase hc).1
    · dsimp only; rw [s1.waiting, s1.synced]; exact h.waits
    · dsimp only; rw [s1.synced]; exact h.heals
    · dsimp only; rw [s1.waiting]; exact h.asked
    · intro x hx
      rcases hx with hx | hx
      · refine .inr ?_
        rw [mem_holds] at hx ⊢
        dsimp only at hx ⊢
        rw [s3, s1.waiting]
        exact hx
      · rcases hno with hno | hno
        · exact absurd rfl (hno _)
        · rw [hno] at hx; cases hx
    · intro t p o ho; cases ho
  · refine ⟨⟨hsound, ?_, ?_, ?_, ?_, ?_, hown, ?_⟩, ?_, ?_⟩
    · dsimp only; rw [s3]; exact Dict.nodup_set h.nodup _ _
    · dsimp only
      rw [s3, s1.waiting]
      refine fun j hj => ⟨(h.starts j hj).1, fun hc => ?_⟩
      rcases key_of_set hc with rfl | hc
      · exact h1 hj
      · exact (h.starts j hj).2 hc
    · dsimp only
      rw [s3, s1.waiting]
      intro j hj hc
      rcases key_of_set hc with rfl | hc
      · exact h2 hj
      · exact h.apart j hj hc
    · dsimp only; rw [s1.waiting, s1.synced]; exact h.waits
    · dsimp only; rw [s1.synced]; exact h.heals
    · dsimp only; rw [s1.waiting]; exact h.asked
    · intro x hx
      refine .inr ?_
      rw [mem_holds] at hx ⊢
      dsimp only at hx ⊢
      rw [s3, s1.waiting]
      rcases hx with (⟨c, hc, hx⟩ | hx) | hx
      · obtain ⟨hc, hne⟩ := Dict.mem_erase.1 hc
        exact .inl ⟨c, (Dict.mem_set h.nodup).2 (.inr ⟨hc, hne⟩), hx⟩
      · exact .inr hx
      · exact .inl ⟨_, (Dict.mem_set h.nodup).2 (.inl rfl), hx⟩
    · intro t p o ho
      simp only [requestIn, offsetsIn, commitOf, List.flatMap_cons, List.flatMap_nil, List.append_nil,
        List.mem_flatMap, List.mem_map, List.mem_filter, decide_eq_true_eq] at ho
      obtain ⟨y, ⟨⟨t', ps⟩, _, rfl⟩, q, hq, e⟩ := ho
      obtain ⟨p', hp, rfl⟩ := List.mem_map.1 hq
      cases e
      exact h.own _ _

theorem passes_finish {g : GroupBusy δ} {st : Dict Nat GroupPhase} {i : Nat} {topic : String}
    {res : Option (List δ)} (h : Backed cfg logs base H ⟨g, st⟩)
    (h1 : i ∉ st.keys) (h2 : i ∉ g.base.waiting.keys) (h3 : i ∉ g.commits.keys)
    (hno : topic ∈ g.base.consumer.synced ∧ (∀ e, (g.finish gcfg cfg i topic res).1 ≠ .raised e) ∨
      heldBy (some (topic, res)) = []) :
    Passes cfg logs base H (fun x => x ∈ holds cfg ⟨g, st⟩ ∨ x ∈ heldBy (some (topic, res)))
      (.group (g.finish gcfg cfg i topic res).1, ⟨(g.finish gcfg cfg i topic res).2, st⟩) := by
  unfold GroupBusy.finish at hno ⊢
  split
  · rename_i hy
    refine h.passes (fun x hx => ?_) rfl
    rcases hno with hno | hno
    · exact absurd hno.1 hy
    · rcases hx with hx | hx
      · exact hx
      · rw [hno] at hx; cases hx
  · rename_i hy
    rw [if_neg hy] at hno
    dsimp only at hno ⊢
    have h' := h.same (c := { g.base.consumer with ext := { g.base.consumer.ext with
      toCommit := addSet g.base.consumer.ext.toCommit topic } }) h.own fun t ht => ht
    split
    · rename_i ha
      rw [if_pos ha] at hno
      have := passes_ask (k := i) (md := "committed by " ++ gcfg.name) (result := some (topic, res)) h'
        h1 h2 (hno.imp_left (·.2))
      refine ⟨this.backed, fun x hx => this.keep x (hx.imp_left fun hx => ?_), this.sent⟩
      rw [mem_holds] at hx ⊢
      dsimp only at hx ⊢
      rw [Dict.erase_of_not_mem h3]
      exact hx
    · refine ⟨h', fun x hx => ?_, fun t p o ho => by cases ho⟩
      rcases hx with hx | hx
      · exact .inr hx
      · refine .inl ?_
        rw [← givenBy_returned] at hx
        exact hx

theorem passes_left {s : GroupFirst δ} {i : Nat} {g : GroupBusy δ} {out : GroupOut δ}
    (h : Backed cfg logs base H ⟨g, s.starting⟩)
    (hk : ∀ x ∈ holds cfg s, x ∈ holds cfg ⟨g, s.starting⟩) (hr : requestIn (.group out) = []) :
    Passes cfg logs base H (fun x => x ∈ holds cfg s) (s.leave i (out, g)) :=
  Backed.passes (h.erase i) hk hr

theorem passes_fetch {s : GroupFirst δ} {i : Nat} {topic : String} {parts : List Int}
    (h : Backed cfg logs base H s) (h1 : i ∉ s.group.base.waiting.keys)
    (h2 : i ∉ s.group.commits.keys) (hy : topic ∈ s.group.base.consumer.synced) :
    Passes cfg logs base H (fun x => x ∈ holds cfg s) (s.fetch cfg i topic parts) := by
  unfold GroupFirst.fetch
  cases hc : s.group.base.consumer.fetches cfg topic parts with
  | mk r c =>
    obtain ⟨_, f2, f3, _, _, f6, f7, _⟩ := fetches_spec cfg topic parts _ _ _ hc
    have h' := h.same (c := c) (fun t p => by rw [f2]; exact h.own t p) (fun t ht => by rw [f3]; exact ht)
    cases r with
    | error e => exact passes_left h' (fun x hx => hx) rfl
    | ok reqs =>
      dsimp only
      split
      · exact passes_left h' (fun x hx => hx) rfl
      · have hfe := f7 reqs rfl
        have hset := Dict.set_of_not_mem (v := (⟨topic, reqs, []⟩ : Waiting δ)) h1
        have hm : ∀ w, w ∈ s.group.base.waiting.set i ⟨topic, reqs, []⟩ →
            w = (i, (⟨topic, reqs, []⟩ : Waiting δ)) ∨ w ∈ s.group.base.waiting :=
          fun w hw => mem_set_or hw
        refine ⟨⟨⟨Dict.nodup_set h.sound.nodup _ _, ?_⟩, h.nodup, ?_, ?_, ?_, ?_, h'.own, ?_⟩, ?_, ?_⟩
        · intro w hw
          rcases hm w hw with rfl | hw
          · exact soundWait_fetches hfe
          · exact h.sound.each w hw
        · intro j hj
          obtain ⟨hj, hne⟩ := key_of_erase hj
          refine ⟨fun hc => ?_, (h.starts j hj).2⟩
          rcases key_of_set hc with rfl | hc
          · exact hne rfl
          · exact (h.starts j hj).1 hc
        · intro j hj
          rcases key_of_set hj with rfl | hj
          · exact h2
          · exact h.apart j hj
        · intro w hw
          show w.2.topic ∈ c.synced
          rw [f3]
          rcases hm w hw with rfl | hw
          · exact hy
          · exact h.waits w hw
        · intro j t hj
          show t ∈ c.synced
          rw [f3]
          exact h.heals j t (Dict.mem_erase.1 hj).1
        · intro w hw q hq f hf
          rcases hm w hw with rfl | hw
          · dsimp only
            rw [hfe.offsets q hq f hf]
            exact h.own _ _
          · exact h.asked w hw q hq f hf
        · intro x hx
          refine .inr ?_
          rw [mem_holds] at hx ⊢
          refine hx.imp_right ?_
          rintro ⟨w, hw, hx⟩
          exact ⟨w, by rw [hset]; exact List.mem_append_left _ hw, hx⟩
        · intro t p o ho; cases ho

theorem passes_proceed {s : GroupFirst δ} {i : Nat} {topic : String}
    (h : Backed cfg logs base H s) (h1 : i ∉ s.group.base.waiting.keys)
    (h2 : i ∉ s.group.commits.keys) (hy : topic ∈ s.group.base.consumer.synced) :
    Passes cfg logs base H (fun x => x ∈ holds cfg s) (s.proceed cfg i topic) := by
  unfold GroupFirst.proceed
  split
  · exact passes_left h (fun x hx => hx) rfl
  · split
    · exact passes_fetch h h1 h2 hy
    · exact (h.set i _ h1 h2 (fun t e => by cases e; exact hy)).passes (fun x hx => hx) rfl

theorem passes_want {s : GroupFirst δ} {i : Nat} {topic : String} {parts : List Int}
    (h : Backed cfg logs base H s) (h1 : i ∉ s.group.base.waiting.keys)
    (h2 : i ∉ s.group.commits.keys) :
    Passes cfg logs base H (fun x => x ∈ holds cfg s) (s.want cfg i topic parts) := by
  unfold GroupFirst.want
  split
  · exact passes_left h (fun x hx => hx) rfl
  · split
    · exact passes_left h (fun x hx => hx) rfl
    · split
      · exact passes_left h (fun x hx => hx) rfl
      · exact (h.set i _ h1 h2 (fun t e => by cases e)).passes (fun x hx => hx) rfl

theorem passes_determine {s : GroupFirst δ} {i : Nat} {topic : String}
    (h : Backed cfg logs base H s) (h1 : i ∉ s.group.base.waiting.keys)
    (h2 : i ∉ s.group.commits.keys) :
    Passes cfg logs base H (fun x => x ∈ holds cfg s) (s.determine cfg i topic) := by
  unfold GroupFirst.determine
  dsimp only
  split
  · exact passes_left h (fun x hx => hx) rfl
  · rename_i a _
    split
    · exact passes_left h (fun x hx => hx) rfl
    exact passes_want (s := { s with group := { s.group with base := { s.group.base with
      consumer := { s.group.base.consumer with ext := { s.group.base.consumer.ext with
        mapping := some (a.getDefault topic []).1 } } } } }) (h.same h.own fun t ht => ht) h1 h2

theorem passes_undetermined {s : GroupFirst δ} {i : Nat} {topic : String} {e : Exc}
    (h : Backed cfg logs base H s) (h1 : i ∉ s.group.base.waiting.keys)
    (h2 : i ∉ s.group.commits.keys) :
    Passes cfg logs base H (fun x => x ∈ holds cfg s) (s.undetermined gcfg cfg i topic e) := by
  unfold GroupFirst.undetermined
  split
  · have := passes_finish (gcfg := gcfg) (i := i) (topic := topic) (res := some []) (h.erase i)
      (fun hc => (key_of_erase hc).2 rfl) h1 h2 (.inr rfl)
    exact ⟨this.backed, fun x hx => this.keep x (.inl hx), this.sent⟩
  · exact passes_left h (fun x hx => hx) rfl

theorem passes_end {s : GroupFirst δ} {i : Nat} {topic : String} {res : Option (List δ)}
    (h : Backed cfg logs base H s) (h1 : i ∉ s.group.base.waiting.keys)
    (h2 : i ∉ s.group.commits.keys) (hn : heldBy (some (topic, res)) = []) :
    Passes cfg logs base H (fun x => x ∈ holds cfg s)
      (s.leave i (s.group.finish gcfg cfg i topic res)) := by
  have := passes_finish (gcfg := gcfg) (i := i) (topic := topic) (res := res) (h.erase i)
    (fun hc => (key_of_erase hc).2 rfl) h1 h2 (.inr hn)
  exact ⟨this.backed, fun x hx => this.keep x (.inl hx), this.sent⟩

theorem heldBy_returned (topic : String) (res : Option (List δ)) :
    returnedBy (.returned topic res) = heldBy (some (topic, res)) := by cases res <;> rfl

/-- What happens to `consume`s that wait for messages. -/
theorem base_backed (hl : ∀ t p, IsLog (logs t p)) {g : GroupBusy δ} {st : Dict Nat GroupPhase}
    {bev : BEv GExt β} {out : BOut δ} {b' : Busy GExt δ} (h : Backed cfg logs base H ⟨g, st⟩)
    (hc : ∀ i t, bev ≠ .consume i t) (hf : Fair WideBatch logs g.base bev)
    (hother : ∀ f, bev = .other f → ∀ c, (f c).synced = c.synced)
    (hs : g.base.step Grouped.allocation cfg bev = (out, b')) (hno : ∀ e, out ≠ .raised e) :
    (∀ x ∈ holds cfg ⟨g, st⟩, x ∈ returnedBy out ∨ x ∈ holds cfg ⟨⟨b', g.commits⟩, st⟩) ∧
    ∀ H' : String × δ → Prop, (∀ x, H x → H' x) →
      (∀ x ∈ holds cfg ⟨⟨b', g.commits⟩, st⟩, H' x) → Backed cfg logs base H' ⟨⟨b', g.commits⟩, st⟩ := by
  have hk : ∀ t ∈ g.base.consumer.synced, t ∈ b'.consumer.synced := by
    by_cases ho : ∃ f, bev = .other f
    · obtain ⟨f, rfl⟩ := ho
      simp only [Busy.step, Prod.mk.injEq] at hs
      obtain ⟨rfl, rfl⟩ := hs
      exact fun t ht => by rw [hother f rfl]; exact ht
    · exact (busy_keeps hf hs fun f e => ho ⟨f, e⟩).2 hno
  obtain ⟨hs', hcase⟩ := busy_step h.sound hs hno (by rintro i t rfl; exact absurd rfl (hc i t))
    (by rintro f rfl; exact hf)
  have hn := h.sound.nodup
  -- the same holds of what waits, and of offsets
  have hback : ∀ H' : String × δ → Prop, (∀ x, H x → H' x) →
      (∀ j ∈ b'.waiting.keys, j ∈ g.base.waiting.keys) →
      (∀ w ∈ b'.waiting, ∃ y ∈ g.base.waiting, y.2.topic = w.2.topic ∧
        ∀ q ∈ w.2.pending, q ∈ y.2.pending) →
      (∀ t p, Below cfg logs base H' t p (offsetOf b'.consumer.offsets t p)) →
      Backed cfg logs base H' ⟨⟨b', g.commits⟩, st⟩ := by
    intro H' hh hj hw ho
    refine ⟨hs', h.nodup, fun j hj' => ⟨fun hc => (h.starts j hj').1 (hj j hc), (h.starts j hj').2⟩,
      fun j hj' => h.apart j (hj j hj'), fun w hw' => ?_,
      fun j t hj' => hk _ (h.heals j t hj'), ho, fun w hw' q hq f hf => ?_⟩
    · obtain ⟨y, hy, e, _⟩ := hw w hw'
      rw [← e]
      exact hk _ (h.waits y hy)
    · obtain ⟨y, hy, e, hp⟩ := hw w hw'
      rw [← e]
      exact below_mono hh (h.asked y hy q (hp q hq) f hf)
  have hkeys : ∀ {i : Nat} {w : Waiting δ} (w' : Waiting δ), g.base.waiting.get? i = some w →
      ∀ j ∈ (g.base.waiting.set i w').keys, j ∈ g.base.waiting.keys := by
    intro i w w' hi j hj
    rcases key_of_set hj with rfl | hj
    · exact List.mem_map.2 ⟨_, Dict.mem_of_get? hi, rfl⟩
    · exact hj
  have hsub : ∀ {i : Nat} {w : Waiting δ} (w' : Waiting δ), g.base.waiting.get? i = some w →
      w'.topic = w.topic → (∀ q ∈ w'.pending, q ∈ w.pending) →
      ∀ x ∈ g.base.waiting.set i w', ∃ y ∈ g.base.waiting, y.2.topic = x.2.topic ∧
        ∀ q ∈ x.2.pending, q ∈ y.2.pending := by
    intro i w w' hi e hq x hx
    rcases mem_set_or hx with rfl | hx
    · exact ⟨_, Dict.mem_of_get? hi, e.symm, hq⟩
    · exact ⟨x, hx, rfl, fun q hq => hq⟩
  rcases hcase with ⟨h1, h2, h3⟩ | ⟨i, topic, parts, reqs, rfl, _⟩ |
    ⟨i, w, broker, h1, h2, h3, h4⟩ | ⟨i, w, q, r, rfl, h1, h2, h3, h4, h5⟩ | ⟨i, w, h1, h2, h3, h4, h5⟩
  · refine ⟨fun x hx => .inr ?_, fun H' hh _ => hback H' hh ?_ ?_ ?_⟩
    · rw [mem_holds] at hx ⊢
      dsimp only at hx ⊢
      rw [h2]
      exact hx
    · rw [h2]; exact fun j hj => hj
    · rw [h2]; exact fun w hw => ⟨w, hw, rfl, fun q hq => hq⟩
    · exact fun t p => by rw [h3]; exact below_mono hh (h.own t p)
  · exact absurd rfl (hc i topic)
  · refine ⟨fun x hx => .inr ?_, fun H' hh _ => hback H' hh ?_ ?_ ?_⟩
    · rw [mem_holds] at hx ⊢
      dsimp only at hx ⊢
      refine hx.imp_right ?_
      rintro ⟨⟨j, v⟩, hm, hx⟩
      by_cases hji : j = i
      · subst hji
        have := Dict.get?_of_mem hn hm
        rw [h1] at this
        cases this
        have hmem : (j, { w with
            pending := (w.pending.filter fun q => decide (q.broker ≠ broker)) }) ∈ b'.waiting := by
          rw [h3]; exact (Dict.mem_set hn).2 (.inl rfl)
        exact ⟨_, hmem, hx⟩
      · exact ⟨_, by rw [h3]; exact (Dict.mem_set hn).2 (.inr ⟨hm, hji⟩), hx⟩
    · rw [h3]; exact hkeys _ h1
    · rw [h3]; exact hsub _ h1 rfl fun q hq => (List.mem_filter.1 hq).1
    · exact fun t p => by rw [h4]; exact below_mono hh (h.own t p)
  · have hm' := Dict.mem_of_get? h1
    have hsw := h.sound.each _ hm'
    have hhon : HonestAnswer WideBatch logs q r := hf w h1 q h2 rfl
    have hqt : q.topic = w.topic := hsw.topic q h2
    have hent : (i, (⟨w.topic, (w.pending.filter fun x => decide (x.broker ≠ q.broker)),
        w.results ++ [(q.broker, values cfg (fetched (answersOf r)))]⟩ : Waiting δ)) ∈
        b'.waiting := by rw [h4]; exact (Dict.mem_set hn).2 (.inl rfl)
    refine ⟨fun x hx => .inr ?_, fun H' hh hnew => hback H' hh ?_ ?_ fun t p => ?_⟩
    · rw [mem_holds] at hx ⊢
      dsimp only at hx ⊢
      refine hx.imp_right ?_
      rintro ⟨⟨j, v⟩, hm, ht, hd, htr⟩
      by_cases hji : j = i
      · subst hji
        have := Dict.get?_of_mem hn hm
        rw [h1] at this
        cases this
        refine ⟨_, hent, ht, ?_, htr⟩
        simp only [Dict.vals, List.map_append, List.flatten_append]
        exact List.mem_append_left _ hd
      · exact ⟨_, by rw [h4]; exact (Dict.mem_set hn).2 (.inr ⟨hm, hji⟩), ht, hd, htr⟩
    · rw [h4]; exact hkeys _ h1
    · rw [h4]; exact hsub _ h1 rfl fun q hq => (List.mem_filter.1 hq).1
    · rw [h5]
      have hown := below_mono hh (h.own t p)
      rcases honest_answer hhon t p with hz | ⟨htq, f, hfm, hfid, hb⟩
      · rw [hz, after_nil]; exact hown
      · rcases after_either cfg (fetchedFor (answersOf r) t p) f.offset
          (offsetOf g.base.consumer.offsets t p) with ⟨_, e⟩ | e
        · rw [e]; exact hown
        · rw [← e]
          intro m hm g1 g2 d hd htr
          have htw : w.topic = t := hqt.symm.trans htq.symm
          by_cases hlt : m.1 < f.offset
          · have := h.asked _ hm' q h2 f hfm
            dsimp only at this
            rw [htw, hfid] at this
            exact hh _ (this m hm g1 hlt d hd htr)
          · have hin := wide_window cfg _ _ _ (hl t p) hb m hm (by omega) g2
            refine hnew _ (mem_holds.2 (.inr ⟨_, hent, htw, ?_, htr⟩))
            simp only [Dict.vals, List.map_append, List.flatten_append, List.map_cons, List.map_nil,
              List.flatten_cons, List.flatten_nil, List.append_nil]
            refine List.mem_append_right _ (List.mem_filterMap.2 ⟨m, ?_, hd⟩)
            simp only [fetchedFor, fetched, List.mem_flatMap, List.mem_filter, decide_eq_true_eq]
              at hin ⊢
            obtain ⟨a, ⟨ha, _, _, h0⟩, hm⟩ := hin
            exact ⟨a, ⟨ha, h0⟩, hm⟩
  · refine ⟨fun x hx => ?_, fun H' hh _ => hback H' hh ?_ ?_ ?_⟩
    · rw [mem_holds] at hx
      dsimp only at hx
      rcases hx with hx | ⟨⟨j, v⟩, hm, ht, hd, htr⟩
      · exact .inr (mem_holds.2 (.inl hx))
      · by_cases hji : j = i
        · subst hji
          have := Dict.get?_of_mem hn hm
          rw [h1] at this
          cases this
          refine .inl ?_
          rw [h3]
          exact List.mem_map.2 ⟨x.2, List.mem_filter.2 ⟨hd, htr⟩, by rw [ht]⟩
        · exact .inr (mem_holds.2 (.inr ⟨_, by
            dsimp only; rw [h4]; exact Dict.mem_erase.2 ⟨hm, hji⟩, ht, hd, htr⟩))
    · rw [h4]; exact fun j hj => (key_of_erase hj).1
    · rw [h4]; exact fun w hw => ⟨w, (Dict.mem_erase.1 hw).1, rfl, fun q hq => hq⟩
    · exact fun t p => by rw [h5]; exact below_mono hh (h.own t p)

/-- A commit comes to its end. -/
theorem commit_over {s : GroupFirst δ} {k : Nat} {x : Committing δ} {c : Grouped}
    (h : Backed cfg logs base H s) (hk : s.group.commits.get? k = some x)
    (ho : ∀ t p, Below cfg logs base H t p (offsetOf c.offsets t p))
    (hy : ∀ t ∈ s.group.base.consumer.synced, t ∈ c.synced) :
    Backed cfg logs base H ⟨⟨⟨c, s.group.base.waiting⟩, s.group.commits.erase k⟩, s.starting⟩ ∧
    ∀ y ∈ holds cfg s, y ∈ heldBy x.result ∨
      y ∈ holds cfg ⟨⟨⟨c, s.group.base.waiting⟩, s.group.commits.erase k⟩, s.starting⟩ := by
  have h' := h.same ho hy
  refine ⟨⟨h'.sound, Dict.nodup_erase h.nodup _, fun j hj => ⟨(h.starts j hj).1, fun hc =>
    (h.starts j hj).2 (key_of_erase hc).1⟩, fun j hj hc => h.apart j hj (key_of_erase hc).1,
    h'.waits, h'.heals, ho, h.asked⟩, fun y hm => ?_⟩
  rw [mem_holds] at hm
  rcases hm with ⟨⟨j, z⟩, hc, hm⟩ | hm
  · by_cases hj : j = k
    · subst hj
      have := Dict.get?_of_mem h.nodup hc
      rw [hk] at this
      cases this
      exact .inl hm
    · exact .inr (mem_holds.2 (.inl ⟨_, Dict.mem_erase.2 ⟨hc, hj⟩, hm⟩))
  · exact .inr (mem_holds.2 (.inr hm))

/-- A commit goes on, with the same to return. -/
theorem commit_on {s : GroupFirst δ} {k : Nat} {x x' : Committing δ} {c : Grouped}
    (h : Backed cfg logs base H s) (hk : s.group.commits.get? k = some x) (hx : x'.result = x.result)
    (ho : ∀ t p, Below cfg logs base H t p (offsetOf c.offsets t p))
    (hy : ∀ t ∈ s.group.base.consumer.synced, t ∈ c.synced) :
    Passes cfg logs base H (fun y => y ∈ holds cfg s) (.group .nothing,
      ⟨⟨⟨c, s.group.base.waiting⟩, s.group.commits.set k x'⟩, s.starting⟩) := by
  have h' := h.same ho hy
  have hkeys : ∀ j ∈ (s.group.commits.set k x').keys, j ∈ s.group.commits.keys := fun j hj => by
    rcases key_of_set hj with rfl | hj
    · exact List.mem_map.2 ⟨_, Dict.mem_of_get? hk, rfl⟩
    · exact hj
  refine Backed.passes ⟨h'.sound, Dict.nodup_set h.nodup _ _, fun j hj => ⟨(h.starts j hj).1, fun hc =>
    (h.starts j hj).2 (hkeys j hc)⟩, fun j hj hc => h.apart j hj (hkeys j hc),
    h'.waits, h'.heals, ho, h.asked⟩ (fun y hm => ?_) rfl
  rw [mem_holds] at hm ⊢
  refine hm.imp_left ?_
  rintro ⟨⟨j, z⟩, hc, hm⟩
  by_cases hj : j = k
  · subst hj
    have := Dict.get?_of_mem h.nodup hc
    rw [hk] at this
    cases this
    exact ⟨_, (Dict.mem_set h.nodup).2 (.inl rfl), by rw [hx]; exact hm⟩
  · exact ⟨_, (Dict.mem_set h.nodup).2 (.inr ⟨hc, hj⟩), hm⟩

/-- What is known after a step. -/
def StepsWell (cfg : CCfg β δ) (logs : String → Int → List (Int × β)) (base : String → Int → Int)
    (H : String × δ → Prop) (s : GroupFirst δ) (r : FirstGroupOut δ × GroupFirst δ) : Prop :=
  (∀ x ∈ holds cfg s, x ∈ groupGiven r.1 ∨ x ∈ holds cfg r.2) ∧
  ∀ H' : String × δ → Prop, (∀ x, H x → H' x) → (∀ x ∈ groupGiven r.1, H' x) →
    (∀ x ∈ holds cfg r.2, H' x) →
    Backed cfg logs base H' r.2 ∧
    ∀ t p o, (t, p, o) ∈ offsetsIn (requestIn r.1) → Below cfg logs base H' t p o

theorem Passes.well {s : GroupFirst δ} {r : FirstGroupOut δ × GroupFirst δ}
    (h : Passes cfg logs base H (fun x => x ∈ holds cfg s) r) : StepsWell cfg logs base H s r :=
  ⟨h.keep, fun _ hh _ _ => ⟨h.backed.mono hh, fun t p o ho => below_mono hh (h.sent t p o ho)⟩⟩

theorem Backed.well {s : GroupFirst δ} (h : Backed cfg logs base H s) :
    StepsWell cfg logs base H s (.group .nothing, s) :=
  (h.passes (fun _ hx => hx) rfl).well

theorem Backed.starting {s : GroupFirst δ} (h : Backed cfg logs base H s) {i : Nat} {ph : GroupPhase}
    (hi : s.starting.get? i = some ph) :
    i ∉ s.group.base.waiting.keys ∧ i ∉ s.group.commits.keys :=
  h.starts i (List.mem_map.2 ⟨_, Dict.mem_of_get? hi, rfl⟩)

theorem Backed.committing {s : GroupFirst δ} (h : Backed cfg logs base H s) {k : Nat}
    {x : Committing δ} (hk : s.group.commits.get? k = some x) :
    k ∉ s.starting.keys ∧ k ∉ s.group.base.waiting.keys := by
  have hm : k ∈ s.group.commits.keys := List.mem_map.2 ⟨_, Dict.mem_of_get? hk, rfl⟩
  exact ⟨fun hc => (h.starts k hc).2 hm, fun hc => h.apart k hc hm⟩

theorem adopted_either (ps : List OFPart) (p o : Int) :
    adopted ps p o = o ∨ ∃ q ∈ ps, q.id = p ∧ q.code = 0 ∧ adopted ps p o = q.offset := by
  unfold adopted
  split
  · rename_i q hq
    obtain ⟨h1, h2⟩ := List.mem_filter.1 (List.mem_of_getLast? hq)
    simp only [decide_eq_true_eq] at h2
    exact .inr ⟨q, h1, h2.1, h2.2, rfl⟩
  · exact .inl rfl

theorem well_base (hl : ∀ t p, IsLog (logs t p)) {s : GroupFirst δ} {bev : BEv GExt β}
    (h : Backed cfg logs base H s) (hc : ∀ i t, bev ≠ .consume i t)
    (hf : Fair WideBatch logs s.group.base bev)
    (hother : ∀ f, bev = .other f → ∀ c, (f c).synced = c.synced)
    (hno : ∀ e, (s.group.step gcfg cfg (.base bev)).1 ≠ .raised e) :
    StepsWell cfg logs base H s (.group (s.group.step gcfg cfg (.base bev)).1,
      ⟨(s.group.step gcfg cfg (.base bev)).2, s.starting⟩) := by
  simp only [GroupBusy.step] at hno ⊢
  cases hbs : s.group.base.step Grouped.allocation cfg bev with
  | mk out b =>
    rw [hbs] at hno
    have hb := fun hno' => base_backed hl h hc hf hother hbs hno'
    cases out with
    | raised e => exact absurd rfl (hno e)
    | nothing =>
      obtain ⟨h1, h2⟩ := hb (fun e he => by cases he)
      exact ⟨fun x hx => .inr ((h1 x hx).resolve_left (fun hc => by cases hc)), fun H' hh _ hn =>
        ⟨h2 H' hh hn, fun t p o ho => (by cases ho)⟩⟩
    | sent reqs =>
      obtain ⟨h1, h2⟩ := hb (fun e he => by cases he)
      exact ⟨fun x hx => .inr ((h1 x hx).resolve_left (fun hc => by cases hc)), fun H' hh _ hn =>
        ⟨h2 H' hh hn, fun t p o ho => (by cases ho)⟩⟩
    | returned topic res =>
      obtain ⟨h1, h2⟩ := hb (fun e he => by cases he)
      dsimp only at hno ⊢
      obtain ⟨i, rfl, _⟩ | ⟨i, w, rfl, hw, ht, rfl⟩ := busy_returned hbs
      · exact absurd rfl (hc i topic)
      · have hm : i ∈ s.group.base.waiting.keys := List.mem_map.2 ⟨_, Dict.mem_of_get? hw, rfl⟩
        have hy : topic ∈ s.group.base.consumer.synced := ht ▸ h.waits _ (Dict.mem_of_get? hw)
        have hpass : ∀ H' : String × δ → Prop, Backed cfg logs base H' ⟨⟨⟨{ s.group.base.consumer with
            heal := false }, s.group.base.waiting.erase i⟩, s.group.commits⟩, s.starting⟩ →
            Passes cfg logs base H' _ _ := fun H' hB =>
          passes_finish (gcfg := gcfg) (i := i) (topic := topic) (res := res) hB
            (fun hc => (h.starts i hc).1 hm) (fun hc => (key_of_erase hc).2 rfl) (h.apart i hm)
            (.inl ⟨hy, hno⟩)
        have hkeep := (hpass (fun _ => True) (h2 _ (fun _ _ => trivial) fun _ _ => trivial)).keep
        refine ⟨fun x hx => hkeep x ?_, fun H' hh hg hn => ?_⟩
        · rcases h1 x hx with hx | hx
          · rw [heldBy_returned] at hx
            exact .inr hx
          · exact .inl hx
        · have hp := hpass H' (h2 H' hh fun x hx => (hkeep x (.inl hx)).elim (hg x) (hn x))
          exact ⟨hp.backed, hp.sent⟩

theorem well_commit {s : GroupFirst δ} {gev : GroupEv β} (h : Backed cfg logs base H s)
    (hb : ∀ bev, gev ≠ .base bev)
    (hf : ∀ k md, gev = .commit k md → Unused s k)
    (hno : ∀ e, (s.group.step gcfg cfg gev).1 = .raised e → ByApplication s.group gev) :
    StepsWell cfg logs base H s (.group (s.group.step gcfg cfg gev).1,
      ⟨(s.group.step gcfg cfg gev).2, s.starting⟩) := by
  cases gev with
  | base bev => exact absurd rfl (hb bev)
  | commit k md =>
    obtain ⟨u1, u2, u3⟩ := hf k md rfl
    have := passes_ask (cfg := cfg) (k := k) (md := md) (result := .none) (g := s.group)
      (st := s.starting) h (Dict.get?_eq_none.1 u1) (Dict.get?_eq_none.1 u2) (.inr rfl)
    refine Passes.well ⟨this.backed, fun x hx => this.keep x (.inl ?_), this.sent⟩
    rw [mem_holds] at hx ⊢
    dsimp only
    rw [Dict.erase_of_not_mem (Dict.get?_eq_none.1 u3)]
    exact hx
  | answer k r =>
    simp only [GroupBusy.step] at hno ⊢
    split
    · rename_i req result hk
      simp only [hk] at hno
      cases hh : handleCommitResponse r s.group.base.consumer with
      | mk res c =>
        rw [hh] at hno
        obtain ⟨c1, c2, _⟩ := handleCommit_any hh
        have ho : ∀ t p, Below cfg logs base H t p (offsetOf c.offsets t p) := by
          rw [c1]; exact h.own
        have hy : ∀ t ∈ s.group.base.consumer.synced, t ∈ c.synced := by
          rw [c2]; exact fun t ht => ht
        cases res with
        | error e =>
          obtain ⟨ph, hp⟩ := hno e rfl
          rw [hk] at hp
          cases hp
          obtain ⟨o1, o2⟩ := commit_over h hk ho hy
          exact (o1.passes (out := .group (.raised e)) (fun x hx => (o2 x hx).resolve_left
            (fun hc => by cases hc)) rfl).well
        | ok x =>
          obtain ⟨retry, adjust⟩ := x
          exact (commit_on (x' := ⟨.answered retry (if adjust then "" else req.metadata), result⟩) h hk
            rfl ho hy).well
    · exact h.well
  | fails k e =>
    simp only [GroupBusy.step]
    split
    · rename_i req result hk
      refine (commit_on (c := if e = .streamClosed then s.group.base.consumer else
        { s.group.base.consumer with heal := true }) (x' := ⟨.failed, result⟩) h hk rfl ?_ ?_).well
      · split <;> exact h.own
      · split <;> exact fun t ht => ht
    · exact h.well
  | goOn k =>
    simp only [GroupBusy.step] at hno ⊢
    split
    · rename_i retry md result hk
      simp only [hk] at hno
      obtain ⟨k1, k2⟩ := h.committing hk
      have h' := h.same (c := { s.group.base.consumer with heal := false }) h.own fun t ht => ht
      split
      · rename_i hretry
        rw [if_pos hretry] at hno
        have := passes_ask (cfg := cfg) (k := k) (md := md) (result := result) h' k1 k2 (by
          by_cases hr : ∃ e, (GroupBusy.ask cfg k md result { s.group with base := { s.group.base with
              consumer := { s.group.base.consumer with heal := false } } }).1 = .raised e
          · obtain ⟨e, he⟩ := hr
            obtain ⟨ph, hp⟩ := hno e he
            rw [hk] at hp
            cases hp
            exact .inr rfl
          · exact .inl fun e he => hr ⟨e, he⟩)
        obtain ⟨_, o2⟩ := commit_over (c := { s.group.base.consumer with heal := false }) h hk h.own
          fun t ht => ht
        exact Passes.well ⟨this.backed, fun x hx => this.keep x (o2 x hx).symm, this.sent⟩
      · obtain ⟨o1, o2⟩ := commit_over (c := { s.group.base.consumer with heal := false }) h hk h.own
          fun t ht => ht
        split
        · rename_i topic res
          refine Passes.well ⟨o1, fun x hx => (o2 x hx).imp_left fun hx => ?_,
            fun t p o ho => (by cases ho)⟩
          rw [← givenBy_returned] at hx
          exact hx
        · exact Passes.well ⟨o1, fun x hx => .inr ((o2 x hx).resolve_left (fun hc => by cases hc)),
            fun t p o ho => (by cases ho)⟩
    · rename_i result hk
      simp only [hk] at hno
      obtain ⟨ph, hp⟩ := hno _ rfl
      rw [hk] at hp
      cases hp
      obtain ⟨o1, o2⟩ := commit_over (c := { s.group.base.consumer with heal := false }) h hk h.own
        fun t ht => ht
      exact Passes.well ⟨o1, fun x hx => .inr ((o2 x hx).resolve_left (fun hc => by cases hc)),
        fun t p o ho => (by cases ho)⟩
    · exact h.well
  | healFails k e =>
    simp only [GroupBusy.step] at hno ⊢
    split
    · exact h.well
    · exact h.well
    · rename_i x _ hk
      simp only [hk] at hno
      obtain ⟨ph, hp⟩ := hno e (by rfl)
      rw [hk] at hp
      cases hp
      obtain ⟨o1, o2⟩ := commit_over (c := s.group.base.consumer) h hk h.own fun t ht => ht
      exact Passes.well ⟨o1, fun x hx => .inr ((o2 x hx).resolve_left (fun hc => by cases hc)),
        fun t p o ho => (by cases ho)⟩

/-- One step of a member. -/
theorem member_step (hl : ∀ t p, IsLog (logs t p)) {s : GroupFirst δ} {ev : FirstGroupEv β}
    {named : String → Int → Int → Prop} (h : Backed cfg logs base H s)
    (hf : FairGroup WideBatch logs s ev) (hk : KeepsGroup s ev (s.step gcfg cfg ev).1)
    (hr : Reports named s ev) (hn : ∀ t p o, named t p o → Below cfg logs base H t p o) :
    StepsWell cfg logs base H s (s.step gcfg cfg ev) := by
  have hcons : ∀ c : Grouped, (∀ t p, Below cfg logs base H t p (offsetOf c.offsets t p)) →
      (∀ t ∈ s.group.base.consumer.synced, t ∈ c.synced) → Backed cfg logs base H
        ⟨{ s.group with base := { s.group.base with consumer := c } }, s.starting⟩ :=
    fun c ho hs => h.same ho hs
  cases ev with
  | call i topic =>
    obtain ⟨u1, u2, u3⟩ := hf
    have n2 := Dict.get?_eq_none.1 u2
    have n3 := Dict.get?_eq_none.1 u3
    simp only [GroupFirst.step]
    split
    · exact (passes_end h n2 n3 rfl).well
    · split
      · rename_i hy
        exact (passes_proceed h n2 n3 hy).well
      · exact (passes_determine h n2 n3).well
  | offsets i r =>
    simp only [GroupFirst.step]
    split
    · rename_i topic parts b hi
      obtain ⟨n2, n3⟩ := h.starting hi
      obtain ⟨ps, hps⟩ := hf topic parts b hi
      obtain ⟨g1, g2⟩ := handleOffsetFetchParts_heeded topic ps s.group.base.consumer false
      have hresp : handleOffsetFetchResponse r s.group.base.consumer =
          handleOffsetFetchParts topic ps s.group.base.consumer false := by
        simp only [handleOffsetFetchResponse, hps]
      simp only [hresp]
      cases hc : handleOffsetFetchParts topic ps s.group.base.consumer false with
      | mk res c =>
        rw [hc] at g1 g2
        have ho : ∀ t p, Below cfg logs base H t p (offsetOf c.offsets t p) := by
          intro t p
          rw [g1 t p]
          split
          · rename_i e
            subst e
            rcases adopted_either (heeded ps) p (offsetOf s.group.base.consumer.offsets t p) with
              e | ⟨q, hq, hid, h0, e⟩
            · rw [e]; exact h.own t p
            · rw [e, ← hid]
              exact hn _ _ _ (hr t parts b hi (t, ps) (by rw [hps]; exact List.mem_singleton.2 rfl) q
                ((List.takeWhile_prefix _).subset hq) h0)
          · exact h.own t p
        have h' := hcons c ho fun t ht => by
          dsimp only at g2
          rw [g2]
          exact ht
        cases res with
        | ok retry => exact ((h'.set i _ n2 n3 (fun t e => by cases e)).passes (fun x hx => hx) rfl).well
        | error e => exact (passes_undetermined h' n2 n3).well
    · exact h.well
  | offsetsFail i e =>
    simp only [GroupFirst.step]
    split
    · rename_i topic parts b hi
      obtain ⟨n2, n3⟩ := h.starting hi
      have h' := hcons (if e = .streamClosed then s.group.base.consumer else
        { s.group.base.consumer with heal := true }) (by split <;> exact h.own)
        (by split <;> exact fun t ht => ht)
      exact ((h'.set i _ n2 n3 (fun t e => by cases e)).passes (fun x hx => hx) rfl).well
    · exact h.well
  | goOn i =>
    simp only [GroupFirst.step]
    split
    · rename_i topic parts b retry hi
      obtain ⟨n2, n3⟩ := h.starting hi
      have h' := hcons { s.group.base.consumer with heal := false } h.own fun t ht => ht
      split
      · exact (passes_left h' (fun x hx => hx) rfl).well
      · split
        · exact (passes_want (s := ⟨{ s.group with base := { s.group.base with consumer := {
            s.group.base.consumer with heal := false } } }, s.starting⟩) h' n2 n3).well
        · have h2 := hcons { s.group.base.consumer with heal := false, synced := (addSet
            s.group.base.consumer.synced topic) } h.own fun t ht => (mem_addSet _ _ _).2 (.inr ht)
          exact (passes_proceed h2 n2 n3 ((mem_addSet _ _ _).2 (.inl rfl))).well
    · exact (passes_left (hcons { s.group.base.consumer with heal := false } h.own fun t ht => ht)
        (fun x hx => hx) rfl).well
    · exact h.well
  | healed i =>
    simp only [GroupFirst.step]
    split
    · rename_i topic hi
      obtain ⟨n2, n3⟩ := h.starting hi
      split
      · exact (passes_left h (fun x hx => hx) rfl).well
      · split
        · exact (passes_fetch h n2 n3 (h.heals i topic (Dict.mem_of_get? hi))).well
        · exact (passes_end h n2 n3 rfl).well
    · exact h.well
  | healFails i e =>
    simp only [GroupFirst.step]
    split
    · exact h.well
    · rename_i hi
      obtain ⟨n2, n3⟩ := h.starting hi
      exact (passes_undetermined h n2 n3).well
    · rename_i hi
      obtain ⟨n2, n3⟩ := h.starting hi
      exact (passes_undetermined h n2 n3).well
    · exact (passes_left h (fun x hx => hx) rfl).well
    · exact h.well
  | group gev =>
    by_cases hc : ∃ i t, gev = .base (.consume i t)
    · obtain ⟨i, t, rfl⟩ := hc
      exact h.well
    · have hst : s.step gcfg cfg (.group gev) = (.group (s.group.step gcfg cfg gev).1,
          ⟨(s.group.step gcfg cfg gev).2, s.starting⟩) := by
        cases gev with
        | base bev =>
          cases bev with
          | consume i t => exact absurd ⟨i, t, rfl⟩ hc
          | _ => rfl
        | _ => rfl
      rw [hst] at hk ⊢
      have hno : ∀ e, (s.group.step gcfg cfg gev).1 = .raised e → ByApplication s.group gev :=
        fun e he => hk e gev (by rw [he]) rfl
      by_cases hb : ∃ bev, gev = .base bev
      · obtain ⟨bev, rfl⟩ := hb
        refine well_base hl h (fun i t e => hc ⟨i, t, by rw [e]⟩) ?_ ?_ fun e he => hno e he
        · cases bev with
          | consume i t => exact absurd ⟨i, t, rfl⟩ hc
          | other f => exact fun c => (hf c).1
          | _ => exact hf
        · rintro f rfl c
          exact (hf c).2
      · refine well_commit h (fun bev e => hb ⟨bev, e⟩) ?_ hno
        rintro k md rfl
        exact hf

/-! ### The group -/

/-- Where nothing has been consumed there is nothing to account for. -/
theorem below_zero (hl : ∀ t p, IsLog (logs t p)) (t : String) (p : Int) :
    Below cfg logs base H t p 0 :=
  fun m hm _ h2 => absurd ((hl t p).nonneg m hm) (by omega)

theorem blank_backed (hl : ∀ t p, IsLog (logs t p)) {c : Grouped} (h : JustMade c) :
    Backed cfg logs base H ⟨⟨⟨c, []⟩, []⟩, []⟩ :=
  ⟨⟨by simp [Dict.keys], by simp⟩, by simp [Dict.keys], by simp [Dict.keys], by simp [Dict.keys],
    by simp, by simp, fun t p => by
      show Below cfg logs base H t p (offsetOf c.offsets t p)
      rw [h.1]
      exact below_zero hl t p, by simp⟩

/-- The invariant of the group. -/
structure BandInv (cfg : CCfg β δ) (logs : String → Int → List (Int × β))
    (base : String → Int → Int) (g : Band δ) : Prop where
  members : ∀ i, Backed cfg logs base (g.Has cfg) (g.members i)
  sent : ∀ t p o, (t, p, o) ∈ offsetsIn g.sent → Below cfg logs base (g.Has cfg) t p o

theorem band_inv (hl : ∀ t p, IsLog (logs t p)) {gs : Nat → GCfg} {g : Band δ}
    (h : BandRun gs cfg logs NoneWaits base g) : BandInv cfg logs base g := by
  induction h with
  | start members hb => exact ⟨fun i => blank_backed hl (hb i), fun t p o ho => by cases ho⟩
  | @step g g' _ hst ih =>
  cases hst with
  | event i ev out s hf hk hr hs =>
    have hw := member_step (gcfg := gs i) hl (ih.members i) hf (by rw [hs]; exact hk) hr fun t p o ho => by
      rcases ho with ho | ho
      · exact fun m _ h1 h2 => absurd h1 (by omega)
      · exact ih.sent t p o ho
    rw [hs] at hw
    obtain ⟨hkeep, hgo⟩ := hw
    have hhas : ∀ x, g.Has cfg x →
        (⟨g.put i s, g.sent ++ requestIn out, g.returned ++ groupGiven out⟩ : Band δ).Has cfg x := by
      rintro x (hx | ⟨j, hx⟩)
      · exact .inl (List.mem_append_left _ hx)
      · by_cases hj : j = i
        · subst hj
          rcases hkeep x hx with hx | hx
          · exact .inl (List.mem_append_right _ hx)
          · exact .inr ⟨j, by simpa [Band.put] using hx⟩
        · exact .inr ⟨j, by simpa [Band.put, hj] using hx⟩
    obtain ⟨k1, k2⟩ := hgo _ hhas (fun x hx => .inl (List.mem_append_right _ hx))
      fun x hx => .inr ⟨i, by simpa [Band.put] using hx⟩
    refine ⟨fun j => ?_, fun t p o ho => ?_⟩
    · show Backed cfg logs base _ (if j = i then s else g.members j)
      split
      · exact k1
      · exact (ih.members j).mono hhas
    · rw [offsetsIn, List.flatMap_append] at ho
      rcases List.mem_append.1 ho with ho | ho
      · exact below_mono hhas (ih.sent t p o ho)
      · exact k2 t p o ho
  | rebalance i a hmay =>
    have hhas : ∀ x, g.Has cfg x ↔
        (⟨g.put i (reshared a (g.members i)), g.sent, g.returned⟩ : Band δ).Has cfg x := by
      refine fun x => or_congr Iff.rfl (exists_congr fun j => ?_)
      show _ ↔ x ∈ holds cfg (if j = i then _ else _)
      split
      · rename_i e
        subst e
        exact Iff.rfl
      · exact Iff.rfl
    refine ⟨fun j => ?_, fun t p o ho => below_mono (fun x => (hhas x).1) (ih.sent t p o ho)⟩
    show Backed cfg logs base _ (if j = i then _ else g.members j)
    split
    · have h := (ih.members i).mono fun x => (hhas x).1
      exact ⟨⟨h.sound.nodup, h.sound.each⟩, h.nodup, h.starts, h.apart,
        fun w hw => absurd (hmay.1 ▸ hw : w ∈ []) List.not_mem_nil,
        fun k t hk => absurd rfl (hmay.2 _ hk t), h.own, h.asked⟩
    · exact (ih.members j).mono fun x => (hhas x).1
  | replaced i c hnone hb =>
    have hhas : ∀ x, g.Has cfg x →
        (⟨g.put i (resting (fun _ => c) i), g.sent, g.returned⟩ : Band δ).Has cfg x := by
      rintro x (hx | ⟨j, hx⟩)
      · exact .inl hx
      · by_cases hj : j = i
        · subst hj
          rw [hnone] at hx
          cases hx
        · exact .inr ⟨j, by simpa [Band.put, hj] using hx⟩
    refine ⟨fun j => ?_, fun t p o ho => below_mono hhas (ih.sent t p o ho)⟩
    show Backed cfg logs base _ (if j = i then _ else g.members j)
    split
    · exact blank_backed hl hb
    · exact (ih.members j).mono hhas

/-- **C114**: in any history of a group whose members' calls overlap in any way, each of which may be
rebalanced whenever none of its `consume`s waits for messages or looks the cluster up, whatever other
calls are under way, and lost whenever its calls hold no messages: every message before an offset that
a member has asked the coordinator to store has been returned by a `consume` of some member, or is
held by a call under way, which will return it, unless it cannot be deserialized or is false to
Python.  The coordinator may answer with any offset that it has been asked to store. -/
theorem C114_committed (gcfg : Nat → GCfg) (cfg : CCfg β δ) (logs : String → Int → List (Int × β))
    (hl : ∀ t p, IsLog (logs t p)) (base : String → Int → Int) (g : Band δ)
    (h : BandRun gcfg cfg logs NoneWaits base g) (t : String) (p o : Int)
    (ho : (t, p, o) ∈ offsetsIn g.sent) : Below cfg logs base (g.Has cfg) t p o :=
  (band_inv hl h).sent t p o ho

/-- **C114**, where members go on: the same of every message before the offset of any member. -/
theorem C114_position (gcfg : Nat → GCfg) (cfg : CCfg β δ) (logs : String → Int → List (Int × β))
    (hl : ∀ t p, IsLog (logs t p)) (base : String → Int → Int) (g : Band δ)
    (h : BandRun gcfg cfg logs NoneWaits base g) (i : Nat) (t : String) (p : Int) :
    Below cfg logs base (g.Has cfg) t p (offsetOf (g.member i).offsets t p) :=
  ((band_inv hl h).members i).own t p

/-- **C114**, when no call is under way: the messages before committed offsets, and before those of
members, have been returned. -/
theorem C114_returned (gcfg : Nat → GCfg) (cfg : CCfg β δ) (logs : String → Int → List (Int × β))
    (hl : ∀ t p, IsLog (logs t p)) (base : String → Int → Int) (g : Band δ)
    (h : BandRun gcfg cfg logs NoneWaits base g) (hr : ∀ i, AtRest (g.members i)) (t : String)
    (p o : Int) (ho : (t, p, o) ∈ offsetsIn g.sent ∨ ∃ i, o = offsetOf (g.member i).offsets t p) :
    AllReturned cfg logs base g.returned t p o := by
  have hb : Below cfg logs base (g.Has cfg) t p o := by
    rcases ho with ho | ⟨i, rfl⟩
    · exact C114_committed gcfg cfg logs hl base g h t p o ho
    · exact C114_position gcfg cfg logs hl base g h i t p
  intro m hm h1 h2 d hd htr
  rcases hb m hm h1 h2 d hd htr with hx | ⟨i, hx⟩
  · exact hx
  · rw [atRest_holds (hr i)] at hx
    cases hx

/-! ### Concrete groups -/

theorem fair_wide {s : GroupFirst Nat} {ev : FirstGroupEv Nat} (h : FairGroup Batch exPartLogs s ev) :
    FairGroup WideBatch exPartLogs s ev := by
  cases ev with
  | group gev =>
    cases gev with
    | base bev =>
      cases bev with
      | outcome i broker r =>
        cases r with
        | ok r =>
          intro w hw q hq hb
          obtain ⟨ps, h1, h2, h3⟩ := h w hw q hq hb
          refine ⟨ps, h1, h2, fun p hp => ⟨(h3 p hp).1, fun hc => ?_⟩⟩
          obtain ⟨f, k1, k2, k3⟩ := (h3 p hp).2 hc
          exact ⟨f, k1, k2, batch_wide (exPartLogs_ok _ _) k3⟩
        | _ => exact h
      | _ => exact h
    | _ => exact h
  | _ => exact h

/-- What the coordinator reports, checked. -/
def exReports (sent : List CommitReq) (s : GroupFirst Nat) : FirstGroupEv Nat → Bool
  | .offsets i r =>
    match s.starting.get? i with
    | some (.asking _ _ _) => r.topics.all fun x => x.2.all fun q =>
        decide (q.offset ≤ 0) || decide ((x.1, q.id, q.offset) ∈ offsetsIn sent)
    | _ => true
  | _ => true

def exBandOk (s : GroupFirst Nat) (ev : FirstGroupEv Nat) (out : FirstGroupOut Nat) : Bool :=
  match ev, out with
  | .healed _, .group (.raised _) => false
  | .healed _, _ => true
  | ev, out => exFirstCheck false s ev out

/-- Something happens to a member. -/
def exBandEv (gs : Nat → GCfg) (g : Band Nat) (i : Nat) (ev : FirstGroupEv Nat) : Band Nat :=
  ⟨g.put i ((g.members i).step (gs i) exCCfg ev).2,
    g.sent ++ requestIn ((g.members i).step (gs i) exCCfg ev).1,
    g.returned ++ groupGiven ((g.members i).step (gs i) exCCfg ev).1⟩

def exBandRun (gs : Nat → GCfg) : Band Nat → List (Nat × FirstGroupEv Nat) → Band Nat
  | g, [] => g
  | g, (i, ev) :: evs => exBandRun gs (exBandEv gs g i ev) evs

def exBandCheck (gs : Nat → GCfg) : Band Nat → List (Nat × FirstGroupEv Nat) → Bool
  | _, [] => true
  | g, (i, ev) :: evs =>
    exBandOk (g.members i) ev ((g.members i).step (gs i) exCCfg ev).1 &&
      exReports g.sent (g.members i) ev && exBandCheck gs (exBandEv gs g i ev) evs

theorem exBand {gs : Nat → GCfg} {may : GroupFirst Nat → Prop} (evs : List (Nat × FirstGroupEv Nat)) :
    ∀ g : Band Nat, BandRun gs exCCfg exPartLogs may (fun _ _ => 0) g → exBandCheck gs g evs = true →
      BandRun gs exCCfg exPartLogs may (fun _ _ => 0) (exBandRun gs g evs) := by
  induction evs with
  | nil => exact fun g h _ => h
  | cons x evs ih =>
    obtain ⟨i, ev⟩ := x
    intro g h hc
    simp only [exBandCheck, Bool.and_eq_true] at hc
    obtain ⟨⟨h1, h2⟩, h3⟩ := hc
    have hr : Reports (g.Named fun _ _ => 0) (g.members i) ev := by
      cases ev with
      | offsets j r =>
        intro t parts b hj x hx q hq _
        simp only [exReports, hj, List.all_eq_true, Bool.or_eq_true, decide_eq_true_eq] at h2
        exact h2 x hx q hq
      | _ => trivial
    generalize ho : ((g.members i).step (gs i) exCCfg ev).1 = o at h1
    have hk : FairGroup WideBatch exPartLogs (g.members i) ev ∧ KeepsGroup (g.members i) ev o := by
      by_cases hh : ∃ j, ev = .healed j
      · obtain ⟨j, rfl⟩ := hh
        exact ⟨trivial, fun e gev _ he => by cases he⟩
      · have h4 : exFirstCheck false (g.members i) ev o = true := by
          cases ev with
          | healed j => exact absurd ⟨j, rfl⟩ hh
          | _ => exact h1
        obtain ⟨k1, _, k3⟩ := exFirstCheck_sound h4
        exact ⟨fair_wide k1, k3⟩
    subst ho
    exact ih _ (h.step (.event i ev _ _ hk.1 hk.2 hr rfl)) h3

theorem exBand_other {gs : Nat → GCfg} (evs : List (Nat × FirstGroupEv Nat)) (i : Nat)
    (h : i ∉ evs.map (·.1)) : ∀ g : Band Nat, (exBandRun gs g evs).members i = g.members i := by
  induction evs with
  | nil => exact fun g => rfl
  | cons x evs ih =>
    intro g
    simp only [List.map_cons, List.mem_cons, not_or] at h
    rw [exBandRun, ih h.2]
    exact if_neg h.1

/-- A member is told its share. -/
def exBandShare (a : Dict String (List Int)) (i : Nat) (g : Band Nat) : Band Nat :=
  ⟨g.put i (reshared a (g.members i)), g.sent, g.returned⟩

def exBand0 : Band Nat := ⟨resting (exMembers2 0 1), [], []⟩

theorem exBand0_run (gs : Nat → GCfg) (may : GroupFirst Nat → Prop) :
    BandRun gs exCCfg exPartLogs may (fun _ _ => 0) exBand0 := by
  refine .start _ fun i => ?_
  unfold exMembers2
  split
  · exact ⟨rfl, rfl, rfl⟩
  · split <;> exact ⟨rfl, rfl, rfl⟩

/-- Member 0, with commits by the application, consumes t and calls `commit_offsets`. -/
def exBandFirst : List (Nat × FirstGroupEv Nat) :=
  [(0, .call 0 "t"), (0, .offsets 0 (exGroupTold "t" 0)), (0, .goOn 0),
   (0, .group (.base (.outcome 0 7 (.ok (exPart 0 [(0, 5)]))))), (0, .group (.base (.finish 0))),
   (0, .group (.commit 1 "")), (1, .call 3 "u")]

/-- While that is under way members are rebalanced; member 1 goes on with t. -/
def exBandThen : List (Nat × FirstGroupEv Nat) :=
  [(1, .call 0 "t"), (1, .offsets 0 (exGroupTold "t" 1)), (1, .goOn 0), (0, .call 0 "u"),
   (1, .group (.base (.outcome 0 7 (.ok (exPart 0 [(3, 99), (4, 6)])))))]

def exBand1 : Band Nat := exBandShare [("t", [0])] 1
  (exBandShare [("u", [0])] 0 (exBandRun (fun _ => exManual) exBand0 exBandFirst))
def exBand2 : Band Nat := exBandRun (fun _ => exManual) exBand1 exBandThen

theorem exNoneWaits (s : GroupFirst Nat) (h : (s.group.base.waiting.isEmpty &&
    s.starting.all fun x => match x.2 with | .healing _ => false | _ => true) = true) : NoneWaits s := by
  simp only [Bool.and_eq_true, List.isEmpty_iff, List.all_eq_true] at h
  refine ⟨h.1, fun x hx t e => ?_⟩
  have := h.2 x hx
  rw [e] at this
  cases this

theorem exBand2_run : BandRun (fun _ => exManual) exCCfg exPartLogs NoneWaits (fun _ _ => 0) exBand2 :=
  exBand _ _ (((exBand _ _ (exBand0_run _ _) (by decide +kernel)).step
    (.rebalance 0 _ (exNoneWaits _ (by decide +kernel)))).step
    (.rebalance 1 _ (exNoneWaits _ (by decide +kernel)))) (by decide +kernel)

-- Non-vacuity of `C114_committed` and `C114_position`: member 0 has asked that offset 1 be stored, and
-- was rebalanced before there was an answer; member 1, rebalanced while it determined offsets, has been
-- told that offset and holds the next message.
example : BandRun (fun _ => exManual) exCCfg exPartLogs NoneWaits (fun _ _ => 0) exBand2 ∧
    ("t", 0, 1) ∈ offsetsIn exBand2.sent ∧ exBand2.returned = [("t", 5)] ∧
    holds exCCfg (exBand2.members 1) = [("t", 6)] ∧ offsetOf (exBand2.member 1).offsets "t" 0 = 5 ∧
    (exBand2.members 0).group.commits ≠ [] :=
  ⟨exBand2_run, by decide +kernel, by decide +kernel, by decide +kernel, by decide +kernel,
    by decide +kernel⟩

/-- The calls of member 1 come to their ends. -/
def exBandLast : List (Nat × FirstGroupEv Nat) :=
  [(1, .group (.base (.finish 0))), (1, .offsets 3 (exGroupTold "u" 0)), (1, .goOn 3), (1, .healed 3)]

/-- Member 0 is lost. -/
def exBand3 : Band Nat :=
  let g := exBandRun (fun _ => exManual) exBand2 exBandLast
  ⟨g.put 0 (resting (fun _ => exMember []) 0), g.sent, g.returned⟩

theorem exBand3_run : BandRun (fun _ => exManual) exCCfg exPartLogs NoneWaits (fun _ _ => 0) exBand3 :=
  (exBand _ _ exBand2_run (by decide +kernel)).step (.replaced 0 _ (by decide +kernel) ⟨rfl, rfl, rfl⟩)

theorem put_ne {g : Band Nat} {i j : Nat} {s : GroupFirst Nat} (h : j ≠ i) :
    g.put i s j = g.members j := if_neg h

theorem exBand3_rest (i : Nat) : AtRest (exBand3.members i) := by
  by_cases h0 : i = 0
  · subst h0; exact ⟨rfl, rfl, rfl⟩
  · by_cases h1 : i = 1
    · subst h1; exact exAtRest _ (by decide +kernel)
    · rw [exBand3]
      dsimp only
      rw [put_ne h0, exBand_other _ i (by simp [exBandLast, h1]), exBand2,
        exBand_other _ i (by simp [exBandThen, h0, h1]), exBand1, exBandShare]
      dsimp only
      rw [put_ne h1, exBandShare]
      dsimp only
      rw [put_ne h0, exBand_other _ i (by simp [exBandFirst, h0, h1])]
      exact ⟨rfl, rfl, rfl⟩

-- Non-vacuity of `C114_returned`: no call is under way any more.
example : BandRun (fun _ => exManual) exCCfg exPartLogs NoneWaits (fun _ _ => 0) exBand3 ∧
    (∀ i, AtRest (exBand3.members i)) ∧ ("t", 0, 1) ∈ offsetsIn exBand3.sent ∧
    5 = offsetOf (exBand3.member 1).offsets "t" 0 ∧ exBand3.returned = [("t", 5), ("t", 6)] :=
  ⟨exBand3_run, exBand3_rest, by decide +kernel, by decide +kernel, by decide +kernel⟩

/-- With automatic commits: a `consume` of t has got a message; another one gets the next ones, commits
and returns them; then the member is rebalanced, and the first `consume` comes to its end. -/
def exDropFirst : List (Nat × FirstGroupEv Nat) :=
  [(0, .call 0 "t"), (0, .offsets 0 (exGroupTold "t" 0)), (0, .goOn 0),
   (0, .group (.base (.outcome 0 7 (.ok (exPart 0 [(0, 5)]))))), (0, .call 1 "t"),
   (0, .group (.base (.outcome 1 7 (.ok (exPart 0 [(3, 99), (4, 6)]))))), (0, .group (.base (.finish 1))),
   (0, .group (.answer 1 ⟨[("t", [(0, 0)])]⟩)), (0, .group (.goOn 1))]

def exDrop : Band Nat := exBandRun (fun _ => exAuto)
  (exBandShare [("t", [0])] 0 (exBandRun (fun _ => exAuto) exBand0 exDropFirst))
  [(0, .group (.base (.finish 0)))]

/-- A member must not be rebalanced while a `consume` waits for messages, even if it has nothing left
to commit: the offset that was committed covers a message that is dropped. -/
theorem C114_false_waits : ∃ g : Band Nat, BandRun (fun _ => exAuto) exCCfg exPartLogs
      (fun s => s.group.base.consumer.ext.toCommit = [] ∧ s.starting = []) (fun _ _ => 0) g ∧
    (∀ i, AtRest (g.members i)) ∧ ("t", 0, 5) ∈ offsetsIn g.sent ∧ g.returned = [("t", 6)] ∧
    exPartLogs "t" 0 = [(0, 5), (3, 99), (4, 6)] := by
  refine ⟨exDrop, exBand _ _ ((exBand _ _ (exBand0_run _ _) (by decide +kernel)).step
    (.rebalance 0 _ (by decide +kernel))) (by decide +kernel), fun i => ?_,
    by decide +kernel, by decide +kernel, by decide +kernel⟩
  by_cases h0 : i = 0
  · subst h0; exact exAtRest _ (by decide +kernel)
  · rw [exDrop, exBand_other _ i (by simp [h0]), exBandShare]
    dsimp only
    rw [put_ne h0, exBand_other _ i (by simp [exDropFirst, h0])]
    exact ⟨rfl, rfl, rfl⟩

/-- With commits by the application: t is consumed; a rebalance leaves the member no partition of t;
another `consume` of t looks the cluster up. -/
def exHealFirst : List (Nat × FirstGroupEv Nat) :=
  [(0, .call 0 "t"), (0, .offsets 0 (exGroupTold "t" 0)), (0, .goOn 0),
   (0, .group (.base (.outcome 0 7 (.ok (exPart 0 [(0, 5)]))))), (0, .group (.base (.finish 0)))]
def exHealThen : List (Nat × FirstGroupEv Nat) :=
  [(0, .call 1 "t"), (0, .offsets 1 ⟨[("t", [])]⟩), (0, .goOn 1)]

/-- Meanwhile a rebalance gives the partition back; what is then fetched is dropped, and the
application commits. -/
def exHealLast : List (Nat × FirstGroupEv Nat) :=
  [(0, .healed 1), (0, .group (.base (.outcome 1 7 (.ok (exPart 0 [(3, 99), (4, 6)]))))),
   (0, .group (.base (.finish 1))), (0, .group (.commit 2 "")),
   (0, .group (.answer 2 ⟨[("t", [(0, 0)])]⟩)), (0, .group (.goOn 2))]

def exHeal1 : Band Nat := exBandRun (fun _ => exManual) exBand0 exHealFirst
def exHeal2 : Band Nat := exBandRun (fun _ => exManual) (exBandShare [("t", [])] 0 exHeal1) exHealThen
def exHeal3 : Band Nat := exBandRun (fun _ => exManual) (exBandShare [("t", [0])] 0 exHeal2) exHealLast

/-- Nor must it be rebalanced while a `consume` looks the cluster up, which has not sent its request
yet. -/
theorem C114_false_heals : ∃ g : Band Nat, BandRun (fun _ => exManual) exCCfg exPartLogs
      (fun s => s.group.base.waiting = []) (fun _ _ => 0) g ∧
    (∀ i, AtRest (g.members i)) ∧ ("t", 0, 5) ∈ offsetsIn g.sent ∧ g.returned = [("t", 5)] ∧
    exPartLogs "t" 0 = [(0, 5), (3, 99), (4, 6)] := by
  have e {α : Type} (l : List α) (h : l.isEmpty = true) : l = [] := List.isEmpty_iff.1 h
  refine ⟨exHeal3, exBand _ _ ((exBand _ _ ((exBand _ _ (exBand0_run _ _) (by decide +kernel)).step
    (.rebalance 0 _ (e _ (by decide +kernel)))) (by decide +kernel)).step
    (.rebalance 0 _ (e _ (by decide +kernel)))) (by decide +kernel), fun i => ?_, by decide +kernel, by decide +kernel, by decide +kernel⟩
  by_cases h0 : i = 0
  · subst h0; exact exAtRest _ (by decide +kernel)
  · rw [exHeal3, exBand_other _ i (by simp [exHealLast, h0]), exBandShare]
    dsimp only
    rw [put_ne h0, exHeal2, exBand_other _ i (by simp [exHealThen, h0]), exBandShare]
    dsimp only
    rw [put_ne h0, exHeal1, exBand_other _ i (by simp [exHealFirst, h0])]
    exact ⟨rfl, rfl, rfl⟩

end Kiel
