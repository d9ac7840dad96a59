import Verif.Model.FirstConsumes
import Verif.Model.FirstGrouped
import Verif.Props.Halves
/-
Two models of `consume`, the one that begins with the fetches and the one that begins with the
determining of offsets, agree on topics that need no determining.
-/
set_option autoImplicit false
namespace Kiel

variable {β δ : Type}

theorem erase_absent {ν : Type} (d : Dict Nat ν) (i : Nat) (h : d.get? i = none) : d.erase i = d := by
  refine List.filter_eq_self.2 fun e he => ?_
  by_contra hc
  have : e.1 = i := by simpa using hc
  have hm : i ∈ d.map (·.1) := List.mem_map.2 ⟨e, he, this⟩
  have := Dict.has_iff.2 (show i ∈ d.keys from hm)
  simp [Dict.has, h] at this

/-- `SingleConsumer`: a `consume` that needs no offsets determined and no `heal()`. -/
theorem consume_synced_single (cfg : CCfg β δ) (s : SingleBusy δ) (i : Nat) (topic : String)
    (start : Start) (now : Int) (hi : s.starting.get? i = none)
    (h : s.base.consumer.closing = true ∨ topic ∈ s.base.consumer.synced ∧
      (allocated s.base.consumer.cluster.topics topic).isSome) :
    s.step cfg (.call i topic start now) =
      ((s.base.step Single.allocation cfg (.consume i topic)).1.first,
        { s with base := (s.base.step Single.allocation cfg (.consume i topic)).2 }) := by
  simp only [SingleBusy.step, Busy.step]
  by_cases hc : s.base.consumer.closing = true
  · simp [hc, BOut.first]
  · obtain ⟨hs, hp⟩ := h.resolve_left hc
    obtain ⟨parts, hp⟩ := Option.isSome_iff_exists.1 hp
    have hc : s.base.consumer.closing = false := by simpa using hc
    simp only [hc, hs, if_false, if_true, not_true, Bool.false_eq_true, SingleBusy.proceed, Single.allocation, hp,
      SingleBusy.fetch, erase_absent _ _ hi]
    rcases s.base.consumer.fetches cfg topic parts with ⟨_ | reqs, c⟩
    · rfl
    · simp only
      cases sendStart (fun l => c.cluster.conns.has l) (cfg.write i "fetch")
        (reqs.map (·.broker)) <;> rfl

/-- `GroupedConsumer`: the same. -/
theorem consume_synced_grouped (gcfg : GCfg) (cfg : CCfg β δ) (s : GroupFirst δ) (i : Nat)
    (topic : String) (hi : s.starting.get? i = none)
    (h : s.group.base.consumer.closing = true ∨ topic ∈ s.group.base.consumer.synced ∧
      ∀ a, Grouped.allocation s.group.base.consumer = .ok a → (allocated a topic).isSome) :
    s.step gcfg cfg (.call i topic) =
      (.group (s.group.step gcfg cfg (.base (.consume i topic))).1,
        { s with group := (s.group.step gcfg cfg (.base (.consume i topic))).2 }) := by
  simp only [GroupFirst.step, GroupBusy.step, Busy.step]
  by_cases hc : s.group.base.consumer.closing = true
  · simp [hc, GroupFirst.leave, erase_absent _ _ hi, BEv.number]
  · obtain ⟨hs, hp⟩ := h.resolve_left hc
    have hc : s.group.base.consumer.closing = false := by simpa using hc
    simp only [hc, hs, if_false, if_true, not_true, Bool.false_eq_true, GroupFirst.proceed]
    rcases ha : Grouped.allocation s.group.base.consumer with e | a
    · simp [GroupFirst.leave, erase_absent _ _ hi]
    · obtain ⟨parts, hp⟩ := Option.isSome_iff_exists.1 (hp a ha)
      simp only [hp, GroupFirst.fetch, GroupFirst.leave, erase_absent _ _ hi]
      rcases s.group.base.consumer.fetches cfg topic parts with ⟨_ | reqs, c⟩
      · rfl
      · simp only
        cases sendStart (fun l => c.cluster.conns.has l) (cfg.write i "fetch")
          (reqs.map (·.broker)) <;> rfl

-- Non-vacuity of `consume_synced_single`: two topics, the offsets of which are known; the other
-- topic's `consume` waits for its offsets.
example : ∃ s : SingleBusy Nat, s.starting = [(5, .determining "u" [exAsk "u" 0])] ∧
    s.starting.get? 1 = none ∧ "t" ∈ s.base.consumer.synced ∧
    (allocated s.base.consumer.cluster.topics "t").isSome ∧
    ∃ reqs, (s.step exCCfg (.call 1 "t" .unset 0)).1 = .sent reqs ∧ reqs ≠ [] :=
  ⟨⟨⟨exTwoTopics, []⟩, [(5, .determining "u" [exAsk "u" 0])]⟩, rfl, by decide +kernel,
    by decide +kernel, by decide +kernel, _, rfl, by decide +kernel⟩

/-- A consumer of both partitions of B that knows its offsets. -/
def exKnows : GroupFirst Nat :=
  ⟨⟨⟨{ Grouped.new exGCluster with
    ext := ⟨some 8, [], some [("B", [0, 1])]⟩, synced := ["B"] }, []⟩, []⟩, []⟩

-- Non-vacuity of `consume_synced_grouped`.
example : exKnows.starting.get? 1 = none ∧ "B" ∈ exKnows.group.base.consumer.synced ∧
    (∀ a, Grouped.allocation exKnows.group.base.consumer = .ok a → (allocated a "B").isSome) ∧
    (match (exKnows.step ⟨"", false⟩ exCCfg (.call 1 "B")).1 with
      | .group (.sent reqs) => reqs.length == 2
      | _ => false) = true := by
  refine ⟨by decide +kernel, by decide +kernel, ?_, by decide +kernel⟩
  intro a h
  cases h
  decide +kernel

end Kiel
