import Verif.Spec.Progress
import Verif.Props.Consumer
/-
C86: consumers that are supplied with messages reach the end of the log.
-/
set_option autoImplicit false
namespace Kiel
open Spec

variable {ε β δ : Type}

theorem Spec.ConsumedN.forget {allocation : Consumer ε → Res (Dict String (List Int))}
    {determine : String → Consumer ε → Res Unit × Consumer ε} {cfg : CCfg β δ}
    {batch : List (Int × β) → Int → List (Int × β) → Prop} {logs : String → Int → List (Int × β)}
    {t : String} {p : Int} {n : Nat} {c c' : Consumer ε} {outs : List (String × δ)}
    (h : ConsumedN allocation determine cfg batch logs t p n c outs c') :
    Consumed allocation determine cfg batch logs c outs c' := by
  induction h with
  | nil c => exact .nil c
  | cons h1 h2 h3 h4 _ _ ih => exact .cons h1 h2 h3 h4 ih

/-- The offset after a list of messages in order is past each that can be deserialized. -/
theorem after_past (cfg : CCfg β δ) (ms : List (Int × β)) (o : Int)
    (hs : ms.Pairwise fun a b => a.1 < b.1) (m : Int × β) (hm : m ∈ ms)
    (hd : (decode cfg m.2).isSome) (h0 : 0 ≤ m.1) : m.1 < after cfg ms o := by
  unfold after
  have hmem : m ∈ ms.filter fun m => (decode cfg m.2).isSome && decide (0 ≤ m.1) := by
    simp [List.mem_filter, hm, hd, h0]
  have hsort : (ms.filter fun m => (decode cfg m.2).isSome && decide (0 ≤ m.1)).Pairwise
      fun a b => a.1 < b.1 := hs.sublist List.filter_sublist
  generalize (ms.filter fun m => (decode cfg m.2).isSome && decide (0 ≤ m.1)) = l at hmem hsort
  induction l using List.reverseRecOn with
  | nil => simp at hmem
  | append_singleton l x _ =>
    simp only [List.getLast?_append, List.getLast?_singleton, Option.some_or]
    rcases List.mem_append.1 hmem with h | h
    · have := (List.pairwise_append.1 hsort).2.2 m h x (by simp)
      omega
    · simp only [List.mem_singleton] at h; subst h; omega

/-- Moving on leaves less ahead, by one at least if a message ahead is passed. -/
theorem ahead_less (cfg : CCfg β δ) (log : List (Int × β)) (o o' : Int) (h : o ≤ o') :
    (ahead cfg log o').length ≤ (ahead cfg log o).length ∧
    ∀ m ∈ ahead cfg log o, m.1 < o' → (ahead cfg log o').length < (ahead cfg log o).length := by
  induction log with
  | nil => simp [ahead]
  | cons x log ih =>
    obtain ⟨ih1, ih2⟩ := ih
    unfold ahead at ih1 ih2 ⊢
    simp only [List.filter_cons]
    by_cases hd : (decode cfg x.2).isSome
    · by_cases h1 : o ≤ x.1 <;> by_cases h2 : o' ≤ x.1
      · simp only [h1, h2, hd, decide_true, Bool.true_and, if_true, List.length_cons]
        refine ⟨by omega, fun m hm hlt => ?_⟩
        rcases List.mem_cons.1 hm with rfl | hm
        · omega
        · have := ih2 m hm hlt; omega
      · simp only [h1, h2, hd, decide_true, decide_false, Bool.true_and, Bool.false_and, if_true,
          Bool.false_eq_true, if_false, List.length_cons]
        exact ⟨by omega, fun _ _ _ => by omega⟩
      · omega
      · simp only [h1, h2, decide_false, Bool.false_and, Bool.false_eq_true, if_false]
        exact ⟨ih1, ih2⟩
    · simp only [Bool.not_eq_true] at hd
      simp only [hd, Bool.and_false, Bool.false_eq_true, if_false]
      exact ⟨ih1, ih2⟩

theorem SetBatch.wide {log ms : List (Int × β)} {o : Int} (h : SetBatch log o ms) :
    WideBatch log o ms := by
  obtain ⟨pre, rest, h1, h2, _⟩ := h
  exact ⟨pre, rest, h1, h2⟩

theorem Batch.sets {log ms : List (Int × β)} {o : Int} (hl : IsLog log) (h : Batch log o ms) :
    SetBatch log o ms := by
  obtain ⟨rest, hr⟩ := h
  refine ⟨log.filter fun m => decide (m.1 < o), rest, ?_, ?_, ?_⟩
  · rw [List.append_assoc, hr]; exact log_split o hl
  · intro m hm; simpa using (List.mem_filter.1 hm).2
  · intro m hm
    have : m ∈ log.filter fun m => decide (o ≤ m.1) := by rw [← hr]; simp [hm]
    simpa using (List.mem_filter.1 this).2

/-- What an answer leaves ahead. -/
theorem batch_ahead (cfg : CCfg β δ) (log ms : List (Int × β)) (o : Int) (hl : IsLog log)
    (hb : SetBatch log o ms) :
    (ahead cfg log (after cfg ms o)).length ≤ (ahead cfg log o).length ∧
    ((∃ m ∈ ms, o ≤ m.1 ∧ (decode cfg m.2).isSome) →
      (ahead cfg log (after cfg ms o)).length < (ahead cfg log o).length) := by
  obtain ⟨pre, rest, rfl, hpre, hrest⟩ := hb
  have hsm : ms.Pairwise fun a b => a.1 < b.1 :=
    hl.sorted.sublist ((List.sublist_append_right _ _).trans (List.sublist_append_left _ _))
  have hnn : ∀ m ∈ ms, 0 ≤ m.1 := fun m hm => hl.nonneg m (by simp [hm])
  by_cases hle : o ≤ after cfg ms o
  · obtain ⟨h1, h2⟩ := ahead_less cfg (pre ++ ms ++ rest) o _ hle
    refine ⟨h1, ?_⟩
    rintro ⟨m, hm, hom, hd⟩
    exact h2 m (by simp [ahead, hm, hom, hd]) (after_past cfg ms o hsm m hm hd (hnn m hm))
  · -- going back passes nothing that can be deserialized
    have heq : ahead cfg (pre ++ ms ++ rest) (after cfg ms o) = ahead cfg (pre ++ ms ++ rest) o := by
      unfold ahead
      refine List.filter_congr fun m hm => ?_
      cases hd : (decode cfg m.2).isSome with
      | false => simp
      | true =>
        simp only [Bool.and_true, decide_eq_decide]
        constructor
        · intro h
          rcases List.mem_append.1 hm with hm | hm
          · rcases List.mem_append.1 hm with hm | hm
            · rcases after_mem cfg ms o with h' | ⟨x, hx, _, _, h'⟩
              · omega
              · have := (List.pairwise_append.1 (List.pairwise_append.1 hl.sorted).1).2.2 m hm x hx
                omega
            · have := after_past cfg ms o hsm m hm hd (hnn m hm)
              omega
          · exact hrest m hm
        · intro h; omega
    rw [heq]
    refine ⟨Nat.le_refl _, ?_⟩
    rintro ⟨m, hm, hom, hd⟩
    have := after_past cfg ms o hsm m hm hd (hnn m hm)
    omega

/-- Each `consume` in which the partition is supplied leaves less ahead of it. -/
theorem consumedN_ahead {allocation : Consumer ε → Res (Dict String (List Int))}
    {determine : String → Consumer ε → Res Unit × Consumer ε} {cfg : CCfg β δ}
    {logs : String → Int → List (Int × β)} (hl : ∀ t p, IsLog (logs t p))
    {t : String} {p : Int} {n : Nat} {c c' : Consumer ε} {outs : List (String × δ)}
    (h : ConsumedN allocation determine cfg SetBatch logs t p n c outs c') :
    n + (ahead cfg (logs t p) (offsetOf c'.offsets t p)).length ≤
      (ahead cfg (logs t p) (offsetOf c.offsets t p)).length := by
  induction h with
  | nil c => omega
  | @cons n k c c1 c2 env topic out acts outs hh htick hc hdet hk _ ih =>
    have hstep : k + (ahead cfg (logs t p) (offsetOf c1.offsets t p)).length ≤
        (ahead cfg (logs t p) (offsetOf c.offsets t p)).length := by
      rcases consume_step_acts htick (fun reqs => (hh reqs).1) hc hdet with ⟨_, ho, hno⟩ |
        ⟨c0, parts, reqs, g1, g2, g3, g4, g5⟩
      · rw [ho]
        rcases hk with rfl | ⟨rfl, reqs, hr, _⟩
        · omega
        · exact absurd hr (hno reqs)
      · rw [g4]
        rcases honest_one hh g2 t p with hn | ⟨rfl, hb⟩
        · rw [hn, after_nil]
          rcases hk with rfl | ⟨rfl, reqs', hr, b, r, hbr, ps, hps, a, ha, rfl, h0, m, hm, _⟩
          · omega
          · obtain rfl := g5 _ hr
            have : m ∈ fetchedFor (allAnswers (env.outcomes reqs')) t a.id := by
              simp only [fetchedFor, allAnswers, List.mem_flatMap, List.mem_filter, decide_eq_true_eq]
              refine ⟨(t, a), ⟨⟨(b, .ok r), hbr, ?_⟩, rfl, rfl, h0⟩, hm⟩
              simp [answersOf, hps, ha]
            rw [hn] at this; simp at this
        · rw [g1] at hb
          obtain ⟨w1, w2⟩ := batch_ahead cfg _ _ _ (hl t p) hb
          rcases hk with rfl | ⟨rfl, reqs', hr, b, r, hbr, ps, hps, a, ha, rfl, h0, m, hm, hom, hd⟩
          · omega
          · obtain rfl := g5 _ hr
            have : m ∈ fetchedFor (allAnswers (env.outcomes reqs')) t a.id := by
              simp only [fetchedFor, allAnswers, List.mem_flatMap, List.mem_filter, decide_eq_true_eq]
              refine ⟨(t, a), ⟨⟨(b, .ok r), hbr, ?_⟩, rfl, rfl, h0⟩, hm⟩
              simp [answersOf, hps, ha]
            have := w2 ⟨m, this, hom, hd⟩
            omega
    omega

theorem Spec.ConsumedN.mono {allocation : Consumer ε → Res (Dict String (List Int))}
    {determine : String → Consumer ε → Res Unit × Consumer ε} {cfg : CCfg β δ}
    {batch batch' : List (Int × β) → Int → List (Int × β) → Prop}
    {logs : String → Int → List (Int × β)}
    (hb : ∀ t p o ms, batch (logs t p) o ms → batch' (logs t p) o ms)
    {t : String} {p : Int} {n : Nat} {c c' : Consumer ε} {outs : List (String × δ)}
    (h : ConsumedN allocation determine cfg batch logs t p n c outs c') :
    ConsumedN allocation determine cfg batch' logs t p n c outs c' := by
  induction h with
  | nil c => exact .nil c
  | cons h1 h2 h3 h4 h5 _ ih =>
    refine .cons (fun reqs => ⟨(h1 reqs).1, fun b r hbr => ?_⟩) h2 h3 h4 h5 ih
    obtain ⟨q, hq, e, ps, f1, f2, f3⟩ := (h1 reqs).2 b r hbr
    refine ⟨q, hq, e, ps, f1, f2, fun p hp => ⟨(f3 p hp).1, fun h0 => ?_⟩⟩
    obtain ⟨f, g1, g2, g3⟩ := (f3 p hp).2 h0
    exact ⟨f, g1, g2, hb _ _ _ _ g3⟩

/-- **C86.**  Whatever the batch sizes and whatever happens in between: a partition is supplied in at
most as many `consume`s as there are messages ahead (at or after its offset, and such that they can
be deserialized); and after that many, each of them has been returned (unless it is false to Python). -/
theorem C86_catches_up (allocation : Consumer ε → Res (Dict String (List Int)))
    (determine : String → Consumer ε → Res Unit × Consumer ε) (cfg : CCfg β δ)
    (logs : String → Int → List (Int × β)) (hl : ∀ t p, IsLog (logs t p)) (t : String) (p : Int)
    (n : Nat) (c c' : Consumer ε) (outs : List (String × δ))
    (h : ConsumedN allocation determine cfg SetBatch logs t p n c outs c') :
    n ≤ (ahead cfg (logs t p) (offsetOf c.offsets t p)).length ∧
    (n = (ahead cfg (logs t p) (offsetOf c.offsets t p)).length →
      ∀ m ∈ logs t p, offsetOf c.offsets t p ≤ m.1 → ∀ d, decode cfg m.2 = some d →
        cfg.truthy d = true → (t, d) ∈ outs) := by
  have hlen := consumedN_ahead hl h
  refine ⟨by omega, fun hn m hm ho d hd htr => ?_⟩
  have hnil : ahead cfg (logs t p) (offsetOf c'.offsets t p) = [] := by
    rw [← List.length_eq_zero_iff]; omega
  refine C38_no_skip allocation determine cfg logs hl c c' outs
    ((Spec.ConsumedN.mono (fun _ _ _ _ => SetBatch.wide) h).forget) t p m hm d hd htr ho ?_
  by_contra hlt
  have : m ∈ ahead cfg (logs t p) (offsetOf c'.offsets t p) := by
    simp only [ahead, List.mem_filter, Bool.and_eq_true, decide_eq_true_eq, hd, Option.isSome_some,
      and_true]
    exact ⟨hm, by omega⟩
  rw [hnil] at this
  simp at this

/-- The rest of a log from an offset on, as `consume` returns it. -/
def Spec.restOf (cfg : CCfg β δ) (log : List (Int × β)) (o : Int) : List δ :=
  (values cfg (log.filter fun m => decide (o ≤ m.1))).filter cfg.truthy

theorem window_rest (cfg : CCfg β δ) {log : List (Int × β)} (hl : IsLog log) {o o' : Int}
    (ho : o ≤ o') :
    restOf cfg log o = window cfg log o o' ++ restOf cfg log o' := by
  unfold restOf window
  rw [← List.filter_append, ← values_append]
  congr 2
  have hs := hl.sorted
  clear hl
  induction log with
  | nil => rfl
  | cons x log ih =>
    rw [List.pairwise_cons] at hs
    have ih := ih hs.2
    by_cases h1 : o' ≤ x.1
    · have e1 : ∀ m ∈ x :: log, o' ≤ m.1 := by
        intro m hm
        rcases List.mem_cons.1 hm with rfl | hm
        · exact h1
        · have := hs.1 m hm; omega
      rw [List.filter_eq_self.2 (fun m hm => by have := e1 m hm; simp only [decide_eq_true_eq]; omega),
        List.filter_eq_nil_iff.2 (fun m hm => by have := e1 m hm; simp only [decide_eq_true_eq]; omega),
        List.filter_eq_self.2 (fun m hm => by have := e1 m hm; simp only [decide_eq_true_eq]; omega)]
      rfl
    · have h3 : x.1 < o' := by omega
      by_cases h2 : o ≤ x.1 <;>
        simp only [List.filter_cons, h1, h2, h3, and_self, and_true, decide_true, decide_false,
          if_true, Bool.false_eq_true, if_false, ih, List.cons_append]

theorem rest_done (cfg : CCfg β δ) {log : List (Int × β)} {o : Int} (h : ahead cfg log o = []) :
    restOf cfg log o = [] := by
  unfold restOf
  have : values cfg (log.filter fun m => decide (o ≤ m.1)) = [] := by
    rw [values, List.filterMap_eq_nil_iff]
    intro m hm
    obtain ⟨hm, ho⟩ := List.mem_filter.1 hm
    have := List.filter_eq_nil_iff.1 h m hm
    rw [ho, Bool.true_and] at this
    simpa using this
  rw [this]
  rfl

/-- **C86**, without compressed sets: what has been returned is an interleaving of what has been read
of each partition, which is a first part of the rest of its log, each message once and in order; and
all the rest if the partition was supplied as often as there were messages ahead. -/
theorem C86_in_order (allocation : Consumer ε → Res (Dict String (List Int)))
    (determine : String → Consumer ε → Res Unit × Consumer ε) (cfg : CCfg β δ)
    (logs : String → Int → List (Int × β)) (hl : ∀ t p, IsLog (logs t p))
    (c c' : Consumer ε) (outs : List (String × δ))
    (h : Consumed allocation determine cfg Batch logs c outs c') :
    ∃ per, Interleaving per outs ∧ ∀ t p,
      per t p <+: (values cfg ((logs t p).filter fun m => decide (offsetOf c.offsets t p ≤ m.1))).filter
        cfg.truthy ∧
      (ConsumedN allocation determine cfg Batch logs t p
          (ahead cfg (logs t p) (offsetOf c.offsets t p)).length c outs c' →
        per t p = (values cfg ((logs t p).filter fun m =>
          decide (offsetOf c.offsets t p ≤ m.1))).filter cfg.truthy) := by
  obtain ⟨h1, h2⟩ := C38_exactly_once_partial allocation determine cfg logs hl c c' outs h
  refine ⟨_, h2, fun t p => ?_⟩
  have hw := window_rest cfg (hl t p) (h1 t p)
  unfold restOf window at hw
  rw [hw]
  refine ⟨List.prefix_append _ _, fun hn => ?_⟩
  have hlen := consumedN_ahead hl (hn.mono fun t p _ _ => Batch.sets (hl t p))
  have hnil : ahead cfg (logs t p) (offsetOf c'.offsets t p) = [] := by
    rw [← List.length_eq_zero_iff]; omega
  have := rest_done cfg hnil
  unfold restOf at this
  rw [this, List.append_nil]

/-- Two messages at a time, twice: the log of C38's example is read to its end. -/
example : ∃ c', ConsumedN Single.allocation exNoDetermine exCCfg Batch (fun _ _ => exLog) "t" 0 2
      exConsumer [("t", 5), ("t", 6)] c' ∧
    (ahead exCCfg exLog (offsetOf exConsumer.offsets "t" 0)).length = 2 := by
  have hb : ∀ o : Int, Batch exLog o ((exLog.filter fun m => decide (o ≤ m.1)).take 2) :=
    fun o => List.take_prefix _ _
  refine ⟨{ exConsumer with offsets := [("t", [(0, 5)])] }, ?_, by decide +kernel⟩
  have h1 := exServe_honest Batch exLog _ hb
  refine ConsumedN.cons (n := 1) (k := 1) (c1 := { exConsumer with offsets := [("t", [(0, 1)])] })
    (out := [5]) (acts := [.fetch [⟨7, 1000, 1, "t", [⟨0, 0, 100⟩]⟩]]) (outs := [("t", 6)])
    h1 (fun _ _ => rfl) (by decide +kernel) (by decide) (.inr ⟨rfl, _, List.mem_singleton.2 rfl, 7,
      _, List.mem_singleton.2 rfl, _, rfl, _, List.mem_singleton.2 rfl, rfl, rfl, (0, 5), by decide +kernel,
      by decide +kernel, by decide +kernel⟩) ?_
  exact ConsumedN.cons (n := 0) (k := 1) (out := [6]) (outs := [])
    (acts := [.fetch [⟨7, 1000, 1, "t", [⟨0, 1, 100⟩]⟩]])
    h1 (fun _ _ => rfl) (by decide +kernel) (by decide) (.inr ⟨rfl, _, List.mem_singleton.2 rfl, 7,
      _, List.mem_singleton.2 rfl, _, rfl, _, List.mem_singleton.2 rfl, rfl, rfl, (4, 6), by decide +kernel,
      by decide +kernel, by decide +kernel⟩) (.nil _)

end Kiel
