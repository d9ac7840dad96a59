import Verif.Lemmas.Consumer
import Mathlib.Data.List.Induction
/-
Lemmas about logs and what consumers have seen of them.
-/
set_option autoImplicit false
namespace Kiel
open Spec

variable {ε β δ : Type}

theorem after_mem (cfg : CCfg β δ) (ms : List (Int × β)) (o : Int) :
    after cfg ms o = o ∨ ∃ m ∈ ms, (decode cfg m.2).isSome ∧ 0 ≤ m.1 ∧ after cfg ms o = m.1 + 1 := by
  unfold after
  cases h : (ms.filter fun m => (decode cfg m.2).isSome && decide (0 ≤ m.1)).getLast? with
  | none => exact Or.inl rfl
  | some m =>
    have hm := List.mem_of_getLast? h
    simp only [List.mem_filter, Bool.and_eq_true, decide_eq_true_eq] at hm
    exact Or.inr ⟨m, hm.1, hm.2.1, hm.2.2, rfl⟩

theorem after_le (cfg : CCfg β δ) (ms : List (Int × β)) (o : Int) (h : ∀ m ∈ ms, o ≤ m.1) :
    o ≤ after cfg ms o := by
  rcases after_mem cfg ms o with h1 | ⟨m, hm, _, _, h1⟩
  · omega
  · have := h m hm; omega

theorem values_below (cfg : CCfg β δ) (o : Int) (ms rest : List (Int × β))
    (hs : (ms ++ rest).Pairwise fun a b => a.1 < b.1) (hge : ∀ m ∈ ms ++ rest, o ≤ m.1)
    (h0 : ∀ m ∈ ms ++ rest, 0 ≤ m.1) :
    values cfg ((ms ++ rest).filter fun m => decide (m.1 < after cfg ms o)) = values cfg ms := by
  induction ms using List.reverseRecOn generalizing rest with
  | nil =>
    have : (([] ++ rest : List (Int × β)).filter fun m => decide (m.1 < after cfg [] o)) = [] := by
      rw [List.filter_eq_nil_iff]
      intro m hm
      have := hge m hm
      rw [after_nil]
      intro hlt
      have := of_decide_eq_true hlt
      omega
    rw [this]
  | append_singleton ms x ih =>
    rw [after_append]
    cases hd : decode cfg x.2 with
    | none =>
      have h1 : ∀ o, after cfg [x] o = o := by intro o; simp [after, hd]
      rw [h1, values_append]
      have h2 : values cfg [x] = [] := by simp [values, hd]
      rw [h2, List.append_nil, List.append_assoc]
      rw [List.append_assoc] at hs hge h0
      exact ih _ hs hge h0
    | some d =>
      have hx0 : 0 ≤ x.1 := h0 x (by simp)
      have h1 : ∀ o, after cfg [x] o = x.1 + 1 := by intro o; simp [after, hd, hx0]
      rw [h1, List.filter_append]
      have hp := List.pairwise_append.1 hs
      have h2 : ((ms ++ [x]).filter fun m => decide (m.1 < x.1 + 1)) = ms ++ [x] := by
        rw [List.filter_eq_self]
        intro m hm
        rcases List.mem_append.1 hm with hm | hm
        · have := (List.pairwise_append.1 hp.1).2.2 m hm x (by simp)
          simp only [decide_eq_true_eq]; omega
        · simp only [List.mem_singleton] at hm; subst hm; simp only [decide_eq_true_eq]; omega
      have h3 : (rest.filter fun m => decide (m.1 < x.1 + 1)) = [] := by
        rw [List.filter_eq_nil_iff]
        intro m hm
        have := hp.2.2 x (by simp) m hm
        simp only [decide_eq_true_eq]; omega
      rw [h2, h3, List.append_nil]

/-- The part of a log between two offsets. -/
theorem window_append (log : List (Int × β)) (hs : log.Pairwise fun a b => a.1 < b.1)
    (a b c : Int) (hab : a ≤ b) (hbc : b ≤ c) :
    (log.filter fun m => decide (a ≤ m.1 ∧ m.1 < b)) ++
      (log.filter fun m => decide (b ≤ m.1 ∧ m.1 < c)) =
    log.filter fun m => decide (a ≤ m.1 ∧ m.1 < c) := by
  induction log with
  | nil => rfl
  | cons x log ih =>
    simp only [List.pairwise_cons] at hs
    have ih := ih hs.2
    by_cases hxb : x.1 < b
    · have h2 : ¬ (b ≤ x.1 ∧ x.1 < c) := by omega
      simp only [List.filter_cons, h2, decide_false, Bool.false_eq_true, if_false]
      by_cases hxa : a ≤ x.1
      · have h1 : a ≤ x.1 ∧ x.1 < b := ⟨hxa, hxb⟩
        have h3 : a ≤ x.1 ∧ x.1 < c := ⟨hxa, by omega⟩
        simp only [h1, h3, decide_true, if_true, List.cons_append, and_self, ih]
      · have h1 : ¬ (a ≤ x.1 ∧ x.1 < b) := by omega
        have h3 : ¬ (a ≤ x.1 ∧ x.1 < c) := by omega
        simp only [h1, h3, decide_false, Bool.false_eq_true, if_false, ih]
    · have h1 : (x :: log).filter (fun m => decide (a ≤ m.1 ∧ m.1 < b)) = [] := by
        rw [List.filter_eq_nil_iff]
        intro m hm
        simp only [decide_eq_true_eq]
        rcases List.mem_cons.1 hm with rfl | hm
        · omega
        · have := hs.1 m hm; omega
      rw [h1, List.nil_append]
      refine List.filter_congr fun m hm => ?_
      have : b ≤ m.1 := by
        rcases List.mem_cons.1 hm with rfl | hm
        · omega
        · have := hs.1 m hm; omega
      by_cases hc : m.1 < c
      · have h4 : b ≤ m.1 ∧ m.1 < c := ⟨this, hc⟩
        have h5 : a ≤ m.1 ∧ m.1 < c := ⟨by omega, hc⟩
        simp only [h4, h5, and_self]
      · simp [hc]

/-- One plain batch delivers the messages between the old and the new offset. -/
theorem batch_window (cfg : CCfg β δ) (log ms : List (Int × β)) (o : Int) (hl : IsLog log)
    (hb : Batch log o ms) :
    o ≤ after cfg ms o ∧
    values cfg ms = values cfg (log.filter fun m => decide (o ≤ m.1 ∧ m.1 < after cfg ms o)) := by
  obtain ⟨rest, hr⟩ := hb
  have hmem : ∀ m ∈ ms ++ rest, m ∈ log ∧ o ≤ m.1 := by
    intro m hm
    rw [hr] at hm
    simpa using hm
  refine ⟨after_le cfg ms o fun m hm => (hmem m (by simp [hm])).2, ?_⟩
  have hs : (ms ++ rest).Pairwise fun a b => a.1 < b.1 := by
    rw [hr]; exact hl.sorted.sublist List.filter_sublist
  have := values_below cfg o ms rest hs (fun m hm => (hmem m hm).2)
    (fun m hm => hl.nonneg m (hmem m hm).1)
  rw [← this, hr, List.filter_filter]
  congr 1
  refine List.filter_congr fun m _ => ?_
  by_cases h1 : o ≤ m.1 <;> by_cases h2 : m.1 < after cfg ms o <;> simp [h1, h2]

/-- A batch that begins early still holds all messages between the old and the new offset. -/
theorem wide_window (cfg : CCfg β δ) (log ms : List (Int × β)) (o : Int) (hl : IsLog log)
    (hb : WideBatch log o ms) (m : Int × β) (hm : m ∈ log) (h1 : o ≤ m.1)
    (h2 : m.1 < after cfg ms o) : m ∈ ms := by
  obtain ⟨pre, rest, rfl, hpre⟩ := hb
  rcases List.mem_append.1 hm with hm | hm
  · rcases List.mem_append.1 hm with hm | hm
    · have := hpre m hm; omega
    · exact hm
  · exfalso
    rcases after_mem cfg ms o with h | ⟨x, hx, _, _, h⟩
    · omega
    · have := (List.pairwise_append.1 hl.sorted).2.2 x (by simp [hx]) m hm
      omega

theorem log_split {log : List (Int × β)} (o : Int) (hl : IsLog log) :
    log = (log.filter fun m => decide (m.1 < o)) ++ log.filter fun m => decide (o ≤ m.1) := by
  have hs := hl.sorted
  clear hl
  induction log with
  | nil => rfl
  | cons x log ih =>
    simp only [List.pairwise_cons] at hs
    by_cases hx : x.1 < o
    · have h2 : ¬ o ≤ x.1 := by omega
      simp only [List.filter_cons, hx, h2, decide_true, decide_false, if_true,
        Bool.false_eq_true, if_false, List.cons_append]
      rw [← ih hs.2]
    · have h1 : (x :: log).filter (fun m => decide (m.1 < o)) = [] := by
        rw [List.filter_eq_nil_iff]
        intro m hm
        simp only [decide_eq_true_eq]
        rcases List.mem_cons.1 hm with rfl | hm
        · omega
        · have := hs.1 m hm; omega
      rw [h1, List.nil_append, eq_comm, List.filter_eq_self]
      intro m hm
      simp only [decide_eq_true_eq]
      rcases List.mem_cons.1 hm with rfl | hm
      · omega
      · have := hs.1 m hm; omega

theorem Batch.wide {log ms : List (Int × β)} {o : Int} (hl : IsLog log) (h : Batch log o ms) :
    WideBatch log o ms := by
  obtain ⟨rest, hr⟩ := h
  refine ⟨log.filter fun m => decide (m.1 < o), rest, ?_, ?_⟩
  · rw [List.append_assoc, hr]; exact log_split o hl
  · intro m hm; simpa using (List.mem_filter.1 hm).2

/-! ### Who answers for a partition -/

theorem fetchedFor_one (t : String) (ps : List (FPart β)) (hn : (ps.map (·.id)).Nodup) (p : Int) :
    fetchedFor (ps.map fun q => (t, q)) t p = [] ∨
    ∃ q ∈ ps, q.id = p ∧ q.code = 0 ∧ fetchedFor (ps.map fun q => (t, q)) t p = q.msgs := by
  induction ps with
  | nil => exact Or.inl rfl
  | cons q ps ih =>
    simp only [List.map_cons, List.nodup_cons] at hn
    have hc : fetchedFor ((q :: ps).map fun q => (t, q)) t p =
        (if q.id = p ∧ q.code = 0 then q.msgs else []) ++ fetchedFor (ps.map fun q => (t, q)) t p := by
      simp only [fetchedFor, List.map_cons, List.filter_cons, true_and, decide_eq_true_eq]
      split <;> simp
    rw [hc]
    by_cases hq : q.id = p ∧ q.code = 0
    · refine Or.inr ⟨q, by simp, hq.1, hq.2, ?_⟩
      have : fetchedFor (ps.map fun q => (t, q)) t p = [] := by
        rcases ih hn.2 with h | ⟨q', hq', hid, _⟩
        · exact h
        · exact absurd (List.mem_map.2 ⟨q', hq', hid.trans hq.1.symm⟩) hn.1
      rw [if_pos hq, this, List.append_nil]
    · rw [if_neg hq, List.nil_append]
      rcases ih hn.2 with h | ⟨q', hq', h⟩
      · exact Or.inl h
      · exact Or.inr ⟨q', by simp [hq'], h⟩

theorem fetchedFor_other (t t' : String) (ps : List (FPart β)) (h : t ≠ t') (p : Int) :
    fetchedFor (ps.map fun q => (t, q)) t' p = [] := by
  have : (ps.map fun q => (t, q)).filter
      (fun a => decide (a.1 = t' ∧ a.2.id = p ∧ a.2.code = 0)) = [] := by
    rw [List.filter_eq_nil_iff]
    intro a ha
    obtain ⟨q, _, rfl⟩ := List.mem_map.1 ha
    simp [h]
  simp only [fetchedFor, this, List.flatMap_nil]

/-- The messages fetched for a partition come from a single answer, which is the broker's for
the offset asked for. -/
theorem honest_one {batch : List (Int × β) → Int → List (Int × β) → Prop}
    {logs : String → Int → List (Int × β)} {env : ConsumeEnv ε β} (hh : HonestFetch batch logs env)
    {cfg : CCfg β δ} {c : Consumer ε} {topic : String} {parts : List Int} {reqs : List FReq}
    (hf : FetchesExactly cfg c topic parts reqs) (t : String) (p : Int) :
    fetchedFor (allAnswers (env.outcomes reqs)) t p = [] ∨
    (t = topic ∧ batch (logs t p) (offsetOf c.offsets t p)
      (fetchedFor (allAnswers (env.outcomes reqs)) t p)) := by
  obtain ⟨hn, hall⟩ := hh reqs
  generalize env.outcomes reqs = outs at hn hall
  -- a successful answer for `p` comes from the leader
  have hlead : ∀ b r, (b, .ok r) ∈ outs → fetchedFor (answersOf r) t p ≠ [] →
      t = topic ∧ leaderOf c.cluster topic p = some b ∧
      batch (logs t p) (offsetOf c.offsets t p) (fetchedFor (answersOf r) t p) := by
    intro b r hr hne
    obtain ⟨q, hq, hb, ps, hps, hnd, hparts⟩ := hall b r hr
    have ha : answersOf r = ps.map fun x => (q.topic, x) := by simp [answersOf, hps]
    have htop := (hf.topics q hq).1
    rw [htop] at ha hparts
    by_cases ht : topic = t
    · subst ht
      rcases fetchedFor_one topic ps hnd p with h | ⟨x, hx, hid, hc0, heq⟩
      · rw [ha, h] at hne; exact absurd rfl hne
      · obtain ⟨f, hfm, hfid, hbatch⟩ := (hparts x hx).2 hc0
        have hof := hf.offsets q hq f hfm
        rw [hfid, hid] at hof
        rw [hid, hof] at hbatch
        refine ⟨rfl, ?_, ?_⟩
        · have hmem : p ∈ q.parts.map (·.id) := List.mem_map.2 ⟨f, hfm, hfid.trans hid⟩
          rw [hf.named q hq] at hmem
          have := (List.mem_filter.1 hmem).2
          simp only [decide_eq_true_eq] at this
          rw [this, hb]
        · rw [ha, heq]; exact hbatch
    · rw [ha, fetchedFor_other _ _ _ ht] at hne
      exact absurd rfl hne
  clear hall
  induction outs with
  | nil => exact Or.inl rfl
  | cons o outs ih =>
    simp only [List.map_cons, List.nodup_cons] at hn
    replace ih := ih hn.2 fun b r hr => hlead b r (by simp [hr])
    rw [allAnswers_cons, fetchedFor_append]
    obtain ⟨b, r⟩ := o
    cases r with
    | error e => simpa [fetchedFor] using ih
    | ok r =>
      simp only
      by_cases hne : fetchedFor (answersOf r) t p = []
      · rw [hne, List.nil_append]; exact ih
      · obtain ⟨h1, h2, h3⟩ := hlead b r (by simp) hne
        have hrest : fetchedFor (allAnswers outs) t p = [] := by
          clear ih
          induction outs with
          | nil => rfl
          | cons o outs ih2 =>
            simp only [List.map_cons, List.mem_cons, not_or, List.nodup_cons] at hn
            rw [allAnswers_cons, fetchedFor_append]
            have h5 := ih2 (fun b' r' hr' => hlead b' r' (by
              rcases List.mem_cons.1 hr' with h | h <;> simp [h])) ⟨hn.1.2, hn.2.2⟩
            rw [h5, List.append_nil]
            obtain ⟨b', r'⟩ := o
            cases r' with
            | error e => rfl
            | ok r' =>
              simp only
              refine Decidable.byContradiction fun hne' => ?_
              have hne2 : fetchedFor (answersOf r') t p ≠ [] := hne'
              obtain ⟨_, h4, _⟩ := hlead b' r' (by simp) hne2
              rw [h2] at h4
              simp only [Option.some.injEq] at h4
              exact hn.1.1 h4
        rw [hrest, List.append_nil]
        exact Or.inr ⟨h1, h3⟩

/-- All that is fetched is from the logs of the topic asked for. -/
theorem honest_topic {batch : List (Int × β) → Int → List (Int × β) → Prop}
    {logs : String → Int → List (Int × β)} {env : ConsumeEnv ε β} (hh : HonestFetch batch logs env)
    {cfg : CCfg β δ} {c : Consumer ε} {topic : String} {parts : List Int} {reqs : List FReq}
    (hf : FetchesExactly cfg c topic parts reqs) :
    ∀ a ∈ allAnswers (env.outcomes reqs), a.1 = topic ∧
      (a.2.code = 0 → ∃ o, batch (logs topic a.2.id) o a.2.msgs) := by
  obtain ⟨hn, hall⟩ := hh reqs
  intro a ha
  simp only [allAnswers, List.mem_flatMap] at ha
  obtain ⟨⟨b, r⟩, ho, ha⟩ := ha
  cases r with
  | error e => simp at ha
  | ok r =>
    obtain ⟨q, hq, hb, ps, hps, hnd, hparts⟩ := hall b r ho
    have htop := (hf.topics q hq).1
    simp only [answersOf, hps, List.mem_map] at ha
    obtain ⟨x, hx, rfl⟩ := ha
    refine ⟨htop, fun h0 => ?_⟩
    obtain ⟨f, _, _, hb⟩ := (hparts x hx).2 h0
    rw [htop] at hb
    exact ⟨_, hb⟩

/-- Values with the partitions they are from. -/
def labelled (cfg : CCfg β δ) (as : List (String × FPart β)) : List ((String × Int) × δ) :=
  (as.filter fun a => decide (a.2.code = 0)).flatMap fun a =>
    ((values cfg a.2.msgs).filter cfg.truthy).map fun d => ((a.1, a.2.id), d)

theorem labelled_values (cfg : CCfg β δ) (as : List (String × FPart β)) :
    (labelled cfg as).map (·.2) = (values cfg (fetched as)).filter cfg.truthy := by
  unfold labelled fetched
  generalize (as.filter fun a => decide (a.2.code = 0)) = l
  induction l with
  | nil => rfl
  | cons a l ih =>
    rw [List.flatMap_cons, List.map_append, ih, List.flatMap_cons, values_append,
      List.filter_append, List.map_map]
    congr 1
    exact List.map_id _

theorem labelled_topic (cfg : CCfg β δ) (as : List (String × FPart β)) (topic : String)
    (h : ∀ a ∈ as, a.1 = topic) : ∀ x ∈ labelled cfg as, x.1.1 = topic := by
  intro x hx
  simp only [labelled, List.mem_flatMap, List.mem_filter, List.mem_map] at hx
  obtain ⟨a, ⟨ha, _⟩, d, _, rfl⟩ := hx
  exact h a ha

theorem labelled_for (cfg : CCfg β δ) (as : List (String × FPart β)) (t : String) (p : Int) :
    ((labelled cfg as).filter fun x => decide (x.1 = (t, p))).map (·.2) =
      (values cfg (fetchedFor as t p)).filter cfg.truthy := by
  induction as with
  | nil => rfl
  | cons a as ih =>
    have h1 : labelled cfg (a :: as) = labelled cfg [a] ++ labelled cfg as := by
      simp only [labelled, ← List.flatMap_append, ← List.filter_append, List.singleton_append]
    have h2 : fetchedFor (a :: as) t p = fetchedFor [a] t p ++ fetchedFor as t p :=
      fetchedFor_append [a] as t p
    rw [h1, h2, values_append, List.filter_append, List.filter_append, List.map_append, ih]
    congr 1
    by_cases h0 : a.2.code = 0
    · have e1 : labelled cfg [a] = ((values cfg a.2.msgs).filter cfg.truthy).map
          fun d => ((a.1, a.2.id), d) := by simp [labelled, h0]
      rw [e1, List.filter_map, List.map_map]
      by_cases hp : (a.1, a.2.id) = (t, p)
      · have hp' := Prod.mk.inj hp
        have e2 : fetchedFor [a] t p = a.2.msgs := by simp [fetchedFor, h0, hp'.1, hp'.2]
        rw [e2, List.filter_eq_self.2 (by intro d _; simp [hp])]
        exact List.map_id _
      · have e2 : fetchedFor [a] t p = [] := by
          simp only [fetchedFor]
          rw [List.filter_eq_nil_iff.2]
          · rfl
          · intro x hx
            rw [List.mem_singleton.1 hx]
            simp only [decide_eq_true_eq]
            exact fun h => hp (by rw [h.1, h.2.1])
        rw [e2, List.filter_eq_nil_iff.2 (by intro d _; simpa using hp)]
        rfl
    · have e1 : labelled cfg [a] = [] := by simp [labelled, h0]
      have e2 : fetchedFor [a] t p = [] := by simp [fetchedFor, h0]
      rw [e1, e2]
      rfl

/-- What a successful `consume` that determines no offsets has done, and which requests it sent. -/
theorem consume_step_acts {allocation : Consumer ε → Res (Dict String (List Int))}
    {determine : Consumer ε → Res Unit × Consumer ε} {cfg : CCfg β δ} {env : ConsumeEnv ε β}
    {topic : String} {c c1 : Consumer ε} {out : List δ} {acts : List CAct}
    (htick : ∀ n (c : Consumer ε), (env.tick n c).offsets = c.offsets)
    (hn : ∀ reqs, ((env.outcomes reqs).map (·.1)).Nodup)
    (h : c.consume allocation determine cfg env topic = (.ok (some out), c1, acts))
    (hd : CAct.determine ∉ acts) :
    (out = [] ∧ (∀ t p, offsetOf c1.offsets t p = offsetOf c.offsets t p) ∧
      ∀ reqs, CAct.fetch reqs ∉ acts) ∨
    ∃ (c0 : Consumer ε) (parts : List Int) (reqs : List FReq), (∀ t p, offsetOf c0.offsets t p = offsetOf c.offsets t p) ∧
      FetchesExactly cfg c0 topic parts reqs ∧
      out = (values cfg (fetched (allAnswers (env.outcomes reqs)))).filter cfg.truthy ∧
      (∀ t p, offsetOf c1.offsets t p =
        after cfg (fetchedFor (allAnswers (env.outcomes reqs)) t p) (offsetOf c.offsets t p)) ∧
      ∀ reqs', CAct.fetch reqs' ∈ acts → reqs' = reqs := by
  have hfetch : ∀ (c0 : Consumer ε) parts acts', c0.offsets = c.offsets →
      c0.fetch cfg env topic parts = (.ok (some out), c1, acts') →
      ∃ (c0 : Consumer ε) (parts : List Int) (reqs : List FReq), (∀ t p, offsetOf c0.offsets t p = offsetOf c.offsets t p) ∧
      FetchesExactly cfg c0 topic parts reqs ∧
      out = (values cfg (fetched (allAnswers (env.outcomes reqs)))).filter cfg.truthy ∧
      (∀ t p, offsetOf c1.offsets t p =
        after cfg (fetchedFor (allAnswers (env.outcomes reqs)) t p) (offsetOf c.offsets t p)) ∧
      ∀ reqs', CAct.fetch reqs' ∈ acts' → reqs' = reqs := by
    intro c0 parts acts' hc0 hf
    rcases fetch_spec cfg env topic parts c0 c1 _ acts' hf with ⟨e, he, _⟩ | ⟨reqs, c2, h1, h2, h3,
      done, rest, h4, h5, h6, h7, h8, h9⟩
    · simp at he
    · obtain ⟨g1, g2, g3⟩ := h9 _ rfl
      refine ⟨c0, parts, reqs, by simp [hc0], h2, by simpa using g3 (hn reqs), fun t p => ?_, ?_⟩
      · rw [h3, htick, h5, g2, hc0]
      · rw [h1]; simp
  unfold Consumer.consume at h
  split at h
  · simp at h
  · split at h
    · unfold Consumer.consumeSynced at h
      split at h
      · simp at h
      · split at h
        · exact Or.inr (hfetch c _ _ rfl h)
        · split at h
          · simp at h
          · rename_i cl hheal
            simp only at h
            have htk := htick 1 { c with cluster := cl }
            generalize env.tick 1 { c with cluster := cl } = c2 at h htk
            split at h
            · simp at h
            · split at h
              · simp only [Prod.mk.injEq, Except.ok.injEq, Option.some.injEq] at h
                obtain ⟨rfl, rfl, rfl⟩ := h
                exact Or.inl ⟨rfl, fun t p => by rw [htk], by simp⟩
              · rename_i parts hparts
                cases hf : c2.fetch cfg env topic parts with
                | mk r x =>
                  obtain ⟨c3, acts3⟩ := x
                  rw [hf] at h
                  simp only [Prod.mk.injEq] at h
                  obtain ⟨rfl, rfl, rfl⟩ := h
                  obtain ⟨x0, x1, x2, x3, x4, x5, x6, x7⟩ := hfetch c2 parts acts3 htk hf
                  exact Or.inr ⟨x0, x1, x2, x3, x4, x5, x6, by simpa using x7⟩
    · split at h
      · simp only [Prod.mk.injEq] at h
        rw [← h.2.2] at hd; simp at hd
      · simp at h
      · simp only [Prod.mk.injEq] at h
        rw [← h.2.2] at hd; simp at hd

/-- What a successful `consume` that determines no offsets has done. -/
theorem consume_step {allocation : Consumer ε → Res (Dict String (List Int))}
    {determine : Consumer ε → Res Unit × Consumer ε} {cfg : CCfg β δ} {env : ConsumeEnv ε β}
    {topic : String} {c c1 : Consumer ε} {out : List δ} {acts : List CAct}
    (htick : ∀ n (c : Consumer ε), (env.tick n c).offsets = c.offsets)
    (hn : ∀ reqs, ((env.outcomes reqs).map (·.1)).Nodup)
    (h : c.consume allocation determine cfg env topic = (.ok (some out), c1, acts))
    (hd : CAct.determine ∉ acts) :
    (out = [] ∧ ∀ t p, offsetOf c1.offsets t p = offsetOf c.offsets t p) ∨
    ∃ (c0 : Consumer ε) (parts : List Int) (reqs : List FReq), (∀ t p, offsetOf c0.offsets t p = offsetOf c.offsets t p) ∧
      FetchesExactly cfg c0 topic parts reqs ∧
      out = (values cfg (fetched (allAnswers (env.outcomes reqs)))).filter cfg.truthy ∧
      ∀ t p, offsetOf c1.offsets t p =
        after cfg (fetchedFor (allAnswers (env.outcomes reqs)) t p) (offsetOf c.offsets t p) := by
  rcases consume_step_acts htick hn h hd with ⟨h1, h2, _⟩ | ⟨c0, parts, reqs, h1, h2, h3, h4, _⟩
  · exact .inl ⟨h1, h2⟩
  · exact .inr ⟨c0, parts, reqs, h1, h2, h3, h4⟩

end Kiel
