import Verif.Props.OutOfRange
/-
C133: groups that have committed nothing yet.
-/
set_option autoImplicit false
namespace Kiel
open Spec

variable {β δ : Type}

/-- How a coordinator that keeps the offsets of groups in ZooKeeper answers for a topic of which
nothing was committed in some partition: that partition is unknown to it (3); others may be known. -/
structure Spec.UnknownToCoordinator (env : SendEnv OFResp) (t : String) : Prop where
  sent : env.write = .none
  heals : HealsWell env
  answer : ∃ ps more, env.outcome = .ok ⟨(t, ps) :: more⟩ ∧ (∃ q ∈ ps, q.code = 3) ∧
    ∀ q ∈ ps, q.code = 3 ∨ q.code = 0

theorem determineLoop_unknown (env : Nat → SendEnv OFResp) (b : Int) (t : String)
    (henv : ∀ n, UnknownToCoordinator (env n) t) (fuel n : Nat) (c : Grouped)
    (hb : c.ext.coordinator = some b) (hh : c.cluster.conns.has b = true) :
    (Grouped.determineLoop env fuel n c).1 = .running := by
  induction fuel generalizing n c with
  | zero => rfl
  | succ fuel ih =>
    obtain ⟨hw, hwell, ps, more, ho, ⟨q, hq, h3⟩, hall⟩ := henv n
    obtain ⟨c1, retry, e1, e2, _, _, _, e3, e4, _⟩ :=
      C54_adopted t ps more { c with heal := false } (by
        intro q hq'; rcases hall q hq' with h | h <;> rw [h] <;> decide)
    have hretry : retry = true := e2.2 ⟨q, hq, by rw [h3]; decide⟩
    subst hretry
    obtain ⟨cl, g1, g2⟩ := sendTo_ok (hs := offsetFetchHandlers) (env := env n) (b := b)
      (c := c) ⟨hh, hw⟩ ho rfl (show _ = ((.ok true : Res Bool),
        ({ c1 with heal := false } : Grouped), c1.heal) by simp only [e1]) hwell
    simp only [Grouped.determineLoop, Grouped.sendCoordinator, hb, g1]
    refine ih _ _ ?_ ?_
    · simp only [e3]; exact hb
    · simp only [g2, e4]; exact hh

/-- **C133** fails where offsets are kept in ZooKeeper: `consume` does not return, however many
answers it gets; nothing is fetched of the topic, of the other partitions no more than of this. -/
theorem C133_hangs (gcfg : GCfg) (cfg : CCfg β δ) (env : GroupEnv β) (b : Int) (t : String)
    (c : Grouped) (a : Dict String (List Int)) (hc : c.closing = false) (hs : t ∉ c.synced)
    (hb : c.ext.coordinator = some b) (hm : c.ext.mapping = some a) (hpl : Known cfg.plain a t)
    (hh : c.cluster.conns.has b = true) (henv : ∀ n, UnknownToCoordinator (env.offsets n) t)
    (fuel : Nat) :
    (c.consume gcfg cfg env fuel t).1 = .running ∧
    (c.consume gcfg cfg env fuel t).2.2 = ([.determine], []) := by
  have hd : (c.determine cfg.plain env.offsets fuel t).1 = .running := by
    unfold Grouped.determine
    simp only [hm, if_neg (known_not hpl)]
    exact determineLoop_unknown env.offsets b t henv _ _ _ hb hh
  unfold Grouped.consume
  rw [if_pos ⟨hc, hs, hd⟩]
  exact ⟨rfl, rfl⟩

/-- **C133** fails where offsets are kept by Kafka: the coordinator reports -1 for the partition,
which its leader refuses; no call ever returns a message of the topic, or commits. -/
theorem C133_stuck (gcfg : GCfg) (cfg : CCfg β δ) (t : String) (p : Int)
    (life : List (GroupEnv β × Nat × (Grouped → Grouped)))
    (he : ∀ x ∈ life, Stale x.1 t p (-1) ∧ Aside t p x.2.2) (c : Grouped) (hs : t ∉ c.synced)
    (hown : Owns t p c) (hc : c.closing = false) :
    ∀ x ∈ callsOn gcfg cfg t life c, (∀ out, x.1 = .done out → out = some []) ∧ x.2 = [] :=
  C132_stuck gcfg cfg t p (-1) life he c ⟨fun h => absurd h hs, hown, hc⟩

theorem sendTo_quiet {R ρ : Type} {hs : Handlers Grouped R ρ} {env : SendEnv R} {b : Int}
    {c c1 : Grouped} {r : R} {f : Grouped → Res ρ × Grouped × Bool} {x : ρ}
    (hh : c.cluster.conns.has b = true) (hw : env.write = .none) (ho : env.outcome = .ok r)
    (hf : hs.handle r = some f) (hfs : f { c with heal := false } = (.ok x, c1, false))
    (hq : c.heal = false) : c.sendTo hs env b = (.ok x, { c1 with heal := false }) := by
  unfold Grouped.sendTo clientSend
  have h1 : sendStart (fun b => c.cluster.conns.has b) (fun _ => env.write) [b] = .none := by
    simp [sendStart, hh, hw]
  rw [h1]
  simp only [sendLoop, ho, hf, hfs, hq, Bool.or_false]
  simp [Dict.get?, Dict.set]

/-- **C133** (partial): a group for which all partitions have been committed begins there.
Missing: groups that have not committed, and which begin nowhere. -/
theorem C133_committed_partial (gcfg : GCfg) (cfg : CCfg β δ) (env : GroupEnv β) (b : Int)
    (t : String) (c : Grouped) (a : Dict String (List Int)) (parts : List Int) (o : Int → Int)
    (ps : List OFPart) (more : List (String × List OFPart)) (fuel : Nat)
    (hc : c.closing = false) (hs : t ∉ c.synced) (hheal : c.heal = false)
    (hb : c.ext.coordinator = some b) (hm : c.ext.mapping = some a)
    (hp : a.get? t = some parts) (hne : parts ≠ []) (hh : c.cluster.conns.has b = true)
    (hl : ∀ p ∈ parts, ∃ l, leaderOf c.cluster t p = some l)
    (hw : (env.offsets 0).write = .none)
    (ho : (env.offsets 0).outcome = .ok ⟨(t, ps) :: more⟩)
    (hps : ∀ p, p ∈ ps.map (·.id) ↔ p ∈ parts) (hok : ∀ q ∈ ps, q.code = 0 ∧ q.offset = o q.id)
    (ht : ∀ c, env.base.tick 0 c = c) :
    ∃ reqs, (c.consume gcfg cfg env (fuel + 1) t).2.2.1 = [.determine, .fetch reqs] ∧
      (∀ p ∈ parts, ∃ r ∈ reqs, ∃ f ∈ r.parts, f.id = p) ∧
      ∀ r ∈ reqs, ∀ f ∈ r.parts, f.id ∈ parts ∧ f.offset = o f.id := by
  obtain ⟨c1, retry, e1, e2, e3, e4, e5, e6, e7, e8⟩ :=
    C54_adopted t ps more { c with heal := false } (fun q hq h => h.1 (hok q hq).1)
  have hnr : ¬ ∃ q ∈ ps, Retriable q.code := by
    rintro ⟨q, hq, h⟩
    rw [(hok q hq).1] at h
    exact absurd h (by decide)
  obtain rfl : retry = false := by
    cases retry with
    | false => rfl
    | true => exact absurd (e2.1 rfl) hnr
  have hheal1 : c1.heal = false := by
    cases h : c1.heal with
    | false => rfl
    | true =>
      rcases e4.1 h with h | ⟨q, hq, h, _⟩
      · cases h
      · exact absurd ⟨q, hq, h⟩ hnr
  have hdict : (Dict.getDefault a t []).1 = a := by
    unfold Dict.getDefault; rw [hp]
  have hc0 : ({ c with ext := { c.ext with mapping := some (Dict.getDefault a t []).1 } } : Grouped) = c := by
    rw [hdict, ← hm]
  have hdet : c.determineRes cfg.plain env.offsets (fuel + 1) t =
      (.ok (), ({ c1 with heal := false } : Grouped)) := by
    unfold Grouped.determineRes Grouped.determine
    have hpl : ¬ (cfg.plain = true ∧ a.has t = false) := fun h => by
      have := h.2
      simp [Dict.has, hp] at this
    have hsend := sendTo_quiet (hs := offsetFetchHandlers) hh hw ho rfl
      (show _ = ((.ok false : Res Bool), ({ c1 with heal := false } : Grouped), false) by
        simp only [e1, hheal1]) hheal
    have hloop : Grouped.determineLoop env.offsets (fuel + 1) 0 c =
        (.done (), ({ c1 with heal := false } : Grouped)) := by
      simp only [Grouped.determineLoop, Grouped.sendCoordinator, hb, hsend]
    rw [← hc0] at hloop
    simp only [hm, if_neg hpl, hloop, Run.toRes]
  have hoff : ∀ p ∈ parts, offsetOf c1.offsets t p = o p := by
    intro p hpp
    rw [e3, if_pos rfl]
    unfold adopted
    obtain ⟨q, hq, hid⟩ := List.mem_map.1 ((hps p).2 hpp)
    cases hlast : (ps.filter fun q' => decide (q'.id = p ∧ q'.code = 0)).getLast? with
    | none =>
      rw [List.getLast?_eq_none_iff, List.filter_eq_nil_iff] at hlast
      exact absurd (hlast q hq) (by simp [hid, (hok q hq).1])
    | some q' =>
      have := List.mem_of_getLast? hlast
      rw [List.mem_filter, decide_eq_true_eq] at this
      show q'.offset = o p
      rw [(hok q' this.1).2, this.2.1]
  obtain ⟨reqs, k1, k2⟩ := C36_fetches Grouped.allocation
    (Grouped.determineRes cfg.plain env.offsets (fuel + 1) t) cfg env.base t
    ({ c1 with heal := false, synced := addSet c1.synced t } : Grouped) a parts
    (e8.trans hc) ((mem_addSet _ _ _).2 (.inl rfl))
    (by unfold Grouped.allocation; rw [show c1.ext = c.ext from e6, hm]) hp hne
    (fun p hpp => by rw [show c1.cluster = c.cluster from e7]; exact hl p hpp)
  have hsyn : t ∈ addSet c1.synced t := (mem_addSet _ _ _).2 (.inl rfl)
  have hcl : c1.closing = false := e8.trans hc
  have hcons : (Consumer.consume Grouped.allocation
      (Grouped.determineRes cfg.plain env.offsets (fuel + 1) t) cfg env.base t c).2.2 =
      [.determine, .fetch reqs] := by
    unfold Consumer.consume at k1 ⊢
    rw [if_neg (by rw [hc]; decide), if_neg hs, hdet]
    rw [if_neg (by show ¬ c1.closing = true; rw [hcl]; decide), if_pos hsyn] at k1
    simp only [ht, k1]
  refine ⟨reqs, ?_, ?_, ?_⟩
  · have hrun : ¬ (c.determine cfg.plain env.offsets (fuel + 1) t).1 = .running := by
      intro h
      have := congrArg Prod.fst hdet
      unfold Grouped.determineRes at this
      rw [h] at this
      cases this
    unfold Grouped.consume
    rw [if_neg (fun h => hrun h.2.2)]
    cases hx : Consumer.consume Grouped.allocation
      (Grouped.determineRes cfg.plain env.offsets (fuel + 1) t) cfg env.base t c with
    | mk res x =>
      obtain ⟨c', acts⟩ := x
      rw [hx] at hcons
      obtain rfl : acts = _ := hcons
      cases res with
      | error e => rfl
      | ok out =>
        simp only
        split
        · rfl
        · split
          · split <;> rfl
          · rfl
  · intro p hpp
    obtain ⟨r, hr, hlr⟩ := k2.all p hpp
    have : p ∈ r.parts.map (·.id) := by
      rw [k2.named r hr, List.mem_filter, decide_eq_true_eq]
      exact ⟨hpp, hlr⟩
    obtain ⟨f, hf, he⟩ := List.mem_map.1 this
    exact ⟨r, hr, f, hf, he⟩
  · intro r hr f hf
    have hn : f.id ∈ r.parts.map (·.id) := List.mem_map.2 ⟨f, hf, rfl⟩
    rw [k2.named r hr, List.mem_filter] at hn
    exact ⟨hn.1, (k2.offsets r hr f hf).trans (hoff _ hn.1)⟩

/-! ### Concrete cases -/

/-- **C133** is false of the code: partition 1 of B has messages, and partition 0 none, as yet;
the group has committed offset 3 of partition 1, and nothing of partition 0.  Then it gets no
message, whether the coordinator says that it knows no offset of partition 0, or that it is -1. -/
theorem C133_false (fuel n : Nat) :
    (exStaleConsumer.consume exAuto exCCfg { exStaleEnv 0 with
      offsets := fun _ => exSend (.ok ⟨[("B", [⟨0, -1, 3⟩, ⟨1, 3, 0⟩])]⟩) } fuel "B").1 = .running ∧
    ∀ x ∈ callsOn exAuto exCCfg "B" (List.replicate n (exStaleEnv (-1), 5, id)) exStaleConsumer,
      x = (.done (some []), []) := by
  refine ⟨(C133_hangs exAuto exCCfg _ 8 "B" exStaleConsumer [("B", [0, 1])] rfl (by decide) rfl rfl
    (fun h => by cases h) (by decide) (fun n => ⟨rfl, exSend_well _, _, _, rfl,
      ⟨_, List.mem_cons_self .., rfl⟩, by decide⟩) fuel).1, ?_⟩
  have h1 : (exStaleConsumer.consume exAuto exCCfg (exStaleEnv (-1)) 5 "B") =
      (.done (some []), { exStaleConsumer with offsets := [("B", [(0, -1), (1, 4)])] },
        [.determine, .fetch [⟨7, 1000, 1, "B", [⟨0, -1, 50⟩, ⟨1, 3, 50⟩]⟩]], []) := by
    decide +kernel
  have h2 : (Grouped.consume exAuto exCCfg (exStaleEnv (-1)) 5 "B"
      { exStaleConsumer with offsets := [("B", [(0, -1), (1, 4)])] }) =
      (.done (some []), { exStaleConsumer with offsets := [("B", [(0, -1), (1, 4)])] },
        [.determine, .fetch [⟨7, 1000, 1, "B", [⟨0, -1, 50⟩, ⟨1, 3, 50⟩]⟩]], []) := by
    decide +kernel
  have h3 : ∀ n, ∀ x ∈ callsOn exAuto exCCfg "B" (List.replicate n (exStaleEnv (-1), 5, id))
      { exStaleConsumer with offsets := [("B", [(0, -1), (1, 4)])] }, x = (.done (some []), []) := by
    intro n
    induction n with
    | zero => intro x hx; cases hx
    | succ n ih =>
      intro x hx
      rw [List.replicate_succ] at hx
      simp only [callsOn, id, h2] at hx
      rcases List.mem_cons.1 hx with rfl | hx
      · rfl
      · exact ih x hx
  cases n with
  | zero => intro x hx; cases hx
  | succ n =>
    intro x hx
    rw [List.replicate_succ] at hx
    simp only [callsOn, id, h1] at hx
    rcases List.mem_cons.1 hx with rfl | hx
    · rfl
    · exact h3 n x hx

/-- Hypotheses of **C133** (stuck) met. -/
example (n : Nat) : ∀ x ∈ callsOn exAuto exCCfg "B" (List.replicate n (exStaleEnv (-1), 5, id))
    exStaleConsumer, (∀ out, x.1 = .done out → out = some []) ∧ x.2 = [] :=
  C133_stuck exAuto exCCfg "B" 0 _ (fun x hx => by
    obtain rfl := List.eq_of_mem_replicate hx
    exact ⟨exStale_stale _ (by decide), fun _ => rfl, fun _ h => h, fun _ => rfl, fun _ h => h⟩) _
    (by decide) ⟨_, _, rfl, rfl, by decide⟩ rfl

/-- Hypotheses of **C133** (committed) met. -/
example : ∃ reqs, (exStaleConsumer.consume exAuto exCCfg (exStaleEnv 20) 1 "B").2.2.1 =
      [.determine, .fetch reqs] ∧ (∀ p ∈ [0, 1], ∃ r ∈ reqs, ∃ f ∈ r.parts, f.id = p) ∧
      ∀ r ∈ reqs, ∀ f ∈ r.parts, f.id ∈ [0, 1] ∧ f.offset = if f.id = 0 then 20 else 3 :=
  C133_committed_partial exAuto exCCfg (exStaleEnv 20) 8 "B" exStaleConsumer [("B", [0, 1])] [0, 1]
    (fun p => if p = 0 then 20 else 3) _ _ 0 rfl (by decide) rfl rfl rfl rfl (by decide) (by decide)
    (fun p hp => ⟨7, by
      simp only [List.mem_cons, List.not_mem_nil, or_false] at hp
      rcases hp with rfl | rfl <;> decide +kernel⟩) rfl rfl (by simp) (by decide) (fun _ => rfl)

end Kiel
