import Verif.Props.Offsets
/-
C129: where a single consumer starts in topics and partitions that its client learns of late.
-/
set_option autoImplicit false
namespace Kiel
open Spec

variable {β δ : Type}

/-! ### Specification -/

/-- No broker tells where to start in partition `p` of topic `t`. -/
def Spec.TellsNothing (env : OffsetEnv) (t : String) (p : Int) : Prop :=
  ∀ reqs b r, (b, .ok r) ∈ env.outcomes reqs → ∀ x ∈ r.topics, x.1 = t →
    ∀ q ∈ x.2, q.id = p → q.code = 0 → ∀ o ∈ q.offsets, o < 0

/-- No broker sends messages of partition `p` of topic `t`. -/
def Spec.SendsNothing (env : ConsumeEnv Unit β) (t : String) (p : Int) : Prop :=
  ∀ reqs b r, (b, .ok r) ∈ env.outcomes reqs → ∀ x ∈ r.topics, x.1 = t →
    ∀ q ∈ x.2, q.id = p → q.msgs = []

/-- The consumers that have neither been told where to start in partition `p` of topic `t` nor
been sent any of its messages, whatever else has happened to them, calls of `consume` for this
topic included. -/
inductive Spec.Untold (t : String) (p : Int) : Single → Prop where
  | new (cl : Cluster) : Spec.Untold t p (Single.new cl)
  | consume {β δ : Type} (cfg : CCfg β δ) (oenv : OffsetEnv) (env : ConsumeEnv Unit β)
      (t' : String) (start : Start) (c : Single) :
      (∀ n (c : Single), env.tick n c = c) → Spec.TellsNothing oenv t p →
      Spec.SendsNothing env t p → Spec.Untold t p c →
      Spec.Untold t p (c.consume cfg oenv env t' start).2.1
  | cluster (c : Single) (cl : Cluster) :
      Spec.Untold t p c → Spec.Untold t p { c with cluster := cl }

/-! ### Nothing told, nothing known -/

theorem sendLoop_inv_mem {σ R ρ : Type} (hs : Handlers σ R ρ) (I : σ → Prop)
    (outs : List (Int × Res R))
    (hI : ∀ b r f, (b, .ok r) ∈ outs → hs.handle r = some f → ∀ s, I s → I (f s).2.1)
    (results : Dict Int ρ) (s : σ) (heal : Bool) (h : I s) :
    I (sendLoop hs outs results s heal).2.1 := by
  induction outs generalizing results s heal with
  | nil => exact h
  | cons o outs ih =>
    have ih := ih fun b r f hm => hI b r f (List.mem_cons_of_mem _ hm)
    obtain ⟨b, r⟩ := o
    cases r with
    | error e => exact ih _ _ _ h
    | ok r =>
      simp only [sendLoop]
      cases hf : hs.handle r with
      | none => exact h
      | some f =>
        have := hI b r f (List.mem_cons_self ..) hf s h
        simp only
        cases hfs : f s with
        | mk x y =>
          obtain ⟨s', ask⟩ := y
          rw [hfs] at this
          cases x with
          | error e => exact this
          | ok x => exact ih _ _ _ this

theorem clientSend_inv_mem {σ R ρ : Type} (hs : Handlers σ R ρ) (I : σ → Prop)
    (known : Int → Bool) (write : Int → Option Exc) (healC : σ → Res Unit × σ)
    (hH : ∀ s, I s → I (healC s).2) (requests : List Int) (outs : List (Int × Res R))
    (hI : ∀ b r f, (b, .ok r) ∈ outs → hs.handle r = some f → ∀ s, I s → I (f s).2.1)
    (s : σ) (heal : Bool) (h : I s) :
    I (clientSend hs known write healC requests outs s heal).2.1 := by
  unfold clientSend
  split
  · exact h
  · have hl := sendLoop_inv_mem hs I outs hI [] s heal h
    split
    · rename_i heq; rw [heq] at hl; exact hl
    · rename_i heq; rw [heq] at hl; exact hl
    · rename_i s' heq
      rw [heq] at hl
      have := hH s' hl
      split
      · rename_i heq2; rw [heq2] at this; exact this
      · rename_i heq2; rw [heq2] at this; exact this

theorem handleOffsetParts_untold (t : String) (p : Int) (t' : String) (ps : List OPart) (c : Single)
    (hn : t' = t → ∀ q ∈ ps, q.id = p → q.code = 0 → ∀ o ∈ q.offsets, o < 0)
    (v : Int) (h : offsetOf c.offsets t p = v) :
    offsetOf (handleOffsetParts t' ps c).2.offsets t p = v := by
  induction ps generalizing c with
  | nil => exact h
  | cons q ps ih =>
    have ih := ih (hn := fun e q hq => hn e q (List.mem_cons_of_mem _ hq))
    simp only [handleOffsetParts]
    split
    · rename_i hcode
      split
      · exact h
      · rename_i o os ho
        refine ih _ ?_
        split
        · rename_i h0
          simp only [offsetOf_put]
          split
          · rename_i he
            have := hn he.1 q (List.mem_cons_self ..) he.2 hcode o (by rw [ho]; simp)
            omega
          · exact h
        · exact h
    · split
      · exact ih _ h
      · split <;> exact h

theorem determine_untold (env : OffsetEnv) (t : String) (p : Int) (hn : TellsNothing env t p)
    (t' : String) (start : Start) (c : Single) (v : Int) (h : offsetOf c.offsets t p = v) :
    offsetOf (c.determine env t' start).2.offsets t p = v := by
  unfold Single.determine Single.determineSent
  simp only
  split
  · exact h
  · rename_i ordered cl _
    have := clientSend_inv_mem offsetHandlers (fun c : Single => offsetOf c.offsets t p = v)
      (fun b => cl.conns.has b)
      (offsetWrite env.write (ordered.map fun e => ⟨e.1, t', startToTimestamp env.now start, e.2⟩))
      (fun c => ((env.healC c.cluster).1, { c with cluster := (env.healC c.cluster).2 }))
      (fun s hs => hs)
      ((ordered.map fun e => (⟨e.1, t', startToTimestamp env.now start, e.2⟩ : OReq)).map (·.broker))
      (env.outcomes (ordered.map fun e => ⟨e.1, t', startToTimestamp env.now start, e.2⟩)) ?_
      { c with cluster := cl, heal := false } c.heal h
    · split
      · rename_i heq; rw [heq] at this; exact this
      · rename_i heq; rw [heq] at this; exact this
    · intro b r f hm hf s hs
      simp only [offsetHandlers, Option.some.injEq] at hf
      subst hf
      simp only
      unfold handleOffsetResponse
      split
      · exact hs
      · rename_i t'' ps more hr
        exact handleOffsetParts_untold t p t'' ps s
          (fun e => hn _ b r hm (t'', ps) (by rw [hr]; simp) e) v hs

theorem after_fetched_none (cfg : CCfg β δ) (env : ConsumeEnv Unit β) (t : String) (p : Int)
    (hn : SendsNothing env t p) (reqs : List FReq) (done rest : List (String × FPart β))
    (hd : done ++ rest = allAnswers (env.outcomes reqs) ∨ done = []) (o : Int) :
    after cfg (fetchedFor done t p) o = o := by
  have : fetchedFor done t p = [] := by
    unfold fetchedFor
    rw [List.flatMap_eq_nil_iff]
    intro a ha
    rw [List.mem_filter, decide_eq_true_eq] at ha
    obtain ⟨ha, h1, h2, -⟩ := ha
    rcases hd with hd | hd
    · have hin : a ∈ allAnswers (env.outcomes reqs) := by rw [← hd]; simp [ha]
      simp only [allAnswers, List.mem_flatMap] at hin
      obtain ⟨⟨b, r⟩, ho, ha⟩ := hin
      cases r with
      | error e => simp at ha
      | ok r =>
        simp only [answersOf] at ha
        split at ha
        · simp at ha
        · rename_i t'' ps more hr
          obtain ⟨q, hq, rfl⟩ := List.mem_map.1 ha
          exact hn reqs b r ho (t'', ps) (by rw [hr]; simp) h1 q hq h2
    · rw [hd] at ha; simp at ha
  rw [this]; rfl

theorem consume_untold (cfg : CCfg β δ) (oenv : OffsetEnv) (env : ConsumeEnv Unit β)
    (ht : ∀ n (c : Single), env.tick n c = c) (t : String) (p : Int)
    (hn : TellsNothing oenv t p) (hm : SendsNothing env t p) (t' : String) (start : Start)
    (c : Single) (v : Int) (h : offsetOf c.offsets t p = v) :
    offsetOf (c.consume cfg oenv env t' start).2.1.offsets t p = v := by
  have hfetch : ∀ (c : Single) parts, offsetOf c.offsets t p = v →
      offsetOf (Consumer.fetch cfg env t' parts c).2.1.offsets t p = v := by
    intro c parts h
    cases hf : Consumer.fetch cfg env t' parts c with
    | mk res x =>
      obtain ⟨c', acts⟩ := x
      rcases fetch_spec cfg env t' parts c c' res acts hf with ⟨e, _, _, _, _, ho, _⟩ |
        ⟨reqs, c1, _, _, rfl, done, rest, hd, ho, _⟩
      · simp only [ho]; exact h
      · simp only [ht, ho]
        rw [after_fetched_none cfg env t p hm reqs done rest hd]
        exact h
  have hsync : ∀ c : Single, offsetOf c.offsets t p = v →
      offsetOf (Consumer.consumeSynced Single.allocation cfg env t' c).2.1.offsets t p = v := by
    intro c h
    unfold Consumer.consumeSynced
    split
    · exact h
    · split
      · exact hfetch _ _ h
      · split
        · simp only [ht]; exact h
        · simp only
          split
          · simp only [ht]; exact h
          · split
            · simp only [ht]; exact h
            · refine hfetch _ _ ?_
              simp only [ht]; exact h
  unfold Single.consume Consumer.consume
  have hd := determine_untold oenv t p hn t' start c v h
  split
  · exact h
  · split
    · exact hsync _ h
    · split
      · rename_i heq; rw [heq] at hd; simp only [ht]; exact hd
      · rename_i heq; rw [heq] at hd; simp only [ht]; exact hd
      · rename_i heq; rw [heq] at hd
        simp only
        exact hsync _ (by simp only [ht]; exact hd)

theorem Spec.Untold.zero {t : String} {p : Int} {c : Single} (h : Untold t p c) :
    offsetOf c.offsets t p = 0 := by
  induction h with
  | new cl => simp [Single.new, offsetOf, Dict.get?]
  | consume cfg oenv env t' start c ht hn hm _ ih =>
    exact consume_untold cfg oenv env ht t p hn hm t' start c 0 ih
  | cluster c cl _ ih => exact ih

/-! ### C129 -/

/-- **C129** fails: a partition that no broker has told the consumer the start of is fetched from
offset 0 on, whatever start is asked for, in this call or earlier ones. -/
theorem C129_untold (cfg : CCfg β δ) (oenv : OffsetEnv) (env : ConsumeEnv Unit β) (t : String)
    (p : Int) (start : Start) (c : Single) (hc : Untold t p c)
    (ht : ∀ n (c : Single), env.tick n c = c) (hn : TellsNothing oenv t p) (reqs : List FReq)
    (hr : CAct.fetch reqs ∈ (c.consume cfg oenv env t start).2.2) :
    ∀ r ∈ reqs, ∀ f ∈ r.parts, f.id = p → f.offset = 0 := by
  cases h : c.consume cfg oenv env t start with
  | mk res x =>
    obtain ⟨c', acts⟩ := x
    rw [h] at hr
    obtain ⟨c0, a, parts, h1, h2, h3, _, h5⟩ := consume_fetch h hr
    have h0 : offsetOf c0.offsets t p = 0 := h5 (fun o => offsetOf o t p = 0) hc.zero
      (fun c h => determine_untold oenv t p hn t start c 0 h) (fun n c h => by rw [ht]; exact h)
    rcases fetch_spec cfg env t parts c0 c' res _ h3 with ⟨e, _, h4, _⟩ | ⟨reqs', c2, h4, h5, _⟩
    · simp at h4
    · simp only [List.cons.injEq, CAct.fetch.injEq, and_true] at h4
      subst h4
      intro r hr f hf he
      rw [h5.offsets r hr f hf, he]
      exact h0

/-- Nothing is asked about a topic of which no partitions are known, and the consumer is left as
it is. -/
theorem determine_unknown (oenv : OffsetEnv) (t : String) (start : Start) (c : Single)
    (hp : (c.cluster.topics.get? t).getD [] = []) (hh : c.heal = false) :
    c.determineSent oenv t start = (.ok (), { c with
      cluster := { c.cluster with topics := (c.cluster.topics.getDefault t []).1 } }, []) ∨
    ∃ outs, oenv.outcomes [] = outs ∧ outs ≠ [] := by
  cases ho : oenv.outcomes [] with
  | cons x xs => exact .inr ⟨_, rfl, by simp⟩
  | nil =>
    left
    have hd : (c.cluster.topics.getDefault t []).2 = [] := by rw [getDefault_val]; exact hp
    unfold Single.determineSent
    simp only [hd, groupByLeader, List.map_nil, ho, hh]
    simp [clientSend, sendStart, sendLoop]

/-- **C129** fails for topics that the client does not know when they are first consumed: nothing
is asked for, whatever `start` is; if `heal()` finds the topic then all of its partitions are
fetched from offset 0 on, within the same call. -/
theorem C129_unknown (cfg : CCfg β δ) (oenv : OffsetEnv) (env : ConsumeEnv Unit β) (t : String)
    (start : Start) (c : Single) (cl : Cluster) (parts : List Int)
    (hu : ∀ p ∈ parts, Untold t p c) (hc : c.closing = false) (hh : c.heal = false)
    (hs : t ∉ c.synced) (hp : (c.cluster.topics.get? t).getD [] = [])
    (ho : oenv.outcomes [] = []) (ht : ∀ n (c : Single), env.tick n c = c)
    (hheal : ∀ x, env.heal x = (.ok (), cl)) (hcl : cl.topics.get? t = some parts)
    (hne : parts ≠ []) (hl : ∀ p ∈ parts, ∃ l, leaderOf cl t p = some l) :
    (c.determineSent oenv t start).2.2 = [] ∧
    ∃ reqs, (c.consume cfg oenv env t start).2.2 = [.determine, .heal, .fetch reqs] ∧
      (∀ p ∈ parts, ∃ r ∈ reqs, ∃ f ∈ r.parts, f.id = p) ∧
      ∀ r ∈ reqs, ∀ f ∈ r.parts, f.offset = 0 := by
  have hd : c.determineSent oenv t start = (.ok (), { c with
      cluster := { c.cluster with topics := (c.cluster.topics.getDefault t []).1 } }, []) := by
    rcases determine_unknown oenv t start c hp hh with h | ⟨o, h1, h2⟩
    · exact h
    · exact absurd (h1.symm.trans ho) h2
  refine ⟨by rw [hd], ?_⟩
  let c1 : Single := { c with
    cluster := { c.cluster with topics := (c.cluster.topics.getDefault t []).1 }
    synced := addSet c.synced t }
  have hsyn : t ∈ c1.synced := (mem_addSet _ _ _).2 (.inl rfl)
  have htop : (c1.cluster.topics.get? t).getD [] = [] := by
    show (((c.cluster.topics.getDefault t []).1).get? t).getD [] = []
    rw [getDefault_getD]; exact hp
  obtain ⟨reqs, k1, k2⟩ := (C36_unallocated Single.allocation (Single.determine oenv t start) cfg env
    t c1 c1.cluster.topics cl.topics cl hc hsyn rfl htop (hheal _) (by rw [ht]; rfl)).2 parts hcl hne
    (by rw [ht]; exact hl)
  rw [ht] at k2
  refine ⟨reqs, ?_, ?_, ?_⟩
  · have hdet : Single.determine oenv t start c = (.ok (), { c with
        cluster := { c.cluster with topics := (c.cluster.topics.getDefault t []).1 } }) := by
      unfold Single.determine; rw [hd]
    unfold Single.consume Consumer.consume
    rw [if_neg (by rw [hc]; decide), if_neg hs, hdet]
    simp only [ht]
    unfold Consumer.consume at k1
    have hc1 : c1.closing = false := hc
    simp only [hc1, hsyn, Bool.false_eq_true, if_false, if_true] at k1
    show CAct.determine :: (Consumer.consumeSynced Single.allocation cfg env t c1).2.2 = _
    rw [k1]
  · intro p hp
    obtain ⟨r, hr, hlr⟩ := k2.all p hp
    have : p ∈ r.parts.map (·.id) := by
      rw [k2.named r hr, List.mem_filter, decide_eq_true_eq]
      exact ⟨hp, hlr⟩
    obtain ⟨f, hf, he⟩ := List.mem_map.1 this
    exact ⟨r, hr, f, hf, he⟩
  · intro r hr f hf
    have hn : f.id ∈ r.parts.map (·.id) := List.mem_map.2 ⟨f, hf, rfl⟩
    rw [k2.named r hr, List.mem_filter] at hn
    rw [k2.offsets r hr f hf]
    exact (hu _ hn.1).zero

/-- **C129** fails for topics consumed before there are brokers to ask (`connect()` not called, or
all of them lost): `consume` raises, but from then on, whatever the client learns of the topic,
it is fetched without having been asked about. -/
theorem C129_unconnected (cfg cfg' : CCfg β δ) (oenv oenv' : OffsetEnv) (env env' : ConsumeEnv Unit β)
    (t : String) (start start' : Start) (c : Single) (cl cl' : Cluster) (e : Exc) (parts : List Int)
    (hc : c.closing = false) (hh : c.heal = false) (hs : t ∉ c.synced)
    (hp : (c.cluster.topics.get? t).getD [] = []) (ho : oenv.outcomes [] = [])
    (ht : ∀ n (c : Single), env.tick n c = c) (hheal : ∀ x, env.heal x = (.error e, cl'))
    (hcl : cl.topics.get? t = some parts) (hne : parts ≠ [])
    (hl : ∀ p ∈ parts, ∃ l, leaderOf cl t p = some l) :
    (c.consume cfg oenv env t start).1 = .error e ∧
    ∃ reqs, (Single.consume cfg' oenv' env' t start'
        { (c.consume cfg oenv env t start).2.1 with cluster := cl }).2.2 = [.fetch reqs] ∧
      (∀ p ∈ parts, ∃ r ∈ reqs, ∃ f ∈ r.parts, f.id = p) ∧
      ∀ r ∈ reqs, ∀ f ∈ r.parts, f.offset = offsetOf c.offsets t f.id := by
  have hd : c.determineSent oenv t start = (.ok (), { c with
      cluster := { c.cluster with topics := (c.cluster.topics.getDefault t []).1 } }, []) := by
    rcases determine_unknown oenv t start c hp hh with h | ⟨o, h1, h2⟩
    · exact h
    · exact absurd (h1.symm.trans ho) h2
  have hdet : Single.determine oenv t start c = (.ok (), { c with
      cluster := { c.cluster with topics := (c.cluster.topics.getDefault t []).1 } }) := by
    unfold Single.determine; rw [hd]
  have hall : allocated (c.cluster.topics.getDefault t []).1 t = .none := by
    have : (((c.cluster.topics.getDefault t []).1).get? t).getD [] = [] := by
      rw [getDefault_getD]; exact hp
    unfold allocated
    split
    · rename_i heq; rw [heq] at this; simp at this
    · rfl
  have key : c.consume cfg oenv env t start = (.error e,
      { c with synced := addSet c.synced t, cluster := cl' }, [.determine, .heal]) := by
    unfold Single.consume Consumer.consume
    rw [if_neg (by rw [hc]; decide), if_neg hs, hdet]
    simp only [ht]
    unfold Consumer.consumeSynced
    simp only [Single.allocation, hall, hheal, ht]
  rw [key]
  refine ⟨rfl, ?_⟩
  obtain ⟨reqs, k1, k2⟩ := C36_fetches Single.allocation (Single.determine oenv' t start') cfg' env' t
    ({ c with synced := addSet c.synced t, cluster := cl } : Single) cl.topics parts hc
    ((mem_addSet _ _ _).2 (.inl rfl)) rfl hcl hne hl
  refine ⟨reqs, k1, ?_, fun r hr f hf => k2.offsets r hr f hf⟩
  intro p hp
  obtain ⟨r, hr, hlr⟩ := k2.all p hp
  have : p ∈ r.parts.map (·.id) := by
    rw [k2.named r hr, List.mem_filter, decide_eq_true_eq]
    exact ⟨hp, hlr⟩
  obtain ⟨f, hf, he⟩ := List.mem_map.1 this
  exact ⟨r, hr, f, hf, he⟩

/-! ### Concrete cases -/

/-- The broker has two messages, at 0 and 1; the end of its log, which it reports, is 2.  `heal()`
finds the topic. -/
def exLateTopic : ConsumeEnv Unit Nat :=
  { exServe (fun o => [(0, 5), (1, 6)].filter fun m => decide (o ≤ m.1)) with
    heal := fun _ => (.ok (), exCCluster) }

/-- A client that knows its broker, but not yet the topic. -/
def exEarly : Single := Single.new { exCCluster with topics := [], leaders := [] }

/-- The broker tells the end of partition 0, and sends a message of it. -/
def exToldOne : OffsetEnv := { exOffsets 0 [2] with
  outcomes := fun _ => [(7, .ok ⟨[("t", [⟨0, 0, [2]⟩])]⟩)] }

@[inherit_doc exToldOne]
def exLateOne : ConsumeEnv Unit Nat := { exLateTopic with
  outcomes := fun _ => [(7, .ok ⟨[("t", [⟨0, 0, [(2, 8)]⟩])]⟩)] }

/-- **C129** is false of the code: asked to consume from the end on, a consumer whose client knows
the topic returns nothing old; one whose client learns of the topic meanwhile returns all there
is.  Likewise one that was asked for messages before it was connected, and a partition that the
client learns of after the first call. -/
theorem C129_false :
    ((Single.new exCCluster).consume exCCfg (exOffsets 0 [2]) exLateTopic "t" (.int endOffset)).1 =
      .ok (some []) ∧
    (exEarly.consume exCCfg (exOffsets 0 [2]) exLateTopic "t" (.int endOffset)).1 =
      .ok (some [5, 6]) ∧
    ((Single.new ⟨[], [], []⟩).consume exCCfg (exOffsets 0 [2])
      { exLateTopic with heal := fun cl => (.error .noBrokers, cl) } "t" (.int endOffset)).1 =
      .error .noBrokers ∧
    (Single.consume exCCfg (exOffsets 0 [2]) exLateTopic "t" (.int endOffset)
      { ((Single.new ⟨[], [], []⟩).consume exCCfg (exOffsets 0 [2])
        { exLateTopic with heal := fun cl => (.error .noBrokers, cl) } "t" (.int endOffset)).2.1 with
        cluster := exCCluster }).1 = .ok (some [5, 6]) ∧
    (Single.consume exCCfg (exOffsets 0 [2]) exLateTopic "t" (.int endOffset)
      { ((Single.new exCCluster).consume exCCfg (exOffsets 0 [2]) exLateTopic "t" (.int endOffset)).2.1
        with cluster := { exCCluster with topics := [("t", [3])], leaders := [("t", [(3, 7)])] } }).2.2 =
      [.fetch [⟨7, 1000, 1, "t", [⟨3, 0, 100⟩]⟩]] := by decide +kernel

-- Non-vacuity of C129_untold: a consumer that has begun with partition 0, and then learns of
-- partition 3; the offset it begins with there is the conclusion, computed in C129_false.
example : Untold "t" 3 { ((Single.new exCCluster).consume exCCfg exToldOne exLateOne "t"
      (.int endOffset)).2.1 with
      cluster := { exCCluster with topics := [("t", [3])], leaders := [("t", [(3, 7)])] } } := by
  refine .cluster _ _ (.consume _ _ _ _ _ _ (fun _ _ => rfl) ?_ ?_ (.new _))
  · intro reqs b r hm x hx _ q hq hid
    simp only [exToldOne, List.mem_singleton, Prod.mk.injEq, Except.ok.injEq] at hm
    obtain ⟨-, rfl⟩ := hm
    simp only [List.mem_singleton] at hx
    subst hx
    simp only [List.mem_singleton] at hq
    subst hq
    exact absurd hid (by decide)
  · intro reqs b r hm x hx _ q hq hid
    simp only [exLateOne, List.mem_singleton, Prod.mk.injEq, Except.ok.injEq] at hm
    obtain ⟨-, rfl⟩ := hm
    simp only [List.mem_singleton] at hx
    subst hx
    simp only [List.mem_singleton] at hq
    subst hq
    exact absurd hid (by decide)

-- Non-vacuity of C129_unknown.
example : Untold "t" 0 exEarly ∧ exEarly.closing = false ∧ exEarly.heal = false ∧
    "t" ∉ exEarly.synced ∧ (exEarly.cluster.topics.get? "t").getD [] = [] ∧
    (exOffsets 0 [2]).outcomes [] = [] ∧ (∀ n (c : Single), exLateTopic.tick n c = c) ∧
    (∀ x, exLateTopic.heal x = (.ok (), exCCluster)) ∧ exCCluster.topics.get? "t" = some [0] ∧
    (∀ p ∈ [0], ∃ l, leaderOf exCCluster "t" p = some l) :=
  ⟨.new _, rfl, rfl, by simp [exEarly, Single.new], rfl, rfl, fun _ _ => rfl, fun _ => rfl,
    by decide +kernel, by
      intro p hp
      simp only [List.mem_singleton] at hp
      subst hp
      exact ⟨7, by decide +kernel⟩⟩

-- Non-vacuity of C129_unconnected: a consumer that has not been connected.
example : (Single.new ⟨[], [], []⟩).closing = false ∧ (Single.new ⟨[], [], []⟩).heal = false ∧
    "t" ∉ (Single.new ⟨[], [], []⟩).synced ∧
    ((Single.new ⟨[], [], []⟩).cluster.topics.get? "t").getD [] = [] ∧
    (exOffsets 0 [2]).outcomes [] = [] ∧ exCCluster.topics.get? "t" = some [0] :=
  ⟨rfl, rfl, by simp [Single.new], rfl, rfl, by decide +kernel⟩

end Kiel
