import Verif.Props.Rebalance
/-
C52: what commits may carry.  Also the counterexamples for grouped consumers.
-/
set_option autoImplicit false
namespace Kiel
open Spec

variable {β δ : Type}

/-- An offset the consumer has from the group (`fromGroup`) or by reading a message
(`fromLog`: offsets of messages). -/
def Spec.Legit (fromGroup fromLog : String → Int → Int → Prop) (t : String) (p o : Int) : Prop :=
  fromGroup t p o ∨ ∃ m, fromLog t p m ∧ o = m + 1

/-- Answers about the group's offsets: about the topic asked for, with all partitions asked for,
and offsets as in `fromGroup`. -/
def Spec.HonestGroup (fromGroup : String → Int → Int → Prop) (topic : String) (asked : List Int)
    (env : Nat → SendEnv OFResp) : Prop :=
  ∀ n r, (env n).outcome = .ok r → ∃ ps more, r.topics = (topic, ps) :: more ∧
    (∀ q ∈ ps, q.code = 0 → fromGroup topic q.id q.offset) ∧ ∀ p ∈ asked, ∃ q ∈ ps, q.id = p

/-- Answers to fetches: messages with offsets as in `fromLog`. -/
def Spec.HonestLog (fromLog : String → Int → Int → Prop) (env : ConsumeEnv GExt β) : Prop :=
  ∀ reqs, ∀ a ∈ allAnswers (env.outcomes reqs), a.2.code = 0 →
    ∀ m ∈ a.2.msgs, fromLog a.1 a.2.id m.1

/-- Nothing happens, or a rebalance while nothing waits to be committed. -/
def Spec.QuietTick (tick : Grouped → Grouped) : Prop :=
  ∀ c, tick c = c ∨ (c.ext.toCommit = [] ∧
    ∃ a : Dict String (List Int), a.keys.Nodup ∧ tick c = c.rebalanced a)

/-- Every offset a commit would carry is legitimate. -/
def Spec.Safe (fromGroup fromLog : String → Int → Int → Prop) (c : Grouped) : Prop :=
  ∀ a, c.ext.mapping = some a → a.keys.Nodup ∧ ∀ t, (t ∈ c.synced ∨ t ∈ c.ext.toCommit) →
    ∀ p ∈ (a.get? t).getD [], Legit fromGroup fromLog t p (offsetOf c.offsets t p)

theorem nodup_getDefault {κ ν : Type} [DecidableEq κ] {d : Dict κ ν} (h : d.keys.Nodup) (k : κ)
    (v : ν) : (d.getDefault k v).1.keys.Nodup := by
  unfold Dict.getDefault
  split
  · exact h
  · exact Dict.nodup_set h _ _

theorem Spec.Safe.tick {fg fl : String → Int → Int → Prop} {tick : Grouped → Grouped}
    (ht : QuietTick tick) {c : Grouped} (h : Safe fg fl c) : Safe fg fl (tick c) := by
  rcases ht c with h1 | ⟨h1, a, h2, h3⟩
  · rw [h1]; exact h
  · rw [h3]
    intro a' ha'
    simp only [Grouped.rebalanced, Option.some.injEq] at ha'
    subst ha'
    refine ⟨h2, ?_⟩
    simp [Grouped.rebalanced, h1]

/-- `determine_offsets` keeps the invariant. -/
theorem determine_safe {plain : Bool} {fg fl : String → Int → Int → Prop} {env : Nat → SendEnv OFResp}
    {topic : String} {asked : List Int} (hg : HonestGroup fg topic asked env) (fuel : Nat)
    {c : Grouped} (h : Safe fg fl c) : Safe fg fl (c.determine plain env fuel topic).2.1 := by
  refine determine_inv fuel topic c (Safe fg fl) (fun _ _ _ h => h) ?_ ?_ h
  · intro c a hm h a' ha'
    simp only [Option.some.injEq] at ha'
    subst ha'
    obtain ⟨h1, h2⟩ := h a hm
    refine ⟨nodup_getDefault h1 _ _, ?_⟩
    simp only [getDefault_getD]
    exact h2
  · intro n r ho c hc a ha
    obtain ⟨e1, e2, _, _, e5⟩ := offsetFetch_any r c (handleOffsetFetchResponse r c).2
      (handleOffsetFetchResponse r c).1 rfl
    rw [e1] at ha
    obtain ⟨h1, h2⟩ := hc a ha
    refine ⟨h1, fun t ht p hp => ?_⟩
    rw [e1, e2] at ht
    rcases e5 t p with h | ⟨ps, more, g1, q, g2, g3, g4, g5⟩
    · rw [h]; exact h2 t ht p hp
    · obtain ⟨ps', more', k1, k2, _⟩ := hg n r ho
      rw [g1] at k1
      simp only [List.cons.injEq, Prod.mk.injEq] at k1
      obtain ⟨⟨rfl, rfl⟩, _⟩ := k1
      rw [g5, ← g3]
      exact Or.inl (k2 q g2 g4)

/-- After `determine_offsets` succeeded, the topic's offsets are the group's. -/
theorem determine_synced {plain : Bool} {fg fl : String → Int → Int → Prop} {env : Nat → SendEnv OFResp}
    {topic : String} {fuel : Nat} {c : Grouped} (hg : HonestGroup fg topic (shareOf c topic) env)
    (hd : (c.determine plain env fuel topic).1 = .done ()) (h : Safe fg fl c) :
    Safe fg fl { (c.determine plain env fuel topic).2.1 with
      synced := addSet (c.determine plain env fuel topic).2.1.synced topic } := by
  intro a ha
  obtain ⟨h1, h2⟩ := determine_safe (fl := fl) hg fuel h a ha
  refine ⟨h1, fun t ht p hp => ?_⟩
  have hshare : (a.get? t).getD [] = shareOf c t := by
    unfold shareOf
    cases hm : c.ext.mapping with
    | none => simp [Grouped.determine, hm] at hd
    | some a0 =>
      have : (c.determine plain env fuel topic).2.1.ext.mapping = some (Dict.getDefault a0 topic []).1 := by
        unfold Grouped.determine at hd ⊢
        simp only [hm] at hd ⊢
        split
        · rename_i hp
          simp [hp] at hd
        refine determineLoop_rel env (fun c' : Grouped =>
          c'.ext.mapping = some (Dict.getDefault a0 topic []).1) (fun _ _ _ h => h) ?_ fuel 0 _ rfl
        intro n r _ c' hc'
        rw [(offsetFetch_any r c' (handleOffsetFetchResponse r c').2
          (handleOffsetFetchResponse r c').1 rfl).1]
        exact hc'
      rw [show (c.determine plain env fuel topic).2.1.ext.mapping = some a from ha] at this
      simp only [Option.some.injEq] at this
      subst this
      simp only [getDefault_getD]
  by_cases htt : t = topic
  · subst htt
    rw [hshare] at hp
    obtain ⟨m, r, t', ps, more, ho, hr, hz, hq⟩ := C54_determine env fuel t c hd
    obtain ⟨ps', more', k1, k2, k3⟩ := hg m r ho
    rw [hr] at k1
    simp only [List.cons.injEq, Prod.mk.injEq] at k1
    obtain ⟨⟨rfl, rfl⟩, _⟩ := k1
    obtain ⟨q, hq1, rfl⟩ := k3 p hp
    obtain ⟨q', hq', hid, hoff⟩ := hq q hq1
    left
    simp only [hoff]
    rw [← hid]
    exact k2 q' hq' (hz q' hq')
  · refine h2 t ?_ p hp
    rcases ht with ht | ht
    · left
      unfold addSet at ht
      split at ht
      · exact ht
      · simpa [htt] using ht
    · exact Or.inr ht

theorem effect_safe {cfg : CCfg β δ} {fg fl : String → Int → Int → Prop}
    (c c1 : Grouped) (done : List (String × FPart β))
    (hd : ∀ a ∈ done, a.2.code = 0 → ∀ m ∈ a.2.msgs, fl a.1 a.2.id m.1)
    (ho : ∀ t p, offsetOf c1.offsets t p = after cfg (fetchedFor done t p) (offsetOf c.offsets t p))
    (hs : ∀ t ∈ c1.synced, t ∈ c.synced) (he : c1.ext = c.ext) (h : Safe fg fl c) :
    Safe fg fl c1 := by
  intro a ha
  rw [he] at ha
  obtain ⟨h1, h2⟩ := h a ha
  refine ⟨h1, fun t ht p hp => ?_⟩
  rw [he] at ht
  rw [ho]
  rcases after_mem cfg (fetchedFor done t p) (offsetOf c.offsets t p) with h | ⟨m, hm, _, _, h⟩
  · rw [h]; exact h2 t (ht.imp_left (hs t)) p hp
  · rw [h]
    right
    simp only [fetchedFor, List.mem_flatMap, List.mem_filter, decide_eq_true_eq] at hm
    obtain ⟨x, ⟨hx, rfl, rfl, hc⟩, hm⟩ := hm
    exact ⟨m.1, hd x hx hc m hm, rfl⟩

theorem commitHandler_safe {fg fl : String → Int → Int → Prop} (r : CommitResp) (c : Grouped)
    (h : Safe fg fl c) : Safe fg fl (handleCommitResponse r c).2 := by
  obtain ⟨e1, e2, _, e4, _, e6⟩ := commitResponse_any r c
  intro a ha
  rw [e2] at ha
  obtain ⟨h1, h2⟩ := h a ha
  refine ⟨h1, fun t ht p hp => ?_⟩
  rw [e1]
  rw [e4] at ht
  exact h2 t (ht.imp_right (e6 t)) p hp

theorem commit_safe {fg fl : String → Int → Int → Prop} {env : CommitEnv}
    (hT : ∀ n, QuietTick (env.tick n)) (fuel : Nat) (name : String) (md : Option String)
    {c : Grouped} (h : Safe fg fl c) :
    Safe fg fl (c.commit env fuel name md).2.1 ∧
    ∀ req ∈ (c.commit env fuel name md).2.2, ∀ t qs p o, (t, qs) ∈ req.topics → (p, o) ∈ qs →
      Legit fg fl t p o := by
  obtain ⟨h1, h2⟩ := commitLoop_inv (env := env) (Safe fg fl) (fun _ _ _ h => h)
    (fun c o ho h a ha => by
      obtain ⟨h1, h2⟩ := h a ha
      exact ⟨h1, fun t ht p hp => by rw [ho]; exact h2 t ht p hp⟩)
    commitHandler_safe (fun n c h => h.tick (hT n)) fuel 0
    (md.getD ("committed by " ++ name)) c h
  refine ⟨h1, ?_⟩
  intro req hreq t qs p o ht hp
  obtain ⟨c', a, hs, hm, hreq⟩ := h2 req hreq
  rw [hreq] at ht
  simp only [commitOf, List.mem_map, List.mem_filter, decide_eq_true_eq] at ht
  obtain ⟨e, ⟨he, hec⟩, heq⟩ := ht
  simp only [Prod.mk.injEq] at heq
  obtain ⟨rfl, rfl⟩ := heq
  simp only [List.mem_map, Prod.mk.injEq] at hp
  obtain ⟨p', hp', rfl, rfl⟩ := hp
  obtain ⟨k1, k2⟩ := hs a hm
  refine k2 e.1 (Or.inr hec) p' ?_
  rw [Dict.get?_of_mem k1 he]
  exact hp'

/-- `consume` keeps the invariant, and commits only legitimate offsets. -/
theorem consume_safe {fg fl : String → Int → Int → Prop} (gcfg : GCfg) (cfg : CCfg β δ)
    (env : GroupEnv β) (fuel : Nat) (topic : String) {c : Grouped}
    (hg : HonestGroup fg topic (shareOf c topic) env.offsets) (hl : HonestLog fl env.base)
    (h0 : ∀ c, env.base.tick 0 c = c) (h1 : QuietTick (env.base.tick 1))
    (h2 : QuietTick (env.base.tick 2)) (hT : ∀ n, QuietTick (env.commit.tick n))
    (h : Safe fg fl c) :
    Safe fg fl (c.consume gcfg cfg env fuel topic).2.1 ∧
    ∀ req ∈ (c.consume gcfg cfg env fuel topic).2.2.2, ∀ t qs p o, (t, qs) ∈ req.topics →
      (p, o) ∈ qs → Legit fg fl t p o := by
  have hbase : Safe fg fl (Consumer.consume Grouped.allocation
      (Grouped.determineRes cfg.plain env.offsets fuel topic) cfg env.base topic c).2.1 := by
    refine consume_inv (Safe fg fl) (fun a => a.2.code = 0 → ∀ m ∈ a.2.msgs, fl a.1 a.2.id m.1)
      hl ?_ (fun c h => h.tick h1) (fun c h => h.tick h2) ?_ h
    · intro c c1 done hd ho hs _ he h
      exact effect_safe c c1 done hd ho hs he h
    · intro r c1 hd
      rw [h0]
      simp only [Grouped.determineRes, Prod.mk.injEq] at hd
      obtain ⟨hr, rfl⟩ := hd
      refine ⟨determine_safe hg fuel h, fun hok => determine_synced hg ?_ h⟩
      rw [hok] at hr
      cases hrun : (c.determine cfg.plain env.offsets fuel topic).1 with
      | done u => rfl
      | raised e => rw [hrun] at hr; simp [Run.toRes] at hr
      | running => rw [hrun] at hr; simp [Run.toRes] at hr
  rcases gconsume_cases gcfg cfg env fuel topic c with ⟨_, _, _, h3⟩ | ⟨bres, cb, acts, hb, hcase⟩
  · rw [h3, h0]; exact ⟨determine_safe hg fuel h, by simp⟩
  · rw [hb] at hbase
    have hadd : topic ∈ cb.synced → Safe fg fl
        { cb with ext := { cb.ext with toCommit := addSet cb.ext.toCommit topic } } := by
      intro hs a ha
      obtain ⟨k1, k2⟩ := hbase a ha
      refine ⟨k1, fun t ht p hp => k2 t ?_ p hp⟩
      rcases ht with ht | ht
      · exact Or.inl ht
      · simp only [addSet] at ht
        split at ht
        · exact Or.inr ht
        · rcases List.mem_append.1 ht with ht | ht
          · exact Or.inr ht
          · simp only [List.mem_singleton] at ht
            exact Or.inl (ht ▸ hs)
    rcases hcase with ⟨e, _, h⟩ | ⟨r, _, _, h⟩ | ⟨r, _, hs, _, h⟩ | ⟨r, cr, _, hs, _, hcr, h, _⟩
    · rw [h]; exact ⟨hbase, by simp⟩
    · rw [h]; exact ⟨hbase, by simp⟩
    · rw [h]; exact ⟨hadd hs, by simp⟩
    · rw [h, hcr]; exact commit_safe hT fuel gcfg.name .none (hadd hs)

/-- The states a grouped consumer gets into by consuming, committing, and rebalances that happen
while nothing waits to be committed and not while the group's offsets are being fetched.
`other`: whatever else happens, to its connections say. -/
inductive Spec.QuietReach (fromGroup fromLog : String → Int → Int → Prop) : Grouped → Prop where
  | new (cl : Cluster) : Spec.QuietReach fromGroup fromLog (Grouped.new cl)
  | consume {β δ : Type} (gcfg : GCfg) (cfg : CCfg β δ) (env : GroupEnv β) (fuel : Nat)
      (t : String) (c : Grouped) :
      HonestGroup fromGroup t (shareOf c t) env.offsets → HonestLog fromLog env.base →
      (∀ c, env.base.tick 0 c = c) → QuietTick (env.base.tick 1) → QuietTick (env.base.tick 2) →
      (∀ n, QuietTick (env.commit.tick n)) → Spec.QuietReach fromGroup fromLog c →
      Spec.QuietReach fromGroup fromLog (c.consume gcfg cfg env fuel t).2.1
  | commit (env : CommitEnv) (fuel : Nat) (name : String) (md : Option String) (c : Grouped) :
      (∀ n, QuietTick (env.tick n)) → Spec.QuietReach fromGroup fromLog c →
      Spec.QuietReach fromGroup fromLog (c.commit env fuel name md).2.1
  | rebalance (a : Dict String (List Int)) (c : Grouped) : a.keys.Nodup → c.ext.toCommit = [] →
      Spec.QuietReach fromGroup fromLog c → Spec.QuietReach fromGroup fromLog (c.rebalanced a)
  | other (c c' : Grouped) : c'.offsets = c.offsets → c'.synced = c.synced →
      c'.ext.toCommit = c.ext.toCommit → c'.ext.mapping = c.ext.mapping →
      Spec.QuietReach fromGroup fromLog c → Spec.QuietReach fromGroup fromLog c'

theorem Spec.QuietReach.safe {fg fl : String → Int → Int → Prop} {c : Grouped}
    (h : QuietReach fg fl c) : Safe fg fl c := by
  induction h with
  | new cl => intro a ha; simp [Grouped.new] at ha
  | consume gcfg cfg env fuel t c hg hl h0 h1 h2 hT _ ih =>
    exact (consume_safe gcfg cfg env fuel t hg hl h0 h1 h2 hT ih).1
  | commit env fuel name md c hT _ ih => exact (commit_safe hT fuel name md ih).1
  | rebalance a c ha hc _ ih =>
    exact Safe.tick (tick := fun c' => if c' = c then c.rebalanced a else c')
      (fun c' => by
        by_cases hh : c' = c
        · subst hh; exact Or.inr ⟨hc, a, ha, by simp⟩
        · exact Or.inl (by simp [hh])) ih |> fun h => by simpa using h
  | other c c' h1 h2 h3 h4 _ ih =>
    intro a ha
    rw [h4] at ha
    rw [h1, h2, h3]
    exact ih a ha

/-- **C52**, partial: every offset in a commit was fetched from the group or reached by consuming
a message.  Missing: rebalances that happen while topics wait to be committed, or while the
group's offsets are being fetched; with them it is false (`C52_false`).  What `fromGroup` and
`fromLog` are is arbitrary: the offsets come from the answers, and from nowhere else. -/
theorem C52_consume_partial {fg fl : String → Int → Int → Prop} (gcfg : GCfg) (cfg : CCfg β δ)
    (env : GroupEnv β) (fuel : Nat) (topic : String) (c : Grouped) (hc : QuietReach fg fl c)
    (hg : HonestGroup fg topic (shareOf c topic) env.offsets) (hl : HonestLog fl env.base)
    (h0 : ∀ c, env.base.tick 0 c = c) (h1 : QuietTick (env.base.tick 1))
    (h2 : QuietTick (env.base.tick 2)) (hT : ∀ n, QuietTick (env.commit.tick n)) :
    ∀ req ∈ (c.consume gcfg cfg env fuel topic).2.2.2, ∀ t qs p o, (t, qs) ∈ req.topics →
      (p, o) ∈ qs → Legit fg fl t p o :=
  (consume_safe gcfg cfg env fuel topic hg hl h0 h1 h2 hT hc.safe).2

/-- **C52**, partial: the same for `commit_offsets` called by the application. -/
theorem C52_commit_partial {fg fl : String → Int → Int → Prop} (env : CommitEnv) (fuel : Nat)
    (name : String) (md : Option String) (c : Grouped) (hc : QuietReach fg fl c)
    (hT : ∀ n, QuietTick (env.tick n)) :
    ∀ req ∈ (c.commit env fuel name md).2.2, ∀ t qs p o, (t, qs) ∈ req.topics → (p, o) ∈ qs →
      Legit fg fl t p o :=
  (commit_safe hT fuel name md hc.safe).2

/-! ### Concrete consumers

Broker 7 leads partition 0 of topics A and B, broker 8 partition 1 of B and coordinates the group.
The group's offset is 10 everywhere; partitions hold messages from offset 10 on. -/

/-- What the group's coordinator says of `parts`. -/
def exOF (topic : String) (parts : List Int) (offset : Int) : Nat → SendEnv OFResp :=
  fun _ => exSend (.ok ⟨[(topic, parts.map fun p => ⟨p, offset, 0⟩)]⟩)

/-- Fetches yield message `o + 1` (value 5) from each partition; rebalances as in `tick`. -/
def exFetch (code : Int) (tick : Nat → Grouped → Grouped) : ConsumeEnv GExt Nat where
  outcomes reqs := reqs.map fun q =>
    (q.broker, .ok ⟨[(q.topic, q.parts.map fun f => ⟨f.id, code, [(f.offset + 1, 5)]⟩)]⟩)
  write _ := .none
  heal cl := (.ok (), cl)
  healC cl := (.ok (), cl)
  tick := tick

/-- Commits are answered by `code`. -/
def exCommit (r : Res CommitResp) : CommitEnv := ⟨fun _ => exSend r, fun _ c => c⟩

/-- No rebalance. -/
def exStill : Nat → Grouped → Grouped := fun _ c => c

/-- A consumer that has its coordinator and partition 0 of A and B. -/
def exGrouped : Grouped :=
  { Grouped.new exGCluster with ext := ⟨some 8, [], some [("A", [0]), ("B", [0])]⟩ }

/-- The share after the rebalance: one more partition of B. -/
def exShare : Dict String (List Int) := [("A", [0]), ("B", [0, 1])]

def exAuto : GCfg := ⟨"x", true⟩
def exManual : GCfg := ⟨"x", false⟩

/-- One `consume`. -/
def exGStep (gcfg : GCfg) (topic : String) (parts : List Int) (c : Grouped) : Grouped :=
  (c.consume gcfg exCCfg ⟨exOF topic parts 10, exFetch 0 exStill, exCommit (.ok ⟨[]⟩)⟩ 5 topic).2.1

/-- `consume` as it should be: offsets are fetched, messages are fetched, and committed. -/
example : (exGrouped.consume exAuto exCCfg
      ⟨exOF "A" [0] 10, exFetch 0 exStill, exCommit (.ok ⟨[("A", [(0, 0)])]⟩)⟩ 5 "A") =
    (.done (some [5]),
     { exGrouped with
        offsets := [("A", [(0, 12)])]
        synced := ["A"]
        ext := ⟨some 8, [], some [("A", [0]), ("B", [0])]⟩ },
     [.determine, .fetch [⟨7, 1000, 1, "A", [⟨0, 10, 100⟩]⟩]],
     [⟨some 8, "committed by x", [("A", [(0, 12)])]⟩]) := by decide +kernel

/-- `C49_consumed` is not vacuous. -/
example :
    let env : GroupEnv Nat := ⟨exOF "A" [0] 10, exFetch 0 exStill, exCommit (.ok ⟨[]⟩)⟩
    let r := Consumer.consume Grouped.allocation (Grouped.determineRes exCCfg.plain env.offsets 5 "A") exCCfg
      env.base "A" exGrouped
    (exGrouped.determine exCCfg.plain env.offsets 5 "A").1 ≠ .running ∧ r.1 = .ok (some [5]) ∧
    "A" ∈ r.2.1.synced ∧ r.2.1.ext.mapping = some [("A", [0]), ("B", [0])] := by decide +kernel

/-- **C48**, false: partition 1 of B is allocated while the group's offsets for partition 0 are
being fetched.  The topic is marked synced all the same, and partition 1 is read from offset 0,
though the group's offset is 10, and committed. -/
theorem C48_false :
    (exGrouped.consume exAuto exCCfg
      ⟨exOF "B" [0] 10, exFetch 0 fun n c => if n = 0 then c.rebalanced exShare else c,
       exCommit (.ok ⟨[("B", [(0, 0), (1, 0)])]⟩)⟩ 5 "B").2.2 =
    ([.determine, .fetch [⟨7, 1000, 1, "B", [⟨0, 10, 100⟩]⟩, ⟨8, 1000, 1, "B", [⟨1, 0, 100⟩]⟩]],
     [⟨some 8, "committed by x", [("B", [(0, 12), (1, 2)])]⟩]) := by decide +kernel

/-- `C48_during` is not vacuous. -/
example : (exGrouped.consume exAuto exCCfg
      ⟨exOF "B" [0] 10, exFetch 0 fun n c => if n = 2 then c.rebalanced exShare else c,
       exCommit (.ok ⟨[]⟩)⟩ 5 "B") =
    (.done (some []),
     { exGrouped with
        offsets := [("B", [(0, 12)])]
        ext := ⟨some 8, [], some exShare⟩ },
     [.determine, .fetch [⟨7, 1000, 1, "B", [⟨0, 10, 100⟩]⟩]], []) := by decide +kernel

/-- **C50**, false: the commit of partition 0 succeeds, that of partition 1 is answered by
`request_timed_out`; the retry commits nothing. -/
theorem C50_false :
    (Grouped.commit ⟨fun n => exSend (.ok ⟨if n = 0 then [("B", [(0, 0), (1, 7)])] else []⟩),
      fun _ c => c⟩ 5 "x" .none
      { exGrouped with
        offsets := [("B", [(0, 12), (1, 20)])]
        ext := ⟨some 8, ["B"], some exShare⟩ }).2.2 =
    [⟨some 8, "committed by x", [("B", [(0, 12), (1, 20)])]⟩, ⟨some 8, "committed by x", []⟩] := by
  decide +kernel

/-- `C50_retried_partial`: a topic with failures only is committed again. -/
example : (Grouped.commit ⟨fun n => exSend (.ok ⟨if n = 0 then [("A", [(0, 0)]), ("B", [(0, 6), (1, 7)])]
      else [("B", [(0, 0), (1, 0)])]⟩), fun _ c => c⟩ 5 "x" .none
      { exGrouped with
        offsets := [("B", [(0, 12), (1, 20)])]
        ext := ⟨some 8, ["A", "B"], some exShare⟩ }).2.2 =
    [⟨some 8, "committed by x", [("A", [(0, 0)]), ("B", [(0, 12), (1, 20)])]⟩,
     ⟨some 8, "committed by x", [("B", [(0, 12), (1, 20)])]⟩] := by
  decide +kernel

/-- **C51**, false: the metadata is too large for partition 1 only, so the retry with blank
metadata is not the same commit: it is empty. -/
theorem C51_false :
    (Grouped.commit ⟨fun n => exSend (.ok ⟨if n = 0 then [("B", [(0, 0), (1, 12)])] else []⟩),
      fun _ c => c⟩ 5 "x" (some "long") { exGrouped with
        offsets := [("B", [(0, 12), (1, 20)])]
        ext := ⟨some 8, ["B"], some exShare⟩ }).2.2 =
    [⟨some 8, "long", [("B", [(0, 12), (1, 20)])]⟩, ⟨some 8, "", []⟩] := by
  decide +kernel

/-- `C51_blank_partial`, `C51_fatal`: too large everywhere, then fatal. -/
example : (Grouped.commit ⟨fun n => exSend (.ok ⟨[("B", if n = 0 then [(0, 12), (1, 12)] else
        [(0, 0), (1, 28)])]⟩), fun _ c => c⟩ 5 "x" (some "long") { exGrouped with
        offsets := [("B", [(0, 12), (1, 20)])]
        ext := ⟨some 8, ["B"], some exShare⟩ }) =
    (.done (), { exGrouped with
        offsets := [("B", [(0, 12), (1, 20)])]
        ext := ⟨some 8, [], some exShare⟩ },
    [⟨some 8, "long", [("B", [(0, 12), (1, 20)])]⟩, ⟨some 8, "", [("B", [(0, 12), (1, 20)])]⟩]) := by
  decide +kernel

/-- **C52**, false: A and B are consumed, the group is rebalanced, A is consumed again (which
fetches the group's offset for A only), and then everything is committed.  For partition 1 of B,
which has never been read and whose group offset is 10, this commits offset 0: whoever gets the
partition next reads it from the beginning. -/
theorem C52_false :
    (Grouped.commit (exCommit (.ok ⟨[]⟩)) 5 "x" .none
      (exGStep exManual "A" [0]
        ((exGStep exManual "B" [0] (exGStep exManual "A" [0] exGrouped)).rebalanced exShare))).2.2 =
    [⟨some 8, "committed by x", [("A", [(0, 12)]), ("B", [(0, 12), (1, 0)])]⟩] ∧
    ¬ Legit (fun _ _ o => o = 10) (fun _ _ m => 10 ≤ m) "B" 1 0 := by
  refine ⟨by decide +kernel, ?_⟩
  rintro (h | ⟨m, h1, h2⟩) <;> omega

theorem exOF_honest (fg : String → Int → Int → Prop) (topic : String) (parts : List Int)
    (h : ∀ p, fg topic p 10) : HonestGroup fg topic parts (exOF topic parts 10) := by
  intro n r hr
  simp only [exOF, exSend, Except.ok.injEq] at hr
  subst hr
  refine ⟨_, [], rfl, ?_, ?_⟩
  · intro q hq _
    obtain ⟨p, _, rfl⟩ := List.mem_map.1 hq
    exact h p
  · intro p hp
    exact ⟨_, List.mem_map.2 ⟨p, hp, rfl⟩, rfl⟩

theorem exFetch_honest (fl : String → Int → Int → Prop) (h : ∀ t p m, fl t p m)
    (tick : Nat → Grouped → Grouped) : HonestLog fl (exFetch 0 tick) := by
  intro reqs a _ _ m _
  exact h _ _ _

theorem exGStep_quiet {fg fl : String → Int → Int → Prop} (hg : ∀ t p, fg t p 10)
    (hl : ∀ t p m, fl t p m) (gcfg : GCfg) (topic : String) (parts : List Int) (c : Grouped)
    (hp : shareOf c topic = parts) (h : QuietReach fg fl c) :
    QuietReach fg fl (exGStep gcfg topic parts c) :=
  QuietReach.consume gcfg exCCfg _ 5 topic c (by rw [hp]; exact exOF_honest fg topic parts (hg topic))
    (exFetch_honest fl hl exStill) (fun _ => rfl) (fun _ => Or.inl rfl) (fun _ => Or.inl rfl)
    (fun _ _ => Or.inl rfl) h

/-- The run of `C52_false` up to the rebalance, as `C52_commit_partial` has it: with offset 10 or
that of a message plus one.  Offset 0, say, is impossible if messages have offsets from 10. -/
example : QuietReach (fun _ _ o => o = 10) (fun _ _ _ => True)
      (exGStep exManual "B" [0] (exGStep exManual "A" [0] exGrouped)) ∧
    (Grouped.commit (exCommit (.ok ⟨[]⟩)) 5 "x" .none
      (exGStep exManual "B" [0] (exGStep exManual "A" [0] exGrouped))).2.2 =
    [⟨some 8, "committed by x", [("A", [(0, 12)]), ("B", [(0, 12)])]⟩] := by
  refine ⟨?_, by decide +kernel⟩
  refine exGStep_quiet (fg := fun _ _ o => o = 10) (fun _ _ => rfl) (fun _ _ _ => trivial) exManual "B" [0] _ ?_ ?_
  · decide +kernel
  refine exGStep_quiet (fg := fun _ _ o => o = 10) (fun _ _ => rfl) (fun _ _ _ => trivial) exManual "A" [0] _ ?_ ?_
  · decide +kernel
  refine QuietReach.other ((Grouped.new exGCluster).rebalanced [("A", [0]), ("B", [0])]) _ rfl rfl rfl
    rfl ?_
  exact QuietReach.rebalance _ _ (by decide) rfl (QuietReach.new _)

/-- A group that has never committed: the coordinator answers -1, without error, and the broker
that is then asked for offset -1 answers `offset_out_of_range`. -/
def exNever : GroupEnv Nat := ⟨exOF "A" [0] (-1), exFetch 1 exStill, exCommit (.ok ⟨[]⟩)⟩

/-- **C55**, false: the consumer asks for offset -1. -/
theorem C55_false :
    (exGrouped.consume exAuto exCCfg exNever 5 "A").2.2.1 =
      [.determine, .fetch [⟨7, 1000, 1, "A", [⟨0, -1, 100⟩]⟩]] := by decide +kernel

/-- **C55**, false: and it goes on like this: however often it tries, it gets no message, and
commits nothing. -/
theorem C55_false_forever (n : Nat) :
    ∃ c, c = (fun c : Grouped => (c.consume exAuto exCCfg exNever 5 "A").2.1)^[n] exGrouped ∧
      (c.consume exAuto exCCfg exNever 5 "A").1 = .done (some []) ∧
      (c.consume exAuto exCCfg exNever 5 "A").2.2 =
        ([.determine, .fetch [⟨7, 1000, 1, "A", [⟨0, -1, 100⟩]⟩]], []) := by
  refine ⟨_, rfl, ?_⟩
  have h1 : (exGrouped.consume exAuto exCCfg exNever 5 "A").2.1 =
      { exGrouped with offsets := [("A", [(0, -1)])] } := by decide +kernel
  have h2 : (Grouped.consume exAuto exCCfg exNever 5 "A"
      { exGrouped with offsets := [("A", [(0, -1)])] }).2.1 =
      { exGrouped with offsets := [("A", [(0, -1)])] } := by decide +kernel
  have h3 : (fun c : Grouped => (c.consume exAuto exCCfg exNever 5 "A").2.1)^[n] exGrouped =
      if n = 0 then exGrouped else { exGrouped with offsets := [("A", [(0, -1)])] } := by
    induction n with
    | zero => rfl
    | succ n ih =>
      rw [Function.iterate_succ_apply', ih]
      split
      · simpa using h1
      · simpa using h2
  rw [h3]
  split <;> decide +kernel

/-- `C55_nonneg_partial` is not vacuous. -/
example : GroupReach exGrouped ∧ NonNegAnswers (exOF "A" [0] 10) ∧
    (exGrouped.consume exAuto exCCfg
      ⟨exOF "A" [0] 10, exFetch 0 exStill, exCommit (.ok ⟨[("A", [(0, 0)])]⟩)⟩ 5 "A").2.2.1 =
      [.determine, .fetch [⟨7, 1000, 1, "A", [⟨0, 10, 100⟩]⟩]] := by
  refine ⟨GroupReach.other (Grouped.new exGCluster) _ rfl (GroupReach.new _), ?_, by decide +kernel⟩
  intro n r hr
  simp only [exOF, exSend, Except.ok.injEq] at hr
  subst hr
  decide

/-- `C54_adopted`, `C54_fatal`, `C54_unknown`: partition 0 is adopted, 1 is to be retried; then
`group_authorization_failed`, and a code not in the table. -/
example : handleOffsetFetchResponse ⟨[("B", [⟨0, 40, 0⟩, ⟨1, -1, 14⟩])]⟩ exGrouped =
      (.ok true, { exGrouped with offsets := [("B", [(0, 40)])] }) ∧
    handleOffsetFetchResponse ⟨[("B", [⟨0, 40, 0⟩, ⟨1, -1, 30⟩, ⟨2, 3, 0⟩])]⟩ exGrouped =
      (.error .noOffsets, { exGrouped with offsets := [("B", [(0, 40)])] }) ∧
    (handleOffsetFetchResponse ⟨[("B", [⟨0, 40, 0⟩, ⟨1, -1, 77⟩])]⟩ exGrouped).1 =
      .error .keyError ∧
    Fatal 30 ∧ KnownCode 30 ∧ Fatal 77 ∧ ¬ KnownCode 77 := by decide +kernel

/-- `C54_determine`: an answer that asks for a retry, then one without errors. -/
example : (exGrouped.determine false (fun n => exSend (.ok ⟨[("B", [⟨0, 40, if n = 0 then 14 else 0⟩])]⟩)) 5
      "B") =
    (.done (), { exGrouped with offsets := [("B", [(0, 40)])] }, some [0]) := by decide +kernel

/-- `C66_stuck`: broker 8 no longer is the coordinator.  Broker 7, say, is: it is never asked. -/
theorem C66_false (fuel : Nat) :
    (exGrouped.consume exAuto exCCfg
      ⟨fun _ => exSend (.ok ⟨[("A", [⟨0, -1, 16⟩])]⟩), exFetch 0 exStill, exCommit (.ok ⟨[]⟩)⟩ fuel
      "A").1 = .running :=
  (C66_stuck exAuto exCCfg _ 8 "A" exGrouped [("A", [0]), ("B", [0])] rfl (by decide) rfl rfl
    (fun h => by cases h) (by decide) (fun n => ⟨rfl, exSend_well _, ⟨0, -1, 16⟩, [], [], rfl, by simp⟩) fuel).1

/-- **C67**, false: the messages at offset 11 are fetched, the commit gets no answer, and
`consume` raises a `KeyError`.  The next `consume` goes on with offset 13 and, having done so,
commits 14: the application never sees the message at offset 11. -/
theorem C67_false :
    ∃ c1, (exGrouped.consume exAuto exCCfg
        ⟨exOF "A" [0] 10, exFetch 0 exStill, exCommit (.error .streamClosed)⟩ 5 "A") =
      (.raised .keyError, c1,
        [.determine, .fetch [⟨7, 1000, 1, "A", [⟨0, 10, 100⟩]⟩]],
        [⟨some 8, "committed by x", [("A", [(0, 12)])]⟩]) ∧
    (c1.consume exAuto exCCfg
        ⟨exOF "A" [0] 10, exFetch 0 exStill, exCommit (.ok ⟨[("A", [(0, 0)])]⟩)⟩ 5 "A").1 =
      .done (some [5]) ∧
    (c1.consume exAuto exCCfg
        ⟨exOF "A" [0] 10, exFetch 0 exStill, exCommit (.ok ⟨[("A", [(0, 0)])]⟩)⟩ 5 "A").2.2 =
      ([.fetch [⟨7, 1000, 1, "A", [⟨0, 12, 100⟩]⟩]],
        [⟨some 8, "committed by x", [("A", [(0, 14)])]⟩]) :=
  ⟨(exGrouped.consume exAuto exCCfg
      ⟨exOF "A" [0] 10, exFetch 0 exStill, exCommit (.error .streamClosed)⟩ 5 "A").2.1,
    by decide +kernel, by decide +kernel, by decide +kernel⟩

/-- **C44**, false: closing, yet committing. -/
theorem C44_false :
    (Grouped.consume exAuto exCCfg
        ⟨exOF "A" [0] 10, exFetch 0 exStill, exCommit (.ok ⟨[("A", [(0, 0)])]⟩)⟩ 5 "A"
        { exGrouped with
          offsets := [("A", [(0, 12)])]
          synced := ["A"]
          closing := true }).2.2 =
      ([], [⟨some 8, "committed by x", [("A", [(0, 12)])]⟩]) := by decide +kernel

end Kiel
