import Verif.Lemmas.Consume
import Verif.Props.Coordinator
/-
C44, C48, C52, C55, C67: `consume` of grouped consumers.
-/
set_option autoImplicit false
namespace Kiel
open Spec

variable {β δ : Type}

/-- The partitions of a topic allocated to a consumer. -/
def Spec.shareOf (c : Grouped) (topic : String) : List Int :=
  match c.ext.mapping with
  | .none => []
  | some a => (a.get? topic).getD []

/-! ### C44 -/

/-- **C44** for grouped consumers: offsets are determined exactly if the topic is not synced (and
the consumer is not closing), before anything else; and they are asked for exactly the partitions
allocated. -/
theorem C44_grouped (gcfg : GCfg) (cfg : CCfg β δ) (env : GroupEnv β) (fuel : Nat)
    (topic : String) (c : Grouped) :
    (CAct.determine ∈ (c.consume gcfg cfg env fuel topic).2.2.1 ↔
      c.closing = false ∧ topic ∉ c.synced) ∧
    (c.closing = false → topic ∉ c.synced → ∃ rest,
      (c.consume gcfg cfg env fuel topic).2.2.1 = .determine :: rest ∧ CAct.determine ∉ rest) ∧
    ∀ a, c.ext.mapping = some a → Known cfg.plain a topic →
      (c.determine cfg.plain env.offsets fuel topic).2.2 = some ((a.get? topic).getD []) := by
  have hparts : ∀ a, c.ext.mapping = some a → Known cfg.plain a topic →
      (c.determine cfg.plain env.offsets fuel topic).2.2 = some ((a.get? topic).getD []) := by
    intro a ha hk
    simp only [Grouped.determine, ha, getDefault_val, if_neg (known_not hk)]
  have hex := C44_exactly Grouped.allocation (Grouped.determineRes cfg.plain env.offsets fuel topic) cfg
    env.base topic c
  rcases gconsume_cases gcfg cfg env fuel topic c with ⟨h1, h2, _, h3⟩ | ⟨bres, cb, acts, hb, hcase⟩
  · rw [h3]; exact ⟨by simp [h1, h2], by simp, hparts⟩
  · rw [hb] at hex
    have : (c.consume gcfg cfg env fuel topic).2.2.1 = acts := by
      rcases hcase with ⟨e, _, h⟩ | ⟨r, _, _, h⟩ | ⟨r, _, _, _, h⟩ | ⟨r, cr, _, _, _, _, h, _⟩ <;>
        rw [h]
    rw [this]; exact ⟨hex.1, hex.2, hparts⟩

/-- **C44**, false of grouped consumers: one that is closing still commits. -/
theorem C44_grouped_closing (gcfg : GCfg) (cfg : CCfg β δ) (env : GroupEnv β) (fuel : Nat)
    (topic : String) (c : Grouped) (a : Dict String (List Int)) (hc : c.closing = true)
    (hs : topic ∈ c.synced) (hm : c.ext.mapping = some a) (ha : gcfg.autocommit = true) :
    (c.consume gcfg cfg env (fuel + 1) topic).2.2.2.head? =
      some ⟨c.ext.coordinator, "committed by " ++ gcfg.name,
        commitOf (addSet c.ext.toCommit topic) a c.offsets⟩ := by
  have hb := C44_closing Grouped.allocation (Grouped.determineRes cfg.plain env.offsets (fuel + 1) topic) cfg
    env.base topic c hc
  rcases gconsume_cases gcfg cfg env (fuel + 1) topic c with ⟨h1, _⟩ | ⟨bres, cb, acts, hb', hcase⟩
  · rw [hc] at h1; simp at h1
  · rw [hb] at hb'
    simp only [Prod.mk.injEq] at hb'
    obtain ⟨rfl, rfl, rfl⟩ := hb'
    rcases hcase with ⟨e, h, _⟩ | ⟨r, _, h, _⟩ | ⟨r, _, _, h, _⟩ | ⟨r, cr, _, _, _, hcr, h, _⟩
    · simp at h
    · exact absurd hs h
    · rw [ha] at h; simp at h
    · rw [h, hcr]
      exact C49_first env.commit fuel gcfg.name .none
        { c with ext := { c.ext with toCommit := addSet c.ext.toCommit topic } } a hm

/-! ### C48 -/

/-- **C48**, partial: after a rebalance, the next `consume` of any topic begins by fetching the
group's offsets, for the new share of partitions.  Missing: rebalances during `determine_offsets`
(`C48_false`). -/
theorem C48_next_partial (gcfg : GCfg) (cfg : CCfg β δ) (env : GroupEnv β) (fuel : Nat)
    (topic : String) (c : Grouped) (a : Dict String (List Int)) (hc : c.closing = false) :
    (∃ rest, ((c.rebalanced a).consume gcfg cfg env fuel topic).2.2.1 = .determine :: rest) ∧
    (Known cfg.plain a topic →
      ((c.rebalanced a).determine cfg.plain env.offsets fuel topic).2.2 = some ((a.get? topic).getD [])) := by
  constructor
  · obtain ⟨rest, h, _⟩ := (C44_grouped gcfg cfg env fuel topic (c.rebalanced a)).2.1 hc
      (by simp [Grouped.rebalanced])
    exact ⟨rest, h⟩
  · intro hk
    simp only [Grouped.determine, Grouped.rebalanced, getDefault_val, if_neg (known_not hk)]

/-- **C48**: a rebalance while messages are being fetched makes that `consume` return nothing
(unless it raises anyway) and commit nothing, and leaves no topic synced. -/
theorem C48_during (gcfg : GCfg) (cfg : CCfg β δ) (env : GroupEnv β) (fuel : Nat)
    (topic : String) (c : Grouped) (a : Dict String (List Int)) (reqs : List FReq)
    (ht : ∀ c : Grouped, env.base.tick 2 c = c.rebalanced a)
    (hr : CAct.fetch reqs ∈ (c.consume gcfg cfg env fuel topic).2.2.1) :
    ((c.consume gcfg cfg env fuel topic).1 = .done (some []) ∨
      ∃ e, (c.consume gcfg cfg env fuel topic).1 = .raised e) ∧
    (c.consume gcfg cfg env fuel topic).2.2.2 = [] ∧
    (c.consume gcfg cfg env fuel topic).2.1.synced = [] ∧
    (c.consume gcfg cfg env fuel topic).2.1.ext.mapping = some a := by
  rcases gconsume_cases gcfg cfg env fuel topic c with ⟨h1, h2, _, h3⟩ | ⟨bres, cb, acts, hb, hcase⟩
  · rw [h3] at hr; simp at hr
  · have hacts : (c.consume gcfg cfg env fuel topic).2.2.1 = acts := by
      rcases hcase with ⟨e, _, h⟩ | ⟨r, _, _, h⟩ | ⟨r, _, _, _, h⟩ | ⟨r, cr, _, _, _, _, h, _⟩ <;>
        rw [h]
    rw [hacts] at hr
    obtain ⟨c0, a', parts, _, _, hf, _⟩ := consume_fetch hb hr
    rcases fetch_spec cfg env.base topic parts c0 cb bres _ hf with ⟨e, _, h4, _⟩ |
      ⟨reqs', c1, _, _, hcb, _⟩
    · simp at h4
    · have hs : cb.synced = [] := by rw [hcb, ht]; rfl
      have hm : cb.ext.mapping = some a := by rw [hcb, ht]; rfl
      rcases hcase with ⟨e, _, h⟩ | ⟨r, _, _, h⟩ | ⟨r, _, h, _⟩ | ⟨r, cr, _, h, _⟩
      · rw [h]; exact ⟨Or.inr ⟨e, rfl⟩, rfl, hs, hm⟩
      · rw [h]; exact ⟨Or.inl rfl, rfl, hs, hm⟩
      · rw [hs] at h; simp at h
      · rw [hs] at h; simp at h

/-! ### C67: the coordinator cannot be reached -/

/-- **C67**, false: if the commit gets no answer, `consume` raises a `KeyError`: the messages it
fetched are not returned, yet the consumer has moved past them. -/
theorem C67_lost (gcfg : GCfg) (cfg : CCfg β δ) (env : GroupEnv β) (fuel : Nat)
    (topic : String) (c cb : Grouped) (result : Option (List δ)) (acts : List CAct) (b : Int)
    (a : Dict String (List Int)) (e : Exc)
    (hrun : (c.determine cfg.plain env.offsets (fuel + 1) topic).1 ≠ .running)
    (hb : Consumer.consume Grouped.allocation (Grouped.determineRes cfg.plain env.offsets (fuel + 1) topic)
      cfg env.base topic c = (.ok result, cb, acts))
    (hs : topic ∈ cb.synced) (hauto : gcfg.autocommit = true)
    (hcoord : cb.ext.coordinator = some b) (hm : cb.ext.mapping = some a)
    (hh : cb.cluster.conns.has b = true) (hw : (env.commit.send 0).write = .none)
    (hwell : HealsWell (env.commit.send 0)) (ho : (env.commit.send 0).outcome = .error e)
    (hT : ∀ n c, env.commit.tick n c = c) :
    (c.consume gcfg cfg env (fuel + 1) topic).1 = .raised .keyError ∧
    ∀ t p, offsetOf (c.consume gcfg cfg env (fuel + 1) topic).2.1.offsets t p =
      offsetOf cb.offsets t p := by
  rcases gconsume_cases gcfg cfg env (fuel + 1) topic c with ⟨_, _, h, _⟩ |
    ⟨bres, cb', acts', hb', hcase⟩
  · exact absurd h hrun
  · rw [hb] at hb'
    simp only [Prod.mk.injEq] at hb'
    obtain ⟨rfl, rfl, rfl⟩ := hb'
    rcases hcase with ⟨e, h, _⟩ | ⟨r, _, h, _⟩ | ⟨r, _, _, h, _⟩ | ⟨r, cr, _, _, _, hcr, h, h'⟩
    · simp at h
    · exact absurd hs h
    · rw [hauto] at h; simp at h
    · obtain ⟨k1, k2⟩ := commitTopics_spec (addSet cb.ext.toCommit topic) a cb.offsets
      obtain ⟨cl, g1, g2⟩ := sendTo_lost (hs := commitHandlers) (env := env.commit.send 0) (b := b)
        (c := ⟨cb.cluster, (commitTopics (addSet cb.ext.toCommit topic) a cb.offsets).2, cb.synced,
          cb.heal, cb.closing, ⟨some b, addSet cb.ext.toCommit topic, some a⟩⟩)
        ⟨hh, hw⟩ ho hwell
      have hcr' : cr.1 = .raised .keyError ∧
          cr.2.1.offsets = (commitTopics (addSet cb.ext.toCommit topic) a cb.offsets).2 := by
        rw [hcr]
        simp only [Grouped.commit, Grouped.commitLoop, hm, Grouped.sendCoordinator, hcoord, g1, hT]
        exact ⟨trivial, trivial⟩
      constructor
      · rcases h' with ⟨h1, _⟩ | ⟨e', h1, h2⟩ | ⟨h1, _⟩
        · rw [hcr'.1] at h1; simp at h1
        · rw [hcr'.1] at h1
          simp only [Run.raised.injEq] at h1
          rw [h2, h1]
        · rw [hcr'.1] at h1; simp at h1
      · intro t p
        rw [h]
        simp only [hcr'.2, k2]

/-- **C67**, false: if the request for the group's offsets gets no answer, `consume` raises a
`KeyError` rather than healing and trying again. -/
theorem C67_determine (gcfg : GCfg) (cfg : CCfg β δ) (env : GroupEnv β) (fuel : Nat)
    (topic : String) (c : Grouped) (b : Int) (a : Dict String (List Int)) (e : Exc)
    (hc : c.closing = false) (hs : topic ∉ c.synced)
    (hcoord : c.ext.coordinator = some b) (hm : c.ext.mapping = some a)
    (hh : c.cluster.conns.has b = true) (hw : (env.offsets 0).write = .none)
    (hwell : HealsWell (env.offsets 0)) (ho : (env.offsets 0).outcome = .error e) :
    (c.consume gcfg cfg env (fuel + 1) topic).1 = .raised .keyError ∧
    (c.consume gcfg cfg env (fuel + 1) topic).2.2 = ([.determine], []) := by
  obtain ⟨cl, g1, g2⟩ := sendTo_lost (hs := offsetFetchHandlers) (env := env.offsets 0) (b := b)
    (c := ⟨c.cluster, c.offsets, c.synced, c.heal, c.closing,
      ⟨some b, c.ext.toCommit, some (Dict.getDefault a topic []).1⟩⟩)
    ⟨hh, hw⟩ ho hwell
  have hd : (c.determine cfg.plain env.offsets (fuel + 1) topic).1 = .raised .keyError := by
    simp only [Grouped.determine, hm, Grouped.determineLoop, Grouped.sendCoordinator, hcoord, g1]
    split <;> rfl
  have hb : ∃ cb, Consumer.consume Grouped.allocation
      (Grouped.determineRes cfg.plain env.offsets (fuel + 1) topic) cfg env.base topic c =
      (.error .keyError, cb, [.determine]) := by
    refine ⟨_, C44_raises Grouped.allocation (Grouped.determineRes cfg.plain env.offsets (fuel + 1) topic) cfg
      env.base topic c (c.determine cfg.plain env.offsets (fuel + 1) topic).2.1 .keyError hc hs (by simp) ?_⟩
    simp only [Grouped.determineRes, hd, Run.toRes]
  obtain ⟨cb, hb⟩ := hb
  unfold Grouped.consume
  rw [if_neg (by simp [hd]), hb]
  exact ⟨rfl, rfl⟩

/-! ### C55 -/

/-- The answers of the coordinator about offsets are not negative. -/
def Spec.NonNegAnswers (env : Nat → SendEnv OFResp) : Prop :=
  ∀ n r, (env n).outcome = .ok r → ∀ t ∈ r.topics, ∀ q ∈ t.2, q.code = 0 → 0 ≤ q.offset

theorem determine_inv {plain : Bool} {env : Nat → SendEnv OFResp} (fuel : Nat) (topic : String) (c : Grouped)
    (P : Grouped → Prop) (hP : ∀ (c : Grouped) cl h, P c → P { c with cluster := cl, heal := h })
    (hm : ∀ (c : Grouped) a, c.ext.mapping = some a → P c →
      P { c with ext := { c.ext with mapping := some (Dict.getDefault a topic []).1 } })
    (hH : ∀ n r, (env n).outcome = .ok r → ∀ c, P c → P (handleOffsetFetchResponse r c).2)
    (h : P c) : P (c.determine plain env fuel topic).2.1 := by
  unfold Grouped.determine
  cases hmap : c.ext.mapping with
  | none => exact h
  | some a =>
    simp only
    split
    · exact h
    · exact determineLoop_rel env P hP hH fuel 0 _ (hm c a hmap h)

theorem gdetermine_nonNeg {plain : Bool} {env : Nat → SendEnv OFResp} (hn : NonNegAnswers env) (fuel : Nat)
    (topic : String) (c : Grouped) (h : NonNeg c.offsets) :
    NonNeg (c.determine plain env fuel topic).2.1.offsets := by
  refine determine_inv fuel topic c (fun c : Grouped => NonNeg c.offsets) (fun _ _ _ h => h)
    (fun _ _ _ h => h) ?_ h
  intro n r ho c hc t p
  obtain ⟨_, _, _, _, h5⟩ := offsetFetch_any r c (handleOffsetFetchResponse r c).2
    (handleOffsetFetchResponse r c).1 rfl
  rcases h5 t p with h | ⟨ps, more, h1, q, h2, _, h3, h4⟩
  · rw [h]; exact hc t p
  · rw [h4]; exact hn n r ho (t, ps) (by rw [h1]; simp) q h2 h3

theorem commitLoop_inv {env : CommitEnv} (P : Grouped → Prop)
    (hP : ∀ (c : Grouped) cl h, P c → P { c with cluster := cl, heal := h })
    (hO : ∀ (c : Grouped) o, (∀ t p, offsetOf o t p = offsetOf c.offsets t p) → P c →
      P { c with offsets := o })
    (hH : ∀ r c, P c → P (handleCommitResponse r c).2) (hT : ∀ n c, P c → P (env.tick n c))
    (fuel n : Nat) (md : String) (c : Grouped) (h : P c) :
    P (Grouped.commitLoop env fuel n md c).2.1 ∧
    ∀ req ∈ (Grouped.commitLoop env fuel n md c).2.2, ∃ (c' : Grouped) (a : Dict String (List Int)),
      P c' ∧ c'.ext.mapping = some a ∧ req.topics = commitOf c'.ext.toCommit a c'.offsets := by
  induction fuel generalizing n md c with
  | zero => exact ⟨h, by simp [Grouped.commitLoop]⟩
  | succ fuel ih =>
    cases hm : c.ext.mapping with
    | none => simp only [Grouped.commitLoop, hm]; exact ⟨h, by simp⟩
    | some a =>
      obtain ⟨k1, k2⟩ := commitTopics_spec c.ext.toCommit a c.offsets
      have hsend := commitSend_rel (env.send n) P hP hH
        { c with offsets := (commitTopics c.ext.toCommit a c.offsets).2 } (hO _ _ k2 h)
      have hfirst : ∃ (c' : Grouped) (a' : Dict String (List Int)), P c' ∧ c'.ext.mapping = some a' ∧
          (commitTopics c.ext.toCommit a c.offsets).1 = commitOf c'.ext.toCommit a' c'.offsets :=
        ⟨c, a, h, hm, k1⟩
      simp only [Grouped.commitLoop, hm]
      split
      · rename_i heq
        rw [heq] at hsend
        exact ⟨hT _ _ hsend, by simpa using hfirst⟩
      · rename_i heq
        rw [heq] at hsend
        split
        · obtain ⟨i1, i2⟩ := ih (n + 1) _ _ (hT n _ hsend)
          refine ⟨i1, ?_⟩
          intro req hreq
          rcases List.mem_cons.1 hreq with rfl | hreq
          · exact hfirst
          · exact i2 req hreq
        · exact ⟨hT _ _ hsend, by simpa using hfirst⟩

/-- The states a `GroupedConsumer` can get into, if offsets in the coordinator's answers are not
negative: by `consume` (with any other answers, errors and rebalances), `commit_offsets`, and
anything that changes neither its offsets. -/
inductive Spec.GroupReach : Grouped → Prop where
  | new (cl : Cluster) : Spec.GroupReach (Grouped.new cl)
  | consume {β δ : Type} (gcfg : GCfg) (cfg : CCfg β δ) (env : GroupEnv β) (fuel : Nat)
      (t : String) (c : Grouped) :
      (∀ n (c : Grouped), (env.base.tick n c).offsets = c.offsets) →
      (∀ n (c : Grouped), (env.commit.tick n c).offsets = c.offsets) →
      NonNegAnswers env.offsets → Spec.GroupReach c →
      Spec.GroupReach (c.consume gcfg cfg env fuel t).2.1
  | commit (env : CommitEnv) (fuel : Nat) (name : String) (md : Option String) (c : Grouped) :
      (∀ n (c : Grouped), (env.tick n c).offsets = c.offsets) → Spec.GroupReach c →
      Spec.GroupReach (c.commit env fuel name md).2.1
  | other (c c' : Grouped) : c'.offsets = c.offsets → Spec.GroupReach c → Spec.GroupReach c'

theorem commit_nonNeg {env : CommitEnv} (hT : ∀ n (c : Grouped), (env.tick n c).offsets = c.offsets)
    (fuel : Nat) (name : String) (md : Option String) (c : Grouped) (h : NonNeg c.offsets) :
    NonNeg (c.commit env fuel name md).2.1.offsets := by
  refine (commitLoop_inv (env := env) (fun c : Grouped => NonNeg c.offsets) (fun _ _ _ h => h)
    (fun c o ho h t p => by rw [ho]; exact h t p) ?_ (fun n c h => by simp only [hT]; exact h)
    fuel 0 _ c h).1
  intro r c h
  simp only [(commitResponse_any r c).1]
  exact h

theorem Spec.GroupReach.nonNeg {c : Grouped} (h : GroupReach c) : NonNeg c.offsets := by
  induction h with
  | new cl => intro t p; simp [Grouped.new, offsetOf, Dict.get?]
  | consume gcfg cfg env fuel t c ht htc hn _ ih =>
    have hbase : NonNeg (Consumer.consume Grouped.allocation
        (Grouped.determineRes cfg.plain env.offsets fuel t) cfg env.base t c).2.1.offsets := by
      refine consume_inv (fun c : Grouped => NonNeg c.offsets) (fun _ => True) (fun _ _ _ => trivial)
        ?_ ?_ ?_ ?_ ih
      · intro c c1 done _ ho _ _ _ h t p
        rw [ho]; exact after_nonNeg _ _ _ (h t p)
      · intro c h; simp only [ht]; exact h
      · intro c h; simp only [ht]; exact h
      · intro r c1 hd
        have := gdetermine_nonNeg (plain := cfg.plain) hn fuel t c ih
        simp only [Grouped.determineRes, Prod.mk.injEq] at hd
        rw [hd.2] at this
        simp only [ht]
        exact ⟨this, fun _ => this⟩
    rcases gconsume_cases gcfg cfg env fuel t c with ⟨_, _, _, h3⟩ | ⟨bres, cb, acts, hb, hcase⟩
    · rw [h3]; simp only [ht]; exact gdetermine_nonNeg hn fuel t c ih
    · rw [hb] at hbase
      rcases hcase with ⟨e, _, h⟩ | ⟨r, _, _, h⟩ | ⟨r, _, _, _, h⟩ | ⟨r, cr, _, _, _, hcr, h, _⟩
      · rw [h]; exact hbase
      · rw [h]; exact hbase
      · rw [h]; exact hbase
      · rw [h, hcr]; exact commit_nonNeg htc fuel _ _ _ hbase
  | commit env fuel name md c ht _ ih => exact commit_nonNeg ht fuel name md c ih
  | other c c' ho _ ih => rw [ho]; exact ih

/-- **C55**, partial: no negative offset is asked for, as long as the coordinator never answers
with one.  It does for groups that have not committed yet: `C55_false`. -/
theorem C55_nonneg_partial (gcfg : GCfg) (cfg : CCfg β δ) (env : GroupEnv β) (fuel : Nat)
    (t : String) (c : Grouped) (hc : GroupReach c)
    (ht : ∀ n (c : Grouped), (env.base.tick n c).offsets = c.offsets)
    (hn : NonNegAnswers env.offsets) (reqs : List FReq)
    (hr : CAct.fetch reqs ∈ (c.consume gcfg cfg env fuel t).2.2.1) :
    ∀ r ∈ reqs, ∀ p ∈ r.parts, 0 ≤ p.offset := by
  rcases gconsume_cases gcfg cfg env fuel t c with ⟨_, _, _, h3⟩ | ⟨bres, cb, acts, hb, hcase⟩
  · rw [h3] at hr; simp at hr
  · have hacts : (c.consume gcfg cfg env fuel t).2.2.1 = acts := by
      rcases hcase with ⟨e, _, h⟩ | ⟨r, _, _, h⟩ | ⟨r, _, _, _, h⟩ | ⟨r, cr, _, _, _, _, h, _⟩ <;>
        rw [h]
    rw [hacts] at hr
    obtain ⟨c0, a, parts, h1, h2, h3, _, h5⟩ := consume_fetch hb hr
    have h0 : NonNeg c0.offsets := h5 NonNeg hc.nonNeg
      (fun c h => gdetermine_nonNeg hn fuel t c h) (fun n c h => by rw [ht]; exact h)
    rcases fetch_spec cfg env.base t parts c0 cb bres _ h3 with ⟨e, _, h4, _⟩ |
      ⟨reqs', c2, h4, h5, _⟩
    · simp at h4
    · simp only [List.cons.injEq, CAct.fetch.injEq, and_true] at h4
      subst h4
      intro r hr p hp
      rw [h5.offsets r hr p hp]
      exact h0 _ _

end Kiel
