import Verif.Spec.Refresh
import Verif.Props.Offsets
import Verif.Props.Commit
import Verif.Props.Producer
/-
C89: errors that a look at the cluster may cure lead to one before the call returns.
-/
set_option autoImplicit false
namespace Kiel
open Spec

variable {σ R ρ ε α κ β γ δ : Type}

theorem SameView.unchanged {cl cl' : Cluster} (h : SameView cl cl') : Unchanged cl cl' := by
  refine ⟨h.conns, h.topics, fun t p => ?_⟩
  have e : ∀ cl : Cluster, leaderOf cl t p = ((cl.leaders.get? t).getD []).get? p := by
    intro cl
    unfold leaderOf
    cases cl.leaders.get? t <;> rfl
  rw [e, e, h.leaders t]

theorem troubled_cons (Asks : R → Prop) (o : Int × Res R) (outs : List (Int × Res R)) :
    Troubled Asks (o :: outs) ↔
      ((∃ e, o.2 = .error e ∧ e ≠ .streamClosed) ∨ ∃ r, o.2 = .ok r ∧ Asks r) ∨ Troubled Asks outs := by
  simp [Troubled]

theorem sendLoop_healed (hs : Handlers σ R ρ) (I : Bool → σ → Prop) (Asks : R → Prop)
    (hm : ∀ s, I false s → I true s)
    (hI : ∀ r f s x s' a b, hs.handle r = some f → I b s → f s = (.ok x, s', a) →
      I (b || a) s' ∧ (a = true ↔ Asks r))
    (outs : List (Int × Res R)) (results res : Dict Int ρ) (s s' : σ) (heal heal' : Bool)
    (hs0 : I heal s) (h : sendLoop hs outs results s heal = (.ok res, s', heal')) :
    I heal' s' ∧ (heal' = true ↔ heal = true ∨ Troubled Asks outs) := by
  induction outs generalizing results s heal with
  | nil =>
    simp only [sendLoop, Prod.mk.injEq, Except.ok.injEq] at h
    obtain ⟨_, rfl, rfl⟩ := h
    exact ⟨hs0, by simp [Troubled]⟩
  | cons o outs ih =>
    obtain ⟨b, o⟩ := o
    cases o with
    | error e =>
      simp only [sendLoop] at h
      have h0 : I (if e = .streamClosed then heal else true) s := by
        split
        · exact hs0
        · cases heal
          · exact hm s hs0
          · exact hs0
      obtain ⟨g1, g2⟩ := ih results s _ h0 h
      refine ⟨g1, ?_⟩
      rw [g2, troubled_cons]
      by_cases he : e = .streamClosed
      · simp [he]
      · simp [he]
    | ok r =>
      simp only [sendLoop] at h
      cases hr : hs.handle r with
      | none => simp [hr] at h
      | some f =>
        rw [hr] at h
        simp only at h
        cases hf : f s with
        | mk x y =>
          obtain ⟨s1, a⟩ := y
          cases x with
          | error e => simp [hf] at h
          | ok x =>
            rw [hf] at h
            obtain ⟨i1, i2⟩ := hI r f s x s1 a heal hr hs0 hf
            obtain ⟨g1, g2⟩ := ih _ s1 _ i1 h
            refine ⟨g1, ?_⟩
            rw [g2, troubled_cons, Bool.or_eq_true, i2]
            simp [or_assoc]

theorem clientSend_healed (hs : Handlers σ R ρ) (I : Bool → σ → Prop) (Asks : R → Prop)
    (hm : ∀ s, I false s → I true s)
    (hI : ∀ r f s x s' a b, hs.handle r = some f → I b s → f s = (.ok x, s', a) →
      I (b || a) s' ∧ (a = true ↔ Asks r))
    (known : Int → Bool) (write : Int → Option Exc) (healC : σ → Res Unit × σ) (requests : List Int)
    (outs : List (Int × Res R)) (res : Dict Int ρ) (s s' : σ) (heal flag healed : Bool)
    (h : clientSend hs known write healC requests outs s heal = (.ok res, s', flag, healed))
    (hs0 : I heal s) :
    flag = false ∧ ∃ s1, I healed s1 ∧ (healed = true ↔ heal = true ∨ Troubled Asks outs) ∧
      (healed = true → healC s1 = (.ok (), s')) ∧ (healed = false → s' = s1) := by
  unfold clientSend at h
  cases h1 : sendStart known write requests with
  | some e => simp [h1] at h
  | none =>
    rw [h1] at h
    simp only at h
    cases h2 : sendLoop hs outs [] s heal with
    | mk x y =>
      obtain ⟨s1, f⟩ := y
      cases x with
      | error e => simp [h2] at h
      | ok x =>
        rw [h2] at h
        obtain ⟨g1, g2⟩ := sendLoop_healed hs I Asks hm hI outs [] x s s1 heal f hs0 h2
        cases f with
        | false =>
          simp only [Prod.mk.injEq, Except.ok.injEq] at h
          obtain ⟨_, rfl, rfl, rfl⟩ := h
          exact ⟨rfl, s1, g1, g2, by simp, by simp⟩
        | true =>
          simp only at h
          cases h3 : healC s1 with
          | mk z s2 =>
            cases z with
            | error e => simp [h3] at h
            | ok z =>
              rw [h3] at h
              simp only [Prod.mk.injEq, Except.ok.injEq] at h
              obtain ⟨_, rfl, rfl, rfl⟩ := h
              exact ⟨rfl, s1, g1, g2, fun _ => h3, by simp⟩

/-! ### The handlers -/

theorem handleFetchParts_heal (cfg : CCfg β δ) (t : String) (ps : List (FPart β)) (c c' : Consumer ε)
    (out out' : List δ) (h : handleFetchParts cfg t ps c out = (.ok out', c')) :
    c'.cluster = c.cluster ∧ (c'.heal = true ↔ c.heal = true ∨ ∃ q ∈ ps, Retriable q.code) := by
  have hd : ∀ (p : Int) (ms : List (Int × β)) (c : Consumer ε) (out : List δ),
      (deserializeMessages cfg t p ms c out).2.cluster = c.cluster ∧
      (deserializeMessages cfg t p ms c out).2.heal = c.heal := by
    intro p ms
    induction ms with
    | nil => intro c out; exact ⟨rfl, rfl⟩
    | cons m ms ih =>
      intro c out
      obtain ⟨o, v⟩ := m
      simp only [deserializeMessages]
      cases cfg.deserializer v with
      | error e => exact ih c out
      | ok v =>
        simp only
        split
        · exact ih _ _
        · exact ih _ _
  induction ps generalizing c out with
  | nil =>
    simp only [handleFetchParts, Prod.mk.injEq] at h
    obtain ⟨_, rfl⟩ := h
    simp
  | cons p ps ih =>
    simp only [handleFetchParts] at h
    have hret : ∀ x : Int, x ∈ Err.retriable ↔ Retriable x := fun x => Iff.rfl
    split at h
    · rename_i h0
      obtain ⟨g1, g2⟩ := ih _ _ h
      obtain ⟨d1, d2⟩ := hd p.id p.msgs c []
      refine ⟨g1.trans d1, ?_⟩
      rw [g2, d2]
      have : ¬ Retriable p.code := by rw [h0]; decide
      simp [this]
    · split at h
      · rename_i h1
        obtain ⟨g1, g2⟩ := ih _ _ h
        refine ⟨g1, ?_⟩
        rw [g2]
        simp [(hret _).1 h1]
      · rename_i h1
        have h1' : ¬ Retriable p.code := h1
        split at h
        · obtain ⟨g1, g2⟩ := ih _ _ h
          refine ⟨g1, ?_⟩
          rw [g2]
          simp [h1']
        · split at h
          · simp at h
          · obtain ⟨g1, g2⟩ := ih _ _ h
            refine ⟨g1, ?_⟩
            rw [g2]
            simp [h1']

theorem fetch_asks (cfg : CCfg β δ) (cl : Cluster) (r : FResp β)
    (f : Consumer ε → Res (List δ) × Consumer ε × Bool) (s : Consumer ε) (x : List δ)
    (s' : Consumer ε) (a : Bool) (hr : (fetchHandlers cfg).handle r = some f)
    (hs : s.heal = false ∧ s.cluster = cl) (h : f s = (.ok x, s', a)) :
    (s'.heal = false ∧ s'.cluster = cl) ∧ (a = true ↔ FetchAsks r) := by
  simp only [fetchHandlers, Option.some.injEq] at hr
  subst hr
  simp only at h
  cases hh : handleFetchResponse cfg r s with
  | mk y c1 =>
    rw [hh] at h
    simp only [Prod.mk.injEq] at h
    obtain ⟨rfl, rfl, rfl⟩ := h
    cases ht : r.topics with
    | nil => simp [handleFetchResponse, ht] at hh
    | cons tp more =>
      obtain ⟨t, ps⟩ := tp
      simp only [handleFetchResponse, ht] at hh
      obtain ⟨g1, g2⟩ := handleFetchParts_heal cfg t ps s c1 [] x hh
      refine ⟨⟨rfl, g1.trans hs.2⟩, ?_⟩
      rw [g2, hs.1]
      simp [FetchAsks, ht]

theorem handleOffsetParts_heal (t : String) (ps : List OPart) (c c' : Single)
    (h : handleOffsetParts t ps c = (.ok (), c')) :
    c'.cluster = c.cluster ∧ (c'.heal = true ↔ c.heal = true ∨ ∃ q ∈ ps, Retriable q.code) := by
  induction ps generalizing c with
  | nil =>
    simp only [handleOffsetParts, Prod.mk.injEq, true_and] at h
    subst h
    simp
  | cons p ps ih =>
    simp only [handleOffsetParts] at h
    split at h
    · rename_i h0
      have hn : ¬ Retriable p.code := by rw [h0]; decide
      split at h
      · simp at h
      · obtain ⟨g1, g2⟩ := ih _ h
        split at g1 <;> split at g2 <;> simp_all
    · split at h
      · rename_i h1
        have h1' : Retriable p.code := h1
        obtain ⟨g1, g2⟩ := ih _ h
        refine ⟨g1, ?_⟩
        rw [g2]
        simp [h1']
      · split at h <;> simp at h

theorem offset_asks (cl : Cluster) (r : OResp) (f : Single → Res Unit × Single × Bool) (s : Single)
    (x : Unit) (s' : Single) (a : Bool) (hr : offsetHandlers.handle r = some f)
    (hs : s.heal = false ∧ s.cluster = cl) (h : f s = (.ok x, s', a)) :
    (s'.heal = false ∧ s'.cluster = cl) ∧ (a = true ↔ OffsetAsks r) := by
  simp only [offsetHandlers, Option.some.injEq] at hr
  subst hr
  simp only at h
  cases hh : handleOffsetResponse r s with
  | mk y c1 =>
    rw [hh] at h
    simp only [Prod.mk.injEq] at h
    obtain ⟨rfl, rfl, rfl⟩ := h
    cases ht : r.topics with
    | nil => simp [handleOffsetResponse, ht] at hh
    | cons tp more =>
      obtain ⟨t, ps⟩ := tp
      simp only [handleOffsetResponse, ht] at hh
      obtain ⟨g1, g2⟩ := handleOffsetParts_heal t ps s c1 hh
      refine ⟨⟨rfl, g1.trans hs.2⟩, ?_⟩
      rw [g2, hs.1]
      simp [OffsetAsks, ht]

theorem handlePart_heal (p p' : Producer κ β) (corr : Int) (t : String) (part code : Int)
    (h : p.handlePart corr t part code = (.ok (), p')) :
    p'.cluster = p.cluster ∧ (p'.heal = true ↔ p.heal = true ∨ Retriable code) ∧
      (p'.unsent = p.unsent ∨ p'.heal = true) := by
  unfold Producer.handlePart at h
  split at h
  · rename_i h0
    have hn : ¬ Retriable code := by rw [h0]; decide
    simp only [Prod.mk.injEq, true_and] at h
    subst h
    simp [hn]
  · split at h
    · rename_i h1
      have h1' : Retriable code := h1
      simp only at h
      split at h
      · simp at h
      · simp only [Prod.mk.injEq, true_and] at h
        subst h
        simp [Producer.queueRetries, h1']
    · rename_i h1
      have h1' : ¬ Retriable code := h1
      split at h
      · simp at h
      · simp only [Prod.mk.injEq, true_and] at h
        subst h
        simp [h1']

theorem handleParts_heal (corr : Int) (as : List (String × Int × Int)) (p p' : Producer κ β)
    (h : Producer.handleParts corr as p = (.ok (), p')) :
    p'.cluster = p.cluster ∧ (p'.heal = true ↔ p.heal = true ∨ ∃ a ∈ as, Retriable a.2.2) ∧
      (p'.unsent = p.unsent ∨ p'.heal = true) := by
  induction as generalizing p with
  | nil =>
    simp only [Producer.handleParts, Prod.mk.injEq, true_and] at h
    subst h
    simp
  | cons a as ih =>
    obtain ⟨t, part, code⟩ := a
    simp only [Producer.handleParts] at h
    cases hp : p.handlePart corr t part code with
    | mk y p1 =>
      cases y with
      | error e => simp [hp] at h
      | ok y =>
        rw [hp] at h
        obtain ⟨g1, g2, g3⟩ := ih p1 h
        obtain ⟨k1, k2, k3⟩ := handlePart_heal p p1 corr t part code hp
        refine ⟨g1.trans k1, ?_, ?_⟩
        · rw [g2, k2]; simp [or_assoc]
        · rcases g3 with g3 | g3
          · rcases k3 with k3 | k3
            · exact .inl (g3.trans k3)
            · exact .inr (g2.2 (.inl k3))
          · exact .inr g3

theorem produce_asks (cl : Cluster) (r : PResp)
    (f : Producer κ β → Res Unit × Producer κ β × Bool) (s : Producer κ β) (x : Unit)
    (s' : Producer κ β) (a b : Bool) (hr : producerHandlers.handle r = some f)
    (hs : s.heal = false ∧ s.cluster = cl ∧ (s.unsent ≠ [] → b = true)) (h : f s = (.ok x, s', a)) :
    (s'.heal = false ∧ s'.cluster = cl ∧ (s'.unsent ≠ [] → (b || a) = true)) ∧
      (a = true ↔ ProduceAsks r) := by
  simp only [producerHandlers, Option.some.injEq] at hr
  subst hr
  simp only at h
  cases hh : s.handleResponse r with
  | mk y p1 =>
    rw [hh] at h
    simp only [Prod.mk.injEq] at h
    obtain ⟨rfl, rfl, rfl⟩ := h
    unfold Producer.handleResponse at hh
    rw [handleTopics_eq] at hh
    cases hp : Producer.handleParts r.corr r.answers s with
    | mk y p2 =>
      cases y with
      | error e => simp [hp] at hh
      | ok y =>
        rw [hp] at hh
        simp only at hh
        split at hh
        · simp only [Prod.mk.injEq, true_and] at hh
          subst hh
          obtain ⟨g1, g2, g3⟩ := handleParts_heal r.corr r.answers s p2 hp
          refine ⟨⟨rfl, g1.trans hs.2.1, fun hu => ?_⟩, ?_⟩
          · rcases g3 with g3 | g3
            · have : s.unsent ≠ [] := by rw [← g3]; exact hu
              simp [hs.2.2 this]
            · simp only; simp [g3]
          · simp only
            rw [g2, hs.1]
            simp [ProduceAsks]
        · simp at hh

theorem coordinator_asks (cl : Cluster) (r : CoordResp) (f : Grouped → Res Bool × Grouped × Bool)
    (s : Grouped) (x : Bool) (s' : Grouped) (a : Bool) (hr : coordinatorHandlers.handle r = some f)
    (hs : s.heal = false ∧ s.cluster = cl) (h : f s = (.ok x, s', a)) :
    (s'.heal = false ∧ s'.cluster = cl) ∧ (a = true ↔ CoordinatorAsks r) := by
  simp only [coordinatorHandlers, Option.some.injEq] at hr
  subst hr
  simp only [handleCoordinatorResponse] at h
  split at h
  · rename_i h0
    have hn : ¬ Retriable r.code := by rw [h0]; decide
    simp only [Prod.mk.injEq] at h
    obtain ⟨_, rfl, rfl⟩ := h
    exact ⟨⟨rfl, hs.2⟩, by simp [CoordinatorAsks, hn, hs.1]⟩
  · split at h
    · rename_i h1
      have h1' : Retriable r.code := h1
      simp only [Prod.mk.injEq] at h
      obtain ⟨_, rfl, rfl⟩ := h
      exact ⟨⟨rfl, hs.2⟩, by simp [CoordinatorAsks, h1']⟩
    · rename_i h1
      have h1' : ¬ Retriable r.code := h1
      simp only [Prod.mk.injEq] at h
      obtain ⟨_, rfl, rfl⟩ := h
      exact ⟨⟨rfl, hs.2⟩, by simp [CoordinatorAsks, h1', hs.1]⟩

theorem handleOffsetFetchParts_heal (t : String) (ps : List OFPart) (c c' : Grouped) (b b' : Bool)
    (h : handleOffsetFetchParts t ps c b = (.ok b', c')) :
    c'.cluster = c.cluster ∧
      (c'.heal = true ↔ c.heal = true ∨ ∃ q ∈ ps, Retriable q.code ∧ q.code ≠ 14) := by
  induction ps generalizing c b with
  | nil =>
    simp only [handleOffsetFetchParts, Prod.mk.injEq] at h
    obtain ⟨_, rfl⟩ := h
    simp
  | cons p ps ih =>
    simp only [handleOffsetFetchParts] at h
    split at h
    · rename_i h0
      have hn : ¬ Retriable p.code := by rw [h0]; decide
      obtain ⟨g1, g2⟩ := ih _ _ h
      refine ⟨g1, ?_⟩
      rw [g2]
      simp [hn]
    · split at h
      · rename_i h1
        have h1' : p.code = 14 := h1
        obtain ⟨g1, g2⟩ := ih _ _ h
        refine ⟨g1, ?_⟩
        rw [g2]
        simp [h1']
      · rename_i h1
        have h1' : ¬ p.code = 14 := h1
        split at h
        · rename_i h2
          have h2' : Retriable p.code := h2
          obtain ⟨g1, g2⟩ := ih _ _ h
          refine ⟨g1, ?_⟩
          rw [g2]
          simp [h1', h2']
        · split at h <;> simp at h

theorem offsetFetch_asks (cl : Cluster) (r : OFResp) (f : Grouped → Res Bool × Grouped × Bool)
    (s : Grouped) (x : Bool) (s' : Grouped) (a : Bool) (hr : offsetFetchHandlers.handle r = some f)
    (hs : s.heal = false ∧ s.cluster = cl) (h : f s = (.ok x, s', a)) :
    (s'.heal = false ∧ s'.cluster = cl) ∧ (a = true ↔ OffsetFetchAsks r) := by
  simp only [offsetFetchHandlers, Option.some.injEq] at hr
  subst hr
  simp only at h
  cases hh : handleOffsetFetchResponse r s with
  | mk y c1 =>
    rw [hh] at h
    simp only [Prod.mk.injEq] at h
    obtain ⟨rfl, rfl, rfl⟩ := h
    cases ht : r.topics with
    | nil => simp [handleOffsetFetchResponse, ht] at hh
    | cons tp more =>
      obtain ⟨t, ps⟩ := tp
      simp only [handleOffsetFetchResponse, ht] at hh
      obtain ⟨g1, g2⟩ := handleOffsetFetchParts_heal t ps s c1 _ _ hh
      refine ⟨⟨rfl, g1.trans hs.2⟩, ?_⟩
      rw [g2, hs.1]
      simp [OffsetFetchAsks, ht]

theorem handleCommitParts_heal (t : String) (ps : List (Int × Int)) (c c' : Grouped)
    (b b' : Bool × Bool) (h : handleCommitParts t ps c b = (.ok b', c')) :
    c'.cluster = c.cluster ∧ (c'.heal = true ↔ c.heal = true ∨ ∃ a ∈ ps, Retriable a.2) := by
  induction ps generalizing c b with
  | nil =>
    simp only [handleCommitParts, Prod.mk.injEq] at h
    obtain ⟨_, rfl⟩ := h
    simp
  | cons p ps ih =>
    obtain ⟨i, code⟩ := p
    obtain ⟨b1, b2⟩ := b
    simp only [handleCommitParts] at h
    split at h
    · rename_i h0
      have hn : ¬ Retriable code := by rw [h0]; decide
      obtain ⟨g1, g2⟩ := ih _ _ h
      refine ⟨g1, ?_⟩
      rw [g2]
      simp [hn]
    · split at h
      · rename_i h1
        have h1' : Retriable code := h1
        obtain ⟨g1, g2⟩ := ih _ _ h
        refine ⟨g1, ?_⟩
        rw [g2]
        simp [h1']
      · rename_i h1
        have h1' : ¬ Retriable code := h1
        split at h
        · obtain ⟨g1, g2⟩ := ih _ _ h
          refine ⟨g1, ?_⟩
          rw [g2]
          simp [h1']
        · split at h
          · simp at h
          · obtain ⟨g1, g2⟩ := ih _ _ h
            refine ⟨g1, ?_⟩
            rw [g2]
            simp [h1']

theorem handleCommitTopics_heal (ts : List (String × List (Int × Int))) (c c' : Grouped)
    (b b' : Bool × Bool) (h : handleCommitTopics ts c b = (.ok b', c')) :
    c'.cluster = c.cluster ∧
      (c'.heal = true ↔ c.heal = true ∨ ∃ t ∈ ts, ∃ a ∈ t.2, Retriable a.2) := by
  induction ts generalizing c b with
  | nil =>
    simp only [handleCommitTopics, Prod.mk.injEq] at h
    obtain ⟨_, rfl⟩ := h
    simp
  | cons tp ts ih =>
    obtain ⟨t, ps⟩ := tp
    simp only [handleCommitTopics] at h
    cases hp : handleCommitParts t ps c b with
    | mk y c1 =>
      cases y with
      | error e => simp [hp] at h
      | ok y =>
        rw [hp] at h
        obtain ⟨g1, g2⟩ := ih _ _ h
        obtain ⟨k1, k2⟩ := handleCommitParts_heal t ps c c1 b y hp
        refine ⟨g1.trans k1, ?_⟩
        rw [g2, k2]
        simp only [List.mem_cons, exists_eq_or_imp]
        exact or_assoc

theorem commit_asks (cl : Cluster) (r : CommitResp)
    (f : Grouped → Res (Bool × Bool) × Grouped × Bool) (s : Grouped) (x : Bool × Bool) (s' : Grouped)
    (a : Bool) (hr : commitHandlers.handle r = some f)
    (hs : s.heal = false ∧ s.cluster = cl) (h : f s = (.ok x, s', a)) :
    (s'.heal = false ∧ s'.cluster = cl) ∧ (a = true ↔ CommitAsks r) := by
  simp only [commitHandlers, Option.some.injEq] at hr
  subst hr
  simp only at h
  cases hh : handleCommitResponse r s with
  | mk y c1 =>
    rw [hh] at h
    simp only [Prod.mk.injEq] at h
    obtain ⟨rfl, rfl, rfl⟩ := h
    obtain ⟨g1, g2⟩ := handleCommitTopics_heal r.topics s c1 _ _ hh
    refine ⟨⟨rfl, g1.trans hs.2⟩, ?_⟩
    rw [g2, hs.1]
    simp [CommitAsks]

/-! ### The calls -/

theorem fetch_healed (cfg : CCfg β δ) (env : ConsumeEnv ε β) (topic : String) (parts : List Int)
    (c c' : Consumer ε) (v : Option (List δ)) (acts : List CAct)
    (h : c.fetch cfg env topic parts = (.ok v, c', acts)) :
    ∃ reqs cl c1, acts = [.fetch reqs] ∧ c' = env.tick 2 c1 ∧ c1.heal = false ∧
      (c.heal = true ∨ Troubled FetchAsks (env.outcomes reqs) → env.healC cl = (.ok (), c1.cluster)) ∧
      (c.heal = false → ¬ Troubled FetchAsks (env.outcomes reqs) → c1.cluster = cl) := by
  unfold Consumer.fetch at h
  cases hf : c.fetches cfg topic parts with
  | mk x c0 =>
    have hh0 : c0.heal = c.heal := by
      unfold Consumer.fetches at hf
      cases hg : groupByLeader topic parts c.cluster [] with
      | mk y cl =>
        rw [hg] at hf
        cases y <;> simp only [Prod.mk.injEq] at hf <;> rw [← hf.2]
    rw [hf] at h
    cases x with
    | error e => simp at h
    | ok reqs =>
      simp only at h
      cases hc : clientSend (fetchHandlers cfg) (fun b => c0.cluster.conns.has b) env.write
        (fun c => ((env.healC c.cluster).1, { c with cluster := (env.healC c.cluster).2 }))
        (reqs.map (·.broker)) (env.outcomes reqs) { c0 with heal := false } c0.heal with
      | mk y z =>
        obtain ⟨c2, flag, healed⟩ := z
        rw [hc] at h
        cases y with
        | error e => simp at h
        | ok res =>
          simp only [Prod.mk.injEq] at h
          obtain ⟨_, rfl, rfl⟩ := h
          obtain ⟨rfl, s1, i1, g1, g2, g3⟩ := clientSend_healed (fetchHandlers cfg)
            (fun _ s => s.heal = false ∧ s.cluster = c0.cluster) FetchAsks (fun _ h => h)
            (fun r f s x s' a _ hr hs hx => fetch_asks cfg c0.cluster r f s x s' a hr hs hx)
            _ _ _ _ _ _ _ _ _ _ _ hc ⟨rfl, rfl⟩
          rw [hh0] at g1
          refine ⟨reqs, c0.cluster, { c2 with heal := false }, rfl, rfl, rfl, ?_, ?_⟩
          · intro ht
            have := g2 (g1.2 ht)
            simp only [i1.2, Prod.mk.injEq] at this
            rw [← this.2, ← this.1]
          · intro h1 h2
            have : healed = false := by
              rw [Bool.eq_false_iff]
              intro hh
              rcases g1.1 hh with h | h
              · rw [h1] at h; cases h
              · exact h2 h
            rw [g3 this]
            exact i1.2

theorem consumeSynced_fetch (allocation : Consumer ε → Res (Dict String (List Int)))
    (cfg : CCfg β δ) (env : ConsumeEnv ε β) (topic : String) (c c' : Consumer ε)
    (v : Option (List δ)) (acts : List CAct) (reqs : List FReq)
    (h : c.consumeSynced allocation cfg env topic = (.ok v, c', acts)) (hm : CAct.fetch reqs ∈ acts) :
    ∃ c0 parts, c0.fetch cfg env topic parts = (.ok v, c', [.fetch reqs]) ∧
      (c0 = c ∨ ∃ cl, c0 = env.tick 1 { c with cluster := cl }) := by
  have one : ∀ (c : Consumer ε) parts acts, c.fetch cfg env topic parts = (.ok v, c', acts) →
      CAct.fetch reqs ∈ acts → acts = [.fetch reqs] := by
    intro c parts acts hf hm
    obtain ⟨reqs', _, _, rfl, _⟩ := fetch_healed cfg env topic parts c c' v acts hf
    simp only [List.mem_singleton] at hm
    rw [hm]
  unfold Consumer.consumeSynced at h
  cases ha : allocation c with
  | error e => simp [ha] at h
  | ok a =>
    rw [ha] at h
    simp only at h
    cases hal : allocated a topic with
    | some parts =>
      rw [hal] at h
      simp only at h
      rw [one _ _ _ h hm] at h
      exact ⟨c, parts, h, .inl rfl⟩
    | none =>
      rw [hal] at h
      simp only at h
      cases he : env.heal c.cluster with
      | mk x cl =>
        rw [he] at h
        cases x with
        | error e => simp at h
        | ok x =>
          simp only at h
          cases ha' : allocation (env.tick 1 { c with cluster := cl }) with
          | error e => simp [ha'] at h
          | ok a' =>
            rw [ha'] at h
            simp only at h
            cases hal' : allocated a' topic with
            | none =>
              rw [hal'] at h
              simp only [Prod.mk.injEq] at h
              obtain ⟨_, _, rfl⟩ := h
              simp at hm
            | some parts =>
              rw [hal'] at h
              simp only at h
              cases hf : (env.tick 1 { c with cluster := cl }).fetch cfg env topic parts with
              | mk r z =>
                obtain ⟨c1, acts'⟩ := z
                rw [hf] at h
                simp only [Prod.mk.injEq] at h
                obtain ⟨rfl, rfl, rfl⟩ := h
                simp only [List.mem_cons, reduceCtorEq, false_or] at hm
                rw [one _ _ _ hf hm] at hf
                exact ⟨_, parts, hf, .inr ⟨cl, rfl⟩⟩

/-- **C89**: a `consume` that has sent fetch requests and returns has had the cluster healed after
these, if one of them failed (other than by its connection closing) or was answered with a retriable
code for some partition. -/
theorem C89_consume (allocation : Consumer ε → Res (Dict String (List Int)))
    (determine : Consumer ε → Res Unit × Consumer ε) (cfg : CCfg β δ) (env : ConsumeEnv ε β)
    (topic : String) (c c' : Consumer ε) (v : Option (List δ)) (acts : List CAct) (reqs : List FReq)
    (h : c.consume allocation determine cfg env topic = (.ok v, c', acts))
    (hm : CAct.fetch reqs ∈ acts) (ht : Troubled FetchAsks (env.outcomes reqs)) :
    ∃ cl c1, env.healC cl = (.ok (), c1.cluster) ∧ c' = env.tick 2 c1 ∧ c1.heal = false := by
  have key : ∀ (c : Consumer ε) acts, c.consumeSynced allocation cfg env topic = (.ok v, c', acts) →
      CAct.fetch reqs ∈ acts →
      ∃ cl c1, env.healC cl = (.ok (), c1.cluster) ∧ c' = env.tick 2 c1 ∧ c1.heal = false := by
    intro c acts h hm
    obtain ⟨c0, parts, hf, _⟩ := consumeSynced_fetch allocation cfg env topic c c' v acts reqs h hm
    obtain ⟨reqs', cl, c1, hr, h1, h2, h3, _⟩ := fetch_healed cfg env topic parts c0 c' v _ hf
    simp only [List.cons.injEq, CAct.fetch.injEq, and_true] at hr
    subst hr
    exact ⟨cl, c1, h3 (.inr ht), h1, h2⟩
  unfold Consumer.consume at h
  split at h
  · simp only [Prod.mk.injEq] at h
    obtain ⟨_, _, rfl⟩ := h
    simp at hm
  · split at h
    · exact key c acts h hm
    · cases hd : determine c with
      | mk x c1 =>
        rw [hd] at h
        cases x with
        | error e =>
          cases e <;> simp only [Prod.mk.injEq, reduceCtorEq, false_and] at h
          obtain ⟨_, _, rfl⟩ := h
          simp at hm
        | ok x =>
          simp only at h
          cases hc : ({ env.tick 0 c1 with synced := addSet (env.tick 0 c1).synced topic } :
              Consumer ε).consumeSynced allocation cfg env topic with
          | mk r z =>
            obtain ⟨c2, acts'⟩ := z
            rw [hc] at h
            simp only [Prod.mk.injEq] at h
            obtain ⟨rfl, rfl, rfl⟩ := h
            simp only [List.mem_cons, reduceCtorEq, false_or] at hm
            exact key _ _ hc hm

/-- **C89**, the other half: a fetch without such trouble leaves the cluster as it was, unless
something before it has asked for a healing. -/
theorem C89_quiet (cfg : CCfg β δ) (env : ConsumeEnv ε β) (topic : String) (parts : List Int)
    (c c' : Consumer ε) (v : Option (List δ)) (reqs : List FReq)
    (h : c.fetch cfg env topic parts = (.ok v, c', [.fetch reqs])) (hh : c.heal = false)
    (ht : ¬ Troubled FetchAsks (env.outcomes reqs)) :
    ∃ c1, c' = env.tick 2 c1 ∧ Unchanged c.cluster c1.cluster := by
  unfold Consumer.fetch at h
  cases hf : c.fetches cfg topic parts with
  | mk x c0 =>
    have hv : Unchanged c.cluster c0.cluster :=
      (fetches_spec cfg topic parts c c0 x hf).1.unchanged
    have hh0 : c0.heal = c.heal := by
      unfold Consumer.fetches at hf
      cases hg : groupByLeader topic parts c.cluster [] with
      | mk y cl =>
        rw [hg] at hf
        cases y <;> simp only [Prod.mk.injEq] at hf <;> rw [← hf.2]
    rw [hf] at h
    cases x with
    | error e => simp at h
    | ok reqs' =>
      simp only at h
      cases hc : clientSend (fetchHandlers cfg) (fun b => c0.cluster.conns.has b) env.write
        (fun c => ((env.healC c.cluster).1, { c with cluster := (env.healC c.cluster).2 }))
        (reqs'.map (·.broker)) (env.outcomes reqs') { c0 with heal := false } c0.heal with
      | mk y z =>
        obtain ⟨c2, flag, healed⟩ := z
        rw [hc] at h
        cases y with
        | error e => simp at h
        | ok res =>
          simp only [Prod.mk.injEq, List.cons.injEq, CAct.fetch.injEq, and_true] at h
          obtain ⟨_, rfl, rfl⟩ := h
          obtain ⟨rfl, s1, i1, g1, g2, g3⟩ := clientSend_healed (fetchHandlers cfg)
            (fun _ s => s.heal = false ∧ s.cluster = c0.cluster) FetchAsks (fun _ h => h)
            (fun r f s x s' a _ hr hs hx => fetch_asks cfg c0.cluster r f s x s' a hr hs hx)
            _ _ _ _ _ _ _ _ _ _ _ hc ⟨rfl, rfl⟩
          have : healed = false := by
            rw [Bool.eq_false_iff]
            intro hx
            rcases g1.1 hx with h | h
            · rw [hh0, hh] at h; cases h
            · exact ht h
          refine ⟨_, rfl, ?_⟩
          rw [g3 this]
          simp only [i1.2]
          exact hv

/-- **C89** for the offset requests of a `SingleConsumer`: the cluster, as it was, is healed just if
there was such trouble, or something before had asked for it. -/
theorem C89_offsets (env : OffsetEnv) (topic : String) (start : Start) (c c' : Single)
    (reqs : List OReq) (h : c.determineSent env topic start = (.ok (), c', reqs)) :
    c'.heal = false ∧ ∃ cl, Unchanged c.cluster cl ∧
      (c.heal = true ∨ Troubled OffsetAsks (env.outcomes reqs) → env.healC cl = (.ok (), c'.cluster)) ∧
      (c.heal = false → ¬ Troubled OffsetAsks (env.outcomes reqs) → c'.cluster = cl) := by
  unfold Single.determineSent at h
  simp only at h
  cases hg : groupByLeader topic (c.cluster.topics.getDefault topic []).2
      { c.cluster with topics := (c.cluster.topics.getDefault topic []).1 } [] with
  | mk x cl =>
    have hv := (groupByLeader_spec topic _ c.cluster _ cl (sameView_topics _ topic) [] x
      (by simp [Dict.keys]) (by simp) hg).1.unchanged
    rw [hg] at h
    cases x with
    | error e => simp at h
    | ok ordered =>
      simp only at h
      split at h
      · simp at h
      · rename_i res c2 flag healed hc
        simp only [Prod.mk.injEq, true_and] at h
        obtain ⟨rfl, rfl⟩ := h
        obtain ⟨rfl, s1, i1, g1, g2, g3⟩ := clientSend_healed offsetHandlers
          (fun _ s => s.heal = false ∧ s.cluster = cl) OffsetAsks (fun _ h => h)
          (fun r f s x s' a _ hr hs hx => offset_asks cl r f s x s' a hr hs hx)
          _ _ _ _ _ _ _ _ _ _ _ hc ⟨rfl, rfl⟩
        refine ⟨rfl, cl, hv, ?_, ?_⟩
        · intro ht
          have := g2 (g1.2 ht)
          simp only [i1.2, Prod.mk.injEq] at this
          rw [← this.2, ← this.1]
        · intro h1 h2
          have : healed = false := by
            rw [Bool.eq_false_iff]
            intro hx
            rcases g1.1 hx with h | h
            · rw [h1] at h; cases h
            · exact h2 h
          rw [g3 this]
          exact i1.2

theorem queueRetries_ne (q : Producer κ β) (t : String) (ms : List (Msg κ β)) :
    (q.queueRetries t ms).unsent ≠ [] := by
  intro he
  have := Dict.get?_upd q.unsent t t [] (· ++ ms)
  simp only [Producer.queueRetries] at he
  rw [he] at this
  simp [Dict.get?] at this

/-- What `flush` does up to its `send`, as far as healing is concerned. -/
theorem prepare_heal (pick : Nat → κ → List Int → Res Int) (comp : List (Msg κ β) → Res γ)
    (p p1 : Producer κ β) (x : Option (List (PReq γ))) (hp : p.prepare pick comp = (.ok x, p1)) :
    (x = .none → p.unsent = []) ∧ (x ≠ .none → (p1.unsent = [] ∨ p1.heal = true) ∧
      (p1.heal = true ↔ p.heal = true ∨ p1.unsent ≠ []) ∧ SameView p.cluster p1.cluster) := by
  have hretry : ∀ (l : List (String × List (Msg κ β))) (q : Producer κ β),
      q.unsent = [] ∨ q.heal = true →
      ((l.foldl (fun p e => p.queueRetries e.1 e.2) q).unsent = [] ∨
        (l.foldl (fun p e => p.queueRetries e.1 e.2) q).heal = true) ∧
      ((l.foldl (fun p e => p.queueRetries e.1 e.2) q).heal = true ↔
        q.heal = true ∨ l ≠ []) ∧
      (l ≠ [] ∨ q.unsent ≠ [] → (l.foldl (fun p e => p.queueRetries e.1 e.2) q).unsent ≠ []) ∧
      (l.foldl (fun p e => p.queueRetries e.1 e.2) q).cluster = q.cluster := by
    intro l
    induction l with
    | nil => intro q hq; exact ⟨hq, by simp, by simp, rfl⟩
    | cons e l ih =>
      intro q _
      simp only [List.foldl_cons]
      obtain ⟨g1, g2, g3, g4⟩ := ih (q.queueRetries e.1 e.2) (.inr rfl)
      refine ⟨g1, ?_, fun _ => g3 (.inr (queueRetries_ne _ _ _)), g4⟩
      rw [g2]
      simp [Producer.queueRetries]
  unfold Producer.prepare at hp
  split at hp
  · rename_i he
    simp only [Prod.mk.injEq, Except.ok.injEq] at hp
    obtain ⟨rfl, rfl⟩ := hp
    simp_all
  · obtain ⟨hv, _⟩ := routeTopics_ok pick 0 p.unsent.reverse p.cluster p.cluster ⟨[], []⟩
      (SameView.refl _)
    split at hp
    · simp at hp
    · rename_i r cl rest hr
      rw [hr] at hv
      split at hp
      · simp at hp
      · simp only [Prod.mk.injEq, Except.ok.injEq] at hp
        obtain ⟨rfl, rfl⟩ := hp
        refine ⟨by simp, fun _ => ?_⟩
        rename_i sent lastId _ _
        obtain ⟨g1, g2, g3, g4⟩ := hretry r.retry
          { p with cluster := cl, unsent := [], sent := sent, lastId := lastId } (.inl rfl)
        refine ⟨g1, ?_, by rw [g4]; exact hv⟩
        rw [g2]
        constructor
        · rintro (h | h)
          · exact .inl h
          · exact .inr (g3 (.inl h))
        · rintro (h | h)
          · exact .inl h
          · refine .inr fun hl => h ?_
            rw [hl]
            rfl

theorem handleParts_unsent (corr : Int) (as : List (String × Int × Int)) (p p' : Producer κ β)
    (h : Producer.handleParts corr as p = (.ok (), p')) (hu : p.unsent ≠ []) : p'.unsent ≠ [] := by
  induction as generalizing p with
  | nil =>
    simp only [Producer.handleParts, Prod.mk.injEq, true_and] at h
    subst h
    exact hu
  | cons a as ih =>
    obtain ⟨t, part, code⟩ := a
    simp only [Producer.handleParts] at h
    cases hp : p.handlePart corr t part code with
    | mk y p1 =>
      cases y with
      | error e => simp [hp] at h
      | ok y =>
        rw [hp] at h
        refine ih p1 h ?_
        unfold Producer.handlePart at hp
        split at hp
        · simp only [Prod.mk.injEq, true_and] at hp
          subst hp
          exact hu
        · split at hp
          · simp only at hp
            split at hp
            · simp at hp
            · simp only [Prod.mk.injEq, true_and] at hp
              subst hp
              exact queueRetries_ne _ _ _
          · split at hp
            · simp at hp
            · simp only [Prod.mk.injEq, true_and] at hp
              subst hp
              exact hu

theorem produce_unsent (r : PResp) (f : Producer κ β → Res Unit × Producer κ β × Bool)
    (s : Producer κ β) (x : Unit) (s' : Producer κ β) (a : Bool)
    (hr : producerHandlers.handle r = some f) (hs : s.unsent ≠ []) (h : f s = (.ok x, s', a)) :
    s'.unsent ≠ [] := by
  simp only [producerHandlers, Option.some.injEq] at hr
  subst hr
  simp only at h
  cases hh : s.handleResponse r with
  | mk y p1 =>
    rw [hh] at h
    simp only [Prod.mk.injEq] at h
    obtain ⟨rfl, rfl, rfl⟩ := h
    unfold Producer.handleResponse at hh
    rw [handleTopics_eq] at hh
    cases hp : Producer.handleParts r.corr r.answers s with
    | mk y p2 =>
      cases y with
      | error e => simp [hp] at hh
      | ok y =>
        rw [hp] at hh
        simp only at hh
        split at hh
        · simp only [Prod.mk.injEq, true_and] at hh
          subst hh
          exact handleParts_unsent r.corr r.answers s p2 hp hs
        · simp at hh

/-- **C89** for the producer: also, if a `flush` returns and leaves messages in the queue, the cluster
has been healed; and otherwise, without such trouble, it is left as it was. -/
theorem C89_flush (env : FlushEnv κ β γ) (p p' : Producer κ β) (reqs : List (PReq γ))
    (h : p.flush env = (.ok (), p', reqs)) (hu : p.unsent ≠ []) :
    p'.heal = false ∧
    (p.heal = true ∨ p'.unsent ≠ [] ∨ Troubled ProduceAsks (env.outcomes reqs) →
      ∃ cl, Unchanged p.cluster cl ∧ env.healC cl = (.ok (), p'.cluster)) ∧
    (p.heal = false → p'.unsent = [] → ¬ Troubled ProduceAsks (env.outcomes reqs) →
      Unchanged p.cluster p'.cluster) := by
  unfold Producer.flush at h
  cases hp : p.prepare env.pick env.comp with
  | mk x p1 =>
    rw [hp] at h
    cases x with
    | error e => simp at h
    | ok x =>
      obtain ⟨hq, hq'⟩ := prepare_heal env.pick env.comp p p1 x hp
      cases x with
      | none => exact absurd (hq rfl) hu
      | some reqs' =>
        obtain ⟨q1, q2, hv⟩ := hq' (by simp)
        simp only at h
        split at h
        · simp at h
        · rename_i res c2 flag healed hc
          simp only [Prod.mk.injEq, true_and] at h
          obtain ⟨rfl, rfl⟩ := h
          obtain ⟨rfl, s1, i1, g1, g2, g3⟩ := clientSend_healed producerHandlers
            (fun b s => s.heal = false ∧ s.cluster = p1.cluster ∧ (s.unsent ≠ [] → b = true)) ProduceAsks
            (fun _ h => ⟨h.1, h.2.1, fun _ => rfl⟩)
            (fun r f s x s' a b hr hs hx => produce_asks p1.cluster r f s x s' a b hr hs hx)
            _ _ _ _ _ _ _ _ _ _ _ hc ⟨rfl, rfl, fun hne => q1.resolve_left hne⟩
          refine ⟨rfl, fun ht => ?_, fun h1 h2 h3 => ?_⟩
          · have hd : healed = true := by
              rcases ht with ht | ht | ht
              · exact g1.2 (.inl (q2.2 (.inl ht)))
              · cases hd : healed with
                | true => rfl
                | false =>
                  have := g3 hd
                  subst this
                  rw [hd] at i1
                  exact absurd (i1.2.2 ht) (by simp)
              · exact g1.2 (.inr ht)
            refine ⟨p1.cluster, hv.unchanged, ?_⟩
            have := g2 hd
            simp only [i1.2.1, Prod.mk.injEq] at this
            rw [← this.2, ← this.1]
          · have hp1 : p1.unsent = [] := by
              by_contra hne
              obtain ⟨_, s2, i2, k1, k2, k3⟩ := clientSend_healed producerHandlers
                (fun _ s => (s.heal = false ∧ s.cluster = p1.cluster) ∧ s.unsent ≠ []) ProduceAsks
                (fun _ h => h)
                (fun r f s x s' a b hr hs hx => by
                  obtain ⟨e1, e2⟩ := produce_asks p1.cluster r f s x s' a true hr
                    ⟨hs.1.1, hs.1.2, fun _ => rfl⟩ hx
                  exact ⟨⟨⟨e1.1, e1.2.1⟩, produce_unsent r f s x s' a hr hs.2 hx⟩, e2⟩)
                _ _ _ _ _ _ _ _ _ _ _ hc ⟨⟨rfl, rfl⟩, hne⟩
              cases hd : healed with
              | true =>
                have := k2 hd
                simp only [Prod.mk.injEq] at this
                rw [← this.2] at h2
                exact i2.2 h2
              | false =>
                rw [k3 hd] at h2
                exact i2.2 h2
            have hd : healed = false := by
              rw [Bool.eq_false_iff]
              intro hx
              rcases g1.1 hx with h | h
              · rcases q2.1 h with h | h
                · rw [h1] at h; cases h
                · exact h hp1
              · exact h3 h
            rw [g3 hd]
            simp only [i1.2.1]
            exact hv.unchanged

theorem sendTo_healed {R ρ : Type} (hs : Handlers Grouped R ρ) (Asks : R → Prop)
    (hI : ∀ cl r f s x s' a, hs.handle r = some f → (s.heal = false ∧ s.cluster = cl) →
      f s = (.ok x, s', a) → (s'.heal = false ∧ s'.cluster = cl) ∧ (a = true ↔ Asks r))
    (env : SendEnv R) (b : Int) (c c' : Grouped) (x : ρ) (h : c.sendTo hs env b = (.ok x, c')) :
    c'.heal = false ∧
    (c.heal = true ∨ Troubled Asks [(b, env.outcome)] →
      env.healC c.cluster = (.ok (), c'.cluster)) ∧
    (c.heal = false → ¬ Troubled Asks [(b, env.outcome)] → c'.cluster = c.cluster) := by
  unfold Grouped.sendTo at h
  split at h
  · simp at h
  · rename_i res c2 flag healed hc
    obtain ⟨rfl, s1, i1, g1, g2, g3⟩ := clientSend_healed hs
      (fun _ s => s.heal = false ∧ s.cluster = c.cluster) Asks (fun _ h => h)
      (fun r f s x s' a _ hr hs hx => hI c.cluster r f s x s' a hr hs hx)
      _ _ _ _ _ _ _ _ _ _ _ hc ⟨rfl, rfl⟩
    split at h
    · simp at h
    · simp only [Prod.mk.injEq] at h
      obtain ⟨_, rfl⟩ := h
      refine ⟨rfl, fun ht => ?_, fun h1 h2 => ?_⟩
      · have := g2 (g1.2 ht)
        simp only [i1.2, Prod.mk.injEq] at this
        rw [← this.2, ← this.1]
      · have hd : healed = false := by
          rw [Bool.eq_false_iff]
          intro hx
          rcases g1.1 hx with h | h
          · rw [h1] at h; cases h
          · exact h2 h
        rw [g3 hd]
        exact i1.2

/-- **C89** for the requests of a `GroupedConsumer` that are answered. -/
theorem C89_group (b : Int) (c c' : Grouped) :
    (∀ env x, c.sendTo coordinatorHandlers env b = (.ok x, c') → c'.heal = false ∧
      (c.heal = true ∨ Troubled CoordinatorAsks [(b, env.outcome)] →
        env.healC c.cluster = (.ok (), c'.cluster)) ∧
      (c.heal = false → ¬ Troubled CoordinatorAsks [(b, env.outcome)] →
        c'.cluster = c.cluster)) ∧
    (∀ env x, c.sendTo offsetFetchHandlers env b = (.ok x, c') → c'.heal = false ∧
      (c.heal = true ∨ Troubled OffsetFetchAsks [(b, env.outcome)] →
        env.healC c.cluster = (.ok (), c'.cluster)) ∧
      (c.heal = false → ¬ Troubled OffsetFetchAsks [(b, env.outcome)] →
        c'.cluster = c.cluster)) ∧
    (∀ env x, c.sendTo commitHandlers env b = (.ok x, c') → c'.heal = false ∧
      (c.heal = true ∨ Troubled CommitAsks [(b, env.outcome)] →
        env.healC c.cluster = (.ok (), c'.cluster)) ∧
      (c.heal = false → ¬ Troubled CommitAsks [(b, env.outcome)] →
        c'.cluster = c.cluster)) :=
  ⟨fun env x h => sendTo_healed _ _ coordinator_asks env b c c' x h,
    fun env x h => sendTo_healed _ _ offsetFetch_asks env b c c' x h,
    fun env x h => sendTo_healed _ _ commit_asks env b c c' x h⟩

/-- **C89** for the requests of a `GroupedConsumer` that fail, other than by their connection closing:
the cluster is healed, then a `KeyError` is raised. -/
theorem C89_group_fails {R ρ : Type} (hs : Handlers Grouped R ρ) (env : SendEnv R) (b : Int)
    (c : Grouped) (e : Exc) (cl : Cluster) (hk : c.cluster.conns.has b = true) (hw : env.write = .none)
    (he : env.outcome = .error e) (hne : e ≠ .streamClosed) (hh : env.healC c.cluster = (.ok (), cl)) :
    c.sendTo hs env b = (.error .keyError, { c with cluster := cl, heal := false }) := by
  simp [Grouped.sendTo, clientSend, sendStart, hk, hw, he, sendLoop, hne, hh, Dict.get?]

/-- **C89**: if the call raises instead, what has been asked for is not forgotten: a flag that was set
before, or that made `heal` be called, stays set, so that the next `send` that gets its requests
answered heals. -/
theorem C89_kept (hs : Handlers σ R ρ) (known : Int → Bool) (write : Int → Option Exc)
    (healC : σ → Res Unit × σ) (requests : List Int) (outs : List (Int × Res R)) (s s' : σ) (e : Exc)
    (heal flag healed : Bool)
    (h : clientSend hs known write healC requests outs s heal = (.error e, s', flag, healed))
    (ht : heal = true ∨ healed = true) : flag = true := by
  have hl : ∀ (outs : List (Int × Res R)) (results : Dict Int ρ) (s s' : σ) (e : Exc) (flag : Bool),
      sendLoop hs outs results s true = (.error e, s', flag) → flag = true := by
    intro outs
    induction outs with
    | nil => intro results s s' e flag h; simp [sendLoop] at h
    | cons o outs ih =>
      intro results s s' e flag h
      obtain ⟨b, o⟩ := o
      cases o with
      | error e' =>
        simp only [sendLoop, ite_self] at h
        exact ih _ _ _ _ _ h
      | ok r =>
        simp only [sendLoop] at h
        split at h
        · simp only [Prod.mk.injEq] at h
          exact h.2.2.symm
        · split at h
          · simp only [Prod.mk.injEq, Bool.true_or] at h
            exact h.2.2.symm
          · simp only [Bool.true_or] at h
            exact ih _ _ _ _ _ h
  unfold clientSend at h
  split at h
  · simp only [Prod.mk.injEq] at h
    obtain ⟨_, _, rfl, rfl⟩ := h
    simpa using ht
  · split at h
    · rename_i hx
      simp only [Prod.mk.injEq] at h
      obtain ⟨_, rfl, rfl, rfl⟩ := h
      rcases ht with rfl | ht
      · exact hl _ _ _ _ _ _ hx
      · cases ht
    · simp at h
    · split at h
      · simp only [Prod.mk.injEq] at h
        exact h.2.2.1.symm
      · simp at h

/-- **C44**: the first `consume` of a consumer, single or grouped, determines offsets before it
fetches. -/
theorem C44_first (cl : Cluster) (cfg : CCfg β δ) (topic : String) :
    (∀ oenv env start, ∃ rest,
      ((Single.new cl).consume cfg oenv env topic start).2.2 = .determine :: rest) ∧
    (∀ gcfg env fuel, ∃ rest,
      ((Grouped.new cl).consume gcfg cfg env fuel topic).2.2.1 = .determine :: rest) := by
  constructor
  · intro oenv env start
    obtain ⟨rest, h, _⟩ := (C44_exactly Single.allocation (Single.determine oenv topic start) cfg env
      topic (Single.new cl)).2 rfl (by simp [Single.new])
    exact ⟨rest, h⟩
  · intro gcfg env fuel
    obtain ⟨rest, h, _⟩ := (C44_grouped gcfg cfg env fuel topic (Grouped.new cl)).2.1 rfl
      (by simp [Grouped.new])
    exact ⟨rest, h⟩

/-- **C26** is false of the code for the requests of a group, too: if the connection closes, nothing is healed. -/
theorem C26_false_group (hs : Handlers Grouped R ρ) (env : SendEnv R) (b : Int) (c : Grouped)
    (hc : c.heal = false) (hk : c.cluster.conns.has b = true) (hw : env.write = .none)
    (he : env.outcome = .error .streamClosed) :
    c.sendTo hs env b = (.error .keyError, c) := by
  obtain ⟨_, _, _, heal, _, _⟩ := c
  simp only at hc
  subst hc
  simp [Grouped.sendTo, clientSend, sendStart, hk, hw, he, sendLoop, Dict.get?]

/-! ### Concrete cases -/

/-- What healing makes of any cluster. -/
def exHealed : Cluster := ⟨[(9, ⟨"new", 9092, false⟩)], [], []⟩

-- Non-vacuity of C89_consume: the leader has moved.
example :
    let env : ConsumeEnv Unit Nat := { exServe (fun _ => []) with
      outcomes := fun reqs => reqs.map fun r => (r.broker, .ok ⟨[("t", [⟨0, 6, []⟩])]⟩)
      healC := fun _ => (.ok (), exHealed) }
    Troubled FetchAsks (env.outcomes [⟨7, 1000, 1, "t", [⟨0, 0, 100⟩]⟩]) ∧
    Consumer.consume Single.allocation (exNoDetermine "t") exCCfg env "t" exConsumer =
      (.ok (some []), { exConsumer with cluster := exHealed, offsets := [("t", [(0, 0)])] },
        [.fetch [⟨7, 1000, 1, "t", [⟨0, 0, 100⟩]⟩]]) := by
  refine ⟨⟨_, List.mem_singleton.2 rfl, .inr ⟨_, rfl, _, _, _, rfl, _, List.mem_singleton.2 rfl, ?_⟩⟩, ?_⟩
  · decide
  · decide +kernel

-- Non-vacuity of C89_quiet: what was answered needs no healing.
example :
    let env : ConsumeEnv Unit Nat := { exServe (fun _ => [(0, 5)]) with
      healC := fun _ => (.ok (), exHealed) }
    (Consumer.consume Single.allocation (exNoDetermine "t") exCCfg env "t" exConsumer).2.1.cluster =
      exCCluster := by decide +kernel

-- Non-vacuity of C89_offsets.
example : (((Single.new exCCluster).determineSent
      { exOffsets 6 [] with healC := fun _ => (.ok (), exHealed) } "t" .unset).2.1.cluster,
    ((Single.new exCCluster).determineSent
      { exOffsets 0 [4] with healC := fun _ => (.ok (), exHealed) } "t" .unset).2.1.cluster) =
    (exHealed, exCCluster) := by decide +kernel

-- Non-vacuity of C89_flush: a retriable code leaves the messages in the queue.
example :
    let r := exProducer.flush { exFlush (exPAnswer 6) with healC := fun _ => (.ok (), exHealed) }
    exProducer.unsent ≠ [] ∧ r.1 = .ok () ∧ r.2.1.unsent ≠ [] ∧ r.2.1.cluster = exHealed := by
  decide +kernel

-- And one that is not: nothing is healed.
example :
    let r := exProducer.flush { exFlush (exPAnswer 0) with healC := fun _ => (.ok (), exHealed) }
    exProducer.heal = false ∧ r.1 = .ok () ∧ r.2.1.unsent = [] ∧
      r.2.1.cluster = exProducer.cluster := by
  decide +kernel

-- Non-vacuity of C89_group, C89_group_fails and C26_false_group.
example :
    let heals {R : Type} (r : Res R) : SendEnv R := ⟨r, .none, fun _ => (.ok (), exHealed)⟩
    ((exGrouped.sendTo coordinatorHandlers (heals (.ok ⟨15, -1⟩)) 8).2.cluster,
      (exGrouped.sendTo offsetFetchHandlers (heals (.ok ⟨[("A", [⟨0, -1, 16⟩])]⟩)) 8).2.cluster,
      (exGrouped.sendTo commitHandlers (heals (.ok ⟨[("A", [(0, 16)])]⟩)) 8).2.cluster,
      (exGrouped.sendTo commitHandlers (heals (.error .brokerConnection)) 8).2.cluster) =
      (exHealed, exHealed, exHealed, exHealed) ∧
    ((exGrouped.sendTo offsetFetchHandlers (heals (.ok ⟨[("A", [⟨0, 4, 0⟩])]⟩)) 8).2.cluster,
      (exGrouped.sendTo commitHandlers (heals (.error .streamClosed)) 8).2.cluster) =
      (exGCluster, exGCluster) := by
  decide +kernel

end Kiel
