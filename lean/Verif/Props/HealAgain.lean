import Verif.Props.Refresh
/-
C89: healing that raises is made up for by the next call.
-/
set_option autoImplicit false
namespace Kiel
open Spec

variable {σ R ρ ε α κ β γ δ : Type}

/-- What a `send` that returns would have done, had `heal` done something else. -/
theorem clientSend_factor (hs : Handlers σ R ρ) (known : Int → Bool) (write : Int → Option Exc)
    (healC : σ → Res Unit × σ) (requests : List Int) (outs : List (Int × Res R)) (res : Dict Int ρ)
    (s s' : σ) (heal flag healed : Bool)
    (h : clientSend hs known write healC requests outs s heal = (.ok res, s', flag, healed)) :
    (∀ healC', clientSend hs known write healC' requests outs s heal = (.ok res, s', flag, healed)) ∨
    ∃ s1, ∀ healC', clientSend hs known write healC' requests outs s heal =
      match healC' s1 with
      | (.error e, s2) => (.error e, s2, true, true)
      | (.ok _, s2) => (.ok res, s2, false, true) := by
  unfold clientSend at h ⊢
  cases h1 : sendStart known write requests with
  | some e => simp [h1] at h
  | none =>
    rw [h1] at h
    simp only at h ⊢
    cases h2 : sendLoop hs outs [] s heal with
    | mk x y =>
      obtain ⟨s1, f⟩ := y
      rw [h2] at h
      cases x with
      | error e => simp at h
      | ok x =>
        cases f with
        | false =>
          simp only at h ⊢
          exact .inl fun _ => h
        | true =>
          simp only at h ⊢
          refine .inr ⟨s1, fun healC' => ?_⟩
          have hx : x = res := by
            cases h3 : healC s1 with
            | mk r s2 =>
              rw [h3] at h
              cases r <;> simp_all
          subst hx
          rfl

/-- `heal` raises, whatever the cluster. -/
def HealRaises (healC : Cluster → Res Unit × Cluster) : Prop := ∀ cl, ∃ e, (healC cl).1 = .error e

/-- **C89**, determining offsets: if the healing that is called for raises, so does the call, and the
next one heals (the flag stays set: see `C89_offsets`). -/
theorem C89_offsets_again (env : OffsetEnv) (topic : String) (start : Start) (c c' : Single)
    (reqs : List OReq) (h : c.determineSent env topic start = (.ok (), c', reqs))
    (ht : c.heal = true ∨ Troubled OffsetAsks (env.outcomes reqs))
    (healC : Cluster → Res Unit × Cluster) (hr : HealRaises healC) :
    ∃ e c1, c.determineSent { env with healC := healC } topic start = (.error e, c1, reqs) ∧
      c1.heal = true := by
  have hno : c.determineSent { env with healC := healC } topic start ≠ (.ok (), c', reqs) := by
    intro hx
    obtain ⟨_, cl, _, h1, _⟩ := C89_offsets _ topic start c c' reqs hx
    obtain ⟨e, he⟩ := hr cl
    have := h1 ht
    simp only at this
    rw [this] at he
    simp at he
  unfold Single.determineSent at h hno ⊢
  simp only at h hno ⊢
  cases hg : groupByLeader topic (c.cluster.topics.getDefault topic []).2
      { c.cluster with topics := (c.cluster.topics.getDefault topic []).1 } [] with
  | mk x cl =>
    rw [hg] at h hno
    cases x with
    | error e => simp at h
    | ok ordered =>
      simp only at h hno ⊢
      split at h
      · simp at h
      · rename_i res c2 flag healed hc
        simp only [Prod.mk.injEq, true_and] at h
        obtain ⟨rfl, rfl⟩ := h
        rcases clientSend_factor _ _ _ _ _ _ _ _ _ _ _ _ hc with h1 | ⟨s1, h1⟩
        · rw [h1] at hno
          exact absurd rfl hno
        · rw [h1]
          obtain ⟨e, he⟩ := hr s1.cluster
          simp only [he]
          exact ⟨e, _, rfl, rfl⟩

/-- **C89**, flushing, likewise (see `C89_flush`). -/
theorem C89_flush_again (env : FlushEnv κ β γ) (p p' : Producer κ β) (reqs : List (PReq γ))
    (h : p.flush env = (.ok (), p', reqs)) (hu : p.unsent ≠ [])
    (ht : p.heal = true ∨ p'.unsent ≠ [] ∨ Troubled ProduceAsks (env.outcomes reqs))
    (healC : Cluster → Res Unit × Cluster) (hr : HealRaises healC) :
    ∃ e p1, p.flush { env with healC := healC } = (.error e, p1, reqs) ∧ p1.heal = true := by
  have hno : p.flush { env with healC := healC } ≠ (.ok (), p', reqs) := by
    intro hx
    obtain ⟨_, h1, _⟩ := C89_flush _ p p' reqs hx hu
    obtain ⟨cl, _, h2⟩ := h1 ht
    obtain ⟨e, he⟩ := hr cl
    simp only at h2
    rw [h2] at he
    simp at he
  unfold Producer.flush at h hno ⊢
  cases hp : p.prepare env.pick env.comp with
  | mk x p1 =>
    simp only [hp] at h hno ⊢
    cases x with
    | error e => simp at h
    | ok x =>
      cases x with
      | none => exact absurd ((prepare_heal env.pick env.comp p p1 _ hp).1 rfl) hu
      | some reqs' =>
        simp only at h hno ⊢
        split at h
        · simp at h
        · rename_i res c2 flag healed hc
          simp only [Prod.mk.injEq, true_and] at h
          obtain ⟨rfl, rfl⟩ := h
          rcases clientSend_factor _ _ _ _ _ _ _ _ _ _ _ _ hc with h1 | ⟨s1, h1⟩
          · rw [h1] at hno
            exact absurd rfl hno
          · rw [h1]
            obtain ⟨e, he⟩ := hr s1.cluster
            simp only [he]
            exact ⟨e, _, rfl, rfl⟩

/-- **C89**, fetching: whatever asked for it, the cluster has been healed when the call returns. -/
theorem C89_fetch_next (cfg : CCfg β δ) (env : ConsumeEnv ε β) (topic : String) (parts : List Int)
    (c c' : Consumer ε) (v : Option (List δ)) (acts : List CAct) (hh : c.heal = true)
    (h : c.fetch cfg env topic parts = (.ok v, c', acts)) :
    ∃ cl c1, env.healC cl = (.ok (), c1.cluster) ∧ c' = env.tick 2 c1 ∧ c1.heal = false := by
  obtain ⟨_, cl, c1, _, h1, h2, h3, _⟩ := fetch_healed cfg env topic parts c c' v acts h
  exact ⟨cl, c1, h3 (.inl hh), h1, h2⟩

/-- **C89**, fetching, likewise (see `C89_fetch_next`). -/
theorem C89_fetch_again (cfg : CCfg β δ) (env : ConsumeEnv ε β) (topic : String) (parts : List Int)
    (c c' : Consumer ε) (v : Option (List δ)) (reqs : List FReq)
    (h : c.fetch cfg env topic parts = (.ok v, c', [.fetch reqs]))
    (ht : c.heal = true ∨ Troubled FetchAsks (env.outcomes reqs))
    (healC : Cluster → Res Unit × Cluster) (hr : HealRaises healC) :
    ∃ e c1, c.fetch cfg { env with healC := healC } topic parts =
      (.error e, env.tick 2 c1, [.fetch reqs]) ∧ c1.heal = true := by
  have hno : c.fetch cfg { env with healC := healC } topic parts ≠ (.ok v, c', [.fetch reqs]) := by
    intro hx
    obtain ⟨reqs', cl, c1, hq, _, _, h1, _⟩ := fetch_healed cfg _ topic parts c c' v _ hx
    simp only [List.cons.injEq, CAct.fetch.injEq, and_true] at hq
    subst hq
    obtain ⟨e, he⟩ := hr cl
    have := h1 ht
    simp only at this
    rw [this] at he
    simp at he
  unfold Consumer.fetch at h hno ⊢
  cases hf : c.fetches cfg topic parts with
  | mk x c0 =>
    rw [hf] at h hno
    cases x with
    | error e => simp at h
    | ok reqs' =>
      simp only at h hno ⊢
      split at h
      · simp at h
      · rename_i res c2 flag healed hc
        simp only [Prod.mk.injEq, Except.ok.injEq, List.cons.injEq, CAct.fetch.injEq, and_true] at h
        obtain ⟨rfl, rfl, rfl⟩ := h
        rcases clientSend_factor _ _ _ _ _ _ _ _ _ _ _ _ hc with h1 | ⟨s1, h1⟩
        · rw [h1] at hno
          exact absurd rfl hno
        · rw [h1]
          obtain ⟨e, he⟩ := hr s1.cluster
          simp only [he]
          exact ⟨e, _, rfl, rfl⟩

theorem sendTo_again (hs : Handlers Grouped R ρ) (env : SendEnv R) (b : Int) (c c' : Grouped) (x : ρ)
    (healC : Cluster → Res Unit × Cluster) (hr : HealRaises healC)
    (h : c.sendTo hs env b = (.ok x, c')) :
    c.sendTo hs { env with healC := healC } b = (.ok x, c') ∨
    ∃ e c1, c.sendTo hs { env with healC := healC } b = (.error e, c1) ∧ c1.heal = true := by
  unfold Grouped.sendTo at h ⊢
  split at h
  · simp at h
  · rename_i res c2 flag healed hc
    rcases clientSend_factor _ _ _ _ _ _ _ _ _ _ _ _ hc with h1 | ⟨s1, h1⟩
    · simp only [h1]
      exact .inl h
    · simp only [h1]
      obtain ⟨e, he⟩ := hr s1.cluster
      simp only [he]
      exact .inr ⟨e, _, rfl, rfl⟩

/-- **C89**, looking for the coordinator, fetching the group's offsets, and committing, likewise (see
`C89_group`). -/
theorem C89_group_again (b : Int) (c c' : Grouped) (healC : Cluster → Res Unit × Cluster)
    (hr : HealRaises healC) :
    (∀ env x, c.sendTo coordinatorHandlers env b = (.ok x, c') →
      c.heal = true ∨ Troubled CoordinatorAsks [(b, env.outcome)] →
      ∃ e c1, c.sendTo coordinatorHandlers { env with healC := healC } b = (.error e, c1) ∧
        c1.heal = true) ∧
    (∀ env x, c.sendTo offsetFetchHandlers env b = (.ok x, c') →
      c.heal = true ∨ Troubled OffsetFetchAsks [(b, env.outcome)] →
      ∃ e c1, c.sendTo offsetFetchHandlers { env with healC := healC } b = (.error e, c1) ∧
        c1.heal = true) ∧
    (∀ env x, c.sendTo commitHandlers env b = (.ok x, c') →
      c.heal = true ∨ Troubled CommitAsks [(b, env.outcome)] →
      ∃ e c1, c.sendTo commitHandlers { env with healC := healC } b = (.error e, c1) ∧
        c1.heal = true) := by
  obtain ⟨g1, g2, g3⟩ := C89_group b c c'
  obtain ⟨e, he⟩ := hr c.cluster
  refine ⟨fun env x h ht => ?_, fun env x h ht => ?_, fun env x h ht => ?_⟩
  · refine (sendTo_again _ env b c c' x healC hr h).resolve_left fun hx => ?_
    have := (g1 _ x hx).2.1 ht
    simp only at this
    rw [this] at he
    simp at he
  · refine (sendTo_again _ env b c c' x healC hr h).resolve_left fun hx => ?_
    have := (g2 _ x hx).2.1 ht
    simp only at this
    rw [this] at he
    simp at he
  · refine (sendTo_again _ env b c c' x healC hr h).resolve_left fun hx => ?_
    have := (g3 _ x hx).2.1 ht
    simp only at this
    rw [this] at he
    simp at he

/-! ### Concrete cases -/

-- Non-vacuity of C89_offsets_again, and the next call.
example :
    let env : OffsetEnv := { exOffsets 6 [] with healC := fun cl => (.error .noBrokers, cl) }
    let c := ((Single.new exCCluster).determineSent env "t" (.int (-1))).2.1
    ((Single.new exCCluster).determineSent env "t" (.int (-1))).1 = .error .noBrokers ∧
    c.heal = true ∧
    (c.determineSent { exOffsets 0 [40] with healC := fun _ => (.ok (), exHealed) } "t"
      (.int (-1))).2.1.cluster = exHealed := by decide +kernel

end Kiel
