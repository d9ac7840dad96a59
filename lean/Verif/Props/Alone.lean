import Verif.Props.FirstConsumes
/-
The models of `consume` agree: `consume`s that may overlap, one of them alone, and the `consume`
of a `SingleConsumer` as one function.
-/
set_option autoImplicit false
namespace Kiel
open Spec

variable {ε β δ : Type}

/-! ### Handlers and the flag -/

/-- The consumer, with the flag set if `h` is. -/
def Consumer.orHeal (h : Bool) (c : Consumer ε) : Consumer ε := { c with heal := h || c.heal }

theorem deserializeMessages_orHeal (cfg : CCfg β δ) (t : String) (p : Int) (h : Bool)
    (ms : List (Int × β)) (c : Consumer ε) (out : List δ) :
    deserializeMessages cfg t p ms (c.orHeal h) out =
      ((deserializeMessages cfg t p ms c out).1,
        (deserializeMessages cfg t p ms c out).2.orHeal h) := by
  induction ms generalizing c out with
  | nil => rfl
  | cons m ms ih =>
    obtain ⟨o, v⟩ := m
    simp only [deserializeMessages]
    split
    · exact ih c out
    · rw [← ih]
      split <;> rfl

theorem handleFetchParts_orHeal (cfg : CCfg β δ) (t : String) (h : Bool) (ps : List (FPart β))
    (c : Consumer ε) (out : List δ) :
    handleFetchParts cfg t ps (c.orHeal h) out =
      ((handleFetchParts cfg t ps c out).1, (handleFetchParts cfg t ps c out).2.orHeal h) := by
  induction ps generalizing c out with
  | nil => rfl
  | cons p ps ih =>
    simp only [handleFetchParts]
    split
    · rw [deserializeMessages_orHeal]
      exact ih _ _
    · split
      · rw [← ih]
        congr 1
        simp [Consumer.orHeal]
      · split
        · rw [← ih]; rfl
        · split
          · rfl
          · exact ih _ _

theorem handleFetch_orHeal (cfg : CCfg β δ) (h : Bool) (r : FResp β) (c : Consumer ε) :
    handleFetchResponse cfg r (c.orHeal h) =
      ((handleFetchResponse cfg r c).1, (handleFetchResponse cfg r c).2.orHeal h) := by
  unfold handleFetchResponse
  split
  · rfl
  · exact handleFetchParts_orHeal _ _ _ _ _ _

theorem handleOffsetParts_orHeal (t : String) (h : Bool) (ps : List OPart) (c : Single) :
    handleOffsetParts t ps (c.orHeal h) =
      ((handleOffsetParts t ps c).1, (handleOffsetParts t ps c).2.orHeal h) := by
  induction ps generalizing c with
  | nil => rfl
  | cons p ps ih =>
    simp only [handleOffsetParts]
    split
    · split
      · rfl
      · rw [← ih]
        split <;> rfl
    · split
      · rw [← ih]
        congr 1
        simp [Consumer.orHeal]
      · split <;> rfl

theorem handleOffset_orHeal (h : Bool) (r : OResp) (c : Single) :
    handleOffsetResponse r (c.orHeal h) =
      ((handleOffsetResponse r c).1, (handleOffsetResponse r c).2.orHeal h) := by
  unfold handleOffsetResponse
  split
  · rfl
  · exact handleOffsetParts_orHeal _ _ _ _

/-! ### Courses of one `consume` -/

/-- What is seen of a list of events, and the consumer afterwards. -/
def firstRun (cfg : CCfg β δ) : SingleBusy δ → List (FirstEv β) → List (FirstOut δ) × SingleBusy δ
  | s, [] => ([], s)
  | s, ev :: evs =>
    ((s.step cfg ev).1 :: (firstRun cfg (s.step cfg ev).2 evs).1,
      (firstRun cfg (s.step cfg ev).2 evs).2)

theorem firstRun_append (cfg : CCfg β δ) (s : SingleBusy δ) (a b : List (FirstEv β)) :
    firstRun cfg s (a ++ b) = ((firstRun cfg s a).1 ++ (firstRun cfg (firstRun cfg s a).2 b).1,
      (firstRun cfg (firstRun cfg s a).2 b).2) := by
  induction a generalizing s with
  | nil => rfl
  | cons ev a ih => simp only [List.cons_append, firstRun, ih]

/-- Whether this is the end of a `consume`. -/
def FirstOut.ends : FirstOut δ → Bool
  | .returned _ _ => true
  | .raised _ => true
  | _ => false

/-- There are events that lead from `s` to `s'`, in which `consume`s come to `outs`, in order. -/
def Leads (cfg : CCfg β δ) (s : SingleBusy δ) (outs : List (FirstOut δ)) (s' : SingleBusy δ) : Prop :=
  ∃ evs, (firstRun cfg s evs).1.filter FirstOut.ends = outs ∧ (firstRun cfg s evs).2 = s'

theorem Leads.refl (cfg : CCfg β δ) (s : SingleBusy δ) : Leads cfg s [] s := ⟨[], rfl, rfl⟩

theorem Leads.step {cfg : CCfg β δ} {s s' : SingleBusy δ} (ev : FirstEv β) {out : FirstOut δ}
    (h : s.step cfg ev = (out, s')) : Leads cfg s ([out].filter FirstOut.ends) s' :=
  ⟨[ev], by simp only [firstRun, h], by simp only [firstRun, h]⟩

theorem Leads.last {cfg : CCfg β δ} {s s' : SingleBusy δ} (ev : FirstEv β) {out : FirstOut δ}
    (h : s.step cfg ev = (out, s')) (he : out.ends = true) : Leads cfg s [out] s' := by
  have := Leads.step ev h
  rwa [List.filter_cons, if_pos he] at this

theorem Leads.trans {cfg : CCfg β δ} {s s1 s2 : SingleBusy δ} {o1 o2 : List (FirstOut δ)}
    (h1 : Leads cfg s o1 s1) (h2 : Leads cfg s1 o2 s2) : Leads cfg s (o1 ++ o2) s2 := by
  obtain ⟨e1, rfl, rfl⟩ := h1
  obtain ⟨e2, rfl, rfl⟩ := h2
  exact ⟨e1 ++ e2, by rw [firstRun_append, List.filter_append], by rw [firstRun_append]⟩

/-- What `consume` comes to. -/
def cameTo (topic : String) : Res (Option (List δ)) → FirstOut δ
  | .ok out => .returned topic out
  | .error e => .raised e

theorem perm_left {α γ : Type} {outs : List (Int × γ)} {pending : List α} {broker : α → Int}
    {b : Int} {x : γ} (hp : (((b, x) :: outs).map (·.1)).Perm (pending.map broker))
    (hn : (pending.map broker).Nodup) :
    b ∈ pending.map broker ∧
    (outs.map (·.1)).Perm ((pending.filter fun q => decide (broker q ≠ b)).map broker) ∧
    ((pending.filter fun q => decide (broker q ≠ b)).map broker).Nodup := by
  have hb : b ∈ pending.map broker := hp.subset (by simp)
  refine ⟨hb, ?_, hn.sublist (List.filter_sublist.map _)⟩
  have h1 : (pending.filter fun q => decide (broker q ≠ b)).map broker =
      (pending.map broker).erase b := by
    rw [hn.erase_eq_filter, List.filter_map]
    congr 1
    apply List.filter_congr
    intro q _
    by_cases h : broker q = b <;> simp [h]
  rw [h1]
  have := hp.erase b
  simpa using this

/-- The answers to fetches. -/
theorem fetch_alone (cfg : CCfg β δ) (topic : String) (outs : List (Int × Res (FResp β))) :
    ∀ (pending : List FReq) (results : Dict Int (List δ)) (c : Single) (heal : Bool)
      (st : Dict Nat FirstPhase),
    c.heal = false → (outs.map (·.1)).Perm (pending.map (·.broker)) →
    (pending.map (·.broker)).Nodup →
    match sendLoop (fetchHandlers cfg) outs results c heal with
    | (.ok res, c', h) => c'.heal = false ∧
        Leads cfg ⟨⟨c.orHeal heal, [(0, ⟨topic, pending, results⟩)]⟩, st⟩ []
          ⟨⟨c'.orHeal h, [(0, ⟨topic, [], res⟩)]⟩, st⟩
    | (.error e, c', h) => c'.heal = false ∧
        Leads cfg ⟨⟨c.orHeal heal, [(0, ⟨topic, pending, results⟩)]⟩, st⟩ [.raised e]
          ⟨⟨c'.orHeal h, []⟩, st⟩ := by
  induction outs with
  | nil =>
    intro pending results c heal st hc hp _
    have : pending = [] := by
      have := hp.symm.eq_nil
      simpa using this
    subst this
    exact ⟨hc, Leads.refl _ _⟩
  | cons x outs ih =>
    intro pending results c heal st hc hp hn
    obtain ⟨b, r⟩ := x
    obtain ⟨hb, hp', hn'⟩ := perm_left hp hn
    cases r with
    | error e =>
      have hstep : (⟨⟨c.orHeal heal, [(0, ⟨topic, pending, results⟩)]⟩, st⟩ : SingleBusy δ).step cfg
          (.base (.outcome 0 b (.error e))) =
          (.nothing, ⟨⟨c.orHeal (if e = .streamClosed then heal else true),
            [(0, ⟨topic, pending.filter fun q => decide (q.broker ≠ b), results⟩)]⟩, st⟩) := by
        simp only [SingleBusy.step, Busy.step, Dict.get?, if_true, hb, not_true, if_false,
          BOut.first, Dict.set]
        split <;> simp [Consumer.orHeal]
      have hl := Leads.step _ hstep
      have := ih _ results c (if e = .streamClosed then heal else true) st hc hp' hn'
      simp only [sendLoop]
      split at this
      · exact ⟨this.1, hl.trans this.2⟩
      · exact ⟨this.1, hl.trans this.2⟩
    | ok r =>
      have hh := handleFetch_orHeal cfg heal r c
      cases hr : handleFetchResponse cfg r c with
      | mk res c1 =>
        rw [hr] at hh
        have hcc : ({ c1 with heal := false } : Single).orHeal (heal || c1.heal) =
            c1.orHeal heal := by simp [Consumer.orHeal]
        cases res with
        | error e =>
          have hstep : (⟨⟨c.orHeal heal, [(0, ⟨topic, pending, results⟩)]⟩, st⟩ : SingleBusy δ).step
              cfg (.base (.outcome 0 b (.ok r))) = (.raised e, ⟨⟨c1.orHeal heal, []⟩, st⟩) := by
            simp only [SingleBusy.step, Busy.step, Dict.get?, if_true, hb, not_true, if_false,
              BOut.first, hh, Dict.erase]
            simp
          have hsl : sendLoop (fetchHandlers cfg) ((b, .ok r) :: outs) results c heal =
              (.error e, { c1 with heal := false }, heal || c1.heal) := by
            simp only [sendLoop, fetchHandlers, hr]
          rw [hsl]
          simp only
          rw [hcc]
          exact ⟨trivial, Leads.step _ hstep⟩
        | ok x =>
          have hstep : (⟨⟨c.orHeal heal, [(0, ⟨topic, pending, results⟩)]⟩, st⟩ : SingleBusy δ).step
              cfg (.base (.outcome 0 b (.ok r))) = (.nothing, ⟨⟨c1.orHeal heal,
                [(0, ⟨topic, pending.filter fun q => decide (q.broker ≠ b),
                  results.set b x⟩)]⟩, st⟩) := by
            simp only [SingleBusy.step, Busy.step, Dict.get?, if_true, hb, not_true, if_false,
              BOut.first, hh, Dict.set]
          have hl := Leads.step _ hstep
          have hsl : sendLoop (fetchHandlers cfg) ((b, .ok r) :: outs) results c heal =
              sendLoop (fetchHandlers cfg) outs (results.set b x) { c1 with heal := false }
                (heal || c1.heal) := by
            simp only [sendLoop, fetchHandlers, hr]
          rw [hsl]
          have := ih _ (results.set b x) { c1 with heal := false } (heal || c1.heal) st rfl hp' hn'
          rw [hcc] at this
          split at this
          · exact ⟨this.1, hl.trans this.2⟩
          · exact ⟨this.1, hl.trans this.2⟩

/-- The answers to offset requests. -/
theorem offsets_alone (cfg : CCfg β δ) (topic : String) (outs : List (Int × Res OResp)) :
    ∀ (pending : List OReq) (results : Dict Int Unit) (c : Single) (heal : Bool),
    c.heal = false → (outs.map (·.1)).Perm (pending.map (·.broker)) →
    (pending.map (·.broker)).Nodup →
    match sendLoop offsetHandlers outs results c heal with
    | (.ok _, c', h) => c'.heal = false ∧
        Leads cfg (⟨⟨c.orHeal heal, []⟩, [(0, .determining topic pending)]⟩ : SingleBusy δ) []
          ⟨⟨c'.orHeal h, []⟩, [(0, .determining topic [])]⟩
    | (.error e, c', h) => c'.heal = false ∧
        Leads cfg (⟨⟨c.orHeal heal, []⟩, [(0, .determining topic pending)]⟩ : SingleBusy δ)
          [determineEnd topic e] ⟨⟨c'.orHeal h, []⟩, []⟩ := by
  induction outs with
  | nil =>
    intro pending results c heal hc hp _
    have : pending = [] := by
      have := hp.symm.eq_nil
      simpa using this
    subst this
    exact ⟨hc, Leads.refl _ _⟩
  | cons x outs ih =>
    intro pending results c heal hc hp hn
    obtain ⟨b, r⟩ := x
    obtain ⟨hb, hp', hn'⟩ := perm_left hp hn
    cases r with
    | error e =>
      have hstep : (⟨⟨c.orHeal heal, []⟩, [(0, .determining topic pending)]⟩ : SingleBusy δ).step cfg
          (.offsets 0 b (.error e)) =
          (.nothing, ⟨⟨c.orHeal (if e = .streamClosed then heal else true), []⟩,
            [(0, .determining topic (pending.filter fun q => decide (q.broker ≠ b)))]⟩) := by
        simp only [SingleBusy.step, Dict.get?, if_true, hb, not_true, if_false, Dict.set]
        split <;> simp [Consumer.orHeal]
      have hl := Leads.step _ hstep
      have := ih _ results c (if e = .streamClosed then heal else true) hc hp' hn'
      simp only [sendLoop]
      split at this
      · exact ⟨this.1, hl.trans this.2⟩
      · exact ⟨this.1, hl.trans this.2⟩
    | ok r =>
      have hh := handleOffset_orHeal heal r c
      cases hr : handleOffsetResponse r c with
      | mk res c1 =>
        rw [hr] at hh
        have hcc : ({ c1 with heal := false } : Single).orHeal (heal || c1.heal) =
            c1.orHeal heal := by simp [Consumer.orHeal]
        cases res with
        | error e =>
          have hstep : (⟨⟨c.orHeal heal, []⟩, [(0, .determining topic pending)]⟩ :
              SingleBusy δ).step cfg (.offsets 0 b (.ok r)) =
              (determineEnd topic e, ⟨⟨c1.orHeal heal, []⟩, []⟩) := by
            simp only [SingleBusy.step, Dict.get?, if_true, hb, not_true, if_false, hh, Dict.erase]
            cases e <;> rfl
          have hsl : sendLoop offsetHandlers ((b, .ok r) :: outs) results c heal =
              (.error e, { c1 with heal := false }, heal || c1.heal) := by
            simp only [sendLoop, offsetHandlers, hr]
          rw [hsl]
          simp only
          rw [hcc]
          refine ⟨trivial, ?_⟩
          have hl := Leads.step _ hstep
          have he : [(determineEnd topic e : FirstOut δ)].filter FirstOut.ends =
              [determineEnd topic e] := by cases e <;> rfl
          rw [he] at hl
          exact hl
        | ok x =>
          have hstep : (⟨⟨c.orHeal heal, []⟩, [(0, .determining topic pending)]⟩ :
              SingleBusy δ).step cfg (.offsets 0 b (.ok r)) = (.nothing, ⟨⟨c1.orHeal heal, []⟩,
                [(0, .determining topic (pending.filter fun q => decide (q.broker ≠ b)))]⟩) := by
            simp only [SingleBusy.step, Dict.get?, if_true, hb, not_true, if_false, hh, Dict.set]
          have hl := Leads.step _ hstep
          have hsl : sendLoop offsetHandlers ((b, .ok r) :: outs) results c heal =
              sendLoop offsetHandlers outs (results.set b x) { c1 with heal := false }
                (heal || c1.heal) := by
            simp only [sendLoop, offsetHandlers, hr]
          rw [hsl]
          have := ih _ (results.set b x) { c1 with heal := false } (heal || c1.heal) rfl hp' hn'
          rw [hcc] at this
          split at this
          · exact ⟨this.1, hl.trans this.2⟩
          · exact ⟨this.1, hl.trans this.2⟩

/-- From a step that is seen as `o` and leads to `s1`, events lead on. -/
def LeadsOn (cfg : CCfg β δ) (x : FirstOut δ × SingleBusy δ) (outs : List (FirstOut δ))
    (s' : SingleBusy δ) : Prop :=
  ∃ outs2, [x.1].filter FirstOut.ends ++ outs2 = outs ∧ Leads cfg x.2 outs2 s'

theorem LeadsOn.leads {cfg : CCfg β δ} {s s' : SingleBusy δ} {outs : List (FirstOut δ)}
    (ev : FirstEv β) (h : LeadsOn cfg (s.step cfg ev) outs s') : Leads cfg s outs s' := by
  obtain ⟨outs2, rfl, h⟩ := h
  exact (Leads.step ev rfl).trans h

theorem orHeal_self (c : Consumer ε) : ({ c with heal := false } : Consumer ε).orHeal c.heal = c := by
  simp [Consumer.orHeal]

theorem cameTo_ends (topic : String) (r : Res (Option (List δ))) : (cameTo topic r).ends = true := by
  cases r <;> rfl

/-- `heal()` by `f` is done. -/
theorem healed_leads (cfg : CCfg β δ) (f : Cluster → Cluster) (c : Single)
    (w : Dict Nat (Waiting δ)) (st : Dict Nat FirstPhase) :
    Leads cfg ⟨⟨c, w⟩, st⟩ [] ⟨⟨{ c with cluster := f c.cluster }, w⟩, st⟩ :=
  Leads.step (.base (.other fun c => { c with cluster := f c.cluster })) rfl

/-- `consume` from where it sends fetches. -/
theorem fetchOn_alone (cfg : CCfg β δ) (env : ConsumeEnv Unit β) (hw : env.write = cfg.write 0 "fetch")
    (ht : env.tick = fun _ c => c)
    (ho : ∀ reqs, ((env.outcomes reqs).map (·.1)).Perm (reqs.map (·.broker)))
    (topic : String) (parts : List Int) (c : Single) (st : Dict Nat FirstPhase)
    (hst : st.erase 0 = []) :
    LeadsOn cfg ((⟨⟨c, []⟩, st⟩ : SingleBusy δ).fetch cfg 0 topic parts)
      [cameTo topic (c.fetch cfg env topic parts).1]
      ⟨⟨(c.fetch cfg env topic parts).2.1, []⟩, []⟩ := by
  unfold SingleBusy.fetch Consumer.fetch
  simp only
  cases hf : c.fetches cfg topic parts with
  | mk res c1 =>
    cases res with
    | error e => exact ⟨[], rfl, by simp only [hst]; exact Leads.refl _ _⟩
    | ok reqs =>
      obtain ⟨_, _, _, _, _, _, f7, _⟩ := fetches_spec cfg topic parts _ _ _ hf
      simp only [clientSend, hw, ht]
      cases hss : sendStart (fun l => c1.cluster.conns.has l) (cfg.write 0 "fetch")
          (reqs.map (·.broker)) with
      | some e =>
        simp only
        refine ⟨[], rfl, ?_⟩
        simp only [hst]
        exact Leads.refl _ _
      | none =>
        simp only
        have hl := fetch_alone cfg topic (env.outcomes reqs) reqs [] { c1 with heal := false } c1.heal
          [] rfl (ho reqs) (f7 _ rfl).brokers
        rw [orHeal_self] at hl
        cases hsl : sendLoop (fetchHandlers cfg) (env.outcomes reqs) [] { c1 with heal := false }
            c1.heal with
        | mk x y =>
          obtain ⟨c2, h⟩ := y
          rw [hsl] at hl
          cases x with
          | error e =>
            obtain ⟨h1, h2⟩ := hl
            refine ⟨_, rfl, ?_⟩
            simp only [hst]
            have : c2.orHeal h = { c2 with heal := h } := by simp [Consumer.orHeal, h1]
            rw [this] at h2
            exact h2
          | ok results =>
            obtain ⟨h1, h2⟩ := hl
            have : c2.orHeal h = { c2 with heal := h } := by simp [Consumer.orHeal, h1]
            rw [this] at h2
            refine ⟨_, rfl, ?_⟩
            simp only [hst]
            cases h with
            | false =>
              simp only
              refine h2.trans (o2 := [_]) (Leads.last (.base (.finish 0)) ?_ rfl)
              simp [SingleBusy.step, Busy.step, Dict.get?, BOut.first, Dict.erase, cameTo]
            | true =>
              simp only
              have hh := h2.trans (healed_leads cfg (fun cl => (env.healC cl).2) _ _ _)
              simp only at hh
              cases hhc : env.healC c2.cluster with
              | mk r cl =>
                rw [hhc] at hh
                cases r with
                | error e =>
                  refine hh.trans (o2 := [_]) (Leads.last (.base (.healFails 0 e)) ?_ rfl)
                  simp [SingleBusy.step, Busy.step, Dict.get?, BOut.first, Dict.erase, cameTo]
                | ok _ =>
                  refine hh.trans (o2 := [_]) (Leads.last (.base (.finish 0)) ?_ rfl)
                  simp [SingleBusy.step, Busy.step, Dict.get?, BOut.first, Dict.erase, cameTo]

/-- `consume` once offsets are known. -/
theorem proceed_alone (cfg : CCfg β δ) (env : ConsumeEnv Unit β) (hw : env.write = cfg.write 0 "fetch")
    (ht : env.tick = fun _ c => c)
    (ho : ∀ reqs, ((env.outcomes reqs).map (·.1)).Perm (reqs.map (·.broker)))
    (topic : String) (c : Single) (st : Dict Nat FirstPhase)
    (hst : st.erase 0 = []) (hset : st.set 0 (.healing topic) = [(0, .healing topic)]) :
    LeadsOn cfg ((⟨⟨c, []⟩, st⟩ : SingleBusy δ).proceed cfg 0 topic)
      [cameTo topic (c.consumeSynced Single.allocation cfg env topic).1]
      ⟨⟨(c.consumeSynced Single.allocation cfg env topic).2.1, []⟩, []⟩ := by
  unfold SingleBusy.proceed Consumer.consumeSynced
  simp only [Single.allocation]
  cases ha : allocated c.cluster.topics topic with
  | some parts => exact fetchOn_alone cfg env hw ht ho topic parts c st hst
  | none =>
    simp only [ht, hset]
    refine ⟨_, rfl, ?_⟩
    have hh := healed_leads cfg (δ := δ) (fun cl => (env.heal cl).2) c [] [(0, .healing topic)]
    cases hhc : env.heal c.cluster with
    | mk r cl =>
      rw [hhc] at hh
      cases r with
      | error e =>
        refine hh.trans (o2 := [_]) (Leads.last (.healFails 0 e) ?_ rfl)
        simp [SingleBusy.step, Dict.get?, Dict.erase, cameTo]
      | ok _ =>
        refine hh.trans (o2 := [_]) (LeadsOn.leads (.healed 0) ?_)
        simp only [SingleBusy.step, Dict.get?, if_true]
        cases ha2 : allocated cl.topics topic with
        | none => exact ⟨[], rfl, Leads.refl _ _⟩
        | some parts =>
          exact fetchOn_alone cfg env hw ht ho topic parts { c with cluster := cl } _ rfl

/-- The two models of a `SingleConsumer`'s `consume` agree: from a consumer of which nothing is
under way, there are events that lead to the end of one `consume`, which comes to what
`Single.consume` says, and to the consumer that it says. -/
theorem consume_alone (cfg : CCfg β δ) (oenv : OffsetEnv) (env : ConsumeEnv Unit β)
    (hw1 : oenv.write = cfg.write 0 "offset") (hw2 : env.write = cfg.write 0 "fetch")
    (ht : env.tick = fun _ c => c)
    (ho1 : ∀ reqs, ((oenv.outcomes reqs).map (·.1)).Perm (reqs.map (·.broker)))
    (ho2 : ∀ reqs, ((env.outcomes reqs).map (·.1)).Perm (reqs.map (·.broker)))
    (topic : String) (start : Start) (c : Single) :
    Leads cfg (⟨⟨c, []⟩, []⟩ : SingleBusy δ)
      [cameTo topic (Single.consume cfg oenv env topic start c).1]
      ⟨⟨(Single.consume cfg oenv env topic start c).2.1, []⟩, []⟩ := by
  refine LeadsOn.leads (.call 0 topic start oenv.now) ?_
  unfold Single.consume Consumer.consume
  simp only [SingleBusy.step]
  split
  · exact ⟨[], rfl, Leads.refl _ _⟩
  · split
    · exact proceed_alone cfg env hw2 ht ho2 topic c [] rfl rfl
    · unfold SingleBusy.determine Single.determine Single.determineSent
      simp only [hw1, ht]
      cases hg : groupByLeader topic (c.cluster.topics.getDefault topic []).2
          { c.cluster with topics := (c.cluster.topics.getDefault topic []).1 } [] with
      | mk res cl =>
        obtain ⟨_, g2, _, _⟩ := groupByLeader_spec topic _ _ _ cl (SameView.refl _) [] res
          (by simp [Dict.keys]) (by simp) hg
        cases res with
        | error e =>
          refine ⟨[], ?_, ?_⟩
          · cases e <;> rfl
          · cases e <;> exact Leads.refl _ _
        | ok ordered =>
          obtain ⟨_, hn, _⟩ := g2 _ rfl
          simp only
          generalize hreqs : (ordered.map fun e =>
            (⟨e.1, topic, startToTimestamp oenv.now start, e.2⟩ : OReq)) = reqs
          have hnb : (reqs.map (·.broker)).Nodup := by
            rw [← hreqs, List.map_map]
            exact hn
          simp only [clientSend]
          cases hss : sendStart (fun l => cl.conns.has l) (offsetWrite (cfg.write 0 "offset") reqs)
              (reqs.map (·.broker)) with
          | some e =>
            refine ⟨[], ?_, ?_⟩
            · cases e <;> rfl
            · cases e <;> exact Leads.refl _ _
          | none =>
            simp only
            have hl := offsets_alone cfg (δ := δ) topic (oenv.outcomes reqs) reqs []
              { c with cluster := cl, heal := false } c.heal rfl (ho1 reqs) hnb
            have hself : ({ c with cluster := cl, heal := false } : Single).orHeal c.heal =
              { c with cluster := cl } := by simp [Consumer.orHeal]
            rw [hself] at hl
            cases hsl : sendLoop offsetHandlers (oenv.outcomes reqs) []
                { c with cluster := cl, heal := false } c.heal with
            | mk x y =>
              obtain ⟨c2, h⟩ := y
              rw [hsl] at hl
              cases x with
              | error e =>
                obtain ⟨h1, h2⟩ := hl
                have : c2.orHeal h = { c2 with heal := h } := by simp [Consumer.orHeal, h1]
                rw [this] at h2
                refine ⟨_, rfl, ?_⟩
                cases e <;> exact h2
              | ok results =>
                obtain ⟨h1, h2⟩ := hl
                have : c2.orHeal h = { c2 with heal := h } := by simp [Consumer.orHeal, h1]
                rw [this] at h2
                refine ⟨_, rfl, ?_⟩
                cases h with
                | false =>
                  refine h2.trans (o2 := [_]) (LeadsOn.leads (.determined 0) ?_)
                  exact proceed_alone cfg env hw2 ht ho2 topic _ [(0, .determining topic [])] rfl rfl
                | true =>
                  have hh := h2.trans (healed_leads cfg (fun cl => (oenv.healC cl).2) _ _ _)
                  simp only at hh ⊢
                  cases hhc : oenv.healC c2.cluster with
                  | mk r cl2 =>
                    rw [hhc] at hh
                    cases r with
                    | error e =>
                      have hs : (⟨⟨{ c2 with cluster := cl2, heal := true }, []⟩,
                          [(0, .determining topic [])]⟩ : SingleBusy δ).step cfg (.healFails 0 e) =
                          (determineEnd topic e,
                            ⟨⟨{ c2 with cluster := cl2, heal := true }, []⟩, []⟩) := rfl
                      have := hh.trans (Leads.last (.healFails 0 e) hs (by cases e <;> rfl))
                      cases e <;> exact this
                    | ok _ =>
                      refine hh.trans (o2 := [_]) (LeadsOn.leads (.determined 0) ?_)
                      exact proceed_alone cfg env hw2 ht ho2 topic _ [(0, .determining topic [])]
                        rfl rfl

/-- Every offset is 3, and every fetch finds one message. -/
def exOEnv : OffsetEnv where
  now := 0
  outcomes reqs := reqs.map fun q => (q.broker, .ok ⟨[(q.topic, q.parts.map fun p => ⟨p, 0, [3]⟩)]⟩)
  write _ := .none
  healC cl := (.ok (), cl)
@[inherit_doc exOEnv] def exCEnv : ConsumeEnv Unit Nat where
  outcomes reqs := reqs.map fun q =>
    (q.broker, .ok ⟨[(q.topic, q.parts.map fun f => ⟨f.id, 0, [(f.offset, 8)]⟩)]⟩)
  write _ := .none
  heal cl := (.ok (), cl)
  healC cl := (.ok (), cl)
  tick _ c := c

-- Non-vacuity of `consume_alone`: a first `consume`.
example : Leads exCCfg (⟨⟨exNew, []⟩, []⟩ : SingleBusy Nat) [.returned "t" (some [8])]
    ⟨⟨{ exNew with offsets := [("t", [(0, 4)])], synced := ["t"] }, []⟩, []⟩ := by
  have h := consume_alone exCCfg exOEnv exCEnv rfl rfl rfl
    (fun reqs => by simp [exOEnv, Function.comp_def])
    (fun reqs => by simp [exCEnv, Function.comp_def]) "t" .unset exNew
  have h1 : (Single.consume exCCfg exOEnv exCEnv "t" .unset exNew).1 = .ok (some [8]) := by
    decide +kernel
  have h2 : (Single.consume exCCfg exOEnv exCEnv "t" .unset exNew).2.1 =
      { exNew with offsets := [("t", [(0, 4)])], synced := ["t"] } := by decide +kernel
  rw [h1, h2] at h
  exact h

end Kiel
