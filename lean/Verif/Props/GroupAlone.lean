import Verif.Props.Alone
import Verif.Model.FirstGrouped
/-
The models of a `GroupedConsumer`'s `consume` and `commit_offsets` agree: calls that may overlap, one
of them alone, and the calls as functions.
-/
set_option autoImplicit false
namespace Kiel
open Spec

variable {β δ : Type}

/-! ### Handlers and the flag -/

theorem handleOffsetFetchParts_orHeal (t : String) (h : Bool) (ps : List OFPart) (c : Grouped)
    (retry : Bool) :
    handleOffsetFetchParts t ps (c.orHeal h) retry =
      ((handleOffsetFetchParts t ps c retry).1, (handleOffsetFetchParts t ps c retry).2.orHeal h) := by
  induction ps generalizing c retry with
  | nil => rfl
  | cons p ps ih =>
    simp only [handleOffsetFetchParts]
    split
    · rw [← ih]; rfl
    · split
      · exact ih _ _
      · split
        · rw [← ih]
          congr 1
          simp [Consumer.orHeal]
        · split <;> rfl

theorem handleOffsetFetch_orHeal (h : Bool) (r : OFResp) (c : Grouped) :
    handleOffsetFetchResponse r (c.orHeal h) =
      ((handleOffsetFetchResponse r c).1, (handleOffsetFetchResponse r c).2.orHeal h) := by
  unfold handleOffsetFetchResponse
  split
  · rfl
  · exact handleOffsetFetchParts_orHeal _ _ _ _ _

theorem handleOffsetFetch_ext {r : OFResp} {c c' : Grouped} {res : Res Bool}
    (h : handleOffsetFetchResponse r c = (res, c')) : c'.ext = c.ext := by
  have key : ∀ (t : String) (ps : List OFPart) (c : Grouped) (b : Bool),
      (handleOffsetFetchParts t ps c b).2.ext = c.ext := by
    intro t ps
    induction ps with
    | nil => intro c b; rfl
    | cons p ps ih =>
      intro c b
      simp only [handleOffsetFetchParts]
      split
      · rw [ih]
      · split
        · rw [ih]
        · split
          · rw [ih]
          · split <;> rfl
  have h2 : (handleOffsetFetchResponse r c).2 = c' := by rw [h]
  rw [← h2]
  unfold handleOffsetFetchResponse
  split
  · rfl
  · exact key _ _ _ _

theorem handleCommitParts_orHeal (t : String) (h : Bool) (ps : List (Int × Int)) (c : Grouped)
    (x : Bool × Bool) :
    handleCommitParts t ps (c.orHeal h) x =
      ((handleCommitParts t ps c x).1, (handleCommitParts t ps c x).2.orHeal h) := by
  induction ps generalizing c x with
  | nil => rfl
  | cons p ps ih =>
    obtain ⟨id, code⟩ := p
    obtain ⟨r, a⟩ := x
    simp only [handleCommitParts]
    split
    · rw [← ih]; rfl
    · split
      · rw [← ih]
        congr 1
        simp [Consumer.orHeal]
      · split
        · exact ih _ _
        · split
          · rfl
          · exact ih _ _

theorem handleCommitTopics_orHeal (h : Bool) (ts : List (String × List (Int × Int))) (c : Grouped)
    (x : Bool × Bool) :
    handleCommitTopics ts (c.orHeal h) x =
      ((handleCommitTopics ts c x).1, (handleCommitTopics ts c x).2.orHeal h) := by
  induction ts generalizing c x with
  | nil => rfl
  | cons t ts ih =>
    obtain ⟨t, ps⟩ := t
    simp only [handleCommitTopics, handleCommitParts_orHeal]
    cases hp : handleCommitParts t ps c x with
    | mk res c1 =>
      cases res with
      | error e => rfl
      | ok x' => exact ih _ _

/-- The end of `send`: `heal()` if the flag is set. -/
def Grouped.sendEnd {ρ : Type} (healC : Cluster → Res Unit × Cluster) (res : Res ρ) (c : Grouped) :
    Res ρ × Grouped :=
  if c.heal then
    match healC c.cluster with
    | (.error e, cl) => (.error e, { c with cluster := cl })
    | (.ok _, cl) => (res, { c with cluster := cl, heal := false })
  else (res, c)

/-- What `send` makes of a request to the coordinator. -/
theorem sendCoordinator_eq {R ρ : Type} (hs : Handlers Grouped R ρ) (f : R → Grouped → Res ρ × Grouped)
    (hf : ∀ r, hs.handle r = some fun c => match f r c with
      | (res, c') => (res, { c' with heal := false }, c'.heal))
    (ho : ∀ h r c, f r (c.orHeal h) = ((f r c).1, (f r c).2.orHeal h))
    (env : SendEnv R) (hw : env.write = .none) (c : Grouped) :
    c.sendCoordinator hs env =
      match c.ext.coordinator with
      | .none => (.error .keyError, c)
      | some b =>
        if ¬ c.cluster.conns.has b then (.error .keyError, c)
        else
          match env.outcome with
          | .error e => Grouped.sendEnd env.healC (.error .keyError)
              (if e = .streamClosed then c else { c with heal := true })
          | .ok r =>
            match f r c with
            | (.error e, c2) => (.error e, c2)
            | (.ok x, c2) => Grouped.sendEnd env.healC (.ok x) c2 := by
  unfold Grouped.sendCoordinator
  cases hb : c.ext.coordinator with
  | none => rfl
  | some b =>
    simp only [Grouped.sendTo, clientSend, hw, sendStart]
    by_cases hc : c.cluster.conns.has b = true
    · simp only [hc, not_true_eq_false, if_false]
      cases ho' : env.outcome with
      | error e =>
        simp only [sendLoop]
        by_cases he : e = .streamClosed
        · simp only [if_pos he]
          cases hh : c.heal with
          | false =>
            have : ({ c with heal := false } : Grouped) = c := by rw [← hh]
            simp [Grouped.sendEnd, hh, Dict.get?, this]
          | true =>
            simp only [Grouped.sendEnd, hh, if_true]
            cases hhc : env.healC c.cluster with
            | mk r cl => cases r <;> simp [Dict.get?]
        · simp only [if_neg he, Grouped.sendEnd, if_true]
          cases hhc : env.healC c.cluster with
          | mk r cl => cases r <;> simp [Dict.get?]
      | ok r =>
        simp only [sendLoop, hf]
        have h1 := ho c.heal r { c with heal := false }
        rw [orHeal_self] at h1
        rw [h1]
        cases hr : f r { c with heal := false } with
        | mk res c2 =>
          obtain ⟨cl, off, syn, heal, closing, ext⟩ := c2
          cases res with
          | error e => simp [Consumer.orHeal]
          | ok x =>
            simp only [Grouped.sendEnd, Consumer.orHeal]
            cases c.heal <;> cases heal
            · simp [Dict.set, Dict.get?]
            all_goals
              simp only [Bool.or_true, Bool.or_false, if_true]
              cases hhc : env.healC cl with
              | mk r cl => cases r <;> simp [Dict.set, Dict.get?]
    · simp only [hc]
      simp

/-! ### Courses of one call -/

/-- What is seen of a list of events, and the consumer afterwards. -/
def groupSeen (gcfg : GCfg) (cfg : CCfg β δ) :
    GroupFirst δ → List (FirstGroupEv β) → List (FirstGroupOut δ) × GroupFirst δ
  | s, [] => ([], s)
  | s, ev :: evs =>
    ((s.step gcfg cfg ev).1 :: (groupSeen gcfg cfg (s.step gcfg cfg ev).2 evs).1,
      (groupSeen gcfg cfg (s.step gcfg cfg ev).2 evs).2)

theorem groupSeen_append (gcfg : GCfg) (cfg : CCfg β δ) (s : GroupFirst δ)
    (a b : List (FirstGroupEv β)) :
    groupSeen gcfg cfg s (a ++ b) =
      ((groupSeen gcfg cfg s a).1 ++ (groupSeen gcfg cfg (groupSeen gcfg cfg s a).2 b).1,
        (groupSeen gcfg cfg (groupSeen gcfg cfg s a).2 b).2) := by
  induction a generalizing s with
  | nil => rfl
  | cons ev a ih => simp only [List.cons_append, groupSeen, ih]

/-- What is seen, if it is the end of a call. -/
def FirstGroupOut.ending : FirstGroupOut δ → Option (GroupOut δ)
  | .group (.returned t o) => some (.returned t o)
  | .group .committed => some .committed
  | .group (.raised e) => some (.raised e)
  | _ => .none

/-- There are events that lead from `s` to `s'`, in which calls come to `outs`, in order. -/
def GLeads (gcfg : GCfg) (cfg : CCfg β δ) (s : GroupFirst δ) (outs : List (GroupOut δ))
    (s' : GroupFirst δ) : Prop :=
  ∃ evs, (groupSeen gcfg cfg s evs).1.filterMap FirstGroupOut.ending = outs ∧
    (groupSeen gcfg cfg s evs).2 = s'

/-- The same from the result of a step on. -/
def GLeadsOn (gcfg : GCfg) (cfg : CCfg β δ) (x : FirstGroupOut δ × GroupFirst δ)
    (outs : List (GroupOut δ)) (s' : GroupFirst δ) : Prop :=
  ∃ outs2, [x.1].filterMap FirstGroupOut.ending ++ outs2 = outs ∧ GLeads gcfg cfg x.2 outs2 s'

theorem GLeads.refl (gcfg : GCfg) (cfg : CCfg β δ) (s : GroupFirst δ) : GLeads gcfg cfg s [] s :=
  ⟨[], rfl, rfl⟩

theorem GLeads.trans {gcfg : GCfg} {cfg : CCfg β δ} {s s1 s2 : GroupFirst δ}
    {o1 o2 : List (GroupOut δ)} (h1 : GLeads gcfg cfg s o1 s1) (h2 : GLeads gcfg cfg s1 o2 s2) :
    GLeads gcfg cfg s (o1 ++ o2) s2 := by
  obtain ⟨e1, rfl, rfl⟩ := h1
  obtain ⟨e2, rfl, rfl⟩ := h2
  exact ⟨e1 ++ e2, by rw [groupSeen_append, List.filterMap_append], by rw [groupSeen_append]⟩

theorem GLeadsOn.leads {gcfg : GCfg} {cfg : CCfg β δ} {s s' : GroupFirst δ}
    {outs : List (GroupOut δ)} (ev : FirstGroupEv β)
    (h : GLeadsOn gcfg cfg (s.step gcfg cfg ev) outs s') : GLeads gcfg cfg s outs s' := by
  obtain ⟨outs2, rfl, h⟩ := h
  exact GLeads.trans ⟨[ev], rfl, rfl⟩ h

theorem GLeads.on {gcfg : GCfg} {cfg : CCfg β δ} {o : FirstGroupOut δ} {s s' : GroupFirst δ}
    {outs : List (GroupOut δ)} (ho : o.ending = .none) (h : GLeads gcfg cfg s outs s') :
    GLeadsOn gcfg cfg (o, s) outs s' :=
  ⟨outs, by simp [ho], h⟩

theorem GLeadsOn.over {gcfg : GCfg} {cfg : CCfg β δ} {o : FirstGroupOut δ} {s : GroupFirst δ}
    {x : GroupOut δ} (ho : o.ending = some x) : GLeadsOn gcfg cfg (o, s) [x] s :=
  ⟨[], by simp [ho], GLeads.refl _ _ _⟩

/-- `heal()` by `f` is done. -/
theorem gheal_leads (gcfg : GCfg) (cfg : CCfg β δ) (f : Cluster → Cluster) (c : Grouped)
    (w : Dict Nat (Waiting δ)) (cm : Dict Nat (Committing δ)) (st : Dict Nat GroupPhase) :
    GLeads gcfg cfg ⟨⟨⟨c, w⟩, cm⟩, st⟩ [] ⟨⟨⟨{ c with cluster := f c.cluster }, w⟩, cm⟩, st⟩ :=
  ⟨[.group (.base (.other fun c => { c with cluster := f c.cluster }))], rfl, rfl⟩

/-! ### `commit_offsets` -/

/-- What a call that ends with a commit comes to. -/
def committedTo (result : Option (String × Option (List δ))) : GroupOut δ :=
  match result with
  | some (t, o) => .returned t o
  | .none => .committed

/-- The end of the `send` of a commit, and what follows. -/
theorem commitSent_alone (gcfg : GCfg) (cfg : CCfg β δ)
    (healC : Cluster → Res Unit × Cluster) (ph : CommitPhase)
    (result : Option (String × Option (List δ))) (c : Grouped) {ρ : Type} (res : Res ρ)
    (hph : ∀ req, ph ≠ .asking req) (outs : List (GroupOut δ)) (s' : GroupFirst δ)
    (herr : ∀ e c', Grouped.sendEnd healC res c = (.error e, c') → c.heal = true →
      (healC c.cluster).1 = .error e → outs = [.raised e] ∧ s' = ⟨⟨⟨c', []⟩, []⟩, []⟩)
    (hok : ∀ c', Grouped.sendEnd healC res c = (res, c') → c'.heal = false →
      GLeadsOn gcfg cfg ((⟨⟨⟨c', []⟩, [(0, ⟨ph, result⟩)]⟩, []⟩ : GroupFirst δ).step gcfg cfg
        (.group (.goOn 0))) outs s') :
    GLeads gcfg cfg ⟨⟨⟨c, []⟩, [(0, ⟨ph, result⟩)]⟩, []⟩ outs s' := by
  have hgo : ∀ (c' : Grouped), (⟨⟨⟨c', []⟩, [(0, ⟨ph, result⟩)]⟩, []⟩ : GroupFirst δ).step gcfg cfg
        (.group (.goOn 0)) =
      (⟨⟨⟨{ c' with heal := false }, []⟩, [(0, ⟨ph, result⟩)]⟩, []⟩ : GroupFirst δ).step gcfg cfg
        (.group (.goOn 0)) := by
    intro c'
    cases ph with
    | asking req => exact absurd rfl (hph req)
    | answered r m => rfl
    | failed => rfl
  by_cases hh : c.heal = true
  · have hl := gheal_leads gcfg cfg (fun cl => (healC cl).2) c [] [(0, ⟨ph, result⟩)] []
    simp only [Grouped.sendEnd, if_pos hh] at herr hok
    cases hhc : healC c.cluster with
    | mk r cl =>
      simp only [hhc] at herr hok hl
      cases r with
      | error e =>
        obtain ⟨rfl, rfl⟩ := herr e _ rfl hh rfl
        refine hl.trans (o2 := [_]) (GLeadsOn.leads (.group (.healFails 0 e)) ?_)
        have hst : (⟨⟨⟨{ c with cluster := cl }, []⟩, [(0, ⟨ph, result⟩)]⟩, []⟩ :
            GroupFirst δ).step gcfg cfg (.group (.healFails 0 e)) =
            (.group (.raised e), ⟨⟨⟨{ c with cluster := cl }, []⟩, []⟩, []⟩) := by
          cases ph with
          | asking req => exact absurd rfl (hph req)
          | answered r m => rfl
          | failed => rfl
        rw [hst]
        exact GLeadsOn.over rfl
      | ok u =>
        have := hok _ rfl rfl
        refine hl.trans (GLeadsOn.leads (.group (.goOn 0)) ?_)
        rw [hgo]
        exact this
  · have hh' : c.heal = false := by simpa using hh
    simp only [Grouped.sendEnd, if_neg hh] at herr hok
    exact GLeadsOn.leads (.group (.goOn 0)) (hok _ rfl hh')

theorem commit_alone (gcfg : GCfg) (cfg : CCfg β δ) (env : CommitEnv)
    (hw : (∀ n, (env.send n).write = .none) ∧ ∀ b, cfg.write 0 "offset_commit" b = .none)
    (ht : env.tick = fun _ c => c)
    (result : Option (String × Option (List δ))) (fuel : Nat) :
    ∀ (n : Nat) (md : String) (c : Grouped) (cm : Dict Nat (Committing δ)), cm.erase 0 = [] →
      (∀ v, cm.set 0 v = [(0, v)]) →
      let x := (⟨⟨c, []⟩, cm⟩ : GroupBusy δ).ask cfg 0 md result
      match c.commitLoop env fuel n md with
      | (.running, _) => True
      | (.raised e, c', _) =>
        GLeadsOn gcfg cfg (.group x.1, ⟨x.2, []⟩) [.raised e] ⟨⟨⟨c', []⟩, []⟩, []⟩
      | (.done _, c', _) =>
        GLeadsOn gcfg cfg (.group x.1, ⟨x.2, []⟩) [committedTo result] ⟨⟨⟨c', []⟩, []⟩, []⟩ := by
  induction fuel with
  | zero => intro n md c cm _ _; simp [Grouped.commitLoop]
  | succ fuel ih =>
    intro n md c cm he hset
    unfold Grouped.commitLoop GroupBusy.ask
    simp only [ht]
    cases hm : c.ext.mapping with
    | none => simp only [he]; exact GLeadsOn.over rfl
    | some a =>
      simp only
      rw [sendCoordinator_eq commitHandlers handleCommitResponse (fun _ => rfl)
        (fun h r c => handleCommitTopics_orHeal h r.topics c _) (env.send n) (hw.1 n)]
      simp only
      cases hb : c.ext.coordinator with
      | none => simp only [he]; exact GLeadsOn.over rfl
      | some b =>
        by_cases hc : c.cluster.conns.has b = true
        · simp only [hc, not_true_eq_false, if_false, hset, hw.2]
          generalize hreq : (⟨some b, md, (commitTopics c.ext.toCommit a c.offsets).1⟩ : CommitReq) = req
          generalize hc1 : ({ c with offsets := (commitTopics c.ext.toCommit a c.offsets).2 } : Grouped) = c1
          have hmd : req.metadata = md := by rw [← hreq]
          cases ho : (env.send n).outcome with
          | error e =>
            simp only
            generalize hc2 : (if e = .streamClosed then c1 else { c with offsets := (commitTopics c.ext.toCommit a c.offsets).2, heal := true } : Grouped) = c2
            have hstep : (⟨⟨⟨c1, []⟩, [(0, ⟨.asking req, result⟩)]⟩, []⟩ : GroupFirst δ).step gcfg cfg
                (.group (.fails 0 e)) =
                (.group .nothing, ⟨⟨⟨c2, []⟩, [(0, ⟨.failed, result⟩)]⟩, []⟩) := by
              rw [← hc2, ← hc1]; rfl
            generalize hse : Grouped.sendEnd (ρ := Bool × Bool) (env.send n).healC (.error .keyError) c2 = y
            obtain ⟨res, c3⟩ := y
            cases res with
            | ok x =>
              exfalso
              simp only [Grouped.sendEnd] at hse
              split at hse
              · split at hse <;> cases hse
              · cases hse
            | error e' =>
              simp only
              refine GLeads.on rfl (GLeadsOn.leads (.group (.fails 0 e)) ?_)
              rw [hstep]
              refine GLeads.on rfl (commitSent_alone gcfg cfg (env.send n).healC .failed result c2
                (.error .keyError : Res (Bool × Bool)) (by simp) _ _ ?_ ?_)
              · intro e'' c' h1 h2 h3
                rw [hse] at h1
                cases h1
                exact ⟨rfl, rfl⟩
              · intro c' h1 h2
                rw [hse] at h1
                cases h1
                have : (⟨⟨⟨c3, []⟩, [(0, ⟨.failed, result⟩)]⟩, []⟩ : GroupFirst δ).step gcfg cfg
                    (.group (.goOn 0)) = (.group (.raised .keyError), ⟨⟨⟨c3, []⟩, []⟩, []⟩) := by
                  have h3 : ({ c3 with heal := false } : Grouped) = c3 := by rw [← h2]
                  show (FirstGroupOut.group (.raised .keyError),
                    (⟨⟨⟨{ c3 with heal := false }, []⟩, []⟩, []⟩ : GroupFirst δ)) = _
                  rw [h3]
                rw [this]
                exact GLeadsOn.over rfl
          | ok r =>
            simp only
            cases hr : handleCommitResponse r c1 with
            | mk res c2 =>
              cases res with
              | error e =>
                simp only
                refine GLeads.on rfl (GLeadsOn.leads (.group (.answer 0 r)) ?_)
                have : (⟨⟨⟨c1, []⟩, [(0, ⟨.asking req, result⟩)]⟩, []⟩ : GroupFirst δ).step gcfg cfg
                    (.group (.answer 0 r)) = (.group (.raised e), ⟨⟨⟨c2, []⟩, []⟩, []⟩) := by
                  simp [GroupFirst.step, GroupBusy.step, Dict.get?, hr, Dict.erase]
                rw [this]
                exact GLeadsOn.over rfl
              | ok x =>
                obtain ⟨retry, adjust⟩ := x
                simp only
                generalize hmd' : (if adjust then "" else md) = md'
                have hstep : (⟨⟨⟨c1, []⟩, [(0, ⟨.asking req, result⟩)]⟩, []⟩ : GroupFirst δ).step gcfg cfg
                    (.group (.answer 0 r)) =
                    (.group .nothing, ⟨⟨⟨c2, []⟩, [(0, ⟨.answered retry md', result⟩)]⟩, []⟩) := by
                  simp [GroupFirst.step, GroupBusy.step, Dict.get?, hr, Dict.set, hmd, hmd']
                generalize hse : Grouped.sendEnd (env.send n).healC (.ok (retry, adjust)) c2 = y
                obtain ⟨res, c3⟩ := y
                have key : ∀ outs s',
                    (∀ e, res = .error e → outs = [.raised e] ∧ s' = ⟨⟨⟨c3, []⟩, []⟩, []⟩) →
                    (res = .ok (retry, adjust) → c3.heal = false →
                      GLeadsOn gcfg cfg ((⟨⟨⟨c3, []⟩, [(0, ⟨.answered retry md', result⟩)]⟩, []⟩ :
                        GroupFirst δ).step gcfg cfg (.group (.goOn 0))) outs s') →
                    GLeadsOn gcfg cfg (.group (.asked req),
                      ⟨⟨⟨c1, []⟩, [(0, ⟨.asking req, result⟩)]⟩, []⟩) outs s' := by
                  intro outs s' k1 k2
                  refine GLeads.on rfl (GLeadsOn.leads (.group (.answer 0 r)) ?_)
                  rw [hstep]
                  refine GLeads.on rfl (commitSent_alone gcfg cfg (env.send n).healC _ result c2
                    (.ok (retry, adjust)) (by simp) _ _ ?_ ?_)
                  · intro e c' h1 h2 h3
                    rw [hse] at h1
                    cases h1
                    exact k1 e rfl
                  · intro c' h1 h2
                    rw [hse] at h1
                    cases h1
                    exact k2 rfl h2
                cases res with
                | error e => exact key _ _ (fun e' h => by cases h; exact ⟨rfl, rfl⟩) (fun h => by cases h)
                | ok x =>
                  have hx : x = (retry, adjust) := by
                    simp only [Grouped.sendEnd] at hse
                    split at hse
                    · split at hse
                      · cases hse
                      · cases hse; rfl
                    · cases hse; rfl
                  subst hx
                  simp only
                  cases retry with
                  | false =>
                    simp only [Bool.false_eq_true, if_false]
                    refine key _ _ (fun e h => by cases h) fun _ hh => ?_
                    have h3 : ({ c3 with heal := false } : Grouped) = c3 := by rw [← hh]
                    cases result with
                    | none =>
                      show GLeadsOn gcfg cfg (.group .committed, ⟨⟨⟨{ c3 with heal := false }, []⟩, []⟩, []⟩) _ _
                      rw [h3]
                      exact GLeadsOn.over rfl
                    | some y =>
                      obtain ⟨t, o⟩ := y
                      show GLeadsOn gcfg cfg (.group (.returned t o), ⟨⟨⟨{ c3 with heal := false }, []⟩, []⟩, []⟩) _ _
                      rw [h3]
                      exact GLeadsOn.over rfl
                  | true =>
                    simp only [if_true, hmd']
                    have := ih (n + 1) md' c3 [(0, ⟨.answered true md', result⟩)] rfl (fun _ => rfl)
                    simp only at this
                    cases hl : c3.commitLoop env fuel (n + 1) md' with
                    | mk r1 y =>
                      obtain ⟨c4, reqs⟩ := y
                      rw [hl] at this
                      have hgo : c3.heal = false → (⟨⟨⟨c3, []⟩, [(0, ⟨.answered true md', result⟩)]⟩, []⟩ :
                          GroupFirst δ).step gcfg cfg (.group (.goOn 0)) =
                          (.group ((⟨⟨c3, []⟩, [(0, ⟨.answered true md', result⟩)]⟩ : GroupBusy δ).ask cfg 0 md' result).1,
                            ⟨((⟨⟨c3, []⟩, [(0, ⟨.answered true md', result⟩)]⟩ : GroupBusy δ).ask cfg 0 md' result).2, []⟩) := by
                        intro hh
                        have h3 : ({ c3 with heal := false } : Grouped) = c3 := by rw [← hh]
                        simp [GroupFirst.step, GroupBusy.step, Dict.get?, h3]
                      cases r1 with
                      | running => trivial
                      | raised e =>
                        refine key _ _ (fun e h => by cases h) fun _ hh => ?_
                        rw [hgo hh]
                        exact this
                      | done u =>
                        refine key _ _ (fun e h => by cases h) fun _ hh => ?_
                        rw [hgo hh]
                        exact this
        · simp only [hc]
          simp only [he]
          exact GLeadsOn.over rfl

/-! ### `consume` -/

/-- What is left to do once the `consume` of the base class has come to `res`, with consumer `c`,
leads to `outs` and `s'`. -/
def Rest (gcfg : GCfg) (cfg : CCfg β δ) (topic : String) (res : Res (Option (List δ))) (c : Grouped)
    (outs : List (GroupOut δ)) (s' : GroupFirst δ) : Prop :=
  match res with
  | .error e => outs = [.raised e] ∧ s' = ⟨⟨⟨c, []⟩, []⟩, []⟩
  | .ok out => GLeadsOn gcfg cfg (.group ((⟨⟨c, []⟩, []⟩ : GroupBusy δ).finish gcfg cfg 0 topic out).1,
      ⟨((⟨⟨c, []⟩, []⟩ : GroupBusy δ).finish gcfg cfg 0 topic out).2, []⟩) outs s'

/-- `P` holds of what a `consume` comes to, and of the consumer afterwards, unless it is still
running. -/
def Comes (topic : String) (y : Run (Option (List δ)) × Grouped × List CAct × List CommitReq)
    (P : List (GroupOut δ) → GroupFirst δ → Prop) : Prop :=
  match y.1 with
  | .running => True
  | .raised e => P [.raised e] ⟨⟨⟨y.2.1, []⟩, []⟩, []⟩
  | .done out => P [.returned topic out] ⟨⟨⟨y.2.1, []⟩, []⟩, []⟩

theorem Comes.imp {topic : String} {y : Run (Option (List δ)) × Grouped × List CAct × List CommitReq}
    {P Q : List (GroupOut δ) → GroupFirst δ → Prop} (h : Comes topic y P) (hpq : ∀ a b, P a b → Q a b) :
    Comes topic y Q := by
  unfold Comes at *
  split at h
  · trivial
  · exact hpq _ _ h
  · exact hpq _ _ h

/-- The end of `consume`. -/
theorem finish_alone (gcfg : GCfg) (cfg : CCfg β δ) (env : CommitEnv)
    (hw : (∀ n, (env.send n).write = .none) ∧ ∀ b, cfg.write 0 "offset_commit" b = .none)
    (ht : env.tick = fun _ c => c) (fuel : Nat)
    (topic : String) (out : Option (List δ)) (c : Grouped) (acts : List CAct) :
    Comes topic (if topic ∉ c.synced then (.done (some []), c, acts, [])
      else
        let c : Grouped := { c with ext := { c.ext with toCommit := addSet c.ext.toCommit topic } }
        if gcfg.autocommit then
          match c.commit env fuel gcfg.name .none with
          | (.done _, c, reqs) => (.done out, c, acts, reqs)
          | (.raised e, c, reqs) => (.raised e, c, acts, reqs)
          | (.running, c, reqs) => (.running, c, acts, reqs)
        else (.done out, c, acts, []))
      (Rest gcfg cfg topic (.ok out) c) := by
  unfold Rest GroupBusy.finish
  by_cases hs : topic ∉ c.synced
  · simp only [if_pos hs, Comes]
    exact GLeadsOn.over rfl
  · simp only [if_neg hs]
    by_cases ha : gcfg.autocommit = true
    · simp only [if_pos ha, Grouped.commit, Option.getD]
      have h := commit_alone gcfg cfg env hw ht (some (topic, out)) fuel 0 ("committed by " ++ gcfg.name)
        { c with ext := { c.ext with toCommit := addSet c.ext.toCommit topic } } [] rfl (fun _ => rfl)
      simp only at h
      split at h <;> rename_i hl <;> rw [hl]
      · trivial
      · exact h
      · exact h
    · simp only [if_neg ha, Comes]
      exact GLeadsOn.over rfl

/-- The answers to fetches. -/
theorem gfetch_alone (gcfg : GCfg) (cfg : CCfg β δ) (topic : String)
    (outs : List (Int × Res (FResp β))) :
    ∀ (pending : List FReq) (results : Dict Int (List δ)) (c : Grouped) (heal : Bool),
    c.heal = false → (outs.map (·.1)).Perm (pending.map (·.broker)) →
    (pending.map (·.broker)).Nodup →
    match sendLoop (fetchHandlers cfg) outs results c heal with
    | (.ok res, c', h) => c'.heal = false ∧
        GLeads gcfg cfg ⟨⟨⟨c.orHeal heal, [(0, ⟨topic, pending, results⟩)]⟩, []⟩, []⟩ []
          ⟨⟨⟨c'.orHeal h, [(0, ⟨topic, [], res⟩)]⟩, []⟩, []⟩
    | (.error e, c', h) => c'.heal = false ∧
        GLeads gcfg cfg ⟨⟨⟨c.orHeal heal, [(0, ⟨topic, pending, results⟩)]⟩, []⟩, []⟩ [.raised e]
          ⟨⟨⟨c'.orHeal h, []⟩, []⟩, []⟩ := by
  induction outs with
  | nil =>
    intro pending results c heal hc hp _
    have : pending = [] := by
      have := hp.symm.eq_nil
      simpa using this
    subst this
    exact ⟨hc, GLeads.refl _ _ _⟩
  | cons x outs ih =>
    intro pending results c heal hc hp hn
    obtain ⟨b, r⟩ := x
    obtain ⟨hb, hp', hn'⟩ := perm_left hp hn
    cases r with
    | error e =>
      have hstep : (⟨⟨⟨c.orHeal heal, [(0, ⟨topic, pending, results⟩)]⟩, []⟩, []⟩ :
          GroupFirst δ).step gcfg cfg (.group (.base (.outcome 0 b (.error e)))) =
          (.group .nothing, ⟨⟨⟨c.orHeal (if e = .streamClosed then heal else true),
            [(0, ⟨topic, pending.filter fun q => decide (q.broker ≠ b), results⟩)]⟩, []⟩, []⟩) := by
        simp only [GroupFirst.step, GroupBusy.step, Busy.step, Dict.get?, if_true, hb, not_true, if_false,
          Dict.set]
        split <;> simp [Consumer.orHeal]
      have hl : GLeads gcfg cfg _ [] _ := GLeadsOn.leads (.group (.base (.outcome 0 b (.error e))))
        (by rw [hstep]; exact GLeads.on rfl (GLeads.refl _ _ _))
      have := ih _ results c (if e = .streamClosed then heal else true) hc hp' hn'
      simp only [sendLoop]
      split at this
      · exact ⟨this.1, hl.trans this.2⟩
      · exact ⟨this.1, hl.trans this.2⟩
    | ok r =>
      have hh := handleFetch_orHeal cfg heal r c
      cases hr : handleFetchResponse cfg r c with
      | mk res c1 =>
        rw [hr] at hh
        have hcc : ({ c1 with heal := false } : Grouped).orHeal (heal || c1.heal) =
            c1.orHeal heal := by simp [Consumer.orHeal]
        cases res with
        | error e =>
          have hstep : (⟨⟨⟨c.orHeal heal, [(0, ⟨topic, pending, results⟩)]⟩, []⟩, []⟩ :
              GroupFirst δ).step gcfg cfg (.group (.base (.outcome 0 b (.ok r)))) =
              (.group (.raised e), ⟨⟨⟨c1.orHeal heal, []⟩, []⟩, []⟩) := by
            simp only [GroupFirst.step, GroupBusy.step, Busy.step, Dict.get?, if_true, hb, not_true,
              if_false, hh, Dict.erase]
            simp
          have hsl : sendLoop (fetchHandlers cfg) ((b, .ok r) :: outs) results c heal =
              (.error e, { c1 with heal := false }, heal || c1.heal) := by
            simp only [sendLoop, fetchHandlers, hr]
          rw [hsl]
          simp only
          rw [hcc]
          exact ⟨trivial, GLeadsOn.leads _ (by rw [hstep]; exact GLeadsOn.over rfl)⟩
        | ok x =>
          have hstep : (⟨⟨⟨c.orHeal heal, [(0, ⟨topic, pending, results⟩)]⟩, []⟩, []⟩ :
              GroupFirst δ).step gcfg cfg (.group (.base (.outcome 0 b (.ok r)))) =
              (.group .nothing, ⟨⟨⟨c1.orHeal heal,
                [(0, ⟨topic, pending.filter fun q => decide (q.broker ≠ b),
                  results.set b x⟩)]⟩, []⟩, []⟩) := by
            simp only [GroupFirst.step, GroupBusy.step, Busy.step, Dict.get?, if_true, hb, not_true,
              if_false, hh, Dict.set]
          have hl : GLeads gcfg cfg _ [] _ := GLeadsOn.leads (.group (.base (.outcome 0 b (.ok r))))
            (by rw [hstep]; exact GLeads.on rfl (GLeads.refl _ _ _))
          have hsl : sendLoop (fetchHandlers cfg) ((b, .ok r) :: outs) results c heal =
              sendLoop (fetchHandlers cfg) outs (results.set b x) { c1 with heal := false }
                (heal || c1.heal) := by
            simp only [sendLoop, fetchHandlers, hr]
          rw [hsl]
          have := ih _ (results.set b x) { c1 with heal := false } (heal || c1.heal) rfl hp' hn'
          rw [hcc] at this
          split at this
          · exact ⟨this.1, hl.trans this.2⟩
          · exact ⟨this.1, hl.trans this.2⟩

/-- `consume` from where it sends fetches. -/
theorem gfetchOn_alone (gcfg : GCfg) (cfg : CCfg β δ) (env : ConsumeEnv GExt β)
    (hw : env.write = cfg.write 0 "fetch") (ht : env.tick = fun _ c => c)
    (ho : ∀ reqs, ((env.outcomes reqs).map (·.1)).Perm (reqs.map (·.broker)))
    (topic : String) (parts : List Int) (c : Grouped) (st : Dict Nat GroupPhase)
    (hst : st.erase 0 = []) (outs : List (GroupOut δ)) (s' : GroupFirst δ)
    (hr : Rest gcfg cfg topic (c.fetch cfg env topic parts).1 (c.fetch cfg env topic parts).2.1 outs s') :
    GLeadsOn gcfg cfg ((⟨⟨⟨c, []⟩, []⟩, st⟩ : GroupFirst δ).fetch cfg 0 topic parts) outs s' := by
  unfold Consumer.fetch at hr
  unfold GroupFirst.fetch GroupFirst.leave
  simp only [hst]
  cases hf : c.fetches cfg topic parts with
  | mk res c1 =>
    rw [hf] at hr
    cases res with
    | error e =>
      obtain ⟨rfl, rfl⟩ := hr
      exact GLeadsOn.over rfl
    | ok reqs =>
      obtain ⟨_, _, _, _, _, _, f7, _⟩ := fetches_spec cfg topic parts _ _ _ hf
      simp only [clientSend, hw, ht] at hr ⊢
      cases hss : sendStart (fun l => c1.cluster.conns.has l) (cfg.write 0 "fetch")
          (reqs.map (·.broker)) with
      | some e =>
        simp only [hss] at hr ⊢
        obtain ⟨rfl, rfl⟩ := hr
        exact GLeadsOn.over rfl
      | none =>
        simp only [hss] at hr ⊢
        have hl := gfetch_alone gcfg cfg topic (env.outcomes reqs) reqs [] { c1 with heal := false }
          c1.heal rfl (ho reqs) (f7 _ rfl).brokers
        rw [orHeal_self] at hl
        refine GLeads.on rfl ?_
        cases hsl : sendLoop (fetchHandlers cfg) (env.outcomes reqs) [] { c1 with heal := false }
            c1.heal with
        | mk x y =>
          obtain ⟨c2, h⟩ := y
          rw [hsl] at hl hr
          have hfin : ∀ (c3 : Grouped) (res : Dict Int (List δ)),
              (⟨⟨⟨c3, [(0, ⟨topic, [], res⟩)]⟩, []⟩, []⟩ : GroupFirst δ).step gcfg cfg
                (.group (.base (.finish 0))) =
              (.group ((⟨⟨{ c3 with heal := false }, []⟩, []⟩ : GroupBusy δ).finish gcfg cfg 0 topic
                  (some (res.vals.flatten.filter cfg.truthy))).1,
                ⟨((⟨⟨{ c3 with heal := false }, []⟩, []⟩ : GroupBusy δ).finish gcfg cfg 0 topic
                  (some (res.vals.flatten.filter cfg.truthy))).2, []⟩) := by
            intro c3 res
            simp [GroupFirst.step, GroupBusy.step, Busy.step, Dict.get?, Dict.erase, BEv.number]
          cases x with
          | error e =>
            obtain ⟨h1, h2⟩ := hl
            have : c2.orHeal h = { c2 with heal := h } := by simp [Consumer.orHeal, h1]
            rw [this] at h2
            obtain ⟨rfl, rfl⟩ := hr
            exact h2
          | ok results =>
            obtain ⟨h1, h2⟩ := hl
            have : c2.orHeal h = { c2 with heal := h } := by simp [Consumer.orHeal, h1]
            rw [this] at h2
            cases h with
            | false =>
              refine h2.trans (GLeadsOn.leads (.group (.base (.finish 0))) ?_)
              rw [hfin]
              exact hr
            | true =>
              have hh := h2.trans (gheal_leads gcfg cfg (fun cl => (env.healC cl).2) _ _ _ _)
              simp only at hh hr
              cases hhc : env.healC c2.cluster with
              | mk r cl =>
                rw [hhc] at hh hr
                cases r with
                | error e =>
                  obtain ⟨rfl, rfl⟩ := hr
                  refine hh.trans (o2 := [_]) (GLeadsOn.leads (.group (.base (.healFails 0 e))) ?_)
                  exact GLeadsOn.over rfl
                | ok _ =>
                  refine hh.trans (GLeadsOn.leads (.group (.base (.finish 0))) ?_)
                  rw [hfin]
                  exact hr

/-- `consume` once offsets are known. -/
theorem gproceed_alone (gcfg : GCfg) (cfg : CCfg β δ) (env : ConsumeEnv GExt β)
    (hw : env.write = cfg.write 0 "fetch") (ht : env.tick = fun _ c => c)
    (ho : ∀ reqs, ((env.outcomes reqs).map (·.1)).Perm (reqs.map (·.broker)))
    (topic : String) (c : Grouped) (st : Dict Nat GroupPhase)
    (hst : st.erase 0 = []) (hset : st.set 0 (.healing topic) = [(0, .healing topic)])
    (outs : List (GroupOut δ)) (s' : GroupFirst δ)
    (hr : Rest gcfg cfg topic (c.consumeSynced Grouped.allocation cfg env topic).1
      (c.consumeSynced Grouped.allocation cfg env topic).2.1 outs s') :
    GLeadsOn gcfg cfg ((⟨⟨⟨c, []⟩, []⟩, st⟩ : GroupFirst δ).proceed cfg 0 topic) outs s' := by
  unfold Consumer.consumeSynced at hr
  unfold GroupFirst.proceed
  simp only at hr ⊢
  cases hal : Grouped.allocation c with
  | error e =>
    simp only [hal] at hr ⊢
    obtain ⟨rfl, rfl⟩ := hr
    simp only [GroupFirst.leave, hst]
    exact GLeadsOn.over rfl
  | ok a =>
    simp only [hal] at hr ⊢
    cases ha : allocated a topic with
    | some parts =>
      rw [ha] at hr
      exact gfetchOn_alone gcfg cfg env hw ht ho topic parts c st hst outs s' hr
    | none =>
      simp only [ha, ht] at hr
      simp only [hset]
      refine GLeads.on rfl ?_
      have hh := gheal_leads gcfg cfg (δ := δ) (fun cl => (env.heal cl).2) c [] [] [(0, .healing topic)]
      cases hhc : env.heal c.cluster with
      | mk r cl =>
        rw [hhc] at hh hr
        cases r with
        | error e =>
          obtain ⟨rfl, rfl⟩ := hr
          refine hh.trans (o2 := [_]) (GLeadsOn.leads (.healFails 0 e) ?_)
          exact GLeadsOn.over rfl
        | ok _ =>
          refine hh.trans (GLeadsOn.leads (.healed 0) ?_)
          simp only [GroupFirst.step, Dict.get?, if_true]
          have hal2 : Grouped.allocation ({ c with cluster := cl } : Grouped) = .ok a := hal
          simp only [hal2, ha] at hr ⊢
          exact hr

/-- `determine_offsets` raised `e`: what `consume` comes to. -/
def undeterminedRes (e : Exc) : Res (Option (List δ)) :=
  if e = .noOffsets then .ok (some []) else .error e

theorem undetermined_alone (gcfg : GCfg) (cfg : CCfg β δ) (topic : String) (e : Exc) (c : Grouped)
    (st : Dict Nat GroupPhase) (hst : st.erase 0 = []) (outs : List (GroupOut δ)) (s' : GroupFirst δ)
    (hr : Rest gcfg cfg topic (undeterminedRes e) c outs s') :
    GLeadsOn gcfg cfg ((⟨⟨⟨c, []⟩, []⟩, st⟩ : GroupFirst δ).undetermined gcfg cfg 0 topic e) outs s' := by
  unfold undeterminedRes at hr
  unfold GroupFirst.undetermined
  split
  · rw [if_pos rfl] at hr
    simp only [GroupFirst.leave, hst]
    exact hr
  · rename_i he
    rw [if_neg he] at hr
    obtain ⟨rfl, rfl⟩ := hr
    simp only [GroupFirst.leave, hst]
    exact GLeadsOn.over rfl

/-- The end of the `send` of `determine_offsets`, and what follows. -/
theorem determineSent_alone (gcfg : GCfg) (cfg : CCfg β δ)
    (healC : Cluster → Res Unit × Cluster) (ph : GroupPhase) (topic : String) (c : Grouped)
    {ρ : Type} (res : Res ρ)
    (hph : (∃ p b r, ph = .answered topic p b r) ∨ ph = .failed topic) (outs : List (GroupOut δ))
    (s' : GroupFirst δ)
    (herr : ∀ e c', Grouped.sendEnd healC res c = (.error e, c') →
      (healC c.cluster).1 = .error e → Rest gcfg cfg topic (undeterminedRes e) c' outs s')
    (hok : ∀ c', Grouped.sendEnd healC res c = (res, c') → c'.heal = false →
      GLeadsOn gcfg cfg ((⟨⟨⟨c', []⟩, []⟩, [(0, ph)]⟩ : GroupFirst δ).step gcfg cfg (.goOn 0)) outs s') :
    GLeads gcfg cfg ⟨⟨⟨c, []⟩, []⟩, [(0, ph)]⟩ outs s' := by
  have hgo : ∀ (c' : Grouped), (⟨⟨⟨c', []⟩, []⟩, [(0, ph)]⟩ : GroupFirst δ).step gcfg cfg (.goOn 0) =
      (⟨⟨⟨{ c' with heal := false }, []⟩, []⟩, [(0, ph)]⟩ : GroupFirst δ).step gcfg cfg (.goOn 0) := by
    intro c'
    rcases hph with ⟨p, b, r, rfl⟩ | rfl <;> rfl
  by_cases hh : c.heal = true
  · have hl := gheal_leads gcfg cfg (δ := δ) (fun cl => (healC cl).2) c [] [] [(0, ph)]
    simp only [Grouped.sendEnd, if_pos hh] at herr hok
    cases hhc : healC c.cluster with
    | mk r cl =>
      simp only [hhc] at herr hok hl
      cases r with
      | error e =>
        have := herr e _ rfl rfl
        refine hl.trans (GLeadsOn.leads (.healFails 0 e) ?_)
        have hst : (⟨⟨⟨{ c with cluster := cl }, []⟩, []⟩, [(0, ph)]⟩ : GroupFirst δ).step gcfg cfg
            (.healFails 0 e) = (⟨⟨⟨{ c with cluster := cl }, []⟩, []⟩, [(0, ph)]⟩ :
              GroupFirst δ).undetermined gcfg cfg 0 topic e := by
          rcases hph with ⟨p, b, r, rfl⟩ | rfl <;> rfl
        rw [hst]
        exact undetermined_alone gcfg cfg topic e _ _ rfl outs s' this
      | ok u =>
        have := hok _ rfl rfl
        refine hl.trans (GLeadsOn.leads (.goOn 0) ?_)
        rw [hgo]
        exact this
  · have hh' : c.heal = false := by simpa using hh
    simp only [Grouped.sendEnd, if_neg hh] at herr hok
    exact GLeadsOn.leads (.goOn 0) (hok _ rfl hh')

/-- The loop of `determine_offsets`, and what follows. -/
theorem determineLoop_alone (gcfg : GCfg) (cfg : CCfg β δ) (env : Nat → SendEnv OFResp)
    (hw : (∀ n, (env n).write = .none) ∧ ∀ b, cfg.write 0 "offset_fetch" b = .none)
    (cenv : ConsumeEnv GExt β)
    (hw2 : cenv.write = cfg.write 0 "fetch") (ht : cenv.tick = fun _ c => c)
    (ho : ∀ reqs, ((cenv.outcomes reqs).map (·.1)).Perm (reqs.map (·.broker)))
    (topic : String) (parts : List Int) (outs : List (GroupOut δ)) (s' : GroupFirst δ) (fuel : Nat) :
    ∀ (n : Nat) (c : Grouped) (st : Dict Nat GroupPhase), st.erase 0 = [] →
      (∀ v, st.set 0 v = [(0, v)]) →
      (match Grouped.determineLoop env fuel n c with
        | (.running, _) => False
        | (.raised e, c') => Rest gcfg cfg topic (undeterminedRes e) c' outs s'
        | (.done _, c') =>
          let y := ({ c' with synced := addSet c'.synced topic } : Grouped).consumeSynced
            Grouped.allocation cfg cenv topic
          Rest gcfg cfg topic y.1 y.2.1 outs s') →
      GLeadsOn gcfg cfg ((⟨⟨⟨c, []⟩, []⟩, st⟩ : GroupFirst δ).want cfg 0 topic parts) outs s' := by
  induction fuel with
  | zero => intro n c st _ _ h; simp [Grouped.determineLoop] at h
  | succ fuel ih =>
    intro n c st he hset h
    unfold Grouped.determineLoop at h
    unfold GroupFirst.want
    rw [sendCoordinator_eq offsetFetchHandlers handleOffsetFetchResponse (fun _ => rfl)
        handleOffsetFetch_orHeal (env n) (hw.1 n)] at h
    simp only
    have hraise : ∀ c' : Grouped, Rest gcfg cfg topic (undeterminedRes .keyError) c' outs s' →
        GLeadsOn gcfg cfg (.group (.raised .keyError), (⟨⟨⟨c', []⟩, []⟩, []⟩ : GroupFirst δ)) outs s' := by
      intro c' h
      obtain ⟨rfl, rfl⟩ := h
      exact GLeadsOn.over rfl
    cases hb : c.ext.coordinator with
    | none =>
      simp only [hb] at h ⊢
      simp only [GroupFirst.leave, he]
      exact hraise c h
    | some b =>
      simp only [hb] at h ⊢
      by_cases hc : c.cluster.conns.has b = true
      · simp only [hc, not_true_eq_false, if_false, hset, hw.2] at h ⊢
        refine GLeads.on rfl ?_
        cases hout : (env n).outcome with
        | error e =>
          simp only [hout] at h
          generalize hc2 : (if e = .streamClosed then c else { c with heal := true } : Grouped) = c2 at h
          have hstep : (⟨⟨⟨c, []⟩, []⟩, [(0, .asking topic parts b)]⟩ : GroupFirst δ).step gcfg cfg
              (.offsetsFail 0 e) = (.group .nothing, ⟨⟨⟨c2, []⟩, []⟩, [(0, .failed topic)]⟩) := by
            rw [← hc2]; rfl
          refine GLeadsOn.leads (.offsetsFail 0 e) ?_
          rw [hstep]
          refine GLeads.on rfl (determineSent_alone gcfg cfg (env n).healC _ topic c2
            (.error .keyError : Res Bool) (.inr rfl) outs s' ?_ ?_)
          · intro e' c' h1 _
            simp only [h1] at h
            exact h
          · intro c' h1 h2
            simp only [h1] at h
            have h3 : ({ c' with heal := false } : Grouped) = c' := by rw [← h2]
            show GLeadsOn gcfg cfg (.group (.raised .keyError),
              (⟨⟨⟨{ c' with heal := false }, []⟩, []⟩, []⟩ : GroupFirst δ)) outs s'
            rw [h3]
            exact hraise c' h
        | ok r =>
          simp only [hout] at h
          cases hr : handleOffsetFetchResponse r c with
          | mk res c2 =>
            rw [hr] at h
            cases res with
            | error e =>
              refine GLeadsOn.leads (.offsets 0 r) ?_
              have hstep : (⟨⟨⟨c, []⟩, []⟩, [(0, .asking topic parts b)]⟩ : GroupFirst δ).step gcfg cfg
                  (.offsets 0 r) = (⟨⟨⟨c2, []⟩, []⟩, [(0, .asking topic parts b)]⟩ :
                    GroupFirst δ).undetermined gcfg cfg 0 topic e := by
                simp [GroupFirst.step, Dict.get?, hr]
              rw [hstep]
              exact undetermined_alone gcfg cfg topic e _ _ rfl outs s' h
            | ok retry =>
              refine GLeadsOn.leads (.offsets 0 r) ?_
              have hstep : (⟨⟨⟨c, []⟩, []⟩, [(0, .asking topic parts b)]⟩ : GroupFirst δ).step gcfg cfg
                  (.offsets 0 r) =
                  (.group .nothing, ⟨⟨⟨c2, []⟩, []⟩, [(0, .answered topic parts b retry)]⟩) := by
                simp [GroupFirst.step, Dict.get?, hr, Dict.set]
              rw [hstep]
              have hext : ∀ c', Grouped.sendEnd (env n).healC (.ok retry) c2 = (.ok retry, c') →
                  c'.ext.coordinator = some b := by
                intro c' h1
                have h2 : c2.ext = c.ext := handleOffsetFetch_ext hr
                simp only [Grouped.sendEnd] at h1
                split at h1
                · split at h1
                  · cases h1
                  · cases h1; rw [← hb, ← h2]
                · cases h1; rw [← hb, ← h2]
              refine GLeads.on rfl (determineSent_alone gcfg cfg (env n).healC _ topic c2
                (.ok retry) (.inl ⟨_, _, _, rfl⟩) outs s' ?_ ?_)
              · intro e' c' h1 _
                simp only [h1] at h
                exact h
              · intro c' h1 h2
                have hco := hext c' h1
                simp only [h1] at h
                have h3 : ({ c' with heal := false } : Grouped) = c' := by rw [← h2]
                cases retry with
                | true =>
                  have := ih (n + 1) c' [(0, .answered topic parts b true)] rfl (fun _ => rfl) h
                  have hs2 : (⟨⟨⟨c', []⟩, []⟩, [(0, .answered topic parts b true)]⟩ :
                      GroupFirst δ).step gcfg cfg (.goOn 0) =
                      (⟨⟨⟨c', []⟩, []⟩, [(0, .answered topic parts b true)]⟩ :
                        GroupFirst δ).want cfg 0 topic parts := by
                    simp [GroupFirst.step, Dict.get?, hco, h3]
                  rw [hs2]
                  exact this
                | false =>
                  have hs2 : (⟨⟨⟨c', []⟩, []⟩, [(0, .answered topic parts b false)]⟩ :
                      GroupFirst δ).step gcfg cfg (.goOn 0) =
                      (⟨⟨⟨{ c' with synced := addSet c'.synced topic }, []⟩, []⟩,
                        [(0, .answered topic parts b false)]⟩ : GroupFirst δ).proceed cfg 0 topic := by
                    simp [GroupFirst.step, Dict.get?, hco, h2]
                  rw [hs2]
                  exact gproceed_alone gcfg cfg cenv hw2 ht ho topic _ _ rfl rfl outs s' h
      · simp only [hc] at h ⊢
        simp only [GroupFirst.leave, he]
        exact hraise c h

/-- The two models of a `GroupedConsumer`'s `consume` agree: from a consumer of which nothing is
under way, there are events that lead to the end of one `consume`, which comes to what
`Grouped.consume` says, and to the consumer that it says; unless that does not end. -/
theorem consume_alone_grouped (gcfg : GCfg) (cfg : CCfg β δ) (env : GroupEnv β) (fuel : Nat)
    (hw1 : (∀ n, (env.offsets n).write = .none) ∧ ∀ b, cfg.write 0 "offset_fetch" b = .none)
    (hw2 : env.base.write = cfg.write 0 "fetch")
    (hw3 : (∀ n, (env.commit.send n).write = .none) ∧ ∀ b, cfg.write 0 "offset_commit" b = .none)
    (ht2 : env.base.tick = fun _ c => c) (ht3 : env.commit.tick = fun _ c => c)
    (ho : ∀ reqs, ((env.base.outcomes reqs).map (·.1)).Perm (reqs.map (·.broker)))
    (topic : String) (c : Grouped) :
    Comes topic (Grouped.consume gcfg cfg env fuel topic c)
      (GLeads gcfg cfg (⟨⟨⟨c, []⟩, []⟩, []⟩ : GroupFirst δ)) := by
  unfold Grouped.consume
  by_cases hrun : c.closing = false ∧ topic ∉ c.synced ∧ (c.determine cfg.plain env.offsets fuel topic).1 = .running
  · rw [if_pos hrun]
    trivial
  · rw [if_neg hrun]
    have key : ∀ outs s',
        Rest gcfg cfg topic (Consumer.consume Grouped.allocation
          (Grouped.determineRes cfg.plain env.offsets fuel topic) cfg env.base topic c).1
          (Consumer.consume Grouped.allocation
          (Grouped.determineRes cfg.plain env.offsets fuel topic) cfg env.base topic c).2.1 outs s' →
        GLeads gcfg cfg (⟨⟨⟨c, []⟩, []⟩, []⟩ : GroupFirst δ) outs s' := by
      intro outs s' hr
      refine GLeadsOn.leads (.call 0 topic) ?_
      unfold Consumer.consume at hr
      simp only [GroupFirst.step]
      by_cases hcl : c.closing = true
      · simp only [if_pos hcl] at hr ⊢
        exact hr
      · simp only [if_neg hcl] at hr ⊢
        by_cases hs : topic ∈ c.synced
        · simp only [if_pos hs] at hr ⊢
          exact gproceed_alone gcfg cfg env.base hw2 ht2 ho topic c [] rfl rfl outs s' hr
        · simp only [if_neg hs] at hr ⊢
          have hnr : (c.determine cfg.plain env.offsets fuel topic).1 ≠ .running := fun h =>
            hrun ⟨by simpa using hcl, hs, h⟩
          unfold Grouped.determineRes at hr
          unfold Grouped.determine at hr hnr
          unfold GroupFirst.determine
          simp only [ht2] at hr ⊢
          cases hm : c.ext.mapping with
          | none =>
            simp only [hm, Run.toRes] at hr ⊢
            obtain ⟨rfl, rfl⟩ := hr
            exact GLeadsOn.over rfl
          | some a =>
            simp only [hm] at hr hnr ⊢
            by_cases hp : cfg.plain = true ∧ a.has topic = false
            · simp only [if_pos hp, Run.toRes] at hr ⊢
              obtain ⟨rfl, rfl⟩ := hr
              exact GLeadsOn.over rfl
            simp only [if_neg hp] at hr hnr ⊢
            refine determineLoop_alone gcfg cfg env.offsets hw1 env.base hw2 ht2 ho topic _ outs s'
              fuel 0 _ [] rfl (fun _ => rfl) ?_
            cases hl : Grouped.determineLoop env.offsets fuel 0
                { c with ext := { c.ext with mapping := some (a.getDefault topic []).1 } } with
            | mk r c' =>
              rw [hl] at hr hnr
              cases r with
              | running => exact absurd rfl hnr
              | raised e =>
                simp only [Run.toRes] at hr ⊢
                unfold undeterminedRes
                cases e <;> exact hr
              | done u =>
                simp only [Run.toRes] at hr ⊢
                exact hr
    cases hc : Consumer.consume Grouped.allocation
        (Grouped.determineRes cfg.plain env.offsets fuel topic) cfg env.base topic c with
    | mk res y =>
      obtain ⟨c', acts⟩ := y
      rw [hc] at key
      cases res with
      | error e => exact key _ _ ⟨rfl, rfl⟩
      | ok out =>
        exact (finish_alone gcfg cfg env.commit hw3 ht3 fuel topic out c' acts).imp key

/-- Broker 7 leads partition 0 of topic t, which is allocated to the consumer, and is the
coordinator. -/
def exAlone : Grouped :=
  ⟨⟨[(7, ⟨"h", 9092, false⟩)], [("t", [0])], [("t", [(0, 7)])]⟩, [], [], false, false,
    ⟨some 7, [], some [("t", [0])]⟩⟩

/-- The coordinator has to load the offsets first, the offset is 3, the fetch finds one message,
and the metadata of the commit is too large. -/
def exAloneEnv : GroupEnv Nat where
  offsets n := ⟨.ok ⟨[("t", [⟨0, 3, if n = 0 then 14 else 0⟩])]⟩, .none, fun cl => (.ok (), cl)⟩
  base := ⟨fun reqs => reqs.map fun q =>
      (q.broker, .ok ⟨[(q.topic, q.parts.map fun f => ⟨f.id, 0, [(f.offset, 8)]⟩)]⟩),
    fun _ => .none, fun cl => (.ok (), cl), fun cl => (.ok (), cl), fun _ c => c⟩
  commit := ⟨fun n => ⟨.ok ⟨[("t", [(0, if n = 0 then 12 else 0)])]⟩, .none, fun cl => (.ok (), cl)⟩,
    fun _ c => c⟩

-- Non-vacuity of `consume_alone_grouped`: a first `consume`.
example : GLeads ⟨"me", true⟩ exCCfg (⟨⟨⟨exAlone, []⟩, []⟩, []⟩ : GroupFirst Nat)
    [.returned "t" (some [8])]
    ⟨⟨⟨{ exAlone with offsets := [("t", [(0, 4)])], synced := ["t"] }, []⟩, []⟩, []⟩ := by
  have h := consume_alone_grouped ⟨"me", true⟩ exCCfg exAloneEnv 3 ⟨fun _ => rfl, fun _ => rfl⟩ rfl
    ⟨fun _ => rfl, fun _ => rfl⟩    rfl rfl (fun reqs => by simp [exAloneEnv, Function.comp_def]) "t" exAlone
  have h1 : (Grouped.consume ⟨"me", true⟩ exCCfg exAloneEnv 3 "t" exAlone).1 = .done (some [8]) := by
    decide +kernel
  have h2 : (Grouped.consume ⟨"me", true⟩ exCCfg exAloneEnv 3 "t" exAlone).2.1 =
      { exAlone with offsets := [("t", [(0, 4)])], synced := ["t"] } := by decide +kernel
  unfold Comes at h
  rw [h1, h2] at h
  exact h

end Kiel
