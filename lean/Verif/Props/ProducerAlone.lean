import Verif.Props.Produces
import Verif.Props.Alone
/-
The models of a producer's calls agree: calls that may overlap, one of them alone, and `flush`,
`produce` and `close` as functions.
-/
set_option autoImplicit false
namespace Kiel
open Spec

variable {α κ β γ : Type}

/-! ### Handlers and the flag -/

/-- The producer, with the flag set if `h` is. -/
def Producer.orHeal (h : Bool) (p : Producer κ β) : Producer κ β := { p with heal := h || p.heal }

theorem handlePart_orHeal (h : Bool) (p : Producer κ β) (corr : Int) (t : String) (part code : Int) :
    (p.orHeal h).handlePart corr t part code =
      ((p.handlePart corr t part code).1, (p.handlePart corr t part code).2.orHeal h) := by
  generalize hx : p.handlePart corr t part code = x
  unfold Producer.handlePart at hx ⊢
  split at hx
  · rename_i hc; rw [if_pos hc, ← hx]
  · rename_i hc
    rw [if_neg hc]
    split at hx
    · rename_i hr
      rw [if_pos hr]
      dsimp only [Producer.orHeal] at hx ⊢
      split at hx
      · rw [← hx]
      · rw [← hx]; simp [Producer.queueRetries]
    · rename_i hr
      rw [if_neg hr]
      split at hx
      · rw [← hx]
      · rw [← hx]

theorem handleParts_orHeal (h : Bool) (corr : Int) (l : List (String × Int × Int))
    (p : Producer κ β) :
    Producer.handleParts corr l (p.orHeal h) =
      ((Producer.handleParts corr l p).1, (Producer.handleParts corr l p).2.orHeal h) := by
  induction l generalizing p with
  | nil => rfl
  | cons x l ih =>
    obtain ⟨t, part, code⟩ := x
    simp only [Producer.handleParts, handlePart_orHeal]
    cases hp : p.handlePart corr t part code with
    | mk r p1 =>
      cases r with
      | error e => rfl
      | ok u => exact ih p1

theorem handleTopics_orHeal (h : Bool) (corr : Int) (l : List (String × List (Int × Int)))
    (p : Producer κ β) :
    Producer.handleTopics corr l (p.orHeal h) =
      ((Producer.handleTopics corr l p).1, (Producer.handleTopics corr l p).2.orHeal h) := by
  induction l generalizing p with
  | nil => rfl
  | cons x l ih =>
    obtain ⟨t, parts⟩ := x
    simp only [Producer.handleTopics, handleParts_orHeal]
    cases hp : Producer.handleParts corr (parts.map fun a => (t, a.1, a.2)) p with
    | mk r p1 =>
      cases r with
      | error e => rfl
      | ok u => exact ih p1

theorem handleResponse_orHeal (h : Bool) (p : Producer κ β) (r : PResp) :
    (p.orHeal h).handleResponse r = ((p.handleResponse r).1, (p.handleResponse r).2.orHeal h) := by
  unfold Producer.handleResponse
  rw [handleTopics_orHeal]
  cases hp : Producer.handleTopics r.corr r.topics p with
  | mk x p1 =>
    cases x with
    | error e => rfl
    | ok u =>
      show (if p1.sent.has r.corr then _ else _) = _
      by_cases hs : p1.sent.has r.corr = true
      · simp only [hs, if_true]; rfl
      · simp only [hs]; rfl

/-! ### Courses of one call -/

/-- What a call comes to, if this is its end. -/
def ProduceOut.ends : ProduceOut γ → Option (Res Unit)
  | .returned => some (.ok ())
  | .raised e _ => some (.error e)
  | _ => .none

/-- There are events that lead from `s` to `s'`, in which calls come to `outs`, in order. -/
def CallLeads (cfg : PCfg α κ β) (s : ProducerBusy α κ β γ) (outs : List (Res Unit))
    (s' : ProducerBusy α κ β γ) : Prop :=
  ∃ es, (seenIn cfg s es).filterMap ProduceOut.ends = outs ∧ afterCalls cfg s es = s'

theorem seenIn_append (cfg : PCfg α κ β) (s : ProducerBusy α κ β γ) (a b : List (ProduceEv α κ β γ)) :
    seenIn cfg s (a ++ b) = seenIn cfg s a ++ seenIn cfg (afterCalls cfg s a) b := by
  induction a generalizing s with
  | nil => rfl
  | cons e a ih => simp only [List.cons_append, seenIn, afterCalls, ih]

theorem CallLeads.refl (cfg : PCfg α κ β) (s : ProducerBusy α κ β γ) : CallLeads cfg s [] s :=
  ⟨[], rfl, rfl⟩

theorem CallLeads.step {cfg : PCfg α κ β} {s s' : ProducerBusy α κ β γ} (e : ProduceEv α κ β γ)
    {out : ProduceOut γ} (h : s.step cfg e = (out, s')) :
    CallLeads cfg s ([out].filterMap ProduceOut.ends) s' :=
  ⟨[e], by simp only [seenIn, h], by simp only [afterCalls, h]⟩

theorem CallLeads.trans {cfg : PCfg α κ β} {s s1 s2 : ProducerBusy α κ β γ}
    {o1 o2 : List (Res Unit)} (h1 : CallLeads cfg s o1 s1) (h2 : CallLeads cfg s1 o2 s2) :
    CallLeads cfg s (o1 ++ o2) s2 := by
  obtain ⟨e1, rfl, rfl⟩ := h1
  obtain ⟨e2, rfl, rfl⟩ := h2
  exact ⟨e1 ++ e2, by rw [seenIn_append, List.filterMap_append], by rw [afterCalls_append]⟩

/-- The answers carry the correlation ids of the requests they answer (kiel/connection.py:148-151), and
each request has one outcome. -/
def Answers (reqs : List (PReq γ)) (outs : List (Int × Res PResp)) : Prop :=
  (outs.map (·.1)).Perm (reqs.map (·.broker)) ∧
  ∀ b r, (b, .ok r) ∈ outs → ∀ q ∈ reqs, q.broker = b → r.corr = q.corr

theorem find_broker {reqs : List (PReq γ)} {b : Int} (h : b ∈ reqs.map (·.broker)) :
    ∃ q, reqs.find? (fun q => decide (q.broker = b)) = some q ∧ q ∈ reqs ∧ q.broker = b := by
  cases hf : reqs.find? (fun q => decide (q.broker = b)) with
  | none =>
    obtain ⟨q, hq, rfl⟩ := List.mem_map.1 h
    have := List.find?_eq_none.1 hf q hq
    simp at this
  | some q =>
    refine ⟨q, rfl, List.mem_of_find?_eq_some hf, ?_⟩
    simpa using List.find?_some hf

/-- The answers to the requests of one call. -/
theorem answers_alone (cfg : PCfg α κ β) (stop : Bool) (outs : List (Int × Res PResp)) :
    ∀ (left : List (PReq γ)) (results : Dict Int Unit) (p : Producer κ β) (heal : Bool),
    p.heal = false → Answers left outs → (left.map (·.broker)).Nodup →
    match sendLoop producerHandlers outs results p heal with
    | (.ok _, p', h) => p'.heal = false ∧
        CallLeads cfg (⟨p.orHeal heal, [(0, .sending left stop)]⟩ : ProducerBusy α κ β γ) []
          ⟨p'.orHeal h, [(0, .sending [] stop)]⟩
    | (.error e, p', h) => p'.heal = false ∧
        CallLeads cfg (⟨p.orHeal heal, [(0, .sending left stop)]⟩ : ProducerBusy α κ β γ) [.error e]
          ⟨p'.orHeal h, []⟩ := by
  induction outs with
  | nil =>
    intro left results p heal hp ha _
    have : left = [] := by
      have := ha.1.symm.eq_nil
      simpa using this
    subst this
    exact ⟨hp, CallLeads.refl _ _⟩
  | cons x outs ih =>
    intro left results p heal hp ha hn
    obtain ⟨b, r⟩ := x
    obtain ⟨hb, hp', hn'⟩ := perm_left ha.1 hn
    obtain ⟨q, hf, hq, hqb⟩ := find_broker hb
    have ha' : Answers (left.filter fun q => decide (q.broker ≠ b)) outs :=
      ⟨hp', fun b' r' hm q' hq' => ha.2 b' r' (List.mem_cons_of_mem _ hm) q' (List.mem_filter.1 hq').1⟩
    cases r with
    | error e =>
      have hstep : (⟨p.orHeal heal, [(0, .sending left stop)]⟩ : ProducerBusy α κ β γ).step cfg
          (.outcome 0 b (.error e)) =
          (.nothing, ⟨p.orHeal (if e = .streamClosed then heal else true),
            [(0, .sending (left.filter fun q => decide (q.broker ≠ b)) stop)]⟩) := by
        simp only [ProducerBusy.step, Dict.get?, if_true, hf, Dict.set]
        split <;> simp [Producer.orHeal]
      have hl := CallLeads.step _ hstep
      have := ih _ results p (if e = .streamClosed then heal else true) hp ha' hn'
      simp only [sendLoop]
      split at this
      · exact ⟨this.1, hl.trans this.2⟩
      · exact ⟨this.1, hl.trans this.2⟩
    | ok r =>
      have hrq : (⟨q.corr, r.topics⟩ : PResp) = r := by
        rw [← ha.2 b r List.mem_cons_self q hq hqb]
      have hh := handleResponse_orHeal heal p r
      cases hr : p.handleResponse r with
      | mk res p1 =>
        rw [hr] at hh
        have hcc : ({ p1 with heal := false } : Producer κ β).orHeal (heal || p1.heal) =
            p1.orHeal heal := by simp [Producer.orHeal]
        cases res with
        | error e =>
          have hstep : (⟨p.orHeal heal, [(0, .sending left stop)]⟩ : ProducerBusy α κ β γ).step cfg
              (.outcome 0 b (.ok r.topics)) = (.raised e [], ⟨p1.orHeal heal, []⟩) := by
            simp only [ProducerBusy.step, Dict.get?, if_true, hf, hrq, hh, ProducerBusy.fails,
              Dict.erase]
            simp
          have hsl : sendLoop producerHandlers ((b, .ok r) :: outs) results p heal =
              (.error e, { p1 with heal := false }, heal || p1.heal) := by
            simp only [sendLoop, producerHandlers, hr]
          rw [hsl]
          simp only
          rw [hcc]
          exact ⟨trivial, CallLeads.step _ hstep⟩
        | ok x =>
          have hstep : (⟨p.orHeal heal, [(0, .sending left stop)]⟩ : ProducerBusy α κ β γ).step cfg
              (.outcome 0 b (.ok r.topics)) = (.nothing, ⟨p1.orHeal heal,
                [(0, .sending (left.filter fun q => decide (q.broker ≠ b)) stop)]⟩) := by
            simp only [ProducerBusy.step, Dict.get?, if_true, hf, hrq, hh, Dict.set]
          have hl := CallLeads.step _ hstep
          have hsl : sendLoop producerHandlers ((b, .ok r) :: outs) results p heal =
              sendLoop producerHandlers outs (results.set b x) { p1 with heal := false }
                (heal || p1.heal) := by
            simp only [sendLoop, producerHandlers, hr]
          rw [hsl]
          have := ih _ (results.set b x) { p1 with heal := false } (heal || p1.heal) rfl ha' hn'
          rw [hcc] at this
          split at this
          · exact ⟨this.1, hl.trans this.2⟩
          · exact ⟨this.1, hl.trans this.2⟩

/-- The beginning of the environment of a whole flush. -/
def FlushEnv.start (env : FlushEnv κ β γ) : FlushStart κ β γ := ⟨env.pick, env.comp, env.write⟩

/-- What `cluster.stop()` does, if it is called. -/
def Producer.stopped (stop : Bool) (p : Producer κ β) : Producer κ β :=
  if stop then { p with cluster := p.cluster.stop } else p

/-- The producer after a flush, and `cluster.stop()` if it is to be called and the flush did not raise.
-/
def afterFlush (stop : Bool) (r : Res Unit × Producer κ β × List (PReq γ)) : Producer κ β :=
  match r.1 with
  | .ok _ => r.2.1.stopped stop
  | .error _ => r.2.1

/-- An event that has led to `x` is followed by others, in which the call comes to `out` and the producer
to be `p'`, no call being under way then. -/
def GoesOn (cfg : PCfg α κ β) (x : ProduceOut γ × ProducerBusy α κ β γ) (out : Res Unit)
    (p' : Producer κ β) : Prop :=
  ∃ outs, [out] = [x.1].filterMap ProduceOut.ends ++ outs ∧ CallLeads cfg x.2 outs ⟨p', []⟩

theorem GoesOn.leads {cfg : PCfg α κ β} {s : ProducerBusy α κ β γ} {out : Res Unit}
    {p' : Producer κ β} (e : ProduceEv α κ β γ) (h : GoesOn cfg (s.step cfg e) out p') :
    CallLeads cfg s [out] ⟨p', []⟩ := by
  obtain ⟨outs, h1, h2⟩ := h
  rw [h1]
  exact (CallLeads.step e rfl).trans h2

theorem flushes_alone (cfg : PCfg α κ β) (env : FlushEnv κ β γ) (stop : Bool) (p : Producer κ β)
    (calls : Dict Nat (Producing α γ)) (hcalls : calls.erase 0 = [] ∧ ∀ w, calls.set 0 w = [(0, w)])
    (hw : WF p)
    (ho : ∀ reqs p', p.prepare env.pick env.comp = (.ok (some reqs), p') →
      Answers reqs (env.outcomes reqs)) :
    GoesOn cfg ((⟨p, calls⟩ : ProducerBusy α κ β γ).flushes 0 env.start stop)
      (p.flush env).1 (afterFlush stop (p.flush env)) := by
  unfold ProducerBusy.flushes Producer.flush
  simp only [FlushEnv.start]
  cases hp : p.prepare env.pick env.comp with
  | mk res p1 =>
    cases res with
    | error e =>
      refine ⟨[], rfl, ?_⟩
      simp only [ProducerBusy.fails, hcalls.1, afterFlush]
      exact CallLeads.refl _ _
    | ok o =>
      cases o with
      | none =>
        refine ⟨[], rfl, ?_⟩
        simp only [ProducerBusy.over, hcalls.1, afterFlush]
        exact CallLeads.refl _ _
      | some reqs =>
        simp only [clientSend]
        cases hs : sendStart (fun b => p1.cluster.conns.has b) env.write (reqs.map (·.broker)) with
        | some e =>
          refine ⟨[], rfl, ?_⟩
          simp only [ProducerBusy.fails, hcalls.1, afterFlush]
          exact CallLeads.refl _ _
        | none =>
          simp only
          have hn := (prepare_reqs hw hp).2.2
          have ha := ho reqs p1 hp
          have h := answers_alone (α := α) cfg stop (env.outcomes reqs) reqs []
            { p1 with heal := false } p1.heal rfl ha hn
          have hp1 : ({ p1 with heal := false } : Producer κ β).orHeal p1.heal = p1 := by
            simp [Producer.orHeal]
          rw [hp1] at h
          rw [hcalls.2]
          cases hl : sendLoop producerHandlers (env.outcomes reqs) [] { p1 with heal := false } p1.heal with
          | mk res x =>
            obtain ⟨p2, flag⟩ := x
            rw [hl] at h
            cases res with
            | error e =>
              simp only at h ⊢
              refine ⟨[.error e], rfl, ?_⟩
              have : ({ p2 with heal := flag } : Producer κ β) = p2.orHeal flag := by
                simp [Producer.orHeal, h.1]
              simp only [afterFlush, this]
              exact h.2
            | ok results =>
              simp only at h
              have h2 : ({ p2 with heal := flag } : Producer κ β) = p2.orHeal flag := by
                simp [Producer.orHeal, h.1]
              cases flag with
              | false =>
                simp only
                refine ⟨[.ok ()], rfl, ?_⟩
                have hstep : (⟨p2.orHeal false, [(0, .sending [] stop)]⟩ : ProducerBusy α κ β γ).step
                    cfg (.goOn 0) = (.returned, ⟨(p2.orHeal false).stopped stop, []⟩) := by
                  simp only [ProducerBusy.step, Dict.get?, if_true, Producer.orHeal, h.1, Bool.or_self,
                    Bool.false_eq_true, if_false, ProducerBusy.over, Dict.erase, Producer.stopped]
                  simp
                simp only [afterFlush, h2]
                exact h.2.trans (CallLeads.step _ hstep)
              | true =>
                simp only
                have hstep : (⟨p2.orHeal true, [(0, .sending [] stop)]⟩ : ProducerBusy α κ β γ).step
                    cfg (.goOn 0) = (.heals, ⟨p2.orHeal true, [(0, .healing stop)]⟩) := by
                  simp [ProducerBusy.step, Dict.get?, Producer.orHeal, Dict.set]
                have hcl : (⟨p2.orHeal true, [(0, .healing stop)]⟩ : ProducerBusy α κ β γ).step cfg
                    (.cluster (env.healC p2.cluster).2) =
                    (.nothing, ⟨({ p2 with cluster := (env.healC p2.cluster).2 } :
                      Producer κ β).orHeal true, [(0, .healing stop)]⟩) := rfl
                have hto := h.2.trans ((CallLeads.step _ hstep).trans (CallLeads.step _ hcl))
                cases hh : (env.healC p2.cluster).1 with
                | error e =>
                  simp only
                  refine ⟨[.error e], rfl, ?_⟩
                  have hend : (⟨({ p2 with cluster := (env.healC p2.cluster).2 } :
                      Producer κ β).orHeal true, [(0, .healing stop)]⟩ : ProducerBusy α κ β γ).step cfg
                      (.healed 0 (.error e)) = (.raised e [], ⟨({ p2 with
                        cluster := (env.healC p2.cluster).2 } : Producer κ β).orHeal true, []⟩) := by
                    simp [ProducerBusy.step, Dict.get?, ProducerBusy.fails, Dict.erase]
                  have h3 : CallLeads cfg _ [.error e] _ := hto.trans (CallLeads.step _ hend)
                  simpa [afterFlush, Producer.orHeal] using h3
                | ok u =>
                  simp only
                  refine ⟨[.ok ()], rfl, ?_⟩
                  have hend : (⟨({ p2 with cluster := (env.healC p2.cluster).2 } :
                      Producer κ β).orHeal true, [(0, .healing stop)]⟩ : ProducerBusy α κ β γ).step cfg
                      (.healed 0 (.ok u)) = (.returned, ⟨({ p2 with
                        cluster := (env.healC p2.cluster).2, heal := false } :
                          Producer κ β).stopped stop, []⟩) := by
                    simp [ProducerBusy.step, Dict.get?, ProducerBusy.over, Dict.erase,
                      Producer.orHeal, Producer.stopped]
                  have h3 : CallLeads cfg _ [.ok ()] _ := hto.trans (CallLeads.step _ hend)
                  simpa [afterFlush] using h3

/-- `flush` as a function is what a `flush` alone does. -/
theorem flush_alone (cfg : PCfg α κ β) (env : FlushEnv κ β γ) (p : Producer κ β) (hw : WF p)
    (ho : ∀ reqs p', p.prepare env.pick env.comp = (.ok (some reqs), p') →
      Answers reqs (env.outcomes reqs)) :
    CallLeads cfg (⟨p, []⟩ : ProducerBusy α κ β γ) [(p.flush env).1] ⟨(p.flush env).2.1, []⟩ := by
  have h := flushes_alone (α := α) cfg env false p [] ⟨rfl, fun _ => rfl⟩ hw ho
  have h2 : afterFlush false (p.flush env) = (p.flush env).2.1 := by
    unfold afterFlush Producer.stopped; split <;> rfl
  rw [h2] at h
  exact GoesOn.leads (.flush 0 env.start) h

/-- `close` as a function is what a `close` alone does. -/
theorem close_alone (cfg : PCfg α κ β) (env : FlushEnv κ β γ) (p : Producer κ β) (hw : WF p)
    (ho : ∀ reqs p', ({ p with closing := true } : Producer κ β).prepare env.pick env.comp =
      (.ok (some reqs), p') → Answers reqs (env.outcomes reqs)) :
    CallLeads cfg (⟨p, []⟩ : ProducerBusy α κ β γ) [(p.close env).1] ⟨(p.close env).2.1, []⟩ := by
  have h := flushes_alone (α := α) cfg env true { p with closing := true } [] ⟨rfl, fun _ => rfl⟩
    ⟨hw.nodup, hw.old, hw.topics⟩ ho
  refine GoesOn.leads (.close 0 env.start) ?_
  have h2 : afterFlush true (({ p with closing := true } : Producer κ β).flush env) =
      (p.close env).2.1 ∧ (({ p with closing := true } : Producer κ β).flush env).1 =
        (p.close env).1 := by
    unfold afterFlush Producer.stopped Producer.close
    cases ({ p with closing := true } : Producer κ β).flush env with
    | mk r x => cases r <;> exact ⟨rfl, rfl⟩
  rw [h2.1, h2.2] at h
  exact h

theorem queues_alone (cfg : PCfg α κ β) (env : FlushEnv κ β γ) (p : Producer κ β)
    (calls : Dict Nat (Producing α γ)) (hcalls : calls.erase 0 = [] ∧ ∀ w, calls.set 0 w = [(0, w)])
    (topic : String) (message : α) (hw : WF p)
    (ho : ∀ (p0 : Producer κ β) reqs p', p0.prepare env.pick env.comp = (.ok (some reqs), p') →
      Answers reqs (env.outcomes reqs)) :
    GoesOn cfg ((⟨p, calls⟩ : ProducerBusy α κ β γ).queues cfg 0 topic message env.start)
      (match p.enqueue cfg topic message with
        | (.error e, p) => ((.error e, p, []) : Res Unit × Producer κ β × List (PReq γ))
        | (.ok true, p) => p.flush env
        | (.ok false, p) => (.ok (), p, [])).1
      (match p.enqueue cfg topic message with
        | (.error e, p) => ((.error e, p, []) : Res Unit × Producer κ β × List (PReq γ))
        | (.ok true, p) => p.flush env
        | (.ok false, p) => (.ok (), p, [])).2.1 := by
  unfold ProducerBusy.queues
  simp only
  cases he : p.enqueue cfg topic message with
  | mk r p1 =>
    have hw1 : WF p1 := by
      obtain ⟨g1, _, g3, _⟩ := enqueue_others cfg p topic message
      rw [he] at g1 g3
      have g1 : p1.lastId = p.lastId := g1
      have g3 : p1.sent = p.sent := g3
      exact ⟨by rw [g3]; exact hw.nodup, by rw [g1, g3]; exact hw.old, by rw [g3]; exact hw.topics⟩
    cases r with
    | error e =>
      refine ⟨[], rfl, ?_⟩
      simp only [ProducerBusy.fails, hcalls.1]
      exact CallLeads.refl _ _
    | ok full =>
      cases full with
      | false =>
        refine ⟨[], rfl, ?_⟩
        simp only [ProducerBusy.over, hcalls.1]
        exact CallLeads.refl _ _
      | true =>
        have h := flushes_alone (α := α) cfg env false p1 calls hcalls hw1 (ho p1)
        have h2 : afterFlush false (p1.flush env) = (p1.flush env).2.1 := by
          unfold afterFlush Producer.stopped; split <;> rfl
        rw [h2] at h
        exact h

/-- `produce` as a function is what a `produce` alone does. -/
theorem produce_alone (cfg : PCfg α κ β) (env : FlushEnv κ β γ) (p : Producer κ β) (hw : WF p)
    (ho : ∀ (p0 : Producer κ β) reqs p', p0.prepare env.pick env.comp = (.ok (some reqs), p') →
      Answers reqs (env.outcomes reqs)) (topic : String) (message : α) :
    CallLeads cfg (⟨p, []⟩ : ProducerBusy α κ β γ)
      [(p.produce cfg env topic message).1] ⟨(p.produce cfg env topic message).2.1, []⟩ := by
  refine GoesOn.leads (.produce 0 topic message env.start) ?_
  unfold Producer.produce
  simp only [ProducerBusy.step, Dict.has, Dict.get?, Option.isSome_none, Bool.false_eq_true, if_false]
  by_cases hc : p.closing = true
  · simp only [hc, if_true]
    exact ⟨[], rfl, CallLeads.refl _ _⟩
  · simp only [if_neg hc]
    by_cases ht : p.cluster.topics.has topic = true
    · simp only [Dict.has] at ht
      simp only [ht, if_true, not_true, if_false]
      exact queues_alone cfg env p [] ⟨rfl, fun _ => rfl⟩ topic message hw ho
    · simp only [Dict.has, Bool.not_eq_true] at ht
      simp only [ht, Bool.false_eq_true, if_false]
      have hcl : (⟨p, [(0, .finding topic message)]⟩ : ProducerBusy α κ β γ).step cfg
          (.cluster (env.healC p.cluster).2) = (.nothing,
            ⟨{ p with cluster := (env.healC p.cluster).2 }, [(0, .finding topic message)]⟩) := rfl
      have hgo : ∀ (r : Res Unit) (out : Res Unit) (p' : Producer κ β),
          GoesOn cfg ((⟨{ p with cluster := (env.healC p.cluster).2 }, [(0, .finding topic message)]⟩ :
            ProducerBusy α κ β γ).step cfg (.found 0 r env.start)) out p' →
          GoesOn cfg ((ProduceOut.heals, ⟨p, [(0, .finding topic message)]⟩) :
            ProduceOut γ × ProducerBusy α κ β γ) out p' := by
        intro r out p' h
        exact ⟨[out], rfl, (CallLeads.step _ hcl).trans (GoesOn.leads _ h)⟩
      have hset : (Dict.set ([] : Dict Nat (Producing α γ)) 0 (.finding topic message)) =
          [(0, .finding topic message)] := rfl
      rw [hset]
      cases hh : (env.healC p.cluster).1 with
      | error e =>
        refine hgo (.error e) _ _ ⟨[], ?_, ?_⟩
        · simp only [ProducerBusy.step, Dict.get?, if_true, ProducerBusy.fails]
          rfl
        · simp only [ProducerBusy.step, Dict.get?, if_true, ProducerBusy.fails, Dict.erase]
          simp
          exact CallLeads.refl _ _
      | ok u =>
        refine hgo (.ok u) _ _ ?_
        simp only [ProducerBusy.step, Dict.get?, if_true, Dict.has]
        by_cases h2 : ((env.healC p.cluster).2.topics.get? topic).isSome = true
        · simp only [h2, if_true, not_true, if_false]
          refine queues_alone cfg env { p with cluster := (env.healC p.cluster).2 }
            [(0, .finding topic message)] ⟨by simp [Dict.erase], fun w => by simp [Dict.set]⟩
            topic message ⟨hw.nodup, hw.old, hw.topics⟩ ho
        · simp only [Bool.not_eq_true] at h2
          simp only [h2, Bool.false_eq_true, if_false, not_false_eq_true, if_true]
          refine ⟨[], rfl, ?_⟩
          simp only [ProducerBusy.over, Dict.erase]
          simp
          exact CallLeads.refl _ _

-- A concrete case: three messages in one request, answered with success.
example : CallLeads exPCfg (⟨exProducer, []⟩ : ProducerBusy Nat Nat Nat (List (Msg Nat Nat)))
    [.ok ()] ⟨{ exProducer with unsent := [], lastId := 42 }, []⟩ := by
  refine flush_alone exPCfg (exFlush (exPAnswer 0)) exProducer ⟨by decide, by decide, by decide⟩ ?_
  intro reqs p' h
  have h2 : (exProducer.prepare (exFlush (exPAnswer 0)).pick (exFlush (exPAnswer 0)).comp).1 =
      .ok (some [⟨7, 42, [("t", [(1, [⟨1, 11⟩, ⟨1, 31⟩]), (0, [⟨0, 20⟩])])]⟩]) := by decide +kernel
  rw [h] at h2
  cases h2
  refine ⟨by decide +kernel, ?_⟩
  intro b r hm q hq _
  simp only [exFlush, exPAnswer, List.map_cons, List.map_nil, List.mem_singleton, Prod.mk.injEq,
    Except.ok.injEq] at hm hq
  rw [hm.2, hq]

end Kiel
