import Verif.Props.Connection
/-
C92: requests that brokers do not answer.
-/
set_option autoImplicit false
namespace Kiel
open Spec
variable (cx : Codec) (depth : Nat)

/-- What happens on a healthy connection on which request number `i` is not answered:
requests are sent, writes complete, and other requests are answered, intelligibly. -/
inductive Spec.Uneventful (i : Nat) (c : Conn) : ConnEv → Prop
  | send (r : Req) : Uneventful i c (.send r .queued)
  | written : Uneventful i c (.writeDone .none)
  | answer (j : Nat) (r : Req) (p : Bytes) (v : Val) (hj : j ≠ i) (hp : Pending c j)
      (hr : c.sent[j]? = some r) (hv : AnswerReads cx depth r.cls.api p (.ok v)) :
      Uneventful i c (.deliver r.correlationId p)

/-- `later` is a sequence of such events. -/
def Spec.UneventfulAfter (i : Nat) (evs later : List ConnEv) : Prop :=
  ∀ a ev b, later = a ++ ev :: b →
    Uneventful cx depth i (Conn.init.run cx depth (evs ++ a)) ev

/-- A produce request with `required_acks=0`, which brokers do not answer. -/
def Spec.WantsNoAnswer (r : Req) : Prop :=
  r.cls.api = "produce" ∧ ("required_acks", Val.int 0) ∈ r.attrs

/-- **C92** as one would like it: once such a request is written, the caller gets on. -/
def Spec.FireAndForget : Prop :=
  ∀ evs i r, Unambiguous cx depth evs → (Conn.init.run cx depth evs).closing = false →
    Pending (Conn.init.run cx depth evs) i → (Conn.init.run cx depth evs).sent[i]? = some r →
    WantsNoAnswer r →
    ∃ later o, UneventfulAfter cx depth i evs later ∧ Unambiguous cx depth (evs ++ later) ∧
      SettledAs (Conn.init.run cx depth (evs ++ later)) i o

/-- **C92** (partial): a request is outstanding for as long as it is not answered and nothing
goes wrong with the connection, whatever it asks for. -/
theorem C92_waits (evs later : List ConnEv) (hd : Unambiguous cx depth (evs ++ later))
    (ho : (Conn.init.run cx depth evs).closing = false) (i : Nat)
    (hp : Pending (Conn.init.run cx depth evs) i)
    (hq : UneventfulAfter cx depth i evs later) :
    Pending (Conn.init.run cx depth (evs ++ later)) i ∧
      (Conn.init.run cx depth (evs ++ later)).closing = false := by
  induction later using List.reverseRecOn with
  | nil => simpa using ⟨hp, ho⟩
  | append_singleton later ev ih =>
    have hd' : Unambiguous cx depth (evs ++ later) := by
      intro before r w after he
      exact hd before r w (after ++ [ev]) (by rw [← List.append_assoc, he]; simp)
    obtain ⟨h1, h2⟩ := ih hd' (fun a e b h => hq a e (b ++ [ev]) (by rw [h]; simp))
    have hev := hq later ev [] rfl
    rw [← List.append_assoc]
    cases hev with
    | send r =>
      rw [run_snoc]
      have hlt := (List.getElem?_eq_some_iff.1 h1).1
      simp only [Conn.step]
      rcases send_cases (Conn.init.run cx depth (evs ++ later)) r .queued with
        ⟨h, _⟩ | ⟨_, e, h⟩ | ⟨_, p, b, _, _, ⟨_, h⟩ | ⟨e, h, _⟩⟩
      · rw [h] at h2; cases h2
      · rw [h]; exact ⟨h1, h2⟩
      · rw [h]
        exact ⟨by simp only [Pending, List.getElem?_append_left hlt]; exact h1, h2⟩
      · cases h
    | written =>
      rw [run_snoc]
      exact ⟨h1, h2⟩
    | answer j r p v hj hp' hr hv =>
      obtain ⟨_, h3, h4⟩ := C14_answered cx depth (evs ++ later) hd' j r p v h2 hp' hr hv
      exact ⟨by unfold Pending; rw [h3 i (Ne.symm hj)]; exact h1, h4⟩

/-- A produce request without messages, with `required_acks=0`. -/
def exNoAcks : Req := ⟨Schema.produceRequest,
  [("required_acks", .int 0), ("timeout", .int 500), ("topics", .list []),
   ("client_id", .str clientId), ("api_key", .int 0),
   ("api_version", .int 0), ("correlation_id", .int 7)], 7⟩

def exForgotten : List ConnEv := [.send exNoAcks .queued]

theorem exForgotten_unambiguous : Unambiguous cx depth exForgotten := by
  intro before r w after he i r' hp hr'
  match before, he with
  | [], _ => simp [Conn.run, Conn.init] at hr'
  | _ :: before, he => simp [exForgotten] at he
theorem exForgotten_open : (Conn.init.run cx 5 exForgotten).closing = false := by krfl
theorem exForgotten_pending : Pending (Conn.init.run cx 5 exForgotten) 0 := by
  unfold Pending; krfl
theorem exForgotten_sent : (Conn.init.run cx 5 exForgotten).sent[0]? = some exNoAcks := by krfl

/-- **C92** is false: the caller waits for an answer that does not come. -/
theorem C92_false : ¬ FireAndForget cx 5 := by
  intro h
  obtain ⟨later, o, h1, h2, h3⟩ := h exForgotten 0 exNoAcks (exForgotten_unambiguous cx 5)
    (exForgotten_open cx) (exForgotten_pending cx) (exForgotten_sent cx) ⟨rfl, by simp [exNoAcks]⟩
  have := (C92_waits cx 5 exForgotten later h2 (exForgotten_open cx) 0 (exForgotten_pending cx)
    h1).1
  unfold Pending at this
  unfold SettledAs at h3
  rw [h3] at this
  cases this

-- Non-vacuity of C92_waits: the write completes, another request is sent and answered.
example (cx : Codec) : UneventfulAfter cx 5 0 exForgotten
    [.writeDone .none, .send (exReq 8) .queued, .deliver 8 exAnswer] := by
  intro a ev b h
  match a, h with
  | [], h => cases h; exact .written
  | [_], h => cases h; exact .send _
  | [_, _], h =>
    simp only [List.cons_append, List.nil_append, List.cons.injEq] at h
    obtain ⟨rfl, rfl, rfl, rfl⟩ := h
    exact .answer 1 (exReq 8) exAnswer (.part [("error_code", .int 0), ("coordinator_id", .int 3),
      ("coordinator_host", .str "h"), ("coordinator_port", .int 9)]) (by simp) (by unfold Pending; krfl) (by krfl)
      ⟨by decide +kernel, _, doc_mem 15 rfl, rfl, rfl, by krfl⟩
  | _ :: _ :: _ :: a, h => simp at h

end Kiel
