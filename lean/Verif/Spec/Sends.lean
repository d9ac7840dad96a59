import Verif.Model.Sends
import Verif.Model.Grouped
import Verif.Model.Single
import Verif.Spec.Codes
/-
What the properties of `send`s that run at the same time speak of.
-/
set_option autoImplicit false
namespace Kiel.Spec
open Kiel

variable {σ R ρ : Type}

/-- What a course of events of the `send`s of a client shows, one entry for each event. -/
def sendCourse (hs : Handlers σ R ρ) (known : σ → Int → Bool) :
    Sends σ ρ → List (SEv σ R) → List (SOut ρ) × Sends σ ρ
  | s, [] => ([], s)
  | s, e :: es =>
    ((s.step hs known e).1 :: (sendCourse hs known (s.step hs known e).2 es).1,
      (sendCourse hs known (s.step hs known e).2 es).2)

/-- What a request comes to asks for a look at the cluster: it fails, other than by its connection
being closed, or it is answered in a way that asks for one. -/
def Trouble (Asks : R → Prop) : Res R → Prop
  | .error e => e ≠ .streamClosed
  | .ok r => Asks r

/-- Request to `b` is outstanding in `send` number `i`. -/
def Outstanding (s : Sends σ ρ) (i : Nat) (b : Int) : Prop :=
  ∃ left results, s.sends.get? i = some (.looping left results) ∧ b ∈ left

/-- No `send` is in its `heal()`. -/
def NoneHealing (s : Sends σ ρ) : Prop := ∀ i results, s.sends.get? i ≠ some (.healing results)

/-- When there is trouble, and nobody is healing, and the handler does not raise, then no `send`
returns before a `heal()` has begun, whatever happens.  `Clean` is about parts of the model's state
that are not used here. -/
def HealsAfter (hs : Handlers σ R ρ) (known : σ → Int → Bool) (Asks : R → Prop)
    (Clean : σ → Prop) : Prop :=
  ∀ (s : Sends σ ρ) (i : Nat) (b : Int) (r : Res R), Clean s.client → NoneHealing s →
    Outstanding s i b → Trouble Asks r → (s.step hs known (.outcome i b r)).1 = .nothing →
    ∀ (es : List (SEv σ R)) (pre post : List (SOut ρ)) (j : Nat) (res : Dict Int ρ),
      (sendCourse hs known (s.step hs known (.outcome i b r)).2 es).1 = pre ++ .returned j res :: post →
      ∃ k, SOut.healBegins k ∈ pre

/-- When there is trouble, and the handler does not raise, or has met the trouble before it does, then
no `send` returns before a `heal()` has returned: those that raise do not count.  `Met` tells that a
handler meets trouble whether or not it raises later on. -/
def HealedBefore (hs : Handlers σ R ρ) (known : σ → Int → Bool) (Asks Met : R → Prop)
    (Clean : σ → Prop) : Prop :=
  ∀ (s : Sends σ ρ) (i : Nat) (b : Int) (r : Res R), Clean s.client → Outstanding s i b →
    (Trouble Asks r ∧ (s.step hs known (.outcome i b r)).1 = .nothing ∨ ∃ x, r = .ok x ∧ Met x) →
    ∀ (es : List (SEv σ R)) (pre post : List (SOut ρ)) (j : Nat) (res : Dict Int ρ),
      (sendCourse hs known (s.step hs known (.outcome i b r)).2 es).1 = pre ++ .returned j res :: post →
      ∃ k, SEv.healed k (.ok ()) ∈ es.take (pre.length + 1)

/-- When a `heal()` begins there was trouble before, or a `send` raised. -/
def HealsOnlyAfter (hs : Handlers σ R ρ) (known : σ → Int → Bool) (Asks : R → Prop)
    (Clean : σ → Prop) : Prop :=
  ∀ (s : Sends σ ρ) (es : List (SEv σ R)) (pre post : List (SOut ρ)) (k : Nat),
    s.flag = false → Clean s.client → (∀ f, SEv.other f ∈ es → ∀ c, Clean c → Clean (f c)) →
    (sendCourse hs known s es).1 = pre ++ .healBegins k :: post →
    (∃ i e, SOut.raised i e ∈ pre) ∨
      ∃ i b r, SEv.outcome i b r ∈ es.take pre.length ∧ Trouble Asks r

/-- A partition of the first topic has a retriable code; those before it have known ones. -/
def FetchMet {β : Type} (r : FResp β) : Prop :=
  ∃ t pre q post more, r.topics = (t, pre ++ q :: post) :: more ∧ Retriable q.code ∧
    ∀ x ∈ pre, KnownCode x.code

/-- A partition of the first topic has a retriable code; those before it have offsets, or retriable
codes. -/
def OffsetMet (r : OResp) : Prop :=
  ∃ t pre q post more, r.topics = (t, pre ++ q :: post) :: more ∧ Retriable q.code ∧
    ∀ x ∈ pre, Retriable x.code ∨ x.code = 0 ∧ x.offsets ≠ []

/-- A partition of the first topic has a retriable code, other than "offsets load in progress"; those
before it have offsets, or retriable codes. -/
def OffsetFetchMet (r : OFResp) : Prop :=
  ∃ t pre q post more, r.topics = (t, pre ++ q :: post) :: more ∧ (Retriable q.code ∧ q.code ≠ 14) ∧
    ∀ x ∈ pre, Retriable x.code ∨ x.code = 0

/-- A partition has a retriable code; those before it, of whatever topic, have known ones. -/
def CommitMet (r : CommitResp) : Prop :=
  ∃ before t pre q post more, r.topics = before ++ (t, pre ++ q :: post) :: more ∧ Retriable q.2 ∧
    (∀ x ∈ pre, KnownCode x.2) ∧ ∀ y ∈ before, ∀ x ∈ y.2, KnownCode x.2

/-- What the requests of `send` number `i` came to, in order. -/
def cameTo (i : Nat) (es : List (SEv σ R)) : List (Int × Res R) :=
  es.filterMap fun e =>
    match e with
    | .outcome j b r => if j = i then some (b, r) else .none
    | _ => .none

end Kiel.Spec
