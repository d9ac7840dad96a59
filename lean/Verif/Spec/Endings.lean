import Verif.Model.Sends
import Verif.Model.FirstConsumes
import Verif.Model.FirstGrouped
/-
What it takes to say that every call ends once.
-/
set_option autoImplicit false
namespace Kiel.Spec

variable {σ R ρ β δ : Type}

/-- How a system is observed: events, some of which are calls (with a number), and what is seen at
each, which may be the end of a call; `busy s i`: number `i` is in use. -/
structure Watched (S E O : Type) where
  step : S → E → O × S
  calls : E → Option Nat
  ends : E → O → Option Nat
  busy : S → Nat → Bool

variable {S E O : Type}

/-- What is seen in a course of events, and the state at its end. -/
def Watched.watch (w : Watched S E O) : S → List E → List (E × O) × S
  | s, [] => ([], s)
  | s, e :: es => ((e, (w.step s e).1) :: (w.watch (w.step s e).2 es).1, (w.watch (w.step s e).2 es).2)

/-- Whoever calls uses a number that is not in use. -/
def Watched.NumbersFree (w : Watched S E O) : S → List E → Prop
  | _, [] => True
  | s, e :: es => (∀ i, w.calls e = some i → w.busy s i = false) ∧ w.NumbersFree (w.step s e).2 es

/-- How often number `i` was called. -/
def Watched.called (w : Watched S E O) (i : Nat) (l : List (E × O)) : Nat :=
  l.countP fun x => decide (w.calls x.1 = some i)

/-- How often a call with number `i` has ended. -/
def Watched.ended (w : Watched S E O) (i : Nat) (l : List (E × O)) : Nat :=
  l.countP fun x => decide (w.ends x.1 x.2 = some i)

/-- In every course of events that begins with no call under way, and at every point of it: calls with
the same number have all ended, once each, but for the last one, if that is still under way.  `Idle`:
no call is under way. -/
def EndsOnce (w : Watched S E O) (Idle : S → Prop) : Prop :=
  ∀ (s : S) (es : List E) (i : Nat), Idle s → w.NumbersFree s es →
    w.ended i (w.watch s es).1 + (w.busy (w.watch s es).2 i).toNat = w.called i (w.watch s es).1

/-- Whatever state the system is in: a call that is under way can be brought to its end by events out of
`own i` alone, which are about that call. -/
def NeverStuck (w : Watched S E O) (own : Nat → E → Prop) : Prop :=
  ∀ (s : S) (i : Nat), w.busy s i = true →
    ∃ es : List E, (∀ e ∈ es, own i e ∧ w.calls e = .none) ∧ 1 ≤ w.ended i (w.watch s es).1

/-- `send`s. -/
def watchSends (hs : Handlers σ R ρ) (known : σ → Int → Bool) : Watched (Sends σ ρ) (SEv σ R) (SOut ρ) where
  step := Sends.step hs known
  calls
    | .send i _ _ => some i
    | _ => .none
  ends _
    | .returned i _ => some i
    | .raised i _ => some i
    | _ => .none
  busy s i := s.sends.has i

/-- The number of the `consume` that an event is about. -/
def whose : FirstEv β → Option Nat
  | .call i _ _ _ => some i
  | .offsets i _ _ => some i
  | .determined i => some i
  | .healed i => some i
  | .healFails i _ => some i
  | .base (.outcome i _ _) => some i
  | .base (.finish i) => some i
  | .base (.healFails i _) => some i
  | .base (.consume _ _) => .none
  | .base (.other _) => .none

/-- `consume`s of a `SingleConsumer`. -/
def watchSingle (cfg : CCfg β δ) : Watched (SingleBusy δ) (FirstEv β) (FirstOut δ) where
  step := SingleBusy.step cfg
  calls
    | .call i _ _ _ => some i
    | _ => .none
  ends e
    | .returned _ _ => whose e
    | .raised _ => whose e
    | _ => .none
  busy s i := s.starting.has i || s.base.waiting.has i

/-- The number of the `consume` or `commit_offsets` that an event is about. -/
def whoseCall : FirstGroupEv β → Option Nat
  | .call i _ => some i
  | .offsets i _ => some i
  | .offsetsFail i _ => some i
  | .goOn i => some i
  | .healed i => some i
  | .healFails i _ => some i
  | .group (.base (.outcome i _ _)) => some i
  | .group (.base (.finish i)) => some i
  | .group (.base (.healFails i _)) => some i
  | .group (.base (.consume _ _)) => .none
  | .group (.base (.other _)) => .none
  | .group (.commit k _) => some k
  | .group (.answer k _) => some k
  | .group (.fails k _) => some k
  | .group (.goOn k) => some k
  | .group (.healFails k _) => some k

/-- `consume`s and `commit_offsets`s of a `GroupedConsumer`. -/
def watchGrouped (gcfg : GCfg) (cfg : CCfg β δ) :
    Watched (GroupFirst δ) (FirstGroupEv β) (FirstGroupOut δ) where
  step := GroupFirst.step gcfg cfg
  calls
    | .call i _ => some i
    | .group (.commit k _) => some k
    | _ => .none
  ends e
    | .group (.returned _ _) => whoseCall e
    | .group .committed => whoseCall e
    | .group (.raised _) => whoseCall e
    | _ => .none
  busy s i := s.starting.has i || s.group.base.waiting.has i || s.group.commits.has i

end Kiel.Spec
