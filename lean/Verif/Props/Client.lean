import Verif.Model.Client
import Verif.Lemmas.Dict
import Mathlib.Data.List.Nodup
import Mathlib.Data.List.Perm.Basic
/-
C25, C26: `Client.send`.
-/
set_option autoImplicit false
namespace Kiel

variable {σ R ρ : Type}

/-- The handler of every response that may come in exists and does not raise. -/
def Spec.Handled (hs : Handlers σ R ρ) : Prop :=
  ∀ r, ∃ f, hs.handle r = some f ∧ ∀ s, ∃ x, (f s).1 = .ok x

/-- The state after the responses among `outcomes` were handled, in that order; starting
from `s`. -/
def Spec.stateAfter (hs : Handlers σ R ρ) (outcomes : List (Int × Res R)) (s : σ) : σ :=
  outcomes.foldl (fun s o =>
    match o.2 with
    | .ok r => match hs.handle r with
      | some f => (f s).2.1
      | .none => s
    | .error _ => s) s

/-- Some request failed with an error other than `StreamClosedError`, or some handler asked
for the cluster to be healed. -/
def Spec.WantsHeal (hs : Handlers σ R ρ) (outcomes : List (Int × Res R)) (s : σ) : Prop :=
  (∃ o ∈ outcomes, ∃ e, o.2 = .error e ∧ e ≠ .streamClosed) ∨
  ∃ pre b r post f, outcomes = pre ++ (b, .ok r) :: post ∧ hs.handle r = some f ∧
    (f (Spec.stateAfter hs pre s)).2.2 = true

open Spec

theorem sendLoop_spec (hs : Handlers σ R ρ) (hh : Handled hs) (outcomes : List (Int × Res R))
    (results : Dict Int ρ) (s : σ) (heal : Bool)
    (hn : (outcomes.map (·.1)).Nodup) (hr : results.keys.Nodup)
    (hd : ∀ o ∈ outcomes, o.1 ∉ results.keys) :
    ∃ out, sendLoop hs outcomes results s heal =
        (.ok (results ++ out), stateAfter hs outcomes s, (sendLoop hs outcomes results s heal).2.2) ∧
      out.keys = (outcomes.filter (fun o => o.2.isOk)).map (·.1) ∧
      (∀ b x, (b, x) ∈ out ↔ ∃ pre r post f, outcomes = pre ++ (b, .ok r) :: post ∧
        hs.handle r = some f ∧ (f (stateAfter hs pre s)).1 = .ok x) ∧
      ((sendLoop hs outcomes results s heal).2.2 = true ↔
        heal = true ∨ WantsHeal hs outcomes s) := by
  induction outcomes generalizing results s heal with
  | nil => exact ⟨[], by simp [sendLoop, stateAfter], by simp [Dict.keys], by simp,
      by simp [sendLoop, WantsHeal]⟩
  | cons o rest ih =>
    obtain ⟨b, r⟩ := o
    simp only [List.map_cons, List.nodup_cons] at hn
    cases r with
    | error e =>
      obtain ⟨out, h1, h2, h3, h4⟩ := ih results s (if e = .streamClosed then heal else true)
        hn.2 hr (fun o ho => hd o (List.mem_cons_of_mem _ ho))
      refine ⟨out, ?_, ?_, ?_, ?_⟩
      · rw [sendLoop]; exact h1
      · rw [h2]; simp [Except.isOk, Except.toBool]
      · intro b' x
        rw [h3]
        constructor
        · rintro ⟨pre, r, post, f, rfl, hf, hx⟩
          exact ⟨(b, .error e) :: pre, r, post, f, rfl, hf, hx⟩
        · rintro ⟨pre, r, post, f, he, hf, hx⟩
          cases pre with
          | nil => simp at he
          | cons p pre =>
            simp only [List.cons_append, List.cons.injEq] at he
            obtain ⟨rfl, rfl⟩ := he
            exact ⟨pre, r, post, f, rfl, hf, hx⟩
      · rw [sendLoop, h4]
        constructor
        · rintro (h | h | ⟨pre, b', r, post, f, rfl, hf, hx⟩)
          · split at h
            · exact Or.inl h
            · rename_i he
              exact Or.inr (Or.inl ⟨(b, .error e), by simp, e, rfl, he⟩)
          · obtain ⟨o, ho, h⟩ := h
            exact Or.inr (Or.inl ⟨o, List.mem_cons_of_mem _ ho, h⟩)
          · exact Or.inr (Or.inr ⟨(b, .error e) :: pre, b', r, post, f, rfl, hf, hx⟩)
        · rintro (h | h | ⟨pre, b', r, post, f, he, hf, hx⟩)
          · left; split <;> simp [h]
          · obtain ⟨o, ho, e', ho', he'⟩ := h
            rcases List.mem_cons.1 ho with rfl | ho
            · simp only [Except.error.injEq] at ho'
              subst ho'
              left; rw [if_neg he']
            · exact Or.inr (Or.inl ⟨o, ho, e', ho', he'⟩)
          · cases pre with
            | nil => simp at he
            | cons p pre =>
              simp only [List.cons_append, List.cons.injEq] at he
              obtain ⟨rfl, rfl⟩ := he
              exact Or.inr (Or.inr ⟨pre, b', r, post, f, rfl, hf, hx⟩)
    | ok r =>
      obtain ⟨f, hf, hok⟩ := hh r
      obtain ⟨x, hx⟩ := hok s
      have hb : b ∉ results.keys := hd (b, .ok r) (by simp)
      have hfs : f s = (.ok x, (f s).2.1, (f s).2.2) := by rw [← hx]
      have hset : results.set b x = results ++ [(b, x)] := Dict.set_of_not_mem hb
      obtain ⟨out, h1, h2, h3, h4⟩ := ih (results ++ [(b, x)]) (f s).2.1
        (heal || (f s).2.2) hn.2
        (by rw [← hset]; exact Dict.nodup_set hr _ _)
        (by
          intro o ho hk
          simp only [Dict.keys, List.map_append, List.map_cons, List.map_nil, List.mem_append,
            List.mem_singleton] at hk
          rcases hk with hk | hk
          · exact hd o (List.mem_cons_of_mem _ ho) hk
          · exact hn.1 (List.mem_map.2 ⟨o, ho, hk⟩))
      have hun : sendLoop hs ((b, .ok r) :: rest) results s heal =
          sendLoop hs rest (results ++ [(b, x)]) (f s).2.1 (heal || (f s).2.2) := by
        rw [sendLoop, hf]
        simp only
        rw [hfs]
        simp only [hset]
      have hst : ∀ l, stateAfter hs ((b, .ok r) :: l) s = stateAfter hs l (f s).2.1 := by
        intro l
        simp [stateAfter, hf]
      refine ⟨(b, x) :: out, ?_, ?_, ?_, ?_⟩
      · rw [hun, hst]
        simpa using h1
      · simp only [Dict.keys, List.map_cons] at h2 ⊢
        rw [h2]
        simp [Except.isOk, Except.toBool]
      · intro b' x'
        simp only [List.mem_cons, Prod.mk.injEq, h3]
        constructor
        · rintro (⟨rfl, rfl⟩ | ⟨pre, r', post, f', rfl, hf', hx'⟩)
          · exact ⟨[], r, rest, f, rfl, hf, hx⟩
          · exact ⟨(b, .ok r) :: pre, r', post, f', rfl, hf', by rw [hst]; exact hx'⟩
        · rintro ⟨pre, r', post, f', he, hf', hx'⟩
          cases pre with
          | nil =>
            simp only [List.nil_append, List.cons.injEq, Prod.mk.injEq, Except.ok.injEq] at he
            obtain ⟨⟨rfl, rfl⟩, rfl⟩ := he
            rw [hf] at hf'; cases hf'
            simp only [stateAfter, List.foldl_nil] at hx'
            rw [hx] at hx'
            exact Or.inl ⟨rfl, by cases hx'; rfl⟩
          | cons p pre =>
            simp only [List.cons_append, List.cons.injEq] at he
            obtain ⟨rfl, rfl⟩ := he
            exact Or.inr ⟨pre, r', post, f', rfl, hf', by rw [← hst]; exact hx'⟩
      · rw [hun, h4]
        constructor
        · rintro (h | h | ⟨pre, b', r', post, f', rfl, hf', hx'⟩)
          · rw [Bool.or_eq_true] at h
            rcases h with h | h
            · exact Or.inl h
            · exact Or.inr (Or.inr ⟨[], b, r, rest, f, rfl, hf, h⟩)
          · obtain ⟨o, ho, h⟩ := h
            exact Or.inr (Or.inl ⟨o, List.mem_cons_of_mem _ ho, h⟩)
          · exact Or.inr (Or.inr ⟨(b, .ok r) :: pre, b', r', post, f', rfl, hf',
              by rw [hst]; exact hx'⟩)
        · rintro (h | h | ⟨pre, b', r', post, f', he, hf', hx'⟩)
          · left; simp [h]
          · obtain ⟨o, ho, e', ho', he'⟩ := h
            rcases List.mem_cons.1 ho with rfl | ho
            · simp at ho'
            · exact Or.inr (Or.inl ⟨o, ho, e', ho', he'⟩)
          · cases pre with
            | nil =>
              simp only [List.nil_append, List.cons.injEq, Prod.mk.injEq, Except.ok.injEq] at he
              obtain ⟨⟨rfl, rfl⟩, rfl⟩ := he
              rw [hf] at hf'; cases hf'
              left
              simp only [stateAfter, List.foldl_nil] at hx'
              simp [hx']
            | cons p pre =>
              simp only [List.cons_append, List.cons.injEq] at he
              obtain ⟨rfl, rfl⟩ := he
              exact Or.inr (Or.inr ⟨pre, b', r', post, f', rfl, hf', by rw [← hst]; exact hx'⟩)

theorem sendStart_none (known : Int → Bool) (write : Int → Option Exc) (bs : List Int)
    (hk : ∀ b ∈ bs, known b = true) (hw : ∀ b ∈ bs, write b = .none) :
    sendStart known write bs = .none := by
  induction bs with
  | nil => rfl
  | cons b bs ih =>
    simp only [List.mem_cons, forall_eq_or_imp] at hk hw
    simp [sendStart, hk.1, hw.1, ih hk.2 hw.2]

/-- **C25**: whatever the order in which the requests are settled and whichever of them fail:
`send` returns a dictionary with exactly one entry per broker that answered, holding what the
handler returned for that broker's response (called on the state that the responses before it
left), and all responses have been handled. (`hheal`: if the cluster needs healing, that
succeeds.) -/
theorem C25_results (hs : Handlers σ R ρ) (hh : Handled hs) (known : Int → Bool)
    (write : Int → Option Exc) (healC : σ → Res Unit × σ) (requests : List Int)
    (hreq : requests.Nodup) (hk : ∀ b ∈ requests, known b = true)
    (hw : ∀ b ∈ requests, write b = .none) (outcomes : List (Int × Res R))
    (hperm : (outcomes.map (·.1)).Perm requests) (s : σ) (heal : Bool)
    (hheal : ∀ s, (healC s).1 = .ok ()) :
    ∃ results rest, clientSend hs known write healC requests outcomes s heal =
        (.ok results, rest) ∧
      results.keys.Nodup ∧
      (∀ b, b ∈ results.keys ↔ ∃ r, (b, .ok r) ∈ outcomes) ∧
      (∀ b x, (b, x) ∈ results ↔ ∃ pre r post f, outcomes = pre ++ (b, .ok r) :: post ∧
        hs.handle r = some f ∧ (f (stateAfter hs pre s)).1 = .ok x) ∧
      (rest.1 = stateAfter hs outcomes s ∨
        rest.1 = (healC (stateAfter hs outcomes s)).2) := by
  have hn : (outcomes.map (·.1)).Nodup := hperm.nodup_iff.2 hreq
  obtain ⟨out, h1, h2, h3, h4⟩ := sendLoop_spec hs hh outcomes [] s heal hn (by simp [Dict.keys])
    (by simp [Dict.keys])
  rw [List.nil_append] at h1
  have hnd : out.keys.Nodup := by
    rw [h2]
    exact hn.sublist (List.Sublist.map _ List.filter_sublist)
  have hkeys : ∀ b, b ∈ out.keys ↔ ∃ r, (b, .ok r) ∈ outcomes := by
    intro b
    rw [h2]
    simp only [List.mem_map, List.mem_filter]
    constructor
    · rintro ⟨⟨b', r⟩, ⟨h5, h6⟩, rfl⟩
      cases r with
      | ok r => exact ⟨r, h5⟩
      | error e => simp [Except.isOk, Except.toBool] at h6
    · rintro ⟨r, hr⟩
      exact ⟨(b, .ok r), ⟨hr, rfl⟩, rfl⟩
  unfold clientSend
  rw [sendStart_none known write requests hk hw]
  simp only
  rw [h1]
  cases hf : (sendLoop hs outcomes [] s heal).2.2 with
  | false =>
    exact ⟨out, _, rfl, hnd, hkeys, h3, Or.inl rfl⟩
  | true =>
    simp only
    have := hheal (stateAfter hs outcomes s)
    cases hc : healC (stateAfter hs outcomes s) with
    | mk r s' =>
      rw [hc] at this
      simp only at this
      subst this
      exact ⟨out, _, rfl, hnd, hkeys, h3, Or.inr rfl⟩

/-- **C25**: if handlers do not depend on the client's state, neither does the result on the
order in which the answers come in. -/
theorem C25_order (hs : Handlers σ R ρ) (val : R → ρ)
    (hval : ∀ r, ∃ f, hs.handle r = some f ∧ ∀ s, (f s).1 = .ok (val r))
    (known : Int → Bool) (write : Int → Option Exc) (healC : σ → Res Unit × σ)
    (requests : List Int) (hreq : requests.Nodup) (hk : ∀ b ∈ requests, known b = true)
    (hw : ∀ b ∈ requests, write b = .none) (outcomes : List (Int × Res R))
    (hperm : (outcomes.map (·.1)).Perm requests) (s : σ) (heal : Bool)
    (hheal : ∀ s, (healC s).1 = .ok ()) :
    ∃ results rest, clientSend hs known write healC requests outcomes s heal =
        (.ok results, rest) ∧
      ∀ b x, (b, x) ∈ results ↔ ∃ r, (b, .ok r) ∈ outcomes ∧ x = val r := by
  have hh : Handled hs := fun r => by
    obtain ⟨f, hf, hv⟩ := hval r
    exact ⟨f, hf, fun s => ⟨val r, hv s⟩⟩
  obtain ⟨results, rest, h1, h2, h3, h4, _⟩ :=
    C25_results hs hh known write healC requests hreq hk hw outcomes hperm s heal hheal
  refine ⟨results, rest, h1, ?_⟩
  intro b x
  rw [h4]
  constructor
  · rintro ⟨pre, r, post, f, rfl, hf, hx⟩
    obtain ⟨f', hf', hv⟩ := hval r
    rw [hf] at hf'; cases hf'
    rw [hv] at hx; cases hx
    exact ⟨r, by simp, rfl⟩
  · rintro ⟨r, hr, rfl⟩
    obtain ⟨pre, post, rfl⟩ := List.append_of_mem hr
    obtain ⟨f, hf, hv⟩ := hval r
    exact ⟨pre, r, post, f, rfl, hf, hv _⟩

/-- **C26** (partial, exact: see `C26_false`): the cluster is healed, before `send` returns and exactly once, if the flag was
set, if some request failed with anything but `StreamClosedError`, or if a handler asked for
it; otherwise it is left alone.  Afterwards the flag is clear. -/
theorem C26_heal_partial (hs : Handlers σ R ρ) (hh : Handled hs) (known : Int → Bool)
    (write : Int → Option Exc) (healC : σ → Res Unit × σ) (requests : List Int)
    (hreq : requests.Nodup) (hk : ∀ b ∈ requests, known b = true)
    (hw : ∀ b ∈ requests, write b = .none) (outcomes : List (Int × Res R))
    (hperm : (outcomes.map (·.1)).Perm requests) (s : σ) (heal : Bool)
    (hheal : ∀ s, (healC s).1 = .ok ()) :
    ∃ results s' healed, clientSend hs known write healC requests outcomes s heal =
        (.ok results, s', false, healed) ∧
      (healed = true ↔ heal = true ∨ WantsHeal hs outcomes s) ∧
      s' = (if healed then (healC (stateAfter hs outcomes s)).2 else stateAfter hs outcomes s) := by
  have hn : (outcomes.map (·.1)).Nodup := hperm.nodup_iff.2 hreq
  obtain ⟨out, h1, h2, h3, h4⟩ := sendLoop_spec hs hh outcomes [] s heal hn (by simp [Dict.keys])
    (by simp [Dict.keys])
  unfold clientSend
  rw [sendStart_none known write requests hk hw]
  simp only
  rw [h1, ← h4]
  cases hf : (sendLoop hs outcomes [] s heal).2.2 with
  | false => exact ⟨_, _, false, rfl, Iff.rfl, rfl⟩
  | true =>
    have := hheal (stateAfter hs outcomes s)
    simp only
    cases hc : healC (stateAfter hs outcomes s) with
    | mk r s' =>
      rw [hc] at this
      simp only at this
      subst this
      exact ⟨_, _, true, rfl, by simp, rfl⟩

/-- **C26**: a healing that fails is raised, and the flag stays set for the next `send`. -/
theorem C26_heal_fails (hs : Handlers σ R ρ) (hh : Handled hs) (known : Int → Bool)
    (write : Int → Option Exc) (healC : σ → Res Unit × σ) (requests : List Int)
    (hreq : requests.Nodup) (hk : ∀ b ∈ requests, known b = true)
    (hw : ∀ b ∈ requests, write b = .none) (outcomes : List (Int × Res R))
    (hperm : (outcomes.map (·.1)).Perm requests) (s : σ) (heal : Bool) (e : Exc)
    (hheal : (healC (stateAfter hs outcomes s)).1 = .error e)
    (hwant : heal = true ∨ WantsHeal hs outcomes s) :
    ∃ s', clientSend hs known write healC requests outcomes s heal =
        (.error e, s', true, true) := by
  have hn : (outcomes.map (·.1)).Nodup := hperm.nodup_iff.2 hreq
  obtain ⟨out, h1, h2, h3, h4⟩ := sendLoop_spec hs hh outcomes [] s heal hn (by simp [Dict.keys])
    (by simp [Dict.keys])
  unfold clientSend
  rw [sendStart_none known write requests hk hw]
  simp only
  rw [h1, h4.2 hwant]
  simp only
  cases hc : healC (stateAfter hs outcomes s) with
  | mk r s' =>
    rw [hc] at hheal
    simp only at hheal
    subst hheal
    exact ⟨s', rfl⟩

/-- The docstring's "if an error occurs in a response the cluster is healed" is false for
connections closed by the broker: `StreamClosedError` alone never heals. -/
theorem C26_false (hs : Handlers σ R ρ) (known : Int → Bool)
    (write : Int → Option Exc) (healC : σ → Res Unit × σ) (requests : List Int)
    (hk : ∀ b ∈ requests, known b = true) (hw : ∀ b ∈ requests, write b = .none) (s : σ) :
    clientSend hs known write healC requests
      (requests.map fun b => (b, (.error .streamClosed : Res R))) s false =
        (.ok [], s, false, false) := by
  have : ∀ bs : List Int, sendLoop hs (bs.map fun b => (b, (.error .streamClosed : Res R))) [] s
      false = (.ok [], s, false) := by
    intro bs
    induction bs with
    | nil => rfl
    | cons b bs ih => simp only [List.map_cons, sendLoop, if_true]; exact ih
  simp [clientSend, sendStart_none known write requests hk hw, this]

/-- A response that the client class has no handler for raises `UnhandledResponseError`; a
broker that is not in the cluster `KeyError`. -/
theorem C25_unhandled (hs : Handlers σ R ρ) (healC : σ → Res Unit × σ) (b : Int) (r : R) (s : σ)
    (h : hs.handle r = .none) :
    clientSend hs (fun _ => true) (fun _ => .none) healC [b] [(b, .ok r)] s false =
      (.error (.unhandledResponse (hs.api r)), s, false, false) ∧
    clientSend hs (fun _ => false) (fun _ => .none) healC [b] [(b, .ok r)] s false =
      (.error .keyError, s, false, false) := by
  simp [clientSend, sendStart, sendLoop, h]

/-- Handlers that add numbers up and ask for a healing on negative ones. -/
def exHandlers : Handlers Int Int Int :=
  ⟨fun _ => "x", fun r => some fun s => (.ok (s + r), s + r, decide (r < 0))⟩

-- Non-vacuity: three brokers, one of which fails; the answers come in in another order.
example : clientSend exHandlers (fun _ => true) (fun _ => .none) (fun s => (.ok (), s + 100))
    [1, 2, 3] [(3, .ok 30), (2, .error .brokerConnection), (1, .ok 10)] 0 false =
    (.ok [(3, 30), (1, 40)], 140, false, true) := by decide +kernel
example : Handled exHandlers := fun _ => ⟨_, rfl, fun _ => ⟨_, rfl⟩⟩

end Kiel
