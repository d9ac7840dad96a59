import Verif.Props.Silent
import Mathlib.Data.List.Perm.Subperm
/-
C121: what a connection remembers of the requests it was given.
-/
set_option autoImplicit false
namespace Kiel
open Spec
variable (cx : Codec) (depth : Nat)

/-- A request with correlation id `k` is outstanding. -/
def Spec.StillDue (c : Conn) (k : Int) : Prop :=
  ∃ i r, Pending c i ∧ c.sent[i]? = some r ∧ r.correlationId = k

/-- **C121**: whatever happened to a connection, it remembers no future that is settled, and none twice. -/
theorem C121_unsettled (evs : List ConnEv) :
    (∀ k i, (k, i) ∈ (Conn.init.run cx depth evs).pending →
      Pending (Conn.init.run cx depth evs) i ∧ StillDue (Conn.init.run cx depth evs) k) ∧
    (Conn.init.run cx depth evs).pending.length ≤
      ((Conn.init.run cx depth evs).futs.filter (·.isEmpty)).length := by
  have h := inv_of cx depth evs
  generalize Conn.init.run cx depth evs = c at h
  refine ⟨fun k i hk => ?_, ?_⟩
  · obtain ⟨h1, r, h2, h3, _⟩ := h.entry k i hk
    exact ⟨h1, i, r, h1, h2, h3⟩
  · have hl : (c.futs.filter (·.isEmpty)).length =
        ((List.range c.futs.length).filter fun i => c.futs[i]?.any (·.isEmpty)).length := by
      generalize c.futs = fs
      induction fs using List.reverseRecOn with
      | nil => rfl
      | append_singleton fs f ih =>
        rw [List.filter_append, List.length_append, ih, List.length_append, List.length_singleton,
          List.range_succ, List.filter_append, List.length_append]
        congr 1
        · congr 1
          apply List.filter_congr
          intro i hi
          rw [List.getElem?_append_left (List.mem_range.1 hi)]
        · simp only [List.filter_cons, List.filter_nil, List.getElem?_concat_length, Option.any_some]
          cases f <;> rfl
    have hv : c.pending.length = c.pending.vals.length := by simp [Dict.vals]
    rw [hv, hl]
    refine (List.subperm_of_subset h.vals_nodup ?_).length_le
    intro i hi
    obtain ⟨⟨k, i⟩, hk, rfl⟩ := List.mem_map.1 hi
    have := (h.entry k i hk).1
    refine List.mem_filter.2 ⟨List.mem_range.2 (List.getElem?_eq_some_iff.1 this).1, ?_⟩
    simp only [show c.futs[i]? = some [] from this, Option.any_some, List.isEmpty_nil]

/-- **C121** (partial): an open connection whose outstanding requests have different ids remembers exactly the requests that are outstanding. -/
theorem C121_open_partial (evs : List ConnEv) (hd : Unambiguous cx depth evs)
    (ho : (Conn.init.run cx depth evs).closing = false) (k : Int) :
    (k ∈ (Conn.init.run cx depth evs).pending.keys ↔ StillDue (Conn.init.run cx depth evs) k) ∧
    (k ∈ (Conn.init.run cx depth evs).apiCorr.keys ↔ StillDue (Conn.init.run cx depth evs) k) := by
  have h := inv_of cx depth evs
  have h' := openInv_of cx depth hd ho
  generalize Conn.init.run cx depth evs = c at h h'
  have h1 : k ∈ c.pending.keys ↔ StillDue c k := by
    constructor
    · intro hk
      obtain ⟨⟨k, i⟩, hi, rfl⟩ := List.mem_map.1 hk
      obtain ⟨h1, r, h2, h3, _⟩ := h.entry k i hi
      exact ⟨i, r, h1, h2, h3⟩
    · rintro ⟨i, r, h1, h2, rfl⟩
      obtain ⟨r', h3, h4, _⟩ := h'.full i h1
      rw [h2] at h3
      cases h3
      exact List.mem_map.2 ⟨_, h4, rfl⟩
  refine ⟨h1, ?_⟩
  constructor
  · intro hk
    rcases hg : c.apiCorr.get? k with _ | a
    · exact absurd hk (Dict.get?_eq_none.1 hg)
    · obtain ⟨i, hi⟩ := h'.apis k a hg
      exact h1.1 (List.mem_map.2 ⟨_, hi, rfl⟩)
  · rintro ⟨i, r, g1, h2, rfl⟩
    obtain ⟨r', h3, _, h5⟩ := h'.full i g1
    rw [h2] at h3
    cases h3
    by_contra hn
    rw [Dict.get?_eq_none.2 hn] at h5
    cases h5

theorem forgets_step {c : Conn} (hc : c.closing = true) (h : c.pending = [] ∧ c.apiCorr = [])
    (ev : ConnEv) : (c.step cx depth ev).closing = true ∧
      (c.step cx depth ev).pending = [] ∧ (c.step cx depth ev).apiCorr = [] := by
  obtain ⟨h1, h2⟩ := h
  have hse : ∀ e, c.socketError e = c := by
    intro e
    have ha : c.abort (some e) = c := by simp [Conn.abort, hc]
    unfold Conn.socketError
    split
    · cases c; simp_all
    · exact ha
  cases ev with
  | send r w => simp [Conn.step, Conn.send, hc, h1, h2]
  | writeDone e => cases e <;> simp [Conn.step, Conn.writeDone, hse, hc, h1, h2]
  | deliver k p =>
    rcases deliver_cases cx depth c k p with ⟨_, h⟩ | ⟨_, _, h⟩ | ⟨_, a, h, _⟩
    · simp only [Conn.step, h]; exact ⟨hc, h1, h2⟩
    · simp only [Conn.step, h, hse]; exact ⟨hc, h1, h2⟩
    · rw [h2] at h; cases h
  | readError e =>
    simp only [Conn.step, Conn.readError, hse]
    split <;> exact ⟨hc, h1, h2⟩
  | abort => simp [Conn.step, Conn.abort, hc, h1, h2]
  | close => simp [Conn.step, Conn.close, h1, h2]

/-- **C121**: a connection that was aborted remembers nothing, ever after. -/
theorem C121_aborted (evs later : List ConnEv) (ho : (Conn.init.run cx depth evs).closing = false) :
    (Conn.init.run cx depth (evs ++ .abort :: later)).pending = [] ∧
    (Conn.init.run cx depth (evs ++ .abort :: later)).apiCorr = [] := by
  rw [run_append]
  show (Conn.run cx depth ((Conn.init.run cx depth evs).step cx depth .abort) later).pending = [] ∧ _
  have h : ((Conn.init.run cx depth evs).step cx depth .abort).closing = true ∧
      ((Conn.init.run cx depth evs).step cx depth .abort).pending = [] ∧
      ((Conn.init.run cx depth evs).step cx depth .abort).apiCorr = [] := by
    simp [Conn.step, Conn.abort, ho]
  show _ ∧ (Conn.run cx depth ((Conn.init.run cx depth evs).step cx depth .abort) later).apiCorr = []
  generalize (Conn.init.run cx depth evs).step cx depth .abort = c at h
  induction later generalizing c with
  | nil => exact h.2
  | cons ev later ih => exact ih _ (forgets_step cx depth h.1 h.2 ev)

theorem remembers_step {c : Conn} (hc : c.closing = true) (hr : c.reading = false) (ev : ConnEv) :
    (c.step cx depth ev).closing = true ∧ (c.step cx depth ev).reading = false ∧
      (c.step cx depth ev).pending = c.pending ∧ (c.step cx depth ev).apiCorr = c.apiCorr := by
  have hse : ∀ e, c.socketError e = c := by
    intro e
    have ha : c.abort (some e) = c := by simp [Conn.abort, hc]
    unfold Conn.socketError
    split
    · cases c; simp_all
    · exact ha
  cases ev with
  | send r w => simp [Conn.step, Conn.send, hc, hr]
  | writeDone e => cases e <;> simp [Conn.step, Conn.writeDone, hse, hc, hr]
  | deliver k p => simp [Conn.step, Conn.deliver, hr, hc]
  | readError e => simp [Conn.step, Conn.readError, hr, hc]
  | abort => simp [Conn.step, Conn.abort, hr, hc]
  | close => simp [Conn.step, Conn.close, hr]

/-- **C121**, what is missing: when the broker closes the stream, the connection goes on remembering every
request that was outstanding, whatever happens. -/
theorem C121_never_released (evs later : List ConnEv)
    (ho : (Conn.init.run cx depth evs).closing = false) :
    (Conn.init.run cx depth (evs ++ .readError .streamClosed :: later)).pending =
      (Conn.init.run cx depth evs).pending ∧
    (Conn.init.run cx depth (evs ++ .readError .streamClosed :: later)).apiCorr =
      (Conn.init.run cx depth evs).apiCorr := by
  have hl := (inv_of cx depth evs).live ho
  have h1 : Conn.init.run cx depth (evs ++ .readError .streamClosed :: later) =
      ({ Conn.init.run cx depth evs with closing := true, reading := false } : Conn).run
        cx depth later := by
    rw [run_append]
    show ((Conn.init.run cx depth evs).step cx depth (.readError .streamClosed)).run
      cx depth later = _
    congr 1
    simp [Conn.step, Conn.readError, hl, Conn.socketError]
  rw [h1]
  have key : ∀ (later : List ConnEv) (c : Conn), c.closing = true → c.reading = false →
      (c.run cx depth later).pending = c.pending ∧ (c.run cx depth later).apiCorr = c.apiCorr := by
    intro later
    induction later with
    | nil => exact fun c _ _ => ⟨rfl, rfl⟩
    | cons ev later ih =>
      intro c hc hr
      obtain ⟨g1, g2, g3, g4⟩ := remembers_step cx depth hc hr ev
      obtain ⟨k1, k2⟩ := ih _ g1 g2
      exact ⟨k1.trans g3, k2.trans g4⟩
  exact key later _ rfl rfl

/-- C121 as one would like it: a request that brokers do not answer is forgotten at some time, though the
connection stays healthy; and nothing is remembered once the broker has closed the stream. -/
def Spec.ForgetsInTime : Prop :=
  (∀ evs i r, Unambiguous cx depth evs → (Conn.init.run cx depth evs).closing = false →
    Pending (Conn.init.run cx depth evs) i → (Conn.init.run cx depth evs).sent[i]? = some r →
    WantsNoAnswer r →
    ∃ later, UneventfulAfter cx depth i evs later ∧ Unambiguous cx depth (evs ++ later) ∧
      r.correlationId ∉ (Conn.init.run cx depth (evs ++ later)).pending.keys) ∧
  ∀ evs, Unambiguous cx depth evs → (Conn.init.run cx depth evs).closing = false →
    ∃ later, (Conn.init.run cx depth (evs ++ .readError .streamClosed :: later)).pending = []

/-- **C121** is false: requests that are not to be answered are remembered for as long as the connection
lives. -/
theorem C121_false : ¬ ForgetsInTime cx 5 := by
  intro h
  obtain ⟨later, h1, h2, h3⟩ := h.1 exForgotten 0 exNoAcks (exForgotten_unambiguous cx 5)
    (exForgotten_open cx) (exForgotten_pending cx) (exForgotten_sent cx) ⟨rfl, by simp [exNoAcks]⟩
  obtain ⟨g1, g2⟩ := C92_waits cx 5 exForgotten later h2 (exForgotten_open cx) 0
    (exForgotten_pending cx) h1
  refine h3 (((C121_open_partial cx 5 _ h2 g2 _).1).2 ⟨0, exNoAcks, g1, ?_, rfl⟩)
  obtain ⟨l, hl⟩ : ∃ l, (Conn.init.run cx 5 (exForgotten ++ later)).sent =
      (Conn.init.run cx 5 exForgotten).sent ++ l := by
    rw [run_append]
    generalize Conn.init.run cx 5 exForgotten = c
    clear h1 h2 h3 g1 g2
    induction later generalizing c with
    | nil => exact ⟨[], by simp [Conn.run]⟩
    | cons ev later ih =>
      obtain ⟨l, hl⟩ := ih (c.step cx 5 ev)
      rcases step_sent cx 5 c ev with h | h
      · exact ⟨l, hl.trans (by rw [h])⟩
      · exact ⟨evSends ev ++ l, hl.trans (by rw [h, List.append_assoc])⟩
  rw [hl, List.getElem?_append_left (List.getElem?_eq_some_iff.1 (exForgotten_sent cx)).1]
  exact exForgotten_sent cx

/-- **C121** is false for another reason: what was outstanding when the broker closed the stream is
remembered. -/
theorem C121_false_closed : ¬ ForgetsInTime cx 5 := by
  intro h
  obtain ⟨later, hl⟩ := h.2 exSent (exSent_unambiguous cx 5) (exSent_open cx)
  rw [(C121_never_released cx 5 exSent later (exSent_open cx)).1] at hl
  have : (Conn.init.run cx 5 exSent).pending = [(7, 0), (8, 1)] := by krfl
  rw [this] at hl
  cases hl

/-- Two requests outstanding, both remembered; one of them answered, the other remembered. -/
example (cx : Codec) : StillDue (Conn.init.run cx 5 exSent) 8 :=
  (C121_open_partial cx 5 exSent (exSent_unambiguous cx 5) (exSent_open cx) 8).1.1 (by
    have : (Conn.init.run cx 5 exSent).pending = [(7, 0), (8, 1)] := by krfl
    rw [this]; simp [Dict.keys])
example (cx : Codec) : (Conn.init.run cx 5 (exSent ++ [.deliver 8 exAnswer])).pending = [(7, 0)] := by
  krfl
/-- Aborted, the connection remembers neither. -/
example (cx : Codec) : (Conn.init.run cx 5 (exSent ++ [.abort])).pending = [] :=
  (C121_aborted cx 5 exSent [] (exSent_open cx)).1

end Kiel
