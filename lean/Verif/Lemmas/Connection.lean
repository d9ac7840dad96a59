import Verif.Model.Connection
import Verif.Lemmas.Dict
import Mathlib.Data.List.Nodup
/-
Invariants of connections.
-/
set_option autoImplicit false
namespace Kiel

theorem settle_getElem? (fs : List (List Outcome)) (i j : Nat) (o : Outcome) :
    (settle fs i o)[j]? = if i = j then fs[j]?.map (· ++ [o]) else fs[j]? := by
  unfold settle
  rw [List.getElem?_modify]
  split
  · simp_all
  · cases fs[j]? <;> simp_all

theorem settle_length (fs : List (List Outcome)) (i : Nat) (o : Outcome) :
    (settle fs i o).length = fs.length := by simp [settle]

theorem foldl_settle_getElem? (l : List (Int × Nat)) (fs : List (List Outcome)) (e : Exc)
    (j : Nat) (hn : (l.map (·.2)).Nodup) :
    (l.foldl (fun fs p => settle fs p.2 (.exc e)) fs)[j]? =
      if j ∈ l.map (·.2) then fs[j]?.map (· ++ [.exc e]) else fs[j]? := by
  induction l generalizing fs with
  | nil => simp
  | cons p r ih =>
    simp only [List.map_cons, List.nodup_cons] at hn
    rw [List.foldl_cons, ih _ hn.2]
    simp only [settle_getElem?, List.map_cons, List.mem_cons]
    by_cases h : p.2 = j
    · subst h; simp [hn.1]
    · have h' : ¬ j = p.2 := Ne.symm h
      simp only [if_neg h, h', false_or]

theorem foldl_settle_length (l : List (Int × Nat)) (fs : List (List Outcome)) (e : Exc) :
    (l.foldl (fun fs p => settle fs p.2 (.exc e)) fs).length = fs.length := by
  induction l generalizing fs with
  | nil => rfl
  | cons p r ih => rw [List.foldl_cons, ih, settle_length]

theorem failAll_getElem? {d : Dict Int Nat} (fs : List (List Outcome)) (e : Exc)
    (j : Nat) (hn : d.vals.Nodup) :
    (failAll fs d e)[j]? =
      if j ∈ d.vals then fs[j]?.map (· ++ [.exc e]) else fs[j]? := by
  have hr : (d.reverse.map (·.2)) = d.vals.reverse := by simp [Dict.vals, List.map_reverse]
  rw [failAll, foldl_settle_getElem? _ _ _ _ (by rw [hr]; exact List.nodup_reverse.2 hn), hr]
  simp

theorem failAll_length (fs : List (List Outcome)) (d : Dict Int Nat) (e : Exc) :
    (failAll fs d e).length = fs.length := foldl_settle_length _ _ _

/-- What holds of every connection, whatever happened to it. -/
structure ConnInv (c : Conn) : Prop where
  len : c.sent.length = c.futs.length
  once : ∀ (i : Nat) (fs : List Outcome), c.futs[i]? = some fs → fs.length ≤ 1
  nodup : c.pending.keys.Nodup
  entry : ∀ k i, (k, i) ∈ c.pending → c.futs[i]? = some [] ∧
    ∃ r, c.sent[i]? = some r ∧ r.correlationId = k ∧
      ∀ a, c.apiCorr.get? k = some a → a = r.cls.api
  live : c.closing = false → c.reading = true

theorem ConnInv.vals_nodup {c : Conn} (h : ConnInv c) : c.pending.vals.Nodup := by
  have hp : List.Nodup c.pending := List.Nodup.of_map _ h.nodup
  refine List.Nodup.map_on ?_ hp
  rintro ⟨k, i⟩ h1 ⟨k', i'⟩ h2 rfl
  obtain ⟨_, r, h3, h4, _⟩ := h.entry _ _ h1
  obtain ⟨_, r', h3', h4', _⟩ := h.entry _ _ h2
  simp only at h3'
  rw [h3] at h3'
  cases h3'
  simp [← h4, ← h4']

theorem connInv_init : ConnInv Conn.init := by
  constructor <;> simp [Conn.init, Dict.keys]

theorem connInv_abort {c : Conn} (h : ConnInv c) (e : Option Exc) : ConnInv (c.abort e) := by
  unfold Conn.abort
  split
  · exact h
  · constructor
    · simp [failAll_length, h.len]
    · intro i fs hi
      simp only at hi
      rw [failAll_getElem? _ _ _ h.vals_nodup] at hi
      split at hi
      · rename_i hm
        simp only [Dict.vals, List.mem_map] at hm
        obtain ⟨⟨k, i'⟩, hm, rfl⟩ := hm
        rw [(h.entry _ _ hm).1] at hi
        simp at hi
        subst hi
        simp
      · exact h.once _ _ hi
    · simp [Dict.keys]
    · simp
    · simp

theorem connInv_closing {c : Conn} (h : ConnInv c) : ConnInv { c with closing := true } :=
  ⟨h.len, h.once, h.nodup, h.entry, by simp⟩

theorem connInv_socketError {c : Conn} (h : ConnInv c) (e : Exc) : ConnInv (c.socketError e) := by
  unfold Conn.socketError
  split
  · exact connInv_closing h
  · exact connInv_abort h _

theorem connInv_reading {c : Conn} (h : ConnInv c) :
    ConnInv { c with reading := !c.closing } :=
  ⟨h.len, h.once, h.nodup, h.entry, by simp⟩

/-- The registration of a new request. -/
theorem connInv_register {c : Conn} (h : ConnInv c) (r : Req) (w : List Bytes) :
    ConnInv { c with
          apiCorr := c.apiCorr.set r.correlationId r.cls.api
          pending := c.pending.set r.correlationId c.futs.length
          futs := c.futs ++ [[]]
          sent := c.sent ++ [r]
          written := w } := by
  constructor
  · simp [h.len]
  · intro i fs hi
    simp only at hi
    rw [List.getElem?_append] at hi
    split at hi
    · exact h.once _ _ hi
    · rw [List.getElem?_singleton] at hi
      split at hi <;> simp at hi
      subst hi; simp
  · exact Dict.nodup_set h.nodup _ _
  · intro k i hm
    simp only at hm ⊢
    rw [Dict.mem_set h.nodup] at hm
    rcases hm with hm | ⟨hm, hk⟩
    · cases hm
      refine ⟨by simp, r, by simp [← h.len], rfl, ?_⟩
      intro a ha
      rw [Dict.get?_set, if_pos rfl] at ha
      cases ha; rfl
    · simp only at hk
      obtain ⟨h1, r', h2, h3, h4⟩ := h.entry _ _ hm
      refine ⟨?_, r', ?_, h3, ?_⟩
      · rw [List.getElem?_append_left (List.getElem?_eq_some_iff.1 h1).1]; exact h1
      · rw [List.getElem?_append_left (List.getElem?_eq_some_iff.1 h2).1]; exact h2
      · intro a ha
        rw [Dict.get?_set, if_neg (Ne.symm hk)] at ha
        exact h4 a ha
  · exact h.live

theorem connInv_refused {c : Conn} (h : ConnInv c) (r : Req) (e : Exc) :
    ConnInv { c with futs := c.futs ++ [[.exc e]], sent := c.sent ++ [r] } := by
  constructor
  · simp [h.len]
  · intro i fs hi
    simp only at hi
    rw [List.getElem?_append] at hi
    split at hi
    · exact h.once _ _ hi
    · rw [List.getElem?_singleton] at hi
      split at hi <;> simp at hi
      subst hi; simp
  · exact h.nodup
  · intro k i hm
    obtain ⟨h1, r', h2, h3, h4⟩ := h.entry _ _ hm
    refine ⟨?_, r', ?_, h3, h4⟩
    · simp only
      rw [List.getElem?_append_left (List.getElem?_eq_some_iff.1 h1).1]; exact h1
    · simp only
      rw [List.getElem?_append_left (List.getElem?_eq_some_iff.1 h2).1]; exact h2
  · exact h.live

/-- The cases of `send`. -/
theorem send_cases (c : Conn) (r : Req) (w : Write) :
    (c.closing = true ∧ c.send r w = (.ok c.futs.length,
      { c with futs := c.futs ++ [[.exc .brokerConnection]], sent := c.sent ++ [r] })) ∨
    (c.closing = false ∧ ∃ e, c.send r w = (.error e, c)) ∨
    (c.closing = false ∧ ∃ p b, r.serialize = .ok p ∧ frame p = .ok b ∧
      ((w = .queued ∧ c.send r w = (.ok c.futs.length, { c with
          apiCorr := c.apiCorr.set r.correlationId r.cls.api
          pending := c.pending.set r.correlationId c.futs.length
          futs := c.futs ++ [[]]
          sent := c.sent ++ [r]
          written := c.written ++ [b] })) ∨
       ∃ e, w = .raises e ∧ c.send r w = (.ok c.futs.length, Conn.socketError { c with
          apiCorr := c.apiCorr.set r.correlationId r.cls.api
          pending := c.pending.set r.correlationId c.futs.length
          futs := c.futs ++ [[]]
          sent := c.sent ++ [r] } e))) := by
  unfold Conn.send
  by_cases hc : c.closing = true
  · simp [hc]
  · simp only [Bool.not_eq_true] at hc
    right
    simp only [hc, Bool.false_eq_true, if_false, true_and]
    split
    · exact Or.inl ⟨_, rfl⟩
    · split
      · exact Or.inl ⟨_, rfl⟩
      · rename_i p hp _ b hb
        refine Or.inr ⟨p, b, hp, hb, ?_⟩
        split
        · exact Or.inl ⟨rfl, rfl⟩
        · exact Or.inr ⟨_, rfl, rfl⟩

theorem connInv_send {c : Conn} (h : ConnInv c) (r : Req) (w : Write) :
    ConnInv (c.send r w).2 := by
  rcases send_cases c r w with ⟨_, h1⟩ | ⟨_, e, h1⟩ | ⟨_, p, b, _, _, ⟨_, h1⟩ | ⟨e, _, h1⟩⟩
  · rw [h1]; exact connInv_refused h r _
  · rw [h1]; exact h
  · rw [h1]; exact connInv_register h r _
  · rw [h1]; exact connInv_socketError (connInv_register h r _) e

/-- The cases of a frame. -/
theorem deliver_cases (cx : Codec) (depth : Nat) (c : Conn) (k : Int) (p : Bytes) :
    (c.reading = false ∧ c.deliver cx depth k p = c) ∨
    (c.reading = true ∧ c.apiCorr.get? k = .none ∧ c.deliver cx depth k p =
      (let c' := c.socketError .keyError; { c' with reading := !c'.closing })) ∨
    (c.reading = true ∧ ∃ a, c.apiCorr.get? k = some a ∧
      ((∃ e, ((responseClasses.get? a = .none ∧ e = .keyError) ∨
          ∃ cls, responseClasses.get? a = some cls ∧
            ((cls.deserialize cx depth p = .error e) ∨
             (∃ v, cls.deserialize cx depth p = .ok v ∧ c.pending.get? k = .none ∧
              e = .keyError))) ∧
        c.deliver cx depth k p =
          (let c' := Conn.socketError { c with apiCorr := c.apiCorr.erase k } e
           { c' with reading := !c'.closing })) ∨
       ∃ cls v i, responseClasses.get? a = some cls ∧ cls.deserialize cx depth p = .ok v ∧
          c.pending.get? k = some i ∧
          c.deliver cx depth k p = { c with
            apiCorr := c.apiCorr.erase k
            pending := c.pending.erase k
            futs := settle c.futs i (.result k v)
            reading := !c.closing })) := by
  unfold Conn.deliver
  by_cases hr : c.reading = true
  · right
    rw [if_neg (by simp [hr])]
    cases ha : c.apiCorr.get? k with
    | none =>
      left
      have hm : c.readMessage cx depth k p = (.error .keyError, c) := by
        simp only [Conn.readMessage, ha]
      exact ⟨hr, rfl, by simp only [hm]⟩
    | some a =>
      right
      refine ⟨hr, a, rfl, ?_⟩
      cases hc : responseClasses.get? a with
      | none =>
        have hm : c.readMessage cx depth k p =
            (.error .keyError, { c with apiCorr := c.apiCorr.erase k }) := by
          simp only [Conn.readMessage, ha, hc]
        exact Or.inl ⟨.keyError, Or.inl ⟨rfl, rfl⟩, by simp only [hm]⟩
      | some cls =>
        cases hd : cls.deserialize cx depth p with
        | error e =>
          have hm : c.readMessage cx depth k p =
              (.error e, { c with apiCorr := c.apiCorr.erase k }) := by
            simp only [Conn.readMessage, ha, hc, hd]
          exact Or.inl ⟨e, Or.inr ⟨cls, rfl, Or.inl hd⟩, by simp only [hm]⟩
        | ok v =>
          have hm : c.readMessage cx depth k p =
              (.ok v, { c with apiCorr := c.apiCorr.erase k }) := by
            simp only [Conn.readMessage, ha, hc, hd]
          cases hp : c.pending.get? k with
          | none =>
            exact Or.inl ⟨.keyError, Or.inr ⟨cls, rfl, Or.inr ⟨v, hd, rfl, rfl⟩⟩,
              by simp only [hm, hp]⟩
          | some i => exact Or.inr ⟨cls, v, i, rfl, hd, rfl, by simp only [hm, hp]⟩
  · simp [hr]

theorem connInv_eraseApi {c : Conn} (h : ConnInv c) (k : Int) :
    ConnInv { c with apiCorr := c.apiCorr.erase k } := by
  refine ⟨h.len, h.once, h.nodup, ?_, h.live⟩
  intro k' i hm
  obtain ⟨h1, r, h2, h3, h4⟩ := h.entry _ _ hm
  refine ⟨h1, r, h2, h3, fun a ha => h4 a ?_⟩
  simp only [Dict.get?_erase] at ha
  split at ha
  · cases ha
  · exact ha

theorem connInv_answer {c : Conn} (h : ConnInv c) {k : Int} {i : Nat}
    (hp : c.pending.get? k = some i) (v : Val) :
    ConnInv { c with
            apiCorr := c.apiCorr.erase k
            pending := c.pending.erase k
            futs := settle c.futs i (.result k v)
            reading := !c.closing } := by
  have hm := Dict.mem_of_get? hp
  obtain ⟨hf, r, hs, hk, _⟩ := h.entry _ _ hm
  constructor
  · simp [settle_length, h.len]
  · intro j fs hj
    simp only [settle_getElem?] at hj
    split at hj
    · rename_i hij; subst hij
      rw [hf] at hj; simp at hj; subst hj; simp
    · exact h.once _ _ hj
  · exact Dict.nodup_erase h.nodup _
  · intro k' j hj
    simp only [Dict.mem_erase] at hj
    obtain ⟨h1, r', h2, h3, h4⟩ := h.entry _ _ hj.1
    have hne : i ≠ j := by
      rintro rfl
      rw [hs] at h2; cases h2
      exact hj.2 (h3.symm.trans hk)
    refine ⟨by simp only [settle_getElem?, if_neg hne]; exact h1, r', h2, h3, ?_⟩
    intro a ha
    simp only [Dict.get?_erase] at ha
    split at ha
    · cases ha
    · exact h4 a ha
  · simp

theorem connInv_deliver {c : Conn} (h : ConnInv c) (cx : Codec) (depth : Nat) (k : Int)
    (p : Bytes) : ConnInv (c.deliver cx depth k p) := by
  rcases deliver_cases cx depth c k p with ⟨_, h1⟩ | ⟨_, _, h1⟩ | ⟨_, a, _, ⟨e, _, h1⟩ |
    ⟨cls, v, i, _, _, hp, h1⟩⟩
  · rw [h1]; exact h
  · rw [h1]; exact connInv_reading (connInv_socketError h _)
  · rw [h1]; exact connInv_reading (connInv_socketError (connInv_eraseApi h _) _)
  · rw [h1]; exact connInv_answer h hp v

theorem connInv_step {c : Conn} (h : ConnInv c) (cx : Codec) (depth : Nat) (e : ConnEv) :
    ConnInv (c.step cx depth e) := by
  cases e with
  | send r w => exact connInv_send h r w
  | writeDone e =>
    cases e with
    | none => exact h
    | some e => exact connInv_socketError h e
  | deliver k p => exact connInv_deliver h cx depth k p
  | readError e =>
    simp only [Conn.step, Conn.readError]
    split
    · exact h
    · exact connInv_reading (connInv_socketError h e)
  | abort => exact connInv_abort h _
  | close => exact connInv_closing h

theorem connInv_run {c : Conn} (h : ConnInv c) (cx : Codec) (depth : Nat) (evs : List ConnEv) :
    ConnInv (c.run cx depth evs) := by
  induction evs generalizing c with
  | nil => exact h
  | cons e r ih => exact ih (connInv_step h cx depth e)

theorem run_append (cx : Codec) (depth : Nat) (c : Conn) (a b : List ConnEv) :
    c.run cx depth (a ++ b) = (c.run cx depth a).run cx depth b := by
  simp [Conn.run]

/-- What one event does to the settlements of a future: nothing, an exception for one that
was pending, or the answer. -/
inductive Change (cx : Codec) (depth : Nat) (c : Conn) (ev : ConnEv) (i : Nat) :
    List Outcome → List Outcome → Prop
  | same (fs) : Change cx depth c ev i fs fs
  | fail (e : Exc) : i ∈ c.pending.vals → Change cx depth c ev i [] [.exc e]
  | answer (k : Int) (p : Bytes) (v : Val) (r : Req) (cls : Cls) : ev = .deliver k p →
      c.sent[i]? = some r → r.correlationId = k → responseClasses.get? r.cls.api = some cls →
      cls.deserialize cx depth p = .ok v → Change cx depth c ev i [] [.result k v]

theorem abort_futs {c : Conn} (h : ConnInv c) (e : Option Exc) (i : Nat) (fs : List Outcome)
    (hi : c.futs[i]? = some fs) :
    (c.abort e).futs[i]? = some fs ∨
    (i ∈ c.pending.vals ∧ fs = [] ∧
      (c.abort e).futs[i]? = some [.exc (e.getD .brokerConnection)]) := by
  unfold Conn.abort
  split
  · exact Or.inl hi
  · simp only
    rw [failAll_getElem? _ _ _ h.vals_nodup]
    split
    · rename_i hm
      right
      refine ⟨hm, ?_⟩
      simp only [Dict.vals, List.mem_map] at hm
      obtain ⟨⟨k, i'⟩, hm, rfl⟩ := hm
      have := (h.entry _ _ hm).1
      rw [hi] at this
      cases this
      simp [hi]
    · exact Or.inl hi

theorem socketError_futs {c : Conn} (h : ConnInv c) (e : Exc) (i : Nat) (fs : List Outcome)
    (hi : c.futs[i]? = some fs) :
    (c.socketError e).futs[i]? = some fs ∨
    (i ∈ c.pending.vals ∧ fs = [] ∧ (c.socketError e).futs[i]? = some [.exc e]) := by
  unfold Conn.socketError
  split
  · exact Or.inl hi
  · exact abort_futs h (some e) i fs hi

theorem step_change {c : Conn} (h : ConnInv c) (cx : Codec) (depth : Nat) (ev : ConnEv)
    (i : Nat) (fs : List Outcome) (hi : c.futs[i]? = some fs) :
    ∃ fs', (c.step cx depth ev).futs[i]? = some fs' ∧ Change cx depth c ev i fs fs' := by
  have hlt := (List.getElem?_eq_some_iff.1 hi).1
  have sock : ∀ e, ∃ fs', (c.socketError e).futs[i]? = some fs' ∧
      Change cx depth c ev i fs fs' := by
    intro e
    rcases socketError_futs h e i fs hi with h1 | ⟨h1, rfl, h2⟩
    · exact ⟨fs, h1, .same _⟩
    · exact ⟨_, h2, .fail e h1⟩
  cases ev with
  | send r w =>
    simp only [Conn.step]
    rcases send_cases c r w with ⟨_, h1⟩ | ⟨_, e, h1⟩ | ⟨_, p, b, _, _, ⟨_, h1⟩ | ⟨e, _, h1⟩⟩
    · rw [h1]; exact ⟨fs, by simp only [List.getElem?_append_left hlt]; exact hi, .same _⟩
    · rw [h1]; exact ⟨fs, hi, .same _⟩
    · rw [h1]; exact ⟨fs, by simp only [List.getElem?_append_left hlt]; exact hi, .same _⟩
    · rw [h1]
      have hh := connInv_register h r c.written
      rcases socketError_futs hh e i fs
        (by simp only [List.getElem?_append_left hlt]; exact hi) with h1 | ⟨h1, rfl, h2⟩
      · exact ⟨fs, h1, .same _⟩
      · refine ⟨_, h2, .fail e ?_⟩
        simp only [Dict.vals, List.mem_map] at h1 ⊢
        obtain ⟨⟨k, i'⟩, hm, rfl⟩ := h1
        rw [Dict.mem_set h.nodup] at hm
        rcases hm with hm | hm
        · cases hm; exact absurd hlt (Nat.lt_irrefl _)
        · exact ⟨_, hm.1, rfl⟩
  | writeDone e =>
    cases e with
    | none => exact ⟨fs, hi, .same _⟩
    | some e => exact sock e
  | deliver k p =>
    simp only [Conn.step]
    rcases deliver_cases cx depth c k p with ⟨_, h1⟩ | ⟨_, _, h1⟩ | ⟨_, a, ha, ⟨e, _, h1⟩ |
      ⟨cls, v, j, hc, hd, hp, h1⟩⟩
    · rw [h1]; exact ⟨fs, hi, .same _⟩
    · rw [h1]; exact sock _
    · rw [h1]
      rcases socketError_futs (connInv_eraseApi h k) e i fs hi with h2 | ⟨h2, rfl, h3⟩
      · exact ⟨fs, h2, .same _⟩
      · exact ⟨_, h3, .fail e h2⟩
    · rw [h1]
      simp only [settle_getElem?]
      split
      · rename_i hij
        subst hij
        obtain ⟨h2, r, h3, h4, h5⟩ := h.entry _ _ (Dict.mem_of_get? hp)
        rw [hi] at h2; cases h2
        refine ⟨_, by rw [hi]; rfl, .answer k p v r cls rfl h3 h4 ?_ hd⟩
        rw [← h5 a ha]; exact hc
      · exact ⟨fs, hi, .same _⟩
  | readError e =>
    simp only [Conn.step, Conn.readError]
    split
    · exact ⟨fs, hi, .same _⟩
    · exact sock e
  | abort =>
    simp only [Conn.step]
    rcases abort_futs h .none i fs hi with h1 | ⟨h1, rfl, h2⟩
    · exact ⟨fs, h1, .same _⟩
    · exact ⟨_, h2, .fail _ h1⟩
  | close => exact ⟨fs, hi, .same _⟩

/-- What one event does to the list of requests and to what new futures look like. -/
theorem socketError_sent (c : Conn) (e : Exc) : (c.socketError e).sent = c.sent := by
  unfold Conn.socketError Conn.abort
  split
  · rfl
  · split <;> rfl

theorem abort_sent (c : Conn) (e : Option Exc) : (c.abort e).sent = c.sent := by
  unfold Conn.abort
  split <;> rfl

/-- The requests sent by an event. -/
def evSends : ConnEv → List Req
  | .send r _ => [r]
  | _ => []

theorem step_sent (cx : Codec) (depth : Nat) (c : Conn) (ev : ConnEv) :
    (c.step cx depth ev).sent = c.sent ∨
      (c.step cx depth ev).sent = c.sent ++ evSends ev := by
  cases ev with
  | send r w =>
    simp only [Conn.step, evSends]
    rcases send_cases c r w with ⟨_, h1⟩ | ⟨_, e, h1⟩ | ⟨_, p, b, _, _, ⟨_, h1⟩ | ⟨e, _, h1⟩⟩ <;>
      rw [h1] <;> simp [socketError_sent]
  | writeDone e => cases e <;> simp [Conn.step, Conn.writeDone, socketError_sent]
  | deliver k p =>
    simp only [Conn.step]
    rcases deliver_cases cx depth c k p with ⟨_, h1⟩ | ⟨_, _, h1⟩ | ⟨_, a, ha, ⟨e, _, h1⟩ |
      ⟨cls, v, j, hc, hd, hp, h1⟩⟩ <;> rw [h1] <;> simp [socketError_sent]
  | readError e =>
    simp only [Conn.step, Conn.readError]
    split <;> simp [socketError_sent]
  | abort => simp [Conn.step, abort_sent]
  | close => simp [Conn.step, Conn.close]

/-- A settled result did not come with the creation of the future. -/
theorem step_new {c : Conn} (h : ConnInv c) (cx : Codec) (depth : Nat) (ev : ConnEv)
    (i : Nat) (hi : c.futs[i]? = .none) (fs : List Outcome)
    (hs : (c.step cx depth ev).futs[i]? = some fs) : ∀ k v, Outcome.result k v ∉ fs := by
  have hlen : (c.step cx depth ev).sent.length = (c.step cx depth ev).futs.length :=
    (connInv_step h cx depth ev).len
  have hge : c.futs.length ≤ i := by simpa using hi
  have hlt := (List.getElem?_eq_some_iff.1 hs).1
  have hsent := step_sent cx depth c ev
  cases ev with
  | send r w =>
    clear hsent
    simp only [Conn.step] at *
    rcases send_cases c r w with ⟨_, h1⟩ | ⟨_, e, h1⟩ | ⟨_, p, b, _, _, ⟨_, h1⟩ | ⟨e, _, h1⟩⟩
    · rw [h1] at hs hlt
      simp only [List.length_append, List.length_singleton] at hlt hs
      obtain rfl : i = c.futs.length := by omega
      simp at hs; subst hs; simp
    · rw [h1] at hs hlt; simp only at hlt; omega
    · rw [h1] at hs hlt
      simp only [List.length_append, List.length_singleton] at hlt hs
      obtain rfl : i = c.futs.length := by omega
      simp at hs; subst hs; simp
    · rw [h1] at hs hlt
      have hh := connInv_register h r c.written
      have hnil : (c.futs ++ [[]])[i]? = some [] := by
        have : (Conn.socketError { c with
          apiCorr := c.apiCorr.set r.correlationId r.cls.api
          pending := c.pending.set r.correlationId c.futs.length
          futs := c.futs ++ [[]]
          sent := c.sent ++ [r] } e).futs.length = c.futs.length + 1 := by
          have := (connInv_socketError hh e).len
          rw [← this, socketError_sent]; simp [h.len]
        simp only at hlt
        obtain rfl : i = c.futs.length := by omega
        simp
      rcases socketError_futs hh e i [] hnil with h2 | ⟨_, _, h2⟩
      · rw [h2] at hs; cases hs; simp
      · rw [h2] at hs; cases hs; simp
  | _ =>
    exfalso
    simp only [evSends, List.append_nil, or_self] at hsent
    have := congrArg List.length hsent
    rw [hlen, h.len] at this
    omega

theorem socketError_closing (c : Conn) (e : Exc) : (c.socketError e).closing = true := by
  unfold Conn.socketError Conn.abort
  split
  · rfl
  · split
    · assumption
    · rfl

theorem step_closing (cx : Codec) (depth : Nat) {c : Conn} (h : c.closing = true) (ev : ConnEv) :
    (c.step cx depth ev).closing = true := by
  cases ev with
  | send r w =>
    simp only [Conn.step]
    rcases send_cases c r w with ⟨_, h1⟩ | ⟨_, e, h1⟩ | ⟨_, p, b, _, _, ⟨_, h1⟩ | ⟨e, _, h1⟩⟩ <;>
      rw [h1] <;> simp [socketError_closing, h]
  | writeDone e => cases e <;> simp [Conn.step, Conn.writeDone, socketError_closing, h]
  | deliver k p =>
    simp only [Conn.step]
    rcases deliver_cases cx depth c k p with ⟨_, h1⟩ | ⟨_, _, h1⟩ | ⟨_, a, ha, ⟨e, _, h1⟩ |
      ⟨cls, v, j, hc, hd, hp, h1⟩⟩ <;> rw [h1] <;> simp [socketError_closing, h]
  | readError e =>
    simp only [Conn.step, Conn.readError]
    split <;> simp [socketError_closing, h]
  | abort => simp [Conn.step, Conn.abort, h]
  | close => simp [Conn.step, Conn.close]

theorem run_closing (cx : Codec) (depth : Nat) {c : Conn} (h : c.closing = true)
    (evs : List ConnEv) : (c.run cx depth evs).closing = true := by
  induction evs generalizing c with
  | nil => exact h
  | cons e r ih => exact ih (step_closing cx depth h e)

/-- What else holds of an open connection on which no correlation id was used twice. -/
structure OpenInv (c : Conn) : Prop where
  full : ∀ (i : Nat), c.futs[i]? = some [] → ∃ r, c.sent[i]? = some r ∧
    (r.correlationId, i) ∈ c.pending ∧ c.apiCorr.get? r.correlationId = some r.cls.api
  apis : ∀ (k : Int) (a : String), c.apiCorr.get? k = some a → ∃ i, (k, i) ∈ c.pending

theorem openInv_init : OpenInv Conn.init := by
  constructor <;> simp [Conn.init, Dict.get?]

theorem openInv_step {c : Conn} (h : ConnInv c) (cx : Codec) (depth : Nat) (ev : ConnEv)
    (hn : ∀ r w, ev = .send r w → ∀ (i : Nat) (r' : Req), c.futs[i]? = some [] →
      c.sent[i]? = some r' → r'.correlationId ≠ r.correlationId)
    (ho : c.closing = false → OpenInv c) :
    (c.step cx depth ev).closing = false → OpenInv (c.step cx depth ev) := by
  intro hs
  have hc : c.closing = false := by
    cases hcc : c.closing with
    | false => rfl
    | true => rw [step_closing cx depth hcc] at hs; cases hs
  have ho := ho hc
  cases ev with
  | send r w =>
    simp only [Conn.step] at *
    rcases send_cases c r w with ⟨h0, h1⟩ | ⟨_, e, h1⟩ | ⟨_, p, b, _, _, ⟨_, h1⟩ | ⟨e, _, h1⟩⟩
    · rw [hc] at h0; cases h0
    · rw [h1]; exact ho
    · rw [h1]
      have hpend : ∀ k i, (k, i) ∈ c.pending → k ≠ r.correlationId := by
        rintro k i hm rfl
        obtain ⟨h1, r', h2, h3, _⟩ := h.entry _ _ hm
        exact hn r w rfl i r' h1 h2 h3
      constructor
      · intro i hi
        simp only at hi ⊢
        rw [List.getElem?_append] at hi
        split at hi
        · rename_i hlt
          obtain ⟨r', h2, h3, h4⟩ := ho.full i hi
          refine ⟨r', ?_, ?_, ?_⟩
          · rw [List.getElem?_append_left (by rw [h.len]; exact hlt)]; exact h2
          · rw [Dict.mem_set h.nodup]; exact Or.inr ⟨h3, hpend _ _ h3⟩
          · rw [Dict.get?_set, if_neg (Ne.symm (hpend _ _ h3))]; exact h4
        · rename_i hlt
          have : i = c.futs.length := by
            rw [List.getElem?_singleton] at hi
            split at hi
            · omega
            · cases hi
          subst this
          refine ⟨r, by simp [← h.len], ?_, ?_⟩
          · rw [Dict.mem_set h.nodup]; exact Or.inl rfl
          · rw [Dict.get?_set, if_pos rfl]
      · intro k a hk
        simp only [Dict.get?_set] at hk ⊢
        split at hk
        · rename_i hkk; subst hkk
          exact ⟨_, (Dict.mem_set h.nodup).2 (Or.inl rfl)⟩
        · rename_i hkk
          obtain ⟨i, hi⟩ := ho.apis k a hk
          exact ⟨i, (Dict.mem_set h.nodup).2 (Or.inr ⟨hi, Ne.symm hkk⟩)⟩
    · rw [h1] at hs; simp [socketError_closing] at hs
  | writeDone e =>
    cases e with
    | none => exact ho
    | some e => simp [Conn.step, Conn.writeDone, socketError_closing] at hs
  | deliver k p =>
    simp only [Conn.step] at *
    rcases deliver_cases cx depth c k p with ⟨_, h1⟩ | ⟨_, _, h1⟩ | ⟨_, a, ha, ⟨e, _, h1⟩ |
      ⟨cls, v, j, hcl, hd, hp, h1⟩⟩
    · rw [h1]; exact ho
    · rw [h1] at hs; simp [socketError_closing] at hs
    · rw [h1] at hs; simp [socketError_closing] at hs
    · rw [h1]
      have hm := Dict.mem_of_get? hp
      obtain ⟨hf, r, hr, hrk, _⟩ := h.entry _ _ hm
      constructor
      · intro i hi
        simp only [settle_getElem?] at hi ⊢
        split at hi
        · rename_i hij; subst hij; rw [hf] at hi; simp at hi
        · rename_i hij
          obtain ⟨r', h2, h3, h4⟩ := ho.full i hi
          have hk : r'.correlationId ≠ k := by
            rintro hk
            rw [hk] at h3
            have := Dict.get?_of_mem h.nodup h3
            rw [hp] at this
            cases this
            exact hij rfl
          refine ⟨r', h2, Dict.mem_erase.2 ⟨h3, hk⟩, ?_⟩
          rw [Dict.get?_erase, if_neg (Ne.symm hk)]; exact h4
      · intro k' a' hk'
        simp only [Dict.get?_erase] at hk' ⊢
        split at hk'
        · cases hk'
        · rename_i hkk
          obtain ⟨i, hi⟩ := ho.apis k' a' hk'
          exact ⟨i, Dict.mem_erase.2 ⟨hi, Ne.symm hkk⟩⟩
  | readError e =>
    have := h.live hc
    simp [Conn.step, Conn.readError, socketError_closing, this] at hs
  | abort => simp [Conn.step, Conn.abort, hc] at hs
  | close => simp [Conn.step, Conn.close] at hs

theorem openInv_run {c : Conn} (h : ConnInv c) (cx : Codec) (depth : Nat) (evs : List ConnEv)
    (hn : ∀ before r w after, evs = before ++ .send r w :: after → ∀ (i : Nat) (r' : Req),
      (c.run cx depth before).futs[i]? = some [] →
      (c.run cx depth before).sent[i]? = some r' → r'.correlationId ≠ r.correlationId)
    (ho : c.closing = false → OpenInv c) :
    (c.run cx depth evs).closing = false → OpenInv (c.run cx depth evs) := by
  induction evs generalizing c with
  | nil => exact ho
  | cons ev rest ih =>
    refine ih (connInv_step h cx depth ev) ?_ (openInv_step h cx depth ev ?_ ho)
    · intro before r w after he
      exact hn (ev :: before) r w after (by rw [he]; rfl)
    · rintro r w rfl
      exact hn [] r w rest rfl

/-- Events after which the connection is closed and nobody reads change no future. -/
theorem frozen_step (cx : Codec) (depth : Nat) {c : Conn} (hc : c.closing = true)
    (hr : c.reading = false) (ev : ConnEv) :
    (c.step cx depth ev).closing = true ∧ (c.step cx depth ev).reading = false ∧
    (c.step cx depth ev).written = c.written ∧
    (∃ l, (c.step cx depth ev).futs = c.futs ++ l) := by
  have hse : ∀ e, c.socketError e = c := by
    intro e
    have ha : c.abort (some e) = c := by simp [Conn.abort, hc]
    unfold Conn.socketError
    split
    · cases c; simp_all
    · exact ha
  cases ev with
  | send r w => simp [Conn.step, Conn.send, hc, hr]
  | writeDone e => cases e <;> simp [Conn.step, Conn.writeDone, hse, hc, hr]
  | deliver k p => simp [Conn.step, Conn.deliver, hr, hc]
  | readError e => simp [Conn.step, Conn.readError, hr, hc]
  | abort => simp [Conn.step, Conn.abort, hr, hc]
  | close => simp [Conn.step, Conn.close, hr]

theorem frozen_run (cx : Codec) (depth : Nat) {c : Conn} (hc : c.closing = true)
    (hr : c.reading = false) (evs : List ConnEv) :
    (c.run cx depth evs).written = c.written ∧ ∃ l, (c.run cx depth evs).futs = c.futs ++ l := by
  induction evs generalizing c with
  | nil => exact ⟨rfl, [], by simp [Conn.run]⟩
  | cons ev r ih =>
    obtain ⟨h1, h2, h3, l, h4⟩ := frozen_step cx depth hc hr ev
    obtain ⟨h5, l', h6⟩ := ih h1 h2
    exact ⟨h5.trans h3, l ++ l', by
      show (Conn.run cx depth (c.step cx depth ev) r).futs = _
      rw [h6, h4, List.append_assoc]⟩

/-- Nothing is written once the connection is closing. -/
theorem step_written (cx : Codec) (depth : Nat) {c : Conn} (hc : c.closing = true)
    (ev : ConnEv) : (c.step cx depth ev).written = c.written := by
  have hse : ∀ (c : Conn) e, (c.socketError e).written = c.written := by
    intro c e
    unfold Conn.socketError Conn.abort
    split
    · rfl
    · split <;> rfl
  cases ev with
  | send r w => simp [Conn.step, Conn.send, hc]
  | writeDone e => cases e <;> simp [Conn.step, Conn.writeDone, hse]
  | deliver k p =>
    simp only [Conn.step]
    rcases deliver_cases cx depth c k p with ⟨_, h1⟩ | ⟨_, _, h1⟩ | ⟨_, a, ha, ⟨e, _, h1⟩ |
      ⟨cls, v, j, hcl, hd, hp, h1⟩⟩ <;> rw [h1] <;> simp [hse]
  | readError e =>
    simp only [Conn.step, Conn.readError]
    split <;> simp [hse]
  | abort => simp [Conn.step, Conn.abort, hc]
  | close => simp [Conn.step, Conn.close]

theorem run_written (cx : Codec) (depth : Nat) {c : Conn} (hc : c.closing = true)
    (evs : List ConnEv) : (c.run cx depth evs).written = c.written := by
  induction evs generalizing c with
  | nil => rfl
  | cons ev r ih => exact (ih (step_closing cx depth hc ev)).trans (step_written cx depth hc ev)

end Kiel
