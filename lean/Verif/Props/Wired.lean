import Verif.Spec.Wired
import Verif.Props.Connection
import Verif.Props.Unanswered
import Verif.Util.Krfl
/-
C142, C143: `send`s over the connections they share.
-/
set_option autoImplicit false
namespace Kiel
open Spec

variable {σ ρ : Type}

/-! ### What becomes of the connections -/

theorem send_step (cx : Codec) (depth : Nat) (c : Conn) (r : Req) (w : Write) :
    (c.send r w).2 = c.step cx depth (.send r w) := rfl

/-- `c` becomes `c'` by sending. -/
def Sent (cx : Codec) (depth : Nat) (c c' : Conn) : Prop :=
  ∃ new, c' = c.run cx depth new ∧ ∀ ev ∈ new, ∃ r w, ev = ConnEv.send r w

theorem Sent.refl (cx : Codec) (depth : Nat) (c : Conn) : Sent cx depth c c :=
  ⟨[], rfl, fun _ h => (List.not_mem_nil h).elim⟩

theorem Sent.one (cx : Codec) (depth : Nat) (c : Conn) (r : Req) (w : Write) :
    Sent cx depth c (c.send r w).2 :=
  ⟨[.send r w], rfl, fun _ h => ⟨r, w, List.mem_singleton.1 h⟩⟩

theorem Sent.trans {cx : Codec} {depth : Nat} {a b c : Conn} (h1 : Sent cx depth a b)
    (h2 : Sent cx depth b c) : Sent cx depth a c := by
  obtain ⟨n1, rfl, h1⟩ := h1
  obtain ⟨n2, rfl, h2⟩ := h2
  refine ⟨n1 ++ n2, (run_append _ _ _ _ _).symm, fun ev h => ?_⟩
  rcases List.mem_append.1 h with h | h
  · exact h1 ev h
  · exact h2 ev h

theorem set_sent {cx : Codec} {depth : Nat} {pool : List Conn} {k j : Nat} {c c' d : Conn}
    (hc : pool[k]? = some c) (h : Sent cx depth c c') (hj : pool[j]? = some d) :
    ∃ d', (pool.set k c')[j]? = some d' ∧ Sent cx depth d d' := by
  by_cases hjk : k = j
  · subst hjk
    rw [hc] at hj
    cases hj
    exact ⟨c', by simp [(List.getElem?_eq_some_iff.1 hc).1], h⟩
  · exact ⟨d, by rw [List.getElem?_set_ne hjk]; exact hj, Sent.refl _ _ _⟩

theorem sendAll_pool (cx : Codec) (depth : Nat) (conns : Dict Int Nat) (write : Int → Write)
    (requests : List (Int × Req)) (pool : List Conn) (j : Nat) (d : Conn) (hj : pool[j]? = some d) :
    ∃ d', (sendAll conns write requests pool).2[j]? = some d' ∧ Sent cx depth d d' := by
  induction requests generalizing pool d with
  | nil => exact ⟨d, hj, Sent.refl _ _ _⟩
  | cons q rest ih =>
    obtain ⟨b, r⟩ := q
    unfold sendAll
    cases hb : conns.get? b with
    | none => exact ⟨d, hj, Sent.refl _ _ _⟩
    | some k =>
      cases hk : pool[k]? with
      | none => simp only [hk]; exact ⟨d, hj, Sent.refl _ _ _⟩
      | some c =>
        have hs := Sent.one cx depth c r (write b)
        simp only [hk]
        cases hx : c.send r (write b) with
        | mk res c' =>
          rw [hx] at hs
          obtain ⟨d1, h1, h2⟩ := set_sent hk hs hj
          cases res with
          | error e => exact ⟨d1, h1, h2⟩
          | ok n =>
            obtain ⟨d2, h3, h4⟩ := ih _ _ h1
            simp only
            cases hy : sendAll conns write rest (pool.set k c') with
            | mk res2 pool2 =>
              rw [hy] at h3
              cases res2 <;> exact ⟨d2, h3, h2.trans h4⟩

/-- The request of a future, and that it was not answered. -/
def NoAnswer (c : Conn) (n : Nat) (r : Req) : Prop :=
  c.sent[n]? = some r ∧ ∃ fs, c.futs[n]? = some fs ∧ ∀ k v, Outcome.result k v ∉ fs

theorem sent_stays (cx : Codec) (depth : Nat) (c : Conn) (n : Nat) (r : Req) (h : c.sent[n]? = some r)
    (ev : ConnEv) : (c.step cx depth ev).sent[n]? = some r := by
  have hlt := (List.getElem?_eq_some_iff.1 h).1
  rcases step_sent cx depth c ev with h1 | h1 <;> rw [h1]
  · exact h
  · rw [List.getElem?_append_left hlt]; exact h

/-- Where an answer comes from. -/
theorem answered_in (cx : Codec) (depth : Nat) (c : Conn) (hc : ConnInv c) (n : Nat) (r : Req)
    (h : NoAnswer c n r) (new : List ConnEv) :
    ConnInv (c.run cx depth new) ∧ (c.run cx depth new).sent[n]? = some r ∧
    ∃ fs, (c.run cx depth new).futs[n]? = some fs ∧ ∀ k v, Outcome.result k v ∈ fs →
      k = r.correlationId ∧ ∃ p, ConnEv.deliver k p ∈ new ∧ AnswerReads cx depth r.cls.api p (.ok v) := by
  induction new using List.reverseRecOn with
  | nil =>
    obtain ⟨h1, fs, h2, h3⟩ := h
    exact ⟨hc, h1, fs, h2, fun k v hv => absurd hv (h3 k v)⟩
  | append_singleton new ev ih =>
    obtain ⟨h0, h1, fs, h2, h3⟩ := ih
    rw [run_snoc]
    refine ⟨connInv_step h0 cx depth ev, sent_stays cx depth _ n r h1 ev, ?_⟩
    obtain ⟨fs', h4, h5⟩ := step_change h0 cx depth ev n fs h2
    refine ⟨fs', h4, fun k v hv => ?_⟩
    cases h5 with
    | same =>
      obtain ⟨h6, p, h7, h8⟩ := h3 k v hv
      exact ⟨h6, p, List.mem_append_left _ h7, h8⟩
    | fail e => simp at hv
    | answer k' p v' r' cls h6 h7 h8 h9 h10 =>
      simp only [List.mem_singleton, Outcome.result.injEq] at hv
      obtain ⟨rfl, rfl⟩ := hv
      rw [h1] at h7
      cases h7
      exact ⟨h8.symm, p, by simp [h6], (answerReads_iff cx depth h9).2 h10⟩

theorem NoAnswer.sent {cx : Codec} {depth : Nat} {c c' : Conn} (hc : ConnInv c) {n : Nat} {r : Req}
    (h : NoAnswer c n r) (hs : Sent cx depth c c') : NoAnswer c' n r := by
  obtain ⟨new, rfl, h1⟩ := hs
  obtain ⟨_, h2, fs, h3, h4⟩ := answered_in cx depth c hc n r h new
  refine ⟨h2, fs, h3, fun k v hv => ?_⟩
  obtain ⟨_, p, h5, _⟩ := h4 k v hv
  obtain ⟨r', w, h6⟩ := h1 _ h5
  cases h6

theorem send_noAnswer (c : Conn) (hc : ConnInv c) (r : Req) (w : Write) (n : Nat) (c' : Conn)
    (h : c.send r w = (.ok n, c')) : NoAnswer c' n r := by
  have hl := hc.len
  rcases send_cases c r w with ⟨_, h1⟩ | ⟨_, e, h1⟩ | ⟨_, p, b, _, _, ⟨_, h1⟩ | ⟨e, _, h1⟩⟩
  · rw [h] at h1
    cases h1
    exact ⟨by simp [← hl], [.exc .brokerConnection], by simp, by simp⟩
  · rw [h] at h1
    cases h1
  · rw [h] at h1
    cases h1
    exact ⟨by simp [← hl], [], by simp, by simp⟩
  · rw [h] at h1
    cases h1
    have hh := connInv_register hc r c.written
    refine ⟨by rw [socketError_sent]; simp [← hl], ?_⟩
    have hnil : (c.futs ++ [[]])[c.futs.length]? = some ([] : List Outcome) := by simp
    rcases socketError_futs hh e c.futs.length [] hnil with h2 | ⟨_, _, h2⟩
    · exact ⟨_, h2, by simp⟩
    · exact ⟨_, h2, by simp⟩

/-- The futures of a `send` that has begun. -/
theorem sendAll_waits (cx : Codec) (depth : Nat) (conns : Dict Int Nat) (write : Int → Write)
    (requests : List (Int × Req)) (pool pool' : List Conn) (l : Dict Int (Nat × Nat))
    (hinv : ∀ (k : Nat) (c : Conn), pool[k]? = some c → ConnInv c)
    (h : sendAll conns write requests pool = (.ok l, pool')) :
    l.keys = requests.map (·.1) ∧ ∀ b k n, (b, k, n) ∈ l → ∃ r c, (b, r) ∈ requests ∧
      conns.get? b = some k ∧ pool'[k]? = some c ∧ NoAnswer c n r := by
  induction requests generalizing pool l with
  | nil =>
    simp only [sendAll, Prod.mk.injEq, Except.ok.injEq] at h
    obtain ⟨rfl, rfl⟩ := h
    exact ⟨rfl, fun _ _ _ h => (List.not_mem_nil h).elim⟩
  | cons q rest ih =>
    obtain ⟨b, r⟩ := q
    unfold sendAll at h
    split at h
    · cases h
    · rename_i k hb
      split at h
      · cases h
      · rename_i c hk
        split at h
        · cases h
        · rename_i n c' hx
          have hinv' : ∀ (j : Nat) (d : Conn), (pool.set k c')[j]? = some d → ConnInv d := by
            intro j d hj
            by_cases hjk : k = j
            · subst hjk
              rw [List.getElem?_set_self (List.getElem?_eq_some_iff.1 hk).1] at hj
              cases hj
              have := connInv_step (hinv k c hk) cx depth (.send r (write b))
              rw [← send_step, hx] at this
              exact this
            · rw [List.getElem?_set_ne hjk] at hj
              exact hinv j d hj
          split at h
          · cases h
          · rename_i l' pool2 hy
            cases h
            obtain ⟨h1, h2⟩ := ih _ _ hinv' hy
            refine ⟨by simp [Dict.keys] at h1 ⊢; exact h1, fun b' k' n' hm => ?_⟩
            rcases List.mem_cons.1 hm with hm | hm
            · cases hm
              have hck : (pool.set k c')[k]? = some c' := by
                simp [(List.getElem?_eq_some_iff.1 hk).1]
              obtain ⟨d, h3, h4⟩ := sendAll_pool cx depth conns write rest _ k c' hck
              rw [hy] at h3
              exact ⟨r, d, by simp, hb, h3, (send_noAnswer c (hinv k c hk) r _ n c' hx).sent
                (hinv' k c' hck) h4⟩
            · obtain ⟨r', c2, h3, h4⟩ := h2 b' k' n' hm
              exact ⟨r', c2, by simp [h3], h4⟩

theorem closeAll_pool (ks : List Nat) (pool : List Conn) (j : Nat) (d : Conn)
    (hj : pool[j]? = some d) :
    ((ks.foldl (fun pool k => pool.modify k Conn.close) pool)[j]? = some (if j ∈ ks then d.close else d)) := by
  induction ks generalizing pool d with
  | nil => simpa using hj
  | cons k ks ih =>
    rw [List.foldl_cons]
    by_cases hk : k = j
    · subst hk
      have : (pool.modify k Conn.close)[k]? = some d.close := by simp [hj]
      rw [ih _ _ this]
      by_cases h : k ∈ ks <;> simp [h, Conn.close]
    · have : (pool.modify k Conn.close)[j]? = some d := by simp [hj, hk]
      rw [ih _ _ this]
      have hkj : j ≠ k := Ne.symm hk
      by_cases h : j ∈ ks <;> simp [h, hkj]

/-- What an event does to a connection. -/
theorem net_pool (hs : Handlers σ Reply ρ) (cx : Codec) (depth : Nat) (s : Wired σ ρ) (e : WEv σ) (k : Nat)
    (c : Conn) (hk : s.pool[k]? = some c) :
    ∃ new, (s.step hs cx depth e).2.pool[k]? = some (c.run cx depth new) ∧
      ∀ j p, ConnEv.deliver j p ∈ new → e = .wire k (.deliver j p) := by
  have same : ∃ new, s.pool[k]? = some (c.run cx depth new) ∧
      ∀ j p, ConnEv.deliver j p ∈ new → e = .wire k (.deliver j p) :=
    ⟨[], hk, fun _ _ h => (List.not_mem_nil h).elim⟩
  cases e with
  | send i requests write =>
    simp only [Wired.step, Wired.net]
    split
    · exact same
    · obtain ⟨d, h1, new, h2, h3⟩ := sendAll_pool cx depth s.conns write requests s.pool k c hk
      refine ⟨new, ?_, fun j p h => ?_⟩
      · rw [← h2, ← h1]
        split <;> rename_i hx <;> rw [hx]
      · obtain ⟨r, w, h4⟩ := h3 _ h
        cases h4
  | takes i b => exact same
  | finish i => exact same
  | healed i r => exact same
  | other f => exact same
  | drops b => exact same
  | connects b =>
    refine ⟨[], ?_, fun _ _ h => (List.not_mem_nil h).elim⟩
    simp only [Wired.step, Wired.net]
    rw [List.getElem?_append_left (List.getElem?_eq_some_iff.1 hk).1]
    exact hk
  | wire j ev =>
    simp only [Wired.step, Wired.net, List.getElem?_modify, hk]
    by_cases hj : j = k
    · subst hj
      exact ⟨[ev], by simp [Conn.run], fun j' p h => by rw [List.mem_singleton] at h; rw [h]⟩
    · exact ⟨[], by simp [hj, Conn.run], fun _ _ h => (List.not_mem_nil h).elim⟩
  | stops =>
    simp only [Wired.step, Wired.net, closeAll]
    rw [closeAll_pool s.conns.vals s.pool k c hk]
    by_cases hm : k ∈ s.conns.vals
    · exact ⟨[.close], by simp [hm, Conn.run, Conn.step], by simp⟩
    · exact ⟨[], by simp [hm, Conn.run], by simp⟩

/-- Connections that come into being are new ones. -/
theorem net_new (hs : Handlers σ Reply ρ) (cx : Codec) (depth : Nat) (s : Wired σ ρ) (e : WEv σ) (k : Nat)
    (c : Conn) (h0 : s.pool[k]? = .none) (hk : (s.step hs cx depth e).2.pool[k]? = some c) :
    c = Conn.init := by
  have hle := List.getElem?_eq_none_iff.1 h0
  have hlen : ∀ (requests : List (Int × Req)) (write : Int → Write) (pool : List Conn),
      (sendAll s.conns write requests pool).2.length = pool.length := by
    intro requests write
    induction requests with
    | nil => intro pool; rfl
    | cons q rest ih =>
      intro pool
      unfold sendAll
      split
      · rfl
      · split
        · rfl
        · split
          · simp
          · split <;> rename_i hx <;> have hx' := congrArg (fun x => x.2.length) hx <;>
              simp only [ih, List.length_set] at hx' <;> exact hx'.symm
  have hlt := (List.getElem?_eq_some_iff.1 hk).1
  cases e with
  | send i requests write =>
    exfalso
    simp only [Wired.step, Wired.net] at hlt
    split at hlt
    · omega
    · have h1 := hlen requests write s.pool
      split at hlt <;> rename_i hx <;> rw [hx] at h1 <;> simp only at hlt h1 <;> omega
  | connects b =>
    simp only [Wired.step, Wired.net, List.length_append, List.length_singleton] at hlt hk
    obtain rfl : k = s.pool.length := by omega
    simpa using hk.symm
  | wire j ev => exfalso; simp [Wired.step, Wired.net] at hlt; omega
  | stops =>
    exfalso
    have : ∀ (ks : List Nat) (pool : List Conn),
        (ks.foldl (fun pool k => pool.modify k Conn.close) pool).length = pool.length := by
      intro ks
      induction ks with
      | nil => intro pool; rfl
      | cons k ks ih => intro pool; rw [List.foldl_cons, ih]; simp
    simp only [Wired.step, Wired.net, closeAll, this] at hlt
    omega
  | _ => exact absurd hk (by show ¬ s.pool[k]? = some c; rw [h0]; simp)

/-- All connections have been made, and used since. -/
def SoundPool (s : Wired σ ρ) : Prop := ∀ (k : Nat) (c : Conn), s.pool[k]? = some c → ConnInv c

theorem soundPool_step (hs : Handlers σ Reply ρ) (cx : Codec) (depth : Nat) (s : Wired σ ρ) (h : SoundPool s)
    (e : WEv σ) : SoundPool (s.step hs cx depth e).2 := by
  intro k c hk
  cases h0 : s.pool[k]? with
  | none => rw [net_new hs cx depth s e k c h0 hk]; exact inv_of cx depth []
  | some d =>
    obtain ⟨new, h1, _⟩ := net_pool hs cx depth s e k d h0
    rw [hk] at h1
    cases h1
    exact connInv_run (h k d h0) cx depth new

theorem soundPool_course (hs : Handlers σ Reply ρ) (cx : Codec) (depth : Nat) (es : List (WEv σ)) (s : Wired σ ρ)
    (h : SoundPool s) : SoundPool (wiredCourse hs cx depth s es).2 := by
  induction es generalizing s with
  | nil => exact h
  | cons e es ih => exact ih _ (soundPool_step hs cx depth s h e)

theorem soundPool_unwired (client : σ) : SoundPool (unwired client : Wired σ ρ) := by
  intro k c h
  simp [unwired] at h

/-! ### C143 -/

/-- The state of a `send` under way, `es` having happened since it began. -/
structure SendInv (hs : Handlers σ Reply ρ) (cx : Codec) (depth : Nat) (conns : Dict Int Nat)
    (requests : List (Int × Req)) (i : Nat) (s1 : Wired σ ρ) (es : List (WEv σ)) (s : Wired σ ρ) : Prop where
  waits : ∃ l, s.waits.get? i = some l ∧ ∀ b k n, (b, k, n) ∈ l → ∃ r c new, (b, r) ∈ requests ∧
    conns.get? b = some k ∧ ConnInv c ∧ NoAnswer c n r ∧ s.pool[k]? = some (c.run cx depth new) ∧
    ∀ j p, ConnEv.deliver j p ∈ new → WEv.wire k (.deliver j p) ∈ es
  phase : ∃ left results, (s.sys.sends.get? i = some (.looping left results) ∨
      left = [] ∧ s.sys.sends.get? i = some (.healing results)) ∧
    (∀ b x, (b, x) ∈ results → FromAnswer hs cx depth conns requests es b x) ∧
    ∀ b ∈ requests.map (·.1), b ∈ left ∨ b ∈ results.keys ∨
      ∃ before after e, es = before ++ after ∧
        (wiredCourse hs cx depth s1 before).2.reply i b = some (.error e)

theorem wiredCourse_append (hs : Handlers σ Reply ρ) (cx : Codec) (depth : Nat) (es es' : List (WEv σ))
    (s : Wired σ ρ) : wiredCourse hs cx depth s (es ++ es') =
      ((wiredCourse hs cx depth s es).1 ++ (wiredCourse hs cx depth (wiredCourse hs cx depth s es).2 es').1,
        (wiredCourse hs cx depth (wiredCourse hs cx depth s es).2 es').2) := by
  induction es generalizing s with
  | nil => rfl
  | cons e es ih => rw [List.cons_append, wiredCourse, ih]; rfl

theorem Spec.FromAnswer.more {hs : Handlers σ Reply ρ} {cx : Codec} {depth : Nat} {conns : Dict Int Nat}
    {requests : List (Int × Req)} {es : List (WEv σ)} {b : Int} {x : ρ}
    (h : FromAnswer hs cx depth conns requests es b x) (e : WEv σ) :
    FromAnswer hs cx depth conns requests (es ++ [e]) b x := by
  obtain ⟨r, k, p, v, f, c, h1, h2, h3, h4⟩ := h
  exact ⟨r, k, p, v, f, c, h1, h2, List.mem_append_left _ h3, h4⟩

theorem mem_set_pair {κ ν : Type} [DecidableEq κ] {d : Dict κ ν} {k : κ} {v : ν} {e : κ × ν}
    (h : e ∈ d.set k v) : e = (k, v) ∨ e ∈ d := by
  induction d with
  | nil => simpa [Dict.set] using h
  | cons a d ih =>
    obtain ⟨k', v'⟩ := a
    unfold Dict.set at h
    split at h
    · rename_i hk
      rcases List.mem_cons.1 h with h | h
      · exact .inl (by rw [h, hk])
      · exact .inr (List.mem_cons_of_mem _ h)
    · rcases List.mem_cons.1 h with h | h
      · exact .inr (by rw [h]; exact List.mem_cons_self)
      · rcases ih h with h | h
        · exact .inl h
        · exact .inr (List.mem_cons_of_mem _ h)

theorem reply_from (hs : Handlers σ Reply ρ) (cx : Codec) (depth : Nat) (conns : Dict Int Nat)
    (requests : List (Int × Req)) (i : Nat) (s : Wired σ ρ) (es : List (WEv σ)) (l : Dict Int (Nat × Nat))
    (hl : s.waits.get? i = some l)
    (hw : ∀ b k n, (b, k, n) ∈ l → ∃ r c new, (b, r) ∈ requests ∧
      conns.get? b = some k ∧ ConnInv c ∧ NoAnswer c n r ∧ s.pool[k]? = some (c.run cx depth new) ∧
      ∀ j p, ConnEv.deliver j p ∈ new → WEv.wire k (.deliver j p) ∈ es)
    (b : Int) (x : Reply) (hx : s.reply i b = some (.ok x)) (f : σ → Res ρ × σ × Bool)
    (hf : hs.handle x = some f) (c0 : σ) (y : ρ) (hy : (f c0).1 = .ok y) :
    FromAnswer hs cx depth conns requests es b y := by
  unfold Wired.reply at hx
  rw [hl, Option.bind_some] at hx
  cases hb : l.get? b with
  | none => rw [hb] at hx; cases hx
  | some kn =>
    obtain ⟨k, n⟩ := kn
    obtain ⟨r, c, new, h1, h2, h3, h4, h5, h6⟩ := hw b k n (Dict.mem_of_get? hb)
    obtain ⟨_, h7, fs, h8, h9⟩ := answered_in cx depth c h3 n r h4 new
    simp only [hb, h5, Option.bind_some, Conn.reply, h7, h8] at hx
    cases fs with
    | nil => simp at hx
    | cons o fs =>
      cases o with
      | exc e => simp at hx
      | result j v =>
        simp only [Option.some.injEq, Except.ok.injEq] at hx
        subst hx
        obtain ⟨rfl, p, h10, h11⟩ := h9 j v List.mem_cons_self
        exact ⟨r, k, p, v, f, c0, h1, h2, h6 _ p h10, h11, hf, hy⟩

theorem sendInv_step (hs : Handlers σ Reply ρ) (cx : Codec) (depth : Nat) (conns : Dict Int Nat)
    (requests : List (Int × Req)) (i : Nat) (s1 : Wired σ ρ) (es : List (WEv σ)) (e : WEv σ)
    (h : SendInv hs cx depth conns requests i s1 es (wiredCourse hs cx depth s1 es).2)
    (hn : ¬ EndsSend i ((wiredCourse hs cx depth s1 es).2.step hs cx depth e).1) :
    SendInv hs cx depth conns requests i s1 (es ++ [e])
      ((wiredCourse hs cx depth s1 es).2.step hs cx depth e).2 := by
  generalize hs' : (wiredCourse hs cx depth s1 es).2 = s at h hn
  obtain ⟨⟨l, hl, hw⟩, left, results, hp, hr, ha⟩ := h
  have hhas : s.sys.sends.has i = true := by
    rcases hp with h | ⟨_, h⟩ <;> simp [Dict.has, h]
  have hr1 : ∀ res, (s.sys.step hs (fun _ _ => true) (s.gives e)).1 ≠ .returned i res :=
    fun res h => hn (.inl ⟨res, h⟩)
  have hr2 : ∀ x, (s.sys.step hs (fun _ _ => true) (s.gives e)).1 ≠ .raised i x :=
    fun x h => hn (.inr ⟨x, h⟩)
  have ha' : ∀ {left' : List Int} {results' : Dict Int ρ}, (∀ b, b ∈ left → b ∈ left' ∨ b ∈ results'.keys ∨
        ∃ x, s.reply i b = some (.error x)) →
      (∀ b ∈ Dict.keys results, b ∈ Dict.keys results') →
      ∀ b ∈ requests.map (·.1), b ∈ left' ∨ b ∈ Dict.keys results' ∨
      ∃ before after x, es ++ [e] = before ++ after ∧
        (wiredCourse hs cx depth s1 before).2.reply i b = some (.error x) := by
    intro left' results' hmove hkeep b hb
    rcases ha b hb with h | h | ⟨before, after, x, h1, h2⟩
    · rcases hmove b h with h | h | ⟨x, h⟩
      · exact .inl h
      · exact .inr (.inl h)
      · exact .inr (.inr ⟨es, [e], x, rfl, by rw [hs']; exact h⟩)
    · exact .inr (.inl (hkeep b h))
    · exact .inr (.inr ⟨before, after ++ [e], x, by simp [h1], h2⟩)
  refine ⟨⟨l, ?_, ?_⟩, ?_⟩
  · show (s.net cx depth e).waits.get? i = some l
    cases e with
    | send j q w =>
      simp only [Wired.net]
      split
      · exact hl
      · rename_i hj
        have : j ≠ i := by rintro rfl; exact hj hhas
        split
        · exact hl
        · simpa [Dict.get?_set, this] using hl
    | _ => exact hl
  · intro b k n hm
    obtain ⟨r, c, new, h1, h2, h3, h4, h5, h6⟩ := hw b k n hm
    obtain ⟨new', h7, h8⟩ := net_pool hs cx depth s e k _ h5
    refine ⟨r, c, new ++ new', h1, h2, h3, h4, by rw [run_append]; exact h7, fun j p hd => ?_⟩
    rcases List.mem_append.1 hd with hd | hd
    · exact List.mem_append_left _ (h6 j p hd)
    · rw [h8 j p hd]; simp
  · by_cases ho : ∃ b r, s.gives e = .outcome i b r
    · obtain ⟨b, r, ho⟩ := ho
      have hrep : s.reply i b = some r := by
        cases e with
        | takes j b' =>
          simp only [Wired.gives] at ho
          split at ho
          · cases ho
          · rename_i r' hr'
            cases ho
            exact hr'
        | _ => simp [Wired.gives] at ho
      simp only [Wired.step, ho] at hr1 hr2 ⊢
      rcases hp with hp | ⟨rfl, hp⟩
      · simp only [Sends.step, hp] at hr1 hr2 ⊢
        by_cases hb : b ∈ left
        · simp only [hb, not_true_eq_false, if_false] at hr1 hr2 ⊢
          have hmv : ∀ b', b' ∈ left → b' ∈ left.erase b ∨ b' = b := by
            intro b' hb'
            by_cases h : b' = b
            · exact .inr h
            · exact .inl ((List.mem_erase_of_ne h).2 hb')
          cases r with
          | error x =>
            refine ⟨left.erase b, results, .inl (by simp [Dict.get?_set]), fun b' y hy => (hr b' y hy).more e,
              ha' (fun b' hb' => ?_) (fun _ h => h)⟩
            rcases hmv b' hb' with h | rfl
            · exact .inl h
            · exact .inr (.inr ⟨x, hrep⟩)
          | ok r =>
            simp only at hr1 hr2 ⊢
            cases hh : hs.handle r with
            | none => simp [hh] at hr2
            | some f =>
              simp only [hh] at hr1 hr2 ⊢
              cases hf : f s.sys.client with
              | mk res rest =>
                obtain ⟨c', ask⟩ := rest
                cases res with
                | error x => simp [hf] at hr2
                | ok x =>
                  simp only
                  refine ⟨left.erase b, results.set b x, .inl (by simp [Dict.get?_set]), ?_,
                    ha' (fun b' hb' => ?_) (fun b' h => ?_)⟩
                  · intro b' y hy
                    rcases mem_set_pair hy with hy | hy
                    · cases hy
                      exact (reply_from hs cx depth conns requests i s es l hl hw b r hrep f hh s.sys.client x
                        (by rw [hf])).more e
                    · exact (hr b' y hy).more e
                  · rcases hmv b' hb' with h | rfl
                    · exact .inl h
                    · exact .inr (.inl (by rw [Dict.keys_set]; split <;> simp [*]))
                  · rw [Dict.keys_set]
                    split
                    · exact h
                    · exact List.mem_append_left _ h
        · simp only [hb, not_false_eq_true, if_true] at hr1 hr2 ⊢
          exact ⟨left, results, .inl hp, fun b' y hy => (hr b' y hy).more e,
            ha' (fun _ h => .inl h) (fun _ h => h)⟩
      · simp only [Sends.step, hp] at hr1 hr2 ⊢
        exact ⟨[], results, .inr ⟨rfl, rfl⟩, fun b' y hy => (hr b' y hy).more e,
            ha' (fun _ h => .inl h) (fun _ h => h)⟩
    · have he : ∀ b r, s.gives e ≠ .outcome i b r := fun b r h => ho ⟨b, r, h⟩
      rcases hp with hp | ⟨rfl, hp⟩
      · rcases step_frame hs _ s.sys _ i _ hp he hr1 hr2 with g | ⟨res', g1, g2⟩
        · exact ⟨left, results, .inl g, fun b' y hy => (hr b' y hy).more e,
            ha' (fun _ h => .inl h) (fun _ h => h)⟩
        · simp only [Sending.looping.injEq] at g1
          obtain ⟨rfl, rfl⟩ := g1
          exact ⟨[], results, .inr ⟨rfl, g2⟩, fun b' y hy => (hr b' y hy).more e,
            ha' (fun _ h => .inl h) (fun _ h => h)⟩
      · rcases step_frame hs _ s.sys _ i _ hp he hr1 hr2 with g | ⟨res', g1, g2⟩
        · exact ⟨[], results, .inr ⟨rfl, g⟩, fun b' y hy => (hr b' y hy).more e,
            ha' (fun _ h => .inl h) (fun _ h => h)⟩
        · cases g1

/-- **C143**: however many `send`s share the connections, and whatever else happens meanwhile: what a `send`
returns for a broker is what the handler made of a frame that came from this broker's connection after the
request was made, with its correlation id, read as an answer to this request; and brokers that are not in
what it returns are those whose requests failed. -/
theorem C143_results (hs : Handlers σ Reply ρ) (cx : Codec) (depth : Nat) (client : σ)
    (past : List (WEv σ)) (i : Nat) (requests : List (Int × Req)) (write : Int → Write) (es : List (WEv σ))
    (res : Dict Int ρ) (pre post : List (SOut ρ)) :
    let s := (wiredCourse hs cx depth (unwired client) past).2
    s.sys.sends.has i = false →
    ∀ s1, s.step hs cx depth (.send i requests write) = (.nothing, s1) →
    (wiredCourse hs cx depth s1 es).1 = pre ++ .returned i res :: post →
    (∀ o ∈ pre, ¬ EndsSend i o) →
    (∀ b x, (b, x) ∈ res → FromAnswer hs cx depth s.conns requests (es.take pre.length) b x) ∧
    ∀ b ∈ requests.map (·.1), b ∉ res.keys → ∃ before after e, es.take pre.length = before ++ after ∧
      (wiredCourse hs cx depth s1 before).2.reply i b = some (.error e) := by
  intro s hi s1 hsend hout hpre
  have hsound : SoundPool s := soundPool_course hs cx depth past _ (soundPool_unwired client)
  have h0 : SendInv hs cx depth s.conns requests i s1 [] s1 := by
    have hq := hsend
    simp only [Wired.step, Wired.gives, Wired.net, Sends.step, hi, Bool.false_eq_true, if_false] at hq
    cases hx : sendAll s.conns write requests s.pool with
    | mk r pool =>
      cases r with
      | error x =>
        exfalso
        simp only [hx] at hq
        cases requests with
        | nil => simp [sendAll] at hx
        | cons q requests => simp [sendStart] at hq
      | ok l =>
        simp only [hx] at hq
        have hst : ∀ (l : List Int), sendStart (fun _ => true) (fun _ => (.none : Option Exc)) l = .none := by
          intro l
          induction l with
          | nil => rfl
          | cons b l ih => simp [sendStart, ih]
        rw [hst] at hq
        simp only [Prod.mk.injEq, true_and] at hq
        subst hq
        obtain ⟨h1, h2⟩ := sendAll_waits cx depth s.conns write requests s.pool pool l hsound hx
        refine ⟨⟨l, by simp [Dict.get?_set], fun b k n hm => ?_⟩, requests.map (·.1), [],
          .inl (by simp [Dict.get?_set]), fun _ _ h => (List.not_mem_nil h).elim, fun b hb => .inl hb⟩
        obtain ⟨r, c, h3, h4, h5, h6⟩ := h2 b k n hm
        refine ⟨r, c, [], h3, h4, ?_, h6, h5, fun _ _ h => (List.not_mem_nil h).elim⟩
        refine soundPool_step hs cx depth s hsound (.send i requests write) k c ?_
        rw [hsend]
        exact h5
  have key : ∀ (es : List (WEv σ)), (∀ o ∈ (wiredCourse hs cx depth s1 es).1, ¬ EndsSend i o) →
      SendInv hs cx depth s.conns requests i s1 es (wiredCourse hs cx depth s1 es).2 := by
    intro es
    induction es using List.reverseRecOn with
    | nil => intro _; exact h0
    | append_singleton es e ih =>
      intro h
      rw [wiredCourse_append] at h
      have h2 : (wiredCourse hs cx depth s1 (es ++ [e])).2 =
          ((wiredCourse hs cx depth s1 es).2.step hs cx depth e).2 := by rw [wiredCourse_append]; rfl
      rw [h2]
      exact sendInv_step hs cx depth s.conns requests i s1 es e
        (ih fun o ho => h o (List.mem_append_left _ ho))
        (h _ (List.mem_append_right _ (by simp [wiredCourse])))
  have hlen : ∀ (es : List (WEv σ)) (s : Wired σ ρ), (wiredCourse hs cx depth s es).1.length = es.length := by
    intro es
    induction es with
    | nil => intro s; rfl
    | cons e es ih => intro s; simp [wiredCourse, ih]
  have hlt : pre.length < es.length := by
    have := hlen es s1
    rw [hout] at this
    simp at this
    omega
  have hsplit := wiredCourse_append hs cx depth (es.take pre.length) (es.drop pre.length) s1
  rw [List.take_append_drop] at hsplit
  rw [hsplit] at hout
  have hl1 := hlen (es.take pre.length) s1
  obtain ⟨h3, h4⟩ := List.append_inj hout (by rw [hl1]; simp; omega)
  have hinv := key (es.take pre.length) (by rw [h3]; exact hpre)
  obtain ⟨_, left, results, hp, hr, ha⟩ := hinv
  rw [List.drop_eq_getElem_cons hlt] at h4
  simp only [wiredCourse, List.cons.injEq] at h4
  have hret := step_returned hs _ _ _ i res h4.1
  have : left = [] ∧ results = res := by
    rcases hret with g | g <;> rcases hp with k | ⟨k0, k⟩ <;> rw [g] at k <;> simp_all
  obtain ⟨rfl, rfl⟩ := this
  refine ⟨hr, fun b hb hn => ?_⟩
  rcases ha b hb with h | h | h
  · cases h
  · exact absurd h hn
  · exact h

/-- **C143**: and the connection that a broker's requests go to is one that was made for this broker. -/
theorem C143_connection (hs : Handlers σ Reply ρ) (cx : Codec) (depth : Nat) (client : σ)
    (past : List (WEv σ)) (b : Int) (k : Nat)
    (h : (wiredCourse hs cx depth (unwired client) past).2.conns.get? b = some k) :
    ∃ before after, past = before ++ .connects b :: after ∧
      (wiredCourse hs cx depth (unwired client) before).2.pool.length = k ∧
      (wiredCourse hs cx depth (unwired client) (before ++ [.connects b])).2.pool[k]? = some Conn.init := by
  induction past using List.reverseRecOn with
  | nil => simp [wiredCourse, unwired, Dict.get?] at h
  | append_singleton past e ih =>
    have more : (wiredCourse hs cx depth (unwired client) past).2.conns.get? b = some k →
        ∃ before after, past ++ [e] = before ++ .connects b :: after ∧
        (wiredCourse hs cx depth (unwired client) before).2.pool.length = k ∧
        (wiredCourse hs cx depth (unwired client) (before ++ [.connects b])).2.pool[k]? = some Conn.init := by
      intro h
      obtain ⟨before, after, h1, h2⟩ := ih h
      exact ⟨before, after ++ [e], by simp [h1], h2⟩
    rw [wiredCourse_append] at h
    simp only [wiredCourse, Wired.step] at h
    cases e with
    | connects b' =>
      simp only [Wired.net, Dict.get?_set] at h
      split at h
      · rename_i hb
        subst hb
        refine ⟨past, [], rfl, Option.some.inj h, ?_⟩
        rw [wiredCourse_append, ← Option.some.inj h]
        simp [wiredCourse, Wired.step, Wired.net]
      · exact more h
    | drops b' =>
      simp only [Wired.net, Dict.get?_erase] at h
      split at h
      · cases h
      · exact more h
    | send i q w =>
      simp only [Wired.net] at h
      split at h
      · exact more h
      · split at h <;> exact more h
    | _ => exact more h

/-- Handlers for the examples: of answers to coordinator requests, they return the correlation id. -/
def exByCorr : Handlers Unit Reply Int where
  api := Reply.api
  handle x := if x.api = "group_coordinator" then some fun c => (.ok x.corr, c, false) else .none

/-- Two `send`s, each to two brokers, over the same two connections; the answers come in another order, and
broker 2 does not answer the second. -/
def exShared : List (WEv Unit) :=
  [.wire 0 (.deliver 9 exAnswer), .takes 1 1, .wire 1 (.deliver 8 exAnswer),
   .wire 0 (.deliver 7 exAnswer), .takes 0 2, .wire 1 .abort, .takes 0 1, .finish 0, .takes 1 2,
   .finish 1, .healed 1 (.ok ())]

def exSharing (cx : Codec) : Wired Unit Int :=
  (wiredCourse exByCorr cx 5 (unwired ())
    [.connects 1, .connects 2, .send 0 [(1, exReq 7), (2, exReq 8)] fun _ => .queued]).2

-- Non-vacuity of C143: both return what their own requests were answered.
example (cx : Codec) : (exSharing cx).sys.sends.has 1 = false ∧
    ((exSharing cx).step exByCorr cx 5 (.send 1 [(1, exReq 9), (2, exReq 10)] fun _ => .queued)).1 = .nothing := by
  constructor <;> rfl

example (cx : Codec) : (wiredCourse exByCorr cx 5
      ((exSharing cx).step exByCorr cx 5 (.send 1 [(1, exReq 9), (2, exReq 10)] fun _ => .queued)).2 exShared).1 =
    [.nothing, .nothing, .nothing, .nothing, .nothing, .nothing, .nothing, .returned 0 [(2, 8), (1, 7)],
     .nothing, .healBegins 1, .returned 1 [(1, 9)]] := by krfl

/-! ### C142 -/

/-- What a `send` whose futures are not done does: nothing. -/
theorem sends_held (hs : Handlers σ Reply ρ) (known : σ → Int → Bool) (s : Sends σ ρ) (e : SEv σ Reply)
    (i : Nat) (left : List Int) (results : Dict Int ρ)
    (hi : s.sends.get? i = some (.looping left results)) (hl : left ≠ [])
    (he : ∀ b r, e = .outcome i b r → b ∉ left) :
    ¬ EndsSend i (s.step hs known e).1 ∧
    (s.step hs known e).2.sends.get? i = some (.looping left results) := by
  have hhas : s.sends.has i = true := by simp [Dict.has, hi]
  have hn : ¬ EndsSend i (.nothing : SOut ρ) := by rintro (⟨_, h⟩ | ⟨_, h⟩) <;> cases h
  have ho : ∀ (j : Nat) (o : SOut ρ), j ≠ i → (o = .nothing ∨ o = .healBegins j ∨ (∃ x, o = .raised j x) ∨
      ∃ x, o = .returned j x) → ¬ EndsSend i o := by
    rintro j o hj (rfl | rfl | ⟨x, rfl⟩ | ⟨x, rfl⟩) (⟨_, h⟩ | ⟨_, h⟩) <;> cases h <;> exact hj rfl
  cases e with
  | send j q w =>
    by_cases hj : j = i
    · subst hj
      simp only [Sends.step, hhas, if_true]
      exact ⟨hn, hi⟩
    · simp only [Sends.step]
      split
      · exact ⟨hn, hi⟩
      · split
        · exact ⟨ho j _ hj (by simp), hi⟩
        · exact ⟨hn, by simpa [Dict.get?_set, hj] using hi⟩
  | outcome j b r =>
    by_cases hj : j = i
    · subst hj
      simp only [Sends.step, hi, he b r rfl, not_false_eq_true, if_true]
      exact ⟨hn, trivial⟩
    · simp only [Sends.step]
      split
      · split
        · exact ⟨hn, hi⟩
        · split
          · exact ⟨hn, by simpa [Dict.get?_set, hj] using hi⟩
          · split
            · exact ⟨ho j _ hj (by simp), by simpa [Dict.get?_erase, hj] using hi⟩
            · split
              · exact ⟨ho j _ hj (by simp), by simpa [Dict.get?_erase, hj] using hi⟩
              · exact ⟨hn, by simpa [Dict.get?_set, hj] using hi⟩
      · exact ⟨hn, hi⟩
  | finish j =>
    by_cases hj : j = i
    · subst hj
      cases left with
      | nil => exact absurd rfl hl
      | cons a l => simp only [Sends.step, hi]; exact ⟨hn, trivial⟩
    · simp only [Sends.step]
      split
      · split
        · exact ⟨ho j _ hj (by simp), by simpa [Dict.get?_set, hj] using hi⟩
        · exact ⟨ho j _ hj (by simp), by simpa [Dict.get?_erase, hj] using hi⟩
      · exact ⟨hn, hi⟩
  | healed j r =>
    by_cases hj : j = i
    · subst hj
      simp only [Sends.step, hi]
      exact ⟨hn, trivial⟩
    · simp only [Sends.step]
      split
      · split
        · exact ⟨ho j _ hj (by simp), by simpa [Dict.get?_erase, hj] using hi⟩
        · exact ⟨ho j _ hj (by simp), by simpa [Dict.get?_erase, hj] using hi⟩
      · exact ⟨hn, hi⟩
  | other f => exact ⟨hn, hi⟩

/-- All futures of a `send` are of connections that are closed, or about to be found closed. -/
def Held (s : Wired σ ρ) (i : Nat) (ks : List Nat) : Prop :=
  ∃ left results l, s.sys.sends.get? i = some (.looping left results) ∧ left ≠ [] ∧
    s.waits.get? i = some l ∧ ∀ b ∈ left, ∃ k n c, l.get? b = some (k, n) ∧ s.pool[k]? = some c ∧
      Pending c n ∧ (c.reading = true ∧ k ∈ ks ∨ c.reading = false ∧ c.closing = true)

theorem held_step (hs : Handlers σ Reply ρ) (cx : Codec) (depth : Nat) (s : Wired σ ρ) (i : Nat)
    (h : Held s i []) (e : WEv σ) :
    ¬ EndsSend i (s.step hs cx depth e).1 ∧ Held (s.step hs cx depth e).2 i [] := by
  obtain ⟨left, results, l, h1, h2, h3, h4⟩ := h
  have hhas : s.sys.sends.has i = true := by simp [Dict.has, h1]
  have ho : ∀ b r, s.gives e = .outcome i b r → b ∉ left := by
    intro b r hg hb
    obtain ⟨k, n, c, h5, h6, h7, _⟩ := h4 b hb
    have hnone : s.reply i b = .none := by
      unfold Pending at h7
      simp only [Wired.reply, h3, Option.bind_some, h5, h6, Conn.reply, h7]
    cases e with
    | takes j b' =>
      simp only [Wired.gives] at hg
      split at hg
      · cases hg
      · rename_i r' hr'
        cases hg
        rw [hnone] at hr'
        cases hr'
    | _ => simp [Wired.gives] at hg
  obtain ⟨g1, g2⟩ := sends_held hs (fun _ _ => true) s.sys (s.gives e) i left results h1 h2 ho
  refine ⟨g1, left, results, l, g2, h2, ?_, fun b hb => ?_⟩
  · show (s.net cx depth e).waits.get? i = some l
    cases e with
    | send j q w =>
      simp only [Wired.net]
      split
      · exact h3
      · rename_i hj
        have : j ≠ i := by rintro rfl; exact hj hhas
        split
        · exact h3
        · simpa [Dict.get?_set, this] using h3
    | _ => exact h3
  · obtain ⟨k, n, c, h5, h6, h7, h8⟩ := h4 b hb
    obtain ⟨hr, hc⟩ : c.reading = false ∧ c.closing = true := by simpa using h8
    obtain ⟨new, h9, _⟩ := net_pool hs cx depth s e k c h6
    have hfz : ∀ (new : List ConnEv) (c : Conn), Pending c n → c.reading = false → c.closing = true →
        Pending (c.run cx depth new) n ∧ (c.run cx depth new).reading = false ∧
          (c.run cx depth new).closing = true := by
      intro new
      induction new with
      | nil => intro c a1 a2 a3; exact ⟨a1, a2, a3⟩
      | cons ev new ih =>
        intro c a1 a2 a3
        obtain ⟨b1, b2, _, l, b3⟩ := frozen_step cx depth a3 a2 ev
        refine ih _ ?_ b2 b1
        unfold Pending at a1 ⊢
        rw [b3, List.getElem?_append_left (List.getElem?_eq_some_iff.1 a1).1]
        exact a1
    obtain ⟨d1, d2, d3⟩ := hfz new c h7 hr hc
    exact ⟨k, n, _, h5, h9, d1, .inr ⟨d2, d3⟩⟩

theorem held_course (hs : Handlers σ Reply ρ) (cx : Codec) (depth : Nat) (i : Nat) (es : List (WEv σ))
    (s : Wired σ ρ) (h : Held s i []) : ∀ o ∈ (wiredCourse hs cx depth s es).1, ¬ EndsSend i o := by
  induction es generalizing s with
  | nil => intro o ho; cases ho
  | cons e es ih =>
    intro o ho
    obtain ⟨h1, h2⟩ := held_step hs cx depth s i h e
    rcases List.mem_cons.1 ho with rfl | ho
    · exact h1
    · exact ih _ h2 o ho

theorem held_closed (hs : Handlers σ Reply ρ) (cx : Codec) (depth : Nat) (i : Nat) (ks : List Nat)
    (es : List (WEv σ)) (s : Wired σ ρ) (h : Held s i ks) :
    ∀ o ∈ (wiredCourse hs cx depth s (closed ks ++ es)).1, ¬ EndsSend i o := by
  induction ks generalizing s with
  | nil => exact held_course hs cx depth i es s h
  | cons j ks ih =>
    intro o ho
    rcases List.mem_cons.1 ho with rfl | ho
    · rintro (⟨_, h⟩ | ⟨_, h⟩) <;> cases h
    · refine ih _ ?_ o ho
      obtain ⟨left, results, l, h1, h2, h3, h4⟩ := h
      refine ⟨left, results, l, h1, h2, h3, fun b hb => ?_⟩
      obtain ⟨k, n, c, h5, h6, h7, h8⟩ := h4 b hb
      by_cases hj : j = k
      · subst hj
        refine ⟨j, n, c.readError .streamClosed, h5, by simp [Wired.step, Wired.net, h6, Conn.step], ?_, .inr ?_⟩
        · unfold Pending at h7 ⊢
          unfold Conn.readError
          split
          · exact h7
          · simpa [Conn.socketError] using h7
        · rcases h8 with ⟨h8, _⟩ | ⟨h8, h9⟩
          · simp [Conn.readError, h8, Conn.socketError]
          · simp [Conn.readError, h8, h9]
      · refine ⟨k, n, c, h5, by simp [Wired.step, Wired.net, h6, hj], h7, ?_⟩
        rcases h8 with ⟨h8, h9⟩ | h8
        · exact .inl ⟨h8, by simpa [Ne.symm hj] using h9⟩
        · exact .inr h8

theorem held_of (s : Wired σ ρ) (hs : SoundPool s) (i : Nat) (ks : List Nat) (b : Int) (hb : Outstanding s.sys i b)
    (h : ∀ b, Outstanding s.sys i b → ∃ k ∈ ks, AwaitsAt s i b k) : Held s i ks := by
  obtain ⟨left, results, h1, h2⟩ := hb
  obtain ⟨_, _, _, _, ⟨l, h3, _⟩, _⟩ := h b ⟨left, results, h1, h2⟩
  refine ⟨left, results, l, h1, List.ne_nil_of_mem h2, h3, fun b' hb' => ?_⟩
  obtain ⟨k, hk, n, c, ⟨l', h4, h5⟩, h6, h7⟩ := h b' ⟨left, results, h1, hb'⟩
  rw [h3] at h4
  cases h4
  refine ⟨k, n, c, h5, h6, h7, ?_⟩
  have := (hs k c h6).live
  cases hr : c.reading
  · refine .inr ⟨rfl, ?_⟩
    cases hc : c.closing
    · rw [this hc] at hr; cases hr
    · rfl
  · exact .inl ⟨rfl, hk⟩

/-- **C142** is false of the code: a call whose outstanding requests are at connections that `cluster.stop()`
closes never ends, whatever happens afterwards. -/
theorem C142_hangs (hs : Handlers σ Reply ρ) (cx : Codec) (depth : Nat) (client : σ) (past : List (WEv σ))
    (i : Nat) (b : Int) (es : List (WEv σ)) :
    let s := (wiredCourse hs cx depth (unwired client) past).2
    Outstanding s.sys i b →
    (∀ b, Outstanding s.sys i b → ∃ k ∈ s.conns.vals, AwaitsAt s i b k) →
    ∀ o ∈ (wiredCourse hs cx depth s (shutDown s ++ es)).1, ¬ EndsSend i o := by
  intro s hb h o ho
  have hsound : SoundPool s := soundPool_course hs cx depth past _ (soundPool_unwired client)
  obtain ⟨left, results, l, h1, h2, h3, h4⟩ := held_of s hsound i _ b hb h
  rcases List.mem_cons.1 ho with rfl | ho
  · rintro (⟨_, h⟩ | ⟨_, h⟩) <;> cases h
  · refine held_closed hs cx depth i s.conns.vals es (s.step hs cx depth .stops).2
      ⟨left, results, l, h1, h2, h3, fun b hb => ?_⟩ o ho
    obtain ⟨k, n, c, h5, h6, h7, h8⟩ := h4 b hb
    have hp := closeAll_pool s.conns.vals s.pool k c h6
    refine ⟨k, n, if k ∈ s.conns.vals then c.close else c, h5, hp, ?_, ?_⟩
    · split
      · exact h7
      · exact h7
    · split
      · rcases h8 with h8 | h8
        · exact .inl h8
        · exact .inr ⟨h8.1, rfl⟩
      · exact h8

/-- The same if it is the brokers who close the connections. -/
theorem C142_hangs_lost (hs : Handlers σ Reply ρ) (cx : Codec) (depth : Nat) (client : σ)
    (past : List (WEv σ)) (i : Nat) (b : Int) (ks : List Nat) (es : List (WEv σ)) :
    let s := (wiredCourse hs cx depth (unwired client) past).2
    Outstanding s.sys i b →
    (∀ b, Outstanding s.sys i b → ∃ k ∈ ks, AwaitsAt s i b k) →
    ∀ o ∈ (wiredCourse hs cx depth s (closed ks ++ es)).1, ¬ EndsSend i o := by
  intro s hb h
  have hsound : SoundPool s := soundPool_course hs cx depth past _ (soundPool_unwired client)
  exact held_closed hs cx depth i ks es s (held_of s hsound i ks b hb h)

/-- A call sends a request to broker 1. -/
def exUnderWay : List (WEv σ) := [.connects 1, .send 0 [(1, exReq 7)] fun _ => .queued]

theorem exUnderWay_sys (hs : Handlers σ Reply ρ) (cx : Codec) (depth : Nat) (client : σ) :
    (wiredCourse hs cx depth (unwired client) exUnderWay).2.sys.sends = [(0, .looping [1] [])] ∧
    (wiredCourse hs cx depth (unwired client) exUnderWay).2.conns = [(1, 0)] ∧
    (wiredCourse hs cx depth (unwired client) exUnderWay).2.waits = [(0, [(1, 0, 0)])] ∧
    (wiredCourse hs cx depth (unwired client) exUnderWay).2.pool.map (·.futs) = [[[]]] := by
  refine ⟨?_, ?_, ?_, ?_⟩ <;> rfl

/-- The property does not hold. -/
theorem C142_false (hs : Handlers σ Reply ρ) (cx : Codec) (depth : Nat) (client : σ) :
    ¬ ∀ (past : List (WEv σ)) (i : Nat) (b : Int),
      let s := (wiredCourse hs cx depth (unwired client) past).2
      Outstanding s.sys i b →
      ∃ es, ∃ o ∈ (wiredCourse hs cx depth s (shutDown s ++ es)).1, EndsSend i o := by
  intro h
  obtain ⟨h1, h2, h3, h4⟩ := exUnderWay_sys hs cx depth client
  have hout : Outstanding (wiredCourse hs cx depth (unwired client) exUnderWay).2.sys 0 1 :=
    ⟨[1], [], by rw [h1]; rfl, by simp⟩
  obtain ⟨es, o, ho, he⟩ := h exUnderWay 0 1 hout
  refine C142_hangs hs cx depth client exUnderWay 0 1 es hout ?_ o ho he
  rintro b ⟨left, results, h5, h6⟩
  rw [h1] at h5
  cases h5
  obtain rfl := List.mem_singleton.1 h6
  rw [h2]
  obtain ⟨c, h7, h8⟩ := List.map_eq_singleton_iff.1 h4
  exact ⟨0, by simp [Dict.vals], 0, c, ⟨[(1, 0, 0)], by rw [h3]; rfl, rfl⟩, by rw [h7]; rfl,
    by unfold Pending; rw [h8]; rfl⟩

/-- What does hold: a call whose requests are all settled ends by what it does itself. -/
theorem C142_ends_partial (hs : Handlers σ Reply ρ) (cx : Codec) (depth : Nat) (s : Wired σ ρ) (i : Nat)
    (h : Res Unit) (v : Sending ρ) (hi : s.sys.sends.get? i = some v)
    (hd : ∀ b, Outstanding s.sys i b → s.reply i b ≠ .none) :
    ∃ es, (∀ e ∈ es, OwnWired h i e) ∧ ∃ o ∈ (wiredCourse hs cx depth s es).1, EndsSend i o := by
  have hheal : ∀ (s : Wired σ ρ) results, s.sys.sends.get? i = some (.healing results) →
      EndsSend i (s.step hs cx depth (.healed i h)).1 := by
    intro s results hi
    cases h with
    | error e => exact .inr ⟨e, by simp [Wired.step, Wired.gives, Sends.step, hi]⟩
    | ok u => exact .inl ⟨results, by simp [Wired.step, Wired.gives, Sends.step, hi]⟩
  have hloop : ∀ (m : Nat) (s : Wired σ ρ) (left : List Int) (results : Dict Int ρ), left.length = m →
      s.sys.sends.get? i = some (.looping left results) → (∀ b ∈ left, s.reply i b ≠ .none) →
      ∃ es, (∀ e ∈ es, OwnWired h i e) ∧ ∃ o ∈ (wiredCourse hs cx depth s es).1, EndsSend i o := by
    intro m
    induction m with
    | zero =>
      intro s left results hm hi hd
      obtain rfl := List.length_eq_zero_iff.1 hm
      by_cases hf : s.sys.flag = true
      · refine ⟨[.finish i, .healed i h], by simp [OwnWired], _, List.mem_cons_of_mem _ List.mem_cons_self,
          hheal _ results ?_⟩
        simp [Wired.step, Wired.gives, Sends.step, hi, hf, Dict.get?_set]
      · refine ⟨[.finish i], by simp [OwnWired], _, List.mem_cons_self, .inl ⟨results, ?_⟩⟩
        simp [Wired.step, Wired.gives, Sends.step, hi, hf]
    | succ m ih =>
      intro s left results hm hi hd
      cases left with
      | nil => simp at hm
      | cons b left =>
        have hb := hd b List.mem_cons_self
        cases hr : s.reply i b with
        | none => exact absurd hr hb
        | some r =>
          have hg : s.gives (.takes i b) = .outcome i b r := by simp [Wired.gives, hr]
          by_cases hend : EndsSend i (s.step hs cx depth (.takes i b)).1
          · exact ⟨[.takes i b], by simp [OwnWired], _, List.mem_cons_self, hend⟩
          · have : ∃ results', (s.step hs cx depth (.takes i b)).2.sys.sends.get? i =
                some (.looping left results') := by
              simp only [Wired.step, hg, Sends.step, hi, List.mem_cons_self, not_true_eq_false, if_false,
                List.erase_cons_head] at hend ⊢
              cases r with
              | error e => exact ⟨results, by simp [Dict.get?_set]⟩
              | ok r =>
                simp only at hend ⊢
                cases hh : hs.handle r with
                | none => simp only [hh] at hend; exact absurd (.inr ⟨_, rfl⟩) hend
                | some f =>
                  simp only [hh] at hend ⊢
                  cases hf : f s.sys.client with
                  | mk res rest =>
                    obtain ⟨c', ask⟩ := rest
                    cases res with
                    | error x => simp only [hf] at hend; exact absurd (.inr ⟨_, rfl⟩) hend
                    | ok x => exact ⟨results.set b x, by simp [Dict.get?_set]⟩
            obtain ⟨results', h1⟩ := this
            obtain ⟨es, h2, o, h3, h4⟩ := ih (s.step hs cx depth (.takes i b)).2 left results' (by simpa using hm) h1
              (fun b' hb' => hd b' (List.mem_cons_of_mem _ hb'))
            refine ⟨.takes i b :: es, ?_, o, List.mem_cons_of_mem _ h3, h4⟩
            intro e he
            rcases List.mem_cons.1 he with rfl | he
            · exact .inl ⟨b, rfl⟩
            · exact h2 e he
  cases v with
  | healing results => exact ⟨[.healed i h], by simp [OwnWired], _, List.mem_cons_self, hheal s results hi⟩
  | looping left results =>
    exact hloop _ s left results rfl hi fun b hb => hd b ⟨left, results, hi, hb⟩

theorem abort_again (c : Conn) (e : Option Exc) : (c.abort e).abort e = c.abort e := by
  unfold Conn.abort
  by_cases h : c.closing = true <;> simp [h]

theorem aborted_course (hs : Handlers σ Reply ρ) (cx : Codec) (depth : Nat) (ks : List Nat) (s : Wired σ ρ) :
    (wiredCourse hs cx depth s (ks.map fun k => .wire k .abort)).2.sys = s.sys ∧
    (wiredCourse hs cx depth s (ks.map fun k => .wire k .abort)).2.waits = s.waits ∧
    ∀ (k : Nat) (c : Conn), s.pool[k]? = some c →
      (wiredCourse hs cx depth s (ks.map fun k => .wire k .abort)).2.pool[k]? =
        some (if k ∈ ks then c.abort .none else c) := by
  induction ks generalizing s with
  | nil => exact ⟨rfl, rfl, fun k c h => by simpa [wiredCourse] using h⟩
  | cons j ks ih =>
    obtain ⟨h1, h2, h3⟩ := ih (s.step hs cx depth (.wire j .abort)).2
    refine ⟨h1, h2, fun k c hk => ?_⟩
    by_cases hj : j = k
    · subst hj
      refine (h3 j (c.abort .none) (by simp [Wired.step, Wired.net, hk, Conn.step])).trans ?_
      by_cases hm : j ∈ ks <;> simp [hm, abort_again]
    · refine (h3 k c (by simp [Wired.step, Wired.net, hk, hj])).trans ?_
      by_cases hm : k ∈ ks <;> simp [hm, Ne.symm hj]

/-- What would do: had the connections been aborted rather than closed, the call would end. -/
theorem C142_aborted_partial (hs : Handlers σ Reply ρ) (cx : Codec) (depth : Nat) (s : Wired σ ρ) (i : Nat)
    (h : Res Unit) (v : Sending ρ) (hi : s.sys.sends.get? i = some v) (ks : List Nat)
    (hopen : ∀ k ∈ ks, ∀ c, s.pool[k]? = some c → ∃ evs, c = Conn.init.run cx depth evs ∧
      Unambiguous cx depth evs ∧ c.closing = false)
    (hd : ∀ b, Outstanding s.sys i b → s.reply i b ≠ .none ∨ ∃ k ∈ ks, AwaitsAt s i b k) :
    ∃ es, (∀ e ∈ es, OwnWired h i e) ∧
      ∃ o ∈ (wiredCourse hs cx depth s (ks.map (fun k => .wire k .abort) ++ es)).1, EndsSend i o := by
  obtain ⟨h1, h2, h3⟩ := aborted_course hs cx depth ks s
  obtain ⟨es, h4, o, h5, h6⟩ := C142_ends_partial hs cx depth
    (wiredCourse hs cx depth s (ks.map fun k => .wire k .abort)).2 i h v (by rw [h1]; exact hi) (by
      intro b hb
      rw [h1] at hb
      have done : ∀ (k n : Nat) (c : Conn) (fs : List Outcome), k ∈ ks → s.pool[k]? = some c →
          c.futs[n]? = some fs → (c.abort .none).reply n ≠ .none := by
        intro k n c fs hk hc hn
        obtain ⟨evs, rfl, hu, hcl⟩ := hopen k hk c hc
        have hinv : ConnInv (Conn.init.run cx depth evs) := inv_of cx depth evs
        have h1 := (C16_abort cx depth evs hu hcl [] (exReq 0) .queued).1
        have hrun : Conn.init.run cx depth (evs ++ [.abort]) = (Conn.init.run cx depth evs).abort .none :=
          run_snoc _ _ _ _ _
        have hinv' : ConnInv ((Conn.init.run cx depth evs).abort .none) := by
          rw [← hrun]; exact inv_of cx depth _
        obtain ⟨fs', hf⟩ : ∃ fs', ((Conn.init.run cx depth evs).abort .none).futs[n]? = some fs' := by
          rcases abort_futs hinv .none n fs hn with g | ⟨_, _, g⟩
          · exact ⟨_, g⟩
          · exact ⟨_, g⟩
        have hl := h1 n fs' (by rw [hrun]; exact hf)
        obtain ⟨o, rfl⟩ := List.length_eq_one_iff.1 hl
        have hlt := (List.getElem?_eq_some_iff.1 hf).1
        rw [← hinv'.len] at hlt
        have hsent := List.getElem?_eq_getElem hlt
        unfold Conn.reply
        rw [hf, hsent]
        cases o <;> simp
      have close : ∀ l k n c fs, s.waits.get? i = some l → l.get? b = some (k, n) → s.pool[k]? = some c →
          c.futs[n]? = some fs → (k ∈ ks ∨ c.reply n ≠ .none) →
          (wiredCourse hs cx depth s (ks.map fun k => .wire k .abort)).2.reply i b ≠ .none := by
        intro l k n c fs hl hb hk hn hor
        unfold Wired.reply
        simp only [h2, hl, Option.bind_some, hb, h3 k c hk]
        split
        · rename_i hm
          exact done k n c fs hm hk hn
        · rename_i hm
          exact hor.resolve_left hm
      rcases hd b hb with hr | ⟨k, hk, n, c, ⟨l, g1, g2⟩, g3, g4⟩
      · unfold Wired.reply at hr
        cases hl : s.waits.get? i with
        | none => simp [hl] at hr
        | some l =>
          cases hb' : l.get? b with
          | none => simp [hl, hb'] at hr
          | some kn =>
            obtain ⟨k, n⟩ := kn
            cases hk : s.pool[k]? with
            | none => simp [hl, hb', hk] at hr
            | some c =>
              simp only [hl, hb', hk, Option.bind_some] at hr
              cases hn : c.futs[n]? with
              | none => simp [Conn.reply, hn] at hr
              | some fs => exact close l k n c fs hl hb' hk hn (.inr hr)
      · exact close l k n c [] g1 g2 g3 g4 (.inl hk))
  refine ⟨es, h4, o, ?_, h6⟩
  rw [wiredCourse_append]
  exact List.mem_append_right _ h5

-- Non-vacuity: the call of `exUnderWay`, its connection aborted.
example (cx : Codec) : (wiredCourse exByCorr cx 5 (unwired ())
    (exUnderWay ++ [.wire 0 .abort, .takes 0 1, .finish 0, .healed 0 (.ok ())])).1 =
    [.nothing, .nothing, .nothing, .nothing, .healBegins 0, .returned 0 []] := by krfl

example (cx : Codec) (depth : Nat) : ∀ k ∈ [0], ∀ c,
    (wiredCourse exByCorr cx depth (unwired ()) exUnderWay).2.pool[k]? = some c →
    ∃ evs, c = Conn.init.run cx depth evs ∧ Unambiguous cx depth evs ∧ c.closing = false := by
  intro k hk c hc
  obtain rfl := List.mem_singleton.1 hk
  have : c = Conn.init.run cx depth [.send (exReq 7) .queued] := (Option.some.inj hc).symm
  refine ⟨[.send (exReq 7) .queued], this, ?_, by rw [this]; rfl⟩
  intro before r w after he i r' hp hr'
  match before, he with
  | [], _ => simp [Conn.run, Conn.init] at hr'
  | _ :: before, he => simp at he

-- And of the other two: the same, after `cluster.stop()` and after the broker closes the connection.
example (cx : Codec) : (wiredCourse exByCorr cx 5 (unwired ())
    (exUnderWay ++ [.stops, .wire 0 (.readError .streamClosed), .takes 0 1, .finish 0])).1 =
    [.nothing, .nothing, .nothing, .nothing, .nothing, .nothing] := by krfl

end Kiel
