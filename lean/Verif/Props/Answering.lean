import Verif.Props.Noticed
/-
C145: calls whose brokers answer.
-/
set_option autoImplicit false
namespace Kiel
open Spec

variable {σ ρ : Type}

theorem sent_stays_run (cx : Codec) (depth : Nat) (new : List ConnEv) (c : Conn) (n : Nat) (r : Req)
    (h : c.sent[n]? = some r) : (c.run cx depth new).sent[n]? = some r := by
  induction new generalizing c with
  | nil => exact h
  | cons ev new ih => exact ih _ (sent_stays cx depth c n r h ev)

/-- Future `n`, of request `r`, is settled, with an answer if the connection is open; or an answer to the
request will settle it. -/
def Ready (c : Conn) (n : Nat) (r : Req) : Prop :=
  c.sent[n]? = some r ∧ ((∃ o, c.futs[n]? = some [o] ∧
    (c.closing = false → ∃ v, o = .result r.correlationId v)) ∨ c.futs[n]? = some [] ∧
    (c.closing = false → (r.correlationId, n) ∈ c.pending ∧
      c.apiCorr.get? r.correlationId = some r.cls.api))

theorem ready_step {c : Conn} (h : ConnInv c) (cx : Codec) (depth : Nat) (ev : ConnEv) (n : Nat) (r : Req)
    (hn : ∀ r' w, ev = .send r' w → r'.correlationId ≠ r.correlationId) (hr : Ready c n r) :
    Ready (c.step cx depth ev) n r := by
  obtain ⟨h1, h2⟩ := hr
  refine ⟨sent_stays cx depth c n r h1 ev, ?_⟩
  have back : (c.step cx depth ev).closing = false → c.closing = false := by
    intro hs
    cases hcc : c.closing with
    | false => rfl
    | true => rw [step_closing cx depth hcc] at hs; cases hs
  rcases h2 with ⟨o, h2, h3⟩ | ⟨h2, h3⟩
  · exact .inl ⟨o, settled_stays cx depth [ev] c h n o h2, fun hs => h3 (back hs)⟩
  · obtain ⟨fs', h4, _⟩ := step_change h cx depth ev n [] h2
    have hinv := connInv_step h cx depth ev
    cases fs' with
    | cons o fs' =>
      have := hinv.once n _ h4
      cases fs' with
      | cons _ _ => simp at this
      | nil =>
        refine .inl ⟨o, h4, fun hs => ?_⟩
        have hc := back hs
        have hlt := (List.getElem?_eq_some_iff.1 h2).1
        cases ev with
        | send r' w =>
          simp only [Conn.step] at *
          rcases send_cases c r' w with ⟨h0, _⟩ | ⟨_, e, g⟩ | ⟨_, p, b, _, _, ⟨_, g⟩ | ⟨e, _, g⟩⟩
          · rw [hc] at h0; cases h0
          · rw [g, h2] at h4; cases h4
          · rw [g] at h4
            simp only [List.getElem?_append_left hlt, h2] at h4
            cases h4
          · rw [g] at hs; simp [socketError_closing] at hs
        | writeDone e =>
          cases e with
          | none => simp only [Conn.step, Conn.writeDone, h2] at h4; cases h4
          | some e => simp [Conn.step, Conn.writeDone, socketError_closing] at hs
        | deliver k p =>
          simp only [Conn.step] at *
          rcases deliver_cases cx depth c k p with ⟨_, g⟩ | ⟨_, _, g⟩ | ⟨_, a, ha, ⟨e, _, g⟩ |
            ⟨cls, v, j, hcl, hd, hp, g⟩⟩
          · rw [g, h2] at h4; cases h4
          · rw [g] at hs; simp [socketError_closing] at hs
          · rw [g] at hs; simp [socketError_closing] at hs
          · rw [g] at h4
            simp only [settle_getElem?] at h4
            split at h4
            · rename_i hj
              subst hj
              obtain ⟨_, r', g1, g2, _⟩ := h.entry _ _ (Dict.mem_of_get? hp)
              rw [h1] at g1
              cases g1
              rw [h2] at h4
              cases h4
              exact ⟨v, by rw [g2]⟩
            · rw [h2] at h4; cases h4
        | readError e =>
          have := h.live hc
          simp [Conn.step, Conn.readError, socketError_closing, this] at hs
        | abort => simp [Conn.step, Conn.abort, hc] at hs
        | close => simp [Conn.step, Conn.close] at hs
    | nil =>
      refine .inr ⟨h4, fun hs => ?_⟩
      have hc := back hs
      obtain ⟨h5, h6⟩ := h3 hc
      cases ev with
      | send r' w =>
        simp only [Conn.step] at *
        rcases send_cases c r' w with ⟨h0, _⟩ | ⟨_, e, g⟩ | ⟨_, p, b, _, _, ⟨_, g⟩ | ⟨e, _, g⟩⟩
        · rw [hc] at h0; cases h0
        · rw [g]; exact ⟨h5, h6⟩
        · rw [g]
          have hne := hn r' w rfl
          exact ⟨(Dict.mem_set h.nodup).2 (.inr ⟨h5, Ne.symm hne⟩), by simp [Dict.get?_set, hne, h6]⟩
        · rw [g] at hs; simp [socketError_closing] at hs
      | writeDone e =>
        cases e with
        | none => exact ⟨h5, h6⟩
        | some e => simp [Conn.step, Conn.writeDone, socketError_closing] at hs
      | deliver k p =>
        simp only [Conn.step] at *
        rcases deliver_cases cx depth c k p with ⟨_, g⟩ | ⟨_, _, g⟩ | ⟨_, a, ha, ⟨e, _, g⟩ |
          ⟨cls, v, j, hcl, hd, hp, g⟩⟩
        · rw [g]; exact ⟨h5, h6⟩
        · rw [g] at hs; simp [socketError_closing] at hs
        · rw [g] at hs; simp [socketError_closing] at hs
        · have hk : r.correlationId ≠ k := by
            rintro rfl
            rw [Dict.get?_of_mem h.nodup h5] at hp
            cases hp
            rw [g] at h4
            simp [settle_getElem?, h2] at h4
          rw [g]
          exact ⟨Dict.mem_erase.2 ⟨h5, hk⟩, by simp [Dict.get?_erase, Ne.symm hk, h6]⟩
      | readError e =>
        have := h.live hc
        simp [Conn.step, Conn.readError, socketError_closing, this] at hs
      | abort => simp [Conn.step, Conn.abort, hc] at hs
      | close => simp [Conn.step, Conn.close] at hs

/-- A request that was sent is ready. -/
theorem ready_send (c : Conn) (hc : ConnInv c) (r : Req) (w : Write) (n : Nat) (c' : Conn)
    (h : c.send r w = (.ok n, c')) : Ready c' n r := by
  have hl := hc.len
  rcases send_cases c r w with ⟨h0, h1⟩ | ⟨_, e, h1⟩ | ⟨_, p, b, _, _, ⟨_, h1⟩ | ⟨e, _, h1⟩⟩
  · rw [h] at h1
    cases h1
    exact ⟨by simp [← hl], .inl ⟨.exc .brokerConnection, by simp, by simp [h0]⟩⟩
  · rw [h] at h1
    cases h1
  · rw [h] at h1
    cases h1
    exact ⟨by simp [← hl], .inr ⟨by simp, fun _ => ⟨(Dict.mem_set hc.nodup).2 (.inl rfl), by simp [Dict.get?_set]⟩⟩⟩
  · rw [h] at h1
    cases h1
    have hh := connInv_register hc r c.written
    refine ⟨by rw [socketError_sent]; simp [← hl], ?_⟩
    have hnil : (c.futs ++ [[]])[c.futs.length]? = some ([] : List Outcome) := by simp
    rcases socketError_futs hh e c.futs.length [] hnil with h2 | ⟨_, _, h2⟩
    · exact .inr ⟨h2, fun h3 => by rw [socketError_closing] at h3; cases h3⟩
    · exact .inl ⟨_, h2, fun h3 => by rw [socketError_closing] at h3; cases h3⟩

/-- Requests of others leave it ready. -/
theorem ready_sendAll (cx : Codec) (depth : Nat) (conns : Dict Int Nat) (write : Int → Write)
    (requests : List (Int × Req)) (pool : List Conn) (j : Nat) (d : Conn) (hj : pool[j]? = some d)
    (hd : ConnInv d) (n : Nat) (r : Req) (hr : Ready d n r)
    (hn : r.correlationId ∉ requests.map (·.2.correlationId)) :
    ∃ d', (sendAll conns write requests pool).2[j]? = some d' ∧ ConnInv d' ∧ Ready d' n r := by
  induction requests generalizing pool d with
  | nil => exact ⟨d, hj, hd, hr⟩
  | cons q rest ih =>
    obtain ⟨b, q⟩ := q
    simp only [List.map_cons, List.mem_cons, not_or] at hn
    unfold sendAll
    cases hb : conns.get? b with
    | none => exact ⟨d, hj, hd, hr⟩
    | some k =>
      cases hk : pool[k]? with
      | none => simp only [hk]; exact ⟨d, hj, hd, hr⟩
      | some c =>
        simp only [hk]
        have next : ∃ d', (pool.set k (c.send q (write b)).2)[j]? = some d' ∧ ConnInv d' ∧ Ready d' n r := by
          by_cases hjk : k = j
          · subst hjk
            rw [hk] at hj
            cases hj
            refine ⟨_, List.getElem?_set_self (List.getElem?_eq_some_iff.1 hk).1, ?_, ?_⟩
            · rw [send_step cx depth]; exact connInv_step hd cx depth _
            · rw [send_step cx depth]
              refine ready_step hd cx depth _ n r ?_ hr
              rintro r' w h
              cases h
              exact fun h => hn.1 h.symm
          · exact ⟨d, by rw [List.getElem?_set_ne hjk]; exact hj, hd, hr⟩
        cases hx : c.send q (write b) with
        | mk res c' =>
          rw [hx] at next
          cases res with
          | error e => exact next
          | ok m =>
            obtain ⟨d', h1, h2, h3⟩ := next
            obtain ⟨d'', h4⟩ := ih _ _ h1 h2 h3 hn.2
            refine ⟨d'', ?_⟩
            simp only
            cases hy : sendAll conns write rest (pool.set k c') with
            | mk res pool2 => rw [hy] at h4; cases res <;> exact h4

/-- The requests of a call that has begun are ready. -/
theorem ready_begun (cx : Codec) (depth : Nat) (conns : Dict Int Nat) (write : Int → Write)
    (requests : List (Int × Req)) (pool pool' : List Conn) (l : Dict Int (Nat × Nat))
    (hinv : ∀ (k : Nat) (c : Conn), pool[k]? = some c → ConnInv c)
    (hids : (requests.map (·.2.correlationId)).Nodup)
    (h : sendAll conns write requests pool = (.ok l, pool')) :
    ∀ b k n, (b, k, n) ∈ l → ∃ r c, (b, r) ∈ requests ∧
      conns.get? b = some k ∧ pool'[k]? = some c ∧ ConnInv c ∧ Ready c n r := by
  induction requests generalizing pool l with
  | nil =>
    simp only [sendAll, Prod.mk.injEq, Except.ok.injEq] at h
    obtain ⟨rfl, rfl⟩ := h
    exact fun _ _ _ h => (List.not_mem_nil h).elim
  | cons q rest ih =>
    obtain ⟨b, r⟩ := q
    simp only [List.map_cons, List.nodup_cons] at hids
    unfold sendAll at h
    split at h
    · cases h
    · rename_i k hb
      split at h
      · cases h
      · rename_i c hk
        split at h
        · cases h
        · rename_i n c' hx
          have hc' : ConnInv c' := by
            have := connInv_step (hinv k c hk) cx depth (.send r (write b))
            rw [← send_step, hx] at this
            exact this
          have hinv' : ∀ (j : Nat) (d : Conn), (pool.set k c')[j]? = some d → ConnInv d := by
            intro j d hj
            by_cases hjk : k = j
            · subst hjk
              rw [List.getElem?_set_self (List.getElem?_eq_some_iff.1 hk).1] at hj
              cases hj
              exact hc'
            · rw [List.getElem?_set_ne hjk] at hj
              exact hinv j d hj
          split at h
          · cases h
          · rename_i l' pool2 hy
            cases h
            intro b' k' n' hm
            rcases List.mem_cons.1 hm with hm | hm
            · cases hm
              have hck : (pool.set k c')[k]? = some c' := by
                simp [(List.getElem?_eq_some_iff.1 hk).1]
              obtain ⟨d, h3, h4, h5⟩ := ready_sendAll cx depth conns write rest _ k c' hck hc' n r
                (ready_send c (hinv k c hk) r _ n c' hx) hids.1
              rw [hy] at h3
              exact ⟨r, d, by simp, hb, h3, h4, h5⟩
            · obtain ⟨r', c2, h3, h4⟩ := ih _ _ hinv' hids.2 hy b' k' n' hm
              exact ⟨r', c2, by simp [h3], h4⟩

/-- Whatever happens leaves it ready, if it is not a request with the same correlation id. -/
theorem ready_net (hs : Handlers σ Reply ρ) (cx : Codec) (depth : Nat) (s : Wired σ ρ) (e : WEv σ) (k : Nat)
    (c : Conn) (hk : s.pool[k]? = some c) (hc : ConnInv c) (n : Nat) (r : Req) (hr : Ready c n r)
    (he : r.correlationId ∉ idsOf e) :
    ∃ c', (s.step hs cx depth e).2.pool[k]? = some c' ∧ ConnInv c' ∧ Ready c' n r := by
  have same : ∃ c', s.pool[k]? = some c' ∧ ConnInv c' ∧ Ready c' n r := ⟨c, hk, hc, hr⟩
  cases e with
  | send i requests write =>
    simp only [Wired.step, Wired.net]
    split
    · exact same
    · obtain ⟨d, h1⟩ := ready_sendAll cx depth s.conns write requests s.pool k c hk hc n r hr he
      refine ⟨d, ?_⟩
      split <;> rename_i hx <;> rw [hx] at h1 <;> exact h1
  | takes i b => exact same
  | finish i => exact same
  | healed i r => exact same
  | other f => exact same
  | drops b => exact same
  | connects b =>
    refine ⟨c, ?_, hc, hr⟩
    simp only [Wired.step, Wired.net]
    rw [List.getElem?_append_left (List.getElem?_eq_some_iff.1 hk).1]
    exact hk
  | wire j ev =>
    simp only [Wired.step, Wired.net, List.getElem?_modify, hk]
    by_cases hj : j = k
    · subst hj
      refine ⟨_, by simp, connInv_step hc cx depth ev, ready_step hc cx depth ev n r ?_ hr⟩
      rintro r' w rfl h
      exact he (by simp [idsOf, h])
    · exact ⟨c, by simp [hj], hc, hr⟩
  | stops =>
    simp only [Wired.step, Wired.net, closeAll]
    rw [closeAll_pool s.conns.vals s.pool k c hk]
    by_cases hm : k ∈ s.conns.vals
    · refine ⟨c.step cx depth .close, by simp [hm, Conn.step], connInv_step hc cx depth _,
        ready_step hc cx depth _ n r (by rintro r' w h; cases h) hr⟩
    · exact ⟨c, by simp [hm], hc, hr⟩

theorem ready_course (hs : Handlers σ Reply ρ) (cx : Codec) (depth : Nat) (es : List (WEv σ)) (s : Wired σ ρ)
    (k : Nat) (c : Conn) (hk : s.pool[k]? = some c) (hc : ConnInv c) (n : Nat) (r : Req) (hr : Ready c n r)
    (he : ∀ e ∈ es, r.correlationId ∉ idsOf e) :
    ∃ c', (wiredCourse hs cx depth s es).2.pool[k]? = some c' ∧ ConnInv c' ∧ Ready c' n r := by
  induction es generalizing s c with
  | nil => exact ⟨c, hk, hc, hr⟩
  | cons e es ih =>
    obtain ⟨c', h1, h2, h3⟩ := ready_net hs cx depth s e k c hk hc n r hr (he e List.mem_cons_self)
    exact ih _ _ h1 h2 h3 fun e' h => he e' (List.mem_cons_of_mem _ h)

/-- An answer settles it. -/
theorem ready_answered {c : Conn} (h : ConnInv c) (cx : Codec) (depth : Nat) (n : Nat) (r : Req)
    (hr : Ready c n r) (ho : c.closing = false) (p : Bytes) (v : Val)
    (hv : AnswerReads cx depth r.cls.api p (.ok v)) :
    ∃ x, (c.step cx depth (.deliver r.correlationId p)).futs[n]? = some [.result r.correlationId x] := by
  obtain ⟨h1, ⟨o, h2, h3⟩ | ⟨h2, h3⟩⟩ := hr
  · obtain ⟨x, rfl⟩ := h3 ho
    exact ⟨x, settled_stays cx depth [.deliver r.correlationId p] c h n _ h2⟩
  · obtain ⟨h4, h5⟩ := h3 ho
    have h6 := Dict.get?_of_mem h.nodup h4
    cases hc : responseClasses.get? r.cls.api with
    | none => exact absurd hv.1 (responseClasses_none.1 hc)
    | some cls =>
      have hv := (answerReads_iff cx depth hc).1 hv
      simp only [Conn.step]
      rcases deliver_cases cx depth c r.correlationId p with
        ⟨g, _⟩ | ⟨_, g, _⟩ | ⟨_, a, g, ⟨e, g2, _⟩ | ⟨cls', v', j, g2, g3, g4, g5⟩⟩
      · rw [h.live ho] at g; cases g
      · rw [h5] at g; cases g
      · rw [h5] at g; cases g
        rcases g2 with ⟨g2, _⟩ | ⟨cls', g2, g3 | ⟨_, _, g3, _⟩⟩
        · rw [hc] at g2; cases g2
        · rw [hc] at g2; cases g2; rw [hv] at g3; cases g3
        · rw [h6] at g3; cases g3
      · rw [h6] at g4; cases g4
        rw [g5]
        exact ⟨v', by simp [settle_getElem?, h2]⟩

theorem waits_step (hs : Handlers σ Reply ρ) (cx : Codec) (depth : Nat) (s : Wired σ ρ) (e : WEv σ) (i : Nat)
    (h : s.sys.sends.has i = true) : (s.step hs cx depth e).2.waits.get? i = s.waits.get? i := by
  show (s.net cx depth e).waits.get? i = _
  cases e with
  | send j q w =>
    simp only [Wired.net]
    split
    · rfl
    · rename_i hj
      have : j ≠ i := by rintro rfl; exact hj h
      split
      · rfl
      · simp [Dict.get?_set, this]
  | _ => rfl

/-- Call number `i` is under way, and waits for brokers among `bs` only. -/
def Waits (s : Wired σ ρ) (i : Nat) (bs : List Int) : Prop :=
  ∃ v, s.sys.sends.get? i = some v ∧ ∀ left results, v = .looping left results → left ⊆ bs

theorem Waits.has {s : Wired σ ρ} {i : Nat} {bs : List Int} (h : Waits s i bs) :
    s.sys.sends.has i = true := by
  obtain ⟨v, h, _⟩ := h
  simp [Dict.has, h]

theorem waits_on (hs : Handlers σ Reply ρ) (cx : Codec) (depth : Nat) (s : Wired σ ρ) (e : WEv σ) (i : Nat)
    (bs : List Int) (h : Waits s i bs) (hn : ¬ EndsSend i (s.step hs cx depth e).1) :
    Waits (s.step hs cx depth e).2 i bs := by
  obtain ⟨v, hv, hl⟩ := h
  have hr1 : ∀ res, (s.sys.step hs (fun _ _ => true) (s.gives e)).1 ≠ .returned i res :=
    fun res h => hn (.inl ⟨res, h⟩)
  have hr2 : ∀ x, (s.sys.step hs (fun _ _ => true) (s.gives e)).1 ≠ .raised i x :=
    fun x h => hn (.inr ⟨x, h⟩)
  by_cases ho : ∃ b' r, s.gives e = .outcome i b' r
  · obtain ⟨b', r, ho⟩ := ho
    cases v with
    | healing results =>
      exact ⟨.healing results, by simp [Wired.step, ho, Sends.step, hv], by rintro _ _ ⟨⟩⟩
    | looping left results =>
      have hsub := hl left results rfl
      by_cases hb' : b' ∈ left
      · have hsub' : left.erase b' ⊆ bs := fun x hx => hsub (List.mem_of_mem_erase hx)
        cases r with
        | error x =>
          exact ⟨.looping (left.erase b') results, by simp [Wired.step, ho, Sends.step, hv, hb', Dict.get?_set],
            by rintro _ _ ⟨⟩; exact hsub'⟩
        | ok r =>
          simp only [ho, Sends.step, hv, hb', not_true_eq_false, if_false] at hr2
          cases hh : hs.handle r with
          | none => simp [hh] at hr2
          | some f =>
            simp only [hh] at hr2
            cases hf' : f s.sys.client with
            | mk res rest =>
              obtain ⟨c', ask⟩ := rest
              cases res with
              | error x => simp [hf'] at hr2
              | ok x =>
                exact ⟨.looping (left.erase b') (results.set b' x),
                  by simp [Wired.step, ho, Sends.step, hv, hb', hh, hf', Dict.get?_set],
                  by rintro _ _ ⟨⟩; exact hsub'⟩
      · exact ⟨_, by simp [Wired.step, ho, Sends.step, hv, hb'], hl⟩
  · rcases step_frame hs _ s.sys _ i _ hv (fun b r h => ho ⟨b, r, h⟩) hr1 hr2 with g | ⟨res', g1, g2⟩
    · exact ⟨v, g, hl⟩
    · exact ⟨_, g2, by rintro _ _ ⟨⟩⟩

theorem waits_course (hs : Handlers σ Reply ρ) (cx : Codec) (depth : Nat) (es : List (WEv σ)) (s : Wired σ ρ)
    (i : Nat) (bs : List Int) (h : Waits s i bs)
    (hn : ∀ o ∈ (wiredCourse hs cx depth s es).1, ¬ EndsSend i o) :
    Waits (wiredCourse hs cx depth s es).2 i bs ∧
      (wiredCourse hs cx depth s es).2.waits.get? i = s.waits.get? i := by
  induction es generalizing s with
  | nil => exact ⟨h, rfl⟩
  | cons e es ih =>
    obtain ⟨h1, h2⟩ := ih _ (waits_on hs cx depth s e i bs h (hn _ List.mem_cons_self))
      fun o ho => hn o (List.mem_cons_of_mem _ ho)
    exact ⟨h1, h2.trans (waits_step hs cx depth s e i h.has)⟩

/-- A call that has begun. -/
theorem begun (hs : Handlers σ Reply ρ) (cx : Codec) (depth : Nat) (s s1 : Wired σ ρ) (i : Nat)
    (requests : List (Int × Req)) (write : Int → Write) (hi : s.sys.sends.has i = false)
    (h : s.step hs cx depth (.send i requests write) = (.nothing, s1)) :
    ∃ l, sendAll s.conns write requests s.pool = (.ok l, s1.pool) ∧ s1.waits.get? i = some l ∧
      s1.sys.sends.get? i = some (.looping (requests.map (·.1)) []) := by
  simp only [Wired.step, Wired.gives, Wired.net, Sends.step, hi, Bool.false_eq_true, if_false] at h
  cases hx : sendAll s.conns write requests s.pool with
  | mk r pool =>
    cases r with
    | error x =>
      exfalso
      simp only [hx] at h
      cases requests with
      | nil => simp [sendAll] at hx
      | cons q requests => simp [sendStart] at h
    | ok l =>
      simp only [hx] at h
      have hst : ∀ (l : List Int), sendStart (fun _ => true) (fun _ => (.none : Option Exc)) l = .none := by
        intro l
        induction l with
        | nil => rfl
        | cons b l ih => simp [sendStart, ih]
      rw [hst] at h
      simp only [Prod.mk.injEq, true_and] at h
      subst h
      exact ⟨l, rfl, by simp [Dict.get?_set], by simp [Dict.get?_set]⟩

/-- When the brokers have answered, nothing that the call waits for is missing. -/
theorem answered_replies (hs : Handlers σ Reply ρ) (cx : Codec) (depth : Nat) (s : Wired σ ρ)
    (hsound : SoundPool s) (i : Nat) (requests : List (Int × Req)) (write : Int → Write) (es : List (WEv σ))
    (hi : s.sys.sends.has i = false) (hids : OwnIds requests es) (s1 : Wired σ ρ)
    (hsend : s.step hs cx depth (.send i requests write) = (.nothing, s1))
    (ha : ∀ b r k, (b, r) ∈ requests → s.conns.get? b = some k → AnsweredOver hs cx depth s1 es k r)
    (hn : ∀ o ∈ (wiredCourse hs cx depth s1 es).1, ¬ EndsSend i o) :
    (∃ v, (wiredCourse hs cx depth s1 es).2.sys.sends.get? i = some v) ∧
    ∀ b, Outstanding (wiredCourse hs cx depth s1 es).2.sys i b →
      ∃ x, (wiredCourse hs cx depth s1 es).2.reply i b = some (.ok x) := by
  obtain ⟨l, hx, hw, hp⟩ := begun hs cx depth s s1 i requests write hi hsend
  obtain ⟨hq, _⟩ := sendAll_waits cx depth s.conns write requests s.pool s1.pool l hsound hx
  have hready := ready_begun cx depth s.conns write requests s.pool s1.pool l hsound hids.1 hx
  obtain ⟨⟨v, h1, h2⟩, h3⟩ := waits_course hs cx depth es s1 i (requests.map (·.1))
    ⟨_, hp, by rintro _ _ ⟨⟩; exact List.Subset.refl _⟩ hn
  refine ⟨⟨v, h1⟩, ?_⟩
  rintro b ⟨left, results, h4, h5⟩
  rw [h1] at h4
  cases h4
  have hb := h2 left results rfl h5
  rw [← hq] at hb
  cases hg : l.get? b with
  | none => exact absurd hb (Dict.get?_eq_none.1 hg)
  | some kn =>
    obtain ⟨k, n⟩ := kn
    obtain ⟨r, c, g1, g2, g3, g4, g5⟩ := hready b k n (Dict.mem_of_get? hg)
    obtain ⟨before, after, p, v', c1, rfl, g6, g7, g8⟩ := ha b r k g1 g2
    have hid : ∀ e ∈ before ++ WEv.wire k (.deliver r.correlationId p) :: after, r.correlationId ∉ idsOf e :=
      fun e he h => hids.2 e he _ h (List.mem_map.2 ⟨(b, r), g1, rfl⟩)
    obtain ⟨c', g9, g10, g11⟩ := ready_course hs cx depth before s1 k c g3 g4 n r g5
      fun e he => hid e (List.mem_append_left _ he)
    rw [g7] at g9
    cases g9
    obtain ⟨o, g12⟩ := ready_answered g10 cx depth n r g11 g8 p v' g6
    have hinv := connInv_step g10 cx depth (.deliver r.correlationId p)
    have last : ∀ (es : List (WEv σ)) (s : Wired σ ρ) (c : Conn), s.pool[k]? = some c → ConnInv c →
        c.futs[n]? = some [.result r.correlationId o] → c.sent[n]? = some r →
        ∃ c', (wiredCourse hs cx depth s es).2.pool[k]? = some c' ∧ c'.futs[n]? = some [.result r.correlationId o] ∧
          c'.sent[n]? = some r := by
      intro es
      induction es with
      | nil => intro s c k1 k2 k3 k4; exact ⟨c, k1, k3, k4⟩
      | cons e es ih =>
        intro s c k1 k2 k3 k4
        obtain ⟨new, k5, _⟩ := net_pool hs cx depth s e k c k1
        exact ih _ _ k5 (connInv_run k2 cx depth new) (settled_stays cx depth new c k2 n _ k3)
          (sent_stays_run cx depth new c n r k4)
    obtain ⟨c2, g13, g14, g15⟩ := last after
      ((wiredCourse hs cx depth s1 before).2.step hs cx depth (.wire k (.deliver r.correlationId p))).2
      (c1.step cx depth (.deliver r.correlationId p)) (by simp [Wired.step, Wired.net, g7]) hinv g12
      (sent_stays cx depth c1 n r g11.1 _)
    rw [wiredCourse_append]
    rw [wiredCourse_append] at h3
    simp only [wiredCourse] at h3 ⊢
    simp only [Wired.reply, h3, hw, Option.bind_some, hg, g13, Conn.reply, g14, g15]
    exact ⟨_, rfl⟩

/-- **C145**: a call whose brokers have all answered ends by what it does itself, if the `heal()` ends that it
may have to call; however many calls share the connections, and whatever else happens. -/
theorem C145_ends_partial (hs : Handlers σ Reply ρ) (cx : Codec) (depth : Nat) (client : σ)
    (past : List (WEv σ)) (i : Nat) (requests : List (Int × Req)) (write : Int → Write) (es : List (WEv σ))
    (h : Res Unit) :
    let s := (wiredCourse hs cx depth (unwired client) past).2
    s.sys.sends.has i = false → OwnIds requests es →
    ∀ s1, s.step hs cx depth (.send i requests write) = (.nothing, s1) →
    (∀ b r k, (b, r) ∈ requests → s.conns.get? b = some k → AnsweredOver hs cx depth s1 es k r) →
    ∃ own, (∀ e ∈ own, OwnWired h i e) ∧ ∃ o ∈ (wiredCourse hs cx depth s1 (es ++ own)).1, EndsSend i o := by
  intro s hi hids s1 hsend ha
  by_cases hn : ∀ o ∈ (wiredCourse hs cx depth s1 es).1, ¬ EndsSend i o
  · obtain ⟨⟨v, h1⟩, h2⟩ := answered_replies hs cx depth s
      (soundPool_course hs cx depth past _ (soundPool_unwired client)) i requests write es hi hids s1 hsend ha hn
    obtain ⟨own, h3, o, h4, h5⟩ := C142_ends_partial hs cx depth _ i h v h1
      fun b hb hr => by obtain ⟨x, h⟩ := h2 b hb; rw [h] at hr; cases hr
    refine ⟨own, h3, o, ?_, h5⟩
    rw [wiredCourse_append]
    exact List.mem_append_right _ h4
  · simp only [not_forall, not_not] at hn
    obtain ⟨o, h1, h2⟩ := hn
    exact ⟨[], by simp, o, by simpa using h1, h2⟩

/-- Why only in part: while somebody has asked for a `heal()`, no call returns before a `heal()` has returned,
whoever answered. -/
theorem C145_held (hs : Handlers σ Reply ρ) (cx : Codec) (depth : Nat) (s : Wired σ ρ)
    (hf : s.sys.flag = true) (es : List (WEv σ)) (he : ∀ j, WEv.healed j (.ok ()) ∉ es) (i : Nat)
    (res : Dict Int ρ) : SOut.returned i res ∉ (wiredCourse hs cx depth s es).1 := by
  induction es generalizing s with
  | nil => simp [wiredCourse]
  | cons e es ih =>
    have hne : ∀ j, s.gives e ≠ .healed j (.ok ()) := by
      intro j h
      cases e with
      | healed j' r => cases h; exact he j List.mem_cons_self
      | takes j' b' => simp only [Wired.gives] at h; split at h <;> cases h
      | _ => simp [Wired.gives] at h
    simp only [wiredCourse, List.mem_cons, not_or]
    refine ⟨fun h => ?_, ih _ ?_ fun j h => he j (List.mem_cons_of_mem _ h)⟩
    · have h : (s.sys.step hs (fun _ _ => true) (s.gives e)).1 = .returned i res := h.symm
      revert h hne
      generalize s.gives e = ev
      intro hne h
      cases ev with
      | send j q w =>
        simp only [Sends.step] at h
        split at h
        · cases h
        · split at h <;> cases h
      | outcome j b r =>
        simp only [Sends.step] at h
        split at h
        · split at h
          · cases h
          · split at h
            · cases h
            · split at h
              · cases h
              · split at h <;> cases h
        · cases h
      | finish j =>
        simp only [Sends.step, hf, if_true] at h
        split at h <;> cases h
      | healed j r =>
        cases r with
        | ok u => exact hne j rfl
        | error x =>
          simp only [Sends.step] at h
          split at h <;> cases h
      | other f => cases h
    · rcases flag_step hs (fun _ _ => true) s.sys (s.gives e) hf with h | ⟨j, h⟩
      · exact h
      · exact absurd h (hne j)

/-- **C145**: if nobody has asked for a `heal()`, and the answers are no reason to, the call returns without
waiting for anything else. -/
theorem C145_returns_partial (hs : Handlers σ Reply ρ) (hq : Quiet hs) (cx : Codec) (depth : Nat) (client : σ)
    (past : List (WEv σ)) (i : Nat) (requests : List (Int × Req)) (write : Int → Write) (es : List (WEv σ)) :
    let s := (wiredCourse hs cx depth (unwired client) past).2
    s.sys.sends.has i = false → OwnIds requests es →
    ∀ s1, s.step hs cx depth (.send i requests write) = (.nothing, s1) →
    (∀ b r k, (b, r) ∈ requests → s.conns.get? b = some k → AnsweredOver hs cx depth s1 es k r) →
    (∀ o ∈ (wiredCourse hs cx depth s1 es).1, ¬ EndsSend i o) →
    (wiredCourse hs cx depth s1 es).2.sys.flag = false → NoneHealing (wiredCourse hs cx depth s1 es).2.sys →
    ∃ own, (∀ e ∈ own, (∃ b, e = .takes i b) ∨ e = .finish i) ∧
      ∃ res, SOut.returned i res ∈ (wiredCourse hs cx depth s1 (es ++ own)).1 := by
  intro s hi hids s1 hsend ha hn hf hnone
  obtain ⟨⟨v, h1⟩, h2⟩ := answered_replies hs cx depth s
    (soundPool_course hs cx depth past _ (soundPool_unwired client)) i requests write es hi hids s1 hsend ha hn
  have hloop : ∀ (m : Nat) (s : Wired σ ρ) (left : List Int) (results : Dict Int ρ), left.length = m →
      s.sys.sends.get? i = some (.looping left results) → s.sys.flag = false →
      (∀ b ∈ left, ∃ x, s.reply i b = some (.ok x)) →
      ∃ own, (∀ e ∈ own, (∃ b, e = WEv.takes i b) ∨ e = .finish i) ∧
        ∃ res, SOut.returned i res ∈ (wiredCourse hs cx depth s own).1 := by
    intro m
    induction m with
    | zero =>
      intro s left results hm hi hf hd
      obtain rfl := List.length_eq_zero_iff.1 hm
      refine ⟨[.finish i], by simp, results, List.mem_cons.2 (.inl ?_)⟩
      simp [Wired.step, Wired.gives, Sends.step, hi, hf]
    | succ m ih =>
      intro s left results hm hi hf hd
      cases left with
      | nil => simp at hm
      | cons b left =>
        obtain ⟨x, hx⟩ := hd b List.mem_cons_self
        obtain ⟨f, h3, h4⟩ := hq x
        obtain ⟨y, c', h5⟩ := h4 s.sys.client
        have hg : s.gives (.takes i b) = .outcome i b (.ok x) := by simp [Wired.gives, hx]
        obtain ⟨own, h6, res, h7⟩ := ih (s.step hs cx depth (.takes i b)).2 left (results.set b y) (by simpa using hm)
          (by simp [Wired.step, hg, Sends.step, hi, h3, h5, Dict.get?_set])
          (by simp [Wired.step, hg, Sends.step, hi, h3, h5, hf])
          (fun b' hb' => hd b' (List.mem_cons_of_mem _ hb'))
        refine ⟨.takes i b :: own, ?_, res, List.mem_cons_of_mem _ h7⟩
        intro e he
        rcases List.mem_cons.1 he with rfl | he
        · exact .inl ⟨b, rfl⟩
        · exact h6 e he
  cases v with
  | healing results => exact absurd h1 (hnone i results)
  | looping left results =>
    obtain ⟨own, h3, res, h4⟩ := hloop _ _ left results rfl h1 hf fun b hb => h2 b ⟨left, results, h1, hb⟩
    refine ⟨own, h3, res, ?_⟩
    rw [wiredCourse_append]
    exact List.mem_append_right _ h4

/-- Handlers that return the correlation id of every answer. -/
def exTakesAll : Handlers Unit Reply Int where
  api := Reply.api
  handle x := some fun c => (.ok x.corr, c, false)

theorem exTakesAll_quiet : Quiet exTakesAll := fun r => ⟨_, rfl, fun c => ⟨r.corr, c, rfl⟩⟩

/-- The connection to broker 1 is lost while a call waits for its answer. -/
def exOtherLost : List (WEv Unit) :=
  [.connects 1, .connects 2, .send 0 [(1, exReq 7)] fun _ => .queued, .wire 0 .abort, .takes 0 1]

theorem exAnswer_reads (cx : Codec) (j : Int) : AnswerReads cx 5 (exReq j).cls.api exAnswer (.ok (.part
    [("error_code", .int 0), ("coordinator_id", .int 3), ("coordinator_host", .str "h"),
     ("coordinator_port", .int 9)])) :=
  ⟨by rw [show (exReq j).cls = (exReq 8).cls from rfl]; decide +kernel, _, doc_mem 15 rfl, rfl, rfl, by krfl⟩

/-- **C145** is false of the code: a call to broker 2, which answers, does not return, because another call lost
its connection to broker 1 meanwhile, and a `heal()` comes first. -/
theorem C145_false (cx : Codec) :
    ¬ ∀ (past : List (WEv Unit)) (i : Nat) (requests : List (Int × Req)) (write : Int → Write)
        (es : List (WEv Unit)),
      let s := (wiredCourse exTakesAll cx 5 (unwired ()) past).2
      s.sys.sends.has i = false → OwnIds requests es →
      ∀ s1, s.step exTakesAll cx 5 (.send i requests write) = (.nothing, s1) →
      (∀ b r k, (b, r) ∈ requests → s.conns.get? b = some k → AnsweredOver exTakesAll cx 5 s1 es k r) →
      ∃ own, (∀ e ∈ own, (∃ b, e = .takes i b) ∨ e = .finish i) ∧
        ∃ res, SOut.returned i res ∈ (wiredCourse exTakesAll cx 5 s1 (es ++ own)).1 := by
  intro h
  obtain ⟨own, h1, res, h2⟩ := h exOtherLost 1 [(2, exReq 8)] (fun _ => .queued) [.wire 1 (.deliver 8 exAnswer)]
    (by rfl) (by simp [OwnIds, idsOf]) _ (by rfl) (by
      intro b r k hb hk
      simp only [List.mem_singleton, Prod.mk.injEq] at hb
      obtain ⟨rfl, rfl⟩ := hb
      have hk' : (some 1 : Option Nat) = some k := hk
      cases hk'
      exact ⟨[], [], exAnswer, _, _, rfl, exAnswer_reads cx 8, by rfl, by rfl⟩)
  refine C145_held exTakesAll cx 5 _ (by rfl) _ ?_ 1 res h2
  intro j hj
  simp only [List.cons_append, List.nil_append, List.mem_cons, reduceCtorEq, false_or] at hj
  rcases h1 _ hj with ⟨b, h⟩ | h <;> cases h

-- Non-vacuity of C145: a call to two brokers, which answer in another order, while another call waits for an
-- answer of broker 1 that does not come.
example (cx : Codec) :
    let s := (wiredCourse exTakesAll cx 5 (unwired ())
      [.connects 1, .connects 2, .send 0 [(1, exReq 7)] fun _ => .queued]).2
    let s1 := (s.step exTakesAll cx 5 (.send 1 [(1, exReq 8), (2, exReq 9)] fun _ => .queued)).2
    let es := [.wire 1 (.deliver 9 exAnswer), .takes 1 2, .wire 0 (.deliver 8 exAnswer)]
    s.sys.sends.has 1 = false ∧ OwnIds [(1, exReq 8), (2, exReq 9)] es ∧
    s.step exTakesAll cx 5 (.send 1 [(1, exReq 8), (2, exReq 9)] fun _ => .queued) = (.nothing, s1) ∧
    AnsweredOver exTakesAll cx 5 s1 es 0 (exReq 8) ∧ AnsweredOver exTakesAll cx 5 s1 es 1 (exReq 9) ∧
    (wiredCourse exTakesAll cx 5 s1 (es ++ [.takes 1 1, .finish 1])).1 =
      [.nothing, .nothing, .nothing, .nothing, .returned 1 [(2, 9), (1, 8)]] := by
  refine ⟨by rfl, ?_, by rfl, ?_, ?_, by krfl⟩
  · simp [OwnIds, idsOf, exReq]
  · exact ⟨[.wire 1 (.deliver 9 exAnswer), .takes 1 2], [], exAnswer, _, _, rfl, exAnswer_reads cx 8, by rfl,
      by rfl⟩
  · exact ⟨[], [.takes 1 2, .wire 0 (.deliver 8 exAnswer)], exAnswer, _, _, rfl, exAnswer_reads cx 9, by rfl,
      by rfl⟩

end Kiel
