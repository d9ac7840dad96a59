import Verif.Props.Wired
/-
C144: connections that were lost while nobody waited for an answer.
-/
set_option autoImplicit false
namespace Kiel
open Spec

variable {σ ρ : Type}

theorem settled_stays (cx : Codec) (depth : Nat) (new : List ConnEv) (c : Conn) (hc : ConnInv c) (n : Nat)
    (o : Outcome) (h : c.futs[n]? = some [o]) : (c.run cx depth new).futs[n]? = some [o] := by
  induction new generalizing c with
  | nil => exact h
  | cons ev new ih =>
    refine ih _ (connInv_step hc cx depth ev) ?_
    obtain ⟨fs', h1, h2⟩ := step_change hc cx depth ev n [o] h
    cases h2 with
    | same => exact h1

/-- Requests over a connection that is closed fail at once. -/
theorem sendAll_closed (cx : Codec) (depth : Nat) (conns : Dict Int Nat) (write : Int → Write)
    (requests : List (Int × Req)) (pool pool' : List Conn) (l : Dict Int (Nat × Nat))
    (hinv : ∀ (k : Nat) (c : Conn), pool[k]? = some c → ConnInv c)
    (h : sendAll conns write requests pool = (.ok l, pool')) (b : Int) (k : Nat) (c : Conn)
    (hb : conns.get? b = some k) (hk : pool[k]? = some c) (hc : c.closing = true) :
    ∀ k' n, (b, k', n) ∈ l → k' = k ∧ ∃ c', pool'[k]? = some c' ∧ ConnInv c' ∧
      c'.futs[n]? = some [.exc .brokerConnection] := by
  induction requests generalizing pool l c with
  | nil =>
    simp only [sendAll, Prod.mk.injEq, Except.ok.injEq] at h
    obtain ⟨rfl, rfl⟩ := h
    exact fun _ _ h => (List.not_mem_nil h).elim
  | cons q rest ih =>
    obtain ⟨b', r⟩ := q
    unfold sendAll at h
    split at h
    · cases h
    · rename_i j hb'
      split at h
      · cases h
      · rename_i d hj
        split at h
        · cases h
        · rename_i m d' hx
          have hd' : ConnInv d' := by
            have := connInv_step (hinv j d hj) cx depth (.send r (write b'))
            rw [← send_step, hx] at this
            exact this
          have hinv' : ∀ (j' : Nat) (e : Conn), (pool.set j d')[j']? = some e → ConnInv e := by
            intro j' e he
            by_cases hjk : j = j'
            · subst hjk
              rw [List.getElem?_set_self (List.getElem?_eq_some_iff.1 hj).1] at he
              cases he
              exact hd'
            · rw [List.getElem?_set_ne hjk] at he
              exact hinv j' e he
          have hsent : Sent cx depth d d' := by
            have := Sent.one cx depth d r (write b')
            rw [hx] at this
            exact this
          obtain ⟨c1, h1, new, rfl, _⟩ := set_sent hj hsent hk
          have hc1 := run_closing cx depth hc new
          split at h
          · cases h
          · rename_i l' pool2 hy
            cases h
            intro k' n hm
            rcases List.mem_cons.1 hm with hm | hm
            · cases hm
              rw [hb] at hb'
              cases hb'
              rw [hk] at hj
              cases hj
              refine ⟨rfl, ?_⟩
              have hf : d'.futs[m]? = some [Outcome.exc .brokerConnection] := by
                rcases send_cases c r (write b) with ⟨_, g⟩ | ⟨g, _⟩ | ⟨g, _⟩
                · rw [hx] at g
                  cases g
                  simp
                · rw [hc] at g; cases g
                · rw [hc] at g; cases g
              have hcd : (pool.set k d')[k]? = some d' := by
                simp [(List.getElem?_eq_some_iff.1 hk).1]
              obtain ⟨d2, g1, new2, rfl, _⟩ := sendAll_pool cx depth conns write rest _ k d' hcd
              rw [hy] at g1
              exact ⟨_, g1, connInv_run hd' cx depth new2, settled_stays cx depth new2 d' hd' m _ hf⟩
            · exact ih _ _ hinv' hy _ h1 hc1 k' n hm

theorem flag_step (hs : Handlers σ Reply ρ) (known : σ → Int → Bool) (s : Sends σ ρ) (e : SEv σ Reply)
    (h : s.flag = true) : (s.step hs known e).2.flag = true ∨ ∃ j, e = .healed j (.ok ()) := by
  cases e with
  | send j q w => left; simp only [Sends.step]; split <;> [exact h; split <;> exact h]
  | outcome j b r =>
    left
    simp only [Sends.step]
    split
    · split
      · exact h
      · split
        · simp only; split <;> [exact h; rfl]
        · split
          · exact h
          · split <;> simp [h]
    · exact h
  | finish j => left; simp only [Sends.step]; split <;> [(split <;> exact h); exact h]
  | healed j r =>
    cases r with
    | ok u => exact .inr ⟨j, rfl⟩
    | error x => left; simp only [Sends.step]; split <;> exact h
  | other f => exact .inl h

/-- The state of a call one of whose requests could not be sent. -/
structure Fails (i : Nat) (b : Int) (es : List (WEv σ)) (s : Wired σ ρ) : Prop where
  fut : ∃ l k n c, s.waits.get? i = some l ∧ l.get? b = some (k, n) ∧ s.pool[k]? = some c ∧ ConnInv c ∧
    c.futs[n]? = some [.exc .brokerConnection]
  phase : ∃ left results, (s.sys.sends.get? i = some (.looping left results) ∨
      left = [] ∧ s.sys.sends.get? i = some (.healing results)) ∧ b ∉ Dict.keys results ∧
    (b ∈ left ∨ s.sys.flag = true ∨ ∃ j, WEv.healed j (.ok ()) ∈ es)

theorem fails_reply {i : Nat} {b : Int} {es : List (WEv σ)} {s : Wired σ ρ} (h : Fails i b es s) :
    s.reply i b = some (.error .brokerConnection) := by
  obtain ⟨l, k, n, c, h1, h2, h3, _, h4⟩ := h.fut
  simp [Wired.reply, h1, h2, h3, Conn.reply, h4]

theorem fails_step (hs : Handlers σ Reply ρ) (cx : Codec) (depth : Nat) (i : Nat) (b : Int)
    (es : List (WEv σ)) (s : Wired σ ρ) (h : Fails i b es s) (e : WEv σ)
    (hn : ¬ EndsSend i (s.step hs cx depth e).1) : Fails i b (es ++ [e]) (s.step hs cx depth e).2 := by
  have hrep := fails_reply h
  obtain ⟨⟨l, k, n, c, h1, h2, h3, h4, h5⟩, left, results, hp, hk, hf⟩ := h
  have hhas : s.sys.sends.has i = true := by
    rcases hp with h | ⟨_, h⟩ <;> simp [Dict.has, h]
  have hr1 : ∀ res, (s.sys.step hs (fun _ _ => true) (s.gives e)).1 ≠ .returned i res :=
    fun res h => hn (.inl ⟨res, h⟩)
  have hr2 : ∀ x, (s.sys.step hs (fun _ _ => true) (s.gives e)).1 ≠ .raised i x :=
    fun x h => hn (.inr ⟨x, h⟩)
  refine ⟨⟨l, k, n, ?_⟩, ?_⟩
  · obtain ⟨new, h6, _⟩ := net_pool hs cx depth s e k c h3
    refine ⟨_, ?_, h2, h6, connInv_run h4 cx depth new, settled_stays cx depth new c h4 n _ h5⟩
    show (s.net cx depth e).waits.get? i = some l
    cases e with
    | send j q w =>
      simp only [Wired.net]
      split
      · exact h1
      · rename_i hj
        have : j ≠ i := by rintro rfl; exact hj hhas
        split
        · exact h1
        · simpa [Dict.get?_set, this] using h1
    | _ => exact h1
  · have hflag : (s.sys.flag = true ∨ ∃ j, WEv.healed j (.ok ()) ∈ es) →
        ((s.step hs cx depth e).2.sys.flag = true ∨ ∃ j, WEv.healed j (.ok ()) ∈ es ++ [e]) := by
      rintro (h | ⟨j, h⟩)
      · rcases flag_step hs (fun _ _ => true) s.sys (s.gives e) h with h | ⟨j, h⟩
        · exact .inl h
        · right
          refine ⟨j, ?_⟩
          cases e with
          | healed j' r => cases h; simp
          | takes j' b' => simp only [Wired.gives] at h; split at h <;> cases h
          | _ => simp [Wired.gives] at h
      · exact .inr ⟨j, List.mem_append_left _ h⟩
    by_cases ho : ∃ b' r, s.gives e = .outcome i b' r
    · obtain ⟨b', r, ho⟩ := ho
      have hrep' : s.reply i b' = some r := by
        cases e with
        | takes j b'' =>
          simp only [Wired.gives] at ho
          split at ho
          · cases ho
          · rename_i r' hr'
            cases ho
            exact hr'
        | _ => simp [Wired.gives] at ho
      rcases hp with hp | ⟨rfl, hp⟩
      · by_cases hb' : b' ∈ left
        · by_cases hbb : b' = b
          · subst hbb
            rw [hrep] at hrep'
            cases hrep'
            refine ⟨left.erase b', results, .inl ?_, hk, .inr (.inl ?_)⟩
            · simp [Wired.step, ho, Sends.step, hp, hb', Dict.get?_set]
            · simp [Wired.step, ho, Sends.step, hp, hb']
          · have hlast : (b ∈ left ∨ s.sys.flag = true ∨ ∃ j, WEv.healed j (.ok ()) ∈ es) →
                (b ∈ left.erase b' ∨ (s.step hs cx depth e).2.sys.flag = true ∨
                  ∃ j, WEv.healed j (.ok ()) ∈ es ++ [e]) := by
              rintro (h | h)
              · exact .inl ((List.mem_erase_of_ne (Ne.symm hbb)).2 h)
              · exact .inr (hflag h)
            cases r with
            | error x =>
              refine ⟨left.erase b', results, .inl ?_, hk, hlast hf⟩
              simp [Wired.step, ho, Sends.step, hp, hb', Dict.get?_set]
            | ok r =>
              simp only [ho, Sends.step, hp, hb', not_true_eq_false, if_false] at hr2
              cases hh : hs.handle r with
              | none => simp [hh] at hr2
              | some f =>
                simp only [hh] at hr2
                cases hf' : f s.sys.client with
                | mk res rest =>
                  obtain ⟨c', ask⟩ := rest
                  cases res with
                  | error x => simp [hf'] at hr2
                  | ok x =>
                    refine ⟨left.erase b', results.set b' x, .inl ?_, ?_, hlast hf⟩
                    · simp [Wired.step, ho, Sends.step, hp, hb', hh, hf', Dict.get?_set]
                    · rw [Dict.keys_set]
                      split
                      · exact hk
                      · simp [hk, Ne.symm hbb]
        · refine ⟨left, results, .inl ?_, hk, ?_⟩
          · simp [Wired.step, ho, Sends.step, hp, hb']
          · exact hf.imp id hflag
      · refine ⟨[], results, .inr ⟨rfl, ?_⟩, hk, hf.imp id hflag⟩
        simp [Wired.step, ho, Sends.step, hp]
    · have he : ∀ b r, s.gives e ≠ .outcome i b r := fun b r h => ho ⟨b, r, h⟩
      rcases hp with hp | ⟨rfl, hp⟩
      · rcases step_frame hs _ s.sys _ i _ hp he hr1 hr2 with g | ⟨res', g1, g2⟩
        · exact ⟨left, results, .inl g, hk, hf.imp id hflag⟩
        · simp only [Sending.looping.injEq] at g1
          obtain ⟨rfl, rfl⟩ := g1
          exact ⟨[], results, .inr ⟨rfl, g2⟩, hk, hf.imp id hflag⟩
      · rcases step_frame hs _ s.sys _ i _ hp he hr1 hr2 with g | ⟨res', g1, g2⟩
        · exact ⟨[], results, .inr ⟨rfl, g⟩, hk, hf.imp id hflag⟩
        · cases g1

/-- The connection was closed: its stream said so, it was aborted, or `cluster.stop()` closed it. -/
theorem closing_course (hs : Handlers σ Reply ρ) (cx : Codec) (depth : Nat) (es : List (WEv σ))
    (s : Wired σ ρ) (k : Nat) (c : Conn) (hk : s.pool[k]? = some c) (hc : c.closing = true) :
    ∃ c', (wiredCourse hs cx depth s es).2.pool[k]? = some c' ∧ c'.closing = true := by
  induction es generalizing s c with
  | nil => exact ⟨c, hk, hc⟩
  | cons e es ih =>
    obtain ⟨new, h1, _⟩ := net_pool hs cx depth s e k c hk
    exact ih _ _ h1 (run_closing cx depth hc new)

/-- **C144**: a connection of which the stream reports that it is closed, or from which something comes
that makes the client abort it, is noticed by the next call that needs it: the call has nothing for this
broker, and it does not return before a `heal()` of the client has returned. -/
theorem C144_noticed (hs : Handlers σ Reply ρ) (cx : Codec) (depth : Nat) (client : σ)
    (past more : List (WEv σ)) (k : Nat) (x : Exc) (i : Nat) (requests : List (Int × Req))
    (write : Int → Write) (b : Int) (es : List (WEv σ)) (res : Dict Int ρ) (pre post : List (SOut ρ)) :
    let before := (wiredCourse hs cx depth (unwired client) past).2
    let s := (wiredCourse hs cx depth (unwired client) (past ++ .wire k (.readError x) :: more)).2
    k < before.pool.length → s.conns.get? b = some k → b ∈ requests.map (·.1) →
    s.sys.sends.has i = false →
    ∀ s1, s.step hs cx depth (.send i requests write) = (.nothing, s1) →
    (wiredCourse hs cx depth s1 es).1 = pre ++ .returned i res :: post →
    (∀ o ∈ pre, ¬ EndsSend i o) →
    b ∉ res.keys ∧ ∃ j, WEv.healed j (.ok ()) ∈ es.take (pre.length + 1) := by
  intro before s hkl hbk hbr hi s1 hsend hout hpre
  have hsound : SoundPool s := soundPool_course hs cx depth _ _ (soundPool_unwired client)
  have hsb : SoundPool before := soundPool_course hs cx depth _ _ (soundPool_unwired client)
  obtain ⟨c, hk, hc⟩ : ∃ c, s.pool[k]? = some c ∧ c.closing = true := by
    have hcb := List.getElem?_eq_getElem hkl
    have hinv := hsb k _ hcb
    have : s = (wiredCourse hs cx depth (before.step hs cx depth (.wire k (.readError x))).2 more).2 := by
      show (wiredCourse hs cx depth (unwired client) (past ++ .wire k (.readError x) :: more)).2 = _
      rw [wiredCourse_append]
      rfl
    rw [this]
    refine closing_course hs cx depth more _ k (before.pool[k].readError x) ?_ ?_
    · simp [Wired.step, Wired.net, hkl, Conn.step]
    · unfold Conn.readError
      split
      · rename_i hr
        cases hcl : before.pool[k].closing with
        | true => rfl
        | false => exact absurd (hinv.live hcl) hr
      · exact socketError_closing _ _
  have h0 : Fails i b [] s1 := by
    have hq := hsend
    simp only [Wired.step, Wired.gives, Wired.net, Sends.step, hi, Bool.false_eq_true, if_false] at hq
    cases hx : sendAll s.conns write requests s.pool with
    | mk r pool =>
      cases r with
      | error x =>
        exfalso
        simp only [hx] at hq
        cases requests with
        | nil => simp [sendAll] at hx
        | cons q requests => simp [sendStart] at hq
      | ok l =>
        simp only [hx] at hq
        have hst : ∀ (l : List Int), sendStart (fun _ => true) (fun _ => (.none : Option Exc)) l = .none := by
          intro l
          induction l with
          | nil => rfl
          | cons b l ih => simp [sendStart, ih]
        rw [hst] at hq
        simp only [Prod.mk.injEq, true_and] at hq
        subst hq
        obtain ⟨h1, _⟩ := sendAll_waits cx depth s.conns write requests s.pool pool l hsound hx
        have hcl := sendAll_closed cx depth s.conns write requests s.pool pool l hsound hx b k c hbk hk hc
        refine ⟨?_, requests.map (·.1), [], .inl (by simp [Dict.get?_set]), by simp [Dict.keys], .inl hbr⟩
        rw [← h1] at hbr
        cases hg : l.get? b with
        | none => exact absurd hbr (Dict.get?_eq_none.1 hg)
        | some kn =>
          obtain ⟨k', n⟩ := kn
          obtain ⟨rfl, c', h2, h3, h4⟩ := hcl k' n (Dict.mem_of_get? hg)
          exact ⟨l, k', n, c', by simp [Dict.get?_set], hg, h2, h3, h4⟩
  have key : ∀ (es : List (WEv σ)), (∀ o ∈ (wiredCourse hs cx depth s1 es).1, ¬ EndsSend i o) →
      Fails i b es (wiredCourse hs cx depth s1 es).2 := by
    intro es
    induction es using List.reverseRecOn with
    | nil => intro _; exact h0
    | append_singleton es e ih =>
      intro h
      rw [wiredCourse_append] at h
      have h2 : (wiredCourse hs cx depth s1 (es ++ [e])).2 =
          ((wiredCourse hs cx depth s1 es).2.step hs cx depth e).2 := by rw [wiredCourse_append]; rfl
      rw [h2]
      exact fails_step hs cx depth i b es _ (ih fun o ho => h o (List.mem_append_left _ ho)) e
        (h _ (List.mem_append_right _ (by simp [wiredCourse])))
  have hlen : ∀ (es : List (WEv σ)) (s : Wired σ ρ), (wiredCourse hs cx depth s es).1.length = es.length := by
    intro es
    induction es with
    | nil => intro s; rfl
    | cons e es ih => intro s; simp [wiredCourse, ih]
  have hlt : pre.length < es.length := by
    have := hlen es s1
    rw [hout] at this
    simp at this
    omega
  have hsplit := wiredCourse_append hs cx depth (es.take pre.length) (es.drop pre.length) s1
  rw [List.take_append_drop] at hsplit
  rw [hsplit] at hout
  have hl1 := hlen (es.take pre.length) s1
  obtain ⟨h3, h4⟩ := List.append_inj hout (by rw [hl1]; simp; omega)
  obtain ⟨_, left, results, hp, hr, hf⟩ := key (es.take pre.length) (by rw [h3]; exact hpre)
  rw [List.drop_eq_getElem_cons hlt] at h4
  simp only [wiredCourse, List.cons.injEq] at h4
  have hret := step_returned hs _ _ _ i res h4.1
  have : left = [] ∧ results = res := by
    rcases hret with g | g <;> rcases hp with k | ⟨k0, k⟩ <;> rw [g] at k <;> simp_all
  obtain ⟨rfl, rfl⟩ := this
  refine ⟨hr, ?_⟩
  rw [List.take_succ_eq_append_getElem hlt]
  rcases hf with h | h | ⟨j, h⟩
  · cases h
  · have h4 := h4.1
    revert h4
    generalize es[pre.length] = e
    intro h4
    cases e with
    | healed j r =>
      cases r with
      | ok u => exact ⟨j, by simp⟩
      | error y =>
        exfalso
        simp only [Wired.step, Wired.gives, Sends.step] at h4
        split at h4 <;> cases h4
    | finish j =>
      exfalso
      simp only [Wired.step, Wired.gives, Sends.step, h, if_true] at h4
      split at h4 <;> cases h4
    | takes j b' =>
      exfalso
      simp only [Wired.step, Wired.gives] at h4
      split at h4
      · cases h4
      · simp only [Sends.step] at h4
        split at h4
        · split at h4
          · cases h4
          · split at h4
            · cases h4
            · split at h4
              · cases h4
              · split at h4 <;> cases h4
        · cases h4
    | send j q w =>
      exfalso
      simp only [Wired.step, Wired.gives, Sends.step] at h4
      split at h4
      · cases h4
      · split at h4 <;> cases h4
    | _ => cases h4
  · exact ⟨j, List.mem_append_left _ h⟩

-- Non-vacuity: the connection to broker 1 is lost; the next call gets nothing of broker 1, and heals.
example (cx : Codec) : (wiredCourse exByCorr cx 5 (unwired ())
    ([.connects 1, .connects 2] ++ .wire 0 (.readError .streamClosed) ::
     [.send 0 [(1, exReq 7), (2, exReq 8)] (fun _ => .queued), .takes 0 1, .wire 1 (.deliver 8 exAnswer), .takes 0 2,
      .finish 0, .drops 1, .connects 1, .healed 0 (.ok ()),
      .send 0 [(1, exReq 9)] (fun _ => .queued), .wire 2 (.deliver 9 exAnswer), .takes 0 1, .finish 0])).1 =
    [.nothing, .nothing, .nothing, .nothing, .nothing, .nothing, .nothing, .healBegins 0, .nothing, .nothing,
     .returned 0 [(2, 8)], .nothing, .nothing, .nothing, .returned 0 [(1, 9)]] := by krfl

end Kiel
