import Verif.Spec.Asking
import Verif.Props.Answering
/-
C146: `get_metadata()` while connections get lost.
-/
set_option autoImplicit false
namespace Kiel
open Spec

variable {σ ρ : Type}

theorem askNext_pool (cx : Codec) (depth : Nat) (r : Req) (w : Write) (ks : List Nat) (pool : List Conn)
    (j : Nat) (d : Conn) (hj : pool[j]? = some d) :
    ∃ new, (askNext r w ks pool).2[j]? = some (d.run cx depth new) := by
  have same : ∃ new, pool[j]? = some (d.run cx depth new) := ⟨[], hj⟩
  cases ks with
  | nil => exact same
  | cons k rest =>
    simp only [askNext]
    split
    · exact same
    · rename_i c hk
      have h1 : ∃ new, (pool.set k (c.send r w).2)[j]? = some (d.run cx depth new) := by
        obtain ⟨d', h, new, rfl, _⟩ := set_sent hk (Sent.one cx depth c r w) hj
        exact ⟨new, h⟩
      split <;> rename_i hx <;> rw [hx] at h1 <;> exact h1

theorem ask_pool (hs : Handlers σ Reply ρ) (cx : Codec) (depth : Nat) (s : Asking σ ρ) (e : AskEv σ) (k : Nat)
    (c : Conn) (hk : s.net.pool[k]? = some c) :
    ∃ new, (s.step hs cx depth e).2.net.pool[k]? = some (c.run cx depth new) := by
  have same : ∃ new, s.net.pool[k]? = some (c.run cx depth new) := ⟨[], hk⟩
  have on : ∀ j r w ks, ∃ new, (s.goesOn j (askNext r w ks s.net.pool)).2.net.pool[k]? =
      some (c.run cx depth new) := by
    intro j r w ks
    have h := askNext_pool cx depth r w ks s.net.pool k c hk
    generalize askNext r w ks s.net.pool = x at h
    obtain ⟨x | x, pool⟩ := x <;> exact h
  cases e with
  | ask j r w =>
    simp only [Asking.step]
    split
    · exact same
    · exact on j r w _
  | resumes j r w =>
    simp only [Asking.step]
    split
    · exact same
    · split
      · exact same
      · exact same
      · split
        · exact on j r w _
        · exact same
  | wired e =>
    obtain ⟨new, h, _⟩ := net_pool hs cx depth s.net e k c hk
    exact ⟨new, h⟩

theorem askNext_length (r : Req) (w : Write) (ks : List Nat) (pool : List Conn) :
    (askNext r w ks pool).2.length = pool.length := by
  cases ks with
  | nil => rfl
  | cons k rest =>
    simp only [askNext]
    split
    · rfl
    · split <;> simp

theorem soundAsks_step (hs : Handlers σ Reply ρ) (cx : Codec) (depth : Nat) (s : Asking σ ρ)
    (h : SoundPool s.net) (e : AskEv σ) : SoundPool (s.step hs cx depth e).2.net := by
  have on : ∀ j r w ks, SoundPool (s.goesOn j (askNext r w ks s.net.pool)).2.net := by
    intro j r w ks k c hk
    have hl := askNext_length r w ks s.net.pool
    have hk : (askNext r w ks s.net.pool).2[k]? = some c := by
      revert hk
      generalize askNext r w ks s.net.pool = x
      obtain ⟨x | x, pool⟩ := x <;> exact id
    have hlt := (List.getElem?_eq_some_iff.1 hk).1
    rw [hl] at hlt
    obtain ⟨new, h1⟩ := askNext_pool cx depth r w ks s.net.pool k _ (List.getElem?_eq_getElem hlt)
    rw [hk] at h1
    cases h1
    exact connInv_run (h k _ (List.getElem?_eq_getElem hlt)) cx depth new
  cases e with
  | ask j r w =>
    simp only [Asking.step]
    split
    · exact h
    · exact on j r w _
  | resumes j r w =>
    simp only [Asking.step]
    split
    · exact h
    · split
      · exact h
      · exact h
      · split
        · exact on j r w _
        · exact h
  | wired e => exact soundPool_step hs cx depth s.net h e

theorem soundAsks_course (hs : Handlers σ Reply ρ) (cx : Codec) (depth : Nat) (es : List (AskEv σ))
    (s : Asking σ ρ) (h : SoundPool s.net) : SoundPool (askCourse hs cx depth s es).2.net := by
  induction es generalizing s with
  | nil => exact h
  | cons e es ih => exact ih _ (soundAsks_step hs cx depth s h e)

/-- What a connection that is closed and no longer read from has not answered, it never will. -/
theorem frozen_pending (cx : Codec) (depth : Nat) (n : Nat) (new : List ConnEv) (c : Conn) (h1 : Pending c n)
    (h2 : c.reading = false) (h3 : c.closing = true) :
    Pending (c.run cx depth new) n ∧ (c.run cx depth new).reading = false ∧
      (c.run cx depth new).closing = true := by
  induction new generalizing c with
  | nil => exact ⟨h1, h2, h3⟩
  | cons ev new ih =>
    obtain ⟨b1, b2, _, l, b3⟩ := frozen_step cx depth h3 h2 ev
    refine ih _ ?_ b2 b1
    unfold Pending at h1 ⊢
    rw [b3, List.getElem?_append_left (List.getElem?_eq_some_iff.1 h1).1]
    exact h1

/-- It waits for an answer over a connection that is closed and no longer read from. -/
def AskStuck (s : Asking σ ρ) (j : Nat) : Prop :=
  ∃ k n rest c, s.asks.get? j = some ⟨k, n, rest⟩ ∧ s.net.pool[k]? = some c ∧ Pending c n ∧
    c.reading = false ∧ c.closing = true

theorem ask_stuck_step (hs : Handlers σ Reply ρ) (cx : Codec) (depth : Nat) (s : Asking σ ρ) (j : Nat)
    (h : AskStuck s j) (e : AskEv σ) :
    ¬ EndsAsk j (s.step hs cx depth e).1 ∧ AskStuck (s.step hs cx depth e).2 j := by
  obtain ⟨k, n, rest, c, h1, h2, h3, h4, h5⟩ := h
  obtain ⟨new, h6⟩ := ask_pool hs cx depth s e k c h2
  obtain ⟨g1, g2, g3⟩ := frozen_pending cx depth n new c h3 h4 h5
  have key : (s.step hs cx depth e).2.asks.get? j = some ⟨k, n, rest⟩ ∧ ¬ EndsAsk j (s.step hs cx depth e).1 := by
    have hno : ¬ EndsAsk j .nothing := by rintro (⟨_, h⟩ | ⟨_, h⟩) <;> cases h
    have on : ∀ i x, i ≠ j → (s.goesOn i x).2.asks.get? j = some ⟨k, n, rest⟩ ∧
        ¬ EndsAsk j (s.goesOn i x).1 := by
      intro i x hi
      obtain ⟨x | x, pool⟩ := x
      · refine ⟨by simp [Asking.goesOn, Dict.get?_erase, hi, h1], ?_⟩
        rintro (⟨_, h⟩ | ⟨_, h⟩)
        · cases h
        · cases h; exact hi rfl
      · exact ⟨by simp [Asking.goesOn, Dict.get?_set, hi, h1], hno⟩
    cases e with
    | ask i r w =>
      simp only [Asking.step]
      split
      · exact ⟨h1, hno⟩
      · rename_i hi
        refine on i _ ?_
        rintro rfl
        simp [Dict.has, h1] at hi
    | resumes i r w =>
      by_cases hi : i = j
      · subst hi
        unfold Pending at h3
        have : (s.net.pool[k]?).bind (·.reply n) = .none := by simp [h2, Conn.reply, h3]
        simp only [Asking.step, h1, this]
        exact ⟨trivial, hno⟩
      · simp only [Asking.step]
        split
        · exact ⟨h1, hno⟩
        · split
          · exact ⟨h1, hno⟩
          · refine ⟨by simp [Dict.get?_erase, hi, h1], ?_⟩
            rintro (⟨_, h⟩ | ⟨_, h⟩)
            · cases h; exact hi rfl
            · cases h
          · split
            · exact on i _ hi
            · refine ⟨by simp [Dict.get?_erase, hi, h1], ?_⟩
              rintro (⟨_, h⟩ | ⟨_, h⟩)
              · cases h
              · cases h; exact hi rfl
    | wired e => exact ⟨h1, hno⟩
  exact ⟨key.2, k, n, rest, _, key.1, h6, g1, g2, g3⟩

theorem ask_stuck_course (hs : Handlers σ Reply ρ) (cx : Codec) (depth : Nat) (es : List (AskEv σ)) (s : Asking σ ρ)
    (j : Nat) (h : AskStuck s j) : ∀ o ∈ (askCourse hs cx depth s es).1, ¬ EndsAsk j o := by
  induction es generalizing s with
  | nil => intro o ho; cases ho
  | cons e es ih =>
    intro o ho
    obtain ⟨h1, h2⟩ := ask_stuck_step hs cx depth s j h e
    rcases List.mem_cons.1 ho with rfl | ho
    · exact h1
    · exact ih _ h2 o ho

/-- **C146** is false of the code: if a broker closes its connection while `get_metadata()` waits for its
answer, then `get_metadata()` never ends, whoever else would answer and whatever happens afterwards. -/
theorem C146_hangs (hs : Handlers σ Reply ρ) (cx : Codec) (depth : Nat) (client : σ) (past : List (AskEv σ))
    (j k : Nat) (es : List (AskEv σ)) :
    let s := (askCourse hs cx depth (unasked client) past).2
    AsksAt s j k → ∀ o ∈ (askCourse hs cx depth s (lost k :: es)).1, ¬ EndsAsk j o := by
  rintro s ⟨n, rest, c, h1, h2, h3⟩ o ho
  have hinv : ConnInv c := soundAsks_course hs cx depth past _ (soundPool_unwired client) k c h2
  rcases List.mem_cons.1 ho with rfl | ho
  · rintro (⟨_, h⟩ | ⟨_, h⟩) <;> cases h
  · refine ask_stuck_course hs cx depth es (s.step hs cx depth (lost k)).2 j
      ⟨k, n, rest, c.readError .streamClosed, h1, ?_, ?_, ?_⟩ o ho
    · simp [lost, Asking.step, Wired.step, Wired.net, h2, Conn.step]
    · unfold Pending at h3 ⊢
      unfold Conn.readError
      split
      · exact h3
      · simpa [Conn.socketError] using h3
    · cases hr : c.reading with
      | true => simp [Conn.readError, hr, Conn.socketError]
      | false =>
        have : c.closing = true := by
          cases hcl : c.closing with
          | true => rfl
          | false => rw [hinv.live hcl] at hr; cases hr
        simp [Conn.readError, hr, this]

/-! ### What holds -/

theorem ready_askNext (cx : Codec) (depth : Nat) (r' : Req) (w : Write) (ks : List Nat) (pool : List Conn)
    (k : Nat) (d : Conn) (hk : pool[k]? = some d) (hd : ConnInv d) (n : Nat) (r : Req) (hr : Ready d n r)
    (hn : r'.correlationId ≠ r.correlationId) :
    ∃ d', (askNext r' w ks pool).2[k]? = some d' ∧ ConnInv d' ∧ Ready d' n r := by
  have same : ∃ d', pool[k]? = some d' ∧ ConnInv d' ∧ Ready d' n r := ⟨d, hk, hd, hr⟩
  cases ks with
  | nil => exact same
  | cons j rest =>
    simp only [askNext]
    split
    · exact same
    · rename_i c hj
      have h1 : ∃ d', (pool.set j (c.send r' w).2)[k]? = some d' ∧ ConnInv d' ∧ Ready d' n r := by
        by_cases hjk : j = k
        · subst hjk
          rw [hk] at hj
          cases hj
          refine ⟨_, List.getElem?_set_self (List.getElem?_eq_some_iff.1 hk).1, ?_, ?_⟩
          · rw [send_step cx depth]; exact connInv_step hd cx depth _
          · rw [send_step cx depth]
            refine ready_step hd cx depth _ n r ?_ hr
            rintro r'' w' h
            cases h
            exact hn
        · exact ⟨d, by rw [List.getElem?_set_ne hjk]; exact hk, hd, hr⟩
      split <;> rename_i hx <;> rw [hx] at h1 <;> exact h1

theorem ready_ask (hs : Handlers σ Reply ρ) (cx : Codec) (depth : Nat) (s : Asking σ ρ) (e : AskEv σ) (k : Nat)
    (c : Conn) (hk : s.net.pool[k]? = some c) (hc : ConnInv c) (n : Nat) (r : Req) (hr : Ready c n r)
    (he : r.correlationId ∉ askIds e) :
    ∃ c', (s.step hs cx depth e).2.net.pool[k]? = some c' ∧ ConnInv c' ∧ Ready c' n r := by
  have same : ∃ c', s.net.pool[k]? = some c' ∧ ConnInv c' ∧ Ready c' n r := ⟨c, hk, hc, hr⟩
  have on : ∀ j (r' : Req) w ks, r'.correlationId ≠ r.correlationId →
      ∃ c', (s.goesOn j (askNext r' w ks s.net.pool)).2.net.pool[k]? = some c' ∧ ConnInv c' ∧ Ready c' n r := by
    intro j r' w ks hne
    have h := ready_askNext cx depth r' w ks s.net.pool k c hk hc n r hr hne
    generalize askNext r' w ks s.net.pool = x at h
    obtain ⟨x | x, pool⟩ := x <;> exact h
  cases e with
  | ask j r' w =>
    simp only [Asking.step]
    split
    · exact same
    · exact on j r' w _ fun h => he (by simp [askIds, h])
  | resumes j r' w =>
    simp only [Asking.step]
    split
    · exact same
    · split
      · exact same
      · exact same
      · split
        · exact on j r' w _ fun h => he (by simp [askIds, h])
        · exact same
  | wired e => exact ready_net hs cx depth s.net e k c hk hc n r hr he

/-- An event that is none of its own, or comes before what it waits for, leaves a `get_metadata()` where it
is. -/
theorem ask_stays (hs : Handlers σ Reply ρ) (cx : Codec) (depth : Nat) (s : Asking σ ρ) (e : AskEv σ) (j : Nat)
    (a : Ask) (h1 : s.asks.get? j = some a)
    (h2 : ∀ x, (s.net.pool[a.conn]?).bind (·.reply a.fut) ≠ some (.error x))
    (h3 : ∀ x, (s.step hs cx depth e).1 ≠ .metadata j x) : (s.step hs cx depth e).2.asks.get? j = some a := by
  have on : ∀ i x, i ≠ j → (s.goesOn i x).2.asks.get? j = some a := by
    intro i x hi
    obtain ⟨x | x, pool⟩ := x
    · simp [Asking.goesOn, Dict.get?_erase, hi, h1]
    · simp [Asking.goesOn, Dict.get?_set, hi, h1]
  cases e with
  | ask i r w =>
    simp only [Asking.step]
    split
    · exact h1
    · rename_i hi
      refine on i _ ?_
      rintro rfl
      simp [Dict.has, h1] at hi
  | resumes i r w =>
    by_cases hi : i = j
    · subst hi
      simp only [Asking.step, h1] at h3 ⊢
      cases hx : (s.net.pool[a.conn]?).bind (·.reply a.fut) with
      | none => simp [h1]
      | some x =>
        cases x with
        | error x => exact absurd hx (h2 x)
        | ok x => rw [hx] at h3; exact absurd rfl (h3 x)
    · simp only [Asking.step]
      split
      · exact h1
      · split
        · exact h1
        · simp [Dict.get?_erase, hi, h1]
        · split
          · exact on i _ hi
          · simp [Dict.get?_erase, hi, h1]
  | wired e => exact h1

theorem askCourse_append (hs : Handlers σ Reply ρ) (cx : Codec) (depth : Nat) (es es' : List (AskEv σ))
    (s : Asking σ ρ) : askCourse hs cx depth s (es ++ es') =
      ((askCourse hs cx depth s es).1 ++ (askCourse hs cx depth (askCourse hs cx depth s es).2 es').1,
        (askCourse hs cx depth (askCourse hs cx depth s es).2 es').2) := by
  induction es generalizing s with
  | nil => rfl
  | cons e es ih => simp [askCourse, ih]

theorem ask_closing (hs : Handlers σ Reply ρ) (cx : Codec) (depth : Nat) (es : List (AskEv σ))
    (s : Asking σ ρ) (k : Nat) (c : Conn) (hk : s.net.pool[k]? = some c) (hc : c.closing = true) :
    ∃ c', (askCourse hs cx depth s es).2.net.pool[k]? = some c' ∧ c'.closing = true := by
  induction es generalizing s c with
  | nil => exact ⟨c, hk, hc⟩
  | cons e es ih =>
    obtain ⟨new, h1⟩ := ask_pool hs cx depth s e k c hk
    exact ih _ _ h1 (run_closing cx depth hc new)

/-- While the connection is open, `get_metadata()` keeps waiting for an answer over it. -/
theorem asks_course (hs : Handlers σ Reply ρ) (cx : Codec) (depth : Nat) (es : List (AskEv σ))
    (s : Asking σ ρ) (j : Nat) (a : Ask) (c : Conn) (r : Req) (h1 : s.asks.get? j = some a)
    (h2 : s.net.pool[a.conn]? = some c) (h3 : ConnInv c) (h4 : Ready c a.fut r)
    (hid : ∀ e ∈ es, r.correlationId ∉ askIds e)
    (hn : ∀ x, AskOut.metadata j x ∉ (askCourse hs cx depth s es).1) (c' : Conn)
    (ho : (askCourse hs cx depth s es).2.net.pool[a.conn]? = some c') (hc : c'.closing = false) :
    (askCourse hs cx depth s es).2.asks.get? j = some a ∧ ConnInv c' ∧ Ready c' a.fut r := by
  induction es generalizing s c with
  | nil =>
    have ho : s.net.pool[a.conn]? = some c' := ho
    rw [h2] at ho
    cases ho
    exact ⟨h1, h3, h4⟩
  | cons e es ih =>
    have hopen : c.closing = false := by
      cases hcl : c.closing with
      | false => rfl
      | true =>
        obtain ⟨d, g1, g2⟩ := ask_closing hs cx depth (e :: es) s a.conn c h2 hcl
        rw [ho] at g1
        cases g1
        rw [hc] at g2
        cases g2
    obtain ⟨d, g1, g2, g3⟩ := ready_ask hs cx depth s e a.conn c h2 h3 a.fut r h4 (hid e List.mem_cons_self)
    refine ih (s.step hs cx depth e).2 d (ask_stays hs cx depth s e j a h1 ?_ fun x h => hn x (List.mem_cons.2 (.inl h.symm))) g1 g2 g3
      (fun e' h => hid e' (List.mem_cons_of_mem _ h)) (fun x h => hn x (List.mem_cons_of_mem _ h)) ho
    intro x hx
    obtain ⟨k1, ⟨o, k2, k3⟩ | ⟨k2, _⟩⟩ := h4
    · obtain ⟨v, rfl⟩ := k3 hopen
      simp [h2, Conn.reply, k1, k2] at hx
    · simp [h2, Conn.reply, k2] at hx

theorem asks_answered (hs : Handlers σ Reply ρ) (cx : Codec) (depth : Nat) (es : List (AskEv σ))
    (s : Asking σ ρ) (j : Nat) (a : Ask) (c : Conn) (r : Req) (y : Val) (h1 : s.asks.get? j = some a)
    (h2 : s.net.pool[a.conn]? = some c) (h3 : ConnInv c) (h4 : c.sent[a.fut]? = some r)
    (h5 : c.futs[a.fut]? = some [.result r.correlationId y])
    (hn : ∀ x, AskOut.metadata j x ∉ (askCourse hs cx depth s es).1) :
    (askCourse hs cx depth s es).2.asks.get? j = some a ∧
      ((askCourse hs cx depth s es).2.net.pool[a.conn]?).bind (·.reply a.fut) =
        some (.ok ⟨r.cls.api, r.correlationId, y⟩) := by
  have hrep : (s.net.pool[a.conn]?).bind (·.reply a.fut) = some (.ok ⟨r.cls.api, r.correlationId, y⟩) := by
    simp [h2, Conn.reply, h4, h5]
  induction es generalizing s c with
  | nil => exact ⟨h1, hrep⟩
  | cons e es ih =>
    obtain ⟨new, g1⟩ := ask_pool hs cx depth s e a.conn c h2
    have k1 := sent_stays_run cx depth new c _ r h4
    have k2 := settled_stays cx depth new c h3 _ _ h5
    refine ih (s.step hs cx depth e).2 _ (ask_stays hs cx depth s e j a h1 ?_ fun x h => hn x (List.mem_cons.2 (.inl h.symm))) g1
      (connInv_run h3 cx depth new) k1 k2 (fun x h => hn x (List.mem_cons_of_mem _ h)) (by simp [g1, Conn.reply, k1, k2])
    intro x hx
    rw [hrep] at hx
    cases hx

theorem askNext_ready (cx : Codec) (depth : Nat) (r : Req) (w : Write) (ks : List Nat) (pool : List Conn)
    (hinv : ∀ (k : Nat) (c : Conn), pool[k]? = some c → ConnInv c) (a : Ask) (pool' : List Conn)
    (h : askNext r w ks pool = (.ok a, pool')) :
    ∃ c, pool'[a.conn]? = some c ∧ ConnInv c ∧ Ready c a.fut r := by
  cases ks with
  | nil => cases h
  | cons k rest =>
    simp only [askNext] at h
    split at h
    · cases h
    · rename_i c hk
      split at h
      · cases h
      · rename_i n c' hx
        cases h
        refine ⟨c', List.getElem?_set_self (List.getElem?_eq_some_iff.1 hk).1, ?_, ready_send c (hinv k c hk) r w n c' hx⟩
        have := connInv_step (hinv k c hk) cx depth (.send r w)
        rw [← send_step, hx] at this
        exact this

theorem asksOver_ready (hs : Handlers σ Reply ρ) (cx : Codec) (depth : Nat) (s s1 : Asking σ ρ)
    (hsound : SoundPool s.net) (j : Nat) (r : Req) (k : Nat) (h : AsksOver hs cx depth s s1 j r k) :
    ∃ a c, s1.asks.get? j = some a ∧ a.conn = k ∧ s1.net.pool[k]? = some c ∧ ConnInv c ∧ Ready c a.fut r := by
  obtain ⟨w, e, a, he, h1, h2, h3, h4⟩ := h
  have on : ∀ ks, s.goesOn j (askNext r w ks s.net.pool) = (.nothing, s1) →
      ∃ a c, s1.asks.get? j = some a ∧ a.conn = k ∧ s1.net.pool[k]? = some c ∧ ConnInv c ∧ Ready c a.fut r := by
    intro ks h
    cases hx : askNext r w ks s.net.pool with
    | mk x pool =>
      rw [hx] at h
      cases x with
      | error x => cases h
      | ok b =>
        cases h
        simp only [Dict.get?_set, if_true, Option.some.injEq] at h2
        subst h2
        obtain ⟨c, g1, g2, g3⟩ := askNext_ready cx depth r w ks s.net.pool hsound b pool hx
        exact ⟨b, c, by simp [Dict.get?_set], h3, h3 ▸ g1, g2, g3⟩
  rcases he with rfl | rfl
  · simp only [Asking.step] at h1
    split at h1
    · cases h1; exact absurd h2 h4
    · exact on _ h1
  · simp only [Asking.step] at h1
    split at h1
    · cases h1; exact absurd h2 h4
    · split at h1
      · cases h1; exact absurd h2 h4
      · cases h1
      · split at h1
        · exact on _ h1
        · cases h1

theorem resumes_ok (hs : Handlers σ Reply ρ) (cx : Codec) (depth : Nat) (s : Asking σ ρ) (j : Nat) (a : Ask)
    (x : Reply) (r : Req) (w : Write) (h1 : s.asks.get? j = some a)
    (h2 : (s.net.pool[a.conn]?).bind (·.reply a.fut) = some (.ok x)) :
    (s.step hs cx depth (.resumes j r w)).1 = .metadata j x := by
  simp only [Asking.step, h1, h2]

theorem ask_pool_from (hs : Handlers σ Reply ρ) (cx : Codec) (depth : Nat) (s : Asking σ ρ) (e : AskEv σ)
    (k : Nat) (c : Conn) (hk : s.net.pool[k]? = some c) :
    ∃ new, (s.step hs cx depth e).2.net.pool[k]? = some (c.run cx depth new) ∧
      ∀ i p, ConnEv.deliver i p ∈ new → e = .wired (.wire k (.deliver i p)) := by
  have same : ∃ new, s.net.pool[k]? = some (c.run cx depth new) ∧
      ∀ i p, ConnEv.deliver i p ∈ new → e = .wired (.wire k (.deliver i p)) :=
    ⟨[], hk, fun _ _ h => (List.not_mem_nil h).elim⟩
  have on : ∀ j r w ks, ∃ new, (s.goesOn j (askNext r w ks s.net.pool)).2.net.pool[k]? =
      some (c.run cx depth new) ∧ ∀ i p, ConnEv.deliver i p ∈ new → e = .wired (.wire k (.deliver i p)) := by
    intro j r w ks
    have h : ∃ new, (askNext r w ks s.net.pool).2[k]? = some (c.run cx depth new) ∧
        ∀ i p, ConnEv.deliver i p ∈ new → e = .wired (.wire k (.deliver i p)) := by
      cases ks with
      | nil => exact same
      | cons k' rest =>
        simp only [askNext]
        split
        · exact same
        · rename_i c' hk'
          have h1 : ∃ new, (s.net.pool.set k' (c'.send r w).2)[k]? = some (c.run cx depth new) ∧
              ∀ i p, ConnEv.deliver i p ∈ new → e = .wired (.wire k (.deliver i p)) := by
            obtain ⟨d', h, new, rfl, hnew⟩ := set_sent hk' (Sent.one cx depth c' r w) hk
            refine ⟨new, h, fun i p hp => ?_⟩
            obtain ⟨_, _, h⟩ := hnew _ hp
            cases h
          split <;> rename_i hx <;> rw [hx] at h1 <;> exact h1
    generalize askNext r w ks s.net.pool = x at h
    obtain ⟨x | x, pool⟩ := x <;> exact h
  cases e with
  | ask j r w =>
    simp only [Asking.step]
    split
    · exact same
    · exact on j r w _
  | resumes j r w =>
    simp only [Asking.step]
    split
    · exact same
    · split
      · exact same
      · exact same
      · split
        · exact on j r w _
        · exact same
  | wired e =>
    obtain ⟨new, h, h2⟩ := net_pool hs cx depth s.net e k c hk
    exact ⟨new, h, fun i p hp => by rw [h2 i p hp]⟩

/-- Every `get_metadata()` that waits has sent the request it waits for, and it will be settled with what
came over its connection since then. -/
def AskedBy (hs : Handlers σ Reply ρ) (cx : Codec) (depth : Nat) (s0 : Asking σ ρ) (past : List (AskEv σ)) : Prop :=
  ∀ j a, (askCourse hs cx depth s0 past).2.asks.get? j = some a →
    ∃ before e mid r, past = before ++ e :: mid ∧
      AsksOver hs cx depth (askCourse hs cx depth s0 before).2 (askCourse hs cx depth s0 (before ++ [e])).2 j r a.conn ∧
      ∃ c new, ConnInv c ∧ NoAnswer c a.fut r ∧
        (askCourse hs cx depth s0 past).2.net.pool[a.conn]? = some (c.run cx depth new) ∧
        ∀ i p, ConnEv.deliver i p ∈ new → .wired (.wire a.conn (.deliver i p)) ∈ mid

theorem askNext_asks (cx : Codec) (depth : Nat) (r : Req) (w : Write) (ks : List Nat) (pool pool' : List Conn)
    (hinv : ∀ (k : Nat) (c : Conn), pool[k]? = some c → ConnInv c) (a : Ask)
    (h : askNext r w ks pool = (.ok a, pool')) :
    ∃ c, ConnInv c ∧ NoAnswer c a.fut r ∧ pool'[a.conn]? = some c := by
  cases ks with
  | nil => cases h
  | cons k rest =>
    simp only [askNext] at h
    split at h
    · cases h
    · rename_i c hk
      split at h
      · cases h
      · rename_i n c' hx
        cases h
        refine ⟨c', ?_, send_noAnswer c (hinv k c hk) r w n c' hx, ?_⟩
        · have := connInv_step (hinv k c hk) cx depth (.send r w)
          rw [← send_step, hx] at this
          exact this
        · simp [(List.getElem?_eq_some_iff.1 hk).1]

theorem askedBy (hs : Handlers σ Reply ρ) (cx : Codec) (depth : Nat) (s0 : Asking σ ρ) (h0 : SoundPool s0.net)
    (hn : s0.asks = []) (past : List (AskEv σ)) : AskedBy hs cx depth s0 past := by
  induction past using List.reverseRecOn with
  | nil =>
    intro j a h
    simp [askCourse, hn, Dict.get?] at h
  | append_singleton past e ih =>
    intro j a ha
    have hlast : (askCourse hs cx depth s0 (past ++ [e])).2 = ((askCourse hs cx depth s0 past).2.step hs cx depth e).2 := by
      rw [askCourse_append]; rfl
    have hsound := soundAsks_course hs cx depth past s0 h0
    rw [hlast] at ha
    -- it waited for this before
    have old : (askCourse hs cx depth s0 past).2.asks.get? j = some a → ∃ before e' mid r, past ++ [e] = before ++ e' :: mid ∧
        AsksOver hs cx depth (askCourse hs cx depth s0 before).2 (askCourse hs cx depth s0 (before ++ [e'])).2 j r a.conn ∧
        ∃ c new, ConnInv c ∧ NoAnswer c a.fut r ∧
          (askCourse hs cx depth s0 (past ++ [e])).2.net.pool[a.conn]? = some (c.run cx depth new) ∧
          ∀ i p, ConnEv.deliver i p ∈ new → .wired (.wire a.conn (.deliver i p)) ∈ mid := by
      intro h
      obtain ⟨before, e', mid, r, rfl, h2, c, new, h3, h4, h5, h6⟩ := ih j a h
      obtain ⟨new', h7, h8⟩ := ask_pool_from hs cx depth _ e a.conn _ h5
      refine ⟨before, e', mid ++ [e], r, by simp, h2, c, new ++ new', h3, h4, ?_, fun i p hp => ?_⟩
      · rw [hlast, h7]
        simp [Conn.run, List.foldl_append]
      · rcases List.mem_append.1 hp with hp | hp
        · exact List.mem_append_left _ (h6 i p hp)
        · rw [h8 i p hp]; simp
    by_cases hsame : (askCourse hs cx depth s0 past).2.asks.get? j = some a
    · exact old hsame
    -- it has just asked
    have on : ∀ i r w ks, (e = .ask i r w ∨ e = .resumes i r w) →
        (askCourse hs cx depth s0 past).2.step hs cx depth e =
          (askCourse hs cx depth s0 past).2.goesOn i (askNext r w ks (askCourse hs cx depth s0 past).2.net.pool) →
        ∃ before e' mid r, past ++ [e] = before ++ e' :: mid ∧
        AsksOver hs cx depth (askCourse hs cx depth s0 before).2 (askCourse hs cx depth s0 (before ++ [e'])).2 j r a.conn ∧
        ∃ c new, ConnInv c ∧ NoAnswer c a.fut r ∧
          (askCourse hs cx depth s0 (past ++ [e])).2.net.pool[a.conn]? = some (c.run cx depth new) ∧
          ∀ i p, ConnEv.deliver i p ∈ new → .wired (.wire a.conn (.deliver i p)) ∈ mid := by
      intro i r w ks he hstep
      have hq := ha
      cases hx : askNext r w ks (askCourse hs cx depth s0 past).2.net.pool with
      | mk x pool =>
        rw [hstep, hx] at hq
        cases x with
        | error x =>
          simp only [Asking.goesOn, Dict.get?_erase] at hq
          split at hq
          · cases hq
          · exact absurd hq hsame
        | ok a' =>
          simp only [Asking.goesOn, Dict.get?_set] at hq
          split at hq
          · rename_i hij
            subst hij
            cases hq
            obtain ⟨c, h1, h2, h3⟩ := askNext_asks cx depth r w ks _ pool hsound a hx
            refine ⟨past, e, [], r, rfl, ⟨w, e, a, he, ?_, ?_, rfl, hsame⟩, c, [], h1, h2, ?_,
              fun _ _ h => (List.not_mem_nil h).elim⟩
            · rw [hlast]
              refine Prod.ext ?_ rfl
              rw [hstep, hx]; rfl
            · rw [hlast]; exact ha
            · rw [hlast, hstep, hx]; exact h3
          · exact absurd hq hsame
    cases e with
    | ask i r w =>
      by_cases hh : (askCourse hs cx depth s0 past).2.asks.has i
      · simp only [Asking.step, hh, if_true] at ha
        exact absurd ha hsame
      · exact on i r w _ (.inl rfl) (by simp only [Asking.step, hh]; rfl)
    | resumes i r w =>
      have hb : ∀ (s : Asking σ ρ), (s.asks.erase i).get? j = some a → s.asks.get? j = some a := by
        intro s h
        rw [Dict.get?_erase] at h
        split at h
        · cases h
        · exact h
      cases hg : (askCourse hs cx depth s0 past).2.asks.get? i with
      | none => simp only [Asking.step, hg] at ha; exact absurd ha hsame
      | some b =>
        cases hr : ((askCourse hs cx depth s0 past).2.net.pool[b.conn]?).bind (·.reply b.fut) with
        | none => simp only [Asking.step, hg, hr] at ha; exact absurd ha hsame
        | some x =>
          cases x with
          | ok x => simp only [Asking.step, hg, hr] at ha; exact absurd (hb _ ha) hsame
          | error x =>
            by_cases hx : x = .streamClosed ∨ x = .brokerConnection
            · exact on i r w b.rest (.inr rfl) (by simp only [Asking.step, hg, hr, hx, if_true])
            · simp only [Asking.step, hg, hr, hx, if_false] at ha
              exact absurd (hb _ ha) hsame
    | wired e => exact absurd ha hsame

/-- **C146**: what `get_metadata()` returns is what a broker answered: the request was sent over this broker's
connection by this `get_metadata()`, and a frame came back over it with the request's correlation id, which
read as an answer to the request is what is returned. -/
theorem C146_answer_partial (hs : Handlers σ Reply ρ) (cx : Codec) (depth : Nat) (client : σ)
    (past : List (AskEv σ)) (e : AskEv σ) (j : Nat) (x : Reply) :
    let s (es : List (AskEv σ)) := (askCourse hs cx depth (unasked client) es).2
    ((s past).step hs cx depth e).1 = .metadata j x →
    ∃ before e' mid r k p, past = before ++ e' :: mid ∧
      AsksOver hs cx depth (s before) (s (before ++ [e'])) j r k ∧
      .wired (.wire k (.deliver r.correlationId p)) ∈ mid ∧
      x.api = r.cls.api ∧ x.corr = r.correlationId ∧ AnswerReads cx depth r.cls.api p (.ok x.body) := by
  intro s h
  have key : ∃ a, (s past).asks.get? j = some a ∧
      ((s past).net.pool[a.conn]?).bind (·.reply a.fut) = some (.ok x) := by
    have on : ∀ i y, ((s past).goesOn i y).1 ≠ .metadata j x := by
      intro i y
      obtain ⟨y | y, pool⟩ := y <;> exact fun h => by cases h
    cases e with
    | ask i r w =>
      simp only [Asking.step] at h
      split at h
      · cases h
      · exact absurd h (on _ _)
    | resumes i r w =>
      simp only [Asking.step] at h
      split at h
      · cases h
      · rename_i a ha
        split at h
        · cases h
        · rename_i y hy
          cases h
          exact ⟨a, ha, hy⟩
        · split at h
          · exact absurd h (on _ _)
          · cases h
    | wired e => cases h
  obtain ⟨a, h1, h2⟩ := key
  obtain ⟨before, e', mid, r, h3, h4, c, new, h5, h6, h7, h8⟩ :=
    askedBy hs cx depth (unasked client) (soundPool_unwired client) rfl past j a h1
  obtain ⟨_, g1, fs, g2, g3⟩ := answered_in cx depth c h5 a.fut r h6 new
  have h7 : (s past).net.pool[a.conn]? = some (c.run cx depth new) := h7
  simp only [h7, Option.bind_some, Conn.reply, g1, g2] at h2
  cases fs with
  | nil => simp at h2
  | cons o fs =>
    cases o with
    | exc e => simp at h2
    | result i v =>
      simp only [Option.some.injEq, Except.ok.injEq] at h2
      subst h2
      obtain ⟨rfl, p, g4, g5⟩ := g3 i v List.mem_cons_self
      exact ⟨before, e', mid, r, a.conn, p, h3, h4, h8 _ p g4, rfl, rfl, g5⟩

/-- **C146**: what does hold: if a broker that was asked answers while its connection is open, `get_metadata()`
returns its answer, whatever else happens meanwhile. -/
theorem C146_answers_partial (hs : Handlers σ Reply ρ) (cx : Codec) (depth : Nat) (client : σ)
    (past : List (AskEv σ)) (j k : Nat) (r : Req) (s1 : Asking σ ρ) (before after : List (AskEv σ)) (p : Bytes)
    (v : Val) (c : Conn) (r' : Req) (w' : Write) :
    let s := (askCourse hs cx depth (unasked client) past).2
    let es := before ++ .wired (.wire k (.deliver r.correlationId p)) :: after
    AsksOver hs cx depth s s1 j r k → (∀ e ∈ es, r.correlationId ∉ askIds e) →
    AnswerReads cx depth r.cls.api p (.ok v) →
    (askCourse hs cx depth s1 before).2.net.pool[k]? = some c → c.closing = false →
    ∃ x, AskOut.metadata j x ∈ (askCourse hs cx depth s1 (es ++ [.resumes j r' w'])).1 := by
  intro s es h hid hv hk hc
  by_cases hn : ∃ x, AskOut.metadata j x ∈ (askCourse hs cx depth s1 es).1
  · obtain ⟨x, hn⟩ := hn
    exact ⟨x, by rw [askCourse_append]; exact List.mem_append_left _ hn⟩
  · simp only [not_exists] at hn
    obtain ⟨a, c0, h1, rfl, h2, h3, h4⟩ := asksOver_ready hs cx depth s s1
      (soundAsks_course hs cx depth past _ (soundPool_unwired client)) j r k h
    have hn1 : ∀ x, AskOut.metadata j x ∉ (askCourse hs cx depth s1 before).1 := fun x hx =>
      hn x (by rw [askCourse_append]; exact List.mem_append_left _ hx)
    obtain ⟨g1, g2, g3⟩ := asks_course hs cx depth before s1 j a c0 r h1 h2 h3 h4
      (fun e he => hid e (List.mem_append_left _ he)) hn1 c hk hc
    obtain ⟨y, g4⟩ := ready_answered g2 cx depth a.fut r g3 hc p v hv
    have hn2 : ∀ x, AskOut.metadata j x ∉ (askCourse hs cx depth ((askCourse hs cx depth s1 before).2.step hs cx depth
        (.wired (.wire a.conn (.deliver r.correlationId p)))).2 after).1 := fun x hx =>
      hn x (by rw [askCourse_append]; exact List.mem_append_right _ (List.mem_cons_of_mem _ hx))
    obtain ⟨g5, g6⟩ := asks_answered hs cx depth after ((askCourse hs cx depth s1 before).2.step hs cx depth
        (.wired (.wire a.conn (.deliver r.correlationId p)))).2 j a (c.step cx depth (.deliver r.correlationId p)) r y g1
      (by simp [Asking.step, Wired.step, Wired.net, hk]) (connInv_step g2 cx depth (.deliver r.correlationId p))
      (sent_stays cx depth c _ r g3.1 _) g4 hn2
    refine ⟨⟨r.cls.api, r.correlationId, y⟩, ?_⟩
    rw [askCourse_append]
    refine List.mem_append_right _ (List.mem_cons.2 (.inl ?_))
    have he : (askCourse hs cx depth s1 es).2 = (askCourse hs cx depth ((askCourse hs cx depth s1 before).2.step hs cx depth
        (.wired (.wire a.conn (.deliver r.correlationId p)))).2 after).2 := by
      show (askCourse hs cx depth s1 (before ++ _ :: after)).2 = _
      rw [askCourse_append]
      rfl
    rw [he]
    exact (resumes_ok hs cx depth _ j a _ r' w' g5 g6).symm

theorem waitsHeal_step (hs : Handlers σ Reply ρ) (cx : Codec) (depth : Nat) (s : Asking σ ρ) (e : AskEv σ) (i : Nat)
    (h : WaitsForHeal s i) (hne : ∀ r, e ≠ .wired (.healed i r)) : WaitsForHeal (s.step hs cx depth e).2 i := by
  obtain ⟨results, h⟩ := h
  refine ⟨results, ?_⟩
  have on : ∀ j x, (s.goesOn j x).2.net.sys = s.net.sys := by
    rintro j ⟨_ | _, _⟩ <;> rfl
  cases e with
  | ask j r w =>
    simp only [Asking.step]
    split
    · exact h
    · rw [on]; exact h
  | resumes j r w =>
    simp only [Asking.step]
    split
    · exact h
    · split
      · exact h
      · exact h
      · split
        · rw [on]; exact h
        · exact h
  | wired e =>
    simp only [Asking.step, Wired.step]
    have hg : ∀ r, s.net.gives e ≠ .healed i r := by
      intro r hr
      cases e with
      | healed j' r' => cases hr; exact hne r rfl
      | takes j' b' => simp only [Wired.gives] at hr; split at hr <;> cases hr
      | _ => simp [Wired.gives] at hr
    revert hg
    generalize s.net.gives e = ev
    intro hg
    cases ev with
    | send j q w =>
      simp only [Sends.step]
      split
      · exact h
      · rename_i hj
        split
        · exact h
        · have : i ≠ j := by rintro rfl; simp [Dict.has, h] at hj
          simp [Dict.get?_set, h, Ne.symm this]
    | outcome j b r =>
      by_cases hij : i = j
      · subst hij; simp [Sends.step, h]
      · have hji : j ≠ i := fun h => hij h.symm
        simp only [Sends.step]
        split
        · split
          · exact h
          · split
            · simp [Dict.get?_set, h, hji]
            · split
              · simp [Dict.get?_erase, h, hji]
              · split
                · simp [Dict.get?_erase, h, hji]
                · simp [Dict.get?_set, h, hji]
        · exact h
    | finish j =>
      by_cases hij : i = j
      · subst hij; simp [Sends.step, h]
      · have hji : j ≠ i := fun h => hij h.symm
        simp only [Sends.step]
        split
        · split
          · simp [Dict.get?_set, h, hji]
          · simp [Dict.get?_erase, h, hji]
        · exact h
    | healed j r =>
      have hij : i ≠ j := by rintro rfl; exact hg r rfl
      have hji : j ≠ i := fun h => hij h.symm
      simp only [Sends.step]
      split
      · split
        · simp [Dict.get?_erase, h, hji]
        · simp [Dict.get?_erase, h, hji]
      · exact h
    | other f => exact h

/-- **C146**: and so the call whose `heal()` asks for metadata is under way for ever, once the broker that is asked
closes the connection: although all its requests have been answered, and whoever else would answer. -/
theorem C146_call (hs : Handlers σ Reply ρ) (cx : Codec) (depth : Nat) (client : σ) (past : List (AskEv σ))
    (i k : Nat) (es : List (AskEv σ)) :
    let s := (askCourse hs cx depth (unasked client) past).2
    WaitsForHeal s i → AsksAt s i k → HealsByAsking hs cx depth s i (lost k :: es) →
    WaitsForHeal (askCourse hs cx depth s (lost k :: es)).2 i := by
  intro s hw hat hh
  have hno : ∀ o ∈ (askCourse hs cx depth s (lost k :: es)).1, ¬ EndsAsk i o :=
    C146_hangs hs cx depth client past i k es hat
  have hne : ∀ e ∈ (lost k :: es : List (AskEv σ)), ∀ r, e ≠ .wired (.healed i r) := by
    rintro e he r rfl
    obtain ⟨pre, post, hsplit⟩ := List.append_of_mem he
    obtain ⟨o, ho, hends⟩ := hh pre r post hsplit
    refine hno o ?_ hends
    rw [hsplit, askCourse_append]
    exact List.mem_append_left _ ho
  clear_value s
  revert hne
  clear hno hh hat
  generalize (lost k :: es : List (AskEv σ)) = es'
  intro hne
  induction es' generalizing s with
  | nil => exact hw
  | cons e es' ih =>
    exact ih _ (waitsHeal_step hs cx depth s e i hw (hne e List.mem_cons_self))
      fun e' h => hne e' (List.mem_cons_of_mem _ h)

theorem abort_fails (c : Conn) (x : Exc) (k : Int) (n : Nat) (ho : c.closing = false) (h1 : (k, n) ∈ c.pending)
    (hd : c.pending.vals.Nodup) (h2 : c.futs[n]? = some []) : (c.abort (some x)).futs[n]? = some [.exc x] := by
  have hm : n ∈ c.pending.vals := List.mem_map.2 ⟨_, h1, rfl⟩
  simp [Conn.abort, ho, failAll_getElem? _ _ _ hd, hm, h2]

theorem ready_fails {c : Conn} (h : ConnInv c) (cx : Codec) (depth : Nat) (n : Nat) (r : Req) (hr : Ready c n r)
    (ho : c.closing = false) (hp : Pending c n) (x : Exc) (hx : x ≠ .streamClosed) (ev : ConnEv)
    (he : ev = .readError x ∨ ∃ p, ev = .deliver r.correlationId p ∧ AnswerReads cx depth r.cls.api p (.error x)) :
    (c.step cx depth ev).futs[n]? = some [.exc x] := by
  have hlive := h.live ho
  have h2 : c.futs[n]? = some [] := hp
  obtain ⟨h1, ⟨o, h3, _⟩ | ⟨_, h3⟩⟩ := hr
  · rw [h2] at h3; cases h3
  · obtain ⟨h4, h5⟩ := h3 ho
    rcases he with rfl | ⟨p, rfl, hv⟩
    · simp only [Conn.step, Conn.readError, hlive, Conn.socketError, hx]
      exact abort_fails c x _ n ho h4 h.vals_nodup h2
    · cases hc : responseClasses.get? r.cls.api with
      | none => exact absurd hv.1 (responseClasses_none.1 hc)
      | some cls =>
        have hv := (answerReads_iff cx depth hc).1 hv
        simp only [Conn.step, Conn.deliver, hlive, Conn.readMessage, h5, hc, hv, Conn.socketError, hx]
        exact abort_fails _ x _ n ho h4 h.vals_nodup h2

/-- **C146**: if, while its answer is awaited over an open connection, the stream fails in another way than by being
closed, or the answer cannot be read, `get_metadata()` raises this error, though other brokers are left. -/
theorem C146_raises (hs : Handlers σ Reply ρ) (cx : Codec) (depth : Nat) (client : σ)
    (past : List (AskEv σ)) (j k : Nat) (r : Req) (s1 : Asking σ ρ) (es : List (AskEv σ)) (ev : ConnEv) (x : Exc)
    (c : Conn) (r' : Req) (w' : Write) :
    let s := (askCourse hs cx depth (unasked client) past).2
    let s2 := (askCourse hs cx depth s1 es).2
    AsksOver hs cx depth s s1 j r k → (∀ e ∈ es, r.correlationId ∉ askIds e) →
    AsksAt s2 j k → s2.net.pool[k]? = some c → c.closing = false →
    (∀ y, AskOut.metadata j y ∉ (askCourse hs cx depth s1 es).1) →
    (ev = .readError x ∨ ∃ p, ev = .deliver r.correlationId p ∧ AnswerReads cx depth r.cls.api p (.error x)) →
    x ≠ .streamClosed → x ≠ .brokerConnection →
    (askCourse hs cx depth s2 [.wired (.wire k ev), .resumes j r' w']).1 = [.nothing, .raised j x] := by
  intro s s2 h hid hat hk hc hn he hx hx'
  obtain ⟨a, c0, h1, rfl, h2, h3, h4⟩ := asksOver_ready hs cx depth s s1
    (soundAsks_course hs cx depth past _ (soundPool_unwired client)) j r k h
  obtain ⟨g1, g2, g3⟩ := asks_course hs cx depth es s1 j a c0 r h1 h2 h3 h4 hid hn c hk hc
  obtain ⟨n, rest, c', i1, i2, i3⟩ := hat
  rw [hk] at i2
  cases i2
  have g1 : s2.asks.get? j = some a := g1
  rw [g1] at i1
  obtain rfl : a.fut = n := congrArg Ask.fut (Option.some.inj i1)
  have hf := ready_fails g2 cx depth a.fut r g3 hc i3 x hx ev he
  clear_value s2
  have hstep : (s2.step hs cx depth (.wired (.wire a.conn ev))).2.net.pool[a.conn]? = some (c.step cx depth ev) := by
    simp [Asking.step, Wired.step, Wired.net, hk]
  have hasks : (s2.step hs cx depth (.wired (.wire a.conn ev))).2.asks.get? j = some a := g1
  have hlast : ((s2.step hs cx depth (.wired (.wire a.conn ev))).2.step hs cx depth (.resumes j r' w')).1 =
      .raised j x := by
    generalize (s2.step hs cx depth (.wired (.wire a.conn ev))).2 = s3 at hstep hasks
    simp [Asking.step, hasks, hstep, Conn.reply, hf, hx, hx']
  simp only [askCourse, hlast]
  rfl

/-- It has come to a connection that had been closed, and will go on with the others. -/
def Passing (s : Asking σ ρ) (j : Nat) (rest : List Nat) : Prop :=
  ∃ a c, s.asks.get? j = some a ∧ a.rest = rest ∧ s.net.pool[a.conn]? = some c ∧ c.closing = true ∧
    c.futs[a.fut]? = some [.exc .brokerConnection]

theorem passing_others (hs : Handlers σ Reply ρ) (cx : Codec) (depth : Nat) (s : Asking σ ρ)
    (hsound : SoundPool s.net) (j : Nat) (rest : List Nat) (h : Passing s j rest) (e : AskEv σ)
    (he : ∀ r w, e ≠ .resumes j r w) :
    ¬ EndsAsk j (s.step hs cx depth e).1 ∧ Passing (s.step hs cx depth e).2 j rest := by
  obtain ⟨a, c, h1, h2, h3, h4, h5⟩ := h
  obtain ⟨new, h6⟩ := ask_pool hs cx depth s e a.conn c h3
  have key : (s.step hs cx depth e).2.asks.get? j = some a ∧ ¬ EndsAsk j (s.step hs cx depth e).1 := by
    have hno : ¬ EndsAsk j .nothing := by rintro (⟨_, h⟩ | ⟨_, h⟩) <;> cases h
    have on : ∀ i x, i ≠ j → (s.goesOn i x).2.asks.get? j = some a ∧ ¬ EndsAsk j (s.goesOn i x).1 := by
      intro i x hi
      obtain ⟨x | x, pool⟩ := x
      · refine ⟨by simp [Asking.goesOn, Dict.get?_erase, hi, h1], ?_⟩
        rintro (⟨_, h⟩ | ⟨_, h⟩)
        · cases h
        · cases h; exact hi rfl
      · exact ⟨by simp [Asking.goesOn, Dict.get?_set, hi, h1], hno⟩
    cases e with
    | ask i r w =>
      simp only [Asking.step]
      split
      · exact ⟨h1, hno⟩
      · rename_i hi
        refine on i _ ?_
        rintro rfl
        simp [Dict.has, h1] at hi
    | resumes i r w =>
      have hi : i ≠ j := by rintro rfl; exact he r w rfl
      simp only [Asking.step]
      split
      · exact ⟨h1, hno⟩
      · split
        · exact ⟨h1, hno⟩
        · refine ⟨by simp [Dict.get?_erase, hi, h1], ?_⟩
          rintro (⟨_, h⟩ | ⟨_, h⟩)
          · cases h; exact hi rfl
          · cases h
        · split
          · exact on i _ hi
          · refine ⟨by simp [Dict.get?_erase, hi, h1], ?_⟩
            rintro (⟨_, h⟩ | ⟨_, h⟩)
            · cases h
            · cases h; exact hi rfl
    | wired e => exact ⟨h1, hno⟩
  exact ⟨key.2, a, _, key.1, h2, h6, run_closing cx depth h4 new,
    settled_stays cx depth new c (hsound _ _ h3) _ _ h5⟩

theorem passing_resumes (hs : Handlers σ Reply ρ) (cx : Codec) (depth : Nat) (s : Asking σ ρ) (j : Nat)
    (rest : List Nat) (h : Passing s j rest) (r : Req) (w : Write) :
    s.step hs cx depth (.resumes j r w) = s.goesOn j (askNext r w rest s.net.pool) := by
  obtain ⟨a, c, h1, rfl, h3, _, h5⟩ := h
  simp [Asking.step, h1, h3, Conn.reply, h5]

theorem goesOn_closed (s : Asking σ ρ) (j : Nat) (r : Req) (w : Write) (d : Nat) (rest : List Nat) (c : Conn)
    (hd : s.net.pool[d]? = some c) (hc : c.closing = true) :
    (s.goesOn j (askNext r w (d :: rest) s.net.pool)).1 = .nothing ∧
      Passing (s.goesOn j (askNext r w (d :: rest) s.net.pool)).2 j rest := by
  have hx : askNext r w (d :: rest) s.net.pool = (.ok ⟨d, c.futs.length, rest⟩, s.net.pool.set d
      { c with futs := c.futs ++ [[.exc .brokerConnection]], sent := c.sent ++ [r] }) := by
    simp [askNext, hd, Conn.send, hc]
  rw [hx]
  refine ⟨rfl, ⟨d, c.futs.length, rest⟩, _, by simp [Asking.goesOn, Dict.get?_set], rfl,
    List.getElem?_set_self (List.getElem?_eq_some_iff.1 hd).1, hc, by simp⟩

theorem allLost_step (hs : Handlers σ Reply ρ) (cx : Codec) (depth : Nat) (s : Asking σ ρ) (e : AskEv σ)
    (ks : List Nat) (h : AllLost s ks) : AllLost (s.step hs cx depth e).2 ks := by
  intro k hk
  obtain ⟨c, h1, h2⟩ := h k hk
  obtain ⟨new, h3⟩ := ask_pool hs cx depth s e k c h1
  exact ⟨_, h3, run_closing cx depth h2 new⟩

theorem goesOn_open (s : Asking σ ρ) (j : Nat) (r : Req) (w : Write) (hw : WritesAll r) (k : Nat) (tail : List Nat)
    (c : Conn) (hk : s.net.pool[k]? = some c) (hc : c.closing = false) :
    (s.goesOn j (askNext r w (k :: tail) s.net.pool)).1 = .nothing ∧
      (s.goesOn j (askNext r w (k :: tail) s.net.pool)).2.asks.get? j = some ⟨k, c.futs.length, tail⟩ := by
  obtain ⟨p, b, h1, h2⟩ := hw
  have hx : ∃ c', askNext r w (k :: tail) s.net.pool = (.ok ⟨k, c.futs.length, tail⟩, c') := by
    cases w <;> exact ⟨_, by simp [askNext, hk, Conn.send, hc, h1, h2]; rfl⟩
  obtain ⟨c', hx⟩ := hx
  rw [hx]
  exact ⟨rfl, by simp [Asking.goesOn, Dict.get?_set]⟩

/-- **C146**: brokers whose connections were lost before they are asked are passed over: the first one whose
connection is open, and stays open, is asked, whatever else happens meanwhile. -/
theorem C146_passes_partial (hs : Handlers σ Reply ρ) (cx : Codec) (depth : Nat) (client : σ)
    (past : List (AskEv σ)) (j : Nat) (r : Req) (w : Write) (es : List (AskEv σ)) (dead tail : List Nat) (k : Nat) :
    let s := (askCourse hs cx depth (unasked client) past).2
    let all := .ask j r w :: es
    s.asks.has j = false → s.net.conns.vals = dead ++ k :: tail → AllLost s dead → StaysOpen hs cx depth s all k →
    dead.length ≤ resumptions j es → (∀ e ∈ all, ∀ q ∈ asksOf j e, WritesAll q) →
    ∃ before e after q, all = before ++ e :: after ∧
      AsksOver hs cx depth (askCourse hs cx depth s before).2 (askCourse hs cx depth s (before ++ [e])).2 j q k ∧
      ∀ o ∈ (askCourse hs cx depth s (before ++ [e])).1, ¬ EndsAsk j o := by
  intro s all hj hv hd hk hn hw
  have hno : ¬ EndsAsk j .nothing := by rintro (⟨_, h⟩ | ⟨_, h⟩) <;> cases h
  have opened : ∀ (s : Asking σ ρ) es, StaysOpen hs cx depth s es k → ∃ c, s.net.pool[k]? = some c ∧ c.closing = false := by
    rintro s es ⟨⟨c, h1⟩, c', h2, h3⟩
    refine ⟨c, h1, ?_⟩
    cases hc : c.closing with
    | false => rfl
    | true =>
      obtain ⟨c2, h4, h5⟩ := ask_closing hs cx depth es s k c h1 hc
      rw [h2] at h4
      cases h4
      rw [h3] at h5
      cases h5
  have later : ∀ (s : Asking σ ρ) e es, StaysOpen hs cx depth s (e :: es) k →
      StaysOpen hs cx depth (s.step hs cx depth e).2 es k := by
    rintro s e es ⟨⟨c, h1⟩, h2⟩
    obtain ⟨new, h3⟩ := ask_pool hs cx depth s e k c h1
    exact ⟨⟨_, h3⟩, h2⟩
  have key : ∀ (es : List (AskEv σ)) (s : Asking σ ρ) (dead : List Nat), SoundPool s.net →
      Passing s j (dead ++ k :: tail) → AllLost s dead → StaysOpen hs cx depth s es k →
      dead.length < resumptions j es → (∀ e ∈ es, ∀ q ∈ asksOf j e, WritesAll q) →
      ∃ before e after q, es = before ++ e :: after ∧
        AsksOver hs cx depth (askCourse hs cx depth s before).2 (askCourse hs cx depth s (before ++ [e])).2 j q k ∧
        ∀ o ∈ (askCourse hs cx depth s (before ++ [e])).1, ¬ EndsAsk j o := by
    intro es
    induction es with
    | nil => intro s dead _ _ _ _ h _; simp [resumptions] at h
    | cons e es ih =>
      intro s dead hsound hp hd hk hn hw
      have next : ∀ dead', Passing (s.step hs cx depth e).2 j (dead' ++ k :: tail) →
          AllLost (s.step hs cx depth e).2 dead' → dead'.length < resumptions j es → ¬ EndsAsk j (s.step hs cx depth e).1 →
          ∃ before e' after q, e :: es = before ++ e' :: after ∧
            AsksOver hs cx depth (askCourse hs cx depth s before).2 (askCourse hs cx depth s (before ++ [e'])).2 j q k ∧
            ∀ o ∈ (askCourse hs cx depth s (before ++ [e'])).1, ¬ EndsAsk j o := by
        intro dead' g1 g2 g3 g4
        obtain ⟨before, e', after, q, h1, h2, h3⟩ := ih _ dead' (soundAsks_step hs cx depth s hsound e) g1 g2
          (later s e es hk) g3 fun e he => hw e (List.mem_cons_of_mem _ he)
        refine ⟨e :: before, e', after, q, by rw [h1]; rfl, h2, ?_⟩
        intro o ho
        rcases List.mem_cons.1 ho with rfl | ho
        · exact g4
        · exact h3 o ho
      by_cases he : ∃ q v, e = .resumes j q v
      · obtain ⟨q, v, rfl⟩ := he
        have hstep := passing_resumes hs cx depth s j _ hp q v
        cases dead with
        | nil =>
          obtain ⟨c, h1, h2⟩ := opened s _ hk
          obtain ⟨g1, g2⟩ := goesOn_open s j q v (hw _ List.mem_cons_self q (by simp [asksOf])) k tail c h1 h2
          rw [List.nil_append] at hstep
          refine ⟨[], _, es, q, rfl, ⟨v, _, ⟨k, c.futs.length, tail⟩, .inr rfl, ?_, ?_, rfl, ?_⟩, ?_⟩
          · show s.step hs cx depth _ = _
            exact Prod.ext (by rw [hstep]; exact g1) rfl
          · show (s.step hs cx depth _).2.asks.get? j = _
            rw [hstep]; exact g2
          · show s.asks.get? j ≠ _
            intro h
            obtain ⟨a, c', g3, _, g5, g6, _⟩ := hp
            rw [h] at g3
            cases g3
            rw [h1] at g5
            cases g5
            rw [h2] at g6
            cases g6
          · intro o ho
            obtain rfl : o = (s.step hs cx depth (.resumes j q v)).1 := by simpa [askCourse] using ho
            rw [hstep, g1]
            exact hno
        | cons d dead =>
          obtain ⟨c, h1, h2⟩ := hd d List.mem_cons_self
          obtain ⟨g1, g2⟩ := goesOn_closed s j q v d (dead ++ k :: tail) c h1 h2
          rw [List.cons_append] at hstep
          refine next dead (by rw [hstep]; exact g2)
            (allLost_step hs cx depth s _ dead fun k hk => hd k (List.mem_cons_of_mem _ hk)) ?_ ?_
          · simp [resumptions] at hn; omega
          · rw [hstep, g1]; exact hno
      · have he : ∀ q v, e ≠ .resumes j q v := fun q v h => he ⟨q, v, h⟩
        obtain ⟨g1, g2⟩ := passing_others hs cx depth s hsound j _ hp e he
        refine next dead g2 (allLost_step hs cx depth s e dead hd) ?_ g1
        cases e with
        | resumes i q v =>
          have : i ≠ j := by rintro rfl; exact he q v rfl
          simpa [resumptions, this] using hn
        | _ => exact hn
  have hsound : SoundPool s.net := soundAsks_course hs cx depth past _ (soundPool_unwired client)
  have hstep : s.step hs cx depth (.ask j r w) = s.goesOn j (askNext r w (dead ++ k :: tail) s.net.pool) := by
    simp [Asking.step, hj, hv]
  cases dead with
  | nil =>
    obtain ⟨c, h1, h2⟩ := opened s _ hk
    obtain ⟨g1, g2⟩ := goesOn_open s j r w (hw _ List.mem_cons_self r (by simp [asksOf])) k tail c h1 h2
    rw [List.nil_append] at hstep
    refine ⟨[], _, es, r, rfl, ⟨w, _, ⟨k, c.futs.length, tail⟩, .inl rfl, ?_, ?_, rfl, ?_⟩, ?_⟩
    · show s.step hs cx depth _ = _
      exact Prod.ext (by rw [hstep]; exact g1) rfl
    · show (s.step hs cx depth _).2.asks.get? j = _
      rw [hstep]; exact g2
    · show s.asks.get? j ≠ _
      intro h
      simp [Dict.has, h] at hj
    · intro o ho
      obtain rfl : o = (s.step hs cx depth (.ask j r w)).1 := by simpa [askCourse] using ho
      rw [hstep, g1]
      exact hno
  | cons d dead =>
    obtain ⟨c, h1, h2⟩ := hd d List.mem_cons_self
    obtain ⟨g1, g2⟩ := goesOn_closed s j r w d (dead ++ k :: tail) c h1 h2
    rw [List.cons_append] at hstep
    obtain ⟨before, e', after, q, h3, h4, h5⟩ := key es (s.step hs cx depth (.ask j r w)).2 dead
      (soundAsks_step hs cx depth s hsound _) (by rw [hstep]; exact g2)
      (allLost_step hs cx depth s _ dead fun k hk => hd k (List.mem_cons_of_mem _ hk)) (later s _ es hk) hn
      fun e he => hw e (List.mem_cons_of_mem _ he)
    refine ⟨.ask j r w :: before, e', after, q, by rw [← List.cons_append.symm, ← h3], h4, ?_⟩
    intro o ho
    rcases List.mem_cons.1 ho with rfl | ho
    · rw [hstep, g1]; exact hno
    · exact h5 o ho

/-- **C146**: if the connections of all brokers were lost before, `get_metadata()` raises NoBrokersError,
whatever else happens meanwhile. -/
theorem C146_none_partial (hs : Handlers σ Reply ρ) (cx : Codec) (depth : Nat) (client : σ)
    (past : List (AskEv σ)) (j : Nat) (r : Req) (w : Write) (es : List (AskEv σ)) :
    let s := (askCourse hs cx depth (unasked client) past).2
    s.asks.has j = false → AllLost s s.net.conns.vals → s.net.conns.vals.length ≤ resumptions j es →
    AskOut.raised j .noBrokers ∈ (askCourse hs cx depth s (.ask j r w :: es)).1 := by
  intro s hj hd hn
  have key : ∀ (es : List (AskEv σ)) (s : Asking σ ρ) (rest : List Nat), SoundPool s.net → Passing s j rest →
      AllLost s rest → rest.length < resumptions j es →
      AskOut.raised j .noBrokers ∈ (askCourse hs cx depth s es).1 := by
    intro es
    induction es with
    | nil => intro s rest _ _ _ h; simp [resumptions] at h
    | cons e es ih =>
      intro s rest hsound hp hd hn
      by_cases he : ∃ q v, e = .resumes j q v
      · obtain ⟨q, v, rfl⟩ := he
        have hstep := passing_resumes hs cx depth s j _ hp q v
        cases rest with
        | nil =>
          refine List.mem_cons.2 (.inl ?_)
          rw [hstep]
          rfl
        | cons d rest =>
          obtain ⟨c, h1, h2⟩ := hd d List.mem_cons_self
          obtain ⟨g1, g2⟩ := goesOn_closed s j q v d rest c h1 h2
          refine List.mem_cons_of_mem _ (ih _ rest (soundAsks_step hs cx depth s hsound _) (by rw [hstep]; exact g2)
            (allLost_step hs cx depth s _ rest fun k hk => hd k (List.mem_cons_of_mem _ hk)) ?_)
          simp [resumptions] at hn; omega
      · have he : ∀ q v, e ≠ .resumes j q v := fun q v h => he ⟨q, v, h⟩
        obtain ⟨g1, g2⟩ := passing_others hs cx depth s hsound j _ hp e he
        refine List.mem_cons_of_mem _ (ih _ rest (soundAsks_step hs cx depth s hsound _) g2
          (allLost_step hs cx depth s e rest hd) ?_)
        cases e with
        | resumes i q v =>
          have : i ≠ j := by rintro rfl; exact he q v rfl
          simpa [resumptions, this] using hn
        | _ => exact hn
  have hsound : SoundPool s.net := soundAsks_course hs cx depth past _ (soundPool_unwired client)
  have hstep : s.step hs cx depth (.ask j r w) = s.goesOn j (askNext r w s.net.conns.vals s.net.pool) := by
    simp [Asking.step, hj]
  cases hv : s.net.conns.vals with
  | nil =>
    rw [hv] at hstep
    refine List.mem_cons.2 (.inl ?_)
    rw [hstep]
    rfl
  | cons d rest =>
    rw [hv] at hstep hd hn
    obtain ⟨c, h1, h2⟩ := hd d List.mem_cons_self
    obtain ⟨g1, g2⟩ := goesOn_closed s j r w d rest c h1 h2
    exact List.mem_cons_of_mem _ (key es _ rest (soundAsks_step hs cx depth s hsound _) (by rw [hstep]; exact g2)
      (allLost_step hs cx depth s _ rest fun k hk => hd k (List.mem_cons_of_mem _ hk)) hn)

/-- Two brokers are connected, and the first is asked. -/
def exAskedFor : List (AskEv σ) := [.wired (.connects 1), .wired (.connects 2), .ask 0 (exReq 7) .queued]

theorem exAsked_asks (hs : Handlers σ Reply ρ) (cx : Codec) (depth : Nat) (client : σ) :
    AsksAt (askCourse hs cx depth (unasked client) exAskedFor).2 0 0 :=
  ⟨0, [1], _, rfl, rfl, rfl⟩

/-- The property does not hold. -/
theorem C146_false (hs : Handlers σ Reply ρ) (cx : Codec) (depth : Nat) (client : σ) :
    ¬ ∀ (past : List (AskEv σ)) (j k : Nat),
      let s := (askCourse hs cx depth (unasked client) past).2
      AsksAt s j k → ∃ es, ∃ o ∈ (askCourse hs cx depth s (lost k :: es)).1, EndsAsk j o := by
  intro h
  obtain ⟨es, o, ho, he⟩ := h exAskedFor 0 0 (exAsked_asks hs cx depth client)
  exact C146_hangs hs cx depth client exAskedFor 0 0 es (exAsked_asks hs cx depth client) o ho he

theorem exReq_writable : WritesAll (exReq 7) := by
  have h : (match (exReq 7).serialize with
    | .ok p => (match frame p with | .ok _ => true | .error _ => false)
    | .error _ => false) = true := by krfl
  split at h
  · rename_i p hp
    split at h
    · rename_i b hb
      exact ⟨p, b, hp, hb⟩
    · cases h
  · cases h

theorem exReq_writable8 : WritesAll (exReq 8) := by
  have h : (match (exReq 8).serialize with
    | .ok p => (match frame p with | .ok _ => true | .error _ => false)
    | .error _ => false) = true := by krfl
  split at h
  · rename_i p hp
    split at h
    · rename_i b hb
      exact ⟨p, b, hp, hb⟩
    · cases h
  · cases h

-- Non-vacuity: the first of two brokers is lost before it is asked; the second is asked, and answers.
example (hs : Handlers σ Reply ρ) (cx : Codec) (client : σ) :
    let s := (askCourse hs cx 5 (unasked client) [.wired (.connects 1), .wired (.connects 2), lost 0]).2
    let es := [.wired (.send 0 [(2, exReq 9)] fun _ => .queued), .resumes 0 (exReq 8) .queued]
    s.asks.has 0 = false ∧ s.net.conns.vals = [0] ++ 1 :: [] ∧ AllLost s [0] ∧
    StaysOpen hs cx 5 s (.ask 0 (exReq 7) .queued :: es) 1 ∧ [0].length ≤ resumptions 0 es ∧
    ∀ e ∈ .ask 0 (exReq 7) .queued :: es, ∀ q ∈ asksOf 0 e, WritesAll q := by
  refine ⟨rfl, rfl, ?_, ⟨⟨_, rfl⟩, _, rfl, rfl⟩, by simp [resumptions], ?_⟩
  · intro k hk
    obtain rfl := List.mem_singleton.1 hk
    exact ⟨_, rfl, rfl⟩
  · simp [asksOf, exReq_writable, exReq_writable8]

example (hs : Handlers σ Reply ρ) (cx : Codec) (client : σ) :
    ((askCourse hs cx 5 (unasked client) [.wired (.connects 1), .wired (.connects 2), lost 0,
      .ask 0 (exReq 7) .queued, .resumes 0 (exReq 8) .queued, .wired (.wire 1 (.deliver 8 exAnswer)),
      .resumes 0 (exReq 9) .queued]).1.map fun
        | .metadata j x => some (j, x.corr)
        | _ => .none) = [.none, .none, .none, .none, .none, .none, some (0, 8)] := by krfl

-- Non-vacuity of C146_answers_partial: the first broker is asked, and answers while a call waits for the second.
example (hs : Handlers σ Reply ρ) (cx : Codec) (client : σ) :
    let s := (askCourse hs cx 5 (unasked client) [.wired (.connects 1), .wired (.connects 2)]).2
    let s1 := (s.step hs cx 5 (.ask 0 (exReq 7) .queued)).2
    let before := [.wired (.send 0 [(2, exReq 8)] fun _ => .queued)]
    AsksOver hs cx 5 s s1 0 (exReq 7) 0 ∧
    (∀ e ∈ before ++ .wired (.wire 0 (.deliver (exReq 7).correlationId exAnswer)) :: [],
      (exReq 7).correlationId ∉ askIds e) ∧
    ∃ c, (askCourse hs cx 5 s1 before).2.net.pool[0]? = some c ∧ c.closing = false := by
  refine ⟨⟨.queued, .ask 0 (exReq 7) .queued, ⟨0, 0, [1]⟩, .inl rfl, rfl, rfl, rfl, ?_⟩, ?_, _, rfl, rfl⟩
  · simp [askCourse, Asking.step, unasked, Dict.get?]
  · simp [askIds, idsOf, exReq]

-- Non-vacuity of C146_raises: the first of two brokers is asked, and its connection is reset.
example (hs : Handlers σ Reply ρ) (cx : Codec) (client : σ) :
    let s := (askCourse hs cx 5 (unasked client) [.wired (.connects 1), .wired (.connects 2)]).2
    let s1 := (s.step hs cx 5 (.ask 0 (exReq 7) .queued)).2
    AsksOver hs cx 5 s s1 0 (exReq 7) 0 ∧ AsksAt s1 0 0 ∧ (∃ c, s1.net.pool[0]? = some c ∧ c.closing = false) := by
  refine ⟨⟨.queued, .ask 0 (exReq 7) .queued, ⟨0, 0, [1]⟩, .inl rfl, rfl, rfl, rfl, ?_⟩,
    ⟨0, [1], _, rfl, rfl, rfl⟩, _, rfl, rfl⟩
  simp [askCourse, Asking.step, unasked, Dict.get?]

-- Non-vacuity of C146_call: the request of a call has failed, it heals, and its `heal()` asks the other broker.
example (hs : Handlers σ Reply ρ) (cx : Codec) (client : σ) :
    let s := (askCourse hs cx 5 (unasked client) [.wired (.connects 1), .wired (.connects 2), lost 0,
      .wired (.send 0 [(1, exReq 7)] fun _ => .queued), .wired (.takes 0 1), .wired (.finish 0),
      .wired (.drops 1), .ask 0 (exReq 8) .queued]).2
    WaitsForHeal s 0 ∧ AsksAt s 0 1 ∧ HealsByAsking hs cx 5 s 0 [lost 1, .resumes 0 (exReq 9) .queued] := by
  refine ⟨⟨[], rfl⟩, ⟨0, [], _, rfl, rfl, rfl⟩, ?_⟩
  intro pre r post h
  have : AskEv.wired (.healed 0 r) ∈ ([lost 1, .resumes 0 (exReq 9) .queued] : List (AskEv σ)) := by
    rw [h]; simp
  simp [lost] at this

end Kiel
