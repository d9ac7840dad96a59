import Verif.Props.Asking
import Verif.Model.Cluster
/-
C146: `get_metadata()` over connections, and as it is part of `heal()` in Model/Cluster.lean.
-/
set_option autoImplicit false
namespace Kiel
open Spec

variable {σ ρ : Type}

theorem set_wire (cx : Codec) (depth : Nat) (pool : List Conn) (k : Nat) (c : Conn) (h : pool[k]? = some c)
    (ev : ConnEv) : pool.modify k (fun c => c.step cx depth ev) = pool.set k (c.step cx depth ev) := by
  apply List.ext_getElem?
  intro i
  rw [List.getElem?_modify, List.getElem?_set]
  by_cases hi : k = i
  · subst hi
    obtain ⟨h1, h2⟩ := List.getElem?_eq_some_iff.1 h
    simp [h1, h2]
  · simp [hi]

theorem wires_pool (hs : Handlers σ Reply ρ) (cx : Codec) (depth : Nat) (evs : List ConnEv) (k : Nat) (s : Asking σ ρ)
    (c : Conn) (h : s.net.pool[k]? = some c) :
    (askCourse hs cx depth s (evs.map fun e => .wired (.wire k e))).2.net.pool =
      s.net.pool.set k (c.run cx depth evs) ∧
    (askCourse hs cx depth s (evs.map fun e => .wired (.wire k e))).2.asks = s.asks := by
  induction evs generalizing s c with
  | nil =>
    refine ⟨?_, rfl⟩
    show s.net.pool = s.net.pool.set k c
    apply List.ext_getElem?
    intro i
    rw [List.getElem?_set]
    by_cases hi : k = i
    · subst hi
      obtain ⟨h1, h2⟩ := List.getElem?_eq_some_iff.1 h
      simp [h1, h2]
    · simp [hi]
  | cons ev evs ih =>
    have hlt := (List.getElem?_eq_some_iff.1 h).1
    have hp : (s.step hs cx depth (.wired (.wire k ev))).2.net.pool = s.net.pool.set k (c.step cx depth ev) := by
      simp only [Asking.step, Wired.step, Wired.net]
      exact set_wire cx depth _ k c h ev
    obtain ⟨h1, h2⟩ := ih (s.step hs cx depth (.wired (.wire k ev))).2 (c.step cx depth ev)
      (by rw [hp]; exact List.getElem?_set_self hlt)
    refine ⟨?_, h2⟩
    show (askCourse hs cx depth (s.step hs cx depth (.wired (.wire k ev))).2 _).2.net.pool = _
    rw [h1, hp, List.set_set]
    rfl

/-- The error is one that makes `get_metadata()` turn to the next broker. -/
def passedOver (x : Res Reply) : Bool :=
  match x with
  | .ok _ => false
  | .error e => e = .streamClosed ∨ e = .brokerConnection

/-- What happens after connection `k`, the first of these, has been asked by `get_metadata()` number `j`: `wires k`
to this connection, until it is done, and then the same with the others if it failed. -/
def askEvents (j : Nat) (req : Nat → Req) (write : Nat → Write) (wires : Nat → List ConnEv)
    (answer : Nat → Res Reply) : List Nat → List (AskEv σ)
  | [] => []
  | k :: rest =>
    ((wires k).map fun e => .wired (.wire k e)) ++
      .resumes j (req (rest.headD 0)) (write (rest.headD 0)) ::
        (if passedOver (answer k) then askEvents j req write wires answer rest else [])

/-- What is awaited over connection `k` is, after `wires k`, what `answer k` says. -/
def AnswersSo (cx : Codec) (depth : Nat) (req : Nat → Req) (write : Nat → Write) (wires : Nat → List ConnEv)
    (answer : Nat → Res Reply) (pool : List Conn) (k : Nat) : Prop :=
  ∃ c n c', pool[k]? = some c ∧ c.send (req k) (write k) = (.ok n, c') ∧
    (c'.run cx depth (wires k)).reply n = some (answer k)

/-- What is seen in the end. -/
def askEnd (j : Nat) (answer : Nat → Res Reply) : List Nat → AskOut
  | [] => .raised j .noBrokers
  | k :: rest =>
    match answer k with
    | .ok x => .metadata j x
    | .error e => if e = .streamClosed ∨ e = .brokerConnection then askEnd j answer rest else .raised j e

theorem walk (hs : Handlers σ Reply ρ) (cx : Codec) (depth : Nat) (j : Nat) (req : Nat → Req) (write : Nat → Write)
    (wires : Nat → List ConnEv) (answer : Nat → Res Reply) (ks : List Nat) (hd : ks.Nodup) (s : Asking σ ρ)
    (h : ∀ k ∈ ks, AnswersSo cx depth req write wires answer s.net.pool k) :
    let t := s.goesOn j (askNext (req (ks.headD 0)) (write (ks.headD 0)) ks s.net.pool)
    (t.1 :: (askCourse hs cx depth t.2 (askEvents j req write wires answer ks)).1).getLast? =
      some (askEnd j answer ks) := by
  induction ks generalizing s with
  | nil => rfl
  | cons k rest ih =>
    obtain ⟨c, n, c', h1, h2, h3⟩ := h k List.mem_cons_self
    have hlt := (List.getElem?_eq_some_iff.1 h1).1
    intro t
    have ht : t = (.nothing, ⟨{ s.net with pool := s.net.pool.set k c' }, s.asks.set j ⟨k, n, rest⟩⟩) := by
      simp only [t, List.headD_cons, askNext, h1, h2, Asking.goesOn]
    have hk : t.2.net.pool[k]? = some c' := by rw [ht]; exact List.getElem?_set_self hlt
    obtain ⟨g1, g2⟩ := wires_pool hs cx depth (wires k) k t.2 c' hk
    have hs2 : t.2.net.pool = s.net.pool.set k c' := by rw [ht]
    rw [hs2, List.set_set] at g1
    have ha : t.2.asks.get? j = some ⟨k, n, rest⟩ := by rw [ht]; simp [Dict.get?_set]
    rw [← g2] at ha
    simp only [askEvents, askCourse_append]
    generalize (askCourse hs cx depth t.2 ((wires k).map fun e => .wired (.wire k e))).2 = u at g1 ha
    have hu : u.net.pool[k]? = some (c'.run cx depth (wires k)) := by rw [g1]; exact List.getElem?_set_self hlt
    have hstep : ∀ r w, u.step hs cx depth (.resumes j r w) =
        match answer k with
        | .ok x => (.metadata j x, { u with asks := u.asks.erase j })
        | .error e => if e = .streamClosed ∨ e = .brokerConnection then u.goesOn j (askNext r w rest u.net.pool)
          else (.raised j e, { u with asks := u.asks.erase j }) := by
      intro r w
      simp only [Asking.step, ha, hu, Option.bind_some, h3]
      cases answer k <;> rfl
    rw [← List.cons_append, List.getLast?_append]
    simp only [askCourse, hstep, askEnd, passedOver]
    cases hx : answer k with
    | ok x => simp [askCourse]
    | error e =>
      by_cases he : e = .streamClosed ∨ e = .brokerConnection
      · have hrest : ∀ i ∈ rest, AnswersSo cx depth req write wires answer u.net.pool i := by
          intro i hi
          obtain ⟨d, m, d', i1, i2, i3⟩ := h i (List.mem_cons_of_mem _ hi)
          have hne : k ≠ i := fun hki => (List.nodup_cons.1 hd).1 (hki ▸ hi)
          exact ⟨d, m, d', by rw [g1, List.getElem?_set_ne hne]; exact i1, i2, i3⟩
        have := ih (List.nodup_cons.1 hd).2 u hrest
        simp only [he, if_true, decide_true]
        rw [this]
        rfl
      · simp [he, askCourse]

/-- Every broker has a connection of its own. -/
def OwnConns (s : Wired σ ρ) : Prop :=
  s.conns.vals.Nodup ∧ ∀ k ∈ s.conns.vals, ∃ c, s.pool[k]? = some c

theorem vals_set_mem (d : Dict Int Nat) (b : Int) (v x : Nat) (h : x ∈ (d.set b v).vals) : x = v ∨ x ∈ d.vals := by
  induction d with
  | nil => simpa [Dict.set, Dict.vals] using h
  | cons e d ih =>
    obtain ⟨b', v'⟩ := e
    simp only [Dict.set] at h
    split at h
    · rcases List.mem_cons.1 h with h | h
      · exact .inl h
      · exact .inr (List.mem_cons_of_mem _ h)
    · rcases List.mem_cons.1 h with h | h
      · exact .inr (List.mem_cons.2 (.inl h))
      · exact (ih h).imp_right (List.mem_cons_of_mem _)

theorem vals_set_nodup (d : Dict Int Nat) (b : Int) (v : Nat) (h : d.vals.Nodup) (hv : v ∉ d.vals) :
    (d.set b v).vals.Nodup := by
  induction d with
  | nil => simp [Dict.set, Dict.vals]
  | cons e d ih =>
    obtain ⟨b', v'⟩ := e
    have h : (v' :: Dict.vals d).Nodup := h
    have hv : v ∉ v' :: Dict.vals d := hv
    rw [List.nodup_cons] at h
    rw [List.mem_cons, not_or] at hv
    simp only [Dict.set]
    split
    · exact List.nodup_cons.2 ⟨hv.2, h.2⟩
    · refine List.nodup_cons.2 ⟨fun hm => ?_, ih h.2 hv.2⟩
      rcases vals_set_mem d b v v' hm with rfl | hm
      · exact hv.1 rfl
      · exact h.1 hm

theorem ownConns_step (hs : Handlers σ Reply ρ) (cx : Codec) (depth : Nat) (s : Asking σ ρ) (e : AskEv σ)
    (h : OwnConns s.net) : OwnConns (s.step hs cx depth e).2.net := by
  obtain ⟨h1, h2⟩ := h
  have same : (s.step hs cx depth e).2.net.conns = s.net.conns → OwnConns (s.step hs cx depth e).2.net := by
    intro hc
    refine ⟨by rw [hc]; exact h1, fun k hk => ?_⟩
    rw [hc] at hk
    obtain ⟨c, hk⟩ := h2 k hk
    obtain ⟨new, g⟩ := ask_pool hs cx depth s e k c hk
    exact ⟨_, g⟩
  have on : ∀ j x, (s.goesOn j x).2.net.conns = s.net.conns := by
    rintro j ⟨_ | _, _⟩ <;> rfl
  cases e with
  | ask j r w =>
    refine same ?_
    simp only [Asking.step]
    split
    · rfl
    · exact on _ _
  | resumes j r w =>
    refine same ?_
    simp only [Asking.step]
    split
    · rfl
    · split
      · rfl
      · rfl
      · split
        · exact on _ _
        · rfl
  | wired e =>
    cases e with
    | connects b =>
      have hn : s.net.pool.length ∉ s.net.conns.vals := fun hm => by
        obtain ⟨c, hc⟩ := h2 _ hm
        simp at hc
      refine ⟨vals_set_nodup _ b _ h1 hn, fun k hk => ?_⟩
      rcases vals_set_mem _ b _ k hk with rfl | hk
      · exact ⟨Conn.init, by simp [Asking.step, Wired.step, Wired.net]⟩
      · obtain ⟨c, hc⟩ := h2 k hk
        obtain ⟨new, g⟩ := ask_pool hs cx depth s (.wired (.connects b)) k c hc
        exact ⟨_, g⟩
    | drops b =>
      have hsub : (Dict.vals (s.net.conns.erase b)).Sublist s.net.conns.vals :=
        List.Sublist.map _ List.filter_sublist
      exact ⟨h1.sublist hsub, fun k hk => h2 k (hsub.subset hk)⟩
    | send i requests write =>
      refine same ?_
      simp only [Asking.step, Wired.step, Wired.net]
      split
      · rfl
      · split <;> rfl
    | _ => exact same rfl

theorem ownConns_course (hs : Handlers σ Reply ρ) (cx : Codec) (depth : Nat) (es : List (AskEv σ))
    (s : Asking σ ρ) (h : OwnConns s.net) : OwnConns (askCourse hs cx depth s es).2.net := by
  induction es generalizing s with
  | nil => exact h
  | cons e es ih => exact ih _ (ownConns_step hs cx depth s e h)

/-- **C146**: as long as every connection that is asked is heard from or was closed before, `get_metadata()` comes
by what `getMetadata` says, which the properties of `heal()` are about. -/
theorem C146_agrees_partial (hs : Handlers σ Reply ρ) (cx : Codec) (depth : Nat) (client : σ) (past : List (AskEv σ))
    (j : Nat) (req : Nat → Req) (write : Nat → Write) (wires : Nat → List ConnEv) (answer : Nat → Res Reply)
    (read : Reply → Metadata) (table : Dict Int CConn) (ask : Int → Res Metadata) :
    let s := (askCourse hs cx depth (unasked client) past).2
    let k0 := s.net.conns.vals.headD 0
    let seen := (askCourse hs cx depth s
      (.ask j (req k0) (write k0) :: askEvents j req write wires answer s.net.conns.vals)).1
    s.asks.has j = false →
    (∀ k ∈ s.net.conns.vals, AnswersSo cx depth req write wires answer s.net.pool k) →
    List.Forall₂ (fun e t => e.1 = t.1 ∧ ask t.1 = (answer e.2).map read ∧
      ∃ c, s.net.pool[e.2]? = some c ∧ c.closing = t.2.closing) s.net.conns table →
    (∀ e, getMetadata ask table = .error e → seen.getLast? = some (.raised j e)) ∧
    ∀ m, getMetadata ask table = .ok m → ∃ x, seen.getLast? = some (.metadata j x) ∧ read x = m := by
  intro s k0 seen hj hans hf
  have hd : s.net.conns.vals.Nodup :=
    (ownConns_course hs cx depth past (unasked client) ⟨List.nodup_nil, fun _ h => (List.not_mem_nil h).elim⟩).1
  have hsound : SoundPool s.net := soundAsks_course hs cx depth past _ (soundPool_unwired client)
  have hseen : seen.getLast? = some (askEnd j answer s.net.conns.vals) := by
    have := walk hs cx depth j req write wires answer s.net.conns.vals hd s hans
    simp only [seen, askCourse, Asking.step, hj]
    exact this
  rw [hseen]
  clear_value s
  clear hseen seen hd k0 hj
  generalize s.net.conns = conns at hf hans
  induction hf with
  | nil => simp [getMetadata, askEnd, Dict.vals]
  | @cons e t es ts h1 _ ih =>
    obtain ⟨h1, h2, c, h3, h4⟩ := h1
    have ih := ih fun k hk => hans k (List.mem_cons_of_mem _ hk)
    obtain ⟨i, k⟩ := e
    obtain ⟨i', d⟩ := t
    simp only at h1 h2 h3 h4
    subst h1
    have hcl : d.closing = true → answer k = .error .brokerConnection := by
      intro hc
      obtain ⟨c1, n, c2, g1, g2, g3⟩ := hans k List.mem_cons_self
      rw [h3] at g1
      cases g1
      rw [hc] at h4
      have hinv := connInv_step (hsound k c h3) cx depth (.send (req k) (write k))
      rw [← send_step, g2] at hinv
      simp only [Conn.send, h4, if_true, Prod.mk.injEq, Except.ok.injEq] at g2
      obtain ⟨rfl, rfl⟩ := g2
      have := settled_stays cx depth (wires k) _ hinv c.futs.length (.exc .brokerConnection) (by simp)
      simp only [Conn.reply, this] at g3
      exact (Option.some.inj g3).symm
    have hg : getMetadata ask ((i, d) :: ts) =
        match (answer k).map read with
        | .ok m => .ok m
        | .error e => if e = .streamClosed ∨ e = .brokerConnection then getMetadata ask ts else .error e := by
      simp only [getMetadata, h2]
      by_cases hc : d.closing = true
      · simp [hc, hcl hc, Except.map]
      · cases answer k <;> simp [hc, Except.map]
    have hv : askEnd j answer (Dict.vals ((i, k) :: es)) =
        match answer k with
        | .ok x => .metadata j x
        | .error e => if e = .streamClosed ∨ e = .brokerConnection then askEnd j answer (Dict.vals es) else .raised j e := rfl
    rw [hg, hv]
    cases answer k with
    | ok x => simp [Except.map]
    | error e =>
      by_cases he : e = .streamClosed ∨ e = .brokerConnection
      · simp only [Except.map, he, if_true]
        exact ih
      · simp [Except.map, he]

/-- What is awaited after a request with this id has been sent over `c` and answered. -/
def exHeard (cx : Codec) (c : Conn) (k : Int) : Option (Res Reply) :=
  match c.send (exReq k) .queued with
  | (.ok n, c) => (c.run cx 5 [.deliver k exAnswer]).reply n
  | _ => .none

-- Non-vacuity of C146_agrees_partial: of two brokers the first has been lost, the second answers.
example (hs : Handlers σ Reply ρ) (cx : Codec) (client : σ) :
    let s := (askCourse hs cx 5 (unasked client) [.wired (.connects 1), .wired (.connects 2), lost 0]).2
    ∃ answer, s.asks.has 0 = false ∧ s.net.conns.vals = [0, 1] ∧ (∃ x, answer 1 = .ok x) ∧
      ∀ k ∈ s.net.conns.vals,
        AnswersSo cx 5 (fun _ => exReq 7) (fun _ => .queued) (fun _ => [.deliver 7 exAnswer]) answer s.net.pool k := by
  intro s
  have hp : s.net.pool = [{ Conn.init with closing := true, reading := false }, Conn.init] := rfl
  have hv : s.net.conns.vals = [0, 1] := rfl
  have h0 : (match exHeard cx { Conn.init with closing := true, reading := false } 7 with
    | some (.error .brokerConnection) => true | _ => false) = true := by krfl
  have h1 : (match exHeard cx Conn.init 7 with | some (.ok _) => true | _ => false) = true := by krfl
  have use : ∀ c a, exHeard cx c 7 = some a → ∃ n c', c.send (exReq 7) .queued = (.ok n, c') ∧
      (c'.run cx 5 [.deliver 7 exAnswer]).reply n = some a := by
    intro c a h
    simp only [exHeard] at h
    split at h
    · exact ⟨_, _, by assumption, h⟩
    · cases h
  split at h0
  · rename_i g0
    split at h1
    · rename_i x g1
      refine ⟨fun k => if k = 1 then .ok x else .error .brokerConnection, rfl, hv, ⟨x, rfl⟩, ?_⟩
      rw [hv, hp]
      intro k hk
      simp only [List.mem_cons, List.not_mem_nil, or_false] at hk
      rcases hk with rfl | rfl
      · obtain ⟨n, c', k1, k2⟩ := use _ _ g0
        exact ⟨_, n, c', rfl, k1, k2⟩
      · obtain ⟨n, c', k1, k2⟩ := use _ _ g1
        exact ⟨_, n, c', rfl, k1, k2⟩
    · cases h1
  · cases h0

end Kiel
