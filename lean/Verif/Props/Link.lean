import Verif.Props.Responses
import Verif.Props.Connection
import Verif.Spec.Link
import Mathlib.Data.List.Forall2
/-
C97: requests and answers, down to the bytes.
-/
set_option autoImplicit false
namespace Kiel
open Spec

/-! ### The frames in what has arrived -/

theorem frames_prefix (answers : List (Int × Bytes))
    (hf : ∀ a ∈ answers, Fits 4 a.1 ∧ 4 + a.2.length < 2 ^ 31) (s : Bytes)
    (hs : s <+: answerBytes answers) :
    ∃ m, m ≤ answers.length ∧ (framesOf s).1 = answers.take m ∧
      ∀ n, n < answers.length → (n < m ↔ answerBytes (answers.take (n + 1)) <+: s) := by
  induction answers generalizing s with
  | nil =>
    have : s = [] := by simpa [answerBytes] using hs
    subst this
    exact ⟨0, by simp, rfl, by simp⟩
  | cons f fs ih =>
    obtain ⟨h1, h2⟩ := hf f (by simp)
    have hcons : ∀ l, answerBytes (f :: l) = responseFrame f ++ answerBytes l := fun l => by
      simp [answerBytes]
    rw [hcons] at hs
    by_cases hlt : s.length < (responseFrame f).length
    · have hp : s <+: responseFrame f :=
        List.prefix_of_prefix_length_le hs (List.prefix_append _ _) hlt.le
      have hn : readFrame s = .none := by
        cases hr : readFrame s with
        | none => rfl
        | some x =>
          obtain ⟨k, p, rest⟩ := x
          obtain ⟨t, ht⟩ := hp
          have e1 := (readFrame_append hr t).1
          have e2 := readFrame_frame f h1 h2 []
          rw [List.append_nil] at e2
          rw [ht, e2] at e1
          simp only [Option.some.injEq, Prod.mk.injEq] at e1
          have : t = [] := by
            have := e1.2.2.symm
            simp only [List.append_eq_nil_iff] at this
            exact this.2
          subst this
          simp only [List.append_nil] at ht
          rw [ht] at hlt
          omega
      refine ⟨0, by simp, ?_, ?_⟩
      · rw [framesOf_unfold, hn]; simp
      · intro n hn'
        simp only [Nat.not_lt_zero, false_iff]
        intro h
        rw [List.take_succ_cons, hcons] at h
        have := h.length_le
        simp only [List.length_append] at this
        omega
    · obtain ⟨s', rfl⟩ : responseFrame f <+: s :=
        List.prefix_of_prefix_length_le (List.prefix_append _ _) hs (by omega)
      have hs' : s' <+: answerBytes fs := by
        rwa [List.prefix_append_right_inj] at hs
      obtain ⟨m, k1, k2, k3⟩ := ih (fun a ha => hf a (by simp [ha])) s' hs'
      refine ⟨m + 1, by simpa using k1, ?_, ?_⟩
      · rw [framesOf_unfold, readFrame_frame f h1 h2]
        simp [k2]
      · intro n hn
        cases n with
        | zero => simp [answerBytes]
        | succ n =>
          rw [List.take_succ_cons, hcons, List.prefix_append_right_inj]
          simp only [List.length_cons, Nat.add_lt_add_iff_right] at hn
          rw [← k3 n hn]
          omega

/-! ### Requests and frames -/

/-- The frames delivered. -/
def delivered (evs : List ConnEv) : List (Int × Bytes) :=
  evs.flatMap fun
    | .deliver k p => [(k, p)]
    | _ => []

theorem delivered_append (a b : List ConnEv) :
    delivered (a ++ b) = delivered a ++ delivered b := by
  simp [delivered]

theorem sends_append (a b : List ConnEv) : sends (a ++ b) = sends a ++ sends b := by
  simp [sends]

/-- What the users send can be written. -/
def Writable (r : Req) : Prop := ∃ p, r.serialize = .ok p ∧ p.length < 2 ^ 31

/-- The bytes written for a request. -/
def requestBytes (r : Req) : Bytes :=
  match r.serialize with
  | .ok p => be 4 p.length ++ p
  | .error _ => []

/-- Requests that are written, and answers to them. -/
structure Talk (cx : Codec) (depth : Nat) (val : Int → Val) (evs : List ConnEv) : Prop where
  kinds : ∀ ev ∈ evs, (∃ r, ev = .send r .queued ∧ Writable r) ∨ ∃ k p, ev = .deliver k p
  ids : ((sends evs).map (·.correlationId)).Nodup
  once : ((delivered evs).map (·.1)).Nodup
  later : ∀ before k p after, evs = before ++ .deliver k p :: after →
    ∃ r ∈ sends before, r.correlationId = k ∧ AnswerReads cx depth r.cls.api p (.ok (val k))

theorem Talk.front {cx : Codec} {depth : Nat} {val : Int → Val} {a b : List ConnEv}
    (h : Talk cx depth val (a ++ b)) : Talk cx depth val a where
  kinds ev hev := h.kinds ev (by simp [hev])
  ids := by
    have := h.ids
    rw [sends_append, List.map_append] at this
    exact this.of_append_left
  once := by
    have := h.once
    rw [delivered_append, List.map_append] at this
    exact this.of_append_left
  later before k p after e := h.later before k p (after ++ b) (by simp [e])

theorem Talk.unambiguous {cx : Codec} {depth : Nat} {val : Int → Val} {evs : List ConnEv}
    (h : Talk cx depth val evs) : Unambiguous cx depth evs := by
  intro before r w after e i r' _ hr' heq
  have h1 : r' ∈ sends before := sent_sends cx depth before r' (List.mem_of_getElem? hr')
  have h2 := h.ids
  rw [e, sends_append, List.map_append] at h2
  have h3 : r.correlationId ∈ (sends (ConnEv.send r w :: after)).map (·.correlationId) := by
    simp [sends]
  exact (List.nodup_append.1 h2).2.2 _ (List.mem_map_of_mem h1) _ h3 heq

theorem socketError_keeps (c : Conn) (e : Exc) :
    (c.socketError e).sent = c.sent ∧ (c.socketError e).written = c.written := by
  unfold Conn.socketError Conn.abort
  repeat' split
  all_goals simp

/-- A frame changes neither what was sent nor what was written. -/
theorem deliver_keeps (cx : Codec) (depth : Nat) (c : Conn) (k : Int) (p : Bytes) :
    (c.deliver cx depth k p).sent = c.sent ∧ (c.deliver cx depth k p).written = c.written := by
  unfold Conn.deliver Conn.readMessage
  repeat' split
  all_goals simp [socketError_keeps]
  all_goals grind [socketError_keeps]

/-- How such a conversation goes. -/
theorem talk_spec {cx : Codec} {depth : Nat} {val : Int → Val} (evs : List ConnEv)
    (h : Talk cx depth val evs) :
    let c := Conn.init.run cx depth evs
    c.closing = false ∧ c.sent = sends evs ∧ c.futs.length = (sends evs).length ∧
      c.written = (sends evs).map requestBytes ∧
      ∀ (i : Nat) (r : Req), (sends evs)[i]? = some r →
        (r.correlationId ∈ (delivered evs).map (·.1) →
          SettledAs c i (.result r.correlationId (val r.correlationId))) ∧
        (r.correlationId ∉ (delivered evs).map (·.1) → Pending c i) := by
  induction evs using List.reverseRecOn with
  | nil => simp [Conn.run, Conn.init, sends]
  | append_singleton evs ev ih =>
    obtain ⟨k1, k2, k3, k4, k5⟩ := ih h.front
    have hids : ∀ k ∈ (delivered evs).map (·.1), ∃ r ∈ sends evs, r.correlationId = k := by
      intro k hk
      obtain ⟨⟨k', p⟩, hm, rfl⟩ := List.mem_map.1 hk
      obtain ⟨e, he, hep⟩ := List.mem_flatMap.1 hm
      obtain ⟨a, b, rfl⟩ := List.append_of_mem he
      cases e with
      | deliver k'' p'' =>
        simp only [List.mem_singleton, Prod.mk.injEq] at hep
        obtain ⟨rfl, rfl⟩ := hep
        obtain ⟨r, hr, hk, _⟩ := h.front.later a k' p b rfl
        exact ⟨r, by rw [sends_append]; simp [hr], hk⟩
      | _ => simp at hep
    rcases h.kinds ev (by simp) with ⟨r, rfl, p, hs, hl⟩ | ⟨k, p, rfl⟩
    · have e1 : sends (evs ++ [ConnEv.send r .queued]) = sends evs ++ [r] := by
        simp [sends]
      have e2 : delivered (evs ++ [ConnEv.send r .queued]) = delivered evs := by
        simp [delivered]
      have hnew : ∀ r' ∈ sends evs, r'.correlationId ≠ r.correlationId := by
        have := h.ids
        rw [e1, List.map_append] at this
        intro r' hr'
        exact (List.nodup_append.1 this).2.2 _ (List.mem_map_of_mem hr') _ (by simp)
      rw [e1, e2, run_snoc]
      generalize Conn.init.run cx depth evs = c at k1 k2 k3 k4 k5 ⊢
      simp only [Conn.step, Conn.send, k1, hs, C04_frame p hl, Bool.false_eq_true, if_false]
      refine ⟨trivial, by rw [k2], by simp [k3], by simp [k4, requestBytes, hs], ?_⟩
      intro i r' hi
      by_cases hlt : i < (sends evs).length
      · rw [List.getElem?_append_left hlt] at hi
        obtain ⟨m1, m2⟩ := k5 i r' hi
        simp only [SettledAs, Pending] at m1 m2 ⊢
        rw [List.getElem?_append_left (by omega)]
        exact ⟨m1, m2⟩
      · rw [List.getElem?_append_right (by omega)] at hi
        have hi0 : i = (sends evs).length := by
          have := (List.getElem?_eq_some_iff.1 hi).1
          simp at this
          omega
        subst hi0
        simp only [Nat.sub_self, List.getElem?_cons_zero, Option.some.injEq] at hi
        subst hi
        refine ⟨fun hk => ?_, fun _ => ?_⟩
        · obtain ⟨r', hr', he⟩ := hids _ hk
          exact absurd he (hnew r' hr')
        · simp [Pending, ← k3]
    · have e1 : sends (evs ++ [ConnEv.deliver k p]) = sends evs := by simp [sends]
      have e2 : delivered (evs ++ [ConnEv.deliver k p]) = delivered evs ++ [(k, p)] := by
        simp [delivered]
      obtain ⟨r, hr, hk, hv⟩ := h.later evs k p [] rfl
      subst hk
      obtain ⟨i, hi⟩ := List.getElem?_of_mem hr
      have hnd : r.correlationId ∉ (delivered evs).map (·.1) := by
        have := h.once
        rw [e2, List.map_append] at this
        intro hm
        exact (List.nodup_append.1 this).2.2 _ hm _ (by simp) rfl
      have hp := (k5 i r hi).2 hnd
      obtain ⟨a1, a2, a3⟩ := C14_answered cx depth evs h.front.unambiguous i r p _ k1 hp
        (by rw [k2]; exact hi) hv
      obtain ⟨b1, b2⟩ := deliver_keeps cx depth (Conn.init.run cx depth evs) r.correlationId p
      rw [e1, e2]
      rw [run_snoc] at a1 a2 a3 ⊢
      refine ⟨a3, by rw [← k2]; exact b1, ?_, by rw [← k4]; exact b2, ?_⟩
      · have := (inv_of cx depth (evs ++ [.deliver r.correlationId p])).len
        rw [run_snoc] at this
        rw [← k2, ← b1]
        exact this.symm
      · intro j r' hj
        by_cases hji : j = i
        · subst hji
          rw [hi] at hj
          cases hj
          exact ⟨fun _ => a1, fun hn => absurd (by simp) hn⟩
        · have hne : r'.correlationId ≠ r.correlationId := by
            intro he
            have hn := h.front.ids
            have g1 : ((sends evs).map (·.correlationId))[j]? = some r'.correlationId := by
              simp [hj]
            have g2 : ((sends evs).map (·.correlationId))[i]? = some r.correlationId := by
              simp [hi]
            rw [← he] at g2
            have hl := (List.getElem?_eq_some_iff.1 g1).1
            exact hji ((List.getElem?_inj hl hn).1 (g1.trans g2.symm))
          obtain ⟨m1, m2⟩ := k5 j r' hj
          simp only [SettledAs, Pending] at m1 m2 ⊢
          rw [a2 j hji, List.map_append, List.mem_append]
          exact ⟨fun hm => m1 (by simpa [hne] using hm), fun hm => m2 (fun h' => hm (.inl h'))⟩

/-! ### From bytes to frames -/

/-- The frames delivered when more bytes arrive. -/
def expand (buffer : Bytes) : List NetEv → List ConnEv
  | [] => []
  | .send r :: evs => .send r .queued :: expand buffer evs
  | .chunk b :: evs =>
    (framesOf (buffer ++ b)).1.map (fun f => ConnEv.deliver f.1 f.2) ++
      expand (framesOf (buffer ++ b)).2 evs

theorem link_run (cx : Codec) (depth : Nat) (l : Link) (evs : List NetEv) :
    (l.run cx depth evs).conn = l.conn.run cx depth (expand l.buffer evs) := by
  induction evs generalizing l with
  | nil => rfl
  | cons ev evs ih =>
    have e : l.run cx depth (ev :: evs) = (l.step cx depth ev).run cx depth evs := rfl
    rw [e, ih]
    cases ev with
    | send r => rfl
    | chunk b =>
      simp only [expand, Conn.run, List.foldl_append, List.foldl_map]
      rfl

theorem expand_sends (buffer : Bytes) (evs : List NetEv) :
    sends (expand buffer evs) = requests evs := by
  induction evs generalizing buffer with
  | nil => rfl
  | cons ev evs ih =>
    cases ev with
    | send r =>
      have e : sends (expand buffer (.send r :: evs)) = r :: sends (expand buffer evs) := rfl
      rw [e, ih]
      rfl
    | chunk b =>
      have e : sends ((framesOf (buffer ++ b)).1.map fun f => ConnEv.deliver f.1 f.2) = [] := by
        simp [sends, List.flatMap_map]
      rw [expand, sends_append, e, ih]
      rfl

theorem delivered_map (fs : List (Int × Bytes)) :
    delivered (fs.map fun f => ConnEv.deliver f.1 f.2) = fs := by
  simp [delivered, List.flatMap_map]

/-- A buffer holds no complete frame. -/
theorem framesOf_rest (b : Bytes) : (framesOf (framesOf b).2).1 = [] := by
  have h := congrArg Prod.fst (C14_chunks b [])
  simp only [List.append_nil] at h
  simpa using h

theorem expand_delivered (buffer : Bytes) (hb : (framesOf buffer).1 = []) (evs : List NetEv) :
    delivered (expand buffer evs) = (framesOf (buffer ++ received evs)).1 := by
  induction evs generalizing buffer with
  | nil => simp [expand, delivered, received, hb]
  | cons ev evs ih =>
    cases ev with
    | send r => exact ih buffer hb
    | chunk b =>
      rw [expand, delivered_append, delivered_map, ih _ (framesOf_rest _)]
      have e : received (.chunk b :: evs) = b ++ received evs := rfl
      rw [e, ← List.append_assoc, C14_chunks (buffer ++ b)]

/-- A frame is delivered after the bytes up to its end have arrived. -/
theorem expand_deliver (buffer : Bytes) (hb : (framesOf buffer).1 = []) (evs : List NetEv)
    (before : List ConnEv) (k : Int) (p : Bytes) (after : List ConnEv)
    (he : expand buffer evs = before ++ .deliver k p :: after) :
    ∃ a b, evs = a ++ b ∧ sends before = requests a ∧
      delivered before ++ [(k, p)] <+: (framesOf (buffer ++ received a)).1 := by
  induction evs generalizing buffer before with
  | nil => simp [expand] at he
  | cons ev evs ih =>
    cases ev with
    | send r =>
      cases before with
      | nil => simp [expand] at he
      | cons x before =>
        simp only [expand, List.cons_append, List.cons.injEq] at he
        obtain ⟨rfl, he⟩ := he
        obtain ⟨a, b, rfl, h2, h3⟩ := ih buffer hb before he
        exact ⟨.send r :: a, b, rfl, congrArg (r :: ·) h2, h3⟩
    | chunk c =>
      rw [expand] at he
      have hr : ∀ a, received (.chunk c :: a) = c ++ received a := fun _ => rfl
      rcases List.append_eq_append_iff.1 he with ⟨mid, h1, h2⟩ | ⟨mid, h1, h2⟩
      · obtain ⟨a, b, rfl, h4, h5⟩ := ih _ (framesOf_rest _) mid h2
        refine ⟨.chunk c :: a, b, rfl, ?_, ?_⟩
        · rw [h1, sends_append, h4]
          simp [sends, List.flatMap_map, requests]
        · rw [h1, delivered_append, delivered_map, hr, ← List.append_assoc, C14_chunks (buffer ++ c),
            List.append_assoc, List.prefix_append_right_inj]
          exact h5
      · cases mid with
        | nil =>
          simp only [List.append_nil, List.nil_append] at h1 h2
          obtain ⟨a, b, rfl, h4, h5⟩ := ih _ (framesOf_rest _) [] h2.symm
          refine ⟨.chunk c :: a, b, rfl, ?_, ?_⟩
          · rw [← h1, show requests (.chunk c :: a) = requests a from rfl, ← h4]
            simp [sends, List.flatMap_map]
          · rw [← h1, delivered_map, hr, ← List.append_assoc, C14_chunks (buffer ++ c),
              List.prefix_append_right_inj]
            exact h5
        | cons x mid =>
          simp only [List.cons_append, List.cons.injEq] at h2
          obtain ⟨rfl, h2⟩ := h2
          refine ⟨[.chunk c], evs, rfl, ?_, ?_⟩
          · have := congrArg sends h1
            rw [sends_append] at this
            have h0 : sends ((framesOf (buffer ++ c)).1.map fun f => ConnEv.deliver f.1 f.2) =
                [] := by simp [sends, List.flatMap_map]
            rw [h0] at this
            rw [(List.append_eq_nil_iff.1 this.symm).1]
            rfl
          · have := congrArg delivered h1
            rw [delivered_map, delivered_append] at this
            rw [hr, show received [] = [] from rfl, List.append_nil, this,
              List.prefix_append_right_inj]
            exact ⟨delivered mid, rfl⟩

/-! ### The claims -/

/-- **C97**: a conversation.  Requests with different correlation ids are sent and answered, in
any order; the answers arrive as a stream of bytes that is cut in any way, between the answers
or within.  Then, at any time, what was written is the requests, each with its length in front,
in the order in which they were sent; a request whose answer has arrived completely has that
answer as its result, and every other is pending; and the connection is open. -/
theorem C97_conversation (cx : Codec) (depth : Nat) (evs : List NetEv)
    (answers : List (Int × Bytes)) (val : Int → Val)
    (hw : ∀ r ∈ requests evs, ∃ p, r.serialize = .ok p ∧ p.length < 2 ^ 31)
    (hids : ((requests evs).map (·.correlationId)).Nodup)
    (ha : Answers cx depth evs answers val) :
    let c := (Link.init.run cx depth evs).conn
    c.closing = false ∧
    (∃ ps, List.Forall₂ (fun (r : Req) p => r.serialize = .ok p) (requests evs) ps ∧
      c.written = ps.map fun p => be 4 p.length ++ p) ∧
    ∀ (i : Nat) (r : Req), (requests evs)[i]? = some r →
      ((∃ n a, answers[n]? = some a ∧ a.1 = r.correlationId ∧ Arrived answers evs n) →
        SettledAs c i (.result r.correlationId (val r.correlationId))) ∧
      ((¬ ∃ n a, answers[n]? = some a ∧ a.1 = r.correlationId ∧ Arrived answers evs n) →
        Pending c i) := by
  have hb : (framesOf []).1 = [] := rfl
  -- what has arrived by any time
  have hpre : ∀ a b, evs = a ++ b → received a <+: answerBytes answers := by
    rintro a b rfl
    refine List.IsPrefix.trans ?_ ha.stream
    simp [received]
  have hdel : delivered (expand [] evs) = (framesOf (received evs)).1 := expand_delivered [] hb evs
  obtain ⟨m, m1, m2, m3⟩ := frames_prefix answers ha.fit _ ha.stream
  have hk : ∀ ev ∈ expand [] evs, (∃ r, ev = .send r .queued ∧ Writable r) ∨
      ∃ k p, ev = .deliver k p := by
    have hw' : ∀ r ∈ requests evs, Writable r := hw
    clear hdel m2 m3 hpre ha hids hw
    generalize ([] : Bytes) = buffer
    induction evs generalizing buffer with
    | nil => simp [expand]
    | cons ev evs ih =>
      cases ev with
      | send r =>
        intro ev hev
        rcases List.mem_cons.1 hev with rfl | hev
        · exact .inl ⟨r, rfl, hw' r (by simp [requests])⟩
        · exact ih (fun r' hr' => hw' r' (by
            rw [show requests (.send r :: evs) = r :: requests evs from rfl]; simp [hr'])) _ _ hev
      | chunk b =>
        intro ev hev
        rcases List.mem_append.1 hev with hev | hev
        · obtain ⟨f, _, rfl⟩ := List.mem_map.1 hev
          exact .inr ⟨_, _, rfl⟩
        · exact ih hw' _ _ hev
  have ht : Talk cx depth val (expand [] evs) := by
    refine ⟨hk, by rw [expand_sends]; exact hids, ?_, ?_⟩
    · rw [hdel, m2, List.map_take]
      exact ha.once.sublist (List.take_sublist _ _)
    · intro before k p after he
      obtain ⟨a, b, h1, h2, h3⟩ := expand_deliver [] hb evs before k p after he
      rw [List.nil_append] at h3
      obtain ⟨m', _, n2, n3⟩ := frames_prefix answers ha.fit _ (hpre a b h1)
      rw [n2] at h3
      have g := h3.trans (List.take_prefix m' answers)
      have g1 : answers[(delivered before).length]? = some (k, p) := by
        obtain ⟨t, rfl⟩ := g
        simp
      have g2 : (delivered before).length < m' := by
        have := h3.length_le
        simp only [List.length_append, List.length_singleton, List.length_take] at this
        omega
      obtain ⟨r, r1, r2, r3⟩ := ha.later a b h1 _ _ g1
        ((n3 _ (List.getElem?_eq_some_iff.1 g1).1).1 g2)
      exact ⟨r, by rw [h2]; exact r1, r2, r3⟩
  obtain ⟨k1, k2, k3, k4, k5⟩ := talk_spec _ ht
  rw [expand_sends] at k4 k5
  have hrun := link_run cx depth Link.init evs
  have hbuf : Link.init.buffer = [] := rfl
  have hconn : Link.init.conn = Conn.init := rfl
  rw [hbuf, hconn] at hrun
  intro c
  have hc : c = Conn.init.run cx depth (expand [] evs) := hrun
  rw [hc]
  refine ⟨k1, ?_, ?_⟩
  · rw [k4]
    clear k5 k4 k3 k2 k1 ht hk m2 m3 hdel hpre ha hids hc hrun c
    generalize requests evs = rs at hw
    induction rs with
    | nil => exact ⟨[], .nil, rfl⟩
    | cons r rs ih =>
      obtain ⟨ps, h1, h2⟩ := ih (fun r' hr' => hw r' (by simp [hr']))
      obtain ⟨p, hp, _⟩ := hw r (by simp)
      exact ⟨p :: ps, .cons hp h1, by simp [h2, requestBytes, hp]⟩
  · intro i r hi
    have hiff : r.correlationId ∈ (delivered (expand [] evs)).map (·.1) ↔
        ∃ n a, answers[n]? = some a ∧ a.1 = r.correlationId ∧ Arrived answers evs n := by
      rw [hdel, m2]
      constructor
      · intro h
        obtain ⟨a, h1, h2⟩ := List.mem_map.1 h
        obtain ⟨n, hn⟩ := List.getElem?_of_mem h1
        rw [List.getElem?_take] at hn
        split at hn
        · rename_i hlt
          exact ⟨n, a, hn, h2, (m3 n (List.getElem?_eq_some_iff.1 hn).1).1 hlt⟩
        · cases hn
      · rintro ⟨n, a, h1, h2, h3⟩
        have hlt := (m3 n (List.getElem?_eq_some_iff.1 h1).1).2 h3
        refine List.mem_map.2 ⟨a, List.mem_of_getElem? (i := n) ?_, h2⟩
        rw [List.getElem?_take, if_pos hlt, h1]
    rw [← hiff]
    exact k5 i r hi

/-- **C97**: where the bytes are cut makes no difference, whatever they are. -/
theorem C97_cut (cx : Codec) (depth : Nat) (l : Link) (a b : Bytes) (evs : List NetEv) :
    l.run cx depth (.chunk a :: .chunk b :: evs) = l.run cx depth (.chunk (a ++ b) :: evs) := by
  have key : (l.step cx depth (.chunk a)).step cx depth (.chunk b) =
      l.step cx depth (.chunk (a ++ b)) := by
    have h := C14_chunks (l.buffer ++ a) b
    simp only [framesOf] at h
    simp only [Link.step]
    rw [← List.append_assoc, h, List.foldl_append]
  simp only [Link.run, List.foldl_cons, key]

/-! ### Examples -/

/-- The second request is answered first. -/
def exLinkAnswers : List (Int × Bytes) := [(8, exAnswer), (7, exAnswer)]

/-- The answers arrive in three pieces; the third has not arrived completely. -/
def exLink : List NetEv :=
  [.send (exReq 7), .send (exReq 8), .chunk ((answerBytes exLinkAnswers).take 3),
    .chunk (((answerBytes exLinkAnswers).drop 3).take 27)]

def exLinkVal : Val := .part
  [("error_code", .int 0), ("coordinator_id", .int 3), ("coordinator_host", .str "h"),
   ("coordinator_port", .int 9)]

theorem exLink_answers (cx : Codec) : Answers cx 5 exLink exLinkAnswers fun _ => exLinkVal := by
  have hv : ∀ k, AnswerReads cx 5 (exReq k).cls.api exAnswer (.ok exLinkVal) := fun k =>
    ⟨show "group_coordinator" ∈ answeredApis by decide +kernel, _, doc_mem 15 rfl, rfl, rfl,
      by krfl⟩
  have hlen : ∀ n, 21 ≤ (answerBytes (exLinkAnswers.take (n + 1))).length := by
    intro n
    rw [show exLinkAnswers = (8, exAnswer) :: [(7, exAnswer)] from rfl, List.take_succ_cons]
    simp [answerBytes, responseFrame, be_length, exAnswer]
    omega
  refine ⟨⟨_, (show received exLink ++ (answerBytes exLinkAnswers).drop 30 = _ by
    decide +kernel)⟩, ?_, by decide +kernel, ?_⟩
  · intro a h
    simp only [exLinkAnswers, List.mem_cons, List.not_mem_nil, or_false] at h
    rcases h with rfl | rfl <;> exact ⟨by unfold Fits; norm_num, by decide +kernel⟩
  · intro before after he n a hn harr
    have hl := le_trans (hlen n) harr.length_le
    have hr : requests before = [exReq 7, exReq 8] := by
      match before, he with
      | [], _ => simp [received] at hl
      | [e1], he =>
        simp only [exLink, List.cons_append, List.nil_append, List.cons.injEq] at he
        obtain ⟨rfl, _⟩ := he
        simp [received] at hl
      | e1 :: e2 :: tl, he =>
        simp only [exLink, List.cons_append, List.cons.injEq] at he
        obtain ⟨rfl, rfl, he⟩ := he
        have : requests tl = [] := by
          match tl, he with
          | [], _ => rfl
          | [e3], he =>
            simp only [List.cons_append, List.cons.injEq] at he
            obtain ⟨rfl, _⟩ := he
            rfl
          | [e3, e4], he =>
            simp only [List.cons_append, List.cons.injEq] at he
            obtain ⟨rfl, rfl, _⟩ := he
            rfl
          | e3 :: e4 :: e5 :: tl, he => simp at he
        simp [requests] at this ⊢
        exact this
    rw [hr]
    match n, hn with
    | 0, hn =>
      cases hn
      exact ⟨exReq 8, by simp, rfl, hv 8⟩
    | 1, hn =>
      cases hn
      exact ⟨exReq 7, by simp, rfl, hv 7⟩
    | n + 2, hn => simp [exLinkAnswers] at hn

-- Non-vacuity of C97_conversation: the second request has its answer, the first is pending.
example (cx : Codec) :
    let c := (Link.init.run cx 5 exLink).conn
    SettledAs c 1 (.result 8 exLinkVal) ∧ Pending c 0 := by
  have fits : ∀ r : Req, (match r.serialize with
      | .ok p => decide (p.length < 2 ^ 31)
      | .error _ => false) = true → ∃ p, r.serialize = .ok p ∧ p.length < 2 ^ 31 := by
    intro r h
    cases hs : r.serialize with
    | error e => rw [hs] at h; cases h
    | ok p => rw [hs] at h; exact ⟨p, rfl, of_decide_eq_true h⟩
  have hw : ∀ r ∈ requests exLink, ∃ p, r.serialize = .ok p ∧ p.length < 2 ^ 31 := by
    intro r hr
    rcases (by simpa [requests, exLink] using hr : r = exReq 7 ∨ r = exReq 8) with rfl | rfl
    · exact fits _ (by decide +kernel)
    · exact fits _ (by decide +kernel)
  obtain ⟨-, -, h⟩ := C97_conversation cx 5 exLink exLinkAnswers _ hw (by decide +kernel)
    (exLink_answers cx)
  refine ⟨(h 1 (exReq 8) rfl).1 ⟨0, _, rfl, rfl, ⟨(received exLink).drop 21, by decide +kernel⟩⟩,
    (h 0 (exReq 7) rfl).2 ?_⟩
  rintro ⟨n, a, h1, h2, h3⟩
  match n, h1 with
  | 0, h1 => cases h1; exact absurd h2 (by decide)
  | 1, h1 => exact absurd h3.length_le (by decide +kernel)
  | n + 2, h1 => simp [exLinkAnswers] at h1

end Kiel
