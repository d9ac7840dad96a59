import Verif.Spec.Booting
import Verif.Props.Asking
/-
C147: `start()` while bootstrap hosts get lost.
-/
set_option autoImplicit false
namespace Kiel
open Spec

theorem bootCourse_append (cx : Codec) (depth : Nat) (es es' : List BootEv) (b : Boot) :
    bootCourse cx depth b (es ++ es') =
      ((bootCourse cx depth b es).1 ++ (bootCourse cx depth (bootCourse cx depth b es).2 es').1,
        (bootCourse cx depth (bootCourse cx depth b es).2 es').2) := by
  induction es generalizing b with
  | nil => rfl
  | cons e es ih => simp [bootCourse, ih]

theorem over_course (cx : Codec) (depth : Nat) (es : List BootEv) :
    ∀ o ∈ (bootCourse cx depth .over es).1, o = .nothing := by
  induction es with
  | nil => intro o ho; cases ho
  | cons e es ih =>
    intro o ho
    rcases List.mem_cons.1 ho with rfl | ho
    · cases e <;> rfl
    · refine ih o ?_
      cases e <;> exact ho

/-- The connection, whatever becomes of it, is one that was made by sending a request over a new one. -/
theorem boot_sound (cx : Codec) (depth : Nat) (es : List BootEv) (b : Boot)
    (hb : ∀ c n, b = .waiting c n → ConnInv c) (c : Conn) (n : Nat)
    (h : (bootCourse cx depth b es).2 = .waiting c n) : ConnInv c := by
  induction es generalizing b with
  | nil => exact hb c n h
  | cons e es ih =>
    refine ih _ ?_ h
    intro c' n' hc
    have next : ∀ rest, (bootNext rest).2 ≠ .waiting c' n' := by
      intro rest
      cases rest with
      | nil => intro h; cases h
      | cons s rest =>
        simp only [bootNext]
        split <;> intro h <;> cases h
    cases b with
    | over => cases e <;> cases hc
    | connecting rest =>
      cases e with
      | connected r w =>
        simp only [Boot.step] at hc
        split at hc
        · cases hc
        · rename_i m d hx
          cases hc
          have := connInv_step connInv_init cx depth (.send r w)
          rw [← send_step, hx] at this
          exact this
      | refused x => exact absurd hc (next rest)
      | _ => cases hc
    | waiting c0 n0 =>
      cases e with
      | wire ev =>
        have := connInv_step (hb c0 n0 rfl) cx depth ev
        cases hc
        exact this
      | resumes =>
        simp only [Boot.step] at hc
        split at hc
        · cases hc; exact hb _ _ rfl
        · cases hc
        · cases hc
      | _ => cases hc; exact hb _ _ rfl

theorem booted_sound (cx : Codec) (depth : Nat) (hosts : List (List Char)) (es : List BootEv) (c : Conn) (n : Nat)
    (h : (booted cx depth hosts es).2 = .waiting c n) : ConnInv c := by
  refine boot_sound cx depth es (bootNext hosts).2 ?_ c n h
  intro c' n' hb
  cases hosts with
  | nil => cases hb
  | cons s rest =>
    simp only [bootNext] at hb
    split at hb <;> cases hb

theorem boot_stuck (cx : Codec) (depth : Nat) (es : List BootEv) (c : Conn) (n : Nat) (h1 : Pending c n)
    (h2 : c.reading = false) (h3 : c.closing = true) :
    ∀ o ∈ (bootCourse cx depth (.waiting c n) es).1, o = .nothing := by
  induction es generalizing c with
  | nil => intro o ho; cases ho
  | cons e es ih =>
    intro o ho
    cases e with
    | wire ev =>
      obtain ⟨g1, g2, g3⟩ := frozen_pending cx depth n [ev] c h1 h2 h3
      rcases List.mem_cons.1 ho with rfl | ho
      · rfl
      · exact ih _ g1 g2 g3 o ho
    | resumes =>
      have hr : c.reply n = .none := by
        unfold Pending at h1
        simp [Conn.reply, h1]
      have hs : (Boot.waiting c n).step cx depth .resumes = (.nothing, .waiting c n) := by
        simp [Boot.step, hr]
      rcases List.mem_cons.1 ho with rfl | ho
      · rw [hs]
      · rw [hs] at ho; exact ih c h1 h2 h3 o ho
    | _ =>
      rcases List.mem_cons.1 ho with rfl | ho
      · rfl
      · exact ih c h1 h2 h3 o ho

/-- **C147** is false of the code: if a bootstrap host closes its connection before it has answered, `start()`
neither ends nor connects to another host, whatever happens. -/
theorem C147_hangs (cx : Codec) (depth : Nat) (hosts : List (List Char)) (past es : List BootEv) :
    let b := (booted cx depth hosts past).2
    AwaitsHost b → ∀ o ∈ (bootCourse cx depth b (hostLost :: es)).1, o = .nothing := by
  rintro b ⟨c, n, h1, h2⟩ o ho
  have hinv : ConnInv c := booted_sound cx depth hosts past c n h1
  rw [h1] at ho
  rcases List.mem_cons.1 ho with rfl | ho
  · rfl
  · have hr : (c.readError .streamClosed).reading = false := by
      cases hr : c.reading with
      | false => simp [Conn.readError, hr]
      | true => simp [Conn.readError, hr, Conn.socketError]
    have hc : (c.readError .streamClosed).closing = true := by
      cases hr : c.reading with
      | false =>
        simp only [Conn.readError, hr]
        cases hc : c.closing with
        | true => simp [hc]
        | false => exact absurd (hinv.live hc) (by simp [hr])
      | true => simp [Conn.readError, hr, Conn.socketError]
    refine boot_stuck cx depth es (c.readError .streamClosed) n ?_ hr hc o ho
    unfold Pending at h2 ⊢
    unfold Conn.readError
    split
    · exact h2
    · simpa [Conn.socketError] using h2

/-- **C147**: the first host that is connected to is the last: whatever becomes of its connection and of the
request, `start()` connects to no other. -/
theorem C147_last (cx : Codec) (depth : Nat) (c : Conn) (n : Nat) (es : List BootEv) (h : List Char × Int) :
    BootOut.connecting h ∉ (bootCourse cx depth (.waiting c n) es).1 := by
  induction es generalizing c with
  | nil => simp [bootCourse]
  | cons e es ih =>
    intro ho
    have over : BootOut.connecting h ∉ (bootCourse cx depth .over es).1 := fun h => by
      cases over_course cx depth es _ h
    cases e with
    | wire ev =>
      rcases List.mem_cons.1 ho with ho | ho
      · cases ho
      · exact ih _ ho
    | resumes =>
      simp only [bootCourse, Boot.step] at ho
      split at ho
      · rcases List.mem_cons.1 ho with ho | ho
        · cases ho
        · exact ih _ ho
      · rcases List.mem_cons.1 ho with ho | ho
        · cases ho
        · exact over ho
      · rcases List.mem_cons.1 ho with ho | ho
        · cases ho
        · exact over ho
    | _ =>
      rcases List.mem_cons.1 ho with ho | ho
      · cases ho
      · exact ih _ ho

theorem booting_open (cx : Codec) (depth : Nat) (r : Req) (n : Nat) (evs : List ConnEv) (c : Conn)
    (hinv : ConnInv c) (hr : Ready c n r) (hn : ∀ ev ∈ evs, isSend ev = false) :
    ConnInv (c.run cx depth evs) ∧ Ready (c.run cx depth evs) n r := by
  induction evs generalizing c with
  | nil => exact ⟨hinv, hr⟩
  | cons ev evs ih =>
    refine ih _ (connInv_step hinv cx depth ev) (ready_step hinv cx depth ev n r ?_ hr)
      fun e he => hn e (List.mem_cons_of_mem _ he)
    rintro r' w rfl
    cases hn _ List.mem_cons_self

theorem wires_course (cx : Codec) (depth : Nat) (evs : List ConnEv) (c : Conn) (n : Nat) :
    (bootCourse cx depth (.waiting c n) (evs.map .wire)).2 = .waiting (c.run cx depth evs) n := by
  induction evs generalizing c with
  | nil => rfl
  | cons ev evs ih => exact ih _

/-- **C147**: what does hold: the first host that is connected to and answers while its connection is open is
enough; what it answered is what `start()` goes on with. -/
theorem C147_answers_partial (cx : Codec) (depth : Nat) (hosts : List (List Char)) (past : List BootEv)
    (rest : List (List Char)) (r : Req) (w : Write) (before after : List ConnEv) (p : Bytes) (v : Val) (c : Conn)
    (n : Nat) :
    let b := (booted cx depth hosts past).2
    let evs := before ++ .deliver r.correlationId p :: after
    b = .connecting rest → WritesAll r → (∀ ev ∈ evs, isSend ev = false) →
    AnswerReads cx depth r.cls.api p (.ok v) →
    (bootCourse cx depth b (.connected r w :: before.map .wire)).2 = .waiting c n → c.closing = false →
    ∃ x p', BootOut.response x ∈ (bootCourse cx depth b (.connected r w :: (evs.map .wire ++ [.resumes]))).1 ∧
      .deliver r.correlationId p' ∈ evs ∧ x.api = r.cls.api ∧ x.corr = r.correlationId ∧
      AnswerReads cx depth r.cls.api p' (.ok x.body) := by
  intro b evs hb hw hn hv hc ho
  have hx : ∃ m d, Conn.init.send r w = (.ok m, d) := by
    obtain ⟨q, f, h1, h2⟩ := hw
    cases w <;> exact ⟨_, _, by simp only [Conn.send, Conn.init, h1, h2]; rfl⟩
  obtain ⟨m, d, hx⟩ := hx
  have hd : ConnInv d := by
    have := connInv_step connInv_init cx depth (.send r w)
    rw [← send_step, hx] at this
    exact this
  have hstep : b.step cx depth (.connected r w) = (.nothing, .waiting d m) := by
    rw [hb]; simp only [Boot.step, hx]
  have hc2 : Boot.waiting (d.run cx depth before) m = .waiting c n := by
    rw [← wires_course, ← hc, bootCourse, hstep]
  cases hc2
  have hready := ready_send Conn.init connInv_init r w n d hx
  obtain ⟨g1, g2⟩ := booting_open cx depth r n before d hd hready fun ev he => hn ev (List.mem_append_left _ he)
  obtain ⟨y, g3⟩ := ready_answered g1 cx depth n r g2 ho p v hv
  have hrun : d.run cx depth evs = ((d.run cx depth before).step cx depth (.deliver r.correlationId p)).run cx depth after := by
    simp [evs, Conn.run, List.foldl_append]
  have g4 := settled_stays cx depth after _ (connInv_step g1 cx depth (.deliver r.correlationId p)) n _ g3
  rw [← hrun] at g4
  obtain ⟨_, k1, fs, k2, k3⟩ := answered_in cx depth d hd n r (send_noAnswer Conn.init connInv_init r w n d hx) evs
  rw [g4] at k2
  cases k2
  obtain ⟨_, p', k4, k5⟩ := k3 _ _ List.mem_cons_self
  refine ⟨⟨r.cls.api, r.correlationId, y⟩, p', ?_, k4, rfl, rfl, k5⟩
  rw [bootCourse, hstep, bootCourse_append, wires_course]
  refine List.mem_cons_of_mem _ (List.mem_append_right _ (List.mem_cons.2 (.inl ?_)))
  simp [Boot.step, Conn.reply, g4, k1]

theorem once_unambiguous (cx : Codec) (depth : Nat) (r : Req) (w : Write) (evs : List ConnEv)
    (hn : ∀ ev ∈ evs, isSend ev = false) : Unambiguous cx depth (.send r w :: evs) := by
  intro before q v after h i q' hp
  cases before with
  | nil => cases hp
  | cons e before =>
    have : ConnEv.send q v ∈ evs := by
      simp only [List.cons_append, List.cons.injEq] at h
      rw [h.2]
      simp
    cases hn _ this

/-- **C147**: and if the stream fails in another way while the answer is awaited, or what comes from it cannot
be read, `start()` raises this error, though other hosts are left. -/
theorem C147_raises (cx : Codec) (depth : Nat) (rest : List (List Char)) (r : Req) (w : Write)
    (evs : List ConnEv) (c : Conn) (n : Nat) (x : Exc) :
    (bootCourse cx depth (.connecting rest) (.connected r w :: evs.map .wire)).2 = .waiting c n →
    (∀ ev ∈ evs, isSend ev = false) → Pending c n → c.closing = false → x ≠ .streamClosed →
    BootOut.raised x ∈ (bootCourse cx depth (.waiting c n) [.wire (.readError x), .resumes]).1 := by
  intro hc hn hp ho hx
  cases hs : Conn.init.send r w with
  | mk m d =>
    cases m with
    | error e =>
      have hstep : (Boot.connecting rest).step cx depth (.connected r w) = (.raised e, .over) := by
        simp only [Boot.step, hs]
      rw [bootCourse, hstep] at hc
      have : ∀ es, (bootCourse cx depth .over es).2 = .over := by
        intro es
        induction es with
        | nil => rfl
        | cons e es ih => cases e <;> exact ih
      rw [this] at hc
      cases hc
    | ok m =>
      have hstep : (Boot.connecting rest).step cx depth (.connected r w) = (.nothing, .waiting d m) := by
        simp only [Boot.step, hs]
      rw [bootCourse, hstep, wires_course] at hc
      cases hc
      have hd : d.run cx depth evs = Conn.init.run cx depth (.send r w :: evs) := by
        show _ = Conn.run cx depth (Conn.init.step cx depth (.send r w)) evs
        rw [← send_step, hs]
      have hinv : ConnInv (d.run cx depth evs) := by rw [hd]; exact inv_of cx depth _
      rw [hd] at hinv hp ho ⊢
      generalize hcc : Conn.init.run cx depth (.send r w :: evs) = c at hinv hp ho ⊢
      have hab : (c.readError x).futs = (c.abort (some x)).futs := by
        have := hinv.live ho
        simp [Conn.readError, this, Conn.socketError, hx]
      have hlt : n < (c.abort (some x)).futs.length := by
        rw [← hab]
        have := (List.getElem?_eq_some_iff.1 hp).1
        obtain ⟨fs', h1, _⟩ := step_change hinv cx depth (.readError x) n [] hp
        exact (List.getElem?_eq_some_iff.1 h1).1
      have h2 := (abort_open cx depth (once_unambiguous cx depth r w evs hn) (by rw [hcc]; exact ho) (some x) n
        (c.abort (some x)).futs[n] (by rw [hcc]; exact List.getElem?_eq_getElem hlt)).2 (by rw [hcc]; exact hp)
      have h3 : (c.readError x).futs[n]? = some [.exc x] := by
        rw [hab, List.getElem?_eq_getElem hlt, h2]; rfl
      simp [bootCourse, Boot.step, Conn.step, Conn.reply, h3]

/-- **C147**: hosts that cannot be connected to are passed over, in the order in which they are given; if none
can, NoBrokersError is raised. -/
theorem C147_none_partial (cx : Codec) (depth : Nat) (hosts : List (List Char)) (addrs : List (List Char × Int))
    (excs : List Exc) (hp : hosts.map parseHost = addrs.map .ok) (hl : excs.length = hosts.length) :
    (booted cx depth hosts (excs.map .refused)).1 = addrs.map .connecting ++ [.raised .noBrokers] := by
  induction hosts generalizing addrs excs with
  | nil =>
    cases addrs with
    | cons a addrs => cases hp
    | nil =>
      cases excs with
      | cons x excs => cases hl
      | nil => rfl
  | cons s hosts ih =>
    cases addrs with
    | nil => cases hp
    | cons a addrs =>
      cases excs with
      | nil => cases hl
      | cons x excs =>
        simp only [List.map_cons, List.cons.injEq] at hp
        have := ih addrs excs hp.2 (by simpa using hl)
        have hs : bootNext (s :: hosts) = (.connecting a, .connecting hosts) := by simp [bootNext, hp.1]
        simp only [booted, hs, List.map_cons, bootCourse, Boot.step, List.cons_append]
        exact congrArg _ this

/-- What happens to `start()` if connecting to host `h` does `connect h`, and `wires h` then happens to the
connection over which it is asked. -/
def bootEvents (connect : List Char × Int → Option Exc) (req : List Char × Int → Req)
    (write : List Char × Int → Write) (wires : List Char × Int → List ConnEv) : List (List Char) → List BootEv
  | [] => []
  | s :: rest =>
    match parseHost s with
    | .error _ => []
    | .ok h =>
      match connect h with
      | some e => .refused e :: bootEvents connect req write wires rest
      | .none => .connected (req h) (write h) :: ((wires h).map .wire ++ [.resumes])

/-- **C147**: as long as every host that can be connected to is heard from, in the end `start()` comes by what
`bootstrap` says, which the properties of `Cluster.start` are about: entries that are no host are raised, hosts
that cannot be connected to are passed over, and what the first other one answers is used, or raised. -/
theorem C147_agrees_partial (cx : Codec) (depth : Nat) (connect : List Char × Int → Option Exc)
    (req : List Char × Int → Req) (write : List Char × Int → Write) (wires : List Char × Int → List ConnEv)
    (answer : List Char × Int → Res Reply) (read : Reply → Metadata) (hosts : List (List Char))
    (hans : ∀ s ∈ hosts, ∀ h, parseHost s = .ok h → connect h = .none →
      ∃ n c, Conn.init.send (req h) (write h) = (.ok n, c) ∧
        (c.run cx depth (wires h)).reply n = some (answer h)) :
    let seen := (booted cx depth hosts (bootEvents connect req write wires hosts)).1
    (∀ e, bootstrap connect (fun h => (answer h).map read) hosts = .error e →
      seen.getLast? = some (.raised e)) ∧
    (bootstrap connect (fun h => (answer h).map read) hosts = .ok .none →
      seen.getLast? = some (.raised .noBrokers)) ∧
    ∀ m, bootstrap connect (fun h => (answer h).map read) hosts = .ok (some m) →
      ∃ x, seen.getLast? = some (.response x) ∧ read x = m := by
  intro seen
  induction hosts with
  | nil => simp [seen, bootstrap, booted, bootNext, bootEvents, bootCourse]
  | cons s rest ih =>
    have ih := ih fun s hs => hans s (List.mem_cons_of_mem _ hs)
    cases hp : parseHost s with
    | error e => simp [seen, bootstrap, booted, bootNext, bootEvents, bootCourse, hp]
    | ok h =>
      cases hc : connect h with
      | some x =>
        have hne : (booted cx depth rest (bootEvents connect req write wires rest)).1 ≠ [] := by simp [booted]
        have hs : seen = .connecting h :: (booted cx depth rest (bootEvents connect req write wires rest)).1 := by
          simp [seen, booted, bootNext, bootEvents, bootCourse, hp, hc, Boot.step]
        have hb : ∀ ask, bootstrap connect ask (s :: rest) = bootstrap connect ask rest := by
          intro ask; simp [bootstrap, hp, hc]
        rw [hs, hb, List.getLast?_cons_of_ne_nil hne]
        exact ih
      | none =>
        obtain ⟨n, c, h1, h2⟩ := hans s List.mem_cons_self h hp hc
        have hl : seen.getLast? = some (match answer h with
            | .ok x => .response x
            | .error e => .raised e) := by
          have hw : (bootCourse cx depth (.waiting c n) ((wires h).map .wire)).2 =
              .waiting (c.run cx depth (wires h)) n := by rw [wires_course]
          have hsplit : seen = [.connecting h, .nothing] ++ ((bootCourse cx depth (.waiting c n) ((wires h).map .wire)).1 ++
              [((Boot.waiting (c.run cx depth (wires h)) n).step cx depth .resumes).1]) := by
            simp only [seen, booted, bootNext, bootEvents, hp, hc, bootCourse, Boot.step, h1, bootCourse_append, hw]
            simp
          rw [hsplit, ← List.append_assoc, List.getLast?_concat]
          simp only [Boot.step, h2]
          cases answer h <;> rfl
        have hb : bootstrap connect (fun h => (answer h).map read) (s :: rest) =
            match answer h with
            | .error e => .error e
            | .ok x => .ok (some (read x)) := by
          simp only [bootstrap, hp, hc]
          cases answer h <;> rfl
        rw [hl, hb]
        cases answer h with
        | error e => simp
        | ok x => simp

/-- The first of two hosts is connected to and asked. -/
def exBooting : List BootEv := [.connected (exReq 7) .queued]

def exHosts : List (List Char) := ["a:9092".toList, "b".toList]

theorem exBooting_awaits (cx : Codec) (depth : Nat) : AwaitsHost (booted cx depth exHosts exBooting).2 := by
  have h : (match (booted cx depth exHosts exBooting).2 with
    | .waiting c n => (match c.futs[n]? with | some [] => true | _ => false)
    | _ => false) = true := by krfl
  split at h
  · rename_i c n hx
    refine ⟨c, n, hx, ?_⟩
    split at h
    · assumption
    · cases h
  · cases h

/-- The property does not hold: hosts are left that would answer. -/
theorem C147_false (cx : Codec) (depth : Nat) :
    ¬ ∀ (hosts : List (List Char)) (past : List BootEv),
      let b := (booted cx depth hosts past).2
      AwaitsHost b → ∃ es, ∃ o ∈ (bootCourse cx depth b (hostLost :: es)).1, EndsBoot o := by
  intro h
  obtain ⟨es, o, ho, he⟩ := h exHosts exBooting (exBooting_awaits cx depth)
  have := C147_hangs cx depth exHosts exBooting es (exBooting_awaits cx depth) o ho
  subst this
  rcases he with ⟨_, h⟩ | ⟨_, h⟩ <;> cases h

-- Non-vacuity: the host answers after its stream has had other frames; C147_answers_partial and C147_raises.
example (cx : Codec) :
    (bootNext exHosts).2 = .connecting ["b".toList] ∧ WritesAll (exReq 7) ∧
    AnswerReads cx 5 (exReq 7).cls.api exAnswer (.ok (.part
      [("error_code", .int 0), ("coordinator_id", .int 3), ("coordinator_host", .str "h"), ("coordinator_port", .int 9)])) ∧
    (match (bootCourse cx 5 (.connecting ["b".toList]) (.connected (exReq 7) .queued :: [ConnEv.writeDone .none].map .wire)).2 with
      | .waiting c n => (match c.futs[n]? with | some [] => !c.closing | _ => false)
      | _ => false) = true := by
  refine ⟨by rfl, exReq_writable, exAnswer_reads cx 7, by krfl⟩

example (cx : Codec) :
    ((booted cx 5 exHosts [.connected (exReq 7) .queued, .wire (.deliver 7 exAnswer), .resumes]).1.map fun
      | .response x => some x.corr
      | _ => .none) = [.none, .none, .none, some 7] := by krfl

-- Non-vacuity of C147_none_partial.
example : exHosts.map parseHost = [("a".toList, 9092), ("b".toList, 9092)].map .ok := by rfl

-- Non-vacuity of C147_agrees_partial: the first host refuses, the second one answers.
example (cx : Codec) : ∃ answer : List Char × Int → Res Reply,
    (∃ x, answer ("b".toList, 9092) = .ok x) ∧
    ∀ s ∈ exHosts, ∀ h, parseHost s = .ok h → (if h.1 = "a".toList then some (Exc.other 0) else .none) = .none →
      ∃ n c, Conn.init.send (exReq 7) .queued = (.ok n, c) ∧
        (c.run cx 5 [.deliver 7 exAnswer]).reply n = some (answer h) := by
  have h : (match Conn.init.send (exReq 7) .queued with
    | (.ok n, c) => (match (c.run cx 5 [.deliver 7 exAnswer]).reply n with | some (.ok _) => true | _ => false)
    | _ => false) = true := by krfl
  split at h
  · rename_i n c hs
    split at h
    · rename_i x hx
      exact ⟨fun _ => .ok x, ⟨x, rfl⟩, fun _ _ _ _ _ => ⟨n, c, hs, hx⟩⟩
    · cases h
  · cases h

end Kiel
