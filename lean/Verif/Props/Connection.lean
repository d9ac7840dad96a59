import Verif.Spec.Connection
import Verif.Lemmas.Connection
import Verif.Lemmas.Struct
import Verif.Util.Krfl
import Verif.Props.Requests
import Mathlib.Data.List.Perm.Subperm
/-
C14-C18: connections.
-/
set_option autoImplicit false
namespace Kiel
open Spec

variable (cx : Codec) (depth : Nat)

theorem sends_eq (evs : List ConnEv) : sends evs = evs.flatMap evSends := by
  unfold sends
  congr 1

theorem openInv_of {evs : List ConnEv} (hd : Unambiguous cx depth evs)
    (ho : (Conn.init.run cx depth evs).closing = false) :
    OpenInv (Conn.init.run cx depth evs) := by
  exact openInv_run connInv_init cx depth evs hd (fun _ => openInv_init) ho

theorem inv_of (evs : List ConnEv) : ConnInv (Conn.init.run cx depth evs) :=
  connInv_run connInv_init cx depth evs

theorem run_snoc (c : Conn) (a : List ConnEv) (e : ConnEv) :
    c.run cx depth (a ++ [e]) = (c.run cx depth a).step cx depth e := by
  simp [Conn.run]

/-! ### What is written -/

/-- **C04**: sending a request on an open connection writes its length as a 32-bit integer
followed by the serialized request, once, and returns a new, pending future. -/
theorem C04_written (c : Conn) (r : Req) (p : Bytes) (ho : c.closing = false)
    (hs : r.serialize = .ok p) (hl : p.length < 2 ^ 31) :
    (c.send r .queued).1 = .ok c.futs.length ∧
    (c.send r .queued).2.written = c.written ++ [be 4 p.length ++ p] ∧
    Pending (c.send r .queued).2 c.futs.length := by
  simp [Conn.send, ho, hs, C04_frame p hl, Pending]

/-- **C04**: a request that cannot be serialized, or is too long, is refused with
an exception; nothing is written and the connection is as before. -/
theorem C04_refused (c : Conn) (r : Req) (w : Write) (ho : c.closing = false)
    (h : (∃ e, r.serialize = .error e) ∨ ∃ p, r.serialize = .ok p ∧ 2 ^ 31 ≤ p.length) :
    (∃ e, (c.send r w).1 = .error e) ∧ (c.send r w).2 = c := by
  rcases h with ⟨e, h⟩ | ⟨p, h, hl⟩
  · simp [Conn.send, ho, h]
  · simp [Conn.send, ho, h, C04_frame_refused p hl]

/-! ### The table of response classes -/

theorem parseFields_names (l : List (String × Ty)) (b : Bytes) (o : Nat)
    (kvs : List (String × Val)) (o' : Nat)
    (h : parseFields cx depth (fieldsOf l) b o = .ok (kvs, o')) :
    kvs.map (·.1) = l.map (·.1) := by
  induction l generalizing o kvs o' with
  | nil => simp only [fieldsOf, parseFields, Except.ok.injEq, Prod.mk.injEq] at h; simp [← h.1]
  | cons e r ih =>
    obtain ⟨n, t⟩ := e
    simp only [fieldsOf, parseFields] at h
    split at h
    · cases h
    · split at h
      · cases h
      · rename_i h2
        simp only [Except.ok.injEq, Prod.mk.injEq] at h
        rw [← h.1]
        simp [ih _ _ _ h2]

/-- Reading with a class whose `parts` are all pairs is reading the structure. -/
theorem deserialize_pairs (name api : String) (b : Bool) (l : List (String × Ty)) (p : Bytes) :
    (mkCls name api b l).deserialize cx depth p =
      (parse cx depth (struct l) p 0).map Prod.fst := by
  have hit : (mkCls name api b l).items = l.map (fun e => PartsItem.pair e.1 e.2) := rfl
  simp only [Cls.deserialize, hit, parseItemsOf_pairs, struct, parse]
  cases h : parseFields cx depth (fieldsOf l) p 0 with
  | error e => rfl
  | ok r =>
    obtain ⟨kvs, o⟩ := r
    have hn := parseFields_names cx depth l p 0 kvs o h
    have : Declared l kvs := by
      intro e he
      have : e.1 ∈ kvs.map (·.1) := List.mem_map_of_mem he
      rwa [hn] at this
    simp only [initPart_pairs l kvs this]
    rfl

theorem doc_mem (n : Nat) {d : Doc} (h : documented[n]? = some d) : d ∈ documented :=
  List.mem_of_getElem? h

/-- The answer to requests of an api is documented once. -/
theorem doc_unique {api : String} (d : Doc)
    (h : documented.filter (fun d => d.api == api && !d.isRequest) = [d]) :
    ∀ d' ∈ documented, d'.api = api → d'.isRequest = false → d' = d := by
  intro d' hm ha hr
  have : d' ∈ documented.filter (fun d => d.api == api && !d.isRequest) :=
    List.mem_filter.2 ⟨hm, by simp [ha, hr]⟩
  rw [h] at this
  simpa using this

theorem responseClasses_doc {api : String} {cls : Cls}
    (h : responseClasses.get? api = some cls) :
    api ∈ answeredApis ∧ ∃ d ∈ documented, d.api = api ∧ d.isRequest = false ∧
      (∀ d' ∈ documented, d'.api = api → d'.isRequest = false → d' = d) ∧
      cls = mkCls d.name d.api false d.fields := by
  have hm := Dict.mem_of_get? h
  simp only [responseClasses, List.mem_cons, List.not_mem_nil, or_false, Prod.mk.injEq] at hm
  rcases hm with ⟨rfl, rfl⟩ | ⟨rfl, rfl⟩ | ⟨rfl, rfl⟩ | ⟨rfl, rfl⟩ | ⟨rfl, rfl⟩ | ⟨rfl, rfl⟩ |
    ⟨rfl, rfl⟩
  · exact ⟨by decide, ⟨"MetadataResponse", _, false, _⟩, doc_mem 1 rfl, rfl, rfl,
      doc_unique _ rfl, rfl⟩
  · exact ⟨by decide, ⟨"ProduceResponse", _, false, _⟩, doc_mem 3 rfl, rfl, rfl,
      doc_unique _ rfl, rfl⟩
  · exact ⟨by decide, ⟨"FetchResponse", _, false, _⟩, doc_mem 5 rfl, rfl, rfl,
      doc_unique _ rfl, rfl⟩
  · exact ⟨by decide, ⟨"OffsetResponse", _, false, _⟩, doc_mem 7 rfl, rfl, rfl,
      doc_unique _ rfl, rfl⟩
  · exact ⟨by decide, ⟨"OffsetCommitResponse", _, false, _⟩, doc_mem 11 rfl, rfl, rfl,
      doc_unique _ rfl, rfl⟩
  · exact ⟨by decide, ⟨"OffsetFetchResponse", _, false, _⟩, doc_mem 13 rfl, rfl, rfl,
      doc_unique _ rfl, rfl⟩
  · exact ⟨by decide, ⟨"GroupCoordinatorResponse", _, false, _⟩, doc_mem 15 rfl, rfl, rfl,
      doc_unique _ rfl, rfl⟩

theorem responseClasses_none {api : String} :
    responseClasses.get? api = .none ↔ api ∉ answeredApis := by
  constructor
  · intro h hm
    simp only [answeredApis, List.mem_cons, List.not_mem_nil, or_false] at hm
    rcases hm with rfl | rfl | rfl | rfl | rfl | rfl | rfl <;> cases h
  · intro hm
    cases h : responseClasses.get? api with
    | none => rfl
    | some cls => exact absurd (responseClasses_doc h).1 hm

theorem answerReads_iff {api : String} {cls : Cls} (h : responseClasses.get? api = some cls)
    {p : Bytes} {r : Res Val} :
    AnswerReads cx depth api p r ↔ cls.deserialize cx depth p = r := by
  obtain ⟨h1, d, h2, h3, h4, h5, h6⟩ := responseClasses_doc h
  rw [h6, deserialize_pairs]
  constructor
  · rintro ⟨_, d', h7, h8, h9, h10⟩
    rw [← h5 d' h7 h8 h9]; exact h10
  · intro h7
    exact ⟨h1, d, h2, h3, h4, h7⟩

/-- `C14_correlation` in terms of the table of response classes. -/
theorem correlation_cls (evs : List ConnEv) (i : Nat) (fs : List Outcome) (k : Int) (v : Val)
    (hi : (Conn.init.run cx depth evs).futs[i]? = some fs) (hv : .result k v ∈ fs) :
    ∃ r cls p before after, evs = before ++ .deliver k p :: after ∧
      (Conn.init.run cx depth before).sent[i]? = some r ∧ r.correlationId = k ∧
      responseClasses.get? r.cls.api = some cls ∧ cls.deserialize cx depth p = .ok v := by
  induction evs using List.reverseRecOn generalizing fs with
  | nil => simp [Conn.run, Conn.init] at hi
  | append_singleton evs ev ih =>
    rw [run_snoc] at hi
    cases h0 : (Conn.init.run cx depth evs).futs[i]? with
    | none => exact absurd hv (step_new (inv_of cx depth evs) cx depth ev i h0 fs hi k v)
    | some fs0 =>
      obtain ⟨fs', h1, h2⟩ := step_change (inv_of cx depth evs) cx depth ev i fs0 h0
      rw [hi] at h1
      cases h1
      cases h2 with
      | same =>
        obtain ⟨r, cls, p, a, b, h3, h4⟩ := ih fs h0 hv
        exact ⟨r, cls, p, a, b ++ [ev], by simp [h3], h4⟩
      | fail e => simp at hv
      | answer k' p v' r cls h3 h4 h5 h6 h7 =>
        simp only [List.mem_singleton, Outcome.result.injEq] at hv
        obtain ⟨rfl, rfl⟩ := hv
        exact ⟨r, cls, p, evs, [], by rw [h3], h4, h5, h6, h7⟩

/-- **C14**: a future only ever has the result `v`, with correlation id `k`, if the request
for which it was returned has the correlation id `k` and, after that request was sent, a
frame with the correlation id `k` arrived which, by the documented layout of the answer to
that request, says `v`. -/
theorem C14_correlation (evs : List ConnEv) (i : Nat) (fs : List Outcome) (k : Int) (v : Val)
    (hi : (Conn.init.run cx depth evs).futs[i]? = some fs) (hv : .result k v ∈ fs) :
    ∃ r p before after, evs = before ++ .deliver k p :: after ∧
      (Conn.init.run cx depth before).sent[i]? = some r ∧ r.correlationId = k ∧
      AnswerReads cx depth r.cls.api p (.ok v) := by
  obtain ⟨r, cls, p, a, b, h1, h2, h3, h4, h5⟩ := correlation_cls cx depth evs i fs k v hi hv
  exact ⟨r, p, a, b, h1, h2, h3, (answerReads_iff cx depth h4).2 h5⟩

/-- `C14_answered` in terms of the table of response classes. -/
theorem answered_cls (evs : List ConnEv) (hd : Unambiguous cx depth evs) (i : Nat) (r : Req) (cls : Cls)
    (p : Bytes) (v : Val)
    (ho : (Conn.init.run cx depth evs).closing = false)
    (hp : Pending (Conn.init.run cx depth evs) i)
    (hr : (Conn.init.run cx depth evs).sent[i]? = some r)
    (hc : responseClasses.get? r.cls.api = some cls)
    (hv : cls.deserialize cx depth p = .ok v) :
    let c := Conn.init.run cx depth evs
    let c' := Conn.init.run cx depth (evs ++ [.deliver r.correlationId p])
    SettledAs c' i (.result r.correlationId v) ∧ (∀ j, j ≠ i → c'.futs[j]? = c.futs[j]?) ∧
      c'.closing = false := by
  intro c c'
  have hinv := inv_of cx depth evs
  obtain ⟨r', h1, h2, h3⟩ := (openInv_of cx depth hd ho).full i hp
  rw [hr] at h1; cases h1
  have h4 := Dict.get?_of_mem hinv.nodup h2
  have hc' : c' = (Conn.init.run cx depth evs).deliver cx depth r.correlationId p :=
    run_snoc _ _ _ _ _
  rw [hc']
  rcases deliver_cases cx depth (Conn.init.run cx depth evs) r.correlationId p with
    ⟨h5, _⟩ | ⟨_, h5, _⟩ | ⟨_, a, h5, ⟨e, h6, _⟩ | ⟨cls', v', j, h6, h7, h8, h9⟩⟩
  · rw [hinv.live ho] at h5; cases h5
  · rw [h3] at h5; cases h5
  · rw [h3] at h5; cases h5
    rcases h6 with ⟨h6, _⟩ | ⟨cls', h6, h7 | ⟨_, _, h7, _⟩⟩
    · rw [hc] at h6; cases h6
    · rw [hc] at h6; cases h6; rw [hv] at h7; cases h7
    · rw [h4] at h7; cases h7
  · rw [h3] at h5; cases h5
    rw [hc] at h6; cases h6
    rw [hv] at h7; cases h7
    rw [h4] at h8; cases h8
    rw [h9]
    refine ⟨?_, ?_, ho⟩
    · simp only [SettledAs, settle_getElem?, if_pos]
      unfold Pending at hp
      rw [hp]; rfl
    · intro j hj
      simp only [settle_getElem?, if_neg (Ne.symm hj), c]

/-- **C14**, the other direction: on an open connection, the answer to an outstanding request
settles its future with that answer, and no other future. -/
theorem C14_answered (evs : List ConnEv) (hd : Unambiguous cx depth evs) (i : Nat) (r : Req)
    (p : Bytes) (v : Val)
    (ho : (Conn.init.run cx depth evs).closing = false)
    (hp : Pending (Conn.init.run cx depth evs) i)
    (hr : (Conn.init.run cx depth evs).sent[i]? = some r)
    (hv : AnswerReads cx depth r.cls.api p (.ok v)) :
    let c := Conn.init.run cx depth evs
    let c' := Conn.init.run cx depth (evs ++ [.deliver r.correlationId p])
    SettledAs c' i (.result r.correlationId v) ∧ (∀ j, j ≠ i → c'.futs[j]? = c.futs[j]?) ∧
      c'.closing = false := by
  cases hc : responseClasses.get? r.cls.api with
  | none => exact absurd hv.1 (responseClasses_none.1 hc)
  | some cls =>
    exact answered_cls cx depth evs hd i r cls p v ho hp hr hc
      ((answerReads_iff cx depth hc).1 hv)

/-- **C15**: a settled future stays as it is, whatever happens afterwards. -/
theorem C15_once (before after : List ConnEv) (i : Nat) (o : Outcome) (os : List Outcome)
    (h : (Conn.init.run cx depth before).futs[i]? = some (o :: os)) :
    os = [] ∧ SettledAs (Conn.init.run cx depth (before ++ after)) i o := by
  have h1 := (inv_of cx depth before).once _ _ h
  have h2 : os = [] := by
    cases os with
    | nil => rfl
    | cons a b => simp at h1
  subst h2
  refine ⟨rfl, ?_⟩
  induction after using List.reverseRecOn with
  | nil => simpa [SettledAs] using h
  | append_singleton evs ev ih =>
    rw [← List.append_assoc, run_snoc]
    obtain ⟨fs', h3, h4⟩ := step_change (inv_of cx depth (before ++ evs)) cx depth ev i _ ih
    cases h4 with
    | same => exact h3

theorem abort_open {evs : List ConnEv} (hd : Unambiguous cx depth evs)
    (ho : (Conn.init.run cx depth evs).closing = false) (e : Option Exc) (i : Nat)
    (fs : List Outcome) (hi : ((Conn.init.run cx depth evs).abort e).futs[i]? = some fs) :
    fs.length = 1 ∧ (Pending (Conn.init.run cx depth evs) i →
      fs = [.exc (e.getD .brokerConnection)]) := by
  have hinv := inv_of cx depth evs
  have hopen := openInv_of cx depth hd ho
  generalize Conn.init.run cx depth evs = c at *
  have hlt : i < c.futs.length := by
    have := (List.getElem?_eq_some_iff.1 hi).1
    simpa [Conn.abort, ho, failAll_length] using this
  obtain ⟨fs0, h0⟩ : ∃ fs0, c.futs[i]? = some fs0 := ⟨_, List.getElem?_eq_getElem hlt⟩
  have h1 := hinv.once _ _ h0
  simp only [Conn.abort, ho, Bool.false_eq_true, if_false] at hi
  rw [failAll_getElem? _ _ _ hinv.vals_nodup] at hi
  cases fs0 with
  | nil =>
    obtain ⟨r, h2, h3, _⟩ := hopen.full i h0
    have hm : i ∈ c.pending.vals := List.mem_map.2 ⟨_, h3, rfl⟩
    rw [if_pos hm, h0] at hi
    simp at hi
    subst hi
    simp
  | cons o os =>
    have : os = [] := by
      cases os with
      | nil => rfl
      | cons a b => simp at h1
    subst this
    have hm : i ∉ c.pending.vals := by
      intro hm
      simp only [Dict.vals, List.mem_map] at hm
      obtain ⟨⟨k, i'⟩, hm, rfl⟩ := hm
      have := (hinv.entry _ _ hm).1
      rw [h0] at this; cases this
    rw [if_neg hm, h0] at hi
    cases hi
    simp [Pending, h0]

/-- **C16**: after `abort()` on an open connection no future is left pending and those that
were have `BrokerConnectionError`; whatever happens afterwards, the next `send` returns a
future that already has `BrokerConnectionError`, nothing more is ever written, and another
`abort()` changes nothing at all. -/
theorem C16_abort (evs : List ConnEv) (hd : Unambiguous cx depth evs)
    (ho : (Conn.init.run cx depth evs).closing = false) (later : List ConnEv) (r : Req)
    (w : Write) :
    let c := Conn.init.run cx depth evs
    let c' := Conn.init.run cx depth (evs ++ [.abort])
    let c'' := Conn.init.run cx depth (evs ++ .abort :: later)
    (∀ (i : Nat) (fs : List Outcome), c'.futs[i]? = some fs → fs.length = 1) ∧
    (∀ i, Pending c i → SettledAs c' i (.exc .brokerConnection)) ∧
    (∃ i, (c''.send r w).1 = .ok i ∧ SettledAs (c''.send r w).2 i (.exc .brokerConnection) ∧
      (c''.send r w).2.written = c.written) ∧
    c''.step cx depth .abort = c'' := by
  intro c c' c''
  have hc' : c' = c.abort .none := run_snoc _ _ _ _ _
  have hclosed : c'.closing = true := by rw [hc']; unfold Conn.abort; split <;> simp_all
  have hc'' : c'' = c'.run cx depth later := by
    show Conn.init.run cx depth (evs ++ .abort :: later) = _
    rw [show evs ++ ConnEv.abort :: later = (evs ++ [.abort]) ++ later by simp, run_append]
  have hclosed' : c''.closing = true := by rw [hc'']; exact run_closing cx depth hclosed later
  have hw : c''.written = c.written := by
    rw [hc'', run_written cx depth hclosed, hc']
    unfold Conn.abort; split <;> rfl
  refine ⟨?_, ?_, ?_, ?_⟩
  · intro i fs hi
    rw [hc'] at hi
    exact (abort_open cx depth hd ho _ i fs hi).1
  · intro i hp
    have hlt : i < c'.futs.length := by
      have h1 := (List.getElem?_eq_some_iff.1 hp).1
      rw [hc']
      unfold Conn.abort; split
      · exact h1
      · simpa [failAll_length] using h1
    have hi : c'.futs[i]? = some c'.futs[i] := List.getElem?_eq_getElem hlt
    rw [SettledAs, hi]
    congr 1
    exact (abort_open cx depth hd ho _ i _ (by rw [← hc']; exact hi)).2 hp
  · exact ⟨c''.futs.length, by simp [Conn.send, hclosed'], by
      simp [Conn.send, hclosed', SettledAs], by simp [Conn.send, hclosed', hw]⟩
  · simp [Conn.step, Conn.abort, hclosed']

theorem socketError_open {evs : List ConnEv} (hd : Unambiguous cx depth evs)
    (ho : (Conn.init.run cx depth evs).closing = false) {e : Exc} (he : e ≠ .streamClosed)
    {i : Nat} (hp : Pending (Conn.init.run cx depth evs) i) :
    ((Conn.init.run cx depth evs).socketError e).futs[i]? = some [.exc e] := by
  have hlt : i < ((Conn.init.run cx depth evs).socketError e).futs.length := by
    have h1 := (List.getElem?_eq_some_iff.1 hp).1
    simpa [Conn.socketError, if_neg he, Conn.abort, ho, failAll_length] using h1
  have hs : (Conn.init.run cx depth evs).socketError e =
      (Conn.init.run cx depth evs).abort (some e) := by simp [Conn.socketError, if_neg he]
  rw [hs] at hlt ⊢
  have hi := List.getElem?_eq_getElem hlt
  rw [hi]
  congr 1
  exact (abort_open cx depth hd ho _ i _ hi).2 hp

/-- C17 as stated: once the stream reports that the broker has closed it, no future stays
pending for ever. -/
def Spec.LossFailsPending : Prop :=
  ∀ (evs : List ConnEv), Unambiguous cx depth evs → (Conn.init.run cx depth evs).closing = false →
    ∀ i, Pending (Conn.init.run cx depth evs) i →
      ∃ later e, SettledAs
        (Conn.init.run cx depth (evs ++ .readError .streamClosed :: later)) i (.exc e)

/-- **C17** is false, and always: when the broker closes the stream, every future that is
pending stays pending, whatever happens afterwards (including `abort()` and `close()`). -/
theorem C17_hangs (evs later : List ConnEv)
    (ho : (Conn.init.run cx depth evs).closing = false) (i : Nat)
    (hp : Pending (Conn.init.run cx depth evs) i) :
    Pending (Conn.init.run cx depth (evs ++ .readError .streamClosed :: later)) i := by
  have hl := (inv_of cx depth evs).live ho
  have h1 : Conn.init.run cx depth (evs ++ .readError .streamClosed :: later) =
      ({ Conn.init.run cx depth evs with closing := true, reading := false } : Conn).run
        cx depth later := by
    rw [run_append]
    show ((Conn.init.run cx depth evs).step cx depth (.readError .streamClosed)).run
      cx depth later = _
    congr 1
    simp [Conn.step, Conn.readError, hl, Conn.socketError]
  rw [h1]
  obtain ⟨_, l, hl⟩ := frozen_run cx depth (c :=
    { Conn.init.run cx depth evs with closing := true, reading := false }) rfl rfl later
  rw [Pending, hl, List.getElem?_append_left (List.getElem?_eq_some_iff.1 hp).1]
  exact hp

/-- **C17**, the part that holds: any other failure while reading (a reset connection, say)
fails every outstanding request with that error. -/
theorem C17_loss_partial (evs : List ConnEv) (hd : Unambiguous cx depth evs)
    (ho : (Conn.init.run cx depth evs).closing = false) (e : Exc) (he : e ≠ .streamClosed)
    (i : Nat) (hp : Pending (Conn.init.run cx depth evs) i) :
    SettledAs (Conn.init.run cx depth (evs ++ [.readError e])) i (.exc e) ∧
    SettledAs (Conn.init.run cx depth (evs ++ [.writeDone (some e)])) i (.exc e) := by
  have hl := (inv_of cx depth evs).live ho
  rw [run_snoc, run_snoc]
  refine ⟨?_, socketError_open cx depth hd ho he hp⟩
  have := socketError_open cx depth hd ho he hp
  simpa [SettledAs, Conn.step, Conn.readError, hl] using this

/-- The error with which a frame with correlation id `k` and payload `p` cannot be
understood, given what is outstanding: nobody waits for `k`; or answers of that api are not
understood; or reading `p` with the documented layout of the answer fails. -/
inductive Spec.Unintelligible (c : Conn) (k : Int) (p : Bytes) : Exc → Prop
  | unknown : (∀ (i : Nat) (r : Req), Pending c i → c.sent[i]? = some r →
      r.correlationId ≠ k) → Unintelligible c k p .keyError
  | noClass (i : Nat) (r : Req) : Pending c i → c.sent[i]? = some r → r.correlationId = k →
      r.cls.api ∉ answeredApis → Unintelligible c k p .keyError
  | garbled (i : Nat) (r : Req) (e : Exc) : Pending c i → c.sent[i]? = some r →
      r.correlationId = k → AnswerReads cx depth r.cls.api p (.error e) →
      Unintelligible c k p e

/-- The same in terms of the table of response classes. -/
inductive UnintelCls (c : Conn) (k : Int) (p : Bytes) : Exc → Prop
  | unknown : (∀ (i : Nat) (r : Req), Pending c i → c.sent[i]? = some r →
      r.correlationId ≠ k) → UnintelCls c k p .keyError
  | noClass (i : Nat) (r : Req) : Pending c i → c.sent[i]? = some r → r.correlationId = k →
      responseClasses.get? r.cls.api = .none → UnintelCls c k p .keyError
  | garbled (i : Nat) (r : Req) (cls : Cls) (e : Exc) : Pending c i → c.sent[i]? = some r →
      r.correlationId = k → responseClasses.get? r.cls.api = some cls →
      cls.deserialize cx depth p = .error e → UnintelCls c k p e

theorem unintelCls_of {c : Conn} {k : Int} {p : Bytes} {e : Exc}
    (h : Unintelligible cx depth c k p e) : UnintelCls cx depth c k p e := by
  cases h with
  | unknown h1 => exact .unknown h1
  | noClass i r h1 h2 h3 h4 => exact .noClass i r h1 h2 h3 (responseClasses_none.2 h4)
  | garbled i r _ h1 h2 h3 h4 =>
    cases hc : responseClasses.get? r.cls.api with
    | none => exact absurd h4.1 (responseClasses_none.1 hc)
    | some cls => exact .garbled i r cls e h1 h2 h3 hc ((answerReads_iff cx depth hc).1 h4)

/-- **C18**: on an open connection such a frame closes the connection and fails every
outstanding request with that error.  (`he`: the decompressors do not raise Tornado's
`StreamClosedError`.) -/
theorem C18_unintelligible (evs : List ConnEv) (hd : Unambiguous cx depth evs)
    (ho : (Conn.init.run cx depth evs).closing = false) (k : Int) (p : Bytes) (e : Exc)
    (he : e ≠ .streamClosed)
    (hu : Unintelligible cx depth (Conn.init.run cx depth evs) k p e) :
    let c := Conn.init.run cx depth evs
    let c' := Conn.init.run cx depth (evs ++ [.deliver k p])
    c'.closing = true ∧ ∀ i, Pending c i → SettledAs c' i (.exc e) := by
  intro c c'
  replace hu := unintelCls_of cx depth hu
  have hinv := inv_of cx depth evs
  have hopen := openInv_of cx depth hd ho
  have hl := hinv.live ho
  have hc' : c' = c.deliver cx depth k p := run_snoc _ _ _ _ _
  rw [hc']
  have key : c.deliver cx depth k p =
      (let c1 := c.socketError e; { c1 with reading := !c1.closing }) ∨
      c.deliver cx depth k p =
      (let c1 := Conn.socketError { c with apiCorr := c.apiCorr.erase k } e
       { c1 with reading := !c1.closing }) := by
    rcases deliver_cases cx depth c k p with
      ⟨h5, _⟩ | ⟨_, h5, h6⟩ | ⟨_, a, h5, ⟨e', h6, h7⟩ | ⟨cls', v', j, h6, h7, h8, h9⟩⟩
    · rw [hl] at h5; cases h5
    · left
      cases hu with
      | unknown => exact h6
      | noClass i r h1 h2 h3 h4 => exact h6
      | garbled i r cls _ h1 h2 h3 h4 h4' =>
        obtain ⟨r', h8, _, h9⟩ := hopen.full i h1
        rw [h2] at h8; cases h8
        rw [h3] at h9
        rw [h5] at h9; cases h9
    · right
      have : e' = e := by
        cases hu with
        | unknown hun =>
          obtain ⟨i, hi⟩ := hopen.apis k a h5
          obtain ⟨h8, r, h9, h10, _⟩ := hinv.entry _ _ hi
          exact absurd h10 (hun i r h8 h9)
        | noClass i r h1 h2 h3 h4 =>
          obtain ⟨r', h8, _, h9⟩ := hopen.full i h1
          rw [h2] at h8; cases h8
          rw [h3] at h9
          rw [h5] at h9; cases h9
          rcases h6 with ⟨_, h6⟩ | ⟨cls, h6, _⟩
          · exact h6
          · rw [h4] at h6; cases h6
        | garbled i r cls _ h1 h2 h3 h4 h4' =>
          obtain ⟨r', h8, hm, h9⟩ := hopen.full i h1
          rw [h2] at h8; cases h8
          rw [h3] at h9
          rw [h5] at h9; cases h9
          rcases h6 with ⟨h6, _⟩ | ⟨cls', h6, h10 | ⟨v, h10, _⟩⟩
          · rw [h4] at h6; cases h6
          · rw [h4] at h6; cases h6
            rw [h4'] at h10; cases h10; rfl
          · rw [h4] at h6; cases h6
            rw [h4'] at h10; cases h10
      rw [← this]; exact h7
    · exfalso
      obtain ⟨i, hi⟩ := hopen.apis k a h5
      obtain ⟨g1, r, g2, g3, g4⟩ := hinv.entry _ _ hi
      have ha := g4 a h5
      cases hu with
      | unknown hun => exact hun i r g1 g2 g3
      | noClass i' r' h1 h2 h3 h4 =>
        obtain ⟨r'', g5, g6, g7⟩ := hopen.full i' h1
        rw [h2] at g5; cases g5
        rw [h3] at g7
        rw [h5] at g7; cases g7
        rw [h4] at h6; cases h6
      | garbled i' r' cls _ h1 h2 h3 h4 h4' =>
        obtain ⟨r'', g5, g6, g7⟩ := hopen.full i' h1
        rw [h2] at g5; cases g5
        rw [h3] at g7
        rw [h5] at g7; cases g7
        rw [h4] at h6; cases h6
        rw [h4'] at h7; cases h7
  have base : ∀ i, Pending c i → (c.socketError e).futs[i]? = some [.exc e] :=
    fun i hp => socketError_open cx depth hd ho he hp
  have same : (Conn.socketError { c with apiCorr := c.apiCorr.erase k } e).futs =
      (c.socketError e).futs := by
    simp [Conn.socketError, if_neg he, Conn.abort, ho, c]
  rcases key with h | h
  · rw [h]; exact ⟨socketError_closing _ _, base⟩
  · rw [h]
    refine ⟨socketError_closing _ _, fun i hp => ?_⟩
    simp only [SettledAs]
    rw [same]; exact base i hp


/-! ### Frames -/

theorem unpackInt_append {n : Nat} {a : Bytes} {off : Nat} {v : Int}
    (h : unpackInt n a off = .ok v) (b : Bytes) : unpackInt n (a ++ b) off = .ok v := by
  unfold unpackInt at h ⊢
  split at h
  · rename_i hl
    rw [if_pos (by simp; omega), List.drop_append_of_le_length (by omega),
      List.take_append_of_le_length (by simp; omega)]
    exact h
  · cases h

theorem unpackBytes_append {n : Nat} {a : Bytes} {off : Nat} {v : Bytes}
    (h : unpackBytes n a off = .ok v) (b : Bytes) : unpackBytes n (a ++ b) off = .ok v := by
  unfold unpackBytes at h ⊢
  split at h
  · rename_i hl
    rw [if_pos (by simp; omega), List.drop_append_of_le_length (by omega),
      List.take_append_of_le_length (by simp; omega)]
    exact h
  · cases h

theorem readFrame_append {a : Bytes} {k : Int} {p rest : Bytes}
    (h : readFrame a = some (k, p, rest)) (b : Bytes) :
    readFrame (a ++ b) = some (k, p, rest ++ b) ∧ rest.length + 8 ≤ a.length := by
  unfold readFrame at h
  split at h
  · cases h
  · rename_i size h1
    split at h
    · cases h
    · rename_i k' h2
      split at h
      · cases h
      · rename_i h3
        split at h
        · cases h
        · rename_i p' h4
          simp only [Option.some.injEq, Prod.mk.injEq] at h
          obtain ⟨rfl, rfl, rfl⟩ := h
          have hl : 8 + (size - 4).toNat ≤ a.length := by
            unfold unpackBytes at h4
            split at h4
            · assumption
            · cases h4
          refine ⟨?_, by simp; omega⟩
          simp only [readFrame, unpackInt_append h1 b, unpackInt_append h2 b, if_neg h3,
            unpackBytes_append h4 b]
          rw [List.drop_append_of_le_length hl]

theorem readFrames_fuel (n m : Nat) (a : Bytes) (hn : a.length ≤ n) (hm : a.length ≤ m) :
    readFrames n a = readFrames m a := by
  induction n generalizing m a with
  | zero =>
    have : a = [] := List.length_eq_zero_iff.1 (by omega)
    subst this
    cases m with
    | zero => rfl
    | succ m => rfl
  | succ n ih =>
    cases m with
    | zero =>
      have : a = [] := List.length_eq_zero_iff.1 (by omega)
      subst this
      rfl
    | succ m =>
      unfold readFrames
      split
      · rfl
      · rename_i k p rest h
        have := (readFrame_append h []).2
        rw [ih m rest (by omega) (by omega)]

/-- The frames at the start of some input: `readFrames` with enough fuel. -/
def framesOf (input : Bytes) : List (Int × Bytes) × Bytes := readFrames input.length input

theorem framesOf_unfold (a : Bytes) : framesOf a =
    match readFrame a with
    | .none => ([], a)
    | some (k, p, rest) => ((k, p) :: (framesOf rest).1, (framesOf rest).2) := by
  have h : framesOf a = readFrames (a.length + 1) a :=
    readFrames_fuel _ _ _ (Nat.le_refl _) (Nat.le_succ _)
  rw [h, readFrames]
  cases h1 : readFrame a with
  | none => rfl
  | some x =>
    obtain ⟨k, p, rest⟩ := x
    have := (readFrame_append h1 []).2
    simp only
    rw [show readFrames a.length rest = framesOf rest from
      readFrames_fuel _ _ _ (by omega) (Nat.le_refl _)]

/-- **C14**, framing: the way the input is cut into pieces does not matter: reading `a`, and
later what was left of it followed by `b`, gives the frames of `a ++ b`. -/
theorem C14_chunks (a b : Bytes) :
    framesOf (a ++ b) =
      ((framesOf a).1 ++ (framesOf ((framesOf a).2 ++ b)).1, (framesOf ((framesOf a).2 ++ b)).2) := by
  induction hn : a.length using Nat.strong_induction_on generalizing a with
  | _ n ih =>
    rw [framesOf_unfold a]
    cases h : readFrame a with
    | none => simp
    | some x =>
      obtain ⟨k, p, rest⟩ := x
      obtain ⟨h1, h2⟩ := readFrame_append h b
      rw [framesOf_unfold (a ++ b), h1]
      simp only
      rw [ih rest.length (by omega) rest rfl]
      simp

/-- A whole frame at the start of the input is read. -/
theorem readFrame_frame (f : Int × Bytes) (h1 : Fits 4 f.1) (h2 : 4 + f.2.length < 2 ^ 31)
    (tl : Bytes) : readFrame (responseFrame f ++ tl) = some (f.1, f.2, tl) := by
  have hsz : Fits 4 (4 + (f.2.length : Int)) := by
    unfold Fits; norm_num at h2 ⊢; omega
  simp only [List.append_assoc, responseFrame]
  unfold readFrame
  have e1 := unpackInt_be (n := 4) (by omega) hsz [] (be 4 f.1 ++ (f.2 ++ tl))
  have e2 := unpackInt_be (n := 4) (by omega) h1 (be 4 (4 + f.2.length)) (f.2 ++ tl)
  rw [be_length] at e2
  simp only [List.nil_append, List.length_nil] at e1
  rw [e1]
  simp only
  rw [e2]
  simp only
  rw [if_neg (by omega)]
  have e3 : (4 + (f.2.length : Int) - 4).toNat = f.2.length := by omega
  rw [e3]
  have e4 := unpackBytes_mid (be 4 (4 + f.2.length) ++ be 4 f.1) f.2 tl
  simp only [List.length_append, be_length, List.append_assoc] at e4
  rw [e4]
  simp only [Option.some.injEq, Prod.mk.injEq, true_and]
  have : (be 4 (4 + (f.2.length : Int)) ++ (be 4 f.1 ++ (f.2 ++ tl))) =
      (be 4 (4 + (f.2.length : Int)) ++ be 4 f.1 ++ f.2) ++ tl := by simp
  rw [this, List.drop_left' (by simp [be_length]; omega)]

/-- **C14**, framing: every sequence of frames that the broker sends is read back, with the
right correlation ids and payloads; so is the incomplete rest. -/
theorem C14_frames (fs : List (Int × Bytes)) (rest : Bytes)
    (hf : ∀ f ∈ fs, Fits 4 f.1 ∧ 4 + f.2.length < 2 ^ 31) (hr : rest.length < 4) :
    framesOf ((fs.map responseFrame).flatten ++ rest) = (fs, rest) := by
  induction fs with
  | nil =>
    rw [framesOf_unfold]
    have : readFrame rest = .none := by
      unfold readFrame unpackInt
      rw [if_neg (by omega)]
    simp [this]
  | cons f fs ih =>
    obtain ⟨h1, h2⟩ := hf f (by simp)
    rw [framesOf_unfold, List.map_cons, List.flatten_cons, List.append_assoc,
      readFrame_frame f h1 h2]
    simp only
    rw [ih (fun g hg => hf g (by simp [hg]))]

theorem pairwise_lt_inj {l : List Req}
    (h : l.Pairwise (fun a b => a.correlationId < b.correlationId)) {a b : Req} (ha : a ∈ l) (hb : b ∈ l) (he : a.correlationId = b.correlationId) : a = b := by
  induction l with
  | nil => cases ha
  | cons x r ih =>
    rw [List.pairwise_cons] at h
    rcases List.mem_cons.1 ha with h1 | h1 <;> rcases List.mem_cons.1 hb with h2 | h2
    · rw [h1, h2]
    · have := h.1 _ h2; rw [h1] at he; omega
    · have := h.1 _ h1; rw [h2] at he; omega
    · exact ih h.2 h1 h2

theorem sent_sends (evs : List ConnEv) :
    ∀ r ∈ (Conn.init.run cx depth evs).sent, r ∈ sends evs := by
  induction evs using List.reverseRecOn with
  | nil => simp [Conn.run, Conn.init]
  | append_singleton evs ev ih =>
    intro r hr
    rw [run_snoc] at hr
    rw [sends_eq, List.flatMap_append, ← sends_eq]
    rcases step_sent cx depth (Conn.init.run cx depth evs) ev with h | h <;> rw [h] at hr
    · exact List.mem_append_left _ (ih r hr)
    · rcases List.mem_append.1 hr with hr | hr
      · exact List.mem_append_left _ (ih r hr)
      · exact List.mem_append_right _ (by simpa using hr)

/-- Requests made by one process, in any order and any number of times, are unambiguous if
none is sent again while it is outstanding. -/
theorem unambiguous_of_created (lastId : Int) (ops : List (Cls × List (String × Val)))
    (evs : List ConnEv) (h : ∀ r ∈ sends evs, r ∈ create lastId ops)
    (hs : ∀ before r w after, evs = before ++ .send r w :: after → ∀ i,
      Pending (Conn.init.run cx depth before) i →
      (Conn.init.run cx depth before).sent[i]? ≠ some r) : Unambiguous cx depth evs := by
  intro before r w after he i r' hp hr' hk
  have hm : r ∈ create lastId ops := h r (by simp [he, sends])
  have hm' : r' ∈ create lastId ops := by
    refine h r' ?_
    have := sent_sends cx depth before r' (List.mem_of_getElem? hr')
    rw [he, sends_eq, List.flatMap_append, ← sends_eq]
    exact List.mem_append_left _ this
  have h1 := (C13_increasing lastId ops).1
  have : r' = r := by
    rw [List.pairwise_map] at h1
    exact pairwise_lt_inj h1 hm' hm hk
  rw [this] at hr'
  exact hs before r w after he i hp hr'

/-! ### Examples -/

/-- Two requests for the coordinator of a group, and one whose answer the connection does
not know. -/
def exReq (k : Int) : Req := ⟨Schema.coordinatorRequest,
  [("group", .str "g"), ("client_id", .str clientId), ("api_key", .int 10),
   ("api_version", .int 0), ("correlation_id", .int k)], k⟩
def exOdd (k : Int) : Req := ⟨Schema.listGroupsRequest,
  [("client_id", .str clientId), ("api_key", .int 16),
   ("api_version", .int 0), ("correlation_id", .int k)], k⟩

/-- Error code 0, broker 3 at "h", port 9. -/
def exAnswer : Bytes := [0, 0, 0, 0, 0, 3, 0, 1, 104, 0, 0, 0, 9]

def exSent : List ConnEv := [.send (exReq 7) .queued, .send (exReq 8) .queued]

theorem exSent_unambiguous (cx : Codec) (depth : Nat) : Unambiguous cx depth exSent := by
  intro before r w after he i r' hp hr'
  match before, he with
  | [], _ => simp [Conn.run, Conn.init] at hr'
  | [e], he =>
    simp only [exSent, List.cons_append, List.nil_append, List.cons.injEq, ConnEv.send.injEq]
      at he
    obtain ⟨rfl, ⟨rfl, _⟩, _⟩ := he
    have h1 := sent_sends cx depth [.send (exReq 7) .queued] r' (List.mem_of_getElem? hr')
    simp only [sends, List.flatMap_cons, List.flatMap_nil, List.append_nil,
      List.mem_singleton] at h1
    subst h1
    decide
  | _ :: _ :: before, he => simp [exSent] at he

-- Non-vacuity of C14: answers in the other order, then a third request and `abort()`.
example (cx : Codec) :
    (Conn.init.run cx 5 (exSent ++ [.deliver 8 exAnswer, .deliver 7 exAnswer,
      .send (exReq 9) .queued, .abort])).futs =
    [[.result 7 (.part [("error_code", .int 0), ("coordinator_id", .int 3),
        ("coordinator_host", .str "h"), ("coordinator_port", .int 9)])],
     [.result 8 (.part [("error_code", .int 0), ("coordinator_id", .int 3),
        ("coordinator_host", .str "h"), ("coordinator_port", .int 9)])],
     [.exc .brokerConnection]] := by krfl

-- A request object may be sent again once it was answered (as determine_coordinator does).
example (cx : Codec) : Unambiguous cx 5 [.send (exReq 7) .queued, .deliver 7 exAnswer,
    .send (exReq 7) .queued] := by
  intro before r w after he i r' hp hr'
  match before, he with
  | [], _ => simp [Conn.run, Conn.init] at hr'
  | [e], he => simp at he
  | [e, f], he =>
    simp only [List.cons_append, List.nil_append, List.cons.injEq] at he
    obtain ⟨rfl, rfl, _⟩ := he
    exfalso
    have h1 : (Conn.init.run cx 5 [.send (exReq 7) .queued, .deliver 7 exAnswer]).futs =
      [[.result 7 (.part [("error_code", .int 0), ("coordinator_id", .int 3),
        ("coordinator_host", .str "h"), ("coordinator_port", .int 9)])]] := by krfl
    rw [Pending, h1] at hp
    cases i with
    | zero => simp at hp
    | succ i => simp at hp
  | _ :: _ :: _ :: before, he => simp at he

-- Non-vacuity of C14_answered, C16, C17, C18: two outstanding requests on an open connection.
theorem exSent_open (cx : Codec) : (Conn.init.run cx 5 exSent).closing = false := by krfl
theorem exSent_pending (cx : Codec) : Pending (Conn.init.run cx 5 exSent) 1 := by
  unfold Pending; krfl
example (cx : Codec) : Unintelligible cx 5 (Conn.init.run cx 5 exSent) 8 [0] .structError :=
  .garbled 1 (exReq 8) _ (exSent_pending cx)
    (by krfl) rfl ⟨by decide +kernel, _, doc_mem 15 rfl, rfl, rfl, by krfl⟩
example (cx : Codec) : AnswerReads cx 5 (exReq 8).cls.api exAnswer (.ok (.part
    [("error_code", .int 0), ("coordinator_id", .int 3), ("coordinator_host", .str "h"),
     ("coordinator_port", .int 9)])) :=
  ⟨by decide +kernel, _, doc_mem 15 rfl, rfl, rfl, by krfl⟩
example (cx : Codec) : Unintelligible cx 5 (Conn.init.run cx 5 [.send (exOdd 4) .queued]) 4 []
    .keyError :=
  .noClass 0 (exOdd 4) (by unfold Pending; krfl) (by krfl) rfl
    (by decide +kernel)
example : framesOf [0, 0, 0, 6, 0, 0, 0, 9, 1, 2, 0, 0] = ([(9, [1, 2])], [0, 0]) := by
  decide +kernel

/-- **C17** is false. -/
theorem C17_false : ¬ LossFailsPending cx 5 := by
  intro h
  obtain ⟨later, e, h1⟩ := h exSent (exSent_unambiguous cx 5) (exSent_open cx) 1 (exSent_pending cx)
  have h2 := C17_hangs cx 5 exSent later (exSent_open cx) 1 (exSent_pending cx)
  unfold SettledAs at h1
  unfold Pending at h2
  rw [h1] at h2
  cases h2

end Kiel
