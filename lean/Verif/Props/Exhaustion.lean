import Verif.Props.Requests
import Verif.Model.Connection
import Verif.Lemmas.Dict
/-
C95: what happens when the correlation ids no longer fit the wire.
-/
set_option autoImplicit false
namespace Kiel
open Spec

theorem pack_third {f1 f2 f3 : Fmt} {v1 v2 v3 : Val} {fs : List Fmt} {vs : List Val} {e : Exc}
    (h : packOne f3 v3 = .error e) :
    ∃ e', pack (f1 :: f2 :: f3 :: fs) (v1 :: v2 :: v3 :: vs) = .error e' := by
  simp only [pack, h]
  cases packOne f1 v1 with
  | error e => exact ⟨e, rfl⟩
  | ok b =>
    cases packOne f2 v2 with
    | error e => exact ⟨e, rfl⟩
    | ok b => exact ⟨e, rfl⟩

/-- A request whose correlation id does not fit cannot be serialized. -/
theorem serialize_unfit (lastId : Int) (c : Cls) (kw : List (String × Val)) (r : Req) (l : Int)
    (h : newRequest lastId c kw = (.ok r, l)) (hf : ¬ Fits 4 r.correlationId) :
    ∃ e, r.serialize = .error e := by
  unfold newRequest at h
  split at h
  · simp at h
  · split at h
    · simp at h
    · rename_i attrs _ k _
      simp only [Prod.mk.injEq, Except.ok.injEq] at h
      obtain ⟨rfl, rfl⟩ := h
      have he : packOne .i (.int (lastId + 1)) = .error .structError := packInt_err hf
      unfold Req.serialize
      split
      · exact ⟨_, rfl⟩
      · rename_i pf pd hr
        split
        · exact ⟨_, rfl⟩
        · simp only [preambleParts, mkFields, renderFields, render, getAttr, Dict.get?_set] at hr
          simp only [if_true, String.reduceEq, if_false] at hr
          cases hv : renderVar .h (.str clientId) with
          | error e => simp [hv] at hr
          | ok fd =>
            obtain ⟨f, d⟩ := fd
            simp only [hv, Except.ok.injEq, Prod.mk.injEq, List.cons_append, List.nil_append] at hr
            obtain ⟨rfl, rfl⟩ := hr
            exact pack_third he

/-- The ids of a process's requests are consecutive. -/
theorem create_ids (lastId : Int) (ops : List (Cls × List (String × Val))) (i : Nat) (r : Req)
    (h : (create lastId ops)[i]? = some r) : r.correlationId = lastId + 1 + i := by
  induction ops generalizing lastId i with
  | nil => simp [create] at h
  | cons op rest ih =>
    obtain ⟨c, kw⟩ := op
    rcases newRequest_cases lastId c kw with ⟨e, hn⟩ | ⟨r', hn, hr⟩
    · simp only [create, hn] at h
      exact ih lastId i h
    · simp only [create, hn] at h
      cases i with
      | zero =>
        simp only [List.getElem?_cons_zero, Option.some.injEq] at h
        subst h
        simp [hr]
      | succ i =>
        simp only [List.getElem?_cons_succ] at h
        have := ih (lastId + 1) i h
        push_cast
        omega

theorem create_unfit (lastId : Int) (ops : List (Cls × List (String × Val))) (r : Req)
    (h : r ∈ create lastId ops) (hf : ¬ Fits 4 r.correlationId) : ∃ e, r.serialize = .error e := by
  induction ops generalizing lastId with
  | nil => simp [create] at h
  | cons op rest ih =>
    obtain ⟨c, kw⟩ := op
    rcases newRequest_cases lastId c kw with ⟨e, hn⟩ | ⟨r', hn, _⟩
    · simp only [create, hn] at h
      exact ih lastId h
    · simp only [create, hn, List.mem_cons] at h
      rcases h with rfl | h
      · exact serialize_unfit lastId c kw r _ hn hf
      · exact ih _ h

/-- **C95**: once the counter has reached 2^31 - 1, no request of any kind can be serialized, ever
again: whatever requests the process goes on to create. -/
theorem C95_exhausted (lastId : Int) (h : 2 ^ 31 - 1 ≤ lastId)
    (ops : List (Cls × List (String × Val))) :
    ∀ r ∈ create lastId ops, ∃ e, r.serialize = .error e := by
  intro r hr
  refine create_unfit lastId ops r hr ?_
  have := ((C13_increasing lastId ops).2 r hr).1
  unfold Fits
  norm_num at h ⊢
  omega

/-- **C95**: such a request cannot be sent over any connection that is still open: `send` raises
and does nothing (so there is no future to fail, either). -/
theorem C95_send (lastId : Int) (h : 2 ^ 31 - 1 ≤ lastId) (ops : List (Cls × List (String × Val)))
    (c : Conn) (hc : c.closing = false) (w : Write) :
    ∀ r ∈ create lastId ops, ∃ e, c.send r w = (.error e, c) := by
  intro r hr
  obtain ⟨e, he⟩ := C95_exhausted lastId h ops r hr
  exact ⟨e, by simp [Conn.send, hc, he]⟩

/-- **C95**: a process sends at most 2^31 - 1 requests in its life, whatever the machine, its
process id and the requests. -/
theorem C95_limit (machine pid : Nat) (ops : List (Cls × List (String × Val))) (i : Nat) (r : Req)
    (hr : (create (seedId machine pid) ops)[i]? = some r) (b : Bytes) (hs : r.serialize = .ok b) :
    i < 2 ^ 31 - 1 := by
  refine Decidable.byContradiction fun hi => ?_
  have hid := create_ids _ ops i r hr
  obtain ⟨e, he⟩ := create_unfit _ ops r (List.mem_of_getElem? hr) (by
    unfold Fits
    norm_num at hi ⊢
    omega)
  rw [he] at hs
  simp at hs

/-- **C95**, partial: until the counter gets there, ids are no reason for a request to fail: the
first 2^31 - 1 - 2^24 requests of a process that are instances of documented classes with
arguments that fit are serialized. -/
theorem C95_first_partial (d : Doc) (hd : d ∈ documented) (hq : d.isRequest = true)
    (hb : d.name ∉ broken) : ∃ c ∈ Schema.requests, c.name = d.name ∧
    ∀ (machine pid : Nat) (before : List (Cls × List (String × Val))) (kw : List (String × Val)),
      before.length < 2 ^ 31 - 1 - 2 ^ 24 → Declared d.fields kw →
      OkFields (fieldsOf d.fields) (.part kw) →
      ∃ r, (create (seedId machine pid) (before ++ [(c, kw)])).getLast? = some r ∧
        ∃ b, r.serialize = .ok b := by
  obtain ⟨c, hc, hn, hw⟩ := C04_C05_requests_partial d hd hq hb
  refine ⟨c, hc, hn, fun machine pid before kw hlen hdec hok => ?_⟩
  have happ : ∀ (before : List (Cls × List (String × Val))) (lastId : Int),
      ∃ l, lastId ≤ l ∧ l ≤ lastId + before.length ∧
        create lastId (before ++ [(c, kw)]) = create lastId before ++ create l [(c, kw)] := by
    intro before
    induction before with
    | nil => intro l; exact ⟨l, by simp, by simp, by simp [create]⟩
    | cons op rest ih =>
      intro lastId
      obtain ⟨c', kw'⟩ := op
      rcases newRequest_cases lastId c' kw' with ⟨e, hn⟩ | ⟨r', hn, _⟩
      · obtain ⟨l, h1, h2, h3⟩ := ih lastId
        refine ⟨l, h1, by push_cast [List.length_cons]; omega, ?_⟩
        simp only [List.cons_append, create, hn]
        exact h3
      · obtain ⟨l, h1, h2, h3⟩ := ih (lastId + 1)
        refine ⟨l, by omega, by push_cast [List.length_cons]; omega, ?_⟩
        simp only [List.cons_append, create, hn, h3]
  obtain ⟨l, h1, h2, h3⟩ := happ before (seedId machine pid)
  obtain ⟨r, key, k1, _, _, _, k5⟩ := hw kw l hdec
  have hseed := C13_seed machine pid
  refine ⟨r, ?_, _, k5 hok ?_⟩
  · rw [h3]
    simp [create, k1]
  · unfold Fits
    norm_num at hlen hseed ⊢
    omega

/-- **C95**, false: a process whose counter has reached 2^31 - 1 (as every process that creates
enough requests does) cannot even ask for metadata. -/
theorem C95_false : ∃ r l e, newRequest (2 ^ 31 - 1) Schema.metadataRequest
    [("topics", .list [])] = (.ok r, l) ∧ r.serialize = .error e := by
  obtain ⟨c, hc, hn, hw⟩ := C04_C05_requests_partial _
    (List.mem_cons_self : _ ∈ documented) rfl (by decide)
  have hcm : c = Schema.metadataRequest := by
    simp only [Schema.requests, List.mem_cons, List.not_mem_nil, or_false] at hc
    rcases hc with rfl | rfl | rfl | rfl | rfl | rfl | rfl | rfl | rfl | rfl | rfl | rfl |
      rfl | rfl | rfl <;> first | rfl | (exfalso; revert hn; decide)
  subst hcm
  obtain ⟨r, key, h1, _, h2, _⟩ := hw [("topics", .list [])] (2 ^ 31 - 1)
    (by intro e he; simp at he; subst he; simp)
  obtain ⟨e, he⟩ := serialize_unfit _ _ _ _ _ h1 (by rw [h2]; unfold Fits; norm_num)
  exact ⟨r, _, e, h1, he⟩

/-- `C95_exhausted`, `C95_send` and `C95_limit` are about requests that exist. -/
example : (create (2 ^ 31 - 1) [(Schema.listGroupsRequest, []),
    (Schema.coordinatorRequest, [("group", .str "g")])]).map Req.correlationId =
      [2 ^ 31, 2 ^ 31 + 1] := by
  simp [create, newRequest, Schema.listGroupsRequest, mkCls, initPart,
    partNames, PartsItem.first, apiKeys, Dict.get?, Schema.coordinatorRequest]

/-- `C95_first_partial` is not vacuous: metadata requests for all topics. -/
example : ∃ d ∈ documented, d.isRequest = true ∧ d.name ∉ broken ∧
    Declared d.fields [("topics", .list [])] ∧
    OkFields (fieldsOf d.fields) (.part [("topics", .list [])]) := by
  refine ⟨_, (List.mem_cons_self : _ ∈ documented), rfl, by decide, ?_, ?_⟩
  · intro e he; simp at he; subst he; simp
  · simp [fieldsOf, OkFields, arr, Ok, attr, elems]

end Kiel
