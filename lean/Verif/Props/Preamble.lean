import Verif.Props.Exhaustion
/-
C04: whatever a request is made of.
-/
set_option autoImplicit false
namespace Kiel
open Spec

theorem pack_prefix {f1 f2 : List Fmt} {d1 d2 : List Val} {b1 p : Bytes}
    (h1 : pack f1 d1 = .ok b1) (h : pack (f1 ++ f2) (d1 ++ d2) = .ok p) :
    ∃ b2, p = b1 ++ b2 := by
  induction f1 generalizing d1 b1 p with
  | nil =>
    cases d1 with
    | nil => simp only [pack] at h1; cases h1; exact ⟨p, rfl⟩
    | cons _ _ => simp [pack] at h1
  | cons f fs ih =>
    cases d1 with
    | nil => simp [pack] at h1
    | cons v vs =>
      simp only [List.cons_append, pack] at h1 h
      split at h1
      · cases h1
      · rename_i b hb
        rw [hb] at h
        simp only at h
        split at h1
        · cases h1
        · rename_i bs hbs
          cases h1
          split at h
          · cases h
          · rename_i q hq
            obtain ⟨b2, rfl⟩ := ih hbs hq
            cases h
            exact ⟨b2, by simp⟩

theorem apiKeys_documented (api : String) (k : Int) (h : Dict.get? apiKeys api = some k) :
    apiKey api = some k ∧ Fits 2 k := by
  have h := Dict.mem_of_get? h
  simp only [apiKeys, List.mem_cons, List.not_mem_nil, or_false, Prod.mk.injEq] at h
  rcases h with ⟨rfl, rfl⟩ | ⟨rfl, rfl⟩ | ⟨rfl, rfl⟩ | ⟨rfl, rfl⟩ | ⟨rfl, rfl⟩ | ⟨rfl, rfl⟩ | ⟨rfl, rfl⟩ |
    ⟨rfl, rfl⟩ | ⟨rfl, rfl⟩ | ⟨rfl, rfl⟩ | ⟨rfl, rfl⟩ | ⟨rfl, rfl⟩ | ⟨rfl, rfl⟩ <;>
    exact ⟨rfl, by unfold Fits; norm_num⟩

/-- **C04** for everything that can be serialized at all: whatever the class, however it is declared, and
whatever the values, what `serialize()` returns begins with the documented preamble, which holds the id
that follows the last one. -/
theorem C04_preamble (lastId : Int) (c : Cls) (kw : List (String × Val)) (r : Req) (l : Int) (p : Bytes)
    (h : newRequest lastId c kw = (.ok r, l)) (hs : r.serialize = .ok p) :
    ∃ key own, apiKey c.api = some key ∧ Fits 4 (lastId + 1) ∧ l = lastId + 1 ∧
      p = preamble key (lastId + 1) ++ own := by
  have hc : Fits 4 r.correlationId := by
    by_contra hf
    obtain ⟨e, he⟩ := serialize_unfit lastId c kw r l h hf
    rw [he] at hs; cases hs
  unfold newRequest at h
  split at h
  · simp at h
  · rename_i kw' hkw
    split at h
    · simp at h
    · rename_i key hkey
      simp only [Prod.mk.injEq, Except.ok.injEq] at h
      obtain ⟨rfl, rfl⟩ := h
      obtain ⟨hk1, hk2⟩ := apiKeys_documented _ _ hkey
      generalize hat : Dict.set (Dict.set (Dict.set (Dict.set kw' "client_id" (.str clientId))
        "api_key" (.int key)) "api_version" (.int apiVersion)) "correlation_id"
        (.int (lastId + 1)) = attrs at *
      have a1 : attr (.part attrs) "correlation_id" = .int (lastId + 1) := by
        rw [← hat, attr_set_eq]
      have a2 : attr (.part attrs) "api_version" = .int apiVersion := by
        rw [← hat, attr_set_ne (by decide), attr_set_eq]
      have a3 : attr (.part attrs) "api_key" = .int key := by
        rw [← hat, attr_set_ne (by decide), attr_set_ne (by decide), attr_set_eq]
      have a4 : attr (.part attrs) "client_id" = .str clientId := by
        rw [← hat, attr_set_ne (by decide), attr_set_ne (by decide), attr_set_ne (by decide),
          attr_set_eq]
      have hpre : OkFields preambleParts (.part attrs) := by
        simp only [preambleParts, mkFields, OkFields, a1, a2, a3, a4, Ok, and_true]
        refine ⟨⟨_, rfl, hk2⟩, ⟨_, rfl, by unfold Fits apiVersion; norm_num⟩, ⟨_, rfl, hc⟩,
          Or.inr ⟨_, rfl, by decide +kernel⟩⟩
      have hw : wireFields preambleParts (.part attrs) = preamble key (lastId + 1) := by
        simp only [preambleParts, mkFields, wireFields, a1, a2, a3, a4, wire, intOf, preamble,
          apiVersion, List.append_nil, List.append_assoc]
        congr 3
      obtain ⟨pf, pd, h1, h2⟩ := renderFields_ok _ _ hpre
      simp only [Req.serialize, h1] at hs
      split at hs
      · cases hs
      · obtain ⟨own, rfl⟩ := pack_prefix h2 hs
        exact ⟨key, own, hk1, hc, rfl, by rw [hw]⟩

/-- **C04** as one would like it: every documented request class can be serialized so. -/
def Spec.AllRequestsWork : Prop :=
  ∀ d ∈ documented, d.isRequest = true → ∃ c ∈ Schema.requests, c.name = d.name ∧ RequestWorks c d

/-- **C04** is false: there is no serializing a heartbeat. -/
theorem C04_false : ¬ AllRequestsWork := by
  intro h
  obtain ⟨d, hd, hn, hr⟩ : ∃ d ∈ documented, d.name = "HeartbeatRequest" ∧ d.isRequest = true := by
    have : documented.any (fun d => d.name == "HeartbeatRequest" && d.isRequest) = true := by decide
    obtain ⟨d, h1, h2⟩ := List.any_eq_true.1 this
    simp only [Bool.and_eq_true, beq_iff_eq] at h2
    exact ⟨d, h1, h2⟩
  obtain ⟨c, hc, hcn, hw⟩ := h d hd hr
  rw [hn] at hcn
  have : c = Schema.heartbeatRequest := by
    simp only [Schema.requests, List.mem_cons, List.not_mem_nil, or_false] at hc
    rcases hc with rfl | rfl | rfl | rfl | rfl | rfl | rfl | rfl | rfl | rfl | rfl | rfl |
      rfl | rfl | rfl <;> first | rfl | (exfalso; revert hcn; decide)
  subst this
  obtain ⟨r, key, h1, _⟩ := hw [] 0 (by simp [Declared])
  rw [C05_false_heartbeat_request] at h1
  simp at h1

/-- A metadata request for no topics. -/
example : ∃ r p key own, newRequest 6 Schema.metadataRequest [("topics", .list [])] = (.ok r, 7) ∧
    r.serialize = .ok p ∧ apiKey "metadata" = some key ∧ p = preamble key 7 ++ own := by
  have h : ∃ r p, newRequest 6 Schema.metadataRequest [("topics", .list [])] = (.ok r, 7) ∧
      r.serialize = .ok p := ⟨_, [0, 3, 0, 0, 0, 0, 0, 7, 0, 4, 0x6b, 0x69, 0x65, 0x6c, 0, 0, 0, 0],
        rfl, by decide +kernel⟩
  obtain ⟨r, p, h1, h2⟩ := h
  obtain ⟨key, own, g1, _, _, g2⟩ := C04_preamble _ _ _ _ _ _ h1 h2
  exact ⟨r, p, key, own, h1, h2, g1, g2⟩

end Kiel
