import Verif.Model.Schemas
import Verif.Spec.Schemas
import Verif.Lemmas.Wire
/- Classes with well-formed `parts`. -/
namespace Kiel
open Spec

theorem fieldsOf_eq (l : List (String × Ty)) : mkFields l = fieldsOf l := by
  induction l with
  | nil => rfl
  | cons e r ih => obtain ⟨n, t⟩ := e; simp [mkFields, fieldsOf, ih]

theorem partNames_pairs (l : List (String × Ty)) :
    partNames (l.map (fun e => PartsItem.pair e.1 e.2)) = .ok (l.map (·.1)) := by
  induction l with
  | nil => rfl
  | cons e r ih => simp [partNames, PartsItem.first, ih]

theorem initPart_pairs (l : List (String × Ty)) (kw : List (String × Val))
    (h : Declared l kw) :
    initPart (l.map (fun e => PartsItem.pair e.1 e.2)) kw = .ok kw := by
  unfold initPart
  rw [partNames_pairs]
  simp only
  rw [if_pos]
  simp only [List.all_eq_true, List.contains_eq_mem, decide_eq_true_eq]
  exact h

theorem renderItems_pairs (l : List (String × Ty)) (kw : List (String × Val)) :
    renderItems (l.map (fun e => PartsItem.pair e.1 e.2)) kw = renderFields (fieldsOf l) kw := by
  induction l with
  | nil => rfl
  | cons e r ih =>
    obtain ⟨n, t⟩ := e
    simp only [List.map_cons, renderItems, PartsItem.unpack, fieldsOf, renderFields, ih]
    rfl

theorem parseItemsOf_pairs (cx : Codec) (depth : Nat) (l : List (String × Ty)) (b : Bytes)
    (o : Nat) :
    parseItemsOf cx depth (l.map (fun e => PartsItem.pair e.1 e.2)) b o =
      parseFields cx depth (fieldsOf l) b o := by
  induction l generalizing o with
  | nil => rfl
  | cons e r ih =>
    obtain ⟨n, t⟩ := e
    simp only [List.map_cons, parseItemsOf, PartsItem.unpack, fieldsOf, parseFields, ih]
    rfl

theorem attr_set_ne {kvs : List (String × Val)} {a b : String} {v : Val} (h : a ≠ b) :
    attr (.part (Dict.set kvs a v)) b = attr (.part kvs) b := by
  induction kvs with
  | nil => simp [Dict.set, attr, h]
  | cons e r ih =>
    obtain ⟨k, w⟩ := e
    simp only [Dict.set]
    by_cases hk : k = a
    · subst hk; simp [attr, h]
    · simp only [hk, if_false]
      simp only [attr, List.find?] at ih ⊢
      by_cases hb : k = b
      · simp [hb]
      · simp only [beq_eq_false_iff_ne.mpr hb]; exact ih

theorem attr_set_eq {kvs : List (String × Val)} {a : String} {v : Val} :
    attr (.part (Dict.set kvs a v)) a = v := by
  induction kvs with
  | nil => simp [Dict.set, attr]
  | cons e r ih =>
    obtain ⟨k, w⟩ := e
    simp only [Dict.set]
    by_cases hk : k = a
    · subst hk; simp [attr]
    · simp only [hk, if_false]
      simp only [attr, List.find?, beq_eq_false_iff_ne.mpr hk] at ih ⊢; exact ih

theorem OkFields_congr {l : List (String × Ty)} {v w : Val}
    (h : ∀ n ∈ l.map (·.1), attr v n = attr w n) (ho : OkFields (fieldsOf l) v) :
    OkFields (fieldsOf l) w := by
  induction l with
  | nil => simp [fieldsOf, OkFields]
  | cons e r ih =>
    obtain ⟨n, t⟩ := e
    simp only [fieldsOf, OkFields] at ho ⊢
    exact ⟨h n (by simp) ▸ ho.1, ih (fun m hm => h m (by simp at hm ⊢; exact Or.inr hm)) ho.2⟩

theorem wireFields_congr {l : List (String × Ty)} {v w : Val}
    (h : ∀ n ∈ l.map (·.1), attr v n = attr w n) :
    wireFields (fieldsOf l) v = wireFields (fieldsOf l) w := by
  induction l with
  | nil => simp [fieldsOf, wireFields]
  | cons e r ih =>
    obtain ⟨n, t⟩ := e
    simp only [fieldsOf, wireFields]
    rw [h n (by simp), ih (fun m hm => h m (by simp at hm ⊢; exact Or.inr hm))]

/-- Construction and serialization of a request whose `parts` are well-formed. -/
theorem request_ok (name api : String) (l : List (String × Ty)) (key : Int)
    (hkey : Dict.get? apiKeys api = some key) (hkf : Fits 2 key)
    (hn : ∀ n ∈ l.map (·.1), n ∉ ["client_id", "api_key", "api_version", "correlation_id"])
    (kw : List (String × Val)) (hd : Declared l kw) (lastId : Int) :
    ∃ r, newRequest lastId (mkCls name api true l) kw = (.ok r, lastId + 1) ∧
      r.correlationId = lastId + 1 ∧ r.cls.api = api ∧
      (OkFields (fieldsOf l) (.part kw) → Fits 4 (lastId + 1) →
        r.serialize = .ok (preamble key (lastId + 1) ++ wireFields (fieldsOf l) (.part kw))) := by
  have hi := initPart_pairs l kw hd
  have hit : (mkCls name api true l).items = l.map (fun e => PartsItem.pair e.1 e.2) := rfl
  have hapi : (mkCls name api true l).api = api := rfl
  refine ⟨⟨mkCls name api true l, Dict.set (Dict.set (Dict.set (Dict.set kw "client_id"
    (.str clientId)) "api_key" (.int key)) "api_version" (.int apiVersion)) "correlation_id"
    (.int (lastId + 1)), lastId + 1⟩,
    by simp only [newRequest, hit, hi, hapi, hkey], rfl, rfl, ?_⟩
  intro ho hc
  generalize hat : Dict.set (Dict.set (Dict.set (Dict.set kw "client_id" (.str clientId))
    "api_key" (.int key)) "api_version" (.int apiVersion)) "correlation_id"
    (.int (lastId + 1)) = attrs
  have ha : ∀ n ∈ l.map (·.1), attr (.part kw) n = attr (.part attrs) n := by
    intro n hm
    have := hn n hm
    simp only [List.mem_cons, List.not_mem_nil, or_false, not_or] at this
    rw [← hat, attr_set_ne (Ne.symm this.2.2.2), attr_set_ne (Ne.symm this.2.2.1),
      attr_set_ne (Ne.symm this.2.1), attr_set_ne (Ne.symm this.1)]
  have a1 : attr (.part attrs) "correlation_id" = .int (lastId + 1) := by
    rw [← hat, attr_set_eq]
  have a2 : attr (.part attrs) "api_version" = .int apiVersion := by
    rw [← hat, attr_set_ne (by decide), attr_set_eq]
  have a3 : attr (.part attrs) "api_key" = .int key := by
    rw [← hat, attr_set_ne (by decide), attr_set_ne (by decide), attr_set_eq]
  have a4 : attr (.part attrs) "client_id" = .str clientId := by
    rw [← hat, attr_set_ne (by decide), attr_set_ne (by decide), attr_set_ne (by decide),
      attr_set_eq]
  have hpre : OkFields preambleParts (.part attrs) := by
    simp only [preambleParts, mkFields, OkFields, a1, a2, a3, a4, Ok, and_true]
    refine ⟨⟨_, rfl, hkf⟩, ⟨_, rfl, by unfold Fits apiVersion; norm_num⟩, ⟨_, rfl, hc⟩,
      Or.inr ⟨_, rfl, by decide +kernel⟩⟩
  have hw : wireFields preambleParts (.part attrs) = preamble key (lastId + 1) := by
    simp only [preambleParts, mkFields, wireFields, a1, a2, a3, a4, wire, intOf, preamble,
      apiVersion, List.append_nil, List.append_assoc]
    congr 3
  obtain ⟨pf, pd, h1, h2⟩ := renderFields_ok _ _ hpre
  obtain ⟨f, d, h3, h4⟩ := renderFields_ok _ _ (OkFields_congr ha ho)
  simp only [Req.serialize, h1, hit, renderItems_pairs, h3]
  rw [pack_append h2 h4, hw, wireFields_congr ha]

/-- Deserialization with a class whose `parts` are well-formed. -/
theorem response_ok (cx : Codec) (depth : Nat) (name api : String) (l : List (String × Ty))
    (v : Val) (ho : OkFields (fieldsOf l) v) (hp : PlainFields (fieldsOf l) v) (suf : Bytes) :
    (mkCls name api false l).deserialize cx depth (wireFields (fieldsOf l) v ++ suf) =
      .ok (.part (seenFields (fieldsOf l) v)) := by
  have hit : (mkCls name api false l).items = l.map (fun e => PartsItem.pair e.1 e.2) := rfl
  have h := parseFields_wire cx depth (fieldsOf l) v ho hp [] suf
  simp only [List.nil_append, List.length_nil] at h
  simp only [Cls.deserialize, hit, parseItemsOf_pairs, h]
  rw [initPart_pairs]
  have : ∀ l : List (String × Ty), (seenFields (fieldsOf l) v).map (·.1) = l.map (·.1) := by
    intro l
    induction l with
    | nil => simp [fieldsOf, seenFields]
    | cons e r ih => obtain ⟨n, t⟩ := e; simp [fieldsOf, seenFields, ih]
  intro e he
  rw [← this l]
  exact List.mem_map_of_mem he

end Kiel
