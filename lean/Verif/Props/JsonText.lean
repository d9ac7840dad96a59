import Verif.Lemmas.JsonText
import Verif.Props.Json
/- C111: JSON that others wrote. -/
set_option autoImplicit false
namespace Kiel
open Spec

/-- **C111**: from any text that is JSON, however it is laid out, and with Python's constants for
numbers that are not finite or without them, the default deserializer makes the value that the
text denotes. -/
theorem C111_reads (more : List String) (hm : more = [] ∨ more = pyConstants) (t : List Char)
    (v : Json) (h : JsonDocument more t v) :
    ∃ v', jsonDeserializer (.str (String.ofList t)) = .ok v' ∧ SameJson v v' := by
  have h' : JsonDocument pyConstants t v := by
    obtain ⟨pre, text, post, h1, h2, h3, h4⟩ := h
    refine ⟨pre, text, post, h1, h2, h3, Json.jsonText_mono ?_ h4⟩
    rcases hm with rfl | rfl
    · simp
    · exact fun x hx => hx
  simp only [jsonDeserializer, String.toList_ofList]
  exact Json.loads_of h'

/-- **C111**: it makes a value of no other text; that raises `ValueError`. -/
theorem C111_refuses (t : List Char) :
    (∀ v, jsonDeserializer (.str (String.ofList t)) = .ok v → JsonDocument pyConstants t v) ∧
    ((∀ v, ¬ JsonDocument pyConstants t v) →
      jsonDeserializer (.str (String.ofList t)) = .error .valueError) := by
  simp only [jsonDeserializer, String.toList_ofList]
  refine ⟨fun v h => Json.loads_inv h, fun h => ?_⟩
  cases hl : Json.loads t with
  | ok v => exact absurd (Json.loads_inv hl) (h v)
  | error e =>
    cases t with
    | nil => rw [← hl]; rfl
    | cons c t => rw [((C94_raises (fun _ _ => true) true (.add []) c t e).1 hl).1]

/-- What a stored message denotes for a consumer that expects JSON: nothing, if it has no value or
is text that is not JSON. -/
def Spec.Denotes (m : Int × Val × Val) (o : Option Json) : Prop :=
  match o with
  | some v => ∃ s, m.2.2 = .str s ∧ JsonDocument pyConstants s.toList v
  | .none => m.2.2 = .none ∨ ∃ s, m.2.2 = .str s ∧ ∀ v, ¬ JsonDocument pyConstants s.toList v

/-- What the consumer makes of a message. -/
def readAs (cfg : CCfg Val Json) (m : Int × Val × Val) (o : Option Json) : Prop :=
  match o with
  | some v => ∃ v', decode cfg m.2.2 = some v' ∧ SameJson v v'
  | .none => decode cfg m.2.2 = .none

theorem values_read (cfg : CCfg Val Json) (log : List (Int × Val × Val)) (l : List (Option Json))
    (h : List.Forall₂ (readAs cfg) log l) :
    List.Forall₂ SameJson (l.filterMap id) (values cfg (log.map fun m => (m.1, m.2.2))) := by
  induction h with
  | nil => exact .nil
  | @cons m o log l h0 h ih =>
    have hv : values cfg ((m :: log).map fun m => (m.1, m.2.2)) =
        (decode cfg m.2.2).toList ++ values cfg (log.map fun m => (m.1, m.2.2)) := by
      simp only [values, List.map_cons]
      cases hd : decode cfg m.2.2 <;> simp [hd]
    rw [hv]
    cases o with
    | some v =>
      obtain ⟨v', h1, h2⟩ := h0
      simp only [h1, Option.toList, List.cons_append, List.nil_append, List.filterMap_cons, id]
      exact .cons h2 ih
    | none =>
      simp only [readAs] at h0
      simp only [h0, Option.toList, List.nil_append, List.filterMap_cons, id]
      exact ih

theorem denotes_read {cfg : CCfg Val Json} (hcfg : cfg.deserializer = jsonDeserializer)
    {m : Int × Val × Val} {o : Option Json} (h : Denotes m o) : readAs cfg m o := by
  cases o with
  | some v =>
    obtain ⟨s, h1, h2⟩ := h
    obtain ⟨v', h3, h4⟩ := C111_reads pyConstants (.inr rfl) _ _ h2
    rw [String.ofList_toList] at h3
    refine ⟨v', ?_, h4⟩
    simp only [decode, hcfg, h1, h3, Except.toOption]
  | none =>
    show decode cfg m.2.2 = .none
    rcases h with h1 | ⟨s, h1, h2⟩
    · simp only [decode, hcfg, h1]; rfl
    · have := (C111_refuses s.toList).2 h2
      rw [String.ofList_toList] at this
      simp only [decode, hcfg, h1, this]; rfl

/-- What a broker serves is read message by message. -/
theorem delivered_read {ε : Type} (cx : Codec) (hav : cx.snappyAvailable = true) (depth : Nat)
    (cfg : CCfg Val Json) (topic : String)
    (ht : (encodeUtf8 topic).length < 2 ^ 15) (p : Served) (hp : p.Ok cx) (he : p.error = 0)
    (l : List (Option Json)) (hl : List.Forall₂ (readAs cfg) p.log l) (suf : Bytes)
    (cons : Consumer ε) :
    ∃ v c' out, Schema.fetchResponse.deserialize cx (depth + 1)
        (servedWire [(topic, [p])] ++ suf) = .ok v ∧
      handleFetchResponse cfg (frespOf v) cons = (.ok out, c') ∧
      List.Forall₂ SameJson (l.filterMap id) out := by
  obtain ⟨v, h4, h5⟩ := C64_received_partial cx hav depth [(topic, [p])] (by simp) (by
    intro t ht'
    simp only [List.mem_singleton] at ht'
    subst ht'
    exact ⟨ht, by simp, by simpa using hp⟩) suf
  generalize hr : handleFetchResponse cfg (frespOf v) cons = r
  obtain ⟨res, c'⟩ := r
  obtain ⟨done, rest, s1, s2, s3, s4, s5⟩ := handleFetch_spec cfg _ cons c' res hr
  have ha : answersOf (frespOf v) = [(topic, p.seen)] := by rw [h5]; rfl
  have hk : KnownCode p.seen.code := by
    simp only [Served.seen, he]
    decide +kernel
  have hcode : p.seen.code = 0 := he
  cases res with
  | error e =>
    rcases s5 e rfl with ⟨h6, _⟩ | ⟨_, a, ha', hnk⟩
    · rw [h5] at h6; simp at h6
    · rw [ha] at ha'
      simp only [List.mem_singleton] at ha'
      subst ha'
      exact absurd hk hnk
  | ok out =>
    obtain ⟨hrest, hout, _, _⟩ := s4 out rfl
    refine ⟨v, c', out, h4, hr, ?_⟩
    rw [hout, ha]
    simp only [fetched, hcode, decide_true, List.filter_cons_of_pos, List.filter_nil,
      List.flatMap_cons, List.flatMap_nil, List.append_nil]
    exact values_read cfg p.log l hl

/-- **C111**: from whatever a broker serves, a consumer with the default deserializer returns what
the JSON among it denotes, in the same order, and leaves out the rest. -/
theorem C111_delivered {ε : Type} (cx : Codec) (hav : cx.snappyAvailable = true) (depth : Nat)
    (cfg : CCfg Val Json) (hcfg : cfg.deserializer = jsonDeserializer) (topic : String)
    (ht : (encodeUtf8 topic).length < 2 ^ 15) (p : Served) (hp : p.Ok cx) (he : p.error = 0)
    (l : List (Option Json)) (hl : List.Forall₂ Denotes p.log l) (suf : Bytes)
    (cons : Consumer ε) :
    ∃ v c' out, Schema.fetchResponse.deserialize cx (depth + 1)
        (servedWire [(topic, [p])] ++ suf) = .ok v ∧
      handleFetchResponse cfg (frespOf v) cons = (.ok out, c') ∧
      List.Forall₂ SameJson (l.filterMap id) out :=
  delivered_read cx hav depth cfg topic ht p hp he l (hl.imp fun _ _ h => denotes_read hcfg h) suf cons

theorem strings_same {l l' : List Json} (h : ∀ (i : Nat) (x y : Json), l[i]? = some x →
    l'[i]? = some y → SameJson x y) (hl : l.length = l'.length) : strings l = strings l' := by
  ext x
  simp only [strings, Set.mem_ofPred_eq]
  constructor
  · intro hx
    obtain ⟨i, hi⟩ := List.mem_iff_getElem?.1 hx
    have hlt : i < l'.length := by rw [← hl]; exact (List.getElem?_eq_some_iff.1 hi).1
    have := h i _ _ hi (List.getElem?_eq_getElem hlt)
    have e : l'[i] = .str x.toList := by
      revert this
      generalize l'[i] = y
      intro this
      cases this
      rfl
    exact e ▸ List.getElem_mem hlt
  · intro hx
    obtain ⟨i, hi⟩ := List.mem_iff_getElem?.1 hx
    have hlt : i < l.length := by rw [hl]; exact (List.getElem?_eq_some_iff.1 hi).1
    have := h i _ _ (List.getElem?_eq_getElem hlt) hi
    have e : l[i] = .str x.toList := by
      revert this
      generalize l[i] = y
      intro this
      cases this
      rfl
    exact e ▸ List.getElem_mem hlt

/-- **C111**: a JSON array without arrays or objects in it, whoever wrote it into the node of a
shared set, is read as the set of its strings (and the other values).  From text that is not JSON
(or empty) a call makes nothing: it raises `ValueError` and leaves the node as it is. -/
theorem C111_set {same : Json → Json → Bool} (hs : StringsDiffer same) (t : List Char) :
    (∀ l, JsonDocument pyConstants t (.arr l) →
      (∀ w ∈ l, (∀ l', w ≠ .arr l') ∧ ∀ kvs, w ≠ .obj kvs) →
      ∃ d, SharedSet.deserialize same (some t) = .ok d ∧ strings d = strings l) ∧
    ((∀ v, ¬ JsonDocument pyConstants t v) → t ≠ [] → ∀ textOk (op : SetOp),
      op.callText same textOk (some t) = (.error .valueError, some t, [])) := by
  constructor
  · intro l h hl
    obtain ⟨v', h1, h2⟩ := Json.loads_of h
    cases h2 with
    | arr _ l' hlen hsame =>
      cases t with
      | nil => revert h1; generalize Json.arr l' = v; intro h1; cases h1
      | cons c t =>
        obtain ⟨d, h3, h4⟩ := (C94_taken hs c t _ h1).1 l' rfl (by
          intro w hw
          obtain ⟨i, hi⟩ := List.mem_iff_getElem?.1 hw
          have hlt : i < l.length := by rw [hlen]; exact (List.getElem?_eq_some_iff.1 hi).1
          have h5 := hsame i _ _ (List.getElem?_eq_getElem hlt) hi
          have h6 := hl l[i] (List.getElem_mem hlt)
          revert h5 h6
          generalize l[i] = y
          intro h5 h6
          constructor
          · rintro l2 rfl
            cases h5
            exact h6.1 _ rfl
          · rintro l2 rfl
            cases h5
            exact h6.2 _ rfl)
        exact ⟨d, h3, h4.trans (strings_same hsame hlen).symm⟩
  · intro h hne textOk op
    cases t with
    | nil => exact absurd rfl hne
    | cons c t =>
      cases hl : Json.loads (c :: t) with
      | ok v => exact absurd (Json.loads_inv hl) (h v)
      | error e => exact ((C94_raises same textOk op c t e).1 hl).2

/-! Non-vacuity: text as other libraries write it, with blanks in unusual places, upper case
digits and exponents, a solidus that is escaped, an umlaut that is not, and a name twice. -/

/-- The text. -/
def Spec.exForeign : String := " {\"a\":1,\"b\" :[ -20,1.5E+3 ] , \"a\": \"\\u00FC\\/ü\\uD83D\\uDe00\"}\r\n"

/-- What it denotes. -/
def Spec.exForeignValue : Json :=
  .obj [(['b'], .arr [.int (-20), .float "1.5E+3".toList]), (['a'], .str ['ü', '/', 'ü', '😀'])]

theorem Spec.exForeign_json : JsonDocument [] exForeign.toList exForeignValue := by
  refine ⟨[' '], _, ['\r', '\n'], ?_, by unfold Blank; decide, by unfold Blank; decide,
    .obj [⟨[], ['a'], ['a'], [], [], ['1'], [], .int 1⟩,
      ⟨[], ['b'], ['b'], [' '], [], "[ -20,1.5E+3 ]".toList, [' '],
        .arr [.int (-20), .float "1.5E+3".toList]⟩,
      ⟨[' '], ['a'], ['a'], [], [' '], "\"\\u00FC\\/ü\\uD83D\\uDe00\"".toList, [],
        .str ['ü', '/', 'ü', '😀']⟩] _ (by simp) ?_ ?_ ?_⟩
  · decide +kernel
  · have ha : StringText ['a'] ['a'] :=
      .cons ['a'] 'a' [] [] (.raw 'a' (by decide) (by decide) (by decide)) .nil
    have hb : StringText ['b'] ['b'] :=
      .cons ['b'] 'b' [] [] (.raw 'b' (by decide) (by decide) (by decide)) .nil
    intro p hp
    simp only [List.mem_cons, List.not_mem_nil, or_false] at hp
    rcases hp with rfl | rfl | rfl
    · exact ⟨by unfold Blank; decide, ha, by unfold Blank; decide, by unfold Blank; decide,
        by unfold Blank; decide⟩
    · exact ⟨by unfold Blank; decide, hb, by unfold Blank; decide, by unfold Blank; decide,
        by unfold Blank; decide⟩
    · exact ⟨by unfold Blank; decide, ha, by unfold Blank; decide, by unfold Blank; decide,
        by unfold Blank; decide⟩
  · intro p hp
    simp only [List.mem_cons, List.not_mem_nil, or_false] at hp
    rcases hp with rfl | rfl | rfl
    · exact .nat ['1'] ⟨⟨by simp, by decide⟩, by decide⟩
    · refine .arr [⟨[' '], "-20".toList, [], .int (-20)⟩,
        ⟨[], "1.5E+3".toList, [' '], .float "1.5E+3".toList⟩] (by simp) ?_ ?_
      · intro q hq
        simp only [List.mem_cons, List.not_mem_nil, or_false] at hq
        rcases hq with rfl | rfl <;> exact ⟨by unfold Blank; decide, by unfold Blank; decide⟩
      · intro q hq
        simp only [List.mem_cons, List.not_mem_nil, or_false] at hq
        rcases hq with rfl | rfl
        · exact .neg ['2', '0'] ⟨⟨by simp, by decide⟩, by decide⟩
        · exact .float [] ['1'] ['.', '5'] ['E', '+', '3'] (.inl rfl)
            ⟨⟨by simp, by decide⟩, by decide⟩ (.inr ⟨['5'], rfl, by simp, by decide⟩)
            (.inr ⟨'E', ['+'], ['3'], rfl, .inr rfl, .inr (.inl rfl), by simp, by decide⟩) (by simp)
    · refine .str "\\u00FC\\/ü\\uD83D\\uDe00".toList _ ?_
      refine .cons "\\u00FC".toList 'ü' _ _ (.unit _ _ ?_) ?_
      · exact .mk '0' '0' 'F' 'C' 0 0 15 12 (.inl rfl) (.inl rfl) (.inr rfl) (.inr rfl)
      refine .cons ['\\', '/'] '/' _ _ .slash ?_
      refine .cons ['ü'] 'ü' _ _ (.raw _ (by decide) (by decide) (by decide)) ?_
      refine .cons "\\uD83D\\uDe00".toList '😀' [] [] ?_ .nil
      exact .pair ['D', '8', '3', 'D'] ['D', 'e', '0', '0'] 0xd83d 0xde00 _
        (.mk 'D' '8' '3' 'D' 13 8 3 13 (.inr rfl) (.inl rfl) (.inl rfl) (.inr rfl))
        (.mk 'D' 'e' '0' '0' 13 14 0 0 (.inr rfl) (.inl rfl) (.inl rfl) (.inl rfl))
        (by decide) (by decide) (by decide)
  · refine ⟨by decide, ?_⟩
    intro k v
    simp only [List.map_cons, List.map_nil, List.mem_cons, List.not_mem_nil, or_false,
      Prod.mk.injEq]
    constructor
    · rintro (⟨rfl, rfl⟩ | ⟨rfl, rfl⟩)
      · exact ⟨[(['a'], .int 1)], [(['a'], _)], rfl, by simp⟩
      · exact ⟨[(['a'], .int 1), (['b'], _)], [], rfl, by simp⟩
    · rintro ⟨a, b, h, hb⟩
      rcases a with _ | ⟨x, _ | ⟨y, _ | ⟨z, a⟩⟩⟩
      · simp only [List.nil_append, List.cons.injEq] at h
        obtain ⟨h1, h2⟩ := h
        cases h1
        exact absurd (by rw [← h2]; simp) (hb (.str ['ü', '/', 'ü', '😀']))
      · simp only [List.cons_append, List.nil_append, List.cons.injEq] at h
        obtain ⟨-, h1, -⟩ := h
        cases h1
        simp
      · simp only [List.cons_append, List.nil_append, List.cons.injEq] at h
        obtain ⟨-, -, h1, -⟩ := h
        cases h1
        simp
      · simp at h

example : ∃ v', jsonDeserializer (.str exForeign) = .ok v' ∧ SameJson exForeignValue v' := by
  have := C111_reads [] (.inl rfl) _ _ exForeign_json
  rwa [String.ofList_toList] at this

/-- Text that is not JSON. -/
theorem Spec.exNoJson : ∀ v, ¬ JsonDocument pyConstants "{'a': 1}".toList v := by
  intro v h
  obtain ⟨v', h1, -⟩ := C111_reads pyConstants (.inr rfl) _ _ h
  have h2 : jsonDeserializer (.str (String.ofList "{'a': 1}".toList)) = .error .valueError := by
    rw [String.ofList_toList]; rfl
  rw [h2] at h1
  cases h1

example : jsonDeserializer (.str "{'a': 1}") = .error .valueError := by
  have := (C111_refuses "{'a': 1}".toList).2 exNoJson
  rwa [String.ofList_toList] at this

/-- What is stored: the JSON above, text that is not JSON, and nothing. -/
def Spec.exForeignLog : List (Int × Val × Val) :=
  [(41, .none, .str exForeign), (42, .none, .str "{'a': 1}"), (43, .none, .none)]

/-- As a broker serves it. -/
def Spec.exForeignServed : Served := ⟨0, 0, 44, plainSet exForeignLog, exForeignLog⟩

theorem Spec.exForeignServed_ok : exForeignServed.Ok storeCodec where
  partition := by unfold Fits exForeignServed; norm_num
  error := by unfold Fits exForeignServed; norm_num
  highwater := by unfold Fits exForeignServed; norm_num
  holds := by
    have h := holds_plain (packed := KafkaPackedLong storeCodec) (l := exForeignLog) (by
        intro m hm
        simp only [exForeignLog, List.mem_cons, List.not_mem_nil, or_false] at hm
        rcases hm with rfl | rfl | rfl
        · exact ⟨by unfold Fits; norm_num, .inl rfl, .inr ⟨_, rfl, by decide +kernel⟩,
            by decide +kernel, by decide +kernel⟩
        · exact ⟨by unfold Fits; norm_num, .inl rfl, .inr ⟨_, rfl, by decide +kernel⟩,
            by decide +kernel, by decide +kernel⟩
        · exact ⟨by unfold Fits; norm_num, .inl rfl, .inl rfl,
            by decide +kernel, by decide +kernel⟩)
    have e3 : sizedValue .none = .none := rfl
    simp only [exForeignLog, List.map_cons, List.map_nil, sizedValue_str, e3] at h
    exact h
  size := by decide +kernel

/-- `C111_delivered` applied to it. -/
example (cons : Consumer Unit) : ∃ v c' m',
    Schema.fetchResponse.deserialize storeCodec 1 (servedWire [("t", [exForeignServed])]) = .ok v ∧
    handleFetchResponse exJsonCfg (frespOf v) cons = (.ok [m'], c') ∧
    SameJson exForeignValue m' := by
  obtain ⟨v, c', out, h1, h2, h3⟩ := C111_delivered storeCodec storeCodec_snappy.available 0
    exJsonCfg rfl "t" (by decide +kernel) exForeignServed exForeignServed_ok rfl
    [some exForeignValue, .none, .none]
    (.cons ⟨_, rfl, by
        obtain ⟨a, b, c, h1, h2, h3, h4⟩ := exForeign_json
        exact ⟨a, b, c, h1, h2, h3, Json.jsonText_mono (by simp) h4⟩⟩
      (.cons (.inr ⟨_, rfl, exNoJson⟩) (.cons (.inl rfl) .nil))) [] cons
  rw [List.append_nil] at h1
  simp only [List.filterMap_cons, List.filterMap_nil, id] at h3
  cases h3 with
  | cons h ht =>
    cases ht
    exact ⟨v, c', _, h1, h2, h⟩

/-- An array that another client wrote into the node of a set, and text that is not JSON. -/
example : (∃ d, SharedSet.deserialize exSame (some "[\"h\\u003A0\" ,\"i:1\"]".toList) = .ok d ∧
      strings d = strings [.str "h:0".toList, .str "i:1".toList]) ∧
    (SetOp.add ["x:0"]).callText exSame true (some "{'a': 1}".toList) =
      (.error .valueError, some "{'a': 1}".toList, []) := by
  obtain ⟨h1, h2⟩ := C111_set exSame_strings "[\"h\\u003A0\" ,\"i:1\"]".toList
  refine ⟨h1 [.str "h:0".toList, .str "i:1".toList] ?_ ?_,
    (C111_set exSame_strings "{'a': 1}".toList).2 exNoJson (by decide) true _⟩
  · refine ⟨[], _, [], by rw [List.nil_append, List.append_nil]; decide +kernel, by unfold Blank; decide,
      by unfold Blank; decide, .arr [⟨[], "\"h\\u003A0\"".toList, [' '], .str "h:0".toList⟩,
        ⟨[], "\"i:1\"".toList, [], .str "i:1".toList⟩] (by simp) ?_ ?_⟩
    · intro q hq
      simp only [List.mem_cons, List.not_mem_nil, or_false] at hq
      rcases hq with rfl | rfl <;> exact ⟨by unfold Blank; decide, by unfold Blank; decide⟩
    · intro q hq
      simp only [List.mem_cons, List.not_mem_nil, or_false] at hq
      have hr : ∀ (c : Char) (t s : List Char), 0x20 ≤ c.toNat → c ≠ '"' → c ≠ '\\' →
          StringText t s → StringText (c :: t) (c :: s) := fun c t s h1 h2 h3 h =>
        .cons [c] c t s (.raw c h1 h2 h3) h
      rcases hq with rfl | rfl
      · refine .str "h\\u003A0".toList _ (hr _ _ _ (by decide) (by decide) (by decide) ?_)
        refine .cons "\\u003A".toList ':' _ _ (.unit _ _ ?_)
          (hr _ _ _ (by decide) (by decide) (by decide) .nil)
        exact .mk '0' '0' '3' 'A' 0 0 3 10 (.inl rfl) (.inl rfl) (.inl rfl) (.inr rfl)
      · exact .str "i:1".toList _ (hr _ _ _ (by decide) (by decide) (by decide)
          (hr _ _ _ (by decide) (by decide) (by decide)
            (hr _ _ _ (by decide) (by decide) (by decide) .nil)))
  · intro w hw
    simp only [List.mem_cons, List.not_mem_nil, or_false] at hw
    rcases hw with rfl | rfl <;> exact ⟨by simp, by simp⟩

end Kiel
