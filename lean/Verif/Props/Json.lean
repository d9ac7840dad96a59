import Verif.Lemmas.Json
import Verif.Props.EndToEnd
import Verif.Props.SharedSet
/- C93: the default serializers.  C94: what is stored in a shared set. -/
set_option autoImplicit false
namespace Kiel
open Spec

/-! ### C93 -/

/-- **C93**: what the default serializer makes of a message is text, and the default deserializer
makes of it a message equal to the one produced. -/
theorem C93_json (m : Json) (h : ValidJson m) :
    ∃ v m', jsonSerializer m = .ok v ∧ jsonDeserializer (sizedValue v) = .ok m' ∧
      SameJson m m' := by
  refine ⟨_, m.canon, rfl, ?_, Json.same_canon h⟩
  rw [sizedValue_str]
  simp only [jsonDeserializer, String.toList_ofList]
  rw [Json.loads_dumps h]

/-- **C93**: messages produced with the default serializer, with whatever keys and any supported
compression, stored by a broker that gives them offsets and returns them in whatever form, are
returned by a consumer with the default deserializer as equal messages in the same order. -/
theorem C93_delivered {ε : Type} (cx : Codec) (gz : GzipLaws cx) (sn : SnappyLaws cx)
    (depth : Nat) (c : Option Int) (hc : checkCompression c = .ok ()) (key val : Json → Val)
    (cfg : CCfg Val Json) (hcfg : cfg.deserializer = jsonDeserializer) (l : List Json)
    (hv : ∀ m ∈ l, ValidJson m) (hser : ∀ m ∈ l, jsonSerializer m = .ok (val m))
    (h : SetFits cx c (l.map fun m => (key m, val m))) :
    ∃ ms l', compressedSet cx c (messagesOf (l.map fun m => (key m, val m))) = .ok ms ∧
      encode .messageSet (.mset ms) = .ok (be 4 (entries ms).length ++ entries ms) ∧
      List.Forall₂ SameJson l l' ∧
      ∀ (topic : String) (p : Served) (offs : List Int), (encodeUtf8 topic).length < 2 ^ 15 →
        p.Ok cx → p.error = 0 → offs.length = l.length →
        p.log = reoffset offs (l.map fun m => (-1, sizedValue (key m), sizedValue (val m))) →
        ∀ (suf : Bytes) (cons : Consumer ε),
        ∃ v c', Schema.fetchResponse.deserialize cx (depth + 1)
            (servedWire [(topic, [p])] ++ suf) = .ok v ∧
          handleFetchResponse cfg (frespOf v) cons = (.ok l', c') := by
  obtain ⟨ms, h1, h2, -, h3⟩ := roundtrip_map (ε := ε) cx gz sn depth c hc key val Json.canon cfg l
    (by
      intro m hm
      have := hser m hm
      simp only [jsonSerializer, Except.ok.injEq] at this
      rw [hcfg, ← this, sizedValue_str]
      simp only [jsonDeserializer, String.toList_ofList]
      rw [Json.loads_dumps (hv m hm)]) h
  refine ⟨ms, l.map Json.canon, h1, h2, ?_, ?_⟩
  · rw [List.forall₂_map_right_iff, List.forall₂_same]
    exact fun m hm => Json.same_canon (hv m hm)
  · intro topic p offs a1 a2 a3 a4 a5 suf cons
    obtain ⟨v, c', b1, b2, -⟩ := h3 topic p offs a1 a2 a3 a4 a5 suf cons
    exact ⟨v, c', b1, b2⟩

namespace Json

theorem sorted_unique {α : Type} {a b : List (List Char × α)} (hp : a.Perm b)
    (hk : (a.map (·.1)).Nodup) : a.mergeSort keyLe = b.mergeSort keyLe := by
  have p1 := List.mergeSort_perm a keyLe
  have p2 := List.mergeSort_perm b keyLe
  refine List.Perm.eq_of_pairwise (le := fun x y => keyLe x y = true) ?_
    (List.pairwise_mergeSort keyLe_trans keyLe_total a)
    (List.pairwise_mergeSort keyLe_trans keyLe_total b) (p1.trans (hp.trans p2.symm))
  intro x y hx hy h1 h2
  simp only [keyLe, decide_eq_true_eq] at h1 h2
  exact (List.nodup_map_iff_inj_on (List.Nodup.of_map _ hk)).1 hk x (p1.mem_iff.1 hx) y
    (hp.mem_iff.2 (p2.mem_iff.1 hy)) (le_antisymm h1 h2)

theorem dumps_same {a b : Json} (h : SameJson a b) (ha : ValidJson a) (hb : ValidJson b) :
    dumps a = dumps b := by
  induction h with
  | null => rfl
  | bool b => rfl
  | int i => rfl
  | float t => rfl
  | str s => rfl
  | arr l l' hl h ih =>
    have va : ∀ v ∈ l, ValidJson v := by cases ha; assumption
    have vb : ∀ v ∈ l', ValidJson v := by cases hb; assumption
    simp only [dumps, dumpsList_eq]
    have : l.map dumps = l'.map dumps := by
      apply List.ext_getElem (by simpa using hl)
      intro i h1 h2
      simp only [List.length_map] at h1 h2
      simp only [List.getElem_map]
      exact ih i _ _ (List.getElem?_eq_getElem h1) (List.getElem?_eq_getElem h2)
        (va _ (List.getElem_mem _)) (vb _ (List.getElem_mem _))
    rw [this]
  | obj d d' hl hk h ih =>
    have ka : (d.map (·.1)).Nodup := by cases ha; assumption
    have kb : (d'.map (·.1)).Nodup := by cases hb; assumption
    have va : ∀ p ∈ d, ValidJson p.2 := by cases ha; assumption
    have vb : ∀ p ∈ d', ValidJson p.2 := by cases hb; assumption
    simp only [dumps, dumpsPairs_eq]
    rw [sorted_unique (b := d'.map fun p => (p.1, dumps p.2))]
    · rw [List.perm_ext_iff_of_nodup]
      · rintro ⟨k, t⟩
        simp only [List.mem_map, Prod.mk.injEq, Prod.exists]
        constructor
        · rintro ⟨k', v, h1, rfl, rfl⟩
          have : k' ∈ d'.map (·.1) := (hk k').1 (List.mem_map.2 ⟨_, h1, rfl⟩)
          obtain ⟨⟨k2, v2⟩, h2, h3⟩ := List.mem_map.1 this
          cases h3
          exact ⟨k2, v2, h2, rfl, (ih _ v v2 h1 h2 (va _ h1) (vb _ h2)).symm⟩
        · rintro ⟨k', v, h1, rfl, rfl⟩
          have : k' ∈ d.map (·.1) := (hk k').2 (List.mem_map.2 ⟨_, h1, rfl⟩)
          obtain ⟨⟨k2, v2⟩, h2, h3⟩ := List.mem_map.1 this
          cases h3
          exact ⟨k2, v2, h2, rfl, ih _ v2 v h2 h1 (va _ h2) (vb _ h1)⟩
      · apply List.Nodup.of_map (·.1)
        simpa [List.map_map, Function.comp_def] using ka
      · apply List.Nodup.of_map (·.1)
        simpa [List.map_map, Function.comp_def] using kb
    · simpa [List.map_map, Function.comp_def] using ka

end Json

/-- **C93**: equal messages (with numbers of the same types) are serialized to the same text, however their dictionaries came
about. -/
theorem C93_canonical (a b : Json) (ha : ValidJson a) (hb : ValidJson b) (h : SameJson a b) :
    jsonSerializer a = jsonSerializer b := by
  rw [jsonSerializer, jsonSerializer, Json.dumps_same h ha hb]

/-- A message: a dictionary with an umlaut and an emoji, a float, and a list. -/
def Spec.exJson : Json :=
  .obj [(['b'], .arr [.null, .bool true, .int (-12), .float ['1', '.', '5', 'e', '-', '7']]),
    (['a'], .str ['ü', '"', '\n', '😀'])]

theorem Spec.exJson_valid : ValidJson exJson := by
  refine .obj _ (by decide) ?_
  intro p hp
  simp only [List.mem_cons, List.not_mem_nil, or_false] at hp
  rcases hp with rfl | rfl
  · refine .arr _ ?_
    intro v hv
    simp only [List.mem_cons, List.not_mem_nil, or_false] at hv
    rcases hv with rfl | rfl | rfl | rfl
    · exact .null
    · exact .bool _
    · exact .int _
    · refine .float _ ⟨[], ['1'], ['.', '5'], ['e', '-', '7'], rfl, .inl rfl,
        .inr ⟨'1', [], rfl, by decide, by decide⟩, .inr ⟨['5'], rfl, by decide, by decide⟩,
        .inr ⟨['-'], ['7'], rfl, .inr (.inr rfl), by decide, by decide⟩, by decide⟩
  · exact .str _

/-- What it is sent as. -/
def Spec.exJsonText : String :=
  "{\"a\": \"\\u00fc\\\"\\n\\ud83d\\ude00\", \"b\": [null, true, -12, 1.5e-7]}"

theorem sort_two {α : Type} (x y : List Char × α) :
    [x, y].mergeSort Json.keyLe = if Json.keyLe x y then [x, y] else [y, x] := by
  simp [List.mergeSort, List.merge]

theorem Spec.exJson_text : exJson.dumps = exJsonText.toList := by
  simp only [exJson, Json.dumps, Json.dumpsPairs, sort_two]
  decide +kernel

/-- The text is read back as the dictionary with its keys in order, which is equal. -/
example : ∃ m', jsonDeserializer (.str exJsonText) = .ok m' ∧ SameJson exJson m' ∧
    m' ≠ exJson := by
  have h := Json.loads_dumps exJson_valid
  rw [exJson_text] at h
  simp only [jsonDeserializer]
  rw [h]
  refine ⟨_, rfl, Json.same_canon exJson_valid, ?_⟩
  simp only [exJson, Json.canon, Json.canonPairs, sort_two]
  rw [if_neg (by decide)]
  simp

/-- The consumer's options: the default deserializer. -/
def Spec.exJsonCfg : CCfg Val Json where
  deserializer := jsonDeserializer
  truthy _ := true
  maxWait := 0
  minBytes := 1
  maxBytes := 1000

theorem Spec.exJson_writable (o : Int) (ho : Fits 8 o) : Writable (o, .none, .str exJsonText) :=
  ⟨ho, .inl rfl, .inr ⟨_, rfl, by decide +kernel⟩, by
    change List.length (message (mkMessage 0 .none (.str exJsonText))) < 2 ^ 31
    decide +kernel, by
    change crc32 (body (mkMessage 0 .none (.str exJsonText))) ≠ 2 ^ 31
    decide +kernel⟩

/-- As a broker serves it, at offset 41. -/
def Spec.exJsonServed : Served :=
  ⟨0, 0, 42, plainSet [(41, .none, .str exJsonText)], [(41, .none, .str exJsonText)]⟩

theorem Spec.exJsonServed_ok : exJsonServed.Ok storeCodec where
  partition := by unfold Fits exJsonServed; norm_num
  error := by unfold Fits exJsonServed; norm_num
  highwater := by unfold Fits exJsonServed; norm_num
  holds := by
    have h := holds_plain (packed := KafkaPackedLong storeCodec)
      (l := [(41, .none, .str exJsonText)]) (by
        intro m hm
        simp only [List.mem_singleton] at hm
        subst hm
        exact exJson_writable 41 (by unfold Fits; norm_num))
    have e3 : sizedValue .none = .none := rfl
    simp only [List.map_cons, List.map_nil, sizedValue_str, e3] at h
    exact h
  size := by decide +kernel

/-- `C93_delivered` applied to it. -/
example (cons : Consumer Unit) : ∃ v c' m',
    Schema.fetchResponse.deserialize storeCodec 1 (servedWire [("t", [exJsonServed])]) = .ok v ∧
    handleFetchResponse exJsonCfg (frespOf v) cons = (.ok [m'], c') ∧ SameJson exJson m' := by
  obtain ⟨ms, l', -, -, h1, h2⟩ := C93_delivered (ε := Unit) storeCodec storeCodec_gzip
    storeCodec_snappy 0 .none rfl (fun _ => .none) (fun _ => .str exJsonText) exJsonCfg rfl [exJson]
    (by simpa using exJson_valid)
    (by
      intro m hm
      simp only [List.mem_singleton] at hm
      subst hm
      rw [jsonSerializer, exJson_text, String.ofList_toList])
    (by
      refine ⟨?_, fun _ => by decide +kernel, fun h => by simp at h, fun h => by simp at h⟩
      intro m hm
      simp only [List.map_cons, List.map_nil, List.mem_singleton] at hm
      subst hm
      exact exJson_writable (-1) (by unfold Fits; norm_num))
  cases h1 with
  | cons hs ht =>
    cases ht
    obtain ⟨v, c', h3, h4⟩ := h2 "t" exJsonServed [41] (by decide +kernel) exJsonServed_ok rfl rfl
      (by simp only [List.map_cons, List.map_nil, sizedValue_str]; rfl) [] cons
    rw [List.append_nil] at h3
    exact ⟨v, c', _, h3, h4, hs⟩

/-- **C40** with the default deserializer: messages without a value (tombstones) are not JSON, and
as long as a batch has nothing else the consumer stays where it is. -/
theorem C40_tombstones {ε : Type} (cfg : CCfg Val Json) (hcfg : cfg.deserializer = jsonDeserializer)
    (r : FResp Val) (c : Consumer ε) (t : String) (p : Int)
    (h : ∀ m ∈ fetchedFor (answersOf r) t p, m.2 = .none) :
    offsetOf (handleFetchResponse cfg r c).2.offsets t p = offsetOf c.offsets t p ∧
    ∀ m ∈ fetchedFor (answersOf r) t p, values cfg [m] = [] := by
  have hd : ∀ m ∈ fetchedFor (answersOf r) t p, decode cfg m.2 = .none := fun m hm => by
    rw [h m hm, decode, hcfg]
    rfl
  exact ⟨C40_stuck cfg r c t p hd, fun m hm => by simp [values, hd m hm]⟩

/-- A tombstone at offset 3, for a consumer that is there. -/
example (c : Consumer Unit) (h : c.offsets = [("t", [(0, 3)])]) :
    offsetOf (handleFetchResponse exJsonCfg ⟨[("t", [⟨0, 0, [(3, .none)]⟩])]⟩ c).2.offsets "t" 0 = 3 := by
  refine (C40_tombstones exJsonCfg rfl _ c "t" 0 ?_).1.trans ?_
  · intro m hm
    rw [show fetchedFor _ "t" 0 = [((3 : Int), Val.none)] from rfl, List.mem_singleton] at hm
    rw [hm]
  · rw [h]; decide +kernel

/-! ### C94 -/

theorem addHashed_pairwise {same : Json → Json → Bool} {s : List Json} (v : Json)
    (h : s.Pairwise fun a b => same a b = false) :
    (addHashed same s v).Pairwise fun a b => same a b = false := by
  unfold addHashed
  split
  · exact h
  · rename_i hn
    rw [List.pairwise_append]
    refine ⟨h, List.pairwise_singleton _ _, ?_⟩
    intro a ha b hb
    rw [List.mem_singleton] at hb
    subst hb
    simp only [List.any_eq_true, not_exists, not_and, Bool.not_eq_true] at hn
    exact hn a ha

theorem foldl_addHashed_pairwise {same : Json → Json → Bool} (l s : List Json)
    (h : s.Pairwise fun a b => same a b = false) :
    (l.foldl (addHashed same) s).Pairwise fun a b => same a b = false := by
  induction l generalizing s with
  | nil => exact h
  | cons v l ih => exact ih _ (addHashed_pairwise v h)

theorem mem_of_mem_foldl_addHashed {same : Json → Json → Bool} (l s : List Json) (v : Json)
    (h : v ∈ l.foldl (addHashed same) s) : v ∈ s ∨ v ∈ l := by
  induction l generalizing s with
  | nil => exact .inl h
  | cons w l ih =>
    rcases ih _ h with h1 | h1
    · unfold addHashed at h1
      split at h1
      · exact .inl h1
      · rcases List.mem_append.1 h1 with h2 | h2
        · exact .inl h2
        · rw [List.mem_singleton] at h2
          exact .inr (h2 ▸ List.mem_cons_self)
    · exact .inr (List.mem_cons_of_mem _ h1)

theorem str_mem_addHashed {same : Json → Json → Bool} (hs : StringsDiffer same) (s : List Json)
    (v : Json) (x : List Char) : Json.str x ∈ addHashed same s v ↔ Json.str x ∈ s ∨ Json.str x = v := by
  unfold addHashed
  split
  · rename_i h
    obtain ⟨a, ha, hav⟩ := List.any_eq_true.1 h
    refine ⟨.inl, fun h => h.elim id ?_⟩
    rintro rfl
    exact (hs.right _ _).1 hav ▸ ha
  · rw [List.mem_append, List.mem_singleton]

theorem str_mem_foldl_addHashed {same : Json → Json → Bool} (hs : StringsDiffer same)
    (l s : List Json) (x : List Char) :
    Json.str x ∈ l.foldl (addHashed same) s ↔ Json.str x ∈ s ∨ Json.str x ∈ l := by
  induction l generalizing s with
  | nil => simp
  | cons w l ih => rw [List.foldl_cons, ih, str_mem_addHashed hs, List.mem_cons]; tauto

theorem foldl_addHashed_fixed {same : Json → Json → Bool} (l s : List Json)
    (h : (s ++ l).Pairwise fun a b => same a b = false) : l.foldl (addHashed same) s = s ++ l := by
  induction l generalizing s with
  | nil => rw [List.append_nil]; rfl
  | cons v l ih =>
    have hv : addHashed same s v = s ++ [v] := by
      unfold addHashed
      rw [if_neg]
      simp only [List.any_eq_true, not_exists, not_and, Bool.not_eq_true]
      intro a ha
      exact (List.pairwise_append.1 h).2.2 a ha v List.mem_cons_self
    rw [List.foldl_cons, hv, ih _ (by simpa using h)]
    simp

theorem others_foldl_addHashed {same : Json → Json → Bool} (l : List (List Char)) (s : List Json) :
    others ((l.map fun x => Json.str x).foldl (addHashed same) s) = others s := by
  induction l generalizing s with
  | nil => rfl
  | cons x l ih =>
    rw [List.map_cons, List.foldl_cons, ih]
    unfold addHashed
    split
    · rfl
    · simp [others]

/-- What is read is a set, of things that can be in one. -/
theorem deserialize_inv {same : Json → Json → Bool} {data : Option (List Char)} {d : List Json}
    (h : SharedSet.deserialize same data = .ok d) :
    (d.Pairwise fun a b => same a b = false) ∧ ∀ v ∈ d, hashable v = true := by
  unfold SharedSet.deserialize at h
  extract_lets text at h
  clear_value text
  split at h
  · cases h
  · rename_i l _
    split at h
    · rename_i hl
      cases h
      refine ⟨foldl_addHashed_pairwise _ _ .nil, fun v hv => ?_⟩
      rcases mem_of_mem_foldl_addHashed _ _ _ hv with h1 | h1
      · cases h1
      · exact List.all_eq_true.1 hl v h1
    · cases h
  · cases h
    refine ⟨foldl_addHashed_pairwise _ _ .nil, fun v hv => ?_⟩
    rcases mem_of_mem_foldl_addHashed _ _ _ hv with h1 | h1
    · cases h1
    · obtain ⟨c, -, rfl⟩ := List.mem_map.1 h1
      rfl
  · cases h
    refine ⟨foldl_addHashed_pairwise _ _ .nil, fun v hv => ?_⟩
    rcases mem_of_mem_foldl_addHashed _ _ _ hv with h1 | h1
    · cases h1
    · obtain ⟨c, -, rfl⟩ := List.mem_map.1 h1
      rfl
  · cases h

theorem canon_hashable {v : Json} (h : hashable v = true) : v.canon = v := by
  cases v <;> first | rfl | cases h

/-- What is written is read back. -/
theorem deserialize_serialize {same : Json → Json → Bool} (items : List Json)
    (hv : ∀ v ∈ items, ValidJson v) (hh : ∀ v ∈ items, hashable v = true) :
    SharedSet.deserialize same (some (SharedSet.serialize items)) = .ok (pyItems same items) := by
  have h := Json.loads_dumps (.arr _ hv)
  have hc : Json.canon (.arr items) = .arr items := by
    rw [Json.canon, Json.canonList_eq]
    congr 1
    conv_rhs => rw [← List.map_id items]
    exact List.map_congr_left fun v hv => canon_hashable (hh v hv)
  rw [hc] at h
  have hne : ∃ c t, SharedSet.serialize items = c :: t :=
    ⟨'[', _, by rw [SharedSet.serialize, Json.dumps]⟩
  obtain ⟨c, t, hct⟩ := hne
  rw [← SharedSet.serialize] at h
  simp only [SharedSet.deserialize, hct] at h ⊢
  rw [h]
  exact if_pos (List.all_eq_true.2 hh)

/-- **C94**: what a client writes into the set's node for a set of strings is read by every client
as the same set. -/
theorem C94_read {same : Json → Json → Bool} (hs : StringsDiffer same) (items : List String) :
    ∃ l, SharedSet.deserialize same
        (some (SharedSet.serialize (items.map fun x => .str x.toList))) = .ok l ∧
      strings l = elements items ∧ others l = [] ∧ l.Nodup := by
  have hstr : ∀ v ∈ items.map fun x => Json.str x.toList, ∃ s, v = .str s := by
    intro v hv
    obtain ⟨x, -, rfl⟩ := List.mem_map.1 hv
    exact ⟨_, rfl⟩
  have hd := deserialize_serialize (same := same) (items.map fun x => .str x.toList)
    (fun v hv => by obtain ⟨s, rfl⟩ := hstr v hv; exact .str _)
    (fun v hv => by obtain ⟨s, rfl⟩ := hstr v hv; rfl)
  have hall : ∀ v ∈ pyItems same (items.map fun x => .str x.toList), ∃ s, v = .str s := by
    intro v hv
    rcases mem_of_mem_foldl_addHashed _ _ _ hv with h1 | h1
    · cases h1
    · exact hstr v h1
  refine ⟨_, hd, ?_, ?_, ?_⟩
  · ext x
    simp only [strings, elements, Set.mem_ofPred_eq]
    rw [pyItems, str_mem_foldl_addHashed hs]
    simp only [List.not_mem_nil, false_or, List.mem_map, Json.str.injEq, String.toList_inj,
      exists_eq_right]
  · rw [others, List.filter_eq_nil_iff]
    intro v hv
    obtain ⟨s, rfl⟩ := hall v hv
    simp
  · refine List.Pairwise.imp_of_mem ?_ (deserialize_inv hd).1
    intro a b ha _ hab he
    obtain ⟨s, rfl⟩ := hall a ha
    rw [(hs.left s b).2 he.symm] at hab
    cases hab

/-- **C94**: a node without data, or with empty data, counts as the empty set. -/
theorem C94_empty (same : Json → Json → Bool) :
    SharedSet.deserialize same .none = .ok [] ∧ SharedSet.deserialize same (some []) = .ok [] := by
  have h : Json.loads ['[', ']'] = .ok (.arr []) := by rfl
  constructor <;>
  · simp only [SharedSet.deserialize, h]
    rfl

theorem any_same_str {same : Json → Json → Bool} (hs : StringsDiffer same) (d : List Json)
    (x : String) : d.any (same · (.str x.toList)) = true ↔ x ∈ strings d := by
  simp only [List.any_eq_true, hs.right, exists_eq_right, strings, Set.mem_ofPred_eq]

/-- The decision on what was read is right. -/
theorem decisionItems_spec {same : Json → Json → Bool} (hs : StringsDiffer same) (op : SetOp)
    (d : List Json) :
    match op.decisionItems same d with
    | .none => apply (strings d) op = strings d
    | some new => strings new = apply (strings d) op ∧ apply (strings d) op ≠ strings d ∧
        others new = others d ∧ (∀ v ∈ new, v ∈ d ∨ ∃ s, v = .str s) ∧
        ((d.Pairwise fun a b => same a b = false) → new.Pairwise fun a b => same a b = false) := by
  cases op with
  | add items =>
    simp only [SetOp.decisionItems]
    by_cases h : items.all (fun x => d.any (same · (.str x.toList))) = true
    · rw [if_pos h]
      simp only [List.all_eq_true, any_same_str hs] at h
      exact Set.union_eq_self_of_subset_right h
    · rw [if_neg h]
      simp only [List.all_eq_true, any_same_str hs, not_forall] at h
      obtain ⟨x, hx, hn⟩ := h
      refine ⟨?_, fun he => ?_, ?_, ?_, foldl_addHashed_pairwise _ _⟩
      · ext y
        simp only [apply, strings, elements, Set.mem_union, Set.mem_ofPred_eq]
        rw [str_mem_foldl_addHashed hs]
        simp only [List.mem_map, Json.str.injEq, String.toList_inj, exists_eq_right]
      · have : x ∈ apply (strings d) (.add items) := Or.inr hx
        rw [he] at this
        exact hn this
      · have := others_foldl_addHashed (same := same) (items.map String.toList) d
        rwa [List.map_map] at this
      · intro v hv
        rcases mem_of_mem_foldl_addHashed _ _ _ hv with h1 | h1
        · exact .inl h1
        · obtain ⟨y, -, rfl⟩ := List.mem_map.1 h1
          exact .inr ⟨_, rfl⟩
  | remove items =>
    simp only [SetOp.decisionItems]
    by_cases h : items.all (fun x => !d.any (same · (.str x.toList))) = true
    · rw [if_pos h]
      simp only [List.all_eq_true, Bool.not_eq_true', ← Bool.not_eq_true, any_same_str hs] at h
      ext x
      simp only [apply, elements, Set.mem_sdiff, Set.mem_ofPred_eq]
      exact ⟨fun hx => hx.1, fun hx => ⟨hx, fun hi => h x hi hx⟩⟩
    · rw [if_neg h]
      simp only [List.all_eq_true, Bool.not_eq_true', ← Bool.not_eq_true, any_same_str hs, not_forall,
        not_not] at h
      obtain ⟨x, hx, hn⟩ := h
      refine ⟨?_, fun he => ?_, ?_, fun v hv => .inl (List.mem_filter.1 hv).1,
        fun hp => hp.sublist List.filter_sublist⟩
      · ext y
        simp only [apply, strings, elements, Set.mem_sdiff, Set.mem_ofPred_eq, List.mem_filter,
          Bool.not_eq_true', ← Bool.not_eq_true, List.any_eq_true, hs.right, Json.str.injEq,
          String.toList_inj, exists_eq_right']
      · rw [← he] at hn
        exact hn.2 hx
      · unfold others
        rw [List.filter_filter]
        refine List.filter_congr fun v _ => ?_
        cases v <;> try rfl
        all_goals
          simp only [Bool.true_and, Bool.not_eq_true', ← Bool.not_eq_true, List.any_eq_true, hs.right]
          simp

/-- **C94**: adding and removing, on the text in the node, is the union and the difference of
sets.  A call that would change nothing writes nothing; any other writes once, text that is read
as that set.  What else than strings is in the set stays there.  (On Python 3 it cannot be written,
C57.) -/
theorem C94_call {same : Json → Json → Bool} (hs : StringsDiffer same) (op : SetOp)
    (data : Option (List Char)) (d : List Json)
    (hd : SharedSet.deserialize same data = .ok d) (hv : ∀ v ∈ d, ValidJson v) :
    (apply (strings d) op = strings d → op.callText same true data = (.ok (), data, [])) ∧
    (apply (strings d) op ≠ strings d → ∃ t l,
      op.callText same true data = (.ok (), some t, [t]) ∧
      SharedSet.deserialize same (some t) = .ok l ∧ (∀ v ∈ l, ValidJson v) ∧
      strings l = apply (strings d) op ∧ others l = others d) := by
  have h := decisionItems_spec hs op d
  obtain ⟨hp, hh⟩ := deserialize_inv hd
  unfold SetOp.callText
  rw [hd]
  cases hop : op.decisionItems same d with
  | none =>
    rw [hop] at h
    exact ⟨fun _ => by simp only [hop], fun hn => absurd h hn⟩
  | some new =>
    rw [hop] at h
    obtain ⟨h1, h2, h3, h4, h5⟩ := h
    simp only [hop, if_true]
    refine ⟨fun he => absurd he h2, fun _ => ?_⟩
    have hv' : ∀ v ∈ new, ValidJson v := fun v hn => by
      rcases h4 v hn with h | ⟨s, rfl⟩
      · exact hv v h
      · exact .str _
    have hh' : ∀ v ∈ new, hashable v = true := fun v hn => by
      rcases h4 v hn with h | ⟨s, rfl⟩
      · exact hh v h
      · rfl
    refine ⟨_, new, rfl, ?_, hv', h1, h3⟩
    rw [deserialize_serialize new hv' hh', pyItems, foldl_addHashed_fixed _ _ (by simpa using h5 hp),
      List.nil_append]

/-- **C94**, the part that holds: text that is not JSON, or JSON for something that is no
collection, or for a list with lists or objects in it, is left alone; the call raises. -/
theorem C94_malformed_partial (same : Json → Json → Bool) (textOk : Bool) (op : SetOp) (c : Char)
    (t : List Char) (e : Exc)
    (h : (Json.loads (c :: t) = .error e) ∨ (e = .typeError ∧ ∃ v, Json.loads (c :: t) = .ok v ∧
      (v = .null ∨ (∃ b, v = .bool b) ∨ (∃ i, v = .int i) ∨ (∃ x, v = .float x) ∨
        ∃ l, v = .arr l ∧ ∃ w ∈ l, (∃ l', w = .arr l') ∨ ∃ kvs, w = .obj kvs))) :
    op.callText same textOk (some (c :: t)) = (.error e, some (c :: t), []) := by
  have hd : SharedSet.deserialize same (some (c :: t)) = .error e := by
    unfold SharedSet.deserialize
    rcases h with h | ⟨rfl, v, h, hv⟩
    · simp only [h]
    · simp only [h]
      rcases hv with rfl | ⟨_, rfl⟩ | ⟨_, rfl⟩ | ⟨_, rfl⟩ | ⟨l, rfl, w, hw, hk⟩
      · rfl
      · rfl
      · rfl
      · rfl
      · refine if_neg fun ha => ?_
        have := List.all_eq_true.1 ha w hw
        rcases hk with ⟨_, rfl⟩ | ⟨_, rfl⟩ <;> cases this
  unfold SetOp.callText
  rw [hd]

/-- **C94**, what becomes of the rest: of a list with anything else in it the strings are taken and
the rest is kept; of a string, its characters; of an object, its keys. -/
theorem C94_taken {same : Json → Json → Bool} (hs : StringsDiffer same) (c : Char)
    (t : List Char) (v : Json) (h : Json.loads (c :: t) = .ok v) :
    (∀ l, v = .arr l → (∀ w ∈ l, (∀ l', w ≠ .arr l') ∧ ∀ kvs, w ≠ .obj kvs) →
      ∃ d, SharedSet.deserialize same (some (c :: t)) = .ok d ∧ strings d = strings l) ∧
    (∀ s, v = .str s → ∃ d, SharedSet.deserialize same (some (c :: t)) = .ok d ∧ others d = [] ∧
      strings d = {x | ∃ a ∈ s, x = String.ofList [a]}) ∧
    (∀ kvs, v = .obj kvs → ∃ d, SharedSet.deserialize same (some (c :: t)) = .ok d ∧
      others d = [] ∧ strings d = {x | ∃ kv ∈ kvs, x = String.ofList kv.1}) := by
  have hoth : ∀ l : List (List Char), others (pyItems same (l.map fun x => .str x)) = [] :=
    fun l => others_foldl_addHashed l []
  refine ⟨?_, ?_, ?_⟩
  · rintro l rfl hl
    refine ⟨pyItems same l, ?_, ?_⟩
    · unfold SharedSet.deserialize
      simp only [h]
      refine if_pos (List.all_eq_true.2 fun w hw => ?_)
      obtain ⟨h1, h2⟩ := hl w hw
      cases w <;> first | rfl | exact absurd rfl (h1 _) | exact absurd rfl (h2 _)
    · ext x
      simp only [strings, Set.mem_ofPred_eq]
      rw [pyItems, str_mem_foldl_addHashed hs]
      simp
  · rintro s rfl
    refine ⟨pyItems same (s.map fun a => .str [a]), ?_, ?_, ?_⟩
    · unfold SharedSet.deserialize
      simp only [h]
    · have := hoth (s.map fun a => [a])
      rwa [List.map_map] at this
    · ext x
      simp only [strings, Set.mem_ofPred_eq]
      rw [pyItems, str_mem_foldl_addHashed hs]
      simp only [List.not_mem_nil, false_or, List.mem_map, Json.str.injEq]
      constructor
      · rintro ⟨a, ha, h⟩; exact ⟨a, ha, by rw [h, String.ofList_toList]⟩
      · rintro ⟨a, ha, rfl⟩; exact ⟨a, ha, by rw [String.toList_ofList]⟩
  · rintro kvs rfl
    refine ⟨pyItems same (kvs.map fun kv => .str kv.1), ?_, ?_, ?_⟩
    · unfold SharedSet.deserialize
      simp only [h]
    · have := hoth (kvs.map fun kv => kv.1)
      rwa [List.map_map] at this
    · ext x
      simp only [strings, Set.mem_ofPred_eq]
      rw [pyItems, str_mem_foldl_addHashed hs]
      simp only [List.not_mem_nil, false_or, List.mem_map, Json.str.injEq]
      constructor
      · rintro ⟨a, ha, h⟩; exact ⟨a, ha, by rw [h, String.ofList_toList]⟩
      · rintro ⟨a, ha, rfl⟩; exact ⟨a, ha, by rw [String.toList_ofList]⟩

/-- **C94**: any number of calls one after the other, on the text: outcomes are those of the
operations on sets. -/
theorem C94_calls {same : Json → Json → Bool} (hs : StringsDiffer same) (ops : List SetOp)
    (data : Option (List Char)) (d : List Json)
    (hd : SharedSet.deserialize same data = .ok d) (hv : ∀ v ∈ d, ValidJson v) :
    ∃ l, SharedSet.deserialize same
        (ops.foldl (fun t op => (op.callText same true t).2.1) data) = .ok l ∧
      strings l = applyAll (strings d) ops ∧ others l = others d := by
  induction ops generalizing data d with
  | nil => exact ⟨d, hd, rfl, rfl⟩
  | cons op ops ih =>
    obtain ⟨h1, h2⟩ := C94_call hs op data d hd hv
    by_cases hs : apply (strings d) op = strings d
    · obtain ⟨l, h3, h4, h5⟩ := ih data d hd hv
      refine ⟨l, ?_, ?_, h5⟩
      · rw [List.foldl_cons, h1 hs]; exact h3
      · rw [h4, applyAll, applyAll, List.foldl_cons, hs]
    · obtain ⟨t, l, h3, h4, hl, h5, h6⟩ := h2 hs
      obtain ⟨l', h7, h8, h9⟩ := ih (some t) l h4 hl
      refine ⟨l', ?_, ?_, h9.trans h6⟩
      · rw [List.foldl_cons, h3]; exact h7
      · rw [h8, applyAll, applyAll, List.foldl_cons, h5]

/-- `==` with numbers compared as numbers, where they are whole. -/
def exSame : Json → Json → Bool
  | .null, .null => true
  | .bool a, .bool b => a == b
  | .bool a, .int i => (if a then 1 else 0) == i
  | .int i, .bool a => (if a then 1 else 0) == i
  | .int i, .int j => i == j
  | .float s, .float t => s == t
  | .str s, .str t => s == t
  | _, _ => false

theorem exSame_strings : StringsDiffer exSame where
  left s v := by
    cases v with
    | str t => simp only [exSame, beq_iff_eq, Json.str.injEq]; exact eq_comm
    | _ => simp [exSame]
  right v s := by
    cases v with
    | str t => simp only [exSame, beq_iff_eq, Json.str.injEq]
    | _ => simp [exSame]

theorem scanChar_raises {s : List Char} {e : Exc} (h : Json.scanChar s = .error e) :
    e = .valueError := by
  unfold Json.scanChar at h
  repeat' split at h
  all_goals first
    | (cases h; rfl)
    | cases h

theorem scanChars_raises (fuel : Nat) : ∀ (s : List Char) (e : Exc),
    Json.scanChars fuel s = .error e → e = .valueError := by
  induction fuel with
  | zero => intro s e h; cases h; rfl
  | succ fuel ih =>
    intro s e h
    simp only [Json.scanChars] at h
    split at h
    · rename_i he; cases h; exact scanChar_raises he
    · cases h
    · split at h
      · rename_i he; cases h; exact ih _ _ he
      · cases h

theorem scanNumber_raises {s : List Char} {e : Exc} (h : Json.scanNumber s = .error e) :
    e = .valueError := by
  unfold Json.scanNumber Json.numberOf at h
  repeat' split at h
  all_goals first
    | (cases h; rfl)
    | cases h

theorem scan_raises (fuel : Nat) :
    (∀ (s : List Char) (e : Exc), Json.scan fuel s = .error e → e = .valueError) ∧
    (∀ (s : List Char) (e : Exc), Json.scanElems fuel s = .error e → e = .valueError) ∧
    ∀ (s : List Char) (e : Exc), Json.scanMembers fuel s = .error e → e = .valueError := by
  induction fuel with
  | zero => exact ⟨fun s e h => by cases h; rfl, fun s e h => by cases h; rfl,
      fun s e h => by cases h; rfl⟩
  | succ fuel ih =>
    obtain ⟨i1, i2, i3⟩ := ih
    refine ⟨fun s e h => ?_, fun s e h => ?_, fun s e h => ?_⟩
    · rw [Json.scan.eq_def] at h
      dsimp only at h
      repeat' split at h
      all_goals first
        | exact scanNumber_raises h
        | (rename_i he; cases h; first
            | exact i1 _ _ he
            | exact i2 _ _ he
            | exact i3 _ _ he
            | exact scanChars_raises _ _ _ he)
        | (cases h; rfl)
        | cases h
    · rw [Json.scanElems.eq_def] at h
      dsimp only at h
      repeat' split at h
      all_goals first
        | (rename_i he; cases h; first
            | exact i1 _ _ he
            | exact i2 _ _ he
            | exact i3 _ _ he
            | exact scanChars_raises _ _ _ he)
        | (cases h; rfl)
        | cases h
    · rw [Json.scanMembers.eq_def] at h
      dsimp only at h
      repeat' split at h
      all_goals first
        | (rename_i he; cases h; first
            | exact i1 _ _ he
            | exact i2 _ _ he
            | exact i3 _ _ he
            | exact scanChars_raises _ _ _ he)
        | (cases h; rfl)
        | cases h

/-- **C94**: text that is no JSON raises a `ValueError`, other JSON a `TypeError`, out of
`add_items` and `remove_items`; nothing is written. -/
theorem C94_raises (same : Json → Json → Bool) (textOk : Bool) (op : SetOp) (c : Char)
    (t : List Char) (e : Exc) :
    (Json.loads (c :: t) = .error e → e = .valueError ∧
      op.callText same textOk (some (c :: t)) = (.error .valueError, some (c :: t), [])) ∧
    ((op.callText same textOk (some (c :: t))).1 = .error e → e ≠ .typeError →
      e = .valueError ∧ Json.loads (c :: t) = .error .valueError) := by
  have key : ∀ e, Json.loads (c :: t) = .error e → e = .valueError := by
    intro e h
    unfold Json.loads at h
    split at h
    · cases h; rfl
    · split at h
      · rename_i he; cases h; exact (scan_raises _).1 _ _ he
      · split at h
        · cases h
        · cases h; rfl
  refine ⟨fun h => ?_, fun h hne => ?_⟩
  · obtain rfl := key e h
    exact ⟨rfl, C94_malformed_partial same textOk op c t _ (.inl h)⟩
  · unfold SetOp.callText at h
    cases hd : SharedSet.deserialize same (some (c :: t)) with
    | error e' =>
      rw [hd] at h
      cases h
      unfold SharedSet.deserialize at hd
      dsimp only at hd
      split at hd
      · rename_i he; cases hd; exact ⟨key _ he, by rw [he, key _ he]⟩
      · split at hd
        · cases hd
        · cases hd; exact absurd rfl hne
      · cases hd
      · cases hd
      · cases hd; exact absurd rfl hne
    | ok d =>
      rw [hd] at h
      dsimp only at h
      split at h
      · cases h
      · split at h
        · cases h
        · cases h; exact absurd rfl hne

-- Non-vacuity of `C94_raises`.
example : Json.loads "[\"a:0\"".toList = .error .valueError ∧
    ((SetOp.add ["b:1"]).callText exSame true (some "[\"a:0\"".toList)).1 = .error .valueError := by
  constructor <;> krfl

/-- **C94** is false as stated: a JSON string is not a list of strings, and it is not left alone:
adding an item replaces it by the list of its characters and that item.  Nor is an object: its
keys stay, its values are lost. -/
theorem C94_false : ∃ same, StringsDiffer same ∧
    (SetOp.add ["x:0"]).callText same true (some "\"ab\"".toList) =
      (.ok (), some "[\"a\", \"b\", \"x:0\"]".toList, ["[\"a\", \"b\", \"x:0\"]".toList]) ∧
    (SetOp.remove ["a:0"]).callText same true (some "{\"a:0\": 1, \"b:1\": 2}".toList) =
      (.ok (), some "[\"b:1\"]".toList, ["[\"b:1\"]".toList]) := by
  refine ⟨exSame, exSame_strings, ?_, ?_⟩ <;> exact of_decide_eq_true (by krfl)

/-- Items are added to an empty node, one is removed, one with an umlaut is added; a number is
kept; a list in the list is refused. -/
example : (SetOp.add ["a:0", "b:1"]).callText exSame true .none =
      (.ok (), some "[\"a:0\", \"b:1\"]".toList, ["[\"a:0\", \"b:1\"]".toList]) ∧
    (SetOp.remove ["a:0"]).callText exSame true (some "[\"a:0\", \"b:1\"]".toList) =
      (.ok (), some "[\"b:1\"]".toList, ["[\"b:1\"]".toList]) ∧
    (SetOp.add ["ü:0"]).callText exSame true (some "[\"b:1\"]".toList) =
      (.ok (), some "[\"b:1\", \"\\u00fc:0\"]".toList, ["[\"b:1\", \"\\u00fc:0\"]".toList]) ∧
    (SetOp.add ["b:1"]).callText exSame false (some "[\"b:1\"]".toList) =
      (.ok (), some "[\"b:1\"]".toList, []) ∧
    (SetOp.add ["b:1"]).callText exSame true (some "[1, ".toList) =
      (.error .valueError, some "[1, ".toList, []) ∧
    (SetOp.add ["b:1"]).callText exSame true (some "[1, true, null]".toList) =
      (.ok (), some "[1, null, \"b:1\"]".toList, ["[1, null, \"b:1\"]".toList]) ∧
    (SetOp.add ["b:1"]).callText exSame true (some "[\"a:0\", []]".toList) =
      (.error .typeError, some "[\"a:0\", []]".toList, []) := by
  refine ⟨?_, ?_, ?_, ?_, ?_, ?_, ?_⟩ <;> exact of_decide_eq_true (by krfl)

end Kiel
