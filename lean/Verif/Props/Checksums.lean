import Verif.Props.EndToEnd
/- C74: checksums of received messages. -/
set_option autoImplicit false
namespace Kiel
open Spec

/-- An entry of a message set whose checksum field holds `sum`. -/
def Spec.stamped (sum : Int) (e : Int × Val × Val) : Bytes :=
  be 8 e.1 ++ be 4 (4 + (body (mkMessage 0 e.2.1 e.2.2)).length) ++
    (be 4 sum ++ body (mkMessage 0 e.2.1 e.2.2))

/-- A message set with these checksums. -/
def Spec.stampedSet (l : List (Int × Int × Val × Val)) : Bytes :=
  (l.map fun e => stamped e.1 e.2).flatten

/-- The checksum is that of the message. -/
def Spec.Intact (sum : Int) (e : Int × Val × Val) : Prop :=
  sum = signed32 (crc32 (body (mkMessage 0 e.2.1 e.2.2)))

/-- C74 as stated: a message with another checksum is not among those read from its set. -/
def Spec.ChecksumsGuard : Prop :=
  ∀ (cx : Codec) (depth : Nat) (sum : Int) (e : Int × Val × Val) (v : Val) (off : Nat),
    Writable e → Fits 4 sum → ¬ Intact sum e →
    parse cx depth .messageSet (be 4 (stampedSet [(sum, e)]).length ++ stampedSet [(sum, e)]) 0 =
      .ok (v, off) → view v = []

theorem stamped_intact (e : Int × Val × Val) :
    stamped (signed32 (crc32 (body (mkMessage 0 e.2.1 e.2.2)))) e =
    entry (.int e.1, mkMessage 0 e.2.1 e.2.2) := by
  have hbe : be 4 (crc32 (body (mkMessage 0 e.2.1 e.2.2))) =
      be 4 (signed32 (crc32 (body (mkMessage 0 e.2.1 e.2.2)))) := by
    unfold signed32; split
    · rfl
    · rw [be_mod4]
  simp only [stamped, entry, intOf, message, ← hbe, List.length_append, be_length]
  push_cast
  rfl

theorem stamped_length (sum : Int) (e : Int × Val × Val) :
    (stamped sum e).length = (entry (.int e.1, mkMessage 0 e.2.1 e.2.2)).length := by
  rw [← stamped_intact]
  simp [stamped, be_length]

theorem parseSetEntry_stamped {cx : Codec} {sum : Int} {e : Int × Val × Val} (h : Writable e)
    (hs : Fits 4 sum) (pre suf : Bytes) :
    parseSetEntry cx (pre ++ (stamped sum e ++ suf)) pre.length =
      .ok (.int e.1, [("crc", .int sum), ("magic", .int 0), ("attributes", .int 0),
        ("key", sizedValue e.2.1), ("value", sizedValue e.2.2)],
        pre.length + (stamped sum e).length) := by
  obtain ⟨i, k, w⟩ := e
  have hb : body (mkMessage 0 k w) = be 1 0 ++ (be 1 0 ++ (sized 4 k ++ sized 4 w)) := by
    simp [body, mkMessage, attr, intOf]
  have hsz : ((4 : Int) + ((body (mkMessage 0 k w)).length : Nat)) =
      ((message (mkMessage 0 k w)).length : Nat) := by
    simp [message, be_length]
  set n : Int := (4 : Int) + ((body (mkMessage 0 k w)).length : Nat) with hn
  have fn : Fits 4 n := by rw [hsz]; exact fits_nat (n := 4) h.size
  have f0 : Fits 1 0 := by unfold Fits; norm_num
  have hbuf : pre ++ (stamped sum (i, k, w) ++ suf) = pre ++ (be 8 i ++ (be 4 n ++ (be 4 sum ++
      (be 1 0 ++ (be 1 0 ++ (sized 4 k ++ (sized 4 w ++ suf))))))) := by
    simp only [stamped, hn, hb, List.append_assoc]
  have hlen : (stamped sum (i, k, w)).length =
      8 + (4 + (4 + (1 + (1 + ((sized 4 k).length + (sized 4 w).length))))) := by
    simp only [stamped, hb, List.length_append, be_length]
    omega
  have h1 := parseInt_be (n := 8) (by norm_num) h.offset pre
    (be 4 n ++ (be 4 sum ++ (be 1 0 ++ (be 1 0 ++ (sized 4 k ++ (sized 4 w ++ suf))))))
  have h2 := parseInt_be (n := 4) (by norm_num) fn (pre ++ be 8 i)
    (be 4 sum ++ (be 1 0 ++ (be 1 0 ++ (sized 4 k ++ (sized 4 w ++ suf)))))
  have h3 := parseInt_be (n := 4) (by norm_num) hs (pre ++ be 8 i ++ be 4 n)
    (be 1 0 ++ (be 1 0 ++ (sized 4 k ++ (sized 4 w ++ suf))))
  have h4 := parseInt_be (n := 1) (by norm_num) f0 (pre ++ be 8 i ++ be 4 n ++ be 4 sum)
    (be 1 0 ++ (sized 4 k ++ (sized 4 w ++ suf)))
  have h5 := parseInt_be (n := 1) (by norm_num) f0 (pre ++ be 8 i ++ be 4 n ++ be 4 sum ++ be 1 0)
    (sized 4 k ++ (sized 4 w ++ suf))
  have h6 := parseVar_sized (n := 4) (by norm_num) h.key
    (pre ++ be 8 i ++ be 4 n ++ be 4 sum ++ be 1 0 ++ be 1 0) (sized 4 w ++ suf)
  have h7 := parseVar_sized (n := 4) (by norm_num) h.value
    (pre ++ be 8 i ++ be 4 n ++ be 4 sum ++ be 1 0 ++ be 1 0 ++ sized 4 k) suf
  simp only [List.append_assoc, List.length_append, be_length] at h1 h2 h3 h4 h5 h6 h7
  simp only [← Nat.add_assoc] at h1 h2 h3 h4 h5 h6 h7
  simp only [parseSetEntry, hbuf, h1, h2, parseMessage, parseMessageParts, h3, h4, h5, h6, h7]
  simp [getAttr, Dict.get?, Val.toInt, hlen]
  omega

/-- **C74** (what the code does): a set of messages with any checksums at all is read as the same
messages. -/
theorem C74_ignored (cx : Codec) (depth : Nat) (l : List (Int × Int × Val × Val))
    (h : ∀ e ∈ l, Writable e.2 ∧ Fits 4 e.1) (hl : (stampedSet l).length < 2 ^ 31)
    (pre suf : Bytes) :
    ∃ v, parse cx depth .messageSet
        (pre ++ (be 4 (stampedSet l).length ++ stampedSet l) ++ suf) pre.length =
        .ok (v, pre.length + 4 + (stampedSet l).length) ∧
      view v = l.map fun e => (e.2.1, sizedValue e.2.2.1, sizedValue e.2.2.2) := by
  have loop : ∀ (l : List (Int × Int × Val × Val)), (∀ e ∈ l, Writable e.2 ∧ Fits 4 e.1) →
      ∀ (pre : Bytes) (fuel : Nat), l.length < fuel → ∃ ms,
      parseSetLoop cx (parseNested cx depth) (pre ++ (stampedSet l ++ suf))
        ((pre.length : Int) + (stampedSet l).length) fuel pre.length =
        .ok (ms, pre.length + (stampedSet l).length) ∧
      view (.mset ms) = l.map fun e => (e.2.1, sizedValue e.2.2.1, sizedValue e.2.2.2) := by
    intro l
    induction l with
    | nil =>
      intro _ pre fuel hf
      obtain ⟨k, rfl⟩ : ∃ k, fuel = k + 1 := ⟨fuel - 1, by simp at hf; omega⟩
      exact ⟨[], by simp [parseSetLoop, stampedSet], rfl⟩
    | cons e r ih =>
      intro h pre fuel hf
      simp only [List.mem_cons, forall_eq_or_imp] at h
      obtain ⟨k, rfl⟩ : ∃ k, fuel = k + 1 := ⟨fuel - 1, by simp at hf; omega⟩
      have he : stampedSet (e :: r) = stamped e.1 e.2 ++ stampedSet r := by simp [stampedSet]
      have hp : 0 < (stamped e.1 e.2).length := by simp [stamped, be_length]
      have h1 := parseSetEntry_stamped (cx := cx) h.1.1 h.1.2 pre (stampedSet r ++ suf)
      obtain ⟨ms, h2, h3⟩ := ih h.2 (pre ++ stamped e.1 e.2) k (by simp at hf; omega)
      have hbuf : pre ++ (stampedSet (e :: r) ++ suf) =
          pre ++ (stamped e.1 e.2 ++ (stampedSet r ++ suf)) := by simp [he]
      simp only [List.append_assoc, List.length_append] at h2
      have hst : (pre.length : Int) + (stampedSet (e :: r)).length =
          ((pre.length + (stamped e.1 e.2).length : Nat) : Int) + (stampedSet r).length := by
        rw [he]; simp; omega
      refine ⟨(.int e.2.1, .part [("crc", .int e.1), ("magic", .int 0), ("attributes", .int 0),
        ("key", sizedValue e.2.2.1), ("value", sizedValue e.2.2.2)]) :: ms, ?_, ?_⟩
      · rw [parseSetLoop, if_neg (by rw [he]; simp; omega), hbuf, h1]
        simp only [getAttr, Dict.get?, Val.toInt]
        rw [hst, h2]
        simp [he]
        omega
      · simp only [view, msgs, List.map_cons] at h3 ⊢
        rw [h3]
        simp [intOf, attr]
  have hge : l.length ≤ (stampedSet l).length := by
    clear hl h loop
    induction l with
    | nil => simp
    | cons e r ih =>
      have hp : 0 < (stamped e.1 e.2).length := by simp [stamped, be_length]
      simp only [stampedSet, List.map_cons, List.flatten_cons, List.length_append,
        List.length_cons] at ih ⊢
      omega
  have h1 := unpackInt_be (n := 4) (by norm_num) (fits_nat (n := 4) hl) pre (stampedSet l ++ suf)
  obtain ⟨ms, h2, h3⟩ := loop l h (pre ++ be 4 (stampedSet l).length)
    ((pre ++ (be 4 (stampedSet l).length ++ (stampedSet l ++ suf))).length + 1)
    (by simp [be_length]; omega)
  refine ⟨.mset ms, ?_, h3⟩
  have hb : pre ++ (be 4 (stampedSet l).length ++ stampedSet l) ++ suf =
      pre ++ (be 4 (stampedSet l).length ++ (stampedSet l ++ suf)) := by simp
  rw [hb, parse, parseSet, h1]
  simp only [List.append_assoc, List.length_append, be_length] at h2 ⊢
  push_cast at h2 ⊢
  rw [h2]

/-- **C74** is false of the code: the message is read, whatever the checksum. -/
theorem C74_false : ¬ ChecksumsGuard := by
  intro h
  have hw : Writable (41, .none, .str "w") := ⟨by unfold Fits; norm_num, .inl rfl,
    .inr ⟨_, rfl, by decide +kernel⟩, by decide +kernel, by decide +kernel⟩
  have hf : Fits 4 0 := by unfold Fits; norm_num
  obtain ⟨v, h1, h2⟩ := C74_ignored storeCodec 0 [(0, 41, .none, .str "w")]
    (by simpa using ⟨hw, hf⟩) (by decide +kernel) [] []
  simp only [List.nil_append, List.append_nil, List.length_nil] at h1
  have h3 := h storeCodec 0 0 _ v _ hw hf (by unfold Intact; decide +kernel) h1
  rw [h2] at h3
  simp at h3

-- The same, through the handler of the consumer: the checksum is that of another message.
example : (Schema.fetchResponse.deserialize storeCodec 1
      (fetchWire [topicWire "t" [be 4 0 ++ be 2 0 ++ be 8 42 ++
        (be 4 (stampedSet [(7, 41, .none, .str "w")]).length ++
          stampedSet [(7, 41, .none, .str "w")])]])).map
      (fun v => (handleFetchResponse exTextCfg (frespOf v) (exConsumer : Consumer Unit)).1) =
    .ok (.ok ["w"]) ∧ ¬ Intact 7 (41, .none, .str "w") := by
  refine ⟨by decide +kernel, by unfold Intact; decide +kernel⟩
-- A message with its own checksum is what the format prescribes.
example (e : Int × Val × Val) (sum : Int) (h : Intact sum e) :
    stamped sum e = entry (.int e.1, mkMessage 0 e.2.1 e.2.2) := by
  rw [h]; exact stamped_intact e

end Kiel
