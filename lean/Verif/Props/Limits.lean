import Verif.Spec.Limits
import Verif.Props.EndToEnd
import Verif.Props.Progress
/- C119: consumers and brokers that limit the size of what they send. -/
set_option autoImplicit false
namespace Kiel
open Spec

variable {ε δ : Type}

theorem whole_prefix : ∀ (n : Nat) (es : List (Val × Val)), whole n es <+: es
  | _, [] => by simp [whole]
  | n, e :: es => by
    rw [whole]
    split
    · exact (List.prefix_cons_inj e).2 (whole_prefix _ es)
    · exact List.nil_prefix

theorem whole_length : ∀ (n : Nat) (es : List (Val × Val)), (entries (whole n es)).length ≤ n
  | _, [] => by simp [whole, entries]
  | n, e :: es => by
    rw [whole]
    split
    · next h =>
      have := whole_length (n - (entry e).length) es
      rw [entries_cons, List.length_append]
      omega
    · simp [entries]

/-- The first bytes of a set are its first entries and a part of the next. -/
theorem take_entries : ∀ (n : Nat) (es : List (Val × Val)), EndsWhole n es ∨
    ∃ e rest k, es = whole n es ++ e :: rest ∧ k < (entry e).length ∧
      (entries es).take n = entries (whole n es) ++ (entry e).take k ∧
      (entries (whole n es)).length + k = n
  | n, [] => .inl (by simp [EndsWhole, whole, entries])
  | n, e :: es => by
    by_cases h : (entry e).length ≤ n
    · have hw : whole n (e :: es) = e :: whole (n - (entry e).length) es := by rw [whole, if_pos h]
      have ht : (entries (e :: es)).take n =
          entry e ++ (entries es).take (n - (entry e).length) := by
        rw [entries_cons, List.take_append, List.take_of_length_le h]
      rcases take_entries (n - (entry e).length) es with ih | ⟨x, rest, k, h1, h2, h3, h4⟩
      · left
        unfold EndsWhole at ih ⊢
        rw [ht, hw, ih, entries_cons]
      · right
        refine ⟨x, rest, k, ?_, h2, ?_, ?_⟩
        · rw [hw, List.cons_append, ← h1]
        · rw [ht, hw, h3, entries_cons, List.append_assoc]
        · rw [hw, entries_cons, List.length_append]; omega
    · have hw : whole n (e :: es) = [] := by rw [whole, if_neg h]
      right
      refine ⟨e, es, n, by rw [hw]; rfl, by omega, ?_, by rw [hw]; simp [entries]⟩
      rw [hw, entries_cons, List.take_append_of_le_length (by omega)]
      simp [entries]

theorem stored_plain {packed : Int → Bytes → Bytes → Prop} : ∀ (es : List (Val × Val)),
    (∀ e ∈ es, PlainEntry e) → List.Forall₂ (Stored packed) es (es.map fun e => [e])
  | [], _ => .nil
  | e :: es, h => .cons (.plain (h e (by simp))) (stored_plain es fun e he => h e (by simp [he]))

/-- The partition as answered, with the entries that are sent whole. -/
def Spec.wholePart (hw : Int) (es : List (Val × Val)) (f : FPartReq) : PartResp :=
  let ms := whole f.maxBytes.toNat (entriesFrom f.offset es)
  ⟨f.id, 0, hw, ms, ms.map fun e => [e]⟩

/-- What the consumer is to see of it. -/
def Spec.seenPart (es : List (Val × Val)) (f : FPartReq) : FPart Val :=
  ⟨f.id, 0, logOf (whole f.maxBytes.toNat (entriesFrom f.offset es))⟩

theorem wholePart_ok {cx : Codec} {hw : Int} {es : List (Val × Val)} {f : FPartReq}
    (hes : ∀ e ∈ es, PlainEntry e) (hhw : Fits 8 hw) (hid : Fits 4 f.id)
    (hm : f.maxBytes < 2 ^ 31) : (wholePart hw es f).Ok (Packed cx) where
  partition := hid
  error := by unfold Fits; norm_num [wholePart]
  highwater := hhw
  stored := stored_plain _ fun e he =>
    hes e (List.mem_of_mem_filter ((whole_prefix _ _).subset he))
  size := by
    have := whole_length f.maxBytes.toNat (entriesFrom f.offset es)
    show (entries (whole f.maxBytes.toNat (entriesFrom f.offset es))).length < 2 ^ 31
    omega

theorem wholePart_wire {hw : Int} {es : List (Val × Val)} {f : FPartReq}
    (h : EndsWhole f.maxBytes.toNat (entriesFrom f.offset es)) :
    limitedPart hw es f = (wholePart hw es f).wire := by
  unfold EndsWhole at h
  simp only [limitedPart, h, PartResp.wire, PartResp.head, wholePart]

theorem wholePart_value (hw : Int) (es : List (Val × Val)) (f : FPartReq) :
    fpartOf (wholePart hw es f).value = seenPart es f := by
  have hm : ∀ (e : Val), e.toInt = intOf e := by
    intro e; cases e <;> rfl
  have hf : ∀ l : List (Val × Val), (l.map fun e => [e]).flatten = l := by
    intro l
    induction l with
    | nil => rfl
    | cons e l ih => simpa using ih
  simp only [fpartOf, seenPart, PartResp.value, wholePart, hf]
  simp [Val.fields, getAttr, Dict.get?, hm, intOf, Val.messages, logOf, Function.comp_def,
    messageValue]

/-- **C119**: an answer in which at most the last partition ends within an entry is read: of each
partition exactly the messages that were sent whole, in order, with the code 0. -/
theorem C119_read (cx : Codec) (depth : Nat) (hw : String → Int → Int)
    (elogs : String → Int → List (Val × Val)) (q : FReq)
    (hes : ∀ t p, ∀ e ∈ elogs t p, PlainEntry e) (hhw : ∀ t p, Fits 8 (hw t p)) (hq : Sendable q)
    (hcut : CutLast elogs q) :
    ∃ v, Schema.fetchResponse.deserialize cx (depth + 1) (limitedWire hw elogs q) = .ok v ∧
      frespOf v = ⟨[(q.topic, q.parts.map fun f => seenPart (elogs q.topic f.id) f)]⟩ := by
  obtain ⟨fs, f, hparts, hfs⟩ := hcut
  have hcount : fs.length + 1 < 2 ^ 31 := by have := hq.count; rw [hparts] at this; simpa using this
  have hok : ∀ g ∈ q.parts, (wholePart (hw q.topic g.id) (elogs q.topic g.id) g).Ok (Packed cx) :=
    fun g hg => wholePart_ok (hes _ _) (hhw _ _) (hq.ids g hg) (hq.limits g hg)
  have hfront : fs.map (fun g => limitedPart (hw q.topic g.id) (elogs q.topic g.id) g) =
      (fs.map fun g => wholePart (hw q.topic g.id) (elogs q.topic g.id) g).map PartResp.wire := by
    rw [List.map_map]
    exact List.map_congr_left fun g hg => wholePart_wire (hfs g hg)
  have hread : ∀ ps : List PartResp,
      ps = q.parts.map (fun g => wholePart (hw q.topic g.id) (elogs q.topic g.id) g) →
      frespOf (.part [("topics", .list [topicValue q.topic ps])]) =
        ⟨[(q.topic, q.parts.map fun f => seenPart (elogs q.topic f.id) f)]⟩ := by
    rintro _ rfl
    simp only [frespOf, Val.fields, getAttr, Dict.get?, Val.items]
    simp [topicValue, Val.text, Dict.get?, Function.comp_def, wholePart_value]
  have hlast := take_entries f.maxBytes.toNat (entriesFrom f.offset (elogs q.topic f.id))
  have hf : f ∈ q.parts := by simp [hparts]
  rcases hlast with hl | ⟨e, rest, k, h1, h2, h3, h4⟩
  · have := C07_fetch cx depth
      [(q.topic, q.parts.map fun g => wholePart (hw q.topic g.id) (elogs q.topic g.id) g)]
      (by
        intro t ht
        simp only [List.mem_singleton] at ht
        subst ht
        refine ⟨hq.name, by simpa using hq.count, ?_⟩
        intro p hp
        obtain ⟨g, hg, rfl⟩ := List.mem_map.1 hp
        exact hok g hg) (by norm_num) []
    rw [List.append_nil] at this
    have hwire : limitedWire hw elogs q = fetchWire ([(q.topic, q.parts.map fun g =>
        wholePart (hw q.topic g.id) (elogs q.topic g.id) g)].map topicBytes) := by
      unfold limitedWire
      rw [List.map_singleton, topicBytes, hparts]
      simp only [List.map_append, List.map_cons, List.map_nil, hfront, wholePart_wire hl]
    exact ⟨_, by rw [hwire]; exact this, hread _ rfl⟩
  · have he : EntryOk e := by
      have : e ∈ entriesFrom f.offset (elogs q.topic f.id) := by rw [h1]; simp
      exact (hes _ _ e (List.mem_of_mem_filter this)).toEntryOk
    have hm := hq.limits f hf
    have := C12_last_partial cx depth []
      (q.topic, fs.map fun g => wholePart (hw q.topic g.id) (elogs q.topic g.id) g)
      (wholePart (hw q.topic f.id) (elogs q.topic f.id) f) e k (by simp) (by norm_num)
      ⟨hq.name, by simp only [List.length_map]; omega, by
        intro p hp
        obtain ⟨g, hg, rfl⟩ := List.mem_map.1 hp
        exact hok g (by simp [hparts, hg])⟩ (by simpa using hcount) (hok f hf) he h2
      (by
        show (entries (whole f.maxBytes.toNat _)).length + k < 2 ^ 31
        omega)
    simp only [List.map_nil, List.nil_append] at this
    have hone : limitedPart (hw q.topic f.id) (elogs q.topic f.id) f =
        (wholePart (hw q.topic f.id) (elogs q.topic f.id) f).cutWire e k := by
      simp only [limitedPart, h3, PartResp.cutWire, PartResp.head, wholePart, cutSet]
    have hwire : limitedWire hw elogs q = fetchWire [topicWire q.topic ((fs.map fun g =>
        wholePart (hw q.topic g.id) (elogs q.topic g.id) g).map PartResp.wire ++
        [(wholePart (hw q.topic f.id) (elogs q.topic f.id) f).cutWire e k])] := by
      unfold limitedWire
      rw [hparts]
      simp only [List.map_append, List.map_cons, List.map_nil, hfront, hone]
    exact ⟨_, by rw [hwire]; exact this,
      hread (fs.map (fun g => wholePart (hw q.topic g.id) (elogs q.topic g.id) g) ++
        [wholePart (hw q.topic f.id) (elogs q.topic f.id) f]) (by rw [hparts]; simp)⟩

theorem logOf_from (o : Int) (es : List (Val × Val)) :
    logOf (entriesFrom o es) = (logOf es).filter fun m => decide (o ≤ m.1) := by
  simp only [logOf, entriesFrom, List.filter_map, Function.comp_def]

theorem seenPart_batch (es : List (Val × Val)) (f : FPartReq) :
    Batch (logOf es) f.offset (seenPart es f).msgs := by
  unfold Batch
  rw [← logOf_from]
  exact (whole_prefix _ _).map _

theorem limited_answer {cx : Codec} {depth : Nat} {hw : String → Int → Int}
    {elogs : String → Int → List (Val × Val)} (hes : ∀ t p, ∀ e ∈ elogs t p, PlainEntry e)
    (hhw : ∀ t p, Fits 8 (hw t p)) {env : ConsumeEnv ε Val}
    (h : LimitedFetch cx depth hw elogs env) {reqs : List FReq} {b : Int} {r : FResp Val}
    (hr : (b, .ok r) ∈ env.outcomes reqs) : ∃ q ∈ reqs, q.broker = b ∧ (q.parts.map (·.id)).Nodup ∧
      r = ⟨[(q.topic, q.parts.map fun f => seenPart (elogs q.topic f.id) f)]⟩ := by
  obtain ⟨q, h1, h2, h3, h4, h5, v, h6, rfl⟩ := (h reqs).2 b r hr
  obtain ⟨v', h7, h8⟩ := C119_read cx depth hw elogs q hes hhw h3 h5
  rw [h6] at h7
  simp only [Except.ok.injEq] at h7
  subst h7
  exact ⟨q, h1, h2, h4, h8⟩

theorem limited_honest {cx : Codec} {depth : Nat} {hw : String → Int → Int}
    {elogs : String → Int → List (Val × Val)} (hes : ∀ t p, ∀ e ∈ elogs t p, PlainEntry e)
    (hhw : ∀ t p, Fits 8 (hw t p)) {env : ConsumeEnv ε Val}
    (h : LimitedFetch cx depth hw elogs env) :
    HonestFetch Batch (fun t p => logOf (elogs t p)) env := by
  refine fun reqs => ⟨(h reqs).1, fun b r hr => ?_⟩
  obtain ⟨q, h1, h2, h3, rfl⟩ := limited_answer hes hhw h hr
  refine ⟨q, h1, h2, _, rfl, ?_, ?_⟩
  · rw [List.map_map]
    exact h3
  · intro p hp
    obtain ⟨f, hf, rfl⟩ := List.mem_map.1 hp
    exact ⟨by simp [seenPart], fun _ => ⟨f, hf, rfl, seenPart_batch _ _⟩⟩

theorem whole_ne {n : Nat} {es : List (Val × Val)} (hne : es ≠ [])
    (h : ∀ e ∈ es, (entry e).length ≤ n) : whole n es ≠ [] := by
  cases es with
  | nil => exact absurd rfl hne
  | cons e es =>
    rw [whole, if_pos (h e (by simp))]
    simp

theorem asked_supplied {cx : Codec} {depth : Nat} {hw : String → Int → Int}
    {elogs : String → Int → List (Val × Val)} (hes : ∀ t p, ∀ e ∈ elogs t p, PlainEntry e)
    (hhw : ∀ t p, Fits 8 (hw t p)) {env : ConsumeEnv ε Val}
    (h : LimitedFetch cx depth hw elogs env) {cfg : CCfg Val δ} {acts : List CAct} {t : String}
    {p : Int} {m : Nat} {o : Int} (hmax : 0 ≤ cfg.maxBytes)
    (hfit : ∀ e ∈ elogs t p, ((entry e).length : Int) * m ≤ cfg.maxBytes)
    (hdec : ∀ x ∈ logOf (elogs t p), (decode cfg x.2).isSome)
    (hne : entriesFrom o (elogs t p) ≠ []) {reqs : List FReq}
    (hreqs : ∀ reqs', CAct.fetch reqs' ∈ acts → reqs' = reqs)
    {c : Consumer ε} {topic : String} {parts : List Int} (ho : offsetOf c.offsets t p = o)
    (hx : FetchesExactly cfg c topic parts reqs) (ha : Asked env acts t p m) :
    Supplied cfg env acts t p o := by
  obtain ⟨reqs', h1, q, hq, rfl, ⟨f, hf, rfl⟩, hlen, r, hr⟩ := ha
  obtain rfl := hreqs _ h1
  obtain ⟨q', hq', hb, hn, rfl⟩ := limited_answer hes hhw h hr
  obtain rfl : q' = q := List.inj_on_of_nodup_map hx.brokers hq' hq hb
  have hoff : f.offset = o := by
    rw [hx.offsets q' hq f hf, ← ho, (hx.topics q' hq).1]
  have hne' : whole f.maxBytes.toNat (entriesFrom o (elogs q'.topic f.id)) ≠ [] := by
    refine whole_ne hne fun e he => ?_
    have h2 := hx.shares hmax q' hq f hf (entry e).length (by
      have h3 := hfit e (List.mem_of_mem_filter he)
      have h4 : ((entry e).length : Int) * q'.parts.length ≤ (entry e).length * m :=
        Int.mul_le_mul_of_nonneg_left (by omega) (by omega)
      omega)
    omega
  obtain ⟨e, he⟩ := List.exists_mem_of_ne_nil _ hne'
  have he2 := (whole_prefix _ _).subset he
  refine ⟨reqs', h1, _, _, hr, _, rfl, _, List.mem_map.2 ⟨f, hf, rfl⟩, rfl, rfl,
    (intOf e.1, sizedValue (attr e.2 "value")), ?_, ?_, ?_⟩
  · simp only [seenPart, hoff]
    exact List.mem_map.2 ⟨e, he, rfl⟩
  · simpa [entriesFrom] using (List.mem_filter.1 he2).2
  · exact hdec _ (List.mem_map.2 ⟨e, List.mem_of_mem_filter he2, rfl⟩)

theorem ahead_from (cfg : CCfg Val δ) {es : List (Val × Val)}
    (hdec : ∀ x ∈ logOf es, (decode cfg x.2).isSome) (o : Int) :
    ahead cfg (logOf es) o = logOf (entriesFrom o es) := by
  rw [logOf_from]
  unfold ahead
  refine List.filter_congr fun m hm => ?_
  rw [hdec m hm, Bool.and_true]

theorem limited_ahead {allocation : Consumer ε → Res (Dict String (List Int))}
    {determine : String → Consumer ε → Res Unit × Consumer ε} {cfg : CCfg Val δ} {cx : Codec}
    {depth : Nat} {hw : String → Int → Int} {elogs : String → Int → List (Val × Val)}
    (hes : ∀ t p, ∀ e ∈ elogs t p, PlainEntry e) (hl : ∀ t p, IsLog (logOf (elogs t p)))
    (hhw : ∀ t p, Fits 8 (hw t p)) (hmax : 0 ≤ cfg.maxBytes) {t : String} {p : Int} {m n : Nat}
    (hfit : ∀ e ∈ elogs t p, ((entry e).length : Int) * m ≤ cfg.maxBytes)
    (hdec : ∀ x ∈ logOf (elogs t p), (decode cfg x.2).isSome) {c c' : Consumer ε}
    {outs : List (String × δ)}
    (h : LimitedN allocation determine cfg cx depth hw elogs t p m n c outs c') :
    Consumed allocation determine cfg Batch (fun t p => logOf (elogs t p)) c outs c' ∧
    (entriesFrom (offsetOf c'.offsets t p) (elogs t p)).length ≤
      (entriesFrom (offsetOf c.offsets t p) (elogs t p)).length - n := by
  induction h with
  | nil c => exact ⟨.nil c, by omega⟩
  | @cons n k c c1 c2 env topic out acts outs hf htick hc hdet hk _ ih =>
    have hh := limited_honest hes hhw hf
    refine ⟨.cons hh htick hc hdet ih.1, ?_⟩
    have hstep : ∀ k', (k' = 0 ∨ k' = 1 ∧ Supplied cfg env acts t p (offsetOf c.offsets t p)) →
        k' + (entriesFrom (offsetOf c1.offsets t p) (elogs t p)).length ≤
          (entriesFrom (offsetOf c.offsets t p) (elogs t p)).length := by
      intro k' hk'
      have := consumedN_ahead hl ((ConsumedN.cons (t := t) (p := p) hh htick hc hdet hk'
        (.nil c1)).mono fun t p _ _ => Batch.sets (hl t p))
      rw [ahead_from cfg hdec, ahead_from cfg hdec] at this
      simpa [logOf] using this
    by_cases hne : entriesFrom (offsetOf c.offsets t p) (elogs t p) = []
    · have h1 := hstep 0 (.inl rfl)
      have h2 := ih.2
      rw [hne] at h1 ⊢
      simp only [List.length_nil] at h1 ⊢
      omega
    · rcases hk with rfl | ⟨rfl, hk⟩
      · have h1 := hstep 0 (.inl rfl)
        have h2 := ih.2
        omega
      · have hs : Supplied cfg env acts t p (offsetOf c.offsets t p) := by
          rcases consume_step_acts htick (fun reqs => (hh reqs).1) hc hdet with ⟨_, ho, hno⟩ |
            ⟨c0, parts, reqs, g1, g2, g3, g4, g5⟩
          · obtain ⟨reqs, hr, _⟩ := hk
            exact absurd hr (hno reqs)
          · exact asked_supplied hes hhw hf hmax hfit hdec hne g5 (g1 t p) g2 hk
        have h1 := hstep 1 (.inr ⟨rfl, hs⟩)
        have h2 := ih.2
        omega

/-- **C119** (partial: none but the last partition of an answer may end within a message, and the
messages must fit; see `C119_false_cut` and `C119_false_large`).  Whatever brokers fail in between:
of each partition a first part of what is stored from its offset on is returned, each message once
and in order; and of a partition all of it, if each of its messages can be deserialized, has at most
an `m`-th part of `max_bytes`, and the partition was asked for, with at most `m` partitions in one
request, as often as there were messages. -/
theorem C119_catches_up_partial (allocation : Consumer ε → Res (Dict String (List Int)))
    (determine : String → Consumer ε → Res Unit × Consumer ε) (cfg : CCfg Val δ) (cx : Codec)
    (depth : Nat) (hw : String → Int → Int) (elogs : String → Int → List (Val × Val))
    (hes : ∀ t p, ∀ e ∈ elogs t p, PlainEntry e) (hl : ∀ t p, IsLog (logOf (elogs t p)))
    (hhw : ∀ t p, Fits 8 (hw t p)) (hmax : 0 ≤ cfg.maxBytes) (t : String) (p : Int) (m n : Nat)
    (hfit : ∀ e ∈ elogs t p, ((entry e).length : Int) * m ≤ cfg.maxBytes)
    (hdec : ∀ x ∈ logOf (elogs t p), (decode cfg x.2).isSome) (c c' : Consumer ε)
    (outs : List (String × δ))
    (h : LimitedN allocation determine cfg cx depth hw elogs t p m n c outs c') :
    ∃ per, Interleaving per outs ∧
      (∀ t p, per t p <+: (values cfg (logOf (entriesFrom (offsetOf c.offsets t p)
        (elogs t p)))).filter cfg.truthy) ∧
      ((entriesFrom (offsetOf c.offsets t p) (elogs t p)).length ≤ n →
        per t p = (values cfg (logOf (entriesFrom (offsetOf c.offsets t p)
          (elogs t p)))).filter cfg.truthy) := by
  obtain ⟨hc, hlen⟩ := limited_ahead hes hl hhw hmax hfit hdec h
  obtain ⟨h1, h2⟩ := C38_exactly_once_partial allocation determine cfg _ hl c c' outs hc
  have hrest : ∀ t p, (values cfg (logOf (entriesFrom (offsetOf c.offsets t p)
      (elogs t p)))).filter cfg.truthy =
      window cfg (logOf (elogs t p)) (offsetOf c.offsets t p) (offsetOf c'.offsets t p) ++
        restOf cfg (logOf (elogs t p)) (offsetOf c'.offsets t p) := fun t p => by
    have := window_rest cfg (hl t p) (h1 t p)
    rw [restOf, ← logOf_from] at this
    exact this
  refine ⟨_, h2, fun t p => ?_, fun hn => ?_⟩
  · rw [hrest]
    exact List.prefix_append _ _
  · rw [hrest, rest_done cfg (o := offsetOf c'.offsets t p), List.append_nil]
    · rfl
    · rw [ahead_from cfg hdec]
      have : entriesFrom (offsetOf c'.offsets t p) (elogs t p) = [] := by
        rw [← List.length_eq_zero_iff]; omega
      rw [this]
      rfl

theorem le_sum_of_mem {l : List Int} (h : ∀ x ∈ l, 0 ≤ x) {x : Int} (hx : x ∈ l) : x ≤ l.sum := by
  induction l with
  | nil => exact absurd hx List.not_mem_nil
  | cons y l ih =>
    simp only [List.mem_cons, forall_eq_or_imp] at h hx
    have hs : 0 ≤ l.sum := List.sum_nonneg h.2
    rw [List.sum_cons]
    rcases hx with rfl | hx
    · omega
    · have := ih h.2 hx
      omega

/-- One `consume` does not get past a message that is larger than `max_bytes`. -/
theorem limited_stays {allocation : Consumer ε → Res (Dict String (List Int))}
    {determine : Consumer ε → Res Unit × Consumer ε} {cfg : CCfg Val δ} {cx : Codec}
    {depth : Nat} {hw : String → Int → Int} {elogs : String → Int → List (Val × Val)}
    (hes : ∀ t p, ∀ e ∈ elogs t p, PlainEntry e) (hhw : ∀ t p, Fits 8 (hw t p))
    (hmax : 0 ≤ cfg.maxBytes) {t : String} {p o : Int} {e : Val × Val} {rest : List (Val × Val)}
    (hnext : entriesFrom o (elogs t p) = e :: rest)
    (hbig : cfg.maxBytes < ((entry e).length : Int)) {env : ConsumeEnv ε Val} {topic : String}
    {c c1 : Consumer ε} {out : List δ} {acts : List CAct}
    (hf : LimitedFetch cx depth hw elogs env)
    (htick : ∀ n (c : Consumer ε), (env.tick n c).offsets = c.offsets)
    (hc : c.consume allocation determine cfg env topic = (.ok (some out), c1, acts))
    (hdet : CAct.determine ∉ acts) (ho : offsetOf c.offsets t p = o) :
    offsetOf c1.offsets t p = o := by
  have hh := limited_honest hes hhw hf
  rcases consume_step_acts htick (fun reqs => (hh reqs).1) hc hdet with ⟨_, h1, _⟩ |
    ⟨c0, parts, reqs, g1, g2, g3, g4, g5⟩
  · rw [h1, ho]
  · rw [g4, ho]
    have : fetchedFor (allAnswers (env.outcomes reqs)) t p = [] := by
      refine List.eq_nil_iff_forall_not_mem.2 fun x hx => ?_
      simp only [fetchedFor, allAnswers, List.mem_flatMap, List.mem_filter, decide_eq_true_eq] at hx
      obtain ⟨⟨t', a⟩, ⟨⟨⟨b, r⟩, hbr, har⟩, rfl, rfl, h0⟩, hx⟩ := hx
      cases r with
      | error e => simp at har
      | ok r =>
        obtain ⟨q, hq, hb, hn, rfl⟩ := limited_answer hes hhw hf hbr
        simp only [answersOf, List.mem_map, List.map_map] at har
        obtain ⟨f, hfq, har⟩ := har
        simp only [Function.comp_apply, Prod.mk.injEq] at har
        obtain ⟨rfl, rfl⟩ := har
        have hoff : f.offset = o := by
          rw [g2.offsets q hq f hfq, ← ho, ← g1, (g2.topics q hq).1]
          rfl
        obtain ⟨b1, b2⟩ := g2.bytes hmax q hq
        have b3 : f.maxBytes ≤ (q.parts.map (·.maxBytes)).sum := by
          refine le_sum_of_mem ?_ (List.mem_map.2 ⟨f, hfq, rfl⟩)
          intro x hx
          obtain ⟨g, hg, rfl⟩ := List.mem_map.1 hx
          exact b1 g hg
        have : whole f.maxBytes.toNat (entriesFrom o (elogs q.topic f.id)) = [] := by
          rw [show entriesFrom o (elogs q.topic f.id) = e :: rest from hnext, whole, if_neg (by omega)]
        simp only [seenPart, hoff, this, logOf, List.map_nil] at hx
        exact absurd hx List.not_mem_nil
    rw [this, after_nil]

/-- **C119**, the other half: with a message ahead that is larger than `max_bytes`, nothing more of
the partition is returned, however often it is consumed: neither that message nor any after it. -/
theorem C119_blocked (allocation : Consumer ε → Res (Dict String (List Int)))
    (determine : String → Consumer ε → Res Unit × Consumer ε) (cfg : CCfg Val δ) (cx : Codec)
    (depth : Nat) (hw : String → Int → Int) (elogs : String → Int → List (Val × Val))
    (hes : ∀ t p, ∀ e ∈ elogs t p, PlainEntry e) (hl : ∀ t p, IsLog (logOf (elogs t p)))
    (hhw : ∀ t p, Fits 8 (hw t p)) (hmax : 0 ≤ cfg.maxBytes) (t : String) (p : Int) (m n : Nat)
    (c c' : Consumer ε) (outs : List (String × δ)) (e : Val × Val) (rest : List (Val × Val))
    (hnext : entriesFrom (offsetOf c.offsets t p) (elogs t p) = e :: rest)
    (hbig : cfg.maxBytes < ((entry e).length : Int))
    (h : LimitedN allocation determine cfg cx depth hw elogs t p m n c outs c') :
    offsetOf c'.offsets t p = offsetOf c.offsets t p ∧
      ∃ per, Interleaving per outs ∧ per t p = [] := by
  have hrun : Consumed allocation determine cfg Batch (fun t p => logOf (elogs t p)) c outs c' ∧
      offsetOf c'.offsets t p = offsetOf c.offsets t p := by
    induction h with
    | nil c => exact ⟨.nil c, rfl⟩
    | cons hf htick hc hdet _ _ ih =>
      have h1 := limited_stays hes hhw hmax hnext hbig hf htick hc hdet rfl
      have h2 := ih (by rw [h1]; exact hnext)
      exact ⟨.cons (limited_honest hes hhw hf) htick hc hdet h2.1, by rw [h2.2, h1]⟩
  refine ⟨hrun.2, _, (C38_exactly_once_partial allocation determine cfg _ hl c c' outs hrun.1).2, ?_⟩
  rw [hrun.2]
  exact window_empty cfg _ _

/-! ### Examples, and where it goes wrong -/

/-- A message of 31 bytes with its offset. -/
def exEntry (o : Int) (v : String) : Val × Val := (.int o, mkMessage 0 .none (.str v))

/-- Three messages in partition 0 of topic t, and one, of 67 bytes, in partition 1. -/
def exLimLogs (t : String) (p : Int) : List (Val × Val) :=
  if t = "t" ∧ p = 0 then [exEntry 3 "hello", exEntry 4 "small", exEntry 7 "world"]
  else if t = "t" ∧ p = 1 then [exEntry 5 "abcdefghijklmnopqrstuvwxyzabcdefghijklmno"] else []

/-- High-water marks, of which a consumer makes nothing. -/
def exMarks (_ : String) (_ : Int) : Int := 9

/-- At most 64 bytes from each leader; values as they are. -/
def exLimCfg : CCfg Val String where
  deserializer v := match v with
    | .str s => .ok s
    | _ => .error .valueError
  truthy s := decide (s ≠ "")
  maxWait := 1000
  minBytes := 1
  maxBytes := 64

/-- Broker 7 leads one partition. -/
def exLimConsumer (p : Int) : Single :=
  ⟨⟨[(7, ⟨"h", 9092, false⟩)], [("t", [p])], [("t", [(p, 7)])]⟩, [("t", [(p, 0)])], ["t"], false, false, ()⟩

/-- Requests for one partition of topic t are answered. -/
def exLimEnv : ConsumeEnv Unit Val where
  outcomes reqs := match reqs with
    | [⟨b, _, _, t, [f]⟩] =>
      if t = "t" ∧ 0 ≤ f.id ∧ f.id ≤ 1 ∧ f.maxBytes ≤ 64 then
        [(b, .ok ⟨[(t, [seenPart (exLimLogs t f.id) f])]⟩)] else []
    | _ => []
  write _ := .none
  heal cl := (.ok (), cl)
  healC cl := (.ok (), cl)
  tick _ c := c

theorem exEntry_plain {o : Int} {v : String} (ho : Fits 8 o)
    (hv : (message (mkMessage 0 .none (.str v))).length < 2 ^ 31)
    (hs : (encodeUtf8 v).length < 2 ^ 31) : PlainEntry (exEntry o v) where
  offset := ⟨o, rfl, ho⟩
  message := messageOk_mk (by unfold Fits; norm_num) (.inl rfl) (.inr ⟨_, rfl, hs⟩) hv
  attributes := by simp [exEntry, mkMessage, attr]

theorem exLimLogs_plain (t : String) (p : Int) : ∀ e ∈ exLimLogs t p, PlainEntry e := by
  intro e he
  unfold exLimLogs at he
  split at he
  · simp only [List.mem_cons, List.not_mem_nil, or_false] at he
    rcases he with rfl | rfl | rfl
    all_goals exact exEntry_plain (by unfold Fits; norm_num) (by decide +kernel) (by decide +kernel)
  · split at he
    · simp only [List.mem_cons, List.not_mem_nil, or_false] at he
      subst he
      exact exEntry_plain (by unfold Fits; norm_num) (by decide +kernel) (by decide +kernel)
    · exact absurd he List.not_mem_nil

theorem exMarks_fit (t : String) (p : Int) : Fits 8 (exMarks t p) := by
  unfold Fits exMarks; norm_num

theorem exLimEnv_limited (cx : Codec) (depth : Nat) :
    LimitedFetch cx depth exMarks exLimLogs exLimEnv := by
  intro reqs
  simp only [exLimEnv]
  split
  · next b mw mb t f =>
    split
    · next h =>
      obtain ⟨rfl, h1, h2, h3⟩ := h
      refine ⟨by simp, fun b' r hr => ?_⟩
      simp only [List.mem_singleton, Prod.mk.injEq, Except.ok.injEq] at hr
      obtain ⟨rfl, rfl⟩ := hr
      have hs : Sendable ⟨b', mw, mb, "t", [f]⟩ :=
        ⟨show (encodeUtf8 "t").length < 2 ^ 15 by decide +kernel, by simp, by
          intro g hg
          simp only [List.mem_singleton] at hg
          subst hg
          unfold Fits
          constructor <;> norm_num <;> omega, by
          intro g hg
          simp only [List.mem_singleton] at hg
          subst hg
          omega⟩
      have hcut : CutLast exLimLogs ⟨b', mw, mb, "t", [f]⟩ := ⟨[], f, rfl, by simp⟩
      obtain ⟨v, hv1, hv2⟩ := C119_read cx depth exMarks exLimLogs _ exLimLogs_plain exMarks_fit
        hs hcut
      exact ⟨_, List.mem_singleton.2 rfl, rfl, hs, by simp, hcut, v, hv1, hv2.symm⟩
    · exact ⟨by simp, fun _ _ h => absurd h List.not_mem_nil⟩
  · exact ⟨by simp, fun _ _ h => absurd h List.not_mem_nil⟩

theorem exLimLogs_log (t : String) (p : Int) : IsLog (logOf (exLimLogs t p)) := by
  unfold exLimLogs
  split
  · exact ⟨by simp [logOf, exEntry, intOf], by simp [logOf, exEntry, intOf]⟩
  · split
    · exact ⟨by simp [logOf, exEntry, intOf], by simp [logOf, exEntry, intOf]⟩
    · exact ⟨by simp [logOf], by simp [logOf]⟩

/-- Non-vacuity of `C119_catches_up_partial`: 64 bytes hold two of the three messages and the
beginning of the third. -/
example (cx : Codec) : ∃ c', LimitedN Single.allocation exNoDetermine exLimCfg cx 0 exMarks exLimLogs
      "t" 0 2 2 (exLimConsumer 0) [("t", "hello"), ("t", "small"), ("t", "world")] c' ∧
    (∀ e ∈ exLimLogs "t" 0, ((entry e).length : Int) * 2 ≤ exLimCfg.maxBytes) ∧
    (∀ x ∈ logOf (exLimLogs "t" 0), (decode exLimCfg x.2).isSome) := by
  refine ⟨{ exLimConsumer 0 with offsets := [("t", [(0, 8)])] }, ?_, by decide +kernel, ?_⟩
  · refine LimitedN.cons (n := 1) (k := 1) (env := exLimEnv) (topic := "t")
      (c1 := { exLimConsumer 0 with offsets := [("t", [(0, 5)])] }) (out := ["hello", "small"])
      (acts := [.fetch [⟨7, 1000, 1, "t", [⟨0, 0, 64⟩]⟩]]) (outs := [("t", "world")])
      (exLimEnv_limited cx 0) (fun _ _ => rfl) (by decide +kernel) (by decide) (.inr ⟨rfl, _,
        List.mem_singleton.2 rfl, _, List.mem_singleton.2 rfl, rfl, ⟨_, List.mem_singleton.2 rfl, rfl⟩,
        by decide, _, List.mem_singleton.2 rfl⟩) ?_
    exact LimitedN.cons (n := 0) (k := 1) (env := exLimEnv) (topic := "t") (out := ["world"])
      (outs := []) (acts := [.fetch [⟨7, 1000, 1, "t", [⟨0, 5, 64⟩]⟩]])
      (exLimEnv_limited cx 0) (fun _ _ => rfl) (by decide +kernel) (by decide) (.inr ⟨rfl, _,
        List.mem_singleton.2 rfl, _, List.mem_singleton.2 rfl, rfl, ⟨_, List.mem_singleton.2 rfl, rfl⟩,
        by decide, _, List.mem_singleton.2 rfl⟩) (.nil _)
  · decide +kernel

/-- **C119** is false for messages that do not fit: a message of 67 bytes with `max_bytes` of 64 is
never returned, although its broker answers each of any number of requests for it. -/
theorem C119_false_large (cx : Codec) (n : Nat) :
    (5, Val.str "abcdefghijklmnopqrstuvwxyzabcdefghijklmno") ∈ logOf (exLimLogs "t" 1) ∧
    offsetOf (exLimConsumer 1).offsets "t" 1 ≤ 5 ∧
    LimitedN Single.allocation exNoDetermine exLimCfg cx 0 exMarks exLimLogs "t" 1 1 n
      (exLimConsumer 1) [] (exLimConsumer 1) := by
  refine ⟨List.mem_map.2 ⟨_, List.mem_singleton.2 rfl, ?_⟩, by decide +kernel, ?_⟩
  · simp only [exEntry, intOf, mkMessage, attr, Prod.mk.injEq, true_and]
    exact sizedValue_str _
  induction n with
  | zero => exact .nil _
  | succ n ih =>
    exact LimitedN.cons (k := 1) (env := exLimEnv) (topic := "t") (out := [])
      (outs := []) (acts := [.fetch [⟨7, 1000, 1, "t", [⟨1, 0, 64⟩]⟩]])
      (exLimEnv_limited cx 0) (fun _ _ => rfl) (by decide +kernel) (by decide) (.inr ⟨rfl, _,
        List.mem_singleton.2 rfl, _, List.mem_singleton.2 rfl, rfl,
        ⟨_, List.mem_singleton.2 rfl, rfl⟩, by decide, _, List.mem_singleton.2 rfl⟩) ih

/-- Two messages in partition 0 of topic t, of 31 bytes each, and none elsewhere. -/
def exCutLogs (t : String) (p : Int) : List (Val × Val) :=
  if t = "t" ∧ p = 0 then [exEntry 3 "hello", exEntry 4 "small"] else []

/-- Broker 7 leads both partitions. -/
def exCutConsumer : Single :=
  ⟨⟨[(7, ⟨"h", 9092, false⟩)], [("t", [0, 1])], [("t", [(0, 7), (1, 7)])]⟩,
    [("t", [(0, 0), (1, 0)])], ["t"], false, false, ()⟩

/-- What it asks for. -/
def exCutReq : FReq := ⟨7, 1000, 1, "t", [⟨0, 0, 32⟩, ⟨1, 0, 32⟩]⟩

/-- Every broker answers as it was asked; where the answer cannot be read, the request fails (C18). -/
def exCutEnv (cx : Codec) (depth : Nat) (elogs : String → Int → List (Val × Val)) :
    ConsumeEnv Unit Val where
  outcomes reqs := reqs.map fun q => (q.broker,
    match Schema.fetchResponse.deserialize cx (depth + 1) (limitedWire exMarks elogs q) with
    | .ok v => .ok (frespOf v)
    | .error _ => .error .brokerConnection)
  write _ := .none
  heal cl := (.ok (), cl)
  healC cl := (.ok (), cl)
  tick _ c := c

/-- **C119** is false for leaders of several partitions: although each of the messages fits into its
partition's share of `max_bytes`, the answer, in which the first partition ends within its second
message, cannot be read.  `consume` returns nothing and leaves the consumer as it was, so that the
same happens with the next `consume`, and for ever. -/
theorem C119_false_cut (cx : Codec) (depth : Nat) :
    (∀ t p, ∀ e ∈ exCutLogs t p, ((entry e).length : Int) * 2 ≤ exLimCfg.maxBytes) ∧
    Schema.fetchResponse.deserialize cx (depth + 1) (limitedWire exMarks exCutLogs exCutReq) =
      .error .structError ∧
    Consumer.consume Single.allocation (exNoDetermine "t") exLimCfg (exCutEnv cx depth exCutLogs) "t"
      exCutConsumer = (.ok (some []), exCutConsumer, [.fetch [exCutReq]]) := by
  refine ⟨?_, by krfl, by krfl⟩
  intro t p e he
  unfold exCutLogs at he
  split at he
  · simp only [List.mem_cons, List.not_mem_nil, or_false] at he
    rcases he with rfl | rfl <;> decide +kernel
  · exact absurd he List.not_mem_nil

/-- The same with a message in partition 1. -/
def exMixLogs (t : String) (p : Int) : List (Val × Val) :=
  if t = "t" ∧ p = 0 then [exEntry 3 "hello", exEntry 4 "small"]
  else if t = "t" ∧ p = 1 then [exEntry 5 "world"] else []

/-- **C119** is false, and worse: the rest of a message that was cut off is read from what follows in
the answer, with no regard to the checksum.  `consume` returns a value that was never stored in its
place, and goes on after it: the next `consume` is the last to return anything, and the message is
never returned. -/
theorem C119_false_garbled (cx : Codec) (depth : Nat) :
    (∀ t p, ∀ e ∈ exMixLogs t p, ((entry e).length : Int) * 2 ≤ 120) ∧
    ∃ c1 c2 a1 a2 a3,
      Consumer.consume Single.allocation (exNoDetermine "t") { exLimCfg with maxBytes := 120 }
        (exCutEnv cx depth exMixLogs) "t" exCutConsumer =
          (.ok (some ["hello", "sma\x00\x00"]), c1, a1) ∧
      Consumer.consume Single.allocation (exNoDetermine "t") { exLimCfg with maxBytes := 120 }
        (exCutEnv cx depth exMixLogs) "t" c1 = (.ok (some ["world"]), c2, a2) ∧
      Consumer.consume Single.allocation (exNoDetermine "t") { exLimCfg with maxBytes := 120 }
        (exCutEnv cx depth exMixLogs) "t" c2 = (.ok (some []), c2, a3) := by
  refine ⟨?_, { exCutConsumer with offsets := [("t", [(0, 5), (1, 0)])] },
    { exCutConsumer with offsets := [("t", [(0, 5), (1, 6)])] },
    [.fetch [⟨7, 1000, 1, "t", [⟨0, 0, 60⟩, ⟨1, 0, 60⟩]⟩]],
    [.fetch [⟨7, 1000, 1, "t", [⟨0, 5, 60⟩, ⟨1, 0, 60⟩]⟩]],
    [.fetch [⟨7, 1000, 1, "t", [⟨0, 5, 60⟩, ⟨1, 6, 60⟩]⟩]], by krfl, by krfl, by krfl⟩
  intro t p e he
  unfold exMixLogs at he
  split at he
  · simp only [List.mem_cons, List.not_mem_nil, or_false] at he
    rcases he with rfl | rfl <;> decide +kernel
  · split at he
    · simp only [List.mem_cons, List.not_mem_nil, or_false] at he
      subst he
      decide +kernel
    · exact absurd he List.not_mem_nil

end Kiel
