import Verif.Lemmas.Schemas
/- C04, C05, C13: the request and response classes. -/
namespace Kiel
open Spec

/-- The classes that work. -/
def Spec.broken : List String :=
  ["HeartbeatRequest", "HeartbeatResponse", "OffsetCommitV1Request"]

/-- A request class does what its documentation says: any declared values are accepted and
get the next correlation id; values that fit are serialized as preamble and fields. -/
def Spec.RequestWorks (c : Cls) (d : Doc) : Prop :=
  ∀ (kw : List (String × Val)) (lastId : Int), Declared d.fields kw →
    ∃ r key, newRequest lastId c kw = (.ok r, lastId + 1) ∧ apiKey d.api = some key ∧
      r.correlationId = lastId + 1 ∧ r.cls.api = d.api ∧
      (OkFields (fieldsOf d.fields) (.part kw) → Fits 4 (lastId + 1) →
        r.serialize = .ok (preamble key (lastId + 1) ++
          wireFields (fieldsOf d.fields) (.part kw)))

/-- A response class does what its documentation says: the documented bytes are read as the
documented fields, whatever follows. -/
def Spec.ResponseWorks (c : Cls) (d : Doc) : Prop :=
  ∀ (cx : Codec) (depth : Nat) (v : Val) (suf : Bytes),
    OkFields (fieldsOf d.fields) v → PlainFields (fieldsOf d.fields) v →
    c.deserialize cx depth (wireFields (fieldsOf d.fields) v ++ suf) =
      .ok (.part (seenFields (fieldsOf d.fields) v))

theorem requestWorks_of (name api : String) (l : List (String × Ty)) (key : Int)
    (hkey : Dict.get? apiKeys api = some key) (hk2 : apiKey api = some key) (hkf : Fits 2 key)
    (hn : ∀ n ∈ l.map (·.1), n ∉ ["client_id", "api_key", "api_version", "correlation_id"]) :
    RequestWorks (mkCls name api true l) ⟨name, api, true, l⟩ := by
  intro kw lastId hd
  obtain ⟨r, h1, h2, h3, h4⟩ := request_ok name api l key hkey hkf hn kw hd lastId
  exact ⟨r, key, h1, hk2, h2, h3, h4⟩

/-- **C04**/**C05** (partial: three classes excepted, see below): every documented request
class serializes as documented, with its api key, version 0, its correlation id and the
client id "kiel" in front. -/
theorem C04_C05_requests_partial : ∀ d ∈ documented, d.isRequest = true → d.name ∉ broken →
    ∃ c ∈ Schema.requests, c.name = d.name ∧ RequestWorks c d := by
  intro d hd hr hb
  simp only [documented, List.mem_cons, List.not_mem_nil, or_false] at hd
  rcases hd with rfl | rfl | rfl | rfl | rfl | rfl | rfl | rfl | rfl | rfl | rfl | rfl | rfl |
    rfl | rfl | rfl | rfl | rfl | rfl | rfl | rfl | rfl | rfl | rfl | rfl | rfl | rfl | rfl <;>
    first
    | (exfalso; revert hr; decide)
    | (exfalso; revert hb; decide)
    | skip
  · exact ⟨Schema.metadataRequest, by simp [Schema.requests], rfl,
      requestWorks_of _ _ _ 3 rfl rfl (by unfold Fits; norm_num) (by decide)⟩
  · exact ⟨Schema.produceRequest, by simp [Schema.requests], rfl,
      requestWorks_of _ _ _ 0 rfl rfl (by unfold Fits; norm_num) (by decide)⟩
  · exact ⟨Schema.fetchRequest, by simp [Schema.requests], rfl,
      requestWorks_of _ _ _ 1 rfl rfl (by unfold Fits; norm_num) (by decide)⟩
  · exact ⟨Schema.offsetRequest, by simp [Schema.requests], rfl,
      requestWorks_of _ _ _ 2 rfl rfl (by unfold Fits; norm_num) (by decide)⟩
  · exact ⟨Schema.commitV0Request, by simp [Schema.requests], rfl,
      requestWorks_of _ _ _ 8 rfl rfl (by unfold Fits; norm_num) (by decide)⟩
  · exact ⟨Schema.commitV2Request, by simp [Schema.requests], rfl,
      requestWorks_of _ _ _ 8 rfl rfl (by unfold Fits; norm_num) (by decide)⟩
  · exact ⟨Schema.ofetchRequest, by simp [Schema.requests], rfl,
      requestWorks_of _ _ _ 9 rfl rfl (by unfold Fits; norm_num) (by decide)⟩
  · exact ⟨Schema.coordinatorRequest, by simp [Schema.requests], rfl,
      requestWorks_of _ _ _ 10 rfl rfl (by unfold Fits; norm_num) (by decide)⟩
  · exact ⟨Schema.joinGroupRequest, by simp [Schema.requests], rfl,
      requestWorks_of _ _ _ 11 rfl rfl (by unfold Fits; norm_num) (by decide)⟩
  · exact ⟨Schema.leaveGroupRequest, by simp [Schema.requests], rfl,
      requestWorks_of _ _ _ 13 rfl rfl (by unfold Fits; norm_num) (by decide)⟩
  · exact ⟨Schema.syncGroupRequest, by simp [Schema.requests], rfl,
      requestWorks_of _ _ _ 14 rfl rfl (by unfold Fits; norm_num) (by decide)⟩
  · exact ⟨Schema.describeGroupsRequest, by simp [Schema.requests], rfl,
      requestWorks_of _ _ _ 15 rfl rfl (by unfold Fits; norm_num) (by decide)⟩
  · exact ⟨Schema.listGroupsRequest, by simp [Schema.requests], rfl,
      requestWorks_of _ _ _ 16 rfl rfl (by unfold Fits; norm_num) (by decide)⟩

/-- **C05** (partial: `HeartbeatResponse` excepted): every documented response class reads
the documented bytes. -/
theorem C05_responses_partial : ∀ d ∈ documented, d.isRequest = false → d.name ∉ broken →
    ∃ c ∈ Schema.responses, c.name = d.name ∧ ResponseWorks c d := by
  intro d hd hr hb
  have key : ∀ name api l, ResponseWorks (mkCls name api false l) ⟨name, api, false, l⟩ :=
    fun name api l cx depth v suf ho hp => response_ok cx depth name api l v ho hp suf
  simp only [documented, List.mem_cons, List.not_mem_nil, or_false] at hd
  rcases hd with rfl | rfl | rfl | rfl | rfl | rfl | rfl | rfl | rfl | rfl | rfl | rfl | rfl |
    rfl | rfl | rfl | rfl | rfl | rfl | rfl | rfl | rfl | rfl | rfl | rfl | rfl | rfl | rfl <;>
    first
    | (exfalso; revert hr; decide)
    | (exfalso; revert hb; decide)
    | skip
  · exact ⟨Schema.metadataResponse, by simp [Schema.responses], rfl, key _ _ _⟩
  · exact ⟨Schema.produceResponse, by simp [Schema.responses], rfl, key _ _ _⟩
  · exact ⟨Schema.fetchResponse, by simp [Schema.responses], rfl, key _ _ _⟩
  · exact ⟨Schema.offsetResponse, by simp [Schema.responses], rfl, key _ _ _⟩
  · exact ⟨Schema.commitResponse, by simp [Schema.responses], rfl, key _ _ _⟩
  · exact ⟨Schema.ofetchResponse, by simp [Schema.responses], rfl, key _ _ _⟩
  · exact ⟨Schema.coordinatorResponse, by simp [Schema.responses], rfl, key _ _ _⟩
  · exact ⟨Schema.joinGroupResponse, by simp [Schema.responses], rfl, key _ _ _⟩
  · exact ⟨Schema.leaveGroupResponse, by simp [Schema.responses], rfl, key _ _ _⟩
  · exact ⟨Schema.syncGroupResponse, by simp [Schema.responses], rfl, key _ _ _⟩
  · exact ⟨Schema.describeGroupsResponse, by simp [Schema.responses], rfl, key _ _ _⟩
  · exact ⟨Schema.listGroupsResponse, by simp [Schema.responses], rfl, key _ _ _⟩

/-- **C05** is false: no heartbeat request can be constructed, whatever the values. -/
theorem C05_false_heartbeat_request (kw : List (String × Val)) (lastId : Int) :
    newRequest lastId Schema.heartbeatRequest kw = (.error .typeError, lastId) := by
  have h : partNames Schema.heartbeatRequest.items = .error .typeError := by
    simp [Schema.heartbeatRequest, partNames, PartsItem.first]
  simp only [newRequest, initPart, h]

/-- **C05** is false: no heartbeat response can be read, whatever the bytes. -/
theorem C05_false_heartbeat_response (cx : Codec) (depth : Nat) (raw : Bytes) :
    Schema.heartbeatResponse.deserialize cx depth raw = .error .valueError := by
  have h : ("error_code" : String).length ≠ 2 := by decide
  simp [Schema.heartbeatResponse, Cls.deserialize, parseItemsOf, PartsItem.unpack, h]

/-- **C05** is false: a version 1 offset commit with a list of partitions, as documented,
cannot be serialized: whatever else it holds, as soon as it names a topic. -/
theorem C05_false_commit_v1 (lastId : Int) (group name : Val) (gen cid : Val)
    (ps : List Val) (rest : List Val)
    (hg : SizedOk 2 group) (hn : SizedOk 2 name) :
    ∃ r, newRequest lastId Schema.commitV1Request
        [("group", group), ("generation", gen), ("consumer_id", cid),
         ("topics", .list (.part [("name", name), ("partitions", .list ps)] :: rest))] =
          (.ok r, lastId + 1) ∧
      r.serialize = .error .attributeError := by
  obtain ⟨f, d, h1, h2⟩ := renderVar_ok (sz := .h) (by simp) hg
  obtain ⟨f', d', h1', h2'⟩ := renderVar_ok (sz := .h) (by simp) hn
  obtain ⟨f'', d'', h1'', h2''⟩ := renderVar_ok (sz := .h) (v := .str clientId) (by simp)
    (Or.inr ⟨_, rfl, by decide +kernel⟩)
  refine ⟨⟨Schema.commitV1Request,
    [("group", group), ("generation", gen), ("consumer_id", cid),
     ("topics", .list (.part [("name", name), ("partitions", .list ps)] :: rest)),
     ("client_id", .str clientId), ("api_key", .int 8), ("api_version", .int apiVersion),
     ("correlation_id", .int (lastId + 1))], lastId + 1⟩, ?_, ?_⟩
  · simp [newRequest, Schema.commitV1Request, mkCls, initPart, partNames, PartsItem.first,
      apiKeys, Dict.get?, Dict.set]
  · simp [Req.serialize, preambleParts, mkFields, renderFields, render, getAttr, Dict.get?,
      Schema.commitV1Request, mkCls, renderItems, PartsItem.unpack,
      renderAll, Schema.commitTopicV1Request, Schema.commitPartitionV1Request, mkPart, h1, h1', h1'']

/-- **C04**, framing: what is written to the socket is the length of the request as a 32-bit
integer followed by the request. -/
theorem C04_frame (b : Bytes) (h : b.length < 2 ^ 31) : frame b = .ok (be 4 b.length ++ b) := by
  have : packInt 4 b.length = .ok (be 4 b.length) := packInt_ok (fits_nat (n := 4) h)
  simp only [frame, this]

/-- **C04**: a request too long for the length field is refused, nothing is written. -/
theorem C04_frame_refused (b : Bytes) (h : 2 ^ 31 ≤ b.length) :
    frame b = .error .structError := by
  have hf : ¬ Fits 4 (b.length : Int) := by
    unfold Fits; rintro ⟨_, h2⟩; norm_num at h2 h; omega
  simp only [frame, packInt_err hf]

-- Non-vacuity: a metadata request on the wire.
example : ∃ r, newRequest 6 Schema.metadataRequest [("topics", .list [.str "t"])] = (.ok r, 7) ∧
    r.serialize = .ok [0, 3, 0, 0, 0, 0, 0, 7, 0, 4, 0x6b, 0x69, 0x65, 0x6c,
      0, 0, 0, 1, 0, 1, 0x74] := by
  obtain ⟨c, hc, hn, hw⟩ := C04_C05_requests_partial _
    (List.mem_cons_self : _ ∈ documented) rfl (by decide)
  have hcm : c = Schema.metadataRequest := by
    simp only [Schema.requests, List.mem_cons, List.not_mem_nil, or_false] at hc
    rcases hc with rfl | rfl | rfl | rfl | rfl | rfl | rfl | rfl | rfl | rfl | rfl | rfl |
      rfl | rfl | rfl <;> first | rfl | (exfalso; revert hn; decide)
  subst hcm
  obtain ⟨r, key, h1, h2, _, _, h3⟩ := hw [("topics", .list [.str "t"])] 6
    (by intro e he; simp at he; subst he; simp)
  refine ⟨r, h1, ?_⟩
  cases h2
  rw [h3 ?_ (by unfold Fits; norm_num)]
  · congr 1
  · simp [fieldsOf, OkFields, arr, Ok, attr, elems]
    exact Or.inr ⟨_, rfl, by decide +kernel⟩

end Kiel

namespace Kiel
open Spec

/-- The requests a process creates one after another, whatever their classes and arguments,
failed constructions included. -/
def Spec.create (lastId : Int) : List (Cls × List (String × Val)) → List Req
  | [] => []
  | (c, kw) :: rest =>
    match newRequest lastId c kw with
    | (.ok r, lastId) => r :: create lastId rest
    | (.error _, lastId) => create lastId rest

theorem newRequest_cases (lastId : Int) (c : Cls) (kw : List (String × Val)) :
    (∃ e, newRequest lastId c kw = (.error e, lastId)) ∨
    (∃ r, newRequest lastId c kw = (.ok r, lastId + 1) ∧ r.correlationId = lastId + 1) := by
  unfold newRequest
  split
  · exact Or.inl ⟨_, rfl⟩
  · split
    · exact Or.inl ⟨_, rfl⟩
    · exact Or.inr ⟨_, rfl, rfl⟩

/-- **C13**: correlation ids increase strictly from request to request, so they never
repeat; the `k`-th one is at most `k` above the start. -/
theorem C13_increasing (lastId : Int) (ops : List (Cls × List (String × Val))) :
    ((create lastId ops).map Req.correlationId).Pairwise (· < ·) ∧
    ∀ r ∈ create lastId ops, lastId < r.correlationId ∧
      r.correlationId ≤ lastId + ops.length := by
  induction ops generalizing lastId with
  | nil => simp [create]
  | cons op rest ih =>
    obtain ⟨c, kw⟩ := op
    rcases newRequest_cases lastId c kw with ⟨e, h⟩ | ⟨r, h, hr⟩
    · obtain ⟨h1, h2⟩ := ih lastId
      simp only [create, h]
      refine ⟨h1, fun r hr => ?_⟩
      have := h2 r hr
      simp only [List.length_cons]; push_cast
      omega
    · obtain ⟨h1, h2⟩ := ih (lastId + 1)
      simp only [create, h, List.map_cons, List.pairwise_cons]
      refine ⟨⟨?_, h1⟩, ?_⟩
      · intro i hi
        simp only [List.mem_map] at hi
        obtain ⟨r', hr', rfl⟩ := hi
        have := h2 r' hr'
        omega
      · intro r' hr'
        simp only [List.mem_cons] at hr'
        simp only [List.length_cons]; push_cast
        rcases hr' with rfl | hr'
        · omega
        · have := h2 r' hr'; omega

/-- **C13**: the counter starts below 2^24, whatever the machine and process. -/
theorem C13_seed (machine pid : Nat) : seedId machine pid < 2 ^ 24 := by
  unfold seedId
  exact Nat.lt_of_le_of_lt Nat.and_le_right (by norm_num)

/-- **C13**: the first 2^31 - 2^24 requests of a process have ids that fit the wire. -/
theorem C13_fits (machine pid : Nat) (ops : List (Cls × List (String × Val)))
    (h : ops.length ≤ 2 ^ 31 - 2 ^ 24) :
    ∀ r ∈ create (seedId machine pid) ops, Fits 4 r.correlationId := by
  intro r hr
  have h1 := (C13_increasing (seedId machine pid) ops).2 r hr
  have h2 := C13_seed machine pid
  unfold Fits
  norm_num at h h2 ⊢
  omega

-- Non-vacuity: three constructions, the middle one failing (unknown keyword), and the ids.
example : (create 41 [(Schema.listGroupsRequest, []), (Schema.metadataRequest, [("x", .none)]),
    (Schema.coordinatorRequest, [("group", .str "g")])]).map Req.correlationId = [42, 43] := by
  simp [create, newRequest, Schema.listGroupsRequest, Schema.metadataRequest, mkCls, initPart,
    partNames, PartsItem.first, apiKeys, Dict.get?, Schema.coordinatorRequest]
example : seedId 0xffffffff 77 = 76 := by decide

end Kiel
