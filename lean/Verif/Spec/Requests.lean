import Verif.Spec.Schemas
import Mathlib.Data.Int.Notation
/-
The requests of the Kafka protocol (version 0) byte by byte, as its guide has them.
-/
set_option autoImplicit false
namespace Kiel.Spec
open Kiel

/-- A string: its length in two bytes, and its UTF-8 encoding. -/
def text (s : String) : Bytes := be 2 (encodeUtf8 s).length ++ encodeUtf8 s

/-- A string that may be null, which is written as the length -1. -/
def textOrNull : Option String → Bytes
  | some s => text s
  | .none => be 2 (-1)

/-- An array: the number of its elements in four bytes, and the elements. -/
def many {α : Type} (f : α → Bytes) (l : List α) : Bytes := be 4 l.length ++ (l.map f).flatten

/-- A request with its size in front. -/
def framed (b : Bytes) : Bytes := be 4 b.length ++ b

/-- Per topic its name, per partition what `f` says. -/
def byTopic {α : Type} (f : α → Bytes) (ts : List (String × List α)) : Bytes :=
  many (fun t => text t.1 ++ many f t.2) ts

/-- A produce request: acknowledgements, timeout, and per partition a message set, with its
size. -/
def produceBytes (corr acks timeout : Int) (ts : List (String × List (Int × Bytes))) : Bytes :=
  preamble 0 corr ++ be 2 acks ++ be 4 timeout ++
    byTopic (fun p => be 4 p.1 ++ (be 4 p.2.length ++ p.2)) ts

/-- A fetch request: replica -1 (a client), longest wait, least bytes, and per partition the
offset and the most bytes. -/
def fetchBytes (corr maxWait minBytes : Int) (ts : List (String × List (Int × Int × Int))) :
    Bytes :=
  preamble 1 corr ++ be 4 (-1) ++ be 4 maxWait ++ be 4 minBytes ++
    byTopic (fun p => be 4 p.1 ++ be 8 p.2.1 ++ be 4 p.2.2) ts

/-- An offset request: replica -1, and per partition the time and how many offsets. -/
def offsetBytes (corr : Int) (ts : List (String × List (Int × Int × Int))) : Bytes :=
  preamble 2 corr ++ be 4 (-1) ++ byTopic (fun p => be 4 p.1 ++ be 8 p.2.1 ++ be 4 p.2.2) ts

/-- A metadata request. -/
def metadataBytes (corr : Int) (topics : List String) : Bytes := preamble 3 corr ++ many text topics

/-- An offset commit request (version 0): group, and per partition offset and metadata. -/
def commitBytes (corr : Int) (group : String) (ts : List (String × List (Int × Int × String))) :
    Bytes :=
  preamble 8 corr ++ text group ++ byTopic (fun p => be 4 p.1 ++ be 8 p.2.1 ++ text p.2.2) ts

/-- An offset fetch request: group, and the partitions. -/
def offsetFetchBytes (corr : Int) (group : String) (ts : List (String × List Int)) : Bytes :=
  preamble 9 corr ++ text group ++ byTopic (be 4) ts

/-- A group coordinator request. -/
def coordinatorBytes (corr : Int) (group : String) : Bytes := preamble 10 corr ++ text group

/-- A produce response: per partition the error code and the offset of the first message. -/
def produceAnswer (ts : List (String × List (Int × Int × Int))) : Bytes :=
  byTopic (fun p => be 4 p.1 ++ be 2 p.2.1 ++ be 8 p.2.2) ts

/-- An offset response: per partition the error code and the offsets. -/
def offsetAnswer (ts : List (String × List (Int × Int × List Int))) : Bytes :=
  byTopic (fun p => be 4 p.1 ++ be 2 p.2.1 ++ many (be 8) p.2.2) ts

/-- An offset commit response: per partition the error code. -/
def commitAnswer (ts : List (String × List (Int × Int))) : Bytes :=
  byTopic (fun p => be 4 p.1 ++ be 2 p.2) ts

/-- An offset fetch response: per partition the offset, the metadata (null if none were committed)
and the error code. -/
def offsetFetchAnswer (ts : List (String × List (Int × Int × Option String × Int))) : Bytes :=
  byTopic (fun p => be 4 p.1 ++ be 8 p.2.1 ++ textOrNull p.2.2.1 ++ be 2 p.2.2.2) ts

/-- A group coordinator response: the error code, and the id, host and port of the broker (a host
that may be null, in case there is none). -/
def coordinatorAnswer (code id : Int) (host : Option String) (port : Int) : Bytes :=
  be 2 code ++ be 4 id ++ textOrNull host ++ be 4 port

/-- A broker in a metadata response. -/
structure MdBroker where
  id : Int
  host : String
  port : Int

/-- A partition in a metadata response. -/
structure MdPart where
  code : Int
  id : Int
  leader : Int
  replicas : List Int
  isr : List Int

/-- A topic in a metadata response. -/
structure MdTopic where
  code : Int
  name : String
  parts : List MdPart

/-- A broker: id, host, port. -/
def MdBroker.bytes (b : MdBroker) : Bytes := be 4 b.id ++ text b.host ++ be 4 b.port

/-- A partition: error code, id, leader, replicas, replicas in sync. -/
def MdPart.bytes (p : MdPart) : Bytes :=
  be 2 p.code ++ be 4 p.id ++ be 4 p.leader ++ many (be 4) p.replicas ++ many (be 4) p.isr

/-- A topic: error code, name, partitions. -/
def MdTopic.bytes (t : MdTopic) : Bytes := be 2 t.code ++ text t.name ++ many MdPart.bytes t.parts

/-- A metadata response: brokers and topics. -/
def metadataAnswer (brokers : List MdBroker) (topics : List MdTopic) : Bytes :=
  many MdBroker.bytes brokers ++ many MdTopic.bytes topics

/-- A string that fits. -/
abbrev TextFits (s : String) : Prop := (encodeUtf8 s).length < 2 ^ 15

/-- An array that fits, with elements that fit. -/
abbrev ManyFit {α : Type} (P : α → Prop) (l : List α) : Prop := l.length < 2 ^ 31 ∧ ∀ x ∈ l, P x

/-- Per topic and partition. -/
abbrev ByTopicFit {α : Type} (P : α → Prop) (ts : List (String × List α)) : Prop :=
  ManyFit (fun t => TextFits t.1 ∧ ManyFit P t.2) ts

/-- A broker that fits. -/
structure MdBroker.Fit (b : MdBroker) : Prop where
  id : Fits 4 b.id
  host : TextFits b.host
  port : Fits 4 b.port

/-- A partition that fits. -/
structure MdPart.Fit (p : MdPart) : Prop where
  code : Fits 2 p.code
  id : Fits 4 p.id
  leader : Fits 4 p.leader
  replicas : ManyFit (Fits 4) p.replicas
  isr : ManyFit (Fits 4) p.isr

/-- A topic that fits. -/
structure MdTopic.Fit (t : MdTopic) : Prop where
  code : Fits 2 t.code
  name : TextFits t.name
  parts : ManyFit MdPart.Fit t.parts

end Kiel.Spec
