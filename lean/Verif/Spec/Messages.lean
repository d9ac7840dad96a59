import Verif.Spec.Wire
import Mathlib.Data.List.Forall2
/-
Message sets as a broker stores and returns them, and the laws the external compressors are
assumed to obey.
-/
namespace Kiel.Spec
open Kiel

/-- What a gzip implementation has to do: invert itself and start with the magic bytes
`1f 8b` of RFC 1952. -/
structure GzipLaws (cx : Codec) : Prop where
  inverse : ∀ b, cx.gunzip (cx.gzip b) = .ok b
  magic : ∀ b, ∃ r, cx.gzip b = 0x1f :: 0x8b :: r

/-- What a raw snappy implementation has to do on blocks of at most 32 KiB. -/
structure SnappyLaws (cx : Codec) : Prop where
  available : cx.snappyAvailable = true
  inverse : ∀ b, b.length ≤ 32768 → cx.unsnappyRaw (cx.snappyRaw b) = .ok b
  size : ∀ b, b.length ≤ 32768 → (cx.snappyRaw b).length < 2 ^ 31

/-- The last block of the data when cut into blocks of 32 KiB. -/
def lastBlock (data : Bytes) : Bytes := data.drop (32768 * ((data.length - 1) / 32768))

/-- Offset, key and value of the messages of a set. -/
def view (v : Val) : List (Int × Val × Val) :=
  (msgs v).map fun e => (intOf e.1, attr e.2 "key", attr e.2 "value")

/-- An entry that can be written: its offset is a 64-bit integer, its message fits. -/
structure EntryOk (e : Val × Val) : Prop where
  offset : ∃ i, e.1 = .int i ∧ Fits 8 i
  message : MessageOk e.2

/-- An entry holding an uncompressed message. -/
structure PlainEntry (e : Val × Val) : Prop extends EntryOk e where
  attributes : attr e.2 "attributes" = .int 0

/-- `Stored cx e out`: the entry `e` of a set stands for the messages `out`: itself, or the
messages of a compressed set. `packed c raw b`: `b` is the compressed form of `raw`. -/
inductive Stored (packed : Int → Bytes → Bytes → Prop) : Val × Val → List (Val × Val) → Prop
  | plain {e} : PlainEntry e → Stored packed e [e]
  | container {e inner c b} : EntryOk e → attr e.2 "attributes" = .int c →
      attr e.2 "value" = .bytes b → packed c (entries inner) b →
      (∀ e ∈ inner, PlainEntry e) → Stored packed e inner

/-- The bytes of a set that was cut off `k` bytes into the entry `e`, with its size. -/
def cutSet (ms : List (Val × Val)) (e : Val × Val) (k : Nat) : Bytes :=
  be 4 (entries ms ++ (entry e).take k).length ++ (entries ms ++ (entry e).take k)

end Kiel.Spec

namespace Kiel.Spec
open Kiel

/-- A partition of a fetch response: `es` are the entries on the wire, `outs` the messages
they stand for. -/
structure PartResp where
  partition : Int
  error : Int
  highwater : Int
  es : List (Val × Val)
  outs : List (List (Val × Val))

/-- The numbers fit and the entries stand for the messages. -/
structure PartResp.Ok (packed : Int → Bytes → Bytes → Prop) (p : PartResp) : Prop where
  partition : Fits 4 p.partition
  error : Fits 2 p.error
  highwater : Fits 8 p.highwater
  stored : List.Forall₂ (Stored packed) p.es p.outs
  size : (entries p.es).length < 2 ^ 31

/-- Everything of a partition but the message set. -/
def PartResp.head (p : PartResp) : Bytes := be 4 p.partition ++ be 2 p.error ++ be 8 p.highwater

/-- A partition on the wire. -/
def PartResp.wire (p : PartResp) : Bytes :=
  p.head ++ (be 4 (entries p.es).length ++ entries p.es)

/-- A partition whose set is cut off `k` bytes into a further entry `e`. -/
def PartResp.cutWire (p : PartResp) (e : Val × Val) (k : Nat) : Bytes :=
  p.head ++ cutSet p.es e k

/-- A partition as read. -/
def PartResp.value (p : PartResp) : Val :=
  .part [("partition_id", .int p.partition), ("error_code", .int p.error),
    ("highwater_mark_offset", .int p.highwater),
    ("message_set", .mset (p.outs.flatten.map (fun e => (e.1, messageValue e.2))))]

/-- A topic of a fetch response on the wire, given the wire format of its partitions. -/
def topicWire (name : String) (parts : List Bytes) : Bytes :=
  sized 2 (.str name) ++ (be 4 parts.length ++ parts.flatten)

/-- A topic as read. -/
def topicValue (name : String) (parts : List PartResp) : Val :=
  .part [("name", .str name), ("partitions", .list (parts.map PartResp.value))]

/-- A complete topic on the wire. -/
def topicBytes (t : String × List PartResp) : Bytes := topicWire t.1 (t.2.map PartResp.wire)

/-- A complete topic as read. -/
def topicVal (t : String × List PartResp) : Val := topicValue t.1 t.2

/-- A topic that fits. -/
structure TopicOk (packed : Int → Bytes → Bytes → Prop) (t : String × List PartResp) :
    Prop where
  name : (encodeUtf8 t.1).length < 2 ^ 15
  count : t.2.length < 2 ^ 31
  parts : ∀ p ∈ t.2, p.Ok packed

/-- A fetch response on the wire, given the wire format of its topics. -/
def fetchWire (topics : List Bytes) : Bytes := be 4 topics.length ++ topics.flatten

end Kiel.Spec
