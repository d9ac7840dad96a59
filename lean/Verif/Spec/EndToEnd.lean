import Verif.Spec.Messages
/-
What a Kafka broker makes of a message set, independent of how kiel reads one.
-/
set_option autoImplicit false
namespace Kiel.Spec
open Kiel

/-- The header of snappy-java's streams: `82`, `SNAPPY`, `00`, version 1, compatible with
version 1. -/
def xerialHeader : Bytes :=
  0x82 :: 0x53 :: 0x4e :: 0x41 :: 0x50 :: 0x50 :: 0x59 :: 0x00 :: (be 4 1 ++ be 4 1)

/-- The format of snappy-java (as Kafka uses it): the header, then blocks, each with its size in
front. `raw` is what the blocks uncompress to. -/
structure Xerial (unsnap : Bytes → Res Bytes) (blocks : List Bytes) (raw b : Bytes) : Prop where
  header : b = xerialHeader ++ (blocks.map fun x => be 4 x.length ++ x).flatten
  content : ∃ outs, List.Forall₂ (fun x out => unsnap x = .ok out) blocks outs ∧
    raw = outs.flatten
  size : ∀ x ∈ blocks, x.length < 2 ^ 31

/-- `b` is a compressed form of `raw` as the Kafka protocol has it: a gzip stream (1) or
snappy-java's format (2). -/
def KafkaPacked (cx : Codec) (c : Int) (raw b : Bytes) : Prop :=
  (c = 1 ∧ (∃ r, b = 0x1f :: 0x8b :: r) ∧ cx.gunzip b = .ok raw) ∨
  (c = 2 ∧ ∃ blocks, Xerial cx.unsnappyRaw blocks raw b)

/-- The same, but the last snappy block is at least twelve bytes long. -/
def KafkaPackedLong (cx : Codec) (c : Int) (raw b : Bytes) : Prop :=
  (c = 1 ∧ (∃ r, b = 0x1f :: 0x8b :: r) ∧ cx.gunzip b = .ok raw) ∨
  (c = 2 ∧ ∃ blocks, Xerial cx.unsnappyRaw blocks raw b ∧
    ∀ x ∈ blocks.getLast?, 12 ≤ x.length)

/-- The entries `es` hold these messages: offsets, keys and values. -/
def SetHolds (packed : Int → Bytes → Bytes → Prop) (es : List (Val × Val))
    (log : List (Int × Val × Val)) : Prop :=
  ∃ outs, List.Forall₂ (Stored packed) es outs ∧
    log = outs.flatten.map fun e =>
      (intOf e.1, sizedValue (attr e.2 "key"), sizedValue (attr e.2 "value"))

/-- The messages of a log, at the offsets a broker gives them. -/
def reoffset (offs : List Int) (log : List (Int × Val × Val)) : List (Int × Val × Val) :=
  offs.zip (log.map (·.2))

end Kiel.Spec
