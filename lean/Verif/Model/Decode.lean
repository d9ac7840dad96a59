import Verif.Model.Consumer
import Verif.Model.Producer
import Verif.Model.Single
import Verif.Model.Grouped
import Verif.Model.Wire
/-
How the clients see parsed responses.
-/
set_option autoImplicit false
namespace Kiel

/-- A list held by an attribute. -/
def Val.items : Val → List Val
  | .list xs => xs
  | _ => []

/-- The attributes of an instance. -/
def Val.fields : Val → List (String × Val)
  | .part kvs => kvs
  | _ => []

/-- A text held by an attribute. -/
def Val.text : Val → String
  | .str s => s
  | _ => ""

/-- `message_set.messages`: the offset and `msg.value` of each
(kiel/clients/consumer.py:189-191). -/
def Val.messages : Val → List (Int × Val)
  | .mset ms => ms.map fun m => (m.1.toInt, getAttr m.2.fields "value")
  | _ => []

/-- `partition.partition_id`, `.error_code`, `.message_set` (kiel/clients/consumer.py:160-173,
189-202). -/
def fpartOf (v : Val) : FPart Val :=
  ⟨(getAttr v.fields "partition_id").toInt, (getAttr v.fields "error_code").toInt,
    (getAttr v.fields "message_set").messages⟩

/-- `response.topics`, with the `name` and the `partitions` of each
(kiel/clients/consumer.py:159-160). -/
def frespOf (v : Val) : FResp Val :=
  ⟨(getAttr v.fields "topics").items.map fun t =>
    ((getAttr t.fields "name").text, (getAttr t.fields "partitions").items.map fpartOf)⟩

/-- `response.topics` and per topic its `name` and what `f` reads of its `partitions`. -/
def Val.byTopic {α : Type} (f : Val → α) (v : Val) : List (String × List α) :=
  (getAttr v.fields "topics").items.map fun t =>
    ((getAttr t.fields "name").text, (getAttr t.fields "partitions").items.map f)

/-- kiel/clients/producer.py:207-221: the answers of a produce response. The correlation id is
set by kiel/connection.py:204. -/
def prespOf (corr : Int) (v : Val) : PResp :=
  ⟨corr, v.byTopic fun p =>
    ((getAttr p.fields "partition_id").toInt, (getAttr p.fields "error_code").toInt)⟩

/-- kiel/clients/single.py:103-107: the answers of an offset response. -/
def orespOf (v : Val) : OResp :=
  ⟨v.byTopic fun p =>
    ⟨(getAttr p.fields "partition_id").toInt, (getAttr p.fields "error_code").toInt,
      (getAttr p.fields "offsets").items.map Val.toInt⟩⟩

/-- kiel/clients/grouped.py:184-193: the answers of an offset fetch response. -/
def ofrespOf (v : Val) : OFResp :=
  ⟨v.byTopic fun p =>
    ⟨(getAttr p.fields "partition_id").toInt, (getAttr p.fields "offset").toInt,
      (getAttr p.fields "error_code").toInt⟩⟩

/-- kiel/clients/grouped.py:265-281: the answers of an offset commit response. -/
def commitRespOf (v : Val) : CommitResp :=
  ⟨v.byTopic fun p =>
    ((getAttr p.fields "partition_id").toInt, (getAttr p.fields "error_code").toInt)⟩

/-- kiel/clients/grouped.py:127-132: a group coordinator response. -/
def coordRespOf (v : Val) : CoordResp :=
  ⟨(getAttr v.fields "error_code").toInt, (getAttr v.fields "coordinator_id").toInt⟩

/-- kiel/cluster.py:188-193 and 233-249: a metadata response. -/
def metadataOf (v : Val) : Metadata :=
  ⟨(getAttr v.fields "brokers").items.map fun b =>
      ⟨(getAttr b.fields "broker_id").toInt, (getAttr b.fields "host").text,
        (getAttr b.fields "port").toInt⟩,
    (getAttr v.fields "topics").items.map fun t =>
      ⟨(getAttr t.fields "error_code").toInt, (getAttr t.fields "name").text,
        (getAttr t.fields "partitions").items.map fun p =>
          ⟨(getAttr p.fields "error_code").toInt, (getAttr p.fields "partition_id").toInt,
            (getAttr p.fields "leader").toInt⟩⟩⟩

end Kiel
