import Verif.Props.Wire
/- C68: the compression setting of a producer. -/
set_option autoImplicit false
namespace Kiel
open Spec

/-- **C68**: the settings accepted are none, gzip (1) and snappy (2); any other is a
`ValueError`. -/
theorem C68_accepted (c : Option Int) :
    (checkCompression c = .ok () ↔ c = .none ∨ c = some 1 ∨ c = some 2) ∧
    (checkCompression c ≠ .ok () → checkCompression c = .error .valueError) := by
  unfold checkCompression
  split
  · next h => exact ⟨⟨fun _ => by simpa using h, fun _ => rfl⟩, fun h => absurd rfl h⟩
  · next h => exact ⟨⟨fun h => by simp at h, fun h' => absurd (by simpa using h') h⟩, fun _ => rfl⟩

/-- **C68** where python-snappy is installed: with every accepted setting, if the messages fit,
a flush raises before sending only for a message that cannot be placed.  What it sends otherwise
is `C69_produce`. -/
theorem C68_sends_partial (cx : Codec) (gz : GzipLaws cx) (sn : SnappyLaws cx) (c : Option Int)
    (hc : checkCompression c = .ok ()) (pick : Nat → Val → List Int → Res Int)
    (p p' : Producer Val Val) (e : Exc)
    (hfit : ∀ pl, Placements pick p.cluster p.unsent pl → ∀ b t part,
      SetFits cx c ((placedOn pl b t part).map fun m => (m.key, m.value)))
    (h : p.prepare pick (producerComp cx c) = (.error e, p')) :
    ∃ x ∈ p.unsent, ∃ m ∈ x.2, Unplaceable pick p.cluster x.1 m e := by
  rcases C33_loses pick _ p p' e h with ⟨kept, gone, h1, _, _, x, h2, h3⟩ |
    ⟨_, pl, h1, b, t, part, _, _, h2⟩
  · exact ⟨x, by simp [h1, h2], h3⟩
  · obtain ⟨ms, h3, _⟩ := sent_ok cx gz sn c hc _ (hfit pl h1 b t part)
    have : producerComp cx c (placedOn pl b t part) = .ok ms := by
      rw [← h3, producerComp, messagesOf, List.map_map]
      rfl
    rw [h2] at this
    cases this

theorem snappy_missing {cx : Codec} (h : cx.snappyAvailable = false) (ms : List (Msg Val Val))
    (set : List (Val × Val)) : producerComp cx (some 2) ms ≠ .ok set := by
  unfold producerComp compressedSet
  simp only [(C10_unavailable cx h _).1]
  have h2 : ¬ ((2 : Int) = 0) := by decide
  have h1 : ¬ ((2 : Int) = 1) := by decide
  simp only [if_neg h2, if_neg h1, if_true]
  intro h'
  split at h'
  · simp at h'
  · split at h' <;> simp at h'

/-- **C68** is false of the code where python-snappy is not installed: snappy is accepted, but no
flush sends a message, and when one raises, messages leave the queue. -/
theorem C68_unavailable (cx : Codec) (hs : cx.snappyAvailable = false)
    (pick : Nat → Val → List Int → Res Int) (p p' : Producer Val Val) (hw : WF p)
    (r : Res (Option (List (PReq (List (Val × Val))))))
    (h : p.prepare pick (producerComp cx (some 2)) = (r, p')) :
    checkCompression (some 2) = .ok () ∧
    (∀ reqs, r = .ok (some reqs) → reqs = []) ∧
    (∀ e, r = .error e → ∃ gone, gone ≠ [] ∧ p.unsent = p'.unsent ++ gone) := by
  refine ⟨rfl, ?_, ?_⟩
  · rintro reqs rfl
    obtain ⟨pl, _, ⟨_, _, h3⟩, h4, _⟩ := C28_routing pick _ p p' reqs hw h
    rcases reqs with _ | ⟨q, reqs⟩
    · rfl
    · obtain ⟨hne, _, hps⟩ := h3 q (by simp)
      obtain ⟨t, ht⟩ := List.exists_mem_of_ne_nil _ hne
      obtain ⟨x, hx⟩ := List.exists_mem_of_ne_nil _ (hps t ht).1
      exact absurd ((h4 q.broker t.1 x.1 x.2).1 ⟨q, by simp, rfl, t, ht, rfl, hx⟩).2.2
        (snappy_missing hs _ _)
  · rintro e rfl
    rcases C33_loses pick _ p p' e h with ⟨kept, gone, h1, h2, _, x, h3, _⟩ |
      ⟨h1, pl, h2, b, t, part, _, h3, _⟩
    · exact ⟨gone, List.ne_nil_of_mem h3, by rw [h1, h2]⟩
    · refine ⟨p.unsent, ?_, by simp [h1]⟩
      intro h4
      have h5 := h2.all
      rw [h4] at h5
      have h6 : pl = [] := by simpa [inQueue] using h5
      subst h6
      exact h3 rfl

/-- `storeCodec` without python-snappy. -/
def Spec.bareCodec : Codec := { storeCodec with snappyAvailable := false }

/-- **C68** is false of the code: the flush raises `RuntimeError`, and the two messages are
nowhere. -/
theorem C68_false : ∃ p', exVProducer.prepare (fun _ _ _ => .ok 0)
    (producerComp bareCodec (some 2)) = (.error .runtimeError, p') ∧
    p'.unsent = [] ∧ p'.sent = [] :=
  ⟨⟨exPCluster, [], [], false, false, 42⟩, by krfl, rfl, rfl⟩

-- Non-vacuity of C68_sends_partial: the topic is not in the metadata, so nothing can be placed
example : ∃ p', { exVProducer with cluster := { exPCluster with topics := [] } }.prepare
    (fun _ _ ps => match ps with | [] => .error .indexError | p :: _ => .ok p)
    (producerComp storeCodec (some 1)) = (.error .indexError, p') :=
  ⟨⟨⟨exPCluster.conns, [("t", [])], exPCluster.leaders⟩, [], [], false, false, 41⟩, by krfl⟩

end Kiel
