import Verif.Model.Heals
import Verif.Lemmas.Cluster
/-
C88: asking for metadata while other coroutines use the cluster.
-/
set_option autoImplicit false
namespace Kiel

theorem gatherFrom_same (ask : Int → Res Metadata) (conns : Dict Int CConn)
    (hn : conns.keys.Nodup) (pre suf : Dict Int CConn) (h : conns = pre ++ suf) :
    gatherFrom ask (fun _ => conns) conns.length suf.keys conns = getMetadata ask suf := by
  induction suf generalizing pre with
  | nil => simp [Dict.keys, gatherFrom, getMetadata]
  | cons e suf ih =>
    obtain ⟨b, c⟩ := e
    have hg : conns.get? b = some c := Dict.get?_of_mem hn (by rw [h]; simp)
    have ih := ih (pre ++ [(b, c)]) (by simpa using h)
    simp only [Dict.keys, List.map_cons] at ih ⊢
    unfold gatherFrom getMetadata
    rw [if_neg (by simp)]
    simp only [hg]
    cases hc : c.closing with
    | true => simp only [if_true, or_true]; exact ih
    | false =>
      simp only [Bool.false_eq_true, if_false]
      cases ask b with
      | ok m => rfl
      | error e => simp only [ih]

/-- **C88**: if the connections stay as they are while it waits, the answer is that of the first
connection that answers, as in C24. -/
theorem C88_undisturbed_partial (ask : Int → Res Metadata) (conns : Dict Int CConn)
    (hn : conns.keys.Nodup) :
    gatherMetadata ask (fun _ => conns) conns.keys conns = getMetadata ask conns :=
  gatherFrom_same ask conns hn [] conns rfl

theorem gatherFrom_raises (ask : Int → Res Metadata) (after : Int → Dict Int CConn) (size : Nat)
    (left : List Int) (conns : Dict Int CConn) (e : Exc)
    (h : gatherFrom ask after size left conns = .error e) :
    e = .noBrokers ∨
    (∃ b ∈ left, ask b = .error e ∧ e ≠ .streamClosed ∧ e ≠ .brokerConnection) ∨
    (e = .runtimeError ∧ (conns.length ≠ size ∨ ∃ b ∈ left, (after b).length ≠ size)) := by
  induction left generalizing conns with
  | nil =>
    simp only [gatherFrom] at h
    split at h
    · rename_i hs; cases h; exact .inr (.inr ⟨rfl, .inl hs⟩)
    · cases h; exact .inl rfl
  | cons b left ih =>
    have weak : ∀ {cs : Dict Int CConn}, (e = .noBrokers ∨
        (∃ b ∈ left, ask b = .error e ∧ e ≠ .streamClosed ∧ e ≠ .brokerConnection) ∨
        (e = .runtimeError ∧ (cs.length ≠ size ∨ ∃ b ∈ left, (after b).length ≠ size))) →
        (cs.length ≠ size → conns.length ≠ size ∨ (after b).length ≠ size) →
        e = .noBrokers ∨
        (∃ b' ∈ b :: left, ask b' = .error e ∧ e ≠ .streamClosed ∧ e ≠ .brokerConnection) ∨
        (e = .runtimeError ∧ (conns.length ≠ size ∨ ∃ b' ∈ b :: left, (after b').length ≠ size)) := by
      intro cs h1 h2
      rcases h1 with h1 | ⟨b', m, g⟩ | ⟨h1, h3⟩
      · exact .inl h1
      · exact .inr (.inl ⟨b', by simp [m], g⟩)
      · refine .inr (.inr ⟨h1, ?_⟩)
        rcases h3 with h3 | ⟨b', m, g⟩
        · rcases h2 h3 with h4 | h4
          · exact .inl h4
          · exact .inr ⟨b, by simp, h4⟩
        · exact .inr ⟨b', by simp [m], g⟩
    simp only [gatherFrom] at h
    split at h
    · rename_i hs; cases h; exact .inr (.inr ⟨rfl, .inl hs⟩)
    · split at h
      · exact weak (ih _ h) fun h => .inl h
      · split at h
        · exact weak (ih _ h) fun h => .inl h
        · split at h
          · simp at h
          · rename_i e' ha
            split at h
            · exact weak (ih _ h) fun h => .inr h
            · rename_i hne
              cases h
              simp only [not_or] at hne
              exact .inr (.inl ⟨b, by simp, ha, hne⟩)

/-- **C88**: what it raises, whatever happens meanwhile: NoBrokersError; the exception of a request
that failed otherwise than by losing its connection; or RuntimeError, if connections were added or
removed while it waited. -/
theorem C88_raises (ask : Int → Res Metadata) (after : Int → Dict Int CConn) (order : List Int)
    (conns : Dict Int CConn) (e : Exc) (h : gatherMetadata ask after order conns = .error e) :
    e = .noBrokers ∨
    (∃ b ∈ order, ask b = .error e ∧ e ≠ .streamClosed ∧ e ≠ .brokerConnection) ∨
    (e = .runtimeError ∧ ∃ b ∈ order, (after b).length ≠ conns.length) := by
  rcases gatherFrom_raises _ _ _ _ _ _ h with h | h | ⟨h, hs | h'⟩
  · exact .inl h
  · exact .inr (.inl h)
  · exact absurd rfl hs
  · exact .inr (.inr ⟨h, h'⟩)

theorem gatherFrom_answers (ask : Int → Res Metadata) (after : Int → Dict Int CConn) (size : Nat)
    (left : List Int) (conns : Dict Int CConn) (hs : conns.length = size)
    (ha : ∀ b, (after b).length = size)
    (hf : ∀ b e, ask b = .error e → e = .streamClosed ∨ e = .brokerConnection)
    (b : Int) (hb : b ∈ left) (m : Metadata) (hm : ask b = .ok m)
    (ho : ∃ c, conns.get? b = some c ∧ c.closing = false)
    (ho' : ∀ b', ∃ c, (after b').get? b = some c ∧ c.closing = false) :
    ∃ b' ∈ left, ∃ m', ask b' = .ok m' ∧ gatherFrom ask after size left conns = .ok m' := by
  induction left generalizing conns with
  | nil => simp at hb
  | cons x left ih =>
    unfold gatherFrom
    rw [if_neg (by simp [hs])]
    by_cases hx : x = b
    · subst hx
      obtain ⟨c, h1, h2⟩ := ho
      simp only [h1, h2, Bool.false_eq_true, if_false, hm]
      exact ⟨x, by simp, m, hm, rfl⟩
    · have up : ∀ {r : Res Metadata}, (∃ b' ∈ left, ∃ m', ask b' = .ok m' ∧ r = .ok m') →
          ∃ b' ∈ x :: left, ∃ m', ask b' = .ok m' ∧ r = .ok m' :=
        fun ⟨b', h1, h2⟩ => ⟨b', by simp [h1], h2⟩
      have hb' : b ∈ left := by
        rcases List.mem_cons.1 hb with h | h
        · exact absurd h.symm hx
        · exact h
      cases hg : conns.get? x with
      | none => exact up (ih conns hs hb' ho)
      | some c =>
        cases hc : c.closing with
        | true => simp only [hc, if_true]; exact up (ih conns hs hb' ho)
        | false =>
          simp only [hc, Bool.false_eq_true, if_false]
          cases hk : ask x with
          | ok m' => exact ⟨x, by simp, m', hk, rfl⟩
          | error e =>
            simp only [if_pos (hf x e hk)]
            exact up (ih (after x) (ha x) hb' (ho' x))

/-- **C88** (partial): connections may be lost meanwhile, but none added or removed.  Then if some
broker whose connection stays open answers, the metadata is that of a broker.  Missing: other
coroutines that add or remove connections (`C88_false`). -/
theorem C88_answers_partial (ask : Int → Res Metadata) (after : Int → Dict Int CConn)
    (conns : Dict Int CConn) (ha : ∀ b, (after b).keys = conns.keys)
    (hf : ∀ b e, ask b = .error e → e = .streamClosed ∨ e = .brokerConnection)
    (b : Int) (m : Metadata) (hm : ask b = .ok m)
    (ho : ∃ c, conns.get? b = some c ∧ c.closing = false)
    (ho' : ∀ b', ∃ c, (after b').get? b = some c ∧ c.closing = false) :
    ∃ b' ∈ conns.keys, ∃ m', ask b' = .ok m' ∧ gatherMetadata ask after conns.keys conns = .ok m' := by
  obtain ⟨c, hc, _⟩ := id ho
  refine gatherFrom_answers ask after _ _ conns rfl (fun x => ?_) hf b ?_ m hm ho ho'
  · simpa [Dict.keys] using congrArg List.length (ha x)
  · exact Dict.mem_keys.2 ⟨c, Dict.mem_of_get? hc⟩

/-- Two connections. -/
def exGather : Dict Int CConn := [(1, ⟨"a", 9092, false⟩), (2, ⟨"b", 9092, false⟩)]

/-- Broker 1 loses its connection, broker 2 answers. -/
def exGatherAsk (b : Int) : Res Metadata :=
  if b = 1 then .error .brokerConnection else .ok ⟨[⟨2, "b", 9092⟩], []⟩

/-- **C88** is false of the code: another `heal()` has dropped the connection to broker 1 while the
metadata request to it was under way; broker 2, connected all the time, would have answered. -/
theorem C88_false :
    (∀ rest, gatherMetadata exGatherAsk (fun _ => [(2, ⟨"b", 9092, false⟩)]) (1 :: rest) exGather =
      .error .runtimeError) ∧
    gatherMetadata exGatherAsk (fun _ => exGather) [1, 2] exGather = .ok ⟨[⟨2, "b", 9092⟩], []⟩ := by
  refine ⟨fun rest => ?_, by decide +kernel⟩
  cases rest <;> rfl

-- Non-vacuity of C88_answers_partial: the connection to broker 1 is lost while it is asked.
example : ∃ b' ∈ exGather.keys, ∃ m', exGatherAsk b' = .ok m' ∧ gatherMetadata exGatherAsk
    (fun _ => [(1, ⟨"a", 9092, true⟩), (2, ⟨"b", 9092, false⟩)]) exGather.keys exGather = .ok m' :=
  C88_answers_partial _ _ _ (fun _ => rfl)
    (fun b e h => by
      unfold exGatherAsk at h
      split at h
      · cases h; exact .inr rfl
      · simp at h)
    2 ⟨[⟨2, "b", 9092⟩], []⟩ (by decide +kernel) ⟨⟨"b", 9092, false⟩, by decide +kernel⟩
    (fun _ => ⟨⟨"b", 9092, false⟩, by decide +kernel⟩)

end Kiel
