import Verif.Model.Errors
import Verif.Lemmas.Dict
import Verif.Lemmas.Cluster
import Mathlib.Data.List.Nodup
/-
C63: error codes.
-/
set_option autoImplicit false
namespace Kiel

theorem mkErrors_aux (table : Dict Int String) (names : List String) (e : Errors)
    (hn : (table.map (·.2)).Nodup) (hf : ∀ p ∈ table, e.attrs.get? p.2 = .none) :
    let r := table.foldl (fun e p =>
      { attrs := e.attrs.set p.2 p.1
        retriable := if p.2 ∈ names then addSet e.retriable p.1 else e.retriable : Errors }) e
    (∀ n c, r.attrs.get? n = some c ↔ e.attrs.get? n = some c ∨ (c, n) ∈ table) ∧
    (∀ c, c ∈ r.retriable ↔ c ∈ e.retriable ∨ ∃ n ∈ names, (c, n) ∈ table) := by
  induction table generalizing e with
  | nil => simp
  | cons p rest ih =>
    obtain ⟨code, name⟩ := p
    simp only [List.map_cons, List.nodup_cons] at hn
    have hne : ∀ q ∈ rest, q.2 ≠ name := fun q hq he =>
      hn.1 (List.mem_map.2 ⟨q, hq, he⟩)
    obtain ⟨h1, h2⟩ := ih
      { attrs := e.attrs.set name code
        retriable := if name ∈ names then addSet e.retriable code else e.retriable } hn.2
      (fun q hq => by
        simp only [Dict.get?_set, if_neg (Ne.symm (hne q hq))]
        exact hf q (List.mem_cons_of_mem _ hq))
    constructor
    · intro n c
      rw [List.foldl_cons, h1]
      simp only [Dict.get?_set, List.mem_cons, Prod.mk.injEq]
      have h0 := hf (code, name) (by simp)
      by_cases hnn : name = n
      · subst hnn
        simp only [if_true, Option.some.injEq, and_true]
        simp only at h0
        rw [h0]
        simp [eq_comm]
      · simp [hnn, Ne.symm hnn]
    · intro c
      rw [List.foldl_cons, h2]
      simp only [List.mem_cons, Prod.mk.injEq]
      by_cases hnm : name ∈ names
      · simp only [if_pos hnm, mem_addSet]
        constructor
        · rintro ((rfl | h) | ⟨n, h, h'⟩)
          · exact Or.inr ⟨name, hnm, Or.inl ⟨rfl, rfl⟩⟩
          · exact Or.inl h
          · exact Or.inr ⟨n, h, Or.inr h'⟩
        · rintro (h | ⟨n, h, ⟨rfl, rfl⟩ | h'⟩)
          · exact Or.inl (Or.inr h)
          · exact Or.inl (Or.inl rfl)
          · exact Or.inr ⟨n, h, h'⟩
      · simp only [if_neg hnm]
        constructor
        · rintro (h | ⟨n, h, h'⟩)
          · exact Or.inl h
          · exact Or.inr ⟨n, h, Or.inr h'⟩
        · rintro (h | ⟨n, h, ⟨rfl, rfl⟩ | h'⟩)
          · exact Or.inl h
          · exact absurd h hnm
          · exact Or.inr ⟨n, h, h'⟩

/-- **C63**, for any table without repeated names: `errors.<name>` is the code that the table
gives that name, and `errors.retriable` holds exactly the codes of the retriable names. -/
theorem C63_general (table : Dict Int String) (names : List String)
    (hn : (table.map (·.2)).Nodup) :
    (∀ name code, (mkErrors table names).attrs.get? name = some code ↔ (code, name) ∈ table) ∧
    (∀ code, code ∈ (mkErrors table names).retriable ↔ ∃ n ∈ names, (code, n) ∈ table) := by
  have := mkErrors_aux table names ⟨[], []⟩ hn (by simp [Dict.get?])
  simpa [Dict.get?, mkErrors] using this

/-- The error codes of the Kafka protocol up to 31 and whether Kafka calls them retriable
(the table at kafka.apache.org/protocol, of the version kiel was written for; 13 is not
sent to clients). -/
def Spec.kafkaErrors : List (Int × Bool) :=
  [(-1, false), (0, false), (1, false), (2, true), (3, true), (4, false), (5, true), (6, true),
   (7, true), (8, false), (9, false), (10, false), (11, false), (12, false), (14, true),
   (15, true), (16, true), (17, false), (18, false), (19, true), (20, true), (21, false),
   (22, false), (23, false), (24, false), (25, false), (26, false), (27, false), (28, false),
   (29, false), (30, false), (31, false)]

/-- **C63**: codes and names of the table are unambiguous both ways; the names are attributes
of `errors`; the codes are Kafka's, and `errors.retriable` has exactly those that Kafka calls
retriable; "no error" is not among them. -/
theorem C63_table :
    (errorCodes.map (·.1)).Nodup ∧ (errorCodes.map (·.2)).Nodup ∧
    (∀ name code, errors.attrs.get? name = some code ↔ (code, name) ∈ errorCodes) ∧
    (∀ code, (∃ name, (code, name) ∈ errorCodes) ↔ ∃ b, (code, b) ∈ Spec.kafkaErrors) ∧
    (∀ code, code ∈ errors.retriable ↔ (code, true) ∈ Spec.kafkaErrors) ∧
    (∀ code, errors.attrs.get? "no_error" = some code → code ∉ errors.retriable) := by
  have hn2 : (errorCodes.map (·.2)).Nodup := by decide +kernel
  have hg := C63_general errorCodes retriableCodes hn2
  have hr : ∀ code, code ∈ errors.retriable ↔ (code, true) ∈ Spec.kafkaErrors := by
    have h1 : errors.retriable = [2, 3, 5, 6, 7, 14, 15, 16, 19, 20] := by decide +kernel
    intro code
    rw [h1]
    simp [Spec.kafkaErrors]
  refine ⟨by decide +kernel, hn2, hg.1, ?_, hr, ?_⟩
  · intro code
    have h1 : (∃ name, (code, name) ∈ errorCodes) ↔ code ∈ errorCodes.map (·.1) := by simp
    have h2 : (∃ b, (code, b) ∈ Spec.kafkaErrors) ↔ code ∈ Spec.kafkaErrors.map (·.1) := by simp
    rw [h1, h2]
    constructor
    · have : ∀ c ∈ errorCodes.map (·.1), c ∈ Spec.kafkaErrors.map (·.1) := by decide +kernel
      exact this code
    · have : ∀ c ∈ Spec.kafkaErrors.map (·.1), c ∈ errorCodes.map (·.1) := by decide +kernel
      exact this code
  · intro code hc
    have : errors.attrs.get? "no_error" = some 0 := by decide +kernel
    rw [this] at hc
    cases hc
    decide +kernel

/-- **C63**: the codes that the models of the clients use are those of `errors`. -/
theorem C63_codes :
    errors.attrs.get? "no_error" = some Err.noError ∧
    errors.attrs.get? "offset_out_of_range" = some Err.offsetOutOfRange ∧
    errors.attrs.get? "unknown_topic_or_partition" = some Err.unknownTopicOrPartition ∧
    errors.attrs.get? "leader_not_available" = some Err.leaderNotAvailable ∧
    errors.attrs.get? "replica_not_available" = some Err.replicaNotAvailable ∧
    errors.attrs.get? "offset_metadata_too_large" = some Err.offsetMetadataTooLarge ∧
    errors.attrs.get? "offsets_load_in_progress" = some Err.offsetsLoadInProgress ∧
    errors.retriable = Err.retriable := by
  decide +kernel

-- Non-vacuity of C63_general: a small table.
example : (mkErrors [(0, "fine"), (4, "again")] ["again"]).retriable = [4] := by decide

end Kiel
