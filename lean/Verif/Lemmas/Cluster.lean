import Verif.Spec.Cluster
import Verif.Lemmas.Dict
/-
The tables of a cluster.
-/
set_option autoImplicit false
namespace Kiel
open Spec

/-- The tables say what `G` says. -/
structure TablesInv (t : Tables) (G : String → List PartMd) (M : String → Prop) : Prop where
  topics : ∀ n, t.topics.get? n = if G n = [] then .none else some ((G n).map (·.id))
  keys : ∀ n, t.leaders.get? n = .none ↔ G n = []
  leaders : ∀ n p, (t.leaders.get? n).bind (·.get? p) =
    ((G n).reverse.find? (fun x => decide (x.id = p))).map (·.leader)
  missing : ∀ n, n ∈ t.missing ↔ M n
  nodup : t.missing.Nodup

theorem mem_addSet {α : Type} [DecidableEq α] (s : List α) (x y : α) :
    y ∈ addSet s x ↔ y = x ∨ y ∈ s := by
  unfold addSet
  split
  · constructor
    · exact Or.inr
    · rintro (rfl | h) <;> assumption
  · simp [or_comm]

theorem nodup_addSet {α : Type} [DecidableEq α] {s : List α} (h : s.Nodup) (x : α) :
    (addSet s x).Nodup := by
  unfold addSet
  split
  · exact h
  · rename_i hx
    rw [List.nodup_append]
    exact ⟨h, by simp, by intro a ha b hb; simp at hb; subst hb; rintro rfl; exact hx ha⟩

theorem getDefault_get? {κ ν : Type} [DecidableEq κ] (d : Dict κ ν) (k k' : κ) (v : ν) :
    (d.getDefault k v).1.get? k' = if k = k' then some ((d.get? k).getD v) else d.get? k' := by
  unfold Dict.getDefault
  cases h : d.get? k with
  | none => simp [Dict.get?_set]
  | some w =>
    simp only
    split
    · rename_i hk; subst hk; simp [h]
    · rfl

theorem getDefault_snd {κ ν : Type} [DecidableEq κ] (d : Dict κ ν) (k : κ) (v : ν) :
    (d.getDefault k v).2 = (d.get? k).getD v := by
  unfold Dict.getDefault
  cases h : d.get? k <;> simp

theorem tablesInv_partition {t : Tables} {G : String → List PartMd} {M : String → Prop}
    (h : TablesInv t G M) (conns : Dict Int CConn) (name : String) (p : PartMd) :
    TablesInv (processPartition conns name t p)
      (fun n => if name = n ∧ p.error ≠ 5 ∧ p.leader ∈ conns.keys then G n ++ [p] else G n)
      (fun n => M n ∨ (n = name ∧ (p.error = 5 ∨ ¬ p.leader ∈ conns.keys))) := by
  unfold processPartition
  by_cases h1 : p.error = Err.leaderNotAvailable
  · have h1' : p.error = 5 := h1
    rw [if_pos h1]
    constructor
    · simpa [h1'] using h.topics
    · simpa [h1'] using h.keys
    · simpa [h1'] using h.leaders
    · intro n; simp [mem_addSet, h.missing, h1', or_comm]
    · exact nodup_addSet h.nodup _
  · have h1' : ¬ p.error = 5 := h1
    rw [if_neg h1]
    by_cases h2 : conns.has p.leader = true
    · rw [if_neg (by simp [h2])]
      have h2' : p.leader ∈ conns.keys := Dict.has_iff.1 h2
      simp only [h1', ne_eq, not_false_eq_true, h2', and_true, not_true_eq_false, or_self,
        and_false, or_false]
      constructor
      · intro n
        simp only [Dict.get?_set, getDefault_get?, getDefault_snd]
        by_cases hn : name = n
        · subst hn
          simp only [if_true, h.topics name]
          cases hG : G name <;> simp
        · simp only [if_neg hn]; exact h.topics n
      · intro n
        simp only [Dict.get?_set, getDefault_get?, getDefault_snd]
        by_cases hn : name = n
        · simp [hn]
        · simp only [if_neg hn]; exact h.keys n
      · intro n q
        simp only [Dict.get?_set, getDefault_get?, getDefault_snd]
        by_cases hn : name = n
        · subst hn
          simp only [if_true, Option.bind_some, Dict.get?_set, List.reverse_append,
            List.reverse_cons, List.reverse_nil, List.nil_append, List.singleton_append,
            List.find?_cons]
          have hl := h.leaders name q
          by_cases hq : p.id = q
          · simp [hq]
          · simp only [hq, decide_false]
            rw [← hl]
            cases hg : t.leaders.get? name <;> simp [Dict.get?]
        · simp only [if_neg hn]; exact h.leaders n q
      · exact h.missing
      · exact h.nodup
    · have h2' : p.leader ∉ conns.keys := fun hk => h2 (Dict.has_iff.2 hk)
      rw [if_pos (by simp [h2])]
      constructor
      · simpa [h2'] using h.topics
      · simpa [h2'] using h.keys
      · simpa [h2'] using h.leaders
      · intro n; simp [mem_addSet, h.missing, h2', or_comm]
      · exact nodup_addSet h.nodup _

theorem TablesInv.congr {t : Tables} {G G' : String → List PartMd} {M M' : String → Prop}
    (h : TablesInv t G M) (hG : ∀ n, G n = G' n) (hM : ∀ n, M n ↔ M' n) : TablesInv t G' M' := by
  have : G = G' := funext hG
  subst this
  exact ⟨h.topics, h.keys, h.leaders, fun n => (h.missing n).trans (hM n), h.nodup⟩

theorem tablesInv_partitions (conns : Dict Int CConn) (name : String) (ps : List PartMd)
    {t : Tables} {G : String → List PartMd} {M : String → Prop} (h : TablesInv t G M) :
    TablesInv (ps.foldl (processPartition conns name) t)
      (fun n => if name = n then
        G n ++ ps.filter (fun p => p.error ≠ 5 ∧ p.leader ∈ conns.keys) else G n)
      (fun n => M n ∨ (n = name ∧ ∃ p ∈ ps, p.error = 5 ∨ ¬ p.leader ∈ conns.keys)) := by
  induction ps generalizing t G M with
  | nil => exact h.congr (by intro n; simp) (by intro n; simp)
  | cons p ps ih =>
    refine (ih (tablesInv_partition h conns name p)).congr ?_ ?_
    · intro n
      by_cases hn : name = n
      · by_cases hp : p.error ≠ 5 ∧ p.leader ∈ conns.keys
        · have hp1 : p.error ≠ 5 := hp.1
          have hp2 : p.leader ∈ conns.keys := hp.2
          simp [hn, hp1, hp2]
        · have hp' : (decide (p.error ≠ 5 ∧ p.leader ∈ conns.keys)) = false := decide_eq_false hp
          simp only [hn, true_and, if_true, List.filter_cons, hp', if_neg hp]
          simp
      · simp [hn]
    · intro n
      simp only [List.mem_cons]
      constructor
      · rintro ((h | ⟨h1, h2⟩) | ⟨h1, p', h2, h3⟩)
        · exact Or.inl h
        · exact Or.inr ⟨h1, p, Or.inl rfl, h2⟩
        · exact Or.inr ⟨h1, p', Or.inr h2, h3⟩
      · rintro (h | ⟨h1, p', rfl | h2, h3⟩)
        · exact Or.inl (Or.inl h)
        · exact Or.inl (Or.inr ⟨h1, h3⟩)
        · exact Or.inr ⟨h1, p', h2, h3⟩

theorem tablesInv_topic (conns : Dict Int CConn) (x : TopicMd)
    {t : Tables} {G : String → List PartMd} {M : String → Prop} (h : TablesInv t G M) :
    TablesInv (processTopic conns t x)
      (fun n => G n ++ usable (· ∈ conns.keys) [x] n)
      (fun n => M n ∨ NeedsLook (· ∈ conns.keys) [x] n) := by
  unfold processTopic
  by_cases h3 : x.error = Err.unknownTopicOrPartition
  · have h3' : x.error = 3 := h3
    rw [if_pos h3]
    refine h.congr ?_ ?_
    · intro n; simp [usable, h3']
    · intro n; simp [NeedsLook, h3']
  · have h3' : ¬ x.error = 3 := h3
    rw [if_neg h3]
    by_cases h9 : x.error = Err.replicaNotAvailable
    · have h9' : x.error = 9 := h9
      rw [if_pos h9]
      have h' : TablesInv { t with missing := addSet t.missing x.name } G
          (fun n => n = x.name ∨ M n) :=
        ⟨h.topics, h.keys, h.leaders, fun n => by simp [mem_addSet, h.missing],
          nodup_addSet h.nodup _⟩
      refine h'.congr ?_ ?_
      · intro n; simp [usable, h9']
      · intro n; simp [NeedsLook, h9', or_comm, eq_comm]
    · have h9' : ¬ x.error = 9 := h9
      rw [if_neg h9]
      refine (tablesInv_partitions conns x.name x.parts h).congr ?_ ?_
      · intro n
        by_cases hn : x.name = n
        · simp [usable, h3', h9', hn]
        · simp [usable, hn]
      · intro n
        simp [NeedsLook, h3', h9', eq_comm]

theorem usable_append (known : Int → Prop) [DecidablePred known] (a b : List TopicMd)
    (n : String) : usable known (a ++ b) n = usable known a n ++ usable known b n := by
  simp [usable]

theorem needsLook_append (known : Int → Prop) (a b : List TopicMd) (n : String) :
    NeedsLook known (a ++ b) n ↔ NeedsLook known a n ∨ NeedsLook known b n := by
  simp only [NeedsLook, List.mem_append]
  constructor
  · rintro ⟨x, h | h, h1⟩
    · exact Or.inl ⟨x, h, h1⟩
    · exact Or.inr ⟨x, h, h1⟩
  · rintro (⟨x, h, h1⟩ | ⟨x, h, h1⟩)
    · exact ⟨x, Or.inl h, h1⟩
    · exact ⟨x, Or.inr h, h1⟩

theorem tablesInv_topics (conns : Dict Int CConn) (xs : List TopicMd)
    {t : Tables} {G : String → List PartMd} {M : String → Prop} (h : TablesInv t G M) :
    TablesInv (xs.foldl (processTopic conns) t)
      (fun n => G n ++ usable (· ∈ conns.keys) xs n)
      (fun n => M n ∨ NeedsLook (· ∈ conns.keys) xs n) := by
  induction xs generalizing t G M with
  | nil => exact h.congr (by intro n; simp [usable]) (by intro n; simp [NeedsLook])
  | cons x xs ih =>
    refine (ih (tablesInv_topic conns x h)).congr ?_ ?_
    · intro n
      rw [show x :: xs = [x] ++ xs from rfl, usable_append, List.append_assoc]
    · intro n
      rw [show x :: xs = [x] ++ xs from rfl, needsLook_append, or_assoc]

theorem tablesInv_process (conns : Dict Int CConn) (xs : List TopicMd) :
    TablesInv (xs.foldl (processTopic conns) ⟨[], [], []⟩) (usable (· ∈ conns.keys) xs)
      (NeedsLook (· ∈ conns.keys) xs) := by
  have h0 : TablesInv ⟨[], [], []⟩ (fun _ => []) (fun _ => False) := by
    constructor <;> simp [Dict.get?]
  exact (tablesInv_topics conns xs h0).congr (by intro n; simp) (by intro n; simp)

end Kiel
