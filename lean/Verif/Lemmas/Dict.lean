import Verif.Model.Py
/-
Dictionaries.
-/
namespace Kiel.Dict
variable {κ ν : Type} [DecidableEq κ]

theorem get?_set (d : Dict κ ν) (k k' : κ) (v : ν) :
    (d.set k v).get? k' = if k = k' then some v else d.get? k' := by
  induction d with
  | nil => simp [set, get?]
  | cons e r ih =>
    obtain ⟨a, b⟩ := e
    simp only [set]
    by_cases h : a = k
    · subst h; simp only [if_true, get?]; split <;> rfl
    · simp only [if_neg h, get?, ih]
      by_cases h1 : a = k'
      · subst h1; simp [Ne.symm h]
      · simp [h1]

theorem get?_erase (d : Dict κ ν) (k k' : κ) :
    (d.erase k).get? k' = if k = k' then .none else d.get? k' := by
  induction d with
  | nil => simp [erase, get?]
  | cons e r ih =>
    obtain ⟨a, b⟩ := e
    simp only [erase, List.filter_cons] at ih ⊢
    by_cases h : a = k
    · subst h; simp only [ne_eq, not_true_eq_false, decide_false, Bool.false_eq_true, if_false,
        ih, get?]; split <;> simp_all
    · simp only [ne_eq, h, not_false_eq_true, decide_true, if_true, get?] at ih ⊢
      rw [ih]
      by_cases h1 : a = k'
      · subst h1; simp [Ne.symm h]
      · simp [h1]

theorem mem_of_get? {d : Dict κ ν} {k : κ} {v : ν} (h : d.get? k = some v) : (k, v) ∈ d := by
  induction d with
  | nil => simp [get?] at h
  | cons e r ih =>
    obtain ⟨a, b⟩ := e
    simp only [get?] at h
    split at h
    · simp_all
    · simp [ih h]

theorem get?_of_mem {d : Dict κ ν} {k : κ} {v : ν} (hn : d.keys.Nodup) (h : (k, v) ∈ d) :
    d.get? k = some v := by
  induction d with
  | nil => simp at h
  | cons e r ih =>
    obtain ⟨a, b⟩ := e
    simp only [keys, List.map_cons, List.nodup_cons] at hn
    simp only [get?]
    simp only [List.mem_cons, Prod.mk.injEq] at h
    rcases h with ⟨rfl, rfl⟩ | h
    · simp
    · have : a ≠ k := by
        rintro rfl
        exact hn.1 (List.mem_map.2 ⟨_, h, rfl⟩)
      simp [this, ih hn.2 h]

theorem get?_eq_none {d : Dict κ ν} {k : κ} : d.get? k = .none ↔ k ∉ d.keys := by
  induction d with
  | nil => simp [get?, keys]
  | cons e r ih =>
    obtain ⟨a, b⟩ := e
    simp only [get?, keys, List.map_cons, List.mem_cons, not_or]
    split
    · simp_all
    · simp only [keys] at ih; simp_all [eq_comm]

theorem keys_set (d : Dict κ ν) (k : κ) (v : ν) :
    (d.set k v).keys = if k ∈ d.keys then d.keys else d.keys ++ [k] := by
  induction d with
  | nil => simp [set, keys]
  | cons e r ih =>
    obtain ⟨a, b⟩ := e
    simp only [set, keys, List.map_cons, List.mem_cons] at ih ⊢
    by_cases h : a = k
    · simp [h]
    · simp only [if_neg h, List.map_cons, Ne.symm h, false_or]
      rw [ih]
      by_cases hk : k ∈ List.map (fun x => x.fst) r
      · simp only [hk, if_true]
      · simp only [hk, if_false, List.cons_append]

theorem nodup_set {d : Dict κ ν} (h : d.keys.Nodup) (k : κ) (v : ν) :
    (d.set k v).keys.Nodup := by
  rw [keys_set]
  split
  · exact h
  · rename_i hk
    rw [List.nodup_append]
    exact ⟨h, by simp, by intro a ha b hb; simp at hb; subst hb; rintro rfl; exact hk ha⟩

theorem nodup_erase {d : Dict κ ν} (h : d.keys.Nodup) (k : κ) : (d.erase k).keys.Nodup := by
  unfold keys erase at *
  exact h.sublist (List.filter_sublist.map _)

theorem mem_erase {d : Dict κ ν} {k : κ} {e : κ × ν} : e ∈ d.erase k ↔ e ∈ d ∧ e.1 ≠ k := by
  simp [erase]

theorem mem_set {d : Dict κ ν} {k : κ} {v : ν} {e : κ × ν} (hn : d.keys.Nodup) :
    e ∈ d.set k v ↔ e = (k, v) ∨ (e ∈ d ∧ e.1 ≠ k) := by
  obtain ⟨a, b⟩ := e
  constructor
  · intro h
    have := get?_of_mem (nodup_set hn k v) h
    rw [get?_set] at this
    split at this
    · rename_i hk; subst hk; simp at this; simp [this]
    · rename_i hk; right; exact ⟨mem_of_get? this, Ne.symm hk⟩
  · rintro (h | ⟨h, hk⟩)
    · cases h; exact mem_of_get? (by simp [get?_set])
    · apply mem_of_get?
      rw [get?_set, if_neg (Ne.symm hk)]
      exact get?_of_mem hn h

theorem set_of_not_mem {d : Dict κ ν} {k : κ} {v : ν} (h : k ∉ d.keys) :
    d.set k v = d ++ [(k, v)] := by
  induction d with
  | nil => rfl
  | cons e r ih =>
    obtain ⟨a, b⟩ := e
    simp only [keys, List.map_cons, List.mem_cons, not_or] at h
    simp only [set, if_neg (Ne.symm h.1), List.cons_append, ih h.2]

theorem erase_of_not_mem {d : Dict κ ν} {k : κ} (h : k ∉ d.keys) : d.erase k = d := by
  unfold erase keys at *
  rw [List.filter_eq_self]
  intro a ha
  have : a.1 ≠ k := fun hk => h (List.mem_map.2 ⟨a, ha, hk⟩)
  simp [this]

theorem has_iff {d : Dict κ ν} {k : κ} : d.has k = true ↔ k ∈ d.keys := by
  rw [has, Option.isSome_iff_ne_none, Ne, get?_eq_none, Decidable.not_not]

omit [DecidableEq κ] in
theorem mem_keys {d : Dict κ ν} {k : κ} : k ∈ d.keys ↔ ∃ v, (k, v) ∈ d := by
  simp [keys]

end Kiel.Dict
