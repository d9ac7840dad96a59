import Verif.Lemmas.Allocator
import Mathlib.Data.Int.CardIntervalMod
/-
The default allocator: C45 and C46.
-/
set_option autoImplicit false
namespace Kiel
open Spec

theorem getDefault_snd' {κ ν : Type} [DecidableEq κ] (d : Dict κ ν) (k : κ) (v : ν) :
    (d.getDefault k v).2 = (d.get? k).getD v := by
  unfold Dict.getDefault
  split <;> simp_all

theorem lookup_append (d : Mapping) (m t : String) (i : Int) (m' t' : String) :
    lookup (d.append m t i) m' t' = lookup d m' t' ++ (if m = m' ∧ t = t' then [i] else []) := by
  unfold lookup Mapping.append
  simp only [getDefault_snd', Dict.get?_set]
  by_cases hm : m = m'
  · subst hm
    simp only [if_true, Option.getD_some, Dict.get?_set, true_and]
    by_cases ht : t = t'
    · subst ht; simp
    · simp [ht]
  · simp [hm]

theorem sum_set (d : Dict String (List Int)) (t : String) (i : Int) :
    ((d.set t ((d.get? t).getD [] ++ [i])).map fun e => e.2.length).sum
      = (d.map fun e => e.2.length).sum + 1 := by
  induction d with
  | nil => simp [Dict.set, Dict.get?]
  | cons e r ih =>
    obtain ⟨k, v⟩ := e
    simp only [Dict.get?, Dict.set]
    by_cases hk : k = t
    · simp [hk]; omega
    · simp only [if_neg hk, List.map_cons, List.sum_cons, ih]; omega

theorem total_append (d : Mapping) (m t : String) (i : Int) (m' : String) :
    total (d.append m t i) m' = total d m' + (if m = m' then 1 else 0) := by
  unfold total Mapping.append
  simp only [getDefault_snd', Dict.get?_set]
  by_cases hm : m = m'
  · subst hm
    simp only [if_true, Option.getD_some, sum_set]
  · simp [hm]

theorem allocLoop_ok (L : List (String × (String × Int))) (hp : ∀ x ∈ L, PlainName x.2.1) :
    ∀ d, ∃ d', allocLoop (L.map fun x => (x.1, item x.2)) d = .ok d' ∧
      (∀ m t, lookup d' m t
        = lookup d m t ++ (L.filter fun x => decide (x.2.1 = t ∧ x.1 = m)).map (·.2.2)) ∧
      ∀ m, total d' m = total d m + L.countP fun x => decide (x.1 = m) := by
  induction L with
  | nil => intro d; exact ⟨d, rfl, by simp, by simp⟩
  | cons x L ih =>
    intro d
    obtain ⟨m0, t0, i0⟩ := x
    have hx : PlainName t0 := hp (m0, t0, i0) (by simp)
    obtain ⟨d', h1, h2, h3⟩ := ih (fun y hy => hp y (by simp [hy])) (d.append m0 t0 i0)
    refine ⟨d', ?_, ?_, ?_⟩
    · simp only [List.map_cons, allocLoop, splitColon_item (t0, i0) hx, pyInt?_strInt,
        String.ofList_toList]
      exact h1
    · intro m t
      rw [h2, lookup_append, List.filter_cons]
      by_cases h : t0 = t ∧ m0 = m
      · simp [h]
      · have h' : ¬ (m0 = m ∧ t0 = t) := fun hh => h ⟨hh.2, hh.1⟩
        rw [if_neg h', if_neg (by simpa using h)]
        simp
    · intro m
      rw [h3, total_append, List.countP_cons]
      simp only [decide_eq_true_eq]
      omega

/-- The pairs the loop runs over, with the items split. -/
theorem zipCycle_items (ms : List String) (parts : List (String × Int)) :
    zipCycle ms ms (parts.map item) = (zipCycle ms ms parts).map fun x => (x.1, item x.2) := by
  have h : ∀ (ps : List (String × Int)) (cur : List String),
      zipCycle ms cur (ps.map item) = (zipCycle ms cur ps).map fun x => (x.1, item x.2) := by
    intro ps
    induction ps with
    | nil => intro cur; cases cur <;> rfl
    | cons p ps ih =>
      intro cur
      cases cur with
      | nil =>
        cases hm : ms with
        | nil => simp [zipCycle]
        | cons m rest =>
          subst hm
          simp only [List.map_cons, zipCycle, ih]
      | cons c cur => simp only [List.map_cons, zipCycle, ih]
  exact h parts ms

theorem zipCycle_owner (ms : List String) (hne : ms ≠ []) (parts : List (String × Int)) :
    (zipCycle ms ms parts).map (fun x => (some x.1, x.2))
      = parts.zipIdx.map (fun x => (owner ms x.2, x.1)) := by
  have := zipCycle_eq ms hne parts 0 (Nat.zero_le _)
  simpa only [List.drop_zero, Nat.zero_add, owner] using this

theorem zipCycle_mem (ms : List String) (hne : ms ≠ []) (parts : List (String × Int))
    (x : String × (String × Int)) (hx : x ∈ zipCycle ms ms parts) : x.2 ∈ parts := by
  have h : (some x.1, x.2) ∈ (zipCycle ms ms parts).map (fun x => (some x.1, x.2)) :=
    List.mem_map.2 ⟨x, hx, rfl⟩
  rw [zipCycle_owner ms hne parts, List.mem_map] at h
  obtain ⟨y, hy, he⟩ := h
  simp only [Prod.mk.injEq] at he
  rw [← he.2]
  exact (List.mem_zipIdx hy).2.2 ▸ List.getElem_mem _

theorem naive_ok (ms : List String) (hne : ms ≠ []) (parts : List (String × Int))
    (hp : ∀ p ∈ parts, PlainName p.1) :
    ∃ mp, naiveAllocator ms (parts.map item) = .ok mp ∧
      (∀ m t, lookup mp m t = given ms parts m t) ∧
      ∀ m, total mp m = (parts.zipIdx.countP fun x => decide (owner ms x.2 = some m)) := by
  obtain ⟨mp, h1, h2, h3⟩ := allocLoop_ok (zipCycle ms ms parts)
    (fun x hx => hp _ (zipCycle_mem ms hne parts x hx)) []
  refine ⟨mp, by rw [naiveAllocator, zipCycle_items]; exact h1, ?_, ?_⟩
  · intro m t
    rw [h2]
    have e1 : ((zipCycle ms ms parts).filter fun x => decide (x.2.1 = t ∧ x.1 = m)).map (·.2.2)
        = (((zipCycle ms ms parts).map fun x => (some x.1, x.2)).filter
            fun x => decide (x.2.1 = t ∧ x.1 = some m)).map (·.2.2) := by
      rw [List.filter_map, List.map_map]
      simp only [Function.comp_def, Option.some.injEq]
    rw [e1, zipCycle_owner ms hne, List.filter_map, List.map_map]
    simp only [Function.comp_def, given]
    simp [lookup, Dict.get?]
  · intro m
    rw [h3]
    have e1 : (zipCycle ms ms parts).countP (fun x => decide (x.1 = m))
        = ((zipCycle ms ms parts).map fun x => (some x.1, x.2)).countP
            fun x => decide (x.1 = some m) := by
      rw [List.countP_map]
      simp only [Function.comp_def, Option.some.injEq]
    rw [e1, zipCycle_owner ms hne, List.countP_map]
    simp [Function.comp_def, total, Dict.get?]

/-! ### C45 -/

/-- **C45**, exactly: with at least one member, for any partitions of topics with ordinary names,
the allocator succeeds, and what it gives a member is, topic by topic, the partitions whose turn
it was, in order. -/
theorem C45_exact (ms : List String) (hne : ms ≠ []) (parts : List (String × Int))
    (hp : ∀ p ∈ parts, PlainName p.1) :
    ∃ mp, naiveAllocator ms (parts.map item) = .ok mp ∧
      ∀ m t, lookup mp m t = given ms parts m t := by
  obtain ⟨mp, h1, h2, _⟩ := naive_ok ms hne parts hp
  exact ⟨mp, h1, h2⟩

theorem mem_given (ms : List String) (parts : List (String × Int)) (m t : String) (i : Int) :
    i ∈ given ms parts m t ↔ ∃ k, parts[k]? = some (t, i) ∧ owner ms k = some m := by
  unfold given
  simp only [List.mem_map, List.mem_filter, decide_eq_true_eq, List.mem_zipIdx_iff_getElem?]
  constructor
  · rintro ⟨⟨⟨t', i'⟩, k⟩, ⟨h1, h2, h3⟩, h4⟩
    simp only at h1 h2 h3 h4
    subst h2 h4
    exact ⟨k, h1, h3⟩
  · rintro ⟨k, h1, h2⟩
    exact ⟨((t, i), k), ⟨h1, rfl, h2⟩, rfl⟩

theorem given_nodup (ms : List String) (parts : List (String × Int)) (hn : parts.Nodup)
    (m t : String) : (given ms parts m t).Nodup := by
  have h1 : (given ms parts m t).map (fun i => (t, i))
      = (parts.zipIdx.filter fun x => decide (x.1.1 = t ∧ owner ms x.2 = some m)).map (·.1) := by
    unfold given
    rw [List.map_map]
    apply List.map_congr_left
    rintro ⟨⟨t', i'⟩, k⟩ hx
    simp only [List.mem_filter, decide_eq_true_eq] at hx
    simp [hx.2.1]
  have h2 : ((given ms parts m t).map (fun i => (t, i))).Nodup := by
    rw [h1]
    apply List.Nodup.sublist _ hn
    have := (List.filter_sublist (l := parts.zipIdx)
      (p := fun x => decide (x.1.1 = t ∧ owner ms x.2 = some m))).map (·.1)
    rwa [List.zipIdx_map_fst] at this
  exact h2.of_map _

/-- **C45.**  Every partition is given to exactly one member, once, and nobody is given anything
else. -/
theorem C45_exactly_one (ms : List String) (hne : ms ≠ []) (parts : List (String × Int))
    (hn : parts.Nodup) (hp : ∀ p ∈ parts, PlainName p.1) :
    ∃ mp, naiveAllocator ms (parts.map item) = .ok mp ∧
      (∀ t i, (t, i) ∈ parts → ∃ m ∈ ms, i ∈ lookup mp m t ∧ ∀ m', i ∈ lookup mp m' t → m' = m) ∧
      (∀ m t i, i ∈ lookup mp m t → m ∈ ms ∧ (t, i) ∈ parts) ∧
      ∀ m t, (lookup mp m t).Nodup := by
  obtain ⟨mp, h1, h2, _⟩ := naive_ok ms hne parts hp
  have hpos : 0 < ms.length := List.length_pos_of_ne_nil hne
  refine ⟨mp, h1, ?_, ?_, ?_⟩
  · intro t i hti
    obtain ⟨k, hk⟩ := List.mem_iff_getElem?.1 hti
    refine ⟨ms[k % ms.length]'(Nat.mod_lt _ hpos), List.getElem_mem _, ?_, ?_⟩
    · rw [h2, mem_given]
      exact ⟨k, hk, List.getElem?_eq_getElem _⟩
    · intro m' hm'
      rw [h2, mem_given] at hm'
      obtain ⟨k', hk', ho⟩ := hm'
      have hkk : k = k' := by
        obtain ⟨hl, he⟩ := List.getElem?_eq_some_iff.1 hk
        obtain ⟨hl', he'⟩ := List.getElem?_eq_some_iff.1 hk'
        exact (List.Nodup.getElem_inj_iff hn).1 (he.trans he'.symm)
      subst hkk
      rw [owner, List.getElem?_eq_getElem (Nat.mod_lt _ hpos)] at ho
      exact (Option.some.inj ho).symm
  · intro m t i hi
    rw [h2, mem_given] at hi
    obtain ⟨k, hk, ho⟩ := hi
    exact ⟨List.mem_of_getElem? ho, List.mem_of_getElem? hk⟩
  · intro m t
    rw [h2]
    exact given_nodup ms parts hn m t

/-- Without members nothing is allocated. -/
theorem C45_no_members (parts : List String) : naiveAllocator [] parts = .ok [] := by
  cases parts <;> rfl

/-- An item that does not contain exactly one colon makes the allocator raise, if anybody is there
to be given it. -/
theorem C45_malformed (ms : List String) (hne : ms ≠ []) (parts : List String)
    (x : String) (hx : x ∈ parts) (hc : x.toList.count ':' ≠ 1) :
    naiveAllocator ms parts = .error .valueError := by
  have hz : ∀ (ps : List String) (k : Nat), k ≤ ms.length →
      (zipCycle ms (ms.drop k) ps).map (·.2) = ps := by
    intro ps k hk
    have := congrArg (List.map Prod.snd) (zipCycle_eq ms hne ps k hk)
    simp only [List.map_map, Function.comp_def] at this
    rw [this]
    exact List.zipIdx_map_fst ..
  have hl : ∀ (L : List (String × String)) (d : Mapping), x ∈ L.map (·.2) →
      allocLoop L d = .error .valueError := by
    intro L
    induction L with
    | nil => simp
    | cons y L ih =>
      intro d hy
      obtain ⟨m, p⟩ := y
      simp only [List.map_cons, List.mem_cons] at hy
      simp only [allocLoop]
      split
      · next t i hs =>
        rcases hy with rfl | hy
        · have := splitColon_length x.toList
          rw [hs] at this
          simp only [List.length_cons, List.length_nil] at this
          omega
        · split
          · rfl
          · exact ih _ hy
      · rfl
  have := hz parts 0 (Nat.zero_le _)
  rw [List.drop_zero] at this
  exact hl _ _ (by rw [this]; exact hx)

/-! ### C46 -/

theorem owner_count (ms : List String) (hn : ms.Nodup) (parts : List (String × Int)) (j : Nat)
    (hj : j < ms.length) :
    parts.zipIdx.countP (fun x => decide (owner ms x.2 = some ms[j]))
      = parts.length / ms.length + if j < parts.length % ms.length then 1 else 0 := by
  have hpos : 0 < ms.length := Nat.lt_of_le_of_lt (Nat.zero_le _) hj
  have key : ∀ k, (owner ms k = some ms[j]) ↔ k ≡ j [MOD ms.length] := by
    intro k
    rw [owner, List.getElem?_eq_getElem (Nat.mod_lt k hpos), Option.some.injEq,
      List.Nodup.getElem_inj_iff hn, Nat.ModEq, Nat.mod_eq_of_lt hj]
  have h := Nat.count_modEq_card parts.length hpos j
  rw [Nat.mod_eq_of_lt hj] at h
  rw [← h, Nat.count_eq_card_filter_range]
  have h2 : parts.zipIdx.countP (fun x => decide (owner ms x.2 = some ms[j]))
      = (parts.zipIdx.map (·.2)).countP fun k => decide (k ≡ j [MOD ms.length]) := by
    rw [List.countP_map]
    apply List.countP_congr
    intro x _
    simp [key x.2]
  rw [h2, List.zipIdx_map_snd, List.countP_eq_length_filter, ← List.range_eq_range']
  rfl

/-- **C46.**  The numbers of partitions given to any two members differ by at most one; each is the
number of partitions divided by the number of members, rounded down or up. -/
theorem C46_balanced (ms : List String) (hn : ms.Nodup) (parts : List (String × Int))
    (hp : ∀ p ∈ parts, PlainName p.1) (mp : Mapping)
    (h : naiveAllocator ms (parts.map item) = .ok mp) (m m' : String) (hm : m ∈ ms) (hm' : m' ∈ ms) :
    total mp m ≤ total mp m' + 1 ∧
      (total mp m = parts.length / ms.length ∨ total mp m = parts.length / ms.length + 1) := by
  have hne : ms ≠ [] := List.ne_nil_of_mem hm
  obtain ⟨mp', h1, _, h3⟩ := naive_ok ms hne parts hp
  rw [h] at h1
  obtain rfl := Except.ok.inj h1
  obtain ⟨j, hj, rfl⟩ := List.mem_iff_getElem.1 hm
  obtain ⟨j', hj', rfl⟩ := List.mem_iff_getElem.1 hm'
  rw [h3, h3, owner_count ms hn parts j hj, owner_count ms hn parts j' hj']
  constructor
  · split <;> split <;> omega
  · split <;> simp

/-- `total` counts what `lookup` shows: over any list of different topics that includes all that
occur. -/
theorem C46_total (ms : List String) (hne : ms ≠ []) (parts : List (String × Int))
    (hp : ∀ p ∈ parts, PlainName p.1) (mp : Mapping)
    (h : naiveAllocator ms (parts.map item) = .ok mp) (m : String) (ts : List String)
    (hts : ts.Nodup) (hall : ∀ p ∈ parts, p.1 ∈ ts) :
    total mp m = (ts.map fun t => (lookup mp m t).length).sum := by
  obtain ⟨mp', h1, h2, h3⟩ := naive_ok ms hne parts hp
  rw [h] at h1
  obtain rfl := Except.ok.inj h1
  simp only [h3, h2, given, List.length_map]
  have gen : ∀ (L : List ((String × Int) × Nat)), (∀ x ∈ L, x.1.1 ∈ ts) →
      L.countP (fun x => decide (owner ms x.2 = some m))
        = (ts.map fun t => (L.filter fun x => decide (x.1.1 = t ∧ owner ms x.2 = some m)).length).sum := by
    intro L
    induction L with
    | nil => intro _; simp
    | cons y L ih =>
      intro hL
      rw [List.countP_cons, ih (fun x hx => hL x (by simp [hx]))]
      by_cases ho : owner ms y.2 = some m
      · have hy : y.1.1 ∈ ts := hL y (by simp)
        have : (ts.map fun t => ((y :: L).filter
              fun x => decide (x.1.1 = t ∧ owner ms x.2 = some m)).length).sum
            = (ts.map fun t => (L.filter
              fun x => decide (x.1.1 = t ∧ owner ms x.2 = some m)).length + if y.1.1 = t then 1 else 0).sum := by
          congr 1
          apply List.map_congr_left
          intro t _
          rw [List.filter_cons]
          by_cases ht : y.1.1 = t <;> simp [ht, ho]
        rw [this, List.sum_map_add]
        have hc : (ts.map fun t => if y.1.1 = t then 1 else 0).sum = 1 := by
          have : (ts.map fun t => if y.1.1 = t then 1 else 0).sum = ts.count y.1.1 := by
            clear * -
            induction ts with
            | nil => rfl
            | cons a ts ih =>
              rw [List.map_cons, List.sum_cons, ih, List.count_cons]
              by_cases ha : y.1.1 = a
              · simp [ha]; omega
              · simp [ha, Ne.symm ha]
          rw [this, List.count_eq_one_of_mem hts hy]
        rw [hc]
        simp [ho]
      · simp only [ho, decide_false, Bool.false_eq_true, if_false, Nat.add_zero, and_false,
          List.filter_cons]
  exact gen _ fun x hx => hall _ ((List.mem_zipIdx hx).2.2 ▸ List.getElem_mem _)

/-! ### A case -/

def exParts : List (String × Int) := [("logs", 0), ("logs", 1), ("logs", 2), ("hits", 10), ("hits", -1)]

example : exParts.map item = ["logs:0", "logs:1", "logs:2", "hits:10", "hits:-1"] := by decide +kernel

/-- Five partitions of two topics, two members. -/
example : ["a", "b"] ≠ [] ∧ ["a", "b"].Nodup ∧ exParts.Nodup ∧ (∀ p ∈ exParts, PlainName p.1) ∧
    naiveAllocator ["a", "b"] (exParts.map item)
      = .ok [("a", [("logs", [0, 2]), ("hits", [-1])]), ("b", [("logs", [1]), ("hits", [10])])] := by
  refine ⟨by decide, by decide, by decide, by decide +kernel, by decide +kernel⟩

/-- A topic with a colon in its name. -/
example : naiveAllocator ["a", "b"] ["logs:0", "my:topic:1"] = .error .valueError := by decide +kernel

end Kiel
