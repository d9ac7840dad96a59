import Verif.Spec.Consumer
import Verif.Lemmas.Codes
import Verif.Lemmas.Producer
/-
Lemmas about consumers.
-/
set_option autoImplicit false
namespace Kiel
open Spec

variable {ε β δ : Type}

/-! ### Offsets -/

theorem offsetOf_put (o : Offsets) (t : String) (p v : Int) (t' : String) (p' : Int) :
    offsetOf (o.put t p v) t' p' = if t = t' ∧ p = p' then v else offsetOf o t' p' := by
  unfold offsetOf Offsets.put
  rw [Dict.get?_set]
  by_cases ht : t = t'
  · subst ht
    simp only [if_true, Option.getD_some, Dict.get?_set, true_and]
    split <;> rfl
  · simp [ht]

theorem index_val (o : Offsets) (t : String) (p : Int) : (o.index t p).1 = offsetOf o t p := by
  unfold offsetOf Offsets.index
  simp only [getDefault_val]

theorem index_offsetOf (o : Offsets) (t : String) (p : Int) (t' : String) (p' : Int) :
    offsetOf (o.index t p).2 t' p' = offsetOf o t' p' := by
  unfold offsetOf Offsets.index
  simp only [getDefault_val, Dict.get?_set]
  by_cases ht : t = t'
  · subst ht
    simp only [if_true, Option.getD_some]
    exact getDefault_getD _ _ _ _
  · simp only [ht, if_false]
    rw [getDefault_getD]

theorem after_nil (cfg : CCfg β δ) (o : Int) : after cfg [] o = o := rfl

theorem after_append (cfg : CCfg β δ) (a b : List (Int × β)) (o : Int) :
    after cfg (a ++ b) o = after cfg b (after cfg a o) := by
  unfold after
  rw [List.filter_append, List.getLast?_append]
  cases (b.filter fun m => (decode cfg m.2).isSome && decide (0 ≤ m.1)).getLast? <;> simp

theorem values_append (cfg : CCfg β δ) (a b : List (Int × β)) :
    values cfg (a ++ b) = values cfg a ++ values cfg b := List.filterMap_append

theorem fetchedFor_append (a b : List (String × FPart β)) (t : String) (p : Int) :
    fetchedFor (a ++ b) t p = fetchedFor a t p ++ fetchedFor b t p := by
  simp [fetchedFor]

theorem fetched_append (a b : List (String × FPart β)) :
    fetched (a ++ b) = fetched a ++ fetched b := by
  simp [fetched]

theorem Spec.Effect.refl (cfg : CCfg β δ) (c : Consumer ε) : Effect cfg [] c c :=
  ⟨fun _ _ => rfl, fun t => by simp, rfl, rfl, rfl⟩

theorem Spec.Effect.trans {cfg : CCfg β δ} {a b : List (String × FPart β)} {c c' c'' : Consumer ε}
    (h : Effect cfg a c c') (h' : Effect cfg b c' c'') : Effect cfg (a ++ b) c c'' := by
  refine ⟨fun t p => ?_, fun t => ?_, h'.cluster.trans h.cluster, h'.closing.trans h.closing,
    h'.ext.trans h.ext⟩
  · rw [fetchedFor_append, after_append, h'.offsets, h.offsets]
  · rw [h'.synced, h.synced]
    simp only [List.mem_append]
    constructor
    · rintro ⟨⟨h1, h2⟩, h3⟩
      exact ⟨h1, fun a ha => ha.elim (h2 a) (h3 a)⟩
    · rintro ⟨h1, h2⟩
      exact ⟨⟨h1, fun a ha => h2 a (Or.inl ha)⟩, fun a ha => h2 a (Or.inr ha)⟩

theorem deserialize_spec (cfg : CCfg β δ) (t : String) (p : Int) (ms : List (Int × β))
    (c : Consumer ε) (out : List δ) :
    ∃ o, deserializeMessages cfg t p ms c out =
        (out ++ values cfg ms, { c with offsets := o }) ∧
      ∀ t' p', offsetOf o t' p' =
        if t = t' ∧ p = p' then after cfg ms (offsetOf c.offsets t p)
        else offsetOf c.offsets t' p' := by
  induction ms generalizing c out with
  | nil =>
    refine ⟨c.offsets, by simp [deserializeMessages, values], fun t' p' => ?_⟩
    split
    · rename_i h; rw [h.1, h.2]; rfl
    · rfl
  | cons m ms ih =>
    obtain ⟨off, v⟩ := m
    simp only [deserializeMessages]
    cases hd : cfg.deserializer v with
    | error e =>
      obtain ⟨o, h1, h2⟩ := ih c out
      refine ⟨o, ?_, fun t' p' => ?_⟩
      · simp only [h1, values, decode, List.filterMap_cons, hd, Except.toOption]
      · rw [h2]
        have : after cfg ((off, v) :: ms) (offsetOf c.offsets t p) =
            after cfg ms (offsetOf c.offsets t p) := by
          simp [after, decode, hd, Except.toOption]
        rw [this]
    | ok x =>
      simp only
      obtain ⟨o, h1, h2⟩ := ih (if off ≥ 0 then
        { c with offsets := c.offsets.put t p (off + 1) } else c) (out ++ [x])
      refine ⟨o, ?_, fun t' p' => ?_⟩
      · rw [h1]
        simp only [values, decode, List.filterMap_cons, hd, Except.toOption, List.append_assoc,
          List.singleton_append, Prod.mk.injEq, true_and]
        split <;> rfl
      · have hap := after_append cfg [(off, v)] ms (offsetOf c.offsets t p)
        rw [List.singleton_append] at hap
        rw [h2, hap]
        by_cases h0 : 0 ≤ off
        · have : after cfg [(off, v)] (offsetOf c.offsets t p) = off + 1 := by
            simp [after, decode, hd, Except.toOption, h0]
          rw [this, if_pos h0]
          simp only [offsetOf_put, true_and, if_true]
          split <;> rfl
        · have : after cfg [(off, v)] (offsetOf c.offsets t p) = offsetOf c.offsets t p := by
            simp [after, decode, hd, Except.toOption, h0]
          rw [this, if_neg h0]

/-- The messages of all parts of one response are appended in order, and the consumer changes
accordingly. -/
theorem handleFetchParts_spec (cfg : CCfg β δ) (t : String) (ps : List (FPart β))
    (c : Consumer ε) (out : List δ) (res : Res (List δ)) (c' : Consumer ε)
    (h : handleFetchParts cfg t ps c out = (res, c')) :
    (∃ done rest, ps = done ++ rest ∧ Effect cfg (done.map fun p => (t, p)) c c' ∧
      (c'.heal = true ↔ c.heal = true ∨ ∃ p ∈ done, p.code ∈ Err.retriable) ∧
      (rest = [] ∧ res = .ok (out ++ values cfg (fetched (ps.map fun p => (t, p)))) ∧
          (∀ p ∈ ps, KnownCode p.code) ∨
        (∃ p rest', rest = p :: rest' ∧ ¬ KnownCode p.code) ∧ res = .error .keyError)) := by
  induction ps generalizing c out with
  | nil =>
    simp only [handleFetchParts, Prod.mk.injEq] at h
    obtain ⟨rfl, rfl⟩ := h
    exact ⟨[], [], rfl, Effect.refl _ _, by simp, Or.inl ⟨rfl, by simp [values, fetched], by simp⟩⟩
  | cons p ps ih =>
    have step : ∀ (c1 : Consumer ε) (out1 : List δ), Effect cfg [(t, p)] c c1 →
        (c1.heal = true ↔ c.heal = true ∨ p.code ∈ Err.retriable) → KnownCode p.code →
        out1 = out ++ values cfg (fetched [(t, p)]) →
        handleFetchParts cfg t ps c1 out1 = (res, c') →
        (∃ done rest, p :: ps = done ++ rest ∧ Effect cfg (done.map fun p => (t, p)) c c' ∧
        (c'.heal = true ↔ c.heal = true ∨ ∃ p ∈ done, p.code ∈ Err.retriable) ∧
        (rest = [] ∧ res = .ok (out ++ values cfg (fetched ((p :: ps).map fun p => (t, p)))) ∧
            (∀ q ∈ p :: ps, KnownCode q.code) ∨
          (∃ p rest', rest = p :: rest' ∧ ¬ KnownCode p.code) ∧ res = .error .keyError)) := by
      intro c1 out1 he hh hk ho hr
      obtain ⟨done, rest, h1, h2, h3, h4⟩ := ih c1 out1 hr
      refine ⟨p :: done, rest, by rw [h1]; rfl, he.trans h2, ?_, ?_⟩
      · rw [h3, hh]
        simp only [List.mem_cons, exists_eq_or_imp, or_assoc]
      · rcases h4 with ⟨h5, h6, h7⟩ | h5
        · refine Or.inl ⟨h5, ?_, ?_⟩
          · rw [h6, ho]
            have hf := fetched_append [(t, p)] (ps.map fun p => (t, p))
            simp only [List.singleton_append] at hf
            simp only [List.map_cons, hf, values_append, List.append_assoc]
          · simp only [List.mem_cons, forall_eq_or_imp]; exact ⟨hk, h7⟩
        · exact Or.inr h5
    simp only [handleFetchParts] at h
    split at h
    · rename_i h0
      obtain ⟨o, e1, e2⟩ := deserialize_spec cfg t p.id p.msgs c []
      rw [e1] at h
      simp only [List.nil_append] at h
      have h0' : p.code = 0 := h0
      refine step { c with offsets := o } _ ⟨?_, ?_, rfl, rfl, rfl⟩ ?_ ?_ ?_ h
      · intro t' p'
        rw [e2]
        by_cases hx : t = t' ∧ p.id = p'
        · obtain ⟨rfl, rfl⟩ := hx
          simp [fetchedFor, h0']
        · simp only [hx, if_false]
          have : fetchedFor [(t, p)] t' p' = [] := by
            simp only [fetchedFor, List.filter_cons, List.filter_nil]
            rw [if_neg]
            · rfl
            · simp only [decide_eq_true_eq]
              exact fun hh => hx ⟨hh.1, hh.2.1⟩
          rw [this]; rfl
      · intro t'
        simp [h0']
      · simp [h0', Err.retriable]
      · rw [h0']; unfold KnownCode; decide
      · simp [fetched, h0']
    · rename_i h0
      have h0' : p.code ≠ 0 := h0
      have hf0 : ∀ t' p', fetchedFor [(t, p)] t' p' = [] := by
        intro t' p'
        simp [fetchedFor, h0']
      have hf1 : fetched [(t, p)] = [] := by simp [fetched, h0']
      split at h
      · rename_i hr
        refine step { c with heal := true } _ ⟨?_, ?_, rfl, rfl, rfl⟩ ?_ ?_ ?_ h
        · intro t' p'; rw [hf0]; rfl
        · intro t'
          have : p.code ≠ 1 := by rintro h1; rw [h1] at hr; revert hr; decide
          simp [this]
        · simp [hr]
        · rw [knownCode_iff]
          have hsub : ∀ x ∈ Err.retriable, x ∈ errorCodes.keys := by decide
          exact hsub _ hr
        · simp [hf1, values]
      · rename_i hr
        split at h
        · rename_i h1
          have h1' : p.code = 1 := h1
          refine step { c with synced := discard c.synced t } _ ⟨?_, ?_, rfl, rfl, rfl⟩ ?_ ?_ ?_ h
          · intro t' p'; rw [hf0]; rfl
          · intro t'
            simp only [discard, List.mem_filter, decide_eq_true_eq, List.mem_singleton,
              forall_eq, h1', ne_eq, not_true_eq_false, imp_false]
            exact and_congr_right fun _ => ⟨fun h h' => h h'.symm, fun h h' => h h'.symm⟩
          · simp [hr]
          · rw [h1']; unfold KnownCode; decide
          · simp [hf1, values]
        · rename_i h1
          split at h
          · rename_i hg
            simp only [Prod.mk.injEq] at h
            obtain ⟨rfl, rfl⟩ := h
            exact ⟨[], p :: ps, rfl, Effect.refl _ _, by simp,
              Or.inr ⟨⟨p, ps, rfl, fun hk =>
                Dict.get?_eq_none.1 hg ((knownCode_iff _).1 hk)⟩, rfl⟩⟩
          · rename_i x hg
            refine step _ _ ⟨?_, ?_, rfl, rfl, rfl⟩ ?_ ?_ ?_ h
            · intro t' p'; rw [hf0]; rfl
            · intro t'
              have h1' : p.code ≠ 1 := h1
              simp [h1']
            · simp [hr]
            · exact (knownCode_iff _).2 (Dict.mem_keys.2 ⟨x, Dict.mem_of_get? hg⟩)
            · simp [hf1, values]

/-- A fetch response is handled without an exception exactly if it has a topic and all its
codes are known. -/
theorem handleFetch_spec (cfg : CCfg β δ) (r : FResp β) (c c' : Consumer ε) (res : Res (List δ))
    (h : handleFetchResponse cfg r c = (res, c')) :
    ∃ done rest, answersOf r = done ++ rest ∧ Effect cfg done c c' ∧
      (c'.heal = true ↔ c.heal = true ∨ ∃ a ∈ done, a.2.code ∈ Err.retriable) ∧
      (∀ out, res = .ok out → rest = [] ∧ out = values cfg (fetched (answersOf r)) ∧
        r.topics ≠ [] ∧ ∀ a ∈ answersOf r, KnownCode a.2.code) ∧
      (∀ e, res = .error e → r.topics = [] ∧ e = .indexError ∨
        e = .keyError ∧ ∃ a ∈ answersOf r, ¬ KnownCode a.2.code) := by
  unfold handleFetchResponse at h
  unfold answersOf
  cases ht : r.topics with
  | nil =>
    rw [ht] at h
    simp only [Prod.mk.injEq] at h
    obtain ⟨rfl, rfl⟩ := h
    exact ⟨[], [], rfl, Effect.refl _ _, by simp, by simp, by simp⟩
  | cons tp rest =>
    obtain ⟨t, ps⟩ := tp
    rw [ht] at h
    simp only at h
    obtain ⟨done, rest', h1, h2, h3, h4⟩ := handleFetchParts_spec cfg t ps c [] res c' h
    refine ⟨done.map fun p => (t, p), rest'.map fun p => (t, p), ?_, h2, ?_, ?_, ?_⟩
    · simp [h1]
    · rw [h3]; simp
    · rintro out rfl
      rcases h4 with ⟨rfl, h6, h7⟩ | ⟨_, h6⟩
      · simp only [List.nil_append, Except.ok.injEq] at h6
        refine ⟨rfl, h6, by simp, ?_⟩
        simpa using h7
      · exact absurd h6 (by simp)
    · rintro e rfl
      rcases h4 with ⟨_, h6, _⟩ | ⟨⟨p, r', rfl, h5⟩, h6⟩
      · exact absurd h6 (by simp)
      · refine Or.inr ⟨by simpa using h6, (t, p), ?_, h5⟩
        simp [h1]

/-! ### Building requests -/

theorem groupByLeader_spec (t : String) (ps : List Int) (cl0 cl cl' : Cluster)
    (hv : SameView cl0 cl) (d : Dict Int (List Int)) (res : Res (Dict Int (List Int)))
    (hd : d.keys.Nodup) (hdn : ∀ e ∈ d, e.2 ≠ [])
    (h : groupByLeader t ps cl d = (res, cl')) :
    SameView cl0 cl' ∧
    (∀ g, res = .ok g → (∀ p ∈ ps, (leaderOf cl0 t p).isSome) ∧
      g.keys.Nodup ∧ (∀ e ∈ g, e.2 ≠ []) ∧
      ∀ l, (g.get? l).getD [] = (d.get? l).getD [] ++
        ps.filter fun p => decide (leaderOf cl0 t p = some l)) ∧
    ((∀ p ∈ ps, (leaderOf cl0 t p).isSome) → ∃ g, res = .ok g) ∧
    (∀ e, res = .error e → e = .keyError) := by
  induction ps generalizing cl d with
  | nil =>
    simp only [groupByLeader, Prod.mk.injEq] at h
    obtain ⟨rfl, rfl⟩ := h
    exact ⟨hv, fun g hg => by cases hg; exact ⟨by simp, hd, hdn, by simp⟩, fun _ => ⟨d, rfl⟩,
      by simp⟩
  | cons p ps ih =>
    obtain ⟨g1, g2⟩ := getLeader_spec cl t p
    simp only [groupByLeader] at h
    cases hg : cl.getLeader t p with
    | mk r cl1 =>
      rw [hg] at g1 g2 h
      simp only at g1 g2
      have hl : ((cl.leaders.get? t).getD []).get? p = leaderOf cl0 t p := by
        unfold leaderOf
        rw [hv.leaders]
        cases cl0.leaders.get? t <;> rfl
      rw [hl] at g2
      cases hlead : leaderOf cl0 t p with
      | none =>
        rw [hlead] at g2
        simp only at g2
        subst g2
        simp only [Prod.mk.injEq] at h
        obtain ⟨rfl, rfl⟩ := h
        exact ⟨hv.trans g1, by simp, fun hall => by simpa [hlead] using hall p (by simp), by simp⟩
      | some l =>
        rw [hlead] at g2
        simp only at g2
        subst g2
        simp only at h
        obtain ⟨i1, i2, i3, i4⟩ := ih cl1 (hv.trans g1) (d.set l ((d.get? l).getD [] ++ [p]))
          (Dict.nodup_set hd _ _)
          (by
            intro e he
            rcases (Dict.mem_set hd).1 he with rfl | he
            · simp
            · exact hdn e he.1) h
        refine ⟨i1, ?_, ?_, i4⟩
        · intro g hgok
          obtain ⟨j1, j2, j3, j4⟩ := i2 g hgok
          refine ⟨?_, j2, j3, ?_⟩
          · simp only [List.mem_cons, forall_eq_or_imp, hlead]
            exact ⟨rfl, j1⟩
          · intro l'
            rw [j4, Dict.get?_set, List.filter_cons, hlead]
            by_cases hll : l = l'
            · subst hll; simp
            · have : ¬ (some l = some l') := by simpa using hll
              simp [hll]
        · intro hall
          simp only [List.mem_cons, forall_eq_or_imp] at hall
          exact i3 hall.2

theorem fetchParts_spec (t : String) (mb : Int) (ps : List Int) (o : Offsets) :
    (fetchParts t mb ps o).1 = ps.map (fun p => ⟨p, offsetOf o t p, mb⟩) ∧
    ∀ t' p', offsetOf (fetchParts t mb ps o).2 t' p' = offsetOf o t' p' := by
  induction ps generalizing o with
  | nil => exact ⟨rfl, fun _ _ => rfl⟩
  | cons p ps ih =>
    obtain ⟨h1, h2⟩ := ih (o.index t p).2
    simp only [fetchParts, List.map_cons]
    refine ⟨?_, fun t' p' => ?_⟩
    · rw [h1, index_val]
      simp only [index_offsetOf]
    · rw [h2, index_offsetOf]

theorem fetchRequests_spec (cfg : CCfg β δ) (t : String) (g : List (Int × List Int))
    (o : Offsets) :
    (fetchRequests cfg t g o).1 = g.map (fun e => ⟨e.1, cfg.maxWait, cfg.minBytes, t,
      e.2.map fun p => ⟨p, offsetOf o t p, Int.tdiv cfg.maxBytes e.2.length⟩⟩) ∧
    ∀ t' p', offsetOf (fetchRequests cfg t g o).2 t' p' = offsetOf o t' p' := by
  induction g generalizing o with
  | nil => exact ⟨rfl, fun _ _ => rfl⟩
  | cons e g ih =>
    obtain ⟨l, ps⟩ := e
    obtain ⟨f1, f2⟩ := fetchParts_spec t (Int.tdiv cfg.maxBytes ps.length) ps o
    obtain ⟨h1, h2⟩ := ih (fetchParts t (Int.tdiv cfg.maxBytes ps.length) ps o).2
    simp only [fetchRequests, List.map_cons]
    refine ⟨?_, fun t' p' => ?_⟩
    · rw [h1, f1]
      simp only [f2]
    · rw [h2, f2]

theorem sum_le_of_const (l : List Int) (m n : Int) (hm : 0 ≤ m)
    (h : ∀ x ∈ l, x = Int.tdiv m n) (hn : n = l.length) : l.sum ≤ m := by
  have hs : l.sum = l.length * Int.tdiv m n := by
    clear hn
    induction l with
    | nil => simp
    | cons x l ih =>
      simp only [List.mem_cons, forall_eq_or_imp] at h
      rw [List.sum_cons, ih h.2, h.1, List.length_cons]
      push_cast
      rw [Int.add_mul, Int.one_mul, Int.add_comm]
  rw [hs, ← hn]
  have : n * Int.tdiv m n = m - Int.tmod m n := by
    have := Int.tmod_add_mul_tdiv m n
    omega
  rw [this]
  have := Int.tmod_nonneg n hm
  omega

/-- What `fetches` does. -/
theorem fetches_spec (cfg : CCfg β δ) (t : String) (ps : List Int) (c c' : Consumer ε)
    (res : Res (List FReq)) (h : c.fetches cfg t ps = (res, c')) :
    SameView c.cluster c'.cluster ∧ (∀ t p, offsetOf c'.offsets t p = offsetOf c.offsets t p) ∧
    c'.synced = c.synced ∧ c'.heal = c.heal ∧ c'.closing = c.closing ∧ c'.ext = c.ext ∧
    (∀ reqs, res = .ok reqs → FetchesExactly cfg c t ps reqs) ∧
    ((∀ p ∈ ps, (leaderOf c.cluster t p).isSome) → ∃ reqs, res = .ok reqs) ∧
    (∀ e, res = .error e → e = .keyError) := by
  unfold Consumer.fetches at h
  cases hg : groupByLeader t ps c.cluster [] with
  | mk r cl =>
    rw [hg] at h
    obtain ⟨g1, g2, g3, g4⟩ := groupByLeader_spec t ps c.cluster c.cluster cl (SameView.refl _) []
      r (by simp [Dict.keys]) (by simp) hg
    cases r with
    | error e =>
      simp only [Prod.mk.injEq] at h
      obtain ⟨rfl, rfl⟩ := h
      refine ⟨g1, fun _ _ => rfl, rfl, rfl, rfl, rfl, by simp, ?_, ?_⟩
      · intro hall; obtain ⟨g, hg⟩ := g3 hall; simp at hg
      · intro e' he'; exact g4 e' (by simpa using he')
    | ok g =>
      simp only [Prod.mk.injEq] at h
      obtain ⟨rfl, rfl⟩ := h
      obtain ⟨f1, f2⟩ := fetchRequests_spec cfg t g c.offsets
      obtain ⟨k1, k2, k3, k4⟩ := g2 g rfl
      refine ⟨g1, f2, rfl, rfl, rfl, rfl, ?_, fun _ => ⟨_, rfl⟩, by simp⟩
      intro reqs hreqs
      simp only [Except.ok.injEq] at hreqs
      subst hreqs
      rw [f1]
      have hlook : ∀ e ∈ g, e.2 = ps.filter fun p => decide (leaderOf c.cluster t p = some e.1) := by
        intro e he
        have := k4 e.1
        rw [Dict.get?_of_mem k2 (v := e.2) he] at this
        simpa [Dict.get?] using this
      refine ⟨?_, ?_, ?_, ?_, ?_, ?_, ?_, ?_⟩
      · simp only [List.map_map]
        exact k2
      · intro r hr
        obtain ⟨e, he, rfl⟩ := List.mem_map.1 hr
        exact ⟨rfl, rfl, rfl⟩
      · intro r hr
        obtain ⟨e, he, rfl⟩ := List.mem_map.1 hr
        simp only [List.map_map]
        rw [← hlook e he]
        exact (List.map_id _)
      · intro r hr
        obtain ⟨e, he, rfl⟩ := List.mem_map.1 hr
        simpa using k3 e he
      · intro p hp
        obtain ⟨l, hl⟩ := Option.isSome_iff_exists.1 (k1 p hp)
        have hin : p ∈ (g.get? l).getD [] := by
          rw [k4]; simp [Dict.get?, hp, hl]
        cases hgl : g.get? l with
        | none => simp [hgl] at hin
        | some x => exact ⟨_, List.mem_map.2 ⟨(l, x), Dict.mem_of_get? hgl, rfl⟩, hl⟩
      · intro r hr p hp
        obtain ⟨e, he, rfl⟩ := List.mem_map.1 hr
        obtain ⟨q, hq, rfl⟩ := List.mem_map.1 hp
        rfl
      · intro h0 r hr
        obtain ⟨e, he, rfl⟩ := List.mem_map.1 hr
        refine ⟨?_, ?_⟩
        · intro p hp
          obtain ⟨q, hq, rfl⟩ := List.mem_map.1 hp
          exact Int.tdiv_nonneg h0 (Int.natCast_nonneg _)
        · refine sum_le_of_const _ _ e.2.length h0 ?_ (by simp)
          intro x hx
          simp only [List.map_map, List.mem_map] at hx
          obtain ⟨q, hq, rfl⟩ := hx
          rfl
      · intro h0 r hr p hp s hs
        obtain ⟨e, he, rfl⟩ := List.mem_map.1 hr
        obtain ⟨q, hq, rfl⟩ := List.mem_map.1 hp
        simp only [List.length_map] at hs
        have hpos : 0 < (e.2.length : Int) := by
          have := List.length_pos_of_mem hq
          omega
        show s ≤ Int.tdiv cfg.maxBytes e.2.length
        rw [Int.tdiv_eq_ediv_of_nonneg h0]
        exact (Int.le_ediv_iff_mul_le hpos).2 hs

/-! ### Sending -/

theorem allAnswers_cons (o : Int × Res (FResp β)) (outs : List (Int × Res (FResp β))) :
    allAnswers (o :: outs) = (match o.2 with | .ok r => answersOf r | .error _ => []) ++
      allAnswers outs := by
  simp only [allAnswers, List.flatMap_cons]
  cases o.2 <;> rfl

theorem sendLoop_fetch (cfg : CCfg β δ) (outs : List (Int × Res (FResp β)))
    (results : Dict Int (List δ)) (c c' : Consumer ε) (hc : c.heal = false) (heal heal' : Bool)
    (res : Res (Dict Int (List δ)))
    (h : sendLoop (fetchHandlers cfg) outs results c heal = (res, c', heal')) :
    c'.heal = false ∧
    ∃ done rest, allAnswers outs = done ++ rest ∧ Effect cfg done c c' ∧
      (heal' = true → heal = true ∨ (∃ a ∈ done, a.2.code ∈ Err.retriable) ∨
        ∃ o ∈ outs, ∃ e, o.2 = .error e ∧ e ≠ .streamClosed) ∧
      ((heal = true ∨ ∃ a ∈ done, a.2.code ∈ Err.retriable) → heal' = true) ∧
      (∀ r, res = .ok r → rest = [] ∧
        ((∃ o ∈ outs, ∃ e, o.2 = .error e ∧ e ≠ .streamClosed) → heal' = true) ∧
        ((outs.map (·.1)).Nodup → (∀ o ∈ outs, o.1 ∉ results.keys) → results.keys.Nodup →
          r.vals.flatten = results.vals.flatten ++ values cfg (fetched (allAnswers outs)))) := by
  induction outs generalizing results c heal with
  | nil =>
    simp only [sendLoop, Prod.mk.injEq] at h
    obtain ⟨rfl, rfl, rfl⟩ := h
    refine ⟨hc, [], [], rfl, Effect.refl _ _, by simp, by simp, ?_⟩
    intro r hr
    simp only [Except.ok.injEq] at hr
    subst hr
    simp [allAnswers, fetched, values]
  | cons o outs ih =>
    obtain ⟨b, r⟩ := o
    cases r with
    | error e =>
      simp only [sendLoop] at h
      obtain ⟨i1, done, rest, i2, i3, i4, i5, i6⟩ := ih results c hc _ h
      refine ⟨i1, done, rest, by rw [allAnswers_cons]; exact i2, i3, ?_, ?_, ?_⟩
      · intro hh
        rcases i4 hh with h1 | h1 | ⟨o, ho, x⟩
        · by_cases he : e = .streamClosed
          · rw [if_pos he] at h1; exact Or.inl h1
          · exact Or.inr (Or.inr ⟨(b, .error e), by simp, e, rfl, he⟩)
        · exact Or.inr (Or.inl h1)
        · exact Or.inr (Or.inr ⟨o, by simp [ho], x⟩)
      · rintro (h1 | h1)
        · refine i5 (Or.inl ?_); split <;> simp [h1]
        · exact i5 (Or.inr h1)
      · intro r hr
        obtain ⟨j1, j2, j3⟩ := i6 r hr
        refine ⟨j1, ?_, ?_⟩
        · rintro ⟨o, ho, e', he', hne⟩
          rcases List.mem_cons.1 ho with rfl | ho
          · simp only [Except.error.injEq] at he'
            subst he'
            exact i5 (Or.inl (by rw [if_neg hne]))
          · exact j2 ⟨o, ho, e', he', hne⟩
        · intro hn hk hr'
          simp only [List.map_cons, List.nodup_cons] at hn
          rw [j3 hn.2 (fun o ho => hk o (by simp [ho])) hr', allAnswers_cons]
          rfl
    | ok r =>
      simp only [sendLoop, fetchHandlers] at h
      cases hf : handleFetchResponse cfg r c with
      | mk rr c1 =>
        rw [hf] at h
        simp only at h
        obtain ⟨done, rest, f1, f2, f3, f4, f5⟩ := handleFetch_spec cfg r c c1 rr hf
        have f2' : Effect cfg done c { c1 with heal := false } :=
          ⟨f2.offsets, f2.synced, f2.cluster, f2.closing, f2.ext⟩
        rw [hc] at f3
        simp only [Bool.false_eq_true, false_or] at f3
        cases rr with
        | error e =>
          simp only [Prod.mk.injEq] at h
          obtain ⟨rfl, rfl, rfl⟩ := h
          refine ⟨rfl, done, rest ++ allAnswers outs, ?_, f2', ?_, ?_, by simp⟩
          · rw [allAnswers_cons]; simp [f1]
          · rw [Bool.or_eq_true]
            rintro (h1 | h1)
            · exact Or.inl h1
            · exact Or.inr (Or.inl (f3.1 h1))
          · rw [Bool.or_eq_true]
            rintro (h1 | h1)
            · exact Or.inl h1
            · exact Or.inr (f3.2 h1)
        | ok x =>
          simp only at h
          obtain ⟨g1, g2, g3, g4⟩ := f4 x rfl
          subst g1
          rw [List.append_nil] at f1
          have h' : sendLoop (fetchHandlers cfg) outs (results.set b x)
              { c1 with heal := false } (heal || c1.heal) = (res, c', heal') := h
          obtain ⟨i1, done', rest', i2, i3, i4, i5, i6⟩ := ih (results.set b x)
            { c1 with heal := false } rfl _ h'
          refine ⟨i1, done ++ done', rest', ?_, f2'.trans i3, ?_, ?_, ?_⟩
          · rw [allAnswers_cons, i2]; simp [f1]
          · intro hh
            rcases i4 hh with h1 | ⟨a, ha, h1⟩ | ⟨o, ho, x⟩
            · rw [Bool.or_eq_true] at h1
              rcases h1 with h1 | h1
              · exact Or.inl h1
              · obtain ⟨a, ha, h1⟩ := f3.1 h1
                exact Or.inr (Or.inl ⟨a, by simp [ha], h1⟩)
            · exact Or.inr (Or.inl ⟨a, by simp [ha], h1⟩)
            · exact Or.inr (Or.inr ⟨o, by simp [ho], x⟩)
          · rintro (h1 | ⟨a, ha, h1⟩)
            · exact i5 (Or.inl (by simp [h1]))
            · rcases List.mem_append.1 ha with ha | ha
              · exact i5 (Or.inl (by simp [f3.2 ⟨a, ha, h1⟩]))
              · exact i5 (Or.inr ⟨a, ha, h1⟩)
          · intro rr hr
            obtain ⟨j1, j2, j3⟩ := i6 rr hr
            refine ⟨j1, ?_, ?_⟩
            · rintro ⟨o, ho, e', he', hne⟩
              rcases List.mem_cons.1 ho with rfl | ho
              · simp at he'
              · exact j2 ⟨o, ho, e', he', hne⟩
            · intro hn hk hr'
              simp only [List.map_cons, List.nodup_cons] at hn
              have hb : b ∉ results.keys := hk _ List.mem_cons_self
              have hset : results.set b x = results ++ [(b, x)] := Dict.set_of_not_mem hb
              have := j3 hn.2 (by
                intro o ho hmem
                rw [Dict.keys_set, if_neg hb] at hmem
                rcases List.mem_append.1 hmem with hm | hm
                · exact hk o (by simp [ho]) hm
                · simp only [List.mem_singleton] at hm
                  exact hn.1 (List.mem_map.2 ⟨o, ho, hm⟩)) (Dict.nodup_set hr' _ _)
              rw [this, hset, allAnswers_cons, fetched_append, values_append, ← g2]
              simp [Dict.vals]

/-- What the sending half of `consume` does to the consumer: first `tick`, then the answers, of
which all have been handled if it succeeds. -/
theorem fetch_spec (cfg : CCfg β δ) (env : ConsumeEnv ε β) (t : String) (ps : List Int)
    (c c' : Consumer ε) (res : Res (Option (List δ))) (acts : List CAct)
    (h : c.fetch cfg env t ps = (res, c', acts)) :
    (∃ e, res = .error e ∧ acts = [] ∧ (∃ p ∈ ps, leaderOf c.cluster t p = .none) ∧ e = .keyError ∧
      (∀ t p, offsetOf c'.offsets t p = offsetOf c.offsets t p) ∧ c'.synced = c.synced ∧
      c'.heal = c.heal ∧ c'.closing = c.closing ∧ c'.ext = c.ext) ∨
    ∃ reqs c1, acts = [.fetch reqs] ∧ FetchesExactly cfg c t ps reqs ∧ c' = env.tick 2 c1 ∧
      ∃ done rest, (done ++ rest = allAnswers (env.outcomes reqs) ∨ done = []) ∧
        (∀ t p, offsetOf c1.offsets t p = after cfg (fetchedFor done t p) (offsetOf c.offsets t p)) ∧
        (∀ t, t ∈ c1.synced ↔ t ∈ c.synced ∧ ∀ a ∈ done, a.1 = t → a.2.code ≠ 1) ∧
        c1.closing = c.closing ∧ c1.ext = c.ext ∧
        (∀ out, res = .ok out → rest = [] ∧ done = allAnswers (env.outcomes reqs) ∧
          (((env.outcomes reqs).map (·.1)).Nodup →
            out = some ((values cfg (fetched (allAnswers (env.outcomes reqs)))).filter cfg.truthy))) := by
  unfold Consumer.fetch at h
  cases hf : c.fetches cfg t ps with
  | mk r c1 =>
    rw [hf] at h
    obtain ⟨a1, a2, a3, a4, a5, a6, a7, a8, a9⟩ := fetches_spec cfg t ps c c1 r hf
    cases r with
    | error e =>
      simp only [Prod.mk.injEq] at h
      obtain ⟨rfl, rfl, rfl⟩ := h
      refine Or.inl ⟨e, rfl, rfl, ?_, a9 e rfl, a2, a3, a4, a5, a6⟩
      refine Decidable.byContradiction fun hcon => ?_
      have hall : ∀ p ∈ ps, (leaderOf c.cluster t p).isSome := by
        intro p hp
        cases hl : leaderOf c.cluster t p with
        | none => exact absurd ⟨p, hp, hl⟩ hcon
        | some l => rfl
      obtain ⟨reqs, hr⟩ := a8 hall
      simp at hr
    | ok reqs =>
      simp only at h
      refine Or.inr ?_
      unfold clientSend at h
      cases hst : sendStart (fun b => c1.cluster.conns.has b) env.write (reqs.map (·.broker)) with
      | some e =>
        rw [hst] at h
        simp only [Prod.mk.injEq] at h
        obtain ⟨rfl, rfl, rfl⟩ := h
        exact ⟨reqs, _, rfl, a7 reqs rfl, rfl, [], [], Or.inr rfl, a2, by simp [a3], a5, a6, by simp⟩
      | none =>
        rw [hst] at h
        simp only at h
        cases hl : sendLoop (fetchHandlers cfg) (env.outcomes reqs) [] { c1 with heal := false }
            c1.heal with
        | mk r2 x =>
          obtain ⟨c2, hl2⟩ := x
          obtain ⟨_, done, rest, s1, s2, _, _, s5⟩ := sendLoop_fetch cfg (env.outcomes reqs) []
            { c1 with heal := false } c2 rfl c1.heal hl2 r2 hl
          rw [hl] at h
          have hoff : ∀ t p, offsetOf c2.offsets t p =
              after cfg (fetchedFor done t p) (offsetOf c.offsets t p) := by
            intro t p; rw [s2.offsets]; simp only [a2]
          have hsyn : ∀ t, t ∈ c2.synced ↔ t ∈ c.synced ∧ ∀ a ∈ done, a.1 = t → a.2.code ≠ 1 := by
            intro t; rw [s2.synced]; simp only [a3]
          have hcl : c2.closing = c.closing := s2.closing.trans a5
          have hex : c2.ext = c.ext := s2.ext.trans a6
          cases r2 with
          | error e =>
            simp only [Prod.mk.injEq] at h
            obtain ⟨rfl, rfl, rfl⟩ := h
            exact ⟨reqs, _, rfl, a7 reqs rfl, rfl, done, rest, Or.inl s1.symm, hoff, hsyn, hcl,
              hex, by simp⟩
          | ok results =>
            have key : ∀ cl hh, res = .ok (some (results.vals.flatten.filter cfg.truthy)) →
                c' = env.tick 2 { c2 with cluster := cl, heal := hh } → acts = [.fetch reqs] →
                ∃ reqs c1, acts = [.fetch reqs] ∧ FetchesExactly cfg c t ps reqs ∧
                  c' = env.tick 2 c1 ∧
                  ∃ done rest, (done ++ rest = allAnswers (env.outcomes reqs) ∨ done = []) ∧
                  (∀ t p, offsetOf c1.offsets t p =
                    after cfg (fetchedFor done t p) (offsetOf c.offsets t p)) ∧
                  (∀ t, t ∈ c1.synced ↔ t ∈ c.synced ∧ ∀ a ∈ done, a.1 = t → a.2.code ≠ 1) ∧
                  c1.closing = c.closing ∧ c1.ext = c.ext ∧
                  (∀ out, res = .ok out → rest = [] ∧ done = allAnswers (env.outcomes reqs) ∧
                    (((env.outcomes reqs).map (·.1)).Nodup →
                      out = some ((values cfg (fetched (allAnswers (env.outcomes reqs)))).filter
                        cfg.truthy))) := by
              intro cl hh hres hc' hacts
              obtain ⟨t1, _, t3⟩ := s5 results rfl
              refine ⟨reqs, _, hacts, a7 reqs rfl, hc', done, rest, Or.inl s1.symm, hoff, hsyn,
                hcl, hex, ?_⟩
              intro out ho
              subst t1
              rw [List.append_nil] at s1
              refine ⟨rfl, s1.symm, fun hn => ?_⟩
              rw [hres] at ho
              simp only [Except.ok.injEq] at ho
              rw [← ho, t3 hn (by simp [Dict.keys]) (by simp [Dict.keys])]
              rfl
            cases hl2 with
            | false =>
              simp only [Prod.mk.injEq] at h
              obtain ⟨rfl, rfl, rfl⟩ := h
              exact key c2.cluster false rfl rfl rfl
            | true =>
              simp only at h
              cases hh : (env.healC c2.cluster).1 with
              | error e =>
                rw [hh] at h
                simp only [Prod.mk.injEq] at h
                obtain ⟨rfl, rfl, rfl⟩ := h
                exact ⟨reqs, _, rfl, a7 reqs rfl, rfl, done, rest, Or.inl s1.symm, hoff, hsyn,
                  hcl, hex, by simp⟩
              | ok u =>
                rw [hh] at h
                simp only [Prod.mk.injEq] at h
                obtain ⟨rfl, rfl, rfl⟩ := h
                exact key _ false rfl rfl rfl

end Kiel
