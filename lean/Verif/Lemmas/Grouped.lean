import Verif.Lemmas.Log
import Verif.Lemmas.Codes
import Verif.Spec.Grouped
/-
Lemmas about the grouped consumer.
-/
set_option autoImplicit false
namespace Kiel
open Spec

/-! ### Sending to one broker -/

theorem sendTo_ok {R ρ : Type} {hs : Handlers Grouped R ρ} {env : SendEnv R} {b : Int}
    {c c1 : Grouped} {r : R} {f : Grouped → Res ρ × Grouped × Bool} {x : ρ} {ask : Bool}
    (hr : Reaches env c b) (ho : env.outcome = .ok r) (hf : hs.handle r = some f)
    (hfs : f { c with heal := false } = (.ok x, c1, ask)) (hh : HealsWell env) :
    ∃ cl, c.sendTo hs env b = (.ok x, { c1 with cluster := cl, heal := false }) ∧
      ∀ b, cl.conns.has b = c1.cluster.conns.has b := by
  unfold Grouped.sendTo clientSend
  have h1 : sendStart (fun b => c.cluster.conns.has b) (fun _ => env.write) [b] = .none := by
    simp [sendStart, hr.1, hr.2]
  rw [h1]
  simp only [sendLoop, ho, hf, hfs]
  cases hb : (c.heal || ask) with
  | false => exact ⟨c1.cluster, by simp [Dict.get?, Dict.set], fun _ => rfl⟩
  | true =>
    obtain ⟨g1, g2⟩ := hh c1.cluster
    refine ⟨(env.healC c1.cluster).2, ?_, g2⟩
    simp [g1, Dict.get?, Dict.set]

theorem sendTo_raises {R ρ : Type} {hs : Handlers Grouped R ρ} {env : SendEnv R} {b : Int}
    {c c1 : Grouped} {r : R} {f : Grouped → Res ρ × Grouped × Bool} {e : Exc} {ask : Bool}
    (hr : Reaches env c b) (ho : env.outcome = .ok r) (hf : hs.handle r = some f)
    (hfs : f { c with heal := false } = (.error e, c1, ask)) :
    c.sendTo hs env b = (.error e, { c1 with heal := c.heal || ask }) := by
  unfold Grouped.sendTo clientSend
  have h1 : sendStart (fun b => c.cluster.conns.has b) (fun _ => env.write) [b] = .none := by
    simp [sendStart, hr.1, hr.2]
  rw [h1]
  simp only [sendLoop, ho, hf, hfs]

/-- No answer: a `KeyError`, if the healing succeeds. -/
theorem sendTo_lost {R ρ : Type} {hs : Handlers Grouped R ρ} {env : SendEnv R} {b : Int}
    {c : Grouped} {e : Exc} (hr : Reaches env c b) (ho : env.outcome = .error e)
    (hh : HealsWell env) : ∃ cl, c.sendTo hs env b = (.error .keyError, { c with cluster := cl, heal := false }) ∧
      ∀ b, cl.conns.has b = c.cluster.conns.has b := by
  unfold Grouped.sendTo clientSend
  have h1 : sendStart (fun b => c.cluster.conns.has b) (fun _ => env.write) [b] = .none := by
    simp [sendStart, hr.1, hr.2]
  rw [h1]
  simp only [sendLoop, ho]
  cases hb : (if e = .streamClosed then c.heal else true) with
  | false => exact ⟨c.cluster, by simp [Dict.get?], fun _ => rfl⟩
  | true =>
    obtain ⟨g1, g2⟩ := hh c.cluster
    refine ⟨(env.healC c.cluster).2, ?_, g2⟩
    simp [g1, Dict.get?]

theorem sendTo_inv {R ρ : Type} {hs : Handlers Grouped R ρ} {env : SendEnv R} {b : Int}
    {c c' : Grouped} {x : ρ} (h : c.sendTo hs env b = (.ok x, c')) :
    ∃ r f c1 ask cl, env.outcome = .ok r ∧ hs.handle r = some f ∧
      f { c with heal := false } = (.ok x, c1, ask) ∧
      c' = ({ c1 with cluster := cl, heal := false } : Grouped) := by
  unfold Grouped.sendTo clientSend at h
  cases hst : sendStart (fun b => c.cluster.conns.has b) (fun _ => env.write) [b] with
  | some e => rw [hst] at h; simp at h
  | none =>
    rw [hst] at h
    cases ho : env.outcome with
    | error e =>
      simp only [ho, sendLoop] at h
      cases hb : (if e = .streamClosed then c.heal else true) with
      | false => rw [hb] at h; simp [Dict.get?] at h
      | true =>
        rw [hb] at h
        simp only at h
        cases hh : (env.healC c.cluster).1 with
        | error e => rw [hh] at h; simp at h
        | ok u => rw [hh] at h; simp [Dict.get?] at h
    | ok r =>
      simp only [ho, sendLoop] at h
      cases hf : hs.handle r with
      | none => rw [hf] at h; simp at h
      | some f =>
        rw [hf] at h
        simp only at h
        cases hfs : f { c with heal := false } with
        | mk y z =>
          obtain ⟨c1, ask⟩ := z
          rw [hfs] at h
          cases y with
          | error e => simp at h
          | ok y =>
            simp only at h
            cases hb : (c.heal || ask) with
            | false =>
              rw [hb] at h
              simp only [Dict.set, Dict.get?, if_true, Prod.mk.injEq, Except.ok.injEq] at h
              obtain ⟨rfl, rfl⟩ := h
              exact ⟨r, f, c1, ask, c1.cluster, rfl, hf, hfs, rfl⟩
            | true =>
              rw [hb] at h
              simp only at h
              cases hh : (env.healC c1.cluster).1 with
              | error e => rw [hh] at h; simp at h
              | ok u =>
                rw [hh] at h
                simp only [Dict.set, Dict.get?, if_true, Prod.mk.injEq, Except.ok.injEq] at h
                obtain ⟨rfl, rfl⟩ := h
                exact ⟨r, f, c1, ask, _, rfl, hf, hfs, rfl⟩

/-- Whatever happens, a relation between consumers that the handler keeps, and that changes of
the cluster and of the `heal` flag keep, holds between before and after. -/
theorem sendTo_rel {R ρ : Type} {hs : Handlers Grouped R ρ} (env : SendEnv R) (b : Int)
    (c : Grouped) (P : Grouped → Prop)
    (hP : ∀ (c : Grouped) cl h, P c → P { c with cluster := cl, heal := h })
    (hH : ∀ r f, env.outcome = .ok r → hs.handle r = some f → ∀ c, P c → P (f c).2.1)
    (h : P c) : P (c.sendTo hs env b).2 := by
  have hP0 : ∀ (c : Grouped) h, P c → P { c with heal := h } := fun c h hc => hP c c.cluster h hc
  unfold Grouped.sendTo clientSend
  cases hst : sendStart (fun b => c.cluster.conns.has b) (fun _ => env.write) [b] with
  | some e => exact hP0 _ _ (hP0 _ _ h)
  | none =>
    cases ho : env.outcome with
    | error e =>
      simp only [sendLoop]
      cases hb : (if e = .streamClosed then c.heal else true) with
      | false => simp only [Dict.get?]; exact hP0 _ _ (hP0 _ _ h)
      | true =>
        simp only
        cases hh : (env.healC c.cluster).1 with
        | error e => exact hP c (env.healC c.cluster).2 true h
        | ok u => simp only [Dict.get?]; exact hP c (env.healC c.cluster).2 false h
    | ok r =>
      simp only [sendLoop]
      cases hf : hs.handle r with
      | none => exact hP0 _ _ (hP0 _ _ h)
      | some f =>
        have hfP := hH r f ho hf { c with heal := false } (hP0 _ _ h)
        simp only
        cases hfs : f { c with heal := false } with
        | mk y z =>
          obtain ⟨c1, ask⟩ := z
          rw [hfs] at hfP
          cases y with
          | error e => exact hP0 _ _ hfP
          | ok y =>
            simp only
            cases hb : (c.heal || ask) with
            | false => simp only [Dict.set, Dict.get?, if_true]; exact hP0 _ _ hfP
            | true =>
              simp only
              cases hh : (env.healC c1.cluster).1 with
              | error e => exact hP c1 (env.healC c1.cluster).2 true hfP
              | ok u => simp only [Dict.set, Dict.get?, if_true]; exact hP c1 (env.healC c1.cluster).2 false hfP

/-! ### Offset fetches -/

theorem adopted_cons (q : OFPart) (ps : List OFPart) (p : Int) (o : Int) :
    adopted (q :: ps) p o = adopted ps p (if q.id = p ∧ q.code = 0 then q.offset else o) := by
  unfold adopted
  by_cases h : q.id = p ∧ q.code = 0
  · rw [List.filter_cons_of_pos (by simpa using h), List.getLast?_cons, if_pos h]
    cases (ps.filter fun q => decide (q.id = p ∧ q.code = 0)).getLast? <;> rfl
  · rw [List.filter_cons_of_neg (by simpa using h), if_neg h]

/-- Up to the first fatal part, everything is adopted. -/
theorem handleOffsetFetchParts_spec (t : String) (ps : List OFPart) (c : Grouped) (b : Bool)
    (hf : ∀ q ∈ ps, ¬ Fatal q.code) (rest : List OFPart) :
    ∃ o h, handleOffsetFetchParts t (ps ++ rest) c b =
      handleOffsetFetchParts t rest { c with offsets := o, heal := h }
        (b || decide (∃ q ∈ ps, Retriable q.code)) ∧
      (∀ t' p, offsetOf o t' p =
        if t' = t then adopted ps p (offsetOf c.offsets t' p) else offsetOf c.offsets t' p) ∧
      (h = true ↔ c.heal = true ∨ ∃ q ∈ ps, Retriable q.code ∧ q.code ≠ 14) := by
  induction ps generalizing c b with
  | nil =>
    refine ⟨c.offsets, c.heal, by simp, ?_, by simp⟩
    intro t' p
    split <;> simp [adopted]
  | cons q ps ih =>
    simp only [List.mem_cons, forall_eq_or_imp] at hf
    simp only [List.cons_append, handleOffsetFetchParts]
    by_cases h0 : q.code = 0
    · have hn : ¬ Retriable q.code := by rw [h0]; decide
      rw [if_pos (show q.code = Err.noError from h0)]
      obtain ⟨o, h, g1, g2, g3⟩ := ih { c with offsets := c.offsets.put t q.id q.offset } b hf.2
      refine ⟨o, h, ?_, ?_, ?_⟩
      · rw [g1]; simp [hn]
      · intro t' p
        rw [g2 t' p]
        simp only [offsetOf_put, adopted_cons, h0, and_true]
        by_cases ht : t' = t
        · subst ht; simp
        · simp [ht, Ne.symm ht]
      · rw [g3]; simp [hn]
    · have hr : Retriable q.code := by
        refine Decidable.byContradiction fun hn => hf.1 ⟨h0, hn⟩
      rw [if_neg (show ¬ q.code = Err.noError from h0)]
      by_cases h14 : q.code = 14
      · rw [if_pos (show q.code = Err.offsetsLoadInProgress from h14)]
        obtain ⟨o, h, g1, g2, g3⟩ := ih c true hf.2
        refine ⟨o, h, ?_, ?_, ?_⟩
        · rw [g1]; simp [hr]
        · intro t' p
          rw [g2 t' p]; simp [adopted_cons, h0]
        · rw [g3]; simp [h14]
      · rw [if_neg (show ¬ q.code = Err.offsetsLoadInProgress from h14), if_pos (show q.code ∈ Err.retriable from hr)]
        obtain ⟨o, h, g1, g2, g3⟩ := ih { c with heal := true } true hf.2
        refine ⟨o, h, ?_, ?_, ?_⟩
        · rw [g1]; simp [hr]
        · intro t' p
          rw [g2 t' p]; simp [adopted_cons, h0]
        · rw [g3]; simp [hr, h14]

/-! ### Commits -/

theorem commitParts_spec (t : String) (ps : List Int) (o : Offsets) :
    (commitParts t ps o).1 = ps.map (fun p => (p, offsetOf o t p)) ∧
    ∀ t' p', offsetOf (commitParts t ps o).2 t' p' = offsetOf o t' p' := by
  induction ps generalizing o with
  | nil => exact ⟨rfl, fun _ _ => rfl⟩
  | cons p ps ih =>
    obtain ⟨h1, h2⟩ := ih (o.index t p).2
    simp only [commitParts, List.map_cons]
    refine ⟨?_, fun t' p' => ?_⟩
    · rw [h1, index_val]
      simp only [index_offsetOf]
    · rw [h2, index_offsetOf]

theorem commitTopics_spec (s : List String) (a : Dict String (List Int)) (o : Offsets) :
    (commitTopics s a o).1 = commitOf s a o ∧
    ∀ t' p', offsetOf (commitTopics s a o).2 t' p' = offsetOf o t' p' := by
  induction a generalizing o with
  | nil => exact ⟨rfl, fun _ _ => rfl⟩
  | cons e a ih =>
    obtain ⟨t, ps⟩ := e
    simp only [commitTopics]
    by_cases ht : t ∈ s
    · rw [if_pos ht]
      obtain ⟨f1, f2⟩ := commitParts_spec t ps o
      obtain ⟨h1, h2⟩ := ih (commitParts t ps o).2
      simp only
      refine ⟨?_, fun t' p' => by rw [h2, f2]⟩
      rw [h1, f1]
      unfold commitOf
      rw [List.filter_cons_of_pos (by simpa using ht), List.map_cons]
      simp only [f2]
    · rw [if_neg ht]
      obtain ⟨h1, h2⟩ := ih o
      refine ⟨?_, h2⟩
      rw [h1]
      unfold commitOf
      rw [List.filter_cons_of_neg (by simpa using ht)]

theorem mem_discard {α : Type} [DecidableEq α] {s : List α} {x y : α} :
    y ∈ discard s x ↔ y ∈ s ∧ y ≠ x := by
  simp [discard]

theorem handleCommitParts_spec (t : String) (ps : List (Int × Int)) (c : Grouped) (b : Bool × Bool)
    (hk : ∀ p ∈ ps, KnownCode p.2) :
    ∃ s h, handleCommitParts t ps c b =
      (.ok (b.1 || decide (∃ p ∈ ps, Retriable p.2 ∨ p.2 = 12), b.2 || decide (∃ p ∈ ps, p.2 = 12)),
        { c with heal := h, ext := { c.ext with toCommit := s } }) ∧
      (∀ t', t' ∈ s ↔ t' ∈ c.ext.toCommit ∧ ¬ (t' = t ∧ ∃ p ∈ ps, p.2 = 0)) ∧
      (h = true ↔ c.heal = true ∨ ∃ p ∈ ps, Retriable p.2) := by
  induction ps generalizing c b with
  | nil => exact ⟨c.ext.toCommit, c.heal, by simp [handleCommitParts], by simp, by simp⟩
  | cons p ps ih =>
    obtain ⟨id, code⟩ := p
    obtain ⟨retry, adjust⟩ := b
    simp only [List.mem_cons, forall_eq_or_imp] at hk
    simp only [handleCommitParts]
    by_cases h0 : code = 0
    · have hn : ¬ Retriable code := by rw [h0]; decide
      rw [if_pos (show code = Err.noError from h0)]
      obtain ⟨s, h, g1, g2, g3⟩ := ih
        { c with ext := { c.ext with toCommit := discard c.ext.toCommit t } } (retry, adjust) hk.2
      refine ⟨s, h, ?_, ?_, ?_⟩
      · rw [g1]; refine Prod.ext (congrArg Except.ok (Prod.ext ?_ ?_)) rfl <;>
            (rw [Bool.eq_iff_iff]; simp [h0, show ¬ Retriable 0 by decide])
      · intro t'
        rw [g2]
        simp only [mem_discard, List.mem_cons, exists_eq_or_imp, h0, true_or, and_true]
        constructor
        · rintro ⟨⟨h1, h2⟩, _⟩; exact ⟨h1, h2⟩
        · rintro ⟨h1, h2⟩; exact ⟨⟨h1, h2⟩, fun h => h2 h.1⟩
      · rw [g3]; simp [hn]
    · rw [if_neg (show ¬ code = Err.noError from h0)]
      by_cases hr : Retriable code
      · rw [if_pos (show code ∈ Err.retriable from hr)]
        obtain ⟨s, h, g1, g2, g3⟩ := ih { c with heal := true } (true, adjust) hk.2
        have h12 : code ≠ 12 := by rintro rfl; exact absurd hr (by decide)
        refine ⟨s, h, ?_, ?_, ?_⟩
        · rw [g1]; refine Prod.ext (congrArg Except.ok (Prod.ext ?_ ?_)) rfl <;>
            (rw [Bool.eq_iff_iff]; simp [hr, h12])
        · intro t'; rw [g2]; simp [h0]
        · rw [g3]; simp [hr]
      · rw [if_neg (show ¬ code ∈ Err.retriable from hr)]
        by_cases h12 : code = 12
        · rw [if_pos (show code = Err.offsetMetadataTooLarge from h12)]
          obtain ⟨s, h, g1, g2, g3⟩ := ih c (true, true) hk.2
          refine ⟨s, h, ?_, ?_, ?_⟩
          · rw [g1]; refine Prod.ext (congrArg Except.ok (Prod.ext ?_ ?_)) rfl <;>
            (rw [Bool.eq_iff_iff]; simp [h12])
          · intro t'; rw [g2]; simp [h0]
          · rw [g3]; simp [hr]
        · rw [if_neg (show ¬ code = Err.offsetMetadataTooLarge from h12)]
          obtain ⟨v, hv⟩ : ∃ v, errorCodes.get? code = some v := by
            cases h : errorCodes.get? code with
            | none => exact absurd hk.1 ((errorCodes_none _).1 h)
            | some v => exact ⟨v, rfl⟩
          rw [hv]
          obtain ⟨s, h, g1, g2, g3⟩ := ih c (retry, adjust) hk.2
          refine ⟨s, h, ?_, ?_, ?_⟩
          · simp only; rw [g1]; refine Prod.ext (congrArg Except.ok (Prod.ext ?_ ?_)) rfl <;>
            (rw [Bool.eq_iff_iff]; simp [h12, hr])
          · intro t'; rw [g2]; simp [h0]
          · rw [g3]; simp [hr]

theorem handleCommitTopics_spec (ts : List (String × List (Int × Int))) (c : Grouped)
    (b : Bool × Bool) (hk : ∀ t ∈ ts, ∀ p ∈ t.2, KnownCode p.2) :
    ∃ s h, handleCommitTopics ts c b =
      (.ok (b.1 || decide (∃ t ∈ ts, ∃ p ∈ t.2, Retriable p.2 ∨ p.2 = 12),
          b.2 || decide (∃ t ∈ ts, ∃ p ∈ t.2, p.2 = 12)),
        { c with heal := h, ext := { c.ext with toCommit := s } }) ∧
      (∀ t', t' ∈ s ↔ t' ∈ c.ext.toCommit ∧ ¬ ∃ t ∈ ts, t.1 = t' ∧ ∃ p ∈ t.2, p.2 = 0) ∧
      (h = true ↔ c.heal = true ∨ ∃ t ∈ ts, ∃ p ∈ t.2, Retriable p.2) := by
  induction ts generalizing c b with
  | nil => exact ⟨c.ext.toCommit, c.heal, by simp [handleCommitTopics], by simp, by simp⟩
  | cons x ts ih =>
    obtain ⟨t, ps⟩ := x
    simp only [List.mem_cons, forall_eq_or_imp] at hk
    obtain ⟨s, h, g1, g2, g3⟩ := handleCommitParts_spec t ps c b hk.1
    obtain ⟨s', h', k1, k2, k3⟩ := ih { c with heal := h, ext := { c.ext with toCommit := s } } (b.1 || decide (∃ p ∈ ps, Retriable p.2 ∨ p.2 = 12), b.2 || decide (∃ p ∈ ps, p.2 = 12)) hk.2
    refine ⟨s', h', ?_, ?_, ?_⟩
    · simp only [handleCommitTopics, g1, k1]
      refine Prod.ext (congrArg Except.ok (Prod.ext ?_ ?_)) rfl <;>
        (rw [Bool.eq_iff_iff]; simp [or_assoc])
    · intro t'
      rw [k2, g2]
      simp only [List.mem_cons, exists_eq_or_imp]
      constructor
      · rintro ⟨⟨h1, h2⟩, h3⟩
        refine ⟨h1, ?_⟩
        rintro (⟨h4, h5⟩ | h4)
        · exact h2 ⟨h4.symm, h5⟩
        · exact h3 h4
      · rintro ⟨h1, h2⟩
        exact ⟨⟨h1, fun h => h2 (Or.inl ⟨h.1.symm, h.2⟩)⟩, fun h => h2 (Or.inr h)⟩
    · rw [k3]
      simp only [g3, List.mem_cons, exists_eq_or_imp, or_assoc]

end Kiel
