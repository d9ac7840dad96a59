import Verif.Spec.Ledger
import Verif.Props.Producer
/-
C87: messages are never in two places, and leave unaccounted for only by flushes that raise.
-/
set_option autoImplicit false
namespace Kiel
open Spec

variable {α κ β γ : Type}

/-! ### Flushes that raise -/

theorem buildParts_err (comp : List (Msg κ β) → Res γ) (corr : Int) (t : String)
    (parts : Dict Int (List (Msg κ β))) (S : Dict Int (ByPartition κ β)) (T : ByPartition κ β)
    (P : Dict Int (List (Msg κ β))) (acc : List (Int × γ)) (hS : corr ∉ S.keys)
    (hT : t ∉ T.keys) (hP : (P ++ parts : Dict Int (List (Msg κ β))).keys.Nodup) :
    ∀ e sent', buildParts comp corr t parts (addEnd S corr (addEnd T t P)) acc =
        (.error e, sent') →
      ∃ pre, pre.Sublist parts ∧ sent' = addEnd S corr (addEnd T t (P ++ pre)) := by
  induction parts generalizing P acc with
  | nil => intro e sent' h; simp [buildParts] at h
  | cons x parts ih =>
    obtain ⟨p, ms⟩ := x
    intro e sent' h
    simp only [buildParts] at h
    cases hc : comp ms with
    | error e =>
      simp only [hc, Prod.mk.injEq] at h
      exact ⟨[], by simp, by simp [← h.2]⟩
    | ok set =>
      simp only [hc] at h
      have hp : p ∉ P.keys := by
        simp only [Dict.keys, List.map_append, List.map_cons, List.nodup_append] at hP
        intro hm
        exact hP.2.2 p hm p (by simp) rfl
      have e1 : (addEnd S corr (addEnd T t P)).upd corr []
          (fun (ts : ByPartition κ β) => Dict.upd ts t [] fun ps => Dict.set ps p ms) =
          addEnd S corr (addEnd T t (P ++ [(p, ms)])) := by
        have a1 := upd_addEnd S corr (addEnd T t P)
          (fun (ts : ByPartition κ β) => Dict.upd ts t [] fun ps => Dict.set ps p ms) hS
          (fun v => Dict.set_ne_nil _ _ _)
        have a2 := upd_addEnd T t P (fun ps => Dict.set ps p ms) hT
          (fun v => Dict.set_ne_nil _ _ _)
        rw [a2, Dict.set_of_not_mem hp] at a1
        exact a1
      rw [e1] at h
      obtain ⟨pre, h1, h2⟩ := ih (P ++ [(p, ms)]) (acc ++ [(p, set)]) (by simpa using hP) e sent' h
      exact ⟨(p, ms) :: pre, h1.cons_cons _, by simpa using h2⟩

theorem flatMap_sublist {α β : Type} {l l' : List α} (f : α → List β) (h : l.Sublist l') :
    (l.flatMap f).Sublist (l'.flatMap f) := by
  induction h with
  | slnil => simp
  | cons a _ ih => simp only [List.flatMap_cons]; exact ih.trans (List.sublist_append_right _ _)
  | cons_cons a _ ih => simp only [List.flatMap_cons]; exact (List.append_sublist_append_left _).2 ih

theorem buildTopics_err (comp : List (Msg κ β) → Res γ) (corr : Int)
    (topics : ByPartition κ β) (S : Dict Int (ByPartition κ β)) (T : ByPartition κ β)
    (acc : List (String × List (Int × γ))) (hS : corr ∉ S.keys)
    (hT : (T ++ topics : ByPartition κ β).keys.Nodup)
    (hp : ∀ e ∈ topics, e.2.keys.Nodup ∧ e.2 ≠ []) :
    ∀ e sent', buildTopics comp corr topics (addEnd S corr T) acc = (.error e, sent') →
      ∃ T' : ByPartition κ β, sent' = addEnd S corr (T ++ T') ∧ T'.keys.Sublist topics.keys ∧
        (∀ e ∈ T', e.2.keys.Nodup) ∧ (inRequest T').Sublist (inRequest topics) := by
  induction topics generalizing T acc with
  | nil => intro e sent' h; simp [buildTopics] at h
  | cons x topics ih =>
    obtain ⟨t, parts⟩ := x
    intro e sent' h
    simp only [List.mem_cons, forall_eq_or_imp] at hp
    have ht : t ∉ T.keys := by
      simp only [Dict.keys, List.map_append, List.map_cons, List.nodup_append] at hT
      intro hm
      exact hT.2.2 t hm t (by simp) rfl
    simp only [buildTopics] at h
    cases hb : buildParts comp corr t parts (addEnd S corr T) [] with
    | mk res sent1 =>
      rw [hb] at h
      cases res with
      | error e1 =>
        simp only [Prod.mk.injEq] at h
        obtain ⟨_, rfl⟩ := h
        obtain ⟨pre, h1, h2⟩ := buildParts_err comp corr t parts S T [] [] hS ht
          (by simpa using hp.1.1) e1 sent1 hb
        simp only [List.nil_append] at h2
        cases pre with
        | nil => exact ⟨[], by simpa [addEnd] using h2, by simp [Dict.keys], by simp,
            by simp [inRequest]⟩
        | cons y pre =>
          refine ⟨[(t, y :: pre)], h2, by simp [Dict.keys], ?_, ?_⟩
          · simp only [List.mem_singleton, forall_eq]
            exact hp.1.1.sublist (h1.map _)
          · simp only [inRequest, List.flatMap_cons, List.flatMap_nil, List.append_nil]
            exact (flatMap_sublist (fun p : Int × List (Msg κ β) => p.2.map fun m => (t, m)) h1).trans
              (List.sublist_append_left _ _)
      | ok ps =>
        simp only at h
        obtain ⟨h1, ps', h2, h3⟩ := buildParts_ok comp corr t parts S T [] [] hS ht
          (by simpa using hp.1.1) ps sent1 hb
        simp only [List.nil_append] at h1 h2
        subst h2
        rw [h1, addEnd_ne T t hp.1.2] at h
        obtain ⟨T', h4, h5, h6, h7⟩ := ih (T ++ [(t, parts)]) (acc ++ [(t, ps)])
          (by simpa using hT) hp.2 e sent' h
        refine ⟨(t, parts) :: T', by simpa using h4, ?_, ?_, ?_⟩
        · simpa [Dict.keys] using h5
        · simp only [List.mem_cons, forall_eq_or_imp]; exact ⟨hp.1.1, h6⟩
        · simp only [inRequest, List.flatMap_cons] at h7 ⊢
          exact (List.append_sublist_append_left _).2 h7

theorem buildRequests_err (comp : List (Msg κ β) → Res γ) (ordered : Dict Int (ByPartition κ β))
    (sent : Dict Int (ByPartition κ β)) (n : Int) (acc : List (PReq γ))
    (ho : ∀ e ∈ ordered, Tidy e.2) (hs : ∀ k ∈ sent.keys, k ≤ n) :
    ∀ e sent' n', buildRequests comp ordered sent n acc = (.error e, sent', n') →
      ∃ X : Dict Int (ByPartition κ β), sent' = sent ++ X ∧ n ≤ n' ∧ X.keys.Nodup ∧
        (∀ k ∈ X.keys, n < k ∧ k ≤ n') ∧
        (∀ e ∈ X, e.2.keys.Nodup ∧ ∀ t ∈ e.2, t.2.keys.Nodup) ∧
        (inSent X).Sublist (inSent ordered) := by
  induction ordered generalizing sent n acc with
  | nil => intro e sent' n' h; simp [buildRequests] at h
  | cons x ordered ih =>
    obtain ⟨l, topics⟩ := x
    intro e sent' n' h
    simp only [List.mem_cons, forall_eq_or_imp] at ho
    have hfresh : n + 1 ∉ sent.keys := fun hm => by have := hs _ hm; omega
    simp only [buildRequests] at h
    cases hb : buildTopics comp (n + 1) topics sent [] with
    | mk res sent1 =>
      rw [hb] at h
      cases res with
      | error e1 =>
        simp only [Prod.mk.injEq] at h
        obtain ⟨_, rfl, rfl⟩ := h
        obtain ⟨T', h1, h2, h3, h4⟩ := buildTopics_err comp (n + 1) topics sent [] [] hfresh
          (by simpa using ho.1.nodup) (fun e he => ⟨(ho.1.parts e he).1, (ho.1.parts e he).2.1⟩)
          e1 sent1 hb
        simp only [List.nil_append] at h1
        cases T' with
        | nil => exact ⟨[], by simpa [addEnd] using h1, by omega, by simp [Dict.keys],
            by simp [Dict.keys], by simp, by simp [inSent]⟩
        | cons y T' =>
          refine ⟨[(n + 1, y :: T')], h1, by omega, by simp [Dict.keys], ?_, ?_, ?_⟩
          · simp only [Dict.keys, List.map_cons, List.map_nil, List.mem_singleton, forall_eq]; omega
          · simp only [List.mem_singleton, forall_eq]
            exact ⟨ho.1.nodup.sublist h2, h3⟩
          · simp only [inSent, List.flatMap_cons, List.flatMap_nil, List.append_nil]
            exact h4.trans (List.sublist_append_left _ _)
      | ok ts =>
        simp only at h
        obtain ⟨h1, ts', h2, h3⟩ := buildTopics_ok comp (n + 1) topics sent [] [] hfresh
          (by simpa using ho.1.nodup) (fun e he => ⟨(ho.1.parts e he).1, (ho.1.parts e he).2.1⟩)
          ts sent1 hb
        simp only [List.nil_append] at h1 h2
        subst h2
        rw [addEnd_ne sent _ ho.1.ne] at h1
        subst h1
        obtain ⟨X, h4, h5, h6, h7, h8, h9⟩ := ih (sent ++ [(n + 1, topics)]) (n + 1)
          (acc ++ [⟨l, n + 1, ts⟩]) ho.2
          (by
            intro k hk
            simp only [Dict.keys, List.map_append, List.mem_append, List.map_cons, List.map_nil,
              List.mem_singleton] at hk
            rcases hk with hk | rfl
            · have := hs k hk; omega
            · exact Int.le_refl _)
          e sent' n' h
        refine ⟨(n + 1, topics) :: X, by simpa using h4, by omega, ?_, ?_, ?_, ?_⟩
        · simp only [Dict.keys, List.map_cons, List.nodup_cons]
          refine ⟨fun hm => ?_, h6⟩
          have := h7 _ hm; omega
        · simp only [Dict.keys, List.map_cons, List.mem_cons, forall_eq_or_imp]
          exact ⟨by omega, fun k hk => by have := h7 k hk; omega⟩
        · simp only [List.mem_cons, forall_eq_or_imp]
          exact ⟨⟨ho.1.nodup, fun t ht => (ho.1.parts t ht).1⟩, h8⟩
        · simp only [inSent, List.flatMap_cons] at h9 ⊢
          exact (List.append_sublist_append_left _).2 h9

theorem sublist_rest {α : Type} {l l' : List α} (h : l.Sublist l') : ∃ d, l'.Perm (l ++ d) := by
  induction h with
  | slnil => exact ⟨[], by simp⟩
  | cons a _ ih =>
    obtain ⟨d, hd⟩ := ih
    exact ⟨a :: d, (hd.cons a).trans List.perm_middle.symm⟩
  | cons_cons a _ ih =>
    obtain ⟨d, hd⟩ := ih
    exact ⟨d, hd.cons a⟩

/-- What a raising flush does. -/
theorem prepare_err {pick : Nat → κ → List Int → Res Int} {comp : List (Msg κ β) → Res γ}
    {p p' : Producer κ β} {e : Exc} (hw : WF p) (h : p.prepare pick comp = (.error e, p')) :
    WF p' ∧ ∃ lost kept, (inQueue p.unsent).Perm (lost ++ kept) ∧
      (inQueue p'.unsent ++ inSent p'.sent).Perm (kept ++ inSent p.sent) := by
  unfold Producer.prepare at h
  split at h
  · simp at h
  · obtain ⟨g1, g2⟩ := routeTopics_ok pick 0 p.unsent.reverse p.cluster p.cluster ⟨[], []⟩
      (SameView.refl _)
    cases hr : routeTopics pick 0 p.unsent.reverse p.cluster ⟨[], []⟩ with
    | mk res cr =>
      obtain ⟨cl, rest⟩ := cr
      rw [hr] at h g1 g2
      cases res with
      | error e' =>
        simp only [Prod.mk.injEq, Except.error.injEq] at h
        obtain ⟨rfl, rfl⟩ := h
        obtain ⟨gone, h1, h2, x, h3, h4⟩ :=
          routeTopics_error _ _ _ _ _ _ _ (SameView.refl p.cluster) hr
        refine ⟨⟨hw.nodup, hw.old, hw.topics⟩, inQueue gone.reverse, inQueue rest.reverse, ?_,
          List.Perm.refl _⟩
        have := congrArg List.reverse h2
        simp only [List.reverse_reverse, List.reverse_append] at this
        rw [this]
        simp only [inQueue, List.flatMap_append]
        exact List.perm_append_comm
      | ok r =>
        simp only at h g2
        obtain ⟨pl, a1, a2, a3, a4⟩ := g2 r rfl
        subst a4
        have ht := tidyAll_routeTo p.cluster pl ⟨[], []⟩ tidyAll_nil
        cases hb : buildRequests comp (routeTo p.cluster pl ⟨[], []⟩).ordered p.sent p.lastId [] with
        | mk res2 sn =>
          obtain ⟨sent, n⟩ := sn
          rw [hb] at h
          cases res2 with
          | error e' =>
            simp only [Prod.mk.injEq, Except.error.injEq] at h
            obtain ⟨rfl, rfl⟩ := h
            obtain ⟨X, b1, b2, b3, b4, b5, b6⟩ := buildRequests_err comp _ p.sent p.lastId [] ht.reqs
              hw.old _ _ _ hb
            obtain ⟨d, hd⟩ := sublist_rest b6
            have hp := routeTo_perm p.cluster pl ⟨[], []⟩
            simp only [inSent, inQueue, List.flatMap_nil, List.append_nil] at hp
            rw [a1] at hp
            have hp' : (inSent (routeTo p.cluster pl ⟨[], []⟩).ordered ++
                inQueue (routeTo p.cluster pl ⟨[], []⟩).retry).Perm (inQueue p.unsent) :=
              hp.trans (inQueue_reverse_perm _)
            subst b1
            refine ⟨⟨?_, ?_, ?_⟩, d ++ inQueue (routeTo p.cluster pl ⟨[], []⟩).retry, inSent X,
              ?_, ?_⟩
            · simp only [Dict.keys, List.map_append] at *
              rw [List.nodup_append]
              refine ⟨hw.nodup, b3, ?_⟩
              rintro a ha b hb rfl
              have := hw.old a ha
              have := (b4 a hb).1
              omega
            · intro k hk
              simp only [Dict.keys, List.map_append, List.mem_append] at hk
              rcases hk with hk | hk
              · have := hw.old k hk; simp only; omega
              · exact (b4 k hk).2
            · intro e he
              rcases List.mem_append.1 he with he | he
              · exact hw.topics e he
              · exact b5 e he
            · refine hp'.symm.trans ((hd.append_right _).trans ?_)
              rw [List.append_assoc]
              exact List.perm_append_comm
            · simp only [inQueue, List.flatMap_nil, List.nil_append]
              rw [inSent_append]
              exact List.perm_append_comm
          | ok reqs => simp at h

/-! ### Answers that raise -/

theorem set_same_flatMap {κ ν γ : Type} [DecidableEq κ] (f : κ × ν → List γ) (d : Dict κ ν) (k : κ)
    (v : ν) (h : f (k, v) = ((d.get? k).map fun w => f (k, w)).getD []) :
    (d.set k v).flatMap f = d.flatMap f := by
  induction d with
  | nil => simpa [Dict.set, Dict.get?] using h
  | cons e r ih =>
    obtain ⟨a, b⟩ := e
    simp only [Dict.get?, Dict.set] at h ⊢
    split
    · rename_i ha; subst ha; simpa using h
    · rename_i ha
      rw [if_neg ha] at h
      simp [ih h]

theorem handlePart_any {p p' : Producer κ β} {corr : Int} {t : String} {part code : Int}
    {res : Res Unit} (hw : WF p) (hc : corr ≤ p.lastId)
    (h : p.handlePart corr t part code = (res, p')) :
    WF p' ∧ p'.lastId = p.lastId ∧
      (inQueue p'.unsent ++ inSent p'.sent).Perm (inQueue p.unsent ++ inSent p.sent) := by
  cases res with
  | ok u =>
    obtain ⟨h1, _⟩ := handlePart_ok hw h
    exact ⟨h1.wf, h1.lastId, h1.perm⟩
  | error e =>
    unfold Producer.handlePart at h
    split at h
    · simp at h
    · split at h
      · simp only at h
        split at h
        · simp only [Prod.mk.injEq] at h
          obtain ⟨_, rfl⟩ := h
          refine ⟨⟨Dict.nodup_set hw.nodup _ _, ?_, ?_⟩, rfl, ?_⟩
          · intro k hk
            obtain ⟨v, hv⟩ := Dict.mem_keys.1 hk
            rcases (Dict.mem_set hw.nodup).1 hv with hv | ⟨hv, _⟩
            · simp only [Prod.mk.injEq] at hv; rw [hv.1]; exact hc
            · exact hw.old k (Dict.mem_keys.2 ⟨v, hv⟩)
          · intro e he
            rcases (Dict.mem_set hw.nodup).1 he with rfl | ⟨he, _⟩
            · have hts : ((p.sent.get? corr).getD []).keys.Nodup ∧
                  ∀ u ∈ (p.sent.get? corr).getD [], u.2.keys.Nodup := by
                cases hx : p.sent.get? corr with
                | none => simp [Dict.keys]
                | some ts => exact hw.topics _ (Dict.mem_of_get? hx)
              refine ⟨Dict.nodup_set hts.1 _ _, fun u hu => ?_⟩
              rcases (Dict.mem_set hts.1).1 hu with rfl | ⟨hu, _⟩
              · cases hx : ((p.sent.get? corr).getD []).get? t with
                | none => simp [Dict.keys]
                | some ps => simpa [hx] using hts.2 _ (Dict.mem_of_get? hx)
              · exact hts.2 u hu
            · exact hw.topics e he
          · refine List.Perm.append_left _ (List.Perm.of_eq ?_)
            refine set_same_flatMap (fun (e : Int × ByPartition κ β) => inRequest e.2) _ _ _ ?_
            have : inRequest (Dict.set ((p.sent.get? corr).getD []) t
                ((((p.sent.get? corr).getD []).get? t).getD [])) =
                inRequest ((p.sent.get? corr).getD []) := by
              refine set_same_flatMap (fun (e : String × Dict Int (List (Msg κ β))) =>
                e.2.flatMap fun p => p.2.map fun m => (e.1, m)) _ _ _ ?_
              cases hx : ((p.sent.get? corr).getD []).get? t <;> simp
            simp only [this]
            cases hx : p.sent.get? corr <;> simp [inRequest]
        · simp at h
      · split at h
        · simp only [Prod.mk.injEq] at h
          obtain ⟨_, rfl⟩ := h
          exact ⟨hw, rfl, List.Perm.refl _⟩
        · simp at h

theorem handleParts_any {corr : Int} (l : List (String × Int × Int)) {p p' : Producer κ β}
    {res : Res Unit} (hw : WF p) (hc : corr ≤ p.lastId)
    (h : Producer.handleParts corr l p = (res, p')) :
    WF p' ∧ p'.lastId = p.lastId ∧
      (inQueue p'.unsent ++ inSent p'.sent).Perm (inQueue p.unsent ++ inSent p.sent) := by
  induction l generalizing p with
  | nil =>
    simp only [Producer.handleParts, Prod.mk.injEq] at h
    obtain ⟨_, rfl⟩ := h
    exact ⟨hw, rfl, List.Perm.refl _⟩
  | cons a l ih =>
    obtain ⟨t, part, code⟩ := a
    simp only [Producer.handleParts] at h
    cases hp : p.handlePart corr t part code with
    | mk r1 p1 =>
      rw [hp] at h
      obtain ⟨h1, h2, h3⟩ := handlePart_any hw hc hp
      cases r1 with
      | error e =>
        simp only [Prod.mk.injEq] at h
        obtain ⟨_, rfl⟩ := h
        exact ⟨h1, h2, h3⟩
      | ok u =>
        obtain ⟨g1, g2, g3⟩ := ih h1 (by omega) h
        exact ⟨g1, by omega, g3.trans h3⟩

/-! ### Steps and histories -/

theorem ledger_step {cfg : PCfg α κ β} {p p' : Producer κ β} {ev : PEv α κ β γ} {e : Option Exc}
    (hw : WF p) (h : p.step cfg ev = (e, p')) (hans : ∀ r, ev = .answer r → r.corr ≤ p.lastId) :
    WF p' ∧ ∃ lost kept, (atRisk p e ev).Perm (lost ++ kept) ∧
      (accepted cfg p ev ++ (inQueue p.unsent ++ inSent p.sent)).Perm
        (inQueue p'.unsent ++ inSent p'.sent ++ (if e = .none then settledBy p ev else []) ++
          lost) := by
  by_cases hok : PEv.critical ev = true → e = .none
  · obtain ⟨w, hp⟩ := step_perm hw h hok
    have hr : atRisk p e ev = [] := by
      cases ev <;> simp only [atRisk]
      rw [if_pos (hok rfl)]
    have hs : (if e = .none then settledBy p ev else []) = settledBy p ev := by
      cases ev <;> simp only [settledBy, ite_self]
      rw [if_pos (hok rfl)]
    refine ⟨w, [], [], by rw [hr]; simp, ?_⟩
    rw [hs]
    simpa using hp.symm
  · have hcr : PEv.critical ev = true := by
      cases hx : PEv.critical ev with
      | true => rfl
      | false => exact absurd (fun h => by simp [hx] at h) hok
    have hne : e ≠ .none := fun he => hok fun _ => he
    rw [if_neg hne]
    cases ev with
    | flush pick comp =>
      simp only [Producer.step] at h
      cases hp : p.prepare pick comp with
      | mk res p1 =>
        rw [hp] at h
        cases res with
        | ok r => simp only [Prod.mk.injEq] at h; exact absurd h.1.symm hne
        | error x =>
          simp only [Prod.mk.injEq] at h
          obtain ⟨_, rfl⟩ := h
          obtain ⟨w, lost, kept, h1, h2⟩ := prepare_err hw hp
          refine ⟨w, lost, kept, by simpa [atRisk, hne] using h1, ?_⟩
          simp only [accepted, List.nil_append, List.append_nil]
          refine (h1.append_right _).trans ?_
          rw [List.append_assoc]
          exact List.perm_append_comm.trans (h2.symm.append_right _)
    | answer r =>
      simp only [Producer.step] at h
      have hc := hans r rfl
      have key : WF p' ∧
          (inQueue p'.unsent ++ inSent p'.sent).Perm (inQueue p.unsent ++ inSent p.sent) := by
        unfold Producer.handleResponse at h
        rw [handleTopics_eq] at h
        cases hp : Producer.handleParts r.corr r.answers p with
        | mk res p1 =>
          rw [hp] at h
          obtain ⟨h1, h2, h3⟩ := handleParts_any _ hw hc hp
          cases res with
          | error x =>
            simp only [Prod.mk.injEq] at h
            obtain ⟨_, rfl⟩ := h
            exact ⟨h1, h3⟩
          | ok u =>
            simp only at h
            split at h
            · rename_i heq
              split at heq
              · simp at heq
              · simp only [Prod.mk.injEq] at heq h
                rw [← h.2, ← heq.2]
                exact ⟨h1, h3⟩
            · simp only [Prod.mk.injEq] at h; exact absurd h.1.symm hne
      refine ⟨key.1, [], [], by simp [atRisk], ?_⟩
      simpa [accepted] using key.2.symm
    | _ => simp [PEv.critical] at hcr

theorem ledger_perm {cfg : PCfg α κ β} {p p' : Producer κ β} {evs : List (PEv α κ β γ)}
    {acc fin risk : List (String × Msg κ β)} (h : Ledger cfg p evs acc fin risk p') (hw : WF p) :
    WF p' ∧ ∃ lost kept, risk.Perm (lost ++ kept) ∧
      (acc ++ (inQueue p.unsent ++ inSent p.sent)).Perm
        (inQueue p'.unsent ++ inSent p'.sent ++ fin ++ lost) := by
  induction h with
  | nil p => exact ⟨hw, [], [], by simp, by simp⟩
  | @cons p ev p' e evs acc fin risk p'' hstep hans _ ih =>
    obtain ⟨w1, l1, k1, r1, q1⟩ := ledger_step hw hstep hans
    obtain ⟨w2, l2, k2, r2, q2⟩ := ih w1
    generalize (if e = .none then settledBy p ev else []) = s at q1
    generalize atRisk p e ev = a at r1
    generalize accepted cfg p ev = b at q1
    generalize inQueue p.unsent ++ inSent p.sent = A at q1
    generalize inQueue p'.unsent ++ inSent p'.sent = B at q1 q2
    generalize inQueue p''.unsent ++ inSent p''.sent = C at q2
    refine ⟨w2, l1 ++ l2, k1 ++ k2, ?_, ?_⟩
    · refine (r1.append r2).trans ?_
      simp only [List.append_assoc]
      refine List.Perm.append_left _ ?_
      exact List.perm_append_comm_assoc _ _ _
    · -- b ++ acc ++ A ~ acc ++ (b ++ A) ~ acc ++ (B ++ s ++ l1) ~ (acc ++ B) ++ s ++ l1
      have e1 : (b ++ acc ++ A).Perm (acc ++ (b ++ A)) := by
        rw [List.append_assoc]; exact List.perm_append_comm_assoc _ _ _
      refine e1.trans ((q1.append_left _).trans ?_)
      have e2 : (acc ++ (B ++ s ++ l1)).Perm ((acc ++ B) ++ (s ++ l1)) := by
        simp only [List.append_assoc]; exact List.Perm.refl _
      refine e2.trans ((q2.append_right _).trans ?_)
      simp only [List.append_assoc]
      refine List.Perm.append_left _ ?_
      refine (List.perm_append_comm (l₁ := fin)).trans ?_
      simp only [List.append_assoc]
      -- l2 ++ (s ++ (l1 ++ fin)) ~ s ++ (fin ++ (l1 ++ l2))
      refine (List.perm_append_comm_assoc _ _ _).trans (List.Perm.append_left _ ?_)
      refine (List.perm_append_comm (l₁ := l2)).trans ?_
      simp only [List.append_assoc]
      exact List.perm_append_comm_assoc _ _ _

/-- **C87.**  Whatever happens to a new producer, including flushes and handling of answers that
raise: each message accepted is, as often as it was accepted, in the queue, kept for a request,
settled, or lost; and those lost were in the queue when a flush raised. -/
theorem C87_accounted (cfg : PCfg α κ β) (cl : Cluster) (n : Int) (evs : List (PEv α κ β γ))
    (acc fin risk : List (String × Msg κ β)) (p : Producer κ β)
    (h : Ledger cfg (Producer.new cl n) evs acc fin risk p) :
    p.sent.keys.Nodup ∧ ∃ lost kept, risk.Perm (lost ++ kept) ∧
      acc.Perm (inQueue p.unsent ++ inSent p.sent ++ fin ++ lost) := by
  obtain ⟨w, lost, kept, h1, h2⟩ := ledger_perm h (wf_new cl n)
  exact ⟨w.nodup, lost, kept, h1, by simpa [Producer.new, inQueue, inSent] using h2⟩

-- Non-vacuity of C87: the handling of the answer raises after one message has been queued again (the
-- other stays kept for the request), and the second flush raises for the message of the second of
-- two partitions.
example : ∃ acc fin risk p, Ledger exPCfg (Producer.new exPCluster 41)
    ([.produce "t" 1, .produce "t" 2, .flush (exFlush (exPAnswer 0)).pick (exFlush (exPAnswer 0)).comp,
      .answer ⟨42, [("t", [(1, 6), (0, 99)])]⟩, .produce "t" 4,
      .flush (exFlush (exPAnswer 0)).pick fun ms =>
        if ms.any fun m => m.value = 4 then .error .valueError else .ok ms] :
      List (PEv Nat Nat Nat (List (Msg Nat Nat))))
    acc fin risk p ∧ acc = [("t", ⟨1, 1⟩), ("t", ⟨0, 2⟩), ("t", ⟨0, 4⟩)] ∧ fin = [] ∧
      risk = [("t", ⟨1, 1⟩), ("t", ⟨0, 4⟩)] ∧ inQueue p.unsent = [] ∧
      inSent p.sent = [("t", ⟨0, 2⟩), ("t", ⟨1, 1⟩)] := by
  have na : ∀ (ev : PEv Nat Nat Nat (List (Msg Nat Nat))) (n : Int), (match ev with
      | .answer r => decide (r.corr ≤ n) | _ => true) = true → ∀ r, ev = .answer r → r.corr ≤ n := by
    rintro ev n h r rfl; simpa using h
  refine ⟨_, _, _, _, .cons rfl (na _ _ (by decide +kernel)) (.cons rfl (na _ _ (by decide +kernel))
    (.cons rfl (na _ _ (by decide +kernel)) (.cons rfl (na _ _ (by decide +kernel))
      (.cons rfl (na _ _ (by decide +kernel)) (.cons rfl (na _ _ (by decide +kernel))
        (.nil _)))))), ?_, ?_, ?_, ?_, ?_⟩
  all_goals decide +kernel

end Kiel
