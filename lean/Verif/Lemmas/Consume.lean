import Verif.Props.Consumer
import Verif.Lemmas.Grouped
/-
Invariants of `consume`.
-/
set_option autoImplicit false
namespace Kiel
open Spec

variable {ε β δ : Type}

/-- Invariants of `BaseConsumer.consume`.  `G`: what is known of the answers to fetches. -/
theorem consume_inv {allocation : Consumer ε → Res (Dict String (List Int))}
    {determine : Consumer ε → Res Unit × Consumer ε} {cfg : CCfg β δ} {env : ConsumeEnv ε β}
    {topic : String} {c : Consumer ε} (Inv : Consumer ε → Prop) (G : String × FPart β → Prop)
    (hG : ∀ reqs, ∀ a ∈ allAnswers (env.outcomes reqs), G a)
    (heff : ∀ (c c1 : Consumer ε) (done : List (String × FPart β)), (∀ a ∈ done, G a) →
      (∀ t p, offsetOf c1.offsets t p = after cfg (fetchedFor done t p) (offsetOf c.offsets t p)) →
      (∀ t ∈ c1.synced, t ∈ c.synced) → c1.closing = c.closing → c1.ext = c.ext → Inv c → Inv c1)
    (h1 : ∀ c, Inv c → Inv (env.tick 1 c)) (h2 : ∀ c, Inv c → Inv (env.tick 2 c))
    (hdet : ∀ r c1, determine c = (r, c1) → Inv (env.tick 0 c1) ∧
      (r = .ok () → Inv { env.tick 0 c1 with synced := addSet (env.tick 0 c1).synced topic }))
    (h : Inv c) : Inv (c.consume allocation determine cfg env topic).2.1 := by
  have hcl : ∀ (c : Consumer ε) cl, Inv c → Inv { c with cluster := cl } := fun c cl hc =>
    heff c _ [] (by simp) (fun t p => by simp [fetchedFor, after_nil]) (fun _ h => h) rfl rfl hc
  have hfetch : ∀ (c : Consumer ε) parts, Inv c → Inv (Consumer.fetch cfg env topic parts c).2.1 := by
    intro c parts h
    cases hf : Consumer.fetch cfg env topic parts c with
    | mk res x =>
      obtain ⟨c', acts⟩ := x
      rcases fetch_spec cfg env topic parts c c' res acts hf with
        ⟨e, _, _, _, _, ho, hs, _, hclo, hext⟩ |
        ⟨reqs, c1, _, _, rfl, done, rest, hdone, ho, hs, hclo, hext, _⟩
      · exact heff c c' [] (by simp) (fun t p => by simp [fetchedFor, after_nil, ho])
          (fun t ht => by rw [hs] at ht; exact ht) hclo hext h
      · refine h2 _ (heff c c1 done ?_ ho (fun t ht => ((hs t).1 ht).1) hclo hext h)
        intro a ha
        rcases hdone with hdone | rfl
        · exact hG reqs a (by rw [← hdone]; exact List.mem_append_left _ ha)
        · simp at ha
  have hsync : ∀ c : Consumer ε, Inv c →
      Inv (Consumer.consumeSynced allocation cfg env topic c).2.1 := by
    intro c h
    unfold Consumer.consumeSynced
    split
    · exact h
    · split
      · exact hfetch _ _ h
      · split
        · exact h1 _ (hcl _ _ h)
        · simp only
          split
          · exact h1 _ (hcl _ _ h)
          · split
            · exact h1 _ (hcl _ _ h)
            · exact hfetch _ _ (h1 _ (hcl _ _ h))
  unfold Consumer.consume
  split
  · exact h
  · split
    · exact hsync _ h
    · split
      · rename_i heq; exact (hdet _ _ heq).1
      · rename_i heq; exact (hdet _ _ heq).1
      · rename_i heq; exact hsync _ ((hdet _ _ heq).2 rfl)

/-- The four ways a `consume` of a grouped consumer can go. -/
theorem gconsume_cases (gcfg : GCfg) (cfg : CCfg β δ) (env : GroupEnv β) (fuel : Nat)
    (topic : String) (c : Grouped) :
    (c.closing = false ∧ topic ∉ c.synced ∧ (c.determine cfg.plain env.offsets fuel topic).1 = .running ∧
      c.consume gcfg cfg env fuel topic =
        (.running, env.base.tick 0 (c.determine cfg.plain env.offsets fuel topic).2.1, [.determine], [])) ∨
    ∃ bres cb acts, Consumer.consume Grouped.allocation
        (Grouped.determineRes cfg.plain env.offsets fuel topic) cfg env.base topic c = (bres, cb, acts) ∧
      ((∃ e, bres = .error e ∧ c.consume gcfg cfg env fuel topic = (.raised e, cb, acts, [])) ∨
       (∃ result, bres = .ok result ∧ topic ∉ cb.synced ∧
          c.consume gcfg cfg env fuel topic = (.done (some []), cb, acts, [])) ∨
       (∃ result, bres = .ok result ∧ topic ∈ cb.synced ∧ gcfg.autocommit = false ∧
          c.consume gcfg cfg env fuel topic = (.done result,
            { cb with ext := { cb.ext with toCommit := addSet cb.ext.toCommit topic } }, acts, [])) ∨
       (∃ (result : Option (List δ)) (cr : Run Unit × Grouped × List CommitReq), bres = .ok result ∧
          topic ∈ cb.synced ∧
          gcfg.autocommit = true ∧
          cr = Grouped.commit env.commit fuel gcfg.name .none
            { cb with ext := { cb.ext with toCommit := addSet cb.ext.toCommit topic } } ∧
          (c.consume gcfg cfg env fuel topic).2 = (cr.2.1, acts, cr.2.2) ∧
          ((cr.1 = .done () ∧ (c.consume gcfg cfg env fuel topic).1 = .done result) ∨
           (∃ e, cr.1 = .raised e ∧ (c.consume gcfg cfg env fuel topic).1 = .raised e) ∨
           (cr.1 = .running ∧ (c.consume gcfg cfg env fuel topic).1 = .running)))) := by
  by_cases hrun : c.closing = false ∧ topic ∉ c.synced ∧
      (c.determine cfg.plain env.offsets fuel topic).1 = .running
  · exact Or.inl ⟨hrun.1, hrun.2.1, hrun.2.2, by unfold Grouped.consume; rw [if_pos hrun]⟩
  · refine Or.inr ?_
    cases hb : Consumer.consume Grouped.allocation
        (Grouped.determineRes cfg.plain env.offsets fuel topic) cfg env.base topic c with
    | mk bres x =>
      obtain ⟨cb, acts⟩ := x
      refine ⟨bres, cb, acts, rfl, ?_⟩
      unfold Grouped.consume
      rw [if_neg hrun, hb]
      cases bres with
      | error e => exact Or.inl ⟨e, rfl, rfl⟩
      | ok result =>
        right
        by_cases hs : topic ∈ cb.synced
        · right
          simp only [hs, not_true_eq_false, if_false]
          cases ha : gcfg.autocommit with
          | false => left; exact ⟨result, rfl, trivial, rfl, by simp⟩
          | true =>
            right
            simp only [if_true]
            refine ⟨result, _, rfl, trivial, trivial, rfl, ?_, ?_⟩
            · split <;> (rename_i heq; rw [heq])
            · split
              · rename_i heq; left; rw [heq]; exact ⟨rfl, rfl⟩
              · rename_i e _ _ heq; right; left; rw [heq]; exact ⟨e, rfl, rfl⟩
              · rename_i heq; right; right; rw [heq]; exact ⟨rfl, rfl⟩
        · left
          exact ⟨result, rfl, hs, by simp only [hs, not_false_eq_true, if_true]⟩

end Kiel
