import Verif.Spec.Answers
/-
Answers to produce requests are handled one partition after the other.
-/
set_option autoImplicit false
namespace Kiel

variable {κ β : Type}

theorem handleParts_both (corr : Int) (l l2 : List (String × Int × Int)) (p : Producer κ β) :
    Producer.handleParts corr (l ++ l2) p = match Producer.handleParts corr l p with
      | (.error e, p) => (.error e, p)
      | (.ok _, p) => Producer.handleParts corr l2 p := by
  induction l generalizing p with
  | nil => rfl
  | cons a l ih =>
    obtain ⟨t, part, code⟩ := a
    simp only [Producer.handleParts, List.cons_append]
    cases p.handlePart corr t part code with
    | mk res p2 =>
      cases res with
      | error e => rfl
      | ok u => exact ih p2

theorem handleTopics_eq (r : PResp) (p : Producer κ β) :
    Producer.handleTopics r.corr r.topics p = Producer.handleParts r.corr r.answers p := by
  unfold PResp.answers
  induction r.topics generalizing p with
  | nil => rfl
  | cons t l ih =>
    obtain ⟨t, ps⟩ := t
    rw [Producer.handleTopics, List.flatMap_cons, handleParts_both]
    cases Producer.handleParts r.corr (ps.map fun a => (t, a.1, a.2)) p with
    | mk res p2 =>
      cases res with
      | error e => rfl
      | ok u => exact ih p2

end Kiel
