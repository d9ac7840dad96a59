import Verif.Props.Grouped
/-
C53: finding the coordinator.
-/
set_option autoImplicit false
namespace Kiel
open Spec

/-- A retriable answer: the next broker is tried. -/
theorem coordinator_retry {env : SendEnv CoordResp} {b : Int} {c : Grouped} {r : CoordResp}
    (hr : Reaches env c b) (hh : HealsWell env) (ho : env.outcome = .ok r)
    (hc : Retriable r.code) :
    ∃ c', c.sendTo coordinatorHandlers env b = (.ok false, c') ∧ c'.ext = c.ext ∧
      ∀ b, c'.cluster.conns.has b = c.cluster.conns.has b := by
  have h0 : r.code ≠ 0 := by intro h; rw [h] at hc; exact absurd hc (by decide)
  obtain ⟨cl, h1, h2⟩ := sendTo_ok (hs := coordinatorHandlers) hr ho rfl
    (show _ = ((.ok false : Res Bool), ({ c with heal := false } : Grouped), true) by
      simp only [handleCoordinatorResponse]
      rw [if_neg (show ¬ r.code = Err.noError from h0), if_pos (show r.code ∈ Err.retriable from hc)])
    hh
  exact ⟨_, h1, rfl, h2⟩

/-- A success: the coordinator is known. -/
theorem coordinator_found {env : SendEnv CoordResp} {b : Int} {c : Grouped} {r : CoordResp}
    (hr : Reaches env c b) (hh : HealsWell env) (ho : env.outcome = .ok r) (hc : r.code = 0) :
    ∃ c', c.sendTo coordinatorHandlers env b = (.ok true, c') ∧
      c'.ext = { c.ext with coordinator := some r.coordinator } := by
  obtain ⟨cl, h1, h2⟩ := sendTo_ok (hs := coordinatorHandlers) hr ho rfl
    (show _ = ((.ok true : Res Bool), (⟨c.cluster, c.offsets, c.synced, false, c.closing,
        { c.ext with coordinator := some r.coordinator }⟩ : Grouped), false) by
      simp only [handleCoordinatorResponse]
      rw [if_pos (show r.code = Err.noError from hc)])
    hh
  exact ⟨_, h1, rfl⟩

/-- The loop, with answers from all brokers that are asked. -/
theorem coordinatorLoop_found (env : Nat → SendEnv CoordResp) (ans : Nat → CoordResp) (j : Nat) :
    ∀ (n : Nat) (b : Int) (bs : List Int) (c : Grouped) (fuel : Nat),
    (∀ i, n ≤ i → i ≤ n + j → (env i).outcome = .ok (ans i) ∧ (env i).write = .none ∧
      HealsWell (env i)) →
    (∀ i, n ≤ i → i < n + j → Retriable (ans i).code) → (ans (n + j)).code = 0 →
    (∀ b' ∈ b :: bs, c.cluster.conns.has b' = true) → 2 * j + 1 ≤ fuel →
    ∃ c' asked, Grouped.coordinatorLoop env fuel n (b :: bs) c = (.done (), c', asked) ∧
      c'.ext = { c.ext with coordinator := some (ans (n + j)).coordinator } ∧
      asked.length = j + 1 ∧ (∀ b ∈ asked, c.cluster.conns.has b = true) ∧
      asked.take (bs.length + 1) = (b :: bs).take (j + 1) := by
  induction j with
  | zero =>
    intro n b bs c fuel henv _ hok hb hf
    obtain ⟨fuel, rfl⟩ : ∃ k, fuel = k + 1 := ⟨fuel - 1, by omega⟩
    obtain ⟨ho, hw, hh⟩ := henv n (Nat.le_refl _) (Nat.le_refl _)
    obtain ⟨c', h1, h2⟩ := coordinator_found (b := b) (c := c) ⟨hb b (by simp), hw⟩ hh ho hok
    exact ⟨c', [b], by simp only [Grouped.coordinatorLoop, h1], h2, rfl, by simpa using hb b (by simp),
      by simp⟩
  | succ j ih =>
    intro n b bs c fuel henv hretry hok hb hf
    obtain ⟨fuel, rfl⟩ : ∃ k, fuel = k + 2 := ⟨fuel - 2, by omega⟩
    obtain ⟨ho, hw, hh⟩ := henv n (Nat.le_refl _) (by omega)
    obtain ⟨c1, h1, h2, h3⟩ := coordinator_retry (b := b) (c := c) ⟨hb b (by simp), hw⟩ hh ho
      (hretry n (Nat.le_refl _) (by omega))
    have e : n + (j + 1) = n + 1 + j := by omega
    rw [e] at hok henv hretry ⊢
    have henv' : ∀ i, n + 1 ≤ i → i ≤ n + 1 + j → (env i).outcome = .ok (ans i) ∧
        (env i).write = .none ∧ HealsWell (env i) := fun i h1 h2 => henv i (by omega) h2
    have hretry' : ∀ i, n + 1 ≤ i → i < n + 1 + j → Retriable (ans i).code :=
      fun i h1 h2 => hretry i (by omega) h2
    cases bs with
    | cons b' bs =>
      obtain ⟨c', asked, g1, g2, g3, g4, g5⟩ := ih (n + 1) b' bs c1 (fuel + 1) henv' hretry' hok
        (fun x hx => by rw [h3]; exact hb x (List.mem_cons_of_mem _ hx)) (by omega)
      refine ⟨c', b :: asked, ?_, by rw [g2, h2], by simp [g3], ?_, ?_⟩
      · rw [Grouped.coordinatorLoop, h1]; simp only [g1]
      · intro x hx
        rcases List.mem_cons.1 hx with rfl | hx
        · exact hb _ (by simp)
        · rw [← h3]; exact g4 x hx
      · simp only [List.length_cons, List.take_succ_cons, List.cons.injEq, true_and] at g5 ⊢
        exact g5
    | nil =>
      have hb1 : b ∈ c1.cluster.conns.keys := by
        rw [← Dict.has_iff, h3]; exact hb b (by simp)
      obtain ⟨k, ks, hk⟩ : ∃ k ks, c1.cluster.conns.keys = k :: ks := by
        cases h : c1.cluster.conns.keys with
        | nil => rw [h] at hb1; simp at hb1
        | cons k ks => exact ⟨k, ks, rfl⟩
      obtain ⟨c', asked, g1, g2, g3, g4, g5⟩ := ih (n + 1) k ks c1 fuel henv' hretry' hok
        (fun x hx => by rw [Dict.has_iff, hk]; exact hx) (by omega)
      refine ⟨c', b :: asked, ?_, by rw [g2, h2], by simp [g3], ?_, ?_⟩
      · rw [Grouped.coordinatorLoop, h1]
        simp only [Grouped.coordinatorLoop, hk, g1]
      · intro x hx
        rcases List.mem_cons.1 hx with rfl | hx
        · exact hb _ (by simp)
        · rw [← h3]; exact g4 x hx
      · simp

/-- **C53**, partial: if every broker asked answers, brokers are asked in turn, and again from the
start, until one knows the coordinator, which is then the consumer's.  Missing: brokers that do
not answer (`C53_down`). -/
theorem C53_found_partial (env : Nat → SendEnv CoordResp) (ans : Nat → CoordResp) (k fuel : Nat)
    (c : Grouped)
    (henv : ∀ i ≤ k, (env i).outcome = .ok (ans i) ∧ (env i).write = .none ∧ HealsWell (env i))
    (hretry : ∀ i < k, Retriable (ans i).code) (hok : (ans k).code = 0)
    (hb : c.cluster.conns ≠ []) (hf : 2 * k + 2 ≤ fuel) :
    ∃ c' asked, c.determineCoordinator env fuel = (.done (), c', asked) ∧
      c'.ext.coordinator = some (ans k).coordinator ∧ asked.length = k + 1 ∧
      (∀ b ∈ asked, b ∈ c.cluster.conns.keys) ∧
      asked.take c.cluster.conns.length = c.cluster.conns.keys.take (k + 1) := by
  obtain ⟨fuel, rfl⟩ : ∃ k, fuel = k + 1 := ⟨fuel - 1, by omega⟩
  obtain ⟨x, ks, hk⟩ : ∃ x ks, c.cluster.conns.keys = x :: ks := by
    cases h : c.cluster.conns with
    | nil => exact absurd h hb
    | cons x ks => exact ⟨x.1, ks.map (·.1), rfl⟩
  have hlen : c.cluster.conns.length = ks.length + 1 := by
    have := congrArg List.length hk
    simpa [Dict.keys] using this
  obtain ⟨c', asked, g1, g2, g3, g4, g5⟩ := coordinatorLoop_found env ans k 0 x ks c fuel
    (fun i _ h => henv i (by omega)) (fun i _ h => hretry i (by omega)) (by simpa using hok)
    (fun b hb => by rw [Dict.has_iff, hk]; exact hb) (by omega)
  refine ⟨c', asked, ?_, ?_, g3, fun b hb => Dict.has_iff.1 (g4 b hb), ?_⟩
  · simp only [Grouped.determineCoordinator, Grouped.coordinatorLoop, hk, g1]
  · rw [g2]; simp
  · rw [hlen, hk]; exact g5

/-- **C53**, false: a broker that does not answer (its connection is lost, say) ends the search
with a `KeyError`; the others are not asked. -/
theorem C53_down (env : Nat → SendEnv CoordResp) (b : Int) (bs : List Int) (fuel : Nat)
    (c : Grouped) (e : Exc) (hk : c.cluster.conns.keys = b :: bs)
    (ho : (env 0).outcome = .error e) (hw : (env 0).write = .none) (hh : HealsWell (env 0)) :
    (c.determineCoordinator env (fuel + 2)).1 = .raised .keyError ∧
    (c.determineCoordinator env (fuel + 2)).2.1.ext = c.ext ∧
    (c.determineCoordinator env (fuel + 2)).2.2 = [b] := by
  obtain ⟨cl, h1, h2⟩ := sendTo_lost (hs := coordinatorHandlers) (env := env 0) (b := b) (c := c)
    ⟨by rw [Dict.has_iff, hk]; simp, hw⟩ ho hh
  simp only [Grouped.determineCoordinator, Grouped.coordinatorLoop, hk, h1]
  exact ⟨trivial, trivial, trivial⟩

/-- **C53**: an answer with a fatal code also ends the search, without an exception and without a
coordinator. -/
theorem C53_fatal (env : Nat → SendEnv CoordResp) (b : Int) (bs : List Int) (fuel : Nat)
    (c : Grouped) (r : CoordResp) (hk : c.cluster.conns.keys = b :: bs)
    (ho : (env 0).outcome = .ok r) (hw : (env 0).write = .none) (hh : HealsWell (env 0))
    (hf : Fatal r.code) :
    (c.determineCoordinator env (fuel + 2)).1 = .done () ∧
    (c.determineCoordinator env (fuel + 2)).2.1.ext = c.ext ∧
    (c.determineCoordinator env (fuel + 2)).2.2 = [b] := by
  obtain ⟨cl, h1, h2⟩ := sendTo_ok (hs := coordinatorHandlers) (env := env 0) (b := b) (c := c)
    ⟨by rw [Dict.has_iff, hk]; simp, hw⟩ ho rfl
    (show _ = ((.ok true : Res Bool), ({ c with heal := false } : Grouped), false) by
      simp only [handleCoordinatorResponse]
      rw [if_neg (show ¬ r.code = Err.noError from hf.1),
        if_neg (show ¬ r.code ∈ Err.retriable from hf.2)])
    hh
  simp only [Grouped.determineCoordinator, Grouped.coordinatorLoop, hk, h1]
  exact ⟨trivial, trivial, trivial⟩

/-- **C53**: with no brokers there is a `NoBrokersError`. -/
theorem C53_none (env : Nat → SendEnv CoordResp) (fuel : Nat) (c : Grouped)
    (hk : c.cluster.conns = []) :
    c.determineCoordinator env (fuel + 1) = (.raised .noBrokers, c, []) := by
  simp [Grouped.determineCoordinator, Grouped.coordinatorLoop, hk, Dict.keys]

/-! ### Concrete searches -/

/-- Brokers 7 and 8. -/
def exGCluster : Cluster :=
  ⟨[(7, ⟨"h", 9092, false⟩), (8, ⟨"i", 9092, false⟩)],
   [("A", [0]), ("B", [0, 1])], [("A", [(0, 7)]), ("B", [(0, 7), (1, 8)])]⟩

/-- A request that is answered by `r`, with healing that changes nothing. -/
def exSend {R : Type} (r : Res R) : SendEnv R := ⟨r, .none, fun cl => (.ok (), cl)⟩

theorem exSend_well {R : Type} (r : Res R) : HealsWell (exSend r) := fun _ => ⟨rfl, fun _ => rfl⟩

/-- Both brokers are still loading, then the first knows. -/
def exAns : Nat → CoordResp
  | 2 => ⟨0, 8⟩
  | _ => ⟨15, -1⟩

example : ((Grouped.new exGCluster).determineCoordinator (fun n => exSend (.ok (exAns n))) 10).1 =
      .done () ∧
    ((Grouped.new exGCluster).determineCoordinator (fun n => exSend (.ok (exAns n))) 10).2.2 =
      [7, 8, 7] ∧
    ((Grouped.new exGCluster).determineCoordinator (fun n => exSend (.ok (exAns n)))
      10).2.1.ext.coordinator = some 8 := by decide +kernel

example : (∀ i ≤ 2, (exSend (.ok (exAns i))).outcome = .ok (exAns i) ∧
      (exSend (.ok (exAns i))).write = .none ∧ HealsWell (exSend (.ok (exAns i)))) ∧
    (∀ i < 2, Retriable (exAns i).code) ∧ (exAns 2).code = 0 ∧ exGCluster.conns ≠ [] :=
  ⟨fun _ _ => ⟨rfl, rfl, exSend_well _⟩, by decide, by decide, by decide⟩

/-- **C53**, false: broker 7 is down; broker 8 knows the coordinator but is never asked. -/
theorem C53_false :
    ((Grouped.new exGCluster).determineCoordinator
      (fun n => exSend (if n = 0 then .error .brokerConnection else .ok ⟨0, 8⟩)) 10).1 =
      .raised .keyError ∧
    ((Grouped.new exGCluster).determineCoordinator
      (fun n => exSend (if n = 0 then .error .brokerConnection else .ok ⟨0, 8⟩)) 10).2.2 = [7] := by
  decide +kernel

end Kiel
