import Verif.Spec.KeyOrder
import Verif.Props.InTurn
import Verif.Props.CallsPipeline
/-
C118: from a producer to a consumer, messages of one partition keep their order.
-/
set_option autoImplicit false
namespace Kiel
open Spec
open scoped List

variable {α κ β γ ε δ σ : Type}

/-! ### The correlation ids of what is handed over grow -/

theorem numbered_lt (n : Int) (o : Dict Int (ByPartition κ β)) :
    (numbered n o).keys.Pairwise (· < ·) := by
  induction o generalizing n with
  | nil => exact .nil
  | cons e o ih =>
    simp only [numbered, Dict.keys, List.map_cons, List.pairwise_cons]
    refine ⟨fun k hk => ?_, ih (n + 1)⟩
    have := (numbered_keys (n + 1) o).2 k hk
    omega

theorem handed_lt (cfg : PCfg α κ β) (s : ProducerBusy α κ β γ) (e : ProduceEv α κ β γ)
    (hw : CallsWF s) :
    ((handed (s.step cfg e).1).map (·.corr)).Pairwise (· < ·) ∧
    (∀ q ∈ handed (s.step cfg e).1, s.producer.lastId < q.corr ∧
      q.corr ≤ (s.step cfg e).2.producer.lastId) := by
  by_cases h : handed (s.step cfg e).1 = []
  · rw [h]; exact ⟨.nil, fun _ hq => by cases hq⟩
  · obtain ⟨p0, env, _, h1, h2, h3⟩ := step_handed cfg s e h
    have hw0 : WF p0 := by
      have := hw.wf
      exact ⟨by rw [h1]; exact this.nodup, by rw [h1, h2]; exact this.old, by rw [h1]; exact this.topics⟩
    obtain ⟨pl, _, _, _, _, g5, _⟩ := prepare_ok hw0.old h3
    refine ⟨by rw [g5]; exact numbered_lt _ _, ?_⟩
    rw [← h2]
    exact (prepare_reqs hw0 h3).1

theorem lastId_step (cfg : PCfg α κ β) (s : ProducerBusy α κ β γ) (e : ProduceEv α κ β γ) :
    s.producer.lastId ≤ (s.step cfg e).2.producer.lastId :=
  (keptSent_step cfg s e s.producer.lastId (Int.le_refl _)).1

/-! ### What is held for a partition -/

/-- The messages that a request holds for a partition. -/
def heldIn (t : String) (part : Int) (ts : ByPartition κ β) : List (Msg κ β) :=
  ((ts.get? t).bind fun ps => ps.get? part).getD []

theorem heldIn_unrefused {topics : List (String × List (Int × Int))} {t : String} {part : Int}
    (h : ¬ RefusedIn topics t part) (ts : ByPartition κ β) :
    heldIn t part (unrefused topics ts) = heldIn t part ts := by
  have := heldFor_unrefused (given := [((0 : Int), ts)]) (corr := 0) (topics := topics) (0, t, part)
  simp only [List.map_cons, List.map_nil, if_true, h, and_false, if_false, heldFor, Dict.get?,
    Option.bind_some] at this
  unfold heldIn
  rw [this]

theorem get?_sublist {ι ν X : Type} [DecidableEq ι] (d : Dict ι ν) (k : ι) (g : ν → List X) :
    ((d.get? k).map g).getD [] <+ d.flatMap fun e => if e.1 = k then g e.2 else [] := by
  induction d with
  | nil => exact .refl _
  | cons e d ih =>
    obtain ⟨a, b⟩ := e
    simp only [List.flatMap_cons, Dict.get?]
    by_cases h : a = k
    · simp only [h, if_true, Option.map_some, Option.getD_some]
      exact List.sublist_append_left _ _
    · simp only [h, if_false, List.nil_append]
      exact ih

theorem heldIn_contents (dec : γ → List (Msg κ β)) (q : PReq γ) (t : String) (part : Int) :
    heldIn t part (contents dec q) <+ inPartition dec [q] t part := by
  have h1 : heldIn t part (contents dec q) =
      ((Dict.get? (contents dec q) t).map fun ps => (Dict.get? ps part).getD []).getD [] := by
    unfold heldIn
    cases Dict.get? (contents dec q) t <;> rfl
  rw [h1]
  refine (get?_sublist _ _ _).trans ?_
  simp only [inPartition, List.flatMap_cons, List.flatMap_nil, List.append_nil, contents,
    List.flatMap_map]
  refine List.Sublist.flatMap_right _ fun e _ => ?_
  by_cases he : e.1 = t
  · simp only [he, if_true, true_and]
    have := get?_sublist (e.2.map fun p => (p.1, dec p.2)) part (fun x => x)
    simpa [List.flatMap_map] using this
  · simp [he]

theorem heldIn_handed (dec : γ → List (Msg κ β)) (reqs : List (PReq γ)) (t : String) (part : Int) :
    (reqs.flatMap fun q => heldIn t part (contents dec q)) <+ inPartition dec reqs t part := by
  induction reqs with
  | nil => exact .refl _
  | cons q l ih =>
    have := inPartition_append dec [q] l t part
    simp only [List.singleton_append] at this
    rw [this, List.flatMap_cons]
    exact (heldIn_contents dec q t part).append ih

theorem flatMap_heldFor {given : Dict Int (ByPartition κ β)} (hn : given.keys.Nodup) (t : String)
    (part : Int) : (given.keys.flatMap fun c => (heldFor given (c, t, part)).getD []) =
      given.flatMap fun x => heldIn t part x.2 := by
  unfold Dict.keys
  rw [List.flatMap_map]
  refine List.flatMap_congr fun x hx => ?_
  simp only [heldFor, Dict.get?_of_mem hn hx, Option.bind_some]
  rfl

theorem sublist_of_lt {l m : List Int} (hl : l.Pairwise (· < ·)) (hm : m.Pairwise (· < ·))
    (h : ∀ x ∈ l, x ∈ m) : l <+ m := by
  induction m generalizing l with
  | nil =>
    cases l with
    | nil => exact .refl _
    | cons a l => exact absurd (h a List.mem_cons_self) List.not_mem_nil
  | cons b m ih =>
    cases l with
    | nil => exact List.nil_sublist _
    | cons a l =>
      rw [List.pairwise_cons] at hl hm
      by_cases hab : a = b
      · subst hab
        refine (ih hl.2 hm.2 fun x hx => ?_).cons_cons _
        rcases List.mem_cons.1 (h x (List.mem_cons_of_mem _ hx)) with rfl | hx'
        · exact absurd (hl.1 x hx) (Int.lt_irrefl _)
        · exact hx'
      · have ha : a ∈ m := (List.mem_cons.1 (h a List.mem_cons_self)).resolve_left hab
        have hba := hm.1 a ha
        refine (ih (List.pairwise_cons.2 hl) hm.2 fun x hx => ?_).cons _
        rcases List.mem_cons.1 (h x hx) with rfl | hx'
        · rcases List.mem_cons.1 hx with rfl | hx
          · exact absurd rfl hab
          · have := hl.1 x hx
            omega
        · exact hx'

/-! ### The invariant -/

/-- Partition `part` of topic `t`. -/
structure KeyInv (f : κ → Int) (dec : γ → List (Msg κ β)) (t : String) (part : Int)
    (before : List β) (acc : List (String × Msg κ β)) (foreign : List ((String × Int) × β))
    (w : Site α κ β γ σ) : Prop where
  logs : ∀ t p, IsLog (w.logs t p)
  wf : CallsWF w.producer
  order : OrderWF f w.producer.producer
  lt : w.given.keys.Pairwise (· < ·)
  old : ∀ k ∈ w.given.keys, k ≤ w.producer.producer.lastId
  held : (w.given.flatMap fun x => heldIn t part x.2) ++ ownQueue f w.producer.producer t part <+
    ownOf f t part acc
  done : ((w.done.filter fun x => decide (x.2 = (t, part))).map (·.1)).Pairwise (· > ·)
  known : ∀ x ∈ w.done, x.1 ∈ w.given.keys
  log : ∃ marked : List (Bool × β), (w.logs t part).map (·.2) = before ++ marked.map (·.2) ∧
    (marked.filter fun x => x.1).map (·.2) =
      ((((w.done.filter fun x => decide (x.2 = (t, part))).map (·.1)).reverse.flatMap fun c =>
        (heldFor w.given (c, t, part)).getD []).map (·.value)) ∧
    (marked.filter fun x => !x.1).map (·.2) =
      (foreign.filter fun x => decide (x.1 = (t, part))).map (·.2)

theorem refused_retriable {code : Int} (h : Refuses code) : Retriable code := by
  simp only [Refuses, Retriable, List.mem_cons, List.not_mem_nil, or_false] at h ⊢
  omega

theorem storing_keys (cfg : PCfg α κ β) (dec : γ → List (Msg κ β)) (s : ProducerBusy α κ β γ)
    (e : ProduceEv α κ β γ) (given : Dict Int (ByPartition κ β)) :
    (storing cfg dec s e given).keys = given.keys ++ (handed (s.step cfg e).1).map (·.corr) := by
  unfold storing
  have h1 : ∀ (a b : Dict Int (ByPartition κ β)), Dict.keys (a ++ b) = a.keys ++ b.keys := by
    intro a b; simp [Dict.keys]
  rw [h1]
  congr 1
  · split
    · exact mapped_keys _ _ _
    · rfl
  · simp [Dict.keys, Function.comp_def]

/-- What a request that was handed over holds for the partition does not change. -/
theorem storing_held (cfg : PCfg α κ β) (dec : γ → List (Msg κ β)) {s : ProducerBusy α κ β γ}
    {e : ProduceEv α κ β γ} (given : Dict Int (ByPartition κ β)) {t : String} {part : Int}
    (hr : NotRetried t part e) :
    ((storing cfg dec s e given).flatMap fun x => heldIn t part x.2) =
      (given.flatMap fun x => heldIn t part x.2) ++
        (handed (s.step cfg e).1).flatMap (fun q => heldIn t part (contents dec q)) ∧
    ∀ c ∈ given.keys, (heldFor (storing cfg dec s e given) (c, t, part)).getD [] =
      (heldFor given (c, t, part)).getD [] := by
  have href : ∀ corr topics, answeredIn s e = some (corr, topics) → ¬ RefusedIn topics t part := by
    rintro corr topics ha ⟨a, h1, h2, c, h3, h4, h5⟩
    obtain ⟨i, b, rfl⟩ : ∃ i b, e = .outcome i b (.ok topics) := by
      cases e with
      | outcome i b r =>
        cases r with
        | error x => cases ha
        | ok ts =>
          simp only [answeredIn] at ha
          split at ha
          · obtain ⟨q, _, hq⟩ := Option.map_eq_some_iff.1 ha
            cases hq; exact ⟨i, b, rfl⟩
          · cases ha
      | _ => cases ha
    exact hr i b topics rfl a h1 h2 c h3 h4 (refused_retriable h5)
  unfold storing
  split
  · rename_i corr topics ha
    have hn := href corr topics ha
    constructor
    · rw [List.flatMap_append, List.flatMap_map, List.flatMap_map]
      congr 1
      refine List.flatMap_congr fun x _ => ?_
      by_cases hx : x.1 = corr
      · simp only [hx, if_true]
        exact heldIn_unrefused hn x.2
      · simp only [hx, if_false]
    · intro c hc
      have : heldFor ((given.map fun x => if x.1 = corr then (x.1, unrefused topics x.2) else x) ++
          (handed (s.step cfg e).1).map fun q => (q.corr, contents dec q)) (c, t, part) =
        heldFor (given.map fun x => if x.1 = corr then (x.1, unrefused topics x.2) else x)
          (c, t, part) := by
        unfold heldFor
        rw [get?_append_left]
        rw [mapped_keys]
        exact hc
      rw [this, heldFor_unrefused, if_neg (fun h => hn h.2)]
  · refine ⟨by rw [List.flatMap_append, List.flatMap_map], fun c hc => ?_⟩
    unfold heldFor
    rw [get?_append_left _ hc]

theorem keyed_inv {pcfg : PCfg α κ β} {dec : γ → List (Msg κ β)} {reads : Reads σ β δ} {f : κ → Int}
    {t : String} {part : Int} {cl : Cluster} {n : Int} {logs0 : String → Int → List (Int × β)} {c : σ}
    {w : Site α κ β γ σ} {acc : List (String × Msg κ β)} {foreign : List ((String × Int) × β)}
    {outs : List (String × δ)}
    (h : KeyedRuns pcfg dec reads f t part (Site.new cl n logs0 c) acc foreign outs w)
    (hl : ∀ t p, IsLog (logs0 t p)) :
    KeyInv f dec t part ((logs0 t part).map (·.2)) acc foreign w := by
  induction h with
  | nil =>
    refine ⟨hl, callsWF_idle cl n, ⟨by simp [Site.new, idleProducer, Producer.new, Dict.keys],
      by intro c t p ms hs; simp [Site.new, idleProducer, Producer.new, sentFor, Dict.get?] at hs⟩,
      .nil, fun k hk => by simp [Site.new, Dict.keys] at hk, ?_, .nil,
      fun x hx => by simp [Site.new] at hx, [], by simp [Site.new], by simp [Site.new], by simp⟩
    simp [Site.new, idleProducer, Producer.new, ownQueue, queueOf, Dict.get?, ownOf]
  | @call acc foreign outs w e _ hk hr ih =>
    have hstep := calls_order_step pcfg ih.wf.wf ih.order hk hr
    obtain ⟨p1, p2⟩ := handed_lt pcfg w.producer e ih.wf
    obtain ⟨s1, s2⟩ := storing_held pcfg dec w.given hr (s := w.producer) (e := e)
    refine ⟨ih.logs, callsWF_step pcfg _ _ ih.wf, hstep.wf, ?_, ?_, ?_, ih.done, ?_, ?_⟩
    · simp only [storing_keys]
      refine List.pairwise_append.2 ⟨ih.lt, p1, fun a ha b hb => ?_⟩
      obtain ⟨q, hq, rfl⟩ := List.mem_map.1 hb
      have := ih.old a ha
      have := (p2 q hq).1
      omega
    · intro k hk
      simp only [storing_keys] at hk
      rcases List.mem_append.1 hk with hk | hk
      · exact (ih.old k hk).trans (lastId_step pcfg w.producer e)
      · obtain ⟨q, hq, rfl⟩ := List.mem_map.1 hk
        exact (p2 q hq).2
    · simp only [s1, own_append, List.append_assoc]
      refine List.Sublist.trans (l₂ := (w.given.flatMap fun x => heldIn t part x.2) ++
        (ownQueue f w.producer.producer t part ++ ownOf f t part (acceptedIn pcfg w.producer e))) ?_ ?_
      · exact List.Sublist.append_left (((heldIn_handed dec _ t part).append_right _).trans hstep.order) _
      · rw [← List.append_assoc]
        exact ih.held.append_right _
    · intro x hx
      simp only [storing_keys]
      exact List.mem_append_left _ (ih.known x hx)
    · obtain ⟨marked, m1, m2, m3⟩ := ih.log
      refine ⟨marked, m1, ?_, m3⟩
      rw [m2]
      congr 1
      refine List.flatMap_congr fun c hc => ?_
      obtain ⟨x, hx, rfl⟩ := List.mem_map.1 (List.mem_reverse.1 hc)
      exact (s2 _ (ih.known x (List.mem_filter.1 hx).1)).symm
  | @stores acc foreign outs w corr t' part' ms logs _ hm hn hturn hg ih =>
    refine ⟨fun t p => (hg t p).1, ih.wf, ih.order, ih.lt, ih.old, ih.held, ?_, ?_, ?_⟩
    · simp only [List.filter_cons]
      split
      · rename_i hx
        simp only [decide_eq_true_eq, Prod.mk.injEq] at hx
        simp only [List.map_cons, List.pairwise_cons]
        refine ⟨fun k hk => ?_, ih.done⟩
        obtain ⟨x, hx', rfl⟩ := List.mem_map.1 hk
        obtain ⟨hx1, hx2⟩ := List.mem_filter.1 hx'
        simp only [decide_eq_true_eq] at hx2
        refine hturn hx.1 hx.2 x.1 ?_
        rw [← hx2]
        exact hx1
      · exact ih.done
    · intro x hx
      rcases List.mem_cons.1 hx with rfl | hx
      · exact heldFor_key (x := (corr, t', part')) (by rw [hm]; rfl)
      · exact ih.known x hx
    · obtain ⟨marked, m1, m2, m3⟩ := ih.log
      obtain ⟨add, a1, a2⟩ := (hg t part).2
      by_cases hx : t = t' ∧ part = part'
      · obtain ⟨rfl, rfl⟩ := hx
        simp only [and_self, if_true] at a2
        refine ⟨marked ++ ms.map fun m => (true, m.value), ?_, ?_, ?_⟩
        · simp only [a1, List.map_append, m1, a2, List.append_assoc, List.map_map]
          rfl
        · simp only [List.filter_append, List.map_append, m2, List.filter_cons, decide_true, if_true,
            List.map_cons, List.reverse_cons, List.flatMap_append, List.flatMap_cons, List.flatMap_nil,
            List.append_nil, hm, Option.getD_some]
          congr 1
          rw [List.filter_eq_self.2 (by simp), List.map_map]
          rfl
        · rw [List.filter_append, List.map_append, m3]
          rw [List.append_right_eq_self, List.filter_eq_nil_iff.2 (by simp), List.map_nil]
      · have hx' : ¬ ((t', part') = (t, part)) := by
          intro h; cases h; exact hx ⟨rfl, rfl⟩
        simp only [hx, if_false, List.map_eq_nil_iff] at a2
        subst a2
        refine ⟨marked, by simpa only [a1, List.append_nil] using m1, ?_, m3⟩
        simp only [List.filter_cons, hx', decide_false, Bool.false_eq_true, if_false]
        exact m2
  | @foreign acc foreign outs w t' part' v logs _ hg ih =>
    refine ⟨fun t p => (hg t p).1, ih.wf, ih.order, ih.lt, ih.old, ih.held, ih.done, ih.known, ?_⟩
    obtain ⟨marked, m1, m2, m3⟩ := ih.log
    obtain ⟨add, a1, a2⟩ := (hg t part).2
    by_cases hx : t = t' ∧ part = part'
    · obtain ⟨rfl, rfl⟩ := hx
      simp only [and_self, if_true] at a2
      refine ⟨marked ++ [(false, v)], ?_, ?_, ?_⟩
      · simp [a1, m1, a2]
      · simpa using m2
      · simpa using m3
    · have hx' : ¬ ((t', part') = (t, part)) := by
        intro h; cases h; exact hx ⟨rfl, rfl⟩
      simp only [hx, if_false, List.map_eq_nil_iff] at a2
      subst a2
      refine ⟨marked, by simpa only [a1, List.append_nil] using m1, m2, ?_⟩
      simpa [List.filter_append, hx'] using m3
  | consumes _ _ ih =>
    exact ⟨ih.logs, ih.wf, ih.order, ih.lt, ih.old, ih.held, ih.done, ih.known, ih.log⟩

theorem keyed_reads {pcfg : PCfg α κ β} {dec : γ → List (Msg κ β)} {reads : Reads σ β δ} {f : κ → Int}
    {t : String} {part : Int}
    (hmono : ∀ {logs logs' : String → Int → List (Int × β)}, (∀ t p, logs t p <+: logs' t p) →
      ∀ {c outs c'}, reads logs c outs c' → reads logs' c outs c')
    (inv : σ → List (String × δ) → σ → Prop) {w0 w : Site α κ β γ σ}
    {acc : List (String × Msg κ β)} {foreign : List ((String × Int) × β)} {outs : List (String × δ)}
    (h : KeyedRuns pcfg dec reads f t part w0 acc foreign outs w) (h0 : inv w0.consumer [] w0.consumer)
    (hs : ∀ {c outs c1 outs1}, inv w0.consumer outs c → reads w.logs c outs1 c1 →
      inv w0.consumer (outs ++ outs1) c1) : inv w0.consumer outs w.consumer := by
  have key : ∀ logs, (∀ t p, w.logs t p <+: logs t p) →
      (∀ {c outs c1 outs1}, inv w0.consumer outs c → reads logs c outs1 c1 →
        inv w0.consumer (outs ++ outs1) c1) → inv w0.consumer outs w.consumer := by
    clear hs
    induction h with
    | nil => exact fun _ _ _ => h0
    | call e _ _ _ ih => exact fun logs hl hs => ih logs hl hs
    | stores _ _ _ _ _ _ _ _ _ hg ih =>
      exact fun logs hl hs => ih logs (fun t p => List.IsPrefix.trans
        (by obtain ⟨add, h1, _⟩ := (hg t p).2; exact ⟨add, h1.symm⟩) (hl t p)) hs
    | foreign _ _ _ _ _ hg ih =>
      exact fun logs hl hs => ih logs (fun t p => List.IsPrefix.trans
        (by obtain ⟨add, h1, _⟩ := (hg t p).2; exact ⟨add, h1.symm⟩) (hl t p)) hs
    | consumes _ hr ih => exact fun logs hl hs => hs (ih logs hl hs) (hmono hl hr)
  exact key w.logs (fun _ _ => List.prefix_rfl) hs

/-- Whatever kind of consumer: if it has read a stretch of the partition's log, C118 holds. -/
theorem keyed_ordered {pcfg : PCfg α κ β} {dec : γ → List (Msg κ β)} {reads : Reads σ β δ} {f : κ → Int}
    {t : String} {part : Int} {cl : Cluster} {n : Int} {logs0 : String → Int → List (Int × β)} {c : σ}
    {w : Site α κ β γ σ} {acc : List (String × Msg κ β)} {foreign : List ((String × Int) × β)}
    {outs : List (String × δ)}
    (h : KeyedRuns pcfg dec reads f t part (Site.new cl n logs0 c) acc foreign outs w)
    (hl : ∀ t p, IsLog (logs0 t p)) (cfg : CCfg β δ) (P : Int × β → Bool) :
    KeepsOrder cfg ((logs0 t part).map (·.2)) ((ownOf f t part acc).map (·.value))
      ((foreign.filter fun x => decide (x.1 = (t, part))).map (·.2))
      ((values cfg ((w.logs t part).filter P)).filter cfg.truthy) := by
  have hi := keyed_inv h hl
  obtain ⟨marked, m1, m2, m3⟩ := hi.log
  refine ⟨marked, ?_, m3, ?_⟩
  · rw [m2]
    refine List.Sublist.map _ ?_
    refine List.Sublist.trans ?_ ((List.sublist_append_left _ _).trans hi.held)
    rw [← flatMap_heldFor (hi.lt.imp fun h => Int.ne_of_lt h)]
    refine List.Sublist.flatMap (sublist_of_lt ?_ hi.lt fun x hx => ?_) _
    · rw [List.pairwise_reverse]
      exact hi.done
    · obtain ⟨y, hy, rfl⟩ := List.mem_map.1 (List.mem_reverse.1 hx)
      exact hi.known y (List.mem_filter.1 hy).1
  · unfold legible
    rw [← m1]
    refine List.Sublist.filter _ ?_
    unfold values
    rw [List.filterMap_map]
    exact List.filter_sublist.filterMap _

/-- **C118**: from a producer to a consumer, messages of one partition keep their order.  The producer's
calls overlap and may raise; so do the consumer's.  What the consumer returns of the partition (with what
calls that are under way have fetched) is some of what the producer accepted for it, in the order in which
it was accepted, between what was there before and what others store, in the order in which they do.

`per`: what of the returned messages is of which partition. -/
theorem C118_in_order (pcfg : PCfg α κ β) (dec : γ → List (Msg κ β)) (f : κ → Int) (t : String)
    (part : Int) (allocation : Consumer ε → Res (Dict String (List Int))) (cfg : CCfg β δ)
    (cl : Cluster) (n : Int) (logs0 : String → Int → List (Int × β)) (c : Consumer ε)
    (w : Site α κ β γ (Busy ε δ)) (acc : List (String × Msg κ β))
    (foreign : List ((String × Int) × β)) (outs : List (String × δ))
    (h : KeyedRuns pcfg dec (busyReads allocation cfg) f t part (Site.new cl n logs0 ⟨c, []⟩) acc
      foreign outs w)
    (hl : ∀ t p, IsLog (logs0 t p)) :
    ∃ per, Interleaving per (outs ++ underWay cfg w.consumer) ∧
      KeepsOrder cfg ((logs0 t part).map (·.2)) ((ownOf f t part acc).map (·.value))
        ((foreign.filter fun x => decide (x.1 = (t, part))).map (·.2)) (per t part) := by
  have hk := (keyed_inv h hl).logs
  have hc := keyed_reads (fun hg _ _ _ hr => by
      obtain ⟨ev, out, h1, h2⟩ := hr
      exact ⟨ev, out, fair_grows batch_grows hg _ _ h1, h2⟩)
    (Course allocation cfg fun b ev => Fair Batch w.logs b ev ∧ Apart b ev) h (.nil _)
    (fun hx hr => by
      obtain ⟨ev, out, h1, h2, h3, h4, rfl⟩ := hr
      exact course_snoc hx ⟨h1, h2⟩ h3 h4)
  exact ⟨_, (C76_exactly_once_partial allocation cfg w.logs hk c w.consumer outs hc).2,
    keyed_ordered h hl cfg _⟩

/-- **C118**, whole calls of `consume` of a `SingleConsumer`, first ones of their topics included. -/
theorem C118_single (pcfg : PCfg α κ β) (dec : γ → List (Msg κ β)) (f : κ → Int) (t : String)
    (part : Int) (cfg : CCfg β δ) (cl : Cluster) (n : Int)
    (logs0 : String → Int → List (Int × β)) (c : Single)
    (w : Site α κ β γ (SingleBusy δ × List (String × List OPart))) (acc : List (String × Msg κ β))
    (foreign : List ((String × Int) × β)) (outs : List (String × δ))
    (h : KeyedRuns pcfg dec (singleReads cfg) f t part (Site.new cl n logs0 (⟨⟨c, []⟩, []⟩, [])) acc
      foreign outs w)
    (hl : ∀ t p, IsLog (logs0 t p)) :
    ∃ per, Interleaving per (outs ++ underWay cfg w.consumer.1.base) ∧
      KeepsOrder cfg ((logs0 t part).map (·.2)) ((ownOf f t part acc).map (·.value))
        ((foreign.filter fun x => decide (x.1 = (t, part))).map (·.2)) (per t part) := by
  have hk := (keyed_inv h hl).logs
  have hc := keyed_reads (fun hg _ _ _ hr => by
      obtain ⟨ev, out, h1, h2⟩ := hr
      exact ⟨ev, out, fairFirst_grows hg _ _ h1, h2⟩)
    (fun s o s' => ∃ told, s'.2 = s.2 ++ told ∧ FirstCourse cfg (fun s ev =>
      FairFirst Batch w.logs s ev ∧ ApartFirst s ev) s.1 o told s'.1) h ⟨[], by simp, .nil _⟩
    (fun hx hr => by
      obtain ⟨told, e, hx⟩ := hx
      obtain ⟨ev, out, h1, h2, h3, h4, rfl, h5⟩ := hr
      exact ⟨_, by rw [h5, e, List.append_assoc], firstCourse_snoc hx ⟨h1, h2⟩ h3 h4⟩)
  obtain ⟨told, _, hc⟩ := hc
  exact ⟨_, (C104_exactly_once_partial cfg w.logs hk c w.consumer.1 outs _ hc).2,
    keyed_ordered h hl cfg _⟩

/-- **C118**, whole calls of `consume` of a member of a group, rebalances included, which come when no
call is under way. -/
theorem C118_grouped (pcfg : PCfg α κ β) (dec : γ → List (Msg κ β)) (f : κ → Int) (t : String)
    (part : Int) (gcfg : GCfg) (cfg : CCfg β δ) (cl : Cluster) (n : Int)
    (logs0 : String → Int → List (Int × β)) (c : Grouped)
    (w : Site α κ β γ (GroupFirst δ × List (String × List OFPart))) (acc : List (String × Msg κ β))
    (foreign : List ((String × Int) × β)) (outs : List (String × δ))
    (h : KeyedRuns pcfg dec (groupReads gcfg cfg) f t part
      (Site.new cl n logs0 (⟨⟨⟨c, []⟩, []⟩, []⟩, [])) acc foreign outs w)
    (hl : ∀ t p, IsLog (logs0 t p)) :
    ∃ per, Interleaving per
        (outs ++ committing w.consumer.1.group ++ underWay cfg w.consumer.1.group.base) ∧
      KeepsOrder cfg ((logs0 t part).map (·.2)) ((ownOf f t part acc).map (·.value))
        ((foreign.filter fun x => decide (x.1 = (t, part))).map (·.2)) (per t part) := by
  have hk := (keyed_inv h hl).logs
  have hc := keyed_reads (fun hg _ _ _ hr => by
      obtain ⟨ev, out, h1, h2⟩ := hr
      exact ⟨ev, out, fairGroup_grows batch_grows hg _ _ h1, h2⟩)
    (fun s o s' => ∃ told, s'.2 = s.2 ++ told ∧ FirstGroupCourse gcfg cfg (fun s ev out =>
      FairGroup Batch w.logs s ev ∧ ApartGroup s ev ∧ KeepsGroup s ev out) s.1 o told s'.1) h
    ⟨[], by simp, .nil _⟩
    (fun hx hr => by
      obtain ⟨told, e, hx⟩ := hx
      obtain ⟨ev, out, h1, h2, h3, h4, rfl, h5⟩ := hr
      exact ⟨_, by rw [h5, e, List.append_assoc], groupCourse_snoc hx ⟨h1, h2, h3⟩ h4⟩)
  obtain ⟨told, _, hc⟩ := hc
  exact ⟨_, (C106_exactly_once_partial gcfg cfg w.logs hk c w.consumer.1 outs _ hc).2,
    keyed_ordered h hl cfg _⟩

/-! ### Example -/

/-- Every key has partition 0; no compression. -/
def exAtZero : FlushStart Nat Nat (List (Msg Nat Nat)) := ⟨fun _ _ _ => .ok 0, .ok, fun _ => .none⟩

theorem exKeyedBy : ∀ e ∈ ([.produce 0 "t" 4 exAtZero, .produce 1 "t" 6 exAtZero,
    .outcome 0 7 (.error .brokerConnection)] :
      List (ProduceEv Nat Nat Nat (List (Msg Nat Nat)))), KeyedBy (fun _ => 0) id e := by
  intro e he env hb
  have : env = exAtZero := by
    simp only [List.mem_cons, List.not_mem_nil, or_false] at he
    rcases he with rfl | rfl | rfl <;> cases hb <;> rfl
  subst this
  exact ⟨fun _ _ _ _ h => by cases h; rfl, fun _ _ h => by cases h; rfl⟩

theorem exKeyedCall {reads : Reads σ Nat Nat} {w0 w : ExSite σ} {acc acc' : List (String × Msg Nat Nat)}
    {foreign : List ((String × Int) × Nat)} {outs : List (String × Nat)}
    {e : ProduceEv Nat Nat Nat (List (Msg Nat Nat))}
    (h : KeyedRuns exAtOnce id reads (fun _ => 0) "t" 0 w0 acc foreign outs w)
    (hk : KeyedBy (fun _ => 0) id e) (hr : NotRetried "t" 0 e)
    (ha : acceptedIn exAtOnce w.producer e = acc') :
    KeyedRuns exAtOnce id reads (fun _ => 0) "t" 0 w0 (acc ++ acc') foreign outs (exCall w e) := by
  have := KeyedRuns.call e h hk hr
  rwa [ha] at this

/-- Two calls of `produce` overlap; both requests are stored, the second without being answered, and
the first's answer is lost; another's message is stored between them. -/
def exTurn : ExSite (Busy Unit Nat) :=
  exStore { exCall (exStore (exCall (exCall exSite0
    (.produce 0 "t" 4 exAtZero)) (.produce 1 "t" 6 exAtZero)) 2 [(0, 4)])
    (.outcome 0 7 (.error .brokerConnection)) with logs := exOneLog [(0, 4), (1, 9)] } 3
      [(0, 4), (1, 9), (2, 6)]

theorem exTurns : KeyedRuns exAtOnce id (busyReads Single.allocation exCCfg) (fun _ => 0) "t" 0
    exSite0 [("t", ⟨0, 4⟩), ("t", ⟨0, 6⟩)] [(("t", 0), 9)] [] exTurn := by
  refine .stores 3 "t" 0 [⟨0, 6⟩] _ ?_ (by decide +kernel) (by decide +kernel) ?_
    (exOneLog_grows (l := [(0, 4), (1, 9)]) (add := [(2, 6)]) ⟨by decide, by decide⟩ rfl)
  · refine .foreign (foreign := []) "t" 0 9 _ ?_
      (exOneLog_grows (l := [(0, 4)]) (add := [(1, 9)]) ⟨by decide, by decide⟩ rfl)
    refine exKeyedCall (acc := [("t", ⟨0, 4⟩), ("t", ⟨0, 6⟩)]) (acc' := [])
      (e := .outcome 0 7 (.error .brokerConnection)) ?_ (exKeyedBy _ (by simp))
      (fun _ _ _ h => by cases h) (by decide +kernel)
    refine .stores 2 "t" 0 [⟨0, 4⟩] _ ?_ (by decide +kernel) (by decide +kernel) ?_
      (exOneLog_grows (l := []) (add := [(0, 4)]) ⟨by decide, by decide⟩ rfl)
    · refine exKeyedCall (acc := [("t", ⟨0, 4⟩)]) (acc' := [("t", ⟨0, 6⟩)])
        (e := .produce 1 "t" 6 exAtZero) ?_ (exKeyedBy _ (by simp)) (fun _ _ _ h => by cases h)
        (by decide +kernel)
      exact exKeyedCall (acc := []) (acc' := [("t", ⟨0, 4⟩)])
        (e := .produce 0 "t" 4 exAtZero) .nil (exKeyedBy _ (by simp)) (fun _ _ _ h => by cases h)
        (by decide +kernel)
    · intro _ _ c hc
      simp [exCall, exSite0, Site.new] at hc
  · intro _ _ c hc
    simp [exCall, exStore, exSite0, Site.new] at hc
    omega

-- Non-vacuity: the consumer returns the three messages in the order in which they were made.
example : ∃ w, KeyedRuns exAtOnce id (busyReads Single.allocation exCCfg) (fun _ => 0) "t" 0
    exSite0 [("t", ⟨0, 4⟩), ("t", ⟨0, 6⟩)] [(("t", 0), 9)] [("t", 4), ("t", 9), ("t", 6)] w := by
  refine ⟨_, .consumes (outs := []) (c := ⟨{ exConsumer with offsets := [("t", [(0, 3)])] }, []⟩)
    (.consumes (outs := []) (outs' := []) (c := ⟨{ exConsumer with offsets := [("t", [(0, 3)])] },
        [(0, ⟨"t", [], [(7, [4, 9, 6])]⟩)]⟩)
      (.consumes (outs := []) (outs' := []) (c := ⟨{ exConsumer with offsets := [("t", [(0, 0)])] },
          [(0, ⟨"t", [exAsked], []⟩)]⟩) exTurns
        ⟨.consume 0 "t", .sent [exAsked], (by show Dict.get? _ _ = _; decide +kernel),
          (by show ∀ x ∈ _, _; decide +kernel), (by decide +kernel), (by simp), rfl⟩)
      ⟨.outcome 0 7 (.ok (exFetched "t" [(0, 4), (1, 9), (2, 6)])), .nothing,
        (exFetched_honest (o := 0) (w := ⟨"t", [exAsked], []⟩) (by decide +kernel) rfl
          ⟨[], by decide +kernel⟩), trivial, (by decide +kernel), (by simp), rfl⟩)
    ⟨.finish 0, .returned "t" (some [4, 9, 6]), trivial, trivial, (by decide +kernel), (by simp), rfl⟩⟩

-- And that is what the theorem says of it.
example : KeepsOrder exCCfg [] [4, 6] [9] [4, 9, 6] ∧ ¬ KeepsOrder exCCfg [] [4, 6] [9] [6, 4] := by
  refine ⟨⟨[(true, 4), (false, 9), (true, 6)], by decide, by decide, by decide +kernel⟩, ?_⟩
  rintro ⟨marked, h1, h2, h3⟩
  have hv : ∀ l : List Nat, l.filterMap (decode exCCfg) <+ l := by
    intro l
    induction l with
    | nil => exact .refl _
    | cons v l ih =>
      rw [List.filterMap_cons]
      by_cases hv : v = 99
      · subst hv
        exact ih.cons _
      · have : decode exCCfg v = some v := by simp [decode, exCCfg, hv, Except.toOption]
        rw [this]
        exact ih.cons_cons _
  have h5 : ∀ (l : List (Bool × Nat)), (∀ x ∈ l, x.1 = false → x.2 = 9) →
      ((l.map (·.2)).filter fun v => decide (v ≠ 9)) <+ (l.filter fun x => x.1).map (·.2) := by
    intro l
    induction l with
    | nil => exact fun _ => .refl _
    | cons x l ih =>
      intro hl
      have ih := ih fun y hy => hl y (List.mem_cons_of_mem _ hy)
      obtain ⟨b, v⟩ := x
      cases b with
      | true =>
        simp only [List.map_cons, List.filter_cons, if_true]
        split
        · exact ih.cons_cons _
        · exact ih.cons _
      | false =>
        have : v = 9 := hl _ List.mem_cons_self rfl
        subst this
        simpa using ih
  have h9 : ∀ x ∈ marked, x.1 = false → x.2 = 9 := by
    intro x hx hf
    have : x.2 ∈ (marked.filter fun x => !x.1).map (·.2) :=
      List.mem_map_of_mem (List.mem_filter.2 ⟨hx, by simp [hf]⟩)
    rw [h2] at this
    simpa using this
  have h6 := ((h3.trans (List.filter_sublist.trans (hv _))).filter (fun v => decide (v ≠ 9))).trans
    ((h5 marked h9).trans h1)
  exact absurd h6 (by decide)

end Kiel
