import Verif.Spec.Leaderless
import Verif.Props.Staff
import Verif.Props.Refresh
/-
C137, C138: partitions whose leaders a consumer of a group does not know.
-/
set_option autoImplicit false
namespace Kiel
open Spec

variable {β δ : Type}

/-! ### Steps of a consumer -/

/-- Who leads, as far as the consumer knows. -/
def ledBy (s : GroupFirst δ) (t : String) (p : Int) : Option Int :=
  leaderOf s.group.base.consumer.cluster t p

theorem ledBy_same {s s' : GroupFirst δ}
    (h : s'.group.base.consumer.cluster = s.group.base.consumer.cluster) : ledBy s' = ledBy s := by
  unfold ledBy
  rw [h]

theorem sameView_leader {cl cl' : Cluster} (h : SameView cl cl') (t : String) (p : Int) :
    leaderOf cl' t p = leaderOf cl t p :=
  h.unchanged.2.2 t p

/-- A step in which a consumer learns of no leader and forgets none, and asks for messages of a topic
only if it knows the leaders of all its partitions of it. -/
def Led (s : GroupFirst δ) (x : FirstGroupOut δ × GroupFirst δ) : Prop :=
  ledBy x.2 = ledBy s ∧ ∀ t p q, AsksAbout t q x.1 → p ∈ mine s t → ledBy s t p ≠ .none

theorem led_leave {s s' : GroupFirst δ} (i : Nat) (x : GroupOut δ × GroupBusy δ)
    (h1 : x.2.base.consumer.cluster = s.group.base.consumer.cluster)
    (h2 : ∀ reqs, x.1 ≠ .sent reqs) : Led s (s'.leave i x) := by
  refine ⟨ledBy_same h1, ?_⟩
  rintro t p q ⟨reqs, hr, _⟩
  simp only [GroupFirst.leave, FirstGroupOut.group.injEq] at hr
  exact absurd hr (h2 reqs)

theorem led_still {s s' : GroupFirst δ} {out : FirstGroupOut δ}
    (h1 : s'.group.base.consumer.cluster = s.group.base.consumer.cluster)
    (h2 : ∀ reqs, out ≠ .group (.sent reqs)) : Led s (out, s') := by
  refine ⟨ledBy_same h1, ?_⟩
  rintro t p q ⟨reqs, hr, _⟩
  exact absurd hr (h2 reqs)

theorem Led.via {s s' : GroupFirst δ} {x : FirstGroupOut δ × GroupFirst δ} (h : Led s' x)
    (hm : mine s' = mine s) (hl : ledBy s' = ledBy s) : Led s x :=
  ⟨h.1.trans hl, fun t p q ha hp => by rw [← hl]; exact h.2 t p q ha (by rw [hm]; exact hp)⟩

theorem led_fetch (cfg : CCfg β δ) (i : Nat) (topic : String) (ps : List Int) (s : GroupFirst δ)
    (h : mine s topic = ps) : Led s (s.fetch cfg i topic ps) := by
  unfold GroupFirst.fetch
  cases hf : s.group.base.consumer.fetches cfg topic ps with
  | mk res c =>
    obtain ⟨h0, _, _, _, _, h2, h3, _⟩ := fetches_spec cfg topic ps s.group.base.consumer c res hf
    have hl : ∀ t p, leaderOf c.cluster t p = leaderOf s.group.base.consumer.cluster t p :=
      sameView_leader h0
    cases res with
    | error e =>
      refine ⟨funext fun t => funext fun p => hl t p, ?_⟩
      rintro t p q ⟨reqs, hr, _⟩
      cases hr
    | ok reqs =>
      dsimp only
      split
      · refine ⟨funext fun t => funext fun p => hl t p, ?_⟩
        rintro t p q ⟨reqs, hr, _⟩
        cases hr
      · refine ⟨funext fun t => funext fun p => hl t p, ?_⟩
        rintro t p q ⟨reqs', hr, r, hq, he, _⟩ hp
        simp only [GroupFirst.leave, FirstGroupOut.group.injEq, GroupOut.sent.injEq] at hr
        subst hr
        have hx := h3 reqs rfl
        have := (hx.topics r hq).1
        rw [he] at this
        subst this
        rw [h] at hp
        obtain ⟨r, _, hr⟩ := hx.all p hp
        unfold ledBy
        rw [hr]
        simp

theorem led_proceed (cfg : CCfg β δ) (i : Nat) (topic : String) (s : GroupFirst δ) :
    Led s (s.proceed cfg i topic) := by
  unfold GroupFirst.proceed
  split
  · exact led_leave i _ rfl (by simp)
  · rename_i a ha
    split
    · rename_i ps hp
      exact led_fetch cfg i topic ps s (mine_allocated ha hp)
    · exact led_still rfl (by simp)

theorem led_want (cfg : CCfg β δ) (i : Nat) (topic : String) (ps : List Int) (s : GroupFirst δ) :
    Led s (s.want cfg i topic ps) := by
  unfold GroupFirst.want
  split
  · exact led_leave i _ rfl (by simp)
  · split
    · exact led_leave i _ rfl (by simp)
    · split
      · exact led_leave i _ rfl (by simp)
      · exact led_still rfl (by simp)

theorem ask_cluster (cfg : CCfg β δ) (k : Nat) (md : String) (result : Option (String × Option (List δ)))
    (g : GroupBusy δ) :
    (g.ask cfg k md result).2.base.consumer.cluster = g.base.consumer.cluster := by
  unfold GroupBusy.ask
  split
  · rfl
  · dsimp only
    split
    · rfl
    · split
      · rfl
      · split <;> rfl

theorem finish_cluster (gcfg : GCfg) (cfg : CCfg β δ) (i : Nat) (topic : String) (out : Option (List δ))
    (g : GroupBusy δ) :
    (g.finish gcfg cfg i topic out).2.base.consumer.cluster = g.base.consumer.cluster := by
  unfold GroupBusy.finish
  split
  · rfl
  · dsimp only
    split
    · exact ask_cluster _ _ _ _ _
    · rfl

theorem led_undetermined (gcfg : GCfg) (cfg : CCfg β δ) (i : Nat) (topic : String) (e : Exc)
    (s : GroupFirst δ) : Led s (s.undetermined gcfg cfg i topic e) := by
  unfold GroupFirst.undetermined
  split
  · exact led_leave i _ (finish_cluster _ _ _ _ _ _) (finish_not_sent _ _ _ _ _ _)
  · exact led_leave i _ rfl (by simp)

theorem base_cluster (cfg : CCfg β δ) (b : Busy GExt δ) (ev : BEv GExt β)
    (hc : ∀ i t, ev ≠ .consume i t) (ho : ∀ f, ev ≠ .other f) :
    (b.step Grouped.allocation cfg ev).2.consumer.cluster = b.consumer.cluster := by
  cases ev with
  | consume i t => exact absurd rfl (hc i t)
  | other f => exact absurd rfl (ho f)
  | outcome i broker r =>
    simp only [Busy.step]
    split
    · rfl
    · split
      · rfl
      · cases r with
        | error e => dsimp only; split <;> rfl
        | ok resp =>
          dsimp only
          cases hh : handleFetchResponse cfg resp b.consumer with
          | mk res c =>
            obtain ⟨_, _, _, h1, _⟩ := handleFetch_spec cfg resp b.consumer c res hh
            cases res <;> exact h1.cluster
  | finish i =>
    simp only [Busy.step]
    split
    · rfl
    · split <;> rfl
  | healFails i e =>
    simp only [Busy.step]
    split <;> rfl

theorem commit_cluster {r : CommitResp} {c c' : Grouped} {res : Res (Bool × Bool)}
    (h : handleCommitResponse r c = (res, c')) : c'.cluster = c.cluster := by
  obtain ⟨s, hh, g1, _⟩ := handleCommitTopics_any r.topics c (false, false)
  have h' : handleCommitTopics r.topics c (false, false) = (res, c') := h
  rw [h'] at g1
  simp only at g1
  rw [g1]

theorem group_cluster (gcfg : GCfg) (cfg : CCfg β δ) (g : GroupBusy δ) (ev : GroupEv β)
    (hc : ∀ i t, ev ≠ .base (.consume i t)) (ho : ∀ f, ev ≠ .base (.other f)) :
    (g.step gcfg cfg ev).2.base.consumer.cluster = g.base.consumer.cluster := by
  cases ev with
  | base bev =>
    have hb := base_cluster cfg g.base bev (fun i t e => hc i t (by rw [e])) (fun f e => ho f (by rw [e]))
    simp only [GroupBusy.step]
    cases hbs : g.base.step Grouped.allocation cfg bev with
    | mk out b =>
      rw [hbs] at hb
      cases out with
      | returned topic out => exact (finish_cluster _ _ _ _ _ _).trans hb
      | _ => exact hb
  | commit k md => exact ask_cluster _ _ _ _ _
  | answer k r =>
    simp only [GroupBusy.step]
    split
    · cases hh : handleCommitResponse r g.base.consumer with
      | mk res c =>
        have := commit_cluster hh
        cases res <;> exact this
    · rfl
  | fails k e =>
    simp only [GroupBusy.step]
    split
    · dsimp only; split <;> rfl
    · rfl
  | goOn k =>
    simp only [GroupBusy.step]
    split
    · split
      · exact ask_cluster _ _ _ _ _
      · split <;> rfl
    · rfl
    · rfl
  | healFails k e =>
    simp only [GroupBusy.step]
    split <;> rfl

/-- Whatever a consumer does, and whatever it is answered: it learns of no leader and forgets none,
and asks for messages of a topic only if it knows the leaders of all its partitions of it. -/
theorem led_step (gcfg : GCfg) (cfg : CCfg β δ) (s : GroupFirst δ) (ev : FirstGroupEv β)
    (ho : ∀ f, ev ≠ .group (.base (.other f))) : Led s (s.step gcfg cfg ev) := by
  cases ev with
  | call i topic =>
    simp only [GroupFirst.step]
    split
    · exact led_leave i _ (finish_cluster _ _ _ _ _ _) (finish_not_sent _ _ _ _ _ _)
    · split
      · exact led_proceed cfg i topic s
      · unfold GroupFirst.determine
        dsimp only
        split
        · exact led_leave i _ rfl (by simp)
        · rename_i a ha
          split
          · exact led_leave i _ rfl (by simp)
          · refine (led_want cfg i topic _ _).via ?_ rfl
            funext t
            simp only [mine, ha, getDefault_getD]
  | offsets i r =>
    simp only [GroupFirst.step]
    split
    · rename_i topic ps b hi
      cases hc : handleOffsetFetchResponse r s.group.base.consumer with
      | mk res c =>
        obtain ⟨h1, _, _, h2, _⟩ := offsetFetch_any _ _ _ _ hc
        cases res with
        | error e =>
          exact (led_undetermined gcfg cfg i topic e _).via (mine_same (congrArg GExt.mapping h1))
            (ledBy_same h2)
        | ok retry => exact led_still h2 (by simp)
    · exact led_still rfl (by simp)
  | offsetsFail i e =>
    simp only [GroupFirst.step]
    split
    · refine led_still ?_ (by simp)
      dsimp only
      split <;> rfl
    · exact led_still rfl (by simp)
  | goOn i =>
    simp only [GroupFirst.step]
    split
    · split
      · exact led_leave i _ rfl (by simp)
      · split
        · exact (led_want cfg i _ _ _).via (mine_same rfl) (ledBy_same rfl)
        · exact (led_proceed cfg i _ _).via (mine_same rfl) (ledBy_same rfl)
    · exact led_leave i _ rfl (by simp)
    · exact led_still rfl (by simp)
  | healed i =>
    simp only [GroupFirst.step]
    split
    · split
      · exact led_leave i _ rfl (by simp)
      · rename_i a ha
        split
        · rename_i ps hp
          exact led_fetch cfg i _ ps s (mine_allocated ha hp)
        · exact led_leave i _ (finish_cluster _ _ _ _ _ _) (finish_not_sent _ _ _ _ _ _)
    · exact led_still rfl (by simp)
  | healFails i e =>
    simp only [GroupFirst.step]
    split
    · exact led_still rfl (by simp)
    · exact led_undetermined gcfg cfg i _ e s
    · exact led_undetermined gcfg cfg i _ e s
    · exact led_leave i _ rfl (by simp)
    · exact led_still rfl (by simp)
  | group ev =>
    by_cases hc : ∃ j t, ev = .base (.consume j t)
    · obtain ⟨j, t, rfl⟩ := hc
      exact led_still rfl (by simp)
    · have hg := group_share (gcfg := gcfg) (cfg := cfg) (g := s.group) (ev := ev)
        (fun j t e => hc ⟨j, t, e⟩) (by
          unfold NoRebalance
          split
          · rename_i f hf
            exact absurd hf (ho f)
          · trivial)
      have he : s.step gcfg cfg (.group ev) =
          (.group (s.group.step gcfg cfg ev).1, { s with group := (s.group.step gcfg cfg ev).2 }) := by
        unfold GroupFirst.step
        split
        all_goals first
          | rfl
          | (rename_i h; cases h; exact absurd ⟨_, _, rfl⟩ hc)
          | (rename_i h; cases h; rfl)
          | (rename_i h; cases h)
      rw [he]
      refine led_still (group_cluster gcfg cfg s.group ev (fun j t e => hc ⟨j, t, e⟩)
        (fun f e => ho f (by rw [e]))) ?_
      intro reqs hr
      simp only [FirstGroupOut.group.injEq] at hr
      exact hg.2.2 reqs hr

/-! ### C137 -/

theorem allocatedBy_cluster (before after : Alloc) (s : GroupFirst δ) :
    (s.allocatedBy before after).group.base.consumer.cluster = s.group.base.consumer.cluster := by
  unfold GroupFirst.allocatedBy
  split <;> rfl

/-- The metadata of a consumer change only if it gets others. -/
theorem leaderless_step (ok : Bool) (gcfg : GCfg) (cfg : CCfg β δ) (s : Staff δ) (ev : StaffEv β) (i : Nat)
    (h : ¬ Learns i ev) : ledBy ((s.step ok gcfg cfg ev).2.client i) = ledBy (s.client i) := by
  cases ev with
  | group ev => exact ledBy_same (allocatedBy_cluster _ _ _)
  | heals j cl =>
    have hj : i ≠ j := fun e => h e.symm
    simp only [Staff.step, upd, if_neg hj]
  | connects j cl co =>
    have hj : i ≠ j := fun e => h e.symm
    refine ledBy_same ((allocatedBy_cluster _ _ _).trans ((allocatedBy_cluster _ _ _).trans ?_))
    simp only [upd, if_neg hj]
  | client j ev =>
    rcases client_step ok gcfg cfg s j ev with he | ⟨ho, he⟩
    · rw [he]
    · rw [he]
      simp only [upd]
      split
      · next hij => subst hij; exact (led_step gcfg cfg (s.client i) ev ho).1
      · rfl

theorem leaderless_run (ok : Bool) (gcfg : GCfg) (cfg : CCfg β δ) (i : Nat) :
    ∀ (evs : List (StaffEv β)) (s : Staff δ), (∀ ev ∈ evs, ¬ Learns i ev) →
    ledBy ((s.run ok gcfg cfg evs).2.client i) = ledBy (s.client i)
  | [], _, _ => rfl
  | ev :: evs, s, h => (leaderless_run ok gcfg cfg i evs _ fun e he => h e (List.mem_cons_of_mem _ he)).trans
      (leaderless_step ok gcfg cfg s ev i (h ev (List.mem_cons_self ..)))

/-- **C137**, what happens instead: as long as a consumer gets no other metadata, and takes for its own
a partition whose leader these do not name, it asks for no messages of the topic, not even of the
other partitions, whatever else happens. -/
theorem C137_never (ok : Bool) (gcfg : GCfg) (cfg : CCfg β δ) (s : Staff δ) (i : Nat) (t : String) (p : Int)
    (hp : Leaderless s i t p) (before : List (StaffEv β)) (ev : StaffEv β)
    (h : ∀ e ∈ before, ¬ Learns i e) (s' : Staff δ) (hs' : s' = (s.run ok gcfg cfg before).2)
    (ho : p ∈ own s' i t) (out : FirstGroupOut δ)
    (hx : (s'.step ok gcfg cfg ev).1 = some (i, out)) : ∀ q, ¬ AsksAbout t q out := by
  intro q hq
  have hl : ledBy (s'.client i) t p = .none := by
    rw [hs', leaderless_run ok gcfg cfg i before s h]
    exact hp
  cases ev with
  | client j ev =>
    rcases client_step ok gcfg cfg s' j ev with he | ⟨hne, he⟩
    · rw [he] at hx; cases hx
    · rw [he] at hx
      simp only [Option.some.injEq, Prod.mk.injEq] at hx
      obtain ⟨rfl, rfl⟩ := hx
      exact (led_step gcfg cfg (s'.client j) ev hne).2 t p q hq ho hl
  | _ => cases hx

/-- What holds of a consumer that is stuck. -/
structure Stuck (i : Nat) (t : String) (p : Int) (s : Staff δ) : Prop where
  own : p ∈ own s i t
  leaderless : Leaderless s i t p
  idle : Idle s i
  synced : t ∈ (s.client i).group.base.consumer.synced
  running : (s.client i).group.base.consumer.closing = false

theorem Stuck.same {i : Nat} {t : String} {p : Int} {s s' : Staff δ} (h : Stuck i t p s)
    (hs : s'.client i = s.client i) : Stuck i t p s' := by
  obtain ⟨h1, h2, h3, h4, h5⟩ := h
  unfold Spec.own at h1
  unfold Leaderless at h2
  unfold Idle at h3
  constructor
  · unfold Spec.own; rw [hs]; exact h1
  · unfold Leaderless; rw [hs]; exact h2
  · unfold Idle; rw [hs]; exact h3
  · rw [hs]; exact h4
  · rw [hs]; exact h5

theorem stuck_call {i : Nat} {t : String} {p : Int} {s : Staff δ} (h : Stuck i t p s) (ok : Bool)
    (gcfg : GCfg) (cfg : CCfg β δ) (k : Nat) :
    (s.step ok gcfg cfg (.client i (.call k t))).1 = some (i, .group (.raised .keyError)) ∧
    Stuck i t p (s.step ok gcfg cfg (.client i (.call k t))).2 := by
  have he : s.step ok gcfg cfg (.client i (.call k t)) = (some (i, ((s.client i).step gcfg cfg (.call k t)).1),
      { s with client := upd s.client i ((s.client i).step gcfg cfg (.call k t)).2 }) := rfl
  have ho := h.own
  obtain ⟨a, ha, hal⟩ : ∃ a, (s.client i).group.base.consumer.ext.mapping = some a ∧
      allocated a t = some (own s i t) := by
    unfold Spec.own at ho ⊢
    cases hm : (s.client i).group.base.consumer.ext.mapping with
    | none => rw [hm] at ho; cases ho
    | some a =>
      rw [hm] at ho
      refine ⟨a, rfl, allocated_some.2 ⟨?_, List.ne_nil_of_mem ho⟩⟩
      cases hg : a.get? t with
      | none => simp [hg] at ho
      | some ps => simp [hg]
  have hall : Grouped.allocation (s.client i).group.base.consumer = .ok a := by
    unfold Grouped.allocation; rw [ha]
  have hst : (s.client i).step gcfg cfg (.call k t) = (s.client i).fetch cfg k t (own s i t) := by
    simp only [GroupFirst.step, h.running, Bool.false_eq_true, if_false, h.synced, if_true,
      GroupFirst.proceed, hall, hal]
  rw [he, hst]
  unfold GroupFirst.fetch
  cases hf : (s.client i).group.base.consumer.fetches cfg t (own s i t) with
  | mk res c =>
    obtain ⟨h1, _, h2, h3, h4, h5, h6, _, h7⟩ := fetches_spec cfg t _ _ c res hf
    cases res with
    | ok reqs =>
      obtain ⟨r, _, hr⟩ := (h6 reqs rfl).all p h.own
      have := h.leaderless
      unfold Leaderless at this
      rw [this] at hr
      cases hr
    | error e =>
      cases h7 e rfl
      refine ⟨rfl, ?_⟩
      obtain ⟨i1, i2, i3, i4⟩ := h.idle
      have hc : upd s.client i ((s.client i).leave k (.raised .keyError,
          { (s.client i).group with base := { (s.client i).group.base with consumer := c } })).2 i =
          ⟨⟨⟨c, (s.client i).group.base.waiting⟩, (s.client i).group.commits⟩, (s.client i).starting.erase k⟩ := by
        simp [upd, GroupFirst.leave]
      constructor
      · show p ∈ mine _ t
        rw [mine_same (s := s.client i)]
        · exact h.own
        · show (upd s.client i _ i).group.base.consumer.ext.mapping = _
          rw [hc]
          exact congrArg GExt.mapping h5
      · show leaderOf (upd s.client i _ i).group.base.consumer.cluster t p = .none
        rw [hc]
        exact (sameView_leader h1 t p).trans h.leaderless
      · show (upd s.client i _ i).starting = [] ∧ (upd s.client i _ i).group.base.waiting = [] ∧
          (upd s.client i _ i).group.commits = [] ∧ (upd s.client i _ i).group.base.consumer.heal = false
        rw [hc]
        refine ⟨?_, i2, i3, h3.trans i4⟩
        rw [i1]
        rfl
      · show t ∈ (upd s.client i _ i).group.base.consumer.synced
        rw [hc]
        exact h2 ▸ h.synced
      · show (upd s.client i _ i).group.base.consumer.closing = false
        rw [hc]
        exact h4.trans h.running

theorem untold_client {s : Staff δ} {i : Nat} (ok : Bool) {ev : GEv}
    (h : ((s.group.step ok ev).mate i).alloc = (s.group.mate i).alloc) :
    (s.inZk ok ev).client i = s.client i := by
  simp only [Staff.inZk, h, GroupFirst.allocatedBy, if_true]

theorem untold_alloc (ok : Bool) (g : Group) (ev : GEv) (i : Nat) (h1 : ev ≠ .seesMembers i)
    (h2 : ev ≠ .seesItems i) : ((g.step ok ev).mate i).alloc = (g.mate i).alloc := by
  cases ev with
  | state j st =>
    simp only [Group.step, upd]
    split
    · next h => subst h; unfold Mate.connectionChange; split <;> [rfl; split <;> rfl]
    · rfl
  | session j s =>
    simp only [Group.step, upd]
    split <;> [(next h => subst h; rfl); rfl]
  | expire s => rfl
  | join j => rfl
  | leave j => rfl
  | add j d => simp only [Group.step]; split <;> rfl
  | remove j d => simp only [Group.step]; split <;> rfl
  | seesMembers j =>
    have : i ≠ j := fun e => h1 (by rw [e])
    simp only [Group.step, Group.tell, upd, if_neg this]
  | seesItems j =>
    have : i ≠ j := fun e => h2 (by rw [e])
    simp only [Group.step, Group.tell, upd, if_neg this]

theorem stuck_step {i : Nat} {t : String} {p : Int} {s : Staff δ} (h : Stuck i t p s) (ok : Bool)
    (gcfg : GCfg) (cfg : CCfg β δ) (ev : StaffEv β) (ho : OnlyCalls i t ev) :
    Stuck i t p (s.step ok gcfg cfg ev).2 ∧
    ∀ out, (s.step ok gcfg cfg ev).1 = some (i, out) → out = .group (.raised .keyError) := by
  cases ev with
  | group ev =>
    refine ⟨h.same (untold_client ok (untold_alloc ok s.group ev i ?_ ?_)), by simp [Staff.step]⟩
    · rintro rfl; exact ho rfl
    · rintro rfl; exact ho rfl
  | heals j cl =>
    have hj : i ≠ j := fun e => ho e.symm
    exact ⟨h.same (by simp only [Staff.step, upd, if_neg hj]), by simp [Staff.step]⟩
  | connects j cl co =>
    have hj : i ≠ j := fun e => ho e.symm
    refine ⟨h.same ?_, by simp [Staff.step]⟩
    refine (untold_client ok (untold_alloc ok _ _ i (by simp) (by simp))).trans
      ((untold_client ok (untold_alloc ok _ _ i (by simp) (by simp))).trans ?_)
    simp only [upd, if_neg hj]
  | client j ev =>
    by_cases hj : j = i
    · subst hj
      obtain ⟨k, rfl⟩ := ho rfl
      obtain ⟨h1, h2⟩ := stuck_call h ok gcfg cfg k
      refine ⟨h2, fun out hx => ?_⟩
      rw [h1] at hx
      simp only [Option.some.injEq, Prod.mk.injEq, true_and] at hx
      exact hx.symm
    · rcases client_step ok gcfg cfg s j ev with he | ⟨_, he⟩
      · rw [he]; exact ⟨h, by simp⟩
      · rw [he]
        refine ⟨h.same (by simp only [upd, if_neg (Ne.symm hj)]), ?_⟩
        intro out hx
        simp only [Option.some.injEq, Prod.mk.injEq] at hx
        exact absurd hx.1 hj

theorem stuck_run {i : Nat} {t : String} {p : Int} (ok : Bool) (gcfg : GCfg) (cfg : CCfg β δ) :
    ∀ (evs : List (StaffEv β)) (s : Staff δ), Stuck i t p s → (∀ ev ∈ evs, OnlyCalls i t ev) →
    Stuck i t p (s.run ok gcfg cfg evs).2 ∧
    ∀ out, (i, out) ∈ (s.run ok gcfg cfg evs).1 → out = .group (.raised .keyError)
  | [], _, h, _ => ⟨h, fun _ hx => absurd hx List.not_mem_nil⟩
  | ev :: evs, s, h, ho => by
    obtain ⟨h1, h2⟩ := stuck_step h ok gcfg cfg ev (ho ev (List.mem_cons_self ..))
    obtain ⟨h3, h4⟩ := stuck_run ok gcfg cfg evs _ h1 fun e he => ho e (List.mem_cons_of_mem _ he)
    refine ⟨h3, fun out hx => ?_⟩
    rcases List.mem_append.1 hx with hx | hx
    · exact h2 out (Option.mem_toList.1 hx)
    · exact h4 out hx

/-- **C137**, what happens instead: however often such a consumer calls `consume`, and whatever the
others do, each of these calls raises `KeyError`; none heals, or leaves a healing to be done. -/
theorem C137_raises (ok : Bool) (gcfg : GCfg) (cfg : CCfg β δ) (s : Staff δ) (i : Nat) (t : String) (p : Int)
    (hp : p ∈ own s i t) (hl : Leaderless s i t p) (hi : Idle s i)
    (hs : t ∈ (s.client i).group.base.consumer.synced)
    (hc : (s.client i).group.base.consumer.closing = false)
    (evs : List (StaffEv β)) (h : ∀ ev ∈ evs, OnlyCalls i t ev) :
    (∀ out, (i, out) ∈ (s.run ok gcfg cfg evs).1 → out = .group (.raised .keyError)) ∧
    Idle (s.run ok gcfg cfg evs).2 i ∧ Leaderless (s.run ok gcfg cfg evs).2 i t p := by
  obtain ⟨h1, h2⟩ := stuck_run ok gcfg cfg evs s ⟨hp, hl, hi, hs, hc⟩ h
  exact ⟨h2, h1.idle, h1.leaderless⟩

/-- **C137**, even a weak form of it: if a consumer takes for its own a partition whose leader its
metadata do not name, there is a way in which it calls `consume` that has it ask for metadata. -/
def LooksAgain (β δ : Type) : Prop :=
  ∀ (ok : Bool) (gcfg : GCfg) (cfg : CCfg β δ) (name : Nat → String) (sess : Nat → Int)
    (evs : List (StaffEv β)) (i : Nat) (t : String) (p : Int) (s : Staff δ),
    s = ((Staff.new name sess).run ok gcfg cfg evs).2 → p ∈ own s i t → Leaderless s i t p → Idle s i →
    t ∈ (s.client i).group.base.consumer.synced → (s.client i).group.base.consumer.closing = false →
    ∃ more : List (StaffEv β), (∀ ev ∈ more, OnlyCalls i t ev) ∧
      ((i, .healing) ∈ (s.run ok gcfg cfg more).1 ∨ ¬ Idle (s.run ok gcfg cfg more).2 i)

/-- **C137**, once the metadata have been had afresh, whatever asked for that: if they name the leaders
of all the partitions the consumer takes for its own, and these are connected and can be written to,
the next `consume` asks for all of them.  Missing from the full claim: that the `consume` that does not
know a leader has the metadata asked for. -/
theorem C137_healed_partial (ok : Bool) (gcfg : GCfg) (cfg : CCfg β δ) (s : Staff δ) (i k : Nat) (t : String)
    (p : Int) (hp : p ∈ own s i t) (cl : Cluster)
    (hcl : (s.client i).group.base.consumer.closing = false)
    (hs : t ∈ (s.client i).group.base.consumer.synced)
    (hl : ∀ q ∈ own s i t, ∃ l, leaderOf cl t q = some l ∧ cl.conns.has l = true ∧
      cfg.write k "fetch" l = .none) :
    ∃ out, ((s.step ok gcfg cfg (.heals i cl)).2.step ok gcfg cfg (.client i (.call k t))).1 = some (i, out) ∧
      ∀ q ∈ own s i t, AsksAbout t q out := by
  have hx : ((s.step ok gcfg cfg (.heals i cl)).2.client i) = (s.client i).informed cl := by
    simp [Staff.step, upd]
  have ho : own (s.step ok gcfg cfg (.heals i cl)).2 i t = own s i t := by
    unfold own
    rw [hx]
    rfl
  have := C136_asks_partial ok gcfg cfg (s.step ok gcfg cfg (.heals i cl)).2 i k t p (by rw [ho]; exact hp)
    ((s.client i).informed cl).group.base.consumer (by rw [hx]) hcl hs (by rw [ho]; exact hl)
  rw [ho] at this
  exact this

/-- **C137**, a way out: a `consume` of a topic of which the consumer has no partitions does heal. -/
theorem C137_elsewhere (ok : Bool) (gcfg : GCfg) (cfg : CCfg β δ) (s : Staff δ) (i k : Nat) (t : String)
    (hm : (s.client i).group.base.consumer.ext.mapping ≠ .none) (ho : own s i t = [])
    (hs : t ∈ (s.client i).group.base.consumer.synced)
    (hc : (s.client i).group.base.consumer.closing = false) :
    (s.step ok gcfg cfg (.client i (.call k t))).1 = some (i, .healing) := by
  have he : (s.step ok gcfg cfg (.client i (.call k t))).1 =
      some (i, ((s.client i).step gcfg cfg (.call k t)).1) := rfl
  rw [he]
  cases ha : (s.client i).group.base.consumer.ext.mapping with
  | none => exact absurd ha hm
  | some a =>
    have hall : Grouped.allocation (s.client i).group.base.consumer = .ok a := by
      unfold Grouped.allocation; rw [ha]
    have hal : allocated a t = .none := by
      unfold own at ho
      rw [ha] at ho
      cases hn : allocated a t with
      | none => rfl
      | some ps =>
        obtain ⟨h1, h2⟩ := allocated_some.1 hn
        simp only [h1, Option.getD_some] at ho
        exact absurd ho h2
    simp only [GroupFirst.step, hc, Bool.false_eq_true, if_false, hs, if_true, GroupFirst.proceed, hall, hal]

/-! ### C138 -/

theorem items_stay (ok : Bool) (g : Group) (ev : GEv) (h : ∀ i d, ev ≠ .remove i d) (x : String)
    (hx : x ∈ g.items) : x ∈ (g.step ok ev).items := by
  cases ev with
  | add j d =>
    simp only [Group.step]
    split
    · cases ok with
      | true =>
        obtain ⟨new, w, h4, h5⟩ := C61_add_partial d g.items
        rw [h4]
        have : x ∈ elements new := by rw [h5]; exact .inl hx
        exact this
      | false =>
        unfold addPartitions
        rw [C57_python3]
        split <;> exact hx
    · exact hx
  | remove j d => exact absurd rfl (h j d)
  | _ => exact hx

theorem items_stay_run (ok : Bool) : ∀ (evs : List GEv) (g : Group), (∀ i d, GEv.remove i d ∉ evs) →
    ∀ x ∈ g.items, x ∈ (g.run ok evs).items
  | [], _, _, _, hx => hx
  | ev :: evs, g, h, x, hx => items_stay_run ok evs (g.step ok ev)
      (fun i d hm => h i d (List.mem_cons_of_mem _ hm)) x
      (items_stay ok g ev (fun i d e => h i d (by rw [e]; exact List.mem_cons_self ..)) x hx)

/-- **C138**, what happens instead: a partition that is among the group's stays among them for as
long as the application does not take it out, whatever metadata the consumers get; and whenever all
consumers in the group have been told who and what there is, one of them takes it for its own. -/
theorem C138_stays (ok : Bool) (gcfg : GCfg) (cfg : CCfg β δ) (name : Nat → String) (sess : Nat → Int)
    (hname : ∀ i j, name i = name j → i = j) (before between after : List (StaffEv β))
    (t : String) (p : Int) (ht : PlainName t)
    (hplain : PlainAdds ((before ++ between).flatMap inZookeeper))
    (hin : InGroup ((Staff.new name sess : Staff δ).run ok gcfg cfg before).2.group t p)
    (hno : ∀ ev ∈ between, ¬ TakesOut ev) (hafter : OnlyTold (after.flatMap inZookeeper))
    (s : Staff δ) (hs : s = ((Staff.new name sess).run ok gcfg cfg (before ++ between ++ after)).2)
    (hall : ∀ i, Joined s.group i → StaffEv.group (.seesMembers i) ∈ after ∧
      StaffEv.group (.seesItems i) ∈ after)
    (hsome : ∃ i, Joined s.group i) :
    InGroup s.group t p ∧ ∃ i, Joined s.group i ∧ p ∈ own s i t ∧
      ∀ k, Joined s.group k → p ∈ own s k t → k = i := by
  have hag : Agrees s := by rw [hs]; exact agrees_run ok gcfg cfg _ _ (agrees_new name sess)
  let B := (before ++ between).flatMap (inZookeeper (β := β))
  have h1 : s.group = ((Group.new name sess).run ok B).run ok (after.flatMap inZookeeper) := by
    rw [hs, run_group, List.flatMap_append, grun_append]
    rfl
  have hB : InGroup ((Group.new name sess).run ok B) t p := by
    unfold InGroup at hin ⊢
    rw [run_group] at hin
    show item (t, p) ∈ ((Group.new name sess).run ok ((before ++ between).flatMap inZookeeper)).items
    rw [List.flatMap_append, grun_append]
    refine items_stay_run ok _ _ ?_ _ hin
    intro i d hm
    obtain ⟨ev, he, hev⟩ := List.mem_flatMap.1 hm
    cases ev with
    | group ev =>
      simp only [inZookeeper, List.mem_singleton] at hev
      subst hev
      exact hno _ he trivial
    | connects j cl co => simp [inZookeeper] at hev
    | client j ev => cases hev
    | heals j cl => cases hev
  have hj : ∀ i, Joined s.group i ↔ Joined ((Group.new name sess).run ok B) i := by
    intro i
    unfold Joined
    rw [h1, run_name, (onlyTold_run ok _ hafter _).1]
  refine ⟨?_, ?_⟩
  · unfold InGroup
    rw [h1, (onlyTold_run ok _ hafter _).2]
    exact hB
  · obtain ⟨j, hjo⟩ := hsome
    obtain ⟨i, h4, h5, h6⟩ := C82_settles ok name sess hname B (after.flatMap inZookeeper) hplain hafter
      _ s.group rfl h1 (fun i hi => by
        obtain ⟨k1, k2⟩ := hall i ((hj i).2 hi)
        exact ⟨List.mem_flatMap.2 ⟨_, k1, List.mem_singleton.2 rfl⟩,
          List.mem_flatMap.2 ⟨_, k2, List.mem_singleton.2 rfl⟩⟩) ⟨j, (hj j).1 hjo⟩ t p ht hB
    exact ⟨i, (hj i).2 h4, (own_consumes hag i t p).2 h5, fun k hk hp =>
      h6 k ((hj k).1 hk) ((own_consumes hag k t p).1 hp)⟩

/-- **C138**, if the application takes the partition out of the group's, naming it by text (on
Python 2): once all consumers in the group have been told, none takes it for its own.  Missing from
the full claim: that this happens without the application, once the metadata do not list the
partition. -/
theorem C138_taken_out_partial (gcfg : GCfg) (cfg : CCfg β δ) (name : Nat → String) (sess : Nat → Int)
    (hname : ∀ i j, name i = name j → i = j) (before after : List (StaffEv β)) (j : Nat)
    (t : String) (p : Int) (hplain : PlainAdds (before.flatMap inZookeeper))
    (s s' : Staff δ) (hs : s = ((Staff.new name sess).run true gcfg cfg before).2)
    (hconn : (s.group.mate j).connected = true)
    (hs' : s' = ((Staff.new name sess).run true gcfg cfg
      (before ++ .group (.remove j [(t, .str (toString p))]) :: after)).2)
    (ht : PlainName t) (hafter : OnlyTold (after.flatMap inZookeeper))
    (hall : ∀ i, Joined s'.group i → StaffEv.group (.seesMembers i) ∈ after ∧
      StaffEv.group (.seesItems i) ∈ after) :
    ¬ InGroup s'.group t p ∧ ∀ i, Joined s'.group i → p ∉ own s' i t := by
  have hag : Agrees s' := by rw [hs']; exact agrees_run true gcfg cfg _ _ (agrees_new name sess)
  let B := before.flatMap (inZookeeper (β := β)) ++ [.remove j [(t, .str (toString p))]]
  have h0 : s.group = (Group.new name sess).run true (before.flatMap inZookeeper) := by
    rw [hs, run_group]; rfl
  have h1 : s'.group = (Group.new name sess).run true (B ++ after.flatMap inZookeeper) := by
    rw [hs', run_group]
    simp [B, inZookeeper, Staff.new]
  have h2 : (Group.new name sess).run true B = s.group.step true (.remove j [(t, .str (toString p))]) := by
    show (Group.new name sess).run true (_ ++ _) = _
    rw [grun_append, ← h0]
    rfl
  have hout : ¬ InGroup s'.group t p := by
    unfold InGroup
    rw [h1, grun_append, (onlyTold_run true _ hafter _).2, h2]
    obtain ⟨new, w, h4, h5⟩ := C61_remove_text_partial [(t, toString p)] s.group.items
    simp only [List.map_cons, List.map_nil] at h4
    simp only [Group.step, if_pos hconn, h4]
    intro hm
    have hm' : item (t, p) ∈ elements new := hm
    rw [h5] at hm'
    exact hm'.2 ⟨t, toString p, by simp, rfl⟩
  refine ⟨hout, fun i hi hp => hout ?_⟩
  have hplain' : PlainAdds (B ++ after.flatMap inZookeeper) := by
    intro i d hm
    rcases List.mem_append.1 hm with hm | hm
    · rcases List.mem_append.1 hm with hm | hm
      · exact hplain i d hm
      · cases List.mem_singleton.1 hm
    · obtain ⟨j, hj⟩ := hafter _ hm
      rcases hj with hj | hj <;> cases hj
  have := C82_settled true name sess hname _ hplain' s'.group h1
    (fun i hi => onlyTold_upToDate true i B _ hafter
      (List.mem_flatMap.2 ⟨_, (hall i hi).1, List.mem_singleton.2 rfl⟩)
      (List.mem_flatMap.2 ⟨_, (hall i hi).2, List.mem_singleton.2 rfl⟩) _) ⟨i, hi⟩ t p
  exact (this.1 ht).2 ⟨i, hi, (own_consumes hag i t p).1 hp⟩

/-- **C138**, even a weak form of it: once the metadata of no consumer in the group list a partition,
there is a way in which, without the application taking it out, all consumers in the group are told
who and what there is, and none takes the partition for its own. -/
def GivenUp (β δ : Type) : Prop :=
  ∀ (ok : Bool) (gcfg : GCfg) (cfg : CCfg β δ) (name : Nat → String) (sess : Nat → Int)
    (evs : List (StaffEv β)) (t : String) (p : Int) (s : Staff δ),
    (∀ i j, name i = name j → i = j) → PlainName t → PlainAdds (evs.flatMap inZookeeper) →
    s = ((Staff.new name sess).run ok gcfg cfg evs).2 → (∃ i, Joined s.group i) →
    (∀ i, Joined s.group i → ¬ Lists (s.client i).group.base.consumer.cluster.topics t p) →
    ∃ (more after : List (StaffEv β)) (s' : Staff δ),
      s' = ((Staff.new name sess).run ok gcfg cfg (evs ++ more ++ after)).2 ∧
      (∀ ev ∈ more, ¬ TakesOut ev) ∧ PlainAdds (more.flatMap inZookeeper) ∧
      OnlyTold (after.flatMap inZookeeper) ∧
      (∀ i, Joined s'.group i → StaffEv.group (.seesMembers i) ∈ after ∧ StaffEv.group (.seesItems i) ∈ after) ∧
      (∃ i, Joined s'.group i) ∧ ∀ i, Joined s'.group i → p ∉ own s' i t

/-! ### Not vacuous, and false -/

/-- The metadata once topic t has three partitions. -/
def exGrown : Cluster := ⟨[(7, ⟨"h", 9092, false⟩)], [("t", [0, 1, 2])], [("t", [(0, 7), (1, 7), (2, 7)])]⟩

/-- Consumer 1 has connected when topic t had one partition; consumer 2 connects when it has three; all
are told; consumer 1, which now has partitions 0 and 2, consumes t. -/
def exBehind : List (StaffEv Nat) :=
  exHired ++ [.group (.state 2 .connected), .connects 2 exGrown (some 7)] ++ exAllTold ++
    [.client 1 (.call 0 "t"), .client 1 (.offsets 0 ⟨[("t", [⟨0, 5, 0⟩, ⟨2, 8, 0⟩])]⟩), .client 1 (.goOn 0)]

/-- The group then. -/
def exOutdated : Staff Nat := ((Staff.new exNames (fun i => 10 + i)).run true exManual exCCfg exBehind).2

theorem exOutdated_is : own exOutdated 1 "t" = [0, 2] ∧ Leaderless exOutdated 1 "t" 2 ∧ Idle exOutdated 1 ∧
    "t" ∈ (exOutdated.client 1).group.base.consumer.synced ∧
    (exOutdated.client 1).group.base.consumer.closing = false := by
  unfold Leaderless Idle
  decide +kernel

/-- **C137** is false: each `consume` of consumer 1 raises, and none asks for metadata. -/
theorem C137_false : ¬ LooksAgain Nat Nat := by
  intro h
  obtain ⟨h1, h2, h3, h4, h5⟩ := exOutdated_is
  have h1' : (2 : Int) ∈ own exOutdated 1 "t" := by rw [h1]; decide
  obtain ⟨more, hm, hx⟩ := h true exManual exCCfg exNames (fun i => 10 + i) exBehind 1 "t" 2 exOutdated rfl
    h1' h2 h3 h4 h5
  obtain ⟨k1, k2, _⟩ := C137_raises true exManual exCCfg exOutdated 1 "t" 2 h1' h2 h3 h4 h5 more hm
  rcases hx with hx | hx
  · cases k1 _ hx
  · exact hx k2

-- `C137_never`, `C137_raises`: what is seen of consumer 1 when it calls `consume` twice, consumer 2
-- consuming meanwhile.
example : (exOutdated.run true exManual exCCfg
    [.client 1 (.call 0 "t"), .client 2 (.call 0 "t"), .client 2 (.offsets 0 ⟨[("t", [⟨1, 3, 0⟩])]⟩),
      .client 2 (.goOn 0), .client 1 (.call 1 "t")]).1 =
    [(1, .group (.raised .keyError)), (2, .wanted 7 "t" [1]), (2, .group .nothing),
      (2, .group (.sent [⟨7, 1000, 1, "t", [⟨1, 3, 100⟩]⟩])), (1, .group (.raised .keyError))] := by
  decide +kernel

-- `C137_healed_partial`: once it has the metadata.
example : ((exOutdated.step true exManual exCCfg (.heals 1 exGrown)).2.step true exManual exCCfg
    (.client 1 (.call 0 "t"))).1 =
    some (1, .group (.sent [⟨7, 1000, 1, "t", [⟨0, 5, 50⟩, ⟨2, 8, 50⟩]⟩])) := by
  decide +kernel

-- `C137_elsewhere`: it heals when it consumes a topic it has no partitions of, having been told (as
-- the coordinator does) that there are none.
example (s : Staff Nat) (hs : s = (exOutdated.run true exManual exCCfg
    [.client 1 (.call 0 "u"), .client 1 (.offsets 0 ⟨[("u", [])]⟩), .client 1 (.goOn 0)]).2) :
    own s 1 "u" = [] ∧ "u" ∈ (s.client 1).group.base.consumer.synced ∧
    (s.step true exManual exCCfg (.client 1 (.call 1 "u"))).1 = some (1, .healing) := by
  subst hs
  decide +kernel

/-- The metadata once topic t has been deleted. -/
def exDeleted : Cluster := ⟨[(7, ⟨"h", 9092, false⟩)], [], []⟩

/-- Consumer 1 connects, is told that it is alone, and gets metadata without topic t. -/
def exGone : List (StaffEv Nat) := exHired ++ [.heals 1 exDeleted]

theorem exGone_plain : PlainAdds (exGone.flatMap inZookeeper) := by
  simp [PlainAdds, exGone, exHired, inZookeeper, exCCluster]
  decide

theorem exGone_joined (i : Nat) (h : Joined ((Staff.new exNames (fun i => 10 + i) : Staff Nat).run true exManual
    exCCfg exGone).2.group i) : i = 1 := by
  unfold Joined at h
  rw [run_group, run_name] at h
  have hn : ((Group.new exNames (fun i => 10 + i)).run true
      (exGone.flatMap inZookeeper)).zk.nodes = [("a", 11)] := by decide +kernel
  have hn' : ((Staff.new exNames (fun i => 10 + i) : Staff Nat).group.run true
      (exGone.flatMap inZookeeper)).zk.nodes = [("a", 11)] := hn
  rw [hn'] at h
  have hi : ((Staff.new exNames (fun i => 10 + i) : Staff Nat).group.mate i).alloc.name = exNames i := rfl
  rw [hi] at h
  simp only [Dict.get?] at h
  split at h
  · rename_i he
    exact exNames_inj i 1 ((by simpa using he : "a" = exNames i).symm)
  · simp at h

/-- **C138** is false: consumer 1 keeps a partition of the topic that was deleted. -/
theorem C138_false : ¬ GivenUp Nat Nat := by
  intro h
  obtain ⟨more, after, s', hs', h1, h2, h3, h4, h5, h6⟩ := h true exManual exCCfg exNames (fun i => 10 + i)
    exGone "t" 0 _ exNames_inj (by decide) exGone_plain rfl ⟨1, by unfold Joined; decide +kernel⟩
    (fun i hi => by
      rw [exGone_joined i hi]
      rintro ⟨ids, hm, _⟩
      have : (((Staff.new exNames (fun i => 10 + i) : Staff Nat).run true exManual
        exCCfg exGone).2.client 1).group.base.consumer.cluster.topics = [] := by decide +kernel
      rw [this] at hm
      cases hm)
  obtain ⟨_, i, k1, k2, _⟩ := C138_stays true exManual exCCfg exNames (fun i => 10 + i) exNames_inj exGone more
    after "t" 0 (by decide) (by
      intro i d hm
      rw [List.flatMap_append] at hm
      rcases List.mem_append.1 hm with hm | hm
      · exact exGone_plain i d hm
      · exact h2 i d hm) (by unfold InGroup; decide +kernel) h1 h3 s' hs' h4 h5
  exact h6 i k1 k2

-- `C138_stays`, with `C137_raises`: it still asks for the offset, and raises.
example : ((Staff.new exNames (fun i => 10 + i)).run true exManual exCCfg (exGone ++
    [.group (.seesMembers 1), .group (.seesItems 1), .client 1 (.call 0 "t"),
      .client 1 (.offsets 0 ⟨[("t", [⟨0, 5, 0⟩])]⟩), .client 1 (.goOn 0)])).1 =
    [(1, .wanted 7 "t" [0]), (1, .group .nothing), (1, .group (.raised .keyError))] := by
  decide +kernel

-- `C138_taken_out_partial`: the application takes it out, and consumer 1 has nothing.
example (s s' : Staff Nat)
    (hs : s = ((Staff.new exNames (fun i => 10 + i)).run true exManual exCCfg exGone).2)
    (hs' : s' = ((Staff.new exNames (fun i => 10 + i)).run true exManual exCCfg
      (exGone ++ .group (.remove 1 [("t", .str (toString (0 : Int)))]) :: [.group (.seesMembers 1), .group (.seesItems 1)])).2) :
    (s.group.mate 1).connected = true ∧ own s 1 "t" = [0] ∧ own s' 1 "t" = [] ∧ Joined s'.group 1 := by
  subst hs hs'
  unfold Joined
  decide +kernel

end Kiel
