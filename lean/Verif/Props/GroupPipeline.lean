import Verif.Spec.GroupPipeline
import Verif.Props.Settled
/-
C101: what is produced is consumed by a group, once.
-/
set_option autoImplicit false
namespace Kiel
open Spec

variable {α κ β γ δ : Type}

/-! ### A group that is supplied gets somewhere -/

/-- A `consume` that fetches. -/
theorem consume_fetching {ε : Type} {allocation : Consumer ε → Res (Dict String (List Int))}
    {determine : Consumer ε → Res Unit × Consumer ε} {cfg : CCfg β δ} {env : ConsumeEnv ε β}
    {topic : String} {c cb : Consumer ε} {r : Res (Option (List δ))} {acts : List CAct}
    (h : c.consume allocation determine cfg env topic = (r, cb, acts)) {reqs : List FReq}
    (hr : CAct.fetch reqs ∈ acts) :
    ∃ c0, ((topic ∈ c.synced ∧ c0 = c) ∨ (∃ c1, topic ∉ c.synced ∧ determine c = (.ok (), c1) ∧
        c0 = { env.tick 0 c1 with synced := addSet (env.tick 0 c1).synced topic })) ∧
      ∃ ca parts acts', (ca = c0 ∨ ∃ cl, ca = env.tick 1 { c0 with cluster := cl }) ∧
        Consumer.fetch cfg env topic parts ca = (r, cb, acts') ∧ CAct.fetch reqs ∈ acts' ∧
        ∃ al, allocation ca = .ok al ∧ allocated al topic = some parts := by
  have hsync : ∀ (c0 cb : Consumer ε) (r : Res (Option (List δ))) acts,
      c0.consumeSynced allocation cfg env topic = (r, cb, acts) → CAct.fetch reqs ∈ acts →
       ∃ ca parts acts', (ca = c0 ∨ ∃ cl, ca = env.tick 1 { c0 with cluster := cl }) ∧
         Consumer.fetch cfg env topic parts ca = (r, cb, acts') ∧ CAct.fetch reqs ∈ acts' ∧
         ∃ al, allocation ca = .ok al ∧ allocated al topic = some parts := by
    intro c0 cb r acts h hr
    unfold Consumer.consumeSynced at h
    split at h
    · simp only [Prod.mk.injEq] at h
      rw [← h.2.2] at hr; simp at hr
    · split at h
      · rename_i hal _ parts hparts
        exact ⟨c0, parts, acts, Or.inl rfl, h, hr, _, hal, hparts⟩
      · split at h
        · simp only [Prod.mk.injEq] at h
          rw [← h.2.2] at hr; simp at hr
        · rename_i cl _
          simp only at h
          split at h
          · simp only [Prod.mk.injEq] at h
            rw [← h.2.2] at hr; simp at hr
          · split at h
            · simp only [Prod.mk.injEq] at h
              rw [← h.2.2] at hr; simp at hr
            · rename_i hal _ parts hparts
              cases hf : Consumer.fetch cfg env topic parts
                (env.tick 1 { c0 with cluster := cl }) with
              | mk r' x =>
                obtain ⟨c', acts'⟩ := x
                rw [hf] at h
                simp only [Prod.mk.injEq] at h
                obtain ⟨rfl, rfl, rfl⟩ := h
                refine ⟨_, parts, acts', Or.inr ⟨cl, rfl⟩, hf, ?_, _, hal, hparts⟩
                simpa using hr
  unfold Consumer.consume at h
  split at h
  · simp only [Prod.mk.injEq] at h
    rw [← h.2.2] at hr; simp at hr
  · split at h
    · rename_i hs
      exact ⟨c, Or.inl ⟨hs, rfl⟩, hsync _ _ _ _ h hr⟩
    · rename_i hs
      split at h
      · simp only [Prod.mk.injEq] at h
        rw [← h.2.2] at hr; simp at hr
      · simp only [Prod.mk.injEq] at h
        rw [← h.2.2] at hr; simp at hr
      · rename_i c1 hd
        simp only at h
        cases hc : ({ env.tick 0 c1 with synced := addSet (env.tick 0 c1).synced topic } :
            Consumer ε).consumeSynced allocation cfg env topic with
        | mk r' x =>
          obtain ⟨c', acts'⟩ := x
          rw [hc] at h
          simp only [Prod.mk.injEq] at h
          obtain ⟨rfl, rfl, rfl⟩ := h
          exact ⟨_, Or.inr ⟨c1, hs, hd, rfl⟩, hsync _ _ _ _ hc (by simpa using hr)⟩

/-- A member that is supplied with a message passes it. -/
theorem base_supplied {cfg : CCfg β δ} {logs : String → Int → List (Int × β)}
    (hl : ∀ t p, IsLog (logs t p)) {group : String → Int → Int}
    {env : GroupEnv β} {fuel : Nat} {topic : String} {c cb : Grouped}
    {result : Option (List δ)} {acts : List CAct}
    (hg : HonestGroup (fun t p o => o = group t p) topic (shareOf c topic) env.offsets)
    (hh : HonestFetch Batch logs env.base) (h0 : ∀ n c, env.base.tick n c = c)
    (hb : Consumer.consume Grouped.allocation (Grouped.determineRes cfg.plain env.offsets fuel topic) cfg
      env.base topic c = (.ok result, cb, acts)) {t : String} {p : Int} {o : Int}
    (hs : Supplied cfg env.base acts t p o) :
    p ∈ shareOf c t ∧ t ∈ cb.synced ∧ ∃ m ∈ logs t p, o ≤ m.1 ∧ (decode cfg m.2).isSome ∧
      m.1 < offsetOf cb.offsets t p := by
  obtain ⟨reqs, hr, b, r, hbr, ps, hps, a, ha, rfl, hz, m, hm, hom, hd⟩ := hs
  obtain ⟨c0, hc0, ca, parts, acts', hca, hf, hin, al, hal, hparts⟩ := consume_fetching hb hr
  obtain ⟨hs0, ht0⟩ := start_stayed hg h0 hc0
  have hsa : Stayed group topic c ca ∧ topic ∈ ca.synced := by
    rcases hca with rfl | ⟨cl, rfl⟩
    · exact ⟨hs0, ht0⟩
    · rw [h0]; exact ⟨hs0.cluster cl, ht0⟩
  obtain ⟨hsa, hta⟩ := hsa
  have hpa : parts = shareOf c topic := (allocated_share hal hparts).trans (hsa.share topic)
  rcases fetch_spec cfg env.base topic parts ca cb (.ok result) acts' hf with
    ⟨e, he, _⟩ | ⟨reqs', c1, hacts, hex, rfl, done, rest, _, ho, hsy, _, hext, hok⟩
  · simp at he
  · rw [hacts] at hin
    simp only [List.mem_singleton, CAct.fetch.injEq] at hin
    subst hin
    obtain ⟨_, rfl, _⟩ := hok result rfl
    have hmem : m ∈ fetchedFor (allAnswers (env.base.outcomes reqs)) t a.id := by
      simp only [fetchedFor, allAnswers, List.mem_flatMap, List.mem_filter, decide_eq_true_eq]
      refine ⟨(t, a), ⟨⟨(b, .ok r), hbr, ?_⟩, rfl, rfl, hz⟩, hm⟩
      simp [answersOf, hps, ha]
    rcases honest_one hh hex t a.id with hn | ⟨rfl, hba⟩
    · rw [hn] at hmem; simp at hmem
    · have hshare : a.id ∈ shareOf c t := by
        by_contra hne
        have := honest_share hh hex t a.id (fun h => hne (hpa ▸ h.2))
        rw [this] at hmem; simp at hmem
      have hsub := (List.IsPrefix.sublist hba).trans List.filter_sublist
      have hlog := hsub.subset hmem
      rw [h0]
      refine ⟨hshare, (hsy t).2 ⟨hta, fun x hx _ => honest_codes hh reqs x hx⟩, m, hlog, hom, hd, ?_⟩
      rw [ho]
      exact after_past cfg _ _ ((hl t a.id).sorted.sublist hsub) m hmem hd ((hl t a.id).nonneg m hlog)

/-- A group that is supplied with what lies ahead of it has less ahead of it. -/
theorem crewConsume_supplied {cfg : CCfg β δ} {logs : String → Int → List (Int × β)}
    (hl : ∀ t p, IsLog (logs t p)) {base pos : String → Int → Int} {g g' : Crew δ}
    {env : ConsumeEnv GExt β} {acts : List CAct} (h : CrewConsume cfg logs g env acts g')
    (hi : CrewInv cfg logs base pos g) {t : String} {p : Int}
    (hs : Supplied cfg env acts t p (pos t p)) :
    ∃ pos', CrewInv cfg logs base pos' g' ∧ (∀ t p, pos t p ≤ pos' t p) ∧
      (ahead cfg (logs t p) (pos' t p)).length < (ahead cfg (logs t p) (pos t p)).length := by
  obtain ⟨pos', hi', hmono⟩ := crewStep_inv hl (.consume h) hi
  refine ⟨pos', hi', hmono, ?_⟩
  obtain ⟨i, gcfg, env, fuel, topic, result, c, acts, reqs, group, hg, hh, hu, hc, hst⟩ := h
  have key : ∃ cb, p ∈ shareOf (g.members i) t ∧ t ∈ cb.synced ∧ (∃ m ∈ logs t p, pos t p ≤ m.1 ∧
      (decode cfg m.2).isSome ∧ m.1 < offsetOf cb.offsets t p) ∧ Kept cb c ∧
      ∀ t, shareOf cb t = shareOf (g.members i) t := by
    rcases gconsume_cases gcfg cfg env fuel topic (g.members i) with ⟨_, _, _, h3⟩ |
      ⟨bres, cb, acts', hb, hcase⟩
    · rw [hc] at h3; simp at h3
    · rcases hcase with ⟨e, _, h3⟩ | ⟨r, rfl, hsy, h3⟩ | ⟨r, rfl, hsy, _, h3⟩ |
        ⟨r, cr, rfl, hsy, _, hcr, h3, h4⟩
      · rw [hc] at h3; simp at h3
      · rw [hc] at h3
        simp only [Prod.mk.injEq, Run.done.injEq] at h3
        obtain ⟨rfl, rfl, rfl, rfl⟩ := h3
        have hm := base_moved hl hg hh hu.1 hb
        obtain ⟨k1, k2, k3⟩ := base_supplied hl hg hh hu.1 hb hs
        exact ⟨c, k1, k2, k3, kept_refl c, hm.share⟩
      · rw [hc] at h3
        simp only [Prod.mk.injEq, Run.done.injEq] at h3
        obtain ⟨rfl, rfl, rfl, rfl⟩ := h3
        have hm := base_moved hl hg hh hu.1 hb
        obtain ⟨k1, k2, k3⟩ := base_supplied hl hg hh hu.1 hb hs
        exact ⟨{ cb with ext := { cb.ext with toCommit := addSet cb.ext.toCommit topic } },
          k1, k2, k3, kept_refl _, hm.share⟩
      · rw [hc] at h3
        simp only [Prod.mk.injEq] at h3
        obtain ⟨rfl, rfl, rfl⟩ := h3
        have hm := base_moved hl hg hh hu.1 hb
        obtain ⟨k1, k2, k3⟩ := base_supplied hl hg hh hu.1 hb hs
        obtain ⟨j1, _, _⟩ := commitLoop_kept hu.2 fuel 0 ("committed by " ++ gcfg.name)
          { cb with ext := { cb.ext with toCommit := addSet cb.ext.toCommit topic } }
          (hm.nodup (hi.nodup i))
        rw [hcr]
        exact ⟨{ cb with ext := { cb.ext with toCommit := addSet cb.ext.toCommit topic } },
          k1, k2, k3, j1, hm.share⟩
  obtain ⟨cb, k1, k2, ⟨m, hm, hle, hd, hlt⟩, hk, hsh⟩ := key
  have hp : p ∈ shareOf (g.put i c i) t := by
    have : shareOf c t = shareOf cb t := by simp only [shareOf, hk.mapping]
    simp only [Crew.put, if_true]
    rw [this, hsh]
    exact k1
  have e := hi'.owned i t p hp
  simp only [Crew.put, if_true, whereIs, hk.synced, if_pos k2, hk.offsets] at e
  obtain ⟨_, h2⟩ := ahead_less cfg (logs t p) (pos t p) (pos' t p) (hmono t p)
  exact h2 m (by simp [ahead, hm, hle, hd]) (by omega)

theorem crewRunN_ahead {cfg : CCfg β δ} {logs : String → Int → List (Int × β)}
    (hl : ∀ t p, IsLog (logs t p)) {base pos : String → Int → Int} {t : String} {p : Int} {n : Nat}
    {g g' : Crew δ} (h : CrewRunN cfg logs t p n g g') (hi : CrewInv cfg logs base pos g) :
    ∃ pos', CrewInv cfg logs base pos' g' ∧
      n + (ahead cfg (logs t p) (pos' t p)).length ≤ (ahead cfg (logs t p) (pos t p)).length := by
  induction h with
  | nil g => exact ⟨pos, hi, by omega⟩
  | step _ hs ih =>
    obtain ⟨pos', i1, i2⟩ := ih hi
    obtain ⟨pos'', j1, j2⟩ := crewStep_inv hl hs i1
    have := (ahead_less cfg (logs t p) _ _ (j2 t p)).1
    exact ⟨pos'', j1, by omega⟩
  | supplied _ hc hst hs ih =>
    obtain ⟨pos', i1, i2⟩ := ih hi
    rw [crew_stands i1] at hst
    subst hst
    obtain ⟨pos'', j1, _, j2⟩ := crewConsume_supplied hl hc i1 hs
    exact ⟨pos'', j1, by omega⟩

/-! ### All together -/

theorem crewStep_grow {cfg : CCfg β δ} {logs logs' : String → Int → List (Int × β)}
    (hg : ∀ t p, logs t p <+: logs' t p) {g g' : Crew δ} (h : CrewStep cfg logs g g') :
    CrewStep cfg logs' g g' := by
  cases h with
  | consume h =>
    obtain ⟨i, gcfg, env, fuel, t, result, c, _, reqs, group, h1, h2, h3, h4, h5⟩ := h
    exact .consume <| .intro i gcfg env fuel t result c _ reqs group h1 (grow_honest hg h2) h3 h4 h5
  | failed i gcfg env fuel t e c acts reqs group h1 h2 h3 h4 h5 =>
    exact .failed i gcfg env fuel t e c acts reqs group h1 h2 h3 h4 h5
  | commit i env fuel name md group h1 h2 => exact .commit i env fuel name md group h1 h2
  | settle members h1 h2 h3 => exact .settle members h1 h2 h3

theorem crewRun_grow {cfg : CCfg β δ} {logs logs' : String → Int → List (Int × β)}
    (hg : ∀ t p, logs t p <+: logs' t p) {base : String → Int → Int} {g : Crew δ}
    (h : CrewRun cfg logs base g) : CrewRun cfg logs' base g := by
  induction h with
  | start members h1 h2 => exact .start members h1 h2
  | step _ hs ih => exact ih.step (crewStep_grow hg hs)

theorem groupPipeline_inv {pcfg : PCfg α κ β} {read : γ → List (Msg κ β)} {cfg : CCfg β δ}
    {p0 p : Producer κ β} {logs0 logs : String → Int → List (Int × β)} {base : String → Int → Int}
    {g : Crew δ} {acc : List (String × Msg κ β)} {foreign : List (String × β)}
    (h : GroupPipeline pcfg read cfg p0 logs0 base p logs g acc foreign)
    (hw : WF p0) (hu : p0.unsent.keys.Nodup) (hl : ∀ t p, IsLog (logs0 t p)) :
    WF p ∧ p.unsent.keys.Nodup ∧ (∀ t p, IsLog (logs t p)) ∧
    Accounted p0 logs0 acc foreign p logs ∧ CrewRun cfg logs base g := by
  induction h with
  | start members h1 h2 => exact ⟨hw, hu, hl, .refl _ _, .start members h1 h2⟩
  | made _ hm ih =>
    obtain ⟨i1, i2, i3, i4, i5⟩ := ih
    obtain ⟨k1, k2, k3, k4⟩ := made_accounted hm i1 i2 i3
    exact ⟨k1, k2, k3, i4.trans k4, crewRun_grow (made_logs hm) i5⟩
  | group _ hs ih =>
    obtain ⟨i1, i2, i3, i4, i5⟩ := ih
    exact ⟨i1, i2, i3, i4, i5.step hs⟩

/-- **C101.**  A producer and a group of consumers work at the same time, against brokers that store
what they acknowledge and serve what they have stored, and in between messages of other producers are
stored; flushes may be refused with retriable errors and leaders may be lost, fetches and commits may
fail, and the group may be rebalanced whenever nothing waits to be committed.  At any time
the members have returned only messages that were accepted by this producer or stored by others since
the beginning, none more often than it was made.  If the producer's queue is empty and nothing lies
ahead of where the group stands, they have returned all of them (that can be deserialized and are not
false to Python), each exactly once. -/
theorem C101_pipeline (pcfg : PCfg α κ β) (read : γ → List (Msg κ β)) (cfg : CCfg β δ)
    (cl : Cluster) (n : Int) (p : Producer κ β) (logs0 logs : String → Int → List (Int × β))
    (base : String → Int → Int) (g : Crew δ) (acc : List (String × Msg κ β))
    (foreign : List (String × β))
    (h : GroupPipeline pcfg read cfg (Producer.new cl n) logs0 base p logs g acc foreign)
    (hl : ∀ t p, IsLog (logs0 t p))
    (hstart : ∀ t p, ∀ m ∈ logs t p, m.1 < base t p ↔ m ∈ logs0 t p) :
    g.returned.Subperm (returnable cfg (plain acc ++ foreign)) ∧
    (inQueue p.unsent = [] →
      (∀ t part, ∃ o, g.Stands t part o ∧ ahead cfg (logs t part) o = []) →
      g.returned.Perm (returnable cfg (plain acc ++ foreign))) := by
  obtain ⟨_, _, hl', hk, hr⟩ := groupPipeline_inv h (wf_new cl n)
    (by simp [Producer.new, Dict.keys]) hl
  obtain ⟨pos, hs, hm, hi⟩ := C100_exactly_once cfg logs hl' base g hr
  obtain ⟨k1, k2⟩ := accounted_delivered hk (by rfl) hl' cfg hstart hm hi
  refine ⟨k1, fun hq hend => k2 hq fun t part => ?_⟩
  obtain ⟨o, ho, he⟩ := hend t part
  rw [hs] at ho
  rw [← ho]
  exact he

/-- **C101**, getting there: at any time, one flush without trouble empties the producer's queue; the
group stands somewhere with each partition; and if it is then supplied with what is ahead of it
in as many `consume`s as there are messages ahead, whoever of the members consumes, and
whatever happens in between, there are none ahead any more. -/
theorem C101_settles (pcfg : PCfg α κ β) (read : γ → List (Msg κ β)) (cfg : CCfg β δ)
    (cl : Cluster) (n : Int) (p : Producer κ β) (logs0 logs : String → Int → List (Int × β))
    (base : String → Int → Int) (g : Crew δ) (acc : List (String × Msg κ β))
    (foreign : List (String × β))
    (h : GroupPipeline pcfg read cfg (Producer.new cl n) logs0 base p logs g acc foreign)
    (hl : ∀ t p, IsLog (logs0 t p)) :
    (∀ (env : FlushEnv κ β γ) (answer : PReq γ → PResp), Orderly env answer p →
      Calm answer p.cluster →
      ∃ p' reqs, p.flush env = (.ok (), p', reqs) ∧ inQueue p'.unsent = []) ∧
    ∀ t part, ∃ o, g.Stands t part o ∧ ∀ g',
      CrewRunN cfg logs t part (ahead cfg (logs t part) o).length g g' →
      ∃ o', g'.Stands t part o' ∧ ahead cfg (logs t part) o' = [] := by
  obtain ⟨k1, k2, hl', _, hr⟩ := groupPipeline_inv h (wf_new cl n)
    (by simp [Producer.new, Dict.keys]) hl
  refine ⟨fun env answer ho hc => ?_, fun t part => ?_⟩
  · obtain ⟨p', reqs, pl, f1, f2, _, f3, _⟩ := C98_round env answer p k1 k2 ho
    have hno : ∀ x ∈ pl, ¬ TryAgain p.cluster reqs answer x := by
      rintro x hx (h1 | ⟨r, _, _, code, h2, h3⟩)
      · rw [hc.leaders _ _ _ (f2.led x hx)] at h1
        cases h1
      · exact hc.codes r _ h3 h2
    rw [List.filter_eq_nil_iff.2 (fun x hx => by simpa using hno x hx)] at f3
    exact ⟨p', reqs, f1, f3.eq_nil⟩
  · obtain ⟨pos, hi⟩ := crewRun_inv hl' hr
    refine ⟨pos t part, (crew_stands hi t part _).2 rfl, fun g' hn => ?_⟩
    obtain ⟨pos', i1, i2⟩ := crewRunN_ahead hl' hn hi
    refine ⟨pos' t part, (crew_stands i1 t part _).2 rfl, ?_⟩
    rw [← List.length_eq_zero_iff]
    omega

/-! ### Example -/

/-- One has both partitions of "t", the others nothing. -/
def exHolder (k : Nat) : Nat → Grouped := fun i => { Grouped.new exPCluster with
  ext := ⟨some 7, [], some (if i = k then [("t", [0, 1])] else [])⟩ }

theorem exHolder_fresh (k i : Nat) : NewlyTold (exHolder k i) := by
  refine ⟨rfl, rfl, fun a h => ?_⟩
  obtain rfl := Option.some.inj h
  split <;> decide

theorem exHolder_share (k i : Nat) (t : String) :
    shareOf (exHolder k i) t = if i = k ∧ t = "t" then [0, 1] else [] := by
  by_cases hi : i = k
  · by_cases ht : t = "t"
    · subst ht
      simp only [exHolder, hi, and_self, if_true]
      decide
    · have : ¬ "t" = t := fun h => ht h.symm
      simp [exHolder, shareOf, hi, ht, Dict.get?, this]
  · simp [exHolder, shareOf, hi, Dict.get?]

theorem exHolder_apart (k : Nat) : SharesApart (exHolder k) := by
  have h : ∀ i t p, p ∈ shareOf (exHolder k i) t → i = k := by
    intro i t p hp
    rw [exHolder_share] at hp
    split at hp
    · rename_i h; exact h.1
    · simp at hp
  intro i j t p hi hj
  rw [h i t p hi, h j t p hj]

/-- The offsets of the two partitions of "t". -/
def exPair (a b : Int) : String → Int → Int :=
  fun t p => if t = "t" then if p = 0 then a else if p = 1 then b else 0 else 0

theorem exPair_stores (a b a' b' : Int) (env : CommitEnv) (c : Option Int) (md : String) :
    Stores env [⟨c, md, [("t", [(0, a'), (1, b')])]⟩] (exPair a b) (exPair a' b') := by
  constructor
  · intro t p
    by_cases ht : t = "t"
    · by_cases h0 : p = 0
      · exact Or.inr (by simp [offsetsIn, exPair, ht, h0])
      · by_cases h1 : p = 1
        · exact Or.inr (by simp [offsetsIn, exPair, ht, h1])
        · exact Or.inl (by simp [exPair, ht, h0, h1])
    · exact Or.inl (by simp [exPair, ht])
  · intro n r' _ t p _ p' o'' h
    simp only [offsetsIn, List.flatMap_cons, List.flatMap_nil, List.append_nil, List.map_cons,
      List.map_nil, List.mem_cons, Prod.mk.injEq, List.not_mem_nil, or_false] at h
    rcases h with ⟨rfl, rfl, rfl⟩ | ⟨rfl, rfl, rfl⟩ <;> simp [exPair]

/-- The coordinator answers `o`; commits go well; brokers serve `logs`. -/
def exLine (logs : String → Int → List (Int × Nat)) (o : Int) : GroupEnv Nat :=
  ⟨exOF "t" [0, 1] o, exServeLogs logs, exCommit (.ok ⟨[("t", [(0, 0), (1, 0)])]⟩)⟩

/-- C101 is not vacuous: two messages are produced and stored on two partitions, member 0 consumes
them; the partitions move to member 1, another producer's message is stored, and member 1
consumes that. -/
example : ∃ (p : Producer Nat Nat) (logs : String → Int → List (Int × Nat)) (g : Crew Nat),
    GroupPipeline (γ := List (Msg Nat Nat)) exPCfg id exCCfg (Producer.new exPCluster 41)
      (fun _ _ => []) (exPair 0 0) p logs g [("t", ⟨1, 1⟩), ("t", ⟨0, 2⟩)] [("t", 8)] ∧
    g.returned = [("t", 2), ("t", 1), ("t", 8)] ∧
    (∀ t p, ∀ m ∈ logs t p, m.1 < exPair 0 0 t p ↔ m ∈ ([] : List (Int × Nat))) ∧
    inQueue p.unsent = [] ∧ ∀ t part, ∃ o, g.Stands t part o ∧ ahead exCCfg (logs t part) o = [] := by
  let p2 : Producer Nat Nat := ⟨exPCluster, [("t", [⟨1, 1⟩, ⟨0, 2⟩])], [], false, false, 41⟩
  let p3 : Producer Nat Nat := ⟨exPCluster, [], [], false, false, 42⟩
  let l1 := exLogs [(0, 2)] [(0, 1)]
  let l2 := exLogs [(0, 2), (1, 8)] [(0, 1)]
  let req : PReq (List (Msg Nat Nat)) := ⟨7, 42, [("t", [(1, [⟨1, 1⟩]), (0, [⟨0, 2⟩])])]⟩
  have h0 : GroupPipeline (γ := List (Msg Nat Nat)) exPCfg id exCCfg (Producer.new exPCluster 41)
      (fun _ _ => []) (exPair 0 0) _ _ (⟨exHolder 0, exPair 0 0, []⟩ : Crew Nat) [] [] :=
    .start _ (exHolder_apart 0) (exHolder_fresh 0)
  have h1 := h0.made (.other (ev := .produce "t" 1) (e := .none) rfl rfl)
  have h2 := h1.made (.other (ev := .produce "t" 2) (e := .none) (p' := p2) rfl (by decide +kernel))
  have h3 := h2.made (.flush (p' := p3) (logs' := l1) (env := exFlush (exPAnswer 0))
    (answer := exAnswerAll 0) (reqs := [req])
    (exOrderly 0 (by decide) p2 rfl (by decide +kernel))
    (by
      intro r a ha
      simp only [exAnswerAll, PResp.answers, List.flatMap_map, List.mem_flatMap, List.mem_map] at ha
      obtain ⟨_, _, _, ⟨_, _, rfl⟩, rfl⟩ := ha
      exact Or.inl rfl)
    (fun ms s h => (Except.ok.inj h).symm) (by decide +kernel)
    (by
      refine exLogs_all _ _ (fun t p l => IsLog l ∧ ∃ add, l = [] ++ add ∧ add.map (·.2) =
        (stored id (exAnswerAll 0) [req] t p).map (·.value)) ?_ ?_ ?_
      · exact ⟨⟨by simp, by simp⟩, [(0, 2)], rfl, by decide +kernel⟩
      · exact ⟨⟨by simp, by simp⟩, [(0, 1)], rfl, by decide +kernel⟩
      · intro t p h
        refine ⟨⟨by simp, by simp⟩, [], rfl, ?_⟩
        have : ¬ (t, p, (0 : Int)) ∈ (exAnswerAll 0 req).answers := by
          simp only [exAnswerAll, PResp.answers, req, List.map_cons, List.map_nil, List.flatMap_cons,
            List.flatMap_nil, List.append_nil, List.mem_cons, Prod.mk.injEq, List.not_mem_nil,
            and_true, or_false]
          rintro (h' | h')
          · exact h ⟨h'.1, .inr h'.2⟩
          · exact h ⟨h'.1, .inl h'.2⟩
        simp [stored, this]))
  have hshare : ∀ k, shareOf (exHolder k k) "t" = [0, 1] := by
    intro k
    rw [exHolder_share]
    simp
  have h4 := h3.group <| .consume <| .intro (i := 0) (gcfg := exAuto) (env := exLine l1 0)
    (fuel := 5) (t := "t") (result := some [2, 1])
    (c := { exHolder 0 0 with offsets := [("t", [(0, 1), (1, 1)])], synced := ["t"] })
    (acts := [.determine, .fetch [⟨7, 1000, 1, "t", [⟨0, 0, 50⟩, ⟨1, 0, 50⟩]⟩]])
    (reqs := [⟨some 7, "committed by x", [("t", [(0, 1), (1, 1)])]⟩]) (group := exPair 1 1)
    (by
      rw [hshare]
      exact exOF_named [0, 1] 0 (by simp [exPair]))
    (exServeLogs_honest l1) ⟨fun _ _ => rfl, fun _ _ => rfl⟩ (by decide +kernel)
    (exPair_stores 0 0 1 1 _ _ _)
  have h5 := h4.group <| .settle (members := exHolder 1)
    (by
      intro i
      simp only [Crew.put]
      split
      · rfl
      · exact (exHolder_fresh 0 i).committed)
    (exHolder_apart 1) (exHolder_fresh 1)
  have h6 := h5.made (.foreign (logs' := l2) (t := "t") (part := 0) (v := 8)
    (by
      refine exLogs_all _ _ (fun t p l => IsLog l ∧ ∃ add, l = l1 t p ++ add ∧ add.map (·.2) =
        if t = "t" ∧ p = 0 then [8] else []) ?_ ?_ ?_
      · exact ⟨⟨by simp, by simp⟩, [(1, 8)], rfl, by simp⟩
      · exact ⟨⟨by simp, by simp⟩, [], rfl, by simp⟩
      · intro t p h
        have h1 : l1 t p = [] := by
          by_cases ht : t = "t"
          · have h0 : ¬ p = 0 := fun h' => h ⟨ht, .inl h'⟩
            have h1 : ¬ p = 1 := fun h' => h ⟨ht, .inr h'⟩
            simp [l1, exLogs, h0, h1]
          · simp [l1, exLogs, ht]
        refine ⟨⟨by simp, by simp⟩, [], by rw [h1]; rfl, ?_⟩
        rw [if_neg (fun h' => h ⟨h'.1, .inl h'.2⟩)]
        rfl))
  have h7 := h6.group <| .consume <| .intro (i := 1) (gcfg := exAuto) (env := exLine l2 1)
    (fuel := 5) (t := "t") (result := some [8])
    (c := { exHolder 1 1 with offsets := [("t", [(0, 2), (1, 1)])], synced := ["t"] })
    (acts := [.determine, .fetch [⟨7, 1000, 1, "t", [⟨0, 1, 50⟩, ⟨1, 1, 50⟩]⟩]])
    (reqs := [⟨some 7, "committed by x", [("t", [(0, 2), (1, 1)])]⟩]) (group := exPair 2 1)
    (by
      rw [hshare]
      exact exOF_named [0, 1] 1 (by simp [exPair]))
    (exServeLogs_honest l2) ⟨fun _ _ => rfl, fun _ _ => rfl⟩ (by decide +kernel)
    (by exact exPair_stores 1 1 2 1 _ _ _)
  refine ⟨_, _, _, h7, rfl, ?_, rfl, ?_⟩
  · refine exLogs_all _ _ (fun t p l => ∀ m ∈ l, m.1 < exPair 0 0 t p ↔
      m ∈ ([] : List (Int × Nat))) ?_ ?_ ?_
    · decide +kernel
    · decide +kernel
    · simp
  · intro t part
    by_cases h : t = "t" ∧ (part = 0 ∨ part = 1)
    · obtain ⟨rfl, h⟩ := h
      refine ⟨exPair 2 1 "t" part, Or.inl ⟨1, ?_, ?_, ?_⟩, ?_⟩
      · simp only [Crew.put, if_true]
        show part ∈ shareOf (exHolder 1 1) "t"
        rw [hshare]
        simpa using h
      · simp [Crew.put]
      · simp only [Crew.put, if_true]
        rcases h with rfl | rfl <;> decide
      · rcases h with rfl | rfl <;> decide +kernel
    · have hnot : ∀ i, part ∉ shareOf (exHolder 1 i) t := by
        intro i
        rw [exHolder_share]
        split
        · rename_i h'
          intro hp
          exact h ⟨h'.2, by simpa using hp⟩
        · simp
      refine ⟨_, Or.inr ⟨fun i hp => ?_, rfl⟩, ?_⟩
      · simp only [Crew.put] at hp
        split at hp
        · exact absurd hp (hnot 1)
        · exact absurd hp (hnot i)
      · have : l2 t part = [] := by
          by_cases ht : t = "t"
          · have h0 : ¬ part = 0 := fun h' => h ⟨ht, .inl h'⟩
            have h1 : ¬ part = 1 := fun h' => h ⟨ht, .inr h'⟩
            simp [l2, exLogs, h0, h1]
          · simp [l2, exLogs, ht]
        rw [this]
        rfl

end Kiel
