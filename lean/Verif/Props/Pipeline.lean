import Mathlib.Data.List.Perm.Subperm
import Verif.Spec.Pipeline
import Verif.Props.Delivery
import Verif.Props.Progress
/-
C99: what is produced is consumed.
-/
set_option autoImplicit false
namespace Kiel
open Spec

variable {α κ β γ ε δ : Type}

/-! ### Interleavings -/

theorem count_labelled {K X : Type} [DecidableEq K] [BEq X] [LawfulBEq X] [BEq (K × X)]
    [LawfulBEq (K × X)] (src : List (K × X)) (k : K)
    (d : X) :
    src.count (k, d) = ((src.filter fun x => decide (x.1 = k)).map (·.2)).count d := by
  induction src with
  | nil => rfl
  | cons x src ih =>
    obtain ⟨k', d'⟩ := x
    by_cases hk : k' = k
    · subst hk
      simp only [List.count_cons, ih, decide_true, List.filter_cons_of_pos, List.map_cons]
      by_cases hd : d' = d
      · subst hd; simp
      · have : (k', d') ≠ (k', d) := fun h => hd (Prod.mk.inj h).2
        rw [if_neg (by simpa using this), if_neg (by simpa using hd)]
    · simp [ih, hk]

theorem interleaving_subperm {a b : String → Int → List δ} {x y : List (String × δ)}
    (hx : Interleaving a x) (hy : Interleaving b y) (h : ∀ t p, (a t p).Subperm (b t p)) :
    x.Subperm y := by
  classical
  obtain ⟨s1, rfl, h1⟩ := hx
  obtain ⟨s2, rfl, h2⟩ := hy
  have hs : s1.Subperm s2 := by
    rw [List.subperm_ext_iff]
    rintro ⟨k, d⟩ _
    rw [count_labelled, count_labelled, h1 k.1 k.2, h2 k.1 k.2]
    exact (h k.1 k.2).count_le d
  obtain ⟨l, hl1, hl2⟩ := hs
  exact ⟨l.map _, hl1.map _, hl2.map _⟩

theorem interleaving_perm {a : String → Int → List δ} {x y : List (String × δ)}
    (hx : Interleaving a x) (hy : Interleaving a y) : x.Perm y :=
  (interleaving_subperm hx hy fun _ _ => .refl _).antisymm
    (interleaving_subperm hy hx fun _ _ => .refl _)

theorem interleaving_append {a b : String → Int → List δ} {x y : List (String × δ)}
    (hx : Interleaving a x) (hy : Interleaving b y) :
    Interleaving (fun t p => a t p ++ b t p) (x ++ y) := by
  obtain ⟨s1, rfl, h1⟩ := hx
  obtain ⟨s2, rfl, h2⟩ := hy
  exact ⟨s1 ++ s2, by simp, fun t p => by simp [h1, h2]⟩

theorem interleaving_nil : Interleaving (fun _ _ => ([] : List δ)) [] := ⟨[], rfl, fun _ _ => rfl⟩

/-- What a consumer returns of an interleaving. -/
theorem interleaving_returnable (cfg : CCfg β δ) {a : String → Int → List β}
    {x : List (String × β)} (hx : Interleaving a x) :
    Interleaving (fun t p => ((a t p).filterMap (decode cfg)).filter cfg.truthy)
      (returnable cfg x) := by
  obtain ⟨s, rfl, h⟩ := hx
  refine ⟨s.filterMap fun x => (decode cfg x.2).bind fun d =>
    if cfg.truthy d then some (x.1, d) else .none, ?_, fun t p => ?_⟩
  · rw [returnable, List.filterMap_map, List.map_filterMap]
    refine List.filterMap_congr fun x _ => ?_
    cases hd : decode cfg x.2 with
    | none => simp [hd]
    | some d => cases ht : cfg.truthy d <;> simp [hd, ht]
  · beta_reduce
    rw [← h t p]
    clear h
    induction s with
    | nil => rfl
    | cons x s ih =>
      by_cases hk : x.1 = (t, p)
      · cases hd : decode cfg x.2 with
        | none => simpa [hd, hk, List.filterMap_cons] using ih
        | some d => cases ht : cfg.truthy d <;> simpa [hd, ht, hk, List.filterMap_cons] using ih
      · cases hd : decode cfg x.2 with
        | none => simpa [hd, hk, List.filterMap_cons] using ih
        | some d => cases ht : cfg.truthy d <;> simpa [hd, ht, hk, List.filterMap_cons] using ih

/-! ### What a flush stores -/

theorem request_holds {read : γ → List (Msg κ β)} {r : PReq γ} {t : String} {part : Int} {set : γ}
    (hn : (r.topics.map (·.1)).Nodup ∧ ∀ e ∈ r.topics, (e.2.map (·.1)).Nodup)
    (h : ∃ e ∈ r.topics, e.1 = t ∧ (part, set) ∈ e.2) :
    inPartition read [r] t part = read set := by
  obtain ⟨e, he, rfl, hs⟩ := h
  have h1 : inPartition read [r] e.1 part = r.topics.flatMap fun x =>
      if x.1 = e.1 then x.2.flatMap fun q => if q.1 = part then read q.2 else [] else [] := by
    simp only [inPartition, List.flatMap_cons, List.flatMap_nil, List.append_nil]
    refine List.flatMap_congr fun x _ => ?_
    by_cases hx : x.1 = e.1 <;> simp [hx]
  rw [h1, flatMap_key r.topics hn.1 e.1 (fun l => l.flatMap fun q => if q.1 = part then read q.2 else []),
    Dict.get?_of_mem hn.1 (show (e.1, e.2) ∈ r.topics from he)]
  have h2 := flatMap_key e.2 (hn.2 e he) part read
  rw [Dict.get?_of_mem (hn.2 e he) hs] at h2
  exact h2

/-- A flush with answers that report no errors but retriable ones: what is not in the queue
afterwards was stored, in order. -/
theorem flush_stored {env : FlushEnv κ β γ} {answer : PReq γ → PResp} {p p' : Producer κ β}
    {reqs : List (PReq γ)} {read : γ → List (Msg κ β)} (hw : WF p) (hu : p.unsent.keys.Nodup)
    (ho : Orderly env answer p)
    (hcodes : ∀ r, ∀ a ∈ (answer r).answers, a.2.2 = 0 ∨ Retriable a.2.2)
    (hread : ∀ ms s, env.comp ms = .ok s → read s = ms)
    (hf : p.flush env = (.ok (), p', reqs)) :
    WF p' ∧ p'.unsent.keys.Nodup ∧ ∃ done : List (Place κ β),
      (inQueue p.unsent).Perm (inQueue p'.unsent ++ done.map Place.entry) ∧
      ∀ t part, stored read answer reqs t part =
        (done.filter fun x => decide (x.topic = t ∧ x.part = part)).map (·.msg) := by
  by_cases hq : p.unsent = []
  · have hf' : p.flush env = (.ok (), p, []) := by
      simp [Producer.flush, Producer.prepare, hq]
    rw [hf'] at hf
    simp only [Prod.mk.injEq, true_and] at hf
    obtain ⟨rfl, rfl⟩ := hf
    exact ⟨hw, hu, [], by simp, fun _ _ => rfl⟩
  obtain ⟨p1, reqs1, pl, f1, f2, _, f3, _, f5, f6⟩ := C98_round env answer p hw hu ho
  rw [hf] at f1
  simp only [Prod.mk.injEq, true_and] at f1
  obtain ⟨rfl, rfl⟩ := f1
  obtain ⟨reqs1, p1, hprep⟩ := C28_succeeds env.pick env.comp p hq ho.placed ho.comp
  have hr1 : reqs1 = reqs := by
    unfold Producer.flush at hf
    simp only [hprep] at hf
    split at hf <;> simp_all
  subst hr1
  obtain ⟨pl', g1, g2, g3, g4, _⟩ := C28_routing env.pick env.comp p p1 reqs1 hw hprep
  obtain rfl := placements_unique f2 g1
  obtain ⟨_, _, _, _, _, _, _, k8⟩ := kept_flushed hw hprep
  have hin : ∀ r ∈ reqs1, ∀ t part, inPartition read [r] t part = placedOn pl r.broker t part := by
    intro r hr t part
    have hnr := g2.2.2 r hr
    by_cases hh : ∃ set, Holds reqs1 r.broker t part set
    · obtain ⟨set, hset⟩ := hh
      have hc := ((g3 _ _ _ _).1 hset).2.2
      obtain ⟨r', hr', hb, he⟩ := hset
      obtain rfl : r' = r := List.inj_on_of_nodup_map g2.1 hr' hr hb
      rw [request_holds ⟨hnr.2.1, fun e he => (hnr.2.2 e he).2⟩ he, hread _ _ hc]
    · have h1 : placedOn pl r.broker t part = [] := by
        by_contra hne
        exact hh (g4 _ _ _ (k8 r hr).1 hne)
      rw [h1]
      simp only [inPartition, List.flatMap_cons, List.flatMap_nil, List.append_nil,
        List.flatMap_eq_nil_iff]
      intro e he q hq
      rw [if_neg]
      rintro ⟨rfl, rfl⟩
      exact hh ⟨q.2, r, hr, rfl, e, he, rfl, hq⟩
  refine ⟨f5, f6, pl.filter (fun x => decide (¬ TryAgain p.cluster reqs1 answer x)), ?_, ?_⟩
  · have hq : (inQueue p.unsent).Perm (pl.map Place.entry) := by
      have : pl.map Place.entry = inQueue p.unsent.reverse := f2.all
      rw [this]
      unfold inQueue
      exact (List.reverse_perm _).symm.flatMap_right _
    refine hq.trans (List.Perm.trans ?_ (f3.symm.append_right _))
    rw [← List.map_append]
    refine List.Perm.map _ ?_
    have := List.filter_append_perm (fun x => decide (TryAgain p.cluster reqs1 answer x)) pl
    refine List.Perm.trans this.symm (List.Perm.of_eq ?_)
    congr 1
    refine List.filter_congr fun x _ => ?_
    simp
  · intro t part
    have hst : stored read answer reqs1 t part = reqs1.flatMap fun r =>
        if (t, part, 0) ∈ (answer r).answers then placedOn pl r.broker t part else [] := by
      refine List.flatMap_congr fun r hr => ?_
      rw [hin r hr]
    rw [hst, List.filter_filter]
    cases hl : ((p.cluster.leaders.get? t).getD []).get? part with
    | none =>
      have hno : ∀ x ∈ pl, ¬ (x.topic = t ∧ x.part = part) := by
        rintro x hx ⟨rfl, rfl⟩
        rw [f2.led x hx] at hl
        cases hl
      have h1 : ∀ b, placedOn pl b t part = [] := by
        intro b
        simp only [placedOn, List.map_eq_nil_iff, List.filter_eq_nil_iff, decide_eq_true_eq]
        exact fun x hx h => hno x hx h.2
      rw [List.filter_eq_nil_iff.2 (fun x hx => by simp [hno x hx])]
      simp [h1]
    | some l =>
      have hlead : ∀ x ∈ pl, x.topic = t ∧ x.part = part → x.leader = l := by
        rintro x hx ⟨rfl, rfl⟩
        rw [f2.led x hx] at hl
        exact Option.some.inj hl
      have hplaced : ∀ b, placedOn pl b t part =
          if b = l then (pl.filter fun x => decide (x.topic = t ∧ x.part = part)).map (·.msg)
          else [] := by
        intro b
        split
        · rename_i hb
          subst hb
          refine congrArg _ (List.filter_congr fun x hx => ?_)
          by_cases h : x.topic = t ∧ x.part = part
          · simp [h, hlead x hx h]
          · simp [h]
        · rename_i hb
          simp only [placedOn, List.map_eq_nil_iff, List.filter_eq_nil_iff, decide_eq_true_eq]
          rintro x hx ⟨h1, h2⟩
          exact hb (h1.symm.trans (hlead x hx h2))
      by_cases hr : ∃ r ∈ reqs1, r.broker = l
      · obtain ⟨r, hr, rfl⟩ := hr
        have hone : (reqs1.flatMap fun r =>
            if (t, part, 0) ∈ (answer r).answers then placedOn pl r.broker t part else []) =
            if (t, part, 0) ∈ (answer r).answers then placedOn pl r.broker t part else [] := by
          obtain ⟨xs, ys, rfl⟩ := List.append_of_mem hr
          have hb := g2.1
          rw [List.map_append, List.map_cons, List.nodup_middle, List.nodup_cons] at hb
          have hz : ∀ r' ∈ xs ++ ys, (if (t, part, 0) ∈ (answer r').answers then
              placedOn pl r'.broker t part else []) = [] := by
            intro r' hr'
            have hne : ¬ r'.broker = r.broker := fun he => hb.1
              (by rw [← List.map_append]; exact List.mem_map.2 ⟨r', hr', he⟩)
            rw [hplaced, if_neg hne, ite_self]
          rw [List.flatMap_append, List.flatMap_cons,
            List.flatMap_eq_nil_iff.2 (fun r' h => hz r' (List.mem_append_left _ h)),
            List.flatMap_eq_nil_iff.2 (fun r' h => hz r' (List.mem_append_right _ h)),
            List.nil_append, List.append_nil]
        rw [hone, hplaced, if_pos rfl]
        have hcon := (k8 r hr).1
        have hiff : ∀ x ∈ pl, x.topic = t ∧ x.part = part →
            (¬ TryAgain p.cluster reqs1 answer x ↔ (t, part, 0) ∈ (answer r).answers) := by
          rintro x hx ⟨rfl, rfl⟩
          have hxl := hlead x hx ⟨rfl, rfl⟩
          have hans := ho.proper reqs1 g2 r hr
          obtain ⟨set, hhold⟩ := g4 r.broker x.topic x.part hcon (by
            rw [hplaced, if_pos rfl]
            exact List.ne_nil_of_mem (List.mem_map.2 ⟨x, List.mem_filter.2 ⟨hx, by simp⟩, rfl⟩))
          obtain ⟨r', hr', hb, e, he, e1, e2⟩ := hhold
          obtain rfl : r' = r := List.inj_on_of_nodup_map g2.1 hr' hr hb
          have habout : (x.topic, x.part) ∈ (answer r').answers.map (fun x => (x.1, x.2.1)) :=
            (hans.about _ _).2 ⟨e, he, e1, List.mem_map.2 ⟨_, e2, rfl⟩⟩
          obtain ⟨a, ha, hae⟩ := List.mem_map.1 habout
          simp only [Prod.mk.injEq] at hae
          have hone : ∀ a' ∈ (answer r').answers, a'.1 = x.topic → a'.2.1 = x.part → a' = a := by
            intro a' ha' h1 h2
            exact List.inj_on_of_nodup_map hans.once ha' ha (by simp [h1, h2, hae])
          have htry : TryAgain p.cluster reqs1 answer x ↔
              RetriableIn (answer r') x.topic x.part := by
            constructor
            · rintro (h | ⟨r2, hr2, hb2, h⟩)
              · rw [hxl, hcon] at h
                cases h
              · obtain rfl : r2 = r' := List.inj_on_of_nodup_map g2.1 hr2 hr (hb2.trans hxl)
                exact h
            · exact fun h => .inr ⟨r', hr, hxl.symm, h⟩
          rw [htry]
          constructor
          · intro hn
            rcases hcodes r' a ha with h0 | h0
            · have : (x.topic, x.part, (0 : Int)) = a := by
                rw [← hae.1, ← hae.2, ← h0]
              rw [this]
              exact ha
            · exact absurd ⟨a.2.2, h0, by rw [← hae.1, ← hae.2]; exact ha⟩ hn
          · rintro h0 ⟨code, hc, h1⟩
            have e0 := hone _ h0 rfl rfl
            have e1 := hone _ h1 rfl rfl
            rw [← e1] at e0
            simp only [Prod.mk.injEq, true_and] at e0
            rw [← e0] at hc
            exact absurd hc (by decide)
        split
        · rename_i h0
          refine congrArg _ (List.filter_congr fun x hx => ?_)
          by_cases h : x.topic = t ∧ x.part = part
          · simp [h, (hiff x hx h).2 h0]
          · simp [h]
        · rename_i h0
          symm
          rw [List.map_eq_nil_iff, List.filter_eq_nil_iff]
          intro x hx hc
          simp only [Bool.and_eq_true, decide_eq_true_eq] at hc
          exact h0 ((hiff x hx hc.1).1 hc.2)
      · have hz : (reqs1.flatMap fun r => if (t, part, 0) ∈ (answer r).answers then
            placedOn pl r.broker t part else []) = [] := by
          rw [List.flatMap_eq_nil_iff]
          intro r hr'
          rw [hplaced, if_neg (fun h => hr ⟨r, hr', h⟩), ite_self]
        rw [hz]
        symm
        rw [List.map_eq_nil_iff, List.filter_eq_nil_iff]
        intro x hx hc
        simp only [Bool.and_eq_true, decide_eq_true_eq] at hc
        have hl' := hlead x hx hc.1
        refine hc.2 ?_
        by_contra hn
        have hcon : p.cluster.conns.has x.leader = true := by
          by_contra h
          exact hn (.inl (by simpa using h))
        obtain ⟨set, r, hr', hb, _⟩ := g4 x.leader t part hcon (by
          rw [hplaced, if_pos hl']
          exact List.ne_nil_of_mem (List.mem_map.2 ⟨x, List.mem_filter.2 ⟨hx, by simpa using hc.1⟩, rfl⟩))
        exact hr ⟨r, hr', hb.trans hl'⟩

/-! ### Histories -/

theorem places_interleaving (done : List (Place κ β)) :
    Interleaving (fun t part =>
      ((done.filter fun x => decide (x.topic = t ∧ x.part = part)).map (·.msg)).map (·.value))
      (plain (done.map Place.entry)) := by
  refine ⟨done.map fun x => ((x.topic, x.part), x.msg.value), ?_, fun t part => ?_⟩
  · simp [plain, Place.entry, Function.comp_def]
  · beta_reduce
    rw [List.filter_map, List.map_map, List.map_map]
    refine congrArg _ (List.filter_congr fun x _ => ?_)
    simp [Prod.ext_iff]

/-- What has become of messages: those accepted, made by others, or waiting before, are waiting now,
or are what the logs have gained. -/
def Accounted (p : Producer κ β) (logs : String → Int → List (Int × β)) (acc : List (String × Msg κ β))
    (foreign : List (String × β)) (p' : Producer κ β) (logs' : String → Int → List (Int × β)) :
    Prop :=
  ∃ (add : String → Int → List (Int × β)) (news : String → Int → List β) (st : List (String × β)),
    (∀ t p, logs' t p = logs t p ++ add t p ∧ (add t p).map (·.2) = news t p) ∧
    Interleaving news st ∧
    (plain acc ++ foreign ++ plain (inQueue p.unsent)).Perm (st ++ plain (inQueue p'.unsent))

theorem Accounted.refl (p : Producer κ β) (logs : String → Int → List (Int × β)) :
    Accounted p logs [] [] p logs :=
  ⟨fun _ _ => [], fun _ _ => [], [], by simp, interleaving_nil, by simp [plain]⟩

theorem Accounted.trans {p p' p'' : Producer κ β} {logs logs' logs'' : String → Int → List (Int × β)}
    {acc acc' : List (String × Msg κ β)} {foreign foreign' : List (String × β)}
    (h : Accounted p logs acc foreign p' logs') (h' : Accounted p' logs' acc' foreign' p'' logs'') :
    Accounted p logs (acc ++ acc') (foreign ++ foreign') p'' logs'' := by
  obtain ⟨add, news, st, k4, k5, k6⟩ := h
  obtain ⟨add', news', st', i4, i5, i6⟩ := h'
  refine ⟨fun t p => add t p ++ add' t p, _, st ++ st', fun t p => ⟨?_, ?_⟩,
    interleaving_append k5 i5, ?_⟩
  · rw [(i4 t p).1, (k4 t p).1, List.append_assoc]
  · rw [List.map_append, (k4 t p).2, (i4 t p).2]
  · have e1 : (plain (acc ++ acc') ++ (foreign ++ foreign') ++ plain (inQueue p.unsent)).Perm
        ((plain acc ++ foreign ++ plain (inQueue p.unsent)) ++ (plain acc' ++ foreign')) := by
      classical
      rw [List.perm_iff_count]
      intro x
      simp only [plain, List.map_append, List.count_append]
      omega
    refine e1.trans ((k6.append_right _).trans ?_)
    rw [List.append_assoc, List.append_assoc]
    exact (List.perm_append_comm.trans i6).append_left _

theorem made_accounted {pcfg : PCfg α κ β} {read : γ → List (Msg κ β)} {p p' : Producer κ β}
    {logs logs' : String → Int → List (Int × β)} {acc : List (String × Msg κ β)}
    {foreign : List (String × β)} (h : Made pcfg read p logs acc foreign p' logs')
    (hw : WF p) (hu : p.unsent.keys.Nodup) (hl : ∀ t p, IsLog (logs t p)) :
    WF p' ∧ p'.unsent.keys.Nodup ∧ (∀ t p, IsLog (logs' t p)) ∧
    Accounted p logs acc foreign p' logs' := by
  cases h with
  | flush ho hcodes hread hf hg =>
    obtain ⟨a1, a2, done, a3, a4⟩ := flush_stored hw hu ho hcodes hread hf
    have hg2 := fun t p => (hg t p).2
    choose add hadd using hg2
    refine ⟨a1, a2, fun t p => (hg t p).1, add, _, plain (done.map Place.entry), hadd, ?_, ?_⟩
    · simp only [a4]
      exact places_interleaving done
    · have := (a3.trans List.perm_append_comm).map
        fun m : String × Msg κ β => (m.1, m.2.value)
      simpa [plain] using this
  | other hev hstep =>
    obtain ⟨o1, o2, _, o4⟩ := other_step hev hw hu hstep
    refine ⟨o1, o2, hl, fun _ _ => [], fun _ _ => [], [], by simp, interleaving_nil, ?_⟩
    have := (o4.map fun m : String × Msg κ β => (m.1, m.2.value)).symm
    simpa [plain] using this
  | @foreign _ _ t part v hg =>
    have hg2 := fun t p => (hg t p).2
    choose add hadd using hg2
    refine ⟨hw, hu, fun t p => (hg t p).1, add, _, [(t, v)], hadd,
      ⟨[((t, part), v)], rfl, fun t' p' => ?_⟩, by simp [plain]⟩
    by_cases h1 : t' = t ∧ p' = part
    · obtain ⟨rfl, rfl⟩ := h1
      simp
    · have h2 : ¬ (t, part) = (t', p') := fun h => h1 (by simp_all)
      beta_reduce
      rw [if_neg h1, List.filter_cons_of_neg (by simpa using h2)]
      rfl

/-- What the logs have gained in the course of things. -/
theorem pipeline_stored {pcfg : PCfg α κ β} {read : γ → List (Msg κ β)}
    {allocation : Consumer ε → Res (Dict String (List Int))}
    {determine : String → Consumer ε → Res Unit × Consumer ε} {cfg : CCfg β δ}
    {w w' : World κ β ε} {acc : List (String × Msg κ β)} {foreign : List (String × β)}
    {outs : List (String × δ)}
    (h : Pipeline pcfg read allocation determine cfg w acc foreign outs w')
    (hw : WF w.producer) (hu : w.producer.unsent.keys.Nodup) (hl : ∀ t p, IsLog (w.logs t p)) :
    WF w'.producer ∧ w'.producer.unsent.keys.Nodup ∧ (∀ t p, IsLog (w'.logs t p)) ∧
    Accounted w.producer w.logs acc foreign w'.producer w'.logs := by
  induction h with
  | nil w => exact ⟨hw, hu, hl, .refl _ _⟩
  | @cons w w1 w2 acc acc' foreign foreign' outs outs' h _ ih =>
    cases h with
    | made h =>
      obtain ⟨k1, k2, k3, k4⟩ := made_accounted h hw hu hl
      obtain ⟨i1, i2, i3, i4⟩ := ih k1 k2 k3
      exact ⟨i1, i2, i3, k4.trans i4⟩
    | consume _ _ _ _ =>
      obtain ⟨i1, i2, i3, i4⟩ := ih hw hu hl
      exact ⟨i1, i2, i3, (Accounted.refl _ _).trans i4⟩

theorem grow_honest {logs logs' : String → Int → List (Int × β)} {env : ConsumeEnv ε β}
    (hg : ∀ t p, logs t p <+: logs' t p) (h : HonestFetch Batch logs env) :
    HonestFetch Batch logs' env := by
  intro reqs
  refine ⟨(h reqs).1, fun b r hbr => ?_⟩
  obtain ⟨q, hq, e, ps, f1, f2, f3⟩ := (h reqs).2 b r hbr
  refine ⟨q, hq, e, ps, f1, f2, fun p hp => ⟨(f3 p hp).1, fun h0 => ?_⟩⟩
  obtain ⟨f, g1, g2, g3⟩ := (f3 p hp).2 h0
  refine ⟨f, g1, g2, g3.trans ?_⟩
  obtain ⟨rest, hr⟩ := hg q.topic p.id
  rw [← hr, List.filter_append]
  exact List.prefix_append _ _

theorem made_logs {pcfg : PCfg α κ β} {read : γ → List (Msg κ β)} {p p' : Producer κ β}
    {logs logs' : String → Int → List (Int × β)} {acc : List (String × Msg κ β)}
    {foreign : List (String × β)} (h : Made pcfg read p logs acc foreign p' logs') (t : String)
    (part : Int) : logs t part <+: logs' t part := by
  cases h with
  | flush _ _ _ _ hg => obtain ⟨add, h1, _⟩ := (hg t part).2; exact ⟨add, h1.symm⟩
  | other _ _ => exact List.prefix_refl _
  | foreign hg => obtain ⟨add, h1, _⟩ := (hg t part).2; exact ⟨add, h1.symm⟩

theorem pipeline_logs {pcfg : PCfg α κ β} {read : γ → List (Msg κ β)}
    {allocation : Consumer ε → Res (Dict String (List Int))}
    {determine : String → Consumer ε → Res Unit × Consumer ε} {cfg : CCfg β δ}
    {w w' : World κ β ε} {acc : List (String × Msg κ β)} {foreign : List (String × β)}
    {outs : List (String × δ)}
    (h : Pipeline pcfg read allocation determine cfg w acc foreign outs w') (t : String) (p : Int) :
    w.logs t p <+: w'.logs t p := by
  induction h with
  | nil w => exact List.prefix_refl _
  | cons h _ ih =>
    refine List.IsPrefix.trans ?_ ih
    cases h with
    | made h => exact made_logs h t p
    | consume _ _ _ _ => exact List.prefix_refl _

theorem pipeline_consumed {pcfg : PCfg α κ β} {read : γ → List (Msg κ β)}
    {allocation : Consumer ε → Res (Dict String (List Int))}
    {determine : String → Consumer ε → Res Unit × Consumer ε} {cfg : CCfg β δ}
    {w w' : World κ β ε} {acc : List (String × Msg κ β)} {foreign : List (String × β)}
    {outs : List (String × δ)}
    (h : Pipeline pcfg read allocation determine cfg w acc foreign outs w') :
    Consumed allocation determine cfg Batch w'.logs w.consumer outs w'.consumer := by
  induction h with
  | nil w => exact .nil _
  | cons h hrest ih =>
    cases h with
    | made _ => exact ih
    | consume hh htick hc hd =>
      exact .cons (grow_honest (pipeline_logs hrest) hh) htick hc hd ih

/-- What has been read up to some positions is what has been made, less what is waiting. -/
theorem accounted_delivered {p p' : Producer κ β} {logs logs' : String → Int → List (Int × β)}
    {acc : List (String × Msg κ β)} {foreign : List (String × β)}
    (h : Accounted p logs acc foreign p' logs') (hnil : inQueue p.unsent = [])
    (hl' : ∀ t p, IsLog (logs' t p)) (cfg : CCfg β δ) {base pos : String → Int → Int}
    (hstart : ∀ t p, ∀ m ∈ logs' t p, m.1 < base t p ↔ m ∈ logs t p)
    (c1 : ∀ t p, base t p ≤ pos t p) {outs : List (String × δ)}
    (c2 : Interleaving (fun t p => (values cfg ((logs' t p).filter fun m =>
      decide (base t p ≤ m.1 ∧ m.1 < pos t p))).filter cfg.truthy) outs) :
    outs.Subperm (returnable cfg (plain acc ++ foreign)) ∧
    (inQueue p'.unsent = [] → (∀ t p, ahead cfg (logs' t p) (pos t p) = []) →
      outs.Perm (returnable cfg (plain acc ++ foreign))) := by
  obtain ⟨add, news, st, h1, h2, h3⟩ := h
  rw [hnil] at h3
  simp only [plain, List.map_nil, List.append_nil] at h3
  have hfil : ∀ t p, (logs' t p).filter (fun m => decide (base t p ≤ m.1)) =
      add t p := by
    intro t p
    have hs := (hl' t p).sorted
    have hst := hstart t p
    rw [(h1 t p).1] at hs hst ⊢
    rw [List.filter_append, List.filter_eq_nil_iff.2, List.filter_eq_self.2, List.nil_append]
    · intro m hm
      simp only [decide_eq_true_eq]
      by_contra hlt
      have hold := (hst m (List.mem_append_right _ hm)).1 (by omega)
      have := (List.pairwise_append.1 hs).2.2 m hold m hm
      omega
    · intro m hm
      have := (hst m (List.mem_append_left _ hm)).2 hm
      simp only [decide_eq_true_eq]
      omega
  have hrest : ∀ t p, restOf cfg (logs' t p) (base t p) =
      ((news t p).filterMap (decode cfg)).filter cfg.truthy := by
    intro t p
    rw [restOf, hfil, ← (h1 t p).2, values, List.filterMap_map]
    rfl
  have hret := interleaving_returnable cfg h2
  have hsub : ∀ q : List (String × β), (st ++ q).Perm (plain acc ++ foreign) →
      (returnable cfg st ++ returnable cfg q).Perm (returnable cfg (plain acc ++ foreign)) := by
    intro q hq
    have := hq.filterMap fun m : String × β => (decode cfg m.2).bind fun d =>
      if cfg.truthy d then some (m.1, d) else .none
    rw [List.filterMap_append] at this
    exact this
  have hall := hsub _ h3.symm
  constructor
  · refine List.Subperm.trans ?_ ((List.sublist_append_left _ _).subperm.trans hall.subperm)
    refine interleaving_subperm c2 hret fun t p => ?_
    have := window_rest cfg (hl' t p) (c1 t p)
    rw [← hrest t p, this]
    exact (List.sublist_append_left _ _).subperm
  · intro hq hd
    rw [hq] at hall
    simp only [List.map_nil, returnable, List.filterMap_nil, List.append_nil] at hall
    refine List.Perm.trans ?_ hall
    refine interleaving_perm (a := fun t p => ((news t p).filterMap (decode cfg)).filter cfg.truthy)
      ?_ hret
    have e : (fun t p => ((news t p).filterMap (decode cfg)).filter cfg.truthy) = fun t p =>
        (values cfg ((logs' t p).filter fun m => decide (base t p ≤ m.1 ∧
          m.1 < pos t p))).filter cfg.truthy := by
      funext t p
      rw [← hrest t p, window_rest cfg (hl' t p) (c1 t p), rest_done cfg (hd t p), List.append_nil]
      rfl
    rw [e]
    exact c2

/-- **C99.**  A producer and a consumer work at the same time, against brokers that store what they
acknowledge and serve what they have stored, and in between messages of other producers are stored;
flushes may be refused with retriable errors and leaders may be lost, fetches may fail.  At any time
the consumer has returned only messages that were accepted by this producer or stored by others since
it began, none more often than it was made.  If the producer's queue is empty and the consumer has
nothing ahead, it has returned all of them (that can be deserialized and are not false to Python),
each exactly once. -/
theorem C99_pipeline (pcfg : PCfg α κ β) (read : γ → List (Msg κ β))
    (allocation : Consumer ε → Res (Dict String (List Int)))
    (determine : String → Consumer ε → Res Unit × Consumer ε) (cfg : CCfg β δ)
    (cl : Cluster) (n : Int) (w w' : World κ β ε) (acc : List (String × Msg κ β))
    (foreign : List (String × β)) (outs : List (String × δ))
    (h : Pipeline pcfg read allocation determine cfg w acc foreign outs w')
    (hnew : w.producer = Producer.new cl n) (hl : ∀ t p, IsLog (w.logs t p))
    (hstart : ∀ t p, ∀ m ∈ w'.logs t p,
      m.1 < offsetOf w.consumer.offsets t p ↔ m ∈ w.logs t p) :
    outs.Subperm (returnable cfg (plain acc ++ foreign)) ∧
    (inQueue w'.producer.unsent = [] →
      (∀ t p, ahead cfg (w'.logs t p) (offsetOf w'.consumer.offsets t p) = []) →
      outs.Perm (returnable cfg (plain acc ++ foreign))) := by
  obtain ⟨_, _, hl', hk⟩ := pipeline_stored h
    (by rw [hnew]; exact wf_new cl n) (by rw [hnew]; simp [Producer.new, Dict.keys]) hl
  obtain ⟨c1, c2⟩ := C38_exactly_once_partial allocation determine cfg w'.logs hl' _ _ _
    (pipeline_consumed h)
  exact accounted_delivered hk (by rw [hnew]; rfl) hl' cfg hstart c1 c2

/-- **C99**, getting there: at any time, one flush without trouble empties the producer's queue; and
if a partition is then supplied to the consumer as often as there are messages ahead, there are none
ahead any more. -/
theorem C99_settles (pcfg : PCfg α κ β) (read : γ → List (Msg κ β))
    (allocation : Consumer ε → Res (Dict String (List Int)))
    (determine : String → Consumer ε → Res Unit × Consumer ε) (cfg : CCfg β δ)
    (cl : Cluster) (n : Int) (w w' : World κ β ε) (acc : List (String × Msg κ β))
    (foreign : List (String × β)) (outs : List (String × δ))
    (h : Pipeline pcfg read allocation determine cfg w acc foreign outs w')
    (hnew : w.producer = Producer.new cl n) (hl : ∀ t p, IsLog (w.logs t p)) :
    (∀ (env : FlushEnv κ β γ) (answer : PReq γ → PResp), Orderly env answer w'.producer →
      Calm answer w'.producer.cluster →
      ∃ p' reqs, w'.producer.flush env = (.ok (), p', reqs) ∧ inQueue p'.unsent = []) ∧
    ∀ t p c outs', ConsumedN allocation determine cfg Batch w'.logs t p
        (ahead cfg (w'.logs t p) (offsetOf w'.consumer.offsets t p)).length w'.consumer outs' c →
      ahead cfg (w'.logs t p) (offsetOf c.offsets t p) = [] := by
  obtain ⟨k1, k2, k3, _⟩ := pipeline_stored h (by rw [hnew]; exact wf_new cl n)
    (by rw [hnew]; simp [Producer.new, Dict.keys]) hl
  refine ⟨fun env answer ho hc => ?_, fun t p c outs' hn => ?_⟩
  · obtain ⟨p', reqs, pl, f1, f2, _, f3, _⟩ := C98_round env answer w'.producer k1 k2 ho
    have hno : ∀ x ∈ pl, ¬ TryAgain w'.producer.cluster reqs answer x := by
      rintro x hx (h1 | ⟨r, _, _, code, h2, h3⟩)
      · rw [hc.leaders _ _ _ (f2.led x hx)] at h1
        cases h1
      · exact hc.codes r _ h3 h2
    rw [List.filter_eq_nil_iff.2 (fun x hx => by simpa using hno x hx)] at f3
    exact ⟨p', reqs, f1, f3.eq_nil⟩
  · have hlen := consumedN_ahead k3 (hn.mono fun t p _ _ => Batch.sets (k3 t p))
    rw [← List.length_eq_zero_iff]
    omega

/-! ### Example -/

/-- The logs of the two partitions of topic "t". -/
def exLogs (a b : List (Int × Nat)) (t : String) (p : Int) : List (Int × Nat) :=
  if t = "t" then if p = 0 then a else if p = 1 then b else [] else []

theorem exLogs_all (a b : List (Int × Nat)) (P : String → Int → List (Int × Nat) → Prop)
    (h0 : P "t" 0 a) (h1 : P "t" 1 b) (h : ∀ t p, ¬ (t = "t" ∧ (p = 0 ∨ p = 1)) → P t p []) (t : String)
    (p : Int) : P t p (exLogs a b t p) := by
  by_cases ht : t = "t"
  · by_cases hp : p = 0
    · subst ht hp; exact h0
    · by_cases hp1 : p = 1
      · subst ht hp1; exact h1
      · have := h t p (by simp [hp, hp1])
        simpa [exLogs, hp, hp1] using this
  · have := h t p (by simp [ht])
    simpa [exLogs, ht] using this

/-- A broker that is asked for two partitions and serves all there is. -/
def exServeLogs (logs : String → Int → List (Int × Nat)) : ConsumeEnv ε Nat where
  outcomes reqs := match reqs with
    | [⟨b, _, _, t, [f, g]⟩] =>
      if f.id = g.id then [] else
        [(b, .ok ⟨[(t, [⟨f.id, 0, (logs t f.id).filter fun m => decide (f.offset ≤ m.1)⟩,
          ⟨g.id, 0, (logs t g.id).filter fun m => decide (g.offset ≤ m.1)⟩])]⟩)]
    | _ => []
  write _ := .none
  heal cl := (.ok (), cl)
  healC cl := (.ok (), cl)
  tick _ c := c

theorem exServeLogs_honest (logs : String → Int → List (Int × Nat)) :
    HonestFetch Batch logs (exServeLogs (ε := ε) logs) := by
  intro reqs
  simp only [exServeLogs]
  split
  · rename_i b w m t f g
    split
    · exact ⟨by simp, by simp⟩
    · rename_i hne
      refine ⟨by simp, ?_⟩
      intro b' r hr
      simp only [List.mem_singleton, Prod.mk.injEq, Except.ok.injEq] at hr
      obtain ⟨rfl, rfl⟩ := hr
      refine ⟨⟨b', w, m, t, [f, g]⟩, by simp, rfl, _, rfl, by simpa using hne, ?_⟩
      intro p hp
      simp only [List.mem_cons, List.not_mem_nil, or_false] at hp
      rcases hp with rfl | rfl
      · exact ⟨by simp, fun _ => ⟨f, by simp, rfl, List.prefix_refl _⟩⟩
      · exact ⟨by simp, fun _ => ⟨g, by simp, rfl, List.prefix_refl _⟩⟩
  · exact ⟨by simp, by simp⟩

-- Non-vacuity of C99: two messages are produced, the first flush is refused, another producer's message
-- is stored and consumed, the second flush succeeds, and the rest is consumed.
example : ∃ w' : World Nat Nat Unit,
    Pipeline (γ := List (Msg Nat Nat)) exPCfg id Single.allocation exNoDetermine exCCfg
      ⟨Producer.new exPCluster 41, { exConsumer with cluster := exPCluster }, fun _ _ => []⟩
      [("t", ⟨1, 1⟩), ("t", ⟨0, 2⟩)] [("t", 8)] [("t", 8), ("t", 2), ("t", 1)] w' ∧
    (∀ t p, ∀ m ∈ w'.logs t p, m.1 < offsetOf exConsumer.offsets t p ↔ m ∈ ([] : List (Int × Nat))) ∧
    inQueue w'.producer.unsent = [] ∧
    ∀ t p, ahead exCCfg (w'.logs t p) (offsetOf w'.consumer.offsets t p) = [] := by
  let p2 : Producer Nat Nat := ⟨exPCluster, [("t", [⟨1, 1⟩, ⟨0, 2⟩])], [], false, false, 41⟩
  let p3 : Producer Nat Nat := ⟨exPCluster, [("t", [⟨1, 1⟩, ⟨0, 2⟩])], [], false, false, 42⟩
  let p4 : Producer Nat Nat := ⟨exPCluster, [], [], false, false, 43⟩
  let c0 : Single := { exConsumer with cluster := exPCluster }
  let c1 : Single := { c0 with offsets := [("t", [(0, 1), (1, 0)])] }
  let c2 : Single := { c0 with offsets := [("t", [(0, 2), (1, 1)])] }
  let l1 := exLogs [(0, 8)] []
  let l2 := exLogs [(0, 8), (1, 2)] [(0, 1)]
  let req (n : Int) : PReq (List (Msg Nat Nat)) := ⟨7, n, [("t", [(1, [⟨1, 1⟩]), (0, [⟨0, 2⟩])])]⟩
  have hcodes : ∀ code : Int, code = 0 ∨ Retriable code → ∀ r, ∀ a ∈ (exAnswerAll code r).answers,
      a.2.2 = 0 ∨ Retriable a.2.2 := by
    intro code hcode r a ha
    simp only [exAnswerAll, PResp.answers, List.flatMap_map, List.mem_flatMap, List.mem_map] at ha
    obtain ⟨_, _, _, ⟨_, _, rfl⟩, rfl⟩ := ha
    exact hcode
  refine ⟨⟨p4, c2, l2⟩, ?_, ?_, rfl, ?_⟩
  · refine .cons (acc := [("t", ⟨1, 1⟩)]) (foreign := []) (outs := [])
      (.made (.other (ev := .produce "t" 1) (e := .none) rfl rfl)) <|
      .cons (acc := [("t", ⟨0, 2⟩)]) (foreign := []) (outs := [])
        (w1 := ⟨p2, c0, fun _ _ => []⟩)
        (.made (.other (ev := .produce "t" 2) (e := .none) (p' := p2) rfl (by decide +kernel))) <|
      .cons (acc := []) (foreign := []) (outs := []) (w1 := ⟨p3, c0, fun _ _ => []⟩)
        (.made <| .flush (env := exFlush (exPAnswer 6)) (answer := exAnswerAll 6) (reqs := [req 42])
          (exOrderly 6 (by decide) p2 rfl (by decide +kernel)) (hcodes 6 (by decide))
          (fun ms s h => (Except.ok.inj h).symm) (by decide +kernel) ?_) <|
      .cons (acc := []) (foreign := [("t", 8)]) (outs := []) (w1 := ⟨p3, c0, l1⟩)
        (.made <| .foreign (part := 0) ?_) <|
      .cons (acc := []) (foreign := []) (outs := [("t", 8)]) (w1 := ⟨p3, c1, l1⟩)
        (.consume (env := exServeLogs l1) (topic := "t") (out := [8])
          (acts := [.fetch [⟨7, 1000, 1, "t", [⟨0, 0, 50⟩, ⟨1, 0, 50⟩]⟩]])
          (exServeLogs_honest l1) (fun _ _ => rfl) (by decide +kernel) (by decide)) <|
      .cons (acc := []) (foreign := []) (outs := []) (w1 := ⟨p4, c1, l2⟩)
        (.made <| .flush (env := exFlush (exPAnswer 0)) (answer := exAnswerAll 0) (reqs := [req 43])
          (exOrderly 0 (by decide) p3 rfl (by decide +kernel)) (hcodes 0 (by decide))
          (fun ms s h => (Except.ok.inj h).symm) (by decide +kernel) ?_) <|
      .cons (acc := []) (foreign := []) (outs := [("t", 2), ("t", 1)]) (w1 := ⟨p4, c2, l2⟩)
        (.consume (env := exServeLogs l2) (topic := "t") (out := [2, 1])
          (acts := [.fetch [⟨7, 1000, 1, "t", [⟨0, 1, 50⟩, ⟨1, 0, 50⟩]⟩]])
          (exServeLogs_honest l2) (fun _ _ => rfl) (by decide +kernel) (by decide)) <|
      .nil _
    · intro t p
      refine ⟨⟨by simp, by simp⟩, [], rfl, ?_⟩
      have : ¬ (t, p, (0 : Int)) ∈ (exAnswerAll 6 (req 42)).answers := by
        simp [exAnswerAll, PResp.answers, req]
      simp [stored, this]
    · refine exLogs_all _ _ (fun t p l => IsLog l ∧ ∃ add, l = [] ++ add ∧ add.map (·.2) =
        if t = "t" ∧ p = 0 then [8] else []) ?_ ?_ ?_
      · exact ⟨⟨by simp, by simp⟩, _, rfl, by simp⟩
      · exact ⟨⟨by simp, by simp⟩, _, rfl, by simp⟩
      · intro t p h
        refine ⟨⟨by simp, by simp⟩, [], rfl, ?_⟩
        rw [if_neg (fun h' => h ⟨h'.1, .inl h'.2⟩)]
        rfl
    · refine exLogs_all _ _ (fun t p l => IsLog l ∧ ∃ add, l = l1 t p ++ add ∧ add.map (·.2) =
        (stored id (exAnswerAll 0) [req 43] t p).map (·.value)) ?_ ?_ ?_
      · exact ⟨⟨by simp, by simp⟩, [(1, 2)], rfl, by decide +kernel⟩
      · exact ⟨⟨by simp, by simp⟩, [(0, 1)], rfl, by decide +kernel⟩
      · intro t p h
        have h1 : l1 t p = [] := by
          by_cases ht : t = "t"
          · have h0 : ¬ p = 0 := fun h' => h ⟨ht, .inl h'⟩
            have h1 : ¬ p = 1 := fun h' => h ⟨ht, .inr h'⟩
            simp [l1, exLogs, h0]
          · simp [l1, exLogs, ht]
        refine ⟨⟨by simp, by simp⟩, [], by rw [h1]; rfl, ?_⟩
        have : ¬ (t, p, (0 : Int)) ∈ (exAnswerAll 0 (req 43)).answers := by
          simp only [exAnswerAll, PResp.answers, req, List.map_cons, List.map_nil, List.flatMap_cons,
            List.flatMap_nil, List.append_nil, List.mem_cons, Prod.mk.injEq, List.not_mem_nil, and_true,
            or_false]
          rintro (h' | h')
          · exact h ⟨h'.1, .inr h'.2⟩
          · exact h ⟨h'.1, .inl h'.2⟩
        simp [stored, this]
  · refine exLogs_all _ _ (fun t p l => ∀ m ∈ l, m.1 < offsetOf exConsumer.offsets t p ↔
      m ∈ ([] : List (Int × Nat))) ?_ ?_ ?_
    · decide +kernel
    · decide +kernel
    · simp
  · refine exLogs_all _ _ (fun t p l => ahead exCCfg l (offsetOf c2.offsets t p) = []) ?_ ?_ ?_
    · decide +kernel
    · decide +kernel
    · intro t p _; rfl

end Kiel
