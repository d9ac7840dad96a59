import Verif.Spec.Delivery
import Verif.Props.Order
/-
C98: flushing until everything has been handed over.
-/
set_option autoImplicit false
namespace Kiel
open Spec

variable {α κ β γ : Type}

/-! ### Lists -/

theorem perm_of_topics {X : Type} {l l' : List (String × X)}
    (h : ∀ t, (l.filter fun x => decide (x.1 = t)).Perm (l'.filter fun x => decide (x.1 = t))) :
    l.Perm l' := by
  classical
  rw [List.perm_iff_count]
  rintro ⟨t, m⟩
  have h1 : ∀ l : List (String × X),
      (l.filter fun x => decide (x.1 = t)).count (t, m) = l.count (t, m) := fun l =>
    List.count_filter (by simp)
  rw [← h1 l, ← h1 l', (h t).count_eq]

theorem inQueue_filter (q : Dict String (List (Msg κ β))) (hn : q.keys.Nodup) (t : String) :
    (inQueue q).filter (fun x => decide (x.1 = t)) = (queueOf q t).map fun m => (t, m) := by
  have h1 : (inQueue q).filter (fun x => decide (x.1 = t)) =
      q.flatMap fun e => if e.1 = t then e.2.map fun m => (t, m) else [] := by
    unfold inQueue
    rw [List.filter_flatMap]
    congr 1
    funext e
    by_cases h : e.1 = t
    · subst h; simp [List.filter_map, Function.comp_def]
    · simp [List.filter_map, Function.comp_def, h]
  rw [h1, flatMap_key q hn t (fun ms => ms.map fun m => (t, m)), queueOf]
  cases q.get? t <;> simp

/-- Collecting by key. -/
theorem perm_by_key {X K : Type} [DecidableEq K] (l : List X) (key : X → K) (ks : List K)
    (hn : ks.Nodup) :
    (ks.flatMap fun k => l.filter fun x => decide (key x = k)).Perm
      (l.filter fun x => decide (key x ∈ ks)) := by
  induction ks with
  | nil => simp
  | cons k ks ih =>
    rw [List.nodup_cons] at hn
    rw [List.flatMap_cons]
    refine ((ih hn.2).append_left _).trans ?_
    have h1 : (l.filter fun x => decide (key x ∈ ks)) =
        (l.filter fun x => decide (key x ∈ k :: ks)).filter fun x => !decide (key x = k) := by
      rw [List.filter_filter]
      refine List.filter_congr fun x _ => ?_
      by_cases h : key x = k
      · simp [h, hn.1]
      · simp [h]
    have h2 : (l.filter fun x => decide (key x = k)) =
        (l.filter fun x => decide (key x ∈ k :: ks)).filter fun x => decide (key x = k) := by
      rw [List.filter_filter]
      refine List.filter_congr fun x _ => ?_
      by_cases h : key x = k <;> simp [h]
    rw [h1, h2]
    exact List.filter_append_perm _ _

/-! ### The answers of one flush -/

theorem wf_erase {p : Producer κ β} (hw : WF p) (c : Int) :
    WF { p with sent := p.sent.erase c } := by
  have hsub : (p.sent.erase c).Sublist p.sent := List.filter_sublist
  refine ⟨hw.nodup.sublist (hsub.map _), ?_, ?_⟩
  · intro k hk
    exact hw.old k ((hsub.map _).subset hk)
  · intro e he
    exact hw.topics e (hsub.subset he)

/-- Handling proper answers one after the other. -/
theorem sendLoop_proper (outs : List (Int × PResp)) (results : Dict Int Unit) (s : Producer κ β)
    (heal : Bool) (hs : s.heal = false) (hw : WF s) (hu : s.unsent.keys.Nodup)
    (ha : ∀ o ∈ outs, ∃ ts, s.sent.get? o.2.corr = some ts ∧ Proper ts o.2)
    (hn : (outs.map (·.2.corr)).Nodup) :
    ∃ res s' heal', sendLoop producerHandlers (outs.map fun o => (o.1, .ok o.2)) results s heal =
        (.ok res, s', heal') ∧ WF s' ∧ s'.unsent.keys.Nodup ∧ s'.cluster = s.cluster ∧
      s'.closing = s.closing ∧
      (∀ t, queueOf s'.unsent t = queueOf s.unsent t ++
        outs.flatMap fun o => retried s.sent o.2 t) ∧
      ∀ c, s'.sent.get? c = if c ∈ outs.map (·.2.corr) then .none else s.sent.get? c := by
  induction outs generalizing results s heal with
  | nil => exact ⟨results, s, heal, rfl, hw, hu, rfl, rfl, by simp, by simp⟩
  | cons o outs ih =>
    obtain ⟨b, r⟩ := o
    simp only [List.mem_cons, forall_eq_or_imp, List.map_cons, List.nodup_cons] at ha hn
    obtain ⟨⟨ts, ht1, ht2⟩, ha⟩ := ha
    obtain ⟨p', hp'⟩ := C30_proper s r ts hw ht1 ht2
    obtain ⟨q1, q2, q3, q4, q5, q6, q7⟩ := C30_retry s p' r hw hp'
    obtain ⟨p1, g1, _, g3⟩ := handleResponse_ok hw hp'
    have hw' : WF p' := by rw [g3]; exact wf_erase g1.wf _
    have hu' : p'.unsent.keys.Nodup := by
      have := unsent_handleResponse r hu
      rw [hp'] at this
      exact this
    obtain ⟨res, s', heal', k1, k2, k3, k4, k5, k6, k7⟩ := ih (results.set b ())
      { p' with heal := false } (heal || p'.heal) rfl ⟨hw'.nodup, hw'.old, hw'.topics⟩ hu'
      (by
        intro o ho
        obtain ⟨ts', h1, h2⟩ := ha o ho
        have hne : o.2.corr ≠ r.corr := fun he => hn.1 (List.mem_map.2 ⟨o, ho, he⟩)
        exact ⟨ts', by rw [← h1]; exact q3 _ hne, h2⟩)
      hn.2
    refine ⟨res, s', heal', ?_, k2, k3, k4.trans q5, k5.trans q6, ?_, ?_⟩
    · simp only [List.map_cons, sendLoop, producerHandlers, hp']
      exact k1
    · intro t
      have e1 : queueOf ({ p' with heal := false } : Producer κ β).unsent t =
          queueOf s.unsent t ++ retried s.sent r t := q1 t
      have e2 : (outs.flatMap fun o => retried p'.sent o.2 t) =
          outs.flatMap fun o => retried s.sent o.2 t := by
        refine List.flatMap_congr fun o ho => ?_
        have hne : o.2.corr ≠ r.corr := fun he => hn.1 (List.mem_map.2 ⟨o, ho, he⟩)
        have h3 := q3 _ hne
        unfold retried sentFor
        rw [h3]
      rw [k6 t, e1, List.flatMap_cons, List.append_assoc]
      congr 1
      congr 1
    · intro c
      rw [k7 c]
      by_cases hc : c = r.corr
      · subst hc
        have h4 : ({ p' with heal := false } : Producer κ β).sent.get? r.corr = .none := q4
        simp [h4]
      · have h3 : ({ p' with heal := false } : Producer κ β).sent.get? c = s.sent.get? c := q3 c hc
        by_cases hm : c ∈ outs.map (·.2.corr)
        · rw [if_pos hm, List.map_cons, if_pos (List.mem_cons_of_mem _ hm)]
        · rw [if_neg hm, h3, List.map_cons, if_neg (fun h => (List.mem_cons.1 h).elim hc hm)]

/-- What a flush keeps for its requests. -/
theorem kept_flushed {pick : Nat → κ → List Int → Res Int} {comp : List (Msg κ β) → Res γ}
    {p p' : Producer κ β} {reqs : List (PReq γ)} (hw : WF p)
    (h : p.prepare pick comp = (.ok (some reqs), p')) :
    ∃ pl : List (Place κ β), Placements pick p.cluster p.unsent pl ∧
      (∀ t, queueOf p'.unsent t = unplaced p.cluster pl t) ∧ SameView p.cluster p'.cluster ∧
      NoRepeats reqs ∧
      (∀ c, c ∉ reqs.map (·.corr) → p'.sent.get? c = p.sent.get? c) ∧
      (∀ c ∈ reqs.map (·.corr), p.sent.get? c = .none) ∧
      ∀ req ∈ reqs, p.cluster.conns.has req.broker = true ∧
        ∃ ts, p'.sent.get? req.corr = some ts ∧
          (∀ t part, (∃ ps ms, ts.get? t = some ps ∧ ps.get? part = some ms) ↔
            ∃ e ∈ req.topics, e.1 = t ∧ part ∈ e.2.map Prod.fst) ∧
          ∀ t part, (sentFor p'.sent req.corr t part).getD [] = placedOn pl req.broker t part := by
  obtain ⟨pl, h1, h2, h3, h4, h5, h6, h7, h8, h9, h10⟩ := prepare_ok hw.old h
  have ht := tidyAll_routeTo p.cluster pl ⟨[], []⟩ tidyAll_nil
  obtain ⟨k1, k2⟩ := numbered_keys p.lastId (routeTo p.cluster pl ⟨[], []⟩).ordered
  have hn := noRepeats_of ht h4 (h5 ▸ k1)
  refine ⟨pl, h1, h9, h6, hn, ?_, ?_, ?_⟩
  · intro c hc
    rw [h5] at hc
    rw [h2]
    cases hx : p.sent.get? c with
    | some v => exact get?_append_some hx
    | none =>
      refine Dict.get?_eq_none.2 ?_
      intro hm
      simp only [Dict.keys, List.map_append, List.mem_append] at hm
      rcases hm with hm | hm
      · exact Dict.get?_eq_none.1 hx hm
      · exact hc hm
  · intro c hc
    rw [h5] at hc
    have := k2 c hc
    refine Dict.get?_eq_none.2 fun hm => ?_
    have := hw.old c hm
    omega
  · intro req hreq
    obtain ⟨ts, m1, m2⟩ := numbered_mem h4 h5 req hreq
    have hcon : p.cluster.conns.has req.broker = true := by
      have htid := ht.reqs _ m1
      obtain ⟨x, hx⟩ := List.exists_mem_of_ne_nil _ htid.ne
      obtain ⟨hk, hne, hn⟩ := htid.parts x hx
      obtain ⟨y, hy⟩ := List.exists_mem_of_ne_nil _ hne
      have hs := (sentFor_mem ht req.broker x.1 y.1 y.2).2 ⟨ts, m1, x.2, hx, hy⟩
      have hro := routeTo_ordered p.cluster pl ⟨[], []⟩ req.broker x.1 y.1
      have hnil : sentFor ([] : Dict Int (ByPartition κ β)) req.broker x.1 y.1 = .none := rfl
      rw [hs] at hro
      simp only [hnil, Option.getD_none, List.nil_append, Option.getD_some] at hro
      by_contra hc
      rw [if_neg hc] at hro
      exact hn y hy hro
    have hget : p'.sent.get? req.corr = some ts :=
      Dict.get?_of_mem (wf_prepare hw h).nodup (by rw [h2]; exact List.mem_append_right _ m2)
    have hgo : (routeTo p.cluster pl ⟨[], []⟩).ordered.get? req.broker = some ts :=
      Dict.get?_of_mem ht.nodup m1
    refine ⟨hcon, ts, hget, ?_, ?_⟩
    · intro t part
      obtain ⟨x, hx, e1, e2⟩ := forall2_mem_right h4 hreq
      have hxts : x.2 = ts := by
        have := Dict.get?_of_mem ht.nodup (show (x.1, x.2) ∈ _ from hx)
        rw [e1, hgo] at this
        exact (Option.some.inj this).symm
      rw [hxts] at e2
      have htid := ht.reqs _ m1
      constructor
      · rintro ⟨ps, ms, g1, g2⟩
        obtain ⟨e, he, e3, e4⟩ := forall2_mem_left e2 (Dict.mem_of_get? g1)
        obtain ⟨q, hq, e5, _⟩ := forall2_mem_left e4 (Dict.mem_of_get? g2)
        exact ⟨e, he, e3.symm, List.mem_map.2 ⟨q, hq, e5.symm⟩⟩
      · rintro ⟨e, he, rfl, hp⟩
        obtain ⟨q, hq, rfl⟩ := List.mem_map.1 hp
        obtain ⟨y, hy, e3, e4⟩ := forall2_mem_right e2 he
        obtain ⟨z, hz, e5, _⟩ := forall2_mem_right e4 hq
        refine ⟨y.2, z.2, ?_, ?_⟩
        · rw [← e3]; exact Dict.get?_of_mem htid.nodup hy
        · rw [← e5]; exact Dict.get?_of_mem (htid.parts y hy).1 hz
    · intro t part
      have hro := routeTo_ordered p.cluster pl ⟨[], []⟩ req.broker t part
      have hnil : sentFor ([] : Dict Int (ByPartition κ β)) req.broker t part = .none := rfl
      simp only [hnil, Option.getD_none, List.nil_append] at hro
      rw [if_pos hcon] at hro
      rw [← hro]
      simp only [sentFor, hget, hgo]

/-- The messages of a topic that the answers report retriable errors for. -/
theorem retried_perm (pl : List (Place κ β)) (answer : PReq γ → PResp) (reqs : List (PReq γ))
    (hb : (reqs.map (·.broker)).Nodup) (ha : ∀ r ∈ reqs, AnswersReq r (answer r)) (t : String) :
    (reqs.flatMap fun r => (answer r).answers.flatMap fun a =>
        if a.1 = t ∧ Retriable a.2.2 then placedOn pl r.broker t a.2.1 else []).Perm
      ((pl.filter fun x => decide (x.topic = t ∧
        ∃ r ∈ reqs, r.broker = x.leader ∧ RetriableIn (answer r) x.topic x.part)).map (·.msg)) := by
  let ks : List (Int × Int) := reqs.flatMap fun r =>
    ((answer r).answers.filter fun a => decide (a.1 = t ∧ Retriable a.2.2)).map fun a =>
      (r.broker, a.2.1)
  let plt := pl.filter fun x => decide (x.topic = t)
  have hks : ks.Nodup := by
    refine List.nodup_flatMap.2 ⟨?_, ?_⟩
    · intro r hr
      have hon := (ha r hr).once
      refine List.Nodup.map_on ?_ ((List.Nodup.of_map _ hon).filter _)
      intro x hx y hy he
      simp only [Prod.mk.injEq, true_and] at he
      have hx' := List.mem_filter.1 hx
      have hy' := List.mem_filter.1 hy
      have e1 := (of_decide_eq_true hx'.2).1
      have e2 := (of_decide_eq_true hy'.2).1
      exact List.inj_on_of_nodup_map hon hx'.1 hy'.1 (by simp [he, e1, e2])
    · have hp : reqs.Pairwise fun a b => a.broker ≠ b.broker := List.pairwise_map.1 hb
      refine hp.imp ?_
      intro a b hab k hk1 hk2
      obtain ⟨_, _, rfl⟩ := List.mem_map.1 hk1
      obtain ⟨_, _, he⟩ := List.mem_map.1 hk2
      simp only [Prod.mk.injEq] at he
      exact hab he.1.symm
  have hplaced : ∀ b part, placedOn pl b t part =
      (plt.filter fun x => decide ((x.leader, x.part) = (b, part))).map (·.msg) := by
    intro b part
    simp only [placedOn, plt, List.filter_filter]
    congr 1
    refine List.filter_congr fun x _ => ?_
    by_cases h1 : x.topic = t <;> by_cases h2 : x.leader = b <;> by_cases h3 : x.part = part <;>
      simp [h1, h2, h3]
  have hl : (reqs.flatMap fun r => (answer r).answers.flatMap fun a =>
      if a.1 = t ∧ Retriable a.2.2 then placedOn pl r.broker t a.2.1 else []) =
      (ks.flatMap fun k => plt.filter fun x => decide ((x.leader, x.part) = k)).map (·.msg) := by
    simp only [ks, List.flatMap_assoc, List.map_flatMap, List.flatMap_map]
    refine List.flatMap_congr fun r _ => ?_
    induction (answer r).answers with
    | nil => rfl
    | cons a l ih =>
      rw [List.flatMap_cons, ih]
      by_cases hc : a.1 = t ∧ Retriable a.2.2
      · rw [if_pos hc, List.filter_cons_of_pos (by simpa using hc), List.flatMap_cons, hplaced]
      · rw [if_neg hc, List.filter_cons_of_neg (by simpa using hc), List.nil_append]
  rw [hl]
  refine ((perm_by_key plt (fun x => (x.leader, x.part)) ks hks).map _).trans (List.Perm.of_eq ?_)
  simp only [plt, List.filter_filter]
  congr 1
  refine List.filter_congr fun x _ => ?_
  by_cases hx : x.topic = t
  · simp only [hx, decide_true, Bool.and_true, true_and]
    congr 1
    simp only [ks, List.mem_flatMap, List.mem_map, List.mem_filter, decide_eq_true_eq,
      Prod.mk.injEq, eq_iff_iff]
    constructor
    · rintro ⟨r, hr, a, ⟨h1, h2, h3⟩, h4, h5⟩
      refine ⟨r, hr, h4, a.2.2, h3, ?_⟩
      rw [← h2, ← h5]
      exact h1
    · rintro ⟨r, hr, h4, code, h3, h1⟩
      exact ⟨r, hr, _, ⟨h1, rfl, h3⟩, h4, rfl⟩
  · simp [hx]

/-- The placements of a queue are determined. -/
theorem placements_unique {pick : Nat → κ → List Int → Res Int} {cl : Cluster}
    {q : Dict String (List (Msg κ β))} {pl pl' : List (Place κ β)}
    (h : Placements pick cl q pl) (h' : Placements pick cl q pl') : pl = pl' := by
  have hm := h.all.trans h'.all.symm
  have hl : pl.length = pl'.length := by simpa using congrArg List.length hm
  refine List.ext_getElem hl fun i h1 h2 => ?_
  have e : (pl[i].topic, pl[i].msg) = (pl'[i].topic, pl'[i].msg) := by
    have := congrArg (·[i]?) hm
    simpa [h1, h2] using this
  simp only [Prod.mk.injEq] at e
  have e3 : pl[i].part = pl'[i].part := by
    have a := h.picked i h1
    have b := h'.picked i h2
    rw [e.1, e.2, b] at a
    exact (Except.ok.inj a).symm
  have e4 : pl[i].leader = pl'[i].leader := by
    have a := h.led _ (List.getElem_mem h1)
    have b := h'.led _ (List.getElem_mem h2)
    rw [e.1, e3, b] at a
    exact (Option.some.inj a).symm
  cases hx : pl[i]
  cases hy : pl'[i]
  rw [hx, hy] at e e3 e4
  simp only at e e3 e4
  simp [e, e3, e4]

/-- **C98**, one flush: it returns; every message whose leader is connected was in the request to
that leader; afterwards the queue holds exactly the messages to be tried again, and nothing more
is kept for requests than before. -/
theorem C98_round (env : FlushEnv κ β γ) (answer : PReq γ → PResp) (p : Producer κ β)
    (hw : WF p) (hu : p.unsent.keys.Nodup) (ho : Orderly env answer p) :
    ∃ p' reqs pl, p.flush env = (.ok (), p', reqs) ∧
      Placements env.pick p.cluster p.unsent pl ∧
      (∀ x ∈ pl, p.cluster.conns.has x.leader = true → ∃ set,
        Holds reqs x.leader x.topic x.part set ∧
        env.comp (placedOn pl x.leader x.topic x.part) = .ok set) ∧
      (inQueue p'.unsent).Perm
        ((pl.filter fun x => decide (TryAgain p.cluster reqs answer x)).map Place.entry) ∧
      (∀ c, p'.sent.get? c = p.sent.get? c) ∧ WF p' ∧ p'.unsent.keys.Nodup := by
  by_cases hq : p.unsent = []
  · have hf : p.flush env = (.ok (), p, []) := by
      simp [Producer.flush, Producer.prepare, hq]
    refine ⟨p, [], [], hf, ⟨by simp [hq, inQueue], by simp, by simp⟩, by simp,
      by simp [hq, inQueue],
      fun _ => rfl, hw, hu⟩
  obtain ⟨reqs, p1, hprep⟩ := C28_succeeds env.pick env.comp p hq ho.placed ho.comp
  obtain ⟨pl, h1, h2, h3, ⟨h4, h5, h45⟩, h6, h7, h8⟩ := kept_flushed hw hprep
  have hpr : ∀ r ∈ reqs, AnswersReq r (answer r) := ho.proper reqs ⟨h4, h5, h45⟩
  have hw1 := wf_prepare hw hprep
  have hu1 := unsent_prepare hu hprep
  obtain ⟨order, o1, o2⟩ := ho.answered reqs
  have hstart : sendStart (fun b => p1.cluster.conns.has b) env.write (reqs.map (·.broker)) =
      .none := by
    have : ∀ b ∈ reqs.map (·.broker), p1.cluster.conns.has b = true := by
      intro b hb
      obtain ⟨r, hr, rfl⟩ := List.mem_map.1 hb
      rw [h3.conns]
      exact (h8 r hr).1
    generalize reqs.map (·.broker) = bs at this
    induction bs with
    | nil => rfl
    | cons b bs ih =>
      simp only [List.mem_cons, forall_eq_or_imp] at this
      simp [sendStart, this.1, ho.write, ih this.2]
  have hcorr : (order.map fun r => (r.broker, answer r)).map (·.2.corr) =
      order.map (·.corr) := by
    rw [List.map_map]
    exact List.map_congr_left fun r hr => (hpr r (o1.mem_iff.1 hr)).corr
  obtain ⟨res, s', heal', k1, k2, k3, k4, k5, k6, k7⟩ := sendLoop_proper
    (order.map fun r => (r.broker, answer r)) [] { p1 with heal := false } p1.heal rfl
    ⟨hw1.nodup, hw1.old, hw1.topics⟩ hu1
    (by
      intro o hom
      obtain ⟨r, hr, rfl⟩ := List.mem_map.1 hom
      obtain ⟨_, ts, g1, g2, _⟩ := h8 r (o1.mem_iff.1 hr)
      refine ⟨ts, ?_, ?_, (hpr r (o1.mem_iff.1 hr)).once, (hpr r (o1.mem_iff.1 hr)).codes⟩
      · simp only
        rw [(hpr r (o1.mem_iff.1 hr)).corr]
        exact g1
      · intro t part
        rw [g2 t part]
        exact ((hpr r (o1.mem_iff.1 hr)).about t part).symm)
    (by rw [hcorr]; exact (o1.map _).nodup_iff.2 h5)
  rw [List.map_map] at k1
  have houts : env.outcomes reqs = order.map ((fun o : Int × PResp => (o.1, Except.ok o.2)) ∘
      fun r => (r.broker, answer r)) := o2
  rw [← houts] at k1
  -- the flush
  have hflush : ∃ p2, p.flush env = (.ok (), p2, reqs) ∧ p2.unsent = s'.unsent ∧
      p2.sent = s'.sent ∧ p2.lastId = s'.lastId := by
    unfold Producer.flush
    simp only [hprep, clientSend, hstart, k1]
    cases heal' with
    | false => exact ⟨_, rfl, rfl, rfl, rfl⟩
    | true =>
      simp only
      have hhc := ho.heal s'.cluster
      cases hx : env.healC s'.cluster with
      | mk a b =>
        rw [hx] at hhc
        simp only at hhc
        subst hhc
        exact ⟨_, rfl, rfl, rfl, rfl⟩
  obtain ⟨p2, q1, q2, q3, q4⟩ := hflush
  have hheld : ∀ x ∈ pl, p.cluster.conns.has x.leader = true → ∃ set,
      Holds reqs x.leader x.topic x.part set ∧
      env.comp (placedOn pl x.leader x.topic x.part) = .ok set := by
    intro x hx hcx
    obtain ⟨pl', g1, _, g3, g4, _⟩ := C28_routing env.pick env.comp p p1 reqs hw hprep
    have := placements_unique h1 g1
    subst this
    have hne : placedOn pl x.leader x.topic x.part ≠ [] := by
      refine List.ne_nil_of_mem (a := x.msg) (List.mem_map.2 ⟨x, List.mem_filter.2 ⟨hx, ?_⟩, rfl⟩)
      simp
    obtain ⟨set, hset⟩ := g4 _ _ _ hcx hne
    exact ⟨set, hset, ((g3 _ _ _ _).1 hset).2.2⟩
  refine ⟨p2, reqs, pl, q1, h1, hheld, ?_, ?_, ⟨by rw [q3]; exact k2.nodup, by rw [q3, q4]; exact k2.old,
    by rw [q3]; exact k2.topics⟩, by rw [q2]; exact k3⟩
  · rw [q2]
    refine perm_of_topics fun t => ?_
    rw [inQueue_filter _ k3 t, k6 t]
    have e0 : queueOf ({ p1 with heal := false } : Producer κ β).unsent t =
        unplaced p.cluster pl t := h2 t
    have e1 : ((order.map fun r => (r.broker, answer r)).flatMap fun o =>
        retried ({ p1 with heal := false } : Producer κ β).sent o.2 t) =
        order.flatMap fun r => (answer r).answers.flatMap fun a =>
          if a.1 = t ∧ Retriable a.2.2 then placedOn pl r.broker t a.2.1 else [] := by
      rw [List.flatMap_map]
      refine List.flatMap_congr fun r hr => ?_
      obtain ⟨_, ts, _, _, g3⟩ := h8 r (o1.mem_iff.1 hr)
      simp only [retried, (hpr r (o1.mem_iff.1 hr)).corr]
      refine List.flatMap_congr fun a _ => ?_
      split
      · exact g3 t a.2.1
      · rfl
    rw [e0, e1]
    have hperm := retried_perm pl answer order ((o1.map _).nodup_iff.2 h4)
      (fun r hr => hpr r (o1.mem_iff.1 hr)) t
    have hsplit : (unplaced p.cluster pl t ++ order.flatMap fun r =>
        (answer r).answers.flatMap fun a =>
          if a.1 = t ∧ Retriable a.2.2 then placedOn pl r.broker t a.2.1 else []).Perm
        ((pl.filter fun x => decide (x.topic = t) &&
          decide (TryAgain p.cluster reqs answer x)).map (·.msg)) := by
      refine (hperm.append_left _).trans ?_
      simp only [unplaced]
      rw [← List.map_append]
      refine List.Perm.map _ ?_
      have f1 : (pl.filter fun x => decide (x.topic = t) && !p.cluster.conns.has x.leader) =
          (pl.filter fun x => decide (x.topic = t) &&
            decide (TryAgain p.cluster reqs answer x)).filter
            fun x => !p.cluster.conns.has x.leader := by
        rw [List.filter_filter]
        refine List.filter_congr fun x _ => ?_
        cases hc : p.cluster.conns.has x.leader <;> simp [TryAgain, hc]
      have f2 : (pl.filter fun x => decide (x.topic = t ∧
          ∃ r ∈ order, r.broker = x.leader ∧ RetriableIn (answer r) x.topic x.part)) =
          (pl.filter fun x => decide (x.topic = t) &&
            decide (TryAgain p.cluster reqs answer x)).filter
            fun x => !(!p.cluster.conns.has x.leader) := by
        rw [List.filter_filter]
        refine List.filter_congr fun x _ => ?_
        have hiff : (∃ r ∈ order, r.broker = x.leader ∧ RetriableIn (answer r) x.topic x.part) ↔
            ∃ r ∈ reqs, r.broker = x.leader ∧ RetriableIn (answer r) x.topic x.part := by
          simp only [o1.mem_iff]
        cases hc : p.cluster.conns.has x.leader with
        | true => simp [TryAgain, hc, hiff, Bool.decide_and]
        | false =>
          have hno : ¬ ∃ r ∈ order, r.broker = x.leader ∧
              RetriableIn (answer r) x.topic x.part := by
            rintro ⟨r, hr, hb, _⟩
            have := (h8 r (o1.mem_iff.1 hr)).1
            rw [hb, hc] at this
            cases this
          simp [hno]
      rw [f1, f2]
      exact List.filter_append_perm _ _
    have hgoal : (((pl.filter fun x => decide (TryAgain p.cluster reqs answer x)).map
        Place.entry).filter fun x => decide (x.1 = t)) =
        ((pl.filter fun x => decide (x.topic = t) &&
          decide (TryAgain p.cluster reqs answer x)).map (·.msg)).map fun m => (t, m) := by
      rw [List.filter_map, List.filter_filter, List.map_map]
      show List.map Place.entry (pl.filter fun x => decide (x.topic = t) &&
        decide (TryAgain p.cluster reqs answer x)) = _
      refine List.map_congr_left fun x hx => ?_
      have := (List.mem_filter.1 hx).2
      simp only [Bool.and_eq_true, decide_eq_true_eq] at this
      simp [Place.entry, this.1]
    rw [hgoal]
    exact hsplit.map _
  · intro c
    rw [q3, k7 c, hcorr]
    by_cases hm : c ∈ order.map (·.corr)
    · rw [if_pos hm, h7 c ((o1.map _).mem_iff.1 hm)]
    · rw [if_neg hm]
      exact h6 c (fun h => hm ((o1.map _).mem_iff.2 h))

/-! ### Histories -/

theorem other_step {cfg : PCfg α κ β} {p p' : Producer κ β} {ev : PEv α κ β γ} {e : Option Exc}
    (hev : PEv.critical ev = false) (hw : WF p) (hu : p.unsent.keys.Nodup)
    (h : p.step cfg ev = (e, p')) :
    WF p' ∧ p'.unsent.keys.Nodup ∧ p'.sent = p.sent ∧
      (inQueue p'.unsent).Perm (accepted cfg p ev ++ inQueue p.unsent) := by
  obtain ⟨w, hp⟩ := step_perm hw h (fun hc => by rw [hev] at hc; cases hc)
  have enq : ∀ (t : String) (a : α), (match p.enqueue cfg t a with
      | (.error e, p) => (some e, p)
      | (.ok _, p) => (.none, p) : Option Exc × Producer κ β) = (e, p') →
      p'.unsent.keys.Nodup ∧ p'.sent = p.sent := by
    intro t a h
    have h1 := unsent_enqueue (cfg := cfg) (p := p) t a hu
    cases hx : p.enqueue cfg t a with
    | mk r p1 =>
      obtain ⟨_, g2, _⟩ := accepted_other hx
      rw [hx] at h h1
      cases r with
      | error _ => cases h; exact ⟨h1, g2⟩
      | ok _ => cases h; exact ⟨h1, g2⟩
  have key : p'.unsent.keys.Nodup ∧ p'.sent = p.sent := by
    cases ev with
    | produce t a =>
      simp only [Producer.step] at h
      split at h
      · cases h; exact ⟨hu, rfl⟩
      · exact enq t a h
    | resume t a =>
      simp only [Producer.step] at h
      split at h
      · cases h; exact ⟨hu, rfl⟩
      · exact enq t a h
    | flush _ _ => cases hev
    | answer _ => cases hev
    | failed c x =>
      simp only [Producer.step, Prod.mk.injEq] at h
      rw [← h.2]
      split <;> exact ⟨hu, rfl⟩
    | cluster _ => cases h; exact ⟨hu, rfl⟩
    | healed => cases h; exact ⟨hu, rfl⟩
    | others _ => cases h; exact ⟨hu, rfl⟩
    | close => cases h; exact ⟨hu, rfl⟩
  refine ⟨w, key.1, key.2, ?_⟩
  have hs : settledBy p ev = [] := by
    cases ev <;> first | rfl | cases hev
  rw [key.2, hs, List.append_nil, ← List.append_assoc] at hp
  exact (List.perm_append_right_iff _).1 hp

theorem flushes_spec {cfg : PCfg α κ β} {p p' : Producer κ β} {acc : List (String × Msg κ β)}
    {done : List (Place κ β)} (h : Flushes (γ := γ) cfg p acc done p') (hw : WF p)
    (hu : p.unsent.keys.Nodup) :
    WF p' ∧ p'.unsent.keys.Nodup ∧ (∀ c, p'.sent.get? c = p.sent.get? c) ∧
      (acc ++ inQueue p.unsent).Perm (inQueue p'.unsent ++ done.map Place.entry) := by
  induction h with
  | nil p => exact ⟨hw, hu, fun _ => rfl, by simp⟩
  | @flush p p' p'' env answer reqs pl acc done ho hf hp _ ih =>
    obtain ⟨p1, reqs1, pl1, f1, f2, _, f3, f4, f5, f6⟩ := C98_round env answer p hw hu ho
    rw [hf] at f1
    simp only [Prod.mk.injEq, true_and] at f1
    obtain ⟨rfl, rfl⟩ := f1
    have := placements_unique hp f2
    subst this
    obtain ⟨i1, i2, i3, i4⟩ := ih f5 f6
    refine ⟨i1, i2, fun c => (i3 c).trans (f4 c), ?_⟩
    have hq : (inQueue p.unsent).Perm (pl.map Place.entry) := by
      have : pl.map Place.entry = inQueue p.unsent.reverse := hp.all
      rw [this]
      unfold inQueue
      exact (List.reverse_perm _).symm.flatMap_right _
    have hsplit : (pl.map Place.entry).Perm
        (inQueue p'.unsent ++
          (pl.filter fun x => decide (¬ TryAgain p.cluster reqs answer x)).map Place.entry) := by
      refine List.Perm.trans ?_ (f3.symm.append_right _)
      rw [← List.map_append]
      refine List.Perm.map _ ?_
      have := List.filter_append_perm (fun x => decide (TryAgain p.cluster reqs answer x)) pl
      refine List.Perm.trans this.symm (List.Perm.of_eq ?_)
      congr 1
      refine List.filter_congr fun x _ => ?_
      simp
    have h1 := (hq.trans hsplit).append_left acc
    rw [← List.append_assoc] at h1
    refine h1.trans ((i4.append_right _).trans ?_)
    rw [List.map_append, List.append_assoc]
    exact List.perm_append_comm.append_left _
  | @other p p' p'' ev e acc done hev hstep _ ih =>
    obtain ⟨o1, o2, o3, o4⟩ := other_step hev hw hu hstep
    obtain ⟨i1, i2, i3, i4⟩ := ih o1 o2
    refine ⟨i1, i2, fun c => by rw [i3 c, o3], ?_⟩
    refine List.Perm.trans ?_ i4
    have h1 := o4.append_left acc
    refine List.Perm.trans ?_ h1.symm
    rw [← List.append_assoc]
    exact List.perm_append_comm.append_right _

/-- **C98**, accounting: in a history of a new producer whose flushes are orderly, every message
accepted is in the queue or was handed over, as often as it was accepted, and no request is
waited for. -/
theorem C98_accounted (cfg : PCfg α κ β) (cl : Cluster) (n : Int) (p : Producer κ β)
    (acc : List (String × Msg κ β)) (done : List (Place κ β))
    (h : Flushes (γ := γ) cfg (Producer.new cl n) acc done p) :
    acc.Perm (inQueue p.unsent ++ done.map Place.entry) ∧ ∀ c, p.sent.get? c = .none := by
  obtain ⟨_, _, h3, h4⟩ := flushes_spec h (wf_new cl n) (by simp [Producer.new, Dict.keys])
  refine ⟨by simpa [Producer.new, inQueue] using h4, fun c => by rw [h3 c]; rfl⟩

/-- **C98**: whatever the trouble was, one flush without trouble hands over all that is left: it
returns, the queue is empty, and every message ever accepted has been handed over once. -/
theorem C98_delivered (cfg : PCfg α κ β) (cl : Cluster) (n : Int) (p : Producer κ β)
    (acc : List (String × Msg κ β)) (done : List (Place κ β))
    (h : Flushes (γ := γ) cfg (Producer.new cl n) acc done p) (env : FlushEnv κ β γ)
    (answer : PReq γ → PResp) (ho : Orderly env answer p) (hc : Calm answer p.cluster) :
    ∃ p' reqs pl, p.flush env = (.ok (), p', reqs) ∧
      Placements env.pick p.cluster p.unsent pl ∧ inQueue p'.unsent = [] ∧
      (∀ c, p'.sent.get? c = .none) ∧ acc.Perm ((done ++ pl).map Place.entry) := by
  obtain ⟨w, hu, h3, _⟩ := flushes_spec h (wf_new cl n) (by simp [Producer.new, Dict.keys])
  obtain ⟨p', reqs, pl, f1, f2, _, f3, f4, _, _⟩ := C98_round env answer p w hu ho
  have hno : ∀ x ∈ pl, ¬ TryAgain p.cluster reqs answer x := by
    rintro x hx (h1 | ⟨r, _, _, code, h2, h3⟩)
    · rw [hc.leaders _ _ _ (f2.led x hx)] at h1
      cases h1
    · exact hc.codes r _ h3 h2
  have hnil : (pl.filter fun x => decide (TryAgain p.cluster reqs answer x)) = [] := by
    rw [List.filter_eq_nil_iff]
    intro x hx
    simpa using hno x hx
  rw [hnil] at f3
  refine ⟨p', reqs, pl, f1, f2, f3.eq_nil, fun c => ?_, ?_⟩
  · rw [f4 c, (C98_accounted cfg cl n p acc done h).2 c]
  · refine (C98_accounted cfg cl n p acc done h).1.trans ?_
    rw [List.map_append]
    refine List.perm_append_comm.trans (List.Perm.append_left _ ?_)
    have : pl.map Place.entry = inQueue p.unsent.reverse := f2.all
    rw [this]
    unfold inQueue
    exact (List.reverse_perm _).symm.flatMap_right _

/-! ### Examples -/

/-- Every partition of a request is answered with the code. -/
def exAnswerAll (code : Int) (r : PReq (List (Msg Nat Nat))) : PResp :=
  ⟨r.corr, r.topics.map fun t => (t.1, t.2.map fun e => (e.1, code))⟩

theorem exAnswerAll_answers (code : Int) (r : PReq (List (Msg Nat Nat))) :
    (exAnswerAll code r).answers.map (fun x => (x.1, x.2.1)) =
      r.topics.flatMap fun t => t.2.map fun e => (t.1, e.1) := by
  simp [exAnswerAll, PResp.answers, List.map_flatMap, List.flatMap_map, Function.comp_def]

/-- Messages with keys 0 and 1 of topic "t" are placed on its partitions 0 and 1. -/
theorem exOrderly (code : Int) (hk : KnownCode code) (p : Producer Nat Nat)
    (hc : p.cluster = exPCluster) (hq : ∀ e ∈ p.unsent, e.1 = "t" ∧ ∀ m ∈ e.2, m.key < 2) :
    Orderly (exFlush (exPAnswer code)) (exAnswerAll code) p where
  placed e he m hm n := by
    obtain ⟨h1, h2⟩ := hq e he
    have h3 := h2 m hm
    rw [hc, h1]
    rcases (by omega : m.key = 0 ∨ m.key = 1) with h | h <;> rw [h]
    · exact ⟨0, 7, rfl, rfl⟩
    · exact ⟨1, 7, rfl, rfl⟩
  comp ms := ⟨ms, rfl⟩
  write _ := rfl
  heal _ := rfl
  answered reqs := ⟨reqs, .refl _, rfl⟩
  proper reqs hn r hr := by
    obtain ⟨_, h2, h3⟩ := hn.2.2 r hr
    refine ⟨rfl, ?_, ?_, ?_⟩
    · intro t part
      rw [exAnswerAll_answers]
      simp only [List.mem_flatMap, List.mem_map, Prod.mk.injEq]
      constructor
      · rintro ⟨e, he, x, hx, rfl, rfl⟩
        exact ⟨e, he, rfl, x, hx, rfl⟩
      · rintro ⟨e, he, rfl, x, hx, rfl⟩
        exact ⟨e, he, x, hx, rfl, rfl⟩
    · rw [exAnswerAll_answers]
      refine List.nodup_flatMap.2 ⟨?_, ?_⟩
      · intro e he
        have := (h3 e he).2
        have h4 : (e.2.map fun x => (e.1, x.1)) = (e.2.map (·.1)).map fun x => (e.1, x) := by
          simp [Function.comp_def]
        rw [h4]
        exact this.map (fun a b h => by simpa using h)
      · have hp : r.topics.Pairwise fun a b => a.1 ≠ b.1 := List.pairwise_map.1 h2
        refine hp.imp ?_
        intro a b hab k hk1 hk2
        obtain ⟨_, _, rfl⟩ := List.mem_map.1 hk1
        obtain ⟨_, _, he⟩ := List.mem_map.1 hk2
        simp only [Prod.mk.injEq] at he
        exact hab he.1.symm
    · intro x hx
      simp only [exAnswerAll, PResp.answers, List.flatMap_map, List.mem_flatMap, List.mem_map] at hx
      obtain ⟨_, _, _, ⟨_, _, rfl⟩, rfl⟩ := hx
      exact hk

-- Non-vacuity of C98_delivered: two messages, flushed once and answered with a retriable error
-- (not the leader), then a third message; the next flush hands over all three.
example : ∃ (acc : List (String × Msg Nat Nat)) (done : List (Place Nat Nat)) (p : Producer Nat Nat),
    Flushes (γ := List (Msg Nat Nat)) exPCfg (Producer.new exPCluster 41) acc done p ∧
    acc = [("t", ⟨1, 1⟩), ("t", ⟨0, 2⟩), ("t", ⟨1, 3⟩)] ∧ done = [] ∧
    p.unsent = [("t", [⟨1, 1⟩, ⟨0, 2⟩, ⟨1, 3⟩])] ∧
    Orderly (exFlush (exPAnswer 0)) (exAnswerAll 0) p ∧
    Calm (exAnswerAll 0) p.cluster := by
  let p2 : Producer Nat Nat := ⟨exPCluster, [("t", [⟨1, 1⟩, ⟨0, 2⟩])], [], false, false, 41⟩
  let p3 : Producer Nat Nat := ⟨exPCluster, [("t", [⟨1, 1⟩, ⟨0, 2⟩])], [], false, false, 42⟩
  let p4 : Producer Nat Nat := ⟨exPCluster, [("t", [⟨1, 1⟩, ⟨0, 2⟩, ⟨1, 3⟩])], [], false, false, 42⟩
  have hpl : Placements (exFlush (exPAnswer 6)).pick p2.cluster p2.unsent
      [⟨"t", ⟨1, 1⟩, 1, 7⟩, ⟨"t", ⟨0, 2⟩, 0, 7⟩] := by
    refine ⟨rfl, ?_, ?_⟩
    · intro i h
      match i, h with
      | 0, _ => rfl
      | 1, _ => rfl
    · intro x hx
      simp only [List.mem_cons, List.not_mem_nil, or_false] at hx
      rcases hx with rfl | rfl <;> rfl
  have hrun : Flushes (γ := List (Msg Nat Nat)) exPCfg (Producer.new exPCluster 41) _ _ p4 :=
    .other (ev := .produce "t" 1) rfl (show _ = (.none, _) from rfl) <|
    .other (ev := .produce "t" 2) (p' := p2) (e := .none) rfl (by decide +kernel) <|
    .flush (p' := p3) (reqs := [⟨7, 42, [("t", [(1, [⟨1, 1⟩]), (0, [⟨0, 2⟩])])]⟩]) (exOrderly 6 (by decide) p2 rfl (by decide +kernel)) (by decide +kernel) hpl <|
    .other (ev := .produce "t" 3) (p' := p4) (e := .none) rfl (by decide +kernel) <| .nil p4
  refine ⟨_, _, p4, hrun, by decide +kernel, by decide +kernel, rfl,
    exOrderly 0 (by decide) p4 rfl (by decide +kernel), ?_, ?_⟩
  · intro t part l h
    have : l = 7 := by
      by_cases ht : t = "t"
      · subst ht
        by_cases h0 : part = 0
        · subst h0; exact (Option.some.inj h).symm
        · by_cases h1 : part = 1
          · subst h1; exact (Option.some.inj h).symm
          · simp [p4, exPCluster, Dict.get?, Ne.symm h0, Ne.symm h1] at h
      · simp [p4, exPCluster, Dict.get?, Ne.symm ht] at h
    subst this
    rfl
  · intro r a ha
    simp only [exAnswerAll, PResp.answers, List.flatMap_map, List.mem_flatMap, List.mem_map] at ha
    obtain ⟨_, _, _, ⟨_, _, rfl⟩, rfl⟩ := ha
    show ¬ Retriable 0
    decide

end Kiel
