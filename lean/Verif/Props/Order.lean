import Verif.Spec.Order
import Verif.Props.Producer
/-
C75: the messages of a partition are handed over in the order in which they were accepted.
-/
set_option autoImplicit false
namespace Kiel
open Spec

variable {α κ β γ : Type}

/-! ### The queue has one entry per topic -/

theorem unsent_enqueue {cfg : PCfg α κ β} {p : Producer κ β} (t : String) (a : α)
    (hn : p.unsent.keys.Nodup) : (p.enqueue cfg t a).2.unsent.keys.Nodup := by
  have h0 : (p.unsent.getDefault t []).1.keys.Nodup := by
    unfold Dict.getDefault
    split
    · exact hn
    · exact Dict.nodup_set hn _ _
  unfold Producer.enqueue
  simp only
  split
  · exact h0
  · split
    · exact h0
    · rename_i k _ _ v _
      exact Dict.nodup_upd h0 t [] (· ++ [⟨k, v⟩])

theorem unsent_handlePart {p : Producer κ β} (corr : Int) (t : String) (part code : Int)
    (hn : p.unsent.keys.Nodup) : (p.handlePart corr t part code).2.unsent.keys.Nodup := by
  unfold Producer.handlePart
  split
  · exact hn
  · split
    · simp only
      split
      · exact hn
      · rename_i ms _
        exact Dict.nodup_upd hn t [] (· ++ ms)
    · split <;> exact hn

theorem unsent_handleParts (corr : Int) (l : List (String × Int × Int)) {p : Producer κ β}
    (hn : p.unsent.keys.Nodup) : (Producer.handleParts corr l p).2.unsent.keys.Nodup := by
  induction l generalizing p with
  | nil => exact hn
  | cons a l ih =>
    obtain ⟨t, part, code⟩ := a
    have h1 := unsent_handlePart corr t part code hn
    simp only [Producer.handleParts]
    cases hx : p.handlePart corr t part code with
    | mk r p1 =>
      rw [hx] at h1
      cases r with
      | error e => exact h1
      | ok u => exact ih h1

theorem unsent_handleResponse {p : Producer κ β} (r : PResp) (hn : p.unsent.keys.Nodup) :
    (p.handleResponse r).2.unsent.keys.Nodup := by
  have h1 := unsent_handleParts r.corr r.answers hn
  unfold Producer.handleResponse
  rw [handleTopics_eq]
  cases hx : Producer.handleParts r.corr r.answers p with
  | mk res p1 =>
    rw [hx] at h1
    cases res with
    | error e => exact h1
    | ok u => simp only; split <;> exact h1

theorem unsent_fold (l : Dict String (List (Msg κ β))) {p : Producer κ β}
    (hn : p.unsent.keys.Nodup) :
    (l.foldl (fun p e => p.queueRetries e.1 e.2) p).unsent.keys.Nodup := by
  induction l generalizing p with
  | nil => exact hn
  | cons e l ih => exact ih (Dict.nodup_upd hn e.1 [] (· ++ e.2))

theorem unsent_prepare {pick : Nat → κ → List Int → Res Int} {comp : List (Msg κ β) → Res γ}
    {p p' : Producer κ β} {o : Option (List (PReq γ))} (hn : p.unsent.keys.Nodup)
    (h : p.prepare pick comp = (.ok o, p')) : p'.unsent.keys.Nodup := by
  unfold Producer.prepare at h
  split at h
  · cases h; exact hn
  · split at h
    · cases h
    · split at h
      · cases h
      · cases h
        exact unsent_fold _ (by simp [Dict.keys])

/-! ### The contents of requests -/

theorem flatMap_key {ι ν δ : Type} [DecidableEq ι] (d : Dict ι ν) (hn : d.keys.Nodup) (k : ι)
    (g : ν → List δ) :
    (d.flatMap fun e => if e.1 = k then g e.2 else []) = ((d.get? k).map g).getD [] := by
  induction d with
  | nil => rfl
  | cons e d ih =>
    obtain ⟨a, b⟩ := e
    simp only [Dict.keys, List.map_cons, List.nodup_cons] at hn
    have ih := ih hn.2
    simp only [List.flatMap_cons, Dict.get?]
    by_cases h : a = k
    · subst h
      have : Dict.get? d a = .none := Dict.get?_eq_none.2 hn.1
      rw [ih, this]
      simp
    · rw [ih]
      simp [h]

theorem forall2_flatMap {X Y Z : Type} {R : X → Y → Prop} {f : X → List Z} {g : Y → List Z}
    {l : List X} {m : List Y} (h : List.Forall₂ R l m) (hr : ∀ x y, R x y → f x = g y) :
    l.flatMap f = m.flatMap g := by
  induction h with
  | nil => rfl
  | cons h1 _ ih => simp [hr _ _ h1, ih]

theorem inPartition_built {comp : List (Msg κ β) → Res γ} {read : γ → List (Msg κ β)}
    (hread : ∀ ms s, comp ms = .ok s → read s = ms) {o : Dict Int (ByPartition κ β)}
    {reqs : List (PReq γ)} (ho : TidyAll o) (h : List.Forall₂ (RequestBuilt comp) o reqs)
    (t : String) (part : Int) :
    inPartition read reqs t part = o.flatMap fun e => (sentFor o e.1 t part).getD [] := by
  have h1 : inPartition read reqs t part = o.flatMap fun e => e.2.flatMap fun x =>
      x.2.flatMap fun q => if x.1 = t ∧ q.1 = part then q.2 else [] := by
    symm
    refine forall2_flatMap h fun x y hxy => ?_
    refine forall2_flatMap hxy.2 fun x' y' hxy' => ?_
    rw [hxy'.1]
    refine forall2_flatMap hxy'.2 fun a b hab => ?_
    rw [hab.1, hread _ _ hab.2]
  rw [h1]
  have hcongr : ∀ (l : List (Int × ByPartition κ β)), (∀ e ∈ l, e ∈ o) →
      (l.flatMap fun e => e.2.flatMap fun x =>
        x.2.flatMap fun q => if x.1 = t ∧ q.1 = part then q.2 else []) =
      l.flatMap fun e => (sentFor o e.1 t part).getD [] := by
    intro l hl
    induction l with
    | nil => rfl
    | cons e l ih =>
      simp only [List.mem_cons, forall_eq_or_imp] at hl
      simp only [List.flatMap_cons]
      rw [ih hl.2]
      congr 1
      have hget : o.get? e.1 = some e.2 := Dict.get?_of_mem ho.nodup hl.1
      have htid := ho.reqs _ hl.1
      have : (e.2.flatMap fun x => x.2.flatMap fun q =>
          if x.1 = t ∧ q.1 = part then q.2 else []) =
          e.2.flatMap fun x => if x.1 = t then
            (x.2.flatMap fun q => if q.1 = part then q.2 else []) else [] := by
        congr 1
        funext x
        by_cases hx : x.1 = t <;> simp [hx]
      rw [this, flatMap_key e.2 htid.nodup t]
      simp only [sentFor, hget, Option.getD_some]
      cases hx : Dict.get? e.2 t with
      | none => rfl
      | some ps =>
        have hps := htid.parts _ (Dict.mem_of_get? hx)
        simp only [Option.map_some, Option.getD_some, Option.bind_some]
        rw [flatMap_key ps hps.1 part (fun x => x)]
        simp
  exact hcongr o fun _ h => h

theorem inQueue_own (f : κ → Int) (q : Dict String (List (Msg κ β))) (hn : q.keys.Nodup)
    (t : String) (part : Int) :
    ownOf f t part (inQueue q) = (queueOf q t).filter fun m => decide (f m.key = part) := by
  have : ownOf f t part (inQueue q) = q.flatMap fun e => if e.1 = t then
      e.2.filter (fun m => decide (f m.key = part)) else [] := by
    unfold ownOf inQueue
    rw [List.filter_flatMap, List.map_flatMap]
    congr 1
    funext e
    by_cases h : e.1 = t
    · simp [h, List.filter_map, Function.comp_def]
    · simp [h, List.filter_map, Function.comp_def]
  rw [this, flatMap_key q hn t]
  unfold queueOf
  cases q.get? t <;> simp

theorem inQueue_own_reverse (f : κ → Int) (q : Dict String (List (Msg κ β))) (hn : q.keys.Nodup)
    (t : String) (part : Int) :
    ownOf f t part (inQueue q.reverse) =
      (queueOf q t).filter fun m => decide (f m.key = part) := by
  have hn' : Dict.keys (List.reverse q) |>.Nodup := by
    simpa [Dict.keys, List.map_reverse] using hn
  rw [inQueue_own f _ hn']
  congr 1
  unfold queueOf
  cases h : q.get? t with
  | none =>
    have : Dict.get? (List.reverse q) t = .none := by
      rw [Dict.get?_eq_none] at h ⊢
      simpa [Dict.keys, List.map_reverse] using h
    rw [this]
  | some v =>
    rw [Dict.get?_of_mem hn' (List.mem_reverse.2 (Dict.mem_of_get? h))]

theorem flatMap_single {X Z : Type} [DecidableEq X] (l : List X) (g : X → List Z) (k : X) (hn : l.Nodup)
    (hg : ∀ x ∈ l, x ≠ k → g x = []) : l.flatMap g = if k ∈ l then g k else [] := by
  induction l with
  | nil => simp
  | cons x l ih =>
    simp only [List.nodup_cons, List.mem_cons, forall_eq_or_imp] at hn hg
    simp only [List.flatMap_cons]
    rw [ih hn.2 hg.2]
    by_cases hx : x = k
    · subst hx; simp [hn.1]
    · simp [hg.1 hx, Ne.symm hx]

/-- What a flush hands over for a partition and what it leaves queued, together, is what was
queued, in order. -/
theorem flush_order {pick : Nat → κ → List Int → Res Int} {comp : List (Msg κ β) → Res γ}
    {read : γ → List (Msg κ β)} {f : κ → Int} {p p' : Producer κ β} {reqs : List (PReq γ)}
    (hw : WF p) (hn : p.unsent.keys.Nodup)
    (hf : ∀ n k parts q, pick n k parts = .ok q → q = f k)
    (hread : ∀ ms s, comp ms = .ok s → read s = ms)
    (h : p.prepare pick comp = (.ok (some reqs), p')) (t : String) (part : Int) :
    inPartition read reqs t part ++ ((queueOf p'.unsent t).filter fun m =>
      decide (f m.key = part)) = (queueOf p.unsent t).filter fun m => decide (f m.key = part) := by
  obtain ⟨pl, h1, h2, h3, h4, h5, h6, h7, h8, h9, h10⟩ := prepare_ok hw.old h
  have ht := tidyAll_routeTo p.cluster pl ⟨[], []⟩ tidyAll_nil
  have hpart : ∀ x ∈ pl, x.part = f x.msg.key := by
    intro x hx
    obtain ⟨i, hi, rfl⟩ := List.getElem_of_mem hx
    exact hf _ _ _ _ (h1.picked i hi)
  rw [inPartition_built hread ht h4, h9, ← inQueue_own_reverse f _ hn t part, ← h1.all]
  have hro : ∀ b, (sentFor (routeTo p.cluster pl ⟨[], []⟩).ordered b t part).getD [] =
      if p.cluster.conns.has b then placedOn pl b t part else [] := by
    intro b
    have := routeTo_ordered p.cluster pl ⟨[], []⟩ b t part
    have hnil : sentFor ([] : Dict Int (ByPartition κ β)) b t part = .none := rfl
    simpa only [hnil, Option.getD_none, List.nil_append] using this
  simp only [hro]
  cases hl : ((p.cluster.leaders.get? t).getD []).get? part with
  | none =>
    have hno : ∀ x ∈ pl, ¬ (x.topic = t ∧ x.part = part) := by
      rintro x hx ⟨rfl, rfl⟩
      rw [h1.led x hx] at hl
      cases hl
    have e1 : ∀ b, placedOn pl b t part = [] := by
      intro b
      unfold placedOn
      rw [List.filter_eq_nil_iff.2 (fun x hx => by
        have := hno x hx
        simp only [decide_eq_true_eq]
        tauto)]
      rfl
    have e0 : ∀ l : List (Int × ByPartition κ β),
        (l.flatMap fun _ => ([] : List (Msg κ β))) = [] := by simp
    simp only [e1, ite_self, e0, List.nil_append]
    have e2 : ((unplaced p.cluster pl t).filter fun m => decide (f m.key = part)) = [] := by
      rw [List.filter_eq_nil_iff]
      intro m hm
      unfold unplaced at hm
      obtain ⟨x, hx, rfl⟩ := List.mem_map.1 hm
      rw [List.mem_filter] at hx
      simp only [Bool.and_eq_true, decide_eq_true_eq] at hx ⊢
      exact fun he => hno x hx.1 ⟨hx.2.1, (hpart x hx.1).trans he⟩
    have e3 : ownOf f t part (pl.map fun x => (x.topic, x.msg)) = [] := by
      unfold ownOf
      rw [List.filter_eq_nil_iff.2 ?_]
      · rfl
      · intro y hy
        obtain ⟨x, hx, rfl⟩ := List.mem_map.1 hy
        simp only [decide_eq_true_eq]
        exact fun he => hno x hx ⟨he.1, (hpart x hx).trans he.2⟩
    rw [e2, e3]
  | some l =>
    have hled : ∀ x ∈ pl, x.topic = t → x.part = part → x.leader = l := by
      rintro x hx rfl rfl
      have := h1.led x hx
      rw [hl] at this
      exact (Option.some.inj this).symm
    have hown : ownOf f t part (pl.map fun x => (x.topic, x.msg)) = placedOn pl l t part := by
      unfold ownOf placedOn
      rw [List.filter_map, List.map_map]
      have : (pl.filter ((fun m : String × Msg κ β => decide (m.1 = t ∧ f m.2.key = part)) ∘
          fun x => (x.topic, x.msg))) =
          pl.filter fun x => decide (x.leader = l ∧ x.topic = t ∧ x.part = part) := by
        refine List.filter_congr fun x hx => ?_
        simp only [Function.comp_apply, decide_eq_decide]
        rw [← hpart x hx]
        exact ⟨fun hh => ⟨hled x hx hh.1 hh.2, hh⟩, fun hh => hh.2⟩
      rw [this]
      rfl
    have hother : ∀ b, b ≠ l → placedOn pl b t part = [] := by
      intro b hb
      unfold placedOn
      rw [List.filter_eq_nil_iff.2 (fun x hx => by
        simp only [decide_eq_true_eq]
        rintro ⟨e1, e2, e3⟩
        exact hb (e1 ▸ hled x hx e2 e3))]
      rfl
    have hun : ((unplaced p.cluster pl t).filter fun m => decide (f m.key = part)) =
        if p.cluster.conns.has l then [] else placedOn pl l t part := by
      unfold unplaced placedOn
      rw [List.filter_map, List.filter_filter]
      by_cases hc : p.cluster.conns.has l = true
      · rw [if_pos hc, List.filter_eq_nil_iff.2 ?_]
        · rfl
        · intro x hx
          simp only [Function.comp_apply, Bool.and_eq_true, decide_eq_true_eq,
            Bool.not_eq_true']
          rintro ⟨e1, e2, e3⟩
          rw [hled x hx e2 ((hpart x hx).trans e1), hc] at e3
          cases e3
      · rw [if_neg hc]
        congr 1
        refine List.filter_congr fun x hx => ?_
        rw [Bool.eq_iff_iff]
        simp only [Function.comp_apply, Bool.and_eq_true, decide_eq_true_eq,
          Bool.not_eq_true']
        rw [← hpart x hx]
        constructor
        · rintro ⟨e1, e2, e3⟩
          exact ⟨hled x hx e2 e1, e2, e1⟩
        · rintro ⟨e1, e2, e3⟩
          exact ⟨e3, e2, by rw [e1]; simpa using hc⟩
    rw [hown, hun]
    have hfm : ((routeTo p.cluster pl ⟨[], []⟩).ordered.flatMap fun e =>
        if p.cluster.conns.has e.1 then placedOn pl e.1 t part else []) =
        if p.cluster.conns.has l then placedOn pl l t part else [] := by
      have : ((routeTo p.cluster pl ⟨[], []⟩).ordered.flatMap fun e =>
          if p.cluster.conns.has e.1 then placedOn pl e.1 t part else []) =
          (routeTo p.cluster pl ⟨[], []⟩).ordered.keys.flatMap fun b =>
            if p.cluster.conns.has b then placedOn pl b t part else [] := by
        unfold Dict.keys
        rw [List.flatMap_map]
      rw [this, flatMap_single _ _ l ht.nodup (by
        intro b _ hb
        rw [hother b hb, ite_self])]
      by_cases hm : l ∈ (routeTo p.cluster pl ⟨[], []⟩).ordered.keys
      · rw [if_pos hm]
      · rw [if_neg hm]
        have hz := hro l
        have : (sentFor (routeTo p.cluster pl ⟨[], []⟩).ordered l t part) = .none := by
          unfold sentFor
          rw [Dict.get?_eq_none.2 hm]
          rfl
        rw [this] at hz
        exact hz
    rw [hfm]
    by_cases hc : p.cluster.conns.has l = true <;> simp [hc]

/-! ### What is kept for a partition belongs there -/

/-- The messages kept for a partition of a request are those `f` puts there. -/
def KeptRight (f : κ → Int) (p : Producer κ β) : Prop :=
  ∀ corr t part ms, sentFor p.sent corr t part = some ms → ∀ m ∈ ms, f m.key = part

theorem keptRight_prepare {pick : Nat → κ → List Int → Res Int} {comp : List (Msg κ β) → Res γ}
    {f : κ → Int} {p p' : Producer κ β} {reqs : List (PReq γ)} (hw : WF p)
    (hf : ∀ n k parts q, pick n k parts = .ok q → q = f k)
    (h : p.prepare pick comp = (.ok (some reqs), p')) (hk : KeptRight f p) : KeptRight f p' := by
  obtain ⟨pl, h1, h2, h3, h4, h5, h6, h7, h8, h9, h10⟩ := prepare_ok hw.old h
  have ht := tidyAll_routeTo p.cluster pl ⟨[], []⟩ tidyAll_nil
  have hpart : ∀ x ∈ pl, x.part = f x.msg.key := by
    intro x hx
    obtain ⟨i, hi, rfl⟩ := List.getElem_of_mem hx
    exact hf _ _ _ _ (h1.picked i hi)
  have hnum : ∀ (n : Int) (o : Dict Int (ByPartition κ β)) (c : Int) (ts : ByPartition κ β),
      (c, ts) ∈ numbered n o → ∃ b, (b, ts) ∈ o := by
    intro n o c ts
    induction o generalizing n with
    | nil => simp [numbered]
    | cons e o ih =>
      simp only [numbered, List.mem_cons]
      rintro (hh | hh)
      · cases hh
        exact ⟨e.1, .inl rfl⟩
      · obtain ⟨b, hb⟩ := ih _ hh
        exact ⟨b, .inr hb⟩
  intro corr t part ms hs m hm
  unfold sentFor at hs
  cases hg : p'.sent.get? corr with
  | none => simp [hg, Dict.get?] at hs
  | some ts =>
    rw [hg, Option.getD_some] at hs
    have hmem := Dict.mem_of_get? hg
    rw [h2] at hmem
    rcases List.mem_append.1 hmem with hmem | hmem
    · refine hk corr t part ms ?_ m hm
      unfold sentFor
      rw [Dict.get?_of_mem hw.nodup hmem]
      exact hs
    · obtain ⟨b, hb⟩ := hnum _ _ _ _ hmem
      have hs' : sentFor (routeTo p.cluster pl ⟨[], []⟩).ordered b t part = some ms := by
        unfold sentFor
        rw [Dict.get?_of_mem ht.nodup hb]
        exact hs
      have hro := routeTo_ordered p.cluster pl ⟨[], []⟩ b t part
      have hnil : sentFor ([] : Dict Int (ByPartition κ β)) b t part = .none := rfl
      rw [hs'] at hro
      simp only [hnil, Option.getD_none, List.nil_append, Option.getD_some] at hro
      rw [hro] at hm
      split at hm
      · unfold placedOn at hm
        obtain ⟨x, hx, rfl⟩ := List.mem_map.1 hm
        rw [List.mem_filter] at hx
        simp only [decide_eq_true_eq] at hx
        rw [← hpart x hx.1]
        exact hx.2.2.2
      · simp at hm

/-! ### C75 -/

theorem own_append (f : κ → Int) (t : String) (part : Int) (a b : List (String × Msg κ β)) :
    ownOf f t part (a ++ b) = ownOf f t part a ++ ownOf f t part b := by
  simp [ownOf]

theorem inPartition_append (read : γ → List (Msg κ β)) (a b : List (PReq γ)) (t : String)
    (part : Int) :
    inPartition read (a ++ b) t part = inPartition read a t part ++ inPartition read b t part := by
  simp [inPartition]

theorem enqueue_order {cfg : PCfg α κ β} {f : κ → Int} {p p' : Producer κ β} {t' : String} {a : α}
    {r : Res Bool} (h : p.enqueue cfg t' a = (r, p')) (t : String) (part : Int) :
    p'.sent = p.sent ∧
    (queueOf p'.unsent t).filter (fun m => decide (f m.key = part)) =
      (queueOf p.unsent t).filter (fun m => decide (f m.key = part)) ++
        ownOf f t part (accepted.msg cfg t' a) := by
  have hdef : ∀ d : Dict String (List (Msg κ β)),
      queueOf (d.getDefault t' []).1 t = queueOf d t := by
    intro d
    unfold queueOf
    exact getDefault_getD d t' t []
  cases hk : cfg.keyMaker a with
  | error e =>
    simp only [Producer.enqueue, hk, Prod.mk.injEq] at h
    obtain ⟨_, rfl⟩ := h
    exact ⟨rfl, by simp [hdef, accepted.msg, hk, ownOf]⟩
  | ok k =>
    cases hv : cfg.serializer a with
    | error e =>
      simp only [Producer.enqueue, hk, hv, Prod.mk.injEq] at h
      obtain ⟨_, rfl⟩ := h
      exact ⟨rfl, by simp [hdef, accepted.msg, hk, hv, ownOf]⟩
    | ok v =>
      obtain ⟨p1, b, h1, h2, h3, h4, h5, h6, h7, h8, h9⟩ := enqueue_ok cfg p t' a k v hk hv
      rw [h] at h1
      obtain ⟨_, rfl⟩ := Prod.mk.inj h1
      refine ⟨h3, ?_⟩
      rw [h7 t]
      by_cases ht : t = t'
      · subst ht
        simp [accepted.msg, hk, hv, ownOf, List.filter_append, List.filter_cons]
        split <;> simp
      · simp [accepted.msg, hk, hv, ownOf, ht, Ne.symm ht]

theorem step_order {cfg : PCfg α κ β} {f : κ → Int} {read : γ → List (Msg κ β)}
    {p p' : Producer κ β} {ev : PEv α κ β γ} {e : Option Exc} {t : String} {part : Int}
    (hw : WF p) (hn : p.unsent.keys.Nodup) (hk : KeptRight f p)
    (h : p.step cfg ev = (e, p')) (hok : PEv.critical ev = true → e = .none)
    (hby : ByKey f read [ev]) (hret : ∀ r, ev = .answer r → ¬ RetriableIn r t part) :
    p'.unsent.keys.Nodup ∧ KeptRight f p' ∧
    inPartition read (requestsBy p ev) t part ++
      (queueOf p'.unsent t).filter (fun m => decide (f m.key = part)) =
    (queueOf p.unsent t).filter (fun m => decide (f m.key = part)) ++
      ownOf f t part (accepted cfg p ev) := by
  have enq : ∀ (t' : String) (a : α) (b : Bool),
      (if b = true then (.none, p) else
        (match p.enqueue cfg t' a with
        | (.error e, p) => (some e, p)
        | (.ok _, p) => (.none, p) : Option Exc × Producer κ β)) = (e, p') →
      p'.unsent.keys.Nodup ∧ KeptRight f p' ∧
      (queueOf p'.unsent t).filter (fun m => decide (f m.key = part)) =
        (queueOf p.unsent t).filter (fun m => decide (f m.key = part)) ++
          ownOf f t part (if b = true then [] else accepted.msg cfg t' a) := by
    intro t' a b hb
    cases b with
    | true =>
      simp only [if_true, Prod.mk.injEq] at hb
      obtain ⟨_, rfl⟩ := hb
      exact ⟨hn, hk, by simp [ownOf]⟩
    | false =>
      simp only [Bool.false_eq_true, if_false] at hb ⊢
      have hnn := unsent_enqueue (cfg := cfg) t' a hn
      cases hx : p.enqueue cfg t' a with
      | mk r p1 =>
        rw [hx] at hb hnn
        obtain ⟨g1, g2⟩ := enqueue_order (f := f) hx t part
        have : p' = p1 := by cases r <;> simp_all
        subst this
        exact ⟨hnn, by unfold KeptRight; rw [g1]; exact hk, g2⟩
  have hnil : inPartition read ([] : List (PReq γ)) t part = [] := rfl
  cases ev with
  | produce t' a =>
    simp only [requestsBy, hnil, List.nil_append, accepted]
    have := enq t' a (decide (p.closing = true ∨ ¬ p.cluster.topics.has t' = true))
    simp only [decide_eq_true_eq] at this
    exact this h
  | resume t' a =>
    simp only [requestsBy, hnil, List.nil_append, accepted]
    have := enq t' a (decide (¬ p.cluster.topics.has t' = true))
    simp only [decide_eq_true_eq] at this
    exact this h
  | flush pick comp =>
    have he := hok rfl
    subst he
    obtain ⟨b1, b2⟩ := hby pick comp (by simp)
    simp only [Producer.step] at h
    cases hp : p.prepare pick comp with
    | mk res p1 =>
      rw [hp] at h
      cases res with
      | error x => simp at h
      | ok o =>
        simp only [Prod.mk.injEq, true_and] at h
        subst h
        simp only [requestsBy, hp, accepted]
        cases o with
        | none =>
          obtain ⟨rfl, _⟩ := prepare_none hp
          exact ⟨hn, hk, by simp [hnil, ownOf]⟩
        | some reqs =>
          refine ⟨unsent_prepare hn hp, keptRight_prepare hw b1 hp hk, ?_⟩
          rw [flush_order hw hn b1 b2 hp]
          simp [ownOf]
  | answer r =>
    have he := hok rfl
    subst he
    simp only [Producer.step] at h
    have hnn := unsent_handleResponse r hn
    cases hp : p.handleResponse r with
    | mk res p1 =>
      rw [hp] at h hnn
      cases res with
      | error x => simp at h
      | ok u =>
        simp only [Prod.mk.injEq, true_and] at h
        subst h
        obtain ⟨g1, _, g3, g4, _⟩ := C30_retry p p1 r hw hp
        refine ⟨hnn, ?_, ?_⟩
        · intro corr t' part' ms hs m hm
          by_cases hc : corr = r.corr
          · subst hc
            simp [sentFor, g4, Dict.get?] at hs
          · refine hk corr t' part' ms ?_ m hm
            unfold sentFor at hs ⊢
            rw [← g3 corr hc]
            exact hs
        · simp only [requestsBy, hnil, List.nil_append, accepted]
          rw [g1 t, List.filter_append]
          have hz : (retried p.sent r t).filter (fun m => decide (f m.key = part)) = [] := by
            rw [List.filter_eq_nil_iff]
            intro m hm
            unfold retried at hm
            obtain ⟨a, ha, hm⟩ := List.mem_flatMap.1 hm
            split at hm
            · rename_i hc
              cases hs : sentFor p.sent r.corr t a.2.1 with
              | none => simp [hs] at hm
              | some ms =>
                rw [hs] at hm
                have hx := hk _ _ _ _ hs m hm
                simp only [decide_eq_true_eq]
                rintro rfl
                refine hret r rfl ⟨a.2.2, hc.2, ?_⟩
                rw [hx, ← hc.1]
                exact ha
            · simp at hm
          rw [hz]
          simp [ownOf]
  | failed c x =>
    simp only [Producer.step, Prod.mk.injEq] at h
    obtain ⟨_, rfl⟩ := h
    split <;> exact ⟨hn, hk, by simp [requestsBy, hnil, accepted, ownOf]⟩
  | cluster cl =>
    simp only [Producer.step, Prod.mk.injEq] at h
    obtain ⟨_, rfl⟩ := h
    exact ⟨hn, hk, by simp [requestsBy, hnil, accepted, ownOf]⟩
  | healed =>
    simp only [Producer.step, Prod.mk.injEq] at h
    obtain ⟨_, rfl⟩ := h
    exact ⟨hn, hk, by simp [requestsBy, hnil, accepted, ownOf]⟩
  | others n =>
    simp only [Producer.step, Prod.mk.injEq] at h
    obtain ⟨_, rfl⟩ := h
    exact ⟨hn, hk, by simp [requestsBy, hnil, accepted, ownOf]⟩
  | close =>
    simp only [Producer.step, Prod.mk.injEq] at h
    obtain ⟨_, rfl⟩ := h
    exact ⟨hn, hk, by simp [requestsBy, hnil, accepted, ownOf]⟩

theorem history_order {cfg : PCfg α κ β} {f : κ → Int} {read : γ → List (Msg κ β)}
    {p p' : Producer κ β} {evs : List (PEv α κ β γ)} {acc fin : List (String × Msg κ β)}
    {t : String} {part : Int} (h : History cfg p evs acc fin p') (hw : WF p)
    (hn : p.unsent.keys.Nodup) (hk : KeptRight f p) (hby : ByKey f read evs)
    (hret : ∀ r, PEv.answer r ∈ evs → ¬ RetriableIn r t part) :
    inPartition read (requestsOf cfg p evs) t part ++
      (queueOf p'.unsent t).filter (fun m => decide (f m.key = part)) =
    (queueOf p.unsent t).filter (fun m => decide (f m.key = part)) ++ ownOf f t part acc := by
  induction h with
  | nil p => simp [requestsOf, inPartition, ownOf]
  | cons hstep hok _ ih =>
    rename_i p ev p' e evs acc fin p'' hrest
    obtain ⟨s1, s2, s3⟩ := step_order (read := read) (t := t) (part := part) hw hn hk hstep hok
      (fun pick comp hm => hby pick comp (by
        rw [List.mem_singleton] at hm
        simp [hm]))
      (fun r hr => hret r (by simp [hr]))
    have hi := ih (step_perm hw hstep hok).1 s1 s2
      (fun pick comp hm => hby pick comp (List.mem_cons_of_mem _ hm))
      (fun r hr => hret r (List.mem_cons_of_mem _ hr))
    simp only [requestsOf, hstep, inPartition_append, List.append_assoc, own_append]
    rw [hi, ← List.append_assoc, s3, List.append_assoc]

/-- **C75** (partial): if partitions are chosen by key, then in every history in which no answer
reports a retriable error for a partition, the messages handed over for it, in order, followed by
those still queued for it, are the messages accepted for it, in order: whatever else happens to
connections, leaders and other partitions, none overtakes another, is left out or sent twice.
Missing: histories with retriable errors; see `C75_false`. -/
theorem C75_order_partial (cfg : PCfg α κ β) (f : κ → Int) (read : γ → List (Msg κ β))
    (cl : Cluster) (n : Int) (evs : List (PEv α κ β γ)) (acc fin : List (String × Msg κ β))
    (p : Producer κ β) (t : String) (part : Int)
    (h : History cfg (Producer.new cl n) evs acc fin p) (hby : ByKey f read evs)
    (hret : ∀ r, PEv.answer r ∈ evs → ¬ RetriableIn r t part) :
    inPartition read (requestsOf cfg (Producer.new cl n) evs) t part ++
      (queueOf p.unsent t).filter (fun m => decide (f m.key = part)) = ownOf f t part acc := by
  have := history_order (read := read) (t := t) (part := part) h (wf_new cl n)
    (by simp [Producer.new, Dict.keys])
    (by intro c t p ms hs; simp [Producer.new, sentFor, Dict.get?] at hs) hby hret
  simpa [Producer.new, queueOf, Dict.get?] using this

/-! ### Examples -/

/-- A partitioner by key, with the keys being partitions. -/
def exByKey (_ : Nat) (k : Int) (_ : List Int) : Res Int := .ok k

/-- Messages are pairs of a key and a number. -/
def exOrderCfg : PCfg (Int × Nat) Int Nat := ⟨fun m => .ok m.1, fun m => .ok m.2, 100⟩

/-- Requests hold the messages as they are. -/
abbrev OEv := PEv (Int × Nat) Int Nat (List (Msg Int Nat))

/-- Two flushes under way; while the leader is not connected a third leaves the queue as it is;
partition 1 is to be tried again, partition 0 is not. -/
def exOrder : List OEv :=
  [.produce "t" (0, 10), .produce "t" (1, 11), .flush exByKey .ok, .produce "t" (0, 12),
    .cluster { exPCluster with conns := [] }, .flush exByKey .ok, .produce "t" (0, 13),
    .answer ⟨1, [("t", [(0, 0), (1, 6)])]⟩, .cluster exPCluster, .flush exByKey .ok,
    .produce "t" (0, 14)]

-- What is handed over and what is left of it, in order, as in `C75_order_partial`.
example : ∃ acc fin p, History exOrderCfg (Producer.new exPCluster 0) exOrder acc fin p ∧
    inPartition id (requestsOf exOrderCfg (Producer.new exPCluster 0) exOrder) "t" 0 =
      [⟨0, 10⟩, ⟨0, 12⟩, ⟨0, 13⟩] ∧
    queueOf p.unsent "t" = [⟨0, 14⟩] ∧
    ownOf id "t" 0 acc = [⟨0, 10⟩, ⟨0, 12⟩, ⟨0, 13⟩, ⟨0, 14⟩] := by
  refine ⟨_, _, _, .cons rfl ?_ (.cons rfl ?_ (.cons rfl ?_ (.cons rfl ?_ (.cons rfl ?_
    (.cons rfl ?_ (.cons rfl ?_ (.cons rfl ?_ (.cons rfl ?_ (.cons rfl ?_ (.cons rfl ?_
    (.nil _))))))))))), ?_, ?_, ?_⟩
  all_goals decide +kernel

example : ByKey id id exOrder ∧ ∀ r, PEv.answer r ∈ exOrder → ¬ RetriableIn r "t" 0 := by
  constructor
  · intro pick comp h
    simp only [exOrder, List.mem_cons, List.not_mem_nil, or_false, reduceCtorEq, false_or,
      or_self, PEv.flush.injEq] at h
    have : pick = exByKey ∧ comp = .ok := by tauto
    obtain ⟨rfl, rfl⟩ := this
    exact ⟨fun _ _ _ _ h => by cases h; rfl, fun _ _ h => by cases h; rfl⟩
  · intro r h
    simp only [exOrder, List.mem_cons, List.not_mem_nil, or_false, reduceCtorEq, false_or,
      or_self, PEv.answer.injEq] at h
    subst h
    decide

/-- The second of two flushes is under way when the first is answered with a retriable error (6);
the broker appends the second, and then the first, sent again. -/
def exOvertaken : List OEv :=
  [.produce "t" (0, 10), .flush exByKey .ok, .produce "t" (0, 11), .flush exByKey .ok,
    .answer ⟨1, [("t", [(0, 6)])]⟩, .answer ⟨2, [("t", [(0, 0)])]⟩, .flush exByKey .ok,
    .answer ⟨3, [("t", [(0, 0)])]⟩]

/-- **C75** is false of the code in full: a message whose request fails is sent again after a
later message of the same key has been appended; the two are appended in the wrong order. -/
theorem C75_false :
    ∃ acc fin p, History exOrderCfg (Producer.new exPCluster 0) exOvertaken acc fin p ∧
      ByKey id id exOvertaken ∧ ownOf id "t" 0 acc = [⟨0, 10⟩, ⟨0, 11⟩] ∧
      inPartition id (requestsOf exOrderCfg (Producer.new exPCluster 0) exOvertaken) "t" 0 =
        [⟨0, 10⟩, ⟨0, 11⟩, ⟨0, 10⟩] ∧
      ownOf id "t" 0 fin = [⟨0, 11⟩, ⟨0, 10⟩] := by
  refine ⟨_, _, _, .cons rfl ?_ (.cons rfl ?_ (.cons rfl ?_ (.cons rfl ?_ (.cons rfl ?_
    (.cons rfl ?_ (.cons rfl ?_ (.cons rfl ?_ (.nil _)))))))), ?_, ?_, ?_, ?_⟩
  case refine_9 =>
    intro pick comp h
    simp only [exOvertaken, List.mem_cons, List.not_mem_nil, or_false, reduceCtorEq, false_or,
      or_self, PEv.flush.injEq] at h
    have : pick = exByKey ∧ comp = .ok := by tauto
    obtain ⟨rfl, rfl⟩ := this
    exact ⟨fun _ _ _ _ h => by cases h; rfl, fun _ _ h => by cases h; rfl⟩
  all_goals decide +kernel

end Kiel
