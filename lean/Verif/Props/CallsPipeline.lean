import Verif.Spec.CallsPipeline
import Verif.Props.Stored
import Verif.Props.Pipeline
import Verif.Props.Overlap
import Verif.Props.FirstConsumes
import Verif.Props.FirstGrouped
/-
C110: what is produced is consumed exactly once, although calls overlap.
-/
set_option autoImplicit false
namespace Kiel
open Spec

variable {α κ β γ ε δ σ : Type}

/-! ### What has been stored, by request and partition -/

/-- The partitions in a request. -/
def tagsOf (c : Int) (ts : ByPartition κ β) : List (Int × String × Int) :=
  ts.flatMap fun t => t.2.map fun p => (c, t.1, p.1)

/-- The messages of partitions of requests. -/
def messagesAt (given : Dict Int (ByPartition κ β)) (l : List (Int × String × Int)) :
    List (String × Msg κ β) :=
  l.flatMap fun x => ((heldFor given x).getD []).map fun m => (x.2.1, m)

/-- No topic or partition is in a request twice. -/
def TidyRequest (ts : ByPartition κ β) : Prop := ts.keys.Nodup ∧ ∀ t ∈ ts, t.2.keys.Nodup

theorem mem_tagsOf {c : Int} {ts : ByPartition κ β} {x : Int × String × Int} :
    x ∈ tagsOf c ts ↔ x.1 = c ∧ ∃ t ∈ ts, t.1 = x.2.1 ∧ ∃ p ∈ t.2, p.1 = x.2.2 := by
  obtain ⟨a, b, d⟩ := x
  simp only [tagsOf, List.mem_flatMap, List.mem_map, Prod.mk.injEq]
  constructor
  · rintro ⟨t, ht, p, hp, h1, h2, h3⟩; exact ⟨h1.symm, t, ht, h2, p, hp, h3⟩
  · rintro ⟨h1, t, ht, h2, p, hp, h3⟩; exact ⟨t, ht, p, hp, h1.symm, h2, h3⟩

theorem tagsOf_nodup {c : Int} {ts : ByPartition κ β} (h : TidyRequest ts) : (tagsOf c ts).Nodup := by
  unfold tagsOf
  rw [List.nodup_flatMap]
  constructor
  · intro t ht
    have : (t.2.map fun p => (c, t.1, p.1)) = (t.2.map (·.1)).map fun p => (c, t.1, p) := by
      simp [Function.comp_def]
    rw [this]
    exact (h.2 t ht).map fun a b h => by simpa using h
  · have h1 : ts.Pairwise fun a b => a.1 ≠ b.1 := List.pairwise_map.1 h.1
    refine h1.imp fun {a b} hab => ?_
    simp only [Function.onFun, List.disjoint_left, List.mem_map]
    rintro x ⟨p, _, rfl⟩ ⟨q, _, hq⟩
    simp only [Prod.mk.injEq] at hq
    exact hab hq.2.1.symm

theorem heldFor_iff {given : Dict Int (ByPartition κ β)} {c : Int} {ts : ByPartition κ β}
    (hg : given.get? c = some ts) (h : TidyRequest ts) {t : String} {part : Int} {ms : List (Msg κ β)} :
    heldFor given (c, t, part) = some ms ↔ ∃ ps, (t, ps) ∈ ts ∧ (part, ms) ∈ ps := by
  simp only [heldFor, hg, Option.bind_some]
  constructor
  · intro hh
    cases hp : ts.get? t with
    | none => rw [hp] at hh; cases hh
    | some ps =>
      rw [hp] at hh
      exact ⟨ps, Dict.mem_of_get? hp, Dict.mem_of_get? hh⟩
  · rintro ⟨ps, h1, h2⟩
    rw [Dict.get?_of_mem h.1 h1]
    exact Dict.get?_of_mem (h.2 _ h1) h2

theorem messagesAt_tagsOf {given : Dict Int (ByPartition κ β)} {c : Int} {ts : ByPartition κ β}
    (hg : given.get? c = some ts) (h : TidyRequest ts) : messagesAt given (tagsOf c ts) = inRequest ts := by
  simp only [messagesAt, tagsOf, inRequest, List.flatMap_assoc, List.flatMap_map]
  refine List.flatMap_congr fun t ht => List.flatMap_congr fun p hp => ?_
  rw [(heldFor_iff hg h).2 ⟨t.2, ht, hp⟩]
  rfl

theorem messagesAt_subperm {given : Dict Int (ByPartition κ β)} {l l' : List (Int × String × Int)}
    (hn : l.Nodup) (h : ∀ x ∈ l, x ∈ l') : (messagesAt given l).Subperm (messagesAt given l') := by
  obtain ⟨l1, h1, h2⟩ := hn.subperm h
  exact (h1.flatMap_right _).symm.subperm.trans (h2.flatMap _).subperm

theorem messagesAt_inSent {given : Dict Int (ByPartition κ β)} {done : List (Int × String × Int)}
    (hk : given.keys.Nodup) (hg : ∀ e ∈ given, TidyRequest e.2) (hn : done.Nodup)
    (hd : ∀ x ∈ done, (heldFor given x).isSome) : (messagesAt given done).Subperm (inSent given) := by
  have e : messagesAt given (given.flatMap fun e => tagsOf e.1 e.2) = inSent given := by
    unfold messagesAt
    rw [List.flatMap_assoc]
    exact List.flatMap_congr fun e he => messagesAt_tagsOf (Dict.get?_of_mem hk he) (hg e he)
  rw [← e]
  refine messagesAt_subperm hn fun x hx => ?_
  obtain ⟨c, t, part⟩ := x
  have hs := hd _ hx
  cases hc : given.get? c with
  | none => simp [heldFor, hc] at hs
  | some ts =>
    have hm := Dict.mem_of_get? hc
    obtain ⟨ms, hms⟩ := Option.isSome_iff_exists.1 hs
    obtain ⟨ps, h1, h2⟩ := (heldFor_iff hc (hg _ hm)).1 hms
    exact List.mem_flatMap.2 ⟨_, hm, mem_tagsOf.2 ⟨rfl, _, h1, rfl, _, h2, rfl⟩⟩

theorem messagesAt_congr {given given' : Dict Int (ByPartition κ β)} {l : List (Int × String × Int)}
    (h : ∀ x ∈ l, heldFor given' x = heldFor given x) : messagesAt given' l = messagesAt given l :=
  List.flatMap_congr fun x hx => by rw [h x hx]

/-- What is refused is held no more, the rest still is. -/
theorem heldFor_unrefused {given : Dict Int (ByPartition κ β)} {corr : Int}
    {topics : List (String × List (Int × Int))} (x : Int × String × Int) :
    heldFor (given.map fun e => if e.1 = corr then (e.1, unrefused topics e.2) else e) x =
      if x.1 = corr ∧ RefusedIn topics x.2.1 x.2.2 then .none else heldFor given x := by
  obtain ⟨c, t, part⟩ := x
  simp only [heldFor, mapped_get?]
  by_cases hc : c = corr
  · subst hc
    simp only [if_true, true_and]
    cases given.get? c with
    | none => simp
    | some ts =>
      simp only [Option.map_some, Option.bind_some]
      have h1 : ∀ ts : ByPartition κ β, Dict.get? (unrefused topics ts) t =
          (ts.get? t).map fun ps => ps.filter fun p => decide (¬ RefusedIn topics t p.1) := by
        intro ts
        induction ts with
        | nil => rfl
        | cons a r ih =>
          simp only [unrefused, List.map_cons, Dict.get?] at ih ⊢
          split
          · rename_i ha; subst ha; rfl
          · exact ih
      rw [h1]
      cases ts.get? t with
      | none => simp
      | some ps =>
        simp only [Option.map_some, Option.bind_some]
        induction ps with
        | nil => simp [Dict.get?]
        | cons a r ih =>
          by_cases ha : RefusedIn topics t a.1
          · rw [List.filter_cons_of_neg (by simpa using ha), ih]
            by_cases hp : a.1 = part
            · subst hp; simp [ha]
            · simp [Dict.get?, hp]
          · rw [List.filter_cons_of_pos (by simpa using ha)]
            simp only [Dict.get?]
            by_cases hp : a.1 = part
            · subst hp; simp [ha]
            · simp only [hp, if_false]; exact ih
  · simp [hc]

/-! ### One event of the producer's calls -/

theorem answeredIn_some {s : ProducerBusy α κ β γ} {e : ProduceEv α κ β γ} {corr : Int}
    {topics : List (String × List (Int × Int))} (h : answeredIn s e = some (corr, topics)) :
    ∃ i b left stop q, e = .outcome i b (.ok topics) ∧
      s.calls.get? i = some (.sending left stop) ∧ q ∈ left ∧ q.broker = b ∧ q.corr = corr ∧
      left.find? (fun q => decide (q.broker = b)) = some q := by
  cases e with
  | outcome i b r =>
    cases r with
    | error x => cases h
    | ok t =>
      simp only [answeredIn] at h
      split at h
      · rename_i left stop h0
        cases hf : left.find? (fun q => decide (q.broker = b)) with
        | none => rw [hf] at h; cases h
        | some q =>
          rw [hf] at h
          simp only [Option.map_some, Option.some.injEq, Prod.mk.injEq] at h
          obtain ⟨h1, rfl⟩ := h
          exact ⟨i, b, left, stop, q, rfl, h0, List.mem_of_find?_eq_some hf,
            by simpa using List.find?_some hf, h1, hf⟩
      · cases h
  | _ => cases h

/-- A request that is answered is outstanding no more, and nothing new is. -/
theorem answered_waits {cfg : PCfg α κ β} {s : ProducerBusy α κ β γ} {e : ProduceEv α κ β γ}
    {corr : Int} {topics : List (String × List (Int × Int))} (hw : CallsWF s)
    (h : answeredIn s e = some (corr, topics)) {j : Nat} {q' : PReq γ}
    (hq' : Waits (s.step cfg e).2 j q') : Waits s j q' ∧ q'.corr ≠ corr := by
  obtain ⟨i, b, left, stop, q, rfl, h0, hm, hb, rfl, hfind⟩ := answeredIn_some h
  have hne : Waits s j q' → (j = i → q'.broker ≠ b) → q'.corr ≠ q.corr := by
    intro hw1 hw2 hc
    obtain ⟨a1, a2⟩ := hw.apart j i q' q hw1 ⟨left, stop, h0, hm⟩ hc
    exact hw2 a1 (by rw [a2]; exact hb)
  rcases answerStep cfg s i b topics with hs | ⟨left', stop', q2, h0', hm', hb', hfind', hs⟩
  · exfalso
    simp only [ProducerBusy.step, h0, hfind] at hs
    split at hs
    · cases hs
    · have hc := congrArg (fun x : ProduceOut γ × ProducerBusy α κ β γ => x.2.calls.get? i) hs
      simp only [Dict.get?_set, if_true, h0, Option.some.injEq, Producing.sending.injEq,
        and_true] at hc
      have : q ∈ left.filter fun q => decide (q.broker ≠ b) := by rw [hc]; exact hm
      simp [hb] at this
  · rw [h0] at h0'
    cases h0'
    rcases hs with ⟨p, hp, hs⟩ | ⟨x, p, hp, hs⟩
    · rw [hs] at hq'
      rcases waits_set hq' with ⟨hj, hq1⟩ | ⟨hj, l, st, hl, hq1⟩
      · exact ⟨hq1, hne hq1 (fun h => absurd h hj)⟩
      · cases hl
        subst hj
        simp only [List.mem_filter, decide_eq_true_eq] at hq1
        have hw1 : Waits s j q' := ⟨left, stop, h0, hq1.1⟩
        exact ⟨hw1, hne hw1 (fun _ => hq1.2)⟩
    · rw [hs] at hq'
      have hq1 := waits_erase hq'
      refine ⟨hq1, hne hq1 (fun hj => ?_)⟩
      subst hj
      obtain ⟨l, st, hl, _⟩ := hq'
      simp [Dict.get?_erase] at hl

/-- What is settled when a request is answered: nothing, if that raises; otherwise all that is not
refused. -/
theorem answered_settles {cfg : PCfg α κ β} {s : ProducerBusy α κ β γ} {e : ProduceEv α κ β γ}
    {corr : Int} {topics : List (String × List (Int × Int))} {ts : ByPartition κ β}
    (h : answeredIn s e = some (corr, topics)) (hts : s.producer.sent.get? corr = some ts)
    (h7 : NoneAfterAppend e) :
    settledIn cfg s e = [] ∨ settledIn cfg s e = inRequest (unrefused topics ts) := by
  obtain ⟨i, b, left, stop, q, rfl, h0, hm, hb, rfl, hfind⟩ := answeredIn_some h
  simp only [settledIn, h0, hfind]
  split
  · rename_i q2 hq2 _
    cases hq2
    right
    rw [hts, unrefused_eq (corr := q.corr) (h7 i b topics rfl)]
    simp only [settled, inRequest, dropRetried, List.flatMap_map, Option.getD_some]
    refine List.flatMap_congr fun t _ => ?_
    congr 1
  · exact .inl rfl

theorem unanswered_settles {cfg : PCfg α κ β} {s : ProducerBusy α κ β γ} {e : ProduceEv α κ β γ}
    (h : answeredIn s e = .none) : settledIn cfg s e = [] := by
  cases e with
  | outcome i b r =>
    cases r with
    | error x => rfl
    | ok t =>
      simp only [answeredIn, settledIn] at h ⊢
      split
      · rename_i left stop h0
        simp only [h0] at h
        cases hf : left.find? (fun q => decide (q.broker = b)) with
        | none => rfl
        | some q => rw [hf] at h; cases h
      · rfl
  | _ => rfl

/-- An event at which no request is answered: what it hands over is new, and tidy. -/
theorem unanswered_given {cfg : PCfg α κ β} {dec : γ → List (Msg κ β)} {s : ProducerBusy α κ β γ}
    {e : ProduceEv α κ β γ} (hw : CallsWF s) (hd : Decodes dec e) (h : answeredIn s e = .none)
    (given : Dict Int (ByPartition κ β)) :
    ∃ new : Dict Int (ByPartition κ β), storing cfg dec s e given = given ++ new ∧
      (∀ x ∈ new, s.producer.lastId < x.1 ∧ TidyRequest x.2) ∧
      ∀ j q, Waits (s.step cfg e).2 j q → Waits s j q ∨ s.producer.lastId < q.corr := by
  have hw' := callsWF_step cfg s e hw
  by_cases hn : ∀ j b topics, e ≠ .outcome j b (.ok topics)
  · have hback := waits_back cfg s e hn
    by_cases hh : handed (s.step cfg e).1 = []
    · refine ⟨[], by simp only [storing, h, hh, List.map_nil], by simp, fun j q hq => ?_⟩
      rcases hback j q hq with hq | hq
      · exact .inl hq
      · rw [hh] at hq; cases hq
    · obtain ⟨p0, env, he, e1, e2, hp⟩ := step_handed cfg s e hh
      have hw0 : ∀ k ∈ p0.sent.keys, k ≤ p0.lastId := by rw [e1, e2]; exact hw.wf.old
      obtain ⟨pl, g1, g2, g3, g4, g5, _⟩ := prepare_ok hw0 hp
      have hnum := contents_numbered (dec := dec) (hd env he) p0.lastId g4 g5
      obtain ⟨k1, k2⟩ := numbered_keys p0.lastId (routeTo p0.cluster pl ⟨[], []⟩).ordered
      rw [e2] at k2
      refine ⟨numbered p0.lastId (routeTo p0.cluster pl ⟨[], []⟩).ordered,
        by simp only [storing, h, hnum], fun x hx => ⟨?_, ?_⟩, fun j q hq => ?_⟩
      · rw [e2] at hx
        exact (k2 x.1 (List.mem_map.2 ⟨x, hx, rfl⟩)).1
      · exact hw'.wf.topics x (by rw [g2]; exact List.mem_append_right _ hx)
      · rcases hback j q hq with hq | hq
        · exact .inl hq
        · right
          refine (k2 q.corr ?_).1
          rw [← e2, ← g5]
          exact List.mem_map.2 ⟨q, hq, rfl⟩
  · simp only [not_forall, not_not] at hn
    obtain ⟨i, b, topics, rfl⟩ := hn
    have hstep : s.step cfg (.outcome i b (.ok topics)) = (.nothing, s) := by
      rcases answerStep cfg s i b topics with hs | ⟨left, stop, q, h0, hm, hb, hfind, hs⟩
      · exact hs
      · simp [answeredIn, h0, hfind] at h
    refine ⟨[], ?_, by simp, fun j q hq => ?_⟩
    · simp only [storing, h, hstep, handed, List.map_nil]
    · rw [hstep] at hq; exact .inl hq

/-- At an event at which a request is answered nothing is handed over. -/
theorem answered_given {cfg : PCfg α κ β} {dec : γ → List (Msg κ β)} {s : ProducerBusy α κ β γ}
    {e : ProduceEv α κ β γ} {corr : Int} {topics : List (String × List (Int × Int))}
    (h : answeredIn s e = some (corr, topics)) (given : Dict Int (ByPartition κ β)) :
    storing cfg dec s e given =
      given.map fun x => if x.1 = corr then (x.1, unrefused topics x.2) else x := by
  obtain ⟨i, b, left, stop, q, rfl, h0, hm, hb, rfl, hfind⟩ := answeredIn_some h
  have hh : handed (s.step cfg (.outcome i b (.ok topics))).1 = [] := by
    rcases answerStep cfg s i b topics with hs | ⟨left, stop, q, h0, hm, hb, hfind, hs⟩
    · rw [hs]; rfl
    · rcases hs with ⟨p, hp, hs⟩ | ⟨x, p, hp, hs⟩ <;> rw [hs] <;> rfl
  simp only [storing, h, hh, List.map_nil, List.append_nil]

/-- What holds of a producer and the brokers. `fin`: what has been settled; `ans`: the requests by
which. -/
structure SiteInv (s : ProducerBusy α κ β γ) (given : Dict Int (ByPartition κ β))
    (done : List (Int × String × Int)) (fin : List (String × Msg κ β)) (ans : List Int) : Prop where
  wf : CallsWF s
  stored : StoredInv given s fin
  tidy : ∀ e ∈ given, TidyRequest e.2
  doneNodup : done.Nodup
  doneHeld : ∀ x ∈ done, (heldFor given x).isSome
  ansNodup : ans.Nodup
  ansGiven : ∀ c ∈ ans, c ∈ given.keys
  ansDone : ∀ c ∈ ans, ∀ t part ms, heldFor given (c, t, part) = some ms → (c, t, part) ∈ done
  ansWaits : ∀ c ∈ ans, ∀ j q, Waits s j q → q.corr ≠ c
  fin : fin.Perm (ans.flatMap fun c => inRequest ((given.get? c).getD []))

theorem tidy_unrefused (topics : List (String × List (Int × Int))) {ts : ByPartition κ β}
    (h : TidyRequest ts) : TidyRequest (unrefused topics ts) := by
  constructor
  · simp only [unrefused, Dict.keys, List.map_map]
    exact h.1
  · intro t ht
    obtain ⟨t0, h0, rfl⟩ := List.mem_map.1 ht
    exact (h.2 t0 h0).sublist (List.Sublist.map _ List.filter_sublist)

theorem get?_append_left {ι ν : Type} [DecidableEq ι] {d : Dict ι ν} (d' : Dict ι ν) {k : ι}
    (h : k ∈ d.keys) : Dict.get? (d ++ d') k = d.get? k := by
  induction d with
  | nil => simp [Dict.keys] at h
  | cons x r ih =>
    simp only [List.cons_append, Dict.get?]
    split
    · rfl
    · rename_i hx
      refine ih ?_
      simp only [Dict.keys, List.map_cons, List.mem_cons] at h
      exact h.resolve_left fun h => hx h.symm

theorem heldFor_key {given : Dict Int (ByPartition κ β)} {x : Int × String × Int}
    (h : (heldFor given x).isSome) : x.1 ∈ given.keys := by
  unfold heldFor at h
  cases hg : given.get? x.1 with
  | none => rw [hg] at h; cases h
  | some ts => exact Dict.mem_keys.2 ⟨ts, Dict.mem_of_get? hg⟩

theorem stored_unanswered {cfg : PCfg α κ β} {dec : γ → List (Msg κ β)} {s : ProducerBusy α κ β γ}
    {e : ProduceEv α κ β γ} {given : Dict Int (ByPartition κ β)} {fin : List (String × Msg κ β)}
    (hw : CallsWF s) (hd : Decodes dec e) (ha : answeredIn s e = .none) (h : StoredInv given s fin) :
    StoredInv (storing cfg dec s e given) (s.step cfg e).2 (settledIn cfg s e ++ fin) := by
  by_cases hn : ∀ j b topics, e ≠ .outcome j b (.ok topics)
  · exact maybe_step cfg dec s e given fin hw hd (fun i b topics he => absurd he (hn i b topics)) h
  · simp only [not_forall, not_not] at hn
    obtain ⟨i, b, topics, rfl⟩ := hn
    have hstep : s.step cfg (.outcome i b (.ok topics)) = (.nothing, s) := by
      rcases answerStep cfg s i b topics with hs | ⟨left, stop, q, h0, hm, hb, hfind, hs⟩
      · exact hs
      · simp [answeredIn, h0, hfind] at ha
    rw [unanswered_settles ha]
    simp only [storing, ha, hstep, handed, List.map_nil, List.append_nil, List.nil_append]
    exact h

theorem site_call {cfg : PCfg α κ β} {dec : γ → List (Msg κ β)} {s : ProducerBusy α κ β γ}
    {given : Dict Int (ByPartition κ β)} {done : List (Int × String × Int)}
    {fin : List (String × Msg κ β)} {ans : List Int} {e : ProduceEv α κ β γ}
    (h : SiteInv s given done fin ans) (hd : Decodes dec e)
    (ht : ∀ corr topics, answeredIn s e = some (corr, topics) → Truthful given done corr topics) :
    (∃ ans', SiteInv (s.step cfg e).2 (storing cfg dec s e given) done
      (settledIn cfg s e ++ fin) ans') ∧
    ∀ x ∈ done, heldFor (storing cfg dec s e given) x = heldFor given x := by
  have hw' := callsWF_step cfg s e h.wf
  cases ha : answeredIn s e with
  | none =>
    obtain ⟨new, g1, g2, g3⟩ := unanswered_given (cfg := cfg) (dec := dec) h.wf hd ha given
    have hst := stored_unanswered (cfg := cfg) h.wf hd ha h.stored
    rw [g1] at hst ⊢
    have hkeep : ∀ x : Int × String × Int, x.1 ∈ given.keys →
        heldFor (given ++ new) x = heldFor given x := by
      intro x hx
      simp only [heldFor, get?_append_left new hx]
    have hdone : ∀ x ∈ done, heldFor (given ++ new) x = heldFor given x :=
      fun x hx => hkeep x (heldFor_key (h.doneHeld x hx))
    refine ⟨⟨ans, hw', hst, ?_, h.doneNodup, fun x hx => ?_, h.ansNodup, fun c hc => ?_,
      fun c hc t part ms hms => ?_, fun c hc j q hq => ?_, ?_⟩, hdone⟩
    · intro x hx
      rcases List.mem_append.1 hx with hx | hx
      · exact h.tidy x hx
      · exact (g2 x hx).2
    · rw [hdone x hx]; exact h.doneHeld x hx
    · simp only [Dict.keys, List.map_append, List.mem_append]
      exact .inl (h.ansGiven c hc)
    · rw [hkeep (c, t, part) (h.ansGiven c hc)] at hms
      exact h.ansDone c hc t part ms hms
    · rcases g3 j q hq with hq | hq
      · exact h.ansWaits c hc j q hq
      · have := h.stored.old c (h.ansGiven c hc)
        omega
    · rw [unanswered_settles ha, List.nil_append]
      refine h.fin.trans (List.Perm.of_eq (List.flatMap_congr fun c hc => ?_))
      rw [get?_append_left new (h.ansGiven c hc)]
  | some x =>
    obtain ⟨corr, topics⟩ := x
    have htr := ht corr topics ha
    obtain ⟨i, b, left, stop, q, he, h0, hm, hb, hc, hfind⟩ := answeredIn_some ha
    obtain ⟨ts, t1, t2⟩ := h.stored.waits i q ⟨left, stop, h0, hm⟩
    rw [hc] at t1 t2
    have h7 : NoneAfterAppend e := by
      intro i' b' topics' he' a ha c hc
      rw [he] at he'
      cases he'
      rcases htr.codes a ha c hc with h | h
      · omega
      · have : ∀ x ∈ [(2 : Int), 3, 5, 6, 14, 15, 16, 19], x ≠ 7 ∧ x ≠ 20 := by decide
        exact this _ h
    have hst := maybe_step cfg dec s e given fin h.wf hd h7 h.stored
    have hset := answered_settles (cfg := cfg) ha t2 h7
    rw [answered_given ha] at hst ⊢
    have hnot : corr ∉ ans := fun hx => h.ansWaits corr hx i q ⟨left, stop, h0, hm⟩ hc
    have hdone : ∀ x ∈ done, heldFor (given.map fun x =>
        if x.1 = corr then (x.1, unrefused topics x.2) else x) x = heldFor given x := by
      rintro ⟨c, t, part⟩ hx
      rw [heldFor_unrefused, if_neg]
      rintro ⟨rfl, hr⟩
      obtain ⟨ms, hms⟩ := Option.isSome_iff_exists.1 (h.doneHeld _ hx)
      exact htr.stored t part ms hms hx hr
    have hother : ∀ c ∈ ans, Dict.get? (given.map fun x =>
        if x.1 = corr then (x.1, unrefused topics x.2) else x) c = given.get? c := by
      intro c hc'
      rw [mapped_get?, if_neg]
      rintro rfl
      exact hnot hc'
    have htidy : ∀ e ∈ given.map (fun x => if x.1 = corr then (x.1, unrefused topics x.2) else x),
        TidyRequest e.2 := by
      intro x hx
      obtain ⟨x0, hx0, rfl⟩ := List.mem_map.1 hx
      split
      · exact tidy_unrefused topics (h.tidy x0 hx0)
      · exact h.tidy x0 hx0
    have hgiven : ∀ c ∈ given.keys, c ∈ Dict.keys (given.map fun x =>
        if x.1 = corr then (x.1, unrefused topics x.2) else x) := by
      intro c hc'; rw [mapped_keys]; exact hc'
    have hansDone : ∀ c ∈ ans, ∀ t part ms, heldFor (given.map fun x =>
        if x.1 = corr then (x.1, unrefused topics x.2) else x) (c, t, part) = some ms →
        (c, t, part) ∈ done := by
      intro c hc' t part ms hms
      refine h.ansDone c hc' t part ms ?_
      rw [heldFor_unrefused, if_neg (by rintro ⟨rfl, _⟩; exact hnot hc')] at hms
      exact hms
    have hfin : fin.Perm (ans.flatMap fun c => inRequest ((Dict.get? (given.map fun x =>
        if x.1 = corr then (x.1, unrefused topics x.2) else x) c).getD [])) := by
      refine h.fin.trans (List.Perm.of_eq (List.flatMap_congr fun c hc' => ?_))
      rw [hother c hc']
    refine ⟨?_, hdone⟩
    rcases hset with hset | hset
    · rw [hset, List.nil_append] at hst ⊢
      refine ⟨ans, hw', hst, htidy, h.doneNodup, fun x hx => ?_, h.ansNodup,
        fun c hc' => hgiven c (h.ansGiven c hc'), hansDone,
        fun c hc' j q' hq' => h.ansWaits c hc' j q' (answered_waits h.wf ha hq').1, hfin⟩
      rw [hdone x hx]; exact h.doneHeld x hx
    · rw [hset] at hst ⊢
      refine ⟨corr :: ans, hw', hst, htidy, h.doneNodup, fun x hx => ?_,
        List.nodup_cons.2 ⟨hnot, h.ansNodup⟩, fun c hc' => ?_, fun c hc' => ?_,
        fun c hc' j q' hq' => ?_, ?_⟩
      · rw [hdone x hx]; exact h.doneHeld x hx
      · rcases List.mem_cons.1 hc' with rfl | hc'
        · exact hgiven _ (Dict.mem_keys.2 ⟨ts, Dict.mem_of_get? t1⟩)
        · exact hgiven c (h.ansGiven c hc')
      · rcases List.mem_cons.1 hc' with rfl | hc'
        · intro t part ms hms
          rw [heldFor_unrefused] at hms
          split at hms
          · cases hms
          · rename_i hx
            by_contra hnd
            exact hx ⟨rfl, htr.refused t part ms hms hnd⟩
        · exact hansDone c hc'
      · obtain ⟨w1, w2⟩ := answered_waits h.wf ha hq'
        rcases List.mem_cons.1 hc' with rfl | hc'
        · exact w2
        · exact h.ansWaits c hc' j q' w1
      · rw [List.flatMap_cons, mapped_get?, if_pos rfl, t1]
        exact hfin.append_left _

/-! ### Everything together -/

/-- What has become of messages: those accepted are stored or left over, and those stored are what the
logs have gained. -/
structure SiteLedger (logs0 : String → Int → List (Int × β)) (w : Site α κ β γ σ)
    (acc risk fin : List (String × Msg κ β)) (foreign : List (String × β)) : Prop where
  logs : ∀ t p, IsLog (w.logs t p)
  gained : ∃ (add : String → Int → List (Int × β)) (news : String → Int → List β)
    (st : List (String × β)), (∀ t p, w.logs t p = logs0 t p ++ add t p ∧
      (add t p).map (·.2) = news t p) ∧ Interleaving news st ∧
    (plain (messagesAt w.given w.done) ++ foreign).Perm st
  ledger : ∃ lost kept, risk.Perm (lost ++ kept) ∧
    acc.Perm (inQueue w.producer.producer.unsent ++ inSent w.producer.producer.sent ++ fin ++ lost)

theorem interleaving_one (t : String) (part : Int) (l : List δ) :
    Interleaving (fun t' part' => if t' = t ∧ part' = part then l else []) (l.map fun v => (t, v)) := by
  refine ⟨l.map fun v => ((t, part), v), by simp, fun t' part' => ?_⟩
  by_cases h : t' = t ∧ part' = part
  · obtain ⟨rfl, rfl⟩ := h
    simp [List.filter_map, Function.comp_def]
  · show _ = if t' = t ∧ part' = part then l else []
    rw [if_neg h, List.filter_eq_nil_iff.2, List.map_nil]
    intro x hx
    obtain ⟨v, _, rfl⟩ := List.mem_map.1 hx
    simp only [decide_eq_true_eq, Prod.mk.injEq]
    exact fun hx => h ⟨hx.1.symm, hx.2.symm⟩

/-- Logs that grow. -/
theorem gained_grows {logs0 logs logs' : String → Int → List (Int × β)}
    {own foreign : List (String × β)} {t : String} {part : Int} {vs : List β}
    (hg : Grows logs logs' fun t' part' => if t' = t ∧ part' = part then vs else [])
    (h : ∃ (add : String → Int → List (Int × β)) (news : String → Int → List β)
      (st : List (String × β)), (∀ t p, logs t p = logs0 t p ++ add t p ∧
        (add t p).map (·.2) = news t p) ∧ Interleaving news st ∧ (own ++ foreign).Perm st) :
    ∃ (add : String → Int → List (Int × β)) (news : String → Int → List β)
      (st : List (String × β)), (∀ t p, logs' t p = logs0 t p ++ add t p ∧
        (add t p).map (·.2) = news t p) ∧ Interleaving news st ∧
      ((own ++ foreign) ++ vs.map fun v => (t, v)).Perm st := by
  obtain ⟨add, news, st, h1, h2, h3⟩ := h
  choose more hm1 hm2 using fun t p => (hg t p).2
  refine ⟨fun t p => add t p ++ more t p, _, _, fun t p => ⟨?_, ?_⟩,
    interleaving_append h2 (interleaving_one t part vs), h3.append_right _⟩
  · rw [hm1, (h1 t p).1, List.append_assoc]
  · rw [List.map_append, (h1 t p).2, hm2]

theorem site_run {pcfg : PCfg α κ β} {dec : γ → List (Msg κ β)}
    {reads : Reads σ β δ} {cl : Cluster} {n : Int}
    {logs0 : String → Int → List (Int × β)} {c : σ} {w : Site α κ β γ σ}
    {acc risk : List (String × Msg κ β)} {foreign : List (String × β)} {outs : List (String × δ)}
    (h : Runs pcfg dec reads (Site.new cl n logs0 c) acc risk foreign outs w)
    (hl : ∀ t p, IsLog (logs0 t p)) :
    ∃ fin ans, SiteInv w.producer w.given w.done fin ans ∧
      SiteLedger logs0 w acc risk fin foreign := by
  induction h with
  | nil =>
    refine ⟨[], [], ⟨callsWF_idle cl n, ⟨by simp [Site.new, Dict.keys], by simp [Site.new, Dict.keys],
      fun i q h => by obtain ⟨l, st, h, _⟩ := h; simp [Site.new, idleProducer, Dict.get?] at h,
      [], by simp [Site.new, idleProducer, Producer.new, inSent]⟩, by simp [Site.new], .nil,
      by simp [Site.new], .nil, by simp, by simp, by simp, .nil⟩, hl,
      ⟨fun _ _ => [], fun _ _ => [], [], by simp [Site.new], interleaving_nil,
        by simp [Site.new, messagesAt, plain]⟩, [], [], .nil, ?_⟩
    simp [Site.new, idleProducer, Producer.new, inQueue, inSent]
  | snoc _ hs ih =>
    obtain ⟨fin, ans, hi, hk⟩ := ih
    cases hs with
    | @call e hd ht =>
      obtain ⟨⟨ans', hi'⟩, hheld⟩ := site_call (cfg := pcfg) hi hd ht
      refine ⟨_, ans', hi', hk.logs, ?_, ?_⟩
      · simp only [messagesAt_congr hheld, List.append_nil]
        exact hk.gained
      · obtain ⟨_, lost, kept, l1, l2⟩ := calls_ledger_step pcfg _ e hi.wf
        obtain ⟨lost0, kept0, m1, m2⟩ := hk.ledger
        refine ⟨lost0 ++ lost, kept0 ++ kept, ?_, ?_⟩
        · refine (m1.append l1).trans ?_
          classical
          rw [List.perm_iff_count]; intro x
          simp only [List.count_append]; omega
        · classical
          rw [List.perm_iff_count] at m2 l2 ⊢
          intro x
          have h1 := m2 x
          have h2 := l2 x
          simp only [List.count_append] at h1 h2 ⊢
          omega
    | stores hm hn hg =>
      refine ⟨fin, ans, ⟨hi.wf, hi.stored, hi.tidy, List.nodup_cons.2 ⟨hn, hi.doneNodup⟩, ?_,
        hi.ansNodup, hi.ansGiven, fun c hc t part ms hms => .tail _ (hi.ansDone c hc t part ms hms),
        hi.ansWaits, hi.fin⟩, fun t p => (hg t p).1, ?_, by simpa using hk.ledger⟩
      · intro x hx
        rcases List.mem_cons.1 hx with rfl | hx
        · rw [hm]; rfl
        · exact hi.doneHeld x hx
      · obtain ⟨add, news, st, h1, h2, h3⟩ := gained_grows hg hk.gained
        refine ⟨add, news, st, h1, h2, List.Perm.trans ?_ h3⟩
        simp only [messagesAt, List.flatMap_cons, hm, Option.getD_some, plain, List.map_append,
          List.map_map, List.append_nil]
        refine List.Perm.trans ?_ List.perm_append_comm
        rw [List.append_assoc]
        exact .refl _
    | foreign hg =>
      refine ⟨fin, ans, hi, fun t p => (hg t p).1, ?_, by simpa using hk.ledger⟩
      obtain ⟨add, news, st, h1, h2, h3⟩ := gained_grows hg hk.gained
      exact ⟨add, news, st, h1, h2, by simpa using h3⟩
    | consumes hr =>
      refine ⟨fin, ans, hi, hk.logs, by simpa using hk.gained, by simpa using hk.ledger⟩

/-! ### The consumer -/

theorem course_snoc {allocation : Consumer ε → Res (Dict String (List Int))} {cfg : CCfg β δ}
    {ok : Busy ε δ → BEv ε β → Prop} {b b1 b2 : Busy ε δ} {outs : List (String × δ)} {ev : BEv ε β}
    {out : BOut δ} (h : Course allocation cfg ok b outs b1) (hok : ok b1 ev)
    (hs : b1.step allocation cfg ev = (out, b2)) (hno : ∀ e, out ≠ .raised e) :
    Course allocation cfg ok b (outs ++ returnedBy out) b2 := by
  induction h with
  | nil b =>
    have := Course.cons hok hs hno (Course.nil (ok := ok) b2)
    rwa [List.append_nil] at this
  | cons h1 h2 h3 _ ih =>
    rw [List.append_assoc]
    exact .cons h1 h2 h3 (ih hok hs)

theorem batch_grows {log log' : List (Int × β)} (hg : log <+: log') {o : Int} {ms : List (Int × β)}
    (h : Batch log o ms) : Batch log' o ms := by
  obtain ⟨rest, rfl⟩ := hg
  refine h.trans ?_
  rw [List.filter_append]
  exact List.prefix_append _ _

theorem wideBatch_grows {log log' : List (Int × β)} (hg : log <+: log') {o : Int} {ms : List (Int × β)}
    (h : WideBatch log o ms) : WideBatch log' o ms := by
  obtain ⟨add, rfl⟩ := hg
  obtain ⟨pre, rest, rfl, hp⟩ := h
  exact ⟨pre, rest ++ add, by simp, hp⟩

theorem fair_grows {batch : List (Int × β) → Int → List (Int × β) → Prop}
    (hbatch : ∀ {log log' : List (Int × β)}, log <+: log' → ∀ {o ms}, batch log o ms → batch log' o ms)
    {logs logs' : String → Int → List (Int × β)} (hg : ∀ t p, logs t p <+: logs' t p)
    (b : Busy ε δ) (ev : BEv ε β) (h : Fair batch logs b ev) : Fair batch logs' b ev := by
  cases ev with
  | outcome i broker r =>
    cases r with
    | error x => trivial
    | ok r =>
      intro w hw q hq hb
      obtain ⟨ps, f1, f2, f3⟩ := h w hw q hq hb
      refine ⟨ps, f1, f2, fun p hp => ⟨(f3 p hp).1, fun h0 => ?_⟩⟩
      obtain ⟨f, g1, g2, g3⟩ := (f3 p hp).2 h0
      exact ⟨f, g1, g2, hbatch (hg q.topic p.id) g3⟩
  | consume i t => exact h
  | other f => exact h
  | finish i => trivial
  | healFails i e => trivial

theorem fairFirst_grows {logs logs' : String → Int → List (Int × β)}
    (hg : ∀ t p, logs t p <+: logs' t p) (s : SingleBusy δ) (ev : FirstEv β)
    (h : FairFirst Batch logs s ev) : FairFirst Batch logs' s ev := by
  cases ev with
  | base ev =>
    cases ev with
    | other f => exact h
    | consume i t => exact h
    | outcome i b r => exact fair_grows batch_grows hg s.base (.outcome i b r) h
    | finish i => trivial
    | healFails i e => trivial
  | offsets i b r => cases r <;> exact h
  | _ => exact h

theorem fairGroup_grows {batch : List (Int × β) → Int → List (Int × β) → Prop}
    (hbatch : ∀ {log log' : List (Int × β)}, log <+: log' → ∀ {o ms}, batch log o ms → batch log' o ms)
    {logs logs' : String → Int → List (Int × β)} (hg : ∀ t p, logs t p <+: logs' t p)
    (s : GroupFirst δ) (ev : FirstGroupEv β) (h : FairGroup batch logs s ev) :
    FairGroup batch logs' s ev := by
  cases ev with
  | group ev =>
    cases ev with
    | base ev =>
      cases ev with
      | other f => exact h
      | consume i t => exact h
      | outcome i b r => exact fair_grows hbatch hg s.group.base (.outcome i b r) h
      | finish i => trivial
      | healFails i e => trivial
    | _ => exact h
  | _ => exact h

theorem firstCourse_snoc {cfg : CCfg β δ} {ok : SingleBusy δ → FirstEv β → Prop}
    {s s1 s2 : SingleBusy δ} {outs : List (String × δ)} {told : List (String × List OPart)}
    {ev : FirstEv β} {out : FirstOut δ} (h : FirstCourse cfg ok s outs told s1) (hok : ok s1 ev)
    (hs : s1.step cfg ev = (out, s2)) (hno : ∀ e bev, ev = .base bev → out ≠ .raised e) :
    FirstCourse cfg ok s (outs ++ firstReturned out) (told ++ toldBy s1 ev) s2 := by
  induction h with
  | nil b =>
    have := FirstCourse.cons hok hs hno (FirstCourse.nil (ok := ok) s2)
    rwa [List.append_nil, List.append_nil] at this
  | cons h1 h2 h3 _ ih =>
    rw [List.append_assoc, List.append_assoc]
    exact .cons h1 h2 h3 (ih hok hs)

theorem groupCourse_snoc {gcfg : GCfg} {cfg : CCfg β δ}
    {ok : GroupFirst δ → FirstGroupEv β → FirstGroupOut δ → Prop} {s s1 s2 : GroupFirst δ}
    {outs : List (String × δ)} {told : List (String × List OFPart)} {ev : FirstGroupEv β}
    {out : FirstGroupOut δ} (h : FirstGroupCourse gcfg cfg ok s outs told s1) (hok : ok s1 ev out)
    (hs : s1.step gcfg cfg ev = (out, s2)) :
    FirstGroupCourse gcfg cfg ok s (outs ++ groupGiven out) (told ++ groupTold s1 ev) s2 := by
  induction h with
  | nil b =>
    have := FirstGroupCourse.cons hok hs (FirstGroupCourse.nil (ok := ok) s2)
    rwa [List.append_nil, List.append_nil] at this
  | cons h1 h2 _ ih =>
    rw [List.append_assoc, List.append_assoc]
    exact .cons h1 h2 (ih hok hs)

/-- What a consumer has done is against the logs as they are at the end. -/
theorem site_reads {pcfg : PCfg α κ β} {dec : γ → List (Msg κ β)} {reads : Reads σ β δ}
    (hmono : ∀ {logs logs' : String → Int → List (Int × β)}, (∀ t p, logs t p <+: logs' t p) →
      ∀ {c outs c'}, reads logs c outs c' → reads logs' c outs c')
    (inv : σ → List (String × δ) → σ → Prop) {w0 w : Site α κ β γ σ}
    {acc risk : List (String × Msg κ β)} {foreign : List (String × β)} {outs : List (String × δ)}
    (h : Runs pcfg dec reads w0 acc risk foreign outs w) (h0 : inv w0.consumer [] w0.consumer)
    (hs : ∀ {c outs c1 outs1}, inv w0.consumer outs c → reads w.logs c outs1 c1 →
      inv w0.consumer (outs ++ outs1) c1) : inv w0.consumer outs w.consumer := by
  have key : ∀ logs, (∀ t p, w.logs t p <+: logs t p) →
      (∀ {c outs c1 outs1}, inv w0.consumer outs c → reads logs c outs1 c1 →
        inv w0.consumer (outs ++ outs1) c1) → inv w0.consumer outs w.consumer := by
    clear hs
    induction h with
    | nil => exact fun _ _ _ => h0
    | snoc _ ho ih =>
      intro logs hl hs
      cases ho with
      | call _ _ => rw [List.append_nil]; exact ih logs hl hs
      | stores _ _ hg =>
        rw [List.append_nil]
        exact ih logs (fun t p => List.IsPrefix.trans
          (by obtain ⟨add, h1, _⟩ := (hg t p).2; exact ⟨add, h1.symm⟩) (hl t p)) hs
      | foreign hg =>
        rw [List.append_nil]
        exact ih logs (fun t p => List.IsPrefix.trans
          (by obtain ⟨add, h1, _⟩ := (hg t p).2; exact ⟨add, h1.symm⟩) (hl t p)) hs
      | consumes hr => exact hs (ih logs hl hs) (hmono hl hr)
  exact key w.logs (fun _ _ => List.prefix_rfl) hs

theorem inQueue_singles (l : List (String × Msg κ β)) :
    inQueue (l.map fun m => (m.1, [m.2])) = l := by
  simp only [inQueue, List.flatMap_map]
  induction l with
  | nil => rfl
  | cons x r ih => simp only [List.flatMap_cons, ih]; rfl

/-- Whatever kind of consumer: what has been made is in the logs, less what is still to be sent. -/
theorem site_accounted {pcfg : PCfg α κ β} {dec : γ → List (Msg κ β)} {reads : Reads σ β δ}
    {cl : Cluster} {n : Int} {logs0 : String → Int → List (Int × β)} {c : σ} {w : Site α κ β γ σ}
    {acc risk : List (String × Msg κ β)} {foreign : List (String × β)} {outs : List (String × δ)}
    (h : Runs pcfg dec reads (Site.new cl n logs0 c) acc risk foreign outs w)
    (hl : ∀ t p, IsLog (logs0 t p)) :
    (∀ t p, IsLog (w.logs t p)) ∧ ∃ p' : Producer κ β,
      Accounted (Producer.new cl n) logs0 acc foreign p' w.logs ∧
      (risk = [] → inQueue w.producer.producer.unsent = [] → inSent w.producer.producer.sent = [] →
        inQueue p'.unsent = []) := by
  obtain ⟨fin, ans, hi, hk⟩ := site_run h hl
  obtain ⟨lost, kept, l1, l2⟩ := hk.ledger
  obtain ⟨rest, hsub⟩ := hi.stored.sub
  have hown : (messagesAt w.given w.done).Subperm acc := by
    refine (messagesAt_inSent hi.stored.nodup hi.tidy hi.doneNodup hi.doneHeld).trans ?_
    refine (List.sublist_append_left _ rest).subperm.trans (hsub.symm.subperm.trans ?_)
    refine List.Subperm.trans ?_ l2.symm.subperm
    rw [List.append_assoc, List.append_assoc, ← List.append_assoc (inSent _)]
    exact ((List.sublist_append_left _ lost).trans (List.sublist_append_right _ _)).subperm
  have hfin : fin.Subperm (messagesAt w.given w.done) := by
    have e : (ans.flatMap fun c => inRequest ((w.given.get? c).getD [])) =
        messagesAt w.given (ans.flatMap fun c => tagsOf c ((w.given.get? c).getD [])) := by
      unfold messagesAt
      rw [List.flatMap_assoc]
      refine List.flatMap_congr fun c hc => ?_
      obtain ⟨ts, hts⟩ := Dict.mem_keys.1 (hi.ansGiven c hc)
      have hg := Dict.get?_of_mem hi.stored.nodup hts
      rw [hg]
      exact (messagesAt_tagsOf hg (hi.tidy _ hts)).symm
    refine hi.fin.subperm.trans ?_
    rw [e]
    refine messagesAt_subperm ?_ ?_
    · rw [List.nodup_flatMap]
      refine ⟨fun c hc => ?_, hi.ansNodup.imp fun {a b} hab => ?_⟩
      · obtain ⟨ts, hts⟩ := Dict.mem_keys.1 (hi.ansGiven c hc)
        rw [Dict.get?_of_mem hi.stored.nodup hts]
        exact tagsOf_nodup (hi.tidy _ hts)
      · simp only [Function.onFun, List.disjoint_left]
        intro x h1 h2
        exact hab ((mem_tagsOf.1 h1).1.symm.trans (mem_tagsOf.1 h2).1)
    · intro x hx
      obtain ⟨c, hc, hx⟩ := List.mem_flatMap.1 hx
      obtain ⟨ts, hts⟩ := Dict.mem_keys.1 (hi.ansGiven c hc)
      have hg := Dict.get?_of_mem hi.stored.nodup hts
      rw [hg] at hx
      obtain ⟨hx1, t, ht, h2, p, hp, h3⟩ := mem_tagsOf.1 hx
      obtain ⟨x1, x2, x3⟩ := x
      simp only at hx1 h2 h3
      subst hx1 h2 h3
      exact hi.ansDone _ hc _ _ _ ((heldFor_iff hg (hi.tidy _ hts)).2 ⟨t.2, ht, hp⟩)
  obtain ⟨own, o1, o2⟩ := hown
  obtain ⟨left, hleft⟩ := o2.exists_perm_append
  have hacc : acc.Perm (messagesAt w.given w.done ++ left) := hleft.trans (o1.append_right _)
  obtain ⟨add, news, st, a1, a2, a3⟩ := hk.gained
  have hA : Accounted (Producer.new cl n) logs0 acc foreign
      { Producer.new (κ := κ) (β := β) cl n with unsent := left.map fun m => (m.1, [m.2]) } w.logs := by
    refine ⟨add, news, st, a1, a2, ?_⟩
    simp only [inQueue_singles]
    have h1 := hacc.map fun m : String × Msg κ β => (m.1, m.2.value)
    simp only [Producer.new, inQueue, List.flatMap_nil, plain, List.map_nil, List.append_nil,
      List.map_append] at h1 a3 ⊢
    refine (h1.append_right _).trans (List.Perm.trans ?_ (a3.append_right _))
    classical
    rw [List.perm_iff_count]
    intro x
    simp only [List.count_append]
    omega
  refine ⟨hk.logs, _, hA, fun q1 q2 q3 => ?_⟩
  simp only [inQueue_singles]
  rw [q1] at l1
  rw [q2, q3, (List.append_eq_nil_iff.1 l1.nil_eq.symm).1] at l2
  simp only [List.nil_append, List.append_nil] at l2
  have h1 := hacc.length_eq
  have h2 := l2.length_eq
  have h3 := hfin.length_le
  rw [List.length_append] at h1
  exact List.length_eq_zero_iff.1 (by omega)

/-- Whatever kind of consumer: if it has read what is in the logs from where they were at first to some
positions, then C110 holds of it. -/
theorem site_delivered {pcfg : PCfg α κ β} {dec : γ → List (Msg κ β)} {reads : Reads σ β δ}
    {cl : Cluster} {n : Int} {logs0 : String → Int → List (Int × β)} {c : σ} {w : Site α κ β γ σ}
    {acc risk : List (String × Msg κ β)} {foreign : List (String × β)} {outs out : List (String × δ)}
    (h : Runs pcfg dec reads (Site.new cl n logs0 c) acc risk foreign outs w)
    (hl : ∀ t p, IsLog (logs0 t p)) (cfg : CCfg β δ) {base pos : String → Int → Int}
    (hstart : ∀ t p, ∀ m ∈ w.logs t p, m.1 < base t p ↔ m ∈ logs0 t p)
    (c1 : ∀ t p, base t p ≤ pos t p)
    (c2 : Interleaving (fun t p => (values cfg ((w.logs t p).filter fun m =>
      decide (base t p ≤ m.1 ∧ m.1 < pos t p))).filter cfg.truthy) out) :
    out.Subperm (returnable cfg (plain acc ++ foreign)) ∧
    (risk = [] → inQueue w.producer.producer.unsent = [] → inSent w.producer.producer.sent = [] →
      (∀ t p, ahead cfg (w.logs t p) (pos t p) = []) →
      out.Perm (returnable cfg (plain acc ++ foreign))) := by
  obtain ⟨hlw, p', hA, hq⟩ := site_accounted h hl
  obtain ⟨r1, r2⟩ := accounted_delivered hA rfl hlw cfg hstart c1 c2
  exact ⟨r1, fun q1 q2 q3 q4 => r2 (hq q1 q2 q3) q4⟩

/-- **C110.**  Calls of `produce`, `flush` and `close` of a producer overlap in any way, and so do calls
of `consume` of a consumer, no two of them for the same topic; requests fail, go unanswered, are refused
or are stored at any time; flushes raise; other producers' messages are stored.  At any time the
consumer has returned, or will return from the calls under way, only messages that were accepted by this
producer or stored by others since it began, none more often than it was made.  If no flush has raised,
and the producer has nothing queued and no request that was not answered, and the consumer has nothing
ahead, it has returned, or will return from the calls under way, all of them (that can be deserialized
and are not false to Python), each exactly once. -/
theorem C110_exactly_once (pcfg : PCfg α κ β) (dec : γ → List (Msg κ β))
    (allocation : Consumer ε → Res (Dict String (List Int))) (cfg : CCfg β δ) (cl : Cluster) (n : Int)
    (logs0 : String → Int → List (Int × β)) (c : Consumer ε) (w : Site α κ β γ (Busy ε δ))
    (acc risk : List (String × Msg κ β)) (foreign : List (String × β)) (outs : List (String × δ))
    (h : Runs pcfg dec (busyReads allocation cfg) (Site.new cl n logs0 ⟨c, []⟩) acc risk foreign outs w)
    (hl : ∀ t p, IsLog (logs0 t p))
    (hstart : ∀ t p, ∀ m ∈ w.logs t p, m.1 < offsetOf c.offsets t p ↔ m ∈ logs0 t p) :
    (outs ++ underWay cfg w.consumer).Subperm (returnable cfg (plain acc ++ foreign)) ∧
    (risk = [] → inQueue w.producer.producer.unsent = [] → inSent w.producer.producer.sent = [] →
      (∀ t p, ahead cfg (w.logs t p) (offsetOf w.consumer.consumer.offsets t p) = []) →
      (outs ++ underWay cfg w.consumer).Perm (returnable cfg (plain acc ++ foreign))) := by
  obtain ⟨_, _, _, hk⟩ := site_run h hl
  have hc := site_reads (fun hg _ _ _ hr => by
      obtain ⟨ev, out, h1, h2⟩ := hr
      exact ⟨ev, out, fair_grows batch_grows hg _ _ h1, h2⟩)
    (Course allocation cfg fun b ev => Fair Batch w.logs b ev ∧ Apart b ev) h (.nil _)
    (fun hx hr => by
      obtain ⟨ev, out, h1, h2, h3, h4, rfl⟩ := hr
      exact course_snoc hx ⟨h1, h2⟩ h3 h4)
  obtain ⟨c1, c2⟩ := C76_exactly_once_partial allocation cfg w.logs hk.logs c w.consumer outs hc
  exact site_delivered h hl cfg hstart c1 c2

/-- **C110**, whole calls of `consume` of a `SingleConsumer`, first ones of their topics included: it
starts where the brokers last told it to (where it was, if they told nothing). -/
theorem C110_single (pcfg : PCfg α κ β) (dec : γ → List (Msg κ β)) (cfg : CCfg β δ) (cl : Cluster)
    (n : Int) (logs0 : String → Int → List (Int × β)) (c : Single)
    (w : Site α κ β γ (SingleBusy δ × List (String × List OPart)))
    (acc risk : List (String × Msg κ β)) (foreign : List (String × β)) (outs : List (String × δ))
    (h : Runs pcfg dec (singleReads cfg) (Site.new cl n logs0 (⟨⟨c, []⟩, []⟩, [])) acc risk foreign
      outs w)
    (hl : ∀ t p, IsLog (logs0 t p))
    (hstart : ∀ t p, ∀ m ∈ w.logs t p,
      m.1 < startOf w.consumer.2 (offsetOf c.offsets) t p ↔ m ∈ logs0 t p) :
    (outs ++ underWay cfg w.consumer.1.base).Subperm (returnable cfg (plain acc ++ foreign)) ∧
    (risk = [] → inQueue w.producer.producer.unsent = [] → inSent w.producer.producer.sent = [] →
      (∀ t p, ahead cfg (w.logs t p) (offsetOf w.consumer.1.base.consumer.offsets t p) = []) →
      (outs ++ underWay cfg w.consumer.1.base).Perm (returnable cfg (plain acc ++ foreign))) := by
  obtain ⟨_, _, _, hk⟩ := site_run h hl
  have hc := site_reads (fun hg _ _ _ hr => by
      obtain ⟨ev, out, h1, h2⟩ := hr
      exact ⟨ev, out, fairFirst_grows hg _ _ h1, h2⟩)
    (fun s o s' => ∃ told, s'.2 = s.2 ++ told ∧ FirstCourse cfg (fun s ev =>
      FairFirst Batch w.logs s ev ∧ ApartFirst s ev) s.1 o told s'.1) h ⟨[], by simp, .nil _⟩
    (fun hx hr => by
      obtain ⟨told, e, hx⟩ := hx
      obtain ⟨ev, out, h1, h2, h3, h4, rfl, h5⟩ := hr
      exact ⟨_, by rw [h5, e, List.append_assoc], firstCourse_snoc hx ⟨h1, h2⟩ h3 h4⟩)
  obtain ⟨told, e, hc⟩ := hc
  have e : w.consumer.2 = told := e
  subst e
  obtain ⟨c1, c2⟩ := C104_exactly_once_partial cfg w.logs hk.logs c w.consumer.1 outs _ hc
  exact site_delivered h hl cfg hstart c1 c2

/-- **C110**, whole calls of `consume`, and of `commit_offsets`, of a `GroupedConsumer`, with automatic
commits or without: it starts where the coordinator last told it to (where it was, if it told
nothing). -/
theorem C110_grouped (pcfg : PCfg α κ β) (dec : γ → List (Msg κ β)) (gcfg : GCfg) (cfg : CCfg β δ)
    (cl : Cluster) (n : Int) (logs0 : String → Int → List (Int × β)) (c : Grouped)
    (w : Site α κ β γ (GroupFirst δ × List (String × List OFPart)))
    (acc risk : List (String × Msg κ β)) (foreign : List (String × β)) (outs : List (String × δ))
    (h : Runs pcfg dec (groupReads gcfg cfg) (Site.new cl n logs0 (⟨⟨⟨c, []⟩, []⟩, []⟩, [])) acc risk
      foreign outs w)
    (hl : ∀ t p, IsLog (logs0 t p))
    (hstart : ∀ t p, ∀ m ∈ w.logs t p,
      m.1 < groupStart w.consumer.2 (offsetOf c.offsets) t p ↔ m ∈ logs0 t p) :
    (outs ++ committing w.consumer.1.group ++ underWay cfg w.consumer.1.group.base).Subperm
      (returnable cfg (plain acc ++ foreign)) ∧
    (risk = [] → inQueue w.producer.producer.unsent = [] → inSent w.producer.producer.sent = [] →
      (∀ t p, ahead cfg (w.logs t p) (offsetOf w.consumer.1.group.base.consumer.offsets t p) = []) →
      (outs ++ committing w.consumer.1.group ++ underWay cfg w.consumer.1.group.base).Perm
        (returnable cfg (plain acc ++ foreign))) := by
  obtain ⟨_, _, _, hk⟩ := site_run h hl
  have hc := site_reads (fun hg _ _ _ hr => by
      obtain ⟨ev, out, h1, h2⟩ := hr
      exact ⟨ev, out, fairGroup_grows batch_grows hg _ _ h1, h2⟩)
    (fun s o s' => ∃ told, s'.2 = s.2 ++ told ∧ FirstGroupCourse gcfg cfg (fun s ev out =>
      FairGroup Batch w.logs s ev ∧ ApartGroup s ev ∧ KeepsGroup s ev out) s.1 o told s'.1) h
    ⟨[], by simp, .nil _⟩
    (fun hx hr => by
      obtain ⟨told, e, hx⟩ := hx
      obtain ⟨ev, out, h1, h2, h3, h4, rfl, h5⟩ := hr
      exact ⟨_, by rw [h5, e, List.append_assoc], groupCourse_snoc hx ⟨h1, h2, h3⟩ h4⟩)
  obtain ⟨told, e, hc⟩ := hc
  have e : w.consumer.2 = told := e
  subst e
  obtain ⟨c1, c2⟩ := C106_exactly_once_partial gcfg cfg w.logs hk.logs c w.consumer.1 outs _ hc
  exact site_delivered h hl cfg hstart c1 c2

/-! ### Example -/

/-- The log of partition 0 of topic "t", the only one. -/
def exOneLog (l : List (Int × Nat)) (t : String) (p : Int) : List (Int × Nat) :=
  if t = "t" ∧ p = 0 then l else []

theorem exOneLog_grows {l add : List (Int × Nat)} {vs : List Nat} (h1 : IsLog (l ++ add))
    (h2 : add.map (·.2) = vs) : Grows (exOneLog l) (exOneLog (l ++ add)) fun t p =>
      if t = "t" ∧ p = 0 then vs else [] := by
  intro t p
  simp only [exOneLog]
  split
  · exact ⟨h1, add, rfl, h2⟩
  · exact ⟨⟨.nil, by simp⟩, [], rfl, rfl⟩

abbrev ExSite (σ : Type) := Site Nat Nat Nat (List (Msg Nat Nat)) σ

/-- An event of the calls of the producer. -/
def exCall (w : ExSite σ) (e : ProduceEv Nat Nat Nat (List (Msg Nat Nat))) : ExSite σ :=
  { w with producer := (w.producer.step exAtOnce e).2, given := storing exAtOnce id w.producer e w.given }

/-- The messages of a request for partition 0 of topic "t" are stored. -/
def exStore (w : ExSite σ) (corr : Int) (logs : List (Int × Nat)) : ExSite σ :=
  { w with done := (corr, "t", 0) :: w.done, logs := exOneLog logs }

theorem exTruthful {given : Dict Int (ByPartition Nat Nat)} {done : List (Int × String × Int)}
    {corr code : Int} {ms : List (Msg Nat Nat)} (hg : given.get? corr = some [("t", [(0, ms)])])
    (h : code = 0 ∧ (corr, "t", 0) ∈ done ∨ Refuses code ∧ code ≠ 0 ∧ (corr, "t", 0) ∉ done) :
    Truthful given done corr [("t", [(0, code)])] := by
  have hx : ∀ t part ms', heldFor given (corr, t, part) = some ms' → t = "t" ∧ part = 0 := by
    intro t part ms' hm
    simp only [heldFor, hg, Option.bind_some, Dict.get?] at hm
    by_cases ht : "t" = t
    · by_cases hp : 0 = part
      · exact ⟨ht.symm, hp.symm⟩
      · simp [ht, hp, Dict.get?] at hm
    · simp [ht] at hm
  refine ⟨?_, ?_, ?_⟩
  · intro a ha c hc
    rw [List.mem_singleton] at ha
    subst ha
    rw [List.mem_singleton] at hc
    subst hc
    rcases h with h | h
    · exact .inl h.1
    · exact .inr h.1
  · rintro t part ms' hm hd
    obtain ⟨rfl, rfl⟩ := hx _ _ _ hm
    rcases h with h | h
    · rintro ⟨a, ha, hat, c, hc, hcp, hr⟩
      rw [List.mem_singleton] at ha
      subst ha
      rw [List.mem_singleton] at hc
      subst hc
      rw [h.1] at hr
      exact absurd hr (by decide)
    · exact absurd hd h.2.2
  · rintro t part ms' hm hd
    obtain ⟨rfl, rfl⟩ := hx _ _ _ hm
    rcases h with h | h
    · exact absurd h.2 hd
    · exact ⟨_, .head _, rfl, _, .head _, rfl, h.1⟩

def exSite0 : ExSite (Busy Unit Nat) := Site.new exPCluster 1 (exOneLog []) ⟨exConsumer, []⟩

/-- Two calls of `produce` overlap; the request of the second is stored and answered first, that of the
first is refused. -/
def exSite5 : ExSite (Busy Unit Nat) :=
  exCall (exCall (exStore (exCall (exCall exSite0
    (.produce 0 "t" 4 exBegin)) (.produce 1 "t" 6 exBegin)) 3 [(0, 6)])
    (.outcome 1 7 (.ok [("t", [(0, 0)])]))) (.outcome 0 7 (.ok [("t", [(0, 6)])]))

theorem exDecodes : ∀ e ∈ ([.produce 0 "t" 4 exBegin, .produce 1 "t" 6 exBegin, .flush 2 exBegin,
    .outcome 1 7 (.ok [("t", [(0, 0)])]), .outcome 0 7 (.ok [("t", [(0, 6)])]),
    .outcome 2 7 (.ok [("t", [(0, 0)])])] :
      List (ProduceEv Nat Nat Nat (List (Msg Nat Nat)))), Decodes id e := by
  intro e he env hb ms x hx
  simp only [List.mem_cons, List.not_mem_nil, or_false] at he
  rcases he with rfl | rfl | rfl | rfl | rfl | rfl <;> cases hb <;> cases hx <;> rfl

theorem exRunsCall {reads : Reads σ Nat Nat} {w0 w : ExSite σ} {acc acc' : List (String × Msg Nat Nat)}
    {foreign : List (String × Nat)} {outs : List (String × Nat)}
    {e : ProduceEv Nat Nat Nat (List (Msg Nat Nat))}
    (h : Runs exAtOnce id reads w0 acc [] foreign outs w) (hd : Decodes id e)
    (ha : acceptedIn exAtOnce w.producer e = acc') (hr : riskIn exAtOnce w.producer e = [])
    (ht : ∀ corr topics, answeredIn w.producer e = some (corr, topics) →
      Truthful w.given w.done corr topics) :
    Runs exAtOnce id reads w0 (acc ++ acc') [] foreign outs (exCall w e) := by
  have := Runs.snoc h (.call (pcfg := exAtOnce) (reads := reads) hd ht)
  rwa [ha, hr, List.append_nil, List.append_nil, List.append_nil] at this

theorem exRuns5 : Runs exAtOnce id (busyReads Single.allocation exCCfg)
    exSite0 [("t", ⟨0, 4⟩), ("t", ⟨0, 6⟩)] [] [] [] exSite5 := by
  refine exRunsCall (acc := [("t", ⟨0, 4⟩), ("t", ⟨0, 6⟩)]) (acc' := []) (foreign := []) (outs := [])
    (e := .outcome 0 7 (.ok [("t", [(0, 6)])])) ?_ (exDecodes _ (by simp))
    (by decide +kernel) (by decide +kernel) ?_
  · refine exRunsCall (acc := [("t", ⟨0, 4⟩), ("t", ⟨0, 6⟩)]) (acc' := []) (foreign := []) (outs := [])
      (e := .outcome 1 7 (.ok [("t", [(0, 0)])])) ?_ (exDecodes _ (by simp))
      (by decide +kernel) (by decide +kernel) ?_
    · refine Runs.snoc (acc := [("t", ⟨0, 4⟩), ("t", ⟨0, 6⟩)]) (risk := []) (foreign := []) (outs := [])
        (acc' := []) ?_
        (.stores (corr := 3) (t := "t") (part := 0) (ms := [⟨0, 6⟩]) (by decide +kernel)
          (by decide +kernel) (exOneLog_grows (l := []) (add := [(0, 6)]) ⟨by simp, by simp⟩ rfl))
      refine exRunsCall (acc := [("t", ⟨0, 4⟩)]) (acc' := [("t", ⟨0, 6⟩)]) (foreign := []) (outs := [])
        (e := .produce 1 "t" 6 exBegin) ?_ (exDecodes _ (by simp))
        (by decide +kernel) (by decide +kernel) (fun _ _ h => by cases h)
      exact exRunsCall (acc := []) (acc' := [("t", ⟨0, 4⟩)]) (foreign := []) (outs := [])
        (e := .produce 0 "t" 4 exBegin) .nil (exDecodes _ (by simp))
        (by decide +kernel) (by decide +kernel) (fun _ _ h => by cases h)
    · intro corr topics h
      have e : answeredIn (exStore (exCall (exCall exSite0
        (.produce 0 "t" 4 exBegin)) (.produce 1 "t" 6 exBegin)) 3 [(0, 6)]).producer
        (.outcome 1 7 (.ok [("t", [(0, 0)])])) = some (3, [("t", [(0, 0)])]) := by decide +kernel
      cases e.symm.trans h
      exact exTruthful (ms := [⟨0, 6⟩]) (by decide +kernel) (.inl ⟨rfl, by decide +kernel⟩)
  · intro corr topics h
    have e : answeredIn (exCall (exStore (exCall (exCall exSite0
      (.produce 0 "t" 4 exBegin)) (.produce 1 "t" 6 exBegin)) 3 [(0, 6)])
      (.outcome 1 7 (.ok [("t", [(0, 0)])]))).producer
      (.outcome 0 7 (.ok [("t", [(0, 6)])])) = some (2, [("t", [(0, 6)])]) := by decide +kernel
    cases e.symm.trans h
    exact exTruthful (ms := [⟨0, 4⟩]) (by decide +kernel) (.inr ⟨by decide, by decide, by decide +kernel⟩)

/-- What the consumer asks for while its call is under way. -/
def exAsked : FReq := ⟨7, 1000, 1, "t", [⟨0, 0, 100⟩]⟩

/-- Another producer's message is stored; the consumer asks; the producer flushes, and what was refused
is stored. -/
def exSite9 : ExSite (Busy Unit Nat) :=
  exStore (exCall { exSite5 with logs := exOneLog [(0, 6), (1, 9)], consumer :=
    ⟨{ exConsumer with offsets := [("t", [(0, 0)])] }, [(0, ⟨"t", [exAsked], []⟩)]⟩ }
    (.flush 2 exBegin)) 4 [(0, 6), (1, 9), (3, 4)]

theorem exRuns9 : Runs exAtOnce id (busyReads Single.allocation exCCfg)
    exSite0 [("t", ⟨0, 4⟩), ("t", ⟨0, 6⟩)] [] [("t", 9)] []
    exSite9 := by
  refine Runs.snoc (acc := [("t", ⟨0, 4⟩), ("t", ⟨0, 6⟩)]) (risk := []) (foreign := [("t", 9)])
    (outs := []) (acc' := []) ?_
    (.stores (corr := 4) (t := "t") (part := 0) (ms := [⟨0, 4⟩]) (by decide +kernel)
      (by decide +kernel) (exOneLog_grows (l := [(0, 6), (1, 9)]) (add := [(3, 4)])
        ⟨by decide, by decide⟩ rfl))
  refine exRunsCall (acc := [("t", ⟨0, 4⟩), ("t", ⟨0, 6⟩)]) (acc' := []) (foreign := [("t", 9)]) (outs := [])
    (e := .flush 2 exBegin) ?_ (exDecodes _ (by simp))
    (by decide +kernel) (by decide +kernel) (fun _ _ h => by cases h)
  refine Runs.snoc (acc := [("t", ⟨0, 4⟩), ("t", ⟨0, 6⟩)]) (risk := []) (foreign := [("t", 9)])
    (outs := []) (w := { exSite5 with logs := exOneLog [(0, 6), (1, 9)] }) ?_
    (.consumes ⟨.consume 0 "t", .sent [exAsked],
      (by show Dict.get? _ _ = _; decide +kernel), (by show ∀ x ∈ _, _; decide +kernel),
      (by decide +kernel), (by simp), rfl⟩)
  exact Runs.snoc (acc := [("t", ⟨0, 4⟩), ("t", ⟨0, 6⟩)]) (risk := []) (foreign := []) (outs := [])
    exRuns5 (.foreign (t := "t") (part := 0) (v := 9)
      (exOneLog_grows (l := [(0, 6)]) (add := [(1, 9)]) ⟨by decide, by decide⟩ rfl))

-- Non-vacuity: the consumer returns the three messages, and nothing is left.
example : ∃ w, Runs exAtOnce id (busyReads Single.allocation exCCfg)
      exSite0 [("t", ⟨0, 4⟩), ("t", ⟨0, 6⟩)] [] [("t", 9)]
      [("t", 6), ("t", 9), ("t", 4)] w ∧
    (∀ t p, ∀ m ∈ w.logs t p, m.1 < offsetOf exConsumer.offsets t p ↔ m ∈ exOneLog [] t p) ∧
    inQueue w.producer.producer.unsent = [] ∧ inSent w.producer.producer.sent = [] ∧
    (∀ t p, ahead exCCfg (w.logs t p) (offsetOf w.consumer.consumer.offsets t p) = []) := by
  refine ⟨{ exCall exSite9 (.outcome 2 7 (.ok [("t", [(0, 0)])])) with
    consumer := ⟨{ exConsumer with offsets := [("t", [(0, 4)])] }, []⟩ }, ?_, ?_, by decide +kernel,
    by decide +kernel, ?_⟩
  · refine Runs.snoc (acc := [("t", ⟨0, 4⟩), ("t", ⟨0, 6⟩)]) (risk := []) (foreign := [("t", 9)])
      (outs := []) (w := { exCall exSite9 (.outcome 2 7 (.ok [("t", [(0, 0)])])) with
        consumer := ⟨{ exConsumer with offsets := [("t", [(0, 4)])] },
          [(0, ⟨"t", [], [(7, [6, 9, 4])]⟩)]⟩ }) ?_
      (.consumes ⟨.finish 0, .returned "t" (some [6, 9, 4]), trivial, trivial,
        (by decide +kernel), (by simp), rfl⟩)
    refine Runs.snoc (acc := [("t", ⟨0, 4⟩), ("t", ⟨0, 6⟩)]) (risk := []) (foreign := [("t", 9)])
      (outs := []) (w := exCall exSite9 (.outcome 2 7 (.ok [("t", [(0, 0)])]))) ?_
      (.consumes ⟨.outcome 0 7 (.ok (exFetched "t" [(0, 6), (1, 9), (3, 4)])), .nothing,
        (exFetched_honest (o := 0) (w := ⟨"t", [exAsked], []⟩) (by decide +kernel) rfl
          ⟨[], by decide +kernel⟩), trivial, (by decide +kernel), (by simp), rfl⟩)
    refine exRunsCall (acc := [("t", ⟨0, 4⟩), ("t", ⟨0, 6⟩)]) (acc' := []) (foreign := [("t", 9)]) (outs := [])
      (e := .outcome 2 7 (.ok [("t", [(0, 0)])])) exRuns9 (exDecodes _ (by simp))
      (by decide +kernel) (by decide +kernel) ?_
    intro corr topics h
    have e : answeredIn exSite9.producer (.outcome 2 7 (.ok [("t", [(0, 0)])])) =
      some (4, [("t", [(0, 0)])]) := by decide +kernel
    cases e.symm.trans h
    exact exTruthful (ms := [⟨0, 4⟩]) (by decide +kernel) (.inl ⟨rfl, by decide +kernel⟩)
  · intro t p m hm
    have hm : m ∈ exOneLog [(0, 6), (1, 9), (3, 4)] t p := hm
    simp only [exOneLog] at hm
    split at hm
    · have : ∀ m ∈ [((0 : Int), 6), (1, 9), (3, 4)], 0 ≤ m.1 := by decide
      have h1 := this m hm
      have h2 : offsetOf exConsumer.offsets t p = 0 := rfl
      rw [h2]
      simp [exOneLog]
      omega
    · simp at hm
  · intro t p
    show ahead exCCfg (exOneLog [(0, 6), (1, 9), (3, 4)] t p) (offsetOf [("t", [(0, 4)])] t p) = []
    by_cases h : t = "t" ∧ p = 0
    · obtain ⟨rfl, rfl⟩ := h
      decide +kernel
    · simp [exOneLog, h, ahead]

/-- What happens before the consumer does anything happens whatever the consumer. -/
theorem runs_lift {pcfg : PCfg α κ β} {dec : γ → List (Msg κ β)} (reads : Reads σ β δ) {cl : Cluster}
    {n : Int} {logs0 : String → Int → List (Int × β)} (c : σ) {w : Site α κ β γ Unit}
    {acc risk : List (String × Msg κ β)} {foreign : List (String × β)} {outs : List (String × δ)}
    (h : Runs pcfg dec (fun _ _ _ _ => False) (Site.new cl n logs0 ()) acc risk foreign outs w) :
    Runs pcfg dec reads (Site.new cl n logs0 c) acc risk foreign []
      ⟨w.producer, w.given, w.done, w.logs, c⟩ := by
  induction h with
  | nil => exact .nil
  | snoc _ ho ih =>
    cases ho with
    | call hd ht => exact .snoc (outs' := []) ih (.call hd ht)
    | stores hm hn hg => exact .snoc (outs' := []) ih (.stores hm hn hg)
    | foreign hg => exact .snoc (outs' := []) ih (.foreign hg)
    | consumes hr => exact hr.elim

theorem runs_single {pcfg : PCfg α κ β} {dec : γ → List (Msg κ β)} {cfg : CCfg β δ}
    {w0 : Site α κ β γ (SingleBusy δ × List (String × List OPart))} {acc risk : List (String × Msg κ β)}
    {foreign : List (String × β)} {logs : String → Int → List (Int × β)} {s s' : SingleBusy δ}
    {outs' : List (String × δ)} {told' : List (String × List OPart)}
    (h : FirstCourse cfg (fun s ev => FairFirst Batch logs s ev ∧ ApartFirst s ev) s outs' told' s') :
    ∀ (p : ProducerBusy α κ β γ) given done outs told,
      Runs pcfg dec (singleReads cfg) w0 acc risk foreign outs ⟨p, given, done, logs, (s, told)⟩ →
      Runs pcfg dec (singleReads cfg) w0 acc risk foreign (outs ++ outs')
        ⟨p, given, done, logs, (s', told ++ told')⟩ := by
  induction h with
  | nil => intro p given done outs told h; simpa using h
  | @cons s s1 s2 ev out _ _ hok hs hno _ ih =>
    intro p given done outs told h
    rw [← List.append_assoc, ← List.append_assoc]
    refine ih p given done _ _ ?_
    have := Runs.snoc h (.consumes (c := (s1, told ++ toldBy s ev))
      ⟨_, _, hok.1, hok.2, hs, hno, rfl, rfl⟩)
    simpa using this

theorem runs_group {pcfg : PCfg α κ β} {dec : γ → List (Msg κ β)} {gcfg : GCfg} {cfg : CCfg β δ}
    {w0 : Site α κ β γ (GroupFirst δ × List (String × List OFPart))}
    {acc risk : List (String × Msg κ β)} {foreign : List (String × β)}
    {logs : String → Int → List (Int × β)} {s s' : GroupFirst δ} {outs' : List (String × δ)}
    {told' : List (String × List OFPart)}
    (h : FirstGroupCourse gcfg cfg (fun s ev out => FairGroup Batch logs s ev ∧ ApartGroup s ev ∧
      KeepsGroup s ev out) s outs' told' s') :
    ∀ (p : ProducerBusy α κ β γ) given done outs told,
      Runs pcfg dec (groupReads gcfg cfg) w0 acc risk foreign outs ⟨p, given, done, logs, (s, told)⟩ →
      Runs pcfg dec (groupReads gcfg cfg) w0 acc risk foreign (outs ++ outs')
        ⟨p, given, done, logs, (s', told ++ told')⟩ := by
  induction h with
  | nil => intro p given done outs told h; simpa using h
  | @cons s s1 s2 ev out _ _ hok hs _ ih =>
    intro p given done outs told h
    rw [← List.append_assoc, ← List.append_assoc]
    refine ih p given done _ _ ?_
    have := Runs.snoc h (.consumes (c := (s1, told ++ groupTold s ev))
      ⟨_, _, hok.1, hok.2.1, hok.2.2, hs, rfl, rfl⟩)
    simpa using this

/-- Messages of others are stored before and after a `produce` begins; then its request is stored, and
answered. -/
def exStoredSite : ExSite Unit :=
  exCall (exStore { exCall { (Site.new exPCluster 1 (exOneLog []) () : ExSite Unit) with
      logs := exOneLog [(0, 5)] } (.produce 0 "t" 6 exBegin) with logs := exOneLog [(0, 5), (3, 99)] }
    2 exLog) (.outcome 0 7 (.ok [("t", [(0, 0)])]))

theorem exStoredRuns : Runs exAtOnce id (fun _ _ _ _ => False : Reads Unit Nat Nat)
    (Site.new exPCluster 1 (exOneLog []) ()) [("t", ⟨0, 6⟩)] [] [("t", 5), ("t", 99)] []
    exStoredSite := by
  refine exRunsCall (acc := [("t", ⟨0, 6⟩)]) (acc' := []) (foreign := [("t", 5), ("t", 99)])
    (e := .outcome 0 7 (.ok [("t", [(0, 0)])])) ?_ ?_ (by decide +kernel) (by decide +kernel) ?_
  · refine Runs.snoc (acc := [("t", ⟨0, 6⟩)]) (acc' := []) (risk := []) (outs := [])
      (foreign := [("t", 5), ("t", 99)]) ?_
      (.stores (corr := 2) (t := "t") (part := 0) (ms := [⟨0, 6⟩]) (by decide +kernel)
        (by decide +kernel) (exOneLog_grows (l := [(0, 5), (3, 99)]) (add := [(4, 6)])
          ⟨by decide, by decide⟩ rfl))
    refine Runs.snoc (acc := [("t", ⟨0, 6⟩)]) (risk := []) (outs := []) (foreign := [("t", 5)]) ?_
      (.foreign (t := "t") (part := 0) (v := 99)
        (exOneLog_grows (l := [(0, 5)]) (add := [(3, 99)]) ⟨by decide, by decide⟩ rfl))
    refine exRunsCall (acc := []) (acc' := [("t", ⟨0, 6⟩)]) (foreign := [("t", 5)])
      (e := .produce 0 "t" 6 exBegin) ?_ ?_ (by decide +kernel) (by decide +kernel)
      (fun _ _ h => by cases h)
    · exact Runs.snoc (acc := []) (risk := []) (outs := []) (foreign := []) .nil
        (.foreign (t := "t") (part := 0) (v := 5)
          (exOneLog_grows (l := []) (add := [(0, 5)]) ⟨by decide, by decide⟩ rfl))
    · intro env hb ms x hx
      cases hb
      cases hx
      rfl
  · intro env hb
    cases hb
  · intro corr topics h
    have e : answeredIn (exStore { exCall { (Site.new exPCluster 1 (exOneLog []) () : ExSite Unit) with
        logs := exOneLog [(0, 5)] } (.produce 0 "t" 6 exBegin) with
        logs := exOneLog [(0, 5), (3, 99)] } 2 exLog).producer (.outcome 0 7 (.ok [("t", [(0, 0)])])) =
      some (2, [("t", [(0, 0)])]) := by decide +kernel
    cases e.symm.trans h
    exact exTruthful (ms := [⟨0, 6⟩]) (by decide +kernel) (.inl ⟨rfl, by decide +kernel⟩)

theorem exStart_ok {start : String → Int → Int} (h : start "t" 0 = 0) (t : String) (p : Int)
    (m : Int × Nat) (hm : m ∈ exPartLogs t p) : m.1 < start t p ↔ m ∈ exOneLog [] t p := by
  simp only [exPartLogs] at hm
  split at hm
  · rename_i hx
    obtain ⟨rfl, rfl⟩ := hx
    have := exLog_ok.nonneg m hm
    rw [h]
    simp [exOneLog]
    omega
  · simp at hm

theorem exAhead_ok {pos : String → Int → Int} (h : pos "t" 0 = 5) (t : String) (p : Int) :
    ahead exCCfg (exPartLogs t p) (pos t p) = [] := by
  by_cases hx : t = "t" ∧ p = 0
  · obtain ⟨rfl, rfl⟩ := hx
    rw [h]
    decide +kernel
  · simp [exPartLogs, hx, ahead]

-- Non-vacuity of `C110_grouped`: one message has been returned, one is held by a `consume` that commits,
-- and one cannot be deserialized.
example : ∃ w, Runs exAtOnce id (groupReads exAuto exCCfg)
      (Site.new exPCluster 1 (exOneLog []) (exGroupStart, [])) [("t", ⟨0, 6⟩)] []
      [("t", 5), ("t", 99)] [("t", 5)] w ∧
    (∀ t p, ∀ m ∈ w.logs t p,
      m.1 < groupStart w.consumer.2 (offsetOf exGroupNew.offsets) t p ↔ m ∈ exOneLog [] t p) ∧
    inQueue w.producer.producer.unsent = [] ∧ inSent w.producer.producer.sent = [] ∧
    (∀ t p, ahead exCCfg (w.logs t p) (offsetOf w.consumer.1.group.base.consumer.offsets t p) = []) ∧
    committing w.consumer.1.group = [("t", 6)] := by
  have h := exFirstCourse (gcfg := exAuto) true exBothTopics exGroupStart (by decide +kernel)
  rw [show (firstGroupRun exAuto exCCfg exGroupStart exBothTopics).1 = [("t", 5)] by decide +kernel,
    show (firstGroupRun exAuto exCCfg exGroupStart exBothTopics).2.1 =
      [("t", [⟨0, 0, 0⟩]), ("u", [⟨0, 4, 0⟩])] by decide +kernel] at h
  refine ⟨_, runs_group (h.weaken fun _ _ _ h => ⟨h.1, h.2.1 rfl, h.2.2⟩) _ _ _ _ _
    (runs_lift (groupReads exAuto exCCfg) (exGroupStart, []) exStoredRuns), ?_, by decide +kernel,
    by decide +kernel, ?_, by decide +kernel⟩
  · exact exStart_ok (by decide +kernel)
  · exact exAhead_ok (by decide +kernel)

-- Non-vacuity of `C110_single`: the first `consume` of t asks where it begins.
example : ∃ w, Runs exAtOnce id (singleReads exCCfg)
      (Site.new exPCluster 1 (exOneLog []) ((⟨⟨exNew, []⟩, []⟩ : SingleBusy Nat), [])) [("t", ⟨0, 6⟩)] []
      [("t", 5), ("t", 99)] [("t", 5), ("t", 6)] w ∧
    (∀ t p, ∀ m ∈ w.logs t p,
      m.1 < startOf w.consumer.2 (offsetOf exNew.offsets) t p ↔ m ∈ exOneLog [] t p) ∧
    inQueue w.producer.producer.unsent = [] ∧ inSent w.producer.producer.sent = [] ∧
    (∀ t p, ahead exCCfg (w.logs t p) (offsetOf w.consumer.1.base.consumer.offsets t p) = []) := by
  have h : FirstCourse exCCfg (fun s ev => FairFirst Batch exPartLogs s ev ∧ ApartFirst s ev)
      ⟨⟨exNew, []⟩, []⟩ [("t", 5), ("t", 6)] [("t", [⟨0, 0, [0]⟩])]
      ⟨⟨{ exNew with offsets := [("t", [(0, 5)])], synced := ["t"] }, []⟩, []⟩ := by
    refine FirstCourse.cons (ev := .call 0 "t" (.int (-2)) 0) (out := .asked [exAsk "t" (-2)])
      (s1 := ⟨⟨exNew, []⟩, [(0, .determining "t" [exAsk "t" (-2)])]⟩) (outs := [("t", 5), ("t", 6)])
      (told := [("t", [⟨0, 0, [0]⟩])])
      ⟨⟨by decide, by decide⟩, by decide, by decide⟩ (by decide +kernel) (by simp) ?_
    refine FirstCourse.cons (ev := .offsets 0 7 (.ok (exTold "t" 0))) (out := .nothing)
      (s1 := ⟨⟨{ exNew with offsets := [("t", [(0, 0)])] }, []⟩, [(0, .determining "t" [])]⟩)
      (outs := [("t", 5), ("t", 6)]) (told := [])
      ⟨exTold_fair (pending := [exAsk "t" (-2)]) rfl (by decide), trivial⟩ (by decide +kernel)
      (by simp) ?_
    refine FirstCourse.cons (ev := .determined 0) (out := .sent [exFetchAt "t" 0])
      (s1 := ⟨⟨{ exNew with offsets := [("t", [(0, 0)])], synced := ["t"] },
        [(0, ⟨"t", [exFetchAt "t" 0], []⟩)]⟩, []⟩)
      (outs := [("t", 5), ("t", 6)]) (told := [])
      ⟨trivial, trivial⟩ (by decide +kernel) (by simp) ?_
    refine FirstCourse.cons (ev := .base (.outcome 0 7 (.ok (exFetched "t" exLog))))
      (out := .nothing)
      (s1 := ⟨⟨{ exNew with offsets := [("t", [(0, 5)])], synced := ["t"] },
        [(0, ⟨"t", [], [(7, [5, 6])]⟩)]⟩, []⟩) (outs := [("t", 5), ("t", 6)]) (told := [])
      ⟨exFetched_first (o := 0) rfl rfl ⟨[], by decide⟩, trivial⟩ (by decide +kernel) (by simp) ?_
    exact FirstCourse.cons (ev := .base (.finish 0)) (out := .returned "t" (some [5, 6]))
      (outs := []) (told := []) ⟨trivial, trivial⟩ (by decide +kernel) (by simp) (FirstCourse.nil _)
  refine ⟨_, runs_single h _ _ _ _ _ (runs_lift (singleReads exCCfg) (⟨⟨exNew, []⟩, []⟩, [])
    exStoredRuns), ?_, by decide +kernel, by decide +kernel, ?_⟩
  · exact exStart_ok (by decide +kernel)
  · exact exAhead_ok (by decide +kernel)

end Kiel
