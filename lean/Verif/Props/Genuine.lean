import Verif.Props.BandPipeline
import Verif.Spec.Genuine
/-
C117: consumers return only what is stored.
-/
set_option autoImplicit false
namespace Kiel
open Spec

variable {β δ ε : Type} {gcfg : GCfg} {cfg : CCfg β δ} {logs : String → Int → List (Int × β)}

/-! ### `consume`s that wait for messages -/

theorem mem_set_either {κ ν : Type} [DecidableEq κ] {d : Dict κ ν} {k : κ} {v : ν} {x : κ × ν}
    (h : x ∈ d.set k v) : x = (k, v) ∨ x ∈ d := by
  induction d with
  | nil => exact .inl (List.mem_singleton.1 h)
  | cons y d ih =>
    rw [Dict.set] at h
    split at h
    · rename_i hk
      rcases List.mem_cons.1 h with h | h
      · exact .inl (by rw [h, hk])
      · exact .inr (List.mem_cons_of_mem _ h)
    · rcases List.mem_cons.1 h with rfl | h
      · exact .inr List.mem_cons_self
      · exact (ih h).imp_right (List.mem_cons_of_mem _)

/-- What is held is stored, and requests are for the topics of their `consume`s. -/
structure Sourced (cfg : CCfg β δ) (logs : String → Int → List (Int × β)) (b : Busy ε δ) : Prop where
  held : ∀ x ∈ underWay cfg b, Genuine cfg logs x
  topics : ∀ w ∈ b.waiting, ∀ q ∈ w.2.pending, q.topic = w.2.topic

theorem Sourced.same {b : Busy ε δ} (h : Sourced cfg logs b) (c : Consumer ε) :
    Sourced cfg logs ⟨c, b.waiting⟩ := ⟨h.held, h.topics⟩

theorem Sourced.erase {b : Busy ε δ} (h : Sourced cfg logs b) (c : Consumer ε) (i : Nat) :
    Sourced cfg logs ⟨c, b.waiting.erase i⟩ := by
  refine ⟨fun x hx => ?_, fun w hw => h.topics w (Dict.mem_erase.1 hw).1⟩
  obtain ⟨w, hw, hx⟩ := mem_underWay.1 hx
  exact h.held x (mem_underWay.2 ⟨w, (Dict.mem_erase.1 hw).1, hx⟩)

theorem Sourced.set {b : Busy ε δ} (h : Sourced cfg logs b) (c : Consumer ε) (i : Nat) {w : Waiting δ}
    (h1 : ∀ q ∈ w.pending, q.topic = w.topic)
    (h2 : ∀ d ∈ w.results.vals.flatten, cfg.truthy d = true → Genuine cfg logs (w.topic, d)) :
    Sourced cfg logs ⟨c, b.waiting.set i w⟩ := by
  constructor
  · intro x hx
    obtain ⟨y, hy, e, hd, htr⟩ := mem_underWay.1 hx
    rcases mem_set_or hy with rfl | hy
    · obtain ⟨x1, x2⟩ := x
      dsimp only at e hd htr
      subst e
      exact h2 _ hd htr
    · exact h.held x (mem_underWay.2 ⟨y, hy, e, hd, htr⟩)
  · intro y hy
    rcases mem_set_or hy with rfl | hy
    · exact h1
    · exact h.topics y hy

theorem Sourced.results {b : Busy ε δ} (h : Sourced cfg logs b) {i : Nat} {w : Waiting δ}
    (hw : b.waiting.get? i = some w) :
    ∀ d ∈ w.results.vals.flatten, cfg.truthy d = true → Genuine cfg logs (w.topic, d) :=
  fun _ hd htr => h.held _ (mem_underWay.2 ⟨_, Dict.mem_of_get? hw, rfl, hd, htr⟩)

theorem fetched_genuine {topic : String} {r : FResp β} (h : FromLogs logs topic r) {d : δ}
    (hd : d ∈ values cfg (fetched (answersOf r))) (htr : cfg.truthy d = true) :
    Genuine cfg logs (topic, d) := by
  obtain ⟨ps, rest, h1, h2⟩ := h
  obtain ⟨m, hm, hd⟩ := List.mem_filterMap.1 hd
  simp only [fetched, answersOf, h1, List.mem_flatMap, List.mem_filter, decide_eq_true_eq] at hm
  obtain ⟨a, ⟨ha, h0⟩, hm⟩ := hm
  obtain ⟨p, hp, rfl⟩ := List.mem_map.1 ha
  exact ⟨p.id, m, h2 p hp h0 m hm, hd, htr⟩

theorem busy_sourced {allocation : Consumer ε → Res (Dict String (List Int))} {b b' : Busy ε δ}
    {ev : BEv ε β} {out : BOut δ} (h : Sourced cfg logs b) (hf : SendsFrom logs b ev)
    (hs : b.step allocation cfg ev = (out, b')) :
    Sourced cfg logs b' ∧ ∀ x ∈ returnedBy out, Genuine cfg logs x := by
  have none : ∀ x, x ∈ ([] : List (String × δ)) → Genuine cfg logs x := fun x hx => by cases hx
  cases ev with
  | consume i topic =>
    simp only [Busy.step] at hs
    split at hs
    · cases hs; exact ⟨h, none⟩
    · split at hs
      · cases hs; exact ⟨h, none⟩
      · split at hs
        · cases hs; exact ⟨h, none⟩
        · split at hs
          · cases hs; exact ⟨h, none⟩
          · split at hs
            · cases hs; exact ⟨h.same _, none⟩
            · rename_i hfe
              split at hs
              · cases hs; exact ⟨h.same _, none⟩
              · cases hs
                obtain ⟨_, _, _, _, _, _, f7, _⟩ := fetches_spec cfg topic _ _ _ _ hfe
                exact ⟨h.set _ i (fun q hq => ((f7 _ rfl).topics q hq).1) (fun d hd => by cases hd), none⟩
  | outcome i broker r =>
    simp only [Busy.step] at hs
    split at hs
    · cases hs; exact ⟨h, none⟩
    · rename_i w hw
      have htop := h.topics _ (Dict.mem_of_get? hw)
      split at hs
      · cases hs; exact ⟨h, none⟩
      · rename_i hb
        rw [not_not, List.mem_map] at hb
        obtain ⟨q, hq, rfl⟩ := hb
        split at hs
        · cases hs
          exact ⟨h.set _ i (fun q hq => htop q (List.mem_filter.1 hq).1)
            fun d hd htr => h.results hw d hd htr, none⟩
        · rename_i resp
          split at hs
          · cases hs; exact ⟨h.erase _ _, none⟩
          · rename_i x c hh
            cases hs
            obtain ⟨_, _, _, _, _, g4, _⟩ := handleFetch_spec cfg resp _ _ _ hh
            obtain ⟨_, rfl, _⟩ := g4 _ rfl
            have hlog := hf w hw q hq rfl
            rw [htop q hq] at hlog
            refine ⟨h.set _ i (fun q hq => htop q (List.mem_filter.1 hq).1) fun d hd htr => ?_, none⟩
            obtain ⟨l, hl, hd⟩ := List.mem_flatten.1 hd
            obtain ⟨y, hy, rfl⟩ := List.mem_map.1 hl
            rcases mem_set_either hy with rfl | hy
            · exact fetched_genuine hlog hd htr
            · exact h.results hw d (List.mem_flatten.2 ⟨_, List.mem_map.2 ⟨y, hy, rfl⟩, hd⟩) htr
  | finish i =>
    simp only [Busy.step] at hs
    split at hs
    · cases hs; exact ⟨h, none⟩
    · rename_i w hw
      split at hs
      · cases hs; exact ⟨h, none⟩
      · cases hs
        refine ⟨h.erase _ _, fun x hx => ?_⟩
        obtain ⟨d, hd, rfl⟩ := List.mem_map.1 hx
        obtain ⟨hd, htr⟩ := List.mem_filter.1 hd
        exact h.results hw d hd htr
  | healFails i e =>
    simp only [Busy.step] at hs
    split at hs
    · cases hs; exact ⟨h, none⟩
    · cases hs; exact ⟨h.erase _ _, none⟩
  | other f =>
    simp only [Busy.step] at hs
    cases hs
    exact ⟨h.same _, none⟩

/-! ### Members of groups -/

/-- The same of a member's calls. -/
structure SourcedAll (cfg : CCfg β δ) (logs : String → Int → List (Int × β)) (g : GroupBusy δ) : Prop where
  base : Sourced cfg logs g.base
  commits : ∀ x ∈ committing g, Genuine cfg logs x

/-- The same after a step, and what was returned in it is stored. -/
def Fine (cfg : CCfg β δ) (logs : String → Int → List (Int × β))
    (r : FirstGroupOut δ × GroupFirst δ) : Prop :=
  SourcedAll cfg logs r.2.group ∧ ∀ x ∈ groupGiven r.1, Genuine cfg logs x

/-- The same for calls other than those that determine offsets. -/
def FineBusy (cfg : CCfg β δ) (logs : String → Int → List (Int × β))
    (r : GroupOut δ × GroupBusy δ) : Prop :=
  SourcedAll cfg logs r.2 ∧ ∀ x ∈ givenBy r.1, Genuine cfg logs x

theorem SourcedAll.same {g : GroupBusy δ} (h : SourcedAll cfg logs g) (c : Grouped) :
    SourcedAll cfg logs ⟨⟨c, g.base.waiting⟩, g.commits⟩ := ⟨h.base.same c, h.commits⟩

theorem SourcedAll.erase {g : GroupBusy δ} (h : SourcedAll cfg logs g) {b : Busy GExt δ}
    (hb : Sourced cfg logs b) (k : Nat) : SourcedAll cfg logs ⟨b, g.commits.erase k⟩ := by
  refine ⟨hb, fun x hx => ?_⟩
  obtain ⟨c, hc, hx⟩ := mem_committing.1 hx
  exact h.commits x (mem_committing.2 ⟨c, (Dict.mem_erase.1 hc).1, hx⟩)

theorem SourcedAll.set {g : GroupBusy δ} (h : SourcedAll cfg logs g) {b : Busy GExt δ}
    (hb : Sourced cfg logs b) (k : Nat) {x : Committing δ}
    (hx : ∀ y ∈ heldBy x.result, Genuine cfg logs y) : SourcedAll cfg logs ⟨b, g.commits.set k x⟩ := by
  refine ⟨hb, fun y hy => ?_⟩
  obtain ⟨c, hc, hy⟩ := mem_committing.1 hy
  rcases mem_set_or hc with rfl | hc
  · exact hx y hy
  · exact h.commits y (mem_committing.2 ⟨c, hc, hy⟩)

theorem SourcedAll.result {g : GroupBusy δ} (h : SourcedAll cfg logs g) {k : Nat} {x : Committing δ}
    (hk : g.commits.get? k = some x) : ∀ y ∈ heldBy x.result, Genuine cfg logs y :=
  fun y hy => h.commits y (mem_committing.2 ⟨_, Dict.mem_of_get? hk, hy⟩)

theorem fine_ask {g : GroupBusy δ} {k : Nat} {md : String} {result : Option (String × Option (List δ))}
    (h : SourcedAll cfg logs g) (hr : ∀ y ∈ heldBy result, Genuine cfg logs y) :
    FineBusy cfg logs (g.ask cfg k md result) := by
  unfold GroupBusy.ask
  split
  · exact ⟨h.erase h.base _, fun x hx => by cases hx⟩
  · dsimp only
    split
    · exact ⟨h.erase (h.base.same _) _, fun x hx => by cases hx⟩
    · split
      · exact ⟨h.erase (h.base.same _) _, fun x hx => by cases hx⟩
      · split
        · exact ⟨h.erase (h.base.same _) _, fun x hx => by cases hx⟩
        · exact ⟨h.set (h.base.same _) _ hr, fun x hx => by cases hx⟩

theorem fine_finish {g : GroupBusy δ} {i : Nat} {topic : String} {res : Option (List δ)}
    (h : SourcedAll cfg logs g) (hr : ∀ y ∈ heldBy (some (topic, res)), Genuine cfg logs y) :
    FineBusy cfg logs (g.finish gcfg cfg i topic res) := by
  unfold GroupBusy.finish
  split
  · exact ⟨h, fun x hx => by cases hx⟩
  · dsimp only
    split
    · exact fine_ask (h.same _) hr
    · exact ⟨h.same _, fun x hx => hr x (by rwa [← givenBy_returned])⟩

theorem fine_group {g : GroupBusy δ} {ev : GroupEv β} (h : SourcedAll cfg logs g)
    (hf : ∀ bev, ev = .base bev → SendsFrom logs g.base bev) : FineBusy cfg logs (g.step gcfg cfg ev) := by
  have none : ∀ x, x ∈ ([] : List (String × δ)) → Genuine cfg logs x := fun x hx => by cases hx
  cases ev with
  | base bev =>
    simp only [GroupBusy.step]
    generalize hs : g.base.step Grouped.allocation cfg bev = r
    obtain ⟨out, b⟩ := r
    obtain ⟨h1, h2⟩ := busy_sourced h.base (hf bev rfl) hs
    have h' : SourcedAll cfg logs { g with base := b } := ⟨h1, h.commits⟩
    cases out with
    | nothing => exact ⟨h', none⟩
    | sent reqs => exact ⟨h', none⟩
    | raised e => exact ⟨h', none⟩
    | returned topic res => exact fine_finish h' (by rw [← heldBy_returned]; exact h2)
  | commit k md => exact fine_ask h none
  | answer k r =>
    simp only [GroupBusy.step]
    split
    · rename_i hk
      split
      · exact ⟨h.erase (h.base.same _) _, none⟩
      · exact ⟨h.set (h.base.same _) _ fun y hy => h.result hk y hy, none⟩
    · exact ⟨h, none⟩
  | fails k e =>
    simp only [GroupBusy.step]
    split
    · rename_i hk
      exact ⟨h.set (h.base.same _) _ fun y hy => h.result hk y hy, none⟩
    · exact ⟨h, none⟩
  | goOn k =>
    simp only [GroupBusy.step]
    split
    · rename_i hk
      split
      · exact fine_ask (h.same _) (h.result hk)
      · split
        · refine ⟨h.erase (h.base.same _) _, fun x hx => ?_⟩
          rw [givenBy_returned] at hx
          exact h.result hk x hx
        · exact ⟨h.erase (h.base.same _) _, none⟩
    · exact ⟨h.erase (h.base.same _) _, none⟩
    · exact ⟨h, none⟩
  | healFails k e =>
    simp only [GroupBusy.step]
    split
    · exact ⟨h, none⟩
    · exact ⟨h, none⟩
    · exact ⟨h.erase h.base _, none⟩

theorem fine_leave {s : GroupFirst δ} {i : Nat} {x : GroupOut δ × GroupBusy δ}
    (h : FineBusy cfg logs x) : Fine cfg logs (s.leave i x) := h

theorem fine_raised {s : GroupFirst δ} {i : Nat} {e : Exc} {g : GroupBusy δ} (h : SourcedAll cfg logs g) :
    Fine cfg logs (s.leave i (.raised e, g)) := ⟨h, fun x hx => by cases hx⟩

theorem fine_fetch {s : GroupFirst δ} {i : Nat} {topic : String} {parts : List Int}
    (h : SourcedAll cfg logs s.group) : Fine cfg logs (s.fetch cfg i topic parts) := by
  unfold GroupFirst.fetch
  split
  · exact fine_raised (h.same _)
  · rename_i reqs c hfe
    obtain ⟨_, _, _, _, _, _, f7, _⟩ := fetches_spec cfg topic parts _ _ _ hfe
    split
    · exact fine_raised (h.same _)
    · exact ⟨⟨h.base.set _ i (fun q hq => ((f7 _ rfl).topics q hq).1) (fun d hd => by cases hd),
        h.commits⟩, fun x hx => by cases hx⟩

theorem fine_proceed {s : GroupFirst δ} {i : Nat} {topic : String}
    (h : SourcedAll cfg logs s.group) : Fine cfg logs (s.proceed cfg i topic) := by
  unfold GroupFirst.proceed
  split
  · exact fine_raised h
  · split
    · exact fine_fetch h
    · exact ⟨h, fun x hx => by cases hx⟩

theorem fine_want {s : GroupFirst δ} {i : Nat} {topic : String} {parts : List Int}
    (h : SourcedAll cfg logs s.group) : Fine cfg logs (s.want cfg i topic parts) := by
  unfold GroupFirst.want
  split
  · exact fine_raised h
  · split
    · exact fine_raised h
    · split
      · exact fine_raised h
      · exact ⟨h, fun x hx => by cases hx⟩

theorem fine_determine {s : GroupFirst δ} {i : Nat} {topic : String}
    (h : SourcedAll cfg logs s.group) : Fine cfg logs (s.determine cfg i topic) := by
  unfold GroupFirst.determine
  dsimp only
  split
  · exact fine_raised h
  · split
    · exact fine_raised h
    · exact fine_want (s := ⟨_, s.starting⟩) (h.same _)

theorem fine_undetermined {s : GroupFirst δ} {i : Nat} {topic : String} {e : Exc}
    (h : SourcedAll cfg logs s.group) : Fine cfg logs (s.undetermined gcfg cfg i topic e) := by
  unfold GroupFirst.undetermined
  split
  · exact fine_leave (fine_finish h fun y hy => by cases hy)
  · exact fine_raised h

theorem fine_step {s : GroupFirst δ} {ev : FirstGroupEv β} (h : SourcedAll cfg logs s.group)
    (hf : SendsStored logs s ev) : Fine cfg logs (s.step gcfg cfg ev) := by
  have none : ∀ x, x ∈ ([] : List (String × δ)) → Genuine cfg logs x := fun x hx => by cases hx
  cases ev with
  | call i topic =>
    simp only [GroupFirst.step]
    split
    · exact fine_leave (fine_finish h none)
    · split
      · exact fine_proceed h
      · exact fine_determine h
  | offsets i r =>
    simp only [GroupFirst.step]
    split
    · split
      · exact ⟨h.same _, none⟩
      · exact fine_undetermined (s := ⟨_, s.starting⟩) (h.same _)
    · exact ⟨h, none⟩
  | offsetsFail i e =>
    simp only [GroupFirst.step]
    split
    · exact ⟨h.same _, none⟩
    · exact ⟨h, none⟩
  | goOn i =>
    simp only [GroupFirst.step]
    split
    · split
      · exact fine_raised (h.same _)
      · split
        · exact fine_want (s := ⟨_, s.starting⟩) (h.same _)
        · exact fine_proceed (s := ⟨_, s.starting⟩) (h.same _)
    · exact fine_raised (h.same _)
    · exact ⟨h, none⟩
  | healed i =>
    simp only [GroupFirst.step]
    split
    · split
      · exact fine_raised h
      · split
        · exact fine_fetch h
        · exact fine_leave (fine_finish h none)
    · exact ⟨h, none⟩
  | healFails i e =>
    simp only [GroupFirst.step]
    split
    · exact ⟨h, none⟩
    · exact fine_undetermined h
    · exact fine_undetermined h
    · exact fine_raised h
    · exact ⟨h, none⟩
  | group gev =>
    have key : ∀ gev', gev' = gev → (∀ bev, gev' = .base bev → SendsFrom logs s.group.base bev) →
        Fine cfg logs (.group (s.group.step gcfg cfg gev').1,
          { s with group := (s.group.step gcfg cfg gev').2 }) := fun _ _ hb => fine_group h hb
    cases gev with
    | base bev =>
      cases bev with
      | consume i t => exact ⟨h, none⟩
      | _ => exact key _ rfl fun b e => by cases e; exact hf
    | _ => exact key _ rfl fun b e => by cases e

theorem sourced_resting (c : Grouped) (i : Nat) :
    SourcedAll cfg logs (resting (δ := δ) (fun _ => c) i).group :=
  ⟨⟨fun _ hx => absurd hx List.not_mem_nil, fun _ hw => absurd hw List.not_mem_nil⟩,
    fun _ hx => absurd hx List.not_mem_nil⟩

theorem wild_inv {gs : Nat → GCfg} {g : Band δ} (h : WildRun gs cfg logs g) :
    (∀ i, SourcedAll cfg logs (g.members i).group) ∧ ∀ x ∈ g.returned, Genuine cfg logs x := by
  induction h with
  | start members => exact ⟨fun i => sourced_resting (members i) i, fun x hx => (by cases hx)⟩
  | @step g g' _ hst ih =>
    obtain ⟨ih1, ih2⟩ := ih
    have put : ∀ i s, SourcedAll cfg logs s.group → ∀ j, SourcedAll cfg logs (g.put i s j).group := by
      intro i s hs j
      unfold Band.put
      split
      · exact hs
      · exact ih1 j
    cases hst with
    | event i ev out s hf hs =>
      have := fine_step (gcfg := gs i) (ih1 i) hf
      rw [hs] at this
      refine ⟨put i s this.1, fun x hx => ?_⟩
      rcases List.mem_append.1 hx with hx | hx
      · exact ih2 x hx
      · exact this.2 x hx
    | rebalance i a => exact ⟨put i _ ((ih1 i).same _), ih2⟩
    | replaced i c => exact ⟨put i _ (sourced_resting c i), ih2⟩

/-- **C117**: whatever happens to a group, its members return only messages that are stored for the
topic asked for, can be deserialized and are not false to Python, and their calls hold no others.  Calls
overlap in any way; `consume`s raise; members are rebalanced and lost at any time; the coordinator
answers as it likes; brokers send what is stored, from wherever they like. -/
theorem C117_group (gcfg : Nat → GCfg) (cfg : CCfg β δ) (logs : String → Int → List (Int × β))
    (g : Band δ) (h : WildRun gcfg cfg logs g) : ∀ x, g.Has cfg x → Genuine cfg logs x := by
  obtain ⟨h1, h2⟩ := wild_inv h
  rintro x (hx | ⟨i, hx⟩)
  · exact h2 x hx
  · rcases List.mem_append.1 hx with hx | hx
    · exact (h1 i).commits x hx
    · exact (h1 i).base.held x hx

/-- **C117** for any consumer whose topics have their offsets. -/
theorem C117_consumer (allocation : Consumer ε → Res (Dict String (List Int))) (cfg : CCfg β δ)
    (logs : String → Int → List (Int × β)) (c : Consumer ε) (outs : List (String × δ)) (b : Busy ε δ)
    (h : WildCourse allocation cfg logs ⟨c, []⟩ outs b) :
    ∀ x ∈ outs ++ underWay cfg b, Genuine cfg logs x := by
  have key : Sourced cfg logs b ∧ ∀ x ∈ outs, Genuine cfg logs x := by
    induction h with
    | nil => exact ⟨⟨fun _ hx => absurd hx List.not_mem_nil, fun _ hw => absurd hw List.not_mem_nil⟩,
        fun _ hx => absurd hx List.not_mem_nil⟩
    | snoc _ hf hs ih =>
      obtain ⟨k1, k2⟩ := busy_sourced ih.1 hf hs
      refine ⟨k1, fun x hx => ?_⟩
      rcases List.mem_append.1 hx with hx | hx
      · exact ih.2 x hx
      · exact k2 x hx
  intro x hx
  rcases List.mem_append.1 hx with hx | hx
  · exact key.2 x hx
  · exact key.1.held x hx

/-! ### Single consumers -/

/-- As `Fine`. -/
def FineSingle (cfg : CCfg β δ) (logs : String → Int → List (Int × β))
    (r : FirstOut δ × SingleBusy δ) : Prop :=
  Sourced cfg logs r.2.base ∧ ∀ x ∈ firstReturned r.1, Genuine cfg logs x

theorem fine_determineEnd {s : SingleBusy δ} (h : Sourced cfg logs s.base) (topic : String) (e : Exc) :
    FineSingle cfg logs (determineEnd topic e, s) := by
  refine ⟨h, fun x hx => ?_⟩
  cases e <;> exact absurd hx List.not_mem_nil

theorem fine_singleFetch {s : SingleBusy δ} {i : Nat} {topic : String} {parts : List Int}
    (h : Sourced cfg logs s.base) : FineSingle cfg logs (s.fetch cfg i topic parts) := by
  unfold SingleBusy.fetch
  split
  · exact ⟨h.same _, fun _ hx => absurd hx List.not_mem_nil⟩
  · rename_i reqs c hfe
    obtain ⟨_, _, _, _, _, _, f7, _⟩ := fetches_spec cfg topic parts _ _ _ hfe
    split
    · exact ⟨h.same _, fun _ hx => absurd hx List.not_mem_nil⟩
    · exact ⟨h.set _ i (fun q hq => ((f7 _ rfl).topics q hq).1) (fun d hd => by cases hd),
        fun _ hx => absurd hx List.not_mem_nil⟩

theorem fine_singleProceed {s : SingleBusy δ} {i : Nat} {topic : String}
    (h : Sourced cfg logs s.base) : FineSingle cfg logs (s.proceed cfg i topic) := by
  unfold SingleBusy.proceed
  split
  · exact fine_singleFetch h
  · exact ⟨h, fun _ hx => absurd hx List.not_mem_nil⟩

theorem fine_single {s : SingleBusy δ} {ev : FirstEv β} (h : Sourced cfg logs s.base)
    (hf : ∀ bev, ev = .base bev → SendsFrom logs s.base bev) : FineSingle cfg logs (s.step cfg ev) := by
  have none : ∀ x, x ∈ ([] : List (String × δ)) → Genuine cfg logs x := fun x hx => by cases hx
  cases ev with
  | call i topic start now =>
    simp only [SingleBusy.step]
    split
    · exact ⟨h, none⟩
    · split
      · exact fine_singleProceed h
      · unfold SingleBusy.determine
        dsimp only
        split
        · exact fine_determineEnd (s := ⟨_, s.starting⟩) (h.same _) _ _
        · split
          · exact fine_determineEnd (s := ⟨_, s.starting⟩) (h.same _) _ _
          · exact ⟨h.same _, none⟩
  | offsets i broker r =>
    simp only [SingleBusy.step]
    split
    · split
      · exact ⟨h, none⟩
      · split
        · exact ⟨h.same _, none⟩
        · split
          · exact ⟨h.same _, none⟩
          · exact fine_determineEnd (s := ⟨_, _⟩) (h.same _) _ _
    · exact ⟨h, none⟩
  | determined i =>
    simp only [SingleBusy.step]
    split
    · exact fine_singleProceed (s := ⟨_, s.starting⟩) (h.same _)
    · exact ⟨h, none⟩
  | healed i =>
    simp only [SingleBusy.step]
    split
    · split
      · exact fine_singleFetch h
      · exact ⟨h, none⟩
    · exact ⟨h, none⟩
  | healFails i e =>
    simp only [SingleBusy.step]
    split
    · exact fine_determineEnd (s := ⟨_, _⟩) h _ _
    · exact ⟨h, none⟩
    · exact ⟨h, none⟩
  | base bev =>
    have key : FineSingle cfg logs ((s.base.step Single.allocation cfg bev).1.first,
        { s with base := (s.base.step Single.allocation cfg bev).2 }) := by
      obtain ⟨k1, k2⟩ := busy_sourced (allocation := Single.allocation) h (hf bev rfl) rfl
      exact ⟨k1, fun x hx => k2 x (by rwa [firstReturned_first] at hx)⟩
    cases bev with
    | consume i t => exact ⟨h, none⟩
    | _ => exact key

/-- **C117** for whole `consume`s of a `SingleConsumer`, which may be under way at the same time. -/
theorem C117_single (cfg : CCfg β δ) (logs : String → Int → List (Int × β)) (c : Single)
    (outs : List (String × δ)) (s : SingleBusy δ) (h : WildFirst cfg logs ⟨⟨c, []⟩, []⟩ outs s) :
    ∀ x ∈ outs ++ underWay cfg s.base, Genuine cfg logs x := by
  have key : Sourced cfg logs s.base ∧ ∀ x ∈ outs, Genuine cfg logs x := by
    induction h with
    | nil => exact ⟨⟨fun _ hx => absurd hx List.not_mem_nil, fun _ hw => absurd hw List.not_mem_nil⟩,
        fun _ hx => absurd hx List.not_mem_nil⟩
    | snoc _ hf hs ih =>
      have := fine_single ih.1 hf
      rw [hs] at this
      refine ⟨this.1, fun x hx => ?_⟩
      rcases List.mem_append.1 hx with hx | hx
      · exact ih.2 x hx
      · exact this.2 x hx
  intro x hx
  rcases List.mem_append.1 hx with hx | hx
  · exact key.2 x hx
  · exact key.1.held x hx

/-! ### From producers -/

theorem sendsFrom_grows {logs' : String → Int → List (Int × β)} (hg : ∀ t p, logs t p <+: logs' t p)
    {b : Busy ε δ} {ev : BEv ε β} (h : SendsFrom logs b ev) : SendsFrom logs' b ev := by
  cases ev with
  | outcome i broker r =>
    cases r with
    | error x => trivial
    | ok r =>
      intro w hw q hq hb
      obtain ⟨ps, rest, h1, h2⟩ := h w hw q hq hb
      exact ⟨ps, rest, h1, fun p hp h0 m hm => (hg _ _).subset (h2 p hp h0 m hm)⟩
  | _ => trivial

theorem wildStep_grows {gs : Nat → GCfg} {logs' : String → Int → List (Int × β)}
    (hg : ∀ t p, logs t p <+: logs' t p) {g g' : Band δ} (h : WildStep gs cfg logs g g') :
    WildStep gs cfg logs' g g' := by
  cases h with
  | event i ev out s h1 h2 =>
    refine .event i ev out s ?_ h2
    cases ev with
    | group gev =>
      cases gev with
      | base bev => exact sendsFrom_grows hg h1
      | _ => trivial
    | _ => trivial
  | rebalance i a => exact .rebalance i a
  | replaced i c => exact .replaced i c

variable {α κ γ : Type}

/-- **C117**, from producers: in any history of a producer, brokers and a group, members return only
messages that were accepted by this producer, stored by others since, or in the logs before. -/
theorem C117_made (pcfg : PCfg α κ β) (dec : γ → List (Msg κ β)) (gcfg : Nat → GCfg)
    (cfg : CCfg β δ) (cl : Cluster) (n : Int) (logs0 : String → Int → List (Int × β))
    (members : Nat → Grouped) (w : Site α κ β γ (Band δ)) (acc risk : List (String × Msg κ β))
    (foreign : List (String × β)) (outs : List (String × δ))
    (h : Runs pcfg dec (wildReads gcfg cfg) (Site.new cl n logs0 ⟨resting members, [], []⟩) acc risk
      foreign outs w) (hl : ∀ t p, IsLog (logs0 t p)) :
    ∀ x ∈ outs, x ∈ returnable cfg (plain acc ++ foreign) ∨ Genuine cfg logs0 x := by
  obtain ⟨e, hrun⟩ := site_reads (fun hg _ _ _ hr => ⟨wildStep_grows hg hr.1, hr.2⟩)
    (fun s o s' => s'.returned = s.returned ++ o ∧ WildRun gcfg cfg w.logs s') h
    ⟨(List.append_nil _).symm, .start members⟩
    (fun hx hr => ⟨by rw [hr.2, hx.1, List.append_assoc], hx.2.step hr.1⟩)
  have e : w.consumer.returned = outs := e
  obtain ⟨_, p', ⟨add, news, st, h1, h2, h3⟩, _⟩ := site_accounted h hl
  simp only [Producer.new, inQueue, List.flatMap_nil, plain, List.map_nil, List.append_nil] at h3
  intro x hx
  obtain ⟨p, m, hm, hd, htr⟩ := (wild_inv hrun).2 x (by rw [e]; exact hx)
  rw [(h1 x.1 p).1] at hm
  rcases List.mem_append.1 hm with hm | hm
  · exact .inr ⟨p, m, hm, hd, htr⟩
  · refine .inl (mem_returnable.2 ⟨m.2, h3.mem_iff.2 (List.mem_append_left _ ?_), hd, htr⟩)
    obtain ⟨src, rfl, g2⟩ := h2
    have : m.2 ∈ news x.1 p := by rw [← (h1 x.1 p).2]; exact List.mem_map.2 ⟨m, hm, rfl⟩
    rw [← g2] at this
    obtain ⟨y, hy, e'⟩ := List.mem_map.1 this
    obtain ⟨hy, hk⟩ := List.mem_filter.1 hy
    exact List.mem_map.2 ⟨y, hy, by rw [e', of_decide_eq_true hk]⟩

/-! ### Examples -/

theorem fair_sends {b : Busy ε δ} {ev : BEv ε β} (h : Fair WideBatch logs b ev) :
    SendsFrom logs b ev := by
  cases ev with
  | outcome i broker r =>
    cases r with
    | error x => trivial
    | ok r =>
      intro w hw q hq hb
      obtain ⟨ps, h1, _, h3⟩ := h w hw q hq hb
      refine ⟨ps, [], h1, fun p hp h0 m hm => ?_⟩
      obtain ⟨_, _, _, pre, rest, e, _⟩ := (h3 p hp).2 h0
      rw [e]
      exact List.mem_append_left _ (List.mem_append_right _ hm)
  | _ => trivial

theorem band_wild {gs : Nat → GCfg} {may : GroupFirst δ → Prop} {base : String → Int → Int}
    {g g' : Band δ} (h : BandStep gs cfg logs may base g g') : WildStep gs cfg logs g g' := by
  cases h with
  | event i ev out s h1 h2 h3 h4 =>
    refine .event i ev out s ?_ h4
    cases ev with
    | group gev =>
      cases gev with
      | base bev =>
        cases bev with
        | outcome i b r => exact fair_sends h1
        | _ => trivial
      | _ => trivial
    | _ => trivial
  | rebalance i a h1 => exact .rebalance i a
  | replaced i c h1 h2 => exact .replaced i c

theorem band_wildRun {gs : Nat → GCfg} {may : GroupFirst δ → Prop} {base : String → Int → Int}
    {g : Band δ} (h : BandRun gs cfg logs may base g) : WildRun gs cfg logs g := by
  induction h with
  | start members _ => exact .start members
  | step _ hs ih => exact ih.step (band_wild hs)

-- Non-vacuity of `C117_group`: a member returned a message, another one holds the next; then a member
-- is lost with what it held, and the other is told another share.
example : ∃ g : Band Nat, WildRun (fun _ => exManual) exCCfg exPartLogs g ∧
    g.returned = [("t", 5)] ∧ holds exCCfg (exBand2.members 1) = [("t", 6)] ∧
    holds exCCfg (g.members 1) = [] ∧ Genuine exCCfg exPartLogs ("t", 5) :=
  ⟨_, ((band_wildRun exBand2_run).step (.replaced 1 (exMember []))).step (.rebalance 0 [("u", [3])]),
    by decide +kernel, by decide +kernel, by decide +kernel, 0, (0, 5), by decide +kernel, rfl, rfl⟩

theorem wild_snoc {allocation : Consumer ε → Res (Dict String (List Int))} {b0 b : Busy ε δ}
    {outs : List (String × δ)} (h : WildCourse allocation cfg logs b0 outs b) (ev : BEv ε β)
    (hf : SendsFrom logs b ev) : WildCourse allocation cfg logs b0
      (outs ++ returnedBy (b.step allocation cfg ev).1) (b.step allocation cfg ev).2 := h.snoc hf rfl

-- Non-vacuity of `C117_consumer`: a broker sends what was not asked for, and the same twice.
example : ∃ b, WildCourse Single.allocation exCCfg (fun _ _ => exLog) ⟨exConsumer, []⟩
    [("t", 6), ("t", 6)] b := by
  have h := wild_snoc (wild_snoc (wild_snoc (.nil (allocation := Single.allocation) (cfg := exCCfg)
    (logs := fun _ _ => exLog) (b0 := ⟨exConsumer, []⟩)) (.consume 0 "t") trivial)
    (.outcome 0 7 (.ok (exFetched "t" [(4, 6), (3, 99), (4, 6)]))) (by
      intro w hw q hq _
      have : w = ⟨"t", [⟨7, 1000, 1, "t", [⟨0, 0, 100⟩]⟩], []⟩ := (Option.some.inj hw).symm
      subst this
      have := List.mem_singleton.1 hq
      subst this
      exact ⟨_, _, rfl, by decide +kernel⟩)) (.finish 0) trivial
  exact ⟨_, h⟩

theorem wildFirst_snoc {s0 s : SingleBusy δ} {outs : List (String × δ)}
    (h : WildFirst cfg logs s0 outs s) (ev : FirstEv β)
    (hf : ∀ bev, ev = .base bev → SendsFrom logs s.base bev) : WildFirst cfg logs s0
      (outs ++ firstReturned (s.step cfg ev).1) (s.step cfg ev).2 := h.snoc hf rfl

-- Non-vacuity of `C117_single`: the consumer has been told another offset.
example : ∃ s, WildFirst exCCfg (fun _ _ => exLog) ⟨⟨Single.new exCCluster, []⟩, []⟩ [("t", 5)] s := by
  have h := wildFirst_snoc (wildFirst_snoc (wildFirst_snoc (wildFirst_snoc (wildFirst_snoc
    (.nil (cfg := exCCfg) (logs := fun _ _ => exLog) (s0 := ⟨⟨Single.new exCCluster, []⟩, []⟩))
    (.call 0 "t" .unset 0) (fun _ e => by cases e))
    (.offsets 0 7 (.ok ⟨[("t", [⟨0, 0, [4]⟩])]⟩)) (fun _ e => by cases e))
    (.determined 0) (fun _ e => by cases e))
    (.base (.outcome 0 7 (.ok (exFetched "t" [(0, 5), (3, 99)])))) (fun _ e => by
      cases e
      intro w hw q hq _
      have : w = ⟨"t", [⟨7, 1000, 1, "t", [⟨0, 4, 100⟩]⟩], []⟩ := (Option.some.inj hw).symm
      subst this
      have := List.mem_singleton.1 hq
      subst this
      exact ⟨_, _, rfl, by decide +kernel⟩)) (.base (.finish 0)) (fun _ e => by cases e; trivial)
  exact ⟨_, h⟩

theorem runs_reads {pcfg : PCfg α κ β} {dec : γ → List (Msg κ β)} {σ : Type} {reads reads' : Reads σ β δ}
    (hr : ∀ logs c outs c', reads logs c outs c' → reads' logs c outs c') {w0 w : Site α κ β γ σ}
    {acc risk : List (String × Msg κ β)} {foreign : List (String × β)} {outs : List (String × δ)}
    (h : Runs pcfg dec reads w0 acc risk foreign outs w) :
    Runs pcfg dec reads' w0 acc risk foreign outs w := by
  induction h with
  | nil => exact .nil
  | snoc _ ho ih =>
    refine ih.snoc ?_
    cases ho with
    | call hd ht => exact .call hd ht
    | stores hm hn hg => exact .stores hm hn hg
    | foreign hg => exact .foreign hg
    | consumes h => exact .consumes (hr _ _ _ _ h)

-- Non-vacuity of `C117_made`.
example : ∃ members w, Runs exAtOnce id (wildReads (fun _ => exManual) exCCfg)
      (Site.new exPCluster 1 (exOneLog []) ⟨resting members, [], []⟩) [("t", ⟨0, 6⟩)] []
      [("t", 5), ("t", 99)] [("t", 5), ("t", 6)] w ∧ ∀ t p, IsLog (exOneLog [] t p) := by
  obtain ⟨members, -, h⟩ := runs_band
    (runs_lift (bandReads (fun _ => exManual) exCCfg fun _ _ => 0) · exStoredRuns) exBand3_run
  rw [show exBand3.returned = [("t", 5), ("t", 6)] by decide +kernel] at h
  refine ⟨members, _, runs_reads (fun _ _ _ _ hr => ⟨band_wild hr.1, hr.2⟩) h, fun t p => ?_⟩
  unfold exOneLog
  split <;> exact ⟨by simp, by simp⟩

end Kiel
