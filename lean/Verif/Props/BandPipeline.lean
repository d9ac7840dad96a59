import Verif.Props.CallsPipeline
import Verif.Props.Band
import Verif.Spec.BandPipeline
/-
C116.
-/
set_option autoImplicit false
namespace Kiel
open Spec

variable {α κ β γ δ σ : Type}

theorem bandStep_grows {gcfg : Nat → GCfg} {cfg : CCfg β δ} {may : GroupFirst δ → Prop}
    {base : String → Int → Int} {logs logs' : String → Int → List (Int × β)}
    (hg : ∀ t p, logs t p <+: logs' t p) {g g' : Band δ} (h : BandStep gcfg cfg logs may base g g') :
    BandStep gcfg cfg logs' may base g g' := by
  cases h with
  | event i ev out s h1 h2 h3 h4 =>
    exact .event i ev out s (fairGroup_grows wideBatch_grows hg _ _ h1) h2 h3 h4
  | rebalance i a h1 => exact .rebalance i a h1
  | replaced i c h1 h2 => exact .replaced i c h1 h2

theorem interleaving_mem {per : String → Int → List δ} {out : List (String × δ)}
    (h : Interleaving per out) {x : String × δ} (hx : x ∈ out) : ∃ p, x.2 ∈ per x.1 p := by
  obtain ⟨src, rfl, h2⟩ := h
  obtain ⟨y, hy, rfl⟩ := List.mem_map.1 hx
  refine ⟨y.1.2, ?_⟩
  rw [← h2]
  exact List.mem_map.2 ⟨y, List.mem_filter.2 ⟨hy, by simp⟩, rfl⟩

/-- Whatever kind of consumer: what has been made is in the logs, from where they were at first, once
nothing is to be sent any more. -/
theorem site_stored {pcfg : PCfg α κ β} {dec : γ → List (Msg κ β)} {reads : Reads σ β δ}
    {cl : Cluster} {n : Int} {logs0 : String → Int → List (Int × β)} {c : σ} {w : Site α κ β γ σ}
    {acc : List (String × Msg κ β)} {foreign : List (String × β)} {outs : List (String × δ)}
    (h : Runs pcfg dec reads (Site.new cl n logs0 c) acc [] foreign outs w)
    (hl : ∀ t p, IsLog (logs0 t p)) {base : String → Int → Int}
    (hstart : ∀ t p, ∀ m ∈ w.logs t p, m.1 < base t p ↔ m ∈ logs0 t p)
    (hq : inQueue w.producer.producer.unsent = []) (hs : inSent w.producer.producer.sent = [])
    {x : String × β} (hx : x ∈ plain acc ++ foreign) :
    ∃ p, ∃ m ∈ w.logs x.1 p, base x.1 p ≤ m.1 ∧ m.2 = x.2 := by
  obtain ⟨hlw, p', ⟨add, news, st, h1, h2, h3⟩, hn⟩ := site_accounted h hl
  rw [hn rfl hq hs] at h3
  simp only [Producer.new, inQueue, List.flatMap_nil, plain, List.map_nil, List.append_nil] at h3
  obtain ⟨p, hp⟩ := interleaving_mem h2 (h3.subset hx)
  rw [← (h1 x.1 p).2] at hp
  obtain ⟨m, hm, e⟩ := List.mem_map.1 hp
  have hw : m ∈ w.logs x.1 p := by rw [(h1 x.1 p).1]; exact List.mem_append_right _ hm
  refine ⟨p, m, hw, ?_, e⟩
  by_contra hlt
  have hold := (hstart x.1 p m hw).1 (by omega)
  have hsort := (hlw x.1 p).sorted
  rw [(h1 x.1 p).1] at hsort
  have := (List.pairwise_append.1 hsort).2.2 m hold m hm
  omega

theorem site_band {pcfg : PCfg α κ β} {dec : γ → List (Msg κ β)} {gcfg : Nat → GCfg} {cfg : CCfg β δ}
    {cl : Cluster} {n : Int} {logs0 : String → Int → List (Int × β)} {base : String → Int → Int}
    {members : Nat → Grouped} {w : Site α κ β γ (Band δ)} {acc risk : List (String × Msg κ β)}
    {foreign : List (String × β)} {outs : List (String × δ)}
    (h : Runs pcfg dec (bandReads gcfg cfg base) (Site.new cl n logs0 ⟨resting members, [], []⟩) acc
      risk foreign outs w) (hm : ∀ i, JustMade (members i)) :
    w.consumer.returned = outs ∧ BandRun gcfg cfg w.logs NoneWaits base w.consumer :=
  site_reads (fun hg _ _ _ hr => ⟨bandStep_grows hg hr.1, hr.2⟩)
    (fun s o s' => s'.returned = s.returned ++ o ∧ BandRun gcfg cfg w.logs NoneWaits base s') h
    ⟨(List.append_nil _).symm, .start members hm⟩
    (fun hx hr => ⟨by rw [hr.2, hx.1, List.append_assoc], hx.2.step hr.1⟩)

theorem mem_returnable {cfg : CCfg β δ} {made : List (String × β)} {x : String × δ} :
    x ∈ returnable cfg made ↔ ∃ v, (x.1, v) ∈ made ∧ decode cfg v = some x.2 ∧ cfg.truthy x.2 = true := by
  simp only [returnable, List.mem_filterMap, Option.bind_eq_some_iff, Option.ite_none_right_eq_some,
    Option.some.injEq]
  constructor
  · rintro ⟨m, hm, d, hd, htr, rfl⟩
    exact ⟨m.2, hm, hd, htr⟩
  · rintro ⟨v, hv, hd, htr⟩
    exact ⟨(x.1, v), hv, x.2, hd, htr, rfl⟩

/-- **C116.**  Calls of `produce`, `flush` and `close` of a producer overlap in any way; so do calls of
`consume` and `commit_offsets` of the members of a group, within a member and between members; requests
fail, go unanswered, are refused or are stored at any time; other producers' messages are stored; each
member may be rebalanced whenever none of its `consume`s waits for messages or looks the cluster up, and
lost whenever its calls hold no messages; the coordinator may answer with any offset that it has been
asked to store.  Suppose that no flush has raised, and that the producer has nothing queued and no
request that was not answered.  Then every message that was accepted by this producer or stored by others
since it began (and can be deserialized and is not false to Python) is stored, and, if for every
partition a member, or a committed offset, is past it all, has been returned by a member or is held by a
call under way, which will return it. -/
theorem C116_not_lost (pcfg : PCfg α κ β) (dec : γ → List (Msg κ β)) (gcfg : Nat → GCfg)
    (cfg : CCfg β δ) (cl : Cluster) (n : Int) (logs0 : String → Int → List (Int × β))
    (base : String → Int → Int) (members : Nat → Grouped) (w : Site α κ β γ (Band δ))
    (acc : List (String × Msg κ β)) (foreign : List (String × β)) (outs : List (String × δ))
    (h : Runs pcfg dec (bandReads gcfg cfg base) (Site.new cl n logs0 ⟨resting members, [], []⟩) acc []
      foreign outs w)
    (hm : ∀ i, JustMade (members i)) (hl : ∀ t p, IsLog (logs0 t p))
    (hstart : ∀ t p, ∀ m ∈ w.logs t p, m.1 < base t p ↔ m ∈ logs0 t p)
    (hq : inQueue w.producer.producer.unsent = []) (hs : inSent w.producer.producer.sent = [])
    (hend : ∀ t p, w.consumer.Past cfg t p (w.logs t p)) :
    ∀ x ∈ returnable cfg (plain acc ++ foreign),
      x ∈ outs ∨ ∃ i, x ∈ holds cfg (w.consumer.members i) := by
  intro x hx
  obtain ⟨v, hv, hd, htr⟩ := mem_returnable.1 hx
  obtain ⟨p, m, hmem, hb, rfl⟩ := site_stored h hl hstart hq hs hv
  obtain ⟨hout, hrun⟩ := site_band h hm
  obtain ⟨o, ho, ha⟩ := hend x.1 p
  have hlt : m.1 < o := by
    by_contra hge
    have : m ∈ ahead cfg (w.logs x.1 p) o := by
      rw [ahead, List.mem_filter]
      exact ⟨hmem, by simp [hd]; omega⟩
    rw [ha] at this
    cases this
  have hw := (site_accounted h hl).1
  have hbelow : Below cfg w.logs base (w.consumer.Has cfg) x.1 p o := by
    rcases ho with ho | ⟨i, rfl⟩
    · exact C114_committed gcfg cfg w.logs hw base _ hrun x.1 p o ho
    · exact C114_position gcfg cfg w.logs hw base _ hrun i x.1 p
  have := hbelow m hmem hb hlt _ hd htr
  rwa [Band.Has, hout] at this

/-- **C116**, in the end: no call of the members is under way either.  Then the members have returned
every message that was made (and can be deserialized and is not false to Python). -/
theorem C116_returned (pcfg : PCfg α κ β) (dec : γ → List (Msg κ β)) (gcfg : Nat → GCfg)
    (cfg : CCfg β δ) (cl : Cluster) (n : Int) (logs0 : String → Int → List (Int × β))
    (base : String → Int → Int) (members : Nat → Grouped) (w : Site α κ β γ (Band δ))
    (acc : List (String × Msg κ β)) (foreign : List (String × β)) (outs : List (String × δ))
    (h : Runs pcfg dec (bandReads gcfg cfg base) (Site.new cl n logs0 ⟨resting members, [], []⟩) acc []
      foreign outs w)
    (hm : ∀ i, JustMade (members i)) (hl : ∀ t p, IsLog (logs0 t p))
    (hstart : ∀ t p, ∀ m ∈ w.logs t p, m.1 < base t p ↔ m ∈ logs0 t p)
    (hq : inQueue w.producer.producer.unsent = []) (hs : inSent w.producer.producer.sent = [])
    (hr : ∀ i, AtRest (w.consumer.members i))
    (hend : ∀ t p, w.consumer.Past cfg t p (w.logs t p)) :
    ∀ x ∈ returnable cfg (plain acc ++ foreign), x ∈ outs := by
  intro x hx
  rcases C116_not_lost pcfg dec gcfg cfg cl n logs0 base members w acc foreign outs h hm hl hstart hq hs
    hend x hx with hx | ⟨i, hx⟩
  · exact hx
  · rw [atRest_holds (hr i)] at hx
    cases hx

/-! ### Example -/

theorem bandStep_returned {gcfg : Nat → GCfg} {cfg : CCfg β δ} {may : GroupFirst δ → Prop}
    {base : String → Int → Int} {logs : String → Int → List (Int × β)} {g g' : Band δ}
    (h : BandStep gcfg cfg logs may base g g') : ∃ outs, g'.returned = g.returned ++ outs := by
  cases h with
  | event i ev out s h1 h2 h3 h4 => exact ⟨_, rfl⟩
  | rebalance i a h1 => exact ⟨[], by simp⟩
  | replaced i c h1 h2 => exact ⟨[], by simp⟩

theorem runs_band {pcfg : PCfg α κ β} {dec : γ → List (Msg κ β)} {gcfg : Nat → GCfg} {cfg : CCfg β δ}
    {cl : Cluster} {n : Int} {logs0 logs : String → Int → List (Int × β)} {base : String → Int → Int}
    {acc risk : List (String × Msg κ β)} {foreign : List (String × β)} {p : ProducerBusy α κ β γ}
    {given : Dict Int (ByPartition κ β)} {done : List (Int × String × Int)}
    (h0 : ∀ c, Runs pcfg dec (bandReads gcfg cfg base) (Site.new cl n logs0 c) acc risk foreign []
      ⟨p, given, done, logs, c⟩) {g : Band δ} (h : BandRun gcfg cfg logs NoneWaits base g) :
    ∃ members, (∀ i, JustMade (members i)) ∧
      Runs pcfg dec (bandReads gcfg cfg base) (Site.new cl n logs0 ⟨resting members, [], []⟩) acc risk
        foreign g.returned ⟨p, given, done, logs, g⟩ := by
  induction h with
  | start members h1 => exact ⟨members, h1, h0 _⟩
  | step _ hs ih =>
    obtain ⟨members, h1, h3⟩ := ih
    obtain ⟨outs, ho⟩ := bandStep_returned hs
    refine ⟨members, h1, ?_⟩
    have := Runs.snoc h3 (.consumes ⟨hs, ho⟩)
    rw [List.append_nil, List.append_nil, List.append_nil] at this
    rw [ho]
    exact this

theorem exPast {g : Band Nat} (h : offsetOf (g.member 1).offsets "t" 0 = 5) (t : String) (p : Int) :
    g.Past exCCfg t p (exPartLogs t p) :=
  ⟨offsetOf (g.member 1).offsets t p, .inr ⟨1, rfl⟩, exAhead_ok h t p⟩

-- Non-vacuity of `C116_not_lost`: messages of others and the producer's are stored; one has been
-- returned by a member, which was rebalanced while it committed; another is held by a call of the other
-- member, and one cannot be deserialized.
example : ∃ members w, (∀ i, JustMade (members i)) ∧
    Runs exAtOnce id (bandReads (fun _ => exManual) exCCfg fun _ _ => 0)
      (Site.new exPCluster 1 (exOneLog []) ⟨resting members, [], []⟩) [("t", ⟨0, 6⟩)] []
      [("t", 5), ("t", 99)] [("t", 5)] w ∧
    (∀ t p, ∀ m ∈ w.logs t p, m.1 < 0 ↔ m ∈ exOneLog [] t p) ∧
    inQueue w.producer.producer.unsent = [] ∧ inSent w.producer.producer.sent = [] ∧
    (∀ t p, w.consumer.Past exCCfg t p (w.logs t p)) ∧
    returnable exCCfg (plain [("t", (⟨0, 6⟩ : Msg Nat Nat))] ++ [("t", 5), ("t", 99)]) =
      [("t", 6), ("t", 5)] ∧
    holds exCCfg (w.consumer.members 1) = [("t", 6)] := by
  obtain ⟨members, h1, h3⟩ := runs_band
    (runs_lift (bandReads (fun _ => exManual) exCCfg fun _ _ => 0) · exStoredRuns) exBand2_run
  rw [show exBand2.returned = [("t", 5)] by decide +kernel] at h3
  exact ⟨members, _, h1, h3, exStart_ok (start := fun _ _ => 0) rfl, by decide +kernel,
    by decide +kernel, exPast (by decide +kernel), by decide +kernel, by decide +kernel⟩

-- Non-vacuity of `C116_returned`: no call is under way any more; the first member has been lost.
example : ∃ members w, (∀ i, JustMade (members i)) ∧
    Runs exAtOnce id (bandReads (fun _ => exManual) exCCfg fun _ _ => 0)
      (Site.new exPCluster 1 (exOneLog []) ⟨resting members, [], []⟩) [("t", ⟨0, 6⟩)] []
      [("t", 5), ("t", 99)] [("t", 5), ("t", 6)] w ∧
    (∀ t p, ∀ m ∈ w.logs t p, m.1 < 0 ↔ m ∈ exOneLog [] t p) ∧
    inQueue w.producer.producer.unsent = [] ∧ inSent w.producer.producer.sent = [] ∧
    (∀ i, AtRest (w.consumer.members i)) ∧ (∀ t p, w.consumer.Past exCCfg t p (w.logs t p)) := by
  obtain ⟨members, h1, h3⟩ := runs_band
    (runs_lift (bandReads (fun _ => exManual) exCCfg fun _ _ => 0) · exStoredRuns) exBand3_run
  rw [show exBand3.returned = [("t", 5), ("t", 6)] by decide +kernel] at h3
  exact ⟨members, _, h1, h3, exStart_ok (start := fun _ _ => 0) rfl, by decide +kernel,
    by decide +kernel, exBand3_rest, exPast (by decide +kernel)⟩

end Kiel
