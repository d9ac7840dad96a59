import Verif.Props.CallsPipeline
import Verif.Props.Fleet
import Verif.Spec.FleetPipeline
/-
C113.
-/
set_option autoImplicit false
namespace Kiel
open Spec

variable {α κ β γ δ : Type}

theorem fleetStep_grows {gcfg : Nat → GCfg} {cfg : CCfg β δ} {may : Fleet δ → Prop}
    {logs logs' : String → Int → List (Int × β)} (hg : ∀ t p, logs t p <+: logs' t p) {g g' : Fleet δ}
    (h : FleetStep gcfg cfg logs may g g') : FleetStep gcfg cfg logs' may g g' := by
  cases h with
  | event i ev out s h1 h2 h3 h4 h5 h6 =>
    exact .event i ev out s (fairGroup_grows batch_grows hg _ _ h1) h2 h3 h4 h5 h6
  | stored i k req result t p o h1 h2 => exact .stored i k req result t p o h1 h2
  | settle members h1 h2 h3 h4 => exact .settle members h1 h2 h3 h4

/-- **C113.**  Calls of `produce`, `flush` and `close` of a producer overlap in any way; so do calls of
`consume` and `commit_offsets` of the members of a group, within a member and between members, no two
`consume`s of a member for the same topic; requests fail, go unanswered, are refused or are stored at any
time; flushes raise; other producers' messages are stored; the group is rebalanced while no call of its
members is under way and the coordinator has the offsets at which the members are.  At any time the
members have returned, or will return from the calls under way, only messages that were accepted by this
producer or stored by others since it began, none more often than it was made, whoever returned it.  If
no flush has raised, and the producer has nothing queued and no request that was not answered, and
nothing is ahead of where the group stands, they have returned, or will return from the calls under way,
all of them (that can be deserialized and are not false to Python), each exactly once. -/
theorem C113_exactly_once (pcfg : PCfg α κ β) (dec : γ → List (Msg κ β)) (gcfg : Nat → GCfg)
    (cfg : CCfg β δ) (cl : Cluster) (n : Int) (logs0 : String → Int → List (Int × β))
    (base : String → Int → Int) (members : Nat → Grouped) (w : Site α κ β γ (Fleet δ))
    (acc risk : List (String × Msg κ β)) (foreign : List (String × β)) (outs : List (String × δ))
    (h : Runs pcfg dec (fleetReads gcfg cfg) (Site.new cl n logs0 ⟨resting members, base, []⟩) acc risk
      foreign outs w)
    (ha : SharesApart members) (ht : ∀ i, NewlyTold (members i)) (hl : ∀ t p, IsLog (logs0 t p))
    (hstart : ∀ t p, ∀ m ∈ w.logs t p, m.1 < base t p ↔ m ∈ logs0 t p) :
    ∃ (k : Nat) (pos : String → Int → Int), (∀ i, k ≤ i → AtRest (w.consumer.members i)) ∧
      (∀ t p o, w.consumer.Stands t p o ↔ o = pos t p) ∧
      (outs ++ (List.range k).flatMap fun i => holds cfg (w.consumer.members i)).Subperm
        (returnable cfg (plain acc ++ foreign)) ∧
      (risk = [] → inQueue w.producer.producer.unsent = [] → inSent w.producer.producer.sent = [] →
        (∀ t p, ahead cfg (w.logs t p) (pos t p) = []) →
        (outs ++ (List.range k).flatMap fun i => holds cfg (w.consumer.members i)).Perm
          (returnable cfg (plain acc ++ foreign))) := by
  obtain ⟨_, _, _, hk⟩ := site_run h hl
  have hc := site_reads (fun hg _ _ _ hr => ⟨fleetStep_grows hg hr.1, hr.2⟩)
    (fun s o s' => s'.returned = s.returned ++ o ∧
      FleetRun gcfg cfg w.logs Fleet.Committed base s') h
    ⟨(List.append_nil _).symm, .start members ha ht⟩
    (fun hx hr => ⟨by rw [hr.2, hx.1, List.append_assoc], hx.2.step hr.1⟩)
  obtain ⟨e, hc⟩ := hc
  obtain ⟨k, pos, p1, p2, p3, p4⟩ := C112_exactly_once gcfg cfg w.logs hk.logs base w.consumer hc
  have e : w.consumer.returned = outs := e
  rw [e] at p4
  exact ⟨k, pos, p1, p2, site_delivered h hl cfg hstart p3 p4⟩

/-- **C113**, in the end: no flush has raised, the producer has nothing queued and no request that was
not answered, no call of the members is under way, and the group stands at the ends of the logs.  Then
the members have returned exactly what was made (and can be deserialized and is not false to Python),
each message once. -/
theorem C113_all (pcfg : PCfg α κ β) (dec : γ → List (Msg κ β)) (gcfg : Nat → GCfg)
    (cfg : CCfg β δ) (cl : Cluster) (n : Int) (logs0 : String → Int → List (Int × β))
    (base : String → Int → Int) (members : Nat → Grouped) (w : Site α κ β γ (Fleet δ))
    (acc : List (String × Msg κ β)) (foreign : List (String × β)) (outs : List (String × δ))
    (h : Runs pcfg dec (fleetReads gcfg cfg) (Site.new cl n logs0 ⟨resting members, base, []⟩) acc []
      foreign outs w)
    (ha : SharesApart members) (ht : ∀ i, NewlyTold (members i)) (hl : ∀ t p, IsLog (logs0 t p))
    (hstart : ∀ t p, ∀ m ∈ w.logs t p, m.1 < base t p ↔ m ∈ logs0 t p)
    (hq : inQueue w.producer.producer.unsent = []) (hs : inSent w.producer.producer.sent = [])
    (hr : ∀ i, AtRest (w.consumer.members i))
    (hend : ∀ t p, ∃ o, w.consumer.Stands t p o ∧ ahead cfg (w.logs t p) o = []) :
    outs.Perm (returnable cfg (plain acc ++ foreign)) := by
  obtain ⟨k, pos, _, p2, _, p4⟩ := C113_exactly_once pcfg dec gcfg cfg cl n logs0 base members w acc []
    foreign outs h ha ht hl hstart
  have := p4 rfl hq hs fun t p => by
    obtain ⟨o, ho, he⟩ := hend t p
    rw [p2] at ho
    exact ho ▸ he
  rwa [show ((List.range k).flatMap fun i => holds cfg (w.consumer.members i)) = [] by
    rw [List.flatMap_eq_nil_iff]; exact fun i _ => atRest_holds (hr i), List.append_nil] at this

/-! ### Example -/

theorem fleetStep_returned {gcfg : Nat → GCfg} {cfg : CCfg β δ} {may : Fleet δ → Prop}
    {logs : String → Int → List (Int × β)} {g g' : Fleet δ} (h : FleetStep gcfg cfg logs may g g') :
    ∃ outs, g'.returned = g.returned ++ outs := by
  cases h with
  | event i ev out s h1 h2 h3 h4 h5 h6 => exact ⟨_, rfl⟩
  | stored i k req result t p o h1 h2 => exact ⟨[], by simp⟩
  | settle members h1 h2 h3 h4 => exact ⟨[], by simp⟩

theorem runs_fleet {pcfg : PCfg α κ β} {dec : γ → List (Msg κ β)} {gcfg : Nat → GCfg} {cfg : CCfg β δ}
    {cl : Cluster} {n : Int} {logs0 logs : String → Int → List (Int × β)} {base : String → Int → Int}
    {acc risk : List (String × Msg κ β)} {foreign : List (String × β)} {p : ProducerBusy α κ β γ}
    {given : Dict Int (ByPartition κ β)} {done : List (Int × String × Int)}
    (h0 : ∀ c, Runs pcfg dec (fleetReads gcfg cfg) (Site.new cl n logs0 c) acc risk foreign []
      ⟨p, given, done, logs, c⟩) {g : Fleet δ} (h : FleetRun gcfg cfg logs Fleet.Committed base g) :
    ∃ members, SharesApart members ∧ (∀ i, NewlyTold (members i)) ∧
      Runs pcfg dec (fleetReads gcfg cfg) (Site.new cl n logs0 ⟨resting members, base, []⟩) acc risk
        foreign g.returned ⟨p, given, done, logs, g⟩ := by
  induction h with
  | start members h1 h2 => exact ⟨members, h1, h2, h0 _⟩
  | step _ hs ih =>
    obtain ⟨members, h1, h2, h3⟩ := ih
    obtain ⟨outs, ho⟩ := fleetStep_returned hs
    refine ⟨members, h1, h2, ?_⟩
    have := Runs.snoc h3 (.consumes ⟨hs, ho⟩)
    rw [List.append_nil, List.append_nil, List.append_nil] at this
    rw [ho]
    exact this

-- Non-vacuity of `C113_exactly_once`: messages of others and the producer's are stored; one has been
-- returned by a member, another is held, after a rebalance, by a call of another, and one cannot be
-- deserialized.
example : ∃ members w, SharesApart members ∧ (∀ i, NewlyTold (members i)) ∧
    Runs exAtOnce id (fleetReads (fun _ => exAuto) exCCfg)
      (Site.new exPCluster 1 (exOneLog []) ⟨resting members, fun _ _ => 0, []⟩) [("t", ⟨0, 6⟩)] []
      [("t", 5), ("t", 99)] [("t", 5)] w ∧
    (∀ t p, ∀ m ∈ w.logs t p, m.1 < 0 ↔ m ∈ exOneLog [] t p) ∧
    inQueue w.producer.producer.unsent = [] ∧ inSent w.producer.producer.sent = [] ∧
    w.consumer.Stands "t" 0 5 ∧ ahead exCCfg (w.logs "t" 0) 5 = [] ∧
    holds exCCfg (w.consumer.members 1) = [("t", 6)] := by
  obtain ⟨members, h1, h2, h3⟩ := runs_fleet
    (runs_lift (fleetReads (fun _ => exAuto) exCCfg) · exStoredRuns) exFleet3_run
  rw [show exFleet3.returned = [("t", 5)] by decide +kernel] at h3
  refine ⟨members, _, h1, h2, h3, exStart_ok (start := fun _ _ => 0) rfl, by decide +kernel,
    by decide +kernel, .inl ⟨1, ?_, ?_, ?_⟩, ?_, ?_⟩ <;> decide +kernel

-- Non-vacuity of `C113_all`: no call is under way, and all has been returned.
example : ∃ members w, SharesApart members ∧ (∀ i, NewlyTold (members i)) ∧
    Runs exAtOnce id (fleetReads (fun _ => exAuto) exCCfg)
      (Site.new exPCluster 1 (exOneLog []) ⟨resting members, fun _ _ => 0, []⟩) [("t", ⟨0, 6⟩)] []
      [("t", 5), ("t", 99)] [("t", 5), ("t", 6)] w ∧
    (∀ t p, ∀ m ∈ w.logs t p, m.1 < 0 ↔ m ∈ exOneLog [] t p) ∧
    inQueue w.producer.producer.unsent = [] ∧ inSent w.producer.producer.sent = [] ∧
    (∀ i, AtRest (w.consumer.members i)) ∧
    (∀ t p, ∃ o, w.consumer.Stands t p o ∧ ahead exCCfg (w.logs t p) o = []) := by
  obtain ⟨members, h1, h2, h3⟩ := runs_fleet
    (runs_lift (fleetReads (fun _ => exAuto) exCCfg) · exStoredRuns) exFleet4_run
  rw [show exFleet4.returned = [("t", 5), ("t", 6)] by decide +kernel] at h3
  obtain ⟨pos, hs, -⟩ := C112_returned _ _ _ exPartLogs_ok _ _ exFleet4_run exFleet4_rest
  refine ⟨members, _, h1, h2, h3, exStart_ok (start := fun _ _ => 0) rfl, by decide +kernel,
    by decide +kernel, exFleet4_rest, fun t p => ⟨pos t p, (hs t p _).2 rfl, ?_⟩⟩
  have h5 : pos "t" 0 = 5 := ((hs "t" 0 5).1 (.inl ⟨1, by decide +kernel, by decide +kernel,
    by decide +kernel⟩)).symm
  exact exAhead_ok h5 t p

end Kiel
