import Verif.Props.Heal
import Verif.Props.Producer
import Verif.Props.LateTopic
/-
C130: topics that brokers would create if they were asked about them.
-/
set_option autoImplicit false
namespace Kiel
open Spec

variable {α κ β γ δ : Type}

/-! ### Specification -/

/-- The topic does not exist: brokers mention it only to clients that ask about it by name, be it
to say that they do not know it or that they have just created it. -/
def Spec.NotThere (env : ClusterEnv) (t : String) : Prop :=
  ∀ n names id m, t ∉ names → env.ask n names id = .ok m → ∀ x ∈ m.topics, x.name ≠ t

/-- The environments differ only in what brokers do when they are asked about topic `t` by
name. -/
structure Spec.SameButFor (t : String) (env env' : ClusterEnv) : Prop where
  ask : ∀ n names, t ∉ names → env.ask n names = env'.ask n names
  connect : env.connect = env'.connect

/-- `f` is what `heal()` does with these brokers. -/
def Spec.HealsWith (env : ClusterEnv) (f : Cluster → Res Unit × Cluster) : Prop :=
  ∀ cl, ∃ fuel, cl.heal env fuel .none =
    (match (f cl).1 with | .ok _ => .done () | .error e => .raised e, (f cl).2)

/-! ### What is asked about -/

theorem sync_unmentioned (connect : Nat → Option Exc) (cl : Cluster) (m : Metadata) (t : String)
    (hm : ∀ x ∈ m.topics, x.name ≠ t) :
    t ∉ (cl.sync connect m).2.1 ∧ (cl.sync connect m).2.2.topics.has t = false := by
  unfold Cluster.sync
  simp only
  constructor
  · intro h
    obtain ⟨x, hx, he, _⟩ := ((C20_missing _ _).1 t).1 h
    exact hm x hx he
  · have h := C19_topics (cl.processBrokers connect m.brokers).2 m.topics t
    have hu : usable (· ∈ (cl.processBrokers connect m.brokers).2.conns.keys) m.topics t = [] := by
      unfold usable
      have : m.topics.filter (fun x => x.name = t ∧ x.error ≠ 3 ∧ x.error ≠ 9) = [] := by
        rw [List.filter_eq_nil_iff]
        intro x hx
        simp [hm x hx]
      rw [this]; rfl
    rw [if_pos hu] at h
    unfold Dict.has
    rw [h]; rfl

theorem healLoop_unmentioned (env : ClusterEnv) (t : String) (hn : NotThere env t)
    (I : Cluster → Prop) (hI : ∀ cl, cl.topics.has t = false → I cl)
    (fuel n : Nat) (mc : List Int) (mt : List String) (cl : Cluster) (hmt : t ∉ mt) (hcl : I cl) :
    I (healLoop env fuel n mc mt cl).2 := by
  induction fuel generalizing n mc mt cl with
  | zero => exact hcl
  | succ fuel ih =>
    unfold healLoop
    split
    · exact hcl
    · split
      · exact hcl
      · rename_i m hm
        obtain ⟨id, hid⟩ := getMetadata_mem hm
        obtain ⟨h1, h2⟩ := sync_unmentioned (env.connect n) cl m t (hn n mt id m hmt hid)
        exact ih _ _ _ _ h1 (hI _ h2)

theorem heal_unmentioned (env : ClusterEnv) (t : String) (hn : NotThere env t)
    (I : Cluster → Prop) (hI : ∀ cl, cl.topics.has t = false → I cl) (fuel : Nat)
    (cl : Cluster) (hcl : I cl) : I (cl.heal env fuel .none).2 := by
  unfold Cluster.heal
  simp only
  split
  · exact hcl
  · rename_i m hm
    obtain ⟨id, hid⟩ := getMetadata_mem hm
    obtain ⟨h1, h2⟩ := sync_unmentioned (env.connect 0) cl.cull m t (hn 0 [] id m (by simp) hid)
    exact healLoop_unmentioned env t hn I hI _ _ _ _ _ h1 (hI _ h2)

theorem has_partitionsOf {cl : Cluster} {t : String} (h : cl.topics.has t = false) :
    partitionsOf cl t = [] := by
  unfold Dict.has at h
  unfold partitionsOf
  cases hg : cl.topics.get? t with
  | none => rfl
  | some ps => rw [hg] at h; cases h

theorem healLoop_same (env env' : ClusterEnv) (t : String) (hn : NotThere env t)
    (hs : SameButFor t env env') (fuel n : Nat) (mc : List Int) (mt : List String) (cl : Cluster)
    (hmt : t ∉ mt) : healLoop env fuel n mc mt cl = healLoop env' fuel n mc mt cl := by
  induction fuel generalizing n mc mt cl with
  | zero => rfl
  | succ fuel ih =>
    unfold healLoop
    rw [← hs.ask n mt hmt, ← hs.connect]
    split
    · rfl
    · split
      · rfl
      · rename_i m hm
        obtain ⟨id, hid⟩ := getMetadata_mem hm
        obtain ⟨h1, _⟩ := sync_unmentioned (env.connect n) cl m t (hn n mt id m hmt hid)
        exact ih _ _ _ _ h1

/-! ### C130 -/

/-- **C130** fails: `heal()` never asks about a topic that brokers have not mentioned first; what
they would do if they were asked makes no difference to it. -/
theorem C130_not_asked (env env' : ClusterEnv) (t : String) (hn : NotThere env t)
    (hs : SameButFor t env env') (fuel : Nat) (cl : Cluster) :
    cl.heal env fuel .none = cl.heal env' fuel .none := by
  unfold Cluster.heal
  simp only
  rw [← hs.ask 0 [] (by simp), ← hs.connect]
  split
  · rfl
  · rename_i m hm
    obtain ⟨id, hid⟩ := getMetadata_mem hm
    obtain ⟨h1, _⟩ := sync_unmentioned (env.connect 0) cl.cull m t (hn 0 [] id m (by simp) hid)
    exact healLoop_same env env' t hn hs _ _ _ _ _ h1

/-- **C130** fails: a topic that is not there is not known after `heal()` either, whatever brokers
would do if they were asked about it. -/
theorem C130_unknown (env : ClusterEnv) (t : String) (hn : NotThere env t) (fuel : Nat)
    (cl : Cluster) :
    (cl.topics.has t = false → (cl.heal env fuel .none).2.topics.has t = false) ∧
    (partitionsOf cl t = [] → partitionsOf (cl.heal env fuel .none).2 t = []) :=
  ⟨heal_unmentioned env t hn (fun cl => cl.topics.has t = false) (fun _ h => h) fuel cl,
    heal_unmentioned env t hn (fun cl => partitionsOf cl t = []) (fun _ h => has_partitionsOf h)
      fuel cl⟩

/-- **C130** fails for producers: a message for a topic that is not there is dropped, though
brokers would create the topic if they were asked about it. -/
theorem C130_produce (cfg : PCfg α κ β) (env : FlushEnv κ β γ) (cenv : ClusterEnv) (t : String)
    (hn : NotThere cenv t) (hf : HealsWith cenv env.healC) (p : Producer κ β) (a : α)
    (h : p.cluster.topics.has t = false) :
    (p.produce cfg env t a).2.2 = [] ∧ (p.produce cfg env t a).2.1.unsent = p.unsent ∧
    (p.produce cfg env t a).2.1.cluster.topics.has t = false := by
  cases hc : p.closing with
  | true => rw [C34_closing cfg env p t a hc]; exact ⟨rfl, rfl, h⟩
  | false =>
    have h2 : (env.healC p.cluster).2.topics.has t = false := by
      obtain ⟨fuel, hq⟩ := hf p.cluster
      have := (C130_unknown cenv t hn fuel p.cluster).1 h
      rwa [hq] at this
    rw [C34_unknown cfg env p t a hc h h2]
    exact ⟨rfl, rfl, h2⟩

/-- **C130** fails for consumers: nothing is fetched of a topic that is not there, though brokers
would create it if they were asked about it; and so it stays, call after call. -/
theorem C130_consume (cfg : CCfg β δ) (oenv : OffsetEnv) (env : ConsumeEnv Unit β)
    (cenv : ClusterEnv) (t : String) (start : Start) (hn : NotThere cenv t)
    (hf : HealsWith cenv env.heal) (ht : ∀ n (c : Single), env.tick n c = c)
    (ho : oenv.outcomes [] = []) (c : Single) (hh : c.heal = false)
    (h : partitionsOf c.cluster t = []) :
    (∀ reqs, CAct.fetch reqs ∉ (c.consume cfg oenv env t start).2.2) ∧
    (c.determineSent oenv t start).2.2 = [] ∧
    (c.consume cfg oenv env t start).2.1.heal = false ∧
    partitionsOf (c.consume cfg oenv env t start).2.1.cluster t = [] := by
  have hd : c.determineSent oenv t start = (.ok (), { c with
      cluster := { c.cluster with topics := (c.cluster.topics.getDefault t []).1 } }, []) := by
    rcases determine_unknown oenv t start c h hh with h | ⟨o, h1, h2⟩
    · exact h
    · exact absurd (h1.symm.trans ho) h2
  have hdet : Single.determine oenv t start c = (.ok (), { c with
      cluster := { c.cluster with topics := (c.cluster.topics.getDefault t []).1 } }) := by
    unfold Single.determine; rw [hd]
  have hsync : ∀ c : Single, c.heal = false → partitionsOf c.cluster t = [] →
      (∀ reqs, CAct.fetch reqs ∉ (Consumer.consumeSynced Single.allocation cfg env t c).2.2) ∧
      (Consumer.consumeSynced Single.allocation cfg env t c).2.1.heal = false ∧
      partitionsOf (Consumer.consumeSynced Single.allocation cfg env t c).2.1.cluster t = [] := by
    intro c hh h
    have hnone : ∀ cl : Cluster, partitionsOf cl t = [] → allocated cl.topics t = .none := by
      intro cl h
      unfold partitionsOf at h
      unfold allocated
      split
      · rename_i heq; rw [heq] at h; simp at h
      · rfl
    have h2 : partitionsOf (env.heal c.cluster).2 t = [] := by
      obtain ⟨fuel, hq⟩ := hf c.cluster
      have := (C130_unknown cenv t hn fuel c.cluster).2 h
      rwa [hq] at this
    unfold Consumer.consumeSynced
    simp only [Single.allocation, hnone _ h]
    cases he : env.heal c.cluster with
    | mk r cl =>
      rw [he] at h2
      cases r with
      | error e => simp only [ht]; exact ⟨by simp, hh, h2⟩
      | ok u => simp only [ht, hnone _ h2]; exact ⟨by simp, hh, h2⟩
  have hp1 : partitionsOf { c.cluster with topics := (c.cluster.topics.getDefault t []).1 } t = [] := by
    unfold partitionsOf
    simp only
    rw [getDefault_getD]; exact h
  refine ⟨?_, by rw [hd], ?_, ?_⟩
  all_goals
    unfold Single.consume Consumer.consume
    split
  · simp
  · split
    · exact (hsync c hh h).1
    · rw [hdet]
      simp only [ht]
      intro reqs hr
      rcases List.mem_cons.1 hr with hr | hr
      · cases hr
      · exact (hsync _ (by exact hh) (by exact hp1)).1 reqs hr
  · exact hh
  · split
    · exact (hsync c hh h).2.1
    · rw [hdet]
      simp only [ht]
      exact (hsync _ (by exact hh) (by exact hp1)).2.1
  · exact h
  · split
    · exact (hsync c hh h).2.2
    · rw [hdet]
      simp only [ht]
      exact (hsync _ (by exact hh) (by exact hp1)).2.2

/-! ### Concrete cases -/

/-- A broker that has topic `"a"`, and creates each topic that it is asked about. -/
def exCreates : ClusterEnv where
  ask _ names _ :=
    if names = [] then .ok ⟨[⟨7, "h", 9092⟩], [⟨0, "a", [⟨0, 0, 7⟩]⟩]⟩
    else .ok ⟨[⟨7, "h", 9092⟩], names.map fun t => ⟨0, t, [⟨0, 0, 7⟩]⟩⟩
  connect _ _ := .none

/-- A client of that broker. -/
def exClient : Cluster := ⟨[(7, ⟨"h", 9092, false⟩)], [("a", [0])], [("a", [(0, 7)])]⟩

theorem exCreates_notThere : NotThere exCreates "t" := by
  intro n names id m hn h x hx
  unfold exCreates at h
  simp only at h
  split at h
  · cases h
    simp only [List.mem_singleton] at hx
    subst hx
    decide
  · cases h
    obtain ⟨y, hy, rfl⟩ := List.mem_map.1 hx
    intro he
    exact hn (by simpa using he ▸ hy)

/-- What `heal()` does with that broker. -/
def exHealC (cl : Cluster) : Res Unit × Cluster :=
  (match (cl.heal exCreates 3 .none).1 with
    | .raised e => .error e
    | _ => .ok (), (cl.heal exCreates 3 .none).2)

theorem exCreates_heals : HealsWith exCreates exHealC := by
  intro cl
  refine ⟨3, ?_⟩
  have h : (cl.heal exCreates 3 .none).1 ≠ .running := by
    refine C91_ends exCreates 0 .none cl (fun _ _ _ => rfl) ?_ 3 (by omega)
    rintro n - names id m h t ⟨x, hx, -, hl⟩
    unfold exCreates at h
    simp only at h
    have hx' : x.error = 0 ∧ x.parts = [⟨0, 0, 7⟩] ∧ m.brokers = [⟨7, "h", 9092⟩] := by
      split at h
      · cases h
        simp only [List.mem_singleton] at hx
        subst hx
        exact ⟨rfl, rfl, rfl⟩
      · cases h
        obtain ⟨y, _, rfl⟩ := List.mem_map.1 hx
        exact ⟨rfl, rfl, rfl⟩
    obtain ⟨h1, h2, h3⟩ := hx'
    rw [h1, h2, h3] at hl
    simp at hl
  unfold exHealC
  cases hr : cl.heal exCreates 3 .none with
  | mk r cl' =>
    rw [hr] at h
    cases r with
    | done u => rfl
    | raised e => rfl
    | running => exact absurd rfl h

/-- What a consumer of that client has to do with. -/
def exCreatesConsumer : ConsumeEnv Unit Nat := { exServe (fun _ => []) with heal := exHealC }

/-- **C130** is false of the code: the broker would create the topic, and does so once it is asked
about it, as the first line has it; but neither `produce` nor `consume` ask. -/
theorem C130_false :
    getMetadata (exCreates.ask 0 ["t"]) exClient.conns =
      .ok ⟨[⟨7, "h", 9092⟩], [⟨0, "t", [⟨0, 0, 7⟩]⟩]⟩ ∧
    exClient.heal exCreates 3 .none = (.done (), exClient) ∧
    (Producer.new exClient 1).produce exPCfg { exFlush (exPAnswer 0) with healC := exHealC } "t" 5 =
      (.ok (), Producer.new exClient 1, []) ∧
    ((Single.new exClient).consume exCCfg (exOffsets 0 [0]) exCreatesConsumer "t" .unset).1 =
      .ok (some []) := by decide +kernel

-- Non-vacuity of C130_not_asked, C130_unknown, C130_produce and C130_consume.
example : NotThere exCreates "t" ∧
    SameButFor "t" exCreates { exCreates with
      ask := fun n names => if "t" ∈ names then fun _ => .error .streamClosed
        else exCreates.ask n names } ∧
    HealsWith exCreates exHealC ∧ exClient.topics.has "t" = false ∧
    partitionsOf exClient "t" = [] ∧ (exOffsets 0 [0]).outcomes [] = [] :=
  ⟨exCreates_notThere, ⟨fun n names h => by simp [h], rfl⟩, exCreates_heals, by decide +kernel,
    by decide +kernel, rfl⟩

end Kiel
