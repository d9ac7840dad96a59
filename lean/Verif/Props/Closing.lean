import Verif.Model.Closing
import Verif.Model.Single
import Verif.Props.Startup
import Verif.Props.Consumer
import Verif.Props.Producer
/- C72: closing a client closes its connections. -/
set_option autoImplicit false
namespace Kiel
open Spec

/-- All connections are closed; none has been forgotten. -/
structure Spec.AllClosed (before after : Cluster) : Prop where
  same : after.conns.map (fun e => (e.1, e.2.host, e.2.port)) =
    before.conns.map (fun e => (e.1, e.2.host, e.2.port))
  closed : ∀ e ∈ after.conns, e.2.closing = true

theorem allClosed_stop (cl : Cluster) : AllClosed cl cl.stop := by
  refine ⟨by simp [Cluster.stop], ?_⟩
  intro e he
  obtain ⟨x, _, rfl⟩ := List.mem_map.1 he
  rfl

/-- **C72**: closing a `SingleConsumer` closes every connection. -/
theorem C72_single (c : Single) : c.close.closing = true ∧ AllClosed c.cluster c.close.cluster :=
  ⟨rfl, allClosed_stop _⟩

/-- **C72** (partial): closing a `GroupedConsumer` closes every connection if the group can be
left and the connection to zookeeper stopped and closed; otherwise it closes none, and raises. -/
theorem C72_grouped_partial {σ : Type} (leave stop close : σ → Res Unit × σ) (s s' : σ)
    (c c' : Grouped) (r : Res Unit) (h : c.close leave stop close s = (r, s', c')) :
    c'.closing = true ∧
    (r = .ok () ↔ ∃ s1 s2, leave s = (.ok (), s1) ∧ stop s1 = (.ok (), s2) ∧
      close s2 = (.ok (), s')) ∧
    (r = .ok () → AllClosed c.cluster c'.cluster) ∧
    (r ≠ .ok () → c'.cluster = c.cluster) := by
  simp only [Grouped.close, allocatorStop, attempt] at h
  rcases h1 : leave s with ⟨_ | _, s1⟩ <;> simp only [h1] at h
  · cases h; simp
  · rcases h2 : stop s1 with ⟨_ | _, s2⟩ <;> simp only [h2] at h
    · cases h; simp [h2]
    · rcases h3 : close s2 with ⟨_ | _, s3⟩ <;> simp only [h3] at h
      · cases h; simp [h2, h3]
      · cases h
        refine ⟨rfl, ⟨fun _ => ⟨s1, s2, by simp, by simp [h2], by simp [h3]⟩, fun _ => rfl⟩,
          fun _ => allClosed_stop _, fun h => absurd rfl h⟩

variable {κ β γ : Type}

/-- **C72** (partial): closing a `Producer` closes every connection it then has, if the final
flush does not raise. -/
theorem C72_producer_partial (env : FlushEnv κ β γ) (p p' : Producer κ β) (reqs : List (PReq γ))
    (h : p.close env = (.ok (), p', reqs)) :
    ∃ p1, { p with closing := true }.flush env = (.ok (), p1, reqs) ∧
      AllClosed p1.cluster p'.cluster := by
  simp only [Producer.close] at h
  rcases hf : { p with closing := true }.flush env with ⟨_ | _, p1, reqs1⟩ <;>
    simp only [hf] at h
  · cases h
  · cases h
    exact ⟨p1, hf, allClosed_stop _⟩

/-- **C72** is false of the code: if a message cannot be placed, closing raises and closes
nothing. -/
theorem C72_producer_raises (env : FlushEnv κ β γ) (p p1 : Producer κ β) (e : Exc)
    (h : { p with closing := true }.prepare env.pick env.comp = (.error e, p1)) :
    (p.close env).1 = .error e ∧ (p.close env).2.1.cluster.conns = p.cluster.conns := by
  have hc : p1.cluster.conns = p.cluster.conns := by
    unfold Producer.prepare at h
    split at h
    · cases h
    · obtain ⟨g1, _⟩ := routeTopics_ok env.pick 0 p.unsent.reverse p.cluster p.cluster ⟨[], []⟩
        (SameView.refl _)
      rcases hr : routeTopics env.pick 0 p.unsent.reverse p.cluster ⟨[], []⟩ with ⟨_ | r, cl, rest⟩
      · simp only [hr] at h g1
        cases h
        exact g1.conns
      · simp only [hr] at h g1
        rcases hb : buildRequests env.comp r.ordered p.sent p.lastId [] with ⟨_ | _, sent, n⟩
        · simp only [hb] at h
          cases h
          exact g1.conns
        · simp only [hb] at h
          cases h
  have hf : { p with closing := true }.flush env = (.error e, p1, []) := by
    simp only [Producer.flush, h]
  simp only [Producer.close, hf]
  exact ⟨trivial, hc⟩

/-- **C72** is false of the code: the topic has left the metadata; closing raises `IndexError` and
leaves the connection open. -/
theorem C72_false :
    let p := { exProducer with cluster := { exPCluster with topics := [], leaders := [] } }
    (p.close (exFlush (exPAnswer 0))).1 = .error .indexError ∧
    (p.close (exFlush (exPAnswer 0))).2.1.cluster.conns = [(7, ⟨"h", 9092, false⟩)] := by
  decide +kernel

-- Non-vacuity.
example : exConsumer.close.cluster.conns = [(7, ⟨"h", 9092, true⟩)] := by decide +kernel
example : (exProducer.close (exFlush (exPAnswer 0))).1 = .ok () ∧
    (exProducer.close (exFlush (exPAnswer 0))).2.1.cluster.conns = [(7, ⟨"h", 9092, true⟩)] := by
  decide +kernel
example : ((Grouped.new exPCluster).close (fun s => (.ok (), s + 1)) (fun s => (.ok (), s + 10))
    (fun s => (.ok (), s + 100)) (0 : Nat)) = (.ok (), 111,
      { Grouped.new { exPCluster with conns := [(7, ⟨"h", 9092, true⟩)] } with closing := true }) := by
  decide +kernel
example : ((Grouped.new exPCluster).close (fun s => (.ok (), s + 1)) (fun s => (.error .typeError, s))
    (fun s => (.ok (), s + 100)) (0 : Nat)) = (.error .typeError, 1,
      { Grouped.new exPCluster with closing := true }) := by decide +kernel

end Kiel
