import Verif.Spec.CallsHistory
import Verif.Spec.CallsPipeline
/-
Vocabulary for C118: messages of one partition, from a producer to a consumer, in order.
-/
set_option autoImplicit false
namespace Kiel.Spec

variable {α κ β γ δ σ : Type}

/-- Things that happen one after the other, as in `Runs`, but:
* nothing is required of what requests are answered, except that no answer reports a retriable error for
  partition `part` of topic `t`;
* `f` chooses partitions, by key;
* requests for that partition are stored, if they are, in the order in which they were sent.
`acc`: what the producer accepts; `foreign`: what others store, and where; `outs`: what the consumer
returns. -/
inductive KeyedRuns (pcfg : PCfg α κ β) (dec : γ → List (Msg κ β)) (reads : Reads σ β δ) (f : κ → Int)
    (t : String) (part : Int) (w0 : Site α κ β γ σ) :
    List (String × Msg κ β) → List ((String × Int) × β) → List (String × δ) → Site α κ β γ σ → Prop
  | nil : KeyedRuns pcfg dec reads f t part w0 [] [] [] w0
  | call {acc : List (String × Msg κ β)} {foreign : List ((String × Int) × β)}
      {outs : List (String × δ)} {w : Site α κ β γ σ} (e : ProduceEv α κ β γ)
      (h : KeyedRuns pcfg dec reads f t part w0 acc foreign outs w)
      (hk : KeyedBy f dec e) (hr : NotRetried t part e) :
      KeyedRuns pcfg dec reads f t part w0 (acc ++ acceptedIn pcfg w.producer e) foreign outs
        { w with producer := (w.producer.step pcfg e).2, given := storing pcfg dec w.producer e w.given }
  | stores {acc : List (String × Msg κ β)} {foreign : List ((String × Int) × β)}
      {outs : List (String × δ)} {w : Site α κ β γ σ} (corr : Int) (t' : String) (part' : Int)
      (ms : List (Msg κ β)) (logs : String → Int → List (Int × β))
      (h : KeyedRuns pcfg dec reads f t part w0 acc foreign outs w)
      (hm : heldFor w.given (corr, t', part') = some ms) (hn : (corr, t', part') ∉ w.done)
      (hturn : t' = t → part' = part → ∀ c, (c, t, part) ∈ w.done → c < corr)
      (hg : Grows w.logs logs fun x y => if x = t' ∧ y = part' then ms.map (·.value) else []) :
      KeyedRuns pcfg dec reads f t part w0 acc foreign outs
        { w with done := (corr, t', part') :: w.done, logs := logs }
  | foreign {acc : List (String × Msg κ β)} {foreign : List ((String × Int) × β)}
      {outs : List (String × δ)} {w : Site α κ β γ σ} (t' : String) (part' : Int) (v : β)
      (logs : String → Int → List (Int × β))
      (h : KeyedRuns pcfg dec reads f t part w0 acc foreign outs w)
      (hg : Grows w.logs logs fun x y => if x = t' ∧ y = part' then [v] else []) :
      KeyedRuns pcfg dec reads f t part w0 acc (foreign ++ [((t', part'), v)]) outs
        { w with logs := logs }
  | consumes {acc : List (String × Msg κ β)} {foreign : List ((String × Int) × β)}
      {outs outs' : List (String × δ)} {w : Site α κ β γ σ} {c : σ}
      (h : KeyedRuns pcfg dec reads f t part w0 acc foreign outs w)
      (hr : reads w.logs w.consumer outs' c) :
      KeyedRuns pcfg dec reads f t part w0 acc foreign (outs ++ outs') { w with consumer := c }

/-- What a consumer can return of stored values. -/
def legible (cfg : CCfg β δ) (vs : List β) : List δ :=
  (vs.filterMap (decode cfg)).filter cfg.truthy

/-- `out` is in order: what was stored at first (`before`), then some of `own` in this order, and between
them, anywhere, all of `foreign` in this order; `out` is some of that, in this order. -/
def KeepsOrder (cfg : CCfg β δ) (before own foreign : List β) (out : List δ) : Prop :=
  ∃ marked : List (Bool × β), ((marked.filter fun x => x.1).map (·.2)).Sublist own ∧
    ((marked.filter fun x => !x.1).map (·.2)) = foreign ∧
    out.Sublist (legible cfg (before ++ marked.map (·.2)))

end Kiel.Spec
