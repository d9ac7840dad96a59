import Verif.Props.Cluster
import Verif.Lemmas.Allocator
import Verif.Lemmas.IntText
/-
C127: bootstrap hosts as they are given to clients.
-/
set_option autoImplicit false
namespace Kiel
open Spec

/-- A bootstrap entry, as an application means it: a host, and a port unless it is Kafka's. -/
structure Spec.Entry where
  host : List Char
  port : Option Nat

/-- How it is written. -/
def Spec.Entry.text (e : Entry) : List Char :=
  match e.port with
  | .none => e.host
  | some p => e.host ++ ':' :: (toString p).toList

/-- Where it is: Kafka's port is 9092. -/
def Spec.Entry.address (e : Entry) : List Char × Int :=
  (e.host, match e.port with | .none => 9092 | some p => (p : Int))

theorem split_at_colon (s : List Char) (h : ':' ∈ s) : ∃ a b, s = a ++ ':' :: b ∧ ':' ∉ a := by
  induction s with
  | nil => simp at h
  | cons c s ih =>
    by_cases hc : c = ':'
    · exact ⟨[], s, by simp [hc], by simp⟩
    · obtain ⟨a, b, rfl, ha⟩ := ih (by simpa [Ne.symm hc] using h)
      exact ⟨c :: a, b, rfl, by simp [Ne.symm hc, ha]⟩

theorem parseHost_text (e : Entry) (h : ':' ∉ e.host) : parseHost e.text = .ok e.address := by
  obtain ⟨host, port⟩ := e
  simp only at h
  cases port with
  | none => simp [parseHost, Entry.text, Entry.address, h, defaultPort]
  | some p =>
    have hp : (toString p).toList = (strInt (p : Int)).toList := by
      rw [strInt_eq]; rfl
    simp only [parseHost, Entry.text, Entry.address, hp]
    rw [splitColon_append _ _ h, splitColon_plain _ (strInt_plain _)]
    simp [pyInt?_strInt]

/-- **C127**, for hosts whose names hold no colon: `start` tries the hosts in the order in which
they are given, each at the port that is given with it, or at 9092; the answer of the first that
can be connected to decides: it is healed with that metadata, or raises the exception of the
request; if there is none, `NoBrokersError`.  Missing from the full claim: IPv6 addresses
(`C127_false`). -/
theorem C127_start_partial (connect : List Char × Int → Option Exc)
    (ask : List Char × Int → Res Metadata) (env : ClusterEnv) (fuel : Nat) (cl : Cluster)
    (es : List Entry) (h : ∀ e ∈ es, ':' ∉ e.host) :
    cl.start connect ask env fuel (es.map Entry.text) =
      match (es.map Entry.address).find? fun a => (connect a).isNone with
      | .none => (.raised .noBrokers, cl)
      | some a =>
        match ask a with
        | .error e => (.raised e, cl)
        | .ok m => cl.heal env fuel (some m) := by
  have hb : bootstrap connect ask (es.map Entry.text) =
      match (es.map Entry.address).find? fun a => (connect a).isNone with
      | .none => .ok .none
      | some a =>
        match ask a with
        | .error e => .error e
        | .ok m => .ok (some m) := by
    induction es with
    | nil => rfl
    | cons e es ih =>
      simp only [List.mem_cons, forall_eq_or_imp] at h
      simp only [List.map_cons, bootstrap, parseHost_text e h.1, List.find?_cons]
      cases connect e.address with
      | none => rfl
      | some x => simpa using ih h.2
  unfold Cluster.start
  rw [hb]
  cases (es.map Entry.address).find? fun a => (connect a).isNone with
  | none => rfl
  | some a => cases ha : ask a <;> simp only [ha]

/-- **C127**: an entry is taken for a host and a port only if it is written as such: it is the host
itself, and the port is 9092, or it is the host, one colon, and text that Python's `int` reads as
the port. -/
theorem C127_reads (s host : List Char) (port : Int) (h : parseHost s = .ok (host, port)) :
    ':' ∉ host ∧ (s = host ∧ port = 9092 ∨
      ∃ t, s = host ++ ':' :: t ∧ ':' ∉ t ∧ IntText t port) := by
  simp only [← pyInt?_iff]
  unfold parseHost at h
  split at h
  · rename_i hc
    obtain ⟨a, b, rfl, ha⟩ := split_at_colon _ hc
    rw [splitColon_append _ _ ha] at h
    by_cases hb : ':' ∈ b
    · obtain ⟨c, d, rfl, hc'⟩ := split_at_colon _ hb
      rw [splitColon_append _ _ hc'] at h
      have := splitColon_ne_nil d
      cases hd : splitColon d with
      | nil => exact absurd hd this
      | cons x y => rw [hd] at h; simp at h
    · rw [splitColon_plain _ hb] at h
      simp only at h
      split at h
      · rename_i p hp
        cases h
        exact ⟨ha, .inr ⟨b, rfl, hb, hp⟩⟩
      · cases h
  · rename_i hc
    cases h
    exact ⟨hc, .inl ⟨rfl, rfl⟩⟩

/-- **C127**: and an entry that is written as a host without colons, or as such a host, one colon and
any text for a number, with white space, sign and underscores as `int` allows, is taken for them. -/
theorem C127_taken (host : List Char) (hh : ':' ∉ host) :
    parseHost host = .ok (host, 9092) ∧
    ∀ t port, ':' ∉ t → IntText t port → parseHost (host ++ ':' :: t) = .ok (host, port) := by
  constructor
  · unfold parseHost
    rw [if_neg hh]; rfl
  · intro t port ht hi
    unfold parseHost
    rw [if_pos (by simp), splitColon_append _ _ hh, splitColon_plain _ ht]
    simp only [(pyInt?_iff _ _).2 hi]

/-- **C127**: an entry with more than one colon, or with anything but a number after its colon, has
`start` raise `ValueError` as soon as it is reached, whichever hosts follow. -/
theorem C127_refused (connect : List Char × Int → Option Exc)
    (ask : List Char × Int → Res Metadata) (env : ClusterEnv) (fuel : Nat) (cl : Cluster)
    (pre : List Entry) (s : List Char) (post : List (List Char)) (hpre : ∀ e ∈ pre, ':' ∉ e.host)
    (hdown : ∀ e ∈ pre, connect e.address ≠ .none)
    (hs : 2 ≤ s.count ':' ∨ ∃ a t, s = a ++ ':' :: t ∧ ':' ∉ a ∧ ':' ∉ t ∧ ∀ v, ¬ IntText t v) :
    cl.start connect ask env fuel (pre.map Entry.text ++ s :: post) = (.raised .valueError, cl) := by
  have hp : parseHost s = .error .valueError := by
    cases hr : parseHost s with
    | ok x =>
      exfalso
      obtain ⟨host, port⟩ := x
      obtain ⟨h1, h2⟩ := C127_reads s host port hr
      have hz : ∀ l : List Char, ':' ∉ l → l.count ':' = 0 := fun l h => List.count_eq_zero.2 h
      rcases h2 with ⟨rfl, -⟩ | ⟨t, rfl, h3, h4⟩
      · rcases hs with hs | ⟨a, t, rfl, -⟩
        · rw [hz _ h1] at hs; omega
        · simp at h1
      · rcases hs with hs | ⟨a, t', he, ha, ht, hn⟩
        · rw [List.count_append, List.count_cons, hz _ h1, hz _ h3] at hs
          simp at hs
        · have e1 := splitColon_append host t h1
          rw [he, splitColon_append _ _ ha, splitColon_plain _ ht, splitColon_plain _ h3] at e1
          simp only [List.cons.injEq, and_true] at e1
          exact hn port (e1.2 ▸ h4)
    | error e =>
      unfold parseHost at hr
      split at hr
      · split at hr
        · split at hr
          · cases hr
          · cases hr; rfl
        · cases hr; rfl
      · cases hr
  have hb : bootstrap connect ask (pre.map Entry.text ++ s :: post) = .error .valueError := by
    induction pre with
    | nil => simp [bootstrap, hp]
    | cons e es ih =>
      simp only [List.mem_cons, forall_eq_or_imp] at hpre hdown
      simp only [List.map_cons, List.cons_append, bootstrap, parseHost_text e hpre.1]
      cases hc : connect e.address with
      | none => exact absurd hc hdown.1
      | some x => exact ih hpre.2 hdown.2
  unfold Cluster.start
  rw [hb]

/-- **C127** is false of the code: IPv6 addresses are not taken, with or without a port, although
they could be connected to and other hosts follow. -/
theorem C127_false : ∀ s ∈ ["::1", "fe80::1", "[::1]:9092"],
    Cluster.new.start (fun _ => .none) (fun _ => .ok ⟨[], []⟩)
      ⟨fun _ _ _ => .ok ⟨[], []⟩, fun _ _ => .none⟩ 5 [s.toList, "kafka01".toList] =
    (.raised .valueError, Cluster.new) := by
  intro s hs
  refine C127_refused _ _ _ _ _ [] s.toList _ (by simp) (by simp) (.inl ?_)
  simp only [List.mem_cons, List.not_mem_nil, or_false] at hs
  rcases hs with rfl | rfl | rfl <;> decide +kernel

-- Non-vacuity of C127.
example : (⟨"kafka01".toList, .none⟩ : Entry).text = "kafka01".toList ∧
    (⟨"kafka01".toList, some 9093⟩ : Entry).text = "kafka01:9093".toList ∧
    (⟨"kafka01".toList, some 9093⟩ : Entry).address = ("kafka01".toList, 9093) := by
  decide +kernel
example : ∃ a t, "kafka01:x".toList = a ++ ':' :: t ∧ ':' ∉ a ∧ ':' ∉ t ∧ ∀ v, ¬ IntText t v :=
  ⟨"kafka01".toList, "x".toList, by decide +kernel, by decide, by decide, fun v h => by
    have h1 := (pyInt?_iff _ _).2 h
    have h2 : pyInt? "x".toList = .none := by decide +kernel
    rw [h2] at h1
    cases h1⟩
example : IntText " 9_093\n".toList 9093 := (pyInt?_iff _ _).1 (by decide +kernel)
example : ∀ t ∈ ["9__093", "_9093", "9093_", "9 093", "", "+", "- 1"], ∀ v, ¬ IntText t.toList v := by
  intro t ht v h
  have h1 := (pyInt?_iff _ _).2 h
  have h2 : ∀ t ∈ ["9__093", "_9093", "9093_", "9 093", "", "+", "- 1"], pyInt? t.toList = .none := by
    decide +kernel
  rw [h2 t ht] at h1
  cases h1

end Kiel
