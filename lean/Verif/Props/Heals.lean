import Verif.Lemmas.Dict
import Verif.Spec.Heals
/-
`heal()`s of one cluster that run at the same time.
-/
set_option autoImplicit false
namespace Kiel

open Spec

/-! ### C79, C80: connections, with several `heal()`s under way -/

/-- `shut` only ever closes. -/
theorem Shared.shut_made (s : Shared) (n m : Nat) (c : CConn)
    (h : (s.shut n).made[m]? = some c) (hc : c.closing = false) : s.made[m]? = some c := by
  simp only [Shared.shut, List.getElem?_modify] at h
  rcases hm : s.made[m]? with _ | d
  · simp [hm] at h
  · simp only [hm, Option.map_eq_map, Option.map_some, Option.some.injEq] at h
    split at h
    · subst h; simp at hc
    · exact congrArg some h

theorem Shared.shut_conns (s : Shared) (n : Nat) : (s.shut n).conns = s.conns := rfl

/-- What the steps of a round leave as it is. -/
structure Later (s s' : Shared) : Prop where
  conns : s'.conns = s.conns
  made : ∀ (m : Nat) (c : CConn), s'.made[m]? = some c → c.closing = false → s.made[m]? = some c

theorem Later.refl (s : Shared) : Later s s := ⟨rfl, fun _ _ h _ => h⟩

theorem Later.trans {a b c : Shared} (h : Later a b) (g : Later b c) : Later a c :=
  ⟨g.conns.trans h.conns, fun m d hd hc => h.made m d (g.made m d hd hc) hc⟩

theorem Later.shut (s : Shared) (n : Nat) : Later s (s.shut n) := ⟨rfl, s.shut_made n⟩

theorem dropAll_later (ds : List Int) : ∀ (s : Shared), Later s (dropAll ds s).2 ∧
    ((∀ d ∈ ds, s.conns.has d = true) → (dropAll ds s).1 = .ok ()) := by
  induction ds with
  | nil => intro s; exact ⟨Later.refl s, fun _ => rfl⟩
  | cons d ds ih =>
    intro s
    rcases hd : s.conns.get? d with _ | n
    · rw [dropAll, hd]
      refine ⟨Later.refl s, fun h => ?_⟩
      have := h d List.mem_cons_self
      simp [Dict.has, hd] at this
    · rw [dropAll, hd]
      obtain ⟨h1, h2⟩ := ih (s.shut n)
      exact ⟨(Later.shut s n).trans h1,
        fun h => h2 fun d' hd' => by
          rw [Shared.shut_conns]; exact h d' (List.mem_cons_of_mem _ hd')⟩

theorem endRound_later (toDrop missing : List Int) (topics : List TopicMd) (s : Shared) :
    Later s (endRound toDrop missing topics s).2.2 ∧
    ((∀ d ∈ toDrop, s.conns.has d = true) → ∀ e,
      (endRound toDrop missing topics s).1 ≠ .raised e) ∧
    (∀ p, (endRound toDrop missing topics s).2.1 = some p → p = .asking) := by
  obtain ⟨h1, h2⟩ := dropAll_later toDrop s
  unfold endRound
  rcases hd : dropAll toDrop s with ⟨_ | _, s'⟩ <;> rw [hd] at h1 h2 <;> simp only
  · refine ⟨h1, fun h => ?_, by simp⟩
    exact absurd (h2 h) (by simp)
  · split
    · exact ⟨⟨h1.conns, h1.made⟩, by simp, by simp⟩
    · refine ⟨⟨h1.conns, h1.made⟩, by simp, ?_⟩
      rintro p h; exact (Option.some.inj h).symm

theorem brokersLoop_later (toDrop missing : List Int) (topics : List TopicMd) (bs : List BrokerMd) :
    ∀ (s : Shared), Later s (brokersLoop toDrop missing topics bs s).2.2 ∧
    ((∀ d ∈ toDrop, s.conns.has d = true) → ∀ e,
      (brokersLoop toDrop missing topics bs s).1 ≠ .raised e) ∧
    (∀ b todo td mi tp, (brokersLoop toDrop missing topics bs s).2.1 =
      some (.connecting b todo td mi tp) → td = toDrop ∧ s.conns.has b.id = false) := by
  induction bs with
  | nil =>
    intro s
    obtain ⟨h1, h2, h3⟩ := endRound_later toDrop missing topics s
    exact ⟨h1, h2, fun b todo td mi tp h => by cases h3 _ h⟩
  | cons b bs ih =>
    intro s
    rw [brokersLoop]
    split
    · exact ih s
    · rename_i hb
      refine ⟨Later.refl s, fun _ _ => by simp, ?_⟩
      intro b' todo td mi tp h
      simp only [Option.some.injEq, HealPhase.connecting.injEq] at h
      obtain ⟨rfl, _, rfl, _, _⟩ := h
      exact ⟨rfl, by simpa using hb⟩

/-- What is true at any time, as long as `heal()`s come one after the other. -/
structure Sound (h : Healing) : Prop where
  one : h.heals = [] ∨ ∃ i p, h.heals = [(i, p)]
  nodup : h.shared.conns.keys.Nodup
  used : ∀ n, IsOpen h n → InUse h n
  waits : ∀ i b todo td mi tp, (i, HealPhase.connecting b todo td mi tp) ∈ h.heals →
    h.shared.conns.has b.id = false ∧ ∀ d ∈ td, h.shared.conns.has d = true

/-- What becomes of the one `heal()` after a step that ends with the loop over the brokers. -/
theorem sound_put {h : Healing} {i : Nat} (hh : ∀ e ∈ h.heals, e.1 = i)
    (ho : h.heals = [] ∨ ∃ i p, h.heals = [(i, p)]) {toDrop missing : List Int}
    {topics : List TopicMd} {bs : List BrokerMd} {s : Shared} (hn : s.conns.keys.Nodup)
    (hu : ∀ (n : Nat) (c : CConn), s.made[n]? = some c → c.closing = false →
      ∃ b, s.conns.get? b = some n)
    (hd : ∀ d ∈ toDrop, s.conns.has d = true) :
    Sound (h.put i (brokersLoop toDrop missing topics bs s)).2 ∧
    ∀ e, (h.put i (brokersLoop toDrop missing topics bs s)).1 ≠ .raised e := by
  obtain ⟨⟨c1, c2⟩, h2, h3⟩ := brokersLoop_later toDrop missing topics bs s
  rcases hr : brokersLoop toDrop missing topics bs s with ⟨out, _ | p, s'⟩ <;>
    rw [hr] at c1 c2 h2 h3 <;> simp only at c1 c2 h2 h3
  · have he : h.heals.erase i = [] := by
      rw [List.eq_nil_iff_forall_not_mem]
      intro e he
      rw [Dict.mem_erase] at he
      exact he.2 (hh e he.1)
    refine ⟨⟨.inl he, by simpa [Healing.put, c1] using hn, ?_, ?_⟩, h2 hd⟩
    · rintro n ⟨c, g1, g2⟩
      obtain ⟨b, hb⟩ := hu n c (c2 n c g1 g2) g2
      exact ⟨b, by rw [← hb]; exact congrArg (·.get? b) c1⟩
    · intro i' b todo td mi tp hm
      simp only [Healing.put, he] at hm
      cases hm
  · have he : h.heals.set i p = [(i, p)] := by
      rcases ho with ho | ⟨i', p', ho⟩
      · rw [ho]; rfl
      · rw [ho] at hh ⊢
        have : i' = i := hh (i', p') List.mem_cons_self
        simp [Dict.set, this]
    refine ⟨⟨.inr ⟨i, p, he⟩, by simpa [Healing.put, c1] using hn, ?_, ?_⟩, h2 hd⟩
    · rintro n ⟨c, g1, g2⟩
      obtain ⟨b, hb⟩ := hu n c (c2 n c g1 g2) g2
      exact ⟨b, by rw [← hb]; exact congrArg (·.get? b) c1⟩
    · intro i' b todo td mi tp hm
      simp only [Healing.put, he, List.mem_singleton, Prod.mk.injEq] at hm
      obtain ⟨rfl, g⟩ := h3 b todo td mi tp (by rw [← hm.2])
      simp only [Healing.put, c1]
      exact ⟨g, hd⟩

theorem Shared.cull_conn {s : Shared} (hn : s.conns.keys.Nodup) {n : Nat} {b : Int}
    (h : s.conns.get? b = some n) {c : CConn} (hc : s.made[n]? = some c) (ho : c.closing = false) :
    s.cull.conns.get? b = some n := by
  refine Dict.get?_of_mem (hn.sublist (List.filter_sublist.map _)) ?_
  refine List.mem_filter.mpr ⟨Dict.mem_of_get? h, ?_⟩
  simp [Shared.conn, List.getD, hc, ho]

theorem sound_later {h : Healing} (hs : Sound h) {s : Shared} (hl : Later h.shared s) :
    Sound { h with shared := s } := by
  refine ⟨hs.one, by simpa [hl.conns] using hs.nodup, ?_, ?_⟩
  · rintro n ⟨c, g1, g2⟩
    obtain ⟨b, hb⟩ := hs.used n ⟨c, hl.made n c g1 g2, g2⟩
    exact ⟨b, by rw [← hb]; exact congrArg (·.get? b) hl.conns⟩
  · intro i b todo td mi tp hm
    have := hs.waits i b todo td mi tp hm
    simpa only [hl.conns] using this

theorem later_shutAll (ns : List Nat) : ∀ (s : Shared), Later s (ns.foldl Shared.shut s) := by
  induction ns with
  | nil => exact fun s => Later.refl s
  | cons n ns ih => exact fun s => (Later.shut s n).trans (ih _)

theorem sound_step {h : Healing} (hs : Sound h) {ev : HEv} (ha : Alone h ev) :
    Sound (h.step ev).2 ∧ ∀ e, (h.step ev).1 = .raised e → e = .noBrokers := by
  have hone : ∀ {i : Nat} {p : HealPhase}, h.heals.get? i = some p → ∀ e ∈ h.heals, e.1 = i := by
    intro i p hi e he
    rcases hs.one with ho | ⟨i', p', ho⟩
    · rw [ho] at he; cases he
    · rw [ho] at hi he
      rw [List.mem_singleton] at he
      subst he
      by_cases hne : i' = i
      · exact hne
      · simp [Dict.get?, hne] at hi
  have hdrop : ∀ (s : Shared) (m : Metadata),
      ∀ d ∈ s.conns.keys.filter (fun k => decide (k ∉ m.brokers.map (·.id))),
      s.conns.has d = true :=
    fun s m d hd => Dict.has_iff.mpr (List.mem_filter.mp hd).1
  cases ev with
  | heal i m =>
    have ha : h.heals = [] := ha
    have := sound_put (h := h) (i := i) (by simp [ha]) hs.one (missing := [])
      (topics := m.topics) (bs := m.brokers) (s := h.shared.cull)
      (hs.nodup.sublist (List.filter_sublist.map _)) (by
        intro n c g1 g2
        obtain ⟨b, hb⟩ := hs.used n ⟨c, g1, g2⟩
        exact ⟨b, Shared.cull_conn hs.nodup hb g1 g2⟩) (hdrop _ m)
    exact ⟨this.1, fun e he => absurd he (this.2 e)⟩
  | connected i =>
    simp only [Healing.step]
    split
    · rename_i b todo td mi tp hi
      obtain ⟨w1, w2⟩ := hs.waits i b todo td mi tp (Dict.mem_of_get? hi)
      have hb : b.id ∉ h.shared.conns.keys := fun hb => by
        rw [Dict.has_iff.mpr hb] at w1; cases w1
      have := sound_put (h := h) (hone hi) hs.one (toDrop := td) (missing := mi)
        (topics := tp) (bs := todo) (s := { h.shared with
          made := h.shared.made ++ [⟨b.host, b.port, false⟩]
          conns := h.shared.conns.set b.id h.shared.made.length })
        (Dict.nodup_set hs.nodup _ _) (by
          intro n c g1 g2
          rcases Nat.lt_trichotomy n h.shared.made.length with hlt | heq | hgt
          · rw [List.getElem?_append_left hlt] at g1
            obtain ⟨b', hb'⟩ := hs.used n ⟨c, g1, g2⟩
            refine ⟨b', ?_⟩
            simp only [Dict.get?_set]
            rw [if_neg]
            · exact hb'
            · rintro rfl
              rw [Dict.get?_eq_none.mpr hb] at hb'; cases hb'
          · exact ⟨b.id, by simp [Dict.get?_set, heq]⟩
          · rw [List.getElem?_eq_none (by simp; omega)] at g1; cases g1) (by
          intro d hd
          have := Dict.has_iff.mp (w2 d hd)
          refine Dict.has_iff.mpr ?_
          simp only [Dict.keys_set]
          split
          · exact this
          · exact List.mem_append_left _ this)
      exact ⟨this.1, fun e he => absurd he (this.2 e)⟩
    · exact ⟨hs, fun e he => by cases he⟩
  | failed i =>
    simp only [Healing.step]
    split
    · rename_i b todo td mi tp hi
      obtain ⟨w1, w2⟩ := hs.waits i b todo td mi tp (Dict.mem_of_get? hi)
      have := sound_put (h := h) (hone hi) hs.one (toDrop := td) (missing := addSet mi b.id)
        (topics := tp) (bs := todo) (s := h.shared) hs.nodup
        (fun n c g1 g2 => hs.used n ⟨c, g1, g2⟩) w2
      exact ⟨this.1, fun e he => absurd he (this.2 e)⟩
    · exact ⟨hs, fun e he => by cases he⟩
  | again i m =>
    simp only [Healing.step]
    split
    · rename_i hi
      have := sound_put (h := h) (hone hi) hs.one (missing := [])
        (topics := m.topics) (bs := m.brokers) (s := h.shared) hs.nodup
        (fun n c g1 g2 => hs.used n ⟨c, g1, g2⟩) (hdrop _ m)
      exact ⟨this.1, fun e he => absurd he (this.2 e)⟩
    · exact ⟨hs, fun e he => by cases he⟩
  | noMetadata i =>
    refine ⟨⟨?_, hs.nodup, hs.used, ?_⟩, fun e he => ?_⟩
    · rcases hs.one with ho | ⟨i', p', ho⟩
      · left; simp [Healing.step, ho, Dict.erase]
      · by_cases hi : i' = i
        · left; simp [Healing.step, ho, Dict.erase, hi]
        · right; exact ⟨i', p', by simp [Healing.step, ho, Dict.erase, hi]⟩
    · intro i' b todo td mi tp hm
      exact hs.waits i' b todo td mi tp (Dict.mem_erase.mp hm).1
    · simp only [Healing.step, HOut.raised.injEq] at he
      exact he.symm
  | lost n => exact ⟨sound_later hs (Later.shut _ n), fun e he => by cases he⟩
  | stop => exact ⟨sound_later hs (later_shutAll _ _), fun e he => by cases he⟩

theorem sound_course {h h' : Healing} {outs : List HOut} (hc : HCourse Alone h outs h')
    (hs : Sound h) : Sound h' ∧ ∀ e, HOut.raised e ∈ outs → e = .noBrokers := by
  induction hc with
  | nil h => exact ⟨hs, fun e he => by cases he⟩
  | cons ha hstep _ ih =>
    have := sound_step hs ha
    rw [hstep] at this
    obtain ⟨h1, h2⟩ := ih this.1
    refine ⟨h1, fun e he => ?_⟩
    rcases List.mem_cons.mp he with he | he
    · exact this.2 e he.symm
    · exact h2 e he

theorem sound_fresh : Sound freshHealing :=
  ⟨.inl rfl, by simp [freshHealing, Dict.keys], by rintro n ⟨c, h, _⟩; simp [freshHealing] at h,
    by intro i b todo td mi tp h; simp [freshHealing] at h⟩

/-- **C79** (partial): as long as no `heal()` begins while another is under way, every connection
that was made and is open is in use for a broker, whatever connections are lost meanwhile, and
however connecting and asking for metadata goes.
Missing: with `heal()`s that overlap this is false, see `C79_false`. -/
theorem C79_in_use_partial {h : Healing} {outs : List HOut}
    (hc : HCourse Alone freshHealing outs h) (n : Nat) (ho : IsOpen h n) : InUse h n :=
  (sound_course hc sound_fresh).1.used n ho

theorem Shared.shut_self (s : Shared) (n : Nat) (c : CConn) (h : (s.shut n).made[n]? = some c) :
    c.closing = true := by
  simp only [Shared.shut, List.getElem?_modify, if_true] at h
  rcases hm : s.made[n]? with _ | d
  · simp [hm] at h
  · simp only [hm, Option.map_eq_map, Option.map_some, Option.some.injEq] at h
    subst h; rfl

theorem shutAll_closed (ns : List Nat) : ∀ (s : Shared) (n : Nat), n ∈ ns → ∀ c,
    (ns.foldl Shared.shut s).made[n]? = some c → c.closing = true := by
  induction ns with
  | nil => intro s n hn; cases hn
  | cons m ns ih =>
    intro s n hn c hc
    rcases List.mem_cons.mp hn with rfl | hn
    · cases ho : c.closing
      · have := (later_shutAll ns (s.shut n)).made n c hc ho
        rw [s.shut_self n c this] at ho
        exact ho.symm
      · rfl
    · exact ih _ n hn c hc

/-- **C79** (partial), closing: under the same condition, `stop` leaves no connection open. -/
theorem C79_stopped_partial {h : Healing} {outs : List HOut}
    (hc : HCourse Alone freshHealing outs h) (n : Nat) : ¬ IsOpen (h.step .stop).2 n := by
  rintro ⟨c, g1, g2⟩
  have hl := later_shutAll h.shared.conns.vals h.shared
  obtain ⟨b, hb⟩ := C79_in_use_partial hc n ⟨c, hl.made n c g1 g2, g2⟩
  have hm : n ∈ h.shared.conns.vals := List.mem_map.mpr ⟨(b, n), Dict.mem_of_get? hb, rfl⟩
  rw [shutAll_closed _ _ n hm c g1] at g2
  cases g2

/-- **C80** (partial): as long as no `heal()` begins while another is under way, a `heal()` raises
nothing of its own: only what asking for metadata raises.
Missing: with `heal()`s that overlap this is false, see `C80_false`. -/
theorem C80_raises_partial {h : Healing} {outs : List HOut}
    (hc : HCourse Alone freshHealing outs h) (e : Exc) (he : HOut.raised e ∈ outs) :
    e = .noBrokers :=
  (sound_course hc sound_fresh).2 e he

/-! ### One `heal()` alone does what `Cluster.heal` does -/

/-- Different brokers have different connections, all of them made before. -/
structure Distinct (s : Shared) : Prop where
  nodup : s.conns.keys.Nodup
  lt : ∀ e ∈ s.conns, e.2 < s.made.length
  inj : ∀ e ∈ s.conns, ∀ e' ∈ s.conns, e.2 = e'.2 → e.1 = e'.1

theorem view_get? (s : Shared) (b : Int) :
    s.view.conns.get? b = (s.conns.get? b).map s.conn := by
  simp only [Shared.view]
  induction s.conns with
  | nil => rfl
  | cons e r ih =>
    simp only [List.map_cons, Dict.get?]
    split
    · rfl
    · exact ih

theorem view_has (s : Shared) (b : Int) : s.view.conns.has b = s.conns.has b := by
  simp [Dict.has, view_get?]

theorem view_keys (s : Shared) : s.view.conns.keys = s.conns.keys := by
  simp [Shared.view, Dict.keys]

theorem view_push {s : Shared} (hd : Distinct s) {b : Int} (hb : b ∉ s.conns.keys) (c : CConn) :
    ({ s with made := s.made ++ [c], conns := s.conns.set b s.made.length } : Shared).view =
      { s.view with conns := s.view.conns.set b c } := by
  have h1 : s.view.conns.set b c = s.view.conns ++ [(b, c)] :=
    Dict.set_of_not_mem (by rw [view_keys]; exact hb)
  rw [h1]
  simp only [Shared.view, Dict.set_of_not_mem hb, List.map_append, List.map_cons, List.map_nil,
    Cluster.mk.injEq, and_true]
  congr 1
  · refine List.map_congr_left fun e he => ?_
    simp [Shared.conn, List.getD, List.getElem?_append_left (hd.lt e he)]
  · simp [Shared.conn, List.getD]

theorem distinct_push {s : Shared} (hd : Distinct s) {b : Int} (hb : b ∉ s.conns.keys) (c : CConn) :
    Distinct { s with made := s.made ++ [c], conns := s.conns.set b s.made.length } := by
  refine ⟨Dict.nodup_set hd.nodup _ _, ?_, ?_⟩
  · simp only [Dict.set_of_not_mem hb, List.mem_append, List.mem_singleton, List.length_append,
      List.length_singleton]
    rintro e (he | rfl)
    · have := hd.lt e he; omega
    · simp
  · simp only [Dict.set_of_not_mem hb, List.mem_append, List.mem_singleton]
    rintro e (he | rfl) e' (he' | rfl) h
    · exact hd.inj e he e' he' h
    · have := hd.lt e he; simp only at h; omega
    · have := hd.lt e' he'; simp only at h; omega
    · rfl

theorem distinct_shut {s : Shared} (hd : Distinct s) (n : Nat) : Distinct (s.shut n) :=
  ⟨hd.nodup, fun e he => by simpa [Shared.shut] using hd.lt e he, hd.inj⟩

theorem set_eq_map {κ ν : Type} [DecidableEq κ] (d : Dict κ ν) (hn : d.keys.Nodup) (k : κ) (v : ν)
    (hk : k ∈ d.keys) : d.set k v = d.map fun e => if e.1 = k then (e.1, v) else e := by
  induction d with
  | nil => simp [Dict.keys] at hk
  | cons e r ih =>
    simp only [Dict.keys, List.map_cons, List.nodup_cons] at hn
    by_cases he : e.1 = k
    · have : (r.map fun e => if e.1 = k then (e.1, v) else e) = r.map id := by
        refine List.map_congr_left fun x hx => ?_
        rw [if_neg, id]
        rintro rfl
        exact hn.1 (he ▸ List.mem_map.mpr ⟨x, hx, rfl⟩)
      simp only [Dict.set, List.map_cons, he, if_true, this, List.map_id]
    · have hk' : k ∈ Dict.keys r := by
        simp only [Dict.keys, List.map_cons, List.mem_cons] at hk
        exact hk.resolve_left fun h => he h.symm
      simp only [Dict.set, List.map_cons, he, if_false, ih hn.2 hk']

theorem view_shut {s : Shared} (hd : Distinct s) {b : Int} {n : Nat}
    (h : s.conns.get? b = some n) :
    (s.shut n).view = { s.view with conns := abortConn s.view.conns b } := by
  have hm := Dict.mem_of_get? h
  have hb : b ∈ s.view.conns.keys := by
    rw [view_keys]; exact Dict.mem_keys.mpr ⟨n, hm⟩
  have hg : s.view.conns.get? b = some (s.conn n) := by rw [view_get?, h]; rfl
  simp only [abortConn, hg]
  rw [set_eq_map _ (by rw [view_keys]; exact hd.nodup) _ _ hb]
  simp only [Shared.view, Shared.shut, List.map_map, Cluster.mk.injEq, and_true]
  refine List.map_congr_left fun e he => ?_
  have hlt := hd.lt e he
  simp only [Function.comp, Shared.conn, List.getD, List.getElem?_modify]
  by_cases hen : n = e.2
  · have : e.1 = b := hd.inj e he (b, n) hm hen.symm
    rw [List.getElem?_eq_getElem (hen ▸ hlt)]
    subst hen
    simp [this, List.getElem?_eq_getElem hlt]
  · have : e.1 ≠ b := by
      intro hb
      have h1 := Dict.get?_of_mem hd.nodup he
      rw [hb, h] at h1
      exact hen (Option.some.inj h1)
    simp [this, hen, List.getElem?_eq_getElem hlt]

theorem view_dropAll (ds : List Int) : ∀ (s : Shared), Distinct s →
    (∀ d ∈ ds, s.conns.has d = true) →
    (dropAll ds s).2.view = { s.view with conns := ds.foldl abortConn s.view.conns } := by
  induction ds with
  | nil => intro s _ _; rfl
  | cons d ds ih =>
    intro s hd hh
    have h1 := hh d List.mem_cons_self
    rcases hg : s.conns.get? d with _ | n
    · simp [Dict.has, hg] at h1
    · rw [dropAll, hg]
      simp only
      rw [ih _ (distinct_shut hd n) fun d' hd' => by
        rw [Shared.shut_conns]; exact hh d' (List.mem_cons_of_mem _ hd')]
      rw [view_shut hd hg]
      rfl

/-- How a round goes on and ends if nothing else happens. -/
theorem round_end (connect : Nat → Option Exc) (i : Nat) (toDrop : List Int)
    (topics : List TopicMd) (bs : List BrokerMd) : ∀ (n : Nat) (missing : List Int) (s : Shared)
    (h : Healing), Distinct s → (∀ d ∈ toDrop, s.conns.has d = true) →
    (h.heals = [] ∨ ∃ p, h.heals = [(i, p)]) →
    ∃ evs, (∀ e ∈ evs, e = .connected i ∨ e = .failed i) ∧
      let r := h.put i (brokersLoop toDrop missing topics bs s)
      let q := addBrokers connect n bs s.view.conns missing
      let cl : Cluster := { s.view with conns := toDrop.foldl abortConn q.1 }
      let t := cl.processTopics topics
      let f := runHealing r.2 evs
      Distinct f.2.shared ∧ f.2.shared.view = t.2 ∧
      (r.1 :: f.1).getLast (by simp) = (if q.2 = [] ∧ t.1 = [] then .returned else .goesOn) ∧
      f.2.heals = if q.2 = [] ∧ t.1 = [] then [] else [(i, .asking)] := by
  induction bs with
  | nil =>
    intro n missing s h hd hh ho
    refine ⟨[], by simp, ?_⟩
    have h1 := (dropAll_later toDrop s).2 hh
    have h2 := view_dropAll toDrop s hd hh
    have h3 : Distinct (dropAll toDrop s).2 := by
      clear h1 h2
      induction toDrop generalizing s with
      | nil => exact hd
      | cons d ds ih =>
        rw [dropAll]
        split
        · exact hd
        · rename_i m hm
          exact ih (s.shut m) (distinct_shut hd m) fun d' hd' => by
            rw [Shared.shut_conns]; exact hh d' (List.mem_cons_of_mem _ hd')
    have hset : ∀ p, h.heals.set i p = [(i, p)] := by
      intro p
      rcases ho with ho | ⟨q, ho⟩ <;> simp [ho, Dict.set]
    have herase : h.heals.erase i = [] := by
      rcases ho with ho | ⟨q, ho⟩ <;> simp [ho, Dict.erase]
    rcases hr : dropAll toDrop s with ⟨_ | _, s'⟩ <;> rw [hr] at h1 h2 h3
    · cases h1
    · simp only at h2 h3
      simp only [brokersLoop, endRound, hr, addBrokers, h2, runHealing]
      split
      · rename_i hc
        simp only [Healing.put, hc, and_self, if_true, List.getLast_singleton, herase, and_true]
        refine ⟨⟨h3.nodup, h3.lt, h3.inj⟩, ?_⟩
        simp only [Shared.view, Cluster.processTopics, Cluster.mk.injEq, and_true] at h2 ⊢
        exact h2.1
      · rename_i hc
        simp only [Healing.put, hc, if_false, List.getLast_singleton, hset, and_true]
        refine ⟨⟨h3.nodup, h3.lt, h3.inj⟩, ?_⟩
        simp only [Shared.view, Cluster.processTopics, Cluster.mk.injEq, and_true] at h2 ⊢
        exact h2.1
  | cons b bs ih =>
    intro n missing s h hd hh ho
    by_cases hb : s.conns.has b.id = true
    · obtain ⟨evs, h1, h2⟩ := ih (n + 1) missing s h hd hh ho
      refine ⟨evs, h1, ?_⟩
      simp only [brokersLoop, hb, if_true, addBrokers, view_has]
      exact h2
    · have hset : ∀ p, h.heals.set i p = [(i, p)] := by
        intro p
        rcases ho with ho | ⟨q, ho⟩ <;> simp [ho, Dict.set]
      have hk : b.id ∉ s.conns.keys := fun hk => hb (Dict.has_iff.mpr hk)
      have hput : h.put i (brokersLoop toDrop missing topics (b :: bs) s) =
          (.goesOn, ⟨s, [(i, .connecting b bs toDrop missing topics)]⟩) := by
        simp only [brokersLoop, if_neg hb, Healing.put, hset]
      rw [hput]
      rcases hcn : connect n with _ | e
      · obtain ⟨evs, h1, h2⟩ := ih (n + 1) missing
          { s with made := s.made ++ [⟨b.host, b.port, false⟩]
                   conns := s.conns.set b.id s.made.length }
          ⟨s, [(i, .connecting b bs toDrop missing topics)]⟩ (distinct_push hd hk _) (by
            intro d hd'
            refine Dict.has_iff.mpr ?_
            have := Dict.has_iff.mp (hh d hd')
            simp only [Dict.keys_set]
            split
            · exact this
            · exact List.mem_append_left _ this) (.inr ⟨_, rfl⟩)
        refine ⟨.connected i :: evs, ?_, ?_⟩
        · rintro e' he'
          rcases List.mem_cons.mp he' with rfl | he'
          · exact .inl rfl
          · exact h1 e' he'
        · rw [view_push hd hk] at h2
          have hstep : (⟨s, [(i, .connecting b bs toDrop missing topics)]⟩ : Healing).step
              (.connected i) = Healing.put ⟨s, [(i, .connecting b bs toDrop missing topics)]⟩ i
                (brokersLoop toDrop missing topics bs
                  { s with made := s.made ++ [⟨b.host, b.port, false⟩]
                           conns := s.conns.set b.id s.made.length }) := by
            simp [Healing.step, Dict.get?]
          have hadd : addBrokers connect n (b :: bs) s.view.conns missing =
              addBrokers connect (n + 1) bs (s.view.conns.set b.id ⟨b.host, b.port, false⟩)
                missing := by
            rw [addBrokers, view_has, if_neg hb, hcn]
          simp only [hadd, runHealing, hstep]
          simp only [List.getLast_cons_cons] at h2 ⊢
          exact h2
      · obtain ⟨evs, h1, h2⟩ := ih (n + 1) (addSet missing b.id) s
          ⟨s, [(i, .connecting b bs toDrop missing topics)]⟩ hd hh (.inr ⟨_, rfl⟩)
        refine ⟨.failed i :: evs, ?_, ?_⟩
        · rintro e' he'
          rcases List.mem_cons.mp he' with rfl | he'
          · exact .inr rfl
          · exact h1 e' he'
        · have hstep : (⟨s, [(i, .connecting b bs toDrop missing topics)]⟩ : Healing).step
              (.failed i) = Healing.put ⟨s, [(i, .connecting b bs toDrop missing topics)]⟩ i
                (brokersLoop toDrop (addSet missing b.id) topics bs s) := by
            simp [Healing.step, Dict.get?]
          have hadd : addBrokers connect n (b :: bs) s.view.conns missing =
              addBrokers connect (n + 1) bs s.view.conns (addSet missing b.id) := by
            rw [addBrokers, view_has, if_neg hb, hcn]
          simp only [hadd, runHealing, hstep]
          simp only [List.getLast_cons_cons] at h2 ⊢
          exact h2

theorem view_cull (s : Shared) : s.cull.view = s.view.cull := by
  simp only [Shared.view, Shared.cull, Cluster.cull, List.filter_map, Cluster.mk.injEq, and_true]
  rfl

/-- **C80** (partial), what an undisturbed `heal()` does: if nothing happens but that the
connections it asks for are made or not, the first round of a `heal()` leaves the cluster as
`Cluster.sync` (see Verif/Model/Cluster.lean) does after `Cluster.cull`; and it returns if neither
brokers nor topics are missing, and asks for metadata otherwise. -/
theorem C80_undisturbed_partial (connect : Nat → Option Exc) (i : Nat) (m : Metadata)
    (h : Healing) (hd : Distinct h.shared) (h0 : h.heals = []) :
    ∃ evs, (∀ e ∈ evs, e = .connected i ∨ e = .failed i) ∧
      let f := runHealing h (.heal i m :: evs)
      let q := h.shared.view.cull.sync connect m
      Distinct f.2.shared ∧ f.2.shared.view = q.2.2 ∧
      f.1.getLast? = some (if q.1 = [] ∧ q.2.1 = [] then .returned else .goesOn) ∧
      f.2.heals = if q.1 = [] ∧ q.2.1 = [] then [] else [(i, .asking)] := by
  have hdc : Distinct h.shared.cull :=
    ⟨hd.nodup.sublist (List.filter_sublist.map _),
      fun e he => hd.lt e (List.mem_filter.mp he).1,
      fun e he e' he' => hd.inj e (List.mem_filter.mp he).1 e' (List.mem_filter.mp he').1⟩
  obtain ⟨evs, h1, h2, h3, h4, h5⟩ := round_end connect i
    (h.shared.cull.conns.keys.filter fun k => decide (k ∉ m.brokers.map (·.id))) m.topics
    m.brokers 0 [] h.shared.cull h hdc
    (fun d hd' => Dict.has_iff.mpr (List.mem_filter.mp hd').1) (.inl h0)
  have hq : h.shared.view.cull.sync connect m =
      ((addBrokers connect 0 m.brokers h.shared.cull.view.conns []).2,
        Cluster.processTopics { h.shared.cull.view with
          conns := (h.shared.cull.conns.keys.filter fun k =>
            decide (k ∉ m.brokers.map (·.id))).foldl abortConn
              (addBrokers connect 0 m.brokers h.shared.cull.view.conns []).1 } m.topics) := by
    rw [← view_cull, ← view_keys]
    rfl
  refine ⟨evs, h1, ?_⟩
  rw [hq]
  refine ⟨h2, h3, ?_, h5⟩
  rw [← h4]
  exact List.getLast?_eq_some_getLast _

/-- **C80** (partial): the same for a later round. -/
theorem C80_again_partial (connect : Nat → Option Exc) (i : Nat) (m : Metadata)
    (h : Healing) (hd : Distinct h.shared) (h0 : h.heals = [(i, .asking)]) :
    ∃ evs, (∀ e ∈ evs, e = .connected i ∨ e = .failed i) ∧
      let f := runHealing h (.again i m :: evs)
      let q := h.shared.view.sync connect m
      Distinct f.2.shared ∧ f.2.shared.view = q.2.2 ∧
      f.1.getLast? = some (if q.1 = [] ∧ q.2.1 = [] then .returned else .goesOn) ∧
      f.2.heals = if q.1 = [] ∧ q.2.1 = [] then [] else [(i, .asking)] := by
  obtain ⟨evs, h1, h2, h3, h4, h5⟩ := round_end connect i
    (h.shared.conns.keys.filter fun k => decide (k ∉ m.brokers.map (·.id))) m.topics
    m.brokers 0 [] h.shared h hd
    (fun d hd' => Dict.has_iff.mpr (List.mem_filter.mp hd').1) (.inr ⟨_, h0⟩)
  have hq : h.shared.view.sync connect m =
      ((addBrokers connect 0 m.brokers h.shared.view.conns []).2,
        Cluster.processTopics { h.shared.view with
          conns := (h.shared.conns.keys.filter fun k =>
            decide (k ∉ m.brokers.map (·.id))).foldl abortConn
              (addBrokers connect 0 m.brokers h.shared.view.conns []).1 } m.topics) := by
    rw [← view_keys]
    rfl
  have hstep : h.step (.again i m) = h.put i (startRound m h.shared) := by
    simp [Healing.step, h0, Dict.get?]
  refine ⟨evs, h1, ?_⟩
  rw [hq]
  simp only [runHealing, hstep]
  refine ⟨h2, h3, ?_, h5⟩
  rw [← h4]
  exact List.getLast?_eq_some_getLast _

/-! ### Examples and counterexamples -/

/-- Metadata about two brokers, and about the second one only. -/
def exBoth : Metadata := ⟨[⟨1, "a", 9092⟩, ⟨2, "b", 9092⟩], []⟩
def exSecond : Metadata := ⟨[⟨2, "b", 9092⟩], []⟩

/-- **C79** is false: two `heal()`s find that there is no connection to broker 1 and both make one;
the second one replaces the first, which stays open and is not in use: not even `stop` closes
it. -/
theorem C79_false :
    let h := (runHealing freshHealing [.heal 0 ⟨[⟨1, "a", 9092⟩], []⟩, .heal 1 ⟨[⟨1, "a", 9092⟩], []⟩,
      .connected 0, .connected 1]).2
    h.heals = [] ∧ h.shared.made = [⟨"a", 9092, false⟩, ⟨"a", 9092, false⟩] ∧
    h.shared.conns = [(1, 1)] ∧
    (h.step .stop).2.shared.made = [⟨"a", 9092, false⟩, ⟨"a", 9092, true⟩] := by
  decide +kernel

/-- Nor is it enough that `heal()`s come one after the other, if the cluster is stopped during one
of them: the connection made afterwards stays open. -/
theorem C79_false_stop :
    let h := (runHealing freshHealing [.heal 0 ⟨[⟨1, "a", 9092⟩], []⟩, .stop, .connected 0]).2
    h.heals = [] ∧ h.shared.made = [⟨"a", 9092, false⟩] := by
  decide +kernel

/-- **C80** is false: one `heal()` is to drop broker 1, and waits for the connection to broker 2.
The connection to broker 1 is lost; another `heal()` removes it; the first one raises a
`KeyError`. -/
theorem C80_false :
    (runHealing freshHealing [.heal 0 ⟨[⟨1, "a", 9092⟩], []⟩, .connected 0, .heal 1 exSecond,
      .lost 0, .heal 2 exBoth, .connected 1]).1 =
    [.goesOn, .returned, .goesOn, .goesOn, .goesOn, .raised .keyError] := by
  decide +kernel

-- Non-vacuity: a course with two `heal()`s one after the other, a lost connection, a failure to
-- connect, and another round.
example : ∃ outs h, HCourse Alone freshHealing outs h ∧ IsOpen h 1 ∧ h.shared.made.length = 3 ∧
    HOut.raised .noBrokers ∈ outs := by
  refine ⟨_, _, .cons (ev := .heal 0 exBoth) rfl rfl (.cons (ev := .connected 0) trivial rfl
    (.cons (ev := .failed 0) trivial rfl (.cons (ev := .again 0 exBoth) trivial rfl
    (.cons (ev := .connected 0) trivial rfl (.cons (ev := .lost 0) trivial rfl
    (.cons (ev := .heal 1 exBoth) rfl rfl (.cons (ev := .connected 1) trivial rfl
    (.cons (ev := .noMetadata 3) trivial rfl (.nil _))))))))), ⟨⟨"b", 9092, false⟩, ?_, rfl⟩, ?_, ?_⟩
  · decide +kernel
  · decide +kernel
  · decide +kernel

-- Non-vacuity: a cluster with a connection, and a `heal()` that drops it and makes another.
example :
    let h : Healing := ⟨⟨[⟨"a", 9092, false⟩], [(1, 0)], [], []⟩, []⟩
    Distinct h.shared ∧ h.heals = [] ∧
    (runHealing h [.heal 0 exSecond, .connected 0]).2.shared.view.conns =
      [(1, ⟨"a", 9092, true⟩), (2, ⟨"b", 9092, false⟩)] :=
  ⟨⟨by decide +kernel, by decide +kernel, by decide +kernel⟩, rfl, by decide +kernel⟩
example :
    let h : Healing := ⟨⟨[⟨"a", 9092, false⟩], [(1, 0)], [], []⟩, [(0, .asking)]⟩
    Distinct h.shared ∧
    (runHealing h [.again 0 exBoth, .failed 0]).2.heals = [(0, .asking)] :=
  ⟨⟨by decide +kernel, by decide +kernel, by decide +kernel⟩, by decide +kernel⟩

end Kiel
