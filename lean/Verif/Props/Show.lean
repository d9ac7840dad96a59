import Verif.Model.Show
import Verif.Spec.Show
import Verif.Props.Equality
import Verif.Util.Krfl
/-
C123: `repr()` of protocol structures.
-/
set_option autoImplicit false
namespace Kiel
open Spec

/-! ### Bytes -/

/-- What `showByte` makes of a byte, checked against the byte. -/
def goodByte (q : Char) (b : UInt8) : Bool :=
  match showByte q b with
  | [c] => decide (c ≠ '\\' ∧ c ≠ q ∧ 32 ≤ c.toNat ∧ c.toNat < 127 ∧ UInt8.ofNat c.toNat = b)
  | ['\\', 't'] => b == 9
  | ['\\', 'n'] => b == 10
  | ['\\', 'r'] => b == 13
  | ['\\', c] => decide ((c = '\\' ∨ c = '\'' ∨ c = '"') ∧ UInt8.ofNat c.toNat = b)
  | ['\\', 'x', x, y] =>
    match digit x, digit y with
    | some m, some n => UInt8.ofNat (16 * m + n) == b
    | _, _ => false
  | _ => false

theorem goodByte_all : ∀ b : Fin 256, goodByte '\'' (UInt8.ofNat b) = true ∧
    goodByte '"' (UInt8.ofNat b) = true := by
  decide +kernel

theorem goodByte_true {q : Char} (hq : q = '\'' ∨ q = '"') (b : UInt8) : goodByte q b = true := by
  have h := goodByte_all ⟨b.toNat, b.toNat_lt⟩
  have he : UInt8.ofNat b.toNat = b := by simp
  simp only [he] at h
  rcases hq with rfl | rfl
  · exact h.1
  · exact h.2

theorem readByte_showByte {q : Char} (hq : q = '\'' ∨ q = '"') (b : UInt8) (r : List Char) :
    readByte q (showByte q b ++ r) = some (b, r) := by
  have h := goodByte_true hq b
  unfold goodByte at h
  split at h
  · rename_i c he
    obtain ⟨h1, h2, h3, h4, h5⟩ := of_decide_eq_true h
    rw [he]
    simp only [List.cons_append, List.nil_append]
    unfold readByte
    split <;> simp_all
  · rename_i he
    rw [he, eq_of_beq h]
    rfl
  · rename_i he
    rw [he, eq_of_beq h]
    rfl
  · rename_i he
    rw [he, eq_of_beq h]
    rfl
  · rename_i c _ _ _ he
    obtain ⟨h1, h2⟩ := of_decide_eq_true h
    rw [he]
    simp only [List.cons_append, List.nil_append]
    rcases h1 with rfl | rfl | rfl <;> simp [readByte, ← h2]
  · rename_i x y he
    rw [he]
    split at h
    · rename_i m n hm hn
      simp [readByte, hm, hn, eq_of_beq h]
    · cases h
  · cases h

theorem literal_shown {q : Char} (hq : q = '\'' ∨ q = '"') (b : Bytes) :
    Literal q (b.flatMap (showByte q) ++ [q]) b := by
  induction b with
  | nil => exact .close
  | cons x b ih =>
    refine .byte (r := b.flatMap (showByte q) ++ [q]) ?_ ih
    rw [List.flatMap_cons, List.append_assoc]
    exact readByte_showByte hq x _

theorem showScalar_shows {v : Val} (h : Scalar v) : ShowsScalar v (showScalar v) := by
  cases v with
  | bytes b =>
    simp only [ShowsScalar, showScalar, showBytes]
    refine ⟨if 39 ∈ b ∧ 34 ∉ b then '"' else '\'', _, ?_, rfl, ?_⟩
    · split <;> simp
    · exact literal_shown (by split <;> simp) b
  | none => rfl
  | int i => rfl
  | flt r => rfl
  | str r => rfl
  | obj r => rfl
  | list xs => exact h.elim
  | part kvs => exact h.elim
  | mset ms => exact h.elim

/-! ### Pieces in order -/

theorem Spec.Begins.inOrder : {ps : List (List Char → Prop)} → {s : List Char} → Begins ps s → InOrder ps s
  | [], _, _ => trivial
  | _ :: _, _, ⟨m, b, h1, h2, h3⟩ => ⟨[], m, b, by simpa using h1, h2, h3⟩

theorem Spec.InOrder.before {ps : List (List Char → Prop)} {s : List Char} (a : List Char) (h : InOrder ps s) :
    InOrder ps (a ++ s) := by
  cases ps with
  | nil => trivial
  | cons p ps =>
    obtain ⟨x, m, b, h1, h2, h3⟩ := h
    exact ⟨a ++ x, m, b, by simp [h1], h2, h3⟩

theorem Spec.InOrder.append {ps qs : List (List Char → Prop)} {s t : List Char} (h : InOrder ps s)
    (h' : InOrder qs t) : InOrder (ps ++ qs) (s ++ t) := by
  induction ps generalizing s with
  | nil => exact h'.before s
  | cons p ps ih =>
    obtain ⟨a, m, b, h1, h2, h3⟩ := h
    exact ⟨a, m, b ++ t, by simp [h1], h2, ih h3⟩

/-- Texts each of which shows its pieces. -/
theorem inOrder_joined : ∀ (l : List (List Char)) (ps : List (List (List Char → Prop))),
    List.Forall₂ (fun s p => InOrder p s) l ps → InOrder ps.flatten (joined l)
  | [], _, .nil => trivial
  | [_], _, .cons h .nil => by simpa [joined] using h
  | x :: y :: l, _, .cons h h' => by
    have := inOrder_joined (y :: l) _ h'
    simp only [joined, List.flatten_cons]
    have h2 : InOrder _ (x ++ ([',', ' '] ++ joined (y :: l))) := h.append (this.before _)
    rwa [← List.append_assoc] at h2

theorem begins_named {name : String} {ps : List (List Char → Prop)} {s : List Char} (h : Begins ps s) :
    Begins (named name ps) (name.toList ++ ['='] ++ s) := by
  cases ps with
  | nil => exact ⟨_, s, rfl, rfl, trivial⟩
  | cons p ps =>
    obtain ⟨m, b, h1, h2, h3⟩ := h
    exact ⟨name.toList ++ ['='] ++ m, b, by simp [h1], ⟨m, rfl, h2⟩, h3⟩

/-- Between brackets. -/
theorem begins_within {o c s : List Char} {ps : List (List Char → Prop)} (h : InOrder ps s) :
    Begins ((· = o) :: ps ++ [(· = c)]) (o ++ s ++ c) :=
  ⟨o, s ++ c, by simp, rfl, h.append ⟨[], c, [], by simp, rfl, trivial⟩⟩

/-! ### What is shown -/

theorem showAll_shows {α : Type} {f : α → Res (List Char)} {g : α → List (List Char → Prop)}
    (xs : List α) (h : ∀ x ∈ xs, ∃ s, f x = .ok s ∧ InOrder (g x) s) :
    ∃ l, showAll f xs = .ok l ∧ List.Forall₂ (fun s p => InOrder p s) l (xs.map g) := by
  induction xs with
  | nil => exact ⟨[], rfl, .nil⟩
  | cons x xs ih =>
    obtain ⟨s, h1, h2⟩ := h x (by simp)
    obtain ⟨l, h3, h4⟩ := ih fun y hy => h y (by simp [hy])
    exact ⟨s :: l, by simp [showAll, h1, h3], .cons h2 h4⟩

theorem get?_of_hasAttr {kvs : List (String × Val)} {name : String} (h : HasAttr (.part kvs) name) :
    Dict.get? kvs name = some (attr (.part kvs) name) := (hasAttr_iff kvs name).1 h

theorem get?_of_not_hasAttr {kvs : List (String × Val)} {name : String} (h : ¬ HasAttr (.part kvs) name) :
    Dict.get? kvs name = .none ∧ attr (.part kvs) name = .none := by
  cases hg : Dict.get? kvs name with
  | none => exact ⟨rfl, by rw [← getAttr_eq, getAttr, hg]⟩
  | some v => exact absurd ((hasAttr_iff kvs name).2 (by rw [get?_attr hg, hg])) h

mutual
theorem showVal_shows (cls : Fields → String) : ∀ (t : Ty) (v : Val), Showable t v →
    ∃ s, showVal cls t v = .ok s ∧ Begins (pieces cls t v) s
  | .int8, v, h => by cases v <;> first | exact h.elim | exact ⟨_, rfl, _, [], by simp, showScalar_shows h, trivial⟩
  | .int16, v, h => by cases v <;> first | exact h.elim | exact ⟨_, rfl, _, [], by simp, showScalar_shows h, trivial⟩
  | .int32, v, h => by cases v <;> first | exact h.elim | exact ⟨_, rfl, _, [], by simp, showScalar_shows h, trivial⟩
  | .int64, v, h => by cases v <;> first | exact h.elim | exact ⟨_, rfl, _, [], by simp, showScalar_shows h, trivial⟩
  | .string, v, h => by cases v <;> first | exact h.elim | exact ⟨_, rfl, _, [], by simp, showScalar_shows h, trivial⟩
  | .bytes, v, h => by cases v <;> first | exact h.elim | exact ⟨_, rfl, _, [], by simp, showScalar_shows h, trivial⟩
  | .array t, v, h => by
    simp only [Showable] at h
    obtain ⟨⟨xs, rfl⟩, h⟩ := h
    obtain ⟨l, h1, h2⟩ := showAll_shows (f := fun x => showVal cls t x) (g := fun x => pieces cls t x) xs
      fun x hx => by
        obtain ⟨s, h1, h2⟩ := showVal_shows cls t x (h x hx)
        exact ⟨s, h1, Begins.inOrder h2⟩
    refine ⟨_, by rw [showVal, h1], ?_⟩
    simp only [pieces, elems]
    exact begins_within (by simpa [List.flatMap] using inOrder_joined _ _ h2)
  | .part fs, v, h => by
    simp only [Showable] at h
    obtain ⟨⟨kvs, rfl⟩, h⟩ := h
    obtain ⟨l, ps, h1, h2, h3⟩ := showFields_shows cls fs kvs h
    refine ⟨_, by rw [showVal, h1], ?_⟩
    simp only [pieces]
    rw [← h2]
    exact begins_within (inOrder_joined _ _ h3)
  | .messageSet, v, h => by
    simp only [Showable] at h
    obtain ⟨⟨ms, rfl⟩, h⟩ := h
    obtain ⟨l, h1, h2⟩ := showAll_shows (f := fun e : Val × Val => showMessage e.2)
      (g := fun e => [ShowsMessage e.2]) ms fun e he => by
        obtain ⟨g1, g2, g3, g4⟩ := h e he
        have ⟨kvs, hk, _⟩ := g1
        rw [hk] at g1 g2 g3 g4 ⊢
        simp only [showMessage, get?_of_hasAttr g1, get?_of_hasAttr g2]
        exact ⟨_, rfl, [], _, [], by simp, ⟨_, _, rfl, showScalar_shows g3, showScalar_shows g4⟩, trivial⟩
    refine ⟨_, by rw [showVal, h1], ?_⟩
    simp only [pieces, msgs]
    refine begins_within ?_
    have := inOrder_joined _ _ h2
    rwa [show (ms.map fun e => [ShowsMessage e.2]).flatten = ms.map fun e => ShowsMessage e.2 by
      clear * -; induction ms with
      | nil => rfl
      | cons e ms ih => simp [ih]] at this
theorem showFields_shows (cls : Fields → String) : ∀ (fs : Fields) (kvs : List (String × Val)),
    ShowableFields fs (.part kvs) → ∃ l ps, showFields cls fs kvs = .ok l ∧
      List.flatten ps = piecesFields cls fs (.part kvs) ∧ List.Forall₂ (fun s p => InOrder p s) l ps
  | .nil, _, _ => ⟨[], [], rfl, rfl, .nil⟩
  | .cons name t rest, kvs, h => by
    simp only [ShowableFields] at h
    obtain ⟨h, hr⟩ := h
    obtain ⟨l, ps, h1, h2, h3⟩ := showFields_shows cls rest kvs hr
    have hv : ∃ s, showVal cls t ((Dict.get? kvs name).getD (unset t)) = .ok s ∧
        Begins (pieces cls t (attr (.part kvs) name)) s := by
      by_cases ha : HasAttr (.part kvs) name
      · rw [get?_of_hasAttr ha]
        rcases h with ⟨_, h⟩ | h
        · exact absurd ha h
        · exact showVal_shows cls t _ h
      · obtain ⟨g1, g2⟩ := get?_of_not_hasAttr ha
        rw [g1, g2]
        rw [g2] at h
        by_cases hat : ∃ t', t = .array t'
        · obtain ⟨t', rfl⟩ := hat
          refine ⟨['[', ']'], rfl, ?_⟩
          simp only [pieces, elems]
          exact begins_within (o := ['[']) (s := []) (c := [']']) (ps := []) trivial
        · rcases h with ⟨h, _⟩ | h
          · exact absurd h hat
          · have := showVal_shows cls t _ h
            cases t <;> first | exact this | exact absurd ⟨_, rfl⟩ hat
    obtain ⟨s, g1, g2⟩ := hv
    exact ⟨_, named name (pieces cls t (attr (.part kvs) name)) :: ps, by rw [showFields, g1, h1],
      by simp [piecesFields, h2], .cons (Begins.inOrder (begins_named g2)) h3⟩
end

/-! ### What is read from the wire -/

theorem parseInt_scalar {n : Nat} {buff : Bytes} {off : Nat} {v : Val} {o : Nat}
    (h : parseInt n buff off = .ok (v, o)) : Scalar v := by
  unfold parseInt at h
  split at h <;> cases h
  trivial

theorem parseVar_scalar {n : Nat} {buff : Bytes} {off : Nat} {v : Val} {o : Nat}
    (h : parseVar n buff off = .ok (v, o)) : Scalar v := by
  unfold parseVar at h
  split at h
  · cases h
  · simp only at h
    split at h
    · cases h; trivial
    · split at h
      · cases h
      · split at h
        · cases h
        · split at h <;> (cases h; trivial)

/-- A message with a key and a value. -/
def Entire (m : Val) : Prop :=
  HasAttr m "key" ∧ HasAttr m "value" ∧ Scalar (attr m "key") ∧ Scalar (attr m "value")

theorem parseMessage_entire {cx : Codec} {buff : Bytes} {off : Nat} {kvs : List (String × Val)} {o : Nat}
    (h : parseMessage cx buff off = .ok (kvs, o)) : Entire (.part kvs) := by
  unfold parseMessage at h
  split at h
  · cases h
  · rename_i kvs' o' hp
    have hp' : ∃ a b c k v, kvs' = [("crc", a), ("magic", b), ("attributes", c), ("key", k), ("value", v)] ∧
        Scalar k ∧ Scalar v := by
      unfold parseMessageParts at hp
      repeat' split at hp
      all_goals cases hp
      rename_i hk _ _ hv
      exact ⟨_, _, _, _, _, rfl, parseVar_scalar hk, parseVar_scalar hv⟩
    obtain ⟨a, b, c, k, v, rfl, hk, hv⟩ := hp'
    have entire : ∀ v, Scalar v → Entire (.part [("crc", a), ("magic", b), ("attributes", c), ("key", k),
        ("value", v)]) := fun v hv => ⟨⟨_, rfl, by simp⟩, ⟨_, rfl, by simp⟩, hk, hv⟩
    simp only at h
    split at h
    · cases h; exact entire v hv
    · split at h
      · split at h
        · cases h
        · cases h; exact entire _ trivial
      · split at h
        · split at h
          · cases h
          · cases h; exact entire _ trivial
        · cases h; exact entire v hv

theorem parseSetEntry_entire {cx : Codec} {buff : Bytes} {off : Nat} {mo : Val}
    {kvs : List (String × Val)} {o : Nat} (h : parseSetEntry cx buff off = .ok (mo, kvs, o)) :
    Entire (.part kvs) := by
  unfold parseSetEntry at h
  repeat' split at h
  all_goals cases h
  rename_i hm
  exact parseMessage_entire hm

theorem parseSetLoop_entire {cx : Codec} {nested : Bytes → Res (List (Val × Val))} {buff : Bytes}
    {stop : Int} (hn : ∀ b ms, nested b = .ok ms → ∀ e ∈ ms, Entire e.2) :
    ∀ (fuel off : Nat) (ms : List (Val × Val)) (o : Nat),
      parseSetLoop cx nested buff stop fuel off = .ok (ms, o) → ∀ e ∈ ms, Entire e.2 := by
  intro fuel
  induction fuel with
  | zero => intro off ms o h; cases h
  | succ fuel ih =>
    intro off ms o h
    rw [parseSetLoop] at h
    split at h
    · cases h; simp
    · split at h
      · cases h; simp
      · cases h
      · rename_i mo kvs o1 he
        simp only at h
        split at h
        · cases h
        · rename_i here hh
          have hhere : ∀ e ∈ here, Entire e.2 := by
            split at hh
            · split at hh
              · exact hn _ _ hh
              · split at hh <;> cases hh
                simp
              · cases hh
            · cases hh
              simpa using parseSetEntry_entire he
          split at h
          · cases h
          · rename_i rest o2 hr
            cases h
            intro e hm
            rcases List.mem_append.1 hm with hm | hm
            · exact hhere e hm
            · exact ih _ _ _ hr e hm

theorem parseNested_entire {cx : Codec} : ∀ (depth : Nat) (b : Bytes) (ms : List (Val × Val)),
    parseNested cx depth b = .ok ms → ∀ e ∈ ms, Entire e.2
  | 0, _, _, h => by cases h
  | depth + 1, b, ms, h => by
    rw [parseNested] at h
    split at h
    · cases h
    · rename_i ms' o hl
      cases h
      exact parseSetLoop_entire (parseNested_entire depth) _ _ _ _ hl

theorem attr_here (pre : List (String × Val)) (name : String) (v : Val) (kvs : List (String × Val))
    (h : name ∉ pre.map (·.1)) : attr (.part (pre ++ (name, v) :: kvs)) name = v := by
  have : pre.find? (fun e => e.1 == name) = .none := by
    rw [List.find?_eq_none]
    intro e he hc
    exact h (List.mem_map.2 ⟨e, he, eq_of_beq hc⟩)
  simp [attr, List.find?_append, this]

mutual
theorem parse_showable (cx : Codec) (depth : Nat) (buff : Bytes) : ∀ (t : Ty) (off : Nat) (v : Val) (o : Nat),
    Distinct t → parse cx depth t buff off = .ok (v, o) → Showable t v
  | .int8, off, v, o, _, h => by simp only [Showable]; simp only [parse] at h; exact parseInt_scalar h
  | .int16, off, v, o, _, h => by simp only [Showable]; simp only [parse] at h; exact parseInt_scalar h
  | .int32, off, v, o, _, h => by simp only [Showable]; simp only [parse] at h; exact parseInt_scalar h
  | .int64, off, v, o, _, h => by simp only [Showable]; simp only [parse] at h; exact parseInt_scalar h
  | .string, off, v, o, _, h => by simp only [Showable]; simp only [parse] at h; exact parseVar_scalar h
  | .bytes, off, v, o, _, h => by simp only [Showable]; simp only [parse] at h; exact parseVar_scalar h
  | .array t, off, v, o, hd, h => by
    simp only [Distinct] at hd
    simp only [parse] at h
    split at h
    · cases h
    · split at h
      · cases h
      · rename_i vs o1 h1
        cases h
        simp only [Showable, elems]
        refine ⟨⟨vs, rfl⟩, ?_⟩
        have key : ∀ (n off : Nat) (vs : List Val) (o : Nat),
            parseItems (fun b o => parse cx depth t b o) buff n off = .ok (vs, o) →
            ∀ x ∈ vs, Showable t x := by
          intro n
          induction n with
          | zero => intro off vs o h; cases h; simp
          | succ n ih =>
            intro off vs o h
            simp only [parseItems] at h
            split at h
            · cases h
            · rename_i x o1 hx
              split at h
              · cases h
              · rename_i xs o2 hxs
                cases h
                intro y hy
                rcases List.mem_cons.1 hy with rfl | hy
                · exact parse_showable cx depth buff t _ _ _ hd hx
                · exact ih _ _ _ hxs y hy
        exact key _ _ _ _ h1
  | .part fs, off, v, o, hd, h => by
    simp only [Distinct] at hd
    simp only [parse] at h
    split at h
    · cases h
    · rename_i kvs o1 h1
      cases h
      simp only [Showable]
      exact ⟨⟨kvs, rfl⟩, parseFields_showable cx depth buff fs off kvs _ hd h1 [] (by simp)⟩
  | .messageSet, off, v, o, _, h => by
    simp only [parse, parseSet] at h
    split at h
    · cases h
    · split at h
      · cases h
      · rename_i ms o1 h1
        cases h
        simp only [Showable, msgs]
        exact ⟨⟨ms, rfl⟩, parseSetLoop_entire (parseNested_entire depth) _ _ _ _ h1⟩
theorem parseFields_showable (cx : Codec) (depth : Nat) (buff : Bytes) : ∀ (fs : Fields) (off : Nat)
    (kvs : List (String × Val)) (o : Nat), DistinctFields fs → parseFields cx depth fs buff off = .ok (kvs, o) →
    ∀ pre : List (String × Val), (∀ n ∈ fieldNames fs, n ∉ pre.map (·.1)) →
      ShowableFields fs (.part (pre ++ kvs))
  | .nil, _, _, _, _, _, _, _ => by simp [ShowableFields]
  | .cons name t rest, off, kvs, o, hd, h, pre, hp => by
    simp only [DistinctFields] at hd
    simp only [parseFields] at h
    split at h
    · cases h
    · rename_i v o1 hv
      split at h
      · cases h
      · rename_i kvs' o2 hr
        cases h
        simp only [ShowableFields]
        refine ⟨.inr ?_, ?_⟩
        · rw [attr_here pre name v kvs' (hp name (by simp [fieldNames]))]
          exact parse_showable cx depth buff t _ _ _ hd.2.1 hv
        · have := parseFields_showable cx depth buff rest _ _ _ hd.2.2 hr (pre ++ [(name, v)]) (by
            intro n hn
            simp only [List.map_append, List.map_cons, List.map_nil, List.mem_append, List.mem_singleton,
              not_or]
            exact ⟨hp n (by simp [fieldNames, hn]), fun he => hd.1 (he ▸ hn)⟩)
          simpa using this
end

/-! ### What can be written -/

theorem sizedOk_scalar {n : Nat} {v : Val} (h : SizedOk n v) : Scalar v := by
  rcases h with rfl | ⟨b, hb, _⟩
  · trivial
  · cases v <;> trivial

theorem showAll_all {α : Type} {f : α → Res (List Char)} {xs : List α} {l : List (List Char)}
    (h : showAll f xs = .ok l) : ∀ x ∈ xs, ∃ s, f x = .ok s := by
  induction xs generalizing l with
  | nil => simp
  | cons x xs ih =>
    simp only [showAll] at h
    split at h
    · cases h
    · rename_i s hs
      split at h
      · cases h
      · rename_i l' hl
        intro y hy
        rcases List.mem_cons.1 hy with rfl | hy
        · exact ⟨s, hs⟩
        · exact ih hl y hy

theorem showAll_error {α : Type} {f : α → Res (List Char)} {xs : List α} {e : Exc}
    (h : showAll f xs = .error e) : ∃ x ∈ xs, f x = .error e := by
  induction xs with
  | nil => cases h
  | cons x xs ih =>
    simp only [showAll] at h
    split at h
    · rename_i e' he
      cases h
      exact ⟨x, by simp, he⟩
    · split at h
      · rename_i e' hl
        cases h
        obtain ⟨y, hy, h⟩ := ih hl
        exact ⟨y, by simp [hy], h⟩
      · cases h

mutual
theorem shown_showable (cls : Fields → String) : ∀ (t : Ty) (v : Val) (s : List Char), Ok t v →
    showVal cls t v = .ok s → Showable t v
  | .int8, v, s, h, _ => by obtain ⟨i, rfl, _⟩ := h; trivial
  | .int16, v, s, h, _ => by obtain ⟨i, rfl, _⟩ := h; trivial
  | .int32, v, s, h, _ => by obtain ⟨i, rfl, _⟩ := h; trivial
  | .int64, v, s, h, _ => by obtain ⟨i, rfl, _⟩ := h; trivial
  | .string, v, s, h, _ => by simp only [Showable]; exact sizedOk_scalar h
  | .bytes, v, s, h, _ => by simp only [Showable]; exact sizedOk_scalar h
  | .array t, v, s, h, hs => by
    simp only [Ok] at h
    obtain ⟨hv, _, hx⟩ := h
    rcases hv with rfl | ⟨xs, rfl⟩
    · simp [showVal] at hs
    · simp only [elems] at hx
      simp only [showVal] at hs
      split at hs
      · cases hs
      · rename_i l hl
        simp only [Showable, elems]
        refine ⟨⟨xs, rfl⟩, fun x hxm => ?_⟩
        obtain ⟨s', hs'⟩ := showAll_all hl x hxm
        exact shown_showable cls t x s' (hx x hxm) hs'
  | .part fs, v, s, h, hs => by
    simp only [Ok] at h
    obtain ⟨⟨kvs, rfl⟩, h⟩ := h
    simp only [showVal] at hs
    split at hs
    · cases hs
    · rename_i l hl
      simp only [Showable]
      exact ⟨⟨kvs, rfl⟩, shownFields_showable cls fs kvs l h hl⟩
  | .messageSet, v, s, h, hs => by
    simp only [Ok] at h
    obtain ⟨ms, rfl, _, h⟩ := h
    simp only [showVal] at hs
    split at hs
    · cases hs
    · rename_i l hl
      simp only [Showable, msgs]
      refine ⟨⟨ms, rfl⟩, fun e he => ?_⟩
      obtain ⟨s', hs'⟩ := showAll_all hl e he
      have hm : MessageOk e.2 := (h e he).2.1
      obtain ⟨kvs, hk⟩ := hm.isPart
      have hkey := sizedOk_scalar hm.key
      have hval := sizedOk_scalar hm.value
      rw [hk] at hs' hkey hval ⊢
      simp only [showMessage] at hs'
      split at hs'
      · rename_i k v' h1 h2
        exact ⟨(hasAttr_iff _ _).2 (by rw [get?_attr h1, h1]), (hasAttr_iff _ _).2 (by rw [get?_attr h2, h2]),
          hkey, hval⟩
      · cases hs'
theorem shownFields_showable (cls : Fields → String) : ∀ (fs : Fields) (kvs : List (String × Val))
    (l : List (List Char)), OkFields fs (.part kvs) → showFields cls fs kvs = .ok l →
    ShowableFields fs (.part kvs)
  | .nil, _, _, _, _ => by simp [ShowableFields]
  | .cons name t rest, kvs, l, h, hs => by
    simp only [OkFields] at h
    simp only [showFields] at hs
    split at hs
    · cases hs
    · rename_i s hv
      split at hs
      · cases hs
      · rename_i l' hl
        simp only [ShowableFields]
        refine ⟨?_, shownFields_showable cls rest kvs l' h.2 hl⟩
        by_cases ha : HasAttr (.part kvs) name
        · rw [get?_of_hasAttr ha] at hv
          exact .inr (shown_showable cls t _ s h.1 hv)
        · by_cases hat : ∃ t', t = .array t'
          · exact .inl ⟨hat, ha⟩
          · obtain ⟨g1, g2⟩ := get?_of_not_hasAttr ha
            refine .inr (shown_showable cls t _ s h.1 ?_)
            rw [g1] at hv
            rw [g2]
            cases t <;> first | exact hv | exact absurd ⟨_, rfl⟩ hat
end

mutual
theorem showVal_error (cls : Fields → String) : ∀ (t : Ty) (v : Val) (e : Exc),
    showVal cls t v = .error e → e = .typeError ∨ e = .attributeError
  | .int8, v, e, h => by cases v <;> cases h
  | .int16, v, e, h => by cases v <;> cases h
  | .int32, v, e, h => by cases v <;> cases h
  | .int64, v, e, h => by cases v <;> cases h
  | .string, v, e, h => by cases v <;> cases h
  | .bytes, v, e, h => by cases v <;> cases h
  | .array t, v, e, h => by
    cases v with
    | list xs =>
      simp only [showVal] at h
      split at h
      · rename_i e' he
        cases h
        obtain ⟨x, _, hx⟩ := showAll_error he
        exact showVal_error cls t x _ hx
      · cases h
    | _ => simp only [showVal] at h; cases h; exact .inl rfl
  | .part fs, v, e, h => by
    cases v with
    | part kvs =>
      simp only [showVal] at h
      split at h
      · rename_i e' he
        cases h
        exact showFields_error cls fs kvs _ he
      · cases h
    | _ => simp only [showVal] at h; cases h
  | .messageSet, v, e, h => by
    cases v with
    | mset ms =>
      simp only [showVal] at h
      split at h
      · rename_i e' he
        cases h
        obtain ⟨x, _, hx⟩ := showAll_error he
        unfold showMessage at hx
        split at hx
        · split at hx <;> cases hx
          exact .inr rfl
        · cases hx
      · cases h
    | _ => simp only [showVal] at h; cases h
theorem showFields_error (cls : Fields → String) : ∀ (fs : Fields) (kvs : List (String × Val)) (e : Exc),
    showFields cls fs kvs = .error e → e = .typeError ∨ e = .attributeError
  | .nil, _, _, h => by cases h
  | .cons name t rest, kvs, e, h => by
    simp only [showFields] at h
    split at h
    · rename_i e' he
      cases h
      exact showVal_error cls t _ _ he
    · split at h
      · rename_i e' he
        cases h
        exact showFields_error cls rest kvs _ he
      · cases h
end

/-! ### C123 -/

/-- **C123** for what is received: whatever bytes are read as an instance of a class, `repr()` of it
returns text that has, in the order of their declaration, all its attributes with their names, down
to the keys and values of messages (compressed or not); bytes that are not text are shown as
literals that denote them. -/
theorem C123_received (cls : Fields → String) (cx : Codec) (depth : Nat) (t : Ty) (buff : Bytes) (off : Nat)
    (v : Val) (o : Nat) (hd : Distinct t) (h : parse cx depth t buff off = .ok (v, o)) :
    ∃ s, showVal cls t v = .ok s ∧ Begins (pieces cls t v) s :=
  showVal_shows cls t v (parse_showable cx depth buff t off v o hd h)

theorem parseItemsOf_fields (cx : Codec) (depth : Nat) (buff : Bytes) : ∀ (is : List PartsItem) (off : Nat)
    (r : List (String × Val) × Nat), parseItemsOf cx depth is buff off = .ok r →
    parseFields cx depth (itemFields is) buff off = .ok r
  | [], _, _, h => by simpa only [itemFields, parseFields, parseItemsOf] using h
  | .name _ :: _, _, _, h => by simp [parseItemsOf, PartsItem.unpack] at h
  | .cls _ :: _, _, _, h => by simp [parseItemsOf, PartsItem.unpack] at h
  | .pair n t :: is, off, r, h => by
    simp only [parseItemsOf, PartsItem.unpack] at h
    simp only [itemFields, parseFields]
    split at h
    · cases h
    · split at h
      · cases h
      · rename_i hv _ _ _ hr
        simp only [hv, parseItemsOf_fields cx depth buff is _ _ hr]
        exact h

/-- **C123** for the responses that kiel knows: each that can be deserialized can be shown in full. -/
theorem C123_responses (cls : Fields → String) (cx : Codec) (depth : Nat) (c : Cls) (hc : c ∈ Schema.responses)
    (raw : Bytes) (v : Val) (h : c.deserialize cx depth raw = .ok v) :
    ∃ s, showVal cls (.part (itemFields c.items)) v = .ok s ∧
      Begins (pieces cls (.part (itemFields c.items)) v) s := by
  unfold Cls.deserialize at h
  split at h
  · cases h
  · rename_i kvs o hp
    split at h
    · cases h
    · rename_i attrs ha
      cases h
      have : attrs = kvs := by
        unfold initPart at ha
        split at ha
        · cases ha
        · split at ha <;> cases ha
          rfl
      subst this
      refine C123_received cls cx depth _ raw 0 _ o
        (C81_classes c (List.mem_append.2 (.inr hc))) ?_
      simp only [parse, parseItemsOf_fields cx depth raw _ _ _ hp]

/-- **C123**, partial, for what is sent: of the values that can be serialized, exactly those are shown,
and then in full, in which no array was set to `None` and all messages have a key and a value; of others
`repr()` raises a `TypeError` or an `AttributeError`. -/
theorem C123_sent_partial (cls : Fields → String) (t : Ty) (v : Val) (h : Ok t v) :
    (Showable t v → ∃ s, showVal cls t v = .ok s ∧ Begins (pieces cls t v) s) ∧
    (¬ Showable t v → showVal cls t v = .error .typeError ∨ showVal cls t v = .error .attributeError) := by
  refine ⟨showVal_shows cls t v, fun hn => ?_⟩
  cases hs : showVal cls t v with
  | ok s => exact absurd (shown_showable cls t v s h hs) hn
  | error e =>
    rcases showVal_error cls t v e hs with rfl | rfl
    · exact .inl rfl
    · exact .inr rfl

/-- **C123** is false of requests: a request for the metadata of all topics made with `topics=None`,
and a message made without a key, can be serialized, but not shown. -/
theorem C123_false (cls : Fields → String) :
    (encode (.part (itemFields Schema.metadataRequest.items)) (.part [("topics", .none)]) = .ok [0, 0, 0, 0] ∧
      showVal cls (.part (itemFields Schema.metadataRequest.items)) (.part [("topics", .none)]) = .error .typeError) ∧
    ∃ v b, encode .messageSet v = .ok b ∧ showVal cls .messageSet v = .error .attributeError := by
  refine ⟨⟨by decide +kernel, rfl⟩, .mset [(.int 0, .part [("magic", .int 0), ("attributes", .int 0),
    ("value", .str "x")])], (encode .messageSet (.mset [(.int 0, .part [("magic", .int 0), ("attributes", .int 0),
    ("value", .str "x")])])).toOption.getD [], by decide +kernel, rfl⟩

-- `C123_responses`: an answer about the coordinator.
example (cx : Codec) : Schema.coordinatorResponse ∈ Schema.responses ∧
    Schema.coordinatorResponse.deserialize cx 1 [0, 0, 0, 0, 0, 8, 0, 1, 104, 0, 0, 35, 132] =
      .ok (.part [("error_code", .int 0), ("coordinator_id", .int 8), ("coordinator_host", .str "h"),
        ("coordinator_port", .int 9092)]) := by
  refine ⟨by simp [Schema.responses], ?_⟩
  krfl

-- `C123_received`: a topic's metadata, with an error code, a name and partitions.
example : showVal (fun _ => "P") (mkPart [("error_code", .int16), ("name", .string), ("parts", .array .int32)])
    (.part [("error_code", .int 0), ("name", .str "a"), ("parts", .list [.int 1, .int 2])]) =
      .ok "P(error_code=0, name=a, parts=[1, 2])".toList := by decide +kernel

example : Distinct (mkPart [("error_code", .int16), ("name", .string), ("parts", .array .int32)]) := by
  simp [mkPart, mkFields, Distinct, DistinctFields, fieldNames]

-- `C123_sent_partial`: bytes that are not text, and a message without a key.
example : showVal (fun _ => "P") .messageSet (.mset [(.int 0, .part [("magic", .int 0), ("attributes", .int 0),
    ("key", .none), ("value", .bytes [0xff, 39, 10, 97])])]) = .ok "[None => b\"\\xff'\\na\"]".toList := by
  decide +kernel

end Kiel
