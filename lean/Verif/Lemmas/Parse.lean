import Verif.Spec.Parse
import Verif.Lemmas.Wire
/- Bounds on parsing, and termination of the message-set loop. -/
namespace Kiel
open Spec

/-- `p` never moves backwards nor past the end of the buffer. -/
def Bounded {α : Type} (p : Res (α × Nat)) (buff : Bytes) (off : Nat) : Prop :=
  ∀ v off', p = .ok (v, off') → off ≤ off' ∧ (off' ≤ buff.length ∨ off' = off)

theorem parseInt_bounds {n : Nat} {buff : Bytes} {off off' : Nat} {v : Val}
    (h : parseInt n buff off = .ok (v, off')) : off' = off + n ∧ off' ≤ buff.length := by
  unfold parseInt at h
  split at h
  · cases h
  · rename_i i hi
    cases h
    unfold unpackInt at hi
    split at hi
    · exact ⟨rfl, by assumption⟩
    · cases hi

theorem parseVar_bounds {n : Nat} {buff : Bytes} {off off' : Nat} {v : Val}
    (h : parseVar n buff off = .ok (v, off')) : off + n ≤ off' ∧ off' ≤ buff.length := by
  unfold parseVar at h
  split at h
  · cases h
  · rename_i size hi
    have hb : off + n ≤ buff.length := by
      unfold unpackInt at hi
      split at hi
      · assumption
      · cases hi
    simp only at h
    split at h
    · cases h; exact ⟨le_refl _, hb⟩
    · split at h
      · cases h
      · split at h
        · cases h
        · rename_i value hv
          unfold unpackBytes at hv
          split at hv
          · split at h <;> cases h <;> exact ⟨by omega, by omega⟩
          · cases hv

theorem parseMessageParts_bounds {buff : Bytes} {off off' : Nat} {kvs}
    (h : parseMessageParts buff off = .ok (kvs, off')) :
    off + 14 ≤ off' ∧ off' ≤ buff.length := by
  unfold parseMessageParts at h
  split at h
  · cases h
  · rename_i crc o1 h1
    split at h
    · cases h
    · rename_i magic o2 h2
      split at h
      · cases h
      · rename_i att o3 h3
        split at h
        · cases h
        · rename_i key o4 h4
          split at h
          · cases h
          · rename_i value o5 h5
            cases h
            have := parseInt_bounds h1
            have := parseInt_bounds h2
            have := parseInt_bounds h3
            have := parseVar_bounds h4
            have := parseVar_bounds h5
            omega

theorem parseMessage_bounds {cx : Codec} {buff : Bytes} {off off' : Nat} {kvs}
    (h : parseMessage cx buff off = .ok (kvs, off')) :
    off + 14 ≤ off' ∧ off' ≤ buff.length := by
  unfold parseMessage at h
  split at h
  · cases h
  · rename_i kvs' o1 h1
    have := parseMessageParts_bounds h1
    simp only at h
    split at h
    · cases h; exact this
    · split at h
      · split at h
        · cases h
        · cases h; exact this
      · split at h
        · split at h
          · cases h
          · cases h; exact this
        · cases h; exact this

theorem parseSetEntry_bounds {cx : Codec} {buff : Bytes} {off off' : Nat} {mo kvs}
    (h : parseSetEntry cx buff off = .ok (mo, kvs, off')) :
    off + 26 ≤ off' ∧ off' ≤ buff.length := by
  unfold parseSetEntry at h
  split at h
  · cases h
  · rename_i _ o1 h1
    split at h
    · cases h
    · rename_i _ o2 h2
      split at h
      · cases h
      · rename_i _ o3 h3
        cases h
        have := parseInt_bounds h1
        have := parseInt_bounds h2
        have := parseMessage_bounds h3
        omega

theorem parseSetEntry_err_bounds {cx : Codec} {buff : Bytes} {off off' : Nat} {e}
    (h : parseSetEntry cx buff off = .error (e, off')) :
    off ≤ off' ∧ (off' ≤ buff.length ∨ off' = off) := by
  unfold parseSetEntry at h
  split at h
  · cases h; omega
  · rename_i _ o1 h1
    have := parseInt_bounds h1
    split at h
    · cases h; omega
    · rename_i _ o2 h2
      have := parseInt_bounds h2
      split at h
      · cases h; omega
      · cases h

theorem parseSetLoop_bounds {cx : Codec} {nested} {buff : Bytes} {stop : Int} {fuel : Nat}
    {off off' : Nat} {ms} (h : parseSetLoop cx nested buff stop fuel off = .ok (ms, off')) :
    off ≤ off' ∧ (off' ≤ buff.length ∨ off' = off) := by
  induction fuel generalizing off ms with
  | zero => simp [parseSetLoop] at h
  | succ n ih =>
    unfold parseSetLoop at h
    split at h
    · cases h; omega
    · split at h
      · rename_i o1 h1
        cases h
        exact parseSetEntry_err_bounds h1
      · cases h
      · rename_i mo kvs o1 h1
        have b1 := parseSetEntry_bounds h1
        simp only at h
        split at h
        · cases h
        · split at h
          · cases h
          · rename_i rest o2 h2
            cases h
            have := ih h2
            omega

theorem parseSetLoop_succ (cx : Codec) (nested) (buff : Bytes) (stop : Int) (n off : Nat) :
    parseSetLoop cx nested buff stop (n + 1) off =
      if (off : Int) = stop then .ok ([], off)
      else
        match parseSetEntry cx buff off with
        | .error (.structError, offset) => .ok ([], offset)
        | .error (e, _) => .error e
        | .ok (messageOffset, kvs, offset) =>
          match entryMessages nested messageOffset kvs with
          | .error e => .error e
          | .ok ms =>
            match parseSetLoop cx nested buff stop n offset with
            | .error e => .error e
            | .ok (rest, offset) => .ok (ms ++ rest, offset) := by
  rfl

/-- The fuelled loop computes the unbounded one, if there is fuel for the remaining bytes. -/
theorem parseSetLoop_runs {cx : Codec} {nested} {buff : Bytes} {stop : Int} (fuel off : Nat)
    (acc : List (Val × Val)) (hf : buff.length - off < fuel) :
    ∃ r, SetLoop cx nested buff stop off acc r ∧
      ((∃ e, parseSetLoop cx nested buff stop fuel off = .error e ∧ r = .error e) ∨
      (∃ ms o, parseSetLoop cx nested buff stop fuel off = .ok (ms, o) ∧
        r = .ok (acc ++ ms, o))) := by
  induction fuel generalizing off acc with
  | zero => omega
  | succ n ih =>
    rw [parseSetLoop_succ]
    by_cases hs : (off : Int) = stop
    · exact ⟨_, .stop hs, .inr ⟨[], off, by simp [hs]⟩⟩
    · rw [if_neg hs]
      rcases hp : parseSetEntry cx buff off with ⟨e, o⟩ | ⟨mo, kvs, o⟩
      · by_cases he : e = .structError
        · subst he
          exact ⟨_, .cut hs hp, .inr ⟨[], o, by simp⟩⟩
        · refine ⟨_, .raise hs he hp, .inl ⟨e, ?_, rfl⟩⟩
          cases e <;> first | rfl | exact absurd rfl he
      · have hb := parseSetEntry_bounds hp
        rcases hm : entryMessages nested mo kvs with e | ms
        · exact ⟨_, .raiseNested hs hp hm, .inl ⟨e, by simp only [hm], rfl⟩⟩
        · obtain ⟨r, hr, h⟩ := ih o (acc ++ ms) (by omega)
          refine ⟨r, .next hs hp hm hr, ?_⟩
          rcases h with ⟨e, h, rfl⟩ | ⟨ms', o', h, rfl⟩
          · exact .inl ⟨e, by simp only [hm, h], rfl⟩
          · exact .inr ⟨ms ++ ms', o', by simp only [hm, h], by rw [List.append_assoc]⟩

theorem SetLoop_det {cx : Codec} {nested} {buff : Bytes} {stop : Int} {off : Nat} {acc r r'}
    (h : SetLoop cx nested buff stop off acc r) (h' : SetLoop cx nested buff stop off acc r') :
    r = r' := by
  induction h with
  | stop h1 =>
    cases h' <;> first | rfl | (rename_i h2 _ ; exact absurd h1 h2) |
      (rename_i h2 _ _; exact absurd h1 h2)
  | cut h1 h2 =>
    cases h' with
    | stop h3 => exact absurd h3 h1
    | cut _ h4 => rw [h2] at h4; cases h4; rfl
    | raise _ h5 h4 => rw [h2] at h4; cases h4; exact absurd rfl h5
    | raiseNested _ h4 _ => rw [h2] at h4; cases h4
    | next _ h4 _ _ => rw [h2] at h4; cases h4
  | raise h1 h5 h2 =>
    cases h' with
    | stop h3 => exact absurd h3 h1
    | cut _ h4 => rw [h2] at h4; cases h4; exact absurd rfl h5
    | raise _ _ h4 => rw [h2] at h4; cases h4; rfl
    | raiseNested _ h4 _ => rw [h2] at h4; cases h4
    | next _ h4 _ _ => rw [h2] at h4; cases h4
  | raiseNested h1 h2 h6 =>
    cases h' with
    | stop h3 => exact absurd h3 h1
    | cut _ h4 => rw [h2] at h4; cases h4
    | raise _ _ h4 => rw [h2] at h4; cases h4
    | raiseNested _ h4 h7 => rw [h2] at h4; cases h4; rw [h6] at h7; cases h7; rfl
    | next _ h4 h7 _ => rw [h2] at h4; cases h4; rw [h6] at h7; cases h7
  | next h1 h2 h6 _ ih =>
    cases h' with
    | stop h3 => exact absurd h3 h1
    | cut _ h4 => rw [h2] at h4; cases h4
    | raise _ _ h4 => rw [h2] at h4; cases h4
    | raiseNested _ h4 h7 => rw [h2] at h4; cases h4; rw [h6] at h7; cases h7
    | next _ h4 h7 h8 => rw [h2] at h4; cases h4; rw [h6] at h7; cases h7; exact ih h8

theorem parseItems_bounds {p : Bytes → Nat → Res (Val × Nat)} {buff : Bytes}
    (hp : ∀ off, Bounded (p buff off) buff off) (n off : Nat) :
    Bounded (parseItems p buff n off) buff off := by
  induction n generalizing off with
  | zero => intro v o h; simp only [parseItems] at h; cases h; omega
  | succ n ih =>
    intro v o h
    simp only [parseItems] at h
    split at h
    · cases h
    · rename_i _ o1 h1
      split at h
      · cases h
      · rename_i _ o2 h2
        cases h
        have := hp _ _ _ h1
        have := ih _ _ _ h2
        omega

mutual
theorem parse_bounds (cx : Codec) (depth : Nat) (buff : Bytes) : ∀ (t : Ty) (off : Nat),
    Bounded (parse cx depth t buff off) buff off
  | .int8, off => by
    intro v o h; simp only [parse] at h; have := parseInt_bounds h; omega
  | .int16, off => by
    intro v o h; simp only [parse] at h; have := parseInt_bounds h; omega
  | .int32, off => by
    intro v o h; simp only [parse] at h; have := parseInt_bounds h; omega
  | .int64, off => by
    intro v o h; simp only [parse] at h; have := parseInt_bounds h; omega
  | .string, off => by
    intro v o h; simp only [parse] at h; have := parseVar_bounds h; omega
  | .bytes, off => by
    intro v o h; simp only [parse] at h; have := parseVar_bounds h; omega
  | .array t, off => by
    intro v o h
    simp only [parse] at h
    split at h
    · cases h
    · rename_i count hc
      have hb := (unpackInt_fits (by norm_num) hc).2
      split at h
      · cases h
      · rename_i vs o1 h1
        cases h
        have := parseItems_bounds (p := fun b o => parse cx depth t b o)
          (fun off => parse_bounds cx depth buff t off) _ _ _ _ h1
        omega
  | .part fs, off => by
    intro v o h
    simp only [parse] at h
    split at h
    · cases h
    · rename_i kvs o1 h1
      cases h
      exact parseFields_bounds cx depth buff fs off _ _ h1
  | .messageSet, off => by
    intro v o h
    simp only [parse, parseSet] at h
    split at h
    · cases h
    · rename_i size hc
      have hb := (unpackInt_fits (by norm_num) hc).2
      split at h
      · cases h
      · rename_i ms o1 h1
        cases h
        have := parseSetLoop_bounds h1
        omega
theorem parseFields_bounds (cx : Codec) (depth : Nat) (buff : Bytes) : ∀ (fs : Fields)
    (off : Nat), Bounded (parseFields cx depth fs buff off) buff off
  | .nil, off => by
    intro v o h; simp only [parseFields] at h; cases h; omega
  | .cons name t rest, off => by
    intro v o h
    simp only [parseFields] at h
    split at h
    · cases h
    · rename_i v1 o1 h1
      split at h
      · cases h
      · rename_i kvs o2 h2
        cases h
        have := parse_bounds cx depth buff t off _ _ h1
        have := parseFields_bounds cx depth buff rest _ _ _ h2
        omega
end

end Kiel
