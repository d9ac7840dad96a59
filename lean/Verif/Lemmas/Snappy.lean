import Verif.Lemmas.Messages
/- The block framing of kiel/compression/snappy.py. -/
namespace Kiel
open Spec

theorem lastBlock_small {data : Bytes} (h : data.length ≤ 32768) : lastBlock data = data := by
  unfold lastBlock
  have : (data.length - 1) / 32768 = 0 := by omega
  simp [this]

theorem lastBlock_drop {data : Bytes} (h : 32768 < data.length) :
    lastBlock (data.drop 32768) = lastBlock data := by
  unfold lastBlock
  rw [List.drop_drop, List.length_drop]
  congr 1
  omega

/-- Compressing `data` and reading the blocks back, when followed by `junk` of less than 16
bytes and when the last block is long enough. -/
theorem snappy_blocks {raw : Bytes → Bytes} {unraw : Bytes → Res Bytes}
    (hinv : ∀ b, b.length ≤ 32768 → unraw (raw b) = .ok b)
    (hsize : ∀ b, b.length ≤ 32768 → (raw b).length < 2 ^ 31) (junk : Bytes)
    (hj : junk.length < 16) :
    ∀ (fuel : Nat) (data : Bytes), data.length ≤ fuel →
      (data ≠ [] → 12 ≤ (raw (lastBlock data)).length + junk.length) →
      ∃ out, snappyBlocks raw fuel data = .ok out ∧
        (data ≠ [] → 16 ≤ out.length + junk.length) ∧
        ∀ (pre : Bytes) (fuel' : Nat), out.length < fuel' →
          snappyUnblocks unraw (pre ++ (out ++ junk))
            (((pre ++ (out ++ junk)).length : Int) - 16) fuel' pre.length = .ok data := by
  intro fuel
  induction fuel with
  | zero =>
    intro data hd _
    have : data = [] := List.length_eq_zero_iff.mp (by omega)
    subst this
    refine ⟨[], rfl, by simp, ?_⟩
    intro pre fuel' hf
    obtain ⟨f, rfl⟩ : ∃ f, fuel' = f + 1 := ⟨fuel' - 1, by simp at hf; omega⟩
    rw [snappyUnblocks, if_neg (by simp; omega)]
  | succ n ih =>
    intro data hd hlast
    by_cases hz : data = []
    · subst hz
      refine ⟨[], rfl, by simp, ?_⟩
      intro pre fuel' hf
      obtain ⟨f, rfl⟩ : ∃ f, fuel' = f + 1 := ⟨fuel' - 1, by simp at hf; omega⟩
      rw [snappyUnblocks, if_neg (by simp; omega)]
    · have hpos : 0 < data.length := List.length_pos_iff.mpr hz
      have htl : (data.take 32768).length ≤ 32768 := by simp
      have hsz := hsize _ htl
      have hpk := packInt_ok (fits_nat (n := 4) hsz)
      have hlen4 := be_length 4 ((raw (data.take 32768)).length : Int)
      have hrest : (data.drop 32768).length ≤ n := by simp; omega
      obtain ⟨out, h1, h2, h3⟩ := ih (data.drop 32768) hrest (by
        intro hne
        have : 0 < (data.drop 32768).length := List.length_pos_iff.mpr hne
        rw [lastBlock_drop (by simp at this; omega)]
        exact hlast hz)
      refine ⟨be 4 (raw (data.take 32768)).length ++ raw (data.take 32768) ++ out, ?_, ?_, ?_⟩
      · rw [snappyBlocks, if_neg hz]
        simp only [snappyBlockSize, Nat.reduceMul, hpk, h1]
      · intro _
        by_cases hr : data.drop 32768 = []
        · have hle : data.length ≤ 32768 := by simpa using hr
          have := hlast hz
          rw [lastBlock_small hle] at this
          rw [List.take_of_length_le hle]
          simp [be_length]
          omega
        · have := h2 hr
          simp
          omega
      · intro pre fuel' hf
        obtain ⟨f, rfl⟩ : ∃ f, fuel' = f + 1 := ⟨fuel' - 1, by simp at hf; omega⟩
        have hbig : 16 ≤ (be 4 (raw (data.take 32768)).length ++ raw (data.take 32768) ++
            out).length + junk.length := by
          by_cases hr : data.drop 32768 = []
          · have hle : data.length ≤ 32768 := by simpa using hr
            have := hlast hz
            rw [lastBlock_small hle] at this
            rw [List.take_of_length_le hle]
            simp [be_length]
            omega
          · have := h2 hr
            simp
            omega
        set comp := raw (data.take 32768) with hcomp
        have hb1 : pre ++ (be 4 comp.length ++ comp ++ out ++ junk) =
            pre ++ (be 4 comp.length ++ (comp ++ (out ++ junk))) := by simp
        have hb2 : pre ++ (be 4 comp.length ++ (comp ++ (out ++ junk))) =
            (pre ++ be 4 comp.length) ++ (comp ++ (out ++ junk)) := by simp
        have hb3 : (pre ++ be 4 comp.length) ++ (comp ++ (out ++ junk)) =
            (pre ++ be 4 comp.length ++ comp) ++ (out ++ junk) := by simp
        have u1 := unpackInt_be (n := 4) (by norm_num) (fits_nat (n := 4) hsz) pre
          (comp ++ (out ++ junk))
        have u2 := unpackBytes_mid (pre ++ be 4 comp.length) comp (out ++ junk)
        have u3 := h3 (pre ++ be 4 comp.length ++ comp) f
          (by simp [be_length] at hf; omega)
        rw [List.length_append, be_length, ← hb2] at u2
        rw [← hb3, ← hb2] at u3
        simp only [List.length_append, be_length] at u3
        rw [snappyUnblocks, if_pos (by simp [be_length] at hbig ⊢; omega), hb1, u1]
        simp only [Int.toNat_natCast]
        rw [if_neg (by omega), u2]
        simp only [hcomp, hinv _ htl]
        simp only [← hcomp, List.length_append, be_length] at u3 ⊢
        rw [u3]
        simp

/-- Compressing a whole number of blocks followed by a last, shorter one. -/
theorem snappyBlocks_append {raw : Bytes → Bytes}
    (hsize : ∀ b, b.length ≤ 32768 → (raw b).length < 2 ^ 31) (last : Bytes) (hl : last ≠ [])
    (hl' : last.length ≤ 32768) :
    ∀ (n : Nat) (front : Bytes) (fuel fuel' : Nat) (out : Bytes),
      front.length = 32768 * n → front.length ≤ fuel → (front ++ last).length ≤ fuel' →
      snappyBlocks raw fuel front = .ok out →
      snappyBlocks raw fuel' (front ++ last) =
        .ok (out ++ (be 4 (raw last).length ++ raw last)) := by
  intro n
  have hlp : 0 < last.length := List.length_pos_iff.mpr hl
  induction n with
  | zero =>
    intro front fuel fuel' out h1 h2 h3 h4
    have : front = [] := List.length_eq_zero_iff.mp (by omega)
    subst this
    have ho : out = [] := by
      cases fuel with
      | zero => simp only [snappyBlocks] at h4; cases h4; rfl
      | succ f => simp only [snappyBlocks, if_true] at h4; cases h4; rfl
    subst ho
    obtain ⟨f, rfl⟩ : ∃ f, fuel' = f + 1 := ⟨fuel' - 1, by simp at h3; omega⟩
    rw [List.nil_append, snappyBlocks, if_neg hl]
    simp only [snappyBlockSize, Nat.reduceMul, List.take_of_length_le hl',
      packInt_ok (fits_nat (n := 4) (hsize _ hl'))]
    rw [List.drop_of_length_le hl']
    cases f <;> simp [snappyBlocks]
  | succ n ih =>
    intro front fuel fuel' out h1 h2 h3 h4
    have hne : front ≠ [] := by
      intro h; subst h; simp at h1
    obtain ⟨g, rfl⟩ : ∃ g, fuel = g + 1 := ⟨fuel - 1, by omega⟩
    obtain ⟨f, rfl⟩ : ∃ f, fuel' = f + 1 := ⟨fuel' - 1, by simp at h3; omega⟩
    have hsz := hsize (front.take 32768) (by simp)
    rw [snappyBlocks, if_neg hne] at h4
    simp only [snappyBlockSize, Nat.reduceMul, packInt_ok (fits_nat (n := 4) hsz)] at h4
    rcases hr : snappyBlocks raw g (front.drop 32768) with e | rest
    · rw [hr] at h4; cases h4
    · rw [hr] at h4
      simp only [Except.ok.injEq] at h4
      have := ih (front.drop 32768) g f rest (by simp; omega) (by simp; omega)
        (by simp at h3 ⊢; omega) hr
      rw [snappyBlocks, if_neg (by simp [hne])]
      simp only [snappyBlockSize, Nat.reduceMul]
      rw [List.take_append_of_le_length (by omega), List.drop_append_of_le_length (by omega)]
      simp only [packInt_ok (fits_nat (n := 4) hsz), this]
      rw [← h4]
      simp

theorem snappyUnblocks_fuel (raw : Bytes → Res Bytes) (data : Bytes) (len : Int) :
    ∀ (f off : Nat), (data.length - off) < f → ∀ g, (data.length - off) < g →
      snappyUnblocks raw data len f off = snappyUnblocks raw data len g off := by
  intro f
  induction f with
  | zero => intro off h; omega
  | succ f ih =>
    intro off h g hg
    obtain ⟨g, rfl⟩ : ∃ k, g = k + 1 := ⟨g - 1, by omega⟩
    rw [snappyUnblocks, snappyUnblocks]
    split
    · rcases h1 : unpackInt 4 data off with e | size
      · rfl
      · have hb := (unpackInt_fits (by norm_num) h1).2
        simp only
        split
        · rfl
        · rcases unpackBytes size.toNat data (off + 4) with e | b
          · rfl
          · simp only
            rcases raw b with e | o
            · rfl
            · simp only
              rw [ih (off + 4 + size.toNat) (by omega) g (by omega)]
    · rfl

end Kiel
