import Verif.Lemmas.Snappy
import Verif.Spec.EndToEnd
/- Reading and writing the format of snappy-java. -/
set_option autoImplicit false
namespace Kiel
open Spec

/-- The blocks of a snappy-java stream. -/
def xblocks (blocks : List Bytes) : Bytes := (blocks.map fun x => be 4 x.length ++ x).flatten

theorem xblocks_cons (x : Bytes) (bs : List Bytes) :
    xblocks (x :: bs) = be 4 x.length ++ (x ++ xblocks bs) := by simp [xblocks]

theorem xblocks_length_ge : ∀ (bs : List Bytes), bs ≠ [] →
    (∀ x ∈ bs.getLast?, 12 ≤ x.length) → 16 ≤ (xblocks bs).length
  | [x], _, h => by
    have := h x (by simp)
    simp [xblocks, be_length]
    omega
  | x :: y :: bs, _, h => by
    have := xblocks_length_ge (y :: bs) (by simp) (by simpa using h)
    rw [xblocks_cons]
    simp
    omega

/-- The loop of `decompress` reads every block, provided the last one is long enough. -/
theorem snappyUnblocks_xblocks {unraw : Bytes → Res Bytes} :
    ∀ (blocks outs : List Bytes), List.Forall₂ (fun x out => unraw x = .ok out) blocks outs →
      (∀ x ∈ blocks, x.length < 2 ^ 31) → (∀ x ∈ blocks.getLast?, 12 ≤ x.length) →
      ∀ (pre : Bytes) (fuel : Nat), (xblocks blocks).length < fuel →
        snappyUnblocks unraw (pre ++ xblocks blocks)
          (((pre ++ xblocks blocks).length : Int) - 16) fuel pre.length = .ok outs.flatten := by
  intro blocks
  induction blocks with
  | nil =>
    intro outs h _ _ pre fuel hf
    cases h
    obtain ⟨f, rfl⟩ : ∃ f, fuel = f + 1 := ⟨fuel - 1, by omega⟩
    rw [snappyUnblocks, if_neg (by simp [xblocks])]
    rfl
  | cons x bs ih =>
    intro outs h hs hl pre fuel hf
    obtain ⟨f, rfl⟩ : ∃ f, fuel = f + 1 := ⟨fuel - 1, by omega⟩
    cases h with
    | @cons _ out _ outs hx hbs =>
      have hlong := xblocks_length_ge (x :: bs) (by simp) hl
      have hsz := hs x (by simp)
      have h4 := be_length 4 (x.length : Int)
      have hlen : (xblocks (x :: bs)).length = 4 + x.length + (xblocks bs).length := by
        rw [xblocks_cons]; simp [be_length]; omega
      have u1 := unpackInt_be (n := 4) (by norm_num) (fits_nat (n := 4) hsz) pre
        (x ++ xblocks bs)
      have hb2 : pre ++ (be 4 x.length ++ (x ++ xblocks bs)) =
          (pre ++ be 4 x.length) ++ (x ++ xblocks bs) := by simp
      have hb3 : pre ++ (be 4 x.length ++ (x ++ xblocks bs)) =
          (pre ++ be 4 x.length ++ x) ++ xblocks bs := by simp
      have u2 := unpackBytes_mid (pre ++ be 4 x.length) x (xblocks bs)
      have hr := ih outs hbs (fun y hy => hs y (by simp [hy]))
        (by
          cases bs with
          | nil => simp
          | cons y bs => simpa using hl)
        (pre ++ be 4 x.length ++ x) f (by omega)
      rw [← hb3] at hr
      have e1 : (pre ++ be 4 x.length).length = pre.length + 4 := by simp [be_length]
      have e2 : (pre ++ be 4 x.length ++ x).length = pre.length + 4 + x.length := by
        simp [be_length, Nat.add_assoc]
      rw [← hb2, e1] at u2
      rw [e2] at hr
      rw [snappyUnblocks, if_pos (by simp only [List.length_append]; omega), xblocks_cons, u1]
      have h0 : ¬ ((x.length : Int) < 0) := by omega
      simp only [h0, if_false, Int.toNat_natCast, u2, hx, hr, List.flatten_cons]

theorem snappyDecompress_xerial {cx : Codec} (hav : cx.snappyAvailable = true)
    {blocks : List Bytes} {raw b : Bytes} (h : Xerial cx.unsnappyRaw blocks raw b)
    (hl : ∀ x ∈ blocks.getLast?, 12 ≤ x.length) : snappyDecompress cx b = .ok raw := by
  obtain rfl := h.header
  obtain ⟨outs, ho, rfl⟩ := h.content
  have := snappyUnblocks_xblocks blocks outs ho h.size hl xerialHeader
    ((xerialHeader ++ xblocks blocks).length + 1) (by simp; omega)
  simp only [snappyDecompress, hav, not_true_eq_false, if_false]
  have e : xerialHeader.length = 16 := by simp [xerialHeader, be_length]
  rw [e] at this
  exact this

/-- What the loop of `compress` writes. -/
theorem snappyBlocks_xblocks {cx : Codec} (laws : SnappyLaws cx) :
    ∀ (fuel : Nat) (data : Bytes), data.length ≤ fuel →
      ∃ blocks outs, snappyBlocks cx.snappyRaw fuel data = .ok (xblocks blocks) ∧
        List.Forall₂ (fun x out => cx.unsnappyRaw x = .ok out) blocks outs ∧
        (∀ x ∈ blocks, x.length < 2 ^ 31) ∧ data = outs.flatten := by
  intro fuel
  induction fuel with
  | zero =>
    intro data hd
    have : data = [] := List.length_eq_zero_iff.mp (by omega)
    subst this
    exact ⟨[], [], rfl, .nil, by simp, rfl⟩
  | succ n ih =>
    intro data hd
    by_cases hz : data = []
    · subst hz
      exact ⟨[], [], rfl, .nil, by simp, rfl⟩
    · have hpos : 0 < data.length := List.length_pos_iff.mpr hz
      have htl : (data.take 32768).length ≤ 32768 := by simp
      have hsz := laws.size _ htl
      have hpk := packInt_ok (fits_nat (n := 4) hsz)
      obtain ⟨bs, outs, h1, h2, h3, h4⟩ := ih (data.drop 32768) (by simp; omega)
      refine ⟨cx.snappyRaw (data.take 32768) :: bs, data.take 32768 :: outs, ?_,
        .cons (laws.inverse _ htl) h2, ?_, ?_⟩
      · rw [snappyBlocks, if_neg hz]
        simp only [snappyBlockSize, Nat.reduceMul, hpk, h1, xblocks_cons, List.append_assoc]
      · intro x hx
        rcases List.mem_cons.mp hx with rfl | hx
        · exact hsz
        · exact h3 x hx
      · rw [List.flatten_cons, ← h4, List.take_append_drop]

theorem snappyCompress_xerial {cx : Codec} (laws : SnappyLaws cx) (data : Bytes) :
    ∃ c blocks, snappyCompress cx data = .ok c ∧ Xerial cx.unsnappyRaw blocks data c := by
  obtain ⟨bs, outs, h1, h2, h3, h4⟩ := snappyBlocks_xblocks laws data.length data (le_refl _)
  exact ⟨snappyHeader ++ xblocks bs, bs, by simp [snappyCompress, laws.available, h1],
    by rw [show snappyHeader = xerialHeader by decide +kernel]; rfl, ⟨outs, h2, h4⟩, h3⟩

end Kiel
