import Mathlib.Tactic.Ring
import Mathlib.Tactic.LinearCombination
import Mathlib.Algebra.CharP.Two
import Mathlib.Data.Nat.Bitwise
import Mathlib.Algebra.Polynomial.Monic
import Mathlib.Algebra.Polynomial.Degree.Lemmas
import Mathlib.Tactic.ComputeDegree
import Verif.Spec.Crc
import Verif.Lemmas.Wire
/- `crc32` is CRC-32. -/
set_option autoImplicit false
namespace Kiel
open Spec Polynomial

/-- A number below 2^32 as a remainder: its lowest bit is the coefficient of X^31. -/
noncomputable def regPoly (c : Nat) : (ZMod 2)[X] := bitsPoly (lowBits 32 c)

theorem poly_two (p : (ZMod 2)[X]) : p + p = 0 := by
  have h : (C (1 + 1 : ZMod 2) : (ZMod 2)[X]) = 0 := by
    have : (1 + 1 : ZMod 2) = 0 := by decide
    rw [this, C_0]
  rw [C_add, C_1] at h
  linear_combination p * h

theorem bitsPoly_snoc (a : List Bool) (x : Bool) :
    bitsPoly (a ++ [x]) = bitsPoly a * X + if x then 1 else 0 := by
  simp [bitsPoly, List.foldl_append]

theorem bitsPoly_append (a b : List Bool) :
    bitsPoly (a ++ b) = bitsPoly a * X ^ b.length + bitsPoly b := by
  induction b using List.reverseRecOn with
  | nil => simp [bitsPoly]
  | append_singleton b x ih =>
    rw [← List.append_assoc, bitsPoly_snoc, bitsPoly_snoc, ih, List.length_append,
      List.length_singleton]
    ring

theorem bitsPoly_cons (x : Bool) (b : List Bool) :
    bitsPoly (x :: b) = (if x then X ^ b.length else 0) + bitsPoly b := by
  rw [← List.singleton_append, bitsPoly_append]
  cases x <;> simp [bitsPoly]

/-- Bitwise sums. -/
theorem bitsPoly_xor (n a b : Nat) :
    bitsPoly (lowBits n (a ^^^ b)) = bitsPoly (lowBits n a) + bitsPoly (lowBits n b) := by
  induction n with
  | zero => simp [lowBits, bitsPoly]
  | succ n ih =>
    simp only [lowBits, List.range_succ, List.map_append, List.map_cons, List.map_nil] at ih ⊢
    rw [bitsPoly_snoc, bitsPoly_snoc, bitsPoly_snoc, ih, Nat.testBit_xor]
    have := poly_two (1 : (ZMod 2)[X])
    cases a.testBit n <;> cases b.testBit n <;> simp only [Bool.xor_false, Bool.xor_true,
      Bool.false_eq_true, Bool.not_true, Bool.not_false, if_true, if_false]
    · ring
    · ring
    · ring
    · linear_combination -this

theorem lowBits_succ (n c : Nat) : lowBits (n + 1) c = c.testBit 0 :: lowBits n (c / 2) := by
  simp only [lowBits, List.range_succ_eq_map, List.map_cons, List.map_map]
  congr 1
  apply List.map_congr_left
  intro k _
  simp [Nat.testBit_succ]

theorem lowBits_length (n c : Nat) : (lowBits n c).length = n := by simp [lowBits]

/-- One step of the division. -/
theorem regPoly_bit {c : Nat} (h : c < 2 ^ 32) :
    ∃ q : (ZMod 2)[X], X * regPoly c = q * generator + regPoly (crcBit c) := by
  have hhalf : regPoly (c / 2) = X * bitsPoly (lowBits 31 (c / 2)) := by
    have : lowBits 32 (c / 2) = lowBits 31 (c / 2) ++ [false] := by
      simp only [lowBits, List.range_succ (n := 31), List.map_append, List.map_cons, List.map_nil]
      congr 2
      apply Nat.testBit_lt_two_pow
      omega
    rw [regPoly, this, bitsPoly_append]
    simp [bitsPoly]; ring
  have hx : X * regPoly c = (if c.testBit 0 then X ^ 32 else 0) + regPoly (c / 2) := by
    rw [hhalf, regPoly, lowBits_succ, bitsPoly_cons, lowBits_length]
    split <;> ring
  have hp : regPoly 0xEDB88320 = generator + X ^ 32 := by
    have e : lowBits 32 0xEDB88320 = [false, false, false, false, false, true, false, false, true,
      true, false, false, false, false, false, true, false, false, false, true, true, true, false,
      true, true, false, true, true, false, true, true, true] := by decide +kernel
    have h2 := poly_two (X ^ 32 : (ZMod 2)[X])
    rw [regPoly, e, generator]
    simp only [bitsPoly, List.foldl_cons, List.foldl_nil]
    simp only [Bool.false_eq_true, if_false, if_true]
    linear_combination -h2
  unfold crcBit
  by_cases hc : c % 2 = 1
  · have ht : c.testBit 0 = true := by simp [Nat.testBit_zero, hc]
    rw [if_pos hc, hx, ht, if_pos rfl]
    refine ⟨1, ?_⟩
    have : regPoly (Nat.xor 0xEDB88320 (c / 2)) = regPoly 0xEDB88320 + regPoly (c / 2) :=
      bitsPoly_xor 32 _ _
    rw [this, hp]
    have h2 := poly_two generator
    linear_combination -h2
  · have ht : c.testBit 0 = false := by simp [Nat.testBit_zero, hc]
    rw [if_neg hc, hx, ht]
    exact ⟨0, by simp⟩

theorem regPoly_bits {c : Nat} (h : c < 2 ^ 32) {p : (ZMod 2)[X]}
    (hp : ∃ q, p = q * generator + regPoly c) :
    ∃ q, X * p = q * generator + regPoly (crcBit c) := by
  obtain ⟨q, rfl⟩ := hp
  obtain ⟨r, hr⟩ := regPoly_bit h
  exact ⟨X * q + r, by linear_combination hr⟩

/-- Eight steps. -/
theorem regPoly_byte {c : Nat} (h : c < 2 ^ 32) (b : UInt8) {p : (ZMod 2)[X]}
    (hp : ∃ q, p = q * generator + regPoly c) :
    ∃ q, X ^ 8 * p + X ^ 32 * bitsPoly (lowBits 8 b.toNat) =
      q * generator + regPoly (crcByte c b) := by
  have hb : X ^ 8 * regPoly b.toNat = X ^ 32 * bitsPoly (lowBits 8 b.toNat) := by
    have : lowBits 32 b.toNat = lowBits 8 b.toNat ++ List.replicate 24 false := by
      have hr : List.range 32 = List.range 8 ++ (List.range 24).map (8 + ·) := by decide
      rw [lowBits, hr, List.map_append, ← lowBits, List.map_map]
      congr 1
      rw [List.eq_replicate_iff]
      refine ⟨by simp, ?_⟩
      intro x hx
      obtain ⟨k, -, rfl⟩ := List.mem_map.mp hx
      apply Nat.testBit_lt_two_pow
      calc b.toNat < 2 ^ 8 := b.toNat_lt
        _ ≤ 2 ^ (8 + k) := Nat.pow_le_pow_right (by norm_num) (by omega)
    rw [regPoly, this, bitsPoly_append]
    simp [bitsPoly, List.replicate]
    ring
  have h0 : ∃ q, p + regPoly b.toNat = q * generator + regPoly (Nat.xor c b.toNat) := by
    obtain ⟨q, rfl⟩ := hp
    have : regPoly (Nat.xor c b.toNat) = regPoly c + regPoly b.toNat := bitsPoly_xor 32 _ _
    exact ⟨q, by rw [this]; ring⟩
  have l0 : Nat.xor c b.toNat < 2 ^ 32 :=
    xor_lt h (lt_trans b.toNat_lt (by norm_num))
  have h1 := regPoly_bits l0 h0
  have l1 := crcBit_lt l0
  have h2 := regPoly_bits l1 h1
  have l2 := crcBit_lt l1
  have h3 := regPoly_bits l2 h2
  have l3 := crcBit_lt l2
  have h4 := regPoly_bits l3 h3
  have l4 := crcBit_lt l3
  have h5 := regPoly_bits l4 h4
  have l5 := crcBit_lt l4
  have h6 := regPoly_bits l5 h5
  have l6 := crcBit_lt l5
  have h7 := regPoly_bits l6 h6
  have l7 := crcBit_lt l6
  obtain ⟨q, hq⟩ := regPoly_bits l7 h7
  exact ⟨q, by rw [← hb]; unfold crcByte; linear_combination hq⟩

theorem regPoly_fold (bs : Bytes) {c : Nat} (h : c < 2 ^ 32) {p : (ZMod 2)[X]}
    (hp : ∃ q, p = q * generator + regPoly c) :
    ∃ q, X ^ (8 * bs.length) * p + X ^ 32 * bitsPoly (messageBits bs) =
      q * generator + regPoly (bs.foldl crcByte c) := by
  induction bs generalizing c p with
  | nil =>
    obtain ⟨q, hq⟩ := hp
    exact ⟨q, by simp [messageBits, bitsPoly, hq]⟩
  | cons b bs ih =>
    obtain ⟨q, hq⟩ := ih (crcByte_lt b h) (regPoly_byte h b hp)
    refine ⟨q, ?_⟩
    have hl : (messageBits bs).length = 8 * bs.length := by
      clear ih hq
      induction bs with
      | nil => rfl
      | cons a l ih =>
        simp only [messageBits, List.flatMap_cons, List.length_append, lowBits_length] at ih ⊢
        rw [ih]; simp; ring
    have he : messageBits (b :: bs) = lowBits 8 b.toNat ++ messageBits bs := by
      simp [messageBits]
    rw [List.foldl_cons, ← hq, he, bitsPoly_append, hl, List.length_cons]
    ring

theorem bitsPoly_not (n c : Nat) :
    (lowBits n (Nat.xor (2 ^ n - 1) c)).map not = lowBits n c := by
  unfold lowBits
  rw [List.map_map]
  apply List.map_congr_left
  intro k hk
  have hk := List.mem_range.mp hk
  have h2 : (2 ^ n - 1).testBit k = true := by rw [Nat.testBit_two_pow_sub_one]; simp [hk]
  simp [Function.comp, h2]

/-- The model's `zlib.crc32` is CRC-32. -/
theorem isCrc32_crc32 (bs : Bytes) : IsCrc32 bs (crc32 bs) := by
  refine ⟨crc32_lt bs, ?_⟩
  have h0 : (0xFFFFFFFF : Nat) < 2 ^ 32 := by norm_num
  obtain ⟨q, hq⟩ := regPoly_fold bs h0 (p := regPoly 0xFFFFFFFF) ⟨0, by simp⟩
  refine ⟨q, ?_⟩
  have hn : (lowBits 32 (crc32 bs)).map not = lowBits 32 (bs.foldl crcByte 0xFFFFFFFF) :=
    bitsPoly_not 32 _
  have ho : lowBits 32 0xFFFFFFFF = List.replicate 32 true := by decide +kernel
  rw [hn, ← ho]
  unfold regPoly at hq
  linear_combination hq

/-! There is only one such number. -/

theorem coeff_bitsPoly (l : List Bool) (k : Nat) :
    (bitsPoly l).coeff k = if l.reverse[k]? = some true then 1 else 0 := by
  induction l using List.reverseRecOn generalizing k with
  | nil => simp [bitsPoly]
  | append_singleton a x ih =>
    rw [bitsPoly_snoc, coeff_add, List.reverse_append]
    cases k with
    | zero => cases x <;> simp
    | succ k =>
      rw [coeff_mul_X, ih]
      cases x <;> simp [coeff_one]

theorem bitsPoly_inj {a b : List Bool} (hl : a.length = b.length)
    (h : bitsPoly a = bitsPoly b) : a = b := by
  apply List.reverse_injective
  apply List.ext_getElem?
  intro k
  have hk := congrArg (fun p => p.coeff k) h
  simp only [coeff_bitsPoly] at hk
  by_cases hlt : k < a.length
  · have h1 : k < a.reverse.length := by simpa using hlt
    have h2 : k < b.reverse.length := by simpa [← hl] using hlt
    rw [List.getElem?_eq_getElem h1, List.getElem?_eq_getElem h2] at hk ⊢
    cases hx : a.reverse[k] <;> cases hy : b.reverse[k] <;> simp [hx, hy] at hk ⊢
  · rw [List.getElem?_eq_none (by simpa using hlt),
      List.getElem?_eq_none (by simpa [← hl] using hlt)]

theorem generator_monic : generator.Monic := by
  unfold generator
  monicity!

theorem generator_natDegree : generator.natDegree = 32 := by
  unfold generator
  compute_degree!

/-- **The checksum is determined**: a byte string has one CRC-32. -/
theorem isCrc32_unique {bs : Bytes} {c d : Nat} (hc : IsCrc32 bs c) (hd : IsCrc32 bs d) :
    c = d := by
  obtain ⟨lc, q, hq⟩ := hc
  obtain ⟨ld, r, hr⟩ := hd
  have he : (r - q) * generator =
      bitsPoly ((lowBits 32 c).map not) - bitsPoly ((lowBits 32 d).map not) := by
    linear_combination hq - hr
  have hz : r - q = 0 := by
    by_contra hne
    have h1 : ((r - q) * generator).natDegree = (r - q).natDegree + 32 := by
      rw [mul_comm, generator_monic.natDegree_mul' hne, generator_natDegree, add_comm]
    have h2 : ((r - q) * generator).coeff ((r - q).natDegree + 32) ≠ 0 := by
      rw [← h1]
      exact leadingCoeff_ne_zero.mpr (by
        intro h0
        rw [generator_monic.mul_left_eq_zero_iff] at h0
        exact hne h0)
    apply h2
    rw [he, coeff_sub, coeff_bitsPoly, coeff_bitsPoly,
      List.getElem?_eq_none (by simp [lowBits_length]),
      List.getElem?_eq_none (by simp [lowBits_length])]
    simp
  have hp : bitsPoly ((lowBits 32 c).map not) = bitsPoly ((lowBits 32 d).map not) := by
    rw [hz, zero_mul] at he
    exact (sub_eq_zero.mp he.symm)
  have hb := bitsPoly_inj (by simp [lowBits_length]) hp
  have hb := List.map_injective_iff.mpr (fun a b h => by cases a <;> cases b <;> simp_all) hb
  apply Nat.eq_of_testBit_eq
  intro k
  by_cases hk : k < 32
  · have := congrArg (fun l => l[k]?) hb
    simpa [lowBits, hk] using this
  · have h2 : 2 ^ 32 ≤ 2 ^ k := Nat.pow_le_pow_right (by norm_num) (by omega)
    rw [Nat.testBit_lt_two_pow (lt_of_lt_of_le lc h2),
      Nat.testBit_lt_two_pow (lt_of_lt_of_le ld h2)]

end Kiel
