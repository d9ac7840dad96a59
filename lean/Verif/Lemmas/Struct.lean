import Verif.Spec.Wire
import Mathlib.Data.List.Induction
import Mathlib.Tactic.Ring
import Mathlib.Tactic.Linarith
/- Lemmas about integer packing. -/
namespace Kiel

theorem natBE_length (n x : Nat) : (natBE n x).length = n := by
  induction n generalizing x with
  | zero => rfl
  | succ n ih => simp [natBE, ih]

theorem beNat_append (a : Bytes) (b : UInt8) : beNat (a ++ [b]) = beNat a * 256 + b.toNat := by
  simp [beNat]

theorem beNat_natBE (n x : Nat) : beNat (natBE n x) = x % 256 ^ n := by
  induction n generalizing x with
  | zero => simp [natBE, beNat, Nat.mod_one]
  | succ n ih =>
    rw [natBE, beNat_append, ih, UInt8.toNat_ofNat']
    have : (2:Nat)^8 = 256 := rfl
    rw [this, Nat.mod_mod, pow_succ, Nat.mul_comm (256^n) 256, Nat.mod_mul]
    ring

theorem natBE_eq_be_aux (n x : Nat) :
    natBE n x = (List.range n).map fun i => UInt8.ofNat (x / 256 ^ (n - 1 - i) % 256) := by
  induction n generalizing x with
  | zero => rfl
  | succ n ih =>
    rw [natBE, ih, List.range_succ, List.map_append]
    congr 1
    · apply List.map_congr_left
      intro i hi
      rw [List.mem_range] at hi
      congr 2
      rw [Nat.div_div_eq_div_mul, ← pow_succ']
      congr 2
      omega
    · simp

theorem natBE_eq_be (n : Nat) (v : Int) : natBE n (v % 2 ^ (8 * n)).toNat = Spec.be n v := by
  rw [natBE_eq_be_aux, Spec.be, pow_mul]
  norm_num

theorem be_length (n : Nat) (v : Int) : (Spec.be n v).length = n := by simp [Spec.be]

theorem beNat_lt (bs : Bytes) : beNat bs < 256 ^ bs.length := by
  induction bs using List.reverseRecOn with
  | nil => simp [beNat]
  | append_singleton l a ih =>
    rw [beNat_append]
    have := a.toNat_lt
    simp only [List.length_append, List.length_singleton, pow_succ]
    omega

theorem natBE_beNat (bs : Bytes) : natBE bs.length (beNat bs) = bs := by
  induction bs using List.reverseRecOn with
  | nil => rfl
  | append_singleton l a ih =>
    have := a.toNat_lt
    rw [beNat_append, List.length_append, List.length_singleton, natBE]
    have h1 : (beNat l * 256 + a.toNat) / 256 = beNat l := by omega
    have h2 : (beNat l * 256 + a.toNat) % 256 = a.toNat := by omega
    rw [h1, h2, ih]
    simp

theorem be_signedBE (bs : Bytes) : Spec.be bs.length (signedBE bs) = bs := by
  rw [← natBE_eq_be]
  have hb := beNat_lt bs
  have h256 : (256 : Nat) ^ bs.length = 2 ^ (8 * bs.length) := by rw [pow_mul]; norm_num
  rw [h256] at hb
  have e : ((2 ^ (8 * bs.length) : Nat) : Int) = (2 : Int) ^ (8 * bs.length) := by norm_cast
  have : (signedBE bs % 2 ^ (8 * bs.length)).toNat = beNat bs := by
    rw [← e]
    simp only [signedBE]
    split
    · rw [Int.emod_eq_of_lt (by omega) (by omega)]; omega
    · rw [← e, Int.sub_emod_right, Int.emod_eq_of_lt (by omega) (by omega)]; omega
  rw [this, natBE_beNat]

theorem inRange_iff (n : Nat) (v : Int) : inRange n v = true ↔ Spec.Fits n v := by
  have e : ((2 ^ (8 * n - 1) : Nat) : Int) = (2 : Int) ^ (8 * n - 1) := by norm_cast
  unfold Spec.Fits
  rw [← e]
  cases v with
  | ofNat k =>
    simp only [inRange, Nat.blt_eq, Int.ofNat_eq_natCast]
    omega
  | negSucc k =>
    simp only [inRange, Nat.blt_eq]
    omega

theorem packInt_ok {n : Nat} {v : Int} (h : Spec.Fits n v) : packInt n v = .ok (Spec.be n v) := by
  rw [packInt, if_pos ((inRange_iff n v).mpr h), natBE_eq_be]

theorem packInt_err {n : Nat} {v : Int} (h : ¬ Spec.Fits n v) :
    packInt n v = .error .structError := by
  rw [packInt, if_neg (fun h' => h ((inRange_iff n v).mp h'))]

theorem signedBE_be {n : Nat} (hn : 0 < n) {v : Int} (h : Spec.Fits n v) :
    signedBE (Spec.be n v) = v := by
  rw [signedBE, be_length, ← natBE_eq_be, beNat_natBE]
  have h256 : (256 : Nat) ^ n = 2 ^ (8 * n) := by rw [pow_mul]; norm_num
  rw [h256]
  obtain ⟨k, hk⟩ : ∃ k, 8 * n = k + 1 := ⟨8 * n - 1, by omega⟩
  obtain ⟨h1, h2⟩ := h
  rw [hk] at h1 h2 ⊢
  simp only [Nat.add_sub_cancel] at h1 h2 ⊢
  have hp : (0 : Int) < 2 ^ k := by positivity
  have e : (2 : Int) ^ (k + 1) = 2 * 2 ^ k := by ring
  have en : (2 : Nat) ^ (k + 1) = 2 * 2 ^ k := by ring
  have c : ((2 ^ k : Nat) : Int) = (2 : Int) ^ k := by norm_cast
  rw [e, en]
  generalize (2 : Int) ^ k = p at *
  generalize 2 ^ k = q at *
  subst c
  by_cases hv : 0 ≤ v
  · have m : v % (2 * (q : Int)) = v := Int.emod_eq_of_lt hv (by omega)
    rw [m, Nat.mod_eq_of_lt (by omega)]
    rw [if_pos (by omega)]
    omega
  · have m : v % (2 * (q : Int)) = v + 2 * q := by
      rw [← Int.add_emod_right]
      exact Int.emod_eq_of_lt (by omega) (by omega)
    rw [m, Nat.mod_eq_of_lt (by omega)]
    rw [if_neg (by omega)]
    omega

theorem drop_take_mid (pre mid suf : Bytes) :
    ((pre ++ mid ++ suf).drop pre.length).take mid.length = mid := by
  simp

theorem unpackInt_be {n : Nat} (hn : 0 < n) {v : Int} (h : Spec.Fits n v) (pre suf : Bytes) :
    unpackInt n (pre ++ (Spec.be n v ++ suf)) pre.length = .ok v := by
  rw [unpackInt, if_pos (by simp [be_length]), ← List.append_assoc]
  have := drop_take_mid pre (Spec.be n v) suf
  rw [be_length] at this
  rw [this, signedBE_be hn h]

theorem unpackBytes_mid (pre b suf : Bytes) :
    unpackBytes b.length (pre ++ (b ++ suf)) pre.length = .ok b := by
  rw [unpackBytes, if_pos (by simp), ← List.append_assoc, drop_take_mid]

theorem unpackInt_fits {n : Nat} (hn : 0 < n) {buff : Bytes} {off : Nat} {v : Int}
    (h : unpackInt n buff off = .ok v) : Spec.Fits n v ∧ off + n ≤ buff.length := by
  unfold unpackInt at h
  split at h
  · rename_i hl
    refine ⟨?_, hl⟩
    cases h
    have hlen : ((buff.drop off).take n).length = n := by simp; omega
    generalize (buff.drop off).take n = bs at hlen ⊢
    have hb : beNat bs < 256 ^ bs.length := by
      clear hlen hl
      induction bs using List.reverseRecOn with
      | nil => simp [beNat]
      | append_singleton l a ih =>
        rw [beNat_append]
        have := a.toNat_lt
        simp only [List.length_append, List.length_singleton, pow_succ]
        omega
    rw [hlen] at hb
    have h256 : (256 : Nat) ^ n = 2 ^ (8 * n) := by rw [pow_mul]; norm_num
    rw [h256] at hb
    rw [signedBE, hlen]
    obtain ⟨k, hk⟩ : ∃ k, 8 * n = k + 1 := ⟨8 * n - 1, by omega⟩
    unfold Spec.Fits
    rw [hk] at hb ⊢
    simp only [Nat.add_sub_cancel]
    have e : (2 : Int) ^ (k + 1) = 2 * 2 ^ k := by ring
    have en : (2 : Nat) ^ (k + 1) = 2 * 2 ^ k := by ring
    have c : ((2 ^ k : Nat) : Int) = (2 : Int) ^ k := by norm_cast
    rw [e]; rw [en] at hb
    generalize (2 : Int) ^ k = p at *
    generalize 2 ^ k = q at *
    subst c
    split <;> omega
  · cases h

end Kiel
