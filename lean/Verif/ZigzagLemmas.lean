import Verif.Varint
import Verif.Spec.Varint
namespace Typical
/-- Closed form of `zigzagEncode`. -/
theorem zz_enc (v : Int64) : ((zigzagEncode v).toNat : Int) = Spec.zigzag v.toInt := by
  have e1 : (v >>> 63).toBitVec = v.toBitVec.sshiftRight 63 := by rfl
  have e2 : (v <<< 1).toBitVec = v.toBitVec <<< 1 := by rfl
  have e3 : (zigzagEncode v).toNat = ((v.toBitVec.sshiftRight 63) ^^^ (v.toBitVec <<< 1)).toNat := by
    rw [← e1, ← e2]; rfl
  have e4 : v.toInt = v.toBitVec.toInt := rfl
  rw [e3, e4]
  generalize v.toBitVec = x
  unfold Spec.zigzag
  have hx := x.isLt
  have hs : x.sshiftRight 63 = BitVec.ofInt 64 (x.toInt >>> 63) := BitVec.sshiftRight_eq
  by_cases h : 2 * x.toNat < 2 ^ 64
  · have hi : x.toInt = x.toNat := by rw [BitVec.toInt_eq_toNat_cond, if_pos h]
    have e : (x.toNat : Int) >>> 63 = 0 := by rw [Int.shiftRight_eq_div_pow]; omega
    rw [hs, hi, e]
    simp [Nat.shiftLeft_eq]
    omega
  · have hi : x.toInt = x.toNat - 2 ^ 64 := by rw [BitVec.toInt_eq_toNat_cond, if_neg h]; rfl
    have e : ((x.toNat : Int) - 2 ^ 64) >>> 63 = -1 := by rw [Int.shiftRight_eq_div_pow]; omega
    have ho : BitVec.ofInt 64 (-1) = BitVec.allOnes 64 := by decide
    rw [hs, hi, e, ho, BitVec.allOnes_xor, BitVec.toNat_not, if_neg (by omega), BitVec.toNat_shiftLeft,
      Nat.shiftLeft_eq]
    omega

theorem zz_dec (u : UInt64) : (zigzagDecode u).toInt = if u.toNat % 2 = 0 then (u.toNat / 2 : Int) else - (u.toNat / 2 : Int) - 1 := by
  have hu := u.toNat_lt
  have e : zigzagDecode u = (u >>> 1).toInt64 ^^^ -((u &&& 1).toInt64) := rfl
  have h1 : (u >>> 1).toNat = u.toNat / 2 := by simp [Nat.shiftRight_eq_div_pow]
  have h3 : ((u >>> 1).toInt64).toInt = u.toNat / 2 := by
    have : ((u >>> 1).toInt64).toInt = (u >>> 1).toBitVec.toInt := rfl
    rw [this, BitVec.toInt_eq_toNat_cond]
    have : (u >>> 1).toBitVec.toNat = u.toNat / 2 := h1
    rw [this, if_pos (by omega)]; rfl
  by_cases h : u.toNat % 2 = 0
  · have : u &&& 1 = 0 := by
      apply UInt64.toNat_inj.1; simp; omega
    rw [if_pos h, e, this]
    have : -((0 : UInt64).toInt64) = 0 := by decide
    rw [this, Int64.xor_zero, h3]
  · have : u &&& 1 = 1 := by
      apply UInt64.toNat_inj.1; simp; omega
    rw [if_neg h, e, this]
    have : -((1 : UInt64).toInt64) = -1 := by decide
    rw [this, Int64.xor_neg_one, Int64.toInt_not, h3]
    rw [Int.bmod_eq_of_le (by omega) (by omega)]
end Typical
