import Verif.Varint
import Verif.Spec.Varint

/-!
# Helper lemmas about variable-width integers

Nothing here is a property theorem; the properties are stated in `Verif.Props.Varint`.
-/

namespace Typical

set_option linter.unusedSimpArgs false

theorem or_low (a k b : Nat) (hb : b < 2 ^ k) : 2 ^ k * a ||| b = 2 ^ k * a + b := by
  rw [Nat.two_pow_add_eq_or_of_lt hb]

/-- Little-endian value of a byte string. -/
def leNat : Bytes → Nat
  | [] => 0
  | b :: bs => b.toNat + 256 * leNat bs

theorem leNat_lt (bs : Bytes) : leNat bs < 256 ^ bs.length := by
  induction bs with
  | nil => simp [leNat]
  | cons b bs ih =>
    have := b.toNat_lt
    simp only [leNat, List.length_cons, Nat.pow_succ]
    omega

theorem toNat_fromLeBytes (bs : Bytes) (h : bs.length ≤ 8) : (fromLeBytes bs).toNat = leNat bs := by
  induction bs with
  | nil => rfl
  | cons b bs ih =>
    simp only [List.length_cons] at h
    have ih := ih (by omega)
    have h1 := leNat_lt bs
    have h2 : 256 ^ bs.length ≤ 256 ^ 7 := Nat.pow_le_pow_right (by decide) (by omega)
    have h3 := b.toNat_lt
    have h4 := or_low (leNat bs) 8 b.toNat h3
    simp only [fromLeBytes, leNat, UInt64.toNat_or, UInt8.toNat_toUInt64, UInt64.toNat_shiftLeft, ih]
    simp only [Nat.shiftLeft_eq]
    rw [Nat.mod_eq_of_lt (by simp; omega)]
    simp only [UInt64.reduceToNat, Nat.reduceMod]
    rw [Nat.or_comm]
    rw [show leNat bs * 2 ^ 8 = 2 ^ 8 * leNat bs by omega]
    omega

theorem trailingZeros_le (b : UInt8) : trailingZeros b ≤ 8 := by
  unfold trailingZeros; repeat' split
  all_goals omega

/-- Complete description of `trailingZeros`, checked on all 256 bytes. -/
theorem trailingZeros_table : ∀ n < 256,
    (n % 2 = 1 → trailingZeros (UInt8.ofNat n) = 0) ∧
    (n % 4 = 2 → trailingZeros (UInt8.ofNat n) = 1) ∧
    (n % 8 = 4 → trailingZeros (UInt8.ofNat n) = 2) ∧
    (n % 16 = 8 → trailingZeros (UInt8.ofNat n) = 3) ∧
    (n % 32 = 16 → trailingZeros (UInt8.ofNat n) = 4) ∧
    (n % 64 = 32 → trailingZeros (UInt8.ofNat n) = 5) ∧
    (n % 128 = 64 → trailingZeros (UInt8.ofNat n) = 6) ∧
    (n = 128 → trailingZeros (UInt8.ofNat n) = 7) ∧
    (n = 0 → trailingZeros (UInt8.ofNat n) = 8) := by
  decide +kernel

theorem trailingZeros_spec (b : UInt8) :
    (b.toNat % 2 = 1 → trailingZeros b = 0) ∧
    (b.toNat % 4 = 2 → trailingZeros b = 1) ∧
    (b.toNat % 8 = 4 → trailingZeros b = 2) ∧
    (b.toNat % 16 = 8 → trailingZeros b = 3) ∧
    (b.toNat % 32 = 16 → trailingZeros b = 4) ∧
    (b.toNat % 64 = 32 → trailingZeros b = 5) ∧
    (b.toNat % 128 = 64 → trailingZeros b = 6) ∧
    (b.toNat = 128 → trailingZeros b = 7) ∧
    (b.toNat = 0 → trailingZeros b = 8) := by
  have := trailingZeros_table b.toNat b.toNat_lt
  simpa using this

theorem toNat_first (w : UInt64) (k : Nat) (hk : k < 8) (hk0 : 0 < k) (b : UInt8)
    (hb : b.toNat = 2 ^ (k - 1)) (s : UInt64) (hs : s.toNat = k) :
    ((w <<< s).toUInt8 ||| b).toNat = (w.toNat * 2 ^ k + 2 ^ (k - 1)) % 256 := by
  simp only [UInt8.toNat_or, UInt64.toNat_toUInt8, UInt64.toNat_shiftLeft, hb, hs]
  rw [Nat.mod_eq_of_lt (show k < 64 by omega)]
  simp only [Nat.shiftLeft_eq]
  rw [Nat.mod_mod_of_dvd _ (by decide)]
  have e : w.toNat * 2 ^ k % 2 ^ 8 = 2 ^ k * (w.toNat % 2 ^ (8 - k)) := by
    conv => lhs; rw [show 2 ^ 8 = 2 ^ k * 2 ^ (8 - k) by rw [← Nat.pow_add]; congr 1; omega]
    rw [Nat.mul_comm, Nat.mul_mod_mul_left]
  rw [e, or_low _ _ _ (Nat.pow_lt_pow_right (by decide) (by omega))]
  rw [← e]
  have hlt : 2 ^ k * (w.toNat % 2 ^ (8 - k)) + 2 ^ (k - 1) < 256 := by
    have h1 : w.toNat % 2 ^ (8 - k) < 2 ^ (8 - k) := Nat.mod_lt _ (Nat.two_pow_pos _)
    have h2 : 2 ^ k * 2 ^ (8 - k) = 256 := by
      rw [← Nat.pow_add]; rw [show k + (8 - k) = 8 by omega]
    have h3 : 2 ^ k * (w.toNat % 2 ^ (8 - k) + 1) ≤ 2 ^ k * 2 ^ (8 - k) := Nat.mul_le_mul_left _ h1
    have h4 : 2 ^ (k - 1) < 2 ^ k := Nat.pow_lt_pow_right (by decide) (by omega)
    rw [Nat.mul_add] at h3
    omega
  rw [← e] at hlt
  omega



theorem u64_sub (v c : UInt64) (h : c ≤ v) : (v - c).toNat = v.toNat - c.toNat :=
  UInt64.toNat_sub_of_le v c h

theorem toNat_later (w s : UInt64) (k : Nat) (hs : s.toNat = k) (hk : k < 64) :
    (w >>> s).toUInt8.toNat = w.toNat / 2 ^ k % 256 := by
  simp only [UInt64.toNat_toUInt8, UInt64.toNat_shiftRight, hs, Nat.mod_eq_of_lt hk,
    Nat.shiftRight_eq_div_pow]

set_option maxHeartbeats 2000000 in
theorem serializeVarint_spec (v : UInt64) :
    (serializeVarint v).map UInt8.toNat = Spec.varint v.toNat := by
  have hv := v.toNat_lt
  unfold serializeVarint Spec.varint Spec.varintLength
  simp only [UInt64.le_iff_toNat_le, UInt64.reduceToNat]
  split
  · rename_i h1
    simp only [List.map_cons, List.map_nil,
      toNat_first v 1 (by decide) (by decide) 1 rfl 1 rfl]
    simp only [show v.toNat < 128 by omega, if_true, if_false, Spec.littleEndian, Spec.varintBase]
    simp
  split
  · rename_i h1 h2
    have e := u64_sub v 128 (by simp only [UInt64.le_iff_toNat_le, UInt64.reduceToNat]; omega)
    simp only [UInt64.reduceToNat] at e
    generalize v - 128 = w at *
    simp only [List.map_cons, List.map_nil,
      toNat_first w 2 (by decide) (by decide) 2 rfl 2 rfl,
      toNat_later w 6 6 rfl (by decide)]
    simp only [show ¬ v.toNat < 128 by omega, show v.toNat < 16512 by omega, if_true, if_false, Spec.littleEndian, Spec.varintBase, e]
    generalize v.toNat - 128 = m at *
    simp [Nat.div_div_eq_div_mul]
    clear hv h1 h2 e
    all_goals (repeat' apply And.intro)
    all_goals omega
  split
  · rename_i h1 h2 h3
    have e := u64_sub v 16512 (by simp only [UInt64.le_iff_toNat_le, UInt64.reduceToNat]; omega)
    simp only [UInt64.reduceToNat] at e
    generalize v - 16512 = w at *
    simp only [List.map_cons, List.map_nil,
      toNat_first w 3 (by decide) (by decide) 4 rfl 3 rfl,
      toNat_later w 5 5 rfl (by decide),
      toNat_later w 13 13 rfl (by decide)]
    simp only [show ¬ v.toNat < 128 by omega, show ¬ v.toNat < 16512 by omega, show v.toNat < 2113664 by omega, if_true, if_false, Spec.littleEndian, Spec.varintBase, e]
    generalize v.toNat - 16512 = m at *
    simp [Nat.div_div_eq_div_mul]
    clear hv h1 h2 h3 e
    all_goals (repeat' apply And.intro)
    all_goals omega
  split
  · rename_i h1 h2 h3 h4
    have e := u64_sub v 2113664 (by simp only [UInt64.le_iff_toNat_le, UInt64.reduceToNat]; omega)
    simp only [UInt64.reduceToNat] at e
    generalize v - 2113664 = w at *
    simp only [List.map_cons, List.map_nil,
      toNat_first w 4 (by decide) (by decide) 8 rfl 4 rfl,
      toNat_later w 4 4 rfl (by decide),
      toNat_later w 12 12 rfl (by decide),
      toNat_later w 20 20 rfl (by decide)]
    simp only [show ¬ v.toNat < 128 by omega, show ¬ v.toNat < 16512 by omega, show ¬ v.toNat < 2113664 by omega, show v.toNat < 270549120 by omega, if_true, if_false, Spec.littleEndian, Spec.varintBase, e]
    generalize v.toNat - 2113664 = m at *
    simp [Nat.div_div_eq_div_mul]
    clear hv h1 h2 h3 h4 e
    all_goals (repeat' apply And.intro)
    all_goals omega
  split
  · rename_i h1 h2 h3 h4 h5
    have e := u64_sub v 270549120 (by simp only [UInt64.le_iff_toNat_le, UInt64.reduceToNat]; omega)
    simp only [UInt64.reduceToNat] at e
    generalize v - 270549120 = w at *
    simp only [List.map_cons, List.map_nil,
      toNat_first w 5 (by decide) (by decide) 16 rfl 5 rfl,
      toNat_later w 3 3 rfl (by decide),
      toNat_later w 11 11 rfl (by decide),
      toNat_later w 19 19 rfl (by decide),
      toNat_later w 27 27 rfl (by decide)]
    simp only [show ¬ v.toNat < 128 by omega, show ¬ v.toNat < 16512 by omega, show ¬ v.toNat < 2113664 by omega, show ¬ v.toNat < 270549120 by omega, show v.toNat < 34630287488 by omega, if_true, if_false, Spec.littleEndian, Spec.varintBase, e]
    generalize v.toNat - 270549120 = m at *
    simp [Nat.div_div_eq_div_mul]
    clear hv h1 h2 h3 h4 h5 e
    all_goals (repeat' apply And.intro)
    all_goals omega
  split
  · rename_i h1 h2 h3 h4 h5 h6
    have e := u64_sub v 34630287488 (by simp only [UInt64.le_iff_toNat_le, UInt64.reduceToNat]; omega)
    simp only [UInt64.reduceToNat] at e
    generalize v - 34630287488 = w at *
    simp only [List.map_cons, List.map_nil,
      toNat_first w 6 (by decide) (by decide) 32 rfl 6 rfl,
      toNat_later w 2 2 rfl (by decide),
      toNat_later w 10 10 rfl (by decide),
      toNat_later w 18 18 rfl (by decide),
      toNat_later w 26 26 rfl (by decide),
      toNat_later w 34 34 rfl (by decide)]
    simp only [show ¬ v.toNat < 128 by omega, show ¬ v.toNat < 16512 by omega, show ¬ v.toNat < 2113664 by omega, show ¬ v.toNat < 270549120 by omega, show ¬ v.toNat < 34630287488 by omega, show v.toNat < 4432676798592 by omega, if_true, if_false, Spec.littleEndian, Spec.varintBase, e]
    generalize v.toNat - 34630287488 = m at *
    simp [Nat.div_div_eq_div_mul]
    clear hv h1 h2 h3 h4 h5 h6 e
    all_goals (repeat' apply And.intro)
    all_goals omega
  split
  · rename_i h1 h2 h3 h4 h5 h6 h7
    have e := u64_sub v 4432676798592 (by simp only [UInt64.le_iff_toNat_le, UInt64.reduceToNat]; omega)
    simp only [UInt64.reduceToNat] at e
    generalize v - 4432676798592 = w at *
    simp only [List.map_cons, List.map_nil,
      toNat_first w 7 (by decide) (by decide) 64 rfl 7 rfl,
      toNat_later w 1 1 rfl (by decide),
      toNat_later w 9 9 rfl (by decide),
      toNat_later w 17 17 rfl (by decide),
      toNat_later w 25 25 rfl (by decide),
      toNat_later w 33 33 rfl (by decide),
      toNat_later w 41 41 rfl (by decide)]
    simp only [show ¬ v.toNat < 128 by omega, show ¬ v.toNat < 16512 by omega, show ¬ v.toNat < 2113664 by omega, show ¬ v.toNat < 270549120 by omega, show ¬ v.toNat < 34630287488 by omega, show ¬ v.toNat < 4432676798592 by omega, show v.toNat < 567382630219904 by omega, if_true, if_false, Spec.littleEndian, Spec.varintBase, e]
    generalize v.toNat - 4432676798592 = m at *
    simp [Nat.div_div_eq_div_mul]
    clear hv h1 h2 h3 h4 h5 h6 h7 e
    all_goals (repeat' apply And.intro)
    all_goals omega
  split
  · rename_i h1 h2 h3 h4 h5 h6 h7 h8
    have e := u64_sub v 567382630219904 (by simp only [UInt64.le_iff_toNat_le, UInt64.reduceToNat]; omega)
    simp only [UInt64.reduceToNat] at e
    generalize v - 567382630219904 = w at *
    simp only [List.map_cons, List.map_nil,
      UInt64.toNat_toUInt8,
      toNat_later w 8 8 rfl (by decide),
      toNat_later w 16 16 rfl (by decide),
      toNat_later w 24 24 rfl (by decide),
      toNat_later w 32 32 rfl (by decide),
      toNat_later w 40 40 rfl (by decide),
      toNat_later w 48 48 rfl (by decide)]
    simp only [show ¬ v.toNat < 128 by omega, show ¬ v.toNat < 16512 by omega, show ¬ v.toNat < 2113664 by omega, show ¬ v.toNat < 270549120 by omega, show ¬ v.toNat < 34630287488 by omega, show ¬ v.toNat < 4432676798592 by omega, show ¬ v.toNat < 567382630219904 by omega, show v.toNat < 72624976668147840 by omega, if_true, if_false, Spec.littleEndian, Spec.varintBase, e]
    generalize v.toNat - 567382630219904 = m at *
    simp [Nat.div_div_eq_div_mul]
    clear hv h1 h2 h3 h4 h5 h6 h7 h8 e
    all_goals (repeat' apply And.intro)
    all_goals omega
  · rename_i h1 h2 h3 h4 h5 h6 h7 h8
    have e := u64_sub v 72624976668147840 (by simp only [UInt64.le_iff_toNat_le, UInt64.reduceToNat]; omega)
    simp only [UInt64.reduceToNat] at e
    generalize v - 72624976668147840 = w at *
    simp only [List.map_cons, List.map_nil,
      UInt64.toNat_toUInt8,
      toNat_later w 8 8 rfl (by decide),
      toNat_later w 16 16 rfl (by decide),
      toNat_later w 24 24 rfl (by decide),
      toNat_later w 32 32 rfl (by decide),
      toNat_later w 40 40 rfl (by decide),
      toNat_later w 48 48 rfl (by decide),
      toNat_later w 56 56 rfl (by decide)]
    simp only [show ¬ v.toNat < 128 by omega, show ¬ v.toNat < 16512 by omega, show ¬ v.toNat < 2113664 by omega, show ¬ v.toNat < 270549120 by omega, show ¬ v.toNat < 34630287488 by omega, show ¬ v.toNat < 4432676798592 by omega, show ¬ v.toNat < 567382630219904 by omega, show ¬ v.toNat < 72624976668147840 by omega, if_true, if_false, Spec.littleEndian, Spec.varintBase, e]
    generalize v.toNat - 72624976668147840 = m at *
    simp [Nat.div_div_eq_div_mul]

/-! ### Decoding -/

theorem leNat_of_littleEndian (k x : Nat) : ∀ bs : Bytes,
    bs.map UInt8.toNat = Spec.littleEndian k x → leNat bs = x % 256 ^ k ∧ bs.length = k := by
  induction k generalizing x with
  | zero =>
    intro bs h
    have : bs = [] := by simpa [Spec.littleEndian] using h
    subst this
    simp [leNat, Nat.mod_one]
  | succ k ih =>
    intro bs h
    cases bs with
    | nil => simp [Spec.littleEndian] at h
    | cons b bs =>
      simp only [List.map_cons, Spec.littleEndian, List.cons.injEq] at h
      obtain ⟨h1, h2⟩ := ih _ bs h.2
      refine ⟨?_, by simp [h2]⟩
      simp only [leNat, h1, h.1]
      rw [Nat.pow_succ, Nat.mul_comm (256 ^ k) 256, Nat.mod_mul]

theorem littleEndian_leNat (bs : Bytes) :
    bs.map UInt8.toNat = Spec.littleEndian bs.length (leNat bs) := by
  induction bs with
  | nil => rfl
  | cons b bs ih =>
    have := b.toNat_lt
    simp only [List.map_cons, List.length_cons, Spec.littleEndian, leNat]
    rw [show (b.toNat + 256 * leNat bs) % 256 = b.toNat by omega,
      show (b.toNat + 256 * leNat bs) / 256 = leNat bs by omega, ← ih]

theorem trailingZeros_inv_table : ∀ n < 256,
    (trailingZeros (UInt8.ofNat n) = 0 → n % 2 = 1) ∧
    (trailingZeros (UInt8.ofNat n) = 1 → n % 4 = 2) ∧
    (trailingZeros (UInt8.ofNat n) = 2 → n % 8 = 4) ∧
    (trailingZeros (UInt8.ofNat n) = 3 → n % 16 = 8) ∧
    (trailingZeros (UInt8.ofNat n) = 4 → n % 32 = 16) ∧
    (trailingZeros (UInt8.ofNat n) = 5 → n % 64 = 32) ∧
    (trailingZeros (UInt8.ofNat n) = 6 → n % 128 = 64) ∧
    (trailingZeros (UInt8.ofNat n) = 7 → n = 128) ∧
    (trailingZeros (UInt8.ofNat n) = 8 → n = 0) := by
  decide +kernel

theorem trailingZeros_inv (b : UInt8) :
    (trailingZeros b = 0 → b.toNat % 2 = 1) ∧
    (trailingZeros b = 1 → b.toNat % 4 = 2) ∧
    (trailingZeros b = 2 → b.toNat % 8 = 4) ∧
    (trailingZeros b = 3 → b.toNat % 16 = 8) ∧
    (trailingZeros b = 4 → b.toNat % 32 = 16) ∧
    (trailingZeros b = 5 → b.toNat % 64 = 32) ∧
    (trailingZeros b = 6 → b.toNat % 128 = 64) ∧
    (trailingZeros b = 7 → b.toNat = 128) ∧
    (trailingZeros b = 8 → b.toNat = 0) := by
  have := trailingZeros_inv_table b.toNat b.toNat_lt
  simpa using this

/-- The value denoted by a first byte and the remaining ones, on natural numbers. -/
def decodeNat (b : UInt8) (r : Bytes) : Nat :=
  match trailingZeros b with
  | 0 => b.toNat / 2
  | 1 => 128 + b.toNat / 4 + leNat r * 64
  | 2 => 16512 + b.toNat / 8 + leNat r * 32
  | 3 => 2113664 + b.toNat / 16 + leNat r * 16
  | 4 => 270549120 + b.toNat / 32 + leNat r * 8
  | 5 => 34630287488 + b.toNat / 64 + leNat r * 4
  | 6 => 4432676798592 + b.toNat / 128 + leNat r * 2
  | 7 => 567382630219904 + leNat r
  | _ => 72624976668147840 + leNat r

theorem deserializeVarint_cons (b : UInt8) (s : Bytes) :
    deserializeVarint (b :: s) =
      if trailingZeros b ≤ s.length then
        some (UInt64.ofNat (decodeNat b (s.take (trailingZeros b))), s.drop (trailingZeros b))
      else none := by
  have hle := trailingZeros_le b
  have hb := b.toNat_lt
  simp only [deserializeVarint, readExact]
  by_cases h : trailingZeros b ≤ s.length
  · simp only [h, if_true]
    have hlen : (s.take (trailingZeros b)).length ≤ 8 := by simp; omega
    have hr := toNat_fromLeBytes _ hlen
    generalize hq : List.take (trailingZeros b) s = r at *
    generalize hd : List.drop (trailingZeros b) s = d at *
    generalize fromLeBytes r = f at *
    unfold decodeNat
    split <;> simp_all only [Option.some.injEq, Prod.mk.injEq, and_true] <;>
      apply UInt64.toNat_inj.1 <;>
      simp [Nat.shiftRight_eq_div_pow, Nat.shiftLeft_eq, hr] <;> omega
  · simp only [h, if_false]


theorem varintLength_mul (n : Nat) :
    let k := Spec.varintLength n
    1 ≤ k ∧ k ≤ 9 := by
  simp only [Spec.varintLength]
  repeat' split
  all_goals omega

/-- Decoding inverts any byte string that matches the specification. -/
theorem decode_of_spec (n : Nat) (hn : n < 2 ^ 64) (bs rest : Bytes)
    (h : bs.map UInt8.toNat = Spec.varint n) :
    deserializeVarint (bs ++ rest) = some (UInt64.ofNat n, rest) := by
  have key : ∀ k m x, bs.map UInt8.toNat = Spec.littleEndian (k + 1) x → x < 256 ^ (k + 1) →
      x = m * 2 ^ (k + 1) + 2 ^ k → k ≤ 7 →
      (∀ b r, bs = b :: r → trailingZeros b = k → decodeNat b r = n) →
      deserializeVarint (bs ++ rest) = some (UInt64.ofNat n, rest) := by
    intro k m x h1 h2 h3 h4 h5
    obtain ⟨hl, hlen⟩ := leNat_of_littleEndian _ _ _ h1
    cases bs with
    | nil => simp at hlen
    | cons b r =>
      simp only [List.length_cons, Nat.add_right_cancel_iff] at hlen
      rw [Nat.mod_eq_of_lt h2] at hl
      have hb := b.toNat_lt
      have htz : trailingZeros b = k := by
        have t := trailingZeros_spec b
        simp only [leNat] at hl
        have : k = 0 ∨ k = 1 ∨ k = 2 ∨ k = 3 ∨ k = 4 ∨ k = 5 ∨ k = 6 ∨ k = 7 := by omega
        rcases this with rfl | rfl | rfl | rfl | rfl | rfl | rfl | rfl
        · exact t.1 (by omega)
        · exact t.2.1 (by omega)
        · exact t.2.2.1 (by omega)
        · exact t.2.2.2.1 (by omega)
        · exact t.2.2.2.2.1 (by omega)
        · exact t.2.2.2.2.2.1 (by omega)
        · exact t.2.2.2.2.2.2.1 (by omega)
        · exact t.2.2.2.2.2.2.2.1 (by omega)
      rw [List.cons_append, deserializeVarint_cons]
      have : (r ++ rest).length = r.length + rest.length := List.length_append
      rw [if_pos (by omega), htz]
      simp only [← hlen, List.take_left, List.drop_left]
      rw [h5 b r rfl htz]
  unfold Spec.varint Spec.varintLength at h
  have fin : ∀ k m x, bs.map UInt8.toNat = Spec.littleEndian (k + 1) x →
      x = m * 2 ^ (k + 1) + 2 ^ k → k ≤ 7 → m < 128 ^ (k + 1) → n = Spec.varintBase (k + 1) + m →
      deserializeVarint (bs ++ rest) = some (UInt64.ofNat n, rest) := by
    intro k m x h1 h3 h4 hm hnm
    have hx : x < 256 ^ (k + 1) := by
      have e : 256 ^ (k + 1) = 128 ^ (k + 1) * 2 ^ (k + 1) := by
        rw [← Nat.mul_pow]
      have e2 : 2 ^ k < 2 ^ (k + 1) := Nat.pow_lt_pow_right (by decide) (by omega)
      have e3 : (m + 1) * 2 ^ (k + 1) ≤ 128 ^ (k + 1) * 2 ^ (k + 1) := Nat.mul_le_mul_right _ hm
      rw [Nat.add_mul] at e3
      omega
    refine key k m x h1 hx h3 h4 ?_
    intro b r hbr htz
    obtain ⟨hl, hlen⟩ := leNat_of_littleEndian _ _ _ h1
    rw [Nat.mod_eq_of_lt hx, hbr] at hl
    simp only [leNat] at hl
    have hb := b.toNat_lt
    have hr0 : k = 0 → leNat r = 0 := by
      intro hk
      have : r = [] := by
        cases r with
        | nil => rfl
        | cons _ _ => subst hk; simp [hbr] at hlen
      rw [this]; rfl
    have : k = 0 ∨ k = 1 ∨ k = 2 ∨ k = 3 ∨ k = 4 ∨ k = 5 ∨ k = 6 ∨ k = 7 := by omega
    unfold decodeNat
    rw [htz]
    rcases this with rfl | rfl | rfl | rfl | rfl | rfl | rfl | rfl <;>
      simp [Spec.varintBase] at hnm hl hr0 ⊢ <;> omega
  by_cases h9 : n < 72624976668147840
  · repeat' split at h
    all_goals first
      | exact fin 0 n _ h rfl (by decide) (by simpa using ‹n < 128›) (by simp [Spec.varintBase])
      | exact fin 1 (n - 128) _ h rfl (by decide) (by simp; omega) (by simp [Spec.varintBase]; omega)
      | exact fin 2 (n - 16512) _ h rfl (by decide) (by simp; omega) (by simp [Spec.varintBase]; omega)
      | exact fin 3 (n - 2113664) _ h rfl (by decide) (by simp; omega) (by simp [Spec.varintBase]; omega)
      | exact fin 4 (n - 270549120) _ h rfl (by decide) (by simp; omega) (by simp [Spec.varintBase]; omega)
      | exact fin 5 (n - 34630287488) _ h rfl (by decide) (by simp; omega) (by simp [Spec.varintBase]; omega)
      | exact fin 6 (n - 4432676798592) _ h rfl (by decide) (by simp; omega) (by simp [Spec.varintBase]; omega)
      | exact fin 7 (n - 567382630219904) _ h rfl (by decide) (by simp; omega) (by simp [Spec.varintBase]; omega)
      | (exfalso; omega)
  · simp only [show ¬ n < 128 by omega, show ¬ n < 16512 by omega, show ¬ n < 2113664 by omega,
      show ¬ n < 270549120 by omega, show ¬ n < 34630287488 by omega,
      show ¬ n < 4432676798592 by omega, show ¬ n < 567382630219904 by omega, h9, if_false,
      show ¬ 9 ≤ 8 by decide] at h
    cases bs with
    | nil => simp at h
    | cons b r =>
      simp only [List.map_cons, List.cons.injEq] at h
      obtain ⟨hl, hlen⟩ := leNat_of_littleEndian _ _ _ h.2
      have htz : trailingZeros b = 8 := (trailingZeros_spec b).2.2.2.2.2.2.2.2 h.1
      rw [List.cons_append, deserializeVarint_cons]
      have : (r ++ rest).length = r.length + rest.length := List.length_append
      rw [if_pos (by omega), htz]
      simp only [← hlen, List.take_left, List.drop_left]
      have hd : decodeNat b r = n := by
        unfold decodeNat
        rw [htz]
        rw [Nat.mod_eq_of_lt (by simp [Spec.varintBase]; omega)] at hl
        simp [Spec.varintBase] at hl ⊢
        omega
      rw [hd]

theorem spec_varint_eq (k m : Nat) (hk : k ≤ 7) (hm : m < 128 ^ (k + 1)) :
    Spec.varint (Spec.varintBase (k + 1) + m) =
      Spec.littleEndian (k + 1) (m * 2 ^ (k + 1) + 2 ^ k) := by
  have hl : Spec.varintLength (Spec.varintBase (k + 1) + m) = k + 1 := by
    have : k = 0 ∨ k = 1 ∨ k = 2 ∨ k = 3 ∨ k = 4 ∨ k = 5 ∨ k = 6 ∨ k = 7 := by omega
    rcases this with rfl | rfl | rfl | rfl | rfl | rfl | rfl | rfl <;>
      simp [Spec.varintBase, Spec.varintLength] at hm ⊢ <;> repeat' split
    all_goals omega
  unfold Spec.varint
  simp only [hl]
  rw [if_pos (by omega)]
  congr 1
  rw [Nat.add_sub_cancel_left, Nat.add_sub_cancel]

/-- A complete first byte and its remaining bytes are the canonical encoding of the value they
denote, except possibly in the nine-byte form. -/
theorem spec_of_decode (b : UInt8) (r : Bytes) (hlen : r.length = trailingZeros b)
    (htz : trailingZeros b ≤ 7) :
    (b :: r).map UInt8.toNat = Spec.varint (decodeNat b r) ∧ decodeNat b r < 2 ^ 64 := by
  have hb := b.toNat_lt
  have hinv := trailingZeros_inv b
  have hr := leNat_lt r
  have hle := littleEndian_leNat (b :: r)
  rw [hle]
  simp only [List.length_cons, hlen, leNat]
  rw [hlen] at hr
  obtain ⟨k, hk⟩ : ∃ k, k = trailingZeros b := ⟨_, rfl⟩
  simp only [← hk] at hr hinv htz ⊢
  have main : ∃ m, m < 128 ^ (k + 1) ∧ decodeNat b r = Spec.varintBase (k + 1) + m ∧
      b.toNat + 256 * leNat r = m * 2 ^ (k + 1) + 2 ^ k := by
    have : k = 0 ∨ k = 1 ∨ k = 2 ∨ k = 3 ∨ k = 4 ∨ k = 5 ∨ k = 6 ∨ k = 7 := by omega
    refine ⟨decodeNat b r - Spec.varintBase (k + 1), ?_⟩
    unfold decodeNat
    rcases this with rfl | rfl | rfl | rfl | rfl | rfl | rfl | rfl <;>
      rw [← hk] <;> simp [Spec.varintBase] at hr hinv ⊢ <;> omega
  obtain ⟨m, hm, hd, hx⟩ := main
  rw [hd, spec_varint_eq k m htz hm, hx]
  refine ⟨rfl, ?_⟩
  have : k = 0 ∨ k = 1 ∨ k = 2 ∨ k = 3 ∨ k = 4 ∨ k = 5 ∨ k = 6 ∨ k = 7 := by omega
  rcases this with rfl | rfl | rfl | rfl | rfl | rfl | rfl | rfl <;>
      simp [Spec.varintBase] at hm ⊢ <;> omega

end Typical
