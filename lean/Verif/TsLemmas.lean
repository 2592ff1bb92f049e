import Verif.TypeScript
import Verif.WireLemmas
import Verif.DecodeLemmas

/-!
# Helper lemmas about the model of the generated TypeScript code: primitives
-/

namespace Typical.Ts

/-! ### Integers -/

theorem u8_eq (w : UInt64) : u8 w.toNat = w.toUInt8 := by
  apply UInt8.toNat_inj.1; simp [u8]

theorem u8_shift (w : UInt64) (k : Nat) (hk : k < 64) :
    u8 (w.toNat >>> k) = (w >>> UInt64.ofNat k).toUInt8 := by
  rw [← u8_eq, UInt64.toNat_shiftRight, UInt64.toNat_ofNat_of_lt' (by simp only [UInt64.size]; omega),
    Nat.mod_eq_of_lt hk]

theorem u8_mod (n : Nat) : u8 (n % 256) = u8 n := by
  apply UInt8.toNat_inj.1; simp [u8]

theorem u8_mod_shift (n k j : Nat) (h : k + 8 ≤ j) : u8 ((n % 2 ^ j) >>> k) = u8 (n >>> k) := by
  apply UInt8.toNat_inj.1
  simp only [u8, UInt8.toNat_ofNat']
  rw [Nat.shiftRight_eq_div_pow, Nat.shiftRight_eq_div_pow]
  obtain ⟨d, rfl⟩ := Nat.exists_eq_add_of_le h
  rw [Nat.add_assoc, Nat.pow_add, Nat.mod_mul_right_div_self, Nat.pow_add]
  exact Nat.mod_mul_right_mod _ _ _

theorem u8_mod' (n j : Nat) (h : 8 ≤ j) : u8 (n % 2 ^ j) = u8 n := u8_mod_shift n 0 j (by omega)

theorem u8_or (a b : Nat) : u8 (a ||| b) = u8 a ||| u8 b := by
  apply UInt8.toNat_inj.1; simp [u8]

theorem u8_shl (w : UInt64) (k : Nat) (hk : k < 64) :
    u8 (w.toNat <<< k) = (w <<< UInt64.ofNat k).toUInt8 := by
  rw [← u8_eq, UInt64.toNat_shiftLeft, UInt64.toNat_ofNat_of_lt' (by simp only [UInt64.size]; omega),
    Nat.mod_eq_of_lt hk, u8_mod' _ 64 (by omega)]

theorem u16_eq (n : Nat) : u16 (n % 65536) = [u8 n, u8 (n >>> 8)] := by
  simp only [u16]
  rw [u8_mod' n 16 (by omega), u8_mod_shift n 8 16 (by omega)]

theorem u32_eq (n : Nat) : u32 (n % 4294967296) = [u8 n, u8 (n >>> 8), u8 (n >>> 16), u8 (n >>> 24)] := by
  simp only [u32]
  rw [u8_mod' n 32 (by omega), u8_mod_shift n 8 32 (by omega), u8_mod_shift n 16 32 (by omega),
    u8_mod_shift n 24 32 (by omega)]

theorem u64_eq (w : UInt64) : u64 w.toNat = toLeBytes w := by
  simp only [u64, toLeBytes]
  rw [u8_eq, u8_shift w 8 (by omega), u8_shift w 16 (by omega), u8_shift w 24 (by omega),
    u8_shift w 32 (by omega), u8_shift w 40 (by omega), u8_shift w 48 (by omega), u8_shift w 56 (by omega)]
  rfl

theorem le_iff (v : UInt64) (k : UInt64) (n : Nat) (h : k.toNat + 1 = n) : (v ≤ k) = (v.toNat < n) := by
  rw [UInt64.le_iff_toNat_le]; simp only [eq_iff_iff]; omega

theorem varintSizeFromValue_eq (v : UInt64) :
    varintSizeFromValue v.toNat = Typical.varintSizeFromValue v := by
  unfold varintSizeFromValue Typical.varintSizeFromValue
  simp only [le_iff v 127 128 rfl, le_iff v 16511 16512 rfl, le_iff v 2113663 2113664 rfl,
    le_iff v 270549119 270549120 rfl, le_iff v 34630287487 34630287488 rfl,
    le_iff v 4432676798591 4432676798592 rfl, le_iff v 567382630219903 567382630219904 rfl,
    le_iff v 72624976668147839 72624976668147840 rfl]

theorem serializeVarint_eq (v : UInt64) : serializeVarint v.toNat = Typical.serializeVarint v := by
  have sub : ∀ (c : UInt64) (k : Nat), c.toNat = k → k ≤ v.toNat → v.toNat - k = (v - c).toNat :=
    fun c k e h => by subst e; exact (u64_sub v c (UInt64.le_iff_toNat_le.2 h)).symm
  have sh : ∀ (w : UInt64) (k : Nat) (c : UInt64), k < 64 → UInt64.ofNat k = c →
      u8 (w.toNat >>> k) = (w >>> c).toUInt8 := fun w k c h e => e ▸ u8_shift w k h
  have sl : ∀ (w : UInt64) (k : Nat) (c : UInt64), k < 64 → UInt64.ofNat k = c →
      u8 (w.toNat <<< k) = (w <<< c).toUInt8 := fun w k c h e => e ▸ u8_shl w k h
  unfold serializeVarint Typical.serializeVarint
  simp only [le_iff v 127 128 rfl, le_iff v 16511 16512 rfl, le_iff v 2113663 2113664 rfl,
    le_iff v 270549119 270549120 rfl, le_iff v 34630287487 34630287488 rfl,
    le_iff v 4432676798591 4432676798592 rfl, le_iff v 567382630219903 567382630219904 rfl,
    le_iff v 72624976668147839 72624976668147840 rfl]
  simp only [u16_eq, u32_eq, u8_or, u8_mod, List.cons_append, List.nil_append, ← Nat.shiftRight_add,
    Nat.reduceAdd]
  split
  · rw [sl v 1 1 (by omega) rfl]; rfl
  split
  · rw [sub 128 128 rfl (by omega)]
    rw [sl _ 2 2 (by omega) rfl, sh _ 6 6 (by omega) rfl]; rfl
  split
  · rw [sub 16512 16512 rfl (by omega)]
    rw [sl _ 3 3 (by omega) rfl, sh _ 5 5 (by omega) rfl, sh _ 13 13 (by omega) rfl]; rfl
  split
  · rw [sub 2113664 2113664 rfl (by omega)]
    rw [sl _ 4 4 (by omega) rfl, sh _ 4 4 (by omega) rfl, sh _ 12 12 (by omega) rfl,
      sh _ 20 20 (by omega) rfl]; rfl
  split
  · rw [sub 270549120 270549120 rfl (by omega)]
    rw [sl _ 5 5 (by omega) rfl, sh _ 3 3 (by omega) rfl, sh _ 11 11 (by omega) rfl,
      sh _ 19 19 (by omega) rfl, sh _ 27 27 (by omega) rfl]; rfl
  split
  · rw [sub 34630287488 34630287488 rfl (by omega)]
    rw [sl _ 6 6 (by omega) rfl, sh _ 2 2 (by omega) rfl, sh _ 10 10 (by omega) rfl,
      sh _ 18 18 (by omega) rfl, sh _ 26 26 (by omega) rfl, sh _ 34 34 (by omega) rfl]; rfl
  split
  · rw [sub 4432676798592 4432676798592 rfl (by omega)]
    rw [sl _ 7 7 (by omega) rfl, sh _ 1 1 (by omega) rfl, sh _ 9 9 (by omega) rfl,
      sh _ 17 17 (by omega) rfl, sh _ 25 25 (by omega) rfl, sh _ 33 33 (by omega) rfl,
      sh _ 41 41 (by omega) rfl]; rfl
  split
  · rw [sub 567382630219904 567382630219904 rfl (by omega)]
    rw [u8_eq, sh _ 8 8 (by omega) rfl, sh _ 16 16 (by omega) rfl,
      sh _ 24 24 (by omega) rfl, sh _ 32 32 (by omega) rfl, sh _ 40 40 (by omega) rfl,
      sh _ 48 48 (by omega) rfl]
  · rw [sub 72624976668147840 72624976668147840 rfl (by omega), u64_eq]
    rfl

theorem serializeVarint_nat {n : Nat} (h : n < 2 ^ 64) :
    serializeVarint n = Typical.serializeVarint (UInt64.ofNat n) := by
  rw [← serializeVarint_eq, UInt64.toNat_ofNat_of_lt' h]

theorem varintSizeFromValue_nat {n : Nat} (h : n < 2 ^ 64) :
    varintSizeFromValue n = Typical.varintSizeFromValue (UInt64.ofNat n) := by
  rw [← varintSizeFromValue_eq, UInt64.toNat_ofNat_of_lt' h]

theorem zigzagEncode_eq (v : Int64) : (zigzagEncode v.toInt).toNat = (Typical.zigzagEncode v).toNat := by
  have h := zz_enc v
  have : zigzagEncode v.toInt = Spec.zigzag v.toInt := by
    unfold zigzagEncode Spec.zigzag
    dsimp only
    split <;> split <;> omega
  rw [this, ← h]; rfl

theorem zigzagDecode_eq (u : UInt64) : Int64.ofInt (zigzagDecode u.toNat) = Typical.zigzagDecode u := by
  have h := zz_dec u
  have e : zigzagDecode u.toNat = (Typical.zigzagDecode u).toInt := by
    rw [h]; unfold zigzagDecode
    dsimp only
    split <;> split <;> omega
  rw [e, Int64.ofInt_toInt]

/-! ### Headers -/

theorem tag_nat (i : Nat) (hi : i < 2 ^ 62) (k : Nat) (hk : k < 4) :
    (i <<< 2) ||| k < 2 ^ 64 ∧
    UInt64.ofNat ((i <<< 2) ||| k) = (UInt64.ofNat i <<< 2) ||| UInt64.ofNat k := by
  have hlt : (i <<< 2) ||| k < 2 ^ 64 := by
    apply Nat.or_lt_two_pow
    · rw [Nat.shiftLeft_eq]; omega
    · omega
  refine ⟨hlt, ?_⟩
  apply UInt64.toNat_inj.1
  rw [UInt64.toNat_ofNat_of_lt' hlt, UInt64.toNat_or, UInt64.toNat_shiftLeft,
    UInt64.toNat_ofNat_of_lt' (by simp only [UInt64.size]; omega),
    UInt64.toNat_ofNat_of_lt' (by simp only [UInt64.size]; omega)]
  have : i <<< (UInt64.toNat 2 % 64) % 2 ^ 64 = i <<< 2 := by
    rw [Nat.mod_eq_of_lt]; rfl
    show i <<< 2 < _
    rw [Nat.shiftLeft_eq]; omega
  rw [this]

theorem tag0_nat (i : Nat) (hi : i < 2 ^ 62) :
    i <<< 2 < 2 ^ 64 ∧ UInt64.ofNat (i <<< 2) = (UInt64.ofNat i <<< 2) ||| 0 := by
  have := tag_nat i hi 0 (by omega)
  simpa using this

theorem serializeFieldHeader_eq {i n : Nat} (hi : i < 2 ^ 62) (hn : n < 2 ^ 64) (b : Bool) :
    serializeFieldHeader i n b = Typical.serializeFieldHeader i n b := by
  unfold serializeFieldHeader Typical.serializeFieldHeader
  have h0 := tag0_nat i hi
  have h1 := tag_nat i hi 1 (by omega)
  have h2 := tag_nat i hi 2 (by omega)
  have h3 := tag_nat i hi 3 (by omega)
  simp only [serializeVarint_nat h0.1, serializeVarint_nat h1.1, serializeVarint_nat h2.1,
    serializeVarint_nat h3.1, h0.2, h1.2, h2.2, h3.2]
  split
  · rfl
  · rfl
  · next h0 h8 =>
    rw [serializeVarint_nat hn]
    cases b
    · simp only [Bool.false_eq_true, if_false]
      rfl
    · simp only [if_true]
      rfl

theorem fieldHeaderSize_eq {i n : Nat} (hi : i < 2 ^ 62) (hn : n < 2 ^ 64) (b : Bool) :
    fieldHeaderSize i n b = Typical.fieldHeaderSize i n b := by
  unfold fieldHeaderSize Typical.fieldHeaderSize
  have h0 := tag0_nat i hi
  have h1 := tag_nat i hi 1 (by omega)
  have h2 := tag_nat i hi 2 (by omega)
  have h3 := tag_nat i hi 3 (by omega)
  simp only [varintSizeFromValue_nat h0.1, varintSizeFromValue_nat h1.1, varintSizeFromValue_nat h2.1,
    varintSizeFromValue_nat h3.1, h0.2, h1.2, h2.2, h3.2]
  split
  · rfl
  · rfl
  · next h0 h8 =>
    rw [varintSizeFromValue_nat hn]
    cases b
    · simp only [Bool.false_eq_true, if_false]
      rfl
    · simp only [if_true]
      rfl

end Typical.Ts
