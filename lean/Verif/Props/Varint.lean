import Verif.VarintLemmas
import Verif.ZigzagLemmas

/-!
# Properties C01-C04: variable-width integers and ZigZag (generated Rust runtime)
-/

namespace Typical

/-- **C01.** Decoding the encoding of any `v`, followed by any bytes, yields `v` and exactly the
bytes that followed. -/
theorem C01_varint_round_trip (v : UInt64) (rest : Bytes) :
    deserializeVarint (serializeVarint v ++ rest) = some (v, rest) := by
  have h := decode_of_spec v.toNat v.toNat_lt (serializeVarint v) rest (serializeVarint_spec v)
  simpa using h

/-- Non-trivial instance: a three-byte value followed by other bytes. -/
example : serializeVarint 16512 = [4, 0, 0] ∧
    deserializeVarint ([4, 0, 0] ++ [7, 8]) = some (16512, [7, 8]) := by decide

/-- **C02 (layout).** The bytes written are exactly those of the README's specification. -/
theorem C02_varint_layout (v : UInt64) :
    (serializeVarint v).map UInt8.toNat = Spec.varint v.toNat :=
  serializeVarint_spec v

theorem littleEndian_length (k x : Nat) : (Spec.littleEndian k x).length = k := by
  induction k generalizing x with
  | zero => rfl
  | succ k ih => simp [Spec.littleEndian, ih]

theorem spec_varint_length (n : Nat) : (Spec.varint n).length = Spec.varintLength n := by
  have := varintLength_mul n
  simp only at this
  unfold Spec.varint
  simp only
  split
  · rw [littleEndian_length]
  · simp only [List.length_cons, littleEndian_length]; omega

/-- **C02 (length).** The number of bytes written, the size computed from the value, and the README's
table all agree. -/
theorem C02_varint_length (v : UInt64) :
    (serializeVarint v).length = Spec.varintLength v.toNat ∧
    varintSizeFromValue v = Spec.varintLength v.toNat := by
  constructor
  · rw [← List.length_map (f := UInt8.toNat), serializeVarint_spec, spec_varint_length]
  · simp only [varintSizeFromValue, Spec.varintLength, UInt64.le_iff_toNat_le, UInt64.reduceToNat,
      Nat.le_iff_lt_add_one, Nat.reduceAdd]

theorem serializeVarint_ne_nil (v : UInt64) : serializeVarint v ≠ [] := by
  intro h
  have := C01_varint_round_trip v []
  rw [h] at this
  cases this

/-- **C02 (self-description).** The first byte announces the length. -/
theorem C02_varint_first_byte (v : UInt64) :
    ∃ b bs, serializeVarint v = b :: bs ∧ varintSizeFromFirstByte b = (serializeVarint v).length := by
  cases h : serializeVarint v with
  | nil => exact absurd h (serializeVarint_ne_nil v)
  | cons b bs =>
    refine ⟨b, bs, rfl, ?_⟩
    have := C01_varint_round_trip v []
    rw [h, List.append_nil, deserializeVarint_cons] at this
    split at this
    · rename_i hle
      simp only [Option.some.injEq, Prod.mk.injEq, List.drop_eq_nil_iff] at this
      simp only [varintSizeFromFirstByte, List.length_cons]
      omega
    · cases this

/-- The README's example: 16500 takes two bytes. -/
example : (serializeVarint 16500).length = 2 := by decide

/-- **C03 (self-delimiting).** No encoding is a prefix of a different one. -/
theorem C03_varint_prefix_free (v w : UInt64) (h : serializeVarint v <+: serializeVarint w) :
    v = w := by
  obtain ⟨t, ht⟩ := h
  have h1 := C01_varint_round_trip v t
  have h2 := C01_varint_round_trip w []
  rw [ht] at h1
  rw [List.append_nil, h1] at h2
  simp only [Option.some.injEq, Prod.mk.injEq] at h2
  exact h2.1

/-- **C03 (injective).** -/
theorem C03_varint_injective (v w : UInt64) (h : serializeVarint v = serializeVarint w) : v = w :=
  C03_varint_prefix_free v w (h ▸ List.prefix_refl _)

/-- **C03 (canonical).** Whenever decoding consumes at most eight bytes, the bytes consumed are
exactly the encoding of the value. -/
theorem C03_varint_canonical (s rest : Bytes) (v : UInt64)
    (h : deserializeVarint s = some (v, rest)) (hlen : s.length ≤ rest.length + 8) :
    s = serializeVarint v ++ rest := by
  cases s with
  | nil => cases h
  | cons b s =>
    rw [deserializeVarint_cons] at h
    split at h
    · rename_i hle
      simp only [Option.some.injEq, Prod.mk.injEq] at h
      obtain ⟨hv, hr⟩ := h
      have hlr : rest.length = s.length - trailingZeros b := by rw [← hr]; simp
      simp only [List.length_cons] at hlen
      have htz : trailingZeros b ≤ 7 := by omega
      have hlt : (s.take (trailingZeros b)).length = trailingZeros b := by simp; omega
      obtain ⟨h1, h2⟩ := spec_of_decode b (s.take (trailingZeros b)) hlt htz
      have h3 := serializeVarint_spec v
      have h4 : v.toNat = decodeNat b (s.take (trailingZeros b)) := by
        rw [← hv]; simpa using h2
      rw [h4, ← h1] at h3
      have h5 : serializeVarint v = b :: s.take (trailingZeros b) :=
        (List.map_inj_right (fun x y => UInt8.toNat_inj.1)).1 h3
      rw [h5, ← hr, List.cons_append, List.take_append_drop]
    · cases h

/-- The hypotheses of `C03_varint_canonical` are met by a non-trivial input. -/
example : deserializeVarint [2, 1, 9] = some (192, [9]) := by decide

/-- **C03 (nine-byte forms are not canonical).** A nine-byte string can decode to a value whose
own encoding is a single byte, because the addition wraps. So the restriction to eight bytes in
`C03_varint_canonical` is necessary. -/
theorem C03_varint_nine_byte_not_canonical :
    deserializeVarint [0, 0x80, 0xbf, 0xdf, 0xef, 0xf7, 0xfb, 0xfd, 0xfe] = some (0, []) ∧
    serializeVarint 0 = [1] := by
  decide

/-- **C04 (closed form).** ZigZag of `n` is `2n` for `n ≥ 0` and `-2n-1` for `n < 0`. -/
theorem C04_zigzag_closed_form (v : Int64) :
    ((zigzagEncode v).toNat : Int) = Spec.zigzag v.toInt := zz_enc v

/-- **C04 (left inverse).** -/
theorem C04_zigzag_decode_encode (v : Int64) : zigzagDecode (zigzagEncode v) = v := by
  apply Int64.toInt_inj.1
  have h := zz_enc v
  rw [zz_dec]
  unfold Spec.zigzag at h
  split at h <;> split <;> omega

/-- **C04 (right inverse).** -/
theorem C04_zigzag_encode_decode (u : UInt64) : zigzagEncode (zigzagDecode u) = u := by
  apply UInt64.toNat_inj.1
  have h := zz_enc (zigzagDecode u)
  rw [zz_dec] at h
  unfold Spec.zigzag at h
  split at h <;> split at h <;> omega

/-- The README's examples: 0, -1, 1, -2, 2 become 0, 1, 2, 3, 4. -/
example : [0, -1, 1, -2, 2].map zigzagEncode = [0, 1, 2, 3, 4] := by decide

end Typical
