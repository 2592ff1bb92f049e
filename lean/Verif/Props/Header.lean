import Verif.ReadLemmas

/-!
# Properties C05 and C21: field headers and scalar sizes (generated Rust code)
-/

namespace Typical

/-- **C05 (round trip).** Reading a header that was written for a payload, followed by that payload and
anything else, yields the index, the size of the payload, and leaves exactly the payload and what
follows. (The integer flag is only ever set for payloads which are empty, 8 bytes, or a
variable-width integer, since then the size is not written.) -/
theorem C05_header_round_trip (i : Nat) (payload rest : Bytes) (isInt : Bool)
    (hi : i < 2 ^ 62) (hp : payload.length < 2 ^ 64)
    (hint : isInt = true → payload.length ≠ 0 → payload.length ≠ 8 → ∃ v, payload = serializeVarint v) :
    deserializeFieldHeader (serializeFieldHeader i payload.length isInt ++ payload ++ rest) =
      some (i, payload.length, payload ++ rest) := by
  rw [serializeFieldHeader_eq i _ _ hi hp]
  refine deserializeFieldHeader_wire i isInt payload rest hi hp (fun h1 h2 h3 => ?_)
  obtain ⟨v, hv⟩ := hint h1 h2 h3
  exact ⟨v.toNat, v.toNat_lt, by rw [hv, serializeVarint_eq]⟩

/-- Non-trivial instances: the largest index, a 3-byte payload; an integer payload. -/
example : deserializeFieldHeader
    (serializeFieldHeader (2 ^ 62 - 1) 3 false ++ [1, 2, 3] ++ [9]) =
      some (2 ^ 62 - 1, 3, [1, 2, 3, 9]) :=
  C05_header_round_trip _ [1, 2, 3] [9] false (by decide) (by decide) (by simp)
example : deserializeFieldHeader
    (serializeFieldHeader 5 2 true ++ serializeVarint 300 ++ [9]) =
      some (5, 2, serializeVarint 300 ++ [9]) :=
  C05_header_round_trip 5 (serializeVarint 300) [9] true (by decide) (by decide) (fun _ _ _ => ⟨_, rfl⟩)

/-- **C05 (size).** The header-size function is exact. -/
theorem C05_header_size (i n : Nat) (isInt : Bool) :
    fieldHeaderSize i n isInt = (serializeFieldHeader i n isInt).length := fieldHeaderSize_eq i n isInt

example : fieldHeaderSize 31 1000 false = 3 := by decide

/-- **C05 (layout).** The header is the one documented in the README. -/
theorem C05_header_layout (i n : Nat) (isInt : Bool) (hi : i < 2 ^ 62) (hn : n < 2 ^ 64) :
    serializeFieldHeader i n isInt = Spec.header i n isInt := serializeFieldHeader_eq i n isInt hi hn

/-- **C05 (one byte).** The header of a field of type `Unit`, `F64`, `U64`, `S64` or `Bool` with index below
32 is one byte, whatever the value. -/
theorem C05_header_one_byte (t : Ty) (ht : t = .unit ∨ ∃ s, t = .scalar s) (v : t.Msg .out) (i : Nat)
    (hi : i < 32) : fieldHeaderSize i (t.atlasSize (t.atlas v)) t.integerEncoded = 1 := by
  have key : ∀ k : UInt64, k < 4 → varintSizeFromValue ((UInt64.ofNat i <<< 2) ||| k) = 1 := by
    intro k hk
    have hk' : k.toNat < 4 := by simpa [UInt64.lt_iff_toNat_lt] using hk
    have h := tag_toNat i k.toNat (by omega) hk'
    rw [UInt64.ofNat_toNat] at h
    unfold varintSizeFromValue
    rw [if_pos]
    rw [UInt64.le_iff_toNat_le, h]
    simp only [UInt64.reduceToNat]
    omega
  have k0 := key 0 (by decide)
  have k1 := key 1 (by decide)
  have k2 := key 2 (by decide)
  have hz : fieldHeaderSize i 0 false = 1 := k0
  have h8 : fieldHeaderSize i 8 false = 1 := k1
  have hint : ∀ n, fieldHeaderSize i n true = 1 := by
    intro n
    unfold fieldHeaderSize
    simp only
    split
    · exact k0
    · exact k1
    · simp only [if_true]; exact k2
  rcases ht with rfl | ⟨s, rfl⟩
  · exact hz
  · cases s
    · exact hint _
    · exact hint _
    · exact hint _
    · have e : ∀ w : UInt64, fieldHeaderSize i (f64FieldSize w) false = 1 := by
        intro w
        unfold f64FieldSize
        split
        · exact hz
        · exact h8
      exact e v

example : fieldHeaderSize 31 7 true = 1 ∧ fieldHeaderSize 32 7 true = 2 := by decide

/-- **C05 (tightness).** The bound on indices cannot be raised: index `2^62` is written like index 0. -/
theorem C05_max_index_tight (n : Nat) (isInt : Bool) :
    serializeFieldHeader (2 ^ 62) n isInt = serializeFieldHeader 0 n isInt := by
  have h : UInt64.ofNat (2 ^ 62) <<< 2 = UInt64.ofNat 0 <<< 2 := by decide
  unfold serializeFieldHeader
  simp only [h]

/-! ### Scalar sizes -/

theorem varintLength_range (n : Nat) : 1 ≤ Spec.varintLength n ∧ Spec.varintLength n ≤ 9 := by
  unfold Spec.varintLength
  split
  · omega
  iterate 7 (split; · omega)
  omega

/-- The documented size of a field holding an unsigned integer. -/
def Spec.intFieldSize (n : Nat) : Nat :=
  if n = 0 then 0 else if n < 567382630219904 then Spec.varintLength n else 8

theorem u64Field_length (v : UInt64) : (u64Field v).length = Spec.intFieldSize v.toNat := by
  rw [u64Field_eq]
  unfold Spec.intField Spec.intFieldSize
  split
  · rfl
  · split
    · rw [Spec.varintBytes, List.length_map, spec_varint_length]
    · exact fixed64_length _

theorem intFieldSize_le (n : Nat) : Spec.intFieldSize n ≤ 8 := by
  unfold Spec.intFieldSize
  split
  · omega
  · split
    · have := varintBytes_length_le7 (n := n) (by assumption)
      rw [Spec.varintBytes, List.length_map, spec_varint_length] at this
      omega
    · omega

/-- **C21 (U64 fields).** The value of a `U64` field takes the documented number of bytes: none for zero, 8
from 567382630219904 on, at most 8 in all cases. -/
theorem C21_u64_field_size (v : UInt64) :
    (serScalarField .u64 v).length =
      (if v.toNat = 0 then 0 else if v.toNat < 567382630219904 then Spec.varintLength v.toNat else 8) ∧
    (serScalarField .u64 v).length ≤ 8 := by
  have h : (serScalarField .u64 v).length = Spec.intFieldSize v.toNat := u64Field_length v
  exact ⟨h, h ▸ intFieldSize_le _⟩

/-- **C21 (S64 fields).** As for `U64`, with the ZigZag representative. -/
theorem C21_s64_field_size (v : Int64) :
    (serScalarField .s64 v).length =
      (if v = 0 then 0
       else if Spec.zigzag v.toInt < 567382630219904 then
         Spec.varintLength (Spec.zigzag v.toInt).toNat else 8) ∧
    (serScalarField .s64 v).length ≤ 8 := by
  have h : (serScalarField .s64 v).length = Spec.intFieldSize (zigzagEncode v).toNat := u64Field_length _
  refine ⟨?_, h ▸ intFieldSize_le _⟩
  rw [h, zigzag_toNat]
  have hz : (Spec.zigzag v.toInt).toNat = 0 ↔ v = 0 := by
    rw [← Int64.toInt_inj, Int64.toInt_zero]
    unfold Spec.zigzag
    split <;> omega
  have hlt : (Spec.zigzag v.toInt).toNat < 567382630219904 ↔ Spec.zigzag v.toInt < 567382630219904 := by
    omega
  unfold Spec.intFieldSize
  simp only [hz, hlt]

/-- **C21 (F64 and Bool fields).** -/
theorem C21_f64_bool_field_size :
    (∀ v : UInt64, (serScalarField .f64 v).length = if v = 0 then 0 else 8) ∧
    (∀ b : Bool, (serScalarField .bool b).length = if b then 1 else 0) := by
  constructor
  · intro v
    change (f64Field v).length = _
    unfold f64Field
    by_cases h : v = 0
    · simp [h]
    · rw [if_pos h, if_neg h]; rfl
  · intro b; cases b <;> rfl

/-- **C21 (elements).** Integers in arrays take 1 to 9 bytes (1 for `Bool`), `F64` takes 8. -/
theorem C21_element_size :
    (∀ v : UInt64, 1 ≤ (serScalarElem .u64 v).length ∧ (serScalarElem .u64 v).length ≤ 9) ∧
    (∀ v : Int64, 1 ≤ (serScalarElem .s64 v).length ∧ (serScalarElem .s64 v).length ≤ 9) ∧
    (∀ v : UInt64, (serScalarElem .f64 v).length = 8) ∧
    (∀ b : Bool, (serScalarElem .bool b).length = 1) := by
  have h : ∀ v : UInt64, 1 ≤ (serializeVarint v).length ∧ (serializeVarint v).length ≤ 9 := by
    intro v
    rw [(C02_varint_length v).1]
    exact varintLength_range _
  refine ⟨h, fun v => h _, fun v => rfl, fun b => by cases b <;> rfl⟩

theorem selAtlas_unit (i : Nat) (hi : i < 32) {fb : Bool} : (fs : Fields) → (p : fs.Sel .out fb) →
    fs.treeSel p = (i, .unit) → (Fields.selAtlas fs p).1 = 1
  | .nil, e, _ => e.elim
  | .cons j r t rest, .inl p, h => by
    simp only [Fields.treeSel, Prod.mk.injEq] at h
    obtain ⟨rfl, h⟩ := h
    cases t with
    | unit =>
      have := C05_header_one_byte .unit (.inl rfl) () j hi
      simp only [Fields.selAtlas]
      exact this
    | scalar s => cases h
    | comp c => cases c <;> cases h
  | .cons j r t rest, .inr p, h => by
    simp only [Fields.treeSel] at h
    simp only [Fields.selAtlas]
    exact selAtlas_unit i hi rest p h

/-- **C21 (enums).** A choice value whose variant is a required `Unit` field with index below 32 is
serialised to a single byte, four times the index in variable-width encoding. -/
theorem C21_enum_one_byte (fs : Fields) (hw : (CTy.choice fs).WF) (p : fs.Sel .out false) (i : Nat)
    (hp : fs.treeSel p = (i, .unit)) (hi : i < 32) :
    serialize (.choice fs) (.last p) = some [UInt8.ofNat (8 * i + 1)] := by
  have hv : ∀ i : Nat, i < 32 → Spec.varintBytes (4 * i) = [UInt8.ofNat (8 * i + 1)] := by decide
  have hs : ((CTy.choice fs).tree (.last p : (CTy.choice fs).Msg .out)).wire false =
      [UInt8.ofNat (8 * i + 1)] := by
    simp only [CTy.tree, Chain.toList, Tree.wire, Tree.wireFields, hp]
    simp only [Spec.field, Spec.header, Spec.sizeMode, List.length_nil, if_true,
      show ¬ (0 = 3) by decide, if_false, List.append_nil, Nat.add_zero]
    exact hv i hi
  have hsz : size (.choice fs) (.last p : (CTy.choice fs).Msg .out) = 1 := by
    have e : ∀ (fb : Bool) (fs : Fields) (p : fs.Sel .out fb), fs.treeSel p = (i, .unit) →
        (Fields.selAtlas fs p).1 = 1 := by
      intro fb fs p hp
      exact selAtlas_unit i hi fs p hp
    exact e _ fs p hp
  exact (serialize_wire _ hw _ (hsz ▸ (by decide : 1 < 2 ^ 64))).trans (congrArg some hs)

/-- Non-trivial instance: the second of two variants, with index 31. -/
example : serialize (.choice (.cons 0 .required (.comp .string) (.cons 31 .required .unit .nil)))
    (.last (.inr (.inl ⟨(), rfl⟩))) = some [249] :=
  C21_enum_one_byte _ (by simp [CTy.WF, Fields.indices, Fields.WF, Ty.WF]) _ 31 rfl (by decide)

end Typical
