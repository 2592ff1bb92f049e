import Verif.Types
import Verif.Rust

/-!
# Model of the generated TypeScript code

Every definition cites the lines of `/repo/src/generate_typescript.rs` which print the corresponding
TypeScript code.

Simplifications. `bigint`s are natural numbers or integers; messages are those of the Rust model (so
`bigint`s of messages are in the range of their type, an `f64` is its bit pattern - NaN payloads
included -, a string is its sequence of code points in UTF-8, an array of `null`s is its length). Sizes and
offsets (`number`) are natural numbers: the buffers are assumed to be shorter than `2^53` bytes, so that
rounding in `Number(sizeValue)` can only turn one size that is out of bounds into another. A write
through several `set…` calls at consecutive offsets is one bounds-checked write.
-/

namespace Typical.Ts

/-! ### Integers -/

/-- `zigzagEncode`: lines 178-181. -/
def zigzagEncode (value : Int) : Int :=
  let twice := value * 2
  if value < 0 then -1 - twice else twice

/-- `zigzagDecode`: lines 183-186. `>> 1n` is a division rounding down; `value & 1n` is the parity. -/
def zigzagDecode (value : Int) : Int :=
  let half := (value + 1) / 2
  if value % 2 = 0 then half else -half

/-- `varintSizeFromValue`: lines 188-222. -/
def varintSizeFromValue (value : Nat) : Nat :=
  if value < 128 then 1
  else if value < 16512 then 2
  else if value < 2113664 then 3
  else if value < 270549120 then 4
  else if value < 34630287488 then 5
  else if value < 4432676798592 then 6
  else if value < 567382630219904 then 7
  else if value < 72624976668147840 then 8
  else 9

/-- The loop of `varintSizeFromFirstByte`: lines 227-230; the first argument is `8 - trailingZeros`. -/
def trailingZerosLoop : Nat → Nat → Nat
  | 0, _ => 0
  | k + 1, firstByte => if firstByte &&& 1 ≠ 1 then trailingZerosLoop k (firstByte >>> 1) + 1 else 0

/-- `varintSizeFromFirstByte`: lines 224-233. -/
def varintSizeFromFirstByte (firstByte : UInt8) : Nat := trailingZerosLoop 8 firstByte.toNat + 1

/-- `DataView.setUint8` of a number: the low byte. -/
def u8 (n : Nat) : UInt8 := UInt8.ofNat n

/-- `DataView.setUint16`, little-endian. -/
def u16 (n : Nat) : Bytes := [u8 n, u8 (n >>> 8)]

/-- `DataView.setUint32`, little-endian. -/
def u32 (n : Nat) : Bytes := [u8 n, u8 (n >>> 8), u8 (n >>> 16), u8 (n >>> 24)]

/-- `DataView.setBigUint64`, little-endian. -/
def u64 (n : Nat) : Bytes :=
  [u8 n, u8 (n >>> 8), u8 (n >>> 16), u8 (n >>> 24), u8 (n >>> 32), u8 (n >>> 40), u8 (n >>> 48),
    u8 (n >>> 56)]

/-- `serializeVarint`: lines 235-318. The bytes set at `offset` and following; the new offset is `offset` plus
their number. -/
def serializeVarint (value : Nat) : Bytes :=
  if value < 128 then [u8 ((value <<< 1) ||| 0b00000001)]
  else if value < 16512 then
    let value := value - 128
    [u8 (((value <<< 2) % 256) ||| 0b00000010), u8 (value >>> 6)]
  else if value < 2113664 then
    let value := value - 16512
    [u8 (((value <<< 3) % 256) ||| 0b00000100)] ++ u16 ((value >>> 5) % 65536)
  else if value < 270549120 then
    let value := value - 2113664
    [u8 (((value <<< 4) % 256) ||| 0b00001000), u8 ((value >>> 4) % 256)] ++ u16 ((value >>> 12) % 65536)
  else if value < 34630287488 then
    let value := value - 270549120
    [u8 (((value <<< 5) % 256) ||| 0b00010000)] ++ u32 ((value >>> 3) % 4294967296)
  else if value < 4432676798592 then
    let value := value - 34630287488
    [u8 (((value <<< 6) % 256) ||| 0b00100000), u8 ((value >>> 2) % 256)] ++ u32 ((value >>> 10) % 4294967296)
  else if value < 567382630219904 then
    let value := value - 4432676798592
    [u8 (((value <<< 7) % 256) ||| 0b01000000)] ++ u16 ((value >>> 1) % 65536) ++
      u32 ((value >>> 17) % 4294967296)
  else if value < 72624976668147840 then
    let value := value - 567382630219904
    [0b10000000, u8 (value % 256)] ++ u16 ((value >>> 8) % 65536) ++ u32 ((value >>> 24) % 4294967296)
  else
    let value := value - 72624976668147840
    [0b00000000] ++ u64 value

/-! ### Buffers -/

/-- The `DataView` being written, and the offset. -/
structure W where
  buf : Bytes
  off : Nat

/-- Bounds-checked write at the offset, which moves on; `none` is a `RangeError`. -/
def put (bs : Bytes) (w : W) : Option W :=
  if w.off + bs.length ≤ w.buf.length then
    some ⟨w.buf.take w.off ++ bs ++ w.buf.drop (w.off + bs.length), w.off + bs.length⟩
  else none

/-- A `DataView` being read: `buffer`, `byteOffset`, `byteLength`. -/
structure View where
  buf : Bytes
  base : Nat
  len : Nat

/-- `new DataView(buffer, byteOffset, byteLength)`; `none` is a `RangeError`. Only checked against the size
of the underlying buffer. -/
def View.new (buf : Bytes) (base len : Nat) : Option View :=
  if base + len ≤ buf.length then some ⟨buf, base, len⟩ else none

/-- `DataView.getUint8`; `none` is a `RangeError`. -/
def View.getUint8 (v : View) (off : Nat) : Option UInt8 :=
  if off + 1 ≤ v.len then v.buf[v.base + off]? else none

/-- Consecutive bytes, as read by the loop in `deserializeVarint` (lines 329-331), `getBigUint64` and `getFloat64`. -/
def View.getBytes (v : View) (off : Nat) : Nat → Option Bytes
  | 0 => some []
  | n + 1 =>
    match v.getUint8 off, v.getBytes (off + 1) n with
    | some b, some bs => some (b :: bs)
    | _, _ => none

/-- The little-endian value of bytes (`getBigUint64`). -/
def leValue : Bytes → Nat
  | [] => 0
  | b :: bs => b.toNat + 256 * leValue bs

/-- `deserializeVarint`: lines 320-372. Gives the new offset and the value; `none` is a `RangeError`. -/
def deserializeVarint (v : View) (offset : Nat) : Option (Nat × Nat) :=
  match v.getUint8 offset with
  | none => none
  | some firstByte =>
    let sizeMinusOne := varintSizeFromFirstByte firstByte - 1
    match v.getBytes (offset + 1) sizeMinusOne with
    | none => none
    | some bytes =>
      let r := leValue bytes
      match sizeMinusOne with
      | 0 => some (offset + 1, firstByte.toNat >>> 1)
      | 1 => some (offset + 2, 128 + (firstByte.toNat >>> 2) + (r <<< 6))
      | 2 => some (offset + 3, 16512 + (firstByte.toNat >>> 3) + (r <<< 5))
      | 3 => some (offset + 4, 2113664 + (firstByte.toNat >>> 4) + (r <<< 4))
      | 4 => some (offset + 5, 270549120 + (firstByte.toNat >>> 5) + (r <<< 3))
      | 5 => some (offset + 6, 34630287488 + (firstByte.toNat >>> 6) + (r <<< 2))
      | 6 => some (offset + 7, 4432676798592 + (firstByte.toNat >>> 7) + (r <<< 1))
      | 7 => some (offset + 8, 567382630219904 + r)
      | _ => some (offset + 9, (72624976668147840 + r) % 18446744073709551616)

/-! ### Field headers -/

/-- `fieldHeaderSize`: lines 374-394. -/
def fieldHeaderSize (index payloadSize : Nat) (integerEncoded : Bool) : Nat :=
  match payloadSize with
  | 0 => varintSizeFromValue (index <<< 2)
  | 8 => varintSizeFromValue ((index <<< 2) ||| 1)
  | payloadSize =>
    if integerEncoded then varintSizeFromValue ((index <<< 2) ||| 2)
    else varintSizeFromValue ((index <<< 2) ||| 3) + varintSizeFromValue payloadSize

/-- `serializeFieldHeader`: lines 396-418, the bytes set. -/
def serializeFieldHeader (index payloadSize : Nat) (integerEncoded : Bool) : Bytes :=
  match payloadSize with
  | 0 => serializeVarint (index <<< 2)
  | 8 => serializeVarint ((index <<< 2) ||| 1)
  | payloadSize =>
    if integerEncoded then serializeVarint ((index <<< 2) ||| 2)
    else serializeVarint ((index <<< 2) ||| 3) ++ serializeVarint payloadSize

/-- `deserializeFieldHeader`: lines 420-441. Gives the new offset, the index and the payload size. -/
def deserializeFieldHeader (v : View) (offset : Nat) : Option (Nat × Nat × Nat) :=
  match deserializeVarint v offset with
  | none => none
  | some (newOffset, tag) =>
    let index := tag >>> 2
    match tag &&& 3 with
    | 0 => some (newOffset, index, 0)
    | 1 => some (newOffset, index, 8)
    | 2 =>
      match v.getUint8 newOffset with
      | none => none
      | some b => some (newOffset, index, varintSizeFromFirstByte b)
    | _ =>
      match deserializeVarint v newOffset with
      | none => none
      | some (newNewOffset, sizeValue) => some (newNewOffset, index, sizeValue)

/-! ### Text -/

/-- U+FFFD in UTF-8. -/
def replacement : Bytes := [0xEF, 0xBF, 0xBD]

/-- Is `c` a possible second byte after the first byte `b` of a three-byte sequence? -/
def second3 (b c : UInt8) : Bool :=
  if b = 0xE0 then 0xA0 ≤ c && c ≤ 0xBF
  else if b = 0xED then 0x80 ≤ c && c ≤ 0x9F
  else isCont c

/-- Is `c` a possible second byte after the first byte `b` of a four-byte sequence? -/
def second4 (b c : UInt8) : Bool :=
  if b = 0xF0 then 0x90 ≤ c && c ≤ 0xBF
  else if b = 0xF4 then 0x80 ≤ c && c ≤ 0x8F
  else isCont c

/-- The UTF-8 decoder of the WHATWG Encoding Standard in replacement mode, which `TextDecoder.decode` runs: each
maximal ill-formed subsequence becomes U+FFFD. The result is given in UTF-8 again. -/
def decodeUtf8 : Bytes → Bytes
  | [] => []
  | b :: s =>
    if b ≤ 0x7F then b :: decodeUtf8 s
    else if 0xC2 ≤ b && b ≤ 0xDF then
      match s with
      | [] => replacement
      | c :: s1 =>
        if isCont c then b :: c :: decodeUtf8 s1 else replacement ++ decodeUtf8 (c :: s1)
    else if 0xE0 ≤ b && b ≤ 0xEF then
      match s with
      | [] => replacement
      | c :: s1 =>
        if second3 b c then
          match s1 with
          | [] => replacement
          | d :: s2 =>
            if isCont d then b :: c :: d :: decodeUtf8 s2 else replacement ++ decodeUtf8 (d :: s2)
        else replacement ++ decodeUtf8 (c :: s1)
    else if 0xF0 ≤ b && b ≤ 0xF4 then
      match s with
      | [] => replacement
      | c :: s1 =>
        if second4 b c then
          match s1 with
          | [] => replacement
          | d :: s2 =>
            if isCont d then
              match s2 with
              | [] => replacement
              | e :: s3 =>
                if isCont e then b :: c :: d :: e :: decodeUtf8 s3 else replacement ++ decodeUtf8 (e :: s3)
            else replacement ++ decodeUtf8 (d :: s2)
        else replacement ++ decodeUtf8 (c :: s1)
    else replacement ++ decodeUtf8 s

/-- `TextDecoder` removes a byte order mark at the beginning. -/
def stripBom (s : Bytes) : Bytes :=
  match s with
  | 0xEF :: 0xBB :: 0xBF :: s => s
  | s => s

/-- The decoder only produces valid UTF-8. -/
theorem decodeUtf8_valid : (s : Bytes) → validUtf8 (decodeUtf8 s) = true
  | [] => rfl
  | b :: s => by
    have hrep : ∀ t, validUtf8 t = true → validUtf8 (replacement ++ t) = true := by
      intro t ht
      show validUtf8 (0xEF :: 0xBF :: 0xBD :: t) = true
      simp [validUtf8, isCont, ht]
    have hrep0 : validUtf8 replacement = true := by decide
    have ih : ∀ t : Bytes, t.length ≤ s.length → validUtf8 (decodeUtf8 t) = true :=
      fun t _ => decodeUtf8_valid t
    unfold decodeUtf8
    split
    · next h =>
      have e : ∀ t, validUtf8 (b :: t) = validUtf8 t := by
        intro t
        conv => lhs; unfold validUtf8
        exact if_pos h
      rw [e]; exact ih s (Nat.le_refl _)
    next h1 =>
    split
    · next h2 =>
      split
      · exact hrep0
      · next c s1 =>
        split
        · next hc =>
          simp only [validUtf8, h1, h2, if_true, if_false, hc, Bool.true_and]
          exact ih s1 (by simp)
        · exact hrep _ (ih (c :: s1) (by simp))
    next h2 =>
    split
    · next h3 =>
      split
      · exact hrep0
      · next c s1 =>
        split
        · next hc =>
          split
          · exact hrep0
          · next d s2 =>
            split
            · next hd =>
              unfold second3 at hc
              simp only [validUtf8, h1, h2, h3, if_true, hc, hd, Bool.true_and]
              exact ih s2 (by simp; omega)
            · exact hrep _ (ih (d :: s2) (by simp))
        · exact hrep _ (ih (c :: s1) (by simp))
    next h3 =>
    split
    · next h4 =>
      split
      · exact hrep0
      · next c s1 =>
        split
        · next hc =>
          split
          · exact hrep0
          · next d s2 =>
            split
            · next hd =>
              split
              · exact hrep0
              · next e s3 =>
                split
                · next he =>
                  unfold second4 at hc
                  simp only [validUtf8, h1, h2, h3, h4, if_true, hc, hd, he, Bool.true_and]
                  exact ih s3 (by simp; omega)
                · exact hrep _ (ih (e :: s3) (by simp))
            · exact hrep _ (ih (d :: s2) (by simp))
        · exact hrep _ (ih (c :: s1) (by simp))
    · exact hrep _ (ih s (Nat.le_refl _))
termination_by s => s.length

/-- `TextDecoder.decode` (without options): used at lines 2468-2485. -/
def textDecode (s : Bytes) : Utf8 := ⟨decodeUtf8 (stripBom s), decodeUtf8_valid _⟩

/-! ### Atlases -/

mutual
/-- The generated atlas types: `write_type`, `write_struct`, `write_choice` with `Direction::Atlas`, lines
1330-1455 and 1558-1645. The atlas of a string is the encoded string. -/
def CAtlas : CTy → Type
  | .bytes => Nat
  | .string => Bytes
  | .units => Nat
  | .scalars _ => Nat
  | .array c => Nat × List (CAtlas c)
  | .struct fs => Nat × AtlasStruct fs
  | .choice fs => Chain (Nat × AtlasSel true fs) (Nat × AtlasSel false fs)

/-- Atlas of a field's payload. -/
def TAtlas : Ty → Type
  | .unit => Nat
  | .scalar _ => Nat
  | .comp c => CAtlas c

/-- Members of a struct's atlas, besides `$size`. -/
def AtlasStruct : Fields → Type
  | .nil => Unit
  | .cons _ r t rest => Slot (r.mayOmit .out) (TAtlas t) × AtlasStruct rest

/-- Payload atlas in a variant of a choice's atlas. -/
def AtlasSel (fb : Bool) : Fields → Type
  | .nil => Empty
  | .cons _ r t rest => Guard (r.hasFallback .out = fb) (TAtlas t) ⊕ AtlasSel fb rest
end

/-- `write_atlas_lookup`: lines 1944-1973. -/
def cSize : (c : CTy) → CAtlas c → Nat
  | .bytes, a => a
  | .string, a => List.length (α := UInt8) a
  | .units, a => a
  | .scalars _, a => a
  | .array _, a => a.1
  | .struct _, a => a.1
  | .choice _, .last a => a.1
  | .choice _, .more a _ => a.1

/-- `write_atlas_lookup`: lines 1944-1973. -/
def tSize : (t : Ty) → TAtlas t → Nat
  | .unit, a => a
  | .scalar _, a => a
  | .comp c, a => cSize c a

/-- Size of a `U64` field: lines 1913-1932; also that of the zigzag encoding, lines 1884-1912. -/
def u64FieldSize (payload : Nat) : Nat :=
  if payload = 0 then 0 else if payload < 567382630219904 then varintSizeFromValue payload else 8

/-- Size of an `F64` field: lines 1868-1883. `Object.is(payload, 0)` holds for `+0` only. -/
def f64FieldSize (bits : UInt64) : Nat := if bits = 0 then 0 else 8

/-- Size of a scalar field: lines 1838-1853 and 1868-1932. -/
def scalarFieldSize : (s : Scalar) → s.Val → Nat
  | .bool, b => cond b 1 0
  | .s64, v => u64FieldSize (zigzagEncode (Int64.toInt v)).toNat
  | .u64, v => u64FieldSize (UInt64.toNat v)
  | .f64, v => f64FieldSize v

/-- Size of a scalar array element: the same lines with `is_field` unset. -/
def scalarElemSize : (s : Scalar) → s.Val → Nat
  | .bool, _ => 1
  | .s64, v => varintSizeFromValue (zigzagEncode (Int64.toInt v)).toNat
  | .u64, v => varintSizeFromValue (UInt64.toNat v)
  | .f64, _ => 8

/-- Size of an array of scalars: lines 1781-1814. -/
def scalarsSize : (s : Scalar) → List s.Val → Nat
  | .f64, vs => 8 * vs.length
  | s, vs => vs.foldl (fun x v => x + scalarElemSize s v) 0

/-- The recursion through fallbacks of a choice's `atlas` function: lines 1039-1112. -/
def chainAtlas {α β α' β' : Type} (f : α → Nat × α') (g : β → Nat × β') :
    Chain α β → Chain (Nat × α') (Nat × β')
  | .last b => .last (g b)
  | .more a rest =>
    let fallbackAtlas := chainAtlas f g rest
    let size := match fallbackAtlas with
      | .last b => b.1
      | .more a _ => a.1
    .more ((f a).1 + size, (f a).2) fallbackAtlas

mutual
/-- `write_atlas_calculation` (lines 1724-1938) and the `atlas` functions of structs (lines 646-736) and
choices (lines 1039-1112). The order of the `'…' in message` tests of a choice is modelled in
`Verif.Front.Names`. -/
def cAtlas (isField : Bool) : (c : CTy) → c.Msg .out → CAtlas c
  | .bytes, m => List.length (α := UInt8) m
  | .string, m => m.bytes
  | .units, n => if isField then u64FieldSize (UInt64.toNat n) else varintSizeFromValue (UInt64.toNat n)
  | .scalars s, m => scalarsSize s m
  | .array c, m =>
    let elements := m.map (cAtlas false c)
    (elements.foldl (fun size a => size + varintSizeFromValue (cSize c a) + cSize c a) 0, elements)
  | .struct fs, m => structAtlas fs m
  | .choice fs, m => chainAtlas (selAtlas fs) (selAtlas fs) m

/-- `write_atlas_calculation` with `is_field`: lines 1724-1938. -/
def tAtlas : (t : Ty) → t.Msg .out → TAtlas t
  | .unit, _ => (0 : Nat)
  | .scalar s, v => scalarFieldSize s v
  | .comp c, m => cAtlas true c m

/-- The `atlas` function of structs: lines 646-736. -/
def structAtlas : (fs : Fields) → fs.Struct .out → Nat × AtlasStruct fs
  | .nil, _ => (0, ())
  | .cons i _ t rest, (slot, m) =>
    let a := Slot.map (tAtlas t) slot
    let size := match Slot.get? a with
      | none => 0
      | some a => fieldHeaderSize i (tSize t a) t.integerEncoded + tSize t a
    let r := structAtlas rest m
    (size + r.1, (a, r.2))

/-- The `atlas` function of choices for one variant, without its fallback: lines 1049-1107. -/
def selAtlas {fb : Bool} : (fs : Fields) → fs.Sel .out fb → Nat × AtlasSel fb fs
  | .nil, e => e.elim
  | .cons i _ t _, .inl p =>
    let a := tAtlas t p.val
    (fieldHeaderSize i (tSize t a) t.integerEncoded + tSize t a, .inl ⟨a, p.ok⟩)
  | .cons _ _ _ rest, .inr p =>
    let r := selAtlas rest p
    (r.1, .inr r.2)
end

/-! ### Serialisation -/

/-- `write_u64_serialization_invocation`: lines 2171-2198. -/
def serU64 (isField : Bool) (varint : Nat) (w : W) : Option W :=
  if isField then
    if varint > 567382630219903 then put (u64 varint) w
    else if varint ≠ 0 then put (serializeVarint varint) w
    else some w
  else put (serializeVarint varint) w

/-- `DataView.setFloat64`, little-endian; the number is given by its bit pattern. -/
def setFloat64 (bits : UInt64) (w : W) : Option W := put (u64 bits.toNat) w

/-- Serialisation of a scalar field whose atlas is `a`: lines 2065-2160. -/
def serScalarField : (s : Scalar) → s.Val → Nat → W → Option W
  | .bool, b, _, w => serU64 true (cond b 1 0) w
  | .s64, v, _, w => serU64 true (zigzagEncode (Int64.toInt v)).toNat w
  | .u64, v, _, w => serU64 true (UInt64.toNat v) w
  | .f64, v, a, w => if a ≠ 0 then setFloat64 v w else some w

/-- Serialisation of a scalar array element: the same lines with `is_field` unset. -/
def serScalarElem : (s : Scalar) → s.Val → W → Option W
  | .bool, b, w => serU64 false (cond b 1 0) w
  | .s64, v, w => serU64 false (zigzagEncode (Int64.toInt v)).toNat w
  | .u64, v, w => serU64 false (UInt64.toNat v) w
  | .f64, v, w => setFloat64 v w

/-- A loop over the elements of an array which writes each of them: lines 2000-2054. -/
def serEach {α : Type} (f : α → W → Option W) : List α → W → Option W
  | [], w => some w
  | a :: l, w => (f a w).bind (serEach f l)

/-- The recursion through fallbacks of a choice's `serializeWithAtlasUnsafe`: lines 1119-1204. In the last two
cases the code would read properties of `undefined`, a `TypeError`. -/
def chainSer {α β α' β' : Type} (f : α → α' → W → Option W) (g : β → β' → W → Option W) :
    Chain α β → Chain (Nat × α') (Nat × β') → W → Option W
  | .last b, .last b', w => g b b'.2 w
  | .more a rest, .more a' rest', w => (f a a'.2 w).bind (chainSer f g rest rest')
  | .last _, .more _ _, _ => none
  | .more _ _, .last _, _ => none

mutual
/-- `write_serialization_invocation` (lines 1987-2163) and `serializeWithAtlasUnsafe` of structs
(lines 740-814) and choices (lines 1119-1204). `none` is a thrown error. -/
def cSer (isField : Bool) : (c : CTy) → c.Msg .out → CAtlas c → W → Option W
  | .bytes, m, _, w => put m w
  | .string, _, a, w => put a w
  | .units, n, _, w => serU64 isField (UInt64.toNat n) w
  | .scalars s, m, _, w => serEach (serScalarElem s) m w
  | .array c, m, a, w =>
    serEach (fun p w => (put (serializeVarint (cSize c p.2)) w).bind (cSer false c p.1 p.2)) (m.zip a.2) w
  | .struct fs, m, a, w => structSer fs m a.2 w
  | .choice fs, m, a, w => chainSer (selSer fs) (selSer fs) m a w

/-- `write_serialization_invocation` with `is_field`: lines 1987-2163. -/
def tSer : (t : Ty) → t.Msg .out → TAtlas t → W → Option W
  | .unit, _, _, w => some w
  | .scalar s, v, a, w => serScalarField s v a w
  | .comp c, m, a, w => cSer true c m a w

/-- `serializeWithAtlasUnsafe` of structs: lines 740-814. -/
def structSer : (fs : Fields) → fs.Struct .out → AtlasStruct fs → W → Option W
  | .nil, _, _, w => some w
  | .cons i _ t rest, (slot, m), (aslot, a), w =>
    (match Slot.get? slot, Slot.get? aslot with
      | some p, some pa => (put (serializeFieldHeader i (tSize t pa) t.integerEncoded) w).bind (tSer t p pa)
      | _, _ => some w).bind (structSer rest m a)

/-- `serializeWithAtlasUnsafe` of choices for one variant, without its fallback: lines 1141-1198. -/
def selSer {fb : Bool} : (fs : Fields) → fs.Sel .out fb → AtlasSel fb fs → W → Option W
  | .nil, e, _, _ => e.elim
  | .cons i _ t _, .inl p, .inl pa, w =>
    (put (serializeFieldHeader i (tSize t pa.val) t.integerEncoded) w).bind (tSer t p.val pa.val)
  | .cons _ _ _ rest, .inr p, .inr pa, w => selSer rest p pa w
  | .cons _ _ _ _, .inl _, .inr _, _ => none
  | .cons _ _ _ _, .inr _, .inl _, _ => none
end

/-- `size`: `write_size_function`, lines 1458-1477. (For a struct without fields the code returns 0, which is
the size of its atlas.) -/
def size (c : CTy) (m : c.Msg .out) : Nat := cSize c (cAtlas false c m)

/-- `serialize`: `write_serialize_function`, lines 1479-1513. The new `ArrayBuffer` is zero-filled. -/
def serialize (c : CTy) (m : c.Msg .out) : Option Bytes :=
  let messageAtlas := cAtlas false c m
  match cSer false c m messageAtlas ⟨List.replicate (cSize c messageAtlas) 0, 0⟩ with
  | none => none
  | some w => some w.buf

/-! ### Deserialisation -/

/-- Thrown errors: a `RangeError` (a read or a `DataView` outside of the buffer, or an array which is too
long), the `Error` for missing fields. `fuel` is an artefact of the model (proved unreachable). -/
inductive Err
  | range
  | missing
  | fuel
  deriving DecidableEq, Repr

/-- The new offset and the payload. -/
abbrev Res (α : Type) := Except Err (Nat × α)

/-- A read which throws a `RangeError` if it fails. -/
def orRange {α : Type} : Option α → Except Err α
  | none => .error .range
  | some a => .ok a

/-- `write_deserialization_invocation` for `U64`: lines 2486-2527. -/
def readU64 (isField : Bool) (payloadSize : Nat) (v : View) (offset : Nat) : Option (Nat × Nat) :=
  if isField then
    match payloadSize with
    | 0 => some (offset, 0)
    | 8 =>
      match v.getBytes offset 8 with
      | none => none
      | some bs => some (offset + 8, leValue bs)
    | _ => deserializeVarint v offset
  else deserializeVarint v offset

/-- `DataView.getFloat64`, as a bit pattern, and the new offset. -/
def getFloat64 (v : View) (offset : Nat) : Option (Nat × UInt64) :=
  match v.getBytes offset 8 with
  | none => none
  | some bs => some (offset + 8, UInt64.ofNat (leValue bs))

/-- `write_deserialization_invocation` for scalars: lines 2378-2403 (`Bool`), 2424-2455 (`F64`), 2456-2467
(`S64`), 2486-2527 (`U64`). `none` is a `RangeError`. -/
def readScalar (isField : Bool) (payloadSize : Nat) (v : View) (offset : Nat) :
    (s : Scalar) → Option (Nat × s.Val)
  | .bool =>
    match readU64 isField payloadSize v offset with
    | none => none
    | some (o, n) => some (o, decide (n ≠ 0))
  | .s64 =>
    match readU64 isField payloadSize v offset with
    | none => none
    | some (o, n) => some (o, Int64.ofInt (zigzagDecode n))
  | .u64 =>
    match readU64 isField payloadSize v offset with
    | none => none
    | some (o, n) => some (o, UInt64.ofNat n)
  | .f64 =>
    if isField ∧ payloadSize = 0 then some (offset, (0 : UInt64)) else getFloat64 v offset

/-- The loop reading an array of scalars: lines 2299-2347. A `RangeError` ends it. -/
def scalarLoop {α : Type} (elem : Nat → Option (Nat × α)) : Nat → Nat → Except Err (Nat × List α)
  | 0, _ => .error .fuel
  | fuel + 1, offset =>
    match elem offset with
    | none => .ok (offset, [])
    | some (offset, a) =>
      match scalarLoop elem fuel offset with
      | .error e => .error e
      | .ok (o, as) => .ok (o, a :: as)

/-- The loop reading an array of composite elements: lines 2228-2298. `elem` deserialises from a new
`DataView` with the offset 0 and gives the offset reached. -/
def arrayLoop {α : Type} (elem : Nat → View → Res α) (v : View) : Nat → Nat → Except Err (Nat × List α)
  | 0, _ => .error .fuel
  | fuel + 1, offset =>
    match deserializeVarint v offset with
    | none => .ok (offset, [])
    | some (offset, payloadSize) =>
      match View.new v.buf (v.base + offset) payloadSize with
      | none => .error .range
      | some dataView =>
        match elem payloadSize dataView with
        | .error e => .error e
        | .ok (o, a) =>
          match arrayLoop elem v fuel (o + offset) with
          | .error e => .error e
          | .ok (o, as) => .ok (o, a :: as)

/-- The loop of a struct's `deserializeUnsafe`: lines 849-920. `step` is the `switch (index)` statement, applied
to the index, the payload size and the view of the payload; it gives `none` for an unrecognised index
and otherwise the offset reached in the payload. -/
def structLoop {σ : Type} (step : Nat → Nat → Option View → σ → Except Err (Option (Nat × σ))) (v : View) :
    Nat → Nat → σ → Except Err σ
  | 0, _, _ => .error .fuel
  | fuel + 1, offset, st =>
    match deserializeFieldHeader v offset with
    | none => .ok st
    | some (offset, index, payloadSize) =>
      match step index payloadSize (View.new v.buf (v.base + offset) payloadSize) st with
      | .error e => .error e
      | .ok none => structLoop step v fuel (offset + payloadSize) st
      | .ok (some (o, st)) => structLoop step v fuel (o + offset) st

/-- The loop and the recursion of a choice's `deserializeUnsafe`: lines 1210-1318. A `RangeError` of the header
is not caught. The view of the fallback has the size `byteLength - offset`, which must not be negative. -/
def choiceLoop {α β : Type} (step : Nat → Nat → Option View → Except Err (Option (Nat × (α ⊕ β)))) :
    Nat → View → Nat → Except Err (Chain α β)
  | 0, _, _ => .error .fuel
  | fuel + 1, v, offset =>
    match deserializeFieldHeader v offset with
    | none => .error .range
    | some (offset, index, payloadSize) =>
      match step index payloadSize (View.new v.buf (v.base + offset) payloadSize) with
      | .error e => .error e
      | .ok none => choiceLoop step fuel v (offset + payloadSize)
      | .ok (some (_, .inr b)) => .ok (.last b)
      | .ok (some (o, .inl a)) =>
        if o + offset ≤ v.len then
          match View.new v.buf (v.base + (o + offset)) (v.len - (o + offset)) with
          | none => .error .range
          | some w =>
            match choiceLoop step fuel w 0 with
            | .error e => .error e
            | .ok fallback => .ok (.more a fallback)
        else .error .range

mutual
/-- `write_deserialization_invocation` (lines 2215-2533) and `deserializeUnsafe` of structs (lines 820-969) and
choices (lines 1210-1318), applied to a new `DataView` with the offset 0. `Array(n)` throws a `RangeError` if
`n` is `2^32` or more. -/
def cDeser (isField : Bool) : (c : CTy) → Nat → View → Res (c.Msg .inn)
  | .bytes, _, v => .ok (v.len, (v.buf.drop v.base).take v.len)
  | .string, _, v => .ok (v.len, textDecode ((v.buf.drop v.base).take v.len))
  | .units, n, v =>
    match readU64 isField n v 0 with
    | none => .error .range
    | some (o, k) => if k < 4294967296 then .ok (o, UInt64.ofNat k) else .error .range
  | .scalars s, _, v => scalarLoop (fun o => readScalar false 0 v o s) (v.len + 1) 0
  | .array c, _, v => arrayLoop (cDeser false c) v (v.len + 1) 0
  | .struct fs, _, v =>
    match structLoop (fieldsStep fs) v (v.len + 1) 0 fs.emptySlots with
    | .error e => .error e
    | .ok slots =>
      match fs.finish slots with
      | none => .error .missing
      | some m => .ok (v.len, m)
  | .choice fs, _, v =>
    match choiceLoop (fieldsSelect fs) (v.len + 1) v 0 with
    | .error e => .error e
    | .ok m => .ok (v.len, m)

/-- `write_deserialization_invocation` with `is_field`: lines 2215-2533. -/
def tDeser : (t : Ty) → Nat → View → Res (t.Msg .inn)
  | .unit, _, _ => .ok (0, ())
  | .scalar s, n, v => orRange (readScalar true n v 0 s)
  | .comp c, n, v => cDeser true c n v

/-- The `switch (index)` statement of a struct's deserialiser: lines 878-918. A later value replaces an earlier
one. -/
def fieldsStep :
    (fs : Fields) → Nat → Nat → Option View → fs.Slots → Except Err (Option (Nat × fs.Slots))
  | .nil, _, _, _, _ => .ok none
  | .cons i _ t rest, index, n, v, (o, os) =>
    if index = i then
      match v with
      | none => .error .range
      | some v =>
        match tDeser t n v with
        | .error e => .error e
        | .ok (off, x) => .ok (some (off, (some x, os)))
    else
      match fieldsStep rest index n v os with
      | .error e => .error e
      | .ok none => .ok none
      | .ok (some (off, os)) => .ok (some (off, (o, os)))

/-- The `switch (index)` statement of a choice's deserialiser: lines 1235-1310. -/
def fieldsSelect :
    (fs : Fields) → Nat → Nat → Option View →
      Except Err (Option (Nat × (fs.Sel .inn true ⊕ fs.Sel .inn false)))
  | .nil, _, _, _ => .ok none
  | .cons i r t rest, index, n, v =>
    if index = i then
      match v with
      | none => .error .range
      | some v =>
        match tDeser t n v with
        | .error e => .error e
        | .ok (off, x) =>
          if h : r.hasFallback .inn = true then .ok (some (off, .inl (.inl ⟨x, h⟩)))
          else .ok (some (off, .inr (.inl ⟨x, Bool.not_eq_true _ ▸ h⟩)))
    else
      match fieldsSelect rest index n v with
      | .error e => .error e
      | .ok none => .ok none
      | .ok (some (off, .inl a)) => .ok (some (off, .inl (.inr a)))
      | .ok (some (off, .inr a)) => .ok (some (off, .inr (.inr a)))
end

/-- `deserialize` applied to a `DataView` or a typed array (`write_deserialize_function`, lines 1516-1555). -/
def deserializeView (c : CTy) (v : View) : Except Err (c.Msg .inn) :=
  match cDeser false c v.len v with
  | .error e => .error e
  | .ok (_, m) => .ok m

/-- `deserialize` applied to an `ArrayBuffer`: line 1534. -/
def deserialize (c : CTy) (s : Bytes) : Except Err (c.Msg .inn) := deserializeView c ⟨s, 0, s.length⟩

end Typical.Ts
