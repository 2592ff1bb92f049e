/-!
# Model of the variable-width integers and ZigZag of the generated Rust runtime

Models the runtime printed at the top of every generated Rust file
(`/repo/src/generate_rust.rs` lines 137-386).

Simplifications: a writer is the list of bytes written (no I/O errors); a reader is the list of
bytes not read yet; the only possible reader error is `UnexpectedEof`.
-/

namespace Typical

/-- A byte string. -/
abbrev Bytes := List UInt8

/-- `zigzag_encode`: `/repo/src/generate_rust.rs` lines 158-160. `transmute` is `Int64.toUInt64`;
`>>` on `i64` is an arithmetic shift. -/
def zigzagEncode (v : Int64) : UInt64 :=
  (v >>> 63).toUInt64 ^^^ (v <<< 1).toUInt64

/-- `zigzag_decode`: `/repo/src/generate_rust.rs` lines 162-164. -/
def zigzagDecode (v : UInt64) : Int64 :=
  (v >>> 1).toInt64 ^^^ -((v &&& 1).toInt64)

/-- `varint_size_from_value`: `/repo/src/generate_rust.rs` lines 166-178. -/
def varintSizeFromValue (v : UInt64) : Nat :=
  if v ≤ 127 then 1
  else if v ≤ 16511 then 2
  else if v ≤ 2113663 then 3
  else if v ≤ 270549119 then 4
  else if v ≤ 34630287487 then 5
  else if v ≤ 4432676798591 then 6
  else if v ≤ 567382630219903 then 7
  else if v ≤ 72624976668147839 then 8
  else 9

/-- `u8::trailing_zeros` (8 for 0): Rust standard library, used at `/repo/src/generate_rust.rs`
lines 181 and 278. -/
def trailingZeros (b : UInt8) : Nat :=
  if b &&& 1 ≠ 0 then 0
  else if b &&& 2 ≠ 0 then 1
  else if b &&& 4 ≠ 0 then 2
  else if b &&& 8 ≠ 0 then 3
  else if b &&& 16 ≠ 0 then 4
  else if b &&& 32 ≠ 0 then 5
  else if b &&& 64 ≠ 0 then 6
  else if b &&& 128 ≠ 0 then 7
  else 8

/-- `varint_size_from_first_byte`: `/repo/src/generate_rust.rs` lines 180-182. -/
def varintSizeFromFirstByte (b : UInt8) : Nat := trailingZeros b + 1

/-- `serialize_varint`: `/repo/src/generate_rust.rs` lines 184-272. `as u8` is `UInt64.toUInt8`. -/
def serializeVarint (v : UInt64) : Bytes :=
  if v ≤ 127 then [(v <<< 1).toUInt8 ||| 0b00000001]
  else if v ≤ 16511 then
    let v := v - 128
    [(v <<< 2).toUInt8 ||| 0b00000010, (v >>> 6).toUInt8]
  else if v ≤ 2113663 then
    let v := v - 16512
    [(v <<< 3).toUInt8 ||| 0b00000100, (v >>> 5).toUInt8, (v >>> 13).toUInt8]
  else if v ≤ 270549119 then
    let v := v - 2113664
    [(v <<< 4).toUInt8 ||| 0b00001000, (v >>> 4).toUInt8, (v >>> 12).toUInt8, (v >>> 20).toUInt8]
  else if v ≤ 34630287487 then
    let v := v - 270549120
    [(v <<< 5).toUInt8 ||| 0b00010000, (v >>> 3).toUInt8, (v >>> 11).toUInt8, (v >>> 19).toUInt8,
      (v >>> 27).toUInt8]
  else if v ≤ 4432676798591 then
    let v := v - 34630287488
    [(v <<< 6).toUInt8 ||| 0b00100000, (v >>> 2).toUInt8, (v >>> 10).toUInt8, (v >>> 18).toUInt8,
      (v >>> 26).toUInt8, (v >>> 34).toUInt8]
  else if v ≤ 567382630219903 then
    let v := v - 4432676798592
    [(v <<< 7).toUInt8 ||| 0b01000000, (v >>> 1).toUInt8, (v >>> 9).toUInt8, (v >>> 17).toUInt8,
      (v >>> 25).toUInt8, (v >>> 33).toUInt8, (v >>> 41).toUInt8]
  else if v ≤ 72624976668147839 then
    let v := v - 567382630219904
    [0b10000000, v.toUInt8, (v >>> 8).toUInt8, (v >>> 16).toUInt8, (v >>> 24).toUInt8,
      (v >>> 32).toUInt8, (v >>> 40).toUInt8, (v >>> 48).toUInt8]
  else
    let v := v - 72624976668147840
    [0b00000000, v.toUInt8, (v >>> 8).toUInt8, (v >>> 16).toUInt8, (v >>> 24).toUInt8,
      (v >>> 32).toUInt8, (v >>> 40).toUInt8, (v >>> 48).toUInt8, (v >>> 56).toUInt8]

/-- `u64::from_le_bytes` applied to a buffer whose missing high bytes are zero: Rust standard
library, used at `/repo/src/generate_rust.rs` lines 282, 2310, 2321 and 2366. -/
def fromLeBytes : Bytes → UInt64
  | [] => 0
  | b :: bs => b.toUInt64 ||| (fromLeBytes bs <<< 8)

/-- `u64::to_le_bytes`: Rust standard library, used at `/repo/src/generate_rust.rs` lines 2042, 2046 and 2101. -/
def toLeBytes (v : UInt64) : Bytes :=
  [v.toUInt8, (v >>> 8).toUInt8, (v >>> 16).toUInt8, (v >>> 24).toUInt8, (v >>> 32).toUInt8,
    (v >>> 40).toUInt8, (v >>> 48).toUInt8, (v >>> 56).toUInt8]

/-- `Read::read_exact` of `n` bytes: `none` is `ErrorKind::UnexpectedEof`. -/
def readExact (n : Nat) (s : Bytes) : Option (Bytes × Bytes) :=
  if n ≤ s.length then some (s.take n, s.drop n) else none

/-- `deserialize_varint`: `/repo/src/generate_rust.rs` lines 274-301. The result is the value and
the unread bytes; `none` is `ErrorKind::UnexpectedEof`. The additions cannot overflow except the
last one, which is written `wrapping_add` in the code (`UInt64.add` wraps). -/
def deserializeVarint (s : Bytes) : Option (UInt64 × Bytes) :=
  match s with
  | [] => none
  | first :: s =>
    match readExact (trailingZeros first) s with
    | none => none
    | some (remaining, s) =>
      let r := fromLeBytes remaining
      match trailingZeros first with
      | 0 => some ((first >>> 1).toUInt64, s)
      | 1 => some ((128 : UInt64) + (first >>> 2).toUInt64 + (r <<< 6), s)
      | 2 => some ((16512 : UInt64) + (first >>> 3).toUInt64 + (r <<< 5), s)
      | 3 => some ((2113664 : UInt64) + (first >>> 4).toUInt64 + (r <<< 4), s)
      | 4 => some ((270549120 : UInt64) + (first >>> 5).toUInt64 + (r <<< 3), s)
      | 5 => some ((34630287488 : UInt64) + (first >>> 6).toUInt64 + (r <<< 2), s)
      | 6 => some ((4432676798592 : UInt64) + (first >>> 7).toUInt64 + (r <<< 1), s)
      | 7 => some ((567382630219904 : UInt64) + r, s)
      | _ => some ((72624976668147840 : UInt64) + r, s)

end Typical
