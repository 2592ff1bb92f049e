import Verif.Gen.Print

/-!
# The functions at the top of the generated Rust file

`/repo/src/generate_rust.rs` lines 160-386 (a constant text there), as syntax, and how this syntax
is printed. `Verif/Gen/RuntimeSem.lean` says how it is executed.
-/

namespace Typical.Gen.Rt

/-- Integer types. -/
inductive IntTy
  | u8
  | u32
  | u64
  | usize
  | i64
  deriving DecidableEq

/-- Variables. -/
inductive Name
  | value
  | firstByte
  | firstByteBuffer
  | sizeMinusOne
  | remainingBytesBuffer
  | remainingBytesValue
  | index
  | payloadSize
  | integerEncoded
  | size
  | tag
  | buffer
  | amount
  | numBytesToConsume
  | bufferSize
  | reader
  | writer
  deriving DecidableEq

/-- Functions. -/
inductive RFn
  | zigzagEncode
  | zigzagDecode
  | varintSizeFromValue
  | varintSizeFromFirstByte
  | serializeVarint
  | deserializeVarint
  | fieldHeaderSize
  | serializeFieldHeader
  | deserializeFieldHeader
  | skip
  | finish
  deriving DecidableEq

/-- How a literal is written. -/
inductive LitStyle
  /-- `8` -/
  | plain
  /-- `16_512_u64` -/
  | suffixed
  /-- `0b0000_0010` -/
  | binary8
  /-- `0b10` -/
  | binary2
  deriving DecidableEq

/-- Operators. -/
inductive Op
  | add
  | bor
  | band
  | bxor
  | shl
  | shr
  | gt
  deriving DecidableEq

/-- Patterns. -/
inductive RPat
  /-- `0_u64..=127_u64` -/
  | range (lo hi : Nat)
  /-- `0` -/
  | lit (s : LitStyle) (n : Nat)
  | bind (x : Name)
  | wild

mutual
/-- Expressions, statements and blocks. A block is an expression which ends with its value. -/
inductive REx
  | lit (t : IntTy) (s : LitStyle) (n : Nat)
  | var (x : Name)
  | paren (e : REx)
  | bin (op : Op) (a b : REx)
  /-- `a + b`, with a new line before the operator. -/
  | addLine (a b : REx)
  | neg (e : REx)
  /-- `e as t` -/
  | cast (e : REx) (t : IntTy)
  /-- `u64::from(e)` -/
  | u64From (e : REx)
  | wrappingAdd (a b : REx)
  | transmute (a b : IntTy) (e : REx)
  | unsafe_ (e : REx)
  | trailingZeros (e : REx)
  /-- `u64::from_le_bytes(e)` -/
  | fromLeBytes (e : REx)
  /-- `[0; n]` -/
  | zeros (n : Nat)
  /-- `x[0]` -/
  | first (x : Name)
  | len (x : Name)
  | isEmpty (x : Name)
  | min (a b : REx)
  | call (f : RFn) (as : RArgs)
  /-- `&mut *x` -/
  | reborrow (x : Name)
  | unit
  | ok (e : REx)
  | pair (a b : REx)
  /-- `e?` -/
  | try_ (e : REx)
  /-- `writer.write_all(&[…])` -/
  | writeAll (lines : Bool) (as : RArgs)
  /-- `reader.read_exact(&mut x[..])` -/
  | readAll (x : Name)
  /-- `reader.read_exact(&mut x[0..e])` -/
  | readPart (x : Name) (e : REx)
  /-- `reader.fill_buf()`, or `(&mut *reader).fill_buf()` -/
  | fillBuf (reborrow : Bool)
  /-- `reader.consume(e)` -/
  | consume (e : REx)
  /-- `Err(Error::new(ErrorKind::UnexpectedEof, "Error decoding field."))` -/
  | eofError
  | return_ (e : REx)
  | match_ (e : REx) (as : RArms)
  | if_ (c a b : REx)
  /-- `let x = e;` and the rest of the block. -/
  | letIn (mutable : Bool) (x : Name) (e rest : REx)
  /-- `e;` and the rest of the block. -/
  | seq (e rest : REx)
  /-- An empty line and the rest of the block. -/
  | blank (rest : REx)
  /-- `x -= e;` and the rest of the block. -/
  | subtract (x : Name) (e rest : REx)
  /-- `if c { a }` and the rest of the block. -/
  | ifThen (c a rest : REx)
  /-- `while c { b }` and the rest of the block. -/
  | while_ (c b rest : REx)
  | loop (b : REx)
  /-- The end of a block without a value. -/
  | done
inductive RArgs
  | nil
  | cons (e : REx) (as : RArgs)
/-- Arms of a `match`; `block` says whether the right-hand side is written in braces. -/
inductive RArms
  | nil
  | cons (p : RPat) (block : Bool) (e : REx) (as : RArms)
end

/-! ### The code -/

def rargs : List REx → RArgs
  | [] => .nil
  | e :: l => .cons e (rargs l)

def rarms : List (RPat × Bool × REx) → RArms
  | [] => .nil
  | (p, b, e) :: l => .cons p b e (rarms l)

/-- `n_u64` -/
abbrev u64 (n : Nat) : REx := .lit .u64 .suffixed n

/-- `e << n_u32` -/
abbrev shl (e : REx) (n : Nat) : REx := .bin .shl e (.lit .u32 .suffixed n)

abbrev shr (e : REx) (n : Nat) : REx := .bin .shr e (.lit .u32 .suffixed n)

/-- `((value << n_u32) as u8) | mark` -/
abbrev markedByte (n mark : Nat) : REx :=
  .bin .bor (.paren (.cast (.paren (shl (.var .value) n)) .u8)) (.lit .u8 .binary8 mark)

/-- `(value >> n_u32) as u8` -/
abbrev byteAt (n : Nat) : REx := .cast (.paren (shr (.var .value) n)) .u8

/-- An arm of `serialize_varint`. -/
abbrev varintArm (lo hi : Nat) (bytes : List REx) : RPat × Bool × REx :=
  (.range lo hi, true, .subtract .value (u64 lo) (.writeAll true (rargs bytes)))

/-- `(index << 2_u32) | kind` -/
abbrev tagEx (kind : Nat) : REx := .bin .bor (.paren (shl (.var .index) 2)) (.lit .u64 .binary2 kind)

/-- `u64::from(first_byte >> n_u32)` -/
abbrev fromFirst (n : Nat) : REx := .u64From (shr (.var .firstByte) n)

/-- `(remaining_bytes_value << n_u32)` -/
abbrev fromRemaining (n : Nat) : REx := .paren (shl (.var .remainingBytesValue) n)

/-- The bodies of the functions. -/
def RFn.body : RFn → REx
  -- Lines 158-160.
  | .zigzagEncode => .unsafe_ (.bin .bxor (.transmute .i64 .u64 (shr (.var .value) 63)) (.transmute .i64 .u64 (shl (.var .value) 1)))
  -- Lines 162-164.
  | .zigzagDecode => .unsafe_ (.bin .bxor (.transmute .u64 .i64 (shr (.var .value) 1))
      (.neg (.transmute .u64 .i64 (.bin .band (.var .value) (.lit .u64 .plain 1)))))
  -- Lines 166-178.
  | .varintSizeFromValue => .match_ (.var .value) (rarms [
      (.range 0 127, false, .lit .usize .plain 1),
      (.range 128 16511, false, .lit .usize .plain 2),
      (.range 16512 2113663, false, .lit .usize .plain 3),
      (.range 2113664 270549119, false, .lit .usize .plain 4),
      (.range 270549120 34630287487, false, .lit .usize .plain 5),
      (.range 34630287488 4432676798591, false, .lit .usize .plain 6),
      (.range 4432676798592 567382630219903, false, .lit .usize .plain 7),
      (.range 567382630219904 72624976668147839, false, .lit .usize .plain 8),
      (.range 72624976668147840 18446744073709551615, false, .lit .usize .plain 9)])
  -- Lines 180-182.
  | .varintSizeFromFirstByte => .bin .add (.trailingZeros (.var .firstByte)) (.lit .u32 .plain 1)
  -- Lines 184-272.
  | .serializeVarint => .match_ (.var .value) (rarms [
      (.range 0 127, false, .writeAll false (rargs [markedByte 1 1])),
      varintArm 128 16511 [markedByte 2 2, byteAt 6],
      varintArm 16512 2113663 [markedByte 3 4, byteAt 5, byteAt 13],
      varintArm 2113664 270549119 [markedByte 4 8, byteAt 4, byteAt 12, byteAt 20],
      varintArm 270549120 34630287487 [markedByte 5 16, byteAt 3, byteAt 11, byteAt 19, byteAt 27],
      varintArm 34630287488 4432676798591 [markedByte 6 32, byteAt 2, byteAt 10, byteAt 18, byteAt 26, byteAt 34],
      varintArm 4432676798592 567382630219903
        [markedByte 7 64, byteAt 1, byteAt 9, byteAt 17, byteAt 25, byteAt 33, byteAt 41],
      varintArm 567382630219904 72624976668147839
        [.lit .u8 .binary8 128, .cast (.var .value) .u8, byteAt 8, byteAt 16, byteAt 24, byteAt 32, byteAt 40, byteAt 48],
      varintArm 72624976668147840 18446744073709551615
        [.lit .u8 .binary8 0, .cast (.var .value) .u8, byteAt 8, byteAt 16, byteAt 24, byteAt 32, byteAt 40, byteAt 48, byteAt 56]])
  -- Lines 274-301.
  | .deserializeVarint =>
    .letIn true .firstByteBuffer (.zeros 1) <|
    .seq (.try_ (.readAll .firstByteBuffer)) <|
    .letIn false .firstByte (.first .firstByteBuffer) <|
    .letIn false .sizeMinusOne (.trailingZeros (.var .firstByte)) <|
    .blank <|
    .letIn true .remainingBytesBuffer (.zeros 8) <|
    .seq (.try_ (.readPart .remainingBytesBuffer (.cast (.var .sizeMinusOne) .usize))) <|
    .letIn false .remainingBytesValue (.fromLeBytes (.var .remainingBytesBuffer)) <|
    .blank <|
    .match_ (.var .sizeMinusOne) (rarms [
      (.lit .plain 0, false, .ok (fromFirst 1)),
      (.lit .plain 1, false, .ok (.bin .add (.bin .add (u64 128) (fromFirst 2)) (fromRemaining 6))),
      (.lit .plain 2, false, .ok (.bin .add (.bin .add (u64 16512) (fromFirst 3)) (fromRemaining 5))),
      (.lit .plain 3, false, .ok (.bin .add (.bin .add (u64 2113664) (fromFirst 4)) (fromRemaining 4))),
      (.lit .plain 4, true, .ok (.bin .add (.bin .add (u64 270549120) (fromFirst 5)) (fromRemaining 3))),
      (.lit .plain 5, false, .ok (.addLine (.addLine (u64 34630287488) (fromFirst 6)) (fromRemaining 2))),
      (.lit .plain 6, false, .ok (.addLine (.addLine (u64 4432676798592) (fromFirst 7)) (fromRemaining 1))),
      (.lit .plain 7, false, .ok (.bin .add (u64 567382630219904) (.var .remainingBytesValue))),
      (.wild, false, .ok (.wrappingAdd (u64 72624976668147840) (.var .remainingBytesValue)))])
  -- Lines 303-316.
  | .fieldHeaderSize => .match_ (.var .payloadSize) (rarms [
      (.lit .plain 0, false, .call .varintSizeFromValue (rargs [tagEx 0])),
      (.lit .plain 8, false, .call .varintSizeFromValue (rargs [tagEx 1])),
      (.bind .size, true, .if_ (.var .integerEncoded)
        (.call .varintSizeFromValue (rargs [tagEx 2]))
        (.addLine (.call .varintSizeFromValue (rargs [tagEx 3]))
          (.call .varintSizeFromValue (rargs [.cast (.var .size) .u64]))))])
  -- Lines 318-336.
  | .serializeFieldHeader => .match_ (.var .payloadSize) (rarms [
      (.lit .plain 0, false, .call .serializeVarint (rargs [tagEx 0, .var .writer])),
      (.lit .plain 8, false, .call .serializeVarint (rargs [tagEx 1, .var .writer])),
      (.bind .size, true, .if_ (.var .integerEncoded)
        (.call .serializeVarint (rargs [tagEx 2, .var .writer]))
        (.seq (.try_ (.call .serializeVarint (rargs [tagEx 3, .var .writer])))
          (.call .serializeVarint (rargs [.cast (.var .size) .u64, .var .writer]))))])
  -- Lines 338-362.
  | .deserializeFieldHeader =>
    .letIn false .tag (.try_ (.call .deserializeVarint (rargs [.reborrow .reader]))) <|
    .blank <|
    .letIn false .index (shr (.var .tag) 2) <|
    .blank <|
    .letIn false .size (.match_ (.bin .band (.var .tag) (.lit .u64 .binary2 3)) (rarms [
      (.lit .binary2 0, false, .lit .usize .plain 0),
      (.lit .binary2 1, false, .lit .usize .plain 8),
      (.lit .binary2 2, true,
        .letIn false .buffer (.try_ (.fillBuf true)) <|
        .blank <|
        .ifThen (.isEmpty .buffer) (.seq (.return_ .eofError) .done) <|
        .blank <|
        .cast (.call .varintSizeFromFirstByte (rargs [.first .buffer])) .usize),
      (.wild, false, .cast (.try_ (.call .deserializeVarint (rargs [.reborrow .reader]))) .usize)])) <|
    .blank <|
    .ok (.pair (.var .index) (.var .size))
  -- Lines 364-373.
  | .skip =>
    .while_ (.bin .gt (.var .amount) (.lit .usize .plain 0))
      (.letIn false .buffer (.try_ (.fillBuf false)) <|
        .letIn false .numBytesToConsume (.min (.len .buffer) (.var .amount)) <|
        .seq (.consume (.var .numBytesToConsume)) <|
        .subtract .amount (.var .numBytesToConsume) .done) <|
    .blank <|
    .ok .unit
  -- Lines 375-386.
  | .finish => .loop (
      .letIn false .buffer (.try_ (.fillBuf false)) <|
      .blank <|
      .ifThen (.isEmpty .buffer) (.seq (.return_ (.ok .unit)) .done) <|
      .blank <|
      .letIn false .bufferSize (.len .buffer) <|
      .seq (.consume (.var .bufferSize)) .done)

/-! ### Its text -/

def IntTy.text : IntTy → Str
  | .u8 => "u8".toList
  | .u32 => "u32".toList
  | .u64 => "u64".toList
  | .usize => "usize".toList
  | .i64 => "i64".toList

def Name.text : Name → Str
  | .value => "value".toList
  | .firstByte => "first_byte".toList
  | .firstByteBuffer => "first_byte_buffer".toList
  | .sizeMinusOne => "size_minus_one".toList
  | .remainingBytesBuffer => "remaining_bytes_buffer".toList
  | .remainingBytesValue => "remaining_bytes_value".toList
  | .index => "index".toList
  | .payloadSize => "payload_size".toList
  | .integerEncoded => "integer_encoded".toList
  | .size => "size".toList
  | .tag => "tag".toList
  | .buffer => "buffer".toList
  | .amount => "amount".toList
  | .numBytesToConsume => "num_bytes_to_consume".toList
  | .bufferSize => "buffer_size".toList
  | .reader => "reader".toList
  | .writer => "writer".toList

def RFn.text : RFn → Str
  | .zigzagEncode => "zigzag_encode".toList
  | .zigzagDecode => "zigzag_decode".toList
  | .varintSizeFromValue => "varint_size_from_value".toList
  | .varintSizeFromFirstByte => "varint_size_from_first_byte".toList
  | .serializeVarint => "serialize_varint".toList
  | .deserializeVarint => "deserialize_varint".toList
  | .fieldHeaderSize => "field_header_size".toList
  | .serializeFieldHeader => "serialize_field_header".toList
  | .deserializeFieldHeader => "deserialize_field_header".toList
  | .skip => "skip".toList
  | .finish => "finish".toList

/-- The binary digits of `n`, at least `k` of them. -/
def binaryDigits (k n : Nat) : Str :=
  let d := Nat.toDigits 2 n
  List.replicate (k - d.length) '0' ++ d

/-- A literal. -/
def litText (t : IntTy) (s : LitStyle) (n : Nat) : Str :=
  match s with
  | .plain => natText n
  | .suffixed => groupedText n ++ "_".toList ++ t.text
  | .binary8 => "0b".toList ++ (binaryDigits 8 n).take 4 ++ "_".toList ++ (binaryDigits 8 n).drop 4
  | .binary2 => "0b".toList ++ binaryDigits 2 n

def Op.text : Op → Str
  | .add => " + ".toList
  | .bor => " | ".toList
  | .band => " & ".toList
  | .bxor => " ^ ".toList
  | .shl => " << ".toList
  | .shr => " >> ".toList
  | .gt => " > ".toList

def RPat.text : RPat → Str
  | .range lo hi => litText .u64 .suffixed lo ++ "..=".toList ++ litText .u64 .suffixed hi
  | .lit s n => litText .u64 s n
  | .bind x => x.text
  | .wild => "_".toList

mutual
/-- An expression, on lines with indentation `i`. -/
def REx.expr (i : Nat) : REx → Str
  | .lit t s n => litText t s n
  | .var x => x.text
  | .paren e => "(".toList ++ e.expr i ++ ")".toList
  | .bin op a b => a.expr i ++ op.text ++ b.expr i
  | .addLine a b => a.expr i ++ "\n".toList ++ indent (i + 1) ++ "+ ".toList ++ b.expr i
  | .neg e => "-".toList ++ e.expr i
  | .cast e t => e.expr i ++ " as ".toList ++ t.text
  | .u64From e => "u64::from(".toList ++ e.expr i ++ ")".toList
  | .wrappingAdd a b => a.expr i ++ ".wrapping_add(".toList ++ b.expr i ++ ")".toList
  | .transmute a b e => "transmute::<".toList ++ a.text ++ ", ".toList ++ b.text ++ ">(".toList ++ e.expr i ++ ")".toList
  | .unsafe_ e => "unsafe { ".toList ++ e.expr i ++ " }".toList
  | .trailingZeros e => e.expr i ++ ".trailing_zeros()".toList
  | .fromLeBytes e => "u64::from_le_bytes(".toList ++ e.expr i ++ ")".toList
  | .zeros n => "[0; ".toList ++ natText n ++ "]".toList
  | .first x => x.text ++ "[0]".toList
  | .len x => x.text ++ ".len()".toList
  | .isEmpty x => x.text ++ ".is_empty()".toList
  | .min a b => "min(".toList ++ a.expr i ++ ", ".toList ++ b.expr i ++ ")".toList
  | .call f as => f.text ++ "(".toList ++ joinWith ", ".toList (as.exprs i) ++ ")".toList
  | .reborrow x => "&mut *".toList ++ x.text
  | .unit => "()".toList
  | .ok e => "Ok(".toList ++ e.expr i ++ ")".toList
  | .pair a b => "(".toList ++ a.expr i ++ ", ".toList ++ b.expr i ++ ")".toList
  | .try_ e => e.expr i ++ "?".toList
  | .writeAll false as => "writer.write_all(&[".toList ++ joinWith ", ".toList (as.exprs i) ++ "])".toList
  | .writeAll true as => "writer.write_all(&[\n".toList ++
      ((as.exprs (i + 1)).map fun e => indent (i + 1) ++ e ++ ",\n".toList).flatten ++ indent i ++ "])".toList
  | .readAll x => "reader.read_exact(&mut ".toList ++ x.text ++ "[..])".toList
  | .readPart x e => "reader.read_exact(&mut ".toList ++ x.text ++ "[0..".toList ++ e.expr i ++ "])".toList
  | .fillBuf false => "reader.fill_buf()".toList
  | .fillBuf true => "(&mut *reader).fill_buf()".toList
  | .consume e => "reader.consume(".toList ++ e.expr i ++ ")".toList
  | .eofError => "Err(Error::new(\n".toList ++ indent (i + 1) ++ "ErrorKind::UnexpectedEof,\n".toList ++
      indent (i + 1) ++ "\"Error decoding field.\",\n".toList ++ indent i ++ "))".toList
  | .return_ e => "return ".toList ++ e.expr i
  | .match_ e as => "match ".toList ++ e.expr i ++ " {\n".toList ++ as.lines (i + 1) ++ indent i ++ "}".toList
  | .if_ c a b => "if ".toList ++ c.expr i ++ " {\n".toList ++ a.lines (i + 1) ++ indent i ++ "} else {\n".toList ++
      b.lines (i + 1) ++ indent i ++ "}".toList
  | .loop b => "loop {\n".toList ++ b.lines (i + 1) ++ indent i ++ "}".toList
  | _ => []
/-- A block: its lines, with indentation `i`. -/
def REx.lines (i : Nat) : REx → Str
  | .letIn m x e rest => indent i ++ "let ".toList ++ (if m then "mut ".toList else []) ++ x.text ++ " = ".toList ++
      e.expr i ++ ";\n".toList ++ rest.lines i
  | .seq e rest => indent i ++ e.expr i ++ ";\n".toList ++ rest.lines i
  | .blank rest => "\n".toList ++ rest.lines i
  | .subtract x e rest => indent i ++ x.text ++ " -= ".toList ++ e.expr i ++ ";\n".toList ++ rest.lines i
  | .ifThen c a rest => indent i ++ "if ".toList ++ c.expr i ++ " {\n".toList ++ a.lines (i + 1) ++ indent i ++ "}\n".toList ++
      rest.lines i
  | .while_ c b rest => indent i ++ "while ".toList ++ c.expr i ++ " {\n".toList ++ b.lines (i + 1) ++ indent i ++ "}\n".toList ++
      rest.lines i
  | .done => []
  | e => indent i ++ e.expr i ++ "\n".toList
/-- Arguments. -/
def RArgs.exprs (i : Nat) : RArgs → List Str
  | .nil => []
  | .cons e as => e.expr i :: as.exprs i
/-- Arms. -/
def RArms.lines (i : Nat) : RArms → Str
  | .nil => []
  | .cons p false e as => indent i ++ p.text ++ " => ".toList ++ e.expr i ++ ",\n".toList ++ as.lines i
  | .cons p true e as => indent i ++ p.text ++ " => {\n".toList ++ e.lines (i + 1) ++ indent i ++ "}\n".toList ++ as.lines i
end

/-- The line before the body. -/
def RFn.signature : RFn → String
  | .zigzagEncode => "fn zigzag_encode(value: i64) -> u64"
  | .zigzagDecode => "fn zigzag_decode(value: u64) -> i64"
  | .varintSizeFromValue => "fn varint_size_from_value(value: u64) -> usize"
  | .varintSizeFromFirstByte => "fn varint_size_from_first_byte(first_byte: u8) -> u32"
  | .serializeVarint => "fn serialize_varint<T: Write>(mut value: u64, writer: &mut T) -> io::Result<()>"
  | .deserializeVarint => "fn deserialize_varint<T: BufRead>(reader: &mut T) -> io::Result<u64>"
  | .fieldHeaderSize => "fn field_header_size(index: u64, payload_size: usize, integer_encoded: bool) -> usize"
  | .serializeFieldHeader => "fn serialize_field_header<T: Write>(
    writer: &mut T,
    index: u64,
    payload_size: usize,
    integer_encoded: bool,
) -> io::Result<()>"
  | .deserializeFieldHeader => "fn deserialize_field_header<T: BufRead>(reader: &mut T) -> io::Result<(u64, usize)>"
  | .skip => "fn skip<T: BufRead>(reader: &mut T, mut amount: usize) -> io::Result<()>"
  | .finish => "fn finish<T: BufRead>(reader: &mut T) -> io::Result<()>"

/-- The parameters, in order. -/
def RFn.params : RFn → List Name
  | .zigzagEncode => [.value]
  | .zigzagDecode => [.value]
  | .varintSizeFromValue => [.value]
  | .varintSizeFromFirstByte => [.firstByte]
  | .serializeVarint => [.value, .writer]
  | .deserializeVarint => [.reader]
  | .fieldHeaderSize => [.index, .payloadSize, .integerEncoded]
  | .serializeFieldHeader => [.writer, .index, .payloadSize, .integerEncoded]
  | .deserializeFieldHeader => [.reader]
  | .skip => [.reader, .amount]
  | .finish => [.reader]

/-- The text of a function. -/
def RFn.defText (f : RFn) : Str := f.signature.toList ++ " {\n".toList ++ f.body.lines 1 ++ "}".toList

/-- The functions, in the order of the file. -/
def rfns : List RFn :=
  [.zigzagEncode, .zigzagDecode, .varintSizeFromValue, .varintSizeFromFirstByte, .serializeVarint, .deserializeVarint,
    .fieldHeaderSize, .serializeFieldHeader, .deserializeFieldHeader, .skip, .finish]

/-- What precedes them: lines 138-156. -/
def preamble : String := ".
// Visit https://github.com/stepchowfun/typical for more information.

use std::{
    cmp::min,
    io::{self, BufRead, Error, ErrorKind, Write},
    mem::transmute,
};

const MISSING_FIELDS_ERROR_MESSAGE: &str = \"Struct missing one or more required field(s).\";

pub trait Serialize {
    fn size(&self) -> usize;

    fn serialize<T: Write>(&self, writer: T) -> io::Result<()>;
}

pub trait Deserialize: Sized {
    fn deserialize<T: BufRead>(reader: T) -> io::Result<Self>;
}

"

/-- Lines 138-386, without the first words. -/
def runtimeText : Str := preamble.toList ++ joinWith "\n\n".toList (rfns.map RFn.defText)

end Typical.Gen.Rt
