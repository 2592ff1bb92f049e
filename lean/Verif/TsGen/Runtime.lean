import Verif.TsGen.Gen

/-!
# The functions at the top of the generated TypeScript file

`/repo/src/generate_typescript.rs` lines 174-441 (a constant text there), as syntax.
-/

namespace Typical.TsGen

/-- `a << b`, `a >> b`, … -/
abbrev big (n : Nat) : Ex := .lit (.bigGrouped n)

/-- `Number(e)` -/
abbrev toNumber (e : Ex) : Ex := .builtin .number (args [e])

/-- `BigInt(e)` -/
abbrev toBigInt (e : Ex) : Ex := .builtin .bigInt (args [e])

/-- `value << n`, in parentheses if something follows. -/
abbrev shl (x : TVar) (n : Nat) : Ex := .bin .shl (v x) (.lit (.big n))

abbrev shr (x : TVar) (n : Nat) : Ex := .bin .shr (v x) (.lit (.big n))

/-- `if (value < n) { … }` -/
abbrev ifLess (n : Nat) (b : List Stm) : Stm := .if_ (.bin .lt (v .value) (big n)) (stms b) .none

/-- `offset + n`, or `offset` -/
abbrev offsetPlus : Nat → Ex
  | 0 => v .offset
  | n => add (v .offset) (num n)

/-- `dataView.setUint8(…)` -/
abbrev setUint8 (k : Nat) (e : Ex) : Stm := .expr (.method false (v .dataView) .setUint8 (args [offsetPlus k, e]))

/-- `dataView.setUint16(…, true)` -/
abbrev setUint16 (k : Nat) (e : Ex) : Stm :=
  .expr (.method false (v .dataView) .setUint16 (args [offsetPlus k, e, .lit (.bool true)]))

/-- `dataView.setUint32(…, true)`, on several lines -/
abbrev setUint32 (k : Nat) (e : Ex) : Stm :=
  .expr (.method true (v .dataView) .setUint32 (args [offsetPlus k, e, .lit (.bool true)]))

/-- `Number((value << k) % 256n) | mark` -/
abbrev firstByteOf (k mark : Nat) : Ex :=
  .bin .bor (toNumber (.bin .rem (.paren false (shl .value k)) (.lit (.bigGrouped 256)))) (.lit (.binary mark))

/-- `Number((value >> k) % n)` -/
abbrev part (k n : Nat) : Ex := toNumber (.bin .rem (.paren false (shr .value k)) (big n))

/-- `value -= n;` -/
abbrev subtract (n : Nat) : Stm := .update .value .sub (big n)

/-- `return offset + n;` -/
abbrev returnOffset (n : Nat) : Stm := .return_ (offsetPlus n)

/-- `(index << 2n) | n` -/
abbrev tagOf : Nat → Ex
  | 0 => shl .index 2
  | n => .bin .bor (.paren false (shl .index 2)) (.lit (.big n))

/-- `serializeVarint(dataView, offset, e)` -/
abbrev writeVarint (e : Ex) : Ex := .runtime .serializeVarint (args [v .dataView, v .offset, e])

/-- `[a, b]`, on separate lines -/
abbrev pairLines (a b : Ex) : Ex := .tuple true (args [a, b])

/-- One case of `deserializeVarint`: `n + BigInt(firstByte >> k) + (remainingBytesValue << j)` -/
abbrev varintCase (size n k j : Nat) : Stm :=
  .return_ (pairLines (offsetPlus size)
    (add (add (big n) (toBigInt (.bin .shr (v .firstByte) (num k)))) (.paren false (shl .remainingBytesValue j))))

/-- The bodies of the functions. -/
def RuntimeFn.body : RuntimeFn → Stms
  -- Lines 172-174.
  | .unreachable => stms [.return_ (v .x)]
  -- Lines 176-179.
  | .zigzagEncode => stms [
      .const .twice (shl .value 1),
      .return_ (.cond (.bin .lt (v .value) (.lit (.big 0))) (.bin .sub (.negBig 1) (v .twice)) (v .twice))]
  -- Lines 181-184.
  | .zigzagDecode => stms [
      .const .half (.bin .shr (.paren false (add (v .value) (.lit (.big 1)))) (.lit (.big 1))),
      .return_ (.cond (.bin .same (.paren false (.bin .band (v .value) (.lit (.big 1)))) (.lit (.big 0))) (v .half) (.neg (v .half)))]
  -- Lines 186-220.
  | .varintSizeFromValue => stms [
      ifLess 128 [.return_ (num 1)], .blank,
      ifLess 16512 [.return_ (num 2)], .blank,
      ifLess 2113664 [.return_ (num 3)], .blank,
      ifLess 270549120 [.return_ (num 4)], .blank,
      ifLess 34630287488 [.return_ (num 5)], .blank,
      ifLess 4432676798592 [.return_ (num 6)], .blank,
      ifLess 567382630219904 [.return_ (num 7)], .blank,
      ifLess 72624976668147840 [.return_ (num 8)], .blank,
      .return_ (num 9)]
  -- Lines 222-231.
  | .varintSizeFromFirstByte => stms [
      .let_ .trailingZeros none (num 0), .blank,
      .while_ (.and (.bin .lt (v .trailingZeros) (num 8))
          (.bin .differ (.paren false (.bin .band (v .firstByte) (num 1))) (num 1))) (stms [
        .increase .trailingZeros (num 1),
        .update .firstByte .shr (num 1)]), .blank,
      .return_ (add (v .trailingZeros) (num 1))]
  -- Lines 233-316.
  | .serializeVarint => stms [
      ifLess 128 [
        setUint8 0 (.bin .bor (toNumber (shl .value 1)) (.lit (.binary 1))),
        returnOffset 1], .blank,
      ifLess 16512 [
        subtract 128,
        setUint8 0 (firstByteOf 2 2),
        setUint8 1 (toNumber (shr .value 6)),
        returnOffset 2], .blank,
      ifLess 2113664 [
        subtract 16512,
        setUint8 0 (firstByteOf 3 4),
        setUint16 1 (part 5 65536),
        returnOffset 3], .blank,
      ifLess 270549120 [
        subtract 2113664,
        setUint8 0 (firstByteOf 4 8),
        setUint8 1 (part 4 256),
        setUint16 2 (part 12 65536),
        returnOffset 4], .blank,
      ifLess 34630287488 [
        subtract 270549120,
        setUint8 0 (firstByteOf 5 16),
        setUint32 1 (part 3 4294967296),
        returnOffset 5], .blank,
      ifLess 4432676798592 [
        subtract 34630287488,
        setUint8 0 (firstByteOf 6 32),
        setUint8 1 (part 2 256),
        setUint32 2 (part 10 4294967296),
        returnOffset 6], .blank,
      ifLess 567382630219904 [
        subtract 4432676798592,
        setUint8 0 (firstByteOf 7 64),
        setUint16 1 (part 1 65536),
        setUint32 3 (part 17 4294967296),
        returnOffset 7], .blank,
      ifLess 72624976668147840 [
        subtract 567382630219904,
        setUint8 0 (.lit (.binary 128)),
        setUint8 1 (toNumber (.bin .rem (v .value) (big 256))),
        setUint16 2 (part 8 65536),
        setUint32 4 (part 24 4294967296),
        returnOffset 8], .blank,
      subtract 72624976668147840,
      setUint8 0 (.lit (.binary 0)),
      .expr (.method false (v .dataView) .setBigUint64 (args [offsetPlus 1, v .value, .lit (.bool true)])),
      returnOffset 9]
  -- Lines 318-370.
  | .deserializeVarint => stms [
      .const .firstByte (.method false (v .dataView) .getUint8 (args [v .offset])),
      .const .sizeMinusOne (.bin .sub (.runtime .varintSizeFromFirstByte (args [v .firstByte])) (num 1)), .blank,
      .const .offsetPlusOne (offsetPlus 1),
      .expr (.method false (.glob .dataView64) .setBigUint64 (args [num 0, .lit (.big 0), .lit (.bool true)])),
      .for_ (v .sizeMinusOne) (stms [
        .expr (.method false (.glob .dataView64) .setUint8
          (args [v .i, .method false (v .dataView) .getUint8 (args [add (v .offsetPlusOne) (v .i)])]))]),
      .const .remainingBytesValue (.method false (.glob .dataView64) .getBigUint64 (args [num 0, .lit (.bool true)])), .blank,
      .switch (v .sizeMinusOne)
        (.case (.num 0) false (stms [.return_ (.tuple false (args [offsetPlus 1, toBigInt (.bin .shr (v .firstByte) (num 1))]))])
        (.case (.num 1) false (stms [varintCase 2 128 2 6])
        (.case (.num 2) false (stms [varintCase 3 16512 3 5])
        (.case (.num 3) false (stms [varintCase 4 2113664 4 4])
        (.case (.num 4) false (stms [varintCase 5 270549120 5 3])
        (.case (.num 5) false (stms [varintCase 6 34630287488 6 2])
        (.case (.num 6) false (stms [.return_ (pairLines (offsetPlus 7)
          (.binLines 1 .add (.binLines 1 .add (big 4432676798592) (toBigInt (.bin .shr (v .firstByte) (num 7))))
            (.paren false (shl .remainingBytesValue 1))))])
        (.case (.num 7) false (stms [.return_ (.tuple false (args [offsetPlus 8,
          add (big 567382630219904) (v .remainingBytesValue)]))])
        (.default_ false (stms [.return_ (pairLines (offsetPlus 9)
          (.binLines 1 .rem (.paren false (add (big 72624976668147840) (v .remainingBytesValue))) (big 18446744073709551616)))])
        .nil)))))))))]
  -- Lines 372-392.
  | .fieldHeaderSize => stms [.switch (v .payloadSize)
      (.case (.num 0) false (stms [.return_ (varintSize (tagOf 0))])
      (.case (.num 8) false (stms [.return_ (varintSize (tagOf 1))])
      (.default_ false (stms [
        .if_ (v .integerEncoded) (stms [.return_ (varintSize (tagOf 2))]) .none, .blank,
        .return_ (.paren true (.binLines 0 .add (varintSize (tagOf 3)) (varintSize (toBigInt (v .payloadSize)))))]) .nil)))]
  -- Lines 394-416.
  | .serializeFieldHeader => stms [.switch (v .payloadSize)
      (.case (.num 0) false (stms [.return_ (writeVarint (tagOf 0))])
      (.case (.num 8) false (stms [.return_ (writeVarint (tagOf 1))])
      (.default_ false (stms [
        .if_ (v .integerEncoded) (stms [.return_ (writeVarint (tagOf 2))]) .none, .blank,
        setOffset (writeVarint (tagOf 3)), .blank,
        .return_ (writeVarint (toBigInt (v .payloadSize)))]) .nil)))]
  -- Lines 418-439.
  | .deserializeFieldHeader => stms [
      .constTuple [.newOffset, .tag] (.runtime .deserializeVarint (args [v .dataView, v .offset])), .blank,
      .const .index (shr .tag 2), .blank,
      .switch (.bin .band (v .tag) (.lit (.big 3)))
        (.case (.big 0) false (stms [.return_ (.tuple false (args [v .newOffset, v .index, num 0]))])
        (.case (.big 1) false (stms [.return_ (.tuple false (args [v .newOffset, v .index, num 8]))])
        (.case (.big 2) false (stms [.return_ (.tuple false (args [v .newOffset, v .index,
          .runtime .varintSizeFromFirstByte (args [.method false (v .dataView) .getUint8 (args [v .newOffset])])]))])
        (.default_ true (stms [
          .constTuple [.newNewOffset, .sizeValue] (.runtime .deserializeVarint (args [v .dataView, v .newOffset])),
          .return_ (.tuple false (args [v .newNewOffset, v .index, toNumber (v .sizeValue)]))]) .nil))))]

/-- The parameters of the functions: the same lines. -/
def RuntimeFn.params : RuntimeFn → List TVar
  | .unreachable => [.x]
  | .zigzagEncode => [.value]
  | .zigzagDecode => [.value]
  | .varintSizeFromValue => [.value]
  | .varintSizeFromFirstByte => [.firstByte]
  | .serializeVarint => [.dataView, .offset, .value]
  | .deserializeVarint => [.dataView, .offset]
  | .fieldHeaderSize => [.index, .payloadSize, .integerEncoded]
  | .serializeFieldHeader => [.dataView, .offset, .index, .payloadSize, .integerEncoded]
  | .deserializeFieldHeader => [.dataView, .offset]

end Typical.TsGen
