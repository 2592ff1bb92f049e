/-!
# Specification of the variable-width integer format

Transcribed from `/repo/README.md` ("Unsigned variable-width integers"), independently of the code.
-/

namespace Typical.Spec

/-- Number of bytes of the encoding of `n`, from the README's table of ranges. -/
def varintLength (n : Nat) : Nat :=
  if n < 128 then 1
  else if n < 16512 then 2
  else if n < 2113664 then 3
  else if n < 270549120 then 4
  else if n < 34630287488 then 5
  else if n < 4432676798592 then 6
  else if n < 567382630219904 then 7
  else if n < 72624976668147840 then 8
  else 9

/-- The smallest integer whose encoding has `k` bytes: `128 + 128^2 + ... + 128^(k-1)`
(bijective numeration). -/
def varintBase : Nat → Nat
  | 0 => 0
  | 1 => 0
  | k + 1 => varintBase k + 128 ^ k

/-- The `k` low bytes of `x`, least significant first. -/
def littleEndian : Nat → Nat → List Nat
  | 0, _ => []
  | k + 1, x => x % 256 :: littleEndian k (x / 256)

/-- The encoding of `n` as a list of byte values. In the first `8` ranges the `7 * k` bits of
`n - base` are preceded (below) by the `k`-bit marker `10...0`; in the last range the first byte
is zero and is followed by the 64 bits of `n - base`. -/
def varint (n : Nat) : List Nat :=
  let k := varintLength n
  let m := n - varintBase k
  if k ≤ 8 then littleEndian k (m * 2 ^ k + 2 ^ (k - 1)) else 0 :: littleEndian 8 m

/-- The ZigZag representation: non-negative `n` becomes `2n`, negative `n` becomes `-2n-1`. -/
def zigzag (n : Int) : Int := if 0 ≤ n then 2 * n else -2 * n - 1

end Typical.Spec
