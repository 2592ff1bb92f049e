import Verif.Gen.Runtime
import Verif.Io

/-!
# How the functions at the top of the generated Rust file are executed

The syntax of `Verif/Gen/Runtime.lean` (`/repo/src/generate_rust.rs` lines 158-386) with the semantics of Rust: arithmetic
which overflows panics when the code was compiled with overflow checks (as in a debug build) and wraps otherwise (as in a
release build); indices and slices out of bounds panic; `usize` has as many bits as the target says. Readers and writers are
any devices.

Simplification: the contents of a buffer after `read_exact` has failed are unspecified in Rust; here they are unchanged. The
functions never look at them.
-/

namespace Typical.Gen.Rt

/-- The target of the compiler. -/
structure Target where
  /-- Are overflow checks on? -/
  checked : Bool
  /-- The number of bits of `usize`. -/
  bits : Nat

/-- What a reader and a writer do. The state is that of both. -/
structure Device (σ : Type) where
  fillBuf : σ → Except IoErr Bytes × σ
  consume : σ → Nat → σ
  readExact : σ → Nat → Except IoErr Bytes × σ
  writeAll : σ → Bytes → Except IoErr Unit × σ

/-- Values. -/
inductive RVal
  | unit
  | bool (b : Bool)
  | u8 (n : UInt8)
  | u32 (n : UInt32)
  | u64 (n : UInt64)
  | i64 (n : Int64)
  | usize (n : Nat)
  | bytes (b : Bytes)
  | reader
  | writer
  | pair (a b : RVal)
  | ok (v : RVal)
  | err (k : Kind)

/-- How the evaluation of an expression ends. -/
inductive ROut
  | val (v : RVal)
  /-- `return` -/
  | ret (v : RVal)
  /-- A panic. -/
  | panic
  /-- The device fails otherwise than with an error. -/
  | device (e : IoErr)
  /-- Code which the compiler would not accept. -/
  | stuck

/-- The variables and the device. -/
structure RSt (σ : Type) where
  env : List (Name × RVal)
  dev : σ

/-- A computation; `none` if there is not enough fuel. -/
abbrev RM (σ : Type) := RSt σ → Option (ROut × RSt σ)

variable {σ : Type}

def RM.done (o : ROut) : RM σ := fun s => some (o, s)

/-- Continue with the value. -/
def RM.bind (m : RM σ) (f : RVal → RM σ) : RM σ := fun s =>
  match m s with
  | some (.val v, s) => f v s
  | r => r

/-- Continue with all values. -/
def RM.bindAll (m : RSt σ → Option ((List RVal ⊕ ROut) × RSt σ)) (f : List RVal → RM σ) : RM σ := fun s =>
  match m s with
  | some (.inl vs, s) => f vs s
  | some (.inr o, s) => some (o, s)
  | none => none

def lookupVar (x : Name) : List (Name × RVal) → Option RVal
  | [] => none
  | (y, v) :: l => if y = x then some v else lookupVar x l

def assignVar (x : Name) (v : RVal) : List (Name × RVal) → List (Name × RVal)
  | [] => []
  | (y, w) :: l => if y = x then (y, v) :: l else (y, w) :: assignVar x v l

def RM.get (x : Name) (f : RVal → RM σ) : RM σ := fun s =>
  match lookupVar x s.env with
  | some v => f v s
  | none => some (.stuck, s)

def RM.set (x : Name) (v : RVal) : RM σ := fun s => some (.val .unit, { s with env := assignVar x v s.env })

/-- A block: its variables end with it. -/
def RM.scoped (bs : List (Name × RVal)) (m : RM σ) : RM σ := fun s =>
  (m { s with env := bs ++ s.env }).map fun r => (r.1, { r.2 with env := r.2.env.drop (r.2.env.length - s.env.length) })

/-- Arithmetic: the value, or a panic if there are overflow checks and it overflows. -/
def arith (t : Target) (overflow : Bool) (v : RVal) : ROut := if t.checked && overflow then .panic else .val v

/-- Operators. A shift overflows if the amount is not less than the number of bits; without checks the amount is taken
modulo the number of bits (which `UInt8.shiftLeft` etc. do by themselves). -/
def Op.run (t : Target) : Op → RVal → RVal → ROut
  | .add, .u64 a, .u64 b => arith t (2 ^ 64 ≤ a.toNat + b.toNat) (.u64 (a + b))
  | .add, .u32 a, .u32 b => arith t (2 ^ 32 ≤ a.toNat + b.toNat) (.u32 (a + b))
  | .add, .usize a, .usize b => arith t (2 ^ t.bits ≤ a + b) (.usize ((a + b) % 2 ^ t.bits))
  | .bor, .u64 a, .u64 b => .val (.u64 (a ||| b))
  | .bor, .u8 a, .u8 b => .val (.u8 (a ||| b))
  | .band, .u64 a, .u64 b => .val (.u64 (a &&& b))
  | .bxor, .u64 a, .u64 b => .val (.u64 (a ^^^ b))
  | .bxor, .i64 a, .i64 b => .val (.i64 (a ^^^ b))
  | .shl, .u64 a, .u32 n => arith t (64 ≤ n.toNat) (.u64 (a <<< n.toUInt64))
  | .shl, .i64 a, .u32 n => arith t (64 ≤ n.toNat) (.i64 (a <<< n.toUInt64.toInt64))
  | .shr, .u64 a, .u32 n => arith t (64 ≤ n.toNat) (.u64 (a >>> n.toUInt64))
  | .shr, .u8 a, .u32 n => arith t (8 ≤ n.toNat) (.u8 (a >>> n.toUInt8))
  | .shr, .i64 a, .u32 n => arith t (64 ≤ n.toNat) (.i64 (a >>> n.toUInt64.toInt64))
  | .gt, .usize a, .usize b => .val (.bool (decide (b < a)))
  | _, _, _ => .stuck

/-- `a -= b` -/
def subtractRun (t : Target) : RVal → RVal → ROut
  | .u64 a, .u64 b => arith t (a.toNat < b.toNat) (.u64 (a - b))
  | .usize a, .usize b => arith t (a < b) (.usize ((a + 2 ^ t.bits - b) % 2 ^ t.bits))
  | _, _ => .stuck

/-- `-a` -/
def negRun (t : Target) : RVal → ROut
  | .i64 a => arith t (a == Int64.minValue) (.i64 (-a))
  | _ => .stuck

/-- `a as t` -/
def castRun (t : Target) : RVal → IntTy → ROut
  | .u64 a, .u8 => .val (.u8 a.toUInt8)
  | .u64 a, .usize => .val (.usize (a.toNat % 2 ^ t.bits))
  | .u32 a, .usize => .val (.usize (a.toNat % 2 ^ t.bits))
  | .usize a, .u64 => .val (.u64 (UInt64.ofNat a))
  | _, _ => .stuck

/-- `transmute` -/
def transmuteRun : IntTy → IntTy → RVal → ROut
  | .i64, .u64, .i64 a => .val (.u64 a.toUInt64)
  | .u64, .i64, .u64 a => .val (.i64 a.toInt64)
  | _, _, _ => .stuck

/-- A literal of a type. -/
def litVal : IntTy → Nat → RVal
  | .u8, n => .u8 (UInt8.ofNat n)
  | .u32, n => .u32 (UInt32.ofNat n)
  | .u64, n => .u64 (UInt64.ofNat n)
  | .usize, n => .usize n
  | .i64, n => .i64 (Int64.ofNat n)

/-- The number which a pattern is compared with. -/
def RVal.nat : RVal → Option Nat
  | .u8 n => some n.toNat
  | .u32 n => some n.toNat
  | .u64 n => some n.toNat
  | .usize n => some n
  | _ => none

/-- Does a value match the pattern, and with which new variables? -/
def RPat.matches : RPat → RVal → Option (List (Name × RVal))
  | .range lo hi, v => v.nat.bind fun n => if lo ≤ n ∧ n ≤ hi then some [] else none
  | .lit _ k, v => v.nat.bind fun n => if n = k then some [] else none
  | .bind x, v => some [(x, v)]
  | .wild, _ => some []

/-- All values are bytes. -/
def asBytes : List RVal → Option Bytes
  | [] => some []
  | .u8 b :: l => (asBytes l).map (b :: ·)
  | _ => none

/-- The result of an operation of the device. -/
def ofDevice {α : Type} (f : α → RVal) : Except IoErr α → ROut
  | .ok a => .val (.ok (f a))
  | .error (.io k) => .val (.err k)
  | .error e => .device e

/-- `while` and `loop`: the body, as often as there is fuel. The value `false` of a body means that the condition of `while` does
not hold; the block of a `loop` has no value. -/
def RM.iterate (body : RM σ) : Nat → RM σ
  | 0 => fun _ => none
  | n + 1 => fun s =>
    match body s with
    | some (.val (.bool false), s) => some (.val .unit, s)
    | some (.val _, s) => iterate body n s
    | r => r

/-- What the execution of an expression depends on. -/
structure RCtx (σ : Type) where
  target : Target
  device : Device σ
  call : RFn → List RVal → RM σ
  fuel : Nat

/-- `reader.read_exact` into the first `n` bytes of the buffer. -/
def readInto (c : RCtx σ) (x : Name) (b : Bytes) (n : Nat) : RM σ := fun s =>
  match c.device.readExact s.dev n with
  | (.ok bs, d) => some (.val (.ok .unit), { env := assignVar x (.bytes (bs ++ b.drop n)) s.env, dev := d })
  | (.error e, d) => some (ofDevice (fun _ => .unit) (.error e : Except IoErr Unit), { s with dev := d })

mutual
/-- Evaluate an expression, execute a block. -/
def REx.eval (c : RCtx σ) : REx → RM σ
  | .lit t _ n => .done (.val (litVal t n))
  | .var x => .get x fun v => .done (.val v)
  | .paren e => e.eval c
  | .bin op a b => (a.eval c).bind fun v => (b.eval c).bind fun w => .done (op.run c.target v w)
  | .addLine a b => (a.eval c).bind fun v => (b.eval c).bind fun w => .done (Op.add.run c.target v w)
  | .neg e => (e.eval c).bind fun v => .done (negRun c.target v)
  | .cast e t => (e.eval c).bind fun v => .done (castRun c.target v t)
  | .u64From e => (e.eval c).bind fun
    | .u8 n => .done (.val (.u64 n.toUInt64))
    | _ => .done .stuck
  | .wrappingAdd a b => (a.eval c).bind fun v => (b.eval c).bind fun w =>
    match v, w with
    | .u64 v, .u64 w => .done (.val (.u64 (v + w)))
    | _, _ => .done .stuck
  | .transmute a b e => (e.eval c).bind fun v => .done (transmuteRun a b v)
  | .unsafe_ e => e.eval c
  | .trailingZeros e => (e.eval c).bind fun
    | .u8 n => .done (.val (.u32 (UInt32.ofNat (Typical.trailingZeros n))))
    | _ => .done .stuck
  | .fromLeBytes e => (e.eval c).bind fun
    | .bytes b => .done (if b.length = 8 then .val (.u64 (Typical.fromLeBytes b)) else .stuck)
    | _ => .done .stuck
  | .zeros n => .done (.val (.bytes (List.replicate n 0)))
  | .first x => .get x fun
    | .bytes (b :: _) => .done (.val (.u8 b))
    | .bytes [] => .done .panic
    | _ => .done .stuck
  | .len x => .get x fun
    | .bytes b => .done (.val (.usize b.length))
    | _ => .done .stuck
  | .isEmpty x => .get x fun
    | .bytes b => .done (.val (.bool b.isEmpty))
    | _ => .done .stuck
  | .min a b => (a.eval c).bind fun v => (b.eval c).bind fun w =>
    match v, w with
    | .usize v, .usize w => .done (.val (.usize (Min.min v w)))
    | _, _ => .done .stuck
  | .call f as => .bindAll (as.eval c) (c.call f)
  | .reborrow x => .get x fun v => .done (.val v)
  | .unit => .done (.val .unit)
  | .ok e => (e.eval c).bind fun v => .done (.val (.ok v))
  | .pair a b => (a.eval c).bind fun v => (b.eval c).bind fun w => .done (.val (.pair v w))
  | .try_ e => (e.eval c).bind fun
    | .ok v => .done (.val v)
    | .err k => .done (.ret (.err k))
    | _ => .done .stuck
  | .writeAll _ as => .get .writer fun
    | .writer => .bindAll (as.eval c) fun vs =>
      match asBytes vs with
      | some b => fun s => some (ofDevice (fun _ => .unit) (c.device.writeAll s.dev b).1, { s with dev := (c.device.writeAll s.dev b).2 })
      | none => .done .stuck
    | _ => .done .stuck
  | .readAll x => .get .reader fun
    | .reader => .get x fun
      | .bytes b => readInto c x b b.length
      | _ => .done .stuck
    | _ => .done .stuck
  | .readPart x e => .get .reader fun
    | .reader => (e.eval c).bind fun n => .get x fun b =>
      match n, b with
      | .usize n, .bytes b => if n ≤ b.length then readInto c x b n else .done .panic
      | _, _ => .done .stuck
    | _ => .done .stuck
  | .fillBuf _ => .get .reader fun
    | .reader => fun s => some (ofDevice .bytes (c.device.fillBuf s.dev).1, { s with dev := (c.device.fillBuf s.dev).2 })
    | _ => .done .stuck
  | .consume e => .get .reader fun
    | .reader => (e.eval c).bind fun
      | .usize n => fun s => some (.val .unit, { s with dev := c.device.consume s.dev n })
      | _ => .done .stuck
    | _ => .done .stuck
  | .eofError => .done (.val (.err .unexpectedEof))
  | .return_ e => (e.eval c).bind fun v => .done (.ret v)
  | .match_ e as => (e.eval c).bind fun v => as.select c v
  | .if_ e a b => (e.eval c).bind fun
    | .bool true => a.eval c
    | .bool false => b.eval c
    | _ => .done .stuck
  | .letIn _ x e rest => (e.eval c).bind fun v => .scoped [(x, v)] (rest.eval c)
  | .seq e rest => (e.eval c).bind fun _ => rest.eval c
  | .blank rest => rest.eval c
  | .subtract x e rest => (e.eval c).bind fun w => .get x fun v =>
    RM.bind (.done (subtractRun c.target v w)) fun u => RM.bind (.set x u) fun _ => rest.eval c
  | .ifThen e a rest => (e.eval c).bind fun
    | .bool true => (a.eval c).bind fun _ => rest.eval c
    | .bool false => rest.eval c
    | _ => .done .stuck
  | .while_ e b rest => (RM.iterate ((e.eval c).bind fun
    | .bool true => b.eval c
    | .bool false => .done (.val (.bool false))
    | _ => .done .stuck) c.fuel).bind fun _ => rest.eval c
  | .loop b => RM.iterate (b.eval c) c.fuel
  | .done => .done (.val .unit)
/-- Evaluate arguments from left to right. -/
def RArgs.eval (c : RCtx σ) : RArgs → RSt σ → Option ((List RVal ⊕ ROut) × RSt σ)
  | .nil => fun s => some (.inl [], s)
  | .cons e as => fun s =>
    match e.eval c s with
    | some (.val v, s) => (as.eval c s).map fun r => (match r.1 with | .inl vs => .inl (v :: vs) | .inr o => .inr o, r.2)
    | some (o, s) => some (.inr o, s)
    | none => none
/-- The first arm whose pattern matches. -/
def RArms.select (c : RCtx σ) : RArms → RVal → RM σ
  | .nil, _ => .done .stuck
  | .cons p _ e as, v =>
    match p.matches v with
    | some bs => .scoped bs (e.eval c)
    | none => as.select c v
end

/-- What the caller gets. -/
def ROut.ofCall : ROut → ROut
  | .ret v => .val v
  | o => o

/-- Call a function; `n` bounds the depth of calls and the number of rounds of each loop. -/
def callR (t : Target) (D : Device σ) : Nat → RFn → List RVal → RM σ
  | 0, _, _ => fun _ => none
  | n + 1, f, vs => fun s =>
    if f.params.length = vs.length then
      (f.body.eval ⟨t, D, callR t D n, n⟩ { s with env := f.params.zip vs }).map fun r => (r.1.ofCall, { r.2 with env := s.env })
    else some (.stuck, s)

/-- The readers and writers of `Verif/Io.lean`. -/
def io : Device (Reader × Writer) where
  fillBuf d := (d.1.fillBuf.1.mapError .io, (d.1.fillBuf.2, d.2))
  consume d n := (d.1.consume n, d.2)
  readExact d n := ((readExactR n d.1).1, ((readExactR n d.1).2, d.2))
  writeAll d b := ((Typical.writeAll b d.2).1, (d.1, (Typical.writeAll b d.2).2))

end Typical.Gen.Rt
