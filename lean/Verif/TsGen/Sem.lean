import Verif.TsGen.Print
import Verif.Spec.Modules
import Verif.Spec.Names

/-!
# Meaning of generated TypeScript code

A definitional interpreter for the syntax of `Verif.TsGen.Ast`, written from ECMA-262 and the Encoding Standard, independent of the
generator. It covers: scopes of blocks, with hoisting and the temporal dead zone of `let` and `const`; assignment to constants; aliasing of
arrays and buffers, which are in a heap; views into buffers; exceptions; fall-through in `switch`; name resolution through nested and merged namespaces,
including names which hide functions at the top of the file or built-in objects; properties which objects inherit.

Simplifications, the same as in `Verif.TypeScript`: numbers other than payloads of type `F64` are exact integers (all sizes and offsets are assumed to be
less than `2 ^ 53`); an `F64` is its bit pattern; strings are their UTF-8 encoding; memory and stack are unlimited. Objects are
values: nothing in the generated code changes an object, or compares objects. What the code does with arguments for which TypeScript's type checker would
complain, or an operation which throws another error than those of `Ts.Err`, has no result (`none`), like a computation which runs out of fuel.
-/

namespace Typical.TsGen

/-- Values. `f64` is a number other than `+0` which is the payload of a field (`encF64`). -/
inductive Val
  | undef
  | null
  | bool (b : Bool)
  | num (n : Int)
  | f64 (bits : UInt64)
  | big (n : Int)
  /-- A string, encoded in UTF-8. -/
  | str (b : Bytes)
  /-- A string which is written in the code. -/
  | text (s : Str)
  | obj (members : List (Str × Val))
  /-- An array in the heap. -/
  | arr (r : Nat)
  /-- An `ArrayBuffer` in the heap. -/
  | buf (r : Nat)
  /-- A `DataView`: `buffer`, `byteOffset`, `byteLength`. -/
  | view (r base len : Nat)
  /-- A typed array: `buffer`, `byteOffset`, `byteLength`. -/
  | typed (r base len : Nat)
  | err (e : Ts.Err)
  | tuple (l : List Val)
  /-- `dataView64`, `textEncoder`, `textDecoder` -/
  | glob (g : Glob)

/-- Objects in the heap. -/
inductive Obj
  | arr (l : List Val)
  | buf (b : Bytes)

/-- What a variable contains. -/
inductive Cell
  | uninit
  | const (v : Val)
  | let_ (v : Val)

/-- Its value. -/
def Cell.val : Cell → Option Val
  | .uninit => none
  | .const v => some v
  | .let_ v => some v

/-- Can it be assigned to? -/
def Cell.isLet : Cell → Bool
  | .let_ _ => true
  | _ => false

/-- Is it not initialised? -/
def Cell.isUninit : Cell → Bool
  | .uninit => true
  | _ => false

/-- Variables, innermost first. -/
abbrev Env := List (TVar × Cell)

/-- State of the execution. `scratch`: the content of `dataView64`. -/
structure St where
  env : Env
  heap : List Obj
  scratch : Nat → UInt8

/-- How the evaluation of an expression or the execution of a statement ends. -/
inductive Out
  | val (v : Val)
  /-- `break` -/
  | brk
  | ret (v : Val)
  | throw (e : Ts.Err)

/-- Computations. -/
abbrev M := St → Option (Out × St)

def M.pure (v : Val) : M := fun s => some (.val v, s)

def M.stuck : M := fun _ => none

def M.throw (e : Ts.Err) : M := fun s => some (.throw e, s)

def M.bind (m : M) (k : Val → M) : M := fun s =>
  match m s with
  | some (.val v, s) => k v s
  | r => r

/-- The value of an operation without effects. -/
def M.ofOption (o : Option Val) : M := fun s => o.map (fun v => (.val v, s))

/-! ### Variables -/

/-- The value of the innermost variable of this name. -/
def lookup (x : TVar) : Env → Option Val
  | [] => none
  | (y, c) :: l => if x = y then c.val else lookup x l

/-- Is the innermost variable of this name a variable which can be changed? -/
def assignable (x : TVar) : Env → Bool
  | [] => false
  | (y, c) :: l => if x = y then c.isLet else assignable x l

/-- Is the innermost variable of this name not initialised? -/
def uninit (x : TVar) : Env → Bool
  | [] => false
  | (y, c) :: l => if x = y then c.isUninit else uninit x l

/-- Change the innermost variable of this name. -/
def setCell (x : TVar) (c : Cell) : Env → Env
  | [] => []
  | (y, d) :: l => if x = y then (y, c) :: l else (y, d) :: setCell x c l

/-- Assign. -/
abbrev update (x : TVar) (v : Val) (env : Env) : Env := setCell x (.let_ v) env

def M.get (x : TVar) : M := fun s => (lookup x s.env).map (fun v => (.val v, s))

def M.assign (x : TVar) (v : Val) : M := fun s =>
  if assignable x s.env then some (.val .undef, { s with env := update x v s.env }) else none

/-- Initialise. -/
def M.declare (x : TVar) (c : Cell) : M := fun s =>
  if uninit x s.env then some (.val .undef, { s with env := setCell x c s.env }) else none

/-- Several. -/
def M.assignAll : List TVar → List Val → M
  | [], [] => .pure .undef
  | x :: xs, v :: vs => (M.assign x v).bind fun _ => M.assignAll xs vs
  | _, _ => .stuck

def M.declareAll : List TVar → List Cell → M
  | [], [] => .pure .undef
  | x :: xs, c :: cs => (M.declare x c).bind fun _ => M.declareAll xs cs
  | _, _ => .stuck

/-- Execute with additional variables. -/
def M.scoped (xs : Env) (m : M) : M := fun s =>
  (m { s with env := xs ++ s.env }).map (fun r => (r.1, { r.2 with env := r.2.env.drop xs.length }))

/-- Execute the statements of a block which declares these variables. -/
def M.block (xs : List TVar) (m : M) : M :=
  if xs.Nodup then m.scoped (xs.map (fun x => (x, .uninit))) else .stuck

/-- Execute the body of a function, which declares the variables `xs`. Without `return`, the result is `undefined`. -/
def M.frame (params : List TVar) (args : List Val) (xs : List TVar) (m : M) : M := fun s =>
  if args.length = params.length ∧ (xs ++ params).Nodup then
    match m { s with env := xs.map (fun x => (x, .uninit)) ++ params.zip (args.map .let_) } with
    | some (.val _, s') => some (.val .undef, { s' with env := s.env })
    | some (.ret v, s') => some (.val v, { s' with env := s.env })
    | some (.throw e, s') => some (.throw e, { s' with env := s.env })
    | _ => none
  else none

/-! ### The heap -/

def M.alloc (o : Obj) (k : Nat → Val) : M := fun s => some (.val (k s.heap.length), { s with heap := s.heap ++ [o] })

/-- Use an `ArrayBuffer`. -/
def M.withBuf (r : Nat) (k : Bytes → M) : M := fun s =>
  match s.heap[r]? with
  | some (.buf b) => k b s
  | _ => none

/-- Use an array. -/
def M.withArr (r : Nat) (k : List Val → M) : M := fun s =>
  match s.heap[r]? with
  | some (.arr l) => k l s
  | _ => none

/-- Change an object. -/
def M.store (r : Nat) (o : Obj) (v : Val) : M := fun s => some (.val v, { s with heap := s.heap.set r o })

/-! ### Operators -/

/-- The payload of a field of type `F64`. -/
def encF64 (bits : UInt64) : Val := if bits = 0 then .num 0 else .f64 bits

/-- A property of an object. -/
def member (name : Str) : List (Str × Val) → Option Val
  | [] => none
  | (n, v) :: l => if n = name then some v else member name l

/-- Properties. For an object, one which does not exist is `undefined`, if it is not inherited either. -/
def Val.prop (name : Str) : Val → M
  | .obj l =>
    match member name l with
    | some v => .pure v
    | none => if hasProperty (l.map (·.1)) name then .stuck else .pure .undef
  | .arr r => if name = "length".toList then .withArr r fun l => .pure (.num l.length) else .stuck
  | .buf r => if name = "byteLength".toList then .withBuf r fun b => .pure (.num b.length) else .stuck
  | .view r base len =>
    if name = "byteLength".toList then .pure (.num len)
    else if name = "byteOffset".toList then .pure (.num base)
    else if name = "buffer".toList then .pure (.buf r)
    else .stuck
  | .typed r base len =>
    if name = "byteLength".toList then .pure (.num len)
    else if name = "byteOffset".toList then .pure (.num base)
    else if name = "buffer".toList then .pure (.buf r)
    else .stuck
  | _ => .stuck

/-- `a[i]` -/
def Val.index : Val → Val → M
  | .arr r, .num i => .withArr r fun l => if 0 ≤ i then .pure (l[i.toNat]?.getD .undef) else .stuck
  | _, _ => .stuck

/-- `'name' in e` -/
def Val.has (name : Str) : Val → Option Val
  | .obj l => some (.bool (hasProperty (l.map (·.1)) name))
  | _ => none

/-- `e instanceof b` -/
def Val.isA : Builtin → Val → Option Val
  | .rangeError, .err e => some (.bool (decide (e = .range)))
  | .arrayBuffer, .buf _ => some (.bool true)
  | .arrayBuffer, .view _ _ _ => some (.bool false)
  | .arrayBuffer, .typed _ _ _ => some (.bool false)
  | .dataView, .buf _ => some (.bool false)
  | .dataView, .view _ _ _ => some (.bool true)
  | .dataView, .typed _ _ _ => some (.bool false)
  | _, _ => none

/-- `===` -/
def strictEq : Val → Val → Option Bool
  | .num a, .num b => some (decide (a = b))
  | .big a, .big b => some (decide (a = b))
  | .undef, .undef => some true
  | .undef, _ => some false
  | _, .undef => some false
  | _, _ => none

/-- Bitwise operators do not change numbers like this one. -/
def small (a : Int) : Bool := decide (0 ≤ a ∧ a < 2147483648)

/-- A number which floating point represents exactly. Bitwise operators reduce it modulo `2 ^ 32` (`ToInt32`). -/
def exact (a : Int) : Bool := decide (-9007199254740992 ≤ a ∧ a ≤ 9007199254740992)

/-- Binary operators. -/
def BinOp.run : BinOp → Val → Val → Option Val
  | .add, .num a, .num b => some (.num (a + b))
  | .sub, .num a, .num b => some (.num (a - b))
  | .mul, .num a, .num b => some (.num (a * b))
  | .shr, .num a, .num b => if small a ∧ small b ∧ b < 32 then some (.num ((a.toNat >>> b.toNat : Nat) : Int)) else none
  | .band, .num a, .num b => if small a ∧ small b then some (.num ((a.toNat &&& b.toNat : Nat) : Int)) else none
  | .bor, .num a, .num b =>
    if small a ∧ small b then some (.num ((a.toNat ||| b.toNat : Nat) : Int))
    else if exact a ∧ exact b then some (.num (BitVec.ofInt 32 a ||| BitVec.ofInt 32 b).toInt)
    else none
  | .lt, .num a, .num b => some (.bool (decide (a < b)))
  | .gt, .num a, .num b => some (.bool (decide (a > b)))
  | .add, .big a, .big b => some (.big (a + b))
  | .sub, .big a, .big b => some (.big (a - b))
  | .rem, .big a, .big b => if 0 ≤ a ∧ 0 < b then some (.big (a % b)) else none
  | .shl, .big a, .big b => if 0 ≤ b then some (.big (a * 2 ^ b.toNat)) else none
  | .shr, .big a, .big b => if 0 ≤ b then some (.big (a / 2 ^ b.toNat)) else none
  | .band, .big a, .big b => if 0 ≤ a ∧ 0 ≤ b then some (.big ((a.toNat &&& b.toNat : Nat) : Int)) else none
  | .bor, .big a, .big b => if 0 ≤ a ∧ 0 ≤ b then some (.big ((a.toNat ||| b.toNat : Nat) : Int)) else none
  | .lt, .big a, .big b => some (.bool (decide (a < b)))
  | .gt, .big a, .big b => some (.bool (decide (a > b)))
  | .same, a, b => (strictEq a b).map .bool
  | .differ, a, b => (strictEq a b).map (fun x => .bool !x)
  | _, _, _ => none

/-- `-e` -/
def Val.neg : Val → Option Val
  | .big a => some (.big (-a))
  | _ => none

def Lit.val : Lit → Val
  | .undefined => .undef
  | .null => .null
  | .bool b => .bool b
  | .num n => .num n
  | .binary n => .num n
  | .big n => .big n
  | .bigGrouped n => .big n

/-! ### Built-in functions -/

/-- The name which must refer to the global object. -/
def Builtin.root : Builtin → Str
  | .objectIs => "Object".toList
  | b => b.text

/-- A view into a buffer; the bounds are checked. -/
def newView (k : Nat → Nat → Val) (base len : Int) (b : Bytes) : M :=
  if 0 ≤ base ∧ 0 ≤ len ∧ base + len ≤ b.length then .pure (k base.toNat len.toNat) else .throw .range

/-- `new B(…)` -/
def Builtin.construct : Builtin → List Val → M
  | .dataView, [.buf r] => .withBuf r fun b => .pure (.view r 0 b.length)
  | .dataView, [.buf r, .num base, .num len] => .withBuf r (newView (.view r) base len)
  | .uint8Array, [.buf r] => .withBuf r fun b => .pure (.typed r 0 b.length)
  | .uint8Array, [.buf r, .num base, .num len] => .withBuf r (newView (.typed r) base len)
  | .arrayBuffer, [.num n] => if 0 ≤ n then .alloc (.buf (List.replicate n.toNat 0)) .buf else .throw .range
  | _, _ => .stuck

/-- `B(…)` -/
def Builtin.call : Builtin → List Val → M
  | .number, [.big n] => .pure (.num n)
  | .bigInt, [.num n] => .pure (.big n)
  | .objectIs, [.num a, .num b] => .pure (.bool (decide (a = b)))
  | .objectIs, [.f64 _, .num b] => if b = 0 then .pure (.bool false) else .stuck
  | .array, [.num n] => if 0 ≤ n ∧ n < 4294967296 then .alloc (.arr (List.replicate n.toNat .undef)) .arr else .throw .range
  | _, _ => .stuck

/-- Read `n` bytes of a view; the bounds are checked. -/
def readView (r base len : Nat) (off : Int) (n : Nat) (k : Bytes → Val) : M :=
  .withBuf r fun b => if 0 ≤ off ∧ off + n ≤ len then .pure (k ((b.drop (base + off.toNat)).take n)) else .throw .range

/-- Write bytes through a view; the bounds are checked. -/
def writeView (r base len : Nat) (off : Int) (bs : Bytes) : M :=
  .withBuf r fun b =>
    if 0 ≤ off ∧ off + bs.length ≤ len then
      .store r (.buf (b.take (base + off.toNat) ++ bs ++ b.drop (base + off.toNat + bs.length))) .undef
    else .throw .range

/-- Write bytes through `dataView64`. -/
def writeScratch (off : Int) (bs : Bytes) : M := fun s =>
  if 0 ≤ off ∧ off + bs.length ≤ 8 then
    some (.val .undef, { s with scratch := fun k => if off.toNat ≤ k then bs[k - off.toNat]?.getD (s.scratch k) else s.scratch k })
  else some (.throw .range, s)

/-- Read bytes through `dataView64`. -/
def readScratch (off : Int) (n : Nat) (k : Bytes → Val) : M := fun s =>
  if 0 ≤ off ∧ off + n ≤ 8 then some (.val (k ((List.range n).map (fun i => s.scratch (off.toNat + i)))), s)
  else some (.throw .range, s)

/-- The low `n` bytes of a number, little-endian. -/
def leBytes : Nat → Nat → Bytes
  | 0, _ => []
  | n + 1, v => Ts.u8 v :: leBytes n (v >>> 8)

/-- What is stored of a number which may be negative: it is reduced modulo `2 ^ w` (`ToUint8`, `ToBigUint64`, …; ECMA-262, 7.1). -/
def wrap (w : Nat) (n : Int) : Nat := if 0 ≤ n then n.toNat else (n % 2 ^ w).toNat

/-- Methods. Numbers are written as little-endian: the last argument is `true`. -/
def Method.run : Method → Val → List Val → M
  | .getUint8, .view r base len, [.num off] => readView r base len off 1 fun b => .num (Ts.leValue b)
  | .getBigUint64, .view r base len, [.num off, .bool true] => readView r base len off 8 fun b => .big (Ts.leValue b)
  | .getFloat64, .view r base len, [.num off, .bool true] => readView r base len off 8 fun b => encF64 (UInt64.ofNat (Ts.leValue b))
  | .setUint8, .view r base len, [.num off, .num n] => writeView r base len off (leBytes 1 (wrap 8 n))
  | .setUint16, .view r base len, [.num off, .num n, .bool true] =>
    writeView r base len off (leBytes 2 (wrap 16 n))
  | .setUint32, .view r base len, [.num off, .num n, .bool true] =>
    writeView r base len off (leBytes 4 (wrap 32 n))
  | .setBigUint64, .view r base len, [.num off, .big n, .bool true] =>
    writeView r base len off (leBytes 8 (wrap 64 n))
  | .setFloat64, .view r base len, [.num off, .f64 bits, .bool true] => writeView r base len off (leBytes 8 bits.toNat)
  | .setFloat64, .view r base len, [.num off, .num n, .bool true] =>
    if n = 0 then writeView r base len off (leBytes 8 0) else .stuck
  | .setUint8, .glob .dataView64, [.num off, .num n] => writeScratch off (leBytes 1 (wrap 8 n))
  | .setBigUint64, .glob .dataView64, [.num off, .big n, .bool true] =>
    writeScratch off (leBytes 8 (wrap 64 n))
  | .getBigUint64, .glob .dataView64, [.num off, .bool true] => readScratch off 8 fun b => .big (Ts.leValue b)
  | .slice, .buf r, [.num a, .num b] =>
    .withBuf r fun l => if 0 ≤ a ∧ 0 ≤ b then .alloc (.buf ((l.take b.toNat).drop a.toNat)) .buf else .stuck
  | .set, .typed r base len, [.typed r' base' len', .num off] =>
    .withBuf r' fun l => writeView r base len off ((l.drop base').take len')
  | .push, .arr r, [v] => .withArr r fun l => .store r (.arr (l ++ [v])) (.num (l.length + 1))
  | .fill, .arr r, [v] => .withArr r fun l => .store r (.arr (List.replicate l.length v)) (.arr r)
  | .encode, .glob .textEncoder, [.str b] => .alloc (.buf b) fun r => .typed r 0 b.length
  | .decode, .glob .textDecoder, [.typed r base len] =>
    .withBuf r fun l => .pure (.str (Ts.textDecode ((l.drop base).take len)).bytes)
  | _, _, _ => .stuck

/-! ### Loops -/

/-- Execute the body as long as the condition holds, or until `break`. -/
def rounds (cond body : M) : Nat → M
  | 0 => .stuck
  | n + 1 => cond.bind fun v =>
    match v with
    | .bool true => fun s =>
      match body s with
      | some (.val _, s) => rounds cond body n s
      | some (.brk, s) => some (.val .undef, s)
      | r => r
    | .bool false => .pure .undef
    | _ => .stuck

/-! ### Declared variables -/

/-- The variables which a statement declares in the block it is in. -/
def Stm.declared : Stm → List TVar
  | .letVars xs => xs
  | .let_ x _ _ => [x]
  | .const x _ => [x]
  | .constTuple xs _ => xs
  | _ => []

/-- The variables which a block declares. -/
def Stms.declared : Stms → List TVar
  | .nil => []
  | .cons s rest => s.declared ++ rest.declared

/-- The variables which the cases of a `switch` declare. -/
def Cases.declared : Cases → List TVar
  | .nil => []
  | .case _ brace b rest => (if brace then [] else b.declared) ++ rest.declared
  | .default_ brace b rest => (if brace then [] else b.declared) ++ rest.declared

/-! ### Evaluation -/

/-- What is called: a function at the top of the file, or a function of a declaration, given by the path of its namespace. -/
inductive Callee
  | runtime (f : RuntimeFn)
  | decl (path : List Str) (f : Fn)

/-- What evaluation depends on, besides the state: the path of the namespace in which the code is, what namespaces export, how to call functions,
the number of rounds which loops may take. -/
structure Ctx where
  path : List Str
  exports : List Str → Str → Bool
  call : Callee → List Val → M
  fuel : Nat

/-- The name refers to something at the top of the file or to a global object: no namespace around the code exports it. -/
def Ctx.free (c : Ctx) (name : Str) : Bool :=
  (List.range (c.path.length + 1)).all (fun n => !c.exports (c.path.take n) name)

mutual
/-- Evaluate an expression. -/
def Ex.eval (c : Ctx) : Ex → M
  | .var x => .get x
  | .lit l => .pure l.val
  | .glob g => if c.free g.text then .pure (.glob g) else .stuck
  | .paren _ e => e.eval c
  | .neg e => (e.eval c).bind fun v => .ofOption v.neg
  | .negBig n => .pure (.big (-n))
  | .as_ e _ => e.eval c
  | .prop e name => (e.eval c).bind fun v => v.prop name
  | .index e i => (e.eval c).bind fun v => (i.eval c).bind fun w => v.index w
  | .bin op a b => (a.eval c).bind fun x => (b.eval c).bind fun y => .ofOption (op.run x y)
  | .binLines _ op a b => (a.eval c).bind fun x => (b.eval c).bind fun y => .ofOption (op.run x y)
  | .and a b => (a.eval c).bind fun x =>
    match x with
    | .bool true => b.eval c
    | .bool false => .pure (.bool false)
    | _ => .stuck
  | .or a b => (a.eval c).bind fun x =>
    match x with
    | .bool true => .pure (.bool true)
    | .bool false => b.eval c
    | _ => .stuck
  | .cond e a b => (e.eval c).bind fun x =>
    match x with
    | .bool true => a.eval c
    | .bool false => b.eval c
    | _ => .stuck
  | .has name e => (e.eval c).bind fun v => .ofOption (v.has name)
  | .isA e b => (e.eval c).bind fun v => if c.free b.root then .ofOption (v.isA b) else .stuck
  | .newArray => .alloc (.arr []) .arr
  | .tuple _ es => es.eval c fun vs => .pure (.tuple vs)
  | .objInline inits => inits.eval c fun l => .pure (.obj l)
  | .objLines inits => inits.eval c fun l => .pure (.obj l)
  | .runtime f es => if c.free f.text then es.eval c fun vs => c.call (.runtime f) vs else .stuck
  | .path p f es =>
    match tsResolve c.exports c.path p with
    | some q => es.eval c fun vs => c.call (.decl q f) vs
    | none => .stuck
  | .own _ f es => fun s =>
    if s.env.any (fun x => x.1.text == f.text) then none else (es.eval c fun vs => c.call (.decl c.path f) vs) s
  | .new _ b es => if c.free b.root then es.eval c fun vs => b.construct vs else .stuck
  | .builtin b es => if c.free b.root then es.eval c fun vs => b.call vs else .stuck
  | .method _ e m es => (e.eval c).bind fun v => es.eval c fun vs => m.run v vs

/-- Evaluate arguments, from left to right. -/
def Args.eval (c : Ctx) : Args → (List Val → M) → M
  | .nil, k => k []
  | .cons e rest, k => (e.eval c).bind fun v => rest.eval c fun vs => k (v :: vs)

/-- Evaluate the properties of an object. -/
def Inits.eval (c : Ctx) : Inits → (List (Str × Val) → M) → M
  | .nil, k => k []
  | .cons name e rest, k => (e.eval c).bind fun v => rest.eval c fun l => k ((name, v) :: l)
  | .short x rest, k => (M.get x).bind fun v => rest.eval c fun l => k ((x.text, v) :: l)
  | .text name t rest, k => rest.eval c fun l => k ((name, .text t) :: l)
end

/-- The disjunction of conditions, from left to right until one is true. -/
def Args.or (c : Ctx) : Args → M
  | .nil => .pure (.bool false)
  | .cons e rest => (e.eval c).bind fun v =>
    match v with
    | .bool true => .pure (.bool true)
    | .bool false => rest.or c
    | _ => .stuck

/-- `if` -/
def M.ifElse (v : Val) (a b : M) : M :=
  match v with
  | .bool true => a
  | .bool false => b
  | _ => .stuck

/-- `try` -/
def M.tryCatch (a b : M) : M := fun s =>
  match a s with
  | some (.throw e, s) => b.scoped [(.e, .let_ (.err e))] s
  | r => r

/-- The end of a `switch`. -/
def M.breakable (m : M) : M := fun s =>
  match m s with
  | some (.brk, s) => some (.val .undef, s)
  | r => r

/-- Nothing. -/
def M.skip : M := .pure .undef

mutual
/-- Execute a statement. -/
def Stm.exec (c : Ctx) : Stm → M
  | .letVars xs => .declareAll xs (xs.map fun _ => .let_ .undef)
  | .let_ x _ e => (e.eval c).bind fun v => .declare x (.let_ v)
  | .const x e => (e.eval c).bind fun v => .declare x (.const v)
  | .constTuple xs e => (e.eval c).bind fun v =>
    match v with
    | .tuple l => .declareAll xs (l.map .const)
    | _ => .stuck
  | .assignTuple xs e => (e.eval c).bind fun v =>
    match v with
    | .tuple l => .assignAll xs l
    | _ => .stuck
  | .assign x e => (e.eval c).bind fun v => .assign x v
  | .update x op e => (M.get x).bind fun v => (e.eval c).bind fun w => (M.ofOption (op.run v w)).bind fun v => .assign x v
  | .expr e => (e.eval c).bind fun _ => .skip
  | .block b => .block b.declared (b.exec c)
  | .if_ e a b => (e.eval c).bind fun v => .ifElse v (.block a.declared (a.exec c)) (b.exec c)
  | .ifAny es a => (es.or c).bind fun v => .ifElse v (.block a.declared (a.exec c)) .skip
  | .for_ e b => M.scoped [(.i, .let_ (.num 0))]
      (rounds (Ex.eval c (.bin .lt (.var .i) e))
        ((M.block b.declared (b.exec c)).bind fun _ => (M.get .i).bind fun v => (M.ofOption (BinOp.add.run v (.num 1))).bind fun v => .assign .i v)
        c.fuel)
  | .while_ e b => rounds (e.eval c) (.block b.declared (b.exec c)) c.fuel
  | .try_ a b => .tryCatch (.block a.declared (a.exec c)) (.block b.declared (b.exec c))
  | .switch e cases => (e.eval c).bind fun v => (M.block cases.declared (cases.exec c v false)).breakable
  | .return_ e => (e.eval c).bind fun v => fun s => some (.ret v, s)
  | .throw_ e => (e.eval c).bind fun v =>
    match v with
    | .err e => .throw e
    | _ => .stuck
  | .throwMissing =>
    if c.free "Error".toList ∧ c.free "missingFieldsErrorMessage".toList then .throw .missing else .stuck
  | .break_ => fun s => some (.brk, s)
  | .blank => .skip

/-- Execute statements, one after the other. -/
def Stms.exec (c : Ctx) : Stms → M
  | .nil => .skip
  | .cons s rest => (s.exec c).bind fun _ => rest.exec c

/-- Execute the rest of an `if`, if the condition does not hold. -/
def Else.exec (c : Ctx) : Else → M
  | .none => .skip
  | .else_ b => .block b.declared (b.exec c)
  | .elseIf e a b => (e.eval c).bind fun v => .ifElse v (.block a.declared (a.exec c)) (b.exec c)

/-- Execute the case whose label is equal to `x`, and the cases which follow it; `running`: all. Only the last case can be a `default`. -/
def Cases.exec (c : Ctx) (x : Val) (running : Bool) : Cases → M
  | .nil => .skip
  | .case l brace b rest =>
    match running, strictEq x l.val with
    | false, some false => rest.exec c x false
    | false, none => .stuck
    | _, _ => (if brace then .block b.declared (b.exec c) else b.exec c).bind fun _ => rest.exec c x true
  | .default_ brace b .nil => if brace then .block b.declared (b.exec c) else b.exec c
  | .default_ _ _ _ => .stuck
end

/-- A program: the functions in the namespace with a path, what namespaces export. -/
structure Prog where
  code : List Str → Option (Fn → Stms)
  exports : List Str → Str → Bool

/-- Call a function; the number bounds the depth of calls and the number of rounds of loops. -/
def callFn (P : Prog) : Nat → Callee → List Val → M
  | 0 => fun _ _ => .stuck
  | n + 1 => fun f args =>
    match f with
    | .runtime f => M.frame f.params args f.body.declared (f.body.exec ⟨[], P.exports, callFn P n, n⟩)
    | .decl path f =>
      match P.code path with
      | none => .stuck
      | some code => M.frame f.params args (code f).declared ((code f).exec ⟨path, P.exports, callFn P n, n⟩)

end Typical.TsGen
