import Verif.Gen.Ast
import Verif.Spec.Modules
import Verif.Io

/-!
# Meaning of generated Rust code

A definitional interpreter for the syntax of `Verif.Gen.Ast`, written from The Rust Reference and the documentation of the standard
library, independent of the generator. The functions at the top of the generated file (`RuntimeFn`) have the meaning given in
`Verif.Varint` and `Verif.Rust`.

A `usize` has 64 bits; arithmetic which overflows has no result here (`none`). Simplifications, the same as in `Verif.Rust`: readers and
writers do not fail, other than by the end of input (`Verif.Gen.DevSem` is without these two simplifications); `reserve_exact` panics if more
than `lim` bytes are requested. References and boxes are transparent: a value
contains what they point to; nothing is changed through two paths. Types are not checked: an operation on
values for which it has no meaning has no result (`none`), like a computation which runs out of fuel.
-/

namespace Typical.Gen

/-- A generated type: the path of its module (names as written), and its name. -/
abbrev TypeId := List Str × Str

/-- Values. An `f64` is its bit pattern; `reader k` is the reader at depth `k` of the stack of readers, see `St`. -/
inductive Val
  | unit
  | bool (b : Bool)
  | u64 (v : UInt64)
  | usize (n : Nat)
  | i64 (v : Int64)
  | f64 (bits : UInt64)
  /-- `Vec<u8>`, `[u8]`, `[u8; 8]` -/
  | bytes (b : Bytes)
  | str (b : Bytes)
  /-- Other vectors, and iterators over them -/
  | vec (l : List Val)
  | pair (a b : Val)
  | none
  | some (v : Val)
  | ok (v : Val)
  | err (k : Kind)
  | struct (type : TypeId) (members : List (Str × Val))
  | variant (type : TypeId) (name : Str) (args : List Val)
  | writer
  | reader (k : Nat)

/-- State of the execution: local variables (innermost first), the bytes written, and the readers: the first element of `readers` is
what the innermost `Take` still has to offer, the next one what its parent has to offer after that, and so on. -/
structure St where
  env : List (Var × Val)
  out : Bytes
  readers : List Bytes

/-- How the evaluation of an expression ends. -/
inductive Out
  | val (v : Val)
  /-- `break` -/
  | brk
  /-- `return` (or `?` on an error) -/
  | ret (v : Val)
  /-- A panic or an endless loop -/
  | fail (e : Err)

/-- Computations. -/
abbrev M := St → Option (Out × St)

def M.pure (v : Val) : M := fun s => some (.val v, s)

def M.bind (m : M) (k : Val → M) : M := fun s =>
  match m s with
  | some (.val v, s) => k v s
  | r => r

/-- The value of an operation without effects. -/
def M.ofOption (o : Option Val) : M := fun s => o.map (fun v => (.val v, s))

/-! ### Variables -/

/-- The innermost variable of this name. -/
def lookup (v : Var) : List (Var × Val) → Option Val
  | [] => none
  | (w, x) :: l => if v = w then some x else lookup v l

/-- Assign to the innermost variable of this name. -/
def assign (v : Var) (x : Val) : List (Var × Val) → List (Var × Val)
  | [] => []
  | (w, y) :: l => if v = w then (w, x) :: l else (w, y) :: assign v x l

def M.get (v : Var) : M := fun s => (lookup v s.env).map (fun x => (.val x, s))

/-- Change a variable; `f` gives the result and the new value. -/
def M.modify (v : Var) (f : Val → Option (Out × Val)) : M := fun s =>
  match lookup v s.env with
  | none => none
  | some x => (f x).map (fun r => (r.1, { s with env := assign v r.2 s.env }))

/-- Execute with additional variables. -/
def M.scoped (bs : List (Var × Val)) (m : M) : M := fun s =>
  (m { s with env := bs ++ s.env }).map (fun r => (r.1, { r.2 with env := r.2.env.drop bs.length }))

/-- Execute the body of a closure: `return` ends it. -/
def M.closure (bs : List (Var × Val)) (m : M) : M := fun s =>
  match (m.scoped bs) s with
  | some (.ret v, s) => some (.val v, s)
  | some (.brk, _) => none
  | r => r

/-- Execute the body of a function with these parameters. -/
def M.frame (bs : List (Var × Val)) (m : M) : M := fun s =>
  match m { s with env := bs } with
  | some (.val v, s') => some (.val v, { s' with env := s.env })
  | some (.ret v, s') => some (.val v, { s' with env := s.env })
  | some (.fail e, s') => some (.fail e, { s' with env := s.env })
  | _ => none

/-! ### Readers and writers -/

/-- Give up the `n` innermost `Take`s: what they have not read remains in their parents. -/
def collapse : Nat → List Bytes → List Bytes
  | n + 1, a :: b :: l => collapse n ((a ++ b) :: l)
  | _, l => l

/-- Use the reader at depth `k`: `f` gets what it has to offer and says what remains. -/
def M.withReader (k : Nat) (f : Bytes → Out × Bytes) : M := fun s =>
  if 0 < k ∧ k ≤ s.readers.length then
    match collapse (s.readers.length - k) s.readers with
    | [] => none
    | b :: l => some ((f b).1, { s with readers := (f b).2 :: l })
  else none

/-- `::std::io::Read::take(reader, n)`. -/
def M.take (k n : Nat) : M := fun s =>
  if 0 < k ∧ k ≤ s.readers.length then
    match collapse (s.readers.length - k) s.readers with
    | [] => none
    | b :: l => some (.val (.reader (k + 1)), { s with readers := b.take n :: b.drop n :: l })
  else none

/-- Write bytes; the result is `Ok(())`. -/
def M.write (b : Bytes) : M := fun s => some (.val (.ok .unit), { s with out := s.out ++ b })

/-! ### Functions -/

/-- The functions at the top of the file: lines 137-386. At the end of input, everything has been read. -/
def RuntimeFn.run : RuntimeFn → List Val → M
  | .zigzagEncode, [.i64 v] => .pure (.u64 (Typical.zigzagEncode v))
  | .zigzagDecode, [.u64 v] => .pure (.i64 (Typical.zigzagDecode v))
  | .varintSizeFromValue, [.u64 v] => .pure (.usize (Typical.varintSizeFromValue v))
  | .fieldHeaderSize, [.u64 i, .usize n, .bool b] => .pure (.usize (Typical.fieldHeaderSize i.toNat n b))
  | .serializeVarint, [.u64 v, .writer] => .write (Typical.serializeVarint v)
  | .serializeFieldHeader, [.writer, .u64 i, .usize n, .bool b] => .write (Typical.serializeFieldHeader i.toNat n b)
  | .deserializeVarint, [.reader k] => .withReader k (fun s =>
    match Typical.deserializeVarint s with
    | some (v, s) => (.val (.ok (.u64 v)), s)
    | none => (.val (.err .unexpectedEof), []))
  | .deserializeFieldHeader, [.reader k] => .withReader k (fun s =>
    match Typical.deserializeFieldHeader s with
    | some (i, n, s) => (.val (.ok (.pair (.u64 (UInt64.ofNat i)) (.usize n))), s)
    | none => (.val (.err .unexpectedEof), []))
  | .skip, [.reader k, .usize n] => if n < 2 ^ 64 then .withReader k (fun s =>
    match Typical.skip n s with
    | .ok s => (.val (.ok .unit), s)
    | .error e => (.fail e, s)) else fun _ => none
  | .finish, [.reader k] => .withReader k (fun _ => (.val (.ok .unit), []))
  | _, _ => fun _ => none

/-- Functions of the standard library. -/
def StdFn.run : StdFn → List Val → M
  | .usizeFrom, [.bool b] => .pure (.usize (if b then 1 else 0))
  | .u64From, [.bool b] => .pure (.u64 (if b then 1 else 0))
  | .u64FromLeBytes, [.bytes b] => .pure (.u64 (fromLeBytes b))
  | .f64FromLeBytes, [.bytes b] => .pure (.f64 (fromLeBytes b))
  | .some, [v] => .pure (.some v)
  | .ok, [v] => .pure (.ok v)
  | .boxNew, [v] => .pure v
  | .take, [.reader k, .u64 n] => .take k n.toNat
  | _, _ => fun _ => none

/-- The functions of a declaration which generated code calls. -/
inductive Fn
  | atlas
  | serializeWithAtlas
  | from_
  | deserializeFromReaderRef
  | size
  deriving DecidableEq

/-- Their parameters. -/
def Fn.params : Fn → List Var
  | .atlas => [.self]
  | .serializeWithAtlas => [.self, .writer, .atlas]
  | .from_ => [.message]
  | .deserializeFromReaderRef => [.reader]
  | .size => [.self]

/-- Methods. `call` executes a function of a generated type. -/
def Method.run (call : TypeId → Fn → List Val → M) : Method → Val → List Val → M
  | .len, .vec l, [] => .pure (.usize l.length)
  | .len, .bytes b, [] => .pure (.usize b.length)
  | .len, .str b, [] => .pure (.usize b.length)
  | .toBits, .f64 v, [] => .pure (.u64 v)
  | .toLeBytes, .f64 v, [] => .pure (.bytes (Typical.toLeBytes v))
  | .toLeBytes, .u64 v, [] => .pure (.bytes (Typical.toLeBytes v))
  | .asBytes, .str b, [] => .pure (.bytes b)
  | .isNone, .none, [] => .pure (.bool true)
  | .isNone, .some _, [] => .pure (.bool false)
  | .unwrap, .some v, [] => .pure v
  | .unwrap, .none, [] => fun s => some (.fail .panic, s)
  | .asRef, v, [] => .pure v
  | .iter, v, [] => .pure v
  | .intoIter, v, [] => .pure v
  | .writeAll, .writer, [.bytes b] => .write b
  | .atlas, .struct t l, [] => call t .atlas [.struct t l]
  | .atlas, .variant t n l, [] => call t .atlas [.variant t n l]
  | .size, .struct t l, [] => call t .size [.struct t l]
  | .size, .variant t n l, [] => call t .size [.variant t n l]
  | .serializeWithAtlas, .struct t l, [w, a] => call t .serializeWithAtlas [.struct t l, w, a]
  | .serializeWithAtlas, .variant t n l, [w, a] => call t .serializeWithAtlas [.variant t n l, w, a]
  | .into, .struct t l, [] => call t .from_ [.struct t l]
  | .into, .variant t n l, [] => call t .from_ [.variant t n l]
  | .into, v, [] => .pure v
  | _, _, _ => fun _ => none

/-- Methods which change a variable: the result, and the new value. -/
def MutMethod.run (lim : Nat) : MutMethod → Val → Val → Option (Out × Val)
  | .push, .vec l, v => some (.val .unit, .vec (l ++ [v]))
  | .getOrInsert, .none, v => some (.val .unit, .some v)
  | .getOrInsert, .some w, _ => some (.val .unit, .some w)
  | .reserveExact size, x, .usize n => if size * n ≤ lim then some (.val .unit, x) else some (.fail .panic, x)
  | _, _, _ => none

/-- Reading into a variable: the result, the new value, what remains to be read. -/
def ReadFn.run : ReadFn → Val → Bytes → Option (Val × Val × Bytes)
  | .exact _, .bytes b, s =>
    match readExact b.length s with
    | some (b, s) => some (.ok .unit, .bytes b, s)
    | none => some (.err .unexpectedEof, .bytes b, [])
  | .toEnd, .bytes b, s => some (.ok .unit, .bytes (b ++ s), [])
  | .toString, .str b, s => if validUtf8 s then some (.ok .unit, .str (b ++ s), []) else some (.err .invalidData, .str b, [])
  | _, _, _ => none

/-- Read into a variable. -/
def M.read (f : ReadFn) (k : Nat) (v : Var) : M := fun s =>
  if 0 < k ∧ k ≤ s.readers.length then
    match collapse (s.readers.length - k) s.readers, lookup v s.env with
    | b :: l, some x => (f.run x b).map (fun r => (.val r.1, { s with readers := r.2.2 :: l, env := assign v r.2.1 s.env }))
    | _, _ => none
  else none

/-- Literals. -/
def Lit.val : Lit → Val
  | .unit => .unit
  | .bool b => .bool b
  | .usize n => .usize n
  | .u64 n => .u64 (UInt64.ofNat n)
  | .f64Zero => .f64 0
  | .newVec => .vec []
  | .newBytes => .bytes []
  | .newString => .str []
  | .zeros => .bytes (List.replicate 8 0)

/-- Binary operators. -/
def BinOp.run : BinOp → Val → Val → Option Val
  | .add, .usize a, .usize b => if a + b < 2 ^ 64 then some (.usize (a + b)) else none
  | .mul, .usize a, .usize b => if a * b < 2 ^ 64 then some (.usize (a * b)) else none
  | .eq, .u64 a, .u64 b => some (.bool (a == b))
  | .eq, .usize a, .usize b => some (.bool (a == b))
  | .ne, .u64 a, .u64 b => some (.bool (a != b))
  | _, _, _ => none

/-- The variables bound by the components of a pattern. -/
def bindAll : List (Option Var) → List Val → Option (List (Var × Val))
  | [], [] => some []
  | none :: bs, _ :: vs => bindAll bs vs
  | some b :: bs, v :: vs => (bindAll bs vs).map ((b, v) :: ·)
  | _, _ => none

/-- Does the value match a pattern, in a module? The outer `none`: the value is not of the type of the pattern. -/
def Pat.run (mod : List Str) : Pat → Val → Option (Option (List (Var × Val)))
  | .int n, .u64 v => some (if v.toNat = n then some [] else none)
  | .u64 n, .u64 v => some (if v.toNat = n then some [] else none)
  | .range a b, .u64 v => some (if a ≤ v.toNat ∧ v.toNat ≤ b then some [] else none)
  | .usize n, .usize v => some (if v = n then some [] else none)
  | .wild, _ => some (some [])
  | .ok v, .ok x => some (some [(v, x)])
  | .ok _, .err _ => some none
  | .err v, .err e => some (some [(v, .err e)])
  | .err _, .ok _ => some none
  | .variant _ t n bs, .variant t' n' vs =>
    if t' = (mod, t) then if n' = n then (bindAll bs vs).map some else some none else none
  | .variants t n bs t' n' bs', .pair (.variant u m vs) (.variant u' m' vs') =>
    if u = (mod, t) ∧ u' = (mod, t') then
      if m = n ∧ m' = n' then
        match bindAll bs vs, bindAll bs' vs' with
        | some l, some l' => some (some (l ++ l'))
        | _, _ => none
      else some none
    else none
  | .wild₂, .pair _ _ => some (some [])
  | _, _ => none

/-- The member of a struct. -/
def member (name : Str) : List (Str × Val) → Option Val
  | [] => none
  | (n, v) :: l => if n = name then some v else member name l

/-- The value of `e.name`, `e.0`, `e.1`, `e as u64`, `e as usize`, `vec![(); e]`. -/
def Val.field (name : Str) : Val → Option Val
  | .struct _ l => member name l
  | _ => Option.none

def Val.fst : Val → Option Val
  | .pair a _ => Option.some a
  | _ => Option.none

def Val.snd : Val → Option Val
  | .pair _ b => Option.some b
  | _ => Option.none

def Val.asU64 : Val → Option Val
  | .usize n => Option.some (.u64 (UInt64.ofNat n))
  | _ => Option.none

def Val.asUsize : Val → Option Val
  | .u64 v => Option.some (.usize v.toNat)
  | _ => Option.none

def Val.units : Val → Option Val
  | .usize n => Option.some (.vec (List.replicate n .unit))
  | _ => Option.none

/-! ### Loops -/

/-- `loop`. -/
def iterate (m : M) : Nat → M
  | 0 => fun _ => none
  | n + 1 => fun s =>
    match m s with
    | some (.val _, s) => iterate m n s
    | some (.brk, s) => some (.val .unit, s)
    | r => r

/-- `for`, given the body for each element. -/
def forEach (f : Val → M) : List Val → M
  | [] => .pure .unit
  | v :: vs => fun s =>
    match f v s with
    | some (.val _, s) => forEach f vs s
    | some (.brk, s) => some (.val .unit, s)
    | r => r

/-- `map(…).collect()`. -/
def mapEach (f : Val → M) : List Val → M
  | [] => .pure (.vec [])
  | v :: vs => (f v).bind fun x => (mapEach f vs).bind fun y =>
    match y with
    | .vec l => .pure (.vec (x :: l))
    | _ => fun _ => none

/-- `fold`. -/
def foldEach (f : Val → Val → M) (x : Val) : List Val → M
  | [] => .pure x
  | v :: vs => (f x v).bind fun x => foldEach f x vs

/-! ### Evaluation -/

/-- What evaluation depends on, besides the state: the bound on allocations, the module and the type in whose functions the code is,
how to call functions of types, the number of rounds which loops may take, and `deserialize_element`, if defined. -/
structure Ctx where
  lim : Nat
  mod : List Str
  self : TypeId
  call : TypeId → Fn → List Val → M
  fuel : Nat
  elem : Val → M

mutual
/-- Evaluate an expression. -/
def Ex.eval (c : Ctx) : Ex → M
  | .var v => .get v
  | .lit l => .pure l.val
  | .deref e => e.eval c
  | .ref e => e.eval c
  | .refMut e => e.eval c
  | .paren e => e.eval c
  | .field e name => (e.eval c).bind fun v => .ofOption (v.field name)
  | .fst e => (e.eval c).bind fun v => .ofOption v.fst
  | .snd e => (e.eval c).bind fun v => .ofOption v.snd
  | .asU64 e => (e.eval c).bind fun v => .ofOption v.asU64
  | .asUsize e => (e.eval c).bind fun v => .ofOption v.asUsize
  | .bin op a b => (a.eval c).bind fun x => (b.eval c).bind fun y => .ofOption (op.run x y)
  | .pair a b => (a.eval c).bind fun x => (b.eval c).bind fun y => .pure (.pair x y)
  | .sumLines es => es.sum c
  | .orLines es => es.or c
  | .units e => (e.eval c).bind fun v => .ofOption v.units
  | .runtime supers f args => if supers = c.mod.length then args.eval c fun vs => f.run vs else fun _ => none
  | .std f args => args.eval c fun vs => f.run vs
  | .method e m args => (e.eval c).bind fun v => args.eval c fun vs => m.run c.call v vs
  | .mutate v m e => (e.eval c).bind fun x => .modify v (fun y => m.run c.lim y x)
  | .read f r v => (r.eval c).bind fun x =>
    match x with
    | .reader k => .read f k v
    | _ => fun _ => none
  | .deserialize path r => (r.eval c).bind fun x =>
    match rustResolve c.mod path.supers path.modules with
    | some mod => c.call (mod, path.name) .deserializeFromReaderRef [x]
    | none => fun _ => none
  | .deserializeSelf r => (r.eval c).bind fun x => c.call c.self .deserializeFromReaderRef [x]
  | .try_ e => (e.eval c).bind fun x =>
    match x with
    | .ok v => .pure v
    | .err e => fun s => some (.ret (.err e), s)
    | _ => fun _ => none
  | .mapVec e v b => (e.eval c).bind fun x =>
    match x with
    | .vec l => mapEach (fun y => (b.eval c).closure [(v, y)]) l
    | _ => fun _ => none
  | .mapOption e v b => (e.eval c).bind fun x =>
    match x with
    | .some y => ((b.eval c).closure [(v, y)]).bind fun z => .pure (.some z)
    | .none => .pure .none
    | _ => fun _ => none
  | .mapOr e v b => (e.eval c).bind fun x =>
    match x with
    | .some y => (b.eval c).closure [(v, y)]
    | .none => .pure (.usize 0)
    | _ => fun _ => none
  | .fold e w v b => (e.eval c).bind fun x =>
    match x with
    | .vec l => foldEach (fun a y => (b.eval c).closure [(v, y), (w, a)]) (.usize 0) l
    | _ => fun _ => none
  | .structLit name inits => inits.eval c fun l => .pure (.struct (c.mod, name) l)
  | .variantLit name variant args => args.eval c fun vs => .pure (.variant (c.mod, name) variant vs)
  | .brace b => b.eval c
  | .block b => b.eval c
  | .letIn _ v e b => (e.eval c).bind fun x => (b.eval c).scoped [(v, x)]
  | .letNone v _ b => (b.eval c).scoped [(v, .none)]
  | .letPair v w e b => (e.eval c).bind fun x =>
    match x with
    | .pair y z => (b.eval c).scoped [(w, z), (v, y)]
    | _ => fun _ => none
  | .letFn _ e b => b.eval { c with elem := fun x => (e.eval c).frame [(.subReader, x)] }
  | .callFn e => (e.eval c).bind fun x => c.elem x
  | .seq e b => (e.eval c).bind fun _ => b.eval c
  | .blank b => b.eval c
  | .done => .pure .unit
  | .ifInline e a b => (e.eval c).bind fun x =>
    match x with
    | .bool true => a.eval c
    | .bool false => b.eval c
    | _ => fun _ => none
  | .ifElse e a b => (e.eval c).bind fun x =>
    match x with
    | .bool true => a.eval c
    | .bool false => b.eval c
    | _ => fun _ => none
  | .ifThen e a => (e.eval c).bind fun x =>
    match x with
    | .bool true => a.eval c
    | .bool false => .pure .unit
    | _ => fun _ => none
  | .ifEof v a => (M.get v).bind fun x =>
    match x with
    | .err .unexpectedEof => a.eval c
    | .err _ => .pure .unit
    | _ => fun _ => none
  | .ifSome v w e f b => (e.eval c).bind fun x => (f.eval c).bind fun y =>
    match x, y with
    | .some x, .some y => (b.eval c).scoped [(w, y), (v, x)]
    | .some _, .none => .pure .unit
    | .none, .some _ => .pure .unit
    | .none, .none => .pure .unit
    | _, _ => fun _ => none
  | .forIn v e b => (e.eval c).bind fun x =>
    match x with
    | .vec l => forEach (fun y => (b.eval c).scoped [(v, y)]) l
    | _ => fun _ => none
  | .forZip v w e f b => (e.eval c).bind fun x => (f.eval c).bind fun y =>
    match x, y with
    | .vec l, .vec l' => forEach (fun z =>
      match z with
      | .pair z z' => (b.eval c).scoped [(w, z'), (v, z)]
      | _ => fun _ => none) ((l.zip l').map (fun p => .pair p.1 p.2))
    | _, _ => fun _ => none
  | .matchInline e arms => (e.eval c).bind fun x => arms.eval c x
  | .matchLines e arms => (e.eval c).bind fun x => arms.eval c x
  | .loop b => iterate (b.eval c) c.fuel
  | .break_ => fun s => some (.brk, s)
  | .return_ e => (e.eval c).bind fun x => fun s => some (.ret x, s)
  | .panic => fun s => some (.fail .panic, s)
  | .errOf v => .get v
  | .errMissing supers => if supers = c.mod.length then .pure (.err .invalidData) else fun _ => none

/-- Evaluate arguments, from left to right. -/
def Args.eval (c : Ctx) : Args → (List Val → M) → M
  | .nil, k => k []
  | .cons e rest, k => (e.eval c).bind fun v => rest.eval c fun vs => k (v :: vs)

/-- The sum of numbers, from left to right. -/
def Args.sum (c : Ctx) : Args → M
  | .nil => .pure (.usize 0)
  | .cons e rest => (e.eval c).bind fun v => rest.sumFrom c v

/-- Add the other numbers to the first ones. -/
def Args.sumFrom (c : Ctx) : Args → Val → M
  | .nil, v => .pure v
  | .cons e rest, v => (e.eval c).bind fun w => M.bind (.ofOption (BinOp.add.run v w)) fun x => rest.sumFrom c x

/-- The disjunction of conditions, from left to right until one is true. -/
def Args.or (c : Ctx) : Args → M
  | .nil => .pure (.bool false)
  | .cons e rest => (e.eval c).bind fun v =>
    match v with
    | .bool true => .pure (.bool true)
    | .bool false => rest.or c
    | _ => fun _ => none

/-- Evaluate the members of a struct. -/
def Inits.eval (c : Ctx) : Inits → (List (Str × Val) → M) → M
  | .nil, k => k []
  | .cons name e rest, k => (e.eval c).bind fun v => rest.eval c fun l => k ((name, v) :: l)

/-- Evaluate the first arm which matches. -/
def Arms.eval (c : Ctx) (x : Val) : Arms → M
  | .nil => fun _ => none
  | .cons p b rest =>
    match p.run c.mod x with
    | none => fun _ => none
    | some (some bs) => (b.eval c).scoped bs
    | some none => rest.eval c x
end

/-- A program: the bodies of functions. -/
abbrev Prog := TypeId → Fn → Option Ex

/-- Execute a body in a function of the type `t`; `n` bounds the number of rounds of loops. -/
def evalIn (lim : Nat) (call : TypeId → Fn → List Val → M) (n : Nat) (t : TypeId) (e : Ex) : M :=
  e.eval ⟨lim, t.1, t, call, n, fun _ _ => none⟩

/-- Call a function of a type; the first number bounds the depth of calls and the number of rounds of loops. -/
def callFn (lim : Nat) (P : Prog) : Nat → TypeId → Fn → List Val → M
  | 0 => fun _ _ _ _ => none
  | n + 1 => fun t f args =>
    match P t f with
    | none => fun _ => none
    | some e => (evalIn lim (callFn lim P n) n t e).frame (f.params.zip args)

/-- In the functions of the type `t`, the code `e` ends with `r` when it is executed in the state `s`, given enough fuel. -/
def Runs (lim : Nat) (P : Prog) (t : TypeId) (e : Ex) (s : St) (r : Out × St) : Prop :=
  ∃ N, ∀ n, N ≤ n → evalIn lim (callFn lim P n) n t e s = some r

end Typical.Gen
