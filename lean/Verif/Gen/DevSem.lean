import Verif.Gen.Sem
import Verif.Gen.RuntimeSem

/-!
# Meaning of generated Rust code on any devices and targets

A second interpreter for the syntax of `Verif.Gen.Ast`, like that of `Verif.Gen.Sem` but closer to what the machine does:

* the functions at the top of the generated file (`/repo/src/generate_rust.rs` lines 137-386) are executed (`Rt.callR`), instead of having the meaning
  given in `Verif.Varint`;
* readers and writers are devices (`Verif.Io`): they deliver or accept bytes in pieces, and fail;
* `usize` has as many bits as the target says; arithmetic which overflows panics if overflow checks are on, and wraps around otherwise.

An endless loop has no result, for any amount of fuel. Simplifications: `reserve_exact` panics if more than `lim` bytes are requested; the contents of a buffer
after a read has failed are unspecified in Rust, and unchanged here (the generated code never looks at them). References as in `Verif.Gen.Sem`.
-/

namespace Typical.Gen

/-- State of the execution: local variables (innermost first), the reader, how many readers there are (that of the caller, and each `Take` around it which has
not been given up), and the writer. -/
structure DSt where
  env : List (Var × Val)
  depth : Nat
  reader : Reader
  writer : Writer

/-- Computations. -/
abbrev DM := DSt → Option (Out × DSt)

def DM.pure (v : Val) : DM := fun s => some (.val v, s)

def DM.bind (m : DM) (k : Val → DM) : DM := fun s =>
  match m s with
  | some (.val v, s) => k v s
  | r => r

/-- The value of an operation without effects. -/
def DM.ofOption (o : Option Val) : DM := fun s => o.map (fun v => (.val v, s))

/-- The outcome of an operation without effects. -/
def DM.ofOut (o : Option Out) : DM := fun s => o.map (fun o => (o, s))

def DM.get (v : Var) : DM := fun s => (lookup v s.env).map (fun x => (.val x, s))

/-- Change a variable; `f` gives the result and the new value. -/
def DM.modify (v : Var) (f : Val → Option (Out × Val)) : DM := fun s =>
  match lookup v s.env with
  | none => none
  | some x => (f x).map (fun r => (r.1, { s with env := assign v r.2 s.env }))

/-- Execute with additional variables. -/
def DM.scoped (bs : List (Var × Val)) (m : DM) : DM := fun s =>
  (m { s with env := bs ++ s.env }).map (fun r => (r.1, { r.2 with env := r.2.env.drop bs.length }))

/-- Execute the body of a closure: `return` ends it. -/
def DM.closure (bs : List (Var × Val)) (m : DM) : DM := fun s =>
  match (m.scoped bs) s with
  | some (.ret v, s) => some (.val v, s)
  | some (.brk, _) => none
  | r => r

/-- Execute the body of a function with these parameters. -/
def DM.frame (bs : List (Var × Val)) (m : DM) : DM := fun s =>
  match m { s with env := bs } with
  | some (.val v, s') => some (.val v, { s' with env := s.env })
  | some (.ret v, s') => some (.val v, { s' with env := s.env })
  | some (.fail e, s') => some (.fail e, { s' with env := s.env })
  | _ => none

/-! ### Readers and writers -/

/-- Give up the `n` innermost `Take`s. -/
def unwrap : Nat → Reader → Reader
  | 0, r => r
  | n + 1, r => unwrap n r.inner

/-- Use the reader at depth `k`. -/
def DSt.focus (k : Nat) (d : DSt) : Option DSt :=
  if 0 < k ∧ k ≤ d.depth then some { d with reader := unwrap (d.depth - k) d.reader, depth := k } else none

/-- `::std::io::Read::take(reader, n)`. -/
def DM.take (k n : Nat) : DM := fun d =>
  (d.focus k).map fun d => (.val (.reader (k + 1)), { d with reader := .take n d.reader, depth := k + 1 })

/-- The result of an operation of a device: `Ok` or `Err`. There is no result if the device does not answer (this does not happen, see `Verif.IoLemmas`). -/
def ofIo {α : Type} : Except IoErr α → Option Val
  | .ok _ => some (.ok .unit)
  | .error (.io k) => some (.err k)
  | .error _ => none

/-- `write_all`. -/
def DM.write (b : Bytes) : DM := fun d =>
  (ofIo (writeAll b d.writer).1).map fun v => (.val v, { d with writer := (writeAll b d.writer).2 })

/-- Reading into a variable: the result, the new value and the reader afterwards. -/
def ReadFn.runD : ReadFn → Val → Reader → Option (Val × Val × Reader)
  | .exact _, .bytes b, r =>
    match readExactR b.length r with
    | (.ok b, r) => some (.ok .unit, .bytes b, r)
    | (.error e, r) => (ofIo (.error e : Except IoErr Unit)).map fun v => (v, .bytes b, r)
  | .toEnd, .bytes b, r =>
    match readToEndR r with
    | (.ok s, r) => some (.ok .unit, .bytes (b ++ s), r)
    | (.error e, r) => (ofIo (.error e : Except IoErr Unit)).map fun v => (v, .bytes b, r)
  | .toString, .str b, r =>
    match readToEndR r with
    | (.ok s, r) => if validUtf8 s then some (.ok .unit, .str (b ++ s), r) else some (.err .invalidData, .str b, r)
    | (.error e, r) => (ofIo (.error e : Except IoErr Unit)).map fun v => (v, .str b, r)
  | _, _, _ => none

/-- Read into a variable. -/
def DM.read (f : ReadFn) (k : Nat) (v : Var) : DM := fun d =>
  match d.focus k, lookup v d.env with
  | some d, some x => (f.runD x d.reader).map fun r => (.val r.1, { d with env := assign v r.2.1 d.env, reader := r.2.2 })
  | _, _ => none

/-! ### The functions at the top of the file -/

/-- A value as an argument of such a function. -/
def Val.toR : Val → Option Rt.RVal
  | .bool b => Option.some (.bool b)
  | .u64 v => Option.some (.u64 v)
  | .usize n => Option.some (.usize n)
  | .i64 v => Option.some (.i64 v)
  | .writer => Option.some .writer
  | .reader _ => Option.some .reader
  | _ => Option.none

/-- Arguments of such a function. -/
def toRs : List Val → Option (List Rt.RVal)
  | [] => some []
  | v :: vs =>
    match v.toR, toRs vs with
    | some r, some rs => some (r :: rs)
    | _, _ => none

/-- The result of such a function. -/
def ofR : Rt.RVal → Option Val
  | .unit => some .unit
  | .bool b => some (.bool b)
  | .u64 v => some (.u64 v)
  | .usize n => some (.usize n)
  | .i64 v => some (.i64 v)
  | .pair a b =>
    match ofR a, ofR b with
    | some a, some b => some (.pair a b)
    | _, _ => none
  | .ok v => (ofR v).map .ok
  | .err k => some (.err k)
  | _ => none

/-- The reader among the arguments. -/
def readerArg : List Val → Option Nat
  | [] => none
  | .reader k :: _ => some k
  | _ :: vs => readerArg vs

/-- Which function it is: lines 158-386. -/
def RuntimeFn.fn : RuntimeFn → Rt.RFn
  | .zigzagEncode => .zigzagEncode
  | .zigzagDecode => .zigzagDecode
  | .varintSizeFromValue => .varintSizeFromValue
  | .fieldHeaderSize => .fieldHeaderSize
  | .serializeVarint => .serializeVarint
  | .serializeFieldHeader => .serializeFieldHeader
  | .deserializeVarint => .deserializeVarint
  | .deserializeFieldHeader => .deserializeFieldHeader
  | .skip => .skip
  | .finish => .finish

/-- The reader which the arguments refer to is the current one from now on. -/
def DSt.focusArg (vs : List Val) (d : DSt) : Option DSt :=
  match readerArg vs with
  | some k => d.focus k
  | none => some d

/-- Execute such a function. -/
def RuntimeFn.runD (t : Rt.Target) (fuel : Nat) (f : RuntimeFn) (vs : List Val) : DM := fun d =>
  match toRs vs, d.focusArg vs with
  | some rs, some d =>
    match Rt.callR t Rt.io fuel f.fn rs ⟨[], (d.reader, d.writer)⟩ with
    | some (.val v, s) => (ofR v).map fun v => (.val v, { d with reader := s.dev.1, writer := s.dev.2 })
    | some (.panic, s) => some (.fail .panic, { d with reader := s.dev.1, writer := s.dev.2 })
    | _ => none
  | _, _ => none

/-! ### Other functions -/

/-- Functions of the standard library. -/
def StdFn.runD : StdFn → List Val → DM
  | .usizeFrom, [.bool b] => .pure (.usize (if b then 1 else 0))
  | .u64From, [.bool b] => .pure (.u64 (if b then 1 else 0))
  | .u64FromLeBytes, [.bytes b] => .pure (.u64 (fromLeBytes b))
  | .f64FromLeBytes, [.bytes b] => .pure (.f64 (fromLeBytes b))
  | .some, [v] => .pure (.some v)
  | .ok, [v] => .pure (.ok v)
  | .boxNew, [v] => .pure v
  | .take, [.reader k, .u64 n] => .take k n.toNat
  | _, _ => fun _ => none

/-- Methods. `call` executes a function of a generated type. -/
def Method.runD (call : TypeId → Fn → List Val → DM) : Method → Val → List Val → DM
  | .len, .vec l, [] => .pure (.usize l.length)
  | .len, .bytes b, [] => .pure (.usize b.length)
  | .len, .str b, [] => .pure (.usize b.length)
  | .toBits, .f64 v, [] => .pure (.u64 v)
  | .toLeBytes, .f64 v, [] => .pure (.bytes (Typical.toLeBytes v))
  | .toLeBytes, .u64 v, [] => .pure (.bytes (Typical.toLeBytes v))
  | .asBytes, .str b, [] => .pure (.bytes b)
  | .isNone, .none, [] => .pure (.bool true)
  | .isNone, .some _, [] => .pure (.bool false)
  | .unwrap, .some v, [] => .pure v
  | .unwrap, .none, [] => fun s => some (.fail .panic, s)
  | .asRef, v, [] => .pure v
  | .iter, v, [] => .pure v
  | .intoIter, v, [] => .pure v
  | .writeAll, .writer, [.bytes b] => .write b
  | .atlas, .struct t l, [] => call t .atlas [.struct t l]
  | .atlas, .variant t n l, [] => call t .atlas [.variant t n l]
  | .size, .struct t l, [] => call t .size [.struct t l]
  | .size, .variant t n l, [] => call t .size [.variant t n l]
  | .serializeWithAtlas, .struct t l, [w, a] => call t .serializeWithAtlas [.struct t l, w, a]
  | .serializeWithAtlas, .variant t n l, [w, a] => call t .serializeWithAtlas [.variant t n l, w, a]
  | .into, .struct t l, [] => call t .from_ [.struct t l]
  | .into, .variant t n l, [] => call t .from_ [.variant t n l]
  | .into, v, [] => .pure v
  | _, _, _ => fun _ => none

/-- The result of arithmetic with `usize`. -/
def usizeResult (t : Rt.Target) (n : Nat) : Out :=
  if n < 2 ^ t.bits then .val (.usize n) else if t.checked then .fail .panic else .val (.usize (n % 2 ^ t.bits))

/-- Binary operators. -/
def BinOp.runD (t : Rt.Target) : BinOp → Val → Val → Option Out
  | .add, .usize a, .usize b => some (usizeResult t (a + b))
  | .mul, .usize a, .usize b => some (usizeResult t (a * b))
  | .eq, .u64 a, .u64 b => some (.val (.bool (a == b)))
  | .eq, .usize a, .usize b => some (.val (.bool (a == b)))
  | .ne, .u64 a, .u64 b => some (.val (.bool (a != b)))
  | _, _, _ => none

/-- `e as usize`. -/
def Val.asUsizeD (t : Rt.Target) : Val → Option Val
  | .u64 v => Option.some (.usize (v.toNat % 2 ^ t.bits))
  | _ => Option.none

/-! ### Loops -/

/-- `loop`. -/
def iterateD (m : DM) : Nat → DM
  | 0 => fun _ => none
  | n + 1 => fun s =>
    match m s with
    | some (.val _, s) => iterateD m n s
    | some (.brk, s) => some (.val .unit, s)
    | r => r

/-- `for`, given the body for each element. -/
def forEachD (f : Val → DM) : List Val → DM
  | [] => .pure .unit
  | v :: vs => fun s =>
    match f v s with
    | some (.val _, s) => forEachD f vs s
    | some (.brk, s) => some (.val .unit, s)
    | r => r

/-- `map(…).collect()`. -/
def mapEachD (f : Val → DM) : List Val → DM
  | [] => .pure (.vec [])
  | v :: vs => (f v).bind fun x => (mapEachD f vs).bind fun y =>
    match y with
    | .vec l => .pure (.vec (x :: l))
    | _ => fun _ => none

/-- `fold`. -/
def foldEachD (f : Val → Val → DM) (x : Val) : List Val → DM
  | [] => .pure x
  | v :: vs => (f x v).bind fun x => foldEachD f x vs

/-! ### Evaluation -/

/-- What evaluation depends on, besides the state: the target of the compiler, the bound on allocations, the module and the type in whose functions the code is,
how to call functions of types, the number of rounds which loops may take, and `deserialize_element`, if defined. -/
structure DCtx where
  target : Rt.Target
  lim : Nat
  mod : List Str
  self : TypeId
  call : TypeId → Fn → List Val → DM
  fuel : Nat
  elem : Val → DM

mutual
/-- Evaluate an expression. -/
def Ex.evalD (c : DCtx) : Ex → DM
  | .var v => .get v
  | .lit l => .pure l.val
  | .deref e => e.evalD c
  | .ref e => e.evalD c
  | .refMut e => e.evalD c
  | .paren e => e.evalD c
  | .field e name => (e.evalD c).bind fun v => .ofOption (v.field name)
  | .fst e => (e.evalD c).bind fun v => .ofOption v.fst
  | .snd e => (e.evalD c).bind fun v => .ofOption v.snd
  | .asU64 e => (e.evalD c).bind fun v => .ofOption v.asU64
  | .asUsize e => (e.evalD c).bind fun v => .ofOption (v.asUsizeD c.target)
  | .bin op a b => (a.evalD c).bind fun x => (b.evalD c).bind fun y => .ofOut (op.runD c.target x y)
  | .pair a b => (a.evalD c).bind fun x => (b.evalD c).bind fun y => .pure (.pair x y)
  | .sumLines es => es.sumD c
  | .orLines es => es.orD c
  | .units e => (e.evalD c).bind fun v => .ofOption v.units
  | .runtime supers f args => if supers = c.mod.length then args.evalD c fun vs => f.runD c.target c.fuel vs else fun _ => none
  | .std f args => args.evalD c fun vs => f.runD vs
  | .method e m args => (e.evalD c).bind fun v => args.evalD c fun vs => m.runD c.call v vs
  | .mutate v m e => (e.evalD c).bind fun x => .modify v (fun y => m.run c.lim y x)
  | .read f r v => (r.evalD c).bind fun x =>
    match x with
    | .reader k => .read f k v
    | _ => fun _ => none
  | .deserialize path r => (r.evalD c).bind fun x =>
    match rustResolve c.mod path.supers path.modules with
    | some mod => c.call (mod, path.name) .deserializeFromReaderRef [x]
    | none => fun _ => none
  | .deserializeSelf r => (r.evalD c).bind fun x => c.call c.self .deserializeFromReaderRef [x]
  | .try_ e => (e.evalD c).bind fun x =>
    match x with
    | .ok v => .pure v
    | .err e => fun s => some (.ret (.err e), s)
    | _ => fun _ => none
  | .mapVec e v b => (e.evalD c).bind fun x =>
    match x with
    | .vec l => mapEachD (fun y => (b.evalD c).closure [(v, y)]) l
    | _ => fun _ => none
  | .mapOption e v b => (e.evalD c).bind fun x =>
    match x with
    | .some y => ((b.evalD c).closure [(v, y)]).bind fun z => .pure (.some z)
    | .none => .pure .none
    | _ => fun _ => none
  | .mapOr e v b => (e.evalD c).bind fun x =>
    match x with
    | .some y => (b.evalD c).closure [(v, y)]
    | .none => .pure (.usize 0)
    | _ => fun _ => none
  | .fold e w v b => (e.evalD c).bind fun x =>
    match x with
    | .vec l => foldEachD (fun a y => (b.evalD c).closure [(v, y), (w, a)]) (.usize 0) l
    | _ => fun _ => none
  | .structLit name inits => inits.evalD c fun l => .pure (.struct (c.mod, name) l)
  | .variantLit name variant args => args.evalD c fun vs => .pure (.variant (c.mod, name) variant vs)
  | .brace b => b.evalD c
  | .block b => b.evalD c
  | .letIn _ v e b => (e.evalD c).bind fun x => (b.evalD c).scoped [(v, x)]
  | .letNone v _ b => (b.evalD c).scoped [(v, .none)]
  | .letPair v w e b => (e.evalD c).bind fun x =>
    match x with
    | .pair y z => (b.evalD c).scoped [(w, z), (v, y)]
    | _ => fun _ => none
  | .letFn _ e b => b.evalD { c with elem := fun x => (e.evalD c).frame [(.subReader, x)] }
  | .callFn e => (e.evalD c).bind fun x => c.elem x
  | .seq e b => (e.evalD c).bind fun _ => b.evalD c
  | .blank b => b.evalD c
  | .done => .pure .unit
  | .ifInline e a b => (e.evalD c).bind fun x =>
    match x with
    | .bool true => a.evalD c
    | .bool false => b.evalD c
    | _ => fun _ => none
  | .ifElse e a b => (e.evalD c).bind fun x =>
    match x with
    | .bool true => a.evalD c
    | .bool false => b.evalD c
    | _ => fun _ => none
  | .ifThen e a => (e.evalD c).bind fun x =>
    match x with
    | .bool true => a.evalD c
    | .bool false => .pure .unit
    | _ => fun _ => none
  | .ifEof v a => (DM.get v).bind fun x =>
    match x with
    | .err .unexpectedEof => a.evalD c
    | .err _ => .pure .unit
    | _ => fun _ => none
  | .ifSome v w e f b => (e.evalD c).bind fun x => (f.evalD c).bind fun y =>
    match x, y with
    | .some x, .some y => (b.evalD c).scoped [(w, y), (v, x)]
    | .some _, .none => .pure .unit
    | .none, .some _ => .pure .unit
    | .none, .none => .pure .unit
    | _, _ => fun _ => none
  | .forIn v e b => (e.evalD c).bind fun x =>
    match x with
    | .vec l => forEachD (fun y => (b.evalD c).scoped [(v, y)]) l
    | _ => fun _ => none
  | .forZip v w e f b => (e.evalD c).bind fun x => (f.evalD c).bind fun y =>
    match x, y with
    | .vec l, .vec l' => forEachD (fun z =>
      match z with
      | .pair z z' => (b.evalD c).scoped [(w, z'), (v, z)]
      | _ => fun _ => none) ((l.zip l').map (fun p => .pair p.1 p.2))
    | _, _ => fun _ => none
  | .matchInline e arms => (e.evalD c).bind fun x => arms.evalD c x
  | .matchLines e arms => (e.evalD c).bind fun x => arms.evalD c x
  | .loop b => iterateD (b.evalD c) c.fuel
  | .break_ => fun s => some (.brk, s)
  | .return_ e => (e.evalD c).bind fun x => fun s => some (.ret x, s)
  | .panic => fun s => some (.fail .panic, s)
  | .errOf v => .get v
  | .errMissing supers => if supers = c.mod.length then .pure (.err .invalidData) else fun _ => none

/-- Evaluate arguments, from left to right. -/
def Args.evalD (c : DCtx) : Args → (List Val → DM) → DM
  | .nil, k => k []
  | .cons e rest, k => (e.evalD c).bind fun v => rest.evalD c fun vs => k (v :: vs)

/-- The sum of numbers, from left to right. -/
def Args.sumD (c : DCtx) : Args → DM
  | .nil => .pure (.usize 0)
  | .cons e rest => (e.evalD c).bind fun v => rest.sumFromD c v

/-- Add the other numbers to the first ones. -/
def Args.sumFromD (c : DCtx) : Args → Val → DM
  | .nil, v => .pure v
  | .cons e rest, v => (e.evalD c).bind fun w => DM.bind (.ofOut (BinOp.add.runD c.target v w)) fun x => rest.sumFromD c x

/-- The disjunction of conditions, from left to right until one is true. -/
def Args.orD (c : DCtx) : Args → DM
  | .nil => .pure (.bool false)
  | .cons e rest => (e.evalD c).bind fun v =>
    match v with
    | .bool true => .pure (.bool true)
    | .bool false => rest.orD c
    | _ => fun _ => none

/-- Evaluate the members of a struct. -/
def Inits.evalD (c : DCtx) : Inits → (List (Str × Val) → DM) → DM
  | .nil, k => k []
  | .cons name e rest, k => (e.evalD c).bind fun v => rest.evalD c fun l => k ((name, v) :: l)

/-- Evaluate the first arm which matches. -/
def Arms.evalD (c : DCtx) (x : Val) : Arms → DM
  | .nil => fun _ => none
  | .cons p b rest =>
    match p.run c.mod x with
    | none => fun _ => none
    | some (some bs) => (b.evalD c).scoped bs
    | some none => rest.evalD c x
end

/-- Execute a body in a function of the type `t`; `n` bounds the number of rounds of loops and the fuel of the functions at the top of the file. -/
def evalInD (target : Rt.Target) (lim : Nat) (call : TypeId → Fn → List Val → DM) (n : Nat) (t : TypeId) (e : Ex) : DM :=
  e.evalD ⟨target, lim, t.1, t, call, n, fun _ _ => none⟩

/-- Call a function of a type; the first number bounds the depth of calls and the number of rounds of loops. -/
def callFnD (target : Rt.Target) (lim : Nat) (P : Prog) : Nat → TypeId → Fn → List Val → DM
  | 0 => fun _ _ _ _ => none
  | n + 1 => fun t f args =>
    match P t f with
    | none => fun _ => none
    | some e => (evalInD target lim (callFnD target lim P n) n t e).frame (f.params.zip args)

/-- In the functions of the type `t`, the code `e` ends with `r` when it is executed in the state `s`, given enough fuel. -/
def RunsD (target : Rt.Target) (lim : Nat) (P : Prog) (t : TypeId) (e : Ex) (s : DSt) (r : Out × DSt) : Prop :=
  ∃ N, ∀ n, N ≤ n → evalInD target lim (callFnD target lim P n) n t e s = some r

/-- It does not end, however much fuel there is. -/
def HangsD (target : Rt.Target) (lim : Nat) (P : Prog) (t : TypeId) (e : Ex) (s : DSt) : Prop :=
  ∃ N, ∀ n, N ≤ n → evalInD target lim (callFnD target lim P n) n t e s = none

end Typical.Gen
