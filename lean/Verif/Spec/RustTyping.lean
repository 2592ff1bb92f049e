import Verif.Spec.RustTypes
import Verif.Gen.Print

/-!
# Specification: type checking of generated Rust code

Written from the Rust Reference ("Place expressions and value expressions", "Method call expressions", "Match expressions", "Patterns", "Type coercions", "Divergence",
"Struct expressions", …) and the documentation of `std`, for the syntax of `Verif.Gen.Ast`, independent of the generator.

`HasTy E Γ e τ k`: in a function with the local variables `Γ`, the expression `e` has the type `τ`, as a value or as a place (`k`). The rules include which
places can be borrowed mutably and which can be moved out of, and that every `match` is exhaustive. They do not include the other rules of the borrow checker:
that a value is not used after it was moved, and that references do not overlap or outlive their targets.
-/

namespace Typical.Gen

/-- What an expression is: a value, or a place: is it owned (or behind a reference)? Can it be changed? -/
inductive Cat
  | value
  | place (owned isMut : Bool)

/-- Local variables: their types; are they declared with `mut`? -/
abbrev Vars := Var → Option (RT × Bool)

def Vars.empty : Vars := fun _ => none

def Vars.set (Γ : Vars) (v : Var) (τ : RT) (isMut : Bool) : Vars := fun w => if w = v then some (τ, isMut) else Γ w

/-- What the rules depend on, besides variables. -/
structure TyEnv where
  /-- The definitions of types. -/
  items : Items
  /-- `impls o i a`: the types `o`, `i` and `a` are the types `Out`, `In` and `Atlas` in
  `impl From<Out> for In { fn from(message: Out) -> Self }`,
  `impl Out { pub fn atlas(&self) -> Atlas; pub fn serialize_with_atlas<T: Write>(&self, writer: &mut T, atlas: &Atlas) -> Result<()> }`,
  `impl In { pub fn deserialize_from_reader_ref<T: BufRead>(reader: &mut T) -> Result<Self> }`, `impl Atlas { pub fn size(&self) -> usize }`. -/
  impls : TypeId → TypeId → TypeId → Prop
  /-- The module in which the code is. -/
  mod : List Str
  /-- `Self` -/
  self : RT
  /-- The type of the result of the function (`none` in a closure, whose type is inferred: no `return` and no `?` is allowed there). -/
  ret : Option RT
  /-- Is `break` allowed? -/
  brk : Bool
  /-- The type which `deserialize_element` returns in a `Result`, if it is defined. -/
  elem : Option RT

/-- In a loop; in a closure. -/
def TyEnv.inLoop (E : TyEnv) (brk : Bool) : TyEnv := { E with brk := brk }
def TyEnv.closure (E : TyEnv) : TyEnv := { E with ret := none, brk := false }

/-- Types which implement `Copy`. -/
inductive IsCopy : RT → Prop
  | usize : IsCopy .usize
  | bool : IsCopy .bool
  | f64 : IsCopy .f64
  | i64 : IsCopy .i64
  | u64 : IsCopy .u64
  | u8 : IsCopy .u8
  | unit : IsCopy .unit
  | array : IsCopy .array
  | ref {t} : IsCopy (.ref t)
  | option {t} : IsCopy t → IsCopy (.option t)
  | pair {a b} : IsCopy a → IsCopy b → IsCopy (.pair a b)

/-- Types which implement `BufRead` (and `Read`): the type parameter, `&mut T` and `Take<T>` if `T` does. -/
inductive IsReader : RT → Prop
  | source : IsReader .source
  | refMut {t} : IsReader t → IsReader (.refMut t)
  | take {t} : IsReader t → IsReader (.take t)

/-- Types which implement `Write`. -/
inductive IsWriter : RT → Prop
  | sink : IsWriter .sink
  | refMut {t} : IsWriter t → IsWriter (.refMut t)

/-- Automatic dereferencing, for members and receivers of methods. -/
inductive AutoDeref : RT → Cat → RT → Cat → Prop
  | refl {t k} : AutoDeref t k t k
  | ref {t k u k'} : AutoDeref t (.place false false) u k' → AutoDeref (.ref t) k u k'
  /- What is behind a mutable reference can be changed, unless that is itself behind a shared reference. -/
  | refMut {t k u k'} : k ≠ .place false false → AutoDeref t (.place false true) u k' → AutoDeref (.refMut t) k u k'
  | box {t o m u k'} : AutoDeref t (.place o m) u k' → AutoDeref (.box t) (.place o m) u k'

/-- Coercions of arguments: `&Box<T>` and `&&T` to `&T`, `&Vec<u8>` and `&[u8; 8]` to `&[u8]`. -/
inductive Coerces : RT → RT → Prop
  | refl {t} : Coerces t t
  | box {t u} : Coerces (.ref t) u → Coerces (.ref (.box t)) u
  | ref {t u} : Coerces (.ref t) u → Coerces (.ref (.ref t)) u
  | bytes {u} : Coerces (.ref .slice) u → Coerces (.ref (.vec .u8)) u
  | array {u} : Coerces (.ref .slice) u → Coerces (.ref .array) u

/-- `impl From<τ> for σ`: also for each type itself. -/
inductive IsFrom (E : TyEnv) : RT → RT → Prop
  | refl {t} : IsFrom E t t
  | impl {o i a} : E.impls o i a → IsFrom E (.named o) (.named i)

/-- Types of parameters: a type; `&mut T` with `T: BufRead`; `&mut T` with `T: Write`. -/
inductive Param
  | type (t : RT)
  | reader
  | writer

/-- The signatures of the functions at the top of the file: lines 158-386 of `/repo/src/generate_rust.rs`. -/
def RuntimeFn.signature : RuntimeFn → List Param × RT
  | .zigzagEncode => ([.type .i64], .u64)
  | .zigzagDecode => ([.type .u64], .i64)
  | .varintSizeFromValue => ([.type .u64], .usize)
  | .fieldHeaderSize => ([.type .u64, .type .usize, .type .bool], .usize)
  | .serializeVarint => ([.type .u64, .writer], .result .unit)
  | .serializeFieldHeader => ([.writer, .type .u64, .type .usize, .type .bool], .result .unit)
  | .deserializeVarint => ([.reader], .result .u64)
  | .deserializeFieldHeader => ([.reader], .result (.pair .u64 .usize))
  | .skip => ([.reader, .type .usize], .result .unit)
  | .finish => ([.reader], .result .unit)

/-- Types of literals. -/
inductive LitTy : Lit → RT → Prop
  | unit : LitTy .unit .unit
  | bool {b} : LitTy (.bool b) .bool
  | usize {n} : n < 2 ^ 64 → LitTy (.usize n) .usize
  | u64 {n} : n < 2 ^ 64 → LitTy (.u64 n) .u64
  | f64Zero : LitTy .f64Zero .f64
  | newVec {t} : LitTy .newVec (.vec t)
  | newBytes : LitTy .newBytes (.vec .u8)
  | newString : LitTy .newString .string
  | zeros : LitTy .zeros .array

/-- Types of operands and results of operators. -/
inductive BinTy : BinOp → RT → RT → Prop
  | add : BinTy .add .usize .usize
  | mul : BinTy .mul .usize .usize
  | eq : BinTy .eq .u64 .bool
  | eqUsize : BinTy .eq .usize .bool
  | ne : BinTy .ne .u64 .bool
  | neUsize : BinTy .ne .usize .bool

/-- Methods which change a variable: the types of the variable, the argument and the result. `reserve_exact` also determines the size of an element. -/
inductive MutTy : MutMethod → RT → RT → RT → Prop
  | push {t} : MutTy .push (.vec t) t .unit
  | getOrInsert {t} : MutTy .getOrInsert (.option t) t (.refMut t)
  | reserveF64 : MutTy (.reserveExact 8) (.vec .f64) .usize .unit
  | reserveBytes : MutTy (.reserveExact 1) (.vec .u8) .usize .unit
  | reserveString : MutTy (.reserveExact 1) .string .usize .unit

/-- Functions which read into a variable: the types of the variable and the result. -/
inductive ReadTy : ReadFn → RT → RT → Prop
  | exact {s} : ReadTy (.exact s) .array (.result .unit)
  | toEnd : ReadTy .toEnd (.vec .u8) (.result .usize)
  | toString : ReadTy .toString .string (.result .usize)

/-- Variables are bound to the components of a variant; `wrap` is the type of a reference in a pattern which borrows. -/
inductive Binds (mod : List Str) (wrap : RT → RT) : List TypeEx → List (Option Var) → Vars → Vars → Prop
  | nil {Γ} : Binds mod wrap [] [] Γ Γ
  | skip {t ts bs Γ Γ'} : Binds mod wrap ts bs Γ Γ' → Binds mod wrap (t :: ts) (none :: bs) Γ Γ'
  | bind {t τ ts v bs Γ Γ'} : t.resolve mod = some τ → Binds mod wrap ts bs (Γ.set v (wrap τ) false) Γ' →
    Binds mod wrap (t :: ts) (some v :: bs) Γ Γ'

/-- Patterns for a value (or place) of a type, with the variables before and after. No variable is bound twice in a pattern; a pattern which moves needs a value
or an owned place; in a pattern for references, variables are bound to references. -/
inductive PatTy (E : TyEnv) : Pat → RT → Cat → Vars → Vars → Prop
  | int {n k Γ} : n < 2 ^ 64 → PatTy E (.int n) .u64 k Γ Γ
  | u64 {n k Γ} : n < 2 ^ 64 → PatTy E (.u64 n) .u64 k Γ Γ
  | range {a b k Γ} : a ≤ b → b < 2 ^ 64 → PatTy E (.range a b) .u64 k Γ Γ
  | usize {n k Γ} : n < 2 ^ 64 → PatTy E (.usize n) .usize k Γ Γ
  | wild {t k Γ} : PatTy E .wild t k Γ Γ
  | ok {v t Γ} : PatTy E (.ok v) (.result t) .value Γ (Γ.set v t false)
  | err {v t Γ} : PatTy E (.err v) (.result t) .value Γ (Γ.set v .error false)
  | variantRef {type name variants n ts bs k Γ Γ'} : E.items (E.mod, type) = some (.enum name variants) → (n, ts) ∈ variants → (bs.filterMap id).Nodup →
    Binds E.mod .ref ts bs Γ Γ' → PatTy E (.variant true type n bs) (.named (E.mod, type)) k Γ Γ'
  | variant {type name variants n ts bs Γ Γ'} : E.items (E.mod, type) = some (.enum name variants) → (n, ts) ∈ variants → (bs.filterMap id).Nodup →
    Binds E.mod id ts bs Γ Γ' → PatTy E (.variant false type n bs) (.named (E.mod, type)) .value Γ Γ'
  | variants {type name variants n ts bs type' name' variants' n' ts' bs' Γ Γ' Γ''} : E.items (E.mod, type) = some (.enum name variants) → (n, ts) ∈ variants →
    E.items (E.mod, type') = some (.enum name' variants') → (n', ts') ∈ variants' → ((bs ++ bs').filterMap id).Nodup →
    Binds E.mod .ref ts bs Γ Γ' → Binds E.mod .ref ts' bs' Γ' Γ'' →
    PatTy E (.variants type n bs type' n' bs') (.pair (.ref (.named (E.mod, type))) (.ref (.named (E.mod, type')))) .value Γ Γ''
  | wild₂ {a b Γ} : PatTy E .wild₂ (.pair a b) .value Γ Γ

/-- The patterns of arms. -/
def Arms.pats : Arms → List Pat
  | .nil => []
  | .cons p _ rest => p :: rest.pats

/-- The pattern matches the number. -/
def Pat.covers (n : Nat) : Pat → Prop
  | .int m => n = m
  | .u64 m => n = m
  | .range a b => a ≤ n ∧ n ≤ b
  | .wild => True
  | _ => False

/-- The patterns are exhaustive. -/
inductive Exhaustive (E : TyEnv) : RT → List Pat → Prop
  | wild {t ps} : .wild ∈ ps → Exhaustive E t ps
  | u64 {ps} : (∀ n < 2 ^ 64, ∃ p ∈ ps, p.covers n) → Exhaustive E .u64 ps
  | result {t v w ps} : .ok v ∈ ps → .err w ∈ ps → Exhaustive E (.result t) ps
  | enum {id name variants ps} : E.items id = some (.enum name variants) → (∀ x ∈ variants, ∃ r bs, .variant r id.2 x.1 bs ∈ ps) → Exhaustive E (.named id) ps
  | pair {a b ps} : .wild₂ ∈ ps → Exhaustive E (.pair a b) ps

mutual
/-- The expression has this type. -/
inductive HasTy : TyEnv → Vars → Ex → RT → Cat → Prop
  /- A place is used as a value: it is moved or copied. -/
  | move {E Γ e τ m} : HasTy E Γ e τ (.place true m) → HasTy E Γ e τ .value
  | copy {E Γ e τ o m} : IsCopy τ → HasTy E Γ e τ (.place o m) → HasTy E Γ e τ .value
  /- Expressions without a value can have any type. -/
  | never {E Γ e τ} : HasTy E Γ e .never .value → HasTy E Γ e τ .value
  | var {E Γ v τ m} : Γ v = some (τ, m) → HasTy E Γ (.var v) τ (.place true m)
  | lit {E Γ l τ} : LitTy l τ → HasTy E Γ (.lit l) τ .value
  | deref {E Γ e τ k} : HasTy E Γ e (.ref τ) k → HasTy E Γ (.deref e) τ (.place false false)
  | derefMut {E Γ e τ k} : HasTy E Γ e (.refMut τ) k → k ≠ .place false false → HasTy E Γ (.deref e) τ (.place false true)
  | derefBox {E Γ e τ o m} : HasTy E Γ e (.box τ) (.place o m) → HasTy E Γ (.deref e) τ (.place o m)
  | ref {E Γ e τ k} : HasTy E Γ e τ k → HasTy E Γ (.ref e) (.ref τ) .value
  | refMut {E Γ e τ o} : HasTy E Γ e τ (.place o true) → HasTy E Γ (.refMut e) (.refMut τ) .value
  | paren {E Γ e τ k} : HasTy E Γ e τ k → HasTy E Γ (.paren e) τ k
  | field {E Γ e t k id o m name members n ty τ} : HasTy E Γ e t k → AutoDeref t k (.named id) (.place o m) → E.items id = some (.struct name members) →
    (n, ty) ∈ members → ty.resolve id.1 = some τ → HasTy E Γ (.field e n) τ (.place o m)
  | fst {E Γ e t k o m a b} : HasTy E Γ e t k → AutoDeref t k (.pair a b) (.place o m) → HasTy E Γ (.fst e) a (.place o m)
  | snd {E Γ e t k o m a b} : HasTy E Γ e t k → AutoDeref t k (.pair a b) (.place o m) → HasTy E Γ (.snd e) b (.place o m)
  | asU64 {E Γ e} : HasTy E Γ e .usize .value → HasTy E Γ (.asU64 e) .u64 .value
  | asUsize {E Γ e} : HasTy E Γ e .u64 .value → HasTy E Γ (.asUsize e) .usize .value
  | bin {E Γ op a b τ σ} : BinTy op τ σ → HasTy E Γ a τ .value → HasTy E Γ b τ .value → HasTy E Γ (.bin op a b) σ .value
  | pair {E Γ a b τ σ} : HasTy E Γ a τ .value → HasTy E Γ b σ .value → HasTy E Γ (.pair a b) (.pair τ σ) .value
  | sumLines {E Γ es} : HasAll E Γ es .usize → HasTy E Γ (.sumLines es) .usize .value
  | orLines {E Γ e es} : HasAll E Γ (.cons e es) .bool → HasTy E Γ (.orLines (.cons e es)) .bool .value
  | units {E Γ e} : HasTy E Γ e .usize .value → HasTy E Γ (.units e) (.vec .unit) .value
  /- The functions at the top of the file are in the outermost module. -/
  | runtime {E Γ supers f as} : supers = E.mod.length → HasParams E Γ as f.signature.1 → HasTy E Γ (.runtime supers f as) f.signature.2 .value
  | usizeFrom {E Γ e} : HasTy E Γ e .bool .value → HasTy E Γ (.std .usizeFrom (.cons e .nil)) .usize .value
  | u64From {E Γ e} : HasTy E Γ e .bool .value → HasTy E Γ (.std .u64From (.cons e .nil)) .u64 .value
  | u64FromLeBytes {E Γ e} : HasTy E Γ e .array .value → HasTy E Γ (.std .u64FromLeBytes (.cons e .nil)) .u64 .value
  | f64FromLeBytes {E Γ e} : HasTy E Γ e .array .value → HasTy E Γ (.std .f64FromLeBytes (.cons e .nil)) .f64 .value
  | some {E Γ e τ} : HasTy E Γ e τ .value → HasTy E Γ (.std .some (.cons e .nil)) (.option τ) .value
  | ok {E Γ e τ} : HasTy E Γ e τ .value → HasTy E Γ (.std .ok (.cons e .nil)) (.result τ) .value
  | boxNew {E Γ e τ} : HasTy E Γ e τ .value → HasTy E Γ (.std .boxNew (.cons e .nil)) (.box τ) .value
  | take {E Γ e τ n} : HasTy E Γ e τ .value → IsReader τ → HasTy E Γ n .u64 .value → HasTy E Γ (.std .take (.cons e (.cons n .nil))) (.take τ) .value
  | lenVec {E Γ e t k u k'} : HasTy E Γ e t k → AutoDeref t k (.vec u) k' → HasTy E Γ (.method e .len .nil) .usize .value
  | lenString {E Γ e t k k'} : HasTy E Γ e t k → AutoDeref t k .string k' → HasTy E Γ (.method e .len .nil) .usize .value
  | toBits {E Γ e t k k'} : HasTy E Γ e t k → AutoDeref t k .f64 k' → HasTy E Γ (.method e .toBits .nil) .u64 .value
  | toLeBytesF64 {E Γ e t k k'} : HasTy E Γ e t k → AutoDeref t k .f64 k' → HasTy E Γ (.method e .toLeBytes .nil) .array .value
  | toLeBytesU64 {E Γ e t k k'} : HasTy E Γ e t k → AutoDeref t k .u64 k' → HasTy E Γ (.method e .toLeBytes .nil) .array .value
  | asBytes {E Γ e t k k'} : HasTy E Γ e t k → AutoDeref t k .string k' → HasTy E Γ (.method e .asBytes .nil) (.ref .slice) .value
  | isNone {E Γ e t k u k'} : HasTy E Γ e t k → AutoDeref t k (.option u) k' → HasTy E Γ (.method e .isNone .nil) .bool .value
  | unwrap {E Γ e t} : HasTy E Γ e (.option t) .value → HasTy E Γ (.method e .unwrap .nil) t .value
  | asRef {E Γ e t k u k'} : HasTy E Γ e t k → AutoDeref t k (.option u) k' → HasTy E Γ (.method e .asRef .nil) (.option (.ref u)) .value
  | iter {E Γ e t k u k'} : HasTy E Γ e t k → AutoDeref t k (.vec u) k' → HasTy E Γ (.method e .iter .nil) (.iter (.ref u)) .value
  | intoIter {E Γ e t} : HasTy E Γ e (.vec t) .value → HasTy E Γ (.method e .intoIter .nil) (.iter t) .value
  | writeAll {E Γ e t k w o as} : HasTy E Γ e t k → AutoDeref t k w (.place o true) → IsWriter w → HasParams E Γ as [.type (.ref .slice)] →
    HasTy E Γ (.method e .writeAll as) (.result .unit) .value
  | atlas {E Γ e t k o k' i a} : HasTy E Γ e t k → AutoDeref t k (.named o) k' → E.impls o i a → HasTy E Γ (.method e .atlas .nil) (.named a) .value
  | size {E Γ e t k o k' i a} : HasTy E Γ e t k → AutoDeref t k (.named a) k' → E.impls o i a → HasTy E Γ (.method e .size .nil) .usize .value
  | serializeWithAtlas {E Γ e t k o k' i a as} : HasTy E Γ e t k → AutoDeref t k (.named o) k' → E.impls o i a →
    HasParams E Γ as [.writer, .type (.ref (.named a))] → HasTy E Γ (.method e .serializeWithAtlas as) (.result .unit) .value
  | into {E Γ e τ σ} : HasTy E Γ e τ .value → IsFrom E τ σ → HasTy E Γ (.method e .into .nil) σ .value
  | mutate {E Γ v m e t τ σ} : Γ v = some (t, true) → MutTy m t τ σ → HasTy E Γ e τ .value → HasTy E Γ (.mutate v m e) σ .value
  | read {E Γ f r v t σ} : Γ v = some (t, true) → ReadTy f t σ → HasParams E Γ (.cons r .nil) [.reader] → HasTy E Γ (.read f r v) σ .value
  | deserialize {E Γ path r o i a} : (TypeEx.path path).resolve E.mod = some (.named i) → E.impls o i a → HasParams E Γ (.cons r .nil) [.reader] →
    HasTy E Γ (.deserialize path r) (.result (.named i)) .value
  | deserializeSelf {E Γ r o i a} : E.self = .named i → E.impls o i a → HasParams E Γ (.cons r .nil) [.reader] →
    HasTy E Γ (.deserializeSelf r) (.result (.named i)) .value
  | try_ {E Γ e τ σ} : E.ret = some (.result σ) → HasTy E Γ e (.result τ) .value → HasTy E Γ (.try_ e) τ .value
  | mapVec {E Γ e v b τ σ} : HasTy E Γ e (.iter τ) .value → HasTy E.closure (Γ.set v τ false) b σ .value → HasTy E Γ (.mapVec e v b) (.vec σ) .value
  | mapOption {E Γ e v b τ σ} : HasTy E Γ e (.option τ) .value → HasTy E.closure (Γ.set v τ false) b σ .value → HasTy E Γ (.mapOption e v b) (.option σ) .value
  | mapOr {E Γ e v b τ} : HasTy E Γ e (.option τ) .value → HasTy E.closure (Γ.set v τ false) b .usize .value → HasTy E Γ (.mapOr e v b) .usize .value
  | fold {E Γ e x v b τ} : HasTy E Γ e (.iter τ) .value → x ≠ v → HasTy E.closure ((Γ.set x .usize false).set v τ false) b .usize .value →
    HasTy E Γ (.fold e x v b) .usize .value
  /- All members of the struct are given. -/
  | structLit {E Γ name name' members inits} : E.items (E.mod, name) = some (.struct name' members) → HasInits E Γ inits members →
    HasTy E Γ (.structLit name inits) (.named (E.mod, name)) .value
  | variantLit {E Γ name name' variants n ts ps as} : E.items (E.mod, name) = some (.enum name' variants) → (n, ts) ∈ variants →
    ts.mapM (TypeEx.resolve E.mod) = some ps → HasParams E Γ as (ps.map .type) → HasTy E Γ (.variantLit name n as) (.named (E.mod, name)) .value
  | brace {E Γ b τ} : HasTy E Γ b τ .value → HasTy E Γ (.brace b) τ .value
  | block {E Γ b τ} : HasTy E Γ b τ .value → HasTy E Γ (.block b) τ .value
  | letIn {E Γ m v e b τ σ} : HasTy E Γ e τ .value → HasTy E (Γ.set v τ m) b σ .value → HasTy E Γ (.letIn m v e b) σ .value
  | letNone {E Γ v ty b τ σ} : ty.resolve E.mod = some τ → HasTy E (Γ.set v (.option τ) true) b σ .value → HasTy E Γ (.letNone v ty b) σ .value
  | letPair {E Γ v w e b τ τ' σ} : HasTy E Γ e (.pair τ τ') .value → v ≠ w → HasTy E ((Γ.set v τ false).set w τ' false) b σ .value →
    HasTy E Γ (.letPair v w e b) σ .value
  | letFn {E Γ ty e b τ σ} : ty.resolve E.mod = some τ →
    HasTy { E with ret := some (.result τ), brk := false, elem := none } (Vars.empty.set .subReader (.refMut .source) true) e (.result τ) .value →
    HasTy { E with elem := some τ } Γ b σ .value → HasTy E Γ (.letFn ty e b) σ .value
  | callFn {E Γ e τ} : E.elem = some τ → HasParams E Γ (.cons e .nil) [.reader] → HasTy E Γ (.callFn e) (.result τ) .value
  /- A statement without semicolon has the type `()`. -/
  | seq {E Γ e b τ σ} : HasTy E Γ e τ .value → (e.blockLike = true → τ = .unit) → HasTy E Γ b σ .value → HasTy E Γ (.seq e b) σ .value
  /- After a statement which does not end, a block without a value can have any type. -/
  | diverge {E Γ e} : HasTy E Γ e .never .value → HasTy E Γ (.seq e .done) .never .value
  | blank {E Γ b τ} : HasTy E Γ b τ .value → HasTy E Γ (.blank b) τ .value
  | done {E Γ} : HasTy E Γ .done .unit .value
  | ifInline {E Γ c a b τ} : HasTy E Γ c .bool .value → HasTy E Γ a τ .value → HasTy E Γ b τ .value → HasTy E Γ (.ifInline c a b) τ .value
  | ifElse {E Γ c a b τ} : HasTy E Γ c .bool .value → HasTy E Γ a τ .value → HasTy E Γ b τ .value → HasTy E Γ (.ifElse c a b) τ .value
  | ifThen {E Γ c a} : HasTy E Γ c .bool .value → HasTy E Γ a .unit .value → HasTy E Γ (.ifThen c a) .unit .value
  | ifEof {E Γ v m a} : Γ v = some (.error, m) → HasTy E Γ a .unit .value → HasTy E Γ (.ifEof v a) .unit .value
  | ifSome {E Γ v w e f b τ σ} : HasTy E Γ e (.ref (.option τ)) .value → HasTy E Γ f (.ref (.option σ)) .value → v ≠ w →
    HasTy E ((Γ.set v (.ref τ) false).set w (.ref σ) false) b .unit .value → HasTy E Γ (.ifSome v w e f b) .unit .value
  | forIn {E Γ v e b τ} : HasTy E Γ e (.ref (.vec τ)) .value → HasTy (E.inLoop true) (Γ.set v (.ref τ) false) b .unit .value →
    HasTy E Γ (.forIn v e b) .unit .value
  | forZip {E Γ v w e f b τ σ} : HasTy E Γ e (.iter τ) .value → HasTy E Γ f (.iter σ) .value → v ≠ w →
    HasTy (E.inLoop true) ((Γ.set v τ false).set w σ false) b .unit .value → HasTy E Γ (.forZip v w e f b) .unit .value
  | matchInline {E Γ e arms τ k σ} : HasTy E Γ e τ k → HasArms E Γ τ k arms σ → Exhaustive E τ arms.pats → HasTy E Γ (.matchInline e arms) σ .value
  | matchLines {E Γ e arms τ k σ} : HasTy E Γ e τ k → HasArms E Γ τ k arms σ → Exhaustive E τ arms.pats → HasTy E Γ (.matchLines e arms) σ .value
  /- A loop has the type `()` if there can be a `break`, otherwise it does not end. -/
  | loop {E Γ b} : HasTy (E.inLoop true) Γ b .unit .value → HasTy E Γ (.loop b) .unit .value
  | loopNever {E Γ b} : HasTy (E.inLoop false) Γ b .unit .value → HasTy E Γ (.loop b) .never .value
  | break_ {E Γ} : E.brk = true → HasTy E Γ .break_ .never .value
  | return_ {E Γ e τ} : E.ret = some τ → HasTy E Γ e τ .value → HasTy E Γ (.return_ e) .never .value
  | panic {E Γ} : HasTy E Γ .panic .never .value
  | errOf {E Γ v m τ} : Γ v = some (.error, m) → HasTy E Γ (.errOf v) (.result τ) .value
  | errMissing {E Γ supers τ} : supers = E.mod.length → HasTy E Γ (.errMissing supers) (.result τ) .value
/-- All of the expressions have this type. -/
inductive HasAll : TyEnv → Vars → Args → RT → Prop
  | nil {E Γ τ} : HasAll E Γ .nil τ
  | cons {E Γ e es τ} : HasTy E Γ e τ .value → HasAll E Γ es τ → HasAll E Γ (.cons e es) τ
/-- The expressions can be passed to these parameters. -/
inductive HasParams : TyEnv → Vars → Args → List Param → Prop
  | nil {E Γ} : HasParams E Γ .nil []
  | type {E Γ e es τ σ ps} : HasTy E Γ e τ .value → Coerces τ σ → HasParams E Γ es ps → HasParams E Γ (.cons e es) (.type σ :: ps)
  | reader {E Γ e es τ ps} : HasTy E Γ e (.refMut τ) .value → IsReader τ → HasParams E Γ es ps → HasParams E Γ (.cons e es) (.reader :: ps)
  | writer {E Γ e es τ ps} : HasTy E Γ e (.refMut τ) .value → IsWriter τ → HasParams E Γ es ps → HasParams E Γ (.cons e es) (.writer :: ps)
/-- The members of a struct are initialized, in their order. -/
inductive HasInits : TyEnv → Vars → Inits → List (Str × TypeEx) → Prop
  | nil {E Γ} : HasInits E Γ .nil []
  | cons {E Γ n e rest ty τ members} : ty.resolve E.mod = some τ → HasTy E Γ e τ .value → HasInits E Γ rest members →
    HasInits E Γ (.cons n e rest) ((n, ty) :: members)
/-- The arms of a `match` on a value of the type `τ` have the type `σ`. -/
inductive HasArms : TyEnv → Vars → RT → Cat → Arms → RT → Prop
  | nil {E Γ τ k σ} : HasArms E Γ τ k .nil σ
  | cons {E Γ τ k p b rest σ Γ'} : PatTy E p τ k Γ Γ' → HasTy E Γ' b σ .value → HasArms E Γ τ k rest σ → HasArms E Γ τ k (.cons p b rest) σ
end

end Typical.Gen
