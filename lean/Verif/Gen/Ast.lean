import Verif.Front.Names
import Verif.Rust

/-!
# Abstract syntax of generated Rust code

The fragment of Rust in which `/repo/src/generate_rust.rs` writes the functions of each declaration. `Verif.Gen.RustGen` is the
generator, `Verif.Gen.Print` the text of this syntax, `Verif.Gen.Sem` its meaning.
-/

namespace Typical.Gen

/-- Local variables and parameters of generated functions. `field x` is the variable `_x` for the field `x`. -/
inductive Var
  | self
  | writer
  | atlas
  | message
  | reader
  | subReader
  | payload
  | payloadAtlas
  | payloadSize
  | fallback
  | fallbackAtlas
  | atlases
  | atlasSize
  | x
  | zigzag
  | varint
  | index
  | buffer
  | header
  | element
  | err
  | size
  | field (name : Str)
  deriving DecidableEq

/-- A path to a type: `super::…::module::…::Name`. -/
structure TypePath where
  supers : Nat
  modules : List Str
  name : Str
  deriving DecidableEq

/-- Types as they are written: `write_type`, `/repo/src/generate_rust.rs` lines 1608-1719, and the types of members and variants. -/
inductive TypeEx
  | usize
  | bool
  | f64
  | i64
  | u64
  | unit
  | string
  /-- `Vec<u8>` -/
  | bytes
  | vec (t : TypeEx)
  | option (t : TypeEx)
  | box (t : TypeEx)
  | pair (a b : TypeEx)
  | path (p : TypePath)
  deriving DecidableEq

/-- Definitions of types: `pub struct Name { pub member: type, … }`, `pub enum Name { Variant(type, …), … }`. -/
inductive Item
  | struct (name : Str) (members : List (Str × TypeEx))
  | enum (name : Str) (variants : List (Str × List TypeEx))

/-- The functions at the top of the generated file: lines 137-386. -/
inductive RuntimeFn
  | zigzagEncode
  | zigzagDecode
  | varintSizeFromValue
  | fieldHeaderSize
  | serializeVarint
  | serializeFieldHeader
  | deserializeVarint
  | deserializeFieldHeader
  | skip
  | finish
  deriving DecidableEq

/-- Functions and constructors of the standard library which are called by name. -/
inductive StdFn
  | usizeFrom
  | u64From
  | u64FromLeBytes
  | f64FromLeBytes
  | some
  | ok
  | boxNew
  /-- `::std::io::Read::take` -/
  | take
  deriving DecidableEq

/-- Methods. The last four are those of generated types (and, for `into`, of all types). -/
inductive Method
  | len
  | toBits
  | toLeBytes
  | asBytes
  | isNone
  | unwrap
  | asRef
  | iter
  | intoIter
  | writeAll
  | atlas
  | size
  | serializeWithAtlas
  | into
  deriving DecidableEq

/-- Methods which change the variable they are applied to. The argument of `reserveExact` is the size of an element, in bytes;
it follows from the type of the variable and is not written. -/
inductive MutMethod
  | push
  | getOrInsert
  | reserveExact (elementSize : Nat)
  deriving DecidableEq

/-- `::std::io::Read::read_exact` into `[u8; 8]` (passed as `&mut buffer` or `&mut buffer[..]`), `read_to_end` and
`read_to_string`. -/
inductive ReadFn
  | exact (slice : Bool)
  | toEnd
  | toString
  deriving DecidableEq

/-- Values without subexpressions. -/
inductive Lit
  | unit
  | bool (b : Bool)
  | usize (n : Nat)
  | u64 (n : Nat)
  /-- `0.0_f64` -/
  | f64Zero
  /-- `Vec::new()` -/
  | newVec
  /-- `vec![]`, of bytes -/
  | newBytes
  /-- `String::new()` -/
  | newString
  /-- `[0; 8]` -/
  | zeros
  deriving DecidableEq

/-- Binary operators. -/
inductive BinOp
  | add
  | mul
  | eq
  | ne
  deriving DecidableEq

/-- Patterns. `binders`: the variables of the components, `none` for `_`. -/
inductive Pat
  /-- `5` -/
  | int (n : Nat)
  /-- `5_u64` -/
  | u64 (n : Nat)
  /-- `5_u64..=7_u64` -/
  | range (a b : Nat)
  /-- `5_usize` -/
  | usize (n : Nat)
  | wild
  /-- `Ok(x)` -/
  | ok (v : Var)
  /-- `Err(x)` -/
  | err (v : Var)
  /-- `Type::Variant(x, y, …)`, or with `ref` before each variable -/
  | variant (ref : Bool) (type variant : Str) (binders : List (Option Var))
  /-- `(Type::Variant(…), Type::Variant(…))` -/
  | variants (type₁ variant₁ : Str) (binders₁ : List (Option Var)) (type₂ variant₂ : Str) (binders₂ : List (Option Var))
  /-- `(_, _)` -/
  | wild₂
  deriving DecidableEq

mutual
/-- Expressions and statements. A block is a chain of `letIn`, `seq`, … which ends in `done` or in an expression; `blank` and
`brace` only affect the text. -/
inductive Ex
  | var (v : Var)
  | lit (l : Lit)
  /-- `*e`, `&e`, `&mut e`, `(e)` -/
  | deref (e : Ex)
  | ref (e : Ex)
  | refMut (e : Ex)
  | paren (e : Ex)
  /-- `e.name` -/
  | field (e : Ex) (name : Str)
  /-- `e.0`, `e.1` -/
  | fst (e : Ex)
  | snd (e : Ex)
  /-- `e as u64`, `e as usize` -/
  | asU64 (e : Ex)
  | asUsize (e : Ex)
  | bin (op : BinOp) (a b : Ex)
  /-- `(a, b)` -/
  | pair (a b : Ex)
  /-- `a + b + …` and `a || b || …`, one operand per line; `0` if there is none -/
  | sumLines (es : Args)
  | orLines (es : Args)
  /-- `vec![(); e]` -/
  | units (e : Ex)
  /-- `super::…::f(args)` -/
  | runtime (supers : Nat) (f : RuntimeFn) (args : Args)
  | std (f : StdFn) (args : Args)
  | method (e : Ex) (m : Method) (args : Args)
  | mutate (v : Var) (m : MutMethod) (e : Ex)
  | read (f : ReadFn) (r : Ex) (v : Var)
  /-- `Path::deserialize_from_reader_ref(r)`, `Self::deserialize_from_reader_ref(r)` -/
  | deserialize (path : TypePath) (r : Ex)
  | deserializeSelf (r : Ex)
  /-- `e?` -/
  | try_ (e : Ex)
  /-- `e.map(|v| b).collect::<Vec<_>>()` -/
  | mapVec (e : Ex) (v : Var) (b : Ex)
  /-- `e.map(|v| b)`, for options -/
  | mapOption (e : Ex) (v : Var) (b : Ex)
  /-- `e.map_or(0_usize, |v| b)` -/
  | mapOr (e : Ex) (v : Var) (b : Ex)
  /-- `e.fold(0_usize, |x, v| b)` -/
  | fold (e : Ex) (x v : Var) (b : Ex)
  /-- `Name { field: e, … }` -/
  | structLit (name : Str) (inits : Inits)
  /-- `Name::Variant(args)` -/
  | variantLit (name variant : Str) (args : Args)
  /-- `{ b }` on one line, `{ … }` on several -/
  | brace (b : Ex)
  | block (b : Ex)
  /-- `let v = e; b` -/
  | letIn (isMut : Bool) (v : Var) (e b : Ex)
  /-- `let mut v: Option<type> = None; b` -/
  | letNone (v : Var) (type : TypeEx) (b : Ex)
  /-- `let (v, w) = e; b` -/
  | letPair (v w : Var) (e b : Ex)
  /-- `fn deserialize_element<T: ::std::io::BufRead>(mut sub_reader: &mut T) -> ::std::io::Result<type> { e }`, followed by `b` -/
  | letFn (type : TypeEx) (e b : Ex)
  /-- `deserialize_element(e)` -/
  | callFn (e : Ex)
  /-- `e;` (without semicolon after a block) followed by `b` -/
  | seq (e b : Ex)
  /-- an empty line -/
  | blank (b : Ex)
  /-- the end of a block without a value -/
  | done
  /-- `if c { a } else { b }`, on one line or on several -/
  | ifInline (c a b : Ex)
  | ifElse (c a b : Ex)
  /-- `if c { a }` -/
  | ifThen (c a : Ex)
  /-- `if let std::io::ErrorKind::UnexpectedEof = v.kind() { a }` -/
  | ifEof (v : Var) (a : Ex)
  /-- `if let (Some(v), Some(w)) = (e, f) { b }` -/
  | ifSome (v w : Var) (e f : Ex) (b : Ex)
  /-- `for v in e { b }` -/
  | forIn (v : Var) (e b : Ex)
  /-- `for (v, w) in e.zip(f) { b }` -/
  | forZip (v w : Var) (e f : Ex) (b : Ex)
  /-- `match e { … }`, on one line or on several -/
  | matchInline (e : Ex) (arms : Arms)
  | matchLines (e : Ex) (arms : Arms)
  | loop (b : Ex)
  | break_
  | return_ (e : Ex)
  /-- `panic!()` -/
  | panic
  /-- `Err(err)` -/
  | errOf (v : Var)
  /-- `Err(::std::io::Error::new(::std::io::ErrorKind::InvalidData, super::…::MISSING_FIELDS_ERROR_MESSAGE))` -/
  | errMissing (supers : Nat)

/-- Arguments of a call. -/
inductive Args
  | nil
  | cons (e : Ex) (rest : Args)

/-- Members of a struct expression. -/
inductive Inits
  | nil
  | cons (name : Str) (e : Ex) (rest : Inits)

/-- Arms of a `match`. -/
inductive Arms
  | nil
  | cons (p : Pat) (b : Ex) (rest : Arms)
end

/-- The names of the three types of a declaration, and the bodies of its functions. -/
structure DeclCode where
  name : NameSuffix → Str
  /-- The definitions of the three types. -/
  types : List Item
  /-- `impl From<Out> for In { fn from(message: Out) -> Self { … } }` -/
  from_ : Ex
  /-- `impl Out { pub fn atlas(&self) -> Atlas { … } }` -/
  atlas : Ex
  /-- `impl Out { pub fn serialize_with_atlas<T: ::std::io::Write>(&self, writer: &mut T, atlas: &Atlas) -> ::std::io::Result<()> { … } }` -/
  serializeWithAtlas : Ex
  /-- `impl In { pub fn deserialize_from_reader_ref<T: ::std::io::BufRead>(reader: &mut T) -> ::std::io::Result<Self> { … } }` -/
  deserializeFromReaderRef : Ex
  /-- `impl Atlas { pub fn size(&self) -> usize { … } }` -/
  size : Ex

/-- `Serialize::size`: `write_size_function`, lines 1564-1571. -/
def traitSize : Ex := .method (.method (.var .self) .atlas .nil) .size .nil

/-- `Serialize::serialize`: `write_serialize_function`, lines 1574-1589. -/
def traitSerialize : Ex :=
  .letIn false .atlas (.method (.var .self) .atlas .nil)
    (.method (.var .self) .serializeWithAtlas (.cons (.refMut (.var .writer)) (.cons (.ref (.var .atlas)) .nil)))

/-- `Deserialize::deserialize`: `write_deserialize_function`, lines 1592-1605. -/
def traitDeserialize : Ex := .deserializeSelf (.refMut (.var .reader))

end Typical.Gen
