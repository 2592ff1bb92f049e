import Verif.Front.Names
import Verif.TypeScript

/-!
# Abstract syntax of generated TypeScript code

The fragment of TypeScript in which `/repo/src/generate_typescript.rs` writes functions. `Verif.TsGen.Gen` is the generator,
`Verif.TsGen.Runtime` the fixed functions at the top of the file, `Verif.TsGen.Print` the text of this syntax, `Verif.TsGen.Sem` its meaning.
-/

namespace Typical.TsGen

/-- Local variables and parameters. `field x` is the variable `$x`. -/
inductive TVar
  | size
  | field (name : Str)
  | payloadAtlas
  | payload
  | payloadSize
  | message
  | fallbackAtlas
  | dataView
  | offset
  | atlas
  | dataViewAlias
  | index
  | e
  | oldOffset
  | newOffset
  | elements
  | oldPayload
  | oldPayloadAtlas
  | i
  | arraySize
  | zigzag
  | varint
  | sourceBuffer
  | targetBuffer
  | payloadAlias
  | payloadSizeBig
  | newPayload
  | bytes
  | messageAtlas
  | arrayBuffer
  | x
  | value
  | twice
  | half
  | firstByte
  | trailingZeros
  | sizeMinusOne
  | offsetPlusOne
  | remainingBytesValue
  | integerEncoded
  | tag
  | newNewOffset
  | sizeValue
  deriving DecidableEq

/-- The functions at the top of the generated file: lines 174-441. -/
inductive RuntimeFn
  | unreachable
  | zigzagEncode
  | zigzagDecode
  | varintSizeFromValue
  | varintSizeFromFirstByte
  | serializeVarint
  | deserializeVarint
  | fieldHeaderSize
  | serializeFieldHeader
  | deserializeFieldHeader
  deriving DecidableEq

/-- The functions in the namespace of a declaration. -/
inductive Fn
  | size
  | serialize
  | deserialize
  | atlas
  | serializeWithAtlasUnsafe
  | deserializeUnsafe
  deriving DecidableEq

/-- The constants at the top of the generated file which are objects: lines 443-446. -/
inductive Glob
  | dataView64
  | textEncoder
  | textDecoder
  deriving DecidableEq

/-- Built-in objects which are constructed by `new`, called as functions, or used on the right of `instanceof`. -/
inductive Builtin
  | dataView
  | uint8Array
  | arrayBuffer
  | number
  | bigInt
  | objectIs
  | array
  | rangeError
  deriving DecidableEq

/-- Methods of built-in objects. -/
inductive Method
  | getUint8
  | getBigUint64
  | getFloat64
  | setUint8
  | setUint16
  | setUint32
  | setBigUint64
  | setFloat64
  | slice
  | set
  | push
  | fill
  | encode
  | decode
  deriving DecidableEq

/-- Binary operators. -/
inductive BinOp
  | add
  | sub
  | mul
  | rem
  | shl
  | shr
  | band
  | bor
  | lt
  | gt
  | same
  | differ
  deriving DecidableEq

/-- Constants. -/
inductive Lit
  | undefined
  | null
  | bool (b : Bool)
  /-- `5` -/
  | num (n : Nat)
  /-- `0b0000_0101` -/
  | binary (n : Nat)
  /-- `5n` -/
  | big (n : Nat)
  /-- `16_512n` -/
  | bigGrouped (n : Nat)
  deriving DecidableEq

mutual
/-- Expressions. -/
inductive Ex
  | var (v : TVar)
  | lit (l : Lit)
  | glob (g : Glob)
  /-- `(e)`; `lines`: on separate lines -/
  | paren (lines : Bool) (e : Ex)
  /-- `-e` -/
  | neg (e : Ex)
  /-- `-1n` -/
  | negBig (n : Nat)
  /-- `e as type` -/
  | as_ (e : Ex) (type : Str)
  /-- `e.name` -/
  | prop (e : Ex) (name : Str)
  /-- `e[i]` -/
  | index (e i : Ex)
  | bin (op : BinOp) (a b : Ex)
  /-- The same, with a line break after the operator and `extra` levels of indentation. -/
  | binLines (extra : Nat) (op : BinOp) (a b : Ex)
  /-- `a && b`, `a || b` -/
  | and (a b : Ex)
  | or (a b : Ex)
  /-- `c ? a : b` -/
  | cond (c a b : Ex)
  /-- `'name' in e` -/
  | has (name : Str) (e : Ex)
  /-- `e instanceof b` -/
  | isA (e : Ex) (b : Builtin)
  /-- `[]` -/
  | newArray
  /-- `[a, …]`, a tuple; `lines`: on separate lines -/
  | tuple (lines : Bool) (es : Args)
  /-- `{ a: x, … }` on one line -/
  | objInline (inits : Inits)
  /-- `{ a: x, … }` on several lines -/
  | objLines (inits : Inits)
  /-- `f(args)` -/
  | runtime (f : RuntimeFn) (args : Args)
  /-- `A.B.f(args)` -/
  | path (path : List Str) (f : Fn) (args : Args)
  /-- `f(args)`, a function of the same declaration; `lines`: the arguments on separate lines -/
  | own (lines : Bool) (f : Fn) (args : Args)
  /-- `new B(args)` -/
  | new (lines : Bool) (b : Builtin) (args : Args)
  /-- `B(args)` -/
  | builtin (b : Builtin) (args : Args)
  /-- `e.m(args)` -/
  | method (lines : Bool) (e : Ex) (m : Method) (args : Args)

/-- Arguments. -/
inductive Args
  | nil
  | cons (e : Ex) (rest : Args)

/-- Properties of an object. `short`: only the name of a variable is written. -/
inductive Inits
  | nil
  | cons (name : Str) (e : Ex) (rest : Inits)
  | short (v : TVar) (rest : Inits)
  /-- `name: 'text'` -/
  | text (name text : Str) (rest : Inits)
end

mutual
/-- Statements. -/
inductive Stm
  /-- `let a, b;` -/
  | letVars (vs : List TVar)
  /-- `let v = e;`, `let v: type = e;` -/
  | let_ (v : TVar) (type : Option Str) (e : Ex)
  /-- `const v = e;` -/
  | const (v : TVar) (e : Ex)
  /-- `const [a, b] = e;` -/
  | constTuple (vs : List TVar) (e : Ex)
  /-- `[a, b] = e;` -/
  | assignTuple (vs : List TVar) (e : Ex)
  /-- `v = e;` -/
  | assign (v : TVar) (e : Ex)
  /-- `v += e;`, `v -= e;`, `v >>= e;` -/
  | update (v : TVar) (op : BinOp) (e : Ex)
  /-- `e;` -/
  | expr (e : Ex)
  /-- `{ … }` -/
  | block (b : Stms)
  /-- `if (c) { … }` followed by other branches -/
  | if_ (c : Ex) (a : Stms) (b : Else)
  /-- `if (a || b || …) { … }`, each further condition on a line -/
  | ifAny (cs : Args) (a : Stms)
  /-- `for (let i = 0; i < e; i += 1) { … }` -/
  | for_ (e : Ex) (b : Stms)
  /-- `while (c) { … }` -/
  | while_ (c : Ex) (b : Stms)
  /-- `try { … } catch (e) { … }` -/
  | try_ (a b : Stms)
  | switch (e : Ex) (cases : Cases)
  | return_ (e : Ex)
  /-- `throw e;` -/
  | throw_ (e : Ex)
  /-- `throw new Error(missingFieldsErrorMessage);` -/
  | throwMissing
  | break_
  /-- an empty line -/
  | blank

/-- Lists of statements. -/
inductive Stms
  | nil
  | cons (s : Stm) (rest : Stms)

/-- The rest of an `if`. -/
inductive Else
  | none
  | else_ (b : Stms)
  | elseIf (c : Ex) (a : Stms) (b : Else)

/-- The cases of a `switch`. `brace`: the statements are a block, which begins in the line of the label. -/
inductive Cases
  | nil
  | case (label : Lit) (brace : Bool) (b : Stms) (rest : Cases)
  | default_ (brace : Bool) (b : Stms) (rest : Cases)
end

/-- Append lists of statements. -/
def Stms.append : Stms → Stms → Stms
  | .nil, b => b
  | .cons s a, b => .cons s (a.append b)

instance : Append Stms := ⟨Stms.append⟩

/-- A list of statements. -/
def Stms.ofList : List Stm → Stms
  | [] => .nil
  | s :: l => .cons s (Stms.ofList l)

/-- A list of arguments. -/
def Args.ofList : List Ex → Args
  | [] => .nil
  | e :: l => .cons e (Args.ofList l)

/-- A function: parameters and body. -/
structure Code where
  params : List TVar
  body : Stms

/-- What is generated for a declaration. -/
structure DeclCode where
  /-- The name of its namespace. -/
  name : Str
  /-- The names of its types. -/
  typeName : NameSuffix → Str
  /-- The definitions of the three types, given the indentation, each with a trailing line break. -/
  types : Nat → List Str
  /-- The bodies of its functions. -/
  body : Fn → Stms

/-- The parameters of functions: lines 646-652, 740-758, 820-826, 1465, 1488, 1523. -/
def Fn.params : Fn → List TVar
  | .size => [.message]
  | .serialize => [.message]
  | .deserialize => [.bytes]
  | .atlas => [.message]
  | .serializeWithAtlasUnsafe => [.dataView, .offset, .message, .atlas]
  | .deserializeUnsafe => [.dataView]

end Typical.TsGen
