import Verif.Spec.JsValues
import Verif.TsGen.Program
import Verif.Spec.Modules

/-!
# Specification: types of generated TypeScript code, their text and their values

Written from the TypeScript Handbook ("Everyday Types", "Object Types", "Namespaces"), for the types which generated code defines and mentions: object types, unions
of them, arrays, names with or without namespaces.

`TsTy.Has E strict H p t v`: `v` is a value of the type `t` which is written in the namespace `p`; `E` are the definitions of types, and arrays and buffers are in `H`.
TypeScript compares types of objects by the properties which they need to have, so that values can have other properties, too. If `strict`, then values don't have
other properties, and integers fit into the types of the schema: neither is checked by TypeScript.

Simplifications: values are finite, i.e. objects and arrays don't contain themselves; strings are without lone surrogates (as in `Verif.Spec.JsValues`); the length of
arrays is limited (to less than 2^64) only for elements `null`, all others exhaust the memory before; that other classes have the properties
of `ArrayBuffer`, too, is not considered.
-/

namespace Typical.TsGen

/-- Types which occur inside definitions. -/
inductive TsTy
  | number
  | boolean
  /-- `bigint`, for `S64` or `U64`: the text does not show which -/
  | bigint (signed : Bool)
  | string
  | null
  | never
  | arrayBuffer
  | uint8Array
  /-- `'s'` -/
  | literal (s : Str)
  /-- `t[]` -/
  | array (t : TsTy)
  /-- `t | undefined` -/
  | orUndefined (t : TsTy)
  /-- `{ $size: number; $elements: t[] }` -/
  | sized (t : TsTy)
  /-- `A.B.Name` -/
  | ref (namespaces : List Str) (name : Str)

/-- The properties of an object type. -/
abbrev TsProps := List (Str × TsTy)

/-- The right-hand side of a definition. -/
inductive TsDef
  | object (props : TsProps)
  | union (alternatives : List TsProps)

/-- Values of this type have these properties. -/
def TsDef.Alternative : TsDef → TsProps → Prop
  | .object props, p => p = props
  | .union l, p => p ∈ l

/-! ### Text -/

/-- The text of a type. -/
def TsTy.text : TsTy → Str
  | .number => "number".toList
  | .boolean => "boolean".toList
  | .bigint _ => "bigint".toList
  | .string => "string".toList
  | .null => "null".toList
  | .never => "never".toList
  | .arrayBuffer => "ArrayBuffer".toList
  | .uint8Array => "Uint8Array".toList
  | .literal s => "'".toList ++ s ++ "'".toList
  | .array t => t.text ++ "[]".toList
  | .orUndefined t => t.text ++ " | undefined".toList
  | .sized t => "{ $size: number; $elements: ".toList ++ t.text ++ "[] }".toList
  | .ref namespaces name => namespaces.flatMap (fun m => m ++ ".".toList) ++ name

/-- `name: t` -/
def propText (p : Str × TsTy) : Str := p.1 ++ ": ".toList ++ p.2.text

/-- The lines of a definition, with indentation. -/
def TsDef.text (ind : Nat) (name : Str) : TsDef → Str
  | .object props =>
    indent ind ++ "export type ".toList ++ name ++ " = {\n".toList ++
    props.flatMap (fun p => indent (ind + 1) ++ propText p ++ ";\n".toList) ++
    indent ind ++ "};\n".toList
  | .union [] => indent ind ++ "export type ".toList ++ name ++ " = never;\n".toList
  | .union alternatives =>
    indent ind ++ "export type ".toList ++ name ++ " =".toList ++
    alternatives.flatMap (fun props => "\n".toList ++ indent (ind + 1) ++ "| { ".toList ++ joinWith "; ".toList (props.map propText) ++ " }".toList) ++ ";\n".toList

/-! ### Values -/

/-- The names in scope. -/
structure TsEnv where
  /-- The namespace with this path exports a namespace with this name. -/
  namespaces : List Str → Str → Bool
  /-- The types, by the path of the namespace and the name. -/
  types : List Str × Str → Option TsDef

/-- The namespace of the type which `A.B.Name` is in the namespace `current`: without `A.B`, the innermost one around which has a type with this name. -/
def TsEnv.lookup (E : TsEnv) (current : List Str) : List Str → Str → Option (List Str)
  | [], name => ((List.range (current.length + 1)).reverse.find? (fun n => (E.types (current.take n, name)).isSome)).map (fun n => current.take n)
  | m :: rest, _ => tsResolve E.namespaces current (m :: rest)

/-- `v` is a value of the type `t`, which is written in the namespace `p`. -/
inductive TsTy.Has (E : TsEnv) (strict : Bool) (H : Nat → Option Obj) : List Str → TsTy → Val → Prop
  | number {p} (bits : UInt64) : Has E strict H p .number (encF64 bits)
  | boolean {p b} : Has E strict H p .boolean (.bool b)
  | bigint {p signed} {n : Int} : (strict = true → if signed then -2 ^ 63 ≤ n ∧ n < 2 ^ 63 else 0 ≤ n ∧ n < 2 ^ 64) → Has E strict H p (.bigint signed) (.big n)
  | string {p} (u : Utf8) : Has E strict H p .string (.str u.bytes)
  | null {p} : Has E strict H p .null .null
  | arrayBuffer {p r b} : H r = some (.buf b) → Has E strict H p .arrayBuffer (.buf r)
  | literal {p s} : Has E strict H p (.literal s) (.text s)
  | array {p t r l} : H r = some (.arr l) → (t = .null → l.length < 2 ^ 64) → (∀ v ∈ l, Has E strict H p t v) → Has E strict H p (.array t) (.arr r)
  | undefined {p t} : Has E strict H p (.orUndefined t) .undef
  | defined {p t v} : Has E strict H p t v → Has E strict H p (.orUndefined t) v
  | ref {p namespaces name q d props o} (value : Str → Val) : E.lookup p namespaces name = some q → E.types (q, name) = some d → d.Alternative props →
    (∀ n t, (n, t) ∈ props → member n o = some (value n)) → (∀ n t, (n, t) ∈ props → Has E strict H q t (value n)) →
    (strict = true → ∀ n ∈ o.map (·.1), n ∈ props.map (·.1)) → Has E strict H p (.ref namespaces name) (.obj o)

end Typical.TsGen
