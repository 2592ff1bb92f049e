import Verif.Front.Names
import Verif.Front.Modules

/-!
# Model of the definitions in generated code: which names each scope contains

`/repo/src/generate_rust.rs` and `/repo/src/generate_typescript.rs`: the names of modules, types, fields and variants which are
written, and the paths of the standard library without leading `::`.
-/

namespace Typical

/-- The suffixes of the three types written for a declaration, in order: `/repo/src/generate_rust.rs` lines 518-549 and
976-1007, `/repo/src/generate_typescript.rs` lines 582-613 and 975-1006. -/
def typeSuffixes : List NameSuffix := [.atlas, .out, .in_]

/-- The types written for a declaration: `/repo/src/generate_rust.rs` lines 518-549, 976-1007 (with 1432-1433, 1497-1498). -/
def Declaration.rustTypes (T : CharTable) (d : Declaration) : List Str :=
  typeSuffixes.map (fun x => rustPascal T d.name (some x))

/-- The items of a module, in the namespace of types: `write_module_contents`, `write_module`, `/repo/src/generate_rust.rs` lines
446-496. First the modules inside it, then the types. -/
def Module.rustItems (T : CharTable) : Module → List Str
  | .mk children schema => children.names.map rustSnake ++ schema.declarations.flatMap (Declaration.rustTypes T)

/-- Names in the namespace of types at the top of the generated Rust file: imported by `use std::{…}` (lines 140-144), and the traits
(lines 148-156). (`min` and `transmute` are in the namespace of values, which contains no modules or types with fields.) -/
def rustRootItems : List Str :=
  ["io".toList, "BufRead".toList, "Error".toList, "ErrorKind".toList, "Write".toList, "Serialize".toList, "Deserialize".toList]

/-- Does the code written to deserialize a field of this type contain the path `std::io::ErrorKind::UnexpectedEof` without leading
`::`? `write_deserialization_invocation`: lines 2154 and 2235; not for arrays of units (lines 2250-2263) and types which are
not arrays. -/
def TypeVariant.relativeStd : TypeVariant → Bool
  | .array _ .unit => false
  | .array _ _ => true
  | _ => false

/-- Does the code written for a declaration contain such a path? Structs: line 841. Choices: only through their fields. -/
def Declaration.relativeStd (d : Declaration) : Bool :=
  match d.variant with
  | .struct => true
  | .choice => d.fields.any (fun f => f.type.variant.relativeStd)

/-- The fields of the three Rust structs: `write_struct`, lines 1420-1481. -/
def rustFieldNames (x : NameSuffix) (fields : List Field) : List Str :=
  (if x = .atlas then ["_size".toList] else []) ++ fields.map (fun f => rustSnake f.name)

/-- The variants of the three Rust enums: `write_choice`, lines 1484-1562. -/
def rustVariantNames (T : CharTable) (fields : List Field) : List Str := fields.map (fun f => rustPascal T f.name none)

/-- The types in the generated TypeScript, each with the path of the namespace which contains it, as written:
`/repo/src/generate_typescript.rs` `write_module`, `write_module_contents` (lines 509-560), 582-613, 975-1006. (Namespaces
with the same name in the same namespace are merged by TypeScript.) -/
def Module.tsTypes (T : CharTable) (m : Module) : List (List Str × Str) :=
  (m.written []).flatMap (fun e =>
    typeSuffixes.map (fun x => (e.1.map (fun i => tsPascal T i none), tsPascal T e.2.name (some x))))

/-- The properties of the three types for a struct: `write_struct`, `/repo/src/generate_typescript.rs` lines 1329-1376. -/
def tsFieldNames (T : CharTable) (x : NameSuffix) (fields : List Field) : List Str :=
  (if x = .atlas then ["$size".toList] else []) ++ fields.map (fun f => tsCamel T f.name)

end Typical
