import Verif.Front.Schema

/-!
# Model of the names in generated code

`write_identifier` of `/repo/src/generate_rust.rs` and of `/repo/src/generate_typescript.rs`, the names of local variables, and the
tests by which the generated TypeScript recognizes the field of a choice.
-/

namespace Typical

/-- `RUST_KEYWORDS`: `/repo/src/generate_rust.rs` lines 20-73. -/
def rustKeywords : List String :=
  ["Self", "abstract", "as", "async", "await", "become", "box", "break", "const", "continue", "crate", "do", "dyn",
   "else", "enum", "extern", "false", "final", "fn", "for", "if", "impl", "in", "let", "loop", "macro",
   "macro_rules", "match", "mod", "move", "mut", "override", "priv", "pub", "ref", "return", "self", "static",
   "struct", "super", "trait", "true", "try", "type", "typeof", "union", "unsafe", "unsized", "use", "virtual",
   "where", "while", "yield"]

/-- `TYPESCRIPT_KEYWORDS`: `/repo/src/generate_typescript.rs` lines 16-96. -/
def tsKeywords : List String :=
  ["abstract", "any", "as", "assert", "asserts", "async", "await", "bigint", "boolean", "break", "case", "catch",
   "class", "const", "constructor", "continue", "debugger", "declare", "default", "delete", "do", "else", "enum",
   "export", "extends", "false", "finally", "for", "from", "function", "get", "global", "if", "implements", "import",
   "in", "infer", "instanceof", "interface", "intrinsic", "is", "keyof", "let", "module", "namespace", "never",
   "new", "null", "number", "object", "of", "override", "package", "private", "protected", "public", "readonly",
   "require", "return", "set", "static", "string", "super", "switch", "symbol", "this", "throw", "true", "try",
   "type", "typeof", "undefined", "unique", "unknown", "var", "void", "while", "with", "yield"]

/-- `Direction`: `/repo/src/generate_rust.rs` lines 92-98, `/repo/src/generate_typescript.rs` lines 113-120. -/
inductive NameSuffix
  | atlas
  | in_
  | out
  deriving DecidableEq

/-- The text of a suffix: `/repo/src/generate_rust.rs` lines 1731-1735, `/repo/src/generate_typescript.rs` lines 1681-1685. -/
def NameSuffix.text : NameSuffix → Str
  | .atlas => "Atlas".toList
  | .in_ => "In".toList
  | .out => "Out".toList

/-- The identifier with the suffix: `/repo/src/generate_rust.rs` lines 1728-1740, `/repo/src/generate_typescript.rs` lines
1678-1690. -/
def withSuffix (T : CharTable) (i : Identifier) : Option NameSuffix → Identifier
  | none => i
  | some x => i.join T (Identifier.ofStr T x.text)

/-- `write_identifier` in Rust, given the converted name: lines 1747-1755. -/
def rustEscape (s : Str) : Str := if rustKeywords.any (fun k => k.toList == s) then 'r' :: '#' :: s else s

/-- `write_identifier` with `Snake`: `/repo/src/generate_rust.rs` lines 1722-1757. -/
def rustSnake (i : Identifier) : Str := rustEscape i.snakeCase

/-- `write_identifier` with `Pascal`: `/repo/src/generate_rust.rs` lines 1722-1757. -/
def rustPascal (T : CharTable) (i : Identifier) (x : Option NameSuffix) : Str := rustEscape ((withSuffix T i x).pascalCase T)

/-- The local variable for a field of a struct: `/repo/src/generate_rust.rs` lines 645-646, 695-701, 728-729, 820-821, 877-878,
915-916, 942-943. An underscore followed by the written identifier. -/
def rustLocal (i : Identifier) : Str := '_' :: rustSnake i

/-- `write_identifier` in TypeScript, given the converted name: lines 1697-1704. -/
def tsEscape (s : Str) : Str := if tsKeywords.any (fun k => k.toList == s) then '_' :: s else s

/-- `write_identifier` with `Camel`: `/repo/src/generate_typescript.rs` lines 1672-1707. -/
def tsCamel (T : CharTable) (i : Identifier) : Str := tsEscape (i.camelCase T)

/-- `write_identifier` with `Pascal`: `/repo/src/generate_typescript.rs` lines 1672-1707. -/
def tsPascal (T : CharTable) (i : Identifier) (x : Option NameSuffix) : Str := tsEscape ((withSuffix T i x).pascalCase T)

/-- The local variable for a field of a struct: `/repo/src/generate_typescript.rs` lines 670-671, 844-845, 907-908, 944-945, 964-965. -/
def tsLocal (T : CharTable) (i : Identifier) : Str := '$' :: tsCamel T i

/-- The field of a choice for which the generated `atlas` and `serializeWithAtlasUnsafe` take an object: the tests `'…' in message`, in
the order of the declaration, `/repo/src/generate_typescript.rs` lines 1049-1107 and 1141-1198. `has` tells whether the
object has a property of this name. The result is the position of the field; the number of fields if no test succeeds. -/
def tsDispatch (T : CharTable) (has : Str → Bool) (fields : List Field) : Nat :=
  fields.findIdx (fun f => has (tsCamel T f.name))

end Typical
