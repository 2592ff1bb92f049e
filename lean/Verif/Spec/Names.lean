import Verif.Front.Identifier

/-!
# Specification: identifiers of Rust and of TypeScript (for ASCII text), properties of JavaScript objects

Independent of the model. Sources: The Rust Reference, "Keywords" and "Identifiers"; ECMA-262, "Names and Keywords" and "Properties
of the Object Prototype Object".
-/

namespace Typical

/-- The ASCII names which a schema can contain: a letter, then letters, digits and underscores. -/
def PlainAscii (s : Str) : Prop :=
  ∃ c w, s = c :: w ∧ c.isAlpha = true ∧ ∀ d ∈ w, d.isAlphanum = true ∨ d = '_'

/-- `IDENTIFIER_OR_KEYWORD` of Rust, in ASCII. -/
def RustWord (s : Str) : Prop :=
  ∃ c w, s = c :: w ∧ (c.isAlpha = true ∨ (c = '_' ∧ w ≠ [])) ∧ ∀ d ∈ w, d.isAlphanum = true ∨ d = '_'

/-- The strict and reserved keywords of Rust, edition 2021. -/
def rust2021 : List String :=
  ["as", "async", "await", "break", "const", "continue", "crate", "dyn", "else", "enum", "extern", "false", "fn", "for",
   "if", "impl", "in", "let", "loop", "match", "mod", "move", "mut", "pub", "ref", "return", "self", "Self", "static",
   "struct", "super", "trait", "true", "type", "unsafe", "use", "where", "while",
   "abstract", "become", "box", "do", "final", "macro", "override", "priv", "try", "typeof", "unsized", "virtual", "yield"]

/-- In edition 2024, `gen` is also reserved. -/
def rust2024 : List String := "gen" :: rust2021

/-- Is this text one of the keywords? -/
def IsWord (keywords : List String) (s : Str) : Prop := ∃ k ∈ keywords, s = k.toList

/-- An identifier of Rust: a word which is not a keyword, or `r#` and a word except four. -/
def RustIdentifier (keywords : List String) (s : Str) : Prop :=
  (RustWord s ∧ ¬ IsWord keywords s) ∨
  ∃ w, s = 'r' :: '#' :: w ∧ RustWord w ∧ ¬ IsWord ["crate", "self", "super", "Self"] w

/-- The reserved words of ECMAScript, with those which are reserved in strict mode and in modules. -/
def jsReserved : List String :=
  ["await", "break", "case", "catch", "class", "const", "continue", "debugger", "default", "delete", "do", "else", "enum",
   "export", "extends", "false", "finally", "for", "function", "if", "import", "in", "instanceof", "new", "null", "return",
   "super", "switch", "this", "throw", "true", "try", "typeof", "var", "void", "while", "with", "yield", "let", "static",
   "implements", "interface", "package", "private", "protected", "public"]

/-- `IdentifierName` of ECMAScript, in ASCII. -/
def JsName (s : Str) : Prop :=
  ∃ c w, s = c :: w ∧ (c.isAlpha = true ∨ c = '_' ∨ c = '$') ∧ ∀ d ∈ w, d.isAlphanum = true ∨ d = '_' ∨ d = '$'

/-- An identifier of ECMAScript. -/
def JsIdentifier (s : Str) : Prop := JsName s ∧ ¬ IsWord jsReserved s

/-- The names of the properties of `Object.prototype`, which all objects inherit. -/
def objectPrototype : List String :=
  ["constructor", "hasOwnProperty", "isPrototypeOf", "propertyIsEnumerable", "toLocaleString", "toString", "valueOf",
   "__proto__", "__defineGetter__", "__defineSetter__", "__lookupGetter__", "__lookupSetter__"]

/-- The operator `in` for an object written as a literal with these keys. -/
def hasProperty (keys : List Str) (name : Str) : Bool :=
  keys.contains name || objectPrototype.any (fun k => k.toList == name)

end Typical
