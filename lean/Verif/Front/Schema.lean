import Verif.Front.Identifier
import Verif.Types

/-!
# Model of the data types of `/repo/src/schema.rs` and `/repo/src/error.rs`

Collections: a `BTreeMap` is the list of its entries in ascending order of keys, a `BTreeSet` the ascending list of its
elements.
-/

namespace Typical

/-- `SourceRange`: `/repo/src/error.rs` line 94. Byte offsets; the end is excluded. -/
structure SourceRange where
  start : Nat
  stop : Nat
  deriving DecidableEq, Repr

/-- `TypeVariant`: lines 73-84. (`Array(Box<Type>)`: the range of the inner type is an argument of `array`.) -/
inductive TypeVariant
  | array (innerRange : SourceRange) (inner : TypeVariant)
  | bool
  | bytes
  | custom (import_ : Option Identifier) (name : Identifier)
  | f64
  | s64
  | string
  | u64
  | unit
  deriving DecidableEq

/-- `Type`: lines 67-71. -/
structure SchemaType where
  sourceRange : SourceRange
  variant : TypeVariant
  deriving DecidableEq

/-- `Field`: lines 50-58. -/
structure Field where
  sourceRange : SourceRange
  comment : List Str
  rule : Rule
  name : Identifier
  type : SchemaType
  index : Nat
  deriving DecidableEq

/-- `DeclarationVariant`: lines 44-48. -/
inductive DeclVariant
  | struct
  | choice
  deriving DecidableEq

/-- `Declaration`: lines 34-42. -/
structure Declaration where
  sourceRange : SourceRange
  comment : List Str
  variant : DeclVariant
  name : Identifier
  fields : List Field
  deleted : List Nat
  deriving DecidableEq

/-- `Namespace`: lines 86-93. Two namespaces are equal if their components are: see `Namespace.key`. -/
structure Namespace where
  components : List Identifier
  deriving DecidableEq

/-- What equality, order and hash of namespaces depend on (derived from those of identifiers). -/
def Namespace.key (n : Namespace) : List Str := n.components.map Identifier.snakeCase

/-- `Import`: lines 27-32. The path is the literal string; see `Verif.Front.Loader` for its components. -/
structure Import where
  sourceRange : SourceRange
  path : Str
  namespace_ : Option Namespace
  deriving DecidableEq

/-- `Schema`: lines 20-25. -/
structure Schema where
  comment : List Str
  imports : List (Identifier × Import)
  declarations : List Declaration
  deriving DecidableEq

/-- `BTreeMap::get` on a map with identifiers as keys. -/
def lookupIdent {α : Type} (k : Identifier) : List (Identifier × α) → Option α
  | [] => none
  | (k', a) :: l => if k'.snakeCase = k.snakeCase then some a else lookupIdent k l

/-- A set of loaded schemas: `BTreeMap<Namespace, (Schema, PathBuf, String)>`, without the source paths and contents, which
only appear in error messages. -/
abbrev Schemas := List (Namespace × Schema)

end Typical
